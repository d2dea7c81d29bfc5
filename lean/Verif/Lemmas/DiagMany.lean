import Verif.Lemmas.DiagRun
import Verif.Lemmas.Parser.Runs
/-
Errors that are recorded more than once: what is read in one branch and given up is read again in another.
-/

namespace Kdl
open Spec

section
variable [FloatIO] (total : Nat)

/-- An opening brace after which nothing closes the block. -/
theorem slashBlock_run {base : D Node} {x : Str} {d : Document} {A : List Rec}
    (hx : ∀ l, nodesDF total base x l = .ok d [] (l ++ A)) (l : List Rec) :
    nodeChildrenDF total base ('{' :: x) l = .ok .new [] (l ++ (A ++ unclosedRecs ('{' :: x) x [] d)) := by
  unfold nodeChildrenDF
  rw [D.here_run, D.bind_run (D.lift_run (.lit _) (lit_one _ _) l), D.here_run, D.bind_run (hx l), ← List.append_assoc]
  rfl

theorem slashChildren_run {base : D Node} {b x : Str} {d : Document} {A : List Rec} (hb : LSpace ['{'] b)
    (hx : ∀ l, nodesDF total base x l = .ok d [] (l ++ A)) (l : List Rec) :
    slashdashedChildrenDF total base ('/' :: '-' :: (b ++ '{' :: x)) l = .ok () [] (l ++ (A ++ unclosedRecs ('{' :: x) x [] d)) := by
  have hs := solid_lit (c := '{') (by simp) x
  have hS : Slash ('/' :: '-' :: (b ++ '{' :: x)) := ⟨_, rfl⟩
  unfold slashdashedChildrenDF
  rw [D.bind_run (D.lift_run .nodeSpace0 (show nodeSpace0 _ = _ from void_eq (rep0_nil hS.nodeSpace)) l)]
  refine D.void_run (a := [()]) ?_
  unfold D.sep1
  rw [D.bind_run (a := ()) (r := []) (l' := l ++ (A ++ unclosedRecs ('{' :: x) x [] d)) ?_]
  · rfl
  · rw [D.bind_run (D.lift_run .slashdash (slashdash_eq (hb.swap (by simp) hs.notNl) hs.lineSpace) l)]
    exact D.void_run (slashBlock_run total hx l)

theorem slashEntries_back {b : Str} (hb : LSpace ['{'] b) (x : Str) (l : List Rec) :
    ∃ e r, slashdashedEntriesD total ('/' :: '-' :: (b ++ '{' :: x)) l = .back e r l :=
  DTr.run_back (.slashdashedEntriesD total id) (.slashdashedEntriesR _ total) (void_back (sep1_back (brace_sdEntry hb total))) l

theorem slashBefore_run {base : D Node} {w b x : Str} {d : Document} {A : List Rec} (hw : NSpace ['/', '-'] w) (hne : w ≠ [])
    (hb : LSpace ['{'] b) (hx : ∀ l, nodesDF total base x l = .ok d [] (l ++ A)) (l : List Rec) :
    beforeNodeChildrenDF total base (w ++ '/' :: '-' :: (b ++ '{' :: x)) l =
      .ok () [] (l ++ (A ++ unclosedRecs ('{' :: x) x [] d)) := by
  have hs0 : Space0 w ('/' :: '-' :: (b ++ '{' :: x)) := hw.slash ⟨_, rfl⟩ (r := b ++ '{' :: x)
  obtain ⟨_, _, _, h4⟩ := hs0.space1 hne
  have hsp := D.lift_run .nodeSpace1 h4 l
  obtain ⟨e, r, hb'⟩ := slashEntries_back total hb x l
  unfold beforeNodeChildrenDF
  rw [D.bind_run (a := ()) (r := []) (l' := l ++ (A ++ unclosedRecs ('{' :: x) x [] d)) ?_]
  · rfl
  · unfold D.alt
    rw [D.bind_run hsp, D.bind_run_back hb']
    simp only []
    rw [D.bind_run hsp, hb']
    simp only []
    rw [D.bind_run hsp, slashChildren_run total hb hx l]

/-- A node with a slashdashed children block that is not closed: the errors are recorded twice. -/
theorem slashNode_run {base : D Node} {ty : Option Str} {tt nm nt T w b x : Str} {ds : List (SEntry Value)} {d : Document}
    {A : List Rec} (h1 : TyTok ty tt) (h2 : StrTok nm nt) (h3 : EntsTok id ds T) (hw : NSpace ['/', '-'] w) (hne : w ≠ [])
    (hb : LSpace ['{'] b) (hx : ∀ l, nodesDF total base x l = .ok d [] (l ++ A)) (l : List Rec) :
    ∃ n, baseNodeDF total base (tt ++ (nt ++ (T ++ (w ++ '/' :: '-' :: (b ++ '{' :: x))))) l =
      .ok n [] (l ++ ((A ++ unclosedRecs ('{' :: x) x [] d) ++ (A ++ unclosedRecs ('{' :: x) x [] d))) := by
  have hS : Slash ('/' :: '-' :: (b ++ '{' :: x)) := ⟨_, rfl⟩
  have hs0 : Space0 w ('/' :: '-' :: (b ++ '{' :: x)) := hw.slash ⟨_, rfl⟩ (r := b ++ '{' :: x)
  have hy : NoEntry (w ++ '/' :: '-' :: (b ++ '{' :: x)) := by
    refine hs0.noEntry hne hS.notEq fun total => ⟨w, _, ?_, hS.entryBody total⟩
    unfold entryLeadingF
    apply takeP_eq (a := none)
    rw [bind_eq hs0]
    exact opt_none (bind_back (void_back (sep1_back (brace_sdEntry hb total))))
  have hY := (h3.follow hy).1
  have hs := h1.starts (h2.starts.append (T ++ (w ++ '/' :: '-' :: (b ++ '{' :: x))))
  obtain ⟨e1, e2⟩ := hs.notEnd
  obtain ⟨o, q1, af, e3, e4, e5⟩ := h1.parse (h2.starts.append (T ++ (w ++ '/' :: '-' :: (b ++ '{' :: x)))) (h2.not_paren _) total
  have e8 := identifier_eq (total := total) (h2 _ hY)
  obtain ⟨es, e6, _⟩ := h3.entries hy total
  have hne' : nt ≠ [] := by
    obtain ⟨c, q, rfl, _⟩ := h2.head
    simp
  unfold baseNodeDF
  rw [D.bind_run (D.lift_run (.notP (.alt (.lit _) .eof)) e1 l), D.here_run]
  have ho : D.resume (.lift (.cutErr (.ctx openCx (.notP (.lit ['{']))))) (lit ['{']) _ l = .ok (some ()) _ l :=
    D.resume_run (D.lift_run (.cutErr (.ctx (.notP (.lit _)))) e2 l)
  unfold openCurlyD
  rw [ho]
  change ∃ n, goodNodeD total base _ _ l = _
  unfold goodNodeD
  rw [D.bind_run (DTr.run (.opt (.tyD total id)) (.opt (.tyR _ total)) e3 l),
    D.bind_run (D.lift_run (.takeP .nodeSpace0) e4 l), D.here_run,
    D.bind_run (D.resume_run (DTr.run (.name total id) (.cutErr (.identifierR _ total)) (cutErr_eq e8) l))]
  have hc : ∀ b x, checkNameD b { value := nm, repr := some nt, span := x } = D.pure none := by
    intro b x
    unfold checkNameD
    rw [if_neg (by simpa using hne')]
  simp only [Option.getD_some, id]
  rw [hc]
  change ∃ n, (entriesD total >>= _) _ l = _
  rw [D.bind_run (DTr.run (.entriesD total id) (.entriesR _ total) e6 l)]
  have e5 : childrenD total base (w ++ '/' :: '-' :: (b ++ '{' :: x)) l =
      .ok none (w ++ '/' :: '-' :: (b ++ '{' :: x)) (l ++ (A ++ unclosedRecs ('{' :: x) x [] d)) := by
    refine D.opt_run_back (e := {}) (r := []) ?_
    rw [D.bind_run (D.takeP_run (slashBefore_run total hw hne hb hx l))]
    rfl
  have e6 : tailD total base false (w ++ '/' :: '-' :: (b ++ '{' :: x)) (l ++ (A ++ unclosedRecs ('{' :: x) x [] d)) =
      .ok (taken (w ++ '/' :: '-' :: (b ++ '{' :: x)) [], []) []
        (l ++ (A ++ unclosedRecs ('{' :: x) x [] d) ++ (A ++ unclosedRecs ('{' :: x) x [] d)) := by
    unfold tailD
    rw [D.bind_run (show tailTextD total base false _ _ = _ from D.takeP_run (slashBefore_run total hw hne hb hx _))]
    rfl
  rw [D.bind_run e5]
  simp only [Option.isSome_none]
  rw [D.bind_run e6]
  exact ⟨_, congrArg (DRes.ok _ []) (List.append_assoc _ _ _)⟩

/-- One node that is read to the end of the text, with errors. -/
theorem oneNode_run {base : D Node} {S : Str} {n : Node} {l A : List Rec} (hlead : leadingItemsD base S l = .ok [] S l)
    (hb : base S l = .ok n [] (l ++ A)) :
    ∃ d : Document, nodesDF total base S l = .ok d [] (l ++ A) := by
  have hnode : nodeDF base S l = .ok (n.setFormat (n.format.map fun f => { f with leading := [] })) [] (l ++ A) := by
    unfold nodeDF
    rw [D.bind_run hlead, D.bind_run hb]
    rfl
  unfold nodesDF
  rw [D.bind_run hlead, D.here_run]
  have : D.sep0 (nodeDF base) (.lift nodeTerminatorL) S l =
      .ok [n.setFormat (n.format.map fun f => { f with leading := [] })] [] (l ++ A) := by
    unfold D.sep0
    rw [hnode]
    rfl
  rw [D.bind_run this]
  exact ⟨_, rfl⟩

/-- Nodes that were read are empty, as text, only if there was nothing to read. -/
theorem nodes_isEmpty {t : Str} {d : Document} (h : nodesF total (baseNode total) t = .ok d []) :
    d.isEmpty = decide (t = []) := by
  obtain ⟨t', e, f, body, hf, hst, hsub, heq⟩ := nodesF_text (baseNode_text total t) (Strict.baseNode total).sfx
    (baseNode_back total) (pre := []) rfl h
  have hr := RunsBelow.nodesF (k := t.length + 1) RunsBelow.baseNode (Nat.lt_succ_self _) (Sub.refl t) h
  rw [List.append_nil] at e
  subst e
  have hlen : d.isEmpty = decide (d.display = []) := by
    unfold Document.isEmpty Document.len
    cases d.display with
    | nil => rfl
    | cons c q =>
      have := c.utf8Size_pos
      simp [utf8Len]
      omega
  rw [hlen]
  congr 1
  apply propext
  constructor
  · intro h0
    have hn : PrintableDoc (NoGap t) d := by
      cases hr with
      | @mk ns f span hns _ _ =>
        cases ns with
        | nil => simp [PrintableDoc, PrintableNodes]
        | cons n ns =>
          exfalso
          have h1 := hns n (by simp)
          cases h1 with
          | @mk _ name _ _ _ _ _ h2 =>
            obtain ⟨s, r, _, h2⟩ := h2
            obtain ⟨t, hne, _, hrep, _⟩ := identifier_inv h2
            have : name.display = [] := by
              simp only [Document.display, Document.stringify, nodesStringify, Node.stringify, List.append_eq_nil_iff] at h0
              exact h0.1.2.1.1.1.1.2
            unfold Ident.display at this
            rw [hrep] at this
            exact hne this
    have := heq hn
    rw [Document.display, hst] at h0
    rw [← this, h0]
  · rintro rfl
    rw [Document.display, hst]
    exact List.sublist_nil.mp hsub

theorem DTr.all {p : D α} {q : R α} (h : DTr p q) {s r : Str} {a : α} {A : List Rec} (hp : p s [] = .ok a r A)
    (l : List Rec) : p s l = .ok a r (l ++ A) := by
  rw [h.after, hp]
  rfl

/-- Nothing precedes a node. -/
theorem noLeading_run {base : D Node} {S : Str} (hs : Solid S) (l : List Rec) : leadingItemsD base S l = .ok [] S l := by
  obtain ⟨e1, r1, h1⟩ := D.lift_run_back .lineSpace hs.lineSpace l
  obtain ⟨e2, r2, h2⟩ := D.lift_run_back .slashdash hs.slashdash l
  have : D.rep0 (D.alt (.lift lineSpaceL) (do .lift slashdashL; D.void base)) S l = .ok [] S l := by
    unfold D.rep0 D.repFuel D.alt
    rw [h1]
    simp only []
    rw [D.bind_run_back h2]
  have := D.takeP_run this
  rw [show taken S S = [] by simp [taken]] at this
  exact this

/-- What is read of nodes in slashdashed blocks that are not closed. -/
theorem manyNodes_run {ty : Option Str} {tt nm nt T w b : Str} {ds : List (SEntry Value)}
    (h1 : TyTok ty tt) (h2 : StrTok nm nt) (h3 : EntsTok id ds T) (hw : NSpace ['/', '-'] w) (hne : w ≠ []) (hb : LSpace ['{'] b)
    {f : Nat → Str} (h0 : f 0 = []) (hf : ∀ n, f (n + 1) = tt ++ (nt ++ (T ++ (w ++ '/' :: '-' :: (b ++ '{' :: f n))))) :
    ∀ (k m : Nat), k < m → ∃ d A, (∀ l, nodesDF total (baseNodeDN total m) (f k) l = .ok d [] (l ++ A)) ∧ 2 ^ k ≤ A.length + 1
  | 0, m, hm => by
    obtain ⟨d, hd⟩ : ∃ d, nodesF total (baseNode total) [] = .ok d [] := ⟨_, rfl⟩
    refine ⟨d, [], fun l => ?_, Nat.le_refl _⟩
    rw [h0, List.append_nil]
    exact nodesDN_run total hm hd l
  | k + 1, m + 1, hm => by
    obtain ⟨d, A, h4, h5⟩ := manyNodes_run h1 h2 h3 hw hne hb h0 hf k m (by omega)
    obtain ⟨n, hn⟩ := slashNode_run total h1 h2 h3 hw hne hb h4 []
    have hs := h1.starts (h2.starts.append (T ++ (w ++ '/' :: '-' :: (b ++ '{' :: f k))))
    obtain ⟨d', hd'⟩ := oneNode_run total (base := baseNodeDN total (m + 1)) (noLeading_run hs.solid []) hn
    refine ⟨d', (A ++ unclosedRecs ('{' :: f k) (f k) [] d) ++ (A ++ unclosedRecs ('{' :: f k) (f k) [] d), fun l => ?_, ?_⟩
    · rw [hf]
      exact DTr.all (.nodesDF total (.baseNodeDN total id (m + 1))) hd' l
    · simp only [List.length_append, unclosedRecs, List.length_cons]
      rw [Nat.pow_succ]
      omega

/-- A document of one node, with errors. -/
theorem oneDoc_run {S : Str} {n : Node} {l A : List Rec} (hs : Starts S) (hb : baseNodeD total S l = .ok n [] (l ++ A))
    (k : Nat) : ∃ d', documentDN total (k + 1) S l = .ok d' [] (l ++ A) := by
  obtain ⟨d', hd⟩ := oneNode_run total (noLeading_run hs.solid l) hb
  refine ⟨d', ?_⟩
  unfold documentDN documentDF
  rw [D.bind_run (noBom_run (starts_not_bom hs) l), D.bind_run hd]
  rfl

/-- `document` reads to the end of the text. -/
theorem documentDN_end (n : Nat) : ∀ (s : Str) (l : List Rec) (d : Document) (r : Str) (l' : List Rec),
    documentDN total n s l = .ok d r l' → r = [] := by
  induction n with
  | zero => intro s l d r l' h; cases h
  | succ n ih =>
    intro s l d r l' h
    have key : ∀ s l u r l', docEndD (documentDN total n) s l = .ok u r l' → r = [] := by
      intro s l u r l' h
      cases s with
      | nil => cases h; rfl
      | cons c q =>
        change D.void (documentDN total n) q _ = _ at h
        unfold D.void at h
        change D.bind _ _ _ _ = _ at h
        unfold D.bind at h
        split at h
        · next hx =>
          cases h
          exact ih _ _ _ _ _ hx
        all_goals cases h
    change D.bind _ _ _ _ = _ at h
    unfold D.bind at h
    split at h
    · change D.bind _ _ _ _ = _ at h
      unfold D.bind at h
      split at h
      · change D.bind _ _ _ _ = _ at h
        unfold D.bind at h
        split at h
        · next hx =>
          obtain rfl := key _ _ _ _ _ hx
          split at h <;> cases h <;> rfl
        all_goals cases h
      all_goals cases h
    all_goals cases h

end

end Kdl
