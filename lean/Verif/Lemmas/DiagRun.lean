import Verif.Lemmas.DiagGrammar
import Verif.Lemmas.RecoverGrammar
import Verif.Lemmas.Parser.Concat
/-
Where the strict parser succeeds or backtracks, the parser with diagnostics does the same and records nothing.
-/

namespace Kdl
open Spec

theorem D.bind_run {p : D α} {f : α → D β} {s r : Str} {a : α} {l l' : List Rec} (h : p s l = .ok a r l') :
    (p >>= f) s l = f a r l' := by
  change D.bind p f s l = _
  unfold D.bind
  rw [h]

theorem D.bind_run_back {p : D α} {f : α → D β} {s r : Str} {e : PErr} {l l' : List Rec} (h : p s l = .back e r l') :
    (p >>= f) s l = .back e r l' := by
  change D.bind p f s l = _
  unfold D.bind
  rw [h]

theorem D.here_run {f : Str → D β} {s : Str} {l : List Rec} : (D.here >>= f) s l = f s s l := rfl

theorem D.opt_run {p : D α} {s r : Str} {a : α} {l l' : List Rec} (h : p s l = .ok a r l') :
    D.opt p s l = .ok (some a) r l' := by
  unfold D.opt
  rw [h]

theorem D.opt_run_back {p : D α} {s r : Str} {e : PErr} {l l' : List Rec} (h : p s l = .back e r l') :
    D.opt p s l = .ok none s l' := by
  unfold D.opt
  rw [h]

theorem D.takeP_run {p : D α} {s r : Str} {a : α} {l l' : List Rec} (h : p s l = .ok a r l') :
    D.takeP p s l = .ok (taken s r) r l' := by
  unfold D.takeP
  rw [D.here_run, D.bind_run h]
  rfl

theorem D.void_run {p : D α} {s r : Str} {a : α} {l l' : List Rec} (h : p s l = .ok a r l') :
    D.void p s l = .ok () r l' := by
  unfold D.void
  rw [D.bind_run h]
  rfl

theorem D.resume_run {p : D α} {q : P Unit} {s r : Str} {a : α} {l l' : List Rec} (h : p s l = .ok a r l') :
    D.resume p q s l = .ok (some a) r l' := by
  unfold D.resume
  rw [h]

theorem D.lift_run {p : L α} {q : P α} (h : LTr p q) {s r : Str} {a : α} (hq : q s = .ok a r) (l : List Rec) :
    D.lift p s l = .ok a r l := by
  have h1 := (h s).1
  rw [hq] at h1
  unfold D.lift
  cases hp : p s <;> rw [hp] at h1 <;> cases h1
  rfl

theorem D.lift_run_back {p : L α} {q : P α} (h : LTr p q) {s : Str} (hq : q s = .back) (l : List Rec) :
    ∃ e r, D.lift p s l = .back e r l := by
  have h1 := (h s).1
  rw [hq] at h1
  unfold D.lift
  cases hp : p s <;> rw [hp] at h1 <;> cases h1
  exact ⟨_, _, rfl⟩

theorem after_same {l l' : List Rec} (h : (l ++ l').map Prod.snd = l.map Prod.snd) : l ++ l' = l := by
  have : l'.length = 0 := by
    have := congrArg List.length h
    simp at this
    simp [this]
  rw [List.length_eq_zero_iff.mp this, List.append_nil]

theorem DTr.run {p : D β} {q : R β} {p' : P α} {f : α → β} (h : DTr p q) (hs : Sim f p' q) {s r : Str} {a : α}
    (hp : p' s = .ok a r) (l : List Rec) : p s l = .ok (f a) r l := by
  have h1 := h.erase s l
  have h2 := hs s (l.map Prod.snd)
  have h3 := h.after s l
  rw [hp] at h2
  rw [show q s (l.map Prod.snd) = .ok (f a) r (l.map Prod.snd) from h2] at h1
  rw [h3] at h1 ⊢
  cases hx : p s [] with
  | ok a' r' l' =>
    rw [hx] at h1
    injection h1 with e1 e2 e3
    rw [e1, e2]
    exact congrArg _ (after_same e3)
  | _ => rw [hx] at h1; cases h1

theorem DTr.run_back {p : D β} {q : R β} {p' : P α} {f : α → β} (h : DTr p q) (hs : Sim f p' q) {s : Str}
    (hp : p' s = .back) (l : List Rec) : ∃ e r, p s l = .back e r l := by
  have h1 := h.erase s l
  have h2 := hs s (l.map Prod.snd)
  have h3 := h.after s l
  rw [hp] at h2
  rw [show q s (l.map Prod.snd) = .back (l.map Prod.snd) from h2] at h1
  rw [h3] at h1 ⊢
  cases hx : p s [] with
  | back e' r' l' =>
    rw [hx] at h1
    injection h1 with e3
    exact ⟨e', r', congrArg _ (after_same e3)⟩
  | _ => rw [hx] at h1; cases h1

section
variable [FloatIO] (total : Nat)

/-- Nodes that the strict parser reads. -/
theorem nodesDN_run {n : Nat} {s r : Str} {d : Document} (hn : s.length < n)
    (h : nodesF total (baseNode total) s = .ok d r) (l : List Rec) :
    nodesDF total (baseNodeDN total n) s l = .ok d r l := by
  have h1 : nodesF total (baseNodeN total n) s = .ok d r := by
    rw [← h]
    refine Agree.nodesF (n := n) ?_ (Strict.baseNodeN total n) (Strict.baseNode total) s hn
    exact fun q hq => (baseNodeN_agree total (q.length + 1) n (by omega) q (by omega)).symm
  exact DTr.run (.nodesDF total (.baseNodeDN total id n)) (.nodesRF total (.baseNodeRN _ total n) (.baseNodeRN _ total n)) h1 l

theorem nodesD_run {s r : Str} {d : Document} (h : nodesF total (baseNode total) s = .ok d r) (l : List Rec) :
    nodesDF total (baseNodeD total) s l = .ok d r l :=
  DTr.run (.nodesDF total (.baseNodeD total id)) (.nodesRF total (.baseNodeR _ total) (.baseNodeR _ total)) h l

theorem beforeDN_run {n : Nat} {s r : Str} (hn : s.length < n + 1)
    (h : beforeNodeChildrenF total (baseNode total) s = .ok () r) (l : List Rec) :
    beforeNodeChildrenDF total (baseNodeDN total n) s l = .ok () r l := by
  have h1 : beforeNodeChildrenF total (baseNodeN total n) s = .ok () r := by
    rw [← h]
    refine Agree.beforeNodeChildrenF (n := n) ?_ (Strict.baseNodeN total n) (Strict.baseNode total) s hn
    exact fun q hq => (baseNodeN_agree total (q.length + 1) n (by omega) q (by omega)).symm
  exact DTr.run (.beforeNodeChildrenDF total id (.baseNodeDN total id n))
    (.beforeNodeChildrenRF _ total (.baseNodeRN _ total n) (.baseNodeRN _ total n)) h1 l

theorem leadingItemsD_run {s r : Str} {a : Str} (h : leadingItems (baseNode total) s = .ok a r) (l : List Rec) :
    leadingItemsD (baseNodeD total) s l = .ok a r l :=
  DTr.run (.leadingItemsD (.baseNodeD total id)) (.leadingItemsR (.baseNodeR _ total) (.baseNodeR _ total)) h l

/-- An accepted document. -/
theorem documentDN_run {n : Nat} {s r : Str} {d : Document} (h : documentP total s = .ok d r) (l : List Rec) :
    documentDN total (n + 1) s l = .ok d r l :=
  DTr.run (.documentDN total id (n + 1))
    (Sim.documentRF _ total (Fwd.documentRN _ total n)) h l

omit [FloatIO] in
theorem noBom_run {s : Str} (h : ∀ q, s ≠ Char.ofNat 0xFEFF :: q) (l : List Rec) :
    D.lift (.opt (.takeP bomL)) s l = .ok none s l :=
  D.lift_run (.opt (.takeP .bom)) (opt_none (takeP_back (lit_back.mpr h))) l

omit [FloatIO] in
theorem starts_not_bom {s : Str} (h : Starts s) (q : Str) : s ≠ Char.ofNat 0xFEFF :: q := by
  obtain ⟨c, q', rfl, hc⟩ := h
  intro e
  obtain ⟨rfl, _⟩ := List.cons.inj e
  exact absurd hc (by unfold Start IdentChar; decide)

/-- The errors of a missing brace; the input was `before` at the opening brace. -/
def unclosedRecs (before opened stop : Str) (d : Document) : List Rec :=
  ({ message := some "No closing '}' for child block", label := some "closed" }, ⟨before, opened⟩) ::
    if d.isEmpty then []
    else [({ message := some "Closing '}' was not found after nodes", label := some "closed" }, ⟨opened, stop⟩)]

/-- A node whose children block is not closed. -/
theorem unclosed_base {ty : Option Str} {tt nm nt T w t : Str} {ds : List (SEntry Value)} {d : Document}
    (h1 : TyTok ty tt) (h2 : StrTok nm nt) (h3 : EntsTok id ds T) (h4 : Mid w ('{' :: t))
    (h5 : nodesF total (baseNode total) t = .ok d []) (l : List Rec) :
    ∃ n, baseNodeD total (tt ++ (nt ++ (T ++ (w ++ '{' :: t)))) l = .ok n [] (l ++ unclosedRecs ('{' :: t) t [] d) := by
  obtain ⟨hy, h6⟩ := h4
  have hY := (h3.follow hy).1
  have hs := h1.starts (h2.starts.append (T ++ (w ++ '{' :: t)))
  obtain ⟨e1, e2⟩ := hs.notEnd
  obtain ⟨o, q1, af, e3, e4, e5⟩ := h1.parse (h2.starts.append (T ++ (w ++ '{' :: t))) (h2.not_paren _) total
  have e8 := identifier_eq (total := total) (h2 _ hY)
  obtain ⟨es, e6, _⟩ := h3.entries hy total
  have hne : nt ≠ [] := by
    obtain ⟨c, q, rfl, _⟩ := h2.head
    simp
  have hlen : (w ++ '{' :: t).length < (tt ++ (nt ++ (T ++ (w ++ '{' :: t)))).length + 1 := by
    simp only [List.length_append]; omega
  have hlen' : t.length < (tt ++ (nt ++ (T ++ (w ++ '{' :: t)))).length := by
    simp only [List.length_append, List.length_cons]; omega
  change ∃ n, baseNodeDF total (baseNodeDN total (tt ++ (nt ++ (T ++ (w ++ '{' :: t)))).length) _ l = _
  generalize hk : (tt ++ (nt ++ (T ++ (w ++ '{' :: t)))).length = k at hlen hlen'
  unfold baseNodeDF
  rw [D.bind_run (D.lift_run (.notP (.alt (.lit _) .eof)) e1 l), D.here_run]
  generalize hS : tt ++ (nt ++ (T ++ (w ++ '{' :: t))) = S at *
  have ho : D.resume (.lift (.cutErr (.ctx openCx (.notP (.lit ['{']))))) (lit ['{']) S l = .ok (some ()) S l :=
    D.resume_run (D.lift_run (.cutErr (.ctx (.notP (.lit _)))) e2 l)
  unfold openCurlyD
  rw [ho]
  change ∃ n, goodNodeD total (baseNodeDN total k) S S l = _
  unfold goodNodeD
  rw [D.bind_run (DTr.run (.opt (.tyD total id)) (.opt (.tyR _ total)) e3 l),
    D.bind_run (D.lift_run (.takeP .nodeSpace0) e4 l), D.here_run,
    D.bind_run (D.resume_run (DTr.run (.name total id) (.cutErr (.identifierR _ total)) (cutErr_eq e8) l))]
  have hc : ∀ b x, checkNameD b { value := nm, repr := some nt, span := x } = D.pure none := by
    intro b x
    unfold checkNameD
    rw [if_neg (by simpa using hne)]
  simp only [Option.getD_some, id]
  rw [hc]
  change ∃ n, (entriesD total >>= _) _ l = _
  rw [D.bind_run (DTr.run (.entriesD total id) (.entriesR _ total) e6 l)]
  have hch : childrenD total (baseNodeDN total k) (w ++ '{' :: t) l =
      .ok (some (taken (w ++ '{' :: t) ('{' :: t), Document.new)) [] (l ++ unclosedRecs ('{' :: t) t [] d) := by
    refine D.opt_run ?_
    rw [D.bind_run (D.takeP_run (beforeDN_run total hlen (h6 total) l))]
    refine D.bind_run (a := Document.new) (r := []) (l' := l ++ unclosedRecs ('{' :: t) t [] d) ?_
    unfold nodeChildrenDF
    rw [D.here_run, D.bind_run (D.lift_run (.lit _) (lit_one _ _) l), D.here_run, D.bind_run (nodesDN_run total hlen' h5 l)]
    rfl
  rw [D.bind_run hch]
  simp only [Option.isSome_some]
  rw [D.bind_run (show tailD total (baseNodeDN total k) true [] _ = .ok ([], []) [] _ from rfl)]
  exact ⟨_, rfl⟩

/-- A document of one node whose children block is not closed. -/
theorem unclosed_doc {ty : Option Str} {tt nm nt T w t : Str} {ds : List (SEntry Value)} {d : Document} (n : Nat)
    (h1 : TyTok ty tt) (h2 : StrTok nm nt) (h3 : EntsTok id ds T) (h4 : Mid w ('{' :: t))
    (h5 : nodesF total (baseNode total) t = .ok d []) (l : List Rec) :
    ∃ d', documentDN total (n + 1) (tt ++ (nt ++ (T ++ (w ++ '{' :: t)))) l =
      .ok d' [] (l ++ unclosedRecs ('{' :: t) t [] d) := by
  obtain ⟨nd, hb⟩ := unclosed_base total h1 h2 h3 h4 h5 l
  have hs := h1.starts (h2.starts.append (T ++ (w ++ '{' :: t)))
  generalize hS : tt ++ (nt ++ (T ++ (w ++ '{' :: t))) = S at *
  have hlead := leadingItemsD_run total (s := S) (Lead.nil total S hs.solid) l
  have hend (l : List Rec) := leadingItemsD_run total (s := []) (Lead.nil total [] Solid.nil) l
  have hnode : nodeDF (baseNodeD total) S l = .ok (nd.setFormat (nd.format.map fun f => { f with leading := [] })) [] (l ++ unclosedRecs ('{' :: t) t [] d) := by
    unfold nodeDF
    rw [D.bind_run hlead, D.bind_run hb]
    rfl
  have hnodes : ∃ d', nodesDF total (baseNodeD total) S l = .ok d' [] (l ++ unclosedRecs ('{' :: t) t [] d) := by
    unfold nodesDF
    rw [D.bind_run hlead, D.here_run]
    have : D.sep0 (nodeDF (baseNodeD total)) (.lift nodeTerminatorL) S l =
        .ok [nd.setFormat (nd.format.map fun f => { f with leading := [] })] [] (l ++ unclosedRecs ('{' :: t) t [] d) := by
      unfold D.sep0
      rw [hnode]
      rfl
    rw [D.bind_run this, D.here_run, D.bind_run (show D.lift (.opt nodeTerminatorL) [] _ = .ok none [] _ from rfl),
      D.bind_run (hend _)]
    exact ⟨_, rfl⟩
  obtain ⟨d', hd⟩ := hnodes
  refine ⟨d', ?_⟩
  unfold documentDN documentDF
  rw [D.bind_run (noBom_run (starts_not_bom hs) l), D.bind_run hd]
  rfl

/-- A closing brace without an opening one. -/
theorem strayEnd_run {u : Str} {du : Document} (n : Nat) (hu : documentP total u = .ok du []) (l : List Rec) :
    docEndD (documentDN total (n + 1)) ('}' :: u) l =
      .ok () [] (l ++ [({ label := some "EOF", message := some "Expected end of document" }, ⟨'}' :: u, u⟩)]) := by
  unfold docEndD
  have : D.resume (.ctx { label := some "EOF", message := some "Expected end of document" }
      (.lift (.cutErr .eof))) (Kdl.void anyChar) ('}' :: u) l = .ok none u
        (l ++ [({ label := some "EOF", message := some "Expected end of document" }, ⟨'}' :: u, u⟩)]) := rfl
  rw [D.bind_run this]
  exact D.void_run (documentDN_run total hu _)

theorem stray_doc {s s' u : Str} {d du : Document} (n : Nat)
    (hs : (s = s' ∧ ∀ q, s ≠ Char.ofNat 0xFEFF :: q) ∨ s = Char.ofNat 0xFEFF :: s')
    (ht : nodesF total (baseNode total) s' = .ok d ('}' :: u)) (hu : documentP total u = .ok du []) (l : List Rec) :
    ∃ d', documentDN total (n + 2) s l =
      .ok d' [] (l ++ [({ label := some "EOF", message := some "Expected end of document" }, ⟨'}' :: u, u⟩)]) := by
  rw [documentDN]
  unfold documentDF
  rcases hs with ⟨rfl, hs⟩ | rfl
  · rw [D.bind_run (noBom_run hs l), D.bind_run (nodesD_run total ht l), D.bind_run (strayEnd_run total n hu l)]
    exact ⟨_, rfl⟩
  · have : D.lift (.opt (.takeP bomL)) (Char.ofNat 0xFEFF :: s') l = .ok (some [Char.ofNat 0xFEFF]) s' l :=
      D.lift_run (.opt (.takeP .bom)) (opt_some (takeP_eq (a := ()) (t := [Char.ofNat 0xFEFF]) (lit_ok.mpr rfl))) l
    rw [D.bind_run this, D.bind_run (nodesD_run total ht l), D.bind_run (strayEnd_run total n hu l)]
    exact ⟨_, rfl⟩

end

end Kdl
