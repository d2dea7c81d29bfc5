import Verif.Lemmas.Parser.Swap
import Verif.Lemmas.Parser.Lost
import Verif.Spec.Place
/-
Slashdashing a node at any place of a text.
-/

namespace Kdl
open Spec

section
variable [FloatIO]

theorem lead_lead_aux {c : Cat} {r L : Str} (h : Text c r L) : c = .lead → ∀ {r' L'}, r = L' ++ r' → Text .lead r' L' →
    Text .lead r' (L ++ L') := by
  induction h with
  | leadNil => intro _ r' L' e h; simpa using h
  | @leadSpace r w L hw hL ih =>
    rintro _ r' L' rfl h
    rw [List.append_assoc]
    exact .leadSpace (by simpa using hw) (ih rfl rfl h)
  | @leadNode k r b B L d hb hB hs hL _ ih =>
    rintro _ r' L' rfl h
    have := Text.leadNode (k := k) (d := d) (L := L ++ L') hb (by simpa using hB) (by simpa using hs) (ih rfl rfl h)
    simpa using this
  | _ => intro e; cases e

theorem lead_lead {r L L' : Str} (h : Text .lead (L' ++ r) L) (h' : Text .lead r L') : Text .lead r (L ++ L') :=
  lead_lead_aux h rfl rfl h'

theorem nodeStart_of {k : Bool} {d : SNode Value} {r B q x : Str} (h : Text (.node k d) r B) (e : x = B ++ q) : NodeStart x := by
  rw [e]; exact (node_starts h).append q

/-! ### Where the parser halts -/

/-- Behind leading items stands something that is neither an end nor read as nodes. -/
def Halted (s : Str) : Prop := ∃ L X, s = L ++ X ∧ Text .lead X L ∧ Solid X ∧ ¬ DocEnd X ∧ BlockedItems X

theorem Halted.blocked {s : Str} (h : Halted s) : Blocked s := by
  obtain ⟨L, X, rfl, hL, hs, hd, hb⟩ := h
  intro total d x h
  obtain ⟨lead, s1, ns', s2, o, s3, trail, g1, g2, g3, g4, _⟩ := nodesF_inv h
  rw [leadingItems_of (total := total) hL.reads hs] at g1
  injection g1 with _ e
  subst e
  have g6 : leadingItems (baseNode total) X = .ok [] X := Lead.nil total _ hs
  rcases sep0_ok.mp g2 with ⟨k1, rfl, rfl⟩ | ⟨a, q, as, k1, k2, rfl⟩
  · exact absurd (nodeF_back (baseNode_back total) g6 k1) hd
  · exact hb total _ _ g6 _ _ _ _ _ _ _ _ k1 (sepMore_inv (Strict.nodeF (Strict.baseNode total)).sfx k2) g3 g4

theorem blockedItems_first {X : Str} (h : ∀ total m z, baseNode total X ≠ .ok m z) : BlockedItems X := by
  intro total p L hp a q ns q1 u q2 L' x h1
  obtain ⟨l, q', n', h2, h3, _⟩ := nodeF_inv h1
  rw [hp] at h2
  injection h2 with _ e
  subst e
  exact absurd h3 (h _ _ _)

theorem halted_items {L X : Str} (hL : Text .lead X L) (hX : Starts X) (h : BlockedItems X) : Halted (L ++ X) :=
  ⟨L, X, rfl, hL, hX.solid, not_docEnd hX, h⟩

theorem halted_first {L X : Str} (hL : Text .lead X L) (hX : Starts X) (h : ∀ total m z, baseNode total X ≠ .ok m z) : Halted (L ++ X) :=
  ⟨L, X, rfl, hL, hX.solid, not_docEnd hX, blockedItems_first h⟩

/-- A node does not begin with a semicolon. -/
theorem baseNode_semicolon (total : Nat) (x : Str) : baseNode total (';' :: x) = .cut := by
  have hs : Solid (';' :: x) := by
    rintro _ _ ⟨⟩
    decide
  rw [baseNode_unfold]
  unfold baseNodeF
  have e1 : notP (lit ['}'] <+> eof) (';' :: x) = .ok () (';' :: x) := rfl
  have e2 : cutErr (notP (lit ['{'])) (';' :: x) = .ok () (';' :: x) := rfl
  have e3 : opt (tyP total) (';' :: x) = .ok none (';' :: x) :=
    opt_none (tyP_back (by intro q e; exact absurd (List.cons.inj e).1 (by decide)))
  have e4 : identifier total (';' :: x) = .back := identifier_back (stringP_back
    (by rintro _ _ ⟨⟩; decide) (by intro q e; exact absurd (List.cons.inj e).1 (by decide))
    (by intro q e; exact absurd (List.cons.inj e).1 (by decide)))
  rw [bind_eq e1, bind_here, bind_eq e2, bind_eq e3, bind_eq (takeP_nil hs.nodeSpace0)]
  exact bind_cut (cutErr_back e4)

theorem halted_semicolon {L x : Str} (hL : Text .lead (';' :: x) L) : Halted (L ++ ';' :: x) :=
  ⟨L, _, rfl, hL, by rintro _ _ ⟨⟩; decide, by rintro (h | ⟨y, h⟩) <;> simp at h, blockedItems_first fun total m z h => by
    rw [baseNode_semicolon] at h; cases h⟩

theorem halted_rest {L0 B m s : Str} (hB : ∀ total, ∃ n, baseNode total (B ++ (m ++ s)) = .ok n (m ++ s)) (hs : Starts B)
    (h0 : Text .lead (B ++ (m ++ s)) L0) (hm : TermText m s) (h : Halted s) : Halted (L0 ++ (B ++ (m ++ s))) := by
  refine ⟨L0, _, rfl, h0, (hs.append _).solid, not_docEnd (hs.append _), ?_⟩
  intro total p L0 hp a q ns q1 u q2 L' x h1 h2 h3 h4
  obtain ⟨L, X, rfl, hL, hsol, hd, hb⟩ := h
  obtain ⟨l, q', n', h5, h6, _⟩ := nodeF_inv h1
  rw [hp] at h5
  injection h5 with _ e
  subst e
  obtain ⟨n, hn⟩ := hB total
  rw [hn] at h6
  injection h6 with _ e
  subst e
  have h7 := termText_eq hm
  have h8 := leadingItems_of (total := total) hL.reads hsol
  cases h2 with
  | nil h => rw [h7] at h; cases h
  | stop h _ hp' =>
    rw [opt_some h7] at h3
    injection h3 with _ e
    subst e
    rw [h8] at h4
    injection h4 with _ e
    subst e
    exact hd
  | cons h _ hp' ht =>
    rw [h7] at h
    injection h with _ e
    subst e
    exact hb total _ _ h8 _ _ _ _ _ _ _ _ hp' ht h3 h4

/-- In the text `t` of the nodes `ds`, the node at `path` has a text. Slashdashing it there
removes the node, and putting the text of another node there replaces it; but a node with a
semicolon behind it cannot be slashdashed, and with a text there that the parser does not get
through nothing is read. -/
def PlaceAt (path : List Nat) : Prop :=
  ∀ (ds : List (SNode Value)) (r t : Str) (d : SNode Value), Text (.nodes ds) r t → NodeStop r → nodeAt path ds = some d →
    ∃ p B q k, t = p ++ (B ++ q) ∧ Text (.node k d) (q ++ r) B ∧
      (∀ b, LSpace B b → (∀ y, q ≠ ';' :: y) → Text (.nodes (dropAt path ds)) r (p ++ '/' :: '-' :: (b ++ (B ++ q)))) ∧
      (∀ B' d' k', Text (.node k' d') (q ++ r) B' → ((k = true → k' = true) ∨ ∀ y, q ≠ '/' :: '-' :: y) → Text (.nodes (setAt path d' ds)) r (p ++ (B' ++ q))) ∧
      (∀ b y, LSpace B b → q = ';' :: y → Blocked (p ++ '/' :: '-' :: (b ++ (B ++ (q ++ r))))) ∧
      ∀ B', Starts B' → BlockedItems (B' ++ (q ++ r)) → Blocked (p ++ (B' ++ (q ++ r)))

theorem place_block {path : List Nat} (hp : PlaceAt path) {k : Bool} {ty : Option Str} {nm : Str} {es : List (SEntry Value)}
    {cs : List (SNode Value)} {r B : Str} {d : SNode Value} (h : Text (.node k (.mk ty nm es (some cs))) r B)
    (hd : nodeAt path cs = some d) : ∃ p N q k', B = p ++ (N ++ q) ∧ Starts p ∧ q ≠ [] ∧ Text (.node k' d) (q ++ r) N ∧
      (∀ b, LSpace N b → (∀ y, q ≠ ';' :: y) →
        Text (.node k (.mk ty nm es (some (dropAt path cs)))) r (p ++ '/' :: '-' :: (b ++ (N ++ q)))) ∧
      (∀ N' d' k2, Text (.node k2 d') (q ++ r) N' → ((k' = true → k2 = true) ∨ ∀ y, q ≠ '/' :: '-' :: y) →
        Text (.node k (.mk ty nm es (some (setAt path d' cs)))) r (p ++ (N' ++ q))) ∧
      (∀ b y, LSpace N b → q = ';' :: y → ∀ total m z, baseNode total (p ++ '/' :: '-' :: (b ++ (N ++ (q ++ r)))) ≠ .ok m z) ∧
      ∀ N', Starts N' → BlockedItems (N' ++ (q ++ r)) → ∀ total m z, baseNode total (p ++ (N' ++ (q ++ r))) ≠ .ok m z := by
  cases h with
  | @block k ty nm tt nt T w D v r es cs h1 h2 h3 h4 h5 h6 =>
    obtain ⟨p, N, q, k', rfl, hN, hb, hr, hst, hf⟩ := hp cs ('}' :: (v ++ r)) D d (h5 _)
      (Or.inr ⟨_, _, rfl, Or.inl rfl⟩) hd
    refine ⟨tt ++ (nt ++ (T ++ (w ++ '{' :: p))), N, q ++ '}' :: v, k', by simp, ?_, by simp, by simpa using hN, fun b hl hq => ?_,
      fun N' d' k2 hN' hk => ?_, fun b y hl hq total m z => ?_, fun N' hN' hfail total m z => ?_⟩
    · have := (TyTok.text h1 h2.ne).starts ((StrTok.text h2).starts.append (T ++ (w ++ '{' :: p)))
      exact this
    · have h := hb b hl (fun y e => hq (y ++ '}' :: v) (by rw [e]; rfl))
      have := Text.block (k := k) h1 h2 h3 h4 (D := p ++ '/' :: '-' :: (b ++ (N ++ q)))
        (fun x => h.swap (p := []) rfl (by simp) (.brace (Or.inr rfl) _ _)) h6
      simpa using this
    · have h := hr N' d' k2 (by simpa using hN') (hk.imp_right fun h y e => h (y ++ '}' :: v) (by rw [e]; rfl))
      have := Text.block (k := k) h1 h2 h3 h4 (D := p ++ (N' ++ q))
        (fun x => h.swap (p := []) rfl (by simp) (.brace (Or.inr rfl) _ _)) h6
      simpa using this
    · have hD : Blocked (p ++ '/' :: '-' :: (b ++ (N ++ (q ++ '}' :: (v ++ r))))) := by
        cases q with
        | nil => simp at hq
        | cons c q => exact hst b q hl (by rw [(List.cons.inj hq).1])
      have := baseNode_blocked (TyTok.text h1 h2.ne) (StrTok.text h2) (EntsTok.text h3)
        ((h4 _).reads (Or.inl (Or.inr (Or.inl ⟨_, rfl⟩)))) hD total m z
      simpa using this
    · have hD := hf N' hN' (by simpa using hfail)
      have := baseNode_blocked (TyTok.text h1 h2.ne) (StrTok.text h2) (EntsTok.text h3)
        ((h4 _).reads (Or.inl (Or.inr (Or.inl ⟨_, rfl⟩)))) hD total m z
      simpa using this

theorem nodeStop_term {m x : Str} (h : TermText m x) : NodeStop (m ++ x) := by
  rcases h with rfl | h | h
  · exact Or.inr ⟨_, _, rfl, Or.inr (Or.inl rfl)⟩
  · obtain ⟨c, q, rfl, hc⟩ := h.head
    exact Or.inr ⟨_, _, rfl, Or.inr (Or.inr (Or.inl hc))⟩
  · obtain ⟨q, rfl⟩ := lineComment_len h
    exact Or.inr ⟨_, _, rfl, Or.inr (Or.inr (Or.inr ⟨rfl, _, rfl⟩))⟩

theorem lspace_term {m x : Str} (h : TermText m x) (hm : m ≠ [';']) : LSpace x m := by
  rcases h with rfl | h | h
  · exact absurd rfl hm
  · have := LSpace.newline (r := x) (t := []) (by simpa using h) .nil
    simpa using this
  · have := LSpace.line (r := x) (t := []) (by simpa using h) .nil
    simpa using this

theorem slash_lead {k : Bool} {d : SNode Value} {B q' r L b : Str} (hB : Text (.node k d) (q' ++ r) B) (hb : LSpace B b)
    (hs : NodeStop (q' ++ r) ∨ (k = true ∧ NodeNext (q' ++ r))) (hq : Text .lead r q') {x : Str}
    (hx : NodeNext x) (hL : Text .lead x L) : Text .lead r (L ++ '/' :: '-' :: (b ++ (B ++ q'))) := by
  refine lead_lead ?_ (.leadNode hb hB hs hq)
  exact hL.swap (p := []) rfl (by simp) (Or.inr (Or.inr ⟨hx, Or.inr ⟨_, rfl⟩⟩))

theorem halted_self {k : Bool} {d : SNode Value} {B b L x x0 : Str} (hB : Text (.node k d) (';' :: x) B) (hb : LSpace B b)
    (hx : NodeNext x0) (hL : Text .lead x0 L) : Halted (L ++ '/' :: '-' :: (b ++ (B ++ ';' :: x))) := by
  have := halted_semicolon (slash_lead (q' := []) (r := ';' :: x) (by simpa using hB) hb
    (Or.inl (Or.inr ⟨_, _, rfl, Or.inr (Or.inl rfl)⟩)) .leadNil hx hL)
  simpa using this

omit [FloatIO] in
theorem semicolon_head {q z y : Str} (hne : q ≠ []) (h : q ++ z = ';' :: y) : ∃ y', q = ';' :: y' := by
  cases q with
  | nil => exact absurd rfl hne
  | cons c q => exact ⟨q, by rw [(List.cons.inj h).1]⟩

theorem dropAt_succ (i : Nat) (js : List Nat) (d : SNode Value) (ds : List (SNode Value)) :
    dropAt ((i + 1) :: js) (d :: ds) = d :: dropAt (i :: js) ds := by
  cases js <;> simp [dropAt]

theorem setAt_succ (i : Nat) (js : List Nat) (d d' : SNode Value) (ds : List (SNode Value)) :
    setAt ((i + 1) :: js) d' (d :: ds) = d :: setAt (i :: js) d' ds := by
  cases js <;> simp [setAt]

theorem nodeAt_succ (i : Nat) (js : List Nat) (d : SNode Value) (ds : List (SNode Value)) :
    nodeAt ((i + 1) :: js) (d :: ds) = nodeAt (i :: js) ds := by
  cases js <;> simp [nodeAt]

theorem nodeAt_single {i : Nat} {js : List Nat} {d e : SNode Value} (h : nodeAt (i :: js) [e] = some d) : i = 0 := by
  cases i with
  | zero => rfl
  | succ i => cases js <;> simp [nodeAt] at h

/-- The node itself, or a node in its block. -/
theorem nodeAt_zero {js : List Nat} {d e : SNode Value} {ds : List (SNode Value)} (h : nodeAt (0 :: js) (e :: ds) = some d) :
    (js = [] ∧ e = d ∧ dropAt (0 :: js) (e :: ds) = ds ∧ ∀ d', setAt (0 :: js) d' (e :: ds) = d' :: ds) ∨
    (js ≠ [] ∧ ∃ ty nm es cs, e = .mk ty nm es (some cs) ∧
      nodeAt js cs = some d ∧ dropAt (0 :: js) (e :: ds) = .mk ty nm es (some (dropAt js cs)) :: ds ∧
      ∀ d', setAt (0 :: js) d' (e :: ds) = .mk ty nm es (some (setAt js d' cs)) :: ds) := by
  cases js with
  | nil => simp only [nodeAt, List.getElem?_cons_zero, Option.some.injEq] at h; simp [h, dropAt, setAt]
  | cons j js =>
    obtain ⟨ty, nm, es, cs⟩ := e
    cases cs with
    | none => simp [nodeAt] at h
    | some cs => exact Or.inr ⟨by simp, ty, nm, es, cs, rfl, by simpa [nodeAt] using h, by simp [dropAt], by simp [setAt]⟩

/-- A changed place further on does not matter for what stands in front of it. -/
theorem swap_slash {c : Cat} {p B q b r t : Str} (h : Text c (p ++ (B ++ (q ++ r))) t) (hB : Starts B) (hp : p ≠ ['/']) :
    Text c (p ++ ('/' :: '-' :: (b ++ (B ++ (q ++ r))))) t :=
  h.swap rfl hp (Or.inr (Or.inr ⟨Or.inl (hB.append _), Or.inr ⟨_, rfl⟩⟩))

theorem swap_node {c : Cat} {p B B' q r t : Str} (h : Text c (p ++ (B ++ (q ++ r))) t) (hB : Starts B) (hB' : Starts B')
    (hp : p ≠ ['/']) : Text c (p ++ (B' ++ (q ++ r))) t :=
  h.swap rfl hp (Or.inl ⟨hB.append _, hB'.append _⟩)

theorem place_items {js : List Nat} (hp : js ≠ [] → PlaceAt js) {c : Cat} {r T : Str} (h : Text c r T) :
    ∀ {ds : List (SNode Value)}, c = .items ds → ∀ (i : Nat) (d : SNode Value), NodeStop r →
    nodeAt (i :: js) ds = some d → ∃ p B q k, T = p ++ (B ++ q) ∧ Text (.node k d) (q ++ r) B ∧ p ≠ ['/'] ∧
      (∀ b, LSpace B b → (∀ y, q ≠ ';' :: y) → ∀ L, Text .lead (T ++ r) L →
        Text (.nodes (dropAt (i :: js) ds)) r (L ++ (p ++ '/' :: '-' :: (b ++ (B ++ q))))) ∧
      (∀ B' d' k', Text (.node k' d') (q ++ r) B' → ((k = true → k' = true) ∨ ∀ y, q ≠ '/' :: '-' :: y) → Text (.items (setAt (i :: js) d' ds)) r (p ++ (B' ++ q))) ∧
      (∀ b y, LSpace B b → q = ';' :: y → ∀ L, Text .lead (T ++ r) L → Halted (L ++ (p ++ '/' :: '-' :: (b ++ (B ++ (q ++ r)))))) ∧
      ∀ B', Starts B' → BlockedItems (B' ++ (q ++ r)) → ∀ L, Text .lead (T ++ r) L →
        Halted (L ++ (p ++ (B' ++ (q ++ r)))) := by
  induction h with
  | @last k r B e hB _ =>
    rintro ds ⟨⟩ i d hr hd
    obtain rfl := nodeAt_single hd
    rcases nodeAt_zero hd with ⟨_, rfl, he, hset⟩ | ⟨hj, ty, nm, es, cs, rfl, hd', he, hset⟩
    · rw [he]
      refine ⟨[], B, [], k, by simp, by simpa using hB, by simp, fun b hb _ L hL => ?_, fun B' d' k2 h' hk => ?_, fun b y hb hq L hL => ?_,
        fun B' hB' hfail L hL => ?_⟩
      · exact .empty (slash_lead (q' := []) (by simpa using hB) hb (Or.inl (by simpa using hr)) .leadNil
          (Or.inl ((node_starts hB).append r)) hL)
      · rw [hset]; simpa using Text.last h'
      · cases hq
      · exact halted_items (swap_node (p := []) (q := []) (by simpa using hL) (node_starts hB) hB' (by simp)) (hB'.append _) hfail
    · rw [he]
      obtain ⟨p, N, q, k', rfl, hs, hne, hN, hx, hy, hz, hf⟩ := place_block (hp hj) hB hd'
      refine ⟨p, N, q, k', rfl, hN, by simpa using starts_slash (p := []) hs, fun b hb hq L hL => ?_, fun B' d' k2 h' hk => ?_, fun b y hb hq L hL => ?_,
        fun B' hB' hfail L hL => ?_⟩
      · refine .items ?_ (.last (hx b hb hq))
        simpa using swap_slash (p := p) (q := q) (r := r) (b := b) (by simpa using hL) (node_starts hN) (by simpa using starts_slash (p := []) hs)
      · rw [hset]; exact .last (hy B' d' k2 h' hk)
      · have e := hq
        have h := halted_first (L := L) ?_ (hs.append _) (hz b _ hb e)
        · simpa using h
        · simpa using swap_slash (p := p) (q := q) (r := r) (b := b) (by simpa using hL) (node_starts hN) (by simpa using starts_slash (p := []) hs)
      · have h := halted_first (L := L) ?_ (hs.append _) (hf B' hB' (by simpa using hfail))
        · simpa using h
        · simpa using swap_node (p := p) (q := q) (r := r) (by simpa using hL) (node_starts hN) hB' (by simpa using starts_slash (p := []) hs)
  | @lastTerm k r B m L' e hB hm hL' _ _ =>
    rintro ds ⟨⟩ i d hr hd
    obtain rfl := nodeAt_single hd
    rcases nodeAt_zero hd with ⟨_, rfl, he, hset⟩ | ⟨hj, ty, nm, es, cs, rfl, hd', he, hset⟩
    · rw [he]
      refine ⟨[], B, m ++ L', k, by simp, by simpa using hB, by simp, fun b hb hq L hL => ?_, fun B' d' k2 h' hk => ?_, fun b y hb hq L hL => ?_,
        fun B' hB' hfail L hL => ?_⟩
      · have hm' : m ≠ [';'] := by rintro rfl; exact hq L' rfl
        exact .empty (slash_lead (q' := m ++ L') (by simpa using hB) hb (Or.inl (by simpa using nodeStop_term hm))
          (.leadSpace (lspace_term hm hm') hL') (Or.inl (nodeStart_of hB (List.append_assoc _ _ _))) hL)
      · rw [hset]; exact Text.lastTerm (B := B') (by simpa using h') hm hL'
      · have h := halted_self (x := y ++ r) (B := B) (by rw [← List.cons_append, ← hq]; simpa using hB) hb (Or.inl (nodeStart_of hB (List.append_assoc _ _ _))) hL
        rw [hq]
        simpa using h
      · exact halted_items (swap_node (p := []) (q := m ++ L') (by simpa using hL) (node_starts hB) hB' (by simp)) (hB'.append _) hfail
    · rw [he]
      obtain ⟨p, N, q, k', rfl, hs, hne, hN, hx, hy, hz, hf⟩ := place_block (hp hj) hB hd'
      refine ⟨p, N, q ++ (m ++ L'), k', by simp, by simpa using hN, by simpa using starts_slash (p := []) hs,
        fun b hb hq L hL => ?_, fun B' d' k2 h' hk => ?_, fun b y hb hq L hL => ?_,
        fun B' hB' hfail L hL => ?_⟩
      · have h := hx b hb fun y e => hq (y ++ (m ++ L')) (by rw [e]; rfl)
        have h' := Text.items (L := L) ?_ (.lastTerm h hm hL')
        · simpa using h'
        · simpa using swap_slash (p := p) (q := q) (r := m ++ (L' ++ r)) (b := b) (by simpa using hL) (node_starts hN) (by simpa using starts_slash (p := []) hs)
      · rw [hset]
        have := Text.lastTerm (hy B' d' k2 (by simpa using h') (hk.imp_right fun h y e => h (y ++ (m ++ L')) (by rw [e]; rfl))) hm hL'
        simpa using this
      · obtain ⟨y', e⟩ := semicolon_head hne hq
        have h := halted_first (L := L) ?_ (hs.append _) (hz b _ hb e)
        · simpa using h
        · simpa using swap_slash (p := p) (q := q) (r := m ++ (L' ++ r)) (b := b) (by simpa using hL) (node_starts hN) (by simpa using starts_slash (p := []) hs)
      · have h := halted_first (L := L) ?_ (hs.append _) (hf B' hB' (by simpa using hfail))
        · simpa using h
        · simpa using swap_node (p := p) (q := q) (r := m ++ (L' ++ r)) (by simpa using hL) (node_starts hN) hB' (by simpa using starts_slash (p := []) hs)
  | @lastSlash r q' B e hB hL' _ _ =>
    rintro ds ⟨⟩ i d hr hd
    obtain rfl := nodeAt_single hd
    rcases nodeAt_zero hd with ⟨_, rfl, he, hset⟩ | ⟨hj, ty, nm, es, cs, rfl, hd', he, hset⟩
    · rw [he]
      refine ⟨[], B, '/' :: '-' :: q', true, by simp, by simpa using hB, by simp, fun b hb hq L hL => ?_, fun B' d' k2 h' hk => ?_, fun b y hb hq L hL => ?_,
        fun B' hB' hfail L hL => ?_⟩
      · exact .empty (slash_lead (q' := '/' :: '-' :: q') (by simpa using hB) hb (Or.inr ⟨rfl, Or.inr ⟨_, rfl⟩⟩)
          hL' (Or.inl (nodeStart_of hB (List.append_assoc _ _ _))) hL)
      · rw [hset]
        obtain rfl : k2 = true := hk.resolve_right (fun h => h q' rfl) rfl
        exact .lastSlash h' hL'
      · cases hq
      · exact halted_items (swap_node (p := []) (q := '/' :: '-' :: q') (by simpa using hL) (node_starts hB) hB' (by simp)) (hB'.append _) hfail
    · rw [he]
      obtain ⟨p, N, q, k', rfl, hs, hne, hN, hx, hy, hz, hf⟩ := place_block (hp hj) hB hd'
      refine ⟨p, N, q ++ '/' :: '-' :: q', k', by simp, by simpa using hN, by simpa using starts_slash (p := []) hs,
        fun b hb hq L hL => ?_, fun B' d' k2 h' hk => ?_, fun b y hb hq L hL => ?_,
        fun B' hB' hfail L hL => ?_⟩
      · have h := hx b hb fun y e => hq (y ++ '/' :: '-' :: q') (by rw [e]; rfl)
        have h' := Text.items (L := L) ?_ (.lastSlash h hL')
        · simpa using h'
        · simpa using swap_slash (p := p) (q := q) (r := '/' :: '-' :: (q' ++ r)) (b := b) (by simpa using hL) (node_starts hN) (by simpa using starts_slash (p := []) hs)
      · rw [hset]
        have := Text.lastSlash (hy B' d' k2 (by simpa using h') (hk.imp_right fun h y e => h (y ++ '/' :: '-' :: q') (by rw [e]; rfl))) hL'
        simpa using this
      · obtain ⟨y', e⟩ := semicolon_head hne hq
        have h := halted_first (L := L) ?_ (hs.append _) (hz b _ hb e)
        · simpa using h
        · simpa using swap_slash (p := p) (q := q) (r := '/' :: '-' :: (q' ++ r)) (b := b) (by simpa using hL) (node_starts hN) (by simpa using starts_slash (p := []) hs)
      · have h := halted_first (L := L) ?_ (hs.append _) (hf B' hB' (by simpa using hfail))
        · simpa using h
        · simpa using swap_node (p := p) (q := q) (r := '/' :: '-' :: (q' ++ r)) (by simpa using hL) (node_starts hN) hB' (by simpa using starts_slash (p := []) hs)
  | @cons k r B m L' T e es' hB hm hL' hT _ _ ih =>
    rintro ds ⟨⟩ i d hr hd
    cases i with
    | zero =>
      rcases nodeAt_zero hd with ⟨_, rfl, he, hset⟩ | ⟨hj, ty, nm, es, cs, rfl, hd', he, hset⟩
      · rw [he]
        refine ⟨[], B, m ++ (L' ++ T), k, by simp, by simpa using hB, by simp, fun b hb hq L hL => ?_, fun B' d' k2 h' hk => ?_, fun b y hb hq L hL => ?_,
        fun B' hB' hfail L hL => ?_⟩
        · have hm' : m ≠ [';'] := by rintro rfl; exact hq (L' ++ T) rfl
          have h := Text.items (slash_lead (q' := m ++ L') (r := T ++ r) (by simpa using hB) hb (Or.inl (by simpa using nodeStop_term hm))
            (.leadSpace (lspace_term hm hm') hL') (Or.inl (nodeStart_of hB (by simp only [List.append_assoc]; rfl))) hL) hT
          simpa using h
        · rw [hset]; exact Text.cons (B := B') (by simpa using h') hm hL' hT
        · have h := halted_self (x := y ++ r) (B := B) (by rw [← List.cons_append, ← hq]; simpa using hB) hb (Or.inl (nodeStart_of hB (by simp only [List.append_assoc]; rfl))) hL
          rw [hq]
          simpa using h
        · exact halted_items (swap_node (p := []) (q := m ++ (L' ++ T)) (by simpa using hL) (node_starts hB) hB' (by simp)) (hB'.append _) hfail
      · rw [he]
        obtain ⟨p, N, q, k', rfl, hs, hne, hN, hx, hy, hz, hf⟩ := place_block (hp hj) hB hd'
        refine ⟨p, N, q ++ (m ++ (L' ++ T)), k', by simp, by simpa using hN, by simpa using starts_slash (p := []) hs,
          fun b hb hq L hL => ?_, fun B' d' k2 h' hk => ?_, fun b y hb hq L hL => ?_,
        fun B' hB' hfail L hL => ?_⟩
        · have h := hx b hb fun y e => hq (y ++ (m ++ (L' ++ T))) (by rw [e]; rfl)
          have h' := Text.items (L := L) ?_ (.cons h hm hL' hT)
          · simpa using h'
          · simpa using swap_slash (p := p) (q := q) (r := m ++ (L' ++ (T ++ r))) (b := b) (by simpa using hL) (node_starts hN) (by simpa using starts_slash (p := []) hs)
        · rw [hset]
          have := Text.cons (hy B' d' k2 (by simpa using h') (hk.imp_right fun h y e => h (y ++ (m ++ (L' ++ T))) (by rw [e]; rfl))) hm hL' hT
          simpa using this
        · obtain ⟨y', e⟩ := semicolon_head hne hq
          have h := halted_first (L := L) ?_ (hs.append _) (hz b _ hb e)
          · simpa using h
          · simpa using swap_slash (p := p) (q := q) (r := m ++ (L' ++ (T ++ r))) (b := b) (by simpa using hL) (node_starts hN) (by simpa using starts_slash (p := []) hs)
        · have h := halted_first (L := L) ?_ (hs.append _) (hf B' hB' (by simpa using hfail))
          · simpa using h
          · simpa using swap_node (p := p) (q := q) (r := m ++ (L' ++ (T ++ r))) (by simpa using hL) (node_starts hN) hB' (by simpa using starts_slash (p := []) hs)
    | succ i =>
      rw [nodeAt_succ] at hd
      rw [dropAt_succ]
      obtain ⟨p, N, q, k', rfl, hN, hne, hx, hy, hz, hf⟩ := ih rfl i d hr hd
      refine ⟨B ++ (m ++ (L' ++ p)), N, q, k', by simp, hN, starts_slash (node_starts hB), fun b hb hq L hL => ?_, fun N' d' k2 h' hk => ?_, fun b y hb hq L hL => ?_,
        fun B' hB' hfail L hL => ?_⟩
      · have h := hx b hb hq L' hL'
        have hB' : Text (.node k e) (m ++ ((L' ++ (p ++ '/' :: '-' :: (b ++ (N ++ q)))) ++ r)) B := by
          have := swap_slash (p := m ++ (L' ++ p)) (q := q) (r := r) (b := b) (by simpa using hB) (node_starts hN) (termText_slash hm)
          simpa using this
        have hL2 : Text .lead (B ++ (m ++ (L' ++ (p ++ '/' :: '-' :: (b ++ (N ++ (q ++ r))))))) L := by
          have := swap_slash (p := B ++ (m ++ (L' ++ p))) (q := q) (r := r) (b := b) (by simpa using hL) (node_starts hN) (starts_slash (node_starts hB))
          simpa using this
        have hm' : TermText m ((L' ++ (p ++ '/' :: '-' :: (b ++ (N ++ q)))) ++ r) := by
          have hsame : SameHead (N ++ (q ++ r)) ('/' :: '-' :: (b ++ (N ++ (q ++ r)))) :=
            Or.inr (Or.inr ⟨Or.inl ((node_starts hN).append _), Or.inr ⟨_, rfl⟩⟩)
          have := hsame.term (m := m) (t := L') (p := p) (by simpa using hm)
          simpa using this
        generalize hX : L' ++ (p ++ '/' :: '-' :: (b ++ (N ++ q))) = X at h hB' hm'
        have key : Text (.items (e :: dropAt (i :: js) es')) r (B ++ (m ++ X)) := by
          generalize dropAt (i :: js) es' = Y at h
          cases h with
          | empty hL => exact .lastTerm hB' hm' hL
          | items hL hT => exact .cons (by simpa using hB') (by simpa using hm') hL hT
        have h' := Text.items (L := L) ?_ key
        · rw [← hX] at h'; simpa using h'
        · rw [← hX]; simpa using hL2
      · rw [setAt_succ]
        have hN' := node_starts h'
        have hB' : Text (.node k e) (m ++ (L' ++ ((p ++ (N' ++ q)) ++ r))) B := by
          have := swap_node (p := m ++ (L' ++ p)) (q := q) (r := r) (by simpa using hB) (node_starts hN) hN' (termText_slash hm)
          simpa using this
        have hL2 : Text .lead ((p ++ (N' ++ q)) ++ r) L' := by
          have := swap_node (p := p) (q := q) (r := r) (by simpa using hL') (node_starts hN) hN' hne
          simpa using this
        have hm' : TermText m (L' ++ ((p ++ (N' ++ q)) ++ r)) := by
          have hsame : SameHead (N ++ (q ++ r)) (N' ++ (q ++ r)) := Or.inl ⟨(node_starts hN).append _, hN'.append _⟩
          have := hsame.term (m := m) (t := L') (p := p) (by simpa using hm)
          simpa using this
        have := Text.cons hB' hm' hL2 (hy N' d' k2 h' hk)
        simpa using this
      · have h := hz b y hb hq L' hL'
        have hB' : Text (.node k e) (m ++ (L' ++ (p ++ '/' :: '-' :: (b ++ (N ++ (q ++ r)))))) B := by
          have := swap_slash (p := m ++ (L' ++ p)) (q := q) (r := r) (b := b) (by simpa using hB) (node_starts hN) (termText_slash hm)
          simpa using this
        have hL2 : Text .lead (B ++ (m ++ (L' ++ (p ++ '/' :: '-' :: (b ++ (N ++ (q ++ r))))))) L := by
          have := swap_slash (p := B ++ (m ++ (L' ++ p))) (q := q) (r := r) (b := b) (by simpa using hL) (node_starts hN) (starts_slash (node_starts hB))
          simpa using this
        have hm' : TermText m (L' ++ (p ++ '/' :: '-' :: (b ++ (N ++ (q ++ r))))) := by
          have hsame : SameHead (N ++ (q ++ r)) ('/' :: '-' :: (b ++ (N ++ (q ++ r)))) :=
            Or.inr (Or.inr ⟨Or.inl ((node_starts hN).append _), Or.inr ⟨_, rfl⟩⟩)
          have := hsame.term (m := m) (t := L') (p := p) (by simpa using hm)
          simpa using this
        have h' := halted_rest (fun total => ?_) (node_starts hB) hL2 hm' h
        · simpa using h'
        · obtain ⟨n', h1, _⟩ := hB'.reads.2 (Or.inl (termText_nodeEnd hm' _)) total
          exact ⟨n', h1⟩
      · have h := hf B' hB' hfail L' hL'
        have hB2 : Text (.node k e) (m ++ (L' ++ (p ++ (B' ++ (q ++ r))))) B := by
          have := swap_node (p := m ++ (L' ++ p)) (q := q) (r := r) (by simpa using hB) (node_starts hN) hB' (termText_slash hm)
          simpa using this
        have hL2 : Text .lead (B ++ (m ++ (L' ++ (p ++ (B' ++ (q ++ r)))))) L := by
          have := swap_node (p := B ++ (m ++ (L' ++ p))) (q := q) (r := r) (by simpa using hL) (node_starts hN) hB' (starts_slash (node_starts hB))
          simpa using this
        have hm' : TermText m (L' ++ (p ++ (B' ++ (q ++ r)))) := by
          have hsame : SameHead (N ++ (q ++ r)) (B' ++ (q ++ r)) := Or.inl ⟨(node_starts hN).append _, hB'.append _⟩
          have := hsame.term (m := m) (t := L') (p := p) (by simpa using hm)
          simpa using this
        have h' := halted_rest (fun total => ?_) (node_starts hB) hL2 hm' h
        · simpa using h'
        · obtain ⟨n', h1, _⟩ := hB2.reads.2 (Or.inl (termText_nodeEnd hm' _)) total
          exact ⟨n', h1⟩
  | _ => intro ds e; cases e

theorem placeAt : ∀ path : List Nat, PlaceAt path
  | [] => fun ds r t d _ _ h => by simp [nodeAt] at h
  | i :: js => fun ds r t d h hr hd => by
    have hp : js ≠ [] → PlaceAt js := fun _ => placeAt js
    cases h with
    | empty hL => cases js <;> simp [nodeAt] at hd
    | @items r L T ds hL hT =>
      obtain ⟨p, B, q, k, rfl, hB, hne, h, h', hst, hf⟩ := place_items hp hT rfl i d hr hd
      refine ⟨L ++ p, B, q, k, by simp, hB, fun b hb hq => by simpa using h b hb hq L hL, fun B' d' k2 hB' hk => ?_,
        fun b y hb hq => by simpa using (hst b y hb hq L hL).blocked, fun B' hB' hfail => by simpa using (hf B' hB' hfail L hL).blocked⟩
      have := Text.items (L := L) ?_ (h' B' d' k2 hB' hk)
      · simpa using this
      · have := swap_node (p := p) (q := q) (r := r) (by simpa using hL) (node_starts hB) (node_starts hB') hne
        simpa using this

/-! ### Entries -/

omit [FloatIO] in
theorem nspace_swap {x x' w : Str} (h : NSpace x w) (hx : x ≠ []) (hx' : ∀ q, x' ≠ '\n' :: q) : NSpace x' w :=
  h.swapH hx fun q e => absurd e (hx' q)

theorem sdEnd_head {k : Bool} {S : Str} (h : SdEnd k S) : ∃ q, S = '/' :: '-' :: q := by
  cases h <;> exact ⟨_, rfl⟩

theorem sdEnd_append {S : Str} {f : Bool} (hS : SdEnd f S) : f = false → ∀ {k : Bool} {w T : Str}, NSpace T w → w ≠ [] → SdEnd k T →
    SdEnd k (S ++ (w ++ T)) := by
  induction hS with
  | @one k b E d hb hE =>
    rintro rfl k w T hw hne hT
    have := SdEnd.cons hb hE hw hne hT
    simpa using this
  | @nest k b S v E d hb hS hv hne' hE _ =>
    rintro rfl k w T hw hne hT
    have := SdEnd.nestCons hb hS hv hne' hE hw hne hT
    simpa using this
  | @cons k b E v T' d hb hE hv hne' hT' ih =>
    rintro rfl k w T hw hne hT
    have h := ih rfl hw hne hT
    obtain ⟨q, rfl⟩ := sdEnd_head hT'
    have := SdEnd.cons hb hE (nspace_swap hv (by simp) (by simp)) hne' h
    simpa using this
  | @nestCons k b S v E u T' d hb hS hv hne1 hE hu hne' hT' _ ih =>
    rintro rfl k w T hw hne hT
    have h := ih rfl hw hne hT
    obtain ⟨q, rfl⟩ := sdEnd_head hT'
    have := SdEnd.nestCons hb hS hv hne1 hE (nspace_swap hu (by simp) (by simp)) hne' h
    simpa using this

theorem lead_sd {k : Bool} {e : SEntry Value} {t w b : Str} (hw : EntryLead t w) (ht : EntryEnd k e t) (hb : LSpace t b) :
    ∃ w0 S, w ++ '/' :: '-' :: (b ++ t) = w0 ++ S ∧ NSpace S w0 ∧ w0 ≠ [] ∧ SdEnd k S := by
  obtain ⟨c, q, rfl, hc⟩ : Starts t := (EntTok.text ht.entry).1
  cases hw with
  | space h hne => exact ⟨w, _, rfl, nspace_swap h (by simp) (by simp), hne, .one hb ht⟩
  | @slash w S v hw hne hS hv hne' =>
    obtain ⟨q', rfl⟩ := sdEnd_head hS
    exact ⟨w, _, by rw [List.append_assoc, List.append_assoc], nspace_swap hw (by simp) (by simp), hne,
      sdEnd_append hS rfl (nspace_swap hv (by simp) (by simp)) hne' (.one hb ht)⟩

theorem lead_after {w0 S t w : Str} (h0 : NSpace S w0) (hne : w0 ≠ []) (hS : SdEntries S) (h : EntryLead t w) :
    EntryLead t (w0 ++ (S ++ w)) := by
  cases h with
  | space h hne' => exact .slash h0 hne hS h hne'
  | @slash w S' v hw hne' hS' hv hne2 =>
    obtain ⟨q, rfl⟩ := sdEnd_head hS
    have := EntryLead.slash (nspace_swap h0 (by simp) (by simp)) hne (sdEnd_append hS rfl hw hne' hS') hv hne2
    simpa using this

theorem mid_after {k : Bool} {w0 S r w : Str} (h0 : NSpace S w0) (hne : w0 ≠ []) (hS : SdEntries S) (h : Text (.mid k) r w) :
    Text (.mid k) r (w0 ++ (S ++ w)) := by
  obtain ⟨q, rfl⟩ := sdEnd_head hS
  cases h with
  | midSpace h => exact .midEntries h0 hne hS h
  | midEntries h1 hne1 h2 h3 =>
    have := Text.midEntries (nspace_swap h0 (by simp) (by simp)) hne (sdEnd_append hS rfl h1 hne1 h2) h3
    simpa using this
  | midKeyword h1 hne1 h2 =>
    have := Text.midKeyword (r := r) (nspace_swap h0 (by simp) (by simp)) hne (sdEnd_append hS rfl h1 hne1 h2)
    simpa using this
  | midBlocks h1 hne1 h2 h3 => exact .midBoth h0 hne hS h1 hne1 h2 h3
  | midBoth h1 hne1 h2 h3 hne3 h4 h5 =>
    have := Text.midBoth (k := k) (nspace_swap h0 (by simp) (by simp)) hne (sdEnd_append hS rfl h1 hne1 h2) h3 hne3 h4 h5
    simpa using this

theorem entries_split {es : List (SEntry Value)} {T : Str} (h : EntriesText es T) : ∀ {j : Nat} {e : SEntry Value},
    es[j]? = some e → ∃ A w E Q as bs, T = A ++ (w ++ (E ++ Q)) ∧ EntriesText as A ∧ EntryLead E w ∧ EntryText e E ∧
      EntriesText bs Q ∧ es = as ++ e :: bs ∧ es.eraseIdx j = as ++ bs ∧ ∀ e', es.set j e' = as ++ e' :: bs := by
  induction h with
  | nil => intro j e he; simp at he
  | @cons w t T d ds hw ht hT ih =>
    intro j e he
    cases j with
    | zero =>
      obtain rfl : d = e := by simpa using he
      exact ⟨[], w, t, T, [], ds, rfl, .nil, hw, ht, hT, rfl, rfl, fun _ => rfl⟩
    | succ j =>
      obtain ⟨A, w', E, Q, as, bs, rfl, hA, hw', hE, hQ, e1, e2, e3⟩ := ih (by simpa using he)
      exact ⟨w ++ (t ++ A), w', E, Q, d :: as, bs, by simp, .cons hw ht hA, hw', hE, hQ, by simp [e1], by simp [e2], fun e' => by simp [e3]⟩

theorem entries_append {as bs : List (SEntry Value)} {A B : Str} (hA : EntriesText as A) (hB : EntriesText bs B) :
    EntriesText (as ++ bs) (A ++ B) := by
  induction hA with
  | nil => exact hB
  | cons h1 h2 _ ih =>
    have := EntriesText.cons h1 h2 ih
    simpa using this

theorem lead_exchange {e e' : SEntry Value} {t t' w : Str} (hw : EntryLead t w) (ht : EntryText e t) (ht' : EntryText e' t') :
    EntryLead t' w := by
  obtain ⟨c, q, rfl, hc⟩ : Starts t := (EntTok.text ht.entry).1
  have hn : ∀ q, t' ≠ '\n' :: q := by
    obtain ⟨c', q', rfl, hc'⟩ : Starts t' := (EntTok.text ht'.entry).1
    rintro q ⟨⟩
    exact hc'.notNewline (by decide)
  cases hw with
  | space h hne => exact .space (nspace_swap h (by simp) hn) hne
  | slash h hne hS hv hne' => exact .slash h hne hS (nspace_swap hv (by simp) hn) hne'

/-- Slashdashing an entry of a node. -/
theorem node_slash_entry {k : Bool} {ty : Option Str} {nm : Str} {es : List (SEntry Value)} {cs : Option (List (SNode Value))}
    {r B : Str} (h : Text (.node k (.mk ty nm es cs)) r B) {j : Nat} {e : SEntry Value} (he : es[j]? = some e) :
    ∃ p E q, B = p ++ (E ++ q) ∧ EntryText e E ∧ ∀ b, LSpace E b →
      Text (.node k (.mk ty nm (es.eraseIdx j) cs)) r (p ++ '/' :: '-' :: (b ++ (E ++ q))) := by
  cases h with
  | @leaf k ty nm tt nt T w r es h1 h2 h3 h4 =>
    obtain ⟨A, u, E, Q, as, bs, rfl, hA, hu, hE, hQ, e1, e2, _⟩ := entries_split h3 he
    refine ⟨tt ++ (nt ++ (A ++ u)), E, Q ++ w, by simp, hE, fun b hb => ?_⟩
    obtain ⟨w0, S, e0, h0, hne, hS⟩ := lead_sd hu hE hb
    rw [e2]
    cases hQ with
    | nil =>
      have := Text.leaf (k := k) h1 h2 hA (mid_after h0 hne hS h4)
      rw [← List.append_assoc w0, ← e0] at this
      simpa using this
    | @cons w1 t1 T1 d1 ds1 hw1 ht1 hT1 =>
      have := Text.leaf (k := k) h1 h2 (entries_append hA (.cons (lead_after h0 hne hS hw1) ht1 hT1)) h4
      rw [← List.append_assoc w0, ← e0] at this
      simpa using this
  | @block k ty nm tt nt T w D v r es cs h1 h2 h3 h4 h5 h6 =>
    obtain ⟨A, u, E, Q, as, bs, rfl, hA, hu, hE, hQ, e1, e2, _⟩ := entries_split h3 he
    refine ⟨tt ++ (nt ++ (A ++ u)), E, Q ++ (w ++ '{' :: (D ++ '}' :: v)), by simp, hE, fun b hb => ?_⟩
    obtain ⟨w0, S, e0, h0, hne, hS⟩ := lead_sd hu hE hb
    rw [e2]
    cases hQ with
    | nil =>
      have := Text.block (k := k) h1 h2 hA (fun x => mid_after h0 hne hS (h4 x)) h5 h6
      rw [← List.append_assoc w0, ← e0] at this
      simpa using this
    | @cons w1 t1 T1 d1 ds1 hw1 ht1 hT1 =>
      have := Text.block (k := k) h1 h2 (entries_append hA (.cons (lead_after h0 hne hS hw1) ht1 hT1)) h4 h5 h6
      rw [← List.append_assoc w0, ← e0] at this
      simpa using this
  | @leafKeyword ty nm tt nt T w t r ds d h1 h2 h3 h4 h5 =>
    by_cases hj : j < ds.length
    · rw [List.getElem?_append_left hj] at he
      obtain ⟨A, u, E, Q, as, bs, rfl, hA, hu, hE, hQ, e1, e2, _⟩ := entries_split h3 he
      refine ⟨tt ++ (nt ++ (A ++ u)), E, Q ++ (w ++ t), by simp, hE, fun b hb => ?_⟩
      obtain ⟨w0, S, e0, h0, hne, hS⟩ := lead_sd hu hE hb
      rw [List.eraseIdx_append_of_lt_length hj, e2]
      cases hQ with
      | nil =>
        have := Text.leafKeyword (r := r) h1 h2 hA (lead_after h0 hne hS h4) h5
        rw [← List.append_assoc w0, ← e0] at this
        simpa using this
      | @cons w1 t1 T1 d1 ds1 hw1 ht1 hT1 =>
        have := Text.leafKeyword (r := r) h1 h2 (entries_append hA (.cons (lead_after h0 hne hS hw1) ht1 hT1)) h4 h5
        rw [← List.append_assoc w0, ← e0] at this
        simpa using this
    · rw [List.getElem?_append_right (by omega)] at he
      obtain ⟨h0, rfl⟩ : j - ds.length = 0 ∧ d = e := by
        cases hk : j - ds.length with
        | zero => rw [hk] at he; simpa using he
        | succ n => rw [hk] at he; simp at he
      obtain rfl : j = ds.length := by omega
      refine ⟨tt ++ (nt ++ (T ++ w)), t, [], by simp, h5.entry, fun b hb => ?_⟩
      obtain ⟨w0, S, e0, h0, hne, hS⟩ := lead_sd h4 h5 hb
      have he : (ds ++ [d]).eraseIdx ds.length = ds := by
        rw [List.eraseIdx_append_of_length_le (Nat.le_refl _)]; simp
      rw [he]
      have := Text.leaf (k := true) (r := r) h1 h2 h3 (.midKeyword h0 hne hS)
      rw [← e0] at this
      simpa using this

theorem ty_swap {ty : Option Str} {nt nm nt' nm' tt : Str} (h : TyText nt ty tt) (hn : StrText nt nm) (hn' : StrText nt' nm') :
    TyText nt' ty tt := by
  have hne : nt ≠ [] := hn.ne
  have hne' : ∀ q, nt' ≠ '\n' :: q := by
    obtain ⟨c', q', rfl, hc'⟩ : Starts nt' := (StrTok.text hn').starts
    rintro q ⟨⟩
    exact hc'.notNewline (by decide)
  cases h with
  | none => exact .none
  | some hi hb ha hf => exact .some hi hb ha (nspace_swap hf hne hne')

/-- Another entry in the place of an entry of a node. -/
theorem node_set_entry {k : Bool} {ty : Option Str} {nm : Str} {es : List (SEntry Value)} {cs : Option (List (SNode Value))}
    {r B : Str} (h : Text (.node k (.mk ty nm es cs)) r B) {j : Nat} {e : SEntry Value}
    (he : es[j]? = some e) : ∃ p E q, B = p ++ (E ++ q) ∧ EntryText e E ∧ ∀ E' e', EntryText e' E' →
      (∃ k', Text (.node k' (.mk ty nm (es.set j e') cs)) r (p ++ (E' ++ q)) ∧ (k' = k ∨ q = [])) ∧
      (EntryEnd true e' E' → Text (.node k (.mk ty nm (es.set j e') cs)) r (p ++ (E' ++ q))) ∧
      ∃ tt nt A u as, p = tt ++ (nt ++ (A ++ u)) ∧ TyText nt ty tt ∧ StrText nt nm ∧ EntriesText as A ∧ EntryLead E' u := by
  cases h with
  | @leaf k ty nm tt nt T w r es h1 h2 h3 h4 =>
    obtain ⟨A, u, E, Q, as, bs, rfl, hA, hu, hE, hQ, e1, e2, e3⟩ := entries_split h3 he
    refine ⟨tt ++ (nt ++ (A ++ u)), E, Q ++ w, by simp, hE, fun E' e' hE' => ?_⟩
    rw [e3]
    have := Text.leaf h1 h2 (entries_append hA (.cons (lead_exchange hu hE hE') hE' hQ)) h4
    have h : Text (.node k (.mk ty nm (as ++ e' :: bs) none)) r ((tt ++ (nt ++ (A ++ u))) ++ (E' ++ (Q ++ w))) := by simpa using this
    exact ⟨⟨k, h, Or.inl rfl⟩, fun _ => h, tt, nt, A, u, as, rfl, h1, h2, hA, lead_exchange hu hE hE'⟩
  | @block k ty nm tt nt T w D v r es cs h1 h2 h3 h4 h5 h6 =>
    obtain ⟨A, u, E, Q, as, bs, rfl, hA, hu, hE, hQ, e1, e2, e3⟩ := entries_split h3 he
    refine ⟨tt ++ (nt ++ (A ++ u)), E, Q ++ (w ++ '{' :: (D ++ '}' :: v)), by simp, hE, fun E' e' hE' => ?_⟩
    rw [e3]
    have := Text.block (k := k) h1 h2 (entries_append hA (.cons (lead_exchange hu hE hE') hE' hQ)) h4 h5 h6
    have h : Text (.node k (.mk ty nm (as ++ e' :: bs) (some cs))) r
      ((tt ++ (nt ++ (A ++ u))) ++ (E' ++ (Q ++ (w ++ '{' :: (D ++ '}' :: v))))) := by simpa using this
    exact ⟨⟨k, h, Or.inl rfl⟩, fun _ => h, tt, nt, A, u, as, rfl, h1, h2, hA, lead_exchange hu hE hE'⟩
  | @leafKeyword ty nm tt nt T w t r ds d h1 h2 h3 h4 h5 =>
    by_cases hj : j < ds.length
    · rw [List.getElem?_append_left hj] at he
      obtain ⟨A, u, E, Q, as, bs, rfl, hA, hu, hE, hQ, e1, e2, e3⟩ := entries_split h3 he
      refine ⟨tt ++ (nt ++ (A ++ u)), E, Q ++ (w ++ t), by simp, hE, fun E' e' hE' => ?_⟩
      rw [List.set_append_left _ _ hj, e3]
      have := Text.leafKeyword (r := r) h1 h2 (entries_append hA (.cons (lead_exchange hu hE hE') hE' hQ)) h4 h5
      have h : Text (.node true (.mk ty nm ((as ++ e' :: bs) ++ [d]) none)) r
        ((tt ++ (nt ++ (A ++ u))) ++ (E' ++ (Q ++ (w ++ t)))) := by simpa using this
      exact ⟨⟨true, h, Or.inl rfl⟩, fun _ => h, tt, nt, A, u, as, rfl, h1, h2, hA, lead_exchange hu hE hE'⟩
    · rw [List.getElem?_append_right (by omega)] at he
      obtain ⟨h0, rfl⟩ : j - ds.length = 0 ∧ d = e := by
        cases hk : j - ds.length with
        | zero => rw [hk] at he; simpa using he
        | succ n => rw [hk] at he; simp at he
      obtain rfl : j = ds.length := by omega
      refine ⟨tt ++ (nt ++ (T ++ w)), t, [], by simp, h5.entry, fun E' e' hE' => ?_⟩
      have he : (ds ++ [d]).set ds.length e' = ds ++ [e'] := by
        rw [List.set_append_right _ _ (Nat.le_refl _)]; simp
      rw [he]
      have := Text.leaf (k := false) (r := r) h1 h2 (entries_append h3 (.cons (lead_exchange h4 h5.entry hE') hE' .nil)) (.midSpace .nil)
      refine ⟨⟨false, by simpa using this, Or.inr rfl⟩, fun hk => ?_, tt, nt, T, w, ds, rfl, h1, h2, h3,
        lead_exchange h4 h5.entry hE'⟩
      have := Text.leafKeyword (r := r) h1 h2 h3 (lead_exchange h4 h5.entry hE') hk
      simpa using this

/-- Another name in the place of the name of a node. -/
theorem node_set_name {k : Bool} {ty : Option Str} {nm : Str} {es : List (SEntry Value)} {cs : Option (List (SNode Value))}
    {r B : Str} (h : Text (.node k (.mk ty nm es cs)) r B) : ∃ p N q, B = p ++ (N ++ q) ∧ StrText N nm ∧
      ∀ N' nm', StrText N' nm' → Text (.node k (.mk ty nm' es cs)) r (p ++ (N' ++ q)) := by
  cases h with
  | leaf h1 h2 h3 h4 => exact ⟨_, _, _, rfl, h2, fun N' nm' h' => .leaf (ty_swap h1 h2 h') h' h3 h4⟩
  | block h1 h2 h3 h4 h5 h6 => exact ⟨_, _, _, rfl, h2, fun N' nm' h' => .block (ty_swap h1 h2 h') h' h3 h4 h5 h6⟩
  | leafKeyword h1 h2 h3 h4 h5 => exact ⟨_, _, _, rfl, h2, fun N' nm' h' => .leafKeyword (ty_swap h1 h2 h') h' h3 h4 h5⟩

/-! ### Children blocks -/

theorem blocks_append {c : Cat} {r C : Str} (h : Text c r C) : c = .blocks → ∀ {w C' : Str}, NSpace C' w → w ≠ [] → Text .blocks [] C' →
    Text .blocks [] (C ++ (w ++ C')) := by
  induction h with
  | blocksOne hb hD _ =>
    intro _ w C' hw hne h'
    have := Text.blocksCons hb hD hw hne h'
    simpa using this
  | @blocksCons b D v T cs hb hD hv hne' hT _ ih =>
    intro _ w C' hw hne h'
    have h := ih rfl hw hne h'
    have hT' : ∃ q, T = '/' :: '-' :: q := by cases hT <;> exact ⟨_, rfl⟩
    obtain ⟨q, rfl⟩ := hT'
    have := Text.blocksCons hb hD (nspace_swap hv (by simp) (by simp)) hne' h
    simpa using this
  | _ => intro e; cases e

/-- What stands behind slashdashed blocks when there is no block of the node any more. -/
theorem tail_blocks {r C v : Str} (hC : Text .blocks [] C) (hv : Text .tail r v) (hq : ∀ y, v ≠ '/' :: '-' :: y) :
    ∃ C' v', C ++ v = C' ++ v' ∧ Text .blocks [] C' ∧ NSpace r v' := by
  cases hv with
  | tailSpace h => exact ⟨C, v, rfl, hC, h⟩
  | @tailBlocks r w C2 v2 h1 h2 h3 =>
    have hne : w ≠ [] := by
      rintro rfl
      have h2' : ∃ q, C2 = '/' :: '-' :: q := by cases h2 <;> exact ⟨_, rfl⟩
      obtain ⟨q, rfl⟩ := h2'
      exact hq _ rfl
    exact ⟨C ++ (w ++ C2), v2, by simp, blocks_append hC rfl h1 hne h2, h3⟩

end

end Kdl
