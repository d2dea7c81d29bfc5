import Verif.Lemmas.DeErr
import Verif.Spec.Blame
/-
Errors of deserialisation point at elements of the document.
-/

namespace Kdl
open Spec

/-! ### Elements held by a deserializer -/

/-- The elements of nodes. -/
def allParts (ns : List Node) : List Part := ns.flatMap nodeParts

/-- The elements held by a deserializer. -/
def LSrc.parts : LSrc → List Part
  | .doc ns => allParts ns
  | .node n => nodeParts n
  | .group ns => allParts ns
  | .value e => entryParts e
  | .ident i => [.ident i]
  | .args es => es.flatMap entryParts
  | .omitted => []

/-- The elements held by a variant; the entry of a property has a name. -/
def LEnum.parts : LEnum → List Part
  | .str _ => []
  | .node n => nodeParts n
  | .prop _ e => entryParts e

/-- A property has a name. -/
def LEnum.Named : LEnum → Prop
  | .prop _ e => e.name ≠ none
  | _ => True

/-- The elements held by a call. -/
def LEvent.parts : LEvent → List Part
  | .plain _ => []
  | .none => []
  | .some s => s.parts
  | .newtype s => s.parts
  | .seq l => l.flatMap LSrc.parts
  | .map l => l.flatMap fun p => p.2.parts
  | .enum e => e.parts

/-- Properties have names. -/
def LEvent.Named : LEvent → Prop
  | .enum e => e.Named
  | _ => True

/-- What is added to an error is about one of the elements. -/
def NoteOk (ps : List Part) (note : Option (Span × String)) : Prop :=
  ∀ sp l, note = some (sp, l) → ∃ p ∈ ps, Blames sp l p

/-- The error is about one of the elements, if it has a place. -/
def ErrOk (ps : List Part) (e : DeError) : Prop :=
  (e.span = none ∧ e.label = none) ∨ ∃ sp l, e = ⟨some sp, some l⟩ ∧ ∃ p ∈ ps, Blames sp l p

/-- An error, if there is one, is about one of the elements. -/
def ResOk {α : Type} (ps : List Part) (r : Except DeError α) : Prop := ∀ e, r = .error e → ErrOk ps e

theorem ErrOk.mono {ps qs : List Part} {e : DeError} (h : ErrOk ps e) (hs : ps ⊆ qs) : ErrOk qs e := by
  rcases h with h | ⟨sp, l, he, p, hp, hb⟩
  · exact Or.inl h
  · exact Or.inr ⟨sp, l, he, p, hs hp, hb⟩

theorem ErrOk.empty (ps : List Part) : ErrOk ps {} := Or.inl ⟨rfl, rfl⟩

theorem ResOk.mono {α : Type} {ps qs : List Part} {r : Except DeError α} (h : ResOk ps r) (hs : ps ⊆ qs) : ResOk qs r :=
  fun e he => (h e he).mono hs

theorem ResOk.ok {α : Type} (ps : List Part) (a : α) : ResOk ps (.ok a) := fun _ h => by cases h

theorem ResOk.empty {α : Type} (ps : List Part) : ResOk ps (.error {} : Except DeError α) :=
  fun _ h => by cases h; exact ErrOk.empty ps

theorem ResOk.map {α β : Type} {ps : List Part} {r : Except DeError α} (f : α → β) (h : ResOk ps r) : ResOk ps (r.map f) := by
  intro e he
  cases r with
  | ok a => cases he
  | error e' => cases he; exact h _ rfl

theorem ResOk.annotated {α : Type} {ps : List Part} {note : Option (Span × String)} {r : Except DeError α}
    (hn : NoteOk ps note) (h : ResOk ps r) : ResOk ps (annotated note r) := by
  intro e he
  unfold Kdl.annotated at he
  cases r with
  | ok a => cases he
  | error e' =>
    have h' := h e' rfl
    cases note with
    | none => cases he; exact h'
    | some q =>
      obtain ⟨sp, l⟩ := q
      simp only [Except.error.injEq] at he
      subst he
      unfold DeError.withSpan
      split
      · exact h'
      · exact Or.inr ⟨sp, l, rfl, hn sp l rfl⟩

/-! ### Elements of nodes -/

theorem entry_mem {n : Node} {e : Entry} (h : e ∈ n.entries) : entryParts e ⊆ nodeParts n := by
  intro p hp
  cases n with
  | mk ty name es ch f sp =>
    rw [nodeParts]
    simp only [List.mem_cons, List.mem_append, List.mem_flatMap]
    exact Or.inr (Or.inr (Or.inl (Or.inr ⟨e, h, hp⟩)))

theorem arg_mem {n : Node} {e : Entry} (h : e ∈ n.argEntries) : entryParts e ⊆ nodeParts n :=
  entry_mem (List.mem_filter.1 h).1

theorem prop_mem {n : Node} {e : Entry} (h : e ∈ n.propEntries) : entryParts e ⊆ nodeParts n :=
  entry_mem (List.mem_filter.1 h).1

theorem name_mem (n : Node) : Part.ident n.name ∈ nodeParts n := by
  cases n; rw [nodeParts]; simp [Node.name]

theorem ty_mem {n : Node} {t : Ident} (h : n.ty = some t) : Part.ident t ∈ nodeParts n := by
  cases n
  rw [nodeParts]
  simp only [Node.ty] at h
  simp [h]

theorem span_mem (n : Node) : Part.node n.span ∈ nodeParts n := by
  cases n; rw [nodeParts]; simp [Node.span]

theorem nodesParts_eq (ns : List Node) : nodesParts ns = allParts ns := by
  induction ns with
  | nil => rw [nodesParts]; rfl
  | cons n ns ih => rw [nodesParts, ih]; rfl

theorem children_mem {n : Node} {ns : List Node} (h : n.childNodes = some ns) : allParts ns ⊆ nodeParts n := by
  intro p hp
  cases n with
  | mk ty name es ch f sp =>
    rw [nodeParts]
    simp only [List.mem_cons, List.mem_append]
    right; right; right
    cases ch with
    | none => cases h
    | some d =>
      cases d with
      | mk ns' f' sp' =>
        simp only [Node.childNodes, Node.children, Option.map_some, Document.nodes, Option.some.injEq] at h
        rw [childrenParts, docParts, nodesParts_eq, h]
        exact List.mem_cons_of_mem _ hp

theorem node_mem {n : Node} {ns : List Node} (h : n ∈ ns) : nodeParts n ⊆ allParts ns :=
  fun _ hp => List.mem_flatMap.2 ⟨n, h, hp⟩

theorem scalar_mem {n : Node} {e : Entry} (h : n.scalarEntry = some e) : entryParts e ⊆ nodeParts n := by
  unfold Node.scalarEntry at h
  split at h
  · next ha _ _ => cases h; exact arg_mem (by rw [ha]; simp)
  · cases h

/-! ### Groups -/

theorem lgroupOf_mem {k : Str} {g : List (Str × List Node)} {ns : List Node} (h : lgroupOf k g = some ns) :
    ∃ p ∈ g, p.2 = ns := by
  induction g with
  | nil => cases h
  | cons p g ih =>
    obtain ⟨k', ms⟩ := p
    rw [lgroupOf] at h
    split at h
    · exact ⟨_, List.mem_cons_self, Option.some.inj h⟩
    · obtain ⟨p, hp, he⟩ := ih h
      exact ⟨p, List.mem_cons_of_mem _ hp, he⟩

theorem lgroupPush_mem {k : Str} {n m : Node} {g : List (Str × List Node)} {p : Str × List Node}
    (hp : p ∈ lgroupPush k n g) (hm : m ∈ p.2) : m = n ∨ ∃ q ∈ g, m ∈ q.2 := by
  induction g with
  | nil =>
    simp only [lgroupPush, List.mem_singleton] at hp
    subst hp
    exact Or.inl (List.mem_singleton.1 hm)
  | cons q g ih =>
    obtain ⟨k', ms⟩ := q
    rw [lgroupPush] at hp
    split at hp
    · rcases List.mem_cons.1 hp with hp | hp
      · subst hp
        rcases List.mem_append.1 hm with hm | hm
        · exact Or.inr ⟨_, List.mem_cons_self, hm⟩
        · exact Or.inl (List.mem_singleton.1 hm)
      · exact Or.inr ⟨p, List.mem_cons_of_mem _ hp, hm⟩
    · rcases List.mem_cons.1 hp with hp | hp
      · subst hp
        exact Or.inr ⟨_, List.mem_cons_self, hm⟩
      · rcases ih hp with h | ⟨q, hq, h⟩
        · exact Or.inl h
        · exact Or.inr ⟨q, List.mem_cons_of_mem _ hq, h⟩

theorem lgroupLoop_mem {ns : List Node} {keys : List Str} {g : List (Str × List Node)} {p : Str × List Node} {m : Node}
    (hp : p ∈ (lgroupLoop ns keys g).2) (hm : m ∈ p.2) : m ∈ ns ∨ ∃ q ∈ g, m ∈ q.2 := by
  induction ns generalizing keys g with
  | nil => exact Or.inr ⟨p, hp, hm⟩
  | cons n ns ih =>
    rw [lgroupLoop] at hp
    rcases ih hp with h | ⟨q, hq, h⟩
    · exact Or.inl (List.mem_cons_of_mem _ h)
    · rcases lgroupPush_mem hq h with h | h
      · exact Or.inl (by simp [h])
      · exact Or.inr h

theorem grouped_parts {ns : List Node} {p : Str × LSrc} (h : p ∈ lgrouped ns) : p.2.parts ⊆ allParts ns := by
  unfold lgrouped at h
  simp only [List.mem_map] at h
  obtain ⟨k, -, rfl⟩ := h
  have key : ∀ ms, lgroupOf k (lgroupLoop ns [] []).2 = some ms → ∀ m ∈ ms, m ∈ ns := by
    intro ms h m hm
    obtain ⟨q, hq, rfl⟩ := lgroupOf_mem h
    rcases lgroupLoop_mem hq hm with h | ⟨q, hq, -⟩
    · exact h
    · cases hq
  unfold lgroupSrc
  simp only
  split
  · next n h => exact node_mem (key _ h n (by simp))
  · next h =>
    intro p hp
    obtain ⟨m, hm, hp⟩ := List.mem_flatMap.1 hp
    exact node_mem (key _ h m hm) hp
  · exact fun p hp => by cases hp

/-! ### Fields -/

theorem lnodeMapArgs_parts {fs : List Str} {as : List Entry} {i : Nat} :
    (∀ p ∈ (lnodeMapArgs fs as i).1, p.2.parts ⊆ as.flatMap entryParts) ∧ ∀ e ∈ (lnodeMapArgs fs as i).2, e ∈ as := by
  induction as generalizing i with
  | nil => exact ⟨fun p hp => (by cases hp), fun e he => (by cases he)⟩
  | cons a as ih =>
    have hty : ∀ p ∈ (match a.ty with
      | some t => [(('#' :: showNat i) ++ ['#', 't', 'y', 'p', 'e'], LSrc.ident t)]
      | none => []), p.2.parts ⊆ (a :: as).flatMap entryParts := by
      intro p hp
      split at hp
      · next t ht =>
        rw [List.mem_singleton] at hp
        subst hp
        intro q hq
        rw [List.mem_flatMap]
        refine ⟨a, List.mem_cons_self, ?_⟩
        simp only [LSrc.parts, List.mem_singleton] at hq
        subst hq
        simp [entryParts, entryIdents, ht]
      · cases hp
    have hrest : ∀ p ∈ (lnodeMapArgs fs as (i + 1)).1, p.2.parts ⊆ (a :: as).flatMap entryParts := by
      intro p hp q hq
      rw [List.flatMap_cons]
      exact List.mem_append_right _ ((ih (i := i + 1)).1 p hp hq)
    rw [lnodeMapArgs]
    split
    · refine ⟨fun p hp => ?_, fun e he => List.mem_cons_of_mem _ (ih.2 e he)⟩
      rcases List.mem_append.1 hp with hp | hp
      · exact hty p hp
      · rcases List.mem_cons.1 hp with hp | hp
        · subst hp
          intro q hq
          rw [List.flatMap_cons]
          exact List.mem_append_left _ hq
        · exact hrest p hp
    · refine ⟨fun p hp => ?_, fun e he => ?_⟩
      · rcases List.mem_append.1 hp with hp | hp
        · exact hty p hp
        · exact hrest p hp
      · rcases List.mem_cons.1 he with he | he
        · simp [he]
        · exact List.mem_cons_of_mem _ (ih.2 e he)

theorem args_parts {n : Node} {es : List Entry} (h : ∀ e ∈ es, e ∈ n.argEntries) : es.flatMap entryParts ⊆ nodeParts n := by
  intro q hq
  obtain ⟨e, he, hq⟩ := List.mem_flatMap.1 hq
  exact arg_mem (h e he) hq

theorem nodeMap_parts {n : Node} {fs : Option (List Str)} {p : Str × LSrc} (h : p ∈ lnodeMap n fs) :
    p.2.parts ⊆ nodeParts n := by
  unfold lnodeMap at h
  simp only [List.mem_append] at h
  rcases h with ((h | h) | h) | h
  · cases fs with
    | none => cases h
    | some fs =>
      rcases List.mem_append.1 h with h | h
      · unfold lnodeMapHead at h
        rcases List.mem_append.1 h with h | h
        · split at h
          · rw [List.mem_singleton] at h
            subst h
            exact fun q hq => by rw [List.mem_singleton.1 hq]; exact name_mem n
          · cases h
        · split at h
          · next t ht =>
            split at h
            · rw [List.mem_singleton] at h
              subst h
              exact fun q hq => by rw [List.mem_singleton.1 hq]; exact ty_mem ht
            · cases h
          · cases h
      · unfold lnodeMapAllArgs at h
        simp only [List.mem_append] at h
        rcases h with (h | h) | h
        · exact fun q hq => args_parts (fun _ h => h) (lnodeMapArgs_parts.1 p h hq)
        · split at h
          · rw [List.mem_singleton] at h
            subst h
            exact args_parts fun _ h => h
          · cases h
        · split at h
          · rw [List.mem_singleton] at h
            subst h
            exact args_parts lnodeMapArgs_parts.2
          · cases h
  · obtain ⟨e, he, h⟩ := List.mem_flatMap.1 h
    have hs := prop_mem he
    unfold lnodeMapProp at h
    split at h
    · cases h
    · simp only [List.mem_append, List.mem_singleton] at h
      rcases h with h | h
      · cases fs with
        | none => cases h
        | some fs =>
          simp only at h
          rcases List.mem_append.1 h with h | h
          · split at h
            · rw [List.mem_singleton] at h
              subst h
              exact hs
            · cases h
          · split at h
            · next t ht =>
              split at h
              · rw [List.mem_singleton] at h
                subst h
                exact fun q hq => by
                  rw [List.mem_singleton.1 hq]
                  exact hs (by simp [entryParts, entryIdents, ht])
              · cases h
            · cases h
      · subst h
        exact hs
  · cases hc : n.childNodes with
    | none => rw [hc] at h; cases h
    | some ns =>
      rw [hc] at h
      exact fun q hq => children_mem hc (grouped_parts h hq)
  · cases fs with
    | none => cases h
    | some fs =>
      unfold lomittedFields at h
      obtain ⟨f, -, rfl⟩ := List.mem_map.1 h
      exact fun q hq => by cases hq

/-! ### Calls -/

/-- What a call may be about. -/
def CallOk (ps : List Part) (c : Call) : Prop :=
  (∀ e, c = .error e → ErrOk ps e) ∧ ∀ e note, c = .ok (e, note) → e.parts ⊆ ps ∧ e.Named ∧ NoteOk ps note

theorem CallOk.of_ok {ps : List Part} {e : LEvent} {note : Option (Span × String)} (hp : e.parts ⊆ ps) (he : e.Named)
    (hn : NoteOk ps note) : CallOk ps (.ok (e, note)) :=
  ⟨fun _ h => (by cases h), fun _ _ h => by cases h; exact ⟨hp, he, hn⟩⟩

theorem CallOk.mono {ps qs : List Part} {c : Call} (h : CallOk ps c) (hs : ps ⊆ qs) : CallOk qs c :=
  ⟨fun e he => (h.1 e he).mono hs, fun e note he => by
    obtain ⟨h1, h2, h3⟩ := h.2 e note he
    exact ⟨fun q hq => hs (h1 hq), h2, fun sp l hl => by
      obtain ⟨p, hp, hb⟩ := h3 sp l hl
      exact ⟨p, hs hp, hb⟩⟩⟩

theorem NoteOk.none (ps : List Part) : NoteOk ps none := fun _ _ h => by cases h

theorem nil_sub (ps : List Part) : ([] : List Part) ⊆ ps := fun _ h => by cases h

theorem note_value (e : Entry) : NoteOk (entryParts e) (some (e.span, valueLabel)) := by
  intro sp l h
  simp only [Option.some.injEq, Prod.mk.injEq] at h
  exact ⟨.entry e, List.mem_cons_self, h.1.symm, Or.inl h.2.symm⟩

theorem note_variant (e : Entry) : NoteOk (entryParts e) (some (e.span, variantLabel)) := by
  intro sp l h
  simp only [Option.some.injEq, Prod.mk.injEq] at h
  exact ⟨.entry e, List.mem_cons_self, h.1.symm, Or.inr (Or.inl h.2.symm)⟩

theorem anyCall_ok (e : Entry) : CallOk (entryParts e) e.anyCall :=
  CallOk.of_ok (nil_sub _) trivial (note_value e)

theorem entry_call_ok (e : Entry) (r : Req) : CallOk (entryParts e) (e.call r) := by
  unfold Entry.call
  cases r <;> simp only <;> first | exact anyCall_ok e | skip
  · split
    · exact CallOk.of_ok (nil_sub _) trivial (note_value e)
    · exact CallOk.of_ok (fun _ h => h) trivial (NoteOk.none _)
  · exact CallOk.of_ok (fun _ h => h) trivial (NoteOk.none _)
  · split
    · exact CallOk.of_ok (nil_sub _) trivial (note_value e)
    · refine ⟨fun e' h => ?_, fun _ _ h => by cases h⟩
      cases h
      exact Or.inr ⟨_, _, rfl, .entry e, List.mem_cons_self, rfl, Or.inl rfl⟩

theorem ident_call_ok (i : Ident) (r : Req) : CallOk [.ident i] (i.call r) := by
  have hn : NoteOk [.ident i] (some (i.span, identLabel)) := by
    intro sp l h
    simp only [Option.some.injEq, Prod.mk.injEq] at h
    exact ⟨.ident i, List.mem_cons_self, h.1.symm, h.2.symm⟩
  unfold Ident.call
  cases r <;> simp only <;>
    first | exact CallOk.of_ok (nil_sub _) trivial hn | exact CallOk.of_ok (fun _ h => h) trivial (NoteOk.none _)

theorem seq_parts_args {n : Node} : (LEvent.seq (n.argEntries.map .value)).parts ⊆ nodeParts n := by
  intro q hq
  obtain ⟨s, hs, hq⟩ := List.mem_flatMap.1 hq
  obtain ⟨e, he, rfl⟩ := List.mem_map.1 hs
  exact arg_mem he hq

theorem seq_parts_nodes {ns : List Node} : (LEvent.seq (ns.map .node)).parts ⊆ allParts ns := by
  intro q hq
  obtain ⟨s, hs, hq⟩ := List.mem_flatMap.1 hq
  obtain ⟨e, he, rfl⟩ := List.mem_map.1 hs
  exact node_mem he hq

theorem lseq_parts (n : Node) : n.lseq.parts ⊆ nodeParts n := by
  unfold Node.lseq
  split
  · exact seq_parts_args
  · next ns h => exact fun q hq => children_mem h (seq_parts_nodes hq)

theorem map_parts {n : Node} {fs : Option (List Str)} : (LEvent.map (lnodeMap n fs)).parts ⊆ nodeParts n := by
  intro q hq
  obtain ⟨p, hp, hq⟩ := List.mem_flatMap.1 hq
  exact nodeMap_parts hp hq

theorem node_anyCall_ok (n : Node) : CallOk (nodeParts n) n.anyCall := by
  unfold Node.anyCall
  split
  · exact CallOk.of_ok (nil_sub _) trivial (NoteOk.none _)
  · split
    · next e h => exact (anyCall_ok e).mono (scalar_mem h)
    · split
      · exact CallOk.of_ok seq_parts_args trivial (NoteOk.none _)
      · exact CallOk.of_ok map_parts trivial (NoteOk.none _)

theorem enumCall_ok (n : Node) : CallOk (nodeParts n) (.ok n.enumCall) := by
  unfold Node.enumCall
  have fallback : CallOk (nodeParts n) (.ok (match n.childNodes with
    | some [c] => (.enum (.node c), none)
    | some _ => (.enum (.node n), none)
    | none => match n.propEntries, n.argEntries with
      | [p], [] => (.enum (.prop ((p.name.map Ident.value).getD []) p), none)
      | _, _ => (.enum (.node n), none))) := by
    split
    · next c h => exact CallOk.of_ok (e := .enum (.node c)) (fun q hq => children_mem h (node_mem (by simp) hq)) trivial (NoteOk.none _)
    · exact CallOk.of_ok (e := .enum (.node n)) (fun _ h => h) trivial (NoteOk.none _)
    · split
      · next p hp _ =>
        have hm : p ∈ n.propEntries := by rw [hp]; simp
        refine CallOk.of_ok (prop_mem hm) ?_ (NoteOk.none _)
        have := (List.mem_filter.1 hm).2
        exact Option.isSome_iff_ne_none.1 this
      · exact CallOk.of_ok (e := .enum (.node n)) (fun _ h => h) trivial (NoteOk.none _)
  simp only
  split
  · next e he =>
    split
    · next s _ =>
      exact (CallOk.of_ok (ps := entryParts e) (e := .enum (.str s)) (nil_sub _) trivial (note_variant e)).mono (scalar_mem he)
    · exact fallback
  · exact fallback

theorem node_call_ok (n : Node) (r : Req) : CallOk (nodeParts n) (n.call r) := by
  unfold Node.call
  cases r with
  | any => exact node_anyCall_ok n
  | bool =>
    simp only
    split
    · next e h => exact (anyCall_ok e).mono (scalar_mem h)
    · split
      · exact CallOk.of_ok (nil_sub _) trivial (NoteOk.none _)
      · refine ⟨fun e' h => ?_, fun _ _ h => by cases h⟩
        cases h
        exact Or.inr ⟨_, _, rfl, .node n.span, span_mem n, rfl, Or.inl rfl⟩
  | scalar =>
    simp only
    split
    · next e h => exact (anyCall_ok e).mono (scalar_mem h)
    · exact node_anyCall_ok n
  | option =>
    simp only
    split
    · exact CallOk.of_ok (nil_sub _) trivial (NoteOk.none _)
    · split
      · split
        · exact CallOk.of_ok (nil_sub _) trivial (NoteOk.none _)
        · exact CallOk.of_ok (fun _ h => h) trivial (NoteOk.none _)
      · exact CallOk.of_ok (fun _ h => h) trivial (NoteOk.none _)
  | unit => exact CallOk.of_ok (nil_sub _) trivial (NoteOk.none _)
  | newtype => exact CallOk.of_ok (fun _ h => h) trivial (NoteOk.none _)
  | seq =>
    refine CallOk.of_ok (lseq_parts n) ?_ (NoteOk.none _)
    unfold Node.lseq; split <;> trivial
  | tuple =>
    refine CallOk.of_ok (lseq_parts n) ?_ (NoteOk.none _)
    unfold Node.lseq; split <;> trivial
  | map => exact CallOk.of_ok map_parts trivial (NoteOk.none _)
  | struct fs => exact CallOk.of_ok map_parts trivial (NoteOk.none _)
  | enum => exact enumCall_ok n

theorem call_ok (s : LSrc) (r : Req) : CallOk s.parts (s.call r) := by
  cases s with
  | doc ns =>
    have hm : CallOk (allParts ns) (.ok (.map (lgrouped ns), none)) := by
      refine CallOk.of_ok ?_ trivial (NoteOk.none _)
      intro q hq
      obtain ⟨p, hp, hq⟩ := List.mem_flatMap.1 hq
      exact grouped_parts hp hq
    unfold LSrc.call
    cases r <;> simp only <;> first | exact hm | skip
    · split
      · exact CallOk.of_ok (nil_sub _) trivial (NoteOk.none _)
      · exact CallOk.of_ok (fun _ h => h) trivial (NoteOk.none _)
    · exact CallOk.of_ok (nil_sub _) trivial (NoteOk.none _)
    · exact CallOk.of_ok (fun _ h => h) trivial (NoteOk.none _)
    · exact CallOk.of_ok seq_parts_nodes trivial (NoteOk.none _)
    · split
      · exact CallOk.of_ok (fun q hq => node_mem (by simp) hq) trivial (NoteOk.none _)
      · exact ⟨fun e h => (by cases h; exact ErrOk.empty _), fun _ _ h => by cases h⟩
  | node n => exact node_call_ok n r
  | group ns => exact CallOk.of_ok seq_parts_nodes trivial (NoteOk.none _)
  | value e => exact entry_call_ok e r
  | ident i => exact ident_call_ok i r
  | args es =>
    have hs : CallOk (es.flatMap entryParts) (.ok (.seq (es.map .value), none)) := by
      refine CallOk.of_ok ?_ trivial (NoteOk.none _)
      intro q hq
      obtain ⟨s, hs, hq⟩ := List.mem_flatMap.1 hq
      obtain ⟨e, he, rfl⟩ := List.mem_map.1 hs
      exact List.mem_flatMap.2 ⟨e, he, hq⟩
    unfold LSrc.call
    cases r <;> simp only <;> first | exact hs | skip
    · split
      · exact CallOk.of_ok (nil_sub _) trivial (NoteOk.none _)
      · exact CallOk.of_ok (fun _ h => h) trivial (NoteOk.none _)
    · exact CallOk.of_ok (fun _ h => h) trivial (NoteOk.none _)
  | omitted =>
    unfold LSrc.call
    cases r <;> simp only <;> exact CallOk.of_ok (nil_sub _) trivial (NoteOk.none _)

/-! ### Reading -/

theorem ask_ok {α : Type} (s : LSrc) (r : Req) {visitor : LEvent → Except DeError α}
    (hv : ∀ e : LEvent, e.Named → ResOk e.parts (visitor e)) : ResOk s.parts (s.ask r visitor) := by
  obtain ⟨h1, h2⟩ := call_ok s r
  unfold LSrc.ask
  cases h : s.call r with
  | error e => exact fun e' he => by cases he; exact h1 e h
  | ok p =>
    obtain ⟨e, note⟩ := p
    obtain ⟨hp, hn, hnote⟩ := h2 e note h
    exact ResOk.annotated hnote ((hv e hn).mono hp)

theorem visit_ok (f : Event → Option SVal) (e : LEvent) : ResOk e.parts (LEvent.visit f e) := by
  unfold LEvent.visit
  split
  · split
    · exact ResOk.ok _ _
    · exact ResOk.empty _
  · exact ResOk.empty _

theorem readAll_ok {α β : Type} {f : α → Except DeError β} {parts : α → List Part} (hf : ∀ a, ResOk (parts a) (f a))
    (l : List α) : ResOk (l.flatMap parts) (readAll f l) := by
  induction l with
  | nil => exact ResOk.ok _ _
  | cons a l ih =>
    rw [readAll, List.flatMap_cons]
    cases h : f a with
    | error e =>
      intro e' he
      cases he
      exact ((hf a) e h).mono (List.subset_append_left _ _)
    | ok b =>
      simp only
      cases h' : readAll f l with
      | error e =>
        intro e' he
        cases he
        exact (ih e h').mono (List.subset_append_right _ _)
      | ok bs => exact ResOk.ok _ _

theorem fieldLoop_parts {field : Str → Option (LSrc → Except DeError SVal)}
    (hf : ∀ k f, field k = some f → ∀ s, ResOk s.parts (f s)) (l : List (Str × LSrc)) (acc : List (Str × SVal)) :
    ResOk (l.flatMap fun p => p.2.parts) (fieldLoop field l acc) := by
  induction l generalizing acc with
  | nil => exact ResOk.ok _ _
  | cons p l ih =>
    obtain ⟨k, s⟩ := p
    rw [fieldLoop, List.flatMap_cons]
    split
    · exact (ih acc).mono (List.subset_append_right _ _)
    · next f hk =>
      split
      · exact ResOk.empty _
      · split
        · next e he =>
          intro e' he'
          cases he'
          exact (hf k f hk s e he).mono (List.subset_append_left _ _)
        · exact (ih _).mono (List.subset_append_right _ _)

theorem fieldsOf_ok (ps : List Part) (acc : List (Str × SVal)) (fs : List (Str × Ty)) : ResOk ps (fieldsOf acc fs) := by
  induction fs with
  | nil => exact ResOk.ok _ _
  | cons p fs ih =>
    obtain ⟨k, t⟩ := p
    rw [fieldsOf]
    split
    · exact ResOk.empty _
    · split
      · next e he => exact fun e' he' => by cases he'; exact ih e he
      · exact ResOk.ok _ _

theorem struct_ok [FloatCast] {fs : List (Str × Ty)} (ih : ∀ k t, (k, t) ∈ fs → ∀ s, ResOk s.parts (deE t s))
    (l : List (Str × LSrc)) {β : Type} (g : List (Str × SVal) → β) :
    ResOk (l.flatMap fun p => p.2.parts) (match fieldLoop (deFieldE fs) l [] with
     | .error e => (.error e : Except DeError β)
     | .ok acc => (fieldsOf acc fs).map g) := by
  cases h : fieldLoop (deFieldE fs) l [] with
  | error e =>
    exact fun e' he' => by
      cases he'
      refine fieldLoop_parts (field := deFieldE fs) ?_ l [] e h
      intro k f hk s
      obtain ⟨t, hm, rfl⟩ := deFieldE_some hk
      exact ih k t hm s
  | ok acc => exact (fieldsOf_ok _ acc fs).map g

section
variable [FloatCast]
mutual
theorem deE_parts : ∀ (t : Ty) (s : LSrc), ResOk s.parts (deE t s)
  | .bool, s => by rw [deE]; exact ask_ok s _ fun e _ => visit_ok _ e
  | .int lo hi wide, s => by rw [deE]; exact ask_ok s _ fun e _ => visit_ok _ e
  | .f64, s => by rw [deE]; exact ask_ok s _ fun e _ => visit_ok _ e
  | .char, s => by rw [deE]; exact ask_ok s _ fun e _ => visit_ok _ e
  | .str, s => by rw [deE]; exact ask_ok s _ fun e _ => visit_ok _ e
  | .unit, s => by rw [deE]; exact ask_ok s _ fun e _ => visit_ok _ e
  | .unitStruct name, s => by rw [deE]; exact ask_ok s _ fun e _ => visit_ok _ e
  | .option t, s => by
    have ih := deE_parts t
    rw [deE]
    refine ask_ok s _ fun e _ => ?_
    split <;> first | exact ResOk.ok _ _ | exact ResOk.empty _ | exact (ih _).map _
  | .newtype t, s => by
    have ih := deE_parts t
    rw [deE]
    refine ask_ok s _ fun e _ => ?_
    split
    · exact (ih _).map _
    · exact ((ih _).map _).mono fun q hq => List.mem_flatMap.2 ⟨_, List.mem_cons_self, hq⟩
    · exact ResOk.empty _
  | .seq t, s => by
    have ih := deE_parts t
    rw [deE]
    refine ask_ok s _ fun e _ => ?_
    split
    · exact (readAll_ok ih _).map _
    · exact ResOk.empty _
  | .tuple ts, s => by
    have ih := deTupleE_parts ts
    rw [deE]
    refine ask_ok s _ fun e _ => ?_
    split
    · exact (ih _).map _
    · exact ResOk.empty _
  | .tupleStruct ts, s => by
    have ih := deTupleE_parts ts
    rw [deE]
    refine ask_ok s _ fun e _ => ?_
    split
    · exact (ih _).map _
    · exact ResOk.empty _
  | .map t, s => by
    have ih := deE_parts t
    rw [deE]
    refine ask_ok s _ fun e _ => ?_
    split
    · exact (readAll_ok (parts := fun p : Str × LSrc => p.2.parts) (fun p => (ih p.2).map _) _).map _
    · exact ResOk.empty _
  | .struct fs, s => by
    have ih := deFields_parts fs
    have ihs := deSeqE_parts fs
    rw [deE]
    refine ask_ok s _ fun e _ => ?_
    split
    · exact struct_ok ih _ _
    · exact (ihs _).map _
    · exact ResOk.empty _
  | .enum vs, s => by
    have ih := deVariantE_parts vs
    rw [deE]
    refine ask_ok s _ fun e he => ?_
    split
    · exact ih _ he
    · exact ResOk.empty _
theorem deTupleE_parts : ∀ (ts : List Ty) (l : List LSrc), ResOk (l.flatMap LSrc.parts) (deTupleE ts l)
  | [], l => by rw [deTupleE]; exact ResOk.ok _ _
  | t :: ts, [] => by rw [deTupleE]; exact ResOk.empty _
  | t :: ts, s :: l => by
    have h1 := deE_parts t s
    have h2 := deTupleE_parts ts l
    rw [deTupleE, List.flatMap_cons]
    split
    · next e he => exact fun e' he' => by cases he'; exact (h1 e he).mono (List.subset_append_left _ _)
    · exact (h2.map _).mono (List.subset_append_right _ _)
theorem deSeqE_parts : ∀ (fs : List (Str × Ty)) (l : List LSrc), ResOk (l.flatMap LSrc.parts) (deSeqE fs l)
  | [], l => by rw [deSeqE]; exact ResOk.ok _ _
  | _ :: _, [] => by rw [deSeqE]; exact ResOk.empty _
  | (k, t) :: fs, s :: l => by
    have h1 := deE_parts t s
    have h2 := deSeqE_parts fs l
    rw [deSeqE, List.flatMap_cons]
    split
    · next e he => exact fun e' he' => by cases he'; exact (h1 e he).mono (List.subset_append_left _ _)
    · exact (h2.map _).mono (List.subset_append_right _ _)
theorem deFields_parts : ∀ (fs : List (Str × Ty)), ∀ k t, (k, t) ∈ fs → ∀ s : LSrc, ResOk s.parts (deE t s)
  | [], _, _, h, _ => by cases h
  | (k', t') :: fs, k, t, h, s => by
    rcases List.mem_cons.1 h with h | h
    · simp only [Prod.mk.injEq] at h
      rw [h.2]
      exact deE_parts t' s
    · exact deFields_parts fs k t h s
theorem deVariantE_parts : ∀ (vs : List (Str × VTy)) (e : LEnum), e.Named → ResOk e.parts (deVariantE vs e)
  | [], e, _ => by
    rw [deVariantE]
    refine ResOk.annotated ?_ (ResOk.empty _)
    cases e with
    | str s => exact NoteOk.none _
    | node n =>
      intro sp l h
      simp only [LEnum.variant, Option.some.injEq, Prod.mk.injEq] at h
      exact ⟨.node n.span, span_mem n, h.1.symm, Or.inr h.2.symm⟩
    | prop k en => exact note_variant en
  | (k, vt) :: vs, e, he => by
    have h1 := deBodyE_parts vt k e he
    have h2 := deVariantE_parts vs e he
    rw [deVariantE]
    split
    · exact h1
    · exact h2
theorem deBodyE_parts : ∀ (vt : VTy) (k : Str) (e : LEnum), e.Named → ResOk e.parts (deBodyE k vt e)
  | .unit, k, e, _ => by rw [deBodyE]; exact ResOk.ok _ _
  | .newtype t, k, e, _ => by
    have ih := deE_parts t
    rw [deBodyE]
    cases e with
    | str s => exact ResOk.empty _
    | node n => exact (ih (.node n)).map _
    | prop key en => exact (ih (.value en)).map _
  | .tuple ts, k, e, hn => by
    have ih := deTupleE_parts ts
    rw [deBodyE]
    cases e with
    | str s => exact ResOk.empty _
    | prop key en =>
      exact fun e' he' => by
        cases he'
        exact Or.inr ⟨_, _, rfl, .entry en, List.mem_cons_self, rfl, Or.inr (Or.inr ⟨rfl, hn⟩)⟩
    | node n =>
      have : ∃ l, n.lseq = .seq l := by unfold Node.lseq; split <;> exact ⟨_, rfl⟩
      obtain ⟨l, hl⟩ := this
      have hp := lseq_parts n
      rw [hl] at hp
      simp only [LEnum.tuple, hl]
      exact ((ih l).map _).mono hp
  | .struct fs, k, e, hn => by
    have ih := deFields_parts fs
    rw [deBodyE]
    cases e with
    | str s => exact ResOk.empty _
    | prop key en =>
      exact fun e' he' => by
        cases he'
        exact Or.inr ⟨_, _, rfl, .entry en, List.mem_cons_self, rfl, Or.inr (Or.inr ⟨rfl, hn⟩)⟩
    | node n => exact (struct_ok ih (lnodeMap n none) _).mono map_parts
end
end

end Kdl
