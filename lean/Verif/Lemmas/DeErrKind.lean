import Verif.Lemmas.DeErrParts
/-
Errors of deserialisation that have no place do not depend on the values.
-/

namespace Kdl
open Spec

/-! ### Calls, up to values -/

/-- Whether the deserializer adds a place to the errors of the visitor. -/
def Src.notes : Src → Req → Bool
  | .value v, r => match r with
    | .option => match v with
      | .null => true
      | _ => false
    | .newtype => false
    | _ => true
  | .ident _, r => match r with
    | .newtype => false
    | _ => true
  | .node n, r => match r with
    | .any => !n.isEmpty && n.scalar.isSome
    | .bool => n.scalar.isSome
    | .scalar => n.scalar.isSome || (!n.isEmpty && n.scalar.isSome)
    | .enum => match n.scalar with
      | some e => match e.value with
        | .string _ => true
        | _ => false
      | none => false
    | _ => false
  | _, _ => false

/-- What a call is, up to values. -/
def CallKind (c : Call) (notes : Bool) (ev : Option Event) : Prop :=
  ∀ e note, c = .ok (e, note) → note.isSome = notes ∧ (note = none → ev = some (e.erase kind))

theorem CallKind.plainly {e : LEvent} {ev : Option Event} (h : ev = some (e.erase kind)) : CallKind (.ok (e, none)) false ev := by
  intro e' note h'
  cases h'
  exact ⟨rfl, fun _ => h⟩

theorem CallKind.noted {e : LEvent} {p : Span × String} {ev : Option Event} : CallKind (.ok (e, some p)) true ev := by
  intro e' note h'
  cases h'
  exact ⟨rfl, fun h => by cases h⟩

theorem CallKind.error {e : DeError} {b : Bool} {ev : Option Event} : CallKind (.error e) b ev :=
  fun _ _ h => by cases h

theorem seq_kind (es : List Entry) : (LEvent.seq (es.map .value)).erase kind = .seq (argSrcs (es.map (semEntry kind))) := by
  simp [LEvent.erase, argSrcs, LSrc.erase, semEntry]

theorem nodeSeq_kind (ns : List Node) : (LEvent.seq (ns.map .node)).erase kind = .seq (nodeSrcs (ns.map (semNode kind))) := by
  simp [LEvent.erase, nodeSrcs, LSrc.erase]

theorem lseq_kind (n : Node) : n.lseq.erase kind = DNode.seq (semNode kind n) := by
  unfold Node.lseq DNode.seq
  rw [sem_children, sem_args]
  cases n.childNodes with
  | none => exact seq_kind _
  | some ns => exact nodeSeq_kind ns

theorem anyCall_kind (n : Node) :
    CallKind n.anyCall (!DNode.isEmpty (semNode kind n) && (DNode.scalar (semNode kind n)).isSome)
      (some (DNode.any (semNode kind n))) := by
  unfold Node.anyCall DNode.any
  rw [sem_empty, sem_scalar]
  cases hb : n.isBare with
  | true => exact CallKind.plainly rfl
  | false =>
    cases n.scalarEntry with
    | some e => exact CallKind.noted
    | none =>
      simp only [Option.map_none]
      rw [sem_args, sem_props, sem_children]
      simp only [List.isEmpty_map, Option.isNone_map, Bool.false_eq_true, if_false]
      split
      · exact CallKind.plainly (congrArg some (seq_kind _).symm)
      · exact CallKind.plainly (congrArg some (congrArg Event.map (nodeMap_erase kind n none)))

theorem enumCall_kind (n : Node) :
    CallKind (.ok n.enumCall) (Src.notes (.node (semNode kind n)) .enum) (some (.enum (DNode.enum (semNode kind n)))) := by
  unfold Node.enumCall DNode.enum Src.notes
  simp only
  rw [sem_scalar, sem_children, sem_props, sem_args]
  have key : CallKind (.ok (match n.childNodes with
      | some [c] => (LEvent.enum (.node c), (none : Option (Span × String)))
      | some _ => (.enum (.node n), none)
      | none => match n.propEntries, n.argEntries with
        | [p], [] => (.enum (.prop ((p.name.map Ident.value).getD []) p), none)
        | _, _ => (.enum (.node n), none))) false
      (some (.enum (match n.childNodes.map (fun ns => ns.map (semNode kind)) with
      | some [c] => .node c
      | some _ => .node (semNode kind n)
      | none => match n.propEntries.map (semEntry kind), n.argEntries.map (semEntry kind) with
        | [p], [] => .prop (p.name.getD []) p.value
        | _, _ => .node (semNode kind n)))) := by
    rcases n.childNodes with _ | _ | ⟨c, _ | ⟨c', cs⟩⟩ <;> try exact CallKind.plainly rfl
    rcases n.propEntries with _ | ⟨p, _ | ⟨p', ps⟩⟩ <;> rcases n.argEntries with _ | ⟨a, as⟩ <;> exact CallKind.plainly rfl
  cases n.scalarEntry with
  | none => exact key
  | some e =>
    simp only [Option.map_some, show (semEntry kind e).value = kind e.value from rfl]
    cases e.value <;> first | exact CallKind.noted | exact key

theorem call_kind (s : LSrc) (r : Req) : CallKind (s.call r) ((s.erase kind).notes r) ((s.erase kind).request r) := by
  cases s with
  | doc ns =>
    have hm : CallKind (.ok (.map (lgrouped ns), none)) false (some (.map (grouped (ns.map (semNode kind))))) :=
      CallKind.plainly (congrArg some (congrArg Event.map (grouped_erase kind ns)))
    cases r <;> first | exact hm | exact CallKind.plainly rfl | skip
    · unfold LSrc.call LSrc.erase Src.request
      simp only [List.isEmpty_map]
      split <;> exact CallKind.plainly rfl
    · exact CallKind.plainly (congrArg some (nodeSeq_kind ns).symm)
    · rcases ns with _ | ⟨n, _ | ⟨m, ns⟩⟩ <;> first | exact CallKind.error | exact CallKind.plainly rfl
  | node n =>
    change CallKind (n.call r) (Src.notes (.node (semNode kind n)) r) (DNode.request (semNode kind n) r)
    cases r with
    | any => exact anyCall_kind n
    | bool =>
      unfold Node.call DNode.request Src.notes
      simp only [sem_scalar, sem_empty]
      cases n.scalarEntry with
      | some e => exact CallKind.noted
      | none =>
        simp only [Option.map_none]
        split
        · exact CallKind.plainly rfl
        · exact CallKind.error
    | scalar =>
      have ha := anyCall_kind n
      unfold Node.call DNode.request Src.notes
      rw [sem_scalar] at ha
      simp only [sem_scalar]
      cases hs : n.scalarEntry with
      | some e => exact CallKind.noted
      | none =>
        rw [hs] at ha
        exact ha
    | option =>
      unfold Node.call DNode.request Src.notes
      simp only [sem_scalar, sem_empty]
      split
      · exact CallKind.plainly rfl
      · cases n.scalarEntry with
        | none => exact CallKind.plainly rfl
        | some e =>
          simp only [Option.map_some, show (semEntry kind e).value = kind e.value from rfl]
          cases e.value <;> exact CallKind.plainly rfl
    | unit => exact CallKind.plainly rfl
    | newtype => exact CallKind.plainly rfl
    | seq => exact CallKind.plainly (congrArg some (lseq_kind n).symm)
    | tuple => exact CallKind.plainly (congrArg some (lseq_kind n).symm)
    | map => exact CallKind.plainly (congrArg some (congrArg Event.map (nodeMap_erase kind n none)))
    | struct fs => exact CallKind.plainly (congrArg some (congrArg Event.map (nodeMap_erase kind n (some fs))))
    | enum => exact enumCall_kind n
  | group ns => exact CallKind.plainly (congrArg some (nodeSeq_kind ns).symm)
  | value e =>
    change CallKind (e.call r) (Src.notes (.value (kind e.value)) r) ((kind e.value).request r)
    unfold Entry.call Value.request Src.notes
    cases r <;> first | exact CallKind.noted | exact CallKind.plainly rfl |
      (cases hv : e.value <;> first
        | exact CallKind.noted
        | exact CallKind.error
        | exact CallKind.plainly (by simp [kind, LEvent.erase, LSrc.erase, hv]))
  | ident i => cases r <;> first | exact CallKind.noted | exact CallKind.plainly rfl
  | args es =>
    have hs : CallKind (.ok (.seq (es.map .value), none)) false (some (.seq (argSrcs (es.map (semEntry kind))))) :=
      CallKind.plainly (congrArg some (seq_kind es).symm)
    cases r <;> first | exact hs | exact CallKind.plainly rfl | skip
    unfold LSrc.call LSrc.erase Src.request
    simp only [List.isEmpty_map]
    split <;> exact CallKind.plainly rfl
  | omitted => cases r <;> exact CallKind.plainly rfl

theorem call_error_kind {s s' : LSrc} {r : Req} (h : s.erase kind = s'.erase kind) {e : DeError} (he : s.call r = .error e)
    (hsp : e.span = none) : ∃ e', s'.call r = .error e' := by
  have ha : ∀ en : Entry, en.anyCall ≠ .error e := fun en h => by cases h
  cases s with
  | doc ns =>
    cases s' with
    | doc ns' =>
      simp only [LSrc.erase, Src.doc.injEq] at h
      unfold LSrc.call at he ⊢
      cases r <;> simp only at he <;> first | (cases he; done) | skip
      · split at he <;> cases he
      · have hl : ns.length = ns'.length := by simpa using congrArg List.length h
        split at he
        · cases he
        · next hn =>
          simp only
          split
          · next n => exact absurd hl (by
              rcases ns with _ | ⟨a, _ | ⟨b, l⟩⟩
              · simp
              · exact absurd rfl (hn a)
              · simp)
          · exact ⟨_, rfl⟩
    | _ => cases h
  | node n =>
    exfalso
    change n.call r = _ at he
    have hn : n.anyCall ≠ .error e := by
      intro h
      unfold Node.anyCall at h
      split at h
      · cases h
      · split at h
        · exact ha _ h
        · split at h <;> cases h
    unfold Node.call at he
    cases r <;> simp only at he <;> first | (cases he; done) | exact hn he | skip
    · split at he
      · exact ha _ he
      · split at he
        · cases he
        · cases he; cases hsp
    · split at he
      · exact ha _ he
      · exact hn he
    · split at he
      · cases he
      · split at he
        · split at he <;> cases he
        · cases he
  | group ns => cases he
  | value en =>
    exfalso
    change en.call r = _ at he
    unfold Entry.call at he
    cases r <;> simp only at he <;> first | exact ha _ he | (cases he; done) | skip
    · split at he <;> cases he
    · split at he
      · cases he
      · cases he; cases hsp
  | ident i =>
    change i.call r = _ at he
    unfold Ident.call at he
    cases r <;> cases he
  | args es =>
    unfold LSrc.call at he
    cases r <;> simp only at he <;> first | (cases he; done) | skip
    split at he <;> cases he
  | omitted =>
    unfold LSrc.call at he
    cases r <;> cases he

/-! ### Events, up to values -/

/-- The calls are the same, up to values. -/
inductive SameEvent : LEvent → LEvent → Prop
  | plain (e : Event) : SameEvent (.plain e) (.plain e)
  | none : SameEvent .none .none
  | some {s s' : LSrc} (h : s.erase kind = s'.erase kind) : SameEvent (.some s) (.some s')
  | newtype {s s' : LSrc} (h : s.erase kind = s'.erase kind) : SameEvent (.newtype s) (.newtype s')
  | seq {l l' : List LSrc} (h : l.map (LSrc.erase kind) = l'.map (LSrc.erase kind)) : SameEvent (.seq l) (.seq l')
  | map {l l' : List (Str × LSrc)} (h : eraseMap kind l = eraseMap kind l') : SameEvent (.map l) (.map l')
  | enum {e e' : LEnum} (h : e.erase kind = e'.erase kind) : SameEvent (.enum e) (.enum e')

theorem sameEvent {e e' : LEvent} (hp : e.Proper) (hp' : e'.Proper) (h : e.erase kind = e'.erase kind) : SameEvent e e' := by
  cases e with
  | plain a =>
    cases e' with
    | plain b =>
      simp only [LEvent.erase] at h
      subst h
      exact .plain a
    | _ =>
      simp only [LEvent.erase] at h
      subst h
      exact absurd hp (by simp [LEvent.Proper, Event.Scalar])
  | _ =>
    cases e' with
    | plain b =>
      simp only [LEvent.erase] at h
      subst h
      exact absurd hp' (by simp [LEvent.Proper, Event.Scalar])
    | _ => first
      | (simp only [LEvent.erase] at h; cases h; done)
      | exact .none
      | (simp only [LEvent.erase, Event.some.injEq] at h; exact .some h)
      | (simp only [LEvent.erase, Event.newtype.injEq] at h; exact .newtype h)
      | (simp only [LEvent.erase, Event.seq.injEq] at h; exact .seq h)
      | (simp only [LEvent.erase, Event.map.injEq] at h; exact .map h)
      | (simp only [LEvent.erase, Event.enum.injEq] at h; exact .enum h)

/-! ### Reading -/

/-- If the one fails, at no place, then so does the other. -/
def FailsToo {α : Type} (r r' : Except DeError α) : Prop := ∀ e, r = .error e → e.span = none → ∃ e', r' = .error e'

theorem FailsToo.refl {α : Type} (r : Except DeError α) : FailsToo r r := fun e h _ => ⟨e, h⟩

theorem FailsToo.ok {α : Type} (a : α) (r : Except DeError α) : FailsToo (.ok a) r := fun _ h => by cases h

theorem FailsToo.failed {α : Type} (r : Except DeError α) (e : DeError) : FailsToo r (.error e) := fun _ _ _ => ⟨e, rfl⟩

theorem FailsToo.map {α β : Type} {r r' : Except DeError α} (f : α → β) (h : FailsToo r r') : FailsToo (r.map f) (r'.map f) := by
  intro e he hs
  cases r with
  | ok a => cases he
  | error e' =>
    cases he
    obtain ⟨e', h⟩ := h _ rfl hs
    rw [h]
    exact ⟨e', rfl⟩

theorem ask_follows {α : Type} {s s' : LSrc} {r : Req} {visitor : LEvent → Except DeError α}
    (hv : ∀ e e', SameEvent e e' → FailsToo (visitor e) (visitor e')) (h : s.erase kind = s'.erase kind) :
    FailsToo (s.ask r visitor) (s'.ask r visitor) := by
  intro e he hs
  unfold LSrc.ask at he ⊢
  cases hc : s.call r with
  | error e1 =>
    rw [hc] at he
    cases he
    obtain ⟨e', h'⟩ := call_error_kind h hc hs
    rw [h']
    exact ⟨e', rfl⟩
  | ok p =>
    obtain ⟨ev, note⟩ := p
    rw [hc] at he
    simp only at he
    cases hc' : s'.call r with
    | error e' => exact ⟨e', rfl⟩
    | ok p' =>
      obtain ⟨ev', note'⟩ := p'
      simp only
      cases hve : visitor ev with
      | ok a => rw [hve] at he; cases he
      | error e1 =>
        rw [hve] at he
        cases note with
        | some q =>
          obtain ⟨sp, l⟩ := q
          simp only [annotated, Except.error.injEq] at he
          subst he
          unfold DeError.withSpan at hs
          split at hs
          · next h => rw [h] at hs; cases hs
          · cases hs
        | none =>
          simp only [annotated, Except.error.injEq] at he
          subst he
          obtain ⟨hb, hk⟩ := call_kind s r ev none hc
          obtain ⟨hb', hk'⟩ := call_kind s' r ev' note' hc'
          rw [← h, ← hb] at hb'
          have hn : note' = none := by
            cases note' with
            | none => rfl
            | some q => cases hb'
          have heq : ev.erase kind = ev'.erase kind := by
            have h1 := hk rfl
            have h2 := hk' hn
            rw [← h, h1] at h2
            exact Option.some.inj h2
          obtain ⟨e', h'⟩ := hv ev ev' (sameEvent (call_proper hc) (call_proper hc') heq) _ hve hs
          rw [h', hn]
          exact ⟨e', rfl⟩

theorem visit_follows (f : Event → Option SVal) (e e' : LEvent) (h : SameEvent e e') :
    FailsToo (LEvent.visit f e) (LEvent.visit f e') := by
  cases h with
  | plain e => exact FailsToo.refl _
  | _ => exact FailsToo.failed _ _

theorem readAll_follows {α β γ : Type} {f : α → Except DeError β} {h : α → γ}
    (hf : ∀ a a', h a = h a' → FailsToo (f a) (f a')) :
    ∀ l l' : List α, l.map h = l'.map h → FailsToo (readAll f l) (readAll f l')
  | [], _, _ => FailsToo.ok _ _
  | a :: l, [], e => by cases e
  | a :: l, a' :: l', e => by
    simp only [List.map_cons, List.cons.injEq] at e
    have h1 := hf a a' e.1
    have h2 := readAll_follows hf l l' e.2
    rw [readAll, readAll]
    cases ha' : f a' with
    | error e' => exact FailsToo.failed _ _
    | ok b' =>
      cases ha : f a with
      | error e1 =>
        intro e2 he hs
        cases he
        obtain ⟨e', h'⟩ := h1 _ ha hs
        rw [ha'] at h'
        cases h'
      | ok b =>
        simp only
        cases hl : readAll f l with
        | ok bs => exact FailsToo.ok _ _
        | error e1 =>
          intro e2 he hs
          cases he
          obtain ⟨e', h'⟩ := h2 _ hl hs
          rw [h']
          exact ⟨e', rfl⟩

/-! ### Structs -/

/-- The same fields were read. -/
def SameKeys (acc acc' : List (Str × SVal)) : Prop := ∀ k, (lookupKey k acc).isSome = (lookupKey k acc').isSome

theorem fieldLoop_follows {field : Str → Option (LSrc → Except DeError SVal)}
    (hf : ∀ k f, field k = some f → ∀ s s' : LSrc, s.erase kind = s'.erase kind → FailsToo (f s) (f s')) :
    ∀ (l l' : List (Str × LSrc)) (acc acc' : List (Str × SVal)), eraseMap kind l = eraseMap kind l' → SameKeys acc acc' →
      FailsToo (fieldLoop field l acc) (fieldLoop field l' acc') ∧
      ∀ r r', fieldLoop field l acc = .ok r → fieldLoop field l' acc' = .ok r' → SameKeys r r'
  | [], [], acc, acc', _, hk =>
    ⟨FailsToo.ok _ _, fun r r' h h' => by
      simp only [fieldLoop, Except.ok.injEq] at h h'
      subst h; subst h'
      exact hk⟩
  | [], _ :: _, _, _, e, _ => by cases e
  | _ :: _, [], _, _, e, _ => by cases e
  | (k, s) :: l, (k', s') :: l', acc, acc', e, hk => by
    unfold eraseMap at e
    simp only [List.map_cons, List.cons.injEq, Prod.mk.injEq] at e
    obtain ⟨⟨rfl, es⟩, el⟩ := e
    rw [fieldLoop, fieldLoop]
    cases hfk : field k with
    | none => exact fieldLoop_follows hf l l' acc acc' el hk
    | some f =>
      simp only
      have hkk := hk k
      cases ha : lookupKey k acc with
      | some v =>
        rw [ha] at hkk
        obtain ⟨v', hv'⟩ := Option.isSome_iff_exists.1 hkk.symm
        rw [hv']
        exact ⟨FailsToo.failed _ _, fun r r' h => by cases h⟩
      | none =>
        rw [ha] at hkk
        have hv' : lookupKey k acc' = none := Option.not_isSome_iff_eq_none.1 (by rw [← hkk]; simp)
        rw [hv']
        simp only
        have h1 := hf k f hfk s s' es
        cases hs' : f s' with
        | error e' => exact ⟨FailsToo.failed _ _, fun r r' _ h => by cases h⟩
        | ok b' =>
          cases hs : f s with
          | error e1 =>
            refine ⟨?_, fun r r' h => by cases h⟩
            intro e2 he hsp
            cases he
            obtain ⟨e', h'⟩ := h1 _ hs hsp
            rw [hs'] at h'
            cases h'
          | ok b =>
            simp only
            refine fieldLoop_follows hf l l' _ _ el fun j => ?_
            rw [lookupKey_cons, lookupKey_cons]
            split
            · rfl
            · exact hk j

theorem fieldsOf_follows {acc acc' : List (Str × SVal)} (hk : SameKeys acc acc') (fs : List (Str × Ty)) :
    FailsToo (fieldsOf acc fs) (fieldsOf acc' fs) := by
  induction fs with
  | nil => exact FailsToo.ok _ _
  | cons p fs ih =>
    obtain ⟨k, t⟩ := p
    rw [fieldsOf, fieldsOf]
    have hkk := hk k
    cases hv' : (lookupKey k acc').orElse (fun _ => t.missing) with
    | none => exact FailsToo.failed _ _
    | some v' =>
      cases hv : (lookupKey k acc).orElse (fun _ => t.missing) with
      | none =>
        exfalso
        cases ha : lookupKey k acc with
        | some v => rw [ha] at hv; cases hv
        | none =>
          rw [ha] at hkk hv
          have h0 : lookupKey k acc' = none := Option.not_isSome_iff_eq_none.1 (by rw [← hkk]; simp)
          rw [h0] at hv'
          have hv1 : t.missing = none := hv
          have hv2 : t.missing = some v' := hv'
          rw [hv1] at hv2
          cases hv2
      | some v =>
        simp only
        cases hr : fieldsOf acc fs with
        | ok vs => exact FailsToo.ok _ _
        | error e1 =>
          intro e2 he hs
          cases he
          obtain ⟨e', h'⟩ := ih _ hr hs
          rw [h']
          exact ⟨e', rfl⟩

theorem struct_follows [FloatCast] {fs : List (Str × Ty)}
    (ih : ∀ k t, (k, t) ∈ fs → ∀ s s' : LSrc, s.erase kind = s'.erase kind → FailsToo (deE t s) (deE t s'))
    {l l' : List (Str × LSrc)} (h : eraseMap kind l = eraseMap kind l') {β : Type} (g : List (Str × SVal) → β) :
    FailsToo (match fieldLoop (deFieldE fs) l [] with
     | .error e => (.error e : Except DeError β)
     | .ok acc => (fieldsOf acc fs).map g)
     (match fieldLoop (deFieldE fs) l' [] with
     | .error e => (.error e : Except DeError β)
     | .ok acc => (fieldsOf acc fs).map g) := by
  obtain ⟨h1, h2⟩ := fieldLoop_follows (field := deFieldE fs) (fun k f hk s s' hs => by
    obtain ⟨t, hm, rfl⟩ := deFieldE_some hk
    exact ih k t hm s s' hs) l l' [] [] h (fun _ => rfl)
  cases hl' : fieldLoop (deFieldE fs) l' [] with
  | error e' => exact FailsToo.failed _ _
  | ok acc' =>
    cases hl : fieldLoop (deFieldE fs) l [] with
    | error e1 =>
      intro e2 he hs
      cases he
      obtain ⟨e', h'⟩ := h1 _ hl hs
      rw [hl'] at h'
      cases h'
    | ok acc => exact (fieldsOf_follows (h2 _ _ hl hl') fs).map g

section
variable [FloatCast]
mutual
theorem deE_follows : ∀ (t : Ty) (s s' : LSrc), s.erase kind = s'.erase kind → FailsToo (deE t s) (deE t s')
  | .bool, s, s', h => by rw [deE, deE]; exact ask_follows (visit_follows _) h
  | .int lo hi wide, s, s', h => by rw [deE, deE]; exact ask_follows (visit_follows _) h
  | .f64, s, s', h => by rw [deE, deE]; exact ask_follows (visit_follows _) h
  | .char, s, s', h => by rw [deE, deE]; exact ask_follows (visit_follows _) h
  | .str, s, s', h => by rw [deE, deE]; exact ask_follows (visit_follows _) h
  | .unit, s, s', h => by rw [deE, deE]; exact ask_follows (visit_follows _) h
  | .unitStruct name, s, s', h => by rw [deE, deE]; exact ask_follows (visit_follows _) h
  | .option t, s, s', h => by
    have ih := deE_follows t
    rw [deE, deE]
    refine ask_follows (fun e e' he => ?_) h
    cases he with
    | plain e => exact FailsToo.refl _
    | none => exact FailsToo.refl _
    | some h => exact (ih _ _ h).map _
    | _ => exact FailsToo.failed _ _
  | .newtype t, s, s', h => by
    have ih := deE_follows t
    rw [deE, deE]
    refine ask_follows (fun e e' he => ?_) h
    cases he with
    | newtype h => exact (ih _ _ h).map _
    | @seq l l' h =>
      cases l with
      | nil =>
        cases l' with
        | nil => exact FailsToo.refl _
        | cons a' l' => cases h
      | cons a l =>
        cases l' with
        | nil => cases h
        | cons a' l' =>
          simp only [List.map_cons, List.cons.injEq] at h
          exact (ih _ _ h.1).map _
    | _ => exact FailsToo.failed _ _
  | .seq t, s, s', h => by
    have ih := deE_follows t
    rw [deE, deE]
    refine ask_follows (fun e e' he => ?_) h
    cases he with
    | seq h => exact (readAll_follows ih _ _ h).map _
    | _ => exact FailsToo.failed _ _
  | .tuple ts, s, s', h => by
    have ih := deTupleE_follows ts
    rw [deE, deE]
    refine ask_follows (fun e e' he => ?_) h
    cases he with
    | seq h => exact (ih _ _ h).map _
    | _ => exact FailsToo.failed _ _
  | .tupleStruct ts, s, s', h => by
    have ih := deTupleE_follows ts
    rw [deE, deE]
    refine ask_follows (fun e e' he => ?_) h
    cases he with
    | seq h => exact (ih _ _ h).map _
    | _ => exact FailsToo.failed _ _
  | .map t, s, s', h => by
    have ih := deE_follows t
    rw [deE, deE]
    refine ask_follows (fun e e' he => ?_) h
    cases he with
    | map h =>
      refine (readAll_follows (h := fun p : Str × LSrc => (p.1, p.2.erase kind)) (fun a a' e => ?_) _ _ h).map _
      simp only [Prod.mk.injEq] at e
      rw [e.1]
      exact (ih _ _ e.2).map _
    | _ => exact FailsToo.failed _ _
  | .struct fs, s, s', h => by
    have ih := deFields_follows fs
    have ihs := deSeqE_follows fs
    rw [deE, deE]
    refine ask_follows (fun e e' he => ?_) h
    cases he with
    | map h => exact struct_follows ih h _
    | seq h => exact (ihs _ _ h).map _
    | _ => exact FailsToo.failed _ _
  | .enum vs, s, s', h => by
    have ih := deVariantE_follows vs
    rw [deE, deE]
    refine ask_follows (fun e e' he => ?_) h
    cases he with
    | enum h => exact ih _ _ h
    | _ => exact FailsToo.failed _ _
theorem deTupleE_follows : ∀ (ts : List Ty) (l l' : List LSrc), l.map (LSrc.erase kind) = l'.map (LSrc.erase kind) →
    FailsToo (deTupleE ts l) (deTupleE ts l')
  | [], l, l', _ => by rw [deTupleE, deTupleE]; exact FailsToo.ok _ _
  | t :: ts, _, [], _ => by rw [deTupleE]; exact FailsToo.failed _ _
  | t :: ts, [], _ :: _, h => by cases h
  | t :: ts, s :: l, s' :: l', h => by
    simp only [List.map_cons, List.cons.injEq] at h
    have h1 := deE_follows t s s' h.1
    have h2 := deTupleE_follows ts l l' h.2
    rw [deTupleE, deTupleE]
    cases hs' : deE t s' with
    | error e' => exact FailsToo.failed _ _
    | ok b' =>
      cases hs : deE t s with
      | error e1 =>
        intro e2 he hsp
        cases he
        obtain ⟨e', h'⟩ := h1 _ hs hsp
        rw [hs'] at h'
        cases h'
      | ok b =>
        intro e2 he hsp
        cases hl : deTupleE ts l with
        | ok vs => rw [hl] at he; cases he
        | error e1 =>
          rw [hl] at he
          cases he
          obtain ⟨e', h'⟩ := h2 _ hl hsp
          rw [h']
          exact ⟨e', rfl⟩
theorem deSeqE_follows : ∀ (fs : List (Str × Ty)) (l l' : List LSrc), l.map (LSrc.erase kind) = l'.map (LSrc.erase kind) →
    FailsToo (deSeqE fs l) (deSeqE fs l')
  | [], l, l', _ => by rw [deSeqE, deSeqE]; exact FailsToo.ok _ _
  | _ :: _, _, [], _ => by rw [deSeqE]; exact FailsToo.failed _ _
  | _ :: _, [], _ :: _, h => by cases h
  | (k, t) :: fs, s :: l, s' :: l', h => by
    simp only [List.map_cons, List.cons.injEq] at h
    have h1 := deE_follows t s s' h.1
    have h2 := deSeqE_follows fs l l' h.2
    rw [deSeqE, deSeqE]
    cases hs' : deE t s' with
    | error e' => exact FailsToo.failed _ _
    | ok b' =>
      cases hs : deE t s with
      | error e1 =>
        intro e2 he hsp
        cases he
        obtain ⟨e', h'⟩ := h1 _ hs hsp
        rw [hs'] at h'
        cases h'
      | ok b =>
        intro e2 he hsp
        cases hl : deSeqE fs l with
        | ok vs => rw [hl] at he; cases he
        | error e1 =>
          rw [hl] at he
          cases he
          obtain ⟨e', h'⟩ := h2 _ hl hsp
          rw [h']
          exact ⟨e', rfl⟩
theorem deFields_follows : ∀ (fs : List (Str × Ty)), ∀ k t, (k, t) ∈ fs → ∀ s s' : LSrc, s.erase kind = s'.erase kind →
    FailsToo (deE t s) (deE t s')
  | [], _, _, h, _, _, _ => by cases h
  | (k', t') :: fs, k, t, h, s, s', hs => by
    rcases List.mem_cons.1 h with h | h
    · simp only [Prod.mk.injEq] at h
      rw [h.2]
      exact deE_follows t' s s' hs
    · exact deFields_follows fs k t h s s' hs
theorem deVariantE_follows : ∀ (vs : List (Str × VTy)) (e e' : LEnum), e.erase kind = e'.erase kind →
    FailsToo (deVariantE vs e) (deVariantE vs e')
  | [], e, e', h => by
    rw [deVariantE, deVariantE]
    exact fun e1 h1 _ => by
      unfold annotated
      cases e'.variant.2 with
      | none => exact ⟨_, rfl⟩
      | some q => exact ⟨_, rfl⟩
  | (k, vt) :: vs, e, e', h => by
    have h1 := deBodyE_follows vt k e e' h
    have h2 := deVariantE_follows vs e e' h
    have hv : e.variant.1 = e'.variant.1 := by
      cases e with
      | node n =>
        cases e' with
        | node n' =>
          simp only [LEnum.erase, EnumSrc.node.injEq] at h
          have := congrArg DNode.name h
          rwa [sem_name, sem_name] at this
        | _ => cases h
      | _ =>
        cases e' <;> simp_all [LEnum.erase, LEnum.variant]
    rw [deVariantE, deVariantE, hv]
    split
    · exact h1
    · exact h2
theorem deBodyE_follows : ∀ (vt : VTy) (k : Str) (e e' : LEnum), e.erase kind = e'.erase kind →
    FailsToo (deBodyE k vt e) (deBodyE k vt e')
  | .unit, k, e, e', _ => by rw [deBodyE, deBodyE]; exact FailsToo.ok _ _
  | .newtype t, k, e, e', h => by
    have ih := deE_follows t
    rw [deBodyE, deBodyE]
    cases e' with
    | str s => exact FailsToo.failed _ _
    | node n' =>
      cases e with
      | node n =>
        simp only [LEnum.erase, EnumSrc.node.injEq] at h
        exact (ih (.node n) (.node n') (by simp only [LSrc.erase, h])).map _
      | _ => cases h
    | prop k' en' =>
      cases e with
      | prop k en =>
        simp only [LEnum.erase, EnumSrc.prop.injEq] at h
        exact (ih (.value en) (.value en') (by simp only [LSrc.erase, h.2])).map _
      | _ => cases h
  | .tuple ts, k, e, e', h => by
    have ih := deTupleE_follows ts
    rw [deBodyE, deBodyE]
    cases e' with
    | str s => exact FailsToo.failed _ _
    | prop key en => exact FailsToo.failed _ _
    | node n' =>
      cases e with
      | node n =>
        simp only [LEnum.erase, EnumSrc.node.injEq] at h
        have hseq : ∀ n : Node, ∃ l, n.lseq = .seq l := by intro n; unfold Node.lseq; split <;> exact ⟨_, rfl⟩
        obtain ⟨l, hl⟩ := hseq n
        obtain ⟨l', hl'⟩ := hseq n'
        have hk := lseq_kind n
        have hk' := lseq_kind n'
        rw [hl] at hk
        rw [hl', ← h, ← hk] at hk'
        simp only [LEvent.erase, Event.seq.injEq] at hk'
        simp only [LEnum.tuple, hl, hl']
        exact (ih l l' hk'.symm).map _
      | _ => cases h
  | .struct fs, k, e, e', h => by
    have ih := deFields_follows fs
    rw [deBodyE, deBodyE]
    cases e' with
    | str s => exact FailsToo.failed _ _
    | prop key en => exact FailsToo.failed _ _
    | node n' =>
      cases e with
      | node n =>
        simp only [LEnum.erase, EnumSrc.node.injEq] at h
        refine struct_follows ih (l := lnodeMap n none) (l' := lnodeMap n' none) ?_ _
        rw [← nodeMap_erase, ← nodeMap_erase, h]
      | _ => cases h
end
end

end Kdl
