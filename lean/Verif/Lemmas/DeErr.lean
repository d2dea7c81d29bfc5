import Verif.Model.DeErr
import Verif.Spec.Typed
/-
Reading a value with errors (`Model/DeErr.lean`) and without (`Model/De.lean`).
-/

namespace Kdl
open Spec

/-! ### Without spans -/

/-- The deserializer without spans. -/
def LSrc.erase (f : Value → Value) : LSrc → Src
  | .doc ns => .doc (ns.map (semNode f))
  | .node n => .node (semNode f n)
  | .group ns => .group (ns.map (semNode f))
  | .value e => .value (f e.value)
  | .ident i => .ident i.value
  | .args es => .args (es.map (semEntry f))
  | .omitted => .omitted

/-- The variant without spans. -/
def LEnum.erase (f : Value → Value) : LEnum → EnumSrc
  | .str s => .str s
  | .node n => .node (semNode f n)
  | .prop k e => .prop k (f e.value)

/-- Names and values without spans. -/
def eraseMap (f : Value → Value) (l : List (Str × LSrc)) : List (Str × Src) := l.map fun p => (p.1, p.2.erase f)

/-- The call without spans. -/
def LEvent.erase (f : Value → Value) : LEvent → Event
  | .plain e => e
  | .none => .none
  | .some s => .some (s.erase f)
  | .newtype s => .newtype (s.erase f)
  | .seq l => .seq (l.map (LSrc.erase f))
  | .map l => .map (eraseMap f l)
  | .enum e => .enum (e.erase f)

section
variable (f : Value → Value)

theorem semNodes_eq_map (ns : List Node) : semNodes f ns = ns.map (semNode f) := by
  induction ns with
  | nil => rfl
  | cons n ns ih => simp [semNodes, ih]

theorem sem_name (n : Node) : DNode.name (semNode f n) = n.name.value := by cases n; simp [semNode, DNode.name, Node.name]
theorem sem_ty (n : Node) : DNode.ty (semNode f n) = n.ty.map Ident.value := by cases n; simp [semNode, DNode.ty, Node.ty]
theorem sem_entries (n : Node) : DNode.entries (semNode f n) = n.entries.map (semEntry f) := by
  cases n; simp [semNode, DNode.entries, Node.entries]
theorem sem_children (n : Node) : DNode.children (semNode f n) = n.childNodes.map fun ns => ns.map (semNode f) := by
  cases n with
  | mk ty name es ch f sp =>
    cases ch with
    | none => simp [semNode, semOptDoc, DNode.children, Node.childNodes, Node.children]
    | some d =>
      cases d
      simp [semNode, semOptDoc, semDoc, DNode.children, Node.childNodes, Node.children, semNodes_eq_map, Document.nodes]

theorem sem_args (n : Node) : DNode.args (semNode f n) = n.argEntries.map (semEntry f) := by
  unfold DNode.args Node.argEntries
  rw [sem_entries, List.filter_map]
  congr 1
  refine List.filter_congr fun e _ => ?_
  simp [semEntry]

theorem sem_props (n : Node) : DNode.props (semNode f n) = n.propEntries.map (semEntry f) := by
  unfold DNode.props Node.propEntries
  rw [sem_entries, List.filter_map]
  congr 1
  refine List.filter_congr fun e _ => ?_
  simp [semEntry]

theorem sem_scalar (n : Node) : DNode.scalar (semNode f n) = n.scalarEntry.map (semEntry f) := by
  unfold DNode.scalar Node.scalarEntry
  rw [sem_args, sem_props, sem_children]
  generalize n.argEntries = a
  generalize n.propEntries = p
  generalize n.childNodes = c
  rcases a with _ | ⟨e, _ | ⟨e', a⟩⟩ <;> rcases p with _ | ⟨p, ps⟩ <;> rcases c with _ | c <;> simp

theorem sem_empty (n : Node) : DNode.isEmpty (semNode f n) = n.isBare := by
  unfold DNode.isEmpty Node.isBare
  rw [sem_entries, sem_children]
  simp

/-! ### Groups -/

/-- Groups without spans. -/
def eraseGroups (f : Value → Value) (g : List (Str × List Node)) : List (Str × List DNode) := g.map fun p => (p.1, p.2.map (semNode f))

theorem groupOf_erase (k : Str) (g : List (Str × List Node)) :
    groupOf k (eraseGroups f g) = (lgroupOf k g).map fun ns => ns.map (semNode f) := by
  induction g with
  | nil => rfl
  | cons p g ih =>
    obtain ⟨k', ns⟩ := p
    unfold eraseGroups at ih ⊢
    rw [List.map_cons, groupOf, lgroupOf]
    split
    · rfl
    · exact ih

theorem groupPush_erase (k : Str) (n : Node) (g : List (Str × List Node)) :
    groupPush k (semNode f n) (eraseGroups f g) = eraseGroups f (lgroupPush k n g) := by
  induction g with
  | nil => rfl
  | cons p g ih =>
    obtain ⟨k', ns⟩ := p
    unfold eraseGroups at ih ⊢
    rw [List.map_cons, groupPush, lgroupPush]
    split
    · simp
    · rw [ih]; simp

theorem groupLoop_erase (ns : List Node) (keys : List Str) (g : List (Str × List Node)) :
    groupLoop (ns.map (semNode f)) keys (eraseGroups f g) = ((lgroupLoop ns keys g).1, eraseGroups f (lgroupLoop ns keys g).2) := by
  induction ns generalizing keys g with
  | nil => rfl
  | cons n ns ih =>
    rw [List.map_cons, groupLoop, lgroupLoop, sem_name, groupOf_erase, groupPush_erase, ih]
    simp

theorem grouped_erase (ns : List Node) : grouped (ns.map (semNode f)) = eraseMap f (lgrouped ns) := by
  unfold grouped lgrouped eraseMap
  have := groupLoop_erase f ns [] []
  rw [show eraseGroups f [] = [] from rfl] at this
  rw [this, List.map_map]
  refine List.map_congr_left fun k _ => ?_
  simp only [Function.comp, Prod.mk.injEq, true_and]
  unfold groupSrc lgroupSrc
  rw [groupOf_erase]
  rcases lgroupOf k (lgroupLoop ns [] []).2 with _ | _ | ⟨n, _ | ⟨m, ns⟩⟩ <;> rfl

/-! ### The fields of a node -/

theorem nodeMapHead_erase (n : Node) (fs : List Str) : nodeMapHead (semNode f n) fs = eraseMap f (lnodeMapHead n fs) := by
  unfold nodeMapHead lnodeMapHead eraseMap
  rw [sem_name, sem_ty, List.map_append]
  congr 1
  · split <;> rfl
  · cases n.ty with
    | none => rfl
    | some t =>
      simp only [Option.map_some]
      split <;> rfl

theorem nodeMapArgs_erase (fs : List Str) (as : List Entry) (i : Nat) :
    nodeMapArgs fs (as.map (semEntry f)) i = (eraseMap f (lnodeMapArgs fs as i).1, (lnodeMapArgs fs as i).2.map (semEntry f)) := by
  induction as generalizing i with
  | nil => rfl
  | cons a as ih =>
    rw [List.map_cons, nodeMapArgs, lnodeMapArgs, ih]
    have ht : (semEntry f a).ty = a.ty.map Ident.value := rfl
    simp only [ht]
    cases a.ty <;> simp only [Option.map_none, Option.map_some] <;> split <;> simp [eraseMap, LSrc.erase, semEntry]

theorem nodeMapAllArgs_erase (n : Node) (fs : List Str) : nodeMapAllArgs (semNode f n) fs = eraseMap f (lnodeMapAllArgs n fs) := by
  unfold nodeMapAllArgs lnodeMapAllArgs
  rw [sem_args, nodeMapArgs_erase]
  unfold eraseMap
  simp only [List.map_append]
  congr 2
  · split <;> rfl
  · split <;> rfl

theorem nodeMapProp_erase (fs : Option (List Str)) (p : Entry) : nodeMapProp fs (semEntry f p) = eraseMap f (lnodeMapProp fs p) := by
  unfold nodeMapProp lnodeMapProp
  have hn : (semEntry f p).name = p.name.map Ident.value := rfl
  have ht : (semEntry f p).ty = p.ty.map Ident.value := rfl
  rw [hn]
  cases p.name with
  | none => rfl
  | some k =>
    simp only [Option.map_some]
    unfold eraseMap
    rw [List.map_append]
    congr 1
    cases fs with
    | none => rfl
    | some fs =>
      simp only [List.map_append]
      congr 1
      · split <;> rfl
      · rw [ht]
        cases p.ty with
        | none => rfl
        | some t =>
          simp only [Option.map_some]
          split <;> rfl

theorem usedNames_erase (n : Node) : usedNames (semNode f n) = lusedNames n := by
  unfold usedNames lusedNames
  rw [sem_props, sem_children]
  congr 1
  · rw [List.filterMap_map]
    rfl
  · cases n.childNodes with
    | none => rfl
    | some ns => simp [sem_name]

theorem nodeMap_erase (n : Node) (fs : Option (List Str)) : nodeMap (semNode f n) fs = eraseMap f (lnodeMap n fs) := by
  have hp : (n.propEntries.map (semEntry f)).flatMap (nodeMapProp fs) = eraseMap f (n.propEntries.flatMap (lnodeMapProp fs)) := by
    induction n.propEntries with
    | nil => rfl
    | cons p ps ih => simp [nodeMapProp_erase, ih, eraseMap]
  unfold nodeMap lnodeMap
  rw [sem_props, hp, sem_children]
  have ap : ∀ a b, eraseMap f (a ++ b) = eraseMap f a ++ eraseMap f b := fun a b => List.map_append
  rw [ap, ap, ap]
  have hc : (match n.childNodes.map (fun ns => ns.map (semNode f)) with | some ns => grouped ns | none => []) =
      eraseMap f (match n.childNodes with | some ns => lgrouped ns | none => []) := by
    cases n.childNodes with
    | none => rfl
    | some ns => exact grouped_erase f ns
  rw [show ∀ a b c d : List (Str × Src), a ++ b ++ c ++ d = a ++ b ++ (c ++ d) from fun a b c d => by simp]
  refine (congrArg (fun c => _ ++ _ ++ (c ++ _)) hc).trans ?_
  cases fs with
  | none =>
    simp only [show eraseMap f [] = [] from rfl, List.append_nil, List.nil_append]
    cases n.childNodes <;> rfl
  | some fs =>
    rw [show ∀ a b c d : List (Str × Src), a ++ b ++ (c ++ d) = a ++ b ++ c ++ d from fun a b c d => by simp]
    simp only [nodeMapHead_erase, nodeMapAllArgs_erase, ap]
    congr 1
    unfold omittedFields lomittedFields eraseMap
    rw [usedNames_erase, List.map_map]
    rfl

end

/-! ### Calls -/

/-- The result without the error. -/
def Call.erase (c : Call) : Option Event := c.toOption.map fun p => p.1.erase id

theorem seq_erase (es : List Entry) : (LEvent.seq (es.map .value)).erase id = .seq (argSrcs (es.map (semEntry id))) := by
  simp [LEvent.erase, argSrcs, LSrc.erase, semEntry]

theorem nodeSeq_erase (ns : List Node) : (LEvent.seq (ns.map .node)).erase id = .seq (nodeSrcs (ns.map (semNode id))) := by
  simp [LEvent.erase, nodeSrcs, LSrc.erase]

theorem anyCall_erase (n : Node) : Call.erase n.anyCall = some (DNode.any (semNode id n)) := by
  unfold Node.anyCall DNode.any
  rw [sem_empty, sem_scalar]
  split
  · rfl
  · cases n.scalarEntry with
    | some e => rfl
    | none =>
      simp only [Option.map_none]
      rw [sem_args, sem_props, sem_children]
      simp only [List.isEmpty_map, Option.isNone_map]
      split
      · exact congrArg some (seq_erase _)
      · exact congrArg some (congrArg Event.map (nodeMap_erase id n none).symm)

theorem lseq_erase (n : Node) : n.lseq.erase id = DNode.seq (semNode id n) := by
  unfold Node.lseq DNode.seq
  rw [sem_children, sem_args]
  cases n.childNodes with
  | none => exact seq_erase _
  | some ns => exact nodeSeq_erase ns

theorem enumCall_erase (n : Node) : n.enumCall.1.erase id = .enum (DNode.enum (semNode id n)) := by
  unfold Node.enumCall DNode.enum
  rw [sem_scalar, sem_children, sem_props, sem_args]
  have key : (match n.childNodes with
      | some [c] => (LEvent.enum (.node c), (none : Option (Span × String)))
      | some _ => (.enum (.node n), none)
      | none => match n.propEntries, n.argEntries with
        | [p], [] => (.enum (.prop ((p.name.map Ident.value).getD []) p), none)
        | _, _ => (.enum (.node n), none)).1.erase id =
      .enum (match n.childNodes.map (fun ns => ns.map (semNode id)) with
      | some [c] => .node c
      | some _ => .node (semNode id n)
      | none => match n.propEntries.map (semEntry id), n.argEntries.map (semEntry id) with
        | [p], [] => .prop (p.name.getD []) p.value
        | _, _ => .node (semNode id n)) := by
    rcases n.childNodes with _ | _ | ⟨c, _ | ⟨c', cs⟩⟩ <;> try rfl
    rcases n.propEntries with _ | ⟨p, _ | ⟨p', ps⟩⟩ <;> rcases n.argEntries with _ | ⟨a, as⟩ <;> rfl
  cases n.scalarEntry with
  | none => exact key
  | some e =>
    simp only [Option.map_some, show (semEntry id e).value = e.value from rfl]
    cases e.value <;> first | rfl | exact key

theorem call_erase (s : LSrc) (r : Req) : Call.erase (s.call r) = (s.erase id).request r := by
  cases s with
  | doc ns =>
    have hm : Call.erase (.ok (.map (lgrouped ns), none)) = some (.map (grouped (ns.map (semNode id)))) :=
      congrArg some (congrArg Event.map (grouped_erase id ns).symm)
    cases r <;> first | exact hm | rfl | skip
    · unfold LSrc.call LSrc.erase Src.request
      simp only [List.isEmpty_map]
      split <;> rfl
    · exact congrArg some (nodeSeq_erase ns)
    · rcases ns with _ | ⟨n, _ | ⟨m, ns⟩⟩ <;> rfl
  | node n =>
    change Call.erase (n.call r) = DNode.request (semNode id n) r
    cases r with
    | any => exact anyCall_erase n
    | bool =>
      unfold Node.call DNode.request
      simp only [sem_scalar, sem_empty]
      cases n.scalarEntry with
      | some e => rfl
      | none =>
        simp only [Option.map_none]
        split <;> rfl
    | scalar =>
      unfold Node.call DNode.request
      simp only [sem_scalar]
      cases n.scalarEntry with
      | some e => rfl
      | none => exact anyCall_erase n
    | option =>
      unfold Node.call DNode.request
      simp only [sem_scalar, sem_empty]
      split
      · rfl
      · cases n.scalarEntry with
        | none => rfl
        | some e =>
          simp only [Option.map_some, show (semEntry id e).value = e.value from rfl]
          cases e.value <;> rfl
    | unit => rfl
    | newtype => rfl
    | seq => exact congrArg some (lseq_erase n)
    | tuple => exact congrArg some (lseq_erase n)
    | map => exact congrArg some (congrArg Event.map (nodeMap_erase id n none).symm)
    | struct fs => exact congrArg some (congrArg Event.map (nodeMap_erase id n (some fs)).symm)
    | enum => exact congrArg some (enumCall_erase n)
  | group ns => exact congrArg some (nodeSeq_erase ns)
  | value e =>
    change Call.erase (e.call r) = e.value.request r
    unfold Entry.call Value.request
    cases r <;> first | rfl | (cases hv : e.value <;> simp [Call.erase, Except.toOption, LEvent.erase, LSrc.erase, LEnum.erase, hv])
  | ident i => cases r <;> rfl
  | args es =>
    have hs := congrArg some (seq_erase es)
    cases r <;> first | exact hs | rfl | skip
    unfold LSrc.call LSrc.erase Src.request
    simp only [List.isEmpty_map]
    split <;> rfl
  | omitted => cases r <;> rfl

/-- A call for a scalar. -/
def Event.Scalar : Event → Prop
  | .bool _ | .i64 _ | .u64 _ | .i128 _ | .f64 _ | .str _ | .unit => True
  | _ => False

/-- `plain` calls are those for scalars. -/
def LEvent.Proper : LEvent → Prop
  | .plain e => e.Scalar
  | _ => True

theorem value_event_scalar (v : Value) : v.event.Scalar := by
  cases v <;> simp only [Value.event] <;> (try split) <;> (try split) <;> trivial

theorem call_proper {s : LSrc} {r : Req} {e : LEvent} {note : Option (Span × String)} (h : s.call r = .ok (e, note)) :
    e.Proper := by
  have ha : ∀ en : Entry, en.anyCall = .ok (e, note) → e.Proper := by
    intro en h
    simp only [Entry.anyCall, Except.ok.injEq, Prod.mk.injEq] at h
    rw [← h.1]
    exact value_event_scalar _
  have hn : ∀ n : Node, n.anyCall = .ok (e, note) → e.Proper := by
    intro n h
    unfold Node.anyCall at h
    split at h
    · cases h; trivial
    · split at h
      · exact ha _ h
      · split at h <;> (cases h; trivial)
  cases s with
  | doc ns =>
    unfold LSrc.call at h
    cases r <;> simp only at h <;> first | (cases h; trivial) | skip
    · split at h <;> (cases h; trivial)
    · split at h <;> first | (cases h; trivial) | exact absurd h (by simp)
  | node n =>
    change n.call r = _ at h
    unfold Node.call at h
    cases r <;> simp only at h <;> first | (cases h; trivial) | exact hn _ h | skip
    · split at h
      · exact ha _ h
      · split at h
        · cases h; trivial
        · cases h
    · split at h
      · exact ha _ h
      · exact hn _ h
    · split at h
      · cases h; trivial
      · split at h
        · split at h <;> (cases h; trivial)
        · cases h; trivial
    · cases h
      unfold Node.lseq
      split <;> trivial
    · cases h
      unfold Node.lseq
      split <;> trivial
    have h := congrArg Prod.fst (Except.ok.inj h)
    rw [← show n.enumCall.1 = e from h]
    unfold Node.enumCall
    simp only
    repeat' split
    all_goals trivial
  | group ns => cases h; trivial
  | value en =>
    change en.call r = _ at h
    unfold Entry.call at h
    cases r <;> simp only at h <;> first | exact ha _ h | (cases h; trivial) | skip
    · split at h <;> (cases h; trivial)
    · split at h <;> (cases h; try trivial)
  | ident i =>
    change i.call r = _ at h
    unfold Ident.call at h
    cases r <;> (cases h; trivial)
  | args es =>
    unfold LSrc.call at h
    cases r <;> simp only at h <;> first | (cases h; trivial) | skip
    split at h <;> (cases h; trivial)
  | omitted =>
    unfold LSrc.call at h
    cases r <;> (cases h; trivial)

/-! ### Reading -/

section
variable [FloatCast]

omit [FloatCast] in
theorem annotated_toOption {α : Type} (note : Option (Span × String)) (r : Except DeError α) :
    (annotated note r).toOption = r.toOption := by
  unfold annotated
  cases r with
  | ok a => rfl
  | error e => cases note <;> rfl

omit [FloatCast] in
/-- Asking, with and without errors. -/
theorem ask_erase {α : Type} (s : LSrc) (r : Req) {visitor : LEvent → Except DeError α} {f : Option Event → Option α}
    (hn : f none = none) (hv : ∀ e : LEvent, e.Proper → (visitor e).toOption = f (some (e.erase id))) :
    (s.ask r visitor).toOption = f ((s.erase id).request r) := by
  rw [← call_erase s r]
  unfold LSrc.ask
  cases h : s.call r with
  | error e => exact hn.symm
  | ok p =>
    obtain ⟨e, note⟩ := p
    simp only [annotated_toOption]
    exact hv e (call_proper h)

omit [FloatCast] in
theorem visit_erase {f : Event → Option SVal} (hf : ∀ e, ¬e.Scalar → f e = none) (e : LEvent) :
    (LEvent.visit f e).toOption = (some (e.erase id)).bind f := by
  cases e with
  | plain e =>
    simp only [LEvent.visit, LEvent.erase, Option.bind_some]
    cases f e <;> rfl
  | _ => exact (hf _ (by simp [LEvent.erase, Event.Scalar])).symm

omit [FloatCast] in
theorem toOption_map {α β : Type} (f : α → β) (r : Except DeError α) : (r.map f).toOption = r.toOption.map f := by
  cases r <;> rfl

omit [FloatCast] in
theorem readAll_erase {α β γ : Type} {f : α → Except DeError β} {g : γ → Option β} {h : α → γ}
    (hfg : ∀ a, (f a).toOption = g (h a)) (l : List α) : (readAll f l).toOption = (l.map h).mapM g := by
  induction l with
  | nil => rfl
  | cons a l ih =>
    rw [List.map_cons, List.mapM_cons, ← hfg, ← ih, readAll]
    cases f a with
    | error e => rfl
    | ok b => cases readAll f l <;> rfl

/-! ### Structs -/

omit [FloatCast] in
theorem valuesOf_erase_cons (k k' : Str) (s : LSrc) (l : List (Str × LSrc)) :
    valuesOf k (eraseMap id ((k', s) :: l)) = if k = k' then (s.erase id) :: valuesOf k (eraseMap id l) else valuesOf k (eraseMap id l) := by
  unfold valuesOf eraseMap
  rw [List.map_cons, List.filter_cons]
  by_cases h : k = k'
  · simp [h]
  · have h' : ¬k' = k := fun e => h e.symm
    simp [h, h']

omit [FloatCast] in
theorem lookupKey_cons {α : Type} (k k' : Str) (a : α) (l : List (Str × α)) :
    lookupKey k ((k', a) :: l) = if k = k' then some a else lookupKey k l := rfl

/-- What the loop needs to know about a field: `vs` are the values given for it, `old` its value
before, `new` after, and `g` reads it. -/
def FieldOk (g : Src → Option SVal) (vs : List Src) (old new : Option SVal) : Prop :=
  (vs = [] ∧ new = old) ∨ (∃ s v, vs = [s] ∧ old = none ∧ g s = some v ∧ new = some v)

omit [FloatCast] in
theorem fieldLoop_ok {field : Str → Option (LSrc → Except DeError SVal)} {g : Str → Src → Option SVal}
    (hg : ∀ k f s, field k = some f → (f s).toOption = g k (s.erase id)) :
    ∀ (l : List (Str × LSrc)) (acc acc' : List (Str × SVal)), fieldLoop field l acc = .ok acc' →
      ∀ k, field k ≠ none → FieldOk (g k) (valuesOf k (eraseMap id l)) (lookupKey k acc) (lookupKey k acc') := by
  intro l
  induction l with
  | nil =>
    intro acc acc' h k _
    simp only [fieldLoop, Except.ok.injEq] at h
    exact Or.inl ⟨rfl, by rw [h]⟩
  | cons p l ih =>
    obtain ⟨k', s⟩ := p
    intro acc acc' h k hk
    rw [valuesOf_erase_cons]
    rw [fieldLoop] at h
    cases hf : field k' with
    | none =>
      rw [hf] at h
      rw [if_neg (fun e => hk (by rw [e, hf]))]
      exact ih acc acc' h k hk
    | some f =>
      rw [hf] at h
      simp only at h
      cases hl : lookupKey k' acc with
      | some v => rw [hl] at h; cases h
      | none =>
        rw [hl] at h
        simp only at h
        have hgs := hg k' f s hf
        cases hr : f s with
        | error e => rw [hr] at h; cases h
        | ok v =>
          rw [hr] at h hgs
          simp only at h
          have := ih _ acc' h k hk
          rw [lookupKey_cons] at this
          by_cases e : k = k'
          · subst e
            rw [if_pos rfl] at this ⊢
            rcases this with ⟨hv, hn⟩ | ⟨_, _, _, hv, _⟩
            · exact Or.inr ⟨(s.erase id), v, by rw [hv], hl, hgs.symm, hn⟩
            · cases hv
          · rwa [if_neg e] at this ⊢

omit [FloatCast] in
theorem fieldLoop_succeeds {field : Str → Option (LSrc → Except DeError SVal)} {g : Str → Src → Option SVal}
    (hg : ∀ k f s, field k = some f → (f s).toOption = g k (s.erase id)) :
    ∀ (l : List (Str × LSrc)) (acc : List (Str × SVal)),
      (∀ k, field k ≠ none → ∃ new, FieldOk (g k) (valuesOf k (eraseMap id l)) (lookupKey k acc) new) →
      ∃ acc', fieldLoop field l acc = .ok acc' := by
  intro l
  induction l with
  | nil => exact fun acc _ => ⟨acc, rfl⟩
  | cons p l ih =>
    obtain ⟨k', s⟩ := p
    intro acc h
    rw [fieldLoop]
    cases hf : field k' with
    | none =>
      refine ih acc fun k hk => ?_
      have := h k hk
      rwa [valuesOf_erase_cons, if_neg (fun e => hk (by rw [e, hf]))] at this
    | some f =>
      simp only
      obtain ⟨new, this⟩ := h k' (by rw [hf]; simp)
      rw [valuesOf_erase_cons, if_pos rfl] at this
      rcases this with ⟨hv, _⟩ | ⟨s', v, hv, ho, hs, -⟩
      · cases hv
      · simp only [List.cons.injEq] at hv
        obtain ⟨rfl, hv⟩ := hv
        rw [ho]
        have hgs := hg k' f s hf
        rw [hs] at hgs
        cases hr : f s with
        | error e => rw [hr] at hgs; cases hgs
        | ok v' =>
          simp only
          refine ih _ fun k hk => ?_
          obtain ⟨new, this⟩ := h k hk
          rw [valuesOf_erase_cons] at this
          rw [lookupKey_cons]
          by_cases e : k = k'
          · subst e
            rw [if_pos rfl, hv]
            exact ⟨_, Or.inl ⟨rfl, rfl⟩⟩
          · rw [if_neg e] at this ⊢
            exact ⟨new, this⟩

theorem deFieldE_mem {fs : List (Str × Ty)} (hd : (fs.map Prod.fst).Nodup) {k : Str} {t : Ty} (h : (k, t) ∈ fs) :
    deFieldE fs k = some (deE t) := by
  induction fs with
  | nil => cases h
  | cons p fs ih =>
    obtain ⟨k', t'⟩ := p
    rw [deFieldE]
    rw [List.map_cons, List.nodup_cons] at hd
    rcases List.mem_cons.1 h with h | h
    · simp only [Prod.mk.injEq] at h
      rw [if_pos h.1, h.2]
    · rw [if_neg, ih hd.2 h]
      intro e
      exact hd.1 (List.mem_map.2 ⟨_, h, e⟩)

theorem deFieldE_some {fs : List (Str × Ty)} {k : Str} {f : LSrc → Except DeError SVal} (h : deFieldE fs k = some f) :
    ∃ t, (k, t) ∈ fs ∧ f = deE t := by
  induction fs with
  | nil => rw [deFieldE] at h; cases h
  | cons p fs ih =>
    obtain ⟨k', t'⟩ := p
    rw [deFieldE] at h
    split at h
    · next e => exact ⟨t', by simp [e], (Option.some.inj h).symm⟩
    · obtain ⟨t, hm, hf⟩ := ih h
      exact ⟨t, List.mem_cons_of_mem _ hm, hf⟩

/-- What a struct reads for a field. -/
def fieldVal (t : Ty) (vs : List Src) : Option SVal :=
  match vs with
  | [] => t.missing
  | [s] => de t s
  | _ => none

theorem deMap_field (k : Str) (t : Ty) (fs : List (Str × Ty)) (l : List (Str × Src)) :
    deMap ((k, t) :: fs) l = (fieldVal t (valuesOf k l)).bind fun v => (deMap fs l).map ((k, v) :: ·) := by
  rw [deMap]
  rfl

theorem deMap_fieldVal {fs : List (Str × Ty)} {l : List (Str × Src)} {vs : List (Str × SVal)} (h : deMap fs l = some vs)
    {k : Str} {t : Ty} (hm : (k, t) ∈ fs) : ∃ v, fieldVal t (valuesOf k l) = some v := by
  induction fs generalizing vs with
  | nil => cases hm
  | cons p fs ih =>
    obtain ⟨k', t'⟩ := p
    rw [deMap_field] at h
    obtain ⟨v, hv, h⟩ := Option.bind_eq_some_iff.1 h
    obtain ⟨vs', h, -⟩ := Option.map_eq_some_iff.1 h
    rcases List.mem_cons.1 hm with hm | hm
    · simp only [Prod.mk.injEq] at hm
      exact ⟨v, by rw [hm.1, hm.2]; exact hv⟩
    · exact ih h hm

/-- The struct read with errors is the struct read without. -/
theorem struct_erase {fs : List (Str × Ty)} (hd : (fs.map Prod.fst).Nodup)
    (ih : ∀ k t, (k, t) ∈ fs → ∀ s, (deE t s).toOption = de t (s.erase id)) (l : List (Str × LSrc)) :
    (match fieldLoop (deFieldE fs) l [] with
     | .error e => (.error e : Except DeError (List (Str × SVal)))
     | .ok acc => fieldsOf acc fs).toOption = deMap fs (eraseMap id l) := by
  let g : Str → Src → Option SVal := fun k s => match fs.find? (fun p => p.1 == k) with
    | some p => de p.2 s
    | none => none
  have hgm : ∀ k t, (k, t) ∈ fs → g k = de t := by
    intro k t hm
    funext s
    have : fs.find? (fun p => p.1 == k) = some (k, t) := by
      clear ih g
      induction fs with
      | nil => cases hm
      | cons p fs ih =>
        rw [List.map_cons, List.nodup_cons] at hd
        rw [List.find?_cons]
        rcases List.mem_cons.1 hm with hm | hm
        · rw [← hm]; simp
        · have hne : ¬p.1 = k := fun e => hd.1 (List.mem_map.2 ⟨_, hm, e.symm⟩)
          rw [show (p.1 == k) = false from beq_eq_false_iff_ne.2 hne]
          exact ih hd.2 hm
    simp only [g, this]
  have hg : ∀ k f s, deFieldE fs k = some f → (f s).toOption = g k (s.erase id) := by
    intro k f s h
    obtain ⟨t, hm, rfl⟩ := deFieldE_some h
    rw [ih k t hm, hgm k t hm]
  cases hloop : fieldLoop (deFieldE fs) l [] with
  | error e =>
    symm
    rcases hvs : deMap fs (eraseMap id l) with _ | vs
    · rfl
    exfalso
    obtain ⟨acc', h⟩ := fieldLoop_succeeds hg l [] (by
      intro k hk
      obtain ⟨f, hf⟩ := Option.ne_none_iff_exists'.1 hk
      obtain ⟨t, hm, -⟩ := deFieldE_some hf
      obtain ⟨v, hv⟩ := deMap_fieldVal hvs hm
      rw [hgm k t hm]
      unfold fieldVal at hv
      rcases hvo : valuesOf k (eraseMap id l) with _ | ⟨s, _ | ⟨s', ss⟩⟩
      · exact ⟨_, Or.inl ⟨rfl, rfl⟩⟩
      · rw [hvo] at hv
        exact ⟨_, Or.inr ⟨s, v, rfl, rfl, hv, rfl⟩⟩
      · rw [hvo] at hv; cases hv)
    rw [h] at hloop
    cases hloop
  | ok acc =>
    have hok := fieldLoop_ok hg l [] acc hloop
    simp only
    have : ∀ fs', (∀ p ∈ fs', p ∈ fs) → (fieldsOf acc fs').toOption = deMap fs' (eraseMap id l) := by
      intro fs'
      induction fs' with
      | nil => intro _; rw [fieldsOf, deMap]; rfl
      | cons p fs' ih' =>
        obtain ⟨k, t⟩ := p
        intro hs
        have hm := hs _ List.mem_cons_self
        have h1 := hok k (by rw [deFieldE_mem hd hm]; simp)
        rw [hgm k t hm] at h1
        have hv : (lookupKey k acc).orElse (fun _ => t.missing) = fieldVal t (valuesOf k (eraseMap id l)) := by
          rcases h1 with ⟨hv, hn⟩ | ⟨s, v, hv, -, hd, hn⟩
          · rw [hv, hn]; rfl
          · rw [hv, hn]; exact hd.symm
        rw [fieldsOf, deMap_field, hv, ← ih' fun p hp => hs p (List.mem_cons_of_mem _ hp)]
        cases fieldVal t (valuesOf k (eraseMap id l)) with
        | none => rfl
        | some v => cases fieldsOf acc fs' <;> rfl
    exact this fs fun _ h => h

mutual
theorem deE_erase : ∀ (t : Ty), Proper t → ∀ s : LSrc, (deE t s).toOption = de t (s.erase id)
  | .bool, _, s => by
    rw [deE, de]
    exact ask_erase s _ (f := fun o => o.bind visitBool) rfl fun e _ => visit_erase (by intro e h; cases e <;> first | rfl | exact absurd trivial h) e
  | .int lo hi wide, _, s => by
    rw [deE, de]
    exact ask_erase s _ (f := fun o => o.bind (visitInt lo hi wide)) rfl fun e _ => visit_erase (by intro e h; cases e <;> first | rfl | exact absurd trivial h) e
  | .f64, _, s => by
    rw [deE, de]
    exact ask_erase s _ (f := fun o => o.bind visitF64) rfl fun e _ => visit_erase (by intro e h; cases e <;> first | rfl | exact absurd trivial h) e
  | .char, _, s => by
    rw [deE, de]
    exact ask_erase s _ (f := fun o => o.bind visitChar) rfl fun e _ => visit_erase (by intro e h; cases e <;> first | rfl | exact absurd trivial h) e
  | .str, _, s => by
    rw [deE, de]
    exact ask_erase s _ (f := fun o => o.bind visitStr) rfl fun e _ => visit_erase (by intro e h; cases e <;> first | rfl | exact absurd trivial h) e
  | .unit, _, s => by
    rw [deE, de]
    exact ask_erase s _ (f := fun o => o.bind visitUnit) rfl fun e _ => visit_erase (by intro e h; cases e <;> first | rfl | exact absurd trivial h) e
  | .unitStruct name, _, s => by
    rw [deE, de]
    exact ask_erase s _ (f := fun o => o.bind (visitUnitStruct name)) rfl fun e _ => visit_erase (by intro e h; cases e <;> first | rfl | exact absurd trivial h) e
  | .option t, ht, s => by
    rw [Proper] at ht
    have ih := deE_erase t ht
    rw [deE, de]
    refine ask_erase s _ (f := fun o => match o with
      | some .none | some .unit => some SVal.none
      | some (.some s') => (de t s').map .some
      | _ => none) rfl fun e he => ?_
    cases e with
    | plain e => cases e <;> first | rfl | exact absurd he (by simp [LEvent.Proper, Event.Scalar])
    | some s' => simp only [LEvent.erase, toOption_map, ih]
    | _ => rfl
  | .newtype t, ht, s => by
    rw [Proper] at ht
    have ih := deE_erase t ht
    rw [deE, de]
    refine ask_erase s _ (f := fun o => match o with
      | some (.newtype s') => (de t s').map SVal.newtypeStruct
      | some (.seq (s' :: _)) => (de t s').map .newtypeStruct
      | _ => none) rfl fun e he => ?_
    cases e with
    | plain e => cases e <;> first | rfl | exact absurd he (by simp [LEvent.Proper, Event.Scalar])
    | newtype s' => simp only [LEvent.erase, toOption_map, ih]
    | seq l =>
      cases l with
      | nil => rfl
      | cons s' l => simp only [LEvent.erase, List.map_cons, toOption_map, ih]
    | _ => rfl
  | .seq t, ht, s => by
    rw [Proper] at ht
    have ih := deE_erase t ht
    rw [deE, de]
    refine ask_erase s _ (f := fun o => match o with
      | some (.seq l) => (l.mapM (de t)).map SVal.seq
      | _ => none) rfl fun e he => ?_
    cases e with
    | plain e => cases e <;> first | rfl | exact absurd he (by simp [LEvent.Proper, Event.Scalar])
    | seq l => simp only [LEvent.erase, toOption_map, readAll_erase ih]
    | _ => rfl
  | .tuple ts, ht, s => by
    rw [Proper] at ht
    have ih := deTupleE_erase ts ht
    rw [deE, de]
    refine ask_erase s _ (f := fun o => match o with
      | some (.seq l) => (deTuple ts l).map SVal.tuple
      | _ => none) rfl fun e he => ?_
    cases e with
    | plain e => cases e <;> first | rfl | exact absurd he (by simp [LEvent.Proper, Event.Scalar])
    | seq l => simp only [LEvent.erase, toOption_map, ih]
    | _ => rfl
  | .tupleStruct ts, ht, s => by
    rw [Proper] at ht
    have ih := deTupleE_erase ts ht
    rw [deE, de]
    refine ask_erase s _ (f := fun o => match o with
      | some (.seq l) => (deTuple ts l).map SVal.tupleStruct
      | _ => none) rfl fun e he => ?_
    cases e with
    | plain e => cases e <;> first | rfl | exact absurd he (by simp [LEvent.Proper, Event.Scalar])
    | seq l => simp only [LEvent.erase, toOption_map, ih]
    | _ => rfl
  | .map t, ht, s => by
    rw [Proper] at ht
    have ih := deE_erase t ht
    rw [deE, de]
    refine ask_erase s _ (f := fun o => match o with
      | some (.map l) => (l.mapM fun p => (de t p.2).map fun v => (p.1, v)).map fun m => mapOf (insertAll m)
      | _ => none) rfl fun e he => ?_
    cases e with
    | plain e => cases e <;> first | rfl | exact absurd he (by simp [LEvent.Proper, Event.Scalar])
    | map l =>
      simp only [LEvent.erase, toOption_map, eraseMap]
      rw [readAll_erase (g := fun p : Str × Src => (de t p.2).map fun v => (p.1, v)) (h := fun p => (p.1, p.2.erase id))]
      intro p
      simp only [toOption_map, ih]
    | _ => rfl
  | .struct fs, ht, s => by
    rw [Proper] at ht
    have ih := deFields_erase fs ht.2
    have ihs := deSeqE_erase fs ht.2
    rw [deE, de]
    refine ask_erase s _ (f := fun o => match o with
      | some (.map l) => (deMap fs l).map SVal.struct
      | some (.seq l) => (deSeq fs l).map SVal.struct
      | _ => none) rfl fun e he => ?_
    cases e with
    | plain e => cases e <;> first | rfl | exact absurd he (by simp [LEvent.Proper, Event.Scalar])
    | map l =>
      simp only [LEvent.erase, ← struct_erase ht.1 ih l]
      cases fieldLoop (deFieldE fs) l [] with
      | error e => rfl
      | ok acc => simp only [toOption_map]
    | seq l => simp only [LEvent.erase, toOption_map, ihs]
    | _ => rfl
  | .enum vs, ht, s => by
    rw [Proper] at ht
    have ih := deVariantE_erase vs ht
    rw [deE, de]
    refine ask_erase s _ (f := fun o => match o with
      | some (.enum e) => deVariant vs e
      | _ => none) rfl fun e he => ?_
    cases e with
    | plain e => cases e <;> first | rfl | exact absurd he (by simp [LEvent.Proper, Event.Scalar])
    | enum e => simp only [LEvent.erase, ih]
    | _ => rfl
theorem deTupleE_erase : ∀ (ts : List Ty), ProperAll ts → ∀ l : List LSrc, (deTupleE ts l).toOption = deTuple ts (l.map (LSrc.erase id))
  | [], _, l => by rw [deTupleE, deTuple]; rfl
  | t :: ts, _, [] => by rw [deTupleE, List.map_nil, deTuple]; rfl
  | t :: ts, ht, s :: l => by
    rw [ProperAll] at ht
    rw [deTupleE, List.map_cons, deTuple, ← deE_erase t ht.1, ← deTupleE_erase ts ht.2]
    cases deE t s with
    | error e => rfl
    | ok v => exact toOption_map _ _
theorem deSeqE_erase : ∀ (fs : List (Str × Ty)), ProperFields fs → ∀ l : List LSrc, (deSeqE fs l).toOption = deSeq fs (l.map (LSrc.erase id))
  | [], _, l => by rw [deSeqE, deSeq]; rfl
  | t :: ts, _, [] => by rw [deSeqE, List.map_nil, deSeq]; rfl
  | (k, t) :: fs, ht, s :: l => by
    rw [ProperFields] at ht
    rw [deSeqE, List.map_cons, deSeq, ← deE_erase t ht.1, ← deSeqE_erase fs ht.2]
    cases deE t s with
    | error e => rfl
    | ok v => exact toOption_map _ _
theorem deFields_erase : ∀ (fs : List (Str × Ty)), ProperFields fs → ∀ k t, (k, t) ∈ fs → ∀ s : LSrc, (deE t s).toOption = de t (s.erase id)
  | [], _, _, _, h, _ => by cases h
  | (k', t') :: fs, ht, k, t, h, s => by
    rw [ProperFields] at ht
    rcases List.mem_cons.1 h with h | h
    · simp only [Prod.mk.injEq] at h
      rw [h.2]
      exact deE_erase t' ht.1 s
    · exact deFields_erase fs ht.2 k t h s
theorem deVariantE_erase : ∀ (vs : List (Str × VTy)), ProperVariants vs → ∀ e : LEnum, (deVariantE vs e).toOption = deVariant vs (e.erase id)
  | [], _, e => by rw [deVariantE, deVariant, annotated_toOption]; rfl
  | (k, vt) :: vs, ht, e => by
    rw [ProperVariants] at ht
    have hv : (e.erase id).variant = e.variant.1 := by
      cases e with
      | node n => exact sem_name id n
      | _ => rfl
    rw [deVariantE, deVariant, hv, ← deBodyE_erase vt ht.1, ← deVariantE_erase vs ht.2]
    split <;> rfl
theorem deBodyE_erase : ∀ (vt : VTy), ProperVariant vt → ∀ (k : Str) (e : LEnum), (deBodyE k vt e).toOption = deBody k vt (e.erase id)
  | .unit, _, k, e => by rw [deBodyE, deBody]; rfl
  | .newtype t, ht, k, e => by
    rw [ProperVariant] at ht
    have ih := deE_erase t ht
    rw [deBodyE, deBody]
    cases e with
    | str s => rfl
    | node n => simp only [LEnum.newtype, LEnum.erase, EnumSrc.newtype, Option.bind_some, toOption_map, ih]; rfl
    | prop key en => simp only [LEnum.newtype, LEnum.erase, EnumSrc.newtype, Option.bind_some, toOption_map, ih]; rfl
  | .tuple ts, ht, k, e => by
    rw [ProperVariant] at ht
    have ih := deTupleE_erase ts ht
    rw [deBodyE, deBody]
    cases e with
    | str s => rfl
    | prop key en => rfl
    | node n =>
      simp only [LEnum.tuple, LEnum.erase, EnumSrc.tuple, ← lseq_erase]
      have : ∃ l, n.lseq = .seq l := by unfold Node.lseq; split <;> exact ⟨_, rfl⟩
      obtain ⟨l, hl⟩ := this
      simp only [hl, LEvent.erase, toOption_map, ih]
  | .struct fs, ht, k, e => by
    rw [ProperVariant] at ht
    have ih := deFields_erase fs ht.2
    rw [deBodyE, deBody]
    cases e with
    | str s => rfl
    | prop key en => rfl
    | node n =>
      simp only [LEnum.struct, LEnum.erase, EnumSrc.struct, nodeMap_erase, ← struct_erase ht.1 ih]
      cases fieldLoop (deFieldE fs) (lnodeMap n none) [] with
      | error e => rfl
      | ok acc => simp only [toOption_map]
end

end

end Kdl
