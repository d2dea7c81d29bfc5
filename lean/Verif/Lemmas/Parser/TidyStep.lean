import Verif.Lemmas.Parser.TidyParse
import Verif.Props.Build
/-
The functions of the API keep documents tidy.
-/

namespace Kdl
open Spec

/-! ### Lists in which all elements but the last satisfy a predicate -/

/-- All elements but the last satisfy `P`; the last one satisfies `P` or `Q`. -/
def Row {α : Type} (P Q : α → Prop) : List α → Prop
  | [] => True
  | [n] => P n ∨ Q n
  | n :: n2 :: ns => P n ∧ Row P Q (n2 :: ns)

section Row
variable {α : Type} {P Q : α → Prop}

theorem row_iff : ∀ {ns : List α}, Row P Q ns ↔ (∀ n ∈ ns.dropLast, P n) ∧ (∀ n, ns.getLast? = some n → P n ∨ Q n)
  | [] => by simp [Row]
  | [n] => by simp [Row]
  | n :: n2 :: ns => by
    rw [Row, row_iff (ns := n2 :: ns), List.dropLast_cons_cons, List.getLast?_cons_cons]
    simp [List.forall_mem_cons, and_assoc]

theorem Row.of_all : ∀ {ns : List α}, (∀ n ∈ ns, P n) → Row P Q ns
  | [], _ => trivial
  | [n], h => Or.inl (h n (by simp))
  | n :: n2 :: ns, h => ⟨h n (by simp), Row.of_all fun m hm => h m (List.mem_cons_of_mem _ hm)⟩

theorem Row.tail {n : α} {ns : List α} (h : Row P Q (n :: ns)) : Row P Q ns := by
  cases ns with
  | nil => trivial
  | cons m ns => exact h.2

theorem Row.head {n : α} {ns : List α} (h : Row P Q (n :: ns)) : P n ∨ Q n := by
  cases ns with
  | nil => exact h
  | cons m ns => exact Or.inl h.1

theorem Row.cons {n : α} {ns : List α} (hn : P n) (h : Row P Q ns) : Row P Q (n :: ns) := by
  cases ns with
  | nil => exact Or.inl hn
  | cons m ns => exact ⟨hn, h⟩

theorem Row.sublist {ns ms : List α} (hs : ms.Sublist ns) : Row P Q ns → Row P Q ms := by
  induction hs with
  | slnil => exact id
  | cons a _ ih => exact fun h => ih h.tail
  | @cons_cons l1 l2 a hl ih =>
    intro h
    cases l2 with
    | nil =>
      cases hl
      exact h
    | cons b l2 => exact .cons h.1 (ih h.2)

theorem Row.insert {n : α} : ∀ {a b : List α}, Row P Q (a ++ b) → (∀ m, a.getLast? = some m → P m) → P n → Row P Q (a ++ n :: b)
  | [], b, h, _, hn => .cons hn h
  | [m], b, h, ha, hn => .cons (ha m rfl) (.cons hn h.tail)
  | m :: m2 :: a, b, h, ha, hn =>
    .cons h.1 (Row.insert (a := m2 :: a) (b := b) h.2 (fun x hx => ha x (by rw [List.getLast?_cons_cons]; exact hx)) hn)

theorem Row.replace {n n' : α} (hP : P n → P n') (hQ : Q n → Q n') : ∀ {a b : List α}, Row P Q (a ++ n :: b) → Row P Q (a ++ n' :: b)
  | [], [], h => h.imp hP hQ
  | [], _ :: _, h => ⟨hP h.1, h.2⟩
  | [_], _, h => ⟨h.1, Row.replace (a := []) hP hQ h.2⟩
  | _ :: m :: a, _, h => ⟨h.1, Row.replace (a := m :: a) hP hQ h.2⟩

theorem Row.all {ns : List α} (h : Row P Q ns) (hq : ∀ n ∈ ns, Q n → P n) : ∀ n ∈ ns, P n := by
  induction ns with
  | nil => simp
  | cons m ns ih =>
    intro n hn
    rcases List.mem_cons.mp hn with rfl | hn
    · rcases h.head with h | h
      · exact h
      · exact hq n (by simp) h
    · exact ih h.tail (fun k hk => hq k (List.mem_cons_of_mem _ hk)) n hn

theorem mem_insertIdx_or {a b : α} : ∀ {l : List α} {i : Nat}, a ∈ l.insertIdx i b → a = b ∨ a ∈ l
  | l, 0, h => by simpa using h
  | [], i + 1, h => by simp at h
  | c :: l, i + 1, h => by
    rw [List.insertIdx_succ_cons] at h
    rcases List.mem_cons.mp h with rfl | h
    · simp
    · rcases mem_insertIdx_or h with rfl | h
      · simp
      · simp [h]

end Row

section
variable [FloatIO]

/-! ### New entries and nodes -/

theorem shape_readable [LawfulFloatIO] {e : Entry} (h : EntShape e) (hw : EntryWritable e) (hv : canonValue e.value = e.value) :
    ReadableEntry e := by
  unfold ReadableEntry
  rw [h.format]
  have := EntryText.write h.format h.name h.ty hw
  rw [show semEntry canonValue e = semEntry id e by simp [semEntry, hv]] at this
  exact this

theorem Spec.FreshEntry.readable [LawfulFloatIO] {e : Entry} (h : FreshEntry e) : ReadableEntry e :=
  shape_readable (BuiltEntry.shape h.built) h.writable h.value

omit [FloatIO] in
theorem newline_term (x : Str) : TermText ['\n'] x := Or.inr (Or.inl (Or.inr ⟨'\n', rfl, by decide, by simp⟩))

theorem newNode_sealed {n : Node} (h : n.format = some { trailing := ['\n'] }) : SealedFmt n := by
  have e : endOf n = ['\n'] := by simp [endOf, h]
  have e2 : beforeTerm n = [] := by simp [beforeTerm, h]
  refine ⟨fun x => by rw [e]; exact newline_term x, fun _ x => ?_, fun _ => ?_⟩
  · rw [e2]; exact .midSpace .nil
  · rw [e2]; exact Or.inl rfl

theorem NodeShape.format {n : Node} (h : NodeShape n) : n.format = some { trailing := ['\n'] } := by
  cases h; rfl

theorem semNodes_canon : ∀ {ns : List Node}, semNodes canonValue ns = semNodes id ns → ∀ n ∈ ns, semNode canonValue n = semNode id n
  | [], _, n, hn => by simp at hn
  | m :: ns, h, n, hn => by
    simp only [semNodes, List.cons.injEq] at h
    rcases List.mem_cons.mp hn with rfl | hn
    · exact h.1
    · exact semNodes_canon h.2 n hn

mutual
theorem NodeShape.tidyNode [LawfulFloatIO] : ∀ {n : Node}, NodeShape n → NodeWritable n → semNode canonValue n = semNode id n → TidyNode n
  | _, .mk h1 h2 h3 h4, .mk w1 w2 w3 w4, hv => by
    simp only [semNode, SNode.mk.injEq, true_and] at hv
    refine .mk (fun i hi => StrText.ident (h1 i hi) (w1 i hi)) (StrText.ident h2 w2) (fun e he => ?_) ?_ ?_ ?_
    · have := List.map_inj_left.mp hv.1 e he
      exact shape_readable (h3 e he) (w3 e he) (congrArg SEntry.value this)
    · rintro _ ⟨⟩; exact .leadNil
    · rintro _ _ ⟨⟩ x; exact .midSpace .nil
    · rintro d rfl
      have hv2 := hv.2
      simp only [semOptDoc, Option.some.injEq] at hv2
      exact DocShape.tidyDoc (h4 d rfl) (w4 d rfl) hv2
theorem DocShape.tidyDoc [LawfulFloatIO] : ∀ {d : Document}, DocShape d → DocWritable d → semDoc canonValue d = semDoc id d → TidyDoc ['}'] d
  | _, .mk h, .mk w, hv => by
    simp only [semDoc] at hv
    refine .mk (fun n hn => NodeShape.tidyNode (h n hn) (w n hn) (semNodes_canon hv n hn)) (fun n hn => ?_) (fun n hn => Or.inl ?_)
      .leadNil .leadNil (fun _ => Or.inl rfl)
    · exact newNode_sealed (h n (List.dropLast_subset _ hn)).format
    · exact newNode_sealed (h n (List.mem_of_getLast? hn)).format
end

/-! ### Steps -/

theorem SealedFmt.congr {n n' : Node} (h : SealedFmt n) (hf : n'.format = n.format) (hc : n'.children.isSome = n.children.isSome) :
    SealedFmt n' := by
  have e1 : endOf n' = endOf n := by simp [endOf, hf]
  have e2 : beforeTerm n' = beforeTerm n := by simp [beforeTerm, hf]
  have e3 : n'.children = none ↔ n.children = none := by
    rw [← Option.not_isSome_iff_eq_none, ← Option.not_isSome_iff_eq_none, hc]
  unfold SealedFmt Sealed
  rw [e1, e2, e3, hc]
  exact h

theorem Follows.congr {n n' : Node} {r tr : Str} (h : Follows r tr n) (hf : n'.format = n.format)
    (hc : n'.children.isSome = n.children.isSome) : Follows r tr n' := by
  have e1 : endOf n' = endOf n := by simp [endOf, hf]
  have e2 : beforeTerm n' = beforeTerm n := by simp [beforeTerm, hf]
  have e3 : n'.children = none ↔ n.children = none := by
    rw [← Option.not_isSome_iff_eq_none, ← Option.not_isSome_iff_eq_none, hc]
  unfold Follows
  rw [e1, e2, e3, hc]
  exact h

theorem Follows.sealed {n : Node} {r tr : Str} (h : Follows r tr n) (hs : Sealed n) : SealedFmt n := by
  have hne : endOf n ≠ [] := termText_ne (hs [])
  refine ⟨hs, fun hc x => ?_, fun hc => (h.2 hc).1⟩
  rcases h.1 hc with ⟨e, _⟩ | ⟨m, L, e, _, _, hw⟩
  · exact absurd (List.append_eq_nil_iff.mp e).1 hne
  · rw [← List.append_assoc, ← e, List.append_assoc] at hw
    exact mid_head hw hne x

theorem TidyNode.entries {n : Node} (h : TidyNode n) : ∀ e ∈ n.entries, ReadableEntry e := by
  cases h; assumption

theorem TidyNode.setEntries {n : Node} (h : TidyNode n) {es : List Entry} (he : ∀ e ∈ es, ReadableEntry e) :
    TidyNode (n.setEntries es) := by
  cases h with
  | mk ht hn _ hl hb hd => exact .mk ht hn he hl hb hd

/-- What a step keeps. -/
def StepKeeps (n n' : Node) : Prop := (TidyNode n → TidyNode n') ∧ n'.format = n.format ∧ n'.children.isSome = n.children.isSome

theorem keeps_entries {n : Node} {es : List Entry} (h : (∀ e ∈ n.entries, ReadableEntry e) → ∀ e ∈ es, ReadableEntry e) :
    StepKeeps n (n.setEntries es) :=
  ⟨fun ht => ht.setEntries (h ht.entries), by cases n; rfl, by cases n; rfl⟩

theorem keeps_push {n : Node} {e : Entry} (h : ReadableEntry e) : StepKeeps n (n.push e) :=
  keeps_entries fun hes e' he' => by
    rcases List.mem_append.mp he' with he' | he'
    · exact hes e' he'
    · rw [List.mem_singleton.mp he']; exact h

theorem keeps_insert [LawfulFloatIO] {n n' : Node} {k : NodeKey} {e : Entry} {o : Option Entry} (h : FreshEntry e)
    (hk : ∀ i, k = .key i → i.repr = none ∧ Writable i.value) (hi : n.insert k e = .ret (n', o)) : StepKeeps n n' := by
  unfold Node.insert at hi
  cases k with
  | key key =>
    simp only at hi
    have hr : ReadableEntry (if e.name.isNone then { e with name := some key } else e) := by
      by_cases hn : e.name.isNone = true
      · rw [if_pos hn]
        obtain ⟨k1, k2⟩ := hk key rfl
        have hs := BuiltEntry.shape h.built
        exact shape_readable ⟨hs.format, by rintro _ ⟨⟩; exact k1, hs.ty⟩
          ⟨by rintro _ ⟨⟩; exact k2, h.writable.ty, h.writable.value⟩ h.value
      · rw [if_neg hn]
        exact h.readable
    generalize (if e.name.isNone then { e with name := some key } else e) = e2 at hr hi
    split at hi
    · cases hi
    · split at hi
      · cases hi
        refine keeps_entries fun hes e' he' => ?_
        rcases List.mem_or_eq_of_mem_set he' with he' | rfl
        · exact hes e' he'
        · exact hr
      · cases hi
        exact keeps_push hr
  | index idx =>
    simp only at hi
    split at hi
    · cases hi
    · split at hi
      · cases hi
        refine keeps_entries fun hes e' he' => ?_
        rcases mem_insertIdx_or he' with rfl | he'
        · exact h.readable
        · exact hes e' he'
      · split at hi
        · cases hi
        · cases hi
          exact keeps_push h.readable

theorem keeps_remove {n n' : Node} {k : NodeKey} {o : Option Entry} (h : n.remove k = .ret (n', o)) : StepKeeps n n' := by
  have key : ∀ p, StepKeeps n (n.setEntries (n.entries.eraseIdx p)) := fun p =>
    keeps_entries fun hes e he => hes e (List.mem_of_mem_eraseIdx he)
  unfold Node.remove at h
  cases k with
  | key k =>
    simp only at h
    split at h
    · cases h; exact key _
    · cases h; exact ⟨id, rfl, rfl⟩
  | index i =>
    simp only at h
    split at h
    · cases h; exact key _
    · cases h

theorem tidy_sublist {r : Str} {ns ns' : List Node} {f : Option DocFmt} {sp : Span} (hs : ns'.Sublist ns)
    (h : TidyDoc r (.mk ns f sp)) : TidyDoc r (.mk ns' f sp) := by
  cases h with
  | mk h0 hs' hl h1 h2 h3 =>
    obtain ⟨hs2, hl2⟩ := row_iff.mp ((row_iff.mpr ⟨hs', hl⟩).sublist hs)
    refine .mk (fun n hn => h0 n (hs.subset hn)) hs2 hl2 h1 h2 (fun hne => ?_)
    have hne' : ns ≠ [] := by
      rintro rfl
      exact hne (List.sublist_nil.mp hs)
    exact (h3 hne').imp id fun h => ⟨h.1, fun n hn => h.2 n (hs.subset hn)⟩

mutual
theorem Spec.NodeStep.keeps [LawfulFloatIO] : ∀ {n n' : Node}, NodeStep n n' → StepKeeps n n'
  | .mk .., _, .setName h => ⟨fun ht => by
      cases ht with | mk ht hn he hl hb hd => exact .mk ht (StrText.ident rfl h) he hl hb hd, rfl, rfl⟩
  | .mk .., _, .setTy h => ⟨fun ht => by
      cases ht with
      | mk ht hn he hl hb hd => exact .mk (by rintro _ ⟨⟩; exact StrText.ident rfl h) hn he hl hb hd, rfl, rfl⟩
  | _, _, .push h => keeps_push h.readable
  | _, _, .insert h hk hi => keeps_insert h hk hi
  | _, _, .remove h => keeps_remove h
  | _, _, .retain p => keeps_entries fun hes e he => hes e (List.mem_filter.mp he).1
  | _, _, .clear => keeps_entries fun _ e he => by cases he
  | .mk .., _, .children (d := d) (d' := d') hc h => ⟨fun ht => by
      cases ht with
      | mk ht hn he hl hb hd =>
        simp only [Node.children] at hc
        subst hc
        exact .mk ht hn he hl hb (by rintro _ ⟨⟩; exact Spec.DocStep.tidy h (hd d rfl)), rfl, by
      simp only [Node.children] at hc; subst hc; rfl⟩
theorem Spec.DocStep.tidy [LawfulFloatIO] : ∀ {d d' : Document}, DocStep d d' → ∀ {r : Str}, TidyDoc r d → TidyDoc r d'
  | _, _, .node (a := a) (b := b) (n := n) (n' := n') h, r, ht => by
    obtain ⟨k1, k2, k3⟩ := Spec.NodeStep.keeps h
    cases ht with
    | mk h0 hs hl h1 h2 h3 =>
      have hrow := (row_iff.mpr ⟨hs, hl⟩).replace (n' := n') (fun h => h.congr k2 k3) (fun h => ⟨h.1, h.2.congr k2 k3⟩)
      obtain ⟨hs', hl'⟩ := row_iff.mp hrow
      refine .mk ?_ hs' hl' h1 h2 (fun _ => ?_)
      · intro m hm
        rcases List.mem_append.mp hm with hm | hm
        · exact h0 m (by simp [hm])
        · rcases List.mem_cons.mp hm with rfl | hm
          · exact k1 (h0 n (by simp))
          · exact h0 m (by simp [hm])
      · refine (h3 (by simp)).imp id fun g => ⟨g.1, fun m hm => ?_⟩
        rcases List.mem_append.mp hm with hm | hm
        · exact g.2 m (by simp [hm])
        · rcases List.mem_cons.mp hm with rfl | hm
          · rw [k2]; exact g.2 n (by simp)
          · exact g.2 m (by simp [hm])
  | _, _, .insert (a := a) (b := b) (n := n) (f := f) h ha hf, r, ht => by
    cases ht with
    | mk h0 hs hl h1 h2 h3 =>
      have hn := BuiltNode.shape h.built
      have htn := hn.tidyNode h.writable h.value
      have hrow := row_iff.mpr ⟨hs, hl⟩
      have ha' : ∀ m, a.getLast? = some m → SealedFmt m := by
        intro m hm
        have hsm := ha m hm
        have hmem : m ∈ a := List.mem_of_getLast? hm
        cases b with
        | nil =>
          rw [List.append_nil] at hl
          rcases hl m hm with h | h
          · exact h
          · exact h.2.sealed hsm
        | cons c b =>
          refine hs m ?_
          rw [List.dropLast_append_cons]
          simp [hmem]
      obtain ⟨hs', hl'⟩ := row_iff.mp (hrow.insert ha' (newNode_sealed hn.format))
      refine .mk ?_ hs' hl' h1 h2 (fun _ => ?_)
      · intro m hm
        rcases List.mem_append.mp hm with hm | hm
        · exact h0 m (by simp [hm])
        · rcases List.mem_cons.mp hm with rfl | hm
          · exact htn
          · exact h0 m (by simp [hm])
      · by_cases hab : a ++ b = []
        · obtain ⟨rfl, rfl⟩ := List.append_eq_nil_iff.mp hab
          rcases hf with hf | hf
          · exact absurd hab hf
          · cases f with
            | none => exact Or.inl rfl
            | some f =>
              right
              refine ⟨?_, ?_⟩
              · have := Text.leadSpace (L := []) (hf f rfl) (Text.leadNil (r := ['a']))
                simpa [docLead] using this
              · intro m hm
                obtain rfl : m = n := by simpa using hm
                exact ⟨_, hn.format, rfl⟩
        · refine (h3 hab).imp id fun h => ⟨h.1, fun m hm => ?_⟩
          rcases List.mem_append.mp hm with hm | hm
          · exact h.2 m (by simp [hm])
          · rcases List.mem_cons.mp hm with rfl | hm
            · exact ⟨_, hn.format, rfl⟩
            · exact h.2 m (by simp [hm])
  | _, _, .remove (a := a) (b := b) (n := n), r, ht => tidy_sublist (by simp) ht
  | _, _, .retain p, r, ht => tidy_sublist List.filter_sublist ht
  | _, _, .reorder (ns := ns) (f := f) hp h, r, ht => by
    cases ht with
    | mk h0 hs hl h1 h2 h3 =>
      have hrow := row_iff.mpr ⟨hs, hl⟩
      have hall := hrow.all fun n hn hq => hq.2.sealed (h n hn)
      obtain ⟨hs', hl'⟩ := row_iff.mp (Row.of_all (Q := fun n => f.isSome = true ∧ Follows r (docTrail f) n)
        fun n hn => hall n (hp.subset hn))
      refine .mk (fun n hn => h0 n (hp.subset hn)) hs' hl' h1 h2 (fun hne => ?_)
      have hne' : ns ≠ [] := by
        rintro rfl
        exact hne (List.perm_nil.mp hp)
      exact (h3 hne').imp id fun h => ⟨h.1, fun n hn => h.2 n (hp.subset hn)⟩
end

end

end Kdl
