import Verif.Lemmas.Entries
import Verif.Model.Fmt
/-
Properties of document lookups (C24), the format configuration builder (C40)
and lengths (C41).
-/

namespace Kdl
open Spec

/-! ### C24 -/

/-- `find?` is the first element satisfying the predicate. -/
theorem find_first {α : Type} (p : α → Bool) (l : List α) :
    (l.find? p = none ∧ l.findIdx? p = none ∧ ∀ x ∈ l, p x = false) ∨
    ∃ pre x post, l = pre ++ x :: post ∧ p x = true ∧ (∀ y ∈ pre, p y = false) ∧
      l.find? p = some x ∧ l.findIdx? p = some pre.length := by
  induction l with
  | nil => left; simp
  | cons a l ih =>
    cases ha : p a with
    | true => right; exact ⟨[], a, l, rfl, ha, by simp, by simp [ha], by simp [List.findIdx?_cons, ha]⟩
    | false =>
      rcases ih with ⟨h1, h2, h3⟩ | ⟨pre, x, post, rfl, hx, hp, h1, h2⟩
      · left; refine ⟨by simp [ha, h1], by simp [List.findIdx?_cons, ha, h2], ?_⟩
        intro x hx; rcases List.mem_cons.mp hx with rfl | hx
        · exact ha
        · exact h3 x hx
      · right; refine ⟨a :: pre, x, post, rfl, hx, ?_, by simp [ha, h1],
          by simp [List.findIdx?_cons, ha, h2]⟩
        intro y hy; rcases List.mem_cons.mp hy with rfl | hy
        · exact ha
        · exact hp y hy

/-- C24: `get` returns the first node with the name. -/
theorem C24_get_first (d : Document) (name : Str) (n : Node) :
    d.get name = some n ↔ ∃ pre post, d.nodes = pre ++ n :: post ∧ n.name.value = name ∧
      ∀ m ∈ pre, m.name.value ≠ name := by
  constructor
  · intro h
    rcases find_first (fun (n : Node) => n.name.value == name) d.nodes with
      ⟨h1, _, _⟩ | ⟨pre, x, post, he, hx, hp, h1, _⟩
    · rw [Document.get, h1] at h; cases h
    · rw [Document.get, h1] at h; cases h
      exact ⟨pre, post, he, by simpa using hx, fun m hm => by simpa using hp m hm⟩
  · rintro ⟨pre, post, he, hx, hp⟩
    rw [Document.get, he, List.find?_append,
      List.find?_eq_none.mpr (by intro m hm; simpa using hp m hm)]
    simp [hx]

/-- C24: `get` returns nothing exactly when no node has the name. -/
theorem C24_get_none (d : Document) (name : Str) :
    d.get name = none ↔ ∀ n ∈ d.nodes, n.name.value ≠ name := by
  simp [Document.get, List.find?_eq_none]

/-- C24: `iter_args` lists exactly the argument values of the node found by
`get`, in order. -/
theorem C24_iter_args (d : Document) (name : Str) :
    d.iterArgs name =
      match d.get name with
      | some n => (args n.entries).map Entry.value
      | none => [] := by
  unfold Document.iterArgs
  cases d.get name with
  | none => rfl
  | some n =>
    simp only [args]
    congr 1
    apply List.filter_congr
    intro e _
    cases h : e.name <;> simp [IsArg, h]

/-- C24: `get_arg` is the first item of `iter_args`. -/
theorem C24_get_arg (d : Document) (name : Str) : d.getArg name = (d.iterArgs name).head? := by
  rw [C24_iter_args]
  unfold Document.getArg
  cases d.get name with
  | none => rfl
  | some n => simp [Node.get_index, lookupArg, List.head?_eq_getElem?]

/-- C24: `iter_dash_args` lists the first argument of each child called `-` that
has one, in order. -/
theorem C24_iter_dash_args (d : Document) (name : Str) :
    d.iterDashArgs name =
      match d.get name with
      | some n =>
        match n.children with
        | some c => (c.nodes.filter fun m => m.name.value = ['-']).filterMap
            fun m => lookupArg 0 m.entries
        | none => []
      | none => [] := by
  unfold Document.iterDashArgs
  cases d.get name with
  | none => rfl
  | some n =>
    simp only [Node.iterChildren]
    cases n.children with
    | none => rfl
    | some c =>
      simp only
      congr 1
      · funext m; exact m.get_index 0
      · apply List.filter_congr
        intro m _; rw [Bool.eq_iff_iff]; simp

/-- C24: `get_mut` is `None` exactly when `get` is; otherwise only that node is
affected. -/
theorem C24_get_mut (d : Document) (name : Str) (f : Node → Node) :
    (d.get name = none ∧ d.getMut name f = none) ∨
    ∃ pre n post, d.nodes = pre ++ n :: post ∧ d.get name = some n ∧
      d.getMut name f = some (.mk (pre ++ f n :: post) d.format d.span) := by
  rcases find_first (fun (n : Node) => n.name.value == name) d.nodes with
    ⟨h1, h2, _⟩ | ⟨pre, x, post, he, hx, hp, h1, h2⟩
  · left; exact ⟨h1, by simp only [Document.getMut]; rw [h2]; rfl⟩
  · right; refine ⟨pre, x, post, he, h1, ?_⟩
    simp only [Document.getMut]; rw [h2, he, Option.map_some, modify_split]

/-- C24: assigning through `get_arg_mut` is possible exactly when `get_arg` finds
a value, and then only the first argument of the node found by `get` changes. -/
theorem C24_get_arg_mut (d : Document) (name : Str) (v : Value) :
    (d.getArg name = none ∧ d.getArgMutSet name v = none) ∨
    ∃ pre n post epre x epost, d.nodes = pre ++ n :: post ∧ d.get name = some n ∧
      n.entries = epre ++ x :: epost ∧ IsArg x ∧ args epre = [] ∧ d.getArg name = some x.value ∧
      d.getArgMutSet name v = some (.mk (pre ++
        .mk n.ty n.name (epre ++ { x with value := v } :: epost) n.children n.format n.span :: post)
        d.format d.span) := by
  unfold Document.getArgMutSet
  cases hg : d.get name with
  | none => left; simp [Document.getArg, hg]
  | some n =>
    rcases arg_split n.entries 0 with ⟨hl, hp⟩ | ⟨epre, x, epost, he, hx, hl, hp⟩
    · left
      have hp := hp 0 0
      simp only [Nat.add_zero] at hp
      have hnil : args n.entries = [] := List.eq_nil_of_length_eq_zero (by omega)
      constructor
      · simp [Document.getArg, hg, Node.get_index, lookupArg, hnil]
      · simp [Node.getMutSet, Node.entryMut, Node.entryMutPos, hp]
    · right
      have hp := hp 0 0
      simp only [Nat.add_zero, Nat.zero_add] at hp
      have hnil : args epre = [] := List.eq_nil_of_length_eq_zero hl
      rcases C24_get_mut d name (fun _ => .mk n.ty n.name (epre ++ { x with value := v } :: epost)
        n.children n.format n.span) with ⟨h1, _⟩ | ⟨pre, m, post, hd, h1, h2⟩
      · rw [hg] at h1; cases h1
      · rw [hg] at h1; cases h1
        refine ⟨pre, n, post, epre, x, epost, hd, rfl, he, hx, hnil, ?_, ?_⟩
        · simp [Document.getArg, hg, Node.get_index, lookupArg, he, args_append, hnil,
            args_cons_pos hx]
        · rw [he] at hp
          simp only [Node.getMutSet, Node.entryMut, Node.entryMutPos, he, hp, Option.map_some,
            modify_split, Node.setEntries]
          exact h2

/-- A document with a repeated name, arguments, and dash children. -/
def Spec.sampleDoc : Document :=
  .mk [.mk none (.ofStr ['a']) [.newProp (.ofStr ['x']) .null, .new (.bool true), .new (.bool false)]
        (some (.mk [.mk none (.ofStr ['-']) [.new (.bool false)] none none .zero,
          .mk none (.ofStr ['-']) [] none none .zero,
          .mk none (.ofStr ['b']) [.new .null] none none .zero,
          .mk none (.ofStr ['-']) [.new (.string ['s'])] none none .zero] none .zero)) none .zero,
       .mk none (.ofStr ['a']) [.new .null] none none .zero] none .zero

example : sampleDoc.getArg ['a'] = some (.bool true) := by decide
example : sampleDoc.iterArgs ['a'] = [.bool true, .bool false] := by decide
example : sampleDoc.iterDashArgs ['a'] = [.bool false, .string ['s']] := by decide
example : (sampleDoc.getArgMutSet ['a'] .null).isSome = true := by decide

/-! ### C40 -/

/-- One setter call on the builder. -/
inductive Spec.Setter where
  | indentLevel (n : Nat)
  | maybeIndentLevel (o : Option Nat)
  | indent (s : Str)
  | maybeIndent (o : Option Str)
  | noComments (b : Bool)
  | maybeNoComments (o : Option Bool)

/-- The call performed by the model. -/
def Setter.run (c : FormatConfig) : Setter → FormatConfig
  | .indentLevel n => c.setIndentLevel n
  | .maybeIndentLevel o => c.maybeIndentLevel o
  | .indent s => c.setIndent s
  | .maybeIndent o => c.maybeIndent o
  | .noComments b => c.setNoComments b
  | .maybeNoComments o => c.maybeNoComments o

/-- The indentation level a call asks for. -/
def Spec.Setter.level? : Setter → Option Nat
  | .indentLevel n => some n
  | .maybeIndentLevel o => o
  | _ => none
/-- The indentation text a call asks for. -/
def Spec.Setter.indent? : Setter → Option Str
  | .indent s => some s
  | .maybeIndent o => o
  | _ => none
/-- The comment flag a call asks for. -/
def Spec.Setter.noComments? : Setter → Option Bool
  | .noComments b => some b
  | .maybeNoComments o => o
  | _ => none

theorem getLast?_getD_cons {α : Type} (a : α) (l : List α) (d : α) :
    ((a :: l).getLast?).getD d = (l.getLast?).getD a := by
  cases l with
  | nil => rfl
  | cons b l => simp [List.getLast?_cons]

theorem setter_fold (calls : List Setter) (c : FormatConfig) :
    calls.foldl Setter.run c =
      { indentLevel := ((calls.filterMap Setter.level?).getLast?).getD c.indentLevel
        indent := ((calls.filterMap Setter.indent?).getLast?).getD c.indent
        noComments := ((calls.filterMap Setter.noComments?).getLast?).getD c.noComments
        entryKeep := c.entryKeep } := by
  induction calls generalizing c with
  | nil => rfl
  | cons s calls ih =>
    rw [List.foldl_cons, ih]
    cases s with
    | indentLevel n =>
      simp [Setter.run, FormatConfig.setIndentLevel, Setter.level?, Setter.indent?,
        Setter.noComments?, getLast?_getD_cons, List.filterMap_cons]
    | maybeIndentLevel o =>
      cases o <;> simp [Setter.run, FormatConfig.maybeIndentLevel, Setter.level?, Setter.indent?,
        Setter.noComments?, getLast?_getD_cons, List.filterMap_cons]
    | indent n =>
      simp [Setter.run, FormatConfig.setIndent, Setter.level?, Setter.indent?,
        Setter.noComments?, getLast?_getD_cons, List.filterMap_cons]
    | maybeIndent o =>
      cases o <;> simp [Setter.run, FormatConfig.maybeIndent, FormatConfig.setIndent, Setter.level?,
        Setter.indent?, Setter.noComments?, getLast?_getD_cons, List.filterMap_cons]
    | noComments n =>
      simp [Setter.run, FormatConfig.setNoComments, Setter.level?, Setter.indent?,
        Setter.noComments?, getLast?_getD_cons, List.filterMap_cons]
    | maybeNoComments o =>
      cases o <;> simp [Setter.run, FormatConfig.maybeNoComments, Setter.level?, Setter.indent?,
        Setter.noComments?, getLast?_getD_cons, List.filterMap_cons]

/-- C40: after any sequence of builder calls, each field of the built
configuration is the one asked for by the last call that concerns this field, or
the documented default (level 0, four spaces, comments kept) if there was none. -/
theorem C40_builder (calls : List Setter) :
    (calls.foldl Setter.run FormatConfig.builder).build =
      { indentLevel := ((calls.filterMap Setter.level?).getLast?).getD 0
        indent := ((calls.filterMap Setter.indent?).getLast?).getD [' ', ' ', ' ', ' ']
        noComments := ((calls.filterMap Setter.noComments?).getLast?).getD false
        entryKeep := false } := setter_fold calls _

/-- C40: the default configuration is the one of an untouched builder. -/
theorem C40_default : FormatConfig.default = FormatConfig.builder.build := rfl

/-- C40: calls that concern different fields commute. -/
theorem C40_commute (a b : Setter) (c : FormatConfig)
    (h1 : a.level? = none ∨ b.level? = none) (h2 : a.indent? = none ∨ b.indent? = none)
    (h3 : a.noComments? = none ∨ b.noComments? = none) :
    Setter.run (Setter.run c a) b = Setter.run (Setter.run c b) a := by
  have ha := setter_fold [a, b] c
  have hb := setter_fold [b, a] c
  simp only [List.foldl_cons, List.foldl_nil] at ha hb
  rw [ha, hb]
  rcases h1 with h1 | h1 <;> rcases h2 with h2 | h2 <;> rcases h3 with h3 | h3 <;>
    simp only [List.filterMap_cons, h1, h2, h3, List.filterMap_nil]

example : (Setter.indent ['\t']).level? = none ∧ (Setter.indentLevel 2).indent? = none := ⟨rfl, rfl⟩

/-! ### C41 -/

/-- Number of bytes of a text in UTF-8, one code point at a time. -/
def Spec.byteLen : Str → Nat
  | [] => 0
  | c :: s =>
    (if c.toNat < 0x80 then 1 else if c.toNat < 0x800 then 2 else if c.toNat < 0x10000 then 3 else 4)
      + byteLen s

theorem utf8Size_eq (c : Char) : c.utf8Size =
    if c.toNat < 0x80 then 1 else if c.toNat < 0x800 then 2 else if c.toNat < 0x10000 then 3 else 4 := by
  unfold Char.utf8Size Char.toNat
  have e1 : (UInt32.ofNatLT 127 (by decide)).toNat = 127 := rfl
  have e2 : (UInt32.ofNatLT 2047 (by decide)).toNat = 2047 := rfl
  have e3 : (UInt32.ofNatLT 65535 (by decide)).toNat = 65535 := rfl
  simp only [UInt32.le_iff_toNat_le, e1, e2, e3]
  repeat' split
  all_goals omega

theorem utf8Len_eq (s : Str) : utf8Len s = byteLen s := by
  induction s with
  | nil => rfl
  | cons c s ih =>
    have : utf8Len (c :: s) = c.utf8Size + utf8Len s := rfl
    rw [this, ih, utf8Size_eq]; rfl

theorem byteLen_eq_zero (s : Str) : byteLen s = 0 ↔ s = [] := by
  cases s with
  | nil => simp [byteLen]
  | cons c s =>
    simp only [byteLen, reduceCtorEq, iff_false]
    split <;> (try split) <;> (try split) <;> omega

section
variable [FloatIO]

/-- C41: the reported lengths are the byte lengths of the printed texts, and
emptiness means that nothing is printed. -/
theorem C41_len (d : Document) (e : Entry) (i : Ident) :
    (d.len = byteLen d.display ∧ (d.isEmpty = true ↔ d.display = [])) ∧
    (e.len = byteLen e.display ∧ (e.isEmpty = true ↔ e.display = [])) ∧
    (i.len = byteLen i.display ∧ (i.isEmpty = true ↔ i.display = [])) := by
  refine ⟨⟨utf8Len_eq _, ?_⟩, ⟨utf8Len_eq _, ?_⟩, ⟨utf8Len_eq _, ?_⟩⟩ <;>
    simp [Document.isEmpty, Document.len, Entry.isEmpty, Entry.len, Ident.isEmpty, Ident.len,
      utf8Len_eq, byteLen_eq_zero]

omit [FloatIO] in
theorem writeString_ne_nil (s : Str) : writeString s ≠ [] := by
  unfold writeString
  split
  · rename_i h; intro h'; simp [h'] at h
  · simp

omit [FloatIO] in
theorem showNat_ne_nil (n : Nat) : showNat n ≠ [] := by
  simp only [showNat, natDigitsRev]; split <;> simp

/-- C41: an identifier without custom representation is never empty. -/
theorem C41_ident_nonempty (s : Str) : (Ident.ofStr s).isEmpty = false := by
  have h := ((C41_len .new (.new .null) (.ofStr s)).2.2).2
  cases hb : (Ident.ofStr s).isEmpty with
  | false => rfl
  | true => exact absurd (h.mp hb) (writeString_ne_nil s)

/-- C41: an entry without custom formatting is never empty, provided that the
decimal text of a finite float is never empty. -/
theorem C41_entry_nonempty (hshow : ∀ x, FloatIO.showFinite x ≠ []) (e : Entry)
    (h : e.format = none) : e.isEmpty = false := by
  have h' := ((C41_len .new e (.ofStr [])).2.1).2
  cases hb : e.isEmpty with
  | false => rfl
  | true =>
    exfalso
    have hd := h'.mp hb
    simp only [Entry.display, h, List.append_nil, List.nil_append, List.append_eq_nil_iff] at hd
    have hv : e.value.display ≠ [] := by
      cases e.value with
      | string s => exact writeString_ne_nil s
      | integer i =>
        simp only [Value.display, showInt]; split
        · simp
        · exact showNat_ne_nil _
      | float f =>
        simp only [Value.display]
        repeat' split
        all_goals first | exact hshow f | simp
      | bool b => cases b <;> simp [Value.display]
      | null => simp [Value.display]
    exact hv hd.2
end

end Kdl
