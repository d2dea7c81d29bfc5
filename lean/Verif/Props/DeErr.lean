import Verif.Lemmas.DeErrKind
import Verif.Lemmas.DeErrFirst
import Verif.Lemmas.DeErrValue
import Verif.Props.Spans
import Verif.Props.Diag
import Verif.Model.FloatText
import Verif.Model.FloatCast
import Verif.Lemmas.KernelRfl
/-
C82: errors of deserialisation say where they are.
-/

namespace Kdl
open Spec

section
variable [FloatIO] [FloatCast]

/-- C82: the place of an error is a part of the text, whether the text is not a document or its
data do not suit the type. -/
theorem C82_in_text (t : Ty) (s : Str) {e : DeError} (h : fromStrE t s = .error e) {sp : Span} (hsp : e.span = some sp) :
    ∃ x, Selects s sp x := by
  unfold fromStrE at h
  split at h
  · next d hd =>
    have hp := C36_document (((C39_diagnosed s).1.1 d).1 hd)
    rcases deE_parts t (.doc d.nodes) e h with ⟨h0, -⟩ | ⟨sp', l, rfl, p, hpm, hb⟩
    · rw [h0] at hsp; cases hsp
    · cases hsp
      have hpm' : p ∈ docParts d := by
        cases d with
        | mk ns f dsp =>
          rw [docParts, nodesParts_eq]
          exact List.mem_cons_of_mem _ hpm
      have hok := hp p hpm'
      cases p with
      | ident i => obtain ⟨x, -, hx⟩ := hok; rw [hb.1]; exact ⟨x, hx⟩
      | entry en => obtain ⟨f, x, -, -, hx⟩ := hok; rw [hb.1]; exact ⟨x, hx⟩
      | node nsp => rw [hb.1]; exact hok
      | doc dsp => exact hb.elim
  · next ds hd =>
    cases h
    have hne := (C39_diagnosed s).1.2.1 ds hd
    rcases ds with _ | ⟨a, ds⟩
    · exact absurd rfl hne
    · simp only [DeError.ofDiagnostics, List.head?_cons, Option.map_some, Option.some.injEq] at hsp
      subst hsp
      exact (C55_diagnosed s (a :: ds)).1 hd a List.mem_cons_self
  · cases h; cases hsp

/-- C82: for a text that is not a document the error has the place and the label of the first
diagnostic of the parser. -/
theorem C82_syntax (t : Ty) (s : Str) (h : ∀ d, Document.parse s ≠ .ok d) :
    ∃ a ds, Document.parseD s = .err (a :: ds) ∧ fromStrE t s = .error ⟨some a.span, a.label⟩ := by
  obtain ⟨h1, h2, h3⟩ := (C39_diagnosed s).1
  unfold fromStrE
  cases hd : Document.parseD s with
  | ok d => exact absurd ((h1 d).1 hd) (h d)
  | panic => exact absurd hd h3
  | err ds =>
    rcases ds with _ | ⟨a, ds⟩
    · exact absurd rfl (h2 _ hd)
    · exact ⟨a, ds, rfl, rfl⟩

/-- C82: for a text that is a document, an error with a place points at an entry, a node or an
identifier of the document, and its label tells which. -/
theorem C82_element (t : Ty) {s : Str} {d : Document} (hd : Document.parse s = .ok d) {e : DeError}
    (h : fromStrE t s = .error e) {sp : Span} (hsp : e.span = some sp) :
    ∃ l, e.label = some l ∧ ∃ p ∈ docParts d, Blames sp l p := by
  unfold fromStrE at h
  rw [((C39_diagnosed s).1.1 d).2 hd] at h
  rcases deE_parts t (.doc d.nodes) e h with ⟨h0, -⟩ | ⟨sp', l, rfl, p, hpm, hb⟩
  · rw [h0] at hsp; cases hsp
  · cases hsp
    refine ⟨l, rfl, p, ?_, hb⟩
    cases d with
    | mk ns f dsp =>
      rw [docParts, nodesParts_eq]
      exact List.mem_cons_of_mem _ hpm

/-- C82: an error without a place is not about a value: every other document with the same names
and the same kinds of values (null, string, other) fails as well. -/
theorem C82_unplaced (t : Ty) {s s' : Str} {d d' : Document} (hd : Document.parse s = .ok d)
    (hd' : Document.parse s' = .ok d') (hk : semDoc kind d = semDoc kind d') {e : DeError}
    (h : fromStrE t s = .error e) (hsp : e.span = none) : ∃ e', fromStrE t s' = .error e' := by
  unfold fromStrE at h ⊢
  rw [((C39_diagnosed s).1.1 d).2 hd] at h
  rw [((C39_diagnosed s').1.1 d').2 hd']
  refine deE_follows t (.doc d.nodes) (.doc d'.nodes) ?_ e h hsp
  cases d with
  | mk ns f dsp =>
    cases d' with
    | mk ns' f' dsp' =>
      simp only [semDoc, semNodes_eq_map] at hk
      simp only [LSrc.erase, Document.nodes, hk]

/-- C82: reading with errors is reading: it gives the same value, and fails on the same texts. -/
theorem C82_same {t : Ty} (ht : Proper t) (s : Str) : (fromStrE t s).toOption = fromStr t s := by
  obtain ⟨h1, h2, h3⟩ := (C39_diagnosed s).1
  unfold fromStrE fromStr
  cases hd : Document.parseD s with
  | ok d =>
    rw [(h1 d).1 hd]
    simp only
    rw [deE_erase t ht]
    congr 1
    cases d with
    | mk ns f dsp => simp only [LSrc.erase, Document.nodes, semDoc, semNodes_eq_map]
  | panic => exact absurd hd h3
  | err ds =>
    cases hp : Document.parse s with
    | ok d => rw [(h1 d).2 hp] at hd; cases hd
    | _ => rfl

/-- C82: in a document of nodes with different names, read as a struct, the error points at the
first value that does not suit its field. -/
theorem C82_partial {fs : List (Str × Ty)} (hp : Proper (.struct fs)) {s : Str} {d : Document}
    (hd : Document.parse s = .ok d) {pre post : List Node} {n : Node} {e : Entry} {t : Ty}
    (hnodes : d.nodes = pre ++ n :: post) (hnames : (d.nodes.map fun m => m.name.value).Nodup)
    (he : n.entries = [e]) (hname : e.name = none) (hch : n.children = none)
    (hf : (n.name.value, t) ∈ fs) (ht : ScalarTy t) (hv : ¬Suits t e.value)
    (hpre : ∀ m ∈ pre, ∀ t', (m.name.value, t') ∈ fs → ∃ e', m.entries = [e'] ∧ e'.name = none ∧ m.children = none ∧
      ScalarTy t' ∧ Suits t' e'.value) :
    fromStrE (.struct fs) s = .error ⟨some e.span, some "while deserializing this KDL value"⟩ := by
  have scalar : ∀ {m : Node} {a : Entry}, m.entries = [a] → a.name = none → m.children = none → m.scalarEntry = some a := by
    intro m a h1 h2 h3
    unfold Node.scalarEntry Node.argEntries Node.propEntries Node.childNodes
    simp [h1, h2, h3]
  unfold fromStrE
  rw [((C39_diagnosed s).1.1 d).2 hd]
  simp only
  rw [hnodes] at hnames ⊢
  refine struct_first hp hnames hf (refused ht (scalar he hname hch) hv) ?_
  intro m hm t' ht'
  obtain ⟨a, h1, h2, h3, h4, h5⟩ := hpre m hm t' ht'
  exact accepted h4 (scalar h1 h2 h3) h5

/-- C82: whatever is wrong with the value of a property has the property as its place, for every
type, also if it is to be a variant of an enum. -/
theorem C82_property {s : Str} {d : Document} (hd : Document.parse s = .ok d) {n : Node} {e : Entry} {p : Ident}
    (hn : d.nodes = [n]) (he : n.entries = [e]) (hname : e.name = some p) (hch : n.children = none)
    (hp : p.value.head? ≠ some '#') (t : Ty) (vs : List (Str × VTy)) (err : DeError) :
    (fromStrE (.struct [(n.name.value, .struct [(p.value, t)])]) s = .error err → err.span = some e.span) ∧
    (fromStrE (.struct [(n.name.value, .enum vs)]) s = .error err → err.span = some e.span) := by
  unfold fromStrE
  rw [((C39_diagnosed s).1.1 d).2 hd]
  simp only [hn]
  exact ⟨oneNode_at rfl (single_struct he hname hch hp) err, oneNode_at rfl (single_enum he hname hch) err⟩

end

/-! ### Cases -/

section
attribute [local instance] rustFloatIO rustFloatCast

/-- `struct Config { port: u16 }`, as in the test `error_span_and_diagnostic`. -/
def portTy : Ty := .struct [(['p', 'o', 'r', 't'], .int 0 65535 false)]

/-- The test: the error points at `nope`. -/
theorem C82_example :
    fromStrE portTy ['p', 'o', 'r', 't', ' ', 'n', 'o', 'p', 'e'] =
      .error ⟨some ⟨5, 4⟩, some "while deserializing this KDL value"⟩ := by krfl

/-- C82 is violated: for a node without a value where a number is wanted, the error has no
place. -/
theorem C82_violated_empty : fromStrE portTy ['p', 'o', 'r', 't'] = .error ⟨none, none⟩ := by krfl

/-- C82 is violated: neither has the error about a node with two values, … -/
theorem C82_violated_two : fromStrE portTy ['p', 'o', 'r', 't', ' ', '1', ' ', '2'] = .error ⟨none, none⟩ := by krfl

/-- … the one about a node that occurs twice, … -/
theorem C82_violated_twice :
    fromStrE portTy ['p', 'o', 'r', 't', ' ', '1', '\n', 'p', 'o', 'r', 't', ' ', '2'] = .error ⟨none, none⟩ := by krfl

/-- … the one about a missing node. -/
theorem C82_violated_missing : fromStrE portTy ['x', ' ', '1'] = .error ⟨none, none⟩ := by krfl

/-- A case of `C82_syntax`: the place and the label of the first diagnostic. -/
theorem C82_example_syntax :
    fromStrE portTy ['p', 'o', 'r', 't', ' ', 'i', 'n', 'f'] =
      .error ⟨some ⟨5, 3⟩, some "not identifier string"⟩ := by krfl

/-- `struct Config { host: String, port: u16 }`. -/
def hostTy : Ty := .struct [(['h', 'o', 's', 't'], .str), (['p', 'o', 'r', 't'], .int 0 65535 false)]

/-- A case of `C82_partial`: the first value suits its field, the second is too large, and the
third, which no field asks for, does not matter. -/
theorem C82_example_first :
    (∃ d pre n post e, Document.parse "host a\nport 65536\nx y z".toList = .ok d ∧ d.nodes = pre ++ n :: post ∧
      (d.nodes.map fun m => m.name.value).Nodup ∧ n.entries = [e] ∧ e.name = none ∧ n.children = none ∧
      (∃ i, e.value = .integer i ∧ i.1 = 65536) ∧ pre.map (fun m => m.entries.map Entry.value) = [[.string ['a']]]) ∧
    fromStrE hostTy "host a\nport 65536\nx y z".toList =
      .error ⟨some ⟨12, 5⟩, some "while deserializing this KDL value"⟩ := by
  refine ⟨?_, by krfl⟩
  cases h : Document.parse "host a\nport 65536\nx y z".toList with
  | ok d =>
    have hd : (match Document.parse "host a\nport 65536\nx y z".toList with
      | .ok d => d.nodes.map (fun m => (m.name.value, m.entries.map (fun e => (e.value, e.name.isNone)), m.children.isNone))
      | _ => []) = [(['h', 'o', 's', 't'], [(.string ['a'], true)], true),
        (['p', 'o', 'r', 't'], [(.integer ⟨65536, by decide⟩, true)], true),
        (['x'], [(.string ['y'], true), (.string ['z'], true)], true)] := by krfl
    rw [h] at hd
    simp only at hd
    rcases hn : d.nodes with _ | ⟨a, _ | ⟨b, _ | ⟨c, _ | ⟨x, l⟩⟩⟩⟩ <;> rw [hn] at hd <;>
      simp only [List.map_cons, List.map_nil, List.cons.injEq, Prod.mk.injEq, reduceCtorEq, and_false, and_true] at hd
    obtain ⟨⟨ha1, ha2, ha3⟩, ⟨hb1, hb2, hb3⟩, ⟨hc1, hc2, hc3⟩⟩ := hd
    rcases hbe : b.entries with _ | ⟨e, _ | ⟨e', es⟩⟩ <;> rw [hbe] at hb2 <;>
      simp only [List.map_cons, List.map_nil, List.cons.injEq, Prod.mk.injEq, reduceCtorEq, and_false, and_true] at hb2
    refine ⟨d, [a], b, [c], e, rfl, hn, ?_, hbe, Option.isNone_iff_eq_none.1 hb2.2, Option.isNone_iff_eq_none.1 hb3,
      ⟨_, hb2.1, rfl⟩, ?_⟩
    · rw [hn]
      simp [ha1, hb1, hc1]
    · have := congrArg (List.map Prod.fst) ha2
      simpa using this
  | _ =>
    exfalso
    have hd : (match Document.parse "host a\nport 65536\nx y z".toList with
      | .ok _ => true
      | _ => false) = true := by krfl
    rw [h] at hd
    cases hd

/-- A case of `C82_unplaced`: two values where one is wanted, whatever they are. -/
theorem C82_example_unplaced :
    (match Document.parse "port 1 2".toList with
     | .ok d => semDoc kind d
     | _ => []) = [.mk none ['p', 'o', 'r', 't'] [⟨none, none, .bool true⟩, ⟨none, none, .bool true⟩] none] ∧
    (match Document.parse "port 70000 #true".toList with
     | .ok d => semDoc kind d
     | _ => []) = [.mk none ['p', 'o', 'r', 't'] [⟨none, none, .bool true⟩, ⟨none, none, .bool true⟩] none] ∧
    fromStrE portTy "port 1 2".toList = .error ⟨none, none⟩ ∧
    fromStrE portTy "port 70000 #true".toList = .error ⟨none, none⟩ := ⟨by krfl, by krfl, by krfl, by krfl⟩

/-- A case of `C82_property`: the value of a property cannot be a tuple variant. -/
theorem C82_example_property :
    fromStrE (.struct [(['n'], .enum [(['p'], .tuple [.str, .str])])]) "n p=1".toList =
      .error ⟨some ⟨2, 3⟩, some "while deserializing this KDL property"⟩ ∧
    fromStrE (.struct [(['n'], .struct [(['p'], .tuple [.str, .str])])]) "n p=1".toList =
      .error ⟨some ⟨2, 3⟩, some "while deserializing this KDL value"⟩ := ⟨by krfl, by krfl⟩

end

end Kdl
