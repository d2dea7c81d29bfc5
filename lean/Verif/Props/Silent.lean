import Verif.Props.Roundtrip
import Verif.Props.Reprint
/-
C74: what is printed is read as the same data or rejected.
-/

namespace Kdl
open Spec

section
variable [FloatIO] [LawfulFloatIO]

/-- **C74** for built documents: an accepted text has the same data. -/
theorem C74_built {d d' : Document} (h : BuiltDoc d) (hp : Document.parse d.display = .ok d') :
    semDoc canonValue d' = semDoc canonValue d := by
  rcases C10_exact h with ⟨_, d2, h2, h3⟩ | ⟨_, h2⟩
  · rw [hp] at h2
    cases h2
    exact h3
  · rw [hp] at h2
    cases h2

/-- **C74** for built documents after formatting with any configuration that does not keep entries. -/
theorem C74_built_formatted {d d' : Document} (h : BuiltDoc d) {c : FormatConfig} (hk : c.entryKeep = false)
    (hi : ∀ x ∈ c.indent, Space x) (hp : Document.parse (d.autoformatConfig c).display = .ok d') :
    semDoc canonValue d' = semDoc canonValue d := by
  rcases C14_built_exact h hk hi with ⟨_, d2, h2, h3⟩ | ⟨_, h2⟩
  · rw [hp] at h2
    cases h2
    exact h3
  · rw [hp] at h2
    cases h2

/-- **C74** for parsed documents after formatting without comments. -/
theorem C74_formatted {s : Str} {d d' : Document} (h : Document.parse s = .ok d) {c : FormatConfig}
    (hn : c.noComments = true) (hk : c.entryKeep = false) (hi : ∀ x ∈ c.indent, Space x)
    (hp : Document.parse (d.autoformatConfig c).display = .ok d') : semDoc canonValue d' = semDoc canonValue d := by
  rcases C14_no_comments_exact h hn hk hi with ⟨_, d2, h2, h3⟩ | ⟨_, h2⟩
  · rw [hp] at h2
    cases h2
    exact h3
  · rw [hp] at h2
    cases h2

/-- **C74** for serialised values. -/
theorem C74_serialised [FloatKey] {v : SVal} {text : Str} {d' : Document} (h : seToString v = some text)
    (hp : Document.parse text = .ok d') : ∃ d, toDocument v = some d ∧ semDoc canonValue d' = semDoc canonValue d := by
  obtain ⟨d, hd, ⟨_, d2, h2, h3⟩ | ⟨_, h2⟩⟩ := C49_exact h
  · rw [hp] at h2
    cases h2
    exact ⟨d, hd, h3⟩
  · rw [hp] at h2
    cases h2

/-- **C74** for values. -/
theorem C74_value {v : Value} {e : Entry} (hp : Entry.parse v.display = .ok e) :
    Value.eq e.value v = true ∧ e.name = none ∧ e.ty = none := by
  by_cases hw : WritableValue v
  · obtain ⟨e', h1, _, h2⟩ := (C08_value_partial v).1 hw
    rw [hp] at h1
    cases h1
    exact h2
  · rw [(C08_value_partial v).2 hw] at hp
    cases hp

omit [LawfulFloatIO] in
/-- **C74** for identifiers. -/
theorem C74_identifier {s : Str} {i : Ident} (hp : Ident.parse (Ident.ofStr s).display = .ok i) : i.value = s := by
  by_cases hw : Writable s
  · obtain ⟨i', h1, h2⟩ := (C09_identifier_partial s).1 hw
    rw [hp] at h1
    cases h1
    exact h2
  · rw [(C09_identifier_partial s).2 hw] at hp
    cases hp

/-- **C74** for built entries whose value was changed. -/
theorem C74_entry {e e' : Entry} (h : BuiltEntry e) {v : Value} (hp : Entry.parse (e.setValue v).display = .ok e') :
    Value.eq e'.value v = true ∧ e'.name.map Ident.value = e.name.map Ident.value ∧
      e'.ty.map Ident.value = e.ty.map Ident.value := by
  rcases C34_built_exact h v with ⟨_, e2, h2, h3⟩ | ⟨_, h2⟩
  · rw [hp] at h2
    cases h2
    exact h3
  · rw [hp] at h2
    cases h2

end

/-- A built document with a name of digits and one with spaces, which is accepted. -/
example [FloatIO] : ∃ d d' : Document, BuiltDoc d ∧ d.display = "\"1\" \"a b\"=\"-1\"\n".toList ∧
    Document.parse d.display = .ok d' := by
  obtain ⟨d', h, _⟩ := ParseResult.holds_ok (r := Document.parse "\"1\" \"a b\"=\"-1\"\n".toList) (f := fun _ => true) (by krfl)
  exact ⟨_, d', .push .new (.push (.new ['1']) (.newProp "a b".toList (.string ['-', '1']))), by krfl, h⟩

end Kdl
