import Verif.Model.Api
import Verif.Model.Fmt
import Verif.Model.Parser.Grammar
import Verif.Spec.Keep
import Verif.Spec.Strings
/-
Documents made in any way through the API, without writing formatting texts: parsed,
built, taken apart, put together again, edited and formatted.
-/

namespace Kdl.Spec

section
variable [FloatIO]

omit [FloatIO] in
/-- A formatter configuration that keeps no representation of values and whose indent is
KDL white space. -/
def PlainConfig (c : FormatConfig) : Prop := c.entryKeep = false ∧ ∀ x ∈ c.indent, Space x

mutual
/-- Identifiers without recorded text, parsed ones, and the annotations of entries. -/
inductive MadeIdent : Ident → Prop
  | plain {i : Ident} (h : i.repr = none) : MadeIdent i
  | parse {s : Str} {i : Ident} (h : Ident.parse s = .ok i) : MadeIdent i
  | ty {e : Entry} {i : Ident} (h : MadeEntry e) (hi : e.ty = some i) : MadeIdent i
/-- Entries that are new, parsed, or taken from a node, and what `set_value`, `set_ty`,
`set_name`, `clear_format`, `autoformat` and `ensure_v2` make of them. -/
inductive MadeEntry : Entry → Prop
  | new (v : Value) : MadeEntry (.new v)
  | newProp (k : Ident) (v : Value) : MadeEntry (.newProp k v)
  | parse {s : Str} {e : Entry} (h : Entry.parse s = .ok e) : MadeEntry e
  | of {n : Node} {e : Entry} (h : MadeNode n) (he : e ∈ n.entries) : MadeEntry e
  | setValue {e : Entry} (h : MadeEntry e) (v : Value) : MadeEntry (e.setValue v)
  | setTy {e : Entry} {i : Ident} (h : MadeEntry e) (hi : MadeIdent i) : MadeEntry (e.setTy i)
  | setName {e : Entry} (h : MadeEntry e) (k : Option Ident) : MadeEntry (e.setName k)
  | clearFormat {e : Entry} (h : MadeEntry e) : MadeEntry e.clearFormat
  | autoformat {e : Entry} (h : MadeEntry e) : MadeEntry e.autoformat
  | ensureV2 {e : Entry} (h : MadeEntry e) : MadeEntry e.ensureV2
/-- Nodes that are new, parsed (without slashdashes, and with no comment after the
terminator), or taken from a document, and what the API makes of them. The vector of
entries can be replaced by any other (`entries_mut`), which covers `push`, `insert`,
`remove`, `retain` and `clear`. -/
inductive MadeNode : Node → Prop
  | new (name : Ident) : MadeNode (.new name)
  | parse {s : Str} {n : Node} (h : Node.parse s = .ok n) (hs : ∀ t ∈ nodeNotes n, ¬ ['/', '-'] <:+: t)
      (ht : ∀ f, n.format = some f → ∀ c ∈ f.trailing, isWhitespace c = true) : MadeNode n
  | of {d : Document} {n : Node} (h : MadeDoc d) (hn : n ∈ d.nodes) : MadeNode n
  | setName {n : Node} (h : MadeNode n) (i : Ident) : MadeNode (n.setName i)
  | setTy {n : Node} (h : MadeNode n) (i : Ident) : MadeNode (n.setTy i)
  | setEntries {n : Node} {es : List Entry} (h : MadeNode n) (he : ∀ e ∈ es, MadeEntry e) : MadeNode (n.setEntries es)
  | setChildren {n : Node} {d : Document} (h : MadeNode n) (hd : MadeDoc d) : MadeNode (n.setChildren d)
  | clearChildren {n : Node} (h : MadeNode n) : MadeNode n.clearChildren
  | ensureChildren {n : Node} (h : MadeNode n) : MadeNode n.ensureChildren
  | clearFormat {n : Node} (h : MadeNode n) : MadeNode n.clearFormat
  | clearFormatRecursive {n : Node} (h : MadeNode n) : MadeNode n.clearFormatRecursive
  | autoformat {n : Node} {c : FormatConfig} (h : MadeNode n) (hc : PlainConfig c) : MadeNode (n.autoformatConfig c)
  | ensureV2 {n : Node} (h : MadeNode n) : MadeNode n.ensureV2
/-- Documents that are new, parsed (without slashdashes between nodes and without a byte
order mark), or the children of a node, and what the API makes of them. The vector of
nodes can be replaced by any other (`nodes_mut`). -/
inductive MadeDoc : Document → Prop
  | new : MadeDoc .new
  | parse {s : Str} {d : Document} (h : Document.parse s = .ok d) (hs : ∀ t ∈ docNotes d, ¬ ['/', '-'] <:+: t)
      (hb : ∀ q, s ≠ Char.ofNat 0xFEFF :: q) : MadeDoc d
  | of {n : Node} {d : Document} (h : MadeNode n) (hd : n.children = some d) : MadeDoc d
  | setNodes {d : Document} {ns : List Node} (h : MadeDoc d) (hn : ∀ n ∈ ns, MadeNode n) : MadeDoc (.mk ns d.format d.span)
  | clearFormat {d : Document} (h : MadeDoc d) : MadeDoc d.clearFormat
  | clearFormatRecursive {d : Document} (h : MadeDoc d) : MadeDoc d.clearFormatRecursive
  | autoformat {d : Document} {c : FormatConfig} (h : MadeDoc d) (hc : PlainConfig c) : MadeDoc (d.autoformatConfig c)
  | ensureV2 {d : Document} (h : MadeDoc d) : MadeDoc d.ensureV2
end

end

end Kdl.Spec
