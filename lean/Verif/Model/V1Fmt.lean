import Verif.Model.Fmt
/-
`autoformat` as it is compiled with the feature `v1`: an entry that is kept is brought into
v2 form. Everything else is as in `Model/Fmt.lean`.
-/

namespace Kdl
variable [FloatIO]

/-- `src/entry.rs:173-196` `autoformat` with the feature `v1`. -/
def Entry.autoformatV1 (e : Entry) : Entry :=
  let fmt :=
    match e.format with
    | some f =>
      if f.autoformatKeep then
        match e.ensureV2.format with
        | some f' => some { valueRepr := f'.valueRepr, leading := f'.leading }
        | none => none
      else none
    | none => none
  { e with format := fmt, name := e.name.map Ident.autoformat }

/-- `src/node.rs:311-316` with the feature `v1`. -/
def autoformatEntryV1 (c : FormatConfig) (e : Entry) : Entry :=
  (if c.entryKeep then e.keepFormat else e).autoformatV1

mutual
/-- `src/node.rs:277-330` `autoformat_config` with the feature `v1`. -/
def Node.autoformatConfigV1 (c : FormatConfig) : Node → Node
  | .mk ty name entries children format span =>
    .mk (ty.map Ident.clearFormat) name.clearFormat (entries.map (autoformatEntryV1 c))
      (autoformatOptDocV1 c children) (some (autoformatNodeFmt c format)) span
/-- `src/node.rs:317-329` with the feature `v1`. -/
def autoformatOptDocV1 (c : FormatConfig) : Option Document → Option Document
  | none => none
  | some d =>
    let d' := d.autoformatConfigV1 { c with indentLevel := c.indentLevel + 1 }
    some (.mk d'.nodes (d'.format.map (autoformatChildFmt c)) d'.span)
/-- `src/document.rs:253-268` `autoformat_config` with the feature `v1`. -/
def Document.autoformatConfigV1 (c : FormatConfig) : Document → Document
  | .mk nodes format span =>
    .mk (autoformatNodesV1 c nodes) (format.map (autoformatDocFmt c (!nodes.isEmpty))) span
/-- `src/document.rs:258-261` with the feature `v1`. -/
def autoformatNodesV1 (c : FormatConfig) : List Node → List Node
  | [] => []
  | n :: ns => n.autoformatConfigV1 c :: autoformatNodesV1 c ns
end

end Kdl
