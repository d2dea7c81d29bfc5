import Verif
/-
The upstream test suite `/repo/tests/test_cases`, run on the model in the way `/repo/tests/compliance.rs`
runs it on the code: texts with an expected output are parsed and printed by
`autoformat_no_comments` after dropping overridden properties and empty children blocks; the others
are errors. Run with `lake env lean --run ../validation/Suite.lean.txt` from `lean/`.

These are tests of the model, not proofs: they check that it describes the code. `LOSSY` lines
are the inputs that are not printed back unchanged (C01), `ACCEPTED` lines the inputs that upstream
lists as errors but does not check (see `compliance.rs`).
-/
open Kdl

instance : FloatIO := rustFloatIO

partial def dedupe (es : List Entry) : List Entry :=
  match es with
  | [] => []
  | e :: r => match e.name with
    | some n => if r.any (fun e' => match e'.name with | some n' => n'.eq n | none => false) then dedupe r else e :: dedupe r
    | none => e :: dedupe r

partial def norm (d : Document) : Document :=
  .mk (d.nodes.map fun n => .mk n.ty n.name (dedupe n.entries)
    (match n.children with
     | some c => if c.nodes.isEmpty then none else some (norm c)
     | none => none) n.format n.span) d.format d.span

def main (_ : List String) : IO UInt32 := do
  let dir := "/repo/tests/test_cases"
  let mut bad := 0
  let mut okc := 0
  for f in ← System.FilePath.readDir (dir ++ "/input") do
    let src ← try IO.FS.readFile f.path catch _ => pure "(" 
    let src := src.replace "\r\n" "\n"
    let exp : System.FilePath := dir ++ "/expected_kdl/" ++ f.fileName
    let res := Document.parse src.toList
    let hasExp ← exp.pathExists
    match res with
    | .ok d =>
      -- lossless check
      let pr := String.ofList d.display
      if pr != src then IO.println s!"LOSSY {f.fileName}: {repr src} -> {repr pr}"
      if hasExp then
        let e := (← IO.FS.readFile exp).replace "\r\n" "\n"
        let a := String.ofList (norm d.autoformatNoComments).display
        if a != e then
          bad := bad + 1
          IO.println s!"MISMATCH {f.fileName}: expected {repr e} got {repr a}"
        else okc := okc + 1
      else IO.println s!"ACCEPTED (no expected) {f.fileName}"
    | .err =>
      if hasExp then
        bad := bad + 1
        IO.println s!"REJECT {f.fileName}: {repr src}"
      else okc := okc + 1
    | .panic =>
      IO.println s!"PANIC {f.fileName}"
      bad := bad + 1
  IO.println s!"ok {okc} bad {bad}"
  return 0
