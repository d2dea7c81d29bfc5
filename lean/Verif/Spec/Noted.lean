import Verif.Spec.Layout
import Verif.Spec.Keep
/-
What formatted text looks like if comments are kept: the lines of `Spec/Layout.lean`
with the lines of the comments among them. The comments are those in front of nodes,
between a node and its terminator, at the end of a block or document, and in a block
or document without nodes; all others are gone.
-/

namespace Kdl.Spec

/-- The comments of a text that has lines of its own. -/
def noteLines (nc : Bool) (t : Str) : List Str := if nc then [] else visible t

/-- The comments of a text that follows a node. -/
def endLines (nc : Bool) (t : Str) : List Str := if nc then [] else lines (trim t)

/-- Comments in front of something at depth `k`: every line is indented like it. -/
def frontLines (nc : Bool) (ind : Str) (k : Nat) (t : Str) : List Str := (noteLines nc t).map (deep ind k ++ ·)

/-- How comments are put beside nodes and braces. -/
structure NoteStyle where
  /-- The last line of a node, and the comments behind the node. -/
  close : Str → Str → Nat → List Str → List Str
  /-- The line with the opening brace of a block without nodes, and the comments in the block at depth `k`. -/
  opened : Str → Str → Nat → List Str → List Str
  /-- The comments behind the last node of a document or block at depth `k`. -/
  last : Str → Nat → List Str → List Str

/-- Comments on lines of their own are indented like nodes; a comment behind a node stays on the line of the node. -/
def NoteStyle.aligned : NoteStyle where
  close := fun line ind k ls => match ls with
    | [] => [line]
    | l :: ls => (line ++ ' ' :: l) :: ls.map (deep ind k ++ trim ·)
  opened := fun line ind k ls => line :: ls.map (deep ind k ++ ·)
  last := fun ind k ls => ls.map (deep ind k ++ trim ·)

/-- What the library does: an empty line after a comment behind a node; the first comment in a block without nodes
directly behind the brace; the first line of the comments behind the last node indented by one space, whatever
the depth, and their other lines as they were. -/
def NoteStyle.actual : NoteStyle where
  close := fun line _ _ ls => match ls with
    | [] => [line]
    | l :: ls => (line ++ ' ' :: l) :: ls ++ [[]]
  opened := fun line ind k ls => match ls with
    | [] => [line]
    | l :: ls => (line ++ l) :: ls.map (deep ind k ++ ·)
  last := fun _ _ ls => match ls with
    | [] => []
    | l :: ls => (' ' :: l) :: ls

section
variable [FloatIO]

/-- An entry, its annotation replaced by the text of the annotation. -/
def shownEntry (show_ : Ident → Str) (e : Entry) : SEntry Value := ⟨e.ty.map show_, e.name.map Ident.value, e.value⟩

mutual
/-- The lines of a node at depth `k`. -/
def notedNode (σ : NoteStyle) (nc : Bool) (q : Ident → Str) (ind : Str) (k : Nat) : Node → List Str
  | .mk ty name es none f _ =>
    frontLines nc ind k ((f.map (·.leading)).getD []) ++
      σ.close (layHead id ind k (ty.map Ident.value) name.value (es.map (shownEntry q))) ind k
        (endLines nc ((f.map (·.beforeTerminator)).getD []))
  | .mk ty name es (some d) f _ =>
    frontLines nc ind k ((f.map (·.leading)).getD []) ++
      notedBlock σ nc q ind (k + 1) (layHead id ind k (ty.map Ident.value) name.value (es.map (shownEntry q)) ++ [' ', '{']) d ++
      σ.close (deep ind k ++ ['}']) ind k (endLines nc ((f.map (·.beforeTerminator)).getD []))
/-- The lines of a block with nodes at depth `k`, without the closing brace; `first` is
the line with the opening brace. -/
def notedBlock (σ : NoteStyle) (nc : Bool) (q : Ident → Str) (ind : Str) (k : Nat) (first : Str) : Document → List Str
  | .mk [] f _ => σ.opened first ind k (noteLines nc ((f.map (·.leading)).getD [])) ++ [[]]
  | .mk (n :: ns) f _ =>
    first :: notedNode σ nc q ind k n ++ notedNodes σ nc q ind k ns ++ σ.last ind k (endLines nc ((f.map (·.trailing)).getD []))
/-- The lines of further nodes. -/
def notedNodes (σ : NoteStyle) (nc : Bool) (q : Ident → Str) (ind : Str) (k : Nat) : List Node → List Str
  | [] => []
  | n :: ns => notedNode σ nc q ind k n ++ notedNodes σ nc q ind k ns
end

/-- The lines of a document; without nodes there is an empty line. -/
def notedBody (σ : NoteStyle) (nc : Bool) (q : Ident → Str) (ind : Str) (k : Nat) : Document → List Str
  | .mk [] _ _ => [[]]
  | .mk (n :: ns) f _ => notedNodes σ nc q ind k (n :: ns) ++ σ.last ind k (endLines nc ((f.map (·.trailing)).getD []))

end

mutual
/-- The comments that are kept beside a node or a brace instead of in front of a node: behind a node on its line, behind
the last node of a block, and in a block without nodes. -/
def besideNode (nc : Bool) : Node → List (List Str)
  | .mk _ _ _ ch f _ => endLines nc ((f.map (·.beforeTerminator)).getD []) :: besideOpt nc ch
/-- As above, for children. -/
def besideOpt (nc : Bool) : Option Document → List (List Str)
  | none => []
  | some (.mk [] f _) => [noteLines nc ((f.map (·.leading)).getD [])]
  | some (.mk (n :: ns) f _) => besideNode nc n ++ besideNodes nc ns ++ [endLines nc ((f.map (·.trailing)).getD [])]
/-- As above, for lists of nodes. -/
def besideNodes (nc : Bool) : List Node → List (List Str)
  | [] => []
  | n :: ns => besideNode nc n ++ besideNodes nc ns
end

/-- As above, for documents. -/
def besideDoc (nc : Bool) : Document → List (List Str)
  | .mk [] _ _ => []
  | .mk (n :: ns) f _ => besideNodes nc (n :: ns) ++ [endLines nc ((f.map (·.trailing)).getD [])]

/-- Comments behind the last node of a block at depth `k` that happen to be indented like its nodes: the
indentation is one space, no line ends with white space, and all but the first were indented by one space. -/
def Flush (ind : Str) (k : Nat) : List Str → Prop
  | [] => True
  | l :: ls => deep ind k = [' '] ∧ trim l = l ∧ ∀ m ∈ ls, m = ' ' :: trim m

mutual
/-- No comment is kept between a node and the end of its line or in a block without nodes, and those behind
the last node of a block happen to be indented like nodes. The node is at depth `k`. -/
def FlushNode (nc : Bool) (ind : Str) (k : Nat) : Node → Prop
  | .mk _ _ _ ch f _ => endLines nc ((f.map (·.beforeTerminator)).getD []) = [] ∧ FlushOpt nc ind (k + 1) ch
/-- As above, for children at depth `k`. -/
def FlushOpt (nc : Bool) (ind : Str) (k : Nat) : Option Document → Prop
  | none => True
  | some (.mk [] f _) => noteLines nc ((f.map (·.leading)).getD []) = []
  | some (.mk (n :: ns) f _) => FlushNode nc ind k n ∧ FlushNodes nc ind k ns ∧ Flush ind k (endLines nc ((f.map (·.trailing)).getD []))
/-- As above, for lists of nodes. -/
def FlushNodes (nc : Bool) (ind : Str) (k : Nat) : List Node → Prop
  | [] => True
  | n :: ns => FlushNode nc ind k n ∧ FlushNodes nc ind k ns
end

/-- As above, for documents. -/
def FlushDoc (nc : Bool) (ind : Str) (k : Nat) : Document → Prop
  | .mk [] _ _ => True
  | .mk (n :: ns) f _ => FlushNodes nc ind k (n :: ns) ∧ Flush ind k (endLines nc ((f.map (·.trailing)).getD []))

end Kdl.Spec
