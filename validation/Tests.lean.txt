import Verif
/-
The unit tests of the crate, run on the model. Each group names the test of `/repo/src` that it
translates. Run with `lake env lean --run ../validation/Tests.lean.txt` from `lean/`.

These are tests of the model, not proofs: they check that it describes the code.
-/
open Kdl

instance : FloatIO := rustFloatIO
instance : FloatCast := rustFloatCast
instance : FloatKey := ⟨fun _ => []⟩

abbrev Check := String × Bool

def doc? (s : String) : Option Document := match Document.parse s.toList with | .ok d => some d | _ => none
def node? (s : String) : Option Node := match Node.parse s.toList with | .ok d => some d | _ => none
def entry? (s : String) : Option Entry := match Entry.parse s.toList with | .ok d => some d | _ => none
def ident? (s : String) : Option Ident := match Ident.parse s.toList with | .ok d => some d | _ => none

def runP {α : Type} (p : P α) (s : String) : Option α :=
  match p s.toList with | .ok a [] => some a | _ => none

def int (i : Int) : Value := if h : i128Min ≤ i ∧ i ≤ i128Max then .integer ⟨i, h⟩ else .null
def str (s : String) : Value := .string s.toList
def flt (s : String) : Value := .float (readFloat s.toList)
def optValEq : Option Value → Option Value → Bool
  | some a, some b => a.eq b
  | none, none => true
  | _, _ => false
def has (s p : String) : Bool := containsStr s.toList p.toList

/-! ### serde -/

def sint (i : Int) : SVal := if h : -(2 ^ 63) ≤ i ∧ i < 2 ^ 64 then .int ⟨i, h⟩ else .unit
def sstr (s : String) : SVal := .str s.toList
def flds {α : Type} (l : List (String × α)) : List (Str × α) := l.map fun p => (p.1.toList, p.2)
def sstruct (l : List (String × SVal)) : SVal := .struct (flds l)
def tstruct (l : List (String × Ty)) : Ty := .struct (flds l)
def u8 : Ty := .int 0 (2 ^ 8 - 1) false
def u16 : Ty := .int 0 (2 ^ 16 - 1) false
def u32 : Ty := .int 0 (2 ^ 32 - 1) false
def u64 : Ty := .int 0 (2 ^ 64 - 1) false
def i8 : Ty := .int (-(2 ^ 7)) (2 ^ 7 - 1) false
def i16 : Ty := .int (-(2 ^ 15)) (2 ^ 15 - 1) false
def i32 : Ty := .int (-(2 ^ 31)) (2 ^ 31 - 1) false
def i64 : Ty := .int (-(2 ^ 63)) (2 ^ 63 - 1) false

partial def seq : SVal → SVal → Bool
  | .bool a, .bool b => a == b
  | .int a, .int b => a.1 == b.1
  | .int128 a, .int128 b => a == b
  | .f64 a, .f64 b => a == b
  | .char a, .char b => a == b
  | .str a, .str b => a == b
  | .none, .none | .unit, .unit => true
  | .some a, .some b | .newtypeStruct a, .newtypeStruct b => seq a b
  | .unitStruct a, .unitStruct b => a == b
  | .unitVariant a, .unitVariant b => a == b
  | .newtypeVariant a v, .newtypeVariant b w => a == b && seq v w
  | .seq a, .seq b | .tuple a, .tuple b | .tupleStruct a, .tupleStruct b => all a b
  | .tupleVariant k a, .tupleVariant l b => k == l && all a b
  | .map a, .map b => all (a.map (·.1)) (b.map (·.1)) && all (a.map (·.2)) (b.map (·.2))
  | .struct a, .struct b => a.map (·.1) == b.map (·.1) && all (a.map (·.2)) (b.map (·.2))
  | .structVariant k a, .structVariant l b =>
    k == l && a.map (·.1) == b.map (·.1) && all (a.map (·.2)) (b.map (·.2))
  | _, _ => false
where all (a b : List SVal) : Bool := a.length == b.length && (a.zip b).all fun p => seq p.1 p.2

def deIs (t : Ty) (s : String) (v : SVal) : Bool :=
  match fromStr t s.toList with | some w => seq w v | none => false

def server : Ty := tstruct [("server", tstruct [("host", .str), ("port", u16)])]
def serverV : SVal := sstruct [("server", sstruct [("host", sstr "localhost"), ("port", sint 8080)])]
def flagTy : Ty := tstruct [("server", tstruct [("host", .str), ("active", .bool)])]
def flagV (b : Bool) : SVal := sstruct [("server", sstruct [("host", sstr "localhost"), ("active", .bool b)])]

/-- `src/de.rs:1534-2220`. -/
def deTests : List Check := [
  ("de simple_struct", deIs (tstruct [("name", .str), ("port", u16)]) "\nname \"my-app\"\nport 8080\n"
    (sstruct [("name", sstr "my-app"), ("port", sint 8080)])),
  ("de nested_struct", deIs server "\nserver {\n    host \"localhost\"\n    port 8080\n}\n" serverV),
  ("de node_with_properties", deIs server "server host=\"localhost\" port=8080" serverV),
  ("de sequence_of_args", deIs (tstruct [("values", .seq i32)]) "values 1 2 3"
    (sstruct [("values", .seq [sint 1, sint 2, sint 3])])),
  ("de repeated_nodes_as_seq", deIs (tstruct [("route", .seq .str)])
    "\nroute \"/api/users\"\nroute \"/api/posts\"\nroute \"/api/comments\"\n"
    (sstruct [("route", .seq [sstr "/api/users", sstr "/api/posts", sstr "/api/comments"])])),
  ("de boolean_and_null", deIs (tstruct [("enabled", .bool), ("disabled", .bool), ("nothing", .option .str)])
    "\nenabled #true\ndisabled #false\nnothing #null\n"
    (sstruct [("enabled", .bool true), ("disabled", .bool false), ("nothing", .none)])),
  ("de option_some", deIs (tstruct [("name", .option .str)]) "name \"hello\"" (sstruct [("name", .some (sstr "hello"))])),
  ("de float_values", deIs (tstruct [("ratio", .f64)]) "ratio 3.14"
    (sstruct [("ratio", .f64 ⟨⟨0x40091EB851EB851F, by decide⟩⟩)])),
  ("de enum_unit_variant", deIs (tstruct [("color", .enum (flds [("Red", .unit), ("Green", .unit), ("Blue", .unit)]))])
    "color \"Red\"" (sstruct [("color", .unitVariant "Red".toList)])),
  ("de deeply_nested", deIs (tstruct [("level1", tstruct [("level2", tstruct [("value", i32)])])])
    "\nlevel1 {\n    level2 {\n        value 42\n    }\n}\n"
    (sstruct [("level1", sstruct [("level2", sstruct [("value", sint 42)])])])),
  ("de children_as_seq", deIs (tstruct [("items", tstruct [("item", .seq (tstruct [("name", .str)]))])])
    "\nitems {\n    item {\n        name \"a\"\n    }\n    item {\n        name \"b\"\n    }\n}\n"
    (sstruct [("items", sstruct [("item", .seq [sstruct [("name", sstr "a")], sstruct [("name", sstr "b")]])])])),
  ("de mixed_props_and_children", deIs (tstruct [("server", tstruct [("host", .str), ("port", u16),
      ("routes", tstruct [("path", .seq .str)])])])
    "\nserver host=\"localhost\" port=8080 {\n    routes {\n        path \"/a\"\n        path \"/b\"\n    }\n}\n"
    (sstruct [("server", sstruct [("host", sstr "localhost"), ("port", sint 8080),
      ("routes", sstruct [("path", .seq [sstr "/a", sstr "/b"])])])])),
  ("de empty_document", deIs (tstruct []) "" (sstruct [])),
  ("de hashmap", deIs (.map i32) "\nalpha 1\nbeta 2\ngamma 3\n"
    (.map [(sstr "alpha", sint 1), (sstr "beta", sint 2), (sstr "gamma", sint 3)])),
  ("de newtype_struct", deIs (tstruct [("port", .newtype u16)]) "port 8080"
    (sstruct [("port", .newtypeStruct (sint 8080))])),
  ("de integer_types", deIs (tstruct [("a", i8), ("b", i16), ("c", i32), ("d", i64), ("e", u8), ("f", u16),
      ("g", u32), ("h", u64)])
    "\na 1\nb 2\nc 3\nd 4\ne 5\nf 6\ng 7\nh 8\n"
    (sstruct [("a", sint 1), ("b", sint 2), ("c", sint 3), ("d", sint 4), ("e", sint 5), ("f", sint 6),
      ("g", sint 7), ("h", sint 8)])),
  ("de rename_props", deIs (tstruct [("server", tstruct [("#@host", .str), ("#@port", u16)])])
    "server host=localhost port=8080"
    (sstruct [("server", sstruct [("#@host", sstr "localhost"), ("#@port", sint 8080)])])),
  ("de rename_args", deIs (tstruct [("server", tstruct [("#type", .str),
      ("#0#type", .enum (flds [("ip-addr", .unit), ("hostname", .unit)])), ("#0", .str),
      ("#@port#type", .str), ("#@port", u16), ("#args", .seq .str)])])
    "(linux-debian-arm64)server (hostname)localhost port=(number)8080 remote"
    (sstruct [("server", sstruct [("#type", sstr "linux-debian-arm64"), ("#0#type", .unitVariant "hostname".toList),
      ("#0", sstr "localhost"), ("#@port#type", sstr "number"), ("#@port", sint 8080),
      ("#args", .seq [sstr "localhost", sstr "remote"])])])),
  ("de rename_all_args", deIs (tstruct [("command", tstruct [("#@name", .str), ("#args", .seq .str)])])
    "command name=run --verbose --output result.txt"
    (sstruct [("command", sstruct [("#@name", sstr "run"),
      ("#args", .seq [sstr "--verbose", sstr "--output", sstr "result.txt"])])])),
  ("de rename_rest_args", deIs (tstruct [("command", tstruct [("#0", .str), ("#rest", .seq .str)])])
    "command run --verbose --output result.txt"
    (sstruct [("command", sstruct [("#0", sstr "run"),
      ("#rest", .seq [sstr "--verbose", sstr "--output", sstr "result.txt"])])])),
  ("de rename_children_args", deIs (tstruct [("server", tstruct [("#@host", .str), ("#args", .seq u16)])])
    "server host=localhost 8080 8081 8082"
    (sstruct [("server", sstruct [("#@host", sstr "localhost"), ("#args", .seq [sint 8080, sint 8081, sint 8082])])])),
  ("de bool_flag_children 1", deIs flagTy "server host=localhost { active }" (flagV true)),
  ("de bool_flag_children 2", deIs flagTy "server host=localhost active=#true" (flagV true)),
  ("de bool_flag_children 3", deIs flagTy "server host=localhost" (flagV false)),
  ("de bool_flag_children 4", deIs flagTy "server host=localhost { }" (flagV false)),
  ("de error_span_and_diagnostic", (fromStr (tstruct [("port", u16)]) "port nope".toList).isNone)]

def seS (v : SVal) : String := match seToString v with | some s => String.ofList s | none => "ERROR"

/-- `src/se.rs:1266-1560`. -/
def seTests : List Check := [
  ("se simple_struct", seS (sstruct [("name", sstr "my-app"), ("port", sint 8080)]) == "name my-app\nport 8080\n"),
  ("se nested_struct", let k := seS serverV; has k "server" && has k "host localhost" && has k "port 8080"),
  ("se boolean_and_null", let k := seS (sstruct [("enabled", .bool true), ("disabled", .bool false),
      ("something", .some (sint 1)), ("nothing", .none)])
    has k "enabled" && !has k "disabled" && has k "something 1" && !has k "nothing"),
  ("se option_some", has (seS (sstruct [("name", .some (sstr "hello"))])) "name hello"),
  ("se unit_enum", has (seS (sstruct [("color", .unitVariant "Red".toList)])) "color Red"),
  ("se float_value", let k := seS (sstruct [("ratio", .f64 (readFloat "3.14".toList))]); has k "ratio" && has k "3.14"),
  ("se hashmap", let k := seS (.map [(sstr "alpha", sint 1), (sstr "beta", sint 2)]); has k "alpha 1" && has k "beta 2"),
  ("se newtype_struct", has (seS (sstruct [("port", .newtypeStruct (sint 8080))])) "port 8080"),
  ("se to_document_roundtrip", match toDocument (sstruct [("name", sstr "test"), ("port", sint 3000)]) with
    | some d => d.nodes.length == 2
      && optValEq ((d.get "name".toList).bind (·.get (.index 0))) (some (str "test"))
      && optValEq ((d.get "port".toList).bind (·.get (.index 0))) (some (int 3000))
    | none => false),
  ("se rename_props", let k := seS (sstruct [("server", sstruct [("#@host", sstr "localhost"), ("#@port", sint 8080)])])
    has k "server" && has k "host=localhost" && has k "port=8080"),
  ("se rename_args", let k := seS (sstruct [("server", sstruct [("#0", sstr "localhost"), ("#@port", sint 8080)])])
    has k "server" && has k "localhost" && has k "port=8080"),
  ("se rename_all_args", let k := seS (sstruct [("command", sstruct [("#0", sstr "run"),
      ("#args", .seq [sstr "run", sstr "--verbose", sstr "--output"]), ("#rest", .seq [sstr "--verbose", sstr "--output"])])])
    has k "command" && has k "run" && has k "--verbose" && has k "--output"),
  ("se complex_enum 1", let k := seS (sstruct [("command", .structVariant "up".toList (flds [("#0", sstr "sky"),
      ("how-high", .some (sint 1)), ("enabled", .bool false)]))])
    has k "command sky" && has k "up" && has k "how-high 1"),
  ("se complex_enum 2", has (seS (sstruct [("command", .newtypeVariant "down".toList (sint 4))])) "down 4"),
  ("se complex_enum 3", has (seS (sstruct [("command", .tupleVariant "left".toList [sint 1, sint 2])])) "left 1 2"),
  ("se complex_enum 4", seS (sstruct [("command", .unitVariant "right".toList)]) == "command right\n")]

/-! ### Documents -/

def leftSrc : String := "
// There is a node here
first_node /*with cool comments, too */ param=1.03e2 /-\"commented\" \"argument\" {
    // With nested nodes too
    nested 1 2 3
    nested_2 \"hi\" \"world\" // this one is cool
}
second_node param=153 { nested one=1 two=2; }"
def rightSrc : String := "
first_node param=103.0       \"argument\" {
        // Different indentation, because
        // Why not
        nested 1 2 3
        nested_2 \"hi\" /* actually, \"hello\" */ \"world\"
}
// There is a node here
second_node /* This time, the comment is here */ param=153 {
        nested one=1 two=2
}"
def basicSrc : String := "
            // Hello, world!
            node 1
            node two
            node item=\"three\";
            node {
                nested 1 2 3
                nested_2 hi \"world\"
            }
            (type)node (\"type\")what?
            +false #true
            null_id null_prop=#null
                    foo indented
            // normal comment?
            /- comment
            /* block comment */
            inline /*comment*/ here
            another /-comment there


            after some whitespace
            trailing /* multiline */
            trailing // single line
            "
def parsingSrc : String := "
// This is the first node
foo 1 2 three #null #true bar=\"baz\" {
    - 1
    - 2
    - three
    (mytype)something (\"name\")else\r
}

null_id null_prop=#null
true_id true_prop=#null
+false #true

         bar \"indented\" // trailing whitespace after this\t
/*
Some random comment
 */

a; b; c;
/-commented \"node\"

another /*foo*/ \"node\" /-1 /*bar*/ #null;
final;"
def spanSrc : String := "
this {
    is (a)\"cool\" document=\"to\" read=(int)5 10.1 (u32)0x45
    and x=\"\" {
        \"it\" /*shh*/ \"has\"=\"💯\" ##\"the\"##
        Best🎊est
        \"syntax ever\"
    }
    \"yknow?\" 0x10
}
// that's
nice
inline { time; to; live \"our\" \"dreams\"; \"y;all\" }

"

/-- The part of a text that a span selects. -/
def slice (s : String) (sp : Span) : String :=
  String.fromUTF8! (s.toUTF8.extract sp.offset (sp.offset + sp.len))
def atSpan (s : String) (sp : Span) (e : String) : Bool := slice s sp == e

/-- `check_span_for_ident` of `src/document.rs`. -/
def identSpan (s : String) (i : Ident) : Bool := atSpan s i.span (String.ofList (i.repr.getD i.value))
partial def nodeSpans (s : String) (n : Node) : Bool :=
  identSpan s n.name && (n.ty.all (identSpan s)) &&
  n.entries.all (fun e => e.name.all (identSpan s) && e.ty.all (identSpan s) &&
    (e.name.isSome || e.ty.isSome || e.format.all fun f => atSpan s e.span (String.ofList f.valueRepr))) &&
  n.children.all fun d => d.nodes.all (nodeSpans s)

def child (d : Option Document) (k : String) : Option Node := d.bind (·.get k.toList)
def sub (n : Option Node) : Option Document := n.bind (·.children)
def show? (n : Option Node) : String := match n with | some n => String.ofList n.display | none => "NONE"
def fmtS (c : FormatConfig) (s : String) : String :=
  match doc? s with | some d => String.ofList (d.autoformatConfig c).display | none => "ERROR"

def spanTests : List Check :=
  let d := doc? spanSrc
  let this := sub (child d "this")
  let is := child this "is"
  let and := child this "and"
  let it := child (sub and) "it"
  let inl := child d "inline"
  let ns := ((sub inl).map (·.nodes)).getD []
  let ent (n : Option Node) (k : NodeKey) (e : String) := (n.bind (·.entry k)).any fun x => atSpan spanSrc x.span e
  let nd (n : Option Node) (e : String) := n.any fun x => atSpan spanSrc x.span e
  let dc (n : Option Document) (e : String) := n.any fun x => atSpan spanSrc x.span e
  [("span all", d.any fun d => d.nodes.all (nodeSpans spanSrc)),
   ("span doc", dc d (String.ofList (spanSrc.toList.drop 1).dropLast.dropLast)),
   ("span is", nd is "is (a)\"cool\" document=\"to\" read=(int)5 10.1 (u32)0x45"),
   ("span is 0", ent is (.index 0) "(a)\"cool\""),
   ("span read", ent is (.ofStr "read".toList) "read=(int)5"),
   ("span is 1", ent is (.index 1) "10.1"),
   ("span is 2", ent is (.index 2) "(u32)0x45"),
   ("span and", nd and "and x=\"\" {
        \"it\" /*shh*/ \"has\"=\"💯\" ##\"the\"##
        Best🎊est
        \"syntax ever\"
    }"),
   ("span and children", dc (sub and) "\"it\" /*shh*/ \"has\"=\"💯\" ##\"the\"##
        Best🎊est
        \"syntax ever\""),
   ("span x", ent and (.ofStr "x".toList) "x=\"\""),
   ("span it", nd it "\"it\" /*shh*/ \"has\"=\"💯\" ##\"the\"##"),
   ("span has", ent it (.ofStr "has".toList) "\"has\"=\"💯\""),
   ("span it 0", ent it (.index 0) "##\"the\"##"),
   ("span inline", nd inl "inline { time; to; live \"our\" \"dreams\"; \"y;all\" }"),
   ("span inline children", dc (sub inl) "time; to; live \"our\" \"dreams\"; \"y;all\" "),
   ("span time", nd ns[0]? "time"), ("span to", nd ns[1]? "to"),
   ("span live", nd ns[2]? "live \"our\" \"dreams\""), ("span yall", nd ns[3]? "\"y;all\" ")]

/-- `src/document.rs:505-960` and `tests/formatting.rs`. -/
def docTests : List Check :=
  let d := doc? parsingSrc
  let foo := child d "foo"
  [("doc canonical_clear_fmt", match doc? leftSrc, doc? rightSrc with
    | some a, some b => !a.eq b && a.clearFormatRecursive.eq b.clearFormatRecursive
    | _, _ => false),
   ("doc basic_parsing", (doc? basicSrc).isSome),
   ("doc parsing get_arg", optValEq (d.bind (·.getArg "foo".toList)) (some (int 1))),
   ("doc parsing dash", match d with
    | some d => match d.iterDashArgs "foo".toList with
      | [a, b, c] => a.eq (int 1) && b.eq (int 2) && c.eq (str "three")
      | _ => false
    | none => false),
   ("doc parsing leading", d.any fun d => d.format.any (·.leading == [])),
   ("doc parsing foo leading", foo.any fun n => n.format.any (·.leading == "\n// This is the first node\n".toList)),
   ("doc parsing foo terminator", foo.any fun n => n.format.any (·.terminator == ['\n'])),
   ("doc parsing foo[2]", optValEq (foo.bind (·.get (.index 2))) (some (str "three"))),
   ("doc parsing foo bar", optValEq (foo.bind (·.get (.ofStr "bar".toList))) (some (str "baz"))),
   ("doc parsing something", optValEq ((sub foo).bind (·.getArg "something".toList)) (some (str "else"))),
   ("doc parsing another", optValEq (d.bind (·.getArg "another".toList)) (some (str "node"))),
   ("doc parsing null", optValEq ((child d "null_id").bind (·.get (.ofStr "null_prop".toList))) (some .null)),
   ("doc parsing true", optValEq ((child d "true_id").bind (·.get (.ofStr "true_prop".toList))) (some .null)),
   ("doc parsing plusfalse", optValEq ((child d "+false").bind (·.get (.index 0))) (some (.bool true))),
   ("doc parsing bar text", show? (child d "bar") == "\n         bar \"indented\" // trailing whitespace after this\t\n"),
   ("doc parsing a", show? (child d "a") == "/*\nSome random comment\n */\n\na;"),
   ("doc parsing b", show? (child d "b") == " b;"),
   ("doc parsing roundtrip", d.any fun d => String.ofList d.display == parsingSrc),
   ("doc parsing push", match d, node? "new\n", entry? " \"blah\"=0xDEADbeef" with
    | some d, some n, some e => String.ofList (d.pushNode (n.push e)).display == parsingSrc ++ "new \"blah\"=0xDEADbeef\n"
    | _, _, _ => false),
   ("doc construction",
    let bar := Node.new (.ofStr "bar".toList)
    match bar.insert (.ofStr "prop".toList) (.new (str "value")) with
    | .ret (bar, _) =>
      let bar := (((bar.push (.new (int 1))).push (.new (int 2))).push (.new (.bool false))).push (.new .null)
      let bar := bar.pushChild (.new (.ofStr "barchild".toList))
      let d := ((Document.new.pushNode (.new (.ofStr "foo".toList))).pushNode bar).pushNode (.new (.ofStr "baz".toList))
      String.ofList d.autoformat.display == "foo\nbar prop=value 1 2 #false #null {\n    barchild\n}\nbaz\n"
    | .panic => false),
   ("doc simple_autoformat", fmtS .default "a { b { c { }; }; }" == "a {\n    b {\n        c {\n\n        }\n    }\n}\n"),
   ("doc two_spaces", fmtS { FormatConfig.default with indent := "  ".toList } "a { b { c { }; }; }"
     == "a {\n  b {\n    c {\n\n    }\n  }\n}\n"),
   ("doc tabs", fmtS { FormatConfig.default with indent := ['\t'] } "a { b { c { }; }; }"
     == "a {\n\tb {\n\t\tc {\n\n\t\t}\n\t}\n}\n"),
   ("doc no_comments", fmtS { FormatConfig.default with noComments := true }
     "// a comment\na {\n// another comment\n b { c { // another comment\n }; }; }"
     == "a {\n    b {\n        c {\n\n        }\n    }\n}\n"),
   ("formatting build_and_format",
    let c := (Node.new (.ofStr ['c'])).ensureChildren
    let b := (Node.new (.ofStr ['b'])).pushChild c
    let a := (Node.new (.ofStr ['a'])).pushChild b
    String.ofList (Document.new.pushNode a).autoformat.display == "a {\n    b {\n        c {\n        }\n    }\n}\n"),
   ("fmt builder", (((FormatConfig.builder.setIndentLevel 12).setIndent " \t".toList).setNoComments true).build
     == ⟨12, " \t".toList, true, false⟩)] ++ spanTests

/-! ### Entries, identifiers, nodes, values -/

def deadbeef : Value := int 0xdeadbeef

/-- `src/entry.rs:510-740`. -/
def entryTests : List Check := [
  ("entry reset_value_repr", match entry? "   name=1.03e2", entry? "   name=103.0" with
    | some a, some b => !a.eq b && a.clearFormat.eq b.clearFormat
    | _, _ => false),
  ("entry parsing foo", entry? "foo" == some ⟨none, str "foo", none, some { valueRepr := "foo".toList }, ⟨0, 3⟩⟩),
  ("entry parsing foo=bar", match entry? "foo=bar", ident? "foo" with
    | some e, some i => e.eq ⟨none, str "bar", some i, some { valueRepr := "bar".toList }, .zero⟩
    | _, _ => false),
  ("entry parsing ty", match entry? " \\\n (\"m\\\"eh\")0xDEADbeef\t\\\n", ident? "\"m\\\"eh\"" with
    | some e, some i => e == ⟨some { i with span := ⟨5, 7⟩ }, deadbeef, none,
        some { leading := " \\\n ".toList, trailing := "\t\\\n".toList, valueRepr := "0xDEADbeef".toList }, ⟨0, 26⟩⟩
    | _, _ => false),
  ("entry parsing ty prop", match entry? " \\\n \"foo\"=(\"m\\\"eh\")0xDEADbeef\t\\\n", ident? "\"m\\\"eh\"", ident? "\"foo\"" with
    | some e, some i, some k => e.eq ⟨some i, deadbeef, some k,
        some { leading := " \\\n ".toList, trailing := "\t\\\n".toList, valueRepr := "0xDEADbeef".toList }, .zero⟩
    | _, _, _ => false),
  ("entry display", (Entry.new (int 42)).display == "42".toList
    && (Entry.newProp (.ofStr "name".toList) (int 42)).display == "name=42".toList),
  ("ident parsing", ident? "foo" == some ⟨"foo".toList, some "foo".toList, ⟨0, 3⟩⟩),
  ("ident parsing quoted", (ident? "\"foo\\\"bar\"").any (·.eq ⟨"foo\"bar".toList, some "\"foo\\\"bar\"".toList, .zero⟩)),
  ("ident invalid", (ident? "123").isNone && (ident? "   space   ").isNone && (ident? "\"x").isNone),
  ("ident formatting", (Ident.ofStr "foo".toList).display == "foo".toList
    && (Ident.ofStr "foo\"bar".toList).display == "\"foo\\\"bar\"".toList
    && ((Ident.ofStr "foo".toList).setRepr "\"foo/bar\"".toList).display == "\"foo/bar\"".toList),
  ("value formatting", (str "foo\n").display == "\"foo\\n\"".toList && (int 1234567890).display == "1234567890".toList
    && (flt "1234567890.12345").display == "1234567890.12345".toList && (Value.bool true).display == "#true".toList
    && Value.null.display == "#null".toList),
  ("value plain_ident", isPlainIdent "foo123,bar".toList && isPlainIdent "foo123~!@$%^&*.:'|?+<>,".toList)]

def foo : Node := .new (.ofStr "foo".toList)
def ins (n : Node) (k : NodeKey) (v : Value) : Node := match n.insert k (.new v) with | .ret (n, _) => n | .panic => .new (.ofStr [])
def rem (n : Node) (k : NodeKey) : Node := match n.remove k with | .ret (n, _) => n | .panic => .new (.ofStr [])
def idx (n : Node) (k : NodeKey) (v : Value) : Bool := match n.indexed k with | .ret w => w.eq v | .panic => false
def keyword : NodeKey := .ofStr "keyword".toList

/-- `src/node.rs:920-1060`. -/
def nodeTests : List Check := [
  ("node canonical_clear_fmt", match
      node? "node /-\"commented\" param_name=103.000 {\n            // This is a nested node\n            nested 1 2 3\n        }",
      node? "node param_name=103.0 { nested 1 2 3; }" with
    | some a, some b => !a.eq b && a.clearFormatRecursive.display == b.clearFormatRecursive.display
    | _, _ => false),
  ("node parsing 1", match node? "\n\t  (\"ty\")\"node\" 0xDEADbeef;\n", ident? "\"ty\"", ident? "\"node\"", entry? " 0xDEADbeef" with
    | some n, some t, some i, some e => n.ty.any (·.eq t) && n.name.eq i && (n.entry (.index 0)).any (·.eq e)
      && n.format == some { leading := "\n\t  ".toList, terminator := [';'], trailing := ['\n'] }
    | _, _, _, _ => false),
  ("node parsing 2", match node? "node test {\n    link \"blah\" anything=self\n}\n", entry? " test" with
    | some n, some e => (n.entry (.index 0)).any (·.eq e) && n.children.any (·.nodes.length == 1)
    | _, _ => false),
  ("node indexing", match (foo.push (.new (str "bar"))).indexMutStr "foo".toList (int 1) with
    | .ret n => idx n (.index 0) (str "bar") && idx n (.ofStr "foo".toList) (int 1)
      && match n.indexMutUsize 0 (.bool false) with
        | .ret n => match n.indexMutStr "foo".toList .null with
          | .ret n => idx n (.index 0) (.bool false) && idx n (.ofStr "foo".toList) .null
            && idx ((n.push (.newProp (.ofStr ['x']) (int 1))).push (.newProp (.ofStr ['x']) (int 2))) (.ofStr ['x']) (int 2)
          | .panic => false
        | .panic => false
    | .panic => false),
  ("node insertion",
    let n := (ins (foo.push (.new (str "pos0"))) keyword (flt "6.0")).push (.new (str "pos1"))
    let m := ins (ins n (.index 0) (str "inserted0")) (.index 2) (str "inserted1")
    n.len == 3 && m.len == 5 && idx m (.index 0) (str "inserted0") && idx m (.index 1) (str "pos0")
      && idx m (.index 2) (str "inserted1") && idx m (.index 3) (str "pos1")),
  ("node removal",
    let n := (ins (foo.push (.new (str "pos0"))) keyword (flt "6.0")).push (.new (str "pos1"))
    let a := rem n (.index 1)
    let b := rem a (.ofStr "not an existing keyword".toList)
    let c := rem b keyword
    let d := rem c (.index 0)
    n.len == 3 && a.len == 2 && (a.get keyword).isSome && b.len == 2 && c.len == 1 && d.len == 0),
  ("node remove_panic",
    let n := rem (ins (foo.push (.new (str "pos0"))) keyword (flt "6.0")) (.index 0)
    n.len == 1 && match n.remove (.index 0) with | .panic => true | _ => false)]

/-! ### The parser -/

def strP (s : String) : Option String := (runP stringP s).map String.ofList
def node1 (s : String) : Option Node := runP (nodeF (baseNode (utf8Len s.toList))) s
def entry1 (s : String) : Option Entry := runP (nodeEntry (utf8Len s.toList)) s

/-- After a `Cut` error, goes on at the end of the text. This is what the recovery parser `badval` of
`src/v2_parser.rs:840` does on a single `;`. -/
def atEnd : Recovery where
  resume _ _ := some []
  failed _ s := s
  rawRegion _ := none
  forward _ s r h := ⟨s, by cases h; simp⟩
  forward_failed _ s := ⟨[], rfl⟩
  forward_raw _ _ h := nomatch h

/-- `document.parse(..).is_ok()`, as the unit tests use it: winnow's `parse` looks at the end of the
text but, unlike `KdlDocument::parse`, not at the errors recorded on the way. The test
`slashdash_tests` passes for a slashdashed node ended by `;` only because of this: `KdlDocument::parse` rejects it, see C32 in
DESIGN.md. -/
def parses (s : String) : Bool :=
  (match documentR atEnd (utf8Len s.toList) s.toList [] with | .ok _ [] (_ :: _) => true | _ => false)
    && (match Document.parse s.toList with | .err => true | _ => false)

/-- `src/v2_parser.rs:441-2025`. -/
def parserTests : List Check := [
  ("parser node 1", (node1 "foo").any (·.eq (.mk none ⟨"foo".toList, some "foo".toList, .zero⟩ [] none (some {}) .zero))),
  ("parser node 2", (node1 "foo bar").any (·.eq (.mk none ⟨"foo".toList, some "foo".toList, .zero⟩
    [⟨none, str "bar", none, some { valueRepr := "bar".toList, leading := [' '] }, .zero⟩] none (some {}) .zero))),
  ("parser entry 1", (entry1 "foo=bar").any (·.eq ⟨none, str "bar", some ⟨"foo".toList, some "foo".toList, .zero⟩,
    some { valueRepr := "bar".toList }, .zero⟩)),
  ("parser entry 2", (entry1 "foo").any (·.eq ⟨none, str "foo", none, some { valueRepr := "foo".toList }, .zero⟩)),
  ("parser entry 3", (entry1 "/-foo bar") == some ⟨none, str "bar", none,
    some { valueRepr := "bar".toList, leading := "/-foo ".toList }, ⟨6, 3⟩⟩),
  ("parser entry 4", (entry1 "/- foo=1 bar = 2") == some ⟨none, int 2, some ⟨"bar".toList, some "bar".toList, ⟨9, 3⟩⟩,
    some { valueRepr := ['2'], leading := "/- foo=1 ".toList, afterKey := [' '], afterEq := [' '] }, ⟨9, 7⟩⟩),
  ("parser entry 5", (entry1 "/- \nfoo = 1 bar = 2").any (·.eq ⟨none, int 2, some ⟨"bar".toList, some "bar".toList, .zero⟩,
    some { valueRepr := ['2'], leading := "/- \nfoo = 1 ".toList, afterKey := [' '], afterEq := [' '] }, .zero⟩)),
  ("parser before_node_children", [" /- { }", " /- { bar }"].all fun s =>
    (runP (beforeNodeChildrenF (utf8Len s.toList) (baseNode (utf8Len s.toList))) s).isSome),
  ("parser around_children", ["/- { }", "/- { bar }"].all fun s =>
    (runP (slashdashedChildrenF (utf8Len s.toList) (baseNode (utf8Len s.toList))) s).isSome),
  ("parser identifier_string", strP "foo" == some "foo" && strP "," == some ","),
  ("parser quoted", strP "\"foo\"" == some "foo" && strP "\"foo\\u{0a}\"" == some "foo\n"
    && strP "\"\\u{10FFFF}\"" == some (String.ofList [Char.ofNat 0x10ffff])),
  ("parser multiline", strP "\"\"\"\nfoo\nbar\nbaz\n\"\"\"" == some "foo\nbar\nbaz"
    && strP "\"\"\"\n  foo\n    bar\n  baz\n  \"\"\"" == some "foo\n  bar\nbaz"
    && strP "\"\"\"\nfoo\r\nbar\nbaz\n\"\"\"" == some "foo\nbar\nbaz"
    && strP "\"\"\"\n  foo\n    bar\n   baz\n  \"\"\"" == some "foo\n  bar\n baz"
    && strP "\"\"\"\n  \\     foo\n    \\  bar\n   \\ baz\n  \"\"\"" == some "foo\n  bar\n baz"
    && strP "\"\"\"\n\n    string\t\n    \"\"\"" == some "\nstring\t"
    && strP "\"\"\"\n \t \\\n          \n \t \"\"\"" == some ""
    && strP "\"\"\"\n\\\"\"\"\n\"\"\"" == some "\"\"\""
    && strP "\"\"\"\nfoo\n  bar\n  baz\n  \"\"\"" == none),
  ("parser raw", strP "#\"foo\"#" == some "foo" && strP "#\"\"\"#" == none),
  ("parser multiline raw", strP "#\"\"\"\nfoo\nbar\nbaz\n\"\"\"#" == some "foo\nbar\nbaz"
    && strP "#\"\"\"\nfoo\r\nbar\nbaz\n\"\"\"#" == some "foo\nbar\nbaz"
    && strP "##\"\"\"\n  foo\n    bar\n  baz\n  \"\"\"##" == some "foo\n  bar\nbaz"
    && strP "#\"\"\"\n  foo\n    \\nbar\n   baz\n  \"\"\"#" == some "foo\n  \\nbar\n baz"
    && strP "#\"\"\"\nfoo\n  bar\n  baz\n  \"\"\"#" == none
    && strP "#\"\nfoo\nbar\nbaz\n\"#" == none && strP "\"\nfoo\nbar\nbaz\n\"" == none),
  ("parser ident", (runP (identifier 3) "foo") == some ⟨"foo".toList, some "foo".toList, ⟨0, 3⟩⟩
    && (runP (identifier 2) "+.").any (·.eq ⟨"+.".toList, some "+.".toList, .zero⟩)),
  ("parser escline", (node1 "foo bar\\\n   baz").any (·.entries.length == 2)),
  ("parser multi_line_comment", ["/* foo */", "/**/", "/*\nfoo\n*/", "/*\nfoo*/", "/*foo\n*/", "/* foo\n*/",
    "/* /*bar*/ foo\n*/"].all fun s => (runP multiLineComment s).isSome),
  ("parser slashdash doc 1", (doc? "/- foo bar").isSome),
  ("parser slashdash doc 2", ["/- foo bar;", "/-n 1;"].all parses),
  ("parser slashdash node", ["/- foo\nbar baz", "foo /- { }", "foo /- { bar }", "/- foo bar\nnode /-1 2 { x }",
    "/- foo bar\nnode 2 /-3 { x }", "/- foo bar\nnode /-1 2 /-3 { x }"].all fun s => (node1 s).isSome),
  ("parser slashdash entry", (entry1 "/-commented tada").isSome),
  ("parser float", optValEq (runP floatValue "12_34.56") (some (flt "1234.56"))
    && optValEq (runP floatValue "1234_.56") (some (flt "1234.56"))
    && (match floatValue "1234.56 ".toList with | .ok v [' '] => v.eq (flt "1234.56") | _ => false)
    && (runP floatValue "_1234.56").isNone && (runP floatValue "1234a.56").isNone
    && (runP (Kdl.value 3) "2.5").any (·.value.eq (flt "2.5"))),
  ("parser decimal", (runP decimal "12_34").any (·.1 == 1234) && (runP decimal "1234_").any (·.1 == 1234)
    && (runP decimal "_1234").isNone && (runP decimal "1234a").isNone),
  ("parser hex", (runP hex "0xdead_beef123").any (·.1 == 0xdeadbeef123) && (runP hex "0xDeAd_BeEf123").any (·.1 == 0xdeadbeef123)
    && (runP hex "0xdeadbeef123_").any (·.1 == 0xdeadbeef123) && (runP hex "0xABCDEF0123456789abcdef0123456789").isNone
    && (runP hex "0x_deadbeef123").isNone && (runP hex "0xbeefg1").isNone),
  ("parser octal", (runP octal "0o12_34").any (·.1 == 0o1234) && (runP octal "0o1234_").any (·.1 == 0o1234)
    && (runP octal "0o_12_34").isNone && (runP octal "0o89").isNone),
  ("parser binary", (runP binary "0b10_01").any (·.1 == 0b1001) && (runP binary "0b1001_").any (·.1 == 0b1001)
    && (runP binary "0b_10_01").isNone && (match binary "0b12389".toList with | .ok v r => v.1 == 1 && r == "2389".toList | _ => false)
    && (runP binary "123").isNone),
  ("parser failures", ["foo { bar; { baz; }; }", "no/de 1 {\n    1 2 foo\n    bad#\n}", "node 1asdf 2", "node 0x1asdf 2",
    "node 0o1asdf 2", "node 0b1asdf 2", "node 1.0asdf 2", "node 1.asdf 2", "node 1.0easdf 2", "node \" 1", "node \"foo\"1",
    "node \"\nlet's do multiline!\"", "node {", "node {}}", "node }{", "node {\n", "node {\nnode2{{}}"].all fun s =>
      match Document.parse s.toList with | .err => true | _ => false)]

def main (_ : List String) : IO UInt32 := do
  let mut bad := 0
  let all := deTests ++ seTests ++ docTests ++ entryTests ++ nodeTests ++ parserTests
  for (n, b) in all do
    unless b do
      bad := bad + 1
      IO.println s!"FAILED {n}"
  for f in ["kdl-schema", "Cargo", "ci", "nuget", "website", "zellij", "zellij-unquoted-bindings"] do
    let s ← IO.FS.readFile s!"/repo/examples/{f}.kdl"
    match doc? s with
    | some d =>
      unless String.ofList d.display == s do IO.println s!"DISPLAY {f}"
    | none =>
      bad := bad + 1
      IO.println s!"FAILED example {f}"
  IO.println s!"tests {all.length + 7} failed {bad}"
  return if bad == 0 then 0 else 1
