import Verif.Lemmas.Parser.Tok
import Verif.Model.Fmt
/-
Printing a document whose decoration is blank, and reading it back.
-/

namespace Kdl
open Spec

section
variable [FloatIO] {α : Type} {g : Value → α}

/-! ### Entries -/

/-- The name and the annotation of the entry print to strings that are read back,
and its value does. -/
structure EntPlain (e : Entry) : Prop where
  format : e.format = none
  name : ∀ n, e.name = some n → StrTok n.value n.display
  ty : ∀ n, e.ty = some n → StrTok n.value n.display
  value : ValTok (canonValue e.value) e.value.display

theorem EntPlain.tok (hg : ∀ v, g (canonValue v) = g v) {e : Entry} (h : EntPlain e) :
    EntTok g (semEntry g e) e.display := by
  obtain ⟨ty, v, name, format, span⟩ := e
  obtain ⟨rfl, hn, ht, hv⟩ := h
  have h1 : ∀ t, ty = some t → ValueTok g ⟨some t.value, none, g v⟩ ('(' :: (t.display ++ ')' :: v.display)) := by
    intro t e
    have := hv.typed (g := g) (ht t e) Sp.nil Sp.nil Sp.nil
    rw [hg] at this
    exact this
  have h0 := hv.value (g := g)
  rw [hg] at h0
  cases ty with
  | none =>
    cases name with
    | none =>
      have := EntTok.val (g := g) hv
      rw [hg] at this
      simpa [Entry.display, Entry.displayKey, Entry.displayTy, semEntry] using this
    | some n =>
      simpa [Entry.display, Entry.displayKey, Entry.displayTy, semEntry] using h0.prop (hn n rfl) Sp.nil Sp.nil
  | some t =>
    cases name with
    | none =>
      simpa [Entry.display, Entry.displayKey, Entry.displayTy, semEntry] using (h1 t rfl).typedEntry
    | some n =>
      simpa [Entry.display, Entry.displayKey, Entry.displayTy, semEntry] using
        (h1 t rfl).prop (hn n rfl) Sp.nil Sp.nil

theorem space_lit : Space ' ' := by decide

theorem entsTok_plain (hg : ∀ v, g (canonValue v) = g v) : ∀ {es : List Entry}, (∀ e ∈ es, EntPlain e) →
    EntsTok g (es.map (semEntry g)) (displayEntries es)
  | [], _ => .nil
  | e :: es, h => by
    have h1 := (h e (by simp)).tok hg
    have h2 := entsTok_plain hg (es := es) fun x hx => h x (by simp [hx])
    have h3 : ELead [' '] := ELead.space (Sp.spaces (by simp [space_lit])) (by simp)
    have := EntsTok.cons h3 h1 h2
    simpa [displayEntries, (h e (by simp)).format] using this

/-! ### Nodes -/

/-- What is printed before the node's annotation or name. -/
def Node.leadText (n : Node) (indent : Nat) : Str :=
  match n.format with | some f => f.leading | none => spaces indent

/-- What is printed after the node's entries and children. -/
def Node.afterText (n : Node) : Str :=
  match n.format with | some f => f.beforeTerminator ++ f.terminator ++ f.trailing | none => []

/-- How the annotation of a node is printed. -/
def tyText : Option Ident → Str
  | some t => '(' :: (t.display ++ [')'])
  | none => []

/-- What is printed before the children block. -/
def beforeText (es : List Entry) : Option NodeFmt → Str
  | some f => f.beforeChildren
  | none => if spaceBeforeChildren es then [' '] else []

/-- What is printed between them. -/
def Node.coreText (n : Node) (indent : Nat) : Str :=
  tyText n.ty ++ (n.name.display ++ (displayEntries n.entries ++
  childrenStringify n.children (beforeText n.entries n.format) indent))

theorem Node.stringify_split (n : Node) (indent : Nat) :
    n.stringify indent = n.leadText indent ++ (n.coreText indent ++ n.afterText) := by
  cases n with
  | mk ty name entries children format span =>
    cases ty <;> cases format <;>
    simp only [Node.stringify, Node.leadText, Node.coreText, Node.afterText, Node.format, Node.ty, Node.name,
      Node.entries, Node.children, tyText, beforeText, List.append_assoc, List.nil_append, List.append_nil,
      List.cons_append] <;> rfl

/-- A text with which a node ends. -/
def CoreTok (g : Value → α) (d : SNode α) (C : Str) : Prop := ∀ w, WSp w → BodyTok g d (C ++ w)

/-- What stands between the end of a node and the start of the next one. -/
def Gap (s : Str) : Prop := ∃ w W, s = w ++ W ∧ WSp w ∧ Term W

/-- What stands between the end of the last node and the end of the document. -/
def Fin (s : Str) : Prop := ∃ w W, s = w ++ W ∧ WSp w ∧ (W = [] ∨ Term W)

/-- Every node is read back, and so are the gaps. -/
def NodesTok (g : Value → α) (indent : Nat) (trail : Str) : List Node → Prop
  | [] => True
  | [n] => CoreTok g (semNode g n) (n.coreText indent) ∧ Fin (n.afterText ++ trail)
  | n :: m :: ns => CoreTok g (semNode g n) (n.coreText indent) ∧ Gap (n.afterText ++ m.leadText indent) ∧
      NodesTok g indent trail (m :: ns)

theorem NodesTok.items {indent : Nat} {trail : Str} : ∀ {n : Node} {ns : List Node},
    NodesTok g indent trail (n :: ns) → ∃ T, nodesStringify (n :: ns) indent ++ trail = n.leadText indent ++ T ∧
      Items g (semNodes g (n :: ns)) T
  | n, [], h => by
    obtain ⟨h1, w, W, e, hw, hW⟩ := h
    refine ⟨(n.coreText indent ++ w) ++ W, ?_, ?_⟩
    · rw [nodesStringify, nodesStringify, Node.stringify_split]
      simp only [List.append_assoc, List.append_nil] at e ⊢
      simp only [List.nil_append, e]
    · exact .last (h1 w hw) hW
  | n, m :: ns, h => by
    obtain ⟨h1, ⟨w, W, e, hw, hW⟩, h2⟩ := h
    obtain ⟨T, hT, hI⟩ := NodesTok.items h2
    refine ⟨(n.coreText indent ++ w) ++ (W ++ T), ?_, ?_⟩
    · rw [nodesStringify, Node.stringify_split]
      simp only [List.append_assoc] at e hT ⊢
      rw [hT, ← List.append_assoc w W, ← e]
      simp only [List.append_assoc]
    · exact .cons (h1 w hw) hW hI

/-- The text at the start of a list of nodes. -/
def firstLead (indent : Nat) : List Node → Str
  | [] => []
  | n :: _ => n.leadText indent

theorem NodesTok.doc {indent : Nat} {ns : List Node} {trail lead : Str} (h : NodesTok g indent trail ns)
    (h1 : Lead (lead ++ firstLead indent ns)) (h2 : ns = [] → Lead (lead ++ trail)) :
    DocTok g (semNodes g ns) (lead ++ (nodesStringify ns indent ++ trail)) := by
  cases ns with
  | nil =>
    have := DocTok.empty (g := g) (h2 rfl)
    simpa [nodesStringify, semNodes] using this
  | cons n ns =>
    obtain ⟨T, e, hT⟩ := h.items
    rw [e, ← List.append_assoc]
    exact DocTok.items h1 hT

theorem CoreTok.mk {ty : Option Ident} {name : Ident} {es : List Entry} {format : Option NodeFmt} {span : Span}
    {indent : Nat} {ch : Option Document} (hg : ∀ v, g (canonValue v) = g v)
    (h1 : ∀ t, ty = some t → StrTok t.value t.display) (h2 : StrTok name.value name.display)
    (h3 : ∀ e ∈ es, EntPlain e)
    (h4 : ∀ d, ch = some d → (∀ f, format = some f → WSp f.beforeChildren) ∧
      DocTok g (semDoc g d) ((if d.format.isNone then ['\n'] else []) ++ (d.stringify (indent + 4) ++
        (if d.format.isNone then spaces indent else [])))) :
    CoreTok g (semNode g (.mk ty name es ch format span)) ((Node.mk ty name es ch format span).coreText indent) := by
  intro w hw
  have ht : TyTok (ty.map Ident.value) (tyText ty) := by
    cases ty with
    | none => exact .none
    | some t => exact TyTok.some (h1 t rfl) Sp.nil Sp.nil Sp.nil
  have he := entsTok_plain hg h3
  cases ch with
  | none =>
    have := BodyTok.leaf ht h2 he (Before.space hw)
    simpa [Node.coreText, childrenStringify, semNode, semOptDoc, Node.ty, Node.name, Node.entries, Node.children] using this
  | some d =>
    obtain ⟨h5, h6⟩ := h4 d rfl
    have hb : WSp (beforeText es format) := by
      cases format with
      | some f => exact h5 f rfl
      | none =>
        simp only [beforeText]
        split
        · exact WSp.spaces (by simp [space_lit])
        · exact WSp.nil
    have := BodyTok.block ht h2 he (Before.space hb) h6 (Tail.space hw)
    simpa [Node.coreText, childrenStringify, semNode, semOptDoc, Node.ty, Node.name, Node.entries, Node.children,
      Node.format] using this

theorem Fin.blank {s : Str} (h : ∀ c ∈ s, Blank c) : Fin s := by
  obtain ⟨a, b, rfl, ha, hb⟩ := split_spaces s
  refine ⟨a, b, rfl, WSp.spaces ha, ?_⟩
  cases b with
  | nil => exact Or.inl rfl
  | cons c b =>
    exact Or.inr (Term.blank ((h c (by simp)).resolve_left (hb c b rfl)) fun c hc => h c (by simp [hc]))

theorem Gap.blank {s : Str} (h : ∀ c ∈ s, Blank c) (hn : ∃ c ∈ s, Newline c) : Gap s := by
  obtain ⟨a, b, rfl, ha, hb⟩ := split_spaces s
  refine ⟨a, b, rfl, WSp.spaces ha, ?_⟩
  cases b with
  | nil =>
    obtain ⟨c, hc, hn⟩ := hn
    rw [List.append_nil] at hc
    exact absurd hn (space_not_newline (ha c hc))
  | cons c b =>
    exact Term.blank ((h c (by simp)).resolve_left (hb c b rfl)) fun c hc => h c (by simp [hc])

/-! ### Documents with blank decoration -/

omit [FloatIO] in
theorem blank_spaces (n : Nat) : ∀ c ∈ spaces n, Blank c := by
  intro c hc
  rw [spaces, List.mem_replicate] at hc
  rw [hc.2]
  exact Or.inl (by decide)

omit [FloatIO] in
/-- All decoration of the node is blank. -/
structure FmtPlain (f : NodeFmt) : Prop where
  leading : ∀ c ∈ f.leading, Blank c
  before : ∀ c ∈ f.beforeChildren, Space c
  after : ∀ c ∈ f.beforeTerminator ++ f.terminator ++ f.trailing, Blank c

/-- The node ends with a newline. -/
def Ended (n : Node) : Prop := ∃ c ∈ n.afterText, Newline c

mutual
/-- The decoration of the node is blank, and its names and values are read
back. -/
inductive NodePlain : Node → Prop
  | mk {ty : Option Ident} {name : Ident} {es : List Entry} {ch : Option Document} {format : Option NodeFmt}
      {span : Span} (h1 : ∀ t, ty = some t → StrTok t.value t.display) (h2 : StrTok name.value name.display)
      (h3 : ∀ e ∈ es, EntPlain e) (h4 : ∀ f, format = some f → FmtPlain f) (h5 : ∀ d, ch = some d → DocPlain d) :
      NodePlain (.mk ty name es ch format span)
/-- The same for a document; all nodes but the last end with a newline. -/
inductive DocPlain : Document → Prop
  | mk {ns : List Node} {format : Option DocFmt} {span : Span}
      (h1 : ∀ f, format = some f → (∀ c ∈ f.leading, Blank c) ∧ ∀ c ∈ f.trailing, Blank c)
      (h2 : ∀ n ∈ ns, NodePlain n) (h3 : ∀ n ∈ ns.dropLast, Ended n) : DocPlain (.mk ns format span)
end

theorem NodePlain.blank {n : Node} (h : NodePlain n) (indent : Nat) :
    (∀ c ∈ n.leadText indent, Blank c) ∧ ∀ c ∈ n.afterText, Blank c := by
  obtain ⟨h1, h2, h3, h4, h5⟩ := h
  rename_i ty name es ch format span
  cases format with
  | none => exact ⟨blank_spaces indent, by rintro c ⟨⟩⟩
  | some f => exact ⟨(h4 f rfl).leading, (h4 f rfl).after⟩

theorem nodesTok_plain {indent : Nat} {trail : Str} (ht : ∀ c ∈ trail, Blank c) : ∀ {ns : List Node},
    (∀ n ∈ ns, CoreTok g (semNode g n) (n.coreText indent) ∧ NodePlain n) → (∀ n ∈ ns.dropLast, Ended n) →
    NodesTok g indent trail ns
  | [], _, _ => trivial
  | [n], h, _ => by
    have := h n (by simp)
    refine ⟨this.1, Fin.blank fun c hc => ?_⟩
    rcases List.mem_append.mp hc with hc | hc
    · exact (this.2.blank 0).2 c hc
    · exact ht c hc
  | n :: m :: ns, h, he => by
    have h1 := h n (by simp)
    have h2 := h m (by simp)
    refine ⟨h1.1, Gap.blank (fun c hc => ?_) ?_, nodesTok_plain ht (fun x hx => h x (by simp [hx])) fun x hx => he x ?_⟩
    · rcases List.mem_append.mp hc with hc | hc
      · exact (h1.2.blank 0).2 c hc
      · exact (h2.2.blank indent).1 c hc
    · obtain ⟨c, hc, hn⟩ := he n (by simp [List.dropLast])
      exact ⟨c, by simp [hc], hn⟩
    · rw [List.dropLast_cons_cons, List.mem_cons]
      exact Or.inr hx

mutual
theorem NodePlain.core (hg : ∀ v, g (canonValue v) = g v) (indent : Nat) :
    ∀ (n : Node), NodePlain n → CoreTok g (semNode g n) (n.coreText indent)
  | .mk ty name es ch format span, h => by
    cases h with
    | mk h1 h2 h3 h4 h5 =>
      refine CoreTok.mk hg h1 h2 h3 ?_
      intro d e
      subst e
      refine ⟨fun f e => WSp.spaces (h4 f e).before, ?_⟩
      have hd := DocPlain.tok hg (indent + 4) d (h5 d rfl)
        (l := if d.format.isNone then ['\n'] else []) (t := if d.format.isNone then spaces indent else [])
        (by intro c hc; split at hc
            · rw [List.mem_singleton] at hc; rw [hc]; exact Or.inr (by decide)
            · cases hc)
        (by intro c hc; split at hc
            · exact blank_spaces _ c hc
            · cases hc)
      exact hd
theorem DocPlain.tok (hg : ∀ v, g (canonValue v) = g v) (indent : Nat) :
    ∀ (d : Document), DocPlain d → ∀ {l t : Str}, (∀ c ∈ l, Blank c) → (∀ c ∈ t, Blank c) →
      DocTok g (semDoc g d) (l ++ (d.stringify indent ++ t))
  | .mk ns format span, h, l, t, hl, ht => by
    cases h with
    | mk h1 h2 h3 =>
      have hc := NodePlain.cores hg indent ns h2
      obtain ⟨dl, dt, e, hdl, hdt⟩ : ∃ dl dt, (Document.mk ns format span).stringify indent =
          dl ++ (nodesStringify ns indent ++ dt) ∧ (∀ c ∈ dl, Blank c) ∧ ∀ c ∈ dt, Blank c := by
        cases format with
        | none => exact ⟨[], [], by simp [Document.stringify], by rintro _ ⟨⟩, by rintro _ ⟨⟩⟩
        | some f => exact ⟨f.leading, f.trailing, by simp [Document.stringify], (h1 f rfl).1, (h1 f rfl).2⟩
      have hdt' : ∀ c ∈ dt ++ t, Blank c := by
        intro c hc
        rcases List.mem_append.mp hc with hc | hc
        · exact hdt c hc
        · exact ht c hc
      have hdl' : ∀ c ∈ l ++ dl, Blank c := by
        intro c hc
        rcases List.mem_append.mp hc with hc | hc
        · exact hl c hc
        · exact hdl c hc
      have hn := nodesTok_plain hdt' (fun n hn => ⟨hc n hn, h2 n hn⟩) h3
      have := hn.doc (lead := l ++ dl) (Lead.blank fun c hc => by
        rcases List.mem_append.mp hc with hc | hc
        · exact hdl' c hc
        · cases ns with
          | nil => cases hc
          | cons n ns => exact ((h2 n (by simp)).blank indent).1 c hc) fun _ => Lead.blank fun c hc => by
            rcases List.mem_append.mp hc with hc | hc
            · exact hdl' c hc
            · exact hdt' c hc
      rw [e]
      simpa [semDoc] using this
theorem NodePlain.cores (hg : ∀ v, g (canonValue v) = g v) (indent : Nat) :
    ∀ (ns : List Node), (∀ n ∈ ns, NodePlain n) → ∀ n ∈ ns, CoreTok g (semNode g n) (n.coreText indent)
  | [], _, _, hn => by cases hn
  | n :: ns, h, m, hm => by
    rcases List.mem_cons.mp hm with e | hm
    · rw [e]; exact NodePlain.core hg indent n (h n (by simp))
    · exact NodePlain.cores hg indent ns (fun x hx => h x (by simp [hx])) m hm
end

theorem nodesF_not_bom {d : Document} {D r : Str} (h1 : nodesF 0 (baseNode 0) D = .ok d r) (q : Str) :
    D ≠ Char.ofNat 0xFEFF :: q := by
  rintro rfl
  have hs : Solid (Char.ofNat 0xFEFF :: q) := by
    rintro _ _ ⟨⟩
    decide
  have hl : leadingItems (baseNode 0) (Char.ofNat 0xFEFF :: q) = .ok [] (Char.ofNat 0xFEFF :: q) :=
    Lead.nil 0 _ hs
  have hb : baseNode 0 (Char.ofNat 0xFEFF :: q) = .cut := by
    rw [baseNode_unfold]
    unfold baseNodeF
    have e1 : notP (lit ['}'] <+> eof) (Char.ofNat 0xFEFF :: q) = .ok () (Char.ofNat 0xFEFF :: q) := rfl
    have e2 : cutErr (notP (lit ['{'])) (Char.ofNat 0xFEFF :: q) = .ok () (Char.ofNat 0xFEFF :: q) := rfl
    have e3 : opt (tyP 0) (Char.ofNat 0xFEFF :: q) = .ok none (Char.ofNat 0xFEFF :: q) :=
      opt_none (tyP_back (by intro q e; exact absurd (List.cons.inj e).1 (by decide)))
    have e4 : identifier 0 (Char.ofNat 0xFEFF :: q) = .back := identifier_back (stringP_back
      (by rintro _ _ ⟨⟩; decide) (by intro q e; exact absurd (List.cons.inj e).1 (by decide))
      (by intro q e; exact absurd (List.cons.inj e).1 (by decide)))
    rw [bind_eq e1, bind_here, bind_eq e2, bind_eq e3, bind_eq (takeP_nil hs.nodeSpace0)]
    exact bind_cut (cutErr_back e4)
  have hn : sep0 (nodeF (baseNode 0)) nodeTerminator (Char.ofNat 0xFEFF :: q) = .cut := by
    unfold sep0
    have : nodeF (baseNode 0) (Char.ofNat 0xFEFF :: q) = .cut := by
      unfold nodeF
      rw [bind_eq hl]
      exact bind_cut hb
    rw [this]
  unfold nodesF at h1
  rw [bind_eq hl, bind_here, bind_cut hn] at h1
  cases h1

theorem DocTok.not_bom {ds : List (SNode α)} {D : Str} (h : DocTok g ds D) (q : Str) :
    D ≠ Char.ofNat 0xFEFF :: q := by
  obtain ⟨d, h1, _⟩ := h 0 [] (Or.inl rfl)
  rw [List.append_nil] at h1
  exact nodesF_not_bom h1 q

/-- A document with blank decoration prints to a text that is accepted, and the
parsed document has the same data. -/
theorem DocPlain.parse (hg : ∀ v, g (canonValue v) = g v) {d : Document} (h : DocPlain d) :
    ∃ d', Document.parse d.display = .ok d' ∧ semDoc g d' = semDoc g d := by
  have := DocPlain.tok hg 0 d h (l := []) (t := []) (by rintro _ ⟨⟩) (by rintro _ ⟨⟩)
  rw [List.nil_append, List.append_nil] at this
  exact this.parse this.not_bom

end

end Kdl
