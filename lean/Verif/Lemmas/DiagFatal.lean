import Verif.Lemmas.DiagLead
/-
The fatal errors of the grammar of documents: one without a region of its own is about a comment that is not
closed.
-/

namespace Kdl
open Spec

variable {α β : Type}

/-! ### Lexical parsers -/

/-- The fatal errors are about unclosed comments. -/
def LFatal (p : L α) : Prop := ∀ s e r, p s = .cut e r → e.label = commentCx.label
/-- There are no fatal errors. -/
def LMild (p : L α) : Prop := ∀ s e r, p s ≠ .cut e r

theorem LMild.fatal {p : L α} (h : LMild p) : LFatal p := fun s e r hp => absurd hp (h s e r)

theorem LMild.lit {t : Str} : LMild (L.lit t) := by
  intro s e r h
  unfold L.lit at h
  cases hr : stripPrefix? t s <;> rw [hr] at h <;> cases h

theorem LMild.satisfy {f : Char → Bool} : LMild (L.satisfy f) := by
  intro s e r h
  unfold L.satisfy at h
  rcases s with _ | ⟨c, s⟩
  · cases h
  · simp only at h; split at h <;> cases h

theorem LMild.alt {p q : L α} (hp : LMild p) (hq : LMild q) : LMild (L.alt p q) := by
  intro s e r h
  unfold L.alt at h
  cases hr : p s with
  | back e r' => rw [hr] at h; exact hq _ _ _ h
  | cut e' r' => exact hp _ _ _ hr
  | _ => rw [hr] at h; cases h

theorem LMild.ctx {c : PErr} {p : L α} (hp : LMild p) : LMild (L.ctx c p) := by
  intro s e r h
  unfold L.ctx at h
  cases hr : p s with
  | cut e' r' => exact hp _ _ _ hr
  | _ => rw [hr] at h; cases h

theorem LFatal.pure {a : α} : LFatal (Pure.pure a : L α) := fun _ _ _ h => by cases h
theorem LFatal.here : LFatal L.here := fun _ _ _ h => by cases h
theorem LFatal.lit {t : Str} : LFatal (L.lit t) := LMild.lit.fatal
theorem LFatal.satisfy {f : Char → Bool} : LFatal (L.satisfy f) := LMild.satisfy.fatal
theorem LFatal.anyChar : LFatal L.anyChar := .satisfy
theorem LFatal.eof : LFatal L.eof := by
  intro s e r h
  rcases s with _ | ⟨c, s⟩ <;> cases h

theorem LFatal.bind {p : L α} {f : α → L β} (hp : LFatal p) (hf : ∀ a, LFatal (f a)) : LFatal (p >>= f) := by
  intro s e r h
  change L.bind p f s = _ at h
  unfold L.bind at h
  cases hr : p s with
  | ok a r' => rw [hr] at h; exact hf a _ _ _ h
  | cut e' r' => rw [hr] at h; cases h; exact hp _ _ _ hr
  | _ => rw [hr] at h; cases h

theorem LFatal.alt {p q : L α} (hp : LFatal p) (hq : LFatal q) : LFatal (L.alt p q) := by
  intro s e r h
  unfold L.alt at h
  cases hr : p s with
  | back e r' => rw [hr] at h; exact hq _ _ _ h
  | cut e' r' => rw [hr] at h; cases h; exact hp _ _ _ hr
  | _ => rw [hr] at h; cases h

theorem LFatal.opt {p : L α} (hp : LFatal p) : LFatal (L.opt p) := by
  intro s e r h
  unfold L.opt at h
  cases hr : p s with
  | cut e' r' => rw [hr] at h; cases h; exact hp _ _ _ hr
  | _ => rw [hr] at h; cases h

theorem LFatal.peek {p : L α} (hp : LFatal p) : LFatal (L.peek p) := by
  intro s e r h
  unfold L.peek at h
  cases hr : p s with
  | cut e' r' => rw [hr] at h; cases h; exact hp _ _ _ hr
  | _ => rw [hr] at h; cases h

theorem LFatal.notP {p : L α} (hp : LFatal p) : LFatal (L.notP p) := by
  intro s e r h
  unfold L.notP at h
  cases hr : p s with
  | cut e' r' => rw [hr] at h; cases h; exact hp _ _ _ hr
  | _ => rw [hr] at h; cases h

theorem LFatal.comment {p : L α} : LFatal (L.ctx commentCx p) := by
  intro s e r h
  unfold L.ctx at h
  cases hr : p s with
  | cut e' r' => rw [hr] at h; cases h; rfl
  | _ => rw [hr] at h; cases h

theorem LFatal.takeP {p : L α} (hp : LFatal p) : LFatal (L.takeP p) :=
  .bind .here fun _ => .bind hp fun _ => .bind .here fun _ => .pure
theorem LFatal.void {p : L α} (hp : LFatal p) : LFatal (L.void p) := .bind hp fun _ => .pure

theorem LFatal.rep0 {p : L α} (hp : LFatal p) : LFatal (L.rep0 p) := by
  have : ∀ n, LFatal (L.repFuel p n) := by
    intro n
    induction n with
    | zero => intro s e r h; cases h
    | succ n ih =>
      intro s e r h
      unfold L.repFuel at h
      cases hr : p s with
      | ok a r' =>
        rw [hr] at h
        by_cases hl : r'.length < s.length
        · simp only [hl, if_true] at h
          cases hq : L.repFuel p n r' with
          | cut e' r'' => rw [hq] at h; cases h; exact ih _ _ _ hq
          | _ => rw [hq] at h; cases h
        · simp only [hl, if_false] at h; cases h
      | cut e' r' => rw [hr] at h; cases h; exact hp _ _ _ hr
      | _ => rw [hr] at h; cases h
  intro s e r h
  exact this _ _ _ _ h

theorem LFatal.rep1 {p : L α} (hp : LFatal p) : LFatal (L.rep1 p) := .bind hp fun _ => .bind (.rep0 hp) fun _ => .pure

theorem LFatal.repTill {p : L α} {q : L β} (hp : LFatal p) (hq : LFatal q) : LFatal (L.repTill p q) := by
  have : ∀ n, LFatal (L.repTillFuel p q n) := by
    intro n
    induction n with
    | zero => intro s e r h; cases h
    | succ n ih =>
      intro s e r h
      unfold L.repTillFuel at h
      cases hr : q s with
      | ok a r' => rw [hr] at h; cases h
      | cut e' r' => rw [hr] at h; cases h; exact hq _ _ _ hr
      | back e' r' =>
        rw [hr] at h
        simp only at h
        cases hs : p s with
        | ok a r' =>
          rw [hs] at h
          by_cases hl : r'.length < s.length
          · simp only [hl, if_true] at h
            cases hq : L.repTillFuel p q n r' with
            | cut e' r'' => rw [hq] at h; cases h; exact ih _ _ _ hq
            | ok a r'' => rcases a with ⟨_, _⟩; rw [hq] at h; cases h
            | _ => rw [hq] at h; cases h
          · simp only [hl, if_false] at h; cases h
        | cut e' r' => rw [hs] at h; cases h; exact hp _ _ _ hs
        | _ => rw [hs] at h; cases h
      | crash => rw [hr] at h; cases h
  intro s e r h
  exact this _ _ _ _ h

/-- One step of `fsolve`. -/
syntax "fstep" : tactic
macro_rules | `(tactic| fstep) => `(tactic| with_reducible first
  | exact LFatal.pure | exact LFatal.here | exact LFatal.lit | exact LFatal.satisfy | exact LFatal.anyChar | exact LFatal.eof
  | exact LFatal.comment
  | apply LFatal.bind | apply LFatal.alt | apply LFatal.opt | apply LFatal.peek | apply LFatal.notP
  | apply LFatal.takeP | apply LFatal.void | apply LFatal.rep0 | apply LFatal.rep1 | apply LFatal.repTill)
macro_rules | `(tactic| fstep) => `(tactic| with_reducible assumption)
/-- Follows the structure of a parser. -/
macro "fsolve" : tactic => `(tactic| repeat' first | fstep | intro _)

theorem LFatal.newline : LFatal newlineL := by
  unfold newlineL
  refine LMild.fatal (.ctx ?_)
  repeat' first | exact LMild.lit | apply LMild.alt
macro_rules | `(tactic| fstep) => `(tactic| exact LFatal.newline)
theorem LFatal.unicodeSpace : LFatal unicodeSpaceL := by unfold unicodeSpaceL; fsolve
macro_rules | `(tactic| fstep) => `(tactic| exact LFatal.unicodeSpace)
theorem LFatal.singleLineComment : LFatal singleLineCommentL := by unfold singleLineCommentL; fsolve
macro_rules | `(tactic| fstep) => `(tactic| exact LFatal.singleLineComment)
theorem LFatal.multiLineComment : LFatal multiLineCommentL := by
  intro s e r h
  exact LFatal.bind .lit (fun _ => .comment) s e r h
macro_rules | `(tactic| fstep) => `(tactic| exact LFatal.multiLineComment)
theorem LFatal.ws : LFatal wsL := by unfold wsL; fsolve
macro_rules | `(tactic| fstep) => `(tactic| exact LFatal.ws)
theorem LFatal.wss : LFatal wssL := by unfold wssL; fsolve
macro_rules | `(tactic| fstep) => `(tactic| exact LFatal.wss)
theorem LFatal.wsp : LFatal wspL := by unfold wspL; fsolve
macro_rules | `(tactic| fstep) => `(tactic| exact LFatal.wsp)
theorem LFatal.escline : LFatal esclineL := by unfold esclineL; fsolve
macro_rules | `(tactic| fstep) => `(tactic| exact LFatal.escline)
theorem LFatal.nodeSpace : LFatal nodeSpaceL := by unfold nodeSpaceL; fsolve
macro_rules | `(tactic| fstep) => `(tactic| exact LFatal.nodeSpace)
theorem LFatal.nodeSpace0 : LFatal nodeSpace0L := by unfold nodeSpace0L; fsolve
macro_rules | `(tactic| fstep) => `(tactic| exact LFatal.nodeSpace0)
theorem LFatal.nodeSpace1 : LFatal nodeSpace1L := by unfold nodeSpace1L; fsolve
macro_rules | `(tactic| fstep) => `(tactic| exact LFatal.nodeSpace1)
theorem LFatal.lineSpace : LFatal lineSpaceL := by unfold lineSpaceL; fsolve
macro_rules | `(tactic| fstep) => `(tactic| exact LFatal.lineSpace)
theorem LFatal.nodeTerminator : LFatal nodeTerminatorL := by unfold nodeTerminatorL; fsolve
macro_rules | `(tactic| fstep) => `(tactic| exact LFatal.nodeTerminator)
theorem LFatal.slashdash : LFatal slashdashL := by unfold slashdashL; fsolve
macro_rules | `(tactic| fstep) => `(tactic| exact LFatal.slashdash)

/-! ### The grammar -/

/-- A fatal error without a region is about an unclosed comment. -/
def DFatal (p : D α) : Prop := ∀ s l e r l', p s l = .cut e none r l' → e.label = commentCx.label

theorem DFatal.pure {a : α} : DFatal (Pure.pure a : D α) := fun _ _ _ _ _ h => by cases h
theorem DFatal.here : DFatal D.here := fun _ _ _ _ _ h => by cases h
theorem DFatal.crash : DFatal (fun _ _ => .crash : D α) := fun _ _ _ _ _ h => by cases h

theorem DFatal.lift {p : L α} (hp : LFatal p) : DFatal (D.lift p) := by
  intro s l e r l' h
  unfold D.lift at h
  cases hr : p s with
  | cut e r => rw [hr] at h; cases h; exact hp _ _ _ hr
  | _ => rw [hr] at h; cases h

theorem DFatal.bind {p : D α} {f : α → D β} (hp : DFatal p) (hf : ∀ a, DFatal (f a)) : DFatal (p >>= f) := by
  intro s l e r l' h
  rw [D.bind_def] at h
  cases hr : p s l with
  | ok a r l => rw [hr] at h; exact hf a _ _ _ _ _ h
  | cut e g r l => rw [hr] at h; cases h; exact hp _ _ _ _ _ hr
  | _ => rw [hr] at h; cases h

theorem DFatal.alt {p q : D α} (hp : DFatal p) (hq : DFatal q) : DFatal (D.alt p q) := by
  intro s l e r l' h
  unfold D.alt at h
  cases hr : p s l with
  | back e r l => rw [hr] at h; exact hq _ _ _ _ _ h
  | cut e g r l => rw [hr] at h; cases h; exact hp _ _ _ _ _ hr
  | _ => rw [hr] at h; cases h

theorem DFatal.opt {p : D α} (hp : DFatal p) : DFatal (D.opt p) := by
  intro s l e r l' h
  unfold D.opt at h
  cases hr : p s l with
  | cut e g r l => rw [hr] at h; cases h; exact hp _ _ _ _ _ hr
  | _ => rw [hr] at h; cases h

theorem DFatal.takeP {p : D α} (hp : DFatal p) : DFatal (D.takeP p) :=
  .bind .here fun _ => .bind hp fun _ => .bind .here fun _ => .pure
theorem DFatal.void {p : D α} (hp : DFatal p) : DFatal (D.void p) := .bind hp fun _ => .pure

theorem DFatal.rep0 {p : D α} (hp : DFatal p) : DFatal (D.rep0 p) := by
  have : ∀ n, DFatal (D.repFuel p n) := by
    intro n
    induction n with
    | zero => intro s l e r l' h; cases h
    | succ n ih =>
      intro s l e r l' h
      unfold D.repFuel at h
      cases hr : p s l with
      | ok a r1 l1 =>
        rw [hr] at h
        by_cases hl : r1.length < s.length
        · simp only [hl, if_true] at h
          cases hq : D.repFuel p n r1 l1 with
          | cut e g r l => rw [hq] at h; cases h; exact ih _ _ _ _ _ hq
          | _ => rw [hq] at h; cases h
        · simp only [hl, if_false] at h; cases h
      | cut e g r l => rw [hr] at h; cases h; exact hp _ _ _ _ _ hr
      | _ => rw [hr] at h; cases h
  exact fun s l e r l' h => this _ s l e r l' h

theorem DFatal.sepMore {p : D α} {q : D β} (hp : DFatal p) (hq : DFatal q) : DFatal (D.sepMore p q) := by
  have : ∀ n, DFatal (D.sepFuel p q n) := by
    intro n
    induction n with
    | zero => intro s l e r l' h; cases h
    | succ n ih =>
      intro s l e r l' h
      unfold D.sepFuel at h
      cases hr : q s l with
      | ok a r1 l1 =>
        rw [hr] at h
        by_cases hl : r1.length < s.length
        · simp only [hl, if_true] at h
          cases hs : p r1 l1 with
          | ok a r2 l2 =>
            rw [hs] at h
            simp only at h
            cases hx : D.sepFuel p q n r2 l2 with
            | cut e g r l => rw [hx] at h; cases h; exact ih _ _ _ _ _ hx
            | _ => rw [hx] at h; cases h
          | cut e g r l => rw [hs] at h; cases h; exact hp _ _ _ _ _ hs
          | _ => rw [hs] at h; cases h
        · simp only [hl, if_false] at h; cases h
      | cut e g r l => rw [hr] at h; cases h; exact hq _ _ _ _ _ hr
      | _ => rw [hr] at h; cases h
  exact fun s l e r l' h => this _ s l e r l' h

theorem DFatal.sep1 {p : D α} {q : D β} (hp : DFatal p) (hq : DFatal q) : DFatal (D.sep1 p q) :=
  .bind hp fun _ => .bind (.sepMore hp hq) fun _ => .pure

theorem DFatal.sep0 {p : D α} {q : D β} (hp : DFatal p) (hq : DFatal q) : DFatal (D.sep0 p q) := by
  intro s l e r l' h
  unfold D.sep0 at h
  cases hr : p s l with
  | ok a r1 l1 =>
    rw [hr] at h
    simp only at h
    cases hs : D.sepMore p q r1 l1 with
    | cut e g r l => rw [hs] at h; cases h; exact DFatal.sepMore hp hq _ _ _ _ _ hs
    | _ => rw [hs] at h; cases h
  | cut e g r l => rw [hr] at h; cases h; exact hp _ _ _ _ _ hr
  | _ => rw [hr] at h; cases h

/-- Recovery gives its errors a region. -/
theorem DFatal.resume {p : D α} {q : P Unit} : DFatal (D.resume p q) := by
  intro s l e r l' h
  unfold D.resume at h
  cases hr : p s l with
  | cut e1 g1 r1 l1 =>
    rw [hr] at h
    simp only at h
    cases hq : q r1 <;> rw [hq] at h <;> cases h
  | _ => rw [hr] at h; cases h

theorem DFatal.located {p : D α} : DFatal (D.mapCut (fun s r e => some (located e s r)) p) := by
  intro s l e r l' h
  unfold D.mapCut at h
  cases hr : p s l <;> rw [hr] at h <;> cases h

macro_rules | `(tactic| fstep) => `(tactic| with_reducible first
  | exact DFatal.pure | exact DFatal.here | exact DFatal.resume | exact DFatal.located
  | apply DFatal.lift | apply DFatal.bind | apply DFatal.alt | apply DFatal.opt
  | apply DFatal.takeP | apply DFatal.void | apply DFatal.rep0 | apply DFatal.sepMore | apply DFatal.sep1 | apply DFatal.sep0)
macro_rules | `(tactic| fstep) => `(tactic| split)

theorem DFatal.string : DFatal stringD := .alt .resume (.alt .resume .resume)
macro_rules | `(tactic| fstep) => `(tactic| exact DFatal.string)
theorem DFatal.identifier (total : Nat) : DFatal (identifierD total) := by unfold identifierD; fsolve
macro_rules | `(tactic| fstep) => `(tactic| exact DFatal.identifier _)
theorem DFatal.ty (total : Nat) : DFatal (tyD total) := by unfold tyD; fsolve
macro_rules | `(tactic| fstep) => `(tactic| exact DFatal.ty _)

section
variable [FloatIO]

theorem DFatal.entryBody (total : Nat) : DFatal (entryBodyD total) := by
  have h3 : LFatal equalsSignL := .lit
  unfold entryBodyD; fsolve

theorem DFatal.nodeEntryN (total n : Nat) : DFatal (nodeEntryDN total n) := by
  induction n with
  | zero => exact .crash
  | succ n ih =>
    have := DFatal.entryBody total
    unfold nodeEntryDN nodeEntryDF entryLeadingDF slashdashedEntriesDF
    fsolve
theorem DFatal.nodeEntry (total : Nat) : DFatal (nodeEntryD total) := fun s l e r l' h => DFatal.nodeEntryN total _ s l e r l' h

theorem DFatal.slashdashedEntries (total : Nat) : DFatal (slashdashedEntriesD total) := by
  have := DFatal.nodeEntry total
  unfold slashdashedEntriesD slashdashedEntriesDF; fsolve

theorem DFatal.closeBrace (a b : Str) (d : Document) : DFatal (closeBraceD a b d) := by
  intro s l e r l' h
  unfold closeBraceD at h
  cases hr : L.lit ['}'] s <;> rw [hr] at h <;> cases h

section
variable {base : D Node} (h : DFatal base) (total : Nat)
include h

omit [FloatIO] in
theorem DFatal.leadingItems : DFatal (leadingItemsD base) := by unfold leadingItemsD; fsolve

omit [FloatIO] in
theorem DFatal.node : DFatal (nodeDF base) := by
  have := DFatal.leadingItems h
  unfold nodeDF; fsolve

omit [FloatIO] in
theorem DFatal.nodes : DFatal (nodesDF total base) := by
  have h1 := DFatal.leadingItems h
  have h2 := DFatal.node h
  unfold nodesDF; fsolve

theorem DFatal.nodeChildren : DFatal (nodeChildrenDF total base) := by
  unfold nodeChildrenDF
  exact .bind .here fun _ => .bind (.lift .lit) fun _ => .bind .here fun _ => .bind (.nodes h total) fun _ =>
    .closeBrace _ _ _

theorem DFatal.slashdashedChildren : DFatal (slashdashedChildrenDF total base) := by
  have := DFatal.nodeChildren h total
  unfold slashdashedChildrenDF; fsolve

theorem DFatal.beforeNodeChildren : DFatal (beforeNodeChildrenDF total base) := by
  have h1 := DFatal.slashdashedChildren h total
  have h2 := DFatal.slashdashedEntries total
  unfold beforeNodeChildrenDF; fsolve

theorem DFatal.children : DFatal (childrenD total base) := by
  have h1 := DFatal.beforeNodeChildren h total
  have h2 := DFatal.nodeChildren h total
  unfold childrenD; fsolve

theorem DFatal.tail (c : Bool) : DFatal (tailD total base c) := by
  have h1 := DFatal.beforeNodeChildren h total
  have h2 := DFatal.slashdashedChildren h total
  unfold tailD tailTextD; fsolve

theorem DFatal.badNode : DFatal (badNodeD total base) := by
  have h1 := DFatal.nodeChildren h total
  have h2 := DFatal.slashdashedChildren h total
  unfold badNodeD; fsolve

omit [FloatIO] h in
theorem DFatal.checkName (b : Str) (i : Ident) : DFatal (checkNameD b i) := by
  unfold checkNameD
  split
  · exact .resume
  · exact .pure

theorem DFatal.goodNode (s : Str) : DFatal (goodNodeD total base s) := by
  have h2 := DFatal.children h total
  have h3 := fun c => DFatal.tail h total c
  have h5 := DFatal.nodeEntry total
  unfold goodNodeD
  refine .bind (.opt (.ty total)) fun ty => .bind (.lift (.takeP .nodeSpace0)) fun a => .bind .here fun b =>
    .bind .resume fun n => .bind (.checkName _ _) fun _ => .bind ?_ fun es =>
    .bind h2 fun ch => .bind (h3 _) fun t => .bind (.lift .nodeSpace0) fun _ => .bind .here fun r => .pure
  unfold entriesD
  fsolve

omit [FloatIO] h in
theorem DFatal.openCurly {bad good : D Node} (hb : DFatal bad) (hg : DFatal good) : DFatal (openCurlyD bad good) := by
  intro s l e r l' h
  unfold openCurlyD at h
  rcases hr : D.resume (.lift (.cutErr (.ctx openCx (.notP (.lit ['{']))))) (lit ['{']) s l with ⟨_ | _, r, l'⟩ | _ | _ | _ <;>
    rw [hr] at h
  · exact hb _ _ _ _ _ h
  · exact hg _ _ _ _ _ h
  · cases h
  · cases h; exact DFatal.resume _ _ _ _ _ hr
  · cases h

theorem DFatal.baseNodeF : DFatal (baseNodeDF total base) := by
  unfold baseNodeDF
  exact .bind (.lift (.notP (.alt .lit .eof))) fun _ => .bind .here fun s =>
    .openCurly (.badNode h total) (.goodNode h total s)

end

theorem DFatal.baseNode (total : Nat) : DFatal (baseNodeD total) := by
  have : ∀ n, DFatal (baseNodeDN total n) := by
    intro n
    induction n with
    | zero => exact .crash
    | succ n ih => exact .baseNodeF ih total
  exact fun s l e r l' h => this _ s l e r l' h

theorem DFatal.document (total n : Nat) : DFatal (documentDN total n) := by
  induction n with
  | zero => exact .crash
  | succ n ih =>
    unfold documentDN documentDF
    refine .bind (.lift (.opt (.takeP .lit))) fun b => .bind (.nodes (.baseNode total) total) fun d => .bind ?_ fun _ => ?_
    · unfold docEndD
      refine .bind .resume fun fin => ?_
      cases fin with
      | none => exact .void ih
      | some _ => exact .pure
    · cases b <;> exact .pure

end

end Kdl
