import Verif.Model.Diag
/-
Every error that the grammar of documents records or fails with has a label.
-/

namespace Kdl

/-- Not left without a label. -/
def PErr.Told (e : PErr) : Prop := e.label.isSome
/-- All have labels. -/
def ToldAll (l : List Rec) : Prop := ∀ x ∈ l, x.1.Told

theorem PErr.Told.within {c : PErr} (h : c.Told) (e : PErr) : (c.within e).Told := by
  rcases c with ⟨m, _ | lb, hp⟩
  · simp [PErr.Told] at h
  · simp [PErr.Told, PErr.within]

theorem PErr.Told.outer {e : PErr} (h : e.Told) (c : PErr) : (c.within e).Told := by
  rcases e with ⟨m, _ | lb, hp⟩
  · simp [PErr.Told] at h
  · rcases c with ⟨_, _ | _, _⟩ <;> simp [PErr.Told, PErr.within]

theorem ToldAll.add {l : List Rec} (h : ToldAll l) {e : PErr} (he : e.Told) (g : Region) : ToldAll (l ++ [(e, g)]) := by
  intro x hx
  rcases List.mem_append.mp hx with hx | hx
  · exact h x hx
  · rw [List.mem_singleton.mp hx]; exact he

/-! ### Lexical parsers -/

/-- The fatal errors have labels. -/
def LTold (p : L α) : Prop := ∀ s e r, p s = .cut e r → e.Told

theorem LTold.pure {a : α} : LTold (Pure.pure a : L α) := fun _ _ _ h => by cases h
theorem LTold.here : LTold L.here := fun _ _ _ h => by cases h

theorem LTold.bind {p : L α} {f : α → L β} (hp : LTold p) (hf : ∀ a, LTold (f a)) : LTold (p >>= f) := by
  intro s e r h
  change L.bind p f s = _ at h
  unfold L.bind at h
  cases hr : p s with
  | ok a r' => rw [hr] at h; exact hf a _ _ _ h
  | cut e' r' => rw [hr] at h; cases h; exact hp _ _ _ hr
  | _ => rw [hr] at h; cases h

theorem LTold.alt {p q : L α} (hp : LTold p) (hq : LTold q) : LTold (L.alt p q) := by
  intro s e r h
  unfold L.alt at h
  cases hr : p s with
  | back e r' => rw [hr] at h; exact hq _ _ _ h
  | cut e' r' => rw [hr] at h; cases h; exact hp _ _ _ hr
  | _ => rw [hr] at h; cases h

theorem LTold.opt {p : L α} (hp : LTold p) : LTold (L.opt p) := by
  intro s e r h
  unfold L.opt at h
  cases hr : p s with
  | cut e' r' => rw [hr] at h; cases h; exact hp _ _ _ hr
  | _ => rw [hr] at h; cases h

theorem LTold.peek {p : L α} (hp : LTold p) : LTold (L.peek p) := by
  intro s e r h
  unfold L.peek at h
  cases hr : p s with
  | cut e' r' => rw [hr] at h; cases h; exact hp _ _ _ hr
  | _ => rw [hr] at h; cases h

theorem LTold.notP {p : L α} (hp : LTold p) : LTold (L.notP p) := by
  intro s e r h
  unfold L.notP at h
  cases hr : p s with
  | cut e' r' => rw [hr] at h; cases h; exact hp _ _ _ hr
  | _ => rw [hr] at h; cases h

theorem LTold.ctx {c : PErr} {p : L α} (hc : c.Told) : LTold (L.ctx c p) := by
  intro s e r h
  unfold L.ctx at h
  cases hr : p s with
  | cut e' r' => rw [hr] at h; cases h; exact hc.within _
  | _ => rw [hr] at h; cases h

/-- A fatal error made of one with a label. -/
theorem LTold.cutCtx {c : PErr} {p : L α} (hc : c.Told) : LTold (L.cutErr (L.ctx c p)) := by
  intro s e r h
  unfold L.cutErr L.ctx at h
  cases hr : p s with
  | cut e' r' => rw [hr] at h; cases h; exact hc.within _
  | back e' r' => rw [hr] at h; cases h; exact hc.within _
  | _ => rw [hr] at h; cases h

theorem LTold.takeP {p : L α} (hp : LTold p) : LTold (L.takeP p) :=
  .bind .here fun _ => .bind hp fun _ => .bind .here fun _ => .pure
theorem LTold.void {p : L α} (hp : LTold p) : LTold (L.void p) := .bind hp fun _ => .pure

theorem LTold.lit {t : Str} : LTold (L.lit t) := by
  intro s e r h
  unfold L.lit at h
  cases hr : stripPrefix? t s <;> rw [hr] at h <;> cases h

theorem LTold.satisfy {f : Char → Bool} : LTold (L.satisfy f) := by
  intro s e r h
  unfold L.satisfy at h
  rcases s with _ | ⟨c, s⟩
  · cases h
  · simp only at h; split at h <;> cases h

theorem LTold.anyChar : LTold L.anyChar := .satisfy

theorem LTold.eof : LTold L.eof := by
  intro s e r h
  rcases s with _ | ⟨c, s⟩ <;> cases h

theorem LTold.rep0 {p : L α} (hp : LTold p) : LTold (L.rep0 p) := by
  have : ∀ n, LTold (L.repFuel p n) := by
    intro n
    induction n with
    | zero => intro s e r h; cases h
    | succ n ih =>
      intro s e r h
      unfold L.repFuel at h
      cases hr : p s with
      | ok a r' =>
        rw [hr] at h
        by_cases hl : r'.length < s.length
        · simp only [hl, if_true] at h
          cases hq : L.repFuel p n r' with
          | cut e' r'' => rw [hq] at h; cases h; exact ih _ _ _ hq
          | _ => rw [hq] at h; cases h
        · simp only [hl, if_false] at h; cases h
      | cut e' r' => rw [hr] at h; cases h; exact hp _ _ _ hr
      | _ => rw [hr] at h; cases h
  intro s e r h
  exact this _ _ _ _ h

theorem LTold.rep1 {p : L α} (hp : LTold p) : LTold (L.rep1 p) := .bind hp fun _ => .bind (.rep0 hp) fun _ => .pure

theorem LTold.repTill {p : L α} {q : L β} (hp : LTold p) (hq : LTold q) : LTold (L.repTill p q) := by
  have : ∀ n, LTold (L.repTillFuel p q n) := by
    intro n
    induction n with
    | zero => intro s e r h; cases h
    | succ n ih =>
      intro s e r h
      unfold L.repTillFuel at h
      cases hr : q s with
      | ok a r' => rw [hr] at h; cases h
      | cut e' r' => rw [hr] at h; cases h; exact hq _ _ _ hr
      | back e' r' =>
        rw [hr] at h
        simp only at h
        cases hs : p s with
        | ok a r' =>
          rw [hs] at h
          by_cases hl : r'.length < s.length
          · simp only [hl, if_true] at h
            cases hq : L.repTillFuel p q n r' with
            | cut e' r'' => rw [hq] at h; cases h; exact ih _ _ _ hq
            | ok a r'' => rcases a with ⟨_, _⟩; rw [hq] at h; cases h
            | _ => rw [hq] at h; cases h
          · simp only [hl, if_false] at h; cases h
        | cut e' r' => rw [hs] at h; cases h; exact hp _ _ _ hs
        | _ => rw [hs] at h; cases h
      | crash => rw [hr] at h; cases h
  intro s e r h
  exact this _ _ _ _ h

theorem commentCx_told : commentCx.Told := rfl

/-- One step of `tsolve`. -/
syntax "tstep" : tactic
macro_rules | `(tactic| tstep) => `(tactic| with_reducible first
  | exact LTold.pure | exact LTold.here | exact LTold.lit | exact LTold.satisfy | exact LTold.anyChar | exact LTold.eof
  | exact LTold.ctx commentCx_told
  | apply LTold.bind | apply LTold.alt | apply LTold.opt | apply LTold.peek | apply LTold.notP
  | apply LTold.takeP | apply LTold.void | apply LTold.rep0 | apply LTold.rep1 | apply LTold.repTill)
macro_rules | `(tactic| tstep) => `(tactic| with_reducible assumption)
macro_rules | `(tactic| tstep) => `(tactic| (with_reducible refine LTold.ctx ?_); exact rfl)
macro_rules | `(tactic| tstep) => `(tactic| (with_reducible refine LTold.cutCtx ?_); exact rfl)
/-- Follows the structure of a parser. -/
macro "tsolve" : tactic => `(tactic| repeat' first | tstep | intro _)

theorem LTold.newline : LTold newlineL := by unfold newlineL; tsolve
macro_rules | `(tactic| tstep) => `(tactic| exact LTold.newline)
theorem LTold.unicodeSpace : LTold unicodeSpaceL := by unfold unicodeSpaceL; tsolve
macro_rules | `(tactic| tstep) => `(tactic| exact LTold.unicodeSpace)
theorem LTold.singleLineComment : LTold singleLineCommentL := by unfold singleLineCommentL; tsolve
macro_rules | `(tactic| tstep) => `(tactic| exact LTold.singleLineComment)
theorem LTold.multiLineComment : LTold multiLineCommentL := by
  intro s e r h
  exact LTold.bind .lit (fun _ => .ctx commentCx_told) s e r h
macro_rules | `(tactic| tstep) => `(tactic| exact LTold.multiLineComment)
theorem LTold.ws : LTold wsL := by unfold wsL; tsolve
macro_rules | `(tactic| tstep) => `(tactic| exact LTold.ws)
theorem LTold.wss : LTold wssL := by unfold wssL; tsolve
macro_rules | `(tactic| tstep) => `(tactic| exact LTold.wss)
theorem LTold.wsp : LTold wspL := by unfold wspL; tsolve
macro_rules | `(tactic| tstep) => `(tactic| exact LTold.wsp)
theorem LTold.escline : LTold esclineL := by unfold esclineL; tsolve
macro_rules | `(tactic| tstep) => `(tactic| exact LTold.escline)
theorem LTold.nodeSpace : LTold nodeSpaceL := by unfold nodeSpaceL; tsolve
macro_rules | `(tactic| tstep) => `(tactic| exact LTold.nodeSpace)
theorem LTold.nodeSpace0 : LTold nodeSpace0L := by unfold nodeSpace0L; tsolve
macro_rules | `(tactic| tstep) => `(tactic| exact LTold.nodeSpace0)
theorem LTold.nodeSpace1 : LTold nodeSpace1L := by unfold nodeSpace1L; tsolve
macro_rules | `(tactic| tstep) => `(tactic| exact LTold.nodeSpace1)
theorem LTold.lineSpace : LTold lineSpaceL := by unfold lineSpaceL; tsolve
macro_rules | `(tactic| tstep) => `(tactic| exact LTold.lineSpace)
theorem LTold.nodeTerminator : LTold nodeTerminatorL := by unfold nodeTerminatorL; tsolve
macro_rules | `(tactic| tstep) => `(tactic| exact LTold.nodeTerminator)
theorem LTold.slashdash : LTold slashdashL := by unfold slashdashL; tsolve
macro_rules | `(tactic| tstep) => `(tactic| exact LTold.slashdash)
theorem LTold.keyword : LTold keywordL := by unfold keywordL; tsolve
macro_rules | `(tactic| tstep) => `(tactic| exact LTold.keyword)
theorem LTold.integerValue : LTold integerValueL := by unfold integerValueL; tsolve
theorem LTold.floatValue [FloatIO] : LTold floatValueL := by unfold floatValueL; tsolve
theorem LTold.number [FloatIO] : LTold numberL := .alt .floatValue .integerValue

/-! ### The grammar -/

/-- What is recorded and the error that a parser fails with have labels. -/
def DRes.Told : DRes α → Prop
  | .ok _ _ l => ToldAll l
  | .back _ _ l => ToldAll l
  | .cut e _ _ l => e.Told ∧ ToldAll l
  | .crash => True

/-- Records and fatal errors with labels only. -/
def DTold (p : D α) : Prop := ∀ s l, ToldAll l → (p s l).Told

theorem DTold.pure {a : α} : DTold (Pure.pure a : D α) := fun _ _ h => h
theorem DTold.here : DTold D.here := fun _ _ h => h
theorem DTold.failP : DTold (D.failP : D α) := fun _ _ h => h
theorem DTold.crash : DTold (fun _ _ => .crash : D α) := fun _ _ _ => trivial

theorem DTold.lift {p : L α} (hp : LTold p) : DTold (D.lift p) := by
  intro s l h
  unfold D.lift
  cases hr : p s with
  | cut e r => exact ⟨hp _ _ _ hr, h⟩
  | crash => trivial
  | _ => exact h

theorem DTold.bind {p : D α} {f : α → D β} (hp : DTold p) (hf : ∀ a, DTold (f a)) : DTold (p >>= f) := by
  intro s l h
  have := hp s l h
  change (D.bind p f s l).Told
  unfold D.bind
  cases hr : p s l with
  | ok a r l => rw [hr] at this; exact hf a r l this
  | _ => rw [hr] at this; exact this

theorem DTold.alt {p q : D α} (hp : DTold p) (hq : DTold q) : DTold (D.alt p q) := by
  intro s l h
  have := hp s l h
  unfold D.alt
  cases hr : p s l with
  | back e r l => rw [hr] at this; exact hq s l this
  | _ => rw [hr] at this; exact this

theorem DTold.opt {p : D α} (hp : DTold p) : DTold (D.opt p) := by
  intro s l h
  have := hp s l h
  unfold D.opt
  cases hr : p s l <;> rw [hr] at this <;> exact this

theorem DTold.ctx {c : PErr} {p : D α} (hp : DTold p) : DTold (D.ctx c p) := by
  intro s l h
  have := hp s l h
  unfold D.ctx
  cases hr : p s l with
  | cut e g r l => rw [hr] at this; exact ⟨this.1.outer c, this.2⟩
  | _ => rw [hr] at this; exact this

/-- Records with labels only. -/
def DRecs (p : D α) : Prop := ∀ s l, ToldAll l →
  match p s l with
  | .ok _ _ l => ToldAll l
  | .back _ _ l => ToldAll l
  | .cut _ _ _ l => ToldAll l
  | .crash => True

theorem DTold.recs {p : D α} (hp : DTold p) : DRecs p := by
  intro s l h
  have := hp s l h
  cases hr : p s l <;> rw [hr] at this
  case cut => exact this.2
  all_goals exact this

theorem DRecs.lift {p : L α} : DRecs (D.lift p) := by
  intro s l h
  unfold D.lift
  cases hr : p s <;> first | trivial | exact h

theorem DRecs.bind {p : D α} {f : α → D β} (hp : DRecs p) (hf : ∀ a, DRecs (f a)) : DRecs (p >>= f) := by
  intro s l h
  have := hp s l h
  change match D.bind p f s l with
    | .ok _ _ l => ToldAll l
    | .back _ _ l => ToldAll l
    | .cut _ _ _ l => ToldAll l
    | .crash => True
  unfold D.bind
  cases hr : p s l with
  | ok a r l => rw [hr] at this; exact hf a r l this
  | _ => rw [hr] at this; exact this

/-- A context with a label gives it to all errors. -/
theorem DTold.ctxTold {c : PErr} {p : D α} (hc : c.Told) (hp : DRecs p) : DTold (D.ctx c p) := by
  intro s l h
  have := hp s l h
  unfold D.ctx
  cases hr : p s l with
  | cut e g r l => rw [hr] at this; exact ⟨hc.within e, this⟩
  | _ => rw [hr] at this; exact this

theorem DRecs.cutErr {p : D α} (hp : DRecs p) : DRecs (D.cutErr p) := by
  intro s l h
  have := hp s l h
  unfold D.cutErr
  cases hr : p s l <;> rw [hr] at this <;> exact this

theorem DTold.cutCtx {c : PErr} {p : D α} (hc : c.Told) (hp : DRecs p) : DTold (D.cutErr (D.ctx c p)) := by
  intro s l h
  have := hp s l h
  unfold D.cutErr D.ctx
  cases hr : p s l with
  | cut e g r l => rw [hr] at this; exact ⟨hc.within e, this⟩
  | back e r l => rw [hr] at this; exact ⟨hc.within e, this⟩
  | _ => rw [hr] at this; exact this

theorem DTold.takeP {p : D α} (hp : DTold p) : DTold (D.takeP p) :=
  .bind .here fun _ => .bind hp fun _ => .bind .here fun _ => .pure
theorem DTold.void {p : D α} (hp : DTold p) : DTold (D.void p) := .bind hp fun _ => .pure

theorem DTold.rep0 {p : D α} (hp : DTold p) : DTold (D.rep0 p) := by
  have : ∀ n, DTold (D.repFuel p n) := by
    intro n
    induction n with
    | zero => intro s l h; trivial
    | succ n ih =>
      intro s l h
      have h1 := hp s l h
      unfold D.repFuel
      cases hr : p s l with
      | ok a r l' =>
        rw [hr] at h1
        by_cases hl : r.length < s.length
        · simp only [hl, if_true]
          have h2 := ih r l' h1
          cases hq : D.repFuel p n r l' <;> rw [hq] at h2 <;> exact h2
        · simp only [hl, if_false]; trivial
      | _ => rw [hr] at h1; exact h1
  exact fun s l h => this _ s l h

theorem DTold.sepMore {p : D α} {q : D β} (hp : DTold p) (hq : DTold q) : DTold (D.sepMore p q) := by
  have : ∀ n, DTold (D.sepFuel p q n) := by
    intro n
    induction n with
    | zero => intro s l h; trivial
    | succ n ih =>
      intro s l h
      have h1 := hq s l h
      unfold D.sepFuel
      cases hr : q s l with
      | ok a r l' =>
        rw [hr] at h1
        by_cases hl : r.length < s.length
        · simp only [hl, if_true]
          have h2 := hp r l' h1
          cases hs : p r l' with
          | ok a r' l'' =>
            rw [hs] at h2
            simp only
            have h3 := ih r' l'' h2
            cases ht : D.sepFuel p q n r' l'' <;> rw [ht] at h3 <;> exact h3
          | _ => rw [hs] at h2; exact h2
        · simp only [hl, if_false]; trivial
      | _ => rw [hr] at h1; exact h1
  exact fun s l h => this _ s l h

theorem DTold.sep1 {p : D α} {q : D β} (hp : DTold p) (hq : DTold q) : DTold (D.sep1 p q) :=
  .bind hp fun _ => .bind (.sepMore hp hq) fun _ => .pure

theorem DTold.sep0 {p : D α} {q : D β} (hp : DTold p) (hq : DTold q) : DTold (D.sep0 p q) := by
  intro s l h
  have h1 := hp s l h
  unfold D.sep0
  cases hr : p s l with
  | ok a r l' =>
    rw [hr] at h1
    have h2 := DTold.sepMore hp hq r l' h1
    simp only
    cases hs : D.sepMore p q r l' <;> rw [hs] at h2 <;> exact h2
  | _ => rw [hr] at h1; exact h1

theorem DTold.resume {p : D α} {q : P Unit} (hp : DTold p) : DTold (D.resume p q) := by
  intro s l h
  have h1 := hp s l h
  unfold D.resume
  cases hr : p s l with
  | cut e g r l' =>
    rw [hr] at h1
    simp only
    cases hq : q r with
    | ok a r' => exact h1.2.add h1.1 _
    | crash => trivial
    | _ => exact h1
  | _ => rw [hr] at h1; exact h1

theorem DTold.mapCut {f : Str → Str → Option Region → Option Region} {p : D α} (hp : DTold p) : DTold (D.mapCut f p) := by
  intro s l h
  have h1 := hp s l h
  unfold D.mapCut
  cases hr : p s l <;> rw [hr] at h1 <;> exact h1

macro_rules | `(tactic| tstep) => `(tactic| split)
macro_rules | `(tactic| tstep) => `(tactic| with_reducible first
  | exact DTold.pure | exact DTold.here | exact DTold.failP | apply DTold.lift | apply DTold.bind | apply DTold.alt
  | apply DTold.opt | apply DTold.void | apply DTold.takeP | apply DTold.rep0 | apply DTold.sep1 | apply DTold.sep0
  | apply DTold.resume | apply DTold.mapCut)

theorem DTold.identSite : DTold identSiteD := .ctxTold rfl .lift
theorem DTold.quotedSite : DTold quotedSiteD := .ctxTold rfl .lift
theorem DTold.rawString : DRecs rawStringD := by
  unfold rawStringD
  refine .bind DTold.here.recs fun _ => .bind .lift fun b => ?_
  split
  · intro s l h; exact h
  · exact DTold.pure.recs
theorem DTold.rawSite : DTold rawSiteD :=
  .ctxTold rfl (.bind DTold.rawString fun _ => .bind .lift fun _ => DTold.pure.recs)
theorem DTold.string : DTold stringD := .alt (.resume .identSite) (.alt (.resume .rawSite) (.resume .quotedSite))
macro_rules | `(tactic| tstep) => `(tactic| exact DTold.string)

theorem DTold.identifier (total : Nat) : DTold (identifierD total) := by unfold identifierD; tsolve
macro_rules | `(tactic| tstep) => `(tactic| exact DTold.identifier _)

theorem DTold.tyBody (total : Nat) : DTold (tyBodyD total) := by
  refine .cutCtx rfl (.bind (DTold.identifier total).recs fun _ => .bind .lift fun _ => DTold.pure.recs)
theorem DTold.ty (total : Nat) : DTold (tyD total) := by
  have := DTold.tyBody total
  unfold tyD; tsolve
macro_rules | `(tactic| tstep) => `(tactic| exact DTold.ty _)

section
variable [FloatIO]

theorem DTold.valueBody : DTold valueBodyD := by
  have := LTold.number
  unfold valueBodyD; tsolve
theorem DTold.value (total : Nat) : DTold (valueD total) := by
  have := DTold.valueBody
  unfold valueD; tsolve

theorem DTold.propValue (total : Nat) : DTold (propValueD total) := .cutCtx rfl (DTold.value total).recs
theorem DTold.entryBody (total : Nat) : DTold (entryBodyD total) := by
  have h1 := DTold.propValue total
  have h2 := DTold.value total
  have h3 : LTold equalsSignL := .lit
  unfold entryBodyD; tsolve

theorem DTold.nodeEntryN (total n : Nat) : DTold (nodeEntryDN total n) := by
  induction n with
  | zero => exact .crash
  | succ n ih =>
    have := DTold.entryBody total
    unfold nodeEntryDN nodeEntryDF entryLeadingDF slashdashedEntriesDF
    tsolve
theorem DTold.nodeEntry (total : Nat) : DTold (nodeEntryD total) := fun s l h => DTold.nodeEntryN total _ s l h

theorem DTold.slashdashedEntries (total : Nat) : DTold (slashdashedEntriesD total) := by
  have := DTold.nodeEntry total
  unfold slashdashedEntriesD slashdashedEntriesDF; tsolve

theorem DTold.closeBrace (a b : Str) (d : Document) : DTold (closeBraceD a b d) := by
  intro s l h
  unfold closeBraceD
  cases hr : L.lit ['}'] s with
  | ok a r => exact h
  | _ =>
    change ToldAll _
    intro x hx
    rcases List.mem_append.mp hx with hx | hx
    · exact h x hx
    · rcases List.mem_cons.mp hx with rfl | hx
      · rfl
      · split at hx
        · cases hx
        · rw [List.mem_singleton.mp hx]; rfl

section
variable {base : D Node} (h : DTold base) (total : Nat)
include h

omit [FloatIO] in
theorem DTold.leadingItems : DTold (leadingItemsD base) := by unfold leadingItemsD; tsolve

omit [FloatIO] in
theorem DTold.node : DTold (nodeDF base) := by
  have := DTold.leadingItems h
  unfold nodeDF; tsolve

omit [FloatIO] in
theorem DTold.nodes : DTold (nodesDF total base) := by
  have h1 := DTold.leadingItems h
  have h2 := DTold.node h
  unfold nodesDF; tsolve

theorem DTold.nodeChildren : DTold (nodeChildrenDF total base) := by
  unfold nodeChildrenDF
  exact .bind .here fun _ => .bind (.lift .lit) fun _ => .bind .here fun _ => .bind (.nodes h total) fun _ =>
    .closeBrace _ _ _

theorem DTold.slashdashedChildren : DTold (slashdashedChildrenDF total base) := by
  have := DTold.nodeChildren h total
  unfold slashdashedChildrenDF; tsolve

theorem DTold.beforeNodeChildren : DTold (beforeNodeChildrenDF total base) := by
  have h1 := DTold.slashdashedChildren h total
  have h2 := DTold.slashdashedEntries total
  unfold beforeNodeChildrenDF; tsolve

theorem DTold.children : DTold (childrenD total base) := by
  have h1 := DTold.beforeNodeChildren h total
  have h2 := DTold.nodeChildren h total
  unfold childrenD; tsolve

theorem DTold.tail (c : Bool) : DTold (tailD total base c) := by
  have h1 := DTold.beforeNodeChildren h total
  have h2 := DTold.slashdashedChildren h total
  unfold tailD tailTextD; tsolve

theorem DTold.badNode : DTold (badNodeD total base) := by
  have h1 := DTold.nodeChildren h total
  have h2 := DTold.slashdashedChildren h total
  unfold badNodeD; tsolve

omit [FloatIO] h in
theorem nameCx_told : nameCx.Told := rfl
omit [FloatIO] h in
theorem openCx_told : openCx.Told := rfl

omit [FloatIO] h in
theorem DTold.checkName (b : Str) (i : Ident) : DTold (checkNameD b i) := by
  unfold checkNameD
  split
  · exact .resume (.ctxTold nameCx_told fun s l h => h)
  · exact .pure

omit [FloatIO] h in
theorem DTold.name : DTold (nameD total) := .ctxTold nameCx_told (.cutErr (DTold.identifier total).recs)

theorem DTold.goodNode (s : Str) : DTold (goodNodeD total base s) := by
  have h1 := DTold.name total
  have h2 := DTold.children h total
  have h3 := fun c => DTold.tail h total c
  have h5 := DTold.nodeEntry total
  unfold goodNodeD
  refine .bind (.opt (.ty total)) fun ty => .bind (.lift (.takeP .nodeSpace0)) fun a => .bind .here fun b =>
    .bind (.resume h1) fun n => .bind (.checkName _ _) fun _ => .bind ?_ fun es =>
    .bind h2 fun ch => .bind (h3 _) fun t => .bind (.lift .nodeSpace0) fun _ => .bind .here fun r => .pure
  unfold entriesD
  tsolve

omit [FloatIO] h in
theorem DTold.openCurly {bad good : D Node} (hb : DTold bad) (hg : DTold good) : DTold (openCurlyD bad good) := by
  intro s l hl
  have h1 : DTold (D.resume (.lift (.cutErr (.ctx openCx (.notP (.lit ['{']))))) (lit ['{'])) :=
    .resume (.lift (.cutCtx openCx_told))
  have h2 := h1 s l hl
  unfold openCurlyD
  rcases hr : D.resume (.lift (.cutErr (.ctx openCx (.notP (.lit ['{']))))) (lit ['{']) s l with ⟨_ | _, r, l'⟩ | _ | _ | _ <;>
    rw [hr] at h2
  · exact hb s l' h2
  · exact hg r l' h2
  all_goals exact h2

theorem DTold.baseNodeF : DTold (baseNodeDF total base) := by
  unfold baseNodeDF
  exact .bind (.lift (.notP (.alt .lit .eof))) fun _ => .bind .here fun s =>
    .openCurly (.badNode h total) (.goodNode h total s)

end

theorem DTold.baseNode (total : Nat) : DTold (baseNodeD total) := by
  have : ∀ n, DTold (baseNodeDN total n) := by
    intro n
    induction n with
    | zero => exact .crash
    | succ n ih => exact .baseNodeF ih total
  exact fun s l h => this _ s l h

/-! ### The document never backtracks -/

omit [FloatIO] in
/-- Never fails in a way that lets something else be tried. -/
def NoRetry (p : D α) : Prop := ∀ s l e r l', p s l ≠ .back e r l'

omit [FloatIO] in
theorem NoRetry.bind {p : D α} {f : α → D β} (hp : NoRetry p) (hf : ∀ a, NoRetry (f a)) : NoRetry (p >>= f) := by
  intro s l e r l' h
  change D.bind p f s l = _ at h
  unfold D.bind at h
  cases hr : p s l with
  | ok a r l => rw [hr] at h; exact hf a _ _ _ _ _ h
  | back e r l => exact hp _ _ _ _ _ hr
  | _ => rw [hr] at h; cases h

omit [FloatIO] in
theorem NoRetry.pure {a : α} : NoRetry (Pure.pure a : D α) := fun _ _ _ _ _ h => by cases h
omit [FloatIO] in
theorem NoRetry.here : NoRetry D.here := fun _ _ _ _ _ h => by cases h

omit [FloatIO] in
theorem NoRetry.optL {p : L α} : NoRetry (D.lift (L.opt p)) := by
  intro s l e r l' h
  unfold D.lift L.opt at h
  cases hr : p s <;> rw [hr] at h <;> cases h

omit [FloatIO] in
theorem NoRetry.rep0 {p : D α} : NoRetry (D.rep0 p) := by
  have : ∀ n, NoRetry (D.repFuel p n) := by
    intro n
    induction n with
    | zero => intro s l e r l' h; cases h
    | succ n ih =>
      intro s l e r l' h
      unfold D.repFuel at h
      cases hr : p s l with
      | ok a r1 l1 =>
        rw [hr] at h
        by_cases hl : r1.length < s.length
        · simp only [hl, if_true] at h
          cases hq : D.repFuel p n r1 l1 with
          | back e r l => exact ih _ _ _ _ _ hq
          | _ => rw [hq] at h; cases h
        · simp only [hl, if_false] at h; cases h
      | _ => rw [hr] at h; cases h
  exact fun s l e r l' h => this _ s l e r l' h

omit [FloatIO] in
theorem NoRetry.sepMore {p : D α} {q : D β} : NoRetry (D.sepMore p q) := by
  have : ∀ n, NoRetry (D.sepFuel p q n) := by
    intro n
    induction n with
    | zero => intro s l e r l' h; cases h
    | succ n ih =>
      intro s l e r l' h
      unfold D.sepFuel at h
      cases hr : q s l with
      | ok a r1 l1 =>
        rw [hr] at h
        by_cases hl : r1.length < s.length
        · simp only [hl, if_true] at h
          cases hs : p r1 l1 with
          | ok a r2 l2 =>
            rw [hs] at h
            simp only at h
            cases hq : D.sepFuel p q n r2 l2 with
            | back e r l => exact ih _ _ _ _ _ hq
            | _ => rw [hq] at h; cases h
          | _ => rw [hs] at h; cases h
        · simp only [hl, if_false] at h; cases h
      | _ => rw [hr] at h; cases h
  exact fun s l e r l' h => this _ s l e r l' h

omit [FloatIO] in
theorem NoRetry.sep0 {p : D α} {q : D β} : NoRetry (D.sep0 p q) := by
  intro s l e r l' h
  unfold D.sep0 at h
  cases hr : p s l with
  | ok a r1 l1 =>
    rw [hr] at h
    simp only at h
    cases hs : D.sepMore p q r1 l1 with
    | back e r l => exact NoRetry.sepMore _ _ _ _ _ hs
    | _ => rw [hs] at h; cases h
  | _ => rw [hr] at h; cases h

omit [FloatIO] in
theorem NoRetry.leadingItems {base : D Node} : NoRetry (leadingItemsD base) :=
  .bind .here fun _ => .bind .rep0 fun _ => .bind .here fun _ => .pure

omit [FloatIO] in
theorem NoRetry.nodes {base : D Node} (total : Nat) : NoRetry (nodesDF total base) := by
  unfold nodesDF
  exact .bind .leadingItems fun _ => .bind .here fun _ => .bind .sep0 fun _ => .bind .here fun _ =>
    .bind .optL fun _ => .bind .leadingItems fun _ => .pure

omit [FloatIO] in
theorem NoRetry.docEnd {p : D Document} (h : NoRetry p) : NoRetry (docEndD p) := by
  unfold docEndD
  refine .bind ?_ fun fin => ?_
  · intro s l e r l' h
    rcases s with _ | ⟨c, s⟩ <;> cases h
  · cases fin with
    | none => exact .bind h fun _ => .pure
    | some _ => exact .pure

theorem documentD_told (total n : Nat) : DTold (documentDN total n) ∧ NoRetry (documentDN total n) := by
  induction n with
  | zero => exact ⟨.crash, fun _ _ _ _ _ h => by cases h⟩
  | succ n ih =>
    unfold documentDN documentDF
    constructor
    · refine .bind (.lift (.opt (.takeP .lit))) fun b => .bind (.nodes (.baseNode total) total) fun d => .bind ?_ fun _ => ?_
      · unfold docEndD
        refine .bind (.resume (.ctxTold rfl .lift)) fun fin => ?_
        cases fin with
        | none => exact .void ih.1
        | some _ => exact .pure
      · cases b <;> exact .pure
    · refine .bind .optL fun b => .bind (.nodes total) fun d => .bind (.docEnd ih.2) fun _ => ?_
      cases b <;> exact .pure

end

end Kdl
