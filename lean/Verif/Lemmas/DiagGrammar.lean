import Verif.Lemmas.Diag
/-
The grammar with diagnostics follows the grammar with recovery.
-/

namespace Kdl

variable {α β : Type}

/-! ### The parsers that look for a place to go on -/

protected theorem Sfx.valueTerminator : Sfx valueTerminator := by
  unfold Kdl.valueTerminator
  exact .alt .eof (.alt (.lit _) (.alt (.lit _) (.alt (.lit _) (.alt (.lit _)
    (.alt Strict.nodeSpace.sfx Strict.nodeTerminator.sfx)))))

protected theorem OkTo.valueTerminator (n : Nat) : OkTo n valueTerminator := by
  unfold Kdl.valueTerminator
  exact .alt (.eof _) (.alt (.lit _ _) (.alt (.lit _ _) (.alt (.lit _ _) (.alt (.lit _ _)
    (.alt (.nodeSpace _) (.nodeTerminator _))))))

protected theorem Sfx.badval : Sfx badval := by
  unfold Kdl.badval
  exact .bind Strict.anyChar.sfx fun _ => .void (.repTill Strict.anyChar.sfx .peek)

protected theorem OkTo.badval (n : Nat) : OkTo n badval := by
  unfold Kdl.badval
  exact .bind (.anyChar _) Strict.anyChar.sfx fun _ =>
    .void (.repTill (.anyChar _) Strict.anyChar (.peek (.valueTerminator _)))

protected theorem OkTo.badvalTyChar (n : Nat) : OkTo n badvalTyChar := by
  unfold Kdl.badvalTyChar
  exact .alt (.lit _ _) (.alt (.lit _ _) (.alt (.nodeSpace _) (.nodeTerminator _)))

theorem OkTo.notThenAny {p : P α} {n : Nat} (h : OkTo n p) : OkTo n (do notP p; anyChar) :=
  .bind (.notP h) .notP fun _ => .anyChar _

protected theorem Sfx.badvalTy : Sfx badvalTy := by
  unfold Kdl.badvalTy
  exact .bind Strict.notThenAny.sfx fun _ => .void (.repTill Strict.notThenAny.sfx .peek)

protected theorem OkTo.badvalTy (n : Nat) : OkTo n badvalTy := by
  unfold Kdl.badvalTy
  exact .bind (.notThenAny (.badvalTyChar _)) Strict.notThenAny.sfx fun _ =>
    .void (.repTill (.notThenAny (.badvalTyChar _)) Strict.notThenAny (.peek (.badvalTyChar _)))

protected theorem Sfx.quotedStringTerminator : Sfx quotedStringTerminator := by
  unfold Kdl.quotedStringTerminator
  exact .alt (.lit _) (.alt (.lit _) .peek)

protected theorem OkTo.quotedStringTerminator (n : Nat) : OkTo n quotedStringTerminator := by
  unfold Kdl.quotedStringTerminator
  exact .alt (.lit _ _) (.alt (.lit _ _) (.peek (.valueTerminator _)))

protected theorem Sfx.quotedStringBadval : Sfx quotedStringBadval := by
  unfold Kdl.quotedStringBadval
  exact .bind (.repTill Strict.notThenAny.sfx .quotedStringTerminator) fun _ => .quotedStringTerminator

protected theorem OkTo.quotedStringBadval (n : Nat) : OkTo n quotedStringBadval := by
  unfold Kdl.quotedStringBadval
  exact .bind (.repTill (.notThenAny (.quotedStringTerminator _)) Strict.notThenAny (.quotedStringTerminator _))
    (.repTill Strict.notThenAny.sfx .quotedStringTerminator) fun _ => .quotedStringTerminator _

protected theorem Sfx.rawStringBadval : Sfx rawStringBadval := by
  unfold Kdl.rawStringBadval
  exact .void (.repTill Strict.notThenAny.sfx (.bind (.alt (.lit _) (.lit _)) fun _ => .peek))

protected theorem OkTo.rawStringBadval (n : Nat) : OkTo n rawStringBadval := by
  unfold Kdl.rawStringBadval
  exact .void (.repTill (.notThenAny (.alt (.lit _ _) (.lit _ _))) Strict.notThenAny
    (.bind (.alt (.lit _ _) (.lit _ _)) (.alt (.lit _) (.lit _)) fun _ =>
      .peek (.alt (.ws _) (.alt (.newline _) (.eof _)))))

theorem OkTo.all {p : P α} (h : ∀ n, OkTo n p) (s : Str) : p s ≠ .crash := h (s.length + 1) s (Nat.lt_succ_self _)

/-! ### Raw strings -/

theorem P.bind_assoc {γ : Type} (p : P α) (f : α → P β) (g : β → P γ) :
    (p >>= f) >>= g = p >>= fun a => f a >>= g := by
  funext s
  change P.bind (P.bind p f) g s = P.bind p (fun a => P.bind (f a) g) s
  unfold P.bind
  cases p s <;> rfl

theorem P.pure_bind (a : α) (g : α → P β) : ((Pure.pure a : P α) >>= g) = g a := rfl

theorem rawString_eq : rawString = rawOpen >>= fun b => if b = ['"'] then cutP else return b := by
  unfold Kdl.rawString Kdl.rawOpen
  simp only [P.bind_assoc]
  congr 1; funext hashes
  congr 1; funext ml
  cases ml <;> simp [P.bind_assoc, P.pure_bind]

/-! ### The recovery of the parser with diagnostics -/

section
variable [FloatIO]

/-- Where the parser with diagnostics resumes. -/
def siteResume (total : Nat) : Site → Str → Option Str
  | .ident => resumeD identSiteD badval
  | .raw => resumeD rawSiteD (rawStringBadval <+> badval)
  | .quoted => resumeD quotedSiteD (quotedStringBadval <+> badval)
  | .name => resumeD (nameD total) badval
  | .entry => resumeD (valueD total) badval
  | .ty => resumeD (tyBodyD total) badvalTy
  | .prop => fun _ => none

/-- Where the parser with diagnostics stops. -/
def siteStop (total : Nat) : Site → Str → Str
  | .ident => stopD identSiteD
  | .raw => stopD rawSiteD
  | .quoted => stopD quotedSiteD
  | .name => stopD (nameD total)
  | .entry => stopD (valueD total)
  | .ty => stopD (tyBodyD total)
  | .prop => stopD (propValueD total)

/-- The region of a raw string with the value `"`. -/
def rawRegionD (s : Str) : Option Region :=
  match rawStringL s with
  | .ok b r => if b = ['"'] then some ⟨s, r⟩ else none
  | _ => none

/-- The recovery of the parser with diagnostics, for a text of `total` bytes; `whole` says where the whole
parser stops. (What is not inside the text is left out here; there is no such thing.) -/
def diagRecovery (total : Nat) (whole : Str → Str) : Recovery where
  resume site s := (siteResume total site s).filter fun r => decide (r <:+ s)
  failed site s :=
    let r := match site with
      | some site => siteStop total site s
      | none => whole s
    if r <:+ s then r else s
  rawRegion := rawRegionD
  forward site s r h := by
    rw [Option.filter_eq_some_iff] at h
    obtain ⟨t, ht⟩ := of_decide_eq_true h.2
    exact ⟨t, ht.symm⟩
  forward_failed site s := by
    generalize (match site with
      | some site => siteStop total site s
      | none => whole s) = r
    by_cases h : r <:+ s
    · obtain ⟨t, ht⟩ := h
      rw [if_pos ⟨t, ht⟩]
      exact ⟨t, ht.symm⟩
    · rw [if_neg h]
      exact ⟨[], rfl⟩
  forward_raw s e h := by
    unfold rawRegionD at h
    split at h
    · rename_i b r hr
      split at h
      · cases h
        have := (LTr.rawOpen s).2
        rw [hr] at this
        obtain ⟨t, ht⟩ := this
        exact ⟨[], t, rfl, ht.symm⟩
      · cases h
    · cases h

theorem resumeD_suffix {p : D α} {q : R α} (h : DTr p q) {x : P Unit} (hx : Sfx x) {s r : Str}
    (hr : resumeD p x s = some r) : r <:+ s := by
  have := h.inside s
  unfold resumeD at hr
  cases hp : p s [] with
  | cut e g r' l =>
    rw [hp] at this hr
    simp only at hr
    cases hq : x r' with
    | ok a r'' =>
      rw [hq] at hr
      cases hr
      obtain ⟨t, ht⟩ := hx _ _ _ hq
      exact List.IsSuffix.trans ⟨t, ht.symm⟩ this
    | _ => rw [hq] at hr; cases hr
  | _ => rw [hp] at hr; cases hr

theorem stopD_suffix {p : D α} {q : R α} (h : DTr p q) (s : Str) : stopD p s <:+ s := by
  have := h.inside s
  unfold stopD
  cases hp : p s [] with
  | ok a r l => exact List.suffix_refl s
  | crash => exact List.suffix_refl s
  | back e r l => rw [hp] at this; exact this
  | cut e g r l => rw [hp] at this; exact this

variable (total : Nat) (whole : Str → Str)

theorem diag_resume {site : Site} {p : D α} {q : R α} (h : DTr p q) {x : P Unit} (hx : Sfx x)
    (he : siteResume total site = resumeD p x) (s : Str) :
    (diagRecovery total whole).resume site s = resumeD p x s := by
  change Option.filter _ (siteResume total site s) = _
  rw [he]
  cases hr : resumeD p x s with
  | none => rfl
  | some r => simp [Option.filter, resumeD_suffix h hx hr]

theorem diag_failed {site : Site} {p : D α} {q : R α} (h : DTr p q) (he : siteStop total site = stopD p) (s : Str) :
    (diagRecovery total whole).failed (some site) s = stopD p s := by
  change (if siteStop total site s <:+ s then siteStop total site s else s) = _
  rw [he, if_pos (stopD_suffix h s)]

/-- A site of the grammar. -/
theorem DTr.site {site : Site} {p : D α} {q : R α} (h : DTr p q) {x : P Unit} (hx : Sfx x)
    (hok : ∀ n, OkTo n x) (he : siteResume total site = resumeD p x) (hs : siteStop total site = stopD p) :
    DTr (.resume p x) (.resume (diagRecovery total whole) site q) :=
  .resume h (diag_resume total whole h hx he) (diag_failed total whole h hs) hx (OkTo.all hok)

/-! ### The grammar -/

/-- One step of `dsolve`. -/
syntax "dstep" : tactic
macro_rules | `(tactic| dstep) => `(tactic| intro _)
macro_rules | `(tactic| dstep) => `(tactic| split)
macro_rules | `(tactic| dstep) => `(tactic| lstep)
macro_rules | `(tactic| dstep) => `(tactic| with_reducible first
  | exact DTr.pure _ | exact DTr.here | exact DTr.failP | apply DTr.lift | apply DTr.bind | apply DTr.alt
  | apply DTr.opt | apply DTr.cutErr | apply DTr.void | apply DTr.takeP | apply DTr.rep0 | apply DTr.sep1
  | apply DTr.sep0 | apply DTr.ctx)
macro_rules | `(tactic| dstep) => `(tactic| with_reducible assumption)
/-- Follows the structure of the grammar. -/
macro "dsolve" : tactic => `(tactic| repeat' dstep)

/-- The raw string of the grammar with recovery. -/
abbrev rawSiteR (o : Recovery) : R Str :=
  .mapCut (fun s _ => o.rawRegion s) (.lift (do let s ← rawString; valueTerminatorCheck; return s))

/-- What is behind a raw string. -/
def rawStopL (b : Str) : L Str := do valueTerminatorCheckL; return b
/-- The same in the strict model. -/
def rawStop (b : Str) : P Str := do valueTerminatorCheck; return b

omit [FloatIO] in
theorem rawSite_run (s : Str) (l : List Rec) :
    (do let s ← rawStringD; .lift valueTerminatorCheckL; return s : D Str) s l =
      match rawStringL s with
      | .ok b r => if b = ['"'] then tripleQuotesD s r l else D.lift (rawStopL b) r l
      | .back e r => .back e r l
      | .cut e r => .cut e none r l
      | .crash => .crash := by
  change D.bind (D.bind D.here fun s => D.bind (D.lift rawStringL) fun body =>
    if body = ['"'] then tripleQuotesD s else D.pure body)
    (fun s => D.bind (D.lift valueTerminatorCheckL) fun _ => D.pure s) s l = _
  unfold D.bind D.here
  simp only
  unfold D.lift
  cases rawStringL s with
  | ok b r =>
    simp only
    by_cases hb : b = ['"']
    · simp only [if_pos hb]; rfl
    · simp only [if_neg hb]
      have hv : rawStopL b r = L.bind valueTerminatorCheckL (fun _ => L.pure b) r := rfl
      rw [hv]
      unfold L.bind
      cases h : valueTerminatorCheckL r <;> simp only [D.pure, h] <;> rfl
  | _ => rfl

omit [FloatIO] in
theorem rawSiteR_run (s : Str) :
    (do let s ← rawString; valueTerminatorCheck; return s : P Str) s =
      match rawOpen s with
      | .ok b r => if b = ['"'] then .cut else rawStop b r
      | .back => .back
      | .cut => .cut
      | .crash => .crash := by
  rw [rawString_eq, P.bind_assoc]
  change P.bind rawOpen _ s = _
  unfold P.bind
  cases rawOpen s with
  | ok b r =>
    simp only
    by_cases hb : b = ['"']
    · simp only [if_pos hb]; rfl
    · simp only [if_neg hb]; rfl
  | _ => rfl

omit [FloatIO] in
theorem LTr.rawStop (b : Str) : LTr (rawStopL b) (rawStop b) := by
  unfold Kdl.rawStopL Kdl.rawStop
  exact .bind .valueTerminatorCheck fun _ => .pure _

theorem DTr.rawSite : DTr rawSiteD (rawSiteR (diagRecovery total whole)) := by
  unfold rawSiteD
  refine .ctx ⟨fun s l => ?_, fun s => ?_, fun s l => ?_⟩
  · rw [rawSite_run]
    have hg : (diagRecovery total whole).rawRegion s = rawRegionD s := rfl
    unfold rawSiteR R.mapCut R.lift
    rw [rawSiteR_run, ← (LTr.rawOpen s).1]
    simp only [hg]
    unfold rawRegionD
    cases rawStringL s with
    | ok b r =>
      simp only [LRes.erase]
      by_cases hb : b = ['"']
      · simp only [if_pos hb]; rfl
      · simp only [if_neg hb]
        unfold D.lift
        rw [← (LTr.rawStop b r).1]
        cases rawStopL b r <;> rfl
    | _ => rfl
  · rw [rawSite_run]
    have := (LTr.rawOpen s).2
    cases hr : rawStringL s with
    | ok b r =>
      rw [hr] at this
      simp only
      by_cases hb : b = ['"']
      · rw [if_pos hb]; exact this
      · rw [if_neg hb]
        exact ((DTr.lift (LTr.rawStop b)).inside r).mono this
    | _ => rw [hr] at this; exact this
  · rw [rawSite_run, rawSite_run]
    cases rawStringL s with
    | ok b r =>
      simp only
      by_cases hb : b = ['"']
      · simp [if_pos hb, tripleQuotesD, DRes.after]
      · rw [if_neg hb, if_neg hb]
        exact (DTr.lift (LTr.rawStop b)).after r l
    | _ => simp [DRes.after]

theorem DTr.identSite : DTr identSiteD (.lift (do let s ← identifierString; valueTerminatorCheck; return s)) := by
  unfold identSiteD; dsolve

theorem DTr.quotedSite : DTr quotedSiteD (.lift (do let s ← quotedString; valueTerminatorCheck; return s)) := by
  unfold quotedSiteD; dsolve

protected theorem DTr.stringD : DTr stringD (stringR (diagRecovery total whole)) := by
  unfold Kdl.stringD Kdl.stringR
  refine .alt (.site _ _ .identSite .badval .badval rfl rfl) (.alt (.site _ _ (.rawSite _ _) ?_ ?_ rfl rfl)
    (.site _ _ .quotedSite ?_ ?_ rfl rfl))
  · exact .alt .rawStringBadval .badval
  · exact fun n => .alt (.rawStringBadval n) (.badval n)
  · exact .alt .quotedStringBadval .badval
  · exact fun n => .alt (.quotedStringBadval n) (.badval n)
macro_rules | `(tactic| dstep) => `(tactic| with_reducible exact DTr.stringD _ _)

protected theorem DTr.identifierD : DTr (identifierD total) (identifierR (diagRecovery total whole) total) := by
  unfold Kdl.identifierD Kdl.identifierR
  refine .bind .here fun _ => .bind (.stringD total whole) fun v => .bind .here fun _ => ?_
  cases v <;> exact .pure _
macro_rules | `(tactic| dstep) => `(tactic| with_reducible exact DTr.identifierD _ _)

/-- The contents of a type annotation in the grammar with recovery. -/
abbrev tyBodyR (o : Recovery) : R Ident := R.cutErr (do
  let i ← identifierR o total
  .lift (peek (nodeSpace <+> lit [')']))
  return i)

theorem DTr.tyBody : DTr (tyBodyD total) (tyBodyR total (diagRecovery total whole)) := by
  unfold Kdl.tyBodyD Kdl.tyBodyR; dsolve

protected theorem DTr.tyD : DTr (tyD total) (tyR (diagRecovery total whole) total) := by
  unfold Kdl.tyD Kdl.tyR
  have := DTr.site total whole (.tyBody total whole) (site := .ty) .badvalTy .badvalTy rfl rfl
  dsolve
macro_rules | `(tactic| dstep) => `(tactic| with_reducible exact DTr.tyD _ _)

protected theorem DTr.valueBodyD : DTr valueBodyD (valueBodyR (diagRecovery total whole)) := by
  unfold Kdl.valueBodyD Kdl.valueBodyR; dsolve
macro_rules | `(tactic| dstep) => `(tactic| with_reducible exact DTr.valueBodyD _ _)

protected theorem DTr.valueD : DTr (valueD total) (valueR (diagRecovery total whole) total) := by
  unfold Kdl.valueD Kdl.valueR
  refine .bind .here fun _ => .bind (.opt (by dsolve)) fun ty => .bind .here fun _ =>
    .bind (.valueBodyD total whole) fun _ => .bind .here fun _ => ?_
  rcases ty with _ | ⟨⟨_, _, _⟩, _⟩ <;> exact .pure _
macro_rules | `(tactic| dstep) => `(tactic| with_reducible exact DTr.valueD _ _)

protected theorem DTr.slashdashedEntriesDF {p : D (Option Entry)} {q : R (Option Entry)} (h : DTr p q) :
    DTr (slashdashedEntriesDF p) (slashdashedEntriesRF q) := by
  unfold Kdl.slashdashedEntriesDF Kdl.slashdashedEntriesRF; dsolve

protected theorem DTr.entryLeadingDF {p : D (Option Entry)} {q : R (Option Entry)} (h : DTr p q) :
    DTr (entryLeadingDF p) (entryLeadingRF q) := by
  unfold Kdl.entryLeadingDF Kdl.entryLeadingRF
  have := DTr.slashdashedEntriesDF h
  dsolve

theorem DTr.propValue : DTr (propValueD total) (R.cutErr (valueR (diagRecovery total whole) total)) := by
  unfold propValueD; dsolve

theorem DTr.propRegion : DTr (D.mapCut (fun s r e => some (located e s r)) (propValueD total))
    (R.mapCut (fun s e => some (located e s ((diagRecovery total whole).failed (some .prop) s)))
      (R.cutErr (valueR (diagRecovery total whole) total))) := by
  refine .mapCut (.propValue total whole) fun s e g r l h => ?_
  have : (diagRecovery total whole).failed (some .prop) s = r := by
    rw [diag_failed total whole (.propValue total whole) rfl, stopD, h]
  rw [this]

protected theorem DTr.entryBodyD : DTr (entryBodyD total) (entryBodyR (diagRecovery total whole) total) := by
  unfold Kdl.entryBodyD Kdl.entryBodyR
  have h1 := DTr.site total whole (.valueD total whole) (site := .entry) .badval .badval rfl rfl
  have h2 := DTr.propRegion total whole
  dsolve
macro_rules | `(tactic| dstep) => `(tactic| with_reducible exact DTr.entryBodyD _ _)

protected theorem DTr.nodeEntryDN (n : Nat) :
    DTr (nodeEntryDN total n) (nodeEntryRN (diagRecovery total whole) total n) := by
  induction n with
  | zero => exact .crash
  | succ n ih =>
    unfold Kdl.nodeEntryDN Kdl.nodeEntryRN Kdl.nodeEntryDF Kdl.nodeEntryRF
    have := DTr.entryLeadingDF ih
    dsolve

protected theorem DTr.nodeEntryD : DTr (nodeEntryD total) (nodeEntryR (diagRecovery total whole) total) where
  erase s l := (DTr.nodeEntryDN total whole _).erase s l
  inside s := (DTr.nodeEntryDN total whole _).inside s
  after s l := (DTr.nodeEntryDN total whole _).after s l
macro_rules | `(tactic| dstep) => `(tactic| with_reducible exact DTr.nodeEntryD _ _)

protected theorem DTr.slashdashedEntriesD :
    DTr (slashdashedEntriesD total) (slashdashedEntriesR (diagRecovery total whole) total) :=
  .slashdashedEntriesDF (.nodeEntryD total whole)
macro_rules | `(tactic| dstep) => `(tactic| with_reducible exact DTr.slashdashedEntriesD _ _)

section
variable {base : D Node} {baseR : R Node} (h : DTr base baseR)
include h

omit [FloatIO] in
protected theorem DTr.leadingItemsD : DTr (leadingItemsD base) (leadingItemsR baseR) := by
  unfold Kdl.leadingItemsD Kdl.leadingItemsR
  exact .takeP (.rep0 (.alt (.lift .lineSpace) (.bind (.lift .slashdash) fun _ => .void h)))

omit [FloatIO] in
protected theorem DTr.nodeDF : DTr (nodeDF base) (nodeRF baseR) := by
  unfold Kdl.nodeDF Kdl.nodeRF
  exact .bind (.leadingItemsD h) fun _ => .bind h fun _ => .pure _

protected theorem DTr.nodesDF : DTr (nodesDF total base) (nodesRF total baseR) := by
  unfold Kdl.nodesDF Kdl.nodesRF
  exact .bind (.leadingItemsD h) fun _ => .bind .here fun _ =>
    .bind (.sep0 (.nodeDF h) (.lift .nodeTerminator)) fun _ => .bind .here fun _ =>
    .bind (.lift (.opt .nodeTerminator)) fun _ => .bind (.leadingItemsD h) fun _ => .pure _

omit h in
protected theorem DTr.closeBraceD (a b : Str) (d : Document) : DTr (closeBraceD a b d) (closeBraceR a b d) := by
  refine ⟨fun s l => ?_, fun s => ?_, fun s l => ?_⟩
  · unfold Kdl.closeBraceD Kdl.closeBraceR
    rw [← (LTr.lit ['}'] s).1]
    cases L.lit ['}'] s with
    | ok a r => rfl
    | _ => by_cases hd : d.isEmpty <;> simp [LRes.erase, DRes.erase, hd]
  · have := (LTr.lit ['}'] s).2
    unfold Kdl.closeBraceD
    cases hr : L.lit ['}'] s with
    | ok a r => rw [hr] at this; exact this
    | _ => exact List.suffix_refl s
  · unfold Kdl.closeBraceD
    cases hr : L.lit ['}'] s <;> simp [DRes.after]

protected theorem DTr.nodeChildrenDF : DTr (nodeChildrenDF total base) (nodeChildrenRF total baseR) := by
  unfold Kdl.nodeChildrenDF Kdl.nodeChildrenRF
  exact .bind .here fun _ => .bind (.lift (.lit _)) fun _ => .bind .here fun _ => .bind (.nodesDF total h) fun _ =>
    .closeBraceD _ _ _

protected theorem DTr.slashdashedChildrenDF :
    DTr (slashdashedChildrenDF total base) (slashdashedChildrenRF total baseR) := by
  unfold Kdl.slashdashedChildrenDF Kdl.slashdashedChildrenRF
  have h1 := DTr.nodeChildrenDF total h
  dsolve

protected theorem DTr.beforeNodeChildrenDF :
    DTr (beforeNodeChildrenDF total base) (beforeNodeChildrenRF (diagRecovery total whole) total baseR) := by
  unfold Kdl.beforeNodeChildrenDF Kdl.beforeNodeChildrenRF
  have h1 := DTr.slashdashedChildrenDF total h
  dsolve

omit h in
protected theorem DTr.entriesD : DTr (entriesD total) (entriesR (diagRecovery total whole) total) := by
  unfold Kdl.entriesD Kdl.entriesR; dsolve

protected theorem DTr.childrenD : DTr (childrenD total base) (childrenR (diagRecovery total whole) total baseR) := by
  unfold Kdl.childrenD Kdl.childrenR
  have h1 := DTr.beforeNodeChildrenDF total whole h
  have h2 := DTr.nodeChildrenDF total h
  dsolve

protected theorem DTr.tailD (c : Bool) : DTr (tailD total base c) (tailR (diagRecovery total whole) total baseR c) := by
  unfold Kdl.tailD Kdl.tailR Kdl.tailTextD Kdl.tailTextR
  have h1 := DTr.beforeNodeChildrenDF total whole h
  have h2 := DTr.slashdashedChildrenDF total h
  refine .bind ?_ fun _ => .bind (.lift (.peek (.takeP (.opt .nodeTerminator)))) fun _ => .pure _
  cases c
  · exact .takeP h1
  · exact .takeP (.opt h2)

protected theorem DTr.badNodeD : DTr (badNodeD total base) (badNodeR total baseR) := by
  unfold Kdl.badNodeD Kdl.badNodeR
  have h1 := DTr.nodeChildrenDF total h
  have h2 := DTr.slashdashedChildrenDF total h
  dsolve

omit [FloatIO] h in
protected theorem DTr.checkNameD (b : Str) (i : Ident) : DTr (checkNameD b i) (checkNameR b i) := by
  unfold Kdl.checkNameD Kdl.checkNameR
  split
  · refine .resumeWith (.ctx ⟨fun _ _ => rfl, fun s => List.suffix_refl s, fun s l => ?_⟩) ?_ ?_
    · simp [DRes.after]
    · intro s e g r l hs
      cases hs; rfl
    · intro s a r hs
      cases hs
      exact ⟨[], rfl⟩
  · exact .pure _

omit h in
theorem DTr.name : DTr (nameD total) (R.cutErr (identifierR (diagRecovery total whole) total)) := by
  unfold nameD; dsolve

protected theorem DTr.goodNodeD (s : Str) :
    DTr (goodNodeD total base s) (goodNodeR (diagRecovery total whole) total baseR s) := by
  unfold Kdl.goodNodeD Kdl.goodNodeR
  have h1 := DTr.site total whole (.name total whole) (site := .name) .badval .badval rfl rfl
  refine .bind (.opt (.tyD total whole)) fun ty => .bind (.lift (.takeP .nodeSpace0)) fun a => .bind .here fun b =>
    .bind h1 fun n => .bind (.checkNameD _ _) fun _ => .bind (.entriesD total whole) fun es =>
    .bind (.childrenD total whole h) fun ch => .bind (.tailD total whole h _) fun t => .bind (.lift .nodeSpace0) fun _ =>
    .bind .here fun r => ?_
  exact .pure _

omit [FloatIO] h in
protected theorem DTr.openCurlyD {bad good : D Node} {badR goodR : R Node} (hb : DTr bad badR) (hg : DTr good goodR) :
    DTr (openCurlyD bad good) (openCurlyR badR goodR) := by
  have h : DTr (D.resume (.lift (.cutErr (.ctx openCx (.notP (.lit ['{']))))) (Kdl.lit ['{']))
      (R.resumeWith (.lift (Kdl.cutErr (Kdl.notP (Kdl.lit ['{'])))) (Kdl.lit ['{'])) := by
    refine .resumeWith (.lift (.cutErr (.ctx (.notP (.lit _))))) ?_ (.lit _)
    intro s e g r l hs
    unfold D.lift L.cutErr L.ctx L.notP at hs
    cases hl : L.lit ['{'] s <;> simp only [hl] at hs <;> cases hs <;> rfl
  refine ⟨fun s l => ?_, fun s => ?_, fun s l => ?_⟩
  · unfold Kdl.openCurlyD Kdl.openCurlyR
    rw [← h.erase]
    rcases D.resume _ _ s l with ⟨_ | _, r, l⟩ | _ | _ | _
    · exact hb.erase s l
    · exact hg.erase r l
    all_goals rfl
  · have := h.inside s
    unfold Kdl.openCurlyD
    rcases hp : D.resume _ _ s [] with ⟨_ | _, r, l⟩ | _ | _ | _ <;> rw [hp] at this
    · exact hb.inside' s l
    · exact (hg.inside' r l).mono this
    all_goals exact this
  · unfold Kdl.openCurlyD
    rw [h.after s l]
    rcases D.resume _ _ s [] with ⟨_ | _, r, l'⟩ | _ | _ | _
    · change bad s (l ++ l') = (bad s l').after l
      rw [hb.after s (l ++ l'), hb.after s l', DRes.after_after]
    · change good r (l ++ l') = (good r l').after l
      rw [hg.after r (l ++ l'), hg.after r l', DRes.after_after]
    all_goals rfl

protected theorem DTr.baseNodeDF : DTr (baseNodeDF total base) (baseNodeRF (diagRecovery total whole) total baseR) := by
  unfold Kdl.baseNodeDF Kdl.baseNodeRF
  exact .bind (.lift (.notP (.alt (.lit _) .eof))) fun _ => .bind .here fun s =>
    .openCurlyD (.badNodeD total h) (.goodNodeD total whole h s)

end

protected theorem DTr.baseNodeDN (n : Nat) : DTr (baseNodeDN total n) (baseNodeRN (diagRecovery total whole) total n) := by
  induction n with
  | zero => exact .crash
  | succ n ih => exact .baseNodeDF total whole ih

protected theorem DTr.baseNodeD : DTr (baseNodeD total) (baseNodeR (diagRecovery total whole) total) where
  erase s l := (DTr.baseNodeDN total whole _).erase s l
  inside s := (DTr.baseNodeDN total whole _).inside s
  after s l := (DTr.baseNodeDN total whole _).after s l

protected theorem DTr.paddedNodeD : DTr (paddedNodeD total) (paddedNodeR (diagRecovery total whole) total) := by
  unfold Kdl.paddedNodeD Kdl.paddedNodeR
  have := DTr.nodeDF (DTr.baseNodeD total whole)
  dsolve

protected theorem DTr.paddedNodeEntryD :
    DTr (paddedNodeEntryD total) (paddedNodeEntryR (diagRecovery total whole) total) := by
  unfold Kdl.paddedNodeEntryD Kdl.paddedNodeEntryR
  refine .bind .here fun _ => .bind (.lift (.takeP (.rep0 .lineSpace))) fun _ =>
    .bind (.nodeEntryD total whole) fun e =>
    .bind (.lift (.takeP (.rep0 (.alt .lineSpace .nodeSpace)))) fun _ => .bind .here fun _ => ?_
  cases e
  · exact .failP
  · exact .pure _

omit [FloatIO] in
protected theorem DTr.docEndD {p : D Document} {q : R Document} (h : DTr p q) : DTr (docEndD p) (docEndR q) := by
  unfold Kdl.docEndD Kdl.docEndR
  refine .bind (.resumeWith (.ctx (.lift (.cutErr .eof))) ?_ Strict.anyChar.void.sfx) fun fin => ?_
  · intro s e g r l hs
    rcases s with _ | ⟨c, s⟩ <;> cases hs
    rfl
  · cases fin with
    | some _ => exact .pure _
    | none => exact .void h

protected theorem DTr.documentDN (n : Nat) : DTr (documentDN total n) (documentRN (diagRecovery total whole) total n) := by
  induction n with
  | zero => exact .crash
  | succ n ih =>
    unfold Kdl.documentDN Kdl.documentRN Kdl.documentDF Kdl.documentRF
    refine .bind (.lift (.opt (.takeP .bom))) fun b => .bind (.nodesDF total (.baseNodeD total whole)) fun d =>
      .bind (.docEndD ih) fun _ => ?_
    cases b <;> exact .pure _

protected theorem DTr.documentD : DTr (documentD total) (documentR (diagRecovery total whole) total) where
  erase s l := (DTr.documentDN total whole _).erase s l
  inside s := (DTr.documentDN total whole _).inside s
  after s l := (DTr.documentDN total whole _).after s l

end

/-! ### The public functions -/

/-- Drops all of a diagnostic but its span. -/
def DResult.erase : DResult α → RResult α
  | .ok a => .ok a
  | .err ds => .err (ds.map Diagnostic.span)
  | .panic => .panic

/-- A parser with diagnostics gives the result and the spans of the parser with recovery. -/
theorem tryParseD_erase [FloatIO] {p : Nat → D α} {q : Recovery → Nat → R α}
    (h : ∀ total whole, DTr (p total) (q (diagRecovery total whole) total)) (s : Str) :
    (tryParseD p s).erase =
      tryParseR (diagRecovery (utf8Len s) (stopD (p (utf8Len s)))) (q (diagRecovery (utf8Len s) (stopD (p (utf8Len s))))) s := by
  have h := h (utf8Len s) (stopD (p (utf8Len s)))
  have hw : (diagRecovery (utf8Len s) (stopD (p (utf8Len s)))).failed none s = stopD (p (utf8Len s)) s := by
    change (if stopD (p (utf8Len s)) s <:+ s then stopD (p (utf8Len s)) s else s) = _
    rw [if_pos (stopD_suffix h s)]
  have h1 := h.erase s []
  unfold tryParseD tryParseR recoverableParseD recoverableParse
  rw [List.map_nil] at h1
  rw [← h1, hw]
  unfold stopD
  rcases p (utf8Len s) s [] with ⟨a, _ | ⟨c, r⟩, l⟩ | ⟨e, r, l⟩ | ⟨e, g, r, l⟩ | _
  · rcases l with _ | ⟨x, l⟩
    · rfl
    · simp [DRes.erase, DResult.erase, Rec.diagnostic, Function.comp_def]
  · rcases l with _ | ⟨x, l⟩ <;> simp [DRes.erase, DResult.erase, Rec.diagnostic, Function.comp_def]
  · rcases l with _ | ⟨x, l⟩ <;> simp [DRes.erase, DResult.erase, Rec.diagnostic, Function.comp_def]
  · rcases l with _ | ⟨x, l⟩ <;> simp [DRes.erase, DResult.erase, Rec.diagnostic, Function.comp_def]
  · rfl

end Kdl
