import Verif.Lemmas.Parser.Runs
import Verif.Lemmas.Parser.Shown
import Verif.Props.Edit
import Verif.Props.Format
/-
C14: autoformatted documents, printed and read back. C18: documents whose
formatting was cleared, printed and read back. C16 for parsed documents.
-/

namespace Kdl
open Spec

section
variable [FloatIO]

/-! ### What the parser stores -/

theorem value_keep {total : Nat} {s r : Str} {e : Entry} (h : value total s = .ok e r) :
    ∃ f, e.format = some f ∧ f.autoformatKeep = false := by
  unfold value at h
  rw [bind_here] at h
  obtain ⟨ty, s1, _, h⟩ := bind_ok.mp h
  rw [bind_here] at h
  obtain ⟨v, s2, _, h⟩ := bind_ok.mp h
  rw [bind_here] at h
  cases ty with
  | none =>
    obtain ⟨rfl, _⟩ := pure_ok.mp h
    exact ⟨_, rfl, rfl⟩
  | some t =>
    obtain ⟨⟨b, i, a⟩, c⟩ := t
    obtain ⟨rfl, _⟩ := pure_ok.mp h
    exact ⟨_, rfl, rfl⟩

/-- A parsed entry does not ask to keep its formatting. -/
theorem nodeEntry_keep {total : Nat} {s r : Str} {e : Entry} (h : nodeEntry total s = .ok e r) :
    ∃ f, e.format = some f ∧ f.autoformatKeep = false := by
  rw [nodeEntry_unfold] at h
  obtain ⟨l, s1, e', h1, h2, rfl⟩ := nodeEntryF_inv h
  rcases entryBody_inv h2 with ⟨_, h⟩ | ⟨i, s1, _, _, _, rfl⟩ | ⟨i, s1, ak, s2, ae, s3, v, h1, h2, h3, h4, rfl⟩
  · obtain ⟨f, e, hf⟩ := value_keep h
    exact ⟨{ f with leading := l }, by simp only [e, Option.map_some], hf⟩
  · exact ⟨_, rfl, rfl⟩
  · obtain ⟨f, e, hf⟩ := value_keep h4
    exact ⟨{ f with leading := l, afterKey := ak, afterEq := ae }, by simp only [e, Option.map_some], hf⟩

/-- A parsed terminator that starts with a line feed is a line feed. -/
theorem tailP_term {total : Nat} {base : P Node} {b : Bool} {s r bt t u : Str} (h : tailP total base b s = .ok (bt, t) r)
    (e : t = '\n' :: u) : u = [] := by
  unfold tailP at h
  obtain ⟨bt', q, _, h⟩ := bind_ok.mp h
  obtain ⟨t', q', h1, h⟩ := bind_ok.mp h
  obtain ⟨e', _⟩ := pure_ok.mp h
  simp only [Prod.mk.injEq] at e'
  obtain ⟨_, rfl⟩ := e'
  obtain ⟨_, q2, h1⟩ := peek_ok.mp h1
  subst e
  obtain ⟨hq, o, h2⟩ := takeP_inv Strict.nodeTerminator.sfx.opt h1
  subst hq
  have h3 : nodeTerminator ('\n' :: (u ++ q2)) = .ok () (u ++ q2) := rfl
  rw [List.cons_append, show opt nodeTerminator ('\n' :: (u ++ q2)) = .ok (some ()) (u ++ q2) from opt_ok.mpr (Or.inl ⟨(), rfl, h3⟩)] at h2
  have h4 : u ++ q2 = q2 := (Res.ok.inj h2).2
  have := congrArg List.length h4
  simp at this
  exact this

/-- Annotations and names of parsed entries are read back. -/
theorem nodeEntry_shown {total : Nat} {s r : Str} {e : Entry} (h : nodeEntry total s = .ok e r) :
    ∀ i ∈ entryIdents e, Shown i := by
  have hQ : PartsOk total s (fun p => match p with | .ident i => Shown i | _ => True) :=
    ⟨fun _ h => identifier_shown h, fun _ _ => trivial, fun _ _ => trivial, fun _ _ => trivial⟩
  intro i hi
  exact hQ.nodeEntry (Sub.refl s) h (.ident i) (by simp [entryParts, hi])

/-! ### Tidy documents -/

mutual
/-- Annotations of entries are read back or have no text, no entry asks to be kept,
terminators are simple, and, unless comments are to be dropped, the decoration is
white space. -/
inductive NodeTidy (nc : Bool) : Node → Prop
  | mk {ty : Option Ident} {name : Ident} {es : List Entry} {ch : Option Document} {format : Option NodeFmt}
      {span : Span}
      (h3 : ∀ e ∈ es, (∀ f, e.format = some f → f.autoformatKeep = false) ∧ ∀ t, e.ty = some t → Shown t ∨ t.repr = none)
      (h4 : ∀ f, format = some f → (∀ t, f.terminator = '\n' :: t → ∀ c ∈ t, Blank c) ∧
        (nc = true ∨ (AllWs f.leading ∧ AllWs f.beforeTerminator ∧ AllWs f.trailing)))
      (h5 : ∀ d, ch = some d → DocTidy nc d) :
      NodeTidy nc (.mk ty name es ch format span)
/-- The same for a document. -/
inductive DocTidy (nc : Bool) : Document → Prop
  | mk {ns : List Node} {format : Option DocFmt} {span : Span}
      (h1 : ∀ f, format = some f → nc = true ∨ (AllWs f.leading ∧ AllWs f.trailing))
      (h2 : ∀ n ∈ ns, NodeTidy nc n) : DocTidy nc (.mk ns format span)
end

theorem blank_indentText {c : FormatConfig} (h : ∀ x ∈ c.indent, Space x) : ∀ x ∈ indentText c, Blank x := by
  intro x hx
  unfold indentText at hx
  obtain ⟨l, hl, hx⟩ := List.mem_flatten.mp hx
  rw [(List.mem_replicate.mp hl).2] at hx
  exact Or.inl (h x hx)

omit [FloatIO] in
theorem autoformatLeading_blank {c : FormatConfig} {l : Str}
    (hl : c.noComments = true ∨ AllWs l) : autoformatLeading c l = indentText c := by
  unfold autoformatLeading
  rcases hl with hl | hl
  · simp [hl]
  · simp [trim_ws_all hl]

omit [FloatIO] in
theorem autoformatTrailing_blank {nc : Bool} {l : Str} (hl : nc = true ∨ AllWs l) : autoformatTrailing nc l = [] := by
  rcases hl with rfl | hl
  · exact autoformatTrailing_nc l
  · unfold autoformatTrailing
    rw [trim_ws_all hl]
    cases l <;> simp

omit [FloatIO] in
theorem autoformatNodeTrailing_blank {c : FormatConfig} {l : Str} (hl : c.noComments = true ∨ AllWs l) :
    autoformatNodeTrailing c l = [] := by
  unfold autoformatNodeTrailing
  rw [autoformatTrailing_blank hl]
  rfl

theorem autoformatNodeFmt_blank {c : FormatConfig} (hi : ∀ x ∈ c.indent, Space x) {format : Option NodeFmt}
    (h : ∀ f, format = some f → (∀ t, f.terminator = '\n' :: t → ∀ c ∈ t, Blank c) ∧
        (c.noComments = true ∨ (AllWs f.leading ∧ AllWs f.beforeTerminator ∧ AllWs f.trailing))) :
    FmtPlain (autoformatNodeFmt c format) ∧ ∃ x ∈ (autoformatNodeFmt c format).terminator, Newline x := by
  cases format with
  | none =>
    refine ⟨⟨by rintro _ ⟨⟩, by rintro _ ⟨⟩, ?_⟩, '\n', by simp [autoformatNodeFmt], by decide⟩
    intro x hx
    simp [autoformatNodeFmt] at hx
    rw [hx]
    exact Or.inr (by decide)
  | some f =>
    obtain ⟨h1, h2⟩ := h f rfl
    have e1 := autoformatLeading_blank (h2.imp_right (·.1))
    have e2 := autoformatTrailing_blank (h2.imp_right (·.2.1))
    have e3 := autoformatNodeTrailing_blank (h2.imp_right (·.2.2))
    have ht : (∀ x ∈ (autoformatNodeFmt c (some f)).terminator, Blank x) ∧
        ∃ x ∈ (autoformatNodeFmt c (some f)).terminator, Newline x := by
      simp only [autoformatNodeFmt]
      split
      · rename_i u hu
        rw [hu]
        refine ⟨?_, '\n', by simp, by decide⟩
        intro x hx
        rcases List.mem_cons.mp hx with rfl | hx
        · exact Or.inr (by decide)
        · exact h1 _ hu x hx
      · refine ⟨?_, '\n', by simp, by decide⟩
        intro x hx
        rw [List.mem_singleton.mp hx]
        exact Or.inr (by decide)
    refine ⟨⟨?_, ?_, ?_⟩, ht.2⟩
    · show ∀ x ∈ autoformatLeading c f.leading, Blank x
      rw [e1]
      exact blank_indentText hi
    · intro x hx
      rw [List.mem_singleton.mp hx]
      decide
    · have e : (autoformatNodeFmt c (some f)).beforeTerminator ++ (autoformatNodeFmt c (some f)).terminator ++
          (autoformatNodeFmt c (some f)).trailing = (autoformatNodeFmt c (some f)).terminator := by
        show autoformatTrailing c.noComments f.beforeTerminator ++ _ ++ autoformatNodeTrailing c f.trailing = _
        rw [e2, e3]
        simp
      rw [e]
      exact ht.1

theorem Ident.fresh {i : Ident} (h : Shown i ∨ i.repr = none) :
    (StrTok i.value i.display ∨ StrBad i.display) ∧ (StrTok i.value i.display ↔ Fresh i) := by
  cases hr : i.repr with
  | none =>
    have := Ident.frame hr
    exact ⟨this.1, this.2.trans ⟨fun h _ => h, fun h => h hr⟩⟩
  | some t =>
    have h1 := (h.resolve_right (by rw [hr]; rintro ⟨⟩)).tok
    exact ⟨Or.inl h1, fun _ hn => (by rw [hr] at hn; cases hn), fun _ => h1⟩

theorem autoformatEntry_frame {c : FormatConfig} (hk : c.entryKeep = false) {e : Entry}
    (h : (∀ f, e.format = some f → f.autoformatKeep = false) ∧ ∀ t, e.ty = some t → Shown t ∨ t.repr = none)
    [LawfulFloatIO] : EntFrame (autoformatEntry c e) ∧ (EntGood (autoformatEntry c e) ↔
      (∀ n, e.name = some n → Writable n.value) ∧ (∀ t, e.ty = some t → Fresh t) ∧ WritableValue e.value) := by
  obtain ⟨ty, v, name, format, span⟩ := e
  obtain ⟨h1, h3⟩ := h
  simp only [autoformatEntry, hk, Bool.false_eq_true, if_false]
  refine ⟨⟨?_, ?_, fun n e => (Ident.fresh (h3 n e)).1, val_frame _⟩, ?_, ?_⟩
  · cases format with
    | none => rfl
    | some f => simp [Entry.autoformat, h1 f rfl]
  · intro n e
    cases name with
    | none => cases e
    | some i =>
      cases e
      exact (Ident.frame rfl).1
  · rintro ⟨g1, g2, g3⟩
    refine ⟨?_, fun t e => (Ident.fresh (h3 t e)).2.mp (g2 t e), valTok_write_iff.mp g3⟩
    rintro n ⟨⟩
    exact (Ident.frame (i := n.autoformat) rfl).2.mp (g1 n.autoformat rfl)
  · rintro ⟨g1, g2, g3⟩
    refine ⟨?_, fun t e => (Ident.fresh (h3 t e)).2.mpr (g2 t e), valTok_write_iff.mpr g3⟩
    intro n e
    cases name with
    | none => cases e
    | some i =>
      cases e
      exact (Ident.frame rfl).2.mpr (g1 i rfl)

mutual
theorem NodeTidy.frame [LawfulFloatIO] : ∀ (c : FormatConfig), c.entryKeep = false → (∀ x ∈ c.indent, Space x) →
    ∀ (n : Node), NodeTidy c.noComments n → NodeFrame (n.autoformatConfig c) ∧ Ended (n.autoformatConfig c)
  | c, hk, hi, .mk ty name es ch format span, h => by
    have h3 : ∀ e ∈ es, (∀ f, e.format = some f → f.autoformatKeep = false) ∧ ∀ t, e.ty = some t → Shown t ∨ t.repr = none := by
      cases h; assumption
    have h4 : FmtPlain (autoformatNodeFmt c format) ∧ ∃ x ∈ (autoformatNodeFmt c format).terminator, Newline x := by
      cases h with
      | mk _ h4 _ => exact autoformatNodeFmt_blank hi h4
    have h5 : ∀ d, ch = some d → DocTidy c.noComments d := by cases h; assumption
    refine ⟨?_, ?_⟩
    · refine .mk ?_ (Ident.frame rfl).1 ?_ ?_ (OptTidy.frame c hk hi ch h5)
      · intro t e
        cases ty with
        | none => cases e
        | some i =>
          cases e
          exact (Ident.frame rfl).1
      · intro e he
        obtain ⟨e', he', rfl⟩ := List.mem_map.mp he
        exact (autoformatEntry_frame hk (h3 e' he')).1
      · rintro f ⟨⟩
        exact h4.1
    · obtain ⟨x, hx, hn⟩ := h4.2
      refine ⟨x, ?_, hn⟩
      show x ∈ (autoformatNodeFmt c format).beforeTerminator ++ (autoformatNodeFmt c format).terminator ++ _
      simp [hx]
theorem OptTidy.frame [LawfulFloatIO] : ∀ (c : FormatConfig), c.entryKeep = false → (∀ x ∈ c.indent, Space x) →
    ∀ (o : Option Document), (∀ d, o = some d → DocTidy c.noComments d) →
      ∀ d, autoformatOptDoc c o = some d → DocFrame d
  | _, _, _, none, _ => by rintro d ⟨⟩
  | c, hk, hi, some (.mk ns format span), h => by
    have h1 : ∀ f, format = some f → c.noComments = true ∨ (AllWs f.leading ∧ AllWs f.trailing) := by
      cases h _ rfl; assumption
    have h2 := NodesTidy.frame { c with indentLevel := c.indentLevel + 1 } hk hi ns (by cases h _ rfl; assumption)
    rintro d ⟨⟩
    refine .mk ?_ (fun n hn => (h2 n hn).1) (fun n hn => (h2 n (List.dropLast_subset _ hn)).2)
    intro f hf
    cases format with
    | none => cases hf
    | some f0 =>
      cases hf
      have e1 := autoformatLeading_blank (c := { c with indentLevel := c.indentLevel + 1 }) ((h1 f0 rfl).imp_right (·.1))
      have e2 := autoformatTrailing_blank ((h1 f0 rfl).imp_right (·.2))
      have hb := blank_indentText hi
      have hb' := blank_indentText (c := { c with indentLevel := c.indentLevel + 1 }) hi
      simp only [autoformatChildFmt, autoformatDocFmt, e1, e2]
      constructor
      · intro x hx
        rcases List.mem_append.mp hx with hx | hx
        · exact hb' x (trim_subset hx)
        · rw [List.mem_singleton.mp hx]
          exact Or.inr (by decide)
      · intro x hx
        rcases List.mem_append.mp hx with hx | hx
        · split at hx
          · cases hx
          · simp at hx
            rw [hx]
            exact Or.inr (by decide)
        · exact hb x hx
theorem NodesTidy.frame [LawfulFloatIO] : ∀ (c : FormatConfig), c.entryKeep = false → (∀ x ∈ c.indent, Space x) →
    ∀ (ns : List Node), (∀ n ∈ ns, NodeTidy c.noComments n) → ∀ n ∈ autoformatNodes c ns, NodeFrame n ∧ Ended n
  | _, _, _, [], _ => by rintro n ⟨⟩
  | c, hk, hi, n :: ns, h => by
    intro m hm
    unfold autoformatNodes at hm
    rcases List.mem_cons.mp hm with rfl | hm
    · exact NodeTidy.frame c hk hi n (h n (by simp))
    · exact NodesTidy.frame c hk hi ns (fun n hn => h n (by simp [hn])) m hm
end

theorem DocTidy.frame [LawfulFloatIO] {c : FormatConfig} (hk : c.entryKeep = false) (hi : ∀ x ∈ c.indent, Space x)
    {d : Document} (h : DocTidy c.noComments d) : DocFrame (d.autoformatConfig c) := by
  cases h with
  | @mk ns format span h1 h2 =>
    have h2 := NodesTidy.frame c hk hi ns h2
    refine .mk ?_ (fun n hn => (h2 n hn).1) (fun n hn => (h2 n (List.dropLast_subset _ hn)).2)
    intro f hf
    cases format with
    | none => cases hf
    | some f0 =>
      cases hf
      have e1 := autoformatLeading_blank ((h1 f0 rfl).imp_right (·.1))
      have e2 := autoformatTrailing_blank ((h1 f0 rfl).imp_right (·.2))
      simp only [autoformatDocFmt, e1, e2]
      refine ⟨blank_indentText hi, ?_⟩
      intro x hx
      split at hx
      · cases hx
      · simp at hx
        rw [hx]
        exact Or.inr (by decide)

mutual
theorem NodeTidy.good [LawfulFloatIO] : ∀ (c : FormatConfig), c.entryKeep = false → ∀ (n : Node), NodeTidy c.noComments n →
    (NodeGood (n.autoformatConfig c) ↔ NodeNeeds (fun t => Writable t.value) Fresh n)
  | c, hk, .mk ty name es ch format span, h => by
    have h3 : ∀ e ∈ es, (∀ f, e.format = some f → f.autoformatKeep = false) ∧ ∀ t, e.ty = some t → Shown t ∨ t.repr = none := by
      cases h; assumption
    have h5 : ∀ d, ch = some d → DocTidy c.noComments d := by cases h; assumption
    have h6 := OptTidy.good c hk ch h5
    constructor
    · intro hg
      cases hg with
      | mk g1 g2 g3 g4 =>
        refine .mk ?_ ((Ident.frame (i := name.clearFormat) rfl).2.mp g2) ?_ (h6.mp g4)
        · rintro t ⟨⟩
          exact (Ident.frame (i := t.clearFormat) rfl).2.mp (g1 _ rfl)
        · intro e he
          exact (autoformatEntry_frame hk (h3 e he)).2.mp (g3 _ (List.mem_map_of_mem he))
    · intro hg
      cases hg with
      | mk g1 g2 g3 g4 =>
        refine .mk ?_ ((Ident.frame (i := name.clearFormat) rfl).2.mpr g2) ?_ (h6.mpr g4)
        · intro t e
          cases ty with
          | none => cases e
          | some i => cases e; exact (Ident.frame rfl).2.mpr (g1 i rfl)
        · intro e he
          obtain ⟨e', he', rfl⟩ := List.mem_map.mp he
          exact (autoformatEntry_frame hk (h3 e' he')).2.mpr (g3 e' he')
theorem OptTidy.good [LawfulFloatIO] : ∀ (c : FormatConfig), c.entryKeep = false → ∀ (o : Option Document),
    (∀ d, o = some d → DocTidy c.noComments d) →
      ((∀ d, autoformatOptDoc c o = some d → DocGood d) ↔ ∀ d, o = some d → DocNeeds (fun t => Writable t.value) Fresh d)
  | _, _, none, _ => ⟨fun _ => by rintro d ⟨⟩, fun _ => by rintro d ⟨⟩⟩
  | c, hk, some (.mk ns format span), h => by
    have h2 := NodesTidy.good { c with indentLevel := c.indentLevel + 1 } hk ns (by cases h _ rfl; assumption)
    constructor
    · rintro hg _ ⟨⟩
      cases hg _ rfl with
      | mk hg => exact .mk (h2.mp hg)
    · rintro hg _ ⟨⟩
      cases hg _ rfl with
      | mk hg => exact .mk (h2.mpr hg)
theorem NodesTidy.good [LawfulFloatIO] : ∀ (c : FormatConfig), c.entryKeep = false → ∀ (ns : List Node),
    (∀ n ∈ ns, NodeTidy c.noComments n) →
      ((∀ n ∈ autoformatNodes c ns, NodeGood n) ↔ ∀ n ∈ ns, NodeNeeds (fun t => Writable t.value) Fresh n)
  | _, _, [], _ => ⟨fun _ => by rintro d ⟨⟩, fun _ => by rintro d ⟨⟩⟩
  | c, hk, n :: ns, h => by
    have h1 := NodeTidy.good c hk n (h n (by simp))
    have h2 := NodesTidy.good c hk ns (fun n hn => h n (by simp [hn]))
    unfold autoformatNodes
    rw [List.forall_mem_cons, List.forall_mem_cons, h1, h2]
end

theorem DocTidy.good [LawfulFloatIO] {c : FormatConfig} (hk : c.entryKeep = false) {d : Document}
    (h : DocTidy c.noComments d) : DocGood (d.autoformatConfig c) ↔ DocNeeds (fun t => Writable t.value) Fresh d := by
  cases h with
  | @mk ns format span h1 h2 =>
    have h2 := NodesTidy.good c hk ns h2
    exact ⟨fun (.mk hg) => .mk (h2.mp hg), fun (.mk hg) => .mk (h2.mpr hg)⟩

/-! ### C14 -/

mutual
theorem NodeRun.tidy {total : Nat} {whole : Str} : ∀ {n : Node}, NodeRun total whole n → NodeTidy true n
  | _, .mk h1 h2 h3 h4 h5 h6 h7 h8 =>
    .mk (fun e he => by
        obtain ⟨s, r, hs, h⟩ := h3 e he
        obtain ⟨f, hf, hk⟩ := nodeEntry_keep h
        refine ⟨?_, ?_⟩
        · rintro f' e'
          rw [hf] at e'
          cases e'
          exact hk
        · intro t ht
          exact Or.inl (nodeEntry_shown h t (by simp [entryIdents, ht])))
      (fun f hf => by
        cases hf
        obtain ⟨s, r, _, h⟩ := h6
        refine ⟨?_, Or.inl rfl⟩
        intro t ht c hc
        rw [tailP_term h ht] at hc
        cases hc)
      (fun d hd => DocRun.tidy (h8 d hd))
theorem DocRun.tidy {total : Nat} {whole : Str} : ∀ {d : Document}, DocRun total whole d → DocTidy true d
  | _, .mk h1 h2 h3 => .mk (fun _ _ => Or.inl rfl) (fun n hn => NodeRun.tidy (h1 n hn))
end

omit [FloatIO] in
theorem DocTidy.prependLeading {d : Document} (h : DocTidy true d) (b : Str) : DocTidy true (d.prependLeading b) := by
  cases h with
  | mk h1 h2 => exact .mk (fun _ _ => Or.inl rfl) h2

omit [FloatIO] in
theorem DocWritable.prependLeading {d : Document} {b : Str} : DocWritable (d.prependLeading b) ↔ DocWritable d := by
  cases d
  constructor
  · rintro ⟨h⟩; exact .mk h
  · rintro ⟨h⟩; exact .mk h

mutual
theorem Spec.NodeWritable.needs {P Q : Ident → Prop} (hP : ∀ i, Writable i.value → P i) (hQ : ∀ i, Writable i.value → Q i) :
    ∀ {n : Node}, NodeWritable n → NodeNeeds P Q n
  | _, .mk h1 h2 h3 h4 => .mk (fun t e => hP t (h1 t e)) h2
      (fun e he => ⟨(h3 e he).name, fun t ht => hQ t ((h3 e he).ty t ht), (h3 e he).value⟩)
      fun d hd => Spec.DocWritable.needs hP hQ (h4 d hd)
theorem Spec.DocWritable.needs {P Q : Ident → Prop} (hP : ∀ i, Writable i.value → P i) (hQ : ∀ i, Writable i.value → Q i) :
    ∀ {d : Document}, DocWritable d → DocNeeds P Q d
  | _, .mk h => .mk fun n hn => Spec.NodeWritable.needs hP hQ (h n hn)
end

theorem DocTidy.parse [LawfulFloatIO] {c : FormatConfig} (hk : c.entryKeep = false) (hi : ∀ x ∈ c.indent, Space x)
    {d : Document} (h : DocTidy c.noComments d) :
    (DocNeeds (fun t => Writable t.value) Fresh d ∧
      ∃ d', Document.parse (d.autoformatConfig c).display = .ok d' ∧ semDoc canonValue d' = semDoc canonValue d) ∨
    (¬ DocNeeds (fun t => Writable t.value) Fresh d ∧ Document.parse (d.autoformatConfig c).display = .err) := by
  have := (h.frame hk hi).parse (g := canonValue) canon_idem
  rw [h.good hk, semDoc_autoformat] at this
  refine this.imp_right fun ⟨h1, h2⟩ => ⟨h1, ?_⟩
  rcases (C06_ok_or_err (d.autoformatConfig c).display).1 with ⟨d', h3⟩ | h3
  · exact absurd h3 (h2 d')
  · exact h3

/-- **C14** without comments, the boundary: a parsed document formatted without comments, with any
indent made of KDL white space and any indentation level, prints to a text that is accepted and has
the same data exactly if the names, values and annotations of nodes can be written (annotations of
entries keep their text); otherwise the text is rejected. -/
theorem C14_no_comments_exact [LawfulFloatIO] {s : Str} {d : Document} (h : Document.parse s = .ok d)
    {c : FormatConfig} (hn : c.noComments = true) (hk : c.entryKeep = false) (hi : ∀ x ∈ c.indent, Space x) :
    (DocNeeds (fun t => Writable t.value) Fresh d ∧
      ∃ d', Document.parse (d.autoformatConfig c).display = .ok d' ∧ semDoc canonValue d' = semDoc canonValue d) ∨
    (¬ DocNeeds (fun t => Writable t.value) Fresh d ∧ Document.parse (d.autoformatConfig c).display = .err) := by
  obtain ⟨b, d0, _, h1, rfl⟩ := parse_run h
  have h2 : DocTidy c.noComments (d0.prependLeading b) := by
    rw [hn]
    exact h1.tidy.prependLeading b
  exact h2.parse hk hi

/-- **C14**, partial: a parsed document formatted without comments, with any indent
made of KDL white space and any indentation level, prints to a text that is accepted
and has the same data. Missing from C14: formatting that keeps comments, which is in
`Props/Reformat.lean` (`C14_violated_slashdash` shows that it cannot hold in general),
and strings that cannot be written (`C14_violated_string`, `C14_no_comments_exact`). -/
theorem C14_no_comments_partial [LawfulFloatIO] {s : Str} {d : Document} (h : Document.parse s = .ok d)
    (hw : DocWritable d) {c : FormatConfig} (hn : c.noComments = true) (hk : c.entryKeep = false)
    (hi : ∀ x ∈ c.indent, Space x) :
    ∃ d', Document.parse (d.autoformatConfig c).display = .ok d' ∧ semDoc canonValue d' = semDoc canonValue d := by
  rcases C14_no_comments_exact h hn hk hi with ⟨_, h⟩ | ⟨h, _⟩
  · exact h
  · exact absurd (hw.needs (P := fun t => Writable t.value) (Q := Fresh) (fun _ h => h) (fun _ h _ => h)) h

mutual
theorem NodeShape.tidy : ∀ {n : Node}, NodeShape n → NodeTidy false n
  | _, .mk h1 h2 h3 h4 =>
    .mk (fun e he => ⟨(by intro f e'; rw [(h3 e he).format] at e'; cases e'), fun t ht => Or.inr ((h3 e he).ty t ht)⟩)
      (fun f hf => by
        cases hf
        exact ⟨by rintro t ⟨⟩, Or.inr ⟨by decide, by decide, by decide⟩⟩)
      (fun d hd => DocShape.tidy (h4 d hd))
theorem DocShape.tidy : ∀ {d : Document}, DocShape d → DocTidy false d
  | _, .mk h => .mk (by rintro _ ⟨⟩) (fun n hn => NodeShape.tidy (h n hn))
end

mutual
theorem NodeTidy.weaken {nc : Bool} : ∀ {n : Node}, NodeTidy false n → NodeTidy nc n
  | _, .mk h3 h4 h5 =>
    .mk h3 (fun f hf => ⟨(h4 f hf).1, Or.inr ((h4 f hf).2.resolve_left (by simp))⟩)
      (fun d hd => DocTidy.weaken (h5 d hd))
theorem DocTidy.weaken {nc : Bool} : ∀ {d : Document}, DocTidy false d → DocTidy nc d
  | _, .mk h1 h2 => .mk (fun f hf => Or.inr ((h1 f hf).resolve_left (by simp))) (fun n hn => NodeTidy.weaken (h2 n hn))
end

mutual
theorem NodeShape.needs : ∀ {n : Node}, NodeShape n → NodeNeeds (fun t => Writable t.value) Fresh n → NodeWritable n
  | _, .mk h1 h2 h3 h4, .mk g1 g2 g3 g4 => .mk g1 g2
      (fun e he => ⟨(g3 e he).1, fun t ht => (g3 e he).2.1 t ht ((h3 e he).ty t ht), (g3 e he).2.2⟩)
      fun d hd => DocShape.needs (h4 d hd) (g4 d hd)
theorem DocShape.needs : ∀ {d : Document}, DocShape d → DocNeeds (fun t => Writable t.value) Fresh d → DocWritable d
  | _, .mk h, .mk g => .mk fun n hn => NodeShape.needs (h n hn) (g n hn)
end

/-- **C14** for built documents, the boundary: a document built through the API and formatted, with
or without comments, prints to a text that is accepted and has the same data exactly if its strings
and integers can be written; otherwise the text is rejected. -/
theorem C14_built_exact [LawfulFloatIO] {d : Document} (h : BuiltDoc d) {c : FormatConfig}
    (hk : c.entryKeep = false) (hi : ∀ x ∈ c.indent, Space x) :
    (DocWritable d ∧
      ∃ d', Document.parse (d.autoformatConfig c).display = .ok d' ∧ semDoc canonValue d' = semDoc canonValue d) ∨
    (¬ DocWritable d ∧ Document.parse (d.autoformatConfig c).display = .err) := by
  have hs := BuiltDoc.shape h
  have h2 : DocTidy c.noComments d := hs.tidy.weaken
  rcases h2.parse hk hi with ⟨h3, h4⟩ | ⟨h3, h4⟩
  · exact Or.inl ⟨hs.needs h3, h4⟩
  · exact Or.inr ⟨fun hw => h3 (hw.needs (P := fun t => Writable t.value) (Q := Fresh) (fun _ h => h) (fun _ h _ => h)), h4⟩

/-- **C14**, partial: a document built through the API and formatted, with or without
comments, prints to a text that is accepted and has the same data. Missing: strings
that cannot be written, for which it fails (`C14_built_exact`). -/
theorem C14_built_partial [LawfulFloatIO] {d : Document} (h : BuiltDoc d) (hw : DocWritable d) {c : FormatConfig}
    (hk : c.entryKeep = false) (hi : ∀ x ∈ c.indent, Space x) :
    ∃ d', Document.parse (d.autoformatConfig c).display = .ok d' ∧ semDoc canonValue d' = semDoc canonValue d := by
  rcases C14_built_exact h hk hi with ⟨_, h⟩ | ⟨h, _⟩
  · exact h
  · exact absurd hw h

/-- C14 is violated: a document that consists of a slashdashed node `a` ending in a
line continuation, a blank line, and a node `b` (so `b` is its only node) loses the
blank line, and `b` becomes an argument of the slashdashed node. -/
theorem C14_violated_slashdash : ∃ s d d', Document.parse s = .ok d ∧ d.nodes.length = 1 ∧
    Document.parse d.autoformat.display = .ok d' ∧ d'.nodes = [] := by
  obtain ⟨d, h1, h2⟩ := ParseResult.holds_ok (r := Document.parse "/-a \\\n\nb".toList)
    (f := fun d : Document => decide (d.nodes.length = 1 ∧ d.autoformat.display = "/-a \\\nb\n".toList)) (by krfl)
  obtain ⟨h2, h3⟩ := of_decide_eq_true h2
  obtain ⟨d', h4, h5⟩ := ParseResult.holds_ok (r := Document.parse "/-a \\\nb\n".toList)
    (f := fun d : Document => d.nodes.isEmpty) (by krfl)
  exact ⟨_, d, d', h1, h2, by rw [h3]; exact h4, List.isEmpty_iff.mp h5⟩

/-- C14 is violated: the accepted document `"+.5"` is formatted to `+.5`, which is
rejected. -/
theorem C14_violated_string : ∃ s d, Document.parse s = .ok d ∧ Document.parse d.autoformat.display = .err := by
  obtain ⟨d, h1, h2⟩ := ParseResult.holds_ok (r := Document.parse "\"+.5\"".toList)
    (f := fun d : Document => decide (d.autoformat.display = "+.5\n".toList)) (by krfl)
  refine ⟨_, d, h1, ?_⟩
  rw [of_decide_eq_true h2]
  krfl

/-! ### C16 -/

mutual
theorem NodeRun.terms {total : Nat} {whole : Str} : ∀ {n : Node}, NodeRun total whole n → TermsOkNode n
  | _, .mk (ch := ch) h1 h2 h3 h4 h5 h6 h7 h8 => by
    refine ⟨?_, ?_⟩
    · rintro f ⟨⟩ t ht
      obtain ⟨s, r, _, h⟩ := h6
      rw [tailP_term h ht]
      exact AllWs.nil
    · cases ch with
      | none => trivial
      | some d => exact DocRun.terms (h8 d rfl)
theorem DocRun.terms {total : Nat} {whole : Str} : ∀ {d : Document}, DocRun total whole d → TermsOkDoc d
  | _, .mk (ns := ns) h1 h2 h3 => NodesRun.terms ns h1
theorem NodesRun.terms {total : Nat} {whole : Str} : ∀ (ns : List Node), (∀ n ∈ ns, NodeRun total whole n) → TermsOkNodes ns
  | [], _ => trivial
  | n :: ns, h => ⟨NodeRun.terms (h n (by simp)), NodesRun.terms ns fun n hn => h n (by simp [hn])⟩
end

mutual
theorem NodeRun.entries {total : Nat} {whole : Str} : ∀ {n : Node}, NodeRun total whole n →
    ∀ e ∈ Spec.nodeEntries n, Run whole (nodeEntry total) e
  | _, .mk (ch := ch) h1 h2 h3 h4 h5 h6 h7 h8 => by
    intro e he
    simp only [nodeEntries] at he
    rcases List.mem_append.mp he with he | he
    · exact h3 e he
    · cases ch with
      | none => cases he
      | some d => exact DocRun.entries (h8 d rfl) e he
theorem DocRun.entries {total : Nat} {whole : Str} : ∀ {d : Document}, DocRun total whole d →
    ∀ e ∈ docEntries d, Run whole (nodeEntry total) e
  | _, .mk (ns := ns) h1 h2 h3 => NodesRun.entries ns h1
theorem NodesRun.entries {total : Nat} {whole : Str} : ∀ (ns : List Node), (∀ n ∈ ns, NodeRun total whole n) →
    ∀ e ∈ nodesEntries ns, Run whole (nodeEntry total) e
  | [], _ => by rintro e ⟨⟩
  | n :: ns, h => by
    intro e he
    simp only [nodesEntries] at he
    rcases List.mem_append.mp he with he | he
    · exact NodeRun.entries (h n (by simp)) e he
    · exact NodesRun.entries ns (fun n hn => h n (by simp [hn])) e he
end

/-- **C16** for every parsed document: after `autoformat_no_comments`, every
formatting text that is printed is white space, and no entry prints a stored text. -/
theorem C16_parsed {s : Str} {d : Document} (h : Document.parse s = .ok d) :
    (∀ t ∈ docDecor d.autoformatNoComments, AllWs t) ∧
    (∀ e ∈ docEntries d.autoformatNoComments, e.format = none) := by
  obtain ⟨b, d0, _, h1, rfl⟩ := parse_run h
  refine C16_no_comments_partial _ ?_ ?_
  · have := h1.terms
    cases d0
    exact this
  · intro e he f hf
    have : e ∈ docEntries d0 := by
      cases d0
      exact he
    obtain ⟨s', r, _, h2⟩ := h1.entries e this
    obtain ⟨f', hf', hk⟩ := nodeEntry_keep h2
    rw [hf] at hf'
    cases hf'
    exact hk

/-! ### C34 -/

/-- C34 is violated by every value of a parsed document: each entry has a text of its own, so
printing it gives that text, whatever value is set. -/
theorem C34_document_stale {s : Str} {d : Document} (h : Document.parse s = .ok d) (v : Value) :
    ∀ e ∈ docEntries d, e.format ≠ none ∧ (e.setValue v).display = e.display := by
  obtain ⟨b, d0, _, h1, rfl⟩ := parse_run h
  intro e he
  have : e ∈ docEntries d0 := by
    cases d0
    exact he
  obtain ⟨s', r, _, h2⟩ := h1.entries e this
  obtain ⟨f', hf', _⟩ := nodeEntry_keep h2
  have hf : e.format ≠ none := by rw [hf']; rintro ⟨⟩
  exact ⟨hf, C34_stale hf v⟩

/-! ### C18 -/

mutual
/-- Every list of nodes has at most one node. -/
inductive Spec.NodeSingle : Node → Prop
  | mk {ty : Option Ident} {name : Ident} {es : List Entry} {ch : Option Document} {format : Option NodeFmt}
      {span : Span} (h : ∀ d, ch = some d → DocSingle d) : NodeSingle (.mk ty name es ch format span)
/-- Every list of nodes has at most one node. -/
inductive Spec.DocSingle : Document → Prop
  | mk {ns : List Node} {format : Option DocFmt} {span : Span} (h1 : ns.length ≤ 1) (h2 : ∀ n ∈ ns, NodeSingle n) :
      DocSingle (.mk ns format span)
end

omit [FloatIO] in
theorem clearNodes_map (ns : List Node) : clearNodes ns = ns.map Node.clearFormatRecursive := by
  induction ns with
  | nil => rfl
  | cons n ns ih => rw [clearNodes, ih, List.map_cons]

theorem clearEntry_frame [LawfulFloatIO] (e : Entry) : EntFrame e.clearFormat ∧ (EntGood e.clearFormat ↔
    (∀ n, e.name = some n → Writable n.value) ∧ (∀ t, e.ty = some t → Writable t.value) ∧ WritableValue e.value) := by
  obtain ⟨ty, v, name, format, span⟩ := e
  have k : ∀ {o : Option Ident}, (∀ n, o.map Ident.clearFormat = some n → StrTok n.value n.display ∨ StrBad n.display) ∧
      ((∀ n, o.map Ident.clearFormat = some n → StrTok n.value n.display) ↔ ∀ n, o = some n → Writable n.value) := by
    intro o
    cases o with
    | none => exact ⟨by rintro n ⟨⟩, fun _ => by rintro n ⟨⟩, fun _ => by rintro n ⟨⟩⟩
    | some i =>
      have := Ident.frame (i := i.clearFormat) rfl
      exact ⟨by rintro n ⟨⟩; exact this.1, fun h => by rintro n ⟨⟩; exact this.2.mp (h _ rfl),
        fun h => by rintro n ⟨⟩; exact this.2.mpr (h i rfl)⟩
  refine ⟨⟨rfl, k.1, k.1, val_frame _⟩, fun ⟨g1, g2, g3⟩ => ⟨k.2.mp g1, k.2.mp g2, valTok_write_iff.mp g3⟩,
    fun ⟨g1, g2, g3⟩ => ⟨k.2.mpr g1, k.2.mpr g2, valTok_write_iff.mpr g3⟩⟩

mutual
theorem NodeRun.cleared [LawfulFloatIO] {total : Nat} {whole : Str} : ∀ {n : Node}, NodeRun total whole n →
    NodeSingle n → NodeFrame n.clearFormatRecursive
  | _, .mk (ch := ch) h1 h2 h3 h4 h5 h6 h7 h8, .mk l => by
    refine .mk ?_ (Ident.frame rfl).1 ?_ (by rintro _ ⟨⟩) ?_
    · intro t ht
      obtain ⟨s, r, _, h⟩ := h1 t ht
      exact Or.inl (identifier_shown h).tok
    · intro e he
      obtain ⟨e', he', rfl⟩ := List.mem_map.mp he
      exact (clearEntry_frame e').1
    · intro d hd
      cases ch with
      | none => cases hd
      | some d0 =>
        cases hd
        exact DocRun.cleared (h8 d0 rfl) (l d0 rfl)
theorem DocRun.cleared [LawfulFloatIO] {total : Nat} {whole : Str} : ∀ {d : Document}, DocRun total whole d →
    DocSingle d → DocFrame d.clearFormatRecursive
  | _, .mk (ns := ns) h1 h2 h3, .mk l1 l2 => by
    have hn : ∀ n ∈ ns, NodeFrame n.clearFormatRecursive := fun n hn => NodeRun.cleared (h1 n hn) (l2 n hn)
    unfold Document.clearFormatRecursive
    refine .mk (by rintro _ ⟨⟩) ?_ ?_
    · rw [clearNodes_map]
      intro m hm
      obtain ⟨n, h, rfl⟩ := List.mem_map.mp hm
      exact hn n h
    · rw [clearNodes_map]
      intro m hm
      have : (ns.map Node.clearFormatRecursive).dropLast = [] := by
        match ns, l1 with
        | [], _ => rfl
        | [_], _ => rfl
      rw [this] at hm
      cases hm
end

mutual
theorem NodeRun.cleared_good [LawfulFloatIO] {total : Nat} {whole : Str} : ∀ {n : Node}, NodeRun total whole n →
    (NodeGood n.clearFormatRecursive ↔ NodeNeeds Fresh (fun t => Writable t.value) n)
  | _, .mk (ty := ty) (name := name) (ch := ch) h1 h2 h3 h4 h5 h6 h7 h8 => by
    have ht : ∀ t, ty = some t → (StrTok t.value t.display ↔ Fresh t) := by
      intro t ht
      obtain ⟨s, r, _, h⟩ := h1 t ht
      exact (Ident.fresh (Or.inl (identifier_shown h))).2
    constructor
    · intro hg
      cases hg with
      | mk g1 g2 g3 g4 =>
        refine .mk (fun t e => (ht t e).mp (g1 t e)) ((Ident.frame (i := name.clearFormat) rfl).2.mp g2) ?_ ?_
        · intro e he
          exact (clearEntry_frame e).2.mp (g3 _ (List.mem_map_of_mem he))
        · rintro d rfl
          exact (DocRun.cleared_good (h8 d rfl)).mp (g4 _ rfl)
    · intro hg
      cases hg with
      | mk g1 g2 g3 g4 =>
        refine .mk (fun t e => (ht t e).mpr (g1 t e)) ((Ident.frame (i := name.clearFormat) rfl).2.mpr g2) ?_ ?_
        · intro e he
          obtain ⟨e', he', rfl⟩ := List.mem_map.mp he
          exact (clearEntry_frame e').2.mpr (g3 e' he')
        · intro d hd
          cases ch with
          | none => cases hd
          | some d0 =>
            cases hd
            exact (DocRun.cleared_good (h8 d0 rfl)).mpr (g4 _ rfl)
theorem DocRun.cleared_good [LawfulFloatIO] {total : Nat} {whole : Str} : ∀ {d : Document}, DocRun total whole d →
    (DocGood d.clearFormatRecursive ↔ DocNeeds Fresh (fun t => Writable t.value) d)
  | _, .mk (ns := ns) h1 h2 h3 => by
    unfold Document.clearFormatRecursive
    rw [clearNodes_map]
    constructor
    · rintro ⟨g⟩
      exact .mk fun n hn => (NodeRun.cleared_good (h1 n hn)).mp (g _ (List.mem_map_of_mem hn))
    · rintro ⟨g⟩
      refine .mk fun m hm => ?_
      obtain ⟨n, hn, rfl⟩ := List.mem_map.mp hm
      exact (NodeRun.cleared_good (h1 n hn)).mpr (g n hn)
end

/-- **C18** without neighbours, the boundary: a parsed document in which every list of nodes has at
most one node, after `clear_format_recursive`, prints to a text that is accepted and has the same
data exactly if the names, values and annotations of entries can be written (annotations of nodes
keep their text); otherwise the text is rejected. -/
theorem C18_single_exact [LawfulFloatIO] {s : Str} {d : Document} (h : Document.parse s = .ok d) (hs : DocSingle d) :
    (DocNeeds Fresh (fun t => Writable t.value) d ∧
      ∃ d', Document.parse d.clearFormatRecursive.display = .ok d' ∧ semDoc canonValue d' = semDoc canonValue d) ∨
    (¬ DocNeeds Fresh (fun t => Writable t.value) d ∧ Document.parse d.clearFormatRecursive.display = .err) := by
  obtain ⟨b, d0, _, h1, rfl⟩ := parse_run h
  have e : (d0.prependLeading b).clearFormatRecursive = d0.clearFormatRecursive := by cases d0; rfl
  rw [e]
  have hs' : DocSingle d0 := by
    cases d0
    cases hs with
    | mk l1 l2 => exact .mk l1 l2
  have e1 : semDoc canonValue (d0.prependLeading b) = semDoc canonValue d0 := by cases d0; rfl
  have e2 : DocNeeds Fresh (fun t => Writable t.value) (d0.prependLeading b) ↔ DocNeeds Fresh (fun t => Writable t.value) d0 := by
    cases d0
    exact ⟨fun (.mk h) => .mk h, fun (.mk h) => .mk h⟩
  have := (h1.cleared hs').parse (g := canonValue) canon_idem
  rw [semDoc_clear, h1.cleared_good] at this
  rw [e1, e2]
  refine this.imp_right fun ⟨g1, g2⟩ => ⟨g1, ?_⟩
  rcases (C06_ok_or_err d0.clearFormatRecursive.display).1 with ⟨d', h3⟩ | h3
  · exact absurd h3 (g2 d')
  · exact h3

/-- **C18**, partial: a parsed document in which every list of nodes has at most one
node, after `clear_format_recursive`, prints to a text that is accepted and has the
same data. Missing from C18: documents with two neighbouring nodes, which are
printed without a separator (`C18_violated`), and strings that cannot be written
(`C18_single_exact`). -/
theorem C18_single_partial [LawfulFloatIO] {s : Str} {d : Document} (h : Document.parse s = .ok d) (hw : DocWritable d)
    (hs : DocSingle d) : ∃ d', Document.parse d.clearFormatRecursive.display = .ok d' ∧
      semDoc canonValue d' = semDoc canonValue d := by
  rcases C18_single_exact h hs with ⟨_, h⟩ | ⟨h, _⟩
  · exact h
  · exact absurd (hw.needs (P := Fresh) (Q := fun t => Writable t.value) (fun _ h _ => h) (fun _ h => h)) h

/-- C18 is violated: `a; b` has two nodes; cleared, it prints as `ab`, which has one. -/
theorem C18_violated : ∃ s d d', Document.parse s = .ok d ∧ d.nodes.length = 2 ∧
    Document.parse d.clearFormatRecursive.display = .ok d' ∧ d'.nodes.length = 1 := by
  obtain ⟨d, h1, h2⟩ := ParseResult.holds_ok (r := Document.parse "a; b".toList)
    (f := fun d : Document => decide (d.nodes.length = 2 ∧ d.clearFormatRecursive.display = "ab".toList)) (by krfl)
  obtain ⟨h2, h3⟩ := of_decide_eq_true h2
  obtain ⟨d', h4, h5⟩ := ParseResult.holds_ok (r := Document.parse "ab".toList)
    (f := fun d : Document => decide (d.nodes.length = 1)) (by krfl)
  exact ⟨_, d, d', h1, h2, by rw [h3]; exact h4, of_decide_eq_true h5⟩

end

/-- What parsing `a "x" {b} // c` gives. -/
def sampleParsed : Document :=
  .mk [.mk none ⟨['a'], some ['a'], ⟨0, 1⟩⟩
      [{ ty := none, name := none, value := .string ['x'], format := some { valueRepr := ['"', 'x', '"'], leading := [' '] }, span := ⟨2, 3⟩ }]
      (some (.mk [.mk none ⟨['b'], some ['b'], ⟨7, 1⟩⟩ [] none (some {}) ⟨7, 1⟩] (some {}) ⟨7, 1⟩))
      (some { beforeChildren := [' '] }) ⟨0, 10⟩]
    (some {}) ⟨0, 10⟩

example [FloatIO] : Document.parse "a \"x\" {b} // c".toList = .ok sampleParsed := by krfl

/-- It meets the hypotheses of `C14_no_comments_partial` and `C18_single_partial`. -/
example : DocWritable sampleParsed ∧ DocSingle sampleParsed := by
  refine ⟨.mk ?_, .mk (by decide) ?_⟩
  · intro n hn
    rw [List.mem_singleton.mp hn]
    refine .mk (by rintro _ ⟨⟩) (Writable.of_head (by decide) (by decide)) ?_ ?_
    · intro e he
      rw [List.mem_singleton.mp he]
      exact ⟨by rintro _ ⟨⟩, by rintro _ ⟨⟩, Writable.of_head (by decide) (by decide)⟩
    · rintro d ⟨⟩
      refine .mk ?_
      intro n hn
      rw [List.mem_singleton.mp hn]
      exact .mk (by rintro _ ⟨⟩) (Writable.of_head (by decide) (by decide)) (by rintro _ ⟨⟩) (by rintro _ ⟨⟩)
  · intro n hn
    rw [List.mem_singleton.mp hn]
    refine .mk ?_
    rintro d ⟨⟩
    refine .mk (by decide) ?_
    intro n hn
    rw [List.mem_singleton.mp hn]
    exact .mk (by rintro _ ⟨⟩)

end Kdl
