import Verif.Spec.Made
import Verif.Props.Reformat
/-
What is true of all documents made through the API without writing formatting texts.
-/

namespace Kdl
open Spec

section
variable [FloatIO]

/-- The recorded text, if any, is read back as the identifier. -/
def CalmIdent (i : Ident) : Prop := ∀ x, i.repr = some x → StrText x i.value

/-- The entry does not ask to be kept, and its annotation is read back. -/
def CalmEntry (e : Entry) : Prop :=
  (∀ f, e.format = some f → f.autoformatKeep = false) ∧ ∀ t, e.ty = some t → CalmIdent t

/-- Simple terminators, no comments after the terminator, and white space and comments
around the node. -/
def CalmNodeFmt (f : NodeFmt) : Prop :=
  (∀ t, f.terminator = '\n' :: t → t = []) ∧ AllWs f.trailing ∧ (∃ r, LSpace r f.leading) ∧
    ∃ r w, NSpace r w ∧ trim f.beforeTerminator = trim w

/-- White space and comments around the document. -/
def CalmDocFmt (f : DocFmt) : Prop := (∃ r, LSpace r f.leading) ∧ ∃ r, LSpace r f.trailing

mutual
/-- The conditions hold in the node and below it. -/
inductive CalmNode : Node → Prop
  | mk {ty : Option Ident} {name : Ident} {es : List Entry} {ch : Option Document} {format : Option NodeFmt}
      {span : Span} (h1 : ∀ e ∈ es, CalmEntry e) (h2 : ∀ f, format = some f → CalmNodeFmt f)
      (h3 : ∀ d, ch = some d → CalmDoc d) : CalmNode (.mk ty name es ch format span)
/-- The conditions hold in the document. -/
inductive CalmDoc : Document → Prop
  | mk {ns : List Node} {format : Option DocFmt} {span : Span} (h1 : ∀ f, format = some f → CalmDocFmt f)
      (h2 : ∀ n ∈ ns, CalmNode n) : CalmDoc (.mk ns format span)
end

mutual
theorem CalmNode.neat : ∀ {n : Node}, CalmNode n → NodeWritable n → NeatNode n
  | _, .mk h1 h2 h3, .mk w1 w2 w3 w4 =>
    .mk w1 w2 (fun e he => ⟨(h1 e he).1, (w3 e he).name, fun t ht => by
        have := (h1 e he).2 t ht
        cases hr : t.repr with
        | none => exact .inl ⟨hr, (w3 e he).ty t ht⟩
        | some x => exact .inr ⟨x, hr, this x hr⟩, (w3 e he).value⟩)
      (fun f hf => ⟨(h2 f hf).1, (h2 f hf).2.1, Or.inl (h2 f hf).2.2.1, Or.inl (h2 f hf).2.2.2⟩) fun d hd => CalmDoc.neat (h3 d hd) (w4 d hd)
theorem CalmDoc.neat : ∀ {d : Document}, CalmDoc d → DocWritable d → NeatDoc d
  | _, .mk h1 h2, .mk w =>
    .mk (fun f hf => ⟨Or.inl (h1 f hf).1, Or.inl (h1 f hf).2⟩) fun n hn => CalmNode.neat (h2 n hn) (w n hn)
end

/-! ### Parsed parts -/

theorem nodeEntry_calm {total : Nat} {s r : Str} {e : Entry} (h : nodeEntry total s = .ok e r) : CalmEntry e := by
  obtain ⟨f, hf, hk⟩ := nodeEntry_keep h
  refine ⟨fun f' e' => ?_, fun t ht x hx => ?_⟩
  · rw [hf] at e'
    cases e'
    exact hk
  · rcases nodeEntry_shown h t (by simp [entryIdents, ht]) with ⟨hr, _⟩ | ⟨y, hr, hy⟩
    · rw [hr] at hx; cases hx
    · rw [hr] at hx; cases hx; exact hy

theorem identParse_calm {s : Str} {i : Ident} (h : Ident.parse s = .ok i) : CalmIdent i := by
  intro x hx
  rcases identifier_shown (tryParse_ok.mp h) with ⟨hr, _⟩ | ⟨y, hr, hy⟩
  · rw [hr] at hx; cases hx
  · rw [hr] at hx; cases hx; exact hy

theorem entryParse_calm {s : Str} {e : Entry} (h : Entry.parse s = .ok e) : CalmEntry e := by
  have h := tryParse_ok.mp h
  unfold paddedNodeEntry at h
  rw [bind_here, bind_ok] at h
  obtain ⟨l, s1, h1, h⟩ := h
  rw [bind_ok] at h
  obtain ⟨e', s2, h2, h⟩ := h
  rw [bind_ok] at h
  obtain ⟨t, s3, h3, h⟩ := h
  rw [bind_here] at h
  obtain ⟨rfl, _⟩ := pure_ok.mp h
  have hc := nodeEntry_calm h2
  refine ⟨fun f hf => ?_, hc.2⟩
  cases he : e'.format with
  | none => simp [he] at hf
  | some f' =>
    simp only [he, Option.map_some, Option.some.injEq] at hf
    rw [← hf]
    exact hc.1 f' he

mutual
theorem NodeRun.calm {total : Nat} {whole : Str} : ∀ {n : Node}, NodeRun total whole n → QuietNode n → CalmNode n
  | _, .mk h1 h2 h3 h4 h5 h6 h7 h8, .mk q1 q2 q3 =>
    .mk (fun e he => by
        obtain ⟨s, r, _, h⟩ := h3 e he
        exact nodeEntry_calm h)
      (fun f hf => by
        cases hf
        obtain ⟨s, r, _, h⟩ := h6
        obtain ⟨r2, q2⟩ := q2
        exact ⟨fun t ht => tailP_term h ht, by rw [h7]; rintro _ ⟨⟩, q1, r2, _, q2, rfl⟩)
      (fun d hd => DocRun.calm (h8 d hd) (q3 d hd))
theorem DocRun.calm {total : Nat} {whole : Str} : ∀ {d : Document}, DocRun total whole d → QuietDoc d → CalmDoc d
  | _, .mk h1 h2 h3, .mk q1 q2 q3 =>
    .mk (fun f hf => by cases hf; exact ⟨q1, q2⟩) (fun n hn => NodeRun.calm (h1 n hn) (q3 n hn))
end

theorem docParse_calm {s : Str} {d : Document} (h : Document.parse s = .ok d) (hs : ∀ t ∈ docNotes d, ¬ ['/', '-'] <:+: t)
    (hb : ∀ q, s ≠ Char.ofNat 0xFEFF :: q) : CalmDoc d := by
  obtain ⟨b, d0, hb0, h1, e0⟩ := parse_run h
  obtain ⟨D, d1, h2, ⟨_, rfl⟩ | ⟨e, _⟩⟩ := parse_exact h
  · have hq : QuietDoc d := h2.quiet hs
    have hn0 : d0.nodes = d.nodes := by rw [e0]; rfl
    cases hq with
    | mk q1 q2 q3 =>
      refine .mk (fun f hf => by cases hf; exact ⟨q1, q2⟩) fun n hn => ?_
      cases h1 with
      | mk r1 r2 r3 =>
        obtain rfl := hn0
        exact NodeRun.calm (r1 n hn) (q3 n hn)
  · exact absurd e (hb D)

theorem nodeParse_calm {s : Str} {n : Node} (h : Node.parse s = .ok n) (hs : ∀ t ∈ nodeNotes n, ¬ ['/', '-'] <:+: t)
    (ht : ∀ f, n.format = some f → ∀ c ∈ f.trailing, isWhitespace c = true) : CalmNode n := by
  have h := tryParse_ok.mp h
  unfold paddedNode at h
  rw [bind_here, bind_ok] at h
  obtain ⟨n', s1, h1, h⟩ := h
  rw [bind_ok] at h
  obtain ⟨o, s2, h2, h⟩ := h
  rw [bind_ok] at h
  obtain ⟨v, s3, h3, h⟩ := h
  rw [bind_here] at h
  obtain ⟨rfl, rfl⟩ := pure_ok.mp h
  have hrun := RunsBelow.nodeF (whole := s) (k := s.length + 1) RunsBelow.baseNode (Nat.lt_succ_self _) (Sub.refl s) h1
  obtain ⟨l, q, n0, h4, h5, rfl⟩ := nodeF_inv h1
  obtain ⟨rfl, hL⟩ := leadingItems_exact (baseOk _ _) (Nat.le_refl _) h4 (Or.inr ⟨_, _, h5⟩)
  have hq : nodeSpace q = .back := (lineSpace_back_iff.mp (leadingItems_inv h4).2.2).1
  obtain ⟨B, rfl, _, hB, _, _⟩ := baseOk _ _ _ _ _ (Nat.le_refl _) hq h5
  obtain ⟨f, hf⟩ := hB.format
  have hB := hB.setLeading l
  have key : ∀ {n : Node}, NodeRun (utf8Len (l ++ (B ++ s1))) (l ++ (B ++ s1)) n → ∀ {B : Str}, Tree (.node false n) s1 B →
      Text .lead (B ++ s1) (leadOf n) → ∀ sp,
      (∀ t ∈ nodeNotes ((n.setFormat (n.format.map fun f => { f with trailing := v })).setSpan sp), ¬ ['/', '-'] <:+: t) →
      (∀ f, ((n.setFormat (n.format.map fun f => { f with trailing := v })).setSpan sp).format = some f →
        ∀ c ∈ f.trailing, isWhitespace c = true) →
      CalmNode ((n.setFormat (n.format.map fun f => { f with trailing := v })).setSpan sp) := by
    intro n hrun B hB hL sp hs ht
    obtain ⟨f, hf⟩ := hB.format
    have hq : QuietNode n := by
      refine hB.quiet (fun t ht' => ?_) ⟨_, lead_plain hL (hs _ ?_)⟩
      · obtain ⟨ty, name, es, ch, f', span⟩ := n
        obtain rfl : f' = some f := hf
        simp only [nodeNotes, Option.toList_some, List.map_cons, List.map_nil, List.flatMap_cons, List.flatMap_nil, List.append_nil,
          List.cons_append, List.nil_append, List.mem_cons, List.mem_append, List.not_mem_nil, or_false] at ht'
        rcases ht' with rfl | h | rfl | rfl
        · exact hs _ (by simp [Node.setSpan, Node.setFormat, nodeNotes, Node.format])
        · exact hs _ (by simp [Node.setSpan, Node.setFormat, nodeNotes, Node.format, Node.children, h])
        · exact hs _ (by simp [Node.setSpan, Node.setFormat, nodeNotes, Node.format])
        · cases hrun with
          | mk _ _ _ _ _ _ h7 _ => rw [h7]; intro hx; exact absurd (List.infix_nil.mp hx) (by simp)
      · obtain ⟨ty, name, es, ch, f', span⟩ := n
        obtain rfl : f' = some f := hf
        simp [Node.setSpan, Node.setFormat, nodeNotes, Node.format, leadOf]
    have hc := NodeRun.calm hrun hq
    obtain ⟨ty, name, es, ch, f', span⟩ := n
    obtain rfl : f' = some f := hf
    cases hc with
    | mk c1 c2 c3 =>
      refine .mk c1 ?_ c3
      rintro f' hf'
      cases hf'
      obtain ⟨t1, _, t3, t4⟩ := c2 f rfl
      exact ⟨t1, ht _ rfl, t3, t4⟩
  refine key hrun hB ?_ _ hs ht
  obtain ⟨ty, name, es, ch, f', span⟩ := n0
  obtain rfl : f' = some f := hf
  exact hL

/-! ### Formatting -/

omit [FloatIO] in
theorem indentText_lspace {c : FormatConfig} (hi : ∀ x ∈ c.indent, Space x) (x : Str) : LSpace x (indentText c) := by
  have : ∀ {w : Str}, (∀ y ∈ w, Space y) → LSpace x w := by
    intro w
    induction w with
    | nil => exact fun _ => .nil
    | cons a w ih => exact fun h => .space (h a (by simp)) (ih fun y hy => h y (by simp [hy]))
  apply this
  intro y hy
  unfold indentText at hy
  obtain ⟨l, hl, hy⟩ := List.mem_flatten.mp hy
  rw [(List.mem_replicate.mp hl).2] at hy
  exact hi y hy

omit [FloatIO] in
theorem trim_nl (w : Str) : trim (w ++ ['\n']) = trim w := by
  have := trim_surround [] w ['\n'] (by decide) (by decide)
  simpa using this

theorem autoNodeFmt_calm {c : FormatConfig} (hi : ∀ x ∈ c.indent, Space x) {o : Option NodeFmt}
    (h : ∀ f, o = some f → CalmNodeFmt f) : CalmNodeFmt (autoformatNodeFmt c o) := by
  cases o with
  | none => exact ⟨by rintro t ⟨⟩; rfl, by rintro _ ⟨⟩, ⟨[], .nil⟩, [], [], .nil, rfl⟩
  | some f =>
    obtain ⟨t1, t2, ⟨r1, t3⟩, r2, bt, t4, t5⟩ := h f rfl
    obtain ⟨w, L, e, hw, hL⟩ := scan_before (nc := c.noComments) t4
    refine ⟨?_, ?_, ⟨[], autoLeading_lspace hi t3 _⟩, [], w, hw _, ?_⟩
    · rw [autoTerm t1]
      rintro t ⟨⟩
      rfl
    · simp only [autoformatNodeFmt, autoformatNodeTrailing_blank (.inr t2)]
      rintro _ ⟨⟩
    · simp only [autoformatNodeFmt, autoTrailing_trim t5]
      rcases hL with rfl | rfl
      · rw [List.append_cancel_right e]
      · have : autoformatTrailing c.noComments bt = w ++ ['\n'] := by
          apply List.append_cancel_right (bs := ['\n'])
          rw [e]; simp
        rw [this, trim_nl]

theorem autoDocFmt_calm {c : FormatConfig} (hi : ∀ x ∈ c.indent, Space x) {f : DocFmt} (h : CalmDocFmt f) (b : Bool) :
    (∀ x, LSpace x (autoformatDocFmt c b f).leading) ∧ ∀ x, LSpace x (autoformatDocFmt c b f).trailing := by
  obtain ⟨⟨r1, t1⟩, r2, t2⟩ := h
  refine ⟨autoLeading_lspace hi t1, fun x => ?_⟩
  unfold autoformatDocFmt
  simp only
  refine Spec.LSpace.append (autoTrailing_lspace t2 _) ?_
  split
  · exact .nil
  · exact nl_lspace x

theorem trim_nl_lspace {s r : Str} (h : LSpace r s) (x : Str) : LSpace x (trim s ++ ['\n']) := by
  obtain ⟨q, h1, h2⟩ := h.scan
  refine scan_lspace (z := false) (by simp) ?_ x
  obtain ⟨w, w', hw, hw', e, _⟩ := trim_decomp s
  rw [e, List.append_assoc] at h1
  obtain ⟨q1, h3, h1⟩ := run_split h1
  rw [start_ws (.inl rfl) hw] at h3
  cases h3
  obtain ⟨q2, h4, h5⟩ := run_split h1
  rw [run_join h4, Scan.run_one, ← run_ws hw' h5]
  exact ready_nl h2

theorem autoEntry_calm {c : FormatConfig} (hk : c.entryKeep = false) {e : Entry} (h : CalmEntry e) : CalmEntry (autoformatEntry c e) := by
  refine ⟨fun f hf => ?_, ?_⟩
  · simp only [autoformatEntry, hk, Bool.false_eq_true, if_false, Entry.autoformat] at hf
    cases he : e.format with
    | none => simp [he] at hf
    | some f' => simp [he, h.1 f' he] at hf
  · simpa [autoformatEntry, hk, Entry.autoformat] using h.2

mutual
theorem CalmNode.auto : ∀ {c : FormatConfig}, PlainConfig c → ∀ {n : Node}, CalmNode n → CalmNode (n.autoformatConfig c)
  | c, hc, _, .mk (ch := ch) h1 h2 h3 => by
    refine .mk (fun e he => ?_) ?_ (fun d hd => ?_)
    · obtain ⟨e', he', rfl⟩ := List.mem_map.mp he
      exact autoEntry_calm hc.1 (h1 e' he')
    · rintro f ⟨⟩
      exact autoNodeFmt_calm hc.2 h2
    · cases ch with
      | none => cases hd
      | some d0 =>
        simp only [autoformatOptDoc, Option.some.injEq] at hd
        obtain ⟨i1, i2⟩ := CalmDoc.auto (c := { c with indentLevel := c.indentLevel + 1 }) hc (h3 d0 rfl)
        rw [← hd]
        generalize d0.autoformatConfig { c with indentLevel := c.indentLevel + 1 } = d' at i1 i2
        cases i1 with
        | mk j1 j2 =>
          refine .mk ?_ j2
          intro f hf
          rename_i format _
          cases format with
          | none => cases hf
          | some f' =>
            cases hf
            obtain ⟨k1, k2⟩ := i2 f' rfl
            exact ⟨⟨[], trim_nl_lspace (k1 []) _⟩, [], Spec.LSpace.append (k2 _) (indentText_lspace hc.2 _)⟩
theorem CalmDoc.auto : ∀ {c : FormatConfig}, PlainConfig c → ∀ {d : Document}, CalmDoc d → CalmDoc (d.autoformatConfig c) ∧
    ∀ f, (d.autoformatConfig c).format = some f → (∀ x, LSpace x f.leading) ∧ ∀ x, LSpace x f.trailing
  | c, hc, _, .mk (ns := ns) (format := format) h1 h2 => by
    have key : ∀ f, (format.map (autoformatDocFmt c (!ns.isEmpty))) = some f → (∀ x, LSpace x f.leading) ∧ ∀ x, LSpace x f.trailing := by
      intro f hf
      cases format with
      | none => cases hf
      | some f' =>
        cases hf
        exact autoDocFmt_calm hc.2 (h1 f' rfl) _
    refine ⟨.mk (fun f hf => ⟨⟨[], (key f hf).1 _⟩, [], (key f hf).2 _⟩) ?_, key⟩
    have hall : ∀ {ns : List Node}, (∀ n ∈ ns, CalmNode (n.autoformatConfig c)) → ∀ n ∈ autoformatNodes c ns, CalmNode n := by
      intro ns
      induction ns with
      | nil => rintro _ _ ⟨⟩
      | cons m ns ih =>
        intro h n hn
        rcases List.mem_cons.mp hn with rfl | hn
        · exact h m (by simp)
        · exact ih (fun k hk => h k (by simp [hk])) n hn
    exact hall fun n hn => CalmNode.auto hc (h2 n hn)
end

/-! ### Clearing -/

theorem CalmEntry.clear {e : Entry} : CalmEntry e.clearFormat := by
  refine ⟨by rintro f ⟨⟩, ?_⟩
  intro t ht x hx
  unfold Entry.clearFormat at ht
  simp only [Option.map_eq_some_iff] at ht
  obtain ⟨i, _, rfl⟩ := ht
  cases hx

mutual
theorem CalmNode.clear : ∀ {n : Node}, CalmNode n → CalmNode n.clearFormatRecursive
  | _, .mk (ch := ch) h1 h2 h3 => by
    refine .mk (fun e he => ?_) (by rintro f ⟨⟩) (fun d hd => ?_)
    · obtain ⟨e', he', rfl⟩ := List.mem_map.mp he
      exact CalmEntry.clear
    · cases ch with
      | none => cases hd
      | some d0 =>
        simp only [clearOptDoc, Option.some.injEq] at hd
        rw [← hd]
        exact CalmDoc.clear (h3 d0 rfl)
theorem CalmDoc.clear : ∀ {d : Document}, CalmDoc d → CalmDoc d.clearFormatRecursive
  | _, .mk (ns := ns) h1 h2 => by
    refine .mk (by rintro f ⟨⟩) ?_
    have hall : ∀ {ns : List Node}, (∀ n ∈ ns, CalmNode n.clearFormatRecursive) → ∀ n ∈ clearNodes ns, CalmNode n := by
      intro ns
      induction ns with
      | nil => rintro _ _ ⟨⟩
      | cons m ns ih =>
        intro h n hn
        rcases List.mem_cons.mp hn with rfl | hn
        · exact h m (by simp)
        · exact ih (fun k hk => h k (by simp [hk])) n hn
    exact hall fun n hn => CalmNode.clear (h2 n hn)
end

/-! ### Switching to version 2 -/

theorem CalmEntry.v2 {e : Entry} (h : CalmEntry e) : CalmEntry e.ensureV2 := by
  unfold Entry.ensureV2
  split
  · exact h
  · next f hf =>
    refine ⟨?_, h.2⟩
    rintro f' ⟨⟩
    exact h.1 f hf

mutual
theorem CalmNode.v2 : ∀ {n : Node}, CalmNode n → CalmNode n.ensureV2
  | _, .mk (ch := ch) h1 h2 h3 => by
    refine .mk (fun e he => ?_) h2 (fun d hd => ?_)
    · obtain ⟨e', he', rfl⟩ := List.mem_map.mp he
      exact (h1 e' he').v2
    · cases ch with
      | none => cases hd
      | some d0 =>
        simp only [ensureOptDoc, Option.some.injEq] at hd
        rw [← hd]
        exact CalmDoc.v2 (h3 d0 rfl)
theorem CalmDoc.v2 : ∀ {d : Document}, CalmDoc d → CalmDoc d.ensureV2
  | _, .mk (ns := ns) h1 h2 => by
    refine .mk h1 ?_
    have hall : ∀ {ns : List Node}, (∀ n ∈ ns, CalmNode n.ensureV2) → ∀ n ∈ ensureNodes ns, CalmNode n := by
      intro ns
      induction ns with
      | nil => rintro _ _ ⟨⟩
      | cons m ns ih =>
        intro h n hn
        rcases List.mem_cons.mp hn with rfl | hn
        · exact h m (by simp)
        · exact ih (fun k hk => h k (by simp [hk])) n hn
    exact hall fun n hn => CalmNode.v2 (h2 n hn)
end

/-! ### Everything that can be made -/

theorem CalmNode.entries : ∀ {n : Node}, CalmNode n → ∀ e ∈ n.entries, CalmEntry e
  | _, .mk h1 _ _ => h1

theorem CalmNode.format : ∀ {n : Node}, CalmNode n → ∀ f, n.format = some f → CalmNodeFmt f
  | _, .mk _ h2 _ => h2

theorem CalmNode.children : ∀ {n : Node}, CalmNode n → ∀ d, n.children = some d → CalmDoc d
  | _, .mk _ _ h3 => h3

theorem CalmDoc.format : ∀ {d : Document}, CalmDoc d → ∀ f, d.format = some f → CalmDocFmt f
  | _, .mk h1 _ => h1

theorem CalmDoc.nodes : ∀ {d : Document}, CalmDoc d → ∀ n ∈ d.nodes, CalmNode n
  | _, .mk _ h2 => h2

theorem CalmDoc.new : CalmDoc .new := .mk (by rintro f ⟨⟩) (by rintro n ⟨⟩)

mutual
theorem Spec.MadeIdent.calm : ∀ {i : Ident}, MadeIdent i → CalmIdent i
  | _, .plain h => by intro x hx; rw [h] at hx; cases hx
  | _, .parse h => identParse_calm h
  | _, .ty h hi => h.calm.2 _ hi
theorem Spec.MadeEntry.calm : ∀ {e : Entry}, MadeEntry e → CalmEntry e
  | _, .new v => ⟨by rintro f ⟨⟩, by rintro t ⟨⟩⟩
  | _, .newProp k v => ⟨by rintro f ⟨⟩, by rintro t ⟨⟩⟩
  | _, .parse h => entryParse_calm h
  | _, .of h he => h.calm.entries _ he
  | _, .setValue h v => ⟨h.calm.1, h.calm.2⟩
  | _, .setTy h hi => ⟨h.calm.1, by rintro t ⟨⟩; exact hi.calm⟩
  | _, .setName h k => ⟨h.calm.1, h.calm.2⟩
  | _, .clearFormat h => CalmEntry.clear
  | _, .autoformat h => by
    have := h.calm
    refine ⟨?_, this.2⟩
    intro f hf
    unfold Entry.autoformat at hf
    simp only at hf
    split at hf
    · next f' he => simp [this.1 f' he] at hf
    · cases hf
  | _, .ensureV2 h => h.calm.v2
theorem Spec.MadeNode.calm : ∀ {n : Node}, MadeNode n → CalmNode n
  | _, .new name => .mk (by rintro e ⟨⟩)
    (by rintro f ⟨⟩; exact ⟨by rintro t ⟨⟩, by decide, ⟨[], .nil⟩, [], [], .nil, rfl⟩) (by rintro d ⟨⟩)
  | _, .parse h hs ht => nodeParse_calm h hs ht
  | _, .of h hn => h.calm.nodes _ hn
  | _, .setName h i => .mk h.calm.entries h.calm.format h.calm.children
  | _, .setTy h i => .mk h.calm.entries h.calm.format h.calm.children
  | _, .setEntries h he => .mk (fun e hm => (he e hm).calm) h.calm.format h.calm.children
  | _, .setChildren h hd => .mk h.calm.entries h.calm.format (by rintro d ⟨⟩; exact hd.calm)
  | _, .clearChildren h => .mk h.calm.entries h.calm.format (by rintro d ⟨⟩)
  | _, .ensureChildren (n := n) h => by
    have := h.calm
    unfold Node.ensureChildren
    split
    · exact .mk this.entries this.format (by rintro d ⟨⟩; exact CalmDoc.new)
    · exact this
  | _, .clearFormat h => .mk h.calm.entries (by rintro f ⟨⟩) h.calm.children
  | _, .clearFormatRecursive h => h.calm.clear
  | _, .autoformat h hc => h.calm.auto hc
  | _, .ensureV2 h => h.calm.v2
theorem Spec.MadeDoc.calm : ∀ {d : Document}, MadeDoc d → CalmDoc d
  | _, .new => CalmDoc.new
  | _, .parse h hs hb => docParse_calm h hs hb
  | _, .of h hd => h.calm.children _ hd
  | _, .setNodes h hn => .mk h.calm.format fun n hm => (hn n hm).calm
  | _, .clearFormat h => .mk (by rintro f ⟨⟩) h.calm.nodes
  | _, .clearFormatRecursive h => h.calm.clear
  | _, .autoformat h hc => (h.calm.auto hc).1
  | _, .ensureV2 h => h.calm.v2
end

end

end Kdl
