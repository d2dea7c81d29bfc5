import Verif.Lemmas.DiagWord
/-
What the parser records about a document with mistaken words.
-/

namespace Kdl
open Spec

theorem DRes.seen_ok {α : Type} {x : DRes α} {r : Str} {l : List Rec} (h : x.seen = .ok () r l) : ∃ a, x = .ok a r l := by
  cases x <;> cases h
  exact ⟨_, rfl⟩

theorem D.rep0_stop {α : Type} {p : D α} {s r : Str} {l : List Rec} {e : PErr} (h : p s l = .back e r l) : D.rep0 p s l = .ok [] s l := by
  unfold D.rep0
  rw [D.repFuel, h]

section
variable [FloatIO] (total : Nat)

/-- The text in front of an entry. -/
theorem entryLead_run {n : Nat} {w t : Str} (h : entryLeadingF (nodeEntry total) (w ++ t) = .ok w t) (hn : (w ++ t).length ≤ n)
    (l : List Rec) : entryLeadingDF (nodeEntryDN total n) (w ++ t) l = .ok w t l := by
  have h1 : entryLeadingDF (nodeEntryD total) (w ++ t) l = .ok w t l :=
    DTr.run (.entryLeadingDF (.nodeEntryD total id)) (.entryLeadingRF (.nodeEntryR _ total) (.nodeEntryR _ total)) h l
  have h2 : DSame n (Option.map Entry.bare) (nodeEntryD total) (nodeEntryDN total n) := fun s l hs =>
    same_nodeEntryDN total total (n := s.length + 1) (Nat.le_refl _) (by omega) s l (Nat.lt_succ_self _)
  have h3 := same_entryLeadingDF h2 (w ++ t) l (by omega)
  rw [h1] at h3
  obtain ⟨b, e, h4, _⟩ := h3
  rw [e, show b = w from h4.symm]

/-- An entry, with errors. -/
theorem nodeEntry_run {w t r : Str} {e : Option Entry} {l l' : List Rec} (hl : entryLeadingF (nodeEntry total) (w ++ t) = .ok w t)
    (he : entryBodyD total t l = .ok e r l') : ∃ e', nodeEntryD total (w ++ t) l = .ok e' r l' := by
  change ∃ e', nodeEntryDF total (nodeEntryDN total (w ++ t).length) (w ++ t) l = _
  unfold nodeEntryDF
  rw [D.bind_run (entryLead_run total hl (Nat.le_refl _) l), D.here_run, D.bind_run he, D.here_run]
  exact ⟨_, rfl⟩

/-- The parser of one entry of a node. -/
def oneEntryD : D (Option Entry) := do .lift (.peek nodeSpace1L); nodeEntryD total

/-- Entries of a node, some of them mistaken, in front of anything. -/
theorem faultyEntries_seen {fs : List Fault} {T y : Str} (h : FaultyEntries y fs T) (hy : AfterEntry y) :
    AfterEntry (T ++ y) ∧ ∀ l, (D.rep0 (oneEntryD total) (T ++ y) l).seen =
      (D.rep0 (oneEntryD total) y (l ++ fs.map (Fault.mark (T ++ y)))).seen := by
  have step : ∀ {w t T : Str} {l l' : List Rec}, ELead w → Starts t →
      (∃ e, entryBodyD total (t ++ (T ++ y)) l = .ok e (T ++ y) l') →
      (D.rep0 (oneEntryD total) (w ++ (t ++ (T ++ y))) l).seen = (D.rep0 (oneEntryD total) (T ++ y) l').seen := by
    intro w t T l l' hw ht ⟨e, he⟩
    obtain ⟨⟨q, hq⟩, hl, _⟩ := hw total (t ++ (T ++ y)) (ht.append _)
    obtain ⟨e', h1⟩ := nodeEntry_run total hl he
    refine D.rep0_cons (a := e') ?_ ?_
    · unfold oneEntryD
      rw [D.bind_run (D.lift_run (.peek .nodeSpace1) (peek_eq hq) l)]
      exact h1
    · obtain ⟨c, q, rfl, _⟩ := ht
      simp only [List.length_append, List.length_cons]; omega
  induction h with
  | nil => exact ⟨hy, fun l => by simp⟩
  | @cons w x T es fs hw hx hT ih =>
    have hw' := ELead.text hw hx.starts
    rw [List.append_assoc, List.append_assoc]
    refine ⟨(hw' 0 _ (hx.starts.append _)).2.2, fun l => ?_⟩
    have e : (fs.map (Fault.shift (w ++ x))).map (Fault.mark (w ++ (x ++ (T ++ y)))) = fs.map (Fault.mark (T ++ y)) := by
      rw [← List.append_assoc, mark_shift]
    rw [List.map_append, mark_shift, e, step hw' hx.starts (faultyEntry_run total hx ih.1 l), ih.2, List.append_assoc]

/-- The entries of a node, some of them mistaken. -/
theorem faultyEntries_run {fs : List Fault} {T y : Str} (h : FaultyEntries y fs T) (hy : NoEntry y) :
    AfterEntry (T ++ y) ∧ ∀ l, ∃ es, D.rep0 (oneEntryD total) (T ++ y) l = .ok es y (l ++ fs.map (Fault.mark (T ++ y))) := by
  obtain ⟨h1, h2⟩ := faultyEntries_seen total h hy.1
  refine ⟨h1, fun l => DRes.seen_ok ?_⟩
  obtain ⟨e, r, h⟩ := DTr.run_back (.bind (.lift (.peek .nodeSpace1)) fun _ => .nodeEntryD total id)
    (.bind (Sim.lift _) (fun _ => Fwd.nodeEntryR _ total) fun _ => .nodeEntryR _ total) (hy.2 total) (l ++ fs.map (Fault.mark (T ++ y)))
  rw [h2, show D.rep0 (oneEntryD total) y _ = _ from D.rep0_stop h]
  rfl

theorem faultyEntriesD_run {fs : List Fault} {T y : Str} (h : FaultyEntries y fs T) (hy : NoEntry y) (l : List Rec) :
    ∃ es, entriesD total (T ++ y) l = .ok es y (l ++ fs.map (Fault.mark (T ++ y))) := by
  obtain ⟨es, h1⟩ := (faultyEntries_run total h hy).2 l
  unfold oneEntryD at h1
  unfold entriesD
  rw [D.bind_run h1]
  exact ⟨_, rfl⟩

/-- A node, part by part. -/
theorem node_run {tt nt Y y z q r : Str} {ts ns : List Fault} {es : List Entry} {ch : Option (Str × Document)} {bt : Str × Str}
    {l l1 l2 l3 : List Rec} (h1 : FaultyTy (nt ++ Y) ts tt) (h2 : FaultyName Y ns nt) (hY : Ends Y)
    (h3 : entriesD total Y (l ++ ts.map (Fault.mark (tt ++ (nt ++ Y))) ++ ns.map (Fault.mark (nt ++ Y))) = .ok es y l1)
    (h4 : childrenD total (baseNodeDN total (tt ++ (nt ++ Y)).length) y l1 = .ok ch z l2)
    (h5 : tailD total (baseNodeDN total (tt ++ (nt ++ Y)).length) ch.isSome z l2 = .ok bt q l3) (h6 : nodeSpace0 q = .ok () r) :
    ∃ n, baseNodeD total (tt ++ (nt ++ Y)) l = .ok n r l3 := by
  have hs := h1.starts (h2.starts.append Y)
  obtain ⟨e1, e2⟩ := hs.notEnd
  obtain ⟨o, q1, af, e3, e4⟩ := faultyTy_run total h1 (h2.starts.append Y) (h2.not_paren _) l
  obtain ⟨i, o', l', e8, e9⟩ := faultyName_run total h2 hY (l ++ ts.map (Fault.mark (tt ++ (nt ++ Y))))
  change ∃ n, baseNodeDF total (baseNodeDN total (tt ++ (nt ++ Y)).length) _ l = _
  generalize hk : (tt ++ (nt ++ Y)).length = k at h4 h5
  unfold baseNodeDF
  rw [D.bind_run (D.lift_run (.notP (.alt (.lit _) .eof)) e1 l), D.here_run]
  generalize hS : tt ++ (nt ++ Y) = S at *
  have ho : D.resume (.lift (.cutErr (.ctx openCx (.notP (.lit ['{']))))) (lit ['{']) S l = .ok (some ()) S l :=
    D.resume_run (D.lift_run (.cutErr (.ctx (.notP (.lit _)))) e2 l)
  unfold openCurlyD
  rw [ho]
  change ∃ n, goodNodeD total (baseNodeDN total k) S S l = _
  unfold goodNodeD
  rw [D.bind_run e3, D.bind_run (D.lift_run (.takeP .nodeSpace0) e4 _), D.here_run, D.bind_run e8, D.bind_run e9, D.bind_run h3, D.bind_run h4, D.bind_run h5]
  simp only
  rw [D.bind_run (D.lift_run .nodeSpace0 h6 l3)]
  exact ⟨_, rfl⟩

/-- The text behind a children block. -/
theorem tailText_run {n : Nat} {s q : Str} {bt : Str} (hn : s.length < n + 1)
    (h : tailText total (baseNode total) true s = .ok bt q) (l : List Rec) :
    tailTextD total (baseNodeDN total n) true s l = .ok bt q l := by
  have h1 : takeP (opt (slashdashedChildrenF total (baseNodeN total n))) s = .ok bt q := by
    have h' : takeP (opt (slashdashedChildrenF total (baseNode total))) s = .ok bt q := h
    rw [← h']
    have ag : Agree n (baseNodeN total n) (baseNode total) :=
      fun q hq => (baseNodeN_agree total (q.length + 1) n (by omega) q (by omega)).symm
    have sf : Sfx (opt (slashdashedChildrenF total (baseNodeN total n))) := by
      have := (Strict.nodeChildrenF total (Strict.baseNodeN total n)).sfx
      unfold slashdashedChildrenF
      psolve
    exact Agree.takeP (.opt (.slashdashedChildrenF ag (Strict.baseNodeN total n) (Strict.baseNode total))) sf s hn
  exact DTr.run (.takeP (.opt (.slashdashedChildrenDF total (.baseNodeDN total id n))))
    (.takeP (.opt (.slashdashedChildrenRF total (.baseNodeRN _ total n) (.baseNodeRN _ total n))) (.opt (.slashdashedChildrenRF total (.baseNodeRN _ total n)))) h1 l

/-- A node without a children block. -/
theorem leaf_run {k : Bool} {tt nt T w r : Str} {ts ns fs : List Fault} (h1 : FaultyTy (nt ++ (T ++ (w ++ r))) ts tt)
    (h2 : FaultyName (T ++ (w ++ r)) ns nt) (h3 : FaultyEntries (w ++ r) fs T) (h4 : Mid w r) (hr : Follow k r) (l : List Rec) :
    ∃ n, baseNodeD total (tt ++ (nt ++ (T ++ (w ++ r)))) l = .ok n r
      (l ++ (ts.map (Fault.mark (tt ++ (nt ++ (T ++ (w ++ r))))) ++ (ns.map (Fault.mark (nt ++ (T ++ (w ++ r)))) ++ fs.map (Fault.mark (T ++ (w ++ r)))))) := by
  obtain ⟨hy, h6⟩ := h4
  obtain ⟨f1, f2, ⟨t, q, f3⟩, f4, f5⟩ := hr.facts
  obtain ⟨es, he⟩ := faultyEntriesD_run total h3 hy (l ++ ts.map (Fault.mark (tt ++ (nt ++ (T ++ (w ++ r))))) ++ ns.map (Fault.mark (nt ++ (T ++ (w ++ r)))))
  rw [← List.append_assoc l, ← List.append_assoc (l ++ _)]
  have hlen : (w ++ r).length < (tt ++ (nt ++ (T ++ (w ++ r)))).length + 1 := by
    simp only [List.length_append]; omega
  generalize l ++ ts.map (Fault.mark (tt ++ (nt ++ (T ++ (w ++ r))))) ++ ns.map (Fault.mark (nt ++ (T ++ (w ++ r)))) ++ fs.map (Fault.mark (T ++ (w ++ r))) = l1 at he ⊢
  have hb := beforeDN_run total hlen (h6 total) l1
  refine node_run total (ch := none) (z := w ++ r) (bt := (taken (w ++ r) r, t)) (q := r) (l2 := l1) (l3 := l1) h1 h2 (faultyEntries_run total h3 hy).1.1 he ?_ ?_ (WSp.nil r f1)
  · obtain ⟨e, q, hl⟩ := D.lift_run_back (.lit ['{']) (lit_back.mpr f4) l1
    refine D.opt_run_back (e := e) (r := q) ?_
    rw [D.bind_run (D.takeP_run hb)]
    refine D.bind_run_back ?_
    unfold nodeChildrenDF
    rw [D.here_run]
    exact D.bind_run_back hl
  · change tailD total _ false _ _ = _
    unfold tailD
    rw [D.bind_run (show tailTextD total _ false _ _ = _ from D.takeP_run hb),
      D.bind_run (D.lift_run (.peek (.takeP (.opt .nodeTerminator))) (peek_eq f3) l1)]
    rfl

/-- A node with a children block. -/
theorem block_run {tt nt T w Z v r : Str} {ts ns fs gs : List Fault} {d : Document}
    (h1 : FaultyTy (nt ++ (T ++ (w ++ '{' :: (Z ++ '}' :: (v ++ r))))) ts tt) (h2 : FaultyName (T ++ (w ++ '{' :: (Z ++ '}' :: (v ++ r)))) ns nt)
    (h3 : FaultyEntries (w ++ '{' :: (Z ++ '}' :: (v ++ r))) fs T) (h4 : Mid w ('{' :: (Z ++ '}' :: (v ++ r))))
    (h5 : nodesDF total (baseNodeD total) (Z ++ '}' :: (v ++ r)) [] = .ok d ('}' :: (v ++ r)) (gs.map (Fault.mark (Z ++ '}' :: (v ++ r)))))
    (h6 : TailAt v r) (l : List Rec) :
    ∃ n, baseNodeD total (tt ++ (nt ++ (T ++ (w ++ '{' :: (Z ++ '}' :: (v ++ r)))))) l = .ok n r
      (l ++ (ts.map (Fault.mark (tt ++ (nt ++ (T ++ (w ++ '{' :: (Z ++ '}' :: (v ++ r))))))) ++ (ns.map (Fault.mark (nt ++ (T ++ (w ++ '{' :: (Z ++ '}' :: (v ++ r)))))) ++
        (fs.map (Fault.mark (T ++ (w ++ '{' :: (Z ++ '}' :: (v ++ r))))) ++ gs.map (Fault.mark (Z ++ '}' :: (v ++ r))))))) := by
  obtain ⟨hy, h7⟩ := h4
  obtain ⟨es, he⟩ := faultyEntriesD_run total h3 hy (l ++ ts.map (Fault.mark (tt ++ (nt ++ (T ++ (w ++ '{' :: (Z ++ '}' :: (v ++ r))))))) ++ ns.map (Fault.mark (nt ++ (T ++ (w ++ '{' :: (Z ++ '}' :: (v ++ r)))))))
  rw [← List.append_assoc l, ← List.append_assoc (l ++ _), ← List.append_assoc (l ++ _ ++ _)]
  generalize l ++ ts.map (Fault.mark (tt ++ (nt ++ (T ++ (w ++ '{' :: (Z ++ '}' :: (v ++ r))))))) ++ ns.map (Fault.mark (nt ++ (T ++ (w ++ '{' :: (Z ++ '}' :: (v ++ r)))))) ++ fs.map (Fault.mark (T ++ (w ++ '{' :: (Z ++ '}' :: (v ++ r))))) = l1 at he ⊢
  obtain ⟨bt, q, t, q', t1, t2, t3⟩ := h6 total
  have hne : nt ≠ [] := h2.ne
  have hpos : 0 < nt.length := List.length_pos_iff.mpr hne
  have hlen : (w ++ '{' :: (Z ++ '}' :: (v ++ r))).length < (tt ++ (nt ++ (T ++ (w ++ '{' :: (Z ++ '}' :: (v ++ r)))))).length + 1 := by
    simp only [List.length_append]; omega
  have hlen2 : (Z ++ '}' :: (v ++ r)).length < (tt ++ (nt ++ (T ++ (w ++ '{' :: (Z ++ '}' :: (v ++ r)))))).length := by
    simp only [List.length_append, List.length_cons]; omega
  have hlen3 : (v ++ r).length < (tt ++ (nt ++ (T ++ (w ++ '{' :: (Z ++ '}' :: (v ++ r)))))).length + 1 := by
    simp only [List.length_append, List.length_cons]; omega
  generalize hk : (tt ++ (nt ++ (T ++ (w ++ '{' :: (Z ++ '}' :: (v ++ r)))))).length = k at hlen hlen2 hlen3
  obtain ⟨d', hd⟩ : ∃ d', nodesDF total (baseNodeDN total k) (Z ++ '}' :: (v ++ r)) l1 = .ok d' ('}' :: (v ++ r))
      (l1 ++ gs.map (Fault.mark (Z ++ '}' :: (v ++ r)))) := by
    have h8 : DSame k Node.bare (baseNodeD total) (baseNodeDN total k) := fun s l hs =>
      same_baseNodeDN total total (n := s.length + 1) (Nat.le_refl _) (by omega) s l (Nat.lt_succ_self _)
    have h9 := same_nodesDF total total h8 (Z ++ '}' :: (v ++ r)) [] hlen2
    rw [h5] at h9
    obtain ⟨d', e, _⟩ := h9
    refine ⟨d', ?_⟩
    rw [(DTr.nodesDF total (.baseNodeDN total id k)).after, e]
    rfl
  refine node_run total (ch := some (taken (w ++ '{' :: (Z ++ '}' :: (v ++ r))) ('{' :: (Z ++ '}' :: (v ++ r))), d')) (z := v ++ r) (bt := (bt, t)) (q := q)
    (l2 := l1 ++ gs.map (Fault.mark (Z ++ '}' :: (v ++ r)))) h1 h2
    (faultyEntries_run total h3 hy).1.1 he ?_ ?_ t3
  · rw [hk]
    refine D.opt_run ?_
    rw [D.bind_run (D.takeP_run (beforeDN_run total hlen (h7 total) l1))]
    refine D.bind_run (a := d') (r := v ++ r) (l' := l1 ++ gs.map (Fault.mark (Z ++ '}' :: (v ++ r)))) ?_
    unfold nodeChildrenDF
    rw [D.here_run, D.bind_run (D.lift_run (.lit _) (lit_one _ _) l1), D.here_run, D.bind_run hd]
    rfl
  · rw [hk]
    change tailD total _ true _ _ = _
    unfold tailD
    rw [D.bind_run (tailText_run total hlen3 t1 _), D.bind_run (D.lift_run (.peek (.takeP (.opt .nodeTerminator))) (peek_eq t2) _)]
    rfl

variable {total}

/-- The nodes behind a node and its end. -/
theorem nodesMore_cons {base : D Node} {baseR : R Node} (hd : DTr base baseR) {t u r : Str} {n : Node} {l l' : List Rec}
    (ht : D.lift nodeTerminatorL t l = .ok () u l) (hu : u.length < t.length) (h : nodeDF base u l = .ok n r l') :
    (nodesMore base t l).seen = (nodesMore base r l').seen := by
  have hi := (DTr.nodeDF hd).inside' u l
  rw [h] at hi
  have hle : r.length ≤ u.length := List.IsSuffix.length_le hi
  have hs : D.sepMore (nodeDF base) (.lift nodeTerminatorL) t l =
      D.sepFuel (nodeDF base) (.lift nodeTerminatorL) (t.length + 1) t l := rfl
  rw [D.sepFuel, ht] at hs
  simp only [hu, if_true, h] at hs
  rw [D.sepFuel_fuel (DTr.nodeDF hd) t.length (r.length + 1) r l' (by omega) (by omega)] at hs
  have e0 : nodesMore base t l = _ := D.bind_def _ _ _ _
  have e1 : nodesMore base r l' = _ := D.bind_def _ _ _ _
  have e2 : D.sepMore (nodeDF base) (.lift nodeTerminatorL) r l' =
    D.sepFuel (nodeDF base) (.lift nodeTerminatorL) (r.length + 1) r l' := rfl
  rw [e0, e1, hs, e2]
  cases D.sepFuel (nodeDF base) (.lift nodeTerminatorL) (r.length + 1) r l' <;> rfl

theorem nodesMore_stop {base : D Node} {t u r : Str} {l : List Rec} {e : PErr}
    (ht : D.lift nodeTerminatorL t l = .ok () u l) (hu : u.length < t.length) (h : nodeDF base u l = .back e r l) :
    nodesMore base t l = nodesTail base t l := by
  have hs : D.sepMore (nodeDF base) (.lift nodeTerminatorL) t l =
      D.sepFuel (nodeDF base) (.lift nodeTerminatorL) (t.length + 1) t l := rfl
  rw [D.sepFuel, ht] at hs
  simp only [hu, if_true, h] at hs
  unfold nodesMore
  rw [D.bind_run hs]

theorem nodesMore_end {base : D Node} {t r : Str} {l : List Rec} {e : PErr} (ht : D.lift nodeTerminatorL t l = .back e r l) :
    nodesMore base t l = nodesTail base t l := by
  have hs : D.sepMore (nodeDF base) (.lift nodeTerminatorL) t l =
      D.sepFuel (nodeDF base) (.lift nodeTerminatorL) (t.length + 1) t l := rfl
  rw [D.sepFuel, ht] at hs
  unfold nodesMore
  rw [D.bind_run hs]

/-- What the parser makes of each kind of text. -/
def FReads : FCat → Str → List Fault → Str → Prop
  | .node, r, fs, B => Starts B ∧ (NodeEnd r → ∀ total l, ∃ n, baseNodeD total (B ++ r) l = .ok n r (l ++ fs.map (Fault.mark (B ++ r))))
  | .items, r, fs, T => Starts T ∧ (DocEnd r → ∀ total p L l, leadingItemsD (baseNodeD total) p l = .ok L (T ++ r) l →
      ∃ n q l', nodeDF (baseNodeD total) p l = .ok n q l' ∧
        (nodesMore (baseNodeD total) q l').seen = .ok () r (l ++ fs.map (Fault.mark (T ++ r))))
  | .nodes, r, fs, D => DocEnd r → ∀ total l, ∃ d, nodesDF total (baseNodeD total) (D ++ r) l = .ok d r (l ++ fs.map (Fault.mark (D ++ r)))

theorem Spec.Faulty.reads {c : FCat} {r t : Str} {fs : List Fault} (h : Faulty c r fs t) : FReads c r fs t := by
  induction h with
  | @ok k r B d h =>
    refine ⟨h.reads.1, fun hr total l => ?_⟩
    obtain ⟨n, hn, _⟩ := h.reads.2 (Or.inl hr) total
    exact ⟨n, by simpa using baseNodeD_run hn l⟩
  | @leaf k tt nt T w r ts ns fs h1 h2 h3 h4 =>
    refine ⟨h1.starts (h2.starts.append _), fun hr total l => ?_⟩
    have hf : Follow k r := Or.inl hr
    obtain ⟨n, hn⟩ := leaf_run total h1 h2 h3 (h4.reads hf.mid) hf l
    refine ⟨n, ?_⟩
    have e : (tt ++ (nt ++ (T ++ w))) ++ r = (tt ++ nt) ++ (T ++ (w ++ r)) := by simp
    have e2 : (tt ++ nt) ++ (T ++ (w ++ r)) = tt ++ (nt ++ (T ++ (w ++ r))) := List.append_assoc ..
    rw [List.map_append, List.map_append, e, mark_shift, e2, mark_shift, hn]
  | @block tt nt T w Z v r ts ns fs gs h1 h2 h3 h4 _ h6 ih =>
    refine ⟨h1.starts (h2.starts.append _), fun hr total l => ?_⟩
    obtain ⟨d, hd⟩ := ih (v ++ r) (Or.inr ⟨_, rfl⟩) total []
    obtain ⟨n, hn⟩ := block_run total h1 h2 h3 ((h4 _).reads (Or.inl (Or.inr (Or.inl ⟨_, rfl⟩)))) hd (h6.reads false (Or.inl hr)) l
    refine ⟨n, ?_⟩
    have e : (tt ++ (nt ++ (T ++ (w ++ '{' :: (Z ++ '}' :: v))))) ++ r = (tt ++ nt) ++ (T ++ (w ++ '{' :: (Z ++ '}' :: (v ++ r)))) := by simp
    have e' : (tt ++ nt) ++ (T ++ (w ++ '{' :: (Z ++ '}' :: (v ++ r)))) =
      (tt ++ (nt ++ (T ++ (w ++ ['{'])))) ++ (Z ++ '}' :: (v ++ r)) := by simp
    have e2 : (tt ++ nt) ++ (T ++ (w ++ '{' :: (Z ++ '}' :: (v ++ r)))) = tt ++ (nt ++ (T ++ (w ++ '{' :: (Z ++ '}' :: (v ++ r))))) :=
      List.append_assoc ..
    rw [List.map_append, List.map_append, List.map_append, e, mark_shift, e', mark_shift, ← e', e2, mark_shift, hn]
  | @last r B fs _ ih =>
    refine ⟨ih.1, fun hr total p L l hp => ?_⟩
    obtain ⟨n, hn⟩ := ih.2 hr.nodeEnd total l
    obtain ⟨n', hn'⟩ := nodeDF_run hp hn
    obtain ⟨e, q, ht⟩ := D.lift_run_back LTr.nodeTerminator hr.terminator (l ++ fs.map (Fault.mark (B ++ r)))
    refine ⟨n', _, _, hn', ?_⟩
    rw [nodesMore_end ht]
    unfold nodesTail
    rw [D.bind_run (D.lift_run (.opt .nodeTerminator) (opt_none hr.terminator) _), D.bind_run (noLeading_run hr.solid _)]
    rfl
  | @lastTerm r B m L fs _ hm hL ih =>
    refine ⟨ih.1.append _, fun hr total p L' l hp => ?_⟩
    have e : (B ++ (m ++ L)) ++ r = B ++ (m ++ (L ++ r)) := by simp
    rw [e] at hp ⊢
    obtain ⟨n, hn⟩ := ih.2 (Or.inr (Or.inr ⟨_, _, termText_eq hm⟩)) total l
    obtain ⟨n', hn'⟩ := nodeDF_run hp hn
    refine ⟨n', _, _, hn', ?_⟩
    have h5 := leadingItems_of (total := total) hL.reads hr.solid
    obtain ⟨e, q, ht⟩ := DTr.run_back (.nodeDF (.baseNodeD total id)) (.nodeRF (.baseNodeR _ total) (.baseNodeR _ total))
      (nodeF_end h5 hr) (l ++ fs.map (Fault.mark (B ++ (m ++ (L ++ r)))))
    rw [nodesMore_stop (D.lift_run LTr.nodeTerminator (termText_eq hm) _) (len_lt (termText_len hm)) ht]
    unfold nodesTail
    rw [D.bind_run (D.lift_run (.opt .nodeTerminator) (opt_some (termText_eq hm)) _), D.bind_run (leadingItemsD_run total h5 _)]
    rfl
  | @cons r B m L T fs gs _ hm hL _ ihB ihT =>
    refine ⟨ihB.1.append _, fun hr total p L' l hp => ?_⟩
    have e : (B ++ (m ++ (L ++ T))) ++ r = B ++ (m ++ (L ++ (T ++ r))) := by simp
    rw [e] at hp ⊢
    obtain ⟨n, hn⟩ := ihB.2 (Or.inr (Or.inr ⟨_, _, termText_eq hm⟩)) total l
    obtain ⟨n', hn'⟩ := nodeDF_run hp hn
    refine ⟨n', _, _, hn', ?_⟩
    have h5 := leadingItems_of (total := total) hL.reads (ihT.1.append r).solid
    obtain ⟨n2, q2, l2, h6, h7⟩ := ihT.2 hr total _ _ _ (leadingItemsD_run total h5 (l ++ fs.map (Fault.mark (B ++ (m ++ (L ++ (T ++ r)))))))
    rw [nodesMore_cons (.baseNodeD total id) (D.lift_run LTr.nodeTerminator (termText_eq hm) _) (len_lt (termText_len hm)) h6, h7,
      List.map_append]
    have e' : B ++ (m ++ (L ++ (T ++ r))) = (B ++ (m ++ L)) ++ (T ++ r) := by simp
    conv => rhs; rw [e', mark_shift, ← e']
    rw [List.append_assoc]
  | @empty r L hL =>
    intro hr total l
    obtain ⟨d, hd, _⟩ := (Text.empty hL).reads hr total
    exact ⟨d, by simpa using nodesD_run total hd l⟩
  | @items r L T fs hL _ ih =>
    intro hr total l
    rw [List.append_assoc, mark_shift]
    have h5 := leadingItems_of (total := total) hL.reads (ih.1.append r).solid
    obtain ⟨n, q, l', h6, h7⟩ := ih.2 hr total _ _ l (noLeading_run (ih.1.append r).solid l)
    refine DRes.seen_ok ?_
    rw [nodesDF_seen, D.bind_run (leadingItemsD_run total h5 l), sep0_more h6, h7]

/-- Where mistakes are. -/
def Placed (fs : List Fault) (T : Str) : Prop := ∀ f ∈ fs, ∃ q, T = f.before ++ (f.word ++ q)

omit [FloatIO] in
theorem Placed.nil (T : Str) : Placed [] T := by simp [Placed]

omit [FloatIO] in
theorem Placed.shift {p T : Str} {fs : List Fault} (h : Placed fs T) : Placed (fs.map (Fault.shift p)) (p ++ T) := by
  intro f hf
  obtain ⟨g, hg, rfl⟩ := List.mem_map.mp hf
  obtain ⟨q, rfl⟩ := h g hg
  exact ⟨q, by simp [Fault.shift]⟩

omit [FloatIO] in
theorem Placed.more {T : Str} {fs : List Fault} (h : Placed fs T) (z : Str) : Placed fs (T ++ z) := by
  intro f hf
  obtain ⟨q, rfl⟩ := h f hf
  exact ⟨q ++ z, by simp⟩

omit [FloatIO] in
theorem Placed.append {T : Str} {fs gs : List Fault} (h : Placed fs T) (h' : Placed gs T) : Placed (fs ++ gs) T := by
  intro f hf
  rcases List.mem_append.mp hf with hf | hf
  · exact h f hf
  · exact h' f hf

omit [FloatIO] in
theorem Placed.whole {T : Str} {f : Fault} (h1 : f.before = []) (h2 : f.word = T) : Placed [f] T := by
  intro g hg
  obtain rfl := List.mem_singleton.mp hg
  exact ⟨[], by simp [h1, h2]⟩

omit [FloatIO] in
theorem Spec.FaultyName.places {fs : List Fault} {T r : Str} (h : FaultyName r fs T) : Placed fs T := by
  cases h with
  | ok => exact .nil _
  | string h => exact .append (fs := [_]) (.whole h.here.1 h.here.2) (.whole rfl rfl)
  | number => exact .whole rfl rfl
  | keyword => exact .whole rfl rfl

omit [FloatIO] in
theorem Spec.FaultyTy.places {fs : List Fault} {T r : Str} (h : FaultyTy r fs T) : Placed fs T := by
  cases h with
  | none => exact .nil _
  | @some it b a f fs hi =>
    have hi : Placed fs it := by
      cases hi with
      | ok => exact .nil _
      | string h => exact .whole h.here.1 h.here.2
      | number => exact .whole rfl rfl
      | keyword => exact .whole rfl rfl
    exact (hi.more (a ++ ')' :: f)).shift (p := '(' :: b)

theorem Spec.FaultyEntry.places {fs : List Fault} {T r : Str} (h : FaultyEntry r fs T) : Placed fs T := by
  have val : ∀ {fs : List Fault} {t : Str}, FaultyValue r fs t → Placed fs t := by
    intro fs t h
    cases h with
    | ok => exact .nil _
    | string h => exact .whole h.here.1 h.here.2
  cases h with
  | word ht => exact (ht.places.more _).append (.whole rfl rfl)
  | arg ht hv => exact (ht.places.more _).append (val hv).shift
  | @prop kt ak ae tt vt ks ts fs hk _ _ ht hv =>
    have hk : Placed ks kt := by
      cases hk with
      | ok => exact .nil _
      | string h => exact .whole h.here.1 h.here.2
    have e' : kt ++ (ak ++ '=' :: (ae ++ (tt ++ vt))) = (kt ++ (ak ++ '=' :: ae)) ++ (tt ++ vt) := by simp
    refine (hk.more _).append (.append (by rw [e']; exact (ht.places.more vt).shift) ?_)
    have e : kt ++ (ak ++ '=' :: (ae ++ (tt ++ vt))) = (kt ++ (ak ++ '=' :: (ae ++ tt))) ++ vt := by simp
    rw [e]
    exact (val hv).shift

theorem Spec.FaultyEntries.places {fs : List Fault} {T r : Str} (h : FaultyEntries r fs T) : Placed fs T := by
  induction h with
  | nil => exact .nil _
  | @cons w x T es fs _ hx _ ih =>
    refine (hx.places.more T).shift.append ?_
    rw [← List.append_assoc]
    exact ih.shift

/-- Where the mistakes of a text are. -/
theorem Spec.Faulty.places {c : FCat} {r t : Str} {fs : List Fault} (h : Faulty c r fs t) : Placed fs t := by
  induction h with
  | ok => exact .nil _
  | @leaf k tt nt T w r ts ns fs h1 h2 h3 _ =>
    refine (h1.places.more _).append ?_
    refine (h2.places.more _).shift.append ?_
    rw [← List.append_assoc]
    exact (h3.places.more _).shift
  | @block tt nt T w Z v r ts ns fs gs h1 h2 h3 _ _ _ ih =>
    refine (h1.places.more _).append ?_
    refine (h2.places.more _).shift.append (.append ?_ ?_)
    · rw [← List.append_assoc]
      exact (h3.places.more _).shift
    · have e : tt ++ (nt ++ (T ++ (w ++ '{' :: (Z ++ '}' :: v)))) = (tt ++ (nt ++ (T ++ (w ++ ['{'])))) ++ (Z ++ '}' :: v) := by simp
      rw [e]
      exact ((ih []).more _).shift
  | last _ ih => exact ih
  | lastTerm _ _ _ ih => exact ih.more _
  | @cons r B m L T fs gs _ _ _ _ ih1 ih2 =>
    refine (ih1.more _).append ?_
    have e : B ++ (m ++ (L ++ T)) = (B ++ (m ++ L)) ++ T := by simp
    rw [e]
    exact ih2.shift
  | empty => exact .nil _
  | items _ _ ih => exact ih.shift

/-- There is no byte order mark in front of leading text. -/
theorem lead_not_bom {L r : Str} (h : Text .lead r L) (hr : Solid r) (hb : ∀ q, r ≠ Char.ofNat 0xFEFF :: q) (q : Str) :
    L ++ r ≠ Char.ofNat 0xFEFF :: q := by
  intro e
  have h1 := leadingItems_of (total := 0) h.reads hr
  have hs : Solid (Char.ofNat 0xFEFF :: q) := by
    rintro _ _ ⟨⟩
    decide
  rw [e, show leadingItems (baseNode 0) (Char.ofNat 0xFEFF :: q) = _ from Lead.nil 0 _ hs] at h1
  injection h1 with _ e
  exact hb q e.symm

theorem Spec.Faulty.not_bom {t : Str} {fs : List Fault} (h : Faulty .nodes [] fs t) (q : Str) : t ≠ Char.ofNat 0xFEFF :: q := by
  cases h with
  | empty hL => simpa using lead_not_bom hL Solid.nil (by simp) q
  | items hL hT =>
    rw [List.append_nil] at hL
    have hs : Starts _ := hT.reads.1
    exact lead_not_bom hL hs.solid (starts_not_bom hs) q

/-- A whole document with mistakes. -/
theorem faulty_document {t s : Str} {fs : List Fault} (h : Faulty .nodes [] fs t) (hs : s = t ∨ s = Char.ofNat 0xFEFF :: t) (total n : Nat) :
    ∃ d, documentDN total (n + 1) s [] = .ok d [] (fs.map (Fault.mark t)) := by
  obtain ⟨d, hd⟩ := h.reads (Or.inl rfl) total []
  rw [List.append_nil, List.nil_append] at hd
  obtain ⟨b, hb⟩ : ∃ b, D.lift (.opt (.takeP bomL)) s [] = .ok b t [] := by
    rcases hs with rfl | rfl
    · exact ⟨_, noBom_run h.not_bom []⟩
    · exact ⟨_, D.lift_run (.opt (.takeP .bom)) (opt_some (takeP_eq (a := ()) (t := [Char.ofNat 0xFEFF]) (lit_ok.mpr rfl))) []⟩
  unfold documentDN documentDF
  rw [D.bind_run hb, D.bind_run hd]
  cases b <;> exact ⟨_, rfl⟩

/-- The diagnostic about a mistaken word. -/
theorem mark_diagnostic {p t q : Str} {f : Fault} (h : t = f.before ++ (f.word ++ q)) :
    Rec.diagnostic (utf8Len (p ++ t)) (f.mark t) =
      ⟨⟨utf8Len p + utf8Len f.before, utf8Len f.word⟩, some (f.message.getD ("Expected " ++ f.what)), some ("not " ++ f.what), f.help⟩ := by
  have e : f.mark t = (⟨f.message, some f.what, f.help⟩, ⟨f.word ++ q, q⟩) := by
    rw [h]; exact mark_here _ _ _ _ _ _
  have h1 := utf8Len_append p t
  have h2 := utf8Len_append f.before (f.word ++ q)
  have h3 := utf8Len_append f.word q
  rw [← h] at h2
  rw [e]
  simp only [Rec.diagnostic, spanOf, Diagnostic.mk.injEq, Span.mk.injEq]
  exact ⟨⟨by omega, by omega⟩, by cases f.message <;> rfl, rfl, trivial⟩

/-- `document_alike` for texts in front of which there are mistakes. -/
theorem document_alike_in {s u : Str} {A : List Rec} (h : ∀ total, (nodesDF total (baseNodeD total) s []).Alike A (nodesDF total (baseNodeD total) u []))
    (hs : ∀ q, s ≠ Char.ofNat 0xFEFF :: q) (hu : ∀ q, u ≠ Char.ofNat 0xFEFF :: q) (total n : Nat) :
    (documentDN total (n + 1) s []).Alike A (documentDN total (n + 1) u []) := by
  unfold documentDN documentDF
  rw [D.bind_run (noBom_run hs []), D.bind_run (noBom_run hu []), D.bind_def, D.bind_def]
  have h := h total
  cases h1 : nodesDF total (baseNodeD total) s [] <;> cases h2 : nodesDF total (baseNodeD total) u [] <;>
    rw [h1, h2] at h <;> try exact h.elim
  · next d r l d' r' l' =>
    obtain ⟨rfl, h⟩ := h
    simp only
    rw [D.bind_def, D.bind_def]
    have hd := DTr.docEndD (DTr.documentDN total id n)
    rw [hd.after r l, hd.after r l']
    cases docEndD (documentDN total n) r [] with
    | ok x r1 l1 => simp [DRes.after, Pure.pure, D.pure, DRes.Alike, List.mem_append, h, or_assoc]
    | back e r1 l1 => simp [DRes.after, DRes.Alike, List.mem_append, h, or_assoc]
    | cut e g r1 l1 => simp [DRes.after, DRes.Alike, List.mem_append, h, or_assoc]
    | crash => trivial
  · exact h
  · exact h
  · trivial

/-- What is reported about a text with mistakes in front of `u`. -/
theorem alike_moved_in {p u : Str} {A : List Rec} (hA : A ≠ []) (np : Document.parseD u ≠ .panic) (np' : Document.parseD (p ++ u) ≠ .panic)
    (h : ∀ total n, (documentDN total (n + 1) (p ++ u) []).Alike A (documentDN total (n + 1) u [])) :
    ∃ es', Document.parseD (p ++ u) = .err es' ∧ (∀ y ∈ A, Rec.diagnostic (utf8Len (p ++ u)) y ∈ es') ∧
      (∀ es, Document.parseD u = .err es → ∀ d ∈ es, ∃ d' ∈ es', Moved (utf8Len p) d d') ∧
      ∀ d' ∈ es', (∃ y ∈ A, d' = Rec.diagnostic (utf8Len (p ++ u)) y) ∨
        ∃ es, Document.parseD u = .err es ∧ ∃ d ∈ es, Moved (utf8Len p) d d' := by
  have h := h (utf8Len (p ++ u)) (p ++ u).length
  have same := same_documentDN (utf8Len u) (utf8Len (p ++ u)) (n := u.length + 1) (m := u.length + 1) (k := (p ++ u).length + 1)
    (Nat.le_refl _) (by simp) u [] (Nat.lt_succ_self _)
  have old : ∀ {l' : List Rec}, (∀ x ∈ A, x ∈ l') → ∀ y ∈ A, Rec.diagnostic (utf8Len (p ++ u)) y ∈ l'.map (Rec.diagnostic (utf8Len (p ++ u))) :=
    fun hx y hy => List.mem_map_of_mem (hx y hy)
  rcases parseD_run np with ⟨d, hu, eu⟩ | ⟨d, l, hu, hne, hin, eu⟩ | ⟨e, g, r, l, hu, hin, hg, hr, he, eu⟩ <;> rw [hu] at same
  · obtain ⟨d2, e2, _⟩ := same
    rw [e2] at h
    rcases parseD_run np' with ⟨d3, hS, eS⟩ | ⟨d3, l3, hS, hne, _, eS⟩ | ⟨e, g, r, l3, hS, _, _, _, _, eS⟩ <;> rw [hS] at h
    · cases A with
      | nil => exact absurd rfl hA
      | cons x A => have := (h.2 x).mpr (Or.inl (List.mem_cons_self ..)); simp at this
    · refine ⟨_, eS, old fun x hx => (h.2 x).mpr (Or.inl hx), by rw [eu]; rintro es ⟨⟩, fun d' hd => Or.inl ?_⟩
      obtain ⟨y, hy, rfl⟩ := List.mem_map.mp hd
      exact ⟨y, by simpa using (h.2 y).mp hy, rfl⟩
    · exact h.elim
  · obtain ⟨d2, e2, _⟩ := same
    rw [e2] at h
    rcases parseD_run np' with ⟨d3, hS, eS⟩ | ⟨d3, l3, hS, hne, _, eS⟩ | ⟨e, g, r, l3, hS, _, _, _, _, eS⟩ <;> rw [hS] at h
    · cases l with
      | nil => exact absurd rfl hne
      | cons x l => have := (h.2 x).mpr (Or.inr (List.mem_cons_self ..)); simp at this
    · refine ⟨_, eS, old fun x hx => (h.2 x).mpr (Or.inl hx), ?_, fun d' hd => ?_⟩
      · rw [eu]
        rintro es ⟨⟩ d hd
        obtain ⟨y, hy, rfl⟩ := List.mem_map.mp hd
        exact ⟨_, List.mem_map_of_mem ((h.2 y).mpr (Or.inr hy)), moved_in (hin y hy)⟩
      · obtain ⟨y, hy, rfl⟩ := List.mem_map.mp hd
        rcases (h.2 y).mp hy with hy | hy
        · exact Or.inl ⟨y, hy, rfl⟩
        · exact Or.inr ⟨_, eu, _, List.mem_map_of_mem hy, moved_in (hin y hy)⟩
    · exact h.elim
  · obtain ⟨e2, _⟩ := same
    rw [e2] at h
    rcases parseD_run np' with ⟨d3, hS, eS⟩ | ⟨d3, l3, hS, hne, _, eS⟩ | ⟨e', g', r', l3, hS, _, _, _, _, eS⟩ <;> rw [hS] at h
    · exact h.elim
    · exact h.elim
    · obtain ⟨rfl, rfl, rfl, h⟩ := h
      have hlast : Moved (utf8Len p) (Rec.diagnostic (utf8Len u) (e', located g' u r'))
          (Rec.diagnostic (utf8Len (p ++ u)) (e', located g' (p ++ u) r')) := by
        cases g' with
        | none => exact moved_comment hr (he rfl)
        | some y => exact moved_in (hg y rfl)
      refine ⟨_, eS, old fun x hx => List.mem_append_left _ ((h x).mpr (Or.inl hx)), ?_, fun d' hd => ?_⟩
      · rw [eu]
        rintro es ⟨⟩ d hd
        obtain ⟨y, hy, rfl⟩ := List.mem_map.mp hd
        rcases List.mem_append.mp hy with hy | hy
        · exact ⟨_, List.mem_map_of_mem (List.mem_append_left _ ((h y).mpr (Or.inr hy))), moved_in (hin y hy)⟩
        · obtain rfl := List.mem_singleton.mp hy
          exact ⟨_, List.mem_map_of_mem (List.mem_append_right _ (List.mem_singleton.mpr rfl)), hlast⟩
      · obtain ⟨y, hy, rfl⟩ := List.mem_map.mp hd
        rcases List.mem_append.mp hy with hy | hy
        · rcases (h y).mp hy with hy | hy
          · exact Or.inl ⟨y, hy, rfl⟩
          · exact Or.inr ⟨_, eu, _, List.mem_map_of_mem (List.mem_append_left _ hy), moved_in (hin y hy)⟩
        · obtain rfl := List.mem_singleton.mp hy
          exact Or.inr ⟨_, eu, _, List.mem_map_of_mem (List.mem_append_right _ (List.mem_singleton.mpr rfl)), hlast⟩

/-- A node with mistakes and its end, in front of anything. -/
theorem faulty_onward {B m X : Str} {fs : List Fault} (hB : Faulty .node (m ++ X) fs B) (hm : TermText m X) (total : Nat) :
    (nodesDF total (baseNodeD total) (B ++ (m ++ X)) []).Alike (fs.map (Fault.mark (B ++ (m ++ X)))) (nodesDF total (baseNodeD total) X []) := by
  obtain ⟨n, hn⟩ := hB.reads.2 (Or.inr (Or.inr ⟨_, _, termText_eq hm⟩)) total []
  have hs : Starts B := hB.reads.1
  exact nodesDF_node (DTr.baseNodeD total id) (AtEnd.baseNode total) total (noLeading_run (hs.append (m ++ X)).solid [])
    hn (fun l => D.lift_run LTr.nodeTerminator (termText_eq hm) l) (len_lt (termText_len hm))

/-! ### The value of a property -/

theorem D.rep0_cut {α : Type} {p : D α} {s r : Str} {l l' : List Rec} {e : PErr} {g : Option Region} (h : p s l = .cut e g r l') :
    D.rep0 p s l = .cut e g r l' := by
  unfold D.rep0
  rw [D.repFuel, h]

theorem DRes.seen_cut {α : Type} {x : DRes α} {r : Str} {l : List Rec} {e : PErr} {g : Option Region} (h : x.seen = .cut e g r l) :
    x = .cut e g r l := by
  cases x <;> cases h
  rfl

variable (total : Nat)

/-- A mistaken word where a value is expected. -/
theorem halts_value {p r : Str} {help : String} (h : Halts p r help) :
    Starts (p ++ r) ∧ (∀ q, p ++ r ≠ '(' :: q) ∧ ∃ what, ∀ l, valueBodyD (p ++ r) l = .cut (wordErr what (some help)) none r l := by
  have num : ∀ {s z : Str} {what : String}, NumberLike s → numberL s = .cut ⟨none, some what, some longHelp⟩ z →
      Starts s ∧ (∀ q, s ≠ '(' :: q) ∧ ∃ what, ∀ l, valueBodyD s l = .cut (wordErr what (some longHelp)) none z l := by
    intro s z what hs hn
    have ne : ∀ d : Char, d ∈ ['(', '#', '"'] → ∀ r, s ≠ d :: r := by
      obtain ⟨sg, k, pt, c, t, hs, hpt, hc, rfl⟩ := hs
      have hfc := dec_facts (hex_of_dec (isDigit_iff.1.mp hc))
      intro d hd r e
      simp only [List.mem_cons, List.not_mem_nil, or_false] at hd
      cases hs <;> rcases hpt with rfl | rfl <;> rcases hd with rfl | rfl | rfl <;> simp at e <;> first
        | exact hfc.2.2.2.2.2.1 e.1
        | exact hfc.2.2.2.1 e.1
        | exact hfc.2.2.2.2.1 e.1
    refine ⟨?_, ne _ (by decide), what, fun l => ?_⟩
    · obtain ⟨sg, k, pt, c, t, hs, hpt, hc, rfl⟩ := hs
      have hc' := isDisallowedIdentChar_iff.mp (hex_not_disallowed (hex_of_dec (isDigit_iff.1.mp hc)))
      cases hs <;> rcases hpt with rfl | rfl <;> first
        | exact ident_starts hc' _
        | exact ident_starts (by decide) _
    · obtain ⟨e1, r1, hk⟩ := D.lift_run_back LTr.keyword (keyword_back (ne _ (by decide))) l
      unfold valueBodyD D.alt
      rw [D.bind_run_back hk]
      simp only
      rw [D.bind_run_cut (e := wordErr what (some longHelp)) (g := none) (r := z) (l' := l)]
      unfold D.lift
      rw [hn]
      rfl
  cases h with
  | @number sg ds y k c l' hs hc hd hv hl hl' hp hb =>
    have e : sg ++ c :: ds ++ l' :: y = sg ++ c :: (ds ++ l' :: y) := by simp
    rw [e]
    exact num ⟨sg, k, [], c, ds ++ l' :: y, hs, Or.inl rfl, hc, by simp⟩ (numberL_letter hs hc hd hv hl hl' hp hb)
  | @base sg pre ds y k radix c l' hs hb hne hc hd hv hl hl' hp =>
    have e : sg ++ (pre ++ c :: ds) ++ l' :: y = sg ++ (pre ++ c :: (ds ++ l' :: y)) := by simp
    rw [e]
    refine num ?_ (numberL_base hs hb hne hc hd hv hl hl' hp)
    obtain ⟨x, rfl⟩ : ∃ x, pre = ['0', x] := by
      cases hb <;> first | exact absurd rfl hne | exact ⟨_, rfl⟩
    exact ⟨sg, k, [], '0', x :: c :: (ds ++ l' :: y), hs, Or.inl rfl, isDigit_iff.1.mpr (by decide), by simp⟩
  | @float _ y l' ht hl hl' hp =>
    exact num (floatLit_numberLike ht) (numberL_float ht hl hl' hp)
  | @keyword y q hne hy hk hq =>
    have hst : Stop q := fun c z e => by
      cases hc : isDisallowedIdentChar c with
      | true => rfl
      | false => exact absurd (isDisallowedIdentChar_iff.mp hc) (hq c z e)
    have hn := keywordL_other hne hy hk hst
    refine ⟨⟨_, _, rfl, by simp [Start]⟩, (by rintro r ⟨⟩), "keyword", fun l => ?_⟩
    change valueBodyD ('#' :: (y ++ q)) l = _
    unfold valueBodyD D.alt
    rw [D.bind_run_cut (e := wordErr "keyword" (some keywordHelp)) (g := none) (r := y ++ q) (l' := l)]
    unfold D.lift
    rw [hn]
    rfl

/-- A property whose value stops the parser. -/
theorem prop_cut {kt key wb wa z r : Str} {e : PErr} {l l' : List Rec} (hk : StrTok key kt) (hb : Sp wb)
    (ha : takeP nodeSpace0 (wa ++ z) = .ok wa z)
    (hv : propValueD total z l = .cut e none r l') :
    entryBodyD total (kt ++ (wb ++ '=' :: (wa ++ z))) l = .cut e (some ⟨z, r⟩) r l' := by
  have e1 := solid_lit (c := '=') (by simp) (wa ++ z)
  have e2 := ends_lit (c := '=') (by simp) (wa ++ z)
  have he : Ends (wb ++ '=' :: (wa ++ z)) := (hb _ e1).ends fun _ => e2
  have e3 : equalsSign ('=' :: (wa ++ z)) = .ok () (wa ++ z) := lit_one _ _
  have h4 : opt (do let k ← takeP nodeSpace0; equalsSign; return k) (wb ++ '=' :: (wa ++ z)) = .ok (some wb) (wa ++ z) :=
    opt_some (by rw [bind_eq (hb.take e1), bind_eq e3]; rfl)
  unfold entryBodyD
  rw [D.bind_run (D.opt_run (DTr.run (.identifierD total id) (Sim.identifierR _ total) (identifier_eq (hk _ he)) l))]
  simp only
  rw [D.bind_run (D.lift_run (.opt (.bind (.takeP .nodeSpace0) fun _ => .bind .equalsSign fun _ => .pure _)) h4 l)]
  simp only
  rw [D.bind_run (D.lift_run (.takeP .nodeSpace0) ha l)]
  refine D.bind_run_cut ?_
  unfold D.mapCut
  rw [hv]
  rfl

/-- A property whose value is a mistaken word. -/
theorem propHalts_run {kt key wb wa vt p r : Str} {ts : List Fault} {help : String} (hk : StrTok key kt) (hb : Sp wb) (ha : Sp wa)
    (ht : FaultyTy (p ++ r) ts vt) (hh : Halts p r help) (l : List Rec) :
    entryBodyD total (kt ++ (wb ++ '=' :: (wa ++ (vt ++ (p ++ r))))) l =
      .cut (wordErr "property value" (some help)) (some ⟨vt ++ (p ++ r), r⟩) r (l ++ ts.map (Fault.mark (vt ++ (p ++ r)))) := by
  obtain ⟨hs, hp, what, hv⟩ := halts_value hh
  refine prop_cut total hk hb (ha.take (ht.starts hs).solid) ?_
  unfold propValueD D.cutErr D.ctx
  rw [valueD_cut total ht hs hp hv]
  rfl

/-- What may follow a property without value. -/
theorem Spec.NoMore.facts {r : Str} (h : NoMore r) : nodeSpace r = .back ∧ (∀ c q, r = c :: q → ¬ IdentChar c) ∧
    ∀ d ∈ ['#', '"', '('], ∀ q, r ≠ d :: q := by
  refine ⟨nodeSpace_back_of (fun c q e => ?_) ?_ ?_, fun c q e => ?_, ?_⟩
  · cases hh : isUnicodeSpace c with
    | false => rfl
    | true =>
      have hs := isUnicodeSpace_iff.mp hh
      rcases h c q e with hn | hm
      · exact absurd hn (fun hn => space_not_newline hs hn)
      · simp only [List.mem_cons, List.not_mem_nil, or_false] at hm
        rcases hm with rfl | rfl | rfl <;> revert hh <;> decide
  · rintro q rfl
    exact absurd (h _ _ rfl) (by decide)
  · rintro q rfl
    exact absurd (h _ _ rfl) (by decide)
  · rcases h c q e with hn | hm
    · exact fun hi => hi.2.1 hn
    · simp only [List.mem_cons, List.not_mem_nil, or_false] at hm
      rcases hm with rfl | rfl | rfl <;> decide
  · rintro d hd q rfl
    have := h _ _ rfl
    simp only [List.mem_cons, List.not_mem_nil, or_false] at hd
    rcases hd with rfl | rfl | rfl <;> revert this <;> decide

/-- A property without value. -/
theorem propMissing_run {kt key wb wa r : Str} (hk : StrTok key kt) (hb : Sp wb) (ha : NSpace r wa) (hr : NoMore r) (l : List Rec) :
    entryBodyD total (kt ++ (wb ++ '=' :: (wa ++ r))) l = .cut (wordErr "property value" none) (some ⟨r, r⟩) r l := by
  obtain ⟨h1, h2, h3⟩ := hr.facts
  refine prop_cut total hk hb (ha.space0 h1).take ?_
  have hsig : signum r = .ok true r := by
    cases r with
    | nil => rfl
    | cons c q =>
      apply signum_none
      · rintro rfl; exact h2 _ _ rfl (by decide)
      · rintro rfl; exact h2 _ _ rfl (by decide)
  have hnd : NoDigit r := fun c q e => by
    cases hd : isDecDigit c
    · rfl
    · exact absurd (isDisallowedIdentChar_iff.mp (hex_not_disallowed (hex_of_dec hd))) (h2 c q e)
  obtain ⟨e1, r1, hk⟩ := D.lift_run_back LTr.keyword (keyword_back (h3 _ (by decide))) l
  obtain ⟨e2, r2, hn⟩ := D.lift_run_back LTr.number (number_back hsig hnd) l
  obtain ⟨e3, r3, ht⟩ := DTr.run_back (.tyD total id) (Sim.tyR _ total) (tyP_back (h3 _ (by decide))) l
  have hro : rawOpen r = .back := by
    unfold rawOpen
    exact bind_back (takeP_back (rep1_back (lit_back.mpr (h3 _ (by decide)))))
  have hs := stringD_none (identString_back h2) hro (h3 _ (by decide)) l
  have hv : valueBodyD r l = .back (wordErr "quoted string" none) r l := by
    unfold valueBodyD D.alt
    rw [D.bind_run_back hk]
    simp only
    rw [D.bind_run_back hn]
    simp only
    exact D.bind_run_back hs
  unfold propValueD D.cutErr D.ctx valueD
  rw [D.here_run, D.bind_run (D.opt_run_back (D.bind_run_back ht)), D.here_run, D.bind_run_back hv]
  rfl

/-- A node with an entry that stops the parser. -/
theorem node_cut {ty : Option Str} {tt nm nt Y r : Str} {e : PErr} {g : Option Region} {l l1 : List Rec} (h1 : TyTok ty tt) (h2 : StrTok nm nt)
    (hY : Ends Y) (h3 : entriesD total Y l = .cut e g r l1) : baseNodeD total (tt ++ (nt ++ Y)) l = .cut e g r l1 := by
  have hs := h1.starts (h2.starts.append Y)
  obtain ⟨e1, e2⟩ := hs.notEnd
  obtain ⟨o, q1, af, e3, e4, e5⟩ := h1.parse (h2.starts.append Y) (h2.not_paren _) total
  have e8 := identifier_eq (total := total) (h2 _ hY)
  have hne : nt ≠ [] := by
    obtain ⟨c, q, rfl, _⟩ := h2.head
    simp
  change baseNodeDF total (baseNodeDN total (tt ++ (nt ++ Y)).length) _ l = _
  generalize hk : (tt ++ (nt ++ Y)).length = k
  unfold baseNodeDF
  rw [D.bind_run (D.lift_run (.notP (.alt (.lit _) .eof)) e1 l), D.here_run]
  generalize hS : tt ++ (nt ++ Y) = S at *
  have ho : D.resume (.lift (.cutErr (.ctx openCx (.notP (.lit ['{']))))) (lit ['{']) S l = .ok (some ()) S l :=
    D.resume_run (D.lift_run (.cutErr (.ctx (.notP (.lit _)))) e2 l)
  unfold openCurlyD
  rw [ho]
  change goodNodeD total (baseNodeDN total k) S S l = _
  unfold goodNodeD
  rw [D.bind_run (DTr.run (.opt (.tyD total id)) (.opt (.tyR _ total)) e3 l),
    D.bind_run (D.lift_run (.takeP .nodeSpace0) e4 l), D.here_run,
    D.bind_run (D.resume_run (DTr.run (.name total id) (.cutErr (.identifierR _ total)) (cutErr_eq e8) l))]
  have hc : ∀ b x, checkNameD b { value := nm, repr := some nt, span := x } = D.pure none := by
    intro b x
    unfold checkNameD
    rw [if_neg (by simpa using hne)]
  simp only [Option.getD_some, id]
  rw [hc]
  change (entriesD total >>= _) _ l = _
  exact D.bind_run_cut h3

/-- A document with such a node. -/
theorem document_cut {S r : Str} {e : PErr} {g : Option Region} {l' : List Rec} (hs : Starts S)
    (h : baseNodeD total S [] = .cut e g r l') (n : Nat) : documentDN total (n + 1) S [] = .cut e g r l' := by
  have hn : nodeDF (baseNodeD total) S [] = .cut e g r l' := by
    unfold nodeDF
    rw [D.bind_run (noLeading_run hs.solid [])]
    exact D.bind_run_cut h
  unfold documentDN documentDF
  rw [D.bind_run (noBom_run (starts_not_bom hs) [])]
  refine D.bind_run_cut ?_
  unfold nodesDF
  rw [D.bind_run (noLeading_run hs.solid []), D.here_run]
  refine D.bind_run_cut ?_
  unfold D.sep0
  rw [hn]

/-- The entries of a node up to one that stops the parser. -/
theorem entries_cut {fs : List Fault} {T w z r : Str} {e : PErr} {g : Option Region} (hT : FaultyEntries (w ++ z) fs T) (hw : ELead w) (hz : Starts z)
    {zs : List Rec} (h : ∀ l, entryBodyD total z l = .cut e g r (l ++ zs)) :
    Ends (T ++ (w ++ z)) ∧ ∀ l, entriesD total (T ++ (w ++ z)) l = .cut e g r (l ++ fs.map (Fault.mark (T ++ (w ++ z))) ++ zs) := by
  obtain ⟨⟨q, hq⟩, hl, ha⟩ := hw total z hz
  obtain ⟨h1, h2⟩ := faultyEntries_seen total hT ha
  refine ⟨h1.1, fun l => ?_⟩
  unfold entriesD
  refine D.bind_run_cut (DRes.seen_cut ?_)
  change (D.rep0 (oneEntryD total) _ _).seen = _
  rw [h2 l, D.rep0_cut (e := e) (g := g) (r := r) (l' := l ++ fs.map (Fault.mark (T ++ (w ++ z))) ++ zs)]
  · rfl
  · unfold oneEntryD
    rw [D.bind_run (D.lift_run (.peek .nodeSpace1) (peek_eq hq) _)]
    change nodeEntryDF total (nodeEntryDN total (w ++ z).length) (w ++ z) _ = _
    unfold nodeEntryDF
    rw [D.bind_run (entryLead_run total hl (Nat.le_refl _) _), D.here_run]
    exact D.bind_run_cut (h _)

end

end Kdl
