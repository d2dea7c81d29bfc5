import Verif.Lemmas.Parser.Raw
/-
Disallowed code points in strings.
-/

namespace Kdl
open Spec

theorem blank_allowed {c : Char} (h : Blank c) : ¬ Disallowed c := by
  rcases h with h | h
  · exact (space_chars h).2.2.2
  · unfold Newline newlineCodes at h
    unfold Disallowed disallowedCodes
    simp only [List.mem_cons, List.not_mem_nil, or_false] at *
    omega

theorem digit_allowed {c : Char} (h : IsDigit 16 c) : ¬ Disallowed c := by
  have h := isDigit_iff.2.1.mp h
  unfold isHexDigit isDecDigit at h
  unfold Disallowed disallowedCodes
  simp only [Bool.or_eq_true, Bool.and_eq_true, decide_eq_true_eq, List.mem_cons, List.not_mem_nil, or_false] at *
  omega

theorem escape_allowed {e c : Char} (h : (e, c) ∈ escapes) : ¬ Disallowed e := by
  have : ∀ p ∈ escapes, ¬ Disallowed p.1 := by decide
  exact this _ h

theorem quoted_allowed {t v : Str} (h : Quoted t v) : ∀ c ∈ t, ¬ Disallowed c := by
  induction h with
  | nil => simp
  | plain _ _ _ h4 _ ih => exact List.forall_mem_cons.mpr ⟨h4, ih⟩
  | escape h1 _ ih =>
    exact List.forall_mem_cons.mpr ⟨by decide, List.forall_mem_cons.mpr ⟨escape_allowed h1, ih⟩⟩
  | unicode _ _ h3 _ _ ih =>
    refine List.forall_mem_cons.mpr ⟨by decide, List.forall_mem_cons.mpr ⟨by decide, List.forall_mem_cons.mpr ⟨by decide, ?_⟩⟩⟩
    exact List.forall_mem_append.mpr ⟨fun x hx => digit_allowed (h3 x hx), List.forall_mem_cons.mpr ⟨by decide, ih⟩⟩
  | space _ h2 _ _ ih =>
    exact List.forall_mem_cons.mpr ⟨by decide, List.forall_mem_append.mpr ⟨fun x hx => blank_allowed (h2 x hx), ih⟩⟩

theorem mline_allowed {t v : Str} (h : MLine t v) : ∀ c ∈ t, ¬ Disallowed c := by
  induction h with
  | nil => simp
  | plain _ _ _ h4 _ ih => exact List.forall_mem_cons.mpr ⟨h4, ih⟩
  | quote _ _ ih => exact List.forall_mem_cons.mpr ⟨by decide, ih⟩
  | escape h1 _ ih =>
    exact List.forall_mem_cons.mpr ⟨by decide, List.forall_mem_cons.mpr ⟨escape_allowed h1, ih⟩⟩
  | unicode _ _ h3 _ _ ih =>
    refine List.forall_mem_cons.mpr ⟨by decide, List.forall_mem_cons.mpr ⟨by decide, List.forall_mem_cons.mpr ⟨by decide, ?_⟩⟩⟩
    exact List.forall_mem_append.mpr ⟨fun x hx => digit_allowed (h3 x hx), List.forall_mem_cons.mpr ⟨by decide, ih⟩⟩
  | space _ _ h2 _ _ ih =>
    exact List.forall_mem_cons.mpr ⟨by decide, List.forall_mem_append.mpr ⟨fun x hx => blank_allowed (h2 x hx), ih⟩⟩

theorem newlineSeq_allowed {nl t : Str} (h : NewlineSeq nl t) : ∀ c ∈ nl, ¬ Disallowed c := by
  rcases h with rfl | ⟨c, rfl, h, _⟩
  · decide
  · simpa using blank_allowed (Or.inr h)

theorem escapes_allowed {t : Str} (h : Escapes t) : ∀ c ∈ t, ¬ Disallowed c := by
  induction h with
  | nil => simp
  | cons _ h2 _ _ ih =>
    exact List.forall_mem_cons.mpr ⟨by decide, List.forall_mem_append.mpr ⟨fun x hx => blank_allowed (h2 x hx), ih⟩⟩

theorem spaces_allowed {t : Str} (h : ∀ c ∈ t, Space c) : ∀ c ∈ t, ¬ Disallowed c :=
  fun c hc => blank_allowed (Or.inl (h c hc))

theorem multi_allowed {pre t : Str} {ls : List Str} (hp : ∀ c ∈ pre, Space c) (h : Multi pre t ls) :
    ∀ c ∈ t, ¬ Disallowed c := by
  induction h with
  | close h => exact List.forall_mem_append.mpr ⟨spaces_allowed hp, escapes_allowed h⟩
  | empty h1 h2 _ ih =>
    exact List.forall_mem_append.mpr ⟨spaces_allowed h1, List.forall_mem_append.mpr ⟨newlineSeq_allowed h2, ih⟩⟩
  | line h1 _ h3 _ ih =>
    exact List.forall_mem_append.mpr ⟨spaces_allowed hp, List.forall_mem_append.mpr ⟨mline_allowed h1,
      List.forall_mem_append.mpr ⟨newlineSeq_allowed h3, ih⟩⟩⟩

theorem rawMulti_allowed {n : Nat} {pre t : Str} {ls : List Str} (hp : ∀ c ∈ pre, Space c) (h : RawMulti n pre t ls) :
    (∀ c ∈ t, ¬ Disallowed c) ∧ ∀ l ∈ ls, ∀ c ∈ l, ¬ Disallowed c := by
  induction h with
  | close => exact ⟨spaces_allowed hp, by simp⟩
  | empty h1 h2 _ ih =>
    exact ⟨List.forall_mem_append.mpr ⟨spaces_allowed h1, List.forall_mem_append.mpr ⟨newlineSeq_allowed h2, ih.1⟩⟩,
      List.forall_mem_cons.mpr ⟨by simp, ih.2⟩⟩
  | line h0 _ _ h3 _ ih =>
    exact ⟨List.forall_mem_append.mpr ⟨spaces_allowed hp, List.forall_mem_append.mpr ⟨fun c hc => (h0 c hc).2,
      List.forall_mem_append.mpr ⟨newlineSeq_allowed h3, ih.1⟩⟩⟩,
      List.forall_mem_cons.mpr ⟨fun c hc => (h0 c hc).2, ih.2⟩⟩

theorem hashes_allowed {n : Nat} : ∀ c ∈ hashes n, ¬ Disallowed c := by
  intro c hc
  rw [List.eq_of_mem_replicate hc]
  decide

theorem Spec.Contains.pre {t p : Str} (a : Str) (h : Contains t p) : Contains (a ++ t) p := by
  obtain ⟨x, y, rfl⟩ := h
  exact ⟨a ++ x, y, by simp⟩

theorem Spec.Contains.post {t p : Str} (b : Str) (h : Contains t p) : Contains (t ++ b) p := by
  obtain ⟨x, y, rfl⟩ := h
  exact ⟨x, y ++ b, by simp⟩

theorem quoted_value {t v : Str} (h : Quoted t v) {c : Char} (hc : c ∈ v) :
    c ∈ t ∨ ∃ p, Contains t p ∧ EscapeFor c p := by
  induction h with
  | nil => simp at hc
  | @plain a t v _ _ _ _ _ ih =>
    rcases List.mem_cons.mp hc with rfl | hc
    · exact Or.inl List.mem_cons_self
    · exact (ih hc).imp (List.mem_cons_of_mem _) fun ⟨p, h, h'⟩ => ⟨p, Spec.Contains.pre [a] h, h'⟩
  | @escape e a t v h1 _ ih =>
    rcases List.mem_cons.mp hc with rfl | hc
    · exact Or.inr ⟨_, ⟨[], t, rfl⟩, Or.inl ⟨e, h1, rfl⟩⟩
    · exact (ih hc).imp (fun h => by simp [h]) fun ⟨p, h, h'⟩ => ⟨p, Spec.Contains.pre ['\\', e] h, h'⟩
  | @unicode hx t v a _ _ _ h4 _ ih =>
    rcases List.mem_cons.mp hc with rfl | hc
    · exact Or.inr ⟨_, ⟨[], t, by simp⟩, Or.inr ⟨hx, h4, rfl⟩⟩
    · refine (ih hc).imp (fun h => by simp [h]) fun ⟨p, h, h'⟩ => ⟨p, ?_, h'⟩
      have := Spec.Contains.pre ('\\' :: 'u' :: '{' :: (hx ++ ['}'])) h
      simpa using this
  | @space w t v _ _ _ _ ih =>
    exact (ih hc).imp (fun h => by simp [h]) fun ⟨p, h, h'⟩ => ⟨p, Spec.Contains.pre ('\\' :: w) h, h'⟩

theorem mline_value {t v : Str} (h : MLine t v) {c : Char} (hc : c ∈ v) :
    c ∈ t ∨ ∃ p, Contains t p ∧ EscapeFor c p := by
  induction h with
  | nil => simp at hc
  | @plain a t v _ _ _ _ _ ih =>
    rcases List.mem_cons.mp hc with rfl | hc
    · exact Or.inl List.mem_cons_self
    · exact (ih hc).imp (List.mem_cons_of_mem _) fun ⟨p, h, h'⟩ => ⟨p, Spec.Contains.pre [a] h, h'⟩
  | @quote t v _ _ ih =>
    rcases List.mem_cons.mp hc with rfl | hc
    · exact Or.inl List.mem_cons_self
    · exact (ih hc).imp (List.mem_cons_of_mem _) fun ⟨p, h, h'⟩ => ⟨p, Spec.Contains.pre ['"'] h, h'⟩
  | @escape e a t v h1 _ ih =>
    rcases List.mem_cons.mp hc with rfl | hc
    · exact Or.inr ⟨_, ⟨[], t, rfl⟩, Or.inl ⟨e, h1, rfl⟩⟩
    · exact (ih hc).imp (fun h => by simp [h]) fun ⟨p, h, h'⟩ => ⟨p, Spec.Contains.pre ['\\', e] h, h'⟩
  | @unicode hx t v a _ _ _ h4 _ ih =>
    rcases List.mem_cons.mp hc with rfl | hc
    · exact Or.inr ⟨_, ⟨[], t, by simp⟩, Or.inr ⟨hx, h4, rfl⟩⟩
    · refine (ih hc).imp (fun h => by simp [h]) fun ⟨p, h, h'⟩ => ⟨p, ?_, h'⟩
      have := Spec.Contains.pre ('\\' :: 'u' :: '{' :: (hx ++ ['}'])) h
      simpa using this
  | @space w t v _ _ _ _ _ ih =>
    exact (ih hc).imp (fun h => by simp [h]) fun ⟨p, h, h'⟩ => ⟨p, Spec.Contains.pre ('\\' :: w) h, h'⟩

theorem mem_joinLines {ls : List Str} {c : Char} (h : c ∈ joinLines ls) : c = '\n' ∨ ∃ l ∈ ls, c ∈ l := by
  rw [← joinLines_eq] at h
  obtain ⟨l, hl, hc⟩ := List.mem_flatten.mp (List.dropLast_subset _ h)
  obtain ⟨m, hm, rfl⟩ := List.mem_map.mp hl
  rcases List.mem_append.mp hc with h | h
  · exact Or.inr ⟨m, hm, h⟩
  · exact Or.inl (List.mem_singleton.mp h)

theorem multi_value {pre t : Str} {ls : List Str} (h : Multi pre t ls) {l : Str} (hl : l ∈ ls) {c : Char} (hc : c ∈ l) :
    c ∈ t ∨ ∃ p, Contains t p ∧ EscapeFor c p := by
  induction h with
  | close => simp at hl
  | @empty sp nl t ls h1 h2 _ ih =>
    rcases List.mem_cons.mp hl with rfl | hl
    · simp at hc
    · exact (ih hl).imp (fun h => by simp [h]) fun ⟨p, h, h'⟩ => ⟨p, (h.pre nl).pre sp, h'⟩
  | @line c' x nl t ls h1 _ h3 _ ih =>
    rcases List.mem_cons.mp hl with rfl | hl
    · exact (mline_value h1 hc).imp (fun h => by simp [h]) fun ⟨p, h, h'⟩ => ⟨p, (h.post _).pre _, h'⟩
    · exact (ih hl).imp (fun h => by simp [h]) fun ⟨p, h, h'⟩ => ⟨p, ((h.pre nl).pre c').pre pre, h'⟩

theorem strText_allowed {t v : Str} (h : StrText t v) : ∀ c ∈ t, ¬ Disallowed c := by
  cases h with
  | bare h => exact fun c hc => (h.2.1 c hc).2.2.1
  | quoted h =>
    exact List.forall_mem_cons.mpr ⟨by decide, List.forall_mem_append.mpr ⟨quoted_allowed h, by decide⟩⟩
  | multi h0 h1 h =>
    refine List.forall_mem_cons.mpr ⟨by decide, List.forall_mem_cons.mpr ⟨by decide, List.forall_mem_cons.mpr ⟨by decide, ?_⟩⟩⟩
    exact List.forall_mem_append.mpr ⟨newlineSeq_allowed h0, List.forall_mem_append.mpr ⟨multi_allowed h1 h, by decide⟩⟩
  | raw h =>
    exact List.forall_mem_append.mpr ⟨hashes_allowed, List.forall_mem_cons.mpr ⟨by decide,
      List.forall_mem_append.mpr ⟨fun c hc => (h.1 c hc).2, List.forall_mem_cons.mpr ⟨by decide, hashes_allowed⟩⟩⟩⟩
  | rawMulti h0 h1 h =>
    refine List.forall_mem_append.mpr ⟨hashes_allowed, ?_⟩
    refine List.forall_mem_cons.mpr ⟨by decide, List.forall_mem_cons.mpr ⟨by decide, List.forall_mem_cons.mpr ⟨by decide, ?_⟩⟩⟩
    refine List.forall_mem_append.mpr ⟨newlineSeq_allowed h0, List.forall_mem_append.mpr ⟨(rawMulti_allowed h1 h).1, ?_⟩⟩
    exact List.forall_mem_cons.mpr ⟨by decide, List.forall_mem_cons.mpr ⟨by decide, List.forall_mem_cons.mpr ⟨by decide, hashes_allowed⟩⟩⟩

theorem strText_value {t v : Str} (h : StrText t v) {c : Char} (hc : c ∈ v) (hd : Disallowed c) :
    ∃ p q, t = '"' :: q ∧ Contains t p ∧ EscapeFor c p := by
  have ht := strText_allowed h
  have key : (∃ q, t = '"' :: q) → (c ∈ t ∨ ∃ p, Contains t p ∧ EscapeFor c p) →
      ∃ p q, t = '"' :: q ∧ Contains t p ∧ EscapeFor c p := by
    rintro ⟨q, e⟩ (h | ⟨p, h⟩)
    · exact absurd hd (ht c h)
    · exact ⟨p, q, e, h⟩
  cases h with
  | bare h => exact absurd hd (ht c hc)
  | quoted h =>
    refine key ⟨_, rfl⟩ ((quoted_value h hc).imp (fun h => by simp [h]) fun ⟨p, h, h'⟩ => ⟨p, ?_, h'⟩)
    exact (h.post ['"']).pre ['"']
  | @multi nl pre t ls h0 h1 h =>
    rcases mem_joinLines hc with rfl | ⟨l, hl, hc⟩
    · exact absurd hd (by decide)
    · refine key ⟨_, rfl⟩ ((multi_value h hl hc).imp (fun h => by simp [h]) fun ⟨p, h, h'⟩ => ⟨p, ?_, h'⟩)
      exact ((h.post ['"', '"', '"']).pre nl).pre ['"', '"', '"']
  | raw h => exact absurd hd (h.1 c hc).2
  | rawMulti h0 h1 h =>
    rcases mem_joinLines hc with rfl | ⟨l, hl, hc⟩
    · exact absurd hd (by decide)
    · exact absurd hd ((rawMulti_allowed h1 h).2 l hl c hc)

end Kdl
