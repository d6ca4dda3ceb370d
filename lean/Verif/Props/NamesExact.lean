import Verif.Props.Conform
import Verif.Props.Hopeful
/-! # Which names of headers a service can see: C103, exactly -/

namespace Httpd
open Spec MultiMap

theorem valuesIn_put {reuse : Bool} {k v k' : Bytes} {l : List (Bytes × List Bytes)} (h : valuesIn (put reuse k v l) k' ≠ none) :
    k' = k ∨ valuesIn l k' ≠ none := by
  induction l with
  | nil =>
    simp only [put, valuesIn] at h
    split at h
    · next e => exact Or.inl e.symm
    · exact absurd rfl h
  | cons e l ih =>
    obtain ⟨k1, vs⟩ := e
    simp only [put] at h
    simp only [valuesIn]
    by_cases h1 : k1 = k'
    · right; simp [h1]
    · rw [if_neg h1]
      split at h
      · rw [valuesIn, if_neg h1] at h; exact Or.inr h
      · split at h
        · rw [valuesIn] at h
          split at h
          · next e => exact Or.inl e.symm
          · exact Or.inr h
        · rw [valuesIn, if_neg h1] at h
          exact ih h

/-- Only names that were sent have values. -/
theorem collect_names {fs : List (Bytes × Bytes)} {k : Bytes} (h : valuesIn (collect fs) k ≠ none) : ∃ f ∈ fs, f.1 = k := by
  have gen : ∀ (fs : List (Bytes × Bytes)) (l : List (Bytes × List Bytes)),
      valuesIn (fs.foldl (fun l f => put (decide (l.length < 36)) f.1 f.2 l) l) k ≠ none → (∃ f ∈ fs, f.1 = k) ∨ valuesIn l k ≠ none := by
    intro fs
    induction fs with
    | nil => intro l h; exact Or.inr h
    | cons f fs ih =>
      intro l h
      rcases ih _ h with ⟨g, hg, he⟩ | h
      · exact Or.inl ⟨g, by simp [hg], he⟩
      · rcases valuesIn_put h with h | h
        · exact Or.inl ⟨f, by simp, h.symm⟩
        · exact Or.inr h
  rcases gen fs [] h with h | h
  · exact h
  · exact absurd rfl h

theorem section_name_lengths {maxLine maxCount : Nat} {closed : Bool} {s rest : Bytes} {fs : List (Bytes × Bytes)}
    (h : Section maxLine maxCount closed s fs rest) : ∀ f ∈ fs, f.1.length ≤ 256 ∧ f.1.length + 4 ≤ maxLine := by
  induction h with
  | stop => simp
  | skip _ _ _ _ _ _ _ _ _ _ _ _ ih => exact ih
  | field n v n' v' x y s fs rest ht _ _ hlen _ hv _ hn _ _ ih =>
    intro f hf
    rcases List.mem_cons.mp hf with rfl | hf
    · obtain ⟨i, j, e, _⟩ := hn
      have h1 := congrArg List.length e
      have h2 := taken_length ht
      have h3 := List.length_pos_iff.mpr hv
      simp [lower] at h1 h2 ⊢
      omega
    · exact ih f hf

/-- **C103**, exactly which names a service can see: printable ASCII without colon and capital letters, no space at either end, at most 256 bytes and
short enough for the limit on lines - and all of those, the empty name among them. Missing: that only token characters are let through
(`C103_not_a_token_violated`). -/
theorem C103_exactly_partial (lim : HttpLimits) (hurl : 1 ≤ lim.maxUrl) (hmx : 1 ≤ lim.maxHeadersCount) (hd : Head) (hb : hd.Blank) (k : Bytes) :
    (∃ (r : Reader) (hd' : Head) (r' : Reader) (vs : List Bytes), readHead lim hd r = .ok (hd', r') ∧ hd'.headers.getall k = some vs) ↔
      (∀ b ∈ k, 32 ≤ b ∧ b ≤ 126 ∧ b ≠ 58 ∧ ¬ (65 ≤ b ∧ b ≤ 90)) ∧ k.head? ≠ some 32 ∧ k.getLast? ≠ some 32 ∧ k.length ≤ 256 ∧
        k.length + 4 ≤ lim.maxHeaderLine := by
  constructor
  · rintro ⟨r, hd', r', vs, h, hk⟩
    obtain ⟨h1, h2, h3⟩ := C103_names_partial lim hd hd' hb r r' h k vs hk
    refine ⟨h1, h2, h3, ?_⟩
    obtain ⟨fs, ht, hh, _⟩ := C129_accepted lim hd hd' hb r r' h
    have hne : valuesIn (collect fs) k ≠ none := by rw [← hh, hk]; simp
    obtain ⟨f, hf, rfl⟩ := collect_names hne
    generalize r.flat = u at ht
    cases ht with
    | mk _ _ _ a b x y s _ _ t0 x0 t1 x1 t2 hne x2 htwo hsec => exact section_name_lengths hsec f hf
  · rintro ⟨h1, h2, h3, h4, h5⟩
    have hnl : (10 : Byte) ∉ k := fun hm => absurd (h1 10 hm).1 (by decide)
    have hlow : lower k = k := by
      unfold lower
      conv => rhs; rw [← List.map_id k]
      apply List.map_congr_left
      intro b hbm
      have := (h1 b hbm).2.2.2
      simp [this]
    have hsec : Section lim.maxHeaderLine lim.maxHeadersCount true (k ++ 58 :: [49] ++ [13, 10] ++ [13, 10]) [(lower k, [49])] [] := by
      refine .field k [49] k [49] 13 10 _ _ _ ?_ (fun b hbm => ⟨(h1 b hbm).1, (h1 b hbm).2.1⟩) (fun hm => (h1 58 hm).2.2.1 rfl) h4 (by decide) (by simp)
        hmx ⟨0, 0, by simp, h2, h3⟩ ⟨0, 0, by simp, by decide, by decide⟩ (section_end _ _ (by omega))
      rw [show k ++ 58 :: [49] ++ [13, 10] = k ++ [58, 49, 13] ++ [10] by simp]
      refine .upTo _ _ ?_ (by simp; omega)
      intro hm
      rcases List.mem_append.mp hm with hm | hm
      · exact hnl hm
      · exact absurd hm (by decide)
    have ht : HeadText lim.maxUrl lim.maxHeaderLine lim.maxHeadersCount true
        ([] ++ [32] ++ ([] ++ [32] ++ ([88] ++ [13, 10] ++ (k ++ 58 :: [49] ++ [13, 10] ++ [13, 10])))) [] [] [88] [(lower k, [49])] [] :=
      .mk [] [] [88] 32 32 13 10 _ _ _ (.upTo [] _ (by simp) (by decide)) (by simp) (.upTo [] _ (by simp) hurl) (by simp)
        (.upTo [88, 13] _ (by decide) (by decide)) (by simp) (by decide) (by decide) hsec
    obtain ⟨hd', r', h, _, _, _, hh, _⟩ := C129_accepts lim hd hb (Reader.ofBytes _ .eof) [] [] [88] [] [(lower k, [49])]
      (by rw [Reader.flat_ofBytes]; exact ht)
    exact ⟨_, hd', r', _, h, by rw [hh, hlow]; simp [collect, put, valuesIn]; rfl⟩

/-- Non-trivial case: a name of quotes, brackets and spaces. -/
example : (∀ b ∈ b!"a(b \"c\"", 32 ≤ b ∧ b ≤ 126 ∧ b ≠ 58 ∧ ¬ (65 ≤ b ∧ b ≤ 90)) ∧ (b!"a(b \"c\"").head? ≠ some 32 ∧
    (b!"a(b \"c\"").getLast? ≠ some 32 ∧ (b!"a(b \"c\"").length ≤ 256 := by decide +kernel

/-! ## C104, C105 -/

/-- **C104**, exactly which three words a service can see: a method of at most 127 and a target of fewer than `max_url_size` printable bytes other than
the space, a version of 1 to 126 printable bytes - and all of those, in all combinations. Missing: that the words are not empty
(`C104_empty_words_violated`). -/
theorem C104_exactly_partial (lim : HttpLimits) (hline : 2 ≤ lim.maxHeaderLine) (hd : Head) (hb : hd.Blank) (m t v : Bytes) :
    (∃ (r : Reader) (hd' : Head) (r' : Reader), readHead lim hd r = .ok (hd', r') ∧ hd'.f0 = m ∧ hd'.f1 = t ∧ hd'.f2 = v) ↔
      ((∀ b ∈ m, 33 ≤ b ∧ b ≤ 126) ∧ m.length ≤ 127) ∧ ((∀ b ∈ t, 33 ≤ b ∧ b ≤ 126) ∧ t.length < lim.maxUrl) ∧
      (∀ b ∈ v, 32 ≤ b ∧ b ≤ 126) ∧ 1 ≤ v.length ∧ v.length ≤ 126 := by
  have vis : ∀ b : Byte, IsText b → b ≠ 32 → 33 ≤ b ∧ b ≤ 126 := by apply forall_byte; decide +kernel
  have txt : ∀ b : Byte, 33 ≤ b ∧ b ≤ 126 → IsText b ∧ b ≠ 32 := by apply forall_byte; decide +kernel
  constructor
  · rintro ⟨r, hd', r', h, rfl, rfl, rfl⟩
    obtain ⟨n0, n1⟩ := C104_no_space_partial lim hd hd' hb r r' h
    obtain ⟨fs, ht, _⟩ := C129_accepted lim hd hd' hb r r' h
    generalize r.flat = u at ht
    cases ht with
    | mk _ _ _ a b x y s _ _ t0 x0 t1 x1 t2 hne x2 htwo hsec =>
      have l0 := taken_length t0
      have l1 := taken_length t1
      have l2 := taken_length t2
      have l3 := List.length_pos_iff.mpr hne
      simp at l0 l1 l2
      exact ⟨⟨fun b hbm => vis b (x0 b hbm) (fun e => n0 (e ▸ hbm)), by omega⟩, ⟨fun b hbm => vis b (x1 b hbm) (fun e => n1 (e ▸ hbm)), by omega⟩,
        x2, by omega, by omega⟩
  · rintro ⟨⟨hm, hml⟩, ⟨ht, htl⟩, hv, hv1, hv2⟩
    have hh : HeadText lim.maxUrl lim.maxHeaderLine lim.maxHeadersCount true (m ++ [32] ++ (t ++ [32] ++ (v ++ [13, 10] ++ [13, 10]))) m t v [] [] := by
      refine .mk m t v 32 32 13 10 _ _ _ (.upTo m _ (fun h => (txt 32 (hm 32 h)).2 rfl) (by omega)) (fun c hc => (txt c (hm c hc)).1)
        (.upTo t _ (fun h => (txt 32 (ht 32 h)).2 rfl) htl) (fun c hc => (txt c (ht c hc)).1) ?_ (List.length_pos_iff.mp hv1) hv (by decide)
        (section_end _ _ hline)
      rw [show v ++ [13, 10] = v ++ [13] ++ [10] by simp]
      refine .upTo _ _ ?_ (by simp; omega)
      intro h
      rcases List.mem_append.mp h with h | h
      · exact absurd (hv 10 h).1 (by decide)
      · exact absurd h (by decide)
    obtain ⟨hd', r', h, e0, e1, e2, _⟩ := C129_accepts lim hd hb (Reader.ofBytes _ .eof) m t v [] []
      (by rw [Reader.flat_ofBytes]; exact hh)
    exact ⟨_, hd', r', h, e0, e1, e2⟩

/-- Non-trivial case: no method, no target, and a version of one letter. -/
example : (readHead sampleLimits Head.new (Reader.ofBytes b!"  X\r\n\r\n" .eof)).isOk = true := by decide +kernel

/-! ## C07: name and value -/

theorem valuesIn_mem {l : List (Bytes × List Bytes)} {k : Bytes} {vs : List Bytes} (h : valuesIn l k = some vs) : (k, vs) ∈ l := by
  induction l with
  | nil => cases h
  | cons e l ih =>
    obtain ⟨k', vs'⟩ := e
    simp only [valuesIn] at h
    split at h
    · next e => subst e; cases h; simp
    · simp [ih h]

theorem put_pairs {Q : Bytes → Bytes → Prop} {reuse : Bool} {k v : Bytes} {l : List (Bytes × List Bytes)} (hk : k ≠ []) (hq : Q k v)
    (h : ∀ e ∈ l, e.1 ≠ [] ∧ ∀ v ∈ e.2, Q e.1 v) : ∀ e ∈ put reuse k v l, e.1 ≠ [] ∧ ∀ v ∈ e.2, Q e.1 v := by
  induction l with
  | nil => intro e he; simp only [put, List.mem_singleton] at he; subst he; exact ⟨hk, by simpa using hq⟩
  | cons e l ih =>
    obtain ⟨k', vs⟩ := e
    have h1 := h (k', vs) (by simp)
    have h2 := ih fun e he => h e (by simp [he])
    intro e he
    simp only [put] at he
    split at he
    · next ek =>
      subst ek
      rcases List.mem_cons.mp he with rfl | he
      · refine ⟨h1.1, fun w hw => ?_⟩
        rcases List.mem_append.mp hw with hw | hw
        · exact h1.2 w hw
        · rw [List.mem_singleton.mp hw]; exact hq
      · exact h e (by simp [he])
    · split at he
      · next hc => exact absurd hc.2 h1.1
      · rcases List.mem_cons.mp he with rfl | he
        · exact h1
        · exact h2 e he

/-- Without empty names, what is delivered under a name was sent under it. -/
theorem collect_pairs {fs : List (Bytes × Bytes)} (hne : ∀ f ∈ fs, f.1 ≠ []) {k : Bytes} {vs : List Bytes} (h : valuesIn (collect fs) k = some vs) :
    ∀ v ∈ vs, (k, v) ∈ fs := by
  have gen : ∀ (fs' : List (Bytes × Bytes)) (l : List (Bytes × List Bytes)), (∀ f ∈ fs', f ∈ fs) →
      (∀ e ∈ l, e.1 ≠ [] ∧ ∀ v ∈ e.2, (e.1, v) ∈ fs) →
      ∀ e ∈ fs'.foldl (fun l f => put (decide (l.length < 36)) f.1 f.2 l) l, e.1 ≠ [] ∧ ∀ v ∈ e.2, (e.1, v) ∈ fs := by
    intro fs'
    induction fs' with
    | nil => intro l _ h; exact h
    | cons f fs' ih =>
      intro l hf h
      exact ih _ (fun g hg => hf g (by simp [hg])) (put_pairs (Q := fun a b => (a, b) ∈ fs) (hne f (hf f (by simp))) (hf f (by simp)) h)
  exact (gen fs [] (fun f hf => hf) (by simp) (k, vs) (valuesIn_mem h)).2

theorem section_pair_lengths {maxLine maxCount : Nat} {closed : Bool} {s rest : Bytes} {fs : List (Bytes × Bytes)}
    (h : Section maxLine maxCount closed s fs rest) : ∀ f ∈ fs, f.1.length + f.2.length + 3 ≤ maxLine := by
  induction h with
  | stop => simp
  | skip _ _ _ _ _ _ _ _ _ _ _ _ ih => exact ih
  | field n v n' v' x y s fs rest ht _ _ hlen _ hv _ hn hv' _ ih =>
    intro f hf
    rcases List.mem_cons.mp hf with rfl | hf
    · obtain ⟨i, j, e, _⟩ := hn
      obtain ⟨i', j', e', _⟩ := hv'
      have h1 := congrArg List.length e
      have h1' := congrArg List.length e'
      have h2 := taken_length ht
      simp [lower] at h1 h1' h2 ⊢
      omega
    · exact ih f hf

/-- **C07**, what holds of names with their values: if no line of the head has an empty name, every name together with each of its values is shorter than
the limit on lines (by three bytes). Missing: values that were sent under an empty name (`C07_header_sum_violated`). -/
theorem C07_pairs_partial (lim : HttpLimits) (hd hd' : Head) (hb : hd.Blank) (r r' : Reader) (h : readHead lim hd r = .ok (hd', r')) :
    ∃ fs, HeadText lim.maxUrl lim.maxHeaderLine lim.maxHeadersCount (decide (r.fin = .eof)) r.flat hd'.f0 hd'.f1 hd'.f2 fs r'.flat ∧
      ((∀ f ∈ fs, f.1 ≠ []) → ∀ k vs, hd'.headers.getall k = some vs → ∀ v ∈ vs, (k, v) ∈ fs ∧ k.length + v.length + 3 ≤ lim.maxHeaderLine) := by
  obtain ⟨fs, ht, hh, _⟩ := C129_accepted lim hd hd' hb r r' h
  refine ⟨fs, ht, fun hne k vs hk v hv => ?_⟩
  have hm := collect_pairs hne ((hh k).symm.trans hk) v hv
  refine ⟨hm, ?_⟩
  generalize r.flat = u at ht
  cases ht with
  | mk _ _ _ a b x y s _ _ t0 x0 t1 x1 t2 hne x2 htwo hsec => exact section_pair_lengths hsec _ hm

/-- Non-trivial case: two headers under one name, and what an empty name would do to them. -/
example : valuesIn (collect [(b!"a", b!"1"), (b!"a", b!"22")]) b!"a" = some [b!"1", b!"22"] ∧
    valuesIn (collect [(b!"", b!"333"), (b!"a", b!"1")]) b!"a" = some [b!"333", b!"1"] := by decide +kernel

end Httpd
