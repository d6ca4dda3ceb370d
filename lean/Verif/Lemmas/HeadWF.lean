import Verif.Lemmas.Head
import Verif.Lemmas.Bytes
/-! # Reading a well-formed head -/

namespace Httpd
open Spec

theorem readHead_of_fuel {lim : HttpLimits} {fuel : Nat} {hd : Head} {r : Reader} {x}
    (h : readHeadFuel lim fuel hd r = some x) : readHead lim hd r = x := by
  have h1 := readHeadFuel_mono lim fuel (r.flat.length + 1) hd r x h
  have h2 := readHeadFuel_mono lim (r.flat.length + 1) fuel hd r _ (readHead_eq lim hd r)
  rw [Nat.add_comm, h1] at h2
  exact (Option.some.inj h2).symm

theorem Reader.readUntil_of_done {delim : Byte} {limit : Nat} {r : Reader}
    (h : cutDone delim limit r.flat = true ∨ r.fin = .eof) :
    ∃ r', r.readUntil delim limit = .ok (cut delim limit r.flat).1 r' ∧
      r'.flat = (cut delim limit r.flat).2 ∧ r'.fin = r.fin := by
  have := Reader.readUntil_spec delim limit r
  rwa [if_pos h] at this

/-- Reading up to a delimiter that is there. -/
theorem Reader.readUntil_found {delim : Byte} {limit : Nat} {r : Reader} {p s : Bytes} (hr : r.flat = p ++ delim :: s)
    (hp : delim ∉ p) (hl : p.length < limit) :
    ∃ r', r.readUntil delim limit = .ok (p ++ [delim]) r' ∧ r'.flat = s ∧ r'.fin = r.fin := by
  have := Reader.readUntil_of_done (delim := delim) (limit := limit) (r := r)
    (Or.inl (by rw [hr]; exact cutDone_found _ _ _ _ hp hl))
  rw [hr, cut_found _ _ _ _ hp hl] at this
  exact this

theorem Reader.readLine_found {limit : Nat} {r : Reader} {p s : Bytes} (hr : r.flat = p ++ 10 :: s)
    (hp : 10 ∉ p) (hl : p.length < limit) (hu : (decodeUtf8 (p ++ [10])).isSome) :
    ∃ r', r.readLine limit = .ok (p ++ [10]) r' ∧ r'.flat = s ∧ r'.fin = r.fin := by
  obtain ⟨r', h1, h2, h3⟩ := Reader.readUntil_found hr hp hl
  exact ⟨r', by simp [Reader.readLine, h1, hu], h2, h3⟩

/-! ## header fields -/

/-- The effect of storing fields one after the other. -/
def storeFields (hs : MultiMap) (fs : List Field) : MultiMap :=
  fs.foldl (fun hs f => hs.append (lower f.name) f.value) hs

theorem Spec.Field.WF.no_lf {mx : Nat} {f : Field} (h : f.WF mx) :
    (10 : Byte) ∉ f.name ++ [58] ++ List.replicate f.pre 32 ++ f.value ++ List.replicate f.post 32 ++ [13] := by
  simp only [List.mem_append, List.mem_singleton, List.mem_replicate, not_or]
  refine ⟨⟨⟨⟨⟨?_, by decide⟩, ?_⟩, ?_⟩, ?_⟩, by decide⟩
  · intro hm; exact (h.name_vis _ hm).1.text.ne_lf rfl
  · rintro ⟨_, h⟩; exact absurd h (by decide)
  · intro hm; exact (h.value_text _ hm).ne_lf rfl
  · rintro ⟨_, h⟩; exact absurd h (by decide)

theorem lower_vis_head (n : Bytes) (h : ∀ b ∈ n, IsVisible b) : (lower n).head? ≠ some 32 := by
  rw [← map_toAsciiLower]
  cases n with
  | nil => simp
  | cons b n =>
    simp only [List.map_cons, List.head?_cons, ne_eq, Option.some.injEq, toAsciiLower_space]
    exact (h b (by simp)).ne_space

theorem lower_vis_last (n : Bytes) (h : ∀ b ∈ n, IsVisible b) : (lower n).getLast? ≠ some 32 := by
  rw [← map_toAsciiLower, List.getLast?_map]
  cases hn : n.getLast? with
  | none => simp
  | some b =>
    simp only [Option.map_some, ne_eq, Option.some.injEq, toAsciiLower_space]
    exact (h b (List.mem_of_getLast? hn)).ne_space

theorem scanLine_field {lim mx : Nat} {f : Field} (h : f.WF lim) (hmx : 1 ≤ mx) (hs : MultiMap) :
    scanLine mx hs [] (f.name ++ [58] ++ List.replicate f.pre 32 ++ f.value ++ List.replicate f.post 32) =
      .ok (hs.append (lower f.name) f.value) := by
  rw [scanLine_ok_iff _ _ _ _ _ (by simp)]
  right
  refine ⟨f.name, List.replicate f.pre 32 ++ f.value ++ List.replicate f.post 32, by simp, ?_, ?_, ?_, ?_, ?_, hmx, ?_⟩
  · intro hm; exact (h.name_vis _ hm).2 rfl
  · rw [all_isText_iff]; intro b hb; exact (h.name_vis b hb).1.text
  · rw [all_isText_iff]
    intro b hb
    simp only [List.mem_append, List.mem_replicate] at hb
    rcases hb with (⟨_, rfl⟩ | hb) | ⟨_, rfl⟩
    · decide
    · exact h.value_text b hb
    · decide
  · intro he
    have h0 := congrArg List.length he
    simp at h0
    have := h.after_colon
    simp [h0.1, h0.2.1, h0.2.2] at this
  · simpa using h.name_len
  · rw [trimSp_pad _ _ _ h.value_first h.value_last]
    rw [List.nil_append, map_toAsciiLower, trimSp_self]
    · exact lower_vis_head _ (fun b hb => (h.name_vis b hb).1)
    · exact lower_vis_last _ (fun b hb => (h.name_vis b hb).1)

theorem headerLoop_fields (lim : HttpLimits) (fs : List Field) (hwf : ∀ f ∈ fs, f.WF lim.maxHeaderLine)
    (h2 : 2 ≤ lim.maxHeaderLine) (hmx : fs = [] ∨ 1 ≤ lim.maxHeadersCount) (hs : MultiMap) (r : Reader) (s : Bytes)
    (hr : r.flat = encodeFields fs ++ s) :
    ∃ r', headerLoop lim (fs.length + 1) hs r = some (.ok (storeFields hs fs, r')) ∧ r'.flat = s ∧ r'.fin = r.fin := by
  induction fs generalizing hs r with
  | nil =>
    obtain ⟨r', h1, h2', h3⟩ := Reader.readUntil_found (delim := 10) (limit := lim.maxHeaderLine) (r := r) (p := [13]) (s := s)
      (by simpa [encodeFields] using hr) (by decide) (by simp; omega)
    exact ⟨r', by simp [headerLoop, h1, storeFields], h2', h3⟩
  | cons f fs ih =>
    have hf := hwf f (by simp)
    have hmx' : 1 ≤ lim.maxHeadersCount := by rcases hmx with h | h; cases h; exact h
    obtain ⟨r1, e1, e2, e3⟩ := Reader.readUntil_found (delim := 10) (limit := lim.maxHeaderLine) (r := r)
      (p := f.name ++ [58] ++ List.replicate f.pre 32 ++ f.value ++ List.replicate f.post 32 ++ [13])
      (s := encodeFields fs ++ s) (by rw [hr]; simp [encodeFields, Field.line]) hf.no_lf
      (by have := hf.line_len; simp [Field.line] at this ⊢; omega)
    obtain ⟨r2, e4, e5, e6⟩ := ih (fun f hf => hwf f (by simp [hf])) (Or.inr hmx') (hs.append (lower f.name) f.value) r1 e2
    refine ⟨r2, ?_, e5, by rw [e6, e3]⟩
    have hlen : 2 < (f.name ++ [58] ++ List.replicate f.pre 32 ++ f.value ++ List.replicate f.post 32 ++ [13] ++ [10]).length := by
      have h1 := hf.after_colon
      have h2 := List.length_pos_iff.mpr hf.name_ne
      simp; omega
    have htake : (f.name ++ [58] ++ List.replicate f.pre 32 ++ f.value ++ List.replicate f.post 32 ++ [13] ++ [10]).take
        ((f.name ++ [58] ++ List.replicate f.pre 32 ++ f.value ++ List.replicate f.post 32 ++ [13] ++ [10]).length - 2)
        = f.name ++ [58] ++ List.replicate f.pre 32 ++ f.value ++ List.replicate f.post 32 := by
      rw [List.append_assoc _ [13] [10]]
      apply List.take_left'
      simp
      omega
    simp only [List.length_cons]
    rw [headerLoop]
    simp only [e1]
    rw [if_neg (by omega), if_neg (by omega), htake, scanLine_field hf hmx']
    exact e4

/-- Reading a well-formed head (apart from the number of fields, of which only "at least one allowed" matters). -/
theorem readHead_wire (lim : HttpLimits) (w : WireHead) (hst : w.StartWF lim.maxUrl)
    (hwf : ∀ f ∈ w.fields, f.WF lim.maxHeaderLine) (h2 : 2 ≤ lim.maxHeaderLine)
    (hmx : w.fields = [] ∨ 1 ≤ lim.maxHeadersCount) (hd : Head) (hh : hd.f0 = [] ∧ hd.f1 = [] ∧ hd.f2 = [])
    (r : Reader) (s : Bytes) (hr : r.flat = w.encode ++ s) :
    ∃ r', readHead lim hd r =
        .ok ({ f0 := w.w0, f1 := w.w1, f2 := w.w2, headers := storeFields hd.headers w.fields }, r') ∧
      r'.flat = s ∧ r'.fin = r.fin := by
  obtain ⟨r1, a1, a2, a3⟩ := Reader.readUntil_found (delim := 32) (limit := 128) (r := r) (p := w.w0)
    (s := w.w1 ++ [32] ++ w.w2 ++ [13, 10] ++ encodeFields w.fields ++ s)
    (by rw [hr]; simp [WireHead.encode, WireHead.start])
    (fun hm => (hst.w0_vis _ hm).ne_space rfl) (by have := hst.w0_len; omega)
  obtain ⟨r2, b1, b2, b3⟩ := Reader.readUntil_found (delim := 32) (limit := lim.maxUrl) (r := r1) (p := w.w1)
    (s := w.w2 ++ [13, 10] ++ encodeFields w.fields ++ s)
    (by rw [a2]; simp)
    (fun hm => (hst.w1_vis _ hm).ne_space rfl) (by have := hst.w1_len; omega)
  have hlt : ∀ b ∈ w.w2 ++ [13] ++ [10], b < 0x80 := by
    intro b hb
    simp only [List.mem_append, List.mem_singleton] at hb
    rcases hb with (hb | rfl) | rfl
    · exact (hst.w2_text b hb).lt_128
    · decide
    · decide
  obtain ⟨r3, c1, c2, c3⟩ := Reader.readLine_found (limit := 128) (r := r2) (p := w.w2 ++ [13])
    (s := encodeFields w.fields ++ s) (by rw [b2]; simp)
    (by simp only [List.mem_append, List.mem_singleton, not_or]
        exact ⟨fun hm => (hst.w2_text _ hm).ne_lf rfl, by decide⟩)
    (by have := hst.w2_len; simp; omega)
    (by rw [decodeUtf8_ascii _ hlt]; rfl)
  obtain ⟨r4, d1, d2, d3⟩ := headerLoop_fields lim w.fields hwf h2 hmx hd.headers r3 s c2
  have g0 : (hd.f0 ++ (w.w0 ++ [32])).take ((w.w0 ++ [32]).length - 1) = w.w0 := by simp [hh.1]
  have g1 : (hd.f1 ++ (w.w1 ++ [32])).take ((w.w1 ++ [32]).length - 1) = w.w1 := by simp [hh.2.1]
  have g2 : (hd.f2 ++ (w.w2 ++ [13] ++ [10])).take ((w.w2 ++ [13] ++ [10]).length - 2) = w.w2 := by simp [hh.2.2]
  have t0 : w.w0.all isText = true := by rw [all_isText_iff]; exact fun b hb => (hst.w0_vis b hb).text
  have t1 : w.w1.all isText = true := by rw [all_isText_iff]; exact fun b hb => (hst.w1_vis b hb).text
  have t2 : w.w2.all isText = true := by rw [all_isText_iff]; exact hst.w2_text
  refine ⟨r4, readHead_of_fuel (fuel := w.fields.length + 1) ?_, d2, by rw [d3, c3, b3, a3]⟩
  have l0 : ¬ (w.w0 ++ [32]).length < 1 := by simp
  have l1 : ¬ (w.w1 ++ [32]).length < 1 := by simp
  have l2 : ¬ (w.w2 ++ [13] ++ [10]).length < 3 := by
    have := List.length_pos_iff.mpr hst.w2_ne; simp; omega
  simp only [readHeadFuel, a1, b1, c1, d1, g0, g1, g2, l0, l1, l2, t0, t1, t2, if_false, Bool.not_true, Bool.false_eq_true]

end Httpd
