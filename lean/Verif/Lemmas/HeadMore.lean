import Verif.Lemmas.HeadInv
/-! # Reading heads piece by piece -/

namespace Httpd
open Spec MultiMap

/-- Bytes that are exactly one piece for `take(limit).read_until(delim)`, whatever follows. -/
def IsPiece (delim : Byte) (limit : Nat) (p : Bytes) : Prop := ∀ s, cut delim limit (p ++ s) = (p, s) ∧ cutDone delim limit (p ++ s) = true

theorem isPiece_delim (delim : Byte) (limit : Nat) (p : Bytes) (h : delim ∉ p) (hl : p.length < limit) :
    IsPiece delim limit (p ++ [delim]) := by
  intro s
  rw [List.append_assoc]
  exact ⟨cut_found delim p s limit h hl, cutDone_found delim p s limit h hl⟩

theorem isPiece_full (delim : Byte) (limit : Nat) (p : Bytes) (h : delim ∉ p) (hl : p.length = limit) :
    IsPiece delim limit p := by
  intro s
  rw [cut_append_notin _ _ _ _ h (by omega), cutDone_append_notin _ _ _ _ h (by omega), hl, Nat.sub_self]
  simp [cut, cutDone]

theorem Reader.readUntil_piece {delim : Byte} {limit : Nat} {r : Reader} {p s : Bytes} (hp : IsPiece delim limit p)
    (hr : r.flat = p ++ s) : ∃ r', r.readUntil delim limit = .ok p r' ∧ r'.flat = s ∧ r'.fin = r.fin := by
  have := Reader.readUntil_of_done (delim := delim) (limit := limit) (r := r) (Or.inl (by rw [hr]; exact (hp s).2))
  rwa [hr, (hp s).1] at this

theorem Reader.readLine_piece {limit : Nat} {r : Reader} {p s : Bytes} (hp : IsPiece 10 limit p)
    (hr : r.flat = p ++ s) (hu : (decodeUtf8 p).isSome) :
    ∃ r', r.readLine limit = .ok p r' ∧ r'.flat = s ∧ r'.fin = r.fin := by
  obtain ⟨r', h1, h2, h3⟩ := Reader.readUntil_piece hp hr
  exact ⟨r', by simp [Reader.readLine, h1, hu], h2, h3⟩

/-- At the end of a closed stream a read returns what is left when no delimiter and no limit stops it. -/
theorem Reader.readUntil_rest {delim : Byte} {limit : Nat} {r : Reader} (hn : delim ∉ r.flat) (hl : r.flat.length ≤ limit)
    (hf : r.fin = .eof) : ∃ r', r.readUntil delim limit = .ok r.flat r' ∧ r'.flat = [] ∧ r'.fin = .eof := by
  have h := Reader.readUntil_of_done (delim := delim) (limit := limit) (r := r) (Or.inr hf)
  have hc := cut_append_notin delim r.flat [] limit hn hl
  rw [List.append_nil] at hc
  have h0 : cut delim (limit - r.flat.length) [] = ([], []) := by cases limit - r.flat.length <;> rfl
  rw [h0, List.append_nil] at hc
  rw [hc, hf] at h
  exact h

/-- A start line cut into its three pieces. -/
structure StartPieces (maxUrl : Nat) (m t v : Bytes) : Prop where
  pm : IsPiece 32 128 m
  pt : IsPiece 32 maxUrl t
  pv : IsPiece 10 128 v
  m1 : 1 ≤ m.length
  t1 : 1 ≤ t.length
  v3 : 3 ≤ v.length
  mt : ∀ b ∈ m.take (m.length - 1), IsText b
  tt : ∀ b ∈ t.take (t.length - 1), IsText b
  vt : ∀ b ∈ v.take (v.length - 2), IsText b
  utf8 : (decodeUtf8 v).isSome

/-- Add the start line to the result of the header loop. -/
def addStart (f0 f1 f2 : Bytes) : Option (Except ReadCode (MultiMap × Reader)) → Option (Except ReadCode (Head × Reader))
  | none => none
  | some (.error e) => some (.error e)
  | some (.ok (hs, r)) => some (.ok ({ f0 := f0, f1 := f1, f2 := f2, headers := hs }, r))

theorem readHeadFuel_start (lim : HttpLimits) (m t v : Bytes) (h : StartPieces lim.maxUrl m t v) (hd : Head)
    (hh : hd.f0 = [] ∧ hd.f1 = [] ∧ hd.f2 = []) (r : Reader) (s : Bytes) (hr : r.flat = m ++ t ++ v ++ s) :
    ∃ r3, r3.flat = s ∧ r3.fin = r.fin ∧ ∀ fuel, readHeadFuel lim fuel hd r =
      addStart (m.take (m.length - 1)) (t.take (t.length - 1)) (v.take (v.length - 2)) (headerLoop lim fuel hd.headers r3) := by
  obtain ⟨r1, a1, a2, a3⟩ := Reader.readUntil_piece (r := r) (s := t ++ v ++ s) h.pm (by rw [hr]; simp)
  obtain ⟨r2, b1, b2, b3⟩ := Reader.readUntil_piece (r := r1) (s := v ++ s) h.pt (by rw [a2]; simp)
  obtain ⟨r3, c1, c2, c3⟩ := Reader.readLine_piece (r := r2) (s := s) h.pv (by rw [b2]) h.utf8
  refine ⟨r3, c2, by rw [c3, b3, a3], fun fuel => ?_⟩
  have l0 : ¬ m.length < 1 := by have := h.m1; omega
  have l1 : ¬ t.length < 1 := by have := h.t1; omega
  have l2 : ¬ v.length < 3 := by have := h.v3; omega
  have t0 : (m.take (m.length - 1)).all isText = true := by rw [all_isText_iff]; exact h.mt
  have t1 : (t.take (t.length - 1)).all isText = true := by rw [all_isText_iff]; exact h.tt
  have t2 : (v.take (v.length - 2)).all isText = true := by rw [all_isText_iff]; exact h.vt
  simp only [readHeadFuel, a1, b1, c1, hh.1, hh.2.1, hh.2.2, List.nil_append, l0, l1, l2, t0, t1, t2, if_false,
    Bool.not_true, Bool.false_eq_true]
  cases headerLoop lim fuel hd.headers r3 with
  | none => rfl
  | some x => cases x <;> rfl

theorem readHead_start (lim : HttpLimits) (m t v : Bytes) (h : StartPieces lim.maxUrl m t v) (hd : Head)
    (hh : hd.f0 = [] ∧ hd.f1 = [] ∧ hd.f2 = []) (r : Reader) (s : Bytes) (hr : r.flat = m ++ t ++ v ++ s) :
    ∃ r3, r3.flat = s ∧ r3.fin = r.fin ∧
      ∀ fuel x, headerLoop lim fuel hd.headers r3 = some x →
        some (readHead lim hd r) =
          addStart (m.take (m.length - 1)) (t.take (t.length - 1)) (v.take (v.length - 2)) (some x) := by
  obtain ⟨r3, h1, h2, h3⟩ := readHeadFuel_start lim m t v h hd hh r s hr
  refine ⟨r3, h1, h2, fun fuel x hx => ?_⟩
  have h4 := h3 fuel
  rw [hx] at h4
  obtain ⟨y, hy⟩ : ∃ y, addStart (m.take (m.length - 1)) (t.take (t.length - 1)) (v.take (v.length - 2)) (some x) = some y := by
    cases x <;> exact ⟨_, rfl⟩
  rw [hy] at h4 ⊢
  rw [readHead_of_fuel h4]

theorem Spec.WireHead.StartWF.pieces {maxUrl : Nat} {w : WireHead} (h : w.StartWF maxUrl) :
    StartPieces maxUrl (w.w0 ++ [32]) (w.w1 ++ [32]) (w.w2 ++ [13, 10]) := by
  have hlt : ∀ b ∈ w.w2 ++ [13, 10], b < 0x80 := by
    intro b hb
    simp only [List.mem_append, List.mem_cons, List.not_mem_nil, or_false] at hb
    rcases hb with hb | rfl | rfl
    · exact (h.w2_text b hb).lt_128
    · decide
    · decide
  refine ⟨isPiece_delim _ _ _ (fun hm => (h.w0_vis _ hm).ne_space rfl) (by have := h.w0_len; omega),
    isPiece_delim _ _ _ (fun hm => (h.w1_vis _ hm).ne_space rfl) (by have := h.w1_len; omega), ?_, by simp, by simp, ?_,
    ?_, ?_, ?_, ?_⟩
  · have := isPiece_delim 10 128 (w.w2 ++ [13]) (by
      simp only [List.mem_append, List.mem_singleton, not_or]
      exact ⟨fun hm => (h.w2_text _ hm).ne_lf rfl, by decide⟩) (by have := h.w2_len; simp; omega)
    simpa using this
  · have := List.length_pos_iff.mpr h.w2_ne; simp; omega
  · simpa using fun b hb => (h.w0_vis b hb).text
  · simpa using fun b hb => (h.w1_vis b hb).text
  · simpa using h.w2_text
  · rw [decodeUtf8_ascii _ hlt]; rfl

/-- A start line as sent. -/
theorem readHead_wireStart (lim : HttpLimits) (w : WireHead) (h : w.StartWF lim.maxUrl) (hd : Head)
    (hh : hd.f0 = [] ∧ hd.f1 = [] ∧ hd.f2 = []) (r : Reader) (s : Bytes) (hr : r.flat = w.start ++ s) :
    ∃ r3, r3.flat = s ∧ r3.fin = r.fin ∧
      ∀ fuel x, headerLoop lim fuel hd.headers r3 = some x →
        some (readHead lim hd r) = addStart w.w0 w.w1 w.w2 (some x) := by
  have := readHead_start lim _ _ _ h.pieces hd hh r s (by rw [hr]; simp [WireHead.start])
  simpa using this

/-! ## header lines one at a time -/

theorem headerLoop_piece (lim : HttpLimits) {hs hs' : MultiMap} {r : Reader} {p s : Bytes}
    (hp : IsPiece 10 lim.maxHeaderLine p) (hr : r.flat = p ++ s) (hl : 2 < p.length)
    (hscan : scanLine lim.maxHeadersCount hs [] (p.take (p.length - 2)) = .ok hs') :
    ∃ r', r'.flat = s ∧ r'.fin = r.fin ∧ ∀ fuel, headerLoop lim (fuel + 1) hs r = headerLoop lim fuel hs' r' := by
  obtain ⟨r', h1, h2, h3⟩ := Reader.readUntil_piece hp hr
  refine ⟨r', h2, h3, fun fuel => ?_⟩
  simp only [headerLoop, h1, hscan]
  rw [if_neg (by omega), if_neg (by omega)]

theorem headerLoop_bad (lim : HttpLimits) {hs : MultiMap} {r : Reader} {p s : Bytes} {e : ReadCode}
    (hp : IsPiece 10 lim.maxHeaderLine p) (hr : r.flat = p ++ s) (hl : 2 < p.length)
    (hscan : scanLine lim.maxHeadersCount hs [] (p.take (p.length - 2)) = .error e) (fuel : Nat) :
    headerLoop lim (fuel + 1) hs r = some (.error e) := by
  obtain ⟨r', h1, h2, h3⟩ := Reader.readUntil_piece hp hr
  simp only [headerLoop, h1, hscan]
  rw [if_neg (by omega), if_neg (by omega)]

theorem headerLoop_end (lim : HttpLimits) {hs : MultiMap} {r : Reader} {p s : Bytes}
    (hp : IsPiece 10 lim.maxHeaderLine p) (hr : r.flat = p ++ s) (hl : p.length = 2) :
    ∃ r', r'.flat = s ∧ r'.fin = r.fin ∧ ∀ fuel, headerLoop lim (fuel + 1) hs r = some (.ok (hs, r')) := by
  obtain ⟨r', h1, h2, h3⟩ := Reader.readUntil_piece hp hr
  exact ⟨r', h2, h3, fun fuel => by simp [headerLoop, h1, hl]⟩

theorem Spec.Field.line_eq (f : Field) : f.line =
    (f.name ++ [58] ++ List.replicate f.pre 32 ++ f.value ++ List.replicate f.post 32 ++ [13]) ++ [10] := by
  simp [Field.line]

theorem Spec.Field.WF.piece {mx : Nat} {f : Field} (h : f.WF mx) : IsPiece 10 mx f.line := by
  rw [f.line_eq]
  refine isPiece_delim _ _ _ h.no_lf ?_
  have := h.line_len; rw [f.line_eq, List.length_append] at this; simp at this ⊢; omega

theorem Spec.Field.WF.len {mx : Nat} {f : Field} (h : f.WF mx) : 5 ≤ f.line.length := by
  have h1 := h.after_colon
  have h2 := List.length_pos_iff.mpr h.name_ne
  simp [Field.line]; omega

theorem Spec.Field.line_take (f : Field) : f.line.take (f.line.length - 2) =
    f.name ++ [58] ++ List.replicate f.pre 32 ++ f.value ++ List.replicate f.post 32 := by
  have : f.line = (f.name ++ [58] ++ List.replicate f.pre 32 ++ f.value ++ List.replicate f.post 32) ++ [13, 10] := rfl
  rw [this]
  exact List.take_left' (by simp; omega)

theorem headerLoop_lines (lim : HttpLimits) (fs : List Field) (hwf : ∀ f ∈ fs, f.WF lim.maxHeaderLine)
    (hmx : fs = [] ∨ 1 ≤ lim.maxHeadersCount) (hs : MultiMap) (r : Reader) (s : Bytes)
    (hr : r.flat = (fs.map Field.line).flatten ++ s) :
    ∃ r', r'.flat = s ∧ r'.fin = r.fin ∧
      ∀ fuel, headerLoop lim (fs.length + fuel) hs r = headerLoop lim fuel (storeFields hs fs) r' := by
  induction fs generalizing hs r with
  | nil => exact ⟨r, by simpa using hr, rfl, fun fuel => by simp [storeFields]⟩
  | cons f fs ih =>
    have hf := hwf f (by simp)
    have hmx' : 1 ≤ lim.maxHeadersCount := by rcases hmx with h | h; cases h; exact h
    obtain ⟨r1, e1, e2, e3⟩ := headerLoop_piece lim (hs := hs) (r := r) hf.piece
      (s := (fs.map Field.line).flatten ++ s) (by rw [hr]; simp) (by have := hf.len; omega)
      (by rw [f.line_take]; exact scanLine_field hf hmx' hs)
    obtain ⟨r2, g1, g2, g3⟩ := ih (fun f hf => hwf f (by simp [hf])) (Or.inr hmx') (hs.append (lower f.name) f.value) r1 e1
    refine ⟨r2, g1, by rw [g2, e2], fun fuel => ?_⟩
    rw [show (f :: fs).length + fuel = (fs.length + fuel) + 1 by simp; omega, e3, g3]
    rfl

theorem storeFields_append (hs : MultiMap) (fs gs : List Field) :
    storeFields hs (fs ++ gs) = storeFields (storeFields hs fs) gs := by
  simp [storeFields]

theorem isPiece_crlf (lim : Nat) (h : 2 ≤ lim) : IsPiece 10 lim [13, 10] :=
  isPiece_delim 10 lim [13] (by decide) (by simp; omega)

end Httpd
