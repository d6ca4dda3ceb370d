import Verif.Model.Reader
import Verif.Spec.Stream
/-! # Lemmas about the reader: every operation is a function of the flattened bytes -/

namespace Httpd
open Spec

theorem cut_append_notin (delim : Byte) (p s : Bytes) (limit : Nat) (h : delim ∉ p) (hl : p.length ≤ limit) :
    cut delim limit (p ++ s) = (p ++ (cut delim (limit - p.length) s).1, (cut delim (limit - p.length) s).2) := by
  induction p generalizing limit with
  | nil => simp
  | cons b p ih =>
    simp only [List.mem_cons, not_or] at h
    cases limit with
    | zero => simp at hl
    | succ n =>
      simp only [List.length_cons] at hl
      have hb : ¬ b = delim := fun hh => h.1 hh.symm
      simp only [List.cons_append, cut, hb, if_false, List.length_cons, Nat.add_sub_add_right]
      rw [ih n h.2 (by omega)]

theorem cutDone_append_notin (delim : Byte) (p s : Bytes) (limit : Nat) (h : delim ∉ p) (hl : p.length ≤ limit) :
    cutDone delim limit (p ++ s) = cutDone delim (limit - p.length) s := by
  induction p generalizing limit with
  | nil => simp
  | cons b p ih =>
    simp only [List.mem_cons, not_or] at h
    cases limit with
    | zero => simp at hl
    | succ n =>
      simp only [List.length_cons] at hl
      have hb : ¬ b = delim := fun hh => h.1 hh.symm
      simp only [List.cons_append, cutDone, hb, if_false, List.length_cons, Nat.add_sub_add_right]
      rw [ih n h.2 (by omega)]

theorem cut_found (delim : Byte) (p s : Bytes) (limit : Nat) (h : delim ∉ p) (hl : p.length < limit) :
    cut delim limit (p ++ delim :: s) = (p ++ [delim], s) := by
  rw [cut_append_notin _ _ _ _ h (by omega)]
  obtain ⟨n, hn⟩ : ∃ n, limit - p.length = n + 1 := ⟨limit - p.length - 1, by omega⟩
  simp [hn, cut]

theorem cutDone_found (delim : Byte) (p s : Bytes) (limit : Nat) (h : delim ∉ p) (hl : p.length < limit) :
    cutDone delim limit (p ++ delim :: s) = true := by
  rw [cutDone_append_notin _ _ _ _ h (by omega)]
  obtain ⟨n, hn⟩ : ∃ n, limit - p.length = n + 1 := ⟨limit - p.length - 1, by omega⟩
  simp [hn, cutDone]

theorem cut_append (delim : Byte) (limit : Nat) (s : Bytes) : (cut delim limit s).1 ++ (cut delim limit s).2 = s := by
  induction s generalizing limit with
  | nil => cases limit <;> simp [cut]
  | cons b s ih =>
    cases limit with
    | zero => simp [cut]
    | succ n =>
      simp only [cut]
      split
      · simp
      · simp [ih n]

theorem cut_length_le (delim : Byte) (limit : Nat) (s : Bytes) : (cut delim limit s).1.length ≤ limit := by
  induction s generalizing limit with
  | nil => cases limit <;> simp [cut]
  | cons b s ih =>
    cases limit with
    | zero => simp [cut]
    | succ n =>
      simp only [cut]
      split
      · simp
      · simpa using ih n

/-- Shape of a cut: no delimiter except possibly as the last byte. -/
theorem cut_shape (delim : Byte) (limit : Nat) (s : Bytes) :
    (∃ p, delim ∉ p ∧ (cut delim limit s).1 = p ++ [delim]) ∨
    (delim ∉ (cut delim limit s).1 ∧ ((cut delim limit s).1.length = limit ∨ (cut delim limit s).2 = [])) := by
  induction s generalizing limit with
  | nil => cases limit <;> simp [cut]
  | cons b s ih =>
    cases limit with
    | zero => simp [cut]
    | succ n =>
      simp only [cut]
      split
      · next h => left; exact ⟨[], by simp, by simp [h]⟩
      · next h =>
        rcases ih n with ⟨p, hp, he⟩ | ⟨hn, hl⟩
        · left
          refine ⟨b :: p, ?_, by simp [he]⟩
          simp only [List.mem_cons, not_or]; exact ⟨fun hh => h hh.symm, hp⟩
        · right
          refine ⟨?_, ?_⟩
          · simp only [List.mem_cons, not_or]; exact ⟨fun hh => h hh.symm, hn⟩
          · rcases hl with hl | hl
            · left; simp [hl]
            · right; exact hl

theorem cut_not_done (delim : Byte) (limit : Nat) (s : Bytes) (h : cutDone delim limit s = false) :
    cut delim limit s = (s, []) := by
  induction s generalizing limit with
  | nil => cases limit <;> simp [cut]
  | cons b s ih =>
    cases limit with
    | zero => simp [cutDone] at h
    | succ n =>
      simp only [cutDone] at h
      split at h
      · simp at h
      · next hb => simp [cut, hb, ih n h]

namespace Reader

@[simp] theorem flat_mk (buf : Bytes) (segs : List Seg) (fin : StreamEnd) :
    (Reader.mk buf segs fin).flat = buf ++ (segs.map Seg.bytes).flatten := rfl

/-- A reader is determined, for our purposes, by the bytes to come and the way the stream ends. -/
def Equiv (r r' : Reader) : Prop := r.flat = r'.flat ∧ r.fin = r'.fin

theorem Equiv.refl (r : Reader) : Equiv r r := ⟨rfl, rfl⟩
theorem Equiv.symm {r r' : Reader} (h : Equiv r r') : Equiv r' r := ⟨h.1.symm, h.2.symm⟩

/-- Why a read has no result when nothing is left and the peer has not closed. -/
def endStop : StreamEnd → IoStop
  | .silent => .wait
  | _ => .error

/-- What `fillBuf` returns. -/
theorem fillBuf_spec (r : Reader) :
    (r.flat = [] ∧ r.buf = [] ∧ r.segs = [] ∧ ((r.fin = .eof ∧ r.fillBuf = .ok [] r) ∨ (r.fin ≠ .eof ∧ r.fillBuf = .err (endStop r.fin)))) ∨
    (∃ data r', data ≠ [] ∧ r.fillBuf = .ok data r' ∧ r'.buf = data ∧ r'.flat = r.flat ∧ r'.fin = r.fin ∧
      r'.segs.length + (if r.buf = [] then 1 else 0) = r.segs.length) := by
  obtain ⟨buf, segs, fin⟩ := r
  cases buf with
  | cons b bs => right; exact ⟨b :: bs, _, by simp, rfl, rfl, rfl, rfl, by simp⟩
  | nil =>
    cases segs with
    | cons s ss => right; refine ⟨s.bytes, _, by simp [Seg.bytes], rfl, rfl, by simp, rfl, by simp⟩
    | nil =>
      left
      refine ⟨rfl, rfl, rfl, ?_⟩
      cases fin
      · left; exact ⟨rfl, rfl⟩
      · right; exact ⟨by simp, rfl⟩
      · right; exact ⟨by simp, rfl⟩

theorem consume_flat (r : Reader) (n : Nat) (h : n ≤ r.buf.length) : (r.consume n).flat = r.flat.drop n := by
  obtain ⟨buf, segs, fin⟩ := r
  simp only [consume, flat_mk] at h ⊢
  rw [List.drop_append_of_le_length h]

theorem findIdx?_split (delim : Byte) (l : Bytes) (i : Nat) (h : l.findIdx? (· == delim) = some i) :
    ∃ p q, l = p ++ delim :: q ∧ delim ∉ p ∧ p.length = i := by
  rw [List.findIdx?_eq_some_iff_getElem] at h
  obtain ⟨hlt, hv, hb⟩ := h
  refine ⟨l.take i, l.drop (i + 1), ?_, ?_, by rw [List.length_take]; omega⟩
  · conv => lhs; rw [← List.take_append_drop i l]
    congr 1
    rw [List.drop_eq_getElem_cons hlt]
    simp only [beq_iff_eq] at hv
    rw [hv]
  · intro hm
    rw [List.mem_take_iff_getElem] at hm
    obtain ⟨j, hj, he⟩ := hm
    have := hb j (by omega)
    simp [he] at this

/-- Result of a limited `read_until`, as a function of the flattened bytes. -/
theorem readUntilLoop_spec (delim : Byte) (fuel limit : Nat) (r : Reader) (acc : Bytes)
    (hf : r.segs.length + (if r.buf = [] then 0 else 1) + 1 ≤ fuel) :
    if cutDone delim limit r.flat = true ∨ r.fin = .eof then
      ∃ r', readUntilLoop delim fuel limit r acc = some (.ok (acc ++ (cut delim limit r.flat).1) r') ∧
        r'.flat = (cut delim limit r.flat).2 ∧ r'.fin = r.fin
    else readUntilLoop delim fuel limit r acc = some (.err (endStop r.fin)) := by
  induction fuel generalizing limit r acc with
  | zero => omega
  | succ fuel ih =>
    cases limit with
    | zero => simp [cutDone, readUntilLoop, takeFill, cut]
    | succ n =>
      rcases fillBuf_spec r with ⟨hflat, hbuf, hsegs, h⟩ | ⟨data, r', hne, hfill, hrbuf, hrflat, hrfin, hseg⟩
      · rcases h with ⟨hfin, hfb⟩ | ⟨hfin, hfb⟩
        · simp [hfin, readUntilLoop, takeFill, hfb, hflat, cut]
        · simp [hfin, readUntilLoop, takeFill, hfb, hflat, cutDone]
      · have htf : takeFill (n + 1) r = .ok (data.take (n + 1)) r' := by simp [takeFill, hfill]
        have hflat' : r.flat = data ++ (r'.segs.map Seg.bytes).flatten := by rw [← hrflat, flat, hrbuf]
        simp only [readUntilLoop, htf]
        cases hidx : (data.take (n + 1)).findIdx? (· == delim) with
        | some i =>
          obtain ⟨p, q, hpq, hnot, hlen⟩ := findIdx?_split delim _ i hidx
          have hdata : data = p ++ delim :: (q ++ data.drop (n + 1)) := by
            conv => lhs; rw [← List.take_append_drop (n + 1) data, hpq]
            simp
          have hlt : p.length < n + 1 := by
            have h1 : (data.take (n + 1)).length ≤ n + 1 := by rw [List.length_take]; omega
            rw [hpq] at h1; simp at h1; omega
          have hfl : r.flat = p ++ delim :: (q ++ data.drop (n + 1) ++ (r'.segs.map Seg.bytes).flatten) := by
            rw [hflat']; conv => lhs; rw [hdata]
            simp
          have hcond : cutDone delim (n + 1) r.flat = true := by rw [hfl]; exact cutDone_found _ _ _ _ hnot hlt
          simp only [hcond, true_or, if_true]
          have hcf := cut_found delim p (q ++ data.drop (n + 1) ++ (r'.segs.map Seg.bytes).flatten) (n + 1) hnot hlt
          rw [← hfl] at hcf
          rw [hcf]
          refine ⟨r'.consume (i + 1), ?_, ?_, by simpa [consume] using hrfin⟩
          · have : (p ++ delim :: q).take (i + 1) = p ++ [delim] := by
              rw [← hlen, List.take_append, List.take_of_length_le (by omega)]; simp
            rw [hpq, this]
          · rw [consume_flat, hrflat, hfl, ← hlen]
            · simp [List.drop_append]
            · rw [hrbuf, hdata]; simp; omega
        | none =>
          have hnot : delim ∉ data.take (n + 1) := by
            rw [List.findIdx?_eq_none_iff] at hidx
            intro hm; have := hidx _ hm; simp at this
          have hlen0 : (data.take (n + 1)).length ≠ 0 := by
            rw [List.length_take]
            have : data.length ≠ 0 := by simpa using hne
            omega
          have hfl : r.flat = data.take (n + 1) ++ (data.drop (n + 1) ++ (r'.segs.map Seg.bytes).flatten) := by
            rw [hflat', ← List.append_assoc, List.take_append_drop]
          have hle : (data.take (n + 1)).length ≤ n + 1 := by rw [List.length_take]; omega
          have hcf : (r'.consume (data.take (n + 1)).length).flat =
              data.drop (n + 1) ++ (r'.segs.map Seg.bytes).flatten := by
            rw [consume_flat, hrflat, hfl, List.drop_left]
            rw [hrbuf, List.length_take]; omega
          have hcfin : (r'.consume (data.take (n + 1)).length).fin = r.fin := by simpa [consume] using hrfin
          simp only [hlen0, if_false]
          have hcut := cut_append_notin delim _ (data.drop (n + 1) ++ (r'.segs.map Seg.bytes).flatten) _ hnot hle
          have hcd := cutDone_append_notin delim _ (data.drop (n + 1) ++ (r'.segs.map Seg.bytes).flatten) _ hnot hle
          rw [← hfl] at hcut hcd
          by_cases hdrop : data.length ≤ n + 1
          · -- the whole buffer was used
            have hb : (r'.consume (data.take (n + 1)).length).buf = [] := by
              simp only [consume, hrbuf, List.length_take]
              rw [List.drop_eq_nil_iff]; omega
            have hs : (r'.consume (data.take (n + 1)).length).segs = r'.segs := rfl
            have := ih (n + 1 - (data.take (n + 1)).length) (r'.consume (data.take (n + 1)).length) (acc ++ data.take (n + 1))
              (by rw [hb, hs]; simp only [if_true]; split at hseg <;> split at hf <;> first | omega | contradiction)
            rw [hcf, hcfin, ← hcd] at this
            rw [hcut]
            simpa [List.append_assoc] using this
          · -- the limit is used up: one more iteration
            have hl0 : n + 1 - (data.take (n + 1)).length = 0 := by rw [List.length_take]; omega
            have hfuel : ∃ f, fuel = f + 1 := by
              refine ⟨fuel - 1, ?_⟩
              have : 1 ≤ fuel := by
                split at hseg <;> split at hf <;> first | omega | contradiction
              omega
            obtain ⟨f, rfl⟩ := hfuel
            rw [hl0] at hcut hcd
            have hdone : cutDone delim (n + 1) r.flat = true := by rw [hcd]; simp [cutDone]
            simp only [hdone, true_or, if_true]
            rw [hcut, hl0]
            refine ⟨_, by simp [readUntilLoop, takeFill, cut], by rw [hcf]; simp [cut], hcfin⟩

/-- `readUntil` as a function of the flattened bytes and the end of the stream. -/
theorem readUntil_spec (delim : Byte) (limit : Nat) (r : Reader) :
    if cutDone delim limit r.flat = true ∨ r.fin = .eof then
      ∃ r', r.readUntil delim limit = .ok (cut delim limit r.flat).1 r' ∧
        r'.flat = (cut delim limit r.flat).2 ∧ r'.fin = r.fin
    else r.readUntil delim limit = .err (endStop r.fin) := by
  have := readUntilLoop_spec delim (r.segs.length + 3) limit r [] (by split <;> omega)
  unfold readUntil
  split
  · next h =>
    simp only [h, if_true] at this
    obtain ⟨r', h1, h2, h3⟩ := this
    exact ⟨r', by rw [h1]; rfl, h2, h3⟩
  · next h =>
    simp only [h, if_false] at this
    rw [this]; rfl

theorem readUntil_ok {delim : Byte} {limit : Nat} {r : Reader} {data : Bytes} {r' : Reader}
    (h : r.readUntil delim limit = .ok data r') :
    data = (cut delim limit r.flat).1 ∧ r'.flat = (cut delim limit r.flat).2 ∧ r'.fin = r.fin := by
  have hs := readUntil_spec delim limit r
  split at hs
  · obtain ⟨r'', h1, h2, h3⟩ := hs
    rw [h1] at h
    cases h
    exact ⟨rfl, h2, h3⟩
  · rw [hs] at h; cases h

/-- Two equivalent results. -/
def ResEquiv : IoRes → IoRes → Prop
  | .err s, .err s' => s = s'
  | .ok d r, .ok d' r' => d = d' ∧ Equiv r r'
  | _, _ => False

theorem readUntil_congr {r r' : Reader} (h : Equiv r r') (delim : Byte) (limit : Nat) :
    ResEquiv (r.readUntil delim limit) (r'.readUntil delim limit) := by
  have h1 := readUntil_spec delim limit r
  have h2 := readUntil_spec delim limit r'
  rw [← h.1, ← h.2] at h2
  split at h1
  · next hc =>
    simp only [hc, if_true] at h2
    obtain ⟨a, ha, ha1, ha2⟩ := h1
    obtain ⟨b, hb, hb1, hb2⟩ := h2
    rw [ha, hb]
    exact ⟨rfl, by rw [ha1, hb1], by rw [ha2, hb2]⟩
  · next hc =>
    simp only [hc, if_false] at h2
    rw [h1, h2]; trivial

theorem readLine_congr {r r' : Reader} (h : Equiv r r') (limit : Nat) :
    ResEquiv (r.readLine limit) (r'.readLine limit) := by
  have := readUntil_congr h 10 limit
  unfold readLine
  cases h1 : r.readUntil 10 limit <;> cases h2 : r'.readUntil 10 limit <;> rw [h1, h2] at this <;>
    simp only [ResEquiv] at this ⊢
  rotate_left
  · exact this
  obtain ⟨rfl, he⟩ := this
  rename_i d _ _
  by_cases hd : (decodeUtf8 d).isSome = true
  · simp only [hd, if_true]; exact ⟨trivial, he⟩
  · simp only [hd]; trivial

theorem readLine_ok {limit : Nat} {r : Reader} {data : Bytes} {r' : Reader} (h : r.readLine limit = .ok data r') :
    data = (cut 10 limit r.flat).1 ∧ r'.flat = (cut 10 limit r.flat).2 ∧ r'.fin = r.fin ∧ (decodeUtf8 data).isSome := by
  unfold readLine at h
  cases h1 : r.readUntil 10 limit with
  | err => rw [h1] at h; cases h
  | ok d r1 =>
    rw [h1] at h
    simp only at h
    split at h
    · next hu =>
      cases h
      obtain ⟨a, b, c⟩ := readUntil_ok h1
      exact ⟨a, b, c, hu⟩
    · cases h

/-- What `read` does: at end of stream nothing (or an error), otherwise a non-empty prefix of the bytes to come if `n > 0`. -/
theorem read_spec (n : Nat) (r : Reader) :
    (r.flat = [] ∧ ((r.fin = .eof ∧ r.read n = .ok [] r) ∨ (r.fin ≠ .eof ∧ r.read n = .err (endStop r.fin)))) ∨
    (r.flat ≠ [] ∧ ∃ k r', r.read n = .ok (r.flat.take k) r' ∧ k ≤ n ∧ k ≤ r.flat.length ∧ (0 < n → 0 < k) ∧
      r'.flat = r.flat.drop k ∧ r'.fin = r.fin) := by
  rcases fillBuf_spec r with ⟨hflat, hbuf, hsegs, h⟩ | ⟨data, r', hne, hfill, hrbuf, hrflat, hrfin, hseg⟩
  · left
    refine ⟨hflat, ?_⟩
    rcases h with ⟨hfin, hfb⟩ | ⟨hfin, hfb⟩
    · left
      refine ⟨hfin, ?_⟩
      simp only [read, hfb]
      obtain ⟨buf, segs, fin⟩ := r
      simp only at hbuf
      subst hbuf
      simp [consume]
    · right; exact ⟨hfin, by simp [read, hfb]⟩
  · right
    have hflat' : r.flat = data ++ (r'.segs.map Seg.bytes).flatten := by rw [← hrflat, flat, hrbuf]
    have hd : 0 < data.length := List.length_pos_iff.mpr hne
    refine ⟨?_, min n data.length, r'.consume (min n data.length), ?_, by omega, ?_, by omega, ?_, by simpa [consume] using hrfin⟩
    · rw [hflat']; simp [hne]
    · simp only [read, hfill]
      congr 1
      rw [hflat', List.take_append_of_le_length (by omega)]
      by_cases hh : n ≤ data.length
      · rw [Nat.min_eq_left hh]
      · rw [Nat.min_eq_right (by omega), List.take_of_length_le (by omega), List.take_of_length_le (by omega)]
    · rw [hflat']; simp; omega
    · rw [consume_flat, hrflat]; rw [hrbuf]; omega

end Reader
end Httpd
