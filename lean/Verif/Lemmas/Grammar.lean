import Verif.Props.Head
import Verif.Spec.Grammar
/-! # The head reader and the grammar of heads -/

namespace Httpd
open Spec MultiMap

/-! ## pieces -/

theorem taken_cut {delim : Byte} {limit : Nat} {closed : Bool} {p rest : Bytes} (h : Taken delim limit closed p rest) :
    cut delim limit (p ++ rest) = (p, rest) ∧ (cutDone delim limit (p ++ rest) = true ∨ closed = true) := by
  cases h with
  | upTo q rest hq hl => exact ⟨(isPiece_delim delim limit q hq hl rest).1, Or.inl (isPiece_delim delim limit q hq hl rest).2⟩
  | full p rest hp hl => exact ⟨(isPiece_full delim limit p hp hl rest).1, Or.inl (isPiece_full delim limit p hp hl rest).2⟩
  | last p hc hp hl =>
    refine ⟨?_, Or.inr hc⟩
    rw [cut_append_notin delim p [] limit hp (by omega)]
    cases limit - p.length <;> simp [cut]

theorem cut_taken {delim : Byte} {limit : Nat} {closed : Bool} {s : Bytes}
    (h : cutDone delim limit s = true ∨ closed = true) :
    Taken delim limit closed (cut delim limit s).1 (cut delim limit s).2 := by
  rcases cut_shape delim limit s with ⟨p, hp, he⟩ | ⟨hn, hl⟩
  · have h1 := cut_length_le delim limit s
    rw [he] at h1 ⊢
    exact .upTo p _ hp (by simp at h1; omega)
  · by_cases hlen : (cut delim limit s).1.length = limit
    · exact .full _ _ hn hlen
    · have hr : (cut delim limit s).2 = [] := by rcases hl with h | h; exact absurd h hlen; exact h
      have hle := cut_length_le delim limit s
      have hs := cut_append delim limit s
      rw [hr, List.append_nil] at hs
      rcases h with h | h
      · exfalso
        rw [hs] at hn hlen hle
        have := cutDone_append_notin delim s [] limit hn hle
        rw [List.append_nil] at this
        rw [this] at h
        obtain ⟨m, hm⟩ : ∃ m, limit - s.length = m + 1 := ⟨limit - s.length - 1, by omega⟩
        rw [hm] at h
        simp [cutDone] at h
      · rw [hr]; exact .last _ h hn (by omega)

/-- Whether the client has closed. -/
def Reader.closed (r : Reader) : Bool := decide (r.fin = .eof)

theorem Reader.readUntil_iff (delim : Byte) (limit : Nat) (r : Reader) (p : Bytes) :
    (∃ r', r.readUntil delim limit = .ok p r') ↔ ∃ rest, r.flat = p ++ rest ∧ Taken delim limit r.closed p rest := by
  have hs := Reader.readUntil_spec delim limit r
  constructor
  · rintro ⟨r', h⟩
    split at hs
    · next hd =>
      obtain ⟨r'', h1, h2, h3⟩ := hs
      rw [h1] at h
      cases h
      exact ⟨_, (cut_append delim limit r.flat).symm, cut_taken (by rcases hd with h | h; exact Or.inl h; right; simp [Reader.closed, h])⟩
    · rw [hs] at h; cases h
  · rintro ⟨rest, h1, h2⟩
    obtain ⟨h3, h4⟩ := taken_cut h2
    rw [← h1] at h3 h4
    rw [if_pos (by rcases h4 with h | h; exact Or.inl h; right; simpa [Reader.closed] using h)] at hs
    obtain ⟨r'', h5, _⟩ := hs
    rw [h3] at h5
    exact ⟨r'', h5⟩

/-- A piece is read. -/
theorem Reader.readUntil_taken {delim : Byte} {limit : Nat} {r : Reader} {p rest : Bytes} (hr : r.flat = p ++ rest)
    (h : Taken delim limit r.closed p rest) :
    ∃ r', r.readUntil delim limit = .ok p r' ∧ r'.flat = rest ∧ r'.fin = r.fin := by
  obtain ⟨r', h1⟩ := (Reader.readUntil_iff delim limit r p).mpr ⟨rest, hr, h⟩
  obtain ⟨_, h3, h4⟩ := Reader.readUntil_ok h1
  rw [hr, (taken_cut h).1] at h3
  exact ⟨r', h1, h3, h4⟩

/-- What is read is a piece. -/
theorem Reader.taken_readUntil {delim : Byte} {limit : Nat} {r r' : Reader} {p : Bytes} (h : r.readUntil delim limit = .ok p r') :
    r.flat = p ++ r'.flat ∧ Taken delim limit r.closed p r'.flat ∧ r'.fin = r.fin := by
  obtain ⟨rest, h1, h2⟩ := (Reader.readUntil_iff delim limit r p).mp ⟨r', h⟩
  obtain ⟨_, h4, h5⟩ := Reader.readUntil_ok h
  rw [h1, (taken_cut h2).1] at h4
  rw [h4]
  exact ⟨h1, h2, h5⟩

theorem Reader.closed_congr {r r' : Reader} (h : r'.fin = r.fin) : r'.closed = r.closed := by simp [Reader.closed, h]

/-! ## spaces -/

theorem dropWhile_sp_replicate (s : Bytes) : ∃ i, s = List.replicate i 32 ++ s.dropWhile (· == 32) := by
  induction s with
  | nil => exact ⟨0, rfl⟩
  | cons b s ih =>
    by_cases h : b = 32
    · subst h
      obtain ⟨i, hi⟩ := ih
      exact ⟨i + 1, by simp only [List.dropWhile_cons, BEq.rfl, if_true, List.replicate_succ, List.cons_append]; rw [← hi]⟩
    · exact ⟨0, by simp [h]⟩

theorem stripped_iff (s t : Bytes) : Stripped s t ↔ trimSp s = t := by
  constructor
  · rintro ⟨i, j, rfl, h1, h2⟩
    exact trimSp_pad i j t h1 h2
  · rintro rfl
    obtain ⟨i, hi⟩ := dropWhile_sp_replicate s
    obtain ⟨j, hj⟩ := dropWhile_sp_replicate (trimStartSp s).reverse
    refine ⟨i, j, ?_, trimSp_head s, trimSp_getLast s⟩
    have hj' := congrArg List.reverse hj
    simp only [List.reverse_reverse, List.reverse_append, List.reverse_replicate] at hj'
    rw [List.append_assoc]
    show s = _ ++ (trimEndSp (trimStartSp s) ++ _)
    rw [trimEndSp, ← hj']
    exact hi

theorem lower_replicate_sp (i : Nat) : lower (List.replicate i 32) = List.replicate i 32 := by
  simp [lower]

theorem lower_append (s t : Bytes) : lower (s ++ t) = lower s ++ lower t := by simp [lower]

theorem stripped_lower {s t : Bytes} (h : Stripped s t) : Stripped (lower s) (lower t) := by
  obtain ⟨i, j, rfl, h1, h2⟩ := h
  refine ⟨i, j, by simp [lower_append, lower_replicate_sp], ?_, ?_⟩
  · rw [← map_toAsciiLower, List.head?_map]
    cases hh : t.head? with
    | none => simp
    | some b =>
      rw [hh] at h1
      simp only [Option.map_some, ne_eq, Option.some.injEq, toAsciiLower_space] at h1 ⊢
      exact h1
  · rw [← map_toAsciiLower, List.getLast?_map]
    cases hh : t.getLast? with
    | none => simp
    | some b =>
      rw [hh] at h2
      simp only [Option.map_some, ne_eq, Option.some.injEq, toAsciiLower_space] at h2 ⊢
      exact h2

theorem trimSp_lower (n : Bytes) : trimSp (n.map toAsciiLower) = lower (trimSp n) := by
  rw [map_toAsciiLower, ← stripped_iff]
  exact stripped_lower ((stripped_iff n _).mpr rfl)

/-! ## UTF-8 -/

theorem decodeUtf8_twoBytes (w : Bytes) (hw : ∀ b ∈ w, IsText b) (x y : Byte) :
    (decodeUtf8 (w ++ [x, y])).isSome = true ↔ TwoBytes x y := by
  induction w with
  | nil =>
    simp only [List.nil_append]
    unfold decodeUtf8
    by_cases hx : x < 0x80
    · rw [if_pos hx]
      unfold decodeUtf8
      by_cases hy : y < 0x80
      · rw [if_pos hy]
        simp [decodeUtf8, TwoBytes, hx, hy]
      · rw [if_neg hy]
        have : ¬ TwoBytes x y := by
          rintro (⟨_, h⟩ | ⟨h, _⟩)
          · exact hy h
          · exact absurd (UInt8.lt_of_le_of_lt h hx) (by decide)
        simp only [this, iff_false]
        repeat' split
        all_goals simp
    · rw [if_neg hx]
      by_cases h2 : (0xC2 ≤ x && x ≤ 0xDF) = true
      · rw [if_pos h2]
        simp only [Bool.and_eq_true, decide_eq_true_eq] at h2
        simp only [TwoBytes, hx, false_and, false_or]
        by_cases hc : isCont y = true
        · rw [if_pos hc]
          simp only [isCont, Bool.and_eq_true, decide_eq_true_eq] at hc
          simp [decodeUtf8, h2, hc]
        · rw [if_neg hc]
          simp only [isCont, Bool.and_eq_true, decide_eq_true_eq] at hc
          simp only [Option.isSome_none, Bool.false_eq_true, false_iff]
          exact fun h => hc h.2.2
      · rw [if_neg h2]
        have : ¬ TwoBytes x y := by
          rintro (⟨h, _⟩ | ⟨h, h', _⟩)
          · exact hx h
          · exact h2 (by simp [h, h'])
        simp only [this, iff_false]
        repeat' split
        all_goals simp_all
  | cons b w ih =>
    have hb := (hw b (by simp)).lt_128
    rw [List.cons_append]
    unfold decodeUtf8
    rw [if_pos hb, Option.isSome_map]
    exact ih (fun c hc => hw c (by simp [hc]))

/-! ## the header section -/

/-- Storing fields one after the other. -/
def storePairs (hs : MultiMap) (fs : List (Bytes × Bytes)) : MultiMap := fs.foldl (fun hs f => hs.append f.1 f.2) hs

theorem split_last_two {l : Bytes} (h : 2 ≤ l.length) : ∃ x y, l = l.take (l.length - 2) ++ [x, y] := by
  have h1 : (l.drop (l.length - 2)).length = 2 := by simp; omega
  match hd : l.drop (l.length - 2), h1 with
  | [x, y], _ => exact ⟨x, y, by rw [← hd, List.take_append_drop]⟩

theorem take_last_two (l : Bytes) (x y : Byte) : (l ++ [x, y]).take ((l ++ [x, y]).length - 2) = l := by
  apply List.take_left'; simp

theorem headerLoop_section (lim : HttpLimits) (fuel : Nat) (hs hs' : MultiMap) (r r' : Reader)
    (h : headerLoop lim fuel hs r = some (.ok (hs', r'))) :
    ∃ fs, Section lim.maxHeaderLine lim.maxHeadersCount r.closed r.flat fs r'.flat ∧ hs' = storePairs hs fs := by
  induction fuel generalizing hs r with
  | zero => simp [headerLoop] at h
  | succ fuel ih =>
    simp only [headerLoop] at h
    split at h
    · cases h
    · next line r1 hr =>
      obtain ⟨ha, hb, hc⟩ := Reader.taken_readUntil hr
      split at h
      · cases h
      · next hl =>
        obtain ⟨x, y, hxy⟩ := split_last_two (l := line) (by omega)
        split at h
        · next hl2 =>
          cases h
          rw [hl2] at hxy
          simp at hxy
          subst hxy
          rw [ha]
          exact ⟨[], .stop x y _ hb, rfl⟩
        · next hl2 =>
          split at h
          · cases h
          · next hs1 hscan =>
            obtain ⟨fs, h1, h2⟩ := ih _ _ h
            rw [Reader.closed_congr hc] at h1
            generalize hlv : line.take (line.length - 2) = l at hscan hxy
            have hlne : l ≠ [] := by
              rintro rfl
              have := congrArg List.length hxy
              simp at this; omega
            rw [scanLine_ok_iff _ _ _ _ _ (by simp)] at hscan
            rw [ha]
            subst hxy
            rcases hscan with ⟨c1, c2, c3, rfl⟩ | ⟨n, v, rfl, c1, c2, c3, c4, c5, c6, rfl⟩
            · exact ⟨fs, .skip l x y _ fs _ hb hlne ((all_isText_iff _).mp c2) c1 (by simpa using c3) h1, h2⟩
            · refine ⟨(lower (trimSp n), trimSp v) :: fs, .field n v _ _ x y _ fs _ hb ((all_isText_iff _).mp c2) c1 (by simpa using c5)
                ((all_isText_iff _).mp c3) c4 c6 ((stripped_iff _ _).mpr rfl) ((stripped_iff _ _).mpr rfl) h1, ?_⟩
              rw [h2, List.nil_append, trimSp_lower]
              rfl

theorem section_headerLoop (lim : HttpLimits) (closed : Bool) (s rest : Bytes) (fs : List (Bytes × Bytes))
    (h : Section lim.maxHeaderLine lim.maxHeadersCount closed s fs rest) (hs : MultiMap) (r : Reader) (hr : r.flat = s)
    (hc : r.closed = closed) :
    ∃ fuel r', headerLoop lim fuel hs r = some (.ok (storePairs hs fs, r')) ∧ r'.flat = rest ∧ r'.fin = r.fin := by
  induction h generalizing hs r with
  | stop x y rest ht =>
    obtain ⟨r', h1, h2, h3⟩ := Reader.readUntil_taken hr (hc ▸ ht)
    exact ⟨1, r', by simp [headerLoop, h1, storePairs], h2, h3⟩
  | skip l x y s fs rest ht hne htext hcol hlen _ ih =>
    obtain ⟨r1, h1, h2, h3⟩ := Reader.readUntil_taken hr (hc ▸ ht)
    obtain ⟨fuel, r', h4, h5, h6⟩ := ih hs r1 h2 (by rw [Reader.closed_congr h3, hc])
    refine ⟨fuel + 1, r', ?_, h5, by rw [h6, h3]⟩
    have hl := List.length_pos_iff.mpr hne
    have hscan : scanLine lim.maxHeadersCount hs [] l = .ok hs :=
      (scanLine_ok_iff _ _ _ _ _ (by simp)).mpr (Or.inl ⟨hcol, (all_isText_iff _).mpr htext, by simpa using hlen, rfl⟩)
    simp only [headerLoop, h1]
    rw [if_neg (by simp), if_neg (by simp; omega), take_last_two, hscan]
    exact h4
  | field n v n' v' x y s fs rest ht hn hcol hlen hv hvne hmx sn sv _ ih =>
    obtain ⟨r1, h1, h2, h3⟩ := Reader.readUntil_taken hr (hc ▸ ht)
    obtain ⟨fuel, r', h4, h5, h6⟩ := ih (hs.append (lower n') v') r1 h2 (by rw [Reader.closed_congr h3, hc])
    refine ⟨fuel + 1, r', ?_, h5, by rw [h6, h3]⟩
    have hscan : scanLine lim.maxHeadersCount hs [] (n ++ 58 :: v) = .ok (hs.append (lower n') v') := by
      refine (scanLine_ok_iff _ _ _ _ _ (by simp)).mpr (Or.inr ⟨n, v, rfl, hcol, (all_isText_iff _).mpr hn, (all_isText_iff _).mpr hv,
        hvne, by simpa using hlen, hmx, ?_⟩)
      rw [List.nil_append, trimSp_lower, (stripped_iff _ _).mp sn, (stripped_iff _ _).mp sv]
    simp only [headerLoop, h1]
    rw [if_neg (by simp; omega), if_neg (by simp; omega), take_last_two, hscan]
    exact h4

/-! ## heads -/

theorem split_last {l : Bytes} (h : 1 ≤ l.length) : ∃ a, l = l.take (l.length - 1) ++ [a] := by
  have h1 : (l.drop (l.length - 1)).length = 1 := by simp; omega
  match hd : l.drop (l.length - 1), h1 with
  | [x], _ => exact ⟨x, by rw [← hd, List.take_append_drop]⟩

theorem take_last (l : Bytes) (x : Byte) : (l ++ [x]).take ((l ++ [x]).length - 1) = l := by
  apply List.take_left'; simp

/-- The blank parts of a head. -/
structure Head.NoStart (h : Head) : Prop where
  f0 : h.f0 = []
  f1 : h.f1 = []
  f2 : h.f2 = []

theorem readHead_headText (lim : HttpLimits) (hd hd' : Head) (hb : hd.NoStart) (r r' : Reader)
    (h : readHead lim hd r = .ok (hd', r')) :
    ∃ fs, HeadText lim.maxUrl lim.maxHeaderLine lim.maxHeadersCount r.closed r.flat hd'.f0 hd'.f1 hd'.f2 fs r'.flat ∧
      hd'.headers = storePairs hd.headers fs ∧ r'.fin = r.fin := by
  have hfin := (readHead_ok h).2
  have h := (congrArg some h)
  rw [← readHead_eq] at h
  simp only [readHeadFuel, hb.f0, hb.f1, hb.f2, List.nil_append] at h
  split at h
  · cases h
  next m r1 h1 =>
  split at h
  · cases h
  next c1 =>
  split at h
  · cases h
  next c1' =>
  split at h
  · cases h
  next t r2 h2 =>
  split at h
  · cases h
  next c2 =>
  split at h
  · cases h
  next c2' =>
  split at h
  · cases h
  next v r3 h3 =>
  split at h
  · cases h
  next c3 =>
  split at h
  · cases h
  next c3' =>
  split at h
  · cases h
  · cases h
  next hs r4 hl =>
  cases h
  obtain ⟨a1, b1, e1⟩ := Reader.taken_readUntil h1
  obtain ⟨a2, b2, e2⟩ := Reader.taken_readUntil h2
  have h3' : r2.readUntil 10 128 = .ok v r3 ∧ (decodeUtf8 v).isSome = true := by
    simp only [Reader.readLine] at h3
    split at h3
    · cases h3
    · next d q hq =>
      split at h3
      · next hu => cases h3; exact ⟨hq, hu⟩
      · cases h3
  obtain ⟨a3, b3, e3⟩ := Reader.taken_readUntil h3'.1
  obtain ⟨fs, hsec, hst⟩ := headerLoop_section _ _ _ _ _ _ hl
  rw [Reader.closed_congr e1] at b2
  rw [Reader.closed_congr (e2.trans e1)] at b3
  rw [Reader.closed_congr (e3.trans (e2.trans e1))] at hsec
  obtain ⟨a, ha⟩ := split_last (l := m) (by omega)
  obtain ⟨b, hbb⟩ := split_last (l := t) (by omega)
  obtain ⟨x, y, hxy⟩ := split_last_two (l := v) (by omega)
  have t0 := (all_isText_iff _).mp (by simpa using c1' : (m.take (m.length - 1)).all isText = true)
  have t1 := (all_isText_iff _).mp (by simpa using c2' : (t.take (t.length - 1)).all isText = true)
  have t2 := (all_isText_iff _).mp (by simpa using c3' : (v.take (v.length - 2)).all isText = true)
  have hne : v.take (v.length - 2) ≠ [] := by
    intro h0
    have := congrArg List.length h0
    simp at this; omega
  refine ⟨fs, ?_, hst, hfin⟩
  generalize v.take (v.length - 2) = w2 at *
  generalize m.take (m.length - 1) = w0 at *
  generalize t.take (t.length - 1) = w1 at *
  subst ha hbb hxy
  rw [a1, a2, a3]
  rw [a2, a3] at b1
  rw [a3] at b2
  exact .mk w0 w1 w2 a b x y _ fs _ b1 t0 b2 t1 b3 hne t2 ((decodeUtf8_twoBytes w2 t2 x y).mp h3'.2) hsec

theorem headText_readHead (lim : HttpLimits) (closed : Bool) (s w0 w1 w2 rest : Bytes) (fs : List (Bytes × Bytes))
    (h : HeadText lim.maxUrl lim.maxHeaderLine lim.maxHeadersCount closed s w0 w1 w2 fs rest) (hd : Head) (hb : hd.NoStart)
    (r : Reader) (hr : r.flat = s) (hc : r.closed = closed) :
    ∃ r', readHead lim hd r = .ok ({ f0 := w0, f1 := w1, f2 := w2, headers := storePairs hd.headers fs }, r') ∧
      r'.flat = rest ∧ r'.fin = r.fin := by
  cases h with
  | mk _ _ _ a b x y s fs rest t0 x0 t1 x1 t2 ne x2 hu hsec =>
  subst hc
  obtain ⟨r1, a1, a2, a3⟩ := Reader.readUntil_taken hr t0
  obtain ⟨r2, b1, b2, b3⟩ := Reader.readUntil_taken a2 (by rw [Reader.closed_congr a3]; exact t1)
  obtain ⟨r3, c1, c2, c3⟩ := Reader.readUntil_taken b2 (by rw [Reader.closed_congr (b3.trans a3)]; exact t2)
  obtain ⟨fuel, r4, d1, d2, d3⟩ := section_headerLoop lim _ _ _ _ hsec hd.headers r3 c2 (Reader.closed_congr (c3.trans (b3.trans a3)))
  refine ⟨r4, readHead_of_fuel (fuel := fuel) ?_, d2, by rw [d3, c3, b3, a3]⟩
  have hline : r2.readLine 128 = .ok (w2 ++ [x, y]) r3 := by
    simp [Reader.readLine, c1, (decodeUtf8_twoBytes w2 x2 x y).mpr hu]
  have hl := List.length_pos_iff.mpr ne
  have k0 : w0.all isText = true := (all_isText_iff _).mpr x0
  have k1 : w1.all isText = true := (all_isText_iff _).mpr x1
  have k2 : w2.all isText = true := (all_isText_iff _).mpr x2
  simp only [readHeadFuel, a1, b1, hline, hb.f0, hb.f1, hb.f2, List.nil_append, take_last, take_last_two, k0, k1, k2, d1]
  rw [if_neg (by simp), if_neg (by simp), if_neg (by simp), if_neg (by simp), if_neg (by simp; omega), if_neg (by simp)]

/-! ## waiting -/

theorem cutDone_false (delim : Byte) (limit : Nat) (s : Bytes) : cutDone delim limit s = false ↔ delim ∉ s ∧ s.length < limit := by
  induction s generalizing limit with
  | nil => cases limit <;> simp [cutDone]
  | cons b s ih =>
    cases limit with
    | zero => simp [cutDone]
    | succ n =>
      simp only [cutDone]
      split
      · next h => simp [h]
      · next h => rw [ih]; simp [Ne.symm h]

theorem Reader.readUntil_waits (delim : Byte) (limit : Nat) (r : Reader) :
    r.readUntil delim limit = .err .wait ↔ r.fin = .silent ∧ delim ∉ r.flat ∧ r.flat.length < limit := by
  rw [← cutDone_false]
  have hs := Reader.readUntil_spec delim limit r
  split at hs
  · next h =>
    obtain ⟨r', h1, _⟩ := hs
    rw [h1]
    constructor
    · intro h; cases h
    · rintro ⟨h2, h3⟩; rcases h with h | h
      · rw [h] at h3; cases h3
      · rw [h] at h2; cases h2
  · next h =>
    rw [hs]
    simp only [not_or, Bool.not_eq_true] at h
    cases hf : r.fin <;> simp [Reader.endStop, hf] at h ⊢
    exact h

theorem Reader.silent_open {r : Reader} (h : r.fin = .silent) : r.closed = false := by simp [Reader.closed, h]

theorem stop_code_waiting (s : Reader.IoStop) (e : ReadCode) (he : e ≠ .waiting) : s.code e = .waiting ↔ s = .wait := by
  cases s <;> simp [Reader.IoStop.code, he]

theorem headerLoop_open (lim : HttpLimits) (fuel : Nat) (hs : MultiMap) (r : Reader)
    (h : headerLoop lim fuel hs r = some (.error .waiting)) :
    r.fin = .silent ∧ SectionOpen lim.maxHeaderLine lim.maxHeadersCount r.flat := by
  induction fuel generalizing hs r with
  | zero => simp [headerLoop] at h
  | succ fuel ih =>
    simp only [headerLoop] at h
    split at h
    · next s hr =>
      simp only [Option.some.injEq, Except.error.injEq] at h
      rw [stop_code_waiting _ _ (by decide)] at h
      subst h
      obtain ⟨h1, h2, h3⟩ := (Reader.readUntil_waits _ _ _).mp hr
      exact ⟨h1, .here _ h2 h3⟩
    · next line r1 hr =>
      obtain ⟨ha, hb, hc⟩ := Reader.taken_readUntil hr
      split at h
      · cases h
      · next hl =>
        obtain ⟨x, y, hxy⟩ := split_last_two (l := line) (by omega)
        split at h
        · cases h
        · next hl2 =>
          split at h
          · next e hscan =>
            simp only [Option.some.injEq, Except.error.injEq] at h
            subst h
            rcases scanLine_codes _ _ _ _ _ hscan with h | ⟨h, _⟩ <;> cases h
          · next hs1 hscan =>
            obtain ⟨h1, h2⟩ := ih _ _ h
            rw [hc] at h1
            rw [Reader.silent_open h1] at hb
            generalize hlv : line.take (line.length - 2) = l at hscan hxy
            have hlne : l ≠ [] := by
              rintro rfl
              have := congrArg List.length hxy
              simp at this; omega
            rw [scanLine_ok_iff _ _ _ _ _ (by simp)] at hscan
            rw [ha]
            subst hxy
            refine ⟨h1, ?_⟩
            rcases hscan with ⟨c1, c2, c3, rfl⟩ | ⟨n, v, rfl, c1, c2, c3, c4, c5, c6, rfl⟩
            · exact .skip l x y _ hb hlne ((all_isText_iff _).mp c2) c1 (by simpa using c3) h2
            · exact .field n v x y _ hb ((all_isText_iff _).mp c2) c1 (by simpa using c5) ((all_isText_iff _).mp c3) c4 c6 h2

theorem open_headerLoop (lim : HttpLimits) (s : Bytes) (h : SectionOpen lim.maxHeaderLine lim.maxHeadersCount s)
    (hs : MultiMap) (r : Reader) (hr : r.flat = s) (hf : r.fin = .silent) :
    ∃ fuel, headerLoop lim fuel hs r = some (.error .waiting) := by
  induction h generalizing hs r with
  | here s h1 h2 =>
    refine ⟨1, ?_⟩
    simp only [headerLoop, (Reader.readUntil_waits _ _ r).mpr ⟨hf, hr ▸ h1, hr ▸ h2⟩]
    rfl
  | skip l x y s ht hne htext hcol hlen _ ih =>
    obtain ⟨r1, h1, h2, h3⟩ := Reader.readUntil_taken hr (by rw [Reader.silent_open hf]; exact ht)
    obtain ⟨fuel, h4⟩ := ih hs r1 h2 (h3.trans hf)
    refine ⟨fuel + 1, ?_⟩
    have hl := List.length_pos_iff.mpr hne
    have hscan : scanLine lim.maxHeadersCount hs [] l = .ok hs :=
      (scanLine_ok_iff _ _ _ _ _ (by simp)).mpr (Or.inl ⟨hcol, (all_isText_iff _).mpr htext, by simpa using hlen, rfl⟩)
    simp only [headerLoop, h1]
    rw [if_neg (by simp), if_neg (by simp; omega), take_last_two, hscan]
    exact h4
  | field n v x y s ht hn hcol hlen hv hvne hmx _ ih =>
    obtain ⟨r1, h1, h2, h3⟩ := Reader.readUntil_taken hr (by rw [Reader.silent_open hf]; exact ht)
    obtain ⟨fuel, h4⟩ := ih (hs.append (trimSp ([] ++ n.map toAsciiLower)) (trimSp v)) r1 h2 (h3.trans hf)
    refine ⟨fuel + 1, ?_⟩
    have hscan : scanLine lim.maxHeadersCount hs [] (n ++ 58 :: v) = .ok (hs.append (trimSp ([] ++ n.map toAsciiLower)) (trimSp v)) :=
      (scanLine_ok_iff _ _ _ _ _ (by simp)).mpr (Or.inr ⟨n, v, rfl, hcol, (all_isText_iff _).mpr hn, (all_isText_iff _).mpr hv,
        hvne, by simpa using hlen, hmx, rfl⟩)
    simp only [headerLoop, h1]
    rw [if_neg (by simp; omega), if_neg (by simp; omega), take_last_two, hscan]
    exact h4

theorem readHead_open (lim : HttpLimits) (hd : Head) (hb : hd.NoStart) (r : Reader)
    (h : readHead lim hd r = .error .waiting) :
    r.fin = .silent ∧ HeadOpen lim.maxUrl lim.maxHeaderLine lim.maxHeadersCount r.flat := by
  have h := (congrArg some h)
  rw [← readHead_eq] at h
  simp only [readHeadFuel, hb.f0, hb.f1, hb.f2, List.nil_append] at h
  split at h
  · next s hr =>
    simp only [Option.some.injEq, Except.error.injEq] at h
    rw [stop_code_waiting _ _ (by decide)] at h
    subst h
    obtain ⟨h1, h2, h3⟩ := (Reader.readUntil_waits _ _ _).mp hr
    exact ⟨h1, .method _ h2 h3⟩
  next m r1 h1 =>
  obtain ⟨a1, b1, e1⟩ := Reader.taken_readUntil h1
  split at h
  · cases h
  next c1 =>
  split at h
  · cases h
  next c1' =>
  obtain ⟨a, ha⟩ := split_last (l := m) (by omega)
  have t0 := (all_isText_iff _).mp (by simpa using c1' : (m.take (m.length - 1)).all isText = true)
  generalize m.take (m.length - 1) = w0 at *
  subst ha
  split at h
  · next s hr =>
    simp only [Option.some.injEq, Except.error.injEq] at h
    rw [stop_code_waiting _ _ (by decide)] at h
    subst h
    obtain ⟨h1, h2, h3⟩ := (Reader.readUntil_waits _ _ _).mp hr
    rw [e1] at h1
    rw [Reader.silent_open h1] at b1
    rw [a1]
    exact ⟨h1, .target w0 a _ b1 t0 h2 h3⟩
  next t r2 h2 =>
  obtain ⟨a2, b2, e2⟩ := Reader.taken_readUntil h2
  split at h
  · cases h
  next c2 =>
  split at h
  · cases h
  next c2' =>
  obtain ⟨b, hbb⟩ := split_last (l := t) (by omega)
  have t1 := (all_isText_iff _).mp (by simpa using c2' : (t.take (t.length - 1)).all isText = true)
  generalize t.take (t.length - 1) = w1 at *
  subst hbb
  rw [Reader.closed_congr e1] at b2
  split at h
  · next s hr =>
    simp only [Option.some.injEq, Except.error.injEq] at h
    rw [stop_code_waiting _ _ (by decide)] at h
    subst h
    have hr' : r2.readUntil 10 128 = .err .wait := by
      simp only [Reader.readLine] at hr
      split at hr
      · next s' hs' => cases hr; exact hs'
      · split at hr <;> cases hr
    obtain ⟨h1, h2, h3⟩ := (Reader.readUntil_waits _ _ _).mp hr'
    rw [e2, e1] at h1
    rw [Reader.silent_open h1] at b1 b2
    rw [a1, a2]
    rw [a2] at b1
    exact ⟨h1, .version w0 w1 a b _ b1 t0 b2 t1 h2 h3⟩
  next v r3 h3 =>
  split at h
  · cases h
  next c3 =>
  split at h
  · cases h
  next c3' =>
  split at h
  · cases h
  · next e hl =>
    simp only [Option.some.injEq, Except.error.injEq] at h
    subst h
    have h3' : r2.readUntil 10 128 = .ok v r3 ∧ (decodeUtf8 v).isSome = true := by
      simp only [Reader.readLine] at h3
      split at h3
      · cases h3
      · next d q hq =>
        split at h3
        · next hu => cases h3; exact ⟨hq, hu⟩
        · cases h3
    obtain ⟨a3, b3, e3⟩ := Reader.taken_readUntil h3'.1
    obtain ⟨hf, hsec⟩ := headerLoop_open _ _ _ _ hl
    rw [e3, e2, e1] at hf
    rw [Reader.closed_congr (e2.trans e1)] at b3
    rw [Reader.silent_open hf] at b1 b2 b3
    obtain ⟨x, y, hxy⟩ := split_last_two (l := v) (by omega)
    have t2 := (all_isText_iff _).mp (by simpa using c3' : (v.take (v.length - 2)).all isText = true)
    have hne : v.take (v.length - 2) ≠ [] := by
      intro h0
      have := congrArg List.length h0
      simp at this; omega
    refine ⟨hf, ?_⟩
    generalize v.take (v.length - 2) = w2 at *
    subst hxy
    rw [a1, a2, a3]
    rw [a2, a3] at b1
    rw [a3] at b2
    exact .fields w0 w1 w2 a b x y _ b1 t0 b2 t1 b3 hne t2 ((decodeUtf8_twoBytes w2 t2 x y).mp h3'.2) hsec
  · cases h

theorem open_readHead (lim : HttpLimits) (s : Bytes) (h : HeadOpen lim.maxUrl lim.maxHeaderLine lim.maxHeadersCount s)
    (hd : Head) (hb : hd.NoStart) (r : Reader) (hr : r.flat = s) (hf : r.fin = .silent) :
    readHead lim hd r = .error .waiting := by
  have hc := Reader.silent_open hf
  cases h with
  | method s h1 h2 =>
    refine readHead_of_fuel (fuel := 0) ?_
    simp only [readHeadFuel, (Reader.readUntil_waits _ _ r).mpr ⟨hf, hr ▸ h1, hr ▸ h2⟩]
    rfl
  | target w0 a s t0 x0 h1 h2 =>
    obtain ⟨r1, a1, a2, a3⟩ := Reader.readUntil_taken hr (by rw [hc]; exact t0)
    have k0 : w0.all isText = true := (all_isText_iff _).mpr x0
    refine readHead_of_fuel (fuel := 0) ?_
    simp only [readHeadFuel, a1, hb.f0, List.nil_append, take_last, k0,
      (Reader.readUntil_waits _ _ r1).mpr ⟨a3.trans hf, a2 ▸ h1, a2 ▸ h2⟩]
    rw [if_neg (by simp), if_neg (by simp)]
    rfl
  | version w0 w1 a b s t0 x0 t1 x1 h1 h2 =>
    obtain ⟨r1, a1, a2, a3⟩ := Reader.readUntil_taken hr (by rw [hc]; exact t0)
    obtain ⟨r2, b1, b2, b3⟩ := Reader.readUntil_taken a2 (by rw [Reader.closed_congr a3, hc]; exact t1)
    have k0 : w0.all isText = true := (all_isText_iff _).mpr x0
    have k1 : w1.all isText = true := (all_isText_iff _).mpr x1
    have hw := (Reader.readUntil_waits 10 128 r2).mpr ⟨b3.trans (a3.trans hf), b2 ▸ h1, b2 ▸ h2⟩
    refine readHead_of_fuel (fuel := 0) ?_
    simp only [readHeadFuel, a1, b1, hb.f0, hb.f1, List.nil_append, take_last, k0, k1, Reader.readLine, hw]
    rw [if_neg (by simp), if_neg (by simp), if_neg (by simp), if_neg (by simp)]
    rfl
  | fields w0 w1 w2 a b x y s t0 x0 t1 x1 t2 ne x2 hu hsec =>
    obtain ⟨r1, a1, a2, a3⟩ := Reader.readUntil_taken hr (by rw [hc]; exact t0)
    obtain ⟨r2, b1, b2, b3⟩ := Reader.readUntil_taken a2 (by rw [Reader.closed_congr a3, hc]; exact t1)
    obtain ⟨r3, c1, c2, c3⟩ := Reader.readUntil_taken b2 (by rw [Reader.closed_congr (b3.trans a3), hc]; exact t2)
    obtain ⟨fuel, d1⟩ := open_headerLoop lim _ hsec hd.headers r3 c2 (c3.trans (b3.trans (a3.trans hf)))
    refine readHead_of_fuel (fuel := fuel) ?_
    have hline : r2.readLine 128 = .ok (w2 ++ [x, y]) r3 := by
      simp [Reader.readLine, c1, (decodeUtf8_twoBytes w2 x2 x y).mpr hu]
    have hl := List.length_pos_iff.mpr ne
    have k0 : w0.all isText = true := (all_isText_iff _).mpr x0
    have k1 : w1.all isText = true := (all_isText_iff _).mpr x1
    have k2 : w2.all isText = true := (all_isText_iff _).mpr x2
    simp only [readHeadFuel, a1, b1, hline, hb.f0, hb.f1, hb.f2, List.nil_append, take_last, take_last_two, k0, k1, k2, d1]
    rw [if_neg (by simp), if_neg (by simp), if_neg (by simp), if_neg (by simp), if_neg (by simp; omega), if_neg (by simp)]

/-! ## what the headers are -/

theorem valuesIn_eq (l : List (Bytes × List Bytes)) (k : Bytes) : valuesIn l k = hmGet l k := by
  induction l with
  | nil => rfl
  | cons e l ih => obtain ⟨k', vs⟩ := e; simp [valuesIn, hmGet, ih]

/-- The names are different, and the empty one can only be the last. -/
def SlotsOk (l : List (Bytes × List Bytes)) : Prop := (keys l).Nodup ∧ ∀ i, (keys l)[i]? = some [] → i + 1 = l.length

theorem put_upsert (k v : Bytes) (l : List (Bytes × List Bytes)) :
    put true k v l = upsert (fun e => e.1 == k || e.1.isEmpty) (fun e => (if e.1.isEmpty then k else e.1, e.2 ++ [v])) (k, [v]) l := by
  induction l with
  | nil => rfl
  | cons e l ih =>
    obtain ⟨k', vs⟩ := e
    simp only [put, upsert]
    by_cases h1 : k' = k
    · subst h1
      cases k' <;> simp
    · by_cases h2 : k' = []
      · subst h2; simp [h1]
      · simp [h1, h2, ih]

theorem put_false_get (k v x : Bytes) (l : List (Bytes × List Bytes)) :
    hmGet (put false k v l) x = if x = k then some ((hmGet l k).getD [] ++ [v]) else hmGet l x := by
  induction l with
  | nil => simp [put, hmGet, eq_comm]
  | cons e l ih =>
    obtain ⟨k', vs⟩ := e
    by_cases h1 : k' = k
    · subst h1
      by_cases h2 : x = k'
      · subst h2; simp [put, hmGet]
      · simp [put, hmGet, h2, Ne.symm h2]
    · simp only [put, h1, if_false, Bool.false_eq_true, false_and, hmGet, ih]
      by_cases h2 : x = k
      · subst h2; simp [h1]
      · simp [h2]

theorem put_length (reuse : Bool) (k v : Bytes) (l : List (Bytes × List Bytes)) :
    l.length ≤ (put reuse k v l).length ∧ (put reuse k v l).length ≤ l.length + 1 := by
  induction l with
  | nil => simp [put]
  | cons e l ih =>
    obtain ⟨k', vs⟩ := e
    simp only [put]
    split
    · simp
    · split
      · simp
      · simp; omega

/-- The names after adding one. -/
def addKey (k : Bytes) (ks : List Bytes) : List Bytes :=
  if k ∈ ks then ks else if ks.getLast? = some [] then ks.dropLast ++ [k] else ks ++ [k]

theorem addKey_cons (k k' : Bytes) (ks : List Bytes) (h1 : k' ≠ k) (h2 : k' ≠ []) : addKey k (k' :: ks) = k' :: addKey k ks := by
  have hlast : (k' :: ks).getLast? = some [] ↔ ks.getLast? = some [] := by
    rw [List.getLast?_cons]
    cases ks.getLast? <;> simp [h2]
  unfold addKey
  by_cases c1 : k ∈ ks
  · simp [c1]
  · rw [if_neg c1, if_neg (by simp [c1, Ne.symm h1])]
    by_cases c2 : ks.getLast? = some []
    · rw [if_pos c2, if_pos (hlast.mpr c2), List.dropLast_cons_of_ne_nil]
      · rfl
      · intro h0; rw [h0] at c2; cases c2
    · rw [if_neg c2, if_neg (fun h => c2 (hlast.mp h))]; rfl

theorem keys_put_true (k v : Bytes) (l : List (Bytes × List Bytes)) (h : SlotsOk l) :
    keys (put true k v l) = addKey k (keys l) := by
  induction l with
  | nil => simp [put, addKey]
  | cons e l ih =>
    obtain ⟨k', vs⟩ := e
    obtain ⟨hn, hi⟩ := h
    simp only [keys_cons, List.nodup_cons] at hn
    have hok : SlotsOk l := ⟨hn.2, fun i hh => by
      have := hi (i + 1) (by simpa using hh)
      simp at this; omega⟩
    by_cases h1 : k' = k
    · subst h1; simp [put, addKey]
    · by_cases h2 : k' = []
      · subst h2
        have hl := hi 0 (by simp)
        have : l = [] := by
          cases l with
          | nil => rfl
          | cons => simp at hl
        subst this
        simp [put, addKey, h1, Ne.symm h1]
      · simp only [put, h1, h2, if_false, and_false, keys_cons, ih hok]
        rw [addKey_cons k k' _ h1 h2]

theorem slotsOk_put (k v : Bytes) (l : List (Bytes × List Bytes)) (h : SlotsOk l) : SlotsOk (put true k v l) := by
  have hk := keys_put_true k v l h
  have hlen : (put true k v l).length = (keys (put true k v l)).length := by simp [keys]
  have hlen' : l.length = (keys l).length := by simp [keys]
  unfold SlotsOk
  rw [hlen, hk, addKey]
  obtain ⟨hn, hi⟩ := h
  rw [hlen'] at hi
  split
  · exact ⟨hn, hi⟩
  · next hmem =>
    split
    · next hlast =>
      have hsplit : keys l = (keys l).dropLast ++ [[]] := by
        rw [List.getLast?_eq_some_iff] at hlast
        obtain ⟨ys, hy⟩ := hlast
        rw [hy]; simp
      generalize (keys l).dropLast = d at *
      rw [hsplit] at hn hi hmem
      rw [List.nodup_append] at hn ⊢
      constructor
      · refine ⟨hn.1, by simp, ?_⟩
        intro a ha b hb
        simp only [List.mem_singleton] at hb
        subst hb
        rintro rfl
        exact hmem (by simp [ha])
      · intro i hh
        by_cases hlt : i < d.length
        · rw [List.getElem?_append_left hlt] at hh
          have := hi i (by rw [List.getElem?_append_left hlt]; exact hh)
          simp at this; omega
        · rw [List.getElem?_append_right (by omega)] at hh
          have : i - d.length < 1 := by
            rcases Nat.lt_or_ge (i - d.length) 1 with h | h
            · exact h
            · rw [List.getElem?_eq_none (by simpa using h)] at hh; cases hh
          simp; omega
    · next hlast =>
      constructor
      · rw [List.nodup_append]
        refine ⟨hn, by simp, ?_⟩
        intro a ha b hb
        simp only [List.mem_singleton] at hb
        subst hb
        rintro rfl
        exact hmem ha
      · intro i hh
        by_cases hlt : i < (keys l).length
        · rw [List.getElem?_append_left hlt] at hh
          exfalso
          apply hlast
          have := hi i hh
          rw [List.getLast?_eq_getElem?, ← hh]
          congr 1; omega
        · rw [List.getElem?_append_right (by omega)] at hh
          have : i - (keys l).length < 1 := by
            rcases Nat.lt_or_ge (i - (keys l).length) 1 with h | h
            · exact h
            · rw [List.getElem?_eq_none (by simpa using h)] at hh; cases hh
          simp; omega

/-- A header map and the list of names it stands for. -/
def Rep (m : MultiMap) (l : List (Bytes × List Bytes)) : Prop :=
  (m.ismap = false ∧ m.vec = l ∧ m.table = [] ∧ SlotsOk l ∧ l.length ≤ 36) ∨ (m.ismap = true ∧ 36 ≤ l.length ∧ ∀ k, hmGet m.table k = hmGet l k)

theorem Rep.getall {m : MultiMap} {l : List (Bytes × List Bytes)} (h : Rep m l) (k : Bytes) : m.getall k = valuesIn l k := by
  rw [valuesIn_eq]
  rcases h with ⟨h1, h2, _⟩ | ⟨h1, _, h3⟩
  · rw [getall_vec _ h1, h2]
  · rw [getall_map _ h1, h3]

theorem mapAppend_get (m : MultiMap) (k v x : Bytes) :
    hmGet (m.mapAppend k v).table x = if x = k then some ((hmGet m.table k).getD [] ++ [v]) else hmGet m.table x := by
  simp only [mapAppend]
  cases h : hmGet m.table k with
  | none => simp [table, hmGet_insert]
  | some vs => simp only [table, Option.getD_some, hmGet_insert]

theorem Rep.append {m : MultiMap} {l : List (Bytes × List Bytes)} (h : Rep m l) (k v : Bytes) :
    Rep (m.append k v) (put (decide (l.length < 36)) k v l) := by
  rcases h with ⟨h1, h2, h3, h4, h5⟩ | ⟨h1, h2, h3⟩
  · by_cases hl : l.length < 36
    · left
      rw [append_vec m h1 (by rw [h2]; exact hl), decide_eq_true hl, put_upsert, h2]
      refine ⟨h1, rfl, h3, ?_, ?_⟩
      · rw [← put_upsert]; exact slotsOk_put k v l h4
      · rw [← put_upsert]; have := (put_length true k v l).2; omega
    · right
      rw [decide_eq_false hl]
      have he : m.append k v = m.tomap.mapAppend k v := by
        simp only [MultiMap.append, h1, h2, Bool.false_eq_true, if_false]; rw [if_pos (by omega)]
      rw [he]
      have htt : m.tomap.table = l.foldl (fun t e => hmInsert t e.1 e.2) [] := by
        simp only [tomap, h3, h2]; rfl
      refine ⟨by rw [mapAppend_ismap]; rfl, by have := (put_length false k v l).1; omega, fun x => ?_⟩
      rw [mapAppend_get, put_false_get, htt, foldl_insert _ _ h4.1, foldl_insert _ _ h4.1]
      simp [hmGet]
  · right
    have hl : ¬ l.length < 36 := by omega
    rw [decide_eq_false hl]
    have he : m.append k v = m.mapAppend k v := by simp [MultiMap.append, h1]
    rw [he]
    refine ⟨by rw [mapAppend_ismap]; exact h1, by have := (put_length false k v l).1; omega, fun x => ?_⟩
    rw [mapAppend_get, put_false_get, h3, h3]

theorem storePairs_rep (fs : List (Bytes × Bytes)) (m : MultiMap) (l : List (Bytes × List Bytes)) (h : Rep m l) :
    Rep (storePairs m fs) (fs.foldl (fun l f => put (decide (l.length < 36)) f.1 f.2 l) l) := by
  induction fs generalizing m l with
  | nil => exact h
  | cons f fs ih => exact ih _ _ (h.append f.1 f.2)

theorem storePairs_getall (fs : List (Bytes × Bytes)) (m : MultiMap) (h : m.Fresh) (k : Bytes) :
    (storePairs m fs).getall k = valuesIn (collect fs) k := by
  refine (storePairs_rep fs m [] (Or.inl ⟨h.1, h.2.1, ?_, ⟨by simp, by simp⟩, by simp⟩)).getall k
  exact h.2.2

end Httpd
