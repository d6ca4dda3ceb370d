import Verif.Props.Grammar
import Verif.Props.System
/-! # What the header-count limit does: C06, exactly -/

namespace Httpd
open Spec MultiMap

theorem section_zero {maxLine maxCount : Nat} {closed : Bool} {s rest : Bytes} {fs : List (Bytes × Bytes)}
    (h : Section maxLine maxCount closed s fs rest) (h0 : maxCount = 0) :
    fs = [] ∧ ∀ m, Section maxLine m closed s [] rest := by
  induction h with
  | stop x y rest ht => exact ⟨rfl, fun m => .stop x y rest ht⟩
  | skip l x y s fs rest ht hne htext hcol hlen _ ih =>
    obtain ⟨rfl, h⟩ := ih
    exact ⟨rfl, fun m => .skip l x y s [] rest ht hne htext hcol hlen (h m)⟩
  | field n v n' v' x y s fs rest _ _ _ _ _ _ hmx => omega

theorem section_fieldless {maxLine maxCount : Nat} {closed : Bool} {s rest : Bytes} {fs : List (Bytes × Bytes)}
    (h : Section maxLine maxCount closed s fs rest) (h0 : fs = []) (m : Nat) : Section maxLine m closed s [] rest := by
  induction h with
  | stop x y rest ht => exact .stop x y rest ht
  | skip l x y s fs rest ht hne htext hcol hlen _ ih => exact .skip l x y s [] rest ht hne htext hcol hlen (ih h0)
  | field n v n' v' x y s fs rest => cases h0

theorem put_nonempty (reuse : Bool) (k v : Bytes) (l : List (Bytes × List Bytes)) : put reuse k v l ≠ [] := by
  cases l with
  | nil => simp [put]
  | cons e l =>
    simp only [put]
    split
    · simp
    · split <;> simp

theorem collect_none {fs : List (Bytes × Bytes)} (h : ∀ k, valuesIn (collect fs) k = none) : fs = [] := by
  have hne : ∀ (fs : List (Bytes × Bytes)) (l : List (Bytes × List Bytes)), l ≠ [] →
      fs.foldl (fun l f => put (decide (l.length < 36)) f.1 f.2 l) l ≠ [] := by
    intro fs
    induction fs with
    | nil => intro l hl; exact hl
    | cons f fs ih => intro l _; exact ih _ (put_nonempty _ _ _ _)
  cases fs with
  | nil => rfl
  | cons f fs =>
    exfalso
    have := hne fs (put (decide (([] : List (Bytes × List Bytes)).length < 36)) f.1 f.2 []) (put_nonempty _ _ _ _)
    cases hc : collect (f :: fs) with
    | nil => exact this hc
    | cons e l =>
      have h1 := h e.1
      rw [hc] at h1
      simp [valuesIn] at h1

/-- **C06**, exactly what the limit does, whatever bytes come: two limits that are not zero do the same on every stream; the limit zero accepts those
requests without a header field that any other limit accepts, as the same, and no others. So it is a limit on the number of headers exactly when it is
zero. Missing: every other limit (`C06_count_ignored_violated`). -/
theorem C06_exactly_partial (lim : HttpLimits) (m : Nat) (hm : 1 ≤ m) (hd : Head) (hb : hd.Blank) (r : Reader) :
    (∀ m', 1 ≤ m' → readHead { lim with maxHeadersCount := m' } hd r = readHead { lim with maxHeadersCount := m } hd r) ∧
    ∀ w0 w1 w2 rest,
      (∃ hd' r', readHead { lim with maxHeadersCount := 0 } hd r = .ok (hd', r') ∧ hd'.f0 = w0 ∧ hd'.f1 = w1 ∧ hd'.f2 = w2 ∧ r'.flat = rest) ↔
      ∃ hd' r', readHead { lim with maxHeadersCount := m } hd r = .ok (hd', r') ∧ hd'.f0 = w0 ∧ hd'.f1 = w1 ∧ hd'.f2 = w2 ∧ r'.flat = rest ∧
        ∀ k, hd'.headers.getall k = none := by
  refine ⟨fun m' hm' => readHead_limits { lim with maxHeadersCount := m } { lim with maxHeadersCount := m' } rfl rfl hm hm' hd r, ?_⟩
  intro w0 w1 w2 rest
  constructor
  · rintro ⟨hd', r', h, rfl, rfl, rfl, rfl⟩
    obtain ⟨fs, h1, _⟩ := C129_accepted _ hd hd' hb r r' h
    generalize hd'.f0 = w0 at h1 ⊢
    generalize hd'.f1 = w1 at h1 ⊢
    generalize hd'.f2 = w2 at h1 ⊢
    generalize r'.flat = rest at h1 ⊢
    generalize hu : r.flat = u at h1
    cases h1 with
    | mk _ _ _ a b x y s _ _ t0 x0 t1 x1 t2 hne x2 htwo hsec =>
      obtain ⟨rfl, hs⟩ := section_zero hsec rfl
      obtain ⟨hd2, r2, h2, e0, e1, e2, hh, hr, _⟩ := C129_accepts { lim with maxHeadersCount := m } hd hb r w0 w1 w2 rest []
        (by rw [hu]; exact .mk w0 w1 w2 a b x y s [] rest t0 x0 t1 x1 t2 hne x2 htwo (hs m))
      exact ⟨hd2, r2, h2, e0, e1, e2, hr, fun k => by rw [hh]; rfl⟩
  · rintro ⟨hd', r', h, rfl, rfl, rfl, rfl, hk⟩
    obtain ⟨fs, h1, hh, _⟩ := C129_accepted _ hd hd' hb r r' h
    have hfs := collect_none (fun k => (hh k).symm.trans (hk k))
    subst hfs
    generalize hd'.f0 = w0 at h1 ⊢
    generalize hd'.f1 = w1 at h1 ⊢
    generalize hd'.f2 = w2 at h1 ⊢
    generalize r'.flat = rest at h1 ⊢
    generalize hu : r.flat = u at h1
    cases h1 with
    | mk _ _ _ a b x y s _ _ t0 x0 t1 x1 t2 hne x2 htwo hsec =>
      obtain ⟨hd2, r2, h2, e0, e1, e2, _, hr, _⟩ := C129_accepts { lim with maxHeadersCount := 0 } hd hb r w0 w1 w2 rest []
        (by rw [hu]; exact .mk w0 w1 w2 a b x y s [] rest t0 x0 t1 x1 t2 hne x2 htwo (section_fieldless hsec rfl 0))
      exact ⟨hd2, r2, h2, e0, e1, e2, hr⟩

/-- Non-trivial cases: three headers with the limits 1, 5 and 0, and none with the limit 0. -/
example :
    (readHead { sampleLimits with maxHeadersCount := 1 } Head.new (Reader.ofBytes b!"GET / HTTP/1.1\r\na: 1\r\nb: 2\r\nc: 3\r\n\r\n" .eof)).isOk = true ∧
    (readHead { sampleLimits with maxHeadersCount := 5 } Head.new (Reader.ofBytes b!"GET / HTTP/1.1\r\na: 1\r\nb: 2\r\nc: 3\r\n\r\n" .eof)).isOk = true ∧
    (readHead { sampleLimits with maxHeadersCount := 0 } Head.new (Reader.ofBytes b!"GET / HTTP/1.1\r\na: 1\r\nb: 2\r\nc: 3\r\n\r\n" .eof)).isOk = false ∧
    (readHead { sampleLimits with maxHeadersCount := 0 } Head.new (Reader.ofBytes b!"GET / HTTP/1.1\r\n\r\n" .eof)).isOk = true := by
  decide +kernel

end Httpd
