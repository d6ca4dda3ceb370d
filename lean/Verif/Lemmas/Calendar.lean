import Verif.Model.TimeFormat
import Verif.Spec.Calendar
/-!
# Calendar, padded numbers, order of texts
-/

namespace Httpd

open Spec

/-! ## Dates -/

theorem isLeap_iff (y : Nat) : isLeap y = true ↔ Leap y := by
  unfold isLeap Leap
  simp only [Bool.and_eq_true, Bool.or_eq_true, decide_eq_true_eq, Nat.dvd_iff_mod_eq_zero]
  omega

/-- Days before a year. -/
def daysBefore : Nat → Nat
  | 0 => 0
  | y + 1 => daysBefore y + yearLen y

theorem yearLen_le (y : Nat) : 365 ≤ yearLen y ∧ yearLen y ≤ 366 := by unfold yearLen; split <;> omega

theorem splitYear_spec (fuel y n : Nat) (h : n < 365 * fuel) :
    (splitYear fuel y n).2 < yearLen (splitYear fuel y n).1 ∧
    daysBefore (splitYear fuel y n).1 + (splitYear fuel y n).2 = daysBefore y + n := by
  induction fuel generalizing y n with
  | zero => omega
  | succ fuel ih =>
    unfold splitYear
    have := yearLen_le y
    split
    · exact ⟨by assumption, rfl⟩
    · obtain ⟨h1, h2⟩ := ih (y + 1) (n - yearLen y) (by omega)
      refine ⟨h1, ?_⟩
      rw [h2]
      simp only [daysBefore]
      omega

/-- Days before a month. -/
def daysBeforeMonth (y : Nat) : Nat → Nat
  | 0 => 0
  | m + 1 => daysBeforeMonth y m + monthDays y m

theorem splitMonth_gen (y : Nat) (ls : List Nat) (m n : Nat) (hls : ∀ i, (h : i < ls.length) → ls[i] = monthDays y (m + i))
    (hn : n < ls.sum) :
    m ≤ (splitMonth ls m n).1 ∧ (splitMonth ls m n).1 < m + ls.length ∧ (splitMonth ls m n).2 < monthDays y (splitMonth ls m n).1 ∧
    daysBeforeMonth y (splitMonth ls m n).1 + (splitMonth ls m n).2 = daysBeforeMonth y m + n := by
  induction ls generalizing m n with
  | nil => simp at hn
  | cons l ls ih =>
    have h0 : l = monthDays y m := hls 0 (by simp)
    simp only [List.sum_cons, List.length_cons] at hn ⊢
    by_cases hc : n < l
    · simp only [splitMonth, hc, ↓reduceIte]
      refine ⟨by omega, by omega, by omega, trivial⟩
    · simp only [splitMonth, hc, ↓reduceIte]
      obtain ⟨h1, h2, h3, h4⟩ := ih (m + 1) (n - l)
        (fun i h => by
          have := hls (i + 1) (by simpa using h)
          simp only [List.getElem_cons_succ] at this
          rw [this]; congr 1; omega) (by omega)
      refine ⟨by omega, by omega, h3, ?_⟩
      rw [h4]
      simp only [daysBeforeMonth]
      omega

theorem isLeap_eq (y : Nat) : isLeap y = decide (Leap y) := by
  by_cases hl : Leap y
  · simp [hl, (isLeap_iff y).mpr hl]
  · cases hx : isLeap y with
    | false => simp [hl]
    | true => exact absurd ((isLeap_iff y).mp hx) hl

theorem splitMonth_spec (y o : Nat) (h : o < yearLen y) :
    IsDate y (splitMonth (monthLens y) 1 o).1 ((splitMonth (monthLens y) 1 o).2 + 1) ∧
    daysBeforeMonth y (splitMonth (monthLens y) 1 o).1 + (splitMonth (monthLens y) 1 o).2 = o := by
  have hsum : (monthLens y).sum = yearLen y := by
    unfold monthLens yearLen
    cases isLeap y <;> rfl
  obtain ⟨h1, h2, h3, h4⟩ := splitMonth_gen y (monthLens y) 1 o (by
    intro i hi
    have hi' : i < 12 := hi
    have hm : ∀ j : Fin 12, ∀ b : Bool, ([31, if b then 29 else 28, 31, 30, 31, 30, 31, 31, 30, 31, 30, 31] : List Nat)[j.val]? =
        some (match 1 + j.val with
          | 1 => 31 | 2 => if b then 29 else 28 | 3 => 31 | 4 => 30 | 5 => 31 | 6 => 30 | 7 => 31 | 8 => 31 | 9 => 30 | 10 => 31
          | 11 => 30 | 12 => 31 | _ => 0) := by decide
    have := hm ⟨i, hi'⟩ (isLeap y)
    have e : (monthLens y)[i]? = some (monthLens y)[i] := List.getElem?_eq_getElem hi
    rw [show (monthLens y)[i]? = ([31, if isLeap y then 29 else 28, 31, 30, 31, 30, 31, 31, 30, 31, 30, 31] : List Nat)[i]? from rfl] at e
    rw [e, Option.some.injEq] at this
    refine this.trans ?_
    simp only [isLeap_eq, decide_eq_true_eq]
    rfl) (by rw [hsum]; exact h)
  have hlen : (monthLens y).length = 12 := rfl
  exact ⟨⟨h1, by omega, by omega, by omega⟩, by rw [h4]; simp [daysBeforeMonth, monthDays]⟩

/-- The number of a date. -/
def dayNumber (y m d : Nat) : Nat := daysBefore y + daysBeforeMonth y m + (d - 1)

theorem dateOf_spec (n : Nat) :
    IsDate (dateOf n).year (dateOf n).month (dateOf n).day ∧ dayNumber (dateOf n).year (dateOf n).month (dateOf n).day = n := by
  obtain ⟨h1, h2⟩ := splitYear_spec (n / 365 + 1) 0 n (by omega)
  obtain ⟨h3, h4⟩ := splitMonth_spec _ _ h1
  have e : dateOf n = ⟨(splitYear (n / 365 + 1) 0 n).1,
      (splitMonth (monthLens (splitYear (n / 365 + 1) 0 n).1) 1 (splitYear (n / 365 + 1) 0 n).2).1,
      (splitMonth (monthLens (splitYear (n / 365 + 1) 0 n).1) 1 (splitYear (n / 365 + 1) 0 n).2).2 + 1⟩ := rfl
  rw [e]
  refine ⟨h3, ?_⟩
  simp only [dayNumber, Nat.add_sub_cancel]
  simp only [daysBefore] at h2
  omega

theorem isDate_inYear {y m d : Nat} (h : IsDate y m d) : daysBeforeMonth y m + (d - 1) < yearLen y := by
  obtain ⟨h1, h2, h3, h4⟩ := h
  have hy : yearLen y = if Leap y then 366 else 365 := by
    by_cases hl : Leap y
    · simp [yearLen, hl, (isLeap_iff y).mpr hl]
    · have : isLeap y = false := by
        cases hx : isLeap y with
        | false => rfl
        | true => exact absurd ((isLeap_iff y).mp hx) hl
      simp [yearLen, hl, this]
  rw [hy]
  have : m = 1 ∨ m = 2 ∨ m = 3 ∨ m = 4 ∨ m = 5 ∨ m = 6 ∨ m = 7 ∨ m = 8 ∨ m = 9 ∨ m = 10 ∨ m = 11 ∨ m = 12 := by omega
  by_cases hl : Leap y
  all_goals
    rcases this with rfl | rfl | rfl | rfl | rfl | rfl | rfl | rfl | rfl | rfl | rfl | rfl <;>
    simp [daysBeforeMonth, monthDays, hl] at h4 ⊢ <;> omega

theorem daysBefore_lt {a b : Nat} (h : a < b) : daysBefore a + yearLen a ≤ daysBefore b := by
  induction b with
  | zero => omega
  | succ b ih =>
    simp only [daysBefore]
    by_cases hab : a = b
    · subst hab; omega
    · have := ih (by omega); omega

theorem daysBeforeMonth_lt (y : Nat) {a b : Nat} (h : a < b) : daysBeforeMonth y a + monthDays y a ≤ daysBeforeMonth y b := by
  induction b with
  | zero => omega
  | succ b ih =>
    simp only [daysBeforeMonth]
    by_cases hab : a = b
    · subst hab; omega
    · have := ih (by omega); omega

/-- The order of dates. -/
def DateLt (y m d y' m' d' : Nat) : Prop := y < y' ∨ y = y' ∧ (m < m' ∨ m = m' ∧ d < d')

theorem dayNumber_lt {y m d y' m' d' : Nat} (h : IsDate y m d) (h' : IsDate y' m' d') (hlt : DateLt y m d y' m' d') :
    dayNumber y m d < dayNumber y' m' d' := by
  have i := isDate_inYear h
  unfold dayNumber
  rcases hlt with hlt | ⟨rfl, hlt | ⟨rfl, hlt⟩⟩
  · have := daysBefore_lt hlt; omega
  · have := daysBeforeMonth_lt y hlt
    obtain ⟨h1, h2, h3, h4⟩ := h
    omega
  · obtain ⟨h1, h2, h3, h4⟩ := h
    omega

theorem date_trichotomy (y m d y' m' d' : Nat) : DateLt y m d y' m' d' ∨ (y = y' ∧ m = m' ∧ d = d') ∨ DateLt y' m' d' y m d := by
  unfold DateLt; omega

theorem dayNumber_lt_iff {y m d y' m' d' : Nat} (h : IsDate y m d) (h' : IsDate y' m' d') :
    dayNumber y m d < dayNumber y' m' d' ↔ DateLt y m d y' m' d' := by
  refine ⟨fun hlt => ?_, dayNumber_lt h h'⟩
  rcases date_trichotomy y m d y' m' d' with e | ⟨rfl, rfl, rfl⟩ | e
  · exact e
  · omega
  · have := dayNumber_lt h' h e; omega

theorem dayNumber_inj {y m d y' m' d' : Nat} (h : IsDate y m d) (h' : IsDate y' m' d') (e : dayNumber y m d = dayNumber y' m' d') :
    y = y' ∧ m = m' ∧ d = d' := by
  rcases date_trichotomy y m d y' m' d' with e1 | e1 | e1
  · have := dayNumber_lt h h' e1; omega
  · exact e1
  · have := dayNumber_lt h' h e1; omega

theorem daysBeforeMonth_13 (y : Nat) : daysBeforeMonth y 13 = yearLen y := by
  by_cases hl : Leap y
  · simp [daysBeforeMonth, monthDays, yearLen, hl, (isLeap_iff y).mpr hl]
  · have : isLeap y = false := by
      cases hx : isLeap y with
      | false => rfl
      | true => exact absurd ((isLeap_iff y).mp hx) hl
    simp [daysBeforeMonth, monthDays, yearLen, hl, this]

theorem monthDays_pos {y m : Nat} (h1 : 1 ≤ m) (h2 : m ≤ 12) : 28 ≤ monthDays y m ∧ monthDays y m ≤ 31 := by
  have : m = 1 ∨ m = 2 ∨ m = 3 ∨ m = 4 ∨ m = 5 ∨ m = 6 ∨ m = 7 ∨ m = 8 ∨ m = 9 ∨ m = 10 ∨ m = 11 ∨ m = 12 := by omega
  rcases this with rfl | rfl | rfl | rfl | rfl | rfl | rfl | rfl | rfl | rfl | rfl | rfl <;> simp only [monthDays] <;> (try split) <;> omega

theorem tomorrow_spec {y m d : Nat} (h : IsDate y m d) :
    IsDate (tomorrow (y, m, d)).1 (tomorrow (y, m, d)).2.1 (tomorrow (y, m, d)).2.2 ∧
    dayNumber (tomorrow (y, m, d)).1 (tomorrow (y, m, d)).2.1 (tomorrow (y, m, d)).2.2 = dayNumber y m d + 1 := by
  obtain ⟨h1, h2, h3, h4⟩ := h
  by_cases c1 : d < monthDays y m
  · simp only [tomorrow, c1, ↓reduceIte]
    refine ⟨⟨h1, h2, by omega, by omega⟩, ?_⟩
    simp only [dayNumber]; omega
  · by_cases c2 : m < 12
    · simp only [tomorrow, c1, c2, ↓reduceIte]
      have := monthDays_pos (y := y) (m := m + 1) (by omega) (by omega)
      refine ⟨⟨by omega, by omega, by omega, by omega⟩, ?_⟩
      simp only [dayNumber, daysBeforeMonth]; omega
    · simp only [tomorrow, c1, c2, ↓reduceIte]
      have e : m = 12 := by omega
      subst e
      have h13 := daysBeforeMonth_13 y
      have e13 : daysBeforeMonth y 13 = daysBeforeMonth y 12 + monthDays y 12 := rfl
      have e1 : daysBeforeMonth (y + 1) 1 = 0 := rfl
      have := monthDays_pos (y := y + 1) (m := 1) (by omega) (by omega)
      refine ⟨⟨by omega, by omega, by omega, by omega⟩, ?_⟩
      simp only [dayNumber, daysBefore, e1]; omega

theorem dayAfter_spec (n : Nat) :
    IsDate (dayAfter n).1 (dayAfter n).2.1 (dayAfter n).2.2 ∧ dayNumber (dayAfter n).1 (dayAfter n).2.1 (dayAfter n).2.2 = n := by
  induction n with
  | zero => exact ⟨⟨by decide, by decide, by decide, by decide⟩, rfl⟩
  | succ n ih =>
    have := tomorrow_spec ih.1
    rw [ih.2] at this
    exact this

/-- The model's dates are those found by counting. -/
theorem dateOf_eq (n : Nat) : ((dateOf n).year, (dateOf n).month, (dateOf n).day) = dayAfter n := by
  obtain ⟨h1, h2⟩ := dateOf_spec n
  obtain ⟨h3, h4⟩ := dayAfter_spec n
  obtain ⟨e1, e2, e3⟩ := dayNumber_inj h1 h3 (by rw [h2, h4])
  rw [e1, e2, e3]

/-! ## Texts -/

theorem textLt_irrefl (s : Str) : ¬ TextLt s s := by
  induction s with
  | nil => exact id
  | cons a s ih =>
    intro h
    rcases h with h | ⟨_, h⟩
    · exact absurd h (Nat.lt_irrefl _)
    · exact ih h

theorem textLt_append {a c : Str} (hl : a.length = c.length) (b d : Str) : TextLt (a ++ b) (c ++ d) ↔ TextLt a c ∨ a = c ∧ TextLt b d := by
  induction a generalizing c with
  | nil =>
    cases c with
    | nil => simp [TextLt]
    | cons _ _ => simp at hl
  | cons x a ih =>
    cases c with
    | nil => simp at hl
    | cons y c =>
      simp only [List.length_cons, Nat.add_right_cancel_iff] at hl
      simp only [List.cons_append, TextLt, ih hl, List.cons.injEq]
      constructor
      · rintro (h | ⟨rfl, h | ⟨rfl, h⟩⟩)
        · exact .inl (.inl h)
        · exact .inl (.inr ⟨rfl, h⟩)
        · exact .inr ⟨⟨rfl, rfl⟩, h⟩
      · rintro ((h | ⟨rfl, h⟩) | ⟨⟨rfl, rfl⟩, h⟩)
        · exact .inl h
        · exact .inr ⟨rfl, .inl h⟩
        · exact .inr ⟨rfl, .inr ⟨rfl, h⟩⟩

theorem padded_length (w n : Nat) : (padded w n).length = w := by
  induction w generalizing n with
  | zero => rfl
  | succ w ih => simp [padded, ih]

theorem padded_inj (w : Nat) {a b : Nat} (ha : a < 10 ^ w) (hb : b < 10 ^ w) (h : padded w a = padded w b) : a = b := by
  induction w generalizing a b with
  | zero => simp at ha hb; omega
  | succ w ih =>
    simp only [padded] at h
    obtain ⟨h1, h2⟩ := List.append_inj' h (by simp)
    simp only [List.cons.injEq, and_true] at h2
    rw [Nat.pow_succ] at ha hb
    have := ih (by omega) (by omega) h1
    omega

theorem padded_lt (w : Nat) {a b : Nat} (ha : a < 10 ^ w) (hb : b < 10 ^ w) : TextLt (padded w a) (padded w b) ↔ a < b := by
  induction w generalizing a b with
  | zero => simp at ha hb; simp [padded, TextLt]; omega
  | succ w ih =>
    rw [Nat.pow_succ] at ha hb
    have ha' : a / 10 < 10 ^ w := by omega
    have hb' : b / 10 < 10 ^ w := by omega
    simp only [padded]
    rw [textLt_append (by simp [padded_length]), ih ha' hb']
    simp only [TextLt, and_false, or_false]
    constructor
    · rintro (h | ⟨h, h2⟩)
      · omega
      · have := padded_inj w ha' hb' h; omega
    · intro h
      by_cases e : a / 10 = b / 10
      · right; refine ⟨by rw [e], by omega⟩
      · left; omega

/-- A field before the rest. -/
theorem padded_append_lt (w : Nat) {a b : Nat} (ha : a < 10 ^ w) (hb : b < 10 ^ w) (s t : Str) :
    TextLt (padded w a ++ s) (padded w b ++ t) ↔ a < b ∨ a = b ∧ TextLt s t := by
  rw [textLt_append (by simp [padded_length]), padded_lt w ha hb]
  constructor
  · rintro (h | ⟨h, h2⟩)
    · exact .inl h
    · exact .inr ⟨padded_inj w ha hb h, h2⟩
  · rintro (h | ⟨rfl, h2⟩)
    · exact .inl h
    · exact .inr ⟨rfl, h2⟩

theorem cons_lt (c : Nat) (s t : Str) : TextLt (c :: s) (c :: t) ↔ TextLt s t := by simp [TextLt]

theorem padded_digits2 (n : Nat) : padded 2 n = [digit (n / 10), digit n] := rfl
theorem padded_digits3 (n : Nat) : padded 3 n = [digit (n / 100), digit (n / 10), digit n] := by
  simp [padded, digit, Nat.div_div_eq_div_mul]
theorem padded_digits4 (n : Nat) : padded 4 n = [digit (n / 1000), digit (n / 100), digit (n / 10), digit n] := by
  simp [padded, digit, Nat.div_div_eq_div_mul]

end Httpd
