import Verif.Model.Local
import Verif.Lemmas.Calendar
import Verif.Props.Rotation
/-! # C209: times from calendar dates -/

namespace Httpd
open Spec

theorem daysBefore_eq (y : Nat) : ((List.range y).map yearLen).sum = daysBefore y := by
  induction y with
  | zero => rfl
  | succ y ih => simp [List.range_succ, daysBefore, ih]

theorem monthLens_getD (y m : Nat) (h : 1 ≤ m) : (monthLens y).getD (m - 1) 0 = monthDays y m := by
  by_cases h12 : m ≤ 12
  · have : m = 1 ∨ m = 2 ∨ m = 3 ∨ m = 4 ∨ m = 5 ∨ m = 6 ∨ m = 7 ∨ m = 8 ∨ m = 9 ∨ m = 10 ∨ m = 11 ∨ m = 12 := by omega
    rcases this with rfl | rfl | rfl | rfl | rfl | rfl | rfl | rfl | rfl | rfl | rfl | rfl <;> simp [monthLens, monthDays, isLeap_eq]
  · have hl : (monthLens y).length ≤ m - 1 := by simp [monthLens]; omega
    rw [List.getD_eq_getElem?_getD, List.getElem?_eq_none hl]
    unfold monthDays
    split <;> first | omega | rfl

theorem monthLens_take (y m : Nat) (h : 1 ≤ m) (h12 : m ≤ 12) : ((monthLens y).take (m - 1)).sum = daysBeforeMonth y m := by
  have : m = 1 ∨ m = 2 ∨ m = 3 ∨ m = 4 ∨ m = 5 ∨ m = 6 ∨ m = 7 ∨ m = 8 ∨ m = 9 ∨ m = 10 ∨ m = 11 ∨ m = 12 := by omega
  rcases this with rfl | rfl | rfl | rfl | rfl | rfl | rfl | rfl | rfl | rfl | rfl | rfl <;>
    simp [monthLens, daysBeforeMonth, monthDays, isLeap_eq] <;> omega

instance (y m d : Nat) : Decidable (IsDate y m d) := inferInstanceAs (Decidable (_ ∧ _))

theorem ymdOpt_eq (maxYear y m d : Nat) : ymdOpt maxYear y m d = if y ≤ maxYear ∧ IsDate y m d then some (dayNumber y m d) else none := by
  unfold ymdOpt IsDate
  by_cases h1 : 1 ≤ m
  · rw [monthLens_getD y m h1]
    by_cases h2 : m ≤ 12
    · rw [monthLens_take y m h1 h2, daysBefore_eq]
      simp only [h1, h2, true_and, dayNumber]
    · have : monthDays y m = 0 := by unfold monthDays; split <;> first | omega | rfl
      rw [if_neg (by omega), if_neg (by omega)]
  · rw [if_neg (by omega), if_neg (by omega)]

/-- The day with a given date. -/
theorem dayNumber_dayAfter {y m d : Nat} (h : IsDate y m d) (n : Nat) : dayAfter n = (y, m, d) ↔ dayNumber y m d = n := by
  obtain ⟨h1, h2⟩ := dayAfter_spec n
  constructor
  · intro e; rw [e] at h2; exact h2
  · intro e
    obtain ⟨e1, e2, e3⟩ := dayNumber_inj h1 h (by rw [h2, e])
    exact Prod.ext e1 (Prod.ext e2 e3)

theorem ymdOpt_some (maxYear y m d n : Nat) : ymdOpt maxYear y m d = some n ↔ y ≤ maxYear ∧ dayAfter n = (y, m, d) := by
  rw [ymdOpt_eq]
  constructor
  · intro h
    split at h
    · rename_i hc
      exact ⟨hc.1, (dayNumber_dayAfter hc.2 n).2 (by simpa using h)⟩
    · cases h
  · rintro ⟨h1, h2⟩
    have hd : IsDate y m d := by have := (dayAfter_spec n).1; rw [h2] at this; exact this
    rw [if_pos ⟨h1, hd⟩, (dayNumber_dayAfter hd n).1 h2]

theorem ymdOpt_none (maxYear y m d : Nat) : ymdOpt maxYear y m d = none ↔ ¬ (y ≤ maxYear ∧ IsDate y m d) := by
  rw [ymdOpt_eq]; split <;> simp_all

/-- **C209.** For every time zone: a date and time of day give a time exactly if the date is one of the calendar (the `n`-th day counted from 0000-01-01, 1970-01-01
being number 719528), the time of day exists, and this local time comes exactly once; then it is the time at which it comes. -/
theorem C209_local (z : Zone) (hz : LawfulZone z) (maxYear y m d h mi s ms : Nat) (t : Int) :
    luxonLocal z maxYear y m d h mi s ms = .ok t ↔
      y ≤ maxYear ∧ h < 24 ∧ mi < 60 ∧ s < 60 ∧ (ms < 1000 ∨ s = 59 ∧ ms < 2000) ∧
      ∃ n, dayAfter n = (y, m, d) ∧
        ∀ v, z.localTime v = ((n : Int) - 719528) * 86400000 + h * 3600000 + mi * 60000 + s * 1000 + ms ↔ v = t := by
  unfold luxonLocal
  cases hy : ymdOpt maxYear y m d with
  | none =>
    rw [ymdOpt_none] at hy
    simp only [reduceCtorEq, false_iff]
    rintro ⟨h1, _, _, _, _, n, hn, _⟩
    have := (dayAfter_spec n).1
    rw [hn] at this
    exact hy ⟨h1, this⟩
  | some n =>
    obtain ⟨h1, h2⟩ := (ymdOpt_some _ _ _ _ _).1 hy
    simp only
    unfold hmsMilliOpt
    by_cases hc : h < 24 ∧ mi < 60 ∧ s < 60 ∧ (ms < 1000 ∨ s = 59 ∧ ms < 2000)
    · rw [if_pos hc]
      simp only
      have huniq : ∀ n', dayAfter n' = (y, m, d) → n' = n := by
        intro n' h'
        have a := (dayAfter_spec n).2
        have b := (dayAfter_spec n').2
        rw [h2] at a; rw [h'] at b
        exact b.symm.trans a
      have hl : ((n : Int) - 719528) * 86400000 + ((h * 3600000 + mi * 60000 + s * 1000 + ms : Nat) : Int) =
          ((n : Int) - 719528) * 86400000 + h * 3600000 + mi * 60000 + s * 1000 + ms := by omega
      rw [hl]
      generalize hL : ((n : Int) - 719528) * 86400000 + h * 3600000 + mi * 60000 + s * 1000 + ms = L
      have hzl := hz L
      cases hf : z.fromLocal L with
      | none =>
        rw [hf] at hzl
        simp only [reduceCtorEq, false_iff]
        rintro ⟨_, _, _, _, _, n', hn', hv⟩
        rw [huniq n' hn', hL] at hv
        exact hzl t ((hv t).2 rfl)
      | single u =>
        rw [hf] at hzl
        simp only [Except.ok.injEq]
        constructor
        · rintro rfl
          exact ⟨h1, hc.1, hc.2.1, hc.2.2.1, hc.2.2.2, n, h2, by rw [hL]; exact hzl⟩
        · rintro ⟨_, _, _, _, _, n', hn', hv⟩
          rw [huniq n' hn', hL] at hv
          exact ((hzl t).1 ((hv t).2 rfl)).symm
      | ambiguous =>
        rw [hf] at hzl
        simp only [reduceCtorEq, false_iff]
        rintro ⟨_, _, _, _, _, n', hn', hv⟩
        rw [huniq n' hn', hL] at hv
        obtain ⟨a, b, hab, ha, hb⟩ := hzl
        exact hab (((hv a).1 ha).trans ((hv b).1 hb).symm)
    · rw [if_neg hc]
      simp only [reduceCtorEq, false_iff]
      rintro ⟨_, a, b, c, e, _⟩
      exact hc ⟨a, b, c, e⟩

/-- **C209.** The fields of a local time, from the year 0 on, give back that time, if the local time comes only once. -/
theorem C209_round_trip (z : Zone) (hz : LawfulZone z) (maxYear : Nat) (t : Int) (h0 : 0 ≤ z.localTime t + 719528 * 86400000)
    (hy : (clockDate (z.clock t)).year ≤ maxYear) (honce : ∀ v, z.localTime v = z.localTime t → v = t) :
    luxonLocal z maxYear (clockDate (z.clock t)).year (clockDate (z.clock t)).month (clockDate (z.clock t)).day
      (z.clock t / 3600000 % 24) (z.clock t / 60000 % 60) (z.clock t / 1000 % 60) (z.clock t % 1000) = .ok t := by
  have hc : (z.clock t : Int) = z.localTime t + 719528 * 86400000 := by unfold Zone.clock; omega
  refine (C209_local z hz maxYear _ _ _ _ _ _ _ t).2 ⟨hy, by omega, by omega, by omega, by omega, z.clock t / 86400000, ?_, fun v => ?_⟩
  · unfold clockDate; exact (dateOf_eq _).symm
  · rw [show ((z.clock t / 86400000 : Nat) : Int) = (z.clock t : Int) / 86400000 from by omega]
    constructor
    · intro e; exact honce v (by omega)
    · rintro rfl; omega

/-- **C209.** A place whose clocks are `c` ahead of Greenwich shows the date and the time of day that Greenwich shows `c` later; 1970 began in Greenwich at time 0. -/
theorem C209_ahead (z : Zone) (t c : Int) (h : z.off t = c) (greenwich : Zone) (hg : ∀ u, greenwich.off u = 0) :
    clockDate (z.clock t) = clockDate (greenwich.clock (t + c)) ∧ z.clock t % 86400000 = greenwich.clock (t + c) % 86400000 ∧
      clockDate (greenwich.clock 0) = ⟨1970, 1, 1⟩ ∧ greenwich.clock 0 % 86400000 = 0 := by
  have e : z.clock t = greenwich.clock (t + c) := by
    unfold Zone.clock Zone.localTime
    rw [h, hg]
    omega
  have e0 : greenwich.clock 0 = 719528 * 86400000 := by
    unfold Zone.clock Zone.localTime
    rw [hg]
    omega
  refine ⟨by rw [e], by rw [e], ?_, by rw [e0]⟩
  rw [e0]
  decide +kernel

example : clockDate ((fixedZone 28800000).clock 60000000) = ⟨1970, 1, 2⟩ ∧ (fixedZone 28800000).clock 60000000 % 86400000 = 2400000 := by decide +kernel

/-- **C209.** `endofday` and `endofhour`, which go through the date, are the local time with everything below days (hours) set to zero, as a time, plus 24 hours
(one hour): the calendar cancels out, in every time zone, from the year 0 on. -/
theorem C209_ends (z : Zone) (maxYear : Nat) (t : Int) (h0 : 0 ≤ z.localTime t + 719528 * 86400000)
    (hy : (clockDate (z.clock t)).year ≤ maxYear) :
    endOfDay z maxYear t = endOf z dayMs t ∧ endOfHour z maxYear t = endOf z hourMs t := by
  have hc : (z.clock t : Int) = z.localTime t + 719528 * 86400000 := by unfold Zone.clock; omega
  have hd : ymdOpt maxYear (clockDate (z.clock t)).year (clockDate (z.clock t)).month (clockDate (z.clock t)).day = some (z.clock t / 86400000) :=
    (ymdOpt_some _ _ _ _ _).2 ⟨hy, by unfold clockDate; exact (dateOf_eq _).symm⟩
  constructor
  · unfold endOfDay luxonLocal endOf
    have e : (((z.clock t / 86400000 : Nat) : Int) - 719528) * 86400000 + ((0 * 3600000 + 0 * 60000 + 0 * 1000 + 0 : Nat) : Int) =
        z.localTime t / dayMs * dayMs := by unfold dayMs; omega
    simp only [hd, hmsMilliOpt]
    rw [if_pos (by omega)]
    simp only [e]
    cases z.fromLocal (z.localTime t / dayMs * dayMs) <;> rfl
  · unfold endOfHour luxonLocal endOf
    have e : (((z.clock t / 86400000 : Nat) : Int) - 719528) * 86400000 +
        ((z.clock t / 3600000 % 24 * 3600000 + 0 * 60000 + 0 * 1000 + 0 : Nat) : Int) = z.localTime t / hourMs * hourMs := by unfold hourMs; omega
    simp only [hd, hmsMilliOpt]
    rw [if_pos (by omega)]
    simp only [e]
    cases z.fromLocal (z.localTime t / hourMs * hourMs) <;> rfl

/-- **C209.** What is said otherwise: which of the four texts, and when. -/
theorem C209_refused (z : Zone) (hz : LawfulZone z) (maxYear y m d h mi s ms : Nat) (e : Str) :
    luxonLocal z maxYear y m d h mi s ms = .error e ↔
      (¬ (y ≤ maxYear ∧ IsDate y m d) ∧ e = u!"to local datetime failed, date") ∨
      (y ≤ maxYear ∧ IsDate y m d ∧ ¬ (h < 24 ∧ mi < 60 ∧ s < 60 ∧ (ms < 1000 ∨ s = 59 ∧ ms < 2000)) ∧ e = u!"to local datetime failed, time") ∨
      (y ≤ maxYear ∧ (h < 24 ∧ mi < 60 ∧ s < 60 ∧ (ms < 1000 ∨ s = 59 ∧ ms < 2000)) ∧
        ∃ n, dayAfter n = (y, m, d) ∧
          (((∀ v, z.localTime v ≠ ((n : Int) - 719528) * 86400000 + h * 3600000 + mi * 60000 + s * 1000 + ms) ∧
              e = u!"\"to local datetime failed, local\"") ∨
            ((∃ v v', v ≠ v' ∧ z.localTime v = ((n : Int) - 719528) * 86400000 + h * 3600000 + mi * 60000 + s * 1000 + ms ∧ z.localTime v' = z.localTime v) ∧
              e = u!"\"to local datetime failed, range\""))) := by
  unfold luxonLocal
  cases hy : ymdOpt maxYear y m d with
  | none =>
    have hy := (ymdOpt_none _ _ _ _).1 hy
    simp only [Except.error.injEq]
    constructor
    · intro h; exact .inl ⟨hy, h.symm⟩
    · rintro (⟨_, h⟩ | ⟨h1, h2, _⟩ | ⟨h1, _, n, hn, _⟩)
      · exact h.symm
      · exact absurd ⟨h1, h2⟩ hy
      · have := (dayAfter_spec n).1
        rw [hn] at this
        exact absurd ⟨h1, this⟩ hy
  | some n =>
    obtain ⟨h1, h2⟩ := (ymdOpt_some _ _ _ _ _).1 hy
    have hd : IsDate y m d := by have := (dayAfter_spec n).1; rw [h2] at this; exact this
    have huniq : ∀ n', dayAfter n' = (y, m, d) → n' = n := fun n' h' =>
      ((dayNumber_dayAfter hd n').1 h').symm.trans ((dayNumber_dayAfter hd n).1 h2)
    simp only [hmsMilliOpt]
    by_cases hc : h < 24 ∧ mi < 60 ∧ s < 60 ∧ (ms < 1000 ∨ s = 59 ∧ ms < 2000)
    · rw [if_pos hc]
      simp only
      have hl : ((n : Int) - 719528) * 86400000 + ((h * 3600000 + mi * 60000 + s * 1000 + ms : Nat) : Int) =
          ((n : Int) - 719528) * 86400000 + h * 3600000 + mi * 60000 + s * 1000 + ms := by omega
      rw [hl]
      have hout : ∀ {P : Nat → Prop}, (∃ n', dayAfter n' = (y, m, d) ∧ P n') ↔ P n :=
        ⟨fun ⟨n', a, b⟩ => huniq n' a ▸ b, fun b => ⟨n, h2, b⟩⟩
      rw [hout]
      generalize ((n : Int) - 719528) * 86400000 + h * 3600000 + mi * 60000 + s * 1000 + ms = L
      have hzl := hz L
      have hy' : y ≤ maxYear ∧ IsDate y m d := ⟨h1, hd⟩
      simp only [hy', not_true_eq_false, false_and, false_or, hc, and_self, true_and]
      cases hf : z.fromLocal L with
      | none =>
        rw [hf] at hzl
        simp only [Except.error.injEq]
        constructor
        · intro h; exact .inl ⟨hzl, h.symm⟩
        · rintro (⟨_, h⟩ | ⟨⟨v, _, _, h, _⟩, _⟩)
          · exact h.symm
          · exact absurd h (hzl v)
      | single u =>
        rw [hf] at hzl
        simp only [reduceCtorEq, false_iff]
        rintro (⟨h, _⟩ | ⟨⟨v, v', hne, h, h'⟩, _⟩)
        · exact h u ((hzl u).2 rfl)
        · exact hne (((hzl v).1 h).trans ((hzl v').1 (h'.trans h)).symm)
      | ambiguous =>
        rw [hf] at hzl
        obtain ⟨a, b, hab, ha, hb⟩ := hzl
        simp only [Except.error.injEq]
        constructor
        · intro h; exact .inr ⟨⟨a, b, hab, ha, hb.trans ha.symm⟩, h.symm⟩
        · rintro (⟨h, _⟩ | ⟨_, h⟩)
          · exact absurd ha (h a)
          · exact h.symm
    · rw [if_neg hc]
      simp only [Except.error.injEq]
      constructor
      · intro h; exact .inr (.inl ⟨h1, hd, hc, h.symm⟩)
      · rintro (⟨h, _⟩ | ⟨_, _, _, h⟩ | ⟨_, h, _⟩)
        · exact absurd ⟨h1, hd⟩ h
        · exact h.symm
        · exact absurd h hc

/-- The time, or the text. -/
def luxonText (r : Except Str Int) : Int × Str :=
  match r with
  | .ok t => (t, [])
  | .error e => (0, e)

/-- C209: 2024-02-29 22:30:00.007 in a zone two hours ahead; the 29th of February of another year; 24 o'clock; a leap second; the end of that day and hour. -/
example : luxonText (luxonLocal (fixedZone 7200000) 262142 2024 2 29 22 30 0 7) = (1709238600007, []) ∧
    luxonText (luxonLocal (fixedZone 7200000) 262142 2023 2 29 22 30 0 7) = (0, u!"to local datetime failed, date") ∧
    luxonText (luxonLocal (fixedZone 7200000) 262142 2023 13 1 0 0 0 0) = (0, u!"to local datetime failed, date") ∧
    luxonText (luxonLocal (fixedZone 7200000) 262142 2024 2 29 24 0 0 0) = (0, u!"to local datetime failed, time") ∧
    luxonText (luxonLocal (fixedZone 7200000) 262142 2024 2 29 22 30 59 1999) = (1709238660999, []) ∧
    endOfDay (fixedZone 7200000) 262142 1709238600007 = some 1709244000000 ∧
    endOfHour (fixedZone 7200000) 262142 1709238600007 = some 1709240400000 := by decide +kernel

/-- C209: the hypotheses of `C209_round_trip` and `C209_ends` at that time. -/
example : LawfulZone (fixedZone 7200000) ∧ 0 ≤ (fixedZone 7200000).localTime 1709238600007 + 719528 * 86400000 ∧
    (clockDate ((fixedZone 7200000).clock 1709238600007)).year ≤ 262142 ∧
    ∀ v, (fixedZone 7200000).localTime v = (fixedZone 7200000).localTime 1709238600007 → v = 1709238600007 :=
  ⟨fixedZone_lawful _, by decide, by decide +kernel, fun v h => by simp only [fixedZone, Zone.localTime] at h; omega⟩

end Httpd
