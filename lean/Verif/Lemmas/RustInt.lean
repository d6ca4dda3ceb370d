import Verif.Base.RustInt
import Verif.Spec.Number
/-! # Facts about integer parsing and printing -/

namespace Httpd
open Spec

theorem digitVal_some (b : Byte) (d : Nat) : digitVal b = some d ↔ IsDigit b ∧ d = b.toNat - 48 := by
  simp only [digitVal, IsDigit]
  by_cases h : 48 ≤ b.toNat ∧ b.toNat ≤ 57
  · have : (48 ≤ b && b ≤ 57) = true := by simp [UInt8.le_iff_toNat_le, h]
    simp [this, h, eq_comm]
  · have : (48 ≤ b && b ≤ 57) = false := by
      rw [Bool.eq_false_iff]; simpa [UInt8.le_iff_toNat_le] using h
    simp [this, h]

theorem parseDigits_iff (max : Nat) (ds : Bytes) (acc n : Nat) (h : acc ≤ max) :
    parseDigits max ds acc = some n ↔
      (∀ b ∈ ds, IsDigit b) ∧ acc * 10 ^ ds.length + decValue ds = n ∧ n ≤ max := by
  induction ds generalizing acc with
  | nil =>
    simp only [parseDigits, List.not_mem_nil, false_imp_iff, implies_true, List.length_nil, Nat.pow_zero, Nat.mul_one,
      decValue, Nat.add_zero, true_and, Option.some.injEq]
    constructor
    · rintro rfl; exact ⟨rfl, h⟩
    · exact fun h => h.1
  | cons b ds ih =>
    simp only [parseDigits]
    cases hd : digitVal b with
    | none =>
      simp only [reduceCtorEq, false_iff]
      rintro ⟨h1, _⟩
      have := (digitVal_some b _).mpr ⟨h1 b (by simp), rfl⟩
      rw [hd] at this; cases this
    | some d =>
      obtain ⟨h1, rfl⟩ := (digitVal_some b _).mp hd
      have hpow : 1 ≤ 10 ^ ds.length := Nat.one_le_pow _ _ (by omega)
      have key : acc * 10 ^ (b :: ds).length + decValue (b :: ds) =
          (acc * 10 + (b.toNat - 48)) * 10 ^ ds.length + decValue ds := by
        simp only [decValue, List.length_cons, Nat.pow_succ, Nat.add_mul]
        have : acc * (10 ^ ds.length * 10) = acc * 10 * 10 ^ ds.length := by
          rw [Nat.mul_comm (10 ^ ds.length) 10, Nat.mul_assoc]
        omega
      have hbig : acc * 10 + (b.toNat - 48) ≤ (acc * 10 + (b.toNat - 48)) * 10 ^ ds.length :=
        Nat.le_mul_of_pos_right _ hpow
      rw [key]
      simp only
      split
      · simp only [reduceCtorEq, false_iff]; rintro ⟨_, h2, h3⟩; omega
      · split
        · simp only [reduceCtorEq, false_iff]; rintro ⟨_, h2, h3⟩; omega
        · rw [ih _ (by omega)]
          simp [h1]

/-- `str::parse` accepts exactly the numerals in range. -/
theorem parseUInt_iff (max : Nat) (s : Bytes) (n : Nat) : parseUInt max s = some n ↔ Numeral s n ∧ n ≤ max := by
  unfold parseUInt Numeral
  split
  · simp
  · simp only [reduceCtorEq, false_iff]
    rintro ⟨⟨ds, h | h, h2, h3, _⟩, _⟩
    · subst h; exact absurd (h3 43 (by simp)) (by decide)
    · cases ds with
      | nil => exact h2 rfl
      | cons _ _ => simp at h
  · simp only [reduceCtorEq, false_iff]
    rintro ⟨⟨ds, h | h, h2, h3, _⟩, _⟩
    · subst h; exact absurd (h3 45 (by simp)) (by decide)
    · simp at h
  · next ds hne =>
    rw [parseDigits_iff _ _ _ _ (by omega)]
    simp only [Nat.zero_mul, Nat.zero_add]
    constructor
    · rintro ⟨h1, h2, h3⟩
      refine ⟨⟨ds, Or.inr rfl, ?_, h1, h2⟩, h3⟩
      rintro rfl
      exact hne rfl
    · rintro ⟨⟨ds', h | h, h2, h3, h4⟩, h5⟩
      · subst h; exact absurd (h3 43 (by simp)) (by decide)
      · cases h; exact ⟨h3, h4, h5⟩
  · next hne h43 h45 hcons =>
    rw [parseDigits_iff _ _ _ _ (by omega)]
    simp only [Nat.zero_mul, Nat.zero_add]
    constructor
    · rintro ⟨h1, h2, h3⟩
      exact ⟨⟨s, Or.inl rfl, hne, h1, h2⟩, h3⟩
    · rintro ⟨⟨ds', h | h, h2, h3, h4⟩, h5⟩
      · subst h; exact ⟨h3, h4, h5⟩
      · exact absurd h (hcons ds')

theorem parseUInt_none (max : Nat) (s : Bytes) : parseUInt max s = none ↔ ∀ n, Numeral s n → max < n := by
  constructor
  · intro h n hn
    apply Nat.lt_of_not_le
    intro hle
    rw [(parseUInt_iff max s n).mpr ⟨hn, hle⟩] at h
    cases h
  · intro h
    cases hp : parseUInt max s with
    | none => rfl
    | some n =>
      obtain ⟨h1, h2⟩ := (parseUInt_iff max s n).mp hp
      have := h n h1; omega

/-! ## Printing -/

theorem natDigitsAux_spec (fuel n : Nat) (acc : Bytes) (h : n < fuel) :
    decValue (natDigitsAux fuel n acc) = n * 10 ^ acc.length + decValue acc ∧
    (∃ ds, natDigitsAux fuel n acc = ds ++ acc ∧ ds ≠ [] ∧ (∀ b ∈ ds, IsDigit b)) := by
  induction fuel generalizing n acc with
  | zero => omega
  | succ fuel ih =>
    have hd : IsDigit (UInt8.ofNat (48 + n % 10)) := by
      have : n % 10 < 10 := Nat.mod_lt _ (by omega)
      have h2 : (48 + n % 10) % 256 = 48 + n % 10 := Nat.mod_eq_of_lt (by omega)
      simp only [IsDigit, UInt8.toNat_ofNat']
      omega
    have hv : (UInt8.ofNat (48 + n % 10)).toNat - 48 = n % 10 := by
      have : n % 10 < 10 := Nat.mod_lt _ (by omega)
      have h2 : (48 + n % 10) % 256 = 48 + n % 10 := Nat.mod_eq_of_lt (by omega)
      simp only [UInt8.toNat_ofNat']
      omega
    simp only [natDigitsAux]
    split
    · next h0 =>
      refine ⟨?_, [_], rfl, by simp, by simpa using hd⟩
      simp only [decValue, hv]
      have : n % 10 = n := by omega
      rw [this]
    · next h0 =>
      obtain ⟨h1, ds, h2, h3, h4⟩ := ih (n / 10) (UInt8.ofNat (48 + n % 10) :: acc) (by omega)
      refine ⟨?_, ds ++ [UInt8.ofNat (48 + n % 10)], by rw [h2]; simp only [List.append_assoc, List.singleton_append], by simp, ?_⟩
      · rw [h1]
        simp only [decValue, hv, List.length_cons, Nat.pow_succ]
        have h10 : n / 10 * 10 + n % 10 = n := by omega
        rw [← Nat.add_assoc]
        congr 1
        rw [Nat.mul_comm (10 ^ _) 10, ← Nat.mul_assoc, ← Nat.add_mul, h10]
      · intro b hb
        simp only [List.mem_append, List.mem_singleton] at hb
        rcases hb with hb | rfl
        · exact h4 b hb
        · exact hd

theorem natToBytes_digits (n : Nat) : ∀ b ∈ natToBytes n, IsDigit b := by
  obtain ⟨_, ds, h2, _, h4⟩ := natDigitsAux_spec (n + 1) n [] (by omega)
  rw [natToBytes, h2, List.append_nil]; exact h4

theorem natToBytes_ne (n : Nat) : natToBytes n ≠ [] := by
  obtain ⟨_, ds, h2, h3, _⟩ := natDigitsAux_spec (n + 1) n [] (by omega)
  rw [natToBytes, h2, List.append_nil]; exact h3

theorem natToBytes_value (n : Nat) : decValue (natToBytes n) = n := by
  obtain ⟨h1, _⟩ := natDigitsAux_spec (n + 1) n [] (by omega)
  rw [natToBytes, h1]; simp [decValue]

theorem natToBytes_numeral (n : Nat) : Numeral (natToBytes n) n :=
  ⟨_, Or.inl rfl, natToBytes_ne n, natToBytes_digits n, natToBytes_value n⟩

theorem parseUInt_natToBytes (max n : Nat) (h : n ≤ max) : parseUInt max (natToBytes n) = some n :=
  (parseUInt_iff _ _ _).mpr ⟨natToBytes_numeral n, h⟩

theorem natToBytes_inj {a b : Nat} (h : natToBytes a = natToBytes b) : a = b := by
  rw [← natToBytes_value a, h, natToBytes_value]

/-- A numeral of length `l` is below `10 ^ l`. -/
theorem decValue_lt (ds : Bytes) (h : ∀ b ∈ ds, IsDigit b) : decValue ds < 10 ^ ds.length := by
  induction ds with
  | nil => simp [decValue]
  | cons d ds ih =>
    have h1 := ih (fun b hb => h b (by simp [hb]))
    have h2 : d.toNat - 48 ≤ 9 := by have := (h d (by simp)).2; omega
    have h3 := Nat.mul_le_mul_right (10 ^ ds.length) h2
    simp only [decValue, List.length_cons, Nat.pow_succ]
    omega

/-- The printed form is short: a number below `10 ^ l` (`l ≥ 1`) has at most `l` digits. -/
theorem natDigitsAux_length (fuel n : Nat) (acc : Bytes) (l : Nat) (hl : 1 ≤ l) (h : n < 10 ^ l) :
    (natDigitsAux fuel n acc).length ≤ l + acc.length := by
  induction fuel generalizing n acc l with
  | zero => simp [natDigitsAux]
  | succ fuel ih =>
    simp only [natDigitsAux]
    split
    · simp; omega
    · next h0 =>
      have hl2 : 2 ≤ l := by
        rcases Nat.lt_or_ge l 2 with h2 | h2
        · have : l = 1 := by omega
          subst this; simp at h; omega
        · exact h2
      obtain ⟨k, rfl⟩ : ∃ k, l = k + 1 := ⟨l - 1, by omega⟩
      have := ih (n / 10) (UInt8.ofNat (48 + n % 10) :: acc) k (by omega) (by rw [Nat.pow_succ] at h; omega)
      simp only [List.length_cons] at this; omega

theorem natToBytes_length (n l : Nat) (hl : 1 ≤ l) (h : n < 10 ^ l) : (natToBytes n).length ≤ l := by
  exact natDigitsAux_length (n + 1) n [] l hl h

end Httpd
