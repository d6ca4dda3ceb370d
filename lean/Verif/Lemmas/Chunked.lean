import Verif.Lemmas.Body
import Verif.Lemmas.RustInt
import Verif.Lemmas.Bytes
import Verif.Lemmas.HeadMore
import Verif.Spec.Chunked
/-! # Facts about chunk sizes -/

namespace Httpd
open Spec

theorem dropWhile_spec {α : Type} (p : α → Bool) (l : List α) :
    ∃ a, l = a ++ l.dropWhile p ∧ (∀ x ∈ a, p x = true) ∧ ∀ x, (l.dropWhile p).head? = some x → p x = false := by
  induction l with
  | nil => exact ⟨[], by simp⟩
  | cons x l ih =>
    by_cases h : p x = true
    · obtain ⟨a, h1, h2, h3⟩ := ih
      refine ⟨x :: a, ?_, ?_, ?_⟩
      · rw [List.dropWhile_cons_of_pos h, List.cons_append, ← h1]
      · simpa [h] using h2
      · rw [List.dropWhile_cons_of_pos h]; exact h3
    · refine ⟨[], ?_, by simp, ?_⟩
      · rw [List.dropWhile_cons_of_neg h]; rfl
      · rw [List.dropWhile_cons_of_neg h]
        intro y hy
        simp only [List.head?_cons, Option.some.injEq] at hy
        subst hy; simpa using h

theorem dropWhile_all_append {α : Type} (p : α → Bool) (a l : List α) (h : ∀ x ∈ a, p x = true)
    (hl : ∀ x, l.head? = some x → p x = false) : (a ++ l).dropWhile p = l := by
  induction a with
  | nil =>
    cases l with
    | nil => rfl
    | cons x l => simp only [List.nil_append]; rw [List.dropWhile_cons_of_neg (by simp [hl x rfl])]
  | cons x a ih =>
    rw [List.cons_append, List.dropWhile_cons_of_pos (h x (by simp))]
    exact ih (fun y hy => h y (by simp [hy]))

theorem trimUnicode_split (s : List Nat) : ∃ a b, s = a ++ trimUnicode s ++ b ∧
    (∀ x ∈ a, isUnicodeWhitespace x = true) ∧ (∀ x ∈ b, isUnicodeWhitespace x = true) := by
  obtain ⟨a, h1, h2, _⟩ := dropWhile_spec isUnicodeWhitespace s
  obtain ⟨b, g1, g2, _⟩ := dropWhile_spec isUnicodeWhitespace (s.dropWhile isUnicodeWhitespace).reverse
  refine ⟨a, b.reverse, ?_, h2, by simpa using g2⟩
  have : s.dropWhile isUnicodeWhitespace = trimUnicode s ++ b.reverse := by
    rw [trimUnicode, ← List.reverse_append, ← g1, List.reverse_reverse]
  rw [List.append_assoc, ← this]; exact h1

theorem trimUnicode_pad (a s b : List Nat) (ha : ∀ x ∈ a, isUnicodeWhitespace x = true)
    (hb : ∀ x ∈ b, isUnicodeWhitespace x = true) (hne : s ≠ [])
    (hs : ∀ x ∈ s, isUnicodeWhitespace x = false) :
    trimUnicode (a ++ s ++ b) = s := by
  rw [trimUnicode, List.append_assoc, dropWhile_all_append _ _ _ ha, List.reverse_append, dropWhile_all_append, List.reverse_reverse]
  · intro x hx; exact hb x (by simpa using hx)
  · intro x hx
    apply hs
    have := List.mem_of_mem_head? hx
    simpa using this
  · intro x hx
    obtain ⟨y, ys, rfl⟩ := List.exists_cons_of_ne_nil hne
    simp only [List.cons_append, List.head?_cons, Option.some.injEq] at hx
    subst hx; exact hs _ (by simp)

theorem numeral_small {t : Bytes} {n : Nat} (h : Numeral t n) : t ≠ [] ∧ ∀ b ∈ t, b.toNat < 128 ∧ isUnicodeWhitespace b.toNat = false := by
  obtain ⟨ds, h1, h2, h3, _⟩ := h
  have key : ∀ b : Byte, IsDigit b ∨ b = 43 → b.toNat < 128 ∧ isUnicodeWhitespace b.toNat = false := by
    intro b hb
    have hr : 43 ≤ b.toNat ∧ b.toNat ≤ 57 := by
      rcases hb with hb | rfl
      · have := hb.1; have := hb.2; omega
      · decide
    refine ⟨by omega, ?_⟩
    simp only [isUnicodeWhitespace, Bool.or_eq_false_iff, Bool.and_eq_false_iff, decide_eq_false_iff_not, beq_eq_false_iff_ne]
    omega
  rcases h1 with rfl | rfl
  · exact ⟨h2, fun b hb => key b (Or.inl (h3 b hb))⟩
  · refine ⟨by simp, fun b hb => key b ?_⟩
    rw [List.mem_cons] at hb
    rcases hb with rfl | hb
    · exact Or.inr rfl
    · exact Or.inl (h3 b hb)

theorem map_ofNat_toNat (t : Bytes) : (t.map UInt8.toNat).map UInt8.ofNat = t := by
  rw [List.map_map]
  conv => rhs; rw [← List.map_id t]
  apply List.map_congr_left
  intro b _; simp

theorem parseUIntCodepoints_iff (max : Nat) (s : List Nat) (n : Nat) :
    parseUIntCodepoints max s = some n ↔ ∃ t : Bytes, s = t.map UInt8.toNat ∧ Numeral t n ∧ n ≤ max := by
  simp only [parseUIntCodepoints]
  constructor
  · intro h
    split at h
    · next hall =>
      rw [parseUInt_iff] at h
      refine ⟨s.map UInt8.ofNat, ?_, h⟩
      rw [List.map_map]
      conv => lhs; rw [← List.map_id s]
      apply List.map_congr_left
      intro x hx
      have := (List.all_eq_true.mp hall) x hx
      simp only [decide_eq_true_eq] at this
      simp only [id_eq, Function.comp_apply, UInt8.toNat_ofNat']
      omega
    · cases h
  · rintro ⟨t, rfl, h1, h2⟩
    have h3 := (numeral_small h1).2
    rw [if_pos, map_ofNat_toNat, parseUInt_iff]
    · exact ⟨h1, h2⟩
    · rw [List.all_eq_true]
      intro x hx
      rw [List.mem_map] at hx
      obtain ⟨b, hb, rfl⟩ := hx
      simpa using (h3 b hb).1

/-- A chunk-size line is accepted as `n` exactly when it is UTF-8 and consists of a decimal numeral of value `n` (in range)
between white space. -/
theorem parseChunkSize_iff (line : Bytes) (n : Nat) :
    parseChunkSize line = some n ↔ ∃ cps a t b, decodeUtf8 line = some cps ∧ cps = a ++ t.map UInt8.toNat ++ b ∧
      (∀ x ∈ a, isUnicodeWhitespace x = true) ∧ (∀ x ∈ b, isUnicodeWhitespace x = true) ∧ Numeral t n ∧ n ≤ u64Max := by
  simp only [parseChunkSize]
  constructor
  · intro h
    cases hd : decodeUtf8 line with
    | none => rw [hd] at h; cases h
    | some cps =>
      rw [hd] at h
      simp only at h
      obtain ⟨t, h1, h2, h3⟩ := (parseUIntCodepoints_iff _ _ _).mp h
      obtain ⟨a, b, g1, g2, g3⟩ := trimUnicode_split cps
      rw [h1] at g1
      exact ⟨cps, a, t, b, rfl, g1, g2, g3, h2, h3⟩
  · rintro ⟨cps, a, t, b, hd, rfl, ha, hb, hn, hle⟩
    rw [hd]
    simp only
    have hsm := numeral_small hn
    rw [trimUnicode_pad _ _ _ ha hb (by simpa using hsm.1) (by
      intro x hx
      rw [List.mem_map] at hx
      obtain ⟨y, hy, rfl⟩ := hx
      exact (hsm.2 y hy).2), parseUIntCodepoints_iff]
    exact ⟨t, rfl, hn, hle⟩

theorem decodeUtf8_digits (ds : Bytes) (h : ∀ b ∈ ds, b.toNat < 128) : decodeUtf8 (ds ++ crlf) = some ((ds ++ crlf).map UInt8.toNat) := by
  apply decodeUtf8_ascii
  intro b hb
  rw [List.mem_append] at hb
  rcases hb with hb | hb
  · have := h b hb
    rw [UInt8.lt_iff_toNat_lt]; simpa using this
  · simp only [crlf, List.mem_cons, List.not_mem_nil, or_false] at hb
    rcases hb with rfl | rfl <;> decide

theorem parseChunkSize_numeral (t : Bytes) (n : Nat) (h : Numeral t n) (hn : n ≤ u64Max) :
    parseChunkSize (t ++ crlf) = some n := by
  rw [parseChunkSize_iff]
  refine ⟨_, [], t, [13, 10], decodeUtf8_digits t (fun b hb => ((numeral_small h).2 b hb).1), by simp [crlf], by simp, ?_, h, hn⟩
  intro x hx
  simp only [List.mem_cons, List.not_mem_nil, or_false] at hx
  rcases hx with rfl | rfl <;> decide

/-- ASCII text with a character that is neither a digit, a plus sign nor white space is no chunk size. -/
theorem parseChunkSize_bad (t : Bytes) (ht : ∀ b ∈ t, b.toNat < 128) (b : Byte) (hb : b ∈ t) (h1 : ¬ IsDigit b) (h2 : b ≠ 43)
    (h3 : isUnicodeWhitespace b.toNat = false) : parseChunkSize (t ++ crlf) = none := by
  cases hp : parseChunkSize (t ++ crlf) with
  | none => rfl
  | some n =>
    exfalso
    obtain ⟨cps, a, t', b', hd, he, ha, hb', hn, _⟩ := (parseChunkSize_iff _ _).mp hp
    rw [decodeUtf8_digits t ht] at hd
    cases hd
    have : b.toNat ∈ (t ++ crlf).map UInt8.toNat := List.mem_map_of_mem (by simp [hb])
    rw [he] at this
    simp only [List.mem_append, List.mem_map] at this
    rcases this with (hm | ⟨y, hy, hye⟩) | hm
    · rw [ha _ hm] at h3; cases h3
    · have : y = b := UInt8.toNat_inj.mp hye
      subst this
      obtain ⟨ds, e1, _, e3, _⟩ := hn
      rcases e1 with rfl | rfl
      · exact h1 (e3 _ hy)
      · rw [List.mem_cons] at hy
        rcases hy with rfl | hy
        · exact h2 rfl
        · exact h1 (e3 _ hy)
    · rw [hb' _ hm] at h3; cases h3

/-! ## Hexadecimal -/

theorem hexDigit_facts : ∀ k : Fin 16, IsVisible (hexDigit k.val) ∧ (hexDigit k.val).toNat < 128 ∧
    isUnicodeWhitespace (hexDigit k.val).toNat = false ∧ hexDigit k.val ≠ 43 ∧
    (IsDigit (hexDigit k.val) ↔ k.val < 10) ∧ (k.val < 10 → (hexDigit k.val).toNat - 48 = k.val) := by decide

theorem hexDigit_fact (k : Nat) (h : k < 16) : IsVisible (hexDigit k) ∧ (hexDigit k).toNat < 128 ∧
    isUnicodeWhitespace (hexDigit k).toNat = false ∧ hexDigit k ≠ 43 ∧
    (IsDigit (hexDigit k) ↔ k < 10) ∧ (k < 10 → (hexDigit k).toNat - 48 = k) := hexDigit_facts ⟨k, h⟩

theorem hexAux_shape (fuel n : Nat) (acc : Bytes) (h : n < fuel) :
    ∃ ds, hexAux fuel n acc = ds ++ acc ∧ ds ≠ [] ∧ ∀ b ∈ ds, ∃ k, k < 16 ∧ b = hexDigit k := by
  induction fuel generalizing n acc with
  | zero => omega
  | succ fuel ih =>
    simp only [hexAux]
    split
    · next hlt => exact ⟨[hexDigit n], rfl, by simp, fun b hb => ⟨n, hlt, by simpa using hb⟩⟩
    · obtain ⟨ds, h1, h2, h3⟩ := ih (n / 16) (hexDigit (n % 16) :: acc) (by omega)
      refine ⟨ds ++ [hexDigit (n % 16)], by rw [h1]; simp, by simp, ?_⟩
      intro b hb
      rw [List.mem_append, List.mem_singleton] at hb
      rcases hb with hb | rfl
      · exact h3 b hb
      · exact ⟨n % 16, by omega, rfl⟩

theorem hex_shape (n : Nat) : hex n ≠ [] ∧ ∀ b ∈ hex n, ∃ k, k < 16 ∧ b = hexDigit k := by
  obtain ⟨ds, h1, h2, h3⟩ := hexAux_shape (n + 1) n [] (by omega)
  rw [hex, h1, List.append_nil]; exact ⟨h2, h3⟩

theorem hexAux_length (fuel n : Nat) (acc : Bytes) (l : Nat) (hl : 1 ≤ l) (h : n < 16 ^ l) :
    (hexAux fuel n acc).length ≤ l + acc.length := by
  induction fuel generalizing n acc l with
  | zero => simp [hexAux]
  | succ fuel ih =>
    simp only [hexAux]
    split
    · simp; omega
    · next h0 =>
      have hl2 : 2 ≤ l := by
        rcases Nat.lt_or_ge l 2 with h2 | h2
        · have : l = 1 := by omega
          subst this; simp at h; omega
        · exact h2
      obtain ⟨k, rfl⟩ : ∃ k, l = k + 1 := ⟨l - 1, by omega⟩
      have := ih (n / 16) (hexDigit (n % 16) :: acc) k (by omega) (by rw [Nat.pow_succ] at h; omega)
      simp only [List.length_cons] at this; omega

theorem hex_length (n : Nat) (h : n < 2 ^ 64) : (hex n).length ≤ 16 :=
  hexAux_length (n + 1) n [] 16 (by omega) (by simpa using h)

/-- Read as decimal, a hexadecimal numeral made of decimal digits only is never more than it means, and less from 16 on. -/
theorem hexAux_decValue (fuel n : Nat) (acc : Bytes) (hf : n < fuel) (hd : ∀ b ∈ hexAux fuel n acc, IsDigit b) :
    decValue (hexAux fuel n acc) ≤ n * 10 ^ acc.length + decValue acc ∧
    (16 ≤ n → decValue (hexAux fuel n acc) < n * 10 ^ acc.length + decValue acc) := by
  induction fuel generalizing n acc with
  | zero => omega
  | succ fuel ih =>
    simp only [hexAux] at hd ⊢
    split at hd
    · next hlt =>
      rw [if_pos hlt]
      have h10 := (hexDigit_fact n hlt).2.2.2.2.1.mp (hd _ (by simp))
      simp only [decValue, (hexDigit_fact n hlt).2.2.2.2.2 h10]
      exact ⟨Nat.le_refl _, fun h => by omega⟩
    · next hge =>
      rw [if_neg hge]
      have hmem : hexDigit (n % 16) ∈ hexAux fuel (n / 16) (hexDigit (n % 16) :: acc) := by
        obtain ⟨ds, h1, _⟩ := hexAux_shape fuel (n / 16) (hexDigit (n % 16) :: acc) (by omega)
        rw [h1]; simp
      have hm16 : n % 16 < 16 := by omega
      have h10 := (hexDigit_fact (n % 16) hm16).2.2.2.2.1.mp (hd _ hmem)
      obtain ⟨h1, _⟩ := ih (n / 16) (hexDigit (n % 16) :: acc) (by omega) hd
      simp only [decValue, (hexDigit_fact (n % 16) hm16).2.2.2.2.2 h10, List.length_cons, Nat.pow_succ] at h1
      have hpow : 1 ≤ 10 ^ acc.length := Nat.one_le_pow _ _ (by omega)
      have e1 : n / 16 * (10 ^ acc.length * 10) + n % 16 * 10 ^ acc.length = (n / 16 * 10 + n % 16) * 10 ^ acc.length := by
        rw [Nat.add_mul, Nat.mul_comm (10 ^ acc.length) 10, ← Nat.mul_assoc]
      have e2 : (n / 16 * 10 + n % 16) * 10 ^ acc.length + 1 * 10 ^ acc.length ≤ n * 10 ^ acc.length := by
        rw [← Nat.add_mul]
        exact Nat.mul_le_mul_right _ (by omega)
      omega

theorem hex_decValue (n : Nat) (hd : ∀ b ∈ hex n, IsDigit b) : decValue (hex n) ≤ n ∧ (16 ≤ n → decValue (hex n) < n) := by
  have := hexAux_decValue (n + 1) n [] (by omega) hd
  simpa [decValue, hex] using this

theorem hex_small : ∀ n : Fin 10, hex n.val = natToBytes n.val := by decide

end Httpd
