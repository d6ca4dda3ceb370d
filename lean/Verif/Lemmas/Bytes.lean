import Verif.Base.RustInt
import Verif.Spec.Head
/-! # Lemmas about bytes, trimming, UTF-8 and lower-casing -/

namespace Httpd
open Spec

theorem isText_iff (b : Byte) : isText b = true ↔ IsText b := by
  refine forall_byte (P := fun b => isText b = true ↔ IsText b) ?_ b
  decide +kernel

theorem all_isText_iff (s : Bytes) : s.all isText = true ↔ ∀ b ∈ s, IsText b := by
  simp [List.all_eq_true, isText_iff]

theorem Spec.IsVisible.text {b : Byte} (h : IsVisible b) : IsText b := by
  revert h
  refine forall_byte (P := fun b => IsVisible b → IsText b) ?_ b
  decide +kernel

theorem Spec.IsVisible.ne_space {b : Byte} (h : IsVisible b) : b ≠ 32 := by
  rintro rfl; revert h; unfold IsVisible; decide

theorem Spec.IsText.ne_lf {b : Byte} (h : IsText b) : b ≠ 10 := by
  rintro rfl; revert h; unfold IsText; decide

theorem Spec.IsText.lt_128 {b : Byte} (h : IsText b) : b < 0x80 := by
  revert h
  refine forall_byte (P := fun b => IsText b → b < 0x80) ?_ b
  decide +kernel

theorem map_toAsciiLower (s : Bytes) : s.map toAsciiLower = lower s := by
  unfold lower
  apply List.map_congr_left
  intro b _
  unfold toAsciiLower
  by_cases h : 65 ≤ b ∧ b ≤ 90
  · simp [h.1, h.2]
  · rw [if_neg h, if_neg]; simpa using h

theorem toAsciiLower_isText (b : Byte) (h : IsText b) : IsText (toAsciiLower b) := by
  revert h
  refine forall_byte (P := fun b => IsText b → IsText (toAsciiLower b)) ?_ b
  decide +kernel

theorem toAsciiLower_space (b : Byte) : toAsciiLower b = 32 ↔ b = 32 := by
  refine forall_byte (P := fun b => toAsciiLower b = 32 ↔ b = 32) ?_ b
  decide +kernel

theorem toAsciiLower_not_upper (b : Byte) : ¬ (65 ≤ toAsciiLower b ∧ toAsciiLower b ≤ 90) := by
  refine forall_byte (P := fun b => ¬ (65 ≤ toAsciiLower b ∧ toAsciiLower b ≤ 90)) ?_ b
  decide +kernel

theorem toAsciiLower_idem (b : Byte) : toAsciiLower (toAsciiLower b) = toAsciiLower b := by
  refine forall_byte (P := fun b => toAsciiLower (toAsciiLower b) = toAsciiLower b) ?_ b
  decide +kernel

/-! ## trimming -/

theorem dropWhile_replicate_append (n : Nat) (s : Bytes) :
    (List.replicate n (32 : Byte) ++ s).dropWhile (· == 32) = s.dropWhile (· == 32) := by
  induction n with
  | zero => simp
  | succ n ih => simp [List.replicate_succ, ih]

theorem dropWhile_eq_self_of_head (s : Bytes) (h : s.head? ≠ some 32) : s.dropWhile (· == 32) = s := by
  cases s with
  | nil => rfl
  | cons b s =>
    have : ¬ b = 32 := by simpa using h
    simp [this]

theorem trimSp_pad (pre post : Nat) (v : Bytes) (h1 : v.head? ≠ some 32) (h2 : v.getLast? ≠ some 32) :
    trimSp (List.replicate pre 32 ++ v ++ List.replicate post 32) = v := by
  unfold trimSp trimStartSp trimEndSp
  rw [List.append_assoc, dropWhile_replicate_append]
  cases v with
  | nil =>
    have : (([] : Bytes) ++ List.replicate post 32).dropWhile (· == 32) = [] := by
      have := dropWhile_replicate_append post []
      simpa using this
    rw [this]; rfl
  | cons b v =>
    rw [dropWhile_eq_self_of_head (b :: v ++ List.replicate post 32) (by simpa using h1)]
    rw [List.reverse_append, List.reverse_replicate, dropWhile_replicate_append, dropWhile_eq_self_of_head]
    · simp
    · rw [List.head?_reverse]; exact h2

theorem trimSp_self (v : Bytes) (h1 : v.head? ≠ some 32) (h2 : v.getLast? ≠ some 32) : trimSp v = v := by
  have := trimSp_pad 0 0 v h1 h2
  simpa using this

theorem trimStartSp_sublist (s : Bytes) : (trimStartSp s).Sublist s := List.dropWhile_sublist _

theorem trimEndSp_sublist (s : Bytes) : (trimEndSp s).Sublist s := by
  have h := List.Sublist.reverse (List.dropWhile_sublist (fun x : Byte => x == 32) (l := s.reverse))
  rw [List.reverse_reverse] at h
  exact h

theorem trimSp_sublist (s : Bytes) : (trimSp s).Sublist s :=
  (trimEndSp_sublist _).trans (trimStartSp_sublist _)

theorem trimSp_length_le (s : Bytes) : (trimSp s).length ≤ s.length := (trimSp_sublist s).length_le

theorem head?_dropWhile_ne (s : Bytes) : (s.dropWhile (· == 32)).head? ≠ some 32 := by
  induction s with
  | nil => simp
  | cons b s ih =>
    rw [List.dropWhile_cons]
    split
    · exact ih
    · next h => simpa using h

theorem trimSp_getLast (s : Bytes) : (trimSp s).getLast? ≠ some 32 := by
  unfold trimSp trimEndSp
  rw [List.getLast?_reverse]
  exact head?_dropWhile_ne _

theorem trimEndSp_head (s : Bytes) (h : s.head? ≠ some 32) : (trimEndSp s).head? ≠ some 32 := by
  -- trimming the end keeps a prefix
  have hpre : ∃ t, s = trimEndSp s ++ t := by
    unfold trimEndSp
    refine ⟨(s.reverse.takeWhile (· == 32)).reverse, ?_⟩
    rw [← List.reverse_append, List.takeWhile_append_dropWhile, List.reverse_reverse]
  obtain ⟨t, ht⟩ := hpre
  cases hh : trimEndSp s with
  | nil => simp
  | cons b x =>
    rw [hh] at ht
    rw [ht] at h
    simpa using h

theorem trimSp_head (s : Bytes) : (trimSp s).head? ≠ some 32 :=
  trimEndSp_head _ (head?_dropWhile_ne _)

/-! ## UTF-8 -/

theorem decodeUtf8_ascii (s : Bytes) (h : ∀ b ∈ s, b < 0x80) : decodeUtf8 s = some (s.map UInt8.toNat) := by
  induction s with
  | nil => simp [decodeUtf8]
  | cons b s ih =>
    have hb := h b (by simp)
    unfold decodeUtf8
    rw [if_pos hb, ih (fun x hx => h x (by simp [hx]))]
    rfl

end Httpd
