import Verif.Model.TimeFormat
/-!
# Encoding and decoding UTF-8
-/

namespace Httpd

/-- A Unicode scalar value (`char`). -/
def IsScalar (c : Nat) : Prop := c < 0xD800 ∨ (0xE000 ≤ c ∧ c < 0x110000)

theorem decode_enc (c : Nat) (hc : IsScalar c) (t : Bytes) :
    decodeUtf8 (encodeUtf8.enc c ++ t) = (decodeUtf8 t).map (c :: ·) := by
  unfold IsScalar at hc
  have un : ∀ n, n < 256 → (UInt8.ofNat n).toNat = n := fun n h => by simp; omega
  unfold encodeUtf8.enc
  split
  · rename_i h
    rw [List.singleton_append, decodeUtf8.eq_def]
    simp only [UInt8.lt_iff_toNat_lt, un c (by omega)]
    rw [if_pos (by simpa using h)]
  · rename_i h0
    split
    · rename_i h
      simp only [List.cons_append, List.nil_append]
      rw [decodeUtf8.eq_def]
      simp only [UInt8.lt_iff_toNat_lt, UInt8.le_iff_toNat_le, isCont, Bool.and_eq_true, decide_eq_true_eq, un (0xC0 + c / 64) (by omega), un (0x80 + c % 64) (by omega)]
      simp
      rw [if_neg (by omega), if_pos (by omega), if_pos (by omega)]
      congr 2
      funext x
      congr 1
      omega
    · rename_i h1
      split
      · rename_i h
        simp only [List.cons_append, List.nil_append]
        rw [decodeUtf8.eq_def]
        simp only [UInt8.lt_iff_toNat_lt, UInt8.le_iff_toNat_le, isCont, Bool.and_eq_true, decide_eq_true_eq, ← UInt8.toNat_inj, Bool.not_eq_true', Bool.and_eq_false_iff, beq_eq_false_iff_ne, decide_eq_false_iff_not, Ne, un (0xE0 + c / 4096) (by omega), un (0x80 + c / 64 % 64) (by omega), un (0x80 + c % 64) (by omega)]
        simp
        rw [if_neg (by omega), if_neg (by omega), if_pos (by omega), if_pos (by omega)]
        congr 2
        funext x
        congr 1
        omega
      · rename_i h
        simp only [List.cons_append, List.nil_append]
        rw [decodeUtf8.eq_def]
        simp only [UInt8.lt_iff_toNat_lt, UInt8.le_iff_toNat_le, isCont, Bool.and_eq_true, decide_eq_true_eq, ← UInt8.toNat_inj, Bool.not_eq_true', Bool.and_eq_false_iff, beq_eq_false_iff_ne, decide_eq_false_iff_not, Ne, un (0xF0 + c / 262144) (by omega), un (0x80 + c / 4096 % 64) (by omega), un (0x80 + c / 64 % 64) (by omega), un (0x80 + c % 64) (by omega)]
        simp
        rw [if_neg (by omega), if_neg (by omega), if_neg (by omega), if_pos (by omega), if_pos (by omega)]
        congr 2
        funext x
        congr 1
        omega

theorem decode_encode (s : Str) (h : ∀ c ∈ s, IsScalar c) : decodeUtf8 (encodeUtf8 s) = some s := by
  unfold encodeUtf8
  induction s with
  | nil => simp [decodeUtf8]
  | cons c s ih =>
    rw [List.map_cons, List.flatten_cons, decode_enc c (h c List.mem_cons_self), ih fun c hc => h c (List.mem_cons_of_mem _ hc)]
    rfl

end Httpd
