import Verif.Model.Handshake
import Verif.Spec.Handshake
import Verif.Props.Services
import Verif.Props.RespWriter
/-!
# C163-: the WebSocket handshake, with SHA-1 and base64
-/

namespace Httpd

open Spec MultiMap

/-! ## The compression function -/

theorem rotl_one (x : UInt32) : (rotl x 1).toBitVec = x.toBitVec.rotateLeft 1 := by
  simp [rotl, BitVec.rotateLeft_def]

theorem rotl_five (x : UInt32) : (rotl x 5).toBitVec = x.toBitVec.rotateLeft 5 := by
  simp [rotl, BitVec.rotateLeft_def]

theorem rotl_thirty (x : UInt32) : (rotl x 30).toBitVec = x.toBitVec.rotateLeft 30 := by
  simp [rotl, BitVec.rotateLeft_def]

theorem choice_eq (x y z : BitVec 32) : z ^^^ (x &&& (y ^^^ z)) = (x &&& y) ^^^ (~~~x &&& z) := by
  apply BitVec.eq_of_getLsbD_eq
  intro i hi
  simp only [BitVec.getLsbD_xor, BitVec.getLsbD_and, BitVec.getLsbD_not, hi, decide_true, Bool.true_and]
  cases x.getLsbD i <;> cases y.getLsbD i <;> cases z.getLsbD i <;> rfl

theorem roundFun_bv (t : Nat) (b c d : UInt32) : (roundFun t b c d).toBitVec = Sha1.f t b.toBitVec c.toBitVec d.toBitVec := by
  have e1 : t ≤ 19 ↔ t < 20 := by omega
  have e2 : t ≤ 39 ↔ t < 40 := by omega
  have e3 : t ≤ 59 ↔ t < 60 := by omega
  simp only [roundFun, Sha1.f, e1, e2, e3]
  split
  · simp [choice_eq]
  · split
    · simp
    · split <;> simp

theorem roundConst_bv (t : Nat) : (roundConst t).toBitVec = Sha1.K t := by
  have e1 : t ≤ 19 ↔ t < 20 := by omega
  have e2 : t ≤ 39 ↔ t < 40 := by omega
  have e3 : t ≤ 59 ↔ t < 60 := by omega
  simp only [roundConst, Sha1.K, e1, e2, e3]
  split
  · rfl
  · split
    · rfl
    · split <;> rfl

theorem word_bv (a b c d : Byte) :
    (word a b c d).toBitVec = BitVec.ofNat 32 (a.toNat * 2 ^ 24 + b.toNat * 2 ^ 16 + c.toNat * 2 ^ 8 + d.toNat) := by
  apply BitVec.eq_of_toNat_eq
  have ha := a.toNat_lt; have hb := b.toNat_lt; have hc := c.toNat_lt; have hd := d.toNat_lt
  have h1 : (a.toUInt32 <<< 24).toNat = a.toNat * 2 ^ 24 := by
    simp [Nat.shiftLeft_eq]; omega
  have h2 : (b.toUInt32 <<< 16).toNat = b.toNat * 2 ^ 16 := by
    simp [Nat.shiftLeft_eq]; omega
  have h3 : (c.toUInt32 <<< 8).toNat = c.toNat * 2 ^ 8 := by
    simp [Nat.shiftLeft_eq]; omega
  have h4 : d.toUInt32.toNat = d.toNat := by simp
  have o1 : (a.toNat * 2 ^ 24 ||| b.toNat * 2 ^ 16) = a.toNat * 2 ^ 24 + b.toNat * 2 ^ 16 := by
    rw [Nat.mul_comm a.toNat]; exact (Nat.two_pow_add_eq_or_of_lt (by omega) _).symm
  have o2 : ((a.toNat * 2 ^ 24 + b.toNat * 2 ^ 16) ||| c.toNat * 2 ^ 8) = a.toNat * 2 ^ 24 + b.toNat * 2 ^ 16 + c.toNat * 2 ^ 8 := by
    have e : a.toNat * 2 ^ 24 + b.toNat * 2 ^ 16 = 2 ^ 16 * (a.toNat * 2 ^ 8 + b.toNat) := by omega
    rw [e]; exact (Nat.two_pow_add_eq_or_of_lt (by omega) _).symm
  have o3 : ((a.toNat * 2 ^ 24 + b.toNat * 2 ^ 16 + c.toNat * 2 ^ 8) ||| d.toNat) =
      a.toNat * 2 ^ 24 + b.toNat * 2 ^ 16 + c.toNat * 2 ^ 8 + d.toNat := by
    have e : a.toNat * 2 ^ 24 + b.toNat * 2 ^ 16 + c.toNat * 2 ^ 8 = 2 ^ 8 * (a.toNat * 2 ^ 16 + b.toNat * 2 ^ 8 + c.toNat) := by omega
    rw [e]; exact (Nat.two_pow_add_eq_or_of_lt (by omega) _).symm
  have : (word a b c d).toNat = a.toNat * 2 ^ 24 + b.toNat * 2 ^ 16 + c.toNat * 2 ^ 8 + d.toNat := by
    unfold word
    rw [UInt32.toNat_or, UInt32.toNat_or, UInt32.toNat_or, h1, h2, h3, h4, o1, o2, o3]
  rw [UInt32.toNat_toBitVec, this, BitVec.toNat_ofNat, Nat.mod_eq_of_lt (by omega)]

/-- The working variables as bit vectors. -/
def ShaState.bv (s : ShaState) : Sha1.Vars := ⟨s.a.toBitVec, s.b.toBitVec, s.c.toBitVec, s.d.toBitVec, s.e.toBitVec⟩

/-- The schedule computed with a window of 16 words is that of the standard. -/
theorem schedule_spec (block : Nat → Sha1.Word) (n t : Nat) (ws : List UInt32)
    (h : ws.map UInt32.toBitVec = (List.range 16).map (fun i => Sha1.W block (t + i))) :
    (schedule n ws).map UInt32.toBitVec = (List.range n).map (fun i => Sha1.W block (t + i)) := by
  induction n generalizing t ws with
  | zero => rfl
  | succ n ih =>
    have hg : ∀ i, i < 16 → (ws.getD i 0).toBitVec = Sha1.W block (t + i) := by
      intro i hi
      have : (ws.map UInt32.toBitVec)[i]? = some (Sha1.W block (t + i)) := by
        rw [h]; simp [hi]
      rw [List.getElem?_map] at this
      cases hx : ws[i]? with
      | none => rw [hx] at this; cases this
      | some x =>
        rw [hx] at this
        simp only [Option.map_some, Option.some.injEq] at this
        simp [hx, this]
    have hlen : ws.length = 16 := by
      have := congrArg List.length h
      simpa using this
    have hnew : (rotl (ws.getD 13 0 ^^^ ws.getD 8 0 ^^^ ws.getD 2 0 ^^^ ws.getD 0 0) 1).toBitVec = Sha1.W block (t + 16) := by
      rw [rotl_one]
      simp only [UInt32.toBitVec_xor]
      rw [hg 13 (by omega), hg 8 (by omega), hg 2 (by omega), hg 0 (by omega)]
      conv => rhs; unfold Sha1.W
      rw [if_neg (by omega)]
      have e1 : t + 16 - 3 = t + 13 := by omega
      have e2 : t + 16 - 8 = t + 8 := by omega
      have e3 : t + 16 - 14 = t + 2 := by omega
      have e4 : t + 16 - 16 = t + 0 := by omega
      rw [e1, e2, e3, e4]
    unfold schedule
    have hhead : (ws.headD 0).toBitVec = Sha1.W block t := by
      have := hg 0 (by omega)
      cases ws with
      | nil => simp at hlen
      | cons w ws => simpa using this
    have hnext : (ws.tail ++ [rotl (ws.getD 13 0 ^^^ ws.getD 8 0 ^^^ ws.getD 2 0 ^^^ ws.getD 0 0) 1]).map UInt32.toBitVec =
        (List.range 16).map (fun i => Sha1.W block (t + 1 + i)) := by
      apply List.ext_getElem
      · simp [hlen]
      · intro i h1 h2
        have hi : i < 16 := by simpa using h2
        by_cases hi15 : i < 15
        · have := hg (i + 1) (by omega)
          simp only [List.map_append, List.getElem_map, List.getElem_range]
          rw [List.getElem_append_left (by simp [hlen]; omega)]
          simp only [List.getElem_map, List.getElem_tail]
          have hget : ws.getD (i + 1) 0 = ws[i + 1]'(by omega) := by
            rw [List.getD_eq_getElem?_getD, List.getElem?_eq_getElem (by omega)]; rfl
          rw [hget] at this
          rw [this]
          congr 1; omega
        · have : i = 15 := by omega
          subst this
          simp only [List.map_append, List.getElem_map, List.getElem_range]
          rw [List.getElem_append_right (by simp [hlen])]
          simp only [List.map_cons, List.map_nil, List.getElem_singleton]
          rw [hnew]
    rw [List.map_cons, ih (t + 1) _ hnext, hhead, List.range_succ_eq_map]
    simp only [List.map_cons, Nat.add_zero, List.map_map]
    congr 1
    apply List.map_congr_left
    intro i _
    simp only [Function.comp]
    congr 1; omega

theorem rounds_spec (h : Sha1.Vars) (block : Nat → Sha1.Word) (n t : Nat) (s : ShaState) (hs : s.bv = Sha1.vars h block t)
    (ws : List UInt32) (hw : ws.map UInt32.toBitVec = (List.range n).map (fun i => Sha1.W block (t + i))) :
    (rounds t s ws).bv = Sha1.vars h block (t + n) := by
  induction n generalizing t s ws with
  | zero =>
    have : ws = [] := by simpa using hw
    subst this; exact hs
  | succ n ih =>
    rw [List.range_succ_eq_map] at hw
    cases ws with
    | nil => simp at hw
    | cons w ws =>
      simp only [List.map_cons, List.map_map, Nat.add_zero, List.cons.injEq] at hw
      obtain ⟨hw1, hw2⟩ := hw
      unfold rounds
      have e : t + (n + 1) = t + 1 + n := by omega
      rw [e]
      apply ih
      · simp only [ShaState.bv, Sha1.vars]
        rw [← hs]
        simp only [ShaState.bv, UInt32.toBitVec_add, rotl_five, rotl_thirty, roundFun_bv, roundConst_bv, hw1]
      · rw [hw2]
        apply List.map_congr_left
        intro i _
        simp only [Function.comp]
        congr 1; omega

/-- `compress` on bytes `64 * i` to `64 * i + 64` of a message. -/
theorem compress_spec (p : Bytes) (i : Nat) (hlen : 64 * (i + 1) ≤ p.length) (s : ShaState) (hs : s.bv = Sha1.H p i) :
    (compress s ((p.drop (64 * i)).take 64)).bv = Sha1.H p (i + 1) := by
  have hwords : ∀ n (q : Bytes), q.length = 4 * n → (wordsOf q).map UInt32.toBitVec = (List.range n).map (fun t =>
      BitVec.ofNat 32 ((q.getD (4 * t) 0).toNat * 2 ^ 24 + (q.getD (4 * t + 1) 0).toNat * 2 ^ 16 + (q.getD (4 * t + 2) 0).toNat * 2 ^ 8 +
        (q.getD (4 * t + 3) 0).toNat)) := by
    intro n
    induction n with
    | zero =>
      intro q hq
      have : q = [] := List.length_eq_zero_iff.mp (by omega)
      subst this; rfl
    | succ n ih =>
      intro q hq
      match q, hq with
      | a :: b :: c :: d :: rest, hq =>
        have hr : rest.length = 4 * n := by simp only [List.length_cons] at hq; omega
        rw [wordsOf, List.map_cons, ih rest hr, List.range_succ_eq_map, List.map_cons, List.map_map, word_bv]
        congr 1
      | [], hq => simp only [List.length_nil] at hq; omega
      | [_], hq => simp only [List.length_cons, List.length_nil] at hq; omega
      | [_, _], hq => simp only [List.length_cons, List.length_nil] at hq; omega
      | [_, _, _], hq => simp only [List.length_cons, List.length_nil] at hq; omega
  have hM : (wordsOf ((p.drop (64 * i)).take 64)).map UInt32.toBitVec = (List.range 16).map (fun t => Sha1.W (Sha1.M p i) (0 + t)) := by
    rw [hwords 16 _ (by simp only [List.length_take, List.length_drop]; omega)]
    apply List.map_congr_left
    intro t ht
    have ht : t < 16 := by simpa using ht
    have hg : ∀ k, k < 64 → ((p.drop (64 * i)).take 64).getD k 0 = p.getD (64 * i + k) 0 := by
      intro k hk
      simp only [List.getD_eq_getElem?_getD, List.getElem?_take, hk, ↓reduceIte, List.getElem?_drop]
    rw [Nat.zero_add]
    unfold Sha1.W
    rw [if_pos ht, Sha1.M, hg _ (by omega), hg _ (by omega), hg _ (by omega), hg _ (by omega)]
    simp only [Nat.add_assoc]
  have hsch := schedule_spec (Sha1.M p i) 80 0 _ hM
  have hr := rounds_spec (Sha1.H p i) (Sha1.M p i) 80 0 s hs _ hsch
  rw [Nat.zero_add] at hr
  unfold compress
  simp only [Sha1.H]
  rw [← hr, ← hs]
  simp [ShaState.bv]

/-! ## The hasher -/

/-- What a hasher has been given so far. -/
def Holds (h : Hasher) (m : Bytes) : Prop :=
  ∃ pre, m = pre ++ h.buf ∧ pre.length = 64 * h.blocks ∧ ∀ z, h.state.bv = Sha1.H (pre ++ z) h.blocks

theorem holds_new : Holds .new [] := ⟨[], rfl, rfl, fun _ => rfl⟩

theorem holds_absorb (fuel : Nat) (h : Hasher) (m : Bytes) (hm : Holds h m) (hf : h.buf.length ≤ fuel) :
    Holds (h.absorb fuel) m ∧ (h.absorb fuel).buf.length < 64 := by
  induction fuel generalizing h with
  | zero => exact ⟨hm, by simp only [Hasher.absorb]; omega⟩
  | succ fuel ih =>
    unfold Hasher.absorb
    split
    · next hl => exact ⟨hm, hl⟩
    · next hl =>
      obtain ⟨pre, h1, h2, h3⟩ := hm
      apply ih
      · refine ⟨pre ++ h.buf.take 64, ?_, ?_, ?_⟩
        · rw [List.append_assoc, List.take_append_drop]; exact h1
        · simp only [List.length_append, List.length_take]; omega
        · intro z
          have hc := compress_spec (pre ++ h.buf.take 64 ++ z) h.blocks (by simp only [List.length_append, List.length_take]; omega) h.state
            (by rw [List.append_assoc]; exact h3 _)
          have e : ((pre ++ h.buf.take 64 ++ z).drop (64 * h.blocks)).take 64 = h.buf.take 64 := by
            rw [← h2, List.append_assoc, List.drop_left]
            rw [List.take_append_of_le_length (by simp only [List.length_take]; omega)]
            exact List.take_of_length_le (by simp only [List.length_take]; omega)
          rw [e] at hc
          exact hc
      · simp only [List.length_drop]; omega

theorem holds_update (h : Hasher) (m data : Bytes) (hm : Holds h m) :
    Holds (h.update data) (m ++ data) ∧ (h.update data).buf.length < 64 := by
  unfold Hasher.update
  apply holds_absorb
  · obtain ⟨pre, h1, h2, h3⟩ := hm
    exact ⟨pre, by rw [h1, List.append_assoc], h2, h3⟩
  · exact Nat.le_refl _

theorem be64_spec (n : Nat) : be64 n = (List.range 8).map (fun i => UInt8.ofNat (n / 256 ^ (7 - i))) := by
  simp [be64, List.range_succ_eq_map, List.range_zero]

theorem be32_spec (x : UInt32) : be32 x = Sha1.bytes x.toBitVec := by
  have h : ∀ k : Nat, k < 32 → ∀ y : UInt32, y.toNat = k → (x >>> y).toUInt8 = UInt8.ofNat (x.toNat / 2 ^ k) := by
    intro k hk y hy
    apply UInt8.toNat_inj.mp
    simp [hy, Nat.shiftRight_eq_div_pow, Nat.mod_eq_of_lt hk]
  have h1 := h 24 (by omega) 24 rfl
  have h2 := h 16 (by omega) 16 rfl
  have h3 := h 8 (by omega) 8 rfl
  have h4 : x.toUInt8 = UInt8.ofNat (x.toNat / 1) := by
    apply UInt8.toNat_inj.mp
    simp
  simp only [be32, Sha1.bytes, h1, h2, h3, h4, List.range_succ_eq_map, List.range_zero, List.map_cons, List.map_nil, UInt32.toNat_toBitVec]

/-- `finalize` gives the hash of all that the hasher was given. -/
theorem finalize_spec (h : Hasher) (m : Bytes) (hm : Holds h m) (hb : h.buf.length < 64) : h.finalize = sha1 m := by
  obtain ⟨pre, h1, h2, h3⟩ := hm
  have hl : m.length = 64 * h.blocks + h.buf.length := by rw [h1, List.length_append, h2]
  have hbits : h.blocks * 64 + h.buf.length = m.length := by omega
  have hmod : m.length % 64 = h.buf.length := by omega
  have hend : ∀ s : ShaState, s.bv = Sha1.H (Sha1.pad m) ((Sha1.pad m).length / 64) →
      be32 s.a ++ be32 s.b ++ be32 s.c ++ be32 s.d ++ be32 s.e = sha1 m := by
    intro s hs
    simp only [sha1, ← hs, be32_spec]
    rfl
  unfold Hasher.finalize
  simp only [hbits]
  apply hend
  by_cases hlast : 56 < (h.buf ++ [(0x80 : Byte)]).length
  · have hb2 : 56 ≤ h.buf.length := by simp only [List.length_append, List.length_singleton] at hlast; omega
    simp only [hlast, ↓reduceIte]
    have hk : (119 - m.length % 64) % 64 = (64 - (h.buf ++ [(0x80 : Byte)]).length) + 56 := by
      simp only [List.length_append, List.length_singleton]; omega
    have hpad : Sha1.pad m = pre ++ ((h.buf ++ [0x80] ++ List.replicate (64 - (h.buf ++ [(0x80 : Byte)]).length) 0) ++
        (List.replicate 56 0 ++ be64 (8 * m.length))) := by
      rw [Sha1.pad, hk, ← List.replicate_append_replicate, be64_spec, h1]
      simp only [List.append_assoc]
    have hA : (h.buf ++ [(0x80 : Byte)] ++ List.replicate (64 - (h.buf ++ [(0x80 : Byte)]).length) 0).length = 64 := by
      simp only [List.length_append, List.length_singleton, List.length_replicate]; omega
    have hB : (List.replicate 56 (0 : Byte) ++ be64 (8 * m.length)).length = 64 := by
      simp [be64]
    generalize h.buf ++ [(0x80 : Byte)] ++ List.replicate (64 - (h.buf ++ [(0x80 : Byte)]).length) 0 = A at hA hpad
    generalize List.replicate 56 (0 : Byte) ++ be64 (8 * m.length) = B at hB hpad
    have hlen : (Sha1.pad m).length = 64 * (h.blocks + 2) := by
      rw [hpad]; simp only [List.length_append, hA, hB, h2]; omega
    rw [hlen, Nat.mul_div_cancel_left _ (by omega)]
    have c1 := compress_spec (Sha1.pad m) h.blocks (by omega) h.state (by rw [hpad]; exact h3 _)
    have e1 : ((Sha1.pad m).drop (64 * h.blocks)).take 64 = A := by
      rw [hpad, ← h2, List.drop_left, ← hA, List.take_left]
    rw [e1] at c1
    have c2 := compress_spec (Sha1.pad m) (h.blocks + 1) (by omega) _ c1
    have e2 : ((Sha1.pad m).drop (64 * (h.blocks + 1))).take 64 = B := by
      have : 64 * (h.blocks + 1) = (pre ++ A).length := by rw [List.length_append, h2, hA]; omega
      rw [hpad, ← List.append_assoc, this, List.drop_left]
      exact List.take_of_length_le (by omega)
    rw [e2] at c2
    exact c2
  · have hb2 : h.buf.length ≤ 55 := by simp only [List.length_append, List.length_singleton] at hlast; omega
    simp only [hlast, ↓reduceIte]
    have hk : (119 - m.length % 64) % 64 = 56 - (h.buf ++ [(0x80 : Byte)]).length := by
      simp only [List.length_append, List.length_singleton]; omega
    have hpad : Sha1.pad m = pre ++ (h.buf ++ [0x80] ++ List.replicate (56 - (h.buf ++ [(0x80 : Byte)]).length) 0 ++ be64 (8 * m.length)) := by
      rw [Sha1.pad, hk, be64_spec, h1]
      simp only [List.append_assoc]
    have hA : (h.buf ++ [(0x80 : Byte)] ++ List.replicate (56 - (h.buf ++ [(0x80 : Byte)]).length) 0 ++ be64 (8 * m.length)).length = 64 := by
      simp only [List.length_append, List.length_singleton, List.length_replicate, be64, List.length_cons, List.length_nil]; omega
    generalize h.buf ++ [(0x80 : Byte)] ++ List.replicate (56 - (h.buf ++ [(0x80 : Byte)]).length) 0 ++ be64 (8 * m.length) = A at hA hpad
    have hlen : (Sha1.pad m).length = 64 * (h.blocks + 1) := by
      rw [hpad]; simp only [List.length_append, hA, h2]; omega
    rw [hlen, Nat.mul_div_cancel_left _ (by omega)]
    have c1 := compress_spec (Sha1.pad m) h.blocks (by omega) h.state (by rw [hpad]; exact h3 _)
    have e1 : ((Sha1.pad m).drop (64 * h.blocks)).take 64 = A := by
      rw [hpad, ← h2, List.drop_left]
      exact List.take_of_length_le (by omega)
    rw [e1] at c1
    exact c1

/-- A hasher that is given a message in any number of parts computes its SHA-1. -/
theorem hasher_spec (parts : List Bytes) (hp : parts ≠ []) : (parts.foldl Hasher.update Hasher.new).finalize = sha1 parts.flatten := by
  have key : ∀ (parts : List Bytes) (h : Hasher) (m : Bytes), Holds h m → (h.buf.length < 64 ∨ parts ≠ []) →
      (parts.foldl Hasher.update h).finalize = sha1 (m ++ parts.flatten) := by
    intro parts
    induction parts with
    | nil =>
      intro h m hm hb
      rcases hb with hb | hb
      · simpa using finalize_spec h m hm hb
      · exact absurd rfl hb
    | cons d ds ih =>
      intro h m hm _
      obtain ⟨k1, k2⟩ := holds_update h m d hm
      simpa [List.append_assoc] using ih (h.update d) (m ++ d) k1 (Or.inl k2)
  simpa using key parts .new [] holds_new (Or.inr hp)

theorem sha1_length (m : Bytes) : (sha1 m).length = 20 := by
  simp [sha1, Sha1.bytes]

/-! ## base64 -/

theorem base64Char_alphabet : ∀ n : Fin 64, base64Char n.val = alphabet.getD n.val 0 := by decide +kernel

theorem bits_a : ∀ n : Fin 256, bits 8 (UInt8.ofNat n.val).toNat =
    bits 6 ((UInt8.ofNat n.val).toNat / 4) ++ bits 2 ((UInt8.ofNat n.val).toNat % 4) := by decide +kernel

theorem bits_b : ∀ n : Fin 256, bits 8 (UInt8.ofNat n.val).toNat =
    bits 4 ((UInt8.ofNat n.val).toNat / 16) ++ bits 4 ((UInt8.ofNat n.val).toNat % 16) := by decide +kernel

theorem bits_c : ∀ n : Fin 256, bits 8 (UInt8.ofNat n.val).toNat =
    bits 2 ((UInt8.ofNat n.val).toNat / 64) ++ bits 6 ((UInt8.ofNat n.val).toNat % 64) := by decide +kernel

theorem bits_24 : ∀ x : Fin 4, ∀ y : Fin 16, bits 6 (x.val * 16 + y.val) = bits 2 x.val ++ bits 4 y.val := by decide +kernel

theorem bits_42 : ∀ x : Fin 16, ∀ y : Fin 4, bits 6 (x.val * 4 + y.val) = bits 4 x.val ++ bits 2 y.val := by decide +kernel

theorem base64_spec (data : Bytes) : Base64 data (base64 data) := by
  have ba := fun b : Byte => forall_byte (P := fun b => bits 8 b.toNat = bits 6 (b.toNat / 4) ++ bits 2 (b.toNat % 4)) bits_a b
  have bb := fun b : Byte => forall_byte (P := fun b => bits 8 b.toNat = bits 4 (b.toNat / 16) ++ bits 4 (b.toNat % 16)) bits_b b
  have bc := fun b : Byte => forall_byte (P := fun b => bits 8 b.toNat = bits 2 (b.toNat / 64) ++ bits 6 (b.toNat % 64)) bits_c b
  have c24 : ∀ x y, x < 4 → y < 16 → bits 6 (x * 16 + y) = bits 2 x ++ bits 4 y := fun x y hx hy => bits_24 ⟨x, hx⟩ ⟨y, hy⟩
  have c42 : ∀ x y, x < 16 → y < 4 → bits 6 (x * 4 + y) = bits 4 x ++ bits 2 y := fun x y hx hy => bits_42 ⟨x, hx⟩ ⟨y, hy⟩
  have hc : ∀ n, n < 64 → base64Char n = alphabet.getD n 0 := fun n hn => base64Char_alphabet ⟨n, hn⟩
  match data with
  | [] => exact ⟨[], 0, 0, by simp, by omega, by omega, rfl, rfl, rfl⟩
  | [a] =>
    have ha := a.toNat_lt
    refine ⟨[a.toNat / 4, a.toNat % 4 * 16], 4, 2, ?_, by omega, by omega, ?_, ?_, by simp [base64]⟩
    · intro g hg
      simp only [List.mem_cons, List.not_mem_nil, or_false] at hg
      omega
    · have := c24 (a.toNat % 4) 0 (by omega) (by omega)
      simp only [Nat.add_zero] at this
      simp only [List.flatMap_cons, List.flatMap_nil, List.append_nil, this, ba a, List.append_assoc]
      rfl
    · simp only [base64, List.map_cons, List.map_nil, hc _ (show a.toNat / 4 < 64 by omega), hc _ (show a.toNat % 4 * 16 < 64 by omega)]
      rfl
  | [a, b] =>
    have ha := a.toNat_lt
    have hb := b.toNat_lt
    refine ⟨[a.toNat / 4, a.toNat % 4 * 16 + b.toNat / 16, b.toNat % 16 * 4], 2, 1, ?_, by omega, by omega, ?_, ?_, by simp [base64]⟩
    · intro g hg
      simp only [List.mem_cons, List.not_mem_nil, or_false] at hg
      omega
    · have h1 := c24 (a.toNat % 4) (b.toNat / 16) (by omega) (by omega)
      have h2 := c42 (b.toNat % 16) 0 (by omega) (by omega)
      simp only [Nat.add_zero] at h2
      simp only [List.flatMap_cons, List.flatMap_nil, List.append_nil, h1, h2, ba a, bb b, List.append_assoc]
      rfl
    · simp only [base64, List.map_cons, List.map_nil, hc _ (show a.toNat / 4 < 64 by omega),
        hc _ (show a.toNat % 4 * 16 + b.toNat / 16 < 64 by omega), hc _ (show b.toNat % 16 * 4 < 64 by omega)]
      rfl
  | a :: b :: c :: rest =>
    have ha := a.toNat_lt
    have hb := b.toNat_lt
    have hcc := c.toNat_lt
    obtain ⟨gs, z, p, k1, k2, k3, k4, k5, k6⟩ := base64_spec rest
    refine ⟨a.toNat / 4 :: (a.toNat % 4 * 16 + b.toNat / 16) :: (b.toNat % 16 * 4 + c.toNat / 64) :: (c.toNat % 64) :: gs, z, p, ?_, k2, k3, ?_, ?_, ?_⟩
    · intro g hg
      simp only [List.mem_cons] at hg
      rcases hg with hg | hg | hg | hg | hg
      · omega
      · omega
      · omega
      · omega
      · exact k1 g hg
    · have h1 := c24 (a.toNat % 4) (b.toNat / 16) (by omega) (by omega)
      have h2 := c42 (b.toNat % 16) (c.toNat / 64) (by omega) (by omega)
      simp only [List.flatMap_cons, h1, h2, ba a, bb b, bc c, List.append_assoc, k4]
    · simp only [base64, List.map_cons, hc _ (show a.toNat / 4 < 64 by omega),
        hc _ (show a.toNat % 4 * 16 + b.toNat / 16 < 64 by omega), hc _ (show b.toNat % 16 * 4 + c.toNat / 64 < 64 by omega),
        hc _ (show c.toNat % 64 < 64 by omega), k5]
      rfl
    · simp only [base64, List.length_cons]; omega

theorem bits_length (n v : Nat) : (bits n v).length = n := by simp [bits]

theorem bits6_inj : ∀ x y : Fin 64, bits 6 x.val = bits 6 y.val → x = y := by decide +kernel

theorem groups_length (gs : List Nat) : (gs.flatMap (bits 6)).length = 6 * gs.length := by
  induction gs with
  | nil => rfl
  | cons g gs ih => simp only [List.flatMap_cons, List.length_append, ih, bits_length, List.length_cons]; omega

theorem groups_inj (gs gs' : List Nat) (h : ∀ g ∈ gs, g < 64) (h' : ∀ g ∈ gs', g < 64) (e : gs.flatMap (bits 6) = gs'.flatMap (bits 6)) :
    gs = gs' := by
  induction gs generalizing gs' with
  | nil =>
    have := congrArg List.length e
    rw [groups_length, groups_length] at this
    cases gs' with
    | nil => rfl
    | cons => simp at this
  | cons g gs ih =>
    cases gs' with
    | nil =>
      have := congrArg List.length e
      rw [groups_length, groups_length] at this
      simp at this
    | cons g' gs' =>
      simp only [List.flatMap_cons] at e
      obtain ⟨e1, e2⟩ := List.append_inj e (by rw [bits_length, bits_length])
      have hg := bits6_inj ⟨g, h g (by simp)⟩ ⟨g', h' g' (by simp)⟩ e1
      simp only [Fin.mk.injEq] at hg
      rw [hg, ih gs' (fun x hx => h x (by simp [hx])) (fun x hx => h' x (by simp [hx])) e2]

/-- The base64 text of some data is determined by the specification. -/
theorem base64_unique (data t t' : Bytes) (h : Base64 data t) (h' : Base64 data t') : t = t' := by
  obtain ⟨gs, z, p, k1, k2, k3, k4, k5, k6⟩ := h
  obtain ⟨gs', z', p', k1', k2', k3', k4', k5', k6'⟩ := h'
  have l := congrArg List.length k4
  have l' := congrArg List.length k4'
  rw [groups_length] at l l'
  simp only [List.length_append, List.length_replicate] at l l'
  have hz : z = z' := by omega
  subst hz
  have hg := groups_inj gs gs' k1 k1' (k4.trans k4'.symm)
  subst hg
  have m := congrArg List.length k5
  have m' := congrArg List.length k5'
  simp only [List.length_append, List.length_map, List.length_replicate] at m m'
  have hp : p = p' := by omega
  subst hp
  rw [k5, k5']

/-- 20 bytes make 28 characters. -/
theorem base64_length (data t : Bytes) (h : Base64 data t) : t.length = (data.length + 2) / 3 * 4 := by
  obtain ⟨gs, z, p, k1, k2, k3, k4, k5, k6⟩ := h
  have l := congrArg List.length k4
  have e : (data.flatMap (fun b => bits 8 b.toNat)).length = 8 * data.length := by
    clear k4 k5 k6 l
    induction data with
    | nil => rfl
    | cons b bs ih => simp only [List.flatMap_cons, List.length_append, ih, bits_length, List.length_cons]; omega
  rw [groups_length] at l
  simp only [List.length_append, List.length_replicate, e] at l
  have m := congrArg List.length k5
  simp only [List.length_append, List.length_map, List.length_replicate] at m
  omega

theorem handshakeHash_spec (key : Bytes) : handshakeHash key = sha1 (key ++ wsMagic) := by
  have := hasher_spec [key, wsMagic] (by simp)
  simpa [handshakeHash] using this

/-- The code with the two libraries written out is the code with the two functions as parameters. -/
theorem upgrade_eq {K : Type} (req resp : Message K) : upgrade req resp = wsUpgrade sha1 base64 req resp := by
  simp only [upgrade, wsUpgrade, handshakeHash_spec]
  rfl

theorem accept_unique (key t t' : Bytes) (h : Accept key t) (h' : Accept key t') : t = t' := base64_unique _ _ _ h h'

/-- **C163.** For every request: if its first `Sec-WebSocket-Key` value is not empty, `upgrade` adds to a response that has no such header a
`Sec-WebSocket-Accept` header whose only value is the accept value of RFC 6455 for this key: the base64 text (RFC 4648) of the SHA-1 hash
(FIPS 180-4) of the key followed by the magic text. It has 28 characters, and no other text is an accept value for the key. -/
theorem C163_accept {K : Type} (req resp : Message K) (key : Bytes) (vs : List Bytes) (hk : key ≠ [])
    (hg : req.head.headers.getall b!"sec-websocket-key" = some (key :: vs)) (hb : resp.head.Blank) :
    ∃ v, (upgrade req resp).2 = true ∧ (upgrade req resp).1.head.headers.getall b!"sec-websocket-accept" = some [v] ∧
      Accept key v ∧ v.length = 28 ∧ ∀ w, Accept key w → w = v := by
  have hc := C42_upgrade sha1 base64 req resp
  rw [← upgrade_eq] at hc
  have ha : Accept key (base64 (sha1 (key ++ b!"258EAFA5-E914-47DA-95CA-C5AB0DC85B11"))) := base64_spec _
  refine ⟨_, hc.1.mpr ⟨key, vs, hk, hg⟩, ?_, ha, ?_, fun w hw => accept_unique key _ _ hw ha⟩
  · rw [(hc.2.2 key vs hk hg).2.2.2.2 [] ⟨_, hb.headers, .nil _⟩ (by simp) (by simp)]
    rfl
  · rw [base64_length _ _ ha, sha1_length]

/-- The example of RFC 6455, section 1.3. -/
example : (upgrade (reqWith (MultiMap.new.append b!"sec-websocket-key" b!"dGhlIHNhbXBsZSBub25jZQ==")) Message.new).1.head.headers.getall
    b!"sec-websocket-accept" = some [b!"s3pPLMBiTxaQ9kYGzzhZRbK+xOo="] := by decide +kernel

/-- So this is the accept value of that key. -/
example : Accept b!"dGhlIHNhbXBsZSBub25jZQ==" b!"s3pPLMBiTxaQ9kYGzzhZRbK+xOo=" := by
  have h : base64 (handshakeHash b!"dGhlIHNhbXBsZSBub25jZQ==") = b!"s3pPLMBiTxaQ9kYGzzhZRbK+xOo=" := by decide +kernel
  rw [handshakeHash_spec] at h
  rw [← h]
  exact base64_spec _

/-! ## C164: the handshake on a connection -/

theorem base64_oneLine (data t : Bytes) (h : Base64 data t) : OneLine t := by
  obtain ⟨gs, z, p, k1, -, -, -, rfl, -⟩ := h
  have ha : ∀ n : Fin 64, alphabet.getD n.val 0 ≠ 13 ∧ alphabet.getD n.val 0 ≠ 10 := by decide +kernel
  constructor
  all_goals
    intro hm
    simp only [List.mem_append, List.mem_map, List.mem_replicate] at hm
    rcases hm with ⟨g, hg, he⟩ | ⟨_, he⟩
    · first
      | exact (ha ⟨g, k1 g hg⟩).1 he
      | exact (ha ⟨g, k1 g hg⟩).2 he
    · revert he; decide

/-- The calls of a successful handshake. -/
def wsCalls (v : Bytes) : List RespCall :=
  [.header b!"sec-websocket-accept" v, .version 1 1, .code 101 b!"Switching Protocols", .header b!"sec-websocket-version" b!"13",
    .header b!"upgrade" b!"websocket", .header b!"connection" b!"Upgrade"]

/-- The header lines of the answer. -/
def wsLines (v : Bytes) (n : Nat) : List Bytes :=
  [b!"sec-websocket-accept: " ++ v, b!"sec-websocket-version: 13", b!"upgrade: websocket", b!"connection: Upgrade",
    b!"content-length: " ++ natToBytes n]

theorem upgrade_calls {K : Type} (req resp : Message K) (key : Bytes) (vs : List Bytes) (hk : key ≠ [])
    (hg : req.head.headers.getall b!"sec-websocket-key" = some (key :: vs)) :
    ∃ v, Accept key v ∧ upgrade req resp = ((wsCalls v).foldl Message.respCall resp, true) := by
  have hget : req.head.headers.get b!"sec-websocket-key" = some key := by rw [MultiMap.get, hg]; rfl
  have hkb : key.isEmpty = false := by cases key <;> simp_all
  refine ⟨base64 (handshakeHash key), ?_, ?_⟩
  · rw [handshakeHash_spec]; exact base64_spec _
  · simp only [upgrade, hget, hkb]
    rfl

theorem ws_map (v : Bytes) (n : Nat) (k : Bytes) : intended (headerOpsOf (wsCalls v)) n k =
    if k = b!"content-length" then some [natToBytes n] else if k = b!"connection" then some [b!"Upgrade"]
    else if k = b!"upgrade" then some [b!"websocket"] else if k = b!"sec-websocket-version" then some [b!"13"]
    else if k = b!"sec-websocket-accept" then some [v] else none := by
  have e : headerOpsOf (wsCalls v) = [.append b!"sec-websocket-accept" v, .append b!"sec-websocket-version" b!"13",
    .append b!"upgrade" b!"websocket", .append b!"connection" b!"Upgrade"] := rfl
  rw [e]
  by_cases h0 : k = b!"content-length"
  · subst h0; rw [if_pos rfl]; exact intended_cl _ _
  · rw [intended_other _ _ _ h0, if_neg h0]
    by_cases h1 : k = b!"connection"
    · subst h1; rfl
    · rw [if_neg h1]
      by_cases h2 : k = b!"upgrade"
      · subst h2; rfl
      · rw [if_neg h2]
        by_cases h3 : k = b!"sec-websocket-version"
        · subst h3; rfl
        · rw [if_neg h3]
          by_cases h4 : k = b!"sec-websocket-accept"
          · subst h4; rfl
          · rw [if_neg h4]
            simp only [run, List.foldl_cons, List.foldl_nil, HeaderOp.apply, HeaderMap.empty]
            simp [h1, h2, h3, h4]

/-- What is written for a handshake. -/
theorem ws_step {K : Type} (c : Codec K) (ord : List Pair → List Pair) (hord : IsOrder ord) (req resp : Message K)
    (hblank : resp.head.Blank) (x : Bytes) (hx : resp.body = { internal := some x, cw := none }) (key : Bytes) (vs : List Bytes)
    (hk : key ≠ []) (hg : req.head.headers.getall b!"sec-websocket-key" = some (key :: vs)) :
    ∃ v resp2 m' bytes lines, Accept key v ∧ wsHttp req resp = .ok .webSocket req resp2 ∧ encodeResponse c ord resp2 = (m', some bytes) ∧
      splitHead bytes = some (b!"HTTP/1.1 101 Switching Protocols" :: lines, x) ∧ lines.Perm (wsLines v x.length) := by
  obtain ⟨v, hv, hu⟩ := upgrade_calls req resp key vs hk hg
  have ho := base64_oneLine _ _ hv
  obtain ⟨m', bytes, names, h1, h2, h3, h4⟩ := C116_once_partial c ord hord resp hblank (wsCalls v) 1 1 101 b!"Switching Protocols" rfl
    rfl (by decide)
    (by
      intro op hop
      simp only [wsCalls, headerOpsOf, List.filterMap_cons, RespCall.headerOp, List.filterMap_nil, List.mem_cons, List.not_mem_nil,
        or_false] at hop
      rcases hop with rfl | rfl | rfl | rfl <;> simp [HeaderOp.nameNonempty])
    (by
      intro op hop
      simp only [wsCalls, headerOpsOf, List.filterMap_cons, RespCall.headerOp, List.filterMap_nil, List.mem_cons, List.not_mem_nil,
        or_false] at hop
      rcases hop with rfl | rfl | rfl | rfl <;> simp [HeaderOp.notDelete])
    (by
      intro k ws hw
      by_cases h0 : k = b!"content-length"
      · subst h0
        rw [show run (headerOpsOf (wsCalls v)) HeaderMap.empty b!"content-length" = none from rfl] at hw
        cases hw
      rw [← intended_other _ 0 _ h0, ws_map, if_neg h0] at hw
      split at hw
      · next hk1 => subst hk1; cases hw; decide
      split at hw
      · next hk1 => subst hk1; cases hw; decide
      split at hw
      · next hk1 => subst hk1; cases hw; decide
      split at hw
      · next hk1 =>
        subst hk1; cases hw
        refine ⟨by decide, fun w hw => ?_⟩
        simp only [List.mem_singleton] at hw
        rw [hw]; exact ho
      · cases hw)
    x hx
  refine ⟨v, _, m', bytes, _, hv, by rw [wsHttp, hu], h1, h2, ?_⟩
  have hperm : names.Perm [b!"sec-websocket-accept", b!"sec-websocket-version", b!"upgrade", b!"connection", b!"content-length"] := by
    refine (List.perm_ext_iff_of_nodup h3 (by decide)).mpr (fun k => ?_)
    rw [h4 k, ws_map]
    simp only [List.mem_cons, List.not_mem_nil, or_false]
    by_cases e0 : k = b!"content-length"
    · simp [e0]
    by_cases e1 : k = b!"connection"
    · simp [e1]
    by_cases e2 : k = b!"upgrade"
    · simp [e2]
    by_cases e3 : k = b!"sec-websocket-version"
    · simp [e3]
    by_cases e4 : k = b!"sec-websocket-accept"
    · simp [e4]
    simp only [e0, e1, e2, e3, e4, if_false, ne_eq, not_true_eq_false, or_self]
  have := hperm.flatMap_right (fun k => ((intended (headerOpsOf (wsCalls v)) x.length k).getD []).map (headerText k))
  refine this.trans ?_
  simp only [List.flatMap_cons, List.flatMap_nil, ws_map]
  exact List.Perm.refl _

/-- The run of a connection whose first request has a key. -/
theorem ws_serve {K : Type} (c : Codec K) (lim : HttpLimits) (env : Nat → Env K) (hh : (env 0).http = wsHttp) (hw : (env 0).write = .ok)
    (hord : IsOrder (env 0).ord) (q : WireReq) (hq : q.WF lim.maxUrl lim.maxHeaderLine lim.maxHeadersCount) (key : Bytes)
    (vs : List Bytes) (hk : key ≠ []) (hv : valuesOf q.head.fields b!"sec-websocket-key" = key :: vs) (r : Reader) (s : Bytes)
    (hr : r.flat = q.encode ++ s) :
    ∃ ex v lines, serve c lim env r = ([ex], .webSocket) ∧ Accept key v ∧
      splitHead ex.written = some (b!"HTTP/1.1 101 Switching Protocols" :: lines, []) ∧ lines.Perm (wsLines v 0) := by
  obtain ⟨hd, r1, r2, x, k1, k2, k3, k4, k5, k6⟩ := read_request lim q hq (env 0).cap (env 0).cap_pos (Message.new : Message K)
    Head.blank_new Body.plain_new r s hr
  obtain ⟨v, resp2, m', bytes, lines, g1, g2, g3, g4, g5⟩ := ws_step c (env 0).ord hord
    { head := hd, body := { internal := some (x ++ q.body), cw := none } } (Message.new : Message K) Head.blank_new [] rfl key vs hk
    (by rw [k4.headers, lookupFields, hv])
  refine ⟨⟨{ head := hd, body := { internal := some (x ++ q.body), cw := none } }, bytes⟩, v, lines, ?_, g1, g4, g5⟩
  show serveLoop c lim env (r.flat.length + 1) 0 Message.new Message.new r = _
  rw [serveLoop]
  simp only [k1, k3, hh, g2, g3, hw]

/-- **C164**, what holds: the first request of a connection to a service that uses `upgrade`, if it is well formed and its first
`Sec-WebSocket-Key` is not empty, is answered by `HTTP/1.1 101 Switching Protocols` with, in some order, the accept value of RFC 6455 for
the key, `upgrade: websocket`, `connection: Upgrade` and the version 13, each once. Missing: the head has a fifth line that must not be
there, and the connection does not go on. -/
theorem C164_switch_partial {K : Type} (c : Codec K) (lim : HttpLimits) (env : Nat → Env K) (hh : (env 0).http = wsHttp)
    (hw : (env 0).write = .ok) (hord : IsOrder (env 0).ord) (q : WireReq)
    (hq : q.WF lim.maxUrl lim.maxHeaderLine lim.maxHeadersCount) (key : Bytes) (vs : List Bytes) (hk : key ≠ [])
    (hv : valuesOf q.head.fields b!"sec-websocket-key" = key :: vs) (r : Reader) (s : Bytes) (hr : r.flat = q.encode ++ s) :
    ∃ ex v lines, (serve c lim env r).1 = [ex] ∧ Accept key v ∧
      splitHead ex.written = some (b!"HTTP/1.1 101 Switching Protocols" :: lines, []) ∧
      (lines.filter (fun l => lineName l ≠ b!"content-length")).Perm
        [b!"sec-websocket-accept: " ++ v, b!"sec-websocket-version: 13", b!"upgrade: websocket", b!"connection: Upgrade"] := by
  obtain ⟨ex, v, lines, h1, h2, h3, h4⟩ := ws_serve c lim env hh hw hord q hq key vs hk hv r s hr
  refine ⟨ex, v, lines, by rw [h1], h2, h3, ?_⟩
  have := h4.filter (fun l => lineName l ≠ b!"content-length")
  refine this.trans ?_
  have hn : lineName (b!"sec-websocket-accept: " ++ v) = b!"sec-websocket-accept" := rfl
  have hn' : lineName (b!"content-length: " ++ natToBytes 0) = b!"content-length" := by decide
  simp only [wsLines, List.filter_cons, List.filter_nil, hn, hn']
  exact List.Perm.refl _

/-- **C164**, negation for the code as written: the 101 response has a `Content-Length` line (RFC 9110, 8.6: a server must not send one in a
response with a 1xx status), and then the connection is dropped - whatever frames `s` the client has sent or will send, nothing more is
read or written. -/
theorem C164_dropped_violated {K : Type} (c : Codec K) (lim : HttpLimits) (env : Nat → Env K) (hh : (env 0).http = wsHttp)
    (hw : (env 0).write = .ok) (hord : IsOrder (env 0).ord) (q : WireReq)
    (hq : q.WF lim.maxUrl lim.maxHeaderLine lim.maxHeadersCount) (key : Bytes) (vs : List Bytes) (hk : key ≠ [])
    (hv : valuesOf q.head.fields b!"sec-websocket-key" = key :: vs) (r : Reader) (s : Bytes) (hr : r.flat = q.encode ++ s) :
    ∃ ex lines, (serve c lim env r) = ([ex], .webSocket) ∧
      splitHead ex.written = some (b!"HTTP/1.1 101 Switching Protocols" :: lines, []) ∧ b!"content-length: 0" ∈ lines := by
  obtain ⟨ex, v, lines, h1, h2, h3, h4⟩ := ws_serve c lim env hh hw hord q hq key vs hk hv r s hr
  exact ⟨ex, lines, h1, h3, h4.mem_iff.mpr (List.mem_cons_of_mem _ (by
    have e : b!"content-length: " ++ natToBytes 0 = b!"content-length: 0" := by decide
    rw [e]
    decide))⟩

/-- A request asks for the handshake: its first `Sec-WebSocket-Key` is not empty. -/
def Asks {K : Type} (req : Message K) : Prop :=
  ∃ (key : Bytes) (vs : List Bytes), key ≠ [] ∧ req.head.headers.getall b!"sec-websocket-key" = some (key :: vs)

theorem wsHttp_asks {K : Type} (req resp : Message K) :
    (Asks req ∧ ∃ resp2, wsHttp req resp = .ok .webSocket req resp2) ∨ (¬ Asks req ∧ wsHttp req resp = .ok (.current true) req resp) := by
  have hc := C42_upgrade sha1 base64 req resp
  rw [← upgrade_eq] at hc
  by_cases ha : Asks req
  · left
    refine ⟨ha, (upgrade req resp).1, ?_⟩
    have h2 := hc.1.mpr ha
    rw [wsHttp]
    generalize upgrade req resp = u at h2 ⊢
    obtain ⟨m, b⟩ := u
    simp only at h2
    subst h2
    rfl
  · right
    refine ⟨ha, ?_⟩
    have h2 : (upgrade req resp).2 = false := by
      cases h : (upgrade req resp).2 with
      | false => rfl
      | true => exact absurd (hc.1.mp h) ha
    have h3 := hc.2.1 h2
    rw [wsHttp]
    generalize upgrade req resp = u at h2 h3 ⊢
    obtain ⟨m, b⟩ := u
    simp only at h2 h3
    subst h2 h3
    rfl

/-- **C164**, what holds on all of a connection: it becomes a WebSocket only with a request that has a key, and that request is its last;
no request before it has one. -/
theorem C164_only_with_key_partial {K : Type} (c : Codec K) (lim : HttpLimits) (env : Nat → Env K) (hh : ∀ i, (env i).http = wsHttp)
    (r : Reader) :
    (∀ exs ex, (serve c lim env r).1 = exs ++ [ex] → (∀ e ∈ exs, ¬ Asks e.req) ∧ ((serve c lim env r).2 = .webSocket → Asks ex.req)) ∧
    ((serve c lim env r).1 = [] → (serve c lim env r).2 ≠ .webSocket) := by
  have key : ∀ fuel i (req resp : Message K) r,
      (∀ exs ex, (serveLoop c lim env fuel i req resp r).1 = exs ++ [ex] →
        (∀ e ∈ exs, ¬ Asks e.req) ∧ ((serveLoop c lim env fuel i req resp r).2 = .webSocket → Asks ex.req)) ∧
      ((serveLoop c lim env fuel i req resp r).1 = [] → (serveLoop c lim env fuel i req resp r).2 ≠ .webSocket) := by
    intro fuel
    induction fuel with
    | zero => intro i req resp r; simp [serveLoop]
    | succ fuel ih =>
      intro i req resp r
      have single : ∀ (x : Exchange K) (e : Ending), (e = .webSocket → Asks x.req) →
          (∀ exs ex, ([x], e).1 = exs ++ [ex] → (∀ e' ∈ exs, ¬ Asks e'.req) ∧ (([x], e).2 = .webSocket → Asks ex.req)) ∧
          (([x], e).1 = [] → ([x], e).2 ≠ .webSocket) := by
        intro x e he
        refine ⟨fun exs ex h => ?_, by simp⟩
        cases exs with
        | nil =>
          simp only [List.nil_append, List.cons.injEq, and_true] at h
          subst h
          exact ⟨by simp, he⟩
        | cons a exs => simp at h
      rw [serveLoop]
      cases hrh : readHead lim req.head r with
      | error e => cases e <;> simp [headEnding]
      | ok p =>
        obtain ⟨head, r1⟩ := p
        simp only
        cases hrb : readConstLengthBody (env i).cap head.headers req.body r1 with
        | fail e => cases e <;> simp [bodyEnding]
        | panic => simp
        | hang => simp
        | done body r2 =>
          simp only [hh]
          rcases wsHttp_asks ({ head := head, body := body } : Message K) resp with ⟨ha, resp2, he⟩ | ⟨ha, he⟩
          · rw [he]
            simp only
            split
            · exact single _ _ (by simp)
            · split
              · exact single _ _ (fun _ => ha)
              · exact single _ _ (fun _ => ha)
          · rw [he]
            simp only
            split
            · exact single _ _ (by simp)
            · next resp3 bytes henc =>
              split
              · next k s hw => exact single _ _ (by cases s <;> simp [writeEnding])
              · have ih' := ih (i + 1) (({ head := head, body := body } : Message K).clear c) (resp3.clear c) r2
                generalize serveLoop c lim env fuel (i + 1) (({ head := head, body := body } : Message K).clear c) (resp3.clear c) r2 = y at ih' ⊢
                obtain ⟨rest, e⟩ := y
                simp only at ih' ⊢
                refine ⟨fun exs ex h => ?_, by simp⟩
                cases exs with
                | nil =>
                  simp only [List.nil_append, List.cons.injEq] at h
                  obtain ⟨rfl, rfl⟩ := h
                  exact ⟨by simp, fun hw => absurd hw (ih'.2 rfl)⟩
                | cons a exs =>
                  simp only [List.cons_append, List.cons.injEq] at h
                  obtain ⟨rfl, h⟩ := h
                  obtain ⟨i1, i2⟩ := ih'.1 exs ex h
                  refine ⟨fun e' he' => ?_, i2⟩
                  rcases List.mem_cons.mp he' with rfl | he'
                  · exact ha
                  · exact i1 e' he'
  exact key _ _ _ _ _

/-- A first request without a key, a second with an empty one: two answers, no 101, and the connection waits for a third. -/
example : (serve noCodec sampleLimits (fun _ => { http := wsHttp, cap := 5, cap_pos := by decide, write := .ok, ord := id })
      (Reader.ofBytes b!"GET / HTTP/1.1\r\n\r\nGET / HTTP/1.1\r\nSec-WebSocket-Key: \r\n\r\n" .silent)).1.length = 2 := by decide +kernel

/-- Non-trivial case: the handshake of RFC 6455, and a frame after it. -/
example : (serve noCodec sampleLimits (fun _ => { http := wsHttp, cap := 5, cap_pos := by decide, write := .ok, ord := id })
      (Reader.ofBytes (b!"GET /chat HTTP/1.1\r\nHost: a\r\nUpgrade: websocket\r\nConnection: Upgrade\r\n" ++
        b!"Sec-WebSocket-Key: dGhlIHNhbXBsZSBub25jZQ==\r\n\r\n" ++ [0x81, 0x80, 1, 2, 3, 4]) .silent)).1.map (·.written) =
    [b!"HTTP/1.1 101 Switching Protocols\r\nsec-websocket-accept: s3pPLMBiTxaQ9kYGzzhZRbK+xOo=\r\nsec-websocket-version: 13\r\n" ++
      b!"upgrade: websocket\r\nconnection: Upgrade\r\ncontent-length: 0\r\n\r\n"] := by decide +kernel

end Httpd
