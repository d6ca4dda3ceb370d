import Verif.Lemmas.HeadMore
/-! # The head reader does not see the letter case of header names -/

namespace Httpd
open Spec MultiMap

theorem lowerByte_eq (b : Byte) : lowerByte b = toAsciiLower b := by
  refine forall_byte (P := fun b => lowerByte b = toAsciiLower b) ?_ b
  decide +kernel

theorem lowerByte_facts (b b' : Byte) (h : lowerByte b = lowerByte b') :
    (b = 10 ↔ b' = 10) ∧ (b = 58 ↔ b' = 58) ∧ isText b = isText b' := by
  have key : ∀ b : Byte, (b = 10 ↔ lowerByte b = 10) ∧ (b = 58 ↔ lowerByte b = 58) ∧ isText b = isText (lowerByte b) := by
    intro b
    refine forall_byte (P := fun b => (b = 10 ↔ lowerByte b = 10) ∧ (b = 58 ↔ lowerByte b = 58) ∧
      isText b = isText (lowerByte b)) ?_ b
    decide +kernel
  obtain ⟨a1, a2, a3⟩ := key b
  obtain ⟨b1, b2, b3⟩ := key b'
  rw [a1, a2, a3, b1, b2, b3, h]
  simp

theorem recased_cut (limit : Nat) {c : Bool} {s s' : Bytes} (h : Recased c s s') :
    Recased c (cut 10 limit s).1 (cut 10 limit s').1 ∧ (∃ c', Recased c' (cut 10 limit s).2 (cut 10 limit s').2) ∧
    cutDone 10 limit s = cutDone 10 limit s' := by
  induction h generalizing limit with
  | nil c => cases limit <;> exact ⟨.nil c, ⟨c, .nil c⟩, rfl⟩
  | lf c h ih =>
    cases limit with
    | zero => exact ⟨.nil c, ⟨c, .lf c h⟩, rfl⟩
    | succ n =>
      simp only [cut, cutDone, if_true]
      exact ⟨.lf c (.nil _), ⟨_, h⟩, trivial⟩
  | @name b b' s s' h1 h2 h3 h ih =>
    cases limit with
    | zero => exact ⟨.nil _, ⟨_, .name h1 h2 h3 h⟩, rfl⟩
    | succ n =>
      have h1' : b' ≠ 10 := fun hh => h1 ((lowerByte_facts b b' h3).1.mpr hh)
      simp only [cut, cutDone, h1, h1', if_false]
      obtain ⟨i1, i2, i3⟩ := ih n
      exact ⟨.name h1 h2 h3 i1, i2, i3⟩
  | colon h ih =>
    cases limit with
    | zero => exact ⟨.nil _, ⟨_, .colon h⟩, rfl⟩
    | succ n =>
      obtain ⟨i1, i2, i3⟩ := ih n
      simp only [cut, cutDone, show ¬ (58 : Byte) = 10 by decide, if_false]
      exact ⟨.colon i1, i2, i3⟩
  | value h1 h ih =>
    cases limit with
    | zero => exact ⟨.nil _, ⟨_, .value h1 h⟩, rfl⟩
    | succ n =>
      obtain ⟨i1, i2, i3⟩ := ih n
      simp only [cut, cutDone, h1, if_false]
      exact ⟨.value h1 i1, i2, i3⟩

theorem recased_length {c : Bool} {s s' : Bytes} (h : Recased c s s') : s.length = s'.length := by
  induction h <;> simp_all

theorem recased_take {c : Bool} {s s' : Bytes} (n : Nat) (h : Recased c s s') : Recased c (s.take n) (s'.take n) := by
  induction h generalizing n with
  | nil c => cases n <;> exact .nil c
  | lf c h ih =>
    cases n with
    | zero => exact .nil c
    | succ n => exact .lf c (ih n)
  | name h1 h2 h3 h ih =>
    cases n with
    | zero => exact .nil _
    | succ n => exact .name h1 h2 h3 (ih n)
  | colon h ih =>
    cases n with
    | zero => exact .nil _
    | succ n => exact .colon (ih n)
  | value h1 h ih =>
    cases n with
    | zero => exact .nil _
    | succ n => exact .value h1 (ih n)

theorem recased_true {c : Bool} {s s' : Bytes} (h : Recased c s s') (hc : c = true) (hn : 10 ∉ s) : s = s' := by
  induction h with
  | nil c => rfl
  | lf c h ih => simp at hn
  | name h1 h2 h3 h ih => cases hc
  | colon h ih => cases hc
  | value h1 h ih => rw [ih rfl (fun hm => hn (by simp [hm]))]

theorem recased_scan (mx : Nat) (hs : MultiMap) {c : Bool} {s s' : Bytes} (h : Recased c s s') (hn : 10 ∉ s) (key : Bytes) :
    scanLine mx hs key s = scanLine mx hs key s' := by
  induction h generalizing key with
  | nil c => rfl
  | lf c h ih => simp at hn
  | @name b b' s s' h1 h2 h3 h ih =>
    obtain ⟨f1, f2, f3⟩ := lowerByte_facts b b' h3
    have h2' : b' ≠ 58 := fun hh => h2 (f2.mpr hh)
    simp only [scanLine, h2, h2', if_false, f3]
    rw [← lowerByte_eq b, h3, lowerByte_eq b', ih (fun hm => hn (by simp [hm]))]
  | colon h ih => rw [recased_true h rfl (fun hm => hn (by simp [hm]))]
  | value h1 h ih => rw [recased_true h rfl (fun hm => hn (by simp [hm]))]

theorem cut_take_no_lf (limit : Nat) (s : Bytes) (h : 2 < (cut 10 limit s).1.length) :
    10 ∉ (cut 10 limit s).1.take ((cut 10 limit s).1.length - 2) := by
  rcases cut_shape 10 limit s with ⟨p, hp, he⟩ | ⟨hn, _⟩
  · rw [he]
    intro hm
    have : ((p ++ [10]).take ((p ++ [10]).length - 2)) = p.take (p.length - 1) := by
      rw [List.take_append_of_le_length (by simp)]; simp
    rw [this] at hm
    exact hp (List.mem_of_mem_take hm)
  · exact fun hm => hn (List.mem_of_mem_take hm)

/-- Same headers or same error. -/
def SameHeaders : Option (Except ReadCode (MultiMap × Reader)) → Option (Except ReadCode (MultiMap × Reader)) → Prop
  | none, none => True
  | some (.error e), some (.error e') => e = e'
  | some (.ok (hs, _)), some (.ok (hs', _)) => hs = hs'
  | _, _ => False

theorem recased_headerLoop (lim : HttpLimits) (fuel : Nat) (hs : MultiMap) (r r' : Reader) (c : Bool)
    (h : Recased c r.flat r'.flat) (hf : r.fin = r'.fin) :
    SameHeaders (headerLoop lim fuel hs r) (headerLoop lim fuel hs r') := by
  induction fuel generalizing hs r r' c with
  | zero => trivial
  | succ fuel ih =>
    obtain ⟨c1, ⟨c', c2⟩, c3⟩ := recased_cut lim.maxHeaderLine h
    have s1 := Reader.readUntil_spec 10 lim.maxHeaderLine r
    have s2 := Reader.readUntil_spec 10 lim.maxHeaderLine r'
    rw [← c3, ← hf] at s2
    split at s1
    · next hc =>
      rw [if_pos hc] at s2
      obtain ⟨r1, a1, a2, a3⟩ := s1
      obtain ⟨r1', b1, b2, b3⟩ := s2
      simp only [headerLoop, a1, b1, ← recased_length c1]
      split
      · rfl
      · next hl =>
        split
        · rfl
        · next hl2 =>
          rw [← recased_scan lim.maxHeadersCount hs (recased_take _ c1) (cut_take_no_lf _ _ (by omega)) []]
          split
          · rfl
          · exact ih _ r1 r1' c' (by rw [a2, b2]; exact c2) (by rw [a3, b3])
    · next hc =>
      rw [if_neg hc] at s2
      simp only [headerLoop, s1, s2]
      rfl

end Httpd
