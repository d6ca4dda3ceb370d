import Verif.Lemmas.Head
/-! # Facts about the body readers -/

namespace Httpd
open Spec

theorem take_take_drop {α : Type} (l : List α) (k n : Nat) (h : k ≤ n) :
    l.take k ++ (l.drop k).take (n - k) = l.take n := by
  have : l.take n = l.take (k + (n - k)) := by congr 1; omega
  rw [this, List.take_add]

/-- One body reader run with the plain writer, over a body that has its buffer. -/
theorem constLoop_raw {K : Type} (cap fuel remain : Nat) (b : Body K) (x : Bytes) (r : Reader) (hcap : 1 ≤ cap)
    (hb : b.internal = some x) (hr : 1 ≤ remain) (hf : r.flat.length < fuel) :
    (remain ≤ r.flat.length ∧ ∃ r', constLoop Body.writeRaw cap fuel remain b r =
        some (.done { b with internal := some (x ++ r.flat.take remain) } r') ∧
        r'.flat = r.flat.drop remain ∧ r'.fin = r.fin) ∨
    (r.flat.length < remain ∧ r.fin ≠ .eof ∧ constLoop Body.writeRaw cap fuel remain b r =
        some (.fail ((Reader.endStop r.fin).code .connReadError))) ∨
    (r.flat.length < remain ∧ r.fin = .eof ∧ constLoop Body.writeRaw cap fuel remain b r = none) := by
  induction fuel generalizing remain b x r with
  | zero => omega
  | succ fuel ih =>
    have hn : 0 < (if remain < cap then remain else cap) := by split <;> omega
    have hn2 : (if remain < cap then remain else cap) ≤ remain := by split <;> omega
    simp only [constLoop]
    generalize (if remain < cap then remain else cap) = n at hn hn2
    rcases Reader.read_spec n r with ⟨hflat, ⟨hfin, hread⟩ | ⟨hfin, hread⟩⟩ | ⟨hne, k, r1, hread, h1, h2, h3, h4, h5⟩
    · right; right
      refine ⟨by rw [hflat]; exact hr, hfin, ?_⟩
      simp only [hread, Body.writeRaw, hb, List.append_nil, List.length_nil, Nat.sub_zero]
      rw [if_neg (by omega)]
      have hb' : ({ b with internal := some x } : Body K) = b := by cases b; simp_all
      rw [hb']
      clear ih hf
      induction fuel with
      | zero => rfl
      | succ fuel ih =>
        simp only [constLoop]
        generalize (if remain < cap then remain else cap) = n at *
        rcases Reader.read_spec n r with ⟨_, ⟨_, hread'⟩ | ⟨hfin', _⟩⟩ | ⟨hne, _⟩
        · simp only [hread', Body.writeRaw, hb, List.append_nil, List.length_nil, Nat.sub_zero, hb']
          rw [if_neg (by omega)]; exact ih
        · exact absurd hfin hfin'
        · exact absurd hflat hne
    · right; left
      exact ⟨by rw [hflat]; exact hr, hfin, by simp [hread]⟩
    · have hk := h3 hn
      have hl : (r.flat.take k).length = k := by simp; omega
      simp only [hread, Body.writeRaw, hb, hl]
      by_cases hdone : remain - k < 1
      · rw [if_pos hdone]
        have : k = remain := by omega
        subst this
        left; exact ⟨h2, r1, rfl, h4, h5⟩
      · rw [if_neg hdone]
        have hlen : r1.flat.length = r.flat.length - k := by rw [h4]; simp
        rcases ih (remain - k) { b with internal := some (x ++ r.flat.take k) } (x ++ r.flat.take k) r1 rfl (by omega) (by omega) with
          ⟨g1, r', g2, g3, g4⟩ | ⟨g1, g2, g3⟩ | ⟨g1, g2, g3⟩
        · left
          refine ⟨by omega, r', ?_, ?_, by rw [g4, h5]⟩
          · rw [g2, h4, List.append_assoc, take_take_drop _ _ _ (by omega)]
          · rw [g3, h4, List.drop_drop]; congr 1; omega
        · right; left; exact ⟨by omega, by rw [← h5]; exact g2, by rw [← h5]; exact g3⟩
        · right; right; exact ⟨by omega, by rw [← h5]; exact g2, g3⟩

/-- When the peer closes before the announced bytes have arrived, the loop never ends: no number of iterations suffices. -/
theorem constLoop_hang {K : Type} (cap fuel remain : Nat) (b : Body K) (x : Bytes) (r : Reader) (hcap : 1 ≤ cap)
    (hb : b.internal = some x) (hlt : r.flat.length < remain) (hfin : r.fin = .eof) :
    constLoop Body.writeRaw cap fuel remain b r = none := by
  by_cases hf : r.flat.length < fuel
  · rcases constLoop_raw cap fuel remain b x r hcap hb (by omega) hf with ⟨h, _⟩ | ⟨_, h, _⟩ | ⟨_, _, h⟩
    · omega
    · exact absurd hfin h
    · exact h
  · induction fuel generalizing remain b x r with
    | zero => rfl
    | succ fuel ih =>
      have hn : 0 < (if remain < cap then remain else cap) := by split <;> omega
      have hn2 : (if remain < cap then remain else cap) ≤ remain := by split <;> omega
      simp only [constLoop]
      generalize (if remain < cap then remain else cap) = n at hn hn2
      rcases Reader.read_spec n r with ⟨hflat, _⟩ | ⟨hne, k, r1, hread, h1, h2, h3, h4, h5⟩
      · rw [hflat] at hf; simp at hf
      · have hk := h3 hn
        have hl : (r.flat.take k).length = k := by simp; omega
        have hlen : r1.flat.length = r.flat.length - k := by rw [h4]; simp
        simp only [hread, Body.writeRaw, hb, hl]
        rw [if_neg (by omega)]
        by_cases hf' : r1.flat.length < fuel
        · rcases constLoop_raw cap fuel (remain - k) { b with internal := some (x ++ r.flat.take k) } _ r1 hcap rfl (by omega) hf' with
            ⟨h, _⟩ | ⟨_, h, _⟩ | ⟨_, _, h⟩
          · omega
          · exact absurd (h5.trans hfin) h
          · exact h
        · exact ih (remain - k) _ _ r1 rfl (by omega) (by rw [h5]; exact hfin) hf'

/-- A body without buffer: `write_raw` panics at once, unless the read fails first. -/
theorem constLoop_nobuf {K : Type} (cap fuel remain : Nat) (b : Body K) (r : Reader) (hb : b.internal = none) :
    constLoop Body.writeRaw cap (fuel + 1) remain b r =
      if r.flat = [] ∧ r.fin ≠ .eof then some (.fail ((Reader.endStop r.fin).code .connReadError)) else some .panic := by
  simp only [constLoop]
  generalize (if remain < cap then remain else cap) = n
  rcases Reader.read_spec n r with ⟨hflat, ⟨hfin, hread⟩ | ⟨hfin, hread⟩⟩ | ⟨hne, k, r1, hread, h1, h2, h3, h4, h5⟩
  · simp [hread, Body.writeRaw, hb, hfin]
  · simp [hread, hfin, hflat]
  · simp [hread, Body.writeRaw, hb, hne]

/-- `read_const_length_body_impl` with the plain writer, as a function of the bytes to come. -/
theorem readConst_raw {K : Type} (cap n : Nat) (b : Body K) (x : Bytes) (r : Reader) (hcap : 1 ≤ cap)
    (hb : b.internal = some x) :
    (n ≤ r.flat.length ∧ ∃ r', readConst Body.writeRaw cap n b r =
        .done { b with internal := some (x ++ r.flat.take n) } r' ∧ r'.flat = r.flat.drop n ∧ r'.fin = r.fin) ∨
    (r.flat.length < n ∧ r.fin ≠ .eof ∧ readConst Body.writeRaw cap n b r =
        .fail ((Reader.endStop r.fin).code .connReadError)) ∨
    (r.flat.length < n ∧ r.fin = .eof ∧ readConst Body.writeRaw cap n b r = .hang) := by
  simp only [readConst]
  by_cases hn : n < 1
  · rw [if_pos hn]
    left
    have : n = 0 := by omega
    subst this
    have hb' : ({ b with internal := some x } : Body K) = b := by cases b; simp_all
    exact ⟨by omega, r, by simp [hb'], by simp, rfl⟩
  · rw [if_neg hn]
    rcases constLoop_raw cap (r.flat.length + 1) n b x r hcap hb (by omega) (by omega) with
      ⟨g1, r', g2, g3, g4⟩ | ⟨g1, g2, g3⟩ | ⟨g1, g2, g3⟩
    · left; exact ⟨g1, r', by rw [g2]; rfl, g3, g4⟩
    · right; left; exact ⟨g1, g2, by rw [g3]; rfl⟩
    · right; right; exact ⟨g1, g2, by rw [g3]; rfl⟩

theorem readConst_nobuf {K : Type} (cap n : Nat) (b : Body K) (r : Reader) (hb : b.internal = none) :
    readConst Body.writeRaw cap n b r =
      if n < 1 then .done b r
      else if r.flat = [] ∧ r.fin ≠ .eof then .fail ((Reader.endStop r.fin).code .connReadError) else .panic := by
  simp only [readConst]
  split
  · rfl
  · rw [constLoop_nobuf _ _ _ _ _ hb]
    split <;> rfl

/-- Equivalence of results of body readers. -/
def BodyResEquiv {K : Type} : BodyRes K → BodyRes K → Prop
  | .done b r, .done b' r' => b = b' ∧ r.Equiv r'
  | .fail c, .fail c' => c = c'
  | .panic, .panic => True
  | .hang, .hang => True
  | _, _ => False

theorem readConst_congr {K : Type} (cap cap' n : Nat) (b : Body K) (r r' : Reader) (h : r.Equiv r') (hc : 1 ≤ cap)
    (hc' : 1 ≤ cap') : BodyResEquiv (readConst Body.writeRaw cap n b r) (readConst Body.writeRaw cap' n b r') := by
  obtain ⟨h1, h2⟩ := h
  cases hb : b.internal with
  | none =>
    rw [readConst_nobuf _ _ _ _ hb, readConst_nobuf _ _ _ _ hb, ← h1, ← h2]
    by_cases hn : n < 1
    · simp only [if_pos hn]; exact ⟨rfl, h1, h2⟩
    · simp only [if_neg hn]
      split
      · rfl
      · trivial
  | some x =>
    rcases readConst_raw cap n b x r hc hb with ⟨g1, q, g2, g3, g4⟩ | ⟨g1, g2, g3⟩ | ⟨g1, g2, g3⟩ <;>
    rcases readConst_raw cap' n b x r' hc' hb with ⟨g1', q', g2', g3', g4'⟩ | ⟨g1', g2', g3'⟩ | ⟨g1', g2', g3'⟩ <;>
    rw [← h1] at * <;> try omega
    · rw [g2, g2']; exact ⟨rfl, by rw [g3, g3'], by rw [g4, g4', h2]⟩
    · rw [g3, g3', h2]; rfl
    · exact absurd (h2.trans g2') g2
    · exact absurd (h2.symm.trans g2) g2'
    · rw [g3, g3']; trivial

theorem readConstLengthBody_congr {K : Type} (cap cap' : Nat) (hs : MultiMap) (b : Body K) (r r' : Reader) (h : r.Equiv r')
    (hc : 1 ≤ cap) (hc' : 1 ≤ cap') :
    BodyResEquiv (readConstLengthBody cap hs b r) (readConstLengthBody cap' hs b r') := by
  simp only [readConstLengthBody]
  split
  · exact readConst_congr _ _ _ _ _ _ h hc hc'
  · rfl

/-- When a body read is done, nothing but its bytes is gone from the stream. -/
theorem readConst_done {K : Type} {cap n : Nat} {b b' : Body K} {r r' : Reader} (hc : 1 ≤ cap)
    (h : readConst Body.writeRaw cap n b r = .done b' r') :
    n ≤ r.flat.length ∧ r'.flat = r.flat.drop n ∧ r'.fin = r.fin ∧ b'.cw = b.cw ∧
      b'.internal = b.internal.map (· ++ r.flat.take n) := by
  cases hb : b.internal with
  | none =>
    rw [readConst_nobuf _ _ _ _ hb] at h
    split at h
    · cases h
      have : n = 0 := by omega
      subst this; simp [hb]
    · split at h <;> cases h
  | some x =>
    rcases readConst_raw cap n b x r hc hb with ⟨g1, q, g2, g3, g4⟩ | ⟨g1, g2, g3⟩ | ⟨g1, g2, g3⟩
    · rw [g2] at h; cases h; exact ⟨g1, g3, g4, rfl, rfl⟩
    · rw [g3] at h; cases h
    · rw [g3] at h; cases h

end Httpd
