import Verif.Spec.Forever
import Verif.Props.Forever
/-!
# Fair executions exist

Whatever the transition system, and whatever has happened so far: an execution can go on so that nobody of a countable number of them is left out.
-/

namespace Httpd
open Spec

/-- Whose turn it is: every number comes again and again. -/
def ruler (n : Nat) : Nat := if h : n ≠ 0 ∧ n % 2 = 0 then ruler (n / 2) + 1 else 0
decreasing_by omega

theorem ruler_again (k n : Nat) : ∃ m, n ≤ m ∧ ruler m = k := by
  have key : ∀ k, ruler (2 ^ k * (2 * n + 1)) = k := by
    intro k
    induction k with
    | zero => unfold ruler; rw [dif_neg]; simp
    | succ k ih =>
      have hp : 0 < 2 ^ k * (2 * n + 1) := Nat.mul_pos (Nat.pow_pos (by decide)) (by omega)
      have e : 2 ^ (k + 1) * (2 * n + 1) = 2 * (2 ^ k * (2 * n + 1)) := by rw [Nat.pow_succ, Nat.mul_comm (2 ^ k) 2, Nat.mul_assoc]
      rw [e]
      unfold ruler
      rw [dif_pos (by omega), show 2 * (2 ^ k * (2 * n + 1)) / 2 = 2 ^ k * (2 * n + 1) by omega, ih]
  refine ⟨2 ^ k * (2 * n + 1), ?_, key k⟩
  have h1 : 1 ≤ 2 ^ k := Nat.pow_pos (by decide)
  have h2 : 1 * (2 * n + 1) ≤ 2 ^ k * (2 * n + 1) := Nat.mul_le_mul_right _ h1
  omega

variable {S A : Type} {Step : S → A → S → Prop} {start : S}

open Classical in
/-- A turn of the one whose turn it is, if it can take one. -/
noncomputable def turnOf (Step : S → A → S → Prop) (mine : A → Bool) (s : S) : Option A × S :=
  if h : ∃ p : A × S, mine p.1 = true ∧ Step s p.1 p.2 then (some h.choose.1, h.choose.2) else (none, s)

theorem turnOf_step (mine : A → Bool) (s : S) : match (turnOf Step mine s).1 with
    | none => (turnOf Step mine s).2 = s
    | some a => Step s a (turnOf Step mine s).2 := by
  by_cases h : ∃ p : A × S, mine p.1 = true ∧ Step s p.1 p.2
  · rw [show turnOf Step mine s = (some h.choose.1, h.choose.2) from dif_pos h]
    exact h.choose_spec.2
  · rw [show turnOf Step mine s = (none, s) from dif_neg h]

theorem turnOf_only (mine : A → Bool) (s : S) (a : A) (ha : (turnOf Step mine s).1 = some a) : mine a = true := by
  by_cases h : ∃ p : A × S, mine p.1 = true ∧ Step s p.1 p.2
  · rw [show turnOf Step mine s = (some h.choose.1, h.choose.2) from dif_pos h] at ha
    cases ha
    exact h.choose_spec.1
  · rw [show turnOf Step mine s = (none, s) from dif_neg h] at ha
    cases ha

theorem turnOf_mine (mine : A → Bool) (s : S) (h : ∃ a s', mine a = true ∧ Step s a s') : ∃ a, (turnOf Step mine s).1 = some a ∧ mine a = true := by
  obtain ⟨a, s', h1, h2⟩ := h
  unfold turnOf
  rw [dif_pos ⟨(a, s'), h1, h2⟩]
  exact ⟨_, rfl, (Exists.choose_spec (⟨(a, s'), h1, h2⟩ : ∃ p : A × S, mine p.1 = true ∧ Step s p.1 p.2)).1⟩

/-- The states when they take turns. -/
noncomputable def inTurns (Step : S → A → S → Prop) (mine : Nat → A → Bool) (s : S) : Nat → S
  | 0 => s
  | n + 1 => (turnOf Step (mine (ruler n)) (inTurns Step mine s n)).2

/-- **Fair executions exist**: up to any moment of any execution, it can go on so that nobody is left out, and nothing else happens. -/
theorem fair_after (e : Forever Step start) (N : Nat) (mine : Nat → A → Bool) :
    ∃ e' : Forever Step start, (∀ m, m ≤ N → e'.state m = e.state m) ∧ (∀ m, m < N → e'.act m = e.act m) ∧ (∀ k, e'.Fair (mine k)) ∧
      ∀ m a, N ≤ m → e'.act m = some a → ∃ k, mine k a = true := by
  let st : Nat → S := fun m => if m < N then e.state m else inTurns Step mine (e.state N) (m - N)
  let ac : Nat → Option A := fun m => if m < N then e.act m else (turnOf Step (mine (ruler (m - N))) (inTurns Step mine (e.state N) (m - N))).1
  have hst : ∀ m, m ≤ N → st m = e.state m := by
    intro m hm
    by_cases h : m < N
    · simp [st, h]
    · have : m = N := by omega
      subst this
      simp [st, inTurns]
  have hnext : ∀ n, match ac n with
      | none => st (n + 1) = st n
      | some a => Step (st n) a (st (n + 1)) := by
    intro n
    by_cases h : n < N
    · rw [hst n (by omega), hst (n + 1) (by omega)]
      simp only [ac, h, ↓reduceIte]
      exact e.next n
    · have h1 : st (n + 1) = (turnOf Step (mine (ruler (n - N))) (inTurns Step mine (e.state N) (n - N))).2 := by
        have : n + 1 - N = (n - N) + 1 := by omega
        have hn : ¬ n + 1 < N := by omega
        simp only [st, hn, ↓reduceIte, this]
        rfl
      rw [h1]
      simp only [ac, st, h, ↓reduceIte]
      exact turnOf_step _ _
  refine ⟨⟨st, ac, by rw [hst 0 (Nat.zero_le _), e.first], hnext⟩, hst, fun m hm => by simp [ac, hm], fun k n hen => ?_, fun m a hm ha => ?_⟩
  rotate_left
  · have hn : ¬ m < N := by omega
    refine ⟨_, turnOf_only (Step := Step) (mine (ruler (m - N))) (inTurns Step mine (e.state N) (m - N)) a ?_⟩
    have ha : ac m = some a := ha
    simpa only [ac, hn, ↓reduceIte] using ha
  obtain ⟨m, hm, hk⟩ := ruler_again k n
  have hNm : ¬ m + N < N := by omega
  have hsm : st (m + N) = inTurns Step mine (e.state N) m := by simp [st, hNm]
  obtain ⟨a, s', h1, h2⟩ := hen (m + N) (by omega)
  obtain ⟨b, h3, h4⟩ := turnOf_mine (Step := Step) (mine k) (inTurns Step mine (e.state N) m) ⟨a, s', h1, by rw [← hsm]; exact h2⟩
  refine ⟨m + N, b, by omega, ?_, h4⟩
  show ac (m + N) = _
  simp only [ac, hNm, ↓reduceIte, Nat.add_sub_cancel, hk]
  exact h3

/-- Nothing ever happens. -/
def idle (Step : S → A → S → Prop) (start : S) : Forever Step start := ⟨fun _ => start, fun _ => none, rfl, fun _ => rfl⟩

theorem upTo_congr {e e' : Forever Step start} {N : Nat} (h : ∀ m, m < N → e'.act m = e.act m) : ∀ m, m ≤ N → e'.upTo m = e.upTo m := by
  intro m hm
  induction m with
  | zero => rfl
  | succ m ih => rw [upTo_succ, upTo_succ, ih (by omega), h m (by omega)]

/-- **C220**, for everybody at the same time: whatever has happened so far, the execution can go on so that the task of no connection is left out. -/
theorem C220_possible_all {K : Type} (c : Codec K) (setup : Nat → Setup K) (tr : List (Nat × ServerAct)) (s : Server) (h : Server.Run c setup tr s) :
    ∃ e : Forever (Server.Step c setup) Server.start, e.upTo tr.length = tr ∧ e.state tr.length = s ∧ ∀ i, e.Fair (isTurn i) := by
  obtain ⟨e, h1, h2⟩ := run_forever h
  obtain ⟨e', k1, k2, k3, _⟩ := fair_after e tr.length isTurn
  refine ⟨e', ?_, ?_, k3⟩
  · rw [upTo_congr k2 _ (Nat.le_refl _), h1 _ (Nat.le_refl _), List.take_length]
  · rw [k1 _ (Nat.le_refl _), (h2 _ (Nat.le_refl _)).1]

end Httpd
