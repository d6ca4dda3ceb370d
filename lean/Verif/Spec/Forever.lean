/-!
# Executions without end, and fairness

Nothing here is about httpd: executions of any transition system, and what it means that somebody who can do something is not left out for ever.
-/

namespace Httpd.Spec

/-- An execution without end: at every moment one thing is done, or nothing. -/
structure Forever {S A : Type} (Step : S → A → S → Prop) (start : S) where
  state : Nat → S
  act : Nat → Option A
  first : state 0 = start
  next : ∀ n, match act n with
    | none => state (n + 1) = state n
    | some a => Step (state n) a (state (n + 1))

/-- Weak fairness: if from some moment on one of these actions can always be done, one of them is done later on. -/
def Forever.Fair {S A : Type} {Step : S → A → S → Prop} {start : S} (e : Forever Step start) (mine : A → Bool) : Prop :=
  ∀ n, (∀ m, n ≤ m → ∃ a s', mine a = true ∧ Step (e.state m) a s') → ∃ m a, n ≤ m ∧ e.act m = some a ∧ mine a = true

/-- Strong fairness: if one of these actions can be done again and again, one of them is done again and again. -/
def Forever.StronglyFair {S A : Type} {Step : S → A → S → Prop} {start : S} (e : Forever Step start) (mine : A → Bool) : Prop :=
  ∀ n, (∀ m, n ≤ m → ∃ k, m ≤ k ∧ ∃ a s', mine a = true ∧ Step (e.state k) a s') → ∃ m a, n ≤ m ∧ e.act m = some a ∧ mine a = true

end Httpd.Spec
