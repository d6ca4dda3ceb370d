import Verif.Spec.RotationLoss
/-!
# Records of one day
-/

namespace Httpd.Spec

open Httpd

/-- The day (hour) of time `t` begins at one time; it is over 24 hours (one hour) later and, from `t` on, not before. -/
def Regular (z : Zone) (p t : Int) : Prop :=
  ∃ u, z.fromLocal (z.localTime t / p * p) = .single u ∧ 0 ≤ u + p ∧ (∀ v, u + p ≤ v → period z p t < period z p v) ∧
    ∀ v, t ≤ v → v < u + p → period z p v = period z p t

/-- Writes in groups, the first of which begins at time `t`: all writes of a group are of the day (hour) in which the group begins, except the
last one of each group but the last, which is of a later day (hour); the next group begins when that write is done. -/
def DayGroups (z : Zone) (p : Int) : Int → List (List Timed) → Prop
  | _, [] => False
  | t, [g] => ∀ w ∈ g, period z p w.moment.now = period z p t
  | t, g :: g' :: gs => ∃ ws w, g = ws ++ [w] ∧ (∀ x ∈ ws, period z p x.moment.now = period z p t) ∧
      period z p t < period z p w.moment.now ∧ DayGroups z p w.later (g' :: gs)

/-- The records of writes. -/
def recordBytes (ws : List Timed) : Bytes := (ws.map (·.record)).flatten

end Httpd.Spec
