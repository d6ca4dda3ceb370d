import Verif.Spec.Response
/-! # Specification: two answers that differ in the order of their header names only -/

namespace Httpd.Spec

/-- The lines of one header name: its values, in order. -/
def fieldLines (p : Bytes × List Bytes) : Bytes := (p.2.map (fun v => headerText p.1 v ++ [13, 10])).flatten

/-- The same first line, the same names each with the same values in the same order, and the same body; the names may come in another order. -/
def SameButOrder (a b : Bytes) : Prop :=
  ∃ (start : Bytes) (ps ps' : List (Bytes × List Bytes)) (body : Bytes), ps.Perm ps' ∧
    a = start ++ [13, 10] ++ (ps.map fieldLines).flatten ++ [13, 10] ++ body ∧
    b = start ++ [13, 10] ++ (ps'.map fieldLines).flatten ++ [13, 10] ++ body

/-- What two clients have got of two answers: nothing at all, the whole of two such answers, or as many bytes of both. -/
def GotSame (x y : Bytes) : Prop :=
  (x = [] ∧ y = []) ∨ SameButOrder x y ∨ ∃ a b k, SameButOrder a b ∧ x = a.take k ∧ y = b.take k

end Httpd.Spec
