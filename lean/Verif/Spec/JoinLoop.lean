import Verif.Model.ConnLog
import Verif.Model.Main
/-! # What the log should say about a service that has ended -/

namespace Httpd.Spec

open Httpd

/-- The record about a service that came to `e`, `text` being the `{:?}` text of the error. -/
def failureRecord : RunEnd → Bytes → Option Rec
  | .err, text => some ⟨.error, [], b!"service serve error, " ++ text⟩
  | .panic, text => some ⟨.error, [], b!"join error, " ++ text⟩
  | _, _ => none

end Httpd.Spec
