import Verif.Spec.ConfigFile
import Verif.Spec.Grammar
/-!
# The limits in force for a service of a configuration file
-/

namespace Httpd.Spec

/-- The service's own limit, else that of the main file, else the one that is built in; zero is the same as not given. -/
def inForce (own main builtin : Nat) : Nat := if own ≠ 0 then own else if main ≠ 0 then main else builtin

/-- A setting of the section `http` of a service (`place` 5) or of the main file (`place` 6), if there is one. -/
def httpSetting (place : Nat) (names : List Str) (i : Nat) (v : Toml) : Option Toml := (setting [u!"http", u!"Http"] place v).bind (setting names i)

/-- The limits for the size of a target, the size of a line and the number of headers that are in force for the service `sv` of the file `v`.
(The last is not inherited: C54.) -/
def LimitsInForce (U : Unicode) (p : Profile) (v sv : Toml) (maxUrl maxLine maxHeaders : Nat) : Prop :=
  ∃ ou mu ol ml n,
    Given (IsSize U p) 0 (httpSetting 5 [u!"max_url_size", u!"MaxUrlSize"] 2 sv) ou ∧
    Given (IsSize U p) 0 (httpSetting 6 [u!"max_url_size", u!"MaxUrlSize"] 2 v) mu ∧
    Given (IsSize U p) 0 (httpSetting 5 [u!"max_header_line_size", u!"MaxHeaderLineSize"] 3 sv) ol ∧
    Given (IsSize U p) 0 (httpSetting 6 [u!"max_header_line_size", u!"MaxHeaderLineSize"] 3 v) ml ∧
    Given IsCount 0 (httpSetting 5 [u!"max_headers_count", u!"MaxHeadersCount"] 4 sv) n ∧
    maxUrl = inForce ou mu 8192 ∧ maxLine = inForce ol ml 6144 ∧ maxHeaders = inForce n 0 128

end Httpd.Spec
