import Verif.Model.Console
import Verif.Model.LogChain
/-!
# Model of the consumer thread at work on the consoles of a whole configuration

`Model/LogChain` has the calls the consumer thread makes during a run, `Model/Console` what becomes of the calls of console appenders. Here
they meet. What `println!` puts on standard output in between (src/main.rs:176, 275-278, 288) is not in the model.
-/

namespace Httpd

/-- Of the calls of appenders, those of consoles (src/logging/console_appender.rs:13-20), as `Model/Console` has them. -/
def consoleCalls (as : List AppenderInit) (calls : List (Nat × FileCall)) : List Console.Call :=
  calls.filterMap (fun c =>
    match as[c.1]? with
    | some a =>
      if a.path = none then
        match c.2 with
        | .write b => some (.write c.1 b)
        | .flush => some (.flush c.1)
      else none
    | none => none)

end Httpd
