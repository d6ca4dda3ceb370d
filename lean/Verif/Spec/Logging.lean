import Verif.Spec.Config
import Verif.Model.Logging
/-! # What logging should do, independently of how the code does it -/

namespace Httpd.Spec

/-- The levels a filter at a level lets through: that level and everything more severe. -/
def allowed : Level → List Level
  | .error => [.error]
  | .warn => [.error, .warn]
  | .info => [.error, .warn, .info]
  | .debug => [.error, .warn, .info, .debug]
  | .trace => [.error, .warn, .info, .debug, .trace]

/-- Two texts that differ at most in the case of ASCII letters. -/
def SameText (a b : Str) : Prop := a.map lowerPoint = b.map lowerPoint

instance (a b : Str) : Decidable (SameText a b) := inferInstanceAs (Decidable (_ = _))

/-- The words for the levels in a line. -/
def levelWord : Level → Bytes
  | .error => b!"ERROR"
  | .warn => b!"WARN"
  | .info => b!"INFO"
  | .debug => b!"DEBUG"
  | .trace => b!"TRACE"

/-- The name of a level. -/
def levelText : Level → Str
  | .error => u!"ERROR"
  | .warn => u!"WARN"
  | .info => u!"INFO"
  | .debug => u!"DEBUG"
  | .trace => u!"TRACE"

/-- The level that a text in the configuration means: the one it names, ignoring case; trace if it names none, or there is no text. -/
inductive LevelMeant : Option Str → Level → Prop
  | named (s l) : SameText s (levelText l) → LevelMeant (some s) l
  | unknown (s) : (∀ l : Level, ¬ SameText s (levelText l)) → LevelMeant (some s) .trace
  | missing : LevelMeant none .trace

/-- The positions of the appenders a record should be written to: those of its service that accept it, in order. -/
def wanted (as : List Appender) (item : Item) : List Nat :=
  (List.range as.length).filter (fun i => match as[i]? with
    | some a => a.service = item.service && a.filter item
    | none => false)

/-- A write brings the bytes of the renderer the appender was configured with. -/
def Rendered (as : List Appender) (rs : List Renderer) (item : Item) (w : Nat × Bytes) : Prop :=
  ∃ a r, as[w.1]? = some a ∧ r ∈ rs ∧ SameText r.name a.renderer ∧ w.2 = r.render item

/-- The number given last under the key `service`. -/
def lastService (pairs : List (Bytes × KvValue)) : Nat :=
  ((pairs.filter (fun p => p.1 = b!"service")).filterMap (·.2.u64)).getLast?.getD 0

/-- The other pairs that have a key, with their JSON text. -/
def otherPairs (pairs : List (Bytes × KvValue)) : List (Bytes × Bytes) :=
  (pairs.filter (fun p => p.1 ≠ [] ∧ p.1 ≠ b!"service")).map (fun p => (p.1, p.2.json))

end Httpd.Spec
