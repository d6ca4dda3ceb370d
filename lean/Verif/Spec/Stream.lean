import Verif.Base.Bytes
/-!
# Specification: cutting a byte string at a delimiter

What `read_until` with a limit returns, as a function of the bytes alone.
-/

namespace Httpd.Spec

/-- The shortest prefix of `s` ending in `delim`, of at most `limit` bytes (all of `s` if it is shorter and has no
delimiter), and the rest. -/
def cut (delim : Byte) : Nat → Bytes → Bytes × Bytes
  | 0, s => ([], s)
  | _ + 1, [] => ([], [])
  | n + 1, b :: s => if b = delim then ([b], s) else (b :: (cut delim n s).1, (cut delim n s).2)

/-- Whether the cut is decided by `s` alone (delimiter found or limit reached), so that no further byte is awaited. -/
def cutDone (delim : Byte) : Nat → Bytes → Bool
  | 0, _ => true
  | _ + 1, [] => false
  | n + 1, b :: s => if b = delim then true else cutDone delim n s

end Httpd.Spec
