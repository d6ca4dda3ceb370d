import Verif.Model.Message
/-!
# Model of `write_all` on a message body (src/message.rs:32-47)

`MessageBody` implements `std::io::Write` with `write` and `flush`; `write_all` is the method the trait provides.
-/

namespace Httpd.Body
variable {K : Type}

/-- `std::io::Write::write_all` over src/message.rs:32-43 `write`: what was not taken is written again; `Ok(0)` and an error end it
(`false` = `Err`; the kind `Interrupted`, after which std tries again, does not occur with buffers in memory). A codec that says it took
more than it was given makes the slice `&buf[n..]` panic. -/
def writeAll (c : Codec K) (b : Body K) (v : Bytes) : Out (Body K × Bool) :=
  if v = [] then .ret (b, true)
  else
    match b.write c v with
    | .panic => .panic
    | .ret (b', none) => .ret (b', false)
    | .ret (b', some n) =>
      if n = 0 then .ret (b', false)
      else if v.length < n then .panic
      else b'.writeAll c (v.drop n)
termination_by v.length
decreasing_by
  rename_i hv hn _
  rw [List.length_drop]
  have := List.length_pos_iff.mpr hv
  omega

end Httpd.Body
