import Verif.Props.Serve
/-!
# C24: exactly when a service sees the body of the request alone
-/

namespace Httpd

open Spec MultiMap

/-- **C24**, exactly what holds of bodies: on a connection kept open by services that leave the request as it is, the service sees the body of a request,
and nothing else, if and only if no request before it had a body. Missing: the other connections (`C24_bodies_accumulate_violated`). -/
theorem C24_body_exactly_partial {K : Type} (c : Codec K) (lim : HttpLimits) (env : Nat → Env K) (qs : List WireReq) (q : WireReq)
    (hq : ∀ x ∈ qs ++ [q], x.WF lim.maxUrl lim.maxHeaderLine lim.maxHeadersCount)
    (hk : ∀ j, j < qs.length + 1 → KeepsOpen c (env j)) (hb : ∀ j, j < qs.length + 1 → KeepsReqBody (env j))
    (r : Reader) (hr : r.flat = encodeAll (qs ++ [q])) (ex : Exchange K) (h : (serve c lim env r).1[qs.length]? = some ex) :
    ex.req.body.internal = some q.body ↔ ∀ x ∈ qs, x.body = [] := by
  have e := C24_bodies_accumulate_violated c lim env (qs ++ [q]) hq (by simpa using hk) (by simpa using hb) r hr qs.length ex h
  rw [e, List.take_of_length_le (by simp)]
  simp only [List.map_append, List.map_cons, List.map_nil, List.flatten_append, List.flatten_cons, List.flatten_nil, List.append_nil,
    Option.some.injEq]
  constructor
  · intro h x hx
    have hl := congrArg List.length h
    have h0 : (qs.map WireReq.body).flatten = [] := List.eq_nil_of_length_eq_zero (by simp only [List.length_append] at hl; omega)
    exact List.flatten_eq_nil_iff.mp h0 _ (List.mem_map.mpr ⟨x, hx, rfl⟩)
  · intro h
    have h0 : (qs.map WireReq.body).flatten = [] := by
      rw [List.flatten_eq_nil_iff]
      intro l hl
      obtain ⟨x, hx, rfl⟩ := List.mem_map.mp hl
      exact h x hx
    rw [h0, List.nil_append]

/-- Non-trivial case: after a request without a body the body is seen alone, after one with a body it is not. -/
example : ((serve noCodec sampleLimits (fun _ => sampleEnv)
    (Reader.ofBytes (encodeAll [⟨sampleHead, []⟩, sampleReq, sampleReq]) .eof)).1.map (fun e => e.req.body.internal)) =
    [some [], some b!"body", some b!"bodybody"] := by decide +kernel

end Httpd
