import Verif.Props.Body
import Verif.Lemmas.Online
/-! # C98–C100: what the server does while the client is silent -/

namespace Httpd
open Spec

/-! ## C98 -/

/-- **C98.** The server is online: whatever it has done (the requests delivered, the responses written) when a part of the
stream has arrived and the client is silent, it has also done, first, when the stream goes on in any way. If it is not waiting
for more bytes at that point, what follows has no effect at all. For every service and any two segmentations. -/
theorem C98_online {K : Type} (c : Codec K) (lim : HttpLimits) (env : Nat → Env K) (r r' : Reader) (x : Bytes)
    (hs : r.fin = .silent) (hx : r'.flat = r.flat ++ x) :
    ∃ more, (serve c lim env r').1 = (serve c lim env r).1 ++ more ∧
      ((serve c lim env r).2 ≠ .waiting → more = [] ∧ (serve c lim env r').2 = (serve c lim env r).2) := by
  have hle : r.flat.length ≤ r'.flat.length := by rw [hx]; simp
  have h := serveLoop_extend c lim env x (r'.flat.length + 1) 0 Message.new Message.new r r' ⟨hs, hx⟩ (by omega)
  have e := (C77_finitely_many c lim env r).2.2 (r'.flat.length + 1) (by omega)
  rw [e] at h
  exact h

/-- Non-trivial case: after one request and half of another, one request has been answered and the server waits; after a
closing request it does not. -/
example : ((serve noCodec sampleLimits (fun _ => sampleEnv) (Reader.ofBytes (sampleReq.encode ++ b!"GET / HT") .silent)).1.length,
    (serve noCodec sampleLimits (fun _ => sampleEnv) (Reader.ofBytes (sampleReq.encode ++ b!"GET / HT") .silent)).2) =
    (1, .waiting) := by decide +kernel

example : (serve noCodec sampleLimits (fun _ => { sampleEnv with http := fun q p => .ok (.current false) q p })
    (Reader.ofBytes (sampleReq.encode ++ b!"GET / HT") .silent)).2 ≠ .waiting := by decide +kernel

/-! ## C99 -/

/-- A strict prefix of a well-formed request leaves the server waiting, without the service being called. -/
theorem serveLoop_partial_waits {K : Type} (c : Codec K) (lim : HttpLimits) (env : Nat → Env K) (fuel i : Nat) (q : WireReq)
    (hq : q.WF lim.maxUrl lim.maxHeaderLine lim.maxHeadersCount) (req resp : Message K) (hb : req.head.Blank)
    (hp : req.body.Plain) (r : Reader) (hs : r.fin = .silent) (z : Bytes) (hz : z ≠ []) (hr : r.flat ++ z = q.encode) :
    serveLoop c lim env (fuel + 1) i req resp r = ([], .waiting) := by
  by_cases hlt : r.flat.length < q.head.encode.length
  · -- inside the head
    obtain ⟨y, hy⟩ : ∃ y, r.flat ++ y = q.head.encode := by
      have : r.flat <+: q.head.encode := by
        apply List.prefix_of_prefix_length_le (l₃ := q.encode) ⟨z, hr⟩ ⟨q.body, rfl⟩ (by omega)
      exact this
    have hyn : y ≠ [] := by rintro rfl; rw [List.append_nil] at hy; rw [hy] at hlt; omega
    have hx := readHead_extend lim y req.head r (Reader.ofBytes q.head.encode .eof) ⟨hs, by rw [Reader.flat_ofBytes, hy]⟩
    obtain ⟨hd', r', h1, _, _, _, _, h2, _⟩ := C02_wellformed_head lim q.head hq.head_wf req.head hb
      (Reader.ofBytes q.head.encode .eof) [] (by simp [Reader.flat_ofBytes])
    rw [h1] at hx
    cases hres : readHead lim req.head r with
    | error e =>
      rw [hres] at hx
      rcases hx with rfl | h
      · simp only [serveLoop, hres, headEnding]
      · cases h
    | ok w =>
      obtain ⟨hd2, r2⟩ := w
      rw [hres] at hx
      obtain ⟨_, _, h3⟩ := hx
      rw [h2] at h3
      exact absurd (List.append_eq_nil_iff.mp h3.symm).2 hyn
  · -- inside the body
    obtain ⟨part, hpart⟩ : ∃ part, r.flat = q.head.encode ++ part := by
      have : q.head.encode <+: r.flat :=
        List.prefix_of_prefix_length_le (l₃ := q.encode) ⟨q.body, rfl⟩ ⟨z, hr⟩ (by omega)
      exact ⟨_, this.choose_spec.symm⟩
    have hbody : part ++ z = q.body := by
      rw [hpart, WireReq.encode, List.append_assoc] at hr
      exact List.append_cancel_left hr
    have hl : part.length < q.body.length := by
      rw [← hbody, List.length_append]
      have := List.length_pos_iff.mpr hz
      omega
    have ha := hq.announce
    cases hv : announced q.head.fields with
    | none => rw [hv] at ha; simp only at ha; rw [ha] at hl; cases hl
    | some v =>
      rw [hv] at ha
      have := C15_short_body_partial c lim env fuel i q.head hq.head_wf v q.body.length hv ha hq.body_len req resp hb hp r part
        hpart hl
      rw [this, hs]

/-- **C99.** The server answers without waiting for more than it needs: when a client has sent any number of complete
well-formed requests and then any strict prefix of a further one, and is silent, all the complete requests have been delivered
and answered completely (if the service keeps the connection open), and the server waits. For any segmentation. -/
theorem C99_answers_at_once {K : Type} (c : Codec K) (lim : HttpLimits) (env : Nat → Env K) (qs : List WireReq) (q : WireReq)
    (hq : ∀ p ∈ q :: qs, p.WF lim.maxUrl lim.maxHeaderLine lim.maxHeadersCount)
    (hk : ∀ j, j < qs.length → KeepsOpen c (env j)) (p : Bytes) (hp : p <+: q.encode) (hne : p ≠ q.encode) (r : Reader)
    (hs : r.fin = .silent) (hr : r.flat = encodeAll qs ++ p) :
    (serve c lim env r).1.length = qs.length ∧ (serve c lim env r).2 = .waiting ∧
    ∀ (j : Nat) (p : WireReq) (ex : Exchange K), qs[j]? = some p → (serve c lim env r).1[j]? = some ex →
      Delivered lim p ex.req.head ∧ Answered c (env j) ex (.current true) := by
  obtain ⟨z, hz⟩ := hp
  have hzn : z ≠ [] := by rintro rfl; rw [List.append_nil] at hz; exact hne hz
  obtain ⟨exs, req', resp', r', fuel, h1, h2, h3, h4, ⟨hb, hpl, _, _, h5, h6⟩, _⟩ :=
    serve_requests c lim env qs (fun p hp => hq p (by simp [hp])) hk r p hr
  obtain ⟨k, rfl⟩ : ∃ k, fuel = k + 1 := ⟨fuel - 1, by omega⟩
  rw [serveLoop_partial_waits c lim env k qs.length q (hq q (by simp)) req' resp' hb hpl r' (h6.trans hs) z hzn (by rw [h5, hz])] at h1
  simp only [List.append_nil] at h1
  rw [h1]
  exact ⟨h3, rfl, h4⟩

/-- Non-trivial case: a request, then a request without its last byte. -/
example : sampleReq.encode.dropLast <+: sampleReq.encode ∧ sampleReq.encode.dropLast ≠ sampleReq.encode ∧
    ((serve noCodec sampleLimits (fun _ => sampleEnv)
      (Reader.ofBytes (sampleReq.encode ++ sampleReq.encode.dropLast) .silent)).1.map (fun e => e.written.drop 47)) =
      [b!"\r\nok"] := by decide +kernel

/-! ## C100 -/

/-- **C100 is violated**: nothing in the connection loop looks at `idle_timeout` (src/config/http.rs:27; src/serve.rs awaits
each read without a timeout), so a client that connects and sends nothing, or stops anywhere inside a request, keeps its
connection for as long as it likes, after any number of answered requests. -/
theorem C100_idle_client_kept_violated {K : Type} (c : Codec K) (lim : HttpLimits) (env : Nat → Env K) (qs : List WireReq)
    (q : WireReq) (hq : ∀ p ∈ q :: qs, p.WF lim.maxUrl lim.maxHeaderLine lim.maxHeadersCount)
    (hk : ∀ j, j < qs.length → KeepsOpen c (env j)) (p : Bytes) (hp : p <+: q.encode) (hne : p ≠ q.encode) (r : Reader)
    (hs : r.fin = .silent) (hr : r.flat = encodeAll qs ++ p) : (serve c lim env r).2 = .waiting :=
  (C99_answers_at_once c lim env qs q hq hk p hp hne r hs hr).2.1

/-- A client that never sends anything. -/
example : (serve noCodec sampleLimits (fun _ => sampleEnv) (Reader.ofBytes [] .silent)).2 = .waiting := by decide +kernel

end Httpd
