import Verif.Lemmas.Serve
/-! # C01, C22–C26, C77: the connection loop -/

namespace Httpd
open Spec MultiMap

/-! ## C01 -/

/-- **C01.** Two connections on which the same bytes arrive and that end in the same way behave the same - requests seen,
bytes written, ending - however the bytes are cut into reads and whatever the capacity of the connection's buffer, for every
service, codec, configuration and write-failure schedule. -/
theorem C01_segmentation {K : Type} (c : Codec K) (lim : HttpLimits) (env env' : Nat → Env K)
    (he : ∀ i, (env i).http = (env' i).http ∧ (env i).write = (env' i).write ∧ (env i).ord = (env' i).ord)
    (r r' : Reader) (hflat : r.flat = r'.flat) (hfin : r.fin = r'.fin) :
    serve c lim env r = serve c lim env' r' := by
  simp only [serve, ← hflat]
  exact serveLoop_congr c lim env env' he _ _ _ _ r r' ⟨hflat, hfin⟩

/-- A service used in examples: answers every request with `ok`, echoing nothing, and keeps the connection open. -/
def sampleService : Message Unit → Message Unit → HandlerRes Unit := fun req resp =>
  .ok (.current true) req
    { head := { f0 := b!"HTTP/1.1", f1 := b!"200", f2 := b!"OK", headers := resp.head.headers.append b!"server" b!"x" },
      body := { resp.body with internal := resp.body.internal.map (· ++ b!"ok") } }

/-- An environment with a one-byte buffer. -/
def sampleEnv : Env Unit := { http := sampleService, cap := 1, cap_pos := by decide, write := .ok, ord := id }

/-- A codec that refuses everything (no service of the examples uses it). -/
def noCodec : Codec Unit :=
  { compressor := fun _ _ _ => (), decompressor := fun _ _ => (), append := fun k _ => (k, none), expose := fun _ => none }

/-- A sample request with a body. -/
def sampleReq : WireReq :=
  { head := { w0 := b!"POST", w1 := b!"/x", w2 := b!"HTTP/1.1",
              fields := [⟨b!"Content-Length", b!"4", 1, 0⟩, ⟨b!"Host", b!"h", 0, 0⟩] },
    body := b!"body" }

theorem sampleReq_wf : sampleReq.WF sampleLimits.maxUrl sampleLimits.maxHeaderLine sampleLimits.maxHeadersCount := by
  refine ⟨⟨⟨by decide, by decide, by decide, by decide, by decide, by decide, by decide⟩, ?_, by decide, by decide⟩, by decide, ?_⟩
  · intro f hf
    simp only [sampleReq, List.mem_cons, List.not_mem_nil, or_false] at hf
    rcases hf with rfl | rfl <;>
      exact ⟨by decide, by decide, by decide, by decide, by decide, by decide, by decide, by decide⟩
  · exact ⟨b!"4", Or.inl rfl, by decide, by decide, by decide⟩

theorem sampleEnv_open : KeepsOpen noCodec sampleEnv := by
  refine ⟨rfl, fun req resp h1 h2 h3 => ⟨_, _, rfl, h1.usable, Or.inl ?_, ?_⟩⟩
  · simp only [Option.isSome_map]; exact h2.1
  · simp [Body.finish, h2.2]

/-- Non-trivial case of C01: one read against byte-by-byte reads, different buffer capacities; two requests are delivered. -/
example : serve noCodec sampleLimits (fun _ => sampleEnv) (Reader.ofBytes (sampleReq.encode ++ sampleReq.encode) .eof) =
    serve noCodec sampleLimits (fun _ => { sampleEnv with cap := 4096, cap_pos := by decide })
      { buf := [], segs := (sampleReq.encode ++ sampleReq.encode).map (fun b => ⟨b, []⟩), fin := .eof } :=
  C01_segmentation _ _ _ _ (fun _ => ⟨rfl, rfl, rfl⟩) _ _ (by decide +kernel) rfl

example : ((serve noCodec sampleLimits (fun _ => sampleEnv)
    (Reader.ofBytes (sampleReq.encode ++ sampleReq.encode) .eof)).1.map (fun e => e.req.head.f0)) =
    [b!"POST", b!"POST"] := by decide +kernel

/-! ## C22 -/

/-- How the last request of a connection was dealt with, by the way the connection ended. -/
def LastExchange {K : Type} (c : Codec K) (e : Env K) (ex : Exchange K) : Ending → Prop
  | .closed => Answered c e ex (.current false)
  | .webSocket => Answered c e ex .webSocket
  | .http2 => Answered c e ex .http2
  | .handlerErr => ex.written = [] ∧ ∃ resp0, e.http ex.req resp0 = .err
  | .panic => ex.written = [] ∧ ∃ resp0, e.http ex.req resp0 = .panic
  | .writeFail => ∃ resp0 p req2 resp2 m, e.http ex.req resp0 = .ok p req2 resp2 ∧
      ((encodeResponse c e.ord resp2 = (m, none) ∧ ex.written = []) ∨
       ∃ bytes k, encodeResponse c e.ord resp2 = (m, some bytes) ∧ e.write = .failAfter k .error ∧ ex.written = bytes.take k)
  | .stalled => ∃ resp0 p req2 resp2 m bytes k, e.http ex.req resp0 = .ok p req2 resp2 ∧
      encodeResponse c e.ord resp2 = (m, some bytes) ∧ e.write = .failAfter k .wait ∧ ex.written = bytes.take k
  | _ => False

theorem serveLoop_answers {K : Type} (c : Codec K) (lim : HttpLimits) (env : Nat → Env K) (fuel i : Nat)
    (req resp : Message K) (r : Reader) (j : Nat) (ex : Exchange K)
    (h : (serveLoop c lim env fuel i req resp r).1[j]? = some ex) :
    Answered c (env (i + j)) ex (.current true) ∨
    (j + 1 = (serveLoop c lim env fuel i req resp r).1.length ∧
      LastExchange c (env (i + j)) ex (serveLoop c lim env fuel i req resp r).2) := by
  induction fuel generalizing i req resp r j with
  | zero => simp [serveLoop] at h
  | succ fuel ih =>
    have one : ∀ (e0 : Exchange K) (en : Ending), [e0][j]? = some ex → LastExchange c (env i) e0 en →
        Answered c (env (i + j)) ex (.current true) ∨ (j + 1 = [e0].length ∧ LastExchange c (env (i + j)) ex en) := by
      intro e0 en h1 h2
      cases j with
      | zero => simp at h1; subst h1; right; exact ⟨rfl, h2⟩
      | succ j => simp at h1
    simp only [serveLoop] at h ⊢
    cases hh : readHead lim req.head r with
    | error e => simp [hh] at h
    | ok x =>
      obtain ⟨hd, r1⟩ := x
      simp only [hh] at h ⊢
      cases hb : readConstLengthBody (env i).cap hd.headers req.body r1 with
      | fail e => simp [hb] at h
      | panic => simp [hb] at h
      | hang => simp [hb] at h
      | done body r2 =>
        simp only [hb] at h ⊢
        cases hs : (env i).http ⟨hd, body⟩ resp with
        | err =>
          simp only [hs] at h ⊢
          exact one _ _ h ⟨rfl, resp, hs⟩
        | panic =>
          simp only [hs] at h ⊢
          exact one _ _ h ⟨rfl, resp, hs⟩
        | ok p req2 resp2 =>
          simp only [hs] at h ⊢
          rcases he : encodeResponse c (env i).ord resp2 with ⟨resp3, _ | bytes⟩
          · simp only [he] at h ⊢
            exact one _ _ h ⟨resp, p, req2, resp2, resp3, hs, Or.inl ⟨he, rfl⟩⟩
          · simp only [he] at h ⊢
            cases hw : (env i).write with
            | failAfter k s =>
              simp only [hw] at h ⊢
              cases s with
              | error => exact one _ _ h ⟨resp, p, req2, resp2, resp3, hs, Or.inr ⟨bytes, k, he, hw, rfl⟩⟩
              | wait => exact one _ _ h ⟨resp, p, req2, resp2, resp3, bytes, k, hs, he, hw, rfl⟩
            | ok =>
              simp only [hw] at h ⊢
              cases p with
              | webSocket => simp only at h ⊢; exact one _ _ h ⟨resp, req2, resp2, resp3, hs, he, hw⟩
              | http2 => simp only at h ⊢; exact one _ _ h ⟨resp, req2, resp2, resp3, hs, he, hw⟩
              | current ka =>
                cases ka with
                | false => simp only at h ⊢; exact one _ _ h ⟨resp, req2, resp2, resp3, hs, he, hw⟩
                | true =>
                  simp only at h ⊢
                  cases j with
                  | zero =>
                    simp only [List.getElem?_cons_zero, Option.some.injEq] at h
                    subst h
                    left; exact ⟨resp, req2, resp2, resp3, hs, he, hw⟩
                  | succ j =>
                    simp only [List.getElem?_cons_succ] at h
                    have := ih (i + 1) (req2.clear c) (resp3.clear c) r2 j h
                    rw [Nat.add_assoc, Nat.add_comm 1 j] at this
                    simpa using this

/-- All the bytes written on a connection. -/
def bytesWritten {K : Type} (exs : List (Exchange K)) : Bytes := (exs.map Exchange.written).flatten

/-- **C22.** For every service, byte sequence, segmentation and write-failure schedule: each delivered request but possibly
the last was answered by the complete serialisation of the response the service produced for it; the last one too, unless the
service failed or panicked (nothing is written), the response could not be serialised (nothing is written) or writing failed
(a prefix is written). The bytes written are these, in request order (`bytesWritten`). -/
theorem C22_responses_in_order {K : Type} (c : Codec K) (lim : HttpLimits) (env : Nat → Env K) (r : Reader) (j : Nat)
    (ex : Exchange K) (h : (serve c lim env r).1[j]? = some ex) :
    Answered c (env j) ex (.current true) ∨
    (j + 1 = (serve c lim env r).1.length ∧ LastExchange c (env j) ex (serve c lim env r).2) := by
  have := serveLoop_answers c lim env _ 0 _ _ r j ex h
  rwa [Nat.zero_add] at this

/-- **C22**, a response that cannot be finished: when the compressor fails at the end of the body that the service wrote, not one byte is
written in answer to the request - neither of its head nor of its body -, and the connection ends there. -/
theorem C22_unfinished_sends_nothing {K : Type} (c : Codec K) (lim : HttpLimits) (env : Nat → Env K) (r : Reader) (j : Nat)
    (ex : Exchange K) (h : (serve c lim env r).1[j]? = some ex)
    (hbad : ∀ req resp p req2 resp2, (env j).http req resp = .ok p req2 resp2 → (resp2.body.finish c).2 = false) :
    ex.written = [] ∧ j + 1 = (serve c lim env r).1.length ∧
      (serve c lim env r).2 ∈ [Ending.handlerErr, .panic, .writeFail] := by
  have none : ∀ {req resp p req2 resp2 m bytes}, (env j).http req resp = .ok p req2 resp2 →
      encodeResponse c (env j).ord resp2 ≠ (m, some bytes) := by
    intro req resp p req2 resp2 m bytes hok he
    have := hbad _ _ _ _ _ hok
    unfold encodeResponse at he
    rcases hf : resp2.body.finish c with ⟨b, ok⟩
    rw [hf] at this he
    simp only at this
    subst this
    simp at he
  have noAns : ∀ {p}, ¬ Answered c (env j) ex p := by
    rintro p ⟨resp, req2, resp2, m, hok, he, _⟩
    exact none hok he
  rcases C22_responses_in_order c lim env r j ex h with ha | ⟨hl, hx⟩
  · exact absurd ha noAns
  · cases hen : (serve c lim env r).2 <;> rw [hen] at hx <;> simp only [LastExchange] at hx
    case closed => exact absurd hx noAns
    case webSocket => exact absurd hx noAns
    case http2 => exact absurd hx noAns
    case handlerErr => exact ⟨hx.1, hl, by simp⟩
    case panic => exact ⟨hx.1, hl, by simp⟩
    case writeFail =>
      obtain ⟨resp0, p, req2, resp2, m, hok, ⟨_, hw⟩ | ⟨bytes, k, he, _⟩⟩ := hx
      · exact ⟨hw, hl, by simp⟩
      · exact absurd he (none hok)
    case stalled =>
      obtain ⟨resp0, p, req2, resp2, m, bytes, k, hok, he, _⟩ := hx
      exact absurd he (none hok)

/-- A service that turns compression on, with a compressor that cannot finish. -/
example : ((serve noCodec sampleLimits (fun _ => { sampleEnv with
      http := fun req resp => .ok (.current true) req { resp with body := { internal := none, cw := some () } } })
    (Reader.ofBytes (sampleReq.encode ++ sampleReq.encode) .eof)).1.map (fun e => e.written)) = [[]] := by decide +kernel

/-- Non-trivial case: the second response of two is cut after 10 bytes. -/
example : ((serve noCodec sampleLimits (fun i => { sampleEnv with write := if i = 1 then .failAfter 10 .error else .ok })
    (Reader.ofBytes (sampleReq.encode ++ sampleReq.encode) .eof)).1.map (fun e => e.written)) =
    [b!"HTTP/1.1 200 OK\r\nserver: x\r\ncontent-length: 2\r\n\r\nok", b!"HTTP/1.1 2"] := by decide +kernel

/-! ## C23 -/

theorem encodeAll_length_ge (qs : List WireReq) : qs.length ≤ (encodeAll qs).length := by
  induction qs with
  | nil => simp
  | cons q qs ih =>
    have h1 : encodeAll (q :: qs) = q.encode ++ encodeAll qs := by simp [encodeAll]
    have h2 : 1 ≤ q.encode.length := by simp [WireReq.encode, WireHead.encode, WireHead.start]; omega
    rw [h1]; simp; omega

/-- `serve` on a list of well-formed requests followed by anything. -/
theorem serve_requests {K : Type} (c : Codec K) (lim : HttpLimits) (env : Nat → Env K) (qs : List WireReq)
    (hq : ∀ q ∈ qs, q.WF lim.maxUrl lim.maxHeaderLine lim.maxHeadersCount)
    (hk : ∀ j, j < qs.length → KeepsOpen c (env j)) (r : Reader) (s : Bytes) (hr : r.flat = encodeAll qs ++ s) :
    ∃ exs req' resp' r' fuel, serve c lim env r =
        (exs ++ (serveLoop c lim env fuel qs.length req' resp' r').1, (serveLoop c lim env fuel qs.length req' resp' r').2) ∧
      s.length < fuel ∧ exs.length = qs.length ∧
      (∀ (j : Nat) (q : WireReq) (ex : Exchange K), qs[j]? = some q → exs[j]? = some ex → Delivered lim q ex.req.head ∧ Answered c (env j) ex (.current true)) ∧
      (req'.head.Blank ∧ req'.body.Plain ∧ resp'.head.Blank ∧ resp'.body.Plain ∧ r'.flat = s ∧ r'.fin = r.fin) ∧
      ((∀ j, j < qs.length → KeepsReqBody (env j)) → ∀ j ex, exs[j]? = some ex →
        ex.req.body.internal = some ((qs.take (j + 1)).map WireReq.body).flatten) ∧
      (∀ out : Nat → Bytes, (∀ j, j < qs.length → AppendsRespBody (out j) (env j)) → ∀ j ex, exs[j]? = some ex →
        ∃ f0 f1 f2 ps, ex.written = responseBytes f0 f1 f2 ps ((List.range (j + 1)).map out).flatten) := by
  have hlen : qs.length ≤ r.flat.length := by
    have := encodeAll_length_ge qs
    rw [hr]; simp; omega
  obtain ⟨exs, req', resp', r', h1, h2, h3, h4, h5, h6⟩ := serveLoop_requests c lim env qs hq 0
    (fun j hj => by simpa using hk j hj) (r.flat.length + 1 - qs.length) Message.new Message.new Head.blank_new Body.plain_new
    Head.blank_new Body.plain_new r s hr
  refine ⟨exs, req', resp', r', r.flat.length + 1 - qs.length, ?_, ?_, h2, ?_, h4, ?_, ?_⟩
  · rw [serve, Nat.zero_add] at *
    rw [← h1]
    congr 1
    omega
  · rw [hr]
    have := encodeAll_length_ge qs
    simp; omega
  · simpa using h3
  · intro hh j ex hj
    have := h5 (by simpa using hh) [] rfl j ex hj
    simpa using this
  · intro out hh j ex hj
    have := h6 out (by simpa using hh) [] rfl j ex hj
    simpa using this

/-- **C23.** If a client sends well-formed requests back to back, each with its announced body, and then closes (or the
stream fails), a service that keeps the connection open sees exactly these requests, in order, each with its own method,
target, version and headers, and answers each of them; then the connection ends. If the client sends them and then waits,
keeping the connection open, all of them have been answered: the server waits for the next request. For any segmentation. -/
theorem C23_pipelined {K : Type} (c : Codec K) (lim : HttpLimits) (env : Nat → Env K) (qs : List WireReq)
    (hq : ∀ q ∈ qs, q.WF lim.maxUrl lim.maxHeaderLine lim.maxHeadersCount)
    (hk : ∀ j, j < qs.length → KeepsOpen c (env j)) (r : Reader) (hr : r.flat = encodeAll qs) :
    (serve c lim env r).1.length = qs.length ∧
    (serve c lim env r).2 = (if r.fin = .silent then .waiting else .headFail .connReadError) ∧
    ∀ (j : Nat) (q : WireReq) (ex : Exchange K), qs[j]? = some q → (serve c lim env r).1[j]? = some ex →
      ex.req.head.f0 = q.head.w0 ∧ ex.req.head.f1 = q.head.w1 ∧ ex.req.head.f2 = q.head.w2 ∧
      (∀ k, ex.req.head.headers.getall k = lookupFields q.head.fields k) ∧ Answered c (env j) ex (.current true) := by
  obtain ⟨exs, req', resp', r', fuel, h1, h2, h3, h4, ⟨_, _, _, _, h5, h6⟩, _⟩ := serve_requests c lim env qs hq hk r [] (by simpa using hr)
  have he := readHead_empty lim req'.head r' h5
  obtain ⟨k, rfl⟩ : ∃ k, fuel = k + 1 := ⟨fuel - 1, by simp at h2; omega⟩
  simp only [serveLoop, he, List.append_nil] at h1
  rw [h1]
  refine ⟨h3, by rw [h6]; split <;> rfl, ?_⟩
  intro j q ex hj hj'
  obtain ⟨⟨a, b, cc, d⟩, f⟩ := h4 j q ex hj hj'
  exact ⟨a, b, cc, d, f⟩

/-- Non-trivial case: three pipelined requests. -/
example : ∃ r : Reader, r.flat = encodeAll [sampleReq, ⟨sampleHead, []⟩, sampleReq] ∧
    (∀ q ∈ [sampleReq, ⟨sampleHead, []⟩, sampleReq],
      q.WF sampleLimits.maxUrl sampleLimits.maxHeaderLine sampleLimits.maxHeadersCount) ∧
    KeepsOpen noCodec sampleEnv := by
  refine ⟨Reader.ofBytes _ .eof, Reader.flat_ofBytes _ _, ?_, sampleEnv_open⟩
  intro q hq
  simp only [List.mem_cons, List.not_mem_nil, or_false] at hq
  rcases hq with rfl | rfl | rfl
  · exact sampleReq_wf
  · exact ⟨sampleHead_wf, by decide, rfl⟩
  · exact sampleReq_wf

/-- **C23 (any service).** Whatever the service does, what it sees is a prefix of the requests sent. -/
theorem C23_prefix {K : Type} (c : Codec K) (lim : HttpLimits) (env : Nat → Env K) (qs : List WireReq)
    (hq : ∀ q ∈ qs, q.WF lim.maxUrl lim.maxHeaderLine lim.maxHeadersCount) (r : Reader) (hr : r.flat = encodeAll qs) :
    (serve c lim env r).1.length ≤ qs.length ∧
    ∀ (j : Nat) (q : WireReq) (ex : Exchange K), qs[j]? = some q → (serve c lim env r).1[j]? = some ex →
      ex.req.head.f0 = q.head.w0 ∧ ex.req.head.f1 = q.head.w1 ∧ ex.req.head.f2 = q.head.w2 ∧
      (∀ k, ex.req.head.headers.getall k = lookupFields q.head.fields k) := by
  suffices H : ∀ (fuel i : Nat) (req resp : Message K), req.head.Blank →
      ((serveLoop c lim env fuel i req resp r).1.length ≤ qs.length ∧
      ∀ (j : Nat) (q : WireReq) (ex : Exchange K), qs[j]? = some q → (serveLoop c lim env fuel i req resp r).1[j]? = some ex → Delivered lim q ex.req.head) by
    obtain ⟨h1, h2⟩ := H (r.flat.length + 1) 0 Message.new Message.new Head.blank_new
    refine ⟨h1, fun j q ex hj hj' => ?_⟩
    obtain ⟨a, b, cc, d⟩ := h2 j q ex hj hj'
    exact ⟨a, b, cc, d⟩
  intro fuel i req resp hb
  induction qs generalizing fuel i req resp r with
  | nil =>
    cases fuel with
    | zero => simp [serveLoop]
    | succ fuel =>
      have he := readHead_empty lim req.head r (by simpa [encodeAll] using hr)
      simp [serveLoop, he]
  | cons q qs ih =>
    cases fuel with
    | zero => simp [serveLoop]
    | succ fuel =>
      have hqw := hq q (by simp)
      obtain ⟨hd, r1, h1, f0, f1, f2, hh, h2, h3⟩ := C02_wellformed_head lim q.head hqw.head_wf req.head hb r
        (q.body ++ encodeAll qs) (by rw [hr]; simp [encodeAll, WireReq.encode])
      have one : ∀ (body : Body K) (w : Bytes), ([(⟨⟨hd, body⟩, w⟩ : Exchange K)].length ≤ (q :: qs).length ∧
          ∀ (j : Nat) (q' : WireReq) (ex : Exchange K), (q :: qs)[j]? = some q' → [(⟨⟨hd, body⟩, w⟩ : Exchange K)][j]? = some ex → Delivered lim q' ex.req.head) := by
        intro body w
        refine ⟨by simp, fun j q' ex hj hj' => ?_⟩
        cases j with
        | zero => simp at hj hj'; subst hj; subst hj'; exact ⟨f0, f1, f2, hh⟩
        | succ j => simp at hj'
      simp only [serveLoop, h1]
      cases hbd : readConstLengthBody (env i).cap hd.headers req.body r1 with
      | fail e => simp
      | panic => simp
      | hang => simp
      | done body r2 =>
        obtain ⟨n, g1, g2, g3, _⟩ := readConstLengthBody_done (env i).cap_pos hbd
        rw [WF.content_length hqw hh] at g1
        cases g1
        simp only
        cases (env i).http ⟨hd, body⟩ resp with
        | err => exact one _ _
        | panic => exact one _ _
        | ok p req2 resp2 =>
          simp only
          rcases encodeResponse c (env i).ord resp2 with ⟨resp3, _ | bytes⟩
          · exact one _ _
          · simp only
            cases (env i).write with
            | failAfter k s => exact one _ _
            | ok =>
              simp only
              split
              · obtain ⟨k1, k2⟩ := ih (fun q hq' => hq q (by simp [hq'])) r2 (by rw [g3, h2]; simp) fuel (i + 1) (req2.clear c)
                  (resp3.clear c) (Head.blank_clear _)
                refine ⟨by simpa using k1, fun j q' ex hj hj' => ?_⟩
                cases j with
                | zero => simp at hj hj'; subst hj; subst hj'; exact ⟨f0, f1, f2, hh⟩
                | succ j => simp only [List.getElem?_cons_succ] at hj hj'; exact k2 j q' ex hj hj'
              · exact one _ _
              · exact one _ _
              · exact one _ _

/-! ## C24 -/

/-- **C24 (partial).** The head the service sees of a request does not depend on what came before on the connection: after
any two sequences of earlier requests it sees the same method, target, version and headers. Missing: the bodies
(`C24_bodies_accumulate_violated`, `C24_responses_accumulate_violated`). -/
theorem C24_heads_partial {K : Type} (c : Codec K) (lim : HttpLimits) (env env' : Nat → Env K) (qs qs' : List WireReq) (q : WireReq)
    (hq : ∀ x ∈ qs ++ [q], x.WF lim.maxUrl lim.maxHeaderLine lim.maxHeadersCount)
    (hq' : ∀ x ∈ qs' ++ [q], x.WF lim.maxUrl lim.maxHeaderLine lim.maxHeadersCount)
    (r r' : Reader) (hr : r.flat = encodeAll (qs ++ [q])) (hr' : r'.flat = encodeAll (qs' ++ [q])) (ex ex' : Exchange K)
    (hex : (serve c lim env r).1[qs.length]? = some ex) (hex' : (serve c lim env' r').1[qs'.length]? = some ex') :
    ex.req.head.f0 = ex'.req.head.f0 ∧ ex.req.head.f1 = ex'.req.head.f1 ∧ ex.req.head.f2 = ex'.req.head.f2 ∧
    ∀ k, ex.req.head.headers.getall k = ex'.req.head.headers.getall k := by
  obtain ⟨a0, a1, a2, a3⟩ := (C23_prefix c lim env _ hq r hr).2 qs.length q ex (by simp) hex
  obtain ⟨b0, b1, b2, b3⟩ := (C23_prefix c lim env' _ hq' r' hr').2 qs'.length q ex' (by simp) hex'
  exact ⟨by rw [a0, b0], by rw [a1, b1], by rw [a2, b2], fun k => by rw [a3, b3]⟩

/-- **C24 is violated** for request bodies: `clear` keeps the bytes of the body, so the body the service sees with the `j`-th
request is the concatenation of all bodies so far. -/
theorem C24_bodies_accumulate_violated {K : Type} (c : Codec K) (lim : HttpLimits) (env : Nat → Env K) (qs : List WireReq)
    (hq : ∀ q ∈ qs, q.WF lim.maxUrl lim.maxHeaderLine lim.maxHeadersCount)
    (hk : ∀ j, j < qs.length → KeepsOpen c (env j)) (hb : ∀ j, j < qs.length → KeepsReqBody (env j))
    (r : Reader) (hr : r.flat = encodeAll qs) (j : Nat) (ex : Exchange K) (h : (serve c lim env r).1[j]? = some ex) :
    ex.req.body.internal = some ((qs.take (j + 1)).map WireReq.body).flatten := by
  obtain ⟨exs, req', resp', r', fuel, h1, h2, h3, h4, ⟨_, _, _, _, h5, _⟩, h6, _⟩ := serve_requests c lim env qs hq hk r [] (by simpa using hr)
  have he := readHead_empty lim req'.head r' h5
  obtain ⟨k, rfl⟩ : ∃ k, fuel = k + 1 := ⟨fuel - 1, by simp at h2; omega⟩
  simp only [serveLoop, he, List.append_nil] at h1
  rw [h1] at h
  exact h6 hb j ex h

/-- **C24 is violated** for responses: a service that appends `out j` to the response body at request `j` sends the
concatenation of everything it appended so far. -/
theorem C24_responses_accumulate_violated {K : Type} (c : Codec K) (lim : HttpLimits) (env : Nat → Env K) (qs : List WireReq)
    (hq : ∀ q ∈ qs, q.WF lim.maxUrl lim.maxHeaderLine lim.maxHeadersCount)
    (hk : ∀ j, j < qs.length → KeepsOpen c (env j)) (out : Nat → Bytes)
    (hb : ∀ j, j < qs.length → AppendsRespBody (out j) (env j))
    (r : Reader) (hr : r.flat = encodeAll qs) (j : Nat) (ex : Exchange K) (h : (serve c lim env r).1[j]? = some ex) :
    ∃ f0 f1 f2 ps, ex.written = responseBytes f0 f1 f2 ps ((List.range (j + 1)).map out).flatten := by
  obtain ⟨exs, req', resp', r', fuel, h1, h2, h3, h4, ⟨_, _, _, _, h5, _⟩, _, h6⟩ := serve_requests c lim env qs hq hk r [] (by simpa using hr)
  have he := readHead_empty lim req'.head r' h5
  obtain ⟨k, rfl⟩ : ∃ k, fuel = k + 1 := ⟨fuel - 1, by simp at h2; omega⟩
  simp only [serveLoop, he, List.append_nil] at h1
  rw [h1] at h
  exact h6 out hb j ex h

/-- The sample service satisfies the hypotheses; two requests: the second is seen with body `bodybody` and answered `okok`. -/
example : KeepsReqBody sampleEnv ∧ AppendsRespBody b!"ok" sampleEnv := by
  constructor
  · intro req resp p req2 resp2 h
    simp only [sampleEnv, sampleService, HandlerRes.ok.injEq] at h
    rw [← h.2.1]
  · intro req resp p req2 resp2 h
    simp only [sampleEnv, sampleService, HandlerRes.ok.injEq] at h
    rw [← h.2.2]

example : ((serve noCodec sampleLimits (fun _ => sampleEnv)
    (Reader.ofBytes (encodeAll [sampleReq, sampleReq]) .eof)).1.map (fun e => (e.req.body.internal, e.written.drop 47))) =
    [(some b!"body", b!"\r\nok"), (some b!"bodybody", b!"\r\nokok")] := by decide +kernel

/-- **C24 (partial, bodies).** When no earlier request on the connection had a body, the service sees the request's own body. -/
theorem C24_first_body_partial {K : Type} (c : Codec K) (lim : HttpLimits) (env : Nat → Env K) (qs : List WireReq) (q : WireReq)
    (hq : ∀ x ∈ qs ++ [q], x.WF lim.maxUrl lim.maxHeaderLine lim.maxHeadersCount) (hempty : ∀ x ∈ qs, x.body = [])
    (hk : ∀ j, j < qs.length + 1 → KeepsOpen c (env j)) (hb : ∀ j, j < qs.length + 1 → KeepsReqBody (env j))
    (r : Reader) (hr : r.flat = encodeAll (qs ++ [q])) (ex : Exchange K)
    (h : (serve c lim env r).1[qs.length]? = some ex) : ex.req.body.internal = some q.body := by
  have := C24_bodies_accumulate_violated c lim env (qs ++ [q]) hq (by simpa using hk) (by simpa using hb) r hr qs.length ex h
  rw [this]
  have h0 : (qs.map WireReq.body).flatten = [] := by
    rw [List.flatten_eq_nil_iff]
    intro l hl
    rw [List.mem_map] at hl
    obtain ⟨x, hx, rfl⟩ := hl
    exact hempty x hx
  have h1 : (qs ++ [q]).take (qs.length + 1) = qs ++ [q] := List.take_of_length_le (by simp)
  rw [h1]; simp [h0]

/-! ## C25 -/

/-- **C25.** Whenever a connection ends because a head or body could not be read, or waits for the rest of one, every request the service has seen was
answered completely with keep-alive: nothing was written for the refused one and the service was not called for it. -/
theorem C25_refused {K : Type} (c : Codec K) (lim : HttpLimits) (env : Nat → Env K) (r : Reader)
    (h : (serve c lim env r).2 = .waiting ∨ ∃ e, (serve c lim env r).2 = .headFail e ∨ (serve c lim env r).2 = .bodyFail e) (j : Nat) (ex : Exchange K)
    (hj : (serve c lim env r).1[j]? = some ex) : Answered c (env j) ex (.current true) := by
  rcases C22_responses_in_order c lim env r j ex hj with h1 | ⟨_, h1⟩
  · exact h1
  · obtain he | ⟨e, he | he⟩ := h <;> rw [he] at h1 <;> exact h1.elim

/-- **C25 (position).** After any number of good requests, bytes that cannot be read as a head (in whatever segmentation)
end the connection; the service has seen exactly the good requests, each answered completely. -/
theorem C25_refused_after {K : Type} (c : Codec K) (lim : HttpLimits) (env : Nat → Env K) (qs : List WireReq)
    (hq : ∀ q ∈ qs, q.WF lim.maxUrl lim.maxHeaderLine lim.maxHeadersCount)
    (hk : ∀ j, j < qs.length → KeepsOpen c (env j)) (r : Reader) (s : Bytes) (hr : r.flat = encodeAll qs ++ s)
    (hbad : ∀ hd : Head, hd.Blank → ∀ r' : Reader, r'.flat = s → r'.fin = r.fin → ∃ e, e ≠ .waiting ∧ readHead lim hd r' = .error e) :
    (serve c lim env r).1.length = qs.length ∧ (∃ e, (serve c lim env r).2 = .headFail e) ∧
    ∀ (j : Nat) (ex : Exchange K), (serve c lim env r).1[j]? = some ex → Answered c (env j) ex (.current true) := by
  obtain ⟨exs, req', resp', r', fuel, h1, h2, h3, h4, ⟨hb, _, _, _, h5, h6⟩, _⟩ := serve_requests c lim env qs hq hk r s hr
  obtain ⟨e, hew, he⟩ := hbad req'.head hb r' h5 h6
  obtain ⟨k, rfl⟩ : ∃ k, fuel = k + 1 := ⟨fuel - 1, by omega⟩
  simp only [serveLoop, he, List.append_nil] at h1
  rw [h1]
  refine ⟨h3, ⟨e, by cases e <;> first | rfl | exact absurd rfl hew⟩, fun j ex hj => ?_⟩
  have hlt : j < qs.length := by
    rw [← h3]; exact (List.getElem?_eq_some_iff.mp hj).1
  exact (h4 j qs[j] ex (by simp [hlt]) hj).2

/-- Non-trivial case: a good request, then a line of rubbish. -/
example : ((serve noCodec sampleLimits (fun _ => sampleEnv)
    (Reader.ofBytes (sampleReq.encode ++ b!"G\x01T / HTTP/1.1\r\n\r\n") .eof)).1.length,
    (serve noCodec sampleLimits (fun _ => sampleEnv)
    (Reader.ofBytes (sampleReq.encode ++ b!"G\x01T / HTTP/1.1\r\n\r\n") .eof)).2) = (1, .headFail .badDatagram) := by
  decide +kernel

/-! ## C26 -/

/-- What makes the connection end after a request. -/
inductive Stops {K : Type} (c : Codec K) (e : Env K) (req resp : Message K) : Ending → Prop
  | err : e.http req resp = .err → Stops c e req resp .handlerErr
  | closed {req2 resp2 m bytes} : e.http req resp = .ok (.current false) req2 resp2 →
      encodeResponse c e.ord resp2 = (m, some bytes) → e.write = .ok → Stops c e req resp .closed
  | webSocket {req2 resp2 m bytes} : e.http req resp = .ok .webSocket req2 resp2 →
      encodeResponse c e.ord resp2 = (m, some bytes) → e.write = .ok → Stops c e req resp .webSocket
  | http2 {req2 resp2 m bytes} : e.http req resp = .ok .http2 req2 resp2 →
      encodeResponse c e.ord resp2 = (m, some bytes) → e.write = .ok → Stops c e req resp .http2
  | finish {p req2 resp2 m} : e.http req resp = .ok p req2 resp2 → encodeResponse c e.ord resp2 = (m, none) →
      Stops c e req resp .writeFail
  | write {p req2 resp2 m bytes k s} : e.http req resp = .ok p req2 resp2 → encodeResponse c e.ord resp2 = (m, some bytes) →
      e.write = .failAfter k s → Stops c e req resp (writeEnding s)

/-- **C26.** If the service keeps the connection open for the first requests and then, at the next one, closes, fails or
upgrades, or the write fails, then no further request is delivered and no further byte is written, whatever bytes `s`
follow: the service has seen exactly the requests up to that one. -/
theorem C26_stops {K : Type} (c : Codec K) (lim : HttpLimits) (env : Nat → Env K) (qs : List WireReq) (q : WireReq)
    (hq : ∀ x ∈ qs ++ [q], x.WF lim.maxUrl lim.maxHeaderLine lim.maxHeadersCount)
    (hk : ∀ j, j < qs.length → KeepsOpen c (env j)) (en : Ending)
    (hstop : ∀ req resp, Stops c (env qs.length) req resp en)
    (r : Reader) (s : Bytes) (hr : r.flat = encodeAll (qs ++ [q]) ++ s) :
    (serve c lim env r).1.length = qs.length + 1 ∧ (serve c lim env r).2 = en ∧
    (∀ ex, (serve c lim env r).1[qs.length]? = some ex → LastExchange c (env qs.length) ex en) := by
  obtain ⟨exs, req', resp', r', fuel, h1, h2, h3, h4, ⟨hb, hp, _, _, h5, h6⟩, _⟩ := serve_requests c lim env qs
    (fun x hx => hq x (by simp [hx])) hk r (q.encode ++ s) (by rw [hr]; simp [encodeAll])
  obtain ⟨k, rfl⟩ : ∃ k, fuel = k + 1 := ⟨fuel - 1, by omega⟩
  obtain ⟨hd, r1, r2, x, g1, hx, g2, g3, g4, g5⟩ := read_request lim q (hq q (by simp)) (env qs.length).cap (env qs.length).cap_pos
    req' hb hp r' s h5
  have key : ∃ ex, serveLoop c lim env (k + 1) qs.length req' resp' r' = ([ex], en) := by
    simp only [serveLoop, g1, g2]
    cases hstop ⟨hd, { internal := some (x ++ q.body), cw := none }⟩ resp' with
    | err h => simp only [h]; exact ⟨_, rfl⟩
    | closed h he hw => simp only [h, he, hw]; exact ⟨_, rfl⟩
    | webSocket h he hw => simp only [h, he, hw]; exact ⟨_, rfl⟩
    | http2 h he hw => simp only [h, he, hw]; exact ⟨_, rfl⟩
    | finish h he => simp only [h, he]; exact ⟨_, rfl⟩
    | write h he hw => simp only [h, he, hw]; exact ⟨_, rfl⟩
  obtain ⟨ex0, key⟩ := key
  rw [key] at h1
  have hlen : (serve c lim env r).1.length = qs.length + 1 := by rw [h1]; simp [h3]
  have hend : (serve c lim env r).2 = en := by rw [h1]
  refine ⟨hlen, hend, fun ex hex => ?_⟩
  have hl := serveLoop_answers c lim env (k + 1) qs.length req' resp' r' 0 ex0 (by rw [key]; rfl)
  rw [h1] at hex
  rw [List.getElem?_append_right (by rw [h3]; omega), h3, Nat.sub_self] at hex
  simp only [List.getElem?_cons_zero, Option.some.injEq] at hex
  subst hex
  rw [key] at hl
  rcases hl with hl | ⟨_, hl⟩
  · exfalso
    rw [Nat.add_zero] at hl
    obtain ⟨resp0, req2, resp2, m, e1, e2, e3⟩ := hl
    cases hstop ex0.req resp0 with
    | err h => rw [h] at e1; cases e1
    | closed h he hw => rw [h] at e1; cases e1
    | webSocket h he hw => rw [h] at e1; cases e1
    | http2 h he hw => rw [h] at e1; cases e1
    | finish h he => rw [h] at e1; cases e1; rw [he] at e2; cases e2
    | write h he hw => rw [hw] at e3; cases e3
  · simpa using hl

/-- Non-trivial case: the service fails at the second request; the third is never looked at. -/
example : ∀ req resp, Stops noCodec { sampleEnv with http := fun _ _ => .err } req resp .handlerErr :=
  fun _ _ => .err rfl

example : ((serve noCodec sampleLimits (fun i => if i = 1 then { sampleEnv with http := fun _ _ => .err } else sampleEnv)
    (Reader.ofBytes (encodeAll [sampleReq, sampleReq, sampleReq]) .eof)).1.length) = 2 := by decide +kernel

/-! ## C77 -/

/-- **C77.** A connection on which finitely many bytes arrive delivers finitely many requests: at most one per seven bytes. The
loop's bound in the model is never the reason why it ends, and a larger bound changes nothing. -/
theorem C77_finitely_many {K : Type} (c : Codec K) (lim : HttpLimits) (env : Nat → Env K) (r : Reader) :
    7 * (serve c lim env r).1.length ≤ r.flat.length ∧ (serve c lim env r).2 ≠ .outOfFuel ∧
    ∀ fuel, r.flat.length < fuel → serveLoop c lim env fuel 0 Message.new Message.new r = serve c lim env r := by
  obtain ⟨_, h2, h3⟩ := serveLoop_fuel c lim env (r.flat.length + 1) (r.flat.length + 1) 0 Message.new Message.new r (by omega) (by omega)
  refine ⟨h3, h2, fun fuel hf => ?_⟩
  exact (serveLoop_fuel c lim env fuel (r.flat.length + 1) 0 Message.new Message.new r hf (by omega)).1

example : (serve noCodec sampleLimits (fun _ => sampleEnv) (Reader.ofBytes b!"  a\r\n\r\n" .eof)).1.length = 1 := by decide +kernel

end Httpd
