import Verif.Lemmas.Writer
import Verif.Props.Serve
/-! # C110–C114: what reaches the stream below when a response is written -/

namespace Httpd
open Spec

/-! ## C110 -/

/-- **C110.** Writing a response (head and body, any lengths) through a buffer of any size onto a stream that takes the bytes
in any portions and fails or stalls at any call: what the stream has taken is always a prefix of the response, in order and
without repetition; on success it is the whole response and nothing is left in the buffer; and it succeeds if the stream takes
at least one byte at every call. A failure or a stall is reported exactly when it happened. -/
theorem C110_exact_bytes (w : ConnW) (hw : w.buf = []) (head body : Bytes) :
    let w' := (w.send head body).1
    let res := (w.send head body).2
    (∃ k, k ≤ (head ++ body).length ∧ w'.sock.taken = w.sock.taken ++ (head ++ body).take k) ∧
    (res = none → w'.sock.taken = w.sock.taken ++ (head ++ body) ∧ w'.buf = []) ∧
    ((∀ i, ∃ n, w.sock.plan i = .takes (n + 1)) → res = none) ∧
    (∀ i, w.sock.calls ≤ i → i < w'.sock.calls → w.sock.plan i = .fails → res = some .error) ∧
    (∀ i, w.sock.calls ≤ i → i < w'.sock.calls → w.sock.plan i = .stalls → res = some .wait) := by
  obtain ⟨h, hb⟩ := send_moves w head body
  intro w' res
  obtain ⟨k, hk1, hk2, hk3⟩ := h.bytes
  rw [hw, List.append_nil] at hk2
  have last : ∀ i, w.sock.calls ≤ i → i < w'.sock.calls → (∀ n, w.sock.plan i ≠ .takes n) →
      ∃ e, res = some e ∧ i = w'.sock.calls - 1 := by
    intro i h1 h2 h3
    cases hr : res with
    | none =>
      obtain ⟨n, hn⟩ := h.fine i h1 h2 (Or.inl hr)
      exact absurd hn (h3 n)
    | some e =>
      refine ⟨e, rfl, ?_⟩
      by_cases hl : i + 1 < w'.sock.calls
      · obtain ⟨n, hn⟩ := h.fine i h1 h2 (Or.inr hl)
        exact absurd hn (h3 n)
      · omega
  refine ⟨?_, ?_, fun hp => h.ok_of_takesAll hp, ?_, ?_⟩
  · obtain ⟨t, ht⟩ := h.pre
    have htk : t ++ w'.buf = (head ++ body).take k := by
      rw [← ht, List.append_assoc] at hk2
      exact List.append_cancel_left hk2
    have h1 : t <+: head ++ body := ⟨w'.buf ++ (head ++ body).drop k, by rw [← List.append_assoc, htk, List.take_append_drop]⟩
    exact ⟨t.length, h1.length_le, by rw [← List.prefix_iff_eq_take.mp h1]; exact ht.symm⟩
  · intro hr
    have hb' := hb hr
    rw [hb', List.append_nil, hk3 hr, List.take_length] at hk2
    exact ⟨hk2, hb'⟩
  · intro i h1 h2 h3
    obtain ⟨e, he, hi⟩ := last i h1 h2 (by simp [h3])
    have := (h.why e he).2
    rw [← hi, h3] at this
    cases e <;> simp_all [Explains]
  · intro i h1 h2 h3
    obtain ⟨e, he, hi⟩ := last i h1 h2 (by simp [h3])
    have := (h.why e he).2
    rw [← hi, h3] at this
    cases e <;> simp_all [Explains]

/-- Non-trivial case: a buffer of 4 bytes, a stream that takes 3 bytes, then 1, then 2, and so on; then one that stalls. -/
example : let w : ConnW := ⟨4, [], Sock.new fun i => .takes ([3, 1, 2].getD (i % 3) 1)⟩
    ((w.send b!"hello" b!"world!").1.sock.taken, (w.send b!"hello" b!"world!").2) = (b!"helloworld!", none) := by
  decide +kernel

example : let w : ConnW := ⟨4, [], Sock.new fun i => if i = 3 then .stalls else .takes 2⟩
    ((w.send b!"hello" b!"world!").1.sock.taken, (w.send b!"hello" b!"world!").2) = (b!"hello", some .wait) := by
  decide +kernel

/-! ## C111 -/

/-- **C111.** A response that fits the buffer is offered to the stream below in one piece, head and body together; if the
stream takes it, that is the only write. -/
theorem C111_one_piece (w : ConnW) (hw : w.buf = []) (head body : Bytes) (hh : head ≠ [])
    (hfit : (head ++ body).length ≤ w.cap) :
    ∃ rest, (w.send head body).1.sock.offered = w.sock.offered ++ (head ++ body) :: rest ∧
      ∀ n, w.sock.plan w.sock.calls = .takes n → (head ++ body).length ≤ n → rest = [] := by
  have hpos : 0 < head.length := List.length_pos_iff.mpr hh
  rw [List.length_append] at hfit
  -- flushing a buffer that holds the response
  have flushes : ∀ w1 : ConnW, w1.sock = w.sock → w1.buf = head ++ body →
      ∃ rest, w1.flush.1.sock.offered = w.sock.offered ++ (head ++ body) :: rest ∧
      ∀ n, w.sock.plan w.sock.calls = .takes n → (head ++ body).length ≤ n → rest = [] := by
    intro w1 hs hb
    have hne : w1.buf ≠ [] := by rw [hb]; simp [hh]
    obtain ⟨m, hm⟩ : ∃ m, w1.buf.length = m + 1 := ⟨w1.buf.length - 1, by have := List.length_pos_iff.mpr hne; omega⟩
    simp only [ConnW.flush, hm, ConnW.flushBuf, if_neg hne, Sock.write, hs]
    cases hp : w.sock.plan w.sock.calls with
    | fails => exact ⟨[], by simp [hb], by simp⟩
    | stalls => exact ⟨[], by simp [hb], by simp⟩
    | takes n =>
      simp only
      cases hmin : min n (m + 1) with
      | zero =>
        refine ⟨[], by simp [hb], fun _ _ _ => rfl⟩
      | succ k =>
        simp only
        generalize hw2 : ConnW.mk w1.cap (w1.buf.drop (k + 1)) ⟨w.sock.plan, w.sock.offered ++ [w1.buf], w.sock.calls + 1,
          w.sock.taken ++ w1.buf.take n⟩ = w2
        have hle : w2.buf.length ≤ m := by rw [← hw2]; simp; omega
        have h1 := (flushBuf_moves m w2 hle).1
        obtain ⟨t, ht⟩ := h1.offers
        have hw2o : w2.sock.offered = w.sock.offered ++ [head ++ body] := by rw [← hw2, hb]
        have hall : n ≥ (head ++ body).length → ConnW.flushBuf m w2 = (w2, none) := by
          intro hn
          have : w2.buf = [] := by rw [← hw2]; simp; rw [← hb] at hn; omega
          cases m <;> simp [ConnW.flushBuf, this]
        rcases hf : ConnW.flushBuf m w2 with ⟨w3, _ | e⟩
        · rw [hf] at ht
          refine ⟨t, ?_, ?_⟩
          · have : (w3.sock.flush).1.offered = w3.sock.offered := by
              simp only [Sock.flush]; cases w3.sock.plan w3.sock.calls <;> rfl
            simp only at ht ⊢
            rw [this, ← ht, hw2o, List.append_assoc, List.singleton_append]
          · intro n' hn' hle'
            cases hn'
            rw [hall hle'] at hf
            cases hf
            simpa using ht
        · rw [hf] at ht
          refine ⟨t, ?_, ?_⟩
          · simp only at ht ⊢
            rw [← ht, hw2o, List.append_assoc, List.singleton_append]
          intro n' hn' hle'
          cases hn'
          rw [hall hle'] at hf
          cases hf
  by_cases hlt : head.length < w.cap
  · simp only [ConnW.send]
    rw [writeAll_buffers w head (by rw [hw]; simp; omega) hlt, hw, List.nil_append]
    simp only
    by_cases hb : 0 < body.length
    · rw [if_pos hb, writeAll_buffers _ body (by simp only; omega) (by simp only; omega)]
      exact flushes _ rfl rfl
    · rw [if_neg hb]
      have : body = [] := List.eq_nil_of_length_eq_zero (by omega)
      exact flushes _ rfl (by simp [this])
  · -- the head is as long as the buffer and there is no body
    have hbe : body = [] := List.eq_nil_of_length_eq_zero (by omega)
    have hcap : w.cap = head.length := by omega
    subst hbe
    obtain ⟨m, hm⟩ : ∃ m, head.length = m + 1 := ⟨head.length - 1, by omega⟩
    have hdrop : ∀ k, k < head.length → ∀ src : Bytes, src.length ≤ k → ∀ w1 : ConnW, w1.buf = [] → w1.cap = w.cap →
        ConnW.writeAll k w1 src = ({ w1 with buf := src }, none) := by
      intro k hk src hsrc w1 hb1 hc1
      cases k with
      | zero =>
        have : src = [] := List.eq_nil_of_length_eq_zero (by omega)
        rw [this]
        simp only [ConnW.writeAll]
        cases w1; simp_all
      | succ k =>
        by_cases hse : src = []
        · simp only [ConnW.writeAll, if_pos hse]
          cases w1; simp_all
        · simp only [ConnW.writeAll, if_neg hse, ConnW.write]
          rw [if_neg (by rw [hb1, hc1]; simp; omega), if_neg (by omega)]
          obtain ⟨l, hl⟩ : ∃ l, src.length = l + 1 := ⟨src.length - 1, by have := List.length_pos_iff.mpr hse; omega⟩
          rw [hl]
          have : src.drop (l + 1) = [] := by rw [← hl]; exact List.drop_length
          simp only [this, hb1, List.nil_append]
          cases k <;> simp [ConnW.writeAll]
    simp only [ConnW.send, List.append_nil, List.length_nil, Nat.lt_irrefl, if_false]
    rw [hm]
    simp only [ConnW.writeAll, if_neg hh, ConnW.write]
    rw [if_neg (by rw [hw, hcap]; simp), if_pos (by omega)]
    simp only [Sock.write]
    cases hp : w.sock.plan w.sock.calls with
    | fails => exact ⟨[], by simp, by simp⟩
    | stalls => exact ⟨[], by simp, by simp⟩
    | takes n =>
      simp only
      cases hmin : min n head.length with
      | zero => exact ⟨[], by simp, fun _ _ _ => rfl⟩
      | succ k =>
        simp only
        rw [hdrop m (by omega) (head.drop (k + 1)) (by simp; omega) ⟨w.cap, w.buf, ⟨w.sock.plan, w.sock.offered ++ [head],
          w.sock.calls + 1, w.sock.taken ++ head.take n⟩⟩ hw rfl]
        simp only
        generalize hw2 : ConnW.mk w.cap (head.drop (k + 1)) ⟨w.sock.plan, w.sock.offered ++ [head], w.sock.calls + 1,
          w.sock.taken ++ head.take n⟩ = w2
        have hw2o : w2.sock.offered = w.sock.offered ++ [head] := by rw [← hw2]
        obtain ⟨t, ht⟩ := (flush_moves w2).1.offers
        refine ⟨t, by rw [← ht, hw2o]; simp, ?_⟩
        intro n' hn' hle'
        cases hn'
        have hb2 : w2.buf = [] := by rw [← hw2]; simp; omega
        have : w2.flush.1.sock.offered = w2.sock.offered := by
          simp only [ConnW.flush, hb2, List.length_nil, ConnW.flushBuf, Sock.flush]
          cases w2.sock.plan w2.sock.calls <;> rfl
        rw [this] at ht
        simpa using ht

/-- Non-trivial case: a response of exactly the buffer's size; one byte more is offered in two pieces. -/
example : ((ConnW.mk 8 [] (Sock.new fun _ => .takes 100)).send b!"abc" b!"defgh").1.sock.offered = [b!"abcdefgh"] ∧
    ((ConnW.mk 8 [] (Sock.new fun _ => .takes 100)).send b!"abc" b!"defghi").1.sock.offered = [b!"abc", b!"defghi"] := by
  decide +kernel

/-! ## C112 -/

/-- **C112.** A whole connection with its buffered writer, on any stream below, is a connection of Model/Serve.lean for some
outcomes of the writes: the same requests are delivered, it ends in the same way, and what the stream below has taken is the
concatenation of what the responses wrote, in the order of the requests. If the stream takes at least one byte at every call,
all writes succeed: every theorem about `serve` with successful writes is a theorem about the bytes on the wire. -/
theorem C112_wire {K : Type} (c : Codec K) (lim : HttpLimits) (env : Nat → Env K) (r : Reader) (cap : Nat)
    (plan : Nat → SockRes) :
    ∃ outs : Nat → WriteOutcome, ((∀ i, ∃ n, plan i = .takes (n + 1)) → ∀ j, outs j = .ok) ∧
      let conn := serve c lim (fun j => { env j with write := outs j }) r
      (serveW c lim env r cap plan).1 = conn.1.map (·.req) ∧ (serveW c lim env r cap plan).2.2 = conn.2 ∧
      (serveW c lim env r cap plan).2.1.sock.taken = (conn.1.map (·.written)).flatten := by
  obtain ⟨outs, h1, h2⟩ := serveLoopW_refines c lim env (r.flat.length + 1) 0 Message.new Message.new r
    { cap := cap, buf := [], sock := Sock.new plan } rfl
  exact ⟨outs, h1, h2 (fun j => { env j with write := outs j }) (fun _ _ => rfl)⟩

/-- The pipelining theorem C23 on the wire: the answers to the requests arrive in the order of the requests, each complete, for
any buffer size and any portions in which the stream takes bytes. -/
theorem C112_pipelined {K : Type} (c : Codec K) (lim : HttpLimits) (env : Nat → Env K) (qs : List WireReq)
    (hq : ∀ q ∈ qs, q.WF lim.maxUrl lim.maxHeaderLine lim.maxHeadersCount)
    (hk : ∀ j, j < qs.length → KeepsOpen c { env j with write := .ok }) (r : Reader) (hr : r.flat = encodeAll qs)
    (cap : Nat) (plan : Nat → SockRes) (hp : ∀ i, ∃ n, plan i = .takes (n + 1)) :
    ∃ exs : List (Exchange K), exs.length = qs.length ∧ (serveW c lim env r cap plan).1 = exs.map (·.req) ∧
      (serveW c lim env r cap plan).2.1.sock.taken = (exs.map (·.written)).flatten ∧
      ∀ (j : Nat) (q : WireReq) (ex : Exchange K), qs[j]? = some q → exs[j]? = some ex →
        ex.req.head.f0 = q.head.w0 ∧ ex.req.head.f1 = q.head.w1 ∧ ex.req.head.f2 = q.head.w2 ∧
        (∀ k, ex.req.head.headers.getall k = lookupFields q.head.fields k) ∧
        Answered c { env j with write := .ok } ex (.current true) := by
  obtain ⟨outs, h1, h2, _, h4⟩ := C112_wire c lim env r cap plan
  have : outs = fun _ => .ok := funext (h1 hp)
  subst this
  obtain ⟨g1, _, g3⟩ := C23_pipelined c lim (fun j => { env j with write := .ok }) qs hq hk r hr
  exact ⟨_, g1, h2, h4, g3⟩

/-- Non-trivial case: two pipelined requests, a buffer of 16 bytes, a stream that takes 5 bytes at a time. -/
example : ((serveW noCodec sampleLimits (fun _ => sampleEnv) (Reader.ofBytes (encodeAll [sampleReq, sampleReq]) .eof) 16
    (fun _ => .takes 5)).2.1.sock.taken =
      ((serve noCodec sampleLimits (fun _ => sampleEnv) (Reader.ofBytes (encodeAll [sampleReq, sampleReq]) .eof)).1.map
        (·.written)).flatten) ∧
    (serve noCodec sampleLimits (fun _ => sampleEnv) (Reader.ofBytes (encodeAll [sampleReq, sampleReq]) .eof)).1.length = 2 := by
  decide +kernel

/-! ## C113 -/

/-- **C113, what holds**: the connection waits for the peer to read exactly when a call of the stream below has stalled. -/
theorem C113_stalls_partial {K : Type} (c : Codec K) (lim : HttpLimits) (env : Nat → Env K) (r : Reader) (cap : Nat)
    (plan : Nat → SockRes) :
    (serveW c lim env r cap plan).2.2 = .stalled ↔
      ∃ i, i < (serveW c lim env r cap plan).2.1.sock.calls ∧ plan i = .stalls := by
  obtain ⟨src, res, h1, h2⟩ := serveLoopW_moves c lim env (r.flat.length + 1) 0 Message.new Message.new r
    { cap := cap, buf := [], sock := Sock.new plan }
  rw [serveW, h2]
  constructor
  · intro hr
    obtain ⟨g1, g2⟩ := h1.why _ hr
    exact ⟨_, by omega, g2⟩
  · rintro ⟨i, g1, g2⟩
    have nt : ∀ n, plan i ≠ .takes n := by simp [g2]
    cases res with
    | none =>
      obtain ⟨n, hn⟩ := h1.fine i (Nat.zero_le _) g1 (Or.inl rfl)
      exact absurd hn (nt n)
    | some e =>
      by_cases hl : i + 1 < (serveLoopW c lim env (r.flat.length + 1) 0 Message.new Message.new r
          { cap := cap, buf := [], sock := Sock.new plan }).2.1.sock.calls
      · obtain ⟨n, hn⟩ := h1.fine i (Nat.zero_le _) g1 (Or.inr hl)
        exact absurd hn (nt n)
      · have hi : i = (serveLoopW c lim env (r.flat.length + 1) 0 Message.new Message.new r
          { cap := cap, buf := [], sock := Sock.new plan }).2.1.sock.calls - 1 := by omega
        have := (h1.why e rfl).2
        rw [← hi] at this
        replace this : Explains (plan i) e := this
        rw [g2] at this
        cases e with
        | wait => rfl
        | error => simp [Explains] at this

/-- **C113 is violated**: no write has a timeout (src/serve.rs:39 awaits `write_to`; `idle_timeout` is not looked at). Whatever
the limits, the buffer size and the service, if it answers at all: a client that sends one well-formed request and never reads
keeps its connection, the task and both messages for ever; what it sent after the request is not looked at. -/
theorem C113_never_reads_violated {K : Type} (c : Codec K) (lim : HttpLimits) (env : Nat → Env K) (q : WireReq)
    (hq : q.WF lim.maxUrl lim.maxHeaderLine lim.maxHeadersCount) (r : Reader) (s : Bytes) (hr : r.flat = q.encode ++ s)
    (hans : ∀ req resp, ∃ p req2 resp2 m bytes, (env 0).http req resp = .ok p req2 resp2 ∧
      encodeResponse c (env 0).ord resp2 = (m, some bytes))
    (cap : Nat) (plan : Nat → SockRes) (hp : plan 0 = .stalls) :
    (serveW c lim env r cap plan).2.2 = .stalled ∧ (serveW c lim env r cap plan).2.1.sock.taken = [] ∧
    (serveW c lim env r cap plan).1.length = 1 := by
  obtain ⟨hd, r1, r2, x, g1, hx, g2, _⟩ := read_request (K := K) lim q hq (env 0).cap (env 0).cap_pos Message.new Head.blank_new
    Body.plain_new r s hr
  obtain ⟨p, req2, resp2, m, bytes, e1, e2⟩ := hans ⟨hd, { internal := some (x ++ q.body), cw := none }⟩ Message.new
  have hm := (writeTo_moves c (env 0).ord resp2 { cap := cap, buf := [], sock := Sock.new plan }).2
  have hc := writeTo_calls c (env 0).ord resp2 { cap := cap, buf := [], sock := Sock.new plan }
  simp only [serveW, serveLoopW, g1, g2, e1]
  rw [e2] at hm
  rcases hw : writeTo c (env 0).ord resp2 { cap := cap, buf := [], sock := Sock.new plan } with ⟨m', w1, res⟩
  rw [hw] at hm hc
  obtain ⟨hm, _⟩ := hm
  cases res with
  | none =>
    obtain ⟨n, hn⟩ := hm.fine 0 (Nat.le_refl _) (hc rfl) (Or.inl rfl)
    rw [show (Sock.new plan).plan 0 = plan 0 from rfl, hp] at hn
    cases hn
  | some e =>
    obtain ⟨g3, g4⟩ := hm.why e rfl
    simp only at hm g3 g4 ⊢
    -- only one call was made
    have h1 : w1.sock.calls = 1 := by
      have hge : 0 < w1.sock.calls := g3
      by_cases hl : 0 + 1 < w1.sock.calls
      · obtain ⟨n, hn⟩ := hm.fine 0 (Nat.le_refl _) hge (Or.inr hl)
        rw [show (Sock.new plan).plan 0 = plan 0 from rfl, hp] at hn
        cases hn
      · omega
    rw [h1] at g4
    replace g4 : Explains (plan 0) e := g4
    rw [hp] at g4
    cases e with
    | error => simp [Explains] at g4
    | wait =>
      refine ⟨rfl, ?_, rfl⟩
      refine hm.quiet (fun i _ hi n => ?_)
      have : i = 0 := by omega
      rw [this, show (Sock.new plan).plan 0 = plan 0 from rfl, hp]
      simp

/-- Non-trivial case: a request, and a second one that is never looked at. -/
example : ((serveW noCodec sampleLimits (fun _ => sampleEnv) (Reader.ofBytes (encodeAll [sampleReq, sampleReq]) .eof) 4096
      (fun _ => .stalls)).2.2,
    (serveW noCodec sampleLimits (fun _ => sampleEnv) (Reader.ofBytes (encodeAll [sampleReq, sampleReq]) .eof) 4096
      (fun _ => .stalls)).1.length) = (.stalled, 1) := by decide +kernel

/-! ## C114 -/

/-- **C114.** The write buffer never holds more than its capacity, on any connection: a slow reader does not make it grow. -/
theorem C114_buffer_bounded {K : Type} (c : Codec K) (lim : HttpLimits) (env : Nat → Env K) (r : Reader) (cap : Nat)
    (plan : Nat → SockRes) : (serveW c lim env r cap plan).2.1.buf.length ≤ cap := by
  obtain ⟨src, res, h1, _⟩ := serveLoopW_moves c lim env (r.flat.length + 1) 0 Message.new Message.new r
    { cap := cap, buf := [], sock := Sock.new plan }
  have := h1.small (Nat.zero_le _)
  rw [h1.cap] at this
  exact this

/-- Non-trivial case: a buffer of 5 bytes that is full when the stream stalls. -/
example : ((ConnW.mk 5 [] (Sock.new fun _ => .stalls)).send b!"hell" b!"o, world").1.buf.length = 4 := by decide +kernel

end Httpd
