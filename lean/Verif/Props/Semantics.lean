import Verif.Spec.Semantics
import Verif.Props.Services
import Verif.Props.Grammar
/-!
# What a client asks for (C167-C169)

`Connection: close`, `HEAD` and `Expect: 100-continue`. None of the three occurs in the sources; the theorems say what comes of it for a
client, for the two services there are.
-/

namespace Httpd
open Spec MultiMap

/-- One of the two services, on a connection that takes what is written. -/
def TwoServices {K : Type} (env : Nat → Env K) : Prop :=
  ((∀ j, (env j).http = helloHttp) ∨ (∀ j, (env j).http = fsHttp)) ∧ ∀ j, (env j).write = .ok

/-- Both services answer every well-formed request, as long as none has the major version 0. -/
theorem answers_all {K : Type} (c : Codec K) (lim : HttpLimits) (env : Nat → Env K) (he : TwoServices env) (qs : List WireReq)
    (hq : ∀ q ∈ qs, q.WF lim.maxUrl lim.maxHeaderLine lim.maxHeadersCount) (hv : ∀ q ∈ qs, ¬ HasMajor q.head.w2 0) (r : Reader)
    (hr : r.flat = encodeAll qs) :
    (serve c lim env r).1.length = qs.length ∧ (r.fin = .silent → (serve c lim env r).2 = .waiting) := by
  obtain ⟨h | h, hw⟩ := he
  · obtain ⟨h1, h2⟩ := (C78_hello_transcript c lim env (fun j => ⟨h j, hw j⟩) qs hq hv r).1 hr
    refine ⟨by simpa using congrArg List.length h1, fun hs => by rw [h2, if_pos hs]⟩
  · obtain ⟨h1, h2⟩ := C79_fs_transcript c lim env (fun j => ⟨h j, hw j⟩) qs hq r hr
    refine ⟨by simpa using congrArg List.length h1, fun hs => by rw [h2, if_pos hs]⟩

/-! ## C167 -/

theorem toAnswer_le (qs : List WireReq) : toAnswer qs ≤ qs.length := by
  induction qs with
  | nil => exact Nat.le_refl _
  | cons q qs ih => simp only [toAnswer, List.length_cons]; split <;> omega

/-- The whole list is to be answered exactly if the connection persists after each of its requests but the last. -/
theorem toAnswer_eq (qs : List WireReq) : toAnswer qs = qs.length ↔ ∀ q ∈ qs.dropLast, Persists q := by
  induction qs with
  | nil => simp [toAnswer]
  | cons q qs ih =>
    cases qs with
    | nil => simp [toAnswer]
    | cons q' qs =>
      have := toAnswer_le (q' :: qs)
      have e : toAnswer (q :: q' :: qs) = 1 + (if Persists q then toAnswer (q' :: qs) else 0) := rfl
      rw [List.dropLast_cons₂, e]
      simp only [List.mem_cons, forall_eq_or_imp]
      generalize toAnswer (q' :: qs) = k at this ih
      rw [← ih, List.length_cons]
      by_cases hp : Persists q
      · rw [if_pos hp, and_iff_right hp]; omega
      · rw [if_neg hp]
        refine ⟨fun h => ?_, fun h => absurd h.1 hp⟩
        rw [List.length_cons] at h; omega

theorem persists_major {q : WireReq} (h : Persists q) : ¬ HasMajor q.head.w2 0 := by
  rcases h.2 with e | ⟨e, _⟩ <;> rw [e] <;> exact (hello_keepAlive _).mp (by decide +kernel)

/-- **C167 (partial).** Requests after which the connection is to persist are all answered, and the connection stays open. Missing: that
it is closed after the others, which is false (`C167_close_violated`). -/
theorem C167_persists_partial {K : Type} (c : Codec K) (lim : HttpLimits) (env : Nat → Env K) (he : TwoServices env)
    (qs : List WireReq) (hq : ∀ q ∈ qs, q.WF lim.maxUrl lim.maxHeaderLine lim.maxHeadersCount) (hp : ∀ q ∈ qs, Persists q) (r : Reader)
    (hr : r.flat = encodeAll qs) :
    (serve c lim env r).1.length = toAnswer qs ∧ (r.fin = .silent → (serve c lim env r).2 = .waiting) := by
  rw [(toAnswer_eq qs).mpr (fun q h => hp q (List.dropLast_subset _ h))]
  exact answers_all c lim env he qs hq (fun q h => persists_major (hp q h)) r hr

/-- **C167**, negation for the code as written: whatever the requests of a connection say about it - `Connection: close`, or
`HTTP/1.0` without `keep-alive` - if its major version is not 0, the next one is answered, and the connection stays open. If the
connection is not to persist after one of them, more are answered than should be. -/
theorem C167_close_violated {K : Type} (c : Codec K) (lim : HttpLimits) (env : Nat → Env K) (he : TwoServices env)
    (qs : List WireReq) (hq : ∀ q ∈ qs, q.WF lim.maxUrl lim.maxHeaderLine lim.maxHeadersCount) (hv : ∀ q ∈ qs, ¬ HasMajor q.head.w2 0)
    (r : Reader) (hr : r.flat = encodeAll qs) :
    (r.fin = .silent → (serve c lim env r).2 = .waiting) ∧
    ((∃ q ∈ qs.dropLast, ¬ Persists q) → toAnswer qs < (serve c lim env r).1.length) := by
  obtain ⟨h1, h2⟩ := answers_all c lim env he qs hq hv r hr
  refine ⟨h2, fun ⟨q, hm, hn⟩ => ?_⟩
  have h3 := toAnswer_le qs
  have h4 := fun h => (toAnswer_eq qs).mp h q hm
  rcases Nat.lt_or_ge (toAnswer qs) qs.length with h | h
  · omega
  · exact absurd (h4 (by omega)) hn

/-- A request with version `v` and a `Connection` field. -/
def askingReq (v opt : Bytes) : WireReq :=
  { head := { w0 := b!"GET", w1 := b!"/", w2 := v, fields := [⟨b!"Connection", opt, 1, 0⟩] }, body := [] }

example : ∀ q ∈ [askingReq b!"HTTP/1.1" b!"close", askingReq b!"HTTP/1.0" b!"x"],
    q.WF sampleLimits.maxUrl sampleLimits.maxHeaderLine sampleLimits.maxHeadersCount ∧ ¬ HasMajor q.head.w2 0 ∧ ¬ Persists q := by
  intro q hq
  simp only [List.mem_cons, List.not_mem_nil, or_false] at hq
  rcases hq with rfl | rfl <;>
    refine ⟨⟨⟨⟨by decide, by decide, by decide, by decide, by decide, by decide, by decide⟩, ?_, by decide, by decide⟩, by decide, rfl⟩,
      (hello_keepAlive _).mp (by decide +kernel), by decide +kernel⟩ <;>
    · intro f hf
      simp only [askingReq, List.mem_singleton] at hf
      rw [hf]
      exact ⟨by decide, by decide, by decide, by decide, by decide, by decide, by decide, by decide⟩

example : Persists (askingReq b!"HTTP/1.1" b!"Keep-Alive, x") ∧ ¬ Persists (askingReq b!"HTTP/1.1" b!"x ,\tClose") ∧
    ¬ Persists (askingReq b!"HTTP/1.0" b!"x") ∧ Persists (askingReq b!"HTTP/1.0" b!"keep-alive") ∧
    toAnswer [askingReq b!"HTTP/1.1" b!"x", askingReq b!"HTTP/1.1" b!"close", askingReq b!"HTTP/1.1" b!"x"] = 2 ∧
    (serve noCodec sampleLimits (fun _ => helloEnv) (Reader.ofBytes (encodeAll
      [askingReq b!"HTTP/1.1" b!"x", askingReq b!"HTTP/1.1" b!"close", askingReq b!"HTTP/1.1" b!"x"]) .silent)).1.length = 3 := by
  decide +kernel

/-! ## C168 -/

/-- **C168**, negation for the code as written: the answer of the hello-world service to a `HEAD` request has content. -/
theorem C168_content_violated {K : Type} (c : Codec K) (lim : HttpLimits) (env : Nat → Env K)
    (he : ∀ j, (env j).http = helloHttp ∧ (env j).write = .ok) (qs : List WireReq)
    (hq : ∀ q ∈ qs, q.WF lim.maxUrl lim.maxHeaderLine lim.maxHeadersCount) (hopen : ∀ q ∈ qs, ¬ HasMajor q.head.w2 0) (r : Reader)
    (hr : r.flat = encodeAll qs) (j : Nat) (q : WireReq) (hj : qs[j]? = some q) (_ : q.head.w0 = b!"HEAD") :
    ∃ ex lines body, (serve c lim env r).1[j]? = some ex ∧ splitHead ex.written = some (lines, body) ∧ body ≠ [] := by
  obtain ⟨ex, h1, _, _, lines, h2⟩ := C30_never_valid_violated c lim env he qs hq hopen r hr j q hj
  refine ⟨ex, lines, _, h1, h2, ?_⟩
  simp [List.replicate_succ]

/-- **C168 (partial).** The answer of the file-system service has no content; and the hello-world service gives the same answers to
requests that differ only in their methods, targets, fields and bodies, so that the fields of its answer to `HEAD` are those of its
answer to `GET`. Missing: `C168_content_violated`. -/
theorem C168_same_partial {K : Type} (c : Codec K) (lim : HttpLimits) (env : Nat → Env K) (he : TwoServices env) (qs : List WireReq)
    (hq : ∀ q ∈ qs, q.WF lim.maxUrl lim.maxHeaderLine lim.maxHeadersCount) (hopen : ∀ q ∈ qs, ¬ HasMajor q.head.w2 0) (r : Reader)
    (hr : r.flat = encodeAll qs) :
    ((∀ j, (env j).http = fsHttp) → ∀ ex ∈ (serve c lim env r).1, ∃ lines, splitHead ex.written = some (lines, [])) ∧
    (∀ qs' : List WireReq, (∀ q ∈ qs', q.WF lim.maxUrl lim.maxHeaderLine lim.maxHeadersCount) →
      qs'.map (·.head.w2) = qs.map (·.head.w2) → ∀ r' : Reader, r'.flat = encodeAll qs' →
      (serve c lim env r').1.map (·.written) = (serve c lim env r).1.map (·.written)) := by
  refine ⟨fun hfs ex hex => ?_, fun qs' hq' hsame r' hr' => ?_⟩
  · have h1 := (C79_fs_transcript c lim env (fun j => ⟨hfs j, he.2 j⟩) qs hq r hr).1
    have h2 : ex.written ∈ (serve c lim env r).1.map (·.written) := List.mem_map_of_mem hex
    rw [h1] at h2
    rw [List.eq_of_mem_replicate h2]
    exact ⟨[b!"  ", b!"content-length: 0"], by decide +kernel⟩
  · obtain ⟨h | h, hw⟩ := he
    · have hopen' : ∀ q ∈ qs', ¬ HasMajor q.head.w2 0 := by
        intro q hm
        have : q.head.w2 ∈ qs.map (·.head.w2) := by rw [← hsame]; exact List.mem_map_of_mem hm
        obtain ⟨q0, h0, e0⟩ := List.mem_map.mp this
        rw [← e0]; exact hopen q0 h0
      rw [((C78_hello_transcript c lim env (fun j => ⟨h j, hw j⟩) qs hq hopen r).1 hr).1,
        ((C78_hello_transcript c lim env (fun j => ⟨h j, hw j⟩) qs' hq' hopen' r').1 hr').1]
      have e : ∀ l : List WireReq, l.mapIdx (fun j q => helloText q.head.w2 j) = (l.map (·.head.w2)).mapIdx (fun j v => helloText v j) := by
        intro l; apply List.ext_getElem?; intro i; simp [List.getElem?_mapIdx, Option.map_map]; rfl
      rw [e, e, hsame]
    · rw [(C79_fs_transcript c lim env (fun j => ⟨h j, hw j⟩) qs hq r hr).1,
        (C79_fs_transcript c lim env (fun j => ⟨h j, hw j⟩) qs' hq' r' hr').1]
      have := congrArg List.length hsame
      simp only [List.length_map] at this
      rw [this]

example : (serve noCodec sampleLimits (fun _ => helloEnv) (Reader.ofBytes
    (encodeAll [{ askingReq b!"x" b!"y" with head := { (askingReq b!"x" b!"y").head with w0 := b!"HEAD" } }]) .silent)).1.map (·.written) =
    [b!"HTTP/1.1 200 OK\r\nserver: httpd.rs\r\ncontent-length: 12\r\n\r\nHello world!"] := by decide +kernel

/-! ## C169 -/

/-- **C169**, negation for the code as written, for every service: as long as a client that has announced content does not send all of
it, nothing is written to it. A client that waits for `100 Continue` and the server wait for each other for ever. -/
theorem C169_both_wait_violated {K : Type} (c : Codec K) (lim : HttpLimits) (env : Nat → Env K) (q : WireReq)
    (hq : q.WF lim.maxUrl lim.maxHeaderLine lim.maxHeadersCount) (_ : WantsContinue q) (sent : Bytes) (hs : sent.length < q.body.length)
    (r : Reader) (hr : r.flat = q.head.encode ++ sent) (hfin : r.fin = .silent) : serve c lim env r = ([], .waiting) := by
  obtain ⟨hd, r1, h1, _, _, _, hh, h2, h3⟩ := C02_wellformed_head lim q.head hq.head_wf Head.new Head.blank_new r sent hr
  have hb : readConstLengthBody (env 0).cap hd.headers (Body.new : Body K) r1 = .fail .waiting := by
    have hcl := WF.content_length hq hh
    rcases readConst_raw (env 0).cap q.body.length (Body.new : Body K) [] r1 (env 0).cap_pos rfl with ⟨g1, _⟩ | ⟨_, _, g⟩ | ⟨_, g, _⟩
    · rw [h2] at g1; omega
    · simp only [readConstLengthBody, hcl]
      rw [g, h3, hfin]; rfl
    · rw [h3, hfin] at g; cases g
  have e1 : readHead lim (Message.new : Message K).head r = .ok (hd, r1) := h1
  have e2 : readConstLengthBody (env 0).cap hd.headers (Message.new : Message K).body r1 = .fail .waiting := hb
  simp only [serve, serveLoop, e1, e2]
  rfl

/-- **C169 (partial).** A client that sends its content without waiting has its request delivered, with the whole content, to every
service. Missing: the interim response (`C169_both_wait_violated`). -/
theorem C169_sent_partial {K : Type} (c : Codec K) (lim : HttpLimits) (env : Nat → Env K) (q : WireReq)
    (hq : q.WF lim.maxUrl lim.maxHeaderLine lim.maxHeadersCount) (_ : WantsContinue q) (rest : Bytes) (r : Reader)
    (hr : r.flat = q.encode ++ rest) :
    ∃ ex, (serve c lim env r).1[0]? = some ex ∧ ex.req.body.internal = some q.body ∧ ex.req.head.f1 = q.head.w1 := by
  obtain ⟨hd, r1, r2, x, h1, hx, h3, hd', _, _⟩ := read_request lim q hq (env 0).cap (env 0).cap_pos (Message.new : Message K)
    Head.blank_new Body.plain_new r rest hr
  obtain rfl : x = [] := by simpa [Message.new, Body.new] using hx.symm
  obtain ⟨w, es, e, h⟩ := serveLoop_delivers c lim env r.flat.length 0 Message.new Message.new r r1 r2 hd _ h1 h3
  refine ⟨⟨⟨hd, { internal := some ([] ++ q.body), cw := none }⟩, w⟩, ?_, ?_⟩
  · unfold serve; rw [h]; rfl
  · exact ⟨rfl, hd'.f1⟩

/-- A request that waits for the interim response. -/
def waitingReq : WireReq :=
  { head := { w0 := b!"PUT", w1 := b!"/x", w2 := b!"HTTP/1.1",
              fields := [⟨b!"Expect", b!"100-Continue", 1, 0⟩, ⟨b!"Content-Length", b!"4", 1, 0⟩] },
    body := b!"body" }

theorem waitingReq_wf : waitingReq.WF sampleLimits.maxUrl sampleLimits.maxHeaderLine sampleLimits.maxHeadersCount := by
  refine ⟨⟨⟨by decide, by decide, by decide, by decide, by decide, by decide, by decide⟩, ?_, by decide, by decide⟩, by decide, ?_⟩
  · intro f hf
    simp only [waitingReq, List.mem_cons, List.not_mem_nil, or_false] at hf
    rcases hf with rfl | rfl <;> exact ⟨by decide, by decide, by decide, by decide, by decide, by decide, by decide, by decide⟩
  · exact natToBytes_numeral 4

example : WantsContinue waitingReq := by show Lists _ _ _; decide +kernel

example : serve noCodec sampleLimits (fun _ => helloEnv) (Reader.ofBytes waitingReq.head.encode .silent) = ([], .waiting) :=
  C169_both_wait_violated noCodec sampleLimits _ waitingReq waitingReq_wf (by show Lists _ _ _; decide +kernel) [] (by decide) _
    (by decide +kernel) rfl

end Httpd
