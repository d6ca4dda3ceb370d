import Verif.Model.Serve
import Verif.Props.Head
import Verif.Lemmas.Body
import Verif.Lemmas.RustInt
import Verif.Spec.Request
/-! # Facts about the connection loop -/

namespace Httpd
open Spec MultiMap

/-! ## Bodies -/

/-- A body in plain mode: it has its buffer and no codec. -/
def Body.Plain {K : Type} (b : Body K) : Prop := b.internal.isSome = true ∧ b.cw = none

/-- A body that is not broken: it has its buffer or a codec. -/
def Body.Usable {K : Type} (b : Body K) : Prop := b.internal.isSome = true ∨ b.cw.isSome = true

theorem Body.plain_new {K : Type} : (Body.new : Body K).Plain := ⟨rfl, rfl⟩

theorem Body.Plain.usable {K : Type} {b : Body K} (h : b.Plain) : b.Usable := Or.inl h.1

theorem Body.plain_clear {K : Type} (c : Codec K) {b : Body K} (h : b.Usable) : (b.clear c).Plain := by
  simp only [Body.clear, Body.finish]
  cases hc : b.cw with
  | none =>
    rcases h with h | h
    · exact ⟨h, hc⟩
    · rw [hc] at h; cases h
  | some k =>
    simp only
    cases he : c.expose k with
    | none => exact ⟨rfl, rfl⟩
    | some buf => exact ⟨rfl, rfl⟩

theorem Body.plain_finish {K : Type} (c : Codec K) {b : Body K} (h : b.Usable) (hf : (b.finish c).2 = true) :
    (b.finish c).1.Plain := by
  simp only [Body.finish] at hf ⊢
  cases hc : b.cw with
  | none =>
    rcases h with h | h
    · exact ⟨h, hc⟩
    · rw [hc] at h; cases h
  | some k =>
    rw [hc] at hf
    simp only at hf ⊢
    cases he : c.expose k with
    | none => rw [he] at hf; cases hf
    | some buf => exact ⟨rfl, rfl⟩

theorem Body.finish_plain {K : Type} (c : Codec K) {b : Body K} (h : b.Plain) : b.finish c = (b, true) := by
  simp [Body.finish, h.2]

theorem Body.clear_plain {K : Type} (c : Codec K) {b : Body K} (h : b.Plain) : b.clear c = b := by
  simp [Body.clear, Body.finish_plain c h]

/-! ## Reading -/

theorem readHead_empty (lim : HttpLimits) (hd : Head) (r : Reader) (h : r.flat = []) :
    readHead lim hd r = .error (if r.fin = .silent then .waiting else .connReadError) := by
  have hu := Reader.readUntil_spec 32 128 r
  rw [h] at hu
  simp only [readHead, readHeadFuel]
  cases hf : r.fin with
  | eof =>
    simp only [hf, or_true, if_true] at hu
    obtain ⟨r', hr', _⟩ := hu
    simp [hr', cut]
  | err =>
    simp only [hf, cutDone] at hu
    simp at hu
    simp [hu, Reader.endStop, Reader.IoStop.code]
  | silent =>
    simp only [hf, cutDone] at hu
    simp at hu
    simp [hu, Reader.endStop, Reader.IoStop.code]

/-- A head takes at least seven bytes. -/
theorem readHead_consumes {lim : HttpLimits} {hd hd' : Head} {r r' : Reader} (h : readHead lim hd r = .ok (hd', r')) :
    r'.flat.length + 7 ≤ r.flat.length := by
  obtain ⟨⟨P⟩, _⟩ := readHead_ok h
  have hl : ∀ {hs hs' s rest}, Lines lim hs s hs' rest → rest.length + 2 ≤ s.length := by
    intro hs hs' s rest hl
    induction hl with
    | stop hs s h =>
      have := congrArg List.length (cut_append 10 lim.maxHeaderLine s); simp at this; omega
    | line hs hs1 hs2 s rest hl hscan h ih =>
      have := congrArg List.length (cut_append 10 lim.maxHeaderLine s); simp at this; omega
  have h0 := hl P.lines
  have h1 := congrArg List.length (cut_append 32 128 r.flat)
  have h2 := congrArg List.length (cut_append 32 lim.maxUrl P.s1)
  have h3 := congrArg List.length (cut_append 10 128 P.s2)
  rw [P.hm] at h1; rw [P.ht] at h2; rw [P.hv] at h3
  simp only [List.length_append] at h1 h2 h3
  have := P.hm1; have := P.ht1; have := P.hv3
  omega

theorem readConstLengthBody_done {K : Type} {cap : Nat} {hs : MultiMap} {b b' : Body K} {r r' : Reader} (hc : 1 ≤ cap)
    (h : readConstLengthBody cap hs b r = .done b' r') :
    ∃ n, getContentLength hs = some n ∧ n ≤ r.flat.length ∧ r'.flat = r.flat.drop n ∧ r'.fin = r.fin ∧ b'.cw = b.cw ∧
      b'.internal = b.internal.map (· ++ r.flat.take n) := by
  simp only [readConstLengthBody] at h
  split at h
  · next n hn => exact ⟨n, hn, readConst_done hc h⟩
  · cases h

/-- What a request is read as. -/
structure Delivered (lim : HttpLimits) (q : WireReq) (hd : Head) : Prop where
  f0 : hd.f0 = q.head.w0
  f1 : hd.f1 = q.head.w1
  f2 : hd.f2 = q.head.w2
  headers : ∀ k, hd.headers.getall k = lookupFields q.head.fields k

theorem getContentLength_of_fields {hs : MultiMap} {fs : List Field} (h : ∀ k, hs.getall k = lookupFields fs k) :
    getContentLength hs = match announced fs with
      | some v => parseUInt u64Max v
      | none => some 0 := by
  simp only [getContentLength, MultiMap.get, h, lookupFields, announced]
  cases valuesOf fs b!"content-length" with
  | nil => rfl
  | cons v vs => rfl

theorem WF.content_length {lim : HttpLimits} {q : WireReq}
    (hq : q.WF lim.maxUrl lim.maxHeaderLine lim.maxHeadersCount) {hs : MultiMap}
    (h : ∀ k, hs.getall k = lookupFields q.head.fields k) : getContentLength hs = some q.body.length := by
  rw [getContentLength_of_fields h]
  have ha := hq.announce
  cases hv : announced q.head.fields with
  | none => rw [hv] at ha; simp only at ha ⊢; rw [ha]; rfl
  | some v =>
    rw [hv] at ha
    simp only at ha ⊢
    rw [parseUInt_iff]
    refine ⟨ha, ?_⟩
    have := hq.body_len
    simp only [u64Max]; omega

/-- A well-formed request is read: its head and its body. -/
theorem read_request {K : Type} (lim : HttpLimits) (q : WireReq)
    (hq : q.WF lim.maxUrl lim.maxHeaderLine lim.maxHeadersCount) (cap : Nat) (hc : 1 ≤ cap) (req : Message K)
    (hb : req.head.Blank) (hp : req.body.Plain) (r : Reader) (s : Bytes) (hr : r.flat = q.encode ++ s) :
    ∃ hd r1 r2 x, readHead lim req.head r = .ok (hd, r1) ∧ req.body.internal = some x ∧
      readConstLengthBody cap hd.headers req.body r1 = .done { internal := some (x ++ q.body), cw := none } r2 ∧
      Delivered lim q hd ∧ r2.flat = s ∧ r2.fin = r.fin := by
  obtain ⟨hd, r1, h1, f0, f1, f2, hh, h2, h3⟩ := C02_wellformed_head lim q.head hq.head_wf req.head hb r (q.body ++ s)
    (by rw [hr]; simp [WireReq.encode])
  obtain ⟨x, hx⟩ := Option.isSome_iff_exists.mp hp.1
  rcases readConst_raw cap q.body.length req.body x r1 hc hx with ⟨g1, q', g2, g3, g4⟩ | ⟨g1, _⟩ | ⟨g1, _⟩
  · refine ⟨hd, r1, q', x, h1, hx, ?_, ⟨f0, f1, f2, hh⟩, by rw [g3, h2]; simp, by rw [g4, h3]⟩
    simp only [readConstLengthBody, WF.content_length hq hh, g2, h2]
    simp [hp.2]
  · rw [h2, List.length_append] at g1; omega
  · rw [h2, List.length_append] at g1; omega

/-! ## The loop -/

theorem serveLoop_congr {K : Type} (c : Codec K) (lim : HttpLimits) (env env' : Nat → Env K)
    (he : ∀ i, (env i).http = (env' i).http ∧ (env i).write = (env' i).write ∧ (env i).ord = (env' i).ord)
    (fuel i : Nat) (req resp : Message K) (r r' : Reader) (h : r.Equiv r') :
    serveLoop c lim env fuel i req resp r = serveLoop c lim env' fuel i req resp r' := by
  induction fuel generalizing i req resp r r' with
  | zero => rfl
  | succ fuel ih =>
    obtain ⟨e1, e2, e3⟩ := he i
    simp only [serveLoop]
    have hh := readHead_congr lim req.head r r' h
    revert hh
    cases readHead lim req.head r with
    | error e =>
      cases readHead lim req.head r' with
      | error e' => intro hh; simp only [HeadResEquiv] at hh; rw [hh]
      | ok x => intro hh; exact hh.elim
    | ok x =>
      cases readHead lim req.head r' with
      | error e' => intro hh; exact hh.elim
      | ok x' =>
        obtain ⟨hd, r1⟩ := x
        obtain ⟨hd', r1'⟩ := x'
        rintro ⟨rfl, h1⟩
        simp only
        have hb := readConstLengthBody_congr (env i).cap (env' i).cap hd.headers req.body r1 r1' h1 (env i).cap_pos (env' i).cap_pos
        revert hb
        cases readConstLengthBody (env i).cap hd.headers req.body r1 <;>
          cases readConstLengthBody (env' i).cap hd.headers req.body r1' <;> intro hb <;> first | exact hb.elim | skip
        · obtain ⟨rfl, h2⟩ := hb
          simp only [e1, e2, e3]
          split
          · rfl
          · rfl
          · split
            · rfl
            · split
              · rfl
              · split
                · rw [ih _ _ _ _ _ h2]
                · rfl
                · rfl
                · rfl
        · simp only [BodyResEquiv] at hb; rw [hb]
        · rfl
        · rfl

/-- More fuel than bytes makes no difference, and the bound is never reached. -/
theorem serveLoop_fuel {K : Type} (c : Codec K) (lim : HttpLimits) (env : Nat → Env K) (fuel fuel' i : Nat)
    (req resp : Message K) (r : Reader) (h : r.flat.length < fuel) (h' : r.flat.length < fuel') :
    serveLoop c lim env fuel i req resp r = serveLoop c lim env fuel' i req resp r ∧
    (serveLoop c lim env fuel i req resp r).2 ≠ .outOfFuel ∧
    7 * (serveLoop c lim env fuel i req resp r).1.length ≤ r.flat.length := by
  induction fuel generalizing fuel' i req resp r with
  | zero => omega
  | succ fuel ih =>
    obtain ⟨fuel', rfl⟩ : ∃ k, fuel' = k + 1 := ⟨fuel' - 1, by omega⟩
    simp only [serveLoop]
    cases hh : readHead lim req.head r with
    | error e => cases e <;> simp [headEnding]
    | ok x =>
      obtain ⟨hd, r1⟩ := x
      have hc := readHead_consumes hh
      simp only
      cases hb : readConstLengthBody (env i).cap hd.headers req.body r1 with
      | fail e => cases e <;> simp [bodyEnding]
      | panic => simp
      | hang => simp
      | done body r2 =>
        obtain ⟨n, _, _, hr2, _⟩ := readConstLengthBody_done (env i).cap_pos hb
        have hlen : r2.flat.length ≤ r1.flat.length := by rw [hr2]; simp
        simp only
        cases (env i).http ⟨hd, body⟩ resp with
        | err => simp; omega
        | panic => simp; omega
        | ok p req2 resp2 =>
          simp only
          rcases encodeResponse c (env i).ord resp2 with ⟨resp3, _ | bytes⟩
          · simp; omega
          · simp only
            cases (env i).write with
            | failAfter k s => cases s <;> (simp [writeEnding]; omega)
            | ok =>
              simp only
              have := ih fuel' (i + 1) (req2.clear c) (resp3.clear c) r2 (by omega) (by omega)
              obtain ⟨g1, g2, g3⟩ := this
              rw [g1] at g2 g3 ⊢
              split
              · refine ⟨rfl, g2, ?_⟩
                simp only [List.length_cons]; omega
              · simp; omega
              · simp; omega
              · simp; omega

end Httpd

namespace Httpd
open Spec MultiMap

/-- The exchange was answered completely: the service was given the request and some response message, and the serialised
response it produced was written. -/
def Answered {K : Type} (c : Codec K) (e : Env K) (ex : Exchange K) (p : Protocol) : Prop :=
  ∃ resp0 req2 resp2 m, e.http ex.req resp0 = .ok p req2 resp2 ∧ encodeResponse c e.ord resp2 = (m, some ex.written) ∧
    e.write = .ok

/-- A service that keeps the connection open, on a connection whose writes succeed: given messages in their initial state
(plain bodies, blank response head), it answers with keep-alive, a response whose body can be finished, and bodies that are
not broken. -/
def KeepsOpen {K : Type} (c : Codec K) (e : Env K) : Prop :=
  e.write = .ok ∧ ∀ req resp : Message K, req.body.Plain → resp.body.Plain → resp.head.Blank →
    ∃ req2 resp2, e.http req resp = .ok (.current true) req2 resp2 ∧ req2.body.Usable ∧ resp2.body.Usable ∧
      (resp2.body.finish c).2 = true

/-- A service that leaves the body of the request alone. -/
def KeepsReqBody {K : Type} (e : Env K) : Prop :=
  ∀ req resp p req2 resp2, e.http req resp = .ok p req2 resp2 → req2.body = req.body

/-- A service that appends `out` to the response body, as `write_all_to_internal` does. -/
def AppendsRespBody {K : Type} (out : Bytes) (e : Env K) : Prop :=
  ∀ req resp p req2 resp2, e.http req resp = .ok p req2 resp2 →
    resp2.body = { resp.body with internal := resp.body.internal.map (· ++ out) }

theorem encodeResponse_ok {K : Type} (c : Codec K) (ord : List Pair → List Pair) (m : Message K)
    (h : (m.body.finish c).2 = true) :
    encodeResponse c ord m =
      ({ head := { m.head with headers := m.head.headers.set b!"content-length" (natToBytes (m.body.finish c).1.size) },
         body := (m.body.finish c).1 },
       some (responseBytes m.head.f0 m.head.f1 m.head.f2
        ((m.head.headers.set b!"content-length" (natToBytes (m.body.finish c).1.size)).entries ord)
        ((m.body.finish c).1.internal.getD []))) := by
  simp only [encodeResponse]
  rcases hf : m.body.finish c with ⟨b, ok⟩
  rw [hf] at h
  cases h
  simp only
  cases b.internal <;> rfl

theorem serveLoop_requests {K : Type} (c : Codec K) (lim : HttpLimits) (env : Nat → Env K) (qs : List WireReq)
    (hq : ∀ q ∈ qs, q.WF lim.maxUrl lim.maxHeaderLine lim.maxHeadersCount) (i : Nat)
    (hk : ∀ j, j < qs.length → KeepsOpen c (env (i + j))) (fuel : Nat) (req resp : Message K) (hb : req.head.Blank)
    (hp : req.body.Plain) (hb' : resp.head.Blank) (hp' : resp.body.Plain) (r : Reader) (s : Bytes)
    (hr : r.flat = encodeAll qs ++ s) :
    ∃ exs req' resp' r', serveLoop c lim env (fuel + qs.length) i req resp r =
        (exs ++ (serveLoop c lim env fuel (i + qs.length) req' resp' r').1,
         (serveLoop c lim env fuel (i + qs.length) req' resp' r').2) ∧
      exs.length = qs.length ∧
      (∀ j q ex, qs[j]? = some q → exs[j]? = some ex →
        Delivered lim q ex.req.head ∧ Answered c (env (i + j)) ex (.current true)) ∧
      (req'.head.Blank ∧ req'.body.Plain ∧ resp'.head.Blank ∧ resp'.body.Plain ∧ r'.flat = s ∧ r'.fin = r.fin) ∧
      ((∀ j, j < qs.length → KeepsReqBody (env (i + j))) → ∀ x, req.body.internal = some x → ∀ j ex, exs[j]? = some ex →
        ex.req.body.internal = some (x ++ ((qs.take (j + 1)).map WireReq.body).flatten)) ∧
      (∀ out : Nat → Bytes, (∀ j, j < qs.length → AppendsRespBody (out (i + j)) (env (i + j))) →
        ∀ x, resp.body.internal = some x → ∀ j ex, exs[j]? = some ex →
        ∃ f0 f1 f2 ps, ex.written = responseBytes f0 f1 f2 ps (x ++ ((List.range (j + 1)).map (fun k => out (i + k))).flatten)) := by
  induction qs generalizing i req resp r with
  | nil => exact ⟨[], req, resp, r, by simp, rfl, by simp, ⟨hb, hp, hb', hp', by simpa [encodeAll] using hr, rfl⟩, by simp, by simp⟩
  | cons q qs ih =>
    obtain ⟨hd, r1, r2, x, h1, hx, h2, h3, h4, h5⟩ := read_request lim q (hq q (by simp)) (env i).cap (env i).cap_pos req hb hp r
      (encodeAll qs ++ s) (by rw [hr]; simp [encodeAll])
    obtain ⟨hwr, hsvc⟩ := hk 0 (by simp)
    obtain ⟨req2, resp2, e1, e2, e3, e4⟩ := hsvc ⟨hd, { internal := some (x ++ q.body), cw := none }⟩ resp ⟨rfl, rfl⟩ hp' hb'
    have e5 := encodeResponse_ok c (env i).ord resp2 e4
    have e6 := Body.plain_finish c e3 e4
    obtain ⟨exs, req', resp', r', g1, g2, g3, g4, g5, g6⟩ := ih (fun q hq' => hq q (by simp [hq'])) (i + 1)
      (fun j hj => by have := hk (j + 1) (by simp; omega); rwa [Nat.add_assoc, Nat.add_comm 1 j])
      (req2.clear c) (Message.clear c { head := { resp2.head with headers := resp2.head.headers.set b!"content-length" (natToBytes (resp2.body.finish c).1.size) }, body := (resp2.body.finish c).1 })
      (Head.blank_clear _) (Body.plain_clear c e2) (Head.blank_clear _) (Body.plain_clear c e6.usable) r2 h4
    have hidx : i + 1 + qs.length = i + (q :: qs).length := by simp; omega
    rw [hidx] at g1
    refine ⟨⟨⟨hd, { internal := some (x ++ q.body), cw := none }⟩, responseBytes resp2.head.f0 resp2.head.f1 resp2.head.f2
        ((resp2.head.headers.set b!"content-length" (natToBytes (resp2.body.finish c).1.size)).entries (env i).ord)
        ((resp2.body.finish c).1.internal.getD [])⟩ :: exs,
      req', resp', r', ?_, by simp [g2], ?_, ?_, ?_, ?_⟩
    · rw [List.length_cons, ← Nat.add_assoc]
      simp only [serveLoop, h1, h2]
      rw [Nat.add_zero] at e1 hwr
      simp only [e1, e5, hwr]
      rw [g1]
      rfl
    · intro j q' ex hj hj'
      cases j with
      | zero =>
        simp only [List.getElem?_cons_zero, Option.some.injEq] at hj hj'
        subst hj; subst hj'
        exact ⟨h3, resp, req2, resp2, _, e1, e5, hwr⟩
      | succ j =>
        simp only [List.getElem?_cons_succ] at hj hj'
        have := g3 j q' ex hj hj'
        rwa [Nat.add_assoc, Nat.add_comm 1 j] at this
    · obtain ⟨a, b, cc, d, e, f⟩ := g4
      exact ⟨a, b, cc, d, e, by rw [f, h5]⟩
    · intro hkeep y hy j ex hj
      rw [hx] at hy; cases hy
      have hreq2 := hkeep 0 (by simp) _ _ _ _ _ e1
      cases j with
      | zero =>
        simp only [List.getElem?_cons_zero, Option.some.injEq] at hj
        subst hj; simp
      | succ j =>
        simp only [List.getElem?_cons_succ] at hj
        have := g5 (fun j hj => by have := hkeep (j + 1) (by simp; omega); rwa [Nat.add_assoc, Nat.add_comm 1 j])
          (x ++ q.body) (by
            show (req2.body.clear c).internal = _
            rw [hreq2, Body.clear_plain c ⟨rfl, rfl⟩]) j ex hj
        rw [this]; simp
    · intro out hout y hy j ex hj
      have hresp2 := hout 0 (by simp) _ _ _ _ _ e1
      rw [Nat.add_zero] at hresp2
      have hpl : resp2.body.Plain := by rw [hresp2]; exact ⟨by simp [hy], hp'.2⟩
      have hint : resp2.body.internal = some (y ++ out i) := by rw [hresp2]; simp [hy]
      cases j with
      | zero =>
        simp only [List.getElem?_cons_zero, Option.some.injEq] at hj
        subst hj
        refine ⟨resp2.head.f0, resp2.head.f1, resp2.head.f2,
          (resp2.head.headers.set b!"content-length" (natToBytes (resp2.body.finish c).1.size)).entries (env i).ord, ?_⟩
        simp only [Body.finish_plain c hpl, hint, Option.getD_some]
        simp
      | succ j =>
        simp only [List.getElem?_cons_succ] at hj
        obtain ⟨f0, f1, f2, ps, this⟩ := g6 out (fun j hj => by have := hout (j + 1) (by simp; omega); rwa [Nat.add_assoc, Nat.add_comm 1 j])
          (y ++ out i) (by
            show ((resp2.body.finish c).1.clear c).internal = _
            rw [Body.finish_plain c hpl, Body.clear_plain c hpl, hint]) j ex hj
        refine ⟨f0, f1, f2, ps, ?_⟩
        rw [this, List.range_succ_eq_map (n := j + 1)]
        simp only [List.map_cons, List.flatten_cons, List.map_map, Nat.add_zero, List.append_assoc]
        congr 4
        apply List.map_congr_left
        intro k _
        simp only [Function.comp_apply]
        congr 1; omega

/-- Whatever the service does, a request that can be read is delivered. -/
theorem serveLoop_delivers {K : Type} (c : Codec K) (lim : HttpLimits) (env : Nat → Env K) (fuel i : Nat)
    (req resp : Message K) (r r1 r2 : Reader) (hd : Head) (body : Body K) (h1 : readHead lim req.head r = .ok (hd, r1))
    (h2 : readConstLengthBody (env i).cap hd.headers req.body r1 = .done body r2) :
    ∃ w rest e, serveLoop c lim env (fuel + 1) i req resp r = (⟨⟨hd, body⟩, w⟩ :: rest, e) := by
  simp only [serveLoop, h1, h2]
  cases (env i).http ⟨hd, body⟩ resp with
  | err => exact ⟨_, _, _, rfl⟩
  | panic => exact ⟨_, _, _, rfl⟩
  | ok p req2 resp2 =>
    simp only
    rcases encodeResponse c (env i).ord resp2 with ⟨resp3, _ | bytes⟩
    · exact ⟨_, _, _, rfl⟩
    · simp only
      cases (env i).write with
      | failAfter k s => exact ⟨_, _, _, rfl⟩
      | ok => simp only; split <;> exact ⟨_, _, _, rfl⟩

/-- A well-formed request is delivered, at any position of the connection, whatever the service does. -/
theorem serveLoop_delivers_request {K : Type} (c : Codec K) (lim : HttpLimits) (env : Nat → Env K) (fuel i : Nat)
    (q : WireReq) (hq : q.WF lim.maxUrl lim.maxHeaderLine lim.maxHeadersCount)
    (req resp : Message K) (x : Bytes) (hb : req.head.Blank) (hp : req.body.Plain) (hx : req.body.internal = some x)
    (r : Reader) (s : Bytes) (hr : r.flat = q.encode ++ s) :
    ∃ ex rest e, serveLoop c lim env (fuel + 1) i req resp r = (ex :: rest, e) ∧ Delivered lim q ex.req.head ∧
      ex.req.body.internal = some (x ++ q.body) := by
  obtain ⟨hd, r1, r2, x', h1, hx', h2, h3, h4, h5⟩ := read_request lim q hq (env i).cap (env i).cap_pos req hb hp r s hr
  obtain ⟨w, rest, e, h⟩ := serveLoop_delivers c lim env fuel i req resp r r1 r2 hd _ h1 h2
  rw [hx] at hx'; cases hx'
  exact ⟨_, rest, e, h, h3, rfl⟩

end Httpd
