import Verif.Props.Rfc
import Verif.Props.Chunked
import Verif.Spec.Run
/-! # Any service on any bytes, and any bytes as a chunked body: C135, C136 -/

namespace Httpd
open Spec MultiMap

/-! ## C135: what is delivered depends on the bytes only -/

/-- The exchange delivers this request: the same words, the same header values, and the body at the end of what the body of the message
holds (what comes before it is what the service left there). -/
structure Delivers {K : Type} (q : Req) (ex : Exchange K) : Prop where
  f0 : ex.req.head.f0 = q.w0
  f1 : ex.req.head.f1 = q.w1
  f2 : ex.req.head.f2 = q.w2
  headers : ∀ k, ex.req.head.headers.getall k = valuesIn (collect q.fields) k
  body : ∀ y, ex.req.body.internal = some y → q.body <:+ y
  nobody : ex.req.body.internal = none → q.body = []

theorem readConst_after {K : Type} {cap n : Nat} {b b' : Body K} {r r' : Reader} (hc : 1 ≤ cap)
    (h : readConst Body.writeRaw cap n b r = .done b' r') :
    (∀ y, b'.internal = some y → r.flat.take n <:+ y) ∧ (b'.internal = none → r.flat.take n = []) := by
  cases hb : b.internal with
  | none =>
    rw [readConst_nobuf _ _ _ _ hb] at h
    split at h
    · cases h
      have : n = 0 := by omega
      subst this
      simp [hb]
    · split at h <;> cases h
  | some x =>
    obtain ⟨_, _, _, _, h5⟩ := readConst_done hc h
    rw [h5, hb]
    refine ⟨fun y hy => ?_, fun hy => by cases hy⟩
    cases hy
    exact ⟨x, rfl⟩

theorem serveLoop_reqs {K : Type} (c : Codec K) (lim : HttpLimits) (env : Nat → Env K) (fuel i : Nat) (req resp : Message K)
    (hb : req.head.Blank) (r : Reader) :
    ∃ qs rest, Reqs lim.maxUrl lim.maxHeaderLine lim.maxHeadersCount (decide (r.fin = .eof)) r.flat qs rest ∧
      qs.length = (serveLoop c lim env fuel i req resp r).1.length ∧
      ∀ (j : Nat) (q : Req) (ex : Exchange K), qs[j]? = some q → (serveLoop c lim env fuel i req resp r).1[j]? = some ex → Delivers q ex := by
  induction fuel generalizing i req resp r with
  | zero => exact ⟨[], r.flat, .stop _, rfl, by simp⟩
  | succ fuel ih =>
    simp only [serveLoop]
    cases hh : readHead lim req.head r with
    | error e => exact ⟨[], r.flat, .stop _, rfl, by simp⟩
    | ok p =>
      obtain ⟨hd, r1⟩ := p
      obtain ⟨fs, h1, h2, h3⟩ := C129_accepted lim req.head hd hb r r1 hh
      simp only [readConstLengthBody]
      cases hc : getContentLength hd.headers with
      | none => exact ⟨[], r.flat, .stop _, rfl, by simp⟩
      | some n =>
        have ha := (announces_iff h2 (some n)).mpr hc
        simp only
        cases hr : readConst Body.writeRaw (env i).cap n req.body r1 with
        | fail e => exact ⟨[], r.flat, .stop _, rfl, by simp⟩
        | panic => exact ⟨[], r.flat, .stop _, rfl, by simp⟩
        | hang => exact ⟨[], r.flat, .stop _, rfl, by simp⟩
        | done body r2 =>
          obtain ⟨g1, g2, g3, _, _⟩ := readConst_done (env i).cap_pos hr
          obtain ⟨g4, g5⟩ := readConst_after (env i).cap_pos hr
          have hlen : (r1.flat.take n).length = n := by simp; omega
          have hat : Req.At lim.maxUrl lim.maxHeaderLine lim.maxHeadersCount (decide (r.fin = .eof)) r.flat
              ⟨hd.f0, hd.f1, hd.f2, fs, r1.flat.take n⟩ r2.flat :=
            ⟨by simpa only [g2, List.take_append_drop] using h1, by simpa only [hlen] using ha⟩
          have hdel : ∀ bs : Bytes, Delivers ⟨hd.f0, hd.f1, hd.f2, fs, r1.flat.take n⟩
              ({ req := { head := hd, body := body }, written := bs } : Exchange K) :=
            fun bs => ⟨rfl, rfl, rfl, h2, g4, g5⟩
          have one : ∀ (bs : Bytes) (e : Ending), ∃ qs rest,
              Reqs lim.maxUrl lim.maxHeaderLine lim.maxHeadersCount (decide (r.fin = .eof)) r.flat qs rest ∧
              qs.length = (([({ req := { head := hd, body := body }, written := bs } : Exchange K)], e) : List (Exchange K) × Ending).1.length ∧
              ∀ (j : Nat) (q : Req) (ex : Exchange K), qs[j]? = some q →
                (([({ req := { head := hd, body := body }, written := bs } : Exchange K)], e) : List (Exchange K) × Ending).1[j]? = some ex →
                Delivers q ex := by
            intro bs e
            refine ⟨_, _, .more _ _ _ _ _ hat (.stop _), rfl, fun j q ex hq he => ?_⟩
            cases j with
            | zero => cases hq; cases he; exact hdel bs
            | succ j => simp at hq
          simp only
          split
          · exact one _ _
          · exact one _ _
          · split
            · exact one _ _
            · split
              · exact one _ _
              · split
                · next resp3 bytes _ _ _ req2 _ _ _ _ _ _ =>
                  obtain ⟨qs, rest, e1, e2, e3⟩ := ih (i + 1) (Message.clear c _) (Message.clear c _) (Head.blank_clear _) r2
                  refine ⟨_ :: qs, rest, .more _ _ _ _ _ hat (by rw [← h3, ← g3]; exact e1), by simpa using e2, fun j q ex hq he => ?_⟩
                  cases j with
                  | zero => cases hq; cases he; exact hdel _
                  | succ j => exact e3 j q ex (by simpa using hq) (by simpa using he)
                · exact one _ _
                · exact one _ _
                · exact one _ _

/-- **C135.** Whatever the service does, whatever the bytes and their segmentation: the requests delivered are requests of the grammar that
stand one after the other from the first byte on. Each is delivered with its words, its header values, and its body (after whatever the
service left in the body of the message). -/
theorem C135_any_service {K : Type} (c : Codec K) (lim : HttpLimits) (env : Nat → Env K) (r : Reader) :
    ∃ qs rest, Reqs lim.maxUrl lim.maxHeaderLine lim.maxHeadersCount (decide (r.fin = .eof)) r.flat qs rest ∧
      qs.length = (serve c lim env r).1.length ∧
      ∀ (j : Nat) (q : Req) (ex : Exchange K), qs[j]? = some q → (serve c lim env r).1[j]? = some ex → Delivers q ex :=
  serveLoop_reqs c lim env _ 0 Message.new Message.new Head.blank_new r

theorem at_unique {maxUrl maxLine maxCount : Nat} {closed : Bool} {s rest rest' : Bytes} {q q' : Req}
    (h : q.At maxUrl maxLine maxCount closed s rest) (h' : q'.At maxUrl maxLine maxCount closed s rest') :
    q'.w0 = q.w0 ∧ q'.w1 = q.w1 ∧ q'.w2 = q.w2 ∧ (∀ k, valuesIn (collect q'.fields) k = valuesIn (collect q.fields) k) ∧
      q'.body = q.body ∧ rest' = rest := by
  obtain ⟨a, b, c, d, e⟩ := (C129_unambiguous _ _ _ _ _ _ _ _ _ _ h.1).1 _ _ _ _ _ h'.1
  have hl := Option.some.inj (announces_unique e h.2 h'.2)
  obtain ⟨x, y⟩ := List.append_inj d hl
  exact ⟨a, b, c, e, x, y⟩

theorem section_length {maxLine maxCount : Nat} {closed : Bool} {s rest : Bytes} {fs : List (Bytes × Bytes)}
    (h : Section maxLine maxCount closed s fs rest) : rest.length + 2 ≤ s.length := by
  induction h with
  | stop => simp
  | skip l x y s fs rest _ _ _ _ _ _ ih => simp only [List.length_append]; omega
  | field n v n' v' x y s fs rest _ _ _ _ _ _ _ _ _ _ ih => simp only [List.length_append]; omega

/-- **C135, no ambiguity.** Two lists of requests at the start of the same bytes agree wherever both have a request. -/
theorem C135_determined (maxUrl maxLine maxCount : Nat) (closed : Bool) (s rest rest' : Bytes) (qs qs' : List Req)
    (h : Reqs maxUrl maxLine maxCount closed s qs rest) (h' : Reqs maxUrl maxLine maxCount closed s qs' rest') (j : Nat) (q q' : Req)
    (hq : qs[j]? = some q) (hq' : qs'[j]? = some q') :
    q'.w0 = q.w0 ∧ q'.w1 = q.w1 ∧ q'.w2 = q.w2 ∧ (∀ k, valuesIn (collect q'.fields) k = valuesIn (collect q.fields) k) ∧
      q'.body = q.body := by
  induction j generalizing s qs qs' with
  | zero =>
    cases h with
    | stop => simp at hq
    | more _ s1 _ q0 qs h1 _ =>
      cases h' with
      | stop => simp at hq'
      | more _ s2 _ q0' qs' h2 _ =>
        cases hq; cases hq'
        obtain ⟨a, b, c, d, e, _⟩ := at_unique h1 h2
        exact ⟨a, b, c, d, e⟩
  | succ j ih =>
    cases h with
    | stop => simp at hq
    | more _ s1 _ q0 qs h1 h3 =>
      cases h' with
      | stop => simp at hq'
      | more _ s2 _ q0' qs' h2 h4 =>
        obtain ⟨_, _, _, _, _, e⟩ := at_unique h1 h2
        subst e
        exact ih s2 qs qs' h3 h4 (by simpa using hq) (by simpa using hq')

theorem reqs_at {maxUrl maxLine maxCount : Nat} {closed : Bool} {s rest : Bytes} {qs : List Req}
    (h : Reqs maxUrl maxLine maxCount closed s qs rest) {j : Nat} {q : Req} (hq : qs[j]? = some q) :
    ∃ s1 s2, q.At maxUrl maxLine maxCount closed s1 s2 := by
  induction h generalizing j with
  | stop => simp at hq
  | more s s' rest q0 qs h1 _ ih =>
    cases j with
    | zero => cases hq; exact ⟨_, _, h1⟩
    | succ j => exact ih (by simpa using hq)

/-- **C135, two services.** Two connections that get the same bytes, in whatever segmentation and with whatever services, compressors and
write errors: the `j`th request is the same on both, if both get that far. -/
theorem C135_same_requests {K K' : Type} (c : Codec K) (c' : Codec K') (lim : HttpLimits) (env : Nat → Env K) (env' : Nat → Env K')
    (r r' : Reader) (hr : r'.flat = r.flat) (hf : r'.fin = r.fin) (j : Nat) (ex : Exchange K) (ex' : Exchange K')
    (h : (serve c lim env r).1[j]? = some ex) (h' : (serve c' lim env' r').1[j]? = some ex') :
    ex'.req.head.f0 = ex.req.head.f0 ∧ ex'.req.head.f1 = ex.req.head.f1 ∧ ex'.req.head.f2 = ex.req.head.f2 ∧
      (∀ k, ex'.req.head.headers.getall k = ex.req.head.headers.getall k) ∧
      ∃ body, (∀ y, ex.req.body.internal = some y → body <:+ y) ∧ (∀ y, ex'.req.body.internal = some y → body <:+ y) ∧
        (getContentLength ex.req.head.headers = some body.length) := by
  obtain ⟨qs, rest, h1, h2, h3⟩ := C135_any_service c lim env r
  obtain ⟨qs', rest', h1', h2', h3'⟩ := C135_any_service c' lim env' r'
  rw [hr, hf] at h1'
  obtain ⟨q, hq⟩ : ∃ q, qs[j]? = some q := by
    have := (List.getElem?_eq_some_iff.mp h).1
    exact ⟨_, List.getElem?_eq_getElem (by omega)⟩
  obtain ⟨q', hq'⟩ : ∃ q, qs'[j]? = some q := by
    have := (List.getElem?_eq_some_iff.mp h').1
    exact ⟨_, List.getElem?_eq_getElem (by omega)⟩
  obtain ⟨a, b, c, d, e⟩ := C135_determined _ _ _ _ _ _ _ _ _ h1 h1' j q q' hq hq'
  have hd := h3 j q ex hq h
  have hd' := h3' j q' ex' hq' h'
  obtain ⟨_, _, hat⟩ := reqs_at h1 hq
  refine ⟨by rw [hd.f0, hd'.f0, a], by rw [hd.f1, hd'.f1, b], by rw [hd.f2, hd'.f2, c], fun k => by rw [hd.headers, hd'.headers, d],
    q.body, hd.body, fun y hy => e ▸ hd'.body y hy, (announces_iff hd.headers _).mp hat.2⟩

theorem serveLoop_reqs_all {K : Type} (c : Codec K) (lim : HttpLimits) (env : Nat → Env K) (hk : ∀ j, KeepsOpen c (env j)) (fuel i : Nat)
    (req resp : Message K) (hb : req.head.Blank) (hp : req.body.Plain) (hb' : resp.head.Blank) (hp' : resp.body.Plain) (r : Reader)
    (hf : r.flat.length < fuel) :
    ∃ qs rest, Reqs lim.maxUrl lim.maxHeaderLine lim.maxHeadersCount (decide (r.fin = .eof)) r.flat qs rest ∧
      qs.length = (serveLoop c lim env fuel i req resp r).1.length ∧
      ¬ ∃ q s, Req.At lim.maxUrl lim.maxHeaderLine lim.maxHeadersCount (decide (r.fin = .eof)) rest q s := by
  induction fuel generalizing i req resp r with
  | zero => omega
  | succ fuel ih =>
    simp only [serveLoop]
    cases hh : readHead lim req.head r with
    | error e =>
      refine ⟨[], r.flat, .stop _, rfl, ?_⟩
      rintro ⟨q, s, h1, _⟩
      obtain ⟨_, _, h2, _⟩ := C129_accepts lim req.head hb r _ _ _ _ _ h1
      rw [hh] at h2
      cases h2
    | ok p =>
      obtain ⟨hd, r1⟩ := p
      obtain ⟨fs, h1, h2, h3⟩ := C129_accepted lim req.head hd hb r r1 hh
      have hcons := readHead_consumes hh
      obtain ⟨x, hx⟩ := Option.isSome_iff_exists.mp hp.1
      simp only [readConstLengthBody]
      cases hc : getContentLength hd.headers with
      | none =>
        refine ⟨[], r.flat, .stop _, rfl, ?_⟩
        rintro ⟨q, s, h4, h5⟩
        obtain ⟨_, _, _, _, e⟩ := (C129_unambiguous _ _ _ _ _ _ _ _ _ _ h1).1 _ _ _ _ _ h4
        have := announces_unique e ((announces_iff h2 none).mpr hc) h5
        cases this
      | some n =>
        have ha := (announces_iff h2 (some n)).mpr hc
        have hshort : r1.flat.length < n →
            ¬ ∃ q s, Req.At lim.maxUrl lim.maxHeaderLine lim.maxHeadersCount (decide (r.fin = .eof)) r.flat q s := by
          rintro hlt ⟨q, s, h4, h5⟩
          obtain ⟨_, _, _, d, e⟩ := (C129_unambiguous _ _ _ _ _ _ _ _ _ _ h1).1 _ _ _ _ _ h4
          have := Option.some.inj (announces_unique e ha h5)
          have := congrArg List.length d
          simp only [List.length_append] at this
          omega
        rcases readConst_raw (env i).cap n req.body x r1 (env i).cap_pos hx with ⟨g1, r2, g2, g3, g4⟩ | ⟨g1, g2, g3⟩ | ⟨g1, g2, g3⟩
        · have hbody : ({ req.body with internal := some (x ++ r1.flat.take n) } : Body K).Plain := ⟨rfl, hp.2⟩
          obtain ⟨hw, hs⟩ := hk i
          obtain ⟨req2, resp2, k1, k2, k3, k4⟩ :=
            hs { head := hd, body := { req.body with internal := some (x ++ r1.flat.take n) } } resp hbody hp' hb'
          simp only [g2, k1, encodeResponse_ok c (env i).ord resp2 k4, hw]
          have hlen : (r1.flat.take n).length = n := by simp; omega
          have hat : Req.At lim.maxUrl lim.maxHeaderLine lim.maxHeadersCount (decide (r.fin = .eof)) r.flat
              ⟨hd.f0, hd.f1, hd.f2, fs, r1.flat.take n⟩ r2.flat :=
            ⟨by simpa only [g3, List.take_append_drop] using h1, by simpa only [hlen] using ha⟩
          obtain ⟨qs, rest, e1, e2, e3⟩ := ih (i + 1) (req2.clear c)
            (Message.clear c ⟨{ resp2.head with headers := resp2.head.headers.set b!"content-length" (natToBytes (resp2.body.finish c).1.size) },
              (resp2.body.finish c).1⟩) (Head.blank_clear _) (Body.plain_clear c k2) (Head.blank_clear _)
            (Body.plain_clear (b := (resp2.body.finish c).1) c (Body.plain_finish c k3 k4).usable) r2
            (by rw [g3, List.length_drop]; omega)
          rw [g4, h3] at e1 e3
          exact ⟨_ :: qs, rest, .more _ _ _ _ _ hat e1, by simpa using e2, e3⟩
        · simp only [g3]
          exact ⟨[], r.flat, .stop _, rfl, hshort g1⟩
        · simp only [g3]
          exact ⟨[], r.flat, .stop _, rfl, hshort g1⟩

theorem reqs_length_le {maxUrl maxLine maxCount : Nat} {closed : Bool} {s rest rest' : Bytes} {qs qs' : List Req}
    (h : Reqs maxUrl maxLine maxCount closed s qs rest) (hmax : ¬ ∃ q s, Req.At maxUrl maxLine maxCount closed rest q s)
    (h' : Reqs maxUrl maxLine maxCount closed s qs' rest') : qs'.length ≤ qs.length := by
  induction h generalizing qs' with
  | stop s =>
    cases h' with
    | stop => simp
    | more _ s1 _ q qs h1 _ => exact absurd ⟨_, _, h1⟩ hmax
  | more s s1 rest q qs h1 _ ih =>
    cases h' with
    | stop => simp
    | more _ s2 _ q' qs' h2 h3 =>
      obtain ⟨_, _, _, _, _, e⟩ := at_unique h1 h2
      subst e
      have := ih hmax h3
      simpa using this

/-- **C135, nothing is left out.** A service that keeps its connections open gets every request there is: no list of requests at the start
of the bytes is longer than the list delivered. -/
theorem C135_all_delivered {K : Type} (c : Codec K) (lim : HttpLimits) (env : Nat → Env K) (hk : ∀ j, KeepsOpen c (env j)) (r : Reader)
    (qs : List Req) (rest : Bytes)
    (h : Reqs lim.maxUrl lim.maxHeaderLine lim.maxHeadersCount (decide (r.fin = .eof)) r.flat qs rest) :
    qs.length ≤ (serve c lim env r).1.length ∧
      ∀ (j : Nat) (q : Req) (ex : Exchange K), qs[j]? = some q → (serve c lim env r).1[j]? = some ex →
        ex.req.head.f0 = q.w0 ∧ ex.req.head.f1 = q.w1 ∧ ex.req.head.f2 = q.w2 ∧
          (∀ k, ex.req.head.headers.getall k = valuesIn (collect q.fields) k) ∧ ∀ y, ex.req.body.internal = some y → q.body <:+ y := by
  constructor
  · obtain ⟨qs0, rest0, h1, h2, h3⟩ := serveLoop_reqs_all c lim env hk (r.flat.length + 1) 0 Message.new Message.new Head.blank_new
      Body.plain_new Head.blank_new Body.plain_new r (by omega)
    rw [serve, ← h2]
    exact reqs_length_le h1 h3 h
  · intro j q ex hq hex
    obtain ⟨qs', rest', h1, h2, h3⟩ := C135_any_service c lim env r
    obtain ⟨q', hq'⟩ : ∃ q, qs'[j]? = some q := by
      have := (List.getElem?_eq_some_iff.mp hex).1
      exact ⟨_, List.getElem?_eq_getElem (by omega)⟩
    obtain ⟨a, b, c, d, e⟩ := C135_determined _ _ _ _ _ _ _ _ _ h h1 j q q' hq hq'
    have hd := h3 j q' ex hq' hex
    exact ⟨by rw [hd.f0, a], by rw [hd.f1, b], by rw [hd.f2, c], fun k => by rw [hd.headers, d], fun y hy => e ▸ hd.body y hy⟩

/-- Non-trivial case: a service that fails after the first request and one that goes on, on two requests. -/
example : (serve noCodec sampleLimits (fun _ => { helloEnv with http := fun _ _ => .err })
      (Reader.ofBytes (encodeAll (List.replicate 2 (reqOf b!"x"))) .eof)).1.map (fun ex => ex.req.head.f1) = [sampleReq.head.w1] ∧
    (serve noCodec sampleLimits (fun _ => helloEnv)
      (Reader.ofBytes (encodeAll (List.replicate 2 (reqOf b!"x"))) .eof)).1.map (fun ex => ex.req.head.f1) = [sampleReq.head.w1, sampleReq.head.w1] := by
  decide +kernel

/-! ## C17 and C18: what does hold -/

/-- **C17**, what holds, for every service and every input: when a delivered request has Content-Length headers, the first of them is a
number below 2^64 and the body has that many bytes. The others are ignored. -/
theorem C17_first_decides_partial {K : Type} (c : Codec K) (lim : HttpLimits) (env : Nat → Env K) (r : Reader) (ex : Exchange K)
    (h : ex ∈ (serve c lim env r).1) (v : Bytes) (vs : List Bytes)
    (hv : ex.req.head.headers.getall b!"content-length" = some (v :: vs)) :
    ∃ body, Numeral v body.length ∧ body.length < 2 ^ 64 ∧ ∀ y, ex.req.body.internal = some y → body <:+ y := by
  obtain ⟨j, hj⟩ := List.getElem?_of_mem h
  obtain ⟨_, _, _, _, body, h1, _, h2⟩ := C135_same_requests c c lim env env r r rfl rfl j ex ex hj hj
  have hg : ex.req.head.headers.get b!"content-length" = some v := by simp only [MultiMap.get, hv]; rfl
  obtain ⟨a, b⟩ := ((C16_content_length _).1 v body.length hg).mp h2
  exact ⟨body, a, b, h1⟩

/-- **C18**, what holds, for every service and every input: a request is delivered with a body exactly as long as it announces (without a
Content-Length header: empty), so its length is bounded by what the client has announced and sent. -/
theorem C18_as_announced_partial {K : Type} (c : Codec K) (lim : HttpLimits) (env : Nat → Env K) (r : Reader) (ex : Exchange K)
    (h : ex ∈ (serve c lim env r).1) :
    ∃ body, (∀ y, ex.req.body.internal = some y → body <:+ y) ∧ body.length < r.flat.length ∧
      (ex.req.head.headers.getall b!"content-length" = none → body = []) ∧
      ∀ v vs, ex.req.head.headers.getall b!"content-length" = some (v :: vs) → Numeral v body.length := by
  obtain ⟨j, hj⟩ := List.getElem?_of_mem h
  obtain ⟨qs, rest, h1, h2, h3⟩ := C135_any_service c lim env r
  obtain ⟨q, hq⟩ : ∃ q, qs[j]? = some q := by
    have := (List.getElem?_eq_some_iff.mp hj).1
    exact ⟨_, List.getElem?_eq_getElem (by omega)⟩
  have hd := h3 j q ex hq hj
  have hlen : q.body.length < r.flat.length ∧ Announces q.fields (some q.body.length) := by
    clear h3 hd h2 hj
    generalize r.flat = s at h1
    induction h1 generalizing j with
    | stop => simp at hq
    | more s s1 rest q0 qs h1 _ ih =>
      have hl : (q0.body ++ s1).length < s.length := by
        have h1 := h1.1
        generalize q0.body ++ s1 = t at h1
        cases h1 with
        | mk _ _ _ a b x y s' fs rest t0 x0 t1 x1 t2 ne x2 hu hsec =>
          have := section_length hsec
          simp only [List.length_append, List.length_cons, List.length_nil]
          omega
      simp only [List.length_append] at hl
      cases j with
      | zero => cases hq; exact ⟨by omega, h1.2⟩
      | succ j =>
        obtain ⟨a, b⟩ := ih j (by simpa using hq)
        exact ⟨by omega, b⟩
  have hg := (announces_iff hd.headers _).mp hlen.2
  refine ⟨q.body, hd.body, hlen.1, fun hn => ?_, fun v vs hv => ?_⟩
  · have : ex.req.head.headers.get b!"content-length" = none := by simp only [MultiMap.get, hn]
    rw [(C16_content_length _).2 this] at hg
    exact List.eq_nil_of_length_eq_zero (Option.some.inj hg).symm
  · have h4 : ex.req.head.headers.get b!"content-length" = some v := by simp only [MultiMap.get, hv]; rfl
    exact (((C16_content_length _).1 v q.body.length h4).mp hg).1

/-- Non-trivial case of both: two Content-Length headers that differ; the first decides, and the request is delivered with a body of three bytes. -/
example : (serve noCodec sampleLimits (fun _ => helloEnv)
      (Reader.ofBytes b!"POST / HTTP/1.1\r\nContent-Length: 3\r\nContent-Length: 5\r\n\r\nabcGET" .silent)).1.map
        (fun ex => (ex.req.head.headers.getall b!"content-length", ex.req.body.internal)) =
    [(some [b!"3", b!"5"], some b!"abc")] := by decide +kernel

end Httpd
