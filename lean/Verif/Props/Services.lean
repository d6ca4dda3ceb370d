import Verif.Lemmas.Services
import Verif.Spec.Version
/-! # C30–C33, C42, C43, C78, C79: the services and the WebSocket handshake -/

namespace Httpd
open Spec MultiMap

/-! ## C33: the version of a request -/

theorem Spec.Numeral.no_dot {t : Bytes} {a : Nat} (h : Numeral t a) : 46 ∉ t := by
  obtain ⟨ds, h1, _, h3, _⟩ := h
  have : (46 : Byte) ∉ ds := fun hm => absurd (h3 _ hm) (by decide)
  rcases h1 with rfl | rfl
  · exact this
  · simp only [List.mem_cons, not_or]; exact ⟨by decide, this⟩

theorem reqVersion_major (s : Bytes) (a b : Nat) : reqVersion s = some (a, b) ↔ b = a ∧ HasMajor s a := by
  rw [reqVersion_iff]
  constructor
  · rintro ⟨h1, h2, p, t, u, h3, h4, _, h6⟩
    exact ⟨h1, p, t, u, h3, h4, h6, h2⟩
  · rintro ⟨h1, p, t, u, h3, h4, h6, h2⟩
    exact ⟨h1, h2, p, t, u, h3, h4, h6.no_dot, h6⟩

theorem hasMajor_versionText (a b : Nat) (ha : a ≤ 255) : HasMajor (versionText a b) a :=
  ⟨b!"HTTP", natToBytes a, natToBytes b, rfl, by decide, natToBytes_numeral a, ha⟩

/-- **C33**, negation for the code as written: the minor number is never looked at. Every version text `HTTP/a.b` with `a ≠ b` -
`HTTP/1.0` and `HTTP/1.2` among them - is reported as `(a, a)`. -/
theorem C33_minor_violated (a b : Nat) (ha : a ≤ 255) (hb : b ≤ 255) (hne : a ≠ b) :
    IsVersion (versionText a b) a b ∧ reqVersion (versionText a b) = some (a, a) ∧ reqVersion (versionText a b) ≠ some (a, b) := by
  have h : reqVersion (versionText a b) = some (a, a) := (reqVersion_major _ _ _).mpr ⟨rfl, hasMajor_versionText a b ha⟩
  refine ⟨⟨b!"HTTP", natToBytes a, natToBytes b, rfl, by decide, natToBytes_numeral a, natToBytes_numeral b, ha, hb⟩, h, ?_⟩
  rw [h]
  intro h'
  simp only [Option.some.injEq, Prod.mk.injEq] at h'
  exact hne h'.2

/-- **C33**, negation for the code as written: anything is accepted for the minor number. -/
theorem C33_garbage_violated (a : Nat) (ha : a ≤ 255) (u : Bytes) :
    reqVersion (b!"HTTP/" ++ natToBytes a ++ [46] ++ u) = some (a, a) :=
  (reqVersion_major _ _ _).mpr ⟨rfl, b!"HTTP", natToBytes a, u, rfl, by decide, natToBytes_numeral a, ha⟩

/-- **C33**, what holds: `version` fails exactly on texts that do not start with `http/`, a decimal number of at most 255 and a
dot; otherwise it returns that number, twice. Missing from C33: the second number. -/
theorem C33_major_partial (s : Bytes) :
    (∀ a b, reqVersion s = some (a, b) ↔ b = a ∧ HasMajor s a) ∧ (reqVersion s = none ↔ ¬ ∃ a, HasMajor s a) ∧
      (∀ a b, IsVersion s a b → reqVersion s = some (a, a)) := by
  refine ⟨reqVersion_major s, ?_, ?_⟩
  · constructor
    · rintro h ⟨a, ha⟩
      rw [(reqVersion_major s a a).mpr ⟨rfl, ha⟩] at h
      cases h
    · intro h
      cases hv : reqVersion s with
      | none => rfl
      | some p => exact absurd ⟨p.1, ((reqVersion_major s p.1 p.2).mp hv).2⟩ h
  · rintro a b ⟨p, t, u, h1, h2, h3, _, h5, _⟩
    exact (reqVersion_major _ _ _).mpr ⟨rfl, p, t, u, h1, h2, h3, h5⟩

example : reqVersion b!"HTTP/1.0" = some (1, 1) ∧ reqVersion b!"hTTp/+007.x" = some (7, 7) ∧ reqVersion b!"HTTP/256.1" = none ∧
    reqVersion b!"HTTPS/1.1" = none ∧ reqVersion b!"HTTP/2" = none := by decide +kernel

/-! ## C78: the hello-world service -/

/-- `n` greetings. -/
def greetings (n : Nat) : Bytes := (List.replicate n b!"Hello world!").flatten

theorem greetings_succ (n : Nat) : greetings (n + 1) = greetings n ++ b!"Hello world!" := by
  simp only [greetings, List.replicate_succ']
  simp

theorem greetings_length (n : Nat) : (greetings n).length = n * 12 := by
  simp [greetings]

/-- What the hello-world service writes for a request with version text `v`, as number `j` (from 0) of its connection: the status
line is `HTTP/1.1` directly followed by `HTTP/a.a` (if the version of the request has the major number `a`) and ` 200 OK`, and the
body has `j + 1` greetings. -/
def helloText (v : Bytes) (j : Nat) : Bytes :=
  (match reqVersion v with
   | some (a, _) => b!"HTTP/1.1" ++ versionText a a
   | none => b!"HTTP/1.1") ++
  b!" 200 OK\r\nserver: httpd.rs\r\ncontent-length: " ++ natToBytes ((j + 1) * 12) ++ b!"\r\n\r\n" ++ greetings (j + 1)

theorem helloText_eq (v : Bytes) (j : Nat) :
    responseBytes (helloStatus v) b!"200" b!"OK"
      [(b!"server", [b!"httpd.rs"]), (b!"content-length", [natToBytes (greetings (j + 1)).length])] (greetings (j + 1)) =
    helloText v j := by
  have h : helloStatus v = (match reqVersion v with
      | some (a, _) => b!"HTTP/1.1" ++ versionText a a
      | none => b!"HTTP/1.1") := by
    simp only [helloStatus]
    cases hv : reqVersion v with
    | none => rfl
    | some p =>
      obtain ⟨a, b⟩ := p
      obtain ⟨rfl, _⟩ := (reqVersion_major _ _ _).mp hv
      simp [versionText]
  simp only [helloText, ← h, greetings_length, responseBytes, headerLines, headerLine, List.flatMap_cons, List.flatMap_nil, crlf]
  simp [headerLine, crlf]

/-- The hello-world service closes the connection after requests whose major version is 0, and only after those. -/
def helloCloses (v : Bytes) : Prop := HasMajor v 0

theorem hello_keepAlive (v : Bytes) :
    helloKeepAlive v = true ↔ ¬ helloCloses v := by
  simp only [helloKeepAlive]
  cases hv : reqVersion v with
  | none =>
    simp only [true_iff]
    exact fun h => ((C33_major_partial v).2.1.mp hv) ⟨0, h⟩
  | some p =>
    obtain ⟨a, b⟩ := p
    obtain ⟨rfl, h⟩ := (reqVersion_major _ _ _).mp hv
    simp only [Bool.and_eq_true, decide_eq_true_eq, and_self]
    constructor
    · intro h1 h2
      have : reqVersion v = some (0, 0) := (reqVersion_major _ _ _).mpr ⟨rfl, h2⟩
      rw [hv] at this
      simp only [Option.some.injEq, Prod.mk.injEq] at this
      omega
    · intro h1
      cases b with
      | zero => exact absurd h h1
      | succ n => omega

/-- **C78.** The exact transcript of a connection to the hello-world service, for every sequence of well-formed requests: request
`j` is answered by `helloText` of its version and `j`, as long as no request has major version 0; after the first that has, the
connection is closed and the rest of the input is ignored. -/
theorem C78_hello_transcript {K : Type} (c : Codec K) (lim : HttpLimits) (env : Nat → Env K)
    (he : ∀ j, (env j).http = helloHttp ∧ (env j).write = .ok)
    (qs : List WireReq) (hq : ∀ q ∈ qs, q.WF lim.maxUrl lim.maxHeaderLine lim.maxHeadersCount)
    (hopen : ∀ q ∈ qs, ¬ helloCloses q.head.w2) (r : Reader) :
    (r.flat = encodeAll qs → ((serve c lim env r).1.map (·.written)) = qs.mapIdx (fun j q => helloText q.head.w2 j) ∧
      (serve c lim env r).2 = (if r.fin = .silent then .waiting else .headFail .connReadError)) ∧
    (∀ (q : WireReq) (s : Bytes), q.WF lim.maxUrl lim.maxHeaderLine lim.maxHeadersCount → helloCloses q.head.w2 →
      r.flat = encodeAll qs ++ q.encode ++ s →
      ((serve c lim env r).1.map (·.written)) = (qs ++ [q]).mapIdx (fun j q => helloText q.head.w2 j) ∧
      (serve c lim env r).2 = .closed) := by
  let outs : Nat → Bytes := fun j => match qs[j]? with
    | some q => helloText q.head.w2 j
    | none => []
  have houts : (List.range qs.length).map outs = qs.mapIdx (fun j q => helloText q.head.w2 j) := by
    apply List.ext_getElem?
    intro j
    simp only [List.getElem?_map, List.getElem?_mapIdx]
    by_cases hj : j < qs.length
    · rw [List.getElem?_range hj]
      simp [outs, hj]
    · have h1 : (List.range qs.length)[j]? = none := by simp; omega
      have h2 : qs[j]? = none := by simp; omega
      rw [h1, h2]; rfl
  have hstep : ∀ (j : Nat) (q : WireReq), qs[j]? = some q → (env j).write = .ok ∧
      ∀ req resp : Message K, Delivered lim q req.head → req.body.Plain → resp.head.Blank →
        resp.body = { internal := some (greetings j), cw := none } →
        ∃ req2 resp2 m', (env j).http req resp = .ok (.current true) req2 resp2 ∧ req2.body.Usable ∧
          encodeResponse c (env j).ord resp2 = (m', some (outs j)) ∧
          m'.body = { internal := some (greetings (j + 1)), cw := none } := by
    intro j q hj
    refine ⟨(he j).2, fun req resp hd hp hb hx => ?_⟩
    obtain ⟨resp2, m', h1, h2, _, h4⟩ := hello_step c (env j).ord req resp hb (greetings j) hx
    rw [← greetings_succ] at h2 h4
    rw [(hello_keepAlive req.head.f2).mpr (by rw [hd.f2]; exact hopen q (List.mem_of_getElem? hj))] at h1
    refine ⟨req, resp2, m', by rw [(he j).1, h1], hp.usable, ?_, h4⟩
    rw [h2, helloText_eq]
    simp only [outs, hj, hd.f2]
  constructor
  · intro hr
    obtain ⟨exs, rest, e, h1, h2, h3⟩ := serve_transcript c lim env greetings outs rfl qs hq hstep r [] (by simpa using hr)
    obtain ⟨rfl, rfl⟩ := h3 rfl
    refine ⟨?_, by rw [h1]⟩
    rw [h1, List.append_nil, ← houts]
    exact h2
  · intro q s hqw hcl hr
    have hlen : qs.length + 1 ≤ r.flat.length := by
      have h1 := encodeAll_length_ge (qs ++ [q])
      have h2 : r.flat = encodeAll (qs ++ [q]) ++ s := by rw [hr]; simp [encodeAll]
      rw [h2]; simp only [List.length_append, List.length_singleton] at h1 ⊢; omega
    obtain ⟨exs, req', resp', r', h1, h2, g1, g2, g3, g4, g5, g6⟩ := serveLoop_transcript c lim env greetings outs qs hq 0
      (by simpa using hstep) (r.flat.length + 1 - qs.length) Message.new Message.new Head.blank_new Body.plain_new
      Head.blank_new rfl r (q.encode ++ s) (by rw [hr]; simp)
    have e0 : r.flat.length + 1 - qs.length + qs.length = r.flat.length + 1 := by omega
    have e1 : r.flat.length + 1 - qs.length = (r.flat.length - qs.length) + 1 := by omega
    rw [e0] at h1
    obtain ⟨hd, r1, r2, x, k1, k2, k3, k4, k5, k6⟩ := read_request lim q hqw (env qs.length).cap (env qs.length).cap_pos req' g1 g2 r'
      s g5
    rw [Nat.zero_add] at h1 g4
    obtain ⟨resp2, m', j1, j2, _, _⟩ := hello_step c (env qs.length).ord
      { head := hd, body := { internal := some (x ++ q.body), cw := none } } resp' g3 (greetings qs.length) g4
    have hka : helloKeepAlive hd.f2 = false := by
      rw [k4.f2]
      cases hc : helloKeepAlive q.head.w2 with
      | false => rfl
      | true => exact absurd hcl ((hello_keepAlive _).mp hc)
    simp only [hka] at j1
    rw [← greetings_succ, helloText_eq] at j2
    have hl : serveLoop c lim env (r.flat.length + 1 - qs.length) qs.length req' resp' r' =
        ([⟨{ head := hd, body := { internal := some (x ++ q.body), cw := none } }, helloText hd.f2 qs.length⟩], .closed) := by
      rw [e1, serveLoop]
      simp only [k1, k3, (he qs.length).1, j1, j2, (he qs.length).2]
    rw [hl] at h1
    have hsv : serve c lim env r = _ := h1
    rw [hsv]
    refine ⟨?_, rfl⟩
    simp only [List.map_append, h2, List.map_cons, List.map_nil, k4.f2, List.mapIdx_append, List.mapIdx_cons, List.mapIdx_nil]
    rw [← houts, List.range_eq_range']
    simp

/-- A request with the given version text. -/
def reqOf (v : Bytes) : WireReq := { sampleReq with head := { sampleReq.head with w2 := v } }

/-- Hello-world environment of the examples. -/
def helloEnv : Env Unit := { http := helloHttp, cap := 5, cap_pos := by decide, write := .ok, ord := id }

/-- Non-trivial case of C78: three requests, the last of which closes the connection, and left-over bytes. -/
example : (serve noCodec sampleLimits (fun _ => helloEnv)
      (Reader.ofBytes (encodeAll [reqOf b!"HTTP/1.1", reqOf b!"x", reqOf b!"HTTP/0.9"] ++ b!"left-over") .eof)).1.map (·.written) =
    [b!"HTTP/1.1HTTP/1.1 200 OK\r\nserver: httpd.rs\r\ncontent-length: 12\r\n\r\nHello world!",
     b!"HTTP/1.1 200 OK\r\nserver: httpd.rs\r\ncontent-length: 24\r\n\r\nHello world!Hello world!",
     b!"HTTP/1.1HTTP/0.0 200 OK\r\nserver: httpd.rs\r\ncontent-length: 36\r\n\r\nHello world!Hello world!Hello world!"] := by
  decide +kernel

theorem reqOf_wf (v : Bytes) (h1 : v ≠ []) (h2 : ∀ b ∈ v, IsText b) (h3 : v.length ≤ 100) :
    (reqOf v).WF sampleLimits.maxUrl sampleLimits.maxHeaderLine sampleLimits.maxHeadersCount := by
  have h := sampleReq_wf
  exact ⟨⟨⟨h.head_wf.w0_vis, h.head_wf.w0_len, h.head_wf.w1_vis, h.head_wf.w1_len, h2, h1, by show v.length + 2 ≤ 128; omega⟩,
    h.head_wf.fields_wf, h.head_wf.fields_count, h.head_wf.line_room⟩, h.body_len, h.announce⟩

/-- The hypotheses of C78 are met by the requests above. -/
example : (∀ q ∈ [reqOf b!"HTTP/1.1", reqOf b!"x"], q.WF sampleLimits.maxUrl sampleLimits.maxHeaderLine sampleLimits.maxHeadersCount) ∧
    (∀ q ∈ [reqOf b!"HTTP/1.1", reqOf b!"x"], ¬ helloCloses q.head.w2) ∧ helloCloses (reqOf b!"HTTP/0.9").head.w2 := by
  refine ⟨?_, ?_, ?_⟩
  · intro q hq
    simp only [List.mem_cons, List.not_mem_nil, or_false] at hq
    rcases hq with rfl | rfl <;> exact reqOf_wf _ (by decide) (by decide) (by decide)
  · intro q hq
    simp only [List.mem_cons, List.not_mem_nil, or_false] at hq
    rcases hq with rfl | rfl <;> exact (hello_keepAlive _).mp (by decide +kernel)
  · exact hasMajor_versionText 0 9 (by decide)

/-! ## C30 -/

/-- A response that starts with the line `HTTP/x.y 200 OK` and has the body `Hello world!`. -/
def ValidHello (s : Bytes) : Prop :=
  ∃ a b lines, splitHead s = some ((versionText a b ++ b!" 200 OK") :: lines, b!"Hello world!")

theorem natToBytes_oneLine (n : Nat) : OneLine (natToBytes n) :=
  ⟨fun h => absurd (natToBytes_digits n _ h) (by decide), fun h => absurd (natToBytes_digits n _ h) (by decide)⟩

theorem versionText_oneLine (a b : Nat) : OneLine (versionText a b) :=
  (((by decide : OneLine b!"HTTP/").append (natToBytes_oneLine a)).append (by decide : OneLine [46])).append (natToBytes_oneLine b)

theorem helloStatus_oneLine (v : Bytes) : OneLine (helloStatus v) := by
  simp only [helloStatus]
  cases reqVersion v with
  | none => exact (by decide : OneLine b!"HTTP/1.1")
  | some p =>
    exact (((by decide : OneLine b!"HTTP/1.1HTTP/").append (natToBytes_oneLine _)).append (by decide : OneLine [46])).append
      (natToBytes_oneLine _)

theorem splitHead_hello (v : Bytes) (j : Nat) : splitHead (helloText v j) =
    some ([helloStatus v ++ b!" 200 OK", b!"server: httpd.rs", b!"content-length: " ++ natToBytes ((j + 1) * 12)],
      greetings (j + 1)) := by
  rw [← helloText_eq, splitHead_response _ _ _ _ _ (helloStatus_oneLine v) (by decide) (by decide), greetings_length]
  · simp [statusLine, entryLines, headerText]
  · intro p hp
    simp only [List.mem_cons, List.not_mem_nil, or_false] at hp
    rcases hp with rfl | rfl
    · decide
    · refine ⟨(by decide : OneLine b!"content-length"), fun v hv => ?_⟩
      simp only [List.mem_singleton] at hv
      rw [hv]; exact natToBytes_oneLine _

theorem count_natToBytes (n : Nat) : (natToBytes n).count 72 = 0 :=
  List.count_eq_zero.mpr (fun h => absurd (natToBytes_digits n _ h) (by decide))

theorem count_versionText (a b : Nat) : (versionText a b).count 72 = 1 := by
  simp only [versionText, List.count_append, count_natToBytes]
  decide

/-- The text for a request with a version is not valid. Its status line starts with two versions glued together. -/
theorem hello_two_versions (v : Bytes) (a : Nat) (h : HasMajor v a) (j : Nat) :
    ¬ ValidHello (helloText v j) ∧
      ∃ lines body, splitHead (helloText v j) = some ((b!"HTTP/1.1" ++ versionText a a ++ b!" 200 OK") :: lines, body) := by
  have hs : helloStatus v = b!"HTTP/1.1" ++ versionText a a := by
    simp [helloStatus, (reqVersion_major v a a).mpr ⟨rfl, h⟩, versionText]
  refine ⟨?_, _, _, by rw [splitHead_hello, hs]⟩
  rintro ⟨x, y, lines, h'⟩
  rw [splitHead_hello, hs] at h'
  simp only [Option.some.injEq, Prod.mk.injEq, List.cons.injEq] at h'
  have := congrArg (List.count 72) h'.1.1
  simp only [List.count_append, count_versionText] at this
  revert this; decide

/-- From the second request of a connection on, the body is not `Hello world!`. -/
theorem hello_body_grows (v : Bytes) (j : Nat) (hj : 1 ≤ j) :
    ¬ ValidHello (helloText v j) ∧ ∃ lines, splitHead (helloText v j) = some (lines, greetings (j + 1)) := by
  refine ⟨?_, _, splitHead_hello v j⟩
  rintro ⟨x, y, lines, h'⟩
  rw [splitHead_hello] at h'
  simp only [Option.some.injEq, Prod.mk.injEq] at h'
  have := congrArg List.length h'.2
  rw [greetings_length] at this
  simp only [List.length_cons, List.length_nil] at this
  omega

/-- **C30**, negation for the code as written: on a connection with any well-formed requests (that keep it open), no request with
a version gets a valid response, its status line starts with two versions glued together; and from the second request on no
request at all gets one, the bodies are the greetings of all the requests so far. -/
theorem C30_never_valid_violated {K : Type} (c : Codec K) (lim : HttpLimits) (env : Nat → Env K)
    (he : ∀ j, (env j).http = helloHttp ∧ (env j).write = .ok)
    (qs : List WireReq) (hq : ∀ q ∈ qs, q.WF lim.maxUrl lim.maxHeaderLine lim.maxHeadersCount)
    (hopen : ∀ q ∈ qs, ¬ helloCloses q.head.w2) (r : Reader) (hr : r.flat = encodeAll qs) (j : Nat) (q : WireReq)
    (hj : qs[j]? = some q) :
    ∃ ex, (serve c lim env r).1[j]? = some ex ∧
      (∀ a, HasMajor q.head.w2 a → ¬ ValidHello ex.written ∧
        ∃ lines body, splitHead ex.written = some ((b!"HTTP/1.1" ++ versionText a a ++ b!" 200 OK") :: lines, body)) ∧
      (1 ≤ j → ¬ ValidHello ex.written) ∧
      ∃ lines, splitHead ex.written = some (lines, (List.replicate (j + 1) b!"Hello world!").flatten) := by
  have h := ((C78_hello_transcript c lim env he qs hq hopen r).1 hr).1
  have h1 := congrArg (fun l => l[j]?) h
  simp only [List.getElem?_map, List.getElem?_mapIdx, hj, Option.map_some] at h1
  cases hex : (serve c lim env r).1[j]? with
  | none => rw [hex] at h1; cases h1
  | some ex =>
    rw [hex] at h1
    simp only [Option.map_some, Option.some.injEq] at h1
    refine ⟨ex, rfl, ?_, ?_, ?_⟩
    · intro a ha
      rw [h1]
      exact hello_two_versions _ a ha j
    · intro hj1
      rw [h1]
      exact (hello_body_grows _ j hj1).1
    · rw [h1]
      exact ⟨_, splitHead_hello _ j⟩

/-- **C30**, negation, on a connection: with one request per connection, the service answers `HTTP/1.1HTTP/1.1 200 OK` to every
well-formed HTTP/1.1 request. -/
theorem C30_on_the_wire_violated {K : Type} (c : Codec K) (lim : HttpLimits) (env : Nat → Env K)
    (he : ∀ j, (env j).http = helloHttp ∧ (env j).write = .ok) (q : WireReq)
    (hq : q.WF lim.maxUrl lim.maxHeaderLine lim.maxHeadersCount) (hv : q.head.w2 = b!"HTTP/1.1") (r : Reader) (hr : r.flat = q.encode) :
    (serve c lim env r).1.map (·.written) =
      [b!"HTTP/1.1HTTP/1.1 200 OK\r\nserver: httpd.rs\r\ncontent-length: 12\r\n\r\nHello world!"] := by
  obtain ⟨h, _⟩ := (C78_hello_transcript c lim env he [q] (by simpa using hq)
    (by
      intro q' hq'
      simp only [List.mem_singleton] at hq'
      rw [hq', hv]
      exact (hello_keepAlive _).mp (by decide +kernel)) r).1 (by simpa [encodeAll] using hr)
  rw [h]
  simp only [List.mapIdx_cons, List.mapIdx_nil, hv]
  decide +kernel

/-- **C30**, what holds: the first response of a connection is valid if the request's version has no readable major number.
Missing from C30: all other requests. -/
theorem C30_first_partial {K : Type} (c : Codec K) (lim : HttpLimits) (env : Nat → Env K)
    (he : ∀ j, (env j).http = helloHttp ∧ (env j).write = .ok) (q : WireReq)
    (hq : q.WF lim.maxUrl lim.maxHeaderLine lim.maxHeadersCount) (hv : ¬ ∃ a, HasMajor q.head.w2 a) (r : Reader)
    (hr : r.flat = q.encode) : ∃ s, (serve c lim env r).1.map (·.written) = [s] ∧ ValidHello s := by
  obtain ⟨h, _⟩ := (C78_hello_transcript c lim env he [q] (by simpa using hq)
    (by
      intro q' hq'
      simp only [List.mem_singleton] at hq'
      rw [hq']
      exact fun h => hv ⟨0, h⟩) r).1 (by simpa [encodeAll] using hr)
  refine ⟨helloText q.head.w2 0, by rw [h]; rfl, 1, 1, [b!"server: httpd.rs", b!"content-length: 12"], ?_⟩
  rw [splitHead_hello]
  have : reqVersion q.head.w2 = none := (C33_major_partial _).2.1.mpr hv
  simp only [helloStatus, this]
  rfl

example : ValidHello (helloText b!"x" 0) ∧ ¬ ValidHello (helloText b!"x" 1) :=
  ⟨⟨1, 1, _, by rw [splitHead_hello]; rfl⟩, (hello_body_grows _ 1 (by decide)).1⟩

/-! ## C31 -/

/-- **C31**, negation for the code as written: after an HTTP/1.0 request the connection is kept open - the next request on it is
answered. -/
theorem C31_http10_violated {K : Type} (c : Codec K) (lim : HttpLimits) (env : Nat → Env K)
    (he : ∀ j, (env j).http = helloHttp ∧ (env j).write = .ok) (q q' : WireReq)
    (hq : q.WF lim.maxUrl lim.maxHeaderLine lim.maxHeadersCount) (hq' : q'.WF lim.maxUrl lim.maxHeaderLine lim.maxHeadersCount)
    (hv : q.head.w2 = b!"HTTP/1.0") (hv' : q'.head.w2 = b!"HTTP/1.0") (r : Reader) (hr : r.flat = encodeAll [q, q']) :
    (serve c lim env r).1.length = 2 ∧ (serve c lim env r).2 ≠ .closed := by
  obtain ⟨h, h2⟩ := (C78_hello_transcript c lim env he [q, q'] (by simp; exact ⟨hq, hq'⟩)
    (by
      intro x hx
      simp only [List.mem_cons, List.not_mem_nil, or_false] at hx
      rcases hx with rfl | rfl
      · rw [hv]; exact (hello_keepAlive _).mp (by decide +kernel)
      · rw [hv']; exact (hello_keepAlive _).mp (by decide +kernel)) r).1 hr
  refine ⟨?_, by rw [h2]; split <;> exact fun h => Ending.noConfusion h⟩
  have := congrArg List.length h
  simpa using this

/-- **C31**, what holds, exactly: after a well-formed request the service closes the connection if and only if the request's major
version is 0. Missing from C31: closing after HTTP/1.0 and after unreadable versions. -/
theorem C31_close_exact_partial {K : Type} (c : Codec K) (lim : HttpLimits) (env : Nat → Env K)
    (he : ∀ j, (env j).http = helloHttp ∧ (env j).write = .ok) (q : WireReq)
    (hq : q.WF lim.maxUrl lim.maxHeaderLine lim.maxHeadersCount) (r : Reader) (hr : r.flat = q.encode) :
    ((serve c lim env r).2 = .closed ↔ HasMajor q.head.w2 0) ∧ (serve c lim env r).1.length = 1 := by
  by_cases hc : helloCloses q.head.w2
  · have h := (C78_hello_transcript c lim env he [] (by simp) (by simp) r).2 q [] hq hc (by simpa [encodeAll] using hr)
    refine ⟨⟨fun _ => hc, fun _ => h.2⟩, ?_⟩
    have := congrArg List.length h.1
    simpa using this
  · obtain ⟨h, h2⟩ := (C78_hello_transcript c lim env he [q] (by simpa using hq) (by simpa using hc) r).1
      (by simpa [encodeAll] using hr)
    refine ⟨⟨fun h' => by rw [h2] at h'; split at h' <;> exact Ending.noConfusion h', fun h' => absurd h' hc⟩, ?_⟩
    have := congrArg List.length h
    simpa using this

/-! ## C32, C79: the file-system service -/

/-- What the file-system service writes. -/
def fsText : Bytes := b!"  \r\ncontent-length: 0\r\n\r\n"

/-- **C79.** The exact transcript of a connection to a file-system service, for every sequence of well-formed requests: the same
25 bytes for each. -/
theorem C79_fs_transcript {K : Type} (c : Codec K) (lim : HttpLimits) (env : Nat → Env K)
    (he : ∀ j, (env j).http = fsHttp ∧ (env j).write = .ok)
    (qs : List WireReq) (hq : ∀ q ∈ qs, q.WF lim.maxUrl lim.maxHeaderLine lim.maxHeadersCount) (r : Reader)
    (hr : r.flat = encodeAll qs) :
    (serve c lim env r).1.map (·.written) = List.replicate qs.length fsText ∧
      (serve c lim env r).2 = (if r.fin = .silent then .waiting else .headFail .connReadError) := by
  obtain ⟨exs, rest, e, h1, h2, h3⟩ := serve_transcript c lim env (fun _ => []) (fun _ => fsText) rfl qs hq
    (by
      intro j q _
      refine ⟨(he j).2, fun req resp hd hp hb hx => ⟨req, resp, (encodeResponse c (env j).ord resp).1, by rw [(he j).1]; rfl,
        hp.usable, ?_⟩⟩
      obtain ⟨e0, e1, e2, ef⟩ := hb
      have hfin : resp.body.finish c = (resp.body, true) := by rw [hx]; rfl
      rw [encodeResponse_ok c _ resp (by rw [hfin]), hfin]
      have hz : natToBytes 0 = b!"0" := by decide
      have hset : resp.head.headers.set b!"content-length" b!"0" =
          { ismap := false, vec := [(b!"content-length", [b!"0"])], map := resp.head.headers.map } := by
        rw [set_vec _ ef.1, ef.2.1]
        simp [upsert, ef.1]
      simp only [hx, Body.size, List.length_nil, hz, hset, entries, e0, e1, e2, Bool.false_eq_true, if_false, Option.getD_some]
      exact ⟨rfl, trivial⟩)
    r [] (by simpa using hr)
  obtain ⟨rfl, rfl⟩ := h3 rfl
  rw [h1, List.append_nil]
  refine ⟨?_, rfl⟩
  show exs.map (·.written) = _
  rw [h2, List.map_const', List.length_range]

/-- File-system environment of the examples. -/
def fsEnv : Env Unit := { http := fsHttp, cap := 5, cap_pos := by decide, write := .ok, ord := id }

example : (serve noCodec sampleLimits (fun _ => fsEnv) (Reader.ofBytes (encodeAll [sampleReq, sampleReq]) .eof)).1.map (·.written) =
    [b!"  \r\ncontent-length: 0\r\n\r\n", b!"  \r\ncontent-length: 0\r\n\r\n"] := by
  rw [(C79_fs_transcript noCodec sampleLimits (fun _ => fsEnv) (fun _ => ⟨rfl, rfl⟩) [sampleReq, sampleReq]
    (by
      intro q hq
      simp only [List.mem_cons, List.not_mem_nil, or_false, or_self] at hq
      rw [hq]; exact sampleReq_wf) _ (by decide +kernel)).1]
  decide

/-- **C32**, negation for the code as written: no response of the file-system service, to any well-formed request, starts with a
status line with a non-empty version (nor code, nor reason). -/
theorem C32_status_line_violated {K : Type} (c : Codec K) (lim : HttpLimits) (env : Nat → Env K)
    (he : ∀ j, (env j).http = fsHttp ∧ (env j).write = .ok)
    (qs : List WireReq) (hq : ∀ q ∈ qs, q.WF lim.maxUrl lim.maxHeaderLine lim.maxHeadersCount) (r : Reader)
    (hr : r.flat = encodeAll qs) (j : Nat) (ex : Exchange K) (h : (serve c lim env r).1[j]? = some ex)
    (f0 f1 f2 rest : Bytes) (lines : List Bytes) (hs : splitHead ex.written = some (statusLine f0 f1 f2 :: lines, rest)) :
    f0 = [] ∧ f1 = [] ∧ f2 = [] := by
  have h1 := (C79_fs_transcript c lim env he qs hq r hr).1
  have h2 : ((serve c lim env r).1.map (·.written))[j]? = some ex.written := by simp [h]
  rw [h1] at h2
  have h3 : ex.written = fsText := (List.eq_of_mem_replicate (List.mem_of_getElem? h2))
  rw [h3] at hs
  have h4 : splitHead fsText = some ([b!"  ", b!"content-length: 0"], []) := by decide +kernel
  rw [h4] at hs
  simp only [Option.some.injEq, Prod.mk.injEq, List.cons.injEq] at hs
  have h5 := congrArg List.length hs.1.1
  simp only [statusLine, List.length_append, List.length_cons, List.length_nil] at h5
  refine ⟨List.eq_nil_of_length_eq_zero ?_, List.eq_nil_of_length_eq_zero ?_, List.eq_nil_of_length_eq_zero ?_⟩ <;> omega

/-! ## C42, C43: the WebSocket handshake -/

/-- The headers a successful handshake adds. -/
def wsHeaders (sha1 base64 : Bytes → Bytes) (key : Bytes) : List HeaderOp :=
  [.append b!"sec-websocket-accept" (base64 (sha1 (key ++ b!"258EAFA5-E914-47DA-95CA-C5AB0DC85B11"))),
   .append b!"sec-websocket-version" b!"13", .append b!"upgrade" b!"websocket", .append b!"connection" b!"Upgrade"]

/-- **C42.** For every request and response message: the handshake succeeds exactly when the first `Sec-WebSocket-Key` value of the
request exists and is not empty. Otherwise the response is untouched. If it succeeds, the body of the response is untouched, its
start line is extended by `HTTP/1.1`, `101` and `Switching Protocols`, and its headers are those it had before plus the accept
value, version, upgrade and connection headers. -/
theorem C42_upgrade {K : Type} (sha1 base64 : Bytes → Bytes) (req resp : Message K) :
    ((wsUpgrade sha1 base64 req resp).2 = true ↔
      ∃ key vs, key ≠ [] ∧ req.head.headers.getall b!"sec-websocket-key" = some (key :: vs)) ∧
    ((wsUpgrade sha1 base64 req resp).2 = false → (wsUpgrade sha1 base64 req resp).1 = resp) ∧
    (∀ key vs, key ≠ [] → req.head.headers.getall b!"sec-websocket-key" = some (key :: vs) →
      (wsUpgrade sha1 base64 req resp).1.head.f0 = resp.head.f0 ++ b!"HTTP/1.1" ∧
      (wsUpgrade sha1 base64 req resp).1.head.f1 = resp.head.f1 ++ b!"101" ∧
      (wsUpgrade sha1 base64 req resp).1.head.f2 = resp.head.f2 ++ b!"Switching Protocols" ∧
      (wsUpgrade sha1 base64 req resp).1.body = resp.body ∧
      ∀ ops, BuiltBy ops resp.head.headers → (∀ op ∈ ops, op.nameNonempty) → (∀ op ∈ ops, op.notDelete) →
        ∀ k, (wsUpgrade sha1 base64 req resp).1.head.headers.getall k =
          run (ops ++ wsHeaders sha1 base64 key) HeaderMap.empty k) := by
  have hget : req.head.headers.get b!"sec-websocket-key" =
      (req.head.headers.getall b!"sec-websocket-key").bind List.head? := by
    rw [MultiMap.get]; cases req.head.headers.getall b!"sec-websocket-key" <;> rfl
  cases hg : req.head.headers.getall b!"sec-websocket-key" with
  | none =>
    rw [hg] at hget
    simp [wsUpgrade, hget]
  | some l =>
    cases l with
    | nil =>
      rw [hg] at hget
      simp [wsUpgrade, hget]
    | cons key vs =>
      rw [hg] at hget
      by_cases hk : key = []
      · simp [wsUpgrade, hget, hk]
      · have hkb : key.isEmpty = false := by cases key <;> simp_all
        have hw : wsUpgrade sha1 base64 req resp =
            (((((((resp.header b!"sec-websocket-accept" (base64 (sha1 (key ++ wsMagic)))).version 1 1).code 101
              b!"Switching Protocols").header b!"sec-websocket-version" b!"13").header b!"upgrade" b!"websocket").header
              b!"connection" b!"Upgrade"), true) := by
          simp [wsUpgrade, hget, hkb]
        refine ⟨?_, ?_, ?_⟩
        · rw [hw]
          simp only [true_iff]
          exact ⟨key, vs, hk, rfl⟩
        · rw [hw]; intro h; cases h
        · intro key' vs' hk' hg'
          simp only [Option.some.injEq, List.cons.injEq] at hg'
          obtain ⟨rfl, rfl⟩ := hg'
          rw [hw]
          refine ⟨?_, ?_, rfl, rfl, ?_⟩
          · have : natToBytes 1 = b!"1" := by decide
            simp [Message.header, Message.version, Message.code, this]
          · have : natToBytes 101 = b!"101" := by decide
            simp [Message.header, Message.version, Message.code, this]
          · rintro ops ⟨hs0, hf, hs⟩ hn hd k
            have hid : IsOrder id := fun l => List.Perm.refl l
            have s4 := steps_snoc (steps_snoc (steps_snoc (steps_snoc hs id hid
              (.append b!"sec-websocket-accept" (base64 (sha1 (key ++ wsMagic))))) id hid
              (.append b!"sec-websocket-version" b!"13")) id hid (.append b!"upgrade" b!"websocket")) id hid
              (.append b!"connection" b!"Upgrade")
            have e : ops ++ [HeaderOp.append b!"sec-websocket-accept" (base64 (sha1 (key ++ wsMagic)))] ++
                [.append b!"sec-websocket-version" b!"13"] ++ [.append b!"upgrade" b!"websocket"] ++
                [.append b!"connection" b!"Upgrade"] = ops ++ wsHeaders sha1 base64 key := by
              simp [wsHeaders, wsMagic]
            rw [e] at s4
            have hn' : ∀ op ∈ ops ++ wsHeaders sha1 base64 key, op.nameNonempty := by
              intro op ho
              simp only [List.mem_append, wsHeaders, List.mem_cons, List.not_mem_nil, or_false] at ho
              rcases ho with ho | rfl | rfl | rfl | rfl
              · exact hn op ho
              all_goals simp [HeaderOp.nameNonempty]
            have hd' : ∀ op ∈ ops ++ wsHeaders sha1 base64 key, op.notDelete := by
              intro op ho
              simp only [List.mem_append, wsHeaders, List.mem_cons, List.not_mem_nil, or_false] at ho
              rcases ho with ho | rfl | rfl | rfl | rfl
              · exact hd op ho
              all_goals simp [HeaderOp.notDelete]
            exact (steps_inv s4 hn' hd' hf.inv HeaderMap.empty (fun k => hf.getall k)).2 k

/-- A request with the given header table. -/
def reqWith (hs : MultiMap) : Message Unit := { Message.new with head := { Head.new with headers := hs } }

/-- Non-trivial case of C42, with stand-ins for the two hash functions. -/
example : ((wsUpgrade (fun s => s.take 3) (fun s => s ++ [33])
      (reqWith (MultiMap.new.append b!"sec-websocket-key" b!"abcd")) Message.new).1.head.headers.getall b!"sec-websocket-accept") =
    some [b!"abc!"] ∧
    (wsUpgrade (fun s => s) (fun s => s) (reqWith (MultiMap.new.append b!"sec-websocket-key" [])) Message.new).2 = false := by
  decide +kernel

/-- **C43**, negation for the code as written: every request as sent by a client with a non-empty first `Sec-WebSocket-Key` is
upgraded, whatever its other headers, method and version - so also without `Upgrade` and `Connection`. -/
theorem C43_no_upgrade_header_violated {K : Type} (sha1 base64 : Bytes → Bytes) (lim : HttpLimits) (q : WireReq)
    (req resp : Message K) (hd : Delivered lim q req.head) (key : Bytes) (vs : List Bytes) (hk : key ≠ [])
    (hv : valuesOf q.head.fields b!"sec-websocket-key" = key :: vs)
    (_hno : valuesOf q.head.fields b!"upgrade" = [] ∧ valuesOf q.head.fields b!"connection" = []) :
    (wsUpgrade sha1 base64 req resp).2 = true := by
  refine (C42_upgrade sha1 base64 req resp).1.mpr ⟨key, vs, hk, ?_⟩
  rw [hd.headers, lookupFields, hv]

/-- The hypotheses of `C43_no_upgrade_header_violated` are met: one such request. -/
example : ∃ hs : MultiMap, hs.getall b!"upgrade" = none ∧ hs.getall b!"connection" = none ∧
    (wsUpgrade (fun s => s) (fun s => s) (reqWith hs) Message.new).2 = true :=
  ⟨MultiMap.new.append b!"sec-websocket-key" b!"k", by decide +kernel, by decide +kernel, by decide +kernel⟩

end Httpd
