import Verif.Props.Serve
import Verif.Lemmas.Response
import Verif.Model.Services
/-! # Facts about the services -/

namespace Httpd
open Spec MultiMap

theorem splitFirst_iff (d : Byte) (s p t : Bytes) : splitFirst d s = some (p, t) ↔ s = p ++ d :: t ∧ d ∉ p := by
  induction s generalizing p with
  | nil => simp [splitFirst]
  | cons b s ih =>
    simp only [splitFirst]
    by_cases hb : b = d
    · rw [if_pos hb]
      constructor
      · intro h
        simp only [Option.some.injEq, Prod.mk.injEq] at h
        obtain ⟨rfl, rfl⟩ := h
        simp [hb]
      · rintro ⟨h1, h2⟩
        cases p with
        | nil => simp only [List.nil_append, List.cons.injEq] at h1; rw [h1.2]
        | cons x p =>
          simp only [List.cons_append, List.cons.injEq] at h1
          exact absurd (by simp [← h1.1, hb]) h2
    · rw [if_neg hb]
      simp only [Option.map_eq_some_iff, Prod.mk.injEq]
      constructor
      · rintro ⟨⟨p', t'⟩, h1, rfl, rfl⟩
        obtain ⟨h2, h3⟩ := (ih p').mp h1
        exact ⟨by simp [h2], by simp [h3]; exact fun h => hb h.symm⟩
      · rintro ⟨h1, h2⟩
        cases p with
        | nil => simp only [List.nil_append, List.cons.injEq] at h1; exact absurd h1.1 hb
        | cons x p =>
          simp only [List.cons_append, List.cons.injEq] at h1
          refine ⟨(p, t), (ih p).mpr ⟨h1.2, fun h => h2 (by simp [h])⟩, by rw [h1.1], rfl⟩

/-- What `version` accepts and returns. -/
theorem reqVersion_iff (s : Bytes) (a b : Nat) :
    reqVersion s = some (a, b) ↔
      b = a ∧ a ≤ 255 ∧ ∃ p t u, s = p ++ [47] ++ t ++ [46] ++ u ∧ lower p = b!"http" ∧ 46 ∉ t ∧ Numeral t a := by
  have hslash : ∀ p : Bytes, lower p = b!"http" → 47 ∉ p := by
    intro p hp hm
    have : lowerByte 47 ∈ lower p := List.mem_map.mpr ⟨47, hm, rfl⟩
    rw [hp] at this
    revert this; decide
  have heq : ∀ p : Bytes, eqIgnoreAsciiCase p b!"http" = true ↔ lower p = b!"http" := by
    intro p
    simp only [eqIgnoreAsciiCase, map_toAsciiLower, beq_iff_eq]
    have : lower b!"http" = b!"http" := by decide
    rw [this]
  constructor
  · intro h
    simp only [reqVersion] at h
    split at h
    · cases h
    · next p v h1 =>
      split at h
      · cases h
      · next h2 =>
        split at h
        · cases h
        · next t u h3 =>
          cases hp : parseUInt 255 t with
          | none => rw [hp] at h; cases h
          | some n =>
            rw [hp] at h
            simp only [Option.some.injEq, Prod.mk.injEq] at h
            obtain ⟨rfl, rfl⟩ := h
            obtain ⟨g1, g2⟩ := (parseUInt_iff _ _ _).mp hp
            refine ⟨rfl, g2, p, t, u, ?_, (heq p).mp (by simpa using h2), ((splitFirst_iff _ _ _ _).mp h3).2, g1⟩
            rw [((splitFirst_iff _ _ _ _).mp h1).1, ((splitFirst_iff _ _ _ _).mp h3).1]
            simp
  · rintro ⟨rfl, ha, p, t, u, rfl, hp, ht, hn⟩
    have h1 : splitFirst 47 (p ++ [47] ++ t ++ [46] ++ u) = some (p, t ++ [46] ++ u) :=
      (splitFirst_iff _ _ _ _).mpr ⟨by simp, hslash p hp⟩
    have h3 : splitFirst 46 (t ++ [46] ++ u) = some (t, u) := (splitFirst_iff _ _ _ _).mpr ⟨by simp, ht⟩
    have h4 : parseUInt 255 t = some b := (parseUInt_iff _ _ _).mpr ⟨hn, ha⟩
    have h5 := (heq p).mpr hp
    simp only [reqVersion, h1, h3, h4, h5]
    rfl

/-- The transcript of a connection whose service answers request after request, keeping the connection open. `bodies j` is what
the body of the response message holds before request `j`, `outs j` what is written for it. -/
theorem serveLoop_transcript {K : Type} (c : Codec K) (lim : HttpLimits) (env : Nat → Env K) (bodies outs : Nat → Bytes)
    (qs : List WireReq) (hq : ∀ q ∈ qs, q.WF lim.maxUrl lim.maxHeaderLine lim.maxHeadersCount) (i : Nat)
    (hstep : ∀ (j : Nat) (q : WireReq), qs[j]? = some q → (env (i + j)).write = .ok ∧
      ∀ req resp : Message K, Delivered lim q req.head → req.body.Plain → resp.head.Blank →
        resp.body = { internal := some (bodies (i + j)), cw := none } →
        ∃ req2 resp2 m', (env (i + j)).http req resp = .ok (.current true) req2 resp2 ∧ req2.body.Usable ∧
          encodeResponse c (env (i + j)).ord resp2 = (m', some (outs (i + j))) ∧
          m'.body = { internal := some (bodies (i + j + 1)), cw := none })
    (fuel : Nat) (req resp : Message K) (hb : req.head.Blank) (hp : req.body.Plain) (hb' : resp.head.Blank)
    (hp' : resp.body = { internal := some (bodies i), cw := none }) (r : Reader) (s : Bytes)
    (hr : r.flat = encodeAll qs ++ s) :
    ∃ exs req' resp' r', serveLoop c lim env (fuel + qs.length) i req resp r =
        (exs ++ (serveLoop c lim env fuel (i + qs.length) req' resp' r').1,
         (serveLoop c lim env fuel (i + qs.length) req' resp' r').2) ∧
      exs.map (·.written) = (List.range' i qs.length).map outs ∧
      (req'.head.Blank ∧ req'.body.Plain ∧ resp'.head.Blank ∧
        resp'.body = { internal := some (bodies (i + qs.length)), cw := none } ∧ r'.flat = s ∧ r'.fin = r.fin) := by
  induction qs generalizing i req resp r with
  | nil =>
    refine ⟨[], req, resp, r, by simp, rfl, hb, hp, hb', hp', ?_, rfl⟩
    simpa [encodeAll] using hr
  | cons q qs ih =>
    obtain ⟨hd, r1, r2, x, h1, h2, h3, h4, h5, h6⟩ := read_request lim q (hq q (by simp)) (env i).cap (env i).cap_pos req hb hp r
      (encodeAll qs ++ s) (by rw [hr]; simp [encodeAll])
    obtain ⟨hw, hs⟩ := hstep 0 q rfl
    rw [Nat.add_zero] at hw hs
    obtain ⟨req2, resp2, m', k1, k2, k3, k4⟩ := hs { head := hd, body := { internal := some (x ++ q.body), cw := none } } resp h4
      ⟨rfl, rfl⟩ hb' hp'
    obtain ⟨exs, req', resp', r', g1, g2, g3⟩ := ih (fun q hq' => hq q (by simp [hq'])) (i + 1)
      (fun j q hj => by
        have := hstep (j + 1) q (by simpa using hj)
        have e : i + (j + 1) = i + 1 + j := by omega
        rwa [e] at this)
      (req2.clear c) (m'.clear c) (Head.blank_clear _) (Body.plain_clear c k2) (Head.blank_clear _)
      (by
        show m'.body.clear c = _
        rw [Body.clear_plain c (by rw [k4]; exact ⟨rfl, rfl⟩), k4]) r2 h5
    have e : i + (q :: qs).length = i + 1 + qs.length := by simp; omega
    refine ⟨⟨{ head := hd, body := { internal := some (x ++ q.body), cw := none } }, outs i⟩ :: exs, req', resp', r', ?_, ?_, ?_⟩
    · rw [e, List.length_cons, ← Nat.add_assoc, serveLoop]
      simp only [h1, h3, k1, k3, hw, g1, List.cons_append]
    · simp only [List.map_cons, g2, List.length_cons, List.range'_succ]
    · rw [e]
      exact ⟨g3.1, g3.2.1, g3.2.2.1, g3.2.2.2.1, g3.2.2.2.2.1, by rw [g3.2.2.2.2.2, h6]⟩

/-- The same for a whole connection. -/
theorem serve_transcript {K : Type} (c : Codec K) (lim : HttpLimits) (env : Nat → Env K) (bodies outs : Nat → Bytes)
    (h0 : bodies 0 = []) (qs : List WireReq) (hq : ∀ q ∈ qs, q.WF lim.maxUrl lim.maxHeaderLine lim.maxHeadersCount)
    (hstep : ∀ (j : Nat) (q : WireReq), qs[j]? = some q → (env j).write = .ok ∧
      ∀ req resp : Message K, Delivered lim q req.head → req.body.Plain → resp.head.Blank →
        resp.body = { internal := some (bodies j), cw := none } →
        ∃ req2 resp2 m', (env j).http req resp = .ok (.current true) req2 resp2 ∧ req2.body.Usable ∧
          encodeResponse c (env j).ord resp2 = (m', some (outs j)) ∧
          m'.body = { internal := some (bodies (j + 1)), cw := none })
    (r : Reader) (s : Bytes) (hr : r.flat = encodeAll qs ++ s) :
    ∃ exs rest e, serve c lim env r = (exs ++ rest, e) ∧ exs.map (·.written) = (List.range qs.length).map outs ∧
      (s = [] → rest = [] ∧ e = if r.fin = .silent then .waiting else .headFail .connReadError) := by
  have hlen : qs.length ≤ r.flat.length := by
    have := encodeAll_length_ge qs
    rw [hr]; simp; omega
  obtain ⟨exs, req', resp', r', h1, h2, h3⟩ := serveLoop_transcript c lim env bodies outs qs hq 0
    (by simpa using hstep) (r.flat.length + 1 - qs.length) Message.new Message.new Head.blank_new Body.plain_new
    Head.blank_new (by rw [h0]; rfl) r s hr
  refine ⟨exs, (serveLoop c lim env (r.flat.length + 1 - qs.length) (0 + qs.length) req' resp' r').1,
    (serveLoop c lim env (r.flat.length + 1 - qs.length) (0 + qs.length) req' resp' r').2, ?_, by rw [h2, List.range_eq_range'], ?_⟩
  · rw [serve, ← h1]
    congr 1
    omega
  · intro hs
    have e : r.flat.length + 1 - qs.length = (r.flat.length - qs.length) + 1 := by omega
    have hc := readHead_empty lim req'.head r' (by rw [h3.2.2.2.2.1, hs])
    simp only [e, serveLoop, hc, h3.2.2.2.2.2]
    exact ⟨trivial, by split <;> rfl⟩

/-- The text of the hello-world response for a request whose version text is `v`, with `n` copies of the greeting. -/
def helloStatus (v : Bytes) : Bytes :=
  match reqVersion v with
  | some (a, b) => b!"HTTP/1.1HTTP/" ++ natToBytes a ++ [46] ++ natToBytes b
  | none => b!"HTTP/1.1"

/-- Whether the hello-world service keeps the connection open after a request with version text `v`. -/
def helloKeepAlive (v : Bytes) : Bool :=
  match reqVersion v with
  | some (a, b) => decide (1 ≤ a) && decide (1 ≤ b)
  | none => true

/-- What the hello-world service does with messages in their initial state. -/
theorem hello_step {K : Type} (c : Codec K) (ord : List Pair → List Pair) (req resp : Message K) (hb : resp.head.Blank) (x : Bytes)
    (hx : resp.body = { internal := some x, cw := none }) :
    ∃ resp2 m', helloHttp req resp =
        .ok (.current (helloKeepAlive req.head.f2)) req resp2 ∧
      encodeResponse c ord resp2 = (m', some (responseBytes (helloStatus req.head.f2) b!"200" b!"OK"
        [(b!"server", [b!"httpd.rs"]), (b!"content-length", [natToBytes (x ++ b!"Hello world!").length])] (x ++ b!"Hello world!"))) ∧
      resp2.body = { internal := some (x ++ b!"Hello world!"), cw := none } ∧
      m'.body = { internal := some (x ++ b!"Hello world!"), cw := none } := by
  obtain ⟨e0, e1, e2, ef⟩ := hb
  have a1 : resp.head.headers.append b!"server" b!"httpd.rs" =
      { ismap := false, vec := [(b!"server", [b!"httpd.rs"])], map := resp.head.headers.map } := by
    rw [append_vec _ ef.1 (by rw [ef.2.1]; decide), ef.2.1]
    simp [upsert, ef.1]
  have a2 : ∀ n, (resp.head.headers.append b!"server" b!"httpd.rs").set b!"content-length" n =
      { ismap := false, vec := [(b!"server", [b!"httpd.rs"]), (b!"content-length", [n])], map := resp.head.headers.map } := by
    intro n
    rw [a1, set_vec _ rfl]
    have h1 : (b!"server" == b!"content-length") = false := by decide
    simp only [upsert, h1, List.isEmpty_cons, Bool.or_false, Bool.false_eq_true, if_false]
  have key : ∀ f0, ∃ m' : Message K, encodeResponse c ord
      { head := { f0 := f0, f1 := b!"200", f2 := b!"OK", headers := resp.head.headers.append b!"server" b!"httpd.rs" },
        body := { internal := some (x ++ b!"Hello world!"), cw := none } } =
      (m', some (responseBytes f0 b!"200" b!"OK"
        [(b!"server", [b!"httpd.rs"]), (b!"content-length", [natToBytes (x ++ b!"Hello world!").length])] (x ++ b!"Hello world!"))) ∧
      m'.body = { internal := some (x ++ b!"Hello world!"), cw := none } := by
    intro f0
    rw [encodeResponse_ok c ord _ rfl]
    simp only [Body.finish, Body.size, a2, entries, Option.getD_some, Bool.false_eq_true, if_false]
    exact ⟨_, rfl, rfl⟩
  have n200 : natToBytes 200 = b!"200" := by decide
  have n1 : natToBytes 1 = b!"1" := by decide
  simp only [helloHttp, helloStatus, helloKeepAlive, Message.version, Message.code, Message.header, e0, e1, e2, hx, Body.writeRaw, n200, n1,
    List.nil_append]
  cases hv : reqVersion req.head.f2 with
  | none =>
    obtain ⟨m', k1, k2⟩ := key b!"HTTP/1.1"
    exact ⟨_, m', rfl, k1, rfl, k2⟩
  | some p =>
    obtain ⟨a, b⟩ := p
    obtain ⟨m', k1, k2⟩ := key (b!"HTTP/1.1" ++ (b!"HTTP/" ++ natToBytes a ++ [46] ++ natToBytes b))
    refine ⟨_, m', rfl, ?_, rfl, k2⟩
    simp only [List.append_assoc, List.cons_append, List.nil_append] at k1 ⊢
    exact k1

end Httpd
