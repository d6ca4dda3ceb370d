import Verif.Spec.Backlog
import Verif.Props.DeadLog
import Verif.Props.LogChain
import Verif.Props.Resources
/-!
# C178: what waits to be logged, C179: how much is logged
-/

namespace Httpd

open Spec MultiMap

/-! ## The channel -/

theorem waiting_append (q q' : List (Log.Msg Item)) : waitingRecords (q ++ q') = waitingRecords q ++ waitingRecords q' := by
  induction q with
  | nil => rfl
  | cons m q ih => cases m <;> simp [waitingRecords, ih]

theorem waiting_items (u : Nat) (items : List Item) : waitingRecords (items.map (.item u)) = items := by
  induction items with
  | nil => rfl
  | cons x xs ih => simp [waitingRecords, ih]

/-- A thread can make its log calls without anything else happening. -/
theorem sends_run (enabled : Item → Bool) (u : Nat) (items : List Item) (rest : List (Log.Call Item)) (s : Log.Sys Item)
    (hg : s.guard = .live) (hc : s.consumer ≠ .dead) (hp : s.phases u = .ready) (hprog : s.progs u = items.map .log ++ rest)
    (hen : ∀ x ∈ items, enabled x = true) :
    ∃ s', Log.Run enabled s (items.map (.send u)) s' ∧ s'.queue = s.queue ++ items.map (.item u) ∧ s'.consumer = s.consumer ∧
      s'.progs u = rest := by
  induction items generalizing s with
  | nil => exact ⟨s, .nil, by simp, rfl, by simpa using hprog⟩
  | cons x xs ih =>
    have hs := Log.Step.send (enabled := enabled) s u x (xs.map .log ++ rest) hg hp (by simpa using hprog) (hen x (by simp)) hc
    obtain ⟨s', r1, r2, r3, r4⟩ := ih { s with progs := Log.update s.progs u (xs.map .log ++ rest), queue := s.queue ++ [.item u x] }
      hg hc hp (by simp [Log.update]) (fun y hy => hen y (by simp [hy]))
    refine ⟨s', ?_, ?_, r3, r4⟩
    · have := (Log.Run.single hs).trans r1
      simpa using this
    · rw [r2]; simp

theorem sends_of_sends (u : Nat) (items : List Item) :
    Log.Spec.byThread u (Log.Spec.sends (items.map (Log.Act.send u))) = items := by
  induction items with
  | nil => rfl
  | cons x xs ih =>
    simp only [List.map_cons, Log.Spec.sends, Log.Spec.byThread] at ih ⊢
    simp [ih]

/-! ## Records and their bytes -/

theorem logBytes_append (a b : List Rec) : logBytes (a ++ b) = logBytes a + logBytes b := by simp [logBytes]

theorem logBytes_cons (a : Rec) (b : List Rec) : logBytes (a :: b) = a.msg.length + logBytes b := by simp [logBytes]

theorem logBytes_items {records : List Rec} {items : List Item}
    (h : Each2 (fun x item => ∃ time file line, item = Rec.item time file line x) records items) :
    (items.map (·.msg.length)).sum = logBytes records ∧ items.length = records.length := by
  induction h with
  | nil => exact ⟨rfl, rfl⟩
  | cons h _ ih =>
    obtain ⟨time, file, line, rfl⟩ := h
    simp only [List.map_cons, List.sum_cons, logBytes, List.length_cons] at ih ⊢
    rw [ih.1, ih.2]
    exact ⟨rfl, rfl⟩

theorem trace_all (items : List Item) : ∀ x ∈ items, passes .trace x = true := by
  intro x _
  simp only [passes]
  cases x.level <;> decide

theorem bytes_piled (a b : Nat) (xss : List (List Rec)) (off : Nat)
    (h : ∀ j x, xss[j]? = some x → a + b * (off + j + 1) ≤ logBytes x) :
    2 * (a * xss.length) + b * (xss.length * (xss.length + 1 + 2 * off)) ≤ 2 * logBytes xss.flatten := by
  induction xss generalizing off with
  | nil => simp
  | cons x xss ih =>
    have h1 := h 0 x rfl
    have h2 := ih (off + 1) (fun j y hj => by
      have := h (j + 1) y (by simpa using hj)
      rwa [show off + 1 + j + 1 = off + (j + 1) + 1 by omega])
    rw [List.flatten_cons, logBytes_append, List.length_cons]
    generalize xss.length = n at h2 ⊢
    have e1 : a * (n + 1) = a * n + a := Nat.mul_succ a n
    have e2 : (n + 1) * (n + 1 + 1 + 2 * off) = n * (n + 1 + 2 * (off + 1)) + 2 * (off + 0 + 1) := by
      rw [show n + 1 + 1 + 2 * off = n + 2 * (off + 1) by omega, show n + 1 + 2 * (off + 1) = n + 2 * (off + 1) + 1 by omega,
        Nat.mul_add n _ 1, Nat.add_mul n 1]
      omega
    rw [e1, e2, Nat.mul_add b, show b * (2 * (off + 0 + 1)) = 2 * (b * (off + 0 + 1)) by rw [Nat.mul_left_comm]]
    omega

/-- What hello-world says of a request is at least its request line and its body, if that is ASCII. -/
theorem helloLog_bytes {K : Type} (idx : Nat) (addr : Bytes) (ord : List Pair → List Pair) (req : Message K) (body : Bytes)
    (hb : req.body.internal = some body) (hascii : ∀ x ∈ body, x < 0x80) :
    req.head.f0.length + req.head.f1.length + body.length ≤ logBytes (helloLog idx addr ord req) := by
  rw [helloLog_eq idx addr ord req body hb]
  simp only [logBytes_append, logBytes_cons, bodyRecord, decodeUtf8_ascii body hascii, Option.isSome_some, if_true]
  by_cases h : body = []
  · simp only [h, if_true, List.length_append, List.length_nil]; omega
  · simp only [h, if_false, List.length_append]; omega

theorem hello_answered {K : Type} (c : Codec K) (lim : HttpLimits) (env : Nat → Env K)
    (he : ∀ j, (env j).http = helloHttp ∧ (env j).write = .ok) (q : WireReq) (hq : q.WF lim.maxUrl lim.maxHeaderLine lim.maxHeadersCount)
    (ho : ¬ helloCloses q.head.w2) (n : Nat) (r : Reader) (hr : r.flat = encodeAll (List.replicate n q)) :
    ((serve c lim env r).1.map (·.written)) = (List.replicate n q).mapIdx (fun j q => helloText q.head.w2 j) ∧
    (serve c lim env r).1.length = n := by
  have h := ((C78_hello_transcript c lim env he (List.replicate n q) (fun q' h => by rw [List.eq_of_mem_replicate h]; exact hq)
    (fun q' h => by rw [List.eq_of_mem_replicate h]; exact ho) r).1 hr).1
  refine ⟨h, ?_⟩
  have := congrArg List.length h
  simpa using this

/-- **C179**, violated: the same request `n` times. The hello-world service logs, of each, the bodies of all before it once more, so the messages
of its records are quadratic in what the client sends. -/
theorem C179_quadratic_violated {K : Type} (c : Codec K) (lim : HttpLimits) (env : Nat → Env K)
    (he : ∀ j, (env j).http = helloHttp ∧ (env j).write = .ok) (l : LogEnv K) (idx : Nat) (ord : Nat → List Pair → List Pair)
    (hl : ∀ i, l.service i = helloLog idx l.addr (ord i)) (q : WireReq)
    (hq : q.WF lim.maxUrl lim.maxHeaderLine lim.maxHeadersCount) (ho : ¬ helloCloses q.head.w2) (hascii : ∀ x ∈ q.body, x < 0x80)
    (n : Nat) (r : Reader) (hr : r.flat = encodeAll (List.replicate n q)) :
    r.flat.length = n * q.encode.length ∧
    2 * ((q.head.w0.length + q.head.w1.length) * n) + q.body.length * (n * (n + 1)) ≤ 2 * logBytes (serveLog c lim env l r) := by
  obtain ⟨_, hlen⟩ := hello_answered c lim env he q hq ho n r hr
  refine ⟨by rw [hr]; simp [encodeAll], ?_⟩
  rw [C120_story]
  unfold story
  have hall : ∀ q' ∈ List.replicate n q, q'.WF lim.maxUrl lim.maxHeaderLine lim.maxHeadersCount := by
    intro q' h; rw [List.eq_of_mem_replicate h]; exact hq
  have key := bytes_piled (q.head.w0.length + q.head.w1.length) q.body.length
    (((serve c lim env r).1.map (·.req)).mapIdx l.service) 0 (by
      intro j x hj
      rw [List.getElem?_mapIdx, List.getElem?_map] at hj
      cases hex : (serve c lim env r).1[j]? with
      | none => rw [hex] at hj; cases hj
      | some ex =>
        rw [hex] at hj
        simp only [Option.map_some, Option.some.injEq] at hj
        have hjn : j < n := by
          rw [← hlen]
          exact (List.getElem?_eq_some_iff.mp hex).1
        have hbody := serveLoop_bodies c lim env (fun j => hello_keepsReqBody _ (he j).1) (List.replicate n q) hall _ 0 Message.new Message.new r
          Head.blank_new [] Body.plain_new rfl hr j ex hex
        have hhead := (C23_prefix c lim env (List.replicate n q) hall r hr).2 j q ex (by simp [hjn]) hex
        rw [List.take_replicate, Nat.min_eq_left (by omega), List.map_replicate, List.nil_append] at hbody
        have h2 := helloLog_bytes idx l.addr (ord j) ex.req _ hbody (by
          intro x hx
          obtain ⟨b, hb1, hb2⟩ := List.mem_flatten.mp hx
          rw [List.eq_of_mem_replicate hb1] at hb2
          exact hascii x hb2)
        rw [← hj, hl]
        rw [hhead.1, hhead.2.1, List.length_flatten, List.map_replicate, List.sum_replicate_nat, Nat.mul_comm] at h2
        rw [show 0 + j + 1 = j + 1 by omega]
        exact h2)
  simp only [List.length_mapIdx, List.length_map, hlen, Nat.mul_zero, Nat.add_zero] at key
  rw [logBytes_append, logBytes_append]
  omega

/-- **C179**, violated: no factor is enough. -/
theorem C179_no_factor_violated {K : Type} (c : Codec K) (lim : HttpLimits) (env : Nat → Env K)
    (he : ∀ j, (env j).http = helloHttp ∧ (env j).write = .ok) (l : LogEnv K) (idx : Nat) (ord : Nat → List Pair → List Pair)
    (hl : ∀ i, l.service i = helloLog idx l.addr (ord i)) (q : WireReq)
    (hq : q.WF lim.maxUrl lim.maxHeaderLine lim.maxHeadersCount) (ho : ¬ helloCloses q.head.w2) (hascii : ∀ x ∈ q.body, x < 0x80)
    (hne : q.body ≠ []) (k : Nat) :
    ∃ s : Bytes, ∀ r : Reader, r.flat = s → k * s.length < logBytes (serveLog c lim env l r) := by
  refine ⟨encodeAll (List.replicate (2 * k * q.encode.length + 1) q), fun r hr => ?_⟩
  obtain ⟨h1, h2⟩ := C179_quadratic_violated c lim env he l idx ord hl q hq ho hascii _ r hr
  rw [← hr, h1]
  have hpos : 1 ≤ q.body.length := List.length_pos_iff.mpr hne
  generalize hm : 2 * k * q.encode.length = m at *
  have e1 : 2 * (k * ((m + 1) * q.encode.length)) = (m + 1) * m := by
    rw [← hm]
    simp only [Nat.mul_left_comm, Nat.mul_assoc]
  have e2 : (m + 1) * m < (m + 1) * (m + 1 + 1) := Nat.mul_lt_mul_of_pos_left (by omega) (by omega)
  have e3 : (m + 1) * (m + 1 + 1) ≤ q.body.length * ((m + 1) * (m + 1 + 1)) := Nat.le_mul_of_pos_left _ hpos
  omega

/-! ## What bounds the log -/

/-- No name of a header is longer than 256 bytes. -/
theorem readHead_names (lim : HttpLimits) (hd hd' : Head) (hb : hd.Blank) (r r' : Reader) (h : readHead lim hd r = .ok (hd', r'))
    (ord : List Pair → List Pair) (ho : IsOrder ord) : ∀ e ∈ hd'.headers.entries ord, e.1.length ≤ 256 := by
  obtain ⟨⟨p⟩, _⟩ := readHead_ok h
  have hall : hd'.headers.AllE (fun e => e.1.length ≤ 256) := by
    refine p.lines.allE (AllE_fresh hb.headers) ?_
    intro hs n v hR _ _ _ _ h256 _
    have h1 := trimSp_length_le (n.map toAsciiLower)
    rw [List.length_map] at h1
    refine AllE_append hR _ _ (by simp only; omega) (fun vs hvs => hvs) (fun vs _ => by simp only; omega)
  exact AllE_entries hall ord ho

theorem flatPairs_bytes (kv : List (Bytes × KvValue)) (L : List Pair) (h : ∀ e ∈ L, e.1.length ≤ 256) :
    logBytes ((flatPairs L).map (fun p => ⟨.trace, kv, p.1 ++ b!": " ++ p.2⟩)) ≤ 258 * fieldsHeld L := by
  induction L with
  | nil => simp [flatPairs, logBytes]
  | cons e L ih =>
    have h1 := ih (fun e he => h e (by simp [he]))
    have h2 := h e (by simp)
    have h3 : ∀ vs : List Bytes, logBytes ((vs.map (fun v => (e.1, v))).map (fun p => (⟨.trace, kv, p.1 ++ b!": " ++ p.2⟩ : Rec))) ≤
        258 * (vs.map (·.length + 1)).sum := by
      intro vs
      induction vs with
      | nil => simp [logBytes]
      | cons v vs ihv =>
        simp only [List.map_cons, logBytes_cons, List.sum_cons, List.length_append] at ihv ⊢
        have : (b!": ").length = 2 := rfl
        omega
    have h4 := h3 e.2
    simp only [flatPairs, List.flatMap_cons, List.map_append, logBytes_append, fieldsHeld_cons] at h1 h4 ⊢
    omega

theorem versionDebug_length (f2 : Bytes) : (versionDebug (reqVersion f2)).length ≤ 14 := by
  have h : ∀ a b, reqVersion f2 = some (a, b) → a ≤ 255 ∧ b ≤ 255 := by
    intro a b h
    unfold reqVersion at h
    split at h
    · cases h
    · split at h
      · cases h
      · split at h
        · cases h
        · split at h
          · cases h
          · next x hx =>
            have hx' := ((parseUInt_iff _ _ _).mp hx).2
            split at h
            · cases h
            · next y hy =>
              injection hy with hy
              injection h with h
              injection h with h1 h2
              omega
  cases hv : reqVersion f2 with
  | none => decide
  | some v =>
    obtain ⟨a, b⟩ := v
    obtain ⟨ha, hb⟩ := h a b hv
    have h1 := natToBytes_length a 3 (by omega) (by omega)
    have h2 := natToBytes_length b 3 (by omega) (by omega)
    simp only [versionDebug, List.length_append, List.length_cons, List.length_nil]
    omega

/-- What hello-world says of a request, from above. -/
theorem helloLog_bound {K : Type} (idx : Nat) (addr : Bytes) (ord : List Pair → List Pair) (req : Message K) (body : Bytes)
    (hb : req.body.internal = some body) (hn : ∀ e ∈ req.head.headers.entries ord, e.1.length ≤ 256) :
    logBytes (helloLog idx addr ord req) ≤ 258 * req.held ord + addr.length + 100 := by
  rw [helloLog_eq idx addr ord req body hb]
  have h1 := flatPairs_bytes [(b!"service", .ofNat idx)] _ hn
  have h2 := versionDebug_length req.head.f2
  have h3 : (bodyRecord idx body).msg.length ≤ body.length + 62 := by
    unfold bodyRecord
    split
    · simp only; have : (b!"EmptyBody").length = 9 := rfl; omega
    · next hne =>
      split
      · simp only [List.length_append, List.length_cons, List.length_nil]
        omega
      · simp only [List.length_append]
        have e1 : (b!"BinaryBody: ").length = 12 := rfl
        have hpos : 1 ≤ body.length := List.length_pos_iff.mpr hne
        have e2 := natToBytes_length body.length body.length hpos (Nat.lt_pow_self (by omega))
        omega
  have h4 : req.body.size = body.length := by simp [Body.size, hb]
  simp only [logBytes_append, logBytes_cons, Message.held, List.length_append, h4]
  have e1 : (b!"Request From ").length = 13 := rfl
  have e2 : (b!" ").length = 1 := rfl
  have e3 : logBytes [] = 0 := rfl
  omega

theorem helloLog_bound_any {K : Type} (idx : Nat) (addr : Bytes) (ord : List Pair → List Pair) (req : Message K)
    (hn : ∀ e ∈ req.head.headers.entries ord, e.1.length ≤ 256) :
    logBytes (helloLog idx addr ord req) ≤ 258 * req.held ord + addr.length + 100 := by
  cases hb : req.body.internal with
  | some body => exact helloLog_bound idx addr ord req body hb hn
  | none =>
    have e1 : helloLog idx addr ord req = helloLog idx addr ord { req with body := { req.body with internal := some [] } } := by
      simp [helloLog, Body.size, hb]
    have e2 : Message.held ord { req with body := { req.body with internal := some [] } } = req.held ord := by
      simp [Message.held, Body.size, hb]
    rw [e1, ← e2]
    exact helloLog_bound idx addr ord _ [] rfl hn

theorem story_bound {K : Type} (l : LogEnv K) (reqs : List (Message K)) (e : Ending) (err : Nat)
    (herr : ∀ i, (l.sendError i).length ≤ err ∧ (l.handleError i).length ≤ err) :
    logBytes (story l reqs e) ≤ logBytes (reqs.mapIdx l.service).flatten + 2 * l.addr.length + err + 100 := by
  have hab : ∀ text : Bytes, text.length = 17 →
      logBytes (if l.debug then [aboutConn l.name text l.addr] else []) ≤ l.addr.length + 17 := by
    intro text ht
    split
    · simp [logBytes, aboutConn, ht]; omega
    · simp [logBytes]
  have hmade := hab b!"connection made, " rfl
  have hlost := hab b!"connection lost, " rfl
  have hcode : ∀ code : ReadCode, (codeName code).length ≤ 20 := by intro code; cases code <;> decide
  have hend : logBytes (endRecords l reqs.length e) ≤ l.addr.length + err + 66 := by
    have e0 := herr (reqs.length - 1)
    have hr : ∀ (code : ReadCode) (text : Bytes), text.length ≤ 28 →
        logBytes (if l.debug then [⟨.trace, [], text ++ codeName code⟩] else []) ≤ 48 := by
      intro code text ht
      have := hcode code
      split
      · simp [logBytes]; omega
      · simp [logBytes]
    have h1 := fun code => hr code b!"read request header failed, " (by decide)
    have h2 := fun code => hr code b!"read request body failed, " (by decide)
    unfold endRecords
    cases e with
    | headFail code =>
      have := h1 code
      cases code <;> simp only [logBytes_append] <;> first | omega | (have : logBytes [] = 0 := rfl; omega)
    | bodyFail code =>
      have := h2 code
      cases code <;> simp only [logBytes_append] <;> first | omega | (have : logBytes [] = 0 := rfl; omega)
    | handlerErr =>
      simp only [logBytes_append, logBytes_cons, List.length_append, List.length_cons, List.length_nil]
      have : logBytes [] = 0 := rfl
      omega
    | writeFail =>
      simp only [logBytes_append, logBytes_cons, List.length_append, List.length_cons, List.length_nil]
      have : logBytes [] = 0 := rfl
      omega
    | closed =>
      simp only [logBytes_append]
      have : logBytes [] = 0 := rfl
      omega
    | _ => simp [logBytes]
  unfold story
  rw [logBytes_append, logBytes_append]
  omega

theorem bytes_flatten (xss : List (List Rec)) (b : Nat) (h : ∀ x ∈ xss, logBytes x ≤ b) : logBytes xss.flatten ≤ xss.length * b := by
  induction xss with
  | nil => simp [logBytes]
  | cons x xss ih =>
    have h1 := h x (by simp)
    have h2 := ih (fun y hy => h y (by simp [hy]))
    rw [List.flatten_cons, logBytes_append, List.length_cons, Nat.add_mul]
    omega

/-- **C179**, what holds, for every input and every behaviour of the peer: a connection whose service logs nothing about requests logs at most a
fixed number of bytes; with hello-world, what is logged is at most the number of requests times what was received, up to constants; and there
are at most a seventh as many requests as bytes received. Missing: a bound linear in what was received, which does not hold for hello-world
(`C179_quadratic_violated`). -/
theorem C179_bound_partial {K : Type} (c : Codec K) (lim : HttpLimits) (env : Nat → Env K) (l : LogEnv K) (err : Nat)
    (herr : ∀ i, (l.sendError i).length ≤ err ∧ (l.handleError i).length ≤ err) (r : Reader) :
    ((∀ i req, l.service i req = []) → logBytes (serveLog c lim env l r) ≤ 2 * l.addr.length + err + 100) ∧
    (∀ idx (ord : Nat → List Pair → List Pair), (∀ i, IsOrder (ord i)) → (∀ i, l.service i = helloLog idx l.addr (ord i)) →
      (∀ j, (env j).http = helloHttp) →
      logBytes (serveLog c lim env l r) ≤
        ((serve c lim env r).1.length + 1) * (258 * r.flat.length + 2 * l.addr.length + err + 100) ∧
      7 * (serve c lim env r).1.length ≤ r.flat.length) := by
  have hst := story_bound l ((serve c lim env r).1.map (·.req)) (serve c lim env r).2 err herr
  rw [C120_story]
  refine ⟨fun hs => ?_, fun idx ord hord hl he => ⟨?_, (C77_finitely_many c lim env r).1⟩⟩
  · have h0 := bytes_flatten (((serve c lim env r).1.map (·.req)).mapIdx l.service) 0 (by
      intro x hx
      obtain ⟨j, hj, rfl⟩ := List.mem_mapIdx.mp hx
      rw [hs]
      simp [logBytes])
    omega
  · have h0 := bytes_flatten (((serve c lim env r).1.map (·.req)).mapIdx l.service) (258 * r.flat.length + l.addr.length + 100) (by
      intro x hx
      obtain ⟨j, hj, rfl⟩ := List.mem_mapIdx.mp hx
      rw [hl]
      have hex : (serve c lim env r).1[j]'(by simpa using hj) ∈ (serve c lim env r).1 := List.getElem_mem _
      rw [List.getElem_map]
      generalize (serve c lim env r).1[j]'(by simpa using hj) = ex at hex
      have hk : ∀ j, KeepsReqBody (env j) := fun j => hello_keepsReqBody _ (he j)
      have h1 := (C166_received_partial c lim env r ex hex (ord j) (hord j)).1 hk
      obtain ⟨hd0, r0, r1, h0, h2⟩ := serveLoop_heads c lim env _ 0 Message.new Message.new Head.blank_new r ex hex
      have hn := readHead_names lim hd0 _ h0 r0 r1 h2 (ord j) (hord j)
      have h3 := helloLog_bound_any idx l.addr (ord j) ex.req hn
      omega)
    simp only [List.length_mapIdx, List.length_map] at h0
    generalize (serve c lim env r).1.length = n at h0 ⊢
    have h5 : n * (258 * r.flat.length + l.addr.length + 100) ≤ n * (258 * r.flat.length + 2 * l.addr.length + err + 100) :=
      Nat.mul_le_mul_left n (by omega)
    rw [Nat.add_mul]
    omega

/-! ## What waits -/

/-- **C178**, violated: the same request `n` times, to the hello-world service. Whatever the state of the log - not crashed, the guard alive - the
task of the connection can go through all its requests while the consumer does nothing: the client has all its answers, and all records wait,
at least two for each request. Their bytes grow without bound with `n`. -/
theorem C178_backlog_violated {K : Type} (c : Codec K) (lim : HttpLimits) (env : Nat → Env K)
    (he : ∀ j, (env j).http = helloHttp ∧ (env j).write = .ok) (l : LogEnv K) (idx : Nat) (ord : Nat → List Pair → List Pair)
    (hl : ∀ i, l.service i = helloLog idx l.addr (ord i)) (q : WireReq)
    (hq : q.WF lim.maxUrl lim.maxHeaderLine lim.maxHeadersCount) (ho : ¬ helloCloses q.head.w2) (hascii : ∀ x ∈ q.body, x < 0x80)
    (n : Nat) (r : Reader) (hr : r.flat = encodeAll (List.replicate n q))
    (s : Log.Sys Item) (u : Nat) (hg : s.guard = .live) (hc : s.consumer ≠ .dead) (hp : s.phases u = .ready)
    (hu : CallsOf (serveLog c lim env l r) (s.progs u)) :
    ∃ (tr : List (Log.Act Item)) (s' : Log.Sys Item), Log.Run (passes .trace) s tr s' ∧ (∀ a ∈ tr, ∃ x, a = .send u x) ∧
      s'.consumer = s.consumer ∧
      GotTo .trace (serveActs c lim env l r) (serveActs c lim env l r) (Log.Spec.byThread u (Log.Spec.sends tr)).length ∧
      answered (serveActs c lim env l r) = ((List.replicate n q).mapIdx (fun j q => helloText q.head.w2 j)).flatten ∧
      (waitingRecords s.queue).length + 2 * n ≤ (waitingRecords s'.queue).length ∧
      2 * backlogBytes s.queue + 2 * ((q.head.w0.length + q.head.w1.length) * n) + q.body.length * (n * (n + 1)) ≤
        2 * backlogBytes s'.queue := by
  obtain ⟨items, hi, hprog⟩ := hu
  obtain ⟨hans, hlen⟩ := hello_answered c lim env he q hq ho n r hr
  obtain ⟨s', r1, r2, r3, _⟩ := sends_run (passes .trace) u items [] s hg hc hp (by simpa using hprog) (trace_all items)
  obtain ⟨b1, b2⟩ := logBytes_items hi
  obtain ⟨_, hb⟩ := C179_quadratic_violated c lim env he l idx ord hl q hq ho hascii n r hr
  obtain ⟨a1, a2⟩ := serveActs_spec c lim env l r
  have hrecs : 2 * n ≤ (serveLog c lim env l r).length := by
    have h2 := flatten_two ((((serve c lim env r).1.map (·.req)).mapIdx l.service)) (by
      intro xs hx
      obtain ⟨j, hj, rfl⟩ := List.mem_mapIdx.mp hx
      rw [hl]
      exact helloLog_two _ _ _ _)
    rw [C120_story]
    simp only [List.length_mapIdx, List.length_map, hlen] at h2
    simp only [story, List.length_append]
    omega
  refine ⟨items.map (.send u), s', r1, ?_, r3, ⟨List.prefix_rfl, ?_⟩, ?_, ?_, ?_⟩
  · intro a ha
    obtain ⟨x, _, rfl⟩ := List.mem_map.mp ha
    exact ⟨x, rfl⟩
  · rw [sends_of_sends, a1, b2]
    congr 1
    apply List.filter_eq_self.mpr
    intro x _
    cases x.level <;> decide
  · rw [a2, hans]
  · rw [r2, waiting_append, waiting_items, List.length_append]
    omega
  · unfold backlogBytes
    rw [r2, waiting_append, waiting_items, List.map_append, List.sum_append, b1]
    omega

/-- **C178**, violated: no bound on what waits, neither by a number of records nor of bytes, whatever the limits. -/
theorem C178_no_bound_violated {K : Type} (c : Codec K) (lim : HttpLimits) (env : Nat → Env K)
    (he : ∀ j, (env j).http = helloHttp ∧ (env j).write = .ok) (l : LogEnv K) (idx : Nat) (ord : Nat → List Pair → List Pair)
    (hl : ∀ i, l.service i = helloLog idx l.addr (ord i)) (q : WireReq)
    (hq : q.WF lim.maxUrl lim.maxHeaderLine lim.maxHeadersCount) (ho : ¬ helloCloses q.head.w2) (hascii : ∀ x ∈ q.body, x < 0x80)
    (hne : q.body ≠ []) (bound : Nat) :
    ∃ n, ∀ (r : Reader), r.flat = encodeAll (List.replicate n q) → ∀ (progs : Nat → List (Log.Call Item)) (u : Nat),
      CallsOf (serveLog c lim env l r) (progs u) →
      ∃ (tr : List (Log.Act Item)) (s : Log.Sys Item), Log.Run (passes .trace) (Log.start progs) tr s ∧ .crash ∉ tr ∧
        bound < (waitingRecords s.queue).length ∧ bound < backlogBytes s.queue := by
  refine ⟨bound + 1, fun r hr progs u hu => ?_⟩
  obtain ⟨tr, s', h1, h2, _, _, _, h3, h4⟩ := C178_backlog_violated c lim env he l idx ord hl q hq ho hascii (bound + 1) r hr (Log.start progs) u
    rfl (by simp [Log.start]) rfl hu
  refine ⟨tr, s', h1, ?_, by omega, ?_⟩
  · intro h
    obtain ⟨x, hx⟩ := h2 _ h
    cases hx
  · have hpos : 1 ≤ q.body.length := List.length_pos_iff.mpr hne
    have e1 : (bound + 1) * (bound + 1 + 1) ≤ q.body.length * ((bound + 1) * (bound + 1 + 1)) := Nat.le_mul_of_pos_left _ hpos
    have e2 : (bound + 1) * 2 ≤ (bound + 1) * (bound + 1 + 1) := Nat.mul_le_mul_left _ (by omega)
    omega

theorem waiting_eq (q : List (Log.Msg Item)) : waitingRecords q = (Log.items q).map (·.2) := by
  induction q with
  | nil => rfl
  | cons m q ih => cases m <;> simp [waitingRecords, Log.items, ih]

theorem inWork_eq (k : Log.Consuming Item) : inWork k = (Log.inHand k).map (·.2) := by cases k <;> rfl

/-- **C178**, what holds, in every run in which the consumer has not panicked: what was sent is what was written, then what the consumer has in hand,
then what waits, in order - nothing is dropped however long the channel gets; a log call is made in one step, whatever the consumer does, as long as
the guard lives; and the consumer alone can go on until nothing waits. Missing: a bound on what waits (`C178_backlog_violated`). -/
theorem C178_conserved_partial (enabled : Item → Bool) (progs : Nat → List (Log.Call Item)) (tr : List (Log.Act Item)) (s : Log.Sys Item)
    (h : Log.Run enabled (Log.start progs) tr s) (hcrash : .crash ∉ tr) :
    (Log.Spec.sends tr).map (·.2) = (Log.Spec.writes tr).map (·.2) ++ inWork s.consumer ++ waitingRecords s.queue ∧
    (∀ t x rest, s.guard = .live → s.phases t = .ready → s.progs t = .log x :: rest →
      ∃ s', Log.Step enabled s (if enabled x then .send t x else .skip t x) s' ∧ s'.progs t = rest ∧ s'.phases t = .ready ∧
        s'.consumer = s.consumer) ∧
    (∃ tr' s', Log.Run enabled s tr' s' ∧ (∀ a ∈ tr', a.ofConsumer = true) ∧ waitingRecords s'.queue = []) := by
  have hd : s.consumer ≠ .dead := fun h0 => hcrash ((Log.dead_iff enabled progs h).mp h0)
  have hflow := (Log.inv_run enabled progs h).flow hd
  refine ⟨?_, ?_, ?_⟩
  · rw [hflow, waiting_eq, inWork_eq, List.map_append, List.map_append]
  · intro t x rest hg hp hprog
    by_cases hx : enabled x = true
    · rw [if_pos hx]
      exact ⟨_, .send s t x rest hg hp hprog hx hd, by simp [Log.update], hp, rfl⟩
    · rw [if_neg hx]
      exact ⟨_, .skip s t x rest hg hp hprog (by simpa using hx), by simp [Log.update], hp, rfl⟩
  · obtain ⟨tr', s', h1, h2, h3⟩ := (Log.C66_order enabled progs tr s h).2.2 hcrash
    refine ⟨tr', s', h1, h2, ?_⟩
    have hrun := h.trans h1
    have hc' : Log.Act.crash ∉ tr ++ tr' := by
      intro hm
      rcases List.mem_append.mp hm with hm | hm
      · exact hcrash hm
      · have := h2 _ hm; cases this
    have hd' : s'.consumer ≠ .dead := fun h0 => hc' ((Log.dead_iff enabled progs hrun).mp h0)
    have hflow' := (Log.inv_run enabled progs hrun).flow hd'
    have hs' : Log.Spec.sends tr' = [] := by
      clear hflow' hd' hc' hrun h3 h1
      induction tr' with
      | nil => rfl
      | cons a as ih =>
        have ha := h2 a (by simp)
        have := ih (fun b hb => h2 b (by simp [hb]))
        cases a <;> simp_all [Log.Spec.sends, Log.Act.ofConsumer]
    rw [Log.sends_append, hs', List.append_nil, h3] at hflow'
    have hnil := congrArg List.length hflow'
    simp only [List.length_append] at hnil
    rw [waiting_eq]
    have : Log.items s'.queue = [] := List.length_eq_zero_iff.mp (by omega)
    rw [this]; rfl

/-! ## Cases meeting the hypotheses -/

/-- The request of the examples is ASCII, has a body and keeps the connection open. -/
example : (∀ x ∈ sampleReq.body, x < 0x80) ∧ sampleReq.body ≠ [] ∧ ¬ helloCloses sampleReq.head.w2 := by
  refine ⟨by decide +kernel, by decide +kernel, ?_⟩
  exact (hello_keepAlive _).mp (by decide +kernel)

/-- Sent once, twice and three times: the bytes logged grow faster than the bytes sent (`body` is logged once, three times, six times). -/
example : [1, 2, 3].map (fun n => ((encodeAll (List.replicate n sampleReq)).length,
    logBytes (serveLog noCodec sampleLimits (fun _ => { sampleEnv with http := helloHttp }) { sampleLog with debug := false }
      (Reader.ofBytes (encodeAll (List.replicate n sampleReq)) .silent)))) = [(51, 135), (102, 274), (153, 417)] := by
  decide +kernel

/-- Three records wait while the consumer has one in hand: the client has gone on. -/
example (x : Item) (hx : passes .trace x = true) : ∃ s,
    Log.Run (passes .trace) (Log.start (fun t => if t = 1 then [.log x, .log x, .log x, .log x] else [])) [.send 1 x, .recv, .send 1 x, .send 1 x, .send 1 x] s ∧
    waitingRecords s.queue = [x, x, x] ∧ inWork s.consumer = [x] := by
  refine ⟨_, .snoc (.snoc (.snoc (.snoc (.snoc .nil (.send _ 1 x [.log x, .log x, .log x] rfl rfl rfl hx (by simp [Log.start])))
    (.recvItem _ 1 x [] rfl rfl)) (.send _ 1 x [.log x, .log x] rfl rfl rfl hx (by simp)))
    (.send _ 1 x [.log x] rfl rfl rfl hx (by simp))) (.send _ 1 x [] rfl rfl rfl hx (by simp)), rfl, rfl⟩

/-- A service that logs nothing: 31 bytes for the connection made, 31 for the connection lost, whatever was sent. -/
example : logBytes (serveLog noCodec sampleLimits (fun _ => { sampleEnv with http := fsHttp }) { sampleLog with service := fun _ _ => [] }
    (Reader.ofBytes (encodeAll (List.replicate 3 sampleReq)) .eof)) = 62 := by decide +kernel

end Httpd
