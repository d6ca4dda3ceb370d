import Verif.Lemmas.TlsWriter
import Verif.Props.ClientView
/-! # C233, C234, C235: answers over TLS -/

namespace Httpd
open Spec

theorem carried_prefix {a b : List TlsRecord} (h : a <+: b) : carried a <+: carried b := by
  obtain ⟨c, rfl⟩ := h
  rw [carried_append]
  exact List.prefix_append _ _

/-- What the client can decrypt after a write: what it could before, and a part of what was written. -/
theorem opened_after {t t' : TlsSock} {a : Bytes} (h : TlsLater t t' a) (hq : t.queue = []) (hb : t.wire = sealedFrom t.layer 0 t.recs) :
    ∃ rs, Opened t.layer 0 t'.wire rs ∧ rs <+: t'.recs ∧ ∃ p, carried rs = carried t.recs ++ p ∧ p <+: a ∧ (t'.queue = [] → p = a) := by
  have hbooks := h.books (by rw [hq, List.append_nil, hb])
  obtain ⟨more, g1, g2, _⟩ := h.recs
  obtain ⟨x, hx⟩ := h.wire
  rw [h.layer, g1, sealedFrom_append, ← hx, hb, List.append_assoc, Nat.zero_add] at hbooks
  have hbooks := List.append_cancel_left hbooks
  obtain ⟨rs, k1, k2⟩ := opened_part t.layer more t.recs.length x ⟨_, hbooks⟩
  have k3 := opened_more t.layer t.recs 0 x rs (by rw [Nat.zero_add]; exact k2)
  rw [← hb, hx] at k3
  refine ⟨_, k3, ?_, carried rs, carried_append _ _, by rw [← g2]; exact carried_prefix k1, fun he => ?_⟩
  · rw [g1]; exact (List.prefix_append_right_inj _).2 k1
  · rw [he, List.append_nil] at hbooks
    have k4 := opened_more t.layer more t.recs.length [] [] (.rest _ _ fun r' h' => t.layer.nonempty _ r' (List.prefix_nil.1 h'))
    rw [List.append_nil, List.append_nil, ← hbooks] at k4
    rw [k2.unique k4, g2]

theorem serveLoopTls_refines {K : Type} (c : Codec K) (lim : HttpLimits) (env : Nat → Env K) :
    ∀ (fuel i : Nat) (req resp : Message K) (r : Reader) (w : TlsConn), w.buf = [] → w.tls.queue = [] → w.tls.wire = sealedFrom w.tls.layer 0 w.tls.recs →
    ∃ outs : Nat → WriteOutcome, (TcpTakes w.tls.plan → ∀ j, outs j = .ok) ∧ ∀ env' : Nat → Env K, (∀ j, i ≤ j → env' j = { env j with write := outs j }) →
      (serveLoopTls c lim env fuel i req resp r w).1 = (serveLoop c lim env' fuel i req resp r).1.map (·.req) ∧
      (serveLoopTls c lim env fuel i req resp r w).2.2 = (serveLoop c lim env' fuel i req resp r).2 ∧
      ∃ rs, Opened w.tls.layer 0 (serveLoopTls c lim env fuel i req resp r w).2.1.tls.wire rs ∧
        carried rs = carried w.tls.recs ++ ((serveLoop c lim env' fuel i req resp r).1.map (·.written)).flatten := by
  intro fuel
  induction fuel with
  | zero =>
    intro i req resp r w hw hq hb
    obtain ⟨rs, h1, _, p, h2, h3, _⟩ := opened_after (TlsLater.refl w.tls) hq hb
    rw [List.prefix_nil.1 h3] at h2
    exact ⟨fun _ => .ok, fun _ _ => rfl, fun env' _ => ⟨by simp [serveLoopTls, serveLoop], by simp [serveLoopTls, serveLoop], rs, h1, by simpa [serveLoop] using h2⟩⟩
  | succ fuel ih =>
    intro i req resp r w hw hq hbk
    obtain ⟨rs0, ho0, _, p0, hp0, hp1, _⟩ := opened_after (TlsLater.refl w.tls) hq hbk
    rw [List.prefix_nil.1 hp1, List.append_nil] at hp0
    have same : ∃ rs, Opened w.tls.layer 0 w.tls.wire rs ∧ carried rs = carried w.tls.recs := ⟨rs0, ho0, hp0⟩
    simp only [serveLoopTls, serveLoop]
    cases hh : readHead lim req.head r with
    | error e => exact ⟨fun _ => .ok, fun _ _ => rfl, fun env' _ => by simpa using same⟩
    | ok x =>
      obtain ⟨hd, r1⟩ := x
      simp only
      cases hb : readConstLengthBody (env i).cap hd.headers req.body r1 with
      | fail e => exact ⟨fun _ => .ok, fun _ _ => rfl, fun env' h => by simpa [h i (Nat.le_refl _), hb] using same⟩
      | panic => exact ⟨fun _ => .ok, fun _ _ => rfl, fun env' h => by simpa [h i (Nat.le_refl _), hb] using same⟩
      | hang => exact ⟨fun _ => .ok, fun _ _ => rfl, fun env' h => by simpa [h i (Nat.le_refl _), hb] using same⟩
      | done body r2 =>
        simp only
        cases hs : (env i).http ⟨hd, body⟩ resp with
        | err => exact ⟨fun _ => .ok, fun _ _ => rfl, fun env' h => by simpa [h i (Nat.le_refl _), hb, hs] using same⟩
        | panic => exact ⟨fun _ => .ok, fun _ _ => rfl, fun env' h => by simpa [h i (Nat.le_refl _), hb, hs] using same⟩
        | ok p req2 resp2 =>
          simp only
          have hm := tls_writeTo c (env i).ord resp2 w
          rcases he : encodeResponse c (env i).ord resp2 with ⟨resp3, _ | bytes⟩
          · rw [he] at hm
            rcases hwt : writeToTls c (env i).ord resp2 w with ⟨m, w1, res⟩
            rw [hwt] at hm
            obtain ⟨_, hm⟩ := hm
            cases hm
            exact ⟨fun _ => .ok, fun _ _ => rfl, fun env' h => by simpa [h i (Nat.le_refl _), hb, hs, he, writeEnding] using same⟩
          · rw [he] at hm
            rcases hwt : writeToTls c (env i).ord resp2 w with ⟨m, w1, res⟩
            rw [hwt] at hm
            obtain ⟨hm0, hm, hmb⟩ := hm
            simp only at hm0 hm hmb
            subst hm0
            obtain ⟨a, hl, ha1, ha2⟩ := hm.later
            rw [hw, List.nil_append] at ha1 ha2
            obtain ⟨rs, ho, _, q, hq1, hq2, hq3⟩ := opened_after hl hq hbk
            cases res with
            | some e =>
              have hpre : q = bytes.take q.length := List.prefix_iff_eq_take.1 (hq2.trans ha1)
              refine ⟨fun _ => .failAfter q.length e, fun hp => absurd (hm.fine hp) (by simp), fun env' h => ?_⟩
              simp only [h i (Nat.le_refl _), hb, hs, he, sent, List.map_cons, List.map_nil, List.flatten_cons, List.flatten_nil, List.append_nil]
              exact ⟨trivial, trivial, rs, ho, by rw [← hpre]; exact hq1⟩
            | none =>
              obtain ⟨hbuf, hque⟩ := hmb rfl
              have ha := ha2 rfl
              rw [hbuf, List.append_nil] at ha
              rw [hq3 hque, ha] at hq1
              have this : ∃ rs, Opened w.tls.layer 0 w1.tls.wire rs ∧ carried rs = carried w.tls.recs ++ bytes := ⟨rs, ho, hq1⟩
              cases p with
              | current ka =>
                cases ka with
                | false => exact ⟨fun _ => .ok, fun _ _ => rfl, fun env' h => by simpa [h i (Nat.le_refl _), hb, hs, he] using this⟩
                | true =>
                  have hbk1 := hl.books (by rw [hq, List.append_nil, hbk])
                  rw [hque, List.append_nil] at hbk1
                  obtain ⟨outs, hok, ho⟩ := ih (i + 1) (req2.clear c) (m.clear c) r2 w1 hbuf hque hbk1
                  refine ⟨fun j => if j = i then .ok else outs j, fun hp j => ?_, fun env' h => ?_⟩
                  · simp only [hok (by rw [hm.plan]; exact hp), ite_self]
                  have ho := ho env' (fun j hj => by rw [h j (by omega)]; simp only [if_neg (show j ≠ i by omega)])
                  obtain ⟨h1, h2, rs', h3, h4⟩ := ho
                  simp only [h i (Nat.le_refl _), hb, hs, he, if_pos, List.map_cons, List.flatten_cons]
                  refine ⟨by rw [h1], h2, rs', by rw [← hl.layer]; exact h3, ?_⟩
                  obtain ⟨more, e1, e2, _⟩ := hl.recs
                  rw [h4, e1, carried_append, e2, ha, List.append_assoc]
              | webSocket => exact ⟨fun _ => .ok, fun _ _ => rfl, fun env' h => by simpa [h i (Nat.le_refl _), hb, hs, he] using this⟩
              | http2 => exact ⟨fun _ => .ok, fun _ _ => rfl, fun env' h => by simpa [h i (Nat.le_refl _), hb, hs, he] using this⟩

/-- **C233.** Over TLS, whatever TCP does: the connection is one of Model/Serve.lean for some outcomes of the writes, and what the client can decrypt in
the end are exactly the bytes of its answers, in the order of the requests; nothing that was written without an error is left in the TLS layer. If TCP goes on taking bytes, all writes succeed. -/
theorem C233_answers {K : Type} (c : Codec K) (lim : HttpLimits) (env : Nat → Env K) (r : Reader) (cap : Nat) (layer : RecordLayer) (plan : Nat → TcpRes) :
    ∃ outs : Nat → WriteOutcome, ((∀ i, ∃ now n, plan i = .takes now n) → ∀ j, outs j = .ok) ∧
      let conn := serve c lim (fun j => { env j with write := outs j }) r
      (serveTls c lim env r cap layer plan).1 = conn.1.map (·.req) ∧ (serveTls c lim env r cap layer plan).2.2 = conn.2 ∧
      ∃ rs, Opened layer 0 (serveTls c lim env r cap layer plan).2.1.tls.wire rs ∧ carried rs = (conn.1.map (·.written)).flatten ∧
        ∀ rs', Opened layer 0 (serveTls c lim env r cap layer plan).2.1.tls.wire rs' → rs' = rs := by
  obtain ⟨outs, h1, h2⟩ := serveLoopTls_refines c lim env (r.flat.length + 1) 0 Message.new Message.new r
    { cap := cap, buf := [], tls := TlsSock.new layer plan } rfl rfl rfl
  obtain ⟨g1, g2, rs, g3, g4⟩ := h2 (fun j => { env j with write := outs j }) (fun _ _ => rfl)
  exact ⟨outs, h1, g1, g2, rs, g3, g4, fun rs' h => h.unique g3⟩

/-- **C233**, pipelined requests: if TCP goes on taking bytes, in whatever portions and after whatever waiting, the client can decrypt one complete answer to each request, in their order. -/
theorem C233_pipelined {K : Type} (c : Codec K) (lim : HttpLimits) (env : Nat → Env K) (qs : List WireReq)
    (hq : ∀ q ∈ qs, q.WF lim.maxUrl lim.maxHeaderLine lim.maxHeadersCount)
    (hk : ∀ j, j < qs.length → KeepsOpen c { env j with write := .ok }) (r : Reader) (hr : r.flat = encodeAll qs)
    (cap : Nat) (layer : RecordLayer) (plan : Nat → TcpRes) (hp : ∀ i, ∃ now n, plan i = .takes now n) :
    ∃ (exs : List (Exchange K)) (rs : List TlsRecord), exs.length = qs.length ∧ (serveTls c lim env r cap layer plan).1 = exs.map (·.req) ∧
      Opened layer 0 (serveTls c lim env r cap layer plan).2.1.tls.wire rs ∧ carried rs = (exs.map (·.written)).flatten ∧
      ∀ (j : Nat) (q : WireReq) (ex : Exchange K), qs[j]? = some q → exs[j]? = some ex →
        ex.req.head.f0 = q.head.w0 ∧ ex.req.head.f1 = q.head.w1 ∧ ex.req.head.f2 = q.head.w2 ∧
        (∀ k, ex.req.head.headers.getall k = lookupFields q.head.fields k) ∧
        Answered c { env j with write := .ok } ex (.current true) := by
  obtain ⟨outs, h1, h2, _, rs, h3, h4, _⟩ := C233_answers c lim env r cap layer plan
  have : outs = fun _ => .ok := funext (h1 hp)
  subst this
  obtain ⟨g1, _, g3⟩ := C23_pipelined c lim (fun j => { env j with write := .ok }) qs hq hk r hr
  exact ⟨_, rs, g1, h2, h3, h4, g3⟩

/-- What the connection as a whole does to the writer. -/
theorem serveLoopTls_moves {K : Type} (c : Codec K) (lim : HttpLimits) (env : Nat → Env K) :
    ∀ (fuel i : Nat) (req resp : Message K) (r : Reader) (w : TlsConn), ∃ src res, TlsMoves w (serveLoopTls c lim env fuel i req resp r w).2.1 src res := by
  intro fuel
  induction fuel with
  | zero => intro i req resp r w; exact ⟨[], none, TlsMoves.refl w⟩
  | succ fuel ih =>
    intro i req resp r w
    simp only [serveLoopTls]
    cases hh : readHead lim req.head r with
    | error e => exact ⟨[], none, TlsMoves.refl w⟩
    | ok x =>
      obtain ⟨hd, r1⟩ := x
      simp only
      cases hb : readConstLengthBody (env i).cap hd.headers req.body r1 with
      | fail e => exact ⟨[], none, TlsMoves.refl w⟩
      | panic => exact ⟨[], none, TlsMoves.refl w⟩
      | hang => exact ⟨[], none, TlsMoves.refl w⟩
      | done body r2 =>
        simp only
        cases hs : (env i).http ⟨hd, body⟩ resp with
        | err => exact ⟨[], none, TlsMoves.refl w⟩
        | panic => exact ⟨[], none, TlsMoves.refl w⟩
        | ok p req2 resp2 =>
          simp only
          have hm := tls_writeTo c (env i).ord resp2 w
          rcases he : encodeResponse c (env i).ord resp2 with ⟨resp3, _ | bytes⟩
          · rw [he] at hm
            rcases hwt : writeToTls c (env i).ord resp2 w with ⟨m, w1, res⟩
            rw [hwt] at hm
            obtain ⟨_, hm⟩ := hm
            cases hm
            exact ⟨[], none, TlsMoves.refl w⟩
          · rw [he] at hm
            rcases hwt : writeToTls c (env i).ord resp2 w with ⟨m, w1, res⟩
            rw [hwt] at hm
            obtain ⟨_, hm, _⟩ := hm
            simp only at hm
            cases res with
            | some e => exact ⟨_, _, hm⟩
            | none =>
              cases p with
              | current ka =>
                cases ka with
                | false => exact ⟨_, _, hm⟩
                | true =>
                  obtain ⟨src, res, h⟩ := ih (i + 1) (req2.clear c) (m.clear c) r2 w1
                  exact ⟨_, _, hm.trans h⟩
              | webSocket => exact ⟨_, _, hm⟩
              | http2 => exact ⟨_, _, hm⟩

/-- The records a connection makes. -/
theorem serveTls_records {K : Type} (c : Codec K) (lim : HttpLimits) (env : Nat → Env K) (r : Reader) (cap : Nat) (layer : RecordLayer) (plan : Nat → TcpRes)
    (rs : List TlsRecord) (h : Opened layer 0 (serveTls c lim env r cap layer plan).2.1.tls.wire rs) : ∀ x ∈ rs, x.Fine := by
  obtain ⟨src, res, hm⟩ := serveLoopTls_moves c lim env (r.flat.length + 1) 0 Message.new Message.new r
    { cap := cap, buf := [], tls := TlsSock.new layer plan }
  obtain ⟨a, hl, _⟩ := hm.later
  obtain ⟨rs', h1, h2, _⟩ := opened_after hl rfl rfl
  obtain ⟨more, g1, _, g3⟩ := hl.recs
  intro x hx
  rw [h.unique h1] at hx
  have := h2.subset hx
  rw [g1] at this
  exact g3 x (by simpa [TlsSock.new] using this)

/-- **C233**, every record has content, at most as much as TLS allows (RFC 8446 section 5.1). -/
theorem C233_records {K : Type} (c : Codec K) (lim : HttpLimits) (env : Nat → Env K) (r : Reader) (cap : Nat) (layer : RecordLayer) (plan : Nat → TcpRes)
    (rs : List TlsRecord) (h : Opened layer 0 (serveTls c lim env r cap layer plan).2.1.tls.wire rs) :
    ∀ x ∈ rs, ∃ b, x = .data b ∧ 1 ≤ b.length ∧ b.length ≤ 16384 := by
  intro x hx
  obtain ⟨b, h1, h2, h3⟩ := serveTls_records c lim env r cap layer plan rs h x hx
  exact ⟨b, h1, List.length_pos_iff.2 h2, h3⟩

/-- **C234**, negation for the code as written: the server never says that nothing will follow, however the connection ends. -/
theorem C234_goodbye_violated {K : Type} (c : Codec K) (lim : HttpLimits) (env : Nat → Env K) (r : Reader) (cap : Nat) (layer : RecordLayer) (plan : Nat → TcpRes)
    (rs : List TlsRecord) (h : Opened layer 0 (serveTls c lim env r cap layer plan).2.1.tls.wire rs) : ¬ SaidGoodbye rs := by
  intro hg
  obtain ⟨b, h1, _⟩ := serveTls_records c lim env r cap layer plan rs h _ (List.mem_of_getLast? hg)
  cases h1

theorem Spec.Opened.mono {layer : RecordLayer} {k : Nat} {b b' : Bytes} {rs rs' : List TlsRecord} (h : Opened layer k b rs) (h' : Opened layer k b' rs') (hb : b <+: b') :
    rs <+: rs' := by
  induction h generalizing b' rs' with
  | rest => exact List.nil_prefix
  | record k r b rs h1 ih =>
    obtain ⟨x, rfl⟩ := hb
    rw [List.append_assoc] at h'
    generalize he : layer.crypt k r ++ (b ++ x) = c at h'
    cases h' with
    | rest _ _ h => subst he; exact absurd (List.prefix_append _ _) (h r)
    | record _ r' b' rs' h2 =>
      have hr : r = r' := by
        rcases List.append_eq_append_iff.1 he with ⟨x, h1, _⟩ | ⟨x, h1, _⟩
        · exact layer.delimited k r r' ⟨x, h1.symm⟩
        · exact (layer.delimited k r' r ⟨x, h1.symm⟩).symm
      subst hr
      have := List.append_cancel_left he
      subst this
      exact List.cons_prefix_cons.2 ⟨rfl, ih h2 (List.prefix_append _ _)⟩

/-- **C234**, what holds: if the answers are whole answers, a client that gets any beginning of the bytes on the wire finds answers in them, those of the
first requests, and sees if the next one has been cut off: what is left then is a beginning of it. Only a cut between two answers looks like the end. -/
theorem C234_cut_partial {K : Type} (c : Codec K) (lim : HttpLimits) (env : Nat → Env K) (r : Reader) (cap : Nat) (layer : RecordLayer) (plan : Nat → TcpRes)
    (hw : ∀ ex ∈ (serve c lim (fun j => { env j with write := .ok }) r).1, ∃ lines body, OneAnswer ex.written lines body [])
    (b : Bytes) (hb : b <+: (serveTls c lim env r cap layer plan).2.1.tls.wire) (rs : List TlsRecord) (h : Opened layer 0 b rs) :
    ∃ outs left, Framed (carried rs) outs left ∧
      (∀ (j : Nat) (x : List Bytes × Bytes) (ex : Exchange K), outs[j]? = some x →
        (serve c lim (fun j => { env j with write := .ok }) r).1[j]? = some ex → OneAnswer ex.written x.1 x.2 []) ∧
      outs.length ≤ (serve c lim (fun j => { env j with write := .ok }) r).1.length ∧
      (left = [] ∨ ∃ ex, (serve c lim (fun j => { env j with write := .ok }) r).1[outs.length]? = some ex ∧ left <+: ex.written ∧
        left.length < ex.written.length) := by
  obtain ⟨os, _, _, _, rs1, h1, h2, _⟩ := C233_answers c lim env r cap layer plan
  have hp : carried rs <+: ((serve c lim (fun j => { env j with write := os j }) r).1.map (·.written)).flatten := by
    rw [← h2]; exact carried_prefix (h.mono h1 hb)
  obtain ⟨n, _, _, g3⟩ := serveLoop_cut c lim env os (r.flat.length + 1) 0 Message.new Message.new r
  obtain ⟨ok, k1, k2, _, k4⟩ := C112_wire c lim env r cap (fun _ => .takes 1)
  have hok : ok = fun _ => .ok := funext (k1 fun _ => ⟨0, rfl⟩)
  subst hok
  have hall : carried rs <+: (serveW c lim env r cap (fun _ => .takes 1)).2.1.sock.taken := by
    rw [k4]
    exact hp.trans (g3.trans ⟨_, by rw [← List.flatten_append, List.take_append_drop]; rfl⟩)
  obtain ⟨outs, left, f1, f2, f3, _, f5⟩ := C201_found c lim env r cap (fun _ => .takes 1) hw (carried rs) hall
  exact ⟨outs, left, f1, f3, by rw [k2, List.length_map] at f2; exact f2, f5⟩

/-- **C235.** What waits for a client that does not read is bounded, by the buffer and what the TLS layer holds back: 64 KiB and what four records are longer than their content. -/
theorem C235_bounded {K : Type} (c : Codec K) (lim : HttpLimits) (env : Nat → Env K) (r : Reader) (cap : Nat) (layer : RecordLayer) (plan : Nat → TcpRes)
    (ov : Nat) (hov : ∀ k b, b.length ≤ 16384 → (layer.crypt k (.data b)).length ≤ b.length + ov) :
    (serveTls c lim env r cap layer plan).2.1.buf.length ≤ cap ∧
    (serveTls c lim env r cap layer plan).2.1.tls.queue.length ≤ 65536 + 4 * ov := by
  obtain ⟨src, res, hm⟩ := serveLoopTls_moves c lim env (r.flat.length + 1) 0 Message.new Message.new r
    { cap := cap, buf := [], tls := TlsSock.new layer plan }
  have h1 := hm.small (Nat.zero_le _)
  rw [hm.cap] at h1
  exact ⟨h1, hm.queue ov hov (by simp [Small, TlsSock.new])⟩

/-! ## Examples -/

/-- A layer without encryption: the length in two bytes and the content; longer ones, which do not occur, differently. -/
def bareCrypt : TlsRecord → Bytes
  | .data b => if b.length ≤ 16384 then UInt8.ofNat (b.length / 256) :: UInt8.ofNat (b.length % 256) :: b else 255 :: (List.replicate b.length 1 ++ 0 :: b)
  | .closeNotify => [254]

theorem bare_delimited (r r' : TlsRecord) (h : bareCrypt r <+: bareCrypt r') : r = r' := by
  have key : ∀ (b b' : Bytes) (m n : Nat), List.replicate m (1 : Byte) ++ 0 :: b <+: List.replicate n 1 ++ 0 :: b' → m = n ∧ b <+: b' := by
    intro b b' m
    induction m with
    | zero => intro n h; cases n <;> simp_all [List.replicate_succ]
    | succ m ih =>
      intro n h
      cases n with
      | zero => simp [List.replicate_succ] at h
      | succ n =>
        simp only [List.replicate_succ, List.cons_append, List.cons_prefix_cons, true_and] at h
        obtain ⟨h1, h2⟩ := ih n h
        exact ⟨by omega, h2⟩
  have num : ∀ a b : Nat, a < 256 → b < 256 → UInt8.ofNat a = UInt8.ofNat b → a = b := by
    intro a b ha hb h
    have := congrArg UInt8.toNat h
    rwa [UInt8.toNat_ofNat', UInt8.toNat_ofNat', Nat.mod_eq_of_lt ha, Nat.mod_eq_of_lt hb] at this
  cases r with
  | closeNotify =>
    cases r' with
    | closeNotify => rfl
    | data b' =>
      simp only [bareCrypt] at h
      split at h
      · rw [List.cons_prefix_cons] at h
        have := num 254 (b'.length / 256) (by omega) (by omega) h.1
        omega
      · rw [List.cons_prefix_cons] at h
        exact absurd h.1 (by decide)
  | data b =>
    cases r' with
    | closeNotify =>
      simp only [bareCrypt] at h
      split at h
      · rw [List.cons_prefix_cons] at h
        have := h.2.length_le
        simp at this
      · rw [List.cons_prefix_cons] at h
        exact absurd h.1 (by decide)
    | data b' =>
      simp only [bareCrypt] at h
      split at h <;> split at h
      · rw [List.cons_prefix_cons, List.cons_prefix_cons] at h
        obtain ⟨h1, h2, h3⟩ := h
        have h1 := num _ _ (by omega) (by omega) h1
        have h2 := num _ _ (by omega) (by omega) h2
        rw [h3.eq_of_length (by omega)]
      · rw [List.cons_prefix_cons] at h
        have := num (b.length / 256) 255 (by omega) (by omega) h.1
        omega
      · rw [List.cons_prefix_cons] at h
        have := num 255 (b'.length / 256) (by omega) (by omega) h.1
        omega
      · rw [List.cons_prefix_cons] at h
        obtain ⟨h1, h2⟩ := key b b' _ _ h.2
        rw [h2.eq_of_length h1]

def bareLayer : RecordLayer where
  crypt _ := bareCrypt
  nonempty := by intro k r; cases r <;> simp only [bareCrypt] <;> (try split) <;> simp
  delimited _ := bare_delimited

/-- Its records are two bytes longer than their content. -/
example : ∀ k b, b.length ≤ 16384 → (bareLayer.crypt k (.data b)).length ≤ b.length + 2 := by
  intro k b h
  simp [bareLayer, bareCrypt, h]

/-- Non-trivial case for C233: TCP has no room at first, takes a few bytes and then fails; the first record is whole, the second one is not. -/
example : let w := (TlsConn.mk 4 [] (TlsSock.new bareLayer (fun i => [TcpRes.takes false 3, .takes true 3, .takes true 5].getD i .fails))).send b!"abcd" b!"efgh"
    w.2 = some .error ∧ w.1.tls.recs = [.data b!"abcd", .data b!"efgh"] ∧ w.1.tls.wire = [0, 4, 97, 98, 99, 100, 0, 4, 101, 102] ∧ w.1.tls.queue = [103, 104] := by decide +kernel

/-- The client can decrypt the first record. -/
example : Opened bareLayer 0 [0, 4, 97, 98, 99, 100, 0, 4, 101, 102] [.data b!"abcd"] :=
  .record 0 (.data b!"abcd") [0, 4, 101, 102] [] (.rest 1 _ fun r ⟨x, hx⟩ => by
    cases r with
    | closeNotify => simp [bareLayer, bareCrypt] at hx
    | data b =>
      simp only [bareLayer, bareCrypt] at hx
      split at hx
      · rename_i hl
        have h1 := (List.cons.inj hx).1
        have h2 := (List.cons.inj (List.cons.inj hx).2).1
        have h3 := congrArg List.length hx
        have e1 := congrArg UInt8.toNat h1
        have e2 := congrArg UInt8.toNat h2
        simp at e1 e2 h3
        omega
      · simp at hx)

/-- Non-trivial case for C235: nothing is taken; the flush does not return and what was written waits. -/
example : let w := (TlsConn.mk 4 [] (TlsSock.new bareLayer (fun _ => .stalls))).send b!"abcd" b!"ef"
    w.2 = some .wait ∧ w.1.tls.queue = [0, 4, 97, 98, 99, 100, 0, 2, 101, 102] := by decide +kernel

/-- Non-trivial case for C233: two pipelined requests, a buffer of 16 bytes, TCP takes 5 bytes at a time and has no room every other time. -/
example : carried (serveTls noCodec sampleLimits (fun _ => sampleEnv) (Reader.ofBytes (encodeAll [sampleReq, sampleReq]) .eof) 16 bareLayer
    (fun i => .takes (i % 2 == 0) 4)).2.1.tls.recs =
      ((serve noCodec sampleLimits (fun _ => sampleEnv) (Reader.ofBytes (encodeAll [sampleReq, sampleReq]) .eof)).1.map (·.written)).flatten := by
  decide +kernel

end Httpd
