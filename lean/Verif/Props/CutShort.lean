import Verif.Spec.CutShort
import Verif.Props.TlsReader
import Verif.Props.Run
/-! # C242: exactly which connections spin -/

namespace Httpd
open Spec

theorem hang_cut {K : Type} (c : Codec K) (lim : HttpLimits) (env : Nat → Env K) (fuel i : Nat) (req resp : Message K) (hb : req.head.Blank) (r : Reader)
    (h : (serveLoop c lim env fuel i req resp r).2 = .hang) :
    r.fin = .eof ∧ CutInBody lim.maxUrl lim.maxHeaderLine lim.maxHeadersCount r.flat (serveLoop c lim env fuel i req resp r).1.length := by
  have hend := hang_eof c lim env fuel i req resp r h
  refine ⟨hend, ?_⟩
  induction fuel generalizing i req resp r with
  | zero => simp [serveLoop] at h
  | succ fuel ih =>
    simp only [serveLoop] at h ⊢
    cases hh : readHead lim req.head r with
    | error e =>
      rw [hh] at h
      cases e <;> simp [headEnding] at h
    | ok p =>
      obtain ⟨hd, r1⟩ := p
      obtain ⟨fs, h1, h2, h3⟩ := C129_accepted lim req.head hd hb r r1 hh
      rw [hend, decide_eq_true rfl] at h1
      simp only [hh, readConstLengthBody] at h ⊢
      cases hc : getContentLength hd.headers with
      | none => simp [hc, bodyEnding] at h
      | some n =>
        have ha := (announces_iff h2 (some n)).mpr hc
        simp only [hc] at h ⊢
        cases hr : readConst Body.writeRaw (env i).cap n req.body r1 with
        | fail e =>
          rw [hr] at h
          cases e <;> simp [bodyEnding] at h
        | panic => simp [hr] at h
        | hang =>
          cases hx : req.body.internal with
          | none =>
            rw [readConst_nobuf _ _ _ _ hx] at hr
            split at hr
            · cases hr
            · split at hr <;> cases hr
          | some x =>
            rcases readConst_raw (env i).cap n req.body x r1 (env i).cap_pos hx with ⟨_, q, g2, _⟩ | ⟨_, _, g3⟩ | ⟨g1, _, _⟩
            · rw [g2] at hr; cases hr
            · rw [g3] at hr; cases hr
            · exact ⟨[], r.flat, _, _, _, fs, r1.flat, n, .stop _, rfl, h1, ha, g1⟩
        | done body r2 =>
          obtain ⟨g1, g2, g3, _, _⟩ := readConst_done (env i).cap_pos hr
          have hlen : (r1.flat.take n).length = n := by simp; omega
          have hat : Req.At lim.maxUrl lim.maxHeaderLine lim.maxHeadersCount true r.flat ⟨hd.f0, hd.f1, hd.f2, fs, r1.flat.take n⟩ r2.flat :=
            ⟨by simpa only [g2, List.take_append_drop] using h1, by simpa only [hlen] using ha⟩
          simp only [hr] at h ⊢
          split at h
          · cases h
          · cases h
          · split at h
            · cases h
            · split at h
              · rename_i st _
                cases st <;> simp [writeEnding] at h
              · split at h
                · obtain ⟨qs, rest, w0, w1, w2, fs', part, m, k1, k2, k3⟩ := ih (i + 1) _ _ (Head.blank_clear _) r2 h (by rw [g3, h3, hend])
                  simp only [List.length_cons]
                  exact ⟨_ :: qs, rest, w0, w1, w2, fs', part, m, .more _ _ _ _ _ hat k1, by simpa using k2, k3⟩
                · cases h
                · cases h
                · cases h

theorem cut_hang {K : Type} (c : Codec K) (lim : HttpLimits) (env : Nat → Env K) (hk : ∀ j, KeepsOpen c (env j)) (fuel i : Nat) (req resp : Message K)
    (hb : req.head.Blank) (hp : req.body.Plain) (hb' : resp.head.Blank) (hp' : resp.body.Plain) (r : Reader) (hf : r.flat.length < fuel) (hend : r.fin = .eof) (k : Nat)
    (h : CutInBody lim.maxUrl lim.maxHeaderLine lim.maxHeadersCount r.flat k) :
    (serveLoop c lim env fuel i req resp r).2 = .hang ∧ (serveLoop c lim env fuel i req resp r).1.length = k := by
  induction fuel generalizing i req resp r k with
  | zero => omega
  | succ fuel ih =>
    obtain ⟨qs, rest, w0, w1, w2, fs, part, n, h1, rfl, h3, h4, h5⟩ := h
    obtain ⟨x, hx⟩ := Option.isSome_iff_exists.mp hp.1
    have hcl : decide (r.fin = .eof) = true := by rw [hend]; rfl
    simp only [serveLoop]
    cases h1 with
    | stop =>
      obtain ⟨hd, r1, e1, _, _, _, e2, e3, e4⟩ := C129_accepts lim req.head hb r w0 w1 w2 part fs (by rw [hcl]; exact h3)
      have hc := (announces_iff e2 _).mp h4
      simp only [e1, readConstLengthBody, hc]
      rcases readConst_raw (env i).cap n req.body x r1 (env i).cap_pos hx with ⟨g1, _⟩ | ⟨_, g2, _⟩ | ⟨_, _, g3⟩
      · rw [e3] at g1; omega
      · rw [e4] at g2; exact absurd hend g2
      · simp [g3]
    | more _ s1 _ q qs hat hrest =>
      obtain ⟨hd, r1, e1, f0, f1, f2, e2, e3, e4⟩ := C129_accepts lim req.head hb r _ _ _ _ _ (by rw [hcl]; exact hat.1)
      have hcons := readHead_consumes e1
      have hc := (announces_iff e2 _).mp hat.2
      simp only [e1, readConstLengthBody, hc]
      rcases readConst_raw (env i).cap q.body.length req.body x r1 (env i).cap_pos hx with ⟨g1, r2, g2, g3, g4⟩ | ⟨g1, _⟩ | ⟨g1, _⟩
      · have hbody : ({ req.body with internal := some (x ++ r1.flat.take q.body.length) } : Body K).Plain := ⟨rfl, hp.2⟩
        obtain ⟨hw, hs⟩ := hk i
        obtain ⟨req2, resp2, k1, k2, k3, k4⟩ :=
          hs { head := hd, body := { req.body with internal := some (x ++ r1.flat.take q.body.length) } } resp hbody hp' hb'
        simp only [g2, k1, encodeResponse_ok c (env i).ord resp2 k4, hw]
        have hr2 : r2.flat = s1 := by rw [g3, e3]; simp
        have := ih (i + 1) (req2.clear c)
          (Message.clear c ⟨{ resp2.head with headers := resp2.head.headers.set b!"content-length" (natToBytes (resp2.body.finish c).1.size) },
            (resp2.body.finish c).1⟩) (Head.blank_clear _) (Body.plain_clear c k2) (Head.blank_clear _)
          (Body.plain_clear (b := (resp2.body.finish c).1) c (Body.plain_finish c k3 k4).usable) r2
          (by rw [g3, List.length_drop]; omega) (by rw [g4, e4, hend]) qs.length
          (by rw [hr2]; exact ⟨qs, rest, w0, w1, w2, fs, part, n, hrest, rfl, h3, h4, h5⟩)
        exact ⟨this.1, by simpa using this.2⟩
      · rw [e3] at g1; simp only [List.length_append] at g1; omega
      · rw [e3] at g1; simp only [List.length_append] at g1; omega

/-- **C242.** For every service, codec and input: a connection goes round for ever only if the client has closed it and what it sent ends inside the body of a request. The requests before that
one have been answered. -/
theorem C242_only {K : Type} (c : Codec K) (lim : HttpLimits) (env : Nat → Env K) (r : Reader) (h : (serve c lim env r).2 = .hang) :
    r.fin = .eof ∧ CutInBody lim.maxUrl lim.maxHeaderLine lim.maxHeadersCount r.flat (serve c lim env r).1.length :=
  hang_cut c lim env _ _ _ _ Head.blank_new r h

/-- **C242, exactly.** With a service that keeps its connections open, every such client brings this about. -/
theorem C242_exactly {K : Type} (c : Codec K) (lim : HttpLimits) (env : Nat → Env K) (hk : ∀ j, KeepsOpen c (env j)) (r : Reader) (k : Nat) :
    (serve c lim env r).2 = .hang ∧ (serve c lim env r).1.length = k ↔
      r.fin = .eof ∧ CutInBody lim.maxUrl lim.maxHeaderLine lim.maxHeadersCount r.flat k := by
  constructor
  · rintro ⟨h, rfl⟩
    exact C242_only c lim env r h
  · rintro ⟨h1, h2⟩
    exact cut_hang c lim env hk _ 0 Message.new Message.new Head.blank_new Body.plain_new Head.blank_new Body.plain_new r (by omega) h1 k h2

/-- **C242, over TLS.** In every execution of the runtime with clients over TLS, whatever happens to the bytes on their way: if a worker is kept by a task, this is the task of a client that itself said
goodbye inside a body, after everything it had said before had arrived. -/
theorem C242_tls {C K : Type} {workers : Nat} (x : World C K) (s : ServiceConfig) (layer : Nat → RecordLayer) (sent : Nat → List TlsRecord) (o : Nat → TlsOpener)
    (ha : ∀ i, Authentic (layer i) (sent i) (o i)) (cap : Nat) (segs : Nat → List Seg) (fin : Nat → StreamEnd) (hx : ∀ i, x.client i = tlsReader (o i) cap (segs i) (fin i))
    (n : Nat) (tr : List PoolAct) (p : Pool) (h : PoolRun workers (s.spins x true) (.start n) tr p) (t : Role × Turn) (ht : t ∈ p.tasks) (hspin : t.2 = .spinning) :
    ∃ i k, t.1 = .conn i ∧ .closeNotify ∈ sent i ∧
      CutInBody s.http.limits.maxUrl s.http.limits.maxHeaderLine s.http.limits.maxHeadersCount (spoken (sent i)) k := by
  obtain ⟨i, h1, _, h3⟩ := (pool_inv h).2 t ht hspin
  by_cases hbuf : isizeMax < s.tcp.readBuf ∨ isizeMax < s.tcp.buf
  · have h2 := h3.2
    unfold ServiceConfig.connection at h2
    rw [if_pos hbuf] at h2
    cases h2
  · obtain ⟨E, hE⟩ := connection_ending x s (by omega) ⟨i, true, !true⟩
    obtain ⟨g1, g2⟩ := hang_cut _ _ _ _ _ _ _ Head.blank_new _ (hE.symm.trans h3.2)
    simp only [hx] at g1 g2
    obtain ⟨g3, g4⟩ := (C236_beginning _ _ _ (ha i) cap (segs i) (fin i)).2 g1
    rw [g3] at g2
    exact ⟨i, _, h1, g4, g2⟩

/-- Non-trivial case: one request, then a head that announces four bytes and three of them. -/
example : CutInBody sampleLimits.maxUrl sampleLimits.maxHeaderLine sampleLimits.maxHeadersCount (sampleReq.encode ++ (sampleReq.head.encode ++ b!"bod")) 1 := by
  have h : (serve noCodec sampleLimits (fun _ => helloEnv) (Reader.ofBytes (sampleReq.encode ++ (sampleReq.head.encode ++ b!"bod")) .eof)).2 = .hang ∧
      (serve noCodec sampleLimits (fun _ => helloEnv) (Reader.ofBytes (sampleReq.encode ++ (sampleReq.head.encode ++ b!"bod")) .eof)).1.length = 1 := by decide +kernel
  have := (C242_only noCodec sampleLimits (fun _ => helloEnv) _ h.1).2
  rw [h.2] at this
  simpa [Reader.ofBytes, Reader.flat] using this

end Httpd
