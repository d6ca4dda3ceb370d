import Verif.Props.Writer
/-! # C114 at every moment of a connection -/

namespace Httpd

open Spec MultiMap

variable {K : Type}

/-- What a stream does that is never ready again from its call number `k` on. -/
def stalledFrom (k : Nat) (plan : Nat → SockRes) : Nat → SockRes := fun n => if n < k then plan n else .stalls

/-- The same stream, but it stalls. -/
def Sock.cut (k : Nat) (s : Sock) : Sock := { s with plan := stalledFrom k s.plan }

/-- The same writer over that stream. -/
def ConnW.cut (k : Nat) (w : ConnW) : ConnW := { w with sock := w.sock.cut k }

/-- An operation does the same on both streams if it is over before call number `k`; otherwise it has stalled there, where the other one goes on. -/
def Halted {ρ : Type} (k : Nat) (stall : ρ) (x x' : ConnW × ρ) : Prop :=
  x.1.sock.calls ≤ k ∧ x' = (x.1.cut k, x.2) ∨
  k < x.1.sock.calls ∧ x'.2 = stall ∧ x'.1.sock.calls = k + 1 ∧ x'.1.sock.offered <+: x.1.sock.offered ∧ x'.1.sock.taken <+: x.1.sock.taken

theorem sock_write (s : Sock) (src : Bytes) : (s.write src).1.calls = s.calls + 1 ∧ (s.write src).1.offered = s.offered ++ [src] ∧ s.taken <+: (s.write src).1.taken ∧
    (∀ n, (s.write src).2 = .ok n → n ≤ src.length) := by
  unfold Sock.write
  cases s.plan s.calls with
  | takes n =>
    refine ⟨rfl, rfl, by simp, fun m h => ?_⟩
    injection h with h; omega
  | fails => simp
  | stalls => simp

theorem sock_write_before {k : Nat} {s : Sock} (h : s.calls < k) (src : Bytes) : (s.cut k).write src = ((s.write src).1.cut k, (s.write src).2) := by
  simp only [Sock.write, Sock.cut, stalledFrom, if_pos h]
  cases s.plan s.calls <;> rfl

theorem sock_write_at {k : Nat} {s : Sock} (h : s.calls = k) (src : Bytes) :
    (s.cut k).write src = ({ s.cut k with calls := k + 1, offered := s.offered ++ [src] }, .error .wait) := by
  simp [Sock.write, Sock.cut, stalledFrom, h]

theorem sock_flush_before {k : Nat} {s : Sock} (h : s.calls < k) : (s.cut k).flush = (s.flush.1.cut k, s.flush.2) := by
  simp only [Sock.flush, Sock.cut, stalledFrom, if_pos h]
  cases s.plan s.calls <;> rfl

theorem sock_flush_at {k : Nat} {s : Sock} (h : s.calls = k) : (s.cut k).flush = ({ s.cut k with calls := k + 1 }, some .wait) := by
  simp [Sock.flush, Sock.cut, stalledFrom, h]

theorem sock_flush (s : Sock) : s.flush.1.calls = s.calls + 1 ∧ s.flush.1.offered = s.offered ∧ s.flush.1.taken = s.taken := by
  unfold Sock.flush
  cases s.plan s.calls <;> simp

theorem flushBuf_halted (k : Nat) : ∀ (fuel : Nat) (w : ConnW), w.buf.length ≤ fuel → w.sock.calls ≤ k →
    Halted k (some .wait) (ConnW.flushBuf fuel w) (ConnW.flushBuf fuel (w.cut k)) := by
  intro fuel
  induction fuel with
  | zero => exact fun w _ hk => .inl ⟨hk, rfl⟩
  | succ fuel ih =>
    intro w hw hk
    have hc : (w.cut k).buf = w.buf := rfl
    simp only [ConnW.flushBuf, hc]
    by_cases hb : w.buf = []
    · simp only [if_pos hb]
      exact .inl ⟨hk, rfl⟩
    · simp only [if_neg hb]
      have hpos := List.length_pos_iff.mpr hb
      obtain ⟨a1, a2, a3, a4⟩ := sock_write w.sock w.buf
      have hsock : (w.cut k).sock = w.sock.cut k := rfl
      rw [hsock]
      by_cases hlt : w.sock.calls < k
      · rw [sock_write_before hlt]
        generalize w.sock.write w.buf = x at *
        obtain ⟨s, res⟩ := x
        cases res with
        | error e => exact .inl ⟨by simp only at a1 ⊢; omega, rfl⟩
        | ok n =>
          cases n with
          | zero => exact .inl ⟨by simp only at a1 ⊢; omega, rfl⟩
          | succ j => exact ih ⟨w.cap, w.buf.drop (j + 1), s⟩ (by simp; omega) (by simp only at a1 ⊢; omega)
      · have hk' : w.sock.calls = k := by omega
        rw [sock_write_at hk']
        generalize w.sock.write w.buf = x at *
        obtain ⟨s, res⟩ := x
        simp only at a1 a2 a3 a4
        cases res with
        | error e => exact .inr ⟨by simp only; omega, rfl, rfl, by rw [a2]; exact List.prefix_rfl, a3⟩
        | ok n =>
          cases n with
          | zero => exact .inr ⟨by simp only; omega, rfl, rfl, by rw [a2]; exact List.prefix_rfl, a3⟩
          | succ j =>
            have hm := (flushBuf_moves fuel ⟨w.cap, w.buf.drop (j + 1), s⟩ (by simp; omega)).1
            refine .inr ⟨?_, rfl, rfl, ?_, a3.trans hm.pre⟩
            · have := hm.calls; simp only at this ⊢; omega
            · rw [← a2]; exact hm.offers

theorem write_halted (k : Nat) (w : ConnW) (src : Bytes) (hk : w.sock.calls ≤ k) : Halted k (.error .wait) (w.write src) ((w.cut k).write src) := by
  have go : ∀ w1 : ConnW, w1.sock.calls ≤ k →
      Halted k (Except.error Reader.IoStop.wait)
        (if w1.cap ≤ src.length then (match w1.sock.write src with | (s, res) => ({ w1 with sock := s }, res)) else ({ w1 with buf := w1.buf ++ src }, Except.ok src.length))
        (if (w1.cut k).cap ≤ src.length then (match (w1.cut k).sock.write src with | (s, res) => ({ w1.cut k with sock := s }, res))
          else ({ w1.cut k with buf := (w1.cut k).buf ++ src }, Except.ok src.length)) := by
    intro w1 h1
    have hc : (w1.cut k).cap = w1.cap := rfl
    have hsock : (w1.cut k).sock = w1.sock.cut k := rfl
    rw [hc, hsock]
    by_cases hle : w1.cap ≤ src.length
    · simp only [if_pos hle]
      obtain ⟨a1, a2, a3, _⟩ := sock_write w1.sock src
      by_cases hlt : w1.sock.calls < k
      · rw [sock_write_before hlt]
        exact .inl ⟨by simp only; omega, rfl⟩
      · rw [sock_write_at (by omega)]
        exact .inr ⟨by simp only; omega, rfl, rfl, by simp only; rw [a2]; exact List.prefix_rfl, a3⟩
    · simp only [if_neg hle]
      exact .inl ⟨h1, rfl⟩
  have hc : (w.cut k).cap = w.cap := rfl
  have hb : (w.cut k).buf = w.buf := rfl
  simp only [ConnW.write, hc, hb]
  by_cases hlt : w.cap < w.buf.length + src.length
  · simp only [if_pos hlt]
    have h1 := flushBuf_halted k w.buf.length w (Nat.le_refl _) hk
    generalize ConnW.flushBuf w.buf.length w = x at h1
    generalize ConnW.flushBuf w.buf.length (w.cut k) = x' at h1
    obtain ⟨w1, res⟩ := x
    rcases h1 with ⟨h1, rfl⟩ | ⟨h1, h2, h3, h4, h5⟩
    · cases res with
      | some e => exact .inl ⟨h1, rfl⟩
      | none => exact go w1 h1
    · obtain ⟨w1', res'⟩ := x'
      simp only at h1 h2 h3 h4 h5
      subst h2
      cases res with
      | some e => exact .inr ⟨h1, rfl, h3, h4, h5⟩
      | none =>
        simp only
        split
        · obtain ⟨a1, a2, a3, _⟩ := sock_write w1.sock src
          exact .inr ⟨by simp only; omega, rfl, h3, by simp only; rw [a2]; exact h4.trans (List.prefix_append _ _), h5.trans a3⟩
        · exact .inr ⟨h1, rfl, h3, h4, h5⟩
  · simp only [if_neg hlt]
    exact go w hk

theorem write_onward (w : ConnW) (src : Bytes) :
    w.sock.calls ≤ (w.write src).1.sock.calls ∧ w.sock.offered <+: (w.write src).1.sock.offered ∧ w.sock.taken <+: (w.write src).1.sock.taken := by
  have h := write_moves w src
  generalize w.write src = x at h
  obtain ⟨w', e | n⟩ := x
  · exact ⟨h.calls, h.offers, h.pre⟩
  · exact ⟨h.2.1.calls, h.2.1.offers, h.2.1.pre⟩

theorem writeAll_halted (k : Nat) : ∀ (fuel : Nat) (w : ConnW) (src : Bytes), src.length ≤ fuel → w.sock.calls ≤ k →
    Halted k (some .wait) (ConnW.writeAll fuel w src) (ConnW.writeAll fuel (w.cut k) src) := by
  intro fuel
  induction fuel with
  | zero => exact fun w src _ hk => .inl ⟨hk, rfl⟩
  | succ fuel ih =>
    intro w src hl hk
    simp only [ConnW.writeAll]
    by_cases hs : src = []
    · simp only [if_pos hs]
      exact .inl ⟨hk, rfl⟩
    · simp only [if_neg hs]
      have hpos := List.length_pos_iff.mpr hs
      have h1 := write_halted k w src hk
      generalize w.write src = x at h1
      generalize (w.cut k).write src = x' at h1
      obtain ⟨w1, res⟩ := x
      rcases h1 with ⟨h1, rfl⟩ | ⟨h1, h2, h3, h4, h5⟩
      · cases res with
        | error e => exact .inl ⟨h1, rfl⟩
        | ok n =>
          cases n with
          | zero => exact .inl ⟨h1, rfl⟩
          | succ j => exact ih w1 _ (by simp; omega) h1
      · obtain ⟨w1', res'⟩ := x'
        simp only at h1 h2 h3 h4 h5
        subst h2
        cases res with
        | error e => exact .inr ⟨h1, rfl, h3, h4, h5⟩
        | ok n =>
          cases n with
          | zero => exact .inr ⟨h1, rfl, h3, h4, h5⟩
          | succ j =>
            have hm := writeAll_moves fuel w1 (src.drop (j + 1)) (by simp; omega)
            exact .inr ⟨Nat.lt_of_lt_of_le h1 hm.calls, rfl, h3, h4.trans hm.offers, h5.trans hm.pre⟩

theorem flush_halted (k : Nat) (w : ConnW) (hk : w.sock.calls ≤ k) : Halted k (some .wait) w.flush (w.cut k).flush := by
  have hb : (w.cut k).buf = w.buf := rfl
  simp only [ConnW.flush, hb]
  have h1 := flushBuf_halted k w.buf.length w (Nat.le_refl _) hk
  generalize ConnW.flushBuf w.buf.length w = x at h1
  generalize ConnW.flushBuf w.buf.length (w.cut k) = x' at h1
  obtain ⟨w1, res⟩ := x
  obtain ⟨a1, a2, a3⟩ := sock_flush w1.sock
  rcases h1 with ⟨h1, rfl⟩ | ⟨h1, h2, h3, h4, h5⟩
  · cases res with
    | some e => exact .inl ⟨h1, rfl⟩
    | none =>
      have hsock : (w1.cut k).sock = w1.sock.cut k := rfl
      simp only [hsock]
      simp only at h1
      by_cases hlt : w1.sock.calls < k
      · rw [sock_flush_before hlt]
        exact .inl ⟨by simp only; omega, rfl⟩
      · rw [sock_flush_at (by omega)]
        exact .inr ⟨by simp only; omega, rfl, rfl, by simp only; rw [a2]; exact List.prefix_rfl, by simp only; rw [a3]; exact List.prefix_rfl⟩
  · obtain ⟨w1', res'⟩ := x'
    simp only at h1 h2 h3 h4 h5
    subst h2
    cases res with
    | some e => exact .inr ⟨h1, rfl, h3, h4, h5⟩
    | none => exact .inr ⟨by simp only; omega, rfl, h3, by simp only; rw [a2]; exact h4, by simp only; rw [a3]; exact h5⟩

theorem send_halted (k : Nat) (w : ConnW) (head body : Bytes) (hk : w.sock.calls ≤ k) : Halted k (some .wait) (w.send head body) ((w.cut k).send head body) := by
  simp only [ConnW.send]
  have h1 := writeAll_halted k head.length w head (Nat.le_refl _) hk
  generalize ConnW.writeAll head.length w head = x at h1
  generalize ConnW.writeAll head.length (w.cut k) head = x' at h1
  obtain ⟨w1, res⟩ := x
  rcases h1 with ⟨h1, rfl⟩ | ⟨h1, h2, h3, h4, h5⟩
  · cases res with
    | some e => exact .inl ⟨h1, rfl⟩
    | none =>
      simp only at h1 ⊢
      by_cases hb : 0 < body.length
      · simp only [if_pos hb]
        have g1 := writeAll_halted k body.length w1 body (Nat.le_refl _) h1
        generalize ConnW.writeAll body.length w1 body = y at g1
        generalize ConnW.writeAll body.length (w1.cut k) body = y' at g1
        obtain ⟨w2, res⟩ := y
        rcases g1 with ⟨g1, rfl⟩ | ⟨g1, g2, g3, g4, g5⟩
        · cases res with
          | some e => exact .inl ⟨g1, rfl⟩
          | none => exact flush_halted k w2 g1
        · obtain ⟨w2', res'⟩ := y'
          simp only at g1 g2 g3 g4 g5
          subst g2
          cases res with
          | some e => exact .inr ⟨g1, rfl, g3, g4, g5⟩
          | none =>
            have hm := (flush_moves w2).1
            exact .inr ⟨Nat.lt_of_lt_of_le g1 hm.calls, rfl, g3, g4.trans hm.offers, g5.trans hm.pre⟩
      · simp only [if_neg hb]
        exact flush_halted k w1 h1
  · obtain ⟨w1', res'⟩ := x'
    simp only at h1 h2 h3 h4 h5
    subst h2
    cases res with
    | some e => exact .inr ⟨h1, rfl, h3, h4, h5⟩
    | none =>
      simp only
      have hm : ∃ src res, Moves w1 (if 0 < body.length then
          match ConnW.writeAll body.length w1 body with
          | (w2, some e) => (w2, some e)
          | (w2, none) => w2.flush
        else w1.flush).1 src res := by
        split
        · have h2 := writeAll_moves body.length w1 body (Nat.le_refl _)
          generalize ConnW.writeAll body.length w1 body = y at h2
          obtain ⟨w2, _ | e⟩ := y
          · exact ⟨_, _, h2.trans (flush_moves w2).1⟩
          · exact ⟨_, _, h2⟩
        · exact ⟨_, _, (flush_moves w1).1⟩
      obtain ⟨src, res, hm⟩ := hm
      exact .inr ⟨Nat.lt_of_lt_of_le h1 hm.calls, rfl, h3, h4.trans hm.offers, h5.trans hm.pre⟩

theorem writeTo_halted (k : Nat) (c : Codec K) (ord : List Pair → List Pair) (m : Message K) (w : ConnW) (hk : w.sock.calls ≤ k) :
    (writeTo c ord m (w.cut k)).1 = (writeTo c ord m w).1 ∧ Halted k (some .wait) (writeTo c ord m w).2 (writeTo c ord m (w.cut k)).2 := by
  simp only [writeTo]
  generalize m.body.finish c = x
  obtain ⟨b, _ | _⟩ := x
  · exact ⟨rfl, .inl ⟨hk, rfl⟩⟩
  · exact ⟨rfl, send_halted k w _ _ hk⟩

/-- A connection whose stream stalls at call number `k` is the same connection up to there. -/
theorem serveLoopW_halted (k : Nat) (c : Codec K) (lim : HttpLimits) (env : Nat → Env K) : ∀ (fuel i : Nat) (req resp : Message K) (r : Reader) (w : ConnW), w.sock.calls ≤ k →
    (serveLoopW c lim env fuel i req resp r w).2.1.sock.calls ≤ k ∧
      serveLoopW c lim env fuel i req resp r (w.cut k) =
        ((serveLoopW c lim env fuel i req resp r w).1, (serveLoopW c lim env fuel i req resp r w).2.1.cut k, (serveLoopW c lim env fuel i req resp r w).2.2) ∨
    (serveLoopW c lim env fuel i req resp r (w.cut k)).1 <+: (serveLoopW c lim env fuel i req resp r w).1 ∧
      Halted k .stalled (serveLoopW c lim env fuel i req resp r w).2 (serveLoopW c lim env fuel i req resp r (w.cut k)).2 ∧ k < (serveLoopW c lim env fuel i req resp r w).2.1.sock.calls := by
  intro fuel
  induction fuel with
  | zero => exact fun i req resp r w hk => .inl ⟨hk, rfl⟩
  | succ fuel ih =>
    intro i req resp r w hk
    simp only [serveLoopW]
    cases readHead lim req.head r with
    | error e => exact .inl ⟨hk, rfl⟩
    | ok x =>
      obtain ⟨hd, r1⟩ := x
      simp only
      cases readConstLengthBody (env i).cap hd.headers req.body r1 with
      | fail e => exact .inl ⟨hk, rfl⟩
      | panic => exact .inl ⟨hk, rfl⟩
      | hang => exact .inl ⟨hk, rfl⟩
      | done body r2 =>
        simp only
        cases (env i).http ⟨hd, body⟩ resp with
        | err => exact .inl ⟨hk, rfl⟩
        | panic => exact .inl ⟨hk, rfl⟩
        | ok p req2 resp2 =>
          simp only
          obtain ⟨h0, h1⟩ := writeTo_halted k c (env i).ord resp2 w hk
          generalize writeTo c (env i).ord resp2 w = x at h0 h1
          generalize writeTo c (env i).ord resp2 (w.cut k) = x' at h0 h1
          obtain ⟨m, w1, res⟩ := x
          obtain ⟨m', w1', res'⟩ := x'
          simp only at h0
          subst h0
          rcases h1 with ⟨h1, h2⟩ | ⟨h1, h2, h3, h4, h5⟩
          · simp only [Prod.mk.injEq] at h2
            obtain ⟨rfl, rfl⟩ := h2
            cases res' with
            | some e => exact .inl ⟨h1, rfl⟩
            | none =>
              cases p with
              | current ka =>
                cases ka with
                | false => exact .inl ⟨h1, rfl⟩
                | true =>
                  simp only
                  rcases ih (i + 1) (req2.clear c) (m'.clear c) r2 w1 h1 with ⟨g1, g2⟩ | ⟨g1, g2, g3⟩
                  · rw [g2]; exact .inl ⟨g1, rfl⟩
                  · exact .inr ⟨List.prefix_cons_inj _ |>.mpr g1, g2, g3⟩
              | webSocket => exact .inl ⟨h1, rfl⟩
              | http2 => exact .inl ⟨h1, rfl⟩
          · simp only at h1 h2 h3 h4 h5
            subst h2
            simp only
            cases res with
            | some e => exact .inr ⟨List.prefix_rfl, .inr ⟨h1, rfl, h3, h4, h5⟩, h1⟩
            | none =>
              cases p with
              | current ka =>
                cases ka with
                | false => exact .inr ⟨List.prefix_rfl, .inr ⟨h1, rfl, h3, h4, h5⟩, h1⟩
                | true =>
                  simp only
                  obtain ⟨src, res, hm, _⟩ := serveLoopW_moves c lim env fuel (i + 1) (req2.clear c) (m'.clear c) r2 w1
                  have hlt := Nat.lt_of_lt_of_le h1 hm.calls
                  exact .inr ⟨by simp, .inr ⟨hlt, rfl, h3, h4.trans hm.offers, h5.trans hm.pre⟩, hlt⟩
              | webSocket => exact .inr ⟨List.prefix_rfl, .inr ⟨h1, rfl, h3, h4, h5⟩, h1⟩
              | http2 => exact .inr ⟨List.prefix_rfl, .inr ⟨h1, rfl, h3, h4, h5⟩, h1⟩

/-- **C114**, at every moment. Take any connection whose stream is called `n` times, and stop it at its call number `k`, before the stream has answered: the connection so far has delivered the first of the requests, has offered the stream the first of
the slices and it has taken the first of the bytes, and the write buffer holds no more than its capacity. If there is no such call, stopping changes nothing. (Between two calls the buffer only grows, so that its size at the
calls bounds it at every moment.) -/
theorem C114_every_moment (c : Codec K) (lim : HttpLimits) (env : Nat → Env K) (r : Reader) (cap : Nat) (plan : Nat → SockRes) (k : Nat) :
    (serveW c lim env r cap (stalledFrom k plan)).2.1.buf.length ≤ cap ∧
    (k < (serveW c lim env r cap plan).2.1.sock.calls →
      (serveW c lim env r cap (stalledFrom k plan)).2.2 = .stalled ∧
      (serveW c lim env r cap (stalledFrom k plan)).2.1.sock.calls = k + 1 ∧
      (serveW c lim env r cap (stalledFrom k plan)).1 <+: (serveW c lim env r cap plan).1 ∧
      (serveW c lim env r cap (stalledFrom k plan)).2.1.sock.offered <+: (serveW c lim env r cap plan).2.1.sock.offered ∧
      (serveW c lim env r cap (stalledFrom k plan)).2.1.sock.taken <+: (serveW c lim env r cap plan).2.1.sock.taken) ∧
    ((serveW c lim env r cap plan).2.1.sock.calls ≤ k →
      (serveW c lim env r cap (stalledFrom k plan)).1 = (serveW c lim env r cap plan).1 ∧
      (serveW c lim env r cap (stalledFrom k plan)).2.1.buf = (serveW c lim env r cap plan).2.1.buf ∧
      (serveW c lim env r cap (stalledFrom k plan)).2.1.sock.taken = (serveW c lim env r cap plan).2.1.sock.taken ∧
      (serveW c lim env r cap (stalledFrom k plan)).2.2 = (serveW c lim env r cap plan).2.2) := by
  refine ⟨C114_buffer_bounded c lim env r cap _, ?_⟩
  have h := serveLoopW_halted k c lim env (r.flat.length + 1) 0 Message.new Message.new r { cap := cap, buf := [], sock := Sock.new plan } (Nat.zero_le _)
  have e : (ConnW.cut k { cap := cap, buf := [], sock := Sock.new plan }) = { cap := cap, buf := [], sock := Sock.new (stalledFrom k plan) } := rfl
  rw [e] at h
  simp only [serveW]
  rcases h with ⟨h1, h2⟩ | ⟨h1, h2, h3⟩
  · rw [h2]
    exact ⟨fun h => by omega, fun _ => ⟨rfl, rfl, rfl, rfl⟩⟩
  · refine ⟨fun _ => ?_, fun h => by omega⟩
    rcases h2 with ⟨h2, _⟩ | ⟨_, h4, h5, h6, h7⟩
    · omega
    · exact ⟨h4, h5, h1, h6, h7⟩

/-- Non-trivial case: two requests on one connection, a buffer of 300 bytes, a stream that takes 40 bytes at a time; at the second of six calls the buffer holds the 11 bytes that were not taken of the first answer. -/
example : ((serveW noCodec sampleLimits (fun _ => sampleEnv) (Reader.ofBytes (encodeAll [sampleReq, sampleReq]) .eof) 300 (fun _ => .takes 40)).2.1.sock.calls,
    (serveW noCodec sampleLimits (fun _ => sampleEnv) (Reader.ofBytes (encodeAll [sampleReq, sampleReq]) .eof) 300 (stalledFrom 1 fun _ => .takes 40)).2.1.buf.length) = (6, 11) := by decide +kernel

end Httpd
