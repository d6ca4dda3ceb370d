import Verif.Model.Writer
/-! # Lemmas about the write side -/

namespace Httpd

/-- A reason, in what the stream below did with a call, for the outcome of a write. -/
def Explains (x : SockRes) : Reader.IoStop → Prop
  | .error => x = .fails ∨ x = .takes 0
  | .wait => x = .stalls

/-- What any write operation of a `BufWriter` does: it appends a part of `src`, all of it if it succeeds, to what the stream
below has taken together with the buffer; the stream below keeps what it had; a failure is the stream's. -/
structure Moves (w w' : ConnW) (src : Bytes) (res : Option Reader.IoStop) : Prop where
  cap : w'.cap = w.cap
  plan : w'.sock.plan = w.sock.plan
  calls : w.sock.calls ≤ w'.sock.calls
  bytes : ∃ k, k ≤ src.length ∧ w'.sock.taken ++ w'.buf = w.sock.taken ++ w.buf ++ src.take k ∧ (res = none → k = src.length)
  pre : w.sock.taken <+: w'.sock.taken
  offers : w.sock.offered <+: w'.sock.offered
  why : ∀ e, res = some e → w.sock.calls < w'.sock.calls ∧ Explains (w.sock.plan (w'.sock.calls - 1)) e
  fine : ∀ i, w.sock.calls ≤ i → i < w'.sock.calls → (res = none ∨ i + 1 < w'.sock.calls) → ∃ n, w.sock.plan i = .takes n
  small : w.buf.length ≤ w.cap → w'.buf.length ≤ w'.cap
  quiet : (∀ i, w.sock.calls ≤ i → i < w'.sock.calls → ∀ n, w.sock.plan i ≠ .takes n) → w'.sock.taken = w.sock.taken

theorem Moves.refl (w : ConnW) : Moves w w [] none :=
  ⟨rfl, rfl, Nat.le_refl _, ⟨0, by simp⟩, List.prefix_rfl, List.prefix_rfl, by simp, fun i h1 h2 => by omega, id, fun _ => rfl⟩

theorem Moves.trans {w w1 w2 : ConnW} {s1 s2 : Bytes} {res : Option Reader.IoStop} (h1 : Moves w w1 s1 none)
    (h2 : Moves w1 w2 s2 res) : Moves w w2 (s1 ++ s2) res := by
  obtain ⟨k1, hk1, hb1, hn1⟩ := h1.bytes
  obtain ⟨k2, hk2, hb2, hn2⟩ := h2.bytes
  have hk1 := hn1 rfl
  subst hk1
  refine ⟨h2.cap.trans h1.cap, h2.plan.trans h1.plan, Nat.le_trans h1.calls h2.calls, ?_, h1.pre.trans h2.pre,
    h1.offers.trans h2.offers, ?_, ?_, ?_, ?_⟩
  · refine ⟨s1.length + k2, by simp; omega, ?_, fun h => by rw [hn2 h]; simp⟩
    rw [hb2, hb1, List.take_length_add_append, List.take_length]
    simp
  · intro e he
    obtain ⟨g1, g2⟩ := h2.why e he
    have := h1.calls
    rw [h1.plan] at g2
    exact ⟨by omega, g2⟩
  · intro i g1 g2 g3
    by_cases h : i < w1.sock.calls
    · exact h1.fine i g1 h (Or.inl rfl)
    · rw [← h1.plan]
      exact h2.fine i (by omega) g2 g3
  · exact fun h => h2.small (h1.small h)
  · intro h
    rw [h2.quiet (fun i g1 g2 => by rw [h1.plan]; exact h i (Nat.le_trans h1.calls g1) g2),
      h1.quiet (fun i g1 g2 => h i g1 (Nat.lt_of_lt_of_le g2 h2.calls))]

theorem Moves.stop {w w1 : ConnW} {s1 : Bytes} {e : Reader.IoStop} (h : Moves w w1 s1 (some e)) (s2 : Bytes) :
    Moves w w1 (s1 ++ s2) (some e) := by
  obtain ⟨k, hk, hb, _⟩ := h.bytes
  refine ⟨h.cap, h.plan, h.calls, ⟨k, by simp; omega, ?_, by simp⟩, h.pre, h.offers, h.why, h.fine, h.small, h.quiet⟩
  rw [hb, List.take_append_of_le_length hk]

theorem Moves.nil_prefix {w w1 : ConnW} {e : Reader.IoStop} (h : Moves w w1 [] (some e)) (s : Bytes) :
    Moves w w1 s (some e) := by
  simpa using h.stop s

/-- The buffer goes to the stream below. -/
theorem flushBuf_moves : ∀ (fuel : Nat) (w : ConnW), w.buf.length ≤ fuel →
    Moves w (ConnW.flushBuf fuel w).1 [] (ConnW.flushBuf fuel w).2 ∧
    ((ConnW.flushBuf fuel w).2 = none → (ConnW.flushBuf fuel w).1.buf = []) := by
  intro fuel
  induction fuel with
  | zero =>
    intro w hw
    have : w.buf = [] := List.eq_nil_of_length_eq_zero (by omega)
    exact ⟨Moves.refl w, fun _ => this⟩
  | succ fuel ih =>
    intro w hw
    simp only [ConnW.flushBuf]
    by_cases hb : w.buf = []
    · rw [if_pos hb]
      exact ⟨Moves.refl w, fun _ => hb⟩
    · rw [if_neg hb]
      have hpos : 0 < w.buf.length := List.length_pos_iff.mpr hb
      cases hp : w.sock.plan w.sock.calls with
      | fails =>
        simp only [Sock.write, hp]
        refine ⟨⟨rfl, rfl, Nat.le_succ _, ⟨0, by simp⟩, List.prefix_rfl, by simp, ?_, ?_, id, fun _ => rfl⟩, by simp⟩
        · intro e he
          cases he
          exact ⟨Nat.lt_succ_self _, by simp [Explains, hp]⟩
        · intro i g1 g2 g3
          simp only at g2 g3
          simp at g3
          omega
      | stalls =>
        simp only [Sock.write, hp]
        refine ⟨⟨rfl, rfl, Nat.le_succ _, ⟨0, by simp⟩, List.prefix_rfl, by simp, ?_, ?_, id, fun _ => rfl⟩, by simp⟩
        · intro e he
          cases he
          exact ⟨Nat.lt_succ_self _, by simp [Explains, hp]⟩
        · intro i g1 g2 g3
          simp only at g2 g3
          simp at g3
          omega
      | takes n =>
        simp only [Sock.write, hp]
        cases hm : min n w.buf.length with
        | zero =>
          have hn : n = 0 := by omega
          subst hn
          simp only
          refine ⟨⟨rfl, rfl, Nat.le_succ _, ⟨0, by simp⟩, by simp, by simp, ?_, ?_, id, by simp⟩, by simp⟩
          · intro e he
            cases he
            exact ⟨Nat.lt_succ_self _, by simp [Explains, hp]⟩
          · intro i g1 g2 g3
            simp only at g2 g3
            simp at g3
            omega
        | succ k =>
          simp only
          have hle : (w.buf.drop (k + 1)).length ≤ fuel := by simp; omega
          obtain ⟨h1, h2⟩ := ih ⟨w.cap, w.buf.drop (k + 1), ⟨w.sock.plan, w.sock.offered ++ [w.buf], w.sock.calls + 1,
            w.sock.taken ++ w.buf.take n⟩⟩ hle
          refine ⟨?_, h2⟩
          have step : Moves w ⟨w.cap, w.buf.drop (k + 1), ⟨w.sock.plan, w.sock.offered ++ [w.buf], w.sock.calls + 1,
            w.sock.taken ++ w.buf.take n⟩⟩ [] none := by
            refine ⟨rfl, rfl, Nat.le_succ _, ⟨0, by simp, ?_, by simp⟩, by simp, by simp, by simp, ?_, ?_,
              fun h => absurd hp (h _ (Nat.le_refl _) (Nat.lt_succ_self _) n)⟩
            · have : w.buf.take n = w.buf.take (k + 1) := by rw [← hm]; simp [List.take_eq_take_iff]
              simp only [this, List.append_assoc, List.take_append_drop, List.take_zero, List.append_nil]
            · intro i g1 g2 _
              replace g2 : i < w.sock.calls + 1 := g2
              have : i = w.sock.calls := by omega
              exact ⟨n, by rw [this, hp]⟩
            · intro h; simp; omega
          exact step.trans h1

/-- One `poll_write`. -/
theorem write_moves (w : ConnW) (src : Bytes) :
    match w.write src with
    | (w', .error e) => Moves w w' [] (some e)
    | (w', .ok n) => n ≤ src.length ∧ Moves w w' (src.take n) none ∧
        (n = 0 → src ≠ [] → w.sock.calls < w'.sock.calls ∧ w.sock.plan (w'.sock.calls - 1) = .takes 0) := by
  have go : ∀ w1 : ConnW, Moves w w1 [] none → (w1.buf.length + src.length ≤ w1.cap ∨ w1.buf = []) →
      match (if w1.cap ≤ src.length then
        match w1.sock.write src with
        | (s, res) => ({ w1 with sock := s }, res)
        else ({ w1 with buf := w1.buf ++ src }, .ok src.length) : ConnW × Except Reader.IoStop Nat) with
      | (w', .error e) => Moves w w' [] (some e)
      | (w', .ok n) => n ≤ src.length ∧ Moves w w' (src.take n) none ∧
          (n = 0 → src ≠ [] → w.sock.calls < w'.sock.calls ∧ w.sock.plan (w'.sock.calls - 1) = .takes 0) := by
    intro w1 h1 hfit
    by_cases hc : w1.cap ≤ src.length
    · rw [if_pos hc]
      -- nothing is buffered when a long slice goes to the stream directly
      have hb : w1.buf = [] := by
        rcases hfit with h | h
        · exact List.eq_nil_of_length_eq_zero (by omega)
        · exact h
      have hcalls := h1.calls
      cases hp : w1.sock.plan w1.sock.calls with
      | fails =>
        simp only [Sock.write, hp]
        refine Moves.trans (s1 := []) h1 ⟨rfl, rfl, Nat.le_succ _, ⟨0, by simp⟩, List.prefix_rfl, by simp, ?_, ?_, id, fun _ => rfl⟩
        · intro e he
          cases he
          exact ⟨Nat.lt_succ_self _, by simp [Explains, hp]⟩
        · intro i g1 g2 g3
          simp only at g2 g3
          simp at g3
          omega
      | stalls =>
        simp only [Sock.write, hp]
        refine Moves.trans (s1 := []) h1 ⟨rfl, rfl, Nat.le_succ _, ⟨0, by simp⟩, List.prefix_rfl, by simp, ?_, ?_, id, fun _ => rfl⟩
        · intro e he
          cases he
          exact ⟨Nat.lt_succ_self _, by simp [Explains, hp]⟩
        · intro i g1 g2 g3
          simp only at g2 g3
          simp at g3
          omega
      | takes n =>
        simp only [Sock.write, hp]
        refine ⟨Nat.min_le_right _ _, ?_, ?_⟩
        · refine Moves.trans (s1 := []) h1 ⟨rfl, rfl, Nat.le_succ _, ⟨(src.take (min n src.length)).length, Nat.le_refl _, ?_,
            fun _ => rfl⟩, by simp, by simp, by simp, ?_, id, fun h => absurd hp (h _ (Nat.le_refl _) (Nat.lt_succ_self _) n)⟩
          · have : src.take n = src.take (min n src.length) := by simp [List.take_eq_take_iff]
            simp only [hb, List.append_nil, List.take_length, this]
          · intro i g1 g2 _
            replace g2 : i < w1.sock.calls + 1 := g2
            have : i = w1.sock.calls := by omega
            exact ⟨n, by rw [this, hp]⟩
        · intro hn hs
          have : 0 < src.length := List.length_pos_iff.mpr hs
          have hn0 : n = 0 := by omega
          subst hn0
          rw [← h1.plan]
          exact ⟨Nat.lt_succ_of_le hcalls, hp⟩
    · rw [if_neg hc]
      refine ⟨Nat.le_refl _, ?_, fun hn hs => absurd (List.eq_nil_of_length_eq_zero hn) hs⟩
      rw [List.take_length]
      refine Moves.trans (s1 := []) h1 ⟨rfl, rfl, Nat.le_refl _, ⟨src.length, Nat.le_refl _, by simp, fun _ => rfl⟩,
        List.prefix_rfl, List.prefix_rfl, by simp, fun i g1 g2 => by simp only at g2; omega, ?_, fun _ => rfl⟩
      intro _
      rcases hfit with h | h
      · simpa using h
      · simp [h]; omega
  simp only [ConnW.write]
  by_cases hc : w.cap < w.buf.length + src.length
  · rw [if_pos hc]
    obtain ⟨h1, h2⟩ := flushBuf_moves w.buf.length w (Nat.le_refl _)
    cases hf : ConnW.flushBuf w.buf.length w with
    | mk w1 res =>
      rw [hf] at h1 h2
      cases res with
      | some e => exact h1
      | none => exact go w1 h1 (Or.inr (h2 rfl))
  · rw [if_neg hc]
    exact go w (Moves.refl w) (Or.inl (by omega))

/-- `write_all`. -/
theorem writeAll_moves : ∀ (fuel : Nat) (w : ConnW) (src : Bytes), src.length ≤ fuel →
    Moves w (ConnW.writeAll fuel w src).1 src (ConnW.writeAll fuel w src).2 := by
  intro fuel
  induction fuel with
  | zero =>
    intro w src hs
    have : src = [] := List.eq_nil_of_length_eq_zero (by omega)
    subst this
    exact Moves.refl w
  | succ fuel ih =>
    intro w src hs
    simp only [ConnW.writeAll]
    by_cases hb : src = []
    · rw [if_pos hb, hb]; exact Moves.refl w
    · rw [if_neg hb]
      have h := write_moves w src
      cases hw : w.write src with
      | mk w1 res =>
        rw [hw] at h
        cases res with
        | error e => exact Moves.nil_prefix h src
        | ok n =>
          obtain ⟨h1, h2, h3⟩ := h
          cases n with
          | zero =>
            obtain ⟨g1, g2⟩ := h3 rfl hb
            simp only
            refine Moves.nil_prefix ⟨h2.cap, h2.plan, h2.calls, ?_, h2.pre, h2.offers, ?_, ?_, h2.small, h2.quiet⟩ src
            · obtain ⟨k, e1, e2, e3⟩ := h2.bytes
              refine ⟨0, by simp, ?_, by simp⟩
              rw [e2]; simp
            · intro e he
              cases he
              exact ⟨g1, Or.inr g2⟩
            · intro i e1 e2 e3
              exact h2.fine i e1 e2 (Or.inl rfl)
          | succ n =>
            simp only
            have hle : (src.drop (n + 1)).length ≤ fuel := by simp; omega
            have := h2.trans (ih w1 (src.drop (n + 1)) hle)
            rwa [List.take_append_drop] at this

/-- `flush`. -/
theorem flush_moves (w : ConnW) : Moves w w.flush.1 [] w.flush.2 ∧ (w.flush.2 = none → w.flush.1.buf = []) := by
  obtain ⟨h1, h2⟩ := flushBuf_moves w.buf.length w (Nat.le_refl _)
  simp only [ConnW.flush]
  cases hf : ConnW.flushBuf w.buf.length w with
  | mk w1 res =>
    rw [hf] at h1 h2
    cases res with
    | some e => exact ⟨h1, by simp⟩
    | none =>
      have hb := h2 rfl
      simp only [Sock.flush]
      cases hp : w1.sock.plan w1.sock.calls with
      | takes n =>
        refine ⟨Moves.trans (s1 := []) h1 ⟨rfl, rfl, Nat.le_succ _, ⟨0, by simp⟩, List.prefix_rfl, List.prefix_rfl, by simp, ?_, id,
          fun _ => rfl⟩, fun _ => hb⟩
        intro i g1 g2 _
        replace g2 : i < w1.sock.calls + 1 := g2
        replace g1 : w1.sock.calls ≤ i := g1
        have : i = w1.sock.calls := by omega
        exact ⟨n, by rw [this, hp]⟩
      | fails =>
        refine ⟨Moves.trans (s1 := []) h1 ⟨rfl, rfl, Nat.le_succ _, ⟨0, by simp⟩, List.prefix_rfl, by simp, ?_, ?_, id,
          fun _ => rfl⟩, by simp⟩
        · intro e he
          cases he
          exact ⟨Nat.lt_succ_self _, by simp [Explains, hp]⟩
        · intro i g1 g2 g3
          replace g1 : w1.sock.calls ≤ i := g1
          simp at g3
          omega
      | stalls =>
        refine ⟨Moves.trans (s1 := []) h1 ⟨rfl, rfl, Nat.le_succ _, ⟨0, by simp⟩, List.prefix_rfl, by simp, ?_, ?_, id,
          fun _ => rfl⟩, by simp⟩
        · intro e he
          cases he
          exact ⟨Nat.lt_succ_self _, by simp [Explains, hp]⟩
        · intro i g1 g2 g3
          replace g1 : w1.sock.calls ≤ i := g1
          simp at g3
          omega

/-- The sending half of `write_to`. -/
theorem send_moves (w : ConnW) (head body : Bytes) :
    Moves w (w.send head body).1 (head ++ body) (w.send head body).2 ∧
    ((w.send head body).2 = none → (w.send head body).1.buf = []) := by
  have h1 := writeAll_moves head.length w head (Nat.le_refl _)
  simp only [ConnW.send]
  cases hf : ConnW.writeAll head.length w head with
  | mk w1 res =>
    rw [hf] at h1
    cases res with
    | some e => exact ⟨h1.stop body, by simp⟩
    | none =>
      simp only
      by_cases hb : 0 < body.length
      · rw [if_pos hb]
        have h2 := writeAll_moves body.length w1 body (Nat.le_refl _)
        cases hg : ConnW.writeAll body.length w1 body with
        | mk w2 res =>
          rw [hg] at h2
          cases res with
          | some e => exact ⟨h1.trans h2, by simp⟩
          | none =>
            obtain ⟨h3, h4⟩ := flush_moves w2
            have := (h1.trans h2).trans h3
            rw [List.append_nil] at this
            exact ⟨this, h4⟩
      · rw [if_neg hb]
        have : body = [] := List.eq_nil_of_length_eq_zero (by omega)
        subst this
        obtain ⟨h3, h4⟩ := flush_moves w1
        exact ⟨h1.trans h3, h4⟩

/-- `write_to` and the bytes of the response. -/
theorem writeTo_moves {K : Type} (c : Codec K) (ord : List Pair → List Pair) (m : Message K) (w : ConnW) :
    (writeTo c ord m w).1 = (encodeResponse c ord m).1 ∧
    match (encodeResponse c ord m).2 with
    | none => (writeTo c ord m w).2 = (w, some .error)
    | some bytes => Moves w (writeTo c ord m w).2.1 bytes (writeTo c ord m w).2.2 ∧
        ((writeTo c ord m w).2.2 = none → (writeTo c ord m w).2.1.buf = []) := by
  simp only [writeTo, encodeResponse]
  cases m.body.finish c with
  | mk b ok =>
    cases ok with
    | false => simp
    | true =>
      exact ⟨by rfl, send_moves w (responseHead m.head.f0 m.head.f1 m.head.f2
        ((m.head.headers.set b!"content-length" (natToBytes b.size)).entries ord))
        (match b.internal with | some buf => buf | none => [])⟩

/-- A response that was sent has been flushed: the stream below was called. -/
theorem flush_calls (w : ConnW) (h : w.flush.2 = none) : w.sock.calls < w.flush.1.sock.calls := by
  obtain ⟨h1, _⟩ := flushBuf_moves w.buf.length w (Nat.le_refl _)
  simp only [ConnW.flush] at h ⊢
  cases hf : ConnW.flushBuf w.buf.length w with
  | mk w1 res =>
    rw [hf] at h h1
    cases res with
    | some e => simp at h
    | none =>
      have := h1.calls
      simp only [Sock.flush]
      cases w1.sock.plan w1.sock.calls <;> exact Nat.lt_succ_of_le this

theorem send_calls (w : ConnW) (head body : Bytes) (h : (w.send head body).2 = none) :
    w.sock.calls < (w.send head body).1.sock.calls := by
  have h1 := (writeAll_moves head.length w head (Nat.le_refl _)).calls
  simp only [ConnW.send] at h ⊢
  cases hf : ConnW.writeAll head.length w head with
  | mk w1 res =>
    rw [hf] at h h1
    cases res with
    | some e => simp at h
    | none =>
      simp only at h ⊢
      by_cases hb : 0 < body.length
      · rw [if_pos hb] at h ⊢
        have h2 := (writeAll_moves body.length w1 body (Nat.le_refl _)).calls
        cases hg : ConnW.writeAll body.length w1 body with
        | mk w2 res =>
          rw [hg] at h h2
          cases res with
          | some e => simp at h
          | none =>
            have h3 := flush_calls w2 h
            exact Nat.lt_of_le_of_lt (Nat.le_trans h1 h2) h3
      · rw [if_neg hb] at h ⊢
        exact Nat.lt_of_le_of_lt h1 (flush_calls w1 h)

theorem writeTo_calls {K : Type} (c : Codec K) (ord : List Pair → List Pair) (m : Message K) (w : ConnW)
    (h : (writeTo c ord m w).2.2 = none) : w.sock.calls < (writeTo c ord m w).2.1.sock.calls := by
  simp only [writeTo] at h ⊢
  cases hf : m.body.finish c with
  | mk b ok =>
    rw [hf] at h
    cases ok with
    | false => simp at h
    | true => exact send_calls w _ _ h

/-- A short slice goes into an empty buffer. -/
theorem writeAll_buffers (w : ConnW) (src : Bytes) (h1 : w.buf.length + src.length ≤ w.cap) (h2 : src.length < w.cap) :
    ConnW.writeAll src.length w src = ({ w with buf := w.buf ++ src }, none) := by
  cases hl : src.length with
  | zero =>
    have : src = [] := List.eq_nil_of_length_eq_zero hl
    simp [ConnW.writeAll, this]
  | succ n =>
    have hne : src ≠ [] := by intro h; rw [h] at hl; cases hl
    simp only [ConnW.writeAll, if_neg hne, ConnW.write]
    rw [if_neg (by omega), if_neg (by omega), hl]
    simp only
    have : src.drop (n + 1) = [] := by rw [← hl]; exact List.drop_length
    rw [this]
    cases n <;> simp [ConnW.writeAll]

/-! ## The loop -/

/-- A stream below that takes at least one byte whenever it is called. -/
def TakesAll (plan : Nat → SockRes) : Prop := ∀ i, ∃ n, plan i = .takes (n + 1)

theorem Moves.ok_of_takesAll {w w' : ConnW} {src : Bytes} {res : Option Reader.IoStop} (h : Moves w w' src res)
    (hp : TakesAll w.sock.plan) : res = none := by
  cases res with
  | none => rfl
  | some e =>
    obtain ⟨_, h2⟩ := h.why e rfl
    obtain ⟨n, hn⟩ := hp (w'.sock.calls - 1)
    rw [hn] at h2
    cases e <;> simp [Explains] at h2

/-- `serveLoopW` does what `serveLoop` does for suitable write outcomes. -/
theorem serveLoopW_refines {K : Type} (c : Codec K) (lim : HttpLimits) (env : Nat → Env K) :
    ∀ (fuel i : Nat) (req resp : Message K) (r : Reader) (w : ConnW), w.buf = [] →
    ∃ outs : Nat → WriteOutcome, (TakesAll w.sock.plan → ∀ j, outs j = .ok) ∧ ∀ env' : Nat → Env K, (∀ j, i ≤ j → env' j = { env j with write := outs j }) →
      (serveLoopW c lim env fuel i req resp r w).1 = (serveLoop c lim env' fuel i req resp r).1.map (·.req) ∧
      (serveLoopW c lim env fuel i req resp r w).2.2 = (serveLoop c lim env' fuel i req resp r).2 ∧
      (serveLoopW c lim env fuel i req resp r w).2.1.sock.taken =
        w.sock.taken ++ ((serveLoop c lim env' fuel i req resp r).1.map (·.written)).flatten := by
  intro fuel
  induction fuel with
  | zero => intro i req resp r w _; exact ⟨fun _ => .ok, fun _ _ => rfl, fun env' _ => by simp [serveLoopW, serveLoop]⟩
  | succ fuel ih =>
    intro i req resp r w hw
    simp only [serveLoopW, serveLoop]
    cases hh : readHead lim req.head r with
    | error e => exact ⟨fun _ => .ok, fun _ _ => rfl, fun env' _ => by simp⟩
    | ok x =>
      obtain ⟨hd, r1⟩ := x
      simp only
      cases hb : readConstLengthBody (env i).cap hd.headers req.body r1 with
      | fail e => exact ⟨fun _ => .ok, fun _ _ => rfl, fun env' h => by simp [h i (Nat.le_refl _), hb]⟩
      | panic => exact ⟨fun _ => .ok, fun _ _ => rfl, fun env' h => by simp [h i (Nat.le_refl _), hb]⟩
      | hang => exact ⟨fun _ => .ok, fun _ _ => rfl, fun env' h => by simp [h i (Nat.le_refl _), hb]⟩
      | done body r2 =>
        simp only
        cases hs : (env i).http ⟨hd, body⟩ resp with
        | err => exact ⟨fun _ => .ok, fun _ _ => rfl, fun env' h => by simp [h i (Nat.le_refl _), hb, hs]⟩
        | panic => exact ⟨fun _ => .ok, fun _ _ => rfl, fun env' h => by simp [h i (Nat.le_refl _), hb, hs]⟩
        | ok p req2 resp2 =>
          simp only
          have hm := writeTo_moves c (env i).ord resp2 w
          rcases he : encodeResponse c (env i).ord resp2 with ⟨resp3, _ | bytes⟩
          · rw [he] at hm
            rcases hwt : writeTo c (env i).ord resp2 w with ⟨m, w1, res⟩
            rw [hwt] at hm
            obtain ⟨_, hm⟩ := hm
            cases hm
            exact ⟨fun _ => .ok, fun _ _ => rfl, fun env' h => by simp [h i (Nat.le_refl _), hb, hs, he, writeEnding]⟩
          · rw [he] at hm
            rcases hwt : writeTo c (env i).ord resp2 w with ⟨m, w1, res⟩
            rw [hwt] at hm
            obtain ⟨hm0, hm, hmb⟩ := hm
            simp only at hm0 hm hmb
            subst hm0
            obtain ⟨k, hk1, hk2, hk3⟩ := hm.bytes
            rw [hw, List.append_nil] at hk2
            cases res with
            | some e =>
              -- what was taken is a prefix of the response
              obtain ⟨t, ht⟩ := hm.pre
              have htk : t ++ w1.buf = bytes.take k := by
                rw [← ht, List.append_assoc] at hk2
                exact List.append_cancel_left hk2
              have hpre : t = bytes.take t.length := by
                have h1 : t <+: bytes := ⟨w1.buf ++ bytes.drop k, by rw [← List.append_assoc, htk, List.take_append_drop]⟩
                exact (List.prefix_iff_eq_take.mp h1)
              refine ⟨fun _ => .failAfter t.length e, fun hp => absurd (hm.ok_of_takesAll hp) (by simp), fun env' h => ?_⟩
              simp only [h i (Nat.le_refl _), hb, hs, he, sent, List.map_cons, List.map_nil, List.flatten_cons, List.flatten_nil,
                List.append_nil]
              exact ⟨trivial, trivial, by rw [← ht, ← hpre]⟩
            | none =>
              have hbuf := hmb rfl
              have hk := hk3 rfl
              rw [hbuf, List.append_nil, hk, List.take_length] at hk2
              cases p with
              | current ka =>
                cases ka with
                | false => exact ⟨fun _ => .ok, fun _ _ => rfl, fun env' h => by simp [h i (Nat.le_refl _), hb, hs, he, hk2]⟩
                | true =>
                  obtain ⟨outs, hok, ho⟩ := ih (i + 1) (req2.clear c) (m.clear c) r2 w1 hbuf
                  refine ⟨fun j => if j = i then .ok else outs j, fun hp j => ?_, fun env' h => ?_⟩
                  · simp only [hok (by rw [hm.plan]; exact hp), ite_self]
                  have ho := ho env' (fun j hj => by rw [h j (by omega)]; simp only [if_neg (show j ≠ i by omega)])
                  obtain ⟨h1, h2, h3⟩ := ho
                  simp only [h i (Nat.le_refl _), hb, hs, he, if_pos, List.map_cons, List.flatten_cons]
                  refine ⟨by rw [h1], h2, ?_⟩
                  rw [h3, hk2, List.append_assoc]
              | webSocket => exact ⟨fun _ => .ok, fun _ _ => rfl, fun env' h => by simp [h i (Nat.le_refl _), hb, hs, he, hk2]⟩
              | http2 => exact ⟨fun _ => .ok, fun _ _ => rfl, fun env' h => by simp [h i (Nat.le_refl _), hb, hs, he, hk2]⟩

/-- What the connection as a whole does to the writer. -/
theorem serveLoopW_moves {K : Type} (c : Codec K) (lim : HttpLimits) (env : Nat → Env K) :
    ∀ (fuel i : Nat) (req resp : Message K) (r : Reader) (w : ConnW),
    ∃ src res, Moves w (serveLoopW c lim env fuel i req resp r w).2.1 src res ∧
      ((serveLoopW c lim env fuel i req resp r w).2.2 = .stalled ↔ res = some .wait) := by
  intro fuel
  induction fuel with
  | zero => intro i req resp r w; exact ⟨[], none, Moves.refl w, by simp [serveLoopW]⟩
  | succ fuel ih =>
    intro i req resp r w
    simp only [serveLoopW]
    cases hh : readHead lim req.head r with
    | error e => exact ⟨[], none, Moves.refl w, by cases e <;> simp [headEnding]⟩
    | ok x =>
      obtain ⟨hd, r1⟩ := x
      simp only
      cases hb : readConstLengthBody (env i).cap hd.headers req.body r1 with
      | fail e => exact ⟨[], none, Moves.refl w, by cases e <;> simp [bodyEnding]⟩
      | panic => exact ⟨[], none, Moves.refl w, by simp⟩
      | hang => exact ⟨[], none, Moves.refl w, by simp⟩
      | done body r2 =>
        simp only
        cases hs : (env i).http ⟨hd, body⟩ resp with
        | err => exact ⟨[], none, Moves.refl w, by simp⟩
        | panic => exact ⟨[], none, Moves.refl w, by simp⟩
        | ok p req2 resp2 =>
          simp only
          have hm := writeTo_moves c (env i).ord resp2 w
          rcases he : encodeResponse c (env i).ord resp2 with ⟨resp3, _ | bytes⟩
          · rw [he] at hm
            rcases hwt : writeTo c (env i).ord resp2 w with ⟨m, w1, res⟩
            rw [hwt] at hm
            obtain ⟨_, hm⟩ := hm
            cases hm
            exact ⟨[], none, Moves.refl w, by simp [writeEnding]⟩
          · rw [he] at hm
            rcases hwt : writeTo c (env i).ord resp2 w with ⟨m, w1, res⟩
            rw [hwt] at hm
            obtain ⟨hm0, hm, hmb⟩ := hm
            simp only at hm0 hm hmb
            cases res with
            | some e => exact ⟨bytes, some e, hm, by cases e <;> simp [writeEnding]⟩
            | none =>
              cases p with
              | current ka =>
                cases ka with
                | false => exact ⟨bytes, none, hm, by simp⟩
                | true =>
                  obtain ⟨src, res, h1, h2⟩ := ih (i + 1) (req2.clear c) (m.clear c) r2 w1
                  exact ⟨bytes ++ src, res, hm.trans h1, h2⟩
              | webSocket => exact ⟨bytes, none, hm, by simp⟩
              | http2 => exact ⟨bytes, none, hm, by simp⟩

end Httpd
