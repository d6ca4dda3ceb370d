import Verif.Spec.Turns
import Verif.Props.Accepting
/-!
# Turns of tasks on the worker threads (C218)
-/

namespace Httpd
open Spec

variable {K : Type}

/-! ## One turn in the loop for a body -/

theorem read_buffered (n : Nat) (c : Byte) (cs : Bytes) (segs : List Seg) (fin : StreamEnd) :
    (Reader.mk (c :: cs) segs fin).read n = .ok ((c :: cs).take n) ⟨(c :: cs).drop (min n (c :: cs).length), segs, fin⟩ := rfl

theorem read_segment (n : Nat) (s : Seg) (ss : List Seg) (fin : StreamEnd) :
    (Reader.mk [] (s :: ss) fin).read n = .ok (s.bytes.take n) ⟨s.bytes.drop (min n s.bytes.length), ss, fin⟩ := rfl

theorem read_closed (n : Nat) : (Reader.mk [] [] .eof).read n = .ok [] ⟨[], [], .eof⟩ := by
  simp [Reader.read, Reader.fillBuf, Reader.consume]

/-- How long a turn can be: the bytes in the buffer, and for each read that can be paid for the bytes that one read brings. -/
def turnBound (r : Reader) (budget most : Nat) : Nat := r.buf.length + budget * (most + 1)

theorem bodyTurn_ends (write : Body K → Bytes → Body.Out (Body K)) (cap : Nat) (hcap : 1 ≤ cap) (tls : Bool) (most : Nat) (fuel budget remain : Nat) (b : Body K)
    (r : Reader) (hm : ∀ s ∈ r.segs, s.bytes.length ≤ most) (hr : 1 ≤ remain) (hok : tls = false ∨ r.fin ≠ .eof ∨ remain ≤ r.flat.length)
    (hf : turnBound r budget most < fuel) : ∃ e, bodyTurn write cap tls fuel budget remain b r = some e := by
  induction fuel generalizing budget remain b r with
  | zero => omega
  | succ fuel ih =>
    simp only [bodyTurn]
    by_cases hc : budget < readCost tls r
    · rw [if_pos hc]; exact ⟨_, rfl⟩
    · rw [if_neg hc]
      have hn : 0 < (if remain < cap then remain else cap) := by split <;> omega
      generalize (if remain < cap then remain else cap) = n at hn
      obtain ⟨buf, segs, fin⟩ := r
      cases buf with
      | cons c cs =>
        rw [read_buffered]
        simp only
        cases write b ((c :: cs).take n) with
        | panic => exact ⟨_, rfl⟩
        | ret b' =>
          simp only
          split
          · exact ⟨_, rfl⟩
          · rename_i hd
            have hcost : readCost tls ⟨c :: cs, segs, fin⟩ = 0 := by simp [readCost]
            rw [hcost]
            refine ih _ _ _ _ hm (by omega) ?_ ?_
            · rcases hok with h | h | h
              · exact .inl h
              · exact .inr (.inl h)
              · refine .inr (.inr ?_)
                simp only [Reader.flat, List.length_append, List.length_drop, List.length_take, List.length_cons] at *
                omega
            · simp only [turnBound, List.length_drop, List.length_cons, Nat.sub_zero] at *
              omega
      | nil =>
        cases segs with
        | cons s ss =>
          have hcost : readCost tls ⟨[], s :: ss, fin⟩ = 1 := by simp [readCost]
          rw [hcost] at hc ⊢
          rw [read_segment]
          simp only
          cases write b (s.bytes.take n) with
          | panic => exact ⟨_, rfl⟩
          | ret b' =>
            simp only
            split
            · exact ⟨_, rfl⟩
            · rename_i hd
              have hs1 := hm s (by simp)
              have hs2 : 1 ≤ s.bytes.length := by simp [Seg.bytes]
              refine ih _ _ _ _ (fun t ht => hm t (by simp [ht])) (by omega) ?_ ?_
              · rcases hok with h | h | h
                · exact .inl h
                · exact .inr (.inl h)
                · refine .inr (.inr ?_)
                  simp only [Reader.flat, List.length_append, List.length_drop, List.length_take, List.map_cons, List.flatten_cons, List.nil_append] at *
                  omega
              · obtain ⟨m, rfl⟩ : ∃ m, budget = m + 1 := ⟨budget - 1, by omega⟩
                simp only [turnBound, List.length_drop, List.length_nil, Nat.add_sub_cancel, Nat.succ_mul] at *
                omega
        | nil =>
          cases fin with
          | err => exact ⟨_, rfl⟩
          | silent => exact ⟨_, rfl⟩
          | eof =>
            rw [read_closed]
            simp only
            cases write b [] with
            | panic => exact ⟨_, rfl⟩
            | ret b' =>
              simp only
              split
              · exact ⟨_, rfl⟩
              · rename_i hd
                rcases hok with h | h | h
                · have hcost : readCost tls ⟨[], [], .eof⟩ = 1 := by simp [readCost, h]
                  rw [hcost] at hc ⊢
                  refine ih _ _ _ _ hm (by omega) (.inl h) ?_
                  obtain ⟨m, rfl⟩ : ∃ m, budget = m + 1 := ⟨budget - 1, by omega⟩
                  simp only [turnBound, List.length_nil, Nat.add_sub_cancel, Nat.succ_mul] at *
                  omega
                · simp at h
                · simp [Reader.flat] at h
                  omega

/-- What the loop does from the state in which the turn left it. -/
def TurnEnd.rest (write : Body K → Bytes → Body.Out (Body K)) (cap : Nat) (fuel : Nat) : TurnEnd K → Option (BodyRes K)
  | .done b r => some (.done b r)
  | .fail c => some (.fail c)
  | .panic => some .panic
  | .pending remain b r => constLoop write cap (fuel + 1) remain b r
  | .yield remain b r => constLoop write cap (fuel + 1) remain b r

theorem readCost_le (tls : Bool) (r : Reader) : readCost tls r ≤ 1 := by
  unfold readCost
  split
  · omega
  · split <;> omega

theorem read_wait {r : Reader} {n : Nat} (h : r.read n = .err .wait) : r.flat = [] ∧ r.fin = .silent := by
  obtain ⟨buf, segs, fin⟩ := r
  cases buf <;> cases segs <;> cases fin <;> simp_all [Reader.read, Reader.fillBuf, Reader.flat]

theorem bodyTurn_rest (write : Body K → Bytes → Body.Out (Body K)) (cap : Nat) (tls : Bool) (fuel budget remain : Nat) (b : Body K) (r : Reader) (e : TurnEnd K)
    (h : bodyTurn write cap tls fuel budget remain b r = some e) :
    (∃ k, k < fuel ∧ (∀ more, constLoop write cap (k + (more + 1)) remain b r = e.rest write cap more) ∧ ∀ rem b' r', e = .yield rem b' r' → budget ≤ k) ∧
      ∀ rem b' r', e = .pending rem b' r' → r'.flat = [] ∧ r'.fin = .silent := by
  induction fuel generalizing budget remain b r with
  | zero => simp [bodyTurn] at h
  | succ fuel ih =>
    simp only [bodyTurn] at h
    split at h
    · rename_i hc
      simp only [Option.some.injEq] at h
      subst h
      have : readCost tls r ≤ 1 := readCost_le tls r
      exact ⟨⟨0, by omega, fun more => by simp [TurnEnd.rest], fun _ _ _ _ => by omega⟩, nofun⟩
    · split at h
      · rename_i hread
        simp only [Option.some.injEq] at h
        subst h
        refine ⟨⟨0, by omega, fun more => by simp [TurnEnd.rest], nofun⟩, fun rem b' r' he => ?_⟩
        cases he
        exact read_wait hread
      · rename_i hread
        simp only [Option.some.injEq] at h
        subst h
        refine ⟨⟨0, by omega, fun more => ?_, nofun⟩, nofun⟩
        simp only [Nat.zero_add, constLoop, hread, Reader.IoStop.code, TurnEnd.rest]
      · rename_i data r' hread
        split at h
        · rename_i hw
          simp only [Option.some.injEq] at h
          subst h
          refine ⟨⟨0, by omega, fun more => ?_, nofun⟩, nofun⟩
          simp only [Nat.zero_add, constLoop, hread, hw, TurnEnd.rest]
        · rename_i b' hw
          split at h
          · rename_i hd
            simp only [Option.some.injEq] at h
            subst h
            refine ⟨⟨0, by omega, fun more => ?_, nofun⟩, nofun⟩
            simp only [Nat.zero_add, constLoop, hread, hw, if_pos hd, TurnEnd.rest]
          · rename_i hd
            obtain ⟨⟨k, hk, hkf, hy⟩, hp⟩ := ih _ _ _ _ h
            have : readCost tls r ≤ 1 := readCost_le tls r
            refine ⟨⟨k + 1, by omega, fun more => ?_, fun rem b' r' he => by have := hy rem b' r' he; omega⟩, hp⟩
            rw [← hkf more]
            have : k + 1 + (more + 1) = (k + (more + 1)) + 1 := by omega
            rw [this]
            simp only [constLoop, hread, hw, if_neg hd]

/-- **C218**, what holds for one turn: over TCP, and over TLS unless the client has left in the middle of the body, the turn of a task that reads a body ends. The number of times it goes
round is bounded by what is in the buffer and by the number of reads it has the budget for, each with what one read can bring - however much the client sends. It is left in the state from
which the loop goes on as if it had not been interrupted. It waits only if everything that has arrived has been read, and makes way for others with work left to do only when its budget is used up. Missing from C218: TLS and a client that has left. -/
theorem C218_turn_partial (write : Body K → Bytes → Body.Out (Body K)) (cap : Nat) (hcap : 1 ≤ cap) (tls : Bool) (budget remain : Nat) (b : Body K) (r : Reader)
    (most : Nat) (hm : ∀ s ∈ r.segs, s.bytes.length ≤ most) (hr : 1 ≤ remain) (hok : tls = false ∨ r.fin ≠ .eof ∨ remain ≤ r.flat.length) :
    ∃ e, bodyTurn write cap tls (r.buf.length + budget * (most + 1) + 1) budget remain b r = some e ∧
      (∃ k, k ≤ r.buf.length + budget * (most + 1) ∧ (∀ more, constLoop write cap (k + (more + 1)) remain b r = e.rest write cap more) ∧
        ∀ rem b' r', e = .yield rem b' r' → budget ≤ k) ∧
      ∀ rem b' r', e = .pending rem b' r' → r'.flat = [] ∧ r'.fin = .silent := by
  obtain ⟨e, he⟩ := bodyTurn_ends write cap hcap tls most (r.buf.length + budget * (most + 1) + 1) budget remain b r hm hr hok (by simp [turnBound])
  obtain ⟨⟨k, hk, hkf, hy⟩, hp⟩ := bodyTurn_rest write cap tls _ _ _ _ _ _ he
  exact ⟨e, he, ⟨k, by omega, hkf, hy⟩, hp⟩

theorem bodyTurn_endless (cap : Nat) (hcap : 1 ≤ cap) (fuel budget remain : Nat) (b : Body K) (x : Bytes) (hb : b.internal = some x) (r : Reader)
    (hs : r.segs.length ≤ budget) (hlt : r.flat.length < remain) (hfin : r.fin = .eof) : bodyTurn Body.writeRaw cap true fuel budget remain b r = none := by
  induction fuel generalizing budget remain b x r with
  | zero => rfl
  | succ fuel ih =>
    simp only [bodyTurn]
    generalize (if remain < cap then remain else cap) = n
    obtain ⟨buf, segs, fin⟩ := r
    simp only at hfin
    subst hfin
    cases buf with
    | cons c cs =>
      have hcost : readCost true ⟨c :: cs, segs, .eof⟩ = 0 := by simp [readCost]
      rw [hcost, if_neg (by omega), read_buffered]
      simp only [Body.writeRaw, hb]
      have hlt' := hlt
      simp only [Reader.flat, List.length_append, List.length_cons] at hlt'
      rw [if_neg (by simp only [List.length_take, List.length_cons]; omega)]
      refine ih _ _ _ _ rfl _ hs ?_ rfl
      simp only [Reader.flat, List.length_append, List.length_drop, List.length_take, List.length_cons]
      omega
    | nil =>
      cases segs with
      | cons s ss =>
        have hcost : readCost true ⟨[], s :: ss, .eof⟩ = 1 := by simp [readCost]
        simp only [List.length_cons] at hs
        rw [hcost, if_neg (by omega), read_segment]
        simp only [Body.writeRaw, hb]
        have hlt' := hlt
        simp only [Reader.flat, List.map_cons, List.flatten_cons, List.nil_append, List.length_append] at hlt'
        rw [if_neg (by simp only [List.length_take]; omega)]
        refine ih _ _ _ _ rfl _ (show ss.length ≤ budget - 1 by omega) ?_ rfl
        simp only [Reader.flat, List.length_append, List.length_drop, List.length_take]
        omega
      | nil =>
        have hcost : readCost true ⟨[], [], .eof⟩ = 0 := by simp [readCost]
        rw [hcost, if_neg (by omega), read_closed]
        simp only [Body.writeRaw, hb, List.append_nil, List.length_nil, Nat.sub_zero]
        rw [if_neg (by omega)]
        exact ih _ _ _ _ rfl _ hs hlt rfl

/-- **C218**, negation for the code as written: over TLS, a turn in which a task meets the end of the stream in the middle of a body never ends. -/
theorem C218_endless_violated (cap : Nat) (hcap : 1 ≤ cap) (budget remain : Nat) (b : Body K) (x : Bytes) (hb : b.internal = some x) (r : Reader)
    (hs : r.segs.length ≤ budget) (hlt : r.flat.length < remain) (hfin : r.fin = .eof) :
    ∀ fuel, bodyTurn Body.writeRaw cap true fuel budget remain b r = none :=
  fun fuel => bodyTurn_endless cap hcap fuel budget remain b x hb r hs hlt hfin

/-! ## Which connections have such a turn -/

theorem hang_eof (c : Codec K) (lim : HttpLimits) (env : Nat → Env K) (fuel i : Nat) (req resp : Message K) (r : Reader)
    (h : (serveLoop c lim env fuel i req resp r).2 = .hang) : r.fin = .eof := by
  induction fuel generalizing i req resp r with
  | zero => simp [serveLoop] at h
  | succ fuel ih =>
    simp only [serveLoop] at h
    split at h
    · rename_i e _
      cases e <;> simp [headEnding] at h
    · rename_i head r1 hh
      have hfin := (readHead_ok hh).2
      split at h
      · rename_i e _
        cases e <;> simp [bodyEnding] at h
      · simp at h
      · rename_i hbody
        unfold readConstLengthBody at hbody
        split at hbody
        · rename_i n _
          cases hb : req.body.internal with
          | none =>
            rw [readConst_nobuf _ _ _ _ hb] at hbody
            split at hbody
            · cases hbody
            · split at hbody <;> cases hbody
          | some x =>
            rcases readConst_raw (env i).cap n req.body x r1 (env i).cap_pos hb with ⟨_, q, g2, _⟩ | ⟨_, _, g3⟩ | ⟨_, g2, _⟩
            · rw [g2] at hbody; cases hbody
            · rw [g3] at hbody; cases hbody
            · rw [← hfin]; exact g2
        · cases hbody
      · rename_i body r2 hbody
        have hfin2 : r2.fin = r1.fin := by
          unfold readConstLengthBody at hbody
          split at hbody
          · exact (readConst_done (env i).cap_pos hbody).2.2.1
          · cases hbody
        split at h
        · simp at h
        · simp at h
        · split at h
          · simp at h
          · split at h
            · rename_i st _
              cases st <;> simp [writeEnding] at h
            · split at h
              · have := ih _ _ _ _ h
                rw [← hfin, ← hfin2]; exact this
              · simp at h
              · simp at h
              · simp at h

theorem connection_ending {C : Type} (x : World C K) (s : ServiceConfig) (hbuf : s.tcp.readBuf ≤ isizeMax ∧ s.tcp.buf ≤ isizeMax) (v : Served) :
    ∃ E : Nat → Env K, (s.connection x v).ending =
      (serveLoop x.codec s.http.limits E ((x.client v.id).flat.length + 1) 0 Message.new Message.new (x.client v.id)).2 := by
  unfold ServiceConfig.connection
  rw [if_neg (by omega)]
  simp only
  unfold serveW
  obtain ⟨outs, _, href⟩ := serveLoopW_refines x.codec s.http.limits (fun j =>
      { http := s.service.kind.http, cap := x.cap v.id j + 1, cap_pos := Nat.le_add_left 1 _, write := .ok, ord := x.ord v.id j })
      ((x.client v.id).flat.length + 1) 0 Message.new Message.new (x.client v.id) { cap := s.tcp.readBuf, buf := [], sock := Sock.new (x.plan v.id) } rfl
  exact ⟨_, (href _ (fun j _ => rfl)).2.1⟩

theorem leaves_spins {C : Type} (x : World C K) (s : ServiceConfig) (hbuf : s.tcp.readBuf ≤ isizeMax ∧ s.tcp.buf ≤ isizeMax) (c : Nat)
    (h : LeavesInBody s.http.limits (x.client c)) : s.spins x true c := by
  refine ⟨rfl, ?_⟩
  obtain ⟨E, hE⟩ := connection_ending x s hbuf ⟨c, true, !true⟩
  rw [hE]
  obtain ⟨w, v, n, part, hw, hv, hn, h64, hr, hlt, hfin⟩ := h
  rw [C15_short_body_partial x.codec s.http.limits E _ 0 w hw v n hv hn h64 Message.new Message.new Head.blank_new Body.plain_new (x.client c) part hr hlt, hfin]

theorem spins_left {C : Type} (x : World C K) (s : ServiceConfig) (tls : Bool) (c : Nat) (h : s.spins x tls c) :
    tls = true ∧ (x.client c).fin = .eof := by
  refine ⟨h.1, ?_⟩
  by_cases hbuf : isizeMax < s.tcp.readBuf ∨ isizeMax < s.tcp.buf
  · have h2 := h.2
    unfold ServiceConfig.connection at h2
    rw [if_pos hbuf] at h2
    cases h2
  · obtain ⟨E, hE⟩ := connection_ending x s (by omega) ⟨c, tls, !tls⟩
    exact hang_eof _ _ _ _ _ _ _ _ (hE.symm.trans h.2)

/-! ## The workers -/

variable {workers : Nat} {spins : Nat → Prop}

theorem PoolRun.trans {s t u : Pool} {tr tr' : List PoolAct} (h : PoolRun workers spins s tr t) (h' : PoolRun workers spins t tr' u) :
    PoolRun workers spins s (tr ++ tr') u := by
  induction h' with
  | nil => simpa using h
  | snoc _ hs ih => rw [← List.append_assoc]; exact .snoc ih hs

theorem PoolRun.one {s t : Pool} {a : PoolAct} (h : PoolStep workers spins s a t) : PoolRun workers spins s [a] t := .snoc .nil h

theorem busy_set (s : Pool) (i : Nat) (k k' : Role) (t t' : Turn) (h : s.tasks[i]? = some (k, t)) :
    (⟨s.tasks.set i (k', t'), s.closed⟩ : Pool).busy + (if t.busy then 1 else 0) = s.busy + (if t'.busy then 1 else 0) := by
  obtain ⟨hi, hg⟩ := List.getElem?_eq_some_iff.mp h
  simp only [Pool.busy]
  rw [List.countP_set hi, hg]
  have : t.busy = true → 0 < s.tasks.countP (fun t => t.2.busy) := fun ht =>
    List.countP_pos_iff.mpr ⟨(k, t), by rw [← hg]; exact List.getElem_mem hi, ht⟩
  by_cases h1 : t.busy = true
  · have := this h1
    simp only [h1, if_true]
    omega
  · simp only [h1]
    simp

theorem mem_set_tasks {l : List (Role × Turn)} {i : Nat} {a t : Role × Turn} (h : t ∈ l.set i a) : t ∈ l ∨ t = a := by
  rcases List.mem_or_eq_of_mem_set h with h | h
  · exact .inl h
  · exact .inr h

/-- What is so at every moment. -/
theorem pool_inv {n : Nat} {tr : List PoolAct} {s : Pool} (h : PoolRun workers spins (.start n) tr s) :
    s.busy ≤ workers ∧ ∀ t ∈ s.tasks, t.2 = .spinning → ∃ c, t.1 = .conn c ∧ c ∈ s.closed ∧ spins c := by
  induction h with
  | nil =>
    refine ⟨?_, fun t ht => ?_⟩
    · have : (Pool.start n).busy = 0 := by
        simp only [Pool.busy, Pool.start, List.countP_eq_zero]
        intro t ht
        obtain ⟨i, _, rfl⟩ := List.mem_map.mp ht
        simp [Turn.busy]
      omega
    · obtain ⟨i, _, rfl⟩ := List.mem_map.mp ht
      intro h; cases h
  | @snoc tr s1 s2 a _ hs ih =>
    obtain ⟨i1, i2⟩ := ih
    have sp : ∀ (i : Nat) (k : Role) (t : Turn), t ≠ .spinning → ∀ u ∈ s1.tasks.set i (k, t), u.2 = .spinning → ∃ c, u.1 = .conn c ∧ c ∈ s1.closed ∧ spins c := by
      intro i k t ht u hu he
      rcases mem_set_tasks hu with hu | rfl
      · exact i2 u hu he
      · exact absurd he ht
    cases hs with
    | wake i k hi => exact ⟨by have := busy_set s1 i k k _ .ready hi; simp [Turn.busy] at this; omega, sp _ _ _ (by simp)⟩
    | close c hc => exact ⟨i1, fun t ht he => by obtain ⟨d, h1, h2, h3⟩ := i2 t ht he; exact ⟨d, h1, by simp [h2], h3⟩⟩
    | start i k hi hb => exact ⟨by have := busy_set s1 i k k _ .running hi; simp [Turn.busy] at this; omega, sp _ _ _ (by simp)⟩
    | accept i c j hi hn =>
      refine ⟨?_, fun t ht he => ?_⟩
      · have : (⟨s1.tasks ++ [(.conn c, .ready)], s1.closed⟩ : Pool).busy = s1.busy := by simp [Pool.busy, Turn.busy]
        omega
      · rcases List.mem_append.mp ht with ht | ht
        · exact i2 t ht he
        · simp only [List.mem_singleton] at ht
          subst ht; cases he
    | stop i k t hi hb hq =>
      refine ⟨by have := busy_set s1 i k k _ t hi; rw [hb] at this; simp only [Turn.busy, if_true] at this; simp at this; omega, sp _ _ _ ?_⟩
      rintro rfl; cases hb
    | spin i c hi hc hsp =>
      refine ⟨by have := busy_set s1 i (.conn c) (.conn c) _ .spinning hi; simp [Turn.busy] at this; omega, fun t ht he => ?_⟩
      rcases mem_set_tasks ht with ht | rfl
      · exact i2 t ht he
      · exact ⟨c, rfl, hc, hsp⟩

/-- **C218**, what holds for the tasks together, in every execution with both services and any clients: a task that keeps a worker to itself is that of a connection over TLS whose client has
left. As long as there are fewer of them than workers, every task that is ready gets its turn when at most one other task has ended its turn. Without TLS there are none, so that this is always so.
Missing from C218: as many of them as there are workers (`C218_frozen_violated`). -/
theorem C218_workers_partial {C : Type} (x : World C K) (s : ServiceConfig) (tls : Bool) (n : Nat) (tr : List PoolAct) (p : Pool)
    (h : PoolRun workers (s.spins x tls) (.start n) tr p) :
    (∀ t ∈ p.tasks, t.2 = .spinning → tls = true ∧ ∃ c, t.1 = .conn c ∧ c ∈ p.closed ∧ (x.client c).fin = .eof) ∧
    (∀ (i : Nat) k, p.tasks[i]? = some (k, .ready) → p.tasks.countP (fun t => t.2 = .spinning) < workers →
      (∃ p', PoolStep workers (s.spins x tls) p (.start i) p') ∨
      ∃ j p' p'', PoolStep workers (s.spins x tls) p (.stop j .ready) p' ∧ PoolStep workers (s.spins x tls) p' (.start i) p'') ∧
    (tls = false → p.tasks.countP (fun t => t.2 = .spinning) = 0) := by
  obtain ⟨i1, i2⟩ := pool_inv h
  have hspin : ∀ t ∈ p.tasks, t.2 = .spinning → tls = true ∧ ∃ c, t.1 = .conn c ∧ c ∈ p.closed ∧ (x.client c).fin = .eof := by
    intro t ht he
    obtain ⟨c, h1, h2, h3⟩ := i2 t ht he
    have := spins_left x s tls c h3
    exact ⟨this.1, c, h1, h2, this.2⟩
  refine ⟨hspin, ?_, ?_⟩
  · intro i k hi hlt
    by_cases hb : p.busy < workers
    · exact .inl ⟨_, .start _ i k hi hb⟩
    · right
      have hrun : ∃ t ∈ p.tasks, t.2 = .running := by
        refine Classical.byContradiction fun hno => ?_
        have : p.busy ≤ p.tasks.countP (fun t => t.2 = .spinning) := by
          apply List.countP_mono_left
          intro t ht hbt
          have hne : t.2 ≠ .running := fun he => hno ⟨t, ht, he⟩
          revert hbt hne
          cases t.2 <;> simp [Turn.busy]
        omega
      obtain ⟨⟨kj, tj⟩, hj, hjr⟩ := hrun
      simp only at hjr
      subst hjr
      obtain ⟨j, hj⟩ := List.mem_iff_getElem?.mp hj
      have hij : i ≠ j := by
        rintro rfl
        rw [hi] at hj
        cases hj
      refine ⟨j, _, _, .stop p j kj .ready hj rfl (fun _ _ _ _ => rfl), .start _ i k ?_ ?_⟩
      · simp only
        rw [List.getElem?_set_ne (by omega)]
        exact hi
      · have := busy_set p j kj kj _ .ready hj
        simp [Turn.busy] at this
        omega
  · intro ht
    rw [List.countP_eq_zero]
    intro t hm he
    have := (hspin t hm (by simpa using he)).1
    rw [ht] at this
    cases this

/-- Every worker has a task that goes round for ever. -/
def Pool.Frozen (workers : Nat) (s : Pool) : Prop := workers ≤ s.busy ∧ ∀ t ∈ s.tasks, t.2 ≠ .running

theorem frozen_step {s t : Pool} {a : PoolAct} (hf : s.Frozen workers) (h : PoolStep workers spins s a t) :
    t.Frozen workers ∧ ((∃ i, a = .wake i) ∨ ∃ c, a = .close c) ∧
    ∀ (i : Nat) k u, s.tasks[i]? = some (k, u) → u ≠ .over → ∃ u', t.tasks[i]? = some (k, u') ∧ u' ≠ .over := by
  obtain ⟨h1, h2⟩ := hf
  have no : ∀ {i : Nat} {k : Role}, s.tasks[i]? ≠ some (k, .running) := fun {i k} hi => h2 _ (List.mem_of_getElem? hi) rfl
  cases h with
  | wake i k hi =>
    refine ⟨⟨?_, fun t ht => ?_⟩, .inl ⟨i, rfl⟩, ?_⟩
    · have := busy_set s i k k _ .ready hi
      simp [Turn.busy] at this
      omega
    · rcases mem_set_tasks ht with ht | rfl
      · exact h2 t ht
      · simp
    · intro j k' u hj hu
      by_cases e : i = j
      · subst e
        rw [hi] at hj
        cases hj
        refine ⟨.ready, ?_, by simp⟩
        have hlt := (List.getElem?_eq_some_iff.mp hi).1
        simp [hlt]
      · exact ⟨u, by simp only; rw [List.getElem?_set_ne (by omega)]; exact hj, hu⟩
  | close c _ => exact ⟨⟨h1, h2⟩, .inr ⟨c, rfl⟩, fun i k u hi hu => ⟨u, hi, hu⟩⟩
  | start i k hi hb => omega
  | accept i c j hi _ => exact absurd hi no
  | stop i k t hi _ _ => exact absurd hi no
  | spin i c hi _ _ => exact absurd hi no

theorem frozen_run {s t : Pool} {tr : List PoolAct} (hf : s.Frozen workers) (h : PoolRun workers spins s tr t) :
    t.Frozen workers ∧ (∀ a ∈ tr, (∃ i, a = .wake i) ∨ ∃ c, a = .close c) ∧
    ∀ (i : Nat) k u, s.tasks[i]? = some (k, u) → u ≠ .over → ∃ u', t.tasks[i]? = some (k, u') ∧ u' ≠ .over := by
  induction h with
  | nil => exact ⟨hf, by simp, fun i k u hi hu => ⟨u, hi, hu⟩⟩
  | snoc _ hs ih =>
    obtain ⟨i1, i2, i3⟩ := ih
    obtain ⟨j1, j2, j3⟩ := frozen_step i1 hs
    refine ⟨j1, fun a ha => ?_, fun i k u hi hu => ?_⟩
    · rcases List.mem_append.mp ha with ha | ha
      · exact i2 a ha
      · simp only [List.mem_singleton] at ha
        subst ha; exact j2
    · obtain ⟨u', h1, h2⟩ := i3 i k u hi hu
      exact j3 i k u' h1 h2

/-- The tasks of the services, the first of which waits. -/
def serviceTasks (m : Nat) : List (Role × Turn) := (.service 0, .waiting) :: ((List.range m).map (fun i => (.service (i + 1), .ready)))

/-- After `k` clients. -/
def stuckPool (m k : Nat) : Pool := ⟨serviceTasks m ++ (List.range k).map (fun c => (.conn c, .spinning)), List.range k⟩

/-- What happens for one client. -/
def stickOne (m k : Nat) : List PoolAct := [.wake 0, .start 0, .accept 0 k, .stop 0 .waiting, .close k, .start (m + 1 + k), .spin (m + 1 + k)]

/-- What happens for `k` clients. -/
def stickAll (m : Nat) : Nat → List PoolAct
  | 0 => [.start 0, .stop 0 .waiting]
  | k + 1 => stickAll m k ++ stickOne m k

theorem stuck_busy (m k : Nat) : (stuckPool m k).busy = k := by
  have h1 : (serviceTasks m).countP (fun t => t.2.busy) = 0 := by
    rw [List.countP_eq_zero]
    intro t ht
    simp only [serviceTasks, List.mem_cons, List.mem_map] at ht
    rcases ht with rfl | ⟨i, _, rfl⟩ <;> simp [Turn.busy]
  have h2 : ((List.range k).map (fun c => ((.conn c, .spinning) : Role × Turn))).countP (fun t => t.2.busy) = k := by
    rw [List.countP_eq_length.mpr]
    · simp
    · intro t ht
      obtain ⟨c, _, rfl⟩ := List.mem_map.mp ht
      rfl
  simp only [Pool.busy, stuckPool, List.countP_append, h1, h2, Nat.zero_add]

theorem stick_run (m k : Nat) (hk : k ≤ workers) (hw : 1 ≤ workers) (hs : ∀ c, c < k → spins c) :
    PoolRun workers spins (.start (m + 1)) (stickAll m k) (stuckPool m k) := by
  induction k with
  | zero =>
    have e : Pool.start (m + 1) = ⟨(.service 0, .ready) :: ((List.range m).map (fun i => (.service (i + 1), .ready))), []⟩ := by
      simp [Pool.start, List.range_succ_eq_map, Function.comp_def]
    have b0 : (Pool.start (m + 1)).busy = 0 := by
      simp only [Pool.busy, Pool.start, List.countP_eq_zero]
      intro t ht
      obtain ⟨i, _, rfl⟩ := List.mem_map.mp ht
      simp [Turn.busy]
    refine .snoc (.one (.start _ 0 (.service 0) (by rw [e]; rfl) (by omega))) ?_
    rw [e]
    have := PoolStep.stop (workers := workers) (spins := spins)
      ⟨(.service 0, .running) :: ((List.range m).map (fun i => (.service (i + 1), .ready))), []⟩ 0 (.service 0) .waiting rfl rfl (fun c h => by cases h)
    simpa [stuckPool, serviceTasks] using this
  | succ k ih =>
    refine (ih (by omega) (fun c h => hs c (by omega))).trans ?_
    have hb := stuck_busy m k
    have s1 : PoolStep workers spins (stuckPool m k) (.wake 0)
        ⟨(.service 0, .ready) :: ((List.range m).map (fun i => (.service (i + 1), .ready))) ++ (List.range k).map (fun c => (.conn c, .spinning)), List.range k⟩ :=
      .wake (stuckPool m k) 0 (.service 0) rfl
    have b1 : (⟨(.service 0, .ready) :: ((List.range m).map (fun i => (.service (i + 1), .ready))) ++ (List.range k).map (fun c => (.conn c, .spinning)), List.range k⟩ : Pool).busy = k := by
      have := busy_set (stuckPool m k) 0 (.service 0) (.service 0) .waiting .ready rfl
      simp only [Turn.busy] at this
      exact Eq.trans this hb
    have s2 : PoolStep workers spins
        ⟨(.service 0, .ready) :: ((List.range m).map (fun i => (.service (i + 1), .ready))) ++ (List.range k).map (fun c => (.conn c, .spinning)), List.range k⟩ (.start 0)
        ⟨(.service 0, .running) :: ((List.range m).map (fun i => (.service (i + 1), .ready))) ++ (List.range k).map (fun c => (.conn c, .spinning)), List.range k⟩ :=
      .start _ 0 (.service 0) rfl (by omega)
    have s3 : PoolStep workers spins
        ⟨(.service 0, .running) :: ((List.range m).map (fun i => (.service (i + 1), .ready))) ++ (List.range k).map (fun c => (.conn c, .spinning)), List.range k⟩ (.accept 0 k)
        ⟨(.service 0, .running) :: ((List.range m).map (fun i => (.service (i + 1), .ready))) ++ (List.range k).map (fun c => (.conn c, .spinning)) ++ [(.conn k, .ready)], List.range k⟩ :=
      .accept _ 0 k 0 rfl (by
        intro t ht
        simp only [List.mem_append, List.mem_cons, List.mem_map, List.mem_range] at ht
        rcases ht with (rfl | ⟨i, _, rfl⟩) | ⟨c, hc, rfl⟩
        · simp
        · simp
        · simp only [ne_eq, Role.conn.injEq]; omega)
    have s4 : PoolStep workers spins
        ⟨(.service 0, .running) :: ((List.range m).map (fun i => (.service (i + 1), .ready))) ++ (List.range k).map (fun c => (.conn c, .spinning)) ++ [(.conn k, .ready)], List.range k⟩
        (.stop 0 .waiting) ⟨(stuckPool m k).tasks ++ [(.conn k, .ready)], List.range k⟩ :=
      .stop _ 0 (.service 0) .waiting rfl rfl (fun c h => by cases h)
    have s5 : PoolStep workers spins ⟨(stuckPool m k).tasks ++ [(.conn k, .ready)], List.range k⟩ (.close k)
        ⟨(stuckPool m k).tasks ++ [(.conn k, .ready)], List.range k ++ [k]⟩ :=
      .close _ k (by simp)
    have hlen : (stuckPool m k).tasks.length = m + 1 + k := by simp [stuckPool, serviceTasks]; omega
    have s6 : PoolStep workers spins ⟨(stuckPool m k).tasks ++ [(.conn k, .ready)], List.range k ++ [k]⟩ (.start (m + 1 + k))
        ⟨(stuckPool m k).tasks ++ [(.conn k, .running)], List.range k ++ [k]⟩ := by
      have := PoolStep.start (workers := workers) (spins := spins) ⟨(stuckPool m k).tasks ++ [(.conn k, .ready)], List.range k ++ [k]⟩ (m + 1 + k) (.conn k)
        (by rw [← hlen]; simp) (by
          have : (⟨(stuckPool m k).tasks ++ [(.conn k, .ready)], List.range k ++ [k]⟩ : Pool).busy = (stuckPool m k).busy := by simp [Pool.busy, Turn.busy]
          omega)
      rw [← hlen] at this ⊢
      simpa using this
    have s7 : PoolStep workers spins ⟨(stuckPool m k).tasks ++ [(.conn k, .running)], List.range k ++ [k]⟩ (.spin (m + 1 + k))
        ⟨(stuckPool m k).tasks ++ [(.conn k, .spinning)], List.range k ++ [k]⟩ := by
      have := PoolStep.spin (workers := workers) (spins := spins) ⟨(stuckPool m k).tasks ++ [(.conn k, .running)], List.range k ++ [k]⟩ (m + 1 + k) k
        (by rw [← hlen]; simp) (by simp) (hs k (by omega))
      rw [← hlen] at this ⊢
      simpa using this
    have e : stuckPool m (k + 1) = ⟨(stuckPool m k).tasks ++ [(.conn k, .spinning)], List.range k ++ [k]⟩ := by
      simp [stuckPool, List.range_succ]
    rw [e]
    exact (((((((PoolRun.one s1).trans (.one s2)).trans (.one s3)).trans (.one s4)).trans (.one s5)).trans (.one s6)).trans (.one s7))

/-- **C218**, negation for the code as written: whatever the service, its limits, the other services of the process and the number of workers - as many clients as there are workers, each of which
does the handshake, announces more of a body than it sends and leaves, are enough (one, in per-core mode). From then on, whatever happens, no task gets a turn any more: nobody is accepted, of any
service, no answer is sent on any connection, and no service ends, not even after Ctrl-C. -/
theorem C218_frozen_violated {C : Type} (x : World C K) (s : ServiceConfig) (hbuf : s.tcp.readBuf ≤ isizeMax ∧ s.tcp.buf ≤ isizeMax) (hw : 1 ≤ workers) (n : Nat) (hn : 1 ≤ n)
    (hc : ∀ c, c < workers → LeavesInBody s.http.limits (x.client c)) :
    ∃ tr p, PoolRun workers (s.spins x true) (.start n) tr p ∧ (∀ c, PoolAct.close c ∈ tr ↔ c < workers) ∧
      ∀ tr' p', PoolRun workers (s.spins x true) p tr' p' →
        (∀ a ∈ tr', (∃ i, a = .wake i) ∨ ∃ c, a = .close c) ∧
        ∀ i, i < n → ∃ t, p'.tasks[i]? = some (.service i, t) ∧ t ≠ .over := by
  obtain ⟨m, rfl⟩ : ∃ m, n = m + 1 := ⟨n - 1, by omega⟩
  refine ⟨_, _, stick_run m workers (Nat.le_refl _) hw (fun c h => leaves_spins x s hbuf c (hc c h)), ?_, ?_⟩
  · intro c
    generalize workers = w
    induction w with
    | zero => simp [stickAll]
    | succ w ih =>
      simp only [stickAll, List.mem_append, ih, stickOne, List.mem_cons, PoolAct.close.injEq]
      simp
      omega
  · intro tr' p' h
    have hf : (stuckPool m workers).Frozen workers := by
      refine ⟨by rw [stuck_busy]; exact Nat.le_refl _, fun t ht => ?_⟩
      simp only [stuckPool, serviceTasks, List.mem_append, List.mem_cons, List.mem_map] at ht
      rcases ht with (rfl | ⟨i, _, rfl⟩) | ⟨c, _, rfl⟩ <;> simp
    obtain ⟨_, h2, h3⟩ := frozen_run hf h
    refine ⟨h2, fun i hi => ?_⟩
    have : ∃ t, (stuckPool m workers).tasks[i]? = some (.service i, t) ∧ t ≠ .over := by
      cases i with
      | zero => exact ⟨.waiting, rfl, by simp⟩
      | succ i =>
        refine ⟨.ready, ?_, by simp⟩
        have hi' : i < m := by omega
        simp [stuckPool, serviceTasks, List.getElem?_append, hi']
    obtain ⟨t, ht, hne⟩ := this
    exact h3 i _ t ht hne

/-! ## Cases meeting the hypotheses -/

/-- Over TCP the turn of a client that has left after three of five bytes ends when the budget is used up, with two bytes missing. -/
example : (match bodyTurn Body.writeRaw 4 false 200 128 5 (Body.new : Body Unit) (Reader.ofBytes b!"bod" .eof) with
    | some (.yield n _ _) => some n | _ => none) = some 2 := by decide +kernel

/-- The same over TLS goes on. -/
example : (bodyTurn Body.writeRaw 4 true 1000 128 5 (Body.new : Body Unit) (Reader.ofBytes b!"bod" .eof)).isNone = true := by decide +kernel

/-- A client that is still there is waited for. -/
example : (match bodyTurn Body.writeRaw 4 true 200 128 5 (Body.new : Body Unit) (Reader.ofBytes b!"bod" .silent) with
    | some (.pending n _ _) => some n | _ => none) = some 2 := by decide +kernel

example : LeavesInBody sampleLimits (Reader.ofBytes (sampleReq.head.encode ++ b!"bod") .eof) :=
  ⟨sampleReq.head, b!"4", 4, b!"bod", sampleReq_wf.1, by decide +kernel, ((parseUInt_iff 10 _ _).mp (by decide +kernel)).1, by decide, by decide +kernel, by decide, rfl⟩

/-- One worker and two services: the task of the connection has the worker, those of the services are ready and waiting. -/
example : PoolRun 1 (fun c => c = 0) (.start 2) [.start 0, .stop 0 .waiting, .wake 0, .start 0, .accept 0 0, .stop 0 .waiting, .close 0, .start 2, .spin 2]
    ⟨[(.service 0, .waiting), (.service 1, .ready), (.conn 0, .spinning)], [0]⟩ :=
  stick_run 1 1 (by decide) (by decide) (fun c h => by omega)

/-- With two workers the second service goes on. -/
example : PoolRun 2 (fun c => c = 0) ⟨[(.service 0, .waiting), (.service 1, .ready), (.conn 0, .spinning)], [0]⟩ [.start 1, .accept 1 7, .stop 1 .waiting, .start 3, .stop 3 .over]
    ⟨[(.service 0, .waiting), (.service 1, .waiting), (.conn 0, .spinning), (.conn 7, .over)], [0]⟩ := by
  refine .snoc (.snoc (.snoc (.snoc (.snoc .nil (.start _ 1 (.service 1) rfl (by decide))) (.accept _ 1 7 1 rfl (by decide))) (.stop _ 1 (.service 1) .waiting rfl rfl
    (fun c h => by cases h))) (.start _ 3 (.conn 7) rfl (by decide))) ?_
  exact .stop _ 3 (.conn 7) .over rfl rfl (fun c h hc => by cases h; simp at hc)

end Httpd
