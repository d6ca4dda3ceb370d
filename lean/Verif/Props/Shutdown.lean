import Verif.Props.Main
import Verif.Model.Shutdown
/-! # C107–C109: Ctrl-C and the end of the process -/

namespace Httpd

theorem ProcRun.trans {s t u : Proc} {a b : List ProcAct} (h1 : ProcRun s a t) (h2 : ProcRun t b u) : ProcRun s (a ++ b) u := by
  induction h2 with
  | nil => simpa using h1
  | snoc _ hs ih => rw [← List.append_assoc]; exact .snoc ih hs

theorem ProcRun.one {s t : Proc} {a : ProcAct} (h : ProcStep s a t) : ProcRun s [a] t := by
  have := ProcRun.snoc (.nil s) h
  simpa using this

/-- Facts about every reachable state. -/
structure Proc.Inv (n : Nat) (s : Proc) : Prop where
  count : s.loops.length = n
  aborted : s.returned = false → ∀ c ∈ s.conns, c ≠ .aborted
  ended : s.returned = true → (∀ l ∈ s.loops, l = .ended) ∧ ∀ c ∈ s.conns, c ≠ .open
  installed : s.installed = false → ∀ l ∈ s.loops, l = .fresh

theorem proc_inv {n : Nat} {s : Proc} {tr : List ProcAct} (h : ProcRun (.start n) tr s) : s.Inv n := by
  generalize ha : Proc.start n = a at h
  induction h with
  | nil =>
    subst ha
    exact ⟨by simp [Proc.start], by simp [Proc.start], by simp [Proc.start], fun _ l hl => List.eq_of_mem_replicate hl⟩
  | snoc _ hstep ih =>
    have hi := ih
    have absurdR : ∀ {s : Proc} {P : Prop}, s.alive → s.returned = true → P := by
      intro s P h1 h2
      rw [h1.1] at h2; exact absurd h2 (by decide)
    cases hstep with
    | arm i hal hl =>
      exact ⟨by simpa using hi.count, hi.aborted, fun hr => absurdR hal hr, fun h => absurd h (by simp)⟩
    | accept i l hal hl hne =>
      refine ⟨by simpa using hi.count, ?_, fun hr => ?_, ?_⟩
      · intro hr c hc
        simp only [List.mem_append, List.mem_singleton] at hc
        rcases hc with hc | rfl
        · exact hi.aborted hr c hc
        · decide
      · exact absurdR hal hr
      · intro h l' hl'
        rcases List.mem_or_eq_of_mem_set hl' with h2 | rfl
        · exact hi.installed h l' h2
        · rfl
    | stop i hal hl =>
      refine ⟨by simpa using hi.count, hi.aborted, fun hr => ?_, fun h => ?_⟩
      · exact absurdR hal hr
      · have := hi.installed h _ (List.mem_of_getElem? hl); cases this
    | finish c hal hc =>
      refine ⟨hi.count, ?_, fun hr => ?_, hi.installed⟩
      · intro hr d hd
        rcases List.mem_or_eq_of_mem_set hd with h2 | rfl
        · exact hi.aborted hr d h2
        · decide
      · exact absurdR hal hr
    | sigint hal hin =>
      refine ⟨by simpa using hi.count, hi.aborted, fun hr => ?_, fun h => absurd (hin.symm.trans h) (by decide)⟩
      exact absurdR hal hr
    | kill hal hin =>
      refine ⟨hi.count, hi.aborted, fun hr => ?_, hi.installed⟩
      exact absurdR hal hr
    | ret hal hall =>
      refine ⟨hi.count, fun hr => absurd hr (by simp), fun _ => ⟨hall, ?_⟩, hi.installed⟩
      intro c hc
      simp only [List.mem_map] at hc
      obtain ⟨d, _, rfl⟩ := hc
      cases d <;> decide

/-! ## C107 -/

/-- **C107 is violated.** Whatever has happened so far: if the process is there, tokio's handler is installed and the loop of service `i`
has not ended, Ctrl-C can be lost on it. All it takes is a connection to that service at the same time: afterwards the loop is at the start of
a round as if the signal had never been sent, whether it was waiting for the signal when that arrived or not. -/
theorem C107_lost_signal_violated (n : Nat) (s : Proc) (tr : List ProcAct) (_h : ProcRun (.start n) tr s) (hal : s.alive)
    (hin : s.installed = true) (i : Nat) (l : LoopState) (hi : s.loops[i]? = some l) (hl : l ≠ .ended) :
    ∃ s', ProcRun s [.sigint, .accept i] s' ∧ s'.alive ∧ s'.loops[i]? = some .fresh ∧ s'.conns = s.conns ++ [.open] := by
  have h1 := ProcStep.sigint s hal hin
  have hg : (s.loops.map LoopState.signal)[i]? = some l.signal := by rw [List.getElem?_map, hi]; rfl
  have h2 := ProcStep.accept { s with loops := s.loops.map .signal } i l.signal hal hg (by cases l <;> simp_all [LoopState.signal])
  refine ⟨_, (ProcRun.one h1).trans (.one h2), hal, ?_, rfl⟩
  have hlt : i < s.loops.length := (List.getElem?_eq_some_iff.mp hi).1
  simp only [List.getElem?_set]
  simp [hlt]

/-- **C107 is violated**, any number of times: for every number of services and every `k` there is an execution with `k` Ctrl-Cs after which
every service still runs. -/
theorem C107_any_number_violated (n : Nat) (hn : 1 ≤ n) (k : Nat) :
    ∃ s tr, ProcRun (.start n) tr s ∧ tr.count .sigint = k ∧ s.alive ∧ ∀ l ∈ s.loops, l = .fresh := by
  -- the state after any number of rounds in which service 0 arms and accepts
  have hfresh : ∀ (s : Proc), s.loops = List.replicate n .fresh → s.alive → ∃ s', ProcRun s [.arm 0, .accept 0] s' ∧
      s'.loops = List.replicate n .fresh ∧ s'.installed = true ∧ s'.alive := by
    intro s hs hal
    obtain ⟨m, rfl⟩ : ∃ m, n = m + 1 := ⟨n - 1, by omega⟩
    have h1 := ProcStep.arm s 0 hal (by rw [hs]; rfl)
    have h2 := ProcStep.accept { s with loops := s.loops.set 0 .armed, installed := true } 0 .armed hal
      (by rw [hs]; rfl) (by decide)
    refine ⟨_, (ProcRun.one h1).trans (.one h2), ?_, rfl, hal⟩
    simp only [hs, List.replicate_succ, List.set_cons_zero]
  have hmap : (List.replicate n LoopState.fresh).map LoopState.signal = List.replicate n LoopState.fresh := by simp [LoopState.signal]
  have main : ∀ k, ∃ s tr, ProcRun (.start n) tr s ∧ tr.count .sigint = k ∧ s.alive ∧ s.loops = List.replicate n .fresh ∧
      s.installed = true := by
    intro k
    induction k with
    | zero =>
      obtain ⟨s', h1, h2, h3, h4⟩ := hfresh (.start n) rfl ⟨rfl, rfl⟩
      exact ⟨s', _, h1, by decide, h4, h2, h3⟩
    | succ k ih =>
      obtain ⟨s, tr, h1, h2, h3, h4, h5⟩ := ih
      refine ⟨_, _, .snoc h1 (.sigint s h3 h5), by simp [h2], h3, ?_, h5⟩
      simp only [h4, hmap]
  obtain ⟨s, tr, h1, h2, h3, h4, _⟩ := main k
  exact ⟨s, tr, h1, h2, h3, fun l hl => by rw [h4] at hl; exact List.eq_of_mem_replicate hl⟩

/-- The number of loops that have not ended, plus one if the function has not returned. -/
def Proc.left (s : Proc) : Nat := (s.loops.filter (· ≠ .ended)).length + (if s.returned then 0 else 1)

/-- The actions that bring the process nearer to its end: a loop stops, the function returns. -/
def ProcAct.winds : ProcAct → Bool
  | .stop _ => true
  | .ret => true
  | _ => false

/-- Loops that have seen the signal. -/
def Proc.signalled (s : Proc) : Prop := ∀ l ∈ s.loops, l = .woken ∨ l = .ended

theorem count_set_ended (ls : List LoopState) (i : Nat) (h : ls[i]? = some .woken) :
    ((ls.set i .ended).filter (· ≠ .ended)).length + 1 = (ls.filter (· ≠ .ended)).length := by
  induction ls generalizing i with
  | nil => simp at h
  | cons l ls ih =>
    cases i with
    | zero =>
      simp only [List.getElem?_cons_zero, Option.some.injEq] at h
      subst h
      simp
    | succ i =>
      simp only [List.getElem?_cons_succ] at h
      have := ih i h
      simp only [List.set_cons_succ, List.filter_cons]
      split
      · simp only [List.length_cons]; omega
      · exact this

/-- Without a new connection, a signalled process only winds down. -/
theorem signalled_step {s t : Proc} {a : ProcAct} (hs : s.signalled) (h : ProcStep s a t) (ha : ∀ i, a ≠ .accept i) :
    t.signalled ∧ t.left + (if a.winds then 1 else 0) = s.left := by
  cases h with
  | arm i hal hl => rcases hs _ (List.mem_of_getElem? hl) with h | h <;> cases h
  | accept i l hal hl hne => exact absurd rfl (ha i)
  | stop i hal hl =>
    constructor
    · intro l hl'
      rcases List.mem_or_eq_of_mem_set hl' with h | rfl
      · exact hs l h
      · exact Or.inr rfl
    · have := count_set_ended s.loops i hl
      simp only [Proc.left, ProcAct.winds, if_true]; omega
  | finish c hal hc => exact ⟨hs, by simp [Proc.left, ProcAct.winds]⟩
  | sigint hal hin =>
    have : s.loops.map LoopState.signal = s.loops := by
      conv => rhs; rw [← List.map_id s.loops]
      apply List.map_congr_left
      intro l hl
      rcases hs l hl with rfl | rfl <;> rfl
    refine ⟨by unfold Proc.signalled; simp only [this]; exact hs, ?_⟩
    simp [Proc.left, this, ProcAct.winds]
  | kill hal hin => exact ⟨hs, by simp [Proc.left, ProcAct.winds]⟩
  | ret hal hall =>
    refine ⟨hs, ?_⟩
    simp [Proc.left, hal.1, ProcAct.winds]

/-- **C107 (partial).** If Ctrl-C arrives while every loop that has not ended waits with its receiver registered, and no connection is accepted
afterwards, then in every continuation: each loop has the signal or has ended; as long as the function has not returned, some loop can
stop or the function can return; and at most `n + 1` such actions happen, so nothing else can keep it from ending. Missing: loops that are
between two rounds, and connections that arrive at the same time (`C107_lost_signal_violated`). -/
theorem C107_stops_partial (n : Nat) (s s' t : Proc) (tr tr' : List ProcAct) (h : ProcRun (.start n) tr s)
    (hal : s.alive) (hin : s.installed = true) (hready : ∀ l ∈ s.loops, l = .armed ∨ l = .woken ∨ l = .ended)
    (hsig : ProcStep s .sigint s') (hrun : ProcRun s' tr' t) (hno : ∀ a ∈ tr', ∀ i, a ≠ .accept i) :
    (∀ l ∈ t.loops, l = .woken ∨ l = .ended) ∧ t.killed = false ∧
    (t.returned = true ∨ (∃ i u, ProcStep t (.stop i) u) ∨ ∃ u, ProcStep t .ret u) ∧
    tr'.countP ProcAct.winds + t.left = s'.left ∧ s'.left ≤ n + 1 := by
  have hi := proc_inv h
  have hs' : s'.signalled ∧ s'.left ≤ n + 1 ∧ s'.killed = false ∧ s'.installed = true := by
    cases hsig with
    | sigint _ _ =>
      refine ⟨?_, ?_, hal.2, hin⟩
      · intro l hl
        simp only [List.mem_map] at hl
        obtain ⟨d, hd, rfl⟩ := hl
        rcases hready d hd with rfl | rfl | rfl
        · exact Or.inl rfl
        · exact Or.inl rfl
        · exact Or.inr rfl
      · have h1 := List.length_filter_le (fun l : LoopState => decide (l ≠ .ended)) (s.loops.map LoopState.signal)
        have h2 := hi.count
        simp only [List.length_map] at h1
        simp only [Proc.left]
        split <;> omega
    | kill _ hk => rw [hin] at hk; cases hk
  obtain ⟨hsg, hleft, hk, hin'⟩ := hs'
  have key : t.signalled ∧ t.killed = false ∧ t.installed = true ∧
      tr'.countP ProcAct.winds + t.left = s'.left := by
    induction hrun with
    | nil => exact ⟨hsg, hk, hin', by simp⟩
    | @snoc u v tr2 a _ hstep ih =>
      obtain ⟨h1, h2, h3, h4⟩ := ih (fun a ha => hno a (by simp [ha]))
      obtain ⟨h5, h6⟩ := signalled_step h1 hstep (hno a (by simp))
      have hkin : v.killed = false ∧ v.installed = true := by
        cases hstep with
        | arm => exact ⟨h2, rfl⟩
        | accept => exact ⟨h2, h3⟩
        | stop => exact ⟨h2, h3⟩
        | finish => exact ⟨h2, h3⟩
        | sigint => exact ⟨h2, h3⟩
        | kill _ hk => rw [h3] at hk; cases hk
        | ret => exact ⟨h2, h3⟩
      refine ⟨h5, hkin.1, hkin.2, ?_⟩
      rw [List.countP_append]
      cases a <;> simp [ProcAct.winds] at h6 ⊢ <;> omega
  obtain ⟨k1, k2, _, k4⟩ := key
  refine ⟨k1, k2, ?_, k4, hleft⟩
  cases hr : t.returned with
  | true => exact Or.inl rfl
  | false =>
    right
    by_cases hall : ∀ l ∈ t.loops, l = .ended
    · exact Or.inr ⟨_, .ret t ⟨hr, k2⟩ hall⟩
    · left
      simp only [Classical.not_forall] at hall
      obtain ⟨l, hl, hne⟩ := hall
      obtain ⟨i, hi', hget⟩ := List.mem_iff_getElem.mp hl
      have : t.loops[i]? = some .woken := by
        rw [List.getElem?_eq_getElem hi', hget]
        rcases k1 l hl with rfl | rfl
        · rfl
        · exact absurd rfl hne
      exact ⟨i, _, .stop t i ⟨hr, k2⟩ this⟩

/-- Non-trivial case: two services, both waiting. -/
example : ∃ s tr, ProcRun (.start 2) tr s ∧ s.alive ∧ s.installed = true ∧ s.loops = [.armed, .armed] :=
  ⟨_, _, .snoc (.snoc (.nil _) (.arm _ 0 ⟨rfl, rfl⟩ rfl)) (.arm _ 1 ⟨rfl, rfl⟩ rfl), ⟨rfl, rfl⟩, rfl, rfl⟩

/-! ## C108 -/

/-- **C108 is violated.** For every number of services and of connections in progress there is an execution in which Ctrl-C ends every
service and the process, and all these connections are dropped. -/
theorem C108_dropped_violated (n : Nat) (hn : 1 ≤ n) (m : Nat) :
    ∃ s tr, ProcRun (.start n) tr s ∧ tr.count .sigint = 1 ∧ s.returned = true ∧ s.conns = List.replicate m .aborted := by
  obtain ⟨p, rfl⟩ : ∃ p, n = p + 1 := ⟨n - 1, by omega⟩
  -- m connections
  have h1 : ∀ m, ∃ s tr, ProcRun (.start (p + 1)) tr s ∧ tr.count .sigint = 0 ∧ s.loops = List.replicate (p + 1) .fresh ∧
      s.conns = List.replicate m .open ∧ s.alive := by
    intro m
    induction m with
    | zero => exact ⟨_, _, .nil _, rfl, rfl, rfl, ⟨rfl, rfl⟩⟩
    | succ m ih =>
      obtain ⟨s, tr, a1, a2, a3, a4, a5⟩ := ih
      refine ⟨_, _, .snoc a1 (.accept s 0 .fresh a5 (by rw [a3]; rfl) (by decide)), by simp [a2], ?_, ?_, a5⟩
      · simp [a3, List.replicate_succ]
      · simp only [a4, List.replicate_succ']
  -- all loops arm
  have h2 : ∀ k, k ≤ p + 1 → ∃ s tr, ProcRun (.start (p + 1)) tr s ∧ tr.count .sigint = 0 ∧
      s.loops = List.replicate k .armed ++ List.replicate (p + 1 - k) .fresh ∧ s.conns = List.replicate m .open ∧ s.alive ∧
      (1 ≤ k → s.installed = true) := by
    intro k
    induction k with
    | zero =>
      intro _
      obtain ⟨s, tr, a1, a2, a3, a4, a5⟩ := h1 m
      exact ⟨s, tr, a1, a2, by simpa using a3, a4, a5, by omega⟩
    | succ k ih =>
      intro hk
      obtain ⟨s, tr, a1, a2, a3, a4, a5, _⟩ := ih (by omega)
      have hs : List.replicate (p + 1 - k) LoopState.fresh = .fresh :: List.replicate (p + 1 - (k + 1)) .fresh := by
        rw [← List.replicate_succ]; congr 1; omega
      rw [hs] at a3
      refine ⟨_, _, .snoc a1 (.arm s k a5 (by rw [a3, List.getElem?_append_right (by simp)]; simp)), by simp [a2], ?_, a4, a5,
        fun _ => rfl⟩
      simp only [a3]
      rw [List.set_append_right _ _ (by simp)]
      simp [List.replicate_succ']
  -- all loops stop
  have h3 : ∀ k, k ≤ p + 1 → ∃ s tr, ProcRun (.start (p + 1)) tr s ∧ tr.count .sigint = 1 ∧
      s.loops = List.replicate k .ended ++ List.replicate (p + 1 - k) .woken ∧ s.conns = List.replicate m .open ∧ s.alive := by
    intro k
    induction k with
    | zero =>
      intro _
      obtain ⟨s, tr, a1, a2, a3, a4, a5, a6⟩ := h2 (p + 1) (Nat.le_refl _)
      refine ⟨_, _, .snoc a1 (.sigint s a5 (a6 (by omega))), by simp [a2], ?_, a4, a5⟩
      simp [a3, LoopState.signal]
    | succ k ih =>
      intro hk
      obtain ⟨s, tr, a1, a2, a3, a4, a5⟩ := ih (by omega)
      have hs : List.replicate (p + 1 - k) LoopState.woken = .woken :: List.replicate (p + 1 - (k + 1)) .woken := by
        rw [← List.replicate_succ]; congr 1; omega
      rw [hs] at a3
      refine ⟨_, _, .snoc a1 (.stop s k a5 (by rw [a3, List.getElem?_append_right (by simp)]; simp)), by simp [a2], ?_, a4, a5⟩
      simp only [a3]
      rw [List.set_append_right _ _ (by simp)]
      simp [List.replicate_succ']
  obtain ⟨s, tr, a1, a2, a3, a4, a5⟩ := h3 (p + 1) (Nat.le_refl _)
  refine ⟨_, _, .snoc a1 (.ret s a5 ?_), by simp [a2], rfl, ?_⟩
  · intro l hl
    rw [a3] at hl
    simpa using hl
  · simp [a4, ConnState.drop]

/-- **C108 (partial).** In every execution, a connection is dropped only when the process ends, and the process ends only when every
service has stopped: as long as one service runs, the connections of all of them go on. -/
theorem C108_until_end_partial (n : Nat) (s : Proc) (tr : List ProcAct) (h : ProcRun (.start n) tr s) (hc : .aborted ∈ s.conns) :
    s.returned = true ∧ s.loops.length = n ∧ ∀ l ∈ s.loops, l = .ended := by
  have hi := proc_inv h
  have hr : s.returned = true := by
    cases hr : s.returned with
    | true => rfl
    | false => exact absurd rfl (hi.aborted hr _ hc)
  exact ⟨hr, hi.count, (hi.ended hr).1⟩

/-- Non-trivial case: a stopped service, a running one, a connection in progress. -/
example : ∃ s tr, ProcRun (.start 2) tr s ∧ s.loops = [.ended, .fresh] ∧ s.conns = [.open] ∧ s.alive :=
  ⟨_, _, .snoc (.snoc (.snoc (.snoc (.nil _) (.accept _ 0 .fresh ⟨rfl, rfl⟩ rfl (by decide))) (.arm _ 0 ⟨rfl, rfl⟩ rfl))
    (.sigint _ ⟨rfl, rfl⟩ rfl)) (.stop _ 0 ⟨rfl, rfl⟩ rfl), rfl, rfl, ⟨rfl, rfl⟩⟩

/-! ## C109 -/

/-- **C109 (partial): multi-thread mode.** In every execution, when `run_multi_threads` has returned - only after that is the configuration
freed (src/main.rs:290) - no service and no connection is left that could look at it. Missing: per-core mode. -/
theorem C109_multi_partial (n : Nat) (s : Proc) (tr : List ProcAct) (h : ProcRun (.start n) tr s) (hr : s.returned = true) :
    (∀ l ∈ s.loops, l = .ended) ∧ (∀ c ∈ s.conns, c ≠ .open) ∧ ∀ a t, ¬ ProcStep s a t := by
  have hi := proc_inv h
  refine ⟨(hi.ended hr).1, (hi.ended hr).2, ?_⟩
  intro a t hst
  have : s.alive := by cases hst <;> assumption
  rw [this.1] at hr
  cases hr

/-- **C109 is violated** in per-core mode: if the `k`-th thread cannot be created, `run_per_core` returns and the configuration is freed
while `k` services run and go on using it. For every number of services and every `k`. -/
theorem C109_per_core_violated (n k : Nat) (hk : k < n) :
    ∃ s, PerCoreRun n .start s ∧ s.main = .failed ∧ s.threads = List.replicate k .holding := by
  have h1 : ∀ j, j ≤ k → PerCoreRun n .start ⟨.spawning k, List.replicate j .holding ++ List.replicate (k - j) .spawned⟩ := by
    intro j
    induction j with
    | zero => intro _; simpa using perCore_spawned n k (by omega)
    | succ j ih =>
      intro hj
      have hs : List.replicate (k - j) ThreadState.spawned = .spawned :: List.replicate (k - (j + 1)) .spawned := by
        rw [← List.replicate_succ]; congr 1; omega
      have hpre := ih (by omega)
      rw [hs] at hpre
      have := PerCoreRun.snoc hpre (.take (.spawning k) _ j (by simp) (by simp)
        (by rw [List.getElem?_append_right (by simp)]; simp))
      rw [List.set_append_right _ _ (by simp)] at this
      rw [List.replicate_succ', List.append_assoc]
      simpa using this
  have := h1 k (Nat.le_refl _)
  simp only [Nat.sub_self, List.replicate_zero, List.append_nil] at this
  exact ⟨_, .snoc this (.spawnFail _ k hk), rfl, rfl⟩

end Httpd
