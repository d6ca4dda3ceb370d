import Verif.Model.RuntimeEnd
import Verif.Props.Turns
/-!
# The end of the runtime (C219)
-/

namespace Httpd
open Spec

variable {K : Type} {workers : Nat} {spins : Nat → Prop}

theorem CloseRun.trans {s t u : Closing} {tr tr' : List CloseAct} (h : CloseRun workers spins s tr t) (h' : CloseRun workers spins t tr' u) :
    CloseRun workers spins s (tr ++ tr') u := by
  induction h' with
  | nil => simpa using h
  | snoc _ hs ih => rw [← List.append_assoc]; exact .snoc ih hs

theorem CloseRun.one {s t : Closing} {a : CloseAct} (h : CloseStep workers spins s a t) : CloseRun workers spins s [a] t := .snoc .nil h

/-- While the join loop runs the tasks do what they do without it. -/
theorem PoolRun.lift {p q : Pool} {tr : List PoolAct} (h : PoolRun workers spins p tr q) :
    CloseRun workers spins ⟨p, .joining⟩ (tr.map .pool) ⟨q, .joining⟩ := by
  induction h with
  | nil => exact .nil
  | @snoc tr t u a _ hs ih =>
    rw [List.map_append]
    exact .snoc ih (.pool ⟨t, .joining⟩ a u (by simp) (fun _ => rfl) hs)

/-- What the tasks do. -/
def poolPart : List CloseAct → List PoolAct
  | [] => []
  | .pool a :: tr => a :: poolPart tr
  | _ :: tr => poolPart tr

theorem poolPart_append (a b : List CloseAct) : poolPart (a ++ b) = poolPart a ++ poolPart b := by
  induction a with
  | nil => rfl
  | cons x a ih => cases x <;> simp [poolPart, ih]

theorem close_pool {s t : Closing} {tr : List CloseAct} (h : CloseRun workers spins s tr t) : PoolRun workers spins s.pool (poolPart tr) t.pool := by
  induction h with
  | nil => exact .nil
  | snoc _ hs ih =>
    rw [poolPart_append]
    cases hs with
    | pool a p _ _ hp => exact .snoc ih hp
    | leave _ _ => simpa [poolPart] using ih
    | dropped _ _ => simpa [poolPart] using ih

theorem over_stays {p q : Pool} {a : PoolAct} (h : PoolStep workers spins p a q)
    (ho : ∀ t ∈ p.tasks, ∀ i, t.1 = .service i → t.2 = .over) : ∀ t ∈ q.tasks, ∀ i, t.1 = .service i → t.2 = .over := by
  have key : ∀ (j : Nat) (k : Role) (u v : Turn), p.tasks[j]? = some (k, u) → u ≠ .over → ∀ t ∈ p.tasks.set j (k, v), ∀ i, t.1 = .service i → t.2 = .over := by
    intro j k u v hj hu t ht i hi
    rcases mem_set_tasks ht with ht | rfl
    · exact ho t ht i hi
    · exact absurd (ho _ (List.mem_of_getElem? hj) i hi) hu
  cases h with
  | wake j k hj => exact key j k _ _ hj (by simp)
  | close c _ => exact ho
  | start j k hj _ => exact key j k _ _ hj (by simp)
  | accept j c k hj _ => exact absurd (ho _ (List.mem_of_getElem? hj) k rfl) (by simp)
  | stop j k t hj _ _ => exact key j k _ _ hj (by simp)
  | spin j c hj _ _ => exact key j _ _ _ hj (by simp)

theorem close_inv {n : Nat} {tr : List CloseAct} {s : Closing} (h : CloseRun workers spins (.start n) tr s) :
    s.main ≠ .joining → ∀ t ∈ s.pool.tasks, ∀ i, t.1 = .service i → t.2 = .over := by
  induction h with
  | nil => intro h; exact absurd rfl h
  | snoc _ hs ih =>
    cases hs with
    | pool a p _ _ hp => exact fun hm => over_stays hp (ih hm)
    | leave _ ho => exact fun _ => ho
    | dropped hm _ => exact fun _ => ih (by rw [hm]; simp)

/-- How many turns have ended. -/
def stops (tr : List CloseAct) : Nat := (poolPart tr).countP (fun a => match a with | .stop _ _ => true | _ => false)

/-- Once the runtime is being dropped, no turn begins: those that end are of those that were going on. -/
theorem dropping_turns {s t : Closing} {tr : List CloseAct} (h : CloseRun workers spins s tr t) (hm : s.main ≠ .joining) :
    t.main ≠ .joining ∧ stops tr + t.pool.busy ≤ s.pool.busy ∧ ∀ a ∈ poolPart tr, a.begins = false := by
  induction h with
  | nil => exact ⟨hm, by simp [stops, poolPart], by simp [poolPart]⟩
  | @snoc tr s1 s2 a _ hs ih =>
    obtain ⟨i1, i2, i3⟩ := ih
    have hst : ∀ b, stops (tr ++ [b]) = stops tr + stops [b] := by
      intro b; simp only [stops, poolPart_append, List.countP_append]
    cases hs with
    | leave hj _ => exact absurd hj i1
    | dropped hd hb =>
      refine ⟨by simp, ?_, ?_⟩
      · rw [hst]; simpa [stops, poolPart] using i2
      · simpa [poolPart_append, poolPart] using i3
    | pool a p hg hb hp =>
      have hnb : a.begins = false := by
        cases hbe : a.begins with
        | false => rfl
        | true => exact absurd (hb hbe) i1
      refine ⟨i1, ?_, ?_⟩
      · rw [hst]
        cases hp with
        | wake i k hi => have := busy_set s1.pool i k k _ .ready hi; simp [Turn.busy] at this; simp [stops, poolPart]; simp [stops] at i2; omega
        | close c _ => have : (⟨s1.pool.tasks, s1.pool.closed ++ [c]⟩ : Pool).busy = s1.pool.busy := rfl; simp [stops, poolPart]; simp [stops] at i2; omega
        | start i k _ _ => cases hnb
        | accept i c j _ _ =>
          have : (⟨s1.pool.tasks ++ [(.conn c, .ready)], s1.pool.closed⟩ : Pool).busy = s1.pool.busy := by simp [Pool.busy, Turn.busy]
          simp [stops, poolPart]; simp [stops] at i2; omega
        | stop i k t hi hbt _ =>
          have := busy_set s1.pool i k k _ t hi
          rw [hbt] at this
          simp [Turn.busy] at this
          simp [stops, poolPart]; simp [stops] at i2; omega
        | spin i c hi _ _ =>
          have := busy_set s1.pool i (.conn c) (.conn c) _ .spinning hi
          simp [Turn.busy] at this
          simp [stops, poolPart]; simp [stops] at i2; omega
      · intro b hbm
        rw [poolPart_append] at hbm
        rcases List.mem_append.mp hbm with hbm | hbm
        · exact i3 b hbm
        · simp only [poolPart, List.mem_singleton] at hbm
          subst hbm; exact hnb

/-- Turns end until no worker has a task. -/
theorem wind_up (m : Nat) : ∀ (s : Closing), s.main = .dropping → s.pool.busy = m → (∀ t ∈ s.pool.tasks, t.2 ≠ .spinning) →
    ∃ tr s', CloseRun workers spins s tr s' ∧ s'.main = .gone ∧ tr.length = m + 1 := by
  induction m with
  | zero =>
    intro s hm hb _
    exact ⟨_, _, .one (.dropped s hm hb), rfl, rfl⟩
  | succ m ih =>
    intro s hm hb hs
    have : 0 < s.pool.tasks.countP (fun t => t.2.busy) := by have : s.pool.busy = s.pool.tasks.countP (fun t => t.2.busy) := rfl; omega
    obtain ⟨⟨k, t⟩, ht, htb⟩ := List.countP_pos_iff.mp this
    have htr : t = .running := by
      have := hs _ ht
      revert htb this
      cases t <;> simp [Turn.busy]
    subst htr
    obtain ⟨j, hj⟩ := List.mem_iff_getElem?.mp ht
    have hstep : CloseStep workers spins s (.pool (.stop j .ready)) { s with pool := { s.pool with tasks := s.pool.tasks.set j (k, .ready) } } :=
      .pool s _ _ (by rw [hm]; simp) (fun h => by cases h) (.stop s.pool j k .ready hj rfl (fun _ _ _ _ => rfl))
    have hb' := busy_set s.pool j k k _ .ready hj
    simp [Turn.busy] at hb'
    obtain ⟨tr, s', h1, h2, h3⟩ := ih { s with pool := { s.pool with tasks := s.pool.tasks.set j (k, .ready) } } hm (by simp only; omega) (by
      intro u hu
      rcases mem_set_tasks hu with hu | rfl
      · exact hs u hu
      · simp)
    exact ⟨_, _, (CloseRun.one hstep).trans h1, h2, by simp; omega⟩

/-- **C219**, what holds, in every execution: the main thread leaves the join loop only when every service has ended, and can when they have. From then on no task begins a turn, so that at most as
many turns end as were going on; and if none of them is that of a connection over TLS whose client has left, the runtime can be dropped when they have ended: nothing else is needed. Without TLS that
is always so. Missing from C219: one such connection (`C219_kept_violated`). -/
theorem C219_ends_partial {C : Type} (x : World C K) (s : ServiceConfig) (tls : Bool) (n : Nat) (tr : List CloseAct) (q : Closing)
    (h : CloseRun workers (s.spins x tls) (.start n) tr q) :
    (q.main ≠ .joining → ∀ t ∈ q.pool.tasks, ∀ i, t.1 = .service i → t.2 = .over) ∧
    (q.main = .joining → (∀ t ∈ q.pool.tasks, ∀ i, t.1 = .service i → t.2 = .over) → ∃ q', CloseStep workers (s.spins x tls) q .leave q' ∧ q'.main = .dropping) ∧
    (q.main = .dropping → ∀ tr' q', CloseRun workers (s.spins x tls) q tr' q' → stops tr' ≤ q.pool.busy ∧ ∀ i, CloseAct.pool (.start i) ∉ tr') ∧
    (q.main = .dropping → (tls = false ∨ ∀ c, (.conn c, .spinning) ∈ q.pool.tasks → (x.client c).fin ≠ .eof) →
      ∃ tr' q', CloseRun workers (s.spins x tls) q tr' q' ∧ q'.main = .gone ∧ tr'.length = q.pool.busy + 1) := by
  refine ⟨close_inv h, fun hm ho => ⟨_, .leave q hm ho, rfl⟩, fun hm tr' q' h' => ?_, fun hm hok => ?_⟩
  · obtain ⟨_, h2, h3⟩ := dropping_turns h' (by rw [hm]; simp)
    refine ⟨by omega, fun i hi => ?_⟩
    have hp : ∀ (l : List CloseAct) (a : PoolAct), CloseAct.pool a ∈ l → a ∈ poolPart l := by
      intro l a
      induction l with
      | nil => simp
      | cons b l ih =>
        intro hb
        rcases List.mem_cons.mp hb with rfl | hl
        · simp [poolPart]
        · have := ih hl
          cases b <;> simp [poolPart, this]
    have := h3 _ (hp _ _ hi)
    cases this
  · refine wind_up _ q hm rfl (fun t ht he => ?_)
    obtain ⟨_, hinv⟩ := pool_inv (n := n) (close_pool h)
    obtain ⟨c, h1, _, h3⟩ := hinv t ht he
    have hsp := spins_left x s tls c h3
    rcases hok with hf | hok
    · rw [hf] at hsp; cases hsp.1
    · refine hok c ?_ hsp.2
      rw [← h1, ← he]; exact ht

theorem spinning_stays {p q : Pool} {a : PoolAct} (h : PoolStep workers spins p a q) (hp : ∃ t ∈ p.tasks, t.2 = .spinning) : ∃ t ∈ q.tasks, t.2 = .spinning := by
  obtain ⟨⟨k, t⟩, ht, he⟩ := hp
  simp only at he
  subst he
  obtain ⟨i, hi⟩ := List.mem_iff_getElem?.mp ht
  have key : ∀ (j : Nat) (k' : Role) (u v : Turn), p.tasks[j]? = some (k', u) → u ≠ .spinning → ∃ t ∈ p.tasks.set j (k', v), t.2 = .spinning := by
    intro j k' u v hj hu
    have hij : j ≠ i := by
      rintro rfl
      rw [hi] at hj
      cases hj
      exact hu rfl
    exact ⟨(k, .spinning), List.mem_iff_getElem?.mpr ⟨i, by rw [List.getElem?_set_ne hij]; exact hi⟩, rfl⟩
  cases h with
  | wake j k' hj => exact key j k' _ _ hj (by simp)
  | close c _ => exact ⟨_, ht, rfl⟩
  | start j k' hj _ => exact key j k' _ _ hj (by simp)
  | accept j c k' hj _ => exact ⟨(k, .spinning), by simp [ht], rfl⟩
  | stop j k' u hj _ _ => exact key j k' _ _ hj (by simp)
  | spin j c hj _ _ => exact key j _ _ _ hj (by simp)

theorem kept {s t : Closing} {tr : List CloseAct} (h : CloseRun workers spins s tr t) (hm : s.main = .dropping) (hs : ∃ t ∈ s.pool.tasks, t.2 = .spinning) :
    t.main = .dropping ∧ ∃ u ∈ t.pool.tasks, u.2 = .spinning := by
  induction h with
  | nil => exact ⟨hm, hs⟩
  | @snoc tr s1 s2 a _ hst ih =>
    obtain ⟨i1, i2⟩ := ih
    cases hst with
    | pool a p _ _ hp => exact ⟨i1, spinning_stays hp i2⟩
    | leave hj _ => rw [i1] at hj; cases hj
    | dropped _ hb =>
      obtain ⟨u, hu, he⟩ := i2
      have : 0 < s1.pool.tasks.countP (fun t => t.2.busy) := List.countP_pos_iff.mpr ⟨u, hu, by rw [he]; rfl⟩
      simp only [Pool.busy] at hb
      omega

/-- After the first `j` services have ended. -/
def endedPool (n j : Nat) : Pool :=
  ⟨(List.range n).map (fun i => ((.service i, if i < j then .over else .ready) : Role × Turn)) ++ [(.conn 0, .spinning)], [0]⟩

/-- Services `0` to `j - 1` end. -/
def endServices : Nat → List PoolAct
  | 0 => []
  | j + 1 => endServices j ++ [.start j, .stop j .over]

theorem ended_busy (n j : Nat) : (endedPool n j).busy = 1 := by
  have : ((List.range n).map (fun i => ((.service i, if i < j then .over else .ready) : Role × Turn))).countP (fun t => t.2.busy) = 0 := by
    rw [List.countP_eq_zero]
    intro t ht
    obtain ⟨i, _, rfl⟩ := List.mem_map.mp ht
    simp only
    split <;> simp [Turn.busy]
  simp only [Pool.busy, endedPool, List.countP_append, this]
  simp [Turn.busy]

theorem end_services (n j : Nat) (hj : j ≤ n) (hw : 2 ≤ workers) : PoolRun workers spins (endedPool n 0) (endServices j) (endedPool n j) := by
  induction j with
  | zero => exact .nil
  | succ j ih =>
    refine (ih (by omega)).trans ?_
    have hat : (endedPool n j).tasks[j]? = some (.service j, .ready) := by
      have : j < n := by omega
      simp [endedPool, List.getElem?_append, this]
    have s1 : PoolStep workers spins (endedPool n j) (.start j) ⟨(endedPool n j).tasks.set j (.service j, .running), [0]⟩ :=
      .start _ j (.service j) hat (by rw [ended_busy]; omega)
    have hlen : j < (endedPool n j).tasks.length := by simp [endedPool]; omega
    have s2 : PoolStep workers spins ⟨(endedPool n j).tasks.set j (.service j, .running), [0]⟩ (.stop j .over)
        ⟨((endedPool n j).tasks.set j (.service j, .running)).set j (.service j, .over), [0]⟩ :=
      .stop _ j (.service j) .over (by simp [hlen]) rfl (fun c h => by cases h)
    have e : endedPool n (j + 1) = ⟨((endedPool n j).tasks.set j (.service j, .running)).set j (.service j, .over), [0]⟩ := by
      rw [List.set_set]
      simp only [endedPool, Pool.mk.injEq, and_true]
      apply List.ext_getElem
      · simp
      · intro i h1 h2
        by_cases hi : i = j
        · subst hi
          have : i < n := by omega
          simp [List.getElem_append, this]
        · rw [List.getElem_set_ne (by omega)]
          simp only [List.getElem_append, List.length_map, List.length_range, List.getElem_map, List.getElem_range]
          split
          · have : i < j + 1 ↔ i < j := by omega
            simp only [this]
          · rfl
    rw [e]
    exact (PoolRun.one s1).trans (.one s2)

/-- **C219**, negation for the code as written: whatever the service, its limits, the other services of the process and the number of workers (two or more), one client that does the handshake, announces
more of a body than it sends and leaves is enough: there is an execution in which every service has ended, and whatever happens then the process does not get as far as `httpd: shutdown` and does not
end. -/
theorem C219_kept_violated {C : Type} (x : World C K) (s : ServiceConfig) (hbuf : s.tcp.readBuf ≤ isizeMax ∧ s.tcp.buf ≤ isizeMax) (hw : 2 ≤ workers) (n : Nat) (hn : 1 ≤ n)
    (hc : LeavesInBody s.http.limits (x.client 0)) :
    ∃ tr q, CloseRun workers (s.spins x true) (.start n) tr q ∧ q.main = .dropping ∧ (∀ i, i < n → q.pool.tasks[i]? = some (.service i, .over)) ∧
      (∀ c, CloseAct.pool (.close c) ∈ tr → c = 0) ∧ ∀ tr' q', CloseRun workers (s.spins x true) q tr' q' → q'.main = .dropping := by
  obtain ⟨m, rfl⟩ : ∃ m, n = m + 1 := ⟨n - 1, by omega⟩
  have hsp := leaves_spins x s hbuf 0 hc
  have r1 := stick_run (workers := workers) (spins := s.spins x true) m 1 (by omega) (by omega) (fun c h => by
    have : c = 0 := by omega
    rw [this]; exact hsp)
  have r2 : PoolStep workers (s.spins x true) (stuckPool m 1) (.wake 0) (endedPool (m + 1) 0) := by
    have := PoolStep.wake (workers := workers) (spins := s.spins x true) (stuckPool m 1) 0 (.service 0) rfl
    have e : endedPool (m + 1) 0 = { stuckPool m 1 with tasks := (stuckPool m 1).tasks.set 0 (.service 0, .ready) } := by
      simp [endedPool, stuckPool, serviceTasks, List.range_succ_eq_map, Function.comp_def]
    rw [e]; exact this
  have r3 := (r1.trans (.one r2)).trans (end_services (spins := s.spins x true) (m + 1) (m + 1) (Nat.le_refl _) hw)
  have r4 : CloseStep workers (s.spins x true) ⟨endedPool (m + 1) (m + 1), .joining⟩ .leave ⟨endedPool (m + 1) (m + 1), .dropping⟩ := by
    refine .leave _ rfl (fun t ht i hi => ?_)
    simp only [endedPool, List.mem_append, List.mem_map, List.mem_range, List.mem_singleton] at ht
    rcases ht with ⟨j, hj, rfl⟩ | rfl
    · simp [hj]
    · cases hi
  refine ⟨_, _, .snoc r3.lift r4, rfl, fun i hi => ?_, fun c hcm => ?_, fun tr' q' h => ?_⟩
  · simp [endedPool, List.getElem?_append, hi]
  · have hno : ∀ j d, PoolAct.close d ∉ endServices j := by
      intro j d
      induction j with
      | zero => simp [endServices]
      | succ j ih => simp [endServices, ih]
    simp [stickAll, stickOne, hno] at hcm
    exact hcm
  · exact (kept h rfl ⟨(.conn 0, .spinning), by simp [endedPool], rfl⟩).1

/-! ## Cases meeting the hypotheses -/

/-- Two workers, one service, one client over TLS that has left in the middle of a body: the service has ended and the process waits. -/
example : CloseRun 2 (fun c => c = 0) (.start 1)
    ([.start 0, .stop 0 .waiting, .wake 0, .start 0, .accept 0 0, .stop 0 .waiting, .close 0, .start 1, .spin 1, .wake 0, .start 0, .stop 0 .over].map CloseAct.pool)
    ⟨⟨[(.service 0, .over), (.conn 0, .spinning)], [0]⟩, .joining⟩ := by
  have r1 := stick_run (workers := 2) (spins := fun c => c = 0) 0 1 (by decide) (by decide) (fun c h => by omega)
  have r2 : PoolRun 2 (fun c => c = 0) (stuckPool 0 1) [.wake 0, .start 0, .stop 0 .over] ⟨[(.service 0, .over), (.conn 0, .spinning)], [0]⟩ := by
    refine .snoc (.snoc (.snoc .nil (.wake _ 0 (.service 0) rfl)) (.start _ 0 (.service 0) rfl (by decide))) ?_
    exact .stop _ 0 (.service 0) .over rfl rfl (fun c h => by cases h)
  exact (r1.trans r2).lift

/-- The same with a client that is still there: its turn ends, and the runtime is dropped. -/
example : CloseRun 2 (fun c => c = 0) ⟨⟨[(.service 0, .over), (.conn 0, .running)], []⟩, .joining⟩ [.leave, .pool (.stop 1 .waiting), .dropped]
    ⟨⟨[(.service 0, .over), (.conn 0, .waiting)], []⟩, .gone⟩ := by
  refine .snoc (.snoc (.snoc .nil (.leave _ rfl (by
    intro t ht i hi
    simp only [List.mem_cons, List.not_mem_nil, or_false] at ht
    rcases ht with rfl | rfl
    · rfl
    · cases hi))) (.pool _ _ _ (by simp) (fun h => by cases h) (.stop _ 1 (.conn 0) .waiting rfl rfl (fun c _ hc => by simp at hc)))) ?_
  exact .dropped _ rfl rfl

end Httpd
