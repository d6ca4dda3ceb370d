import Verif.Props.CutShort
import Verif.Props.RuntimeEnd
/-! # C218 and C219: exactly which clients keep a worker -/

namespace Httpd
open Spec

variable {K : Type} {workers : Nat} {spins : Nat → Prop}

/-- A connection that spins is that of a client that has closed inside a body. -/
theorem spins_cut {C : Type} (x : World C K) (s : ServiceConfig) (tls : Bool) (c : Nat) (h : s.spins x tls c) :
    tls = true ∧ (x.client c).fin = .eof ∧ ∃ k, CutInBody s.http.limits.maxUrl s.http.limits.maxHeaderLine s.http.limits.maxHeadersCount (x.client c).flat k := by
  refine ⟨h.1, ?_⟩
  by_cases hbuf : isizeMax < s.tcp.readBuf ∨ isizeMax < s.tcp.buf
  · have h2 := h.2
    unfold ServiceConfig.connection at h2
    rw [if_pos hbuf] at h2
    cases h2
  · obtain ⟨E, hE⟩ := connection_ending x s (by omega) ⟨c, tls, !tls⟩
    obtain ⟨g1, g2⟩ := hang_cut _ _ _ _ _ _ _ Head.blank_new _ (hE.symm.trans h.2)
    exact ⟨g1, _, g2⟩

/-- Every task is there once. -/
theorem pool_roles {n : Nat} {tr : List PoolAct} {s : Pool} (h : PoolRun workers spins (.start n) tr s) : (s.tasks.map (·.1)).Nodup := by
  have hset : ∀ {l : List (Role × Turn)} {i : Nat} {k : Role} {t u : Turn}, l[i]? = some (k, t) → (l.set i (k, u)).map (·.1) = l.map (·.1) := by
    intro l i k t u hi
    rw [List.map_set]
    apply List.ext_getElem?
    intro j
    rw [List.getElem?_set]
    split
    · rename_i e
      subst e
      have : i < l.length := (List.getElem?_eq_some_iff.1 hi).1
      simp [this]
      rw [List.getElem?_eq_getElem this] at hi
      simp only [Option.some.injEq] at hi
      rw [hi]
    · rfl
  induction h with
  | nil =>
    simp only [Pool.start, List.map_map]
    exact List.pairwise_map.2 (List.Pairwise.imp (fun h e => h (by simpa using e)) List.nodup_range)
  | snoc _ hst ih =>
    cases hst with
    | wake i k hi => rw [hset hi]; exact ih
    | close => exact ih
    | start i k hi => rw [hset hi]; exact ih
    | accept i c j _ hc =>
      simp only [List.map_append, List.map_cons, List.map_nil]
      refine List.nodup_append.2 ⟨ih, by simp, fun a ha b hb => ?_⟩
      obtain ⟨t, ht, rfl⟩ := List.mem_map.1 ha
      rw [List.mem_singleton.1 hb]
      exact hc t ht
    | stop i k t hi => rw [hset hi]; exact ih
    | spin i c hi => rw [hset hi]; exact ih

theorem pool_closed {n : Nat} {tr : List PoolAct} {s : Pool} (h : PoolRun workers spins (.start n) tr s) : ∀ c ∈ s.closed, PoolAct.close c ∈ tr := by
  induction h with
  | nil => simp [Pool.start]
  | snoc _ hst ih =>
    intro c hc
    cases hst with
    | close d =>
      rcases List.mem_append.1 hc with hc | hc
      · exact List.mem_append_left _ (ih c hc)
      · simp at hc; simp [hc]
    | _ => exact List.mem_append_left _ (ih c hc)

theorem poolPart_mem {tr : List CloseAct} {a : PoolAct} (h : a ∈ poolPart tr) : CloseAct.pool a ∈ tr := by
  induction tr with
  | nil => simp [poolPart] at h
  | cons b tr ih =>
    cases b with
    | pool b =>
      simp only [poolPart, List.mem_cons] at h
      rcases h with rfl | h
      · exact .head _
      · exact .tail _ (ih h)
    | _ => exact .tail _ (ih h)

/-- **C218**, what holds, said by what the clients do: in every execution in which fewer clients than there are workers have closed inside the body of a request, every task that is ready gets its turn when at most
one other task has ended its turn, whatever all clients do. Closing anywhere else is harmless, and so is staying away in the middle of a body. Missing from C218: as many such clients as there are workers (`C218_frozen_violated`). -/
theorem C218_enough_partial {C : Type} (x : World C K) (s : ServiceConfig) (tls : Bool) (n : Nat) (tr : List PoolAct) (p : Pool)
    (h : PoolRun workers (s.spins x tls) (.start n) tr p) (bad : List Nat) (hfew : bad.length < workers)
    (hbad : ∀ c, PoolAct.close c ∈ tr → (x.client c).fin = .eof →
      (∃ k, CutInBody s.http.limits.maxUrl s.http.limits.maxHeaderLine s.http.limits.maxHeadersCount (x.client c).flat k) → c ∈ bad) (i : Nat) (k : Role)
    (hi : p.tasks[i]? = some (k, .ready)) :
    (∃ p', PoolStep workers (s.spins x tls) p (.start i) p') ∨
      ∃ j p' p'', PoolStep workers (s.spins x tls) p (.stop j .ready) p' ∧ PoolStep workers (s.spins x tls) p' (.start i) p'' := by
  refine (C218_workers_partial x s tls n tr p h).2.1 i k hi (Nat.lt_of_le_of_lt ?_ hfew)
  have hsub : ((p.tasks.filter (fun t => t.2 = .spinning)).map (·.1)).length ≤ (bad.map Role.conn).length := by
    refine List.Nodup.length_le_of_subset ((pool_roles h).sublist (List.filter_sublist.map _)) (fun r hr => ?_)
    obtain ⟨t, ht, rfl⟩ := List.mem_map.1 hr
    obtain ⟨ht, hs⟩ := List.mem_filter.1 ht
    obtain ⟨c, h1, h2, h3⟩ := (pool_inv h).2 t ht (by simpa using hs)
    obtain ⟨_, h4, h5⟩ := spins_cut x s tls c h3
    rw [h1]
    exact List.mem_map.2 ⟨c, hbad c (pool_closed h c h2) h4 h5, rfl⟩
  simpa [List.countP_eq_length_filter] using hsub

/-- **C219**, what holds, exactly: when the services have ended and the main thread drops the runtime, it can get to the end of that exactly if no worker is kept; and a worker is kept only by the connection, over TLS, of
a client that has closed inside the body of a request. So if no client does that, the process can end whenever its services have ended. Missing from C219: one such client (`C219_kept_violated`). -/
theorem C219_exactly_partial {C : Type} (x : World C K) (s : ServiceConfig) (tls : Bool) (n : Nat) (tr : List CloseAct) (q : Closing)
    (h : CloseRun workers (s.spins x tls) (.start n) tr q) (hd : q.main = .dropping) :
    ((∃ tr' q', CloseRun workers (s.spins x tls) q tr' q' ∧ q'.main = .gone) ↔ ∀ t ∈ q.pool.tasks, t.2 ≠ .spinning) ∧
    (∀ t ∈ q.pool.tasks, t.2 = .spinning → tls = true ∧ ∃ c k, t.1 = .conn c ∧ CloseAct.pool (.close c) ∈ tr ∧ (x.client c).fin = .eof ∧
      CutInBody s.http.limits.maxUrl s.http.limits.maxHeaderLine s.http.limits.maxHeadersCount (x.client c).flat k) ∧
    ((∀ c k, CloseAct.pool (.close c) ∈ tr → (x.client c).fin = .eof →
        ¬ CutInBody s.http.limits.maxUrl s.http.limits.maxHeaderLine s.http.limits.maxHeadersCount (x.client c).flat k) →
      ∃ tr' q', CloseRun workers (s.spins x tls) q tr' q' ∧ q'.main = .gone ∧ tr'.length = q.pool.busy + 1) := by
  have hp : PoolRun workers (s.spins x tls) (.start n) (poolPart tr) q.pool := close_pool h
  have hcut : ∀ t ∈ q.pool.tasks, t.2 = .spinning → tls = true ∧ ∃ c k, t.1 = .conn c ∧ CloseAct.pool (.close c) ∈ tr ∧ (x.client c).fin = .eof ∧
      CutInBody s.http.limits.maxUrl s.http.limits.maxHeaderLine s.http.limits.maxHeadersCount (x.client c).flat k := by
    intro t ht hs
    obtain ⟨c, h1, h2, h3⟩ := (pool_inv hp).2 t ht hs
    obtain ⟨h4, h5, k, h6⟩ := spins_cut x s tls c h3
    exact ⟨h4, c, k, h1, poolPart_mem (pool_closed hp c h2), h5, h6⟩
  have hwind : (∀ t ∈ q.pool.tasks, t.2 ≠ .spinning) → _ := wind_up (workers := workers) (spins := s.spins x tls) _ q hd rfl
  refine ⟨⟨fun ⟨tr', q', h1, h2⟩ t ht hs => ?_, fun hn => ?_⟩, hcut, fun hno => hwind (fun t ht hs => ?_)⟩
  · have := (kept h1 hd ⟨t, ht, hs⟩).1
    rw [h2] at this
    cases this
  · obtain ⟨tr', q', h1, h2, _⟩ := hwind hn
    exact ⟨tr', q', h1, h2⟩
  · obtain ⟨_, c, k, _, h2, h3, h4⟩ := hcut t ht hs
    exact hno c k h2 h3 h4

/-! ## Cases meeting the hypotheses -/

/-- Client 0 closes inside the body of its second request; client 1 closes after its first. -/
def cutWorld : World Unit Unit :=
  { sampleWorld with client := fun c => if c = 0 then Reader.ofBytes (sampleReq.encode ++ (sampleReq.head.encode ++ b!"bod")) .eof else Reader.ofBytes sampleReq.encode .eof }

theorem cutWorld_spins : defaultEffective.spins cutWorld true 0 := ⟨rfl, by decide +kernel⟩

theorem cutWorld_only (c : Nat) (h : defaultEffective.spins cutWorld true c) : c = 0 := by
  refine Classical.byContradiction fun hc => ?_
  have : (defaultEffective.connection cutWorld ⟨1, true, false⟩).ending ≠ .hang := by decide +kernel
  refine this (Eq.trans ?_ h.2)
  simp only [ServiceConfig.connection, cutWorld, sampleWorld, hc, ↓reduceIte]
  split <;> rfl

/-- C218: with two workers, one of which client 0 keeps, the second service is ready and gets its turn. -/
example : PoolRun 2 (defaultEffective.spins cutWorld true) (.start 2) [.start 0, .stop 0 .waiting, .wake 0, .start 0, .accept 0 0, .stop 0 .waiting, .close 0, .start 2, .spin 2]
    ⟨[(.service 0, .waiting), (.service 1, .ready), (.conn 0, .spinning)], [0]⟩ ∧
    ∀ c, PoolAct.close c ∈ [PoolAct.start 0, .stop 0 .waiting, .wake 0, .start 0, .accept 0 0, .stop 0 .waiting, .close 0, .start 2, .spin 2] → c ∈ [0] :=
  ⟨stick_run 1 1 (by decide) (by decide) (fun c h => by
    have : c = 0 := by omega
    rw [this]; exact cutWorld_spins), by simp⟩

/-- C219: the service has ended, client 0 keeps a worker, and the runtime is being dropped. -/
example : ∃ tr q, CloseRun 2 (defaultEffective.spins cutWorld true) (.start 1) tr q ∧ q.main = .dropping ∧ (.conn 0, .spinning) ∈ q.pool.tasks := by
  have r1 := stick_run (workers := 2) (spins := defaultEffective.spins cutWorld true) 0 1 (by decide) (by decide) (fun c h => by
    have : c = 0 := by omega
    rw [this]; exact cutWorld_spins)
  have r2 : PoolRun 2 (defaultEffective.spins cutWorld true) (stuckPool 0 1) [.wake 0, .start 0, .stop 0 .over] ⟨[(.service 0, .over), (.conn 0, .spinning)], [0]⟩ := by
    refine .snoc (.snoc (.snoc .nil (.wake _ 0 (.service 0) rfl)) (.start _ 0 (.service 0) rfl (by decide))) ?_
    exact .stop _ 0 (.service 0) .over rfl rfl (fun c h => by cases h)
  refine ⟨_, _, .snoc (r1.trans r2).lift (.leave _ rfl ?_), rfl, .tail _ (.head _)⟩
  intro t ht i hi
  simp only [List.mem_cons, List.not_mem_nil, or_false] at ht
  rcases ht with rfl | rfl
  · rfl
  · cases hi

end Httpd
