import Verif.Props.LastWords
import Verif.Props.PerCoreLog
/-!
# What the services log is in the log files when the process has ended, in per-core mode (C217)
-/

namespace Httpd
open Spec

/-- What a task has sent and what it has yet to log are together what it logs. -/
theorem sent_left {R : Type} (enabled : R → Bool) (progs : Nat → List (Log.Call R)) {tr : List (Log.Act R)} {s : Log.Sys R}
    (h : Log.Run enabled (Log.start progs) tr s) (t : Nat) :
    Log.Spec.byThread t (Log.Spec.sends tr) ++ Log.Spec.logged enabled (s.progs t) = Log.Spec.logged enabled (progs t) := by
  exact (Log.inv_run enabled progs h).threads t

/-- **C217**, what holds: when the process has ended in per-core mode, and the thread of the logger has got to the end of its work before that, then every log
file has, after what was in it before the start, for each task - that of a service or of a connection - the lines of the records for this file that it logged before
the logger was dropped, in this order, all of them if the task had nothing left to log; there is nothing else in it. With daily files, what is lost is at most one
buffer for each rotation. Missing from C217: that the thread of the logger does get to its end (`C217_lost_violated`), and tasks that log after the
logger is gone (C128, C190). -/
theorem C217_flushed_partial {U : Unicode} (hU : LawfulUnicode U) (pathExists openOk : Str → Bool) (order : List Str → List Str)
    (horder : ∀ l, (order l).Perm l) (c c' : Config) (hslab : c.slab = []) (hfix : c.autofix pathExists = some c')
    (as : List AppenderInit) (has : c'.appenders openOk = some as) (k : Consumer) (l : Level)
    (hk : c'.startLogging U openOk order true = .value (k, l))
    (n : Nat) (owner : Nat → Nat) (root : Nat → Bool) (progs : Nat → List (Log.Call Item))
    (tr : List (CoresAct Item)) (s : Cores Item) (h : CoresRun (passes l) n owner root (coresStart progs) tr s)
    (hdone : s.log.consumer = .done)
    (hd : ∀ p ∈ Log.Spec.sends (logPart tr), Deliverable as p.2)
    (d : Disk) (hs : Sane d) (hok : NoFail d) (ends : Nat → Nat) (st0 : Disk × List Dest) (hopen : openDests d ends as = some st0)
    (i : Nat) (a : AppenderInit) (fp : Str) (ha : as[i]? = some a) (hfp : a.path = some fp)
    (hsole : SoleName d fp) (hone : ∀ j b, as[j]? = some b → b.path = some fp → j = i) :
    ∃ calls, k.calls (logPart tr) k.bufs = some calls ∧ ∀ moments st, FreeDests st0 moments calls →
      callDests st0 moments calls = .value st → ∃ records : List (Nat × Item),
        (∀ t, Log.Spec.byThread t records <+: (Log.Spec.logged (passes l) (progs t)).filter a.Wants) ∧
        (∀ t, s.log.progs t = [] → Log.Spec.byThread t records = (Log.Spec.logged (passes l) (progs t)).filter a.Wants) ∧
        LossAtMost (rotTimesOf i fp st0 moments calls).length (bufferSize a.bufsize) d st.1 fp (linesOf records) ∧
        (a.daily = false → content st.1 fp = content d fp ++ linesOf records) := by
  have h1 := cores_log progs h
  obtain ⟨calls, c1, c2⟩ := done_files hU pathExists openOk order horder c c' hslab hfix as has k l hk _ _ _ h1 hdone hd d hs hok ends st0 hopen
    i a fp ha hfp hsole hone
  refine ⟨calls, c1, fun moments st hfree hrun => ?_⟩
  obtain ⟨o1, o2⟩ := c2 moments st hfree hrun
  refine ⟨_, fun t => ?_, fun t ht => ?_, o1, o2⟩
  · rw [byThread_filter, ← sent_left (passes l) progs h1 t, List.filter_append]
    exact List.prefix_append _ _
  · rw [byThread_filter, ← sent_left (passes l) progs h1 t, ht]
    simp [Log.Spec.logged]

/-! ## The negation -/

variable {R : Type} {enabled : R → Bool} {n : Nat} {owner : Nat → Nat} {root : Nat → Bool}

/-- Without the logger everything goes as in `Model/Process`. -/
theorem cores_life {l l' : Life} {tr : List LifeAct} (h : LifeRun n l tr l') (g : Log.Sys R) (hp : ∀ a ∈ tr, a.plain = true) :
    CoresRun enabled n owner root ⟨l, g⟩ (tr.map .life) ⟨l', g⟩ := by
  induction h with
  | nil => exact .nil
  | @snoc t u tr a _ hs ih =>
    rw [List.map_append]
    exact .snoc (ih (fun b hb => hp b (List.mem_append_left _ hb))) (.life ⟨t, g⟩ a u (hp a (by simp)) hs)

theorem logPart_life (tr : List LifeAct) : logPart (tr.map (CoresAct.life : LifeAct → CoresAct R)) = [] := by
  induction tr with
  | nil => rfl
  | cons a tr ih => simpa [logPart] using ih

/-- All threads are created and take the lock, and the main thread waits for it. -/
theorem life_all_hold (n : Nat) (hn : 0 < n) : ∃ tr, LifeRun n .start tr ⟨.waiting, List.replicate n .holding, 0, 0⟩ ∧ (∀ a ∈ tr, a.plain = true) ∧
    LifeAct.spawnFail ∉ tr := by
  have h1 := LifeRun.snoc (life_spawned n n (Nat.le_refl _)) (.spawnDone _ rfl)
  have h2 : ∀ k, k ≤ n → LifeRun n .start (List.replicate n .spawn ++ [.spawnDone] ++ (List.range k).map .take)
      ⟨.polling, List.replicate k .holding ++ List.replicate (n - k) .spawned, 0, 0⟩ := by
    intro k hk
    induction k with
    | zero => simpa using h1
    | succ k ih =>
      obtain ⟨m, hm⟩ : ∃ m, n - k = m + 1 := ⟨n - k - 1, by omega⟩
      have := ih (by omega)
      rw [hm, List.replicate_succ] at this
      have h3 := LifeRun.snoc this (.take _ k (by simp) (by simp))
      rw [List.range_succ, List.map_append, ← List.append_assoc, show n - (k + 1) = m from by omega, List.replicate_succ' (n := k)]
      simpa using h3
  have h3 := h2 n (Nat.le_refl _)
  rw [Nat.sub_self, List.replicate_zero, List.append_nil] at h3
  refine ⟨_, LifeRun.snoc h3 (.giveUp _ rfl (fun h => h .holding (by simp; omega) rfl)), ?_, by simp⟩
  intro a ha
  simp only [List.mem_append, List.mem_replicate, List.mem_map, List.mem_range, List.mem_singleton] at ha
  rcases ha with ((⟨_, rfl⟩ | rfl) | ⟨_, _, rfl⟩) | rfl <;> rfl

/-- All threads end, and the main thread gets the lock. -/
theorem life_all_end (n : Nat) : ∃ tr, LifeRun n ⟨.waiting, List.replicate n .holding, 0, 0⟩ tr ⟨.returned, List.replicate n .ended, 0, 0⟩ ∧
    (∀ a ∈ tr, a.plain = true) ∧ LifeAct.spawnFail ∉ tr := by
  have h2 : ∀ k, k ≤ n → LifeRun n ⟨.waiting, List.replicate n .holding, 0, 0⟩ ((List.range k).map .release)
      ⟨.waiting, List.replicate k .ended ++ List.replicate (n - k) .holding, 0, 0⟩ := by
    intro k hk
    induction k with
    | zero => exact .nil _
    | succ k ih =>
      obtain ⟨m, hm⟩ : ∃ m, n - k = m + 1 := ⟨n - k - 1, by omega⟩
      have := ih (by omega)
      rw [hm, List.replicate_succ] at this
      have h3 := LifeRun.snoc this (.release _ k (by simp) (by simp))
      rw [List.range_succ, List.map_append, show n - (k + 1) = m from by omega, List.replicate_succ' (n := k)]
      simpa using h3
  have h3 := h2 n (Nat.le_refl _)
  rw [Nat.sub_self, List.replicate_zero, List.append_nil] at h3
  refine ⟨_, LifeRun.snoc h3 (.enter _ rfl (by intro t ht; simp at ht; rw [ht.2]; decide)), ?_, by simp⟩
  intro a ha
  simp only [List.mem_append, List.mem_map, List.mem_range, List.mem_singleton] at ha
  rcases ha with ⟨_, _, rfl⟩ | rfl <;> rfl

/-- A task logs all its records. -/
theorem cores_sends (life : Life) (t : Nat) (ht : life.threads[owner t]? = some .holding) (hx : life.main ≠ .exited) (rs : List R)
    (hen : ∀ r ∈ rs, enabled r = true) (g : Log.Sys R) (hg : g.guard = .live) (hr : g.phases t = .ready) (hp : g.progs t = rs.map .log) (hc : g.consumer ≠ .dead) :
    CoresRun enabled n owner root ⟨life, g⟩ (rs.map (fun r => .log (.send t r)))
      ⟨life, { g with progs := Log.update g.progs t [], queue := g.queue ++ rs.map (fun r => .item t r) }⟩ := by
  induction rs generalizing g with
  | nil =>
    have : Log.update g.progs t [] = g.progs := by
      funext j; simp only [Log.update]; split
      · rename_i h; rw [h, hp]; rfl
      · rfl
    simp only [List.map_nil, List.append_nil, this]
    exact .nil
  | cons r rs ih =>
    have h1 := CoresRun.one (enabled := enabled) (n := n) (owner := owner) (root := root)
      (.log ⟨life, g⟩ (.send t r) _ hx rfl (fun u hu => by cases hu; exact ht) (fun u hu => by cases hu)
        (.send g t r (rs.map .log) hg hr hp (hen r (by simp)) hc))
    have h2 := ih (fun r hr => hen r (by simp [hr])) { g with progs := Log.update g.progs t (rs.map .log), queue := g.queue ++ [.item t r] } hg hr
      (by simp [Log.update]) hc
    have h3 := h1.trans h2
    have e : Log.update (Log.update g.progs t (rs.map .log)) t [] = Log.update g.progs t [] := by
      funext j; simp only [Log.update]; split <;> rfl
    simp only [e, List.append_assoc, List.cons_append, List.nil_append] at h3
    exact h3

/-- The logger hands over all records in its queue. -/
theorem cores_handed (life : Life) (hx : life.main ≠ .exited) (t : Nat) (rs : List R) (g : Log.Sys R) (hq : g.queue = rs.map (fun r => .item t r))
    (hc : g.consumer = .idle) :
    CoresRun enabled n owner root ⟨life, g⟩ (rs.flatMap (fun r => [.log .recv, .log (.write t r)])) ⟨life, { g with queue := [] }⟩ := by
  induction rs generalizing g with
  | nil =>
    have : { g with queue := [] } = g := by
      obtain ⟨⟩ := g
      simp only [List.map_nil] at hq
      simp [hq]
    rw [this]
    exact .nil
  | cons r rs ih =>
    have h1 := CoresRun.one (enabled := enabled) (n := n) (owner := owner) (root := root)
      (.log ⟨life, g⟩ .recv _ hx rfl (fun u hu => by cases hu) (fun u hu => by cases hu) (.recvItem g t r _ hc hq))
    have h2 := CoresRun.snoc h1 (.log _ (.write t r) _ hx rfl (fun u hu => by cases hu) (fun u hu => by cases hu) (.write _ t r rfl))
    have h3 := ih { g with queue := rs.map (fun r => .item t r), consumer := .idle } rfl rfl
    rw [← hc] at h2 h3
    exact h2.trans h3

/-- A task logs, all services end, and the process ends before the last flush. -/
theorem cores_unflushed (enabled : R → Bool) (n : Nat) (owner : Nat → Nat) (root : Nat → Bool) (progs : Nat → List (Log.Call R)) (t : Nat) (ht : owner t < n)
    (rs : List R) (hp : progs t = rs.map .log) (hen : ∀ r ∈ rs, enabled r = true) :
    ∃ tr s, CoresRun enabled n owner root (coresStart progs) tr s ∧ s.life.main = .exited ∧ s.life.threads = List.replicate n .ended ∧ .life .spawnFail ∉ tr ∧
      s.log.progs t = [] ∧ Log.Spec.sends (logPart tr) = rs.map (fun r => (t, r)) ∧ Log.Spec.writes (logPart tr) = rs.map (fun r => (t, r)) ∧ .flush ∉ logPart tr := by
  obtain ⟨tr1, h1, p1, f1⟩ := life_all_hold n (by omega)
  obtain ⟨tr2, h2, p2, f2⟩ := life_all_end n
  have g1 : CoresRun enabled n owner root (coresStart progs) _ _ := cores_life h1 (Log.start progs) p1
  have g2 := g1.trans (cores_sends _ t (by simp [ht]) (by simp) rs hen (Log.start progs) rfl rfl hp (by simp [Log.start]))
  have g3 := g2.trans (cores_life h2 _ p2)
  have g4 := CoresRun.snoc g3 (.free _ _ _ (.freeLogger _ (.inl rfl)) (.drop _ rfl))
  have g5 := g4.trans (cores_handed _ (by simp) t rs _ rfl rfl)
  have g6 := CoresRun.snoc g5 (.log _ .closed _ (by simp) rfl (fun u hu => by cases hu) (fun u hu => by cases hu) (.closed _ rfl rfl (by simp)))
  have g7 := CoresRun.snoc g6 (.log _ .signal _ (by simp) rfl (fun u hu => by cases hu) (fun u hu => by cases hu) (.signal _ rfl))
  have g8 := CoresRun.snoc g7 (.freed _ _ _ (.freeConfig _ rfl) (.dropRet _ rfl rfl))
  have g9 := CoresRun.snoc g8 (.life _ .exit _ rfl (.exit _ rfl))
  have a1 : ∀ rs : List R, logPart (rs.map (fun r => CoresAct.log (.send t r))) = rs.map (fun r => .send t r) := by
    intro rs
    induction rs with
    | nil => rfl
    | cons r rs ih => simp only [List.map_cons, logPart, ih]
  have a2 : ∀ rs : List R, logPart (rs.flatMap (fun r => [CoresAct.log .recv, .log (.write t r)])) = rs.flatMap (fun r => [.recv, .write t r]) := by
    intro rs
    induction rs with
    | nil => rfl
    | cons r rs ih =>
      rw [List.flatMap_cons, List.flatMap_cons, logPart_append, ih]; rfl
  have a3 : ∀ rs : List R, Log.Spec.sends (rs.map (fun r => Log.Act.send t r)) = rs.map (fun r => (t, r)) ∧ Log.Spec.writes (rs.map (fun r => Log.Act.send t r)) = [] := by
    intro rs
    induction rs with
    | nil => exact ⟨rfl, rfl⟩
    | cons r rs ih =>
      rw [List.map_cons, ← List.singleton_append, Log.sends_append, Log.writes_append, ih.1, ih.2]; exact ⟨rfl, rfl⟩
  have a4 : ∀ rs : List R, Log.Spec.sends (rs.flatMap (fun r => [Log.Act.recv, .write t r])) = [] ∧
      Log.Spec.writes (rs.flatMap (fun r => [Log.Act.recv, .write t r])) = rs.map (fun r => (t, r)) := by
    intro rs
    induction rs with
    | nil => exact ⟨rfl, rfl⟩
    | cons r rs ih =>
      rw [List.flatMap_cons, Log.sends_append, Log.writes_append, ih.1, ih.2]; exact ⟨rfl, rfl⟩
  refine ⟨_, _, g9, rfl, rfl, ?_, by simp [Log.update], ?_, ?_, ?_⟩
  · simp [f1, f2]
  · simp only [logPart_append, Log.sends_append, logPart_life, a1, a2, (a3 _).1, (a4 _).1]
    simp [logPart, Log.Spec.sends]
  · simp only [logPart_append, Log.writes_append, logPart_life, a1, a2, (a3 _).2, (a4 _).2]
    simp [logPart, Log.Spec.writes]
  · simp only [logPart_append, logPart_life, a1, a2, List.mem_append, List.mem_map, List.mem_flatMap]
    simp [logPart]

/-- **C217**, negation for the code as written: whatever is configured, whatever number of services there is and whatever one of their tasks logs, if the
lines together are shorter than the smallest buffer: the process can end, all threads having been created and having ended and the task having logged all its
records, while the log file is as it was before the start. -/
theorem C217_lost_violated {U : Unicode} (hU : LawfulUnicode U) (pathExists openOk : Str → Bool) (order : List Str → List Str)
    (horder : ∀ l, (order l).Perm l) (c c' : Config) (hslab : c.slab = []) (hfix : c.autofix pathExists = some c')
    (as : List AppenderInit) (has : c'.appenders openOk = some as) (k : Consumer) (l : Level)
    (hk : c'.startLogging U openOk order true = .value (k, l))
    (n : Nat) (owner : Nat → Nat) (root : Nat → Bool) (progs : Nat → List (Log.Call Item)) (t : Nat) (ht : owner t < n)
    (rs : List Item) (hp : progs t = rs.map .log) (hen : ∀ r ∈ rs, passes l r = true) (hd : ∀ r ∈ rs, Deliverable as r)
    (hlen : (linesOf (rs.map (fun r => (t, r)))).length < 8092)
    (d : Disk) (hs : Sane d) (hok : NoFail d) (ends : Nat → Nat) (st0 : Disk × List Dest) (hopen : openDests d ends as = some st0)
    (i : Nat) (a : AppenderInit) (fp : Str) (ha : as[i]? = some a) (hfp : a.path = some fp) (hdaily : a.daily = false)
    (hsole : SoleName d fp) (hone : ∀ j b, as[j]? = some b → b.path = some fp → j = i) :
    ∃ tr s, CoresRun (passes l) n owner root (coresStart progs) tr s ∧ s.life.main = .exited ∧ s.life.threads = List.replicate n .ended ∧ .life .spawnFail ∉ tr ∧
      Log.Spec.byThread t (Log.Spec.sends (logPart tr)) = rs ∧
      ∃ calls, k.calls (logPart tr) k.bufs = some calls ∧ ∀ moments st, FreeDests st0 moments calls →
        callDests st0 moments calls = .value st → content st.1 fp = content d fp := by
  obtain ⟨tr, s, h1, h2, h3, h4, _, h6, h7, h8⟩ := cores_unflushed (passes l) n owner root progs t ht rs hp hen
  refine ⟨tr, s, h1, h2, h3, h4, ?_, ?_⟩
  · rw [h6]
    clear hlen hd hen hp h1 h2 h3 h4 h6 h7 h8
    induction rs with
    | nil => rfl
    | cons r rs ih =>
      rw [List.map_cons, ← List.singleton_append, Log.byThread_append, ih]
      simp [Log.Spec.byThread]
  · exact unflushed_files hU pathExists openOk order horder c c' hslab hfix as has k l hk (logPart tr)
      (fun p hp => by rw [h7] at hp; obtain ⟨r, hr, rfl⟩ := List.mem_map.mp hp; exact hd r hr) h8 (by rw [h7]; exact hlen) d hs hok ends st0 hopen
      i a fp ha hfp hdaily hsole hone

/-! ## Examples -/

/-- One service: a connection (task 7) logs a record, then the service (task 0) its error. With `last` the thread of the logger flushes at its end. -/
def oneCore (last : List (CoresAct Item)) : List (CoresAct Item) :=
  [.life .spawn, .life .spawnDone, .life (.take 0), .life .giveUp, .log (.send 7 (sampleItems[1])), .log (.send 0 (sayHow 0 .err)), .life (.release 0), .life .enter, .free,
    .log .recv, .log (.write 7 (sampleItems[1])), .log .recv, .log (.write 0 (sayHow 0 .err)), .log .closed, .log .signal] ++ last ++ [.freed, .life .exit]

/-- What they log. -/
def oneProgs : Nat → List (Log.Call Item) := fun t => if t = 7 then sampleItems.tail.map .log else if t = 0 then [.log (sayHow 0 .err)] else []

/-- Both are runs of the process to its end, with nothing left to log. -/
example : (∃ s, CoresRun (passes .trace) 1 (fun _ => 0) (fun t => t = 0) (coresStart oneProgs) (oneCore [.log .flush]) s ∧
      s.life.main = .exited ∧ s.log.consumer = .done ∧ s.log.progs 0 = [] ∧ s.log.progs 7 = []) ∧
    (∃ s, CoresRun (passes .trace) 1 (fun _ => 0) (fun t => t = 0) (coresStart oneProgs) (oneCore []) s ∧ s.life.main = .exited ∧ s.log.progs 0 = [] ∧ s.log.progs 7 = []) := by
  have h : ∃ s, CoresRun (passes .trace) 1 (fun _ => 0) (fun t => t = 0) (coresStart oneProgs) ([.life .spawn, .life .spawnDone, .life (.take 0), .life .giveUp,
      .log (.send 7 (sampleItems[1])), .log (.send 0 (sayHow 0 .err)), .life (.release 0), .life .enter, .free,
      .log .recv, .log (.write 7 (sampleItems[1])), .log .recv, .log (.write 0 (sayHow 0 .err)), .log .closed, .log .signal]) s ∧ s.life.main = .unlogged ∧
      s.log.consumer = .lastFlush ∧ s.log.guard = .waiting ∧ s.log.signal = true ∧ s.log.progs 0 = [] ∧ s.log.progs 7 = [] := by
    have h1 : CoresRun (passes .trace) 1 (fun _ => 0) (fun t => t = 0) (coresStart oneProgs) [.life .spawn] _ :=
      CoresRun.one (.life _ .spawn _ rfl (.spawn _ 0 rfl (by decide)))
    have h2 := h1.snoc (.life _ .spawnDone _ rfl (.spawnDone _ rfl))
    have h3 := h2.snoc (.life _ (.take 0) _ rfl (.take _ 0 (by simp) rfl))
    have h4 := h3.snoc (.life _ .giveUp _ rfl (.giveUp _ rfl (fun h => h .holding (by simp [coresStart, Life.start]) rfl)))
    have h5 := h4.snoc (.log _ (.send 7 (sampleItems[1])) _ (by simp) rfl (fun t ht => by cases ht; rfl) (fun t ht => by cases ht)
      (.send _ 7 _ [] rfl rfl rfl (by decide) (by simp [coresStart, Log.start])))
    have h6 := h5.snoc (.log _ (.send 0 (sayHow 0 .err)) _ (by simp) rfl (fun t ht => by cases ht; rfl) (fun t ht => by cases ht)
      (.send _ 0 _ [] rfl rfl rfl (by decide) (by simp [coresStart, Log.start])))
    have h7 := h6.snoc (.life _ (.release 0) _ rfl (.release _ 0 (by simp) rfl))
    have h8 := h7.snoc (.life _ .enter _ rfl (.enter _ rfl (by intro t ht; simp [coresStart, Life.start] at ht; subst ht; decide)))
    have h9 := h8.snoc (.free _ _ _ (.freeLogger _ (.inl rfl)) (.drop _ rfl))
    have h10 := h9.snoc (.log _ .recv _ (by simp) rfl (fun t ht => by cases ht) (fun t ht => by cases ht) (.recvItem _ 7 _ _ rfl rfl))
    have h11 := h10.snoc (.log _ (.write 7 _) _ (by simp) rfl (fun t ht => by cases ht) (fun t ht => by cases ht) (.write _ 7 _ rfl))
    have h12 := h11.snoc (.log _ .recv _ (by simp) rfl (fun t ht => by cases ht) (fun t ht => by cases ht) (.recvItem _ 0 _ _ rfl rfl))
    have h13 := h12.snoc (.log _ (.write 0 _) _ (by simp) rfl (fun t ht => by cases ht) (fun t ht => by cases ht) (.write _ 0 _ rfl))
    have h14 := h13.snoc (.log _ .closed _ (by simp) rfl (fun t ht => by cases ht) (fun t ht => by cases ht) (.closed _ rfl rfl (by simp)))
    have h15 := h14.snoc (.log _ .signal _ (by simp) rfl (fun t ht => by cases ht) (fun t ht => by cases ht) (.signal _ rfl))
    exact ⟨_, h15, rfl, rfl, rfl, rfl, rfl, rfl⟩
  obtain ⟨s, h, e1, e2, e3, e4, e5, e6⟩ := h
  constructor
  · have g := h.snoc (.log _ .flush _ (by simp [e1]) rfl (fun t ht => by cases ht) (fun t ht => by cases ht) (.lastFlush _ e2))
    have g' := g.snoc (.freed _ _ _ (.freeConfig _ e1) (.dropRet _ e3 e4))
    exact ⟨_, g'.snoc (.life _ .exit _ rfl (.exit _ rfl)), rfl, rfl, e5, e6⟩
  · have g' := h.snoc (.freed _ _ _ (.freeConfig _ e1) (.dropRet _ e3 e4))
    exact ⟨_, g'.snoc (.life _ .exit _ rfl (.exit _ rfl)), rfl, e5, e6⟩

/-- In the first the file for the root has both lines, in the second it is empty. -/
example : ([[.log .flush], []].map (fun last => match (twoFiles.autofix (fun _ => true)).map (fun c => c.startLogging asciiOnly (fun _ => true) id true) with
    | some (.value (k, _)) =>
      match k.calls (logPart (oneCore last)) k.bufs, openDests emptyDisk (fun _ => 100) twoFilesAppenders with
      | some calls, some st0 =>
        match callDests st0 ticking calls with
        | .value st => some (content st.1 u!"./logs//httpd.TRACE.log")
        | _ => none
      | _, _ => none
    | _ => none)) = [some (jsonRender (sampleItems[1]) ++ jsonRender (sayHow 0 .err)), some []] := by decide +kernel

end Httpd
