import Verif.Model.Process
/-! # C128: nothing is used after it is freed, at the end of the process -/

namespace Httpd

theorem LifeRun.trans {n : Nat} {s t u : Life} {a b : List LifeAct} (h1 : LifeRun n s a t) (h2 : LifeRun n t b u) :
    LifeRun n s (a ++ b) u := by
  induction h2 with
  | nil => simpa using h1
  | snoc _ hs ih => rw [← List.append_assoc]; exact .snoc ih hs

theorem LifeRun.one {n : Nat} {s t : Life} {a : LifeAct} (h : LifeStep n s a t) : LifeRun n s [a] t := by
  have := LifeRun.snoc (.nil s) h
  simpa using this

/-- All threads can be spawned before any of them runs. -/
theorem life_spawned (n k : Nat) (hk : k ≤ n) :
    LifeRun n .start (List.replicate k .spawn) ⟨.spawning k, List.replicate k .spawned, 0, 0⟩ := by
  induction k with
  | zero => exact .nil _
  | succ k ih =>
    have := LifeStep.spawn (n := n) ⟨.spawning k, List.replicate k .spawned, 0, 0⟩ k rfl (by omega)
    rw [List.replicate_succ', List.replicate_succ']
    exact .snoc (ih (by omega)) this

/-- A thread that holds the lock when the logger and the configuration are gone uses both as often as it likes. -/
theorem life_misuse {n : Nat} {s0 s : Life} {tr0 : List LifeAct} (h0 : LifeRun n s0 tr0 s) (i : Nat) (hi : s.threads[i]? = some .holding) (hm : s.main = .unlogged) (a b : Nat) :
    ∃ tr, LifeRun n s0 (tr0 ++ tr) { s with main := .unconfigured, badLogs := s.badLogs + a, badReads := s.badReads + b } ∧
      tr = List.replicate a (.log i) ++ [.freeConfig] ++ List.replicate b (.read i) := by
  have h1 : ∀ a, LifeRun n s (List.replicate a (.log i)) { s with badLogs := s.badLogs + a } := by
    intro a
    induction a with
    | zero => exact .nil _
    | succ a ih =>
      rw [List.replicate_succ']
      have := LifeStep.log (n := n) { s with badLogs := s.badLogs + a } i (by simp [hm]) hi
      simp only [hm, Phase.noLogger, ↓reduceIte] at this
      have e : s.badLogs + (a + 1) = s.badLogs + a + 1 := by omega
      rw [e]
      exact .snoc ih (by simpa [hm] using this)
  have h2 : LifeStep n { s with badLogs := s.badLogs + a } .freeConfig { s with main := .unconfigured, badLogs := s.badLogs + a } :=
    .freeConfig _ hm
  have h3 : ∀ b, LifeRun n { s with main := .unconfigured, badLogs := s.badLogs + a } (List.replicate b (.read i))
      { s with main := .unconfigured, badLogs := s.badLogs + a, badReads := s.badReads + b } := by
    intro b
    induction b with
    | zero => exact .nil _
    | succ b ih =>
      rw [List.replicate_succ']
      have := LifeStep.read (n := n) { s with main := .unconfigured, badLogs := s.badLogs + a, badReads := s.badReads + b } i (by simp) hi
      exact .snoc ih (by simpa [Phase.noConfig, Nat.add_assoc] using this)
  exact ⟨_, h0.trans (((h1 a).snoc h2).trans (h3 b)), rfl⟩

/-- **C128**, negation for the code as written: whenever there are two or more services, there is an execution of per-core mode in which
nothing fails, the main thread leaves before the second service has begun, and that service then sends any number of records through
the freed dispatcher and reads the freed configuration any number of times. -/
theorem C128_race_violated (n : Nat) (hn : 2 ≤ n) (a b : Nat) :
    ∃ tr s, LifeRun n .start tr s ∧ LifeAct.spawnFail ∉ tr ∧ s.badLogs = a ∧ s.badReads = b ∧
      tr.count (.log 1) = a ∧ tr.count (.read 1) = b := by
  obtain ⟨m, rfl⟩ : ∃ m, n = m + 2 := ⟨n - 2, by omega⟩
  have h0 := life_spawned (m + 2) (m + 2) (Nat.le_refl _)
  have h1 := LifeRun.snoc h0 (.spawnDone _ rfl)
  have h2 := LifeRun.snoc h1 (.take _ 0 (by simp) rfl)
  have h3 := LifeRun.snoc h2 (.giveUp _ rfl (fun h => h .holding (by simp [List.replicate_succ]) rfl))
  have h4 := LifeRun.snoc h3 (.release _ 0 (by simp) (by simp [List.replicate_succ]))
  have h5 := LifeRun.snoc h4 (.enter _ rfl (by
    intro t ht
    simp only [List.replicate_succ, List.set_cons_zero, List.mem_cons, List.mem_replicate] at ht
    rcases ht with rfl | rfl | ⟨_, rfl⟩ <;> decide))
  have h6 := LifeRun.snoc h5 (.freeLogger _ (Or.inl rfl))
  have h7 := LifeRun.snoc h6 (.take _ 1 (by simp) (by simp [List.replicate_succ]))
  obtain ⟨tr, h8, htr⟩ := life_misuse h7 1 (by simp [List.replicate_succ]) rfl a b
  refine ⟨_, _, h8, ?_, by simp, by simp, ?_, ?_⟩
  · subst htr; simp [List.mem_replicate]
  · subst htr; simp [List.count_replicate]
  · subst htr; simp [List.count_replicate]

/-- **C128**, negation for the code as written: if the thread of a service cannot be created, the services before it are left running
without logger and configuration. For every number of services and every position after the first. -/
theorem C128_spawn_failed_violated (n k : Nat) (h1k : 1 ≤ k) (hk : k < n) (a b : Nat) :
    ∃ tr s, LifeRun n .start tr s ∧ s.badLogs = a ∧ s.badReads = b ∧ s.threads.length = k := by
  obtain ⟨m, rfl⟩ : ∃ m, k = m + 1 := ⟨k - 1, by omega⟩
  have h0 := life_spawned n (m + 1) (by omega)
  have h2 := LifeRun.snoc h0 (.take _ 0 (by simp) rfl)
  have h3 := LifeRun.snoc h2 (.spawnFail _ (m + 1) rfl hk)
  have h6 := LifeRun.snoc h3 (.freeLogger _ (Or.inr rfl))
  obtain ⟨tr, h8, htr⟩ := life_misuse h6 0 (by simp [List.replicate_succ]) rfl a b
  exact ⟨_, _, h8, by simp, by simp, by simp⟩

/-- What holds as long as no thread has been late and none could not be created. -/
structure Life.Good (n : Nat) (s : Life) : Prop where
  clean : s.badLogs = 0 ∧ s.badReads = 0
  noFail : s.main ≠ .failed
  gone : s.main = .returned ∨ s.main.noLogger = true → ∀ t ∈ s.threads, t = .ended

theorem Life.good_step {n : Nat} {t u : Life} {a : LifeAct} (hg : t.Good n) (hfail : a ≠ .spawnFail)
    (hwait : t.main = .waiting → ∀ x ∈ t.threads, x ≠ .spawned) (hstep : LifeStep n t a u) : u.Good n := by
  have hold : ∀ i : Nat, t.threads[i]? = some .holding → t.main.noLogger = false ∧ t.main ≠ .returned := by
    intro i hi
    have hmem := List.mem_of_getElem? hi
    constructor
    · cases hh : t.main.noLogger with
      | false => rfl
      | true => exact absurd (hg.gone (Or.inr hh) _ hmem) (by decide)
    · intro hr; exact absurd (hg.gone (Or.inl hr) _ hmem) (by decide)
  have hcfg : t.main.noLogger = false → t.main.noConfig = false := by
    cases t.main <;> simp [Phase.noLogger, Phase.noConfig]
  have hset : ∀ (i : Nat) (x y : ThreadState), t.threads[i]? = some x → x ≠ .ended →
      (t.main = .returned ∨ t.main.noLogger = true → ∀ z ∈ t.threads.set i y, z = .ended) := by
    intro i x y hi hx hm
    exact absurd (hg.gone hm x (List.mem_of_getElem? hi)) hx
  cases hstep with
  | spawn k hm hk => exact ⟨hg.clean, by simp, by simp [Phase.noLogger]⟩
  | spawnFail k hm hk => exact absurd rfl hfail
  | spawnDone hm => exact ⟨hg.clean, by simp, by simp [Phase.noLogger]⟩
  | poll hm hf => exact hg
  | giveUp hm hf => exact ⟨hg.clean, by simp, by simp [Phase.noLogger]⟩
  | enter hm hf =>
    refine ⟨hg.clean, by simp, fun _ x hx => ?_⟩
    have h1 := hf x hx
    have h2 := hwait hm x hx
    cases x <;> simp_all
  | freeLogger hm =>
    have hr : t.main = .returned := by
      rcases hm with h | h
      · exact h
      · exact absurd h hg.noFail
    exact ⟨hg.clean, by simp, fun _ => hg.gone (Or.inl hr)⟩
  | freeConfig hm => exact ⟨hg.clean, by simp, fun _ => hg.gone (Or.inr (by rw [hm]; rfl))⟩
  | exit hm => exact ⟨hg.clean, by simp, fun _ => hg.gone (Or.inr (by rw [hm]; rfl))⟩
  | take i hm hi => exact ⟨hg.clean, hg.noFail, hset i _ _ hi (by decide)⟩
  | release i hm hi => exact ⟨hg.clean, hg.noFail, hset i _ _ hi (by decide)⟩
  | log i hm hi =>
    refine ⟨⟨?_, hg.clean.2⟩, hg.noFail, hg.gone⟩
    have := (hold i hi).1
    simp [this, hg.clean.1]
  | read i hm hi =>
    refine ⟨⟨hg.clean.1, ?_⟩, hg.noFail, hg.gone⟩
    have := hcfg (hold i hi).1
    simp [this, hg.clean.2]

/-- **C128**, what holds: in every execution of per-core mode in which every thread is created, and no thread takes the lock after the main
thread has begun to wait for it, nothing freed is ever used. Missing: the other executions. -/
theorem C128_no_late_thread_partial (n : Nat) (tr : List LifeAct) (s : Life) (h : LifeRun n .start tr s)
    (hfail : LifeAct.spawnFail ∉ tr)
    (hlate : ∀ (tr1 tr2 : List LifeAct) (s1 : Life), tr = tr1 ++ tr2 → LifeRun n .start tr1 s1 → LifeRun n s1 tr2 s → s1.main = .waiting →
      ∀ t ∈ s1.threads, t ≠ .spawned) :
    s.badLogs = 0 ∧ s.badReads = 0 := by
  suffices hg : s.Good n from hg.clean
  induction h with
  | nil => exact ⟨⟨rfl, rfl⟩, by simp [Life.start], by simp [Life.start, Phase.noLogger]⟩
  | @snoc t u tr a hrun hstep ih =>
    have hg : t.Good n := by
      refine ih (fun hm => hfail (by simp [hm])) ?_
      intro tr1 tr2 s1 e r1 r2 hw
      exact hlate tr1 (tr2 ++ [a]) s1 (by simp [e]) r1 (.snoc r2 hstep) hw
    have hwait : t.main = .waiting → ∀ x ∈ t.threads, x ≠ .spawned :=
      fun hw => hlate tr [a] t rfl hrun (.one hstep) hw
    exact Life.good_step hg (fun e => hfail (by simp [e])) hwait hstep

/-- Such an execution: one service that logs, ends, and then everything is freed. -/
example : ∃ tr s, LifeRun 1 .start tr s ∧ LifeAct.spawnFail ∉ tr ∧ LifeAct.log 0 ∈ tr ∧ s.main = .exited :=
  ⟨_, _, .snoc (.snoc (.snoc (.snoc (.snoc (.snoc (.snoc (.snoc (.snoc (.snoc (.nil _) (.spawn _ 0 rfl (by decide))) (.spawnDone _ rfl))
    (.take _ 0 (by simp) rfl)) (.giveUp _ rfl (fun h => h .holding (by simp [Life.start]) rfl))) (.log _ 0 (by simp) rfl))
    (.release _ 0 (by simp) rfl)) (.enter _ rfl (by intro t ht; simp [Life.start] at ht; subst ht; decide)))
    (.freeLogger _ (Or.inl rfl))) (.freeConfig _ rfl)) (.exit _ rfl), by decide, by decide, rfl⟩

end Httpd
