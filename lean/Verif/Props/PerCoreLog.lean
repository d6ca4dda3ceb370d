import Verif.Model.PerCoreLog
import Verif.Props.Process
import Verif.Props.LogDeath
/-!
# C190: per-core mode and the logger together
-/

namespace Httpd
open Log (Sys Call Act Step Run)

variable {R : Type} {enabled : R → Bool} {n : Nat} {owner : Nat → Nat} {root : Nat → Bool}

theorem CoresRun.trans {s t u : Cores R} {a b : List (CoresAct R)} (h1 : CoresRun enabled n owner root s a t)
    (h2 : CoresRun enabled n owner root t b u) : CoresRun enabled n owner root s (a ++ b) u := by
  induction h2 with
  | nil => simpa using h1
  | snoc _ hs ih => rw [← List.append_assoc]; exact .snoc ih hs

theorem CoresRun.one {s t : Cores R} {a : CoresAct R} (h : CoresStep enabled n owner root s a t) : CoresRun enabled n owner root s [a] t := by
  simpa using CoresRun.snoc (CoresRun.nil (enabled := enabled) (n := n) (owner := owner) (root := root) (s := s)) h

theorem logPart_append (a b : List (CoresAct R)) : logPart (a ++ b) = logPart a ++ logPart b := by
  induction a with
  | nil => rfl
  | cons x a ih => cases x <;> simp [logPart, ih]

theorem crash_logPart (tr : List (CoresAct R)) : Act.crash ∈ logPart tr ↔ CoresAct.log Act.crash ∈ tr := by
  induction tr with
  | nil => simp [logPart]
  | cons a tr ih => cases a <;> simp [logPart, ih]

/-- The logger's part of a run is a run of the logger. -/
theorem cores_log (progs : Nat → List (Call R)) {tr : List (CoresAct R)} {s : Cores R}
    (h : CoresRun enabled n owner root (coresStart progs) tr s) : Run enabled (Log.start progs) (logPart tr) s.log := by
  induction h with
  | nil => exact .nil
  | snoc _ hs ih =>
    rw [logPart_append]
    cases hs with
    | life a l h1 h2 => simpa [logPart] using ih
    | late i l h1 h2 => simpa [logPart] using ih
    | free l g h1 h2 => exact .snoc ih h2
    | freed l g h1 h2 => exact .snoc ih h2
    | log a g h1 h2 h3 h4 h5 => exact .snoc ih h5
    | down t l g h1 h2 h3 => exact .snoc ih h3

/-- What a reachable state is like. -/
structure CoresInv (tr : List (CoresAct R)) (owner : Nat → Nat) (root : Nat → Bool) (s : Cores R) : Prop where
  live : s.life.main.noLogger = false → s.log.guard = .live
  waiting : s.life.main = .unlogged → s.log.guard = .waiting
  gone : s.life.main.noConfig = true → s.log.guard = .returned ∧ .dropRet ∈ logPart tr
  ended : ∀ i : Nat, s.life.threads[i]? = some .ended → CoresAct.life (.release i) ∈ tr ∨ ∃ t, root t = true ∧ owner t = i ∧ .down t ∈ tr

theorem log_guard {s s' : Sys R} {a : Act R} (h : Step enabled s a s') (hg : actGuard a = false) : s'.guard = s.guard := by
  cases h <;> simp_all [actGuard]

theorem cores_inv (progs : Nat → List (Call R)) {tr : List (CoresAct R)} {s : Cores R}
    (h : CoresRun enabled n owner root (coresStart progs) tr s) : CoresInv tr owner root s := by
  induction h with
  | nil => exact ⟨fun _ => rfl, by simp [coresStart, Life.start], by simp [coresStart, Life.start, Phase.noConfig], by simp [coresStart, Life.start]⟩
  | @snoc tr s u x _ hs ih =>
    obtain ⟨i1, i2, i3, i4⟩ := ih
    have mono : ∀ i : Nat, (CoresAct.life (.release i) ∈ tr ∨ ∃ t, root t = true ∧ owner t = i ∧ .down t ∈ tr) →
        CoresAct.life (.release i) ∈ tr ++ [x] ∨ ∃ t, root t = true ∧ owner t = i ∧ .down t ∈ tr ++ [x] := by
      rintro i (h | ⟨t, a, b, c⟩)
      · exact .inl (List.mem_append_left _ h)
      · exact .inr ⟨t, a, b, List.mem_append_left _ c⟩
    have monoD : Act.dropRet ∈ logPart tr → Act.dropRet ∈ logPart (tr ++ [x]) := by
      intro h; rw [logPart_append]; exact List.mem_append_left _ h
    cases hs with
    | life a l h1 h2 =>
      cases h2 with
      | spawn k g1 g2 =>
        refine ⟨fun _ => i1 (by rw [g1]; rfl), by simp, by simp [Phase.noConfig], fun i hi => mono i (i4 i ?_)⟩
        simp only [List.getElem?_append] at hi
        split at hi
        · exact hi
        · have := List.mem_of_getElem? hi; simp at this
      | spawnFail k g1 g2 => exact ⟨fun _ => i1 (by rw [g1]; rfl), by simp, by simp [Phase.noConfig], fun i hi => mono i (i4 i hi)⟩
      | spawnDone g1 => exact ⟨fun _ => i1 (by rw [g1]; rfl), by simp, by simp [Phase.noConfig], fun i hi => mono i (i4 i hi)⟩
      | poll g1 g2 => exact ⟨i1, i2, fun h => ⟨(i3 h).1, monoD (i3 h).2⟩, fun i hi => mono i (i4 i hi)⟩
      | giveUp g1 g2 => exact ⟨fun _ => i1 (by rw [g1]; rfl), by simp, by simp [Phase.noConfig], fun i hi => mono i (i4 i hi)⟩
      | enter g1 g2 => exact ⟨fun _ => i1 (by rw [g1]; rfl), by simp, by simp [Phase.noConfig], fun i hi => mono i (i4 i hi)⟩
      | freeLogger g => simp [LifeAct.plain] at h1
      | freeConfig g => simp [LifeAct.plain] at h1
      | exit g1 => 
        have := i3 (by rw [g1]; rfl)
        exact ⟨by simp [Phase.noLogger], by simp, fun _ => ⟨this.1, monoD this.2⟩, fun i hi => mono i (i4 i hi)⟩
      | take j g1 g2 =>
        refine ⟨i1, i2, fun h => ⟨(i3 h).1, monoD (i3 h).2⟩, fun i hi => mono i (i4 i ?_)⟩
        simp only [List.getElem?_set] at hi
        split at hi
        · split at hi <;> simp at hi
        · exact hi
      | release j g1 g2 =>
        refine ⟨i1, i2, fun h => ⟨(i3 h).1, monoD (i3 h).2⟩, fun i hi => ?_⟩
        by_cases hij : j = i
        · subst hij; exact .inl (by simp)
        · rw [List.getElem?_set_ne hij] at hi
          exact mono i (i4 i hi)
      | log j g1 g2 => simp [LifeAct.plain] at h1
      | read j g1 g2 => exact ⟨i1, i2, fun h => ⟨(i3 h).1, monoD (i3 h).2⟩, fun i hi => mono i (i4 i hi)⟩
    | late i l h1 h2 =>
      cases h2 with
      | log j g1 g2 => exact ⟨i1, i2, fun h => ⟨(i3 h).1, monoD (i3 h).2⟩, fun i hi => mono i (i4 i hi)⟩
    | free l g h1 h2 =>
      cases h1; cases h2
      exact ⟨by simp [Phase.noLogger], by simp, by simp [Phase.noConfig], fun i hi => mono i (i4 i hi)⟩
    | freed l g h1 h2 =>
      cases h1; cases h2
      exact ⟨by simp [Phase.noLogger], by simp, by simp [logPart_append, logPart], fun i hi => mono i (i4 i hi)⟩
    | log a g h1 h2 h3 h4 h5 =>
      have hg := log_guard h5 h2
      exact ⟨fun h => hg.trans (i1 h), fun h => hg.trans (i2 h), fun h => ⟨hg.trans (i3 h).1, monoD (i3 h).2⟩, fun i hi => mono i (i4 i hi)⟩
    | down t l g h1 h2 h3 =>
      have hg := log_guard h3 rfl
      cases h2 with
      | release _ g1 g2 =>
        refine ⟨fun h => hg.trans (i1 h), fun h => hg.trans (i2 h), fun h => ⟨hg.trans (i3 h).1, monoD (i3 h).2⟩, fun i hi => ?_⟩
        by_cases hij : owner t = i
        · exact .inr ⟨t, h1, hij, by simp⟩
        · rw [List.getElem?_set_ne hij] at hi
          exact mono i (i4 i hi)

/-! ## The negations -/

/-- **C190**, negation for the code as written: once the logger's thread has panicked, the process does not end any more, whatever the
services do. -/
theorem C190_hangs_violated (progs : Nat → List (Call R)) (tr : List (CoresAct R)) (s : Cores R)
    (h : CoresRun enabled n owner root (coresStart progs) tr s) (hcrash : .log .crash ∈ tr) :
    ∀ tr' s', CoresRun enabled n owner root s tr' s' → s'.life.main ≠ .exited := by
  intro tr' s' hr he
  have hrun := cores_log progs (h.trans hr)
  have hd := ((cores_inv progs (h.trans hr)).gone (by rw [he]; rfl)).2
  rw [logPart_append] at hrun hd
  obtain ⟨s1, h1, h2⟩ : ∃ s1, Run enabled (Log.start progs) (logPart tr) s1 ∧ Run enabled s1 (logPart tr') s'.log := by
    refine ⟨s.log, cores_log progs h, ?_⟩
    clear hd hrun he
    induction hr with
    | nil => exact .nil
    | snoc hr1 hs ih =>
      rw [logPart_append]
      cases hs with
      | life a l h1 h2 => simpa [logPart] using ih
      | late i l h1 h2 => simpa [logPart] using ih
      | free l g h1 h2 => exact .snoc ih h2
      | freed l g h1 h2 => exact .snoc ih h2
      | log a g h1 h2 h3 h4 h5 => exact .snoc ih h5
      | down t l g h1 h2 h3 => exact .snoc ih h3
  have hc := (crash_logPart tr).mpr hcrash
  rcases List.mem_append.mp hd with hd | hd
  · have hw := (Log.inv_run enabled progs h1)
    have hdead := (Log.dead_iff enabled progs h1).mpr hc
    have hsig := (hw.dead hdead).2
    have : ∀ {t : List (Act R)} {x : Sys R}, Run enabled (Log.start progs) t x → .dropRet ∈ t → x.signal = true := by
      intro t x hx
      induction hx with
      | nil => simp
      | snoc _ hs ih =>
        intro hm
        rcases List.mem_append.mp hm with hm | hm
        · have := ih hm
          cases hs <;> simp_all
        · rw [List.mem_singleton] at hm
          subst hm
          cases hs; assumption
    rw [this h1 hd] at hsig
    cases hsig
  · exact ((Log.C93_spreads_violated enabled progs _ s1 h1 hc).2.2 _ _ h2).2.1 hd

/-- **C190**, negation for the code as written: once the logger's thread has panicked, a service whose own task has something to log goes
down over it, while the others go on: there is nothing else its task can do, and after it the thread of the service has ended and the
others are as they were. -/
theorem C190_taken_down_violated (progs : Nat → List (Call R)) (tr : List (CoresAct R)) (s : Cores R)
    (h : CoresRun enabled n owner root (coresStart progs) tr s) (hcrash : .log .crash ∈ tr) (hm : s.life.main.noLogger = false) (t : Nat)
    (hroot : root t = true) (hold : s.life.threads[owner t]? = some .holding) (r : R) (rest : List (Call R)) (hready : s.log.phases t = .ready)
    (hnext : s.log.progs t = .log r :: rest) (hen : enabled r = true) :
    (∃ s', CoresStep enabled n owner root s (.down t) s') ∧
    ∀ a s', CoresStep enabled n owner root s a s' → s'.log.progs t ≠ s.log.progs t ∨ s'.log.phases t ≠ s.log.phases t → a = .down t ∧
      s'.life.threads[owner t]? = some .ended ∧ ∀ i, i ≠ owner t → s'.life.threads[i]? = s.life.threads[i]? := by
  have hrun := cores_log progs h
  have hc := (crash_logPart tr).mpr hcrash
  have hdead := (Log.dead_iff enabled progs hrun).mpr hc
  have hlive := (cores_inv progs h).live hm
  have hne : s.life.main ≠ .exited := by intro he; rw [he] at hm; cases hm
  constructor
  · exact ⟨_, .down s t _ _ hroot (.release s.life (owner t) hne hold) (.logPanic s.log t r rest hlive hready hnext hen hdead)⟩
  · intro a s' hs hch
    have key : ∀ b g, Step enabled s.log b g → g.progs t ≠ s.log.progs t ∨ g.phases t ≠ s.log.phases t → b = .panic t :=
      fun b g hb hch => (Log.C93_spreads_violated enabled progs _ s.log hrun hc).1 t r rest b g hready hnext hen hb hch
    cases hs with
    | life a l h1 h2 => simp at hch
    | late i l h1 h2 => simp at hch
    | free l g h1 h2 => have := key _ _ h2 hch; cases this
    | freed l g h1 h2 => have := key _ _ h2 hch; cases this
    | log a g h1 h2 h3 h4 h5 =>
      have := key _ _ h5 hch
      subst this
      have := h4 t rfl
      rw [hroot] at this; cases this
    | down u l g h1 h2 h3 =>
      have := key _ _ h3 hch
      obtain rfl := Act.panic.inj this
      cases h2 with
      | release _ g1 g2 =>
        refine ⟨rfl, ?_, fun i hi => List.getElem?_set_ne (Ne.symm hi)⟩
        have hlt := (List.getElem?_eq_some_iff.mp g2).1
        simp [hlt]

/-! ## What holds -/

/-- No thread has not yet taken the lock when the main thread has begun to wait for it, at no time of the run. -/
def NoLateThread (enabled : R → Bool) (n : Nat) (owner : Nat → Nat) (root : Nat → Bool) (s0 : Cores R) (tr : List (CoresAct R)) (s : Cores R) : Prop :=
  ∀ tr1 tr2 s1, tr = tr1 ++ tr2 → CoresRun enabled n owner root s0 tr1 s1 → CoresRun enabled n owner root s1 tr2 s → s1.life.main = .waiting →
    ∀ t ∈ s1.life.threads, t ≠ .spawned

theorem cores_good (progs : Nat → List (Call R)) {tr : List (CoresAct R)} {s : Cores R}
    (h : CoresRun enabled n owner root (coresStart progs) tr s) (hfail : .life .spawnFail ∉ tr)
    (hlate : NoLateThread enabled n owner root (coresStart progs) tr s) : s.life.Good n := by
  induction h with
  | nil => exact ⟨⟨rfl, rfl⟩, by simp [coresStart, Life.start], by simp [coresStart, Life.start, Phase.noLogger]⟩
  | @snoc tr t u x hrun hs ih =>
    have hg : t.life.Good n := by
      refine ih (fun hm => hfail (by simp [hm])) ?_
      intro tr1 tr2 s1 e r1 r2 hw
      exact hlate tr1 (tr2 ++ [x]) s1 (by simp [e]) r1 (.snoc r2 hs) hw
    have hwait := hlate tr [x] t rfl hrun (.one hs)
    cases hs with
    | life a l h1 h2 => exact Life.good_step hg (by rintro rfl; exact hfail (by simp)) hwait h2
    | late i l h1 h2 => exact Life.good_step hg (by simp) hwait h2
    | free l g h1 h2 => exact Life.good_step hg (by simp) hwait h1
    | freed l g h1 h2 => exact Life.good_step hg (by simp) hwait h1
    | log a g h1 h2 h3 h4 h5 => exact hg
    | down t l g h1 h2 h3 => exact Life.good_step hg (by simp) hwait h2

/-- All `n` threads are there once the main thread has spawned them all. -/
theorem cores_threads (progs : Nat → List (Call R)) {tr : List (CoresAct R)} {s : Cores R}
    (h : CoresRun enabled n owner root (coresStart progs) tr s) (hfail : .life .spawnFail ∉ tr) :
    s.life.main ≠ .failed ∧ (∀ k, s.life.main = .spawning k → s.life.threads.length = k) ∧ ((∀ k, s.life.main ≠ .spawning k) → s.life.threads.length = n) := by
  induction h with
  | nil => simp [coresStart, Life.start]
  | @snoc tr t u x hrun hs ih =>
    have ih := ih (fun hm => hfail (by simp [hm]))
    have key : ∀ a l, a ≠ .spawnFail → LifeStep n t.life a l →
        l.main ≠ .failed ∧ (∀ k, l.main = .spawning k → l.threads.length = k) ∧ ((∀ k, l.main ≠ .spawning k) → l.threads.length = n) := by
      intro a l ha hl
      cases hl <;> simp_all
    cases hs with
    | life a l h1 h2 => exact key _ _ (by rintro rfl; exact hfail (by simp)) h2
    | late i l h1 h2 => exact key _ _ (by simp) h2
    | free l g h1 h2 => exact key _ _ (by simp) h1
    | freed l g h1 h2 => exact key _ _ (by simp) h1
    | log a g h1 h2 h3 h4 h5 => exact ih
    | down t l g h1 h2 h3 => exact key _ _ (by simp) h2

/-- The main thread is on its way out and all services have ended. -/
def Cores.Over (s : Cores R) : Prop :=
  (∀ t ∈ s.life.threads, t = .ended) ∧ (s.life.main = .waiting ∨ s.life.main = .returned ∨ s.life.main.noLogger = true)

/-- How many actions are left then, at most. -/
def coresWork (s : Cores R) : Nat :=
  Log.work s.log + match s.life.main with
    | .waiting => 5 | .returned => 4 | .unlogged => 3 | .unconfigured => 2 | _ => 0

theorem over_step {s s' : Cores R} {a : CoresAct R} (ho : s.Over) (h : CoresStep enabled n owner root s a s') :
    s'.Over ∧ coresWork s' < coresWork s := by
  obtain ⟨h1, h2⟩ := ho
  have hno : ∀ (i : Nat) x, s.life.threads[i]? = some x → x = .ended := fun i x hi => h1 x (List.mem_of_getElem? hi)
  cases h with
  | life a l g1 g2 =>
    cases g2 with
    | spawn k e => rw [e] at h2; simp [Phase.noLogger] at h2
    | spawnFail k e => rw [e] at h2; simp [Phase.noLogger] at h2
    | spawnDone e => rw [e] at h2; simp [Phase.noLogger] at h2
    | poll e => rw [e] at h2; simp [Phase.noLogger] at h2
    | giveUp e => rw [e] at h2; simp [Phase.noLogger] at h2
    | enter e => exact ⟨⟨h1, by simp⟩, by simp [coresWork, e]⟩
    | freeLogger g => simp [LifeAct.plain] at g1
    | freeConfig g => simp [LifeAct.plain] at g1
    | exit e => exact ⟨⟨h1, by simp [Phase.noLogger]⟩, by simp [coresWork, e]⟩
    | take i _ e => have := hno i _ e; cases this
    | release i _ e => have := hno i _ e; cases this
    | log i _ e => simp [LifeAct.plain] at g1
    | read i _ e => have := hno i _ e; cases this
  | late i l g1 g2 => cases g2 with | log _ _ e => have := hno i _ e; cases this
  | free l g g1 g2 =>
    cases g2
    cases g1 with
    | freeLogger e =>
      refine ⟨⟨h1, by simp [Phase.noLogger]⟩, ?_⟩
      rcases e with e | e
      · simp [coresWork, Log.work, e]
      · rw [e] at h2; simp [Phase.noLogger] at h2
  | freed l g g1 g2 =>
    cases g2
    cases g1 with
    | freeConfig e => exact ⟨⟨h1, by simp [Phase.noLogger]⟩, by simp [coresWork, Log.work, e]⟩
  | log a g g1 g2 g3 g4 g5 =>
    refine ⟨⟨h1, h2⟩, ?_⟩
    have hn : actThread a = none := by
      cases e : actThread a with
      | none => rfl
      | some t => have := hno _ _ (g3 t e); cases this
    have := log_work enabled g5 hn g2
    simp only [coresWork]
    omega
  | down t l g g1 g2 g3 => cases g2 with | release _ _ e => have := hno _ _ e; cases this

theorem over_run {s s' : Cores R} {tr : List (CoresAct R)} (ho : s.Over) (h : CoresRun enabled n owner root s tr s') :
    s'.Over ∧ tr.length + coresWork s' ≤ coresWork s := by
  induction h with
  | nil => exact ⟨ho, by simp⟩
  | snoc _ hs ih =>
    have := over_step ih.1 hs
    refine ⟨this.1, ?_⟩
    simp only [List.length_append, List.length_cons, List.length_nil]
    omega

/-- **C190**, what holds: as long as the logger's thread does not panic, all threads could be created and none of them is late (see C75,
C128), a service ends only by itself; the main thread drops the logger only after all have ended, so that no record is lost: when the
process has ended, every record of every task has been handed to the appenders, in the order in which they were sent; and once the
main thread has noticed that services run and all have ended, the process ends, after a bounded number of actions, whatever their order.
Missing from C190: see `C190_hangs_violated`, `C190_taken_down_violated` and, for the other conditions, C75 and C128. -/
theorem C190_ends_partial (progs : Nat → List (Call R)) (tr : List (CoresAct R)) (s : Cores R)
    (h : CoresRun enabled n owner root (coresStart progs) tr s) (hno : .log .crash ∉ tr) (hfail : .life .spawnFail ∉ tr)
    (hlate : NoLateThread enabled n owner root (coresStart progs) tr s) :
    (∀ i : Nat, s.life.threads[i]? = some .ended → CoresAct.life (.release i) ∈ tr) ∧
    (∀ i, CoresAct.late i ∉ tr) ∧
    (s.life.main.noLogger = true → s.life.threads = List.replicate n .ended) ∧
    (s.life.main = .exited → Log.Spec.writes (logPart tr) = Log.Spec.sends (logPart tr)) ∧
    (s.life.main = .waiting → (∀ t ∈ s.life.threads, t = .ended) → ∃ bound, ∀ tr' s', CoresRun enabled n owner root s tr' s' →
      tr'.length ≤ bound ∧ (.log .crash ∉ tr' → s'.life.main ≠ .exited →
        ∃ a s'', a ≠ .log .crash ∧ CoresStep enabled n owner root s' a s'')) := by
  have inv := cores_inv progs h
  have hrun := cores_log progs h
  have hquiet := Log.C93_quiet_partial enabled progs _ s.log hrun (fun hc => hno ((crash_logPart tr).mp hc))
  have good := cores_good progs h hfail hlate
  have hthr := cores_threads progs h hfail
  refine ⟨fun i hi => ?_, ?_, fun hn => ?_, fun he => ?_, fun hw hall => ?_⟩
  · rcases inv.ended i hi with h' | ⟨t, _, _, h'⟩
    · exact h'
    · exact absurd (by
        clear inv hquiet good hthr hrun hlate hfail hno h hi
        induction tr with
        | nil => cases h'
        | cons a tr ih =>
          rcases List.mem_cons.mp h' with rfl | h2
          · simp [logPart]
          · cases a <;> simp [logPart, ih h2]) (hquiet t)
  · intro i hm
    clear inv hquiet good hthr hrun
    induction h with
    | nil => cases hm
    | @snoc tr t u x hrun hs ih =>
      have hlate' : NoLateThread enabled n owner root (coresStart progs) tr t :=
        fun tr1 tr2 s1 e r1 r2 hw => hlate tr1 (tr2 ++ [x]) s1 (by simp [e]) r1 (.snoc r2 hs) hw
      have hfail' : .life .spawnFail ∉ tr := fun hm => hfail (by simp [hm])
      rcases List.mem_append.mp hm with hm | hm
      · exact ih (fun hm => hno (by simp [hm])) hfail' hlate' hm
      · rw [List.mem_singleton] at hm
        subst hm
        have good := cores_good progs hrun hfail' hlate'
        cases hs with
        | late _ l h1 h2 =>
          cases h2 with
          | log _ _ e =>
            have := good.gone (.inr h1) _ (List.mem_of_getElem? e)
            cases this
  · have h1 := good.gone (.inr hn)
    have h2 := hthr.2.2 (by intro k hk; rw [hk] at hn; cases hn)
    exact List.eq_replicate_iff.mpr ⟨h2, h1⟩
  · exact (Log.C68_handed_partial enabled progs _ s.log hrun).1 (inv.gone (by rw [he]; rfl)).2
  · have ho : s.Over := ⟨hall, .inl hw⟩
    refine ⟨coresWork s, fun tr' s' hr => ?_⟩
    obtain ⟨o1, o2⟩ := over_run ho hr
    refine ⟨by omega, fun hno' hne => ?_⟩
    have h' := h.trans hr
    have hrun' := cores_log progs h'
    have inv' := cores_inv progs h'
    have hd : s'.log.consumer ≠ .dead := by
      intro hd
      have := (crash_logPart _).mp ((Log.dead_iff enabled progs hrun').mp hd)
      rcases List.mem_append.mp this with h | h
      · exact hno h
      · exact hno' h
    obtain ⟨p1, p2⟩ := o1
    cases hm : s'.life.main with
    | spawning k => rw [hm] at p2; simp [Phase.noLogger] at p2
    | polling => rw [hm] at p2; simp [Phase.noLogger] at p2
    | failed => rw [hm] at p2; simp [Phase.noLogger] at p2
    | exited => exact absurd hm hne
    | waiting => exact ⟨_, _, by simp, .life s' .enter _ rfl (.enter s'.life hm (fun t ht he => by rw [p1 t ht] at he; cases he))⟩
    | returned =>
      exact ⟨_, _, by simp, .free s' _ _ (.freeLogger s'.life (.inl hm)) (.drop s'.log (inv'.live (by rw [hm]; rfl)))⟩
    | unconfigured => exact ⟨_, _, by simp, .life s' .exit _ rfl (.exit s'.life hm)⟩
    | unlogged =>
      have hg := inv'.waiting hm
      rcases Log.consumer_step enabled s'.log hd with ⟨a, l, ha, hs⟩ | ⟨_, _, hlive⟩ | hdone
      · refine ⟨.log a, _, ?_, .log s' a l hne ?_ ?_ ?_ hs⟩
        · rintro h; cases h; simp [Act.ofConsumer] at ha
        · cases a <;> simp_all [Act.ofConsumer, actGuard]
        · intro t ht; cases a <;> simp_all [Act.ofConsumer, actThread]
        · intro t ht; subst ht; simp [Act.ofConsumer] at ha
      · rw [hg] at hlive; cases hlive
      · exact ⟨_, _, by simp, .freed s' _ _ (.freeConfig s'.life hm) (.dropRet s'.log hg ((signal_set enabled progs hrun').1 hdone))⟩

/-! ## Cases meeting the hypotheses -/

/-- A thread that has taken the lock is not one that has yet to. -/
theorem taken_not_spawned (progs : Nat → List (Call R)) {tr : List (CoresAct R)} {s : Cores R}
    (h : CoresRun enabled n owner root (coresStart progs) tr s) :
    (s.life.main = .waiting → CoresAct.life .giveUp ∈ tr) ∧ s.life.threads.length ≤ n ∧
    (∀ k, s.life.main = .spawning k → s.life.threads.length = k) ∧
    ∀ i : Nat, CoresAct.life (.take i) ∈ tr → s.life.threads[i]? ≠ some .spawned ∧ i < s.life.threads.length := by
  induction h with
  | nil => simp [coresStart, Life.start]
  | @snoc tr t u x hrun hs ih =>
    obtain ⟨i1, i2, i3, i4⟩ := ih
    have key : ∀ a l, LifeStep n t.life a l →
        (l.main = .waiting → CoresAct.life .giveUp ∈ tr ∨ a = .giveUp) ∧ l.threads.length ≤ n ∧ (∀ k, l.main = .spawning k → l.threads.length = k) ∧
        ∀ i : Nat, CoresAct.life (.take i) ∈ tr ∨ a = .take i → l.threads[i]? ≠ some .spawned ∧ i < l.threads.length := by
      intro a l hl
      cases hl with
      | spawn k g1 g2 =>
        have h3 := i3 k g1
        refine ⟨by simp, by simp [h3]; omega, by simp [h3], fun i hi => ?_⟩
        have := i4 i (by simpa using hi)
        rw [List.getElem?_append_left this.2]
        exact ⟨this.1, by simp; omega⟩
      | take j g1 g2 =>
        refine ⟨fun hw => .inl (i1 hw), by simpa using i2, by simpa using i3, fun i hi => ?_⟩
        have hj := (List.getElem?_eq_some_iff.mp g2).1
        by_cases hij : j = i
        · subst hij; simp [hj]
        · rw [List.getElem?_set_ne hij]
          have := i4 i (by simpa [hij] using hi)
          simpa using this
      | release j g1 g2 =>
        refine ⟨fun hw => .inl (i1 hw), by simpa using i2, by simpa using i3, fun i hi => ?_⟩
        have hj := (List.getElem?_eq_some_iff.mp g2).1
        by_cases hij : j = i
        · subst hij; simp [hj]
        · rw [List.getElem?_set_ne hij]
          have := i4 i (by simpa [hij] using hi)
          simpa using this
      | _ => exact ⟨by simp_all, i2, by simp_all, fun i hi => i4 i (by simpa using hi)⟩
    have mem : ∀ {y : CoresAct R}, y ∈ tr → y ∈ tr ++ [x] := fun h => List.mem_append_left _ h
    cases hs with
    | life a l h1 h2 =>
      obtain ⟨k1, k2, k3, k4⟩ := key _ _ h2
      exact ⟨fun hw => by simpa [eq_comm] using k1 hw, k2, k3, fun i hi => k4 i (by simpa [eq_comm] using hi)⟩
    | late i l h1 h2 =>
      obtain ⟨k1, k2, k3, k4⟩ := key _ _ h2
      exact ⟨fun hw => by simpa using k1 hw, k2, k3, fun i hi => k4 i (by simpa using hi)⟩
    | free l g h1 h2 =>
      obtain ⟨k1, k2, k3, k4⟩ := key _ _ h1
      exact ⟨fun hw => by simpa using k1 hw, k2, k3, fun i hi => k4 i (by simpa using hi)⟩
    | freed l g h1 h2 =>
      obtain ⟨k1, k2, k3, k4⟩ := key _ _ h1
      exact ⟨fun hw => by simpa using k1 hw, k2, k3, fun i hi => k4 i (by simpa using hi)⟩
    | log a g h1 h2 h3 h4 h5 => exact ⟨fun hw => mem (i1 hw), i2, i3, fun i hi => i4 i (by simpa using hi)⟩
    | down t l g h1 h2 h3 =>
      obtain ⟨k1, k2, k3, k4⟩ := key _ _ h2
      exact ⟨fun hw => by simpa using k1 hw, k2, k3, fun i hi => k4 i (by simpa using hi)⟩

/-- If all threads have taken the lock before the main thread stops polling, none is late. -/
theorem noLate_of_taken (progs : Nat → List (Call R)) (a b : List (CoresAct R)) (s : Cores R)
    (htake : ∀ i, i < n → CoresAct.life (.take i) ∈ a) (hgive : CoresAct.life .giveUp ∉ a) :
    NoLateThread enabled n owner root (coresStart progs) (a ++ b) s := by
  intro tr1 tr2 s1 e r1 _ hw t ht hsp
  obtain ⟨k1, k2, _, k4⟩ := taken_not_spawned progs r1
  obtain ⟨i, hi, hget⟩ := List.mem_iff_getElem.mp ht
  have h1 : CoresAct.life .giveUp ∈ tr1 := k1 hw
  have h2 : a <+: tr1 := by
    rcases List.prefix_or_prefix_of_prefix ⟨b, rfl⟩ ⟨tr2, e.symm⟩ with h | h
    · exact h
    · exact absurd (h.subset h1) hgive
  exact (k4 i (h2.subset (htake i (by omega)))).1 (by rw [List.getElem?_eq_getElem hi, hget, hsp])

/-- One service; its root task 0 logs, the service ends, and the process with it. -/
example : ∃ tr s, CoresRun (fun _ : Nat => true) 1 (fun _ => 0) (fun t => t = 0) (coresStart (fun t => if t = 0 then [.log 5] else [])) tr s ∧
    s.life.main = .exited ∧ Log.Spec.sends (logPart tr) = [(0, 5)] ∧ .log .crash ∉ tr ∧ .life .spawnFail ∉ tr ∧
    NoLateThread (fun _ : Nat => true) 1 (fun _ => 0) (fun t => t = 0) (coresStart (fun t => if t = 0 then [.log 5] else [])) tr s := by
  refine ⟨_, _, .snoc (.snoc (.snoc (.snoc (.snoc (.snoc (.snoc (.snoc (.snoc (.snoc (.snoc (.snoc (.snoc (.snoc .nil
    (.life _ .spawn _ rfl (.spawn _ 0 rfl (by decide)))) (.life _ .spawnDone _ rfl (.spawnDone _ rfl)))
    (.life _ (.take 0) _ rfl (.take _ 0 (by simp) rfl)))
    (.life _ .giveUp _ rfl (.giveUp _ rfl (fun h => h .holding (by simp [coresStart, Life.start]) rfl))))
    (.log _ (.send 0 5) _ (by simp) rfl (fun t ht => by cases ht; rfl) (fun t ht => by cases ht) (.send _ 0 5 [] rfl rfl rfl rfl (by simp [coresStart, Log.start]))))
    (.life _ (.release 0) _ rfl (.release _ 0 (by simp) rfl)))
    (.life _ .enter _ rfl (.enter _ rfl (by intro t ht; simp [coresStart, Life.start] at ht; subst ht; decide))))
    (.free _ _ _ (.freeLogger _ (.inl rfl)) (.drop _ rfl)))
    (.log _ .recv _ (by simp) rfl (fun t ht => by cases ht) (fun t ht => by cases ht) (.recvItem _ 0 5 [] rfl rfl)))
    (.log _ (.write 0 5) _ (by simp) rfl (fun t ht => by cases ht) (fun t ht => by cases ht) (.write _ 0 5 rfl)))
    (.log _ .closed _ (by simp) rfl (fun t ht => by cases ht) (fun t ht => by cases ht) (.closed _ rfl rfl (by simp))))
    (.log _ .signal _ (by simp) rfl (fun t ht => by cases ht) (fun t ht => by cases ht) (.signal _ rfl)))
    (.freed _ _ _ (.freeConfig _ rfl) (.dropRet _ rfl rfl)))
    (.life _ .exit _ rfl (.exit _ rfl)), rfl, rfl, by simp, by simp, ?_⟩
  have := noLate_of_taken (enabled := fun _ : Nat => true) (n := 1) (owner := fun _ => 0) (root := fun t => t = 0) (fun t => if t = 0 then [.log 5] else [])
    [.life .spawn, .life .spawnDone, .life (.take 0)] [.life .giveUp, .log (.send 0 5), .life (.release 0), .life .enter, .free, .log .recv,
      .log (.write 0 5), .log .closed, .log .signal, .freed, .life .exit]
  exact this _ (by intro i hi; obtain rfl : i = 0 := by omega
                   simp) (by simp)

/-- Two services; the logger's thread panics over a record of a connection (task 7) of service 0; then the task of service 1 (task 1) has
something to log. -/
example : ∃ tr s, CoresRun (fun _ : Nat => true) 2 (fun t => if t = 1 then 1 else 0) (fun t => t < 2)
      (coresStart (fun t => if t = 7 then [.log 5] else if t = 1 then [.log 6] else [])) tr s ∧ .log .crash ∈ tr ∧ s.life.main.noLogger = false ∧
    s.life.threads = [.holding, .holding] ∧ s.log.phases 1 = .ready ∧ s.log.progs 1 = [.log 6] := by
  refine ⟨_, _, .snoc (.snoc (.snoc (.snoc (.snoc (.snoc (.snoc .nil
    (.life _ .spawn _ rfl (.spawn _ 0 rfl (by decide)))) (.life _ .spawn _ rfl (.spawn _ 1 rfl (by decide))))
    (.life _ (.take 0) _ rfl (.take _ 0 (by simp) rfl))) (.life _ (.take 1) _ rfl (.take _ 1 (by simp) rfl)))
    (.log _ (.send 7 5) _ (by simp) rfl (fun t ht => by cases ht; rfl) (fun t ht => by cases ht) (.send _ 7 5 [] rfl rfl rfl rfl (by simp [coresStart, Log.start]))))
    (.log _ .recv _ (by simp) rfl (fun t ht => by cases ht) (fun t ht => by cases ht) (.recvItem _ 7 5 [] rfl rfl)))
    (.log _ .crash _ (by simp) rfl (fun t ht => by cases ht) (fun t ht => by cases ht) (.crash _ 7 5 rfl)), by simp, rfl, rfl, rfl, rfl⟩

end Httpd
