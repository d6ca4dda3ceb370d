import Verif.Model.LogDeath
import Verif.Props.Dispatcher
import Verif.Props.Main
/-!
# The process and the logger together (C176)
-/

namespace Httpd
open Log (Sys Call Act Step Run)

variable {R : Type}

/-! ## More calls at the end of a program -/

/-- Longer programs. -/
def moreCalls (extra : Nat → List (Call R)) (l : Sys R) : Sys R := { l with progs := fun t => l.progs t ++ extra t }

theorem update_more (f g : Nat → List (Call R)) (t : Nat) (rest : List (Call R)) :
    Log.update (fun j => f j ++ g j) t (rest ++ g t) = fun j => Log.update f t rest j ++ g j := by
  funext j
  simp only [Log.update]
  split
  · next h => rw [h]
  · rfl

/-- What threads do after their program has no influence on a step. -/
theorem step_more (enabled : R → Bool) (extra : Nat → List (Call R)) {s s' : Sys R} {a : Act R} (h : Step enabled s a s') :
    Step enabled (moreCalls extra s) a (moreCalls extra s') := by
  cases h with
  | send t r rest h1 h2 h3 h4 h5 =>
    have := Step.send (enabled := enabled) (moreCalls extra s) t r (rest ++ extra t) h1 h2 (by simp [moreCalls, h3]) h4 h5
    simpa only [moreCalls, update_more] using this
  | skip t r rest h1 h2 h3 h4 =>
    have := Step.skip (enabled := enabled) (moreCalls extra s) t r (rest ++ extra t) h1 h2 (by simp [moreCalls, h3]) h4
    simpa only [moreCalls, update_more] using this
  | logPanic t r rest h1 h2 h3 h4 h5 => exact .logPanic (moreCalls extra s) t r (rest ++ extra t) h1 h2 (by simp [moreCalls, h3]) h4 h5
  | flushPanic t rest h1 h2 h3 h4 => exact .flushPanic (moreCalls extra s) t (rest ++ extra t) h1 h2 (by simp [moreCalls, h3]) h4
  | flushCall t rest h1 h2 h3 h4 =>
    have := Step.flushCall (enabled := enabled) (moreCalls extra s) t (rest ++ extra t) h1 h2 (by simp [moreCalls, h3]) h4
    simpa only [moreCalls, update_more] using this
  | flushRet t n h1 h2 => exact .flushRet (moreCalls extra s) t n h1 h2
  | recvItem t r q h1 h2 => exact .recvItem (moreCalls extra s) t r q h1 h2
  | recvFlush n q h1 h2 => exact .recvFlush (moreCalls extra s) n q h1 h2
  | write t r h1 => exact .write (moreCalls extra s) t r h1
  | flush n h1 => exact .flush (moreCalls extra s) n h1
  | store n h1 => exact .store (moreCalls extra s) n h1
  | closed h1 h2 h3 => exact .closed (moreCalls extra s) h1 h2 h3
  | signal h1 => exact .signal (moreCalls extra s) h1
  | lastFlush h1 => exact .lastFlush (moreCalls extra s) h1
  | crash t r h1 => exact .crash (moreCalls extra s) t r h1
  | crashFlush n h1 => exact .crashFlush (moreCalls extra s) n h1
  | drop h1 => exact .drop (moreCalls extra s) h1
  | dropRet h1 h2 => exact .dropRet (moreCalls extra s) h1 h2

theorem run_more (enabled : R → Bool) (extra : Nat → List (Call R)) {s s' : Sys R} {tr : List (Act R)} (h : Run enabled s tr s') :
    Run enabled (moreCalls extra s) tr (moreCalls extra s') := by
  induction h with
  | nil => exact .nil
  | snoc _ hs ih => exact .snoc ih (step_more enabled extra hs)

/-- Giving the main thread a record to log is the same as having had it in its program from the start. -/
theorem withRecord_run (enabled : R → Bool) (progs : Nat → List (Call R)) {l : Sys R} {tr : List (Act R)} (r : R)
    (h : Run enabled (Log.start progs) tr l) (h0 : l.progs 0 = []) :
    ∃ progs' : Nat → List (Call R), Run enabled (Log.start progs') tr (withRecord l r) := by
  refine ⟨fun t => progs t ++ if t = 0 then [.log r] else [], ?_⟩
  have := run_more enabled (fun t => if t = 0 then [.log r] else []) h
  have e : moreCalls (fun t => if t = 0 then [.log r] else []) l = withRecord l r := by
    simp only [moreCalls, withRecord]
    congr 1
    funext t
    simp only [Log.update]
    split
    · next ht => rw [ht, h0]; rfl
    · simp
  rw [e] at this
  exact this

/-! ## Invariant -/

/-- What a reachable state is like. -/
structure WholeInv (enabled : R → Bool) (n : Nat) (tr : List (WholeAct R)) (s : Whole R) : Prop where
  /-- the logger is in a state it reaches by itself, with some programs, and has crashed if it has -/
  log : ∃ (progs : Nat → List (Call R)) (ltr : List (Act R)), Run enabled (Log.start progs) ltr s.log ∧ (Act.crash ∈ ltr ↔ .log .crash ∈ tr)
  main : s.main = .joining → s.log.guard = .live ∧ s.log.phases 0 = .ready ∧ s.log.progs 0 = [] ∧ s.tasks.length = n
  leaving : ∀ c, s.main = .leaving c → s.log.guard ≠ .returned ∧ s.tasks = [] ∧ (c = 0 ∧ (∀ i, i < n → ∃ o, .finish i o ∈ tr) ∨ .log .crash ∈ tr)
  exited : ∀ c, s.main = .exited c → s.tasks = [] ∧ s.log.guard = .returned ∧ (c = 0 ∧ (∀ i, i < n → ∃ o, .finish i o ∈ tr) ∨ .log .crash ∈ tr)
  tasks : ∀ i t, s.tasks[i]? = some t → t = .running ∨ ∃ o, .finish i o ∈ tr
  finished : ∀ i o, .finish i o ∈ tr → s.tasks[i]? ≠ some .running

/-- The consumer and the signal. -/
theorem signal_set (enabled : R → Bool) (progs : Nat → List (Call R)) {tr : List (Act R)} {s : Sys R} (h : Run enabled (Log.start progs) tr s) :
    (s.consumer = .done → s.signal = true) ∧ (s.consumer = .lastFlush → s.signal = true) := by
  induction h with
  | nil => simp [Log.start]
  | snoc _ hs ih => cases hs <;> simp_all

/-- The actions of other threads leave the main thread alone. -/
theorem others_main (enabled : R → Bool) {s s' : Sys R} {a : Act R} (h : Step enabled s a s') (hg : actGuard a = false)
    (ht : ∀ t, actThread a = some t → t ≠ 0) : s'.phases 0 = s.phases 0 ∧ s'.progs 0 = s.progs 0 ∧ s'.guard = s.guard := by
  cases h <;> simp_all [actThread, actGuard, Log.update] <;> omega

/-- Every thread that panics is up against a consumer that has. -/
theorem panic_dead (enabled : R → Bool) {s s' : Sys R} {t : Nat} (h : Step enabled s (.panic t) s') :
    s.consumer = .dead ∧ s'.consumer = .dead ∧ s'.guard = .live := by
  cases h <;> simp_all

theorem whole_inv (enabled : R → Bool) (record : Nat → TaskEnd → R) (n : Nat) (progs : Nat → List (Call R)) {tr : List (WholeAct R)}
    {s : Whole R} (h : WholeRun enabled record (wholeStart n progs) tr s) : WholeInv enabled n tr s := by
  induction h with
  | nil =>
    refine ⟨⟨_, [], .nil, by simp⟩, fun _ => ⟨rfl, rfl, by simp [wholeStart, Log.start, Log.update], by simp [wholeStart]⟩,
      fun c hc => by simp [wholeStart] at hc, fun c hc => by simp [wholeStart] at hc, fun i t ht => Or.inl ?_, by simp⟩
    simp only [wholeStart] at ht
    have := List.mem_of_getElem? ht
    exact List.eq_of_mem_replicate this
  | @snoc tr t u a _ hs ih =>
    obtain ⟨⟨progs', ltr, hl, hlc⟩, hm, hlv, hex, htk, hfin⟩ := ih
    have mono : ∀ i, (∃ o, .finish i o ∈ tr) → ∃ o, .finish i o ∈ tr ++ [a] :=
      fun i ⟨o, ho⟩ => ⟨o, List.mem_append_left _ ho⟩
    have monoC : WholeAct.log Act.crash ∈ tr → WholeAct.log Act.crash ∈ tr ++ [a] := fun h => List.mem_append_left _ h
    cases hs with
    | finish i o h1 h2 =>
      refine ⟨⟨progs', ltr, hl, by simp [hlc]⟩, fun h => ?_, fun c hc => by simp [h1] at hc, fun c hc => by simp [h1] at hc, ?_, ?_⟩
      · obtain ⟨a1, a2, a3, a4⟩ := hm h
        exact ⟨a1, a2, a3, by simpa using a4⟩
      · intro j tj hj
        simp only [List.getElem?_set] at hj
        split at hj
        · next hij => exact Or.inr ⟨o, by simp [hij]⟩
        · exact (htk j tj hj).imp id (mono j)
      · intro j p hj hr
        simp only [List.getElem?_set] at hr
        split at hr
        · split at hr <;> simp at hr
        · next hij =>
          simp only [List.mem_append, List.mem_singleton, WholeAct.finish.injEq] at hj
          rcases hj with hj | hj
          · exact hfin j p hj hr
          · exact hij hj.1.symm
    | joinOk i h1 h2 =>
      refine ⟨⟨progs', ltr, hl, by simp [hlc]⟩, fun h => ?_, fun c hc => by simp [h1] at hc, fun c hc => by simp [h1] at hc, ?_, ?_⟩
      · obtain ⟨a1, a2, a3, a4⟩ := hm h
        exact ⟨a1, a2, a3, by simpa using a4⟩
      · intro j tj hj
        simp only [List.getElem?_set] at hj
        split at hj
        · next hij =>
          subst hij
          rcases htk i _ h2 with h | h
          · cases h
          · exact Or.inr (mono i h)
        · exact (htk j tj hj).imp id (mono j)
      · intro j p hj hr
        simp only [List.getElem?_set] at hr
        split at hr
        · split at hr <;> simp at hr
        · next hij =>
          simp only [List.mem_append, List.mem_singleton, reduceCtorEq, or_false] at hj
          exact hfin j p hj hr
    | joinLog i o b l h1 h2 h3 h4 h5 =>
      obtain ⟨a1, a2, a3, a4⟩ := hm h1
      obtain ⟨progs2, hl2⟩ := withRecord_run enabled progs' (record i o) hl a3
      have hb : b ≠ Act.crash := by rcases h5 with rfl | rfl <;> simp
      refine ⟨⟨progs2, ltr ++ [b], .snoc hl2 h4, ?_⟩, fun _ => ?_, fun c hc => by simp [h1] at hc, fun c hc => by simp [h1] at hc, ?_, ?_⟩
      · simp [hlc, Ne.symm hb]
      · refine ⟨?_, ?_, ?_, by simpa using a4⟩
        · rcases h5 with rfl | rfl <;> cases h4 <;> exact a1
        · rcases h5 with rfl | rfl <;> cases h4 <;> exact a2
        · rcases h5 with rfl | rfl <;> cases h4 <;> simp_all [withRecord, Log.update]
      · intro j tj hj
        simp only [List.getElem?_set] at hj
        split at hj
        · next hij =>
          subst hij
          rcases htk i _ h2 with h | h
          · cases h
          · exact Or.inr (mono i h)
        · exact (htk j tj hj).imp id (mono j)
      · intro j p hj hr
        simp only [List.getElem?_set] at hr
        split at hr
        · split at hr <;> simp at hr
        · next hij =>
          simp only [List.mem_append, List.mem_singleton, reduceCtorEq, or_false] at hj
          exact hfin j p hj hr
    | joinPanic i o l h1 h2 h3 h4 =>
      obtain ⟨a1, a2, a3, a4⟩ := hm h1
      obtain ⟨progs2, hl2⟩ := withRecord_run enabled progs' (record i o) hl a3
      obtain ⟨p1, p2, p3⟩ := panic_dead enabled h4
      have hc : WholeAct.log Act.crash ∈ tr := hlc.mp ((Log.dead_iff enabled progs2 hl2).mp p1)
      refine ⟨⟨progs2, ltr ++ [.panic 0], .snoc hl2 h4, by simp [hlc]⟩, fun h => by simp at h, fun c hc' => ?_, fun c hc => by simp at hc, ?_, by simp⟩
      · exact ⟨by simp [p3], rfl, Or.inr (monoC hc)⟩
      · intro j tj hj; simp at hj
    | ret h1 h2 =>
      obtain ⟨a1, a2, a3, a4⟩ := hm h1
      refine ⟨⟨progs', ltr, hl, by simp [hlc]⟩, fun h => by simp at h, fun c hc => ?_, fun c hc => by simp at hc, fun j tj hj => by simp at hj, by simp⟩
      refine ⟨by simp [a1], rfl, Or.inl ⟨by simpa using hc.symm, fun i hi => ?_⟩⟩
      have hi' : i < t.tasks.length := by omega
      obtain ⟨o, ho⟩ := h2 _ (List.getElem_mem hi')
      rcases htk i _ (List.getElem?_eq_getElem hi') with h | h
      · rw [h] at ho; cases ho
      · exact mono i h
    | drop c l h1 h2 =>
      refine ⟨⟨progs', ltr ++ [.drop], .snoc hl h2, by simp [hlc]⟩, fun h => by simp [h1] at h, fun c' hc => ?_, fun c hc => by simp [h1] at hc,
        fun j tj hj => (htk j tj hj).imp id (mono j), fun j p hj => hfin j p (by simpa using hj)⟩
      obtain ⟨b1, b2, b3⟩ := hlv c' hc
      refine ⟨?_, b2, b3.imp (fun ⟨x, y⟩ => ⟨x, fun i hi => mono i (y i hi)⟩) monoC⟩
      cases h2; simp
    | exit c l h1 h2 =>
      obtain ⟨b1, b2, b3⟩ := hlv c h1
      refine ⟨⟨progs', ltr ++ [.dropRet], .snoc hl h2, by simp [hlc]⟩, fun h => by simp at h, fun c' hc => by simp at hc, fun c' hc => ?_,
        fun j tj hj => (htk j tj hj).imp id (mono j), fun j p hj => hfin j p (by simpa using hj)⟩
      simp only [MainAt.exited.injEq] at hc
      subst hc
      refine ⟨b2, ?_, b3.imp (fun ⟨x, y⟩ => ⟨x, fun i hi => mono i (y i hi)⟩) monoC⟩
      cases h2; rfl
    | log b l h1 h2 h3 h4 =>
      obtain ⟨o1, o2, o3⟩ := others_main enabled h4 h2 (fun t ht => (h3 t ht).1)
      refine ⟨⟨progs', ltr ++ [b], .snoc hl h4, ?_⟩, fun h => ?_, fun c hc => ?_, fun c hc => ?_, fun j tj hj => (htk j tj hj).imp id (mono j), fun j p hj => hfin j p (by simpa using hj)⟩
      · simp only [List.mem_append, List.mem_singleton, WholeAct.log.injEq, hlc]
      · obtain ⟨a1, a2, a3, a4⟩ := hm h
        exact ⟨o3.trans a1, o1.trans a2, o2.trans a3, a4⟩
      · obtain ⟨b1, b2, b3⟩ := hlv c hc
        exact ⟨by simpa only [o3] using b1, b2, b3.imp (fun ⟨x, y⟩ => ⟨x, fun i hi => mono i (y i hi)⟩) monoC⟩
      · exact absurd hc (h1 c)

theorem WholeRun.trans {enabled : R → Bool} {record : Nat → TaskEnd → R} {s t u : Whole R} {a b : List (WholeAct R)}
    (h1 : WholeRun enabled record s a t) (h2 : WholeRun enabled record t b u) : WholeRun enabled record s (a ++ b) u := by
  induction h2 with
  | nil => simpa using h1
  | snoc _ hs ih => rw [← List.append_assoc]; exact .snoc ih hs

theorem WholeRun.one {enabled : R → Bool} {record : Nat → TaskEnd → R} {s t : Whole R} {a : WholeAct R}
    (h : WholeStep enabled record s a t) : WholeRun enabled record s [a] t := by
  simpa using WholeRun.snoc (WholeRun.nil (enabled := enabled) (record := record) (s := s)) h

/-! ## The negation -/

/-- **C176**, negation for the code as written: once the logger's thread has panicked, the process does not end any more, whatever
happens; and when a service fails whose record passes the level, joining it stops all other services, for good. -/
theorem C176_hangs_violated (enabled : R → Bool) (record : Nat → TaskEnd → R) (n : Nat) (progs : Nat → List (Call R)) (tr : List (WholeAct R))
    (s : Whole R) (h : WholeRun enabled record (wholeStart n progs) tr s) (hcrash : .log .crash ∈ tr) :
    (∀ tr' s', WholeRun enabled record s tr' s' → ∀ c, s'.main ≠ .exited c) ∧
    (∀ i o, s.main = .joining → s.tasks[i]? = some (.ended o) → o ≠ .ok → enabled (record i o) = true →
      (∃ s', WholeStep enabled record s (.join i o) s') ∧
      ∀ s' tr' s'', WholeStep enabled record s (.join i o) s' → WholeRun enabled record s' tr' s'' →
        s''.main = .leaving 101 ∧ ∀ j : Nat, s''.tasks[j]? ≠ some TaskState.running) := by
  have never : ∀ tr' s', WholeRun enabled record s tr' s' → ∀ c, s'.main ≠ .exited c := by
    intro tr' s' hr c hc
    obtain ⟨⟨progs', ltr, hl, hlc⟩, _, _, hex, _, _⟩ := whole_inv enabled record n progs (h.trans hr)
    have hcr : Act.crash ∈ ltr := hlc.mpr (List.mem_append_left _ hcrash)
    have hg := (hex c hc).2.1
    have hd := (Log.dead_iff enabled progs' hl).mpr hcr
    have hsig := ((Log.inv_run enabled progs' hl).dead hd).2
    have : s'.log.guard = .returned → s'.log.signal = true := by
      clear hcr hg hd hsig hlc hex
      generalize s'.log = l at hl
      induction hl with
      | nil => simp [Log.start]
      | snoc _ hs ih => cases hs <;> simp_all
    rw [this hg] at hsig
    cases hsig
  refine ⟨never, fun i o hm hi ho hen => ?_⟩
  obtain ⟨⟨progs', ltr, hl, hlc⟩, hmain, _, _, _, _⟩ := whole_inv enabled record n progs h
  have hd := (Log.dead_iff enabled progs' hl).mpr (hlc.mpr hcrash)
  obtain ⟨a1, a2, a3, a4⟩ := hmain hm
  refine ⟨⟨_, .joinPanic s i o _ hm hi ho (.logPanic (withRecord s.log (record i o)) 0 (record i o) [] a1 a2 (by simp [withRecord, Log.update]) hen hd)⟩, ?_⟩
  intro s' tr' s'' hs hr
  have h0 : s'.main = .leaving 101 ∧ s'.tasks = [] := by
    cases hs with
    | joinOk => exact absurd rfl ho
    | joinLog _ _ b l h1 h2 h3 h4 h5 =>
      rcases h5 with rfl | rfl
      · cases h4; simp_all [withRecord]
      · cases h4; simp_all
    | joinPanic _ _ l h1 h2 h3 h4 => exact ⟨rfl, rfl⟩
  have key : ∀ c, s''.main ≠ .exited c := fun c => never (.join i o :: tr') s'' ((WholeRun.one hs).trans hr) c
  have : s''.main = .leaving 101 ∧ s''.tasks = [] := by
    clear key
    have nev : ∀ tr'' s2, WholeRun enabled record s' tr'' s2 → ∀ c, s2.main ≠ .exited c :=
      fun tr'' s2 hr2 c => never (.join i o :: tr'') s2 ((WholeRun.one hs).trans hr2) c
    induction hr with
    | nil => exact h0
    | snoc hr1 hs1 ih =>
      obtain ⟨i1, i2⟩ := ih
      have := nev _ _ (.snoc hr1 hs1)
      cases hs1 <;> simp_all
  exact ⟨this.1, fun j hj => by simp [this.2] at hj⟩

/-! ## What holds -/

/-- What a task still costs. -/
def taskWork : TaskState → Nat
  | .running => 5
  | .ended _ => 4
  | .joined _ => 0

def tasksWork (ts : List TaskState) : Nat := (ts.map taskWork).sum

theorem tasksWork_set (ts : List TaskState) (i : Nat) (a b : TaskState) (h : ts[i]? = some a) :
    tasksWork (ts.set i b) + taskWork a = tasksWork ts + taskWork b := by
  induction ts generalizing i with
  | nil => simp at h
  | cons t ts ih =>
    cases i with
    | zero =>
      simp only [List.getElem?_cons_zero, Option.some.injEq] at h
      subst h
      simp only [tasksWork, List.set_cons_zero, List.map_cons, List.sum_cons]
      omega
    | succ i =>
      simp only [List.getElem?_cons_succ] at h
      have := ih i h
      simp only [tasksWork, List.set_cons_succ, List.map_cons, List.sum_cons] at this ⊢
      omega

/-- How many actions main, the services and the consumer have left, at most. -/
def wholeWork (s : Whole R) : Nat :=
  tasksWork s.tasks + Log.work s.log + match s.main with
    | .joining => 3
    | .leaving _ => if s.log.guard = .live then 2 else 1
    | .exited _ => 0

/-- No thread of the runtime acts. -/
def WholeAct.quiet : WholeAct R → Bool
  | .log a => (actThread a).isNone
  | _ => true

theorem log_work (enabled : R → Bool) {s s' : Sys R} {a : Act R} (h : Step enabled s a s') (h1 : actThread a = none) (h2 : actGuard a = false) :
    Log.work s' < Log.work s := by
  cases h <;> simp_all [actThread, actGuard, Log.work] <;> omega

theorem wholeWork_step (enabled : R → Bool) (record : Nat → TaskEnd → R) {s s' : Whole R} {a : WholeAct R}
    (h : WholeStep enabled record s a s') (ha : a.quiet = true) : wholeWork s' < wholeWork s := by
  cases h with
  | finish i o h1 h2 =>
    have := tasksWork_set s.tasks i _ (.ended o) h2
    simp only [wholeWork, taskWork] at this ⊢
    omega
  | joinOk i h1 h2 =>
    have := tasksWork_set s.tasks i _ (.joined .ok) h2
    simp only [wholeWork, taskWork] at this ⊢
    omega
  | joinLog i o b l h1 h2 h3 h4 h5 =>
    have := tasksWork_set s.tasks i _ (.joined o) h2
    have hw : Log.work l ≤ Log.work s.log + 3 := by
      rcases h5 with rfl | rfl <;> cases h4 <;> simp [Log.work, withRecord] <;> omega
    simp only [wholeWork, taskWork, h1] at this ⊢
    omega
  | joinPanic i o l h1 h2 h3 h4 =>
    have hw : Log.work l = Log.work s.log := by
      cases h4 <;> rfl
    simp only [wholeWork, h1, hw]
    simp only [tasksWork, List.map_nil, List.sum_nil]
    split <;> omega
  | ret h1 h2 =>
    simp only [wholeWork, h1]
    simp only [tasksWork, List.map_nil, List.sum_nil]
    split <;> omega
  | drop c l h1 h2 =>
    cases h2 with
    | drop hg => simp [wholeWork, h1, hg, Log.work]
  | exit c l h1 h2 =>
    cases h2 with
    | dropRet hg hs => simp [wholeWork, h1, hg, Log.work]
  | log b l h1 h2 h3 h4 =>
    have hn : actThread b = none := by simpa [WholeAct.quiet] using ha
    have hw := log_work enabled h4 hn h2
    have hg := (others_main enabled h4 h2 (fun t ht => (h3 t ht).1)).2.2
    simp only [wholeWork, hg]
    omega

theorem wholeWork_run (enabled : R → Bool) (record : Nat → TaskEnd → R) {s s' : Whole R} {tr : List (WholeAct R)}
    (h : WholeRun enabled record s tr s') (ha : ∀ a ∈ tr, a.quiet = true) : tr.length + wholeWork s' ≤ wholeWork s := by
  induction h with
  | nil => simp
  | snoc _ hs ih =>
    have h1 := ih (fun a ha' => ha a (List.mem_append_left _ ha'))
    have h2 := wholeWork_step enabled record hs (ha _ (List.mem_append_right _ (List.mem_singleton.mpr rfl)))
    simp only [List.length_append, List.length_cons, List.length_nil]
    omega

/-- When all services have ended, main or the consumer can act until the process has ended. -/
theorem whole_progress (enabled : R → Bool) (record : Nat → TaskEnd → R) (n : Nat) (progs : Nat → List (Call R)) {tr : List (WholeAct R)}
    {s : Whole R} (h : WholeRun enabled record (wholeStart n progs) tr s) (hno : .log .crash ∉ tr)
    (hover : ∀ t ∈ s.tasks, t ≠ .running) (hne : ∀ c, s.main ≠ .exited c) :
    ∃ a s', a.quiet = true ∧ a ≠ .log .crash ∧ WholeStep enabled record s a s' ∧ ∀ t ∈ s'.tasks, t ≠ .running := by
  obtain ⟨⟨progs', ltr, hl, hlc⟩, hm, hlv, hex, htk, hfin⟩ := whole_inv enabled record n progs h
  have hd : s.log.consumer ≠ .dead := fun hd => hno (hlc.mp ((Log.dead_iff enabled progs' hl).mp hd))
  cases hmain : s.main with
  | joining =>
    obtain ⟨a1, a2, a3, a4⟩ := hm hmain
    by_cases hall : ∀ t ∈ s.tasks, ∃ o, t = .joined o
    · exact ⟨.ret, _, rfl, by simp, .ret s hmain hall, by simp⟩
    · have : ∃ t ∈ s.tasks, ∃ o, t = .ended o := by
        obtain ⟨t, ht⟩ := Classical.not_forall.mp hall
        obtain ⟨ht, hj⟩ := Classical.not_imp.mp ht
        refine ⟨t, ht, ?_⟩
        cases t with
        | running => exact absurd rfl (hover _ ht)
        | ended o => exact ⟨o, rfl⟩
        | joined o => exact absurd ⟨o, rfl⟩ hj
      obtain ⟨t, ht, o, rfl⟩ := this
      obtain ⟨i, hi, hget⟩ := List.mem_iff_getElem.mp ht
      have hget? : s.tasks[i]? = some (.ended o) := by rw [List.getElem?_eq_getElem hi, hget]
      have hset : ∀ t ∈ s.tasks.set i (.joined o), t ≠ .running := by
        intro t ht
        rcases List.mem_or_eq_of_mem_set ht with h | rfl
        · exact hover t h
        · simp
      by_cases ho : o = .ok
      · subst ho
        exact ⟨.join i .ok, _, rfl, by simp, .joinOk s i hmain hget?, hset⟩
      · by_cases hen : enabled (record i o) = true
        · exact ⟨.join i o, _, rfl, by simp,
            .joinLog s i o (.send 0 (record i o)) _ hmain hget? ho
              (.send (withRecord s.log (record i o)) 0 (record i o) [] a1 a2 (by simp [withRecord, Log.update]) hen hd) (Or.inl rfl), hset⟩
        · exact ⟨.join i o, _, rfl, by simp,
            .joinLog s i o (.skip 0 (record i o)) _ hmain hget? ho
              (.skip (withRecord s.log (record i o)) 0 (record i o) [] a1 a2 (by simp [withRecord, Log.update]) (by simpa using hen)) (Or.inr rfl), hset⟩
  | leaving c =>
    obtain ⟨b1, b2, b3⟩ := hlv c hmain
    cases hg : s.log.guard with
    | live => exact ⟨.drop, _, rfl, by simp, .drop s c _ hmain (.drop s.log hg), hover⟩
    | returned => exact absurd hg b1
    | waiting =>
      rcases Log.consumer_step enabled s.log hd with ⟨a, l, ha, hs⟩ | ⟨_, _, hlive⟩ | hdone
      · refine ⟨.log a, _, ?_, ?_, .log s a l hne ?_ ?_ hs, hover⟩
        · cases a <;> simp_all [Act.ofConsumer, WholeAct.quiet, actThread]
        · rintro h; cases h; simp [Act.ofConsumer] at ha
        · cases a <;> simp_all [Act.ofConsumer, actGuard]
        · intro t ht; cases a <;> simp_all [Act.ofConsumer, actThread]
      · rw [hg] at hlive; cases hlive
      · exact ⟨.exit, _, rfl, by simp, .exit s c _ hmain (.dropRet s.log hg ((signal_set enabled progs' hl).1 hdone)), hover⟩
  | exited c => exact absurd hmain (hne c)

theorem whole_ends (enabled : R → Bool) (record : Nat → TaskEnd → R) (n : Nat) (progs : Nat → List (Call R)) (m : Nat) {tr : List (WholeAct R)}
    {s : Whole R} (h : WholeRun enabled record (wholeStart n progs) tr s) (hno : .log .crash ∉ tr)
    (hover : ∀ t ∈ s.tasks, t ≠ .running) (hm : wholeWork s ≤ m) :
    ∃ tr' s', WholeRun enabled record s tr' s' ∧ .log .crash ∉ tr' ∧ ∃ c, s'.main = .exited c := by
  induction m generalizing s tr with
  | zero =>
    by_cases hne : ∃ c, s.main = .exited c
    · exact ⟨[], s, .nil, by simp, hne⟩
    · obtain ⟨a, s1, h1, h2, h3, h4⟩ := whole_progress enabled record n progs h hno hover (fun c hc => hne ⟨c, hc⟩)
      have := wholeWork_step enabled record h3 h1
      omega
  | succ m ih =>
    by_cases hne : ∃ c, s.main = .exited c
    · exact ⟨[], s, .nil, by simp, hne⟩
    · obtain ⟨a, s1, h1, h2, h3, h4⟩ := whole_progress enabled record n progs h hno hover (fun c hc => hne ⟨c, hc⟩)
      have := wholeWork_step enabled record h3 h1
      obtain ⟨tr', s', r1, r2, r3⟩ := ih (.snoc h h3) (by simp [hno, Ne.symm h2]) h4 (by omega)
      exact ⟨a :: tr', s', (WholeRun.one h3).trans r1, by simp [r2, Ne.symm h2], r3⟩

/-- **C176**, what holds: as long as the logger's thread does not panic, every service that has not ended by itself runs on; the process
ends only after all services have, and then with status 0; and when all have ended, it can end, there is no way for main, the services
and the logger to go on for ever. Missing from C176: see `C176_hangs_violated`. -/
theorem C176_ends_partial (enabled : R → Bool) (record : Nat → TaskEnd → R) (n : Nat) (progs : Nat → List (Call R)) (tr : List (WholeAct R))
    (s : Whole R) (h : WholeRun enabled record (wholeStart n progs) tr s) (hno : .log .crash ∉ tr) :
    (∀ i, i < n → s.tasks[i]? = some .running ∨ ∃ o, .finish i o ∈ tr) ∧
    (∀ c, s.main = .exited c → c = 0 ∧ ∀ i, i < n → ∃ o, .finish i o ∈ tr) ∧
    ((∀ i, i < n → ∃ o, .finish i o ∈ tr) → ∃ tr' s', WholeRun enabled record s tr' s' ∧ .log .crash ∉ tr' ∧ s'.main = .exited 0) ∧
    (∃ bound, ∀ tr' s', WholeRun enabled record s tr' s' → (∀ a ∈ tr', a.quiet = true) → tr'.length ≤ bound) := by
  have inv := whole_inv enabled record n progs h
  refine ⟨fun i hi => ?_, fun c hc => ?_, fun hall => ?_, wholeWork s, fun tr' s' hr ha => ?_⟩
  · cases hmain : s.main with
    | joining =>
      have hlen := (inv.main hmain).2.2.2
      have hi' : i < s.tasks.length := by omega
      rcases inv.tasks i _ (List.getElem?_eq_getElem hi') with h' | h'
      · left; rw [List.getElem?_eq_getElem hi', h']
      · exact Or.inr h'
    | leaving c =>
      rcases (inv.leaving c hmain).2.2 with ⟨_, h'⟩ | h'
      · exact Or.inr (h' i hi)
      · exact absurd h' hno
    | exited c =>
      rcases (inv.exited c hmain).2.2 with ⟨_, h'⟩ | h'
      · exact Or.inr (h' i hi)
      · exact absurd h' hno
  · rcases (inv.exited c hc).2.2 with h' | h'
    · exact h'
    · exact absurd h' hno
  · have hover : ∀ t ∈ s.tasks, t ≠ .running := by
      intro t ht
      obtain ⟨i, hi, hget⟩ := List.mem_iff_getElem.mp ht
      have hin : i < n := by
        cases hmain : s.main with
        | joining => have := (inv.main hmain).2.2.2; omega
        | leaving c => simp [(inv.leaving c hmain).2.1] at ht
        | exited c => simp [(inv.exited c hmain).1] at ht
      obtain ⟨o, ho⟩ := hall i hin
      rintro rfl
      exact inv.finished i o ho (by rw [List.getElem?_eq_getElem hi, hget])
    obtain ⟨tr', s', r1, r2, c, r3⟩ := whole_ends enabled record n progs _ h hno hover (Nat.le_refl _)
    refine ⟨tr', s', r1, r2, ?_⟩
    rcases ((whole_inv enabled record n progs (h.trans r1)).exited c r3).2.2 with ⟨rfl, _⟩ | h'
    · exact r3
    · rcases List.mem_append.mp h' with h' | h'
      · exact absurd h' hno
      · exact absurd h' r2
  · have := wholeWork_run enabled record hr ha
    omega

/-! ## Examples -/

/-- The records of the example: what the join loop says about a service. -/
def sayFailed (i : Nat) (_ : TaskEnd) : Nat := 100 + i

/-- Three services; a connection's thread logs something, the logger's thread panics over it, service 1 fails while services 0 and 2 run. -/
theorem death_example : ∃ s, WholeRun (fun _ => true) sayFailed (wholeStart 3 (fun t => if t = 7 then [.log 5] else []))
      [.log (.send 7 5), .log .recv, .log .crash, .finish 1 .err] s ∧ s.main = .joining ∧
    s.tasks = [.running, .ended .err, .running] := by
  refine ⟨_, .snoc (.snoc (.snoc (.snoc .nil (.log _ (.send 7 5) _ ?_ rfl ?_ (.send _ 7 5 [] rfl rfl rfl rfl ?_)))
    (.log _ .recv _ ?_ rfl ?_ (.recvItem _ 7 5 [] rfl rfl))) (.log _ .crash _ ?_ rfl ?_ (.crash _ 7 5 rfl))) (.finish _ 1 .err rfl rfl), rfl, rfl⟩
  all_goals simp [wholeStart, actThread, Log.start]

/-- Then the join loop takes service 1 out and the other two are gone, for good. -/
example : ∃ s s', WholeRun (fun _ => true) sayFailed (wholeStart 3 (fun t => if t = 7 then [.log 5] else []))
      [.log (.send 7 5), .log .recv, .log .crash, .finish 1 .err] s ∧ s.tasks[0]? = some .running ∧
    WholeStep (fun _ => true) sayFailed s (.join 1 .err) s' ∧ ∀ j : Nat, s'.tasks[j]? ≠ some .running := by
  obtain ⟨s, h1, h2, h3⟩ := death_example
  obtain ⟨s', hs⟩ := ((C176_hangs_violated _ _ _ _ _ s h1 (by simp)).2 1 .err h2 (by simp [h3]) (by simp) rfl).1
  exact ⟨s, s', h1, by simp [h3], hs, (((C176_hangs_violated _ _ _ _ _ s h1 (by simp)).2 1 .err h2 (by simp [h3]) (by simp) rfl).2 s' [] s' hs .nil).2⟩

/-- Without the panic: one of two services fails and is joined, the other runs on. -/
example : ∃ s, WholeRun (fun _ => true) sayFailed (wholeStart 2 (fun _ => [])) [.finish 0 .panic, .join 0 .panic] s ∧
    s.tasks = [.joined .panic, .running] := by
  refine ⟨_, .snoc (.snoc .nil (.finish _ 0 .panic rfl rfl)) (.joinLog _ 0 .panic (.send 0 100) _ rfl rfl (by simp)
    (.send _ 0 100 [] rfl rfl (by simp [withRecord, Log.update, sayFailed]) rfl ?_) (Or.inl rfl)), rfl⟩
  simp [wholeStart, withRecord, Log.start]

end Httpd
