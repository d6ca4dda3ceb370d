import Verif.Model.Exit
import Verif.Props.System
import Verif.Props.Process
import Verif.Props.Dispatcher
/-! # C156-C159: how the process ends -/

namespace Httpd
open Spec

/-! ## C156: a failed start -/

/-- Starting logging hangs exactly if the log files can be opened and there is no appender at all. -/
theorem hang_iff {U : Unicode} (hU : LawfulUnicode U) (pathExists openOk midnight : Str → Bool) (order : List Str → List Str)
    (horder : ∀ l, (order l).Perm l) (c c' : Config) (hslab : c.slab = []) (hfix : c.autofix pathExists = some c') (setOk : Bool) :
    c'.initLogging U openOk midnight order setOk = .hang ↔ c'.appenders openOk = some [] := by
  obtain ⟨h1, h2, h3, h4⟩ := start_spec hU pathExists openOk order horder c c' hslab hfix setOk
  constructor
  · intro h
    rw [Config.initLogging] at h
    split at h
    · cases h
    cases ha : c'.appenders openOk with
    | none => rw [h1 ha] at h; cases h
    | some as =>
      by_cases hemp : as = []
      · rw [hemp]
      · exfalso
        cases setOk with
        | false => rw [h3 as ha hemp rfl] at h; cases h
        | true =>
          obtain ⟨k, hk, _⟩ := h4 as ha hemp rfl
          rw [hk] at h
          cases h
  · intro h
    rw [initLogging_eq U openOk midnight order setOk c' [] h (by simp)]
    exact h2 [] h rfl

/-- **C156**, negation for the code as written: an accepted configuration that leaves no appender (logging disabled everywhere, or empty
lists of appenders) is not refused: the process neither serves nor ends, whatever happens; and no thread of the logging system can end
the wait. -/
theorem C156_hangs_violated {U : Unicode} (hU : LawfulUnicode U) (pathExists openOk midnight : Str → Bool) (order : List Str → List Str)
    (horder : ∀ l, (order l).Perm l) (c c' : Config) (hslab : c.slab = []) (hfix : c.autofix pathExists = some c') (setOk : Bool)
    (happ : c'.appenders openOk = some []) :
    (∀ {C K : Type} (x : ProcEnv C K),
      mainExit x (mainStart (.value c') (fun c => c.initLogging U openOk midnight order setOk)) = ([], .running)) ∧
    ∀ (R : Type) (enabled : R → Bool) (progs : Nat → List (Log.Call R)) (tr : List (Log.Act R)) (s : Log.Sys R),
      Log.Run enabled { Log.start progs with consumer := .dead } tr s → Log.Act.dropRet ∉ tr := by
  refine ⟨?_, fun R enabled progs tr s h => (Log.unspawned_waits enabled progs tr s h).1⟩
  intro C K x
  have := (hang_iff hU pathExists openOk midnight order horder c c' hslab hfix setOk).mpr happ
  simp [mainStart, this, mainExit]

/-- Two configurations without an appender: the root and the only service have empty lists, or are disabled. -/
example : ∀ l ∈ [{ LoggingConfig.default with appenders := [] }, { LoggingConfig.default with disable := some true }],
    (match ({ Config.empty with logging := l, services := [(u!"a", { defaultService with logging := l })] } : Config).autofix (fun _ => true) with
    | some c => c.appenders (fun _ => true)
    | none => none) = some [] := by decide +kernel

/-- **C156**, what holds: every other failure is reported. If the configuration cannot be loaded, or it can and does leave an appender
but logging cannot be started, the process ends with a status other than 0; it is 0 only if there is nothing to serve. Missing from
C156: configurations without appenders. -/
theorem C156_status_partial {U : Unicode} (hU : LawfulUnicode U) (pathExists openOk midnight : Str → Bool) (order : List Str → List Str)
    (horder : ∀ l, (order l).Perm l) (setOk : Bool) {C K : Type} (x : ProcEnv C K) :
    let logging := fun c : Config => c.initLogging U openOk midnight order setOk
    mainExit x (mainStart .error logging) = ([], .status 1) ∧ mainExit x (mainStart .panic logging) = ([], .status 101) ∧
    ∀ c c' : Config, c.slab = [] → c.autofix pathExists = some c' → c'.appenders openOk ≠ some [] →
      (∃ k l, c'.initLogging U openOk midnight order setOk = .value (k, l)) ∨
      ∃ code, mainExit x (mainStart (.value c') logging) = ([], .status code) ∧ code ≠ 0 := by
  refine ⟨rfl, rfl, ?_⟩
  intro c c' hslab hfix hne
  have hh := mt (hang_iff hU pathExists openOk midnight order horder c c' hslab hfix setOk).mp hne
  simp only [mainStart]
  cases h : c'.initLogging U openOk midnight order setOk with
  | value r => exact Or.inl ⟨r.1, r.2, rfl⟩
  | error => exact Or.inr ⟨1, rfl, by decide⟩
  | panic => exact Or.inr ⟨101, rfl, by decide⟩
  | hang => exact absurd h hh

/-- A configuration with a console for the root and a log file for its service, which cannot be opened. -/
example :
    (match consoleAndFile.autofix (fun _ => true) with
    | some c => some (c.appenders (fun _ => false))
    | none => none) = some none := by decide +kernel

/-! ## C157: the exit status -/

/-- **C157**, negation for the code as written: services none of which can be started (their addresses are taken) make the process end with
status 0, without a client having been served. -/
theorem C157_zero_violated {C K : Type} (x : ProcEnv C K) (hrt : x.runtime = .value ()) (horder : ∀ l, (x.order l).Perm l)
    (services : List (Str × ServiceConfig)) (hbind : ∀ p ∈ services, x.bindOk p.1 = false) :
    (mainExit x (.serving services)).2 = .status 0 ∧
    ∀ p ∈ services, p.2.run (x.world p.1) (x.bindOk p.1) (x.events p.1) = ([], .err) := by
  have hrun : ∀ p ∈ services, p.2.run (x.world p.1) (x.bindOk p.1) (x.events p.1) = ([], .err) := by
    intro p hp
    rw [hbind p hp]
    rfl
  refine ⟨?_, hrun⟩
  simp only [mainExit, hrt]
  have hnone : (x.order (services.map x.task)).any (fun t => t.result = .waiting) = false := by
    rw [List.any_eq_false]
    intro t ht
    obtain ⟨p, hp, rfl⟩ := List.mem_map.mp ((horder _).mem_iff.mp ht)
    simp [ProcEnv.task, hrun p hp]
  rw [hnone]
  rfl

/-- Two services whose addresses are taken. -/
example :
    let x : ProcEnv Unit Unit :=
      { world := fun _ => sampleWorld, bindOk := fun _ => false, events := fun _ => [], text := fun _ _ => b!"x", runtime := .value (), order := id }
    mainExit x (.serving [(u!"a", defaultEffective), (u!"b", defaultEffective)]) =
      ([⟨.error, [], b!"service serve error, x"⟩, ⟨.error, [], b!"service serve error, x"⟩], .status 0) := by
  decide +kernel

/-- **C157**, what holds in per-core mode: `run_per_core` returns an error (status 1) exactly if a thread could not be created; otherwise
`Ok` (status 0), whatever became of the services. -/
theorem C157_per_core_partial (n : Nat) (tr : List LifeAct) (s : Life) (h : LifeRun n .start tr s) (hs : s.main = .returned ∨ s.main = .failed) :
    (s.main = .failed ↔ LifeAct.spawnFail ∈ tr) := by
  have hinv : (s.main = .failed → LifeAct.spawnFail ∈ tr) ∧
      (LifeAct.spawnFail ∈ tr → s.main = .failed ∨ s.main.noLogger = true) := by
    clear hs
    induction h with
    | nil => simp [Life.start]
    | snoc hr hstep ih =>
      cases hstep <;> simp_all [Phase.noLogger]
  constructor
  · exact hinv.1
  · intro h1
    rcases hinv.2 h1 with h2 | h2
    · exact h2
    · rcases hs with h3 | h3 <;> rw [h3] at h2 <;> cases h2

/-- One service: its thread runs and ends, or cannot be created. -/
example : (∃ s, LifeRun 1 .start [.spawn, .spawnDone, .take 0, .giveUp, .release 0, .enter] s ∧ s.main = .returned) ∧
    ∃ s, LifeRun 1 .start [.spawnFail] s ∧ s.main = .failed := by
  refine ⟨⟨⟨.returned, [.ended], 0, 0⟩, ?_, rfl⟩, ⟨.failed, [], 0, 0⟩, .snoc (.nil _) (.spawnFail _ 0 rfl (by decide)), rfl⟩
  have h1 : LifeRun 1 .start [.spawn, .spawnDone] ⟨.polling, [.spawned], 0, 0⟩ :=
    .snoc (.snoc (.nil _) (.spawn _ 0 rfl (by decide))) (.spawnDone _ rfl)
  have h2 : LifeRun 1 .start [.spawn, .spawnDone, .take 0] ⟨.polling, [.holding], 0, 0⟩ := .snoc h1 (.take _ 0 (by decide) rfl)
  have h3 : LifeRun 1 .start [.spawn, .spawnDone, .take 0, .giveUp] ⟨.waiting, [.holding], 0, 0⟩ :=
    .snoc h2 (.giveUp _ rfl (by simp [Life.free]))
  have h4 : LifeRun 1 .start [.spawn, .spawnDone, .take 0, .giveUp, .release 0] ⟨.waiting, [.ended], 0, 0⟩ :=
    .snoc h3 (.release _ 0 (by decide) rfl)
  exact .snoc h4 (.enter _ rfl (by simp [Life.free]))

/-- **C157**, what holds: with a started runtime the status is never anything but 0, and it is given exactly when every service has
ended; a status other than 0 means that no service was started, and is given if the runtime cannot be. Missing from C157: a status that tells whether they failed. -/
theorem C157_all_ended_partial {C K : Type} (x : ProcEnv C K) (horder : ∀ l, (x.order l).Perm l) (st : MainStart) :
    (∀ code, (mainExit x st).2 = .status code → code ≠ 0 → (∀ services, st = .serving services → x.runtime ≠ .value ())) ∧
    (∀ services, st = .serving services → x.runtime ≠ .value () → ∃ code, mainExit x st = ([], .status code) ∧ code ≠ 0) ∧
    (∀ services, st = .serving services → x.runtime = .value () →
      ((mainExit x st).2 = .status 0 ↔ ∀ p ∈ services, (p.2.run (x.world p.1) (x.bindOk p.1) (x.events p.1)).2 ≠ .waiting)) := by
  refine ⟨?_, ?_, ?_⟩
  · rintro code h hc services rfl hrt
    simp only [mainExit, hrt] at h
    split at h
    · cases h
    · simp only [Exit.status.injEq] at h; exact hc h.symm
  · rintro services rfl hrt
    simp only [mainExit]
    cases h : x.runtime with
    | value u => exact absurd h hrt
    | error => exact ⟨1, rfl, by decide⟩
    | panic => exact ⟨101, rfl, by decide⟩
  · rintro services rfl hrt
    simp only [mainExit, hrt]
    have : (x.order (services.map x.task)).any (fun t => decide (t.result = .waiting)) = true ↔
        ∃ p ∈ services, (p.2.run (x.world p.1) (x.bindOk p.1) (x.events p.1)).2 = .waiting := by
      rw [List.any_eq_true]
      constructor
      · rintro ⟨t, ht, hw⟩
        obtain ⟨p, hp, rfl⟩ := List.mem_map.mp ((horder _).mem_iff.mp ht)
        exact ⟨p, hp, of_decide_eq_true hw⟩
      · rintro ⟨p, hp, hw⟩
        exact ⟨x.task p, (horder _).mem_iff.mpr (List.mem_map_of_mem hp), decide_eq_true hw⟩
    constructor
    · intro h p hp hw
      rw [if_pos (this.mpr ⟨p, hp, hw⟩)] at h
      cases h
    · intro h
      rw [if_neg]
      intro h1
      obtain ⟨p, hp, hw⟩ := this.mp h1
      exact h p hp hw

/-- Two services: the address of the first is taken, the second is stopped by Ctrl-C. -/
def samplePair : List (Str × ServiceConfig) := [(u!"a", defaultEffective), (u!"b", defaultEffective)]

def sampleProc (stop : Bool) : ProcEnv Unit Unit :=
  { world := fun _ => sampleWorld, bindOk := fun k => k = u!"b",
    events := fun _ => if stop then [.conn 7 ⟨none, true⟩, .ctrlC] else [.conn 7 ⟨none, true⟩],
    text := fun _ _ => b!"Os { code: 98 }", runtime := .value (), order := List.reverse }

example : mainExit (sampleProc true) (.serving samplePair) = ([⟨.error, [], b!"service serve error, Os { code: 98 }"⟩], .status 0) ∧
    mainExit (sampleProc false) (.serving samplePair) = ([⟨.error, [], b!"service serve error, Os { code: 98 }"⟩], .running) := by
  decide +kernel

/-! ## C158: failures of services in the log -/

/-- **C158**, what holds: the records of the join loop, all of level error, are one for each service that failed or panicked, in the order in
which they ended, and nothing else; each has the text of that error. Missing from C158: which service it was. -/
theorem C158_reported_partial {C K : Type} (x : ProcEnv C K) (hrt : x.runtime = .value ()) (horder : ∀ l, (x.order l).Perm l)
    (services : List (Str × ServiceConfig)) :
    ((mainExit x (.serving services)).1).Perm ((services.map (fun p => (p.1, (p.2.run (x.world p.1) (x.bindOk p.1) (x.events p.1)).2))).filterMap
      (fun e => if e.2 = .err then some ⟨.error, [], b!"service serve error, " ++ x.text e.1 .err⟩
        else if e.2 = .panic then some ⟨.error, [], b!"join error, " ++ x.text e.1 .panic⟩ else none)) := by
  simp only [mainExit, hrt]
  refine ((horder _).flatMap_right _).trans ?_
  rw [List.filterMap_map, List.flatMap_map]
  refine List.Perm.of_eq ?_
  induction services with
  | nil => rfl
  | cons p ps ih =>
    rw [List.flatMap_cons, List.filterMap_cons, ih]
    cases h : (p.2.run (x.world p.1) (x.bindOk p.1) (x.events p.1)).2 <;>
      simp [ProcEnv.task, joinRecord, h]

/-- **C158**, negation for the code as written: a record of the join loop does not say which service failed. Two sets of services of which
different ones fail in the same way, with the same text, leave the same records; and they count as records of the root, so that no
appender of the service gets them, and none at all if logging is disabled for the root. -/
theorem C158_anonymous_violated {C K : Type} (x : ProcEnv C K) (hrt : x.runtime = .value ()) (hord : x.order = id)
    (p q : Str × ServiceConfig) (hp : (p.2.run (x.world p.1) (x.bindOk p.1) (x.events p.1)).2 = .err)
    (hq : (q.2.run (x.world q.1) (x.bindOk q.1) (x.events q.1)).2 = .ok)
    (y : ProcEnv C K) (hyrt : y.runtime = .value ()) (hyord : y.order = id)
    (hp' : (p.2.run (y.world p.1) (y.bindOk p.1) (y.events p.1)).2 = .ok)
    (hq' : (q.2.run (y.world q.1) (y.bindOk q.1) (y.events q.1)).2 = .err)
    (htext : x.text p.1 .err = y.text q.1 .err) :
    mainExit x (.serving [p, q]) = mainExit y (.serving [p, q]) ∧
    ∀ r ∈ (mainExit x (.serving [p, q])).1, ∀ time file line, (r.item time file line).service = 0 ∧
      ∀ as : List AppenderInit, (∀ a ∈ as, a.service ≠ 0) → wanted (as.map (·.appender)) (r.item time file line) = [] := by
  have hx : mainExit x (.serving [p, q]) = ([⟨.error, [], b!"service serve error, " ++ x.text p.1 .err⟩], .status 0) := by
    simp [mainExit, hrt, hord, ProcEnv.task, hp, hq, joinRecord]
  have hy : mainExit y (.serving [p, q]) = ([⟨.error, [], b!"service serve error, " ++ y.text q.1 .err⟩], .status 0) := by
    simp [mainExit, hyrt, hyord, ProcEnv.task, hp', hq', joinRecord]
  rw [hx, hy, htext]
  refine ⟨rfl, ?_⟩
  intro r hr time file line
  rw [List.mem_singleton.mp hr]
  have h0 : (Rec.item time file line ⟨.error, [], b!"service serve error, " ++ y.text q.1 .err⟩).service = 0 := by
    rw [Rec.item, (C74_pairs ..).1]; rfl
  refine ⟨h0, fun as has => ?_⟩
  rw [wanted, List.filter_eq_nil_iff]
  intro i _
  rw [List.getElem?_map, h0]
  cases ha : as[i]? with
  | none => simp
  | some a => simp [AppenderInit.appender, has a (List.mem_of_getElem? ha)]

/-- The two runs: the address of one or of the other service is taken. -/
example :
    let x (taken : Str) : ProcEnv Unit Unit := { sampleProc true with bindOk := fun k => k ≠ taken, order := id }
    mainExit (x u!"a") (.serving samplePair) = mainExit (x u!"b") (.serving samplePair) ∧
    ((x u!"a").task (u!"a", defaultEffective)).result = .err ∧ ((x u!"b").task (u!"b", defaultEffective)).result = .err ∧
    ((x u!"a").task (u!"b", defaultEffective)).result = .ok ∧ ((x u!"b").task (u!"a", defaultEffective)).result = .ok := by
  decide +kernel

/-! ## C159: the file on the command line -/

/-- **C159**, what holds: a release build loads the file that was named, unless that is blank. Missing from C159: debug builds. -/
theorem C159_release_partial (pathExists : Str → Bool) (arg : Str) (harg : trimUnicode arg ≠ []) (load : Str → Outcome Config) :
    loadConfigFrom .release pathExists arg load = load arg := by
  have : (trimUnicode arg).isEmpty = false := by
    cases h : trimUnicode arg with
    | nil => exact absurd h harg
    | cons => rfl
  simp [loadConfigFrom, fileArgument, loadConfig, this]

/-- **C159**, negation for the code as written: a debug build always loads `./httpd.toml`, whatever was named on the command line. -/
theorem C159_debug_violated (pathExists : Str → Bool) (load : Str → Outcome Config) (arg : Str) :
    loadConfigFrom .debug pathExists arg load = load u!"./httpd.toml" := by
  have : (trimUnicode u!"./httpd.toml").isEmpty = false := by decide +kernel
  simp [loadConfigFrom, fileArgument, loadConfig, this]

example : ∃ (load : Str → Outcome Config) (arg : Str), trimUnicode arg ≠ [] ∧
    loadConfigFrom .debug (fun _ => true) arg load ≠ loadConfigFrom .release (fun _ => true) arg load := by
  refine ⟨fun f => if f = u!"./httpd.toml" then .error else .value .empty, u!"my.toml", by decide +kernel, ?_⟩
  rw [C159_debug_violated, C159_release_partial _ _ (by decide +kernel)]
  have : u!"my.toml" ≠ u!"./httpd.toml" := by decide
  simp

end Httpd
