import Verif.Model.Printing
import Verif.Props.Exit
/-! # C194, C195: standard output -/

namespace Httpd
open Spec

/-- Nothing fails on standard output. -/
def Prints.all : Prints := { name := true, pid := true, empty := true, service := fun _ => true, bye := true }

/-- A service that cannot be announced does not run; otherwise it runs as without `println!`. -/
theorem runPrinting_ok {C K : Type} (x : World C K) (bindOk : Bool) (es : List AcceptEvent) (s : ServiceConfig) :
    (s.runPrinting x bindOk es true).2 = s.run x bindOk es := by
  rw [ServiceConfig.runPrinting, ServiceConfig.run]
  cases bindOk with
  | false => rfl
  | true =>
    cases h : tlsLoad x.tls s.tcp.tls.cert s.tcp.tls.key with
    | none => simp [runService, h]
    | some tls => simp [ServiceConfig.run]

theorem runPrinting_fail {C K : Type} (x : World C K) (bindOk : Bool) (es : List AcceptEvent) (s : ServiceConfig) :
    (s.runPrinting x bindOk es false).1 = [] ∧ (s.runPrinting x bindOk es false).2.1 = [] ∧
    ((s.runPrinting x bindOk es false).2.2 = .err ∨ (s.runPrinting x bindOk es false).2.2 = .panic) := by
  rw [ServiceConfig.runPrinting]
  cases bindOk with
  | false => exact ⟨rfl, rfl, .inl rfl⟩
  | true =>
    cases h : tlsLoad x.tls s.tcp.tls.cert s.tcp.tls.key with
    | none => exact ⟨rfl, rfl, .inl rfl⟩
    | some tls => exact ⟨rfl, rfl, .inr rfl⟩

/-- The connections of a process with services. -/
theorem printing_conns {C K : Type} (x : ProcEnv C K) (pid : Str) (pr : Prints) (services : List (Str × ServiceConfig)) :
    (mainPrinting x pid pr (.serving services)).conns =
      if pr.name = true ∧ pr.pid = true ∧ x.runtime = .value () then services.map (fun p => (p.1, (x.runPrinting pr p).2.1)) else [] := by
  cases h1 : pr.name with
  | false => simp [mainPrinting, h1]
  | true =>
    cases h2 : pr.pid with
    | false => simp [mainPrinting, h1, h2]
    | true =>
      cases h3 : x.runtime with
      | error => simp [mainPrinting, h1, h2, h3]
      | panic => simp [mainPrinting, h1, h2, h3]
      | value u =>
        have : (services.map (fun p => (p.1, x.runPrinting pr p))).map (fun r => (r.1, r.2.2.1)) =
            services.map (fun p => (p.1, (x.runPrinting pr p).2.1)) := by
          rw [List.map_map]
          rfl
        simp only [mainPrinting, h1, h2, h3, Bool.not_true, Bool.false_eq_true, ↓reduceIte, this, and_self]
        cases (x.order ((services.map (fun p => (p.1, x.runPrinting pr p))).map
          (fun r => (⟨r.2.2.2, x.text r.1 r.2.2.2⟩ : Finished)))).any (fun t => decide (t.result = .waiting)) with
        | true => rfl
        | false => cases pr.bye <;> rfl

/-! ## C194: serving and standard output -/

/-- **C194**, negation for the code as written: if the first or the second line cannot be written nothing is served, whatever the services
are, and the status is 101; if the line of a service cannot be written that service serves nobody; and if the last line cannot be written
a process that has done all its work ends with 101 instead of 0. -/
theorem C194_broken_pipe_violated {C K : Type} (x : ProcEnv C K) (pid : Str) (services : List (Str × ServiceConfig)) :
    (∀ pr : Prints, pr.name = false ∨ pr.pid = false →
      (mainPrinting x pid pr (.serving services)).conns = [] ∧ (mainPrinting x pid pr (.serving services)).exit = .status 101) ∧
    (∀ pr : Prints, ∀ p ∈ services, pr.service p.1 = false → ∀ c, (p.1, c) ∈ (mainPrinting x pid pr (.serving services)).conns →
      (∀ q ∈ services, q.1 = p.1 → q = p) → c = []) ∧
    (∀ pr : Prints, pr.bye = false → (mainPrinting x pid { pr with bye := true } (.serving services)).exit = .status 0 →
      (mainPrinting x pid pr (.serving services)).exit = .status 101) := by
  refine ⟨?_, ?_, ?_⟩
  · intro pr h
    rcases h with h | h
    · simp [mainPrinting, h]
    · cases h1 : pr.name <;> simp [mainPrinting, h, h1]
  · intro pr p hp hf c hc huniq
    rw [printing_conns] at hc
    split at hc
    · simp only [List.mem_map] at hc
      obtain ⟨q, hq, heq⟩ := hc
      simp only [Prod.mk.injEq] at heq
      have := huniq q hq heq.1
      subst this
      rw [← heq.2, ProcEnv.runPrinting, hf]
      exact (runPrinting_fail _ _ _ _).2.1
    · cases hc
  · intro pr hb h
    cases h1 : pr.name with
    | false => simp [mainPrinting, h1]
    | true =>
      cases h2 : pr.pid with
      | false => simp [mainPrinting, h1, h2]
      | true =>
        cases hrt : x.runtime with
        | error => simp [mainPrinting, h1, h2, hrt] at h
        | panic => simp [mainPrinting, h1, h2, hrt]
        | value u =>
          have hsame : ∀ p, x.runPrinting { name := true, pid := true, empty := pr.empty, service := pr.service, bye := true } p =
              x.runPrinting pr p := fun p => rfl
          simp only [mainPrinting, h1, h2, hrt, hb, Bool.not_true, Bool.not_false, Bool.false_eq_true, ↓reduceIte, hsame] at h ⊢
          cases ha : (x.order ((services.map (fun p => (p.1, x.runPrinting pr p))).map
            (fun r => (⟨r.2.2.2, x.text r.1 r.2.2.2⟩ : Finished)))).any (fun t => decide (t.result = .waiting)) with
          | true => rw [ha] at h; cases h
          | false => rfl

/-- **C194**, what holds: once the first two lines are out, a service whose own line is out serves what it serves with a working standard
output, whatever becomes of the other lines; with a working standard output records and status are those of C157 and C158. Missing from
C194: services whose line, or the first two lines, cannot be written; the status if the last cannot. -/
theorem C194_announced_partial {C K : Type} (x : ProcEnv C K) (pid : Str) :
    (∀ st : MainStart, ((mainPrinting x pid .all st).records, (mainPrinting x pid .all st).exit) = mainExit x st) ∧
    (∀ (services : List (Str × ServiceConfig)) (pr : Prints), pr.name = true → pr.pid = true → x.runtime = .value () →
      ∀ p ∈ services, pr.service p.1 = true →
        (p.1, (p.2.run (x.world p.1) (x.bindOk p.1) (x.events p.1)).1) ∈ (mainPrinting x pid pr (.serving services)).conns) ∧
    (∀ (services : List (Str × ServiceConfig)) (pr : Prints) (n : Str) (c : List (Conn K)),
      (n, c) ∈ (mainPrinting x pid pr (.serving services)).conns →
      ∃ p ∈ services, p.1 = n ∧ (c = (p.2.run (x.world p.1) (x.bindOk p.1) (x.events p.1)).1 ∨ c = [] ∧ pr.service n = false)) := by
  refine ⟨?_, ?_, ?_⟩
  · intro st
    cases st with
    | failed => rfl
    | panicked => rfl
    | hung => rfl
    | noService => rfl
    | serving services =>
      simp only [mainPrinting, mainExit, Prints.all]
      cases x.runtime with
      | error => rfl
      | panic => rfl
      | value u =>
        have htask : (services.map (fun p => (p.1, x.runPrinting Prints.all p))).map
            (fun r => (⟨r.2.2.2, x.text r.1 r.2.2.2⟩ : Finished)) = services.map x.task := by
          rw [List.map_map]
          apply List.map_congr_left
          intro p _
          simp only [Function.comp, ProcEnv.task, ProcEnv.runPrinting, Prints.all, runPrinting_ok]
        simp only [Prints.all] at htask
        simp only [htask, Bool.not_true, Bool.false_eq_true, ↓reduceIte]
        cases (x.order (services.map x.task)).any (fun t => decide (t.result = .waiting)) <;> rfl
  · intro services pr h1 h2 hrt p hp hs
    rw [printing_conns, if_pos ⟨h1, h2, hrt⟩, List.mem_map]
    refine ⟨p, hp, ?_⟩
    rw [ProcEnv.runPrinting, hs, runPrinting_ok]
  · intro services pr n c hc
    rw [printing_conns] at hc
    split at hc
    · simp only [List.mem_map] at hc
      obtain ⟨q, hq, heq⟩ := hc
      simp only [Prod.mk.injEq] at heq
      refine ⟨q, hq, heq.1, ?_⟩
      cases hs : pr.service q.1 with
      | true =>
        left
        rw [← heq.2, ProcEnv.runPrinting, hs, runPrinting_ok]
      | false =>
        right
        refine ⟨?_, by rw [← heq.1]; exact hs⟩
        rw [← heq.2, ProcEnv.runPrinting, hs]
        exact (runPrinting_fail _ _ _ _).2.1
    · cases hc

/-- Two services on free addresses that are stopped by Ctrl-C; the line of the first cannot be written. -/
def printProc : ProcEnv Unit Unit := { sampleProc true with bindOk := fun _ => true }

example : (mainPrinting printProc u!"17" { Prints.all with service := fun k => k = u!"b" } (.serving samplePair)).said =
      [u!"httpd: load configuration ok, pid: 17", u!"httpd: listening @ 0.0.0.0:8080, serve as Hello world", u!"httpd: shutdown"] ∧
    ((mainPrinting printProc u!"17" { Prints.all with service := fun k => k = u!"b" } (.serving samplePair)).conns.map
      (fun c => (c.1, c.2.map (fun v => v.served.id)))) = [(u!"a", []), (u!"b", [7])] ∧
    (mainPrinting printProc u!"17" { Prints.all with service := fun k => k = u!"b" } (.serving samplePair)).exit = .status 0 ∧
    (mainPrinting printProc u!"17" { Prints.all with bye := false } (.serving samplePair)).exit = .status 101 ∧
    (mainPrinting printProc u!"17" Prints.all (.serving samplePair)).exit = .status 0 := by
  decide +kernel

/-! ## C195: what is announced -/

/-- **C195**, negation for the code as written: a service of kind forward or upstream whose address is free and whose certificates can be
loaded is announced as listening, and nobody is served. -/
theorem C195_todo_violated {C K : Type} (x : World C K) (es : List AcceptEvent) (s : ServiceConfig)
    (hk : s.service = .forward ∨ s.service = .upstream) (tls : Option C) (htls : tlsLoad x.tls s.tcp.tls.cert s.tcp.tls.key = some tls) :
    s.runPrinting x true es true = ([s.logo tls.isSome], [], .panic) := by
  rw [ServiceConfig.runPrinting, ServiceConfig.run]
  rcases hk with hk | hk <;> simp [runService, htls, hk, ServiceSetting.kind]

/-- A forwarding service without TLS. -/
example : ({ defaultEffective with service := .forward } : ServiceConfig).runPrinting sampleWorld true [.conn 7 ⟨none, true⟩] true =
      ([u!"httpd: listening @ 0.0.0.0:8080, serve as Forward"], [], .panic) := by
  rw [C195_todo_violated _ _ _ (.inl rfl) none (by rfl)]
  have : ({ defaultEffective with service := .forward } : ServiceConfig).logo (none : Option Unit).isSome =
      u!"httpd: listening @ 0.0.0.0:8080, serve as Forward" := by decide +kernel
  rw [this]

/-- An accept loop ends when Ctrl-C is pressed, and only then. -/
theorem acceptLoop_end {C : Type} (tls : Option C) (timeout : Nat) (es : List AcceptEvent) :
    ((acceptLoop tls timeout true es).2 = .ok ↔ AcceptEvent.ctrlC ∈ es) ∧
    ((acceptLoop tls timeout true es).2 = .waiting ↔ AcceptEvent.ctrlC ∉ es) := by
  have hplain : ∀ es : List AcceptEvent, ((plainLoop es).2 = .ok ↔ AcceptEvent.ctrlC ∈ es) ∧
      ((plainLoop es).2 = .waiting ↔ AcceptEvent.ctrlC ∉ es) := by
    intro es
    induction es with
    | nil => simp [plainLoop]
    | cons e es ih =>
      cases e with
      | conn id hs => simpa [plainLoop] using ih
      | acceptErr => simpa [plainLoop] using ih
      | ctrlC => simp [plainLoop]
  have htls : ∀ es : List AcceptEvent, ((tlsLoop timeout es).2 = .ok ↔ AcceptEvent.ctrlC ∈ es) ∧
      ((tlsLoop timeout es).2 = .waiting ↔ AcceptEvent.ctrlC ∉ es) := by
    intro es
    induction es with
    | nil => simp [tlsLoop]
    | cons e es ih =>
      cases e with
      | conn id hs =>
        have : (tlsLoop timeout (.conn id hs :: es)).2 = (tlsLoop timeout es).2 := by
          rw [tlsLoop]
          cases hs.time with
          | none => rfl
          | some t =>
            simp only
            split
            · rfl
            · split <;> rfl
        rw [this]
        simpa using ih
      | acceptErr => simpa [tlsLoop] using ih
      | ctrlC => simp [tlsLoop]
  cases tls with
  | none => exact hplain es
  | some c => exact htls es

/-- **C195**, what holds for hello world and the file system service: at most one line is said, and it is exactly if the address could be
bound, the TLS configuration loaded and the line be written. It is about this service: its address, its kind, and TLS exactly if a
certificate or a key is set. A service that says nothing serves nobody and has failed; one that says its line accepts connections until
Ctrl-C: every connection is encrypted if the line says TLS, none is if it does not. Missing from C195: the other two kinds. -/
theorem C195_line_partial {C K : Type} (x : World C K) (bindOk : Bool) (es : List AcceptEvent) (printOk : Bool) (s : ServiceConfig) :
    ((s.runPrinting x bindOk es printOk).1 = [] ∨
      (s.runPrinting x bindOk es printOk).1 = [u!"httpd: listening @ " ++ s.tcp.addr ++
        (if s.tcp.tls.cert ≠ [] ∨ s.tcp.tls.key ≠ [] then u!", tls ✅" else []) ++ u!", serve as " ++
        (match s.service with
        | .helloWorld => u!"Hello world" | .fileSystem root => u!"Fs{" ++ root ++ u!"}" | .forward => u!"Forward" | .upstream => u!"Upstream")]) ∧
    ((s.runPrinting x bindOk es printOk).1 ≠ [] ↔
      bindOk = true ∧ (∃ tls, tlsLoad x.tls s.tcp.tls.cert s.tcp.tls.key = some tls) ∧ printOk = true) ∧
    ((s.runPrinting x bindOk es printOk).1 = [] →
      (s.runPrinting x bindOk es printOk).2.1 = [] ∧ (s.runPrinting x bindOk es printOk).2.2 ≠ .ok ∧
      (s.runPrinting x bindOk es printOk).2.2 ≠ .waiting) ∧
    ((s.runPrinting x bindOk es printOk).1 ≠ [] → (s.service = .helloWorld ∨ ∃ root, s.service = .fileSystem root) →
      ((s.runPrinting x bindOk es printOk).2.2 = .ok ↔ .ctrlC ∈ es) ∧
      ((s.runPrinting x bindOk es printOk).2.2 = .waiting ↔ .ctrlC ∉ es) ∧
      ∀ v ∈ (s.runPrinting x bindOk es printOk).2.1, (v.served.encrypted = true ↔ s.tcp.tls.cert ≠ [] ∨ s.tcp.tls.key ≠ [])) := by
  have hcases : (s.runPrinting x bindOk es printOk).1 = [] ∧ ¬ (bindOk = true ∧ (∃ tls, tlsLoad x.tls s.tcp.tls.cert s.tcp.tls.key = some tls) ∧ printOk = true) ∧
        (s.runPrinting x bindOk es printOk).2.1 = [] ∧ (s.runPrinting x bindOk es printOk).2.2 ≠ .ok ∧ (s.runPrinting x bindOk es printOk).2.2 ≠ .waiting ∨
      ∃ tls, bindOk = true ∧ tlsLoad x.tls s.tcp.tls.cert s.tcp.tls.key = some tls ∧ printOk = true ∧
        (s.runPrinting x bindOk es printOk) = ([s.logo tls.isSome], s.run x bindOk es) := by
    rw [ServiceConfig.runPrinting]
    cases bindOk with
    | false => left; simp
    | true =>
      cases h : tlsLoad x.tls s.tcp.tls.cert s.tcp.tls.key with
      | none => left; simp
      | some tls =>
        cases printOk with
        | false => left; simp
        | true => right; exact ⟨tls, rfl, rfl, rfl, by simp⟩
  rcases hcases with ⟨h1, h2, h3, h4, h5⟩ | ⟨tls, hb, ht, hp, heq⟩
  · rw [h1]
    refine ⟨.inl rfl, ⟨fun h => absurd rfl h, fun h => absurd h h2⟩, fun _ => ⟨h3, h4, h5⟩, fun h => absurd rfl h⟩
  · have hsome : tls.isSome = decide (s.tcp.tls.cert ≠ [] ∨ s.tcp.tls.key ≠ []) := by
      by_cases hcfg : s.tcp.tls.cert ≠ [] ∨ s.tcp.tls.key ≠ []
      · rcases tlsLoad_cases x.tls s.tcp.tls.cert s.tcp.tls.key hcfg with ⟨_, cfg, h⟩ | ⟨_, h⟩
        · rw [ht] at h
          injection h with h
          rw [h, decide_eq_true hcfg]
          rfl
        · rw [ht] at h; cases h
      · have h1 : s.tcp.tls.cert = [] := Decidable.byContradiction fun h => hcfg (.inl h)
        have h2 : s.tcp.tls.key = [] := Decidable.byContradiction fun h => hcfg (.inr h)
        rw [h1, h2] at ht
        simp only [tlsLoad, List.isEmpty_nil, Bool.and_self, ↓reduceIte, Option.some.injEq] at ht
        rw [← ht, decide_eq_false hcfg]
        rfl
    have hne : ([s.logo tls.isSome] : List Str) ≠ [] := by simp
    rw [heq]
    refine ⟨.inr ?_, ⟨fun _ => ⟨hb, ⟨tls, ht⟩, hp⟩, fun _ => hne⟩, fun h => absurd h hne, ?_⟩
    · simp only [ServiceConfig.logo, hsome, decide_eq_true_eq]
      cases hk : s.service <;> by_cases hcfg : s.tcp.tls.cert ≠ [] ∨ s.tcp.tls.key ≠ [] <;>
        simp [ServiceSetting.kindName, hcfg]
    · intro _ hk
      obtain ⟨hids, hend⟩ := run_ids x bindOk es s
      have hend' : (s.run x bindOk es).2 = (acceptLoop tls s.tcp.tls.timeout true es).2 := by
        rw [hend, hb]
        rcases hk with hk | ⟨root, hk⟩ <;> simp [runService, ht, hk, ServiceSetting.kind]
      have hloop := acceptLoop_end tls s.tcp.tls.timeout es
      simp only [hend']
      refine ⟨hloop.1, hloop.2, ?_⟩
      intro v hv
      obtain ⟨_, hm⟩ := run_mem x bindOk es s v hv
      obtain ⟨c1, c2⟩ := C35_tls_never_dropped x.tls s.tcp.tls.cert s.tcp.tls.key s.tcp.tls.timeout s.service.kind bindOk true es
      constructor
      · intro he
        apply Decidable.byContradiction
        intro hcfg
        have h1 : s.tcp.tls.cert = [] := Decidable.byContradiction fun h => hcfg (.inl h)
        have h2 : s.tcp.tls.key = [] := Decidable.byContradiction fun h => hcfg (.inr h)
        rw [c2 ⟨h1, h2⟩ v.served hm] at he
        cases he
      · intro hcfg
        exact ((c1 hcfg).2 v.served hm).1

end Httpd
