import Verif.Spec.Refusal
import Verif.Props.ConfigLogFiles
import Verif.Props.WholeProcess
/-!
# C210: when the process refuses to start, it says why
-/

namespace Httpd

open Spec

/-! ## There is a text exactly if there is an error -/

theorem none_of_iff {P : Prop} {α : Type} {o : Option α} (h : P ↔ o.isSome) (hn : ¬ P) : o = none := by
  cases o with
  | none => rfl
  | some a => exact absurd (h.2 rfl) hn

theorem refusal_kind (x : ErrorTexts) (pathExists : Str → Bool) (name : Str) (s : ServiceSetting) :
    s.autofix pathExists = false ↔ (s.refusal x pathExists name).isSome := by
  cases s with
  | fileSystem root =>
    simp only [ServiceSetting.autofix, ServiceSetting.refusal]
    cases root with
    | nil => simp
    | cons c l => cases pathExists (c :: l) <;> simp
  | _ => simp [ServiceSetting.autofix, ServiceSetting.refusal]

theorem refusal_fix (x : ErrorTexts) (pathExists : Str → Bool) (tcp : TcpConfig) (http : HttpConfig) (services : List (Str × ServiceConfig))
    (slab : List (List Nat)) : fixServices pathExists tcp http services slab = none ↔ (fixRefusal x pathExists services).isSome := by
  induction services generalizing slab with
  | nil => simp [fixServices, fixRefusal]
  | cons q rest ih =>
    obtain ⟨k, s⟩ := q
    simp only [fixServices, fixRefusal]
    split
    · simp
    · have hk := refusal_kind x pathExists (trimUnicode k) s.service
      simp only [ServiceConfig.autofix]
      cases hs : s.service.autofix pathExists with
      | false =>
        obtain ⟨e, he⟩ := Option.isSome_iff_exists.1 (hk.1 hs)
        simp [he]
      | true =>
        have : s.service.refusal x pathExists (trimUnicode k) = none := by
          cases hr : s.service.refusal x pathExists (trimUnicode k) with
          | none => rfl
          | some e => rw [hr, hs] at hk; simp at hk
        rw [this]
        have ih := ih (slab ++ [[]])
        cases hf : fixServices pathExists tcp http rest (slab ++ [[]]) with
        | none => rw [hf] at ih; simpa using ih
        | some r => rw [hf] at ih; simpa using ih

theorem refusal_include (x : ErrorTexts) (items : List GlobItem) (services : List (Str × ServiceConfig)) :
    includeLoop items services = .error ↔ (includeRefusal x items services).isSome := by
  induction items generalizing services with
  | nil => simp [includeLoop, includeRefusal]
  | cons i es ih =>
    cases i with
    | err => simpa [includeLoop, includeRefusal] using ih services
    | ok path isFile text parsed =>
      simp only [includeLoop, includeRefusal]
      cases fileName path with
      | none => exact ih services
      | some base =>
        simp only
        split
        · exact ih services
        · split
          · exact ih services
          · split
            · simp
            · cases parsed with
              | none => simp
              | some s =>
                simp only
                generalize (if (trimUnicode s.name).isEmpty then nameWithoutExt path else .value (trimUnicode s.name)) = r
                cases r with
                | error => simp
                | panic => simp
                | value name =>
                  simp only
                  split
                  · simp
                  · exact ih _

theorem refusal_patterns (x : ErrorTexts) (ps : List (Str × Option (List GlobItem))) (services : List (Str × ServiceConfig)) :
    includeAll (ps.map (·.2)) services = .error ↔ (patternsRefusal x ps services).isSome := by
  induction ps generalizing services with
  | nil => simp [includeAll, patternsRefusal]
  | cons q ps ih =>
    obtain ⟨pat, o⟩ := q
    cases o with
    | none => simp [includeAll, includePattern, patternsRefusal]
    | some es =>
      simp only [List.map_cons, includeAll, includePattern, patternsRefusal]
      have h := refusal_include x es services
      cases hl : includeLoop es services with
      | value s =>
        rw [hl] at h
        have : includeRefusal x es services = none := by
          cases hr : includeRefusal x es services with
          | none => rfl
          | some e => rw [hr] at h; simp at h
        rw [this]
        exact ih s
      | error =>
        obtain ⟨e, he⟩ := Option.isSome_iff_exists.1 (h.1 hl)
        simp [he]
      | panic =>
        rw [hl] at h
        have : includeRefusal x es services = none := by
          cases hr : includeRefusal x es services with
          | none => rfl
          | some e => rw [hr] at h; simp at h
        simp [this]

theorem zip_items (U : Unicode) (p : Profile) (strict : Bool) (glob : Str → Option (List GlobFile)) (pats : List Str) :
    (pats.zip (patternItems U p strict glob pats).1).map (·.2) = (patternItems U p strict glob pats).1 := by
  induction pats with
  | nil => simp [patternItems]
  | cons q ql ih =>
    simp only [patternItems]
    cases glob q with
    | none => simpa using ih
    | some gs =>
      simp only
      split
      · simp
      · simpa using ih

theorem refusal_load (U : Unicode) (p : Profile) (strict : Bool) (x : ErrorTexts) (pathExists chdir : Str → Bool) (glob : Str → Option (List GlobFile))
    (order : List (Str × ServiceConfig) → List (Str × ServiceConfig)) (file : Str) (text : Option Toml) :
    loadFile U p strict pathExists chdir glob order text = .error ↔ (loadRefusal U p strict x pathExists chdir glob order file text).isSome := by
  cases text with
  | none => simp [loadFile, loadRefusal]
  | some v =>
    simp only [loadFile, loadRefusal]
    cases hv : ConfigFile.de U p strict v with
    | error => simp [Outcome.bind]
    | panic => simp [Outcome.bind]
    | value f =>
      simp only [Outcome.bind]
      split
      · simp
      · have hp := refusal_patterns x (f.patterns.zip (patternItems U p strict glob f.patterns).1) f.config.services
        rw [zip_items] at hp
        cases hi : includeAll (patternItems U p strict glob f.patterns).1 f.config.services with
        | error =>
          obtain ⟨e, he⟩ := Option.isSome_iff_exists.1 (hp.1 hi)
          rw [he]
          cases (patternItems U p strict glob f.patterns).2 <;> simp [Config.load, hi]
        | panic =>
          rw [none_of_iff hp (by rw [hi]; simp)]
          cases (patternItems U p strict glob f.patterns).2 <;> simp [Config.load, hi]
        | value all =>
          rw [none_of_iff hp (by rw [hi]; simp)]
          cases (patternItems U p strict glob f.patterns).2 with
          | true => simp
          | false =>
            simp only [Bool.false_eq_true, ↓reduceIte, Config.load, Bool.not_true, hi, Config.autofix]
            generalize order (if all.length < 1 then [(u!"helloworld", defaultService)] else all) = os
            have hf := refusal_fix x pathExists (f.config.tcp.autofix none) (f.config.http.autofix none) os (f.config.slab ++ [[]])
            cases hr : fixServices pathExists (f.config.tcp.autofix none) (f.config.http.autofix none) os (f.config.slab ++ [[]]) with
            | none => rw [hr] at hf; simpa using hf
            | some r => rw [hr] at hf; simpa using hf

theorem refusal_open (x : ErrorTexts) (openOk : Str → Bool) (logpath name : Str) (service : Nat) (cfgs : List AppenderConfig) (idx : Nat) (fps : List Str) :
    initLoop openOk logpath name service cfgs idx fps = none ↔ (openRefusal x openOk logpath name cfgs idx fps).isSome := by
  induction cfgs generalizing idx fps with
  | nil => simp [initLoop, openRefusal]
  | cons cfg rest ih =>
    cases cfg with
    | console level =>
      simp only [initLoop, openRefusal]
      rw [← ih]
      cases initLoop openOk logpath name service rest (idx + 1) fps <;> simp
    | file level equal daily bufsize =>
      simp only [initLoop, openRefusal]
      generalize (if fps.contains (logPath1 logpath name (appenderLevel level)) = true then
        logPath2 logpath name (appenderLevel level) idx else logPath1 logpath name (appenderLevel level)) = path
      cases openOk path with
      | false => simp
      | true =>
        simp only [Bool.not_true, Bool.false_eq_true, ↓reduceIte]
        rw [← ih]
        cases initLoop openOk logpath name service rest (idx + 1) (path :: fps) <;> simp

theorem refusal_section (x : ErrorTexts) (openOk : Str → Bool) (logpath : Str) (c : LoggingConfig) :
    c.init openOk logpath = none ↔
      (if c.disable = some true then none else openRefusal x openOk logpath c.serviceName c.appenders 0 []).isSome := by
  unfold LoggingConfig.init
  split
  · simp
  · rw [← refusal_open x openOk logpath c.serviceName c.serviceIdx]
    simp

theorem refusal_services (x : ErrorTexts) (openOk : Str → Bool) (logpath : Str) (services : List (Str × ServiceConfig)) :
    initServices openOk logpath services = none ↔ (sectionsRefusal x openOk logpath (services.map (·.2.logging))).isSome := by
  induction services with
  | nil => simp [initServices, sectionsRefusal]
  | cons q rest ih =>
    obtain ⟨k, s⟩ := q
    simp only [initServices, List.map_cons, sectionsRefusal]
    have h := refusal_section x openOk logpath s.logging
    cases hi : s.logging.init openOk logpath with
    | none =>
      obtain ⟨e, he⟩ := Option.isSome_iff_exists.1 (h.1 hi)
      simp [he]
    | some a =>
      rw [none_of_iff h (by rw [hi]; simp)]
      simp only
      rw [← ih]
      cases initServices openOk logpath rest <;> simp

theorem refusal_appenders (x : ErrorTexts) (openOk : Str → Bool) (c : Config) :
    c.appenders openOk = none ↔ (sectionsRefusal x openOk c.logpath (c.logging :: c.services.map (·.2.logging))).isSome := by
  simp only [Config.appenders, sectionsRefusal]
  have h := refusal_section x openOk c.logpath c.logging
  cases hi : c.logging.init openOk c.logpath with
  | none =>
    obtain ⟨e, he⟩ := Option.isSome_iff_exists.1 (h.1 hi)
    simp [he]
  | some a =>
    rw [none_of_iff h (by rw [hi]; simp)]
    simp only
    rw [← refusal_services]
    cases initServices openOk c.logpath c.services <;> simp

theorem refusal_renderers (x : ErrorTexts) (U : Unicode) (ns : List Str) : renderersFor U ns = none ↔ (rendererRefusal x U ns).isSome := by
  induction ns with
  | nil => simp [renderersFor, rendererRefusal]
  | cons n ns ih =>
    simp only [renderersFor, rendererRefusal]
    cases rendererFor U n with
    | none => simp
    | some r => simpa using ih

theorem refusal_logging (x : ErrorTexts) (U : Unicode) (openOk midnight : Str → Bool) (order : List Str → List Str) (setOk : Bool) (c : Config) :
    c.initLogging U openOk midnight order setOk = .error ↔ (c.loggingRefusal x U openOk midnight order setOk).isSome := by
  unfold Config.initLogging Config.loggingRefusal
  split
  · simp
  · unfold Config.startLogging initLogging
    have h := refusal_appenders x openOk c
    cases ha : c.appenders openOk with
    | none =>
      obtain ⟨e, he⟩ := Option.isSome_iff_exists.1 (h.1 ha)
      simp [he]
    | some as =>
      rw [none_of_iff h (by rw [ha]; simp)]
      simp only
      cases noteAppenders as 0 c.slab with
      | none => simp
      | some samap =>
        simp only
        have h := refusal_renderers x U (order (rendererNames as))
        cases hr : renderersFor U (order (rendererNames as)) with
        | none =>
          obtain ⟨e, he⟩ := Option.isSome_iff_exists.1 (h.1 hr)
          simp [he]
        | some rs =>
          rw [none_of_iff h (by rw [hr]; simp)]
          simp only
          cases Consumer.init U ⟨as.map (·.appender), rs, [], samap⟩ with
          | none => simp
          | some k => cases setOk <;> simp

theorem refusal_none (p : Profile) (m : Machine) (arg : Str) (h : trimUnicode (fileArgument p arg) = [])  :
    ∃ c, loadConfigFrom p m.pathExists arg (fun file => loadFile m.U p m.strict m.pathExists m.chdir m.glob m.order (m.read file)) = .value c ∧
      c.services = [] ∧ c.logging.appenders = [.console (some u!"trace")] ∧ c.logging.disable = none := by
  cases hc : Config.empty.autofix m.pathExists with
  | none => simp [Config.autofix, Config.empty, fixServices] at hc
  | some c =>
    refine ⟨c, by simp [loadConfigFrom, loadConfig, h, hc], ?_⟩
    simp only [Config.autofix, Config.empty, fixServices, Option.some.injEq] at hc
    subst hc
    exact ⟨rfl, rfl, rfl⟩

/-- **C210.** The process gives up with an error before anything is served exactly if there is a text, and then it is what is on standard error. -/
theorem C210_says (m : Machine) (x : ErrorTexts) (p : Profile) (arg : Str) :
    (m.start p arg = .failed ↔ ∃ e, m.refusal x p arg = some e) ∧
    (m.start p arg = .failed ↔ m.errorLine x p arg ≠ []) := by
  have key : m.start p arg = .failed ↔ ∃ e, m.refusal x p arg = some e := by
    unfold Machine.start Machine.refusal
    dsimp only
    generalize hl : loadConfigFrom p m.pathExists arg (fun file => loadFile m.U p m.strict m.pathExists m.chdir m.glob m.order (m.read file)) = r
    have hload : r = .error ↔ (if (trimUnicode (fileArgument p arg)).isEmpty then fixRefusal x m.pathExists []
        else loadRefusal m.U p m.strict x m.pathExists m.chdir m.glob m.order (fileArgument p arg) (m.read (fileArgument p arg))).isSome := by
      by_cases he : trimUnicode (fileArgument p arg) = []
      · obtain ⟨c, hc, _⟩ := refusal_none p m arg he
        rw [← hl, hc]
        simp [he, fixRefusal]
      · have he' : (trimUnicode (fileArgument p arg)).isEmpty = false := by simpa using he
        rw [← hl]
        simp only [loadConfigFrom, loadConfig, he', Bool.not_false, ↓reduceIte, Bool.false_eq_true]
        exact refusal_load ..
    cases r with
    | error =>
      obtain ⟨e, he⟩ := Option.isSome_iff_exists.1 (hload.1 rfl)
      simp only [he, mainStart, true_iff]
      exact ⟨e, rfl⟩
    | panic =>
      rw [none_of_iff hload (by simp)]
      simp [mainStart]
    | value c =>
      rw [none_of_iff hload (by simp)]
      simp only [mainStart]
      rw [← Option.isSome_iff_exists, ← refusal_logging x]
      cases c.initLogging m.U m.openOk m.midnight m.names m.setOk with
      | error => simp
      | panic => simp
      | hang => simp
      | value k => simp only [reduceCtorEq, iff_false]; split <;> simp
  refine ⟨key, ?_⟩
  rw [key]
  unfold Machine.errorLine
  cases m.refusal x p arg with
  | none => simp
  | some e => simp

/-! ## The text is a true reason -/

theorem debugChar_quotes (x : ErrorTexts) (c : Nat) : InQuotes x c (debugChar x c) := by
  have hd : ∀ c : Nat, c < 16 → u!"0123456789abcdef"[c]? = some (hexChar c) := by decide
  unfold debugChar
  split
  · rename_i h; subst h; exact .nul
  split
  · rename_i h; subst h; exact .tab
  split
  · rename_i h; subst h; exact .newline
  split
  · rename_i h; subst h; exact .cr
  split
  · rename_i h; subst h; exact .quote
  split
  · rename_i h; subst h; exact .backslash
  split
  · exact .short _ _ (by assumption) (by assumption) (by assumption) (by assumption) (hd c (by assumption))
  split
  · rename_i h
    have : InQuotes x (16 * (c / 16) + c % 16) (u!"\\u{" ++ [hexChar (c / 16), hexChar (c % 16)] ++ u!"}") :=
      .long (c / 16) (c % 16) _ _ (by omega) (hd _ (by omega)) (hd _ (by omega))
    rwa [show 16 * (c / 16) + c % 16 = c by omega] at this
  split
  · exact .plain _ (by omega) (by omega) (by assumption) (by assumption)
  · exact .other _ (by omega)

theorem debugStr_quoted (x : ErrorTexts) (s : Str) : Quoted x s (debugStr x s) := by
  refine ⟨s.map (debugChar x), ?_, by simp [debugStr, List.flatMap_def]⟩
  induction s with
  | nil => exact .nil
  | cons c s ih => exact .cons (debugChar_quotes x c) ih

/-- An included file keeps the process from starting. -/
def ItemFails (x : ErrorTexts) (i : GlobItem) (services : List (Str × ServiceConfig)) (e : Str) : Prop :=
  ∃ path isFile text parsed, i = .ok path isFile text parsed ∧
    ((Visible path isFile ∧ text = false ∧ e = x.read path) ∨
     (Visible path isFile ∧ text = true ∧ parsed = none ∧ e = debugStr x (u!"load service failed, from `" ++ x.path path ++ u!"`, " ++ x.toml path)) ∨
     ∃ k s, Adds i [(k, s)] ∧ k ∈ services.map (·.1) ∧ e = debugStr x (u!"service name `" ++ k ++ u!"` is exists, file: " ++ path))

theorem include_step (x : ErrorTexts) (i : GlobItem) (es : List GlobItem) (services : List (Str × ServiceConfig)) (e : Str)
    (h : includeRefusal x (i :: es) services = some e) :
    (∃ a, Adds i a ∧ includeRefusal x es (services ++ a) = some e) ∨ ItemFails x i services e := by
  have skip : Adds i [] → includeRefusal x (i :: es) services = includeRefusal x es services →
      (∃ a, Adds i a ∧ includeRefusal x es (services ++ a) = some e) := by
    intro h1 h2
    rw [h2] at h
    exact ⟨[], h1, by simpa using h⟩
  cases i with
  | err => exact .inl (skip .err rfl)
  | ok path isFile text parsed =>
    cases hf : fileName path with
    | none => exact .inl (skip (.noName _ _ _ _ ((fileName_none path).mp hf)) (by simp [includeRefusal, hf]))
    | some base =>
      obtain ⟨hl, hdd⟩ := (fileName_iff path base).mp hf
      cases isFile with
      | false => exact .inl (skip (.notFile _ _ _) (by simp [includeRefusal, hf]))
      | true =>
        by_cases hh : base.head? = some 46
        · exact .inl (skip (.hidden _ _ _ _ base hl hh) (by simp [includeRefusal, hf, hh]))
        · have hvis : Visible path true := ⟨rfl, base, hl, hh⟩
          have add : ∀ k s, Adds (.ok path true text parsed) [(k, s)] →
              includeRefusal x (.ok path true text parsed :: es) services = (if services.any (fun s => s.1 = k) then
                some (debugStr x (u!"service name `" ++ k ++ u!"` is exists, file: " ++ path)) else includeRefusal x es (services ++ [(k, s)])) →
              (∃ a, Adds (.ok path true text parsed) a ∧ includeRefusal x es (services ++ a) = some e) ∨ ItemFails x (.ok path true text parsed) services e := by
            intro k s h1 h2
            rw [h2] at h
            split at h
            · rename_i hany
              obtain ⟨q, hq, hqk⟩ := List.any_eq_true.1 hany
              exact .inr ⟨_, _, _, _, rfl, .inr (.inr ⟨k, s, h1, List.mem_map.2 ⟨q, hq, by simpa using hqk⟩, (Option.some.inj h).symm⟩)⟩
            · exact .inl ⟨_, h1, h⟩
          cases text with
          | false =>
            simp only [includeRefusal, hf, hh, Bool.not_true, Bool.false_eq_true, ↓reduceIte, Bool.not_false, Option.some.injEq] at h
            exact .inr ⟨_, _, _, _, rfl, .inl ⟨hvis, rfl, h.symm⟩⟩
          | true =>
            cases parsed with
            | none =>
              simp only [includeRefusal, hf, hh, Bool.not_true, Bool.false_eq_true, ↓reduceIte, Option.some.injEq] at h
              exact .inr ⟨_, _, _, _, rfl, .inr (.inl ⟨hvis, rfl, rfl, h.symm⟩)⟩
            | some s =>
              by_cases ht : trimUnicode s.name = []
              · cases hn : nameWithoutExt path with
                | panic => exact absurd hn (C59_namewithoutext path).1
                | error => exact absurd ((C59_namewithoutext path).2.2.1 hn base hl) hdd
                | value stem =>
                  obtain ⟨name, h1, _, h3⟩ := ((C59_namewithoutext path).2.1 stem).mp hn
                  have : name = base := by
                    have h4 := (lastComponent_iff path name).mpr h1
                    rw [(lastComponent_iff path base).mpr hl] at h4
                    exact (Option.some.inj h4).symm
                  subst this
                  exact add stem _ (.unnamed path name stem s hl hh ht h3) (by simp [includeRefusal, hf, hh, ht, hn])
              · exact add (trimUnicode s.name) _ (.named path base s hl hh ht) (by simp [includeRefusal, hf, hh, ht])

section
variable {U : Unicode} {p : Profile} {strict : Bool}

/-- An included file keeps the process from starting, in terms of the file. -/
def FileFails (U : Unicode) (p : Profile) (strict : Bool) (x : ErrorTexts) (g : GlobFile) (services : List (Str × ServiceConfig)) (e : Str) : Prop :=
  ∃ path isFile readable toml, g = .ok path isFile readable toml ∧
    ((Visible path isFile ∧ readable = false ∧ e = x.read path) ∨
     (Visible path isFile ∧ readable = true ∧ (∀ sv s, toml = some sv → ¬ ServiceSays U p strict sv s) ∧
      e = debugStr x (u!"load service failed, from `" ++ x.path path ++ u!"`, " ++ x.toml path)) ∨
     ∃ k s, FileAdds U p strict g [(k, s)] ∧ k ∈ services.map (·.1) ∧ e = debugStr x (u!"service name `" ++ k ++ u!"` is exists, file: " ++ path))

theorem item_fails (x : ErrorTexts) (g : GlobFile) (i : GlobItem) (h : g.item U p strict = .value i) (services : List (Str × ServiceConfig)) (e : Str)
    (hf : ItemFails x i services e) : FileFails U p strict x g services e := by
  obtain ⟨path, isFile, text, parsed, rfl, hf⟩ := hf
  have shape : ∃ toml, g = .ok path isFile text toml ∧ (Visible path isFile → text = true → parsed = none → ∀ sv s, toml = some sv → ¬ ServiceSays U p strict sv s) := by
    cases g with
    | err => cases h
    | ok path' a b t =>
      cases t with
      | none => cases h; exact ⟨none, rfl, by simp⟩
      | some v =>
        simp only [GlobFile.item] at h
        cases hv : ServiceConfig.de U p strict v with
        | value s => rw [hv] at h; cases h; exact ⟨some v, rfl, by simp⟩
        | error =>
          rw [hv] at h
          cases h
          refine ⟨some v, rfl, ?_⟩
          intro _ _ _ w s e
          cases e
          exact not_says (by simp [hv])
        | panic =>
          rw [hv] at h
          have : path' = path ∧ a = isFile ∧ b = text := by
            simp only at h
            repeat' split at h
            all_goals cases h
            all_goals exact ⟨rfl, rfl, rfl⟩
          obtain ⟨rfl, rfl, rfl⟩ := this
          refine ⟨some v, rfl, ?_⟩
          intro _ _ _ w s e
          cases e
          exact not_says (by simp [hv])
  obtain ⟨toml, rfl, hno⟩ := shape
  refine ⟨path, isFile, text, toml, rfl, ?_⟩
  rcases hf with h1 | ⟨h1, h2, h3, h4⟩ | ⟨k, s, h1, h2, h3⟩
  · exact .inl h1
  · exact .inr (.inl ⟨h1, h2, hno h1 h2 h3, h4⟩)
  · exact .inr (.inr ⟨k, s, (item_adds _ _ h _).1 h1, h2, h3⟩)

theorem include_reason (x : ErrorTexts) (gs : List GlobFile) (services : List (Str × ServiceConfig)) (e : Str)
    (h : includeRefusal x (itemsOf U p strict gs).1 services = some e) :
    ∃ gs1 g gs2 added, gs = gs1 ++ g :: gs2 ∧ Each2 (FileAdds U p strict) gs1 added ∧ FileFails U p strict x g (services ++ added.flatten) e := by
  induction gs generalizing services with
  | nil => simp [itemsOf, includeRefusal] at h
  | cons g gs ih =>
    simp only [itemsOf] at h
    cases hi : g.item U p strict with
    | error => exact absurd hi (item_panic strict g).1
    | panic => rw [hi] at h; simp [includeRefusal] at h
    | value i =>
      rw [hi] at h
      rcases include_step x i _ services e h with ⟨a, h1, h2⟩ | hf
      · obtain ⟨gs1, g', gs2, added, rfl, h3, h4⟩ := ih _ h2
        exact ⟨g :: gs1, g', gs2, a :: added, rfl, .cons ((item_adds g i hi _).1 h1) h3, by simpa using h4⟩
      · exact ⟨[], g, gs, [], rfl, .nil, by simpa using item_fails x g i hi services e hf⟩

theorem patterns_reason (x : ErrorTexts) (glob : Str → Option (List GlobFile)) (pats : List Str) (services : List (Str × ServiceConfig)) (e : Str)
    (h : patternsRefusal x (pats.zip (patternItems U p strict glob pats).1) services = some e) :
    ∃ pats1 pat pats2, pats = pats1 ++ pat :: pats2 ∧
      ((glob pat = none ∧ e = x.pattern pat) ∨
       ∃ (fss : List (List GlobFile)) (gs1 : List GlobFile) (g : GlobFile) (gs2 : List GlobFile) (added : List (List (Str × ServiceConfig))),
        pats1.map glob = fss.map some ∧ glob pat = some (gs1 ++ g :: gs2) ∧
        Each2 (FileAdds U p strict) (fss.flatten ++ gs1) added ∧ FileFails U p strict x g (services ++ added.flatten) e) := by
  induction pats generalizing services with
  | nil => simp [patternsRefusal] at h
  | cons q ql ih =>
    simp only [patternItems] at h
    cases hg : glob q with
    | none =>
      rw [hg] at h
      simp only [List.zip_cons_cons, patternsRefusal, Option.some.injEq] at h
      exact ⟨[], q, ql, rfl, .inl ⟨hg, h.symm⟩⟩
    | some gs =>
      rw [hg] at h
      simp only at h
      have first : includeRefusal x (itemsOf U p strict gs).1 services = some e →
          ∃ pats1 pat pats2, q :: ql = pats1 ++ pat :: pats2 ∧
          ((glob pat = none ∧ e = x.pattern pat) ∨
           ∃ (fss : List (List GlobFile)) (gs1 : List GlobFile) (g : GlobFile) (gs2 : List GlobFile) (added : List (List (Str × ServiceConfig))),
            pats1.map glob = fss.map some ∧ glob pat = some (gs1 ++ g :: gs2) ∧
            Each2 (FileAdds U p strict) (fss.flatten ++ gs1) added ∧ FileFails U p strict x g (services ++ added.flatten) e) := by
        intro hr
        obtain ⟨gs1, g, gs2, added, rfl, h1, h2⟩ := include_reason x gs services e hr
        exact ⟨[], q, ql, rfl, .inr ⟨[], gs1, g, gs2, added, rfl, hg, by simpa using h1, h2⟩⟩
      split at h
      · simp only [List.zip_cons_cons, patternsRefusal] at h
        cases hr : includeRefusal x (itemsOf U p strict gs).1 services with
        | some e' =>
          rw [hr] at h
          cases h
          exact first hr
        | none =>
          rw [hr] at h
          simp only at h
          split at h
          · simp [patternsRefusal] at h
          · cases h
      · rename_i hb
        simp only [List.zip_cons_cons, patternsRefusal] at h
        cases hr : includeRefusal x (itemsOf U p strict gs).1 services with
        | some e' =>
          rw [hr] at h
          cases h
          exact first hr
        | none =>
          rw [hr] at h
          simp only at h
          cases hl : includeLoop (itemsOf U p strict gs).1 services with
          | error => rw [hl] at h; cases h
          | panic => rw [hl] at h; cases h
          | value s' =>
            rw [hl] at h
            obtain ⟨pats1, pat, pats2, rfl, hc⟩ := ih s' h
            refine ⟨q :: pats1, pat, pats2, rfl, ?_⟩
            rcases hc with hc | ⟨fss, gs1, g, gs2, added, h1, h2, h3, h4⟩
            · exact .inl hc
            · have hall : includeAll [some (itemsOf U p strict gs).1] services = .value s' := by
                simp [includeAll, includePattern, hl]
              obtain ⟨⟨items, a0, k1, k2, k3⟩, _⟩ := (C58_include _ services).2 s' hall
              cases items with
              | nil => simp at k1
              | cons it items =>
                simp only [List.map_cons, List.cons.injEq, Option.some.injEq] at k1
                obtain ⟨rfl, k1⟩ := k1
                have : items = [] := by cases items <;> simp at k1 ⊢
                subst this
                simp only [List.flatten_cons, List.flatten_nil, List.append_nil] at k2
                refine .inr ⟨gs :: fss, gs1, g, gs2, a0 ++ added, by simp [hg, h1], h2, ?_, ?_⟩
                · rw [List.flatten_cons, List.append_assoc]
                  exact Each2_append ((itemsOf_adds gs a0).1 ⟨Bool.eq_false_iff.2 hb, k2⟩) h3
                · rw [k3] at h4
                  simpa [List.append_assoc] using h4

end

theorem fix_reason (x : ErrorTexts) (pathExists : Str → Bool) (services : List (Str × ServiceConfig)) (e : Str)
    (h : fixRefusal x pathExists services = some e) :
    ∃ k s, (k, s) ∈ services ∧
      ((trimUnicode k = [] ∧ e = debugStr x u!"empty service name") ∨
       (s.service = .fileSystem [] ∧ e = debugStr x (u!"fs service `" ++ trimUnicode k ++ u!"` get an empty root path")) ∨
       ∃ root, s.service = .fileSystem root ∧ pathExists root = false ∧
        e = debugStr x (u!"fs service `" ++ trimUnicode k ++ u!"` get an non-exists root path `" ++ root ++ u!"`")) := by
  induction services with
  | nil => simp [fixRefusal] at h
  | cons q rest ih =>
    obtain ⟨k, s⟩ := q
    simp only [fixRefusal] at h
    split at h
    · rename_i hb
      exact ⟨k, s, List.mem_cons_self, .inl ⟨by simpa using hb, (Option.some.inj h).symm⟩⟩
    · cases hs : s.service with
      | fileSystem root =>
        simp only [hs, ServiceSetting.refusal] at h
        cases root with
        | nil =>
          simp only [List.isEmpty_nil, ↓reduceIte, Option.some.injEq] at h
          exact ⟨k, s, List.mem_cons_self, .inr (.inl ⟨hs, h.symm⟩)⟩
        | cons c root =>
          cases hp : pathExists (c :: root) with
          | false =>
            simp only [List.isEmpty_cons, hp, Bool.false_eq_true, ↓reduceIte, Bool.not_false, Option.some.injEq] at h
            exact ⟨k, s, List.mem_cons_self, .inr (.inr ⟨_, hs, hp, h.symm⟩)⟩
          | true =>
            simp only [List.isEmpty_cons, hp, Bool.false_eq_true, ↓reduceIte, Bool.not_true] at h
            obtain ⟨k', s', h1, h2⟩ := ih h
            exact ⟨k', s', List.mem_cons_of_mem _ h1, h2⟩
      | _ =>
        simp only [hs, ServiceSetting.refusal] at h
        obtain ⟨k', s', h1, h2⟩ := ih h
        exact ⟨k', s', List.mem_cons_of_mem _ h1, h2⟩

/-- The first file that cannot be opened: it is what fails if no other does. -/
theorem open_reason (x : ErrorTexts) (openOk : Str → Bool) (logpath name : Str) (service : Nat) (cfgs : List AppenderConfig) (idx : Nat) (fps : List Str)
    (e : Str) (h : openRefusal x openOk logpath name cfgs idx fps = some e) :
    ∃ path, openOk path = false ∧ e = x.logFile path ∧ initLoop (fun q => q != path) logpath name service cfgs idx fps = none := by
  induction cfgs generalizing idx fps with
  | nil => simp [openRefusal] at h
  | cons cfg rest ih =>
    cases cfg with
    | console level =>
      simp only [openRefusal] at h
      obtain ⟨path, h1, h2, h3⟩ := ih _ _ h
      exact ⟨path, h1, h2, by simp [initLoop, h3]⟩
    | file level equal daily bufsize =>
      simp only [openRefusal] at h
      simp only [initLoop]
      generalize (if fps.contains (logPath1 logpath name (appenderLevel level)) = true then
        logPath2 logpath name (appenderLevel level) idx else logPath1 logpath name (appenderLevel level)) = path at h ⊢
      cases ho : openOk path with
      | false =>
        simp only [ho, Bool.not_false, ↓reduceIte, Option.some.injEq] at h
        exact ⟨path, ho, h.symm, by simp⟩
      | true =>
        simp only [ho, Bool.not_true, Bool.false_eq_true, ↓reduceIte] at h
        obtain ⟨path', h1, h2, h3⟩ := ih _ _ h
        exact ⟨path', h1, h2, by simp [h3]⟩

theorem init_reason (x : ErrorTexts) (openOk : Str → Bool) (logpath : Str) (c : LoggingConfig) (e : Str)
    (h : (if c.disable = some true then none else openRefusal x openOk logpath c.serviceName c.appenders 0 []) = some e) :
    ∃ path, openOk path = false ∧ e = x.logFile path ∧ c.init (fun q => q != path) logpath = none := by
  split at h
  · cases h
  · rename_i hd
    obtain ⟨path, h1, h2, h3⟩ := open_reason x openOk logpath c.serviceName c.serviceIdx _ _ _ e h
    exact ⟨path, h1, h2, by simp [LoggingConfig.init, hd, h3]⟩

theorem sections_reason (x : ErrorTexts) (openOk : Str → Bool) (c : Config) (e : Str)
    (h : sectionsRefusal x openOk c.logpath (c.logging :: c.services.map (·.2.logging)) = some e) :
    ∃ path, openOk path = false ∧ e = x.logFile path ∧ c.appenders (fun q => q != path) = none := by
  have gen : ∀ services : List (Str × ServiceConfig), sectionsRefusal x openOk c.logpath (services.map (·.2.logging)) = some e →
      ∃ path, openOk path = false ∧ e = x.logFile path ∧ initServices (fun q => q != path) c.logpath services = none := by
    intro services
    induction services with
    | nil => simp [sectionsRefusal]
    | cons q rest ih =>
      obtain ⟨k, s⟩ := q
      intro h
      simp only [List.map_cons, sectionsRefusal] at h
      split at h
      · rename_i e' he
        cases h
        obtain ⟨path, h1, h2, h3⟩ := init_reason x openOk c.logpath s.logging e he
        exact ⟨path, h1, h2, by simp [initServices, h3]⟩
      · obtain ⟨path, h1, h2, h3⟩ := ih h
        refine ⟨path, h1, h2, ?_⟩
        simp only [initServices, h3]
        cases s.logging.init (fun q => q != path) c.logpath <;> rfl
  simp only [sectionsRefusal] at h
  split at h
  · rename_i e' he
    cases h
    obtain ⟨path, h1, h2, h3⟩ := init_reason x openOk c.logpath c.logging e he
    exact ⟨path, h1, h2, by simp [Config.appenders, h3]⟩
  · obtain ⟨path, h1, h2, h3⟩ := gen _ h
    refine ⟨path, h1, h2, ?_⟩
    simp only [Config.appenders, h3]
    cases c.logging.init (fun q => q != path) c.logpath <;> rfl

theorem logging_reason (x : ErrorTexts) {U : Unicode} (hU : LawfulUnicode U) (openOk midnight : Str → Bool) (order : List Str → List Str)
    (horder : ∀ l, (order l).Perm l) (setOk : Bool) (c : Config) (e : Str) (h : c.loggingRefusal x U openOk midnight order setOk = some e) :
    (∃ path, openOk path = false ∧ e = x.logFile path ∧ c.appenders (fun q => q != path) = none) ∨ (setOk = false ∧ e = x.setLogger) := by
  unfold Config.loggingRefusal at h
  split at h
  · cases h
  · cases hs : sectionsRefusal x openOk c.logpath (c.logging :: c.services.map (·.2.logging)) with
    | some e' =>
      rw [hs] at h
      cases h
      exact .inl (sections_reason x openOk c e hs)
    | none =>
      rw [hs] at h
      cases ha : c.appenders openOk with
      | none => rw [ha] at h; cases h
      | some as =>
        rw [ha] at h
        simp only at h
        cases hn : noteAppenders as 0 c.slab with
        | none => rw [hn] at h; cases h
        | some samap =>
          rw [hn] at h
          simp only at h
          have hknown : ∀ n ∈ order (rendererNames as), n = u!"colored" ∨ n = u!"json" := by
            intro n hn
            obtain ⟨a, h1, h2⟩ := ((rendererNames_spec as).2 n).mp ((horder _).mem_iff.mp hn)
            rw [appenders_renderer openOk c as ha a h1] at h2
            split at h2
            · exact Or.inl h2.symm
            · exact Or.inr h2.symm
          obtain ⟨rs, hrs, _⟩ := renderersFor_known hU _ hknown
          have hr := none_of_iff (refusal_renderers x U (order (rendererNames as))) (by rw [hrs]; simp)
          rw [hr, hrs] at h
          simp only at h
          split at h
          · cases h
          · split at h
            · cases h
            · rename_i hset
              exact .inr ⟨by simpa using hset, (Option.some.inj h).symm⟩

/-- **C210.** The text that the process gives up with is a true reason: what it says about the file named on the command line, about the files that it includes,
about a service or about a log file is so; or there is a logger already (which is never so: the program makes one only once). -/
theorem C210_reason (m : Machine) (hU : LawfulUnicode m.U) (horder : ∀ l, (m.order l).Perm l) (hnames : ∀ l, (m.names l).Perm l) (x : ErrorTexts)
    (p : Profile) (arg : Str)
    (hnd : ∀ v ss, m.read (fileArgument p arg) = some v → setting [u!"services", u!"Services"] 9 v = some (.table ss) → (ss.map (·.1)).Nodup)
    (e : Str) (h : m.refusal x p arg = some e) :
    (trimUnicode (fileArgument p arg) ≠ [] ∧ Unfit m x p (fileArgument p arg) e) ∨ (m.setOk = false ∧ e = x.setLogger) := by
  unfold Machine.refusal at h
  dsimp only at h
  by_cases harg : trimUnicode (fileArgument p arg) = []
  · right
    obtain ⟨c, hc, h1, h2, h3⟩ := refusal_none p m arg harg
    simp only [harg, List.isEmpty_nil, ↓reduceIte, fixRefusal, hc] at h
    rcases logging_reason x hU _ _ _ hnames _ c e h with ⟨path, _, _, h4⟩ | h4
    · simp [Config.appenders, LoggingConfig.init, h1, h2, h3, initLoop, initServices] at h4
    · exact h4
  · have he' : (trimUnicode (fileArgument p arg)).isEmpty = false := by simpa using harg
    simp only [he', Bool.false_eq_true, ↓reduceIte] at h
    generalize hfile : fileArgument p arg = file at h harg hnd
    cases hv : m.read file with
    | none =>
      rw [hv] at h
      simp only [loadRefusal, Option.some.injEq] at h
      subst h
      exact .inl ⟨harg, .unreadable hv⟩
    | some v =>
      have hnd' : ∀ ss, setting [u!"services", u!"Services"] 9 v = some (.table ss) → (ss.map (·.1)).Nodup := fun ss => hnd v ss hv
      cases hl : loadRefusal m.U p m.strict x m.pathExists m.chdir m.glob m.order file (m.read file) with
      | none =>
        rw [hl] at h
        have he2 : (trimUnicode file).isEmpty = false := by simpa using harg
        simp only [loadConfigFrom, loadConfig, hfile, he2, Bool.not_false, ↓reduceIte] at h
        cases hc : loadFile m.U p m.strict m.pathExists m.chdir m.glob m.order (m.read file) with
        | error => rw [hc] at h; cases h
        | panic => rw [hc] at h; cases h
        | value c =>
          rw [hc] at h
          rw [hv] at hc
          rcases logging_reason x hU _ _ _ hnames _ c e h with ⟨path, h1, rfl, h3⟩ | h4
          · left
            obtain ⟨logpath, lc, k1, k2, _, k3⟩ := C193_files m.U p m.strict m.pathExists m.chdir m.glob m.order horder v c hc hnd' (fun q => q != path)
            obtain ⟨path', k4, k5⟩ := k3 h3
            have : path' = path := by simpa using k4
            subst this
            refine ⟨harg, ?_⟩
            rcases k5 with ⟨as, k5, k6⟩ | ⟨k, sv, ls, idx, as, k5, k6, k7, k8⟩
            · exact .mainLog v logpath lc as path' hv k1 k2 k5 k6 h1
            · exact .serviceLog v logpath k sv ls idx as path' hv k1 k5 k6 k7 k8 h1
          · exact .inr h4
      | some e' =>
        rw [hl] at h
        cases h
        refine .inl ⟨harg, ?_⟩
        rw [hv] at hl
        simp only [loadRefusal] at hl
        cases hd : ConfigFile.de m.U p m.strict v with
        | error =>
          rw [hd] at hl
          simp only [Option.some.injEq] at hl
          subst hl
          refine .noConfig v hv ?_
          intro f hf
          rw [← C141_file, hd] at hf
          cases hf
        | panic => rw [hd] at hl; cases hl
        | value f =>
          rw [hd] at hl
          have hs := (C141_file m.U p m.strict v f).1 hd
          simp only at hl
          split at hl
          · rename_i hw
            cases hl
            simp only [Bool.and_eq_true, Bool.not_eq_true', List.isEmpty_eq_false_iff] at hw
            have hg := hs.workdir
            cases hset : setting [u!"workdir", u!"Workdir"] 0 v with
            | none => rw [hset] at hg; exact absurd (show f.workdir = [] from hg) hw.1
            | some w =>
              rw [hset] at hg
              have : w = .str f.workdir := hg
              subst this
              exact .workdir v f.workdir hv hset hw.1 hw.2
          · cases hp : patternsRefusal x (f.patterns.zip (patternItems m.U p m.strict m.glob f.patterns).1) f.config.services with
            | some e'' =>
              rw [hp] at hl
              cases hl
              obtain ⟨pats1, pat, pats2, h1, h2⟩ := patterns_reason x m.glob f.patterns f.config.services e hp
              rw [patterns_eq] at h1
              have hpat : HasPattern v pat := (mem_patterns hs pat).1 (by rw [h1]; simp)
              rcases h2 with ⟨h2, rfl⟩ | ⟨fss, gs1, g, gs2, added, h2, h3, h4, path, isFile, readable, toml, rfl, h5⟩
              · exact .pattern v pat hv hpat h2
              · have hmem : GlobFile.ok path isFile readable toml ∈ gs1 ++ GlobFile.ok path isFile readable toml :: gs2 := by simp
                rcases h5 with ⟨k1, rfl, rfl⟩ | ⟨k1, rfl, k2, rfl⟩ | ⟨k, s, k1, k2, rfl⟩
                · exact .included v pat _ path isFile toml hv hpat h3 hmem k1
                · exact .noService v pat _ path isFile toml _ hv hpat h3 hmem k1 k2 (debugStr_quoted ..)
                · rw [List.map_append, List.mem_append] at k2
                  rcases k2 with k2 | k2
                  · obtain ⟨⟨k', s'⟩, k3, rfl⟩ := List.mem_map.1 k2
                    have hsv := hs.services
                    cases hset : setting [u!"services", u!"Services"] 9 v with
                    | none => rw [hset] at hsv; rw [show f.config.services = [] from hsv] at k3; cases k3
                    | some w =>
                      rw [hset] at hsv
                      obtain ⟨ss, rfl, hss⟩ := hsv
                      obtain ⟨⟨k'', sv⟩, k4, k5, _⟩ := Each2_right hss _ k3
                      simp only at k5
                      subst k5
                      exact .takenListed v pat _ path isFile readable toml _ s ss sv _ hv hpat h3 hmem k1 hset k4 (debugStr_quoted ..)
                  · obtain ⟨⟨k', s'⟩, k3, rfl⟩ := List.mem_map.1 k2
                    obtain ⟨a, k4, k5⟩ := List.mem_flatten.1 k3
                    obtain ⟨g, k6, k7⟩ := Each2_right h4 _ k4
                    have : a = [(k', s')] := by
                      cases k7 with
                      | named => rw [List.mem_singleton.1 k5]
                      | unnamed => rw [List.mem_singleton.1 k5]
                      | _ => cases k5
                    subst this
                    exact .takenIncluded v f.include f.includes pats1 pat pats2 fss gs1 path isFile readable toml gs2 g _ s s' _ hv hs.incl hs.includes h1 h2 h3
                      k6 k7 k1 (debugStr_quoted ..)
            | none =>
              rw [hp] at hl
              simp only at hl
              cases hi : includeAll (patternItems m.U p m.strict m.glob f.patterns).1 f.config.services with
              | error => rw [hi] at hl; cases hl
              | panic => rw [hi] at hl; cases hl
              | value all =>
                rw [hi] at hl
                simp only at hl
                split at hl
                · cases hl
                · rename_i hb
                  have hb := Bool.eq_false_iff.2 hb
                  obtain ⟨items, added, h1, h2, rfl, h3⟩ := (C58_exactly _ _ _ (services_keys hs hnd')).1 hi
                  obtain ⟨fss, h4, h5⟩ := (patternItems_adds m.glob f.patterns added).1 ⟨hb, items, h1, h2⟩
                  rw [patterns_eq] at h4
                  obtain ⟨_, ho⟩ := mem_services hs h4 h5
                  obtain ⟨k, s, k1, k2⟩ := fix_reason x m.pathExists _ e hl
                  have k1 := (horder _).mem_iff.1 k1
                  split at k1
                  · cases List.mem_singleton.1 k1
                    rcases k2 with ⟨k2, _⟩ | ⟨k2, _⟩ | ⟨root, k2, _⟩
                    · exact absurd k2 (by decide +kernel)
                    · cases k2
                    · cases k2
                  · obtain ⟨sv, s0, ho1, ho2, ho3⟩ := ho k s k1
                    have hsvc : s.service = s0.service := by rcases ho3 with rfl | rfl <;> rfl
                    have hkind := ho2.service
                    rw [← hsvc] at hkind
                    rcases k2 with ⟨k2, rfl⟩ | ⟨k2, rfl⟩ | ⟨root, k2, k3, rfl⟩
                    · exact .blankName v k sv _ hv ho1 k2 (debugStr_quoted ..)
                    · exact .emptyRoot v k sv _ hv ho1 (k2 ▸ hkind) (debugStr_quoted ..)
                    · exact .noRoot v k sv root _ hv ho1 (k2 ▸ hkind) k3 (debugStr_quoted ..)

/-! ## No reason is passed over -/

theorem given_unique {α : Type} {de : Toml → Outcome α} {R : Toml → α → Prop} (hR : Reads de R) {d : α} {o : Option Toml} {a b : α}
    (ha : Given R d o a) (hb : Given R d o b) : a = b := by
  cases o with
  | none => exact Eq.trans ha (Eq.symm hb)
  | some v =>
    have h1 := (hR v a).2 ha
    rw [(hR v b).2 hb] at h1
    exact (Outcome.value.inj h1).symm

theorem last_unique {path m n : Str} (hm : LastComponent path m) (hn : LastComponent path n) : m = n := by
  have h := (lastComponent_iff path m).2 hm
  rw [(lastComponent_iff path n).2 hn] at h
  exact (Option.some.inj h).symm

theorem fileAdds_unique {U : Unicode} {p : Profile} {strict : Bool} {g : GlobFile} {a b : List (Str × ServiceConfig)}
    (ha : FileAdds U p strict g a) (hb : FileAdds U p strict g b) : a = b := by
  cases hi : g.item U p strict with
  | error => exact absurd hi (item_panic strict g).1
  | panic => exact absurd ha (harmful_adds ((item_panic strict g).2.1 hi) _)
  | value i =>
    have h1 := (item_adds g i hi a).2 ha
    have h2 := (item_adds g i hi b).2 hb
    have visible : ∀ {path name : Str}, LastComponent path name → name.head? ≠ some 46 → (∀ c, LastComponent path c → c = [46, 46]) → False := by
      intro path name k1 k2 k3
      rw [k3 name k1] at k2
      exact k2 rfl
    cases h1 with
    | err => cases h2; rfl
    | notFile => cases h2 <;> rfl
    | noName _ _ _ _ hn =>
      cases h2 with
      | named _ _ _ k1 k2 => exact (visible k1 k2 hn).elim
      | unnamed _ _ _ _ k1 k2 => exact (visible k1 k2 hn).elim
      | _ => rfl
    | hidden _ _ _ _ n k1 k2 =>
      cases h2 with
      | named _ _ _ k3 k4 => rw [last_unique k3 k1] at k4; exact absurd k2 k4
      | unnamed _ _ _ _ k3 k4 => rw [last_unique k3 k1] at k4; exact absurd k2 k4
      | _ => rfl
    | named _ _ _ k1 k2 k3 =>
      cases h2 with
      | noName _ _ _ _ hn => exact (visible k1 k2 hn).elim
      | hidden _ _ _ _ n k4 k5 => rw [last_unique k1 k4] at k2; exact absurd k5 k2
      | named => rfl
      | unnamed _ _ _ _ _ _ k4 => exact absurd k4 k3
    | unnamed _ _ _ _ k1 k2 k3 k6 =>
      cases h2 with
      | noName _ _ _ _ hn => exact (visible k1 k2 hn).elim
      | hidden _ _ _ _ n k4 k5 => rw [last_unique k1 k4] at k2; exact absurd k5 k2
      | named _ _ _ _ _ k4 => exact absurd k3 k4
      | unnamed _ _ _ _ k4 _ _ k5 =>
        rw [last_unique k4 k1] at k5
        rw [stem_unique k5 k6]

theorem visible_adds {U : Unicode} {p : Profile} {strict : Bool} {path : Str} {isFile readable : Bool} {toml : Option Toml} {a : List (Str × ServiceConfig)}
    (hv : Visible path isFile) (h : FileAdds U p strict (.ok path isFile readable toml) a) :
    readable = true ∧ ∃ sv s, toml = some sv ∧ ServiceSays U p strict sv s := by
  obtain ⟨rfl, name, h1, h2⟩ := hv
  cases h with
  | noName _ _ _ _ hn => rw [hn name h1] at h2; exact absurd rfl h2
  | hidden _ _ _ _ n k1 k2 => rw [last_unique h1 k1] at h2; exact absurd k2 h2
  | named _ _ v s _ _ hs => exact ⟨rfl, v, s, rfl, hs⟩
  | unnamed _ _ _ v s _ _ hs => exact ⟨rfl, v, s, rfl, hs⟩

theorem section_paths {logpath name : Str} {i j : Nat} {lc : LoggingConfig} {as bs : List AppenderInit} (ha : SectionMeans logpath name i lc as)
    (hb : SectionMeans logpath name j lc bs) : as.map (·.path) = bs.map (·.path) := by
  rcases ha with ⟨h1, rfl⟩ | ⟨h1, stem, h2, h3, h4⟩
  · rcases hb with ⟨_, rfl⟩ | ⟨k1, _⟩
    · rfl
    · exact absurd h1 k1
  · rcases hb with ⟨k1, _⟩ | ⟨_, stem', k2, k3, k4⟩
    · exact absurd k1 h1
    · have : stem' = stem := by
        cases h2 with
        | main =>
          cases k2 with
          | main => rfl
          | service _ h => exact absurd rfl h
        | service _ h =>
          cases k2 with
          | main => exact absurd rfl h
          | service => rfl
      subst this
      have hl : ∀ {o : Option Str} {l l' : Level}, LevelMeant o l → LevelMeant o l' → l' = l := by
        intro o l l' a b
        exact ((levelMeant_iff o l').1 b).symm.trans ((levelMeant_iff o l).1 a)
      apply List.ext_getElem?
      intro n
      rw [List.getElem?_map, List.getElem?_map]
      cases hc : lc.appenders[n]? with
      | none =>
        have := List.getElem?_eq_none_iff.1 hc
        rw [List.getElem?_eq_none (by omega), List.getElem?_eq_none (by omega)]
      | some cfg =>
        obtain ⟨hn, _⟩ := List.getElem?_eq_some_iff.1 hc
        obtain ⟨a, e1⟩ : ∃ a, as[n]? = some a := ⟨_, List.getElem?_eq_getElem (by omega)⟩
        obtain ⟨b, e2⟩ : ∃ b, bs[n]? = some b := ⟨_, List.getElem?_eq_getElem (by omega)⟩
        have m1 := h4 n cfg a hc e1
        have m2 := k4 n cfg b hc e2
        rw [e1, e2]
        cases m1 with
        | console => cases m2; rfl
        | file _ _ _ _ l g1 g2 =>
          cases m2 with
          | file _ _ _ _ l' g3 g4 => rw [hl g1 g3]; rfl
          | again _ _ _ _ l' g3 g4 => rw [hl g1 g3] at g4; exact absurd g4 g2
        | again _ _ _ _ l g1 g2 =>
          cases m2 with
          | file _ _ _ _ l' g3 g4 => rw [hl g1 g3] at g4; exact absurd g2 g4
          | again _ _ _ _ l' g3 g4 => rw [hl g1 g3]; rfl

/-- **C210.** No reason is passed over: of a process that gets as far as starting its services (or finds that there are none) none of the reasons is true. -/
theorem C210_all (m : Machine) (horder : ∀ l, (m.order l).Perm l) (x : ErrorTexts) (p : Profile) (arg : Str)
    (hnd : ∀ v ss, m.read (fileArgument p arg) = some v → setting [u!"services", u!"Services"] 9 v = some (.table ss) → (ss.map (·.1)).Nodup)
    (harg : trimUnicode (fileArgument p arg) ≠ []) (h1 : m.start p arg ≠ .failed) (h2 : m.start p arg ≠ .panicked) (h3 : m.start p arg ≠ .hung) (t : Str) :
    ¬ Unfit m x p (fileArgument p arg) t := by
  have he' : (trimUnicode (fileArgument p arg)).isEmpty = false := by simpa using harg
  have hst : m.start p arg = mainStart (loadFile m.U p m.strict m.pathExists m.chdir m.glob m.order (m.read (fileArgument p arg)))
      (fun c => c.initLogging m.U m.openOk m.midnight m.names m.setOk) := by
    simp only [Machine.start, loadConfigFrom, loadConfig, he', Bool.not_false, ↓reduceIte]
  rw [hst] at h1 h2 h3
  clear hst he' harg
  generalize fileArgument p arg = file at *
  cases hc : loadFile m.U p m.strict m.pathExists m.chdir m.glob m.order (m.read file) with
  | error => rw [hc] at h1; simp [mainStart] at h1
  | panic => rw [hc] at h2; simp [mainStart] at h2
  | value c =>
    rw [hc] at h1 h2 h3
    simp only [mainStart] at h1 h2 h3
    cases hv : m.read file with
    | none => rw [hv] at hc; simp [loadFile] at hc
    | some v =>
      rw [hv] at hc
      have hnd' : ∀ ss, setting [u!"services", u!"Services"] 9 v = some (.table ss) → (ss.map (·.1)).Nodup := fun ss => hnd v ss hv
      obtain ⟨f, fss, added, hs, hw, hg, ha, hdist, hok⟩ := (C165_accepted m.pathExists m.chdir m.glob m.order horder v hnd').1 ⟨c, hc⟩
      obtain ⟨hsvc, _⟩ := mem_services hs hg ha
      obtain ⟨hpats, _⟩ := of_map_some hg
      have happ : ∃ as, c.appenders m.openOk = some as := by
        cases happ : c.appenders m.openOk with
        | some as => exact ⟨as, rfl⟩
        | none =>
          exfalso
          unfold Config.initLogging Config.startLogging at h1 h2
          rw [happ] at h1 h2
          cases hsp : sectionsPanic m.openOk m.midnight c.logpath (c.logging :: c.services.map (·.2.logging)) with
          | true => rw [hsp] at h2; exact h2 rfl
          | false => rw [hsp] at h1; exact h1 rfl
      obtain ⟨as, happ⟩ := happ
      obtain ⟨logpath, lc, c1, c2, c3, _⟩ := C193_files m.U p m.strict m.pathExists m.chdir m.glob m.order horder v c hc hnd' m.openOk
      obtain ⟨c4, c5, _, _, c6⟩ := c3 as happ
      have logs : ∀ lp, LogPathSays v lp → lp = logpath := by
        rintro lp ⟨g1, k1, k2⟩
        obtain ⟨g2, k3, k4⟩ := c1
        cases given_unique reads_str k1 k3
        rcases k2 with ⟨k5, rfl⟩ | ⟨k5, rfl⟩
        · rcases k4 with ⟨_, rfl⟩ | ⟨k6, _⟩
          · rfl
          · exact absurd k6 k5
        · rcases k4 with ⟨k6, _⟩ | ⟨_, rfl⟩
          · exact absurd k5 k6
          · rfl
      have found : ∀ pat gs g, HasPattern v pat → m.glob pat = some gs → g ∈ gs → ∃ a ∈ added, FileAdds m.U p m.strict g a := by
        intro pat gs g k1 k2 k3
        obtain ⟨gs', k4, k5⟩ := hpats pat ((mem_patterns hs pat).2 k1)
        rw [k2] at k5
        cases k5
        exact Each2_left ha g (List.mem_flatten.2 ⟨gs, k4, k3⟩)
      have svc : ∀ k sv, Offers m.glob v k sv → ∀ kind, Given (KindSays m.strict) .helloWorld (setting [u!"service", u!"Service"] 2 sv) kind →
          trimUnicode k ≠ [] ∧ ∀ root, kind = .fileSystem root → root ≠ [] ∧ m.pathExists root = true := by
        intro k sv ho kind hk
        obtain ⟨s0, s, k1, k2, k3⟩ := hsvc k sv ho
        have hk' : s.service = kind := by
          have : s.service = s0.service := by rcases k3 with rfl | rfl <;> rfl
          rw [this]
          exact given_unique (reads_kind m.strict) k1.service hk
        have := hok (k, s) k2
        rw [← hk']
        exact this
      intro hu
      cases hu with
      | unreadable hr => rw [hv] at hr; cases hr
      | noConfig v' hr hno => rw [hv] at hr; cases hr; exact hno f hs
      | workdir v' dir hr hset hne hcd =>
        rw [hv] at hr
        cases hr
        have hwd := hs.workdir
        rw [hset] at hwd
        have : f.workdir = dir := (Toml.str.inj hwd).symm
        subst this
        rcases hw with hw | hw
        · exact hne hw
        · rw [hw] at hcd; cases hcd
      | pattern v' pat hr hp hgn =>
        rw [hv] at hr
        cases hr
        obtain ⟨gs', _, k5⟩ := hpats pat ((mem_patterns hs pat).2 hp)
        rw [hgn] at k5
        cases k5
      | included v' pat gs path isFile toml hr hp hgs hmem hvis =>
        rw [hv] at hr
        cases hr
        obtain ⟨a, _, k⟩ := found _ _ _ hp hgs hmem
        cases (visible_adds hvis k).1
      | noService v' pat gs path isFile toml _ hr hp hgs hmem hvis hno =>
        rw [hv] at hr
        cases hr
        obtain ⟨a, _, k⟩ := found _ _ _ hp hgs hmem
        obtain ⟨_, sv, s, e, k⟩ := visible_adds hvis k
        exact hno sv s e k
      | takenListed v' pat gs path isFile readable toml k s ss sv _ hr hp hgs hmem hadd hset hk =>
        rw [hv] at hr
        cases hr
        obtain ⟨a, hm, k1⟩ := found _ _ _ hp hgs hmem
        cases fileAdds_unique k1 hadd
        have hsv := hs.services
        rw [hset] at hsv
        obtain ⟨_, e, hss⟩ := hsv
        cases e
        obtain ⟨⟨k', s'⟩, j1, j2, _⟩ := Each2_left hss _ hk
        simp only at j2
        subst j2
        rw [List.map_append, List.nodup_append] at hdist
        exact hdist.2.2 _ (List.mem_map.2 ⟨_, j1, rfl⟩) _ (List.mem_map.2 ⟨(k, s), List.mem_flatten.2 ⟨_, hm, List.mem_singleton.2 rfl⟩, rfl⟩) rfl
      | takenIncluded v' incl includes pats1 pat pats2 fss1 gs1 path isFile readable toml gs2 g k s s' _ hr hi1 hi2 hpe hf1 hgp hgm hg1 hg2 =>
        rw [hv] at hr
        cases hr
        have e1 : f.include = incl := given_unique reads_str hs.incl hi1
        have e2 : f.includes = includes := given_unique (reads_vec reads_str) hs.includes hi2
        rw [e1, e2, hpe, List.map_append, List.map_cons, hf1, hgp] at hg
        obtain ⟨x1, x2, rfl, y1, y2⟩ := List.map_eq_append_iff.1 hg.symm
        cases x2 with
        | nil => simp at y2
        | cons y x2 =>
          simp only [List.map_cons, List.cons.injEq, Option.some.injEq] at y2
          obtain ⟨rfl, _⟩ := y2
          have : x1 = fss1 := List.map_inj_right (fun _ _ h => Option.some.inj h) |>.1 y1
          subst this
          rw [List.flatten_append, List.flatten_cons, ← List.append_assoc, ← List.append_assoc, List.append_assoc (x1.flatten ++ gs1)] at ha
          obtain ⟨a1, a2, rfl, b1, b2⟩ := each2_split _ _ _ ha
          obtain ⟨z1, j1, j2⟩ := Each2_left b1 g hgm
          obtain ⟨z2, j3, j4⟩ := Each2_left b2 (.ok path isFile readable toml) (by simp)
          cases fileAdds_unique j2 hg1
          cases fileAdds_unique j4 hg2
          rw [List.map_append, List.nodup_append, List.flatten_append, List.map_append, List.nodup_append] at hdist
          exact hdist.2.1.2.2 _ (List.mem_map.2 ⟨(k, s'), List.mem_flatten.2 ⟨_, j1, List.mem_singleton.2 rfl⟩, rfl⟩) _
            (List.mem_map.2 ⟨(k, s), List.mem_flatten.2 ⟨_, j3, List.mem_singleton.2 rfl⟩, rfl⟩) rfl
      | blankName v' k sv _ hr ho hb =>
        rw [hv] at hr
        cases hr
        obtain ⟨s0, s, _, k2, _⟩ := hsvc k sv ho
        exact (hok (k, s) k2).1 hb
      | emptyRoot v' k sv _ hr ho hk =>
        rw [hv] at hr
        cases hr
        exact ((svc k sv ho _ hk).2 [] rfl).1 rfl
      | noRoot v' k sv root _ hr ho hk hne =>
        rw [hv] at hr
        cases hr
        rw [((svc k sv ho _ hk).2 root rfl).2] at hne
        cases hne
      | mainLog v' lp lc' bs path hr k1 k2 k3 k4 k5 =>
        rw [hv] at hr
        cases hr
        cases logs lp k1
        cases given_unique (reads_logging m.U p m.strict) k2 c2
        rw [section_paths k3 c4] at k4
        obtain ⟨a, j1, j2⟩ := List.mem_map.1 k4
        rw [c6 path (List.mem_map.2 ⟨a, (List.mem_filter.1 j1).1, j2⟩)] at k5
        cases k5
      | serviceLog v' lp k sv lc' idx bs path hr k1 ho k2 k3 k4 k5 =>
        rw [hv] at hr
        cases hr
        cases logs lp k1
        obtain ⟨s, ls, _, _, j3, j4⟩ := c5 k sv ho
        cases given_unique (reads_logging m.U p m.strict) k2 j3
        rw [section_paths k3 j4] at k4
        obtain ⟨a, j1, j2⟩ := List.mem_map.1 k4
        rw [c6 path (List.mem_map.2 ⟨a, (List.mem_filter.1 j1).1, j2⟩)] at k5
        cases k5

/-! ## One line -/

/-- The texts of the libraries have no line breaks. -/
structure ErrorTexts.OneLine (x : ErrorTexts) : Prop where
  char : ∀ c, 10 ∉ x.char c
  file : ∀ f, 10 ∉ x.file f
  chdir : ∀ d, 10 ∉ x.chdir d
  pattern : ∀ q, 10 ∉ x.pattern q
  read : ∀ f, 10 ∉ x.read f
  logFile : ∀ f, 10 ∉ x.logFile f
  setLogger : 10 ∉ x.setLogger

theorem Spec.InQuotes.line {x : ErrorTexts} (hx : ∀ c, 10 ∉ x.char c) {c : Nat} {t : Str} (h : InQuotes x c t) : 10 ∉ t := by
  have hd : ∀ n d : Nat, u!"0123456789abcdef"[n]? = some d → d ≠ 10 := by
    intro n d h
    have := List.mem_of_getElem? h
    rintro rfl
    exact absurd this (by decide)
  cases h with
  | plain => simp only [List.mem_singleton]; omega
  | short _ _ _ _ _ _ hn =>
    have := hd _ _ hn
    simp only [List.mem_append, List.mem_cons, List.not_mem_nil, or_false]
    omega
  | long hi lo a b _ h1 h2 =>
    have := hd _ _ h1
    have := hd _ _ h2
    simp only [List.mem_append, List.mem_cons, List.not_mem_nil, or_false]
    omega
  | other => exact hx _
  | _ => decide

theorem Spec.Quoted.line {x : ErrorTexts} (hx : ∀ c, 10 ∉ x.char c) {s t : Str} (h : Quoted x s t) : 10 ∉ t := by
  obtain ⟨ts, h, rfl⟩ := h
  simp only [List.mem_append, List.mem_singleton, List.mem_flatten, not_or, not_exists, not_and]
  refine ⟨⟨by decide, ?_⟩, by decide⟩
  intro t ht
  obtain ⟨c, _, hc⟩ := Each2_right h _ ht
  exact hc.line hx

theorem Spec.Unfit.line {m : Machine} {x : ErrorTexts} (hx : x.OneLine) {p : Profile} {file t : Str} (h : Unfit m x p file t) : 10 ∉ t := by
  cases h with
  | unreadable => exact hx.file _
  | noConfig => exact hx.file _
  | workdir => exact hx.chdir _
  | pattern => exact hx.pattern _
  | included => exact hx.read _
  | noService _ _ _ _ _ _ _ _ _ _ _ _ _ h => exact h.line hx.char
  | takenListed _ _ _ _ _ _ _ _ _ _ _ _ _ _ _ _ _ _ _ h => exact h.line hx.char
  | takenIncluded _ _ _ _ _ _ _ _ _ _ _ _ _ _ _ _ _ _ _ _ _ _ _ _ _ _ _ h => exact h.line hx.char
  | blankName _ _ _ _ _ _ _ h => exact h.line hx.char
  | emptyRoot _ _ _ _ _ _ _ h => exact h.line hx.char
  | noRoot _ _ _ _ _ _ _ _ _ h => exact h.line hx.char
  | mainLog => exact hx.logFile _
  | serviceLog => exact hx.logFile _

/-- **C210.** What is on standard error is one line, whatever the names in the configuration: `Error: ` and the reason. -/
theorem C210_line (m : Machine) (hU : LawfulUnicode m.U) (horder : ∀ l, (m.order l).Perm l) (hnames : ∀ l, (m.names l).Perm l) (x : ErrorTexts)
    (hx : x.OneLine) (p : Profile) (arg : Str)
    (hnd : ∀ v ss, m.read (fileArgument p arg) = some v → setting [u!"services", u!"Services"] 9 v = some (.table ss) → (ss.map (·.1)).Nodup)
    (h : m.start p arg = .failed) :
    ∃ e, m.errorLine x p arg = u!"Error: " ++ e ++ [10] ∧ 10 ∉ e ∧
      ((trimUnicode (fileArgument p arg) ≠ [] ∧ Unfit m x p (fileArgument p arg) e) ∨ (m.setOk = false ∧ e = x.setLogger)) := by
  obtain ⟨e, he⟩ := (C210_says m x p arg).1.1 h
  have hr := C210_reason m hU horder hnames x p arg hnd e he
  refine ⟨e, by simp [Machine.errorLine, he], ?_, hr⟩
  rcases hr with ⟨_, hr⟩ | ⟨_, rfl⟩
  · exact hr.line hx
  · exact hx.setLogger

/-! ## Examples -/

/-- Short texts for what comes from outside. -/
def sampleTexts : ErrorTexts :=
  { char := fun c => [c], path := debugStr ⟨fun c => [c], id, id, id, id, id, id, id, []⟩, file := fun f => u!"no " ++ f, chdir := fun d => u!"cd " ++ d,
    pattern := fun q => u!"glob " ++ q, read := fun f => u!"read " ++ f, toml := fun _ => u!"bad", logFile := fun f => u!"open " ++ f, setLogger := u!"SetLoggerError(())" }

/-- A file with one service that serves the files below `root`. -/
def rootFile (name root : Str) : Toml :=
  .table [(u!"services", .table [(name, .table [(u!"service", .table [(u!"fs", .table [(u!"root", .str root)])])])])]

/-- A file that includes the files found by `*`. -/
def starFile : Toml := .table [(u!"include", .str u!"*")]

example : (machineWith (.table [])).errorLine sampleTexts .release u!"his.toml" = u!"Error: no his.toml\n" ∧
    (machineWith (.table [(u!"workdir", .str u!"/x")])).errorLine sampleTexts .release u!"my.toml" = u!"Error: cd /x\n" ∧
    (machineWith starFile).errorLine sampleTexts .release u!"my.toml" = u!"Error: glob *\n" ∧
    { machineWith starFile with glob := fun _ => some [.err, .ok u!"a/.b" true false none, .ok u!"a/b" true false none] }.errorLine sampleTexts .release u!"my.toml" =
      u!"Error: read a/b\n" ∧
    { machineWith starFile with glob := fun _ => some [.ok u!"a/b" true true none] }.errorLine sampleTexts .release u!"my.toml" =
      u!"Error: \"load service failed, from `\\\"a/b\\\"`, bad\"\n" ∧
    { machineWith starFile with glob := fun _ => some [.ok u!"a/b.x" true true (some (.table [])), .ok u!"c/b" true true (some (.table []))] }.errorLine
      sampleTexts .release u!"my.toml" = u!"Error: \"service name `b` is exists, file: c/b\"\n" := by
  decide +kernel

example : (machineWith (rootFile u!" \n" u!"/srv")).errorLine sampleTexts .release u!"my.toml" = u!"Error: \"empty service name\"\n" ∧
    (machineWith (rootFile u!"a\nb" u!"")).errorLine sampleTexts .release u!"my.toml" = u!"Error: \"fs service `a\\nb` get an empty root path\"\n" ∧
    (machineWith (rootFile u!"a" u!"/srv")).errorLine sampleTexts .release u!"my.toml" =
      u!"Error: \"fs service `a` get an non-exists root path `/srv`\"\n" ∧
    { machineWith (.table [(u!"log", .table [(u!"appenders", .arr [.table [(u!"File", .table [])]])])]) with openOk := fun _ => false }.errorLine
      sampleTexts .release u!"my.toml" = u!"Error: open ./logs//httpd.TRACE.log\n" ∧
    (machineWith (.table [])).errorLine sampleTexts .release u!"my.toml" = [] := by
  decide +kernel

end Httpd
