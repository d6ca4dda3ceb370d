import Verif.Spec.LogFiles
import Verif.Props.EndToEnd
import Verif.Props.RotChain
import Verif.Props.ConsoleDefault
/-!
# C193: from the configuration file to the log files
-/

namespace Httpd

open Spec

theorem levelMeant_iff (o : Option Str) (l : Level) : LevelMeant o l ↔ appenderLevel o = l := by
  obtain ⟨_, _, _, h4, h5, h6⟩ := C63_filters
  constructor
  · intro h
    cases h with
    | named s l h => exact h4 s l h
    | unknown s h => exact h5 s h
    | missing => exact h6
  · rintro rfl
    cases o with
    | none => rw [h6]; exact .missing
    | some s =>
      by_cases h : ∃ l : Level, SameText s (levelText l)
      · obtain ⟨l, hl⟩ := h
        rw [h4 s l hl]
        exact .named s l hl
      · have h' : ∀ l : Level, ¬ SameText s (levelText l) := fun l hl => h ⟨l, hl⟩
        rw [h5 s h']
        exact .unknown s h'

/-- The entries of a section one after the other. -/
def MeansFrom (stem : Str) (service : Nat) : List AppenderConfig → List AppenderConfig → List AppenderInit → Prop
  | _, [], as => as = []
  | _, _ :: _, [] => False
  | before, cfg :: rest, a :: as => AppenderMeant stem service before cfg a ∧ MeansFrom stem service (before ++ [cfg]) rest as

theorem meansFrom_iff (stem : Str) (service : Nat) (before cfgs : List AppenderConfig) (as : List AppenderInit) :
    MeansFrom stem service before cfgs as ↔ as.length = cfgs.length ∧
      ∀ (i : Nat) (cfg : AppenderConfig) (a : AppenderInit), cfgs[i]? = some cfg → as[i]? = some a →
        AppenderMeant stem service (before ++ cfgs.take i) cfg a := by
  induction cfgs generalizing before as with
  | nil => simp [MeansFrom]
  | cons cfg rest ih =>
    cases as with
    | nil => simp [MeansFrom]
    | cons a as =>
      simp only [MeansFrom, ih, List.length_cons, Nat.add_right_cancel_iff]
      constructor
      · rintro ⟨h1, h2, h3⟩
        refine ⟨h2, ?_⟩
        intro i cfg' a' hc ha
        cases i with
        | zero =>
          simp only [List.getElem?_cons_zero, Option.some.injEq] at hc ha
          subst hc ha
          simpa using h1
        | succ i =>
          simp only [List.getElem?_cons_succ] at hc ha
          have := h3 i cfg' a' hc ha
          simpa using this
      · rintro ⟨h2, h3⟩
        refine ⟨by simpa using h3 0 cfg a rfl rfl, h2, ?_⟩
        intro i cfg' a' hc ha
        have := h3 (i + 1) cfg' a' (by simpa using hc) (by simpa using ha)
        simpa using this

theorem hasFileFor_console (before : List AppenderConfig) (level : Option Str) (l : Level) :
    HasFileFor (before ++ [.console level]) l ↔ HasFileFor before l := by
  simp [HasFileFor]

theorem hasFileFor_file (before : List AppenderConfig) (level : Option Str) (equal : Option Bool) (daily : Bool) (bufsize : Nat) (l : Level) :
    HasFileFor (before ++ [.file level equal daily bufsize]) l ↔ HasFileFor before l ∨ appenderLevel level = l := by
  unfold HasFileFor
  constructor
  · rintro ⟨lv, e, d, b, hm, hl⟩
    rcases List.mem_append.1 hm with hm | hm
    · exact Or.inl ⟨lv, e, d, b, hm, hl⟩
    · simp only [List.mem_singleton, AppenderConfig.file.injEq] at hm
      exact Or.inr (hm.1 ▸ (levelMeant_iff lv l).1 hl)
  · rintro (⟨lv, e, d, b, hm, hl⟩ | h)
    · exact ⟨lv, e, d, b, List.mem_append_left _ hm, hl⟩
    · exact ⟨level, equal, daily, bufsize, by simp, (levelMeant_iff _ _).2 h⟩

/-- The loop of `init` makes what the entries ask for, and succeeds exactly if all these files can be opened. -/
theorem initLoop_iff (openOk : Str → Bool) (logpath name : Str) (service : Nat) (before cfgs : List AppenderConfig) (fps : List Str)
    (hfps : ∀ l, logDir logpath name ++ logTail l none ∈ fps ↔ HasFileFor before l) (as : List AppenderInit) :
    initLoop openOk logpath name service cfgs before.length fps = some as ↔
      MeansFrom (logDir logpath name) service before cfgs as ∧ ∀ p ∈ as.filterMap (·.path), openOk p = true := by
  induction cfgs generalizing before fps as with
  | nil =>
    simp only [initLoop, Option.some.injEq, MeansFrom]
    constructor
    · rintro rfl; simp
    · rintro ⟨rfl, _⟩; rfl
  | cons cfg rest ih =>
    cases cfg with
    | console level =>
      have ih' := ih (before ++ [.console level]) fps (fun l => by rw [hfps, hasFileFor_console])
      simp only [List.length_append, List.length_singleton] at ih'
      simp only [initLoop]
      constructor
      · intro h
        cases hr : initLoop openOk logpath name service rest (before.length + 1) fps with
        | none => simp [hr] at h
        | some as' =>
          simp only [hr, Option.some.injEq] at h
          subst h
          obtain ⟨h1, h2⟩ := (ih' as').1 hr
          refine ⟨⟨.console level _ ((levelMeant_iff _ _).2 rfl), h1⟩, by simpa using h2⟩
      · rintro ⟨h1, h2⟩
        cases as with
        | nil => cases h1
        | cons a as' =>
          obtain ⟨h3, h4⟩ := h1
          cases h3 with
          | console _ l hl =>
            have := (ih' as').2 ⟨h4, by simpa using h2⟩
            rw [this, (levelMeant_iff _ _).1 hl]
    | file level equal daily bufsize =>
      simp only [initLoop, logPath1_eq, logPath2_eq]
      have heq : equal.getD false = decide (equal = some true) := by
        cases equal with
        | none => rfl
        | some b => cases b <;> rfl
      by_cases hc : HasFileFor before (appenderLevel level)
      · have hc' := (hfps _).2 hc
        simp only [List.contains_iff_mem, hc', ↓reduceIte]
        have ih' := ih (before ++ [.file level equal daily bufsize]) ((logDir logpath name ++ logTail (appenderLevel level) (some before.length)) :: fps) (by
          intro l
          rw [hasFileFor_file, List.mem_cons, hfps]
          constructor
          · rintro (h | h)
            · have := logTail_inj _ _ _ _ (List.append_cancel_left h)
              cases this.2
            · exact Or.inl h
          · rintro (h | rfl)
            · exact Or.inr h
            · exact Or.inr hc)
        simp only [List.length_append, List.length_singleton] at ih'
        generalize hp : logDir logpath name ++ logTail (appenderLevel level) (some before.length) = path at ih' ⊢
        have hp' : path = logDir logpath name ++ (appenderLevel level).name ++ u!"." ++ natStr before.length ++ u!".log" := by
          rw [← hp]; simp [logTail]
        constructor
        · intro h
          by_cases ho : openOk path = true
          · simp only [ho, Bool.not_true, Bool.false_eq_true, ↓reduceIte] at h
            cases hr : initLoop openOk logpath name service rest (before.length + 1) (path :: fps) with
            | none => simp [hr] at h
            | some as' =>
              simp only [hr, Option.some.injEq] at h
              subst h
              obtain ⟨h1, h2⟩ := (ih' as').1 hr
              refine ⟨⟨?_, h1⟩, ?_⟩
              · rw [heq, hp']
                exact .again level equal daily bufsize _ ((levelMeant_iff _ _).2 rfl) hc
              · intro p hp
                simp only [List.filterMap_cons, List.mem_cons] at hp
                rcases hp with rfl | hp
                · exact ho
                · exact h2 p hp
          · simp [ho] at h
        · rintro ⟨h1, h2⟩
          cases as with
          | nil => cases h1
          | cons a as' =>
            obtain ⟨h3, h4⟩ := h1
            cases h3 with
            | file _ _ _ _ l hl hno =>
              rw [(levelMeant_iff _ _).1 hl] at hc
              exact absurd hc hno
            | again _ _ _ _ l hl _ =>
              obtain rfl := (levelMeant_iff _ _).1 hl
              rw [levelText_eq, ← hp'] at h2
              simp only [List.filterMap_cons, List.mem_cons] at h2
              have ho := h2 path (Or.inl rfl)
              have := (ih' as').2 ⟨h4, fun p hp => h2 p (Or.inr hp)⟩
              simp only [ho, this, Bool.not_true, Bool.false_eq_true, ↓reduceIte, heq]
              rw [hp', levelText_eq]
      · have hc' : ¬ logDir logpath name ++ logTail (appenderLevel level) none ∈ fps := fun h => hc ((hfps _).1 h)
        simp only [List.contains_iff_mem, hc', ↓reduceIte]
        have ih' := ih (before ++ [.file level equal daily bufsize]) ((logDir logpath name ++ logTail (appenderLevel level) none) :: fps) (by
          intro l
          rw [hasFileFor_file, List.mem_cons, hfps]
          constructor
          · rintro (h | h)
            · exact Or.inr (logTail_inj _ _ _ _ (List.append_cancel_left h)).1.symm
            · exact Or.inl h
          · rintro (h | rfl)
            · exact Or.inr h
            · exact Or.inl rfl)
        simp only [List.length_append, List.length_singleton] at ih'
        generalize hp : logDir logpath name ++ logTail (appenderLevel level) none = path at ih' ⊢
        have hp' : path = logDir logpath name ++ (appenderLevel level).name ++ u!".log" := by
          rw [← hp]; simp [logTail]
        constructor
        · intro h
          by_cases ho : openOk path = true
          · simp only [ho, Bool.not_true, Bool.false_eq_true, ↓reduceIte] at h
            cases hr : initLoop openOk logpath name service rest (before.length + 1) (path :: fps) with
            | none => simp [hr] at h
            | some as' =>
              simp only [hr, Option.some.injEq] at h
              subst h
              obtain ⟨h1, h2⟩ := (ih' as').1 hr
              refine ⟨⟨?_, h1⟩, ?_⟩
              · rw [heq, hp']
                exact .file level equal daily bufsize _ ((levelMeant_iff _ _).2 rfl) hc
              · intro p hp
                simp only [List.filterMap_cons, List.mem_cons] at hp
                rcases hp with rfl | hp
                · exact ho
                · exact h2 p hp
          · simp [ho] at h
        · rintro ⟨h1, h2⟩
          cases as with
          | nil => cases h1
          | cons a as' =>
            obtain ⟨h3, h4⟩ := h1
            cases h3 with
            | again _ _ _ _ l hl hyes =>
              rw [(levelMeant_iff _ _).1 hl] at hc
              exact absurd hyes hc
            | file _ _ _ _ l hl _ =>
              obtain rfl := (levelMeant_iff _ _).1 hl
              rw [levelText_eq, ← hp'] at h2
              simp only [List.filterMap_cons, List.mem_cons] at h2
              have ho := h2 path (Or.inl rfl)
              have := (ih' as').2 ⟨h4, fun p hp => h2 p (Or.inr hp)⟩
              simp only [ho, this, Bool.not_true, Bool.false_eq_true, ↓reduceIte, heq]
              rw [hp', levelText_eq]

theorem logStem_dir (logpath name : Str) : LogStem logpath name (logDir logpath name) := by
  cases name with
  | nil => exact .main
  | cons c n => exact .service (c :: n) (by simp)

theorem logStem_eq {logpath name stem : Str} (h : LogStem logpath name stem) : stem = logDir logpath name := by
  cases h with
  | main => rfl
  | service name hn => cases name with
    | nil => exact absurd rfl hn
    | cons => rfl

/-- What `init` of a section gives is what the section asks for; it fails exactly if one of the files cannot be opened. -/
theorem init_iff (openOk : Str → Bool) (logpath : Str) (lc : LoggingConfig) :
    (∀ r, lc.init openOk logpath = some r → SectionMeans logpath lc.serviceName lc.serviceIdx lc (r.getD []) ∧
      ∀ p ∈ (r.getD []).filterMap (·.path), openOk p = true) ∧
    (∀ as, SectionMeans logpath lc.serviceName lc.serviceIdx lc as → (∀ p ∈ as.filterMap (·.path), openOk p = true) →
      ∃ r, lc.init openOk logpath = some r ∧ r.getD [] = as) := by
  have key := initLoop_iff openOk logpath lc.serviceName lc.serviceIdx [] lc.appenders [] (by simp [HasFileFor])
  simp only [List.length_nil] at key
  constructor
  · intro r h
    unfold LoggingConfig.init at h
    split at h
    next hd => cases h; exact ⟨Or.inl ⟨hd, rfl⟩, by simp⟩
    next hd =>
      cases hl : initLoop openOk logpath lc.serviceName lc.serviceIdx lc.appenders 0 [] with
      | none => simp [hl] at h
      | some as =>
        simp only [hl, Option.map_some, Option.some.injEq] at h
        subst h
        obtain ⟨h1, h2⟩ := (key as).1 hl
        obtain ⟨h3, h4⟩ := (meansFrom_iff _ _ _ _ _).1 h1
        exact ⟨Or.inr ⟨hd, _, logStem_dir _ _, h3, by simpa using h4⟩, h2⟩
  · intro as h hp
    unfold LoggingConfig.init
    rcases h with ⟨hd, rfl⟩ | ⟨hd, stem, hs, h3, h4⟩
    · rw [if_pos hd]; exact ⟨none, rfl, rfl⟩
    · rw [if_neg hd]
      obtain rfl := logStem_eq hs
      have := (key as).2 ⟨(meansFrom_iff _ _ _ _ _).2 ⟨h3, by simpa using h4⟩, hp⟩
      rw [this]
      exact ⟨some as, rfl, rfl⟩

theorem each2_maps {α β γ : Type} {R : α → β → Prop} {f : α → γ} {g : β → γ} {l : List α} {m : List β} (h : Each2 R l m)
    (e : m.map g = l.map f) : Each2 (fun a b => R a b ∧ g b = f a) l m := by
  induction h with
  | nil => exact .nil
  | cons h1 _ ih =>
    simp only [List.map_cons, List.cons.injEq] at e
    exact .cons ⟨h1, e.1⟩ (ih e.2)

/-- The logging of a loaded configuration. -/
theorem load_logging (pathExists : Str → Bool) (config c : Config) (patterns : List (Option (List GlobItem)))
    (order : List (Str × ServiceConfig) → List (Str × ServiceConfig)) (horder : ∀ l, (order l).Perm l)
    (h : Config.load pathExists (some config) true patterns order = .value c) :
    ∃ (all : List (Str × ServiceConfig)) (c0 : Config), includeAll patterns config.services = .value all ∧ c0.autofix pathExists = some c ∧ c0.slab = config.slab ∧
      c0.services.Perm (if all.length < 1 then [(u!"helloworld", defaultService)] else all) ∧
      c.logging = { config.logging with serviceName := [], serviceIdx := 0 } ∧
      c.logpath = (if config.logpath.isEmpty then u!"./logs/" else config.logpath) ∧
      Each2 (fun p q => q.1 = p.1 ∧ q.2.logging = { p.2.logging with serviceName := trimUnicode p.1, serviceIdx := q.2.idx })
        c0.services c.services := by
  simp only [Config.load, Bool.not_true, Bool.false_eq_true, ↓reduceIte] at h
  cases hi : includeAll patterns config.services with
  | panic => rw [hi] at h; cases h
  | error => rw [hi] at h; cases h
  | value all =>
    rw [hi] at h
    simp only at h
    generalize hss : (if all.length < 1 then [(u!"helloworld", defaultService)] else all) = ss at h
    split at h
    · cases h
    · rename_i c' hc'
      cases h
      refine ⟨all, _, rfl, hc', rfl, by rw [hss]; exact horder ss, ?_⟩
      obtain ⟨h1, h2, _, _, _, hf⟩ := Config.autofix_spec pathExists _ c hc'
      obtain ⟨k1, k2, _, _, k5, k6⟩ := fixServices_spec _ _ _ _ _ _ _ hf
      refine ⟨h1, h2, ?_⟩
      have := each2_maps (each2_maps k6 k1) k2
      simp only at this k5 ⊢
      generalize c.services = cs at this k5
      clear h1 h2 hf k1 k2 k6 hc' hss hi
      generalize order ss = os at this
      induction this with
      | nil => exact .nil
      | @cons a b _ _ h1 _ ih =>
        refine .cons ⟨h1.1.2, ?_⟩ (ih (fun q hq => k5 q (List.mem_cons_of_mem _ hq)))
        obtain ⟨_, n1, n2⟩ := k5 b List.mem_cons_self
        obtain ⟨⟨⟨_, _, _, _, _, e1, e2, e3⟩, _⟩, e4⟩ := h1
        rw [e4] at n1
        generalize b.2.logging = x at *
        obtain ⟨x1, x2, x3, x4, x5⟩ := x
        simp only at n1 n2 e1 e2 e3
        subst n1 n2 e1 e2 e3
        rfl

/-- No appenders are made only if a file cannot be opened that a section asks for. -/
theorem appenders_none (openOk : Str → Bool) (c : Config) (h : c.appenders openOk = none) :
    c.logging.init openOk c.logpath = none ∨ ∃ q ∈ c.services, q.2.logging.init openOk c.logpath = none := by
  unfold Config.appenders at h
  cases hm : c.logging.init openOk c.logpath with
  | none => exact Or.inl rfl
  | some a =>
    right
    have : initServices openOk c.logpath c.services = none := by
      rw [hm] at h
      cases hi : initServices openOk c.logpath c.services with
      | none => rfl
      | some as => simp [hi] at h
    clear h hm
    generalize c.services = ss at this
    induction ss with
    | nil => cases this
    | cons q ss ih =>
      obtain ⟨k, s⟩ := q
      simp only [initServices] at this
      cases hq : s.logging.init openOk c.logpath with
      | none => exact ⟨(k, s), List.mem_cons_self, hq⟩
      | some r =>
        rw [hq] at this
        cases hi : initServices openOk c.logpath ss with
        | none =>
          obtain ⟨q, h1, h2⟩ := ih hi
          exact ⟨q, List.mem_cons_of_mem _ h1, h2⟩
        | some as => simp [hi] at this

/-- A section whose files cannot all be opened asks for a file that cannot be opened. -/
theorem init_none (openOk : Str → Bool) (logpath : Str) (lc : LoggingConfig) (h : lc.init openOk logpath = none) :
    ∃ as path, SectionMeans logpath lc.serviceName lc.serviceIdx lc as ∧ some path ∈ as.map (·.path) ∧ openOk path = false := by
  cases ht : lc.init (fun _ => true) logpath with
  | none =>
    have hl : ∀ cfgs n fps, (initLoop (fun _ => true) logpath lc.serviceName lc.serviceIdx cfgs n fps) ≠ none := by
      intro cfgs
      induction cfgs with
      | nil => simp [initLoop]
      | cons cfg rest ih =>
        intro n fps
        cases cfg with
        | console level =>
          simp only [initLoop]
          have := ih (n + 1) fps
          split <;> simp_all
        | file level equal daily bufsize =>
          simp only [initLoop, Bool.not_true, Bool.false_eq_true, ↓reduceIte]
          generalize (if fps.contains (logPath1 logpath lc.serviceName (appenderLevel level)) = true then
            logPath2 logpath lc.serviceName (appenderLevel level) n else logPath1 logpath lc.serviceName (appenderLevel level)) = path
          have := ih (n + 1) (path :: fps)
          split <;> simp_all
    unfold LoggingConfig.init at ht
    split at ht
    · cases ht
    · exact absurd (Option.map_eq_none_iff.1 ht) (hl _ _ _)
  | some r =>
    obtain ⟨h1, _⟩ := (init_iff (fun _ => true) logpath lc).1 r ht
    refine Classical.byContradiction fun hn => ?_
    obtain ⟨r', hr, _⟩ := (init_iff openOk logpath lc).2 _ h1 (by
      intro p hp
      cases ho : openOk p with
      | true => rfl
      | false =>
        obtain ⟨a, ha, hp⟩ := List.mem_filterMap.1 hp
        exact absurd ⟨_, p, h1, List.mem_map.2 ⟨a, ha, hp⟩, ho⟩ hn)
    rw [h] at hr
    cases hr

theorem sectionMeans_congr {logpath name : Str} {idx : Nat} {lc lc' : LoggingConfig} {as : List AppenderInit} (h1 : lc'.disable = lc.disable)
    (h2 : lc'.appenders = lc.appenders) (h : SectionMeans logpath name idx lc' as) : SectionMeans logpath name idx lc as := by
  unfold SectionMeans at *
  rw [h1, h2] at h
  exact h

/-- **C193** From the file to the log files. An accepted file gives the appenders that its sections ask for: those of the main section and, for
each service that it offers, those of the section of the service; and no others, except those of the service that is there if none is offered. All their files have
been opened; if the appenders cannot be made then one of the files asked for cannot be opened. -/
theorem C193_files (U : Unicode) (p : Profile) (strict : Bool) (pathExists chdir : Str → Bool)
    (glob : Str → Option (List GlobFile)) (order : List (Str × ServiceConfig) → List (Str × ServiceConfig)) (horder : ∀ l, (order l).Perm l)
    (v : Toml) (c : Config) (h : loadFile U p strict pathExists chdir glob order (some v) = .value c)
    (hnd : ∀ ss, setting [u!"services", u!"Services"] 9 v = some (.table ss) → (ss.map (·.1)).Nodup) (openOk : Str → Bool) :
    ∃ logpath lc, LogPathSays v logpath ∧
      Given (LoggingSays U p strict) logAll (setting [u!"log", u!"Log", u!"logging", u!"Logging"] 2 v) lc ∧
      (∀ as, c.appenders openOk = some as →
        SectionMeans logpath [] 0 lc (as.filter (·.service = 0)) ∧
        (∀ k sv, Offers glob v k sv → ∃ s ls, (∀ s', (k, s') ∈ c.services ↔ s' = s) ∧ s.idx ≠ 0 ∧
          Given (LoggingSays U p strict) logAll (setting [u!"log", u!"Log", u!"logging", u!"Logging"] 3 sv) ls ∧
          SectionMeans logpath (trimUnicode k) s.idx ls (as.filter (·.service = s.idx))) ∧
        (∀ a ∈ as, a.service = 0 ∨ ∃ k s, (k, s) ∈ c.services ∧ a.service = s.idx) ∧
        (∀ k s, (k, s) ∈ c.services → (∃ sv, Offers glob v k sv) ∨ k = u!"helloworld" ∧ ∀ k sv, ¬ Offers glob v k sv) ∧
        (∀ path, some path ∈ as.map (·.path) → openOk path = true)) ∧
      (c.appenders openOk = none → ∃ path, openOk path = false ∧
        ((∃ as, SectionMeans logpath [] 0 lc as ∧ some path ∈ as.map (·.path)) ∨
         ∃ k sv ls idx as, Offers glob v k sv ∧
          Given (LoggingSays U p strict) logAll (setting [u!"log", u!"Log", u!"logging", u!"Logging"] 3 sv) ls ∧
          SectionMeans logpath (trimUnicode k) idx ls as ∧ some path ∈ as.map (·.path))) := by
  obtain ⟨f, pats, fss, added, hfile, hl, hall0, hg, hadds, hnd'⟩ := loaded hnd h
  obtain ⟨all, c0, hall, hfix, hslab, hperm, hlog, hpath, hsvc⟩ := load_logging pathExists f.config c pats order horder hl
  obtain ⟨hm1, hm2⟩ := mem_services hfile hg hadds
  rw [hall0] at hall
  have hall := Outcome.value.inj hall
  rw [hall] at hm1 hm2 hnd'
  have hslab0 : c0.slab = [] := by rw [hslab]; exact hfile.noSlab
  have hsays : LogPathSays v c.logpath := by
    refine ⟨f.config.logpath, hfile.logpath, ?_⟩
    rw [hpath]
    cases hx : f.config.logpath with
    | nil => exact Or.inr ⟨rfl, rfl⟩
    | cons x xs => exact Or.inl ⟨by simp, rfl⟩
  have hmain : ∀ as, SectionMeans c.logpath c.logging.serviceName c.logging.serviceIdx c.logging as →
      SectionMeans c.logpath [] 0 f.config.logging as := by
    intro as hs
    rw [hlog] at hs
    exact sectionMeans_congr (lc' := { f.config.logging with serviceName := [], serviceIdx := 0 }) rfl rfl hs
  -- a service of the result and what the file says about it
  have hof : ∀ q ∈ c.services, (∃ sv ls, Offers glob v q.1 sv ∧
        Given (LoggingSays U p strict) logAll (setting [u!"log", u!"Log", u!"logging", u!"Logging"] 3 sv) ls ∧
        q.2.logging.serviceName = trimUnicode q.1 ∧ q.2.logging.serviceIdx = q.2.idx ∧
        q.2.logging.disable = ls.disable ∧ q.2.logging.appenders = ls.appenders) ∨
      (q.1 = u!"helloworld" ∧ (∀ k sv, ¬ Offers glob v k sv) ∧ q.2.logging.appenders = [.console (some u!"trace")]) := by
    intro q hq
    obtain ⟨p0, hp0, e1, e2⟩ := each2_mem hsvc q hq
    have hp1 := hperm.mem_iff.1 hp0
    split at hp1
    next hlt =>
      right
      obtain rfl := List.mem_singleton.1 hp1
      have : all = [] := List.length_eq_zero_iff.1 (by omega)
      subst this
      refine ⟨e1, ?_, by rw [e2]; rfl⟩
      intro k sv ho
      obtain ⟨_, _, _, hm, _⟩ := hm1 k sv ho
      cases hm
    next hlt =>
      left
      obtain ⟨sv, s0, ho, hs, hor⟩ := hm2 p0.1 p0.2 hp1
      refine ⟨sv, s0.logging, e1 ▸ ho, hs.logging, ?_⟩
      rw [e2, e1]
      rcases hor with e | e <;> rw [e] <;> exact ⟨rfl, rfl, rfl, rfl⟩
  have hkeys : (c.services.map (·.1)).Nodup := by
    rw [(C56_identities pathExists c0 c hfix).2.2.2.1]
    have : ((if all.length < 1 then [(u!"helloworld", defaultService)] else all).map (·.1)).Nodup := by
      split
      · simp
      · exact hnd'
    exact (hperm.map (·.1)).nodup_iff.2 this
  refine ⟨c.logpath, f.config.logging, hsays, hfile.logging, ?_, ?_⟩
  · intro as has
    obtain ⟨out, _, _, _, ⟨r, hr1, hr2⟩, hsv⟩ := C88_noted pathExists openOk c0 c as hslab0 hfix has
    refine ⟨?_, ?_, ?_, ?_, ?_⟩
    · rw [hr2]
      exact hmain _ ((init_iff openOk c.logpath c.logging).1 r hr1).1
    · intro k sv ho
      obtain ⟨sx, s0, hs, hm, hor⟩ := hm1 k sv ho
      have hlen : ¬ all.length < 1 := by
        cases all with
        | nil => cases hm
        | cons => simp
      rw [if_neg hlen] at hperm
      obtain ⟨q, hq, e1, e2⟩ := Each2_left hsvc (k, s0) (hperm.mem_iff.2 hm)
      obtain ⟨k', s⟩ := q
      simp only at e1 e2
      subst e1
      refine ⟨s, sx.logging, fun s' => ⟨fun hs' => eq_of_key_nodup hkeys hs' hq, fun e => e ▸ hq⟩,
        ((C56_identities pathExists c0 c hfix).2.2.1 _ hq).1, hs.logging, ?_⟩
      obtain ⟨r, h1, h2⟩ := hsv _ hq
      simp only at h1 h2
      rw [h2]
      have := ((init_iff openOk c.logpath s.logging).1 r h1).1
      have hl0 : sx.logging = s0.logging := by rcases hor with rfl | rfl <;> rfl
      rw [e2] at this
      rw [hl0]
      exact sectionMeans_congr (lc' := { s0.logging with serviceName := trimUnicode k', serviceIdx := s.idx }) rfl rfl this
    · intro a ha
      unfold Config.appenders at has
      rw [hr1] at has
      cases hi : initServices openOk c.logpath c.services with
      | none => simp [hi] at has
      | some bs =>
        simp only [hi, Option.some.injEq] at has
        subst has
        rcases List.mem_append.1 ha with ha | ha
        · left
          have := (init_spec openOk c.logpath c.logging r hr1).1 a ha
          rw [this, hlog]
        · right
          obtain ⟨each, rfl, he⟩ := initServices_spec openOk c.logpath c.services bs hi
          obtain ⟨e, he1, he2⟩ := List.mem_flatten.1 ha
          obtain ⟨q, hq, r', h1, rfl⟩ := each2_mem he e he1
          refine ⟨q.1, q.2, hq, ?_⟩
          rw [(init_spec openOk c.logpath q.2.logging r' h1).1 a he2]
          exact ((C56_identities pathExists c0 c hfix).2.2.1 q hq).2.2.2.2.1
    · intro k s hk
      rcases hof (k, s) hk with ⟨sv, _, ho, _⟩ | ⟨e, hno, _⟩
      · exact Or.inl ⟨sv, ho⟩
      · exact Or.inr ⟨e, hno⟩
    · intro path hp
      obtain ⟨a, ha, hap⟩ := List.mem_map.1 hp
      unfold Config.appenders at has
      rw [hr1] at has
      cases hi : initServices openOk c.logpath c.services with
      | none => simp [hi] at has
      | some bs =>
        simp only [hi, Option.some.injEq] at has
        subst has
        rcases List.mem_append.1 ha with ha | ha
        · exact ((init_iff openOk c.logpath c.logging).1 r hr1).2 path (List.mem_filterMap.2 ⟨a, ha, hap⟩)
        · obtain ⟨each, rfl, he⟩ := initServices_spec openOk c.logpath c.services bs hi
          obtain ⟨e, he1, he2⟩ := List.mem_flatten.1 ha
          obtain ⟨q, hq, r', h1, rfl⟩ := each2_mem he e he1
          exact ((init_iff openOk c.logpath q.2.logging).1 r' h1).2 path (List.mem_filterMap.2 ⟨a, he2, hap⟩)
  · intro hnone
    rcases appenders_none openOk c hnone with hi | ⟨q, hq, hi⟩
    · obtain ⟨as, path, h1, h2, h3⟩ := init_none _ _ _ hi
      exact ⟨path, h3, Or.inl ⟨as, hmain as h1, h2⟩⟩
    · obtain ⟨as, path, h1, h2, h3⟩ := init_none _ _ _ hi
      rcases hof q hq with ⟨sv, ls, ho, hls, n1, n2, e1, e2⟩ | ⟨_, _, e⟩
      · rw [n1, n2] at h1
        exact ⟨path, h3, Or.inr ⟨q.1, sv, ls, q.2.idx, as, ho, hls, sectionMeans_congr e1 e2 h1, h2⟩⟩
      · exfalso
        unfold LoggingConfig.init at hi
        rw [e] at hi
        split at hi
        · cases hi
        · simp [initLoop] at hi

/-- A loaded configuration has been fixed up; its services have different names if the names in the file are different without white space
around them. -/
theorem loaded_fixed {U : Unicode} {p : Profile} {strict : Bool} {pathExists chdir : Str → Bool} {glob : Str → Option (List GlobFile)}
    {order : List (Str × ServiceConfig) → List (Str × ServiceConfig)} (horder : ∀ l, (order l).Perm l) {v : Toml} {c : Config}
    (hnd : ∀ ss, setting [u!"services", u!"Services"] 9 v = some (.table ss) → (ss.map (·.1)).Nodup)
    (h : loadFile U p strict pathExists chdir glob order (some v) = .value c) :
    ∃ c0 : Config, c0.slab = [] ∧ c0.autofix pathExists = some c ∧
      ((∀ k1 k2 sv1 sv2, Offers glob v k1 sv1 → Offers glob v k2 sv2 → trimUnicode k1 = trimUnicode k2 → k1 = k2) →
        (c.services.map (·.2.name)).Nodup) := by
  obtain ⟨f, pats, fss, added, hfile, hl, hall0, hg, hadds, hnd'⟩ := loaded hnd h
  obtain ⟨all, c0, hall, hfix, hslab, hperm, _⟩ := load_logging pathExists f.config c pats order horder hl
  obtain ⟨_, hm2⟩ := mem_services hfile hg hadds
  rw [hall0] at hall
  have hall := Outcome.value.inj hall
  rw [hall] at hm2 hnd'
  refine ⟨c0, by rw [hslab]; exact hfile.noSlab, hfix, ?_⟩
  intro hd
  rw [C57_unique_partial pathExists c0 c hfix]
  rw [(hperm.map (fun p => trimUnicode p.1)).nodup_iff]
  split
  · simp
  · have hd' : ∀ a ∈ all, ∀ b ∈ all, trimUnicode a.1 = trimUnicode b.1 → a.1 = b.1 := by
      intro a ha b hb e
      obtain ⟨sv1, _, o1, _⟩ := hm2 a.1 a.2 ha
      obtain ⟨sv2, _, o2, _⟩ := hm2 b.1 b.2 hb
      exact hd _ _ _ _ o1 o2 e
    clear hm2 hall hall0 hadds hperm
    generalize all = l at hd' hnd'
    induction l with
    | nil => simp
    | cons x l ih =>
      simp only [List.map_cons, List.nodup_cons] at hnd' ⊢
      refine ⟨?_, ih (fun a ha b hb => hd' a (List.mem_cons_of_mem _ ha) b (List.mem_cons_of_mem _ hb)) hnd'.2⟩
      intro hm
      obtain ⟨y, hy, e⟩ := List.mem_map.1 hm
      refine hnd'.1 (List.mem_map.2 ⟨y, hy, ?_⟩)
      exact hd' y (List.mem_cons_of_mem _ hy) x List.mem_cons_self e

theorem path_once {as : List AppenderInit} (h : (as.filterMap (·.path)).Nodup) {i j : Nat} {a b : AppenderInit} {fp : Str}
    (ha : as[i]? = some a) (hb : as[j]? = some b) (h1 : a.path = some fp) (h2 : b.path = some fp) : j = i := by
  induction as generalizing i j with
  | nil => simp at ha
  | cons x as ih =>
    have hmem : ∀ {k : Nat} {y : AppenderInit}, as[k]? = some y → y.path = some fp → fp ∈ as.filterMap (·.path) :=
      fun hk hy => List.mem_filterMap.2 ⟨_, List.mem_of_getElem? hk, hy⟩
    cases i with
    | zero =>
      simp only [List.getElem?_cons_zero, Option.some.injEq] at ha
      subst ha
      cases j with
      | zero => rfl
      | succ j =>
        simp only [List.getElem?_cons_succ] at hb
        simp only [List.filterMap_cons, h1, List.nodup_cons] at h
        exact absurd (hmem hb h2) h.1
    | succ i =>
      simp only [List.getElem?_cons_succ] at ha
      cases j with
      | zero =>
        simp only [List.getElem?_cons_zero, Option.some.injEq] at hb
        subst hb
        simp only [List.filterMap_cons, h2, List.nodup_cons] at h
        exact absurd (hmem ha h1) h.1
      | succ j =>
        simp only [List.getElem?_cons_succ] at hb
        refine congrArg (· + 1) (ih ?_ ha hb)
        rw [List.filterMap_cons] at h
        split at h
        · exact h
        · exact (List.nodup_cons.1 h).2

/-- **C193** From the file and a connection to the log files: for a service that an accepted file offers, each entry for a file in the section of the service
is an appender of its own, with the file named after the service and the level; and when a flush returns, that file holds the lines of the
connection that are for this entry (`C173_connection`). -/
theorem C193_connection {U : Unicode} (hU : LawfulUnicode U) (p : Profile) (strict : Bool) (pathExists chdir openOk : Str → Bool)
    (glob : Str → Option (List GlobFile)) (order : List (Str × ServiceConfig) → List (Str × ServiceConfig)) (horder : ∀ l, (order l).Perm l)
    (v : Toml) (c : Config) (h : loadFile U p strict pathExists chdir glob order (some v) = .value c)
    (hnd : ∀ ss, setting [u!"services", u!"Services"] 9 v = some (.table ss) → (ss.map (·.1)).Nodup)
    (hdist : ∀ k1 k2 sv1 sv2, Offers glob v k1 sv1 → Offers glob v k2 sv2 → trimUnicode k1 = trimUnicode k2 → k1 = k2)
    (norder : List Str → List Str) (hnorder : ∀ l, (norder l).Perm l)
    (as : List AppenderInit) (has : c.appenders openOk = some as) (k : Consumer) (l : Level)
    (hk : c.startLogging U openOk norder true = .value (k, l))
    (name : Str) (sv : Toml) (hof : Offers glob v name sv)
    (progs : Nat → List (Log.Call Item)) (tr1 tr2 : List (Log.Act Item)) (t n : Nat) (s : Log.Sys Item)
    (hrun : Log.Run (passes l) (Log.start progs) (tr1 ++ .flushCall t n :: tr2 ++ [.flushRet t n]) s)
    (hd : ∀ p ∈ Log.Spec.sends (tr1 ++ .flushCall t n :: tr2), Deliverable as p.2)
    (d : Disk) (hs : Sane d) (hok : NoFail d) (ends : Nat → Nat) (st0 : Disk × List Dest) (hopen : openDests d ends as = some st0)
    {K : Type} (cd : Codec K) (lim : HttpLimits) (env : Nat → Env K) (lg : LogEnv K) (r : Reader) (u : Nat)
    (hu : CallsOf (serveLog cd lim env lg r) (progs u))
    (hall : Log.Spec.byThread u (Log.Spec.sends tr1) = Log.Spec.logged (passes l) (progs u)) :
    ∃ logpath svc ls stem, LogPathSays v logpath ∧ (∀ s', (name, s') ∈ c.services ↔ s' = svc) ∧ LogStem logpath (trimUnicode name) stem ∧
      Given (LoggingSays U p strict) logAll (setting [u!"log", u!"Log", u!"logging", u!"Logging"] 3 sv) ls ∧
      (ls.disable ≠ some true → ∀ (j : Nat) (level : Option Str) (equal : Option Bool) (daily : Bool) (bufsize : Nat),
        ls.appenders[j]? = some (.file level equal daily bufsize) →
        ∃ (i : Nat) (a : AppenderInit) (fp : Str), as[i]? = some a ∧
          AppenderMeant stem svc.idx (ls.appenders.take j) (.file level equal daily bufsize) a ∧ a.path = some fp ∧
          (SoleName d fp → ∃ calls items, k.calls (tr1 ++ .flushCall t n :: tr2) k.bufs = some calls ∧
            Each2 (fun x item => ∃ time file line, item = Rec.item time file line x)
              (story lg ((serve cd lim env r).1.map (·.req)) (serve cd lim env r).2) items ∧
            ∀ moments st, FreeDests st0 moments calls → callDests st0 moments calls = .value st →
              ∃ (before after : List (Nat × Item)) (out : Bytes), linesOf before <+: out ∧ out <+: linesOf (before ++ after) ∧
                LossAtMost (rotTimesOf i fp st0 moments calls).length (bufferSize bufsize) d st.1 fp out ∧
                (daily = false → content st.1 fp = content d fp ++ out) ∧
                Log.Spec.byThread u before = items.filter (fun item => passes l item && a.Wants item) ∧
                (∀ p ∈ after, p.1 ≠ u))) := by
  obtain ⟨c0, hslab, hfix, hnames⟩ := loaded_fixed horder hnd h
  obtain ⟨logpath, lc, hlp, _, hfiles, _⟩ := C193_files U p strict pathExists chdir glob order horder v c h hnd openOk
  obtain ⟨_, hsec, _⟩ := hfiles as has
  obtain ⟨svc, ls, hsvc, _, hls, hmeans⟩ := hsec name sv hof
  have hnd2 := (C60_paths openOk).2 pathExists c0 c as hfix (hnames hdist) has
  rcases hmeans with ⟨hdis, _⟩ | ⟨hdis, stem, hstem, hlen, hent⟩
  · exact ⟨logpath, svc, ls, _, hlp, hsvc, logStem_dir _ _, hls, fun hn => absurd hdis hn⟩
  · refine ⟨logpath, svc, ls, stem, hlp, hsvc, hstem, hls, ?_⟩
    intro _ j level equal daily bufsize hj
    have hjl : j < (as.filter (·.service = svc.idx)).length := by
      rw [hlen]
      exact (List.getElem?_eq_some_iff.1 hj).1
    have hja := List.getElem?_eq_getElem hjl
    generalize (as.filter (·.service = svc.idx))[j] = a at hja
    have hm := hent j _ a hj hja
    obtain ⟨i, hi⟩ := List.getElem?_of_mem (List.mem_filter.1 (List.mem_of_getElem? hja)).1
    have hpath : ∃ fp, a.path = some fp ∧ a.daily = daily ∧ a.bufsize = bufsize := by
      cases hm <;> exact ⟨_, rfl, rfl, rfl⟩
    obtain ⟨fp, hfp, rfl, rfl⟩ := hpath
    refine ⟨i, a, fp, hi, hm, hfp, ?_⟩
    intro hsole
    exact C173_connection hU pathExists openOk norder hnorder c0 c hslab hfix as has k l hk progs tr1 tr2 t n s hrun hd d hs hok ends st0 hopen
      i a fp hi hfp hsole (fun j b hb hbp => path_once hnd2 hi hb hfp hbp) cd lim env lg r u hu hall

/-! ## A file -/

/-- Two services, one of which has two files for the same level. -/
def logFile : Toml :=
  .table [(u!"logpath", .str u!"/var/log"),
    (u!"log", .table [(u!"appenders", .arr [.table [(u!"File", .table [(u!"level", .str u!"warn")])]])]),
    (u!"services", .table [
      (u!"web", .table [(u!"log", .table [(u!"appenders", .arr [
        .table [(u!"File", .table [(u!"level", .str u!"Info"), (u!"bufsize", .str u!"1kb")])], .table [(u!"Console", .table [])],
        .table [(u!"File", .table [(u!"level", .str u!"info"), (u!"equal", .bool true), (u!"daily", .bool true)])]])])]),
      (u!"quiet", .table [(u!"log", .table [(u!"disable", .bool true), (u!"appenders", .arr [])])])])]

example : (match loadFile asciiUnicode .release true (fun _ => false) (fun _ => false) (fun _ => none) id (some logFile) with
    | .value c => (c.appenders (fun _ => true)).map (·.map (fun a => (a.service, a.path, a.filter.equal, a.daily, a.bufsize)))
    | _ => none) = some [(0, some u!"/var/log/httpd.WARN.log", false, false, 0), (1, some u!"/var/log/web/INFO.log", false, false, 1024),
      (1, none, false, false, 0), (1, some u!"/var/log/web/INFO.2.log", true, true, 0)] := by
  decide +kernel

example : Offers (fun _ => none) logFile u!"quiet" (.table [(u!"log", .table [(u!"disable", .bool true), (u!"appenders", .arr [])])]) :=
  .listed _ _ _ rfl (by simp)

example : ∀ k1 k2 sv1 sv2, Offers (fun _ => none) logFile k1 sv1 → Offers (fun _ => none) logFile k2 sv2 → trimUnicode k1 = trimUnicode k2 → k1 = k2 := by
  have hone : ∀ k sv, Offers (fun _ => none) logFile k sv → k = u!"web" ∨ k = u!"quiet" := by
    intro k sv h
    cases h with
    | listed ss _ _ h1 h2 =>
      cases (by simpa [logFile] using h1 : _ = _)
      simp at h2
      rcases h2 with ⟨rfl, _⟩ | ⟨rfl, _⟩ <;> simp
    | named _ _ _ _ _ _ _ hg => cases hg
    | unnamed _ _ _ _ _ _ _ _ hg => cases hg
  intro k1 k2 sv1 sv2 h1 h2 e
  rcases hone k1 sv1 h1 with rfl | rfl <;> rcases hone k2 sv2 h2 with rfl | rfl <;> first | rfl | (revert e; decide +kernel)

end Httpd
