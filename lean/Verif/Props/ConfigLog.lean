import Verif.Spec.Config
import Verif.Lemmas.RustInt
import Verif.Props.ConfigFiles
/-! # C60, C85, C88: log files and appenders -/

namespace Httpd
open Spec

/-! ## Log file names -/

/-- The directory part of a log path. -/
def logDir (logpath name : Str) : Str :=
  if name.isEmpty then logpath ++ u!"/httpd." else logpath ++ u!"/" ++ name ++ u!"/"

/-- The file part of a log path. -/
def logTail (level : Level) : Option Nat → Str
  | none => level.name ++ u!".log"
  | some i => level.name ++ u!"." ++ natStr i ++ u!".log"

theorem logPath1_eq (logpath name : Str) (l : Level) : logPath1 logpath name l = logDir logpath name ++ logTail l none := by
  unfold logPath1 logDir logTail; split <;> simp

theorem logPath2_eq (logpath name : Str) (l : Level) (i : Nat) :
    logPath2 logpath name l i = logDir logpath name ++ logTail l (some i) := by
  unfold logPath2 logDir logTail; split <;> simp

theorem natStr_inj {a b : Nat} (h : natStr a = natStr b) : a = b := by
  apply natToBytes_inj
  unfold natStr at h
  have inj : ∀ (x y : Bytes), x.map UInt8.toNat = y.map UInt8.toNat → x = y := by
    intro x
    induction x with
    | nil => intro y h; cases y with | nil => rfl | cons _ _ => simp at h
    | cons a x ih =>
      intro y h
      cases y with
      | nil => simp at h
      | cons b y =>
        simp only [List.map_cons, List.cons.injEq] at h
        rw [UInt8.toNat_inj.mp h.1, ih y h.2]
  exact inj _ _ h

theorem natStr_digits (n c : Nat) (h : c ∈ natStr n) : 48 ≤ c ∧ c ≤ 57 := by
  unfold natStr at h
  obtain ⟨b, hb, rfl⟩ := List.mem_map.mp h
  have := natToBytes_digits n b hb
  unfold IsDigit at this
  exact this

private theorem level_name_letters (l : Level) (c : Nat) (h : c ∈ l.name) : 65 ≤ c ∧ c ≤ 90 := by
  cases l <;> simp [Level.name] at h <;> omega

private theorem level_name_inj (a b : Level) (h : a.name = b.name) : a = b := by
  cases a <;> cases b <;> first | rfl | (revert h; decide)

private theorem tail_dot (l : Level) (i : Option Nat) : ∃ r, logTail l i = l.name ++ 46 :: r := by
  cases i with
  | none => exact ⟨u!"log", rfl⟩
  | some i => exact ⟨natStr i ++ u!".log", by simp [logTail]⟩

theorem logTail_inj (l1 l2 : Level) (i1 i2 : Option Nat) (h : logTail l1 i1 = logTail l2 i2) : l1 = l2 ∧ i1 = i2 := by
  have hn : ∀ (l : Level) (r : Str), (l.name ++ 46 :: r).takeWhile (· != 46) = l.name := by
    intro l r
    rw [List.takeWhile_append_of_pos]
    · simp
    · intro c hc
      have := level_name_letters l c hc
      simp only [bne_iff_ne, ne_eq]; omega
  have hl : l1 = l2 := by
    obtain ⟨r1, h1⟩ := tail_dot l1 i1
    obtain ⟨r2, h2⟩ := tail_dot l2 i2
    apply level_name_inj
    rw [← hn l1 r1, ← hn l2 r2, ← h1, ← h2, h]
  subst hl
  refine ⟨rfl, ?_⟩
  cases i1 with
  | none =>
    cases i2 with
    | none => rfl
    | some j =>
      simp only [logTail, List.append_assoc] at h
      have := congrArg List.length (List.append_cancel_left h)
      simp at this
  | some i =>
    cases i2 with
    | none =>
      simp only [logTail, List.append_assoc] at h
      have := congrArg List.length (List.append_cancel_left h)
      simp at this
    | some j =>
      simp only [logTail] at h
      have h1 := List.append_cancel_right h
      exact congrArg some (natStr_inj (List.append_cancel_left h1))

private theorem tail_no_slash (l : Level) (i : Option Nat) : 47 ∉ logTail l i := by
  intro h
  cases i with
  | none =>
    simp only [logTail, List.mem_append] at h
    rcases h with h | h
    · have := level_name_letters l _ h; omega
    · revert h; decide
  | some i =>
    simp only [logTail, List.mem_append] at h
    rcases h with ((h | h) | h) | h
    · have := level_name_letters l _ h; omega
    · revert h; decide
    · have := natStr_digits i _ h; omega
    · revert h; decide

/-- What `initLoop` makes: all appenders have the given service number, and the paths are fresh, distinct and of the known form. -/
theorem initLoop_spec (openOk : Str → Bool) (logpath name : Str) (service : Nat) (cfgs : List AppenderConfig) (idx : Nat)
    (fps : List Str) (as : List AppenderInit) (h : initLoop openOk logpath name service cfgs idx fps = some as)
    (hf : ∀ p ∈ fps, ∃ l i, p = logDir logpath name ++ logTail l i ∧ ∀ n, i = some n → n < idx) :
    as.length = cfgs.length ∧ (∀ a ∈ as, a.service = service) ∧
    (as.filterMap (·.path)).Nodup ∧
    (∀ p ∈ as.filterMap (·.path), p ∉ fps ∧ ∃ l i, p = logDir logpath name ++ logTail l i) := by
  induction cfgs generalizing idx fps as with
  | nil =>
    simp only [initLoop, Option.some.injEq] at h
    subst h
    simp
  | cons cfg rest ih =>
    cases cfg with
    | console level =>
      simp only [initLoop] at h
      cases hr : initLoop openOk logpath name service rest (idx + 1) fps with
      | none => simp [hr] at h
      | some as' =>
        simp only [hr, Option.some.injEq] at h
        subst h
        obtain ⟨h1, h2, h3, h4⟩ := ih (idx + 1) fps as' hr (by
          intro p hp
          obtain ⟨l, i, hp1, hp2⟩ := hf p hp
          exact ⟨l, i, hp1, fun n hn => Nat.lt_succ_of_lt (hp2 n hn)⟩)
        refine ⟨by simp [h1], ?_, by simpa using h3, by simpa using h4⟩
        intro a ha
        rcases List.mem_cons.mp ha with rfl | ha
        · rfl
        · exact h2 a ha
    | file level equal daily bufsize =>
      simp only [initLoop] at h
      generalize hpath : (if fps.contains (logPath1 logpath name (appenderLevel level)) = true then
        logPath2 logpath name (appenderLevel level) idx else logPath1 logpath name (appenderLevel level)) = path at h
      have hform : ∃ i, path = logDir logpath name ++ logTail (appenderLevel level) i ∧ (∀ n, i = some n → n < idx + 1) ∧ path ∉ fps := by
        by_cases hc : fps.contains (logPath1 logpath name (appenderLevel level)) = true
        · rw [if_pos hc] at hpath
          refine ⟨some idx, by rw [← hpath, logPath2_eq], by simp, ?_⟩
          intro hmem
          obtain ⟨l, i, hp1, hp2⟩ := hf path hmem
          rw [← hpath, logPath2_eq] at hp1
          have := logTail_inj _ _ _ _ (List.append_cancel_left hp1)
          have := hp2 idx this.2.symm
          omega
        · rw [if_neg hc] at hpath
          refine ⟨none, by rw [← hpath, logPath1_eq], by simp, ?_⟩
          rw [← hpath]
          simpa using hc
      obtain ⟨i, hp1, hp2, hp3⟩ := hform
      by_cases ho : openOk path = true
      · simp only [ho, Bool.not_true, Bool.false_eq_true, ↓reduceIte] at h
        cases hr : initLoop openOk logpath name service rest (idx + 1) (path :: fps) with
        | none => simp [hr] at h
        | some as' =>
          simp only [hr, Option.some.injEq] at h
          subst h
          obtain ⟨h1, h2, h3, h4⟩ := ih (idx + 1) (path :: fps) as' hr (by
            intro p hp
            rcases List.mem_cons.mp hp with rfl | hp
            · exact ⟨_, i, hp1, hp2⟩
            · obtain ⟨l, i, hp1, hp2⟩ := hf p hp
              exact ⟨l, i, hp1, fun n hn => Nat.lt_succ_of_lt (hp2 n hn)⟩)
          refine ⟨by simp [h1], ?_, ?_, ?_⟩
          · intro a ha
            rcases List.mem_cons.mp ha with rfl | ha
            · rfl
            · exact h2 a ha
          · simp only [List.filterMap_cons, List.nodup_cons]
            refine ⟨?_, h3⟩
            intro hm
            exact (h4 path hm).1 (List.mem_cons_self ..)
          · intro p hp
            simp only [List.filterMap_cons, List.mem_cons] at hp
            rcases hp with rfl | hp
            · exact ⟨hp3, _, i, hp1⟩
            · obtain ⟨h5, h6⟩ := h4 p hp
              exact ⟨fun h => h5 (List.mem_cons_of_mem _ h), h6⟩
      · simp only [ho] at h
        simp at h

theorem init_spec (openOk : Str → Bool) (logpath : Str) (c : LoggingConfig) (r : Option (List AppenderInit))
    (h : c.init openOk logpath = some r) :
    (∀ a ∈ r.getD [], a.service = c.serviceIdx) ∧ ((r.getD []).filterMap (·.path)).Nodup ∧
    (∀ p ∈ (r.getD []).filterMap (·.path), ∃ l i, p = logDir logpath c.serviceName ++ logTail l i) := by
  unfold LoggingConfig.init at h
  split at h
  · cases h; simp
  · cases hl : initLoop openOk logpath c.serviceName c.serviceIdx c.appenders 0 [] with
    | none => simp [hl] at h
    | some as =>
      simp only [hl, Option.map_some, Option.some.injEq] at h
      subst h
      obtain ⟨_, h2, h3, h4⟩ := initLoop_spec _ _ _ _ _ _ _ _ hl (by simp)
      exact ⟨h2, h3, fun p hp => (h4 p hp).2⟩

/-- Two log paths split in the same way. -/
private theorem last_split (a b s t : Str) (ha : 47 ∉ s) (hb : 47 ∉ t) (h : a ++ [47] ++ s = b ++ [47] ++ t) : a = b ∧ s = t := by
  have hr := congrArg List.reverse h
  simp only [List.reverse_append, List.reverse_cons, List.reverse_nil, List.nil_append, List.append_assoc] at hr
  have ht : ∀ (e s : Str), 47 ∉ e → (e.reverse ++ ([47] ++ s)).takeWhile (· != 47) = e.reverse := by
    intro e s he
    have : ∀ x ∈ e.reverse, (x != 47) = true := by
      intro x hx
      simp only [bne_iff_ne, ne_eq]
      rintro rfl
      exact he (by simpa using hx)
    rw [List.takeWhile_append_of_pos this]
    simp
  have h3 := ht s a.reverse ha
  rw [hr, ht t b.reverse hb] at h3
  have h4 : s = t := by simpa using h3.symm
  subst h4
  exact ⟨by simpa using h, rfl⟩

private theorem httpd_no_slash (l : Level) (i : Option Nat) : 47 ∉ u!"httpd." ++ logTail l i := by
  intro h
  rcases List.mem_append.mp h with h | h
  · revert h; decide
  · exact tail_no_slash l i h

private theorem dir_differ (logpath n1 n2 : Str) (l1 l2 : Level) (i1 i2 : Option Nat)
    (h : logDir logpath n1 ++ logTail l1 i1 = logDir logpath n2 ++ logTail l2 i2) : n1 = n2 := by
  have hroot : ∀ (l : Level) (i : Option Nat), logDir logpath [] ++ logTail l i = logpath ++ [47] ++ (u!"httpd." ++ logTail l i) := by
    intro l i; simp [logDir]
  have hserv : ∀ (n : Str) (l : Level) (i : Option Nat), n ≠ [] →
      logDir logpath n ++ logTail l i = (logpath ++ [47] ++ n) ++ [47] ++ logTail l i := by
    intro n l i hn
    have : n.isEmpty = false := by cases n with | nil => exact absurd rfl hn | cons _ _ => rfl
    simp [logDir, this]
  by_cases h1 : n1 = [] <;> by_cases h2 : n2 = []
  · rw [h1, h2]
  · subst h1
    rw [hroot, hserv n2 _ _ h2] at h
    have := (last_split _ _ _ _ (httpd_no_slash _ _) (tail_no_slash _ _) h).1
    have := congrArg List.length this
    simp at this
  · subst h2
    rw [hroot, hserv n1 _ _ h1] at h
    have := (last_split _ _ _ _ (tail_no_slash _ _) (httpd_no_slash _ _) h).1
    have := congrArg List.length this
    simp at this
  · rw [hserv n1 _ _ h1, hserv n2 _ _ h2] at h
    have := (last_split _ _ _ _ (tail_no_slash _ _) (tail_no_slash _ _) h).1
    simpa using this

theorem initServices_spec (openOk : Str → Bool) (logpath : Str) (ss : List (Str × ServiceConfig)) (as : List AppenderInit)
    (h : initServices openOk logpath ss = some as) :
    ∃ each : List (List AppenderInit), as = each.flatten ∧
      Each2 (fun s e => ∃ r, s.2.logging.init openOk logpath = some r ∧ e = r.getD []) ss each := by
  induction ss generalizing as with
  | nil =>
    simp only [initServices, Option.some.injEq] at h
    subst h
    exact ⟨[], rfl, .nil⟩
  | cons s ss ih =>
    obtain ⟨k, s⟩ := s
    simp only [initServices] at h
    cases hi : s.logging.init openOk logpath with
    | none => simp [hi] at h
    | some r =>
      cases hr : initServices openOk logpath ss with
      | none => simp [hi, hr] at h
      | some as' =>
        simp only [hi, hr, Option.some.injEq] at h
        subst h
        obtain ⟨each, h1, h2⟩ := ih as' hr
        exact ⟨r.getD [] :: each, by simp [h1], .cons ⟨r, hi, rfl⟩ h2⟩

/-! ## C60 -/

/-- **C60** Within one logging configuration the log files are pairwise different paths; and the log files of all services (with
different names) and of the root are pairwise different paths. -/
theorem C60_paths (openOk : Str → Bool) :
    (∀ (logpath : Str) (c : LoggingConfig) (as : List AppenderInit), c.init openOk logpath = some (some as) →
      (as.filterMap (·.path)).Nodup) ∧
    (∀ (pathExists : Str → Bool) (c c' : Config) (as : List AppenderInit), c.autofix pathExists = some c' →
      (c'.services.map (·.2.name)).Nodup → c'.appenders openOk = some as → (as.filterMap (·.path)).Nodup) := by
  constructor
  · intro logpath c as h
    exact (init_spec openOk logpath c _ h).2.1
  · intro pathExists c c' as hfix hnd h
    unfold Config.appenders at h
    have hid := (C56_identities pathExists c c' hfix).2.2.1
    have hroot : c'.logging.serviceName = [] := by
      obtain ⟨h1, _⟩ := Config.autofix_spec pathExists c c' hfix
      rw [h1]
    cases hi : c'.logging.init openOk c'.logpath with
    | none => simp [hi] at h
    | some r =>
      cases hs : initServices openOk c'.logpath c'.services with
      | none => simp [hi, hs] at h
      | some bs =>
        simp only [hi, hs, Option.some.injEq] at h
        subst h
        obtain ⟨_, hr1, hr2⟩ := init_spec _ _ _ _ hi
        obtain ⟨each, he, h2⟩ := initServices_spec _ _ _ _ hs
        subst he
        clear hs hfix hi
        have hserv : ∀ (ss : List (Str × ServiceConfig)) (each : List (List AppenderInit)),
            Each2 (fun s e => ∃ r, s.2.logging.init openOk c'.logpath = some r ∧ e = r.getD []) ss each →
            (∀ p ∈ ss, p.2.name ≠ [] ∧ p.2.logging.serviceName = p.2.name) → (ss.map (·.2.name)).Nodup →
            (each.flatten.filterMap (·.path)).Nodup ∧
            ∀ p ∈ each.flatten.filterMap (·.path), ∃ s ∈ ss, ∃ l i, p = logDir c'.logpath s.2.name ++ logTail l i := by
          intro ss each h2
          induction h2 with
          | nil => intro _ _; simp
          | @cons s e ss each hr _ ih =>
            intro hname hnd
            obtain ⟨r, hr1, hr2⟩ := hr
            obtain ⟨_, hr3, hr4⟩ := init_spec _ _ _ _ hr1
            simp only [List.map_cons, List.nodup_cons] at hnd
            obtain ⟨ih1, ih2⟩ := ih (fun p hp => hname p (List.mem_cons_of_mem _ hp)) hnd.2
            have hsn := hname s (List.mem_cons_self ..)
            rw [hsn.2, ← hr2] at hr4
            rw [← hr2] at hr3
            rw [List.flatten_cons, List.filterMap_append]
            refine ⟨?_, ?_⟩
            · rw [List.nodup_append]
              refine ⟨hr3, ih1, ?_⟩
              rintro a ha b hb rfl
              obtain ⟨l1, i1, h1⟩ := hr4 a ha
              obtain ⟨s', hs', l2, i2, h2⟩ := ih2 a hb
              rw [h1] at h2
              have := dir_differ _ _ _ _ _ _ _ h2
              exact hnd.1 (List.mem_map.mpr ⟨s', hs', this.symm⟩)
            · intro p hp
              rcases List.mem_append.mp hp with hp | hp
              · obtain ⟨l, i, h⟩ := hr4 p hp
                exact ⟨s, List.mem_cons_self .., l, i, h⟩
              · obtain ⟨s', hs', h⟩ := ih2 p hp
                exact ⟨s', List.mem_cons_of_mem _ hs', h⟩
        obtain ⟨h3, h4⟩ := hserv _ _ h2 (fun p hp => ⟨(hid p hp).2.1, (hid p hp).2.2.2.1⟩) hnd
        rw [List.filterMap_append, List.nodup_append]
        refine ⟨hr1, h3, ?_⟩
        rintro a ha b hb rfl
        obtain ⟨l1, i1, h5⟩ := hr2 a ha
        obtain ⟨s, hs, l2, i2, h6⟩ := h4 a hb
        rw [h5, hroot] at h6
        exact (hid s hs).2.1 (dir_differ _ _ _ _ _ _ _ h6).symm

/-- Three file appenders of the same level and one of another: four different files. -/
example : (LoggingConfig.init (fun _ => true) u!"/l" { LoggingConfig.default with
      serviceName := u!"a", appenders := [.file (some u!"info") none false 0, .console none, .file (some u!"Info") none true 0,
        .file none none false 0, .file (some u!"INFO") none false 0] }).map (fun r => (r.getD []).filterMap (·.path)) =
    some [u!"/l/a/INFO.log", u!"/l/a/INFO.2.log", u!"/l/a/TRACE.log", u!"/l/a/INFO.4.log"] := by decide +kernel

/-! ## C85 -/

theorem pieces_parts {p : Str} {cs : List Str} (h : Pieces p cs) : pathParts p = cs := by
  induction h with
  | nil => decide
  | dot => decide
  | last c h => exact pathParts_one h.1 h.2.1 h.2.2
  | slash t cs _ ih =>
    have := pathParts_append [] t
    simp only [List.nil_append] at this
    rw [this, ih]; rfl
  | dotSlash t cs _ ih =>
    have := pathParts_append [46] t
    simp only [List.cons_append, List.nil_append] at this
    rw [this, ih]; rfl
  | piece c t cs h _ ih => rw [pathParts_append, pathParts_one h.1 h.2.1 h.2.2, ih]; rfl

theorem pieces_append {a b : Str} {as bs : List Str} (ha : Pieces a as) (hb : Pieces b bs) :
    Pieces (a ++ 47 :: b) (as ++ bs) := by
  induction ha with
  | nil => exact .slash _ _ hb
  | dot => exact .dotSlash _ _ hb
  | last c h => exact .piece c _ _ h hb
  | slash t cs _ ih => exact .slash _ _ ih
  | dotSlash t cs _ ih => exact .dotSlash _ _ ih
  | piece c t cs h _ ih =>
    have := Pieces.piece c _ _ h ih
    simpa using this

theorem pieces_exist (p : Str) : ∃ cs, Pieces p cs := by
  have one : ∀ c : Str, 47 ∉ c → ∃ cs, Pieces c cs := by
    intro c h
    by_cases h1 : c = []
    · exact ⟨[], h1 ▸ .nil⟩
    · by_cases h2 : c = [46]
      · exact ⟨[], h2 ▸ .dot⟩
      · exact ⟨[c], .last c ⟨h1, h2, h⟩⟩
  have gen : ∀ (n : Nat) (p : Str), p.length ≤ n → ∃ cs, Pieces p cs := by
    intro n
    induction n with
    | zero =>
      intro p hp
      have : p = [] := List.length_eq_zero_iff.mp (by omega)
      exact ⟨[], this ▸ .nil⟩
    | succ n ih =>
      intro p hp
      by_cases h : 47 ∈ p
      · obtain ⟨a, b, rfl⟩ := List.append_of_mem h
        obtain ⟨as, ha⟩ := ih a (by simp at hp; omega)
        obtain ⟨bs, hb⟩ := ih b (by simp at hp; omega)
        exact ⟨as ++ bs, pieces_append ha hb⟩
      · exact one p h
  exact gen p.length p (Nat.le_refl _)

/-- Logging of a service called `name`, with one file appender. -/
def oneFile (name : Str) : LoggingConfig :=
  { LoggingConfig.default with serviceName := name, appenders := [.file none none false 0] }

/-- **C85**, negation for the code as written: services called `a` and `./a` (for every `a` without white space at the ends) have
different names but the same log file. -/
theorem C85_same_file_violated (openOk : Str → Bool) (hopen : ∀ p, openOk p = true) (logpath a : Str) (ha : a ≠ []) :
    a ≠ 46 :: 47 :: a ∧ ∃ p q s t, (oneFile a).init openOk logpath = some (some [s]) ∧
      (oneFile (46 :: 47 :: a)).init openOk logpath = some (some [t]) ∧ s.path = some p ∧ t.path = some q ∧ SameFile p q := by
  refine ⟨?_, ?_⟩
  · intro h
    have := congrArg List.length h
    simp only [List.length_cons] at this
    omega
  · have hlev : appenderLevel none = .trace := by decide +kernel
    have hpath : ∀ n : Str, n ≠ [] → logPath1 logpath n .trace = logpath ++ 47 :: (n ++ 47 :: logTail .trace none) := by
      intro n hn
      have : n.isEmpty = false := by cases n with | nil => exact absurd rfl hn | cons _ _ => rfl
      simp [logPath1, this, logTail]
    have hinit : ∀ n : Str, (oneFile n).init openOk logpath =
        some (some [⟨0, u!"json", ⟨.trace, false⟩, some (logPath1 logpath n .trace), false, 0⟩]) := by
      intro n
      simp [oneFile, LoggingConfig.init, LoggingConfig.default, initLoop, hlev, hopen]
    refine ⟨_, _, _, _, hinit a, hinit (46 :: 47 :: a), rfl, rfl, ?_⟩
    rw [hpath a ha, hpath _ (by simp)]
    constructor
    · cases logpath <;> simp
    · obtain ⟨ls, hl⟩ := pieces_exist logpath
      obtain ⟨ns, hn⟩ := pieces_exist a
      obtain ⟨ts, ht⟩ := pieces_exist (logTail .trace none)
      exact ⟨_, pieces_append hl (pieces_append hn ht), pieces_append hl (pieces_append (.dotSlash _ _ hn) ht)⟩

/-- **C85**, what holds: services whose names have no slash have no log file in common, whatever their appenders are; nor has such a
service one with the root. Missing from C85: names with a slash. (Paths are compared piece by piece; links and `..` are not
followed.) -/
theorem C85_different_partial (openOk : Str → Bool) (logpath : Str) (c1 c2 : LoggingConfig) (as1 as2 : List AppenderInit)
    (h1 : c1.init openOk logpath = some (some as1)) (h2 : c2.init openOk logpath = some (some as2))
    (hn1 : 47 ∉ c1.serviceName) (hn2 : 47 ∉ c2.serviceName) (hne : c1.serviceName ≠ c2.serviceName)
    (p q : Str) (hp : p ∈ as1.filterMap (·.path)) (hq : q ∈ as2.filterMap (·.path)) : ¬ SameFile p q := by
  rintro ⟨_, cs, hc1, hc2⟩
  obtain ⟨l1, i1, rfl⟩ := (init_spec _ _ _ _ h1).2.2 p hp
  obtain ⟨l2, i2, rfl⟩ := (init_spec _ _ _ _ h2).2.2 q hq
  have heq := (pieces_parts hc1).trans (pieces_parts hc2).symm
  have tne : ∀ (l : Level) (i : Option Nat), pathParts (logTail l i) = [logTail l i] := by
    intro l i
    obtain ⟨r, hr⟩ := tail_dot l i
    refine pathParts_one ?_ ?_ (tail_no_slash l i)
    · rw [hr]; simp
    · rw [hr]; cases l <;> simp [Level.name]
  have hne0 : ∀ (l : Level) (i : Option Nat), pathParts (u!"httpd." ++ logTail l i) = [u!"httpd." ++ logTail l i] := by
    intro l i
    exact pathParts_one (by simp) (by simp) (httpd_no_slash l i)
  have hroot : ∀ (l : Level) (i : Option Nat), pathParts (logDir logpath [] ++ logTail l i) =
      pathParts logpath ++ [u!"httpd." ++ logTail l i] := by
    intro l i
    rw [← hne0, ← pathParts_append]; simp [logDir]
  have hserv : ∀ (n : Str) (l : Level) (i : Option Nat), n ≠ [] → pathParts (logDir logpath n ++ logTail l i) =
      pathParts logpath ++ (pathParts n ++ [logTail l i]) := by
    intro n l i hn
    have : n.isEmpty = false := by cases n with | nil => exact absurd rfl hn | cons _ _ => rfl
    rw [← tne, ← pathParts_append, ← pathParts_append]; simp [logDir, this]
  have hname : ∀ n : Str, 47 ∉ n → n ≠ [] → (n = [46] ∧ pathParts n = []) ∨ pathParts n = [n] := by
    intro n h h0
    by_cases hd : n = [46]
    · subst hd; left; exact ⟨rfl, by decide⟩
    · right; exact pathParts_one h0 hd h
  have htail : ∀ (l1 l2 : Level) (i1 i2 : Option Nat), u!"httpd." ++ logTail l1 i1 ≠ logTail l2 i2 := by
    intro l1 l2 i1 i2 h
    obtain ⟨r, hr⟩ := tail_dot l2 i2
    rw [hr] at h
    cases l2 <;> simp [Level.name] at h
  by_cases e1 : c1.serviceName = [] <;> by_cases e2 : c2.serviceName = []
  · exact hne (e1.trans e2.symm)
  · rw [e1, hroot, hserv _ _ _ e2] at heq
    have h3 := List.append_cancel_left heq
    rcases hname _ hn2 e2 with ⟨_, h4⟩ | h4
    · rw [h4] at h3
      simp only [List.nil_append, List.cons.injEq, and_true] at h3
      exact htail _ _ _ _ h3
    · rw [h4] at h3
      simp at h3
  · rw [e2, hroot, hserv _ _ _ e1] at heq
    have h3 := List.append_cancel_left heq
    rcases hname _ hn1 e1 with ⟨_, h4⟩ | h4
    · rw [h4] at h3
      simp only [List.nil_append, List.cons.injEq, and_true] at h3
      exact htail _ _ _ _ h3.symm
    · rw [h4] at h3
      simp at h3
  · rw [hserv _ _ _ e1, hserv _ _ _ e2] at heq
    have h3 := List.append_cancel_left heq
    rcases hname _ hn1 e1 with ⟨h5, h4⟩ | h4 <;> rcases hname _ hn2 e2 with ⟨h7, h6⟩ | h6
    · exact hne (h5.trans h7.symm)
    · rw [h4, h6] at h3; simp at h3
    · rw [h4, h6] at h3; simp at h3
    · rw [h4, h6] at h3
      simp only [List.cons_append, List.nil_append, List.cons.injEq] at h3
      exact hne h3.1

example : ((oneFile u!"a").init (fun _ => true) u!"./logs/").map (fun r => (r.getD []).filterMap (·.path)) = some [u!"./logs//a/TRACE.log"] ∧
    ((oneFile u!"./a").init (fun _ => true) u!"./logs/").map (fun r => (r.getD []).filterMap (·.path)) =
      some [u!"./logs//./a/TRACE.log"] := by decide +kernel

/-- **C85**, exactly: two names never give a file in common, whatever the appenders, if and only if one of them is empty (the root) and the other is
not, or their pieces differ. -/
theorem C85_exactly_partial (logpath n1 n2 : Str) :
    (∀ (openOk : Str → Bool) (c1 c2 : LoggingConfig) (as1 as2 : List AppenderInit), c1.serviceName = n1 → c2.serviceName = n2 →
      c1.init openOk logpath = some (some as1) → c2.init openOk logpath = some (some as2) →
      ∀ p ∈ as1.filterMap (·.path), ∀ q ∈ as2.filterMap (·.path), ¬ SameFile p q) ↔
    ¬ ((n1 = [] ↔ n2 = []) ∧ ∃ cs, Pieces n1 cs ∧ Pieces n2 cs) := by
  have tne : ∀ (l : Level) (i : Option Nat), pathParts (logTail l i) = [logTail l i] := by
    intro l i
    obtain ⟨r, hr⟩ := tail_dot l i
    refine pathParts_one ?_ ?_ (tail_no_slash l i)
    · rw [hr]; simp
    · rw [hr]; cases l <;> simp [Level.name]
  have hroot : ∀ (l : Level) (i : Option Nat), pathParts (logDir logpath [] ++ logTail l i) =
      pathParts logpath ++ ([] ++ [u!"httpd." ++ logTail l i]) := by
    intro l i
    rw [List.nil_append, ← pathParts_one (c := u!"httpd." ++ logTail l i) (by simp) (by simp) (httpd_no_slash l i), ← pathParts_append]
    simp [logDir]
  have hserv : ∀ (n : Str) (l : Level) (i : Option Nat), n ≠ [] → pathParts (logDir logpath n ++ logTail l i) =
      pathParts logpath ++ (pathParts n ++ [logTail l i]) := by
    intro n l i hn
    have : n.isEmpty = false := by cases n with | nil => exact absurd rfl hn | cons _ _ => rfl
    rw [← tne, ← pathParts_append, ← pathParts_append]; simp [logDir, this]
  have htail : ∀ (l1 l2 : Level) (i1 i2 : Option Nat), u!"httpd." ++ logTail l1 i1 ≠ logTail l2 i2 := by
    intro l1 l2 i1 i2 h
    obtain ⟨r, hr⟩ := tail_dot l2 i2
    rw [hr] at h
    cases l2 <;> simp [Level.name] at h
  have hsplit : ∀ {a b : List Str} {x y : Str}, a ++ [x] = b ++ [y] → a = b ∧ x = y := by
    intro a b x y h
    have := List.append_inj' h rfl
    exact ⟨this.1, by simpa using this.2⟩
  constructor
  · rintro h ⟨h0, cs, hc1, hc2⟩
    have hlev : appenderLevel none = .trace := by decide +kernel
    have hinit : ∀ n : Str, (oneFile n).init (fun _ => true) logpath =
        some (some [⟨0, u!"json", ⟨.trace, false⟩, some (logPath1 logpath n .trace), false, 0⟩]) := by
      intro n
      simp [oneFile, LoggingConfig.init, LoggingConfig.default, initLoop, hlev]
    refine h _ _ _ _ _ rfl rfl (hinit n1) (hinit n2) (logPath1 logpath n1 .trace) (by simp) (logPath1 logpath n2 .trace) (by simp) ?_
    by_cases e1 : n1 = []
    · rw [e1, h0.mp e1]
      obtain ⟨ps, hp⟩ := pieces_exist (logPath1 logpath [] .trace)
      exact ⟨Iff.rfl, ps, hp, hp⟩
    · have hpath : ∀ n : Str, n ≠ [] → logPath1 logpath n .trace = logpath ++ 47 :: (n ++ 47 :: logTail .trace none) := by
        intro n hn
        have : n.isEmpty = false := by cases n with | nil => exact absurd rfl hn | cons _ _ => rfl
        simp [logPath1, this, logTail]
      rw [hpath n1 e1, hpath n2 (fun e => e1 (h0.mpr e))]
      obtain ⟨ls, hl⟩ := pieces_exist logpath
      obtain ⟨ts, ht⟩ := pieces_exist (logTail .trace none)
      exact ⟨by cases logpath <;> simp, _, pieces_append hl (pieces_append hc1 ht), pieces_append hl (pieces_append hc2 ht)⟩
  · rintro hno openOk c1 c2 as1 as2 rfl rfl h1 h2 p hp q hq ⟨_, cs, hc1, hc2⟩
    obtain ⟨l1, i1, rfl⟩ := (init_spec _ _ _ _ h1).2.2 p hp
    obtain ⟨l2, i2, rfl⟩ := (init_spec _ _ _ _ h2).2.2 q hq
    have heq := (pieces_parts hc1).trans (pieces_parts hc2).symm
    by_cases e1 : c1.serviceName = [] <;> by_cases e2 : c2.serviceName = []
    · exact hno ⟨⟨fun _ => e2, fun _ => e1⟩, [], e1 ▸ .nil, e2 ▸ .nil⟩
    · rw [e1, hroot, hserv _ _ _ e2] at heq
      exact htail _ _ _ _ (hsplit (List.append_cancel_left heq)).2
    · rw [e2, hroot, hserv _ _ _ e1] at heq
      exact htail _ _ _ _ (hsplit (List.append_cancel_left heq)).2.symm
    · rw [hserv _ _ _ e1, hserv _ _ _ e2] at heq
      have h3 := (hsplit (List.append_cancel_left heq)).1
      obtain ⟨a, ha⟩ := pieces_exist c1.serviceName
      obtain ⟨b, hb⟩ := pieces_exist c2.serviceName
      have : a = b := by rw [← pieces_parts ha, ← pieces_parts hb, h3]
      exact hno ⟨⟨fun e => absurd e e1, fun e => absurd e e2⟩, a, ha, this ▸ hb⟩

/-- Both sides of it: `a/b` and `a//./b` share, `a/b` and `a` do not. -/
example : ((u!"a/b" = [] ↔ u!"a//./b" = []) ∧ ∃ cs, Pieces u!"a/b" cs ∧ Pieces u!"a//./b" cs) ∧ ¬ ∃ cs, Pieces u!"a/b" cs ∧ Pieces u!"a" cs := by
  have pa : Piece u!"a" := ⟨by decide, by decide, by decide⟩
  have pb : Piece u!"b" := ⟨by decide, by decide, by decide⟩
  refine ⟨⟨by decide, [u!"a", u!"b"], .piece u!"a" u!"b" _ pa (.last _ pb), .piece u!"a" u!"/./b" _ pa (.slash _ _ (.dotSlash _ _ (.last _ pb)))⟩, ?_⟩
  rintro ⟨cs, h1, h2⟩
  have := (pieces_parts h1).trans (pieces_parts h2).symm
  revert this
  decide +kernel

/-! ## C88 -/

theorem noteAppenders_spec (as : List AppenderInit) (idx : Nat) (slab : List (List Nat)) (h : ∀ a ∈ as, a.service < slab.length) :
    ∃ out, noteAppenders as idx slab = some out ∧ out.length = slab.length ∧
      ∀ s l, slab[s]? = some l → out[s]? = some (l ++ (List.range' idx as.length).filter
        (fun i => (as[i - idx]?).map (·.service) = some s)) := by
  induction as generalizing idx slab with
  | nil => exact ⟨slab, rfl, rfl, by intro s l h; simp [h]⟩
  | cons a as ih =>
    have ha := h a (List.mem_cons_self ..)
    have hlen : (slab.modify a.service (· ++ [idx])).length = slab.length := by simp
    obtain ⟨out, h1, h2, h3⟩ := ih (idx + 1) (slab.modify a.service (· ++ [idx])) (by
      intro b hb; rw [hlen]; exact h b (List.mem_cons_of_mem _ hb))
    refine ⟨out, by simp [noteAppenders, noteAppender, ha, h1], by rw [h2, hlen], ?_⟩
    intro s l hs
    have hshift : (List.range' (idx + 1) as.length).filter (fun i => ((a :: as)[i - idx]?).map (·.service) = some s) =
        (List.range' (idx + 1) as.length).filter (fun i => (as[i - (idx + 1)]?).map (·.service) = some s) := by
      apply List.filter_congr
      intro i hi
      rw [List.mem_range'] at hi
      obtain ⟨j, _, rfl⟩ := hi
      have e1 : idx + 1 + 1 * j - idx = j + 1 := by omega
      have e2 : idx + 1 + 1 * j - (idx + 1) = j := by omega
      rw [e1, e2, List.getElem?_cons_succ]
    rw [List.length_cons, List.range'_succ, List.filter_cons, hshift]
    simp only [Nat.sub_self, List.getElem?_cons_zero, Option.map_some, Option.some.injEq, decide_eq_true_eq]
    by_cases he : a.service = s
    · rw [if_pos he]
      have := h3 s (l ++ [idx]) (by rw [List.getElem?_modify, he]; simp [hs])
      rw [this]
      simp
    · rw [if_neg he]
      exact h3 s l (by rw [List.getElem?_modify]; simp [he, hs])

/-- **C88** For a configuration that was fixed up: noting the appenders does not panic; the list noted for number `s` holds exactly the
positions of the appenders made for `s`, in order; and those are exactly the appenders the root (0) or the service with that number
asked for, in the order of its configuration. -/
theorem C88_noted (pathExists openOk : Str → Bool) (c c' : Config) (as : List AppenderInit) (hslab : c.slab = [])
    (hfix : c.autofix pathExists = some c') (h : c'.appenders openOk = some as) :
    ∃ out, noteAppenders as 0 c'.slab = some out ∧ out.length = c'.services.length + 1 ∧
      (∀ s, s < out.length → out[s]? = some ((List.range as.length).filter (fun i => (as[i]?).map (·.service) = some s))) ∧
      (∃ r, c'.logging.init openOk c'.logpath = some r ∧ as.filter (·.service = 0) = r.getD []) ∧
      (∀ p ∈ c'.services, ∃ r, p.2.logging.init openOk c'.logpath = some r ∧ as.filter (·.service = p.2.idx) = r.getD []) := by
  obtain ⟨hnd, hroot, hid, _⟩ := C56_identities pathExists c c' hfix
  have hlen : c'.slab = List.replicate (c'.services.length + 1) [] := by
    obtain ⟨_, _, _, _, _, hf⟩ := Config.autofix_spec pathExists c c' hfix
    obtain ⟨h1, _, _, h4, _⟩ := fixServices_spec _ _ _ _ _ _ _ hf
    have h5 := congrArg List.length h1
    simp only [List.length_map] at h5
    rw [h4, hslab, h5, List.replicate_succ]; rfl
  unfold Config.appenders at h
  cases hi : c'.logging.init openOk c'.logpath with
  | none => simp [hi] at h
  | some r =>
    cases hs : initServices openOk c'.logpath c'.services with
    | none => simp [hi, hs] at h
    | some bs =>
      simp only [hi, hs, Option.some.injEq] at h
      obtain ⟨hr1, _⟩ := init_spec _ _ _ _ hi
      rw [hroot] at hr1
      obtain ⟨each, he, h2⟩ := initServices_spec _ _ _ _ hs
      have hserv : ∀ (ss : List (Str × ServiceConfig)) (each : List (List AppenderInit)),
          Each2 (fun s e => ∃ r, s.2.logging.init openOk c'.logpath = some r ∧ e = r.getD []) ss each →
          (∀ p ∈ ss, p.2.logging.serviceIdx = p.2.idx) → (ss.map (·.2.idx)).Nodup →
          (∀ a ∈ each.flatten, a.service ∈ ss.map (·.2.idx)) ∧
          (∀ p ∈ ss, ∃ r, p.2.logging.init openOk c'.logpath = some r ∧ each.flatten.filter (·.service = p.2.idx) = r.getD []) := by
        intro ss each h2
        induction h2 with
        | nil => intro _ _; simp
        | @cons s e ss each hr _ ih =>
          intro hix hnd
          obtain ⟨r, hr1, hr2⟩ := hr
          simp only [List.map_cons, List.nodup_cons] at hnd
          obtain ⟨ih1, ih2⟩ := ih (fun p hp => hix p (List.mem_cons_of_mem _ hp)) hnd.2
          have hsv := (init_spec _ _ _ _ hr1).1
          rw [hix s (List.mem_cons_self ..), ← hr2] at hsv
          refine ⟨?_, ?_⟩
          · intro a ha
            rw [List.flatten_cons] at ha
            rcases List.mem_append.mp ha with ha | ha
            · rw [hsv a ha]; simp
            · exact List.mem_cons_of_mem _ (ih1 a ha)
          · intro p hp
            rw [List.flatten_cons, List.filter_append]
            rcases List.mem_cons.mp hp with rfl | hp
            · refine ⟨r, hr1, ?_⟩
              have k1 : e.filter (fun a => decide (a.service = p.2.idx)) = e := by
                rw [List.filter_eq_self]
                intro a ha
                simpa using hsv a ha
              have k2 : each.flatten.filter (fun a => decide (a.service = p.2.idx)) = [] := by
                rw [List.filter_eq_nil_iff]
                intro a ha
                have := ih1 a ha
                simp only [decide_eq_true_eq]
                intro h
                rw [h] at this
                exact hnd.1 this
              rw [k1, k2, hr2, List.append_nil]
            · obtain ⟨r', h1, h2⟩ := ih2 p hp
              refine ⟨r', h1, ?_⟩
              have k1 : e.filter (fun a => decide (a.service = p.2.idx)) = [] := by
                rw [List.filter_eq_nil_iff]
                intro a ha
                simp only [decide_eq_true_eq]
                intro h
                rw [hsv a ha] at h
                exact hnd.1 (h ▸ List.mem_map.mpr ⟨p, hp, rfl⟩)
              rw [k1, h2, List.nil_append]
      obtain ⟨h3, h4⟩ := hserv _ _ h2 (fun p hp => (hid p hp).2.2.2.2.1) hnd
      subst he
      have hlt : ∀ a ∈ as, a.service < c'.slab.length := by
        intro a ha
        rw [← h] at ha
        rcases List.mem_append.mp ha with ha | ha
        · rw [hr1 a ha, hlen]; simp
        · obtain ⟨p, hp, hpe⟩ := List.mem_map.mp (h3 a ha)
          rw [← hpe]
          exact (hid p hp).2.2.2.2.2
      obtain ⟨out, o1, o2, o3⟩ := noteAppenders_spec as 0 c'.slab hlt
      refine ⟨out, o1, by rw [o2, hlen]; simp, ?_, ⟨r, rfl, ?_⟩, ?_⟩
      · intro s hs
        have := o3 s [] (by rw [hlen]; rw [o2, hlen] at hs; rw [List.getElem?_replicate]; simp at hs; simp [hs])
        rw [this]
        simp [List.range_eq_range']
      · rw [← h, List.filter_append]
        have k1 : (r.getD []).filter (fun a => decide (a.service = 0)) = r.getD [] := by
          rw [List.filter_eq_self]
          intro a ha
          simpa using hr1 a ha
        have k2 : each.flatten.filter (fun a => decide (a.service = 0)) = [] := by
          rw [List.filter_eq_nil_iff]
          intro a ha
          obtain ⟨p, hp, hpe⟩ := List.mem_map.mp (h3 a ha)
          simp only [decide_eq_true_eq]
          rw [← hpe]
          exact (hid p hp).1
        rw [k1, k2, List.append_nil]
      · intro p hp
        obtain ⟨r', h5, h6⟩ := h4 p hp
        refine ⟨r', h5, ?_⟩
        rw [← h, List.filter_append, h6]
        have k1 : (r.getD []).filter (fun a => decide (a.service = p.2.idx)) = [] := by
          rw [List.filter_eq_nil_iff]
          intro a ha
          simp only [decide_eq_true_eq]
          rw [hr1 a ha]
          exact fun h => (hid p hp).1 h.symm
        rw [k1, List.nil_append]

/-- The root with one appender and two services with one each. -/
example : (((collidingConfig u!"a" { defaultService with logging := oneFile [] }).autofix (fun _ => true)).bind
    (fun c => (c.appenders (fun _ => true)).bind (fun as => noteAppenders as 0 c.slab))) = some [[0], [1], [2]] := by decide +kernel

end Httpd
