import Verif.Props.Logging

/-!
# Which records the appenders of a section accept (C63)

`C63_filters` is about a filter and about the name of a level. Here the two are put together: the appenders that a section of the
configuration makes, and the records that they accept.
-/

namespace Httpd

open Spec

/-- The level that is asked for: the one that is named, or the most verbose one if none is. -/
def AsksFor (name : Option Str) (l : Level) : Prop :=
  (∃ s, name = some s ∧ SameText s (levelText l)) ∨ (l = .trace ∧ ∀ s, name = some s → ∀ l', ¬ SameText s (levelText l'))

/-- The records that an appender is to accept, by its part of the configuration. -/
def IsToAccept : AppenderConfig → Level → Prop
  | .console name, r => ∃ l, AsksFor name l ∧ r ∈ allowed l
  | .file name equal _ _, r => ∃ l, AsksFor name l ∧ if equal = some true then r = l else r ∈ allowed l

theorem asksFor_iff (name : Option Str) (l : Level) : AsksFor name l ↔ appenderLevel name = l := by
  obtain ⟨_, _, _, h4, h5, h6⟩ := C63_filters
  cases name with
  | none => simp [AsksFor, h6, eq_comm]
  | some s =>
    constructor
    · rintro (⟨s', hs, ht⟩ | ⟨rfl, hn⟩)
      · cases hs; exact h4 _ _ ht
      · exact h5 s (hn s rfl)
    · rintro rfl
      by_cases hx : ∃ l', SameText s (levelText l')
      · obtain ⟨l', hl'⟩ := hx
        exact .inl ⟨s, rfl, by rw [h4 _ _ hl']; exact hl'⟩
      · have hn : ∀ l', ¬ SameText s (levelText l') := fun l' hl' => hx ⟨l', hl'⟩
        exact .inr ⟨h5 s hn, fun s' hs => by cases hs; exact hn⟩

theorem initLoop_accepts (openOk : Str → Bool) (logpath name : Str) (service : Nat) (cfgs : List AppenderConfig) (idx : Nat)
    (fps : List Str) (as : List AppenderInit) (h : initLoop openOk logpath name service cfgs idx fps = some as) :
    Each2 (fun cfg a => ∀ r, a.filter.filter r = true ↔ IsToAccept cfg r) cfgs as := by
  obtain ⟨h1, h2, _⟩ := C63_filters
  induction cfgs generalizing idx fps as with
  | nil => simp only [initLoop, Option.some.injEq] at h; subst h; exact .nil
  | cons cfg rest ih =>
    cases cfg with
    | console level =>
      simp only [initLoop] at h
      cases hr : initLoop openOk logpath name service rest (idx + 1) fps with
      | none => simp [hr] at h
      | some as' =>
        simp only [hr, Option.some.injEq] at h
        subst h
        refine .cons (fun r => ?_) (ih _ _ _ hr)
        simp [IsToAccept, asksFor_iff, h1]
    | file level equal daily bufsize =>
      simp only [initLoop] at h
      generalize (if fps.contains (logPath1 logpath name (appenderLevel level)) = true then
        logPath2 logpath name (appenderLevel level) idx else logPath1 logpath name (appenderLevel level)) = path at h
      split at h
      · cases h
      · cases hr : initLoop openOk logpath name service rest (idx + 1) (path :: fps) with
        | none => simp [hr] at h
        | some as' =>
          simp only [hr, Option.some.injEq] at h
          subst h
          refine .cons (fun r => ?_) (ih _ _ _ hr)
          cases equal with
          | none => simp [IsToAccept, asksFor_iff, h1]
          | some b => cases b <;> simp [IsToAccept, asksFor_iff, h1, h2]

/-- **C63**, for a section of the configuration: unless logging is disabled there, the section makes one appender for each that it
lists, in that order, and each accepts exactly the records at the level that is asked for or more severe, or, for a file with `equal`,
those at that level. -/
theorem C63_appenders (openOk : Str → Bool) (logpath : Str) (c : LoggingConfig) (as : List AppenderInit)
    (h : c.init openOk logpath = some (some as)) :
    Each2 (fun cfg a => ∀ r, a.filter.filter r = true ↔ IsToAccept cfg r) c.appenders as := by
  simp only [LoggingConfig.init] at h
  split at h
  · simp at h
  · cases hl : initLoop openOk logpath c.serviceName c.serviceIdx c.appenders 0 [] with
    | none => simp [hl] at h
    | some as' =>
      simp only [hl, Option.map_some, Option.some.injEq] at h
      subst h
      exact initLoop_accepts _ _ _ _ _ _ _ _ hl

/-- A console at `Warn`, a file for exactly the level `info`, and a file at a level that does not exist. -/
example : ((LoggingConfig.init (fun _ => true) u!"logs"
      { LoggingConfig.default with
        appenders := [.console (some u!"Warn"), .file (some u!"info") (some true) false 0, .file (some u!"loud") none false 0] }).map
      fun as => (as.getD []).map fun a => [Level.error, .warn, .info, .debug, .trace].map a.filter.filter) =
    some [[true, true, false, false, false], [false, false, true, false, false], [true, true, true, true, true]] := by decide +kernel

end Httpd
