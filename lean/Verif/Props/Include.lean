import Verif.Spec.Include
import Verif.Props.ConfigUse
import Verif.Props.ConfigOrder
/-!
# C147, C165: loading a file and the files it includes, exactly
-/

namespace Httpd

open Spec

section
variable {U : Unicode} {p : Profile} {strict : Bool}

theorem not_says {v : Toml} {s : ServiceConfig} (h : ∀ s, ServiceConfig.de U p strict v ≠ .value s) : ¬ ServiceSays U p strict v s :=
  fun hs => h s ((C141_service_file U p strict v s).2 hs)

theorem item_adds (g : GlobFile) (i : GlobItem) (h : g.item U p strict = .value i) (a : List (Str × ServiceConfig)) :
    Adds i a ↔ FileAdds U p strict g a := by
  cases g with
  | err =>
    cases h
    exact ⟨fun h => by cases h; exact .err, fun h => by cases h; exact .err⟩
  | ok path x y t =>
    have dull : (∀ v s, t = some v → ¬ ServiceSays U p strict v s) → (Adds (.ok path x y none) a ↔ FileAdds U p strict (.ok path x y t) a) := by
      intro hno
      constructor
      · intro h
        cases h with
        | notFile => exact .notFile ..
        | noName _ _ _ _ hc => exact .noName _ _ _ _ hc
        | hidden _ _ _ _ _ h1 h2 => exact .hidden _ _ _ _ _ h1 h2
      · intro h
        cases h with
        | notFile => exact .notFile ..
        | noName _ _ _ _ hc => exact .noName _ _ _ _ hc
        | hidden _ _ _ _ _ h1 h2 => exact .hidden _ _ _ _ _ h1 h2
        | named _ _ v s _ _ hs => exact absurd hs (hno v s rfl)
        | unnamed _ _ _ v s _ _ hs => exact absurd hs (hno v s rfl)
    cases t with
    | none =>
      cases h
      exact dull (by simp)
    | some v =>
      simp only [GlobFile.item] at h
      cases hv : ServiceConfig.de U p strict v with
      | value s =>
        rw [hv] at h
        cases h
        have hs := (C141_service_file U p strict v s).1 hv
        have hu : ∀ s', ServiceSays U p strict v s' → s' = s := by
          intro s' h'
          rw [← C141_service_file, hv] at h'
          exact (Outcome.value.inj h').symm
        constructor
        · intro h
          cases h with
          | notFile => exact .notFile ..
          | noName _ _ _ _ hc => exact .noName _ _ _ _ hc
          | hidden _ _ _ _ _ h1 h2 => exact .hidden _ _ _ _ _ h1 h2
          | named _ _ _ h1 h2 h3 => exact .named _ _ _ _ h1 h2 hs h3
          | unnamed _ _ _ _ h1 h2 h3 h4 => exact .unnamed _ _ _ _ _ h1 h2 hs h3 h4
        · intro h
          cases h with
          | notFile => exact .notFile ..
          | noName _ _ _ _ hc => exact .noName _ _ _ _ hc
          | hidden _ _ _ _ _ h1 h2 => exact .hidden _ _ _ _ _ h1 h2
          | named _ _ _ s' h1 h2 hs h3 => cases hu s' hs; exact .named _ _ _ h1 h2 h3
          | unnamed _ _ _ _ s' h1 h2 hs h3 h4 => cases hu s' hs; exact .unnamed _ _ _ _ h1 h2 h3 h4
      | error =>
        rw [hv] at h
        cases h
        refine dull ?_
        intro w s e
        cases e
        exact not_says (by simp [hv])
      | panic =>
        rw [hv] at h
        have hi : i = .ok path x y none := by
          simp only at h
          repeat' split at h
          all_goals cases h
          all_goals rfl
        subst hi
        refine dull ?_
        intro w s e
        cases e
        exact not_says (by simp [hv])

theorem harmful_adds {g : GlobFile} (h : Harmful U p strict g) (a : List (Str × ServiceConfig)) : ¬ FileAdds U p strict g a := by
  obtain ⟨path, v, name, rfl, h1, h2, h3⟩ := h
  have uniq : ∀ n, LastComponent path n → n = name := by
    intro n hn
    have e1 := (lastComponent_iff path n).2 hn
    rw [(lastComponent_iff path name).2 h1] at e1
    exact (Option.some.inj e1).symm
  intro ha
  cases ha with
  | noName _ _ _ _ hc => rw [hc name h1] at h2; exact h2 rfl
  | hidden _ _ _ _ n k1 k2 => rw [uniq n k1] at k2; exact h2 k2
  | named _ _ _ _ _ _ hs => exact not_says (by simp [h3]) hs
  | unnamed _ _ _ _ _ _ _ hs => exact not_says (by simp [h3]) hs

theorem itemsOf_adds (gs : List GlobFile) (added : List (List (Str × ServiceConfig))) :
    ((itemsOf U p strict gs).2 = false ∧ Each2 Adds (itemsOf U p strict gs).1 added) ↔ Each2 (FileAdds U p strict) gs added := by
  induction gs generalizing added with
  | nil => exact ⟨fun h => by cases h.2; exact .nil, fun h => by cases h; exact ⟨rfl, .nil⟩⟩
  | cons g gs ih =>
    simp only [itemsOf]
    cases hi : g.item U p strict with
    | value i =>
      simp only
      constructor
      · rintro ⟨h1, h2⟩
        cases h2 with
        | cons ha hr => exact .cons ((item_adds g i hi _).1 ha) ((ih _).1 ⟨h1, hr⟩)
      · intro h
        cases h with
        | cons ha hr => exact ⟨((ih _).2 hr).1, .cons ((item_adds g i hi _).2 ha) ((ih _).2 hr).2⟩
    | error => exact absurd hi (item_panic strict g).1
    | panic =>
      constructor
      · rintro ⟨h, _⟩; cases h
      · intro h
        cases h with
        | cons ha _ => exact absurd ha (harmful_adds ((item_panic strict g).2.1 hi) _)

theorem itemsOf_stops (gs : List GlobFile) (added : List (List (Str × ServiceConfig))) :
    ((itemsOf U p strict gs).2 = true ∧ Each2 Adds (itemsOf U p strict gs).1 added) ↔
      ∃ gs1 g gs2, gs = gs1 ++ g :: gs2 ∧ Harmful U p strict g ∧ Each2 (FileAdds U p strict) gs1 added := by
  induction gs generalizing added with
  | nil => simp [itemsOf]
  | cons g gs ih =>
    simp only [itemsOf]
    cases hi : g.item U p strict with
    | value i =>
      simp only
      constructor
      · rintro ⟨h1, h2⟩
        cases h2 with
        | cons ha hr =>
          obtain ⟨gs1, g', gs2, rfl, h3, h4⟩ := (ih _).1 ⟨h1, hr⟩
          exact ⟨g :: gs1, g', gs2, rfl, h3, .cons ((item_adds g i hi _).1 ha) h4⟩
      · rintro ⟨gs1, g', gs2, e, h3, h4⟩
        cases gs1 with
        | nil =>
          cases e
          rw [(item_panic strict g).2.2 h3] at hi
          cases hi
        | cons x gs1 =>
          cases e
          cases h4 with
          | cons ha hr =>
            have := (ih _).2 ⟨gs1, g', gs2, rfl, h3, hr⟩
            exact ⟨this.1, .cons ((item_adds g i hi _).2 ha) this.2⟩
    | error => exact absurd hi (item_panic strict g).1
    | panic =>
      have hg := (item_panic strict g).2.1 hi
      constructor
      · rintro ⟨_, h⟩
        cases h
        exact ⟨[], g, gs, rfl, hg, .nil⟩
      · rintro ⟨gs1, g', gs2, e, h3, h4⟩
        cases gs1 with
        | nil => cases h4; exact ⟨rfl, .nil⟩
        | cons x gs1 =>
          cases e
          cases h4 with
          | cons ha _ => exact absurd ha (harmful_adds hg _)

theorem patternItems_adds (glob : Str → Option (List GlobFile)) (pats : List Str) (added : List (List (Str × ServiceConfig))) :
    ((patternItems U p strict glob pats).2 = false ∧
      ∃ items : List (List GlobItem), (patternItems U p strict glob pats).1 = items.map some ∧ Each2 Adds items.flatten added) ↔
    ∃ fss : List (List GlobFile), pats.map glob = fss.map some ∧ Each2 (FileAdds U p strict) fss.flatten added := by
  induction pats generalizing added with
  | nil =>
    constructor
    · rintro ⟨_, items, h1, h2⟩
      cases items with
      | nil => cases h2; exact ⟨[], rfl, .nil⟩
      | cons a l => simp [patternItems] at h1
    · rintro ⟨fss, h1, h2⟩
      cases fss with
      | nil => cases h2; exact ⟨rfl, [], rfl, .nil⟩
      | cons a l => simp at h1
  | cons q ql ih =>
    simp only [patternItems]
    cases hg : glob q with
    | none =>
      constructor
      · rintro ⟨_, items, h1, _⟩
        cases items <;> simp at h1
      · rintro ⟨fss, h1, _⟩
        cases fss <;> simp [hg] at h1
    | some gs =>
      simp only
      split
      · rename_i hb
        constructor
        · rintro ⟨h, _⟩; cases h
        · rintro ⟨fss, h1, h2⟩
          cases fss with
          | nil => simp at h1
          | cons a l =>
            simp only [List.map_cons, hg, List.cons.injEq, Option.some.injEq] at h1
            obtain ⟨rfl, _⟩ := h1
            rw [List.flatten_cons] at h2
            obtain ⟨x, y, rfl, hx, _⟩ := each2_split _ _ _ h2
            rw [((itemsOf_adds gs x).2 hx).1] at hb
            cases hb
      · rename_i hb
        have hb := Bool.eq_false_iff.2 hb
        constructor
        · rintro ⟨h1, items, h2, h3⟩
          cases items with
          | nil => simp at h2
          | cons a l =>
            simp only [List.map_cons, List.cons.injEq, Option.some.injEq] at h2
            obtain ⟨rfl, h2⟩ := h2
            rw [List.flatten_cons] at h3
            obtain ⟨x, y, rfl, hx, hy⟩ := each2_split _ _ _ h3
            obtain ⟨fss, h4, h5⟩ := (ih y).1 ⟨h1, l, h2, hy⟩
            refine ⟨gs :: fss, by simp [hg, h4], ?_⟩
            rw [List.flatten_cons]
            exact Each2_append ((itemsOf_adds gs x).1 ⟨hb, hx⟩) h5
        · rintro ⟨fss, h1, h2⟩
          cases fss with
          | nil => simp at h1
          | cons a l =>
            simp only [List.map_cons, hg, List.cons.injEq, Option.some.injEq] at h1
            obtain ⟨rfl, h1⟩ := h1
            rw [List.flatten_cons] at h2
            obtain ⟨x, y, rfl, hx, hy⟩ := each2_split _ _ _ h2
            obtain ⟨h3, items, h4, h5⟩ := (ih y).2 ⟨l, h1, hy⟩
            refine ⟨h3, (itemsOf U p strict gs).1 :: items, by simp [h4], ?_⟩
            rw [List.flatten_cons]
            exact Each2_append ((itemsOf_adds gs x).2 hx).2 h5

/-- The files of the patterns up to one whose reading panics. -/
def StopsAt (U : Unicode) (p : Profile) (strict : Bool) (glob : Str → Option (List GlobFile)) (pats : List Str)
    (added : List (List (Str × ServiceConfig))) : Prop :=
  ∃ (pats1 : List Str) (pat : Str) (pats2 : List Str) (fss : List (List GlobFile)) (gs1 : List GlobFile) (g : GlobFile) (gs2 : List GlobFile),
    pats = pats1 ++ pat :: pats2 ∧ pats1.map glob = fss.map some ∧ glob pat = some (gs1 ++ g :: gs2) ∧
    Harmful U p strict g ∧ Each2 (FileAdds U p strict) (fss.flatten ++ gs1) added

theorem patternItems_stops (glob : Str → Option (List GlobFile)) (pats : List Str) (added : List (List (Str × ServiceConfig))) :
    ((patternItems U p strict glob pats).2 = true ∧
      ∃ items : List (List GlobItem), (patternItems U p strict glob pats).1 = items.map some ∧ Each2 Adds items.flatten added) ↔
    StopsAt U p strict glob pats added := by
  unfold StopsAt
  induction pats generalizing added with
  | nil => simp [patternItems]
  | cons q ql ih =>
    simp only [patternItems]
    cases hg : glob q with
    | none =>
      constructor
      · rintro ⟨_, items, h1, _⟩
        cases items <;> simp at h1
      · rintro ⟨pats1, pat, pats2, fss, gs1, g, gs2, h1, h2, h3, _⟩
        cases pats1 with
        | nil => cases h1; rw [hg] at h3; cases h3
        | cons a l =>
          cases h1
          cases fss <;> simp [hg] at h2
    | some gs =>
      simp only
      split
      · rename_i hb
        constructor
        · rintro ⟨_, items, h2, h3⟩
          cases items with
          | nil => simp at h2
          | cons a l =>
            simp only [List.map_cons, List.cons.injEq, Option.some.injEq] at h2
            obtain ⟨rfl, h2⟩ := h2
            have : l = [] := by cases l <;> simp at h2 ⊢
            subst this
            simp only [List.flatten_cons, List.flatten_nil, List.append_nil] at h3
            obtain ⟨gs1, g, gs2, rfl, h4, h5⟩ := (itemsOf_stops gs added).1 ⟨hb, h3⟩
            exact ⟨[], q, ql, [], gs1, g, gs2, rfl, rfl, hg, h4, h5⟩
        · rintro ⟨pats1, pat, pats2, fss, gs1, g, gs2, h1, h2, h3, h4, h5⟩
          cases pats1 with
          | nil =>
            cases h1
            rw [hg] at h3
            cases h3
            have : fss = [] := by cases fss <;> simp at h2 ⊢
            subst this
            have := (itemsOf_stops (gs1 ++ g :: gs2) added).2 ⟨gs1, g, gs2, rfl, h4, h5⟩
            exact ⟨rfl, [_], rfl, by simpa using this.2⟩
          | cons a l =>
            cases h1
            cases fss with
            | nil => simp at h2
            | cons fs fss =>
              simp only [List.map_cons, hg, List.cons.injEq, Option.some.injEq] at h2
              obtain ⟨rfl, h2⟩ := h2
              rw [List.flatten_cons, List.append_assoc] at h5
              obtain ⟨x, y, rfl, hx, _⟩ := each2_split _ _ _ h5
              rw [((itemsOf_adds gs x).2 hx).1] at hb
              cases hb
      · rename_i hb
        have hb := Bool.eq_false_iff.2 hb
        constructor
        · rintro ⟨h1, items, h2, h3⟩
          cases items with
          | nil => simp at h2
          | cons a l =>
            simp only [List.map_cons, List.cons.injEq, Option.some.injEq] at h2
            obtain ⟨rfl, h2⟩ := h2
            rw [List.flatten_cons] at h3
            obtain ⟨x, y, rfl, hx, hy⟩ := each2_split _ _ _ h3
            obtain ⟨pats1, pat, pats2, fss, gs1, g, gs2, rfl, k2, k3, k4, k5⟩ := (ih y).1 ⟨h1, l, h2, hy⟩
            refine ⟨q :: pats1, pat, pats2, gs :: fss, gs1, g, gs2, rfl, by simp [hg, k2], k3, k4, ?_⟩
            rw [List.flatten_cons, List.append_assoc]
            exact Each2_append ((itemsOf_adds gs x).1 ⟨hb, hx⟩) k5
        · rintro ⟨pats1, pat, pats2, fss, gs1, g, gs2, h1, h2, h3, h4, h5⟩
          cases pats1 with
          | nil =>
            cases h1
            rw [hg] at h3
            cases h3
            rw [(itemsOf_panic strict _).2 ⟨g, by simp, h4⟩] at hb
            cases hb
          | cons a l =>
            cases h1
            cases fss with
            | nil => simp at h2
            | cons fs fss =>
              simp only [List.map_cons, hg, List.cons.injEq, Option.some.injEq] at h2
              obtain ⟨rfl, h2⟩ := h2
              rw [List.flatten_cons, List.append_assoc] at h5
              obtain ⟨x, y, rfl, hx, hy⟩ := each2_split _ _ _ h5
              obtain ⟨k1, items, k2, k3⟩ := (ih y).2 ⟨l, pat, pats2, fss, gs1, g, gs2, rfl, h2, h3, h4, hy⟩
              refine ⟨k1, (itemsOf U p strict gs).1 :: items, by rw [List.map_cons, ← k2], ?_⟩
              rw [List.flatten_cons]
              exact Each2_append ((itemsOf_adds gs x).2 hx).2 k3

theorem patterns_eq (f : ConfigFile) : f.patterns = patternsOf f.include f.includes := by
  unfold ConfigFile.patterns patternsOf
  cases f.include <;> simp

theorem services_keys {v : Toml} {f : ConfigFile} (h : FileSays U p strict v f)
    (hnd : ∀ ss, setting [u!"services", u!"Services"] 9 v = some (.table ss) → (ss.map (·.1)).Nodup) :
    (f.config.services.map (·.1)).Nodup := by
  have := h.services
  cases hs : setting [u!"services", u!"Services"] 9 v with
  | none => rw [hs] at this; rw [show f.config.services = [] from this]; simp
  | some w =>
    rw [hs] at this
    obtain ⟨es, rfl, he⟩ := this
    rw [← Each2_keys he]
    exact hnd es hs

/-- **C165.** When a configuration file is accepted, exactly: it can be read; its directory can be entered; every pattern it names is
one; every file they find adds a service or nothing; no name is used twice; and every service has a name that is not blank and, if it
serves files, a root that exists. -/
theorem C165_accepted (pathExists chdir : Str → Bool) (glob : Str → Option (List GlobFile))
    (order : List (Str × ServiceConfig) → List (Str × ServiceConfig)) (horder : ∀ l, (order l).Perm l) (v : Toml)
    (hnd : ∀ ss, setting [u!"services", u!"Services"] 9 v = some (.table ss) → (ss.map (·.1)).Nodup) :
    (∃ c, loadFile U p strict pathExists chdir glob order (some v) = .value c) ↔
      ∃ (f : ConfigFile) (fss : List (List GlobFile)) (added : List (List (Str × ServiceConfig))), FileSays U p strict v f ∧ (f.workdir = [] ∨ chdir f.workdir = true) ∧
        (patternsOf f.include f.includes).map glob = fss.map some ∧ Each2 (FileAdds U p strict) fss.flatten added ∧
        ((f.config.services ++ added.flatten).map (·.1)).Nodup ∧
        ∀ q ∈ f.config.services ++ added.flatten, trimUnicode q.1 ≠ [] ∧
          ∀ root, q.2.service = .fileSystem root → root ≠ [] ∧ pathExists root = true := by
  constructor
  · rintro ⟨c, h⟩
    obtain ⟨f, hf, hw, hp, hl⟩ := (loadFile_exact U p strict pathExists chdir glob order v c).1 h
    have hs := (C141_file U p strict v f).1 hf
    obtain ⟨_, all, e, _, hall, hok⟩ := (C86_exactly pathExists _ true _ order horder).1 ⟨c, hl⟩
    cases e
    obtain ⟨items, added, h1, h2, rfl, h3⟩ := (C58_exactly _ _ _ (services_keys hs hnd)).1 hall
    obtain ⟨fss, h4, h5⟩ := (patternItems_adds glob f.patterns added).1 ⟨hp, items, h1, h2⟩
    rw [patterns_eq] at h4
    exact ⟨f, fss, added, hs, hw, h4, h5, h3, hok⟩
  · rintro ⟨f, fss, added, hs, hw, h4, h5, h3, hok⟩
    rw [← patterns_eq] at h4
    obtain ⟨hp, items, h1, h2⟩ := (patternItems_adds glob f.patterns added).2 ⟨fss, h4, h5⟩
    have hall := (C58_exactly (patternItems U p strict glob f.patterns).1 _ _ (services_keys hs hnd)).2 ⟨items, added, h1, h2, rfl, h3⟩
    obtain ⟨c, hl⟩ := (C86_exactly pathExists (some f.config) true _ order horder).2 ⟨f.config, _, rfl, rfl, hall, hok⟩
    exact ⟨c, (loadFile_exact U p strict pathExists chdir glob order v c).2 ⟨f, (C141_file U p strict v f).2 hs, hw, hp, hl⟩⟩

/-- **C147**, exactly when loading panics: at the file itself, or at a file found by one of its patterns, before which every pattern is
one and every file adds a service or nothing, without using a name twice; what follows does not matter. -/
theorem C147_exactly_partial (pathExists chdir : Str → Bool) (glob : Str → Option (List GlobFile))
    (order : List (Str × ServiceConfig) → List (Str × ServiceConfig)) (horder : ∀ l, (order l).Perm l) (v : Toml)
    (hnd : ∀ ss, setting [u!"services", u!"Services"] 9 v = some (.table ss) → (ss.map (·.1)).Nodup) :
    loadFile U p strict pathExists chdir glob order (some v) = .panic ↔
      ConfigFile.de U p strict v = .panic ∨
      ∃ (f : ConfigFile) (added : List (List (Str × ServiceConfig))), FileSays U p strict v f ∧ (f.workdir = [] ∨ chdir f.workdir = true) ∧
        StopsAt U p strict glob (patternsOf f.include f.includes) added ∧
        ((f.config.services ++ added.flatten).map (·.1)).Nodup := by
  simp only [loadFile]
  cases hv : ConfigFile.de U p strict v with
  | error =>
    simp only [Outcome.bind, reduceCtorEq, false_or, false_iff]
    rintro ⟨f, _, hs, _⟩
    rw [← C141_file, hv] at hs
    cases hs
  | panic => simp [Outcome.bind]
  | value f =>
    have hs := (C141_file U p strict v f).1 hv
    have hu : ∀ f', FileSays U p strict v f' → f' = f := by
      intro f' h'
      rw [← C141_file, hv] at h'
      exact (Outcome.value.inj h').symm
    have hw : (!f.workdir.isEmpty && !chdir f.workdir) = true ↔ ¬ (f.workdir = [] ∨ chdir f.workdir = true) := by
      cases chdir f.workdir <;> simp
    simp only [Outcome.bind, reduceCtorEq, false_or]
    split
    · rename_i h
      simp only [reduceCtorEq, false_iff]
      rintro ⟨f', _, h1, h2, _⟩
      cases hu f' h1
      exact hw.1 h h2
    · rename_i h
      rw [hw, Classical.not_not] at h
      split
      · rename_i hp
        constructor
        · intro hpan
          cases hi : includeAll (patternItems U p strict glob f.patterns).1 f.config.services with
          | error => rw [hi] at hpan; cases hpan
          | panic => exact absurd hi (C58_include _ _).1
          | value all =>
            obtain ⟨items, added, h1, h2, rfl, h3⟩ := (C58_exactly _ _ _ (services_keys hs hnd)).1 hi
            have := (patternItems_stops glob f.patterns added).1 ⟨hp, items, h1, h2⟩
            rw [patterns_eq] at this
            exact ⟨f, added, hs, h, this, h3⟩
        · rintro ⟨f', added, h1, h2, h3, h4⟩
          cases hu f' h1
          rw [← patterns_eq] at h3
          obtain ⟨_, items, k1, k2⟩ := (patternItems_stops glob f.patterns added).2 h3
          rw [(C58_exactly (patternItems U p strict glob f.patterns).1 _ _ (services_keys hs hnd)).2 ⟨items, added, k1, k2, rfl, h4⟩]
      · rename_i hp
        constructor
        · intro hpan
          exact absurd hpan (C86_load pathExists _ true _ order horder).1
        · rintro ⟨f', added, h1, h2, h3, h4⟩
          cases hu f' h1
          rw [← patterns_eq] at h3
          exact absurd ((patternItems_stops glob f.patterns added).2 h3).1 hp

theorem mem_patterns {v : Toml} {f : ConfigFile} (h : FileSays U p strict v f) (pat : Str) :
    pat ∈ patternsOf f.include f.includes ↔ HasPattern v pat := by
  have h1 := h.incl
  have h2 := h.includes
  have e1 : (setting [u!"include", u!"Include"] 7 v = some (.str pat) ∧ pat ≠ []) ↔ (pat = f.include ∧ f.include ≠ []) := by
    cases hs : setting [u!"include", u!"Include"] 7 v with
    | none =>
      rw [hs] at h1
      have : f.include = [] := h1
      simp [this]
    | some w =>
      rw [hs] at h1
      have : w = .str f.include := h1
      subst this
      simp only [Option.some.injEq, Toml.str.injEq]
      constructor
      · rintro ⟨rfl, h⟩; exact ⟨rfl, h⟩
      · rintro ⟨rfl, h⟩; exact ⟨rfl, h⟩
  have e2 : (∃ vs, setting [u!"includes", u!"Includes"] 8 v = some (.arr vs) ∧ Toml.str pat ∈ vs) ↔ pat ∈ f.includes := by
    cases hs : setting [u!"includes", u!"Includes"] 8 v with
    | none =>
      rw [hs] at h2
      have : f.includes = [] := h2
      simp [this]
    | some w =>
      rw [hs] at h2
      obtain ⟨vs, rfl, he⟩ := h2
      simp only [Option.some.injEq, Toml.arr.injEq, exists_eq_left']
      constructor
      · intro hm
        obtain ⟨b, hb, e⟩ := Each2_left he _ hm
        cases e
        exact hb
      · intro hm
        obtain ⟨a, ha, e⟩ := Each2_right he _ hm
        cases e
        exact ha
  unfold HasPattern
  rw [e1, e2]
  unfold patternsOf
  split
  · rename_i h; simp [h]
  · rename_i h; simp [h]

theorem of_map_some {α : Type} {pats : List Str} {glob : Str → Option (List α)} {fss : List (List α)} (h : pats.map glob = fss.map some) :
    (∀ pat ∈ pats, ∃ gs ∈ fss, glob pat = some gs) ∧ ∀ gs ∈ fss, ∃ pat ∈ pats, glob pat = some gs := by
  induction pats generalizing fss with
  | nil => cases fss <;> simp at h ⊢
  | cons q ql ih =>
    cases fss with
    | nil => simp at h
    | cons gs fss =>
      simp only [List.map_cons, List.cons.injEq] at h
      obtain ⟨i1, i2⟩ := ih h.2
      constructor
      · intro pat hp
        rcases List.mem_cons.1 hp with rfl | hp
        · exact ⟨gs, List.mem_cons_self, h.1⟩
        · obtain ⟨x, hx, e⟩ := i1 pat hp
          exact ⟨x, List.mem_cons_of_mem _ hx, e⟩
      · intro x hx
        rcases List.mem_cons.1 hx with rfl | hx
        · exact ⟨q, List.mem_cons_self, h.1⟩
        · obtain ⟨pat, hp, e⟩ := i2 x hx
          exact ⟨pat, List.mem_cons_of_mem _ hp, e⟩

/-- What a loaded configuration is made of. -/
theorem loaded {pathExists chdir : Str → Bool} {glob : Str → Option (List GlobFile)}
    {order : List (Str × ServiceConfig) → List (Str × ServiceConfig)} {v : Toml} {c : Config}
    (hnd : ∀ ss, setting [u!"services", u!"Services"] 9 v = some (.table ss) → (ss.map (·.1)).Nodup)
    (h : loadFile U p strict pathExists chdir glob order (some v) = .value c) :
    ∃ (f : ConfigFile) (pats : List (Option (List GlobItem))) (fss : List (List GlobFile)) (added : List (List (Str × ServiceConfig))),
      FileSays U p strict v f ∧ Config.load pathExists (some f.config) true pats order = .value c ∧
      includeAll pats f.config.services = .value (f.config.services ++ added.flatten) ∧
      (patternsOf f.include f.includes).map glob = fss.map some ∧ Each2 (FileAdds U p strict) fss.flatten added ∧
      ((f.config.services ++ added.flatten).map (·.1)).Nodup := by
  obtain ⟨f, hf, hw, hp, hl⟩ := (loadFile_exact U p strict pathExists chdir glob order v c).1 h
  have hs := (C141_file U p strict v f).1 hf
  cases hi : includeAll (patternItems U p strict glob f.patterns).1 f.config.services with
  | error => simp [Config.load, hi] at hl
  | panic => simp [Config.load, hi] at hl
  | value all =>
    obtain ⟨items, added, h1, h2, rfl, h3⟩ := (C58_exactly _ _ _ (services_keys hs hnd)).1 hi
    obtain ⟨fss, h4, h5⟩ := (patternItems_adds glob f.patterns added).1 ⟨hp, items, h1, h2⟩
    rw [patterns_eq] at h4
    exact ⟨f, _, fss, added, hs, hl, hi, h4, h5, h3⟩

/-- The services before the defaults are filled in are those that the file offers. -/
theorem mem_services {glob : Str → Option (List GlobFile)} {v : Toml} {f : ConfigFile} {fss : List (List GlobFile)}
    {added : List (List (Str × ServiceConfig))} (hf : FileSays U p strict v f)
    (hg : (patternsOf f.include f.includes).map glob = fss.map some) (ha : Each2 (FileAdds U p strict) fss.flatten added) :
    (∀ k sv, Offers glob v k sv → ∃ s0 s, ServiceSays U p strict sv s0 ∧ (k, s) ∈ f.config.services ++ added.flatten ∧
      (s = s0 ∨ s = { s0 with name := k })) ∧
    (∀ k s, (k, s) ∈ f.config.services ++ added.flatten → ∃ sv s0, Offers glob v k sv ∧ ServiceSays U p strict sv s0 ∧
      (s = s0 ∨ s = { s0 with name := k })) := by
  obtain ⟨m1, m2⟩ := of_map_some hg
  have uniq : ∀ path n m, LastComponent path n → LastComponent path m → n = m := by
    intro path n m hn hm
    have e1 := (lastComponent_iff path n).2 hn
    rw [(lastComponent_iff path m).2 hm] at e1
    exact (Option.some.inj e1).symm
  constructor
  · intro k sv ho
    cases ho with
    | listed ss _ _ h1 h2 =>
      have hs := hf.services
      rw [h1] at hs
      obtain ⟨_, e, he⟩ := hs
      cases e
      obtain ⟨⟨k', s⟩, h3, h4, h5⟩ := Each2_left he _ h2
      simp only at h4 h5
      subst h4
      exact ⟨s, s, h5, List.mem_append_left _ h3, .inl rfl⟩
    | named pat gs path name n _ h1 h2 h3 h4 h5 h6 h7 =>
      obtain ⟨gs', k1, k2⟩ := m1 pat ((mem_patterns hf pat).2 h1)
      rw [h2] at k2
      cases k2
      obtain ⟨a, hm, hadd⟩ := Each2_left ha _ (List.mem_flatten.2 ⟨gs, k1, h3⟩)
      cases hadd with
      | noName _ _ _ _ hc => rw [hc name h4] at h5; exact absurd rfl h5
      | hidden _ _ _ _ n' j1 j2 => rw [uniq _ _ _ j1 h4] at j2; exact absurd j2 h5
      | named _ _ _ s _ _ hs ht =>
        have hn := hs.name
        rw [h6] at hn
        have hn : s.name = n := (Toml.str.inj hn).symm
        subst hn
        exact ⟨s, _, hs, List.mem_append_right _ (List.mem_flatten.2 ⟨_, hm, List.mem_singleton.2 rfl⟩), .inr rfl⟩
      | unnamed _ _ _ _ s _ _ hs ht =>
        have hn := hs.name
        rw [h6] at hn
        have hn : s.name = n := (Toml.str.inj hn).symm
        subst hn
        exact absurd ht h7
    | unnamed pat gs path name n _ _ h1 h2 h3 h4 h5 h6 h7 h8 =>
      obtain ⟨gs', k1, k2⟩ := m1 pat ((mem_patterns hf pat).2 h1)
      rw [h2] at k2
      cases k2
      have given : ∀ s, ServiceSays U p strict sv s → s.name = n := by
        intro s hs
        have hn := hs.name
        cases hset : setting [u!"name", u!"Name"] 0 sv with
        | none =>
          rw [hset] at hn h6
          exact (show s.name = [] from hn).trans (show n = [] from h6).symm
        | some w =>
          rw [hset] at hn h6
          have e1 : w = .str s.name := hn
          have e2 : w = .str n := h6
          rw [e1] at e2
          exact Toml.str.inj e2
      obtain ⟨a, hm, hadd⟩ := Each2_left ha _ (List.mem_flatten.2 ⟨gs, k1, h3⟩)
      cases hadd with
      | noName _ _ _ _ hc => rw [hc name h4] at h5; exact absurd rfl h5
      | hidden _ _ _ _ n' j1 j2 => rw [uniq _ _ _ j1 h4] at j2; exact absurd j2 h5
      | named _ _ _ s _ _ hs ht => rw [given s hs] at ht; exact absurd h7 ht
      | unnamed _ name' stem _ s j1 _ hs ht hst =>
        rw [uniq _ _ _ j1 h4] at hst
        cases stem_unique hst h8
        exact ⟨s, _, hs, List.mem_append_right _ (List.mem_flatten.2 ⟨_, hm, List.mem_singleton.2 rfl⟩), .inr rfl⟩
  · intro k s hm
    rcases List.mem_append.1 hm with hm | hm
    · have hs := hf.services
      cases hset : setting [u!"services", u!"Services"] 9 v with
      | none => rw [hset] at hs; rw [show f.config.services = [] from hs] at hm; cases hm
      | some w =>
        rw [hset] at hs
        obtain ⟨es, rfl, he⟩ := hs
        obtain ⟨⟨k', sv⟩, h3, h4, h5⟩ := Each2_right he _ hm
        simp only at h4 h5
        subst h4
        exact ⟨sv, s, .listed es _ _ hset h3, h5, .inl rfl⟩
    · obtain ⟨a, h1, h2⟩ := List.mem_flatten.1 hm
      obtain ⟨g, h3, hadd⟩ := Each2_right ha _ h1
      obtain ⟨gs, h4, h5⟩ := List.mem_flatten.1 h3
      obtain ⟨pat, h6, h7⟩ := m2 gs h4
      have h6 := (mem_patterns hf pat).1 h6
      cases hadd with
      | named path name w s0 j1 j2 hs ht =>
        cases List.mem_singleton.1 h2
        have hn := hs.name
        cases hset : setting [u!"name", u!"Name"] 0 w with
        | none =>
          rw [hset] at hn
          rw [show s0.name = [] from hn] at ht
          exact absurd rfl ht
        | some x =>
          rw [hset] at hn
          have hn : x = .str s0.name := hn
          subst hn
          exact ⟨w, s0, .named pat gs path name s0.name w h6 h7 h5 j1 j2 hset ht, hs, .inr rfl⟩
      | unnamed path name stem w s0 j1 j2 hs ht hst =>
        cases List.mem_singleton.1 h2
        exact ⟨w, s0, .unnamed pat gs path name s0.name _ w h6 h7 h5 j1 j2 hs.name ht hst, hs, .inr rfl⟩
      | err => cases h2
      | notFile => cases h2
      | noName => cases h2
      | hidden => cases h2

/-- **C165.** Which services there are: exactly those that the file or a file it includes offers, each under its name and of its kind;
only if there is none, one named `helloworld`. -/
theorem C165_services (pathExists chdir : Str → Bool) (glob : Str → Option (List GlobFile))
    (order : List (Str × ServiceConfig) → List (Str × ServiceConfig)) (horder : ∀ l, (order l).Perm l) (v : Toml)
    (hnd : ∀ ss, setting [u!"services", u!"Services"] 9 v = some (.table ss) → (ss.map (·.1)).Nodup) (c : Config)
    (h : loadFile U p strict pathExists chdir glob order (some v) = .value c) :
    (c.services.map (·.1)).Nodup ∧
    (∀ k sv, Offers glob v k sv → ∃ s, (k, s) ∈ c.services ∧ Given (KindSays strict) .helloWorld (setting [u!"service", u!"Service"] 2 sv) s.service) ∧
    (∀ k s, (k, s) ∈ c.services → (∃ sv, Offers glob v k sv) ∨
      ((∀ k sv, ¬ Offers glob v k sv) ∧ k = u!"helloworld" ∧ s.service = .helloWorld ∧ s.tcp.addr = u!"0.0.0.0:8080")) := by
  obtain ⟨f, pats, fss, added, hf, hl, hall, hg, ha, hdist⟩ := loaded hnd h
  obtain ⟨o1, o2⟩ := mem_services hf hg ha
  obtain ⟨all, hall', os, hperm, hfix⟩ := load_services pathExists f.config c pats order horder hl
  rw [hall] at hall'
  cases hall'
  have hkeys : c.services.map (·.1) = os.map (·.1) := by
    clear hl h hperm
    generalize c.services = cs at hfix
    induction hfix with
    | nil => rfl
    | cons h1 _ ih => simp [h1.1, ih]
  have hsvc : ∀ q ∈ os, ∃ s, (q.1, s) ∈ c.services ∧ s.service = q.2.service := by
    intro q hq
    obtain ⟨⟨k, s⟩, h1, h2, h3, _⟩ := Each2_left hfix q hq
    simp only at h2 h3
    subst h2
    exact ⟨s, h1, h3⟩
  refine ⟨?_, ?_, ?_⟩
  · rw [hkeys]
    refine (hperm.map _).nodup_iff.2 ?_
    split
    · simp
    · exact hdist
  · intro k sv ho
    obtain ⟨s0, s, h1, h2, h3⟩ := o1 k sv ho
    rw [if_neg (by have := List.length_pos_of_mem h2; omega)] at hperm
    obtain ⟨s', k1, k2⟩ := hsvc (k, s) (hperm.mem_iff.2 h2)
    refine ⟨s', k1, ?_⟩
    rw [k2]
    rcases h3 with rfl | rfl <;> exact h1.service
  · intro k s hs
    obtain ⟨⟨k', s1⟩, h1, h2, h3, h4, _⟩ := Each2_right hfix (k, s) hs
    simp only at h2 h3 h4
    subst h2
    have hm := hperm.mem_iff.1 h1
    split at hm
    · rename_i hlen
      right
      refine ⟨?_, ?_⟩
      · intro k2 sv ho
        obtain ⟨_, s2, _, h5, _⟩ := o1 k2 sv ho
        have := List.length_pos_of_mem h5
        omega
      · cases List.mem_singleton.1 hm
        exact ⟨rfl, h3, h4⟩
    · obtain ⟨sv, _, ho, _⟩ := o2 k s1 hm
      exact .inl ⟨sv, ho⟩

/-- **C143**, what holds, for the services of included files too: a certificate or a key under exactly `tls`, `cert` and `key` of a
service is used on all its connections, or nobody is served. -/
theorem C143_offered_partial (pathExists chdir : Str → Bool) (glob : Str → Option (List GlobFile))
    (order : List (Str × ServiceConfig) → List (Str × ServiceConfig)) (horder : ∀ l, (order l).Perm l) (v : Toml)
    (hnd : ∀ ss, setting [u!"services", u!"Services"] 9 v = some (.table ss) → (ss.map (·.1)).Nodup) (c : Config)
    (h : loadFile U p strict pathExists chdir glob order (some v) = .value c) (k : Str) (sv tv lv : Toml) (hk : Offers glob v k sv)
    (htv : setting [u!"tcp", u!"Tcp"] 4 sv = some tv) (hlv : setting [u!"tls"] 1 tv = some lv) (t : Str) (ht : t ≠ [])
    (hck : setting [u!"cert"] 0 lv = some (.str t) ∨ setting [u!"key"] 1 lv = some (.str t)) (s : ServiceConfig) (hs : (k, s) ∈ c.services)
    {C K : Type} (x : World C K) (bindOk : Bool) (es : List AcceptEvent) :
    ∀ w ∈ (s.run x bindOk es).1, w.served.encrypted = true := by
  obtain ⟨f, pats, fss, added, hf, hl, hall, hg, ha, hdist⟩ := loaded hnd h
  obtain ⟨sx, s0, hsays, hmem, hsx⟩ := (mem_services hf hg ha).1 k sv hk
  obtain ⟨all, hall', os, hperm, hfix⟩ := load_services pathExists f.config c pats order horder hl
  rw [hall] at hall'
  cases hall'
  rw [if_neg (by have := List.length_pos_of_mem hmem; omega)] at hperm
  have htls : s0.tcp.tls.cert ≠ [] ∨ s0.tcp.tls.key ≠ [] := by
    have e : s0.tcp = sx.tcp := by rcases hsx with rfl | rfl <;> rfl
    rw [e]
    have h1 := hsays.tcp
    rw [htv] at h1
    have h2 := TcpSays.tls h1
    rw [hlv] at h2
    rcases hck with hc | hc
    · have h3 := TlsSays.cert h2
      rw [hc] at h3
      cases h3
      exact .inl ht
    · have h3 := TlsSays.key h2
      rw [hc] at h3
      cases h3
      exact .inr ht
  intro w hw
  obtain ⟨q, hq2, h1, _, _, h4, h5⟩ := Each2_right hfix (k, s) hs
  obtain ⟨k', s1⟩ := q
  simp only at h1 h4 h5
  subst h1
  have hsame : s1 = s0 := eq_of_key_nodup hdist (hperm.mem_iff.1 hq2) hmem
  subst hsame
  obtain ⟨_, hm⟩ := run_mem x bindOk es s w hw
  refine ((C35_tls_never_dropped x.tls s.tcp.tls.cert s.tcp.tls.key s.tcp.tls.timeout s.service.kind bindOk true es).1 ?_).2 _ hm |>.1
  rw [h4, h5]
  exact htls

/-! ## Cases meeting the hypotheses -/

/-- A file with one service and a pattern. -/
def includingFile : Toml :=
  .table [(u!"include", .str u!"c/*"), (u!"services", .table [(u!"a", .table [(u!"tcp", .table [(u!"addr", .str u!"0.0.0.0:1")])])])]

/-- What the pattern finds: a hidden file whose reading panics, a service without a name, a directory. -/
def includedFiles : Str → Option (List GlobFile) := fun pat =>
  if pat = u!"c/*" then
    some [.ok u!"c/.old.toml" true true (some (.table [(u!"http", .table [(u!"max_body_size", .str u!"large")])])),
      .ok u!"c/web.toml" true true (some (.table [(u!"tcp", .table [(u!"addr", .str u!"0.0.0.0:2")])])), .ok u!"c/d" false false none]
  else none

example : addresses (loadFile asciiUnicode .release true (fun _ => true) (fun _ => true) includedFiles id (some includingFile)) =
    some [(u!"a", u!"0.0.0.0:1"), (u!"web", u!"0.0.0.0:2")] := by decide +kernel

/-- The services it offers, in the sense of C165: the one it lists and the one of the file, under the name of the file. -/
example : (∃ sv, Offers includedFiles includingFile u!"a" sv) ∧ ∃ sv, Offers includedFiles includingFile u!"web" sv := by
  refine ⟨⟨_, .listed _ _ _ rfl (List.mem_cons_self ..)⟩, .table [(u!"tcp", .table [(u!"addr", .str u!"0.0.0.0:2")])],
    .unnamed u!"c/*" _ u!"c/web.toml" u!"web.toml" [] _ _ (.inl ⟨rfl, by decide⟩) rfl (List.mem_cons_of_mem _ (List.mem_cons_self ..)) ?_ (by decide) rfl
      (by decide) (.inr ⟨u!"toml", by decide, by decide, by decide⟩)⟩
  exact ⟨by decide, by decide, by decide, u!"c/", [], by decide, .inr (by decide), .nil⟩

/-- Where the reading of the second file panics. A file before it that has the name of a service of the main file is an error that comes
first. -/
def harmfulFiles (name : Str) : Str → Option (List GlobFile) := fun _ =>
  some [.ok u!"c/x.toml" true true (some (.table [(u!"name", .str name)])),
    .ok u!"c/y.toml" true true (some (.table [(u!"http", .table [(u!"max_body_size", .str u!"large")])]))]

example : (match loadFile asciiUnicode .release true (fun _ => true) (fun _ => true) (harmfulFiles u!"b") id (some includingFile) with
      | .panic => true | _ => false) = true ∧
    (match loadFile asciiUnicode .release true (fun _ => true) (fun _ => true) (harmfulFiles u!"a") id (some includingFile) with
      | .error => true | _ => false) = true := by decide +kernel

end

end Httpd
