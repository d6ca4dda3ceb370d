import Verif.Props.ConfigFile
/-!
# Which of several mistakes of a configuration file counts (C147)
-/

namespace Httpd
open Spec

/-- The position of the setting that a key names. -/
def placeOf (fs : List (List Str)) (k : Str) : Option Nat := fs.findIdx? (·.contains k)

theorem onlyField_get (n i j : Nat) (x : Toml) : (onlyField n i x)[j]? = if j < n then some (if j = i then some x else none) else none := by
  simp only [onlyField, List.getElem?_map]
  by_cases h : j < n
  · simp [h]
  · simp [h]

/-- A key names one setting only. -/
theorem place_unique {fs : List (List Str)} (hn : fs.flatten.Nodup) {k : Str} {i j : Nat} {f : List Str} (hi : placeOf fs k = some i)
    (hj : fs[j]? = some f) (hk : k ∈ f) : j = i := by
  rw [placeOf, List.findIdx?_eq_some_iff_getElem] at hi
  obtain ⟨hlt, h1, h2⟩ := hi
  obtain ⟨hjl, rfl⟩ := List.getElem?_eq_some_iff.1 hj
  rw [List.Nodup, List.pairwise_flatten, List.pairwise_iff_getElem (l := fs)] at hn
  rcases Nat.lt_trichotomy i j with h | h | h
  · exact absurd hk (fun hk => hn.2 i j hlt hjl h k (by simpa using h1) k hk rfl)
  · exact h.symm
  · exact absurd hk (fun hk => by simpa [hk] using h2 j h)

/-- A file with one entry. -/
theorem settings_one {fs : List (List Str)} (hn : fs.flatten.Nodup) {k : Str} {w : Toml} {i : Nat} (hi : placeOf fs k = some i) :
    settingsFrom (.table [(k, w)]) fs 0 = onlyField fs.length i w := by
  apply List.ext_getElem?
  intro j
  rw [settingsFrom_get, onlyField_get]
  by_cases hj : j < fs.length
  · rw [List.getElem?_eq_getElem hj]
    simp only [Option.map_some, hj, ↓reduceIte, setting]
    by_cases hji : j = i
    · subst hji
      have := hi
      rw [placeOf, List.findIdx?_eq_some_iff_getElem] at this
      obtain ⟨_, h1, _⟩ := this
      simp only [List.contains_eq_mem, decide_eq_true_eq] at h1
      simp [h1]
    · have : k ∉ fs[j] := fun hk => hji (place_unique hn hi (List.getElem?_eq_getElem hj) hk)
      simp [this, hji]
  · simp [hj]

theorem section_one (fs : List (List Str)) (k : Str) (w : Toml) : TomlSection fs (.table [(k, w)]) := by
  intro names _
  by_cases h : names.contains k = true
  · simp only [List.filter_cons, h, ↓reduceIte, List.filter_nil, List.length_cons, List.length_nil]; omega
  · simp only [List.filter_cons, h, List.filter_nil]; simp

theorem deStruct_one {α : Type} {fs : List (List Str)} (hn : fs.flatten.Nodup) (make : List (Option Toml) → Outcome α) {k : Str} (w : Toml) {i : Nat}
    (hi : placeOf fs k = some i) : deStruct fs make (.table [(k, w)]) = make (onlyField fs.length i w) := by
  have hf : fieldsFrom (.table [(k, w)]) fs 0 = .value (onlyField fs.length i w) :=
    (fieldsFrom_table _ _ _ _).2 ⟨section_one fs k w, (settings_one hn hi).symm⟩
  have hi' : fs.findIdx? (·.contains k) = some i := hi
  simp only [deStruct, hf, Outcome.bind, firstMistake, hi', List.contains_nil, Bool.false_eq_true, ↓reduceIte]
  cases make (onlyField fs.length i w) <;> rfl

/-! ## Structs that are read field by field -/

/-- `make` succeeds exactly if what is there passes. -/
def ByField {α : Type} (cs : List (Nat × (Toml → Prop))) (make : List (Option Toml) → Outcome α) : Prop :=
  ∀ xs, (∃ a, make xs = .value a) ↔ ∀ c ∈ cs, ∀ x, xs[c.1]? = some (some x) → c.2 x

theorem byField_value {α : Type} (a : α) : ByField [] (fun _ => .value a) := by
  intro xs
  simp

theorem byField_bind {α β : Type} {cs : List (Nat × (Toml → Prop))} {g : β → List (Option Toml) → Outcome α} (h : ∀ b, ByField cs (g b)) (i : Nat) (d : β)
    (de : Toml → Outcome β) : ByField ((i, fun x => ∃ b, de x = .value b) :: cs) (fun xs => (field xs i d de).bind (fun b => g b xs)) := by
  intro xs
  simp only [Outcome.bind_value, List.mem_cons, forall_eq_or_imp]
  constructor
  · rintro ⟨a, b, hb, ha⟩
    refine ⟨fun x hx => ⟨b, ?_⟩, (h b xs).1 ⟨a, ha⟩⟩
    simpa [field, hx] using hb
  · rintro ⟨h1, h2⟩
    have : ∃ b, field xs i d de = .value b := by
      unfold field
      split
      · rename_i v hv; exact h1 v hv
      · exact ⟨d, rfl⟩
    obtain ⟨b, hb⟩ := this
    obtain ⟨a, ha⟩ := (h b xs).2 h2
    exact ⟨a, b, hb, ha⟩

/-- What passes together passes alone. -/
theorem byField_alone {α : Type} {cs : List (Nat × (Toml → Prop))} {make : List (Option Toml) → Outcome α} (h : ByField cs make) {xs : List (Option Toml)} {a : α}
    (ha : make xs = .value a) {i : Nat} {x : Toml} (hx : xs[i]? = some (some x)) (n : Nat) : ∃ b, make (onlyField n i x) = .value b := by
  refine (h _).2 fun c hc y hy => ?_
  rw [onlyField_get] at hy
  split at hy
  · simp only [Option.some.injEq] at hy
    split at hy
    · rename_i hci
      cases hy
      exact (h xs).1 ⟨a, ha⟩ c hc x (by rw [hci]; exact hx)
    · cases hy
  · cases hy

/-- Entries without mistakes are passed over. -/
theorem firstMistake_skip {α : Type} (fs : List (List Str)) (make : List (Option Toml) → Outcome α) (a l : List (Str × Toml)) (seen : List Nat)
    (h1 : ∀ e ∈ a, ∀ i, placeOf fs e.1 = some i → i ∉ seen ∧ ∃ b, make (onlyField fs.length i e.2) = .value b)
    (h2 : (a.filterMap (fun e => placeOf fs e.1)).Nodup) :
    firstMistake fs make (a ++ l) seen = firstMistake fs make l ((a.filterMap (fun e => placeOf fs e.1)).reverse ++ seen) := by
  induction a generalizing seen with
  | nil => rfl
  | cons e a ih =>
    obtain ⟨k, x⟩ := e
    cases hp : placeOf fs k with
    | none =>
      have hp' : fs.findIdx? (·.contains k) = none := hp
      simp only [List.cons_append, firstMistake, hp', List.filterMap_cons, hp]
      simp only [List.filterMap_cons, hp] at h2
      exact ih seen (fun e he => h1 e (List.mem_cons_of_mem _ he)) h2
    | some i =>
      have hp' : fs.findIdx? (·.contains k) = some i := hp
      obtain ⟨hs, b, hb⟩ := h1 (k, x) List.mem_cons_self i hp
      simp only [List.filterMap_cons, hp, List.nodup_cons] at h2
      have hc : seen.contains i = false := by simpa using hs
      simp only [List.cons_append, firstMistake, hp', hc, Bool.false_eq_true, ↓reduceIte, hb, List.filterMap_cons, hp, List.reverse_cons, List.append_assoc]
      refine ih (i :: seen) (fun e he j hj => ⟨?_, (h1 e (List.mem_cons_of_mem _ he) j hj).2⟩) h2.2
      rw [List.mem_cons, not_or]
      refine ⟨fun hji => h2.1 ?_, (h1 e (List.mem_cons_of_mem _ he) j hj).1⟩
      rw [← hji]
      exact List.mem_filterMap.2 ⟨e, he, hj⟩

theorem place_mem {fs : List (List Str)} {k : Str} {i : Nat} (h : placeOf fs k = some i) : ∃ f, fs[i]? = some f ∧ k ∈ f := by
  rw [placeOf, List.findIdx?_eq_some_iff_getElem] at h
  obtain ⟨hlt, h1, _⟩ := h
  exact ⟨_, List.getElem?_eq_getElem hlt, by simpa using h1⟩

/-- In a section that is read no setting has two entries. -/
theorem section_places {fs : List (List Str)} (hn : fs.flatten.Nodup) {a : List (Str × Toml)} (h : TomlSection fs (.table a)) :
    (a.filterMap (fun e => placeOf fs e.1)).Nodup := by
  have h : ∀ names ∈ fs, (a.filter (fun e => names.contains e.1)).length ≤ 1 := h
  induction a with
  | nil => simp
  | cons e a ih =>
    have htail : (a.filterMap (fun e => placeOf fs e.1)).Nodup := by
      refine ih (fun names hf => Nat.le_trans ?_ (h names hf)) (fun names hf => Nat.le_trans ?_ (h names hf))
      all_goals
        simp only [List.filter_cons]
        split
        · simp
        · exact Nat.le_refl _
    cases hp : placeOf fs e.1 with
    | none => simpa [List.filterMap_cons, hp] using htail
    | some i =>
      simp only [List.filterMap_cons, hp, List.nodup_cons]
      refine ⟨fun hm => ?_, htail⟩
      obtain ⟨e', he', hp'⟩ := List.mem_filterMap.1 hm
      obtain ⟨f, hf, hk⟩ := place_mem hp
      obtain ⟨f', hf', hk'⟩ := place_mem hp'
      rw [hf] at hf'
      cases hf'
      have := h f (List.mem_of_getElem? hf)
      have hpos : 0 < (a.filter (fun e => f.contains e.1)).length := List.length_pos_of_mem (List.mem_filter.2 ⟨he', by simpa using hk'⟩)
      rw [List.filter_cons, if_pos (by simpa using hk)] at this
      simp only [List.length_cons] at this
      omega

/-- The value of the first entry for a setting is the value of the setting. -/
theorem setting_of_place {fs : List (List Str)} {a : List (Str × Toml)} (h : TomlSection fs (.table a)) {e : Str × Toml} (he : e ∈ a) {i : Nat}
    (hp : placeOf fs e.1 = some i) : (settingsFrom (.table a) fs 0)[i]? = some (some e.2) := by
  obtain ⟨f, hf, hk⟩ := place_mem hp
  rw [settingsFrom_get, hf]
  simp only [Option.map_some, setting, Option.some.injEq]
  have h : (a.filter (fun e => f.contains e.1)).length ≤ 1 := h f (List.mem_of_getElem? hf)
  have hm : e ∈ a.filter (fun e => f.contains e.1) := List.mem_filter.2 ⟨he, by simpa using hk⟩
  rw [← List.head?_filter]
  generalize a.filter (fun e => f.contains e.1) = l at h hm
  match l, h, hm with
  | [x], _, hm => rw [List.mem_singleton.1 hm]; rfl
  | _ :: _ :: _, h, _ => simp at h

/-- The first mistake counts: if the table up to an entry can be read, and the entry alone cannot, then the whole table fails as the entry alone does; if the entry is the second one for
its setting, it is an error. -/
theorem deStruct_first {α : Type} {fs : List (List Str)} (hn : fs.flatten.Nodup) {make : List (Option Toml) → Outcome α} {cs : List (Nat × (Toml → Prop))} (hm : ByField cs make)
    {a b : List (Str × Toml)} {k : Str} {w : Toml} {v : α} (ha : deStruct fs make (.table a) = .value v) (hk : k ∈ fs.flatten) :
    ((∃ f ∈ fs, k ∈ f ∧ ∃ e ∈ a, e.1 ∈ f) → deStruct fs make (.table (a ++ (k, w) :: b)) = .error) ∧
    ((∀ f ∈ fs, k ∈ f → ∀ e ∈ a, e.1 ∉ f) → (∀ u, deStruct fs make (.table [(k, w)]) ≠ .value u) →
      deStruct fs make (.table (a ++ (k, w) :: b)) = deStruct fs make (.table [(k, w)])) := by
  obtain ⟨hsec, hmake⟩ := (deStruct_value _ _ _ _).1 ha
  have hplace : ∃ i, placeOf fs k = some i := by
    rw [← Option.isSome_iff_exists, placeOf, List.findIdx?_isSome]
    obtain ⟨f, hf, hkf⟩ := List.mem_flatten.1 hk
    exact List.any_eq_true.2 ⟨f, hf, by simpa using hkf⟩
  obtain ⟨i, hi⟩ := hplace
  have hi' : fs.findIdx? (·.contains k) = some i := hi
  obtain ⟨f0, hf0, hk0⟩ := place_mem hi
  have hskip := firstMistake_skip fs make a ((k, w) :: b) [] (fun e he j hj => ⟨List.not_mem_nil, byField_alone hm hmake (setting_of_place hsec he hj) _⟩)
    (section_places hn hsec)
  have hstruct : (∀ u, deStruct fs make (.table (a ++ (k, w) :: b)) ≠ .value u) →
      deStruct fs make (.table (a ++ (k, w) :: b)) = firstMistake fs make (a ++ (k, w) :: b) [] := by
    intro h
    cases hx : (fieldsFrom (.table (a ++ (k, w) :: b)) fs 0).bind make with
    | value u => exact absurd (by simp [deStruct, hx]) (h u)
    | error => simp [deStruct, hx]
    | panic => simp [deStruct, hx]
  refine ⟨fun ⟨f, hf, hkf, e, he, hef⟩ => ?_, fun hfree hno => ?_⟩
  · rw [hstruct fun u hu => ?_, hskip]
    · have hmem : i ∈ (a.filterMap (fun e => placeOf fs e.1)).reverse ++ [] := by
        rw [List.append_nil, List.mem_reverse, List.mem_filterMap]
        refine ⟨e, he, ?_⟩
        obtain ⟨j, hj⟩ : ∃ j, placeOf fs e.1 = some j := by
          rw [← Option.isSome_iff_exists, placeOf, List.findIdx?_isSome]
          exact List.any_eq_true.2 ⟨f, hf, by simpa using hef⟩
        obtain ⟨jf, hjf⟩ := List.mem_iff_getElem?.1 hf
        rw [hj, ← place_unique hn hi hjf hkf, place_unique hn hj hjf hef]
      simp only [firstMistake, hi', List.contains_iff_mem.2 hmem, ↓reduceIte]
    · have h : ((a ++ (k, w) :: b).filter (fun e => f.contains e.1)).length ≤ 1 := ((deStruct_value _ _ _ _).1 hu).1 f hf
      have hpos : 0 < (a.filter (fun e => f.contains e.1)).length := List.length_pos_of_mem (List.mem_filter.2 ⟨he, by simpa using hef⟩)
      rw [List.filter_append, List.filter_cons, if_pos (by simpa using hkf)] at h
      simp only [List.length_append, List.length_cons] at h
      omega
  · have hone := deStruct_one hn make w hi
    rw [hstruct fun u hu => ?_, hskip, hone]
    · have hmem : i ∉ (a.filterMap (fun e => placeOf fs e.1)).reverse ++ [] := by
        rw [List.append_nil, List.mem_reverse, List.mem_filterMap]
        rintro ⟨e, he, hj⟩
        obtain ⟨f, hf, hkf⟩ := place_mem hj
        rw [hf0] at hf
        cases hf
        exact hfree f0 (List.mem_of_getElem? hf0) hk0 e he hkf
      simp only [firstMistake, hi', mt List.contains_iff_mem.1 hmem, ↓reduceIte, Bool.false_eq_true]
      cases hx : make (onlyField fs.length i w) with
      | value u => exact absurd (hone.trans hx) (hno u)
      | error => rfl
      | panic => rfl
    · obtain ⟨h1, h2⟩ := (deStruct_value _ _ _ _).1 hu
      obtain ⟨u', hu'⟩ := byField_alone hm h2 (setting_of_place h1 (List.mem_append_right _ List.mem_cons_self) hi) fs.length
      exact hno u' (hone.trans hu')

/-! ## The sections of a configuration file -/

section
variable (U : Unicode) (p : Profile) (strict : Bool)

/-- What can be read up to an entry, and the entry alone, can be read together. -/
theorem deStruct_snoc {α : Type} {fs : List (List Str)} {make : List (Option Toml) → Outcome α} {cs : List (Nat × (Toml → Prop))} (hm : ByField cs make)
    {a : List (Str × Toml)} {k : Str} {w : Toml} {v u : α} (ha : deStruct fs make (.table a) = .value v) (he : deStruct fs make (.table [(k, w)]) = .value u)
    (hfree : ∀ f ∈ fs, k ∈ f → ∀ e ∈ a, e.1 ∉ f) : ∃ r, deStruct fs make (.table (a ++ [(k, w)])) = .value r := by
  obtain ⟨hsa, hma⟩ := (deStruct_value _ _ _ _).1 ha
  obtain ⟨_, hme⟩ := (deStruct_value _ _ _ _).1 he
  have hsec : TomlSection fs (.table (a ++ [(k, w)])) := by
    intro f hf
    have h1 : (a.filter (fun e => f.contains e.1)).length ≤ 1 := hsa f hf
    rw [List.filter_append]
    by_cases hk : k ∈ f
    · have : a.filter (fun e => f.contains e.1) = [] := by
        rw [List.filter_eq_nil_iff]
        intro e he
        simpa using hfree f hf hk e he
      rw [this]
      simp [hk]
    · simpa [hk] using h1
  obtain ⟨r, hr⟩ := (hm (settingsFrom (.table (a ++ [(k, w)])) fs 0)).2 (by
    intro c hc x hx
    rw [settingsFrom_get] at hx
    cases hf : fs[c.1]? with
    | none => simp [hf] at hx
    | some f =>
      simp only [hf, Option.map_some, setting, List.find?_append, Option.some.injEq] at hx
      cases hfa : a.find? (fun e => f.contains e.1) with
      | some e =>
        rw [hfa] at hx
        refine (hm _).1 ⟨v, hma⟩ c hc x ?_
        rw [settingsFrom_get, hf]
        simp only [Option.map_some, setting, hfa]
        simpa using hx
      | none =>
        rw [hfa, Option.none_or] at hx
        refine (hm _).1 ⟨u, hme⟩ c hc x ?_
        rw [settingsFrom_get, hf]
        simp only [Option.map_some, setting, hx])
  exact ⟨r, (deStruct_value _ _ _ _).2 ⟨hsec, hr⟩⟩

/-- A list that fails has a first entry with which it does. -/
theorem first_failing {β : Type} (P : List β → Prop) (h0 : P []) (l : List β) (h : ¬ P l) : ∃ a e b, l = a ++ e :: b ∧ P a ∧ ¬ P (a ++ [e]) := by
  suffices ∀ pre, P pre → ¬ P (pre ++ l) → ∃ a e b, pre ++ l = a ++ e :: b ∧ P a ∧ ¬ P (a ++ [e]) by simpa using this [] h0 (by simpa using h)
  clear h
  induction l with
  | nil => intro pre hp hn; exact absurd hp (by simpa using hn)
  | cons x l ih =>
    intro pre hp hn
    by_cases hx : P (pre ++ [x])
    · simpa using ih (pre ++ [x]) hx (by simpa using hn)
    · exact ⟨pre, x, l, rfl, hp, hx⟩

/-- A table that cannot be read has a first mistake. -/
theorem deStruct_mistake {α : Type} {fs : List (List Str)} {make : List (Option Toml) → Outcome α} {cs : List (Nat × (Toml → Prop))} (hm : ByField cs make)
    (es : List (Str × Toml)) (h : ∀ v, deStruct fs make (.table es) ≠ .value v) :
    ∃ a k w b v, es = a ++ (k, w) :: b ∧ deStruct fs make (.table a) = .value v ∧ k ∈ fs.flatten ∧
      ((∃ f ∈ fs, k ∈ f ∧ ∃ e ∈ a, e.1 ∈ f) ∨
        (∀ f ∈ fs, k ∈ f → ∀ e ∈ a, e.1 ∉ f) ∧ ∀ u, deStruct fs make (.table [(k, w)]) ≠ .value u) := by
  obtain ⟨a, ⟨k, w⟩, b, rfl, ⟨v, hv⟩, hn⟩ := first_failing (fun l => ∃ v, deStruct fs make (.table l) = .value v) (by
    obtain ⟨v, hv⟩ := (hm (settingsFrom (.table []) fs 0)).2 (by
      intro c _ x hx
      rw [settingsFrom_get] at hx
      cases hf : fs[c.1]? <;> simp [hf, setting] at hx)
    exact ⟨v, (deStruct_value _ _ _ _).2 ⟨fun f _ => by simp, hv⟩⟩) es (fun ⟨v, hv⟩ => h v hv)
  have hk : k ∈ fs.flatten := by
    by_cases hk : k ∈ fs.flatten
    · exact hk
    · obtain ⟨hs, hmv⟩ := (deStruct_value _ _ _ _).1 hv
      have hnot : ∀ f ∈ fs, k ∉ f := fun f hf hkf => hk (List.mem_flatten.2 ⟨f, hf, hkf⟩)
      refine absurd ⟨v, (deStruct_value _ _ _ _).2 ⟨fun f hf => ?_, ?_⟩⟩ hn
      · have h1 : (a.filter (fun e => f.contains e.1)).length ≤ 1 := hs f hf
        rw [List.filter_append]
        simpa [hnot f hf] using h1
      · have : settingsFrom (.table (a ++ [(k, w)])) fs 0 = settingsFrom (.table a) fs 0 := by
          refine List.ext_getElem? fun i => ?_
          rw [settingsFrom_get, settingsFrom_get]
          cases hf : fs[i]? with
          | none => rfl
          | some f => simp [setting, List.find?_append, hnot f (List.mem_of_getElem? hf)]
        rw [this]
        exact hmv
  refine ⟨a, k, w, b, v, rfl, hv, hk, ?_⟩
  by_cases hdup : ∃ f ∈ fs, k ∈ f ∧ ∃ e ∈ a, e.1 ∈ f
  · exact .inl hdup
  · have hfree : ∀ f ∈ fs, k ∈ f → ∀ e ∈ a, e.1 ∉ f := fun f hf hkf e he hx => hdup ⟨f, hf, hkf, e, he, hx⟩
    exact .inr ⟨hfree, fun u hu => hn (deStruct_snoc hm hv hu hfree)⟩

/-- The same settings with the names of each in any order. -/
def SameNames (fs gs : List (List Str)) : Prop :=
  (∀ f ∈ fs, ∃ g ∈ gs, (∀ x ∈ f, x ∈ g) ∧ ∀ x ∈ g, x ∈ f) ∧ ∀ g ∈ gs, ∃ f ∈ fs, (∀ x ∈ f, x ∈ g) ∧ ∀ x ∈ g, x ∈ f

instance (fs gs : List (List Str)) : Decidable (SameNames fs gs) := by unfold SameNames; infer_instance

theorem deStruct_first_names {α : Type} {fs gs : List (List Str)} (hg : SameNames fs gs) (hn : fs.flatten.Nodup) {make : List (Option Toml) → Outcome α}
    {cs : List (Nat × (Toml → Prop))} (hm : ByField cs make) {a b : List (Str × Toml)} {k : Str} {w : Toml} {v : α} (ha : deStruct fs make (.table a) = .value v)
    (hk : k ∈ gs.flatten) :
    ((∃ f ∈ gs, k ∈ f ∧ ∃ e ∈ a, e.1 ∈ f) → deStruct fs make (.table (a ++ (k, w) :: b)) = .error) ∧
    ((∀ f ∈ gs, k ∈ f → ∀ e ∈ a, e.1 ∉ f) → (∀ u, deStruct fs make (.table [(k, w)]) ≠ .value u) →
      deStruct fs make (.table (a ++ (k, w) :: b)) = deStruct fs make (.table [(k, w)])) := by
  obtain ⟨g, hgm, hkg⟩ := List.mem_flatten.1 hk
  obtain ⟨f, hfm, _, hgf⟩ := hg.2 g hgm
  have h := deStruct_first (b := b) (w := w) hn hm ha (List.mem_flatten.2 ⟨f, hfm, hgf k hkg⟩)
  refine ⟨fun ⟨g', hg', hk', e, he, hx⟩ => ?_, fun hno hv => h.2 (fun f' hf' hkf' e he hx => ?_) hv⟩
  · obtain ⟨f', hf', _, hgf'⟩ := hg.2 g' hg'
    exact h.1 ⟨f', hf', hgf' k hk', e, he, hgf' _ hx⟩
  · obtain ⟨g', hg', hfg', _⟩ := hg.1 f' hf'
    exact hno g' hg' (hfg' k hkf') e he (hfg' _ hx)

/-- The sections of a file: what is read, the settings, and the reading. -/
inductive SectionReader : (α : Type) → List (List Str) → (Toml → Outcome α) → Prop
  | file : SectionReader ConfigFile fileSettings (ConfigFile.de U p strict)
  | service : SectionReader ServiceConfig serviceSettings (ServiceConfig.de U p strict)
  | tcp : SectionReader TcpConfig tcpSettings (TcpConfig.de U p)
  | tls : SectionReader TlsConfig tlsSettings (TlsConfig.de U p)
  | http : SectionReader HttpConfig httpSettings (HttpConfig.de U p)
  | logging : SectionReader LoggingConfig loggingSettings (LoggingConfig.de U p strict)
  | runtime : SectionReader RuntimeConfig runtimeSettings RuntimeConfig.de

/-- Each section is read entry by entry. -/
theorem SectionReader.byField {α : Type} {settings : List (List Str)} {read : Toml → Outcome α} (hr : SectionReader U p strict α settings read) :
    ∃ (fs : List (List Str)) (make : List (Option Toml) → Outcome α) (cs : List (Nat × (Toml → Prop))),
      read = deStruct fs make ∧ SameNames fs settings ∧ fs.flatten.Nodup ∧ ByField cs make := by
  cases hr with
  | file => exact ⟨_, _, _, rfl, by decide +kernel, by decide +kernel, byField_bind (fun _ => byField_bind (fun _ => byField_bind (fun _ => byField_bind (fun _ => byField_bind (fun _ =>
      byField_bind (fun _ => byField_bind (fun _ => byField_bind (fun _ => byField_bind (fun _ => byField_bind (fun _ => byField_value _) _ _ _) _ _ _) _ _ _) _ _ _)
      _ _ _) _ _ _) _ _ _) _ _ _) _ _ _) _ _ _⟩
  | service => exact ⟨_, _, _, rfl, by decide +kernel, by decide +kernel, byField_bind (fun _ => byField_bind (fun _ => byField_bind (fun _ => byField_bind (fun _ => byField_bind (fun _ =>
      byField_bind (fun _ => byField_value _) _ _ _) _ _ _) _ _ _) _ _ _) _ _ _) _ _ _⟩
  | tcp => exact ⟨_, _, _, rfl, by decide +kernel, by decide +kernel, byField_bind (fun _ => byField_bind (fun _ => byField_bind (fun _ => byField_bind (fun _ => byField_bind (fun _ =>
      byField_value _) _ _ _) _ _ _) _ _ _) _ _ _) _ _ _⟩
  | tls => exact ⟨_, _, _, rfl, by decide +kernel, by decide +kernel, byField_bind (fun _ => byField_bind (fun _ => byField_bind (fun _ => byField_value _) _ _ _) _ _ _) _ _ _⟩
  | http => exact ⟨_, _, _, rfl, by decide +kernel, by decide +kernel, byField_bind (fun _ => byField_bind (fun _ => byField_bind (fun _ => byField_bind (fun _ => byField_bind (fun _ =>
      byField_bind (fun _ => byField_bind (fun _ => byField_bind (fun _ => byField_value _) _ _ _) _ _ _) _ _ _) _ _ _) _ _ _) _ _ _) _ _ _) _ _ _⟩
  | logging => exact ⟨_, _, _, rfl, by decide +kernel, by decide +kernel, byField_bind (fun _ => byField_bind (fun _ => byField_bind (fun _ => byField_value _) _ _ _) _ _ _) _ _ _⟩
  | runtime => exact ⟨_, _, _, rfl, by decide +kernel, by decide +kernel, byField_bind (fun _ => byField_bind (fun _ => byField_value _) _ _ _) _ _ _⟩

/-- **C147**, which of several mistakes counts: the first one in the file. If a section up to an entry for one of its settings can be read, then a second entry for a setting that has one is an error,
never a panic; and if the entry, the first for its setting, cannot be read as the only entry of the section, the section fails as it then does - with an error or a panic -, whatever
follows. -/
theorem C147_first_partial {α : Type} {settings : List (List Str)} {read : Toml → Outcome α} (hr : SectionReader U p strict α settings read)
    (before after : List (Str × Toml)) (k : Str) (w : Toml) (v : α) (hv : read (.table before) = .value v) (hk : k ∈ settings.flatten) :
    ((∃ names ∈ settings, k ∈ names ∧ ∃ e ∈ before, e.1 ∈ names) → read (.table (before ++ (k, w) :: after)) = .error) ∧
    ((∀ names ∈ settings, k ∈ names → ∀ e ∈ before, e.1 ∉ names) → (∀ u, read (.table [(k, w)]) ≠ .value u) →
      read (.table (before ++ (k, w) :: after)) = read (.table [(k, w)])) := by
  obtain ⟨fs, make, cs, rfl, hg, hn, hm⟩ := hr.byField
  exact deStruct_first_names hg hn hm hv hk

/-- **C147**, exactly when a section panics: there is a first entry at which its reading does, up to which everything can be read and which, as the only entry of the section, makes it panic. -/
theorem C147_section_partial {α : Type} {settings : List (List Str)} {read : Toml → Outcome α} (hr : SectionReader U p strict α settings read)
    (es : List (Str × Toml)) :
    read (.table es) = .panic ↔
      ∃ (before after : List (Str × Toml)) (k : Str) (w : Toml) (v : α), es = before ++ (k, w) :: after ∧ read (.table before) = .value v ∧
        (∃ names ∈ settings, k ∈ names ∧ ∀ e ∈ before, e.1 ∉ names) ∧ read (.table [(k, w)]) = .panic := by
  obtain ⟨fs, make, cs, rfl, hg, hn, hm⟩ := hr.byField
  constructor
  · intro h
    obtain ⟨a, k, w, b, v, rfl, hv, hk, hc⟩ := deStruct_mistake hm es (fun v hv => by rw [hv] at h; cases h)
    have hf := deStruct_first (b := b) (w := w) hn hm hv hk
    rcases hc with hdup | ⟨hfree, hno⟩
    · rw [hf.1 hdup] at h
      cases h
    · obtain ⟨f, hfm, hkf⟩ := List.mem_flatten.1 hk
      obtain ⟨g, hgm, hfg, hgf⟩ := hg.1 f hfm
      exact ⟨a, b, k, w, v, rfl, hv, ⟨g, hgm, hfg k hkf, fun e he hx => hfree f hfm hkf e he (hgf _ hx)⟩, by rw [← hf.2 hfree hno]; exact h⟩
  · rintro ⟨a, b, k, w, v, rfl, hv, ⟨g, hgm, hkg, hfree⟩, hp⟩
    obtain ⟨f, hfm, hfg, hgf⟩ := hg.2 g hgm
    have hk : k ∈ fs.flatten := List.mem_flatten.2 ⟨f, hfm, hgf k hkg⟩
    rw [(deStruct_first hn hm hv hk).2 (fun f' hf' hkf' e he hx => ?_) (by rw [hp]; nofun), hp]
    obtain ⟨i, hi⟩ := List.mem_iff_getElem?.1 hfm
    obtain ⟨j, hj⟩ := List.mem_iff_getElem?.1 hf'
    have hpl : ∃ n, placeOf fs k = some n := by
      rw [← Option.isSome_iff_exists, placeOf, List.findIdx?_isSome]
      exact List.any_eq_true.2 ⟨f, hfm, by simpa using hgf k hkg⟩
    obtain ⟨n, hpn⟩ := hpl
    rw [place_unique hn hpn hi (hgf k hkg)] at hi
    rw [place_unique hn hpn hj hkf', hi] at hj
    cases hj
    exact hfree e he (hfg _ hx)

end

/-- Two mistakes, one an error and one a panic: the first one counts, here in the section for HTTP and, the sections swapped, in the whole file. -/
example : HttpConfig.de asciiUnicode .release (.table [(u!"idle_timeout", .str u!"1m"), (u!"max_headers_count", .str u!"many"), (u!"max_body_size", .str u!"large")]) = .error ∧
    HttpConfig.de asciiUnicode .release (.table [(u!"idle_timeout", .str u!"1m"), (u!"max_body_size", .str u!"large"), (u!"max_headers_count", .str u!"many")]) = .panic ∧
    ConfigFile.de asciiUnicode .release true (.table [(u!"http", .table [(u!"max_url_size", .str u!"large")]), (u!"workdir", .bool true)]) = .panic ∧
    ConfigFile.de asciiUnicode .release true (.table [(u!"workdir", .bool true), (u!"http", .table [(u!"max_url_size", .str u!"large")])]) = .error := by decide +kernel

/-- The hypotheses of the theorem are met: one entry can be read, the next one cannot. -/
example : (∃ v, HttpConfig.de asciiUnicode .release (.table [(u!"idle_timeout", .str u!"1m")]) = .value v) ∧
    HttpConfig.de asciiUnicode .release (.table [(u!"max_body_size", .str u!"large")]) = .panic ∧ u!"max_body_size" ∈ httpSettings.flatten := by
  refine ⟨⟨⟨none, 60000000000, 0, 0, 0, 0, none, none⟩, ?_⟩, ?_, ?_⟩ <;> decide +kernel

end Httpd
