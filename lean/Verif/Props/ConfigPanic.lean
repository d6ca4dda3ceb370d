import Verif.Spec.ConfigPanic
import Verif.Props.Include
/-!
# C147: exactly which configuration files stop the program with a panic
-/

namespace Httpd
open Spec

/-- A field of a struct: its place, what passes and what panics. -/
abbrev Place := Nat × (Toml → Prop) × (Toml → Prop)

/-- The first field that does not pass panics. -/
def FirstBad : List Place → List (Option Toml) → Prop
  | [], _ => False
  | d :: ds, xs => (∃ x, xs[d.1]? = some (some x) ∧ d.2.2 x) ∨ ((∀ x, xs[d.1]? = some (some x) → d.2.1 x) ∧ FirstBad ds xs)

/-- `make` reads the fields one after the other. -/
def PlacesRead {α : Type} (ds : List Place) (make : List (Option Toml) → Outcome α) : Prop :=
  ∀ xs, ((∃ a, make xs = .value a) ↔ ∀ d ∈ ds, ∀ x, xs[d.1]? = some (some x) → d.2.1 x) ∧ (make xs = .panic ↔ FirstBad ds xs)

theorem places_value {α : Type} (a : α) : PlacesRead [] (fun _ => .value a) := by
  intro xs
  simp [FirstBad]

theorem places_bind {α β : Type} {ds : List Place} {g : β → List (Option Toml) → Outcome α} (h : ∀ b, PlacesRead ds (g b)) (i : Nat) (d : β)
    (de : Toml → Outcome β) : PlacesRead ((i, (fun x => ∃ b, de x = .value b), (fun x => de x = .panic)) :: ds) (fun xs => (field xs i d de).bind (fun b => g b xs)) := by
  intro xs
  refine ⟨?_, ?_⟩
  · have hb := byField_bind (cs := ds.map (fun d => (d.1, d.2.1))) (g := g) (fun b ys => by rw [List.forall_mem_map]; exact (h b ys).1) i d de xs
    rw [hb, List.forall_mem_cons, List.forall_mem_cons, List.forall_mem_map]
  · simp only [FirstBad]
    cases hx : xs[i]? with
    | none =>
      simp only [field, hx, Outcome.bind]
      rw [(h d xs).2]
      simp
    | some o =>
      cases o with
      | none =>
        simp only [field, hx, Outcome.bind]
        rw [(h d xs).2]
        simp
      | some v =>
        simp only [field, hx, Option.some.injEq, exists_eq_left', forall_eq']
        cases hv : de v with
        | value b => simp only [Outcome.bind]; rw [(h b xs).2]; simp
        | error => simp [Outcome.bind]
        | panic => simp [Outcome.bind]

/-- With the places in order: a field panics and all before it pass. -/
theorem firstBad_iff (ds : List Place) (hs : (ds.map (·.1)).Pairwise (· < ·)) (xs : List (Option Toml)) :
    FirstBad ds xs ↔ ∃ d ∈ ds, ∃ x, xs[d.1]? = some (some x) ∧ d.2.2 x ∧ ∀ c ∈ ds, c.1 < d.1 → ∀ y, xs[c.1]? = some (some y) → c.2.1 y := by
  induction ds with
  | nil => simp [FirstBad]
  | cons a ds ih =>
    simp only [List.map_cons, List.pairwise_cons, List.mem_map] at hs
    have hlt : ∀ d ∈ ds, a.1 < d.1 := fun d hd => hs.1 _ ⟨d, hd, rfl⟩
    simp only [FirstBad, ih hs.2]
    constructor
    · rintro (⟨x, hx, hp⟩ | ⟨hpass, d, hd, x, hx, hp, hb⟩)
      · refine ⟨a, List.mem_cons_self, x, hx, hp, fun c hc hlt' => ?_⟩
        rcases List.mem_cons.1 hc with rfl | hc
        · omega
        · have := hlt c hc; omega
      · refine ⟨d, List.mem_cons_of_mem _ hd, x, hx, hp, fun c hc hlt' => ?_⟩
        rcases List.mem_cons.1 hc with rfl | hc
        · exact hpass
        · exact hb c hc hlt'
    · rintro ⟨d, hd, x, hx, hp, hb⟩
      rcases List.mem_cons.1 hd with rfl | hd
      · exact .inl ⟨x, hx, hp⟩
      · exact .inr ⟨hb a List.mem_cons_self (hlt d hd), d, hd, x, hx, hp, fun c hc => hb c (List.mem_cons_of_mem _ hc)⟩

/-- The dangers of a specification are the fields that can panic. -/
inductive Matching (fs : List (List Str)) : List Place → List Danger → Prop
  | nil : Matching fs [] []
  | safe (d : Place) (ds : List Place) (Ds : List Danger) : (∀ x, ¬ d.2.2 x) → Matching fs ds Ds → Matching fs (d :: ds) Ds
  | danger (d : Place) (ds : List Place) (D : Danger) (Ds : List Danger) : d.1 = D.place → (∀ x, d.2.2 x ↔ D.panics x) →
      (fs.getD D.place []).isPerm D.names = true → Matching fs ds Ds → Matching fs (d :: ds) (D :: Ds)

theorem Matching.from {fs : List (List Str)} {ds : List Place} {Ds : List Danger} (h : Matching fs ds Ds) {d : Place} (hd : d ∈ ds) {x : Toml} (hx : d.2.2 x) :
    ∃ D ∈ Ds, d.1 = D.place ∧ D.panics x ∧ (fs.getD D.place []).Perm D.names := by
  induction h with
  | nil => simp at hd
  | safe d' ds Ds hno _ ih =>
    rcases List.mem_cons.1 hd with rfl | hd
    · exact absurd hx (hno x)
    · exact ih hd
  | danger d' ds D Ds hpl hp hnames _ ih =>
    rcases List.mem_cons.1 hd with rfl | hd
    · exact ⟨D, List.mem_cons_self, hpl, (hp x).1 hx, List.isPerm_iff.1 hnames⟩
    · obtain ⟨D', h1, h2⟩ := ih hd
      exact ⟨D', List.mem_cons_of_mem _ h1, h2⟩

theorem Matching.to {fs : List (List Str)} {ds : List Place} {Ds : List Danger} (h : Matching fs ds Ds) {D : Danger} (hD : D ∈ Ds) {x : Toml} (hx : D.panics x) :
    ∃ d ∈ ds, d.1 = D.place ∧ d.2.2 x ∧ (fs.getD D.place []).Perm D.names := by
  induction h with
  | nil => simp at hD
  | safe d' ds Ds hno _ ih =>
    obtain ⟨d, h1, h2⟩ := ih hD
    exact ⟨d, List.mem_cons_of_mem _ h1, h2⟩
  | danger d' ds D' Ds hpl hp hnames _ ih =>
    rcases List.mem_cons.1 hD with rfl | hD
    · exact ⟨d', List.mem_cons_self, hpl, (hp x).2 hx, List.isPerm_iff.1 hnames⟩
    · obtain ⟨d, h1, h2⟩ := ih hD
      exact ⟨d, List.mem_cons_of_mem _ h1, h2⟩

theorem panic_of_not {α : Type} {x : Outcome α} (h : x = .panic) : ∀ a, x ≠ .value a := by rw [h]; nofun

/-- A struct panics exactly as its dangers say. -/
theorem deStruct_panics {α : Type} {fs : List (List Str)} (hn : fs.flatten.Nodup) {make : List (Option Toml) → Outcome α} {ds : List Place} (hm : PlacesRead ds make)
    (hpl : ds.map (·.1) = List.range fs.length) {Ds : List Danger} (hD : Matching fs ds Ds) (v : Toml) :
    deStruct fs make v = .panic ↔ StopsIn (fun v => ∃ a, deStruct fs make v = .value a) Ds v := by
  have hsorted : (ds.map (·.1)).Pairwise (· < ·) := by rw [hpl]; exact List.pairwise_lt_range
  have hbound : ∀ d ∈ ds, d.1 < fs.length := fun d hd => List.mem_range.1 (hpl ▸ List.mem_map_of_mem hd)
  have hby : ByField (ds.map (fun d => (d.1, d.2.1))) make := fun xs => by rw [List.forall_mem_map]; exact (hm xs).1
  cases v with
  | table es =>
    have hsingle : ∀ (k : Str) (w : Toml) (i : Nat), placeOf fs k = some i → (deStruct fs make (.table [(k, w)]) = .panic ↔ ∃ d ∈ ds, d.1 = i ∧ d.2.2 w) := by
      intro k w i hi
      rw [deStruct_one hn make w hi, (hm _).2, firstBad_iff ds hsorted]
      constructor
      · rintro ⟨d, hd, x, hx, hp, _⟩
        rw [onlyField_get, if_pos (hbound d hd)] at hx
        simp only [Option.some.injEq] at hx
        split at hx
        · rename_i h; cases hx; exact ⟨d, hd, h, hp⟩
        · cases hx
      · rintro ⟨d, hd, h, hp⟩
        refine ⟨d, hd, w, ?_, hp, fun c hc hlt y hy => ?_⟩
        · rw [onlyField_get, if_pos (hbound d hd), if_pos h]
        · rw [onlyField_get, if_pos (hbound c hc), if_neg (by omega)] at hy
          cases hy
    have hplace : ∀ (k : Str) (f : List Str) (i : Nat), fs[i]? = some f → k ∈ f → placeOf fs k = some i := by
      intro k f i hf hk
      obtain ⟨j, hj⟩ : ∃ j, placeOf fs k = some j := by
        rw [← Option.isSome_iff_exists, placeOf, List.findIdx?_isSome]
        exact List.any_eq_true.2 ⟨f, List.mem_of_getElem? hf, by simpa using hk⟩
      rw [hj, place_unique hn hj hf hk]
    constructor
    · intro h
      obtain ⟨a, k, w, b, v, rfl, hv, hk, hc⟩ := deStruct_mistake hby es (panic_of_not h)
      have hf := deStruct_first (b := b) (w := w) hn hby hv hk
      rcases hc with hdup | ⟨hfree, hno⟩
      · rw [hf.1 hdup] at h; cases h
      · rw [hf.2 hfree hno] at h
        obtain ⟨f, hfm, hkf⟩ := List.mem_flatten.1 hk
        obtain ⟨i, hi⟩ := List.mem_iff_getElem?.1 hfm
        obtain ⟨d, hd, hdi, hp⟩ := (hsingle k w i (hplace k f i hi hkf)).1 h
        obtain ⟨D, hDm, hpD, hpan, hperm⟩ := hD.from hd hp
        have : fs.getD D.place [] = f := by rw [← hpD, hdi, List.getD_eq_getElem?_getD, hi]; rfl
        rw [this] at hperm
        exact ⟨D, hDm, a, k, w, b, rfl, hperm.mem_iff.1 hkf, fun e he hx => hfree f hfm hkf e he (hperm.mem_iff.2 hx), ⟨v, hv⟩, hpan⟩
    · rintro ⟨D, hDm, a, k, w, b, rfl, hk, hfree, ⟨v, hv⟩, hpan⟩
      obtain ⟨d, hd, hdp, hp, hperm⟩ := hD.to hDm hpan
      have hlt : D.place < fs.length := hdp ▸ hbound d hd
      have hi : fs[D.place]? = some (fs.getD D.place []) := by rw [List.getD_eq_getElem?_getD, List.getElem?_eq_getElem hlt]; rfl
      have hkf := hperm.mem_iff.2 hk
      have hone := (hsingle k w _ (hplace k _ _ hi hkf)).2 ⟨d, hd, hdp, hp⟩
      rw [(deStruct_first (b := b) (w := w) hn hby hv (List.mem_flatten.2 ⟨_, List.mem_of_getElem? hi, hkf⟩)).2 (fun f hf hk' e he hx => ?_) (panic_of_not hone), hone]
      obtain ⟨j, hj⟩ := List.mem_iff_getElem?.1 hf
      have := (hplace k f j hj hk').symm.trans (hplace k _ _ hi hkf)
      cases this
      rw [hi] at hj
      cases hj
      exact hfree e he (hperm.mem_iff.1 hx)
  | arr items =>
    have hx : ∀ (l : List Toml) (c : Place), c ∈ ds → ∀ y, (settingsFrom (.arr l) fs 0)[c.1]? = some (some y) ↔ l[c.1]? = some y := by
      intro l c hc y
      rw [settingsFrom_get, List.getElem?_eq_getElem (hbound c hc)]
      simp [setting]
    have hrun : ∀ l : List Toml, deStruct fs make (.arr l) = make (settingsFrom (.arr l) fs 0) := by
      intro l
      simp only [deStruct, fieldsFrom_arr, Outcome.bind]
    rw [hrun, (hm _).2, firstBad_iff ds hsorted]
    simp only [StopsIn, hrun]
    have hread : ∀ n, (∃ a, make (settingsFrom (.arr (items.take n)) fs 0) = .value a) ↔
        ∀ c ∈ ds, c.1 < n → ∀ y, items[c.1]? = some y → c.2.1 y := by
      intro n
      rw [(hm _).1]
      constructor
      · intro h c hc hlt y hy
        exact h c hc y ((hx _ c hc y).2 (by rw [List.getElem?_take_of_lt hlt]; exact hy))
      · intro h c hc y hy
        rw [hx _ c hc, List.getElem?_take] at hy
        split at hy
        · exact h c hc (by assumption) y hy
        · cases hy
    constructor
    · rintro ⟨d, hd, x, h1, h2, h3⟩
      obtain ⟨D, hDm, hpD, hpan, _⟩ := hD.from hd h2
      refine ⟨D, hDm, x, ?_, ?_, hpan⟩
      · rw [← hpD]; exact (hx _ d hd x).1 h1
      · rw [hread, ← hpD]
        exact fun c hc hlt y hy => h3 c hc hlt y ((hx _ c hc y).2 hy)
    · rintro ⟨D, hDm, x, h1, h2, hpan⟩
      obtain ⟨d, hd, hdp, hp, _⟩ := hD.to hDm hpan
      rw [hread, ← hdp] at h2
      rw [← hdp] at h1
      exact ⟨d, hd, x, (hx _ d hd x).2 h1, hp, fun c hc hlt y hy => h2 c hc hlt y ((hx _ c hc y).1 hy)⟩
  | _ => simp [deStruct, StopsIn]

/-! ## Values -/

/-- `de` panics exactly where `P` says. -/
def PanicsAs {α : Type} (de : Toml → Outcome α) (P : Toml → Prop) : Prop := ∀ v, de v = .panic ↔ P v

theorem never_of_safe {α : Type} {de : Toml → Outcome α} (h : SafeFor (fun _ => True) de) (v : Toml) : ¬ de v = .panic := h v (fun _ _ => trivial)

theorem bind_value_panic {α β : Type} (x : Outcome α) (f : α → β) : x.bind (fun a => .value (f a)) = .panic ↔ x = .panic := by
  cases x <;> simp [Outcome.bind]

section
variable {U : Unicode} {p : Profile} {strict : Bool}

theorem panics_size : PanicsAs (deSize U p) (SizePanics U p) := by
  intro v
  cases v <;> simp [deSize, SizePanics]

theorem panics_duration : PanicsAs (deDuration U p) (DurationPanics U p) := by
  intro v
  cases v <;> simp [deDuration, DurationPanics, bind_value_panic]

theorem panics_opt {α : Type} {de : Toml → Outcome α} {P : Toml → Prop} (h : PanicsAs de P) : PanicsAs (deOpt de) P := by
  intro v
  rw [deOpt, bind_value_panic, h]

theorem panics_vec {α : Type} {de : Toml → Outcome α} {P : Toml → Prop} {R : Toml → α → Prop} (hr : Reads de R) (h : PanicsAs de P) :
    PanicsAs (deVec de) (ListPanics (fun v => ∃ a, R v a) P) := by
  intro v
  cases v with
  | arr vs =>
    simp only [deVec, ListPanics, Toml.arr.injEq]
    induction vs with
    | nil => simp [deAll]
    | cons u us ih =>
      simp only [deAll]
      cases hu : de u with
      | panic =>
        simp only [Outcome.bind, true_iff]
        exact ⟨[], u, us, rfl, by simp, (h u).1 hu⟩
      | error =>
        simp only [Outcome.bind, reduceCtorEq, false_iff]
        rintro ⟨a, w, b, he, hrd, hp⟩
        cases a with
        | nil => cases he; rw [← h, hu] at hp; cases hp
        | cons x a =>
          cases he
          obtain ⟨y, hy⟩ := hrd u List.mem_cons_self
          rw [← hr, hu] at hy
          cases hy
      | value y =>
        simp only [Outcome.bind]
        refine (bind_value_panic (deAll de us) (fun a => y :: a)).trans (ih.trans ?_)
        constructor
        · rintro ⟨a, w, b, rfl, hrd, hp⟩
          refine ⟨u :: a, w, b, rfl, fun x hx => ?_, hp⟩
          rcases List.mem_cons.1 hx with rfl | hx
          · exact ⟨y, (hr _ _).1 hu⟩
          · exact hrd x hx
        · rintro ⟨a, w, b, he, hrd, hp⟩
          cases a with
          | nil => cases he; rw [← h, hu] at hp; cases hp
          | cons x a =>
            cases he
            exact ⟨a, w, b, rfl, fun x hx => hrd x (List.mem_cons_of_mem _ hx), hp⟩
  | _ => simp [deVec, ListPanics]

theorem panics_map {α : Type} {de : Toml → Outcome α} {P : Toml → Prop} {R : Toml → α → Prop} (hr : Reads de R) (h : PanicsAs de P) :
    PanicsAs (deMap de) (MapPanics (fun v => ∃ a, R v a) P) := by
  intro v
  cases v with
  | table es =>
    simp only [deMap, MapPanics, Toml.table.injEq]
    induction es with
    | nil => simp [deEntries]
    | cons e us ih =>
      obtain ⟨k, u⟩ := e
      simp only [deEntries]
      cases hu : de u with
      | panic =>
        simp only [Outcome.bind, true_iff]
        exact ⟨[], k, u, us, rfl, by simp, (h u).1 hu⟩
      | error =>
        simp only [Outcome.bind, reduceCtorEq, false_iff]
        rintro ⟨a, k', w, b, he, hrd, hp⟩
        cases a with
        | nil => cases he; rw [← h, hu] at hp; cases hp
        | cons x a =>
          cases he
          obtain ⟨y, hy⟩ := hrd (k, u) List.mem_cons_self
          rw [← hr, hu] at hy
          cases hy
      | value y =>
        simp only [Outcome.bind]
        refine (bind_value_panic (deEntries de us) (fun a => (k, y) :: a)).trans (ih.trans ?_)
        constructor
        · rintro ⟨a, k', w, b, rfl, hrd, hp⟩
          refine ⟨(k, u) :: a, k', w, b, rfl, fun x hx => ?_, hp⟩
          rcases List.mem_cons.1 hx with rfl | hx
          · exact ⟨y, (hr _ _).1 hu⟩
          · exact hrd x hx
        · rintro ⟨a, k', w, b, he, hrd, hp⟩
          cases a with
          | nil => cases he; rw [← h, hu] at hp; cases hp
          | cons x a =>
            cases he
            exact ⟨a, k', w, b, rfl, fun x hx => hrd x (List.mem_cons_of_mem _ hx), hp⟩
  | _ => simp [deMap, MapPanics]

/-- From structs to sections. -/
theorem panics_struct {α : Type} {fs : List (List Str)} {make : List (Option Toml) → Outcome α} {Ds : List Danger} {readable : Toml → Prop}
    (hr : ∀ v, (∃ a, deStruct fs make v = .value a) ↔ readable v) {ds : List Place} (hn : fs.flatten.Nodup) (hm : PlacesRead ds make)
    (hpl : ds.map (·.1) = List.range fs.length) (hD : Matching fs ds Ds) : PanicsAs (deStruct fs make) (StopsIn readable Ds) := by
  intro v
  rw [deStruct_panics hn hm hpl hD, show (fun v => ∃ a, deStruct fs make v = .value a) = readable from funext fun v => propext (hr v)]

theorem readable_of {α : Type} {de : Toml → Outcome α} {R : Toml → α → Prop} (h : Reads de R) (v : Toml) : (∃ a, de v = .value a) ↔ ∃ c, R v c := by
  simp only [h v]

/-! ## Sections -/

theorem panics_tls : PanicsAs (TlsConfig.de U p) (TlsPanics U p) :=
  panics_struct (readable_of (reads_tls U p)) (by decide +kernel)
    (places_bind (fun _ => places_bind (fun _ => places_bind (fun _ => places_value _) _ _ _) _ _ _) _ _ _) rfl
    (.safe _ _ _ (never_of_safe safe_str) (.safe _ _ _ (never_of_safe safe_str) (.danger _ _ _ _ rfl panics_duration rfl .nil)))

theorem panics_tcp : PanicsAs (TcpConfig.de U p) (TcpPanics U p) :=
  panics_struct (readable_of (reads_tcp U p)) (by decide +kernel)
    (places_bind (fun _ => places_bind (fun _ => places_bind (fun _ => places_bind (fun _ => places_bind (fun _ => places_value _) _ _ _) _ _ _) _ _ _) _ _ _) _ _ _) rfl
    (.safe _ _ _ (never_of_safe safe_str) (.danger _ _ _ _ rfl panics_tls rfl (.danger _ _ _ _ rfl panics_size rfl
      (.danger _ _ _ _ rfl panics_size rfl (.danger _ _ _ _ rfl panics_size rfl .nil)))))

theorem panics_websocket : PanicsAs (websocketDe U p) (WebsocketPanics U p) :=
  panics_struct (fun v => (readable_of (reads_websocket U p) v).trans ⟨fun ⟨_, h, _⟩ => h, fun h => ⟨0, h, rfl⟩⟩) (by decide +kernel)
    (places_bind (fun _ => places_bind (fun _ => places_bind (fun _ => places_bind (fun _ => places_value _) _ _ _) _ _ _) _ _ _) _ _ _) rfl
    (.danger _ _ _ _ rfl panics_size rfl (.danger _ _ _ _ rfl panics_size rfl
      (.danger _ _ _ _ rfl panics_duration rfl (.safe _ _ _ (never_of_safe (safe_opt safe_i32)) .nil))))

theorem panics_http : PanicsAs (HttpConfig.de U p) (HttpPanics U p) :=
  panics_struct (readable_of (reads_http U p)) (by decide +kernel)
    (places_bind (fun _ => places_bind (fun _ => places_bind (fun _ => places_bind (fun _ => places_bind (fun _ => places_bind (fun _ => places_bind (fun _ =>
      places_bind (fun _ => places_value _) _ _ _) _ _ _) _ _ _) _ _ _) _ _ _) _ _ _) _ _ _) _ _ _) rfl
    (.safe _ _ _ (never_of_safe (safe_opt safe_bool)) (.danger _ _ _ _ rfl panics_duration rfl (.danger _ _ _ _ rfl panics_size rfl
      (.danger _ _ _ _ rfl panics_size rfl (.safe _ _ _ (never_of_safe safe_u32) (.danger _ _ _ _ rfl panics_size rfl
      (.safe _ _ _ (never_of_safe (safe_opt safe_i32)) (.danger _ _ _ _ rfl (panics_opt panics_websocket) rfl .nil))))))))

theorem deVariantStruct_panics {α : Type} (fs : List (List Str)) (make : List (Option Toml) → Outcome α) (v : Toml) :
    deVariantStruct strict fs make v = .panic ↔ (strict = true → NoOther fs v) ∧ deStruct fs make v = .panic := by
  cases v with
  | table es =>
    simp only [deVariantStruct, NoOther]
    by_cases h : (strict && es.any (fun e => !fs.flatten.contains e.1)) = true
    · rw [if_pos h]
      simp only [reduceCtorEq, false_iff, not_and]
      intro h'
      rw [Bool.and_eq_true, List.any_eq_true] at h
      obtain ⟨h1, e, he, h2⟩ := h
      have := h' h1 e he
      rw [← List.contains_iff_mem] at this
      rw [this] at h2
      cases h2
    · rw [if_neg h]
      refine ⟨fun h' => ⟨fun h1 e he => ?_, h'⟩, And.right⟩
      rw [h1, Bool.true_and, List.any_eq_true] at h
      rw [← List.contains_iff_mem]
      by_cases hc : fs.flatten.contains e.1 = true
      · exact hc
      · exact absurd ⟨e, he, by simpa using hc⟩ h
  | _ => simp [deVariantStruct, NoOther]

theorem deVariant_np (vs : List (List Str)) (v : Toml) : deVariant vs v ≠ .panic := by
  unfold deVariant
  split <;> (try split) <;> simp

/-- The settings of a file appender can be read, apart from further entries. -/
theorem file_readable (w : Toml) (make : List (Option Toml) → Outcome AppenderConfig)
    (hm : make = fun xs => (field xs 0 none (deOpt deStr)).bind fun level => (field xs 1 none (deOpt deBool)).bind fun equal =>
      (field xs 2 false deBool).bind fun daily => (field xs 3 0 (deSize U p)).bind fun bufsize => .value (.file level equal daily bufsize)) :
    (∃ a, deStruct fileFields make w = .value a) ↔ ∃ a, AppenderSays U p false (.table [(u!"File", w)]) a := by
  have he : AppenderConfig.de U p false (.table [(u!"File", w)]) = deStruct fileFields make w := by
    rw [hm]
    cases w <;> rfl
  rw [← he]
  exact readable_of (reads_appender U p false) _

theorem panics_appender : PanicsAs (AppenderConfig.de U p strict) (AppenderPanics U p strict) := by
  intro v
  have hd : appenderKinds.Pairwise (fun a b => ∀ x ∈ a, x ∉ b) := by decide +kernel
  have hst := panics_struct (fun w => file_readable (U := U) (p := p) w _ rfl) (Ds := [⟨3, [u!"bufsize", u!"BufferSize"], SizePanics U p⟩]) (by decide +kernel)
    (places_bind (fun _ => places_bind (fun _ => places_bind (fun _ => places_bind (fun _ => places_value _) _ _ _) _ _ _) _ _ _) _ _ _) rfl
    (.safe _ _ _ (never_of_safe (safe_opt safe_str)) (.safe _ _ _ (never_of_safe (safe_opt safe_bool)) (.safe _ _ _ (never_of_safe safe_bool)
      (.danger _ _ _ _ rfl panics_size rfl .nil))))
  have hcons : ∀ w, deStruct [[u!"level", u!"Level"]] (fun xs => (field xs 0 none (deOpt deStr)).bind fun level => Outcome.value (AppenderConfig.console level)) w ≠ .panic :=
    never_of_safe (safe_struct fun xs hx => bind_np (safe_field (safe_opt safe_str) hx _ _) fun _ => by simp)
  constructor
  · intro h
    simp only [AppenderConfig.de] at h
    cases hv : deVariant [[u!"Console", u!"console"], [u!"File", u!"file"]] v with
    | panic => exact absurd hv (deVariant_np _ v)
    | error => rw [hv] at h; cases h
    | value q =>
      rw [hv] at h
      simp only [Outcome.bind] at h
      split at h
      · rename_i w
        exact absurd ((deVariantStruct_panics _ _ _).1 h).2 (hcons w)
      · rename_i w
        obtain ⟨h1, h2⟩ := (deVariantStruct_panics _ _ _).1 h
        exact ⟨w, (deVariant_only appenderKinds hd v 1 w).1 hv, h1, (hst w).1 h2⟩
      · cases h
  · rintro ⟨w, h1, h2, h3⟩
    have hv := (deVariant_only appenderKinds hd v 1 w).2 h1
    simp only [AppenderConfig.de]
    rw [show deVariant [[u!"Console", u!"console"], [u!"File", u!"file"]] v = _ from hv]
    exact (deVariantStruct_panics _ _ _).2 ⟨h2, (hst w).2 h3⟩

theorem panics_logging : PanicsAs (LoggingConfig.de U p strict) (LoggingPanics U p strict) :=
  panics_struct (readable_of (reads_logging U p strict)) (by decide +kernel)
    (places_bind (fun _ => places_bind (fun _ => places_bind (fun _ => places_value _) _ _ _) _ _ _) _ _ _) rfl
    (.safe _ _ _ (never_of_safe (safe_opt safe_bool)) (.safe _ _ _ (never_of_safe safe_str)
      (.danger _ _ _ _ rfl (panics_vec (reads_appender U p strict) panics_appender) rfl .nil)))

theorem panics_service : PanicsAs (ServiceConfig.de U p strict) (ServicePanics U p strict) :=
  panics_struct (readable_of (C141_service_file U p strict)) (by decide +kernel)
    (places_bind (fun _ => places_bind (fun _ => places_bind (fun _ => places_bind (fun _ => places_bind (fun _ => places_bind (fun _ =>
      places_value _) _ _ _) _ _ _) _ _ _) _ _ _) _ _ _) _ _ _) rfl
    (.safe _ _ _ (never_of_safe safe_str) (.safe _ _ _ (never_of_safe safe_str) (.safe _ _ _ (never_of_safe (safe_kind strict))
      (.danger _ _ _ _ rfl panics_logging (by simp [serviceFields, List.isPerm]) (.danger _ _ _ _ rfl panics_tcp rfl (.danger _ _ _ _ rfl panics_http rfl .nil))))))

theorem panics_file : PanicsAs (ConfigFile.de U p strict) (FilePanics U p strict) :=
  panics_struct (readable_of (C141_file U p strict)) (by decide +kernel)
    (places_bind (fun _ => places_bind (fun _ => places_bind (fun _ => places_bind (fun _ => places_bind (fun _ => places_bind (fun _ =>
      places_bind (fun _ => places_bind (fun _ => places_bind (fun _ => places_bind (fun _ =>
      places_value _) _ _ _) _ _ _) _ _ _) _ _ _) _ _ _) _ _ _) _ _ _) _ _ _) _ _ _) _ _ _) rfl
    (.safe _ _ _ (never_of_safe safe_str) (.safe _ _ _ (never_of_safe safe_runtime) (.danger _ _ _ _ rfl panics_logging rfl
      (.safe _ _ _ (never_of_safe safe_str) (.safe _ _ _ (never_of_safe (safe_opt safe_str)) (.danger _ _ _ _ rfl panics_tcp rfl
      (.danger _ _ _ _ rfl panics_http rfl (.safe _ _ _ (never_of_safe safe_str) (.safe _ _ _ (never_of_safe (safe_vec safe_str))
      (.danger _ _ _ _ rfl (panics_map (C141_service_file U p strict) panics_service) rfl .nil))))))))))

/-! ## C147 -/

/-- **C147**, what a file whose reading panics looks like: the first entry that counts is a size or a duration at which the parser panics. -/
theorem C147_file_partial (v : Toml) : ConfigFile.de U p strict v = .panic ↔ FilePanics U p strict v := panics_file v

/-- **C147**, exactly when loading panics, said of the files alone. -/
theorem C147_files_partial (pathExists chdir : Str → Bool) (glob : Str → Option (List GlobFile))
    (order : List (Str × ServiceConfig) → List (Str × ServiceConfig)) (horder : ∀ l, (order l).Perm l) (v : Toml)
    (hnd : ∀ ss, setting [u!"services", u!"Services"] 9 v = some (.table ss) → (ss.map (·.1)).Nodup) :
    loadFile U p strict pathExists chdir glob order (some v) = .panic ↔
      FilePanics U p strict v ∨
      ∃ (f : ConfigFile) (added : List (List (Str × ServiceConfig))), FileSays U p strict v f ∧ (f.workdir = [] ∨ chdir f.workdir = true) ∧
        FoundStops U p strict glob (patternsOf f.include f.includes) added ∧
        ((f.config.services ++ added.flatten).map (·.1)).Nodup := by
  rw [C147_exactly_partial pathExists chdir glob order horder v hnd, panics_file v]
  simp only [StopsAt, FoundStops, Harmful, FoundPanics, panics_service _]

/-- A size without a number in the appender of a service: the program panics. -/
example : FilePanics asciiUnicode .release false (.table [(u!"workdir", .str u!"/srv"), (u!"services", .table [(u!"a", .table [(u!"log", .table
    [(u!"appenders", .arr [.table [(u!"File", .table [(u!"bufsize", .str u!"large")])]])])])])]) :=
  (C147_file_partial _).1 (by decide +kernel)

/-- After another mistake it is not reached. -/
example : ¬ FilePanics asciiUnicode .release false (.table [(u!"workdir", .int 1), (u!"services", .table [(u!"a", .table [(u!"log", .table
    [(u!"appenders", .arr [.table [(u!"File", .table [(u!"bufsize", .str u!"large")])]])])])])]) :=
  fun h => absurd ((C147_file_partial _).2 h) (by decide +kernel)

end

end Httpd
