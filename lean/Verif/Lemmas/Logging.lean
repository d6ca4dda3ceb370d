import Verif.Spec.Logging
import Verif.Props.ConfigLog
/-! # The consumer of log records -/

namespace Httpd
open Spec

/-! ## Case -/

theorem fold_eq {c d : Nat} : upperAscii c = upperAscii d ↔ lowerPoint c = lowerPoint d := by
  unfold upperAscii lowerPoint
  split <;> split <;> split <;> split <;> omega

theorem eqNameIgnoreCase_iff (a b : Str) : eqNameIgnoreCase a b = true ↔ SameText a b := by
  unfold eqNameIgnoreCase SameText
  simp only [decide_eq_true_eq]
  induction a generalizing b with
  | nil => cases b <;> simp
  | cons x a ih =>
    cases b with
    | nil => simp
    | cons y b => simp only [List.map_cons, List.cons.injEq, ih b, fold_eq]

/-! ## Increasing lists -/

theorem increasing_range' (l : List Nat) (a : Nat) (h : l.Pairwise (· < ·)) (hlo : ∀ x ∈ l, a ≤ x) (hhi : ∀ x ∈ l, x < a + l.length) :
    l = List.range' a l.length := by
  induction l generalizing a with
  | nil => rfl
  | cons x l ih =>
    rw [List.pairwise_cons] at h
    have hx := hlo x (List.mem_cons_self ..)
    have ht := ih (a + 1) h.2 (by intro y hy; have := h.1 y hy; omega)
      (by intro y hy; have := hhi y (List.mem_cons_of_mem _ hy); simp only [List.length_cons] at this; omega)
    have hxa : x = a := by
      cases l with
      | nil => have := hhi x (List.mem_cons_self ..); simp at this; omega
      | cons y l =>
        have h1 := h.1 y (List.mem_cons_self ..)
        rw [List.length_cons, List.range'_succ] at ht
        have h2 : y = a + 1 := (List.cons.inj ht).1
        omega
    rw [List.length_cons, List.range'_succ, hxa, ← ht]

theorem filter_range_initial (n : Nat) (P : Nat → Bool) (l : List Nat) (hl : l = (List.range n).filter P) :
    (∀ x ∈ l, x < l.length) ↔ l = List.range l.length := by
  constructor
  · intro h
    have hp : l.Pairwise (· < ·) := by
      rw [hl]; exact List.Pairwise.filter _ List.pairwise_lt_range
    rw [List.range_eq_range']
    exact increasing_range' l 0 hp (by intro x _; omega) (by intro x hx; have := h x hx; omega)
  · intro h x hx
    rw [h] at hx
    exact List.mem_range.mp hx

/-! ## The consumer -/

/-- What `init` and the configuration establish. -/
structure Consumer.Sound (c : Consumer) : Prop where
  armap : ∀ (i : Nat) (a : Appender), c.appenders[i]? = some a → ∃ (j : Nat) (r : Renderer), c.armap[i]? = some j ∧ c.renderers[j]? = some r ∧ SameText r.name a.renderer
  samap : ∀ (s : Nat) (l : List Nat), c.samap[s]? = some l →
    l = (List.range c.appenders.length).filter (fun i => (c.appenders[i]?).map (·.service) = some s)
  service : ∀ a ∈ c.appenders, a.service < c.samap.length

/-- Whether an appender accepts. -/
def Consumer.accepts (c : Consumer) (item : Item) (i : Nat) : Bool :=
  match c.appenders[i]? with
  | some a => a.filter item
  | none => false

theorem pick1_spec (c : Consumer) (item : Item) (idxes dest : List Nat) (h : ∀ i ∈ idxes, i < c.appenders.length) :
    c.pick1 item idxes dest = some (dest ++ idxes.filter (c.accepts item)) := by
  induction idxes generalizing dest with
  | nil => simp [Consumer.pick1]
  | cons i idxes ih =>
    have hi := h i (List.mem_cons_self ..)
    simp only [Consumer.pick1, List.getElem?_eq_getElem hi]
    rw [ih _ (fun j hj => h j (List.mem_cons_of_mem _ hj)), List.filter_cons]
    have : c.accepts item i = c.appenders[i].filter item := by simp [Consumer.accepts, List.getElem?_eq_getElem hi]
    rw [this]
    split <;> simp

theorem send1_spec (c : Consumer) (buf : Bytes) (idxes : List Nat) (h : ∀ i ∈ idxes, i < c.appenders.length) :
    c.send1 buf idxes = some (idxes.map (fun i => (i, buf))) := by
  induction idxes with
  | nil => rfl
  | cons i idxes ih =>
    have hi := h i (List.mem_cons_self ..)
    simp only [Consumer.send1, List.getElem?_eq_getElem hi]
    rw [ih (fun j hj => h j (List.mem_cons_of_mem _ hj))]
    rfl

theorem pick_spec (c : Consumer) (item : Item) (idxes : List Nat) (st : Picked) (h : ∀ i ∈ idxes, i < c.appenders.length)
    (ha : ∀ i, i < c.appenders.length → i < c.armap.length) :
    ∃ rs, c.pick item idxes st = some ⟨st.dest ++ idxes.filter (c.accepts item), rs,
        st.map ++ (idxes.filter (c.accepts item)).map (fun i => c.armap[i]?.getD 0)⟩ ∧
      (∀ j, j ∈ rs ↔ j ∈ st.rendererIdxes ∨ j ∈ (idxes.filter (c.accepts item)).map (fun i => c.armap[i]?.getD 0)) := by
  induction idxes generalizing st with
  | nil => exact ⟨st.rendererIdxes, by simp [Consumer.pick], by simp⟩
  | cons i idxes ih =>
    have hi := h i (List.mem_cons_self ..)
    have hm := ha i hi
    have hacc : c.accepts item i = c.appenders[i].filter item := by simp [Consumer.accepts, List.getElem?_eq_getElem hi]
    simp only [Consumer.pick, List.getElem?_eq_getElem hi]
    by_cases hf : c.appenders[i].filter item = true
    · rw [hf] at hacc
      simp only [hf, Bool.not_true, Bool.false_eq_true, ↓reduceIte, List.getElem?_eq_getElem hm]
      obtain ⟨rs, h1, h2⟩ := ih ⟨st.dest ++ [i], if st.rendererIdxes.contains c.armap[i] then st.rendererIdxes
          else st.rendererIdxes ++ [c.armap[i]], st.map ++ [c.armap[i]]⟩ (fun j hj => h j (List.mem_cons_of_mem _ hj))
      refine ⟨rs, ?_, ?_⟩
      · rw [h1, List.filter_cons, hacc]
        simp [List.getElem?_eq_getElem hm]
      · intro j
        rw [h2 j, List.filter_cons, hacc]
        simp only [↓reduceIte, List.map_cons, List.mem_cons, List.getElem?_eq_getElem hm, Option.getD_some]
        by_cases hc : st.rendererIdxes.contains c.armap[i] = true
        · simp only [hc, ↓reduceIte]
          have hmem : c.armap[i] ∈ st.rendererIdxes := by simpa using hc
          constructor
          · rintro (h | h)
            · exact Or.inl h
            · exact Or.inr (Or.inr h)
          · rintro (h | h | h)
            · exact Or.inl h
            · exact Or.inl (h ▸ hmem)
            · exact Or.inr h
        · simp only [hc]
          simp only [Bool.false_eq_true, ↓reduceIte, List.mem_append, List.mem_singleton, or_assoc]
    · have hf' : c.appenders[i].filter item = false := by simpa using hf
      rw [hf'] at hacc
      simp only [hf', Bool.not_false, ↓reduceIte]
      obtain ⟨rs, h1, h2⟩ := ih st (fun j hj => h j (List.mem_cons_of_mem _ hj))
      refine ⟨rs, ?_, ?_⟩
      · rw [h1, List.filter_cons, hacc]; simp
      · intro j; rw [h2 j, List.filter_cons, hacc]; simp

theorem renderAll_spec (c : Consumer) (item : Item) (rs : List Nat) (bufs : List Bytes) (hlen : bufs.length = c.renderers.length)
    (h : ∀ j ∈ rs, j < c.renderers.length) :
    ∃ bufs', c.renderAll item rs bufs = some bufs' ∧ bufs'.length = bufs.length ∧
      ∀ j r, c.renderers[j]? = some r → j ∈ rs → bufs'[j]? = some (r.render item) := by
  have gen : ∀ (rs : List Nat) (bufs : List Bytes), bufs.length = c.renderers.length → (∀ j ∈ rs, j < c.renderers.length) →
      ∃ bufs', c.renderAll item rs bufs = some bufs' ∧ bufs'.length = bufs.length ∧
        (∀ j, j ∉ rs → bufs'[j]? = bufs[j]?) ∧
        ∀ j r, c.renderers[j]? = some r → j ∈ rs → bufs'[j]? = some (r.render item) := by
    intro rs
    induction rs with
    | nil => intro bufs _ _; exact ⟨bufs, rfl, rfl, fun _ _ => rfl, by simp⟩
    | cons i rs ih =>
      intro bufs hlen h
      have hi := h i (List.mem_cons_self ..)
      have hb : i < bufs.length := by omega
      simp only [Consumer.renderAll, List.getElem?_eq_getElem hi, List.getElem?_eq_getElem hb]
      obtain ⟨bufs', h1, h2, h3, h4⟩ := ih (bufs.set i (c.renderers[i].render item)) (by simpa using hlen)
        (fun j hj => h j (List.mem_cons_of_mem _ hj))
      refine ⟨bufs', h1, by simpa using h2, ?_, ?_⟩
      · intro j hj
        simp only [List.mem_cons, not_or] at hj
        rw [h3 j hj.2, List.getElem?_set_ne (fun h => hj.1 h.symm)]
      · intro j r hr hj
        by_cases hjr : j ∈ rs
        · exact h4 j r hr hjr
        · rcases List.mem_cons.mp hj with rfl | hj
          · rw [h3 j hjr, List.getElem?_set_self hb]
            rw [List.getElem?_eq_getElem hi] at hr
            cases hr; rfl
          · exact absurd hj hjr
  obtain ⟨bufs', h1, h2, _, h4⟩ := gen rs bufs hlen h
  exact ⟨bufs', h1, h2, h4⟩

theorem send_spec (c : Consumer) (bufs : List Bytes) (map : List Nat) (dest : List Nat) (hm : ∀ j ∈ map, j < bufs.length)
    (ha : ∀ i ∈ dest, i < c.appenders.length) :
    ((∀ i ∈ dest, i < map.length) →
      c.send bufs map dest = some (dest.map (fun i => (i, bufs[map[i]?.getD 0]?.getD [])))) ∧
    ((∃ i ∈ dest, map.length ≤ i) → c.send bufs map dest = none) := by
  induction dest with
  | nil => exact ⟨fun _ => rfl, by simp⟩
  | cons i dest ih =>
    obtain ⟨ih1, ih2⟩ := ih (fun j hj => ha j (List.mem_cons_of_mem _ hj))
    have hia := ha i (List.mem_cons_self ..)
    constructor
    · intro h
      have hi := h i (List.mem_cons_self ..)
      have hb := hm map[i] (List.getElem_mem hi)
      simp only [Consumer.send, List.getElem?_eq_getElem hi, List.getElem?_eq_getElem hb, List.getElem?_eq_getElem hia]
      rw [ih1 (fun j hj => h j (List.mem_cons_of_mem _ hj))]
      simp [List.getElem?_eq_getElem hi, List.getElem?_eq_getElem hb]
    · intro h
      by_cases hi : i < map.length
      · have hb := hm map[i] (List.getElem_mem hi)
        simp only [Consumer.send, List.getElem?_eq_getElem hi, List.getElem?_eq_getElem hb, List.getElem?_eq_getElem hia]
        rw [ih2]
        · rfl
        · obtain ⟨j, hj, hl⟩ := h
          rcases List.mem_cons.mp hj with rfl | hj
          · omega
          · exact ⟨j, hj, hl⟩
      · simp only [Consumer.send]
        rw [List.getElem?_eq_none (by omega)]

theorem wanted_lt (as : List Appender) (item : Item) : ∀ i ∈ wanted as item, i < as.length := by
  intro i hi
  unfold wanted at hi
  rw [List.mem_filter] at hi
  exact List.mem_range.mp hi.1

theorem wanted_filter (c : Consumer) (hs : c.Sound) (item : Item) :
    (c.samap[item.service]? = none → wanted c.appenders item = []) ∧
    (∀ l, c.samap[item.service]? = some l → (∀ i ∈ l, i < c.appenders.length) ∧
      l.filter (c.accepts item) = wanted c.appenders item) := by
  constructor
  · intro h
    unfold wanted
    rw [List.filter_eq_nil_iff]
    intro i hi
    have hlt := List.mem_range.mp hi
    simp only [List.getElem?_eq_getElem hlt, Bool.and_eq_true, decide_eq_true_eq, not_and]
    intro he
    have := hs.service _ (List.getElem_mem hlt)
    rw [List.getElem?_eq_none_iff] at h
    omega
  · intro l hl
    have := hs.samap _ l hl
    subst this
    constructor
    · intro i hi
      rw [List.mem_filter] at hi
      exact List.mem_range.mp hi.1
    · rw [List.filter_filter]
      apply List.filter_congr
      intro i hi
      have hlt := List.mem_range.mp hi
      simp only [Consumer.accepts, List.getElem?_eq_getElem hlt, Option.map_some, Option.some.injEq]
      exact Bool.and_comm _ _

theorem consume1_spec (c : Consumer) (hs : c.Sound) (h1 : c.renderers.length = 1) (item : Item) (bufs : List Bytes)
    (hb : bufs.length = 1) :
    ∃ bufs' ws, c.consume1 item bufs = some (bufs', ws) ∧ bufs'.length = 1 ∧ ws.map (·.1) = wanted c.appenders item ∧
      ∀ w ∈ ws, Rendered c.appenders c.renderers item w := by
  obtain ⟨w0, w1⟩ := wanted_filter c hs item
  have hf : c.filter1 item = some (wanted c.appenders item) := by
    unfold Consumer.filter1
    cases hsm : c.samap[item.service]? with
    | none => rw [w0 hsm]
    | some l =>
      obtain ⟨h2, h3⟩ := w1 l hsm
      simp only []
      rw [pick1_spec c item l [] h2, h3, List.nil_append]
  unfold Consumer.consume1
  rw [hf]
  simp only []
  by_cases he : (wanted c.appenders item).length < 1
  · rw [if_pos he]
    have : wanted c.appenders item = [] := List.length_eq_zero_iff.mp (by omega)
    exact ⟨bufs, [], rfl, hb, by rw [this]; rfl, by simp⟩
  · rw [if_neg he]
    have hr0 : 0 < c.renderers.length := by omega
    have hb0 : 0 < bufs.length := by omega
    simp only [List.getElem?_eq_getElem hr0, List.getElem?_eq_getElem hb0]
    rw [send1_spec c _ _ (wanted_lt _ _)]
    refine ⟨_, _, rfl, by simpa using hb, by simp [Function.comp_def], ?_⟩
    intro w hw
    obtain ⟨i, hi, rfl⟩ := List.mem_map.mp hw
    have hlt := wanted_lt _ _ i hi
    obtain ⟨j, r, h2, h3, h4⟩ := hs.armap i _ (List.getElem?_eq_getElem hlt)
    have hj : j = 0 := by have := (List.getElem?_eq_some_iff.mp h3).1; omega
    subst hj
    rw [List.getElem?_eq_getElem hr0] at h3
    cases h3
    exact ⟨_, _, List.getElem?_eq_getElem hlt, List.getElem_mem hr0, h4, rfl⟩

theorem consume_spec (c : Consumer) (hs : c.Sound) (item : Item) (bufs : List Bytes) (hb : bufs.length = c.renderers.length) :
    (wanted c.appenders item = List.range (wanted c.appenders item).length →
      ∃ bufs' ws, c.consume item bufs = some (bufs', ws) ∧ bufs'.length = bufs.length ∧
        ws.map (·.1) = wanted c.appenders item ∧ ∀ w ∈ ws, Rendered c.appenders c.renderers item w) ∧
    (wanted c.appenders item ≠ List.range (wanted c.appenders item).length → c.consume item bufs = none) := by
  obtain ⟨w0, w1⟩ := wanted_filter c hs item
  generalize hW : wanted c.appenders item = W at *
  have hWlt : ∀ i ∈ W, i < c.appenders.length := by rw [← hW]; exact wanted_lt _ _
  have harlen : ∀ i, i < c.appenders.length → i < c.armap.length := by
    intro i hi
    obtain ⟨j, r, h1, _⟩ := hs.armap i _ (List.getElem?_eq_getElem hi)
    exact (List.getElem?_eq_some_iff.mp h1).1
  have hf : ∃ rs, c.filter item = some ⟨W, rs, W.map (fun i => c.armap[i]?.getD 0)⟩ ∧
      ∀ j, j ∈ rs ↔ j ∈ W.map (fun i => c.armap[i]?.getD 0) := by
    unfold Consumer.filter
    cases hsm : c.samap[item.service]? with
    | none => rw [w0 hsm]; exact ⟨[], rfl, by simp⟩
    | some l =>
      obtain ⟨h2, h3⟩ := w1 l hsm
      obtain ⟨rs, h4, h5⟩ := pick_spec c item l ⟨[], [], []⟩ h2 harlen
      rw [h3] at h4 h5
      exact ⟨rs, by simpa using h4, by simpa using h5⟩
  obtain ⟨rs, hf1, hf2⟩ := hf
  have hmr : ∀ i ∈ W, ∃ j r, c.armap[i]? = some j ∧ c.renderers[j]? = some r := by
    intro i hi
    obtain ⟨j, r, h1, h2, _⟩ := hs.armap i _ (List.getElem?_eq_getElem (hWlt i hi))
    exact ⟨j, r, h1, h2⟩
  have hrs : ∀ j ∈ rs, j < c.renderers.length := by
    intro j hj
    obtain ⟨i, hi, hij⟩ := List.mem_map.mp ((hf2 j).mp hj)
    obtain ⟨j', r, h1, h2⟩ := hmr i hi
    rw [h1] at hij
    simp only [Option.getD_some] at hij
    subst hij
    exact (List.getElem?_eq_some_iff.mp h2).1
  obtain ⟨bufs', hr1, hr2, hr3⟩ := renderAll_spec c item rs bufs hb hrs
  have hmap : ∀ j ∈ W.map (fun i => c.armap[i]?.getD 0), j < bufs'.length := by
    intro j hj
    have := hrs j ((hf2 j).mpr hj)
    omega
  obtain ⟨hs1, hs2⟩ := send_spec c bufs' (W.map (fun i => c.armap[i]?.getD 0)) W hmap hWlt
  have hinit := filter_range_initial _ _ W hW.symm
  have hcons : c.consume item bufs = if W.isEmpty then some (bufs, []) else
      (c.send bufs' (W.map (fun i => c.armap[i]?.getD 0)) W).map (fun w => (bufs', w)) := by
    unfold Consumer.consume
    rw [hf1]
    simp only [hr1]
  constructor
  · intro hW2
    rw [hcons]
    by_cases he : W = []
    · subst he
      exact ⟨bufs, [], rfl, rfl, rfl, by simp⟩
    · rw [if_neg (by simpa using he), hs1 (by simpa using hinit.mpr hW2)]
      refine ⟨_, _, rfl, hr2, ?_, ?_⟩
      · simp [Function.comp_def]
      · intro w hw
        obtain ⟨i, hi, rfl⟩ := List.mem_map.mp hw
        obtain ⟨j, r, h1, h2, h3⟩ := hs.armap i _ (List.getElem?_eq_getElem (hWlt i hi))
        refine ⟨_, r, List.getElem?_eq_getElem (hWlt i hi), List.mem_of_getElem? h2, h3, ?_⟩
        have hil : i < W.length := hinit.mpr hW2 i hi
        have hWi : W[i]? = some i := by rw [hW2]; exact List.getElem?_range hil
        have hm : (W.map (fun i => c.armap[i]?.getD 0))[i]? = some j := by
          rw [List.getElem?_map, hWi]; simp [h1]
        simp only [hm, Option.getD_some]
        have hjrs : j ∈ rs := (hf2 j).mpr (List.mem_map.mpr ⟨i, hi, by simp [h1]⟩)
        rw [hr3 j r h2 hjrs]
        rfl
  · intro hW2
    have he : W ≠ [] := by
      intro h0; rw [h0] at hW2; simp at hW2
    rw [hcons, if_neg (by simpa using he), hs2]
    · rfl
    · have : ¬ ∀ x ∈ W, x < W.length := fun h => hW2 (hinit.mp h)
      simp only [Classical.not_forall] at this
      obtain ⟨x, hx, hlt⟩ := this
      exact ⟨x, hx, by simpa using hlt⟩

/-! ## Setting up -/

theorem noteAppenders_lt (as : List AppenderInit) (idx : Nat) (slab out : List (List Nat)) (h : noteAppenders as idx slab = some out) :
    ∀ a ∈ as, a.service < slab.length := by
  induction as generalizing idx slab with
  | nil => simp
  | cons a as ih =>
    simp only [noteAppenders, noteAppender] at h
    by_cases ha : a.service < slab.length
    · simp only [ha, ↓reduceIte] at h
      have := ih _ _ h
      simp only [List.length_modify] at this
      intro b hb
      rcases List.mem_cons.mp hb with rfl | hb
      · exact ha
      · exact this b hb
    · simp [ha] at h

theorem noteAppenders_length (as : List AppenderInit) (idx : Nat) (slab out : List (List Nat))
    (h : noteAppenders as idx slab = some out) : out.length = slab.length := by
  obtain ⟨out', h1, h2, _⟩ := noteAppenders_spec as idx slab (noteAppenders_lt as idx slab out h)
  rw [h] at h1
  cases h1
  exact h2

theorem foldl_nodup (names : List Str) (ns : List Str) (f : Str → Str) (hns : ns.Nodup) :
    (names.foldl (fun ns n => if ns.contains (f n) then ns else ns ++ [f n]) ns).length ≤ ns.length + names.length ∧
    ((names.foldl (fun ns n => if ns.contains (f n) then ns else ns ++ [f n]) ns).length = ns.length + names.length ↔
      (ns ++ names.map f).Nodup) := by
  induction names generalizing ns with
  | nil => simp [hns]
  | cons n names ih =>
    simp only [List.foldl_cons]
    by_cases hc : ns.contains (f n) = true
    · simp only [hc, ↓reduceIte]
      obtain ⟨h1, _⟩ := ih ns hns
      refine ⟨by simp only [List.length_cons]; omega, ?_⟩
      simp only [List.length_cons]
      constructor
      · intro h; omega
      · intro h
        exfalso
        rw [List.nodup_append] at h
        exact h.2.2 (f n) (by simpa using hc) (f n) (by simp) rfl
    · simp only [hc, Bool.false_eq_true, ↓reduceIte]
      have hnd : (ns ++ [f n]).Nodup := by
        rw [List.nodup_append]
        refine ⟨hns, by simp, ?_⟩
        intro a ha b hb
        rw [List.mem_singleton] at hb
        subst hb
        rintro rfl
        exact hc (by simpa using ha)
      obtain ⟨h1, h2⟩ := ih (ns ++ [f n]) hnd
      simp only [List.length_append, List.length_cons, List.length_nil] at h1 h2
      simp only [List.length_cons]
      refine ⟨by omega, ?_⟩
      rw [show ns.length + (names.length + 1) = ns.length + (0 + 1) + names.length by omega, h2]
      simp

theorem uniqueNames_iff (U : Unicode) (names : List Str) : uniqueNames U names = true ↔ (names.map U.lower).Nodup := by
  have := (foldl_nodup names [] U.lower (by simp)).2
  unfold uniqueNames
  simp only [decide_eq_true_eq]
  simpa using this

theorem ridx_spec (c : Consumer) (name : Str) :
    (∀ j, c.ridx name = some j → ∃ r, c.renderers[j]? = some r ∧ SameText r.name name) ∧
    (c.ridx name = none ↔ ∀ r ∈ c.renderers, ¬ SameText r.name name) := by
  unfold Consumer.ridx
  constructor
  · intro j h
    rw [List.findIdx?_eq_some_iff_getElem] at h
    obtain ⟨hlt, h1, _⟩ := h
    exact ⟨_, List.getElem?_eq_getElem hlt, (eqNameIgnoreCase_iff _ _).mp h1⟩
  · rw [List.findIdx?_eq_none_iff]
    constructor
    · intro h r hr hs
      have := h r hr
      rw [(eqNameIgnoreCase_iff _ _).mpr hs] at this
      cases this
    · intro h r hr
      cases he : eqNameIgnoreCase r.name name with
      | false => rfl
      | true => exact absurd ((eqNameIgnoreCase_iff _ _).mp he) (h r hr)

theorem bind_spec (c : Consumer) (as : List Appender) (armap : List Nat) :
    (∀ out, c.bind as armap = some out → ∃ new, out = armap ++ new ∧ new.length = as.length ∧
      ∀ (i : Nat) (a : Appender), as[i]? = some a → ∃ (j : Nat) (r : Renderer), new[i]? = some j ∧ c.renderers[j]? = some r ∧ SameText r.name a.renderer) ∧
    (c.bind as armap = none ↔ ∃ a ∈ as, ∀ r ∈ c.renderers, ¬ SameText r.name a.renderer) := by
  induction as generalizing armap with
  | nil => exact ⟨fun out h => by simp only [Consumer.bind, Option.some.injEq] at h; exact ⟨[], by simp [h], rfl, by simp⟩,
      by simp [Consumer.bind]⟩
  | cons a as ih =>
    obtain ⟨r1, r2⟩ := ridx_spec c a.renderer
    simp only [Consumer.bind]
    cases hr : c.ridx a.renderer with
    | none =>
      refine ⟨by simp, ?_⟩
      simp only [true_iff]
      exact ⟨a, List.mem_cons_self .., r2.mp hr⟩
    | some j =>
      simp only []
      obtain ⟨ih1, ih2⟩ := ih (armap ++ [j])
      constructor
      · intro out h
        obtain ⟨new, h1, h2, h3⟩ := ih1 out h
        refine ⟨j :: new, by simp [h1], by simp [h2], ?_⟩
        intro i b hb
        cases i with
        | zero =>
          simp only [List.getElem?_cons_zero, Option.some.injEq] at hb
          subst hb
          obtain ⟨r, h4, h5⟩ := r1 j hr
          exact ⟨j, r, rfl, h4, h5⟩
        | succ i =>
          simp only [List.getElem?_cons_succ] at hb ⊢
          exact h3 i b hb
      · rw [ih2]
        constructor
        · rintro ⟨b, hb, h⟩; exact ⟨b, List.mem_cons_of_mem _ hb, h⟩
        · rintro ⟨b, hb, h⟩
          rcases List.mem_cons.mp hb with rfl | hb
          · rw [r2.mpr h] at hr; cases hr
          · exact ⟨b, hb, h⟩

end Httpd
