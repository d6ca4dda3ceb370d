import Verif.Model.MultiMap
import Verif.Spec.MultiMap
/-! # Lemmas about the multi-map model -/

namespace Httpd
namespace MultiMap

/-- Update the first element satisfying `p`, or add `x` at the end. -/
def upsert (p : Pair → Bool) (g : Pair → Pair) (x : Pair) : List Pair → List Pair
  | [] => [x]
  | e :: l => if p e then g e :: l else e :: upsert p g x l

/-- Update the first element satisfying `p`, if any. -/
def updFirst (p : Pair → Bool) (g : Pair → Pair) : List Pair → List Pair
  | [] => []
  | e :: l => if p e then g e :: l else e :: updFirst p g l

theorem upsert_eq (p : Pair → Bool) (g : Pair → Pair) (x : Pair) (l : List Pair) :
    (match l.findIdx? p with | some pos => l.modify pos g | none => l ++ [x]) = upsert p g x l := by
  induction l with
  | nil => simp [upsert]
  | cons e l ih =>
    simp only [List.findIdx?_cons, upsert]
    by_cases h : p e
    · simp [h]
    · simp only [h]
      rw [← ih]
      cases l.findIdx? p <;> simp

theorem updFirst_eq (p : Pair → Bool) (g : Pair → Pair) (l : List Pair) :
    (match l.findIdx? p with | some pos => l.modify pos g | none => l) = updFirst p g l := by
  induction l with
  | nil => simp [updFirst]
  | cons e l ih =>
    simp only [List.findIdx?_cons, updFirst]
    by_cases h : p e
    · simp [h]
    · simp only [h]
      rw [← ih]
      cases l.findIdx? p <;> simp

theorem find?_eq_hmGet (l : List Pair) (k : Bytes) :
    (match l.find? (fun e => e.1 == k) with | some e => some e.2 | none => none) = hmGet l k := by
  induction l with
  | nil => rfl
  | cons e l ih =>
    obtain ⟨k', vs⟩ := e
    by_cases h : k' = k
    · simp [List.find?, hmGet, h]
    · have : (k' == k) = false := by simpa using h
      simp only [List.find?, hmGet, this, h, if_false]
      exact ih

theorem getall_vec (m : MultiMap) (h : m.ismap = false) (k : Bytes) : m.getall k = hmGet m.vec k := by
  simp only [getall, h]; exact find?_eq_hmGet _ _

theorem getall_map (m : MultiMap) (h : m.ismap = true) (k : Bytes) : m.getall k = hmGet m.table k := by
  simp [getall, h]

/-! ### hash map lemmas -/

def keys (l : List Pair) : List Bytes := l.map (·.1)

@[simp] theorem keys_nil : keys [] = [] := rfl
@[simp] theorem keys_cons (e : Pair) (l : List Pair) : keys (e :: l) = e.1 :: keys l := rfl

theorem hmGet_insert (l : List Pair) (k : Bytes) (vs : List Bytes) (x : Bytes) :
    hmGet (hmInsert l k vs) x = if x = k then some vs else hmGet l x := by
  induction l with
  | nil => simp [hmInsert, hmGet, eq_comm]
  | cons e l ih =>
    obtain ⟨k', vs'⟩ := e
    simp only [hmInsert]
    by_cases h : k' = k
    · subst h
      by_cases hx : x = k'
      · subst hx; simp [hmGet]
      · simp [hmGet, hx, Ne.symm hx]
    · simp only [h, if_false, hmGet, ih]
      by_cases hx : k' = x
      · subst hx; simp [h]
      · simp [hx]

theorem keys_insert (l : List Pair) (k : Bytes) (vs : List Bytes) :
    keys (hmInsert l k vs) = if k ∈ keys l then keys l else keys l ++ [k] := by
  induction l with
  | nil => simp [hmInsert]
  | cons e l ih =>
    obtain ⟨k', vs'⟩ := e
    simp only [hmInsert]
    by_cases h : k' = k
    · subst h; simp
    · simp only [h, if_false, keys_cons, ih, List.mem_cons, Ne.symm h, false_or]
      split <;> simp

theorem nodup_insert (l : List Pair) (k : Bytes) (vs : List Bytes) (h : (keys l).Nodup) :
    (keys (hmInsert l k vs)).Nodup := by
  rw [keys_insert]
  split
  · exact h
  · rw [List.nodup_append]
    refine ⟨h, by simp, ?_⟩
    intro a ha b hb
    simp only [List.mem_singleton] at hb
    subst hb
    rintro rfl
    contradiction

theorem hmGet_remove (l : List Pair) (k x : Bytes) :
    hmGet (hmRemove l k) x = if x = k then none else hmGet l x := by
  induction l with
  | nil => simp [hmRemove, hmGet]
  | cons e l ih =>
    obtain ⟨k', vs'⟩ := e
    simp only [hmRemove, List.filter_cons] at ih ⊢
    by_cases h : k' = k
    · subst h
      simp only [ne_eq, not_true_eq_false, decide_false, Bool.false_eq_true, if_false, ih, hmGet]
      by_cases hx : x = k'
      · simp [hx]
      · simp [hx, Ne.symm hx]
    · simp only [ne_eq, h, not_false_eq_true, decide_true, if_true, hmGet, ih]
      by_cases hx : k' = x
      · subst hx; simp [h]
      · simp [hx]

theorem nodup_remove (l : List Pair) (k : Bytes) (h : (keys l).Nodup) : (keys (hmRemove l k)).Nodup := by
  unfold keys hmRemove at *
  exact List.Pairwise.sublist (List.Sublist.map _ List.filter_sublist) h

theorem hmGet_none_iff (l : List Pair) (k : Bytes) : hmGet l k = none ↔ k ∉ keys l := by
  induction l with
  | nil => simp [hmGet]
  | cons e l ih =>
    obtain ⟨k', vs'⟩ := e
    simp only [hmGet, keys_cons, List.mem_cons, not_or]
    by_cases h : k' = k
    · simp [h]
    · simp [h, ih, Ne.symm h]

theorem hmGet_some_iff (l : List Pair) (h : (keys l).Nodup) (k : Bytes) (vs : List Bytes) :
    hmGet l k = some vs ↔ (k, vs) ∈ l := by
  induction l with
  | nil => simp [hmGet]
  | cons e l ih =>
    obtain ⟨k', vs'⟩ := e
    simp only [keys_cons, List.nodup_cons] at h
    simp only [hmGet, List.mem_cons, Prod.mk.injEq]
    by_cases hk : k' = k
    · subst hk
      simp only [if_true, Option.some.injEq, true_and]
      constructor
      · rintro rfl; exact Or.inl rfl
      · rintro (rfl | hm)
        · rfl
        · exact absurd (List.mem_map_of_mem (f := (·.1)) hm) h.1
    · simp [hk, ih h.2, Ne.symm hk]

theorem hmGet_perm {l l' : List Pair} (hp : l.Perm l') (h : (keys l).Nodup) (k : Bytes) : hmGet l k = hmGet l' k := by
  have h' : (keys l').Nodup := (hp.map (fun e : Pair => e.1)).nodup_iff.mp h
  cases hg : hmGet l' k with
  | none =>
    rw [hmGet_none_iff] at hg ⊢
    intro hm; exact hg ((hp.map (fun e : Pair => e.1)).mem_iff.mp hm)
  | some vs =>
    rw [hmGet_some_iff _ h'] at hg
    rw [hmGet_some_iff _ h]
    exact hp.mem_iff.mpr hg

theorem hmGet_append (l l' : List Pair) (k : Bytes) :
    hmGet (l ++ l') k = (hmGet l k).or (hmGet l' k) := by
  induction l with
  | nil => simp [hmGet]
  | cons e l ih =>
    obtain ⟨k', vs'⟩ := e
    simp only [List.cons_append, hmGet]
    split <;> simp [ih]

/-- the conversion loop of `tomap`, starting from table `t`. -/
theorem foldl_insert (l : List Pair) (t : List Pair) (h : (keys l).Nodup) (k : Bytes) :
    hmGet (l.foldl (fun t e => hmInsert t e.1 e.2) t) k = (hmGet l k).or (hmGet t k) := by
  induction l generalizing t with
  | nil => simp [hmGet]
  | cons e l ih =>
    obtain ⟨k', vs'⟩ := e
    simp only [keys_cons, List.nodup_cons] at h
    simp only [List.foldl_cons, ih _ h.2, hmGet_insert, hmGet]
    by_cases hk : k' = k
    · subst hk
      have : hmGet l k' = none := (hmGet_none_iff _ _).mpr h.1
      simp [this]
    · simp [hk, Ne.symm hk]

theorem foldl_insert_nodup (l : List Pair) (t : List Pair) (h : (keys t).Nodup) :
    (keys (l.foldl (fun t e => hmInsert t e.1 e.2) t)).Nodup := by
  induction l generalizing t with
  | nil => exact h
  | cons e l ih => exact ih _ (nodup_insert _ _ _ h)

/-! ### visitMut with a visitor that never stops -/

theorem visitMut_total (f : Bytes → List Bytes → List Bytes) (l : List Pair) :
    visitMut (fun k vs => (f k vs, true)) l = l.map (fun e => (e.1, f e.1 e.2)) := by
  induction l with
  | nil => rfl
  | cons e l ih => simp [visitMut, ih]

theorem hmGet_mapValues (f : Bytes → List Bytes → List Bytes) (l : List Pair) (k : Bytes) :
    hmGet (l.map (fun e => (e.1, f e.1 e.2))) k = (hmGet l k).map (f k) := by
  induction l with
  | nil => rfl
  | cons e l ih =>
    obtain ⟨k', vs'⟩ := e
    simp only [List.map_cons, hmGet]
    split
    · next h => subst h; simp
    · exact ih

theorem keys_mapValues (f : Bytes → List Bytes → List Bytes) (l : List Pair) :
    keys (l.map (fun e => (e.1, f e.1 e.2))) = keys l := by
  simp [keys, Function.comp_def]

/-! ### removal by value -/

theorem filter_eq_self_of_findIdx?_none (v : Bytes) (l : List Bytes) (h : l.findIdx? (fun e => e == v) = none) :
    l.filter (fun e => e ≠ v) = l := by
  rw [List.findIdx?_eq_none_iff] at h
  rw [List.filter_eq_self]
  intro a ha
  have := h a ha
  simpa using this

/-- The scanning loop deletes exactly the values equal to `v`, whatever its start, provided the skipped part holds none. -/
theorem removeByValueLoop_eq (v : Bytes) (fuel : Nat) (vs : List Bytes) (skip : Nat)
    (hskip : ∀ x ∈ vs.take skip, x ≠ v) (hfuel : vs.length < fuel) :
    removeByValueLoop v fuel vs skip = some (vs.filter (fun e => e ≠ v)) := by
  induction fuel generalizing vs skip with
  | zero => omega
  | succ fuel ih =>
    simp only [removeByValueLoop]
    cases hf : (vs.drop skip).findIdx? (fun e => e == v) with
    | none =>
      simp only [Option.some.injEq]
      have h1 := filter_eq_self_of_findIdx?_none v _ hf
      have h2 : (vs.take skip).filter (fun e => e ≠ v) = vs.take skip := by
        rw [List.filter_eq_self]; intro a ha; simpa using hskip a ha
      conv => lhs; rw [← List.take_append_drop skip vs]
      conv => rhs; rw [← List.take_append_drop skip vs]
      rw [List.filter_append, h1, h2]
    | some pos =>
      rw [List.findIdx?_eq_some_iff_getElem] at hf
      obtain ⟨hlt, hv, hbefore⟩ := hf
      simp only [List.length_drop] at hlt
      have hlt' : pos + skip < vs.length := by omega
      have hvpos : vs[pos + skip] = v := by
        have := hv
        simp only [List.getElem_drop, beq_iff_eq] at this
        simpa [Nat.add_comm] using this
      -- everything before position pos+skip differs from v
      have hpre : ∀ x ∈ vs.take (pos + skip), x ≠ v := by
        intro x hx
        rw [List.mem_take_iff_getElem] at hx
        obtain ⟨i, hi, rfl⟩ := hx
        by_cases hs : i < skip
        · apply hskip
          rw [List.mem_take_iff_getElem]
          exact ⟨i, by omega, rfl⟩
        · have := hbefore (i - skip) (by omega)
          simp only [List.getElem_drop, beq_iff_eq] at this
          have he : skip + (i - skip) = i := by omega
          simpa [he] using this
      have hdecomp : vs = vs.take (pos + skip) ++ v :: vs.drop (pos + skip + 1) := by
        conv => lhs; rw [← List.take_append_drop (pos + skip) vs]
        congr 1
        rw [List.drop_eq_getElem_cons hlt', hvpos]
      have herase : vs.eraseIdx (pos + skip) = vs.take (pos + skip) ++ vs.drop (pos + skip + 1) := by
        rw [List.eraseIdx_eq_take_drop_succ]
      simp only
      rw [ih]
      · rw [herase]
        conv => rhs; rw [hdecomp]
        simp
      · intro x hx
        rw [herase, List.take_append] at hx
        have : pos - (vs.take (pos + skip)).length = 0 := by rw [List.length_take]; omega
        rw [this] at hx
        simp only [List.take_zero, List.append_nil, List.take_take] at hx
        apply hpre
        rw [List.mem_take_iff_getElem] at hx ⊢
        obtain ⟨i, hi, rfl⟩ := hx
        exact ⟨i, by omega, rfl⟩
      · rw [List.length_eraseIdx]; split <;> omega

theorem removeByValue_eq (vs : List Bytes) (v : Bytes) : removeByValue vs v = vs.filter (fun e => e ≠ v) := by
  rw [removeByValue, removeByValueLoop_eq v _ vs 0 (by simp) (by omega)]; rfl

/-! ### invariant and refinement -/

/-- No empty keys in the list. -/
def NoEmptyKey (l : List Pair) : Prop := ∀ e ∈ l, e.1 ≠ []

/-- Keys of the live (non-emptied) slots. -/
def liveKeys (l : List Pair) : List Bytes := (keys l).filter (fun k => k ≠ [])

/-- Representation invariant. `dirty` says that a slot may have been emptied by `delete` since the last `clear`. -/
structure Inv (dirty : Bool) (m : MultiMap) : Prop where
  /-- map mode: the table exists and has distinct keys. -/
  mapMode : m.ismap = true → m.map.isSome ∧ (keys m.table).Nodup ∧ m.vec = []
  /-- list mode: there is no stale table; live keys are distinct; empty slots only if dirty. -/
  vecMode : m.ismap = false → m.table = [] ∧ (liveKeys m.vec).Nodup ∧ (dirty = false → NoEmptyKey m.vec)

theorem Inv.new : Inv false MultiMap.new := by
  constructor
  · intro h; cases h
  · intro _; exact ⟨rfl, by simp [MultiMap.new, liveKeys], fun _ e he => by cases he⟩

theorem Inv.nodup_vec {m : MultiMap} (h : Inv false m) (hm : m.ismap = false) : (keys m.vec).Nodup := by
  obtain ⟨_, h2, h3⟩ := h.vecMode hm
  have : liveKeys m.vec = keys m.vec := by
    unfold liveKeys
    rw [List.filter_eq_self]
    intro a ha
    simp only [keys, List.mem_map] at ha
    obtain ⟨e, he, rfl⟩ := ha
    simpa using h3 rfl e he
  rwa [this] at h2

theorem hmGet_upsert (p : Pair → Bool) (g : Pair → Pair) (l : List Pair) (k : Bytes) (vs : List Bytes)
    (upd : List Bytes → List Bytes)
    (hp : ∀ e ∈ l, p e = (e.1 == k)) (hg : ∀ e ∈ l, e.1 = k → g e = (k, upd e.2)) (x : Bytes) :
    hmGet (upsert p g (k, vs) l) x =
      if x = k then some (match hmGet l k with | some old => upd old | none => vs) else hmGet l x := by
  induction l with
  | nil =>
    simp only [upsert, hmGet]
    by_cases h : k = x
    · subst h; simp
    · simp [h, Ne.symm h]
  | cons e l ih =>
    obtain ⟨k', vs'⟩ := e
    have hpe := hp (k', vs') (by simp)
    simp only [upsert]
    by_cases h : k' = k
    · subst h
      have hg' := hg (k', vs') (by simp) rfl
      simp only [hpe, beq_self_eq_true, if_true, hg', hmGet]
      by_cases hx : k' = x
      · subst hx; simp
      · simp [hx, Ne.symm hx]
    · have hpe' : p (k', vs') = false := by rw [hpe]; simpa using h
      simp only [hpe', Bool.false_eq_true, if_false, hmGet, h]
      rw [ih (fun e he => hp e (by simp [he])) (fun e he => hg e (by simp [he]))]
      by_cases hx : k' = x
      · subst hx; simp [h]
      · simp [hx]

theorem keys_upsert (p : Pair → Bool) (g : Pair → Pair) (l : List Pair) (k : Bytes) (vs : List Bytes)
    (hp : ∀ e ∈ l, p e = (e.1 == k)) (hg : ∀ e ∈ l, e.1 = k → (g e).1 = k) :
    keys (upsert p g (k, vs) l) = if k ∈ keys l then keys l else keys l ++ [k] := by
  induction l with
  | nil => simp [upsert]
  | cons e l ih =>
    obtain ⟨k', vs'⟩ := e
    have hpe := hp (k', vs') (by simp)
    simp only [upsert]
    by_cases h : k' = k
    · subst h
      have hg' := hg (k', vs') (by simp) rfl
      simp [hpe, hg']
    · have hpe' : p (k', vs') = false := by rw [hpe]; simpa using h
      simp only [hpe', Bool.false_eq_true, if_false, keys_cons, List.mem_cons, Ne.symm h, false_or]
      rw [ih (fun e he => hp e (by simp [he])) (fun e he => hg e (by simp [he]))]
      split <;> simp

theorem hmGet_updFirst (p : Pair → Bool) (g : Pair → Pair) (l : List Pair) (k : Bytes)
    (upd : List Bytes → List Bytes)
    (hp : ∀ e ∈ l, p e = (e.1 == k)) (hg : ∀ e ∈ l, e.1 = k → g e = (k, upd e.2)) (x : Bytes) :
    hmGet (updFirst p g l) x = if x = k then (hmGet l k).map upd else hmGet l x := by
  induction l with
  | nil => simp [updFirst, hmGet]
  | cons e l ih =>
    obtain ⟨k', vs'⟩ := e
    have hpe := hp (k', vs') (by simp)
    simp only [updFirst]
    by_cases h : k' = k
    · subst h
      have hg' := hg (k', vs') (by simp) rfl
      simp only [hpe, beq_self_eq_true, if_true, hg', hmGet]
      by_cases hx : k' = x
      · subst hx; simp
      · simp [hx, Ne.symm hx]
    · have hpe' : p (k', vs') = false := by rw [hpe]; simpa using h
      simp only [hpe', Bool.false_eq_true, if_false, hmGet, h]
      rw [ih (fun e he => hp e (by simp [he])) (fun e he => hg e (by simp [he]))]
      by_cases hx : k' = x
      · subst hx; simp [h]
      · simp [hx]

theorem keys_updFirst (p : Pair → Bool) (g : Pair → Pair) (l : List Pair) (hg : ∀ e, (g e).1 = e.1) :
    keys (updFirst p g l) = keys l := by
  induction l with
  | nil => rfl
  | cons e l ih => simp only [updFirst]; split <;> simp [hg, ih]

/-! ### one-step refinement -/

/-- Apply an operation of the specification to the model. -/
def applyOp (ord : List Pair → List Pair) (m : MultiMap) : Spec.HeaderOp → MultiMap
  | .set k v => m.set k v
  | .append k v => m.append k v
  | .remove k v => m.remove k v
  | .delete k => m.delete k
  | .clear => m.clear
  | .mapValues f => m.eachMut ord (fun k vs => (f k vs, true))

/-- A possible iteration order of a hash map. -/
def IsOrder (ord : List Pair → List Pair) : Prop := ∀ l, (ord l).Perm l

/-- `Steps m ops m'`: the history `ops` can lead from `m` to `m'` (for some iteration orders of the hash map). -/
inductive Steps : MultiMap → List Spec.HeaderOp → MultiMap → Prop
  | nil (m) : Steps m [] m
  | cons {m op ops m'} (ord : List Pair → List Pair) (hord : IsOrder ord) :
      Steps (applyOp ord m op) ops m' → Steps m (op :: ops) m'

theorem noEmpty_p {l : List Pair} (h : NoEmptyKey l) (k : Bytes) :
    ∀ e ∈ l, (fun e : Pair => e.1 == k || e.1.isEmpty) e = (e.1 == k) := by
  intro e he
  have := h e he
  simp [this]

theorem set_vec (m : MultiMap) (h : m.ismap = false) (k v : Bytes) :
    m.set k v = { m with vec := upsert (fun e => e.1 == k || e.1.isEmpty) (fun e => (e.1, [v])) (k, [v]) m.vec } := by
  rw [← upsert_eq]
  simp only [MultiMap.set, h, vecFindOrEmpty]
  cases m.vec.findIdx? _ <;> simp

theorem append_vec (m : MultiMap) (h : m.ismap = false) (hl : m.vec.length < 36) (k v : Bytes) :
    m.append k v = 
      { m with vec :=
          upsert (fun e => e.1 == k || e.1.isEmpty) (fun e => (if e.1.isEmpty then k else e.1, e.2 ++ [v])) (k, [v]) m.vec } := by
  rw [← upsert_eq]
  have : ¬ 36 ≤ m.vec.length := by omega
  simp only [MultiMap.append, h, this, vecFindOrEmpty]
  cases m.vec.findIdx? _ <;> simp

theorem remove_vec (m : MultiMap) (h : m.ismap = false) (k v : Bytes) :
    m.remove k v = { m with vec := updFirst (fun e => e.1 == k) (fun e => (e.1, removeByValue e.2 v)) m.vec } := by
  rw [← updFirst_eq]
  obtain ⟨im, vec, mp⟩ := m
  cases h
  simp only [MultiMap.remove, vecFind]
  cases vec.findIdx? _ <;> simp

theorem delete_vec (m : MultiMap) (h : m.ismap = false) (k : Bytes) :
    m.delete k = { m with vec := updFirst (fun e => e.1 == k) (fun _ => ([], [])) m.vec } := by
  rw [← updFirst_eq]
  obtain ⟨im, vec, mp⟩ := m
  cases h
  simp only [MultiMap.delete, vecFind]
  cases vec.findIdx? _ <;> simp

theorem liveKeys_delete (l : List Pair) (k : Bytes) (h : (liveKeys l).Nodup) :
    (liveKeys (updFirst (fun e => e.1 == k) (fun _ => ([], [])) l)).Nodup := by
  have hs : (liveKeys (updFirst (fun e => e.1 == k) (fun _ => ([], [])) l)).Sublist (liveKeys l) := by
    clear h
    unfold liveKeys
    induction l with
    | nil => simp [updFirst]
    | cons e l ih =>
      obtain ⟨k', vs'⟩ := e
      simp only [updFirst]
      by_cases hk : k' = k
      · subst hk
        simp only [beq_self_eq_true, if_true, keys_cons, List.filter_cons]
        simp only [ne_eq, not_true_eq_false, decide_false, Bool.false_eq_true, if_false]
        split
        · exact List.sublist_cons_self _ _
        · exact List.Sublist.refl _
      · have : (k' == k) = false := by simpa using hk
        simp only [this, Bool.false_eq_true, if_false, keys_cons, List.filter_cons]
        split
        · exact ih.cons_cons _
        · exact ih
  exact hs.nodup h

theorem hmGet_delete (l : List Pair) (k x : Bytes) (h : (liveKeys l).Nodup) (hk : k ≠ []) (hx : x ≠ []) :
    hmGet (updFirst (fun e => e.1 == k) (fun _ => ([], [])) l) x = if x = k then none else hmGet l x := by
  induction l with
  | nil => simp [updFirst, hmGet]
  | cons e l ih =>
    obtain ⟨k', vs'⟩ := e
    simp only [updFirst]
    by_cases hkk : k' = k
    · subst hkk
      simp only [beq_self_eq_true, if_true, hmGet, Ne.symm hx, if_false]
      simp only [liveKeys, keys_cons, List.filter_cons, ne_eq, hk, not_false_eq_true, decide_true, if_true,
        List.nodup_cons, List.mem_filter, and_true] at h
      by_cases hxk : x = k'
      · subst hxk
        simp only [if_true]
        rw [hmGet_none_iff]; exact h.1
      · simp [hxk, Ne.symm hxk]
    · have hb : (k' == k) = false := by simpa using hkk
      have h' : (liveKeys l).Nodup := by
        simp only [liveKeys, keys_cons, List.filter_cons] at h
        split at h
        · exact (List.nodup_cons.mp h).2
        · exact h
      simp only [hb, Bool.false_eq_true, if_false, hmGet, ih h']
      by_cases hxk : k' = x
      · subst hxk; simp [hkk]
      · simp [hxk]

/-- Does the operation leave emptied slots behind / may it run on a dirty list? -/
def dirtyAfter (dirty : Bool) : Spec.HeaderOp → Bool
  | .delete _ => true
  | .clear => false
  | _ => dirty

/-- Operations whose behaviour in list mode is only right if no slot was emptied. -/
def needsClean : Spec.HeaderOp → Bool
  | .set _ _ => true
  | .append _ _ => true
  | _ => false

theorem table_some (m : MultiMap) (t : List Pair) : ({ m with map := some t } : MultiMap).table = t := rfl

theorem mapAppend_table (m : MultiMap) (k v : Bytes) :
    (m.mapAppend k v).table = hmInsert m.table k ((hmGet m.table k).getD [] ++ [v]) := by
  unfold mapAppend
  cases hmGet m.table k <;> rfl

theorem mapAppend_ismap (m : MultiMap) (k v : Bytes) : (m.mapAppend k v).ismap = m.ismap := by
  unfold mapAppend; cases hmGet m.table k <;> rfl

theorem mapAppend_vec (m : MultiMap) (k v : Bytes) : (m.mapAppend k v).vec = m.vec := by
  unfold mapAppend; cases hmGet m.table k <;> rfl

theorem mapAppend_map (m : MultiMap) (k v : Bytes) : (m.mapAppend k v).map.isSome := by
  unfold mapAppend; cases hmGet m.table k <;> rfl

theorem set_map (m : MultiMap) (h : m.ismap = true) (k v : Bytes) :
    m.set k v = { m with map := some (hmInsert m.table k [v]) } := by
  simp only [MultiMap.set, h, if_true]; split <;> rfl

/-- The lookups of a state, as a plain map. -/
def abs (m : MultiMap) : Spec.HeaderMap := fun k => m.getall k

theorem step_refines (ord : List Pair → List Pair) (hord : IsOrder ord) (dirty : Bool) (m : MultiMap)
    (op : Spec.HeaderOp) (hinv : Inv dirty m) (hname : op.nameNonempty)
    (hclean : needsClean op = true → dirty = false) :
    Inv (dirtyAfter dirty op) (applyOp ord m op) ∧
      ∀ x, (x ≠ [] ∨ (dirty = false ∧ dirtyAfter dirty op = false)) →
        (applyOp ord m op).getall x = op.apply (abs m) x := by
  cases hm : m.ismap with
  | true =>
    obtain ⟨hsome, hnd, hvec⟩ := hinv.mapMode hm
    have mk : ∀ t, (keys t).Nodup → ∀ d, Inv d ({ ismap := true, vec := m.vec, map := some t } : MultiMap) := by
      intro t ht d
      exact ⟨fun _ => ⟨rfl, ht, hvec⟩, fun h => (by cases h)⟩
    have ga : ∀ t x, ({ ismap := true, vec := m.vec, map := some t } : MultiMap).getall x = hmGet t x := by
      intro t x; rw [getall_map] <;> rfl
    have gm : ∀ x, abs m x = hmGet m.table x := fun x => getall_map m hm x
    cases op with
    | set k v =>
      simp only [applyOp, set_map m hm, hm]
      refine ⟨mk _ (nodup_insert _ _ _ hnd) _, fun x _ => ?_⟩
      rw [ga, hmGet_insert]; simp [Spec.HeaderOp.apply, gm]
    | append k v =>
      have he : m.append k v = { m with map := some (hmInsert m.table k ((hmGet m.table k).getD [] ++ [v])) } := by
        simp only [MultiMap.append, hm, if_true, mapAppend]
        cases hmGet m.table k <;> rfl
      simp only [applyOp, he, hm]
      refine ⟨mk _ (nodup_insert _ _ _ hnd) _, fun x _ => ?_⟩
      rw [ga, hmGet_insert]; simp [Spec.HeaderOp.apply, gm]
    | remove k v =>
      simp only [applyOp, MultiMap.remove, hm, if_true]
      cases hg : hmGet m.table k with
      | none =>
        simp only
        refine ⟨⟨hinv.mapMode, fun h => by rw [hm] at h; cases h⟩, fun x _ => ?_⟩
        rw [getall_map m hm]
        simp only [Spec.HeaderOp.apply, gm, hg]
        by_cases hx : x = k
        · subst hx; simp [hg]
        · simp [hx]
      | some vs =>
        simp only
        refine ⟨mk _ (nodup_insert _ _ _ hnd) _, fun x _ => ?_⟩
        rw [ga, hmGet_insert]; simp [Spec.HeaderOp.apply, gm, hg, removeByValue_eq]
    | delete k =>
      simp only [applyOp, MultiMap.delete, hm, if_true]
      refine ⟨mk _ (nodup_remove _ _ hnd) _, fun x _ => ?_⟩
      rw [ga, hmGet_remove]; simp [Spec.HeaderOp.apply, gm]
    | clear =>
      refine ⟨⟨fun h => by simp [applyOp, MultiMap.clear] at h, fun _ => ⟨?_, ?_, ?_⟩⟩, fun x _ => ?_⟩
      · simp only [applyOp, MultiMap.clear, table]; cases m.map <;> rfl
      · simp [applyOp, MultiMap.clear, liveKeys]
      · intro _ e he; simp [applyOp, MultiMap.clear] at he
      · simp [applyOp, MultiMap.clear, MultiMap.getall, Spec.HeaderOp.apply]
    | mapValues f =>
      simp only [applyOp, MultiMap.eachMut, hm, if_true, visitMut_total]
      have hp := hord m.table
      have hnd' : (keys (ord m.table)).Nodup := (hp.map (fun e : Pair => e.1)).nodup_iff.mpr hnd
      refine ⟨mk _ (by rw [keys_mapValues f]; exact hnd') _, fun x _ => ?_⟩
      rw [ga, hmGet_mapValues, hmGet_perm hp hnd']; simp [Spec.HeaderOp.apply, gm]
  | false =>
    obtain ⟨htab, hnd, hne⟩ := hinv.vecMode hm
    have mk : ∀ l d, (liveKeys l).Nodup → (d = false → NoEmptyKey l) → Inv d ({ ismap := false, vec := l, map := m.map } : MultiMap) := by
      intro l d h1 h2
      exact ⟨fun h => (by cases h), fun _ => ⟨htab, h1, h2⟩⟩
    have ga : ∀ l x, ({ ismap := false, vec := l, map := m.map } : MultiMap).getall x = hmGet l x := by
      intro l x; rw [getall_vec]; rfl
    have gm : ∀ x, abs m x = hmGet m.vec x := fun x => getall_vec m hm x
    have live_of : ∀ l, (keys l).Nodup → (liveKeys l).Nodup := fun l h => h.filter _
    have ne_of_keys : ∀ l, [] ∉ keys l → NoEmptyKey l := by
      intro l h e he hx; apply h; rw [← hx]; exact List.mem_map_of_mem he
    have keys_of_ne : ∀ l, NoEmptyKey l → [] ∉ keys l := by
      intro l h hx; simp only [keys, List.mem_map] at hx; obtain ⟨e, he, h0⟩ := hx; exact h e he h0
    cases op with
    | set k v =>
      have hd : dirty = false := hclean rfl
      subst hd
      have hne' := hne rfl
      have hkn : (keys m.vec).Nodup := hinv.nodup_vec hm
      have hp := noEmpty_p hne' k
      simp only [applyOp, set_vec m hm, hm]
      refine ⟨mk _ _ (live_of _ ?_) (fun _ => ne_of_keys _ ?_), fun x _ => ?_⟩
      · rw [keys_upsert _ (fun e => (e.1, [v])) _ _ _ hp (fun e _ h => h)]
        split
        · exact hkn
        · next h =>
          rw [List.nodup_append]
          refine ⟨hkn, by simp, ?_⟩
          intro a ha b hb; simp only [List.mem_singleton] at hb; subst hb; rintro rfl; contradiction
      · rw [keys_upsert _ (fun e => (e.1, [v])) _ _ _ hp (fun e _ h => h)]
        have := keys_of_ne _ hne'
        split
        · exact this
        · simp [this, Ne.symm hname]
      · rw [ga, hmGet_upsert _ _ _ k [v] (fun _ => [v]) hp (fun e _ h => by simp [h])]
        simp only [Spec.HeaderOp.apply, gm]
        congr 1
        cases hmGet m.vec k <;> rfl
    | append k v =>
      have hd : dirty = false := hclean rfl
      subst hd
      have hne' := hne rfl
      have hkn : (keys m.vec).Nodup := hinv.nodup_vec hm
      have hp := noEmpty_p hne' k
      by_cases hl : 36 ≤ m.vec.length
      · -- conversion
        have he : m.append k v = m.tomap.mapAppend k v := by simp [MultiMap.append, hm, hl]
        have htt : m.tomap.table = m.vec.foldl (fun t e => hmInsert t e.1 e.2) [] := by
          simp only [tomap, htab]; rfl
        have hnd2 : (keys (m.tomap.mapAppend k v).table).Nodup := by
          rw [mapAppend_table]; apply nodup_insert; rw [htt]; exact foldl_insert_nodup _ _ (by simp)
        have hism : (m.tomap.mapAppend k v).ismap = true := by rw [mapAppend_ismap]; rfl
        simp only [applyOp, he]
        refine ⟨⟨fun _ => ⟨mapAppend_map _ _ _, hnd2, by rw [mapAppend_vec]; rfl⟩, fun h => by rw [hism] at h; cases h⟩,
          fun x _ => ?_⟩
        rw [getall_map _ hism, mapAppend_table, hmGet_insert, htt, foldl_insert _ _ hkn, foldl_insert _ _ hkn]
        simp [Spec.HeaderOp.apply, gm, hmGet]
      · have hp2 : ∀ e ∈ m.vec, e.1 = k → (fun e : Pair => (if e.1.isEmpty then k else e.1, e.2 ++ [v])) e = (k, e.2 ++ [v]) := by
          intro e he h
          have := hne' e he
          simp [h]
        simp only [applyOp, append_vec m hm (by omega), hm]
        refine ⟨mk _ _ (live_of _ ?_) (fun _ => ne_of_keys _ ?_), fun x _ => ?_⟩
        · rw [keys_upsert _ (fun e => (if e.1.isEmpty then k else e.1, e.2 ++ [v])) _ _ _ hp (fun e he h => congrArg Prod.fst (hp2 e he h))]
          split
          · exact hkn
          · next h =>
            rw [List.nodup_append]
            refine ⟨hkn, by simp, ?_⟩
            intro a ha b hb; simp only [List.mem_singleton] at hb; subst hb; rintro rfl; contradiction
        · rw [keys_upsert _ (fun e => (if e.1.isEmpty then k else e.1, e.2 ++ [v])) _ _ _ hp (fun e he h => congrArg Prod.fst (hp2 e he h))]
          have := keys_of_ne _ hne'
          split
          · exact this
          · simp [this, Ne.symm hname]
        · rw [ga, hmGet_upsert _ _ _ k [v] (fun vs => vs ++ [v]) hp hp2]
          simp only [Spec.HeaderOp.apply, gm]
          congr 1
          cases hmGet m.vec k <;> rfl
    | remove k v =>
      simp only [applyOp, remove_vec m hm, hm]
      have hk : keys (updFirst (fun e : Pair => e.1 == k) (fun e => (e.1, removeByValue e.2 v)) m.vec) = keys m.vec :=
        keys_updFirst _ _ _ (fun _ => rfl)
      refine ⟨mk _ _ (by unfold liveKeys; rw [hk]; exact hnd) (fun h => ne_of_keys _ ?_), fun x _ => ?_⟩
      · rw [hk]; exact keys_of_ne _ (hne h)
      · rw [ga, hmGet_updFirst _ _ _ k (fun vs => removeByValue vs v) (fun _ _ => rfl) (fun e _ h => by simp [h])]
        simp only [Spec.HeaderOp.apply, gm, removeByValue_eq]
    | delete k =>
      simp only [applyOp, delete_vec m hm, hm]
      refine ⟨mk _ _ (liveKeys_delete _ _ hnd) (fun h => by cases h), fun x hx => ?_⟩
      rcases hx with hx | ⟨_, hx⟩
      · rw [ga, hmGet_delete _ _ _ hnd hname hx]; simp [Spec.HeaderOp.apply, gm]
      · cases hx
    | clear =>
      refine ⟨⟨fun h => by simp [applyOp, MultiMap.clear] at h, fun _ => ⟨?_, ?_, ?_⟩⟩, fun x _ => ?_⟩
      · simp only [applyOp, MultiMap.clear, table]; cases m.map <;> rfl
      · simp [applyOp, MultiMap.clear, liveKeys]
      · intro _ e he; simp [applyOp, MultiMap.clear] at he
      · simp [applyOp, MultiMap.clear, MultiMap.getall, Spec.HeaderOp.apply]
    | mapValues f =>
      simp only [applyOp, MultiMap.eachMut, hm, visitMut_total, Bool.false_eq_true, if_false]
      refine ⟨mk _ _ (by unfold liveKeys; rw [keys_mapValues f]; exact hnd) (fun h => ne_of_keys _ ?_), fun x _ => ?_⟩
      · rw [keys_mapValues f]; exact keys_of_ne _ (hne h)
      · rw [ga, hmGet_mapValues]; simp [Spec.HeaderOp.apply, gm]

end MultiMap
end Httpd
