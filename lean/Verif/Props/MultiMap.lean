import Verif.Lemmas.MultiMap
/-! # C36–C41: the multi-map -/

namespace Httpd
open MultiMap

/-! ## C36 refinement without delete -/

theorem steps_inv {m m' : MultiMap} {ops : List Spec.HeaderOp} (hs : Steps m ops m')
    (hn : ∀ op ∈ ops, op.nameNonempty) (hd : ∀ op ∈ ops, op.notDelete) (hinv : Inv false m) (a : Spec.HeaderMap)
    (ha : ∀ k, m.getall k = a k) :
    Inv false m' ∧ ∀ k, m'.getall k = Spec.run ops a k := by
  induction hs generalizing a with
  | nil m => exact ⟨hinv, ha⟩
  | @cons m op ops m' ord hord hs ih =>
    have hdirty : dirtyAfter false op = false := by
      have := hd op (by simp)
      cases op <;> first | rfl | exact this.elim
    obtain ⟨h1, h2⟩ := step_refines ord hord false m op hinv (hn op (by simp)) (fun _ => rfl)
    rw [hdirty] at h1
    have haeq : abs m = a := funext ha
    rw [haeq] at h2
    exact ih (fun o ho => hn o (by simp [ho])) (fun o ho => hd o (by simp [ho])) h1 _
      (fun k => h2 k (Or.inr ⟨rfl, hdirty⟩))

/-- **C36.** For every history of set, append, remove, clear and each_mut with non-empty names, whatever the iteration
orders of the hash map, every lookup (`getall` and `get`) returns what the plain map returns. -/
theorem C36_multimap_refines (ops : List Spec.HeaderOp) (m : MultiMap)
    (hn : ∀ op ∈ ops, op.nameNonempty) (hd : ∀ op ∈ ops, op.notDelete) (hs : Steps MultiMap.new ops m) (k : Bytes) :
    m.getall k = Spec.run ops Spec.HeaderMap.empty k ∧
      m.get k = (Spec.run ops Spec.HeaderMap.empty k).bind List.head? := by
  have h := (steps_inv hs hn hd Inv.new Spec.HeaderMap.empty (fun k => rfl)).2 k
  refine ⟨h, ?_⟩
  rw [MultiMap.get, h]
  cases Spec.run ops Spec.HeaderMap.empty k <;> rfl

/-- A deterministic run with one iteration order, used to exhibit histories. -/
def MultiMap.runOps (m : MultiMap) (ops : List Spec.HeaderOp) : MultiMap := ops.foldl (applyOp id) m

theorem MultiMap.steps_runOps (m : MultiMap) (ops : List Spec.HeaderOp) : Steps m ops (m.runOps ops) := by
  induction ops generalizing m with
  | nil => exact Steps.nil m
  | cons op ops ih => exact Steps.cons id (fun l => List.Perm.refl l) (ih _)

/-- Non-trivial case: 40 distinct names are appended (crossing the switch of representation), then one name again;
the last name has both values. -/
example : ∃ ops m, (∀ op ∈ ops, Spec.HeaderOp.nameNonempty op) ∧ (∀ op ∈ ops, Spec.HeaderOp.notDelete op) ∧
    Steps MultiMap.new ops m ∧ m.ismap = true ∧ m.getall [107, 39] = some [[1], [2]] := by
  refine ⟨(List.range 40).map (fun i => .append [107, UInt8.ofNat i] [1]) ++ [.append [107, 39] [2]], _, ?_, ?_,
    MultiMap.steps_runOps _ _, ?_, ?_⟩
  · intro op h
    simp only [List.mem_append, List.mem_map, List.mem_singleton] at h
    rcases h with ⟨i, _, rfl⟩ | rfl <;> simp [Spec.HeaderOp.nameNonempty]
  · intro op h
    simp only [List.mem_append, List.mem_map, List.mem_singleton] at h
    rcases h with ⟨i, _, rfl⟩ | rfl <;> trivial
  · decide +kernel
  · decide +kernel

/-! ## C37 delete -/

/-- The history never sets or appends after a delete unless it clears in between. -/
def reuseFree (dirty : Bool) : List Spec.HeaderOp → Prop
  | [] => True
  | op :: ops => (needsClean op = true → dirty = false) ∧ reuseFree (dirtyAfter dirty op) ops

theorem steps_inv_reuseFree {m m' : MultiMap} {ops : List Spec.HeaderOp} (hs : Steps m ops m')
    (hn : ∀ op ∈ ops, op.nameNonempty) (dirty : Bool) (hr : reuseFree dirty ops) (hinv : Inv dirty m)
    (a : Spec.HeaderMap) (ha : ∀ k, k ≠ [] → m.getall k = a k) :
    ∀ k, k ≠ [] → m'.getall k = Spec.run ops a k := by
  induction hs generalizing a dirty with
  | nil m => exact ha
  | @cons m op ops m' ord hord hs ih =>
    obtain ⟨h1, h2⟩ := step_refines ord hord dirty m op hinv (hn op (by simp)) hr.1
    refine ih (fun o ho => hn o (by simp [ho])) _ hr.2 h1 _ (fun k hk => ?_)
    rw [h2 k (Or.inl hk)]
    -- the specification only looks at non-empty names
    have hname := hn op (by simp)
    cases op with
    | set k' v => simp only [Spec.HeaderOp.apply]; split <;> simp [abs, ha k hk]
    | append k' v =>
      simp only [Spec.HeaderOp.apply]; split
      · simp [abs, ha k' hname]
      · simp [abs, ha k hk]
    | remove k' v =>
      simp only [Spec.HeaderOp.apply]; split
      · simp [abs, ha k' hname]
      · simp [abs, ha k hk]
    | delete k' => simp only [Spec.HeaderOp.apply]; split <;> simp [abs, ha k hk]
    | clear => rfl
    | mapValues f => simp [Spec.HeaderOp.apply, abs, ha k hk]

/-- **C37 (partial).** A deleted name is gone and other names are unaffected, for every history in which no `set` or
`append` follows a `delete` without a `clear` in between. Missing for the full claim: `set`/`append` after a `delete`,
where the code is wrong (`C37_delete_violated`). -/
theorem C37_delete_partial (ops : List Spec.HeaderOp) (m : MultiMap) (hn : ∀ op ∈ ops, op.nameNonempty)
    (hr : reuseFree false ops) (hs : Steps MultiMap.new ops m) (k : Bytes) (hk : k ≠ []) :
    m.getall k = Spec.run ops Spec.HeaderMap.empty k :=
  steps_inv_reuseFree hs hn false hr Inv.new _ (fun _ _ => rfl) k hk

example : reuseFree false [.append b!"a" b!"1", .append b!"b" b!"2", .delete b!"a", .remove b!"b" b!"2", .clear,
    .append b!"a" b!"3"] := by simp [reuseFree, needsClean, dirtyAfter]

/-- In map mode `delete` is right for every state and later operations too: the table stays a plain map. -/
theorem C37_delete_mapmode_partial (m : MultiMap) (hm : m.ismap = true) (k x : Bytes) :
    (m.delete k).getall x = (if x = k then none else m.getall x) := by
  have h : m.delete k = { m with map := some (hmRemove m.table k) } := by simp [MultiMap.delete, hm]
  rw [h, getall_map, table_some, hmGet_remove, getall_map m hm]
  exact hm

/-- **C37 is violated**: a `set` after a `delete` loses the value (the emptied slot is reused but keeps its empty key). -/
theorem C37_delete_violated :
    ¬ ∀ (ops : List Spec.HeaderOp) (m : MultiMap), (∀ op ∈ ops, op.nameNonempty) → Steps MultiMap.new ops m →
      ∀ k, k ≠ [] → m.getall k = Spec.run ops Spec.HeaderMap.empty k := by
  intro h
  have := h [.append b!"a" b!"1", .delete b!"a", .set b!"b" b!"2"] _
    (by intro op ho; simp only [List.mem_cons, List.not_mem_nil, or_false] at ho
        rcases ho with rfl | rfl | rfl <;> simp [Spec.HeaderOp.nameNonempty])
    (MultiMap.steps_runOps _ _) b!"b" (by simp)
  exact absurd this (by decide)

/-- A second corruption: an `append` after a `delete` of an earlier name splits a name in two, so a value is lost. -/
theorem C37_append_after_delete_violated :
    ∃ (ops : List Spec.HeaderOp) (m : MultiMap), (∀ op ∈ ops, op.nameNonempty) ∧ Steps MultiMap.new ops m ∧
      m.getall b!"b" = some [b!"3"] ∧ Spec.run ops Spec.HeaderMap.empty b!"b" = some [b!"2", b!"3"] := by
  refine ⟨[.append b!"a" b!"1", .append b!"b" b!"2", .delete b!"a", .append b!"b" b!"3"], _, ?_,
    MultiMap.steps_runOps _ _, by decide, by decide⟩
  intro op ho; simp only [List.mem_cons, List.not_mem_nil, or_false] at ho
  rcases ho with rfl | rfl | rfl | rfl <;> simp [Spec.HeaderOp.nameNonempty]

/-! ## C38 remove -/

/-- **C38.** In every state (reachable or not), `remove(k, v)` deletes exactly the values equal to `v` under `k`, keeping
the order of the others, and changes no other name. -/
theorem C38_remove_exact (m : MultiMap) (k v x : Bytes) :
    (m.remove k v).getall x =
      if x = k then (m.getall k).map (fun vs => vs.filter (fun e => e ≠ v)) else m.getall x := by
  cases hm : m.ismap with
  | true =>
    rw [getall_map m hm, getall_map m hm]
    cases hg : hmGet m.table k with
    | none =>
      have : m.remove k v = m := by simp [MultiMap.remove, hm, hg]
      rw [this, getall_map m hm]
      by_cases hx : x = k
      · subst hx; simp [hg]
      · simp [hx]
    | some vs =>
      have : m.remove k v = { m with map := some (hmInsert m.table k (removeByValue vs v)) } := by
        simp [MultiMap.remove, hm, hg]
      rw [this, getall_map _ (by exact hm), table_some, hmGet_insert]
      simp [removeByValue_eq]
  | false =>
    rw [remove_vec m hm, getall_vec _ (by exact hm), getall_vec m hm, getall_vec m hm]
    rw [hmGet_updFirst _ _ _ k (fun vs => removeByValue vs v) (fun _ _ => rfl) (fun e _ h => by simp [h])]
    simp only [removeByValue_eq]

/-- Non-trivial case: consecutive and repeated matches. -/
example : ((⟨false, [(b!"k", [b!"x", b!"x", b!"y", b!"x"])], none⟩ : MultiMap).remove b!"k" b!"x").getall b!"k"
    = some [b!"y"] := by decide

/-! ## C39 clear -/

/-- Every operation, including an `each_mut` whose visitor stops early. -/
inductive AnyOp
  | op (o : Spec.HeaderOp)
  | eachMut (f : Bytes → List Bytes → List Bytes × Bool)

/-- Apply any operation with a given iteration order. -/
def applyAny (m : MultiMap) (o : (List Pair → List Pair) × AnyOp) : MultiMap :=
  match o.2 with
  | .op op => applyOp o.1 m op
  | .eachMut f => m.eachMut o.1 f

/-- Run a history, with the iteration order of each step. -/
def runAny (m : MultiMap) (ops : List ((List Pair → List Pair) × AnyOp)) : MultiMap := ops.foldl applyAny m

/-- Two states that differ at most in "empty table" against "no table" while in list mode. -/
def Sim (m m' : MultiMap) : Prop := m.ismap = m'.ismap ∧ m.vec = m'.vec ∧ m.table = m'.table

theorem Sim.applyAny {m m' : MultiMap} (h : Sim m m') (o : (List Pair → List Pair) × AnyOp) :
    Sim (applyAny m o) (applyAny m' o) := by
  obtain ⟨h1, h2, h3⟩ := h
  obtain ⟨ord, o⟩ := o
  cases o with
  | op o =>
    cases o with
    | set k v =>
      simp only [Httpd.applyAny, applyOp, MultiMap.set, h1, h2, h3]
      split
      · split <;> exact ⟨rfl, rfl, rfl⟩
      · split
        · exact ⟨rfl, rfl, h3⟩
        · exact ⟨rfl, rfl, h3⟩
    | append k v =>
      simp only [Httpd.applyAny, applyOp, MultiMap.append, h1, h2]
      split
      · refine ⟨?_, ?_, ?_⟩ <;> simp only [mapAppend_ismap, mapAppend_vec, mapAppend_table, h1, h2, h3]
      · split
        · have : m.tomap = m'.tomap := by simp [tomap, h2, h3]
          rw [this]; exact ⟨rfl, rfl, rfl⟩
        · split
          · exact ⟨rfl, rfl, h3⟩
          · exact ⟨rfl, rfl, h3⟩
    | remove k v =>
      simp only [Httpd.applyAny, applyOp, MultiMap.remove, h1, h2, h3]
      split
      · split
        · exact ⟨rfl, rfl, rfl⟩
        · exact ⟨h1, h2, h3⟩
      · split
        · exact ⟨rfl, rfl, h3⟩
        · exact ⟨h1, h2, h3⟩
    | delete k =>
      simp only [Httpd.applyAny, applyOp, MultiMap.delete, h1, h2, h3]
      split
      · exact ⟨rfl, rfl, rfl⟩
      · split
        · exact ⟨rfl, rfl, h3⟩
        · exact ⟨h1, h2, h3⟩
    | clear =>
      refine ⟨rfl, rfl, ?_⟩
      simp only [Httpd.applyAny, applyOp, MultiMap.clear, table]
      cases m.map <;> cases m'.map <;> rfl
    | mapValues f =>
      simp only [Httpd.applyAny, applyOp, MultiMap.eachMut, h1, h2, h3]
      split
      · exact ⟨rfl, rfl, rfl⟩
      · exact ⟨rfl, rfl, h3⟩
  | eachMut f =>
    simp only [Httpd.applyAny, MultiMap.eachMut, h1, h2, h3]
    split
    · exact ⟨rfl, rfl, rfl⟩
    · exact ⟨rfl, rfl, h3⟩

theorem Sim.runAny {m m' : MultiMap} (h : Sim m m') (ops) : Sim (runAny m ops) (runAny m' ops) := by
  induction ops generalizing m m' with
  | nil => exact h
  | cons o ops ih => exact ih (h.applyAny o)

/-- **C39.** After `clear`, whatever the state before, every later history (of all operations, empty names and deletes
included) gives the same observations as on a newly created map: `getall`, `get`, `len`, and what `each` shows to every
visitor. -/
theorem C39_clear_fresh (m : MultiMap) (ops : List ((List Pair → List Pair) × AnyOp)) :
    (∀ k, (runAny m.clear ops).getall k = (runAny MultiMap.new ops).getall k) ∧
    (∀ k, (runAny m.clear ops).get k = (runAny MultiMap.new ops).get k) ∧
    (runAny m.clear ops).len = (runAny MultiMap.new ops).len ∧
    (∀ (σ : Type) (ord) (f : σ → Bytes → List Bytes → σ × Bool) (s : σ),
      (runAny m.clear ops).each ord f s = (runAny MultiMap.new ops).each ord f s) := by
  have h : Sim m.clear MultiMap.new := by
    refine ⟨rfl, rfl, ?_⟩
    simp only [MultiMap.clear, table]
    cases m.map <;> rfl
  obtain ⟨h1, h2, h3⟩ := h.runAny ops
  have hg : ∀ k, (runAny m.clear ops).getall k = (runAny MultiMap.new ops).getall k := by
    intro k; simp only [MultiMap.getall, h1, h2, h3]
  refine ⟨hg, ?_, ?_, ?_⟩
  · intro k; simp only [MultiMap.get, hg]
  · simp only [MultiMap.len, h1, h2, h3]
  · intro σ ord f s; simp only [MultiMap.each, entries, h1, h2, h3]

/-- Non-trivial case: a cleared map with a table (so `clear` leaves an allocated empty table behind). -/
example : (⟨true, [], some [(b!"a", [b!"1"])]⟩ : MultiMap).clear ≠ MultiMap.new ∧
    (⟨true, [], some [(b!"a", [b!"1"])]⟩ : MultiMap).clear.getall b!"a" = none := by decide

/-! ## C40 each and len -/

theorem visit_collect (L acc : List Pair) :
    visit (fun (s : List Pair) k vs => (s ++ [(k, vs)], true)) L acc = acc ++ L := by
  induction L generalizing acc with
  | nil => simp [visit]
  | cons e L ih => obtain ⟨k, vs⟩ := e; simp [visit, ih]

/-- Entries of a reachable state without deletes. -/
theorem entries_spec (ops : List Spec.HeaderOp) (m : MultiMap)
    (hn : ∀ op ∈ ops, op.nameNonempty) (hd : ∀ op ∈ ops, op.notDelete) (hs : Steps MultiMap.new ops m)
    (ord : List Pair → List Pair) (hord : IsOrder ord) :
    ((m.entries ord).map (·.1)).Nodup ∧
    (∀ k vs, (k, vs) ∈ m.entries ord ↔ Spec.run ops Spec.HeaderMap.empty k = some vs) ∧
    m.len = (m.entries ord).length := by
  have hinv := steps_inv hs hn hd Inv.new Spec.HeaderMap.empty (fun k => rfl)
  cases hm : m.ismap with
  | true =>
    obtain ⟨_, hnd, _⟩ := hinv.1.mapMode hm
    have hp := hord m.table
    have he : m.entries ord = ord m.table := by simp [entries, hm]
    rw [he]
    refine ⟨(hp.map _).nodup_iff.mpr hnd, fun k vs => ?_, ?_⟩
    · rw [hp.mem_iff, ← hmGet_some_iff _ hnd, ← getall_map m hm, hinv.2]
    · simp only [MultiMap.len, hm, if_true]; exact hp.length_eq.symm
  | false =>
    have hnd := hinv.1.nodup_vec hm
    have he : m.entries ord = m.vec := by simp [entries, hm]
    rw [he]
    refine ⟨hnd, fun k vs => ?_, ?_⟩
    · rw [← hmGet_some_iff _ hnd, ← getall_vec m hm, hinv.2]
    · simp [MultiMap.len, hm]

/-- **C40.** For every history without delete and every iteration order there is a list `L` of the stored names with
their values, each name once, such that a visitor that never refuses sees exactly `L`, `len` is the length of `L`, and a
visitor that refuses at the pairs satisfying `stop` sees exactly the prefix of `L` up to and including the first refusal. -/
theorem C40_each_len (ops : List Spec.HeaderOp) (m : MultiMap)
    (hn : ∀ op ∈ ops, op.nameNonempty) (hd : ∀ op ∈ ops, op.notDelete) (hs : Steps MultiMap.new ops m)
    (ord : List Pair → List Pair) (hord : IsOrder ord) :
    ∃ L : List (Bytes × List Bytes),
      m.each ord (fun (s : List Pair) k vs => (s ++ [(k, vs)], true)) [] = L ∧
      (L.map (·.1)).Nodup ∧
      (∀ k vs, (k, vs) ∈ L ↔ Spec.run ops Spec.HeaderMap.empty k = some vs) ∧
      m.len = L.length ∧
      (∀ stop : Pair → Bool,
        (L.all (fun e => !stop e) = true →
          m.each ord (fun (s : List Pair) k vs => (s ++ [(k, vs)], !stop (k, vs))) [] = L) ∧
        (∀ L₁ e L₂, L = L₁ ++ e :: L₂ → L₁.all (fun e => !stop e) = true → stop e = true →
          m.each ord (fun (s : List Pair) k vs => (s ++ [(k, vs)], !stop (k, vs))) [] = L₁ ++ [e])) := by
  obtain ⟨h1, h2, h3⟩ := entries_spec ops m hn hd hs ord hord
  refine ⟨m.entries ord, ?_, h1, h2, h3, ?_⟩
  · simp [MultiMap.each, visit_collect]
  · intro stop
    have gen : ∀ (L₁ rest acc : List Pair), L₁.all (fun e => !stop e) = true →
        visit (fun (s : List Pair) k vs => (s ++ [(k, vs)], !stop (k, vs))) (L₁ ++ rest) acc =
        visit (fun (s : List Pair) k vs => (s ++ [(k, vs)], !stop (k, vs))) rest (acc ++ L₁) := by
      intro L₁ rest
      induction L₁ with
      | nil => intro acc _; simp
      | cons e L₁ ih =>
        intro acc ha
        obtain ⟨k, vs⟩ := e
        simp only [List.all_cons, Bool.and_eq_true] at ha
        simp only [List.cons_append, visit, ha.1]
        rw [ih _ ha.2]; simp
    constructor
    · intro ha
      have := gen _ [] [] ha
      simpa [MultiMap.each, visit] using this
    · intro L₁ e L₂ hL ha hst
      obtain ⟨k, vs⟩ := e
      simp only [MultiMap.each, hL]
      rw [gen _ _ _ ha]
      simp [visit, hst]

/-- Non-trivial case: two names, one with two values. -/
example : ∃ ops m, (∀ op ∈ ops, Spec.HeaderOp.nameNonempty op) ∧ (∀ op ∈ ops, Spec.HeaderOp.notDelete op) ∧
    Steps MultiMap.new ops m ∧ m.len = 2 := by
  refine ⟨[.append b!"a" b!"1", .append b!"b" b!"2", .append b!"a" b!"3"], _, ?_, ?_, MultiMap.steps_runOps _ _, by decide⟩
  all_goals
    intro op ho; simp only [List.mem_cons, List.not_mem_nil, or_false] at ho
    rcases ho with rfl | rfl | rfl <;> simp [Spec.HeaderOp.nameNonempty, Spec.HeaderOp.notDelete]

/-! ## C101 each_mut -/

theorem hmGet_visitMut (f : Bytes → List Bytes → List Bytes × Bool) (L : List Pair) (hnd : (keys L).Nodup) :
    ((∀ e ∈ L, (f e.1 e.2).2 = true) → ∀ k, hmGet (visitMut f L) k = (hmGet L k).map (fun vs => (f k vs).1)) ∧
    (∀ L₁ e L₂, L = L₁ ++ e :: L₂ → (∀ d ∈ L₁, (f d.1 d.2).2 = true) → (f e.1 e.2).2 = false →
      ∀ k, hmGet (visitMut f L) k = if k ∈ keys (L₁ ++ [e]) then (hmGet L k).map (fun vs => (f k vs).1) else hmGet L k) := by
  induction L with
  | nil => exact ⟨fun _ _ => rfl, fun L₁ e L₂ h => by simp at h⟩
  | cons d L ih =>
    obtain ⟨k0, vs0⟩ := d
    simp only [keys, List.map_cons, List.nodup_cons] at hnd
    have hih := ih hnd.2
    constructor
    · intro h k
      have h0 : (f k0 vs0).2 = true := h (k0, vs0) (by simp)
      have hv : visitMut f ((k0, vs0) :: L) = (k0, (f k0 vs0).1) :: visitMut f L := by
        simp only [visitMut]
        cases hf : f k0 vs0 with
        | mk a b => rw [hf] at h0; simp only at h0; subst h0; rfl
      rw [hv]
      simp only [hmGet]
      split
      · next hk => subst hk; rfl
      · exact hih.1 (fun e he => h e (by simp [he])) k
    · intro L₁ e L₂ hL h1 h2 k
      cases L₁ with
      | nil =>
        simp only [List.nil_append, List.cons.injEq] at hL
        obtain ⟨rfl, rfl⟩ := hL
        have hv : visitMut f ((k0, vs0) :: L) = (k0, (f k0 vs0).1) :: L := by
          simp only [visitMut]
          cases hf : f k0 vs0 with
          | mk a b => rw [hf] at h2; simp only at h2; subst h2; rfl
        rw [hv]
        simp only [hmGet, keys, List.nil_append, List.map_cons, List.map_nil, List.mem_singleton]
        by_cases hk : k0 = k
        · subst hk; simp
        · simp [hk, Ne.symm hk]
      | cons d L₁ =>
        simp only [List.cons_append, List.cons.injEq] at hL
        obtain ⟨rfl, hL⟩ := hL
        have h0 : (f k0 vs0).2 = true := h1 (k0, vs0) (by simp)
        have hv : visitMut f ((k0, vs0) :: L) = (k0, (f k0 vs0).1) :: visitMut f L := by
          simp only [visitMut]
          cases hf : f k0 vs0 with
          | mk a b => rw [hf] at h0; simp only at h0; subst h0; rfl
        rw [hv]
        simp only [hmGet, keys, List.cons_append, List.map_cons, List.mem_cons]
        by_cases hk : k0 = k
        · subst hk; simp
        · have := hih.2 L₁ e L₂ hL (fun d hd => h1 d (by simp [hd])) h2 k
          simp only [hk, if_false, Ne.symm hk, false_or]
          exact this

/-- **C101.** `each_mut` with any visitor, after any history without delete and for any iteration order: there is a list of the
stored names with their values, each name once, in the order in which `each` would show them, such that the visitor's changes
are made for the names up to and including the first at which it stops (for all names if it never does), and every other name
keeps its values. -/
theorem C101_each_mut (ops : List Spec.HeaderOp) (m : MultiMap)
    (hn : ∀ op ∈ ops, op.nameNonempty) (hd : ∀ op ∈ ops, op.notDelete) (hs : Steps MultiMap.new ops m)
    (ord : List Pair → List Pair) (hord : IsOrder ord) (f : Bytes → List Bytes → List Bytes × Bool) :
    ∃ L : List (Bytes × List Bytes),
      m.each ord (fun (s : List Pair) k vs => (s ++ [(k, vs)], true)) [] = L ∧
      (L.map (·.1)).Nodup ∧
      (∀ k vs, (k, vs) ∈ L ↔ Spec.run ops Spec.HeaderMap.empty k = some vs) ∧
      ((∀ e ∈ L, (f e.1 e.2).2 = true) → ∀ k,
        (m.eachMut ord f).getall k = (Spec.run ops Spec.HeaderMap.empty k).map (fun vs => (f k vs).1)) ∧
      (∀ L₁ e L₂, L = L₁ ++ e :: L₂ → (∀ d ∈ L₁, (f d.1 d.2).2 = true) → (f e.1 e.2).2 = false → ∀ k,
        (m.eachMut ord f).getall k =
          if k ∈ (L₁ ++ [e]).map (·.1) then (Spec.run ops Spec.HeaderMap.empty k).map (fun vs => (f k vs).1)
          else Spec.run ops Spec.HeaderMap.empty k) := by
  obtain ⟨h1, h2, _⟩ := entries_spec ops m hn hd hs ord hord
  have hg : ∀ k, (m.eachMut ord f).getall k = hmGet (visitMut f (m.entries ord)) k := by
    intro k
    cases hm : m.ismap with
    | true =>
      have : (m.eachMut ord f).ismap = true := by simp [MultiMap.eachMut, hm]
      rw [getall_map _ this]
      simp [MultiMap.eachMut, hm, entries, table]
    | false =>
      have : (m.eachMut ord f).ismap = false := by simp [MultiMap.eachMut, hm]
      rw [getall_vec _ this]
      simp [MultiMap.eachMut, hm, entries]
  have hr : ∀ k, hmGet (m.entries ord) k = Spec.run ops Spec.HeaderMap.empty k := by
    intro k
    cases hk : Spec.run ops Spec.HeaderMap.empty k with
    | some vs => exact (hmGet_some_iff _ h1 k vs).mpr ((h2 k vs).mpr hk)
    | none =>
      cases hk' : hmGet (m.entries ord) k with
      | none => rfl
      | some vs => rw [(h2 k vs).mp ((hmGet_some_iff _ h1 k vs).mp hk')] at hk; cases hk
  obtain ⟨g1, g2⟩ := hmGet_visitMut f (m.entries ord) h1
  refine ⟨m.entries ord, by simp [MultiMap.each, visit_collect], h1, h2, ?_, ?_⟩
  · intro h k
    rw [hg, g1 h k, hr]
  · intro L₁ e L₂ hL ha hb k
    rw [hg, g2 L₁ e L₂ hL ha hb k, hr]
    rfl

/-- Non-trivial case: the visitor empties the values and stops at the second of three names. -/
example : ((MultiMap.new.runOps [.append b!"a" b!"1", .append b!"b" b!"2", .append b!"c" b!"3"]).eachMut id
    (fun k _ => ([], k != b!"b"))).vec = [(b!"a", []), (b!"b", []), (b!"c", [b!"3"])] := by decide +kernel

/-! ## C41 no panic -/

theorem noPanic_applyAny (m : MultiMap) (h : m.unwrapPanics = false) (o) : (applyAny m o).unwrapPanics = false := by
  obtain ⟨ord, o⟩ := o
  simp only [MultiMap.unwrapPanics] at h ⊢
  cases hm : m.ismap with
  | true =>
    have hs : m.map.isNone = false := by simpa [hm] using h
    cases o with
    | op o =>
      cases o with
      | set k v => simp only [applyAny, applyOp, set_map m hm]; simp
      | append k v =>
        simp only [applyAny, applyOp, MultiMap.append, hm, if_true]
        have := mapAppend_map m k v
        cases hh : (m.mapAppend k v).map with
        | none => rw [hh] at this; cases this
        | some t => simp
      | remove k v =>
        simp only [applyAny, applyOp, MultiMap.remove, hm, if_true]
        split <;> simp [hs]
      | delete k => simp [applyAny, applyOp, MultiMap.delete, hm]
      | clear => simp [applyAny, applyOp, MultiMap.clear]
      | mapValues f => simp [applyAny, applyOp, MultiMap.eachMut, hm]
    | eachMut f => simp [applyAny, MultiMap.eachMut, hm]
  | false =>
    cases o with
    | op o =>
      cases o with
      | set k v => simp [applyAny, applyOp, set_vec m hm, hm]
      | append k v =>
        by_cases hl : 36 ≤ m.vec.length
        · simp only [applyAny, applyOp, MultiMap.append, hm, hl, if_true, Bool.false_eq_true, if_false]
          have := mapAppend_map m.tomap k v
          cases hh : (m.tomap.mapAppend k v).map with
          | none => rw [hh] at this; cases this
          | some t => simp
        · simp [applyAny, applyOp, append_vec m hm (by omega), hm]
      | remove k v => simp [applyAny, applyOp, remove_vec m hm, hm]
      | delete k => simp [applyAny, applyOp, delete_vec m hm, hm]
      | clear => simp [applyAny, applyOp, MultiMap.clear]
      | mapValues f => simp [applyAny, applyOp, MultiMap.eachMut, hm]
    | eachMut f => simp [applyAny, MultiMap.eachMut, hm]

/-- **C41.** No history of operations (deletes, empty names, early-stopping visitors included) leads to a state in which
an `unwrap` of the table panics. -/
theorem C41_multimap_no_panic (ops : List ((List Pair → List Pair) × AnyOp)) :
    (runAny MultiMap.new ops).unwrapPanics = false := by
  have : ∀ m : MultiMap, m.unwrapPanics = false → (runAny m ops).unwrapPanics = false := by
    induction ops with
    | nil => exact fun m h => h
    | cons o ops ih => exact fun m h => ih _ (noPanic_applyAny m h o)
  exact this _ rfl

/-- The panic condition is not always false: the state excluded by the theorem exists. -/
example : (⟨true, [], none⟩ : MultiMap).unwrapPanics = true := rfl

end Httpd
