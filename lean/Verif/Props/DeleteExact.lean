import Verif.Props.MultiMap
/-!
# C37: using a deleted name again
-/

namespace Httpd

open MultiMap

theorem keys_emptied {l : List Pair} {k x : Bytes} (h : x ∈ keys (updFirst (fun e => e.1 == k) (fun _ => ([], [])) l)) : x = [] ∨ x ∈ keys l := by
  induction l with
  | nil => exact .inr h
  | cons e l ih =>
    simp only [updFirst] at h
    split at h
    · rcases List.mem_cons.mp h with rfl | h
      · exact .inl rfl
      · exact .inr (List.mem_cons_of_mem _ h)
    · rcases List.mem_cons.mp h with rfl | h
      · exact .inr (List.mem_cons_self ..)
      · exact (ih h).imp id (List.mem_cons_of_mem _)

theorem nodup_emptied {l : List Pair} {k : Bytes} (hne : NoEmptyKey l) (hd : (keys l).Nodup) :
    (keys (updFirst (fun e => e.1 == k) (fun _ => ([], [])) l)).Nodup := by
  induction l with
  | nil => exact hd
  | cons e l ih =>
    have hne' : NoEmptyKey l := fun e he => hne e (List.mem_cons_of_mem _ he)
    rw [keys_cons, List.nodup_cons] at hd
    simp only [updFirst]
    split
    · rw [keys_cons, List.nodup_cons]
      refine ⟨fun h => ?_, hd.2⟩
      obtain ⟨e', he', e0⟩ := List.mem_map.mp h
      exact hne' e' he' e0
    · rw [keys_cons, List.nodup_cons]
      refine ⟨fun h => ?_, ih hne' hd.2⟩
      rcases keys_emptied h with h | h
      · exact hne e (List.mem_cons_self ..) h
      · exact hd.1 h

/-- Emptying the slot of a stored name and writing to the first slot that has the name or is empty: the emptied slot is the one. -/
theorem upsert_emptied (g : Pair → Pair) (y : Pair) {l : List Pair} {k : Bytes} (hne : NoEmptyKey l) (hd : (keys l).Nodup) (hk : k ∈ keys l) (x : Bytes)
    (hx : x ≠ []) :
    hmGet (upsert (fun e => e.1 == k || e.1.isEmpty) g y (updFirst (fun e => e.1 == k) (fun _ => ([], [])) l)) x =
      if (g ([], [])).1 = x ∧ x = k then some (g ([], [])).2 else
      if x = k then none else hmGet (updFirst (fun e => e.1 == k) (fun _ => g ([], [])) l) x := by
  induction l with
  | nil => cases hk
  | cons e l ih =>
    obtain ⟨k', vs⟩ := e
    have hne' : NoEmptyKey l := fun e he => hne e (List.mem_cons_of_mem _ he)
    have h0 : k' ≠ [] := hne (k', vs) (List.mem_cons_self ..)
    rw [keys_cons, List.nodup_cons] at hd
    by_cases hkk : k' = k
    · subst hkk
      simp only [updFirst, beq_self_eq_true, ↓reduceIte, upsert, List.isEmpty_nil, Bool.or_true, hmGet]
      by_cases hxk : x = k'
      · subst hxk
        have hn := (hmGet_none_iff l x).mpr hd.1
        by_cases hg : (g ([], [])).1 = x <;> simp [hg, hn]
      · simp [hxk]
    · have hk' : k ∈ keys l := by
        rcases List.mem_cons.mp hk with h | h
        · exact absurd h.symm hkk
        · exact h
      have ih := ih hne' hd.2 hk'
      have hp : (k' == k || k'.isEmpty) = false := by simp [hkk, h0]
      simp only [updFirst, beq_iff_eq, hkk, ↓reduceIte, upsert, hp, Bool.false_eq_true, hmGet]
      by_cases hxk : k' = x
      · subst hxk
        simp [hkk]
      · simp only [hxk, ↓reduceIte]
        exact ih

theorem hmGet_put_elsewhere (y : Pair) (l : List Pair) (k x : Bytes) (hx : x ≠ k) (hy : y.1 ≠ x) :
    hmGet (updFirst (fun e => e.1 == k) (fun _ => y) l) x = hmGet l x := by
  induction l with
  | nil => rfl
  | cons e l ih =>
    obtain ⟨k', vs⟩ := e
    obtain ⟨a, b⟩ := y
    by_cases hk : k' = k
    · subst hk
      have : a ≠ x := hy
      simp [updFirst, hmGet, this, Ne.symm hx]
    · simp only [updFirst, beq_iff_eq, hk, ↓reduceIte, hmGet]
      split
      · rfl
      · exact ih

/-- **C37 is violated** whenever a stored name is deleted and set again while the table is a list: the name stays absent, whatever is set (and other
names are as before). -/
theorem C37_set_again_violated (ops : List Spec.HeaderOp) (m : MultiMap) (hn : ∀ op ∈ ops, op.nameNonempty) (hd : ∀ op ∈ ops, op.notDelete)
    (hs : Steps MultiMap.new ops m) (hlist : m.ismap = false) (k v : Bytes) (hstored : m.getall k ≠ none) (x : Bytes) (hx : x ≠ []) :
    ((m.delete k).set k v).getall x = if x = k then none else m.getall x := by
  have hinv := (steps_inv hs hn hd Inv.new Spec.HeaderMap.empty (fun k => rfl)).1
  have hne := (hinv.vecMode hlist).2.2 rfl
  have hmem : k ∈ keys m.vec := by
    apply Classical.byContradiction
    intro h
    exact hstored (by rw [getall_vec m hlist]; exact (hmGet_none_iff _ _).mpr h)
  rw [delete_vec m hlist, set_vec _ (by exact hlist), getall_vec _ (by exact hlist), getall_vec m hlist]
  simp only
  rw [upsert_emptied _ _ hne (hinv.nodup_vec hlist) hmem x hx]
  by_cases hxk : x = k
  · subst hxk; simp [Ne.symm hx]
  · rw [if_neg (fun h => hxk h.2), if_neg hxk, if_neg hxk]
    exact hmGet_put_elsewhere _ _ _ _ hxk (Ne.symm hx)

/-- **C37**, what holds of using a deleted name again: after any history without deletions, a name that is deleted and then appended to has the new
value and no other, and other names are as before - in either form of the table, and also where appending changes the form. Missing: `set`
(`C37_set_again_violated`), and appending to another name (`C37_append_earlier_partial`, `C37_append_later_violated`). -/
theorem C37_append_again_partial (ops : List Spec.HeaderOp) (m : MultiMap) (hn : ∀ op ∈ ops, op.nameNonempty) (hd : ∀ op ∈ ops, op.notDelete)
    (hs : Steps MultiMap.new ops m) (k v : Bytes) (hk : k ≠ []) (x : Bytes) (hx : x ≠ []) :
    ((m.delete k).append k v).getall x = if x = k then some [v] else m.getall x := by
  have hinv := (steps_inv hs hn hd Inv.new Spec.HeaderMap.empty (fun k => rfl)).1
  cases hm : m.ismap with
  | true =>
    have h : m.delete k = { m with map := some (hmRemove m.table k) } := by simp [MultiMap.delete, hm]
    rw [h]
    simp only [MultiMap.append, hm, ↓reduceIte]
    rw [getall_map _ (by rw [mapAppend_ismap]), mapAppend_table, getall_map m hm]
    show hmGet (hmInsert (hmRemove m.table k) k ((hmGet (hmRemove m.table k) k).getD [] ++ [v])) x = _
    rw [hmGet_insert, hmGet_remove, hmGet_remove]
    by_cases hxk : x = k <;> simp [hxk]
  | false =>
    have hv := hinv.vecMode hm
    have hne := hv.2.2 rfl
    have hnd := hinv.nodup_vec hm
    by_cases hmem : k ∈ keys m.vec
    · rw [delete_vec m hm]
      by_cases hl : (updFirst (fun e => e.1 == k) (fun _ => (([] : Bytes), ([] : List Bytes))) m.vec).length < 36
      · rw [append_vec _ (by exact hm) hl, getall_vec _ (by exact hm), getall_vec m hm]
        simp only
        rw [upsert_emptied _ _ hne hnd hmem x hx]
        by_cases hxk : x = k
        · subst hxk; simp
        · rw [if_neg (fun h => hxk h.2), if_neg hxk, if_neg hxk]
          exact hmGet_put_elsewhere _ _ _ _ hxk (by simpa using Ne.symm hxk)
      · simp only [MultiMap.append, hm, Bool.false_eq_true, ↓reduceIte, Nat.le_of_not_lt hl]
        have ht : m.table = [] := hv.1
        rw [getall_map _ (by rw [mapAppend_ismap]; rfl), mapAppend_table, hmGet_insert, getall_vec m hm]
        have e : ∀ z, hmGet (MultiMap.tomap { ismap := false, map := m.map, vec := updFirst (fun e => e.1 == k) (fun _ => ([], [])) m.vec }).table z =
            hmGet (updFirst (fun e => e.1 == k) (fun _ => ([], [])) m.vec) z := by
          intro z
          show hmGet (List.foldl _ m.table _) z = _
          rw [foldl_insert _ _ (nodup_emptied hne hnd), ht]
          simp [hmGet]
        rw [e, e, hmGet_delete _ _ _ hv.2.1 hk hk, hmGet_delete _ _ _ hv.2.1 hk hx]
        by_cases hxk : x = k <;> simp [hxk]
    · have hnone : m.getall k = none := by rw [getall_vec m hm]; exact (hmGet_none_iff _ _).mpr hmem
      have hdel : m.delete k = m := by
        have : vecFind m.vec k = none := by
          rw [vecFind, List.findIdx?_eq_none_iff]
          intro e he
          simp only [beq_eq_false_iff_ne]
          rintro rfl
          exact hmem (List.mem_map.mpr ⟨e, he, rfl⟩)
        simp [MultiMap.delete, hm, this]
      rw [hdel]
      have := (step_refines id (fun l => List.Perm.refl l) false m (.append k v) hinv hk (fun _ => rfl)).2 x (Or.inl hx)
      simp only [applyOp, abs, Spec.HeaderOp.apply] at this
      rw [this]
      by_cases hxk : x = k <;> simp [hxk, hnone]

theorem updFirst_skip (p : Pair → Bool) (g : Pair → Pair) (a b : List Pair) (h : ∀ e ∈ a, p e = false) : updFirst p g (a ++ b) = a ++ updFirst p g b := by
  induction a with
  | nil => rfl
  | cons e a ih =>
    simp only [List.cons_append, updFirst, h e (List.mem_cons_self ..), Bool.false_eq_true, ↓reduceIte, ih fun e he => h e (List.mem_cons_of_mem _ he)]

theorem upsert_skip (p : Pair → Bool) (g : Pair → Pair) (y : Pair) (a b : List Pair) (h : ∀ e ∈ a, p e = false) :
    upsert p g y (a ++ b) = a ++ upsert p g y b := by
  induction a with
  | nil => rfl
  | cons e a ih =>
    simp only [List.cons_append, upsert, h e (List.mem_cons_self ..), Bool.false_eq_true, ↓reduceIte, ih fun e he => h e (List.mem_cons_of_mem _ he)]

theorem upsert_hit (p : Pair → Bool) (g : Pair → Pair) (y : Pair) (a b : List Pair) (h : ∃ e ∈ a, p e = true) :
    upsert p g y (a ++ b) = updFirst p g a ++ b := by
  induction a with
  | nil => obtain ⟨e, he, _⟩ := h; cases he
  | cons e a ih =>
    by_cases hp : p e = true
    · simp [upsert, updFirst, hp]
    · obtain ⟨e', he', hp'⟩ := h
      rcases List.mem_cons.mp he' with rfl | he'
      · exact absurd hp' hp
      · simp only [List.cons_append, upsert, updFirst, hp, ↓reduceIte, ih ⟨e', he', hp'⟩, Bool.false_eq_true]

/-- What appending to another name `j` does after `k` was deleted from a list of fewer than 36 names. -/
theorem append_other {m : MultiMap} (hinv : Inv false m) (hlist : m.ismap = false) (hlen : m.len < 36) (a b : List Pair) (k : Bytes) (ws : List Bytes)
    (hab : m.vec = a ++ (k, ws) :: b) (j v : Bytes) (hj : j ≠ []) (hjk : j ≠ k) :
    ((m.delete k).append j v).getall j = if j ∈ keys b then some [v] else some ((m.getall j).getD [] ++ [v]) := by
  have hne := (hinv.vecMode hlist).2.2 rfl
  have hnd := hinv.nodup_vec hlist
  rw [hab] at hne hnd
  have hka : ∀ e ∈ a, (e.1 == k) = false := by
    intro e he
    simp only [beq_eq_false_iff_ne]
    intro h
    rw [keys, List.map_append, List.nodup_append] at hnd
    exact hnd.2.2 e.1 (List.mem_map.mpr ⟨e, he, rfl⟩) k (by simp) h
  have hdel : m.delete k = { m with vec := a ++ ([], []) :: b } := by
    rw [delete_vec m hlist, hab, updFirst_skip _ _ _ _ hka]
    simp [updFirst]
  have hlen' : (a ++ (([] : Bytes), ([] : List Bytes)) :: b).length < 36 := by
    simp only [len, hlist, Bool.false_eq_true, ↓reduceIte, hab] at hlen
    simpa using hlen
  rw [hdel, append_vec _ (by exact hlist) hlen', getall_vec _ (by exact hlist), getall_vec m hlist, hab]
  simp only
  have hnea : NoEmptyKey a := fun e he => hne e (by simp [he])
  have hpa := noEmpty_p hnea j
  by_cases hja : j ∈ keys a
  · have hjb : j ∉ keys b := by
      intro h
      rw [keys, List.map_append, List.nodup_append] at hnd
      exact hnd.2.2 j hja j (List.mem_map.mpr (by obtain ⟨e, he, e'⟩ := List.mem_map.mp h; exact ⟨e, by simp [he], e'⟩)) rfl
    obtain ⟨e, he, rfl⟩ := List.mem_map.mp hja
    rw [upsert_hit _ _ _ _ _ ⟨e, he, by simp⟩, if_neg hjb, hmGet_append, hmGet_append,
      hmGet_updFirst _ _ a e.1 (· ++ [v]) hpa (by intro e' he' h; simp [h, hj])]
    have : hmGet a e.1 ≠ none := fun h => (hmGet_none_iff _ _).mp h hja
    cases hg : hmGet a e.1 with
    | none => exact absurd hg this
    | some vs => simp
  · have hpf : ∀ e ∈ a, (fun e : Pair => e.1 == j || e.1.isEmpty) e = false := by
      intro e he
      rw [hpa e he]
      simp only [beq_eq_false_iff_ne]
      intro h
      exact hja (List.mem_map.mpr ⟨e, he, h⟩)
    have hn := (hmGet_none_iff a j).mpr hja
    rw [upsert_skip _ _ _ _ _ hpf, hmGet_append, hmGet_append, hn]
    simp only [upsert, List.isEmpty_nil, Bool.or_true, ↓reduceIte, hmGet, List.nil_append, Option.none_or, Ne.symm hjk]
    split
    · rfl
    · next h => rw [(hmGet_none_iff b j).mpr h]; rfl

/-- **C37 is violated** whenever a name is deleted from a list and another one, which `each` visits after it, is appended to: that one has the new value
only, and what it had before is lost. -/
theorem C37_append_later_violated (ops : List Spec.HeaderOp) (m : MultiMap) (hn : ∀ op ∈ ops, op.nameNonempty) (hd : ∀ op ∈ ops, op.notDelete)
    (hs : Steps MultiMap.new ops m) (hlist : m.ismap = false) (hlen : m.len < 36) (ord : List Pair → List Pair) (a b : List Pair) (k : Bytes)
    (ws : List Bytes) (hab : m.entries ord = a ++ (k, ws) :: b) (j v : Bytes) (vs : List Bytes) (hj : j ≠ []) (hjk : j ≠ k) (hb : (j, vs) ∈ b) :
    m.getall j = some vs ∧ ((m.delete k).append j v).getall j = some [v] := by
  have hinv := (steps_inv hs hn hd Inv.new Spec.HeaderMap.empty (fun k => rfl)).1
  have hv : m.vec = a ++ (k, ws) :: b := by simpa [entries, hlist] using hab
  refine ⟨?_, ?_⟩
  · rw [getall_vec m hlist, hmGet_some_iff _ (hinv.nodup_vec hlist), hv]
    simp [hb]
  · rw [append_other hinv hlist hlen a b k ws hv j v hj hjk, if_pos (show j ∈ keys b from List.mem_map.mpr ⟨(j, vs), hb, rfl⟩)]

/-- **C37**, what holds of appending to another name after a deletion: if `each` does not visit that name after the deleted one - it comes earlier, or
is not there yet -, the value is added to those it had. Missing: names visited later (`C37_append_later_violated`). -/
theorem C37_append_earlier_partial (ops : List Spec.HeaderOp) (m : MultiMap) (hn : ∀ op ∈ ops, op.nameNonempty) (hd : ∀ op ∈ ops, op.notDelete)
    (hs : Steps MultiMap.new ops m) (hlist : m.ismap = false) (hlen : m.len < 36) (ord : List Pair → List Pair) (a b : List Pair) (k : Bytes)
    (ws : List Bytes) (hab : m.entries ord = a ++ (k, ws) :: b) (j v : Bytes) (hj : j ≠ []) (hjk : j ≠ k) (hb : ∀ e ∈ b, e.1 ≠ j) :
    ((m.delete k).append j v).getall j = some ((m.getall j).getD [] ++ [v]) := by
  have hinv := (steps_inv hs hn hd Inv.new Spec.HeaderMap.empty (fun k => rfl)).1
  have hv : m.vec = a ++ (k, ws) :: b := by simpa [entries, hlist] using hab
  rw [append_other hinv hlist hlen a b k ws hv j v hj hjk, if_neg]
  intro h
  obtain ⟨e, he, e'⟩ := List.mem_map.mp h
  exact hb e he e'

/-- Non-trivial case: of three names the middle one is deleted; then the first and the last are appended to. -/
example : let m := MultiMap.new.runOps [.append b!"a" b!"1", .append b!"b" b!"2", .append b!"c" b!"3"]
    m.entries id = [(b!"a", [b!"1"])] ++ (b!"b", [b!"2"]) :: [(b!"c", [b!"3"])] ∧
    ((m.delete b!"b").append b!"a" b!"4").getall b!"a" = some [b!"1", b!"4"] ∧
    ((m.delete b!"b").append b!"c" b!"4").getall b!"c" = some [b!"4"] := by decide +kernel

/-- Non-trivial case: two names, one of them deleted and used again in both ways. -/
example : let m := MultiMap.new.runOps [.append b!"a" b!"1", .append b!"b" b!"2"]
    m.ismap = false ∧ m.getall b!"a" = some [b!"1"] ∧ ((m.delete b!"a").set b!"a" b!"3").getall b!"a" = none ∧
    ((m.delete b!"a").append b!"a" b!"3").getall b!"a" = some [b!"3"] := by decide +kernel

/-- Non-trivial case: with 36 names the append changes the form of the table. -/
example : let m := MultiMap.new.runOps ((List.range 36).map (fun i => .append [107, UInt8.ofNat i] [1]))
    m.ismap = false ∧ ((m.delete [107, 3]).append [107, 3] [2]).ismap = true ∧
    ((m.delete [107, 3]).append [107, 3] [2]).getall [107, 3] = some [[2]] := by decide +kernel

end Httpd
