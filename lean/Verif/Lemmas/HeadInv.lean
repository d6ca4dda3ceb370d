import Verif.Lemmas.HeadWF
import Verif.Props.MultiMap
/-! # Invariants of the headers stored by the head reader -/

namespace Httpd
open Spec MultiMap

/-- An empty multi-map in list mode (new, or cleared). -/
def MultiMap.Fresh (m : MultiMap) : Prop := m.ismap = false ∧ m.vec = [] ∧ m.table = []

theorem MultiMap.fresh_new : MultiMap.new.Fresh := ⟨rfl, rfl, rfl⟩

theorem MultiMap.fresh_clear (m : MultiMap) : m.clear.Fresh := by
  refine ⟨rfl, rfl, ?_⟩
  simp only [MultiMap.clear, table]; cases m.map <;> rfl

theorem MultiMap.Fresh.inv {m : MultiMap} (h : m.Fresh) : Inv false m := by
  obtain ⟨h1, h2, h3⟩ := h
  constructor
  · intro hh; rw [h1] at hh; cases hh
  · intro _
    refine ⟨h3, by rw [h2]; simp [liveKeys], fun _ e he => ?_⟩
    rw [h2] at he; cases he

theorem MultiMap.Fresh.getall {m : MultiMap} (h : m.Fresh) (k : Bytes) : m.getall k = none := by
  rw [getall_vec m h.1, h.2.1]; rfl

/-- The appends that storing fields amounts to. -/
def fieldOps (fs : List Field) : List HeaderOp := fs.map (fun f => .append (lower f.name) f.value)

theorem storeFields_steps (hs : MultiMap) (fs : List Field) : Steps hs (fieldOps fs) (storeFields hs fs) := by
  induction fs generalizing hs with
  | nil => exact Steps.nil hs
  | cons f fs ih => exact Steps.cons id (fun l => List.Perm.refl l) (ih _)

theorem run_fieldOps (fs : List Field) (a : HeaderMap) (k : Bytes) :
    Spec.run (fieldOps fs) a k = match valuesOf fs k with
      | [] => a k
      | vs => some ((a k).getD [] ++ vs) := by
  induction fs generalizing a with
  | nil => rfl
  | cons f fs ih =>
    have : Spec.run (fieldOps (f :: fs)) a k = Spec.run (fieldOps fs) ((HeaderOp.append (lower f.name) f.value).apply a) k := rfl
    rw [this, ih]
    by_cases hk : lower f.name = k
    · have hv : valuesOf (f :: fs) k = f.value :: valuesOf fs k := by simp [valuesOf, hk]
      rw [hv]
      simp only [HeaderOp.apply, hk]
      cases valuesOf fs k <;> simp
    · have hv : valuesOf (f :: fs) k = valuesOf fs k := by simp [valuesOf, hk]
      rw [hv]
      simp [HeaderOp.apply, Ne.symm hk]

theorem lower_ne_nil {n : Bytes} (h : n ≠ []) : lower n ≠ [] := by
  cases n with
  | nil => exact absurd rfl h
  | cons b n => simp [lower]

theorem storeFields_getall (hs : MultiMap) (h : hs.Fresh) (fs : List Field) (hn : ∀ f ∈ fs, f.name ≠ []) (k : Bytes) :
    (storeFields hs fs).getall k = lookupFields fs k := by
  have := (steps_inv (storeFields_steps hs fs)
    (by intro op ho; simp only [fieldOps, List.mem_map] at ho; obtain ⟨f, hf, rfl⟩ := ho; exact lower_ne_nil (hn f hf))
    (by intro op ho; simp only [fieldOps, List.mem_map] at ho; obtain ⟨f, hf, rfl⟩ := ho; trivial)
    h.inv HeaderMap.empty (fun k => h.getall k)).2 k
  rw [this, run_fieldOps]
  unfold lookupFields
  cases valuesOf fs k <;> simp [HeaderMap.empty]

theorem storeFields_inv (hs : MultiMap) (h : hs.Fresh) (fs : List Field) (hn : ∀ f ∈ fs, f.name ≠ []) :
    Inv false (storeFields hs fs) :=
  (steps_inv (storeFields_steps hs fs)
    (by intro op ho; simp only [fieldOps, List.mem_map] at ho; obtain ⟨f, hf, rfl⟩ := ho; exact lower_ne_nil (hn f hf))
    (by intro op ho; simp only [fieldOps, List.mem_map] at ho; obtain ⟨f, hf, rfl⟩ := ho; trivial)
    h.inv HeaderMap.empty (fun k => h.getall k)).1

/-! ## predicates on all stored pairs -/

/-- `R` holds of every stored pair. -/
def MultiMap.AllE (R : Pair → Prop) (m : MultiMap) : Prop := (∀ e ∈ m.vec, R e) ∧ ∀ e ∈ m.table, R e

theorem AllE_hmInsert {R : Pair → Prop} {l : List Pair} (h : ∀ e ∈ l, R e) (k : Bytes) (vs : List Bytes) (hk : R (k, vs)) :
    ∀ e ∈ hmInsert l k vs, R e := by
  induction l with
  | nil => intro e he; simp [hmInsert] at he; rw [he]; exact hk
  | cons a l ih =>
    obtain ⟨k', vs'⟩ := a
    intro e he
    simp only [hmInsert] at he
    split at he
    · next hkk =>
      rcases List.mem_cons.mp he with rfl | he
      · rw [hkk]; exact hk
      · exact h e (by simp [he])
    · rcases List.mem_cons.mp he with rfl | he
      · exact h _ (by simp)
      · exact ih (fun e he => h e (by simp [he])) e he

theorem AllE_foldl_insert {R : Pair → Prop} (l t : List Pair) (hl : ∀ e ∈ l, R e) (ht : ∀ e ∈ t, R e) :
    ∀ e ∈ l.foldl (fun t e => hmInsert t e.1 e.2) t, R e := by
  induction l generalizing t with
  | nil => exact ht
  | cons a l ih =>
    exact ih _ (fun e he => hl e (by simp [he])) (AllE_hmInsert ht _ _ (hl a (by simp)))

theorem AllE_mem_hmGet {R : Pair → Prop} {l : List Pair} (h : ∀ e ∈ l, R e) (k : Bytes) (vs : List Bytes)
    (hg : hmGet l k = some vs) : R (k, vs) := by
  induction l with
  | nil => simp [hmGet] at hg
  | cons a l ih =>
    obtain ⟨k', vs'⟩ := a
    simp only [hmGet] at hg
    split at hg
    · next hk => cases hg; rw [← hk]; exact h _ (by simp)
    · exact ih (fun e he => h e (by simp [he])) hg

theorem AllE_upsert {R : Pair → Prop} (p : Pair → Bool) (g : Pair → Pair) (x : Pair) (l : List Pair) (h : ∀ e ∈ l, R e)
    (hg : ∀ e ∈ l, p e = true → R (g e)) (hx : R x) : ∀ e ∈ upsert p g x l, R e := by
  induction l with
  | nil => intro e he; simp [upsert] at he; rw [he]; exact hx
  | cons a l ih =>
    intro e he
    simp only [upsert] at he
    split at he
    · next hp =>
      rcases List.mem_cons.mp he with rfl | he
      · exact hg a (by simp) hp
      · exact h e (by simp [he])
    · rcases List.mem_cons.mp he with rfl | he
      · exact h _ (by simp)
      · exact ih (fun e he => h e (by simp [he])) (fun e he => hg e (by simp [he])) e he

theorem AllE_append {R : Pair → Prop} {m : MultiMap} (h : m.AllE R) (k v : Bytes) (h1 : R (k, [v]))
    (h2 : ∀ vs, R (k, vs) → R (k, vs ++ [v])) (h3 : ∀ vs, R ([], vs) → R (k, vs ++ [v])) : (m.append k v).AllE R := by
  have hma : ∀ m : MultiMap, m.AllE R → (m.mapAppend k v).AllE R := by
    intro m hm
    refine ⟨by rw [mapAppend_vec]; exact hm.1, ?_⟩
    rw [mapAppend_table]
    apply AllE_hmInsert hm.2
    cases hg : hmGet m.table k with
    | none => simpa using h1
    | some vs => exact h2 vs (AllE_mem_hmGet hm.2 k vs hg)
  cases hm : m.ismap with
  | true => rw [MultiMap.append, if_pos hm]; exact hma m h
  | false =>
    by_cases hl : 36 ≤ m.vec.length
    · rw [MultiMap.append, if_neg (by simp [hm]), if_pos hl]
      apply hma
      refine ⟨by simp [tomap], ?_⟩
      exact AllE_foldl_insert _ _ h.1 h.2
    · rw [append_vec m hm (by omega)]
      refine ⟨?_, h.2⟩
      refine AllE_upsert _ _ _ _ h.1 ?_ h1
      intro e he hp
      obtain ⟨k', vs⟩ := e
      by_cases hk : k' = []
      · subst hk; exact h3 vs (h.1 _ he)
      · have : k' = k := by simpa [hk] using hp
        subst this
        have hne : List.isEmpty k' = false := by simpa using hk
        simp only [hne, Bool.false_eq_true, if_false]
        exact h2 vs (h.1 _ he)

theorem AllE_getall {R : Pair → Prop} {m : MultiMap} (h : m.AllE R) (k : Bytes) (vs : List Bytes)
    (hg : m.getall k = some vs) : R (k, vs) := by
  cases hm : m.ismap with
  | true => rw [getall_map m hm] at hg; exact AllE_mem_hmGet h.2 k vs hg
  | false => rw [getall_vec m hm] at hg; exact AllE_mem_hmGet h.1 k vs hg

theorem AllE_entries {R : Pair → Prop} {m : MultiMap} (h : m.AllE R) (ord : List Pair → List Pair) (hord : IsOrder ord) :
    ∀ e ∈ m.entries ord, R e := by
  intro e he
  unfold entries at he
  split at he
  · exact h.2 e ((hord _).mem_iff.mp he)
  · exact h.1 e he

theorem AllE_fresh {R : Pair → Prop} {m : MultiMap} (h : m.Fresh) : m.AllE R := by
  refine ⟨?_, ?_⟩
  · rw [h.2.1]; intro e he; cases he
  · rw [h.2.2]; intro e he; cases he

/-- Lift an invariant through the header lines: `R` must survive storing any acceptable line of at most `maxHeaderLine`
bytes. -/
theorem Lines.allE {lim : HttpLimits} {R : Pair → Prop} {hs hs' : MultiMap} {s rest : Bytes} (h : Lines lim hs s hs' rest)
    (hR : hs.AllE R)
    (hstep : ∀ (hs : MultiMap) (n v : Bytes), hs.AllE R → 58 ∉ n → n.all isText = true → v.all isText = true → v ≠ [] →
      n.length ≤ 256 → n.length + v.length + 3 ≤ lim.maxHeaderLine →
      (hs.append (trimSp (n.map toAsciiLower)) (trimSp v)).AllE R) : hs'.AllE R := by
  induction h with
  | stop => exact hR
  | line hs hs1 hs2 s rest hl hscan h ih =>
    rw [scanLine_ok_iff _ _ _ _ _ (by simp)] at hscan
    rcases hscan with ⟨_, _, _, rfl⟩ | ⟨n, v, he, h1, h2, h3, h4, h5, _, rfl⟩
    · exact ih hR
    · refine ih (hstep hs n v hR h1 h2 h3 h4 (by simpa using h5) ?_)
      have hlen := congrArg List.length he
      have hc := cut_length_le 10 lim.maxHeaderLine s
      simp only [List.length_take, List.length_append, List.length_cons] at hlen
      omega

end Httpd
