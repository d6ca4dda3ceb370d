import Verif.Model.HeaderCost
import Verif.Props.Resources
/-!
# The work of the multi-map (C203)
-/

namespace Httpd
open Spec MultiMap

theorem looked_le {α : Type} (p : α → Bool) (l : List α) : looked p l ≤ l.length := by
  induction l with
  | nil => simp [looked]
  | cons e l ih => simp only [looked]; split <;> simp <;> omega

theorem looked_all {α : Type} {p : α → Bool} {l : List α} (h : ∀ e ∈ l, p e = false) : looked p l = l.length := by
  induction l with
  | nil => rfl
  | cons e l ih =>
    simp only [looked, h e (List.mem_cons_self ..), Bool.false_eq_true, ↓reduceIte, List.length_cons]
    rw [ih (fun x hx => h x (List.mem_cons_of_mem _ hx))]

theorem upsert_length (p : Pair → Bool) (g : Pair → Pair) (x : Pair) (l : List Pair) : (upsert p g x l).length ≤ l.length + 1 := by
  induction l with
  | nil => simp [upsert]
  | cons e l ih => simp only [upsert]; split <;> simp <;> omega

theorem updFirst_length (p : Pair → Bool) (g : Pair → Pair) (l : List Pair) : (updFirst p g l).length = l.length := by
  induction l with
  | nil => rfl
  | cons e l ih => simp only [updFirst]; split <;> simp [ih]

theorem visitMut_length (f : Bytes → List Bytes → List Bytes × Bool) (l : List Pair) : (visitMut f l).length = l.length := by
  induction l with
  | nil => rfl
  | cons e l ih =>
    obtain ⟨k, vs⟩ := e
    simp only [visitMut]
    split <;> simp [ih]

theorem mapAppend_vec (m : MultiMap) (k v : Bytes) : (m.mapAppend k v).vec = m.vec := by
  unfold mapAppend
  split <;> rfl

theorem append_short (m : MultiMap) (k v : Bytes) (n : Nat) (h : m.vec.length ≤ 36 + n) : (m.append k v).vec.length ≤ 36 + n := by
  by_cases hm : m.ismap = true
  · simp only [MultiMap.append, hm, if_true, mapAppend_vec]; exact h
  · rw [Bool.not_eq_true] at hm
    by_cases hl : 36 ≤ m.vec.length
    · simp [MultiMap.append, hm, hl, mapAppend_vec, tomap]
    · rw [append_vec m hm (by omega)]
      have := upsert_length (fun e => e.1 == k || e.1.isEmpty) (fun e => (if e.1.isEmpty then k else e.1, e.2 ++ [v])) (k, [v]) m.vec
      simp only
      omega

/-- The calls of `set` in a history. -/
def sets : List HeaderOp → Nat
  | [] => 0
  | .set _ _ :: ops => sets ops + 1
  | _ :: ops => sets ops

theorem steps_short {m m' : MultiMap} {ops : List HeaderOp} (h : Steps m ops m') :
    ∀ n, m.vec.length ≤ 36 + n → m'.vec.length ≤ 36 + (n + sets ops) := by
  induction h with
  | nil m => intro n h; simpa [sets] using h
  | @cons m op ops m' ord hord _ ih =>
    intro n hn
    cases op with
    | set k v =>
      have := ih (n + 1) (by
        simp only [applyOp]
        by_cases hm : m.ismap = true
        · have : (m.set k v).vec = m.vec := by
            simp only [MultiMap.set, hm, if_true]
            split <;> rfl
          rw [this]; omega
        · rw [set_vec m (by simpa using hm)]
          have := upsert_length (fun e => e.1 == k || e.1.isEmpty) (fun e => (e.1, [v])) (k, [v]) m.vec
          simp only
          omega)
      simp only [sets]
      omega
    | append k v => exact ih n (append_short m k v n hn)
    | remove k v =>
      refine ih n ?_
      simp only [applyOp]
      by_cases hm : m.ismap = true
      · have : (m.remove k v).vec = m.vec := by
          simp only [MultiMap.remove, hm, if_true]
          split <;> rfl
        rw [this]; exact hn
      · rw [remove_vec m (by simpa using hm)]
        simp only [updFirst_length]; exact hn
    | delete k =>
      refine ih n ?_
      simp only [applyOp]
      by_cases hm : m.ismap = true
      · simp only [MultiMap.delete, hm, if_true]; exact hn
      · rw [delete_vec m (by simpa using hm)]
        simp only [updFirst_length]; exact hn
    | clear => exact ih n (by simp [applyOp, MultiMap.clear])
    | mapValues f =>
      refine ih n ?_
      simp only [applyOp, eachMut]
      split
      · exact hn
      · simp only [visitMut_length]; exact hn

theorem costs_le (m : MultiMap) (k : Bytes) :
    m.setCost k ≤ m.vec.length ∧ m.findCost k ≤ m.vec.length ∧ m.appendCost k ≤ m.vec.length ∧ m.appendCost k ≤ 35 := by
  have h1 := looked_le (fun e : Pair => e.1 == k || e.1.isEmpty) m.vec
  have h2 := looked_le (fun e : Pair => e.1 == k) m.vec
  unfold setCost findCost appendCost
  refine ⟨?_, ?_, ?_, ?_⟩ <;> (repeat' split) <;> omega

/-- **C203**, what holds for every history: an operation looks at no more than 36 names and one more for each `set` before it; an
`append` at no more than 35 in any case. Missing from C203: histories with `set`. -/
theorem C203_names_partial (ops : List HeaderOp) (m : MultiMap) (h : Steps MultiMap.new ops m) (k : Bytes) :
    m.appendCost k ≤ 35 ∧ m.setCost k ≤ 36 + sets ops ∧ m.findCost k ≤ 36 + sets ops := by
  have := steps_short h 0 (by simp [MultiMap.new])
  obtain ⟨a, b, c, d⟩ := costs_le m k
  omega

/-- The history of `n` calls of `set` with different names. -/
def manySets (n : Nat) : List HeaderOp := (List.range n).map fun i => .set (List.replicate (i + 1) 97) []

theorem history_snoc {m m' : MultiMap} {ops : List HeaderOp} (h : Steps m ops m') (ord : List Pair → List Pair) (hord : IsOrder ord) (op : HeaderOp) :
    Steps m (ops ++ [op]) (applyOp ord m' op) := by
  induction h with
  | nil m => exact .cons ord hord (.nil _)
  | cons ord' hord' _ ih => exact .cons ord' hord' ih

theorem manySets_steps (n : Nat) : ∃ m, Steps MultiMap.new (manySets n) m ∧ m.ismap = false ∧
    m.vec = (List.range n).map fun i => (List.replicate (i + 1) 97, [[]]) := by
  induction n with
  | zero => exact ⟨_, .nil _, rfl, rfl⟩
  | succ n ih =>
    obtain ⟨m, h1, h2, h3⟩ := ih
    have h4 := history_snoc h1 id (fun l => .refl l) (.set (List.replicate (n + 1) 97) [])
    refine ⟨applyOp id m (.set (List.replicate (n + 1) 97) []), ?_, ?_, ?_⟩
    · rw [manySets, List.range_succ, List.map_append]; exact h4
    · simp only [applyOp]; rw [set_vec m h2]; exact h2
    · simp only [applyOp]
      rw [set_vec m h2]
      simp only [h3]
      have : ∀ (l : List Pair) (p : Pair → Bool) (g : Pair → Pair) (x : Pair), (∀ e ∈ l, p e = false) → upsert p g x l = l ++ [x] := by
        intro l p g x
        induction l with
        | nil => intro _; rfl
        | cons e l ih =>
          intro h
          simp only [upsert, h e (List.mem_cons_self ..), Bool.false_eq_true, ↓reduceIte, List.cons_append]
          rw [ih (fun y hy => h y (List.mem_cons_of_mem _ hy))]
      rw [this, List.range_succ, List.map_append]
      · rfl
      · intro e he
        obtain ⟨i, hi, rfl⟩ := List.mem_map.mp he
        have := List.mem_range.mp hi
        simp only [Bool.or_eq_false_iff, beq_eq_false_iff_ne, ne_eq]
        refine ⟨fun h => ?_, by simp [List.replicate_succ]⟩
        have := congrArg List.length h
        simp at this
        omega

/-- **C203**, negation for the code as written: `set` never changes to the hash table, so after `n` of them with different names the next
one, and each look-up of a name that is not there, looks at `n` names. -/
theorem C203_set_violated (n : Nat) : ∃ m, Steps MultiMap.new (manySets n) m ∧ m.setCost (List.replicate (n + 1) 97) = n ∧
    m.findCost (List.replicate (n + 1) 97) = n := by
  obtain ⟨m, h1, h2, h3⟩ := manySets_steps n
  have hne : ∀ i, i ∈ List.range n → List.replicate (i + 1) (97 : Byte) ≠ List.replicate (n + 1) 97 := by
    intro i hi h
    have := List.mem_range.mp hi
    have := congrArg List.length h
    simp at this
    omega
  refine ⟨m, h1, ?_, ?_⟩
  · unfold setCost
    rw [h2, h3, looked_all]
    · simp
    · intro e he
      obtain ⟨i, hi, rfl⟩ := List.mem_map.mp he
      simp only [Bool.or_eq_false_iff, beq_eq_false_iff_ne, ne_eq]
      exact ⟨hne i hi, by simp [List.replicate_succ]⟩
  · unfold findCost
    rw [h2, h3, looked_all]
    · simp
    · intro e he
      obtain ⟨i, hi, rfl⟩ := List.mem_map.mp he
      simpa using hne i hi

/-! ### Values -/

theorem removeCost_le (v : Bytes) (fuel : Nat) : ∀ (vs : List Bytes) (skip : Nat), removeCost v fuel vs skip ≤ vs.length * fuel := by
  induction fuel with
  | zero => intros; simp [removeCost]
  | succ fuel ih =>
    intro vs skip
    simp only [removeCost]
    have h1 := looked_le (fun e => e == v) (vs.drop skip)
    rw [List.length_drop] at h1
    rw [Nat.mul_succ]
    split
    · next pos _ =>
      have h2 : removeCost v fuel (vs.eraseIdx (pos + skip)) pos ≤ vs.length * fuel :=
        Nat.le_trans (ih _ _) (Nat.mul_le_mul_right _ (List.length_eraseIdx_le ..))
      omega
    · omega

theorem findIdx_past (x v : Bytes) (hx : x ≠ v) (n : Nat) (l : List Bytes) :
    (List.replicate n x ++ v :: l).findIdx? (fun e => e == v) = some n ∧ looked (fun e => e == v) (List.replicate n x ++ v :: l) = n + 1 := by
  induction n with
  | zero => simp [looked, List.findIdx?_cons]
  | succ n ih =>
    have : (x == v) = false := by simpa using hx
    rw [List.replicate_succ, List.cons_append]
    simp [looked, List.findIdx?_cons, this, ih]

theorem erase_past (x v : Bytes) (n : Nat) (l : List Bytes) : (List.replicate n x ++ v :: l).eraseIdx n = List.replicate n x ++ l := by
  rw [List.eraseIdx_append_of_length_le (by simp)]
  simp

theorem removeCost_long (x v : Bytes) (hx : x ≠ v) (n : Nat) (j : Nat) : ∀ fuel, 2 * j + 1 ≤ fuel →
    removeCost v fuel (List.replicate n x ++ List.replicate (2 * j) v) 0 = (j + 1) * n + 2 * j := by
  induction j with
  | zero =>
    intro fuel hf
    obtain ⟨fuel, rfl⟩ : ∃ f, fuel = f + 1 := ⟨fuel - 1, by omega⟩
    have h1 : looked (fun e => e == v) (List.replicate n x) = n := by
      rw [looked_all]
      · simp
      · intro e he; rw [List.eq_of_mem_replicate he]; simpa using hx
    have h2 : (List.replicate n x).findIdx? (fun e => e == v) = none := by
      rw [List.findIdx?_eq_none_iff]
      intro e he; rw [List.eq_of_mem_replicate he]; simpa using hx
    simp [removeCost, h1, h2]
  | succ j ih =>
    intro fuel hf
    obtain ⟨fuel, rfl⟩ : ∃ f, fuel = f + 2 := ⟨fuel - 2, by omega⟩
    have e1 : List.replicate (2 * (j + 1)) v = v :: v :: List.replicate (2 * j) v := by
      rw [show 2 * (j + 1) = 2 * j + 1 + 1 from by omega, List.replicate_succ, List.replicate_succ]
    obtain ⟨a1, a2⟩ := findIdx_past x v hx n (v :: List.replicate (2 * j) v)
    have e2 : (List.replicate n x ++ v :: List.replicate (2 * j) v).drop n = v :: List.replicate (2 * j) v := by
      rw [List.drop_append_of_le_length (by simp)]; simp
    rw [e1]
    simp only [removeCost, List.drop_zero, a1, a2, Nat.add_zero, erase_past, e2]
    simp only [looked, beq_self_eq_true, ↓reduceIte, List.findIdx?_cons, Nat.zero_add, erase_past]
    have := ih fuel (by omega)
    simp only [Nat.add_mul, Nat.one_mul] at this ⊢
    change n + 1 + (1 + removeCost v fuel (List.replicate n x ++ List.replicate (2 * j) v) 0) = _
    omega

/-- **C203**, negation for the code as written, for values: where `n` other values stand before `2 n` of the value to be removed, `remove` looks
at `n² + 3 n` values, although there are only `3 n`. -/
theorem C203_remove_violated (x v : Bytes) (hx : x ≠ v) (n : Nat) :
    ∃ vs : List Bytes, vs.length = 3 * n ∧ removeCost v (vs.length + 1) vs 0 = n * n + 3 * n := by
  refine ⟨List.replicate n x ++ List.replicate (2 * n) v, by simp; omega, ?_⟩
  rw [removeCost_long x v hx n n _ (by simp)]
  rw [Nat.add_mul, Nat.one_mul]
  omega

/-- **C203**, what holds for values: `remove` looks at no more than the square of their number and their number. -/
theorem C203_values_partial (vs : List Bytes) (v : Bytes) : removeCost v (vs.length + 1) vs 0 ≤ vs.length * vs.length + vs.length := by
  have := removeCost_le v (vs.length + 1) vs 0
  rw [Nat.mul_succ] at this
  exact this

/-! ### Heads of requests -/

theorem scanCost_le (hs : MultiMap) (line key : Bytes) : scanCost hs key line ≤ 35 := by
  induction line generalizing key with
  | nil => simp [scanCost]
  | cons c rest ih =>
    have := (costs_le hs (trimSp key)).2.2.2
    have := ih (key ++ [toAsciiLower c])
    simp only [scanCost]
    repeat' split
    all_goals omega

theorem headerCost_le (lim : HttpLimits) (fuel : Nat) : ∀ (hs : MultiMap) (r : Reader), headerCost lim fuel hs r ≤ 12 * r.flat.length := by
  induction fuel with
  | zero => intros; simp [headerCost]
  | succ fuel ih =>
    intro hs r
    simp only [headerCost]
    split
    · omega
    · next line r' hl =>
      obtain ⟨h1, h2, _⟩ := Reader.readUntil_ok hl
      have h3 := congrArg List.length (cut_append 10 lim.maxHeaderLine r.flat)
      rw [← h1, ← h2, List.length_append] at h3
      split
      · omega
      · have h4 := scanCost_le hs (line.take (line.length - 2)) []
        split
        · omega
        · next hs' _ =>
          have := ih hs' r'
          omega

/-- **C203**, what holds for requests, delivered or refused: however many header lines a client sends, the server compares no more than
35 names for each of them, hence no more than 12 for each byte received; and looking up a header of a delivered request takes no
more than 36 comparisons. -/
theorem C203_head_partial (lim : HttpLimits) (hd : Head) (hb : hd.Blank) (r : Reader) (fuel : Nat) :
    (∀ (hs : MultiMap) (key line : Bytes), scanCost hs key line ≤ 35) ∧
    (∀ hs r', headerCost lim fuel hs r' ≤ 12 * r'.flat.length) ∧
    ∀ hd' r', readHead lim hd r = .ok (hd', r') → ∀ k, hd'.headers.findCost k ≤ 36 := by
  refine ⟨fun hs key line => scanCost_le hs line key, headerCost_le lim fuel, ?_⟩
  intro hd' r' h k
  obtain ⟨fs, _, h2, _⟩ := readHead_headText lim hd hd' ⟨hb.f0, hb.f1, hb.f2⟩ r r' h
  have hlen : hd'.headers.vec.length ≤ 36 := by
    rw [h2]
    have : ∀ (fs : List (Bytes × Bytes)) (m : MultiMap), m.vec.length ≤ 36 + 0 → (storePairs m fs).vec.length ≤ 36 + 0 := by
      intro fs
      induction fs with
      | nil => intro m h; exact h
      | cons f fs ih => intro m h; exact ih _ (append_short m f.1 f.2 0 h)
    exact this fs _ (by rw [hb.headers.2.1]; simp)
  exact Nat.le_trans (costs_le hd'.headers k).2.1 hlen

/-- Concrete cases. Forty header lines with different names: the list is given up after 36 of them, then nothing is looked at. Three times
`set`: the fourth looks at three names. -/
example : ((List.range 41).map fun n => (storePairs MultiMap.new ((List.range n).map fun i => (List.replicate (i + 1) 97, []))).appendCost
    (List.replicate (n + 1) 97)) = List.range 36 ++ [0, 0, 0, 0, 0] := by decide +kernel

example : ((((MultiMap.new.set b!"a" b!"1").set b!"b" b!"2").set b!"c" b!"3").setCost b!"d",
    removeCost b!"v" 7 [b!"x", b!"x", b!"v", b!"v", b!"v", b!"v"] 0) = (3, 10) := by decide +kernel

/-- A head of three lines, the second with the name of the first: nothing to compare with, then one name, then one. -/
example : headerCost ⟨8192, 8192, 128, 0⟩ 9 MultiMap.new ⟨b!"a: 1\r\nA: 2\r\nb: 3\r\n\r\n", [], .silent⟩ = 2 := by decide +kernel

end Httpd
