import Verif.Model.JoinLoop
import Verif.Spec.JoinLoop
import Verif.Props.Main
import Verif.Props.Exit
/-! # C212: the join loop, step by step -/

namespace Httpd
open Spec

/-! ## Lists -/

/-- A rearrangement of an image is the image of a rearrangement. -/
theorem perm_of_map {α β : Type} (f : α → β) {l' m : List β} (h : l'.Perm m) :
    ∀ l : List α, m = l.map f → ∃ l'' : List α, l''.Perm l ∧ l' = l''.map f := by
  induction h with
  | nil =>
    intro l hl
    have : l = [] := by simpa using hl.symm
    subst this
    exact ⟨[], .refl _, rfl⟩
  | cons a _ ih =>
    intro l hl
    cases l with
    | nil => simp at hl
    | cons b l =>
      simp only [List.map_cons, List.cons.injEq] at hl
      obtain ⟨l'', h1, h2⟩ := ih l hl.2
      exact ⟨b :: l'', h1.cons b, by rw [List.map_cons, ← h2, hl.1]⟩
  | swap a b k =>
    intro l hl
    match l with
    | [] => simp at hl
    | [_] => simp at hl
    | c :: d :: l =>
      simp only [List.map_cons, List.cons.injEq] at hl
      exact ⟨d :: c :: l, .swap c d l, by simp [hl.1, hl.2.1, hl.2.2]⟩
  | trans _ _ ih1 ih2 =>
    intro l hl
    obtain ⟨l1, h1, h2⟩ := ih2 l hl
    obtain ⟨l2, h3, h4⟩ := ih1 l1 h2
    exact ⟨l2, h3.trans h1, h4⟩

theorem range_get {α : Type} (l : List α) : (List.range l.length).map (fun i => l[i]?) = l.map some := by
  apply List.ext_getElem?
  intro i
  by_cases h : i < l.length
  · simp [h]
  · simp [h]

theorem range_filterMap {α : Type} (l : List α) : (List.range l.length).filterMap (fun i => l[i]?) = l := by
  have := congrArg (List.filterMap id) (range_get l)
  rw [List.filterMap_map, List.filterMap_map] at this
  simpa [Function.comp_def] using this

theorem joinedOf_append (a b : List JoinAct) : joinedOf (a ++ b) = joinedOf a ++ joinedOf b := by
  induction a with
  | nil => rfl
  | cons x a ih => cases x <;> simp [joinedOf, ih]

/-! ## The invariant -/

/-- How many actions task and loop still have before them. -/
def joinTaskWork : TaskState → Nat
  | .running => 2
  | .ended _ => 1
  | .joined _ => 0

def joinWork (s : JoinState) : Nat := (s.tasks.map joinTaskWork).sum + if s.returned then 0 else 1

theorem joinWork_set (ts : List TaskState) (i : Nat) (a b : TaskState) (h : ts[i]? = some a) (hw : joinTaskWork b + 1 = joinTaskWork a) :
    ((ts.set i b).map joinTaskWork).sum + 1 = (ts.map joinTaskWork).sum := by
  induction ts generalizing i with
  | nil => simp at h
  | cons t ts ih =>
    cases i with
    | zero => simp only [List.getElem?_cons_zero, Option.some.injEq] at h; subst h; simp only [List.set_cons_zero, List.map_cons, List.sum_cons]; omega
    | succ i => simp only [List.getElem?_cons_succ] at h; have := ih i h; simp only [List.set_cons_succ, List.map_cons, List.sum_cons]; omega

theorem JoinStep.work {ts : List Finished} {s t : JoinState} {a : JoinAct} (h : JoinStep ts s a t) : joinWork t + 1 = joinWork s := by
  cases h with
  | finish i f o hr hi hf ho => have := joinWork_set s.tasks i .running (.ended o) hi rfl; simp only [joinWork]; omega
  | join i f o hr hi hf => have := joinWork_set s.tasks i (.ended o) (.joined o) hi rfl; simp only [joinWork]; omega
  | exit hr _ => simp [joinWork, hr]

structure JoinInv (ts : List Finished) (tr : List JoinAct) (s : JoinState) : Prop where
  length : s.tasks.length = ts.length
  nodup : (joinedOf tr).Nodup
  mem : ∀ i, i ∈ joinedOf tr ↔ ∃ o, s.tasks[i]? = some (.joined o)
  result : ∀ (i : Nat) (o : TaskEnd), (s.tasks[i]? = some (.ended o) ∨ s.tasks[i]? = some (.joined o)) →
    ∃ t, ts[i]? = some t ∧ t.result.taskEnd = some o
  log : s.log = ((joinedOf tr).filterMap (fun i => ts[i]?)).flatMap joinRecord
  ret : s.returned = true → ∀ t ∈ s.tasks, ∃ o, t = .joined o
  work : tr.length + joinWork s = 2 * ts.length + 1

theorem join_inv {ts : List Finished} {tr : List JoinAct} {s : JoinState} (h : JoinRun ts (.start ts) tr s) : JoinInv ts tr s := by
  induction h with
  | nil =>
    refine ⟨by simp [JoinState.start], by simp [joinedOf], ?_, ?_, rfl, fun h => by simp [JoinState.start] at h, ?_⟩
    · intro i; simp [joinedOf, JoinState.start]
    · intro i o h; simp [JoinState.start] at h
    · have : ∀ l : List Finished, ((l.map (fun _ => TaskState.running)).map joinTaskWork).sum = 2 * l.length := by
        intro l
        induction l with
        | nil => rfl
        | cons a l ih => simp only [List.map_cons, List.sum_cons, List.length_cons, joinTaskWork] at ih ⊢; omega
      have h1 := this ts
      simp only [joinWork, JoinState.start, List.length_nil]
      simp only [Bool.false_eq_true, if_false]
      omega
  | @snoc tr s u a hr hs ih =>
    have hw := hs.work
    cases hs with
    | finish i f o hret hi hf ho =>
      have hjo : joinedOf (tr ++ [.finish i]) = joinedOf tr := by simp [joinedOf_append, joinedOf]
      refine ⟨by simpa using ih.length, by rw [hjo]; exact ih.nodup, ?_, ?_, by rw [hjo]; exact ih.log, ?_, ?_⟩
      · intro j
        rw [hjo, ih.mem j]
        simp only [List.getElem?_set]
        by_cases hij : i = j
        · subst hij
          simp only [hi]
          constructor
          · rintro ⟨o', h⟩; cases h
          · rintro ⟨o', h⟩; split at h <;> (try split at h) <;> cases h
        · simp [hij]
      · intro j o' h
        simp only [List.getElem?_set] at h
        by_cases hij : i = j
        · subst hij
          have hlt : i < s.tasks.length := (List.getElem?_eq_some_iff.mp hi).1
          simp only [if_true, hlt] at h
          rcases h with h | h <;> simp only [Option.some.injEq, TaskState.ended.injEq, reduceCtorEq] at h
          subst h
          exact ⟨f, hf, ho⟩
        · simp only [hij, if_false] at h
          exact ih.result j o' h
      · intro h; rw [hret] at h; cases h
      · have := ih.work; simp only [List.length_append, List.length_singleton]; omega
    | join i f o hret hi hf =>
      have hjo : joinedOf (tr ++ [.join i]) = joinedOf tr ++ [i] := by simp [joinedOf_append, joinedOf]
      have hlt : i < s.tasks.length := (List.getElem?_eq_some_iff.mp hi).1
      have hnot : i ∉ joinedOf tr := by
        intro h
        obtain ⟨o', h'⟩ := (ih.mem i).mp h
        rw [hi] at h'; cases h'
      refine ⟨by simpa using ih.length, ?_, ?_, ?_, ?_, ?_, ?_⟩
      · rw [hjo, List.nodup_append]
        refine ⟨ih.nodup, by simp, ?_⟩
        intro a ha b hb
        simp only [List.mem_singleton] at hb
        subst hb
        intro hab
        exact hnot (hab ▸ ha)
      · intro j
        rw [hjo, List.mem_append, ih.mem j]
        simp only [List.getElem?_set, List.mem_singleton]
        by_cases hij : i = j
        · subst hij; simp [hlt]
        · simp [hij, Ne.symm hij]
      · intro j o' h
        simp only [List.getElem?_set] at h
        by_cases hij : i = j
        · subst hij
          simp only [if_true, hlt] at h
          rcases h with h | h <;> simp only [Option.some.injEq, TaskState.joined.injEq, reduceCtorEq] at h
          subst h
          exact ih.result i o (.inl hi)
        · simp only [hij, if_false] at h
          exact ih.result j o' h
      · rw [hjo, List.filterMap_append, List.flatMap_append, ← ih.log]
        simp [hf]
      · intro h; rw [hret] at h; cases h
      · have := ih.work; simp only [List.length_append, List.length_singleton]; omega
    | exit hret hall =>
      have hjo : joinedOf (tr ++ [.exit]) = joinedOf tr := by simp [joinedOf_append, joinedOf]
      refine ⟨ih.length, by rw [hjo]; exact ih.nodup, fun j => by rw [hjo]; exact ih.mem j, ih.result, by rw [hjo]; exact ih.log,
        fun _ => hall, ?_⟩
      have := ih.work; simp only [List.length_append, List.length_singleton]; omega

/-- The loop is in a state in which nothing can happen any more. -/
def JoinState.stuck (ts : List Finished) (s : JoinState) : Prop := ∀ a s', ¬ JoinStep ts s a s'

/-- Then every task that ends has been joined, and the function has returned if that are all. -/
theorem stuck_all {ts : List Finished} {tr : List JoinAct} {s : JoinState} (h : JoinRun ts (.start ts) tr s) (hst : s.stuck ts) :
    (∀ (i : Nat) (t : Finished), ts[i]? = some t → t.result ≠ .waiting → i ∈ joinedOf tr) ∧
    (s.returned = true ↔ ∀ t ∈ ts, t.result ≠ .waiting) := by
  have hinv := join_inv h
  have h1 : ∀ (i : Nat) (t : Finished), ts[i]? = some t → t.result ≠ .waiting → i ∈ joinedOf tr := by
    intro i t ht hne
    rw [hinv.mem]
    have hlt : i < s.tasks.length := by rw [hinv.length]; exact (List.getElem?_eq_some_iff.mp ht).1
    cases hret : s.returned with
    | true =>
      obtain ⟨o, ho⟩ := hinv.ret hret s.tasks[i] (List.getElem_mem hlt)
      exact ⟨o, by rw [List.getElem?_eq_getElem hlt, ho]⟩
    | false =>
      cases hc : s.tasks[i] with
      | running =>
        exfalso
        have hg : s.tasks[i]? = some .running := by rw [List.getElem?_eq_getElem hlt, hc]
        cases hr : t.result with
        | waiting => exact hne hr
        | ok => exact hst _ _ (.finish s i t .ok hret hg ht (by rw [hr]; rfl))
        | err => exact hst _ _ (.finish s i t .err hret hg ht (by rw [hr]; rfl))
        | panic => exact hst _ _ (.finish s i t .panic hret hg ht (by rw [hr]; rfl))
      | ended o =>
        exfalso
        have hg : s.tasks[i]? = some (.ended o) := by rw [List.getElem?_eq_getElem hlt, hc]
        exact hst _ _ (.join s i t o hret hg ht)
      | joined o => exact ⟨o, by rw [List.getElem?_eq_getElem hlt, hc]⟩
  refine ⟨h1, ?_, ?_⟩
  · intro hret t ht hw
    obtain ⟨i, hi, hget⟩ := List.mem_iff_getElem.mp ht
    have hlt : i < s.tasks.length := by rw [hinv.length]; exact hi
    obtain ⟨o, ho⟩ := hinv.ret hret s.tasks[i] (List.getElem_mem hlt)
    obtain ⟨t', ht', hr⟩ := hinv.result i o (.inr (by rw [List.getElem?_eq_getElem hlt, ho]))
    rw [List.getElem?_eq_getElem hi, hget] at ht'
    simp only [Option.some.injEq] at ht'
    subst ht'
    rw [hw] at hr
    cases hr
  · intro hall
    cases hret : s.returned with
    | true => rfl
    | false =>
      exfalso
      refine hst _ _ (.exit s hret ?_)
      intro u hu
      obtain ⟨i, hi, hget⟩ := List.mem_iff_getElem.mp hu
      have hi' : i < ts.length := by rw [← hinv.length]; exact hi
      obtain ⟨o, ho⟩ := (hinv.mem i).mp (h1 i ts[i] (List.getElem?_eq_getElem hi') (hall _ (List.getElem_mem hi')))
      rw [List.getElem?_eq_getElem hi, hget] at ho
      simp only [Option.some.injEq] at ho
      exact ⟨o, ho⟩

/-- Joined tasks, then those that run on: a rearrangement of all. -/
theorem joined_perm {ts : List Finished} {tr : List JoinAct} {s : JoinState} (h : JoinRun ts (.start ts) tr s) (hst : s.stuck ts) :
    ((joinedOf tr).filterMap (fun i => ts[i]?) ++ ts.filter (fun t => t.result = .waiting)).Perm ts := by
  have hinv := join_inv h
  obtain ⟨hall, _⟩ := stuck_all h hst
  let w : List Nat := (List.range ts.length).filter (fun i => (ts[i]?.map (fun t => t.result)) = some .waiting)
  have hp : (joinedOf tr ++ w).Perm (List.range ts.length) := by
    rw [List.perm_ext_iff_of_nodup]
    · intro i
      simp only [w, List.mem_append, List.mem_filter, List.mem_range, decide_eq_true_eq]
      constructor
      · rintro (hi | hi)
        · obtain ⟨o, ho⟩ := (hinv.mem i).mp hi
          rw [← hinv.length]
          exact (List.getElem?_eq_some_iff.mp ho).1
        · exact hi.1
      · intro hi
        by_cases hw : ts[i].result = .waiting
        · exact .inr ⟨hi, by rw [List.getElem?_eq_getElem hi, Option.map_some, hw]⟩
        · exact .inl (hall i ts[i] (List.getElem?_eq_getElem hi) hw)
    · rw [List.nodup_append]
      refine ⟨hinv.nodup, List.Pairwise.filter _ List.nodup_range, ?_⟩
      intro i hi j hj hij
      subst hij
      obtain ⟨o, ho⟩ := (hinv.mem i).mp hi
      obtain ⟨t, ht, hr⟩ := hinv.result i o (.inr ho)
      simp only [w, List.mem_filter, decide_eq_true_eq, ht, Option.map_some, Option.some.injEq] at hj
      rw [hj.2] at hr
      cases hr
    · exact List.nodup_range
  have hw : w.filterMap (fun i => ts[i]?) = ts.filter (fun t => t.result = .waiting) := by
    have key : ∀ (l : List Nat), (l.filter (fun i => (ts[i]?.map (fun t => t.result)) = some .waiting)).filterMap (fun i => ts[i]?) =
        (l.filterMap (fun i => ts[i]?)).filter (fun t => t.result = .waiting) := by
      intro l
      induction l with
      | nil => rfl
      | cons i l ih =>
        cases hg : ts[i]? with
        | none => rw [List.filter_cons_of_neg (by simp [hg]), ih, List.filterMap_cons_none hg]
        | some t =>
          by_cases ht : t.result = .waiting
          · rw [List.filter_cons_of_pos (by simp [hg, ht]), List.filterMap_cons_some hg, List.filterMap_cons_some hg, ih,
              List.filter_cons_of_pos (by simp [ht])]
          · rw [List.filter_cons_of_neg (by simp [hg, ht]), List.filterMap_cons_some hg, ih, List.filter_cons_of_neg (by simp [ht])]
    rw [key, range_filterMap]
  have := hp.filterMap (fun i => ts[i]?)
  rw [List.filterMap_append, hw, range_filterMap] at this
  exact this

theorem JoinRun.trans {ts : List Finished} {s t u : JoinState} {a b : List JoinAct} (h1 : JoinRun ts s a t) (h2 : JoinRun ts t b u) :
    JoinRun ts s (a ++ b) u := by
  induction h2 with
  | nil => simpa using h1
  | snoc _ hs ih => rw [← List.append_assoc]; exact .snoc ih hs

/-- Every run can be continued until nothing can happen any more. -/
theorem join_completes {ts : List Finished} (m : Nat) (s : JoinState) (hm : joinWork s = m) :
    ∃ tr s', JoinRun ts s tr s' ∧ s'.stuck ts := by
  induction m generalizing s with
  | zero =>
    refine ⟨[], s, .nil, ?_⟩
    intro a s' h
    have := h.work
    omega
  | succ m ih =>
    by_cases hst : s.stuck ts
    · exact ⟨[], s, .nil, hst⟩
    · simp only [JoinState.stuck, Classical.not_forall, Classical.not_not] at hst
      obtain ⟨a, s1, h⟩ := hst
      obtain ⟨tr, s', h1, h2⟩ := ih s1 (by have := h.work; omega)
      have h0 : JoinRun ts s ([] ++ [a]) s1 := .snoc .nil h
      exact ⟨_, s', h0.trans h1, h2⟩

/-- The tasks `is`, all running, end and are joined one after the other, as far as they end. -/
theorem join_schedule (ts : List Finished) (is : List Nat) (hnd : is.Nodup) (s : JoinState) (hret : s.returned = false)
    (hrun : ∀ i ∈ is, s.tasks[i]? = some .running ∧ ∃ t, ts[i]? = some t) :
    ∃ tr s', JoinRun ts s tr s' ∧ s'.returned = false ∧ s'.log = s.log ++ (is.filterMap (fun i => ts[i]?)).flatMap joinRecord ∧
      s'.tasks.length = s.tasks.length ∧ (∀ j, j ∉ is → s'.tasks[j]? = s.tasks[j]?) ∧
      (∀ (j : Nat) (t : Finished), j ∈ is → ts[j]? = some t →
        (t.result = .waiting ∧ s'.tasks[j]? = some .running ∨ ∃ o, s'.tasks[j]? = some (.joined o))) := by
  induction is generalizing s with
  | nil => exact ⟨[], s, .nil, hret, by simp, rfl, fun _ _ => rfl, by simp⟩
  | cons i is ih =>
    rw [List.nodup_cons] at hnd
    obtain ⟨hi, t, ht⟩ := hrun i (by simp)
    have hlt : i < s.tasks.length := (List.getElem?_eq_some_iff.mp hi).1
    cases he : t.result.taskEnd with
    | none =>
      have hw : t.result = .waiting := by revert he; cases t.result <;> simp [RunEnd.taskEnd]
      obtain ⟨tr, s', h1, h2, h3, h4, h5, h6⟩ := ih hnd.2 s hret (fun j hj => hrun j (by simp [hj]))
      refine ⟨tr, s', h1, h2, ?_, h4, fun j hj => h5 j (fun h => hj (by simp [h])), ?_⟩
      · rw [h3, List.filterMap_cons, ht]
        simp [joinRecord, hw]
      · intro j u hj hu
        rcases List.mem_cons.mp hj with rfl | hj
        · rw [ht] at hu
          simp only [Option.some.injEq] at hu
          subst hu
          exact .inl ⟨hw, by rw [h5 j hnd.1, hi]⟩
        · exact h6 j u hj hu
    | some o =>
      let s1 : JoinState := { s with tasks := s.tasks.set i (.ended o) }
      let s2 : JoinState := { s1 with tasks := s1.tasks.set i (.joined o), log := s1.log ++ joinRecord t }
      have hs1 : JoinStep ts s (.finish i) s1 := .finish s i t o hret hi ht he
      have hs2 : JoinStep ts s1 (.join i) s2 := .join s1 i t o hret (by simp [s1, hlt]) ht
      have hne : ∀ j, j ≠ i → s2.tasks[j]? = s.tasks[j]? := by
        intro j hj
        simp [s2, s1, Ne.symm hj]
      obtain ⟨tr, s', h1, h2, h3, h4, h5, h6⟩ := ih hnd.2 s2 hret
        (fun j hj => by
          have hji : j ≠ i := fun h => hnd.1 (h ▸ hj)
          rw [hne j hji]
          exact hrun j (by simp [hj]))
      have h0 : JoinRun ts s ([.finish i] ++ [.join i]) s2 := .snoc (.snoc (tr := []) .nil hs1) hs2
      refine ⟨_, s', h0.trans h1, h2, ?_, by rw [h4]; simp [s2, s1], ?_, ?_⟩
      · rw [h3, List.filterMap_cons, ht]
        simp [s2, s1]
      · intro j hj
        rw [h5 j (fun h => hj (by simp [h])), hne j (fun h => hj (by simp [h]))]
      · intro j u hj hu
        rcases List.mem_cons.mp hj with rfl | hj
        · refine .inr ⟨o, ?_⟩
          rw [h5 j hnd.1]
          simp [s2, s1, hlt]
        · exact h6 j u hj hu

/-! ## C212 -/

/-- The same loop without its records is that of `Model/Main`. -/
theorem join_multi {ts : List Finished} {tr : List JoinAct} {s : JoinState} (h : JoinRun ts (.start ts) tr s) :
    MultiRun (multiStart ts.length) ⟨s.tasks, s.returned⟩ := by
  induction h with
  | nil =>
    have : multiStart ts.length = ⟨(JoinState.start ts).tasks, (JoinState.start ts).returned⟩ := by
      simp [multiStart, JoinState.start, List.map_const']
    rw [← this]
    exact .nil _
  | snoc _ hs ih =>
    cases hs with
    | finish i t o hret hi _ _ => exact .snoc ih (.finish ⟨_, _⟩ i o hret hi)
    | join i t o hret hi _ => exact .snoc ih (.join ⟨_, _⟩ i o hret hi)
    | exit hret hall => exact .snoc ih (.exit ⟨_, _⟩ hret hall)

/-- A task has ended exactly if that is in the trace. -/
theorem join_finished {ts : List Finished} {tr : List JoinAct} {s : JoinState} (h : JoinRun ts (.start ts) tr s) (i : Nat) :
    JoinAct.finish i ∈ tr ↔ ∃ o, s.tasks[i]? = some (.ended o) ∨ s.tasks[i]? = some (.joined o) := by
  induction h with
  | nil => simp [JoinState.start]
  | @snoc tr s u a _ hs ih =>
    rw [List.mem_append, ih, List.mem_singleton]
    cases hs with
    | finish j t o hret hj _ _ =>
      have hlt : j < s.tasks.length := (List.getElem?_eq_some_iff.mp hj).1
      simp only [List.getElem?_set, JoinAct.finish.injEq]
      by_cases hij : j = i
      · subst hij; simp [hlt]
      · simp [hij, Ne.symm hij]
    | join j t o hret hj _ =>
      have hlt : j < s.tasks.length := (List.getElem?_eq_some_iff.mp hj).1
      simp only [List.getElem?_set, reduceCtorEq, or_false]
      by_cases hij : j = i
      · subst hij; simp only [hj]; simp [hlt]
      · simp [hij]
    | exit hret hall => simp

theorem joinRecord_failure (e : RunEnd) (text : Bytes) : joinRecord ⟨e, text⟩ = (failureRecord e text).toList := by
  cases e <;> rfl

theorem flatMap_toList {α β : Type} (f : α → Option β) (l : List α) : l.flatMap (fun a => (f a).toList) = l.filterMap f := by
  induction l with
  | nil => rfl
  | cons a l ih => cases h : f a <;> simp [h, ih]

/-- What the service comes to. -/
def outcomeOf {C K : Type} (x : ProcEnv C K) (p : Str × ServiceConfig) : RunEnd := (p.2.run (x.world p.1) (x.bindOk p.1) (x.events p.1)).2

theorem tasks_log {C K : Type} (x : ProcEnv C K) (services : List (Str × ServiceConfig)) (is : List Nat) :
    (is.filterMap (fun i : Nat => (services.map x.task)[i]?)).flatMap joinRecord =
      (is.filterMap (fun i : Nat => services[i]?)).filterMap (fun p => failureRecord (outcomeOf x p) (x.text p.1 (outcomeOf x p))) := by
  have h1 : (fun i : Nat => (services.map x.task)[i]?) = fun i : Nat => (services[i]?).map x.task := by
    funext i; simp
  have h2 : is.filterMap (fun i : Nat => (services[i]?).map x.task) = (is.filterMap (fun i : Nat => services[i]?)).map x.task := by
    rw [List.map_filterMap]
  rw [h1, h2, List.flatMap_map]
  rw [← flatMap_toList (fun p : Str × ServiceConfig => failureRecord (outcomeOf x p) (x.text p.1 (outcomeOf x p)))]
  congr 1
  funext p
  exact joinRecord_failure _ _

/-- **C212**, at every moment: the records are those of the services joined so far, each joined once and after it ended; one that has ended
can be joined at once, whatever the others do, as long as it has not been; and no run has more actions than two for each service and one. -/
theorem C212_so_far {C K : Type} (x : ProcEnv C K) (services : List (Str × ServiceConfig)) (tr : List JoinAct) (s : JoinState)
    (h : JoinRun (services.map x.task) (.start (services.map x.task)) tr s) :
    (joinedOf tr).Nodup ∧
    s.log = ((joinedOf tr).filterMap (fun i : Nat => services[i]?)).filterMap (fun p => failureRecord (outcomeOf x p) (x.text p.1 (outcomeOf x p))) ∧
    (∀ i, i ∈ joinedOf tr → JoinAct.finish i ∈ tr) ∧
    (∀ i, JoinAct.finish i ∈ tr → ∃ p, services[i]? = some p ∧ outcomeOf x p ≠ .waiting) ∧
    (∀ i, JoinAct.finish i ∈ tr → i ∉ joinedOf tr → ∃ s', JoinStep (services.map x.task) s (.join i) s') ∧
    tr.length ≤ 2 * services.length + 1 := by
  have hinv := join_inv h
  refine ⟨hinv.nodup, ?_, ?_, ?_, ?_, ?_⟩
  · rw [hinv.log, tasks_log]
  · intro i hi
    obtain ⟨o, ho⟩ := (hinv.mem i).mp hi
    exact (join_finished h i).mpr ⟨o, .inr ho⟩
  · intro i hi
    obtain ⟨o, ho⟩ := (join_finished h i).mp hi
    obtain ⟨t, ht, hr⟩ := hinv.result i o ho
    simp only [List.getElem?_map, Option.map_eq_some_iff] at ht
    obtain ⟨p, hp, rfl⟩ := ht
    refine ⟨p, hp, ?_⟩
    intro hw
    have hw' : (x.task p).result = .waiting := hw
    rw [hw'] at hr
    cases hr
  · intro i hi hnot
    obtain ⟨o, ho⟩ := (join_finished h i).mp hi
    rcases ho with ho | ho
    · obtain ⟨t, ht, _⟩ := hinv.result i o (.inl ho)
      refine ⟨_, .join s i t o ?_ ho ht⟩
      cases hret : s.returned with
      | false => rfl
      | true =>
        obtain ⟨o', ho'⟩ := hinv.ret hret _ (List.mem_of_getElem? ho)
        cases ho'
    · exact absurd ((hinv.mem i).mpr ⟨o, ho⟩) hnot
  · have := hinv.work
    simp only [List.length_map] at this
    omega

/-- **C212**, in the end: every run can be continued until nothing can happen any more; then every service that ends has been joined, the
function has returned exactly if all services end, and records and exit status are those of `mainExit` for some order of the services. -/
theorem C212_in_the_end {C K : Type} (x : ProcEnv C K) (hrt : x.runtime = .value ()) (services : List (Str × ServiceConfig))
    (tr : List JoinAct) (s : JoinState) (h : JoinRun (services.map x.task) (.start (services.map x.task)) tr s) :
    (∃ tr' s', JoinRun (services.map x.task) s tr' s' ∧ s'.stuck (services.map x.task)) ∧
    (s.stuck (services.map x.task) →
      (∀ (i : Nat) (p : Str × ServiceConfig), services[i]? = some p → (i ∈ joinedOf tr ↔ outcomeOf x p ≠ .waiting)) ∧
      (s.returned = true ↔ ∀ p ∈ services, outcomeOf x p ≠ .waiting) ∧
      ∃ order : List Finished → List Finished, (∀ l, (order l).Perm l) ∧
        mainExit { x with order := order } (.serving services) = (s.log, if s.returned then .status 0 else .running)) := by
  refine ⟨join_completes _ s rfl, ?_⟩
  intro hst
  obtain ⟨h1, h2⟩ := stuck_all h hst
  have hinv := join_inv h
  have h2' : s.returned = true ↔ ∀ p ∈ services, outcomeOf x p ≠ .waiting := by
    rw [h2]
    constructor
    · intro hall p hp
      exact hall (x.task p) (List.mem_map_of_mem hp)
    · intro hall t ht
      obtain ⟨p, hp, rfl⟩ := List.mem_map.mp ht
      exact hall p hp
  refine ⟨?_, h2', ?_⟩
  · intro i p hp
    constructor
    · intro hi
      obtain ⟨_, _, h3, h4, _⟩ := C212_so_far x services tr s h
      obtain ⟨q, hq, hw⟩ := h4 i (h3 i hi)
      rw [hp] at hq
      simp only [Option.some.injEq] at hq
      rw [hq]; exact hw
    · intro hw
      exact h1 i (x.task p) (by simp [hp]) hw
  · let ts := services.map x.task
    let l0 := (joinedOf tr).filterMap (fun i => ts[i]?) ++ ts.filter (fun t => t.result = .waiting)
    have hp : l0.Perm ts := joined_perm h hst
    refine ⟨fun l => if l = ts then l0 else l, ?_, ?_⟩
    · intro l
      by_cases hl : l = ts
      · simp only [hl, if_true]; exact hp
      · simp only [hl, if_false]; exact .refl _
    · have hts : ∀ r, List.map (ProcEnv.task { x with runtime := r, order := fun l => if l = ts then l0 else l }) services = ts := fun _ => rfl
      simp only [mainExit, hrt, hts]
      simp only [if_true]
      have hwait : (ts.filter (fun t => t.result = .waiting)).flatMap joinRecord = [] := by
        rw [List.flatMap_eq_nil_iff]
        intro t ht
        have := (List.mem_filter.mp ht).2
        simp only [decide_eq_true_eq] at this
        simp [joinRecord, this]
      have hlog : l0.flatMap joinRecord = s.log := by
        simp only [l0]
        rw [List.flatMap_append, hwait, List.append_nil, hinv.log]
      have hany : l0.any (fun t => decide (t.result = .waiting)) = !s.returned := by
        have hiff : l0.any (fun t => decide (t.result = .waiting)) = true ↔ ¬ s.returned = true := by
          rw [List.any_eq_true, h2]
          constructor
          · rintro ⟨t, ht, hw⟩ hall
            exact hall t (hp.mem_iff.mp ht) (of_decide_eq_true hw)
          · intro hn
            simp only [Classical.not_forall, Classical.not_not] at hn
            obtain ⟨t, ht, hw⟩ := hn
            exact ⟨t, hp.mem_iff.mpr ht, decide_eq_true hw⟩
        cases hret : s.returned with
        | true =>
          rw [hret] at hiff
          cases ha : l0.any (fun t => decide (t.result = .waiting)) with
          | false => rfl
          | true => exact absurd rfl (hiff.mp ha)
        | false =>
          rw [hret] at hiff
          exact hiff.mpr (by simp)
      rw [hlog, hany]
      cases s.returned <;> rfl

/-- **C212**, every order is possible: whatever order `mainExit` is given, there is a run of the loop, until nothing can happen any more,
with these records and that exit. -/
theorem C212_every_order {C K : Type} (x : ProcEnv C K) (hrt : x.runtime = .value ()) (horder : ∀ l, (x.order l).Perm l)
    (services : List (Str × ServiceConfig)) :
    ∃ tr s, JoinRun (services.map x.task) (.start (services.map x.task)) tr s ∧ s.stuck (services.map x.task) ∧
      mainExit x (.serving services) = (s.log, if s.returned then .status 0 else .running) := by
  generalize hts : services.map x.task = ts
  obtain ⟨is, hperm, hmap⟩ := perm_of_map (fun i => ts[i]?) ((horder ts).map some) (List.range ts.length) (range_get ts).symm
  have hfm : is.filterMap (fun i => ts[i]?) = x.order ts := by
    have := congrArg (List.filterMap id) hmap
    rw [List.filterMap_map, List.filterMap_map] at this
    simpa [Function.comp_def] using this.symm
  have hmem : ∀ i, i ∈ is ↔ i < ts.length := fun i => by rw [hperm.mem_iff, List.mem_range]
  obtain ⟨tr, s, h1, h2, h3, h4, h5, h6⟩ := join_schedule ts is (hperm.symm.nodup List.nodup_range) (.start ts) rfl
    (by
      intro i hi
      have hlt := (hmem i).mp hi
      exact ⟨by simp [JoinState.start, hlt], ts[i], List.getElem?_eq_getElem hlt⟩)
  have hlen : s.tasks.length = ts.length := by rw [h4]; simp [JoinState.start]
  have hlog : s.log = (x.order ts).flatMap joinRecord := by rw [h3, hfm]; rfl
  have hst : ∀ (i : Nat) (hi : i < s.tasks.length),
      (ts[i]'(hlen ▸ hi)).result = .waiting ∧ s.tasks[i]? = some .running ∨ ∃ o, s.tasks[i]? = some (.joined o) := by
    intro i hi
    exact h6 i _ ((hmem i).mpr (hlen ▸ hi)) (List.getElem?_eq_getElem (hlen ▸ hi))
  have hany : (x.order ts).any (fun t => decide (t.result = .waiting)) = ts.any (fun t => decide (t.result = .waiting)) := by
    apply Bool.eq_iff_iff.mpr
    simp only [List.any_eq_true, (horder ts).mem_iff]
  simp only [mainExit, hrt, hts]
  by_cases hall : ∀ t ∈ ts, t.result ≠ .waiting
  · let s' : JoinState := { s with returned := true }
    have hx : JoinStep ts s .exit s' := by
      refine .exit s h2 ?_
      intro u hu
      obtain ⟨i, hi, hget⟩ := List.mem_iff_getElem.mp hu
      rcases hst i hi with h | ⟨o, ho⟩
      · exact absurd h.1 (hall _ (List.getElem_mem _))
      · rw [List.getElem?_eq_getElem hi, hget] at ho
        simp only [Option.some.injEq] at ho
        exact ⟨o, ho⟩
    refine ⟨_, s', .snoc h1 hx, ?_, ?_⟩
    · intro a u hu
      cases hu <;> simp_all [s']
    · have : ts.any (fun t => decide (t.result = .waiting)) = false := by
        rw [List.any_eq_false]
        intro t ht
        simp [hall t ht]
      rw [hany, this, hlog.symm]
      rfl
  · refine ⟨tr, s, h1, ?_, ?_⟩
    · intro a u hu
      cases hu with
      | finish i t o _ hi ht ho =>
        rcases hst i (List.getElem?_eq_some_iff.mp hi).1 with h | ⟨o', ho'⟩
        · have : t.result = .waiting := by
            rw [List.getElem?_eq_getElem (hlen ▸ (List.getElem?_eq_some_iff.mp hi).1)] at ht
            simp only [Option.some.injEq] at ht
            rw [← ht]; exact h.1
          rw [this] at ho
          cases ho
        · rw [hi] at ho'; cases ho'
      | join i t o _ hi ht =>
        rcases hst i (List.getElem?_eq_some_iff.mp hi).1 with h | ⟨o', ho'⟩
        · have h' := h.2; rw [hi] at h'; cases h'
        · rw [hi] at ho'; cases ho'
      | exit _ hj =>
        apply hall
        intro t ht hw
        obtain ⟨i, hi, hget⟩ := List.mem_iff_getElem.mp ht
        have hi' : i < s.tasks.length := hlen ▸ hi
        obtain ⟨o, ho⟩ := hj s.tasks[i] (List.getElem_mem hi')
        obtain ⟨t', ht', hr⟩ := (join_inv h1).result i o (.inr (by rw [List.getElem?_eq_getElem hi', ho]))
        rw [List.getElem?_eq_getElem hi, hget] at ht'
        simp only [Option.some.injEq] at ht'
        rw [← ht', hw] at hr
        cases hr
    · have : ts.any (fun t => decide (t.result = .waiting)) = true := by
        simp only [Classical.not_forall, Classical.not_not] at hall
        obtain ⟨t, ht, hw⟩ := hall
        rw [List.any_eq_true]
        exact ⟨t, ht, decide_eq_true hw⟩
      rw [hany, this, hlog.symm, h2]
      rfl

/-- Two services (`samplePair`), of which the first cannot be bound and the second serves until Ctrl-C: the failure is in the log while the
second runs on. -/
example : ∃ s, JoinRun (samplePair.map (sampleProc true).task) (.start (samplePair.map (sampleProc true).task)) [.finish 0, .join 0] s ∧
    s.log = [⟨.error, [], b!"service serve error, Os { code: 98 }"⟩] ∧ s.returned = false ∧ s.tasks = [.joined .err, .running] := by
  refine ⟨⟨[.joined .err, .running], [⟨.error, [], b!"service serve error, Os { code: 98 }"⟩], false⟩, ?_, rfl, rfl, rfl⟩
  have h1 : JoinStep (samplePair.map (sampleProc true).task) (.start (samplePair.map (sampleProc true).task)) (.finish 0)
      ⟨[.ended .err, .running], [], false⟩ := .finish _ 0 ((sampleProc true).task (u!"a", defaultEffective)) .err rfl rfl rfl (by decide +kernel)
  have h2 : JoinStep (samplePair.map (sampleProc true).task) ⟨[.ended .err, .running], [], false⟩ (.join 0)
      ⟨[.joined .err, .running], [⟨.error, [], b!"service serve error, Os { code: 98 }"⟩], false⟩ := by
    have := JoinStep.join (ts := samplePair.map (sampleProc true).task) ⟨[.ended .err, .running], [], false⟩ 0
      ((sampleProc true).task (u!"a", defaultEffective)) .err rfl rfl rfl
    have hr : joinRecord ((sampleProc true).task (u!"a", defaultEffective)) = [⟨.error, [], b!"service serve error, Os { code: 98 }"⟩] := by
      decide +kernel
    rw [hr] at this
    exact this
  exact .snoc (.snoc (tr := []) .nil h1) h2

end Httpd
