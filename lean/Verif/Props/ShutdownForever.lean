import Verif.Props.Shutdown
import Verif.Props.Fairness
/-!
# C107: Ctrl-C pressed again and again
-/

namespace Httpd
open Spec

/-- How far a loop has come. -/
def LoopState.rank : LoopState → Nat
  | .fresh => 0
  | .armed => 1
  | .woken => 2
  | .ended => 3

/-- Loop `i` polls `ctrl_c()` or finds the signal. -/
def ProcAct.ofLoop (i : Nat) : ProcAct → Bool
  | .arm j | .stop j => j == i
  | _ => false

/-- The user presses Ctrl-C. -/
def ProcAct.press : ProcAct → Bool
  | .sigint => true
  | _ => false

/-- The function returns. -/
def ProcAct.leaves : ProcAct → Bool
  | .ret => true
  | _ => false

theorem LoopState.rank_signal (l : LoopState) : l.rank ≤ l.signal.rank := by cases l <;> decide

/-- Unless its service accepts a connection, a loop does not go back. -/
theorem ProcStep.rank {s t : Proc} {a : ProcAct} (h : ProcStep s a t) (i : Nat) (ha : a ≠ .accept i) (l : LoopState) (hl : s.loops[i]? = some l) :
    ∃ l', t.loops[i]? = some l' ∧ l.rank ≤ l'.rank := by
  have hset : ∀ j (v w : LoopState), s.loops[j]? = some v → v.rank ≤ w.rank → ∃ l', (s.loops.set j w)[i]? = some l' ∧ l.rank ≤ l'.rank := by
    intro j v w hj hvw
    have hi : i < s.loops.length := (List.getElem?_eq_some_iff.mp hl).1
    by_cases h : j = i
    · subst h
      cases hj.symm.trans hl
      exact ⟨w, by simp [hi], hvw⟩
    · exact ⟨l, by rw [List.getElem?_set_ne h]; exact hl, Nat.le_refl _⟩
  cases h with
  | arm j hal hj => exact hset j _ _ hj (by decide)
  | accept j v hal hj hne =>
    have h : j ≠ i := by rintro rfl; exact ha rfl
    exact ⟨l, by simp only; rw [List.getElem?_set_ne h]; exact hl, Nat.le_refl _⟩
  | stop j hal hj => exact hset j _ _ hj (by decide)
  | finish c hal hc => exact ⟨l, hl, Nat.le_refl _⟩
  | sigint hal hin => exact ⟨l.signal, by simp [hl], l.rank_signal⟩
  | kill hal hin => exact ⟨l, hl, Nat.le_refl _⟩
  | ret hal hall => exact ⟨l, hl, Nat.le_refl _⟩

variable {n : Nat}

theorem proc_forever_run (e : Forever ProcStep (Proc.start n)) (m : Nat) : ProcRun (.start n) (e.upTo m) (e.state m) := by
  induction m with
  | zero => rw [e.first]; exact .nil _
  | succ m ih =>
    have h := e.next m
    unfold Forever.upTo
    cases ha : e.act m with
    | none => rw [ha] at h; simp only at h; rw [h]; simpa using ih
    | some a => rw [ha] at h; exact .snoc ih h

/-- An ended loop stays ended. -/
theorem proc_ended (e : Forever ProcStep (Proc.start n)) (i m : Nat) (h : (e.state m).loops[i]? = some .ended) : ∀ m', m ≤ m' → (e.state m').loops[i]? = some .ended := by
  intro m' hm
  induction hm with
  | refl => exact h
  | @step m hm ih =>
    have hs := e.next m
    cases ha : e.act m with
    | none => rw [ha] at hs; simp only at hs; rw [hs]; exact ih
    | some a =>
      rw [ha] at hs
      have hne : a ≠ .accept i := by
        rintro rfl
        simp only at hs
        generalize e.state m = s at *
        generalize e.state (m + 1) = s' at *
        cases hs with
        | accept _ l hal hj hne => exact hne (Option.some.inj (hj.symm.trans ih))
      obtain ⟨l', h1, h2⟩ := ProcStep.rank hs i hne _ ih
      rw [h1]
      cases l' <;> first | rfl | exact absurd h2 (by decide)

/-- From some moment on the state of the loop stays the same, if its service accepts only finitely many connections. -/
theorem proc_settles (e : Forever ProcStep (Proc.start n)) (i : Nat) (hi : i < n) (N : Nat) (hno : ∀ m, N ≤ m → e.act m ≠ some (.accept i)) :
    ∃ m l, N ≤ m ∧ ∀ m', m ≤ m' → (e.state m').loops[i]? = some l := by
  have hloop : ∀ m, ∃ l, (e.state m).loops[i]? = some l := by
    intro m
    have := (proc_inv (proc_forever_run e m)).count
    exact ⟨_, List.getElem?_eq_getElem (by omega)⟩
  have hrank : ∀ m, N ≤ m → ∀ l l', (e.state m).loops[i]? = some l → (e.state (m + 1)).loops[i]? = some l' → l.rank ≤ l'.rank := by
    intro m hm l l' h1 h2
    have hs := e.next m
    cases ha : e.act m with
    | none => rw [ha] at hs; simp only at hs; rw [hs, h1] at h2; cases h2; exact Nat.le_refl _
    | some a =>
      rw [ha] at hs
      obtain ⟨v, k1, k2⟩ := ProcStep.rank hs i (fun h => hno m hm (by rw [ha, h])) _ h1
      rw [h2] at k1; cases k1; exact k2
  let f : Nat → Nat := fun m => match (e.state (N + m)).loops[i]? with
    | some l => l.rank
    | none => 0
  have hf : ∀ m l, (e.state (N + m)).loops[i]? = some l → f m = l.rank := by intro m l h; simp only [f, h]
  obtain ⟨m, _, h⟩ : ∃ m, 0 ≤ m ∧ ∀ m', m ≤ m' → f m' = f m := by
    have key : ∀ d m, 3 - f m = d → ∃ m1, m ≤ m1 ∧ ∀ m', m1 ≤ m' → f m' = f m1 := by
      intro d
      induction d using Nat.strongRecOn with
      | _ d ih =>
        intro m hd
        by_cases h : ∃ m', m ≤ m' ∧ f m < f m'
        · obtain ⟨m', h1, h2⟩ := h
          have h3 : f m' ≤ 3 := by
            obtain ⟨l, hl⟩ := hloop (N + m')
            rw [hf m' l hl]; cases l <;> decide
          obtain ⟨m1, k1, k2⟩ := ih (3 - f m') (by omega) m' rfl
          exact ⟨m1, by omega, k2⟩
        · refine ⟨m, Nat.le_refl _, fun m' hm' => ?_⟩
          have hge : f m ≤ f m' := by
            induction hm' with
            | refl => exact Nat.le_refl _
            | @step k _ ihk =>
              obtain ⟨l, hl⟩ := hloop (N + k)
              obtain ⟨l', hl'⟩ := hloop (N + (k + 1))
              have := hrank (N + k) (by omega) l l' hl hl'
              rw [hf k l hl] at ihk
              rw [hf (k + 1) l' hl']
              omega
          have : ¬ f m < f m' := fun hlt => h ⟨m', hm', hlt⟩
          omega
    obtain ⟨m1, _, k⟩ := key _ 0 rfl
    exact ⟨m1, Nat.zero_le _, k⟩
  obtain ⟨l, hl⟩ := hloop (N + m)
  refine ⟨N + m, l, by omega, fun m' hm' => ?_⟩
  obtain ⟨l', hl'⟩ := hloop m'
  have h1 := h (m' - N) (by omega)
  have e1 : N + (m' - N) = m' := by omega
  rw [hf m l hl, hf (m' - N) l' (by rw [e1]; exact hl')] at h1
  rw [hl']
  cases l <;> cases l' <;> first | rfl | exact absurd h1 (by decide)

/-- **C107 (partial), for one service.** However often Ctrl-C was lost: if the user goes on pressing it, the service accepts only finitely many connections, and its loop is not left out for ever, then the loop
ends, or the process is gone. Missing: services to which clients never stop connecting (`C107_any_number_violated`). -/
theorem C107_again_partial (n : Nat) (e : Forever ProcStep (Proc.start n)) (i : Nat) (hi : i < n) (hloop : e.Fair (ProcAct.ofLoop i)) (hpress : e.Fair ProcAct.press)
    (hfew : ∃ N, ∀ m, N ≤ m → e.act m ≠ some (.accept i)) : ∃ m, ¬ (e.state m).alive ∨ ∀ m', m ≤ m' → (e.state m').loops[i]? = some .ended := by
  obtain ⟨N, hno⟩ := hfew
  apply Classical.byContradiction
  intro hcon
  have hal : ∀ m, (e.state m).alive := fun m => Classical.byContradiction fun h => hcon ⟨m, .inl h⟩
  obtain ⟨m, l, hm, hl⟩ := proc_settles e i hi N hno
  have hlt : ∀ m', m ≤ m' → i < (e.state m').loops.length := fun m' h => (List.getElem?_eq_some_iff.mp (hl m' h)).1
  -- the loop takes no more turns, since they change its state
  have hstill : ∀ m' a, m ≤ m' → e.act m' = some a → a.ofLoop i = true → False := by
    intro m' a hm' ha hmine
    have hs := e.next m'
    rw [ha] at hs
    simp only at hs
    have h1 := hl m' hm'
    have h2 := hl (m' + 1) (by omega)
    have h3 := hlt m' hm'
    generalize e.state m' = s at *
    generalize e.state (m' + 1) = s' at *
    cases hs with
    | arm j _ hj =>
      simp only [ProcAct.ofLoop, beq_iff_eq] at hmine
      subst hmine
      rw [h1] at hj; cases hj
      simp [h3] at h2
    | stop j _ hj =>
      simp only [ProcAct.ofLoop, beq_iff_eq] at hmine
      subst hmine
      rw [h1] at hj; cases hj
      simp [h3] at h2
    | _ => simp [ProcAct.ofLoop] at hmine
  cases l with
  | ended => exact hcon ⟨m, .inr hl⟩
  | fresh =>
    obtain ⟨m', a, h1, h2, h3⟩ := hloop m (fun m' hm' => ⟨.arm i, _, by simp [ProcAct.ofLoop], .arm _ i (hal m') (hl m' hm')⟩)
    exact hstill m' a h1 h2 h3
  | woken =>
    obtain ⟨m', a, h1, h2, h3⟩ := hloop m (fun m' hm' => ⟨.stop i, _, by simp [ProcAct.ofLoop], .stop _ i (hal m') (hl m' hm')⟩)
    exact hstill m' a h1 h2 h3
  | armed =>
    obtain ⟨m', a, h1, h2, h3⟩ := hpress m (fun m' hm' => by
      cases hin : (e.state m').installed with
      | true => exact ⟨.sigint, _, rfl, .sigint _ (hal m') hin⟩
      | false => exact ⟨.sigint, _, rfl, .kill _ (hal m') hin⟩)
    have hs := e.next m'
    rw [h2] at hs
    simp only at hs
    have k1 := hl m' h1
    have k2 := hl (m' + 1) (by omega)
    have k3 := hal (m' + 1)
    generalize e.state m' = s at *
    generalize e.state (m' + 1) = s' at *
    cases hs with
    | sigint _ _ => simp [k1, LoopState.signal] at k2
    | kill _ _ => simp [Proc.alive] at k3
    | _ => simp [ProcAct.press] at h3

/-- **C107 (partial), for the process.** If the user goes on pressing Ctrl-C, only finitely many connections come, and neither the loops nor the main thread are left out for ever, then the process ends.
Missing as above. -/
theorem C107_again_all_partial (n : Nat) (e : Forever ProcStep (Proc.start n)) (hloop : ∀ i, i < n → e.Fair (ProcAct.ofLoop i)) (hret : e.Fair ProcAct.leaves)
    (hpress : e.Fair ProcAct.press) (hfew : ∃ N, ∀ m i, N ≤ m → e.act m ≠ some (.accept i)) : ∃ m, ¬ (e.state m).alive := by
  apply Classical.byContradiction
  intro hcon
  have hal : ∀ m, (e.state m).alive := fun m => Classical.byContradiction fun h => hcon ⟨m, h⟩
  obtain ⟨N, hno⟩ := hfew
  have hall : ∀ k, k ≤ n → ∃ m, ∀ i, i < k → ∀ m', m ≤ m' → (e.state m').loops[i]? = some .ended := by
    intro k
    induction k with
    | zero => exact fun _ => ⟨0, fun i hi => absurd hi (Nat.not_lt_zero _)⟩
    | succ k ih =>
      intro hk
      obtain ⟨m1, h1⟩ := ih (by omega)
      obtain ⟨m2, h2⟩ := C107_again_partial n e k (by omega) (hloop k (by omega)) hpress ⟨N, fun m hm => hno m k hm⟩
      have h2 := h2.resolve_left (fun h => h (hal m2))
      refine ⟨max m1 m2, fun i hi m' hm' => ?_⟩
      have e1 := Nat.le_max_left m1 m2
      have e2 := Nat.le_max_right m1 m2
      by_cases h : i < k
      · exact h1 i h m' (by omega)
      · have : i = k := by omega
        subst this
        exact h2 m' (by omega)
  obtain ⟨m, h⟩ := hall n (Nat.le_refl _)
  obtain ⟨m', a, h1, h2, h3⟩ := hret m (fun m' hm' => by
    refine ⟨.ret, _, rfl, .ret _ (hal m') fun l hl => ?_⟩
    obtain ⟨i, hi, rfl⟩ := List.getElem_of_mem hl
    have hc := (proc_inv (proc_forever_run e m')).count
    have := h i (by omega) m' hm'
    rw [List.getElem?_eq_getElem hi] at this
    exact Option.some.inj this)
  have hs := e.next m'
  rw [h2] at hs
  simp only at hs
  have k := hal (m' + 1)
  generalize e.state m' = s at *
  generalize e.state (m' + 1) = s' at *
  cases hs with
  | ret _ _ => simp [Proc.alive] at k
  | _ => simp [ProcAct.leaves] at h3

theorem proc_run_forever {tr : List ProcAct} {s : Proc} (h : ProcRun (.start n) tr s) :
    ∃ e : Forever ProcStep (Proc.start n), (∀ m, m ≤ tr.length → e.upTo m = tr.take m) ∧ ∀ m, tr.length ≤ m → e.state m = s ∧ e.act m = none := by
  generalize ha : Proc.start n = a at h
  induction h with
  | nil => subst ha; exact ⟨idle _ _, fun m hm => by cases Nat.le_zero.mp hm; rfl, fun _ _ => ⟨rfl, rfl⟩⟩
  | @snoc t u tr a _ hs ih =>
    obtain ⟨e, h1, h2⟩ := ih
    obtain ⟨e', k1, k2, k3⟩ := forever_snoc e tr.length t u a h2 hs
    refine ⟨e', fun m hm => ?_, fun m hm => k3 m (by simpa using hm)⟩
    by_cases h : m ≤ tr.length
    · rw [k1 m h, h1 m h, List.take_append_of_le_length h]
    · have : m = tr.length + 1 := by simp at hm; omega
      rw [this, k2, h1 _ (Nat.le_refl _)]
      rw [List.take_of_length_le (l := tr ++ [a]) (by simp), List.take_length]

/-- The conditions of `C107_again_all_partial` can be met, whatever has happened so far: everybody goes on and no more connections come; so the process ends. -/
theorem C107_again_possible_partial (n : Nat) (tr : List ProcAct) (s : Proc) (h : ProcRun (.start n) tr s) :
    ∃ e : Forever ProcStep (Proc.start n), e.upTo tr.length = tr ∧ (∀ i, i < n → e.Fair (ProcAct.ofLoop i)) ∧ e.Fair ProcAct.leaves ∧ e.Fair ProcAct.press ∧
      (∃ N, ∀ m i, N ≤ m → e.act m ≠ some (.accept i)) ∧ ∃ m, ¬ (e.state m).alive := by
  obtain ⟨e, h1, h2⟩ := proc_run_forever h
  obtain ⟨e', k1, k2, k3, k4⟩ := fair_after e tr.length (fun k a => match k with
    | 0 => a.leaves
    | 1 => a.press
    | k + 2 => a.ofLoop k)
  have f1 : ∀ i, e'.Fair (ProcAct.ofLoop i) := fun i => k3 (i + 2)
  have f2 : e'.Fair ProcAct.leaves := k3 0
  have f3 : e'.Fair ProcAct.press := k3 1
  have f4 : ∃ N, ∀ m i, N ≤ m → e'.act m ≠ some (.accept i) := by
    refine ⟨tr.length, fun m i hm ha => ?_⟩
    obtain ⟨k, hk⟩ := k4 m _ hm ha
    match k with
    | 0 => cases hk
    | 1 => cases hk
    | k + 2 => cases hk
  refine ⟨e', ?_, fun i _ => f1 i, f2, f3, f4, C107_again_all_partial n e' (fun i _ => f1 i) f2 f3 f4⟩
  rw [upTo_congr k2 _ (Nat.le_refl _), h1 _ (Nat.le_refl _), List.take_length]

/-- C107: two services; the first Ctrl-C is lost on service 0 because of a connection, the second one stops both, and the function returns. -/
example : ∃ s, ProcRun (.start 2) [.arm 0, .arm 1, .sigint, .accept 0, .stop 1, .arm 0, .sigint, .stop 0, .ret] s ∧ ¬ s.alive ∧ s.conns = [.aborted] := by
  have h1 := ProcRun.one (ProcStep.arm (.start 2) 0 ⟨rfl, rfl⟩ rfl)
  have h2 := ProcRun.snoc h1 (.arm _ 1 ⟨rfl, rfl⟩ rfl)
  have h3 := ProcRun.snoc h2 (.sigint _ ⟨rfl, rfl⟩ rfl)
  have h4 := ProcRun.snoc h3 (.accept _ 0 .woken ⟨rfl, rfl⟩ rfl (by decide))
  have h5 := ProcRun.snoc h4 (.stop _ 1 ⟨rfl, rfl⟩ rfl)
  have h6 := ProcRun.snoc h5 (.arm _ 0 ⟨rfl, rfl⟩ rfl)
  have h7 := ProcRun.snoc h6 (.sigint _ ⟨rfl, rfl⟩ rfl)
  have h8 := ProcRun.snoc h7 (.stop _ 0 ⟨rfl, rfl⟩ rfl)
  have h9 := ProcRun.snoc h8 (.ret _ ⟨rfl, rfl⟩ (by decide))
  exact ⟨_, h9, fun h => absurd h.1 (by decide), rfl⟩

end Httpd
