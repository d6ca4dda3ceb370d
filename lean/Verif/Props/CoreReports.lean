import Verif.Model.CoreReports
import Verif.Spec.JoinLoop
import Verif.Props.Process
/-! # C214: what the log says about services that end, in per-core mode -/

namespace Httpd

open Spec

variable {n : Nat} {e : Nat → CoreEnd}

theorem ReportRun.trans {s t u : Reports} {a b : List ReportAct} (h1 : ReportRun n e s a t) (h2 : ReportRun n e t b u) : ReportRun n e s (a ++ b) u := by
  induction h2 with
  | nil => simpa using h1
  | snoc _ hs ih => rw [← List.append_assoc]; exact .snoc ih hs

/-- Without the ends of threads everything goes as in `Model/Process`. -/
theorem reports_life {l l' : Life} {tr : List LifeAct} (h : LifeRun n l tr l') (told : List Nat) (log : List (Nat × Rec)) (hr : ∀ i, LifeAct.release i ∉ tr) :
    ReportRun n e ⟨l, told, log⟩ (tr.map .life) ⟨l', told, log⟩ := by
  induction h with
  | nil => exact .nil
  | @snoc t u tr a _ hs ih =>
    rw [List.map_append]
    exact .snoc (ih (fun i hi => hr i (List.mem_append_left _ hi))) (.life ⟨t, told, log⟩ a u (fun i hi => hr i (by simp [hi])) hs)

/-- The records about the service of thread `i`. -/
def about (i : Nat) (log : List (Nat × Rec)) : List Rec := (log.filter (fun x => x.1 = i)).map (·.2)

theorem about_append (i : Nat) (a b : List (Nat × Rec)) : about i (a ++ b) = about i a ++ about i b := by simp [about]

theorem about_one (i j : Nat) (r : Rec) : about i [(j, r)] = if j = i then [r] else [] := by
  by_cases h : j = i <;> simp [about, h]

/-- What is true after every action. -/
structure ReportInv (e : Nat → CoreEnd) (s : Reports) : Prop where
  silent : ∀ i, i ∉ s.told → about i s.log = []
  told : ∀ i, i ∈ s.told → ∃ r, (e i).record = some r ∧ (about i s.log = [r] ∨ about i s.log = [] ∧ s.life.main.noLogger = true)
  ended : ∀ i : Nat, s.life.threads[i]? = some .ended → (e i).over = true ∧ ((e i).record ≠ none → i ∈ s.told)

theorem noLogger_step {l l' : Life} {a : LifeAct} (h : LifeStep n l a l') (hn : l.main.noLogger = true) : l'.main.noLogger = true := by
  cases h <;> simp_all [Phase.noLogger]

theorem ended_step {l l' : Life} {a : LifeAct} (h : LifeStep n l a l') (i : Nat) (hi : l'.threads[i]? = some .ended) :
    l.threads[i]? = some .ended ∨ a = .release i := by
  cases h with
  | spawn k _ _ =>
    simp only [List.getElem?_append] at hi
    split at hi
    · exact .inl hi
    · simp only [List.getElem?_singleton] at hi; split at hi <;> simp at hi
  | take j _ _ =>
    simp only [List.getElem?_set] at hi
    split at hi
    · split at hi <;> simp at hi
    · exact .inl hi
  | release j _ _ =>
    simp only [List.getElem?_set] at hi
    split at hi
    · rename_i hj; exact .inr (by rw [hj])
    · exact .inl hi
  | _ => exact .inl hi

theorem report_inv {tr : List ReportAct} {s : Reports} (h : ReportRun n e .start tr s) : ReportInv e s := by
  induction h with
  | nil => exact ⟨fun _ _ => rfl, fun _ h => (by cases h), fun i h => by simp [Reports.start, Life.start] at h⟩
  | @snoc tr s s' a _ hs ih =>
    cases hs with
    | life a l hr hl =>
      refine ⟨ih.silent, fun i hi => ?_, fun i hi => ?_⟩
      · obtain ⟨r, h1, h2⟩ := ih.told i hi
        exact ⟨r, h1, h2.imp_right (fun h => ⟨h.1, noLogger_step hl h.2⟩)⟩
      · rcases ended_step hl i hi with h | h
        · exact ih.ended i h
        · exact absurd h (hr i)
    | tell j r l hr hj hl =>
      have hm : l.main = s.life.main := by cases hl; rfl
      have ht : l.threads = s.life.threads := by cases hl; rfl
      have hab : ∀ i, about i (if s.life.main.noLogger then s.log else s.log ++ [(j, r)]) =
          about i s.log ++ if s.life.main.noLogger then [] else if j = i then [r] else [] := by
        intro i; split
        · simp
        · rw [about_append, about_one]
      refine ⟨fun i hi => ?_, fun i hi => ?_, fun i hi => ?_⟩
      · simp only [List.mem_cons, not_or] at hi
        simp only [hab, ih.silent i hi.2]
        split
        · rfl
        · rw [if_neg (fun h => hi.1 h.symm)]; rfl
      · simp only [hab, hm]
        by_cases hij : i = j
        · subst hij
          refine ⟨r, hr, ?_⟩
          rw [ih.silent i hj]
          cases hn : s.life.main.noLogger <;> simp
        · have hi' : i ∈ s.told := by simpa [hij] using hi
          obtain ⟨r', h1, h2⟩ := ih.told i hi'
          refine ⟨r', h1, ?_⟩
          have hji : j ≠ i := fun h => hij h.symm
          simpa [hji] using h2
      · simp only [ht] at hi
        exact ⟨(ih.ended i hi).1, fun h => List.mem_cons_of_mem _ ((ih.ended i hi).2 h)⟩
    | ends j l ho ht hl =>
      refine ⟨ih.silent, fun i hi => ?_, fun i hi => ?_⟩
      · obtain ⟨r, h1, h2⟩ := ih.told i hi
        exact ⟨r, h1, h2.imp_right (fun h => ⟨h.1, noLogger_step hl h.2⟩)⟩
      · rcases ended_step hl i hi with h | h
        · exact ih.ended i h
        · cases h; exact ⟨ho, ht⟩

theorem told_iff {tr : List ReportAct} {s : Reports} (h : ReportRun n e .start tr s) {i : Nat} : i ∈ s.told ↔ ReportAct.tell i ∈ tr := by
  induction h with
  | nil => simp [Reports.start]
  | snoc _ hs ih => cases hs <;> simp [ih, or_comm]

theorem report_grows {s s' : Reports} {tr : List ReportAct} (h : ReportRun n e s tr s') : ∃ more, s'.log = s.log ++ more := by
  induction h with
  | nil => exact ⟨[], by simp⟩
  | snoc _ hs ih =>
    obtain ⟨m, hm⟩ := ih
    cases hs with
    | tell i r l _ _ _ =>
      simp only [hm]
      split
      · exact ⟨m, rfl⟩
      · exact ⟨m ++ [(i, r)], by simp⟩
    | _ => exact ⟨m, hm⟩

/-! ## C214 -/

/-- **C214**, what holds: in every execution there is at most one record about a service, with the text of its error, and only about one whose `run` has returned an
error, the same record as in multi-thread mode (`failureRecord`); it stays in the log. A thread whose `run` has returned an error can log it at once, whatever the others do, and does
not end before it has; so as long as the logger is there, every service that has failed in this way and whose thread has ended has its record. Missing from C214: services that
panic, that get no runtime, that have not begun when the process ends, and those that end after the logger. -/
theorem C214_reported_partial (n : Nat) (e : Nat → CoreEnd) (tr : List ReportAct) (s : Reports) (h : ReportRun n e .start tr s) :
    (∀ i, about i s.log = [] ∨ ∃ text, e i = .ran ⟨.err, text⟩ ∧ some (about i s.log) = (failureRecord .err text).map (fun r => [r])) ∧
    (∀ tr' s', ReportRun n e s tr' s' → ∃ more, s'.log = s.log ++ more) ∧
    (∀ (i : Nat) text, e i = .ran ⟨.err, text⟩ → s.life.threads[i]? = some .holding → s.life.main ≠ .exited → ReportAct.tell i ∉ tr →
      ∃ s', ReportStep n e s (.tell i) s') ∧
    (s.life.main.noLogger = false → ∀ (i : Nat) text, e i = .ran ⟨.err, text⟩ → s.life.threads[i]? = some .ended →
      some (about i s.log) = (failureRecord .err text).map (fun r => [r])) := by
  have hi := report_inv h
  have hrec : ∀ (i : Nat) r, (e i).record = some r → ∃ text, e i = .ran ⟨.err, text⟩ ∧ failureRecord .err text = some r := by
    intro i r hr
    cases he : e i with
    | noRuntime => rw [he] at hr; cases hr
    | ran t =>
      obtain ⟨res, text⟩ := t
      rw [he] at hr
      cases res <;> simp only [CoreEnd.record, Option.some.injEq, reduceCtorEq] at hr
      exact ⟨text, rfl, by rw [← hr]; rfl⟩
  refine ⟨fun i => ?_, fun tr' s' h' => report_grows h', ?_, ?_⟩
  · by_cases hm : i ∈ s.told
    · obtain ⟨r, h1, h2⟩ := hi.told i hm
      rcases h2 with h2 | h2
      · obtain ⟨text, h3, h4⟩ := hrec i r h1
        exact .inr ⟨text, h3, by rw [h4, h2]; rfl⟩
      · exact .inl h2.1
    · exact .inl (hi.silent i hm)
  · intro i text he hh hx hn
    rw [← told_iff h] at hn
    exact ⟨_, .tell s i ⟨.error, [], b!"service serve error, " ++ text⟩ _ (by rw [he]; rfl) hn (.log s.life i hx hh)⟩
  · intro hl i text he hend
    obtain ⟨_, h2⟩ := hi.ended i hend
    obtain ⟨r, h3, h4⟩ := hi.told i (h2 (by rw [he]; simp [CoreEnd.record]))
    have h5 : r = ⟨.error, [], b!"service serve error, " ++ text⟩ := by rw [he] at h3; simpa [CoreEnd.record] using h3.symm
    rcases h4 with h4 | h4
    · rw [h4, h5]; rfl
    · rw [h4.2] at hl; cases hl

/-- **C214**, negation for the code as written: in every execution, whatever happens, there is no record about a service that panics or for which no runtime can be built
(in multi-thread mode there is one about every service that panics); and if that happens to all services, there is an execution in which all threads are
created, all of them end, and the process exits (status 0, C157) with no record at all. -/
theorem C214_silent_violated (n : Nat) (e : Nat → CoreEnd) :
    (∀ (i : Nat), (e i = .noRuntime ∨ ∃ text, e i = .ran ⟨.panic, text⟩) → ∀ tr s, ReportRun n e .start tr s → about i s.log = []) ∧
    (∀ text, failureRecord .panic text ≠ none) ∧
    (0 < n → (∀ i, i < n → e i = .noRuntime ∨ ∃ text, e i = .ran ⟨.panic, text⟩) →
      ∃ tr s, ReportRun n e .start tr s ∧ s.life.main = .exited ∧ ReportAct.life .spawnFail ∉ tr ∧ s.life.threads = List.replicate n .ended ∧ s.log = []) := by
  refine ⟨?_, fun _ => by simp [failureRecord], ?_⟩
  · intro i hi tr s h
    rcases (C214_reported_partial n e tr s h).1 i with h1 | ⟨text, h1, _⟩
    · exact h1
    · rcases hi with hi | ⟨t, hi⟩ <;> rw [hi] at h1 <;> cases h1
  · intro hn hall
    have h0 := life_spawned n n (Nat.le_refl _)
    have h1 := LifeRun.snoc h0 (.spawnDone _ rfl)
    -- all threads take the lock
    have h2 : ∀ k, k ≤ n → LifeRun n .start (List.replicate n .spawn ++ [.spawnDone] ++ (List.range k).map .take)
        ⟨.polling, List.replicate k .holding ++ List.replicate (n - k) .spawned, 0, 0⟩ := by
      intro k hk
      induction k with
      | zero => simpa using h1
      | succ k ih =>
        obtain ⟨m, hm⟩ : ∃ m, n - k = m + 1 := ⟨n - k - 1, by omega⟩
        have := ih (by omega)
        rw [hm, List.replicate_succ] at this
        have h3 := LifeRun.snoc this (.take _ k (by simp) (by simp))
        rw [List.range_succ, List.map_append, ← List.append_assoc, show n - (k + 1) = m from by omega, List.replicate_succ' (n := k)]
        simpa using h3
    have h3 := h2 n (Nat.le_refl _)
    rw [Nat.sub_self, List.replicate_zero, List.append_nil] at h3
    have h4 := LifeRun.snoc h3 (.giveUp _ rfl (fun h => h .holding (by simp; omega) rfl))
    have h5 : ReportRun n e .start _ _ := reports_life h4 [] [] (by simp)
    -- all threads end
    have hq : ∀ k, k ≤ n → ∃ tr, ReportRun n e .start tr ⟨⟨.waiting, List.replicate k .ended ++ List.replicate (n - k) .holding, 0, 0⟩, [], []⟩ ∧
        ReportAct.life .spawnFail ∉ tr := by
      intro k hk
      induction k with
      | zero => exact ⟨_, by simpa using h5, by simp⟩
      | succ k ih =>
        obtain ⟨tr, h6, h7⟩ := ih (by omega)
        obtain ⟨m, hm⟩ : ∃ m, n - k = m + 1 := ⟨n - k - 1, by omega⟩
        rw [hm, List.replicate_succ] at h6
        have hk' := hall k (by omega)
        have h8 := ReportRun.snoc h6 (.ends _ k _ (by rcases hk' with h | ⟨t, h⟩ <;> rw [h] <;> rfl)
          (fun h => absurd (by rcases hk' with h | ⟨t, h⟩ <;> rw [h] <;> rfl) h) (.release _ k (by simp) (by simp)))
        refine ⟨_, ?_, (?_ : _ ∉ tr ++ [.ends k])⟩
        rotate_left
        · simpa using h7
        · rw [show n - (k + 1) = m from by omega, List.replicate_succ' (n := k)]
          simpa using h8
    obtain ⟨tr, h6, h7⟩ := hq n (Nat.le_refl _)
    rw [Nat.sub_self, List.replicate_zero, List.append_nil] at h6
    have h8 := ReportRun.snoc h6 (.life _ .enter _ (by simp) (.enter _ rfl (by intro t ht; simp at ht; rw [ht.2]; decide)))
    have h9 := ReportRun.snoc h8 (.life _ .freeLogger _ (by simp) (.freeLogger _ (.inl rfl)))
    have h10 := ReportRun.snoc h9 (.life _ .freeConfig _ (by simp) (.freeConfig _ rfl))
    have h11 := ReportRun.snoc h10 (.life _ .exit _ (by simp) (.exit _ rfl))
    exact ⟨_, _, h11, rfl, by simpa using h7, rfl, rfl⟩

/-- **C214**, negation for the code as written: with two or more services all of which return an error, there is an execution in which all threads are created, the process exits (status 0),
and only one of them has been reported. -/
theorem C214_race_violated (n : Nat) (hn : 2 ≤ n) (text : Nat → Bytes) :
    ∃ tr s, ReportRun n (fun i => .ran ⟨.err, text i⟩) .start tr s ∧ s.life.main = .exited ∧ ReportAct.life .spawnFail ∉ tr ∧ s.life.threads.length = n ∧
      s.log = [(0, ⟨.error, [], b!"service serve error, " ++ text 0⟩)] := by
  obtain ⟨m, rfl⟩ : ∃ m, n = m + 2 := ⟨n - 2, by omega⟩
  have h0 := life_spawned (m + 2) (m + 2) (Nat.le_refl _)
  have h1 := LifeRun.snoc h0 (.spawnDone _ rfl)
  have h2 := LifeRun.snoc h1 (.take _ 0 (by simp) rfl)
  have h3 := LifeRun.snoc h2 (.giveUp _ rfl (fun h => h .holding (by simp [List.replicate_succ]) rfl))
  have h4 : ReportRun (m + 2) (fun i => .ran ⟨.err, text i⟩) .start _ _ := reports_life h3 [] [] (by simp)
  have h5 := ReportRun.snoc h4 (.tell _ 0 _ _ rfl (by simp) (.log _ 0 (by simp) (by simp [List.replicate_succ])))
  have h6 := ReportRun.snoc h5 (.ends _ 0 _ rfl (fun _ => by simp) (.release _ 0 (by simp) (by simp [List.replicate_succ])))
  have h7 := ReportRun.snoc h6 (.life _ .enter _ (by simp) (.enter _ rfl (by
    intro t ht
    simp only [List.replicate_succ, List.set_cons_zero, List.mem_cons, List.mem_replicate] at ht
    rcases ht with rfl | rfl | ⟨_, rfl⟩ <;> decide)))
  have h8 := ReportRun.snoc h7 (.life _ .freeLogger _ (by simp) (.freeLogger _ (.inl rfl)))
  have h9 := ReportRun.snoc h8 (.life _ .freeConfig _ (by simp) (.freeConfig _ rfl))
  have h10 := ReportRun.snoc h9 (.life _ .exit _ (by simp) (.exit _ rfl))
  exact ⟨_, _, h10, rfl, by simp, by simp, rfl⟩

/-- Two services: the first returns an error, the second panics; both threads run and end. One record, about the first. -/
example : ∃ tr s, ReportRun 2 (fun i => if i = 0 then .ran ⟨.err, b!"in use"⟩ else .ran ⟨.panic, b!"not yet implemented"⟩) .start tr s ∧
    s.life.threads = [.ended, .ended] ∧ s.life.main.noLogger = false ∧ s.log = [(0, ⟨.error, [], b!"service serve error, in use"⟩)] := by
  have h1 := LifeRun.snoc (life_spawned 2 2 (Nat.le_refl _)) (.spawnDone _ rfl)
  have h2 := LifeRun.snoc h1 (.take _ 0 (by simp) rfl)
  have h3 := LifeRun.snoc h2 (.take _ 1 (by simp) rfl)
  have h4 : ReportRun 2 (fun i => if i = 0 then CoreEnd.ran ⟨.err, b!"in use"⟩ else .ran ⟨.panic, b!"not yet implemented"⟩) .start _ _ :=
    reports_life h3 [] [] (by simp)
  have h5 := ReportRun.snoc h4 (.tell _ 0 _ _ rfl (by simp) (.log _ 0 (by simp) rfl))
  have h6 := ReportRun.snoc h5 (.ends _ 0 _ rfl (fun _ => by simp) (.release _ 0 (by simp) rfl))
  have h7 := ReportRun.snoc h6 (.ends _ 1 _ rfl (fun h => absurd rfl h) (.release _ 1 (by simp) rfl))
  exact ⟨_, _, h7, rfl, rfl, rfl⟩

end Httpd
