import Verif.Model.Listeners
import Verif.Props.Crowd
/-!
# C225: the services of a process share the file descriptors
-/

namespace Httpd
open Spec MultiMap

variable {limit : Nat} {svc : Nat → Nat}

/-- What the accept loop of service `k` does. -/
def SharedAct.ofLoop (k : Nat) : SharedAct → Bool
  | .accept k' _ => k' = k
  | .fail k' => k' = k
  | _ => false

/-- Service `k` accepts. -/
def SharedAct.takes (k : Nat) : SharedAct → Bool
  | .accept k' _ => k' = k
  | _ => false

theorem filter_erase (p : Nat → Bool) (l : List Nat) (a : Nat) : (l.erase a).filter p = (l.filter p).erase a := by
  induction l with
  | nil => rfl
  | cons b l ih =>
    by_cases hb : b = a
    · subst hb
      by_cases hp : p b = true
      · simp [hp]
      · have hn : b ∉ l.filter p := fun h => hp (List.mem_filter.mp h).2
        simp [hp, List.erase_of_not_mem hn]
    · rw [List.erase_cons_tail (by simpa using hb)]
      by_cases hp : p b = true
      · rw [List.filter_cons_of_pos hp, List.filter_cons_of_pos hp, List.erase_cons_tail (by simpa using hb), ih]
      · rw [List.filter_cons_of_neg hp, List.filter_cons_of_neg hp, ih]

/-- What holds in every state. -/
theorem shared_inv {tr : List SharedAct} {s : Accepting} (h : SharedRun limit svc tr s) :
    s.pending.Nodup ∧ s.serving.Nodup ∧ (∀ i ∈ s.pending, i ∉ s.serving) ∧ s.serving.length ≤ limit := by
  induction h with
  | nil => simp [Accepting.start]
  | snoc _ hst ih =>
    obtain ⟨i1, i2, i3, i4⟩ := ih
    cases hst with
    | connect i h1 h2 h3 =>
      refine ⟨List.nodup_append.mpr ⟨i1, by simp, fun x hx y hy e => ?_⟩, i2, fun j hj => ?_, i4⟩
      · cases List.mem_singleton.mp hy; subst e; exact h1 hx
      · rcases List.mem_append.mp hj with hj | hj
        · exact i3 j hj
        · cases List.mem_singleton.mp hj; exact h2
    | accept k i h1 h2 =>
      have hm : i ∈ _ := (List.mem_filter.mp (List.mem_of_mem_head? h1)).1
      refine ⟨i1.sublist List.erase_sublist, List.nodup_append.mpr ⟨i2, by simp, fun x hx y hy e => ?_⟩, fun j hj hj' => ?_, by simp; omega⟩
      · cases List.mem_singleton.mp hy; subst e; exact i3 _ hm hx
      · rcases List.mem_append.mp hj' with h | h
        · exact i3 j (List.mem_of_mem_erase hj) h
        · cases List.mem_singleton.mp h; exact (i1.not_mem_erase) hj
    | fail k _ _ => exact ⟨i1, i2, i3, i4⟩
    | finish i hi =>
      exact ⟨i1, i2.sublist List.erase_sublist, fun j hj h => i3 j hj (List.mem_of_mem_erase h), Nat.le_trans (List.length_erase_le ..) i4⟩

theorem shared_forever (e : Forever (SharedStep limit svc) Accepting.start) (n : Nat) : SharedRun limit svc (e.upTo n) (e.state n) := by
  induction n with
  | zero => rw [e.first]; exact .nil
  | succ n ih =>
    have := e.next n
    rw [upTo_succ]
    cases ha : e.act n with
    | none => rw [ha] at this; simp only at this; rw [this]; simpa using ih
    | some a => rw [ha] at this; exact .snoc ih this

section
variable (e : Forever (SharedStep limit svc) Accepting.start)

theorem shared_next (m : Nat) : e.act m = none ∧ e.state (m + 1) = e.state m ∨ ∃ a, e.act m = some a ∧ SharedStep limit svc (e.state m) a (e.state (m + 1)) := by
  have := e.next m
  cases ha : e.act m with
  | none => rw [ha] at this; exact .inl ⟨rfl, this⟩
  | some a => rw [ha] at this; exact .inr ⟨a, rfl, this⟩

/-- What a step does to the queue of service `k`. -/
theorem queue_step {s s' : Accepting} {a : SharedAct} (h : SharedStep limit svc s a s') (k : Nat) :
    (∃ i, a = .accept k i ∧ s.queue svc k = i :: s'.queue svc k) ∨ (∀ i, a ≠ .accept k i) ∧ ∃ more, s'.queue svc k = s.queue svc k ++ more := by
  cases h with
  | connect i h1 h2 h3 => exact .inr ⟨by simp, [i].filter (fun i => svc i = k), by simp only [Accepting.queue, List.filter_append]⟩
  | accept k' i h1 h2 =>
    have hk' : svc i = k' := by simpa using (List.mem_filter.mp (List.mem_of_mem_head? h1)).2
    by_cases hk : k' = k
    · subst hk
      refine .inl ⟨i, rfl, ?_⟩
      unfold Accepting.queue at h1 ⊢
      simp only
      rw [filter_erase]
      cases hq : s.pending.filter (fun i => svc i = k') with
      | nil => rw [hq] at h1; cases h1
      | cons b l => rw [hq] at h1; cases h1; simp
    · refine .inr ⟨by rintro j hj; cases hj; exact hk rfl, [], ?_⟩
      unfold Accepting.queue
      simp only [List.append_nil]
      rw [filter_erase, List.erase_of_not_mem]
      intro hm
      have : svc i = k := by simpa using (List.mem_filter.mp hm).2
      omega
  | fail k' _ _ => exact .inr ⟨by simp, [], by simp⟩
  | finish i _ => exact .inr ⟨by simp, [], by simp [Accepting.queue]⟩

/-- Without an `accept` the queue only grows. -/
theorem queue_grows {n k : Nat} (hno : ∀ m, n ≤ m → ∀ i, e.act m ≠ some (.accept k i)) {m : Nat} (hm : n ≤ m) :
    ∃ more, (e.state m).queue svc k = (e.state n).queue svc k ++ more := by
  induction hm with
  | refl => exact ⟨[], by simp⟩
  | @step m hm ih =>
    obtain ⟨more, h⟩ := ih
    rcases shared_next e m with ⟨_, h2⟩ | ⟨a, h1, h2⟩
    · rw [h2]; exact ⟨more, h⟩
    · rcases queue_step h2 k with ⟨i, rfl, _⟩ | ⟨_, y, hy⟩
      · exact absurd h1 (hno m hm i)
      · exact ⟨more ++ y, by rw [hy, h, List.append_assoc]⟩

variable (stuck : List Nat) (hfew : stuck.length < limit) (hleave : ∀ j, j ∉ stuck → ∀ n, j ∈ (e.state n).serving → ∃ m, n ≤ m ∧ e.act m = some (.finish j))

include hfew hleave in
/-- There is a free descriptor again and again. -/
theorem free_again (n : Nat) : ∃ m, n ≤ m ∧ (e.state m).serving.length < limit := by
  by_cases hlt : (e.state n).serving.length < limit
  · exact ⟨n, Nat.le_refl _, hlt⟩
  · obtain ⟨j, hj, hjs⟩ := one_outside (m := stuck) (shared_inv (shared_forever e n)).2.1 (by omega)
    obtain ⟨m, hm, hf⟩ := hleave j hjs n hj
    refine ⟨m + 1, by omega, ?_⟩
    have hl := (shared_inv (shared_forever e m)).2.2.2
    rcases shared_next e m with ⟨h4, _⟩ | ⟨a', h4, h5⟩
    · rw [hf] at h4; cases h4
    · rw [hf] at h4; cases h4
      generalize e.state (m + 1) = s' at h5 ⊢
      cases h5 with
      | finish _ hi =>
        have := List.length_erase_of_mem hi
        have := List.length_pos_of_mem hi
        show ((e.state m).serving.erase j).length < limit
        omega

end

/-- **C225**, whatever holds: the services of a process share the limit on open files. As long as fewer connections than there are descriptors stay for ever, and no accept loop is left out for ever, somebody
is accepted by some service as long as somebody waits. -/
theorem C225_progress_partial (limit : Nat) (svc : Nat → Nat) (e : Forever (SharedStep limit svc) Accepting.start) (hloops : ∀ k, e.Fair (SharedAct.ofLoop k))
    (stuck : List Nat) (hfew : stuck.length < limit) (hleave : ∀ j, j ∉ stuck → ∀ n, j ∈ (e.state n).serving → ∃ m, n ≤ m ∧ e.act m = some (.finish j))
    (n i : Nat) (hi : i ∈ (e.state n).pending) : ∃ m k j, n ≤ m ∧ e.act m = some (.accept k j) := by
  apply Classical.byContradiction
  intro hno
  have hno : ∀ m, n ≤ m → ∀ k j, e.act m ≠ some (.accept k j) := fun m hm k j h => hno ⟨m, k, j, hm, h⟩
  have hmono : ∀ m m', n ≤ m → m ≤ m' → (e.state m').serving.length ≤ (e.state m).serving.length := by
    intro m m' hm hmm
    induction hmm with
    | refl => exact Nat.le_refl _
    | @step k hk ih =>
      refine Nat.le_trans ?_ ih
      rcases shared_next e k with ⟨_, h2⟩ | ⟨a, h1, h2⟩
      · rw [h2]; exact Nat.le_refl _
      · generalize e.state (k + 1) = s' at h2 ⊢
        cases h2 with
        | connect _ _ _ _ => exact Nat.le_refl _
        | accept _ _ _ _ => exact absurd h1 (hno k (Nat.le_trans hm hk) _ _)
        | fail _ _ _ => exact Nat.le_refl _
        | finish _ _ => exact List.length_erase_le ..
  obtain ⟨m, hm, hlt⟩ := free_again e stuck hfew hleave n
  have hq : ∀ m', m ≤ m' → ∃ j, ((e.state m').queue svc (svc i)).head? = some j := by
    intro m' hm'
    obtain ⟨more, h⟩ := queue_grows e (k := svc i) (fun m hm j => hno m hm _ j) (show n ≤ m' by omega)
    have hin : i ∈ (e.state n).queue svc (svc i) := List.mem_filter.mpr ⟨hi, by simp⟩
    rw [h]
    cases hc : (e.state n).queue svc (svc i) with
    | nil => rw [hc] at hin; cases hin
    | cons b l => exact ⟨b, rfl⟩
  obtain ⟨k, a, h1, h2, h3⟩ := hloops (svc i) m (fun m' hm' => by
    obtain ⟨j, hj⟩ := hq m' hm'
    have := hmono m m' hm hm'
    exact ⟨.accept (svc i) j, _, by simp [SharedAct.ofLoop], .accept _ _ _ hj (by omega)⟩)
  cases a with
  | accept k' j => exact hno k (by omega) _ _ h2
  | fail k' =>
    have hl := hmono m k hm h1
    rcases shared_next e k with ⟨h4, _⟩ | ⟨a', h4, h5⟩
    · rw [h2] at h4; cases h4
    · rw [h2] at h4; cases h4
      generalize e.state (k + 1) = s' at h5
      cases h5 with
      | fail _ _ g => omega
  | connect _ => cases h3
  | finish _ => cases h3

/-- The first in a queue is accepted, so is everybody. -/
theorem queue_through (e : Forever (SharedStep limit svc) Accepting.start) (k N : Nat)
    (hnext : ∀ n, N ≤ n → (e.state n).queue svc k ≠ [] → ∃ m j, n ≤ m ∧ e.act m = some (.accept k j)) {n i : Nat} (hn : N ≤ n) (h : i ∈ (e.state n).queue svc k) :
    ∃ m, n ≤ m ∧ e.act m = some (.accept k i) := by
  obtain ⟨before, after, hba⟩ := List.append_of_mem h
  clear h
  generalize hl : before.length = l
  induction l using Nat.strongRecOn generalizing n before after with
  | ind l ih =>
    -- the first `accept`
    have hfirst : ∃ m j more, n ≤ m ∧ e.act m = some (.accept k j) ∧ (e.state m).queue svc k = (e.state n).queue svc k ++ more := by
      apply Classical.byContradiction
      intro hno
      have key : ∀ m, n ≤ m → (∃ more, (e.state m).queue svc k = (e.state n).queue svc k ++ more) ∧ ∀ j, e.act m ≠ some (.accept k j) := by
        intro m hm
        induction hm with
        | refl => exact ⟨⟨[], by simp⟩, fun j hj => hno ⟨n, j, [], Nat.le_refl _, hj, by simp⟩⟩
        | @step m hm ih2 =>
          obtain ⟨⟨more, h1⟩, h2⟩ := ih2
          have hex : ∃ more, (e.state (m + 1)).queue svc k = (e.state n).queue svc k ++ more := by
            rcases shared_next e m with ⟨_, g2⟩ | ⟨a, g1, g2⟩
            · rw [g2]; exact ⟨more, h1⟩
            · rcases queue_step g2 k with ⟨j, rfl, _⟩ | ⟨_, y, hy⟩
              · exact absurd g1 (h2 j)
              · exact ⟨more ++ y, by rw [hy, h1, List.append_assoc]⟩
          exact ⟨hex, fun j hj => by obtain ⟨more, hm'⟩ := hex; exact hno ⟨m + 1, j, more, Nat.le_succ_of_le hm, hj, hm'⟩⟩
      obtain ⟨m, j, hm, hj⟩ := hnext n hn (by rw [hba]; simp)
      exact (key m hm).2 j hj
    obtain ⟨m, j, more, hm, hj, hq⟩ := hfirst
    rcases shared_next e m with ⟨h4, _⟩ | ⟨a, h4, h5⟩
    · rw [hj] at h4; cases h4
    · rw [hj] at h4; cases h4
      rcases queue_step h5 k with ⟨j', hj', hcons⟩ | ⟨h6, _⟩
      · cases hj'
        rw [hq, hba] at hcons
        cases before with
        | nil =>
          simp only [List.nil_append, List.cons_append, List.cons.injEq] at hcons
          rw [hcons.1]; exact ⟨m, hm, hj⟩
        | cons b before =>
          simp only [List.cons_append, List.append_assoc, List.cons.injEq] at hcons
          obtain ⟨m', h7, h8⟩ := ih before.length (by rw [← hl]; simp) (n := m + 1) (by omega) before (after ++ more) hcons.2.symm rfl
          exact ⟨m', by omega, h8⟩
      · exact absurd rfl (h6 j)

/-- **C225** With an accept loop that is not only not left out for ever, but not left out again and again when it could succeed, everybody is accepted by that service. -/
theorem C225_strong_partial (limit : Nat) (svc : Nat → Nat) (e : Forever (SharedStep limit svc) Accepting.start) (k : Nat) (hloop : e.StronglyFair (SharedAct.takes k))
    (stuck : List Nat) (hfew : stuck.length < limit) (hleave : ∀ j, j ∉ stuck → ∀ n, j ∈ (e.state n).serving → ∃ m, n ≤ m ∧ e.act m = some (.finish j))
    (n i : Nat) (hi : i ∈ (e.state n).pending) (hk : svc i = k) : ∃ m, n ≤ m ∧ e.act m = some (.accept k i) := by
  refine queue_through e k 0 (fun n _ hne => ?_) (Nat.zero_le _) (List.mem_filter.mpr ⟨hi, by simp [hk]⟩)
  apply Classical.byContradiction
  intro hno
  have hno : ∀ m, n ≤ m → ∀ j, e.act m ≠ some (.accept k j) := fun m hm j h => hno ⟨m, j, hm, h⟩
  obtain ⟨m, a, h1, h2, h3⟩ := hloop n (fun m hm => by
    obtain ⟨m', hm', hlt⟩ := free_again e stuck hfew hleave m
    obtain ⟨more, hq⟩ := queue_grows e hno (show n ≤ m' by omega)
    cases hc : (e.state n).queue svc k with
    | nil => exact absurd hc hne
    | cons b l => exact ⟨m', hm', .accept k b, _, by simp [SharedAct.takes], .accept _ _ _ (by rw [hq, hc]; rfl) hlt⟩)
  cases a with
  | accept k' j => simp only [SharedAct.takes, decide_eq_true_eq] at h3; subst h3; exact hno m h1 j h2
  | fail _ => cases h3
  | connect _ => cases h3
  | finish _ => cases h3

/-- **C225** If at some moment the last client connects, everybody is accepted. -/
theorem C225_finite_partial (limit : Nat) (svc : Nat → Nat) (e : Forever (SharedStep limit svc) Accepting.start) (hloops : ∀ k, e.Fair (SharedAct.ofLoop k))
    (stuck : List Nat) (hfew : stuck.length < limit) (hleave : ∀ j, j ∉ stuck → ∀ n, j ∈ (e.state n).serving → ∃ m, n ≤ m ∧ e.act m = some (.finish j))
    (N : Nat) (hlast : ∀ m i, N ≤ m → e.act m ≠ some (.connect i)) : ∃ n, ∀ m, n ≤ m → (e.state m).pending = [] := by
  have hstep : ∀ m, N ≤ m → (e.state (m + 1)).pending.length ≤ (e.state m).pending.length ∧
      ∀ k j, e.act m = some (.accept k j) → (e.state (m + 1)).pending.length < (e.state m).pending.length := by
    intro m hm
    rcases shared_next e m with ⟨h1, h2⟩ | ⟨a, h1, h2⟩
    · rw [h2, h1]; exact ⟨Nat.le_refl _, by simp⟩
    · rw [h1]
      have hc := hlast m
      rw [h1] at hc
      generalize e.state (m + 1) = s' at h2 ⊢
      cases h2 with
      | connect i _ _ _ => exact absurd rfl (hc i hm)
      | accept k i g1 g2 =>
        have hmem : i ∈ (e.state m).pending := (List.mem_filter.mp (List.mem_of_mem_head? g1)).1
        have := List.length_erase_of_mem hmem
        have := List.length_pos_of_mem hmem
        exact ⟨by simp only; omega, fun _ _ _ => by simp only; omega⟩
      | fail _ _ _ => exact ⟨Nat.le_refl _, by simp⟩
      | finish _ _ => exact ⟨Nat.le_refl _, by simp⟩
  have hmono : ∀ m m', N ≤ m → m ≤ m' → (e.state m').pending.length ≤ (e.state m).pending.length := by
    intro m m' hm hmm
    induction hmm with
    | refl => exact Nat.le_refl _
    | @step k hk ih => exact Nat.le_trans (hstep k (Nat.le_trans hm hk)).1 ih
  have key : ∀ l n, N ≤ n → (e.state n).pending.length = l → ∃ n', N ≤ n' ∧ (e.state n').pending = [] := by
    intro l
    induction l using Nat.strongRecOn with
    | ind l ih =>
      intro n hn hl
      cases hp : (e.state n).pending with
      | nil => exact ⟨n, hn, hp⟩
      | cons i rest =>
        obtain ⟨m, k, j, hm, hj⟩ := C225_progress_partial limit svc e hloops stuck hfew hleave n i (by rw [hp]; simp)
        have h1 := (hstep m (by omega)).2 k j hj
        have h2 := hmono n m hn hm
        exact ih _ (by omega) (m + 1) (by omega) rfl
  obtain ⟨n', hn', h⟩ := key _ N (Nat.le_refl _) rfl
  refine ⟨n', fun m hm => ?_⟩
  have := hmono n' m hn' hm
  rw [h] at this
  exact List.eq_nil_of_length_eq_zero (Nat.le_zero.mp this)

/-! ## One service starves another -/

/-- Client 0 connects to service 1, all others to service 0. -/
def oneOther (i : Nat) : Nat := if i = 0 then 1 else 0

/-- Who is served when the `n`-th client of service 0 connects. -/
def busyServing (M n : Nat) : List Nat := List.range' (n - M + 1) (min n M)
def busyGone (M n : Nat) : List Nat := List.range' 1 (n - M)

/-- Four moments for each client of service 0: it connects, service 1 fails to accept, the oldest of those served leaves, and service 0 accepts. -/
def busyAct (M n : Nat) : Nat → Option SharedAct
  | 0 => some (.connect (n + 1))
  | 1 => if M ≤ n then some (.fail 1) else none
  | 2 => if M ≤ n then some (.finish (n - M + 1)) else none
  | _ => some (.accept 0 (n + 1))

def busyState (M n : Nat) : Nat → Accepting
  | 0 => ⟨[0], busyServing M n, busyGone M n⟩
  | 1 | 2 => ⟨[0, n + 1], busyServing M n, busyGone M n⟩
  | _ => ⟨[0, n + 1], List.range' (n + 1 - M + 1) (min n (M - 1)), busyGone M (n + 1)⟩

theorem busy_connect (M n : Nat) : SharedStep M oneOther (busyState M n 0) (.connect (n + 1)) (busyState M n 1) := by
  refine .connect _ (n + 1) (by simp [busyState]) ?_ ?_
  · simp only [busyState, busyServing, List.mem_range'_1, not_and]; omega
  · simp only [busyState, busyGone, List.mem_range'_1, not_and]; omega

theorem busy_finish (M n : Nat) (hM : 0 < M) (h : M ≤ n) : SharedStep M oneOther (busyState M n 2) (.finish (n - M + 1)) (busyState M n 3) := by
  have hm : n - M + 1 ∈ (busyState M n 2).serving := by simp only [busyState, busyServing, List.mem_range'_1]; omega
  have := SharedStep.finish (limit := M) (svc := oneOther) _ _ hm
  have e1 : min n M = (M - 1) + 1 := by omega
  have e2 : min n (M - 1) = M - 1 := by omega
  have e3 : n + 1 - M + 1 = n - M + 1 + 1 := by omega
  have e4 : n + 1 - M = (n - M) + 1 := by omega
  have hs : (busyServing M n).erase (n - M + 1) = List.range' (n + 1 - M + 1) (min n (M - 1)) := by
    unfold busyServing
    rw [e1, e2, e3, List.range'_succ]
    simp
  have hg : busyGone M n ++ [n - M + 1] = busyGone M (n + 1) := by
    unfold busyGone
    rw [e4, List.range'_1_concat, Nat.add_comm 1]
  simp only [busyState, hs, hg] at this
  exact this

theorem busy_idle (M n : Nat) (h : ¬ M ≤ n) : busyState M n 3 = busyState M n 2 := by
  have e1 : n + 1 - M = 0 := by omega
  have e2 : n - M = 0 := by omega
  have e3 : min n (M - 1) = n := by omega
  have e4 : min n M = n := by omega
  simp [busyState, busyServing, busyGone, e1, e2, e3, e4]

theorem busy_accept (M n : Nat) (hM : 0 < M) : SharedStep M oneOther (busyState M n 3) (.accept 0 (n + 1)) (busyState M (n + 1) 0) := by
  have := SharedStep.accept (limit := M) (svc := oneOther) (busyState M n 3) 0 (n + 1) (by simp [Accepting.queue, busyState, oneOther]) (by simp [busyState]; omega)
  have e1 : min (n + 1) M = min n (M - 1) + 1 := by omega
  have hs : List.range' (n + 1 - M + 1) (min n (M - 1)) ++ [n + 1] = busyServing M (n + 1) := by
    unfold busyServing
    rw [e1, List.range'_1_concat]
    congr 2
    omega
  have hp : ([0, n + 1] : List Nat).erase (n + 1) = [0] := by
    rw [List.erase_cons_tail (by simp)]
    simp
  simp only [busyState, hs, hp] at this
  exact this

/-- The whole execution. -/
def busy (M : Nat) (hM : 0 < M) : Forever (SharedStep M oneOther) Accepting.start where
  state := fun t => match t with
    | 0 => .start
    | t + 1 => busyState M (t / 4) (t % 4)
  act := fun t => match t with
    | 0 => some (.connect 0)
    | t + 1 => busyAct M (t / 4) (t % 4)
  first := rfl
  next := fun t => by
    cases t with
    | zero =>
      have := SharedStep.connect (limit := M) (svc := oneOther) .start 0 (by simp [Accepting.start]) (by simp [Accepting.start]) (by simp [Accepting.start])
      simpa [busyState, busyServing, busyGone, Accepting.start] using this
    | succ t =>
      simp only
      generalize hn : t / 4 = n
      have hr : t % 4 = 0 ∨ t % 4 = 1 ∨ t % 4 = 2 ∨ t % 4 = 3 := by omega
      rcases hr with hr | hr | hr | hr
      · rw [hr, show (t + 1) / 4 = n by omega, show (t + 1) % 4 = 1 by omega]
        exact busy_connect M n
      · rw [hr, show (t + 1) / 4 = n by omega, show (t + 1) % 4 = 2 by omega]
        by_cases h : M ≤ n
        · simp only [busyAct, h, ↓reduceIte]
          exact .fail _ 1 (by simp [Accepting.queue, busyState, oneOther]) (by simp [busyState, busyServing]; omega)
        · simp only [busyAct, h, ↓reduceIte]; rfl
      · rw [hr, show (t + 1) / 4 = n by omega, show (t + 1) % 4 = 3 by omega]
        by_cases h : M ≤ n
        · simp only [busyAct, h, ↓reduceIte]
          exact busy_finish M n hM h
        · simp only [busyAct, h, ↓reduceIte]
          exact busy_idle M n h
      · rw [hr, show (t + 1) / 4 = n + 1 by omega, show (t + 1) % 4 = 0 by omega]
        exact busy_accept M n hM

/-- **C225**, violated: with any limit there is an execution in which no accept loop is left out for ever and nobody keeps a connection for ever, and yet a client of one service is never accepted: whenever its
service tries, the descriptors are in use, and whenever one is free the other service takes it. -/
theorem C225_starved_violated (limit : Nat) (hlimit : 0 < limit) :
    ∃ (svc : Nat → Nat) (e : Forever (SharedStep limit svc) Accepting.start), (∀ k, e.Fair (SharedAct.ofLoop k)) ∧
      (∀ j n, j ∈ (e.state n).serving → ∃ m, n ≤ m ∧ e.act m = some (.finish j)) ∧
      (∀ n, ∃ m, n ≤ m ∧ (e.state m).serving.length < limit) ∧ ∀ n, 0 < n → 0 ∈ (e.state n).pending ∧ ∀ k, e.act n ≠ some (.accept k 0) := by
  have hact : ∀ n r, r < 4 → (busy limit hlimit).act (4 * n + r + 1) = busyAct limit n r := by
    intro n r hr
    show busyAct limit ((4 * n + r) / 4) ((4 * n + r) % 4) = _
    rw [show (4 * n + r) / 4 = n by omega, show (4 * n + r) % 4 = r by omega]
  have hleave : ∀ j n, j ∈ ((busy limit hlimit).state n).serving → ∃ m, n ≤ m ∧ (busy limit hlimit).act m = some (.finish j) := by
    intro j n hj
    cases n with
    | zero => cases hj
    | succ t =>
      have hj : j ∈ (busyState limit (t / 4) (t % 4)).serving := hj
      have hlow : 1 ≤ j ∧ t / 4 - limit + 1 ≤ j ∧ (t % 4 = 3 → t / 4 + 1 - limit + 1 ≤ j) := by
        have hr : t % 4 = 0 ∨ t % 4 = 1 ∨ t % 4 = 2 ∨ t % 4 = 3 := by omega
        rcases hr with hr | hr | hr | hr <;> rw [hr] at hj <;> simp only [busyState, busyServing, List.mem_range'_1] at hj <;> omega
      refine ⟨4 * (j - 1 + limit) + 2 + 1, by omega, ?_⟩
      rw [hact _ 2 (by omega)]
      simp only [busyAct]
      rw [if_pos (by omega), show j - 1 + limit - limit + 1 = j by omega]
  refine ⟨oneOther, busy limit hlimit, fun k n hen => ?_, hleave, fun n => ?_, fun n hn => ?_⟩
  · by_cases h0 : k = 0
    · subst h0
      exact ⟨4 * n + 3 + 1, .accept 0 (n + 1), by omega, hact n 3 (by omega), by simp [SharedAct.ofLoop]⟩
    by_cases h1 : k = 1
    · subst h1
      refine ⟨4 * (n + limit) + 1 + 1, .fail 1, by omega, ?_, by simp [SharedAct.ofLoop]⟩
      rw [hact _ 1 (by omega)]
      simp [busyAct]
    · exfalso
      obtain ⟨a, s', h2, h3⟩ := hen n (Nat.le_refl _)
      have hq : ((busy limit hlimit).state n).queue oneOther k = [] := by
        refine List.filter_eq_nil_iff.mpr fun i _ => ?_
        unfold oneOther
        by_cases hi : i = 0 <;> simp [hi] <;> omega
      cases h3 with
      | connect _ _ _ _ => cases h2
      | finish _ _ => cases h2
      | accept k' i g1 _ => simp only [SharedAct.ofLoop, decide_eq_true_eq] at h2; subst h2; rw [hq] at g1; cases g1
      | fail k' g1 _ => simp only [SharedAct.ofLoop, decide_eq_true_eq] at h2; subst h2; exact g1 hq
  · refine ⟨4 * n + 3 + 1, by omega, ?_⟩
    show (busyState limit ((4 * n + 3) / 4) ((4 * n + 3) % 4)).serving.length < limit
    rw [show (4 * n + 3) / 4 = n by omega, show (4 * n + 3) % 4 = 3 by omega]
    simp [busyState]
    omega
  · cases n with
    | zero => omega
    | succ t =>
      refine ⟨?_, fun k => ?_⟩
      · show 0 ∈ (busyState limit (t / 4) (t % 4)).pending
        have hr : t % 4 = 0 ∨ t % 4 = 1 ∨ t % 4 = 2 ∨ t % 4 = 3 := by omega
        rcases hr with hr | hr | hr | hr <;> rw [hr] <;> simp [busyState]
      · show busyAct limit (t / 4) (t % 4) ≠ _
        have hr : t % 4 = 0 ∨ t % 4 = 1 ∨ t % 4 = 2 ∨ t % 4 = 3 := by omega
        rcases hr with hr | hr | hr | hr <;> rw [hr] <;> simp only [busyAct] <;> first | (split <;> simp) | simp

/-! ## The conditions can be met -/

theorem shared_run_forever {tr : List SharedAct} {s : Accepting} (h : SharedRun limit svc tr s) :
    ∃ e : Forever (SharedStep limit svc) Accepting.start, (∀ m, m ≤ tr.length → e.upTo m = tr.take m) ∧ ∀ m, tr.length ≤ m → e.state m = s ∧ e.act m = none := by
  induction h with
  | nil => exact ⟨idle _ _, fun m hm => by cases Nat.le_zero.mp hm; rfl, fun _ _ => ⟨rfl, rfl⟩⟩
  | @snoc tr s s' a _ hs ih =>
    obtain ⟨e, h1, h2⟩ := ih
    obtain ⟨e', k1, k2, k3⟩ := forever_snoc e tr.length s s' a h2 hs
    refine ⟨e', fun m hm => ?_, fun m hm => k3 m (by simpa using hm)⟩
    by_cases h : m ≤ tr.length
    · rw [k1 m h, h1 m h, List.take_append_of_le_length h]
    · have : m = tr.length + 1 := by simp at hm; omega
      rw [this, k2, h1 _ (Nat.le_refl _)]
      rw [List.take_of_length_le (l := tr ++ [a]) (by simp), List.take_length]

/-- The accept loops, and the ends of the tasks. -/
def SharedAct.whose (n : Nat) (a : SharedAct) : Bool := if n % 2 = 0 then a.ofLoop (n / 2) else a == .finish (n / 2)

/-- **C225**, the conditions ask for nothing impossible: whatever has happened so far, the execution can go on so that everybody leaves and no accept loop is left out, in either sense. -/
theorem C225_possible (limit : Nat) (hlimit : 0 < limit) (svc : Nat → Nat) (tr : List SharedAct) (s : Accepting) (h : SharedRun limit svc tr s) :
    ∃ e : Forever (SharedStep limit svc) Accepting.start, e.upTo tr.length = tr ∧ e.state tr.length = s ∧ (∀ k, e.Fair (SharedAct.ofLoop k)) ∧
      (∀ k, e.StronglyFair (SharedAct.takes k)) ∧ ∀ j n, j ∈ (e.state n).serving → ∃ m, n ≤ m ∧ e.act m = some (.finish j) := by
  obtain ⟨e, h1, h2⟩ := shared_run_forever h
  obtain ⟨e', k1, k2, k3, k4⟩ := fair_after e tr.length SharedAct.whose
  have hloops : ∀ k, e'.Fair (SharedAct.ofLoop k) := fun k => by
    have := k3 (2 * k)
    rwa [show SharedAct.whose (2 * k) = SharedAct.ofLoop k by funext a; simp [SharedAct.whose]] at this
  have hleave : ∀ j n, j ∈ (e'.state n).serving → ∃ m, n ≤ m ∧ e'.act m = some (.finish j) := by
    intro j n hj
    apply Classical.byContradiction
    intro hno
    have hin : ∀ m, n ≤ m → j ∈ (e'.state m).serving := by
      intro m hm
      induction hm with
      | refl => exact hj
      | @step m hm ih =>
        rcases shared_next e' m with ⟨_, h4⟩ | ⟨a, h4, h5⟩
        · rw [h4]; exact ih
        · generalize e'.state (m + 1) = s' at h5 ⊢
          cases h5 with
          | connect _ _ _ _ => exact ih
          | accept _ _ _ _ => exact List.mem_append_left _ ih
          | fail _ _ _ => exact ih
          | finish i _ =>
            have : j ≠ i := by rintro rfl; exact hno ⟨m, hm, h4⟩
            exact (List.mem_erase_of_ne this).mpr ih
    have hw : SharedAct.whose (2 * j + 1) = fun a => a == .finish j := by
      funext a
      simp only [SharedAct.whose, show ¬ (2 * j + 1) % 2 = 0 by omega, ↓reduceIte, show (2 * j + 1) / 2 = j by omega]
    obtain ⟨m, a, g1, g2, g3⟩ := k3 (2 * j + 1) n (fun m hm => ⟨.finish j, _, by rw [hw]; simp, .finish _ j (hin m hm)⟩)
    rw [hw] at g3
    simp only [beq_iff_eq] at g3
    subst g3
    exact hno ⟨m, g1, g2⟩
  obtain ⟨n0, hn0⟩ := C225_finite_partial limit svc e' hloops [] (by simpa using hlimit) (fun j _ => hleave j) tr.length (fun m i hm ha => by
    obtain ⟨k, hk⟩ := k4 m _ hm ha
    unfold SharedAct.whose at hk
    split at hk <;> simp [SharedAct.ofLoop] at hk)
  refine ⟨e', ?_, ?_, hloops, fun k n hen => ?_, hleave⟩
  · rw [upTo_congr k2 _ (Nat.le_refl _), h1 _ (Nat.le_refl _), List.take_length]
  · rw [k1 _ (Nat.le_refl _), (h2 _ (Nat.le_refl _)).1]
  · exfalso
    obtain ⟨m, hm, a, s', g1, g2⟩ := hen (max n n0) (by omega)
    have hp := hn0 m (by omega)
    cases g2 with
    | connect _ _ _ _ => cases g1
    | accept k' i g3 _ => simp [Accepting.queue, hp] at g3
    | fail _ _ _ => cases g1
    | finish _ _ => cases g1

/-- One descriptor, two services, one client each: the second waits until the first has left. -/
example : ∃ s, SharedRun 1 oneOther [.connect 1, .connect 0, .accept 0 1, .fail 1, .finish 1, .accept 1 0] s ∧ s = ⟨[], [0], [1]⟩ := by
  have h1 := SharedRun.snoc (.nil (limit := 1) (svc := oneOther)) (.connect _ 1 (by decide) (by decide) (by decide))
  have h2 := h1.snoc (.connect _ 0 (by decide) (by decide) (by decide))
  have h3 := h2.snoc (.accept _ 0 1 (by decide) (by decide))
  have h4 := h3.snoc (.fail _ 1 (by decide) (by decide))
  have h5 := h4.snoc (.finish _ 1 (by decide))
  have h6 := h5.snoc (.accept _ 1 0 (by decide) (by decide))
  exact ⟨_, h6, by decide⟩

end Httpd
