import Verif.Spec.Dispatcher
/-!
# C66-C68, C92, C93: logging threads, flush and shutdown
-/

namespace Httpd.Log

open Spec

variable {R : Type}

/-! ## Observations on a trace with one more action -/

theorem sends_append (a b : List (Act R)) : sends (a ++ b) = sends a ++ sends b := by
  induction a with
  | nil => rfl
  | cons x a ih => cases x <;> simp [sends, ih]

theorem writes_append (a b : List (Act R)) : writes (a ++ b) = writes a ++ writes b := by
  induction a with
  | nil => rfl
  | cons x a ih => cases x <;> simp [writes, ih]

theorem byThread_append (t : Nat) (a b : List (Nat × R)) : byThread t (a ++ b) = byThread t a ++ byThread t b := by
  simp [byThread]

theorem byThread_prefix (t : Nat) {a b : List (Nat × R)} (h : a <+: b) : byThread t a <+: byThread t b := by
  obtain ⟨c, rfl⟩ := h
  rw [byThread_append]
  exact List.prefix_append _ _

/-- The records of a list of messages. -/
def items : List (Msg R) → List (Nat × R)
  | [] => []
  | .item t r :: q => (t, r) :: items q
  | .flush _ :: q => items q

theorem items_append (a b : List (Msg R)) : items (a ++ b) = items a ++ items b := by
  induction a with
  | nil => rfl
  | cons x a ih => cases x <;> simp [items, ih]

/-- The record the consumer is working on. -/
def inHand : Consuming R → List (Nat × R)
  | .writing t r => [(t, r)]
  | _ => []

/-- What holds in every reachable state. -/
structure Inv (enabled : R → Bool) (progs : Nat → List (Call R)) (tr : List (Act R)) (s : Sys R) : Prop where
  flow : s.consumer ≠ .dead → sends tr = writes tr ++ inHand s.consumer ++ items s.queue
  dead : s.consumer = .dead → writes tr <+: sends tr ∧ s.signal = false
  threads : ∀ t, byThread t (sends tr) ++ logged enabled (s.progs t) = logged enabled (progs t)
  closing : s.consumer = .closing ∨ s.consumer = .lastFlush ∨ s.consumer = .done → s.guard ≠ .live ∧ s.queue = []
  signal : s.signal = true → s.consumer = .lastFlush ∨ s.consumer = .done
  calls : ∀ t n, Act.flushCall t n ∈ tr → n < s.nlocks
  queued : ∀ n, Msg.flush n ∈ s.queue → n < s.nlocks
  working : ∀ n, s.consumer = .flushing n ∨ s.consumer = .storing n → n < s.nlocks
  set : ∀ n, s.locks n = true → n < s.nlocks
  waiting : ∀ t n, s.phases t = .waiting n → n < s.nlocks

theorem inv_run (enabled : R → Bool) (progs : Nat → List (Call R)) {tr : List (Act R)} {s : Sys R}
    (h : Run enabled (start progs) tr s) : Inv enabled progs tr s := by
  induction h with
  | nil =>
    constructor <;> simp [start, sends, writes, inHand, items, byThread]
  | snoc _ hs ih =>
    obtain ⟨flow, dead, threads, closing, signal, calls, queued, working, set, waiting⟩ := ih
    have hcalls : ∀ (tr : List (Act R)) (a : Act R) (t n : Nat), Act.flushCall t n ∈ tr ++ [a] → Act.flushCall t n ∈ tr ∨ a = .flushCall t n := by
      intro tr a t n hm
      rcases List.mem_append.mp hm with h | h
      · exact Or.inl h
      · right; simpa using (List.mem_singleton.mp h).symm
    cases hs with
    | send t r rest h1 h2 h3 h4 h5 =>
      constructor <;> simp only [sends_append, writes_append, sends, writes, List.append_nil, byThread_append]
      · intro h; rw [flow h, items_append]; simp [items]
      · intro h; exact absurd h h5
      · intro t'
        by_cases ht : t' = t
        · subst ht
          have := threads t'
          rw [h3] at this
          simp only [logged, h4, ↓reduceIte] at this
          simpa [update, byThread] using this
        · have : byThread t' [(t, r)] = [] := by simp [byThread, Ne.symm ht]
          simp [update, ht, this, threads t']
      · intro h; exact absurd h1 (closing h).1
      · exact signal
      · intro t' n hm
        rcases hcalls _ _ _ _ hm with h | h
        · exact calls t' n h
        · cases h
      · intro n hn
        rcases List.mem_append.mp hn with h | h
        · exact queued n h
        · simp at h
      · exact working
      · exact set
      · exact waiting
    | skip t r rest h1 h2 h3 h4 =>
      constructor <;> simp only [sends_append, writes_append, sends, writes, List.append_nil]
      · exact flow
      · exact dead
      · intro t'
        by_cases ht : t' = t
        · subst ht
          have := threads t'
          rw [h3] at this
          simpa [logged, h4, update] using this
        · simp [update, ht, threads t']
      · exact closing
      · exact signal
      · intro t' n hm
        rcases hcalls _ _ _ _ hm with h | h
        · exact calls t' n h
        · cases h
      · exact queued
      · exact working
      · exact set
      · exact waiting
    | logPanic t r rest h1 h2 h3 h4 h5 =>
      constructor <;> simp only [sends_append, writes_append, sends, writes, List.append_nil]
      · exact flow
      · exact dead
      · exact threads
      · exact closing
      · exact signal
      · intro t' n hm
        rcases hcalls _ _ _ _ hm with h | h
        · exact calls t' n h
        · cases h
      · exact queued
      · exact working
      · exact set
      · intro t' n; simp only [update]; split
        · intro h; cases h
        · exact waiting t' n
    | flushPanic t rest h1 h2 h3 h4 =>
      constructor <;> simp only [sends_append, writes_append, sends, writes, List.append_nil]
      · exact flow
      · exact dead
      · exact threads
      · exact closing
      · exact signal
      · intro t' n hm
        rcases hcalls _ _ _ _ hm with h | h
        · exact calls t' n h
        · cases h
      · exact queued
      · exact working
      · exact set
      · intro t' n; simp only [update]; split
        · intro h; cases h
        · exact waiting t' n
    | flushCall t rest h1 h2 h3 h4 =>
      constructor <;> simp only [sends_append, writes_append, sends, writes, List.append_nil]
      · intro h; rw [flow h, items_append]; simp [items]
      · intro h; exact absurd h h4
      · intro t'
        by_cases ht : t' = t
        · subst ht
          have := threads t'
          rw [h3] at this
          simpa [logged, update] using this
        · simp [update, ht, threads t']
      · intro h; exact absurd h1 (closing h).1
      · exact signal
      · intro t' n hm
        rcases hcalls _ _ _ _ hm with h | h
        · have := calls t' n h; omega
        · cases h; omega
      · intro n hn
        rcases List.mem_append.mp hn with h | h
        · have := queued n h; omega
        · simp at h; omega
      · intro n h; have := working n h; omega
      · intro n h; have := set n h; omega
      · intro t' n; simp only [update]; split
        · intro h; cases h; omega
        · intro h; have := waiting t' n h; omega
    | flushRet t n h1 h2 =>
      constructor <;> simp only [sends_append, writes_append, sends, writes, List.append_nil]
      · exact flow
      · exact dead
      · exact threads
      · exact closing
      · exact signal
      · intro t' n hm
        rcases hcalls _ _ _ _ hm with h | h
        · exact calls t' n h
        · cases h
      · exact queued
      · exact working
      · exact set
      · intro t' n; simp only [update]; split
        · intro h; cases h
        · exact waiting t' n
    | recvItem t r q h1 h2 =>
      constructor <;> simp only [sends_append, writes_append, sends, writes, List.append_nil]
      · intro _; have := flow (by simp [h1]); rw [this, h1, h2]; simp [inHand, items]
      · simp
      · exact threads
      · simp
      · intro h; rcases signal h with h | h <;> rw [h1] at h <;> cases h
      · intro t' n hm
        rcases hcalls _ _ _ _ hm with h | h
        · exact calls t' n h
        · cases h
      · intro n hn; exact queued n (by rw [h2]; exact List.mem_cons_of_mem _ hn)
      · simp
      · exact set
      · exact waiting
    | recvFlush n q h1 h2 =>
      constructor <;> simp only [sends_append, writes_append, sends, writes, List.append_nil]
      · intro _; have := flow (by simp [h1]); rw [this, h1, h2]; simp [inHand, items]
      · simp
      · exact threads
      · simp
      · intro h; rcases signal h with h | h <;> rw [h1] at h <;> cases h
      · intro t' n hm
        rcases hcalls _ _ _ _ hm with h | h
        · exact calls t' n h
        · cases h
      · intro n hn; exact queued n (by rw [h2]; exact List.mem_cons_of_mem _ hn)
      · intro m h
        have : m = n := by rcases h with h | h <;> cases h; rfl
        subst this
        exact queued m (by rw [h2]; exact List.mem_cons_self ..)
      · exact set
      · exact waiting
    | write t r h1 =>
      constructor <;> simp only [sends_append, writes_append, sends, writes, List.append_nil]
      · intro _; have := flow (by simp [h1]); rw [this, h1]; simp [inHand]
      · simp
      · exact threads
      · simp
      · intro h; rcases signal h with h | h <;> rw [h1] at h <;> cases h
      · intro t' n hm
        rcases hcalls _ _ _ _ hm with h | h
        · exact calls t' n h
        · cases h
      · exact queued
      · simp
      · exact set
      · exact waiting
    | flush n h1 =>
      constructor <;> simp only [sends_append, writes_append, sends, writes, List.append_nil]
      · intro _; have := flow (by simp [h1]); rw [this, h1]; simp [inHand]
      · simp
      · exact threads
      · simp
      · intro h; rcases signal h with h | h <;> rw [h1] at h <;> cases h
      · intro t' n hm
        rcases hcalls _ _ _ _ hm with h | h
        · exact calls t' n h
        · cases h
      · exact queued
      · intro m h
        have : m = n := by rcases h with h | h <;> cases h; rfl
        subst this
        exact working m (Or.inl h1)
      · exact set
      · exact waiting
    | store n h1 =>
      constructor <;> simp only [sends_append, writes_append, sends, writes, List.append_nil]
      · intro _; have := flow (by simp [h1]); rw [this, h1]; simp [inHand]
      · simp
      · exact threads
      · simp
      · intro h; rcases signal h with h | h <;> rw [h1] at h <;> cases h
      · intro t' n hm
        rcases hcalls _ _ _ _ hm with h | h
        · exact calls t' n h
        · cases h
      · exact queued
      · simp
      · intro m; simp only [update]; split
        · next h => intro _; subst h; exact working m (Or.inr h1)
        · exact set m
      · exact waiting
    | closed h1 h2 h3 =>
      constructor <;> simp only [sends_append, writes_append, sends, writes, List.append_nil]
      · intro _; have := flow (by simp [h1]); rw [this, h1]; simp [inHand]
      · simp
      · exact threads
      · intro _; exact ⟨h3, h2⟩
      · intro h; rcases signal h with h | h <;> rw [h1] at h <;> cases h
      · intro t' n hm
        rcases hcalls _ _ _ _ hm with h | h
        · exact calls t' n h
        · cases h
      · exact queued
      · simp
      · exact set
      · exact waiting
    | signal h1 =>
      constructor <;> simp only [sends_append, writes_append, sends, writes, List.append_nil]
      · intro _; have := flow (by simp [h1]); rw [this, h1]; simp [inHand]
      · simp
      · exact threads
      · intro _; exact closing (Or.inl h1)
      · simp
      · intro t' n hm
        rcases hcalls _ _ _ _ hm with h | h
        · exact calls t' n h
        · cases h
      · exact queued
      · simp
      · exact set
      · exact waiting
    | lastFlush h1 =>
      constructor <;> simp only [sends_append, writes_append, sends, writes, List.append_nil]
      · intro _; have := flow (by simp [h1]); rw [this, h1]; simp [inHand]
      · simp
      · exact threads
      · intro _; exact closing (Or.inr (Or.inl h1))
      · simp
      · intro t' n hm
        rcases hcalls _ _ _ _ hm with h | h
        · exact calls t' n h
        · cases h
      · exact queued
      · simp
      · exact set
      · exact waiting
    | crash t r h1 =>
      constructor <;> simp only [sends_append, writes_append, sends, writes, List.append_nil]
      · simp
      · intro _
        refine ⟨?_, ?_⟩
        · rw [flow (by simp [h1]), List.append_assoc]; exact List.prefix_append _ _
        · cases hsg : (Sys.signal _) with
          | false => rfl
          | true => rcases signal hsg with h | h <;> rw [h1] at h <;> cases h
      · exact threads
      · simp
      · intro h; rcases signal h with h | h <;> rw [h1] at h <;> cases h
      · intro t' n hm
        rcases hcalls _ _ _ _ hm with h | h
        · exact calls t' n h
        · cases h
      · simp
      · simp
      · exact set
      · exact waiting
    | crashFlush m0 h1 =>
      constructor <;> simp only [sends_append, writes_append, sends, writes, List.append_nil]
      · simp
      · intro _
        refine ⟨?_, ?_⟩
        · rw [flow (by simp [h1]), List.append_assoc]; exact List.prefix_append _ _
        · cases hsg : (Sys.signal _) with
          | false => rfl
          | true => rcases signal hsg with h | h <;> rw [h1] at h <;> cases h
      · exact threads
      · simp
      · intro h; rcases signal h with h | h <;> rw [h1] at h <;> cases h
      · intro t' n hm
        rcases hcalls _ _ _ _ hm with h | h
        · exact calls t' n h
        · cases h
      · simp
      · simp
      · exact set
      · exact waiting
    | drop h1 =>
      constructor <;> simp only [sends_append, writes_append, sends, writes, List.append_nil]
      · exact flow
      · exact dead
      · exact threads
      · intro h; exact ⟨by simp, (closing h).2⟩
      · exact signal
      · intro t' n hm
        rcases hcalls _ _ _ _ hm with h | h
        · exact calls t' n h
        · cases h
      · exact queued
      · exact working
      · exact set
      · exact waiting
    | dropRet h1 h2 =>
      constructor <;> simp only [sends_append, writes_append, sends, writes, List.append_nil]
      · exact flow
      · exact dead
      · exact threads
      · intro h; exact ⟨by simp, (closing h).2⟩
      · exact signal
      · intro t' n hm
        rcases hcalls _ _ _ _ hm with h | h
        · exact calls t' n h
        · cases h
      · exact queued
      · exact working
      · exact set
      · exact waiting

/-- The consumer is dead exactly after a crash. -/
theorem dead_iff (enabled : R → Bool) (progs : Nat → List (Call R)) {tr : List (Act R)} {s : Sys R}
    (h : Run enabled (start progs) tr s) : s.consumer = .dead ↔ Act.crash ∈ tr := by
  induction h with
  | nil => simp [start]
  | snoc _ hs ih =>
    cases hs <;> simp_all

/-! ## Composing runs -/

theorem Run.trans {enabled : R → Bool} {s0 s1 s2 : Sys R} {a b : List (Act R)} (h1 : Run enabled s0 a s1) (h2 : Run enabled s1 b s2) :
    Run enabled s0 (a ++ b) s2 := by
  induction h2 with
  | nil => simpa using h1
  | snoc _ hs ih => rw [← List.append_assoc]; exact .snoc ih hs

theorem Run.single {enabled : R → Bool} {s s' : Sys R} {a : Act R} (h : Step enabled s a s') : Run enabled s [a] s' := by
  have := Run.snoc (Run.nil (enabled := enabled) (s := s)) h
  simpa using this

/-- A run built from its first action on. -/
theorem run_cons {enabled : R → Bool} {s s' : Sys R} {a : Act R} {tr : List (Act R)} (h : Step enabled s a s')
    (h2 : ∃ s2, Run enabled s' tr s2) : ∃ s2, Run enabled s (a :: tr) s2 := by
  obtain ⟨s2, h2⟩ := h2
  exact ⟨s2, (Run.single h).trans h2⟩

/-! ## The consumer gets on -/

/-- How many actions the consumer has left, at most. -/
def work (s : Sys R) : Nat :=
  3 * s.queue.length + match s.consumer with
    | .idle => 3 | .writing .. => 4 | .flushing _ => 5 | .storing _ => 4 | .closing => 2 | .lastFlush => 1 | .done => 0 | .dead => 0

theorem work_step {enabled : R → Bool} {s s' : Sys R} {a : Act R} (h : Step enabled s a s') (ha : a.ofConsumer = true) :
    work s' < work s := by
  cases h <;> simp_all [Act.ofConsumer, work] <;> omega

theorem work_run {enabled : R → Bool} {s s' : Sys R} {tr : List (Act R)} (h : Run enabled s tr s') (ha : ∀ a ∈ tr, a.ofConsumer = true) :
    tr.length + work s' ≤ work s := by
  induction h with
  | nil => simp
  | snoc _ hs ih =>
    have h1 := ih (fun a ha' => ha a (List.mem_append_left _ ha'))
    have h2 := work_step hs (ha _ (List.mem_append_right _ (List.mem_singleton.mpr rfl)))
    simp only [List.length_append, List.length_cons, List.length_nil]
    omega

/-- The consumer can act unless it waits for a message, or has ended. -/
theorem consumer_step (enabled : R → Bool) (s : Sys R) (hd : s.consumer ≠ .dead) :
    (∃ a s', a.ofConsumer = true ∧ Step enabled s a s') ∨ (s.consumer = .idle ∧ s.queue = [] ∧ s.guard = .live) ∨ s.consumer = .done := by
  cases hc : s.consumer with
  | idle =>
    cases hq : s.queue with
    | nil =>
      by_cases hg : s.guard = .live
      · exact Or.inr (Or.inl ⟨rfl, rfl, hg⟩)
      · exact Or.inl ⟨_, _, rfl, .closed s hc hq hg⟩
    | cons m q =>
      cases m with
      | item t r => exact Or.inl ⟨_, _, rfl, .recvItem s t r q hc hq⟩
      | flush n => exact Or.inl ⟨_, _, rfl, .recvFlush s n q hc hq⟩
  | writing t r => exact Or.inl ⟨.write t r, _, rfl, .write s t r hc⟩
  | flushing n => exact Or.inl ⟨.flush, _, rfl, .flush s n hc⟩
  | storing n => exact Or.inl ⟨.store n, _, rfl, .store s n hc⟩
  | closing => exact Or.inl ⟨.signal, _, rfl, .signal s hc⟩
  | lastFlush => exact Or.inl ⟨.flush, _, rfl, .lastFlush s hc⟩
  | done => exact Or.inr (Or.inr rfl)
  | dead => exact absurd hc hd

/-- Left alone, the consumer gets to a state where it can do no more. -/
theorem consumer_settles (enabled : R → Bool) (n : Nat) (s : Sys R) (hn : work s ≤ n) (hd : s.consumer ≠ .dead) :
    ∃ tr s', Run enabled s tr s' ∧ (∀ a ∈ tr, a.ofConsumer = true) ∧ s'.consumer ≠ .dead ∧
      ((s'.consumer = .idle ∧ s'.queue = [] ∧ s'.guard = .live) ∨ s'.consumer = .done) := by
  induction n generalizing s with
  | zero =>
    rcases consumer_step enabled s hd with ⟨a, s', ha, hs⟩ | h | h
    · have := work_step hs ha; omega
    · exact ⟨[], s, .nil, by simp, hd, Or.inl h⟩
    · exact ⟨[], s, .nil, by simp, hd, Or.inr h⟩
  | succ n ih =>
    rcases consumer_step enabled s hd with ⟨a, s', ha, hs⟩ | h | h
    · have hw := work_step hs ha
      have hd' : s'.consumer ≠ .dead := by cases hs <;> simp_all [Act.ofConsumer]
      obtain ⟨tr, s2, h1, h2, h3, h4⟩ := ih s' (by omega) hd'
      refine ⟨a :: tr, s2, (Run.single hs).trans h1, ?_, h3, h4⟩
      intro b hb
      rcases List.mem_cons.mp hb with rfl | hb
      · exact ha
      · exact h2 b hb
    · exact ⟨[], s, .nil, by simp, hd, Or.inl h⟩
    · exact ⟨[], s, .nil, by simp, hd, Or.inr h⟩

theorem sends_consumer {tr : List (Act R)} (h : ∀ a ∈ tr, a.ofConsumer = true) : sends tr = [] := by
  induction tr with
  | nil => rfl
  | cons a tr ih =>
    have h1 := h a (List.mem_cons_self ..)
    have h2 := ih (fun b hb => h b (List.mem_cons_of_mem _ hb))
    cases a <;> simp_all [sends, Act.ofConsumer]

/-! ## C66 -/

/-- **C66** In every run of any number of threads, the records handed to the appenders are a prefix of those sent, in the order of
sending; what a thread sends is a prefix of what its program logs (at an enabled level), so each thread's records keep their order and
none is doubled or invented; and unless the consumer thread panics, the consumer alone can always go on to hand over all that was sent. -/
theorem C66_order (enabled : R → Bool) (progs : Nat → List (Call R)) (tr : List (Act R)) (s : Sys R)
    (h : Run enabled (start progs) tr s) :
    writes tr <+: sends tr ∧
    (∀ t, byThread t (sends tr) <+: logged enabled (progs t) ∧ byThread t (writes tr) <+: logged enabled (progs t)) ∧
    (Act.crash ∉ tr → ∃ tr' s', Run enabled s tr' s' ∧ (∀ a ∈ tr', a.ofConsumer = true) ∧ writes (tr ++ tr') = sends tr) := by
  have hinv := inv_run enabled progs h
  have hw : writes tr <+: sends tr := by
    by_cases hd : s.consumer = .dead
    · exact (hinv.dead hd).1
    · rw [hinv.flow hd, List.append_assoc]; exact List.prefix_append _ _
  have ht : ∀ t, byThread t (sends tr) <+: logged enabled (progs t) := by
    intro t
    rw [← hinv.threads t]
    exact List.prefix_append _ _
  refine ⟨hw, fun t => ⟨ht t, (byThread_prefix t hw).trans (ht t)⟩, ?_⟩
  intro hc
  have hd : s.consumer ≠ .dead := fun h' => hc ((dead_iff enabled progs h).mp h')
  obtain ⟨tr', s', h1, h2, h3, h4⟩ := consumer_settles enabled (work s) s (Nat.le_refl _) hd
  refine ⟨tr', s', h1, h2, ?_⟩
  have hinv' := inv_run enabled progs (h.trans h1)
  have hf := hinv'.flow h3
  rw [sends_append, sends_consumer h2, List.append_nil] at hf
  have hq : s'.queue = [] ∧ inHand s'.consumer = [] := by
    rcases h4 with ⟨a, b, _⟩ | a
    · exact ⟨b, by rw [a]; rfl⟩
    · exact ⟨(hinv'.closing (Or.inr (Or.inr a))).2, by rw [a]; rfl⟩
  rw [hf, hq.1, hq.2]
  simp [items]

/-- Two threads, interleaved. -/
example : ∃ s, Run (fun _ : Nat => true) (start (fun t => if t < 2 then [.log (10 + t), .flush] else []))
    [.send 1 11, .send 0 10, .recv, .flushCall 0 0, .write 1 11] s := by
  refine run_cons (.send _ 1 11 _ rfl rfl rfl rfl (by simp [start])) ?_
  refine run_cons (.send _ 0 10 _ rfl rfl rfl rfl (by simp [start])) ?_
  refine run_cons (.recvItem _ 1 11 _ rfl rfl) ?_
  refine run_cons (.flushCall _ 0 _ rfl rfl rfl (by simp)) ?_
  exact run_cons (.write _ 1 11 rfl) ⟨_, .nil⟩

/-! ## C67 -/

/-- A run cut at a flush call, with one more action. -/
theorem split_snoc {tr : List (Act R)} {a : Act R} {tr1 tr2 : List (Act R)} {t n : Nat}
    (h : tr ++ [a] = tr1 ++ .flushCall t n :: tr2) :
    (a = .flushCall t n ∧ tr1 = tr) ∨ ∃ tr2', tr = tr1 ++ .flushCall t n :: tr2' := by
  rcases List.eq_nil_or_concat tr2 with rfl | ⟨l, b, rfl⟩
  · left
    have := List.append_inj' h rfl
    exact ⟨by simpa using this.2, this.1.symm⟩
  · right
    rw [List.concat_eq_append, ← List.cons_append, ← List.append_assoc] at h
    exact ⟨l, (List.append_inj' h rfl).1⟩

theorem flushedIn_mono {l : List (Nat × R)} {tr : List (Act R)} (a : Act R) (h : FlushedIn l tr) : FlushedIn l (tr ++ [a]) := by
  obtain ⟨x, y, rfl, h2⟩ := h
  exact ⟨x, y ++ [a], by simp, h2⟩

/-- The barrier, as an invariant. -/
structure Barrier (tr : List (Act R)) (s : Sys R) : Prop where
  queued : ∀ q1 q2 n, s.queue = q1 ++ .flush n :: q2 → ∀ tr1 t tr2, tr = tr1 ++ .flushCall t n :: tr2 →
    sends tr1 <+: writes tr ++ inHand s.consumer ++ items q1
  flushing : ∀ n, s.consumer = .flushing n → ∀ tr1 t tr2, tr = tr1 ++ .flushCall t n :: tr2 → sends tr1 <+: writes tr
  storing : ∀ n, s.consumer = .storing n → ∀ tr1 t tr2, tr = tr1 ++ .flushCall t n :: tr2 → FlushedIn (sends tr1) tr
  set : ∀ n, s.locks n = true → ∀ tr1 t tr2, tr = tr1 ++ .flushCall t n :: tr2 → FlushedIn (sends tr1) tr

/-- Actions that change neither queue, consumer nor flags. -/
theorem Barrier.keep {tr : List (Act R)} {s s' : Sys R} (a : Act R) (hb : Barrier tr s) (h1 : s'.queue = s.queue)
    (h2 : s'.consumer = s.consumer) (h3 : s'.locks = s.locks) (ha : ∀ t n, a ≠ .flushCall t n) (hw : writes [a] = []) :
    Barrier (tr ++ [a]) s' := by
  have hsp : ∀ {tr1 tr2 : List (Act R)} {t n : Nat}, tr ++ [a] = tr1 ++ .flushCall t n :: tr2 → ∃ tr2', tr = tr1 ++ .flushCall t n :: tr2' := by
    intro tr1 tr2 t n h
    rcases split_snoc h with h | h
    · exact absurd h.1 (ha t n)
    · exact h
  constructor
  · intro q1 q2 n hq tr1 t tr2 htr
    obtain ⟨tr2', h⟩ := hsp htr
    rw [writes_append, hw, List.append_nil, h2]
    exact hb.queued q1 q2 n (by rw [← h1]; exact hq) tr1 t tr2' h
  · intro n hn tr1 t tr2 htr
    obtain ⟨tr2', h⟩ := hsp htr
    rw [writes_append, hw, List.append_nil]
    exact hb.flushing n (by rw [← h2]; exact hn) tr1 t tr2' h
  · intro n hn tr1 t tr2 htr
    obtain ⟨tr2', h⟩ := hsp htr
    exact flushedIn_mono a (hb.storing n (by rw [← h2]; exact hn) tr1 t tr2' h)
  · intro n hn tr1 t tr2 htr
    obtain ⟨tr2', h⟩ := hsp htr
    exact flushedIn_mono a (hb.set n (by rw [← h3]; exact hn) tr1 t tr2' h)

theorem barrier_run (enabled : R → Bool) (progs : Nat → List (Call R)) {tr : List (Act R)} {s : Sys R}
    (h : Run enabled (start progs) tr s) : Barrier tr s := by
  induction h with
  | nil =>
    constructor
    · intro q1 q2 n hq; simp [start] at hq
    · intro n hn; simp [start] at hn
    · intro n hn; simp [start] at hn
    · intro n hn; simp [start] at hn
  | @snoc tr s1 s2 a hrun hs hb =>
    have hinv := inv_run enabled progs hrun
    -- cutting at an action that is no flush call
    have hsp : (∀ t n, a ≠ .flushCall t n) → ∀ {tr1 tr2 : List (Act R)} {t n : Nat}, tr ++ [a] = tr1 ++ .flushCall t n :: tr2 →
        ∃ tr2', tr = tr1 ++ .flushCall t n :: tr2' := by
      intro ha tr1 tr2 t n h
      rcases split_snoc h with h | h
      · exact absurd h.1 (ha t n)
      · exact h
    cases hs with
    | send t r rest h1 h2 h3 h4 h5 =>
      constructor
      · intro q1 q2 n hq tr1 t' tr2 htr
        obtain ⟨tr2', h⟩ := hsp (by simp) htr
        simp only [writes_append, writes, List.append_nil]
        simp only at hq
        rcases List.eq_nil_or_concat q2 with rfl | ⟨l, b, rfl⟩
        · have := (List.append_inj' hq rfl).2
          simp at this
        · rw [List.concat_eq_append, ← List.cons_append, ← List.append_assoc] at hq
          exact hb.queued q1 l n (List.append_inj' hq rfl).1 tr1 t' tr2' h
      · intro n hn tr1 t' tr2 htr
        obtain ⟨tr2', h⟩ := hsp (by simp) htr
        simp only [writes_append, writes, List.append_nil]
        exact hb.flushing n hn tr1 t' tr2' h
      · intro n hn tr1 t' tr2 htr
        obtain ⟨tr2', h⟩ := hsp (by simp) htr
        exact flushedIn_mono _ (hb.storing n hn tr1 t' tr2' h)
      · intro n hn tr1 t' tr2 htr
        obtain ⟨tr2', h⟩ := hsp (by simp) htr
        exact flushedIn_mono _ (hb.set n hn tr1 t' tr2' h)
    | skip t r rest h1 h2 h3 h4 => exact hb.keep _ rfl rfl rfl (by simp) rfl
    | logPanic t r rest h1 h2 h3 h4 h5 => exact hb.keep _ rfl rfl rfl (by simp) rfl
    | flushPanic t rest h1 h2 h3 h4 => exact hb.keep _ rfl rfl rfl (by simp) rfl
    | flushCall t rest h1 h2 h3 h4 =>
      have hold : ∀ {n : Nat}, n < s1.nlocks → ∀ {tr1 tr2 : List (Act R)} {t' : Nat},
          tr ++ [Act.flushCall t s1.nlocks] = tr1 ++ .flushCall t' n :: tr2 → ∃ tr2', tr = tr1 ++ .flushCall t' n :: tr2' := by
        intro n hn tr1 tr2 t' h
        rcases split_snoc h with h | h
        · simp only [Act.flushCall.injEq] at h; omega
        · exact h
      constructor
      · intro q1 q2 n hq tr1 t' tr2 htr
        simp only [writes_append, writes, List.append_nil]
        simp only at hq
        rcases List.eq_nil_or_concat q2 with rfl | ⟨l, b, rfl⟩
        · have hq' := List.append_inj' hq rfl
          simp only [List.cons.injEq, Msg.flush.injEq, and_true] at hq'
          obtain ⟨rfl, rfl⟩ := hq'
          rcases split_snoc htr with ⟨_, rfl⟩ | ⟨tr2', h⟩
          · rw [hinv.flow h4]
            exact List.prefix_refl _
          · have := hinv.calls t' s1.nlocks (by rw [h]; simp)
            omega
        · rw [List.concat_eq_append, ← List.cons_append, ← List.append_assoc] at hq
          have hq' := (List.append_inj' hq rfl).1
          obtain ⟨tr2', h⟩ := hold (hinv.queued n (by rw [hq']; simp)) htr
          exact hb.queued q1 l n hq' tr1 t' tr2' h
      · intro n hn tr1 t' tr2 htr
        obtain ⟨tr2', h⟩ := hold (hinv.working n (Or.inl hn)) htr
        simp only [writes_append, writes, List.append_nil]
        exact hb.flushing n hn tr1 t' tr2' h
      · intro n hn tr1 t' tr2 htr
        obtain ⟨tr2', h⟩ := hold (hinv.working n (Or.inr hn)) htr
        exact flushedIn_mono _ (hb.storing n hn tr1 t' tr2' h)
      · intro n hn tr1 t' tr2 htr
        obtain ⟨tr2', h⟩ := hold (hinv.set n hn) htr
        exact flushedIn_mono _ (hb.set n hn tr1 t' tr2' h)
    | flushRet t n h1 h2 => exact hb.keep _ rfl rfl rfl (by simp) rfl
    | recvItem t r q h1 h2 =>
      constructor
      · intro q1 q2 n hq tr1 t' tr2 htr
        obtain ⟨tr2', h⟩ := hsp (by simp) htr
        have := hb.queued (.item t r :: q1) q2 n (by rw [h2]; simp only at hq; rw [hq]; rfl) tr1 t' tr2' h
        simpa [writes_append, writes, h1, inHand, items] using this
      · simp
      · simp
      · intro n hn tr1 t' tr2 htr
        obtain ⟨tr2', h⟩ := hsp (by simp) htr
        exact flushedIn_mono _ (hb.set n hn tr1 t' tr2' h)
    | recvFlush n q h1 h2 =>
      constructor
      · intro q1 q2 m hq tr1 t' tr2 htr
        obtain ⟨tr2', h⟩ := hsp (by simp) htr
        have := hb.queued (.flush n :: q1) q2 m (by rw [h2]; simp only at hq; rw [hq]; rfl) tr1 t' tr2' h
        simpa [writes_append, writes, h1, inHand, items] using this
      · intro m hm tr1 t' tr2 htr
        obtain ⟨tr2', h⟩ := hsp (by simp) htr
        simp only [Consuming.flushing.injEq] at hm
        subst hm
        have := hb.queued [] q n (by rw [h2]; rfl) tr1 t' tr2' h
        simpa [writes_append, writes, h1, inHand, items] using this
      · simp
      · intro m hn tr1 t' tr2 htr
        obtain ⟨tr2', h⟩ := hsp (by simp) htr
        exact flushedIn_mono _ (hb.set m hn tr1 t' tr2' h)
    | write t r h1 =>
      constructor
      · intro q1 q2 n hq tr1 t' tr2 htr
        obtain ⟨tr2', h⟩ := hsp (by simp) htr
        have := hb.queued q1 q2 n hq tr1 t' tr2' h
        simpa [writes_append, writes, h1, inHand, items] using this
      · simp
      · simp
      · intro n hn tr1 t' tr2 htr
        obtain ⟨tr2', h⟩ := hsp (by simp) htr
        exact flushedIn_mono _ (hb.set n hn tr1 t' tr2' h)
    | flush n h1 =>
      constructor
      · intro q1 q2 m hq tr1 t' tr2 htr
        obtain ⟨tr2', h⟩ := hsp (by simp) htr
        have := hb.queued q1 q2 m hq tr1 t' tr2' h
        simpa [writes_append, writes, h1, inHand, items] using this
      · simp
      · intro m hm tr1 t' tr2 htr
        obtain ⟨tr2', h⟩ := hsp (by simp) htr
        simp only [Consuming.storing.injEq] at hm
        subst hm
        exact ⟨tr, [], by simp, hb.flushing n h1 tr1 t' tr2' h⟩
      · intro m hn tr1 t' tr2 htr
        obtain ⟨tr2', h⟩ := hsp (by simp) htr
        exact flushedIn_mono _ (hb.set m hn tr1 t' tr2' h)
    | store n h1 =>
      constructor
      · intro q1 q2 m hq tr1 t' tr2 htr
        obtain ⟨tr2', h⟩ := hsp (by simp) htr
        have := hb.queued q1 q2 m hq tr1 t' tr2' h
        simpa [writes_append, writes, h1, inHand, items] using this
      · simp
      · simp
      · intro m hn tr1 t' tr2 htr
        obtain ⟨tr2', h⟩ := hsp (by simp) htr
        simp only [update] at hn
        split at hn
        · next hm => subst hm; exact flushedIn_mono _ (hb.storing m h1 tr1 t' tr2' h)
        · exact flushedIn_mono _ (hb.set m hn tr1 t' tr2' h)
    | closed h1 h2 h3 =>
      constructor
      · intro q1 q2 m hq; simp only at hq; rw [h2] at hq; simp at hq
      · simp
      · simp
      · intro m hn tr1 t' tr2 htr
        obtain ⟨tr2', h⟩ := hsp (by simp) htr
        exact flushedIn_mono _ (hb.set m hn tr1 t' tr2' h)
    | signal h1 =>
      constructor
      · intro q1 q2 m hq tr1 t' tr2 htr
        obtain ⟨tr2', h⟩ := hsp (by simp) htr
        have := hb.queued q1 q2 m hq tr1 t' tr2' h
        simpa [writes_append, writes, h1, inHand, items] using this
      · simp
      · simp
      · intro m hn tr1 t' tr2 htr
        obtain ⟨tr2', h⟩ := hsp (by simp) htr
        exact flushedIn_mono _ (hb.set m hn tr1 t' tr2' h)
    | lastFlush h1 =>
      constructor
      · intro q1 q2 m hq tr1 t' tr2 htr
        obtain ⟨tr2', h⟩ := hsp (by simp) htr
        have := hb.queued q1 q2 m hq tr1 t' tr2' h
        simpa [writes_append, writes, h1, inHand, items] using this
      · simp
      · simp
      · intro m hn tr1 t' tr2 htr
        obtain ⟨tr2', h⟩ := hsp (by simp) htr
        exact flushedIn_mono _ (hb.set m hn tr1 t' tr2' h)
    | crash t r h1 =>
      constructor
      · simp
      · simp
      · simp
      · intro m hn tr1 t' tr2 htr
        obtain ⟨tr2', h⟩ := hsp (by simp) htr
        exact flushedIn_mono _ (hb.set m hn tr1 t' tr2' h)
    | crashFlush m0 h1 =>
      constructor
      · simp
      · simp
      · simp
      · intro m hn tr1 t' tr2 htr
        obtain ⟨tr2', h⟩ := hsp (by simp) htr
        exact flushedIn_mono _ (hb.set m hn tr1 t' tr2' h)
    | drop h1 => exact hb.keep _ rfl rfl rfl (by simp) rfl
    | dropRet h1 h2 => exact hb.keep _ rfl rfl rfl (by simp) rfl

/-- The part of a run before one of its actions. -/
theorem Run.cut {enabled : R → Bool} {s0 s : Sys R} {tr : List (Act R)} (h : Run enabled s0 tr s) (a : List (Act R)) (x : Act R)
    (b : List (Act R)) (he : tr = a ++ x :: b) : ∃ s1 s2, Run enabled s0 a s1 ∧ Step enabled s1 x s2 ∧ Run enabled s2 b s := by
  induction h generalizing b with
  | nil => simp at he
  | @snoc tr' s1 s2 y hrun hs ih =>
    rcases List.eq_nil_or_concat b with rfl | ⟨l, z, rfl⟩
    · have := List.append_inj' he rfl
      obtain ⟨rfl, h2⟩ := this
      simp only [List.cons.injEq, and_true] at h2
      subst h2
      exact ⟨s1, s2, hrun, hs, .nil⟩
    · rw [List.concat_eq_append, ← List.cons_append, ← List.append_assoc] at he
      have := List.append_inj' he rfl
      simp only [List.cons.injEq, and_true] at this
      obtain ⟨h1, rfl⟩ := this
      obtain ⟨u, v, g1, g2, g3⟩ := ih l h1
      exact ⟨u, v, g1, g2, by rw [List.concat_eq_append]; exact .snoc g3 hs⟩

/-- **C67** Whenever a flush call returns, every record sent by any thread before the call has been handed to the appenders, and all
appenders have been flushed after that. -/
theorem C67_barrier (enabled : R → Bool) (progs : Nat → List (Call R)) (tr1 tr2 : List (Act R)) (t n : Nat) (s : Sys R)
    (h : Run enabled (start progs) (tr1 ++ .flushCall t n :: tr2 ++ [.flushRet t n]) s) :
    FlushedIn (sends tr1) (tr1 ++ .flushCall t n :: tr2) := by
  obtain ⟨s1, s2, h1, h2, _⟩ := h.cut (tr1 ++ .flushCall t n :: tr2) (.flushRet t n) [] rfl
  have hb := barrier_run enabled progs h1
  cases h2 with
  | flushRet _ _ g1 g2 => exact hb.set n g2 tr1 t tr2 rfl

/-- A flush that returns, with a record of another thread before it. -/
example : ∃ s, Run (fun _ : Nat => true) (start (fun t => if t = 0 then [.flush] else if t = 1 then [.log 5] else []))
    ([.send 1 5] ++ .flushCall 0 0 :: [.recv, .write 1 5, .recv, .flush, .store 0] ++ [.flushRet 0 0]) s := by
  refine run_cons (.send _ 1 5 _ rfl rfl rfl rfl (by simp [start])) ?_
  refine run_cons (.flushCall _ 0 _ rfl rfl rfl (by simp [start])) ?_
  refine run_cons (.recvItem _ 1 5 _ rfl rfl) ?_
  refine run_cons (.write _ 1 5 rfl) ?_
  refine run_cons (.recvFlush _ 0 _ rfl rfl) ?_
  refine run_cons (.flush _ 0 rfl) ?_
  refine run_cons (.store _ 0 rfl) ?_
  exact run_cons (.flushRet _ 0 0 rfl rfl) ⟨_, .nil⟩

/-! ## C68 -/

/-- **C68**, negation for the code as written: whatever is logged, dropping the guard can return with the record not flushed. The
process may exit then. `C68_lost_violated` says what is in the file. -/
theorem C68_early_violated (enabled : R → Bool) (progs : Nat → List (Call R)) (r : R) (rest : List (Call R)) (hr : enabled r = true)
    (h0 : progs 0 = .log r :: rest) :
    ∃ tr s, Run enabled (start progs) (tr ++ [.dropRet]) s ∧ sends tr = [(0, r)] ∧ ¬ FlushedIn (sends tr) tr ∧
      ∀ a ∈ tr, a = .flush → False := by
  refine ⟨[.send 0 r, .drop, .recv, .write 0 r, .closed, .signal], ?_⟩
  have hrun : ∃ s, Run enabled (start progs) ([.send 0 r, .drop, .recv, .write 0 r, .closed, .signal] ++ [.dropRet]) s := by
    refine run_cons (.send _ 0 r rest rfl rfl h0 hr (by simp [start])) ?_
    refine run_cons (.drop _ rfl) ?_
    refine run_cons (.recvItem _ 0 r _ rfl rfl) ?_
    refine run_cons (.write _ 0 r rfl) ?_
    refine run_cons (.closed _ rfl rfl (by simp)) ?_
    refine run_cons (.signal _ rfl) ?_
    exact run_cons (.dropRet _ rfl rfl) ⟨_, .nil⟩
  obtain ⟨s, hs⟩ := hrun
  refine ⟨s, hs, rfl, ?_, by simp⟩
  rintro ⟨a, b, he, _⟩
  have : Act.flush ∈ ([.send 0 r, .drop, .recv, .write 0 r, .closed, .signal] : List (Act R)) := by rw [he]; simp
  simp at this

/-- **C68**, what holds: when dropping the guard returns, every record sent has been handed to the appenders; and all is flushed once
the consumer has flushed after setting the signal. Missing from C68: `drop` does not wait for that flush. -/
theorem C68_handed_partial (enabled : R → Bool) (progs : Nat → List (Call R)) (tr : List (Act R)) (s : Sys R)
    (h : Run enabled (start progs) tr s) :
    (.dropRet ∈ tr → writes tr = sends tr) ∧
    (∀ a b, tr = a ++ .signal :: b → .flush ∈ b → FlushedIn (sends tr) tr) := by
  have key : ∀ {tr : List (Act R)} {s : Sys R}, Run enabled (start progs) tr s →
      s.consumer = .closing ∨ s.consumer = .lastFlush ∨ s.consumer = .done → writes tr = sends tr := by
    intro tr s h hc
    have hinv := inv_run enabled progs h
    have hd : s.consumer ≠ .dead := by rcases hc with h | h | h <;> rw [h] <;> simp
    have hi : inHand s.consumer = [] := by rcases hc with h | h | h <;> rw [h] <;> rfl
    rw [hinv.flow hd, hi, (hinv.closing hc).2]
    simp [items]
  have sig : ∀ {tr : List (Act R)} {s : Sys R}, Run enabled (start progs) tr s → (.dropRet ∈ tr → s.signal = true) ∧
      (.signal ∈ tr → s.signal = true) ∧ (s.consumer = .done → FlushedIn (sends tr) tr) := by
    intro tr s h
    induction h with
    | nil => simp [start]
    | @snoc tr s1 s2 a hrun hs ih =>
      obtain ⟨i1, i2, i3⟩ := ih
      cases hs with
      | lastFlush h1 =>
        refine ⟨?_, ?_, ?_⟩
        · intro h; exact i1 (by simpa using h)
        · intro h; exact i2 (by simpa using h)
        · intro _
          refine ⟨tr, [], rfl, ?_⟩
          rw [sends_append, ← key hrun (Or.inr (Or.inl h1))]
          simp [sends]
      | send t r rest g1 g2 g3 g4 g5 =>
        refine ⟨?_, ?_, ?_⟩
        · intro h; exact i1 (by simpa using h)
        · intro h; exact i2 (by simpa using h)
        · intro hd; exact absurd g1 ((inv_run enabled progs hrun).closing (Or.inr (Or.inr hd))).1
      | _ =>
        refine ⟨?_, ?_, ?_⟩
        · intro h; first | (exact i1 (by simpa using h)) | assumption | rfl
        · intro h; first | (exact i2 (by simpa using h)) | assumption | rfl
        · intro hd
          first
          | (exfalso; revert hd; simp; done)
          | (rw [sends_append]; simp only [sends, List.append_nil]; exact flushedIn_mono _ (i3 hd))
  obtain ⟨s1, s2, s3⟩ := sig h
  have hinv := inv_run enabled progs h
  refine ⟨?_, ?_⟩
  · intro hm
    exact key h (Or.inr (hinv.signal (s1 hm)))
  · intro a b he hf
    -- the only flush after the signal is the last one
    obtain ⟨u, v, h1, h2, h3⟩ := h.cut a .signal b he
    have hv : v.consumer = .lastFlush := by cases h2; rfl
    have hafter : ∀ {tr : List (Act R)} {w : Sys R}, Run enabled v tr w → (w.consumer = .lastFlush ∧ Act.flush ∉ tr) ∨ w.consumer = .done := by
      intro tr w hr
      induction hr with
      | nil => exact Or.inl ⟨hv, by simp⟩
      | snoc _ hs ih => cases hs <;> simp_all
    rcases hafter h3 with h4 | h4
    · exact absurd hf h4.2
    · exact s3 h4

/-! ## C92: flush and shutdown come to an end -/

/-- Flush flags: set, or on their way; and threads wait exactly between a flush call and its return. -/
theorem locks_run (enabled : R → Bool) (progs : Nat → List (Call R)) {tr : List (Act R)} {s : Sys R}
    (h : Run enabled (start progs) tr s) :
    (s.consumer ≠ .dead → ∀ n, n < s.nlocks → s.locks n = true ∨ Msg.flush n ∈ s.queue ∨ s.consumer = .flushing n ∨ s.consumer = .storing n) ∧
    (∀ t n, Act.flushCall t n ∈ tr → Act.flushRet t n ∉ tr → s.phases t = .waiting n) := by
  induction h with
  | nil => simp [start]
  | @snoc tr s1 s2 a hrun hs ih =>
    obtain ⟨i1, i2⟩ := ih
    have hinv := inv_run enabled progs hrun
    constructor
    · intro hd n hn
      cases hs with
      | flushCall t rest h1 h2 h3 h4 =>
        simp only at hn ⊢
        by_cases he : n = s1.nlocks
        · subst he; right; left; simp
        · rcases i1 h4 n (by omega) with h | h | h
          · exact Or.inl h
          · exact Or.inr (Or.inl (List.mem_append_left _ h))
          · exact Or.inr (Or.inr h)
      | send t r rest h1 h2 h3 h4 h5 =>
        rcases i1 h5 n hn with h | h | h
        · exact Or.inl h
        · exact Or.inr (Or.inl (List.mem_append_left _ h))
        · exact Or.inr (Or.inr h)
      | recvItem t r q h1 h2 =>
        have := i1 (by simp [h1]) n hn
        simpa [h1, h2] using this
      | recvFlush m q h1 h2 =>
        have := i1 (by simp [h1]) n hn
        simp only [h1, h2, List.mem_cons, Msg.flush.injEq, reduceCtorEq, or_self, or_false] at this
        simp only [Consuming.flushing.injEq, reduceCtorEq, or_false]
        rcases this with h | h | h
        · exact Or.inl h
        · exact Or.inr (Or.inr h.symm)
        · exact Or.inr (Or.inl h)
      | flush m h1 =>
        have := i1 (by simp [h1]) n hn
        simpa [h1] using this
      | store m h1 =>
        have := i1 (by simp [h1]) n hn
        simp only [h1, reduceCtorEq, false_or, Consuming.storing.injEq] at this
        simp only [update, reduceCtorEq, or_self, or_false]
        by_cases he : n = m
        · simp [he]
        · simp only [he, ↓reduceIte]
          rcases this with h | h | h
          · exact Or.inl h
          · exact Or.inr h
          · exact absurd h.symm he
      | write t r h1 =>
        have := i1 (by simp [h1]) n hn
        simpa [h1] using this
      | closed h1 h2 h3 =>
        have := i1 (by simp [h1]) n hn
        simpa [h1] using this
      | signal h1 =>
        have := i1 (by simp [h1]) n hn
        simpa [h1] using this
      | lastFlush h1 =>
        have := i1 (by simp [h1]) n hn
        simpa [h1] using this
      | crash t r h1 => simp at hd
      | crashFlush m0 h1 => simp at hd
      | _ => exact i1 hd n hn
    · intro t n hc hr
      have hr' : Act.flushRet t n ∉ tr := fun h => hr (List.mem_append_left _ h)
      rcases List.mem_append.mp hc with hc' | hc'
      · have hw := i2 t n hc' hr'
        cases hs with
        | flushCall t' rest h1 h2 h3 h4 =>
          simp only [update]
          split
          · next he => subst he; rw [hw] at h2; cases h2
          · exact hw
        | logPanic t' r rest h1 h2 h3 h4 h5 =>
          simp only [update]
          split
          · next he => subst he; rw [hw] at h2; cases h2
          · exact hw
        | flushPanic t' rest h1 h2 h3 h4 =>
          simp only [update]
          split
          · next he => subst he; rw [hw] at h2; cases h2
          · exact hw
        | flushRet t' m h1 h2 =>
          simp only [update]
          split
          · next he =>
            subst he
            rw [hw] at h1
            simp only [Phase.waiting.injEq] at h1
            subst h1
            exact absurd (List.mem_append_right _ (List.mem_singleton.mpr rfl)) hr
          · exact hw
        | _ => exact hw
      · have ha := List.mem_singleton.mp hc'
        cases hs with
        | flushCall t' rest h1 h2 h3 h4 =>
          simp only [Act.flushCall.injEq] at ha
          obtain ⟨rfl, rfl⟩ := ha
          simp [update]
        | _ => cases ha

/-- **C92** As long as the consumer thread does not panic, flush and shutdown come to an end: from every reachable state the consumer
can only take a bounded number of actions before the other threads act again, and when it can take none, every flush call that has not
returned can return, and so can the drop of the guard. -/
theorem C92_ends (enabled : R → Bool) (progs : Nat → List (Call R)) (tr : List (Act R)) (s : Sys R)
    (h : Run enabled (start progs) tr s) (hcrash : Act.crash ∉ tr) :
    (∃ bound, ∀ tr' s', Run enabled s tr' s' → (∀ a ∈ tr', a.ofConsumer = true) → tr'.length ≤ bound) ∧
    ((∀ a s', Step enabled s a s' → a.ofConsumer = false) →
      (∀ t n, .flushCall t n ∈ tr → .flushRet t n ∉ tr → ∃ s', Step enabled s (.flushRet t n) s') ∧
      (.drop ∈ tr → .dropRet ∉ tr → ∃ s', Step enabled s .dropRet s')) := by
  have hd : s.consumer ≠ .dead := fun h' => hcrash ((dead_iff enabled progs h).mp h')
  constructor
  · refine ⟨work s, fun tr' s' hr ha => ?_⟩
    have := work_run hr ha
    omega
  · intro hno
    have hstop : (s.consumer = .idle ∧ s.queue = [] ∧ s.guard = .live) ∨ s.consumer = .done := by
      rcases consumer_step enabled s hd with ⟨a, s', ha, hs⟩ | h | h
      · have := hno a s' hs; rw [ha] at this; cases this
      · exact Or.inl h
      · exact Or.inr h
    have hinv := inv_run enabled progs h
    obtain ⟨l1, l2⟩ := locks_run enabled progs h
    have hguard : ∀ {tr : List (Act R)} {s : Sys R}, Run enabled (start progs) tr s →
        (.drop ∈ tr → .dropRet ∉ tr → s.guard = .waiting) ∧ (s.consumer = .done → s.signal = true) ∧
        (s.consumer = .lastFlush → s.signal = true) := by
      intro tr s h
      induction h with
      | nil => simp [start]
      | snoc _ hs ih => cases hs <;> simp_all
    have hq : s.queue = [] := by
      rcases hstop with h | h
      · exact h.2.1
      · exact (hinv.closing (Or.inr (Or.inr h))).2
    constructor
    · intro t n hc hr
      have hw := l2 t n hc hr
      have hl := l1 hd n (hinv.waiting t n hw)
      have : s.locks n = true := by
        rcases hl with h | h | h | h
        · exact h
        · rw [hq] at h; cases h
        · rcases hstop with h' | h'
          · rw [h'.1] at h; cases h
          · rw [h'] at h; cases h
        · rcases hstop with h' | h'
          · rw [h'.1] at h; cases h
          · rw [h'] at h; cases h
      exact ⟨_, .flushRet s t n hw this⟩
    · intro hdrop hret
      have hw := (hguard h).1 hdrop hret
      have hs : s.signal = true := by
        rcases hstop with h' | h'
        · rw [hw] at h'; cases h'.2.2
        · exact (hguard h).2.1 h'
      exact ⟨_, .dropRet s hw hs⟩

/-- A reachable state in which the consumer can do nothing and a flush call can return. -/
example : ∃ s, Run (fun _ : Nat => true) (start (fun t => if t = 0 then [.flush] else [])) [.flushCall 0 0, .recv, .flush, .store 0] s := by
  refine run_cons (.flushCall _ 0 _ rfl rfl rfl (by simp [start])) ?_
  refine run_cons (.recvFlush _ 0 _ rfl rfl) ?_
  refine run_cons (.flush _ 0 rfl) ?_
  exact run_cons (.store _ 0 rfl) ⟨_, .nil⟩

/-! ## C93: a panic of the consumer -/

/-- **C93**, negation for the code as written: once the consumer thread has panicked, every thread that logs an enabled record or
flushes panics too, no flush that was waiting returns any more, and neither does dropping the guard. -/
theorem C93_spreads_violated (enabled : R → Bool) (progs : Nat → List (Call R)) (tr : List (Act R)) (s : Sys R)
    (h : Run enabled (start progs) tr s) (hcrash : Act.crash ∈ tr) :
    (∀ t r rest a s', s.phases t = .ready → s.progs t = .log r :: rest → enabled r = true → Step enabled s a s' →
      (s'.progs t ≠ s.progs t ∨ s'.phases t ≠ s.phases t) → a = .panic t) ∧
    (∀ t rest a s', s.phases t = .ready → s.progs t = .flush :: rest → Step enabled s a s' →
      (s'.progs t ≠ s.progs t ∨ s'.phases t ≠ s.phases t) → a = .panic t) ∧
    (∀ tr' s', Run enabled s tr' s' → writes tr' = [] ∧ .dropRet ∉ tr' ∧ ∀ t n, s.locks n = false → .flushRet t n ∉ tr') := by
  have hd : s.consumer = .dead := (dead_iff enabled progs h).mpr hcrash
  have hsig := ((inv_run enabled progs h).dead hd).2
  refine ⟨?_, ?_, ?_⟩
  · intro t r rest a s' h1 h2 h3 hs hch
    cases hs with
    | skip t' r' rest' g1 g2 g3 g4 =>
      simp only [update] at hch
      by_cases ht : t = t'
      · subst ht
        rw [h2] at g3
        simp only [List.cons.injEq, Call.log.injEq] at g3
        rw [← g3.1, h3] at g4
        cases g4
      · simp [ht] at hch
    | logPanic t' r' rest' g1 g2 g3 g4 g5 =>
      simp only [update] at hch
      by_cases ht : t = t'
      · rw [ht]
      · simp [ht] at hch
    | flushPanic t' rest' g1 g2 g3 g4 =>
      simp only [update] at hch
      by_cases ht : t = t'
      · rw [ht]
      · simp [ht] at hch
    | flushRet t' n g1 g2 =>
      simp only [update] at hch
      by_cases ht : t = t'
      · subst ht; rw [h1] at g1; cases g1
      · simp [ht] at hch
    | _ => simp_all
  · intro t rest a s' h1 h2 hs hch
    cases hs with
    | skip t' r' rest' g1 g2 g3 g4 =>
      simp only [update] at hch
      by_cases ht : t = t'
      · subst ht
        rw [h2] at g3
        simp at g3
      · simp [ht] at hch
    | logPanic t' r' rest' g1 g2 g3 g4 g5 =>
      simp only [update] at hch
      by_cases ht : t = t'
      · rw [ht]
      · simp [ht] at hch
    | flushPanic t' rest' g1 g2 g3 g4 =>
      simp only [update] at hch
      by_cases ht : t = t'
      · rw [ht]
      · simp [ht] at hch
    | flushRet t' n g1 g2 =>
      simp only [update] at hch
      by_cases ht : t = t'
      · subst ht; rw [h1] at g1; cases g1
      · simp [ht] at hch
    | _ => simp_all
  · intro tr' s' hr
    have : s'.consumer = .dead ∧ s'.signal = false ∧ s'.locks = s.locks ∧ writes tr' = [] ∧ .dropRet ∉ tr' ∧
        ∀ t n, s.locks n = false → .flushRet t n ∉ tr' := by
      induction hr with
      | nil => exact ⟨hd, hsig, rfl, rfl, by simp, by simp⟩
      | snoc _ hs ih =>
        obtain ⟨i1, i2, i3, i4, i5, i6⟩ := ih
        cases hs with
        | flushRet t n g1 g2 =>
          refine ⟨i1, i2, i3, by simp [writes_append, i4, writes], by simpa using i5, ?_⟩
          intro t' m hm
          simp only [List.mem_append, List.mem_singleton, Act.flushRet.injEq, not_or]
          refine ⟨i6 t' m hm, ?_⟩
          rintro ⟨_, rfl⟩
          rw [i3, hm] at g2
          cases g2
        | _ => simp_all [writes_append, writes]
    exact ⟨this.2.2.2.1, this.2.2.2.2⟩

/-- The consumer panics while it writes the first record. -/
example : ∃ s, Run (fun _ : Nat => true) (start (fun t => if t = 0 then [.log 1, .log 2] else [])) [.send 0 1, .recv, .crash] s := by
  refine run_cons (.send _ 0 1 _ rfl rfl rfl rfl (by simp [start])) ?_
  refine run_cons (.recvItem _ 0 1 _ rfl rfl) ?_
  exact run_cons (.crash _ 0 1 rfl) ⟨_, .nil⟩

/-- **C93**, what holds: without a panic of the consumer thread no call panics. Missing from C93: see `C93_spreads_violated`. -/
theorem C93_quiet_partial (enabled : R → Bool) (progs : Nat → List (Call R)) (tr : List (Act R)) (s : Sys R)
    (h : Run enabled (start progs) tr s) (hcrash : Act.crash ∉ tr) : ∀ t, .panic t ∉ tr := by
  induction h with
  | nil => simp
  | snoc hrun hs ih =>
    intro t hm
    have hc : Act.crash ∉ _ := fun h' => hcrash (List.mem_append_left _ h')
    have hd := mt (dead_iff enabled progs hrun).mp hc
    rcases List.mem_append.mp hm with h' | h'
    · exact ih hc t h'
    · cases hs <;> simp_all

/-- Without a consumer thread (`consumer.init()?` failed before the thread was started, src/logging/dispatcher.rs:85) the drop of the
guard does not return, whatever the other threads do. -/
theorem unspawned_waits (enabled : R → Bool) (progs : Nat → List (Call R)) (tr : List (Act R)) (s : Sys R)
    (h : Run enabled { start progs with consumer := .dead } tr s) : Act.dropRet ∉ tr ∧ writes tr = [] := by
  have : s.consumer = .dead ∧ s.signal = false ∧ writes tr = [] ∧ .dropRet ∉ tr := by
    induction h with
    | nil => exact ⟨rfl, rfl, rfl, by simp⟩
    | snoc _ hs ih =>
      obtain ⟨i1, i2, i3, i4⟩ := ih
      cases hs <;> simp_all [writes_append, writes]
  exact ⟨this.2.2.2, this.2.2.1⟩

/-- The main thread gets as far as to drop the guard. -/
example : ∃ s, Run (R := Nat) (fun _ => true) { start (fun _ => []) with consumer := .dead } [.drop] s := by
  exact run_cons (.drop _ rfl) ⟨_, .nil⟩

end Httpd.Log
