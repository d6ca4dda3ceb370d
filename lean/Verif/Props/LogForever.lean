import Verif.Props.Forever
import Verif.Props.LiveLog
/-!
# What is logged is written in the end (C221)
-/

namespace Httpd
open Spec

/-- Whoever can always go on, and is not left out, goes on arbitrarily often. -/
theorem Spec.Forever.Fair.often {S A : Type} {Step : S → A → S → Prop} {start : S} {e : Forever Step start} {mine : A → Bool} (hfair : e.Fair mine) (n : Nat)
    (hen : ∀ m, n ≤ m → ∃ a s', mine a = true ∧ Step (e.state m) a s') (k : Nat) : ∃ m, n ≤ m ∧ k ≤ (e.upTo m).countP mine := by
  have hmono : ∀ m m', m ≤ m' → (e.upTo m).countP mine ≤ (e.upTo m').countP mine := by
    intro m m' h
    induction h with
    | refl => exact Nat.le_refl _
    | step _ ih => refine Nat.le_trans ih ?_; rw [upTo_succ, List.countP_append]; omega
  induction k with
  | zero => exact ⟨n, Nat.le_refl _, Nat.zero_le _⟩
  | succ k ih =>
    obtain ⟨m, hm, hk⟩ := ih
    obtain ⟨m', a, h1, h2, h3⟩ := hfair m (fun m' hm' => hen m' (by omega))
    refine ⟨m' + 1, by omega, ?_⟩
    have := hmono m m' h1
    rw [upTo_succ, List.countP_append, h2]
    simp [h3]
    omega

theorem upTo_prefix {S A : Type} {Step : S → A → S → Prop} {start : S} (e : Forever Step start) {n m : Nat} (h : n ≤ m) : e.upTo n <+: e.upTo m := by
  induction h with
  | refl => exact List.prefix_refl _
  | step _ ih => rw [upTo_succ]; exact ih.trans (List.prefix_append _ _)

namespace Log
variable {R : Type} {enabled : R → Bool}

/-- A step of the logger when the threads may call it whenever they like. -/
def OpenStep (enabled : R → Bool) (s : Sys R) (a : Act R) (s' : Sys R) : Prop := ∃ p, Step enabled { s with progs := p } a s'

/-- The messages sent. -/
def msgs : List (Act R) → List (Msg R)
  | [] => []
  | .send t r :: tr => .item t r :: msgs tr
  | .flushCall _ n :: tr => .flush n :: msgs tr
  | _ :: tr => msgs tr

theorem msgs_append (a b : List (Act R)) : msgs (a ++ b) = msgs a ++ msgs b := by
  induction a with
  | nil => rfl
  | cons x a ih => cases x <;> simp [msgs, ih]

theorem items_msgs (tr : List (Act R)) : items (msgs tr) = Spec.sends tr := by
  induction tr with
  | nil => rfl
  | cons x a ih => cases x <;> simp [msgs, items, Spec.sends, ih]

/-- The message the consumer is working on. -/
def handMsg : Consuming R → List (Msg R)
  | .writing t r => [.item t r]
  | .flushing n | .storing n => [.flush n]
  | _ => []

/-- How far the consumer is with it. -/
def progress : Consuming R → Nat
  | .writing .. | .flushing _ | .closing => 1
  | .storing _ | .lastFlush => 2
  | .done => 3
  | _ => 0

/-- First in, first out. -/
structure Fifo (tr : List (Act R)) (s : Sys R) (dealt : List (Msg R)) : Prop where
  alive : s.consumer ≠ .dead
  all : msgs tr = dealt ++ handMsg s.consumer ++ s.queue
  written : Spec.writes tr = items dealt
  locks : ∀ k, .flush k ∈ dealt → s.locks k = true
  count : tr.countP Act.ofConsumer ≤ 3 * dealt.length + progress s.consumer
  closing : s.consumer = .closing ∨ s.consumer = .lastFlush ∨ s.consumer = .done → s.guard ≠ .live ∧ s.queue = []
  signal : s.consumer = .lastFlush ∨ s.consumer = .done → s.signal = true

theorem fifo_step {tr : List (Act R)} {s s' : Sys R} {a : Act R} {dealt : List (Msg R)} (h : Fifo tr s dealt) (hs : OpenStep enabled s a s') (hc : a ≠ .crash) :
    ∃ dealt', Fifo (tr ++ [a]) s' dealt' := by
  obtain ⟨p, hs⟩ := hs
  obtain ⟨h1, h2, h3, h4, h5, h6, h7⟩ := h
  cases hs with
  | send t r rest g1 g2 g3 g4 g5 =>
    refine ⟨dealt, ⟨h1, ?_, ?_, h4, ?_, ?_, h7⟩⟩
    · simp [msgs_append, msgs, h2]
    · simpa [writes_append, Spec.writes] using h3
    · simpa [Act.ofConsumer] using h5
    · intro hcl; exact absurd g1 (h6 hcl).1
  | flushCall t rest g1 g2 g3 g4 =>
    refine ⟨dealt, ⟨h1, ?_, ?_, h4, ?_, ?_, h7⟩⟩
    · simp [msgs_append, msgs, h2]
    · simpa [writes_append, Spec.writes] using h3
    · simpa [Act.ofConsumer] using h5
    · intro hcl; exact absurd g1 (h6 hcl).1
  | skip t r rest g1 g2 g3 g4 =>
    exact ⟨dealt, ⟨h1, by simpa [msgs_append, msgs] using h2, by simpa [writes_append, Spec.writes] using h3, h4, by simpa [Act.ofConsumer] using h5, h6, h7⟩⟩
  | logPanic t r rest g1 g2 g3 g4 g5 => exact absurd g5 h1
  | flushPanic t rest g1 g2 g3 g4 => exact absurd g4 h1
  | flushRet t n g1 g2 =>
    exact ⟨dealt, ⟨h1, by simpa [msgs_append, msgs] using h2, by simpa [writes_append, Spec.writes] using h3, h4, by simpa [Act.ofConsumer] using h5, h6, h7⟩⟩
  | recvItem t r q g1 g2 =>
    simp only at g1 g2
    refine ⟨dealt, ⟨by simp, ?_, ?_, h4, ?_, by simp, by simp⟩⟩
    · rw [g1, g2] at h2; simpa [msgs_append, msgs, handMsg] using h2
    · simpa [writes_append, Spec.writes] using h3
    · rw [g1] at h5; simp [Act.ofConsumer, progress] at h5 ⊢; omega
  | recvFlush n q g1 g2 =>
    simp only at g1 g2
    refine ⟨dealt, ⟨by simp, ?_, ?_, h4, ?_, by simp, by simp⟩⟩
    · rw [g1, g2] at h2; simpa [msgs_append, msgs, handMsg] using h2
    · simpa [writes_append, Spec.writes] using h3
    · rw [g1] at h5; simp [Act.ofConsumer, progress] at h5 ⊢; omega
  | write t r g1 =>
    simp only at g1
    refine ⟨dealt ++ [.item t r], ⟨by simp, ?_, ?_, ?_, ?_, by simp, by simp⟩⟩
    · rw [g1] at h2; simpa [msgs_append, msgs, handMsg] using h2
    · simp [writes_append, Spec.writes, h3, items_append, items]
    · intro k hk; exact h4 k (by simpa using hk)
    · rw [g1] at h5; simp [Act.ofConsumer, progress] at h5 ⊢; omega
  | flush n g1 =>
    simp only at g1
    refine ⟨dealt, ⟨by simp, ?_, ?_, h4, ?_, by simp, by simp⟩⟩
    · rw [g1] at h2; simpa [msgs_append, msgs, handMsg] using h2
    · simpa [writes_append, Spec.writes] using h3
    · rw [g1] at h5; simp [Act.ofConsumer, progress] at h5 ⊢; omega
  | store n g1 =>
    simp only at g1
    refine ⟨dealt ++ [.flush n], ⟨by simp, ?_, ?_, ?_, ?_, by simp, by simp⟩⟩
    · rw [g1] at h2; simpa [msgs_append, msgs, handMsg] using h2
    · simp [writes_append, Spec.writes, h3, items_append, items]
    · intro k hk
      simp only [update]
      split
      · rfl
      · rename_i hne
        refine h4 k ?_
        rcases List.mem_append.mp hk with hk | hk
        · exact hk
        · simp at hk; exact absurd hk hne
    · rw [g1] at h5; simp [Act.ofConsumer, progress] at h5 ⊢; omega
  | closed g1 g2 g3 =>
    simp only at g1 g2 g3
    refine ⟨dealt, ⟨by simp, ?_, ?_, h4, ?_, fun _ => ⟨g3, g2⟩, by simp⟩⟩
    · rw [g1] at h2; simpa [msgs_append, msgs, handMsg] using h2
    · simpa [writes_append, Spec.writes] using h3
    · rw [g1] at h5; simp [Act.ofConsumer, progress] at h5 ⊢; omega
  | signal g1 =>
    simp only at g1
    refine ⟨dealt, ⟨by simp, ?_, ?_, h4, ?_, fun _ => h6 (.inl g1), fun _ => rfl⟩⟩
    · rw [g1] at h2; simpa [msgs_append, msgs, handMsg] using h2
    · simpa [writes_append, Spec.writes] using h3
    · rw [g1] at h5; simp [Act.ofConsumer, progress] at h5 ⊢; omega
  | lastFlush g1 =>
    simp only at g1
    refine ⟨dealt, ⟨by simp, ?_, ?_, h4, ?_, fun _ => h6 (.inr (.inl g1)), fun _ => h7 (.inl g1)⟩⟩
    · rw [g1] at h2; simpa [msgs_append, msgs, handMsg] using h2
    · simpa [writes_append, Spec.writes] using h3
    · rw [g1] at h5; simp [Act.ofConsumer, progress] at h5 ⊢; omega
  | crash t r g1 => exact absurd rfl hc
  | crashFlush _ g1 => exact absurd rfl hc
  | drop g1 =>
    exact ⟨dealt, ⟨h1, by simpa [msgs_append, msgs] using h2, by simpa [writes_append, Spec.writes] using h3, h4, by simpa [Act.ofConsumer] using h5,
      fun h => ⟨by simp, (h6 h).2⟩, h7⟩⟩
  | dropRet g1 g2 =>
    exact ⟨dealt, ⟨h1, by simpa [msgs_append, msgs] using h2, by simpa [writes_append, Spec.writes] using h3, h4, by simpa [Act.ofConsumer] using h5,
      fun h => ⟨by simp, (h6 h).2⟩, h7⟩⟩

theorem fifo {progs : Nat → List (Call R)} (e : Forever (OpenStep enabled) (start progs)) (hno : ∀ n, e.act n ≠ some .crash) (n : Nat) :
    ∃ dealt, Fifo (e.upTo n) (e.state n) dealt := by
  induction n with
  | zero =>
    rw [e.first]
    refine ⟨[], ⟨?_, ?_, ?_, ?_, ?_, ?_, ?_⟩⟩ <;> simp [start, Forever.upTo, msgs, Spec.writes, items, handMsg, progress]
  | succ n ih =>
    obtain ⟨dealt, h⟩ := ih
    have hn := e.next n
    rw [upTo_succ]
    cases ha : e.act n with
    | none => rw [ha] at hn; simp only at hn; rw [hn]; exact ⟨dealt, by simpa using h⟩
    | some a => rw [ha] at hn; exact fifo_step h hn (by rintro rfl; exact hno n ha)

/-- The consumer can act unless it waits for a message or has ended. -/
theorem open_consumer {s : Sys R} (hd : s.consumer ≠ .dead) :
    (∃ a s', a.ofConsumer = true ∧ OpenStep enabled s a s') ∨ (s.consumer = .idle ∧ s.queue = [] ∧ s.guard = .live) ∨ s.consumer = .done := by
  rcases consumer_step enabled s hd with ⟨a, s', h1, h2⟩ | h
  · exact .inl ⟨a, s', h1, s.progs, h2⟩
  · exact .inr h

/-- **All messages sent are dealt with at some moment.** -/
theorem dealt_with {progs : Nat → List (Call R)} (e : Forever (OpenStep enabled) (start progs)) (hno : ∀ n, e.act n ≠ some .crash) (hfair : e.Fair Act.ofConsumer) (n : Nat) :
    ∃ m dealt, n ≤ m ∧ Fifo (e.upTo m) (e.state m) dealt ∧ msgs (e.upTo n) <+: dealt := by
  apply Classical.byContradiction
  intro hcon
  have hcon : ∀ m dealt, n ≤ m → Fifo (e.upTo m) (e.state m) dealt → ¬ msgs (e.upTo n) <+: dealt := fun m d h1 h2 h3 => hcon ⟨m, d, h1, h2, h3⟩
  have hpre : ∀ m, n ≤ m → msgs (e.upTo n) <+: msgs (e.upTo m) := by
    intro m hm
    obtain ⟨y, hy⟩ := upTo_prefix e hm
    rw [← hy, msgs_append]; exact List.prefix_append _ _
  have hlt : ∀ m dealt, n ≤ m → Fifo (e.upTo m) (e.state m) dealt → dealt.length < (msgs (e.upTo n)).length := by
    intro m dealt hm hf
    refine Nat.lt_of_not_le fun hle => hcon m dealt hm hf ?_
    refine List.prefix_of_prefix_length_le (hpre m hm) ?_ hle
    rw [hf.all, List.append_assoc]; exact List.prefix_append _ _
  obtain ⟨m, hm, hk⟩ := hfair.often n (fun m hm => by
    obtain ⟨dealt, hf⟩ := fifo e hno m
    rcases open_consumer (enabled := enabled) hf.alive with h | ⟨h1, h2, _⟩ | h
    · exact h
    · exfalso
      have := hf.all
      rw [h1, h2] at this
      simp only [handMsg, List.append_nil] at this
      have h3 := hpre m hm
      rw [this] at h3
      exact hcon m dealt hm hf h3
    · exfalso
      have := hf.all
      rw [h, (hf.closing (.inr (.inr h))).2] at this
      simp only [handMsg, List.append_nil] at this
      have h3 := hpre m hm
      rw [this] at h3
      exact hcon m dealt hm hf h3) (3 * (msgs (e.upTo n)).length + 4)
  obtain ⟨dealt, hf⟩ := fifo e hno m
  have h1 := hlt m dealt hm hf
  have h2 := hf.count
  have h3 : progress (e.state m).consumer ≤ 3 := by cases (e.state m).consumer <;> simp [progress]
  omega

/-- While a thread waits it waits. -/
theorem waits_on {s s' : Sys R} {a : Act R} {t n : Nat} (hs : OpenStep enabled s a s') (hw : s.phases t = .waiting n) (ha : a ≠ .flushRet t n) : s'.phases t = .waiting n := by
  obtain ⟨p, hs⟩ := hs
  cases hs with
  | logPanic u r rest g1 g2 g3 g4 g5 =>
    have : u ≠ t := by rintro rfl; simp only at g2; rw [hw] at g2; cases g2
    simp [update, Ne.symm this, hw]
  | flushPanic u rest g1 g2 g3 g4 =>
    have : u ≠ t := by rintro rfl; simp only at g2; rw [hw] at g2; cases g2
    simp [update, Ne.symm this, hw]
  | flushCall u rest g1 g2 g3 g4 =>
    have : u ≠ t := by rintro rfl; simp only at g2; rw [hw] at g2; cases g2
    simp [update, Ne.symm this, hw]
  | flushRet u m g1 g2 =>
    have : u ≠ t := by
      rintro rfl
      simp only at g1
      rw [hw] at g1
      cases g1
      exact ha rfl
    simp [update, Ne.symm this, hw]
  | _ => exact hw

theorem locks_stay {s s' : Sys R} {a : Act R} {n : Nat} (hs : OpenStep enabled s a s') (hl : s.locks n = true) : s'.locks n = true := by
  obtain ⟨p, hs⟩ := hs
  cases hs with
  | store k g1 => simp only [update]; split <;> simp [hl]
  | _ => exact hl

/-- **Every flush returns.** -/
theorem flush_returns {progs : Nat → List (Call R)} (e : Forever (OpenStep enabled) (start progs)) (hno : ∀ n, e.act n ≠ some .crash) (hfair : e.Fair Act.ofConsumer) (t : Nat)
    (hthread : e.Fair (fun a => match a with | .flushRet u _ => u = t | _ => false)) (n k : Nat) (hn : e.act n = some (.flushCall t k)) :
    ∃ m, n < m ∧ e.act m = some (.flushRet t k) := by
  apply Classical.byContradiction
  intro hcon
  have hcon : ∀ m, n < m → e.act m ≠ some (.flushRet t k) := fun m h1 h2 => hcon ⟨m, h1, h2⟩
  have hwait : ∀ m, n + 1 ≤ m → (e.state m).phases t = .waiting k := by
    intro m hm
    induction hm with
    | refl =>
      have := e.next n
      rw [hn] at this
      obtain ⟨p, this⟩ := this
      generalize e.state (n + 1) = s' at this ⊢
      cases this
      simp [update]
    | @step m hm ih =>
      have := e.next m
      cases ha : e.act m with
      | none => rw [ha] at this; simp only at this; rw [this]; exact ih
      | some a => rw [ha] at this; exact waits_on this ih (by rintro rfl; exact hcon m hm ha)
  obtain ⟨m0, dealt, hm0, hf, hd⟩ := dealt_with e hno hfair (n + 1)
  have hl0 : (e.state m0).locks k = true := by
    refine hf.locks k (hd.subset ?_)
    rw [upTo_succ, msgs_append, hn]
    simp [msgs]
  have hl : ∀ m, m0 ≤ m → (e.state m).locks k = true := by
    intro m hm
    induction hm with
    | refl => exact hl0
    | @step m _ ih =>
      have := e.next m
      cases ha : e.act m with
      | none => rw [ha] at this; simp only at this; rw [this]; exact ih
      | some a => rw [ha] at this; exact locks_stay this ih
  obtain ⟨m, a, h1, h2, h3⟩ := hthread m0 (fun m hm => ⟨.flushRet t k, _, by simp, (e.state m).progs, .flushRet _ t k (hwait m (by omega)) (hl m hm)⟩)
  have hs := e.next m
  rw [h2] at hs
  obtain ⟨p, hs⟩ := hs
  cases a with
  | flushRet u j =>
    simp only [decide_eq_true_eq] at h3
    subst h3
    generalize e.state (m + 1) = s' at hs
    cases hs with
    | flushRet _ _ g1 g2 =>
      simp only at g1
      rw [hwait m (by omega)] at g1
      cases g1
      exact hcon m (by omega) h2
  | _ => simp at h3

/-- **The drop of the guard returns.** -/
theorem drop_returns {progs : Nat → List (Call R)} (e : Forever (OpenStep enabled) (start progs)) (hno : ∀ n, e.act n ≠ some .crash) (hfair : e.Fair Act.ofConsumer)
    (hmain : e.Fair (fun a => match a with | .dropRet => true | _ => false)) (n : Nat) (hn : e.act n = some .drop) : ∃ m, n < m ∧ e.act m = some .dropRet := by
  apply Classical.byContradiction
  intro hcon
  have hcon : ∀ m, n < m → e.act m ≠ some .dropRet := fun m h1 h2 => hcon ⟨m, h1, h2⟩
  have hg : ∀ m, n + 1 ≤ m → (e.state m).guard = .waiting ∧ msgs (e.upTo m) = msgs (e.upTo (n + 1)) := by
    intro m hm
    induction hm with
    | refl =>
      have := e.next n
      rw [hn] at this
      obtain ⟨p, this⟩ := this
      refine ⟨?_, rfl⟩
      generalize e.state (n + 1) = s' at this ⊢
      cases this; rfl
    | @step m hm ih =>
      obtain ⟨i1, i2⟩ := ih
      have := e.next m
      rw [upTo_succ, msgs_append, i2]
      cases ha : e.act m with
      | none => rw [ha] at this; simp only at this; rw [this]; exact ⟨i1, by simp [msgs]⟩
      | some a =>
        rw [ha] at this
        obtain ⟨p, this⟩ := this
        have hnr : a ≠ .dropRet := by rintro rfl; exact hcon m hm ha
        generalize e.state (m + 1) = s' at this ⊢
        cases this <;> simp_all [msgs]
  -- the consumer ends
  have hdone : ∃ m, n + 1 ≤ m ∧ (e.state m).signal = true := by
    apply Classical.byContradiction
    intro hns
    obtain ⟨m, hm, hk⟩ := hfair.often (n + 1) (fun m hm => by
      obtain ⟨dealt, hf⟩ := fifo e hno m
      rcases open_consumer (enabled := enabled) hf.alive with h | ⟨_, _, h3⟩ | h
      · exact h
      · rw [(hg m hm).1] at h3; cases h3
      · exact absurd ⟨m, hm, hf.signal (.inr h)⟩ hns) (3 * (msgs (e.upTo (n + 1))).length + 4)
    obtain ⟨dealt, hf⟩ := fifo e hno m
    have h1 : dealt.length ≤ (msgs (e.upTo (n + 1))).length := by rw [← (hg m hm).2, hf.all]; simp
    have h2 := hf.count
    have h3 : progress (e.state m).consumer ≤ 3 := by cases (e.state m).consumer <;> simp [progress]
    omega
  obtain ⟨m0, hm0, hs0⟩ := hdone
  have hs : ∀ m, m0 ≤ m → (e.state m).signal = true := by
    intro m hm
    induction hm with
    | refl => exact hs0
    | @step m _ ih =>
      have := e.next m
      cases ha : e.act m with
      | none => rw [ha] at this; simp only at this; rw [this]; exact ih
      | some a =>
        rw [ha] at this
        obtain ⟨p, this⟩ := this
        generalize e.state (m + 1) = s' at this ⊢
        cases this <;> simp_all
  obtain ⟨m, a, h1, h2, h3⟩ := hmain m0 (fun m hm => ⟨.dropRet, _, rfl, (e.state m).progs, .dropRet _ (hg m (by omega)).1 (hs m hm)⟩)
  cases a with
  | dropRet => exact hcon m (by omega) h2
  | _ => simp at h3

/-! ## The logger with given calls -/

/-- A step of the logger is one of the logger that may be called at any time. -/
def opened {start : Sys R} (e : Forever (Step enabled) start) : Forever (OpenStep enabled) start :=
  ⟨e.state, e.act, e.first, fun n => by
    have := e.next n
    cases ha : e.act n with
    | none => rw [ha] at this; exact this
    | some a => rw [ha] at this; exact ⟨(e.state n).progs, this⟩⟩

theorem opened_upTo {start : Sys R} (e : Forever (Step enabled) start) (n : Nat) : (opened e).upTo n = e.upTo n := by
  induction n with
  | zero => rfl
  | succ n ih => rw [upTo_succ, upTo_succ, ih]; rfl

/-- What the consumer can do does not depend on the calls. -/
theorem OpenStep.consumer {s s' : Sys R} {a : Act R} (h : OpenStep enabled s a s') (ha : a.ofConsumer = true ∨ (∃ t n, a = .flushRet t n) ∨ a = .dropRet) :
    ∃ s'', Step enabled s a s'' := by
  obtain ⟨p, h⟩ := h
  cases h with
  | recvItem t r q g1 g2 => exact ⟨_, .recvItem s t r q g1 g2⟩
  | recvFlush n q g1 g2 => exact ⟨_, .recvFlush s n q g1 g2⟩
  | write t r g1 => exact ⟨_, .write s t r g1⟩
  | flush n g1 => exact ⟨_, .flush s n g1⟩
  | store n g1 => exact ⟨_, .store s n g1⟩
  | closed g1 g2 g3 => exact ⟨_, .closed s g1 g2 g3⟩
  | signal g1 => exact ⟨_, .signal s g1⟩
  | lastFlush g1 => exact ⟨_, .lastFlush s g1⟩
  | flushRet t n g1 g2 => exact ⟨_, .flushRet s t n g1 g2⟩
  | dropRet g1 g2 => exact ⟨_, .dropRet s g1 g2⟩
  | _ => simp [Act.ofConsumer] at ha

theorem opened_fair {start : Sys R} {e : Forever (Step enabled) start} {mine : Act R → Bool} (h : e.Fair mine)
    (hm : ∀ a, mine a = true → a.ofConsumer = true ∨ (∃ t n, a = .flushRet t n) ∨ a = .dropRet) : (opened e).Fair mine := by
  intro n hen
  refine h n (fun m hm' => ?_)
  obtain ⟨a, s', h1, h2⟩ := hen m hm'
  obtain ⟨s'', h3⟩ := OpenStep.consumer h2 (hm a h1)
  exact ⟨a, s'', h1, h3⟩

theorem writes_later {Step : Sys R → Act R → Sys R → Prop} {start : Sys R} (e : Forever Step start) {n m : Nat} (h : n ≤ m) : Spec.writes (e.upTo n) <+: Spec.writes (e.upTo m) := by
  obtain ⟨y, hy⟩ := upTo_prefix e h
  rw [← hy, writes_append]; exact List.prefix_append _ _

theorem open_written {progs : Nat → List (Call R)} (e : Forever (OpenStep enabled) (start progs)) (hno : ∀ n, e.act n ≠ some .crash) (hfair : e.Fair Act.ofConsumer) (n : Nat) :
    ∃ m, n ≤ m ∧ ∀ m', m ≤ m' → Spec.sends (e.upTo n) <+: Spec.writes (e.upTo m') := by
  obtain ⟨m, dealt, hm, hf, y, hy⟩ := dealt_with e hno hfair n
  refine ⟨m, hm, fun m' hm' => List.IsPrefix.trans ?_ (writes_later e hm')⟩
  rw [hf.written, ← hy, items_append, items_msgs]
  exact List.prefix_append _ _

/-- **C221.** What is logged is written: in every execution without end in which the consumer thread is not left out for ever and does not panic, every record sent by any moment is handed to the appenders,
all of them in the order in which they were sent, however much the threads go on logging. -/
theorem C221_written (enabled : R → Bool) (progs : Nat → List (Call R)) (e : Forever (Step enabled) (start progs)) (hno : ∀ n, e.act n ≠ some .crash) (hfair : e.Fair Act.ofConsumer) (n : Nat) :
    ∃ m, n ≤ m ∧ ∀ m', m ≤ m' → Spec.sends (e.upTo n) <+: Spec.writes (e.upTo m') := by
  obtain ⟨m, h1, h2⟩ := open_written (opened e) hno (opened_fair hfair (fun _ h => .inl h)) n
  simp only [opened_upTo] at h2
  exact ⟨m, h1, h2⟩

/-- **C221.** Every flush returns: if moreover the thread that flushes is not left out for ever once it can go on. (That everything sent before the call has been handed over when it returns is C67.) -/
theorem C221_flush (enabled : R → Bool) (progs : Nat → List (Call R)) (e : Forever (Step enabled) (start progs)) (hno : ∀ n, e.act n ≠ some .crash) (hfair : e.Fair Act.ofConsumer) (t : Nat)
    (hthread : e.Fair (fun a => match a with | .flushRet u _ => u = t | _ => false)) (n k : Nat) (hn : e.act n = some (.flushCall t k)) :
    ∃ m, n < m ∧ e.act m = some (.flushRet t k) :=
  flush_returns (opened e) hno (opened_fair hfair (fun _ h => .inl h)) t (opened_fair hthread (fun a h => by
    cases a <;> first | exact .inr (.inl ⟨_, _, rfl⟩) | simp at h)) n k hn

/-- **C221.** The process can end: dropping the guard returns, if the main thread is not left out for ever once it can go on. -/
theorem C221_drop (enabled : R → Bool) (progs : Nat → List (Call R)) (e : Forever (Step enabled) (start progs)) (hno : ∀ n, e.act n ≠ some .crash) (hfair : e.Fair Act.ofConsumer)
    (hmain : e.Fair (fun a => match a with | .dropRet => true | _ => false)) (n : Nat) (hn : e.act n = some .drop) : ∃ m, n < m ∧ e.act m = some .dropRet :=
  drop_returns (opened e) hno (opened_fair hfair (fun _ h => .inl h)) (opened_fair hmain (fun a h => by
    cases a <;> first | exact .inr (.inr rfl) | simp at h)) n hn

/-! ## There are such executions -/

theorem log_forever {progs : Nat → List (Call R)} {tr : List (Act R)} {s : Sys R} (h : Run enabled (start progs) tr s) :
    ∃ e : Forever (Step enabled) (start progs), (∀ m, m ≤ tr.length → e.upTo m = tr.take m) ∧ ∀ m, tr.length ≤ m → e.state m = s ∧ e.act m = none := by
  induction h with
  | nil => exact ⟨⟨fun _ => start progs, fun _ => none, rfl, fun _ => rfl⟩, fun m hm => by cases Nat.le_zero.mp hm; rfl, fun _ _ => ⟨rfl, rfl⟩⟩
  | @snoc tr s s' a _ hs ih =>
    obtain ⟨e, h1, h2⟩ := ih
    obtain ⟨e', k1, k2, k3⟩ := forever_snoc e tr.length s s' a h2 hs
    refine ⟨e', fun m hm => ?_, fun m hm => k3 m (by simpa using hm)⟩
    by_cases h : m ≤ tr.length
    · rw [k1 m h, h1 m h, List.take_append_of_le_length h]
    · have : m = tr.length + 1 := by simp at hm; omega
      rw [this, k2, h1 _ (Nat.le_refl _)]
      rw [List.take_of_length_le (l := tr ++ [a]) (by simp), List.take_length]

theorem no_consumer {s s' : Sys R} {a : Act R} (h : s.consumer = .idle ∧ s.queue = [] ∧ s.guard = .live ∨ s.consumer = .done) (ha : a.ofConsumer = true) : ¬ Step enabled s a s' := by
  intro hs
  cases hs <;> simp_all [Act.ofConsumer]

theorem acts_upTo {S A : Type} {Step : S → A → S → Prop} {start : S} (e : Forever Step start) {n m : Nat} {a : A} (h : e.act n = some a) (hm : n < m) : a ∈ e.upTo m :=
  (upTo_prefix e hm).subset (by rw [upTo_succ, h]; simp)

/-- **C221**, the conditions ask for nothing impossible: whatever has happened so far, unless the consumer has panicked, the execution can go on so that they hold. -/
theorem C221_possible (enabled : R → Bool) (progs : Nat → List (Call R)) (tr : List (Act R)) (s : Sys R) (h : Run enabled (start progs) tr s) (hc : .crash ∉ tr) :
    ∃ e : Forever (Step enabled) (start progs), e.upTo tr.length = tr ∧ (∀ n, e.act n ≠ some .crash) ∧ e.Fair Act.ofConsumer := by
  have hd : s.consumer ≠ .dead := fun h' => hc ((dead_iff enabled progs h).mp h')
  obtain ⟨tr', s', h1, h2, h3, h4⟩ := consumer_settles enabled (work s) s (Nat.le_refl _) hd
  obtain ⟨e, k1, k2⟩ := log_forever (h.trans h1)
  refine ⟨e, by rw [k1 _ (by simp)]; simp, fun n hn => ?_, fun n hen => ?_⟩
  · by_cases hlt : n < (tr ++ tr').length
    · have := acts_upTo e hn hlt
      rw [k1 _ (Nat.le_refl _), List.take_length] at this
      rcases List.mem_append.mp this with h | h
      · exact hc h
      · exact absurd (h2 _ h) (by simp [Act.ofConsumer])
    · rw [(k2 n (by omega)).2] at hn; cases hn
  · obtain ⟨a, u, ha, hs⟩ := hen (max n (tr ++ tr').length) (Nat.le_max_left _ _)
    rw [(k2 _ (Nat.le_max_right _ _)).1] at hs
    exact absurd hs (no_consumer h4 ha)

/-- Two threads; the record of the second waits to be written when the first one flushes. -/
example : ∃ e : Forever (Step (fun _ : Nat => true)) (start (fun t => if t < 2 then [.log (10 + t), .flush] else [])),
    (∃ m, ∀ m', m ≤ m' → [(1, 11), (0, 10)] <+: Spec.writes (e.upTo m')) := by
  obtain ⟨s, hs⟩ : ∃ s, Run (fun _ : Nat => true) (start (fun t => if t < 2 then [.log (10 + t), .flush] else []))
      [.send 1 11, .send 0 10, .recv, .flushCall 0 0, .write 1 11] s := by
    refine run_cons (.send _ 1 11 _ rfl rfl rfl rfl (by simp [start])) ?_
    refine run_cons (.send _ 0 10 _ rfl rfl rfl rfl (by simp [start])) ?_
    refine run_cons (.recvItem _ 1 11 _ rfl rfl) ?_
    refine run_cons (.flushCall _ 0 _ rfl rfl rfl (by simp)) ?_
    exact run_cons (.write _ 1 11 rfl) ⟨_, .nil⟩
  obtain ⟨e, h1, h2, h3⟩ := C221_possible _ _ _ _ hs (by simp)
  obtain ⟨m, _, hm⟩ := C221_written _ _ e h2 h3 5
  refine ⟨e, m, fun m' h => ?_⟩
  have := hm m' h
  have h1 : e.upTo 5 = _ := h1
  rw [h1] at this
  exact this

/-- A consumer that is left out writes nothing: without the condition C221 would not hold. -/
example : ∃ e : Forever (Step (fun _ : Nat => true)) (start (fun t => if t < 2 then [.log (10 + t), .flush] else [])),
    Spec.sends (e.upTo 1) = [(1, 11)] ∧ (∀ n, e.act n ≠ some .crash) ∧ ∀ n, Spec.writes (e.upTo n) = [] := by
  have h : Run (fun _ : Nat => true) (start (fun t => if t < 2 then [.log (10 + t), .flush] else [])) [.send 1 11] _ :=
    .snoc (tr := []) .nil (.send _ 1 11 [.flush] rfl rfl rfl rfl (by simp [start]))
  obtain ⟨e, h1, h2⟩ := log_forever h
  have hall : ∀ n, 1 ≤ n → e.upTo n = [.send 1 11] := by
    intro n hn
    induction hn with
    | refl => exact h1 1 (by simp)
    | @step n hn ih => rw [upTo_succ, ih, (h2 n hn).2]; rfl
  refine ⟨e, by rw [hall 1 (Nat.le_refl _)]; rfl, fun n hn => ?_, fun n => ?_⟩
  · have := acts_upTo e hn (m := n + 1) (by omega)
    rw [hall _ (by omega)] at this
    simp at this
  · cases n with
    | zero => rfl
    | succ n => rw [hall _ (by omega)]; rfl

end Log

/-! ## The connections and the logger -/

section
variable {K : Type} {c : Codec K} {setup : Nat → Setup K} {enabled : Item → Bool}

/-- The turns of the task of connection `i`. -/
def LiveAct.isTurn (i : Nat) : LiveAct → Bool
  | .conn j a => Httpd.isTurn i (j, a)
  | .record j _ => j = i
  | .log _ => false

/-- The turns of the consumer thread. -/
def LiveAct.ofConsumer : LiveAct → Bool
  | .log a => a.ofConsumer
  | _ => false

/-- What a connection does in an action. -/
def LiveAct.conn? : LiveAct → Option (Nat × ServerAct)
  | .conn i a => some (i, a)
  | .record i _ => some (i, .act)
  | .log _ => none

/-- What the logger does in an action. -/
def LiveAct.log? : LiveAct → Option (Log.Act Item)
  | .conn _ _ => none
  | .record _ a => some a
  | .log a => some a

theorem live_forever {progs : Nat → List (Log.Call Item)} (e : Forever (Live.Step c setup enabled) (Live.start progs)) (n : Nat) :
    Live.Run c setup enabled (.start progs) (e.upTo n) (e.state n) := by
  induction n with
  | zero => rw [e.first]; exact .nil
  | succ n ih =>
    have := e.next n
    rw [upTo_succ]
    cases ha : e.act n with
    | none => rw [ha] at this; simp only at this; rw [this]; simpa using ih
    | some a => rw [ha] at this; exact .snoc ih this

/-- The connections alone. -/
def liveServer {progs : Nat → List (Log.Call Item)} (e : Forever (Live.Step c setup enabled) (Live.start progs)) : Forever (Server.Step c setup) Server.start :=
  ⟨fun n => (e.state n).server, fun n => (e.act n).bind LiveAct.conn?, by rw [e.first]; rfl, fun n => by
    have := e.next n
    cases ha : e.act n with
    | none => rw [ha] at this; simp only at this; simp [this]
    | some a =>
      rw [ha] at this
      simp only at this
      generalize e.state (n + 1) = s' at this ⊢
      cases this with
      | conn i a v hv _ => exact hv
      | record i v r time file line b l hv _ _ _ => exact hv
      | log a l _ _ => rfl⟩

/-- The logger alone. -/
def liveLogger {progs : Nat → List (Log.Call Item)} (e : Forever (Live.Step c setup enabled) (Live.start progs)) :
    Forever (Log.OpenStep enabled) (Log.start (fun t => if t % 2 = 0 then progs t else [])) :=
  ⟨fun n => (e.state n).log, fun n => (e.act n).bind LiveAct.log?, by rw [e.first]; rfl, fun n => by
    have := e.next n
    cases ha : e.act n with
    | none => rw [ha] at this; simp only at this; simp [this]
    | some a =>
      rw [ha] at this
      simp only at this
      generalize e.state (n + 1) = s' at this ⊢
      cases this with
      | conn i a v hv _ => rfl
      | record i v r time file line b l _ _ _ hl => exact ⟨_, hl⟩
      | log a l _ hl => exact ⟨_, hl⟩⟩

theorem liveLogger_upTo {progs : Nat → List (Log.Call Item)} (e : Forever (Live.Step c setup enabled) (Live.start progs)) (n : Nat) : (liveLogger e).upTo n = logActs (e.upTo n) := by
  induction n with
  | zero => rfl
  | succ n ih =>
    rw [upTo_succ, upTo_succ, ih, logActs_append]
    congr 1
    show ((e.act n).bind LiveAct.log?).toList = _
    cases e.act n with
    | none => rfl
    | some a => cases a <;> rfl

/-- **C221.** From the client to the log: in every execution without end of the connections and the logger in which neither the task of connection `i` nor the consumer thread is left out for ever, the consumer
does not panic and the process does not end, from some moment on the client has been sent all that `serve` answers to what had arrived from it, and all records that `serve` makes about it, as far as the level
lets them pass, have been handed to the appenders in their order, whatever the other connections and threads do. -/
theorem C221_live (c : Codec K) (setup : Nat → Setup K) (enabled : Item → Bool) (progs : Nat → List (Log.Call Item)) (e : Forever (Live.Step c setup enabled) (Live.start progs))
    (hno : ∀ n, e.act n ≠ some (.log .crash)) (hlive : ∀ n, e.act n ≠ some (.log .drop)) (i : Nat) (hturn : e.Fair (LiveAct.isTurn i)) (hfair : e.Fair LiveAct.ofConsumer)
    (n : Nat) (t : Task) (ht : (e.state n).server.task i = some t) :
    ∃ m items, n ≤ m ∧ Each2 IsRecord (serveLog c (setup i).lim (setup i).env (setup i).log t.all) items ∧ ∀ m', m ≤ m' →
      ((serve c (setup i).lim (setup i).env t.all).1.map (·.written)).flatten <+: (e.state m').server.wire i ∧
      items.filter enabled <+: Log.Spec.byThread (threadOf i) (Log.Spec.writes (logActs (e.upTo m'))) := by
  have hno' : ∀ n, (liveLogger e).act n ≠ some .crash := by
    intro n hn
    have hn : (e.act n).bind LiveAct.log? = some .crash := hn
    have hs := e.next n
    cases ha : e.act n with
    | none => rw [ha] at hn; cases hn
    | some a =>
      rw [ha] at hn hs
      simp only [Option.bind_some] at hn hs
      cases a with
      | conn => cases hn
      | record j b =>
        cases hn
        generalize e.state (n + 1) = s' at hs
        cases hs with
        | record _ v r time file line _ l _ _ hb _ => rcases hb with h | h <;> cases h
      | log b => cases hn; exact hno n ha
  have hguard : ∀ n, (e.state n).log.guard = .live := by
    intro n
    induction n with
    | zero => rw [e.first]; rfl
    | succ n ih =>
      have hs := e.next n
      cases ha : e.act n with
      | none => rw [ha] at hs; simp only at hs; rw [hs]; exact ih
      | some a =>
        rw [ha] at hs
        simp only at hs
        generalize e.state (n + 1) = s' at hs ⊢
        cases hs with
        | conn => exact ih
        | record j v r time file line b l _ _ hb hl => rcases hb with rfl | rfl <;> cases hl <;> exact ih
        | log b l _ hl =>
          cases hl with
          | drop => exact absurd ha (hlive n)
          | dropRet g1 _ => rw [ih] at g1; cases g1
          | _ => exact ih
  have halive : ∀ n, (e.state n).log.consumer ≠ .dead := fun n => by
    obtain ⟨_, hf⟩ := Log.fifo (liveLogger e) hno' n
    exact hf.alive
  have hturn' : (liveServer e).Fair (isTurn i) := by
    intro k hen
    obtain ⟨m, a, h1, h2, h3⟩ := hturn k (fun m hm => by
      obtain ⟨⟨j, a⟩, v, ha, hs⟩ := hen m hm
      obtain ⟨act, l, k1, k2, _, _⟩ := (C211_never_waits c setup enabled progs _ _ (live_forever e m)).2 (halive m) (hguard m) j a v hs
      refine ⟨act, _, ?_, k1⟩
      cases act with
      | conn j' a' => simp only [connActs, List.cons.injEq, and_true, Prod.mk.injEq] at k2; obtain ⟨rfl, rfl⟩ := k2; exact ha
      | record j' b =>
        simp only [connActs, List.cons.injEq, and_true, Prod.mk.injEq] at k2; obtain ⟨rfl, rfl⟩ := k2
        simpa [LiveAct.isTurn, isTurn] using ha
      | log => cases k2)
    cases a with
    | conn j b => exact ⟨m, (j, b), h1, by show (e.act m).bind _ = _; rw [h2]; rfl, h3⟩
    | record j b => exact ⟨m, (j, .act), h1, by show (e.act m).bind _ = _; rw [h2]; rfl, by simpa [LiveAct.isTurn, isTurn] using h3⟩
    | log => cases h3
  have hfair' : (liveLogger e).Fair Log.Act.ofConsumer := by
    intro k hen
    obtain ⟨m, a, h1, h2, h3⟩ := hfair k (fun m hm => by
      obtain ⟨a, l, ha, hs⟩ := hen m hm
      obtain ⟨l', hl⟩ := hs.consumer (.inl ha)
      refine ⟨.log a, _, ha, .log (e.state m) a l' (fun u hu => ?_) hl⟩
      cases a <;> simp_all [actThread, Log.Act.ofConsumer])
    cases a with
    | log b => exact ⟨m, b, h1, by show (e.act m).bind _ = _; rw [h2]; rfl, h3⟩
    | conn => cases h3
    | record => cases h3
  obtain ⟨m1, hm1, hd⟩ := C220_eventually c setup (liveServer e) i hturn' n t ht
  obtain ⟨m2, hm2, hw⟩ := Log.open_written (liveLogger e) hno' hfair' m1
  obtain ⟨all, ha, hsent⟩ := live_sends (live_forever e m1) i
  obtain ⟨y, hy⟩ := (hd m1 (Nat.le_refl _)).2.1
  have hy : _ = ofConn i (e.state m1).server.queue := hy
  rw [← hy] at ha
  obtain ⟨items, rest, e1, e2, _⟩ := Each2_split _ _ _ ha
  refine ⟨m2, items, by omega, e2, fun m' hm' => ⟨(hd m' (by omega)).1, ?_⟩⟩
  have := Log.byThread_prefix (threadOf i) (hw m' hm')
  rw [liveLogger_upTo, liveLogger_upTo, hsent, e1, List.filter_append] at this
  exact (List.prefix_append _ _).trans this

open MultiMap in
/-- **C221.** From the command line to client and log: let the file named on the command line be accepted and the log started. In every execution without end in which the consumer does not panic and is not left out
for ever and the process does not end, for a connection of any service of the file whose task is not left out for ever: from some moment on the client has been sent all that the text of the protocol
(`Talk`) has for the bytes that had arrived, under the kind and the limits that the file says, and every appender of the file has been handed the records of the story of this
connection that are for it, in their order. -/
theorem C221_command_line (m : Machine) (horder : ∀ l, (m.order l).Perm l) (p : Profile) (arg : Str)
    (harg : trimUnicode (fileArgument p arg) ≠ []) (v : Toml) (hread : m.read (fileArgument p arg) = some v)
    (hnd : ∀ ss, setting [u!"services", u!"Services"] 9 v = some (.table ss) → (ss.map (·.1)).Nodup) (cfg : Config)
    (hload : loadFile m.U p m.strict m.pathExists m.chdir m.glob m.order (some v) = .value cfg)
    (k : Consumer) (l : Level) (hlog : cfg.initLogging m.U m.openOk m.midnight m.names m.setOk = .value (k, l)) :
    ∃ as, m.start p arg = .serving cfg.services ∧ cfg.appenders m.openOk = some as ∧
      ∀ {K : Type} (codec : Codec K) (setup : Nat → Setup K) (progs : Nat → List (Log.Call Item)) (e : Forever (Live.Step codec setup (passes l)) (Live.start progs)),
        (∀ n, e.act n ≠ some (.log .crash)) → (∀ n, e.act n ≠ some (.log .drop)) → e.Fair LiveAct.ofConsumer →
        ∀ (q : Str × ServiceConfig), q ∈ cfg.services → ∀ i, (setup i).Serves q.2 → e.Fair (LiveAct.isTurn i) → ∀ n t, (e.state n).server.task i = some t →
          ∃ sv kind maxUrl maxLine maxHeaders, ToRun m.glob v q.1 sv ∧
            Given (KindSays m.strict) .helloWorld (setting [u!"service", u!"Service"] 2 sv) kind ∧
            LimitsInForce m.U p v sv maxUrl maxLine maxHeaders ∧
            ∀ reply stops, Answers kind reply stops →
              ∃ outs f, Talk maxUrl maxLine maxHeaders (afterOf t.fin) reply stops 0 (t.arrived.map Seg.bytes).flatten outs f ∧
                ∃ n' items, n ≤ n' ∧
                  Each2 IsRecord (story (setup i).log ((serve codec (setup i).lim (setup i).env t.all).1.map (·.req)) (serve codec (setup i).lim (setup i).env t.all).2) items ∧
                  ∀ n'', n' ≤ n'' → outs.flatten <+: (e.state n'').server.wire i ∧
                    ∀ a ∈ as, items.filter (fun x => passes l x && a.Wants x) <+:
                      (Log.Spec.byThread (threadOf i) (Log.Spec.writes (logActs (e.upTo n'')))).filter a.Wants := by
  obtain ⟨_, as, has⟩ := started_value hlog
  obtain ⟨hs1, hs2, _, hs4⟩ := run_in_force m.U p m.strict m.pathExists m.chdir m.glob m.order horder v cfg hload hnd
  refine ⟨as, (start_serving m p arg harg v hread hnd horder cfg hload ⟨_, hlog⟩).1, has, ?_⟩
  intro K codec setup progs e hno hlive hcons q hof i hsetup hturn n t ht
  obtain ⟨sv, hsv⟩ := hs2 q.1 q.2 hof
  obtain ⟨s', hmem, hkind, hlim, _⟩ := hs4 _ sv hsv
  have hsame : s' = q.2 := eq_of_key_nodup hs1 hmem hof
  subst hsame
  refine ⟨sv, _, _, _, _, hsv, hkind, hlim, fun reply stops ha => ?_⟩
  obtain ⟨hl, he⟩ := hsetup
  obtain ⟨f, hf⟩ := serve_talk codec (setup i) t _ reply stops ha he
  obtain ⟨n', items, hn, hitems, h⟩ := C221_live codec setup (passes l) progs e hno hlive i hturn hcons n t ht
  rw [C120_story] at hitems
  rw [← hl]
  refine ⟨_, f, hf, n', items, hn, hitems, fun n'' hn' => ⟨(h n'' hn').1, fun a _ => ?_⟩⟩
  obtain ⟨rest, hr⟩ := (h n'' hn').2
  rw [← hr, List.filter_append, List.filter_filter]
  simp only [Bool.and_comm]
  exact List.prefix_append _ _

theorem run_live {progs : Nat → List (Log.Call Item)} {tr : List LiveAct} {s : Live} (h : Live.Run c setup enabled (.start progs) tr s) :
    ∃ e : Forever (Live.Step c setup enabled) (Live.start progs), (∀ m, m ≤ tr.length → e.upTo m = tr.take m) ∧ ∀ m, tr.length ≤ m → e.state m = s ∧ e.act m = none := by
  induction h with
  | nil => exact ⟨⟨fun _ => Live.start progs, fun _ => none, rfl, fun _ => rfl⟩, fun m hm => by cases Nat.le_zero.mp hm; rfl, fun _ _ => ⟨rfl, rfl⟩⟩
  | @snoc tr s s' a _ hs ih =>
    obtain ⟨e, h1, h2⟩ := ih
    obtain ⟨e', k1, k2, k3⟩ := forever_snoc e tr.length s s' a h2 hs
    refine ⟨e', fun m hm => ?_, fun m hm => k3 m (by simpa using hm)⟩
    by_cases h : m ≤ tr.length
    · rw [k1 m h, h1 m h, List.take_append_of_le_length h]
    · have : m = tr.length + 1 := by simp at hm; omega
      rw [this, k2, h1 _ (Nat.le_refl _)]
      rw [List.take_of_length_le (l := tr ++ [a]) (by simp), List.take_length]

/-- **C221**, the conditions ask for nothing impossible: every run of the connections is part of an execution without end of the connections and the logger in which they hold. -/
theorem C221_live_possible (c : Codec K) (setup : Nat → Setup K) (enabled : Item → Bool) (progs : Nat → List (Log.Call Item)) (tr : List (Nat × ServerAct)) (v : Server)
    (h : Server.Run c setup tr v) (i : Nat) (t : Task) (ht : v.task i = some t) :
    ∃ (e : Forever (Live.Step c setup enabled) (Live.start progs)) (n : Nat) (t' : Task), tr <+: connActs (e.upTo n) ∧ (∀ n, e.act n ≠ some (.log .crash)) ∧ (∀ n, e.act n ≠ some (.log .drop)) ∧
      e.Fair (LiveAct.isTurn i) ∧ e.Fair LiveAct.ofConsumer ∧ (e.state n).server.task i = some t' ∧ t'.all = t.all := by
  obtain ⟨tr', v', t', _, h2, h3, _, h5, h6⟩ := h.finish_turns i t ht
  obtain ⟨tl, l, k1, k2, k3, k4, k5⟩ := live_of_server (enabled := enabled) progs h2
  obtain ⟨tc, l', c1, c2, c3, c4⟩ := Log.consumer_settles enabled (Log.work l) l (Nat.le_refl _) (by rw [k3]; simp)
  have hrun := k1.trans (live_consumer (c := c) (setup := setup) (s := ⟨v', l⟩) c1 c2)
  obtain ⟨e, e1, e2⟩ := run_live hrun
  have hact : ∀ n a, e.act n = some a → a ∈ tl ++ tc.map LiveAct.log := by
    intro n a hn
    by_cases hlt : n < (tl ++ tc.map LiveAct.log).length
    · have := Log.acts_upTo e hn hlt
      rwa [e1 _ (Nat.le_refl _), List.take_length] at this
    · rw [(e2 n (by omega)).2] at hn; cases hn
  have hlog : ∀ n b, e.act n = some (.log b) → b.ofConsumer = true := by
    intro n b hn
    rcases List.mem_append.mp (hact n _ hn) with h | h
    · exact absurd h (k5 b)
    · obtain ⟨b', hb, hb'⟩ := List.mem_map.mp h
      cases hb'
      exact c2 _ hb
  refine ⟨e, (tl ++ tc.map LiveAct.log).length, t', ?_, fun n hn => ?_, fun n hn => ?_, fun n hen => ?_, fun n hen => ?_, ?_, h5⟩
  · rw [e1 _ (Nat.le_refl _), List.take_length, connActs_append, k2, List.append_assoc]
    exact List.prefix_append _ _
  · exact absurd (hlog n _ hn) (by simp [Log.Act.ofConsumer])
  · exact absurd (hlog n _ hn) (by simp [Log.Act.ofConsumer])
  · obtain ⟨a, u, ha, hs⟩ := hen (max n (tl ++ tc.map LiveAct.log).length) (Nat.le_max_left _ _)
    rw [(e2 _ (Nat.le_max_right _ _)).1] at hs
    cases hs with
    | conn j b w hw _ =>
      simp only [LiveAct.isTurn, isTurn, Bool.and_eq_true, Bool.or_eq_true, decide_eq_true_eq] at ha
      obtain ⟨rfl, ha⟩ := ha
      exact absurd hw (h6 b w (by rcases ha with (h | h) | h <;> simp [h]))
    | record j w r time file line b l hw _ _ _ =>
      simp only [LiveAct.isTurn, decide_eq_true_eq] at ha
      subst ha
      exact absurd hw (h6 .act w (by simp))
    | log => cases ha
  · obtain ⟨a, u, ha, hs⟩ := hen (max n (tl ++ tc.map LiveAct.log).length) (Nat.le_max_left _ _)
    rw [(e2 _ (Nat.le_max_right _ _)).1] at hs
    cases hs with
    | conn => cases ha
    | record => cases ha
    | log b l _ hl => exact absurd hl (Log.no_consumer c4 ha)
  · rw [(e2 _ (Nat.le_refl _)).1]; exact h3

/-- The two clients of `twoClients`: the first one's five records, and its answer. -/
example : ∃ (e : Forever (Live.Step noCodec twoSetup (passes .trace)) (Live.start (fun _ => []))) (m : Nat) (items : List Item),
    items.map (·.msg) = [b!"connection made, 10.0.0.1:1", b!"Request From 127.0.0.1:5000", b!"GET / Ok((1, 1))", b!"host: h", b!"EmptyBody"] ∧
    ∀ m', m ≤ m' → helloText b!"HTTP/1.1" 0 <+: (e.state m').server.wire 0 ∧
      items.filter (passes .trace) <+: Log.Spec.byThread 1 (Log.Spec.writes (logActs (e.upTo m'))) := by
  have hd : (Server.start.run? noCodec twoSetup (twoClients.take 10)).map (fun s => (s.task 0).map (fun t =>
      (((serve noCodec (twoSetup 0).lim (twoSetup 0).env t.all).1.map (·.written)).flatten, (serveLog noCodec (twoSetup 0).lim (twoSetup 0).env (twoSetup 0).log t.all).map (·.msg)))) =
      some (some (helloText b!"HTTP/1.1" 0, [b!"connection made, 10.0.0.1:1", b!"Request From 127.0.0.1:5000", b!"GET / Ok((1, 1))", b!"host: h", b!"EmptyBody"])) := by decide +kernel
  cases hs : Server.start.run? noCodec twoSetup (twoClients.take 10) with
  | none => rw [hs] at hd; cases hd
  | some s =>
    rw [hs] at hd
    simp only [Option.map_some, Option.some.injEq] at hd
    cases ht : s.task 0 with
    | none => rw [ht] at hd; cases hd
    | some t =>
      rw [ht] at hd
      simp only [Option.map_some, Option.some.injEq, Prod.mk.injEq] at hd
      have hrun : Server.Run noCodec twoSetup (twoClients.take 10) s := by simpa using Server.run?_sound .nil hs
      obtain ⟨e, n, t', _, h2, h3, h4, h5, h6, h7⟩ := C221_live_possible noCodec twoSetup (passes .trace) (fun _ => []) _ s hrun 0 t ht
      obtain ⟨m, items, _, k2, k3⟩ := C221_live noCodec twoSetup _ _ e h2 h3 0 h4 h5 n t' h6
      rw [h7] at k2 k3
      refine ⟨e, m, items, ?_, fun m' hm' => ?_⟩
      · rw [← hd.2]
        revert k2
        generalize serveLog noCodec (twoSetup 0).lim (twoSetup 0).env (twoSetup 0).log t.all = recs
        intro k2
        clear hd k3
        induction k2 with
        | nil => rfl
        | cons h _ ih => obtain ⟨_, _, _, rfl⟩ := h; simp [ih, Rec.item, Item.from]
      · have := k3 m' hm'
        rw [hd.1] at this
        exact this

end
end Httpd
