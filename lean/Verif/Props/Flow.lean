import Verif.Model.Flow
import Verif.Props.Fairness
/-!
# Clients that take their answers slowly, or not at all (C227)
-/

namespace Httpd
open Spec MultiMap

variable {K : Type} {c : Codec K} {setup : Nat → Setup K} {room : Nat → Nat}

/-- A turn of the task of connection `i`, or of the kernel that takes its bytes. -/
def isFlowTurn (i : Nat) (a : Nat × FlowAct) : Bool := a.1 = i && (match a.2 with
  | .net b => b.ofTask
  | .push _ => true
  | .take _ => false)

/-- The client of connection `i` takes something. -/
def isTake (i : Nat) (a : Nat × FlowAct) : Bool := a.1 = i && (match a.2 with
  | .take _ => true
  | _ => false)

/-- What happens as `Model/Tasks.lean` tells it. -/
def FlowAct.below (a : Nat × FlowAct) : Option (Nat × ServerAct) := match a.2 with
  | .net b => some (a.1, b)
  | _ => none

theorem isTurn_ofTask (i : Nat) (a : Nat × ServerAct) : isTurn i a = (decide (a.1 = i) && a.2.ofTask) := by
  obtain ⟨j, a⟩ := a
  cases a <;> simp [isTurn, ServerAct.ofTask]

theorem Server.Step.wire {s s' : Server} {a : Nat × ServerAct} (h : Server.Step c setup s a s') (i : Nat) (hi : isTurn i a = false) : s'.wire i = s.wire i := by
  cases h with
  | answer j t b hj hact =>
    have : ¬ i = j := by rintro rfl; simp [isTurn] at hi
    simp [this]
  | _ => rfl

/-- **Refinement**: leaving out how the answers travel, this is an execution of `Model/Tasks.lean`. -/
theorem Flow.Run.asServer {tr : List (Nat × FlowAct)} {s : Flow} (h : Flow.Run c setup room tr s) : Server.Run c setup (tr.filterMap FlowAct.below) s.net := by
  induction h with
  | nil => exact .nil
  | @snoc tr s s' a _ hs ih =>
    rw [List.filterMap_append]
    cases hs with
    | net j a n hp hb => exact .snoc ih hb
    | push j n h0 h1 h2 =>
      have : List.filterMap FlowAct.below [(j, FlowAct.push n)] = [] := rfl
      rw [this, List.append_nil]; exact ih
    | take j n h0 h1 =>
      have : List.filterMap FlowAct.below [(j, FlowAct.take n)] = [] := rfl
      rw [this, List.append_nil]; exact ih

structure FlowOk (room : Nat → Nat) (s : Flow) (i : Nat) : Prop where
  taken : s.taken i ≤ s.sent i
  sent : s.sent i ≤ (s.net.wire i).length
  room : s.sent i ≤ s.taken i + room i

theorem Flow.Step.ok {s s' : Flow} {a : Nat × FlowAct} (h : Flow.Step c setup room s a s') (i : Nat) (h0 : FlowOk room s i) : FlowOk room s' i := by
  cases h with
  | net j a n hp hb =>
    refine ⟨h0.taken, Nat.le_trans h0.sent ?_, h0.room⟩
    exact (hb.later i).wire.length_le
  | push j n k0 k1 k2 =>
    by_cases hi : i = j
    · subst hi
      have := h0.taken
      constructor <;> simp only [↓reduceIte] <;> omega
    · exact ⟨by simp only [hi, ↓reduceIte]; exact h0.taken, by simp only [hi, ↓reduceIte]; exact h0.sent, by simp only [hi, ↓reduceIte]; exact h0.room⟩
  | take j n k0 k1 =>
    by_cases hi : i = j
    · subst hi
      have := h0.room
      have := h0.sent
      constructor <;> simp only [↓reduceIte] <;> omega
    · exact ⟨by simp only [hi, ↓reduceIte]; exact h0.taken, h0.sent, by simp only [hi, ↓reduceIte]; exact h0.room⟩

theorem Flow.Run.ok {tr : List (Nat × FlowAct)} {s : Flow} (h : Flow.Run c setup room tr s) (i : Nat) : FlowOk room s i := by
  induction h with
  | nil => exact ⟨Nat.le_refl _, Nat.zero_le _, Nat.zero_le _⟩
  | snoc _ hs ih => exact hs.ok i ih

/-- All but the last answer are with the kernel. -/
theorem Flow.Run.last {tr : List (Nat × FlowAct)} {s : Flow} (h : Flow.Run c setup room tr s) (i : Nat) :
    ∃ p b, s.net.wire i = p ++ b ∧ p.length ≤ s.sent i ∧
      (b = [] ∨ ∃ t, s.net.task i = some t ∧ .answer b ∈ serveActs c (setup i).lim (setup i).env (setup i).log t.all) := by
  induction h with
  | nil => exact ⟨[], [], rfl, Nat.le_refl _, .inl rfl⟩
  | @snoc tr s s' a hrun hs ih =>
    obtain ⟨p, b, h1, h2, h3⟩ := ih
    have keep : ∀ s1 : Server, (∀ t, s.net.task i = some t → ∃ t', s1.task i = some t' ∧ (t.fin = .silent ∧ t.arrived <+: t'.arrived ∨ t'.arrived = t.arrived ∧ t'.fin = t.fin)) →
        (b = [] ∨ ∃ t, s1.task i = some t ∧ .answer b ∈ serveActs c (setup i).lim (setup i).env (setup i).log t.all) := by
      intro s1 hl
      rcases h3 with h3 | ⟨t, ht, hm⟩
      · exact .inl h3
      · obtain ⟨t', k1, k2⟩ := hl t ht
        exact .inr ⟨t', k1, (acts_later (c := c) (x := setup i) k2).subset hm⟩
    cases hs with
    | push j n k0 k1 k2 =>
      refine ⟨p, b, h1, Nat.le_trans h2 ?_, h3⟩
      simp only
      split
      · subst_vars; omega
      · exact Nat.le_refl _
    | take j n k0 k1 => exact ⟨p, b, h1, h2, h3⟩
    | net j a n hp hb =>
      have hl := hb.later i
      by_cases hw : n.wire i = s.net.wire i
      · exact ⟨p, b, hw.trans h1, h2, keep n hl.task⟩
      · have hrun' := Server.Run.snoc hrun.asServer hb
        cases hb with
        | answer _ t b' hj hact =>
          simp only at hw
          have hi : i = j := by
            apply Classical.byContradiction
            intro hi
            simp [hi] at hw
          subst hi
          refine ⟨s.net.wire i, b', by simp, ?_, .inr ⟨{ t with done := t.done + 1 }, by simp [Server.put], ?_⟩⟩
          · rw [hp rfl]; exact Nat.le_refl _
          · have h0 := (hrun.asServer.inv i).2 t hj
            exact (Task.acts_all h0).1.subset (List.mem_of_getElem? hact)
        | _ => exact absurd rfl hw

/-- **C227.** Whatever the clients take and when, and however the tasks take turns: what a client has taken is at every moment a beginning of what `serve` answers to the bytes that have arrived from it;
the kernel has at most `room` bytes for it; and of what the server has begun to write, all but the last answer is with the client or the kernel. So if no answer is longer than `B` bytes the server
has never begun to write more than `B` bytes beyond what the client has taken and the kernel has room for: it does not go on reading requests of a client that does not read its answers. -/
theorem C227_as_if_alone (c : Codec K) (setup : Nat → Setup K) (room : Nat → Nat) (tr : List (Nat × FlowAct)) (s : Flow) (h : Flow.Run c setup room tr s)
    (i : Nat) (t : Task) (ht : s.net.task i = some t) :
    s.received i <+: s.net.wire i ∧
    s.net.wire i <+: ((serve c (setup i).lim (setup i).env t.all).1.map (·.written)).flatten ∧
    (s.received i).length = s.taken i ∧ s.sent i ≤ s.taken i + room i ∧
    ∀ B, (∀ b, .answer b ∈ serveActs c (setup i).lim (setup i).env (setup i).log t.all → b.length ≤ B) → (s.net.wire i).length ≤ (s.received i).length + room i + B := by
  have h0 := h.ok i
  have hlen : (s.received i).length = s.taken i := by
    rw [Flow.received, List.length_take]
    exact Nat.min_eq_left (Nat.le_trans h0.taken h0.sent)
  refine ⟨List.take_prefix _ _, ?_, hlen, h0.room, fun B hB => ?_⟩
  · obtain ⟨p, hp, hw, _⟩ := (C206_as_if_alone c setup _ _ h.asServer i t ht).1
    rw [hw, ← (serveActs_spec c (setup i).lim (setup i).env (setup i).log t.all).2]
    exact answered_prefix hp
  · obtain ⟨p, b, k1, k2, k3⟩ := h.last i
    have k4 := h0.room
    rw [k1, List.length_append, hlen]
    rcases k3 with rfl | ⟨t', k5, k6⟩
    · simp; omega
    · cases ht.symm.trans k5
      have := hB b k6
      omega

/-- **C227.** Leaving out everything that happened on the other connections leaves an execution in which this client gets the same. -/
theorem C227_others_left_out (c : Codec K) (setup : Nat → Setup K) (room : Nat → Nat) (tr : List (Nat × FlowAct)) (s : Flow) (h : Flow.Run c setup room tr s) (i : Nat) :
    ∃ s', Flow.Run c setup room (tr.filter (fun a => a.1 = i)) s' ∧ s'.net.task i = s.net.task i ∧ s'.net.wire i = s.net.wire i ∧ s'.sent i = s.sent i ∧
      s'.taken i = s.taken i ∧ s'.received i = s.received i := by
  suffices hs : ∃ s', Flow.Run c setup room (tr.filter (fun a => a.1 = i)) s' ∧ s'.net.task i = s.net.task i ∧ s'.net.wire i = s.net.wire i ∧ s'.sent i = s.sent i ∧
      s'.taken i = s.taken i by
    obtain ⟨s', h1, h2, h3, h4, h5⟩ := hs
    exact ⟨s', h1, h2, h3, h4, h5, by rw [Flow.received, Flow.received, h3, h5]⟩
  induction h with
  | nil => exact ⟨_, .nil, rfl, rfl, rfl, rfl⟩
  | @snoc tr s s1 a _ hs ih =>
    obtain ⟨s', hrun, h1, h2, h3, h4⟩ := ih
    rw [List.filter_append]
    by_cases ha : a.1 = i
    · rw [List.filter_cons_of_pos (by simpa using ha)]
      cases hs with
      | net j a n hp hb =>
        simp only at ha
        subst ha
        obtain ⟨t, w, q, _, k2, k3⟩ := hb.frame
        refine ⟨{ s' with net := s'.net.upd j t w q }, .snoc hrun (.net s' j a _ (fun h => by rw [h3, h2]; exact hp h) (k2 s'.net h1)), ?_, ?_, h3, h4⟩
        · rw [k3]; simp [Server.upd]
        · rw [k3]; simp [Server.upd, h2]
      | push j n k0 k1 k2 =>
        simp only at ha
        subst ha
        exact ⟨_, .snoc hrun (.push s' j n k0 (by rw [h3, h2]; exact k1) (by rw [h3, h4]; exact k2)), h1, h2, by simp [h3], h4⟩
      | take j n k0 k1 =>
        simp only at ha
        subst ha
        exact ⟨_, .snoc hrun (.take s' j n k0 (by rw [h3, h4]; exact k1)), h1, h2, h3, by simp [h4]⟩
    · rw [List.filter_cons_of_neg (by simpa using ha)]
      refine ⟨s', by simpa using hrun, ?_⟩
      have hai : i ≠ a.1 := fun h => ha h.symm
      cases hs with
      | net j a n hp hb =>
        simp only at hai
        obtain ⟨t, w, q, _, _, k3⟩ := hb.frame
        refine ⟨?_, ?_, h3, h4⟩
        · rw [k3]; simpa [Server.upd, hai] using h1
        · rw [k3]; simpa [Server.upd, hai] using h2
      | push j n k0 k1 k2 => simp only at hai; exact ⟨h1, h2, by simpa [hai] using h3, h4⟩
      | take j n k0 k1 => simp only at hai; exact ⟨h1, h2, h3, by simpa [hai] using h4⟩

/-! ## Executions without end -/

theorem flow_forever_run (e : Forever (Flow.Step c setup room) Flow.start) (n : Nat) : Flow.Run c setup room (e.upTo n) (e.state n) := by
  induction n with
  | zero => rw [e.first]; exact .nil
  | succ n ih =>
    have h := e.next n
    unfold Forever.upTo
    cases ha : e.act n with
    | none => rw [ha] at h; simp only at h; rw [h]; simpa using ih
    | some a => rw [ha] at h; exact .snoc ih h

/-- The same as `Model/Tasks.lean` tells it. -/
def flowBelow (e : Forever (Flow.Step c setup room) Flow.start) : Forever (Server.Step c setup) Server.start where
  state n := (e.state n).net
  act n := (e.act n).bind FlowAct.below
  first := by rw [e.first]; rfl
  next n := by
    have h := e.next n
    cases ha : e.act n with
    | none => rw [ha] at h; simp only at h; simp [h]
    | some a =>
      rw [ha] at h
      simp only at h
      generalize e.state n = s at *
      generalize e.state (n + 1) = s' at *
      cases h with
      | net j a n hp hb => exact hb
      | push j n k0 k1 k2 => rfl
      | take j n k0 k1 => rfl

/-- What never shrinks and does not grow without bound stays the same from some moment on. -/
theorem stays (f : Nat → Nat) (hmono : ∀ n, f n ≤ f (n + 1)) (n B : Nat) (hB : ∀ m, n ≤ m → f m ≤ B) : ∃ m, n ≤ m ∧ ∀ m', m ≤ m' → f m' = f m := by
  generalize hd : B - f n = d
  induction d using Nat.strongRecOn generalizing n with
  | _ d ih =>
    by_cases h : ∃ m, n ≤ m ∧ f n < f m
    · obtain ⟨m, h1, h2⟩ := h
      have := hB m h1
      obtain ⟨m1, k1, k2⟩ := ih (B - f m) (by omega) m (fun m' hm' => hB m' (by omega)) rfl
      exact ⟨m1, by omega, k2⟩
    · refine ⟨n, Nat.le_refl _, fun m' hm' => ?_⟩
      have h1 : f n ≤ f m' := by
        induction hm' with
        | refl => exact Nat.le_refl _
        | step _ ih => exact Nat.le_trans ih (hmono _)
      have h2 : ¬ f n < f m' := fun hlt => h ⟨m', hm', hlt⟩
      omega

structure FlowLater (i : Nat) (s s' : Flow) : Prop where
  sent : s.sent i ≤ s'.sent i
  taken : s.taken i ≤ s'.taken i
  wire : s.net.wire i <+: s'.net.wire i

theorem FlowLater.refl (i : Nat) (s : Flow) : FlowLater i s s := ⟨Nat.le_refl _, Nat.le_refl _, List.prefix_rfl⟩

theorem Flow.Step.later {s s' : Flow} {a : Nat × FlowAct} (h : Flow.Step c setup room s a s') (i : Nat) : FlowLater i s s' := by
  cases h with
  | net j a n hp hb => exact ⟨Nat.le_refl _, Nat.le_refl _, (hb.later i).wire⟩
  | push j n k0 k1 k2 =>
    refine ⟨?_, Nat.le_refl _, List.prefix_rfl⟩
    simp only; split
    · subst_vars; omega
    · exact Nat.le_refl _
  | take j n k0 k1 =>
    refine ⟨Nat.le_refl _, ?_, List.prefix_rfl⟩
    simp only; split
    · subst_vars; omega
    · exact Nat.le_refl _

theorem flow_next (e : Forever (Flow.Step c setup room) Flow.start) (i n : Nat) : FlowLater i (e.state n) (e.state (n + 1)) := by
  have := e.next n
  cases ha : e.act n with
  | none => rw [ha] at this; simp only at this; rw [this]; exact FlowLater.refl i _
  | some a => rw [ha] at this; exact this.later i

theorem flow_later (e : Forever (Flow.Step c setup room) Flow.start) (i n m : Nat) (h : n ≤ m) : FlowLater i (e.state n) (e.state m) := by
  induction h with
  | refl => exact FlowLater.refl i _
  | @step m _ ih =>
    have := flow_next e i m
    exact ⟨Nat.le_trans ih.sent this.sent, Nat.le_trans ih.taken this.taken, ih.wire.trans this.wire⟩

/-- **As long as the server is writing, the client gets on**: if the client takes what there is, it does not stay below what has been begun to be written. -/
theorem flow_taken (e : Forever (Flow.Step c setup room) Flow.start) (i : Nat) (hroom : 0 < room i) (hfair : e.Fair (isFlowTurn i)) (htake : e.Fair (isTake i))
    (n L : Nat) (hL : L ≤ ((e.state n).net.wire i).length) : ∃ m, n ≤ m ∧ L ≤ (e.state m).taken i := by
  apply Classical.byContradiction
  intro hno
  have hno : ∀ m, n ≤ m → (e.state m).taken i < L := fun m hm => Nat.lt_of_not_le fun h => hno ⟨m, hm, h⟩
  obtain ⟨n1, h1, h2⟩ := stays (fun m => (e.state m).taken i) (fun m => (flow_next e i m).taken) n L (fun m hm => Nat.le_of_lt (hno m hm))
  -- nothing is taken any more, so there is nothing to take
  have hnotake : ∀ m a, n1 ≤ m → e.act m = some a → isTake i a = true → False := by
    intro m a hm ha hmine
    have hs := e.next m
    rw [ha] at hs
    simp only at hs
    have h3 := h2 m hm
    have h4 := h2 (m + 1) (by omega)
    generalize e.state m = s at *
    generalize e.state (m + 1) = s' at *
    cases hs with
    | take j k k0 k1 =>
      simp only [isTake, Bool.and_true, decide_eq_true_eq] at hmine
      subst hmine
      simp only [↓reduceIte] at h4
      omega
    | net => simp [isTake] at hmine
    | push => simp [isTake] at hmine
  have hsent : ∀ m, n1 ≤ m → (e.state m).sent i = (e.state m).taken i := by
    intro m hm
    refine Nat.le_antisymm (Nat.le_of_not_lt fun hlt => ?_) ((flow_forever_run e m).ok i).taken
    obtain ⟨m', a, k1, k2, k3⟩ := htake m (fun m' hm' => by
      have h3 := h2 m hm
      have h4 := h2 m' (by omega)
      have h5 := (flow_later e i m m' hm').sent
      exact ⟨(i, .take 1), _, by simp [isTake], .take _ i 1 (by omega) (by omega)⟩)
    exact hnotake m' a (by omega) k2 k3
  -- so the kernel has room, and takes more
  obtain ⟨m, a, k1, k2, k3⟩ := hfair n1 (fun m hm => by
    have h3 := hno m (by omega)
    have h4 := hsent m hm
    have h5 := (flow_later e i n m (by omega)).wire.length_le
    exact ⟨(i, .push 1), _, by simp [isFlowTurn], .push _ i 1 (by omega) (by omega) (by omega)⟩)
  have hs := e.next m
  rw [k2] at hs
  simp only at hs
  have h3 := hno m (by omega)
  have h4 := hsent m k1
  have h4' := hsent (m + 1) (by omega)
  have h5 := (flow_later e i n m (by omega)).wire.length_le
  have h6 := h2 m k1
  have h7 := h2 (m + 1) (by omega)
  generalize e.state m = s at *
  generalize e.state (m + 1) = s' at *
  cases hs with
  | net j b n' hp hb =>
    simp only [isFlowTurn, Bool.and_eq_true, decide_eq_true_eq] at k3
    obtain ⟨rfl, k3⟩ := k3
    have := hp k3
    omega
  | push j k p0 p1 p2 =>
    simp only [isFlowTurn, Bool.and_true, decide_eq_true_eq] at k3
    subst k3
    simp only [↓reduceIte] at h4'
    omega
  | take => simp [isFlowTurn] at k3

/-- What has been begun to be written is taken in the end. -/
theorem flow_gets (e : Forever (Flow.Step c setup room) Flow.start) (i : Nat) (hroom : 0 < room i) (hfair : e.Fair (isFlowTurn i)) (htake : e.Fair (isTake i))
    (n : Nat) (w : Bytes) (h : w <+: (e.state n).net.wire i) : ∃ m, n ≤ m ∧ ∀ m', m ≤ m' → w <+: (e.state m').received i := by
  obtain ⟨m, h1, h2⟩ := flow_taken e i hroom hfair htake n _ h.length_le
  refine ⟨m, h1, fun m' hm' => ?_⟩
  have h3 := h.trans (flow_later e i n m' (by omega)).wire
  have h4 := (flow_later e i m m' hm').taken
  refine List.prefix_of_prefix_length_le h3 (List.take_prefix _ _) ?_
  rw [Flow.received, List.length_take]
  exact Nat.le_min.mpr ⟨Nat.le_trans h2 h4, h3.length_le⟩

/-- If the client takes what there is, the task is not left out for want of room. -/
theorem flow_fair (e : Forever (Flow.Step c setup room) Flow.start) (i : Nat) (hroom : 0 < room i) (hfair : e.Fair (isFlowTurn i)) (htake : e.Fair (isTake i)) :
    (flowBelow e).Fair (isTurn i) := by
  intro n hen
  apply Classical.byContradiction
  intro hno
  have hno : ∀ m a, n ≤ m → (e.act m).bind FlowAct.below = some a → isTurn i a = false := fun m a h1 h2 => by
    cases h3 : isTurn i a with
    | false => rfl
    | true => exact absurd ⟨m, a, h1, h2, h3⟩ hno
  -- nothing more is begun to be written
  have hwire : ∀ m, n ≤ m → (e.state m).net.wire i = (e.state n).net.wire i := by
    intro m hm
    induction hm with
    | refl => rfl
    | @step m hm ih =>
      rw [← ih]
      have hs := (flowBelow e).next m
      cases ha : (flowBelow e).act m with
      | none => rw [ha] at hs; exact congrArg (fun s : Server => s.wire i) hs
      | some a => rw [ha] at hs; exact hs.wire i (hno m a hm ha)
  obtain ⟨m, h1, h2⟩ := flow_taken e i hroom hfair htake n _ (Nat.le_refl _)
  have hall : ∀ m', m ≤ m' → (e.state m').sent i = ((e.state m').net.wire i).length := by
    intro m' hm'
    have h3 := (flow_forever_run e m').ok i
    have h4 := (flow_later e i m m' hm').taken
    have h5 := h3.taken
    have h6 := h3.sent
    rw [hwire m' (by omega)] at h6 ⊢
    omega
  obtain ⟨m', a, k1, k2, k3⟩ := hfair m (fun m' hm' => by
    obtain ⟨⟨j, a⟩, s', p1, p2⟩ := hen m' (by omega)
    rw [isTurn_ofTask] at p1
    simp only [Bool.and_eq_true, decide_eq_true_eq] at p1
    obtain ⟨rfl, p1⟩ := p1
    exact ⟨(j, .net a), _, by simp [isFlowTurn, p1], .net _ j a s' (fun _ => hall m' hm') p2⟩)
  have hs := e.next m'
  have hb := hno m'
  have h3 := hall m' k1
  rw [k2] at hs hb
  simp only at hs
  generalize e.state m' = s at *
  generalize e.state (m' + 1) = s' at *
  cases hs with
  | net j b n' hp hb' =>
    have := hb (j, b) (by omega) rfl
    rw [isTurn_ofTask] at this
    simp only [isFlowTurn] at k3
    rw [this] at k3
    cases k3
  | push j k p0 p1 p2 =>
    simp only [isFlowTurn, Bool.and_true, decide_eq_true_eq] at k3
    subst k3
    omega
  | take => simp [isFlowTurn] at k3

/-- **C227.** However slowly a client takes what it is sent, and whatever the other clients take or leave: if it goes on taking, and its task is not left out for ever, then from some moment on it has
taken everything that `serve` answers to what had arrived from it at a given moment. -/
theorem C227_eventually (c : Codec K) (setup : Nat → Setup K) (room : Nat → Nat) (e : Forever (Flow.Step c setup room) Flow.start) (i : Nat) (hroom : 0 < room i)
    (hfair : e.Fair (isFlowTurn i)) (htake : e.Fair (isTake i)) (n : Nat) (t : Task) (ht : (e.state n).net.task i = some t) :
    ∃ m, n ≤ m ∧ ∀ m', m ≤ m' → ((serve c (setup i).lim (setup i).env t.all).1.map (·.written)).flatten <+: (e.state m').received i := by
  obtain ⟨m, h1, h2⟩ := C220_eventually c setup (flowBelow e) i (flow_fair e i hroom hfair htake) n t ht
  obtain ⟨m1, h3, h4⟩ := flow_gets e i hroom hfair htake m _ (h2 m (Nat.le_refl _)).1
  exact ⟨m1, by omega, h4⟩

/-- **C227**, for complete requests: a client of hello-world from which any number of well-formed requests have arrived (none with major version 0), and that goes on taking, has from some moment on
taken the answers to all of them. -/
theorem C227_hello (c : Codec K) (setup : Nat → Setup K) (room : Nat → Nat) (e : Forever (Flow.Step c setup room) Flow.start) (i : Nat) (hroom : 0 < room i)
    (hfair : e.Fair (isFlowTurn i)) (htake : e.Fair (isTake i)) (n : Nat) (t : Task) (ht : (e.state n).net.task i = some t)
    (he : ∀ j, ((setup i).env j).http = helloHttp ∧ ((setup i).env j).write = .ok)
    (qs : List WireReq) (hq : ∀ q ∈ qs, q.WF (setup i).lim.maxUrl (setup i).lim.maxHeaderLine (setup i).lim.maxHeadersCount)
    (hopen : ∀ q ∈ qs, ¬ helloCloses q.head.w2) (more : Bytes) (hsent : (t.arrived.map Seg.bytes).flatten = encodeAll qs ++ more) :
    ∃ m, n ≤ m ∧ ∀ m', m ≤ m' → (qs.mapIdx (fun j q => helloText q.head.w2 j)).flatten <+: (e.state m').received i := by
  obtain ⟨m, h1, h2⟩ := C220_hello c setup (flowBelow e) i (flow_fair e i hroom hfair htake) n t ht he qs hq hopen more hsent
  obtain ⟨m1, h3, h4⟩ := flow_gets e i hroom hfair htake m _ (h2 m (Nat.le_refl _))
  exact ⟨m1, by omega, h4⟩

/-- **C227**, from the command line: let the file named there be accepted and the log started. Then the process goes on to serve the services that the file asks for, and a client that goes on taking
gets all that the grammar gives for the bytes that had arrived from it, for the kind and the limits that the file says, whatever the others do, take or leave. -/
theorem C227_command_line (m : Machine) (horder : ∀ l, (m.order l).Perm l) (p : Profile) (arg : Str)
    (harg : trimUnicode (fileArgument p arg) ≠ []) (v : Toml) (hread : m.read (fileArgument p arg) = some v)
    (hnd : ∀ ss, setting [u!"services", u!"Services"] 9 v = some (.table ss) → (ss.map (·.1)).Nodup) (c : Config)
    (hload : loadFile m.U p m.strict m.pathExists m.chdir m.glob m.order (some v) = .value c)
    (hlog : ∃ k, c.initLogging m.U m.openOk m.midnight m.names m.setOk = .value k) :
    ∃ services, m.start p arg = .serving services ∧ (services.map (·.1)).Nodup ∧ (∀ k, k ∈ services.map (·.1) ↔ ∃ sv, ToRun m.glob v k sv) ∧
      ∀ {K : Type} (codec : Codec K) (setup : Nat → Setup K) (room : Nat → Nat) (e : Forever (Flow.Step codec setup room) Flow.start),
        ∀ (q : Str × ServiceConfig), q ∈ services → ∀ i, (setup i).Serves q.2 → 0 < room i → e.Fair (isFlowTurn i) → e.Fair (isTake i) →
          ∀ n t, (e.state n).net.task i = some t →
          ∃ sv kind maxUrl maxLine maxHeaders, ToRun m.glob v q.1 sv ∧
            Given (KindSays m.strict) .helloWorld (setting [u!"service", u!"Service"] 2 sv) kind ∧
            LimitsInForce m.U p v sv maxUrl maxLine maxHeaders ∧
            ∀ reply stops, Answers kind reply stops →
              ∃ outs f, Talk maxUrl maxLine maxHeaders (afterOf t.fin) reply stops 0 (t.arrived.map Seg.bytes).flatten outs f ∧
                ∃ n', n ≤ n' ∧ ∀ n'', n' ≤ n'' → outs.flatten <+: (e.state n'').received i := by
  obtain ⟨services, h1, h2, h3, h4⟩ := C220_command_line m horder p arg harg v hread hnd c hload hlog
  refine ⟨services, h1, h2, h3, ?_⟩
  intro K codec setup room e q hof i hsetup hroom hfair htake n t ht
  obtain ⟨sv, kind, mu, ml, mh, k1, k2, k3, k4⟩ := h4 codec setup (flowBelow e) q hof i hsetup (flow_fair e i hroom hfair htake) n t ht
  refine ⟨sv, kind, mu, ml, mh, k1, k2, k3, fun reply stops ha => ?_⟩
  obtain ⟨outs, f, p1, n1, p2, p3⟩ := k4 reply stops ha
  obtain ⟨n2, p4, p5⟩ := flow_gets e i hroom hfair htake n1 _ (p3 n1 (Nat.le_refl _))
  exact ⟨outs, f, p1, n2, by omega, p5⟩

/-! ## There are such executions -/

theorem flow_run_forever {tr : List (Nat × FlowAct)} {s : Flow} (h : Flow.Run c setup room tr s) :
    ∃ e : Forever (Flow.Step c setup room) Flow.start, (∀ m, m ≤ tr.length → e.upTo m = tr.take m) ∧ ∀ m, tr.length ≤ m → e.state m = s ∧ e.act m = none := by
  induction h with
  | nil => exact ⟨⟨fun _ => Flow.start, fun _ => none, rfl, fun _ => rfl⟩, fun m hm => by cases Nat.le_zero.mp hm; rfl, fun _ _ => ⟨rfl, rfl⟩⟩
  | @snoc tr s s' a _ hs ih =>
    obtain ⟨e, h1, h2⟩ := ih
    obtain ⟨e', k1, k2, k3⟩ := forever_snoc e tr.length s s' a h2 hs
    refine ⟨e', fun m hm => ?_, fun m hm => k3 m (by simpa using hm)⟩
    by_cases h : m ≤ tr.length
    · rw [k1 m h, h1 m h, List.take_append_of_le_length h]
    · have : m = tr.length + 1 := by simp at hm; omega
      rw [this, k2, h1 _ (Nat.le_refl _)]
      rw [List.take_of_length_le (l := tr ++ [a]) (by simp), List.take_length]

/-- **C227**, clients that read beside clients that do not: whatever has happened so far and whichever clients go on taking, the execution can go on so that no task is left out, each of these takes what there
is, none of the others takes anything more, and nothing else happens. C227_eventually holds in it for the former. -/
theorem C227_possible (c : Codec K) (setup : Nat → Setup K) (room : Nat → Nat) (tr : List (Nat × FlowAct)) (s : Flow) (h : Flow.Run c setup room tr s) (reads : Nat → Bool) :
    ∃ e : Forever (Flow.Step c setup room) Flow.start, e.upTo tr.length = tr ∧ e.state tr.length = s ∧ (∀ i, e.Fair (isFlowTurn i)) ∧
      (∀ i, reads i = true → e.Fair (isTake i)) ∧ ∀ i, reads i = false → ∀ m, tr.length ≤ m → (e.state m).received i = s.received i := by
  obtain ⟨e, h1, h2⟩ := flow_run_forever h
  obtain ⟨e', k1, k2, k3, k4⟩ := fair_after e tr.length (fun k a => if k % 2 = 0 then isFlowTurn (k / 2) a else reads (k / 2) && isTake (k / 2) a)
  have hN : e'.state tr.length = s := by rw [k1 _ (Nat.le_refl _), (h2 _ (Nat.le_refl _)).1]
  refine ⟨e', ?_, hN, fun i => ?_, fun i hi => ?_, fun i hi m hm => ?_⟩
  · rw [upTo_congr k2 _ (Nat.le_refl _), h1 _ (Nat.le_refl _), List.take_length]
  · have := k3 (2 * i)
    have h0 : 2 * i % 2 = 0 := by omega
    have h1 : 2 * i / 2 = i := by omega
    simpa only [h0, h1, ↓reduceIte] using this
  · have := k3 (2 * i + 1)
    have h0 : ¬ (2 * i + 1) % 2 = 0 := by omega
    have h1 : (2 * i + 1) / 2 = i := by omega
    simpa only [h0, h1, ↓reduceIte, hi, Bool.true_and] using this
  · have htaken : (e'.state m).taken i = s.taken i := by
      induction hm with
      | refl => rw [hN]
      | @step m hm ih =>
        rw [← ih]
        have hs := e'.next m
        cases ha : e'.act m with
        | none => rw [ha] at hs; simp only at hs; rw [hs]
        | some a =>
          obtain ⟨k, hk⟩ := k4 m a hm ha
          rw [ha] at hs
          simp only at hs
          generalize e'.state m = s1 at *
          generalize e'.state (m + 1) = s2 at *
          cases hs with
          | net => rfl
          | push => rfl
          | take j n p0 p1 =>
            have : ¬ i = j := by
              rintro rfl
              split at hk
              · simp [isFlowTurn] at hk
              · simp only [isTake, Bool.and_true, Bool.and_eq_true, decide_eq_true_eq] at hk
                obtain ⟨q1, q2⟩ := hk
                rw [← q2, hi] at q1
                cases q1
            simp [this]
    have hl := (flow_later e' i _ m hm).wire
    rw [hN] at hl
    have h0 := h.ok i
    rw [Flow.received, Flow.received, htaken]
    obtain ⟨y, hy⟩ := hl
    rw [← hy, List.take_append_of_le_length (Nat.le_trans h0.taken h0.sent)]

/-! ## Concrete cases -/

/-- The steps as a function. -/
def Flow.step? (c : Codec K) (setup : Nat → Setup K) (room : Nat → Nat) (s : Flow) (a : Nat × FlowAct) : Option Flow :=
  match a.2 with
  | .net b => if b.ofTask = true → s.sent a.1 = (s.net.wire a.1).length then (s.net.step? c setup (a.1, b)).map fun n => { s with net := n } else none
  | .push n => if 0 < n ∧ s.sent a.1 + n ≤ (s.net.wire a.1).length ∧ s.sent a.1 + n ≤ s.taken a.1 + room a.1
    then some { s with sent := fun j => if j = a.1 then s.sent a.1 + n else s.sent j } else none
  | .take n => if 0 < n ∧ s.taken a.1 + n ≤ s.sent a.1 then some { s with taken := fun j => if j = a.1 then s.taken a.1 + n else s.taken j } else none

theorem Flow.step?_sound {s s' : Flow} {a : Nat × FlowAct} (h : s.step? c setup room a = some s') : Flow.Step c setup room s a s' := by
  obtain ⟨i, a⟩ := a
  cases a with
  | net b =>
    simp only [Flow.step?] at h
    split at h
    · rename_i hc
      cases hn : s.net.step? c setup (i, b) with
      | none => rw [hn] at h; cases h
      | some n => rw [hn] at h; cases h; exact .net s i b n hc (Server.step?_sound hn)
    · cases h
  | push n =>
    simp only [Flow.step?] at h
    split at h
    · rename_i hc; cases h; exact .push s i n hc.1 hc.2.1 hc.2.2
    · cases h
  | take n =>
    simp only [Flow.step?] at h
    split at h
    · rename_i hc; cases h; exact .take s i n hc.1 hc.2
    · cases h

/-- Many of them. -/
def Flow.run? (c : Codec K) (setup : Nat → Setup K) (room : Nat → Nat) : Flow → List (Nat × FlowAct) → Option Flow
  | s, [] => some s
  | s, a :: tr => match s.step? c setup room a with
    | some s' => Flow.run? c setup room s' tr
    | none => none

theorem Flow.run?_sound {tr tr' : List (Nat × FlowAct)} {s s' : Flow} (h0 : Flow.Run c setup room tr' s) (h : s.run? c setup room tr = some s') :
    Flow.Run c setup room (tr' ++ tr) s' := by
  induction tr generalizing s tr' with
  | nil => cases h; simpa using h0
  | cons a tr ih =>
    unfold Flow.run? at h
    split at h
    · rename_i s1 h1
      have := ih (.snoc h0 (Flow.step?_sound h1)) h
      simpa using this
    · cases h

/-- Two clients of hello-world that send two requests each at once; the kernel has room for 40 bytes. The first one takes nothing, the second one takes 30 bytes and then as much as there is. -/
def slowClients : List (Nat × FlowAct) :=
  let two : Seg := ⟨71, b!"ET / HTTP/1.1\r\n\r\nGET / HTTP/1.1\r\n\r\n"⟩
  [(0, .net .accept), (1, .net .accept), (0, .net .act), (1, .net .act), (0, .net (.send two)), (1, .net (.send two)), (0, .net .fetch), (1, .net .fetch),
   (0, .net .act), (0, .net .act), (0, .net .act), (0, .net .act), (1, .net .act), (1, .net .act), (1, .net .act), (1, .net .act), (0, .push 40), (1, .push 40), (1, .take 30), (1, .push 30), (1, .take 40)]

/-- C227: the first client has taken nothing; the kernel has 40 bytes for it, and the task can do nothing; the second one has got 70 bytes of its answer and its task can go on. -/
example : ∃ s, Flow.Run noCodec twoSetup (fun _ => 40) slowClients s ∧ s.received 0 = [] ∧ s.sent 0 = 40 ∧ (s.received 1).length = 70 ∧ 70 < (s.net.wire 1).length ∧
    s.step? noCodec twoSetup (fun _ => 40) (0, .push 1) = none ∧ s.step? noCodec twoSetup (fun _ => 40) (0, .net .act) = none ∧
    (s.step? noCodec twoSetup (fun _ => 40) (1, .push 7)).isSome = true := by
  have h : ((Flow.start.run? noCodec twoSetup (fun _ => 40) slowClients).map fun s =>
      ((s.received 0, s.sent 0, (s.received 1).length), [decide (70 < (s.net.wire 1).length), (s.step? noCodec twoSetup (fun _ => 40) (0, .push 1)).isNone,
        (s.step? noCodec twoSetup (fun _ => 40) (0, .net .act)).isNone, (s.step? noCodec twoSetup (fun _ => 40) (1, .push 7)).isSome])) =
      some (([], 40, 70), [true, true, true, true]) := by
    decide +kernel
  cases hs : Flow.start.run? noCodec twoSetup (fun _ => 40) slowClients with
  | none => rw [hs] at h; cases h
  | some s =>
    rw [hs] at h
    simp only [Option.map_some, Option.some.injEq, Prod.mk.injEq, List.cons.injEq, decide_eq_true_eq, Option.isNone_iff_eq_none] at h
    obtain ⟨⟨h1, h2, h3⟩, h4, h5, h6, h7, _⟩ := h
    exact ⟨s, Flow.run?_sound .nil hs, h1, h2, h3, h4, h5, h6, h7⟩

end Httpd
