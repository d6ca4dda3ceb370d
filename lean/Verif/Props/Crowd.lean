import Verif.Model.Crowd
import Verif.Props.Accepting
import Verif.Props.LogForever
import Verif.Props.Fairness
/-!
# Everybody is accepted and answered in the end (C223)
-/

namespace Httpd
open Spec MultiMap

variable {K : Type} {c : Codec K} {setup : Nat → Setup K} {limit : Nat}

/-! ## One connection -/

/-- The task has done everything it ever will. -/
def Task.over (c : Codec K) (x : Setup K) (t : Task) (f : Ending) : Prop :=
  t.done = (t.acts c x).length ∧ (serve c x.lim x.env t.reader).2 = f

/-- How `serve` ends is settled when it does not wait for the client. -/
theorem ending_later {x : Setup K} {t t' : Task} (h : t.fin = .silent ∧ t.arrived <+: t'.arrived ∨ t'.arrived = t.arrived ∧ t'.fin = t.fin)
    (hw : (serve c x.lim x.env t.all).2 ≠ .waiting) :
    (serve c x.lim x.env t'.all).2 = (serve c x.lim x.env t.all).2 ∧
      serveActs c x.lim x.env x.log t'.all = serveActs c x.lim x.env x.log t.all := by
  rcases h with ⟨h1, y, h2⟩ | ⟨h1, h2⟩
  · have hx : t'.all.flat = t.all.flat ++ (y.map Seg.bytes).flatten := by simp [Task.all, Reader.flat, ← h2]
    obtain ⟨_, _, h3⟩ := C98_online c x.lim x.env t.all t'.all _ h1 hx
    exact ⟨(h3 hw).2, (serveActs_extend c x.lim x.env x.log _ t.all t'.all h1 hx).2 hw⟩
  · have : t'.all = t.all := by simp [Task.all, h1, h2]
    rw [this]; exact ⟨rfl, rfl⟩

/-- What the task has read so far ends as everything does, unless it waits. -/
theorem Task.ending_all {x : Setup K} {t : Task} {recs : List Rec} {out : Bytes} (h : TaskOk c x t recs out)
    (hw : (serve c x.lim x.env t.reader).2 ≠ .waiting) : (serve c x.lim x.env t.all).2 = (serve c x.lim x.env t.reader).2 := by
  cases he : t.sawEnd with
  | true =>
    have : t.reader = t.all := by simp only [Task.reader, Task.all, he, ↓reduceIte, (h.ended he).2, List.take_length]
    rw [this]
  | false =>
    obtain ⟨_, _, h3⟩ := C98_online c x.lim x.env t.reader t.all (((t.arrived.drop t.fetched).map Seg.bytes).flatten) (by simp [Task.reader, he])
      (by simp only [Task.reader, Task.all, Reader.flat, List.nil_append, ← List.flatten_append, ← List.map_append, List.take_append_drop])
    exact (h3 hw).2

/-- A task that is given what makes `serve` end can go on until it is over. -/
theorem can_go_on_over {tr : List (Nat × ServerAct)} {s : Server} (h : Server.Run c setup tr s) {i : Nat} {t : Task} (ht : s.task i = some t)
    (hw : (serve c (setup i).lim (setup i).env t.all).2 ≠ .waiting)
    (hn : ¬ t.over c (setup i) (serve c (setup i).lim (setup i).env t.all).2) : ∃ a s', isTurn i a = true ∧ Server.Step c setup s a s' := by
  apply Classical.byContradiction
  intro hno
  have hno' : ∀ a s', a = .fetch ∨ a = .seeEnd ∨ a = .act → ¬ Server.Step c setup s (i, a) s' := by
    intro a s' ha hs
    exact hno ⟨(i, a), s', by rcases ha with rfl | rfl | rfl <;> simp [isTurn], hs⟩
  have h0 := (h.inv i).2 t ht
  have hdone : t.done = (t.acts c (setup i)).length := by
    refine Nat.le_antisymm h0.done (Nat.not_lt.mp fun hlt => ?_)
    cases ha : (t.acts c (setup i))[t.done] with
    | log r => exact hno' .act _ (by simp) (.log s i t r ht (by rw [List.getElem?_eq_getElem hlt, ha]))
    | answer b => exact hno' .act _ (by simp) (.answer s i t b ht (by rw [List.getElem?_eq_getElem hlt, ha]))
  refine hn ⟨hdone, ?_⟩
  by_cases hr : (serve c (setup i).lim (setup i).env t.reader).2 = .waiting
  · have hf : t.fetched = t.arrived.length := by
      refine Nat.le_antisymm h0.fetched (Nat.not_lt.mp fun hlt => ?_)
      exact hno' .fetch _ (by simp) (.fetch s i t ht ⟨hdone, hr⟩ hlt)
    have he : t.reader = t.all := by
      cases hsaw : t.sawEnd with
      | true => simp only [Task.reader, Task.all, hsaw, ↓reduceIte, hf, List.take_length]
      | false =>
        by_cases hfin : t.fin = .silent
        · simp [Task.reader, Task.all, hsaw, hf, hfin]
        · exact absurd (.seeEnd s i t ht ⟨hdone, hr⟩ hf hfin hsaw) (hno' .seeEnd _ (by simp))
    rw [he]
  · exact (Task.ending_all h0 hr).symm

/-- A task that is over takes no more turns, whatever its client does. -/
theorem no_turn {s s' : Server} {i : Nat} {t : Task} {f : Ending} (ht : s.task i = some t) (ho : t.over c (setup i) f) (hf : f ≠ .waiting) {a : Nat × ServerAct}
    (ha : isTurn i a = true) : ¬ Server.Step c setup s a s' := by
  obtain ⟨j, a⟩ := a
  simp only [isTurn, Bool.and_eq_true, Bool.or_eq_true, decide_eq_true_eq] at ha
  obtain ⟨rfl, ha⟩ := ha
  intro hs
  cases hs with
  | accept _ hj => simp at ha
  | send _ _ _ _ _ => simp at ha
  | finish _ _ _ _ _ _ => simp at ha
  | fetch _ u hj hw hlt => cases hj.symm.trans ht; exact hf (ho.2.symm.trans hw.2)
  | seeEnd _ u hj hw _ _ _ => cases hj.symm.trans ht; exact hf (ho.2.symm.trans hw.2)
  | log _ u r hj hact =>
    cases hj.symm.trans ht
    have := (List.getElem?_eq_some_iff.mp hact).1
    have := ho.1
    omega
  | answer _ u b hj hact =>
    cases hj.symm.trans ht
    have := (List.getElem?_eq_some_iff.mp hact).1
    have := ho.1
    omega

/-- It stays over. -/
theorem over_for_good {tr : List (Nat × ServerAct)} {s s' : Server} (h : Server.Run c setup tr s) {i : Nat} {t : Task} {f : Ending} (ht : s.task i = some t)
    (ho : t.over c (setup i) f) (hf : f ≠ .waiting) {a : Nat × ServerAct} (hs : Server.Step c setup s a s') :
    ∃ t', s'.task i = some t' ∧ t'.over c (setup i) f := by
  have h0 := (h.inv i).2 t ht
  have hno := fun (ha : isTurn i a = true) => no_turn ht ho hf ha hs
  have keep : ∀ (j : Nat) (v v' : Task), s.task j = some v → (j = i → v'.reader = v.reader ∧ v'.done = v.done) →
      ∃ t', (s.put j v').task i = some t' ∧ t'.over c (setup i) f := by
    intro j v v' hj hp
    by_cases hi : i = j
    · subst hi
      cases hj.symm.trans ht
      obtain ⟨p1, p2⟩ := hp rfl
      refine ⟨v', by simp [Server.put], ?_⟩
      unfold Task.over Task.acts at *
      rw [p1, p2]; exact ho
    · exact ⟨t, by simpa [Server.put, hi] using ht, ho⟩
  cases hs with
  | accept j hj =>
    have : i ≠ j := by rintro rfl; rw [hj] at ht; cases ht
    exact ⟨t, by simpa [Server.put, this] using ht, ho⟩
  | send j v g hj hfin =>
    refine keep j v _ hj ?_
    rintro rfl
    cases hj.symm.trans ht
    exact ⟨by simp only [Task.reader, List.take_append_of_le_length h0.fetched], rfl⟩
  | finish j v e hj hfin hne =>
    refine keep j v _ hj ?_
    rintro rfl
    cases hj.symm.trans ht
    have hsaw : t.sawEnd = false := by
      cases hc : t.sawEnd with
      | false => rfl
      | true => exact absurd hfin (h0.ended hc).1
    exact ⟨by simp [Task.reader, hsaw], rfl⟩
  | fetch j v hj _ _ => refine keep j v _ hj ?_; rintro rfl; exact (hno (by simp [isTurn])).elim
  | seeEnd j v hj _ _ _ _ => refine keep j v _ hj ?_; rintro rfl; exact (hno (by simp [isTurn])).elim
  | log j v r hj _ => refine keep j v _ hj ?_; rintro rfl; exact (hno (by simp [isTurn])).elim
  | answer j v b hj _ => refine keep j v _ hj ?_; rintro rfl; exact (hno (by simp [isTurn])).elim

/-- **A task that is given what makes `serve` end is over at some moment.** -/
theorem over_in_the_end (e : Forever (Server.Step c setup) Server.start) (i : Nat) (hfair : e.Fair (isTurn i)) (n : Nat) (t : Task) (ht : (e.state n).task i = some t)
    (hw : (serve c (setup i).lim (setup i).env t.all).2 ≠ .waiting) :
    ∃ m t', n ≤ m ∧ (e.state m).task i = some t' ∧ t'.over c (setup i) (serve c (setup i).lim (setup i).env t.all).2 := by
  apply Classical.byContradiction
  intro hno
  have hno : ∀ m t', n ≤ m → (e.state m).task i = some t' → ¬ t'.over c (setup i) (serve c (setup i).lim (setup i).env t.all).2 :=
    fun m t' h1 h2 h3 => hno ⟨m, t', h1, h2, h3⟩
  have htask : ∀ m, n ≤ m → ∃ t', (e.state m).task i = some t' ∧ (t.fin = .silent ∧ t.arrived <+: t'.arrived ∨ t'.arrived = t.arrived ∧ t'.fin = t.fin) :=
    fun m hm => (forever_later e i n m hm).task t ht
  -- no more segments are read than had arrived
  have hfet : ∀ m t', n ≤ m → (e.state m).task i = some t' → t'.fetched ≤ t.arrived.length := by
    intro m t' hm
    induction hm generalizing t' with
    | refl => intro h; cases h.symm.trans ht; exact (((forever_run e n).inv i).2 t ht).fetched
    | @step m hm ih =>
      intro h
      obtain ⟨u, hu, hk⟩ := htask m hm
      have hfu := ih u hu
      have hnext := e.next m
      cases ha : e.act m with
      | none => rw [ha] at hnext; simp only at hnext; rw [hnext] at h; exact ih t' h
      | some a =>
        rw [ha] at hnext
        simp only at hnext
        have h0 := ((forever_run e m).inv i).2 u hu
        have keep : ∀ (j : Nat) (v v' : Task), (e.state m).task j = some v → ((e.state m).put j v').task i = some t' → v'.fetched = v.fetched → t'.fetched ≤ t.arrived.length := by
          intro j v v' hj hp hv
          by_cases hi : i = j
          · subst hi
            cases hj.symm.trans hu
            simp only [Server.put, ↓reduceIte, Option.some.injEq] at hp
            rw [← hp, hv]; exact hfu
          · simp only [Server.put, hi, ↓reduceIte] at hp
            exact ih t' hp
        generalize hs1 : e.state m = s at *
        generalize hs2 : e.state (m + 1) = s2 at *
        cases hnext with
        | accept j hj =>
          by_cases hi : i = j
          · subst hi; rw [hu] at hj; cases hj
          · simp only [Server.put, hi, ↓reduceIte] at h
            exact ih t' h
        | send j v g hj hf => exact keep j v _ hj h rfl
        | finish j v x hj hf hne => exact keep j v _ hj h rfl
        | seeEnd j v hj hw hall hf hsaw => exact keep j v _ hj h rfl
        | log j v r hj hact => exact keep j v _ hj h rfl
        | answer j v b hj hact => exact keep j v _ hj h rfl
        | fetch j v hj hwait hlt =>
          by_cases hi : i = j
          · subst hi
            have huv : v = u := Option.some.inj (hj.symm.trans hu)
            subst huv
            simp only [Server.put, ↓reduceIte, Option.some.injEq] at h
            rw [← h]
            show v.fetched + 1 ≤ _
            refine Nat.lt_of_not_le fun hle => ?_
            have hsaw : v.sawEnd = false := by
              cases hc : v.sawEnd with
              | false => rfl
              | true => have := (h0.ended hc).2; omega
            rcases hk with ⟨k1, y, k2⟩ | ⟨k1, k2⟩
            · obtain ⟨_, _, h3⟩ := C98_online c (setup i).lim (setup i).env t.all v.reader (((y.take (v.fetched - t.arrived.length)).map Seg.bytes).flatten) k1 (by
                simp only [Task.reader, Task.all, Reader.flat, List.nil_append, ← k2, List.take_append, List.map_append, List.flatten_append]
                rw [List.take_of_length_le hle])
              exact hw ((h3 hw).2.symm.trans hwait.2)
            · rw [k1] at hlt; omega
          · simp only [Server.put, hi, ↓reduceIte] at h
            exact ih t' h
  -- a bound on the turns
  obtain ⟨m, hm, hk⟩ := hfair.often n (fun m' hm' => by
    obtain ⟨t', h1, h2⟩ := htask m' hm'
    obtain ⟨k1, _⟩ := ending_later (c := c) (x := setup i) h2 hw
    exact can_go_on_over (forever_run e m') h1 (by rw [k1]; exact hw) (by rw [k1]; exact hno m' t' hm' h1))
    (t.arrived.length + 1 + (serveActs c (setup i).lim (setup i).env (setup i).log t.all).length + 1)
  obtain ⟨t', h1, h2⟩ := htask m hm
  have h3 := ((forever_run e m).turns i).2 t' h1
  have h4 := hfet m t' hm h1
  have h0 := ((forever_run e m).inv i).2 t' h1
  have h5 : t'.sawEnd.toNat ≤ 1 := Bool.toNat_le _
  have h6 := h0.done
  have h7 := (Task.acts_all h0).1.length_le
  rw [(ending_later (c := c) (x := setup i) h2 hw).2] at h7
  omega

/-! ## All connections -/

/-- What the accept loop does. -/
def CrowdAct.ofLoop : CrowdAct → Bool
  | .net (.accept _) | .net .fail => true
  | _ => false

/-- What the task of connection `i` does, its end included. -/
def CrowdAct.ofTask (i : Nat) : CrowdAct → Bool
  | .conn j a => j = i && a.ofTask
  | .net (.finish j) => j = i
  | _ => false

/-- In terms of the connections alone. -/
def CrowdAct.conn? : CrowdAct → Option (Nat × ServerAct)
  | .conn i a => some (i, a)
  | .net (.connect i) => some (i, .accept)
  | _ => none

/-- In terms of the listener alone. -/
def CrowdAct.net? : CrowdAct → Option AcceptAct
  | .net a => some a
  | _ => none

theorem isTurn_conn (i j : Nat) (a : ServerAct) : isTurn i (j, a) = (CrowdAct.conn j a).ofTask i := by
  cases a <;> simp [isTurn, CrowdAct.ofTask, ServerAct.ofTask]

theorem crowd_forever (e : Forever (Crowd.Step limit c setup) Crowd.start) (n : Nat) : Crowd.Run limit c setup (e.upTo n) (e.state n) := by
  induction n with
  | zero => rw [e.first]; exact .nil
  | succ n ih =>
    have := e.next n
    rw [upTo_succ]
    cases ha : e.act n with
    | none => rw [ha] at this; simp only at this; rw [this]; simpa using ih
    | some a => rw [ha] at this; exact .snoc ih this

/-- The connections alone. -/
def crowdServer (e : Forever (Crowd.Step limit c setup) Crowd.start) : Forever (Server.Step c setup) Server.start :=
  ⟨fun n => (e.state n).server, fun n => (e.act n).bind CrowdAct.conn?, by rw [e.first]; rfl, fun n => by
    have := e.next n
    cases ha : e.act n with
    | none => rw [ha] at this; simp only at this; simp [this]
    | some a =>
      rw [ha] at this
      simp only at this
      generalize e.state (n + 1) = s' at this ⊢
      cases this with
      | connect i net' server' h1 h2 => exact h2
      | accept i net' h1 => rfl
      | fail net' h1 => rfl
      | finish i t net' h1 h2 h3 h4 => rfl
      | conn i a server' h1 h2 h3 => exact h3⟩

/-- The listener alone. -/
theorem Crowd.Run.net {tr : List CrowdAct} {s : Crowd} (h : Crowd.Run limit c setup tr s) :
    AcceptRun limit (fun _ => true) .start (tr.filterMap CrowdAct.net?) s.net := by
  induction h with
  | nil => exact .nil
  | snoc _ hs ih =>
    rw [List.filterMap_append]
    cases hs with
    | connect i net' server' h1 h2 => exact .snoc ih h1
    | accept i net' h1 => exact .snoc ih h1
    | fail net' h1 => exact .snoc ih h1
    | finish i t net' h1 h2 h3 h4 => exact .snoc ih h4
    | conn i a server' h1 h2 h3 => exact (List.append_nil _).symm ▸ ih

theorem Crowd.Run.server {tr : List CrowdAct} {s : Crowd} (h : Crowd.Run limit c setup tr s) : Server.Run c setup (tr.filterMap CrowdAct.conn?) s.server := by
  induction h with
  | nil => exact .nil
  | snoc _ hs ih =>
    rw [List.filterMap_append]
    cases hs with
    | connect i net' server' h1 h2 => exact .snoc ih h2
    | accept i net' h1 => exact (List.append_nil _).symm ▸ ih
    | fail net' h1 => exact (List.append_nil _).symm ▸ ih
    | finish i t net' h1 h2 h3 h4 => exact (List.append_nil _).symm ▸ ih
    | conn i a server' h1 h2 h3 => exact .snoc ih h3

/-- Where the connections are. -/
structure Places (c : Codec K) (setup : Nat → Setup K) (s : Crowd) : Prop where
  known : ∀ i t, s.server.task i = some t → i ∈ s.net.pending ∨ i ∈ s.net.serving ∨ i ∈ s.net.gone
  made : ∀ i, i ∈ s.net.pending ∨ i ∈ s.net.serving ∨ i ∈ s.net.gone → ∃ t, s.server.task i = some t
  over : ∀ i, i ∈ s.net.gone → ∃ t f, s.server.task i = some t ∧ f ≠ .waiting ∧ t.over c (setup i) f

theorem Server.Step.known {s s' : Server} {i : Nat} {a : ServerAct} (h : Server.Step c setup s (i, a) s') (j : Nat) :
    (∃ t, s'.task j = some t) ↔ (∃ t, s.task j = some t) ∨ (j = i ∧ a = .accept) := by
  cases h <;> (by_cases hj : j = i <;> simp_all [Server.put])

theorem Crowd.Run.places {tr : List CrowdAct} {s : Crowd} (h : Crowd.Run limit c setup tr s) : Places c setup s := by
  induction h with
  | nil => exact ⟨fun i t h => (by cases h), fun i h => (by simp [Crowd.start, Accepting.start] at h), fun i h => (by cases h)⟩
  | @snoc tr s s' a hr hs ih =>
    obtain ⟨h1, h2, h3⟩ := ih
    have hrun := hr.server
    cases hs with
    | connect i net' server' k1 k2 =>
      have hk := k2.known
      cases k1 with
      | connect _ g1 g2 g3 =>
        refine ⟨fun j t hj => ?_, fun j hj => ?_, fun j hj => ?_⟩
        · rcases (hk j).mp ⟨t, hj⟩ with ⟨u, hu⟩ | ⟨rfl, _⟩
          · rcases h1 j u hu with h | h | h
            · exact .inl (List.mem_append_left _ h)
            · exact .inr (.inl h)
            · exact .inr (.inr h)
          · exact .inl (List.mem_append_right _ (List.mem_singleton.mpr rfl))
        · refine (hk j).mpr ?_
          simp only [List.mem_append, List.mem_singleton] at hj
          rcases hj with (h | rfl) | h | h
          · exact .inl (h2 j (.inl h))
          · exact .inr ⟨rfl, rfl⟩
          · exact .inl (h2 j (.inr (.inl h)))
          · exact .inl (h2 j (.inr (.inr h)))
        · obtain ⟨t, f, e1, e2, e3⟩ := h3 j hj
          obtain ⟨t', e4, e5⟩ := over_for_good hrun e1 e3 e2 k2
          exact ⟨t', f, e4, e2, e5⟩
    | accept i net' k1 =>
      cases k1 with
      | accept _ rest g1 g2 =>
        refine ⟨fun j t hj => ?_, fun j hj => ?_, h3⟩
        · have := h1 j t hj
          rw [g1] at this
          simp only [List.mem_cons, List.mem_append, List.mem_singleton] at this ⊢
          rcases this with (h | h) | h | h
          · exact .inr (.inl (.inr (.inl h)))
          · exact .inl h
          · exact .inr (.inl (.inl h))
          · exact .inr (.inr h)
        · refine h2 j ?_
          rw [g1]
          simp only [List.mem_cons, List.mem_append, List.not_mem_nil, or_false] at hj ⊢
          rcases hj with h | (h | h) | h
          · exact .inl (.inr h)
          · exact .inr (.inl h)
          · exact .inl (.inl h)
          · exact .inr (.inr h)
    | fail net' k1 => cases k1 with | fail g1 g2 => exact ⟨h1, h2, h3⟩
    | finish i t net' k1 k2 k3 k4 =>
      cases k4 with
      | finish _ g1 g2 =>
        refine ⟨fun j u hj => ?_, fun j hj => ?_, fun j hj => ?_⟩
        · rcases h1 j u hj with h | h | h
          · exact .inl h
          · by_cases hji : j = i
            · subst hji; exact .inr (.inr (by simp))
            · exact .inr (.inl ((List.mem_erase_of_ne hji).mpr h))
          · exact .inr (.inr (List.mem_append_left _ h))
        · rcases hj with h | h | h
          · exact h2 j (.inl h)
          · exact h2 j (.inr (.inl (List.mem_of_mem_erase h)))
          · rcases List.mem_append.mp h with h | h
            · exact h2 j (.inr (.inr h))
            · cases List.mem_singleton.mp h; exact ⟨t, k1⟩
        · rcases List.mem_append.mp hj with h | h
          · exact h3 j h
          · cases List.mem_singleton.mp h
            exact ⟨t, _, k1, (fun hw => by rw [hw] at k3; cases k3), k2, rfl⟩
    | conn i a server' k1 k2 k3 =>
      have hk := k3.known
      refine ⟨fun j t hj => ?_, fun j hj => (hk j).mpr (.inl (h2 j hj)), fun j hj => ?_⟩
      · rcases (hk j).mp ⟨t, hj⟩ with ⟨u, hu⟩ | ⟨_, h⟩
        · exact h1 j u hu
        · exact absurd h k1
      · obtain ⟨t, f, e1, e2, e3⟩ := h3 j hj
        obtain ⟨t', e4, e5⟩ := over_for_good hrun e1 e3 e2 k3
        exact ⟨t', f, e4, e2, e5⟩

/-- What a step does to the queue and the connections in service. -/
theorem Crowd.Step.moves {s s' : Crowd} {a : CrowdAct} (h : Crowd.Step limit c setup s a s') (j : Nat) :
    (j ∈ s.net.gone → j ∈ s'.net.gone) ∧
    (j ∈ s.net.serving → j ∈ s'.net.serving ∧ a ≠ .net (.finish j) ∨ j ∈ s'.net.gone ∧ a = .net (.finish j)) ∧
    (a = .net (.accept j) → j ∈ s'.net.serving) ∧
    ((∀ i, a ≠ .net (.accept i)) → (∃ more, s'.net.pending = s.net.pending ++ more) ∧ s'.net.serving.length ≤ s.net.serving.length ∧
      (a = .net (.finish j) → s'.net.serving.length < s.net.serving.length)) ∧
    (∀ i, a = .net (.accept i) → s.net.pending = i :: s'.net.pending) := by
  cases h with
  | connect i net' server' k1 k2 => cases k1; simp
  | accept i net' k1 =>
    cases k1 with
    | accept _ rest g1 g2 =>
      refine ⟨id, fun hj => .inl ⟨List.mem_append_left _ hj, by simp⟩, fun hj => ?_, fun hn => absurd rfl (hn i), fun i' hi => ?_⟩
      · cases hj; exact List.mem_append_right _ (List.mem_singleton.mpr rfl)
      · cases hi; exact g1
  | fail net' k1 => cases k1; simp
  | finish i t net' k1 k2 k3 k4 =>
    cases k4 with
    | finish _ g1 g2 =>
      refine ⟨fun hj => List.mem_append_left _ hj, fun hj => ?_, by simp, fun _ => ⟨⟨[], by simp⟩, ?_, fun _ => ?_⟩, by simp⟩
      · by_cases hji : j = i
        · subst hji; exact .inr ⟨by simp, rfl⟩
        · exact .inl ⟨(List.mem_erase_of_ne hji).mpr hj, by simpa using fun h => hji h.symm⟩
      · have := List.length_erase_of_mem g1
        show (s.net.serving.erase i).length ≤ _
        omega
      · have := List.length_erase_of_mem g1
        have := List.length_pos_of_mem g1
        show (s.net.serving.erase i).length < _
        omega
  | conn i a server' k1 k2 k3 => simp

/-- More different things than there are places: one has none. -/
theorem one_outside {l m : List Nat} (hl : l.Nodup) (h : m.length < l.length) : ∃ j, j ∈ l ∧ j ∉ m := by
  apply Classical.byContradiction
  intro hno
  have hsub : ∀ j ∈ l, j ∈ m := fun j hj => Classical.byContradiction fun hm => hno ⟨j, hj, hm⟩
  clear hno
  induction l generalizing m with
  | nil => simp at h
  | cons a l ih =>
    rw [List.nodup_cons] at hl
    have ha := hsub a (by simp)
    have hlen := List.length_erase_of_mem ha
    have hpos := List.length_pos_of_mem ha
    refine ih (m := m.erase a) hl.2 (by simp at h; omega) fun j hj => ?_
    have : j ≠ a := by rintro rfl; exact hl.1 hj
    exact (List.mem_erase_of_ne this).mpr (hsub j (by simp [hj]))

section
variable (e : Forever (Crowd.Step limit c setup) Crowd.start)

/-- Nothing, or a step. -/
theorem crowd_next (m : Nat) : e.act m = none ∧ e.state (m + 1) = e.state m ∨ ∃ a, e.act m = some a ∧ Crowd.Step limit c setup (e.state m) a (e.state (m + 1)) := by
  have := e.next m
  cases ha : e.act m with
  | none => rw [ha] at this; exact .inl ⟨rfl, this⟩
  | some a => rw [ha] at this; exact .inr ⟨a, rfl, this⟩

theorem gone_stays {j n m : Nat} (hnm : n ≤ m) (h : j ∈ (e.state n).net.gone) : j ∈ (e.state m).net.gone := by
  induction hnm with
  | refl => exact h
  | @step m _ ih =>
    rcases crowd_next e m with ⟨_, h2⟩ | ⟨a, _, h2⟩
    · rw [h2]; exact ih
    · exact (h2.moves j).1 ih

theorem serving_stays {j n m : Nat} (hnm : n ≤ m) (h : j ∈ (e.state n).net.serving) :
    j ∈ (e.state m).net.serving ∨ j ∈ (e.state m).net.gone ∧ ∃ m', n ≤ m' ∧ m' < m ∧ e.act m' = some (.net (.finish j)) := by
  induction hnm with
  | refl => exact .inl h
  | @step m hm ih =>
    rcases ih with ih | ⟨ih, m', h1, h2, h3⟩
    · rcases crowd_next e m with ⟨_, h2⟩ | ⟨a, h1, h2⟩
      · rw [h2]; exact .inl ih
      · rcases (h2.moves j).2.1 ih with ⟨h3, _⟩ | ⟨h3, rfl⟩
        · exact .inl h3
        · exact .inr ⟨h3, m, hm, Nat.lt_succ_self _, h1⟩
    · exact .inr ⟨gone_stays e (Nat.le_succ _) ih, m', h1, by omega, h3⟩

theorem no_turn_gone {j m : Nat} (h : j ∈ (e.state m).net.gone) {a : Nat × ServerAct} {s' : Server} (ha : isTurn j a = true) :
    ¬ Server.Step c setup (e.state m).server a s' := by
  obtain ⟨t, f, h1, h2, h3⟩ := (crowd_forever e m).places.over j h
  exact no_turn h1 h3 h2 ha

/-- Whoever has been accepted gets turns as long as there is something to do. -/
theorem fair_turns {j n : Nat} (h : j ∈ (e.state n).net.serving ∨ j ∈ (e.state n).net.gone) (hfair : e.Fair (CrowdAct.ofTask j)) :
    (crowdServer e).Fair (isTurn j) := by
  intro n0 hen
  have hserv : ∀ m, max n n0 ≤ m → j ∈ (e.state m).net.serving := by
    intro m hm
    have hin : j ∈ (e.state m).net.serving ∨ j ∈ (e.state m).net.gone := by
      rcases h with h | h
      · rcases serving_stays e (show n ≤ m by omega) h with h | ⟨h, _⟩
        · exact .inl h
        · exact .inr h
      · exact .inr (gone_stays e (by omega) h)
    rcases hin with hin | hin
    · exact hin
    · obtain ⟨a, s', h1, h2⟩ := hen m (by omega)
      exact absurd h2 (no_turn_gone e hin h1)
  obtain ⟨m, a, h1, h2, h3⟩ := hfair (max n n0) (fun m hm => by
    obtain ⟨⟨i, a⟩, s', h1, h2⟩ := hen m (by omega)
    have hi : i = j ∧ a.ofTask = true := by
      rw [isTurn_conn] at h1
      simpa [CrowdAct.ofTask] using h1
    obtain ⟨rfl, ha⟩ := hi
    refine ⟨.conn i a, _, by simp [CrowdAct.ofTask, ha], .conn _ i a s' ?_ (fun _ => hserv m hm) h2⟩
    rintro rfl; cases ha)
  cases a with
  | conn i a =>
    refine ⟨m, (i, a), by omega, ?_, by rw [isTurn_conn]; exact h3⟩
    show (e.act m).bind CrowdAct.conn? = _
    rw [h2]; rfl
  | net b =>
    exfalso
    cases b with
    | finish i =>
      simp only [CrowdAct.ofTask, decide_eq_true_eq] at h3
      subst h3
      rcases crowd_next e m with ⟨h4, _⟩ | ⟨a', h4, h5⟩
      · rw [h2] at h4; cases h4
      · rw [h2] at h4; cases h4
        rcases (h5.moves i).2.1 (hserv m h1) with ⟨_, h6⟩ | ⟨h6, _⟩
        · exact h6 rfl
        · obtain ⟨a, s', k1, k2⟩ := hen (m + 1) (by omega)
          exact no_turn_gone e h6 k1 k2
    | connect i => simp [CrowdAct.ofTask] at h3
    | accept i => simp [CrowdAct.ofTask] at h3
    | fail => simp [CrowdAct.ofTask] at h3

theorem over_later {j n m : Nat} {t : Task} {f : Ending} (hnm : n ≤ m) (ht : (e.state n).server.task j = some t) (ho : t.over c (setup j) f) (hf : f ≠ .waiting) :
    ∃ t', (e.state m).server.task j = some t' ∧ t'.over c (setup j) f := by
  induction hnm with
  | refl => exact ⟨t, ht, ho⟩
  | @step m _ ih =>
    obtain ⟨u, h1, h2⟩ := ih
    have hrun := (crowd_forever e m).server
    rcases crowd_next e m with ⟨_, h⟩ | ⟨a, _, h⟩
    · rw [h]; exact ⟨u, h1, h2⟩
    · generalize e.state m = s at *
      generalize e.state (m + 1) = s' at *
      cases h with
      | connect i net' server' k1 k2 => exact over_for_good hrun h1 h2 hf k2
      | accept i net' k1 => exact ⟨u, h1, h2⟩
      | fail net' k1 => exact ⟨u, h1, h2⟩
      | finish i t net' k1 k2 k3 k4 => exact ⟨u, h1, h2⟩
      | conn i a server' k1 k2 k3 => exact over_for_good hrun h1 h2 hf k3

/-- Whoever is served and sends what makes `serve` end gives its descriptor back. -/
theorem leaves {j n n' : Nat} {t : Task} (h : j ∈ (e.state n).net.serving) (hfair : e.Fair (CrowdAct.ofTask j)) (ht : (e.state n').server.task j = some t)
    (ho : (serve c (setup j).lim (setup j).env t.all).2.over = true) : ∃ m, n ≤ m ∧ e.act m = some (.net (.finish j)) := by
  apply Classical.byContradiction
  intro hno
  have hserv : ∀ m, n ≤ m → j ∈ (e.state m).net.serving := by
    intro m hm
    rcases serving_stays e hm h with h | ⟨_, m', h1, _, h2⟩
    · exact h
    · exact absurd ⟨m', h1, h2⟩ hno
  have hw : (serve c (setup j).lim (setup j).env t.all).2 ≠ .waiting := by intro hw; rw [hw] at ho; cases ho
  obtain ⟨m, u, hm, hu, hov⟩ := over_in_the_end (crowdServer e) j (fair_turns e (.inl h) hfair) n' t ht hw
  obtain ⟨m', a, h1, h2, h3⟩ := hfair (max n m) (fun k hk => by
    obtain ⟨u', g1, g2⟩ := over_later e (show m ≤ k by omega) hu hov hw
    have hs : AcceptStep limit (fun _ => true) (e.state k).net (.finish j) _ := .finish _ j (hserv k (by omega)) rfl
    exact ⟨.net (.finish j), _, by simp [CrowdAct.ofTask], .finish _ j u' _ g1 g2.1 (by rw [g2.2]; exact ho) hs⟩)
  obtain ⟨u', g1, g2⟩ := over_later e (show m ≤ m' by omega) hu hov hw
  cases a with
  | conn i a =>
    rcases crowd_next e m' with ⟨h4, _⟩ | ⟨a', h4, h5⟩
    · rw [h2] at h4; cases h4
    · rw [h2] at h4; cases h4
      rw [← isTurn_conn] at h3
      generalize e.state (m' + 1) = s' at h5
      cases h5 with
      | conn _ _ server' k1 k2 k3 => exact no_turn g1 g2 hw h3 k3
  | net b =>
    cases b with
    | finish i => simp only [CrowdAct.ofTask, decide_eq_true_eq] at h3; subst h3; exact hno ⟨m', by omega, h2⟩
    | connect i => simp [CrowdAct.ofTask] at h3
    | accept i => simp [CrowdAct.ofTask] at h3
    | fail => simp [CrowdAct.ofTask] at h3

variable (hloop : e.Fair CrowdAct.ofLoop) (htasks : ∀ j, e.Fair (CrowdAct.ofTask j)) (stuck : List Nat) (hfew : stuck.length < limit)
  (hleave : ∀ j, j ∉ stuck → ∀ n, j ∈ (e.state n).net.serving →
    ∃ n' t, (e.state n').server.task j = some t ∧ (serve c (setup j).lim (setup j).env t.all).2.over = true)

include hloop htasks hfew hleave in
/-- The next of the queue is accepted. -/
theorem next_accepted {n : Nat} (h : (e.state n).net.pending ≠ []) :
    ∃ m i more, n ≤ m ∧ e.act m = some (.net (.accept i)) ∧ (e.state n).net.pending ++ more = i :: (e.state (m + 1)).net.pending := by
  apply Classical.byContradiction
  intro hno
  have hpend : ∀ m, n ≤ m → (∃ more, (e.state m).net.pending = (e.state n).net.pending ++ more) ∧ ∀ i, e.act m ≠ some (.net (.accept i)) := by
    have key : ∀ m, (∃ more, (e.state m).net.pending = (e.state n).net.pending ++ more) → n ≤ m → ∀ i, e.act m ≠ some (.net (.accept i)) := by
      rintro m ⟨more, hm⟩ hnm i hi
      rcases crowd_next e m with ⟨h4, _⟩ | ⟨a', h4, h5⟩
      · rw [hi] at h4; cases h4
      · rw [hi] at h4; cases h4
        exact hno ⟨m, i, more, hnm, hi, by rw [← hm]; exact (h5.moves 0).2.2.2.2 i rfl⟩
    intro m hm
    induction hm with
    | refl => exact ⟨⟨[], by simp⟩, key n ⟨[], by simp⟩ (Nat.le_refl _)⟩
    | @step m hm ih =>
      obtain ⟨⟨more, h1⟩, h2⟩ := ih
      have hex : ∃ more, (e.state (m + 1)).net.pending = (e.state n).net.pending ++ more := by
        rcases crowd_next e m with ⟨_, h4⟩ | ⟨a, h4, h5⟩
        · rw [h4]; exact ⟨more, h1⟩
        · obtain ⟨⟨y, hy⟩, _⟩ := (h5.moves 0).2.2.2.1 (fun i hi => h2 i (by rw [h4, hi]))
          exact ⟨more ++ y, by rw [hy, h1, List.append_assoc]⟩
      exact ⟨hex, key _ hex (Nat.le_succ_of_le hm)⟩
  have hstep : ∀ m, n ≤ m → (e.state (m + 1)).net.serving.length ≤ (e.state m).net.serving.length ∧
      ∀ j, e.act m = some (.net (.finish j)) → (e.state (m + 1)).net.serving.length < (e.state m).net.serving.length := by
    intro m hm
    rcases crowd_next e m with ⟨h3, h4⟩ | ⟨a, h4, h5⟩
    · rw [h4]; exact ⟨Nat.le_refl _, fun j hj => by rw [h3] at hj; cases hj⟩
    · have := fun j => (h5.moves j).2.2.2.1 (fun i hi => (hpend m hm).2 i (by rw [h4, hi]))
      exact ⟨(this 0).2.1, fun j hj => (this j).2.2 (by rw [h4] at hj; exact Option.some.inj hj)⟩
  have hmono : ∀ m m', n ≤ m → m ≤ m' → (e.state m').net.serving.length ≤ (e.state m).net.serving.length := by
    intro m m' hm hmm
    induction hmm with
    | refl => exact Nat.le_refl _
    | @step k hk ih => exact Nat.le_trans (hstep k (Nat.le_trans hm hk)).1 ih
  have hfree : ∃ m, n ≤ m ∧ (e.state m).net.serving.length < limit := by
    obtain ⟨_, hperm, hlen⟩ := accept_order (crowd_forever e n).net
    by_cases hlt : (e.state n).net.serving.length < limit
    · exact ⟨n, Nat.le_refl _, hlt⟩
    · have hnd : (e.state n).net.serving.Nodup := by
        obtain ⟨k1, _, k3, _⟩ := C180_fair_partial _ _ (crowd_forever e n).net
        rw [k1, List.nodup_append] at k3
        exact (List.nodup_append.mp (hperm.nodup k3.1)).1
      obtain ⟨j, hj, hjs⟩ := one_outside (m := stuck) hnd (by omega)
      obtain ⟨n', t, ht, ho⟩ := hleave j hjs n hj
      obtain ⟨m, hm, hfin⟩ := leaves e hj (htasks j) ht ho
      have h1 := (hstep m hm).2 j hfin
      have h2 := hmono n m (Nat.le_refl _) hm
      exact ⟨m + 1, by omega, by omega⟩
  obtain ⟨m, hm, hlt⟩ := hfree
  have hpos : ∀ k, m ≤ k → ∃ i rest, (e.state k).net.pending = i :: rest := by
    intro k hk
    obtain ⟨more, hp⟩ := (hpend k (by omega)).1
    cases hq : (e.state n).net.pending with
    | nil => exact absurd hq h
    | cons i rest => exact ⟨i, rest ++ more, by rw [hp, hq]; rfl⟩
  obtain ⟨k, a, h1, h2, h3⟩ := hloop m (fun k hk => by
    obtain ⟨i, rest, hp⟩ := hpos k hk
    have hl := hmono m k hm hk
    have hs : AcceptStep limit (fun _ => true) (e.state k).net (.accept i) _ := .accept _ i rest hp (by omega)
    exact ⟨.net (.accept i), _, rfl, .accept _ i _ hs⟩)
  cases a with
  | conn i a => cases h3
  | net b =>
    cases b with
    | accept i => exact (hpend k (by omega)).2 i h2
    | fail =>
      rcases crowd_next e k with ⟨h4, _⟩ | ⟨a', h4, h5⟩
      · rw [h2] at h4; cases h4
      · rw [h2] at h4; cases h4
        have hl := hmono m k hm h1
        generalize e.state (k + 1) = s' at h5
        cases h5 with
        | fail net' k1 => cases k1 with | fail g1 g2 => omega
    | connect i => cases h3
    | finish i => cases h3

include hloop htasks hfew hleave in
/-- Everybody in the queue is accepted. -/
theorem all_accepted {n i : Nat} (h : i ∈ (e.state n).net.pending) : ∃ m, n ≤ m ∧ e.act m = some (.net (.accept i)) := by
  obtain ⟨before, after, hba⟩ := List.append_of_mem h
  clear h
  generalize hk : before.length = k
  induction k generalizing n before after with
  | zero =>
    obtain ⟨m, j, more, h1, h2, h3⟩ := next_accepted e hloop htasks stuck hfew hleave (n := n) (by rw [hba]; simp)
    cases before with
    | cons => simp at hk
    | nil =>
      rw [hba] at h3
      simp only [List.nil_append, List.cons_append, List.cons.injEq] at h3
      rw [h3.1]; exact ⟨m, h1, h2⟩
  | succ k ih =>
    obtain ⟨m, j, more, h1, h2, h3⟩ := next_accepted e hloop htasks stuck hfew hleave (n := n) (by rw [hba]; simp)
    cases before with
    | nil => simp at hk
    | cons b before =>
      rw [hba] at h3
      simp only [List.cons_append, List.append_assoc, List.cons.injEq] at h3
      obtain ⟨m', h4, h5⟩ := ih before (after ++ more) (n := m + 1) h3.2.symm (by simpa using hk)
      exact ⟨m', by omega, h5⟩

end

/-- **C223.** A service with a limit on open files, any number of clients that connect, send and leave as they like, in an execution without end in which neither the accept loop nor a task is left out for
ever. If the clients that never send what makes `serve` return (`stuck`) are fewer than there are descriptors, then everybody who connects is accepted, is sent from some moment on everything that
`serve` answers to what had arrived from it, and, if `serve` returns on that, gives its descriptor back. -/
theorem C223_everybody (c : Codec K) (setup : Nat → Setup K) (limit : Nat) (e : Forever (Crowd.Step limit c setup) Crowd.start)
    (hloop : e.Fair CrowdAct.ofLoop) (htasks : ∀ j, e.Fair (CrowdAct.ofTask j)) (stuck : List Nat) (hfew : stuck.length < limit)
    (hleave : ∀ j, j ∉ stuck → ∀ n, j ∈ (e.state n).net.serving →
      ∃ n' t, (e.state n').server.task j = some t ∧ (serve c (setup j).lim (setup j).env t.all).2.over = true)
    (n i : Nat) (t : Task) (ht : (e.state n).server.task i = some t) :
    (∃ m, e.act m = some (.net (.accept i))) ∧
    ∃ m, n ≤ m ∧ ∀ m', m ≤ m' →
      ((serve c (setup i).lim (setup i).env t.all).1.map (·.written)).flatten <+: (e.state m').server.wire i ∧
      ((serve c (setup i).lim (setup i).env t.all).2.over = true → i ∈ (e.state m').net.gone) := by
  have hacc : ∃ m, e.act m = some (.net (.accept i)) := by
    apply Classical.byContradiction
    intro hno
    have hpend : ∀ m, i ∉ (e.state m).net.serving ∧ i ∉ (e.state m).net.gone := by
      intro m
      induction m with
      | zero => rw [e.first]; simp [Crowd.start, Accepting.start]
      | succ m ih =>
        rcases crowd_next e m with ⟨_, h⟩ | ⟨a, ha, h⟩
        · rw [h]; exact ih
        · have hna : a ≠ .net (.accept i) := by rintro rfl; exact hno ⟨m, ha⟩
          generalize e.state m = s at *
          generalize e.state (m + 1) = s' at *
          cases h with
          | connect j net' server' k1 k2 => cases k1; exact ih
          | accept j net' k1 =>
            cases k1 with
            | accept _ rest g1 g2 => exact ⟨by simpa [ih.1] using fun h => hna (by rw [h]), ih.2⟩
          | fail net' k1 => cases k1; exact ih
          | finish j t net' k1 k2 k3 k4 =>
            cases k4 with
            | finish _ g1 g2 =>
              refine ⟨fun h => ih.1 (List.mem_of_mem_erase h), fun h => ?_⟩
              rcases List.mem_append.mp h with h | h
              · exact ih.2 h
              · cases List.mem_singleton.mp h; exact ih.1 g1
          | conn j a server' k1 k2 k3 => exact ih
    rcases (crowd_forever e n).places.known i t ht with h | h | h
    · obtain ⟨m, _, hm⟩ := all_accepted e hloop htasks stuck hfew hleave h
      exact hno ⟨m, hm⟩
    · exact (hpend n).1 h
    · exact (hpend n).2 h
  refine ⟨hacc, ?_⟩
  obtain ⟨m0, hm0⟩ := hacc
  have hserv : i ∈ (e.state (m0 + 1)).net.serving := by
    rcases crowd_next e m0 with ⟨h4, _⟩ | ⟨a', h4, h5⟩
    · rw [hm0] at h4; cases h4
    · rw [hm0] at h4; cases h4
      exact (h5.moves i).2.2.1 rfl
  obtain ⟨m1, hm1, h1⟩ := C220_eventually c setup (crowdServer e) i (fair_turns e (.inl hserv) (htasks i)) n t ht
  by_cases ho : (serve c (setup i).lim (setup i).env t.all).2.over = true
  · obtain ⟨m2, hm2, h2⟩ := leaves e hserv (htasks i) ht ho
    have hg : i ∈ (e.state (m2 + 1)).net.gone := by
      rcases crowd_next e m2 with ⟨h4, _⟩ | ⟨a', h4, h5⟩
      · rw [h2] at h4; cases h4
      · rw [h2] at h4; cases h4
        rcases serving_stays e hm2 hserv with h | ⟨h, _⟩
        · rcases (h5.moves i).2.1 h with ⟨_, h6⟩ | ⟨h6, _⟩
          · exact absurd rfl h6
          · exact h6
        · exact gone_stays e (Nat.le_succ _) h
    exact ⟨max m1 (m2 + 1), by omega, fun m' hm' => ⟨(h1 m' (by omega)).1, fun _ => gone_stays e (by omega) hg⟩⟩
  · exact ⟨m1, hm1, fun m' hm' => ⟨(h1 m' hm').1, fun h => absurd h ho⟩⟩

/-- How a connection of a service ends, by the grammar. -/
theorem serve_fate (c : Codec K) (x : Setup K) (t : Task) (kind : ServiceSetting) (reply : Nat → Bytes → Bytes) (stops : Bytes → Prop) (ha : Answers kind reply stops)
    (he : ∀ j, (x.env j).http = kind.kind.http ∧ (x.env j).write = .ok) (outs : List Bytes) (f : Fate)
    (h : Talk x.lim.maxUrl x.lim.maxHeaderLine x.lim.maxHeadersCount (afterOf t.fin) reply stops 0 (t.arrived.map Seg.bytes).flatten outs f) :
    (serve c x.lim x.env t.all).1.map (·.written) = outs ∧ ((serve c x.lim x.env t.all).2.over = true ↔ f = .closed ∨ f = .dropped) := by
  have hflat : t.all.flat = (t.arrived.map Seg.bytes).flatten := by simp [Task.all, Reader.flat]
  have key : ∃ f', fateOf (serve c x.lim x.env t.all).2 = some f' ∧
      Talk x.lim.maxUrl x.lim.maxHeaderLine x.lim.maxHeadersCount (afterOf t.fin) reply stops 0 (t.arrived.map Seg.bytes).flatten
        ((serve c x.lim x.env t.all).1.map (·.written)) f' := by
    rw [← hflat]
    cases ha with
    | hello => exact C130_hello_whole c x.lim x.env he t.all
    | files root => exact C130_fs_whole c x.lim x.env he t.all
  obtain ⟨f', h1, h2⟩ := key
  obtain ⟨rfl, rfl⟩ := C130_determined _ _ _ _ _ _ _ _ _ _ _ _ h h2
  refine ⟨rfl, ?_⟩
  revert h1
  cases (serve c x.lim x.env t.all).2 <;> simp [fateOf, Ending.over] <;> rintro rfl <;> simp

/-- **C223**, in terms of the grammar: the same for hello-world and for the file service and clients that take what they are sent. `stuck` are those that stop inside a request, or keep an idle connection
open, or announce more of a body than they send before they leave; everybody else is closed or dropped at some moment, by the grammar. If they are fewer than there are descriptors, everybody
gets the answers that the grammar gives for what has arrived, and the descriptors come back. -/
theorem C223_grammar (c : Codec K) (setup : Nat → Setup K) (limit : Nat) (e : Forever (Crowd.Step limit c setup) Crowd.start)
    (hloop : e.Fair CrowdAct.ofLoop) (htasks : ∀ j, e.Fair (CrowdAct.ofTask j)) (s : ServiceConfig) (hs : ∀ j, (setup j).Serves s)
    (reply : Nat → Bytes → Bytes) (stops : Bytes → Prop) (ha : Answers s.service reply stops) (stuck : List Nat) (hfew : stuck.length < limit)
    (hleave : ∀ j, j ∉ stuck → ∀ n, j ∈ (e.state n).net.serving → ∃ n' t outs f, (e.state n').server.task j = some t ∧ (f = .closed ∨ f = .dropped) ∧
      Talk s.http.limits.maxUrl s.http.limits.maxHeaderLine s.http.limits.maxHeadersCount (afterOf t.fin) reply stops 0 (t.arrived.map Seg.bytes).flatten outs f)
    (n i : Nat) (t : Task) (ht : (e.state n).server.task i = some t) :
    ∃ outs f, Talk s.http.limits.maxUrl s.http.limits.maxHeaderLine s.http.limits.maxHeadersCount (afterOf t.fin) reply stops 0
        (t.arrived.map Seg.bytes).flatten outs f ∧
      ∃ m, n ≤ m ∧ ∀ m', m ≤ m' → outs.flatten <+: (e.state m').server.wire i ∧ (f = .closed ∨ f = .dropped → i ∈ (e.state m').net.gone) := by
  obtain ⟨_, m, hm, h⟩ := C223_everybody c setup limit e hloop htasks stuck hfew (fun j hj n hn => by
    obtain ⟨n', u, outs, f, h1, h2, h3⟩ := hleave j hj n hn
    rw [← (hs j).lim] at h3
    exact ⟨n', u, h1, ((serve_fate c (setup j) u s.service reply stops ha (hs j).env outs f h3).2).mpr h2⟩) n i t ht
  obtain ⟨f, hf⟩ := serve_talk c (setup i) t s.service reply stops ha (hs i).env
  obtain ⟨_, k2⟩ := serve_fate c (setup i) t s.service reply stops ha (hs i).env _ f hf
  rw [(hs i).lim] at hf
  rw [(hs i).lim] at h k2
  exact ⟨_, f, hf, m, hm, fun m' hm' => ⟨(h m' hm').1, fun hc => (h m' hm').2 (k2.mpr hc)⟩⟩

/-! ## The conditions can be met, and are needed -/

/-- A run, and then nothing. -/
theorem crowd_run_forever {tr : List CrowdAct} {s : Crowd} (h : Crowd.Run limit c setup tr s) :
    ∃ e : Forever (Crowd.Step limit c setup) Crowd.start, (∀ m, m ≤ tr.length → e.upTo m = tr.take m) ∧ ∀ m, tr.length ≤ m → e.state m = s ∧ e.act m = none := by
  induction h with
  | nil => exact ⟨idle _ _, fun m hm => by cases Nat.le_zero.mp hm; rfl, fun _ _ => ⟨rfl, rfl⟩⟩
  | @snoc tr s s' a _ hs ih =>
    obtain ⟨e, h1, h2⟩ := ih
    obtain ⟨e', k1, k2, k3⟩ := forever_snoc e tr.length s s' a h2 hs
    refine ⟨e', fun m hm => ?_, fun m hm => k3 m (by simpa using hm)⟩
    by_cases h : m ≤ tr.length
    · rw [k1 m h, h1 m h, List.take_append_of_le_length h]
    · have : m = tr.length + 1 := by simp at hm; omega
      rw [this, k2, h1 _ (Nat.le_refl _)]
      rw [List.take_of_length_le (l := tr ++ [a]) (by simp), List.take_length]

/-- The accept loop, and the tasks. -/
def CrowdAct.whose : Nat → CrowdAct → Bool
  | 0 => CrowdAct.ofLoop
  | i + 1 => CrowdAct.ofTask i

/-- **C223**, the conditions on turns ask for nothing impossible: whatever has happened so far, the execution can go on so that neither the accept loop nor a task is left out. -/
theorem C223_possible (c : Codec K) (setup : Nat → Setup K) (limit : Nat) (tr : List CrowdAct) (s : Crowd) (h : Crowd.Run limit c setup tr s) :
    ∃ e : Forever (Crowd.Step limit c setup) Crowd.start, e.upTo tr.length = tr ∧ e.state tr.length = s ∧ e.Fair CrowdAct.ofLoop ∧ ∀ j, e.Fair (CrowdAct.ofTask j) := by
  obtain ⟨e, h1, h2⟩ := crowd_run_forever h
  obtain ⟨e', k1, k2, k3, _⟩ := fair_after e tr.length CrowdAct.whose
  refine ⟨e', ?_, ?_, k3 0, fun j => k3 (j + 1)⟩
  · rw [upTo_congr k2 _ (Nat.le_refl _), h1 _ (Nat.le_refl _), List.take_length]
  · rw [k1 _ (Nat.le_refl _), (h2 _ (Nat.le_refl _)).1]

/-- As many idle clients as there are descriptors, and one more. -/
def fullHouse (limit : Nat) : List CrowdAct := (fill limit).map .net ++ [.net (.connect limit)]

theorem fullHouse_run (c : Codec K) (setup : Nat → Setup K) (limit : Nat) :
    ∃ s, Crowd.Run limit c setup (fullHouse limit) s ∧ s.net = ⟨[limit], List.range limit, []⟩ ∧ ∀ i, i ≤ limit → s.server.task i = some Task.new := by
  have key : ∀ n, n ≤ limit → ∃ s, Crowd.Run limit c setup ((fill n).map .net) s ∧ s.net = ⟨[], List.range n, []⟩ ∧
      ∀ i, s.server.task i = if i < n then some Task.new else none := by
    intro n
    induction n with
    | zero => exact fun _ => ⟨_, .nil, rfl, fun i => by simp [Crowd.start, Server.start]⟩
    | succ n ih =>
      intro hn
      obtain ⟨s, h1, h2, h3⟩ := ih (by omega)
      have a1 : AcceptStep limit (fun _ => true) s.net (.connect n) ⟨[n], List.range n, []⟩ := by
        rw [h2]; exact .connect _ n (by simp) (by simp) (by simp)
      have a2 : AcceptStep limit (fun _ => true) ⟨[n], List.range n, []⟩ (.accept n) ⟨[], List.range n ++ [n], []⟩ := .accept _ n [] rfl (by simp; omega)
      have s1 := Crowd.Step.connect (c := c) (setup := setup) s n _ _ a1 (.accept s.server n (by rw [h3]; simp))
      have s2 := Crowd.Step.accept (c := c) (setup := setup) ⟨⟨[n], List.range n, []⟩, s.server.put n Task.new⟩ n _ a2
      refine ⟨_, by have := Crowd.Run.snoc (h1.snoc s1) s2; simpa [fill] using this, by rw [List.range_succ], fun i => ?_⟩
      simp only [Server.put, h3]
      by_cases hi : i = n
      · simp [hi]
      · have : i < n + 1 ↔ i < n := by omega
        simp [hi, this]
  obtain ⟨s, h1, h2, h3⟩ := key limit (Nat.le_refl _)
  have a1 : AcceptStep limit (fun _ => true) s.net (.connect limit) ⟨[limit], List.range limit, []⟩ := by
    rw [h2]; exact .connect _ limit (by simp) (by simp) (by simp)
  have s1 := Crowd.Step.connect (c := c) (setup := setup) s limit _ _ a1 (.accept s.server limit (by rw [h3]; simp))
  refine ⟨_, h1.snoc s1, rfl, fun i hi => ?_⟩
  simp only [Server.put, h3]
  by_cases h : i = limit
  · simp [h]
  · have : i < limit := by omega
    simp [h, this]

/-- A client that sends nothing. -/
theorem empty_waits (c : Codec K) (x : Setup K) : (serve c x.lim x.env ⟨[], [], .silent⟩).2 = .waiting := by
  unfold serve serveLoop
  have : readHead x.lim (Message.new (K := K)).head ⟨[], [], .silent⟩ = .error .waiting := rfl
  rw [this]
  rfl

/-- **C223**, the bound is the best possible: with as many clients that send nothing as there are descriptors there is an execution in which nobody is left out by the scheduler, and one more client, whatever it
would send, is not accepted. -/
theorem C223_bound (c : Codec K) (setup : Nat → Setup K) (limit : Nat) :
    ∃ e : Forever (Crowd.Step limit c setup) Crowd.start, e.Fair CrowdAct.ofLoop ∧ (∀ j, e.Fair (CrowdAct.ofTask j)) ∧
      (∃ n, limit ∈ (e.state n).net.pending) ∧ ∀ m, e.act m ≠ some (.net (.accept limit)) := by
  obtain ⟨s, hrun, hnet, htask⟩ := fullHouse_run c setup limit
  obtain ⟨e, h1, h2⟩ := crowd_run_forever hrun
  obtain ⟨e', k1, k2, k3, k4⟩ := fair_after e (fullHouse limit).length CrowdAct.whose
  have inv : ∀ m, (fullHouse limit).length ≤ m → (e'.state m).net = ⟨[limit], List.range limit, []⟩ ∧
      ∀ i, i < limit → ∃ t, (e'.state m).server.task i = some t ∧ t.arrived = [] ∧ t.fin = .silent ∧ t.sawEnd = false := by
    intro m hm
    induction hm with
    | refl =>
      rw [k1 _ (Nat.le_refl _), (h2 _ (Nat.le_refl _)).1]
      exact ⟨hnet, fun i hi => ⟨_, htask i (by omega), rfl, rfl, rfl⟩⟩
    | @step m hm ih =>
      obtain ⟨ih1, ih2⟩ := ih
      rcases crowd_next e' m with ⟨_, h⟩ | ⟨a, ha, h⟩
      · rw [h]; exact ⟨ih1, ih2⟩
      · obtain ⟨k, hk⟩ := k4 m a hm ha
        generalize e'.state m = s at *
        generalize e'.state (m + 1) = s' at *
        have hwait : ∀ t : Task, t.arrived = [] → t.fin = .silent → t.reader = ⟨[], [], .silent⟩ := by
          intro t g1 g2; simp [Task.reader, g1, g2]
        cases h with
        | connect i net' server' g1 g2 => cases k <;> simp [CrowdAct.whose, CrowdAct.ofLoop, CrowdAct.ofTask] at hk
        | accept i net' g1 => cases g1 with | accept _ rest g1 g2 => rw [ih1] at g2; simp at g2
        | fail net' g1 => cases g1; exact ⟨ih1, ih2⟩
        | finish i t net' g1 g2 g3 g4 =>
          exfalso
          cases g4 with
          | finish _ g4 g5 =>
            rw [ih1] at g4
            obtain ⟨u, f1, f2, f3, f4⟩ := ih2 i (List.mem_range.mp g4)
            have hut : u = t := Option.some.inj (f1.symm.trans g1)
            rw [← hut, hwait u f2 f3, empty_waits] at g3
            cases g3
        | conn i a server' g1 g2 g3 =>
          refine ⟨ih1, fun j hj => ?_⟩
          obtain ⟨u, f1, f2, f3, f4⟩ := ih2 j hj
          have hat : a.ofTask = true := by
            cases k with
            | zero => cases hk
            | succ k => simp only [CrowdAct.whose, CrowdAct.ofTask, Bool.and_eq_true] at hk; exact hk.2
          have keep : ∀ v v' : Task, s.server.task i = some v → (v.arrived = [] → v.fin = .silent → v.sawEnd = false → v'.arrived = [] ∧ v'.fin = .silent ∧ v'.sawEnd = false) →
              ∃ t, (s.server.put i v').task j = some t ∧ t.arrived = [] ∧ t.fin = .silent ∧ t.sawEnd = false := by
            intro v v' hv hp
            by_cases hji : j = i
            · subst hji
              cases hv.symm.trans f1
              exact ⟨v', by simp [Server.put], hp f2 f3 f4⟩
            · exact ⟨u, by simpa [Server.put, hji] using f1, f2, f3, f4⟩
          cases g3 with
          | accept _ _ => cases hat
          | send _ _ _ _ _ => cases hat
          | finish _ _ _ _ _ _ => cases hat
          | fetch _ v hv hw hlt => exact keep v _ hv (fun p1 _ _ => by rw [p1] at hlt; simp at hlt)
          | seeEnd _ v hv _ _ hf _ => exact keep v _ hv (fun _ p2 _ => absurd p2 hf)
          | log _ v r hv _ => exact keep v _ hv (fun p1 p2 p3 => ⟨p1, p2, p3⟩)
          | answer _ v b hv _ => exact keep v _ hv (fun p1 p2 p3 => ⟨p1, p2, p3⟩)
  refine ⟨e', k3 0, fun j => k3 (j + 1), ⟨_, by rw [(inv _ (Nat.le_refl _)).1]; simp⟩, fun m ha => ?_⟩
  have hin : ∀ m, e'.act m = some (.net (.accept limit)) → limit ∈ (e'.state (m + 1)).net.serving := by
    intro m ha
    rcases crowd_next e' m with ⟨h4, _⟩ | ⟨a', h4, h5⟩
    · rw [ha] at h4; cases h4
    · rw [ha] at h4; cases h4
      exact (h5.moves limit).2.2.1 rfl
  rcases serving_stays e' (Nat.le_max_left (m + 1) (fullHouse limit).length) (hin m ha) with h | ⟨h, _⟩ <;>
    rw [(inv _ (Nat.le_max_right _ _)).1] at h <;> simp at h

/-- A client connects, sends `GET / HTTP/1.1` and leaves; the only descriptor is in use by a client that does the same. -/
example (c : Codec K) (setup : Nat → Setup K) : ∃ s, Crowd.Run 1 c setup [.net (.connect 0), .net (.connect 1), .conn 0 (.send ⟨71, b!"ET / HTTP/1.1\r\n\r\n"⟩), .conn 1 (.send ⟨71, b!"ET / HTTP/1.1\r\n\r\n"⟩),
    .conn 1 (.finish .eof), .net (.accept 0), .net .fail, .conn 0 (.finish .eof)] s ∧ s.net = ⟨[1], [0], []⟩ := by
  have h1 := Crowd.Run.snoc (.nil (limit := 1) (c := c) (setup := setup)) (.connect _ 0 _ _ (.connect _ 0 (by decide) (by decide) (by decide)) (.accept _ 0 rfl))
  have h2 := h1.snoc (.connect _ 1 _ _ (.connect _ 1 (by decide) (by decide) (by decide)) (.accept _ 1 rfl))
  have h3 := h2.snoc (.conn _ 0 (.send ⟨71, b!"ET / HTTP/1.1\r\n\r\n"⟩) _ (by decide) (by decide) (.send _ 0 Task.new _ rfl rfl))
  have h4 := h3.snoc (.conn _ 1 (.send ⟨71, b!"ET / HTTP/1.1\r\n\r\n"⟩) _ (by decide) (by decide) (.send _ 1 Task.new _ rfl rfl))
  have h5 := h4.snoc (.conn _ 1 (.finish .eof) _ (by decide) (by decide) (.finish _ 1 { Task.new with arrived := [⟨71, b!"ET / HTTP/1.1\r\n\r\n"⟩] } _ rfl rfl (by decide)))
  have h6 := h5.snoc (.accept _ 0 _ (.accept _ 0 [1] rfl (by decide)))
  have h7 := h6.snoc (.fail _ _ (.fail _ (by decide) (by decide)))
  have h8 := h7.snoc (.conn _ 0 (.finish .eof) _ (by decide) (by decide) (.finish _ 0 { Task.new with arrived := [⟨71, b!"ET / HTTP/1.1\r\n\r\n"⟩] } _ rfl rfl (by decide)))
  exact ⟨_, h8, rfl⟩

end Httpd
