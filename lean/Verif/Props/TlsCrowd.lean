import Verif.Model.TlsCrowd
import Verif.Props.TlsAccepting
import Verif.Props.Crowd
/-!
# Everybody is accepted and answered in the end, with TLS (C224)
-/

namespace Httpd
open Spec MultiMap

variable {K : Type} {c : Codec K} {setup : Nat → Setup K} {limit timeout : Nat} {hs : Nat → Handshake}

/-- What the task of connection `i` does after the handshake, its end included. -/
def TlsCrowdAct.ofTask (i : Nat) : TlsCrowdAct → Bool
  | .conn j a => j = i && a.ofTask
  | .net (.finish j) => j = i
  | _ => false

/-- In terms of the connections alone. -/
def TlsCrowdAct.conn? : TlsCrowdAct → Option (Nat × ServerAct)
  | .conn i a => some (i, a)
  | .net (.connect i) => some (i, .accept)
  | _ => none

/-- In terms of the listener alone. -/
def TlsCrowdAct.net? : TlsCrowdAct → Option TlsAct
  | .net a => some a
  | _ => none

theorem isTurn_tls (i j : Nat) (a : ServerAct) : isTurn i (j, a) = (TlsCrowdAct.conn j a).ofTask i := by
  cases a <;> simp [isTurn, TlsCrowdAct.ofTask, ServerAct.ofTask]

theorem alone_conn {a : TlsAct} (h : a.alone = true) : (TlsCrowdAct.net a).conn? = none := by cases a <;> first | rfl | cases h

theorem TlsCrowd.Run.net {tr : List TlsCrowdAct} {s : TlsCrowd} (h : TlsCrowd.Run limit timeout hs c setup tr s) :
    TlsRun limit timeout hs (fun _ => true) .start (tr.filterMap TlsCrowdAct.net?) s.net := by
  induction h with
  | nil => exact .nil
  | snoc _ hs ih =>
    rw [List.filterMap_append]
    cases hs with
    | connect i net' server' h1 h2 => exact .snoc ih h1
    | alone a net' h1 h2 => exact .snoc ih h2
    | finish i t net' h1 h2 h3 h4 => exact .snoc ih h4
    | conn i a server' h1 h2 h3 => exact (List.append_nil _).symm ▸ ih

theorem TlsCrowd.Run.server {tr : List TlsCrowdAct} {s : TlsCrowd} (h : TlsCrowd.Run limit timeout hs c setup tr s) :
    Server.Run c setup (tr.filterMap TlsCrowdAct.conn?) s.server := by
  induction h with
  | nil => exact .nil
  | snoc _ hs ih =>
    rw [List.filterMap_append]
    cases hs with
    | connect i net' server' h1 h2 => exact .snoc ih h2
    | alone a net' h1 h2 => rw [show [TlsCrowdAct.net a].filterMap TlsCrowdAct.conn? = [] by simp [alone_conn h1]]; exact (List.append_nil _).symm ▸ ih
    | finish i t net' h1 h2 h3 h4 => exact (List.append_nil _).symm ▸ ih
    | conn i a server' h1 h2 h3 => exact .snoc ih h3

/-- Where a connection is. -/
def TlsAccepting.Has (s : TlsAccepting) (i : Nat) : Prop := i ∈ s.pending ∨ i ∈ s.shaking.map (·.1) ∨ i ∈ s.serving ∨ i ∈ s.gone

/-- What a step at the listener does. -/
structure TlsMove (timeout : Nat) (hs : Nat → Handshake) (s : TlsAccepting) (a : TlsAct) (s' : TlsAccepting) : Prop where
  has : ∀ j, s'.Has j ↔ s.Has j ∨ a = .connect j
  gone : ∀ j, j ∈ s.gone → j ∈ s'.gone
  serving : ∀ j, j ∈ s.serving → (j ∈ s'.serving ∧ a ≠ .finish j) ∨ (j ∈ s'.gone ∧ a = .finish j)
  served : ∀ j, j ∈ s'.serving → j ∈ s.serving ∨ a = .shook j
  shook : ∀ j, a = .shook j → j ∈ s'.serving
  accept : ∀ j, a = .accept j → s.pending = j :: s'.pending ∧ (j, s.now) ∈ s'.shaking ∧ s'.now = s.now
  queue : (∀ j, a ≠ .accept j) → (∃ more, s'.pending = s.pending ++ more) ∧ (∀ p ∈ s'.shaking, p ∈ s.shaking) ∧ s'.used ≤ s.used ∧
    ∀ j, a = .finish j → s'.used < s.used
  shaking : ∀ p, p ∈ s.shaking → p ∈ s'.shaking ∨ (a = .shook p.1 ∧ HandshakeDone timeout (hs p.1)) ∨ (¬ HandshakeDone timeout (hs p.1) ∧ p.1 ∈ s'.gone)
  now : s.now ≤ s'.now ∧ (a ≠ .tick → s'.now = s.now)

theorem tls_move {s s' : TlsAccepting} {a : TlsAct} (h : TlsStep limit timeout hs (fun _ => true) s a s') : TlsMove timeout hs s a s' := by
  have erase_has : ∀ (l : List (Nat × Nat)) (i t j : Nat), (i, t) ∈ l → (j ∈ l.map (·.1) ↔ j ∈ (l.erase (i, t)).map (·.1) ∨ j = i) := by
    intro l i t j hm
    constructor
    · intro hj
      obtain ⟨p, hp, rfl⟩ := List.mem_map.mp hj
      by_cases he : p = (i, t)
      · exact .inr (by rw [he])
      · exact .inl (List.mem_map_of_mem ((List.mem_erase_of_ne he).mpr hp))
    · rintro (hj | rfl)
      · obtain ⟨p, hp, rfl⟩ := List.mem_map.mp hj
        exact List.mem_map_of_mem (List.mem_of_mem_erase hp)
      · exact List.mem_map_of_mem (f := (·.1)) hm
  have erase_serving : ∀ (l : List Nat) (i j : Nat), i ∈ l → (j ∈ l ↔ j ∈ l.erase i ∨ j = i) := by
    intro l i j hm
    by_cases he : j = i
    · subst he; simp [hm]
    · simp [he, List.mem_erase_of_ne he]
  cases h with
  | connect i h1 h2 h3 h4 =>
    refine ⟨fun j => ?_, by simp, by simp, by simp, by simp, by simp, fun _ => ⟨⟨_, rfl⟩, fun p hp => hp, Nat.le_refl _, by simp⟩, fun p hp => .inl hp, by simp⟩
    simp only [TlsAccepting.Has, List.mem_append, List.mem_singleton, TlsAct.connect.injEq]
    constructor
    · rintro ((h | h) | h)
      · exact .inl (.inl h)
      · exact .inr h.symm
      · exact .inl (.inr h)
    · rintro ((h | h) | h)
      · exact .inl (.inl h)
      · exact .inr h
      · exact .inl (.inr h.symm)
  | accept i rest h1 h2 =>
    refine ⟨fun j => ?_, by simp, by simp, by simp, by simp, ?_, fun hn => absurd rfl (hn i), fun p hp => .inl (List.mem_append_left _ hp), by simp⟩
    · simp only [TlsAccepting.Has, h1, List.map_append, List.mem_append, List.map_cons, List.map_nil, List.mem_cons, List.not_mem_nil, or_false]
      constructor
      · rintro (h | (h | h) | h | h)
        · exact .inl (.inl (.inr h))
        · exact .inl (.inr (.inl h))
        · exact .inl (.inl (.inl h))
        · exact .inl (.inr (.inr (.inl h)))
        · exact .inl (.inr (.inr (.inr h)))
      · rintro (((h | h) | h | h | h) | h)
        · exact .inr (.inl (.inr h))
        · exact .inl h
        · exact .inr (.inl (.inl h))
        · exact .inr (.inr (.inl h))
        · exact .inr (.inr (.inr h))
        · cases h
    · rintro j hj; cases hj; exact ⟨h1, by simp, rfl⟩
  | fail h1 h2 => exact ⟨by simp, by simp, by simp, by simp, by simp, by simp, fun _ => ⟨⟨[], by simp⟩, fun p hp => hp, Nat.le_refl _, by simp⟩, fun p hp => .inl hp, by simp⟩
  | tick h1 h2 =>
    exact ⟨fun j => by simp [TlsAccepting.Has], by simp, by simp, by simp, by simp, by simp, fun _ => ⟨⟨[], by simp⟩, fun p hp => hp, Nat.le_refl _, by simp⟩, fun p hp => .inl hp, by simp⟩
  | shook i t d h1 h2 h3 h4 h5 =>
    have hl := List.length_erase_of_mem h1
    have hp := List.length_pos_of_mem h1
    refine ⟨fun j => ?_, by simp, fun j hj => .inl ⟨List.mem_append_left _ hj, by simp⟩, fun j hj => ?_, fun j hj => ?_, by simp, fun _ => ⟨⟨[], by simp⟩, fun p hp => List.mem_of_mem_erase hp, ?_, by simp⟩,
      fun p hp => ?_, by simp⟩
    · simp only [TlsAccepting.Has, erase_has s.shaking i t j h1, List.mem_append, List.mem_singleton, reduceCtorEq, or_false]
      constructor
      · rintro (h | h | (h | h) | h)
        · exact .inl h
        · exact .inr (.inl (.inl h))
        · exact .inr (.inr (.inl h))
        · exact .inr (.inl (.inr h))
        · exact .inr (.inr (.inr h))
      · rintro (h | (h | h) | h | h)
        · exact .inl h
        · exact .inr (.inl h)
        · exact .inr (.inr (.inl (.inr h)))
        · exact .inr (.inr (.inl (.inl h)))
        · exact .inr (.inr (.inr h))
    · rcases List.mem_append.mp hj with h | h
      · exact .inl h
      · cases List.mem_singleton.mp h; exact .inr rfl
    · cases hj; simp
    · simp only [TlsAccepting.used, List.length_append, List.length_singleton]; omega
    · by_cases he : p = (i, t)
      · subst he; exact .inr (.inl ⟨rfl, h4, d, h2, h3⟩)
      · exact .inl ((List.mem_erase_of_ne he).mpr hp)
  | refused i t d h1 h2 h3 h4 h5 =>
    have hl := List.length_erase_of_mem h1
    refine ⟨fun j => ?_, fun j hj => List.mem_append_left _ hj, by simp, by simp, by simp, by simp, fun _ => ⟨⟨[], by simp⟩, fun p hp => List.mem_of_mem_erase hp, ?_, by simp⟩, fun p hp => ?_, by simp⟩
    · simp only [TlsAccepting.Has, erase_has s.shaking i t j h1, List.mem_append, List.mem_singleton, reduceCtorEq, or_false]
      constructor
      · rintro (h | h | h | (h | h))
        · exact .inl h
        · exact .inr (.inl (.inl h))
        · exact .inr (.inr (.inl h))
        · exact .inr (.inr (.inr h))
        · exact .inr (.inl (.inr h))
      · rintro (h | (h | h) | h | h)
        · exact .inl h
        · exact .inr (.inl h)
        · exact .inr (.inr (.inr (.inr h)))
        · exact .inr (.inr (.inl h))
        · exact .inr (.inr (.inr (.inl h)))
    · simp only [TlsAccepting.used]; omega
    · by_cases he : p = (i, t)
      · subst he
        have hn : ¬ HandshakeDone timeout (hs i) := by intro hd; have := hd.1; rw [h4] at this; cases this
        exact .inr (.inr ⟨hn, by simp⟩)
      · exact .inl ((List.mem_erase_of_ne he).mpr hp)
  | expired i t h1 h2 h3 =>
    have hl := List.length_erase_of_mem h1
    refine ⟨fun j => ?_, fun j hj => List.mem_append_left _ hj, by simp, by simp, by simp, by simp, fun _ => ⟨⟨[], by simp⟩, fun p hp => List.mem_of_mem_erase hp, ?_, by simp⟩, fun p hp => ?_, by simp⟩
    · simp only [TlsAccepting.Has, erase_has s.shaking i t j h1, List.mem_append, List.mem_singleton, reduceCtorEq, or_false]
      constructor
      · rintro (h | h | h | (h | h))
        · exact .inl h
        · exact .inr (.inl (.inl h))
        · exact .inr (.inr (.inl h))
        · exact .inr (.inr (.inr h))
        · exact .inr (.inl (.inr h))
      · rintro (h | (h | h) | h | h)
        · exact .inl h
        · exact .inr (.inl h)
        · exact .inr (.inr (.inr (.inr h)))
        · exact .inr (.inr (.inl h))
        · exact .inr (.inr (.inr (.inl h)))
    · simp only [TlsAccepting.used]; omega
    · by_cases he : p = (i, t)
      · subst he
        refine .inr (.inr ⟨fun hd => ?_, by simp⟩)
        obtain ⟨_, d, g1, g2⟩ := hd
        have := h2 d g1
        omega
      · exact .inl ((List.mem_erase_of_ne he).mpr hp)
  | finish i h1 h2 =>
    have hl := List.length_erase_of_mem h1
    have hp := List.length_pos_of_mem h1
    refine ⟨fun j => ?_, fun j hj => List.mem_append_left _ hj, fun j hj => ?_, fun j hj => .inl (List.mem_of_mem_erase hj), by simp, by simp, fun _ => ⟨⟨[], by simp⟩, fun p hp => hp, ?_, fun j _ => ?_⟩, fun p hp => .inl hp, by simp⟩
    · simp only [TlsAccepting.Has, erase_serving s.serving i j h1, List.mem_append, List.mem_singleton, reduceCtorEq, or_false]
      constructor
      · rintro (h | h | h | (h | h))
        · exact .inl h
        · exact .inr (.inl h)
        · exact .inr (.inr (.inl (.inl h)))
        · exact .inr (.inr (.inr h))
        · exact .inr (.inr (.inl (.inr h)))
      · rintro (h | h | (h | h) | h)
        · exact .inl h
        · exact .inr (.inl h)
        · exact .inr (.inr (.inl h))
        · exact .inr (.inr (.inr (.inr h)))
        · exact .inr (.inr (.inr (.inl h)))
    · by_cases he : j = i
      · subst he; exact .inr ⟨by simp, rfl⟩
      · exact .inl ⟨(List.mem_erase_of_ne he).mpr hj, by simpa using fun h => he h.symm⟩
    · simp only [TlsAccepting.used]; omega
    · simp only [TlsAccepting.used]; omega

/-- Those in service are different, and got there by a handshake in time. -/
theorem tls_serving {s : TlsAccepting} {tr : List TlsAct} (h : TlsRun limit timeout hs (fun _ => true) .start tr s) :
    s.serving.Nodup ∧ (∀ j ∈ s.serving, j ∉ s.pending ∧ j ∉ s.shaking.map (·.1)) ∧ (∀ j ∈ s.pending, j ∉ s.shaking.map (·.1)) := by
  induction h with
  | nil => simp [TlsAccepting.start]
  | @snoc tr s1 s2 a h0 hst ih =>
    obtain ⟨i1, i2, i3⟩ := ih
    obtain ⟨k1, k2, k3, _⟩ := tls_inv h0
    have sub : ∀ (p : Nat × Nat) (j : Nat), j ∈ (s1.shaking.erase p).map (·.1) → j ∈ s1.shaking.map (·.1) := by
      intro p j hj
      obtain ⟨q, hq, rfl⟩ := List.mem_map.mp hj
      exact List.mem_map_of_mem (List.mem_of_mem_erase hq)
    cases hst with
    | connect i h1 h2 h3 h4 =>
      refine ⟨i1, fun j hj => ⟨fun hm => ?_, (i2 j hj).2⟩, fun j hj => ?_⟩
      · rcases List.mem_append.mp hm with hm | hm
        · exact (i2 j hj).1 hm
        · cases List.mem_singleton.mp hm; exact h3 hj
      · rcases List.mem_append.mp hj with hj | hj
        · exact i3 j hj
        · cases List.mem_singleton.mp hj; exact h2
    | accept i rest hp hl =>
      have hk : (i :: rest).Nodup := by rw [← hp]; exact k3
      refine ⟨i1, fun j hj => ⟨fun hm => (i2 j hj).1 (by rw [hp]; exact List.mem_cons_of_mem _ hm), fun hm => ?_⟩, fun j hj hm => ?_⟩
      · simp only [List.map_append, List.mem_append, List.map_cons, List.map_nil, List.mem_singleton] at hm
        rcases hm with hm | rfl
        · exact (i2 j hj).2 hm
        · exact (i2 j hj).1 (by rw [hp]; simp)
      · simp only [List.map_append, List.mem_append, List.map_cons, List.map_nil, List.mem_singleton] at hm
        rcases hm with hm | rfl
        · exact i3 j (by rw [hp]; exact List.mem_cons_of_mem _ hj) hm
        · exact (List.nodup_cons.mp hk).1 hj
    | fail _ _ => exact ⟨i1, i2, i3⟩
    | tick _ _ => exact ⟨i1, i2, i3⟩
    | shook i t d hm _ _ _ _ =>
      have hin : i ∈ s1.shaking.map (·.1) := List.mem_map_of_mem (f := (·.1)) hm
      have hnot : i ∉ (s1.shaking.erase (i, t)).map (·.1) := by
        intro hx
        obtain ⟨q, hq, hqi⟩ := List.mem_map.mp hx
        have hperm := (List.perm_cons_erase hm).map (·.1)
        have := hperm.nodup k1
        simp only [List.map_cons, List.nodup_cons] at this
        exact this.1 hx
      refine ⟨?_, fun j hj => ?_, fun j hj => fun h => i3 j hj (sub _ j h)⟩
      · refine List.nodup_append.mpr ⟨i1, by simp, ?_⟩
        intro x hx y hy e
        cases List.mem_singleton.mp hy
        subst e
        exact (i2 _ hx).2 hin
      · rcases List.mem_append.mp hj with hj | hj
        · exact ⟨(i2 j hj).1, fun h => (i2 j hj).2 (sub _ j h)⟩
        · rw [List.mem_singleton.mp hj]
          exact ⟨fun hp => i3 i hp hin, hnot⟩
    | refused i t d hm _ _ _ _ => exact ⟨i1, fun j hj => ⟨(i2 j hj).1, fun h => (i2 j hj).2 (sub _ j h)⟩, fun j hj => fun h => i3 j hj (sub _ j h)⟩
    | expired i t hm _ _ => exact ⟨i1, fun j hj => ⟨(i2 j hj).1, fun h => (i2 j hj).2 (sub _ j h)⟩, fun j hj => fun h => i3 j hj (sub _ j h)⟩
    | finish i hi _ => exact ⟨i1.sublist List.erase_sublist, fun j hj => i2 j (List.mem_of_mem_erase hj), i3⟩

/-! ## Executions -/

theorem TlsCrowd.Step.move {s s' : TlsCrowd} {a : TlsCrowdAct} (h : TlsCrowd.Step limit timeout hs c setup s a s') :
    (∃ b, a = .net b ∧ TlsMove timeout hs s.net b s'.net) ∨ ((∃ i b, a = .conn i b) ∧ s'.net = s.net) := by
  cases h with
  | connect i net' server' h1 h2 => exact .inl ⟨_, rfl, tls_move h1⟩
  | alone a net' h1 h2 => exact .inl ⟨_, rfl, tls_move h2⟩
  | finish i t net' h1 h2 h3 h4 => exact .inl ⟨_, rfl, tls_move h4⟩
  | conn i a server' h1 h2 h3 => exact .inr ⟨⟨_, _, rfl⟩, rfl⟩

theorem tlsCrowd_forever (e : Forever (TlsCrowd.Step limit timeout hs c setup) TlsCrowd.start) (n : Nat) :
    TlsCrowd.Run limit timeout hs c setup (e.upTo n) (e.state n) := by
  induction n with
  | zero => rw [e.first]; exact .nil
  | succ n ih =>
    have := e.next n
    rw [upTo_succ]
    cases ha : e.act n with
    | none => rw [ha] at this; simp only at this; rw [this]; simpa using ih
    | some a => rw [ha] at this; exact .snoc ih this

/-- The connections alone. -/
def tlsCrowdServer (e : Forever (TlsCrowd.Step limit timeout hs c setup) TlsCrowd.start) : Forever (Server.Step c setup) Server.start :=
  ⟨fun n => (e.state n).server, fun n => (e.act n).bind TlsCrowdAct.conn?, by rw [e.first]; rfl, fun n => by
    have := e.next n
    cases ha : e.act n with
    | none => rw [ha] at this; simp only at this; simp [this]
    | some a =>
      rw [ha] at this
      simp only at this
      generalize e.state (n + 1) = s' at this ⊢
      cases this with
      | connect i net' server' h1 h2 => exact h2
      | alone a net' h1 h2 => simp [alone_conn h1]
      | finish i t net' h1 h2 h3 h4 => rfl
      | conn i a server' h1 h2 h3 => exact h3⟩

/-- Every connection that was made is somewhere, and nothing is sent to one without a handshake. -/
theorem TlsCrowd.Run.places {tr : List TlsCrowdAct} {s : TlsCrowd} (h : TlsCrowd.Run limit timeout hs c setup tr s) :
    (∀ i, (∃ t, s.server.task i = some t) ↔ s.net.Has i) ∧ (∀ i, ¬ HandshakeDone timeout (hs i) → i ∉ s.net.serving ∧ s.server.wire i = []) := by
  induction h with
  | nil => exact ⟨fun i => by simp [TlsCrowd.start, Server.start, TlsAccepting.Has, TlsAccepting.start], fun i _ => ⟨by simp [TlsCrowd.start, TlsAccepting.start], rfl⟩⟩
  | @snoc tr s s' a hr hst ih =>
    obtain ⟨h1, h2⟩ := ih
    cases hst with
    | connect i net' server' k1 k2 =>
      have hm := tls_move k1
      refine ⟨fun j => ?_, fun j hj => ⟨fun hs' => ?_, ?_⟩⟩
      · rw [k2.known j, hm.has j, h1 j]
        simp only [TlsAct.connect.injEq, and_true]
        exact ⟨fun h => h.imp id Eq.symm, fun h => h.imp id Eq.symm⟩
      · rcases hm.served j hs' with h | h
        · exact (h2 j hj).1 h
        · cases h
      · cases k2; exact (h2 j hj).2
    | alone a net' k1 k2 =>
      have hm := tls_move k2
      have hc : ∀ j, a ≠ .connect j := by rintro j rfl; cases k1
      refine ⟨fun j => ?_, fun j hj => ⟨fun hs' => ?_, (h2 j hj).2⟩⟩
      · rw [h1 j, hm.has j]; simp [hc j]
      · rcases hm.served j hs' with h | rfl
        · exact (h2 j hj).1 h
        · cases k2 with
          | shook _ t d g1 g2 g3 g4 g5 => exact hj ⟨g4, d, g2, g3⟩
    | finish i t net' k1 k2 k3 k4 =>
      have hm := tls_move k4
      refine ⟨fun j => ?_, fun j hj => ⟨fun hs' => ?_, (h2 j hj).2⟩⟩
      · rw [h1 j, hm.has j]; simp
      · rcases hm.served j hs' with h | h
        · exact (h2 j hj).1 h
        · cases h
    | conn i a server' k1 k2 k3 =>
      refine ⟨fun j => ?_, fun j hj => ⟨(h2 j hj).1, ?_⟩⟩
      · rw [k3.known j, h1 j]; simp [k1]
      · have hw := (h2 j hj).2
        cases k3 with
        | answer _ t b g1 g2 =>
          have hji : j ≠ i := by rintro rfl; exact (h2 j hj).1 (k2 rfl)
          simpa [hji] using hw
        | _ => exact hw

section
variable (e : Forever (TlsCrowd.Step limit timeout hs c setup) TlsCrowd.start)

theorem tlsCrowd_next (m : Nat) : e.act m = none ∧ e.state (m + 1) = e.state m ∨
    ∃ a, e.act m = some a ∧ TlsCrowd.Step limit timeout hs c setup (e.state m) a (e.state (m + 1)) := by
  have := e.next m
  cases ha : e.act m with
  | none => rw [ha] at this; exact .inl ⟨rfl, this⟩
  | some a => rw [ha] at this; exact .inr ⟨a, rfl, this⟩

/-- What happens at the listener at one moment. -/
theorem tlsCrowd_move (m : Nat) : ((∀ b, e.act m ≠ some (.net b)) ∧ (e.state (m + 1)).net = (e.state m).net) ∨
    ∃ b, e.act m = some (.net b) ∧ TlsMove timeout hs (e.state m).net b (e.state (m + 1)).net := by
  rcases tlsCrowd_next e m with ⟨h1, h2⟩ | ⟨a, h1, h2⟩
  · exact .inl ⟨fun b => by rw [h1]; simp, by rw [h2]⟩
  · rcases h2.move with ⟨b, rfl, h3⟩ | ⟨⟨i, b, rfl⟩, h3⟩
    · exact .inr ⟨b, h1, h3⟩
    · exact .inl ⟨fun b => by rw [h1]; simp, h3⟩

theorem tls_gone_stays {j n m : Nat} (hnm : n ≤ m) (h : j ∈ (e.state n).net.gone) : j ∈ (e.state m).net.gone := by
  induction hnm with
  | refl => exact h
  | @step m _ ih =>
    rcases tlsCrowd_move e m with ⟨_, h2⟩ | ⟨b, _, h2⟩
    · rw [h2]; exact ih
    · exact h2.gone j ih

theorem tls_serving_stays {j n m : Nat} (hnm : n ≤ m) (h : j ∈ (e.state n).net.serving) :
    j ∈ (e.state m).net.serving ∨ j ∈ (e.state m).net.gone ∧ ∃ m', n ≤ m' ∧ m' < m ∧ e.act m' = some (.net (.finish j)) := by
  induction hnm with
  | refl => exact .inl h
  | @step m hm ih =>
    rcases ih with ih | ⟨ih, m', h1, h2, h3⟩
    · rcases tlsCrowd_move e m with ⟨_, h2⟩ | ⟨b, h1, h2⟩
      · rw [h2]; exact .inl ih
      · rcases h2.serving j ih with ⟨h3, _⟩ | ⟨h3, rfl⟩
        · exact .inl h3
        · exact .inr ⟨h3, m, hm, Nat.lt_succ_self _, h1⟩
    · exact .inr ⟨tls_gone_stays e (Nat.le_succ _) ih, m', h1, by omega, h3⟩

theorem tls_over_later {j n m : Nat} {t : Task} {f : Ending} (hnm : n ≤ m) (ht : (e.state n).server.task j = some t) (ho : t.over c (setup j) f) (hf : f ≠ .waiting) :
    ∃ t', (e.state m).server.task j = some t' ∧ t'.over c (setup j) f := by
  induction hnm with
  | refl => exact ⟨t, ht, ho⟩
  | @step m _ ih =>
    obtain ⟨u, h1, h2⟩ := ih
    have hrun := (tlsCrowd_forever e m).server
    rcases tlsCrowd_next e m with ⟨_, h⟩ | ⟨a, _, h⟩
    · rw [h]; exact ⟨u, h1, h2⟩
    · generalize e.state m = s at *
      generalize e.state (m + 1) = s' at *
      cases h with
      | connect i net' server' k1 k2 => exact over_for_good hrun h1 h2 hf k2
      | alone a net' k1 k2 => exact ⟨u, h1, h2⟩
      | finish i t net' k1 k2 k3 k4 => exact ⟨u, h1, h2⟩
      | conn i a server' k1 k2 k3 => exact over_for_good hrun h1 h2 hf k3

/-- A task that has ended takes no more turns. -/
theorem no_turn_finished {j m' m : Nat} (hf : e.act m' = some (.net (.finish j))) (hm : m' ≤ m) {a : Nat × ServerAct} {s' : Server} (ha : isTurn j a = true) :
    ¬ Server.Step c setup (e.state m).server a s' := by
  rcases tlsCrowd_next e m' with ⟨h4, _⟩ | ⟨a', h4, h5⟩
  · rw [hf] at h4; cases h4
  · rw [hf] at h4; cases h4
    generalize e.state (m' + 1) = x at h5
    cases h5 with
    | alone _ net' k1 k2 => cases k1
    | finish _ t net' k1 k2 k3 k4 =>
      have hw : (serve c (setup j).lim (setup j).env t.reader).2 ≠ .waiting := by intro hw; rw [hw] at k3; cases k3
      obtain ⟨t', g1, g2⟩ := tls_over_later e hm k1 ⟨k2, rfl⟩ hw
      exact no_turn g1 g2 hw ha

/-- Whoever is past the handshake gets turns as long as there is something to do. -/
theorem tls_fair_turns {j n : Nat} (h : j ∈ (e.state n).net.serving) (hfair : e.Fair (TlsCrowdAct.ofTask j)) : (tlsCrowdServer e).Fair (isTurn j) := by
  intro n0 hen
  have hserv : ∀ m, max n n0 ≤ m → j ∈ (e.state m).net.serving := by
    intro m hm
    rcases tls_serving_stays e (show n ≤ m by omega) h with h | ⟨_, m', _, h2, h3⟩
    · exact h
    · obtain ⟨a, s', k1, k2⟩ := hen m (by omega)
      exact absurd k2 (no_turn_finished e h3 (by omega) k1)
  obtain ⟨m, a, h1, h2, h3⟩ := hfair (max n n0) (fun m hm => by
    obtain ⟨⟨i, a⟩, s', h1, h2⟩ := hen m (by omega)
    have hi : i = j ∧ a.ofTask = true := by
      rw [isTurn_tls] at h1
      simpa [TlsCrowdAct.ofTask] using h1
    obtain ⟨rfl, ha⟩ := hi
    refine ⟨.conn i a, _, by simp [TlsCrowdAct.ofTask, ha], .conn _ i a s' ?_ (fun _ => hserv m hm) h2⟩
    rintro rfl; cases ha)
  cases a with
  | conn i a =>
    refine ⟨m, (i, a), by omega, ?_, by rw [isTurn_tls]; exact h3⟩
    show (e.act m).bind TlsCrowdAct.conn? = _
    rw [h2]; rfl
  | net b =>
    exfalso
    cases b with
    | finish i =>
      simp only [TlsCrowdAct.ofTask, decide_eq_true_eq] at h3
      subst h3
      obtain ⟨a, s', k1, k2⟩ := hen (m + 1) (by omega)
      exact no_turn_finished e h2 (Nat.le_succ _) k1 k2
    | _ => simp [TlsCrowdAct.ofTask] at h3

/-- Whoever is past the handshake and sends what makes `serve` end gives its descriptor back. -/
theorem tls_leaves {j n n' : Nat} {t : Task} (h : j ∈ (e.state n).net.serving) (hfair : e.Fair (TlsCrowdAct.ofTask j)) (ht : (e.state n').server.task j = some t)
    (ho : (serve c (setup j).lim (setup j).env t.all).2.over = true) : ∃ m, n ≤ m ∧ e.act m = some (.net (.finish j)) := by
  apply Classical.byContradiction
  intro hno
  have hserv : ∀ m, n ≤ m → j ∈ (e.state m).net.serving := by
    intro m hm
    rcases tls_serving_stays e hm h with h | ⟨_, m', h1, _, h2⟩
    · exact h
    · exact absurd ⟨m', h1, h2⟩ hno
  have hw : (serve c (setup j).lim (setup j).env t.all).2 ≠ .waiting := by intro hw; rw [hw] at ho; cases ho
  obtain ⟨m, u, hm, hu, hov⟩ := over_in_the_end (tlsCrowdServer e) j (tls_fair_turns e h hfair) n' t ht hw
  obtain ⟨m', a, h1, h2, h3⟩ := hfair (max n m) (fun k hk => by
    obtain ⟨u', g1, g2⟩ := tls_over_later e (show m ≤ k by omega) hu hov hw
    have hs : TlsStep limit timeout hs (fun _ => true) (e.state k).net (.finish j) _ := .finish _ j (hserv k (by omega)) rfl
    exact ⟨.net (.finish j), _, by simp [TlsCrowdAct.ofTask], .finish _ j u' _ g1 g2.1 (by rw [g2.2]; exact ho) hs⟩)
  obtain ⟨u', g1, g2⟩ := tls_over_later e (show m ≤ m' by omega) hu hov hw
  cases a with
  | conn i a =>
    rcases tlsCrowd_next e m' with ⟨h4, _⟩ | ⟨a', h4, h5⟩
    · rw [h2] at h4; cases h4
    · rw [h2] at h4; cases h4
      rw [← isTurn_tls] at h3
      generalize e.state (m' + 1) = s' at h5
      cases h5 with
      | conn _ _ server' k1 k2 k3 => exact no_turn g1 g2 hw h3 k3
  | net b =>
    cases b with
    | finish i => simp only [TlsCrowdAct.ofTask, decide_eq_true_eq] at h3; subst h3; exact hno ⟨m', by omega, h2⟩
    | _ => simp [TlsCrowdAct.ofTask] at h3

variable (htime : ∀ T, ∃ n, T ≤ (e.state n).net.now)

theorem now_mono {n m : Nat} (h : n ≤ m) : (e.state n).net.now ≤ (e.state m).net.now := by
  induction h with
  | refl => exact Nat.le_refl _
  | @step m _ ih =>
    rcases tlsCrowd_move e m with ⟨_, h2⟩ | ⟨b, _, h2⟩
    · rw [h2]; exact ih
    · exact Nat.le_trans ih h2.now.1

include htime in
/-- Every handshake ends in time, one way or the other. -/
theorem handshake_ends {n : Nat} {p : Nat × Nat} (h : p ∈ (e.state n).net.shaking) :
    ∃ m, n ≤ m ∧ (e.state m).net.now ≤ p.2 + timeout ∧
      ((e.act m = some (.net (.shook p.1)) ∧ p.1 ∈ (e.state (m + 1)).net.serving ∧ HandshakeDone timeout (hs p.1)) ∨
        (p.1 ∈ (e.state (m + 1)).net.gone ∧ ¬ HandshakeDone timeout (hs p.1))) := by
  obtain ⟨N, hN⟩ := htime (p.2 + timeout + 1)
  have hle : ∀ m, p ∈ (e.state m).net.shaking → (e.state m).net.now ≤ p.2 + timeout := by
    intro m hm
    have h1 := ((tls_inv (tlsCrowd_forever e m).net).2.1 p hm).2.2
    have := lasts_le (timeout := timeout) (hs p.1)
    omega
  have key : ∀ k, p ∈ (e.state (n + k)).net.shaking ∨ ∃ m, n ≤ m ∧ (e.state m).net.now ≤ p.2 + timeout ∧
      ((e.act m = some (.net (.shook p.1)) ∧ p.1 ∈ (e.state (m + 1)).net.serving ∧ HandshakeDone timeout (hs p.1)) ∨
        (p.1 ∈ (e.state (m + 1)).net.gone ∧ ¬ HandshakeDone timeout (hs p.1))) := by
    intro k
    induction k with
    | zero => exact .inl h
    | succ k ih =>
      rcases ih with ih | ih
      · rcases tlsCrowd_move e (n + k) with ⟨_, h2⟩ | ⟨b, h1, h2⟩
        · exact .inl (by rw [← Nat.add_assoc, h2]; exact ih)
        · rcases h2.shaking p ih with h3 | ⟨rfl, h3⟩ | ⟨h3, h4⟩
          · exact .inl h3
          · exact .inr ⟨n + k, by omega, hle _ ih, .inl ⟨h1, h2.shook _ rfl, h3⟩⟩
          · exact .inr ⟨n + k, by omega, hle _ ih, .inr ⟨h4, h3⟩⟩
      · exact .inr ih
  rcases key N with h1 | h1
  · have := hle _ h1
    have := now_mono e (show N ≤ n + N by omega)
    omega
  · exact h1

variable (htasks : ∀ j, e.Fair (TlsCrowdAct.ofTask j)) (stuck : List Nat) (hfew : stuck.length < limit)
  (hleave : ∀ j, j ∉ stuck → ∀ n, j ∈ (e.state n).net.serving →
    ∃ n' t, (e.state n').server.task j = some t ∧ (serve c (setup j).lim (setup j).env t.all).2.over = true)

include htime htasks hfew hleave in
/-- The next of the queue is accepted. -/
theorem tls_next_accepted {n : Nat} (h : (e.state n).net.pending ≠ []) :
    ∃ m i more, n ≤ m ∧ e.act m = some (.net (.accept i)) ∧ (e.state n).net.pending ++ more = i :: (e.state (m + 1)).net.pending := by
  apply Classical.byContradiction
  intro hno
  have hpend : ∀ m, n ≤ m → (∃ more, (e.state m).net.pending = (e.state n).net.pending ++ more) ∧ ∀ i, e.act m ≠ some (.net (.accept i)) := by
    have key : ∀ m, (∃ more, (e.state m).net.pending = (e.state n).net.pending ++ more) → n ≤ m → ∀ i, e.act m ≠ some (.net (.accept i)) := by
      rintro m ⟨more, hm⟩ hnm i hi
      rcases tlsCrowd_move e m with ⟨h4, _⟩ | ⟨b, h4, h5⟩
      · exact h4 _ hi
      · rw [hi] at h4; cases h4
        exact hno ⟨m, i, more, hnm, hi, by rw [← hm]; exact (h5.accept i rfl).1⟩
    intro m hm
    induction hm with
    | refl => exact ⟨⟨[], by simp⟩, key n ⟨[], by simp⟩ (Nat.le_refl _)⟩
    | @step m hm ih =>
      obtain ⟨⟨more, h1⟩, h2⟩ := ih
      have hex : ∃ more, (e.state (m + 1)).net.pending = (e.state n).net.pending ++ more := by
        rcases tlsCrowd_move e m with ⟨_, h4⟩ | ⟨b, h4, h5⟩
        · rw [h4]; exact ⟨more, h1⟩
        · obtain ⟨⟨y, hy⟩, _⟩ := h5.queue (fun i hi => h2 i (by rw [h4, hi]))
          exact ⟨more ++ y, by rw [hy, h1, List.append_assoc]⟩
      exact ⟨hex, key _ hex (Nat.le_succ_of_le hm)⟩
  have hstep : ∀ m, n ≤ m → (∀ p ∈ (e.state (m + 1)).net.shaking, p ∈ (e.state m).net.shaking) ∧ (e.state (m + 1)).net.used ≤ (e.state m).net.used ∧
      ∀ j, e.act m = some (.net (.finish j)) → (e.state (m + 1)).net.used < (e.state m).net.used := by
    intro m hm
    rcases tlsCrowd_move e m with ⟨h3, h4⟩ | ⟨b, h4, h5⟩
    · rw [h4]; exact ⟨fun p hp => hp, Nat.le_refl _, fun j hj => absurd hj (h3 _)⟩
    · obtain ⟨_, g2, g3, g4⟩ := h5.queue (fun i hi => (hpend m hm).2 i (by rw [h4, hi]))
      exact ⟨g2, g3, fun j hj => g4 j (by rw [h4] at hj; cases hj; rfl)⟩
  have hmono : ∀ m m', n ≤ m → m ≤ m' → (e.state m').net.used ≤ (e.state m).net.used := by
    intro m m' hm hmm
    induction hmm with
    | refl => exact Nat.le_refl _
    | @step k hk ih => exact Nat.le_trans (hstep k (Nat.le_trans hm hk)).2.1 ih
  have hshake : ∀ m, n ≤ m → ∀ p ∈ (e.state m).net.shaking, p ∈ (e.state n).net.shaking := by
    intro m hm
    induction hm with
    | refl => exact fun p hp => hp
    | @step m hm ih => exact fun p hp => ih p ((hstep m hm).1 p hp)
  -- all handshakes are over
  obtain ⟨m1, hm1, hempty⟩ : ∃ m1, n ≤ m1 ∧ (e.state m1).net.shaking = [] := by
    obtain ⟨N, hN⟩ := htime ((e.state n).net.now + timeout + 1)
    refine ⟨n + N, by omega, List.eq_nil_iff_forall_not_mem.mpr fun p hp => ?_⟩
    have h1 := ((tls_inv (tlsCrowd_forever e n).net).2.1 p (hshake _ (by omega) p hp)).2.1
    have h2 := ((tls_inv (tlsCrowd_forever e (n + N)).net).2.1 p hp).2.2
    have h3 := lasts_le (timeout := timeout) (hs p.1)
    have := now_mono e (show N ≤ n + N by omega)
    omega
  have hfree : ∃ m, n ≤ m ∧ (e.state m).net.used < limit := by
    by_cases hlt : (e.state m1).net.used < limit
    · exact ⟨m1, hm1, hlt⟩
    · have hu : (e.state m1).net.used = (e.state m1).net.serving.length := by simp [TlsAccepting.used, hempty]
      obtain ⟨j, hj, hjs⟩ := one_outside (m := stuck) (tls_serving (tlsCrowd_forever e m1).net).1 (by omega)
      obtain ⟨n', t, ht, ho⟩ := hleave j hjs m1 hj
      obtain ⟨m, hm, hfin⟩ := tls_leaves e hj (htasks j) ht ho
      have h1 := (hstep m (by omega)).2.2 j hfin
      have h2 := (tls_inv (tlsCrowd_forever e m).net).2.2.2
      exact ⟨m + 1, by omega, by omega⟩
  obtain ⟨m, hm, hlt⟩ := hfree
  -- and then time does not pass
  have hstop : ∀ k, m ≤ k → (e.state k).net.now = (e.state m).net.now := by
    intro k hk
    induction hk with
    | refl => rfl
    | @step k hk ih =>
      rcases tlsCrowd_next e k with ⟨_, h2⟩ | ⟨a, h1, h2⟩
      · rw [h2]; exact ih
      · rcases h2.move with ⟨b, rfl, h3⟩ | ⟨_, h3⟩
        · by_cases hb : b = .tick
          · subst hb
            exfalso
            have hused := hmono m k hm hk
            obtain ⟨more, hp⟩ := (hpend k (Nat.le_trans hm hk)).1
            generalize e.state (k + 1) = s' at h2
            cases h2 with
            | alone _ net' k1 k2 =>
              cases k2 with
              | tick g1 g2 =>
                rcases g1 with g1 | g1
                · rw [hp] at g1; exact h (List.append_eq_nil_iff.mp g1).1
                · omega
          · rw [h3.now.2 hb]; exact ih
        · rw [h3]; exact ih
  obtain ⟨N, hN⟩ := htime ((e.state m).net.now + 1)
  have := now_mono e (show N ≤ m + N by omega)
  have := hstop (m + N) (by omega)
  omega

include htime htasks hfew hleave in
/-- Everybody in the queue is accepted. -/
theorem tls_all_accepted {n i : Nat} (h : i ∈ (e.state n).net.pending) : ∃ m, n ≤ m ∧ e.act m = some (.net (.accept i)) := by
  obtain ⟨before, after, hba⟩ := List.append_of_mem h
  clear h
  generalize hk : before.length = k
  induction k generalizing n before after with
  | zero =>
    obtain ⟨m, j, more, h1, h2, h3⟩ := tls_next_accepted e htime htasks stuck hfew hleave (n := n) (by rw [hba]; simp)
    cases before with
    | cons => simp at hk
    | nil =>
      rw [hba] at h3
      simp only [List.nil_append, List.cons_append, List.cons.injEq] at h3
      rw [h3.1]; exact ⟨m, h1, h2⟩
  | succ k ih =>
    obtain ⟨m, j, more, h1, h2, h3⟩ := tls_next_accepted e htime htasks stuck hfew hleave (n := n) (by rw [hba]; simp)
    cases before with
    | nil => simp at hk
    | cons b before =>
      rw [hba] at h3
      simp only [List.cons_append, List.append_assoc, List.cons.injEq] at h3
      obtain ⟨m', h4, h5⟩ := ih before (after ++ more) (n := m + 1) h3.2.symm (by simpa using hk)
      exact ⟨m', by omega, h5⟩

/-- Nobody is past the queue who was not accepted. -/
theorem tls_not_yet {i : Nat} (hno : ∀ m, e.act m ≠ some (.net (.accept i))) (m : Nat) : (e.state m).net.Has i → i ∈ (e.state m).net.pending := by
  induction m with
  | zero => rw [e.first]; simp [TlsCrowd.start, TlsAccepting.start, TlsAccepting.Has]
  | succ m ih =>
    rcases tlsCrowd_move e m with ⟨_, h⟩ | ⟨b, hb, h⟩
    · rw [h]; exact ih
    · intro hi
      by_cases hc : ∀ j, b ≠ .accept j
      · obtain ⟨⟨more, hp⟩, _⟩ := h.queue hc
        rcases (h.has i).mp hi with h1 | rfl
        · rw [hp]; exact List.mem_append_left _ (ih h1)
        · rcases tlsCrowd_next e m with ⟨h4, _⟩ | ⟨a', h4, h5⟩
          · rw [hb] at h4; cases h4
          · rw [hb] at h4; cases h4
            generalize e.state (m + 1) = s' at *
            cases h5 with
            | connect _ net' server' k1 k2 => cases k1; simp
            | alone _ net' k1 k2 => cases k1
      · simp only [Classical.not_forall, Classical.not_not] at hc
        obtain ⟨j, rfl⟩ := hc
        have hj : i ≠ j := by rintro rfl; exact hno m hb
        have h1 := (h.has i).mp hi
        simp only [reduceCtorEq, or_false] at h1
        have h2 := ih h1
        rw [(h.accept j rfl).1] at h2
        exact (List.mem_cons.mp h2).resolve_left hj

end

/-- **C224.** A TLS service with a limit on open files, any number of clients that connect, do the handshake or not, send and leave as they like, in an execution without end in which time passes without
bound and no task is left out for ever. If the clients past the handshake that never send what makes `serve` return (`stuck`) are fewer than there are descriptors, then everybody who connects
is accepted. Whoever completes the handshake within the time limit has it done within the time limit from then on, is sent everything that `serve` answers to what had arrived from it, and, if
`serve` returns on that, gives its descriptor back. Everybody else is dropped within the time limit and is sent nothing. -/
theorem C224_everybody (c : Codec K) (setup : Nat → Setup K) (limit timeout : Nat) (hs : Nat → Handshake)
    (e : Forever (TlsCrowd.Step limit timeout hs c setup) TlsCrowd.start) (htime : ∀ T, ∃ n, T ≤ (e.state n).net.now)
    (htasks : ∀ j, e.Fair (TlsCrowdAct.ofTask j)) (stuck : List Nat) (hfew : stuck.length < limit)
    (hleave : ∀ j, j ∉ stuck → ∀ n, j ∈ (e.state n).net.serving →
      ∃ n' t, (e.state n').server.task j = some t ∧ (serve c (setup j).lim (setup j).env t.all).2.over = true)
    (n i : Nat) (t : Task) (ht : (e.state n).server.task i = some t) :
    ∃ m0 m1, e.act m0 = some (.net (.accept i)) ∧ m0 < m1 ∧ (e.state m1).net.now ≤ (e.state m0).net.now + timeout ∧
    (HandshakeDone timeout (hs i) → e.act m1 = some (.net (.shook i)) ∧ ∃ m, n ≤ m ∧ ∀ m', m ≤ m' →
      ((serve c (setup i).lim (setup i).env t.all).1.map (·.written)).flatten <+: (e.state m').server.wire i ∧
      ((serve c (setup i).lim (setup i).env t.all).2.over = true → i ∈ (e.state m').net.gone)) ∧
    (¬ HandshakeDone timeout (hs i) → ∀ m', (m1 < m' → i ∈ (e.state m').net.gone) ∧ (e.state m').server.wire i = []) := by
  have hacc : ∃ m, e.act m = some (.net (.accept i)) := by
    apply Classical.byContradiction
    intro hno
    have h1 := tls_not_yet e (fun m hm => hno ⟨m, hm⟩) n ((((tlsCrowd_forever e n).places).1 i).mp ⟨t, ht⟩)
    obtain ⟨m, _, hm⟩ := tls_all_accepted e htime htasks stuck hfew hleave h1
    exact hno ⟨m, hm⟩
  obtain ⟨m0, hm0⟩ := hacc
  have hsh : (i, (e.state m0).net.now) ∈ (e.state (m0 + 1)).net.shaking := by
    rcases tlsCrowd_move e m0 with ⟨h4, _⟩ | ⟨b, h4, h5⟩
    · exact absurd hm0 (h4 _)
    · rw [hm0] at h4; cases h4
      exact (h5.accept i rfl).2.1
  obtain ⟨m1, hm1, hnow, hend⟩ := handshake_ends e htime hsh
  refine ⟨m0, m1, hm0, by omega, hnow, fun hd => ?_, fun hd m' => ⟨fun hm' => ?_, ((tlsCrowd_forever e m').places.2 i hd).2⟩⟩
  · rcases hend with ⟨k1, hserv, _⟩ | ⟨_, k2⟩
    · refine ⟨k1, ?_⟩
      simp only at hserv
      obtain ⟨q1, hq1, h1⟩ := C220_eventually c setup (tlsCrowdServer e) i (tls_fair_turns e hserv (htasks i)) n t ht
      by_cases ho : (serve c (setup i).lim (setup i).env t.all).2.over = true
      · obtain ⟨m2, hm2, h2⟩ := tls_leaves e hserv (htasks i) ht ho
        have hg : i ∈ (e.state (m2 + 1)).net.gone := by
          rcases tls_serving_stays e (Nat.le_succ_of_le hm2) hserv with h | ⟨h, _⟩
          · rcases tls_serving_stays e hm2 hserv with h' | ⟨h', _⟩
            · rcases tlsCrowd_move e m2 with ⟨h4, _⟩ | ⟨b, h4, h5⟩
              · exact absurd h2 (h4 _)
              · rw [h2] at h4; cases h4
                rcases h5.serving i h' with ⟨_, h6⟩ | ⟨h6, _⟩
                · exact absurd rfl h6
                · exact h6
            · exact tls_gone_stays e (Nat.le_succ _) h'
          · exact h
        exact ⟨max q1 (m2 + 1), by omega, fun m' hm' => ⟨(h1 m' (by omega)).1, fun _ => tls_gone_stays e (by omega) hg⟩⟩
      · exact ⟨q1, hq1, fun m' hm' => ⟨(h1 m' hm').1, fun h => absurd h ho⟩⟩
    · exact absurd hd k2
  · rcases hend with ⟨_, _, k3⟩ | ⟨k1, _⟩
    · exact absurd k3 hd
    · exact tls_gone_stays e hm' k1

/-- **C224**, in terms of the grammar: the same for hello-world and for the file service and clients that take what they are sent (C223_grammar with TLS). -/
theorem C224_grammar (c : Codec K) (setup : Nat → Setup K) (limit timeout : Nat) (hs : Nat → Handshake)
    (e : Forever (TlsCrowd.Step limit timeout hs c setup) TlsCrowd.start) (htime : ∀ T, ∃ n, T ≤ (e.state n).net.now)
    (htasks : ∀ j, e.Fair (TlsCrowdAct.ofTask j)) (s : ServiceConfig) (hset : ∀ j, (setup j).Serves s)
    (reply : Nat → Bytes → Bytes) (stops : Bytes → Prop) (ha : Answers s.service reply stops) (stuck : List Nat) (hfew : stuck.length < limit)
    (hleave : ∀ j, j ∉ stuck → ∀ n, j ∈ (e.state n).net.serving → ∃ n' t outs f, (e.state n').server.task j = some t ∧ (f = .closed ∨ f = .dropped) ∧
      Talk s.http.limits.maxUrl s.http.limits.maxHeaderLine s.http.limits.maxHeadersCount (afterOf t.fin) reply stops 0 (t.arrived.map Seg.bytes).flatten outs f)
    (n i : Nat) (hi : HandshakeDone timeout (hs i)) (t : Task) (ht : (e.state n).server.task i = some t) :
    ∃ outs f, Talk s.http.limits.maxUrl s.http.limits.maxHeaderLine s.http.limits.maxHeadersCount (afterOf t.fin) reply stops 0
        (t.arrived.map Seg.bytes).flatten outs f ∧
      ∃ m, n ≤ m ∧ ∀ m', m ≤ m' → outs.flatten <+: (e.state m').server.wire i ∧ (f = .closed ∨ f = .dropped → i ∈ (e.state m').net.gone) := by
  obtain ⟨_, _, _, _, _, h, _⟩ := C224_everybody c setup limit timeout hs e htime htasks stuck hfew (fun j hj n hn => by
    obtain ⟨n', u, outs, f, h1, h2, h3⟩ := hleave j hj n hn
    rw [← (hset j).lim] at h3
    exact ⟨n', u, h1, ((serve_fate c (setup j) u s.service reply stops ha (hset j).env outs f h3).2).mpr h2⟩) n i t ht
  obtain ⟨_, m, hm, h⟩ := h hi
  obtain ⟨f, hf⟩ := serve_talk c (setup i) t s.service reply stops ha (hset i).env
  obtain ⟨_, k2⟩ := serve_fate c (setup i) t s.service reply stops ha (hset i).env _ f hf
  rw [(hset i).lim] at hf
  rw [(hset i).lim] at h k2
  exact ⟨_, f, hf, m, hm, fun m' hm' => ⟨(h m' hm').1, fun hc => (h m' hm').2 (k2.mpr hc)⟩⟩

/-! ## The conditions can be met -/

/-- A run, and then nothing. -/
theorem tlsCrowd_run_forever {tr : List TlsCrowdAct} {s : TlsCrowd} (h : TlsCrowd.Run limit timeout hs c setup tr s) :
    ∃ e : Forever (TlsCrowd.Step limit timeout hs c setup) TlsCrowd.start, (∀ m, m ≤ tr.length → e.upTo m = tr.take m) ∧
      ∀ m, tr.length ≤ m → e.state m = s ∧ e.act m = none := by
  induction h with
  | nil => exact ⟨idle _ _, fun m hm => by cases Nat.le_zero.mp hm; rfl, fun _ _ => ⟨rfl, rfl⟩⟩
  | @snoc tr s s' a _ hs ih =>
    obtain ⟨e, h1, h2⟩ := ih
    obtain ⟨e', k1, k2, k3⟩ := forever_snoc e tr.length s s' a h2 hs
    refine ⟨e', fun m hm => ?_, fun m hm => k3 m (by simpa using hm)⟩
    by_cases h : m ≤ tr.length
    · rw [k1 m h, h1 m h, List.take_append_of_le_length h]
    · have : m = tr.length + 1 := by simp at hm; omega
      rw [this, k2, h1 _ (Nat.le_refl _)]
      rw [List.take_of_length_le (l := tr ++ [a]) (by simp), List.take_length]

/-- What is to be done at once. -/
def TlsCrowdAct.urgent : TlsCrowdAct → Bool
  | .net (.accept _) | .net (.shook _) | .net (.refused _) | .net (.expired _) => true
  | _ => false

/-- What is to be done at once, time, and the tasks. -/
def TlsCrowdAct.whose : Nat → TlsCrowdAct → Bool
  | 0 => TlsCrowdAct.urgent
  | 1 => fun a => a == .net .tick
  | i + 2 => TlsCrowdAct.ofTask i

/-- Something is to be done at once, or time can pass. -/
theorem tls_can {s : TlsAccepting} {tr : List TlsAct} (h : TlsRun limit timeout hs (fun _ => true) .start tr s) :
    (∃ a s', (TlsCrowdAct.net a).urgent = true ∧ a.alone = true ∧ TlsStep limit timeout hs (fun _ => true) s a s') ∨
    ∃ s', TlsStep limit timeout hs (fun _ => true) s .tick s' := by
  obtain ⟨_, i2, _, _⟩ := tls_inv h
  by_cases hall : ∀ p ∈ s.shaking, s.now < p.2 + (hs p.1).lasts timeout
  · by_cases hq : s.pending = [] ∨ limit ≤ s.used
    · exact .inr ⟨_, .tick s hq hall⟩
    · simp only [not_or] at hq
      match hp : s.pending with
      | [] => exact absurd hp hq.1
      | i :: rest => exact .inl ⟨.accept i, _, rfl, rfl, .accept s i rest hp (by omega)⟩
  · simp only [Classical.not_forall] at hall
    obtain ⟨⟨i, t⟩, hm, hd⟩ := hall
    have hd' := (i2 (i, t) hm).2.2
    simp only at hd hd'
    have hnow : s.now = t + (hs i).lasts timeout := by omega
    unfold Handshake.lasts at hnow
    match htime : (hs i).time with
    | none =>
      rw [htime] at hnow
      exact .inl ⟨.expired i, _, rfl, rfl, .expired s i t hm (fun d hd => by rw [htime] at hd; cases hd) hnow⟩
    | some d =>
      rw [htime] at hnow
      simp only at hnow
      by_cases hle : d ≤ timeout
      · rw [Nat.min_eq_left hle] at hnow
        match hok : (hs i).ok with
        | true => exact .inl ⟨.shook i, _, rfl, rfl, .shook s i t d hm htime hle hok hnow⟩
        | false => exact .inl ⟨.refused i, _, rfl, rfl, .refused s i t d hm htime hle hok hnow⟩
      · rw [Nat.min_eq_right (by omega)] at hnow
        exact .inl ⟨.expired i, _, rfl, rfl, .expired s i t hm (fun e he => by rw [htime] at he; injection he with he; omega) hnow⟩

/-- What is left to do at the listener when nobody connects. -/
def TlsAccepting.left (s : TlsAccepting) : Nat := 3 * s.pending.length + 2 * s.shaking.length + s.serving.length

theorem left_less {s s' : TlsAccepting} {a : TlsAct} (h : TlsStep limit timeout hs (fun _ => true) s a s') (h1 : ∀ i, a ≠ .connect i) (h2 : a ≠ .fail) (h3 : a ≠ .tick) :
    s'.left < s.left := by
  unfold TlsAccepting.left
  cases h with
  | connect i _ _ _ _ => exact absurd rfl (h1 i)
  | fail _ _ => exact absurd rfl h2
  | tick _ _ => exact absurd rfl h3
  | accept i rest hp _ => simp only [hp, List.length_cons, List.length_append, List.length_nil]; omega
  | shook i t d hm _ _ _ _ =>
    have := List.length_erase_of_mem hm; have := List.length_pos_of_mem hm
    simp only [List.length_append, List.length_singleton]; omega
  | refused i t d hm _ _ _ _ =>
    have := List.length_erase_of_mem hm; have := List.length_pos_of_mem hm
    simp only; omega
  | expired i t hm _ _ =>
    have := List.length_erase_of_mem hm; have := List.length_pos_of_mem hm
    simp only; omega
  | finish i hm _ =>
    have := List.length_erase_of_mem hm; have := List.length_pos_of_mem hm
    simp only; omega

theorem TlsCrowd.Step.netStep {s s' : TlsCrowd} {b : TlsAct} (h : TlsCrowd.Step limit timeout hs c setup s (.net b) s') :
    TlsStep limit timeout hs (fun _ => true) s.net b s'.net := by
  cases h with
  | connect i net' server' h1 h2 => exact h1
  | alone a net' h1 h2 => exact h2
  | finish i t net' h1 h2 h3 h4 => exact h4

/-- When nobody connects and nobody is left out, time passes. -/
theorem time_passes (e : Forever (TlsCrowd.Step limit timeout hs c setup) TlsCrowd.start) (N : Nat) (hfair : ∀ k, e.Fair (TlsCrowdAct.whose k))
    (honly : ∀ m a, N ≤ m → e.act m = some a → ∃ k, TlsCrowdAct.whose k a = true) (T : Nat) : ∃ n, T ≤ (e.state n).net.now := by
  -- some moment after which nothing happens at the listener, or time passes
  have quiet : ∀ k n, N ≤ n → (e.state n).net.left = k → (∃ m, n ≤ m ∧ e.act m = some (.net .tick)) ∨ ∃ m, n ≤ m ∧ ∀ m', m ≤ m' → ∀ b, e.act m' ≠ some (.net b) := by
    intro k
    induction k using Nat.strongRecOn with
    | ind k ih =>
      intro n hn hk
      by_cases hall : ∀ m', n ≤ m' → ∀ b, e.act m' ≠ some (.net b)
      · exact .inr ⟨n, Nat.le_refl _, hall⟩
      · -- the first one
        have hfirst : ∃ m b, n ≤ m ∧ e.act m = some (.net b) ∧ (e.state m).net = (e.state n).net := by
          apply Classical.byContradiction
          intro hno
          refine hall fun m' hm' b hb => ?_
          have : (e.state m').net = (e.state n).net := by
            clear hb
            induction hm' with
            | refl => rfl
            | @step m' hm' ih2 =>
              rcases tlsCrowd_move e m' with ⟨_, h⟩ | ⟨b', hb', _⟩
              · rw [h]; exact ih2
              · exact absurd ⟨m', b', hm', hb', ih2⟩ hno
          exact hno ⟨m', b, hm', hb, this⟩
        obtain ⟨m, b, hm, hb, hnet⟩ := hfirst
        by_cases ht : b = .tick
        · subst ht; exact .inl ⟨m, hm, hb⟩
        obtain ⟨w, hw⟩ := honly m _ (Nat.le_trans hn hm) hb
        rcases tlsCrowd_next e m with ⟨h4, _⟩ | ⟨a', h4, h5⟩
        · rw [hb] at h4; cases h4
        · rw [hb] at h4; cases h4
          have hless := left_less h5.netStep
            (by rintro i rfl; rcases w with _ | _ | w <;> simp [TlsCrowdAct.whose, TlsCrowdAct.urgent, TlsCrowdAct.ofTask] at hw)
            (by rintro rfl; rcases w with _ | _ | w <;> simp [TlsCrowdAct.whose, TlsCrowdAct.urgent, TlsCrowdAct.ofTask] at hw) ht
          rw [hnet, hk] at hless
          rcases ih _ hless (m + 1) (by omega) rfl with ⟨m', h1, h2⟩ | ⟨m', h1, h2⟩
          · exact .inl ⟨m', by omega, h2⟩
          · exact .inr ⟨m', by omega, h2⟩
  have ticks : ∀ n, N ≤ n → ∃ m, n ≤ m ∧ e.act m = some (.net .tick) := by
    intro n hn
    rcases quiet _ n hn rfl with h | ⟨m, hm, hq⟩
    · exact h
    · exfalso
      have hnet : ∀ m', m ≤ m' → (e.state m').net = (e.state m).net := by
        intro m' hm'
        induction hm' with
        | refl => rfl
        | @step m' hm' ih =>
          rcases tlsCrowd_move e m' with ⟨_, h⟩ | ⟨b, hb, _⟩
          · rw [h]; exact ih
          · exact absurd hb (hq m' hm' b)
      rcases tls_can (tlsCrowd_forever e m).net with ⟨a, s', h1, h2, h3⟩ | ⟨s', h3⟩
      · obtain ⟨m', a', k1, k2, k3⟩ := hfair 0 m (fun m' hm' => ⟨.net a, _, h1, .alone _ a s' h2 (by rw [hnet m' hm']; exact h3)⟩)
        cases a' with
        | net b => exact hq m' k1 b k2
        | conn i b => cases k3
      · obtain ⟨m', a', k1, k2, k3⟩ := hfair 1 m (fun m' hm' => ⟨.net .tick, _, by simp [TlsCrowdAct.whose], .alone _ .tick s' rfl (by rw [hnet m' hm']; exact h3)⟩)
        simp only [TlsCrowdAct.whose, beq_iff_eq] at k3
        subst k3
        exact hq m' k1 _ k2
  induction T with
  | zero => exact ⟨0, Nat.zero_le _⟩
  | succ T ih =>
    obtain ⟨n, hn⟩ := ih
    obtain ⟨m, hm, ht⟩ := ticks (n + N) (by omega)
    have h1 := now_mono e (show n ≤ m by omega)
    refine ⟨m + 1, ?_⟩
    rcases tlsCrowd_next e m with ⟨h4, _⟩ | ⟨a', h4, h5⟩
    · rw [ht] at h4; cases h4
    · rw [ht] at h4; cases h4
      have h6 := h5.netStep
      generalize (e.state (m + 1)).net = x at h6 ⊢
      cases h6 with
      | tick _ _ => simp only; omega

/-- **C224**, the conditions on time and turns ask for nothing impossible: whatever has happened so far, the execution can go on so that time passes without bound and no task is left out. -/
theorem C224_possible (c : Codec K) (setup : Nat → Setup K) (limit timeout : Nat) (hs : Nat → Handshake) (tr : List TlsCrowdAct) (s : TlsCrowd)
    (h : TlsCrowd.Run limit timeout hs c setup tr s) :
    ∃ e : Forever (TlsCrowd.Step limit timeout hs c setup) TlsCrowd.start, e.upTo tr.length = tr ∧ e.state tr.length = s ∧
      (∀ T, ∃ n, T ≤ (e.state n).net.now) ∧ ∀ j, e.Fair (TlsCrowdAct.ofTask j) := by
  obtain ⟨e, h1, h2⟩ := tlsCrowd_run_forever h
  obtain ⟨e', k1, k2, k3, k4⟩ := fair_after e tr.length TlsCrowdAct.whose
  refine ⟨e', ?_, ?_, time_passes e' tr.length k3 k4, fun j => k3 (j + 2)⟩
  · rw [upTo_congr k2 _ (Nat.le_refl _), h1 _ (Nat.le_refl _), List.take_length]
  · rw [k1 _ (Nat.le_refl _), (h2 _ (Nat.le_refl _)).1]

/-- One descriptor, a time limit of 2; a client that never does the handshake, and one behind it that does it at once and sends a request. -/
example (c : Codec K) (setup : Nat → Setup K) : ∃ s, TlsCrowd.Run 1 2 (fun i => if i = 0 then ⟨none, false⟩ else ⟨some 0, true⟩) c setup
    [.net (.connect 0), .net (.accept 0), .net (.connect 1), .conn 1 (.send ⟨71, b!"ET / HTTP/1.1\r\n\r\n"⟩), .net .fail, .net .tick, .net .tick, .net (.expired 0),
      .net (.accept 1), .net (.shook 1)] s ∧ s.net = ⟨2, [], [], [1], [0]⟩ := by
  have h1 := TlsCrowd.Run.snoc (.nil (limit := 1) (timeout := 2) (hs := fun i => if i = 0 then ⟨none, false⟩ else ⟨some 0, true⟩) (c := c) (setup := setup))
    (.connect _ 0 _ _ (.connect _ 0 (by decide) (by decide) (by decide) (by decide)) (.accept _ 0 rfl))
  have h2 := h1.snoc (.alone _ (.accept 0) _ rfl (.accept _ 0 [] rfl (by decide)))
  have h3 := h2.snoc (.connect _ 1 _ _ (.connect _ 1 (by decide) (by decide) (by decide) (by decide)) (.accept _ 1 rfl))
  have h4 := h3.snoc (.conn _ 1 (.send ⟨71, b!"ET / HTTP/1.1\r\n\r\n"⟩) _ (by decide) (by decide) (.send _ 1 Task.new _ rfl rfl))
  have h5 := h4.snoc (.alone _ .fail _ rfl (.fail _ (by decide) (by decide)))
  have h6 := h5.snoc (.alone _ .tick _ rfl (.tick _ (.inr (by decide)) (by decide)))
  have h7 := h6.snoc (.alone _ .tick _ rfl (.tick _ (.inr (by decide)) (by decide)))
  have h8 := h7.snoc (.alone _ (.expired 0) _ rfl (.expired _ 0 0 (by decide) (by simp) rfl))
  have h9 := h8.snoc (.alone _ (.accept 1) _ rfl (.accept _ 1 [] rfl (by decide)))
  have h10 := h9.snoc (.alone _ (.shook 1) _ rfl (.shook _ 1 2 0 (by decide) rfl (by decide) rfl rfl))
  exact ⟨_, h10, rfl⟩

/-- As many idle clients as there are descriptors, each with its handshake done at once, and one more. -/
def tlsFill : Nat → List TlsAct
  | 0 => []
  | n + 1 => tlsFill n ++ [.connect n, .accept n, .shook n]

theorem tlsFull_run (c : Codec K) (setup : Nat → Setup K) (limit timeout : Nat) (hs : Nat → Handshake) (hquick : ∀ i, i < limit → hs i = ⟨some 0, true⟩) :
    ∃ s, TlsCrowd.Run limit timeout hs c setup ((tlsFill limit ++ [TlsAct.connect limit]).map TlsCrowdAct.net) s ∧ s.net = ⟨0, [limit], [], List.range limit, []⟩ ∧
      ∀ i, i ≤ limit → s.server.task i = some Task.new := by
  have key : ∀ n, n ≤ limit → ∃ s, TlsCrowd.Run limit timeout hs c setup ((tlsFill n).map .net) s ∧ s.net = ⟨0, [], [], List.range n, []⟩ ∧
      ∀ i, s.server.task i = if i < n then some Task.new else none := by
    intro n
    induction n with
    | zero => exact fun _ => ⟨_, .nil, rfl, fun i => by simp [TlsCrowd.start, Server.start]⟩
    | succ n ih =>
      intro hn
      obtain ⟨s, h1, h2, h3⟩ := ih (by omega)
      have a1 : TlsStep limit timeout hs (fun _ => true) s.net (.connect n) ⟨0, [n], [], List.range n, []⟩ := by
        rw [h2]; exact .connect _ n (by simp) (by simp) (by simp) (by simp)
      have a2 : TlsStep limit timeout hs (fun _ => true) ⟨0, [n], [], List.range n, []⟩ (.accept n) ⟨0, [], [(n, 0)], List.range n, []⟩ :=
        .accept _ n [] rfl (by simp [TlsAccepting.used]; omega)
      have a3 : TlsStep limit timeout hs (fun _ => true) ⟨0, [], [(n, 0)], List.range n, []⟩ (.shook n) ⟨0, [], [], List.range n ++ [n], []⟩ := by
        have := TlsStep.shook (limit := limit) (timeout := timeout) (hs := hs) (over := fun _ => true) ⟨0, [], [(n, 0)], List.range n, []⟩ n 0 0 (by simp)
          (by rw [hquick n (by omega)]) (Nat.zero_le _) (by rw [hquick n (by omega)]) rfl
        simpa using this
      have s1 := TlsCrowd.Step.connect (c := c) (setup := setup) s n _ _ a1 (.accept s.server n (by rw [h3]; simp))
      have s2 := TlsCrowd.Step.alone (c := c) (setup := setup) ⟨⟨0, [n], [], List.range n, []⟩, s.server.put n Task.new⟩ (.accept n) _ rfl a2
      have s3 := TlsCrowd.Step.alone (c := c) (setup := setup) ⟨⟨0, [], [(n, 0)], List.range n, []⟩, s.server.put n Task.new⟩ (.shook n) _ rfl a3
      refine ⟨_, by have := TlsCrowd.Run.snoc ((h1.snoc s1).snoc s2) s3; simpa [tlsFill] using this, by rw [List.range_succ], fun i => ?_⟩
      simp only [Server.put, h3]
      by_cases hi : i = n
      · simp [hi]
      · have : i < n + 1 ↔ i < n := by omega
        simp [hi, this]
  obtain ⟨s, h1, h2, h3⟩ := key limit (Nat.le_refl _)
  have a1 : TlsStep limit timeout hs (fun _ => true) s.net (.connect limit) ⟨0, [limit], [], List.range limit, []⟩ := by
    rw [h2]; exact .connect _ limit (by simp) (by simp) (by simp) (by simp)
  have s1 := TlsCrowd.Step.connect (c := c) (setup := setup) s limit _ _ a1 (.accept s.server limit (by rw [h3]; simp))
  refine ⟨_, by have := h1.snoc s1; simpa using this, rfl, fun i hi => ?_⟩
  simp only [Server.put, h3]
  by_cases h : i = limit
  · simp [h]
  · have : i < limit := by omega
    simp [h, this]

/-- **C224**, the bound is the best possible: with as many clients that do the handshake and then send nothing as there are descriptors there is an execution in which time passes without bound and no task is left out,
and one more client, whatever it would send and however quick its handshake would be, is not accepted. -/
theorem C224_bound (c : Codec K) (setup : Nat → Setup K) (limit timeout : Nat) (hs : Nat → Handshake) (hquick : ∀ i, i < limit → hs i = ⟨some 0, true⟩) :
    ∃ e : Forever (TlsCrowd.Step limit timeout hs c setup) TlsCrowd.start, (∀ T, ∃ n, T ≤ (e.state n).net.now) ∧ (∀ j, e.Fair (TlsCrowdAct.ofTask j)) ∧
      (∃ n, limit ∈ (e.state n).net.pending) ∧ ∀ m, e.act m ≠ some (.net (.accept limit)) := by
  obtain ⟨s, hrun, hnet, htask⟩ := tlsFull_run c setup limit timeout hs hquick
  obtain ⟨e, h1, h2⟩ := tlsCrowd_run_forever hrun
  generalize htr : (tlsFill limit ++ [TlsAct.connect limit]).map TlsCrowdAct.net = tr at hrun h1 h2
  obtain ⟨e', k1, k2, k3, k4⟩ := fair_after e tr.length TlsCrowdAct.whose
  have inv : ∀ m, tr.length ≤ m → (∃ now, (e'.state m).net = ⟨now, [limit], [], List.range limit, []⟩) ∧
      ∀ i, i < limit → ∃ t, (e'.state m).server.task i = some t ∧ t.arrived = [] ∧ t.fin = .silent ∧ t.sawEnd = false := by
    intro m hm
    induction hm with
    | refl =>
      rw [k1 _ (Nat.le_refl _), (h2 _ (Nat.le_refl _)).1]
      exact ⟨⟨0, hnet⟩, fun i hi => ⟨_, htask i (by omega), rfl, rfl, rfl⟩⟩
    | @step m hm ih =>
      obtain ⟨⟨now, ih1⟩, ih2⟩ := ih
      rcases tlsCrowd_next e' m with ⟨_, h⟩ | ⟨a, ha, h⟩
      · rw [h]; exact ⟨⟨now, ih1⟩, ih2⟩
      · obtain ⟨k, hk⟩ := k4 m a hm ha
        generalize e'.state m = s at *
        generalize e'.state (m + 1) = s' at *
        have hwait : ∀ t : Task, t.arrived = [] → t.fin = .silent → t.reader = ⟨[], [], .silent⟩ := by
          intro t g1 g2; simp [Task.reader, g1, g2]
        cases h with
        | connect i net' server' g1 g2 => rcases k with _ | _ | k <;> simp [TlsCrowdAct.whose, TlsCrowdAct.urgent, TlsCrowdAct.ofTask] at hk
        | alone a net' g1 g2 =>
          refine ⟨?_, ih2⟩
          simp only
          rw [ih1] at g2
          cases g2 with
          | connect i _ _ _ _ => cases g1
          | accept i rest _ g => simp [TlsAccepting.used] at g
          | fail _ _ => exact ⟨now, rfl⟩
          | shook i t d g _ _ _ _ => cases g
          | refused i t d g _ _ _ _ => cases g
          | expired i t g _ _ => cases g
          | finish i _ _ => cases g1
          | tick _ _ => exact ⟨now + 1, rfl⟩
        | finish i t net' g1 g2 g3 g4 =>
          exfalso
          cases g4 with
          | finish _ g4 g5 =>
            rw [ih1] at g4
            obtain ⟨u, f1, f2, f3, f4⟩ := ih2 i (List.mem_range.mp g4)
            have hut : u = t := Option.some.inj (f1.symm.trans g1)
            rw [← hut, hwait u f2 f3, empty_waits] at g3
            cases g3
        | conn i a server' g1 g2 g3 =>
          refine ⟨⟨now, ih1⟩, fun j hj => ?_⟩
          obtain ⟨u, f1, f2, f3, f4⟩ := ih2 j hj
          have hat : a.ofTask = true := by
            rcases k with _ | _ | k
            · cases hk
            · simp [TlsCrowdAct.whose] at hk
            · simp only [TlsCrowdAct.whose, TlsCrowdAct.ofTask, Bool.and_eq_true] at hk; exact hk.2
          have keep : ∀ v v' : Task, s.server.task i = some v → (v.arrived = [] → v.fin = .silent → v.sawEnd = false → v'.arrived = [] ∧ v'.fin = .silent ∧ v'.sawEnd = false) →
              ∃ t, (s.server.put i v').task j = some t ∧ t.arrived = [] ∧ t.fin = .silent ∧ t.sawEnd = false := by
            intro v v' hv hp
            by_cases hji : j = i
            · subst hji
              cases hv.symm.trans f1
              exact ⟨v', by simp [Server.put], hp f2 f3 f4⟩
            · exact ⟨u, by simpa [Server.put, hji] using f1, f2, f3, f4⟩
          cases g3 with
          | accept _ _ => cases hat
          | send _ _ _ _ _ => cases hat
          | finish _ _ _ _ _ _ => cases hat
          | fetch _ v hv hw hlt => exact keep v _ hv (fun p1 _ _ => by rw [p1] at hlt; simp at hlt)
          | seeEnd _ v hv _ _ hf _ => exact keep v _ hv (fun _ p2 _ => absurd p2 hf)
          | log _ v r hv _ => exact keep v _ hv (fun p1 p2 p3 => ⟨p1, p2, p3⟩)
          | answer _ v b hv _ => exact keep v _ hv (fun p1 p2 p3 => ⟨p1, p2, p3⟩)
  have htime := time_passes e' tr.length k3 k4
  refine ⟨e', htime, fun j => k3 (j + 2), ⟨tr.length, by obtain ⟨now, h⟩ := (inv _ (Nat.le_refl _)).1; rw [h]; simp⟩, fun m ha => ?_⟩
  have hsh : (limit, (e'.state m).net.now) ∈ (e'.state (m + 1)).net.shaking := by
    rcases tlsCrowd_move e' m with ⟨h4, _⟩ | ⟨b, h4, h5⟩
    · exact absurd ha (h4 _)
    · rw [ha] at h4; cases h4
      exact (h5.accept limit rfl).2.1
  obtain ⟨m1, _, _, hend⟩ := handshake_ends e' htime hsh
  obtain ⟨now, hlate⟩ := (inv _ (Nat.le_max_right (m1 + 1) tr.length)).1
  rcases hend with ⟨_, hserv, _⟩ | ⟨hgone, _⟩
  · rcases tls_serving_stays e' (Nat.le_max_left (m1 + 1) tr.length) hserv with h | ⟨h, _⟩ <;> rw [hlate] at h <;> simp at h
  · have h := tls_gone_stays e' (Nat.le_max_left (m1 + 1) tr.length) hgone
    rw [hlate] at h; cases h

end Httpd
