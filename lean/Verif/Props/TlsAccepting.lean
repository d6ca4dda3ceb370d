import Verif.Spec.TlsAccepting
import Verif.Props.Accepting
/-!
# C188: clients in the TLS handshake hold up others for a bounded time only; C180 with TLS
-/

namespace Httpd

open Spec MultiMap

variable {limit timeout : Nat} {hs : Nat → Handshake} {over : Nat → Bool}

theorem joined_append (a b : List TlsAct) : joined (a ++ b) = joined a ++ joined b := by
  induction a with
  | nil => rfl
  | cons x a ih => cases x <;> simp [joined, ih]

theorem admitted_append (a b : List TlsAct) : admitted (a ++ b) = admitted a ++ admitted b := by
  induction a with
  | nil => rfl
  | cons x a ih => cases x <;> simp [admitted, ih]

theorem through_append (a b : List TlsAct) : through (a ++ b) = through a ++ through b := by
  induction a with
  | nil => rfl
  | cons x a ih => cases x <;> simp [through, ih]

theorem TlsRun.trans {s0 s1 s2 : TlsAccepting} {a b : List TlsAct} (h1 : TlsRun limit timeout hs over s0 a s1)
    (h2 : TlsRun limit timeout hs over s1 b s2) : TlsRun limit timeout hs over s0 (a ++ b) s2 := by
  induction h2 with
  | nil => simpa using h1
  | snoc _ hs ih => rw [← List.append_assoc]; exact .snoc ih hs

theorem TlsRun.single {s s' : TlsAccepting} {a : TlsAct} (h : TlsStep limit timeout hs over s a s') : TlsRun limit timeout hs over s [a] s' := by
  have := TlsRun.snoc (TlsRun.nil (limit := limit) (timeout := timeout) (hs := hs) (over := over) (s := s)) h
  simpa using this

/-- First come, first served. -/
theorem tls_fifo {s s' : TlsAccepting} {tr : List TlsAct} (h : TlsRun limit timeout hs over s tr s') :
    s.pending ++ joined tr = admitted tr ++ s'.pending := by
  induction h with
  | nil => simp [joined, admitted]
  | snoc _ hst ih =>
    rw [joined_append, admitted_append, ← List.append_assoc, ih]
    cases hst with
    | accept i rest hp _ => simp [joined, admitted, hp]
    | _ => simp [joined, admitted]

/-- Who is in the handshake was there before or was taken up since. -/
theorem tls_since {s s' : TlsAccepting} {tr : List TlsAct} (h : TlsRun limit timeout hs over s tr s') :
    (∀ p ∈ s'.shaking, p ∈ s.shaking ∨ p.1 ∈ admitted tr) ∧ s'.serving.length ≤ s.serving.length + (through tr).length := by
  induction h with
  | nil => exact ⟨fun p hp => .inl hp, by simp [through]⟩
  | @snoc tr s1 s2 a _ hst ih =>
    obtain ⟨i1, i2⟩ := ih
    rw [admitted_append, through_append]
    have keep : ∀ p : Nat × Nat, p ∈ s.shaking ∨ p.1 ∈ admitted tr → p ∈ s.shaking ∨ p.1 ∈ admitted tr ++ admitted [a] :=
      fun p hp => hp.imp id (fun h => List.mem_append_left _ h)
    cases hst with
    | accept i rest hp _ =>
      refine ⟨fun p hp => ?_, by simpa [through] using i2⟩
      rcases List.mem_append.mp hp with hp | hp
      · exact keep p (i1 p hp)
      · rw [List.mem_singleton] at hp
        subst hp
        exact .inr (by simp [admitted])
    | shook i t d hm _ _ _ _ =>
      exact ⟨fun p hp => keep p (i1 p (List.mem_of_mem_erase hp)), by simp [through]; omega⟩
    | refused i t d hm _ _ _ _ =>
      exact ⟨fun p hp => keep p (i1 p (List.mem_of_mem_erase hp)), by simpa [through] using i2⟩
    | expired i t hm _ _ =>
      exact ⟨fun p hp => keep p (i1 p (List.mem_of_mem_erase hp)), by simpa [through] using i2⟩
    | finish i hi _ =>
      refine ⟨fun p hp => keep p (i1 p hp), ?_⟩
      simp only [through, List.append_nil]
      exact Nat.le_trans (List.length_erase_le ..) i2
    | connect i _ _ _ _ => exact ⟨fun p hp => keep p (i1 p hp), by simpa [through] using i2⟩
    | fail _ _ => exact ⟨fun p hp => keep p (i1 p hp), by simpa [through] using i2⟩
    | tick _ _ => exact ⟨fun p hp => keep p (i1 p hp), by simpa [through] using i2⟩

theorem lasts_le (h : Handshake) : h.lasts timeout ≤ timeout := by
  unfold Handshake.lasts
  split <;> omega

/-- What holds in every state. -/
theorem tls_inv {s : TlsAccepting} {tr : List TlsAct} (h : TlsRun limit timeout hs over .start tr s) :
    (s.shaking.map (·.1)).Nodup ∧ (∀ p ∈ s.shaking, p.1 ∉ s.pending ∧ p.2 ≤ s.now ∧ s.now ≤ p.2 + (hs p.1).lasts timeout) ∧
    s.pending.Nodup ∧ s.used ≤ limit := by
  induction h with
  | nil => simp [TlsAccepting.start, TlsAccepting.used]
  | @snoc tr s1 s2 a _ hst ih =>
    obtain ⟨i1, i2, i3, i4⟩ := ih
    have erased : ∀ p : Nat × Nat, ((s1.shaking.erase p).map (·.1)).Nodup := fun p => i1.sublist (List.erase_sublist.map _)
    unfold TlsAccepting.used at i4 ⊢
    cases hst with
    | connect i h1 h2 h3 h4 =>
      refine ⟨i1, fun p hp => ⟨?_, (i2 p hp).2⟩, ?_, i4⟩
      · simp only [List.mem_append, List.mem_singleton, not_or]
        refine ⟨(i2 p hp).1, fun e => h2 ?_⟩
        rw [← e]
        exact List.mem_map_of_mem hp
      · simp only [List.nodup_append, i3, true_and]
        refine ⟨by simp, fun x hx y hy e => ?_⟩
        rw [List.mem_singleton] at hy
        subst hy; subst e
        exact h1 hx
    | accept i rest hp hl =>
      rw [hp] at i3
      have hi : i ∉ rest := (List.nodup_cons.mp i3).1
      refine ⟨?_, fun p hm => ?_, (List.nodup_cons.mp i3).2, ?_⟩
      · simp only [List.map_append, List.map_cons, List.map_nil, List.nodup_append, i1, true_and]
        refine ⟨by simp, fun x hx y hy e => ?_⟩
        rw [List.mem_singleton] at hy
        subst hy; subst e
        obtain ⟨p, hm, rfl⟩ := List.mem_map.mp hx
        exact (i2 p hm).1 (by simp [hp])
      · rcases List.mem_append.mp hm with hm | hm
        · refine ⟨fun hr => (i2 p hm).1 (by simp [hp, hr]), (i2 p hm).2⟩
        · rw [List.mem_singleton] at hm
          subst hm
          exact ⟨hi, Nat.le_refl _, Nat.le_add_right _ _⟩
      · unfold TlsAccepting.used at hl
        simp only [List.length_append, List.length_cons, List.length_nil]
        omega
    | fail _ _ => exact ⟨i1, i2, i3, i4⟩
    | shook i t d hm _ _ _ _ =>
      have := List.length_erase_of_mem hm
      have := List.length_pos_of_mem hm
      exact ⟨erased _, fun p hp => i2 p (List.mem_of_mem_erase hp), i3, by simp; omega⟩
    | refused i t d hm _ _ _ _ =>
      have := List.length_erase_of_mem hm
      exact ⟨erased _, fun p hp => i2 p (List.mem_of_mem_erase hp), i3, by simp; omega⟩
    | expired i t hm _ _ =>
      have := List.length_erase_of_mem hm
      exact ⟨erased _, fun p hp => i2 p (List.mem_of_mem_erase hp), i3, by simp; omega⟩
    | finish i hi _ =>
      have := List.length_erase_of_mem hi
      exact ⟨i1, i2, i3, by simp; omega⟩
    | tick _ ht => exact ⟨i1, fun p hp => ⟨(i2 p hp).1, by have := (i2 p hp).2.1; simp; omega, ht p hp⟩, i3, i4⟩

theorem nodup_subset_length {α : Type} [DecidableEq α] : ∀ {a b : List α}, a.Nodup → (∀ x ∈ a, x ∈ b) → a.length ≤ b.length
  | [], _, _, _ => Nat.zero_le _
  | x :: a, b, hn, hs => by
    obtain ⟨h1, h2⟩ := List.nodup_cons.mp hn
    have hx : x ∈ b := hs x (by simp)
    have := nodup_subset_length (b := b.erase x) h2 (fun y hy =>
      (List.mem_erase_of_ne (fun e : y = x => h1 (by rw [← e]; exact hy))).mpr (hs y (by simp [hy])))
    have h3 := List.length_erase_of_mem hx
    have h4 := List.length_pos_of_mem hx
    simp only [List.length_cons]
    omega

/-- One time limit is long enough for as many as there are descriptors not taken by those past the handshake. -/
theorem tls_window {s s' : TlsAccepting} {tr0 tr : List TlsAct} (h0 : TlsRun limit timeout hs over .start tr0 s)
    (h : TlsRun limit timeout hs over s tr s') (hn : s.now + timeout < s'.now) (c : Nat)
    (hc : s.serving.length + (through tr).length ≤ c) :
    ∃ tr1 s1 tr2, tr = tr1 ++ .tick :: tr2 ∧ TlsRun limit timeout hs over s tr1 s1 ∧ TlsRun limit timeout hs over s1 (.tick :: tr2) s' ∧
      s1.now = s.now + timeout ∧ (s1.pending = [] ∨ limit - c ≤ (admitted tr1).length) := by
  induction h with
  | nil => omega
  | @snoc tr s1 s2 a hr hst ih =>
    rw [through_append, List.length_append] at hc
    by_cases hlt : s.now + timeout < s1.now
    · obtain ⟨t1, u, t2, e1, e2, e3, e4, e5⟩ := ih hlt (by omega)
      exact ⟨t1, u, t2 ++ [a], by rw [e1]; simp, e2, by rw [← List.cons_append]; exact .snoc e3 hst, e4, e5⟩
    · cases hst with
      | tick hq ht =>
        simp only at hn
        have hnow : s1.now = s.now + timeout := by omega
        refine ⟨tr, s1, [], rfl, hr, .single (.tick s1 hq ht), hnow, ?_⟩
        rcases hq with hq | hq
        · exact .inl hq
        · obtain ⟨j1, _, _, _⟩ := tls_inv (h0.trans hr)
          obtain ⟨_, j2, _, _⟩ := tls_inv h0
          obtain ⟨k1, k2⟩ := tls_since hr
          have : (s1.shaking.map (·.1)).length ≤ (admitted tr).length := by
            refine nodup_subset_length j1 (fun x hx => ?_)
            obtain ⟨p, hp, rfl⟩ := List.mem_map.mp hx
            rcases k1 p hp with h | h
            · have a1 := ht p hp
              have a2 := (j2 p h).2.1
              have a3 := lasts_le (timeout := timeout) (hs p.1)
              omega
            · exact h
          rw [List.length_map] at this
          unfold TlsAccepting.used at hq
          exact .inr (by omega)
      | _ => exact absurd hn hlt

theorem tls_bound (c m : Nat) {s s' : TlsAccepting} {tr0 tr : List TlsAct} (h0 : TlsRun limit timeout hs over .start tr0 s)
    (h : TlsRun limit timeout hs over s tr s') (hn : s.now + m * timeout < s'.now) (hc : s.serving.length + (through tr).length ≤ c) :
    s.pending.length ≤ (admitted tr).length ∨ m * (limit - c) ≤ (admitted tr).length := by
  induction m generalizing s tr0 tr with
  | zero => exact .inr (by simp)
  | succ m ih =>
    rw [Nat.succ_mul] at hn
    obtain ⟨t1, s1, t2, rfl, e2, e3, e4, e5⟩ := tls_window h0 h (by omega) c hc
    have hf := congrArg List.length (tls_fifo e2)
    rw [List.length_append, List.length_append] at hf
    rw [through_append, List.length_append] at hc
    rw [admitted_append, List.length_append]
    rcases e5 with e5 | e5
    · rw [e5] at hf
      exact .inl (by simp at hf; omega)
    · have := (tls_since e2).2
      rcases ih (h0.trans e2) e3 (by omega) (by omega) with h1 | h1
      · exact .inl (by omega)
      · rw [Nat.succ_mul]
        exact .inr (by omega)

/-- Time can pass. -/
theorem tls_time (n : Nat) {s : TlsAccepting} {tr0 : List TlsAct} (h0 : TlsRun limit timeout hs over .start tr0 s)
    (hn : 2 * s.pending.length + s.shaking.length = n) :
    ∃ tr s', TlsRun limit timeout hs over s tr s' ∧ s'.now = s.now + 1 ∧ joined tr = [] := by
  induction n using Nat.strongRecOn generalizing s tr0 with
  | ind n ih =>
    obtain ⟨_, i2, _, _⟩ := tls_inv h0
    by_cases hall : ∀ p ∈ s.shaking, s.now < p.2 + (hs p.1).lasts timeout
    · by_cases hq : s.pending = [] ∨ limit ≤ s.used
      · exact ⟨[.tick], _, .single (.tick s hq hall), rfl, rfl⟩
      · simp only [not_or] at hq
        obtain ⟨hq1, hq2⟩ := hq
        match hp : s.pending with
        | [] => exact absurd hp hq1
        | i :: rest =>
          have hst : TlsStep limit timeout hs over s (.accept i) { s with pending := rest, shaking := s.shaking ++ [(i, s.now)] } :=
            .accept s i rest hp (by omega)
          obtain ⟨tr, s', r1, r2, r3⟩ := ih (2 * rest.length + (s.shaking.length + 1)) (by rw [← hn, hp]; simp; omega) (.snoc h0 hst) (by simp)
          exact ⟨.accept i :: tr, s', (TlsRun.single hst).trans r1, r2, by simpa [joined] using r3⟩
    · simp only [Classical.not_forall] at hall
      obtain ⟨⟨i, t⟩, hm, hd⟩ := hall
      have hd' := (i2 (i, t) hm).2.2
      simp only at hd hd'
      have hnow : s.now = t + (hs i).lasts timeout := by omega
      have hlen := List.length_erase_of_mem hm
      have hpos := List.length_pos_of_mem hm
      have go : ∀ (a : TlsAct) (s1 : TlsAccepting), TlsStep limit timeout hs over s a s1 → s1.shaking = s.shaking.erase (i, t) →
          s1.pending = s.pending → s1.now = s.now → joined [a] = [] →
          ∃ tr s', TlsRun limit timeout hs over s tr s' ∧ s'.now = s.now + 1 ∧ joined tr = [] := by
        intro a s1 hst e1 e2 e3 e4
        obtain ⟨tr, s', r1, r2, r3⟩ := ih (2 * s1.pending.length + s1.shaking.length) (by rw [e1, e2]; omega) (.snoc h0 hst) rfl
        exact ⟨[a] ++ tr, s', (TlsRun.single hst).trans r1, by rw [r2, e3], by rw [joined_append, e4, r3]; rfl⟩
      unfold Handshake.lasts at hnow
      match htime : (hs i).time with
      | none =>
        rw [htime] at hnow
        exact go _ _ (.expired s i t hm (fun d hd => by rw [htime] at hd; cases hd) hnow) rfl rfl rfl rfl
      | some d =>
        rw [htime] at hnow
        simp only at hnow
        by_cases hle : d ≤ timeout
        · rw [Nat.min_eq_left hle] at hnow
          match hok : (hs i).ok with
          | true => exact go _ _ (.shook s i t d hm htime hle hok hnow) rfl rfl rfl rfl
          | false => exact go _ _ (.refused s i t d hm htime hle hok hnow) rfl rfl rfl rfl
        · rw [Nat.min_eq_right (by omega)] at hnow
          exact go _ _ (.expired s i t hm (fun e he => by rw [htime] at he; injection he with he; omega) hnow) rfl rfl rfl rfl

theorem tlsEvents_accepted (tr : List TlsAct) : accepted (tlsEvents hs tr) = (admitted tr).map (fun i => (i, hs i)) := by
  induction tr with
  | nil => rfl
  | cons a tr ih => cases a <;> simp [tlsEvents, accepted, admitted, ih]

/-- Those who got through are among those taken up, and have done the handshake in time. -/
theorem through_done {s s' : TlsAccepting} {tr : List TlsAct} (h : TlsRun limit timeout hs over s tr s') :
    ∀ i ∈ through tr, HandshakeDone timeout (hs i) := by
  induction h with
  | nil => simp [through]
  | snoc _ hst ih =>
    rw [through_append]
    intro i hi
    rcases List.mem_append.mp hi with hi | hi
    · exact ih i hi
    · cases hst <;> simp [through] at hi
      subst hi
      exact ⟨by assumption, _, by assumption, by assumption⟩

/-- **C188** Whoever waits to be accepted by a TLS service, with `before` in front of them, has been accepted when more than
`before.length / (limit - c) + 1` time limits have passed, whatever the clients do, as long as no more than `c` connections are past the handshake, fewer than
there are descriptors. No connection is in the handshake for longer than the time limit; and time can always pass, so that the bound
means something. -/
theorem C188_bounded_wait (limit timeout : Nat) (hs : Nat → Handshake) (over : Nat → Bool) (s : TlsAccepting) (tr : List TlsAct)
    (h : TlsRun limit timeout hs over .start tr s) :
    (∀ (before after : List Nat) (i c : Nat) (tr' : List TlsAct) (s' : TlsAccepting), s.pending = before ++ i :: after →
      TlsRun limit timeout hs over s tr' s' → c < limit → s.serving.length + (through tr').length ≤ c →
      s.now + (before.length / (limit - c) + 1) * timeout < s'.now → i ∈ admitted tr') ∧
    (∀ p ∈ s.shaking, p.2 ≤ s.now ∧ s.now ≤ p.2 + timeout) ∧ s.used ≤ limit ∧
    (∃ tr' s', TlsRun limit timeout hs over s tr' s' ∧ s'.now = s.now + 1 ∧ joined tr' = []) := by
  obtain ⟨_, i2, _, i4⟩ := tls_inv h
  refine ⟨?_, fun p hp => ⟨(i2 p hp).2.1, ?_⟩, i4, tls_time _ h rfl⟩
  · intro before after i c tr' s' hp h' hc hcount hnow
    have hlong : before.length < (admitted tr').length := by
      rcases tls_bound c _ h h' hnow hcount with h1 | h1
      · rw [hp] at h1
        simp at h1
        omega
      · have h2 := Nat.lt_div_mul_add (a := before.length) (b := limit - c) (by omega)
        rw [Nat.succ_mul] at h1
        omega
    have hf := tls_fifo h'
    rw [hp] at hf
    have h3 : (before ++ i :: after ++ joined tr')[before.length]? = some i := by simp
    rw [hf, List.getElem?_append_left hlong] at h3
    exact List.mem_of_getElem? h3
  · have := (i2 p hp).2.2
    have := lasts_le (timeout := timeout) (hs p.1)
    omega

/-- **C188**, who is served: in every run those past the handshake are connections that the accept loop (C81) serves for the same events. -/
theorem C188_served {C : Type} (x : TlsEnv C) (cert key : Str) (kind : ServiceKind) (hk : kind = .helloWorld ∨ kind = .fileSystem)
    (hx : TlsLoads x cert key ∧ (cert ≠ [] ∨ key ≠ [])) (limit timeout : Nat) (hs : Nat → Handshake) (over : Nat → Bool) (s : TlsAccepting)
    (tr : List TlsAct) (h : TlsRun limit timeout hs over .start tr s) :
    ∀ i ∈ through tr, i ∈ (runService x cert key timeout kind true true (tlsEvents hs tr)).1.map (·.id) := by
  have hin : ∀ i ∈ through tr, i ∈ admitted tr := by
    have : (∀ i ∈ through tr, i ∈ admitted tr) ∧ ∀ p ∈ s.shaking, p.1 ∈ admitted tr := by
      induction h with
      | nil => simp [through, TlsAccepting.start]
      | snoc hr hst ih =>
        obtain ⟨j1, j2⟩ := ih
        rw [through_append, admitted_append]
        have hk := fun p hp => ((tls_since (hr.snoc hst)).1 p hp).resolve_left (by simp [TlsAccepting.start])
        rw [admitted_append] at hk
        refine ⟨fun i hi => ?_, hk⟩
        rcases List.mem_append.mp hi with hi | hi
        · exact List.mem_append_left _ (j1 i hi)
        · cases hst <;> simp [through] at hi
          subst hi
          exact List.mem_append_left _ (j2 _ (by assumption))
    exact this.1
  intro i hi
  rw [(C81_accepts_all x cert key timeout kind hk (tlsEvents hs tr)).1.1 hx, tlsEvents_accepted]
  exact List.mem_map.mpr ⟨(i, hs i), List.mem_filter.mpr ⟨List.mem_map.mpr ⟨i, hin i hi, rfl⟩, decide_eq_true (through_done h i hi)⟩, rfl⟩

/-! ## Past the handshake -/

/-- `n` connections one after the other, each with its handshake. -/
def fillTls : Nat → List TlsAct
  | 0 => []
  | n + 1 => fillTls n ++ [.connect n, .accept n, .shook n]

theorem fillTls_run (n : Nat) (h : n ≤ limit) (hq : ∀ i, i < limit → hs i = ⟨some 0, true⟩) :
    TlsRun limit timeout hs over .start (fillTls n) ⟨0, [], [], List.range n, []⟩ := by
  induction n with
  | zero => exact .nil
  | succ n ih =>
    have h1 := ih (by omega)
    have h2 : TlsStep limit timeout hs over ⟨0, [], [], List.range n, []⟩ (.connect n) ⟨0, [n], [], List.range n, []⟩ :=
      .connect _ n (by simp) (by simp) (by simp) (by simp)
    have h3 : TlsStep limit timeout hs over ⟨0, [n], [], List.range n, []⟩ (.accept n) ⟨0, [], [(n, 0)], List.range n, []⟩ :=
      .accept _ n [] rfl (by simp [TlsAccepting.used]; omega)
    have h4 : TlsStep limit timeout hs over ⟨0, [], [(n, 0)], List.range n, []⟩ (.shook n) ⟨0, [], [], List.range n ++ [n], []⟩ := by
      have := TlsStep.shook (limit := limit) (timeout := timeout) (hs := hs) (over := over) ⟨0, [], [(n, 0)], List.range n, []⟩ n 0 0 (by simp)
        (by rw [hq n (by omega)]) (Nat.zero_le _) (by rw [hq n (by omega)]) rfl
      simpa using this
    rw [List.range_succ]
    exact h1.trans ((TlsRun.single h2).trans ((TlsRun.single h3).trans (.single h4)))

/-- **C180**, violated with TLS, too: as many clients as there are descriptors, each of which does its handshake and then sends no complete request. From
then on nobody is accepted, however long they wait. (Those who stop before are dropped, C188.) -/
theorem C180_tls_violated {C K : Type} (x : World C K) (s : ServiceConfig) (hbuf : s.tcp.readBuf ≤ isizeMax ∧ s.tcp.buf ≤ isizeMax)
    (limit timeout : Nat) (hs : Nat → Handshake) (hq : ∀ i, i < limit → hs i = ⟨some 0, true⟩)
    (hc : ∀ i, i < limit → Unfinished s.http.limits (x.client i)) :
    ∃ tr st, TlsRun limit timeout hs (s.over x) .start tr st ∧ joined tr = List.range limit ∧ st.serving = List.range limit ∧
      ∀ tr' st', TlsRun limit timeout hs (s.over x) st tr' st' →
        admitted tr' = [] ∧ st'.pending = joined tr' ∧ ∀ t, ∃ tr'' st'', TlsRun limit timeout hs (s.over x) st' tr'' st'' ∧ st''.now = st'.now + t := by
  have hrun := fillTls_run (over := s.over x) (timeout := timeout) limit (Nat.le_refl limit) hq
  have hj : ∀ n, joined (fillTls n) = List.range n := by
    intro n
    induction n with
    | zero => rfl
    | succ n ih => rw [fillTls, joined_append, ih, List.range_succ]; rfl
  refine ⟨fillTls limit, _, hrun, hj limit, rfl, fun tr' st' h' => ?_⟩
  have hstay : st'.serving = List.range limit ∧ st'.shaking = [] ∧ admitted tr' = [] := by
    induction h' with
    | nil => exact ⟨rfl, rfl, rfl⟩
    | snoc _ hst ih =>
      obtain ⟨i1, i2, i3⟩ := ih
      rw [admitted_append, i3]
      cases hst with
      | accept i rest _ hl =>
        unfold TlsAccepting.used at hl
        rw [i1, i2] at hl
        simp at hl
      | finish i hi ho =>
        rw [i1] at hi
        rw [unfinished_keeps x s hbuf i (hc i (by simpa using hi))] at ho
        cases ho
      | shook i t d hm _ _ _ _ => rw [i2] at hm; cases hm
      | refused i t d hm _ _ _ _ => rw [i2] at hm; cases hm
      | expired i t hm _ _ => rw [i2] at hm; cases hm
      | connect i _ _ _ _ => exact ⟨i1, i2, rfl⟩
      | fail _ _ => exact ⟨i1, i2, rfl⟩
      | tick _ _ => exact ⟨i1, i2, rfl⟩
  obtain ⟨k1, k2, k3⟩ := hstay
  refine ⟨k3, by have := tls_fifo h'; rw [k3] at this; simpa using this.symm, fun t => ?_⟩
  clear hj
  induction t with
  | zero => exact ⟨[], st', .nil, rfl⟩
  | succ t ih =>
    obtain ⟨tr1, s1, r1, r2⟩ := ih
    obtain ⟨tr2, s2, q1, q2, _⟩ := tls_time _ ((hrun.trans h').trans r1) rfl
    exact ⟨tr1 ++ tr2, s2, r1.trans q1, by rw [q2, r2]; omega⟩

/-! ## Cases meeting the hypotheses -/

/-- One descriptor, a time limit of 2; a client that never does the handshake, and one behind it. -/
example : ∃ s, TlsRun 1 2 (fun _ => ⟨none, false⟩) (fun _ => true) .start
    [.connect 0, .accept 0, .connect 1, .fail, .tick, .tick, .expired 0, .accept 1, .tick] s ∧ s.now = 3 ∧ s.shaking = [(1, 2)] ∧ s.gone = [0] := by
  refine ⟨_, .snoc (.snoc (.snoc (.snoc (.snoc (.snoc (.snoc (.snoc (.snoc .nil
    (.connect _ 0 (by simp [TlsAccepting.start]) (by simp [TlsAccepting.start]) (by simp [TlsAccepting.start]) (by simp [TlsAccepting.start])))
    (.accept _ 0 [] rfl (by decide)))
    (.connect _ 1 (by simp) (by simp [TlsAccepting.start]) (by simp [TlsAccepting.start]) (by simp [TlsAccepting.start])))
    (.fail _ (by simp) (by decide)))
    (.tick _ (.inr (by decide)) (by decide)))
    (.tick _ (.inr (by decide)) (by decide)))
    (.expired _ 0 0 (by decide) (by simp) rfl))
    (.accept _ 1 [] rfl (by decide)))
    (.tick _ (.inl rfl) (by decide)), rfl, rfl, rfl⟩

end Httpd
