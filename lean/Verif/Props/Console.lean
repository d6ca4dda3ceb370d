import Verif.Spec.Console
import Verif.Model.Logging
/-! # C117–C119: standard output -/

namespace Httpd.Console
open Spec

theorem bufferTail_all (o : Out) (t : Bytes) : (bufferTail o t).shown ++ (bufferTail o t).held = o.shown ++ o.held ++ t := by
  unfold bufferTail
  by_cases h1 : lineCap < o.held.length + t.length <;> by_cases h2 : lineCap ≤ t.length <;> simp [h1, h2]

theorem lineWrite_all (o : Out) (b : Bytes) : (lineWrite o b).shown ++ (lineWrite o b).held = o.shown ++ o.held ++ b := by
  have hb : (b.reverse.dropWhile (· != 10)).reverse ++ (b.reverse.takeWhile (· != 10)).reverse = b := by
    rw [← List.reverse_append, List.takeWhile_append_dropWhile, List.reverse_reverse]
  unfold lineWrite
  by_cases h : (b.reverse.dropWhile (· != 10)).reverse.isEmpty
  · simp only [h, if_true, bufferTail_all]
    rw [List.isEmpty_iff.mp h, List.nil_append] at hb
    rw [hb]
  · simp only [h]
    rw [if_neg (by simp), bufferTail_all]
    simp only [List.append_nil, List.append_assoc, hb]

/-- After whole lines nothing is held back. -/
theorem lineWrite_lines (o : Out) (b : Bytes) (hb : IsLines b) : (lineWrite o b).held = [] := by
  obtain ⟨t, rfl⟩ := hb
  unfold lineWrite
  simp [bufferTail, lineCap]

theorem lineFlush_all (o : Out) : (lineFlush o).shown ++ (lineFlush o).held = o.shown ++ o.held := by
  simp [lineFlush]

/-- What is in flight for an appender. -/
def inFlight (s : State) (i : Nat) : List Bytes :=
  match s.busy i with
  | some (.write b) => [b]
  | _ => []

/-- The records still to be handed over; the rest of a record of which nothing is left does not count. -/
def left (cs : List Call) : List (Nat × Bytes) := (records cs).filter (fun p => !p.2.isEmpty)

theorem ofOne_append (i : Nat) (l m : List (Nat × Bytes)) : ofOne i (l ++ m) = ofOne i l ++ ofOne i m := by
  simp [ofOne]

/-- Records of at most 2 MiB are written in one piece. -/
structure Inv (calls : List Call) (s : State) (done : List (Nat × Bytes)) : Prop where
  small : ∀ p ∈ records s.todo, p.2.length ≤ maxChunk
  text : s.out.shown ++ s.out.held = text done
  parts : ∀ i, ofOne i done ++ inFlight s i ++ ofOne i (left s.todo) = ofOne i (left calls)
  lines : (∀ p ∈ records calls, IsLines p.2) → s.out.held = []

theorem inv_init (calls : List Call) (hs : ∀ p ∈ records calls, p.2.length ≤ maxChunk) : Inv calls (State.init calls) [] :=
  ⟨hs, rfl, fun i => by simp [inFlight, State.init, ofOne], fun _ => rfl⟩

theorem mem_left_lines {i : Nat} {b : Bytes} {l : List (Nat × Bytes)} (h : b ∈ ofOne i l) : (i, b) ∈ l := by
  simp only [ofOne, List.mem_map, List.mem_filter] at h
  obtain ⟨p, ⟨hp, hi⟩, rfl⟩ := h
  have : p.1 = i := by simpa using hi
  rw [← this]
  exact hp

theorem inFlight_upd_other {s : State} {i j : Nat} {job : Option Job} {td nf o} (h : j ≠ i) :
    inFlight ⟨td, upd s.busy i job, nf, o⟩ j = inFlight s j := by
  simp [inFlight, upd, h]

theorem bufferTail_mono (o : Out) (t : Bytes) : o.shown <+: (bufferTail o t).shown := by
  unfold bufferTail
  by_cases h1 : lineCap < o.held.length + t.length <;> by_cases h2 : lineCap ≤ t.length <;> simp [h1, h2]

theorem lineWrite_mono (o : Out) (b : Bytes) : o.shown <+: (lineWrite o b).shown := by
  unfold lineWrite
  simp only
  split
  · exact bufferTail_mono _ _
  · refine List.IsPrefix.trans ?_ (bufferTail_mono _ _)
    exact ⟨o.held ++ (b.reverse.dropWhile (· != 10)).reverse, by simp⟩

theorem step_mono {s t : State} (st : Step s t) : s.out.shown <+: t.out.shown := by
  cases st with
  | wrote => exact lineWrite_mono _ _
  | didFlush => exact ⟨_, rfl⟩
  | _ => exact List.prefix_refl _

/-- An appender that was not written to since its last flush has everything on standard output. -/
structure FInv (s : State) (done : List (Nat × Bytes)) : Prop where
  need : ∀ i b, s.busy i = some (.write b) → s.needFlush i = true
  safe : ∀ i, s.needFlush i = false → s.busy i = none →
    ∃ d1 d2, done = d1 ++ d2 ∧ text d1 <+: s.out.shown ∧ ofOne i d2 = []


theorem finv_init (calls : List Call) : FInv (State.init calls) [] :=
  ⟨fun _ _ h => by simp [State.init] at h, fun _ _ _ => ⟨[], [], rfl, List.nil_prefix, rfl⟩⟩

/-- One step of one appender: the others keep what they have. -/
theorem FInv.of_upd {s : State} {done more : List (Nat × Bytes)} (h : FInv s done) {i : Nat} {td : List Call} {job : Option Job}
    {n : Bool} {o : Out} (ho : s.out.shown <+: o.shown) (hm : ∀ j, j ≠ i → ofOne j more = [])
    (hneed : ∀ b, job = some (.write b) → n = true)
    (hsafe : n = false → job = none → ∃ d1 d2, done ++ more = d1 ++ d2 ∧ text d1 <+: o.shown ∧ ofOne i d2 = []) :
    FInv ⟨td, upd s.busy i job, upd s.needFlush i n, o⟩ (done ++ more) := by
  refine ⟨fun j b hb => ?_, fun j hn hb => ?_⟩
  · by_cases hj : j = i
    · subst hj
      simp only [upd, if_true] at hb ⊢
      exact hneed b hb
    · simp only [upd, hj, if_false] at hb ⊢
      exact h.need j b hb
  · by_cases hj : j = i
    · subst hj
      simp only [upd, if_true] at hb hn
      exact hsafe hn hb
    · simp only [upd, hj, if_false] at hb hn
      obtain ⟨d1, d2, e, p, q⟩ := h.safe j hn hb
      exact ⟨d1, d2 ++ more, by rw [e, List.append_assoc], p.trans ho, by rw [ofOne_append, q, hm j hj]; rfl⟩

theorem upd_same {α : Type} (f : Nat → α) (i : Nat) : upd f i (f i) = f := by
  funext j
  by_cases h : j = i <;> simp [upd, h]

theorem inv_step {calls : List Call} {s t : State} {done : List (Nat × Bytes)} (h : Inv calls s done) (st : Step s t) :
    ∃ done', Inv calls t done' ∧ (FInv s done → FInv t done') ∧ done <+: done' := by
  cases st with
  | @written i rest hd =>
    refine ⟨done, ⟨fun p hp => h.small p (by rw [hd]; exact List.mem_cons_of_mem _ hp), h.text, fun j => ?_, h.lines⟩, fun f => ⟨f.need, f.safe⟩, List.prefix_refl _⟩
    have := h.parts j
    rw [hd] at this
    simpa [left, records, inFlight] using this
  | @hand i b rest hd hb hi =>
    have hlen : b.length ≤ maxChunk := h.small (i, b) (by rw [hd]; exact List.mem_cons_self ..)
    have ht : b.take maxChunk = b := List.take_of_length_le hlen
    have hdr : b.drop maxChunk = [] := List.drop_of_length_le hlen
    refine ⟨done, ⟨?_, h.text, fun j => ?_, h.lines⟩, fun f => ?_, List.prefix_refl _⟩
    · intro p hp
      simp only [records, hdr, List.mem_cons] at hp
      rcases hp with rfl | hp
      · simp
      · exact h.small p (by rw [hd]; exact List.mem_cons_of_mem _ hp)
    · have hp := h.parts j
      rw [hd] at hp
      have hne : b.isEmpty = false := by cases b with | nil => exact absurd rfl hb | cons => rfl
      by_cases hj : j = i
      · subst hj
        have h0 : inFlight s j = [] := by simp [inFlight, hi]
        rw [h0, List.append_nil] at hp
        simp only [left, records, List.filter_cons, hne, Bool.not_false, if_true, ofOne, beq_self_eq_true, List.map_cons] at hp
        simp only [inFlight, upd, if_true, left, records, ht, hdr, List.filter_cons, List.isEmpty_nil, Bool.not_true]
        simp only [ofOne, List.append_assoc, List.cons_append, List.nil_append, Bool.false_eq_true, if_false]
        exact hp
      · rw [inFlight_upd_other hj]
        have hji : (i == j) = false := by simp; exact fun h => hj h.symm
        simp only [left, records, List.filter_cons, hne, Bool.not_false, if_true, ofOne, hji] at hp
        simp only [left, records, hdr, List.filter_cons, List.isEmpty_nil, Bool.not_true]
        simpa [ofOne, left] using hp
    · have := f.of_upd (more := []) (i := i) (td := .write i (b.drop maxChunk) :: rest) (job := some (.write (b.take maxChunk)))
        (n := true) (List.prefix_refl s.out.shown) (fun _ _ => rfl) (fun _ _ => rfl) (fun h => by simp at h)
      rwa [List.append_nil] at this
  | @handFlush i rest hd hi hn =>
    refine ⟨done, ⟨h.small, h.text, fun j => ?_, h.lines⟩, fun f => ?_, List.prefix_refl _⟩
    · by_cases hj : j = i
      · subst hj
        have hp := h.parts j
        simp only [inFlight, hi] at hp
        simpa [inFlight, upd] using hp
      · rw [inFlight_upd_other hj]; exact h.parts j
    · have := f.of_upd (more := []) (i := i) (td := s.todo) (job := some .flush) (n := false) (List.prefix_refl s.out.shown)
        (fun _ _ => rfl) (fun _ h => by simp at h) (fun _ h => by simp at h)
      rwa [List.append_nil] at this
  | @flushed i rest hd hi hn =>
    refine ⟨done, ⟨fun p hp => h.small p (by rw [hd]; exact hp), h.text, fun j => ?_, h.lines⟩, fun f => ⟨f.need, f.safe⟩, List.prefix_refl _⟩
    have := h.parts j
    rw [hd] at this
    simpa [left, records, inFlight] using this
  | @wrote i b hb =>
    refine ⟨done ++ [(i, b)], ⟨h.small, ?_, fun j => ?_, ?_⟩, fun f => ?_, List.prefix_append _ _⟩
    · rw [lineWrite_all, h.text]; simp [Spec.text]
    · by_cases hj : j = i
      · subst hj
        have hp := h.parts j
        simp only [inFlight, hb] at hp
        simpa [inFlight, upd, ofOne_append, ofOne] using hp
      · rw [inFlight_upd_other hj, ofOne_append]
        have hji : (i == j) = false := by simp; exact fun h => hj h.symm
        have : ofOne j [(i, b)] = [] := by simp [ofOne, hji]
        rw [this, List.append_nil]
        exact h.parts j
    · intro hl
      apply lineWrite_lines
      have hp := h.parts i
      have hm : b ∈ ofOne i (left calls) := by
        rw [← hp]
        simp [inFlight, hb]
      have := mem_left_lines hm
      exact hl (i, b) (List.mem_filter.mp this).1
    · have hn := f.need i b hb
      have := f.of_upd (more := [(i, b)]) (i := i) (td := s.todo) (job := none) (n := s.needFlush i) (lineWrite_mono s.out b)
        (fun j hj => by simp [ofOne, Ne.symm hj]) (fun _ h => by simp at h) (fun h => by rw [hn] at h; simp at h)
      rwa [upd_same] at this
  | @didFlush i hb =>
    refine ⟨done, ⟨h.small, by rw [lineFlush_all]; exact h.text, fun j => ?_, fun _ => rfl⟩, fun f => ?_, List.prefix_refl _⟩
    · by_cases hj : j = i
      · subst hj
        have hp := h.parts j
        simp only [inFlight, hb] at hp
        simpa [inFlight, upd] using hp
      · rw [inFlight_upd_other hj]; exact h.parts j
    · have := f.of_upd (more := []) (i := i) (td := s.todo) (job := none) (n := s.needFlush i) (o := lineFlush s.out) ⟨_, rfl⟩
        (fun _ _ => rfl) (fun _ h => by simp at h)
        (fun _ _ => ⟨done, [], rfl, by rw [← h.text]; exact List.prefix_refl _, rfl⟩)
      rwa [upd_same, List.append_nil] at this

theorem inv_run {calls : List Call} {s : State} (hs : ∀ p ∈ records calls, p.2.length ≤ maxChunk)
    (h : Run (State.init calls) s) : ∃ done, Inv calls s done ∧ FInv s done := by
  generalize hi : State.init calls = s0 at h
  induction h with
  | refl => subst hi; exact ⟨[], inv_init calls hs, finv_init calls⟩
  | snoc _ st ih =>
    obtain ⟨d, hd, hf⟩ := ih
    obtain ⟨d', hd', hf', _⟩ := inv_step hd st
    exact ⟨d', hd', hf' hf⟩

/-! ## C117 -/

theorem left_eq {calls : List Call} (hn : ∀ p ∈ records calls, p.2 ≠ []) : left calls = records calls := by
  unfold left
  rw [List.filter_eq_self]
  intro p hp
  have := hn p hp
  cases h : p.2 with
  | nil => exact absurd h this
  | cons => rfl

theorem lines_ne_nil {b : Bytes} (h : IsLines b) : b ≠ [] := by
  obtain ⟨t, rfl⟩ := h
  simp

/-- **C117**, for records of at most 2 MiB (missing: longer ones, see `C117_torn_violated`). Whatever lines are logged to any number of
console appenders, and whatever the blocking threads do: standard output shows whole records only, each appender's records in order,
none twice and none left out. -/
theorem C117_whole_partial (calls : List Call) (hs : ∀ p ∈ records calls, p.2.length ≤ 2097152 ∧ IsLines p.2) (s : State)
    (h : Run (State.init calls) s) :
    ∃ done, s.out.shown = text done ∧ ∀ i, ofOne i done <+: ofOne i (records calls) := by
  obtain ⟨done, hd, _⟩ := inv_run (fun p hp => (hs p hp).1) h
  refine ⟨done, ?_, fun i => ?_⟩
  · have := hd.text
    rwa [hd.lines (fun p hp => (hs p hp).2), List.append_nil] at this
  · have := hd.parts i
    rw [left_eq (fun p hp => lines_ne_nil (hs p hp).2)] at this
    exact ⟨inFlight s i ++ ofOne i (left s.todo), by rw [← List.append_assoc]; exact this⟩

/-- **C117**, negation for the code as written: a record of more than 2 MiB (say, a request body that is logged) can be torn apart by a
record of another appender. -/
theorem C117_torn_violated (i j : Nat) (hij : i ≠ j) (b1 b2 : Bytes) (h1 : IsLines b1) (h2 : IsLines b2)
    (hl : 2097152 < b1.length) (hl1 : b1.length ≤ 2 * 2097152) (hl2 : b2.length ≤ 2097152) :
    ∃ s, Run (State.init [.write j b2, .write i b1]) s ∧ s.todo = [] ∧ (∀ k, s.busy k = none) ∧
      s.out.shown = b1.take 2097152 ++ b2 ++ b1.drop 2097152 := by
  have hl : maxChunk < b1.length := hl
  have hl1 : b1.length ≤ 2 * maxChunk := hl1
  have hl2 : b2.length ≤ maxChunk := hl2
  show ∃ s, _ ∧ _ ∧ _ ∧ _ = b1.take maxChunk ++ b2 ++ b1.drop maxChunk
  have ht2 : b2.take maxChunk = b2 := List.take_of_length_le hl2
  have hd2 : b2.drop maxChunk = [] := List.drop_of_length_le hl2
  have hd1 : (b1.drop maxChunk) ≠ [] := by
    intro h; have := congrArg List.length h; rw [List.length_drop, List.length_nil] at this; omega
  have ht1' : (b1.drop maxChunk).take maxChunk = b1.drop maxChunk := List.take_of_length_le (by rw [List.length_drop]; omega)
  have hd1' : (b1.drop maxChunk).drop maxChunk = [] := List.drop_of_length_le (by rw [List.length_drop]; omega)
  have hlines : IsLines (b1.drop maxChunk) := by
    obtain ⟨t, rfl⟩ := h1
    refine ⟨t.drop maxChunk, ?_⟩
    rw [List.length_append, List.length_cons, List.length_nil] at hl
    rw [List.drop_append_of_le_length (by omega)]
  have r : Run (State.init [.write j b2, .write i b1]) (State.init [.write j b2, .write i b1]) := .refl _
  have r := r.snoc (.hand rfl (lines_ne_nil h2) rfl)
  rw [ht2, hd2] at r
  have r := r.snoc (.written rfl)
  have r := r.snoc (.hand (i := i) rfl (lines_ne_nil h1) (by simp [upd, hij, State.init]))
  have r := r.snoc (.wrote (i := i) (b := b1.take maxChunk) (by simp [upd]))
  have r := r.snoc (.wrote (i := j) (b := b2) (by simp [upd, Ne.symm hij]))
  have r := r.snoc (.hand (i := i) rfl hd1 (by simp [upd, hij]))
  rw [ht1', hd1'] at r
  have r := r.snoc (.written rfl)
  have r := r.snoc (.wrote (i := i) (b := b1.drop maxChunk) (by simp [upd]))
  refine ⟨_, r, rfl, fun k => ?_, ?_⟩
  · simp only [upd, State.init]
    by_cases hk : k = i <;> by_cases hk' : k = j <;> simp [hk, hk']
  · have e := lineWrite_all (lineWrite (lineWrite ⟨[], []⟩ (b1.take maxChunk)) b2) (b1.drop maxChunk)
    rw [lineWrite_lines _ _ hlines, List.append_nil, lineWrite_all, lineWrite_all] at e
    simpa [State.init] using e

theorem lines_append (a : Bytes) {b : Bytes} (h : IsLines b) : IsLines (a ++ b) := by
  obtain ⟨t, rfl⟩ := h
  exact ⟨a ++ t, by rw [List.append_assoc]⟩

/-- What the two renderers make of a record is a line. -/
theorem C117_records_are_lines_partial (item : Item) (scheme : ColorScheme) : IsLines (jsonRender item) ∧ IsLines (colorRender scheme item) := by
  constructor
  · unfold jsonRender
    by_cases h : item.kvs.isEmpty <;> simp only [h, if_true, Bool.false_eq_true, if_false, List.append_assoc]
    · iterate 16 apply lines_append
      exact ⟨[125, 13], rfl⟩
    · iterate 21 apply lines_append
      exact ⟨[125, 125, 13], rfl⟩
  · unfold colorRender
    by_cases h : item.kvs.isEmpty <;> simp only [h, if_true, Bool.false_eq_true, if_false, List.append_assoc]
    · iterate 10 apply lines_append
      exact ⟨[13], rfl⟩
    · iterate 12 apply lines_append
      exact ⟨[32, 125, 13], rfl⟩

/-! ## C118 -/

/-- Everything of a list of calls. -/
theorem text_records_cons (c : Call) (cs : List Call) :
    text (records (c :: cs)) = (match c with | .write _ b => b | .flush _ => []) ++ text (records cs) := by
  cases c <;> simp [records, Spec.text]

/-- **C118**, for one console appender (missing: several, see `C118_swapped_violated`): whatever is logged, in records of any length,
standard output shows a beginning of it, in the order in which it was logged; and all of it, as soon as all calls have returned, nothing
is in flight and the last call was a flush of something, or the text ends with a line feed. -/
theorem C118_one_console_partial (i : Nat) (calls : List Call) (hi : ∀ p ∈ records calls, p.1 = i) (s : State)
    (h : Run (State.init calls) s) :
    s.out.shown <+: text (records calls) ∧
      (s.todo = [] → s.busy i = none → s.out.held = [] → s.out.shown = text (records calls)) := by
  have inv : (∀ p ∈ records s.todo, p.1 = i) ∧
      s.out.shown ++ s.out.held ++ (inFlight s i).flatten ++ text (records s.todo) = text (records calls) ∧
      ∀ j, j ≠ i → inFlight s j = [] := by
    generalize hs0 : State.init calls = s0 at h
    induction h with
    | refl => subst hs0; exact ⟨hi, by simp [State.init, inFlight], fun j _ => rfl⟩
    | @snoc t u _ st ih =>
      obtain ⟨ih1, ih2, ih3⟩ := ih
      cases st with
      | @written k rest hd =>
        rw [hd] at ih1 ih2
        rw [text_records_cons] at ih2
        exact ⟨fun p hp => ih1 p (List.mem_cons_of_mem _ hp), by simpa [inFlight] using ih2, ih3⟩
      | @hand k b rest hd hb hk =>
        rw [hd] at ih1 ih2
        have hki : k = i := ih1 (k, b) (List.mem_cons_self ..)
        subst hki
        rw [text_records_cons] at ih2
        refine ⟨?_, ?_, fun j hj => ?_⟩
        · intro p hp
          simp only [records, List.mem_cons] at hp
          rcases hp with rfl | hp
          · rfl
          · exact ih1 p (List.mem_cons_of_mem _ hp)
        · rw [text_records_cons]
          have h0 : inFlight t k = [] := by simp [inFlight, hk]
          rw [h0] at ih2
          simp only [inFlight, upd, if_true, List.flatten_cons, List.flatten_nil, List.append_nil] at ih2 ⊢
          rw [← ih2]
          conv => rhs; rw [← List.take_append_drop maxChunk b]
          simp only [List.append_assoc]
        · rw [inFlight_upd_other hj]; exact ih3 j hj
      | @handFlush k rest hd hk hn =>
        refine ⟨ih1, ?_, fun j hj => ?_⟩
        · by_cases hki : k = i
          · subst hki
            simpa [inFlight, upd, hk] using ih2
          · rw [inFlight_upd_other (Ne.symm hki)]; exact ih2
        · by_cases hjk : j = k
          · subst hjk; simp [inFlight, upd]
          · rw [inFlight_upd_other hjk]; exact ih3 j hj
      | @flushed k rest hd hk hn =>
        rw [hd] at ih1 ih2
        rw [text_records_cons] at ih2
        exact ⟨fun p hp => ih1 p hp, by simpa [inFlight] using ih2, ih3⟩
      | @wrote k b hb =>
        have hki : k = i := by
          apply Decidable.byContradiction
          intro hne
          have := ih3 k hne
          simp [inFlight, hb] at this
        subst hki
        refine ⟨ih1, ?_, fun j hj => ?_⟩
        · have h0 : inFlight t k = [b] := by simp [inFlight, hb]
          rw [h0] at ih2
          rw [lineWrite_all]
          simpa [inFlight, upd] using ih2
        · rw [inFlight_upd_other hj]; exact ih3 j hj
      | @didFlush k hb =>
        refine ⟨ih1, ?_, fun j hj => ?_⟩
        · rw [lineFlush_all]
          by_cases hki : k = i
          · subst hki
            have h0 : inFlight t k = [] := by simp [inFlight, hb]
            rw [h0] at ih2
            simpa [inFlight, upd] using ih2
          · rw [inFlight_upd_other (Ne.symm hki)]; exact ih2
        · by_cases hjk : j = k
          · subst hjk; simp [inFlight, upd]
          · rw [inFlight_upd_other hjk]; exact ih3 j hj
  obtain ⟨_, h2, _⟩ := inv
  constructor
  · exact ⟨s.out.held ++ ((inFlight s i).flatten ++ text (records s.todo)), by rw [← h2]; simp only [List.append_assoc]⟩
  · intro ht hb hh
    rw [ht, hh] at h2
    simpa [inFlight, hb, records, Spec.text] using h2

/-- **C118**, negation for the code as written: two records logged one after the other to two console appenders (the root's and a
service's, or two of the same) can appear the other way round. -/
theorem C118_swapped_violated (i j : Nat) (hij : i ≠ j) (b1 b2 : Bytes) (h1 : IsLines b1) (h2 : IsLines b2)
    (hl1 : b1.length ≤ maxChunk) (hl2 : b2.length ≤ maxChunk) :
    ∃ s, Run (State.init [.write i b1, .write j b2]) s ∧ s.todo = [] ∧ (∀ k, s.busy k = none) ∧ s.out = ⟨b2 ++ b1, []⟩ := by
  have r : Run (State.init [.write i b1, .write j b2]) (State.init [.write i b1, .write j b2]) := .refl _
  have r := r.snoc (.hand rfl (lines_ne_nil h1) rfl)
  rw [List.take_of_length_le hl1, List.drop_of_length_le hl1] at r
  have r := r.snoc (.written rfl)
  have r := r.snoc (.hand (i := j) rfl (lines_ne_nil h2) (by simp [upd, Ne.symm hij, State.init]))
  rw [List.take_of_length_le hl2, List.drop_of_length_le hl2] at r
  have r := r.snoc (.written rfl)
  have r := r.snoc (.wrote (i := j) (b := b2) (by simp [upd]))
  have r := r.snoc (.wrote (i := i) (b := b1) (by simp [upd, hij]))
  refine ⟨_, r, rfl, fun k => ?_, ?_⟩
  · simp only [upd, State.init]
    by_cases hk : k = i <;> by_cases hk' : k = j <;> simp [hk, hk']
  · have e := lineWrite_all (lineWrite ⟨[], []⟩ b2) b1
    rw [lineWrite_lines _ _ h1, List.append_nil, lineWrite_all] at e
    have e2 := lineWrite_lines (lineWrite ⟨[], []⟩ b2) b1 h1
    show lineWrite (lineWrite ⟨[], []⟩ b2) b1 = _
    generalize lineWrite (lineWrite ⟨[], []⟩ b2) b1 = o at *
    cases o
    simp_all

/-! ## C119 -/

/-- How far the calls have come: the first call left may have been begun, the ones after it not. -/
theorem todo_run {calls : List Call} {s : State} (h : Run (State.init calls) s) :
    ∃ pre, (∃ c c' rest, calls = pre ++ c :: rest ∧ s.todo = c' :: rest ∧
      (c' = c ∨ ∃ i b b', c = .write i b ∧ c' = .write i b')) ∨ (calls = pre ∧ s.todo = []) := by
  generalize hi : State.init calls = s0 at h
  induction h with
  | refl =>
    subst hi
    cases calls with
    | nil => exact ⟨[], .inr ⟨rfl, rfl⟩⟩
    | cons c rest => exact ⟨[], .inl ⟨c, c, rest, rfl, rfl, .inl rfl⟩⟩
  | @snoc t u _ st ih =>
    have pop : ∀ {c' rest}, t.todo = c' :: rest → u.todo = rest →
        ∃ pre, (∃ c c' rest, calls = pre ++ c :: rest ∧ u.todo = c' :: rest ∧
          (c' = c ∨ ∃ i b b', c = .write i b ∧ c' = .write i b')) ∨ (calls = pre ∧ u.todo = []) := by
      intro c' rest ht hu
      obtain ⟨pre, ⟨c, c'', rest', e1, e2, _⟩ | ⟨_, e2⟩⟩ := ih
      · rw [ht] at e2
        obtain ⟨_, rfl⟩ := List.cons.inj e2
        cases rest with
        | nil => exact ⟨pre ++ [c], .inr ⟨e1, hu⟩⟩
        | cons x xs => exact ⟨pre ++ [c], .inl ⟨x, x, xs, by rw [e1, List.append_assoc]; rfl, hu, .inl rfl⟩⟩
      · rw [ht] at e2; simp at e2
    cases st with
    | written hd => exact pop hd rfl
    | flushed hd => exact pop hd rfl
    | @hand k b rest hd =>
      obtain ⟨pre, ⟨c, c'', rest', e1, e2, e3⟩ | ⟨_, e2⟩⟩ := ih
      · rw [hd] at e2
        obtain ⟨rfl, rfl⟩ := List.cons.inj e2
        refine ⟨pre, .inl ⟨c, _, rest, e1, rfl, .inr ?_⟩⟩
        rcases e3 with rfl | ⟨i', b1, b2, rfl, e3⟩
        · exact ⟨k, b, _, rfl, rfl⟩
        · obtain ⟨rfl, rfl⟩ := Call.write.inj e3
          exact ⟨k, b1, _, rfl, rfl⟩
      · rw [hd] at e2; simp at e2
    | handFlush => exact ih
    | wrote => exact ih
    | didFlush => exact ih

theorem records_append (a b : List Call) : records (a ++ b) = records a ++ records b := by
  induction a with
  | nil => rfl
  | cons c cs ih => cases c <;> simp [records, ih]

/-- **C119.** When the flush of a console appender has returned, every record that was handed to it before has left the process: what
standard output shows begins with a text that has them all. (Records of at most 2 MiB, lines or not, any number of other appenders.) -/
theorem C119_flushed (pre post : List Call) (i : Nat)
    (hs : ∀ p ∈ records (pre ++ .flush i :: post), p.2 ≠ [] ∧ p.2.length ≤ maxChunk) (s : State)
    (h : Run (State.init (pre ++ .flush i :: post)) s) (hret : s.todo.length ≤ post.length) :
    ∃ d, text d <+: s.out.shown ∧ ofOne i (records pre) <+: ofOne i d := by
  generalize hi : State.init (pre ++ .flush i :: post) = s0 at h
  induction h with
  | refl =>
    subst hi
    simp only [State.init, List.length_append, List.length_cons] at hret
    omega
  | @snoc t u r st ih =>
    by_cases ht : t.todo.length ≤ post.length
    · obtain ⟨d, h1, h2⟩ := ih ht
      exact ⟨d, h1.trans (step_mono st), h2⟩
    · subst hi
      obtain ⟨done, hd, hf⟩ := inv_run (fun p hp => (hs p hp).2) r
      obtain ⟨p', ⟨c, c', rest, e1, e2, e3⟩ | ⟨_, e2⟩⟩ := todo_run r
      case inr => rw [e2] at ht; simp at ht
      have hur : u.todo.length ≤ post.length → rest.length = post.length := by
        intro hu
        rw [e2, List.length_cons] at ht
        cases st with
        | written hd => rw [e2] at hd; obtain ⟨_, rfl⟩ := List.cons.inj hd; simp only at hu; omega
        | flushed hd => rw [e2] at hd; obtain ⟨_, rfl⟩ := List.cons.inj hd; simp only at hu; omega
        | hand hd => rw [e2] at hd; obtain ⟨_, rfl⟩ := List.cons.inj hd; simp only [List.length_cons] at hu; omega
        | handFlush => rw [e2, List.length_cons] at hu; omega
        | wrote => rw [e2, List.length_cons] at hu; omega
        | didFlush => rw [e2, List.length_cons] at hu; omega
      have hrl := hur hret
      obtain ⟨e4, e5⟩ := List.append_inj' e1 (by simp [hrl])
      obtain ⟨rfl, rfl⟩ := List.cons.inj e5
      have e6 : c' = .flush i := by
        rcases e3 with e3 | ⟨_, _, _, e3, _⟩
        · exact e3
        · simp at e3
      subst e6
      have fin : t.busy i = none → t.needFlush i = false → u.out = t.out →
          ∃ d, text d <+: u.out.shown ∧ ofOne i (records pre) <+: ofOne i d := by
        intro hb hn ho
        obtain ⟨d1, d2, e, p, q⟩ := hf.safe i hn hb
        refine ⟨d1, by rw [ho]; exact p, ?_⟩
        have hp := hd.parts i
        rw [left_eq (fun p hp => (hs p hp).1), e2] at hp
        have hl : left (.flush i :: post) = records post := by
          rw [left_eq]
          · rfl
          · intro p hp; exact (hs p (by rw [records_append]; exact List.mem_append_right _ hp)).1
        rw [hl, records_append, ofOne_append] at hp
        have hfl : inFlight t i = [] := by simp [inFlight, hb]
        rw [hfl, List.append_nil] at hp
        have hp' := List.append_cancel_right hp
        rw [e, ofOne_append, q, List.append_nil] at hp'
        rw [hp']
        exact List.prefix_refl _
      cases st with
      | written hd => rw [e2] at hd; simp at hd
      | hand hd => rw [e2] at hd; simp at hd
      | flushed hd hb hn =>
        rw [e2] at hd
        obtain ⟨hc, _⟩ := List.cons.inj hd
        obtain rfl := Call.flush.inj hc
        exact fin hb hn rfl
      | handFlush => rw [e2, List.length_cons] at hret; omega
      | wrote => rw [e2, List.length_cons] at hret; omega
      | didFlush => rw [e2, List.length_cons] at hret; omega

/-! ## Cases meeting the hypotheses -/

/-- C117, C118: the root console and a service's console, a line each; the lines change places. -/
example : ∃ s, Run (State.init [.write 0 b!"one\r\n", .write 1 b!"two\r\n"]) s ∧ s.out = ⟨b!"two\r\none\r\n", []⟩ := by
  obtain ⟨s, h, _, _, e⟩ := C118_swapped_violated 0 1 (by decide) b!"one\r\n" b!"two\r\n" ⟨b!"one\r", rfl⟩ ⟨b!"two\r", rfl⟩
    (by decide) (by decide)
  exact ⟨s, h, e⟩

/-- C117: there are records that long. -/
example (b : UInt8) : IsLines (List.replicate maxChunk b ++ [10]) ∧ maxChunk < (List.replicate maxChunk b ++ [10]).length := by
  refine ⟨⟨_, rfl⟩, ?_⟩
  rw [List.length_append, List.length_replicate]
  exact Nat.lt_succ_self _

/-- C119: text without a line feed stays in the process until the flush. -/
example : lineWrite ⟨[], []⟩ b!"no line feed" = ⟨[], b!"no line feed"⟩ := by decide +kernel

example : ∃ s, Run (State.init ([.write 0 b!"no line feed"] ++ .flush 0 :: [])) s ∧ s.todo.length ≤ ([] : List Call).length ∧
    s.out.shown = b!"no line feed" := by
  have r : Run (State.init ([.write 0 b!"no line feed"] ++ .flush 0 :: [])) _ := .refl _
  have r := r.snoc (.hand rfl (by decide) rfl)
  have r := r.snoc (.written rfl)
  have r := r.snoc (.wrote (i := 0) rfl)
  have r := r.snoc (.handFlush (i := 0) rfl rfl rfl)
  have r := r.snoc (.didFlush (i := 0) rfl)
  have r := r.snoc (.flushed (i := 0) rfl rfl rfl)
  exact ⟨_, r, by simp, by decide +kernel⟩

end Httpd.Console
