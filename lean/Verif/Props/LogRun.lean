import Verif.Model.LogRun
import Verif.Props.RotChain
import Verif.Props.DeadLog
import Verif.Props.TimeFormat
/-!
# C177: the thread that writes the log does not panic
-/

namespace Httpd

open Spec MultiMap

/-! ## Runs of the logger are runs of the threads -/

theorem LoggerStep.sys {k : Consumer} {text : Nat → Option Bytes} {moments : Nat → Moment} {enabled : Item → Bool} {s s' : Logger}
    {a : Log.Act Item} (h : LoggerStep k text moments enabled s a s') : Log.Step enabled s.sys a s'.sys := by
  cases h <;> assumption

theorem LoggerRun.sys {k : Consumer} {text : Nat → Option Bytes} {moments : Nat → Moment} {enabled : Item → Bool} {s s' : Logger}
    {tr : List (Log.Act Item)} (h : LoggerRun k text moments enabled s tr s') : Log.Run enabled s.sys tr s'.sys := by
  induction h with
  | nil => exact .nil
  | snoc _ hs ih => exact .snoc ih hs.sys

/-! ## Calls of appenders -/

/-- When the time of a rotation can be computed, no call panics. -/
theorem rotate_value (d : Disk) (r : Rotator) (m : Moment) (hm : m.next ≠ none) : ∃ x, rotate d r m = .value x := by
  obtain ⟨at', h⟩ := Option.ne_none_iff_exists'.mp hm
  unfold rotate
  rw [h]
  split
  · exact ⟨_, rfl⟩
  · split
    · exact ⟨_, rfl⟩
    · split
      · exact ⟨_, rfl⟩
      · exact ⟨_, rfl⟩

theorem rotAppend_value (d : Disk) (r : Rotator) (m : Moment) (b : Bytes) (hm : m.next ≠ none) : ∃ x, rotAppend d r m b = .value x := by
  unfold rotAppend
  split
  · next d' w hf =>
    obtain ⟨x, hx⟩ := rotate_value d' { r with inner := w } m hm
    rw [hx]
    exact ⟨_, rfl⟩
  · next d' w hf =>
    obtain ⟨⟨d2, r2, b2⟩, hx⟩ := rotate_value d' { r with inner := w } m hm
    rw [hx]
    cases b2 with
    | false => exact ⟨_, rfl⟩
    | true => exact ⟨_, rfl⟩

theorem callDest_value (st : Disk × List Dest) (m : Moment) (call : Nat × FileCall)
    (hm : m.next ≠ none ∨ call.2 = .flush ∨ ∀ x ∈ st.2, ∀ r, x ≠ .rotating r) : ∃ x, callDest st m call = .value x := by
  unfold callDest
  cases hx : st.2[call.1]? with
  | none => exact ⟨_, rfl⟩
  | some x =>
    simp only
    cases x with
    | console => exact ⟨_, rfl⟩
    | file w => cases hc : call.2 <;> exact ⟨_, rfl⟩
    | rotating r =>
      cases hc : call.2 with
      | flush => exact ⟨_, rfl⟩
      | write b =>
        rcases hm with hm | hm | hm
        · obtain ⟨⟨d, r', ok⟩, h⟩ := rotAppend_value st.1 r m b hm
          simp only [Dest.call, h]
          exact ⟨_, rfl⟩
        · rw [hc] at hm; cases hm
        · exact absurd rfl (hm _ (List.mem_of_getElem? hx) r)

/-- A call leaves the kind of every appender as it is. -/
theorem callDest_kind (st st' : Disk × List Dest) (m : Moment) (call : Nat × FileCall) (h : callDest st m call = .value st')
    (hn : ∀ x ∈ st.2, ∀ r, x ≠ .rotating r) : ∀ x ∈ st'.2, ∀ r, x ≠ .rotating r := by
  unfold callDest at h
  cases hx : st.2[call.1]? with
  | none => rw [hx] at h; simp only [Outcome.value.injEq] at h; subst h; exact hn
  | some x =>
    rw [hx] at h
    simp only at h
    have hxr := hn x (List.mem_of_getElem? hx)
    cases x with
    | console =>
      simp only [Dest.call, Outcome.value.injEq] at h
      subst h
      intro y hy r
      rcases List.mem_or_eq_of_mem_set hy with hy | rfl
      · exact hn y hy r
      · simp
    | file w =>
      cases hc : call.2 <;> (
        rw [hc] at h
        simp only [Dest.call, Outcome.value.injEq] at h
        subst h
        intro y hy r
        rcases List.mem_or_eq_of_mem_set hy with hy | rfl
        · exact hn y hy r
        · simp)
    | rotating r => exact absurd rfl (hxr r)

theorem callDests_kind (calls : List (Nat × FileCall)) (st st' : Disk × List Dest) (moments : Nat → Moment)
    (h : callDests st moments calls = .value st') (hn : ∀ x ∈ st.2, ∀ r, x ≠ .rotating r) : ∀ x ∈ st'.2, ∀ r, x ≠ .rotating r := by
  induction calls generalizing st moments with
  | nil => simp only [callDests, Outcome.value.injEq] at h; subst h; exact hn
  | cons call calls ih =>
    unfold callDests at h
    cases hc : callDest st (moments 0) call with
    | value st1 => rw [hc] at h; exact ih st1 _ h (callDest_kind st st1 _ call hc hn)
    | error => rw [hc] at h; cases h
    | panic => rw [hc] at h; cases h

theorem callDests_value (calls : List (Nat × FileCall)) (st : Disk × List Dest) (moments : Nat → Moment)
    (hm : (∀ n, (moments n).next ≠ none) ∨ (∀ c ∈ calls, c.2 = .flush) ∨ ∀ x ∈ st.2, ∀ r, x ≠ .rotating r) :
    ∃ x, callDests st moments calls = .value x := by
  induction calls generalizing st moments with
  | nil => exact ⟨_, rfl⟩
  | cons call calls ih =>
    obtain ⟨st1, h1⟩ := callDest_value st (moments 0) call (by
      rcases hm with hm | hm | hm
      · exact .inl (hm 0)
      · exact .inr (.inl (hm call (List.mem_cons_self ..)))
      · exact .inr (.inr hm))
    unfold callDests
    rw [h1]
    refine ih st1 _ ?_
    rcases hm with hm | hm | hm
    · exact .inl (fun n => hm (n + 1))
    · exact .inr (.inl (fun c hc => hm c (List.mem_cons_of_mem _ hc)))
    · exact .inr (.inr (callDest_kind st st1 _ call h1 hm))

/-! ## When an appender that rotates is due -/

/-- Appender `i` rotates, at a time for which `P`. -/
def RotatesAt (i : Nat) (P : Nat → Prop) (st : Disk × List Dest) : Prop := ∃ r, st.2[i]? = some (.rotating r) ∧ P r.rotateAt

theorem rotate_at (d : Disk) (r : Rotator) (m : Moment) (d' : Disk) (r' : Rotator) (ok : Bool) (h : rotate d r m = .value (d', r', ok)) :
    r'.rotateAt = r.rotateAt ∨ m.next = some r'.rotateAt := by
  unfold rotate at h
  split at h
  · simp only [Outcome.value.injEq, Prod.mk.injEq] at h
    rw [← h.2.1]; exact .inl rfl
  · split at h
    · split at h
      · cases h
      · next at' hn =>
        simp only [Outcome.value.injEq, Prod.mk.injEq] at h
        rw [← h.2.1]; exact .inr hn
    · split at h
      · simp only at h
        split at h
        · cases h
        · next at' hn =>
          simp only [Outcome.value.injEq, Prod.mk.injEq] at h
          rw [← h.2.1]; exact .inr hn
      · split at h
        · cases h
        · next at' hn =>
          simp only [Outcome.value.injEq, Prod.mk.injEq] at h
          rw [← h.2.1]; exact .inr hn

theorem rotAppend_at (d : Disk) (r : Rotator) (m : Moment) (b : Bytes) (d' : Disk) (r' : Rotator) (ok : Bool)
    (h : rotAppend d r m b = .value (d', r', ok)) : r'.rotateAt = r.rotateAt ∨ m.next = some r'.rotateAt := by
  unfold rotAppend at h
  split at h
  · next d1 w hf =>
    cases hr : rotate d1 { r with inner := w } m with
    | value x =>
      obtain ⟨d2, r2, ok2⟩ := x
      rw [hr] at h
      simp only [Outcome.value.injEq, Prod.mk.injEq] at h
      have := rotate_at _ _ _ _ _ _ hr
      rw [← h.2.1]
      exact this
    | error => rw [hr] at h; cases h
    | panic => rw [hr] at h; cases h
  · next d1 w hf =>
    cases hr : rotate d1 { r with inner := w } m with
    | value x =>
      obtain ⟨d2, r2, ok2⟩ := x
      rw [hr] at h
      cases ok2 with
      | true =>
        simp only [Outcome.value.injEq, Prod.mk.injEq] at h
        have := rotate_at _ _ _ _ _ _ hr
        rw [← h.2.1]
        exact this
      | false =>
        simp only [Outcome.value.injEq, Prod.mk.injEq] at h
        have := rotate_at _ _ _ _ _ _ hr
        rw [← h.2.1]
        exact this
    | error => rw [hr] at h; cases h
    | panic => rw [hr] at h; cases h

theorem rotFlush_at (d : Disk) (r : Rotator) : (rotFlush d r).2.1.rotateAt = r.rotateAt := by
  unfold rotFlush; rfl

theorem callDest_at (i : Nat) (P Q : Nat → Prop) (st st' : Disk × List Dest) (m : Moment) (call : Nat × FileCall)
    (h : callDest st m call = .value st') (hr : RotatesAt i P st) (hPQ : ∀ e, P e → Q e) (hm : ∀ e, m.next = some e → Q e) :
    RotatesAt i Q st' := by
  obtain ⟨r, h1, h2⟩ := hr
  have hlt : i < st.2.length := (List.getElem?_eq_some_iff.mp h1).1
  unfold callDest at h
  cases hx : st.2[call.1]? with
  | none => rw [hx] at h; simp only [Outcome.value.injEq] at h; subst h; exact ⟨r, h1, hPQ _ h2⟩
  | some x =>
    rw [hx] at h
    simp only at h
    by_cases hi : call.1 = i
    · rw [hi, h1] at hx
      cases hx
      cases hc : call.2 with
      | flush =>
        rw [hc] at h
        simp only [Dest.call, Outcome.value.injEq] at h
        subst h
        exact ⟨(rotFlush st.1 r).2.1, by rw [hi]; simp [hlt], by rw [rotFlush_at]; exact hPQ _ h2⟩
      | write b =>
        rw [hc] at h
        simp only [Dest.call] at h
        cases hra : rotAppend st.1 r m b with
        | value y =>
          obtain ⟨d2, r2, ok2⟩ := y
          rw [hra] at h
          simp only [Outcome.value.injEq] at h
          subst h
          refine ⟨r2, by rw [hi]; simp [hlt], ?_⟩
          rcases rotAppend_at _ _ _ _ _ _ _ hra with e | e
          · rw [e]; exact hPQ _ h2
          · exact hm _ e
        | error => rw [hra] at h; cases h
        | panic => rw [hra] at h; cases h
    · cases hy : x.call st.1 m call.2 with
      | value y =>
        rw [hy] at h
        simp only [Outcome.value.injEq] at h
        subst h
        exact ⟨r, by simp [List.getElem?_set, hi, h1], hPQ _ h2⟩
      | error => rw [hy] at h; cases h
      | panic => rw [hy] at h; cases h

theorem callDests_at (i : Nat) (calls : List (Nat × FileCall)) (P Q : Nat → Prop) (st st' : Disk × List Dest) (moments : Nat → Moment)
    (h : callDests st moments calls = .value st') (hr : RotatesAt i P st) (hPQ : ∀ e, P e → Q e)
    (hm : ∀ n, n < calls.length → ∀ e, (moments n).next = some e → Q e) : RotatesAt i Q st' := by
  induction calls generalizing st moments P with
  | nil =>
    simp only [callDests, Outcome.value.injEq] at h
    subst h
    obtain ⟨r, h1, h2⟩ := hr
    exact ⟨r, h1, hPQ _ h2⟩
  | cons call calls ih =>
    unfold callDests at h
    cases hc : callDest st (moments 0) call with
    | value st1 =>
      rw [hc] at h
      exact ih Q st1 _ h (callDest_at i P Q st st1 _ call hc hr hPQ (hm 0 (by simp))) (fun _ => id)
        (fun n hn => hm (n + 1) (by simpa using hn))
    | error => rw [hc] at h; cases h
    | panic => rw [hc] at h; cases h

theorem rotate_panic (d : Disk) (r : Rotator) (m : Moment) (hdue : r.rotateAt ≤ m.now) (hn : m.next = none) : rotate d r m = .panic := by
  unfold rotate
  rw [if_neg (by omega), hn]
  split
  · rfl
  · split <;> rfl

theorem rotAppend_panic (d : Disk) (r : Rotator) (m : Moment) (b : Bytes) (hdue : r.rotateAt ≤ m.now) (hn : m.next = none) :
    rotAppend d r m b = .panic := by
  unfold rotAppend
  split
  · next d1 w hf => rw [rotate_panic d1 { r with inner := w } m hdue hn]
  · next d1 w hf => rw [rotate_panic d1 { r with inner := w } m hdue hn]

/-- A write to an appender that is due, at a time for which the end of the day cannot be computed. -/
theorem callDests_panic (i : Nat) (calls : List (Nat × FileCall)) (st : Disk × List Dest) (moments : Nat → Moment) (b : Bytes)
    (hmem : (i, .write b) ∈ calls) (hn : ∀ n, n < calls.length → (moments n).next = none)
    (hr : RotatesAt i (fun e => ∀ n, n < calls.length → e ≤ (moments n).now) st) : callDests st moments calls = .panic := by
  induction calls generalizing st moments with
  | nil => cases hmem
  | cons call calls ih =>
    unfold callDests
    cases hc : callDest st (moments 0) call with
    | panic => rfl
    | error =>
      exfalso
      unfold callDest at hc
      cases hx : st.2[call.1]? with
      | none => rw [hx] at hc; cases hc
      | some x =>
        rw [hx] at hc
        simp only at hc
        cases x with
        | console => simp [Dest.call] at hc
        | file w => cases hc2 : call.2 <;> simp [Dest.call, hc2] at hc
        | rotating r =>
          cases hc2 : call.2 with
          | flush => simp [Dest.call, hc2] at hc
          | write b =>
            cases hra : rotAppend st.1 r (moments 0) b with
            | value y => simp [Dest.call, hc2, hra] at hc
            | panic => simp [Dest.call, hc2, hra] at hc
            | error =>
              unfold rotAppend at hra
              split at hra
              · next d1 w hf =>
                cases hq : rotate d1 { r with inner := w } (moments 0) with
                | value y => rw [hq] at hra; cases hra
                | panic => rw [hq] at hra; cases hra
                | error => unfold rotate at hq; repeat (split at hq <;> try cases hq)
              · next d1 w hf =>
                cases hq : rotate d1 { r with inner := w } (moments 0) with
                | value y =>
                  obtain ⟨d2, r2, ok2⟩ := y
                  rw [hq] at hra
                  cases ok2 <;> cases hra
                | panic => rw [hq] at hra; cases hra
                | error => unfold rotate at hq; repeat (split at hq <;> try cases hq)
    | value st1 =>
      simp only
      rcases List.mem_cons.mp hmem with rfl | hmem'
      · exfalso
        obtain ⟨r, h1, h2⟩ := hr
        simp only [callDest, h1, Dest.call, rotAppend_panic st.1 r (moments 0) b (h2 0 (by simp)) (hn 0 (by simp))] at hc
        cases hc
      · refine ih st1 _ hmem' (fun n hlt => hn (n + 1) (by simpa using hlt)) ?_
        refine callDest_at i (fun e => ∀ n, n < (call :: calls).length → e ≤ (moments n).now) _ st st1 _ call hc hr ?_ ?_
        · intro e he n hlt
          exact he (n + 1) (by simpa using hlt)
        · intro e he
          rw [hn 0 (by simp)] at he
          cases he

/-! ## The appenders after the start -/

theorem openDests_at (as : List AppenderInit) (d : Disk) (ends : Nat → Nat) (st : Disk × List Dest) (h : openDests d ends as = some st)
    (i : Nat) (a : AppenderInit) (ha : as[i]? = some a) (hp : a.path ≠ none) (hd : a.daily = true) : RotatesAt i (fun e => e = ends i) st := by
  induction as generalizing d ends st i with
  | nil => cases ha
  | cons b as ih =>
    simp only [openDests] at h
    cases ho : openDest d (ends 0) b with
    | none => rw [ho] at h; cases h
    | some z =>
      obtain ⟨d1, x⟩ := z
      rw [ho] at h
      simp only at h
      cases hr : openDests d1 (fun i => ends (i + 1)) as with
      | none => rw [hr] at h; cases h
      | some z =>
        obtain ⟨d2, xs⟩ := z
        rw [hr] at h
        simp only [Option.some.injEq] at h
        subst h
        cases i with
        | succ i =>
          obtain ⟨r, h1, h2⟩ := ih d1 _ (d2, xs) hr i (by simpa using ha)
          exact ⟨r, by simpa using h1, h2⟩
        | zero =>
          simp only [List.getElem?_cons_zero, Option.some.injEq] at ha
          subst ha
          obtain ⟨fp, hfp⟩ := Option.ne_none_iff_exists'.mp hp
          unfold openDest at ho
          simp only [hfp, hd, if_true, Option.map_eq_some_iff] at ho
          obtain ⟨⟨d3, r⟩, h1, h2⟩ := ho
          simp only [Prod.mk.injEq] at h2
          obtain ⟨_, rfl⟩ := h2
          refine ⟨r, by simp, ?_⟩
          unfold rotNew at h1
          split at h1
          · simp only [Option.some.injEq, Prod.mk.injEq] at h1
            rw [← h1.2]
          · cases h1

theorem openDests_plain (as : List AppenderInit) (d : Disk) (ends : Nat → Nat) (st : Disk × List Dest) (h : openDests d ends as = some st)
    (hd : ∀ a ∈ as, a.daily = false) : ∀ x ∈ st.2, ∀ r, x ≠ .rotating r := by
  induction as generalizing d ends st with
  | nil =>
    simp only [openDests, Option.some.injEq] at h
    subst h
    simp
  | cons b as ih =>
    simp only [openDests] at h
    cases ho : openDest d (ends 0) b with
    | none => rw [ho] at h; cases h
    | some z =>
      obtain ⟨d1, x⟩ := z
      rw [ho] at h
      simp only at h
      cases hr : openDests d1 (fun i => ends (i + 1)) as with
      | none => rw [hr] at h; cases h
      | some z =>
        obtain ⟨d2, xs⟩ := z
        rw [hr] at h
        simp only [Option.some.injEq] at h
        subst h
        have ih' := ih d1 _ (d2, xs) hr (fun a ha => hd a (List.mem_cons_of_mem _ ha))
        intro y hy
        rcases List.mem_cons.mp hy with rfl | hy
        · intro r
          unfold openDest at ho
          split at ho
          · simp only [Option.some.injEq, Prod.mk.injEq] at ho
            rw [← ho.2]; simp
          · rw [hd b (List.mem_cons_self ..)] at ho
            simp only [Bool.false_eq_true, if_false, Option.some.injEq, Prod.mk.injEq] at ho
            rw [← ho.2]; simp
        · exact ih' y hy

/-! ## What a record is handed to -/

theorem handle_wanted {U : Unicode} (hU : LawfulUnicode U) (pathExists openOk : Str → Bool) (order : List Str → List Str)
    (horder : ∀ l, (order l).Perm l) (c c' : Config) (hslab : c.slab = []) (hfix : c.autofix pathExists = some c')
    (as : List AppenderInit) (has : c'.appenders openOk = some as) (k : Consumer) (l : Level)
    (hk : c'.startLogging U openOk order true = .value (k, l)) :
    k.appenders.length = as.length ∧ ∀ (item : Item) (bufs : List Bytes), bufs.length = k.renderers.length →
      (Deliverable as item → ∃ bufs' w, k.handle item bufs = some (bufs', w)) ∧
      (∀ bufs' w, k.handle item bufs = some (bufs', w) → bufs'.length = k.renderers.length ∧
        w.map (·.1) = wanted (as.map (·.appender)) item) := by
  have hne : as ≠ [] := by
    rintro rfl
    rw [(start_spec hU pathExists openOk order horder c c' hslab hfix true).2.1 [] has rfl] at hk
    cases hk
  obtain ⟨k', hk', hsound, happ, hnd, hmem⟩ := (start_spec hU pathExists openOk order horder c c' hslab hfix true).2.2.2 as has hne rfl
  rw [hk] at hk'
  simp only [Started.value.injEq, Prod.mk.injEq] at hk'
  obtain ⟨rfl, _⟩ := hk'
  have hcount := renderers_count as (appenders_renderer openOk c' as has) k.renderers hnd hmem hne
  refine ⟨by rw [happ]; simp, fun item bufs hb => ?_⟩
  rw [← happ]
  unfold Consumer.handle
  by_cases h1 : bufs.length = 1
  · rw [if_pos h1]
    obtain ⟨bufs', ws, e1, e2, e3, _⟩ := consume1_spec k hsound (by omega) item bufs h1
    refine ⟨fun _ => ⟨bufs', ws, e1⟩, fun b w hw => ?_⟩
    rw [e1] at hw
    simp only [Option.some.injEq, Prod.mk.injEq] at hw
    obtain ⟨rfl, rfl⟩ := hw
    exact ⟨by omega, e3⟩
  · rw [if_neg h1]
    obtain ⟨g1, g2⟩ := consume_spec k hsound item bufs hb
    by_cases hw : wanted k.appenders item = List.range (wanted k.appenders item).length
    · obtain ⟨bufs', ws, e1, e2, e3, _⟩ := g1 hw
      refine ⟨fun _ => ⟨bufs', ws, e1⟩, fun b w hw => ?_⟩
      rw [e1] at hw
      simp only [Option.some.injEq, Prod.mk.injEq] at hw
      obtain ⟨rfl, rfl⟩ := hw
      exact ⟨by omega, e3⟩
    · refine ⟨fun hd => ?_, fun b w h => ?_⟩
      · rcases hd with h | h | h
        · exact absurd (hcount.mpr (Or.inl h)) (by omega)
        · exact absurd (hcount.mpr (Or.inr h)) (by omega)
        · rw [happ] at hw; exact absurd h hw
      · rw [g2 hw] at h; cases h

theorem wanted_mem (as : List AppenderInit) (item : Item) (i : Nat) (a : AppenderInit) (ha : as[i]? = some a) (hw : a.Wants item = true) :
    i ∈ wanted (as.map (·.appender)) item := by
  unfold wanted
  refine List.mem_filter.mpr ⟨?_, ?_⟩
  · have := (List.getElem?_eq_some_iff.mp ha).1
    simpa using this
  · simpa [ha, AppenderInit.Wants, AppenderInit.appender] using hw

/-- What `Consumer.handleAt` does with a record that carries its time. -/
theorem handleAt_wanted {as : List AppenderInit} {k : Consumer}
    (hw : ∀ (item : Item) (bufs : List Bytes), bufs.length = k.renderers.length →
      (Deliverable as item → ∃ bufs' w, k.handle item bufs = some (bufs', w)) ∧
      (∀ bufs' w, k.handle item bufs = some (bufs', w) → bufs'.length = k.renderers.length ∧
        w.map (·.1) = wanted (as.map (·.appender)) item))
    (text : Option Bytes) (item : Item) (bufs : List Bytes) (hb : bufs.length = k.renderers.length) (ht : ∀ txt, text = some txt → item.time = txt) :
    (∀ bufs' w, k.handleAt text item bufs = .ok bufs' w → bufs'.length = k.renderers.length ∧
      w.map (·.1) = wanted (as.map (·.appender)) item) ∧
    (∀ txt, text = some txt → ∀ bufs' w, k.handleAt text item bufs = .ok bufs' w ↔ k.handle item bufs = some (bufs', w)) ∧
    (text ≠ none → k.handleAt text item bufs ≠ .panic) ∧
    (Deliverable as item → wanted (as.map (·.appender)) item ≠ [] → k.handleAt text item bufs = .panic ∨
      ∃ bufs' w, k.handleAt text item bufs = .ok bufs' w) ∧
    (Deliverable as item → wanted (as.map (·.appender)) item ≠ [] → text = none → k.handleAt text item bufs = .panic) := by
  cases text with
  | some txt =>
    have he : { item with time := txt } = item := by rw [← ht txt rfl]
    unfold Consumer.handleAt
    simp only [he]
    obtain ⟨g1, g2⟩ := hw item bufs hb
    cases hh : k.handle item bufs with
    | none =>
      refine ⟨by simp, by simp, by simp, fun hd _ => ?_, by simp⟩
      obtain ⟨b, w, e⟩ := g1 hd
      rw [hh] at e; cases e
    | some z =>
      obtain ⟨b, w⟩ := z
      refine ⟨?_, by simp, by simp, fun hd _ => .inr ⟨b, w, rfl⟩, by simp⟩
      rintro b' w' h
      simp only [Handled.ok.injEq] at h
      obtain ⟨rfl, rfl⟩ := h
      exact g2 b w hh
  | none =>
    unfold Consumer.handleAt
    simp only
    obtain ⟨g1, g2⟩ := hw { item with time := [] } bufs hb
    have hwe : wanted (as.map (·.appender)) { item with time := [] } = wanted (as.map (·.appender)) item := by
      unfold wanted
      congr 1
      funext i
      simp only [List.getElem?_map]
      cases as[i]? <;> rfl
    cases hh : k.handle { item with time := [] } bufs with
    | none =>
      have no : ¬ Deliverable as item := by
        intro hd
        obtain ⟨b, w, e⟩ := g1 (by
          rcases hd with h | h | h
          · exact .inl h
          · exact .inr (.inl h)
          · right; right; rw [hwe]; exact h)
        rw [hh] at e; cases e
      exact ⟨by simp, by simp, by simp, fun hd => absurd hd no, fun hd => absurd hd no⟩
    | some z =>
      obtain ⟨b, w⟩ := z
      obtain ⟨e1, e2⟩ := g2 b w hh
      rw [hwe] at e2
      cases w with
      | nil =>
        refine ⟨?_, by simp, by simp, fun _ hne => absurd e2.symm hne, fun _ hne => absurd e2.symm hne⟩
        rintro b' w' h
        simp only [Handled.ok.injEq] at h
        obtain ⟨rfl, rfl⟩ := h
        exact ⟨hb, e2⟩
      | cons x w => exact ⟨by simp, by simp, by simp, fun _ _ => .inl rfl, fun _ _ _ => rfl⟩

/-! ## A consumer that cannot but panic -/

/-- The consumer has a record in hand, and the work on it panics. -/
def Doomed (k : Consumer) (text : Nat → Option Bytes) (moments : Nat → Moment) (t : Nat) (item : Item) (s : Logger) : Prop :=
  s.sys.consumer = .writing t item ∧ ∀ clock, (∀ txt, text clock = some txt → item.time = txt) →
    k.handleAt (text clock) item s.bufs = .panic ∨
      ∃ bufs w, k.handleAt (text clock) item s.bufs = .ok bufs w ∧
        callDests s.dests (fun i => moments (s.used + i)) (callsOfWrites w) = .panic

theorem doomed_crash {k : Consumer} {text : Nat → Option Bytes} {moments : Nat → Moment} (enabled : Item → Bool) {t : Nat} {item : Item}
    {s : Logger} (h : Doomed k text moments t item s) (clock : Nat) (hc : ∀ txt, text clock = some txt → item.time = txt) :
    ∃ s', LoggerStep k text moments enabled s .crash s' :=
  ⟨_, .crash s t item clock _ h.1 hc (h.2 clock hc) (.crash _ t item h.1)⟩

theorem dead_step {k : Consumer} {text : Nat → Option Bytes} {moments : Nat → Moment} {enabled : Item → Bool} {s s' : Logger}
    {a : Log.Act Item} (hs : LoggerStep k text moments enabled s a s') (h : s.sys.consumer = .dead) :
    s'.sys.consumer = .dead ∧ a.ofConsumer = false := by
  have := hs.sys
  generalize s'.sys = l' at this ⊢
  cases this <;> simp_all [Log.Act.ofConsumer]

theorem doomed_step {k : Consumer} {text : Nat → Option Bytes} {moments : Nat → Moment} {enabled : Item → Bool} {t : Nat} {item : Item}
    {s s' : Logger} {a : Log.Act Item} (hs : LoggerStep k text moments enabled s a s') (h : Doomed k text moments t item s) :
    a.ofConsumer = false ∧ ((a ≠ .crash ∧ Doomed k text moments t item s') ∨ (a = .crash ∧ s'.sys.consumer = .dead)) := by
  obtain ⟨h1, h2⟩ := h
  cases hs with
  | other a l hl n1 n2 n3 =>
    refine ⟨?_, .inl ⟨n3, ?_, h2⟩⟩
    · cases hl <;> simp_all [Log.Act.ofConsumer]
    · simp only
      cases hl <;> simp_all
  | write t' item' clock bufs w dests l hl ht hh hc =>
    exfalso
    cases hl with
    | write _ _ g =>
      rw [h1] at g
      cases g
      rcases h2 clock ht with h | ⟨b, w', h, hp⟩
      · rw [h] at hh; cases hh
      · rw [h] at hh
        cases hh
        rw [hp] at hc; cases hc
  | flush dests l hl hc =>
    exfalso
    cases hl <;> simp_all
  | crash t' item' clock l g ht hh hl =>
    refine ⟨rfl, .inr ⟨rfl, ?_⟩⟩
    simp only
    cases hl <;> rfl

theorem doomed_run {k : Consumer} {text : Nat → Option Bytes} {moments : Nat → Moment} {enabled : Item → Bool} {t : Nat} {item : Item}
    {s s' : Logger} {tr : List (Log.Act Item)} (hr : LoggerRun k text moments enabled s tr s') (h : Doomed k text moments t item s) :
    (∀ a ∈ tr, a.ofConsumer = false) ∧ ((.crash ∉ tr ∧ Doomed k text moments t item s') ∨ (.crash ∈ tr ∧ s'.sys.consumer = .dead)) := by
  induction hr with
  | nil => exact ⟨by simp, .inl ⟨by simp, h⟩⟩
  | snoc _ hs ih =>
    obtain ⟨i1, i2 | i2⟩ := ih
    · obtain ⟨g1, g2 | g2⟩ := doomed_step hs i2.2
      · refine ⟨?_, .inl ⟨?_, g2.2⟩⟩
        · intro a ha
          rcases List.mem_append.mp ha with ha | ha
          · exact i1 a ha
          · simp only [List.mem_singleton] at ha; rw [ha]; exact g1
        · intro hm
          rcases List.mem_append.mp hm with hm | hm
          · exact i2.1 hm
          · simp only [List.mem_singleton] at hm; exact g2.1 hm.symm
      · refine ⟨?_, .inr ⟨by simp [g2.1], g2.2⟩⟩
        intro a ha
        rcases List.mem_append.mp ha with ha | ha
        · exact i1 a ha
        · simp only [List.mem_singleton] at ha; rw [ha]; exact g1
    · obtain ⟨g1, g2⟩ := dead_step hs i2.2
      refine ⟨?_, .inr ⟨List.mem_append_left _ i2.1, g1⟩⟩
      intro a ha
      rcases List.mem_append.mp ha with ha | ha
      · exact i1 a ha
      · simp only [List.mem_singleton] at ha; rw [ha]; exact g2

/-! ## Invariants of runs -/

theorem logger_inv {as : List AppenderInit} {k : Consumer}
    (hw : ∀ (item : Item) (bufs : List Bytes), bufs.length = k.renderers.length →
      (Deliverable as item → ∃ bufs' w, k.handle item bufs = some (bufs', w)) ∧
      (∀ bufs' w, k.handle item bufs = some (bufs', w) → bufs'.length = k.renderers.length ∧
        w.map (·.1) = wanted (as.map (·.appender)) item))
    {text : Nat → Option Bytes} {moments : Nat → Moment} {enabled : Item → Bool} {st : Disk × List Dest} {progs : Nat → List (Log.Call Item)}
    {tr : List (Log.Act Item)} {s : Logger} (h : LoggerRun k text moments enabled (loggerStart k st progs) tr s) :
    s.bufs.length = k.renderers.length ∧
    (∀ i e0, RotatesAt i (fun e => e = e0) st → RotatesAt i (fun e => e = e0 ∨ ∃ n, n < s.used ∧ (moments n).next = some e) s.dests) ∧
    ((∀ x ∈ st.2, ∀ r, x ≠ .rotating r) → ∀ x ∈ s.dests.2, ∀ r, x ≠ .rotating r) := by
  have calls : ∀ (cs : List (Nat × FileCall)) (n : Nat) (a b : Disk × List Dest), callDests a (fun i => moments (n + i)) cs = .value b →
      ∀ i e0, RotatesAt i (fun e => e = e0 ∨ ∃ m, m < n ∧ (moments m).next = some e) a →
        RotatesAt i (fun e => e = e0 ∨ ∃ m, m < n + cs.length ∧ (moments m).next = some e) b := by
    intro cs n a b hc i e0 hr
    refine callDests_at i cs _ _ a b _ hc hr ?_ ?_
    · rintro e (he | ⟨m, hm, he⟩)
      · exact .inl he
      · exact .inr ⟨m, by omega, he⟩
    · intro m hm e he
      exact .inr ⟨n + m, by omega, he⟩
  induction h with
  | nil =>
    refine ⟨by simp [loggerStart, Consumer.bufs], fun i e0 hr => ?_, fun h => h⟩
    obtain ⟨r, h1, h2⟩ := hr
    exact ⟨r, h1, .inl h2⟩
  | snoc _ hs ih =>
    obtain ⟨i1, i2, i3⟩ := ih
    cases hs with
    | other a l hl n1 n2 n3 => exact ⟨i1, i2, i3⟩
    | write t' item' clock bufs w dests l hl ht hh hc =>
      obtain ⟨g1, g2⟩ := (handleAt_wanted hw (text clock) item' _ i1 ht).1 _ _ hh
      refine ⟨g1, fun i e0 hr => ?_, fun hn => callDests_kind _ _ _ _ hc (i3 hn)⟩
      have := calls _ _ _ _ hc i e0 (i2 i e0 hr)
      simpa [callsOfWrites] using this
    | flush dests l hl hc =>
      refine ⟨i1, fun i e0 hr => ?_, fun hn => callDests_kind _ _ _ _ hc (i3 hn)⟩
      have := calls _ _ _ _ hc i e0 (i2 i e0 hr)
      simpa using this
    | crash t' item' clock l g ht hh hl => exact ⟨i1, i2, i3⟩

/-! ## The calls of a run -/

theorem callDests_cons (x : Nat × FileCall) (xs : List (Nat × FileCall)) (a a1 : Disk × List Dest) (moments : Nat → Moment)
    (h : callDest a (moments 0) x = .value a1) : callDests a moments (x :: xs) = callDests a1 (fun i => moments (i + 1)) xs := by
  rw [callDests, h]

theorem callDests_append (xs ys : List (Nat × FileCall)) (a b : Disk × List Dest) (moments : Nat → Moment)
    (h : callDests a moments xs = .value b) : callDests a moments (xs ++ ys) = callDests b (fun i => moments (xs.length + i)) ys := by
  induction xs generalizing a moments with
  | nil =>
    simp only [callDests, Outcome.value.injEq] at h
    subst h
    simp
  | cons x xs ih =>
    cases hc : callDest a (moments 0) x with
    | value a1 =>
      rw [callDests_cons x xs a a1 moments hc] at h
      rw [List.cons_append, callDests_cons x _ a a1 moments hc, ih a1 _ h]
      congr 1
      funext i
      simp only [List.length_cons]
      congr 1
      omega
    | error => rw [callDests, hc] at h; cases h
    | panic => rw [callDests, hc] at h; cases h

theorem logger_calls {k : Consumer} {text : Nat → Option Bytes} (hgood : ∀ clock, text clock ≠ none) {moments : Nat → Moment}
    {enabled : Item → Bool} {st : Disk × List Dest} {progs : Nat → List (Log.Call Item)}
    {tr : List (Log.Act Item)} {s : Logger} (h : LoggerRun k text moments enabled (loggerStart k st progs) tr s) :
    ∃ calls, calls.length = s.used ∧ callDests st moments calls = .value s.dests ∧
      ∀ tr', k.calls (tr ++ tr') k.bufs = (k.calls tr' s.bufs).map (calls ++ ·) := by
  induction h with
  | nil => exact ⟨[], rfl, rfl, fun tr' => by simp [loggerStart]⟩
  | @snoc tr t u a _ hs ih =>
    obtain ⟨calls, i1, i2, i3⟩ := ih
    cases hs with
    | other _ l hl n1 n2 n3 =>
      refine ⟨calls, i1, i2, fun tr' => ?_⟩
      rw [List.append_assoc, i3]
      cases a with
      | write t r => exact absurd rfl (n1 t r)
      | flush => exact absurd rfl n2
      | _ => rfl
    | write t' item' clock bufs w dests l hl ht hh hc =>
      refine ⟨calls ++ callsOfWrites w, by simp [i1, callsOfWrites], ?_, fun tr' => ?_⟩
      · rw [callDests_append _ _ _ _ _ i2, i1]; exact hc
      · rw [List.append_assoc, i3]
        obtain ⟨txt, hx⟩ := Option.ne_none_iff_exists'.mp (hgood clock)
        have he : { item' with time := txt } = item' := by rw [← ht txt hx]
        unfold Consumer.handleAt at hh
        rw [hx] at hh
        simp only [he] at hh
        simp only [List.singleton_append, Consumer.calls]
        cases hq : k.handle item' _ with
        | none => rw [hq] at hh; cases hh
        | some q =>
          obtain ⟨b, w'⟩ := q
          rw [hq] at hh
          simp only [Handled.ok.injEq] at hh
          obtain ⟨rfl, rfl⟩ := hh
          simp only [callsOfWrites, Option.map_map]
          congr 1
          funext y
          simp
    | flush dests l hl hc =>
      refine ⟨calls ++ (List.range k.appenders.length).map (fun i => (i, .flush)), by simp [i1], ?_, fun tr' => ?_⟩
      · rw [callDests_append _ _ _ _ _ i2, i1]; exact hc
      · rw [List.append_assoc, i3]
        simp only [List.singleton_append, Consumer.calls, Option.map_map]
        congr 1
        funext y
        simp
    | crash t' item' clock l g ht hh hl =>
      refine ⟨calls, i1, i2, fun tr' => ?_⟩
      rw [List.append_assoc, i3]
      rfl

/-! ## C177 -/

/-- **C177**, violated: the local day that follows a rotation need not have a midnight (in some zones clocks are set forward or back at midnight: then
there is none, or there are two). `later n` is the time whose day is looked at in call `n`. The consumer has a record in hand that a daily
file wants; the file is due (the end of the day of its opening, and those computed since, are past). Then all the consumer can do is to panic: it
does not get to another write, flush or signal, whatever the other threads do, and it can panic at once. -/
theorem C177_midnight_violated {U : Unicode} (hU : LawfulUnicode U) (pathExists openOk : Str → Bool) (order : List Str → List Str)
    (horder : ∀ l, (order l).Perm l) (c c' : Config) (hslab : c.slab = []) (hfix : c.autofix pathExists = some c')
    (as : List AppenderInit) (has : c'.appenders openOk = some as) (k : Consumer) (l : Level)
    (hk : c'.startLogging U openOk order true = .value (k, l)) (x : Specifiers)
    (d : Disk) (ends : Nat → Nat) (st : Disk × List Dest) (hopen : openDests d ends as = some st) (moments : Nat → Moment)
    (progs : Nat → List (Log.Call Item)) (tr : List (Log.Act Item)) (s : Logger)
    (h : LoggerRun k (c'.timeText x) moments (passes l) (loggerStart k st progs) tr s)
    (t : Nat) (item : Item) (hhand : s.sys.consumer = .writing t item) (hd : Deliverable as item)
    (clock : Nat) (hclock : ∀ txt, c'.timeText x clock = some txt → item.time = txt)
    (i : Nat) (a : AppenderInit) (ha : as[i]? = some a) (hfile : a.path ≠ none) (hdaily : a.daily = true) (hwant : a.Wants item = true)
    (z : Zone) (later : Nat → Int)
    (hnext : ∀ n, s.used ≤ n → n < s.used + as.length → (moments n).next = endOf z dayMs (later n))
    (hz : ∀ n, s.used ≤ n → n < s.used + as.length → ∀ u, z.fromLocal (z.localTime (later n) / dayMs * dayMs) ≠ .single u)
    (hdue : ∀ n, s.used ≤ n → n < s.used + as.length →
      ends i ≤ (moments n).now ∧ ∀ m, m < s.used → ∀ e, (moments m).next = some e → e ≤ (moments n).now) :
    (∃ s', LoggerStep k (c'.timeText x) moments (passes l) s .crash s') ∧
    ∀ tr' s', LoggerRun k (c'.timeText x) moments (passes l) s tr' s' → (∀ b ∈ tr', b.ofConsumer = false) ∧
      (.crash ∈ tr' ∨ s'.sys.consumer = .writing t item) := by
  obtain ⟨_, hw⟩ := handle_wanted hU pathExists openOk order horder c c' hslab hfix as has k l hk
  obtain ⟨j1, j2, _⟩ := logger_inv hw h
  have hr := j2 i (ends i) (openDests_at as d ends st hopen i a ha hfile hdaily)
  have hmem := wanted_mem as item i a ha hwant
  have hdoom : Doomed k (c'.timeText x) moments t item s := by
    refine ⟨hhand, fun clk hc => ?_⟩
    obtain ⟨g1, _, _, g4, _⟩ := handleAt_wanted hw (c'.timeText x clk) item s.bufs j1 hc
    rcases g4 hd (List.ne_nil_of_mem hmem) with g | ⟨bufs', w, g⟩
    · exact .inl g
    · refine .inr ⟨bufs', w, g, ?_⟩
      obtain ⟨_, g2⟩ := g1 bufs' w g
      have hlen : w.length ≤ as.length := by
        have : w.length = (wanted (as.map (·.appender)) item).length := by rw [← g2]; simp
        rw [this]
        unfold wanted
        exact Nat.le_trans (List.length_filter_le _ _) (by simp)
      rw [← g2] at hmem
      obtain ⟨y, hy, hyi⟩ := List.mem_map.mp hmem
      refine callDests_panic i _ _ _ y.2 (List.mem_map.mpr ⟨y, hy, by rw [hyi]⟩) ?_ ?_
      · intro n hn
        have hn' : n < w.length := by simpa [callsOfWrites] using hn
        rw [hnext (s.used + n) (by omega) (by omega)]
        unfold endOf
        have := hz (s.used + n) (by omega) (by omega)
        generalize z.fromLocal _ = q at this
        cases q with
        | single u => exact absurd rfl (this u)
        | _ => rfl
      · obtain ⟨r, q1, q2⟩ := hr
        refine ⟨r, q1, fun n hn => ?_⟩
        have hn' : n < w.length := by simpa [callsOfWrites] using hn
        obtain ⟨e1, e2⟩ := hdue (s.used + n) (by omega) (by omega)
        rcases q2 with q2 | ⟨m, hm, q2⟩
        · rw [q2]; exact e1
        · exact e2 m hm _ q2
  refine ⟨doomed_crash _ hdoom clock hclock, fun tr' s' hr' => ?_⟩
  obtain ⟨f1, f2⟩ := doomed_run hr' hdoom
  exact ⟨f1, f2.elim (fun f => .inr f.2.1) (fun f => .inl f.1)⟩

/-- **C177**, violated: with a layout of times that cannot be used (it is accepted, C153) the same holds of the first record that an appender
wants. -/
theorem C177_layout_violated {U : Unicode} (hU : LawfulUnicode U) (pathExists openOk : Str → Bool) (order : List Str → List Str)
    (horder : ∀ l, (order l).Perm l) (c c' : Config) (hslab : c.slab = []) (hfix : c.autofix pathExists = some c')
    (as : List AppenderInit) (has : c'.appenders openOk = some as) (k : Consumer) (l : Level)
    (hk : c'.startLogging U openOk order true = .value (k, l)) (x : Specifiers) (hbad : ∀ clock, c'.timeText x clock = none)
    (st : Disk × List Dest) (moments : Nat → Moment) (progs : Nat → List (Log.Call Item)) (tr : List (Log.Act Item)) (s : Logger)
    (h : LoggerRun k (c'.timeText x) moments (passes l) (loggerStart k st progs) tr s)
    (t : Nat) (item : Item) (hhand : s.sys.consumer = .writing t item) (hd : Deliverable as item)
    (i : Nat) (a : AppenderInit) (ha : as[i]? = some a) (hwant : a.Wants item = true) :
    (∃ s', LoggerStep k (c'.timeText x) moments (passes l) s .crash s') ∧
    ∀ tr' s', LoggerRun k (c'.timeText x) moments (passes l) s tr' s' → (∀ b ∈ tr', b.ofConsumer = false) ∧
      (.crash ∈ tr' ∨ s'.sys.consumer = .writing t item) := by
  obtain ⟨_, hw⟩ := handle_wanted hU pathExists openOk order horder c c' hslab hfix as has k l hk
  obtain ⟨j1, _, _⟩ := logger_inv hw h
  have hmem := wanted_mem as item i a ha hwant
  have hdoom : Doomed k (c'.timeText x) moments t item s := by
    refine ⟨hhand, fun clk hc => .inl ?_⟩
    exact (handleAt_wanted hw (c'.timeText x clk) item s.bufs j1 hc).2.2.2.2 hd (List.ne_nil_of_mem hmem) (hbad clk)
  refine ⟨doomed_crash _ hdoom 0 (fun txt ht => by rw [hbad] at ht; cases ht), fun tr' s' hr' => ?_⟩
  obtain ⟨f1, f2⟩ := doomed_run hr' hdoom
  exact ⟨f1, f2.elim (fun f => .inr f.2.1) (fun f => .inl f.1)⟩

/-- **C177**, violated: once it has happened, a connection of the hello-world service that is made afterwards gets not a single byte (with the
default level). -/
theorem C177_silence_violated {K : Type} (cd : Codec K) (lim : HttpLimits) (env : Nat → Env K) (lg : LogEnv K) (idx : Nat)
    (ord : Nat → List Pair → List Pair) (hl : ∀ i, lg.service i = helloLog idx lg.addr (ord i)) (r : Reader)
    (k : Consumer) (text : Nat → Option Bytes) (moments : Nat → Moment) (st : Disk × List Dest) (progs : Nat → List (Log.Call Item))
    (tr tr' : List (Log.Act Item)) (s s' : Logger) (u : Nat)
    (h : LoggerRun k text moments (passes .trace) (loggerStart k st progs) tr s) (hcrash : Log.Act.crash ∈ tr)
    (hu : Log.Spec.byThread u (Log.Spec.sends tr) = []) (h' : LoggerRun k text moments (passes .trace) s tr' s') (p : List ConnAct)
    (hp : GotTo .trace (serveActs cd lim env lg r) p (Log.Spec.byThread u (Log.Spec.sends (tr ++ tr'))).length) : answered p = [] :=
  (C174_dead_violated cd lim env lg idx ord hl r progs tr tr' s.sys s'.sys u h.sys hcrash h'.sys p hp).2 hu

/-- **C177**, what holds: if the layout of times can be used, and there is no daily file or every day looked at has exactly one midnight, then the
consumer does not panic, and no call of the logger does; and the calls of appenders are those of C173, so the files are what it says.
A record in hand that can be delivered (C61) can be written. -/
theorem C177_quiet_partial {U : Unicode} (hU : LawfulUnicode U) (pathExists openOk : Str → Bool) (order : List Str → List Str)
    (horder : ∀ l, (order l).Perm l) (c c' : Config) (hslab : c.slab = []) (hfix : c.autofix pathExists = some c')
    (as : List AppenderInit) (has : c'.appenders openOk = some as) (k : Consumer) (l : Level)
    (hk : c'.startLogging U openOk order true = .value (k, l)) (x : Specifiers) (hgood : ∃ clock, (c'.timeText x clock).isSome)
    (d : Disk) (ends : Nat → Nat) (st : Disk × List Dest) (hopen : openDests d ends as = some st) (moments : Nat → Moment)
    (hdays : (∀ a ∈ as, a.daily = false) ∨ ∃ (z : Zone) (later : Nat → Int), ∀ n, (moments n).next = endOf z dayMs (later n) ∧
      ∃ u, z.fromLocal (z.localTime (later n) / dayMs * dayMs) = .single u ∧ 0 ≤ u + dayMs)
    (progs : Nat → List (Log.Call Item)) (tr : List (Log.Act Item)) (s : Logger)
    (h : LoggerRun k (c'.timeText x) moments (passes l) (loggerStart k st progs) tr s) :
    .crash ∉ tr ∧ (∀ t, .panic t ∉ tr) ∧
    (∃ calls, k.calls tr k.bufs = some calls ∧ callDests st moments calls = .value s.dests) ∧
    ∀ t item clock, s.sys.consumer = .writing t item → Deliverable as item → c'.timeText x clock = some item.time →
      ∃ s', LoggerStep k (c'.timeText x) moments (passes l) s (.write t item) s' := by
  obtain ⟨_, hw⟩ := handle_wanted hU pathExists openOk order horder c c' hslab hfix as has k l hk
  have htext : ∀ clock, c'.timeText x clock ≠ none := by
    intro clock
    have := ((C153_usable_partial x c').1 hgood clock).1
    intro h0; rw [h0] at this; cases this
  have hm : (∀ n, (moments n).next ≠ none) ∨ ∀ y ∈ st.2, ∀ r, y ≠ .rotating r := by
    rcases hdays with hdays | ⟨z, later, hdays⟩
    · exact .inr (openDests_plain as d ends st hopen hdays)
    · left
      intro n
      obtain ⟨e1, u, e2, e3⟩ := hdays n
      rw [e1]
      unfold endOf
      rw [e2]
      simp only [if_pos e3]
      simp
  have works : ∀ (tr : List (Log.Act Item)) (s : Logger), LoggerRun k (c'.timeText x) moments (passes l) (loggerStart k st progs) tr s →
      ∀ calls, ∃ y, callDests s.dests (fun i => moments (s.used + i)) calls = .value y := by
    intro tr s h calls
    refine callDests_value calls _ _ ?_
    rcases hm with hm | hm
    · exact .inl (fun n => hm _)
    · exact .inr (.inr ((logger_inv hw h).2.2 hm))
  have hcrash : .crash ∉ tr := by
    induction h with
    | nil => simp
    | snoc hr hs ih =>
      intro hmem
      rcases List.mem_append.mp hmem with hmem | hmem
      · exact ih hmem
      · simp only [List.mem_singleton] at hmem
        subst hmem
        cases hs with
        | other a l hl n1 n2 n3 => exact n3 rfl
        | crash t' item' clock l g ht hh hl =>
          obtain ⟨j1, _, _⟩ := logger_inv hw hr
          obtain ⟨_, _, g3, _⟩ := handleAt_wanted hw (c'.timeText x clock) item' _ j1 ht
          rcases hh with hh | ⟨bufs, w, hh, hp⟩
          · exact g3 (htext clock) hh
          · obtain ⟨y, hy⟩ := works _ _ hr (callsOfWrites w)
            rw [hp] at hy; cases hy
  refine ⟨hcrash, Log.C93_quiet_partial _ progs tr s.sys h.sys hcrash, ?_, ?_⟩
  · obtain ⟨calls, _, c2, c3⟩ := logger_calls htext h
    refine ⟨calls, ?_, c2⟩
    have := c3 []
    simpa [Consumer.calls] using this
  · intro t item clock hhand hd hclock
    obtain ⟨j1, _, _⟩ := logger_inv hw h
    have ht : ∀ txt, c'.timeText x clock = some txt → item.time = txt := by
      intro txt e; rw [hclock] at e; cases e; rfl
    obtain ⟨b, w, e⟩ := (hw item s.bufs j1).1 hd
    have e' := ((handleAt_wanted hw (c'.timeText x clock) item s.bufs j1 ht).2.1 _ hclock b w).mpr e
    obtain ⟨y, hy⟩ := works tr s h (callsOfWrites w)
    exact ⟨_, .write s t item clock b w y _ (.write _ t item hhand) ht e' hy⟩

/-! ## Cases meeting the hypotheses -/

/-- The clock is set forward by an hour at the end of the first day: the second day begins at one o'clock. -/
def gapZone : Zone :=
  ⟨fun t => if t < 86400000 then 0 else 3600000,
    fun t => if t < 86400000 then .single t else if t < 90000000 then .none else .single (t - 3600000)⟩

/-- The second day, at two o'clock. -/
def secondDay (_ : Nat) : Moment := ⟨90000000, u!".19700102", fun _ => u!"7", fun _ => true, true, endOf gapZone dayMs 90000000⟩

example : endOf gapZone dayMs 90000000 = none ∧ endOf gapZone dayMs 80000000 = some 86400000 ∧
    ∀ u, gapZone.fromLocal (gapZone.localTime 90000000 / dayMs * dayMs) ≠ .single u := by
  refine ⟨by decide +kernel, by decide +kernel, ?_⟩
  have : gapZone.fromLocal (gapZone.localTime 90000000 / dayMs * dayMs) = .none := by decide +kernel
  rw [this]
  intro u h; cases h

/-- The configuration `dailyFiles` with its defaults. -/
def dailyFixed : Config := (dailyFiles.autofix (fun _ => true)).get (by decide +kernel)

/-- The log with a daily file, opened on the first day; the first record of the second day ends it. -/
example (x : Specifiers) (item : Item) (hi : item.service = 1 ∧ item.level = .trace)
    (ht : ∀ txt, dailyFixed.timeText x 90000000 = some txt → item.time = txt) : ∃ k l st s s',
    dailyFixed.startLogging asciiOnly (fun _ => true) id true = .value (k, l) ∧
    openDests emptyDisk (fun _ => 86400000) dailyAppenders = some st ∧
    LoggerRun k (dailyFixed.timeText x) secondDay (passes l) (loggerStart k st (fun t => if t = 0 then [.log item] else []))
      [.send 0 item, .recv] s ∧
    LoggerStep k (dailyFixed.timeText x) secondDay (passes l) s .crash s' := by
  have happ : dailyFixed.appenders (fun _ => true) = some dailyAppenders := by decide +kernel
  have hfix : dailyFiles.autofix (fun _ => true) = some dailyFixed := by simp [dailyFixed]
  obtain ⟨k, hk, _⟩ := (start_spec asciiOnly_lawful (fun _ => true) (fun _ => true) id (fun _ => .refl _) dailyFiles dailyFixed
    (by decide +kernel) hfix true).2.2.2 dailyAppenders happ (by decide) rfl
  have hlev : loggerLevel dailyFixed.loglevel = .trace := by decide +kernel
  rw [hlev] at hk
  obtain ⟨st, hst⟩ := Option.isSome_iff_exists.mp (show (openDests emptyDisk (fun _ => 86400000) dailyAppenders).isSome by decide +kernel)
  have hp : passes .trace item = true := by simp [passes, hi.2]
  have hrun : ∃ s : Logger, LoggerRun k (dailyFixed.timeText x) secondDay (passes .trace)
      (loggerStart k st (fun t => if t = 0 then [.log item] else [])) [.send 0 item, .recv] s ∧ s.sys.consumer = .writing 0 item ∧ s.used = 0 :=
    ⟨_, .snoc (.snoc .nil (.other _ _ _ (.send _ 0 item [] rfl rfl rfl hp (by simp [loggerStart, Log.start])) (by simp) (by simp) (by simp)))
      (.other _ _ _ (.recvItem _ 0 item [] rfl rfl) (by simp) (by simp) (by simp)), rfl, rfl⟩
  obtain ⟨s, hrun, hhand, hused⟩ := hrun
  have hz : ∀ u, gapZone.fromLocal (gapZone.localTime 90000000 / dayMs * dayMs) ≠ .single u := by
    have : gapZone.fromLocal (gapZone.localTime 90000000 / dayMs * dayMs) = .none := by decide +kernel
    rw [this]
    intro u h; cases h
  obtain ⟨⟨s', hs'⟩, _⟩ := C177_midnight_violated asciiOnly_lawful (fun _ => true) (fun _ => true) id (fun _ => .refl _) dailyFiles dailyFixed
    (by decide +kernel) hfix dailyAppenders happ k .trace hk x emptyDisk (fun _ => 86400000) st hst secondDay _ _ s hrun 0 item hhand
    (.inr (.inl (by decide))) 90000000 ht 1 ⟨1, u!"json", ⟨.trace, false⟩, some u!"./logs//web/TRACE.log", true, 0⟩ rfl (by simp) rfl
    (by simp [AppenderInit.Wants, hi.1, hi.2]; decide) gapZone (fun _ => 90000000) (fun _ _ _ => rfl) (fun _ _ _ => hz)
    (fun n _ _ => ⟨(by decide : 86400000 ≤ 90000000), fun m hm => by omega⟩)
  exact ⟨k, .trace, st, s, s', hk, hst, hrun, hs'⟩

/-- The same a day later, when days have midnights: nothing panics. -/
example : (∃ clock, (dailyFixed.timeText (fun _ => none) clock).isSome) ∧
    endOf gapZone dayMs 180000000 = some 255600000 ∧
    gapZone.fromLocal (gapZone.localTime 180000000 / dayMs * dayMs) = .single 169200000 :=
  ⟨⟨0, by decide +kernel⟩, by decide +kernel, by decide +kernel⟩

/-- A layout that cannot be used. -/
example : ∀ clock, (dailyFixed.withLayout u!"100%").timeText (fun _ => none) clock = none := by
  intro clock
  exact (C153_accepted_violated (fun _ => none) asciiOnly (fun _ => true) id true dailyFixed u!"100%").2.1 u!"100" [] (by decide)
    (by unfold NoSpecifier; simp) rfl clock

end Httpd
