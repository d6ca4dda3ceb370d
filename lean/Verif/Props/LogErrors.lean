import Verif.Model.LogErrors
import Verif.Props.LogRun
import Verif.Props.Rotation
import Verif.Props.DiskErrors
/-!
# C228: failures of the log are reported, and the log goes on
-/

namespace Httpd

open Spec

/-- The reports of a run of calls when standard error can be written. -/
def reports (st : Disk × List Dest) (moments : Nat → Moment) (con : Nat → Bool) (calls : List (Nat × FileCall)) : List Report :=
  (callLoud st moments con (fun _ => true) calls).2

theorem all_true (n : Nat) : (List.range n).all (fun _ => true) = true := by simp

theorem loud_fst (calls : List (Nat × FileCall)) (st : Disk × List Dest) (moments : Nat → Moment) (con : Nat → Bool) :
    (callLoud st moments con (fun _ => true) calls).1 = callDests st moments calls := by
  induction calls generalizing st moments con with
  | nil => rfl
  | cons call calls ih =>
    unfold callLoud callDests
    cases h : callDest st (moments 0) call with
    | value st' =>
      simp only [all_true, ↓reduceIte]
      exact ih _ _ _
    | error => rfl
    | panic => rfl

theorem reports_cons (call : Nat × FileCall) (calls : List (Nat × FileCall)) (st st' : Disk × List Dest) (moments : Nat → Moment)
    (con : Nat → Bool) (h : callDest st (moments 0) call = .value st') :
    reports st moments con (call :: calls) = saysOf st (moments 0) (con 0) call ++ reports st' (fun i => moments (i + 1)) (fun i => con (i + 1)) calls := by
  unfold reports
  rw [callLoud, h]
  simp only [all_true, ↓reduceIte]

theorem loud_ok (calls : List (Nat × FileCall)) (st : Disk × List Dest) (moments : Nat → Moment) (con err : Nat → Bool)
    (h : ∀ i, i < (reports st moments con calls).length → err i = true) :
    callLoud st moments con err calls = (callDests st moments calls, reports st moments con calls) := by
  induction calls generalizing st moments con err with
  | nil => rfl
  | cons call calls ih =>
    cases hc : callDest st (moments 0) call with
    | value st' =>
      rw [reports_cons call calls st st' moments con hc] at h ⊢
      rw [callLoud, callDests, hc]
      have h1 : (List.range (saysOf st (moments 0) (con 0) call).length).all err = true := by
        rw [List.all_eq_true]
        intro i hi
        exact h i (by rw [List.length_append]; have := List.mem_range.mp hi; omega)
      simp only [h1, ↓reduceIte]
      rw [ih st' _ _ _ (fun i hi => h _ (by rw [List.length_append]; omega))]
    | error => unfold reports; rw [callLoud, callLoud, callDests, hc]
    | panic => unfold reports; rw [callLoud, callLoud, callDests, hc]

theorem takeWhile_range (err : Nat → Bool) (n k : Nat) (hk : k < n) (hbad : err k = false) (hgood : ∀ i, i < k → err i = true) :
    ((List.range n).takeWhile err).length = k := by
  obtain ⟨m, rfl⟩ : ∃ m, n = k + (m + 1) := ⟨n - k - 1, by omega⟩
  have h1 : ∀ x ∈ List.range k, err x = true := fun x hx => hgood x (List.mem_range.mp hx)
  rw [List.range_add, List.takeWhile_append_of_pos h1, List.range_succ_eq_map, List.map_cons, List.takeWhile_cons]
  simp [hbad]

theorem loud_bad (calls : List (Nat × FileCall)) (st : Disk × List Dest) (moments : Nat → Moment) (con err : Nat → Bool) (k : Nat)
    (hk : k < (reports st moments con calls).length) (hbad : err k = false) (hgood : ∀ i, i < k → err i = true) :
    callLoud st moments con err calls = (.panic, (reports st moments con calls).take k) := by
  induction calls generalizing st moments con err k with
  | nil => exact absurd hk (by simp [reports, callLoud])
  | cons call calls ih =>
    cases hc : callDest st (moments 0) call with
    | value st' =>
      rw [reports_cons call calls st st' moments con hc] at hk ⊢
      rw [callLoud, hc]
      simp only
      by_cases hl : k < (saysOf st (moments 0) (con 0) call).length
      · have h1 : (List.range (saysOf st (moments 0) (con 0) call).length).all err = false := by
          rw [List.all_eq_false]
          exact ⟨k, List.mem_range.mpr hl, by simp [hbad]⟩
        simp only [h1, Bool.false_eq_true, ↓reduceIte]
        rw [takeWhile_range err _ k hl hbad hgood, List.take_append_of_le_length (by omega)]
      · have h1 : (List.range (saysOf st (moments 0) (con 0) call).length).all err = true := by
          rw [List.all_eq_true]
          intro i hi
          exact hgood i (by have := List.mem_range.mp hi; omega)
        simp only [h1, ↓reduceIte]
        rw [List.length_append] at hk
        rw [ih st' _ _ (fun i => err ((saysOf st (moments 0) (con 0) call).length + i)) (k - (saysOf st (moments 0) (con 0) call).length) (by omega)
          (by rw [show (saysOf st (moments 0) (con 0) call).length + (k - (saysOf st (moments 0) (con 0) call).length) = k by omega]; exact hbad)
          (fun i hi => hgood _ (by omega))]
        simp only [Prod.mk.injEq, true_and]
        rw [List.take_append, List.take_of_length_le (l := saysOf st (moments 0) (con 0) call) (by omega)]
    | error => exact absurd hk (by simp [reports, callLoud, hc])
    | panic => exact absurd hk (by simp [reports, callLoud, hc])

/-- **C228**, what holds: if standard error can be written whenever there is something to report, then the calls of appenders do exactly what
they do without reports: no failure of one of them keeps a later one from being made. -/
theorem C228_goes_on_partial (calls : List (Nat × FileCall)) (st : Disk × List Dest) (moments : Nat → Moment) (con err : Nat → Bool)
    (h : ∀ i, i < (reports st moments con calls).length → err i = true) :
    callLoud st moments con err calls = (callDests st moments calls, reports st moments con calls) := loud_ok calls st moments con err h

/-- **C228**, negation for the code as written: the first report that cannot be written ends the thread. What was reported before it is all that
is said, and none of the calls that come after it is made. -/
theorem C228_unheard_violated (calls : List (Nat × FileCall)) (st : Disk × List Dest) (moments : Nat → Moment) (con err : Nat → Bool) (k : Nat)
    (hk : k < (reports st moments con calls).length) (hbad : err k = false) (hgood : ∀ i, i < k → err i = true) :
    callLoud st moments con err calls = (.panic, (reports st moments con calls).take k) := loud_bad calls st moments con err k hk hbad hgood

/-- **C228**, both: besides the panics of the appenders themselves (C177) there are exactly those of reports that cannot be written. -/
theorem C228_exactly_partial (calls : List (Nat × FileCall)) (st : Disk × List Dest) (moments : Nat → Moment) (con err : Nat → Bool) :
    (callLoud st moments con err calls).1 = .panic ↔
      callDests st moments calls = .panic ∨ ∃ k, k < (reports st moments con calls).length ∧ err k = false := by
  by_cases h : ∀ i, i < (reports st moments con calls).length → err i = true
  · rw [loud_ok calls st moments con err h]
    constructor
    · exact .inl
    · rintro (h1 | ⟨k, h1, h2⟩)
      · exact h1
      · rw [h k h1] at h2; cases h2
  · -- the first bad one
    have : ∃ k, k < (reports st moments con calls).length ∧ err k = false ∧ ∀ i, i < k → err i = true := by
      have hex : ∃ k, k < (reports st moments con calls).length ∧ err k = false := by
        apply Classical.byContradiction
        intro hn
        refine h (fun i hi => ?_)
        cases he : err i with
        | true => rfl
        | false => exact absurd ⟨i, hi, he⟩ hn
      obtain ⟨k, h1, h2⟩ := hex
      induction k using Nat.strongRecOn with
      | ind k ih =>
        by_cases hk : ∀ i, i < k → err i = true
        · exact ⟨k, h1, h2, hk⟩
        · obtain ⟨i, hi⟩ := Classical.not_forall.mp hk
          have hik : i < k ∧ ¬ err i = true := Classical.not_imp.mp hi
          exact ih i hik.1 (by omega) (by simpa using hik.2)
    obtain ⟨k, h1, h2, h3⟩ := this
    rw [loud_bad calls st moments con err k h1 h2 h3]
    simp only [true_iff]
    exact .inr ⟨k, h1, h2⟩

/-! ## What is reported -/

/-- Which of the calls return an `Err`; nothing after a panic. -/
def failures (st : Disk × List Dest) (moments : Nat → Moment) (con : Nat → Bool) : List (Nat × FileCall) → List (Nat × FileCall)
  | [] => []
  | call :: calls =>
    match callDest st (moments 0) call with
    | .value st' =>
      (match st.2[call.1]? with
        | some x => if x.callOk st.1 (moments 0) (con 0) call.2 then [] else [call]
        | none => []) ++ failures st' (fun i => moments (i + 1)) (fun i => con (i + 1)) calls
    | _ => []

/-- Is this a report of the consumer? -/
def Report.ofCall : Report → Bool
  | .write | .flush => true
  | _ => false

/-- What the consumer says about a failed call. -/
def FileCall.complaint : FileCall → Report
  | .write _ => .write
  | .flush => .flush

theorem rotateSays_none (d : Disk) (r : Rotator) (m : Moment) : (rotateSays d r m).filter Report.ofCall = [] := by
  unfold rotateSays
  split
  · rfl
  · split
    · rfl
    · split <;> rfl

/-- **C228** There is one report of the consumer for each call that fails, in the order of the calls: of a failed write for a write, of a failed
flush for a flush. -/
theorem C228_one_each_partial (calls : List (Nat × FileCall)) (st : Disk × List Dest) (moments : Nat → Moment) (con : Nat → Bool) :
    (reports st moments con calls).filter Report.ofCall = (failures st moments con calls).map (fun c => c.2.complaint) := by
  induction calls generalizing st moments con with
  | nil => rfl
  | cons call calls ih =>
    cases hc : callDest st (moments 0) call with
    | value st' =>
      rw [reports_cons call calls st st' moments con hc, failures, hc]
      simp only [List.filter_append, List.map_append, ih]
      congr 1
      unfold saysOf
      cases hx : st.2[call.1]? with
      | none => rfl
      | some x =>
        simp only [Dest.says, List.filter_append]
        clear hx
        generalize hz : List.filter Report.ofCall (match x, call.2 with
            | .rotating r, .write b => rotateSays (fileAppend st.1 r.inner b).1 { r with inner := (fileAppend st.1 r.inner b).2.1 } (moments 0)
            | _, _ => []) = z
        have h1 : z = [] := by
          rw [← hz]
          cases x <;> cases call.2 <;> first | rfl | exact rotateSays_none _ _ _
        rw [h1, List.nil_append]
        by_cases hok : x.callOk st.1 (moments 0) (con 0) call.2 = true
        · rw [if_pos hok, if_pos hok]; rfl
        · rw [if_neg hok, if_neg hok]
          cases hcall : call.2 <;> simp [Report.ofCall, FileCall.complaint, hcall]
    | error => simp [reports, callLoud, failures, hc]
    | panic => simp [reports, callLoud, failures, hc]

/-- **C228**, what holds: without files that rotate, if no write of the system fails and the consoles can be written, there is nothing to report;
so standard error does not matter. -/
theorem C228_silent_partial (calls : List (Nat × FileCall)) (st : Disk × List Dest) (moments : Nat → Moment) (con err : Nat → Bool)
    (hplain : ∀ x ∈ st.2, ∀ r, x ≠ .rotating r) (hok : NoFail st.1) (hcon : ∀ i, con i = true) :
    callLoud st moments con err calls = (callDests st moments calls, []) := by
  have key : reports st moments con calls = [] := by
    induction calls generalizing st moments con with
    | nil => rfl
    | cons call calls ih =>
      cases hc : callDest st (moments 0) call with
      | value st' =>
        rw [reports_cons call calls st st' moments con hc]
        have hkind := callDest_kind st st' (moments 0) call hc hplain
        have h1 : saysOf st (moments 0) (con 0) call = [] ∧ NoFail st'.1 := by
          unfold callDest at hc
          unfold saysOf
          cases hx : st.2[call.1]? with
          | none => rw [hx] at hc; cases hc; exact ⟨rfl, hok⟩
          | some x =>
            rw [hx] at hc
            have hnr := hplain x (List.mem_of_getElem? hx)
            cases x with
            | console =>
              simp only [Dest.call, Outcome.value.injEq] at hc
              subst hc
              simp [Dest.says, Dest.callOk, hcon, hok]
            | file w =>
              cases hcall : call.2 with
              | write b =>
                obtain ⟨a1, a2⟩ := fileAppend_ok st.1 w b hok
                simp only [Dest.call, hcall, Outcome.value.injEq] at hc
                subst hc
                simp [Dest.says, Dest.callOk, a1, a2]
              | flush =>
                obtain ⟨a1, a2⟩ := fileFlush_ok st.1 w hok
                simp only [Dest.call, hcall, Outcome.value.injEq] at hc
                subst hc
                simp [Dest.says, Dest.callOk, a1, a2]
            | rotating r => exact absurd rfl (hnr r)
        rw [h1.1, ih st' _ _ hkind h1.2 (fun i => hcon _)]
        rfl
      | error => simp [reports, callLoud, hc]
      | panic => simp [reports, callLoud, hc]
  rw [loud_ok calls st moments con err (by rw [key]; intro i hi; cases hi), key]

/-! ## The thread and the others -/

theorem LoudStep.sys {k : Consumer} {text : Nat → Option Bytes} {moments : Nat → Moment} {con err : Nat → Bool} {enabled : Item → Bool}
    {s s' : Loud} {a : Log.Act Item} (h : LoudStep k text moments con err enabled s a s') : Log.Step enabled s.logger.sys a s'.logger.sys := by
  cases h <;> assumption

theorem LoudRun.sys {k : Consumer} {text : Nat → Option Bytes} {moments : Nat → Moment} {con err : Nat → Bool} {enabled : Item → Bool}
    {s s' : Loud} {tr : List (Log.Act Item)} (h : LoudRun k text moments con err enabled s tr s') : Log.Run enabled s.logger.sys tr s'.logger.sys := by
  induction h with
  | nil => exact .nil
  | snoc _ hs ih => exact .snoc ih hs.sys

theorem loud_good (calls : List (Nat × FileCall)) (st : Disk × List Dest) (moments : Nat → Moment) (con err : Nat → Bool) (h : ∀ i, err i = true) :
    (callLoud st moments con err calls).1 = callDests st moments calls := by
  rw [loud_ok calls st moments con err (fun i _ => h i)]

theorem flushes_value (l : List Nat) (st : Disk × List Dest) (moments : Nat → Moment) :
    callDests st moments (l.map (fun i => (i, .flush))) ≠ .panic := by
  induction l generalizing st moments with
  | nil => simp [callDests]
  | cons i l ih =>
    rw [List.map_cons, callDests]
    have : ∃ st', callDest st (moments 0) (i, .flush) = .value st' := by
      unfold callDest
      cases hx : st.2[i]? with
      | none => exact ⟨_, rfl⟩
      | some x => cases x <;> exact ⟨_, rfl⟩
    obtain ⟨st', h⟩ := this
    rw [h]
    exact ih st' _

/-- **C228**, what holds: if standard error can always be written, a run with reports is a run as in `Model/LogRun`, with the same actions. So
C177 and what follows from it hold for it, whatever fails. -/
theorem C228_as_before_partial (k : Consumer) (text : Nat → Option Bytes) (moments : Nat → Moment) (con err : Nat → Bool) (enabled : Item → Bool)
    (herr : ∀ i, err i = true) (s s' : Loud) (tr : List (Log.Act Item)) (h : LoudRun k text moments con err enabled s tr s') :
    LoggerRun k text moments enabled s.logger tr s'.logger := by
  induction h with
  | nil => exact .nil
  | snoc _ hs ih =>
    refine .snoc ih ?_
    cases hs with
    | other a l hl n1 n2 n3 => exact .other _ _ _ hl n1 n2 n3
    | write t item clock bufs w dests rs l hl ht hh hc =>
      refine .write _ t item clock bufs w dests l hl ht hh ?_
      have := congrArg Prod.fst hc
      rw [loud_good _ _ _ _ _ (fun i => herr _)] at this
      exact this
    | flush dests rs l hl hc =>
      refine .flush _ dests l hl ?_
      have := congrArg Prod.fst hc
      rw [loud_good _ _ _ _ _ (fun i => herr _)] at this
      exact this
    | crash t item clock l g ht hh hl =>
      refine .crash _ t item clock l g ht ?_ hl
      rcases hh with hh | ⟨bufs, w, hh, hc⟩
      · exact .inl hh
      · exact .inr ⟨bufs, w, hh, by rw [loud_good _ _ _ _ _ (fun i => herr _)] at hc; exact hc⟩
    | crashFlush n l g hc hl =>
      rw [loud_good _ _ _ _ _ (fun i => herr _)] at hc
      exact absurd hc (flushes_value _ _ _)

/-- **C228**, negation for the code as written: a record is in hand; some of the calls that it takes fail, and what the consumer has to say about
that cannot be written. Then all the consumer can do is to panic; after that every thread that logs a record which passes the maximum level
panics too, nothing is written any more, and dropping the guard never returns. -/
theorem C228_spreads_violated (k : Consumer) (text : Nat → Option Bytes) (moments : Nat → Moment) (con err : Nat → Bool) (enabled : Item → Bool)
    (st : Disk × List Dest) (progs : Nat → List (Log.Call Item)) (tr : List (Log.Act Item)) (s : Loud)
    (h : LoudRun k text moments con err enabled ⟨loggerStart k st progs, 0⟩ tr s) (t : Nat) (item : Item)
    (hhand : s.logger.sys.consumer = .writing t item) (hgood : ∀ c, text c ≠ none) (clock : Nat)
    (hclock : text clock = some item.time)
    (bufs : List Bytes) (w : Writes) (hh : k.handleAt (some item.time) item s.logger.bufs = .ok bufs w) (n : Nat)
    (hn : n < (reports s.logger.dests (fun i => moments (s.logger.used + i)) (fun i => con (s.logger.used + i)) (callsOfWrites w)).length)
    (hbad : err (s.said + n) = false) :
    (∃ s', LoudStep k text moments con err enabled s .crash s') ∧
    (∀ a s', LoudStep k text moments con err enabled s a s' → a.ofConsumer = false) ∧
    ∀ s1, LoudStep k text moments con err enabled s .crash s1 → ∀ tr' s', LoudRun k text moments con err enabled s1 tr' s' →
      Log.Spec.writes tr' = [] ∧ .dropRet ∉ tr' ∧
      (∀ u r rest a s2, s'.logger.sys.phases u = .ready → s'.logger.sys.progs u = .log r :: rest → enabled r = true →
        LoudStep k text moments con err enabled s' a s2 →
        (s2.logger.sys.progs u ≠ s'.logger.sys.progs u ∨ s2.logger.sys.phases u ≠ s'.logger.sys.phases u) → a = .panic u) := by
  have hp : (callLoud s.logger.dests (fun i => moments (s.logger.used + i)) (fun i => con (s.logger.used + i)) (fun i => err (s.said + i))
      (callsOfWrites w)).1 = .panic := (C228_exactly_partial _ _ _ _ _).mpr (.inr ⟨n, hn, hbad⟩)
  refine ⟨⟨_, .crash s t item clock _ hhand (fun txt ht => by rw [hclock] at ht; exact Option.some.inj ht) (.inr ⟨bufs, w, by rw [hclock]; exact hh, hp⟩) (.crash _ t item hhand)⟩, ?_, ?_⟩
  · intro a s' hs
    cases hs with
    | other a l hl n1 n2 n3 =>
      cases hl <;> first | rfl | (simp_all; done) | skip
    | write t' item' c bufs' w' dests rs l hl ht hh' hc =>
      exfalso
      cases hl with
      | write _ _ g =>
        rw [hhand] at g
        cases g
        obtain ⟨x, hx⟩ := Option.ne_none_iff_exists'.mp (hgood c)
        rw [hx, ← ht x hx, hh] at hh'
        cases hh'
        rw [hc] at hp; cases hp
    | flush dests rs l hl hc =>
      exfalso
      cases hl <;> simp_all
    | crash => rfl
    | crashFlush => rfl
  · intro s1 hs1 tr' s' hr
    have hrun : Log.Run enabled (Log.start progs) (tr ++ [.crash]) s1.logger.sys := .snoc h.sys hs1.sys
    have hall : Log.Run enabled (Log.start progs) ((tr ++ [.crash]) ++ tr') s'.logger.sys := hrun.trans hr.sys
    obtain ⟨_, _, c3⟩ := Log.C93_spreads_violated enabled progs _ _ hrun (by simp)
    obtain ⟨c1, _, _⟩ := Log.C93_spreads_violated enabled progs _ _ hall (by simp)
    refine ⟨(c3 _ _ hr.sys).1, (c3 _ _ hr.sys).2.1, ?_⟩
    intro u r rest a s2 h1 h2 h3 hs2 hch
    exact c1 u r rest a _ h1 h2 h3 hs2.sys hch

/-! ## Examples -/

/-- Two log files on a disk on which the next write fails at once. -/
def fullDisk : Disk × List Dest :=
  match fileNew { emptyDisk with os := [some 0] } u!"a.log" 0 with
  | (d, w) => match fileNew d u!"b.log" 0 with
    | (d, w') => (d, [.file w, .file w'])

/-- A record for both files, and a flush. -/
def bothCalls : List (Nat × FileCall) := [(0, .write [1]), (1, .write [1]), (0, .flush), (1, .flush)]

def noMoment (_ : Nat) : Moment := ⟨0, [], fun _ => [], fun _ => true, true, none⟩

/-- The flush of the first file fails, and that is reported; the second file has the record. -/
example : reports fullDisk noMoment (fun _ => true) bothCalls = [.flush] ∧ failures fullDisk noMoment (fun _ => true) bothCalls = [(0, .flush)] ∧
    (match callLoud fullDisk noMoment (fun _ => true) (fun _ => true) bothCalls with
      | (.value st, rs) => some (content st.1 u!"a.log", content st.1 u!"b.log", rs)
      | _ => none) = some ([], [1], [.flush]) := by decide +kernel

/-- If the report cannot be written, the second file is not flushed. -/
example : callLoud fullDisk noMoment (fun _ => true) (fun _ => false) bothCalls = (.panic, []) :=
  C228_unheard_violated bothCalls fullDisk noMoment (fun _ => true) (fun _ => false) 0 (by decide +kernel) rfl (by simp)

/-- A console that cannot be written (its reader is gone, as that of standard error) is enough. -/
example : callLoud (emptyDisk, [.console]) noMoment (fun _ => false) (fun _ => false) [(0, .write [1])] = (.panic, []) ∧
    reports (emptyDisk, [.console]) noMoment (fun _ => false) [(0, .write [1])] = [.write] := by
  refine ⟨C228_unheard_violated _ _ _ _ _ 0 (by decide +kernel) rfl (by simp), by decide +kernel⟩

/-- No failure, no report. -/
example : (∀ x ∈ (emptyDisk, [Dest.console]).2, ∀ r, x ≠ Dest.rotating r) ∧ NoFail (emptyDisk, [Dest.console]).1 := by
  refine ⟨by simp, by intro o ho; simp [emptyDisk] at ho⟩

/-- A logger with a console for everything of the process itself. -/
def loneConsole : Consumer := ⟨[⟨0, u!"json", fun _ => true⟩], [.json u!"json"], [0], [[0]]⟩

/-- Standard output and standard error of the process are gone (`httpd 2>&1 | head -n 1`): the first record ends the log. -/
example : ∃ s, LoudRun loneConsole (fun _ => some b!"t2") noMoment (fun _ => false) (fun _ => false) (passes .trace)
      ⟨loggerStart loneConsole (emptyDisk, [.console]) (fun t => if t = 0 then [.log (sampleItems[1])] else []), 0⟩ [.send 0 (sampleItems[1]), .recv] s ∧
    s.logger.sys.consumer = .writing 0 (sampleItems[1]) ∧
    ∃ bufs w, loneConsole.handleAt (some (sampleItems[1]).time) (sampleItems[1]) s.logger.bufs = .ok bufs w ∧
      0 < (reports s.logger.dests (fun i => noMoment (s.logger.used + i)) (fun _ => false) (callsOfWrites w)).length := by
  refine ⟨_, .snoc (.snoc .nil (.other _ _ _ (.send _ 0 _ [] rfl rfl rfl (by decide +kernel) (by simp [loggerStart, Log.start])) (by simp) (by simp) (by simp)))
    (.other _ _ _ (.recvItem _ 0 _ [] rfl rfl) (by simp) (by simp) (by simp)), rfl, ?_⟩
  exact ⟨[jsonRender (sampleItems[1])], [(0, jsonRender (sampleItems[1]))], by rfl, by decide +kernel⟩

end Httpd
