import Verif.Model.LastWords
import Verif.Spec.LastWords
import Verif.Spec.JoinLoop
import Verif.Props.LogDeath
import Verif.Props.RotChain
/-!
# What became of the services is in the log files (C215)
-/

namespace Httpd
open Spec

/-! ## The run of the logger inside a run of the process -/

theorem failures_snoc {R : Type} (tr : List (WholeAct R)) (a : WholeAct R) : failures (tr ++ [a]) = failures tr ++ (foundFailed a).toList := by
  simp only [failures, List.filterMap_append, List.filterMap_cons, List.filterMap_nil]
  cases foundFailed a <;> rfl

theorem wholeLog_snoc {R : Type} (enabled : R → Bool) (record : Nat → TaskEnd → R) (tr : List (WholeAct R)) (a : WholeAct R) :
    wholeLog enabled record (tr ++ [a]) = wholeLog enabled record tr ++ (a.logAct enabled record).toList := by
  simp only [wholeLog, List.filterMap_append, List.filterMap_cons, List.filterMap_nil]
  cases a.logAct enabled record <;> rfl

theorem logAct_fail {R : Type} (enabled : R → Bool) (record : Nat → TaskEnd → R) (i : Nat) (o : TaskEnd) (h : o ≠ .ok) :
    (WholeAct.join i o : WholeAct R).logAct enabled record = some (if enabled (record i o) then .send 0 (record i o) else .skip 0 (record i o)) ∧
    foundFailed (WholeAct.join i o : WholeAct R) = some (i, o) := by
  cases o
  · exact absurd rfl h
  · exact ⟨rfl, rfl⟩
  · exact ⟨rfl, rfl⟩

/-- Seen from the logger, the main thread is one that logs a record for each service that failed. -/
theorem whole_log {R : Type} (enabled : R → Bool) (record : Nat → TaskEnd → R) (n : Nat) (progs : Nat → List (Log.Call R)) {tr : List (WholeAct R)}
    {s : Whole R} (h : WholeRun enabled record (wholeStart n progs) tr s) (hno : .log .crash ∉ tr) :
    Log.Run enabled (Log.start (Log.update progs 0 ((failures tr).map (fun p => .log (record p.1 p.2))))) (wholeLog enabled record tr) s.log := by
  induction h with
  | nil => exact .nil
  | @snoc tr t u a h hs ih =>
    have hno' : .log .crash ∉ tr := fun h => hno (List.mem_append_left _ h)
    have ih := ih hno'
    have inv := whole_inv enabled record n progs h
    rw [failures_snoc, wholeLog_snoc]
    cases hs with
    | finish i o h1 h2 => simpa [foundFailed, WholeAct.logAct] using ih
    | joinOk i h1 h2 => simpa [foundFailed, WholeAct.logAct] using ih
    | ret h1 h2 => simpa [foundFailed, WholeAct.logAct] using ih
    | drop c l h1 h2 =>
      simp only [foundFailed, WholeAct.logAct, Option.toList, List.append_nil]
      exact .snoc ih h2
    | exit c l h1 h2 =>
      simp only [foundFailed, WholeAct.logAct, Option.toList, List.append_nil]
      exact .snoc ih h2
    | log a l h1 h2 h3 h4 =>
      simp only [foundFailed, WholeAct.logAct, Option.toList, List.append_nil]
      exact .snoc ih h4
    | joinPanic i o l h1 h2 h3 h4 =>
      obtain ⟨progs', ltr, hl, hlc⟩ := inv.log
      obtain ⟨progs2, hl2⟩ := withRecord_run enabled progs' (record i o) hl (inv.main h1).2.2.1
      exact absurd (hlc.mp ((Log.dead_iff enabled progs2 hl2).mp (panic_dead enabled h4).1)) hno'
    | joinLog i o b l h1 h2 h3 h4 h5 =>
      obtain ⟨e1, e2⟩ := logAct_fail enabled record i o h3
      rw [e1, e2]
      have h0 := (inv.main h1).2.2.1
      have hm := run_more enabled (fun t => if t = 0 then [.log (record i o)] else []) ih
      have e : moreCalls (fun t => if t = 0 then [.log (record i o)] else []) t.log = withRecord t.log (record i o) := by
        simp only [moreCalls, withRecord]
        congr 1
        funext t'
        simp only [Log.update]
        split
        · next ht => rw [ht, h0]; rfl
        · simp
      have e' : moreCalls (fun t => if t = 0 then [.log (record i o)] else [])
          (Log.start (Log.update progs 0 ((failures tr).map (fun p => .log (record p.1 p.2))))) =
          Log.start (Log.update progs 0 ((failures tr ++ (some (i, o)).toList).map (fun p => .log (record p.1 p.2)))) := by
        simp only [moreCalls, Log.start]
        congr 1
        funext t'
        simp only [Log.update]
        split
        · next ht => simp
        · simp
      rw [e, e'] at hm
      have hb : b = if enabled (record i o) then .send 0 (record i o) else .skip 0 (record i o) := by
        rcases h5 with rfl | rfl
        · cases h4 with
          | send _ _ _ _ _ _ g _ => rw [if_pos g]
        · cases h4 with
          | skip _ _ _ _ _ _ g => rw [if_neg (by simp [g])]
      rw [hb] at h4
      exact .snoc hm h4

/-! ## What main finds out -/

/-- What has been found out so far. -/
structure FoundOut {R : Type} (n : Nat) (tr : List (WholeAct R)) (s : Whole R) : Prop where
  len : s.main = .joining → s.tasks.length = n
  state : s.main = .joining → ∀ i, i < n →
    (s.tasks[i]? = some .running ∧ ∀ o, .finish i o ∉ tr ∧ .join i o ∉ tr) ∨
    (∃ o, s.tasks[i]? = some (.ended o) ∧ ∀ o', (.finish i o' ∈ tr ↔ o' = o) ∧ .join i o' ∉ tr) ∨
    (∃ o, s.tasks[i]? = some (.joined o) ∧ ∀ o', (.finish i o' ∈ tr ↔ o' = o) ∧ (.join i o' ∈ tr ↔ o' = o))
  below : ∀ i o, .finish i o ∈ tr ∨ .join i o ∈ tr → i < n
  once : ((failures tr).map (·.1)).Nodup
  final : s.main = .leaving 0 ∨ s.main = .exited 0 → ∀ i o, .finish i o ∈ tr ↔ .join i o ∈ tr

theorem mem_failures {R : Type} {tr : List (WholeAct R)} {i : Nat} {o : TaskEnd} : (i, o) ∈ failures tr ↔ .join i o ∈ tr ∧ o ≠ .ok := by
  simp only [failures, List.mem_filterMap]
  constructor
  · rintro ⟨a, ha, hf⟩
    cases a with
    | join j p => cases p <;> simp only [foundFailed, Option.some.injEq, Prod.mk.injEq, reduceCtorEq] at hf <;> obtain ⟨rfl, rfl⟩ := hf <;> exact ⟨ha, by simp⟩
    | _ => simp [foundFailed] at hf
  · rintro ⟨h1, h2⟩
    refine ⟨_, h1, ?_⟩
    cases o
    · exact absurd rfl h2
    · rfl
    · rfl

/-- An action that is neither the end of a service nor a join. -/
theorem FoundOut.other {R : Type} {n : Nat} {tr : List (WholeAct R)} {s : Whole R} (h : FoundOut n tr s) (a : WholeAct R)
    (h1 : ∀ i o, a ≠ .finish i o) (h2 : ∀ i o, a ≠ .join i o) (l : Log.Sys R) : FoundOut n (tr ++ [a]) { s with log := l } := by
  have e1 : ∀ i o, .finish i o ∈ tr ++ [a] ↔ .finish i o ∈ tr := fun i o => by simp [Ne.symm (h1 i o)]
  have e2 : ∀ i o, .join i o ∈ tr ++ [a] ↔ .join i o ∈ tr := fun i o => by simp [Ne.symm (h2 i o)]
  have e3 : failures (tr ++ [a]) = failures tr := by
    rw [failures_snoc]
    cases a with
    | join i o => exact absurd rfl (h2 i o)
    | _ => simp [foundFailed]
  refine ⟨h.len, ?_, ?_, by rw [e3]; exact h.once, ?_⟩
  · simpa only [e1, e2] using h.state
  · simpa only [e1, e2] using h.below
  · simpa only [e1, e2] using h.final

/-- A service is joined. -/
theorem FoundOut.joined {R : Type} {n : Nat} {tr : List (WholeAct R)} {s : Whole R} (h : FoundOut n tr s) (i : Nat) (o : TaskEnd)
    (h1 : s.main = .joining) (h2 : s.tasks[i]? = some (.ended o)) (l : Log.Sys R) :
    FoundOut n (tr ++ [.join i o]) { s with tasks := s.tasks.set i (.joined o), log := l } := by
  have hlt : i < s.tasks.length := (List.getElem?_eq_some_iff.mp h2).1
  have hin : i < n := h.len h1 ▸ hlt
  have hst : ∀ o', (WholeAct.finish i o' ∈ tr ↔ o' = o) ∧ WholeAct.join i o' ∉ tr := by
    rcases h.state h1 i hin with ⟨g, _⟩ | ⟨p, g, g'⟩ | ⟨p, g, _⟩
    · rw [g] at h2; cases h2
    · rw [g] at h2; cases h2; exact g'
    · rw [g] at h2; cases h2
  refine ⟨fun _ => by simp [h.len h1], ?_, ?_, ?_, fun hf => by simp [h1] at hf⟩
  · intro _ j hj
    by_cases hij : i = j
    · subst hij
      refine Or.inr (Or.inr ⟨o, by simp [hlt], fun o' => ⟨?_, ?_⟩⟩)
      · simpa using (hst o').1
      · simp [(hst o').2]
    · have hji : j ≠ i := fun h => hij h.symm
      simpa [List.getElem?_set_ne hij, hji] using h.state h1 j hj
  · intro j p hj
    simp only [List.mem_append, List.mem_singleton, reduceCtorEq, or_false, WholeAct.join.injEq] at hj
    rcases hj with hj | hj | ⟨rfl, _⟩
    · exact h.below j p (Or.inl hj)
    · exact h.below j p (Or.inr hj)
    · exact hin
  · rw [failures_snoc]
    by_cases ho : o = .ok
    · subst ho; simpa [foundFailed] using h.once
    · have e : (foundFailed (WholeAct.join i o : WholeAct R)) = some (i, o) := by
        cases o
        · exact absurd rfl ho
        · rfl
        · rfl
      rw [e]
      simp only [Option.toList, List.map_append, List.map_cons, List.map_nil, List.nodup_append, List.mem_map, List.mem_singleton]
      refine ⟨h.once, by simp, ?_⟩
      rintro _ ⟨⟨j, p⟩, hp, rfl⟩ _ rfl rfl
      exact (hst p).2 (mem_failures.mp hp).1

theorem found_out {R : Type} (enabled : R → Bool) (record : Nat → TaskEnd → R) (n : Nat) (progs : Nat → List (Log.Call R)) {tr : List (WholeAct R)}
    {s : Whole R} (h : WholeRun enabled record (wholeStart n progs) tr s) : FoundOut n tr s := by
  induction h with
  | nil =>
    refine ⟨fun _ => by simp [wholeStart], fun _ i hi => Or.inl ⟨by simp [wholeStart, hi], by simp⟩, by simp, by simp [failures], by simp⟩
  | @snoc tr t u a h hs ih =>
    cases hs with
    | finish i o h1 h2 =>
      have hlt : i < t.tasks.length := (List.getElem?_eq_some_iff.mp h2).1
      have hin : i < n := ih.len h1 ▸ hlt
      have hst : ∀ o', WholeAct.finish i o' ∉ tr ∧ WholeAct.join i o' ∉ tr := by
        rcases ih.state h1 i hin with ⟨_, g⟩ | ⟨p, g, _⟩ | ⟨p, g, _⟩
        · exact g
        · rw [g] at h2; cases h2
        · rw [g] at h2; cases h2
      refine ⟨fun _ => by simp [ih.len h1], ?_, ?_, by rw [failures_snoc]; simpa [foundFailed] using ih.once, fun hf => by simp [h1] at hf⟩
      · intro _ j hj
        by_cases hij : i = j
        · subst hij
          exact Or.inr (Or.inl ⟨o, by simp [hlt], fun o' => ⟨by simp [(hst o').1], by simp [(hst o').2]⟩⟩)
        · have hji : j ≠ i := fun h => hij h.symm
          simpa [List.getElem?_set_ne hij, hji] using ih.state h1 j hj
      · intro j p hj
        simp only [List.mem_append, List.mem_singleton, reduceCtorEq, or_false, WholeAct.finish.injEq] at hj
        rcases hj with (hj | ⟨rfl, _⟩) | hj
        · exact ih.below j p (Or.inl hj)
        · exact hin
        · exact ih.below j p (Or.inr hj)
    | joinOk i h1 h2 => exact ih.joined i .ok h1 h2 t.log
    | joinLog i o b l h1 h2 h3 h4 h5 => exact ih.joined i o h1 h2 l
    | joinPanic i o l h1 h2 h3 h4 =>
      have := ih.joined i o h1 h2 l
      exact ⟨fun hf => by simp at hf, fun hf => by simp at hf, this.below, this.once, fun hf => by simp at hf⟩
    | ret h1 h2 =>
      have g := ih.other .ret (by simp) (by simp) t.log
      refine ⟨fun hf => by simp at hf, fun hf => by simp at hf, g.below, g.once, fun _ i o => ?_⟩
      by_cases hi : i < n
      · have hlt : i < t.tasks.length := by rw [ih.len h1]; exact hi
        obtain ⟨p, hp⟩ := h2 _ (List.getElem_mem hlt)
        have hp' := List.getElem?_eq_getElem hlt
        rw [hp] at hp'
        rcases g.state h1 i hi with ⟨q, _⟩ | ⟨_, q, _⟩ | ⟨_, _, q⟩
        · rw [hp'] at q; cases q
        · rw [hp'] at q; cases q
        · rw [(q o).1, (q o).2]
      · exact ⟨fun h => absurd (g.below i o (Or.inl h)) hi, fun h => absurd (g.below i o (Or.inr h)) hi⟩
    | drop c l h1 h2 => exact ih.other .drop (by simp) (by simp) l
    | exit c l h1 h2 =>
      have g := ih.other .exit (by simp) (by simp) l
      refine ⟨fun hf => by simp at hf, fun hf => by simp at hf, g.below, g.once, fun hf => g.final (Or.inl ?_)⟩
      simp only [reduceCtorEq, MainAt.exited.injEq, false_or] at hf
      rw [← hf]; exact h1
    | log a l h1 h2 h3 h4 => exact ih.other (.log a) (by simp) (by simp) l

/-- What the main thread sends. -/
theorem main_sends {R : Type} (enabled : R → Bool) (record : Nat → TaskEnd → R) (s0 : Whole R) {tr : List (WholeAct R)} {s : Whole R}
    (h : WholeRun enabled record s0 tr s) :
    Log.Spec.byThread 0 (Log.Spec.sends (wholeLog enabled record tr)) = ((failures tr).map (fun p => record p.1 p.2)).filter enabled := by
  induction h with
  | nil => rfl
  | @snoc tr t u a h hs ih =>
    have join : ∀ i o, o ≠ .ok → Log.Spec.byThread 0 (Log.Spec.sends (wholeLog enabled record (tr ++ [.join i o]))) =
        ((failures (tr ++ [.join i o])).map (fun p => record p.1 p.2)).filter enabled := by
      intro i o ho
      obtain ⟨e1, e2⟩ := logAct_fail enabled record i o ho
      rw [wholeLog_snoc, failures_snoc, e1, e2, Log.sends_append, Log.byThread_append, ih, List.map_append, List.filter_append]
      congr 1
      cases he : enabled (record i o) <;> simp [Log.Spec.sends, Log.Spec.byThread, he]
    cases hs with
    | joinLog i o b l h1 h2 h3 h4 h5 => exact join i o h3
    | joinPanic i o l h1 h2 h3 h4 => exact join i o h3
    | log a l h1 h2 h3 h4 =>
      rw [wholeLog_snoc, failures_snoc, Log.sends_append, Log.byThread_append, ih]
      cases a with
      | send t' r =>
        have := (h3 t' rfl).1
        simp [foundFailed, WholeAct.logAct, Log.Spec.sends, Log.Spec.byThread, this]
      | _ => simp [foundFailed, WholeAct.logAct, Log.Spec.sends, Log.Spec.byThread]
    | _ =>
      rw [wholeLog_snoc, failures_snoc, Log.sends_append, Log.byThread_append, ih]
      simp [foundFailed, WholeAct.logAct, Log.Spec.sends, Log.Spec.byThread]

/-- A consumer that has ended has flushed all appenders after the last record. -/
theorem done_flushed {R : Type} (enabled : R → Bool) (progs : Nat → List (Log.Call R)) {tr : List (Log.Act R)} {s : Log.Sys R}
    (h : Log.Run enabled (Log.start progs) tr s) (hd : s.consumer = .done) : Log.Spec.FlushedIn (Log.Spec.sends tr) tr := by
  have key : ∀ {tr : List (Log.Act R)} {s : Log.Sys R}, Log.Run enabled (Log.start progs) tr s →
      (s.consumer = .lastFlush → .signal ∈ tr) ∧ (s.consumer = .done → ∃ a b, tr = a ++ .signal :: b ∧ .flush ∈ b) := by
    intro tr s h
    induction h with
    | nil => simp [Log.start]
    | @snoc tr s1 s2 a _ hs ih =>
      have keep : (∃ a b, tr = a ++ .signal :: b ∧ Log.Act.flush ∈ b) → ∃ a' b, tr ++ [a] = a' ++ .signal :: b ∧ Log.Act.flush ∈ b := by
        rintro ⟨x, y, rfl, hy⟩
        exact ⟨x, y ++ [a], by simp, by simp [hy]⟩
      cases hs with
      | lastFlush h1 =>
        refine ⟨fun h => by simp at h, fun _ => ?_⟩
        obtain ⟨x, y, rfl⟩ := List.append_of_mem (ih.1 h1)
        exact ⟨x, y ++ [.flush], by simp, by simp⟩
      | signal h1 => exact ⟨fun _ => by simp, fun h => by simp at h⟩
      | _ => first
        | exact ⟨fun h => List.mem_append_left _ (ih.1 h), fun h => keep (ih.2 h)⟩
        | exact ⟨fun h => by simp at h, fun h => by simp at h⟩
  obtain ⟨a, b, e, hb⟩ := (key h).2 hd
  exact (Log.C68_handed_partial enabled progs tr s h).2 a b e hb

/-- A run of the logger to the end of its thread: every record that was sent and is for a file has been put into it. -/
theorem done_files {U : Unicode} (hU : LawfulUnicode U) (pathExists openOk : Str → Bool) (order : List Str → List Str)
    (horder : ∀ l, (order l).Perm l) (c c' : Config) (hslab : c.slab = []) (hfix : c.autofix pathExists = some c')
    (as : List AppenderInit) (has : c'.appenders openOk = some as) (k : Consumer) (l : Level)
    (hk : c'.startLogging U openOk order true = .value (k, l))
    (progs : Nat → List (Log.Call Item)) (ltr : List (Log.Act Item)) (s1 : Log.Sys Item)
    (h1 : Log.Run (passes l) (Log.start progs) ltr s1) (hdone : s1.consumer = .done)
    (hd : ∀ p ∈ Log.Spec.sends ltr, Deliverable as p.2)
    (d : Disk) (hs : Sane d) (hok : NoFail d) (ends : Nat → Nat) (st0 : Disk × List Dest) (hopen : openDests d ends as = some st0)
    (i : Nat) (a : AppenderInit) (fp : Str) (ha : as[i]? = some a) (hfp : a.path = some fp)
    (hsole : SoleName d fp) (hone : ∀ j b, as[j]? = some b → b.path = some fp → j = i) :
    ∃ calls, k.calls ltr k.bufs = some calls ∧ ∀ moments st, FreeDests st0 moments calls → callDests st0 moments calls = .value st →
      LossAtMost (rotTimesOf i fp st0 moments calls).length (bufferSize a.bufsize) d st.1 fp (linesOf ((Log.Spec.sends ltr).filter (fun p => a.Wants p.2))) ∧
      (a.daily = false → content st.1 fp = content d fp ++ linesOf ((Log.Spec.sends ltr).filter (fun p => a.Wants p.2))) := by
  obtain ⟨x, y, hxy, hpre⟩ := done_flushed (passes l) _ h1 hdone
  obtain ⟨w1, w2, _⟩ := Log.C66_order (passes l) _ _ _ h1
  have hwx : Log.Spec.writes x <+: Log.Spec.writes ltr := by
    rw [hxy, Log.writes_append]; exact List.prefix_append _ _
  have e1 : Log.Spec.writes ltr = Log.Spec.sends ltr :=
    w1.eq_of_length (Nat.le_antisymm w1.length_le (hpre.trans hwx).length_le)
  have e2 : Log.Spec.writes x = Log.Spec.sends ltr :=
    ((hwx.trans w1).eq_of_length (Nat.le_antisymm (hwx.trans w1).length_le hpre.length_le))
  obtain ⟨calls, c1, c2⟩ := files_flushed hU pathExists openOk order horder c c' hslab hfix as has k l hk _ _ x y _ h1 hxy hd d hs hok ends st0 hopen
    i a fp ha hfp hsole hone
  refine ⟨calls, c1, fun moments st hfree hrun => ?_⟩
  obtain ⟨out, o1, o2, o3, o4⟩ := c2 moments st hfree hrun
  rw [e2] at o1
  rw [e1] at o2
  have e3 : out = linesOf ((Log.Spec.sends ltr).filter (fun p => a.Wants p.2)) :=
    o2.eq_of_length (Nat.le_antisymm o2.length_le o1.length_le)
  subst e3
  exact ⟨o3, o4⟩

theorem Spec.Tells.spec {record : Nat → TaskEnd → Item} (h : Tells record) (i : Nat) (o : TaskEnd) (ho : o ≠ .ok) :
    (record i o).level = .error ∧ (record i o).service = 0 := by
  obtain ⟨e, text, r, time, file, line, h1, h2, h3⟩ := h i o ho
  rw [h3]
  cases e <;> simp only [failureRecord, reduceCtorEq, Option.some.injEq] at h2 <;> subst h2 <;> exact ⟨rfl, rfl⟩

/-- **C215**, what holds: when the process has ended in multi-thread mode, and the thread of the logger has got to the end of its work before that, then
the status is 0, and every file for records of the root, at whatever level it is kept, has for each service that failed, and for no other, one line
about it, in the order in which main found out, among the lines of the other threads; there is nothing else in it that was not there before. With daily
files, what is lost is at most one buffer for each rotation. Missing from C215: that the thread of the logger does get to its end (`C215_lost_violated`). -/
theorem C215_flushed_partial {U : Unicode} (hU : LawfulUnicode U) (pathExists openOk : Str → Bool) (order : List Str → List Str)
    (horder : ∀ l, (order l).Perm l) (c c' : Config) (hslab : c.slab = []) (hfix : c.autofix pathExists = some c')
    (as : List AppenderInit) (has : c'.appenders openOk = some as) (k : Consumer) (l : Level)
    (hk : c'.startLogging U openOk order true = .value (k, l))
    (n : Nat) (progs : Nat → List (Log.Call Item)) (record : Nat → TaskEnd → Item) (hrec : Tells record)
    (tr : List (WholeAct Item)) (s : Whole Item) (h : WholeRun (passes l) record (wholeStart n progs) tr s)
    (code : Nat) (hend : s.main = .exited code) (hdone : s.log.consumer = .done)
    (hd : ∀ p ∈ Log.Spec.sends (wholeLog (passes l) record tr), Deliverable as p.2)
    (d : Disk) (hs : Sane d) (hok : NoFail d) (ends : Nat → Nat) (st0 : Disk × List Dest) (hopen : openDests d ends as = some st0)
    (i : Nat) (a : AppenderInit) (fp : Str) (ha : as[i]? = some a) (hfp : a.path = some fp)
    (hsole : SoleName d fp) (hone : ∀ j b, as[j]? = some b → b.path = some fp → j = i)
    (hroot : a.service = 0) (hlevel : a.filter.filter .error = true) :
    code = 0 ∧ ((failures tr).map (·.1)).Nodup ∧ (∀ j o, (j, o) ∈ failures tr ↔ .finish j o ∈ tr ∧ o ≠ .ok) ∧
    ∃ calls, k.calls (wholeLog (passes l) record tr) k.bufs = some calls ∧ ∀ moments st, FreeDests st0 moments calls →
      callDests st0 moments calls = .value st → ∃ records : List (Nat × Item),
        Log.Spec.byThread 0 records = (failures tr).map (fun p => record p.1 p.2) ∧
        (∀ t, t ≠ 0 → Log.Spec.byThread t records <+: (Log.Spec.logged (passes l) (progs t)).filter a.Wants) ∧
        LossAtMost (rotTimesOf i fp st0 moments calls).length (bufferSize a.bufsize) d st.1 fp (linesOf records) ∧
        (a.daily = false → content st.1 fp = content d fp ++ linesOf records) := by
  have inv := whole_inv (passes l) record n progs h
  have hno : .log .crash ∉ tr := by
    obtain ⟨progs', ltr, h1, h2⟩ := inv.log
    intro hc
    have := (Log.dead_iff _ progs' h1).mpr (h2.mpr hc)
    rw [hdone] at this; cases this
  have hcode : code = 0 := by
    rcases (inv.exited code hend).2.2 with ⟨h, _⟩ | h
    · exact h
    · exact absurd h hno
  subst hcode
  have fo := found_out (passes l) record n progs h
  have h1 := whole_log (passes l) record n progs h hno
  have hms := main_sends (passes l) record _ h
  generalize hltr : wholeLog (passes l) record tr = ltr at h1 hms hd ⊢
  have w2 := (Log.C66_order (passes l) _ _ _ h1).2.1
  refine ⟨rfl, fo.once, fun j o => ?_, ?_⟩
  · rw [mem_failures, ← fo.final (Or.inr hend) j o]
  obtain ⟨calls, c1, c2⟩ := done_files hU pathExists openOk order horder c c' hslab hfix as has k l hk _ _ _ h1 hdone hd d hs hok ends st0 hopen
    i a fp ha hfp hsole hone
  refine ⟨calls, c1, fun moments st hfree hrun => ?_⟩
  obtain ⟨o3, o4⟩ := c2 moments st hfree hrun
  have good : ∀ p ∈ failures tr, (record p.1 p.2).level = .error ∧ (record p.1 p.2).service = 0 :=
    fun p hp => hrec.spec p.1 p.2 (mem_failures.mp hp).2
  refine ⟨_, ?_, fun t ht => ?_, o3, o4⟩
  · rw [byThread_filter, hms, List.filter_filter]
    rw [List.filter_eq_self]
    intro item hitem
    obtain ⟨p, hp, rfl⟩ := List.mem_map.mp hitem
    obtain ⟨g1, g2⟩ := good p hp
    simp only [AppenderInit.Wants, passes, g1, g2, hroot, hlevel]
    cases l <;> decide
  · rw [byThread_filter]
    have := (w2 t).1
    simp only [Log.update, ht, if_false] at this
    obtain ⟨z, hz⟩ := this
    rw [← hz, List.filter_append]
    exact List.prefix_append _ _

/-! ## The negation -/

/-- The tasks, those below `m` further than the others. -/
def tasksAt (n m : Nat) (f g : Nat → TaskState) : List TaskState := (List.range n).map (fun i => if i < m then f i else g i)

theorem tasksAt_get (n m : Nat) (f g : Nat → TaskState) (i : Nat) (h : i < n) : (tasksAt n m f g)[i]? = some (if i < m then f i else g i) := by
  simp [tasksAt, h]

theorem tasksAt_set (n m : Nat) (f g : Nat → TaskState) (h : m < n) : (tasksAt n m f g).set m (f m) = tasksAt n (m + 1) f g := by
  apply List.ext_getElem?
  intro i
  by_cases hi : i < n
  · by_cases hm : i = m
    · subst hm; simp [tasksAt, hi]
    · rw [List.getElem?_set_ne (fun h => hm h.symm), tasksAt_get _ _ _ _ _ hi, tasksAt_get _ _ _ _ _ hi]
      by_cases h1 : i < m
      · rw [if_pos h1, if_pos (by omega)]
      · rw [if_neg h1, if_neg (by omega)]
  · rw [List.getElem?_eq_none (by simp [tasksAt]; omega), List.getElem?_eq_none (by simp [tasksAt]; omega)]

/-- The messages of main about the services below `m`. -/
def mainQueue {R : Type} (record : Nat → TaskEnd → R) (e : Nat → TaskEnd) (m : Nat) : List (Nat × R) :=
  ((List.range m).filter (fun i => e i ≠ .ok)).map (fun i => (0, record i (e i)))

theorem mainQueue_succ {R : Type} (record : Nat → TaskEnd → R) (e : Nat → TaskEnd) (m : Nat) :
    mainQueue record e (m + 1) = mainQueue record e m ++ if e m = .ok then [] else [(0, record m (e m))] := by
  unfold mainQueue
  rw [List.range_succ, List.filter_append, List.map_append]
  by_cases h : e m = .ok <;> simp [h]

theorem update_same {A : Type} (f : Nat → A) (i : Nat) (x y z : A) : Log.update (Log.update (Log.update f i x) i y) i z = Log.update f i z := by
  funext j
  simp only [Log.update]
  split <;> rfl

/-- Main has joined the services below `m`. -/
def joining {R : Type} (record : Nat → TaskEnd → R) (progs : Nat → List (Log.Call R)) (e : Nat → TaskEnd) (n m : Nat) : Whole R :=
  { tasks := tasksAt n m (fun i => .joined (e i)) (fun i => .ended (e i))
    main := .joining
    log := { Log.start (Log.update progs 0 []) with queue := (mainQueue record e m).map (fun p => .item p.1 p.2) } }

/-- All services end, and main joins them in order, while the logger does nothing. -/
theorem all_joined {R : Type} (enabled : R → Bool) (record : Nat → TaskEnd → R) (n : Nat) (progs : Nat → List (Log.Call R)) (e : Nat → TaskEnd)
    (hen : ∀ i, i < n → e i ≠ .ok → enabled (record i (e i)) = true) :
    WholeRun enabled record (wholeStart n progs)
      ((List.range n).map (fun i => WholeAct.finish i (e i)) ++ (List.range n).map (fun i => WholeAct.join i (e i)))
      (joining record progs e n n) := by
  have h1 : ∀ m, m ≤ n → WholeRun enabled record (wholeStart n progs) ((List.range m).map (fun i => WholeAct.finish i (e i)))
      { wholeStart n progs with tasks := tasksAt n m (fun i => .ended (e i)) (fun _ => .running) } := by
    intro m
    induction m with
    | zero =>
      intro _
      have : tasksAt n 0 (fun i => .ended (e i)) (fun _ => .running) = List.replicate n TaskState.running := by
        apply List.ext_getElem?
        intro i
        by_cases hi : i < n <;> simp [tasksAt, hi]
      rw [this]
      exact .nil
    | succ m ih =>
      intro hm
      rw [List.range_succ, List.map_append]
      refine .snoc (ih (by omega)) ?_
      rw [← tasksAt_set _ _ _ _ (by omega)]
      exact .finish { wholeStart n progs with tasks := tasksAt n m (fun i => .ended (e i)) (fun _ => .running) } m (e m) rfl
        (by rw [tasksAt_get _ _ _ _ _ (by omega), if_neg (by omega)])
  have h2 : ∀ m, m ≤ n → WholeRun enabled record (wholeStart n progs)
      ((List.range n).map (fun i => WholeAct.finish i (e i)) ++ (List.range m).map (fun i => WholeAct.join i (e i)))
      (joining record progs e n m) := by
    intro m
    induction m with
    | zero =>
      intro _
      have : tasksAt n 0 (fun i => .joined (e i)) (fun i => .ended (e i)) = tasksAt n n (fun i => .ended (e i)) (fun _ => .running) := by
        apply List.ext_getElem?
        intro i
        by_cases hi : i < n <;> simp [tasksAt, hi]
      simpa [joining, this, mainQueue, wholeStart, Log.start] using h1 n (Nat.le_refl n)
    | succ m ih =>
      intro hm
      rw [List.range_succ, List.map_append, ← List.append_assoc]
      refine .snoc (ih (by omega)) ?_
      have enext : joining record progs e n (m + 1) = { joining record progs e n m with
          tasks := (joining record progs e n m).tasks.set m (.joined (e m))
          log := { (joining record progs e n m).log with queue := (joining record progs e n m).log.queue ++ if e m = .ok then [] else [.item 0 (record m (e m))] } } := by
        simp only [joining, mainQueue_succ, List.map_append]
        rw [tasksAt_set n m (fun i => TaskState.joined (e i)) _ (by omega)]
        by_cases he : e m = .ok <;> simp [he]
      rw [enext]
      have hget : (tasksAt n m (fun i => TaskState.joined (e i)) (fun i => TaskState.ended (e i)))[m]? = some (.ended (e m)) := by
        rw [tasksAt_get _ _ _ _ _ (by omega), if_neg (by omega)]
      by_cases he : e m = .ok
      · rw [if_pos he, List.append_nil]
        simp only [he] at hget ⊢
        exact .joinOk (joining record progs e n m) m rfl hget
      · rw [if_neg he]
        refine .joinLog (joining record progs e n m) m (e m)
          (.send 0 (record m (e m))) _ rfl hget he ?_ (Or.inl rfl)
        have := Log.Step.send (enabled := enabled) (withRecord (joining record progs e n m).log (record m (e m))) 0 (record m (e m)) [] rfl rfl (by simp [withRecord, Log.update]) (hen m (by omega) he) (by simp [joining, withRecord, Log.start])
        simpa only [joining, withRecord, Log.start, update_same] using this
  exact h2 n (Nat.le_refl n)

/-- The consumer takes all records out of the channel. -/
theorem all_handed {R : Type} (enabled : R → Bool) (record : Nat → TaskEnd → R) (q : List (Nat × R)) (s : Whole R) (hm : s.main = .leaving 0)
    (hq : s.log.queue = q.map (fun p => .item p.1 p.2)) (hc : s.log.consumer = .idle) :
    WholeRun enabled record s (q.flatMap (fun p => [.log .recv, .log (.write p.1 p.2)])) { s with log := { s.log with queue := [] } } := by
  induction q generalizing s with
  | nil =>
    have : { s with log := { s.log with queue := [] } } = s := by
      obtain ⟨_, _, ⟨⟩⟩ := s
      simp only [List.map_nil] at hq
      simp [hq]
    rw [this]
    exact .nil
  | cons p q ih =>
    obtain ⟨t, r⟩ := p
    have g1 : WholeStep enabled record s (.log .recv) { s with log := { s.log with queue := q.map (fun p => .item p.1 p.2), consumer := .writing t r } } :=
      .log s .recv _ (by simp [hm]) rfl (by simp [actThread]) (.recvItem _ t r _ hc hq)
    have g2 := WholeStep.log (enabled := enabled) (record := record)
      { s with log := { s.log with queue := q.map (fun p => .item p.1 p.2), consumer := .writing t r } } (.write t r) _ (by simp [hm]) rfl
      (by simp [actThread]) (.write _ t r rfl)
    have g3 := ih { s with log := { s.log with queue := q.map (fun p => .item p.1 p.2), consumer := .idle } } hm rfl rfl
    simp only [← hc] at g3
    have g4 : WholeRun enabled record s [.log .recv, .log (.write t r)]
        { s with log := { s.log with queue := q.map (fun p => .item p.1 p.2), consumer := .idle } } := .snoc (.snoc .nil g1) g2
    rw [← hc] at g4
    exact g4.trans g3

/-- A run of the process in which all services end as given, main finds out, and the process ends before the last flush. -/
theorem ends_unflushed {R : Type} (enabled : R → Bool) (record : Nat → TaskEnd → R) (n : Nat) (progs : Nat → List (Log.Call R)) (e : Nat → TaskEnd)
    (hen : ∀ i, i < n → e i ≠ .ok → enabled (record i (e i)) = true) :
    ∃ s, WholeRun enabled record (wholeStart n progs)
      (((List.range n).map (fun i => WholeAct.finish i (e i)) ++ (List.range n).map (fun i => WholeAct.join i (e i))) ++ [.ret, .drop] ++
        (mainQueue record e n).flatMap (fun p => [.log .recv, .log (.write p.1 p.2)]) ++ [.log .closed, .log .signal, .exit]) s ∧ s.main = .exited 0 := by
  have h1 := all_joined enabled record n progs e hen
  have h2 := WholeRun.snoc h1 (.ret _ rfl (by
    intro t ht
    simp only [joining, tasksAt, List.mem_map, List.mem_range] at ht
    obtain ⟨i, hi, rfl⟩ := ht
    exact ⟨e i, by rw [if_pos hi]⟩))
  have h3 := WholeRun.snoc h2 (.drop _ 0 _ rfl (.drop _ rfl))
  have h4 := h3.trans (all_handed enabled record (mainQueue record e n) _ rfl rfl rfl)
  have h5 := WholeRun.snoc h4 (.log _ .closed _ (by simp) rfl (by simp [actThread]) (.closed _ rfl rfl (by simp)))
  have h6 := WholeRun.snoc h5 (.log _ .signal _ (by simp) rfl (by simp [actThread]) (.signal _ rfl))
  have h7 := WholeRun.snoc h6 (.exit _ 0 _ rfl (.dropRet _ rfl rfl))
  simp only [List.append_assoc, List.cons_append, List.nil_append] at h7 ⊢
  exact ⟨_, h7, rfl⟩

/-- Small records stay in the buffer as long as there is no flush. -/
theorem only_buffered (i : Nat) (calls : List (Nat × FileCall)) (st : Disk × List Dest) (moments : Nat → Moment) (st' : Disk × List Dest)
    (hc : callDests st moments calls = .value st') (w : BufW) (hw : st.2[i]? = some (.file w)) (hall : .flush ∉ callsOn i calls)
    (hlen : w.buf.length + (bytesOf (callsOn i calls)).length < w.cap) :
    st'.2[i]? = some (.file { w with buf := w.buf ++ bytesOf (callsOn i calls) }) := by
  induction calls generalizing st moments w with
  | nil =>
    simp only [callDests, Outcome.value.injEq] at hc
    subst hc
    simpa [callsOn, bytesOf] using hw
  | cons call calls ih =>
    simp only [callDests] at hc
    rw [callsOn_cons] at hall hlen ⊢
    cases hx : callDest st (moments 0) call with
    | error => rw [hx] at hc; cases hc
    | panic => rw [hx] at hc; cases hc
    | value st1 =>
      rw [hx] at hc
      obtain ⟨j, fc⟩ := call
      unfold callDest at hx
      by_cases he : j = i
      · subst he
        simp only [hw] at hx
        cases fc with
        | flush => simp at hall
        | write b =>
          simp only [if_true, List.cons_append, List.nil_append, bytesOf, List.flatMap_cons, FileCall.bytes, List.length_append] at hlen
          rw [show (w.buf.length + (b.length + (List.flatMap FileCall.bytes (callsOn j calls)).length) < w.cap) =
            (w.buf.length + (b.length + (bytesOf (callsOn j calls)).length) < w.cap) from rfl] at hlen
          simp only [Dest.call, fileAppend_small st.1 w b (by omega) (by omega), Outcome.value.injEq] at hx
          have hlt : j < st.2.length := (List.getElem?_eq_some_iff.mp hw).1
          have := ih st1 _ hc { w with buf := w.buf ++ b } (by rw [← hx]; simp [hlt]) (fun h => hall (List.mem_append_right _ h))
            (by simp only [List.length_append]; omega)
          rw [this]
          simp [bytesOf, FileCall.bytes]
      · simp only [he, if_false, List.nil_append] at hall hlen ⊢
        refine ih st1 _ hc w ?_ hall hlen
        cases hj : st.2[j]? with
        | none => rw [hj] at hx; cases hx; exact hw
        | some x =>
          rw [hj] at hx
          simp only at hx
          cases hk : x.call st.1 (moments 0) fc with
          | error => rw [hk] at hx; cases hx
          | panic => rw [hk] at hx; cases hx
          | value z =>
            rw [hk] at hx
            simp only [Outcome.value.injEq] at hx
            rw [← hx]
            simp only [List.getElem?_set_ne he]
            exact hw

theorem wholeLog_append {R : Type} (enabled : R → Bool) (record : Nat → TaskEnd → R) (a b : List (WholeAct R)) :
    wholeLog enabled record (a ++ b) = wholeLog enabled record a ++ wholeLog enabled record b := List.filterMap_append ..

/-- What is written in that run. -/
theorem unflushed_log {R : Type} (enabled : R → Bool) (record : Nat → TaskEnd → R) (n : Nat) (e : Nat → TaskEnd) :
    ∀ W, W = wholeLog enabled record (((List.range n).map (fun i => WholeAct.finish i (e i)) ++ (List.range n).map (fun i => WholeAct.join i (e i))) ++ [.ret, .drop] ++
        (mainQueue record e n).flatMap (fun p => [.log .recv, .log (.write p.1 p.2)]) ++ [.log .closed, .log .signal, .exit]) →
      Log.Spec.writes W = mainQueue record e n ∧ .flush ∉ W := by
  intro W hW
  have h1 : ∀ l : List Nat, wholeLog enabled record (l.map (fun i => WholeAct.finish i (e i))) = [] := by
    intro l
    induction l with
    | nil => rfl
    | cons i l ih => simpa [wholeLog, WholeAct.logAct] using ih
  have h2 : ∀ l : List Nat, Log.Spec.writes (wholeLog enabled record (l.map (fun i => WholeAct.join i (e i)))) = [] ∧
      .flush ∉ wholeLog enabled record (l.map (fun i => WholeAct.join i (e i))) := by
    intro l
    induction l with
    | nil => exact ⟨rfl, by simp [wholeLog]⟩
    | cons i l ih =>
      rw [List.map_cons, ← List.singleton_append, wholeLog_append, Log.writes_append]
      have : Log.Spec.writes (wholeLog enabled record [WholeAct.join i (e i)]) = [] ∧ .flush ∉ wholeLog enabled record [WholeAct.join i (e i)] := by
        by_cases ho : e i = .ok
        · rw [ho]; exact ⟨rfl, by simp [wholeLog, WholeAct.logAct]⟩
        · have := (logAct_fail enabled record i (e i) ho).1
          simp only [wholeLog, List.filterMap_cons, List.filterMap_nil, this]
          cases enabled (record i (e i)) <;> exact ⟨rfl, by simp⟩
      exact ⟨by rw [this.1, ih.1]; rfl, by rw [List.mem_append]; exact fun h => h.elim this.2 ih.2⟩
  have h3 : ∀ q : List (Nat × R), Log.Spec.writes (wholeLog enabled record (q.flatMap (fun p => [WholeAct.log .recv, .log (.write p.1 p.2)]))) = q ∧
      .flush ∉ wholeLog enabled record (q.flatMap (fun p => [WholeAct.log .recv, .log (.write p.1 p.2)])) := by
    intro q
    induction q with
    | nil => exact ⟨rfl, by simp [wholeLog]⟩
    | cons p q ih =>
      rw [List.flatMap_cons, wholeLog_append, Log.writes_append, ih.1]
      exact ⟨rfl, by rw [List.mem_append]; exact fun h => h.elim (by simp [wholeLog, WholeAct.logAct]) ih.2⟩
  rw [wholeLog_append, wholeLog_append, wholeLog_append, wholeLog_append, h1] at hW
  subst hW
  constructor
  · simp only [Log.writes_append, (h2 _).1, (h3 _).1]
    simp [wholeLog, WholeAct.logAct, Log.Spec.writes, List.filterMap_cons]
  · simp only [List.mem_append, not_or]
    exact ⟨⟨⟨⟨by simp, (h2 _).2⟩, by simp [wholeLog, WholeAct.logAct]⟩, (h3 _).2⟩, by simp [wholeLog, WholeAct.logAct]⟩

theorem flush_op {wants : Item → Bool} {render : Item → Bytes} (W : List (Log.Act Item)) (h : FileOp.flush ∈ Log.fileOps wants render W) : .flush ∈ W := by
  induction W with
  | nil => cases h
  | cons a W ih =>
    cases a with
    | flush => simp
    | write t r =>
      simp only [Log.fileOps] at h
      split at h
      · simp only [List.mem_cons, reduceCtorEq, false_or] at h
        exact List.mem_cons_of_mem _ (ih h)
      · exact List.mem_cons_of_mem _ (ih h)
    | _ => exact List.mem_cons_of_mem _ (ih h)

theorem linesOf_length_le (f : Nat × Item → Bool) (l : List (Nat × Item)) : (linesOf (l.filter f)).length ≤ (linesOf l).length := by
  induction l with
  | nil => exact Nat.le_refl _
  | cons p l ih =>
    rw [List.filter_cons]
    split
    · simp only [linesOf, List.flatMap_cons, List.length_append] at ih ⊢; omega
    · simp only [linesOf, List.flatMap_cons, List.length_append] at ih ⊢; omega

/-- A run of the logger without a flush, with few records: the file is as it was. -/
theorem unflushed_files {U : Unicode} (hU : LawfulUnicode U) (pathExists openOk : Str → Bool) (order : List Str → List Str)
    (horder : ∀ l, (order l).Perm l) (c c' : Config) (hslab : c.slab = []) (hfix : c.autofix pathExists = some c')
    (as : List AppenderInit) (has : c'.appenders openOk = some as) (k : Consumer) (l : Level)
    (hk : c'.startLogging U openOk order true = .value (k, l))
    (W : List (Log.Act Item)) (hd : ∀ p ∈ Log.Spec.writes W, Deliverable as p.2) (g2 : .flush ∉ W) (hlen : (linesOf (Log.Spec.writes W)).length < 8092)
    (d : Disk) (hs : Sane d) (hok : NoFail d) (ends : Nat → Nat) (st0 : Disk × List Dest) (hopen : openDests d ends as = some st0)
    (i : Nat) (a : AppenderInit) (fp : Str) (ha : as[i]? = some a) (hfp : a.path = some fp) (hdaily : a.daily = false)
    (hsole : SoleName d fp) (hone : ∀ j b, as[j]? = some b → b.path = some fp → j = i) :
    ∃ calls, k.calls W k.bufs = some calls ∧ ∀ moments st, FreeDests st0 moments calls → callDests st0 moments calls = .value st →
      content st.1 fp = content d fp := by
  obtain ⟨calls, c1, c2⟩ := calls_eq hU pathExists openOk order horder c c' hslab hfix as has k l hk W hd
  have c2 := c2 i a ha (by rw [hfp]; simp)
  obtain ⟨d0, ds⟩ := st0
  obtain ⟨r0, q1, q2⟩ := openDests_among as d hs hok ends d0 ds hopen i a fp ha hfp hsole hone
  obtain ⟨w0, hw0⟩ := q2 hdaily
  refine ⟨calls, c1, fun moments st hfree hrun => ?_⟩
  obtain ⟨parts, old, r, since, m1, _, _, _⟩ := Among.run calls (d0, ds) [] [] _ 0 r0 q1 moments hfree st hrun
  have hflush : .flush ∉ callsOn i calls := by
    intro hm
    have : FileOp.flush ∈ (callsOn i calls).map FileCall.op := List.mem_map.mpr ⟨_, hm, rfl⟩
    rw [c2] at this
    exact g2 (flush_op W this)
  have hbytes : bytesOf (callsOn i calls) = linesOf ((Log.Spec.writes W).filter (fun p => a.Wants p.2)) := by
    rw [bytesOf_written, c2, Log.written_fileOps]; rfl
  have hshort : (bytesOf (callsOn i calls)).length < 8092 := by
    refine Nat.lt_of_le_of_lt ?_ hlen
    rw [hbytes]
    exact linesOf_length_le _ _
  have hcap : 8092 ≤ bufferSize a.bufsize := by unfold bufferSize; split <;> omega
  -- the writer at the start and at the end
  rcases q1.here with q3 | ⟨q3, _, _⟩
  · rw [hw0] at q3; cases q3
  rw [hw0] at q3
  cases q3
  have hpend := q1.pending
  have hcapEq := q1.parted.capEq
  have hb := only_buffered i calls (d0, ds) moments st hrun r0.inner hw0 hflush (by
    simp only [BufW.pending] at hpend
    omega)
  rcases m1.here with m5 | ⟨m4, m5, m6⟩
  · rw [hb] at m5; cases m5
  rw [hb] at m4
  simp only [Option.some.injEq, Dest.file.injEq] at m4
  subst m5
  obtain ⟨cur, k1, k2⟩ := m1.parted.split
  have hold := m1.parted.olds
  simp only [List.map_nil, List.nil_append, List.length_nil, List.replicate_zero, List.cons.injEq, and_true, List.flatten_nil] at k1 hold
  simp only [BufW.pending] at hpend
  have hbuf : r0.inner.buf = [] := List.length_eq_zero_iff.mp (by omega)
  have hfl : r0.inner.file.inflight.getD [] = [] := List.length_eq_zero_iff.mp (by omega)
  simp only [content, m6]
  rw [← m4] at k2 ⊢
  simp only [BufW.total, AFile.total, hbuf, hfl, List.nil_append, List.append_nil, ← k1, hold] at k2
  simp only [content] at k2
  exact List.append_cancel_right k2

/-- **C215**, negation for the code as written: whatever the services come to and whatever is configured, the process can end, with status 0, while a log
file for the root is as it was before the start, although main has logged about every service that failed. It is enough that the lines together are shorter
than the smallest buffer. -/
theorem C215_lost_violated {U : Unicode} (hU : LawfulUnicode U) (pathExists openOk : Str → Bool) (order : List Str → List Str)
    (horder : ∀ l, (order l).Perm l) (c c' : Config) (hslab : c.slab = []) (hfix : c.autofix pathExists = some c')
    (as : List AppenderInit) (has : c'.appenders openOk = some as) (k : Consumer) (l : Level)
    (hk : c'.startLogging U openOk order true = .value (k, l))
    (n : Nat) (progs : Nat → List (Log.Call Item)) (record : Nat → TaskEnd → Item) (hrec : Tells record) (hd : ∀ j o, Deliverable as (record j o))
    (e : Nat → TaskEnd) (hlen : (linesOf (((List.range n).filter (fun j => e j ≠ .ok)).map (fun j => (0, record j (e j))))).length < 8092)
    (d : Disk) (hs : Sane d) (hok : NoFail d) (ends : Nat → Nat) (st0 : Disk × List Dest) (hopen : openDests d ends as = some st0)
    (i : Nat) (a : AppenderInit) (fp : Str) (ha : as[i]? = some a) (hfp : a.path = some fp) (hdaily : a.daily = false)
    (hsole : SoleName d fp) (hone : ∀ j b, as[j]? = some b → b.path = some fp → j = i) :
    ∃ tr s, WholeRun (passes l) record (wholeStart n progs) tr s ∧ s.main = .exited 0 ∧ (∀ j, j < n → .finish j (e j) ∈ tr) ∧
      ∃ calls, k.calls (wholeLog (passes l) record tr) k.bufs = some calls ∧ ∀ moments st, FreeDests st0 moments calls →
        callDests st0 moments calls = .value st → content st.1 fp = content d fp := by
  obtain ⟨s, h1, h2⟩ := ends_unflushed (passes l) record n progs e (fun j _ hj => by
    simp only [passes, (hrec.spec j (e j) hj).1]
    cases l <;> decide)
  obtain ⟨g1, g2⟩ := unflushed_log (passes l) record n e _ rfl
  refine ⟨_, s, h1, h2, fun j hj => ?_, ?_⟩
  · simp only [List.mem_append, List.mem_map, List.mem_range]
    exact Or.inl (Or.inl (Or.inl (Or.inl ⟨j, hj, rfl⟩)))
  refine unflushed_files hU pathExists openOk order horder c c' hslab hfix as has k l hk _ (fun p hp => ?_) g2 (by rw [g1]; exact hlen) d hs hok ends st0 hopen
    i a fp ha hfp hdaily hsole hone
  rw [g1] at hp
  obtain ⟨j, _, rfl⟩ := List.mem_map.mp hp
  exact hd j (e j)

/-! ## Examples -/

/-- What is logged about a service, for the examples. -/
def sayHow : Nat → TaskEnd → Item
  | _, .panic => Rec.item b!"t" b!"src/main.rs" 216 ⟨.error, [], b!"join error, " ++ b!"JoinError"⟩
  | _, _ => Rec.item b!"t" b!"src/main.rs" 212 ⟨.error, [], b!"service serve error, " ++ b!"Os"⟩

example : Tells sayHow := by
  intro i o ho
  cases o with
  | ok => exact absurd rfl ho
  | err => exact ⟨.err, b!"Os", _, b!"t", b!"src/main.rs", 212, rfl, rfl, rfl⟩
  | panic => exact ⟨.panic, b!"JoinError", _, b!"t", b!"src/main.rs", 216, rfl, rfl, rfl⟩

/-- Of two services one fails; a connection logs a record, too. With `last` the thread of the logger flushes at its end. -/
def twoEnd (last : List (WholeAct Item)) : List (WholeAct Item) :=
  [.finish 1 .err, .log (.send 7 (sampleItems[1])), .join 1 .err, .finish 0 .ok, .join 0 .ok, .ret, .drop, .log .recv, .log (.write 7 (sampleItems[1])),
    .log .recv, .log (.write 0 (sayHow 1 .err)), .log .closed, .log .signal] ++ last ++ [.exit]

/-- Both are runs of the process that end with status 0. -/
example : (∃ s, WholeRun (passes .trace) sayHow (wholeStart 2 (fun t => if t = 7 then sampleItems.tail.map .log else [])) (twoEnd [.log .flush]) s ∧
      s.main = .exited 0 ∧ s.log.consumer = .done) ∧
    (∃ s, WholeRun (passes .trace) sayHow (wholeStart 2 (fun t => if t = 7 then sampleItems.tail.map .log else [])) (twoEnd []) s ∧ s.main = .exited 0) := by
  have h : ∃ s, WholeRun (passes .trace) sayHow (wholeStart 2 (fun t => if t = 7 then sampleItems.tail.map .log else []))
      ([.finish 1 .err, .log (.send 7 (sampleItems[1])), .join 1 .err, .finish 0 .ok, .join 0 .ok, .ret, .drop, .log .recv, .log (.write 7 (sampleItems[1])),
        .log .recv, .log (.write 0 (sayHow 1 .err)), .log .closed, .log .signal]) s ∧ s.main = .leaving 0 ∧ s.log.consumer = .lastFlush ∧
        s.log.guard = .waiting ∧ s.log.signal = true := by
    have h1 := WholeRun.one (enabled := passes .trace) (record := sayHow)
      (.finish (wholeStart 2 (fun t => if t = 7 then sampleItems.tail.map .log else [])) 1 .err rfl rfl)
    have h2 := h1.snoc (.log _ (.send 7 (sampleItems[1])) _ (by simp [wholeStart]) rfl (by simp [actThread, wholeStart])
      (.send _ 7 _ [] rfl rfl rfl (by decide) (by simp [wholeStart, Log.start])))
    have h3 := h2.snoc (.joinLog _ 1 .err (.send 0 (sayHow 1 .err)) _ rfl rfl (by simp)
      (.send _ 0 _ [] rfl rfl (by simp [withRecord, Log.update]) (by decide) (by simp [withRecord, wholeStart, Log.start])) (Or.inl rfl))
    have h4 := h3.snoc (.finish _ 0 .ok rfl rfl)
    have h5 := h4.snoc (.joinOk _ 0 rfl rfl)
    have h6 := h5.snoc (.ret _ rfl (by simp [wholeStart]))
    have h7 := h6.snoc (.drop _ 0 _ rfl (.drop _ rfl))
    have h8 := h7.snoc (.log _ .recv _ (by simp) rfl (by simp [actThread]) (.recvItem _ 7 _ _ rfl rfl))
    have h9 := h8.snoc (.log _ (.write 7 _) _ (by simp) rfl (by simp [actThread]) (.write _ 7 _ rfl))
    have h10 := h9.snoc (.log _ .recv _ (by simp) rfl (by simp [actThread]) (.recvItem _ 0 _ _ rfl rfl))
    have h11 := h10.snoc (.log _ (.write 0 _) _ (by simp) rfl (by simp [actThread]) (.write _ 0 _ rfl))
    have h12 := h11.snoc (.log _ .closed _ (by simp) rfl (by simp [actThread]) (.closed _ rfl rfl (by simp)))
    have h13 := h12.snoc (.log _ .signal _ (by simp) rfl (by simp [actThread]) (.signal _ rfl))
    exact ⟨_, h13, rfl, rfl, rfl, rfl⟩
  obtain ⟨s, h, e1, e2, e3, e4⟩ := h
  constructor
  · have g := h.snoc (.log _ .flush _ (by simp [e1]) rfl (by simp [actThread]) (.lastFlush _ e2))
    exact ⟨_, g.snoc (.exit _ 0 _ e1 (.dropRet _ e3 e4)), rfl, rfl⟩
  · exact ⟨_, h.snoc (.exit _ 0 _ e1 (.dropRet _ e3 e4)), rfl⟩

/-- In the first the file for the root has both lines, in the second it is empty. -/
example : ([[.log .flush], []].map (fun last => match (twoFiles.autofix (fun _ => true)).map (fun c => c.startLogging asciiOnly (fun _ => true) id true) with
    | some (.value (k, _)) =>
      match k.calls (wholeLog (passes .trace) sayHow (twoEnd last)) k.bufs, openDests emptyDisk (fun _ => 100) twoFilesAppenders with
      | some calls, some st0 =>
        match callDests st0 ticking calls with
        | .value st => some (content st.1 u!"./logs//httpd.TRACE.log")
        | _ => none
      | _, _ => none
    | _ => none)) = [some (jsonRender (sampleItems[1]) ++ jsonRender (sayHow 1 .err)), some []] := by decide +kernel

end Httpd
