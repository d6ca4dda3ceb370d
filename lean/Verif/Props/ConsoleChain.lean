import Verif.Model.ConsoleChain
import Verif.Props.Console
import Verif.Props.LogChain
/-!
# C189: from a connection to standard output
-/

namespace Httpd.Console
open Spec

/-- The step with which a flush returns. -/
theorem flush_returns {pre post : List Call} {i : Nat} {t u : State} (r : Run (State.init (pre ++ .flush i :: post)) t) (st : Step t u)
    (ht : ¬ t.todo.length ≤ post.length) (hret : u.todo.length ≤ post.length) :
    t.todo = .flush i :: post ∧ t.busy i = none ∧ t.needFlush i = false := by
  obtain ⟨p', ⟨c, c', rest, e1, e2, e3⟩ | ⟨_, e2⟩⟩ := todo_run r
  case inr => rw [e2] at ht; simp at ht
  have hur : u.todo.length ≤ post.length → rest.length = post.length := by
    intro hu
    rw [e2, List.length_cons] at ht
    cases st with
    | written hd => rw [e2] at hd; obtain ⟨_, rfl⟩ := List.cons.inj hd; simp only at hu; omega
    | flushed hd => rw [e2] at hd; obtain ⟨_, rfl⟩ := List.cons.inj hd; simp only at hu; omega
    | hand hd => rw [e2] at hd; obtain ⟨_, rfl⟩ := List.cons.inj hd; simp only [List.length_cons] at hu; omega
    | handFlush => rw [e2, List.length_cons] at hu; omega
    | wrote => rw [e2, List.length_cons] at hu; omega
    | didFlush => rw [e2, List.length_cons] at hu; omega
  have hrl := hur hret
  obtain ⟨e4, e5⟩ := List.append_inj' e1 (by simp [hrl])
  obtain ⟨rfl, rfl⟩ := List.cons.inj e5
  have e6 : c' = .flush i := by
    rcases e3 with e3 | ⟨_, _, _, e3, _⟩
    · exact e3
    · simp at e3
  subst e6
  refine ⟨e2, ?_⟩
  cases st with
  | written hd => rw [e2] at hd; simp at hd
  | hand hd => rw [e2] at hd; simp at hd
  | flushed hd hb hn =>
    rw [e2] at hd
    obtain ⟨hc, _⟩ := List.cons.inj hd
    obtain rfl := Call.flush.inj hc
    exact ⟨hb, hn⟩
  | handFlush => rw [e2, List.length_cons] at hret; omega
  | wrote => rw [e2, List.length_cons] at hret; omega
  | didFlush => rw [e2, List.length_cons] at hret; omega

theorem ofOne_prefix (i : Nat) {l m : List (Nat × Bytes)} (h : l <+: m) : ofOne i l <+: ofOne i m := by
  obtain ⟨z, rfl⟩ := h
  rw [ofOne_append]
  exact List.prefix_append _ _

/-- What is written, of all appenders at once; and what has been at the latest when a flush has returned. -/
theorem run_flushed {calls : List Call} {s : State} (hs : ∀ p ∈ records calls, p.2 ≠ [] ∧ p.2.length ≤ maxChunk)
    (h : Run (State.init calls) s) :
    ∃ done, Inv calls s done ∧ ∀ pre post i, calls = pre ++ .flush i :: post → s.todo.length ≤ post.length →
      ofOne i (records pre) <+: ofOne i done := by
  generalize hi : State.init calls = s0 at h
  induction h with
  | refl =>
    subst hi
    refine ⟨[], inv_init calls (fun p hp => (hs p hp).2), fun pre post i e hl => ?_⟩
    rw [e] at hl
    simp only [State.init, List.length_append, List.length_cons] at hl
    omega
  | @snoc t u r st ih =>
    obtain ⟨done, hd, hf⟩ := ih
    obtain ⟨done', hd', _, hle⟩ := inv_step hd st
    refine ⟨done', hd', fun pre post i e hl => ?_⟩
    by_cases ht : t.todo.length ≤ post.length
    · exact (hf pre post i e ht).trans (ofOne_prefix i hle)
    · subst e hi
      obtain ⟨e2, hb, _⟩ := flush_returns r st ht hl
      refine List.IsPrefix.trans ?_ (ofOne_prefix i hle)
      have hp := hd.parts i
      rw [left_eq (fun p hp => (hs p hp).1), e2] at hp
      have hlf : left (.flush i :: post) = records post := by
        rw [left_eq]
        · rfl
        · intro p hp; exact (hs p (by rw [records_append]; exact List.mem_append_right _ hp)).1
      have hfl : inFlight t i = [] := by simp [inFlight, hb]
      rw [hlf, records_append, ofOne_append, hfl, List.append_nil] at hp
      rw [← List.append_cancel_right hp]
      exact List.prefix_refl _

end Httpd.Console

namespace Httpd

open Spec MultiMap

/-! ## The calls of consoles -/

theorem consoleCalls_append (as : List AppenderInit) (x y : List (Nat × FileCall)) :
    consoleCalls as (x ++ y) = consoleCalls as x ++ consoleCalls as y := by
  simp [consoleCalls]

/-- What is written in a list of calls. -/
def writtenBy : List FileCall → List Bytes
  | [] => []
  | .write b :: cs => b :: writtenBy cs
  | .flush :: cs => writtenBy cs

theorem writtenBy_append (x y : List FileCall) : writtenBy (x ++ y) = writtenBy x ++ writtenBy y := by
  induction x with
  | nil => rfl
  | cons c x ih => cases c <;> simp [writtenBy, ih]

theorem console_cons (as : List AppenderInit) (c : Nat × FileCall) (cs : List (Nat × FileCall)) :
    consoleCalls as (c :: cs) = consoleCalls as [c] ++ consoleCalls as cs := consoleCalls_append as [c] cs

/-- The records handed to one console. -/
theorem console_records (as : List AppenderInit) (calls : List (Nat × FileCall)) (i : Nat) (a : AppenderInit) (ha : as[i]? = some a)
    (hp : a.path = none) : Console.Spec.ofOne i (Console.Spec.records (consoleCalls as calls)) = writtenBy (callsOn i calls) := by
  induction calls with
  | nil => rfl
  | cons c cs ih =>
    obtain ⟨j, call⟩ := c
    rw [console_cons, Console.records_append, Console.ofOne_append, ih,
      show callsOn i ((j, call) :: cs) = callsOn i [(j, call)] ++ callsOn i cs from callsOn_append i [(j, call)] cs, writtenBy_append]
    congr 1
    by_cases hj : j = i
    · subst hj
      cases call <;> simp [consoleCalls, ha, hp, callsOn, writtenBy, Console.Spec.records, Console.Spec.ofOne]
    · have e : callsOn i [(j, call)] = [] := by simp [callsOn, hj]
      rw [e]
      cases hb : as[j]? with
      | none => simp [consoleCalls, hb, writtenBy, Console.Spec.records, Console.Spec.ofOne]
      | some b =>
        by_cases hbp : b.path = none <;> cases call <;>
          simp [consoleCalls, hb, hbp, writtenBy, Console.Spec.records, Console.Spec.ofOne, hj]

/-- What is not a console gets nothing. -/
theorem console_records_other (as : List AppenderInit) (calls : List (Nat × FileCall)) (i : Nat)
    (hi : ∀ a, as[i]? = some a → a.path ≠ none) : Console.Spec.ofOne i (Console.Spec.records (consoleCalls as calls)) = [] := by
  induction calls with
  | nil => rfl
  | cons c cs ih =>
    obtain ⟨j, call⟩ := c
    rw [console_cons, Console.records_append, Console.ofOne_append, ih, List.append_nil]
    cases hb : as[j]? with
    | none => simp [consoleCalls, hb, Console.Spec.records, Console.Spec.ofOne]
    | some b =>
      by_cases hbp : b.path = none
      · have hj : j ≠ i := by rintro rfl; exact hi b hb hbp
        cases call <;> simp [consoleCalls, hb, hbp, Console.Spec.records, Console.Spec.ofOne, hj]
      · simp [consoleCalls, hb, hbp, Console.Spec.records, Console.Spec.ofOne]

/-- A flush among the calls of one console is one among all calls of consoles. -/
theorem console_split (as : List AppenderInit) (calls : List (Nat × FileCall)) (i : Nat) (a : AppenderInit) (ha : as[i]? = some a)
    (hp : a.path = none) (x y : List FileCall) (h : callsOn i calls = x ++ .flush :: y) :
    ∃ c1 c2, calls = c1 ++ (i, .flush) :: c2 ∧ callsOn i c1 = x ∧
      consoleCalls as calls = consoleCalls as c1 ++ .flush i :: consoleCalls as c2 := by
  have key : ∃ c1 c2, calls = c1 ++ (i, .flush) :: c2 ∧ callsOn i c1 = x := by
    induction calls generalizing x with
    | nil => simp [callsOn] at h
    | cons c cs ih =>
      obtain ⟨j, call⟩ := c
      by_cases hj : j = i
      · subst hj
        have e : callsOn j ((j, call) :: cs) = call :: callsOn j cs := by simp [callsOn]
        rw [e] at h
        cases x with
        | nil =>
          obtain ⟨rfl, _⟩ := List.cons.inj h
          exact ⟨[], cs, rfl, rfl⟩
        | cons z x =>
          obtain ⟨rfl, h'⟩ := List.cons.inj h
          obtain ⟨c1, c2, e1, e2⟩ := ih x h'
          exact ⟨(j, call) :: c1, c2, by rw [e1]; rfl, by rw [← e2]; simp [callsOn]⟩
      · have e : callsOn i ((j, call) :: cs) = callsOn i cs := by simp [callsOn, hj]
        rw [e] at h
        obtain ⟨c1, c2, e1, e2⟩ := ih x h
        exact ⟨(j, call) :: c1, c2, by rw [e1]; rfl, by rw [← e2]; simp [callsOn, hj]⟩
  obtain ⟨c1, c2, e1, e2⟩ := key
  refine ⟨c1, c2, e1, e2, ?_⟩
  rw [e1, consoleCalls_append, console_cons]
  congr 1
  simp [consoleCalls, ha, hp]

theorem writtenBy_ops (wants : Item → Bool) (render : Item → Bytes) (tr : List (Log.Act Item)) (cs : List FileCall)
    (h : cs.map FileCall.op = Log.fileOps wants render tr) :
    writtenBy cs = ((Log.Spec.writes tr).filter (fun p => wants p.2)).map (fun p => render p.2) := by
  induction tr generalizing cs with
  | nil =>
    simp only [Log.fileOps, List.map_eq_nil_iff] at h
    subst h; rfl
  | cons act tr ih =>
    cases act with
    | write t item =>
      simp only [Log.fileOps] at h
      simp only [Log.Spec.writes, List.filter_cons]
      by_cases hw : wants item = true
      · rw [if_pos hw] at h
        obtain ⟨z, cs', rfl, e1, e2⟩ := List.map_eq_cons_iff.mp h
        rw [if_pos hw]
        cases z with
        | write b =>
          simp only [FileCall.op, FileOp.write.injEq] at e1
          simp [writtenBy, e1, ih cs' e2]
        | flush => cases e1
      · rw [if_neg hw] at h
        rw [if_neg hw]
        exact ih cs h
    | flush =>
      simp only [Log.fileOps] at h
      obtain ⟨z, cs', rfl, e1, e2⟩ := List.map_eq_cons_iff.mp h
      cases z with
      | write b => cases e1
      | flush => exact ih cs' e2
    | _ => exact ih cs h

/-! ## C189 -/

/-- **C189.** From log calls of any threads to standard output, for all consoles of a configuration, whose lines are of up to 2 MiB each. When a
flush of the log has returned, and whatever calls of appenders follow: standard output shows lines, one after the other; those of one console begin with
the lines of the records that were logged before the flush and are for it - for each thread exactly these in the order of its calls -, and are,
up to those of the calls that follow, lines of records that were logged and are for it, for each thread in the order of its calls, none skipped. -/
theorem C189_console {U : Unicode} (hU : LawfulUnicode U) (pathExists openOk : Str → Bool) (order : List Str → List Str)
    (horder : ∀ l, (order l).Perm l) (c c' : Config) (hslab : c.slab = []) (hfix : c.autofix pathExists = some c')
    (as : List AppenderInit) (has : c'.appenders openOk = some as) (k : Consumer) (l : Level)
    (hk : c'.startLogging U openOk order true = .value (k, l))
    (progs : Nat → List (Log.Call Item)) (tr1 tr2 : List (Log.Act Item)) (t n : Nat) (s : Log.Sys Item)
    (h : Log.Run (passes l) (Log.start progs) (tr1 ++ .flushCall t n :: tr2 ++ [.flushRet t n]) s)
    (hd : ∀ p ∈ Log.Spec.sends (tr1 ++ .flushCall t n :: tr2), Deliverable as p.2)
    (hsmall : ∀ p ∈ Log.Spec.sends (tr1 ++ .flushCall t n :: tr2), (colorRender .default p.2).length ≤ 2097152) :
    ∃ calls, k.calls (tr1 ++ .flushCall t n :: tr2) k.bufs = some calls ∧
      ∀ more, (∀ p ∈ Console.Spec.records more, p.2.length ≤ 2097152 ∧ Console.Spec.IsLines p.2) →
      ∀ o, Console.Run (.init (consoleCalls as calls ++ more)) o → o.todo.length ≤ more.length →
      ∃ done, o.out.shown = Console.Spec.text done ∧
        (∀ i, (∀ a, as[i]? = some a → a.path ≠ none) → Console.Spec.ofOne i done <+: Console.Spec.ofOne i (Console.Spec.records more)) ∧
        ∀ i a, as[i]? = some a → a.path = none → ∃ before after : List (Nat × Item),
          before.map (fun p => colorRender .default p.2) <+: Console.Spec.ofOne i done ∧
          Console.Spec.ofOne i done <+:
            (before ++ after).map (fun p => colorRender .default p.2) ++ Console.Spec.ofOne i (Console.Spec.records more) ∧
          (∀ u, Log.Spec.byThread u before = (Log.Spec.byThread u (Log.Spec.sends tr1)).filter a.Wants) ∧
          (∀ u, Log.Spec.byThread u (before ++ after) <+: (Log.Spec.logged (passes l) (progs u)).filter a.Wants) := by
  obtain ⟨s1, _, h1, _⟩ := h.cut (tr1 ++ .flushCall t n :: tr2) (.flushRet t n) [] rfl
  obtain ⟨w1, w2, _⟩ := Log.C66_order (passes l) progs _ s1 h1
  obtain ⟨calls, c1, c2⟩ := calls_any hU pathExists openOk order horder c c' hslab hfix as has k l hk (tr1 ++ .flushCall t n :: tr2)
    (fun p hp => hd p (w1.subset hp))
  refine ⟨calls, c1, fun more hmore o ho hret => ?_⟩
  have hline : ∀ (a : AppenderInit), a.path = none → a.lineFor = colorRender .default := by
    intro a hp; funext item; simp [AppenderInit.lineFor, hp]
  have hone : ∀ i a, as[i]? = some a → a.path = none → Console.Spec.ofOne i (Console.Spec.records (consoleCalls as calls)) =
      ((Log.Spec.writes (tr1 ++ .flushCall t n :: tr2)).filter (fun p => a.Wants p.2)).map (fun p => colorRender .default p.2) := by
    intro i a ha hp
    rw [console_records as calls i a ha hp, writtenBy_ops _ _ _ _ (c2 i a ha), hline a hp]
  have hlines : ∀ p ∈ Console.Spec.records (consoleCalls as calls ++ more), p.2.length ≤ 2097152 ∧ Console.Spec.IsLines p.2 := by
    intro p hp
    rw [Console.records_append] at hp
    rcases List.mem_append.mp hp with hp | hp
    · have hm : p.2 ∈ Console.Spec.ofOne p.1 (Console.Spec.records (consoleCalls as calls)) :=
        List.mem_map.mpr ⟨p, List.mem_filter.mpr ⟨hp, by simp⟩, rfl⟩
      by_cases hc : ∃ a, as[p.1]? = some a ∧ a.path = none
      · obtain ⟨a, ha, hpath⟩ := hc
        rw [hone p.1 a ha hpath] at hm
        obtain ⟨q, hq, e⟩ := List.mem_map.mp hm
        rw [← e]
        exact ⟨hsmall q (w1.subset (List.mem_filter.mp hq).1), (Console.C117_records_are_lines_partial q.2 .default).2⟩
      · rw [console_records_other as calls p.1 (fun a ha hpath => hc ⟨a, ha, hpath⟩)] at hm
        cases hm
    · exact hmore p hp
  obtain ⟨done, hinv, hfl⟩ := Console.run_flushed (fun p hp => ⟨Console.lines_ne_nil (hlines p hp).2, (hlines p hp).1⟩) ho
  have hparts : ∀ i, Console.Spec.ofOne i done <+:
      Console.Spec.ofOne i (Console.Spec.records (consoleCalls as calls)) ++ Console.Spec.ofOne i (Console.Spec.records more) := by
    intro i
    have := hinv.parts i
    rw [Console.left_eq (fun p hp => Console.lines_ne_nil (hlines p hp).2), Console.records_append, Console.ofOne_append] at this
    rw [← this, List.append_assoc]
    exact List.prefix_append _ _
  refine ⟨done, ?_, ?_, ?_⟩
  · have := hinv.text
    rwa [hinv.lines (fun p hp => (hlines p hp).2), List.append_nil] at this
  · intro i hi
    have := hparts i
    rwa [console_records_other as calls i hi, List.nil_append] at this
  · intro i a ha hp
    obtain ⟨x, y, hxy, hpre⟩ := Log.C67_barrier (passes l) progs tr1 tr2 t n s h
    have gen : ∀ p q : List (Log.Act Item), Log.Spec.writes p <+: Log.Spec.writes (p ++ q) := by
      intro p q
      induction p with
      | nil => exact List.nil_prefix
      | cons z p ih => cases z <;> simp only [Log.Spec.writes, List.cons_append, List.cons_prefix_cons, true_and] <;> exact ih
    have hsub : Log.Spec.sends tr1 <+: Log.Spec.writes (tr1 ++ .flushCall t n :: tr2) := by
      refine hpre.trans ?_
      rw [hxy]; exact gen x _
    have e : (callsOn i calls).map FileCall.op = Log.fileOps a.Wants a.lineFor x ++ .flush :: Log.fileOps a.Wants a.lineFor y := by
      rw [c2 i a ha, hxy, show x ++ Log.Act.flush :: y = (x ++ [Log.Act.flush]) ++ y by simp, Log.fileOps_append, Log.fileOps_append]
      simp [Log.fileOps]
    obtain ⟨a', b', e1, e2, e3⟩ := List.map_eq_append_iff.mp e
    obtain ⟨z, b'', e4, e5, e6⟩ := List.map_eq_cons_iff.mp e3
    have hz : z = .flush := by cases z with
      | write b => cases e5
      | flush => rfl
    subst hz
    obtain ⟨d1, d2, f1, f2, f3⟩ := console_split as calls i a ha hp a' b'' (by rw [e1, e4])
    have hlow := hfl (consoleCalls as d1) (consoleCalls as d2 ++ more) i (by rw [f3]; simp)
      (by rw [List.length_append]; omega)
    rw [console_records as d1 i a ha hp, f2, writtenBy_ops _ _ _ _ e2, hline a hp] at hlow
    have hup := hparts i
    rw [hone i a ha hp] at hup
    obtain ⟨rest, hrest⟩ := hsub
    refine ⟨(Log.Spec.sends tr1).filter (fun p => a.Wants p.2), rest.filter (fun p => a.Wants p.2), ?_, ?_, ?_, ?_⟩
    · refine List.IsPrefix.trans ?_ hlow
      obtain ⟨z, hz⟩ := hpre
      rw [← hz, List.filter_append, List.map_append]
      exact List.prefix_append _ _
    · rw [← List.filter_append, hrest]
      exact hup
    · intro u
      exact byThread_filter u a.Wants _
    · intro u
      rw [← List.filter_append, hrest, byThread_filter]
      obtain ⟨z, hz⟩ := (w2 u).2
      rw [← hz, List.filter_append]
      exact List.prefix_append _ _

/-- Records of one appender only. -/
theorem text_ofOne (i : Nat) (done : List (Nat × Bytes)) (h : ∀ j, j ≠ i → Console.Spec.ofOne j done = []) :
    Console.Spec.text done = (Console.Spec.ofOne i done).flatten := by
  have hall : ∀ p ∈ done, p.1 = i := by
    intro p hp
    apply Decidable.byContradiction
    intro hne
    have : p.2 ∈ Console.Spec.ofOne p.1 done := List.mem_map.mpr ⟨p, List.mem_filter.mpr ⟨hp, by simp⟩, rfl⟩
    rw [h p.1 hne] at this
    cases this
  unfold Console.Spec.text Console.Spec.ofOne
  rw [List.filter_eq_self.mpr (fun p hp => by simp [hall p hp])]

/-- **C189** for a connection and a configuration with one console: if the connection has made all its log calls before the flush, standard output shows,
of this connection, the lines of its story (requests delivered and how it ended) that are for the console, in order, each once; and all lines of other
records that were logged before are there as well. -/
theorem C189_connection {U : Unicode} (hU : LawfulUnicode U) (pathExists openOk : Str → Bool) (order : List Str → List Str)
    (horder : ∀ l, (order l).Perm l) (c c' : Config) (hslab : c.slab = []) (hfix : c.autofix pathExists = some c')
    (as : List AppenderInit) (has : c'.appenders openOk = some as) (k : Consumer) (l : Level)
    (hk : c'.startLogging U openOk order true = .value (k, l))
    (progs : Nat → List (Log.Call Item)) (tr1 tr2 : List (Log.Act Item)) (t n : Nat) (s : Log.Sys Item)
    (h : Log.Run (passes l) (Log.start progs) (tr1 ++ .flushCall t n :: tr2 ++ [.flushRet t n]) s)
    (hd : ∀ p ∈ Log.Spec.sends (tr1 ++ .flushCall t n :: tr2), Deliverable as p.2)
    (hsmall : ∀ p ∈ Log.Spec.sends (tr1 ++ .flushCall t n :: tr2), (colorRender .default p.2).length ≤ 2097152)
    (i : Nat) (a : AppenderInit) (ha : as[i]? = some a) (hp : a.path = none)
    (hone : ∀ j b, as[j]? = some b → b.path = none → j = i)
    {K : Type} (cd : Codec K) (lim : HttpLimits) (env : Nat → Env K) (lg : LogEnv K) (r : Reader) (u : Nat)
    (hu : CallsOf (serveLog cd lim env lg r) (progs u))
    (hall : Log.Spec.byThread u (Log.Spec.sends tr1) = Log.Spec.logged (passes l) (progs u)) :
    ∃ calls items, k.calls (tr1 ++ .flushCall t n :: tr2) k.bufs = some calls ∧
      Each2 (fun x item => ∃ time file line, item = Rec.item time file line x)
        (story lg ((serve cd lim env r).1.map (·.req)) (serve cd lim env r).2) items ∧
      ∀ o, Console.Run (.init (consoleCalls as calls)) o → o.todo = [] →
        ∃ (before shown after : List (Nat × Item)), o.out.shown = (before ++ shown).flatMap (fun p => colorRender .default p.2) ∧
          (∀ v, Log.Spec.byThread v before = (Log.Spec.byThread v (Log.Spec.sends tr1)).filter a.Wants) ∧
          Log.Spec.byThread u before = items.filter (fun item => passes l item && a.Wants item) ∧
          (∀ p ∈ shown ++ after, p.1 ≠ u) ∧
          (∀ v, Log.Spec.byThread v (before ++ shown ++ after) <+: (Log.Spec.logged (passes l) (progs v)).filter a.Wants) := by
  obtain ⟨items, hi, hpr⟩ := hu
  obtain ⟨calls, c1, c2⟩ := C189_console hU pathExists openOk order horder c c' hslab hfix as has k l hk progs tr1 tr2 t n s h hd hsmall
  rw [C120_story] at hi
  refine ⟨calls, items, c1, hi, fun o ho hret => ?_⟩
  obtain ⟨done, d1, d2, d3⟩ := c2 [] (fun p hp => by cases hp) o (by rw [List.append_nil]; exact ho) (by rw [hret]; simp)
  obtain ⟨before, after, e1, e2, e3, e4⟩ := d3 i a ha hp
  have hnone : ∀ j, j ≠ i → Console.Spec.ofOne j done = [] := by
    intro j hj
    exact List.prefix_nil.mp (d2 j (fun b hb hbp => hj (hone j b hb hbp)))
  have e2 : Console.Spec.ofOne i done <+: (before ++ after).map (fun p => colorRender .default p.2) := by
    have hnil : Console.Spec.ofOne i (Console.Spec.records []) = [] := rfl
    rwa [hnil, List.append_nil] at e2
  obtain ⟨mid, hmid⟩ := e1
  rw [← hmid, List.map_append] at e2
  have e5 := List.prefix_append_right_inj _ |>.mp e2
  obtain ⟨z, hz⟩ := e5
  obtain ⟨x1, x2, rfl, y1, y2⟩ := List.map_eq_append_iff.mp hz.symm
  have hb : Log.Spec.byThread u before = items.filter (fun item => passes l item && a.Wants item) := by
    rw [e3 u, hall, hpr, logged_map, List.filter_filter]
    apply List.filter_congr
    intro x _
    rw [Bool.and_comm]
  refine ⟨before, x1, x2, ?_, e3, hb, ?_, ?_⟩
  · rw [d1, text_ofOne i done hnone, ← hmid, ← y1, ← List.map_append, List.flatMap_def]
  · intro p hpa he
    have e5 := e4 u
    have hsplit : Log.Spec.byThread u (before ++ (x1 ++ x2)) = Log.Spec.byThread u before ++ Log.Spec.byThread u (x1 ++ x2) := by
      simp [Log.Spec.byThread]
    rw [hsplit, ← hall, ← e3 u] at e5
    have hlen := e5.length_le
    rw [List.length_append] at hlen
    have hmem : p.2 ∈ Log.Spec.byThread u (x1 ++ x2) := List.mem_map.mpr ⟨p, List.mem_filter.mpr ⟨hpa, by simp [he]⟩, rfl⟩
    have := List.length_pos_of_mem hmem
    omega
  · intro v
    have := e4 v
    rwa [← List.append_assoc] at this

/-! ## Cases meeting the hypotheses -/

/-- The root has a console; the only service has none. -/
def oneConsole : Config :=
  { Config.empty with
    logging := { oneFile [] with appenders := [.console none] },
    services := [(u!"web", { defaultService with logging := { oneFile [] with appenders := [] } })] }

/-- The appenders of that configuration. -/
def oneConsoleAppenders : List AppenderInit := [⟨0, u!"colored", ⟨.trace, false⟩, none, false, 0⟩]

example : (oneConsole.autofix (fun _ => true)).bind (fun c => c.appenders (fun _ => true)) = some oneConsoleAppenders ∧
    (∀ j b, oneConsoleAppenders[j]? = some b → b.path = none → j = 0) ∧
    ∀ item ∈ sampleItems, (colorRender .default item).length ≤ 2097152 ∧ Deliverable oneConsoleAppenders item := by
  have h : ∀ item ∈ sampleItems, (colorRender .default item).length ≤ 2097152 := by decide +kernel
  refine ⟨by decide +kernel, fun j b hb _ => ?_, fun item hi => ⟨h item hi, .inl (by decide +kernel)⟩⟩
  match j with
  | 0 => rfl
  | j + 1 => cases hb

/-- The run of the example for C171: the record that is not of the service goes to the console. -/
example : (match (oneConsole.autofix (fun _ => true)).map (fun c => c.startLogging asciiOnly (fun _ => true) id true) with
    | some (.value (k, _)) =>
      match k.calls ([.send 1 (sampleItems[0]), .send 1 (sampleItems[1])] ++ .flushCall 0 0 ::
        [.recv, .write 1 (sampleItems[0]), .recv, .write 1 (sampleItems[1]), .recv, .flush, .store 0]) k.bufs with
      | some calls => some (consoleCalls oneConsoleAppenders calls)
      | none => none
    | _ => none) = some [.write 0 (colorRender .default (sampleItems[1])), .flush 0] := by decide +kernel

/-- And so to standard output. -/
example : ∃ o, Console.Run (.init [.write 0 (colorRender .default (sampleItems[1])), .flush 0]) o ∧ o.todo = [] := by
  have r : Console.Run (.init [.write 0 (colorRender .default (sampleItems[1])), .flush 0]) _ := .refl _
  have r := r.snoc (.hand rfl (by decide +kernel) rfl)
  have hd : (colorRender .default (sampleItems[1])).drop Console.maxChunk = [] := by decide +kernel
  rw [hd] at r
  have r := r.snoc (.written rfl)
  have r := r.snoc (.wrote (i := 0) rfl)
  have r := r.snoc (.handFlush (i := 0) rfl rfl rfl)
  have r := r.snoc (.didFlush (i := 0) rfl)
  have r := r.snoc (.flushed (i := 0) rfl rfl rfl)
  exact ⟨_, r, rfl⟩

end Httpd
