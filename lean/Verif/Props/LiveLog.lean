import Verif.Model.LiveLog
import Verif.Props.AllAtOnce
import Verif.Props.ConfigLogFiles
import Verif.Props.AcceptLog
import Verif.Props.ConsoleDefault
/-! # C211: from the command line to the log files, with all clients at the same time -/

namespace Httpd
open Spec MultiMap

/-! ## Calls that a thread makes later -/

/-- The logger, with one more call at the end of what thread `u` has to do. -/
def laterCall {R : Type} (u : Nat) (x : Log.Call R) (s : Log.Sys R) : Log.Sys R :=
  { s with progs := Log.update s.progs u (s.progs u ++ [x]) }

theorem update_later {R : Type} (p : Nat → List (Log.Call R)) (u t : Nat) (x y : Log.Call R) (rest : List (Log.Call R)) (h : p t = y :: rest) :
    ∃ rest', Log.update p u (p u ++ [x]) t = y :: rest' ∧
      Log.update (Log.update p u (p u ++ [x])) t rest' = Log.update (Log.update p t rest) u (Log.update p t rest u ++ [x]) := by
  by_cases htu : t = u
  · subst htu
    refine ⟨rest ++ [x], by simp [Log.update, h], ?_⟩
    funext j
    by_cases hj : j = t <;> simp [Log.update, hj]
  · refine ⟨rest, by simp [Log.update, htu, h], ?_⟩
    funext j
    by_cases hj : j = t
    · subst hj; simp [Log.update, htu]
    · by_cases hju : j = u
      · subst hju; simp [Log.update, hj]
      · simp [Log.update, hj, hju]

theorem step_later {R : Type} {enabled : R → Bool} (u : Nat) (x : Log.Call R) {s s' : Log.Sys R} {a : Log.Act R} (h : Log.Step enabled s a s') :
    Log.Step enabled (laterCall u x s) a (laterCall u x s') := by
  cases h with
  | send t r rest h1 h2 h3 h4 h5 =>
    obtain ⟨rest', k1, k2⟩ := update_later s.progs u t x _ rest h3
    have := Log.Step.send (enabled := enabled) (laterCall u x s) t r rest' h1 h2 k1 h4 h5
    simpa only [laterCall, k2] using this
  | skip t r rest h1 h2 h3 h4 =>
    obtain ⟨rest', k1, k2⟩ := update_later s.progs u t x _ rest h3
    have := Log.Step.skip (enabled := enabled) (laterCall u x s) t r rest' h1 h2 k1 h4
    simpa only [laterCall, k2] using this
  | logPanic t r rest h1 h2 h3 h4 h5 =>
    obtain ⟨rest', k1, _⟩ := update_later s.progs u t x _ rest h3
    exact Log.Step.logPanic (enabled := enabled) (laterCall u x s) t r rest' h1 h2 k1 h4 h5
  | flushPanic t rest h1 h2 h3 h4 =>
    obtain ⟨rest', k1, _⟩ := update_later s.progs u t x _ rest h3
    exact Log.Step.flushPanic (enabled := enabled) (laterCall u x s) t rest' h1 h2 k1 h4
  | flushCall t rest h1 h2 h3 h4 =>
    obtain ⟨rest', k1, k2⟩ := update_later s.progs u t x _ rest h3
    have := Log.Step.flushCall (enabled := enabled) (laterCall u x s) t rest' h1 h2 k1 h4
    simpa only [laterCall, k2] using this
  | flushRet t n h1 h2 => exact .flushRet (laterCall u x s) t n h1 h2
  | recvItem t r q h1 h2 => exact .recvItem (laterCall u x s) t r q h1 h2
  | recvFlush n q h1 h2 => exact .recvFlush (laterCall u x s) n q h1 h2
  | write t r h1 => exact .write (laterCall u x s) t r h1
  | flush n h1 => exact .flush (laterCall u x s) n h1
  | store n h1 => exact .store (laterCall u x s) n h1
  | closed h1 h2 h3 => exact .closed (laterCall u x s) h1 h2 h3
  | signal h1 => exact .signal (laterCall u x s) h1
  | lastFlush h1 => exact .lastFlush (laterCall u x s) h1
  | crash t r h1 => exact .crash (laterCall u x s) t r h1
  | crashFlush n h1 => exact .crashFlush (laterCall u x s) n h1
  | drop h1 => exact .drop (laterCall u x s) h1
  | dropRet h1 h2 => exact .dropRet (laterCall u x s) h1 h2

theorem run_later {R : Type} {enabled : R → Bool} (u : Nat) (x : Log.Call R) {s s' : Log.Sys R} {tr : List (Log.Act R)} (h : Log.Run enabled s tr s') :
    Log.Run enabled (laterCall u x s) tr (laterCall u x s') := by
  induction h with
  | nil => exact .nil
  | snoc _ hs ih => exact .snoc ih (step_later u x hs)

theorem step_progs {R : Type} {enabled : R → Bool} {s s' : Log.Sys R} {a : Log.Act R} (h : Log.Step enabled s a s') (u : Nat)
    (hu : actThread a ≠ some u) : s'.progs u = s.progs u := by
  cases h <;> simp_all [actThread, Log.update] <;> intro h <;> exact absurd h.symm hu

/-! ## What the connections and the logger do in a run of both -/

/-- What the connections do in a run. -/
def connActs : List LiveAct → List (Nat × ServerAct)
  | [] => []
  | .conn i a :: tr => (i, a) :: connActs tr
  | .record i _ :: tr => (i, .act) :: connActs tr
  | .log _ :: tr => connActs tr

theorem connActs_append (a b : List LiveAct) : connActs (a ++ b) = connActs a ++ connActs b := by
  induction a with
  | nil => rfl
  | cons x a ih => cases x <;> simp [connActs, ih]

theorem logActs_append (a b : List LiveAct) : logActs (a ++ b) = logActs a ++ logActs b := by
  induction a with
  | nil => rfl
  | cons x a ih => cases x <;> simp [logActs, ih]

theorem live_parts {K : Type} {c : Codec K} {setup : Nat → Setup K} {enabled : Item → Bool} {progs : Nat → List (Log.Call Item)} {tr : List LiveAct} {s : Live}
    (h : Live.Run c setup enabled (.start progs) tr s) :
    Server.Run c setup (connActs tr) s.server ∧ ∃ items : Nat → List Item, (∀ i, Each2 IsRecord (ofConn i s.server.queue) (items i)) ∧
      (∀ i, s.log.progs (threadOf i) = []) ∧
      Log.Run enabled (Log.start (fun t => if t % 2 = 0 then progs t else (items (t / 2)).map .log)) (logActs tr) s.log := by
  induction h with
  | nil =>
    refine ⟨.nil, fun _ => [], fun _ => .nil, fun i => ?_, .nil⟩
    simp [Live.start, Log.start, threadOf]
  | snoc _ hs ih =>
    obtain ⟨hv, items, h1, h2, h3⟩ := ih
    rw [connActs_append, logActs_append]
    cases hs with
    | conn i a v hv' hq =>
      refine ⟨.snoc hv hv', items, ?_, h2, ?_⟩
      · simp only [hq]; exact h1
      · simpa [logActs] using h3
    | record i v r time file line b l hv' hq hb hl =>
      refine ⟨.snoc hv hv', Log.update items i (items i ++ [r.item time file line]), ?_, ?_, ?_⟩
      · intro j
        simp only [hq, ofConn_snoc, Log.update]
        by_cases hj : j = i
        · subst hj
          simp only [↓reduceIte]
          exact Each2_append (h1 j) (.cons ⟨time, file, line, rfl⟩ .nil)
        · rw [if_neg (fun e => hj e.symm), if_neg hj]
          exact h1 j
      · intro j
        show l.progs (threadOf j) = []
        by_cases hj : j = i
        · subst hj
          rcases hb with rfl | rfl
          · cases hl with
            | send _ _ rest _ _ h _ _ =>
              simp only [recordOf, Log.update, ↓reduceIte, List.cons.injEq, true_and] at h
              simp [Log.update, ← h]
          · cases hl with
            | skip _ _ rest _ _ h _ =>
              simp only [recordOf, Log.update, ↓reduceIte, List.cons.injEq, true_and] at h
              simp [Log.update, ← h]
        · have hne : threadOf j ≠ threadOf i := by unfold threadOf; omega
          rw [step_progs hl (threadOf j) (by rcases hb with rfl | rfl <;> simp [actThread, Ne.symm hne])]
          simp only [recordOf, Log.update, hne, ↓reduceIte]
          exact h2 j
      · have hrun := run_later (threadOf i) (.log (r.item time file line)) h3
        have e1 : ∀ s1 : Live, s1.log.progs (threadOf i) = [] → laterCall (threadOf i) (.log (r.item time file line)) s1.log =
            recordOf s1.log (threadOf i) (r.item time file line) := by
          intro s1 hs1
          simp [laterCall, recordOf, hs1]
        rw [e1 _ (h2 i)] at hrun
        have e2 : laterCall (threadOf i) (.log (r.item time file line)) (Log.start (fun t => if t % 2 = 0 then progs t else (items (t / 2)).map .log)) =
            Log.start (fun t => if t % 2 = 0 then progs t else (Log.update items i (items i ++ [r.item time file line]) (t / 2)).map .log) := by
          simp only [laterCall, Log.start]
          congr 1
          funext t
          unfold threadOf
          by_cases ht : t = 2 * i + 1
          · subst ht
            have a1 : ¬ (2 * i + 1) % 2 = 0 := by omega
            have a2 : (2 * i + 1) / 2 = i := by omega
            simp [Log.update, a2]
          · by_cases he : t % 2 = 0
            · simp [Log.update, he, ht]
            · have a2 : t / 2 ≠ i := by omega
              simp [Log.update, he, ht, a2]
        rw [e2] at hrun
        exact .snoc hrun hl
    | log a l hev hl =>
      refine ⟨by simpa [connActs] using hv, items, h1, ?_, .snoc h3 hl⟩
      intro i
      show l.progs (threadOf i) = []
      rw [step_progs hl (threadOf i) (fun e => by have := hev _ e; unfold threadOf at this; omega)]
      exact h2 i

theorem Live.Run.trans {K : Type} {c : Codec K} {setup : Nat → Setup K} {enabled : Item → Bool} {s0 s1 s2 : Live} {a b : List LiveAct}
    (h1 : Live.Run c setup enabled s0 a s1) (h2 : Live.Run c setup enabled s1 b s2) : Live.Run c setup enabled s0 (a ++ b) s2 := by
  induction h2 with
  | nil => simpa using h1
  | snoc _ hs ih => rw [← List.append_assoc]; exact .snoc ih hs

/-- What connection `i` has sent to the log so far, as far as the level lets it. -/
theorem live_sends {K : Type} {c : Codec K} {setup : Nat → Setup K} {enabled : Item → Bool} {progs : Nat → List (Log.Call Item)} {tr : List LiveAct} {s : Live}
    (h : Live.Run c setup enabled (.start progs) tr s) (i : Nat) :
    ∃ items, Each2 IsRecord (ofConn i s.server.queue) items ∧ Log.Spec.byThread (threadOf i) (Log.Spec.sends (logActs tr)) = items.filter enabled := by
  obtain ⟨_, items, h1, h2, h3⟩ := live_parts h
  refine ⟨items i, h1 i, ?_⟩
  have := (Log.inv_run _ _ h3).threads (threadOf i)
  have a1 : ¬ (2 * i + 1) % 2 = 0 := by omega
  have a2 : (2 * i + 1) / 2 = i := by omega
  rw [h2 i] at this
  simp only [Log.Spec.logged, List.append_nil] at this
  rw [this]
  simp only [threadOf, a1, a2, ↓reduceIte, logged_map]

/-! ## The logger holds up nobody -/

theorem live_ready {K : Type} {c : Codec K} {setup : Nat → Setup K} {enabled : Item → Bool} {progs : Nat → List (Log.Call Item)} {tr : List LiveAct} {s : Live}
    (h : Live.Run c setup enabled (.start progs) tr s) (i : Nat) : s.log.phases (threadOf i) = .ready := by
  induction h with
  | nil => rfl
  | snoc _ hs ih =>
    cases hs with
    | conn => exact ih
    | record j v r time file line b l _ _ hb hl =>
      rcases hb with rfl | rfl <;> cases hl <;> exact ih
    | log a l hev hl =>
      have hne : actThread a ≠ some (threadOf i) := fun e => by have := hev _ e; unfold threadOf at this; omega
      show l.phases (threadOf i) = .ready
      rw [← ih]
      cases hl <;> simp_all [actThread, Log.update] <;> intro h <;> exact absurd h.symm hne

/-- **C211.** The connections do with the logger what they do without it: a run of both is a run of the connections; and as long as the thread that writes the log
has not died and the process does not end, every step that a connection can make it can make at once, whatever the logger is doing and however much waits to be written. -/
theorem C211_never_waits {K : Type} (c : Codec K) (setup : Nat → Setup K) (enabled : Item → Bool) (progs : Nat → List (Log.Call Item)) (tr : List LiveAct)
    (s : Live) (h : Live.Run c setup enabled (.start progs) tr s) :
    Server.Run c setup (connActs tr) s.server ∧
    (s.log.consumer ≠ .dead → s.log.guard = .live → ∀ i a v, Server.Step c setup s.server (i, a) v →
      ∃ act l, Live.Step c setup enabled s act ⟨v, l⟩ ∧ connActs [act] = [(i, a)] ∧ l.consumer = s.log.consumer ∧ l.guard = s.log.guard) := by
  refine ⟨(live_parts h).1, fun hd hg i a v hstep => ?_⟩
  have hq : v.queue = s.server.queue ∨ a = .act ∧ ∃ r, v.queue = s.server.queue ++ [(i, r)] := by
    cases hstep <;> first | exact .inl rfl | exact .inr ⟨rfl, _, rfl⟩
  rcases hq with hq | ⟨rfl, r, hq⟩
  · exact ⟨.conn i a, s.log, .conn s i a v hstep hq, rfl, rfl, rfl⟩
  · have hprog : (recordOf s.log (threadOf i) (r.item [] [] 0)).progs (threadOf i) = [.log (r.item [] [] 0)] := by simp [recordOf, Log.update]
    cases he : enabled (r.item [] [] 0) with
    | true =>
      exact ⟨.record i _, _, .record s i v r [] [] 0 _ _ hstep hq (.inl rfl)
        (.send _ (threadOf i) (r.item [] [] 0) [] hg (live_ready h i) hprog he hd), rfl, rfl, rfl⟩
    | false =>
      exact ⟨.record i _, _, .record s i v r [] [] 0 _ _ hstep hq (.inr rfl)
        (.skip _ (threadOf i) (r.item [] [] 0) [] hg (live_ready h i) hprog he), rfl, rfl, rfl⟩

theorem consumer_frame {R : Type} {enabled : R → Bool} {s s' : Log.Sys R} {tr : List (Log.Act R)} (h : Log.Run enabled s tr s')
    (ha : ∀ a ∈ tr, a.ofConsumer = true) : s'.phases = s.phases ∧ s'.nlocks = s.nlocks := by
  induction h with
  | nil => exact ⟨rfl, rfl⟩
  | snoc _ hs ih =>
    obtain ⟨i1, i2⟩ := ih (fun a h => ha a (List.mem_append_left _ h))
    have := ha _ (List.mem_append_right _ (List.mem_singleton.mpr rfl))
    cases hs <;> simp_all [Log.Act.ofConsumer]

theorem live_consumer {K : Type} {c : Codec K} {setup : Nat → Setup K} {enabled : Item → Bool} {s : Live} {tr : List (Log.Act Item)} {l : Log.Sys Item}
    (h : Log.Run enabled s.log tr l) (ha : ∀ a ∈ tr, a.ofConsumer = true) : Live.Run c setup enabled s (tr.map .log) ⟨s.server, l⟩ := by
  induction h with
  | nil => exact .nil
  | snoc _ hs ih =>
    have hc := ha _ (List.mem_append_right _ (List.mem_singleton.mpr rfl))
    rw [List.map_append]
    refine .snoc (ih (fun a h => ha a (List.mem_append_left _ h))) (.log ⟨s.server, _⟩ _ _ (fun t ht => ?_) hs)
    cases hs <;> simp_all [Log.Act.ofConsumer, actThread]

/-- **C211.** A flush comes to its end: as long as the thread that writes the log has not died and the process does not end, a thread that is about to flush the log can do so, and steps of the
thread that writes the log alone are enough for the flush to return, whatever the connections have logged. -/
theorem C211_flush_returns {K : Type} (c : Codec K) (setup : Nat → Setup K) (enabled : Item → Bool) (progs : Nat → List (Log.Call Item)) (tr : List LiveAct)
    (s : Live) (h : Live.Run c setup enabled (.start progs) tr s) (hd : s.log.consumer ≠ .dead) (hg : s.log.guard = .live) (t : Nat) (ht : t % 2 = 0)
    (hp : s.log.phases t = .ready) (rest : List (Log.Call Item)) (hf : s.log.progs t = .flush :: rest) :
    ∃ n tr2 s2, Live.Run c setup enabled s (.log (.flushCall t n) :: tr2 ++ [.log (.flushRet t n)]) s2 ∧ s2.server = s.server ∧
      ∀ a ∈ tr2, ∃ b, a = .log b ∧ b.ofConsumer = true := by
  have hcall := Log.Step.flushCall (enabled := enabled) s.log t rest hg hp hf hd
  have hrun1 : Live.Run c setup enabled s ([] ++ [.log (.flushCall t s.log.nlocks)]) _ :=
    .snoc .nil (.log s _ _ (fun u hu => by simp only [actThread, Option.some.injEq] at hu; omega) hcall)
  generalize hs1 : ({ s.log with progs := Log.update s.log.progs t rest, phases := Log.update s.log.phases t (.waiting s.log.nlocks), queue := s.log.queue ++ [.flush s.log.nlocks], nlocks := s.log.nlocks + 1 } : Log.Sys Item) = l1 at hrun1
  obtain ⟨tr2, l2, k1, k2, k3, k4⟩ := Log.consumer_settles enabled _ l1 (Nat.le_refl _) (by rw [← hs1]; exact hd)
  have hrun2 := live_consumer (c := c) (setup := setup) (s := ⟨s.server, l1⟩) k1 k2
  obtain ⟨_, _, _, _, hlog⟩ := live_parts ((h.trans hrun1).trans hrun2)
  obtain ⟨f1, f2⟩ := consumer_frame k1 k2
  have hw : l2.phases t = .waiting s.log.nlocks := by rw [f1, ← hs1]; simp [Log.update]
  have hn : s.log.nlocks < l2.nlocks := by rw [f2, ← hs1]; simp
  have hset : l2.locks s.log.nlocks = true := by
    have hinv := Log.inv_run _ _ hlog
    rcases (Log.locks_run _ _ hlog).1 k3 _ hn with e | e | e | e
    · exact e
    · rcases k4 with k | k
      · rw [k.2.1] at e; cases e
      · rw [(hinv.closing (Or.inr (Or.inr k))).2] at e; cases e
    · rcases k4 with k | k
      · rw [k.1] at e; cases e
      · rw [k] at e; cases e
    · rcases k4 with k | k
      · rw [k.1] at e; cases e
      · rw [k] at e; cases e
  refine ⟨s.log.nlocks, tr2.map .log, ⟨s.server, { l2 with phases := Log.update l2.phases t .ready }⟩, ?_, rfl, ?_⟩
  · have := Live.Run.snoc (hrun1.trans hrun2) (.log _ _ _ (fun u hu => by simp only [actThread, Option.some.injEq] at hu; omega)
      (.flushRet l2 t s.log.nlocks hw hset))
    simpa using this
  · intro a ha
    obtain ⟨b, hb, rfl⟩ := List.mem_map.1 ha
    exact ⟨b, rfl, k2 b hb⟩

/-! ## Down to the files -/

theorem flush_split {K : Type} {c : Codec K} {setup : Nat → Setup K} {enabled : Item → Bool} {progs : Nat → List (Log.Call Item)} {tr1 tr2 : List LiveAct}
    {s1 s2 : Live} {t n : Nat} (h1 : Live.Run c setup enabled (.start progs) tr1 s1)
    (h2 : Live.Run c setup enabled s1 (.log (.flushCall t n) :: tr2 ++ [.log (.flushRet t n)]) s2) :
    ∃ items : Nat → List Item, (∀ i, Each2 IsRecord (ofConn i s2.server.queue) (items i)) ∧
      Log.Run enabled (Log.start (fun t => if t % 2 = 0 then progs t else (items (t / 2)).map .log))
        (logActs tr1 ++ .flushCall t n :: logActs tr2 ++ [.flushRet t n]) s2.log := by
  obtain ⟨_, items, k1, _, k3⟩ := live_parts (h1.trans h2)
  refine ⟨items, k1, ?_⟩
  simpa [logActs_append, logActs] using k3

/-- **C211.** Let any number of connections be served and log, together with other threads, and let a flush of the log return. Then a log file of the configuration has, for every
connection, exactly the lines of the records that the connection had logged when the flush began and that are for this file, in this order, under the conditions
and with the losses of C173; what it has besides are lines of records that were logged later. -/
theorem C211_files {U : Unicode} (hU : LawfulUnicode U) (pathExists openOk : Str → Bool) (order : List Str → List Str)
    (horder : ∀ l, (order l).Perm l) (cfg cfg' : Config) (hslab : cfg.slab = []) (hfix : cfg.autofix pathExists = some cfg')
    (as : List AppenderInit) (has : cfg'.appenders openOk = some as) (k : Consumer) (l : Level)
    (hk : cfg'.startLogging U openOk order true = .value (k, l))
    {K : Type} (c : Codec K) (setup : Nat → Setup K) (progs : Nat → List (Log.Call Item)) (tr1 tr2 : List LiveAct) (s1 s2 : Live) (t n : Nat)
    (h1 : Live.Run c setup (passes l) (.start progs) tr1 s1)
    (h2 : Live.Run c setup (passes l) s1 (.log (.flushCall t n) :: tr2 ++ [.log (.flushRet t n)]) s2)
    (hd : ∀ p ∈ Log.Spec.sends (logActs (tr1 ++ tr2)), Deliverable as p.2)
    (d : Disk) (hs : Sane d) (hok : NoFail d) (ends : Nat → Nat) (st0 : Disk × List Dest) (hopen : openDests d ends as = some st0)
    (j : Nat) (a : AppenderInit) (fp : Str) (ha : as[j]? = some a) (hfp : a.path = some fp)
    (hsole : SoleName d fp) (hone : ∀ j' b, as[j']? = some b → b.path = some fp → j' = j) :
    ∃ calls, k.calls (logActs tr1 ++ .flushCall t n :: logActs tr2) k.bufs = some calls ∧ ∀ moments st, FreeDests st0 moments calls →
      callDests st0 moments calls = .value st → ∃ (before after : List (Nat × Item)) (out : Bytes),
        linesOf before <+: out ∧ out <+: linesOf (before ++ after) ∧
        LossAtMost (rotTimesOf j fp st0 moments calls).length (bufferSize a.bufsize) d st.1 fp out ∧
        (a.daily = false → content st.1 fp = content d fp ++ out) ∧
        ∀ i, ∃ items1 items2, Each2 IsRecord (ofConn i s1.server.queue) items1 ∧ Each2 IsRecord (ofConn i s2.server.queue) items2 ∧
          Log.Spec.byThread (threadOf i) before = items1.filter (fun x => passes l x && a.Wants x) ∧
          Log.Spec.byThread (threadOf i) (before ++ after) <+: items2.filter (fun x => passes l x && a.Wants x) := by
  obtain ⟨items, k1, k2⟩ := flush_split h1 h2
  obtain ⟨calls, c1, c3⟩ := C173_files hU pathExists openOk order horder cfg cfg' hslab hfix as has k l hk _ (logActs tr1) (logActs tr2) t n _ k2
    (by
      intro p hp
      refine hd p ?_
      rw [logActs_append]
      simpa [Log.Spec.sends, Log.sends_append] using hp) d hs hok ends st0 hopen j a fp ha hfp hsole hone
  refine ⟨calls, c1, fun moments st hfree hrun => ?_⟩
  obtain ⟨before, after, out, e1, e2, e6, e7, e3, e4⟩ := c3 moments st hfree hrun
  refine ⟨before, after, out, e1, e2, e6, e7, fun i => ?_⟩
  obtain ⟨items1, m1, m2⟩ := live_sends h1 i
  refine ⟨items1, items i, m1, k1 i, ?_, ?_⟩
  · rw [e3, m2, List.filter_filter]
    exact List.filter_congr (fun x _ => Bool.and_comm _ _)
  · have a1 : ¬ (2 * i + 1) % 2 = 0 := by omega
    have a2 : (2 * i + 1) / 2 = i := by omega
    have := e4 (threadOf i)
    simp only [threadOf, a1, a2, ↓reduceIte, logged_map] at this
    rw [List.filter_filter] at this
    have e : (items i).filter (fun x => passes l x && a.Wants x) = (items i).filter (fun x => a.Wants x && passes l x) :=
      List.filter_congr (fun x _ => Bool.and_comm _ _)
    rw [e]
    exact this

/-- **C211.** What a connection has logged: at every moment a beginning of its story for all the bytes that have arrived from its client (the requests delivered and how it ended),
and all of it when its task has no step left. -/
theorem C211_records {K : Type} (c : Codec K) (setup : Nat → Setup K) (enabled : Item → Bool) (progs : Nat → List (Log.Call Item)) (tr : List LiveAct)
    (s : Live) (h : Live.Run c setup enabled (.start progs) tr s) (i : Nat) (t : Task) (ht : s.server.task i = some t) :
    ofConn i s.server.queue <+: story (setup i).log ((serve c (setup i).lim (setup i).env t.all).1.map (·.req)) (serve c (setup i).lim (setup i).env t.all).2 ∧
    ((∀ a v, a = .fetch ∨ a = .seeEnd ∨ a = .act → ¬ Server.Step c setup s.server (i, a) v) →
      ofConn i s.server.queue = story (setup i).log ((serve c (setup i).lim (setup i).env t.all).1.map (·.req))
        (serve c (setup i).lim (setup i).env t.all).2) := by
  have hr := (live_parts h).1
  obtain ⟨⟨p, ⟨q, hp⟩, _, h2⟩, h3⟩ := C206_as_if_alone c setup _ _ hr i t ht
  rw [← C120_story]
  refine ⟨?_, fun hn => (h3 hn).2⟩
  have e := (serveActs_spec c (setup i).lim (setup i).env (setup i).log t.all).1
  rw [← hp, recordsOf_append] at e
  rw [h2, ← e]
  exact List.prefix_append _ _

/-- A connection of hello-world puts nothing into the file of another service. -/
theorem foreign_none {K : Type} {c : Codec K} {setup : Nat → Setup K} {enabled : Item → Bool} {progs : Nat → List (Log.Call Item)} {tr : List LiveAct} {s : Live}
    (h : Live.Run c setup enabled (.start progs) tr s) {i idx : Nat} {ord : Nat → List Pair → List Pair}
    (hl : ∀ n, (setup i).log.service n = helloLog idx (setup i).log.addr (ord n)) {a : AppenderInit} (h0 : a.service ≠ 0) (hne : a.service ≠ idx)
    {items : List Item} (hi : Each2 IsRecord (ofConn i s.server.queue) items) (f : Item → Bool) :
    items.filter (fun x => f x && a.Wants x) = [] := by
  rw [List.filter_eq_nil_iff]
  intro x hx
  obtain ⟨r, hr, time, file, line, rfl⟩ := each2_mem hi x hx
  have hserv : (r.item time file line).service = 0 ∨ (r.item time file line).service = idx := by
    cases ht : s.server.task i with
    | none =>
      rw [((live_parts h).1.inv i).1 ht |>.1] at hr
      cases hr
    | some t =>
      exact story_services _ idx ord hl _ _ time file line r ((C211_records c setup enabled progs tr s h i t ht).1.subset hr)
  intro hw
  simp only [AppenderInit.Wants, Bool.and_eq_true, decide_eq_true_eq] at hw
  rcases hserv with h | h
  · exact h0 (hw.2.1.trans h)
  · exact hne (hw.2.1.trans h)

theorem started_value {U : Unicode} {openOk midnight : Str → Bool} {order : List Str → List Str} {setOk : Bool} {c : Config} {k : Consumer} {l : Level}
    (h : c.initLogging U openOk midnight order setOk = .value (k, l)) : c.startLogging U openOk order true = .value (k, l) ∧ ∃ as, c.appenders openOk = some as := by
  unfold Config.initLogging at h
  split at h
  · cases h
  · unfold Config.startLogging at h ⊢
    split at h
    · cases h
    · rename_i as has
      refine ⟨?_, as, has⟩
      cases setOk with
      | true => simpa [has] using h
      | false =>
        exfalso
        split at h
        · cases h
        · split at h
          · cases h
          · simp only [Httpd.initLogging] at h
            split at h <;> simp at h

/-- **C211** From the command line to the log files, with all clients at the same time. Let the file named on the command line be accepted and the log started. Then the log files are those that
its sections ask for (C193). Let any number of clients be connected to the services, their tasks, the thread that writes the log and all others taking turns in any order, and let a flush of the log return. Then each
log file has, for every connection that had nothing left to do when the flush began, exactly the lines of the story of this connection that are for the file: the story for the bytes that arrived from this client, whatever
the others did. And a connection of hello-world puts nothing into a file of another service. Conditions and losses on the disk are those of C173. -/
theorem C211_command_line (m : Machine) (hU : LawfulUnicode m.U) (horder : ∀ l, (m.order l).Perm l) (hnames : ∀ l, (m.names l).Perm l) (p : Profile) (arg : Str)
    (harg : trimUnicode (fileArgument p arg) ≠ []) (v : Toml) (hread : m.read (fileArgument p arg) = some v)
    (hnd : ∀ ss, setting [u!"services", u!"Services"] 9 v = some (.table ss) → (ss.map (·.1)).Nodup)
    (hdist : ∀ k1 k2 sv1 sv2, Offers m.glob v k1 sv1 → Offers m.glob v k2 sv2 → trimUnicode k1 = trimUnicode k2 → k1 = k2) (cfg : Config)
    (hload : loadFile m.U p m.strict m.pathExists m.chdir m.glob m.order (some v) = .value cfg)
    (k : Consumer) (l : Level) (hlog : cfg.initLogging m.U m.openOk m.midnight m.names m.setOk = .value (k, l)) :
    ∃ as, m.start p arg = .serving cfg.services ∧ cfg.appenders m.openOk = some as ∧
      (∃ logpath lc, LogPathSays v logpath ∧ Given (LoggingSays m.U p m.strict) logAll (setting [u!"log", u!"Log", u!"logging", u!"Logging"] 2 v) lc ∧
        SectionMeans logpath [] 0 lc (as.filter (·.service = 0)) ∧
        ∀ name sv, Offers m.glob v name sv → ∃ s ls, (∀ s', (name, s') ∈ cfg.services ↔ s' = s) ∧
          Given (LoggingSays m.U p m.strict) logAll (setting [u!"log", u!"Log", u!"logging", u!"Logging"] 3 sv) ls ∧
          SectionMeans logpath (trimUnicode name) s.idx ls (as.filter (·.service = s.idx))) ∧
      ∀ {K : Type} (c : Codec K) (setup : Nat → Setup K) (progs : Nat → List (Log.Call Item)) (tr1 tr2 : List LiveAct) (s1 s2 : Live) (t n : Nat),
        Live.Run c setup (passes l) (.start progs) tr1 s1 →
        Live.Run c setup (passes l) s1 (.log (.flushCall t n) :: tr2 ++ [.log (.flushRet t n)]) s2 →
        (∀ q ∈ Log.Spec.sends (logActs (tr1 ++ tr2)), Deliverable as q.2) →
        ∀ (d : Disk), Sane d → NoFail d → ∀ (ends : Nat → Nat) (st0 : Disk × List Dest), openDests d ends as = some st0 →
        ∀ (j : Nat) (a : AppenderInit) (fp : Str), as[j]? = some a → a.path = some fp → SoleName d fp →
        ∃ calls, k.calls (logActs tr1 ++ .flushCall t n :: logActs tr2) k.bufs = some calls ∧ ∀ moments st, FreeDests st0 moments calls →
          callDests st0 moments calls = .value st → ∃ (before after : List (Nat × Item)) (out : Bytes),
            linesOf before <+: out ∧ out <+: linesOf (before ++ after) ∧
            LossAtMost (rotTimesOf j fp st0 moments calls).length (bufferSize a.bufsize) d st.1 fp out ∧
            (a.daily = false → content st.1 fp = content d fp ++ out) ∧
            (∀ i task, s1.server.task i = some task →
              (∀ act w, act = .fetch ∨ act = .seeEnd ∨ act = .act → ¬ Server.Step c setup s1.server (i, act) w) →
              ∃ items, Each2 IsRecord (story (setup i).log ((serve c (setup i).lim (setup i).env task.all).1.map (·.req))
                  (serve c (setup i).lim (setup i).env task.all).2) items ∧
                Log.Spec.byThread (threadOf i) before = items.filter (fun x => passes l x && a.Wants x)) ∧
            (∀ (i idx : Nat) (ord : Nat → List Pair → List Pair), (∀ r, (setup i).log.service r = helloLog idx (setup i).log.addr (ord r)) → a.service ≠ 0 → a.service ≠ idx →
              Log.Spec.byThread (threadOf i) (before ++ after) = []) := by
  obtain ⟨hk, as, has⟩ := started_value hlog
  obtain ⟨c0, hslab, hfix, hnames'⟩ := loaded_fixed horder hnd hload
  obtain ⟨logpath, lc, hlp, hlc, hfiles, _⟩ := C193_files m.U p m.strict m.pathExists m.chdir m.glob m.order horder v cfg hload hnd m.openOk
  obtain ⟨hroot, hsec, _⟩ := hfiles as has
  have hnd2 := (C60_paths m.openOk).2 m.pathExists c0 cfg as hfix (hnames' hdist) has
  refine ⟨as, (start_serving m p arg harg v hread hnd horder cfg hload ⟨_, hlog⟩).1, has, ⟨logpath, lc, hlp, hlc, hroot, fun name sv hof => ?_⟩, ?_⟩
  · obtain ⟨s, ls, h1, _, h3, h4⟩ := hsec name sv hof
    exact ⟨s, ls, h1, h3, h4⟩
  · intro K c setup progs tr1 tr2 s1 s2 t n h1 h2 hd d hs hok ends st0 hopen j a fp ha hfp hsole
    obtain ⟨calls, c1, c2⟩ := C211_files hU m.pathExists m.openOk m.names hnames c0 cfg hslab hfix as has k l hk c setup progs tr1 tr2 s1 s2 t n h1 h2
      hd d hs hok ends st0 hopen j a fp ha hfp hsole (fun j' b hb hbp => path_once hnd2 ha hb hfp hbp)
    refine ⟨calls, c1, fun moments st hfree hrun => ?_⟩
    obtain ⟨before, after, out, e1, e2, e3, e4, e5⟩ := c2 moments st hfree hrun
    refine ⟨before, after, out, e1, e2, e3, e4, fun i task htask hno => ?_, fun i idx ord hl h0 hne => ?_⟩
    · obtain ⟨items1, _, k1, _, k3, _⟩ := e5 i
      rw [(C211_records c setup _ progs tr1 s1 h1 i task htask).2 hno] at k1
      exact ⟨items1, k1, k3⟩
    · obtain ⟨_, items2, _, k2, _, k4⟩ := e5 i
      rw [foreign_none (h1.trans h2) hl h0 hne k2] at k4
      exact List.prefix_nil.1 k4

/-! ## A case meeting the hypotheses -/

/-- Every run of the connections is one with the logger too: for instance one in which it writes nothing yet. -/
theorem live_of_server {K : Type} {c : Codec K} {setup : Nat → Setup K} {enabled : Item → Bool} (progs : Nat → List (Log.Call Item))
    {tr : List (Nat × ServerAct)} {v : Server} (h : Server.Run c setup tr v) :
    ∃ tr' l, Live.Run c setup enabled (.start progs) tr' ⟨v, l⟩ ∧ connActs tr' = tr ∧ l.consumer = .idle ∧ l.guard = .live ∧ ∀ b, LiveAct.log b ∉ tr' := by
  induction h with
  | nil => exact ⟨[], _, .nil, rfl, rfl, rfl, by simp⟩
  | snoc _ hs ih =>
    obtain ⟨tr', l, h1, h2, h3, h4, h5⟩ := ih
    obtain ⟨act, l', k1, k2, k3, k4⟩ := (C211_never_waits c setup enabled progs tr' _ h1).2 (by rw [h3]; simp) h4 _ _ _ hs
    refine ⟨tr' ++ [act], l', .snoc h1 k1, by rw [connActs_append, k2, h2], by rw [k3]; exact h3, by rw [k4]; exact h4, fun b hb => ?_⟩
    rcases List.mem_append.1 hb with hb | hb
    · exact h5 b hb
    · rw [← List.mem_singleton.1 hb] at k2
      cases k2

theorem live_even {K : Type} {c : Codec K} {setup : Nat → Setup K} {enabled : Item → Bool} {s s' : Live} {tr : List LiveAct}
    (h : Live.Run c setup enabled s tr s') (ha : ∀ b, LiveAct.log b ∉ tr) (t : Nat) (ht : t % 2 = 0) :
    s'.log.progs t = s.log.progs t ∧ s'.log.phases t = s.log.phases t := by
  induction h with
  | nil => exact ⟨rfl, rfl⟩
  | snoc _ hs ih =>
    obtain ⟨i1, i2⟩ := ih (fun b hb => ha b (List.mem_append_left _ hb))
    have hne : ∀ i, t ≠ threadOf i := fun i => by unfold threadOf; omega
    cases hs with
    | conn => exact ⟨i1, i2⟩
    | record i v r time file line b l _ _ hb hl =>
      rcases hb with rfl | rfl <;> cases hl <;> simp_all [recordOf, Log.update]
    | log a l _ _ => exact absurd (List.mem_append_right _ (List.mem_singleton.mpr rfl)) (ha a)

/-- Two clients (`twoClients`), and the main thread flushes the log afterwards: the run that C211 is about, with the six records of the two connections before the flush. -/
example : ∃ (tr1 tr2 : List LiveAct) (s1 s2 : Live) (n : Nat),
    Live.Run noCodec twoSetup (passes .trace) (.start (fun t => if t = 0 then [.flush] else [])) tr1 s1 ∧
    Live.Run noCodec twoSetup (passes .trace) s1 (.log (.flushCall 0 n) :: tr2 ++ [.log (.flushRet 0 n)]) s2 ∧
    s1.server.queue.map (fun p => (p.1, p.2.msg)) =
      [(0, b!"connection made, 10.0.0.1:1"), (1, b!"connection made, 10.0.0.2:2"), (1, b!"read request header failed, BadDatagram"),
       (1, b!"connection lost, 10.0.0.2:2"), (0, b!"Request From 127.0.0.1:5000"), (0, b!"GET / Ok((1, 1))")] := by
  have h : ((Server.start.run? noCodec twoSetup twoClients).map fun s => s.queue.map (fun p => (p.1, p.2.msg))) =
      some [(0, b!"connection made, 10.0.0.1:1"), (1, b!"connection made, 10.0.0.2:2"), (1, b!"read request header failed, BadDatagram"),
       (1, b!"connection lost, 10.0.0.2:2"), (0, b!"Request From 127.0.0.1:5000"), (0, b!"GET / Ok((1, 1))")] := by decide +kernel
  cases hs : Server.start.run? noCodec twoSetup twoClients with
  | none => rw [hs] at h; cases h
  | some v =>
    rw [hs] at h
    simp only [Option.map_some, Option.some.injEq] at h
    have hrun : Server.Run noCodec twoSetup twoClients v := Server.run?_sound .nil hs
    obtain ⟨tr1, l, h1, _, h3, h4, h5⟩ := live_of_server (enabled := passes .trace) (fun t => if t = 0 then [.flush] else []) hrun
    obtain ⟨e1, e2⟩ := live_even h1 h5 0 rfl
    obtain ⟨n, tr2, s2, k1, _, _⟩ := C211_flush_returns noCodec twoSetup _ _ tr1 _ h1 (by rw [h3]; simp) h4 0 rfl e2 [] e1
    exact ⟨tr1, tr2, _, s2, n, h1, k1, h⟩

/-- Two services with log files only. -/
def twoLogs : Toml :=
  .table [(u!"log", .table [(u!"appenders", .arr [.table [(u!"File", .table [])]])]),
    (u!"services", .table [
      (u!"web", .table [(u!"log", .table [(u!"appenders", .arr [.table [(u!"File", .table [(u!"level", .str u!"trace")])]])])]),
      (u!"api", .table [(u!"log", .table [(u!"appenders", .arr [.table [(u!"File", .table [(u!"daily", .bool true)])]])])])])]

/-- The process starts with it, and every record can be delivered. -/
example : (match (machineWith twoLogs).start .release u!"my.toml" with
    | .serving qs => some (qs.map (fun q => (q.1, q.2.idx)))
    | _ => none) = some [(u!"web", 1), (u!"api", 2)] ∧
    (match loadFile (machineWith twoLogs).U .release (machineWith twoLogs).strict (machineWith twoLogs).pathExists (machineWith twoLogs).chdir
        (machineWith twoLogs).glob (machineWith twoLogs).order (some twoLogs) with
      | .value c => (c.appenders (machineWith twoLogs).openOk).map (·.map (fun a => (a.service, a.path, a.daily)))
      | _ => none) = some [(0, some u!"./logs//httpd.TRACE.log", false), (1, some u!"./logs//web/TRACE.log", false), (2, some u!"./logs//api/TRACE.log", true)] := by
  decide +kernel

end Httpd
