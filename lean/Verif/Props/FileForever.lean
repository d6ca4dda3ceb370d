import Verif.Props.LogForever
import Verif.Props.RotationLoss
/-!
# How far a log file stays behind (C222)
-/

namespace Httpd
open Spec

theorem perform_ok (ops : List FileOp) (d : Disk) (w : BufW) (h : NoFail d) (hb : w.buf.length ≤ w.cap) :
    (perform d w ops).2.2 = true ∧ NoFail (perform d w ops).1 ∧ (perform d w ops).2.1.buf.length ≤ w.cap := by
  induction ops generalizing d w with
  | nil => exact ⟨rfl, h, hb⟩
  | cons op ops ih =>
    cases op with
    | write b =>
      obtain ⟨h1, h2⟩ := fileAppend_ok d w b h
      have h3 := fileAppend_short d w b hb
      obtain ⟨_, h4, _⟩ := fileAppend_spec d w b
      simp only [perform]
      generalize fileAppend d w b = x at h1 h2 h3 h4
      obtain ⟨d', w', ok⟩ := x
      simp only at h1 h2 h3 h4
      obtain ⟨k1, k2, k3⟩ := ih d' w' h2 (by rw [h4]; exact h3)
      subst h1
      exact ⟨by simpa using k1, k2, by rw [← h4]; exact k3⟩
    | flush =>
      obtain ⟨h1, h2⟩ := fileFlush_ok d w h
      obtain ⟨_, h4, _, h5⟩ := fileFlush_spec d w
      simp only [perform]
      generalize fileFlush d w = x at h1 h2 h4 h5
      obtain ⟨d', w', ok⟩ := x
      simp only at h1 h2 h4 h5
      obtain ⟨k1, k2, k3⟩ := ih d' w' h2 (by rw [(h5 h1).1]; exact Nat.zero_le _)
      subst h1
      exact ⟨by simpa using k1, k2, by rw [← h4]; exact k3⟩

/-- What the file holds when the write that the system is doing has been done. -/
def shownBy (d : Disk) (fp : Str) (bufsize : Nat) (ops : List FileOp) : Bytes :=
  content (settle (perform (fileNew d fp bufsize).1 (fileNew d fp bufsize).2 ops).1 (perform (fileNew d fp bufsize).1 (fileNew d fp bufsize).2 ops).2.1.file).1 fp

/-- The file is behind by what is in the buffer. -/
theorem shownBy_lag (d : Disk) (hs : Sane d) (hok : NoFail d) (fp : Str) (bufsize : Nat) (ops : List FileOp) :
    ∃ kept, kept.length ≤ bufferSize bufsize ∧ shownBy d fp bufsize ops ++ kept = content d fp ++ written ops := by
  obtain ⟨o1, o2, _, _, _, _⟩ := openFile_spec d hs fp
  have hnew : fileNew d fp bufsize = ((d.openFile fp).1, ⟨bufferSize bufsize, [], ⟨(d.openFile fp).2, none⟩⟩) := rfl
  have hnf : NoFail (d.openFile fp).1 := by
    unfold Disk.openFile
    cases d.fs.names fp <;> exact hok
  unfold shownBy
  rw [hnew]
  generalize (d.openFile fp).1 = d0 at *
  generalize (d.openFile fp).2 = ino at *
  obtain ⟨p1, _, p3, p4⟩ := perform_spec ops d0 ⟨bufferSize bufsize, [], ⟨ino, none⟩⟩
  obtain ⟨q1, q2, q3⟩ := perform_ok ops d0 ⟨bufferSize bufsize, [], ⟨ino, none⟩⟩ hnf (Nat.zero_le _)
  simp only
  generalize perform d0 ⟨bufferSize bufsize, [], ⟨ino, none⟩⟩ ops = x at p1 p3 p4 q1 q2 q3
  obtain ⟨d1, w1, ok1⟩ := x
  simp only at p1 p3 p4 q1 q2 q3 ⊢
  refine ⟨w1.buf, q3, ?_⟩
  obtain ⟨s1, _, s3, s4⟩ := settle_spec d1 w1.file
  obtain ⟨s5, _⟩ := settle_ok d1 w1.file q2
  have hc : content (settle d1 w1.file).1 fp = (settle d1 w1.file).1.fs.data w1.file.ino := by
    simp [content, s3.1, p3.1, o1, p1]
  rw [hc, s4 s5]
  have := p4 q1
  simp only [BufW.total] at this
  rw [this]
  simp [AFile.total, o2]

/-- Small writes without a flush stay in memory. -/
theorem perform_small (ops : List FileOp) (d : Disk) (w : BufW) (hf : .flush ∉ ops) (h : w.buf.length + (written ops).length < w.cap) :
    perform d w ops = (d, { w with buf := w.buf ++ written ops }, true) := by
  induction ops generalizing w with
  | nil => simp [perform, written]
  | cons op ops ih =>
    cases op with
    | flush => simp at hf
    | write b =>
      simp only [written, List.length_append] at h
      simp only [perform]
      rw [fileAppend_small d w b (by omega) (by omega)]
      simp only
      rw [ih { w with buf := w.buf ++ b } (fun h => hf (List.mem_cons_of_mem _ h)) (by simp only [List.length_append]; omega)]
      simp [written]

theorem shownBy_small (d : Disk) (hs : Sane d) (fp : Str) (bufsize : Nat) (ops : List FileOp) (hf : .flush ∉ ops) (h : (written ops).length < 8092) :
    shownBy d fp bufsize ops = content d fp := by
  have hcap : 8092 ≤ bufferSize bufsize := by unfold bufferSize; split <;> omega
  obtain ⟨o1, o2, _⟩ := openFile_spec d hs fp
  have hnew : fileNew d fp bufsize = ((d.openFile fp).1, ⟨bufferSize bufsize, [], ⟨(d.openFile fp).2, none⟩⟩) := rfl
  unfold shownBy
  rw [hnew, perform_small ops _ _ hf (by simp only [List.length_nil]; omega)]
  simp only [settle, content, o1, o2]

namespace Log
variable {R : Type} {enabled : R → Bool}

theorem expected_prefix (wants : R → Bool) (render : R → Bytes) {a b : List (Nat × R)} (h : a <+: b) : expected wants render a <+: expected wants render b := by
  obtain ⟨y, rfl⟩ := h
  simp [expected]

/-- **C222**, what holds: in every execution without end in which the consumer thread is not left out for ever and does not panic, and no write of the system fails, the file of an appender is from some moment
on behind by at most one buffer of the records that were sent by a given moment: it holds what it held before and the lines of all records handed over so far, these among them, but for at most as many bytes at the end as the buffer holds; and
it holds all of them once that many bytes have been logged after them. Missing from C222: the last records, after which nothing is logged. -/
theorem C222_lag_partial (enabled wants : R → Bool) (render : R → Bytes) (progs : Nat → List (Call R)) (e : Forever (Step enabled) (start progs)) (hno : ∀ n, e.act n ≠ some .crash)
    (hfair : e.Fair Act.ofConsumer) (d : Disk) (hs : Sane d) (hok : NoFail d) (fp : Str) (bufsize : Nat) (n : Nat) :
    ∃ m, n ≤ m ∧ ∀ m', m ≤ m' → Spec.sends (e.upTo n) <+: Spec.writes (e.upTo m') ∧
      (∃ kept, kept.length ≤ bufferSize bufsize ∧
        shownBy d fp bufsize (fileOps wants render (e.upTo m')) ++ kept = content d fp ++ expected wants render (Spec.writes (e.upTo m'))) ∧
      ((expected wants render (Spec.sends (e.upTo n))).length + bufferSize bufsize ≤ (expected wants render (Spec.writes (e.upTo m'))).length →
        content d fp ++ expected wants render (Spec.sends (e.upTo n)) <+: shownBy d fp bufsize (fileOps wants render (e.upTo m'))) := by
  obtain ⟨m, hm, h⟩ := C221_written enabled progs e hno hfair n
  refine ⟨m, hm, fun m' hm' => ?_⟩
  have h1 := h m' hm'
  obtain ⟨kept, k1, k2⟩ := shownBy_lag d hs hok fp bufsize (fileOps wants render (e.upTo m'))
  rw [written_fileOps] at k2
  refine ⟨h1, ⟨kept, k1, k2⟩, fun hlen => ?_⟩
  have hp : content d fp ++ expected wants render (Spec.sends (e.upTo n)) <+: content d fp ++ expected wants render (Spec.writes (e.upTo m')) :=
    (List.prefix_append_right_inj _).mpr (expected_prefix wants render h1)
  refine List.prefix_of_prefix_length_le hp (by rw [← k2]; exact List.prefix_append _ _) ?_
  have := congrArg List.length k2
  simp only [List.length_append] at this ⊢
  omega

/-- Nobody flushes and the guard is not dropped: the consumer does not flush. -/
theorem no_flush {progs : Nat → List (Call R)} {tr : List (Act R)} {s : Sys R} (h : Run enabled (start progs) tr s) (h1 : ∀ t n, .flushCall t n ∉ tr) (h2 : .drop ∉ tr) :
    .flush ∉ tr ∧ s.guard = .live ∧ (∀ n, .flush n ∉ s.queue) ∧ (s.consumer = .idle ∨ (∃ t r, s.consumer = .writing t r) ∨ s.consumer = .dead) ∧ ∀ t n, s.phases t ≠ .waiting n := by
  induction h with
  | nil => simp [start]
  | snoc _ hs ih =>
    obtain ⟨i1, i2, i3, i4, i5⟩ := ih (fun t n h => h1 t n (List.mem_append_left _ h)) (fun h => h2 (List.mem_append_left _ h))
    cases hs with
    | send t r rest g1 g2 g3 g4 g5 => exact ⟨by simp [i1], i2, by simpa using i3, i4, i5⟩
    | skip t r rest g1 g2 g3 g4 => exact ⟨by simp [i1], i2, i3, i4, i5⟩
    | logPanic t r rest g1 g2 g3 g4 g5 =>
      refine ⟨by simp [i1], i2, i3, i4, fun u n => ?_⟩
      simp only [update]; split
      · simp
      · exact i5 u n
    | flushPanic t rest g1 g2 g3 g4 =>
      refine ⟨by simp [i1], i2, i3, i4, fun u n => ?_⟩
      simp only [update]; split
      · simp
      · exact i5 u n
    | flushCall t rest g1 g2 g3 g4 => exact absurd (List.mem_append_right _ (List.mem_singleton.mpr rfl)) (h1 t _)
    | flushRet t n g1 g2 => exact absurd g1 (i5 t n)
    | recvItem t r q g1 g2 => exact ⟨by simp [i1], i2, fun n h => i3 n (by rw [g2]; exact List.mem_cons_of_mem _ h), .inr (.inl ⟨t, r, rfl⟩), i5⟩
    | recvFlush n q g1 g2 => exact absurd (by rw [g2]; simp) (i3 n)
    | write t r g1 => exact ⟨by simp [i1], i2, i3, .inl rfl, i5⟩
    | flush n g1 => rw [g1] at i4; simp at i4
    | store n g1 => rw [g1] at i4; simp at i4
    | closed g1 g2 g3 => exact absurd i2 g3
    | signal g1 => rw [g1] at i4; simp at i4
    | lastFlush g1 => rw [g1] at i4; simp at i4
    | crash t r g1 => exact ⟨by simp [i1], i2, by simp, .inr (.inr rfl), i5⟩
    | crashFlush _ g1 => exact ⟨by simp [i1], i2, by simp, .inr (.inr rfl), i5⟩
    | drop g1 => exact absurd (List.mem_append_right _ (List.mem_singleton.mpr rfl)) h2
    | dropRet g1 g2 => rw [i2] at g1; cases g1

theorem fileOps_noflush (wants : R → Bool) (render : R → Bytes) (tr : List (Act R)) (h : .flush ∉ tr) : .flush ∉ fileOps wants render tr := by
  induction tr with
  | nil => simp [fileOps]
  | cons a tr ih =>
    have := ih (fun h' => h (List.mem_cons_of_mem _ h'))
    cases a <;> simp_all [fileOps]
    split <;> simp_all

end Log

/-- Does this action belong to what the process does by itself as long as it is not stopped? (Not: what the clients do, and the end.) -/
def LiveAct.own : LiveAct → Bool
  | .conn _ a => a = .fetch || a = .seeEnd || a = .act
  | .record _ _ => true
  | .log .drop => false
  | .log _ => true

/-- **C222**, negation for the code as written: the last records may never get into the file. Let any clients have done anything, let all tasks have done all they can, and let nobody have flushed the log. If the
lines of the records together are shorter than the buffer, the process can go on for ever in such a way that nobody is left out - neither the consumer nor a connection nor any other thread - and the file
is at every moment as it was before the process was started, whatever the appender, its file and its buffer size. -/
theorem C222_kept_back_violated {K : Type} (c : Codec K) (setup : Nat → Setup K) (enabled : Item → Bool) (progs : Nat → List (Log.Call Item)) (tr : List LiveAct) (s : Live)
    (h : Live.Run c setup enabled (.start progs) tr s) (hc : .crash ∉ logActs tr) (hdrop : .drop ∉ logActs tr) (hflush : ∀ t n, .flushCall t n ∉ logActs tr)
    (hrest : ∀ i a v, a = .fetch ∨ a = .seeEnd ∨ a = .act → ¬ Server.Step c setup s.server (i, a) v) (hprogs : ∀ t, s.log.progs t = [])
    (wants : Item → Bool) (render : Item → Bytes) (hlen : (Log.expected wants render (Log.Spec.sends (logActs tr))).length < 8092) :
    ∃ e : Forever (Live.Step c setup enabled) (Live.start progs), e.upTo tr.length = tr ∧ (∀ mine : LiveAct → Bool, (∀ a, mine a = true → a.own = true) → e.Fair mine) ∧
      (∀ n, e.act n ≠ some (.log .crash)) ∧ (∃ m, ∀ m', m ≤ m' → Log.Spec.writes (logActs (e.upTo m')) = Log.Spec.sends (logActs tr)) ∧
      ∀ n (d : Disk), Sane d → ∀ fp bufsize, shownBy d fp bufsize (Log.fileOps wants render (logActs (e.upTo n))) = content d fp := by
  obtain ⟨_, items, _, _, hlog⟩ := live_parts h
  have hd : s.log.consumer ≠ .dead := fun h' => hc ((Log.dead_iff _ _ hlog).mp h')
  obtain ⟨tc, l', c1, c2, c3, c4⟩ := Log.consumer_settles enabled (Log.work s.log) s.log (Nat.le_refl _) hd
  have hrun := h.trans (live_consumer (c := c) (setup := setup) c1 c2)
  obtain ⟨e, e1, e2⟩ := run_live hrun
  generalize hk : (tr ++ tc.map LiveAct.log).length = k at e1 e2
  have hall : ∀ m, k ≤ m → e.upTo m = tr ++ tc.map LiveAct.log := by
    intro m hm
    induction hm with
    | refl => rw [e1 k (Nat.le_refl _), ← hk, List.take_length]
    | @step m hm ih => rw [upTo_succ, ih, (e2 m hm).2]; simp
  have hmap : ∀ l : List (Log.Act Item), logActs (l.map LiveAct.log) = l := by
    intro l
    induction l with
    | nil => rfl
    | cons a l ih => simp [logActs, ih]
  have hacts : logActs (tr ++ tc.map LiveAct.log) = logActs tr ++ tc := by rw [logActs_append, hmap]
  have hno : ∀ a ∈ logActs tr ++ tc, a ≠ .crash ∧ a ≠ .drop ∧ ∀ t n, a ≠ .flushCall t n := by
    intro a ha
    rcases List.mem_append.mp ha with ha | ha
    · exact ⟨fun h => hc (h ▸ ha), fun h => hdrop (h ▸ ha), fun t n h => hflush t n (h ▸ ha)⟩
    · have := c2 a ha
      refine ⟨?_, ?_, ?_⟩ <;> (try intro t n) <;> rintro rfl <;> simp [Log.Act.ofConsumer] at this
  have hsends : Log.Spec.sends (logActs tr ++ tc) = Log.Spec.sends (logActs tr) := by rw [Log.sends_append, Log.sends_consumer c2, List.append_nil]
  obtain ⟨_, items', _, _, hlog'⟩ := live_parts hrun
  rw [hacts] at hlog'
  obtain ⟨_, f2, f3, f4, f5⟩ := Log.no_flush hlog' (fun t n h => (hno _ h).2.2 t n rfl) (fun h => (hno _ h).2.1 rfl)
  simp only at f2 f3 f4 f5
  have hprogs' : ∀ t, l'.progs t = [] := by
    intro t
    have : ∀ {s0 s1 : Log.Sys Item} {tr : List (Log.Act Item)}, Log.Run enabled s0 tr s1 → (∀ a ∈ tr, a.ofConsumer = true) → s1.progs = s0.progs := by
      intro s0 s1 tr h ha
      induction h with
      | nil => rfl
      | snoc _ hs ih =>
        rw [← ih (fun a h => ha a (List.mem_append_left _ h))]
        have := ha _ (List.mem_append_right _ (List.mem_singleton.mpr rfl))
        cases hs <;> simp_all [Log.Act.ofConsumer]
    rw [this c1 c2]
    exact hprogs t
  have hidle : l'.consumer = .idle ∧ l'.queue = [] := by
    rcases c4 with ⟨a, b, _⟩ | a
    · exact ⟨a, b⟩
    · rw [a] at f4; simp at f4
  refine ⟨e, ?_, fun mine hmine n hen => ?_, fun n hn => ?_, ⟨k, fun m' hm' => ?_⟩, fun n d hs fp bufsize => ?_⟩
  · rw [e1 _ (by rw [← hk]; simp)]; simp
  · exfalso
    obtain ⟨a, s', ha, hst⟩ := hen (max n k) (Nat.le_max_left _ _)
    rw [(e2 _ (Nat.le_max_right _ _)).1] at hst
    have hown := hmine a ha
    cases hst with
    | conn i a v hv _ =>
      simp only [LiveAct.own, Bool.or_eq_true, decide_eq_true_eq] at hown
      exact hrest i a v (by rcases hown with (h | h) | h <;> simp [h]) hv
    | record i v r time file line b l hv _ _ _ => exact hrest i .act v (by simp) hv
    | log b l _ hl =>
      simp only at hl
      have i1 := hidle.1
      have i2 := hidle.2
      cases hl with
      | send t r rest g1 g2 g3 g4 g5 => rw [hprogs' t] at g3; cases g3
      | skip t r rest g1 g2 g3 g4 => rw [hprogs' t] at g3; cases g3
      | logPanic t r rest g1 g2 g3 g4 g5 => rw [hprogs' t] at g3; cases g3
      | flushPanic t rest g1 g2 g3 g4 => rw [hprogs' t] at g3; cases g3
      | flushCall t rest g1 g2 g3 g4 => rw [hprogs' t] at g3; cases g3
      | flushRet t n g1 g2 => exact f5 t n g1
      | recvItem t r q g1 g2 => rw [i2] at g2; cases g2
      | recvFlush n q g1 g2 => rw [i2] at g2; cases g2
      | write t r g1 => rw [i1] at g1; cases g1
      | flush n g1 => rw [i1] at g1; cases g1
      | store n g1 => rw [i1] at g1; cases g1
      | closed g1 g2 g3 => exact g3 f2
      | signal g1 => rw [i1] at g1; cases g1
      | lastFlush g1 => rw [i1] at g1; cases g1
      | crash t r g1 => rw [i1] at g1; cases g1
      | crashFlush _ g1 => rw [i1] at g1; cases g1
      | drop g1 => cases hown
      | dropRet g1 g2 => rw [f2] at g1; cases g1
  · have := Log.acts_upTo e hn (m := max (n + 1) k) (by omega)
    rw [hall _ (Nat.le_max_right _ _)] at this
    have h2 : Log.Act.crash ∈ logActs (tr ++ tc.map LiveAct.log) := by
      obtain ⟨a, b, hab⟩ := List.append_of_mem this
      rw [hab, logActs_append]
      simp [logActs]
    rw [hacts] at h2
    exact (hno _ h2).1 rfl
  · rw [hall m' hm', hacts]
    have := (Log.inv_run _ _ hlog').flow c3
    rw [hsends, hidle.1, hidle.2] at this
    simpa [Log.inHand, Log.items] using this.symm
  · obtain ⟨_, items'', _, _, hl⟩ := live_parts (live_forever e n)
    have hpre : e.upTo n <+: tr ++ tc.map LiveAct.log := by
      rw [← hall (max n k) (Nat.le_max_right _ _)]; exact upTo_prefix e (Nat.le_max_left _ _)
    obtain ⟨y, hy⟩ := hpre
    rw [← hy, logActs_append] at hacts
    have hno' : ∀ a ∈ logActs (e.upTo n), a ≠ .crash ∧ a ≠ .drop ∧ ∀ t n, a ≠ .flushCall t n := fun a ha => hno a (by rw [← hacts]; exact List.mem_append_left _ ha)
    obtain ⟨g1, _⟩ := Log.no_flush hl (fun t n h => (hno' _ h).2.2 t n rfl) (fun h => (hno' _ h).2.1 rfl)
    refine shownBy_small d hs fp bufsize _ (Log.fileOps_noflush wants render _ g1) ?_
    rw [Log.written_fileOps]
    refine Nat.lt_of_le_of_lt (List.IsPrefix.length_le (Log.expected_prefix wants render ((Log.C66_order _ _ _ _ hl).1.trans ?_))) hlen
    rw [← hsends, ← hacts, Log.sends_append]
    exact List.prefix_append _ _

open MultiMap in
/-- **C222**, what holds from the command line to the files: as in C221, let the file named on the command line be accepted and the log started. In every execution without end in which the consumer does not panic
and is not left out for ever, the process does not end, and no write of the system fails, for a connection of any service of the file whose task is not left out for ever: from some moment on the client has been sent all that the protocol has for what had arrived, and for every log file of
the configuration that does not rotate, taken by itself, the JSON lines of records that the file holds besides what it held before are those of all records handed over that are for it, but for at most one buffer at the end, and
the records of the story of the connection that are for it are among those handed over, in their order. Missing from C222: the buffer. (`twoLogs` in `Props/LiveLog` is a file that is accepted and has two such log files; `C221_live_possible` has the executions.) -/
theorem C222_command_line_partial (m : Machine) (horder : ∀ l, (m.order l).Perm l) (p : Profile) (arg : Str)
    (harg : trimUnicode (fileArgument p arg) ≠ []) (v : Toml) (hread : m.read (fileArgument p arg) = some v)
    (hnd : ∀ ss, setting [u!"services", u!"Services"] 9 v = some (.table ss) → (ss.map (·.1)).Nodup) (cfg : Config)
    (hload : loadFile m.U p m.strict m.pathExists m.chdir m.glob m.order (some v) = .value cfg)
    (k : Consumer) (l : Level) (hlog : cfg.initLogging m.U m.openOk m.midnight m.names m.setOk = .value (k, l)) :
    ∃ as, m.start p arg = .serving cfg.services ∧ cfg.appenders m.openOk = some as ∧
      ∀ {K : Type} (codec : Codec K) (setup : Nat → Setup K) (progs : Nat → List (Log.Call Item)) (e : Forever (Live.Step codec setup (passes l)) (Live.start progs)),
        (∀ n, e.act n ≠ some (.log .crash)) → (∀ n, e.act n ≠ some (.log .drop)) → e.Fair LiveAct.ofConsumer →
        ∀ (q : Str × ServiceConfig), q ∈ cfg.services → ∀ i, (setup i).Serves q.2 → e.Fair (LiveAct.isTurn i) → ∀ n t, (e.state n).server.task i = some t →
          ∃ sv kind maxUrl maxLine maxHeaders, ToRun m.glob v q.1 sv ∧
            Given (KindSays m.strict) .helloWorld (setting [u!"service", u!"Service"] 2 sv) kind ∧
            LimitsInForce m.U p v sv maxUrl maxLine maxHeaders ∧
            ∀ reply stops, Answers kind reply stops →
              ∃ outs f, Talk maxUrl maxLine maxHeaders (afterOf t.fin) reply stops 0 (t.arrived.map Seg.bytes).flatten outs f ∧
                ∃ n' items, n ≤ n' ∧
                  Each2 IsRecord (story (setup i).log ((serve codec (setup i).lim (setup i).env t.all).1.map (·.req)) (serve codec (setup i).lim (setup i).env t.all).2) items ∧
                  ∀ n'', n' ≤ n'' → outs.flatten <+: (e.state n'').server.wire i ∧
                    ∀ a ∈ as, a.daily = false → ∀ fp, a.path = some fp → ∀ d : Disk, Sane d → NoFail d →
                      ∃ kept records, kept.length ≤ bufferSize a.bufsize ∧
                        shownBy d fp a.bufsize (Log.fileOps a.Wants a.lineFor (logActs (e.upTo n''))) ++ kept = content d fp ++ linesOf records ∧
                        records = (Log.Spec.writes (logActs (e.upTo n''))).filter (fun p => a.Wants p.2) ∧
                        items.filter (fun x => passes l x && a.Wants x) <+: Log.Spec.byThread (threadOf i) records := by
  obtain ⟨as, h1, h2, h3⟩ := C221_command_line m horder p arg harg v hread hnd cfg hload k l hlog
  refine ⟨as, h1, h2, fun codec setup progs e hno hlive hcons q hq i hs hturn n t ht => ?_⟩
  obtain ⟨sv, kind, u, ln, hd, g1, g2, g3, g⟩ := h3 codec setup progs e hno hlive hcons q hq i hs hturn n t ht
  refine ⟨sv, kind, u, ln, hd, g1, g2, g3, fun reply stops ha => ?_⟩
  obtain ⟨outs, f, ho, n', items, hn, hitems, h⟩ := g reply stops ha
  refine ⟨outs, f, ho, n', items, hn, hitems, fun n'' hn' => ⟨(h n'' hn').1, fun a hin _ fp hfp d hd hok => ?_⟩⟩
  obtain ⟨kept, k1, k2⟩ := shownBy_lag d hd hok fp a.bufsize (Log.fileOps a.Wants a.lineFor (logActs (e.upTo n'')))
  refine ⟨kept, _, k1, ?_, rfl, ?_⟩
  · rw [k2, Log.written_fileOps]
    simp [Log.expected, linesOf, AppenderInit.lineFor, hfp]
  · rw [byThread_filter]
    exact (h n'' hn').2 a hin

/-! ## A case meeting the hypotheses -/

/-- A run of the connections, with the logger, when every record passes and all of them are stamped alike. -/
theorem live_stamped {K : Type} {c : Codec K} {setup : Nat → Setup K} (time file : Bytes) (line : Nat) {tr : List (Nat × ServerAct)} {v : Server} (h : Server.Run c setup tr v) :
    ∃ tr' l, Live.Run c setup (fun _ => true) (.start (fun _ => [])) tr' ⟨v, l⟩ ∧ connActs tr' = tr ∧ l.consumer = .idle ∧ l.guard = .live ∧ (∀ t, l.progs t = []) ∧
      logActs tr' = v.queue.map (fun p => .send (threadOf p.1) (p.2.item time file line)) := by
  induction h with
  | nil => exact ⟨[], _, .nil, rfl, rfl, rfl, fun t => by simp [Log.start], rfl⟩
  | @snoc tr v v' a _ hs ih =>
    obtain ⟨tr', l, h1, h2, h3, h4, h5, h6⟩ := ih
    obtain ⟨i, a⟩ := a
    have hq : v'.queue = v.queue ∨ a = .act ∧ ∃ r, v'.queue = v.queue ++ [(i, r)] := by
      cases hs <;> first | exact .inl rfl | exact .inr ⟨rfl, _, rfl⟩
    rcases hq with hq | ⟨rfl, r, hq⟩
    · exact ⟨tr' ++ [.conn i a], l, .snoc h1 (.conn ⟨v, l⟩ i a v' hs hq), by rw [connActs_append, h2]; rfl, h3, h4, h5, by rw [logActs_append, h6, hq]; simp [logActs]⟩
    · have hprog : (recordOf l (threadOf i) (r.item time file line)).progs (threadOf i) = [.log (r.item time file line)] := by simp [recordOf, Log.update]
      have hstep := Live.Step.record (enabled := fun _ => true) ⟨v, l⟩ i v' r time file line _ _ hs hq (.inl rfl)
        (.send (enabled := fun _ => true) _ (threadOf i) (r.item time file line) [] h4 (live_ready h1 i) hprog rfl (by show l.consumer ≠ .dead; rw [h3]; simp))
      refine ⟨_, _, .snoc h1 hstep, by rw [connActs_append, h2]; rfl, h3, h4, fun t => ?_, ?_⟩
      · simp only [recordOf, Log.update]
        split
        · rfl
        · exact h5 t
      · rw [logActs_append, h6, hq]
        simp [logActs]

/-- A client of hello-world: it connects, sends a request, and is answered. -/
def oneClient : List (Nat × ServerAct) :=
  [(0, .accept), (0, .send ⟨71, b!"ET / HTTP/1.1\r\nHost: h\r\n\r\n"⟩), (0, .act), (0, .fetch), (0, .act), (0, .act), (0, .act), (0, .act), (0, .act)]

theorem not_accepted {K : Type} {c : Codec K} {setup : Nat → Setup K} {tr : List (Nat × ServerAct)} {v : Server} (h : Server.Run c setup tr v) (i : Nat) (hi : (i, .accept) ∉ tr) : v.task i = none := by
  induction h with
  | nil => rfl
  | snoc _ hs ih =>
    have hi' := ih (fun h => hi (List.mem_append_left _ h))
    cases hs with
    | accept j _ =>
      have : i ≠ j := by rintro rfl; exact hi (List.mem_append_right _ (List.mem_singleton.mpr rfl))
      simp [Server.put, this, hi']
    | send j t g ht _ | finish j t e ht _ _ | fetch j t ht _ _ | seeEnd j t ht _ _ _ _ | log j t r ht _ | answer j t b ht _ =>
      have : i ≠ j := by rintro rfl; rw [hi'] at ht; cases ht
      simp [Server.put, this, hi']

/-- Its five records, with the stamp of the macro, come to less than 8092 bytes of JSON: they are never in the file if nobody comes after it, although it has been answered and they have been handed over. -/
example : ∃ e : Forever (Live.Step noCodec twoSetup (fun _ => true)) (Live.start (fun _ => [])),
    (∀ mine : LiveAct → Bool, (∀ a, mine a = true → a.own = true) → e.Fair mine) ∧
    (∃ m, ∀ m', m ≤ m' → (Log.Spec.writes (logActs (e.upTo m'))).length = 5 ∧ helloText b!"HTTP/1.1" 0 <+: (e.state m').server.wire 0) ∧
    ∀ n (d : Disk), Sane d → ∀ fp bufsize, shownBy d fp bufsize (Log.fileOps (fun _ => true) jsonRender (logActs (e.upTo n))) = content d fp := by
  have hd : (Server.start.run? noCodec twoSetup oneClient).map (fun s =>
      (s.wire 0 = helloText b!"HTTP/1.1" 0 ∧ s.queue.length = 5 ∧
        ((s.queue.map (fun p => jsonRender (p.2.item b!"2024-01-01 00:00:00.000" b!"src/serve.rs" 20))).flatten).length < 8092 ∧ (∀ p ∈ s.queue, p.1 = 0) ∧
        (s.step? noCodec twoSetup (0, .fetch)).isNone ∧ (s.step? noCodec twoSetup (0, .seeEnd)).isNone ∧ (s.step? noCodec twoSetup (0, .act)).isNone : Bool)) = some true := by decide +kernel
  cases hs : Server.start.run? noCodec twoSetup oneClient with
  | none => rw [hs] at hd; cases hd
  | some v =>
    rw [hs] at hd
    simp only [Option.map_some, Option.some.injEq, decide_eq_true_eq] at hd
    obtain ⟨d1, d2, d3, _, d5, d6, d7⟩ := hd
    have hrun : Server.Run noCodec twoSetup oneClient v := by simpa using Server.run?_sound .nil hs
    obtain ⟨tr, l, h1, h2, h3, h4, h5, h6⟩ := live_stamped b!"2024-01-01 00:00:00.000" b!"src/serve.rs" 20 hrun
    have hsend : Log.Spec.sends (logActs tr) = v.queue.map (fun p => (threadOf p.1, p.2.item b!"2024-01-01 00:00:00.000" b!"src/serve.rs" 20)) := by
      rw [h6]
      induction v.queue with
      | nil => rfl
      | cons p q ih => simp [Log.Spec.sends, ih]
    obtain ⟨e, e1, e2, e3, ⟨m, e4⟩, e5⟩ := C222_kept_back_violated noCodec twoSetup _ _ tr _ h1 (by rw [h6]; simp) (by rw [h6]; simp) (by rw [h6]; simp) (by
        intro i a w ha hw
        by_cases hi : i = 0
        · subst hi
          have := hw.step?
          rcases ha with rfl | rfl | rfl
          · rw [this] at d5; cases d5
          · rw [this] at d6; cases d6
          · rw [this] at d7; cases d7
        · have := not_accepted hrun i (by simp [oneClient, hi])
          rcases ha with rfl | rfl | rfl <;> cases hw <;> simp_all) h5 (fun _ => true) jsonRender (by
        rw [hsend]
        have : ∀ l : List (Nat × Item), l.filter (fun _ => true) = l := fun l => List.filter_eq_self.mpr (fun _ _ => rfl)
        simp only [Log.expected, this, List.flatMap_def, List.map_map]
        exact d3)
    refine ⟨e, e2, ⟨max m tr.length, fun m' hm' => ⟨by rw [e4 m' (by omega), hsend, List.length_map, d2], ?_⟩⟩, e5⟩
    have hst : (e.state tr.length).server = v := by
      have := ((live_parts (live_forever e tr.length)).1).run?
      rw [e1, h2, hs] at this
      exact (Option.some.inj this).symm
    have := (forever_later (liveServer e) 0 tr.length m' (by omega)).wire
    have hst' : (liveServer e).state tr.length = v := hst
    rw [hst', d1] at this
    exact this

end Httpd
