import Verif.Spec.Forever
import Verif.Props.AllAtOnce
/-!
# Every client is answered (C220)
-/

namespace Httpd
open Spec MultiMap

variable {K : Type} {c : Codec K} {setup : Nat → Setup K}

/-- What was done up to a moment. -/
def Spec.Forever.upTo {S A : Type} {Step : S → A → S → Prop} {start : S} (e : Forever Step start) : Nat → List A
  | 0 => []
  | n + 1 => e.upTo n ++ (e.act n).toList

theorem upTo_succ {S A : Type} {Step : S → A → S → Prop} {start : S} (e : Forever Step start) (n : Nat) : e.upTo (n + 1) = e.upTo n ++ (e.act n).toList := rfl

theorem forever_run (e : Forever (Server.Step c setup) Server.start) (n : Nat) : Server.Run c setup (e.upTo n) (e.state n) := by
  induction n with
  | zero => rw [e.first]; exact .nil
  | succ n ih =>
    have h := e.next n
    unfold Forever.upTo
    cases ha : e.act n with
    | none => rw [ha] at h; simp only at h; rw [h]; simpa using ih
    | some a => rw [ha] at h; exact .snoc ih h

/-- One step later. -/
structure Later (i : Nat) (s s' : Server) : Prop where
  wire : s.wire i <+: s'.wire i
  queue : ofConn i s.queue <+: ofConn i s'.queue
  task : ∀ t, s.task i = some t → ∃ t', s'.task i = some t' ∧ (t.fin = .silent ∧ t.arrived <+: t'.arrived ∨ t'.arrived = t.arrived ∧ t'.fin = t.fin)

theorem Later.refl (i : Nat) (s : Server) : Later i s s := ⟨List.prefix_refl _, List.prefix_refl _, fun t ht => ⟨t, ht, .inr ⟨rfl, rfl⟩⟩⟩

theorem Later.trans {i : Nat} {s s' s'' : Server} (h : Later i s s') (h' : Later i s' s'') : Later i s s'' := by
  refine ⟨h.wire.trans h'.wire, h.queue.trans h'.queue, fun t ht => ?_⟩
  obtain ⟨t1, h1, k1⟩ := h.task t ht
  obtain ⟨t2, h2, k2⟩ := h'.task t1 h1
  refine ⟨t2, h2, ?_⟩
  rcases k1 with ⟨a, b⟩ | ⟨a, b⟩ <;> rcases k2 with ⟨x, y⟩ | ⟨x, y⟩
  · exact .inl ⟨a, b.trans y⟩
  · exact .inl ⟨a, by rw [x]; exact b⟩
  · exact .inl ⟨by rw [← b]; exact x, by rw [← a]; exact y⟩
  · exact .inr ⟨x.trans a, y.trans b⟩

theorem Server.Step.later {s s' : Server} {a : Nat × ServerAct} (h : Server.Step c setup s a s') (i : Nat) : Later i s s' := by
  have hq : ∀ q : List (Nat × Rec), ofConn i s.queue <+: ofConn i (s.queue ++ q) := by
    intro q; simp only [ofConn, List.filter_append, List.map_append]; exact List.prefix_append _ _
  have hput : ∀ j t t', s.task j = some t → (t.fin = .silent ∧ t.arrived <+: t'.arrived ∨ t'.arrived = t.arrived ∧ t'.fin = t.fin) →
      ∀ u, s.task i = some u → ∃ u', (s.put j t').task i = some u' ∧ (u.fin = .silent ∧ u.arrived <+: u'.arrived ∨ u'.arrived = u.arrived ∧ u'.fin = u.fin) := by
    intro j t t' hj hk u hu
    by_cases hi : i = j
    · subst hi
      cases hj.symm.trans hu
      exact ⟨t', by simp [Server.put], hk⟩
    · exact ⟨u, by simpa [Server.put, hi] using hu, .inr ⟨rfl, rfl⟩⟩
  cases h with
  | accept j hj =>
    refine ⟨List.prefix_refl _, List.prefix_refl _, fun u hu => ⟨u, ?_, .inr ⟨rfl, rfl⟩⟩⟩
    have : i ≠ j := by rintro rfl; rw [hj] at hu; cases hu
    simpa [Server.put, this] using hu
  | send j t g hj hf => exact ⟨List.prefix_refl _, List.prefix_refl _, hput j t _ hj (.inl ⟨hf, List.prefix_append _ _⟩)⟩
  | finish j t e hj hf hne => exact ⟨List.prefix_refl _, List.prefix_refl _, hput j t _ hj (.inl ⟨hf, List.prefix_refl _⟩)⟩
  | fetch j t hj hw hlt => exact ⟨List.prefix_refl _, List.prefix_refl _, hput j t _ hj (.inr ⟨rfl, rfl⟩)⟩
  | seeEnd j t hj hw hall hf hsaw => exact ⟨List.prefix_refl _, List.prefix_refl _, hput j t _ hj (.inr ⟨rfl, rfl⟩)⟩
  | log j t r hj hact => exact ⟨List.prefix_refl _, hq _, hput j t _ hj (.inr ⟨rfl, rfl⟩)⟩
  | answer j t b hj hact =>
    refine ⟨?_, List.prefix_refl _, hput j t _ hj (.inr ⟨rfl, rfl⟩)⟩
    simp only
    split
    · exact List.prefix_append _ _
    · exact List.prefix_refl _

theorem forever_later (e : Forever (Server.Step c setup) Server.start) (i n m : Nat) (h : n ≤ m) : Later i (e.state n) (e.state m) := by
  induction h with
  | refl => exact Later.refl i _
  | @step m _ ih =>
    refine ih.trans ?_
    have := e.next m
    cases ha : e.act m with
    | none => rw [ha] at this; simp only at this; rw [this]; exact Later.refl i _
    | some a => rw [ha] at this; exact this.later i

/-- The acts for what has arrived stay the first ones when more arrives. -/
theorem acts_later {x : Setup K} {t t' : Task} (h : t.fin = .silent ∧ t.arrived <+: t'.arrived ∨ t'.arrived = t.arrived ∧ t'.fin = t.fin) :
    serveActs c x.lim x.env x.log t.all <+: serveActs c x.lim x.env x.log t'.all := by
  rcases h with ⟨h1, y, h2⟩ | ⟨h1, h2⟩
  · exact (serveActs_extend c x.lim x.env x.log ((y.map Seg.bytes).flatten) t.all t'.all h1 (by simp [Task.all, Reader.flat, ← h2])).1
  · have : t'.all = t.all := by simp [Task.all, h1, h2]
    rw [this]; exact List.prefix_refl _

theorem answered_prefix {a b : List ConnAct} (h : a <+: b) : answered a <+: answered b := by
  obtain ⟨y, rfl⟩ := h; rw [answered_append]; exact List.prefix_append _ _

theorem recordsOf_prefix {a b : List ConnAct} (h : a <+: b) : recordsOf a <+: recordsOf b := by
  obtain ⟨y, rfl⟩ := h; rw [recordsOf_append]; exact List.prefix_append _ _

/-- A task that has not yet done all that is to be done for what had arrived can go on. -/
theorem can_go_on {tr : List (Nat × ServerAct)} {s : Server} (h : Server.Run c setup tr s) {i : Nat} {t : Task} (ht : s.task i = some t)
    {g : List ConnAct} (hg : g <+: serveActs c (setup i).lim (setup i).env (setup i).log t.all) (hn : ¬ g <+: (t.acts c (setup i)).take t.done) :
    ∃ a s', isTurn i a = true ∧ Server.Step c setup s a s' := by
  apply Classical.byContradiction
  intro hno
  have hno' : ∀ a s', a = .fetch ∨ a = .seeEnd ∨ a = .act → ¬ Server.Step c setup s (i, a) s' := by
    intro a s' ha hs
    exact hno ⟨(i, a), s', by rcases ha with rfl | rfl | rfl <;> simp [isTurn], hs⟩
  have h0 := (h.inv i).2 t ht
  obtain ⟨h1, h2⟩ := Task.acts_all h0
  have hdone : t.done = (t.acts c (setup i)).length := by
    refine Nat.le_antisymm h0.done (Nat.not_lt.mp fun hlt => ?_)
    cases ha : (t.acts c (setup i))[t.done] with
    | log r => exact hno' .act _ (by simp) (.log s i t r ht (by rw [List.getElem?_eq_getElem hlt, ha]))
    | answer b => exact hno' .act _ (by simp) (.answer s i t b ht (by rw [List.getElem?_eq_getElem hlt, ha]))
  have hall : t.acts c (setup i) = serveActs c (setup i).lim (setup i).env (setup i).log t.all := by
    by_cases hw : (serve c (setup i).lim (setup i).env t.reader).2 = .waiting
    · have hf : t.fetched = t.arrived.length := by
        refine Nat.le_antisymm h0.fetched (Nat.not_lt.mp fun hlt => ?_)
        exact hno' .fetch _ (by simp) (.fetch s i t ht ⟨hdone, hw⟩ hlt)
      have he : t.reader = t.all := by
        cases hsaw : t.sawEnd with
        | true => simp only [Task.reader, Task.all, hsaw, ↓reduceIte, hf, List.take_length]
        | false =>
          by_cases hfin : t.fin = .silent
          · simp [Task.reader, Task.all, hsaw, hf, hfin]
          · exact absurd (.seeEnd s i t ht ⟨hdone, hw⟩ hf hfin hsaw) (hno' .seeEnd _ (by simp))
      rw [Task.acts, he]
    · exact (h2 hw).symm
  rw [hdone, List.take_length, hall] at hn
  exact hn hg

/-- **The acts for what has arrived are all done at some moment.** -/
theorem acts_done (e : Forever (Server.Step c setup) Server.start) (i : Nat) (hfair : e.Fair (isTurn i)) (n : Nat) (t : Task) (ht : (e.state n).task i = some t) :
    ∃ m t', n ≤ m ∧ (e.state m).task i = some t' ∧
      serveActs c (setup i).lim (setup i).env (setup i).log t.all <+: (t'.acts c (setup i)).take t'.done := by
  apply Classical.byContradiction
  intro hno
  have hno : ∀ m t', n ≤ m → (e.state m).task i = some t' → ¬ serveActs c (setup i).lim (setup i).env (setup i).log t.all <+: (t'.acts c (setup i)).take t'.done :=
    fun m t' h1 h2 h3 => hno ⟨m, t', h1, h2, h3⟩
  -- the task at later moments
  have htask : ∀ m, n ≤ m → ∃ t', (e.state m).task i = some t' ∧ (t.fin = .silent ∧ t.arrived <+: t'.arrived ∨ t'.arrived = t.arrived ∧ t'.fin = t.fin) :=
    fun m hm => (forever_later e i n m hm).task t ht
  -- no more segments are read than had arrived
  have hfet : ∀ m t', n ≤ m → (e.state m).task i = some t' → t'.fetched ≤ t.arrived.length := by
    intro m t' hm
    induction hm generalizing t' with
    | refl => intro h; cases h.symm.trans ht; exact (((forever_run e n).inv i).2 t ht).fetched
    | @step m hm ih =>
      intro h
      obtain ⟨u, hu, hk⟩ := htask m hm
      have hfu := ih u hu
      have hnext := e.next m
      cases ha : e.act m with
      | none => rw [ha] at hnext; simp only at hnext; rw [hnext] at h; exact ih t' h
      | some a =>
        rw [ha] at hnext
        simp only at hnext
        have h0 := ((forever_run e m).inv i).2 u hu
        have keep : ∀ (j : Nat) (v v' : Task), (e.state m).task j = some v → ((e.state m).put j v').task i = some t' → v'.fetched = v.fetched → t'.fetched ≤ t.arrived.length := by
          intro j v v' hj hp hv
          by_cases hi : i = j
          · subst hi
            cases hj.symm.trans hu
            simp only [Server.put, ↓reduceIte, Option.some.injEq] at hp
            rw [← hp, hv]; exact hfu
          · simp only [Server.put, hi, ↓reduceIte] at hp
            exact ih t' hp
        generalize hs1 : e.state m = s at *
        generalize hs2 : e.state (m + 1) = s2 at *
        cases hnext with
        | accept j hj =>
          by_cases hi : i = j
          · subst hi; rw [hu] at hj; cases hj
          · simp only [Server.put, hi, ↓reduceIte] at h
            exact ih t' h
        | send j v g hj hf => exact keep j v _ hj h rfl
        | finish j v x hj hf hne => exact keep j v _ hj h rfl
        | seeEnd j v hj hw hall hf hsaw => exact keep j v _ hj h rfl
        | log j v r hj hact => exact keep j v _ hj h rfl
        | answer j v b hj hact => exact keep j v _ hj h rfl
        | fetch j v hj hw hlt =>
          by_cases hi : i = j
          · subst hi
            have huv : v = u := Option.some.inj (hj.symm.trans hu)
            subst huv
            simp only [Server.put, ↓reduceIte, Option.some.injEq] at h
            rw [← h]
            show v.fetched + 1 ≤ _
            refine Nat.lt_of_not_le fun hle => ?_
            have hsaw : v.sawEnd = false := by
              cases hc : v.sawEnd with
              | false => rfl
              | true => have := (h0.ended hc).2; omega
            have hn := hno m v hm (by rw [hs1]; exact hu)
            refine hn ?_
            rw [hw.1, List.take_length]
            rcases hk with ⟨k1, y, k2⟩ | ⟨k1, k2⟩
            · refine (serveActs_extend c (setup i).lim (setup i).env (setup i).log ((y.take (v.fetched - t.arrived.length)).map Seg.bytes).flatten t.all v.reader k1 ?_).1
              simp only [Task.reader, Task.all, Reader.flat, List.nil_append, ← k2, List.take_append, List.map_append, List.flatten_append]
              rw [List.take_of_length_le hle]
            · rw [k1] at hlt; omega
          · simp only [Server.put, hi, ↓reduceIte] at h
            exact ih t' h
  -- a bound on the turns
  have hbound : ∀ m, n ≤ m → (e.upTo m).countP (isTurn i) ≤ t.arrived.length + 1 + (serveActs c (setup i).lim (setup i).env (setup i).log t.all).length := by
    intro m hm
    obtain ⟨t', h1, h2⟩ := htask m hm
    have h3 := ((forever_run e m).turns i).2 t' h1
    have h4 := hfet m t' hm h1
    have h0 := ((forever_run e m).inv i).2 t' h1
    have h5 : t'.sawEnd.toNat ≤ 1 := Bool.toNat_le _
    have h6 : t'.done ≤ (serveActs c (setup i).lim (setup i).env (setup i).log t.all).length := by
      refine Nat.le_of_not_lt fun hlt => hno m t' hm h1 ?_
      have ha := (Task.acts_all h0).1
      have hb := acts_later (c := c) (x := setup i) h2
      refine List.prefix_of_prefix_length_le hb ((List.take_prefix _ _).trans ha) ?_
      rw [List.length_take]
      have := h0.done
      omega
    omega
  have hmono : ∀ m m', m ≤ m' → (e.upTo m).countP (isTurn i) ≤ (e.upTo m').countP (isTurn i) := by
    intro m m' h
    induction h with
    | refl => exact Nat.le_refl _
    | step _ ih => refine Nat.le_trans ih ?_; rw [upTo_succ, List.countP_append]; omega
  -- arbitrarily many turns
  have hmany : ∀ k, ∃ m, n ≤ m ∧ k ≤ (e.upTo m).countP (isTurn i) := by
    intro k
    induction k with
    | zero => exact ⟨n, Nat.le_refl _, Nat.zero_le _⟩
    | succ k ih =>
      obtain ⟨m, hm, hk⟩ := ih
      obtain ⟨m', a, h1, h2, h3⟩ := hfair m (fun m' hm' => by
        obtain ⟨t', h1, h2⟩ := htask m' (by omega)
        exact can_go_on (forever_run e m') h1 (acts_later h2) (hno m' t' (by omega) h1))
      refine ⟨m' + 1, by omega, ?_⟩
      have := hmono m m' h1
      rw [upTo_succ, List.countP_append, h2]
      simp [h3]
      omega
  obtain ⟨m, hm, hk⟩ := hmany (t.arrived.length + 1 + (serveActs c (setup i).lim (setup i).env (setup i).log t.all).length + 1)
  have := hbound m hm
  omega

/-- **C220.** In every execution without end in which the task of a connection is not left out for ever, whatever the other connections, their clients and their tasks do: from some moment on the client
has been sent everything that `serve` answers to what had arrived from it at a given moment, and everything that `serve` logs about that has been handed to the log; and if nothing more arrives, that is
all: nothing else is sent or logged. -/
theorem C220_eventually (c : Codec K) (setup : Nat → Setup K) (e : Forever (Server.Step c setup) Server.start) (i : Nat) (hfair : e.Fair (isTurn i)) (n : Nat)
    (t : Task) (ht : (e.state n).task i = some t) :
    ∃ m, n ≤ m ∧ ∀ m', m ≤ m' →
      ((serve c (setup i).lim (setup i).env t.all).1.map (·.written)).flatten <+: (e.state m').wire i ∧
      serveLog c (setup i).lim (setup i).env (setup i).log t.all <+: ofConn i (e.state m').queue ∧
      (∀ t', (e.state m').task i = some t' → t'.arrived = t.arrived → t'.fin = t.fin →
        (e.state m').wire i = ((serve c (setup i).lim (setup i).env t.all).1.map (·.written)).flatten ∧
        ofConn i (e.state m').queue = serveLog c (setup i).lim (setup i).env (setup i).log t.all) := by
  obtain ⟨m, u, hm, hu, hp⟩ := acts_done e i hfair n t ht
  obtain ⟨e1, e2⟩ := serveActs_spec c (setup i).lim (setup i).env (setup i).log t.all
  have h0 := ((forever_run e m).inv i).2 u hu
  have w1 : ((serve c (setup i).lim (setup i).env t.all).1.map (·.written)).flatten <+: (e.state m).wire i := by
    rw [← e2, h0.out]; exact answered_prefix hp
  have w2 : serveLog c (setup i).lim (setup i).env (setup i).log t.all <+: ofConn i (e.state m).queue := by
    rw [← e1, h0.recs]; exact recordsOf_prefix hp
  refine ⟨m, hm, fun m' hm' => ?_⟩
  have hl := forever_later e i m m' hm'
  refine ⟨w1.trans hl.wire, w2.trans hl.queue, fun t' ht' ha hf => ?_⟩
  obtain ⟨p, hpre, k1, k2⟩ := (C206_as_if_alone c setup _ _ (forever_run e m') i t' ht').1
  have : t'.all = t.all := by simp [Task.all, ha, hf]
  rw [this] at hpre
  constructor
  · refine List.IsPrefix.eq_of_length_le ?_ (w1.trans hl.wire).length_le
    rw [k1, ← e2]; exact answered_prefix hpre
  · refine List.IsPrefix.eq_of_length_le ?_ (w2.trans hl.queue).length_le
    rw [k2, ← e1]; exact recordsOf_prefix hpre

/-- **C220**, for complete requests: a client of hello-world from which any number of well-formed requests (none with major version 0) have arrived, whatever came after them, has from some moment on been
sent the answers to all of them. -/
theorem C220_hello (c : Codec K) (setup : Nat → Setup K) (e : Forever (Server.Step c setup) Server.start) (i : Nat) (hfair : e.Fair (isTurn i)) (n : Nat)
    (t : Task) (ht : (e.state n).task i = some t) (he : ∀ j, ((setup i).env j).http = helloHttp ∧ ((setup i).env j).write = .ok)
    (qs : List WireReq) (hq : ∀ q ∈ qs, q.WF (setup i).lim.maxUrl (setup i).lim.maxHeaderLine (setup i).lim.maxHeadersCount)
    (hopen : ∀ q ∈ qs, ¬ helloCloses q.head.w2) (more : Bytes) (hsent : (t.arrived.map Seg.bytes).flatten = encodeAll qs ++ more) :
    ∃ m, n ≤ m ∧ ∀ m', m ≤ m' → (qs.mapIdx (fun j q => helloText q.head.w2 j)).flatten <+: (e.state m').wire i := by
  obtain ⟨m, hm, h⟩ := C220_eventually c setup e i hfair n t ht
  refine ⟨m, hm, fun m' hm' => List.IsPrefix.trans ?_ (h m' hm').1⟩
  have h78 := ((C78_hello_transcript c (setup i).lim (setup i).env he qs hq hopen ⟨encodeAll qs, [], .silent⟩).1 (by simp [Reader.flat])).1
  rw [← h78, ← (serveActs_spec c (setup i).lim (setup i).env (setup i).log _).2, ← (serveActs_spec c (setup i).lim (setup i).env (setup i).log _).2]
  exact answered_prefix (serveActs_extend c (setup i).lim (setup i).env (setup i).log more _ t.all rfl (by simp [Task.all, Reader.flat, hsent])).1

/-- The answers of `serve` are those of the grammar. -/
theorem serve_talk (c : Codec K) (x : Setup K) (t : Task) (kind : ServiceSetting) (reply : Nat → Bytes → Bytes) (stops : Bytes → Prop) (ha : Answers kind reply stops)
    (he : ∀ j, (x.env j).http = kind.kind.http ∧ (x.env j).write = .ok) :
    ∃ f, Talk x.lim.maxUrl x.lim.maxHeaderLine x.lim.maxHeadersCount (afterOf t.fin) reply stops 0 (t.arrived.map Seg.bytes).flatten
      ((serve c x.lim x.env t.all).1.map (·.written)) f := by
  have hflat : t.all.flat = (t.arrived.map Seg.bytes).flatten := by simp [Task.all, Reader.flat]
  rw [← hflat]
  cases ha with
  | hello => obtain ⟨f, _, h⟩ := C130_hello_whole c x.lim x.env he t.all; exact ⟨f, h⟩
  | files root => obtain ⟨f, _, h⟩ := C130_fs_whole c x.lim x.env he t.all; exact ⟨f, h⟩

/-- **C220**, from the command line: let the file named there be accepted and the log started. Then the process goes on to serve the services that the file asks for. In every execution without end in
which the task of a client that takes what it is sent is not left out for ever, the client has from some moment on been sent all that the grammar gives for the bytes that had arrived from it, for the
kind and the limits that the file says, whatever the others do. -/
theorem C220_command_line (m : Machine) (horder : ∀ l, (m.order l).Perm l) (p : Profile) (arg : Str)
    (harg : trimUnicode (fileArgument p arg) ≠ []) (v : Toml) (hread : m.read (fileArgument p arg) = some v)
    (hnd : ∀ ss, setting [u!"services", u!"Services"] 9 v = some (.table ss) → (ss.map (·.1)).Nodup) (c : Config)
    (hload : loadFile m.U p m.strict m.pathExists m.chdir m.glob m.order (some v) = .value c)
    (hlog : ∃ k, c.initLogging m.U m.openOk m.midnight m.names m.setOk = .value k) :
    ∃ services, m.start p arg = .serving services ∧ (services.map (·.1)).Nodup ∧ (∀ k, k ∈ services.map (·.1) ↔ ∃ sv, ToRun m.glob v k sv) ∧
      ∀ {K : Type} (codec : Codec K) (setup : Nat → Setup K) (e : Forever (Server.Step codec setup) Server.start),
        ∀ (q : Str × ServiceConfig), q ∈ services → ∀ i, (setup i).Serves q.2 → e.Fair (isTurn i) → ∀ n t, (e.state n).task i = some t →
          ∃ sv kind maxUrl maxLine maxHeaders, ToRun m.glob v q.1 sv ∧
            Given (KindSays m.strict) .helloWorld (setting [u!"service", u!"Service"] 2 sv) kind ∧
            LimitsInForce m.U p v sv maxUrl maxLine maxHeaders ∧
            ∀ reply stops, Answers kind reply stops →
              ∃ outs f, Talk maxUrl maxLine maxHeaders (afterOf t.fin) reply stops 0 (t.arrived.map Seg.bytes).flatten outs f ∧
                ∃ n', n ≤ n' ∧ ∀ n'', n' ≤ n'' → outs.flatten <+: (e.state n'').wire i := by
  obtain ⟨hs1, hs2, _, hs4⟩ := run_in_force m.U p m.strict m.pathExists m.chdir m.glob m.order horder v c hload hnd
  refine ⟨c.services, (start_serving m p arg harg v hread hnd horder c hload hlog).1, hs1, fun k => ⟨fun hk => ?_, fun ⟨sv, hk⟩ => ?_⟩, ?_⟩
  · obtain ⟨q, hq, rfl⟩ := List.mem_map.1 hk
    exact hs2 q.1 q.2 hq
  · obtain ⟨s, hs, _⟩ := hs4 k sv hk
    exact List.mem_map.2 ⟨_, hs, rfl⟩
  · intro K codec setup e q hof i hsetup hfair n t ht
    obtain ⟨sv, hsv⟩ := hs2 q.1 q.2 hof
    obtain ⟨s', hmem, hkind, hlim, _⟩ := hs4 _ sv hsv
    have hsame : s' = q.2 := eq_of_key_nodup hs1 hmem hof
    subst hsame
    refine ⟨sv, _, _, _, _, hsv, hkind, hlim, fun reply stops ha => ?_⟩
    obtain ⟨hl, he⟩ := hsetup
    obtain ⟨f, hf⟩ := serve_talk codec (setup i) t _ reply stops ha he
    rw [hl] at hf
    obtain ⟨n', hn, h⟩ := C220_eventually codec setup e i hfair n t ht
    rw [← hl] at hf
    rw [← hl]
    exact ⟨_, f, hf, n', hn, fun n'' hn' => (h n'' hn').1⟩

/-! ## There are such executions -/

/-- One action more, and then nothing. -/
theorem forever_snoc {S A : Type} {Step : S → A → S → Prop} {start : S} (e : Forever Step start) (n : Nat) (s s' : S) (a : A)
    (h : ∀ m, n ≤ m → e.state m = s ∧ e.act m = none) (hs : Step s a s') :
    ∃ e' : Forever Step start, (∀ m, m ≤ n → e'.upTo m = e.upTo m) ∧ e'.upTo (n + 1) = e.upTo n ++ [a] ∧ ∀ m, n + 1 ≤ m → e'.state m = s' ∧ e'.act m = none := by
  have hn : ∀ m, match (if m < n then e.act m else if m = n then some a else none) with
      | none => (if m + 1 ≤ n then e.state (m + 1) else s') = (if m ≤ n then e.state m else s')
      | some a => Step (if m ≤ n then e.state m else s') a (if m + 1 ≤ n then e.state (m + 1) else s') := by
    intro m
    by_cases hm : m < n
    · simp only [hm, ↓reduceIte, Nat.le_of_lt hm, Nat.succ_le_of_lt hm]
      exact e.next m
    · by_cases hm' : m = n
      · subst hm'
        simp only [Nat.lt_irrefl, ↓reduceIte, Nat.le_refl, Nat.not_succ_le_self]
        rw [(h _ (Nat.le_refl _)).1]; exact hs
      · have k1 : ¬ m ≤ n := by omega
        have k2 : ¬ m + 1 ≤ n := by omega
        simp only [hm, hm', k1, k2, ↓reduceIte]
  refine ⟨⟨fun m => if m ≤ n then e.state m else s', fun m => if m < n then e.act m else if m = n then some a else none, by simp [e.first], hn⟩, ?_, ?_, ?_⟩
  · intro m hm
    induction m with
    | zero => rfl
    | succ m ih => rw [upTo_succ, upTo_succ, ih (by omega)]; simp [show m < n by omega]
  · have : ∀ m, m ≤ n → Forever.upTo (Step := Step) (start := start) ⟨fun m => if m ≤ n then e.state m else s', fun m => if m < n then e.act m else if m = n then some a else none, by simp [e.first], hn⟩ m = e.upTo m := by
      intro m hm
      induction m with
      | zero => rfl
      | succ m ih => rw [upTo_succ, upTo_succ, ih (by omega)]; simp [show m < n by omega]
    rw [upTo_succ, this n (Nat.le_refl _)]
    simp
  · intro m hm
    have k1 : ¬ m ≤ n := by omega
    have k2 : ¬ m < n := by omega
    have k3 : m ≠ n := by omega
    simp [k1, k2, k3]

/-- A run, and then nothing. -/
theorem run_forever {tr : List (Nat × ServerAct)} {s : Server} (h : Server.Run c setup tr s) :
    ∃ e : Forever (Server.Step c setup) Server.start, (∀ m, m ≤ tr.length → e.upTo m = tr.take m) ∧ ∀ m, tr.length ≤ m → e.state m = s ∧ e.act m = none := by
  induction h with
  | nil => exact ⟨⟨fun _ => Server.start, fun _ => none, rfl, fun _ => rfl⟩, fun m hm => by cases Nat.le_zero.mp hm; rfl, fun _ _ => ⟨rfl, rfl⟩⟩
  | @snoc tr s s' a _ hs ih =>
    obtain ⟨e, h1, h2⟩ := ih
    obtain ⟨e', k1, k2, k3⟩ := forever_snoc e tr.length s s' a h2 hs
    refine ⟨e', fun m hm => ?_, fun m hm => k3 m (by simpa using hm)⟩
    by_cases h : m ≤ tr.length
    · rw [k1 m h, h1 m h, List.take_append_of_le_length h]
    · have : m = tr.length + 1 := by simp at hm; omega
      rw [this, k2, h1 _ (Nat.le_refl _)]
      rw [List.take_of_length_le (l := tr ++ [a]) (by simp), List.take_length]

/-- **C220**, the condition asks for nothing impossible: whatever has happened so far, the execution can go on so that the task of connection `i` is not left out. -/
theorem C220_possible (c : Codec K) (setup : Nat → Setup K) (tr : List (Nat × ServerAct)) (s : Server) (h : Server.Run c setup tr s) (i : Nat) (t : Task) (ht : s.task i = some t) :
    ∃ e : Forever (Server.Step c setup) Server.start, e.upTo tr.length = tr ∧ e.Fair (isTurn i) := by
  obtain ⟨tr', s', t', _, h2, _, _, _, h6⟩ := h.finish_turns i t ht
  obtain ⟨e, k1, k2⟩ := run_forever h2
  refine ⟨e, by rw [k1 _ (by simp)]; simp, fun n hen => ?_⟩
  obtain ⟨⟨j, a⟩, u, ha, hs⟩ := hen (max n (tr ++ tr').length) (Nat.le_max_left _ _)
  rw [(k2 _ (Nat.le_max_right _ _)).1] at hs
  simp only [isTurn, Bool.and_eq_true, Bool.or_eq_true, decide_eq_true_eq] at ha
  obtain ⟨rfl, ha⟩ := ha
  exact absurd hs (h6 a u (by rcases ha with (h | h) | h <;> simp [h]))

/-- A client that is never given a turn gets no answer: without the condition C220 would not hold. -/
example (c : Codec K) (setup : Nat → Setup K) : ∃ e : Forever (Server.Step c setup) Server.start,
    (∀ n, 2 ≤ n → ∃ t, (e.state n).task 0 = some t ∧ t.arrived = [⟨71, b!"ET / HTTP/1.1\r\n\r\n"⟩]) ∧ ∀ n, (e.state n).wire 0 = [] := by
  have h : Server.Run c setup [(0, .accept), (0, .send ⟨71, b!"ET / HTTP/1.1\r\n\r\n"⟩)] _ := .snoc (.snoc .nil (.accept _ 0 rfl)) (.send _ 0 Task.new _ rfl rfl)
  obtain ⟨e, h1, h2⟩ := run_forever h
  refine ⟨e, fun n hn => ⟨{ Task.new with arrived := [⟨71, b!"ET / HTTP/1.1\r\n\r\n"⟩] }, by rw [(h2 n hn).1]; rfl, rfl⟩, fun n => ?_⟩
  have hl := (forever_later e 0 n (max n 2) (Nat.le_max_left _ _)).wire
  rw [(h2 (max n 2) (Nat.le_max_right _ _)).1] at hl
  exact List.prefix_nil.mp hl

/-- The steps are a function of state and action. -/
theorem Server.Step.step? {s s' : Server} {a : Nat × ServerAct} (h : Server.Step c setup s a s') : s.step? c setup a = some s' := by
  cases h with
  | accept i h => simp [Server.step?, h]
  | send i t g h hf => simp [Server.step?, h, hf]
  | finish i t e h hf hne => simp [Server.step?, h, hf, hne]
  | fetch i t h hw hlt => have := hw.1; have := hw.2; simp [Server.step?, h, hlt, *]
  | seeEnd i t h hw hall hf hsaw => have := hw.1; have := hw.2; simp [Server.step?, h, *]
  | log i t r h hact => simp [Server.step?, h, hact]
  | answer i t b h hact => simp [Server.step?, h, hact]

theorem Server.run?_snoc {s s' s'' : Server} {tr : List (Nat × ServerAct)} {a : Nat × ServerAct} (h : s.run? c setup tr = some s') (hs : s'.step? c setup a = some s'') :
    s.run? c setup (tr ++ [a]) = some s'' := by
  induction tr generalizing s with
  | nil => cases h; simp [Server.run?, hs]
  | cons b tr ih =>
    rw [List.cons_append]
    unfold Server.run? at h ⊢
    split at h
    · exact ih h
    · cases h

theorem Server.Run.run? {tr : List (Nat × ServerAct)} {s : Server} (h : Server.Run c setup tr s) : Server.start.run? c setup tr = some s := by
  induction h with
  | nil => rfl
  | snoc _ hs ih => exact Server.run?_snoc ih hs.step?

/-- Two clients (C206) have sent half a request each. The first one sends the rest; however it goes on, if its task is not left out it is answered. -/
example : ∃ e : Forever (Server.Step noCodec twoSetup) Server.start, e.upTo 10 = twoClients.take 10 ∧ e.Fair (isTurn 0) ∧
    ∃ m, ∀ m', m ≤ m' → helloText b!"HTTP/1.1" 0 <+: (e.state m').wire 0 := by
  have hd : (Server.start.run? noCodec twoSetup (twoClients.take 10)).map (fun s => (s.task 0).map (fun t => (t.arrived.map Seg.bytes).flatten)) =
      some (some (encodeAll [⟨⟨b!"GET", b!"/", b!"HTTP/1.1", [⟨b!"Host", b!"h", 1, 0⟩]⟩, []⟩])) := by decide +kernel
  cases hs : Server.start.run? noCodec twoSetup (twoClients.take 10) with
  | none => rw [hs] at hd; cases hd
  | some s =>
    rw [hs] at hd
    simp only [Option.map_some, Option.some.injEq] at hd
    cases ht : s.task 0 with
    | none => rw [ht] at hd; cases hd
    | some t =>
      rw [ht] at hd
      simp only [Option.map_some, Option.some.injEq] at hd
      have hrun : Server.Run noCodec twoSetup (twoClients.take 10) s := by simpa using Server.run?_sound .nil hs
      obtain ⟨e, h1, h2⟩ := C220_possible noCodec twoSetup _ s hrun 0 t ht
      have h1 : e.upTo 10 = twoClients.take 10 := h1
      have hst : e.state 10 = s := by
        have := (forever_run e 10).run?
        rw [h1, hs] at this
        exact (Option.some.inj this).symm
      obtain ⟨m, _, hm⟩ := C220_hello noCodec twoSetup e 0 h2 10 t (by rw [hst]; exact ht) (fun j => ⟨rfl, rfl⟩)
        [⟨⟨b!"GET", b!"/", b!"HTTP/1.1", [⟨b!"Host", b!"h", 1, 0⟩]⟩, []⟩] (by
          intro q hq
          cases List.mem_singleton.mp hq
          refine ⟨⟨⟨by decide, by decide, by decide, by decide, by decide, by decide, by decide⟩, ?_, by decide, by decide⟩, by decide, rfl⟩
          intro f hf
          cases List.mem_singleton.mp hf
          exact ⟨by decide, by decide, by decide, by decide, by decide, by decide, by decide, by decide⟩) (by
          intro q hq
          cases List.mem_singleton.mp hq
          exact (hello_keepAlive _).mp (by decide +kernel)) [] (by rw [hd]; simp)
      refine ⟨e, h1, h2, m, fun m' h => ?_⟩
      simpa using hm m' h

end Httpd
