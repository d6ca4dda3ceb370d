import Verif.Spec.Accepting
import Verif.Props.Backlog
import Verif.Props.System
import Verif.Props.Online
import Verif.Props.Body
/-!
# C180: no client shuts out others, C181: failing accepts
-/

namespace Httpd

open Spec MultiMap

variable {limit : Nat} {over : Nat → Bool}

theorem AcceptRun.trans {s0 s1 s2 : Accepting} {a b : List AcceptAct} (h1 : AcceptRun limit over s0 a s1)
    (h2 : AcceptRun limit over s1 b s2) : AcceptRun limit over s0 (a ++ b) s2 := by
  induction h2 with
  | nil => simpa using h1
  | snoc _ hs ih => rw [← List.append_assoc]; exact .snoc ih hs

theorem AcceptRun.single {s s' : Accepting} {a : AcceptAct} (h : AcceptStep limit over s a s') : AcceptRun limit over s [a] s' := by
  have := AcceptRun.snoc (AcceptRun.nil (limit := limit) (over := over) (s := s)) h
  simpa using this

theorem connected_append (a b : List AcceptAct) : connected (a ++ b) = connected a ++ connected b := by
  induction a with
  | nil => rfl
  | cons x a ih => cases x <;> simp [connected, ih]

theorem takenUp_append (a b : List AcceptAct) : takenUp (a ++ b) = takenUp a ++ takenUp b := by
  induction a with
  | nil => rfl
  | cons x a ih => cases x <;> simp [takenUp, ih]

theorem takenUp_mem {tr : List AcceptAct} {i : Nat} : .accept i ∈ tr ↔ i ∈ takenUp tr := by
  induction tr with
  | nil => simp [takenUp]
  | cons x a ih => cases x <;> simp [takenUp, ih]

theorem connected_mem {tr : List AcceptAct} {i : Nat} : .connect i ∈ tr ↔ i ∈ connected tr := by
  induction tr with
  | nil => simp [connected]
  | cons x a ih => cases x <;> simp [connected, ih]

/-- First come, first served. -/
theorem accept_order {s : Accepting} {tr : List AcceptAct} (h : AcceptRun limit over .start tr s) :
    connected tr = takenUp tr ++ s.pending ∧ (takenUp tr).Perm (s.serving ++ s.gone) ∧ s.serving.length ≤ limit := by
  induction h with
  | nil => exact ⟨rfl, .refl _, Nat.zero_le _⟩
  | @snoc tr s1 s2 a _ hs ih =>
    obtain ⟨i1, i2, i3⟩ := ih
    rw [connected_append, takenUp_append]
    cases hs with
    | connect i _ _ _ =>
      refine ⟨by simp [connected, takenUp, i1], by simpa [takenUp] using i2, i3⟩
    | accept i rest hp hl =>
      refine ⟨by rw [i1, hp]; simp [connected, takenUp], ?_, by simp; omega⟩
      simp only [takenUp]
      have e : s1.serving ++ [i] ++ s1.gone = s1.serving ++ ([i] ++ s1.gone) := by simp
      rw [e]
      refine ((i2.append_right [i]).trans ?_)
      rw [List.append_assoc]
      exact List.perm_append_comm.append_left _
    | fail hp hl => exact ⟨by simp [connected, takenUp, i1], by simpa [takenUp] using i2, i3⟩
    | finish i hi ho =>
      refine ⟨by simp [connected, takenUp, i1], ?_, ?_⟩
      · simp only [takenUp, List.append_nil]
        refine i2.trans ?_
        have h1 := List.perm_cons_erase hi
        refine (h1.append_right s1.gone).trans ?_
        have h2 : (i :: (s1.serving.erase i ++ s1.gone)).Perm (s1.serving.erase i ++ s1.gone ++ [i]) :=
          List.perm_append_comm (l₁ := [i]) (l₂ := s1.serving.erase i ++ s1.gone)
        simpa using h2
      · have := List.length_erase_of_mem hi
        simp only
        omega

/-! ## Shutting out -/

theorem unfinished_keeps {C K : Type} (x : World C K) (s : ServiceConfig) (hbuf : s.tcp.readBuf ≤ isizeMax ∧ s.tcp.buf ≤ isizeMax) (i : Nat)
    (h : Unfinished s.http.limits (x.client i)) : s.over x i = false := by
  unfold ServiceConfig.over ServiceConfig.connection
  rw [if_neg (by omega)]
  simp only
  unfold serveW
  obtain ⟨outs, _, href⟩ := serveLoopW_refines x.codec s.http.limits (fun j =>
      { http := s.service.kind.http, cap := x.cap i j + 1, cap_pos := Nat.le_add_left 1 _, write := .ok, ord := x.ord i j })
      ((x.client i).flat.length + 1) 0 Message.new Message.new (x.client i) { cap := s.tcp.readBuf, buf := [], sock := Sock.new (x.plan i) } rfl
  obtain ⟨E, hend⟩ : ∃ E : Nat → Env K, (serveLoopW x.codec s.http.limits (fun j =>
      { http := s.service.kind.http, cap := x.cap i j + 1, cap_pos := Nat.le_add_left 1 _, write := .ok, ord := x.ord i j })
      ((x.client i).flat.length + 1) 0 Message.new Message.new (x.client i) { cap := s.tcp.readBuf, buf := [], sock := Sock.new (x.plan i) }).2.2 =
      (serveLoop x.codec s.http.limits E ((x.client i).flat.length + 1) 0 Message.new Message.new (x.client i)).2 :=
    ⟨_, (href _ (fun j _ => rfl)).2.1⟩
  rw [hend]
  rcases h with ⟨q, hq, hp, hne, hfin⟩ | ⟨w, v, n, part, hw, hv, hn, h64, hr, hlt, hfin⟩
  · have := C100_idle_client_kept_violated x.codec s.http.limits E [] q (by simpa using hq) (by simp) _ hp hne (x.client i) hfin (by simp [encodeAll])
    unfold serve at this
    rw [this]; rfl
  · rw [C15_short_body_partial x.codec s.http.limits E _ 0 w hw v n hv hn h64 Message.new Message.new Head.blank_new Body.plain_new (x.client i) part hr hlt, hfin]
    rfl

/-- `n` connections one after the other. -/
def fill : Nat → List AcceptAct
  | 0 => []
  | n + 1 => fill n ++ [.connect n, .accept n]

theorem fill_run (n : Nat) (h : n ≤ limit) : AcceptRun limit over .start (fill n) ⟨[], List.range n, []⟩ := by
  induction n with
  | zero => exact .nil
  | succ n ih =>
    have h1 := ih (by omega)
    have h2 : AcceptStep limit over ⟨[], List.range n, []⟩ (.connect n) ⟨[n], List.range n, []⟩ :=
      .connect _ n (by simp) (by simp) (by simp)
    have h3 : AcceptStep limit over ⟨[n], List.range n, []⟩ (.accept n) ⟨[], List.range n ++ [n], []⟩ :=
      .accept _ n [] rfl (by simp; omega)
    rw [List.range_succ]
    exact h1.trans ((AcceptRun.single h2).trans (.single h3))

theorem full_stays {s s' : Accepting} {tr : List AcceptAct} (h : AcceptRun limit over s tr s') (hl : limit ≤ s.serving.length)
    (hk : ∀ i ∈ s.serving, over i = false) :
    s'.serving = s.serving ∧ takenUp tr = [] ∧ s'.pending = s.pending ++ connected tr := by
  induction h with
  | nil => exact ⟨rfl, rfl, by simp [connected]⟩
  | snoc _ hs ih =>
    obtain ⟨i1, i2, i3⟩ := ih
    rw [connected_append, takenUp_append, i2]
    cases hs with
    | connect i _ _ _ => exact ⟨i1, rfl, by simp [connected, i3]⟩
    | accept i rest hp hlt => rw [i1] at hlt; omega
    | fail _ _ => exact ⟨i1, rfl, by simp [connected, i3]⟩
    | finish i hi ho =>
      rw [i1] at hi
      rw [hk i hi] at ho
      cases ho

theorem events_accepted (tr : List AcceptAct) : (accepted (acceptEvents tr)).map (·.1) = takenUp tr := by
  induction tr with
  | nil => rfl
  | cons a tr ih => cases a <;> simp [acceptEvents, accepted, takenUp, ih]

/-- **C180**, violated: whatever the service, its limits and the number of descriptors - as many clients as there are descriptors, each of which
sends no complete request, are enough. Some of them may even have left (if they announced a body). From then on, whatever happens, nobody
else is served: those who connect stay in the queue for ever. -/
theorem C180_shut_out_violated {C K : Type} (x : World C K) (s : ServiceConfig) (hbuf : s.tcp.readBuf ≤ isizeMax ∧ s.tcp.buf ≤ isizeMax)
    (limit : Nat) (hc : ∀ i, i < limit → Unfinished s.http.limits (x.client i)) :
    ∃ tr st, AcceptRun limit (s.over x) .start tr st ∧ connected tr = List.range limit ∧ st.serving = List.range limit ∧ st.pending = [] ∧
      ∀ tr' st', AcceptRun limit (s.over x) st tr' st' →
        (∀ i, .accept i ∉ tr') ∧ (∀ i, .connect i ∈ tr' → i ∈ st'.pending) ∧
        ∀ (kind : ServiceKind), kind = .helloWorld ∨ kind = .fileSystem → ∀ timeout,
          (runService x.tls [] [] timeout kind true true (acceptEvents (tr ++ tr'))).1.map (·.id) = List.range limit := by
  have hrun := fill_run (over := s.over x) limit (Nat.le_refl limit)
  obtain ⟨o1, o2, _⟩ := accept_order hrun
  have htaken : takenUp (fill limit) = List.range limit := by
    have : ∀ n, takenUp (fill n) = List.range n := by
      intro n
      induction n with
      | zero => rfl
      | succ n ih => rw [fill, takenUp_append, ih, List.range_succ]; rfl
    exact this limit
  refine ⟨fill limit, _, hrun, by rw [o1, htaken]; simp, rfl, rfl, fun tr' st' h' => ?_⟩
  obtain ⟨g1, g2, g3⟩ := full_stays h' (by simp) (fun i hi => unfinished_keeps x s hbuf i (hc i (by simpa using hi)))
  refine ⟨fun i hi => ?_, fun i hi => ?_, fun kind hk timeout => ?_⟩
  · have := takenUp_mem.mp hi
    rw [g2] at this
    cases this
  · rw [g3]
    simpa using connected_mem.mp hi
  · rw [(C81_accepts_all x.tls [] [] timeout kind hk _).1.2 ⟨rfl, rfl⟩, events_accepted, takenUp_append, g2, htaken, List.append_nil]

/-! ## What holds -/

theorem drain (hl : 1 ≤ limit) (n : Nat) (s : Accepting) (hn : 2 * s.pending.length + s.serving.length = n)
    (ho : ∀ i ∈ s.pending ++ s.serving, over i = true) :
    ∃ tr s', AcceptRun limit over s tr s' ∧ (∀ i, .connect i ∉ tr) ∧ .fail ∉ tr ∧ s'.pending = [] ∧ s'.serving = [] ∧
      takenUp tr = s.pending ∧ tr.length = n := by
  induction n generalizing s with
  | zero =>
    have h1 : s.pending = [] := List.length_eq_zero_iff.mp (by omega)
    have h2 : s.serving = [] := List.length_eq_zero_iff.mp (by omega)
    exact ⟨[], s, .nil, by simp, by simp, h1, h2, by rw [h1]; rfl, rfl⟩
  | succ n ih =>
    cases hserv : s.serving with
    | cons i is =>
      have hi : i ∈ s.serving := by rw [hserv]; simp
      have hstep : AcceptStep limit over s (.finish i) { s with serving := s.serving.erase i, gone := s.gone ++ [i] } :=
        .finish s i hi (ho i (by simp [hi]))
      have hlen := List.length_erase_of_mem hi
      have hpos : 0 < s.serving.length := List.length_pos_of_mem hi
      obtain ⟨tr, s', r1, r2, r3, r4, r5, r6, r7⟩ := ih { s with serving := s.serving.erase i, gone := s.gone ++ [i] }
        (by simp only; omega)
        (by
          intro j hj
          rcases List.mem_append.mp hj with hj | hj
          · exact ho j (by simp [hj])
          · exact ho j (by simp [List.mem_of_mem_erase hj]))
      exact ⟨.finish i :: tr, s', (AcceptRun.single hstep).trans r1, by simp [r2], by simp [r3], r4, r5, by simpa [takenUp] using r6, by simp [r7]⟩
    | nil =>
      cases hpend : s.pending with
      | nil => rw [hserv, hpend] at hn; simp at hn
      | cons i rest =>
        have hstep : AcceptStep limit over s (.accept i) { s with pending := rest, serving := s.serving ++ [i] } :=
          .accept s i rest hpend (by rw [hserv]; exact hl)
        obtain ⟨tr, s', r1, r2, r3, r4, r5, r6, r7⟩ := ih { s with pending := rest, serving := s.serving ++ [i] }
          (by rw [hpend, hserv] at hn; simp [hserv] at hn ⊢; omega)
          (by
            intro j hj
            apply ho j
            rw [hpend]
            simp only [List.mem_append, List.mem_singleton] at hj
            simp only [List.cons_append, List.mem_cons, List.mem_append]
            rcases hj with hj | hj | hj
            · exact .inr (.inl hj)
            · exact .inr (.inr hj)
            · exact .inl hj)
        refine ⟨.accept i :: tr, s', (AcceptRun.single hstep).trans r1, by simp [r2], by simp [r3], r4, r5, ?_, by simp [r7]⟩
        simp only [takenUp, r6]

/-- **C180**, what holds, in every run: connections are taken up in the order in which they were made, each once, never more at a time than there are
descriptors; the first in the queue can be taken up whenever a descriptor is free; and if the tasks of all of them end, and there is
a descriptor at all, everybody in the queue is taken up and served, in this many steps. Missing: that a task ends (`C180_shut_out_violated`). -/
theorem C180_fair_partial (s : Accepting) (tr : List AcceptAct) (h : AcceptRun limit over .start tr s) :
    connected tr = takenUp tr ++ s.pending ∧ (takenUp tr).Perm (s.serving ++ s.gone) ∧ (connected tr).Nodup ∧ s.serving.length ≤ limit ∧
    (∀ i rest, s.pending = i :: rest → s.serving.length < limit → ∃ s', AcceptStep limit over s (.accept i) s' ∧ i ∈ s'.serving) ∧
    (1 ≤ limit → (∀ i ∈ s.pending ++ s.serving, over i = true) →
      ∃ tr' s', AcceptRun limit over s tr' s' ∧ (∀ i, .connect i ∉ tr') ∧ .fail ∉ tr' ∧ s'.pending = [] ∧ s'.serving = [] ∧
        takenUp tr' = s.pending ∧ tr'.length = 2 * s.pending.length + s.serving.length) := by
  obtain ⟨o1, o2, o3⟩ := accept_order h
  refine ⟨o1, o2, ?_, o3, fun i rest hp hl => ⟨_, .accept s i rest hp hl, by simp⟩, fun hl ho => ?_⟩
  · clear o1 o2 o3
    induction h with
    | nil => simp [connected]
    | @snoc tr s1 s2 a hr hs ih =>
      rw [connected_append]
      obtain ⟨o1, o2, _⟩ := accept_order hr
      cases hs with
      | connect i h1 h2 h3 =>
        simp only [connected]
        rw [List.nodup_append]
        refine ⟨ih, by simp, ?_⟩
        intro a ha b hb hab
        rw [List.mem_singleton] at hb
        subst hb; subst hab
        rw [o1, List.mem_append] at ha
        rcases ha with ha | ha
        · have := o2.mem_iff.mp ha
          rw [List.mem_append] at this
          exact this.elim h2 h3
        · exact h1 ha
      | accept i rest _ _ => simpa [connected] using ih
      | fail _ _ => simpa [connected] using ih
      | finish i _ _ => simpa [connected] using ih
  · obtain ⟨tr', s', r1, r2, r3, r4, r5, r6, r7⟩ := drain hl _ s rfl ho
    exact ⟨tr', s', r1, r2, r3, r4, r5, r6, r7⟩

/-! ## Failing accepts -/

theorem acceptLog_append (debug : Bool) (err : Bytes) (a b : List AcceptAct) :
    acceptLog debug err (a ++ b) = acceptLog debug err a ++ acceptLog debug err b := by
  induction a with
  | nil => rfl
  | cons x a ih => cases x <;> simp [acceptLog, ih]

theorem acceptLog_fails (err : Bytes) (k : Nat) :
    acceptLog true err (List.replicate k .fail) = List.replicate k ⟨.trace, [], b!"accept failed, " ++ err⟩ := by
  induction k with
  | zero => rfl
  | succ k ih => rw [List.replicate_succ, List.replicate_succ, acceptLog, ih]; rfl

theorem fails_run (s : Accepting) (hp : s.pending ≠ []) (hl : limit ≤ s.serving.length) (k : Nat) :
    AcceptRun limit over s (List.replicate k .fail) s := by
  induction k with
  | zero => exact .nil
  | succ k ih => rw [List.replicate_succ']; exact .snoc ih (.fail s hp hl)

/-- **C181**, violated: with no descriptor free and somebody in the queue, the loop goes round any number of times, failing each time, while
nothing else happens. In a debug build each round logs a record; the thread of the loop can send them all while the consumer does nothing, so
any number of them waits, although no client has sent anything. -/
theorem C181_spins_violated (s : Accepting) (hp : s.pending ≠ []) (hl : limit ≤ s.serving.length) (err : Bytes) (k : Nat)
    (sys : Log.Sys Item) (u : Nat) (hg : sys.guard = .live) (hc : sys.consumer ≠ .dead) (hr : sys.phases u = .ready)
    (hu : CallsOf (acceptLog true err (List.replicate k .fail)) (sys.progs u)) :
    AcceptRun limit over s (List.replicate k .fail) s ∧
    ∃ tr sys', Log.Run (passes .trace) sys tr sys' ∧ (∀ a ∈ tr, ∃ x, a = .send u x) ∧
      (waitingRecords sys'.queue).length = (waitingRecords sys.queue).length + k ∧
      backlogBytes sys'.queue = backlogBytes sys.queue + k * (15 + err.length) := by
  constructor
  · exact fails_run s hp hl k
  · obtain ⟨items, hi, hprog⟩ := hu
    obtain ⟨sys', r1, r2, r3, _⟩ := sends_run (passes .trace) u items [] sys hg hc hr (by simpa using hprog) (trace_all items)
    obtain ⟨b1, b2⟩ := logBytes_items hi
    rw [acceptLog_fails] at b1 b2
    rw [List.length_replicate] at b2
    refine ⟨_, sys', r1, ?_, ?_, ?_⟩
    · intro a ha
      obtain ⟨x, _, rfl⟩ := List.mem_map.mp ha
      exact ⟨x, rfl⟩
    · rw [r2, waiting_append, waiting_items, List.length_append, b2]
    · unfold backlogBytes
      rw [r2, waiting_append, waiting_items, List.map_append, List.sum_append, b1]
      simp only [logBytes, List.map_replicate, List.sum_replicate_nat, List.length_append, List.length_cons, List.length_nil]

/-- **C181**, what holds, in every run: an accept fails only while all descriptors are in use and somebody waits; it changes nothing - queue and
connections are as before, and whatever could happen before can happen after it; and a release build logs nothing about it. -/
theorem C181_harmless_partial (s s' : Accepting) (h : AcceptStep limit over s .fail s') (err : Bytes) (tr : List AcceptAct) :
    s.pending ≠ [] ∧ limit ≤ s.serving.length ∧ s' = s ∧
    (∀ tr1 s1, AcceptRun limit over s' tr1 s1 ↔ AcceptRun limit over s tr1 s1) ∧ acceptLog false err tr = [] := by
  cases h with
  | fail h1 h2 =>
    refine ⟨h1, h2, rfl, fun _ _ => Iff.rfl, ?_⟩
    induction tr with
    | nil => rfl
    | cons a tr ih => cases a <;> simp [acceptLog, ih]

/-! ## Cases meeting the hypotheses -/

/-- Two descriptors. The first client sends nothing, the second announces four bytes, sends three and leaves. -/
def unfinishedClients : Nat → Reader
  | 0 => Reader.ofBytes [] .silent
  | _ => Reader.ofBytes (sampleReq.head.encode ++ b!"bod") .eof

example : ∀ i, Unfinished sampleLimits (unfinishedClients i) := by
  intro i
  match i with
  | 0 => exact .inl ⟨sampleReq, sampleReq_wf, List.nil_prefix, by decide +kernel, rfl⟩
  | n + 1 =>
    exact .inr ⟨sampleReq.head, b!"4", 4, b!"bod", sampleReq_wf.1, by decide +kernel, ((parseUInt_iff 10 _ _).mp (by decide +kernel)).1, by decide, by
      show (Reader.ofBytes (sampleReq.head.encode ++ b!"bod") .eof).flat = _
      decide +kernel, by decide, rfl⟩

/-- The run in which they shut out a third: it is in the queue, and an accept has failed. -/
example : AcceptRun 2 (fun i => 2 ≤ i) .start [.connect 0, .accept 0, .connect 1, .accept 1, .connect 2, .fail] ⟨[2], [0, 1], []⟩ := by
  refine .snoc (.snoc (fill_run 2 (by decide)) (.connect _ 2 (by decide) (by decide) (by decide))) (.fail _ (by decide) (by decide))

/-- If the first one leaves, the third is taken up. -/
example : AcceptRun 2 (fun i => i ≠ 1) ⟨[2], [0, 1], []⟩ [.finish 0, .accept 2, .finish 2] ⟨[], [1], [0, 2]⟩ := by
  refine .snoc (.snoc (.snoc .nil (.finish _ 0 (by decide) (by decide))) (.accept _ 2 [] rfl (by decide))) (.finish _ 2 (by decide) (by decide))

end Httpd
