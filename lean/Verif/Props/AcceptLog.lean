import Verif.Model.AcceptLog
import Verif.Props.Accepting
import Verif.Props.LogDeath
import Verif.Props.DeadLog
/-!
# C187: a service outlives a failing accept
-/

namespace Httpd

open Spec MultiMap

variable {R : Type} {limit : Nat} {over : Nat → Bool} {enabled : R → Bool} {debug : Bool} {t : Nat} {r : R}

theorem netActs_append (a b : List (ListenAct R)) : netActs (a ++ b) = netActs a ++ netActs b := by
  induction a with
  | nil => rfl
  | cons x a ih => cases x <;> simp [netActs, ih]

theorem ListenRun.trans {s0 s1 s2 : Listening R} {a b : List (ListenAct R)} (h1 : ListenRun limit over enabled debug t r s0 a s1)
    (h2 : ListenRun limit over enabled debug t r s1 b s2) : ListenRun limit over enabled debug t r s0 (a ++ b) s2 := by
  induction h2 with
  | nil => simpa using h1
  | snoc _ hs ih => rw [← List.append_assoc]; exact .snoc ih hs

theorem ListenRun.single {s s' : Listening R} {a : ListenAct R} (h : ListenStep limit over enabled debug t r s a s') :
    ListenRun limit over enabled debug t r s [a] s' := by
  have := ListenRun.snoc (ListenRun.nil (limit := limit) (over := over) (enabled := enabled) (debug := debug) (t := t) (r := r) (s := s)) h
  simpa using this

/-- The accept loop alone, next to an idle logger. -/
theorem listen_net {l : Log.Sys R} {n0 n : Accepting} {tr : List AcceptAct} (h : AcceptRun limit over n0 tr n) (hf : .fail ∉ tr) :
    ListenRun limit over enabled debug t r ⟨true, n0, l⟩ (tr.map .net) ⟨true, n, l⟩ := by
  induction h with
  | nil => exact .nil
  | @snoc tr s1 s2 a _ hs ih =>
    have h1 := ih (fun h => hf (by simp [h]))
    rw [List.map_append]
    refine .snoc h1 ?_
    cases a with
    | connect i => exact .connect _ i _ rfl hs
    | accept i => exact .accept _ i _ rfl hs
    | fail => simp at hf
    | finish i => exact .finish _ i _ hs

/-- The logger alone. -/
theorem listen_log {l0 l : Log.Sys R} {n : Accepting} {b : Bool} {tr : List (Log.Act R)} (h : Log.Run enabled l0 tr l)
    (hg : ∀ a ∈ tr, actGuard a = false ∧ actThread a ≠ some t) :
    ListenRun limit over enabled debug t r ⟨b, n, l0⟩ (tr.map .log) ⟨b, n, l⟩ := by
  induction h with
  | nil => exact .nil
  | @snoc tr s1 s2 a _ hs ih =>
    have h1 := ih (fun x hx => hg x (by simp [hx]))
    rw [List.map_append]
    exact .snoc h1 (.log _ a _ (hg a (by simp)).1 (hg a (by simp)).2 hs)

theorem step_ready {s s' : Log.Sys R} {a : Log.Act R} (h : Log.Step enabled s a s') (hg : actGuard a = false) (ht : actThread a ≠ some t) :
    s'.guard = s.guard ∧ s'.phases t = s.phases t ∧ (s'.consumer = .dead ↔ s.consumer = .dead ∨ ∃ _ : a = .crash, True) := by
  cases h <;> simp_all [actGuard, actThread, Log.update] <;> omega

theorem listen_inv (progs : Nat → List (Log.Call R)) {tr : List (ListenAct R)} {s : Listening R}
    (h : ListenRun limit over enabled debug t r (listenStart t progs) tr s) :
    s.log.guard = .live ∧ (s.looping = true → s.log.phases t = .ready) ∧ (s.log.consumer = .dead ↔ .log .crash ∈ tr) ∧
    (s.looping = true → .died ∉ tr ∧ AcceptRun limit over .start (netActs tr) s.net) ∧
    (s.looping = false → .died ∈ tr ∧ debug = true ∧ enabled r = true ∧ .log .crash ∈ tr ∧ s.net.pending = []) := by
  induction h with
  | nil => exact ⟨rfl, fun _ => rfl, by simp [listenStart, Log.start], fun _ => ⟨by simp, .nil⟩, fun h => by simp [listenStart] at h⟩
  | @snoc tr s1 s2 a _ hs ih =>
    obtain ⟨i1, i2, i3, i4, i5⟩ := ih
    rw [netActs_append]
    cases hs with
    | connect i n hl hn =>
      exact ⟨i1, i2, by simpa using i3, fun h => ⟨by simpa using (i4 h).1, .snoc (i4 h).2 hn⟩, fun h => by simp_all⟩
    | accept i n hl hn =>
      exact ⟨i1, i2, by simpa using i3, fun h => ⟨by simpa using (i4 h).1, .snoc (i4 h).2 hn⟩, fun h => by simp_all⟩
    | finish i n hn =>
      refine ⟨i1, i2, by simpa using i3, fun h => ⟨by simpa using (i4 h).1, .snoc (i4 h).2 hn⟩, fun h => ?_⟩
      obtain ⟨j1, j2, j3, j4, j5⟩ := i5 h
      refine ⟨by simp [j1], j2, j3, by simp [j4], ?_⟩
      cases hn
      exact j5
    | quiet n hl hd hn =>
      exact ⟨i1, i2, by simpa using i3, fun h => ⟨by simpa using (i4 h).1, .snoc (i4 h).2 hn⟩, fun h => by simp_all⟩
    | logged n a l hl hd hn hs ha =>
      have e : l.guard = s1.log.guard ∧ l.phases = s1.log.phases ∧ l.consumer = s1.log.consumer := by
        rcases ha with rfl | rfl <;> cases hs <;> exact ⟨rfl, rfl, rfl⟩
      obtain ⟨e1, e2, e3⟩ := e
      exact ⟨e1.trans i1, fun h => by rw [show l.phases t = _ from congrFun e2 t]; exact i2 h, by simpa [e3] using i3,
        fun h => ⟨by simpa using (i4 h).1, .snoc (i4 h).2 hn⟩, fun h => by simp_all⟩
    | died n l hl hd hn hs =>
      have facts : enabled r = true ∧ s1.log.consumer = .dead ∧ l.guard = s1.log.guard ∧ l.consumer = s1.log.consumer := by
        generalize hsl : recordOf s1.log t r = sl at hs
        generalize hpa : Log.Act.panic t = pa at hs
        cases hs <;> cases hpa <;> subst hsl <;> simp_all [recordOf, Log.update]
      obtain ⟨f1, f2, f3, f4⟩ := facts
      have f5 := i3.mp f2
      exact ⟨f3.trans i1, fun h => by simp at h, by simp [f4, f2, f5], fun h => by simp at h, fun _ => ⟨by simp, hd, f1, by simp [f5], rfl⟩⟩
    | log a l hg ht hs =>
      obtain ⟨e1, e2, e3⟩ := step_ready hs hg ht
      refine ⟨e1.trans i1, fun h => e2.trans (i2 h), ?_, fun h => ⟨by simpa using (i4 h).1, by simpa [netActs] using (i4 h).2⟩, fun h => ?_⟩
      · rw [e3, i3]
        simp [eq_comm]
      · obtain ⟨j1, j2, j3, j4, j5⟩ := i5 h
        exact ⟨by simp [j1], j2, j3, by simp [j4], j5⟩

/-- A service that has ended accepts nobody, and nobody connects to it. -/
theorem listen_ended {s s' : Listening R} {tr : List (ListenAct R)} (h : ListenRun limit over enabled debug t r s tr s')
    (hl : s.looping = false) : s'.looping = false ∧ (∀ i, .net (.connect i) ∉ tr) ∧ ∀ i, .net (.accept i) ∉ tr := by
  induction h with
  | nil => exact ⟨hl, by simp, by simp⟩
  | snoc _ hs ih =>
    obtain ⟨i1, i2, i3⟩ := ih
    cases hs <;> simp_all

/-- **C187**, violated: a debug build, and the consumer of the log has panicked (`ltr`, any run of the logger in which it does). Whatever the
service: one client more than there are descriptors, before the others have ended, and the service is over: from then on, whatever happens,
nobody gets a connection to it - those in the queue are gone, those accepted before can go on to their end. (Clients that never end are easy to come by, C180.) More generally, once the consumer is gone and an `accept` has failed, there is no other way
for the accept loop: it neither goes round nor accepts. -/
theorem C187_ends_violated (limit : Nat) (over : Nat → Bool) (enabled : R → Bool) (t : Nat) (r : R) (hr : enabled r = true)
    (progs : Nat → List (Log.Call R)) :
    (∀ ltr l, Log.Run enabled (Log.start (Log.update progs t [])) ltr l → (∀ a ∈ ltr, actGuard a = false ∧ actThread a ≠ some t) →
      .crash ∈ ltr →
      ∃ tr st, ListenRun limit over enabled true t r (listenStart t progs) tr st ∧ connected (netActs tr) = List.range (limit + 1) ∧
        st.looping = false ∧ st.net = ⟨[], List.range limit, []⟩ ∧
        ∀ tr' st', ListenRun limit over enabled true t r st tr' st' →
          (∀ i ∈ st'.net.serving, over i = true → ∃ st'', ListenStep limit over enabled true t r st' (.net (.finish i)) st'') ∧
          st'.looping = false ∧ (∀ i, .net (.connect i) ∉ tr') ∧ ∀ i, .net (.accept i) ∉ tr') ∧
    (∀ tr st, ListenRun limit over enabled true t r (listenStart t progs) tr st → st.looping = true → .log .crash ∈ tr →
      st.net.pending ≠ [] → limit ≤ st.net.serving.length →
      (∃ st', ListenStep limit over enabled true t r st .died st') ∧
      (∀ st', ¬ ListenStep limit over enabled true t r st (.net .fail) st') ∧
      ∀ i st', ¬ ListenStep limit over enabled true t r st (.net (.accept i)) st') := by
  have must : ∀ tr st, ListenRun limit over enabled true t r (listenStart t progs) tr st → st.looping = true → .log .crash ∈ tr →
      st.net.pending ≠ [] → limit ≤ st.net.serving.length → ∃ st', ListenStep limit over enabled true t r st .died st' := by
    intro tr st h hl hcr hp hlim
    obtain ⟨i1, i2, i3, _, _⟩ := listen_inv progs h
    exact ⟨_, .died st st.net _ hl rfl (.fail _ hp hlim)
      (.logPanic _ t r [] i1 (i2 hl) (by simp [recordOf, Log.update]) hr (i3.mpr hcr))⟩
  refine ⟨?_, ?_⟩
  · intro ltr l hlr hg hcr
    have h1 : ListenRun limit over enabled true t r (listenStart t progs) (ltr.map .log) ⟨true, .start, l⟩ := listen_log hlr hg
    have hnf : ∀ n, AcceptAct.fail ∉ fill n := by
      intro n
      induction n with
      | zero => simp [fill]
      | succ n ih => simp [fill, ih]
    have h2 : AcceptRun limit over .start (fill limit ++ [.connect limit]) ⟨[limit], List.range limit, []⟩ :=
      .snoc (fill_run limit (Nat.le_refl _)) (.connect _ limit (by simp) (by simp) (by simp))
    have h3 := h1.trans (listen_net (enabled := enabled) (debug := true) (t := t) (r := r) (l := l) h2 (by simp [hnf]))
    obtain ⟨st, h4⟩ := must _ _ h3 rfl (by simp [hcr]) (by simp) (by simp)
    have hend : st.looping = false := by cases h4; rfl
    have hnet : st.net = ⟨[], List.range limit, []⟩ := by
      cases h4 with
      | died n l _ _ hn _ => cases hn; rfl
    refine ⟨_, st, .snoc h3 h4, ?_, hend, hnet, fun tr' st' h' =>
      ⟨fun i hi ho => ⟨_, .finish st' i _ (.finish _ i hi ho)⟩, listen_ended h' hend⟩⟩
    have e1 : netActs (ltr.map (ListenAct.log (R := R))) = [] := by
      clear hlr hg hcr h1 h3 h4
      induction ltr with
      | nil => rfl
      | cons a ltr ih => simpa [netActs] using ih
    have e2 : ∀ as : List AcceptAct, netActs (as.map (ListenAct.net (R := R))) = as := by
      intro as
      induction as with
      | nil => rfl
      | cons a as ih => simp [netActs, ih]
    have e3 : ∀ n, connected (fill n) = List.range n := by
      intro n
      induction n with
      | zero => rfl
      | succ n ih => rw [fill, connected_append, ih, List.range_succ]; rfl
    rw [netActs_append, netActs_append, e1, e2, List.nil_append, connected_append, connected_append, e3, List.range_succ]
    simp [netActs, connected]
  · intro tr st h hl hcr hp hlim
    refine ⟨must tr st h hl hcr hp hlim, ?_, ?_⟩
    · intro st' hst
      obtain ⟨_, _, i3, _, _⟩ := listen_inv progs h
      cases hst with
      | quiet n _ hd _ => cases hd
      | logged n a l _ _ _ hs ha =>
        have hdead := i3.mpr hcr
        generalize hsl : recordOf st.log t r = sl at hs
        rcases ha with rfl | rfl
        · cases hs
          subst hsl
          simp_all [recordOf]
        · cases hs
          simp_all
    · intro i st' hst
      obtain ⟨n, hs⟩ : ∃ n, AcceptStep limit over st.net (.accept i) n := by
        cases hst with
        | accept => exact ⟨_, ‹_›⟩
      cases hs
      omega

/-- **C187**, what holds: a release build, or a level that drops the record, or a logger whose consumer lives - one of them is enough: the
service is in its accept loop whatever happened, and it accepts as the loop alone does, so that C180 and C181 apply. -/
theorem C187_goes_on_partial (limit : Nat) (over : Nat → Bool) (enabled : R → Bool) (debug : Bool) (t : Nat) (r : R)
    (progs : Nat → List (Log.Call R)) (tr : List (ListenAct R)) (s : Listening R)
    (h : ListenRun limit over enabled debug t r (listenStart t progs) tr s)
    (hq : debug = false ∨ enabled r = false ∨ .log .crash ∉ tr) :
    s.looping = true ∧ .died ∉ tr ∧ AcceptRun limit over .start (netActs tr) s.net ∧
    ∀ i, i ∈ s.net.pending → s.net.serving.length < limit →
      ∃ j s', ListenStep limit over enabled debug t r s (.net (.accept j)) s' ∧ j ∈ s.net.pending := by
  obtain ⟨_, _, _, i4, i5⟩ := listen_inv progs h
  have hl : s.looping = true := by
    cases hc : s.looping with
    | true => rfl
    | false =>
      obtain ⟨_, j1, j2, j3, _⟩ := i5 hc
      rcases hq with h | h | h
      · rw [h] at j1; cases j1
      · rw [h] at j2; cases j2
      · exact absurd j3 h
  refine ⟨hl, (i4 hl).1, (i4 hl).2, fun i hi hlt => ?_⟩
  match hp : s.net.pending, hi with
  | j :: rest, _ => exact ⟨j, _, .accept s j _ hl (.accept _ j rest hp hlt), by simp⟩

/-- A run in which it happens: one descriptor; a client that keeps it; thread 1 logs and the consumer panics; a second client. -/
example : ∃ s, ListenRun 1 (fun _ => false) (fun _ : Nat => true) true 0 7 (listenStart 0 (fun t => if t = 1 then [.log 5] else []))
    [.net (.connect 0), .net (.accept 0), .log (.send 1 5), .log .recv, .log .crash, .net (.connect 1), .died] s ∧ s.looping = false ∧
    s.net = ⟨[], [0], []⟩ := by
  refine ⟨_, .snoc (.snoc (.snoc (.snoc (.snoc (.snoc (.snoc .nil
    (.connect _ 0 _ rfl (.connect _ 0 (by simp [listenStart, Accepting.start]) (by simp [listenStart, Accepting.start]) (by simp [listenStart, Accepting.start]))))
    (.accept _ 0 _ rfl (.accept _ 0 [] rfl (by simp [listenStart, Accepting.start]))))
    (.log _ (.send 1 5) _ rfl (by simp [actThread]) (.send _ 1 5 [] rfl rfl (by simp [listenStart, Log.start, Log.update]) rfl (by simp [listenStart, Log.start]))))
    (.log _ .recv _ rfl (by simp [actThread]) (.recvItem _ 1 5 [] rfl rfl)))
    (.log _ .crash _ rfl (by simp [actThread]) (.crash _ 1 5 rfl)))
    (.connect _ 1 _ rfl (.connect _ 1 (by simp) (by simp [listenStart, Accepting.start]) (by simp [listenStart, Accepting.start]))))
    (.died _ _ _ rfl rfl (.fail _ (by simp) (by simp [listenStart, Accepting.start])) (.logPanic _ 0 7 [] rfl rfl (by simp [recordOf, Log.update]) rfl rfl)), rfl, rfl⟩

end Httpd
