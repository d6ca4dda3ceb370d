import Verif.Model.LostConns
import Verif.Props.LiveLog
import Verif.Props.DeadLog
/-! # C213: a dead log ends only the connections that have something to say -/

namespace Httpd
open Spec MultiMap

variable {K : Type} {c : Codec K} {setup : Nat → Setup K} {enabled : Item → Bool}

theorem liveActs_append (a b : List MortalAct) : liveActs (a ++ b) = liveActs a ++ liveActs b := by
  induction a with
  | nil => rfl
  | cons x a ih => cases x <;> simp [liveActs, ih]

/-- Without the panics it is a run of `Model/LiveLog`. -/
theorem mortal_live {s s' : Mortal} {tr : List MortalAct} (h : Mortal.Run c setup enabled s tr s') :
    Live.Run c setup enabled s.live (liveActs tr) s'.live := by
  induction h with
  | nil => exact .nil
  | snoc _ hs ih =>
    rw [liveActs_append]
    cases hs with
    | live a l _ hl => exact .snoc ih hl
    | lost i t r time file line _ _ _ _ _ _ => simpa [liveActs] using ih

theorem Mortal.Run.trans {s t u : Mortal} {a b : List MortalAct} (h1 : Mortal.Run c setup enabled s a t) (h2 : Mortal.Run c setup enabled t b u) :
    Mortal.Run c setup enabled s (a ++ b) u := by
  induction h2 with
  | nil => simpa using h1
  | snoc _ hs ih => rw [← List.append_assoc]; exact .snoc ih hs

/-- A step of a connection leaves the others alone. -/
theorem Server.Step.others {s s' : Server} {j : Nat} {a : ServerAct} (h : Server.Step c setup s (j, a) s') (i : Nat) (hij : i ≠ j) :
    s'.task i = s.task i ∧ s'.wire i = s.wire i ∧ ofConn i s'.queue = ofConn i s.queue := by
  have hji : j ≠ i := fun e => hij e.symm
  cases h <;> simp [Server.put, hij, ofConn_snoc, hji]

/-- Nothing is written to a client, and nothing is logged about it, but by its own task; nor does the task get further. -/
theorem live_idle {s s' : Live} {a : LiveAct} (h : Live.Step c setup enabled s a s') (i : Nat) (hi : a.task ≠ some i)
    (hok : ∀ t, s.server.task i = some t → t.fetched ≤ t.arrived.length ∧ (t.sawEnd = true → t.fin ≠ .silent)) :
    s'.server.wire i = s.server.wire i ∧ ofConn i s'.server.queue = ofConn i s.server.queue ∧
    ∀ t, s.server.task i = some t → ∃ t', s'.server.task i = some t' ∧ t'.done = t.done ∧ t'.reader = t.reader := by
  cases h with
  | conn j b v hv hq =>
    by_cases hij : i = j
    · subst hij
      cases hv with
      | accept _ h0 => exact ⟨rfl, rfl, fun t ht => by rw [h0] at ht; cases ht⟩
      | send _ t0 g h0 h1 =>
        refine ⟨rfl, rfl, fun t ht => ⟨_, if_pos rfl, ?_⟩⟩
        cases h0.symm.trans ht
        refine ⟨rfl, ?_⟩
        have := (hok t0 ht).1
        simp only [Task.reader, List.take_append_of_le_length this]
      | finish _ t0 e h0 h1 h2 =>
        refine ⟨rfl, rfl, fun t ht => ⟨_, if_pos rfl, ?_⟩⟩
        cases h0.symm.trans ht
        refine ⟨rfl, ?_⟩
        have : t0.sawEnd = false := by
          cases hb : t0.sawEnd with
          | false => rfl
          | true => exact absurd h1 ((hok t0 ht).2 hb)
        simp [Task.reader, this]
      | fetch => exact absurd rfl hi
      | seeEnd => exact absurd rfl hi
      | log => exact absurd rfl hi
      | answer => exact absurd rfl hi
    · obtain ⟨h1, h2, h3⟩ := hv.others i hij
      exact ⟨h2, h3, fun t ht => ⟨t, h1.trans ht, rfl, rfl⟩⟩
  | record j v r time file line b l hv hq hb hl =>
    have hij : i ≠ j := fun e => hi (by rw [e]; rfl)
    obtain ⟨h1, h2, h3⟩ := hv.others i hij
    exact ⟨h2, h3, fun t ht => ⟨t, h1.trans ht, rfl, rfl⟩⟩
  | log b l _ _ => exact ⟨rfl, rfl, fun t ht => ⟨t, ht, rfl, rfl⟩⟩

/-- The connections of a run make a run of `Model/Tasks`. -/
theorem mortal_server {progs : Nat → List (Log.Call Item)} {tr : List MortalAct} {s : Mortal} (h : Mortal.Run c setup enabled (.start progs) tr s) :
    Server.Run c setup (connActs (liveActs tr)) s.live.server := (live_parts (mortal_live h)).1

/-- A dead consumer stays dead. -/
theorem live_dead {s s' : Live} {a : LiveAct} (h : Live.Step c setup enabled s a s') (hd : s.log.consumer = .dead) : s'.log.consumer = .dead := by
  cases h with
  | conn => exact hd
  | record i v r time file line b l _ _ hb hl => rcases hb with rfl | rfl <;> cases hl <;> simp_all [recordOf]
  | log b l _ hl => cases hl <;> simp_all

/-- Where a lost connection stands. -/
structure LostAt (c : Codec K) (setup : Nat → Setup K) (enabled : Item → Bool) (s : Mortal) (i : Nat) (t : Task) (r : Rec) : Prop where
  task : s.live.server.task i = some t
  next : (t.acts c (setup i))[t.done]? = some (.log r)
  passed : ∃ time file line, enabled (r.item time file line) = true

theorem lost_stays {progs : Nat → List (Log.Call Item)} {tr : List MortalAct} {s s' : Mortal} {a : MortalAct}
    (h : Mortal.Run c setup enabled (.start progs) tr s) (hs : Mortal.Step c setup enabled s a s') (i : Nat) (hi : s.lost i = true) :
    s'.lost i = true ∧ s'.live.server.wire i = s.live.server.wire i ∧ ofConn i s'.live.server.queue = ofConn i s.live.server.queue ∧
    ∀ t r, LostAt c setup enabled s i t r → ∃ t', LostAt c setup enabled s' i t' r := by
  cases hs with
  | live a l hno hl =>
    have hne : a.task ≠ some i := fun e => by rw [hno i e] at hi; cases hi
    have hok : ∀ t, s.live.server.task i = some t → t.fetched ≤ t.arrived.length ∧ (t.sawEnd = true → t.fin ≠ .silent) := by
      intro t ht
      have h0 := ((mortal_server h).inv i).2 t ht
      exact ⟨h0.fetched, fun hb => (h0.ended hb).1⟩
    obtain ⟨h1, h2, h3⟩ := live_idle hl i hne hok
    refine ⟨hi, h1, h2, fun t r ⟨k1, k2, k3⟩ => ?_⟩
    obtain ⟨t', m1, m2, m3⟩ := h3 t k1
    refine ⟨t', m1, ?_, k3⟩
    rw [Task.acts, m3, m2]
    exact k2
  | lost j t r time file line hj ht hn he hd hg =>
    refine ⟨?_, rfl, rfl, fun t r ⟨k1, k2, k3⟩ => ⟨t, k1, k2, k3⟩⟩
    by_cases hij : i = j
    · simp [Log.update, hij]
    · simp [Log.update, hij, hi]

theorem mortal_inv {progs : Nat → List (Log.Call Item)} {tr : List MortalAct} {s : Mortal} (h : Mortal.Run c setup enabled (.start progs) tr s) (i : Nat)
    (hi : s.lost i = true) : s.live.log.consumer = .dead ∧ ∃ t r, LostAt c setup enabled s i t r := by
  induction h with
  | nil => cases hi
  | @snoc tr s s' a hr hs ih =>
    cases hb : s.lost i with
    | true =>
      obtain ⟨h1, t, r, h2⟩ := ih hb
      obtain ⟨_, _, _, h3⟩ := lost_stays hr hs i hb
      obtain ⟨t', h4⟩ := h3 t r h2
      refine ⟨?_, t', r, h4⟩
      cases hs with
      | live a l _ hl => exact live_dead hl h1
      | lost => exact h1
    | false =>
      cases hs with
      | live a l _ hl => rw [hb] at hi; cases hi
      | lost j t r time file line hj ht hn he hd hg =>
        have hij : i = j := by
          by_cases e : i = j
          · exact e
          · simp only [Log.update, e, if_false, hb] at hi; cases hi
        subst hij
        exact ⟨hd, t, r, ht, hn, time, file, line, he⟩

/-! ## C213 -/

/-- **C213.** A connection is lost only after the thread that writes the log has died, and only at a record that passes the maximum level: what its client has been sent, and
what was logged, is what `serve` does for the bytes of this client before that record; and that is how it stays, whatever happens. -/
theorem C213_cut_off (c : Codec K) (setup : Nat → Setup K) (max : Level) (progs : Nat → List (Log.Call Item)) (tr : List MortalAct) (s : Mortal)
    (h : Mortal.Run c setup (passes max) (.start progs) tr s) (i : Nat) (hi : s.lost i = true) :
    Log.Act.crash ∈ logActs (liveActs tr) ∧
    (∃ t p r rest, s.live.server.task i = some t ∧ serveActs c (setup i).lim (setup i).env (setup i).log t.all = p ++ .log r :: rest ∧
      r.level.rank ≤ max.rank ∧ s.live.server.wire i = answered p ∧ ofConn i s.live.server.queue = recordsOf p) ∧
    ∀ tr' s', Mortal.Run c setup (passes max) s tr' s' → s'.lost i = true ∧ s'.live.server.wire i = s.live.server.wire i ∧
      ofConn i s'.live.server.queue = ofConn i s.live.server.queue := by
  obtain ⟨hd, t, r, h1, h2, time, file, line, h3⟩ := mortal_inv h i hi
  refine ⟨?_, ?_, ?_⟩
  · obtain ⟨_, items, _, _, hrun⟩ := live_parts (mortal_live h)
    exact (Log.dead_iff _ _ hrun).mp hd
  · have h0 := ((mortal_server h).inv i).2 t h1
    obtain ⟨⟨q, hq⟩, _⟩ := Task.acts_all h0
    obtain ⟨hlt, hget⟩ := List.getElem?_eq_some_iff.mp h2
    refine ⟨t, (t.acts c (setup i)).take t.done, r, (t.acts c (setup i)).drop (t.done + 1) ++ q, h1, ?_, ?_, h0.out, h0.recs⟩
    · rw [← hq]
      conv => lhs; rw [← List.take_append_drop t.done (t.acts c (setup i)), List.drop_eq_getElem_cons hlt, hget]
      simp
    · exact of_decide_eq_true h3
  · intro tr' s' h'
    induction h' with
    | nil => exact ⟨hi, rfl, rfl⟩
    | snoc hr hs ih =>
      obtain ⟨k1, k2, k3⟩ := ih
      obtain ⟨m1, m2, m3, _⟩ := lost_stays (h.trans hr) hs i k1
      exact ⟨m1, m2.trans k2, m3.trans k3⟩

/-- **C213.** Every other connection goes on: whatever its task can do next without the logger, it can do at once, also if the thread that writes the log has died and other
connections have been lost; but if that is a log call with a record that passes the maximum level, and the thread has died, it is lost as well. -/
theorem C213_others (c : Codec K) (setup : Nat → Setup K) (max : Level) (progs : Nat → List (Log.Call Item)) (tr : List MortalAct) (s : Mortal)
    (h : Mortal.Run c setup (passes max) (.start progs) tr s) (hg : s.live.log.guard = .live) (i : Nat) (hi : s.lost i = false) (a : ServerAct) (v : Server)
    (hv : Server.Step c setup s.live.server (i, a) v) :
    (∃ act s', Mortal.Step c setup (passes max) s act s' ∧ s'.live.server = v ∧ s'.lost = s.lost ∧ s'.live.log.guard = .live ∧
      connActs (liveActs [act]) = [(i, a)]) ∨
    (s.live.log.consumer = .dead ∧ (∃ r, v.queue = s.live.server.queue ++ [(i, r)] ∧ r.level.rank ≤ max.rank) ∧
      ∃ s', Mortal.Step c setup (passes max) s (.lost i) s' ∧ s'.live = s.live ∧ ∀ j, s'.lost j = true ↔ s.lost j = true ∨ j = i) := by
  have hl := mortal_live h
  have hok : ∀ act : LiveAct, connActs [act] = [(i, a)] → ∀ j, act.task = some j → s.lost j = false := by
    intro act he j hj
    cases act with
    | conn k b =>
      simp only [connActs, List.cons.injEq, Prod.mk.injEq, and_true] at he
      have : j = k := by cases b <;> simp_all [LiveAct.task]
      rw [this, he.1]; exact hi
    | record k b =>
      simp only [connActs, List.cons.injEq, Prod.mk.injEq, and_true] at he
      simp only [LiveAct.task, Option.some.injEq] at hj
      rw [← hj, he.1]; exact hi
    | log b => cases he
  by_cases hd : s.live.log.consumer = .dead
  · have hq : v.queue = s.live.server.queue ∨ a = .act ∧ ∃ t r, s.live.server.task i = some t ∧ (t.acts c (setup i))[t.done]? = some (.log r) ∧
        v.queue = s.live.server.queue ++ [(i, r)] := by
      cases hv <;> first | exact .inl rfl | exact .inr ⟨rfl, _, _, by assumption, by assumption, rfl⟩
    rcases hq with hq | ⟨rfl, t, r, ht, hn, hq⟩
    · exact .inl ⟨.live (.conn i a), { s with live := { s.live with server := v } },
        .live s _ _ (hok _ rfl) (.conn s.live i a v hv hq), rfl, rfl, hg, rfl⟩
    · cases he : passes max (r.item [] [] 0) with
      | true =>
        refine .inr ⟨hd, ⟨r, hq, of_decide_eq_true he⟩, { s with lost := Log.update s.lost i true },
          .lost s i t r [] [] 0 hi ht hn he hd hg, rfl, fun j => ?_⟩
        by_cases hj : j = i <;> simp [Log.update, hj]
      | false =>
        have hprog : (recordOf s.live.log (threadOf i) (r.item [] [] 0)).progs (threadOf i) = [.log (r.item [] [] 0)] := by simp [recordOf, Log.update]
        exact .inl ⟨.live (.record i _), ⟨⟨v, _⟩, s.lost⟩, .live s _ _ (hok _ rfl) (.record s.live i v r [] [] 0 _ _ hv hq (.inr rfl)
          (.skip _ (threadOf i) (r.item [] [] 0) [] hg (live_ready hl i) hprog he)), rfl, rfl, hg, rfl⟩
  · obtain ⟨act, l, h1, h2, h3, h4⟩ := (C211_never_waits c setup (passes max) progs _ _ hl).2 hd hg i a v hv
    exact .inl ⟨.live act, ⟨⟨v, l⟩, s.lost⟩, .live s act _ (hok act h2) h1, rfl, rfl, h4.trans hg, h2⟩

/-- The records of connection `i` do not pass the maximum level, whatever its client sends. -/
def Quiet (c : Codec K) (x : Setup K) (max : Level) : Prop :=
  ∀ r, ∀ y ∈ serveLog c x.lim x.env x.log r, max.rank < y.level.rank

theorem mem_recordsOf {l : List ConnAct} {r : Rec} (h : ConnAct.log r ∈ l) : r ∈ recordsOf l := by
  induction l with
  | nil => cases h
  | cons a l ih =>
    rcases List.mem_cons.mp h with rfl | h'
    · simp [recordsOf]
    · cases a <;> simp [recordsOf, ih h']

/-- **C213.** A connection whose records do not pass the maximum level is never lost, and is served to the end whatever becomes of the log and of the other connections:
turns of its own task are enough to send its client everything that `serve` answers to the bytes that have arrived. -/
theorem C213_quiet (c : Codec K) (setup : Nat → Setup K) (max : Level) (progs : Nat → List (Log.Call Item)) (tr : List MortalAct) (s : Mortal)
    (h : Mortal.Run c setup (passes max) (.start progs) tr s) (hg : s.live.log.guard = .live) (i : Nat) (hq : Quiet c (setup i) max) (t : Task)
    (ht : s.live.server.task i = some t) :
    s.lost i = false ∧
    ∃ tr' s', Mortal.Run c setup (passes max) s tr' s' ∧ (∀ a ∈ connActs (liveActs tr'), isTurn i a = true) ∧ s'.lost = s.lost ∧
      s'.live.server.wire i = ((serve c (setup i).lim (setup i).env t.all).1.map (·.written)).flatten := by
  have hsilent : ∀ (t : Task) (r : Rec) (n : Nat), (t.acts c (setup i))[n]? = some (.log r) → max.rank < r.level.rank := by
    intro t r n hn
    refine hq t.reader r ?_
    rw [← (serveActs_spec c (setup i).lim (setup i).env (setup i).log t.reader).1]
    exact mem_recordsOf (List.mem_of_getElem? hn)
  have hlost : ∀ (tr : List MortalAct) (s : Mortal), Mortal.Run c setup (passes max) (.start progs) tr s → s.lost i = false := by
    intro tr s h
    cases hb : s.lost i with
    | false => rfl
    | true =>
      obtain ⟨_, t, r, _, h2, time, file, line, h3⟩ := mortal_inv h i hb
      have h4 := hsilent t r _ h2
      have h5 : r.level.rank ≤ max.rank := of_decide_eq_true h3
      omega
  refine ⟨hlost tr s h, ?_⟩
  generalize hn : t.arrived.length + 1 + (serveActs c (setup i).lim (setup i).env (setup i).log t.all).length -
    (connActs (liveActs tr)).countP (isTurn i) = n
  induction n generalizing tr s t with
  | zero =>
    refine ⟨[], s, .nil, fun _ h => (by cases h), rfl, ?_⟩
    refine ((C206_as_if_alone c setup _ _ (mortal_server h) i t ht).2 fun a v ha hs => ?_).1
    obtain ⟨t', h2, h3, h4⟩ := hs.turn ha ht
    have h5 := C206_turns c setup _ v (.snoc (mortal_server h) hs) i t' h2
    have h6 : [(i, a)].countP (isTurn i) = 1 := by rcases ha with rfl | rfl | rfl <;> simp [isTurn]
    rw [List.countP_append, h6, h3, h4] at h5
    omega
  | succ n ih =>
    by_cases hno : ∀ a v, a = .fetch ∨ a = .seeEnd ∨ a = .act → ¬ Server.Step c setup s.live.server (i, a) v
    · exact ⟨[], s, .nil, fun _ h => (by cases h), rfl, ((C206_as_if_alone c setup _ _ (mortal_server h) i t ht).2 hno).1⟩
    · obtain ⟨a, hno⟩ := Classical.not_forall.mp hno
      obtain ⟨v, hno⟩ := Classical.not_forall.mp hno
      obtain ⟨ha, hs⟩ := Classical.not_imp.mp hno
      have hs := Classical.not_not.mp hs
      rcases C213_others c setup max progs tr s h hg i (hlost tr s h) a v hs with ⟨act, s1, k1, k2, k3, k4, k5⟩ | ⟨_, ⟨r, hr, hle⟩, _⟩
      · obtain ⟨t', h2, h3, h4⟩ := hs.turn ha ht
        have h6 : [(i, a)].countP (isTurn i) = 1 := by rcases ha with rfl | rfl | rfl <;> simp [isTurn]
        have ha' : isTurn i (i, a) = true := by rcases ha with rfl | rfl | rfl <;> simp [isTurn]
        obtain ⟨tr', s', m1, m2, m3, m4⟩ := ih (tr ++ [act]) s1 (.snoc h k1) k4 t' (by rw [k2]; exact h2) (by
          rw [liveActs_append, connActs_append, k5, List.countP_append, h6, h3, h4]
          omega)
        have hone : Mortal.Run c setup (passes max) s ([] ++ [act]) s1 := .snoc .nil k1
        refine ⟨_, s', hone.trans m1, ?_, m3.trans k3, by rw [m4, h4]⟩
        intro b hb
        rw [List.nil_append, liveActs_append, connActs_append, k5] at hb
        rcases List.mem_append.mp hb with hb | hb
        · rw [List.mem_singleton.mp hb]; exact ha'
        · exact m2 b hb
      · exfalso
        have : ∃ (t : Task) (n : Nat), (t.acts c (setup i))[n]? = some (.log r) := by
          generalize hw : s.live.server = w at hs hr
          cases hs with
          | log _ t0 r0 h0 h1 =>
            have : r0 = r := by simpa using hr
            subst this
            exact ⟨t0, _, h1⟩
          | _ => simp [Server.put] at hr
        obtain ⟨t0, n0, h0⟩ := this
        have := hsilent t0 r n0 h0
        omega

/-! ## Which connections are quiet -/

theorem helloLog_trace (idx : Nat) (addr : Bytes) (ord : List Pair → List Pair) (req : Message K) : ∀ x ∈ helloLog idx addr ord req, x.level = .trace := by
  intro x hx
  unfold helloLog at hx
  simp only at hx
  rw [hello_headers] at hx
  simp only [List.mem_append, List.mem_cons, List.not_mem_nil, or_false, List.mem_flatMap, List.mem_map] at hx
  rcases hx with ((rfl | rfl) | ⟨e, he, v, hv, rfl⟩) | hx
  · rfl
  · rfl
  · rfl
  · split at hx
    · rw [List.mem_singleton] at hx; subst hx; rfl
    · split at hx
      · cases hx
      · split at hx <;> (rw [List.mem_singleton] at hx; subst hx; rfl)

theorem helloHttp_ne_err (req resp : Message K) : helloHttp req resp ≠ .err := by
  unfold helloHttp
  dsimp only
  split <;> simp

/-- If no handler returns an error, no connection ends with one. -/
theorem no_handlerErr (c : Codec K) (lim : HttpLimits) (env : Nat → Env K) (he : ∀ i req resp, (env i).http req resp ≠ .err) (r : Reader) :
    (serve c lim env r).2 ≠ .handlerErr := by
  have key : ∀ (fuel i : Nat) (req resp : Message K) (r : Reader), (serveLoop c lim env fuel i req resp r).2 ≠ .handlerErr := by
    intro fuel
    induction fuel with
    | zero => intro i req resp r; simp [serveLoop]
    | succ fuel ih =>
      intro i req resp r
      unfold serveLoop
      split
      · rename_i e _; cases e <;> simp [headEnding]
      · rename_i head r1 _
        split
        · rename_i e _; cases e <;> simp [bodyEnding]
        · simp
        · simp
        · rename_i body r2 _
          dsimp only
          split
          · rename_i h; exact absurd h (he i _ _)
          · simp
          · rename_i p req2 resp2 _
            split
            · simp
            · rename_i resp3 bytes _
              split
              · rename_i k st _; cases st <;> simp [writeEnding]
              · split
                · exact ih (i + 1) (req2.clear c) (resp3.clear c) r2
                · simp
                · simp
                · simp
  exact key _ 0 _ _ r

/-- **C213**, for the services of the program: with a maximum level of info or less every connection to hello-world or to the file service is quiet, in both builds; so (`C213_quiet`)
it is served to the end although the log has died. -/
theorem C213_info (c : Codec K) (x : Setup K) (max : Level) (hmax : max.rank ≤ Level.info.rank)
    (hx : (∀ j, (x.env j).http = helloHttp) ∧ (∃ (idx : Nat) (addr : Bytes) (ord : Nat → List Pair → List Pair), ∀ j, x.log.service j = helloLog idx addr (ord j)) ∨
      (∀ j, (x.env j).http = fsHttp) ∧ ∀ j q, x.log.service j q = []) : Quiet c x max := by
  intro r y hy
  refine (C174_level_partial c x.lim x.env x.log r max).1 ?_ ?_ hmax y hy
  · rcases hx with ⟨_, idx, addr, ord, h⟩ | ⟨_, h⟩
    · intro i q z hz; rw [h i] at hz; exact helloLog_trace _ _ _ _ z hz
    · intro i q z hz; rw [h i q] at hz; cases hz
  · refine no_handlerErr c x.lim x.env ?_ r
    intro i req resp
    rcases hx with ⟨h, _⟩ | ⟨h, _⟩
    · rw [h i]; exact helloHttp_ne_err req resp
    · rw [h i]; simp [fsHttp]

/-- The connections of `twoSetup` are quiet with a maximum level of info. -/
example (i : Nat) : Quiet noCodec (twoSetup i) .info :=
  C213_info noCodec (twoSetup i) .info (by decide) (.inl ⟨fun _ => rfl, 3, b!"127.0.0.1:5000", fun _ => id, fun _ => rfl⟩)

/-! ## A case meeting the hypotheses -/

/-- Connections that have not logged anything yet do not touch the logger. -/
theorem mortal_conns {tr : List (Nat × ServerAct)} {v : Server} (h : Server.Run c setup tr v) (hq : v.queue = []) (l : Log.Sys Item) :
    Mortal.Run c setup enabled ⟨⟨.start, l⟩, fun _ => false⟩ (tr.map (fun a => .live (.conn a.1 a.2))) ⟨⟨v, l⟩, fun _ => false⟩ := by
  induction h with
  | nil => exact .nil
  | @snoc tr s s' a hr hs ih =>
    have hq' : s'.queue = s.queue := by
      cases hs with
      | log i t r _ _ => simp at hq
      | _ => rfl
    rw [List.map_append]
    exact .snoc (ih (hq'.symm.trans hq)) (.live ⟨⟨s, l⟩, fun _ => false⟩ (.conn a.1 a.2) _ (fun _ _ => rfl) (.conn ⟨s, l⟩ a.1 a.2 s' hs hq'))

/-- Client 0 of hello-world and client 1 of the file service, both in a release build, send a request each. -/
def helloAndFiles : Nat → Setup Unit := fun i =>
  if i = 0 then ⟨sampleLimits, fun _ => { sampleEnv with http := helloHttp }, { sampleLog with debug := false }⟩
  else ⟨sampleLimits, fun _ => { sampleEnv with http := fsHttp }, { sampleLog with debug := false, service := fun _ _ => [] }⟩

def oneRequestEach : List (Nat × ServerAct) :=
  [(0, .accept), (1, .accept), (0, .send ⟨71, b!"ET / HTTP/1.1\r\n\r\n"⟩), (1, .send ⟨71, b!"ET / HTTP/1.1\r\n\r\n"⟩), (0, .fetch), (1, .fetch), (1, .act)]

/-- The log has died: the client of the file service has its answer, the one of hello-world is lost and has nothing. -/
example : ∃ (tr : List MortalAct) (s : Mortal),
    Mortal.Run noCodec helloAndFiles (passes .trace) (.start (fun t => if t = 0 then [.log firstItem] else [])) tr s ∧
    s.lost 0 = true ∧ s.lost 1 = false ∧ s.live.server.wire 0 = [] ∧ s.live.server.wire 1 = b!"  \r\ncontent-length: 0\r\n\r\n" := by
  have h : ((Server.start.run? noCodec helloAndFiles oneRequestEach).map fun s => (s.queue.length, s.wire 0, s.wire 1,
      (s.task 0).map (fun t => (((t.acts noCodec (helloAndFiles 0))[t.done]?).map (fun a => match a with | .log r => some r.level.rank | .answer _ => none))))) =
      some (0, [], b!"  \r\ncontent-length: 0\r\n\r\n", some (some (some Level.trace.rank))) := by decide +kernel
  cases hs : Server.start.run? noCodec helloAndFiles oneRequestEach with
  | none => rw [hs] at h; cases h
  | some v =>
    rw [hs] at h
    simp only [Option.map_some, Option.some.injEq, Prod.mk.injEq] at h
    obtain ⟨h1, h2, h3, h4⟩ := h
    have h1 := List.eq_nil_of_length_eq_zero h1
    have hrun : Server.Run noCodec helloAndFiles oneRequestEach v := Server.run?_sound .nil hs
    let l0 := Log.start (fun t => if t % 2 = 0 then (if t = 0 then [Log.Call.log firstItem] else []) else [])
    let l1 : Log.Sys Item := { l0 with progs := Log.update l0.progs 0 [], queue := [.item 0 firstItem] }
    let l2 : Log.Sys Item := { l1 with queue := [], consumer := .writing 0 firstItem }
    let l3 : Log.Sys Item := { l2 with consumer := .dead, queue := [] }
    have e1 : Log.Step (passes .trace) l0 (.send 0 firstItem) l1 := .send l0 0 firstItem [] rfl rfl rfl rfl (by simp [l0, Log.start])
    have e2 : Log.Step (passes .trace) l1 .recv l2 := .recvItem l1 0 firstItem [] rfl rfl
    have e3 : Log.Step (passes .trace) l2 .crash l3 := .crash l2 0 firstItem rfl
    have r1 : Mortal.Run noCodec helloAndFiles (passes .trace) (.start (fun t => if t = 0 then [.log firstItem] else []))
        (([] ++ [.live (.log (.send 0 firstItem))]) ++ [.live (.log .recv)] ++ [.live (.log .crash)]) ⟨⟨.start, l3⟩, fun _ => false⟩ := by
      refine .snoc (.snoc (.snoc .nil (.live (.start _) (.log (.send 0 firstItem)) ⟨.start, l1⟩ (fun _ h => by cases h)
        (.log ⟨.start, l0⟩ _ l1 (fun t h => by cases h; rfl) e1)))
        (.live ⟨⟨.start, l1⟩, fun _ => false⟩ (.log .recv) ⟨.start, l2⟩ (fun _ h => by cases h) (.log ⟨.start, l1⟩ _ l2 (fun t h => by cases h) e2)))
        (.live ⟨⟨.start, l2⟩, fun _ => false⟩ (.log .crash) ⟨.start, l3⟩ (fun _ h => by cases h) (.log ⟨.start, l2⟩ _ l3 (fun t h => by cases h) e3))
    have r2 := mortal_conns (enabled := passes .trace) hrun h1 l3
    cases ht : v.task 0 with
    | none => rw [ht] at h4; cases h4
    | some t =>
      rw [ht] at h4
      simp only [Option.map_some, Option.some.injEq] at h4
      cases hn : (t.acts noCodec (helloAndFiles 0))[t.done]? with
      | none => rw [hn] at h4; cases h4
      | some a =>
        rw [hn] at h4
        cases a with
        | answer b => simp at h4
        | log r =>
          simp only [Option.map_some, Option.some.injEq] at h4
          have r3 : Mortal.Step noCodec helloAndFiles (passes .trace) ⟨⟨v, l3⟩, fun _ => false⟩ (.lost 0) ⟨⟨v, l3⟩, Log.update (fun _ => false) 0 true⟩ :=
            .lost ⟨⟨v, l3⟩, fun _ => false⟩ 0 t r [] [] 0 rfl ht hn (decide_eq_true (by show r.level.rank ≤ _; rw [h4]; exact Nat.le_refl _)) rfl rfl
          exact ⟨_, _, .snoc (r1.trans r2) r3, rfl, rfl, h2, h3⟩

end Httpd
