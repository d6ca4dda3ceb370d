import Verif.Props.LogChain
/-!
# C174: clients are served while the log is broken
-/

namespace Httpd

open Spec MultiMap

/-! ## Records and answers are those of the other models -/

theorem answered_append (a b : List ConnAct) : answered (a ++ b) = answered a ++ answered b := by
  induction a with
  | nil => rfl
  | cons x a ih => cases x <;> simp [answered, ih]

theorem recordsOf_append (a b : List ConnAct) : recordsOf (a ++ b) = recordsOf a ++ recordsOf b := by
  induction a with
  | nil => rfl
  | cons x a ih => cases x <;> simp [recordsOf, ih]

theorem answered_logs (rs : List Rec) : answered (rs.map .log) = [] := by
  induction rs with
  | nil => rfl
  | cons r rs ih => simpa [answered] using ih

theorem recordsOf_logs (rs : List Rec) : recordsOf (rs.map .log) = rs := by
  induction rs with
  | nil => rfl
  | cons r rs ih => simp [recordsOf, ih]

theorem serveActsLoop_spec {K : Type} (c : Codec K) (lim : HttpLimits) (env : Nat → Env K) (l : LogEnv K) (fuel i : Nat) (req resp : Message K)
    (r : Reader) :
    recordsOf (serveActsLoop c lim env l fuel i req resp r) = serveLogLoop c lim env l fuel i req resp r ∧
    answered (serveActsLoop c lim env l fuel i req resp r) = ((serveLoop c lim env fuel i req resp r).1.map (·.written)).flatten := by
  induction fuel generalizing i req resp r with
  | zero => exact ⟨rfl, rfl⟩
  | succ fuel ih =>
    unfold serveActsLoop serveLogLoop serveLoop
    cases hh : readHead lim req.head r with
    | error e =>
      cases e <;> simp [answered_append, recordsOf_append, answered_logs, recordsOf_logs, answered, recordsOf]
    | ok x =>
      obtain ⟨head, r1⟩ := x
      simp only
      cases hb : readConstLengthBody (env i).cap head.headers req.body r1 with
      | fail e => cases e <;> simp [answered_append, recordsOf_append, answered_logs, recordsOf_logs, answered, recordsOf]
      | panic => simp [answered, recordsOf]
      | hang => simp [answered, recordsOf]
      | done body r2 =>
        simp only
        rw [answered_append, recordsOf_append, answered_logs, recordsOf_logs]
        cases hq : (env i).http { head := head, body := body } resp with
        | err => simp [answered, recordsOf, answered_logs, recordsOf_logs]
        | panic => simp [answered, recordsOf]
        | ok p req2 resp2 =>
          simp only
          cases he : encodeResponse c (env i).ord resp2 with
          | mk resp3 o =>
            cases o with
            | none => simp [answered, recordsOf, answered_logs, recordsOf_logs]
            | some bytes =>
              simp only
              cases hw : (env i).write with
              | failAfter k s => cases s <;> simp [answered, recordsOf, answered_logs, recordsOf_logs, sent]
              | ok =>
                simp only
                cases p with
                | current b =>
                  cases b with
                  | true =>
                    obtain ⟨i1, i2⟩ := ih (i + 1) (req2.clear c) (resp3.clear c) r2
                    simp [answered, recordsOf, i1, i2]
                  | false => simp [answered, recordsOf, answered_logs, recordsOf_logs]
                | webSocket => simp [answered, recordsOf]
                | http2 => simp [answered, recordsOf]

theorem serveActs_spec {K : Type} (c : Codec K) (lim : HttpLimits) (env : Nat → Env K) (l : LogEnv K) (r : Reader) :
    recordsOf (serveActs c lim env l r) = serveLog c lim env l r ∧
    answered (serveActs c lim env l r) = ((serve c lim env r).1.map (·.written)).flatten := by
  obtain ⟨h1, h2⟩ := serveActsLoop_spec c lim env l (r.flat.length + 1) 0 Message.new Message.new r
  unfold serveActs serveLog serve
  rw [recordsOf_append, answered_append, recordsOf_logs, answered_logs, h1, h2]
  exact ⟨rfl, rfl⟩

/-! ## An answer comes after the records of its request -/

theorem prefix_logs {rs : List Rec} {p rest : List ConnAct} (h : p <+: rs.map .log ++ rest) :
    answered p = [] ∨ ∃ p', p = rs.map .log ++ p' ∧ p' <+: rest := by
  induction rs generalizing p with
  | nil => exact .inr ⟨p, rfl, h⟩
  | cons x rs ih =>
    cases p with
    | nil => exact .inl rfl
    | cons y p =>
      simp only [List.map_cons, List.cons_append, List.cons_prefix_cons] at h
      obtain ⟨rfl, h⟩ := h
      rcases ih h with h | ⟨p', h, h'⟩
      · exact .inl (by simpa [answered] using h)
      · exact .inr ⟨p', by simp [h], h'⟩

theorem prefix_only_logs {rs : List Rec} {p : List ConnAct} (h : p <+: rs.map .log) : answered p = [] := by
  rcases prefix_logs (rest := []) (by simpa using h) with h | ⟨p', rfl, h'⟩
  · exact h
  · rw [List.prefix_nil.mp h', List.append_nil]; exact answered_logs rs

theorem serveActsLoop_order {K : Type} (c : Codec K) (lim : HttpLimits) (env : Nat → Env K) (l : LogEnv K) (fuel i : Nat) (req resp : Message K)
    (r : Reader) (p : List ConnAct) (hp : p <+: serveActsLoop c lim env l fuel i req resp r) :
    ∃ k, k ≤ (serveLoop c lim env fuel i req resp r).1.length ∧
      answered p = (((serveLoop c lim env fuel i req resp r).1.take k).map (·.written)).flatten ∧
      ((((serveLoop c lim env fuel i req resp r).1.take k).map (·.req)).mapIdx (fun j q => l.service (i + j) q)).flatten <+: recordsOf p := by
  have none : ∀ q : List ConnAct, answered q = [] → ∀ xs : List (Exchange K), ∃ k, k ≤ xs.length ∧
      answered q = ((xs.take k).map (·.written)).flatten ∧
      (((xs.take k).map (·.req)).mapIdx (fun j q => l.service (i + j) q)).flatten <+: recordsOf q :=
    fun q hq xs => ⟨0, Nat.zero_le _, by simpa using hq, by simp⟩
  induction fuel generalizing i req resp r p with
  | zero =>
    unfold serveActsLoop at hp
    exact none p (by rw [List.prefix_nil.mp hp]; rfl) _
  | succ fuel ih =>
    unfold serveActsLoop at hp
    unfold serveLoop
    cases hh : readHead lim req.head r with
    | error e =>
      rw [hh] at hp
      refine none p ?_ _
      cases e <;> first | exact prefix_only_logs hp | (rw [List.prefix_nil.mp hp]; rfl)
    | ok x =>
      obtain ⟨head, r1⟩ := x
      rw [hh] at hp
      simp only at hp ⊢
      cases hb : readConstLengthBody (env i).cap head.headers req.body r1 with
      | fail e =>
        rw [hb] at hp
        refine none p ?_ _
        cases e <;> first | exact prefix_only_logs hp | (rw [List.prefix_nil.mp hp]; rfl)
      | panic => rw [hb] at hp; exact none p (by rw [List.prefix_nil.mp hp]; rfl) _
      | hang => rw [hb] at hp; exact none p (by rw [List.prefix_nil.mp hp]; rfl) _
      | done body r2 =>
        rw [hb] at hp
        simp only at hp ⊢
        rcases prefix_logs hp with h0 | ⟨p', rfl, hp'⟩
        · exact none p h0 _
        · clear hp
          have quiet : ∀ q : List ConnAct, answered q = [] → answered ((l.service i ⟨head, body⟩).map .log ++ q) = [] := by
            intro q hq; rw [answered_append, answered_logs, hq]; rfl
          have one : ∀ (w : Bytes) (rs : List Rec) (q : List ConnAct), q <+: .answer w :: rs.map .log →
              ∃ k, k ≤ [(⟨⟨head, body⟩, w⟩ : Exchange K)].length ∧
                answered ((l.service i ⟨head, body⟩).map .log ++ q) =
                  (([(⟨⟨head, body⟩, w⟩ : Exchange K)].take k).map (·.written)).flatten ∧
                ((([(⟨⟨head, body⟩, w⟩ : Exchange K)].take k).map (·.req)).mapIdx (fun j q => l.service (i + j) q)).flatten <+:
                  recordsOf ((l.service i ⟨head, body⟩).map .log ++ q) := by
            intro w rs q hq
            cases q with
            | nil => exact none _ (quiet _ rfl) _
            | cons y q =>
              obtain ⟨rfl, hq2⟩ := List.cons_prefix_cons.mp hq
              refine ⟨1, Nat.le_refl _, ?_, ?_⟩
              · rw [answered_append, answered_logs]
                simp [answered, prefix_only_logs hq2]
              · rw [recordsOf_append, recordsOf_logs]
                simp
          cases hq : (env i).http { head := head, body := body } resp with
          | err => rw [hq] at hp'; exact none _ (quiet _ (prefix_only_logs hp')) _
          | panic => rw [hq] at hp'; exact none _ (quiet _ (by rw [List.prefix_nil.mp hp']; rfl)) _
          | ok pr req2 resp2 =>
            rw [hq] at hp'
            simp only at hp' ⊢
            cases he : encodeResponse c (env i).ord resp2 with
            | mk resp3 o =>
              rw [he] at hp'
              cases o with
              | none => exact none _ (quiet _ (prefix_only_logs hp')) _
              | some bytes =>
                simp only at hp' ⊢
                cases hw : (env i).write with
                | failAfter k s =>
                  rw [hw] at hp'
                  cases s with
                  | error => exact one _ _ _ hp'
                  | wait => exact one _ [] _ hp'
                | ok =>
                  rw [hw] at hp'
                  simp only at hp' ⊢
                  cases pr with
                  | webSocket => exact one _ [] _ hp'
                  | http2 => exact one _ [] _ hp'
                  | current b =>
                    cases b with
                    | false => exact one _ _ _ hp'
                    | true =>
                      simp only at hp' ⊢
                      cases p' with
                      | nil => exact none _ (quiet _ rfl) _
                      | cons y q =>
                        obtain ⟨rfl, hq'⟩ := List.cons_prefix_cons.mp hp'
                        obtain ⟨k, h1, h2, h3⟩ := ih (i + 1) _ _ _ q hq' (fun q hq xs => ⟨0, Nat.zero_le _, by simpa using hq, by simp⟩)
                        refine ⟨k + 1, by simpa using h1, ?_, ?_⟩
                        · rw [answered_append, answered_logs]
                          simp [answered, h2]
                        · rw [recordsOf_append, recordsOf_logs]
                          simp only [recordsOf, List.take_succ_cons, List.map_cons, List.mapIdx_cons, List.flatten_cons, Nat.add_zero,
                            List.prefix_append_right_inj]
                          have : (fun j q => l.service (i + (j + 1)) q) = fun j q => l.service (i + 1 + j) q := by
                            funext j q; rw [Nat.add_assoc, Nat.add_comm 1 j]
                          rw [this]
                          exact h3

/-- **C174.** A client gets the answer to a request only after the log has taken everything that the connection logged up to that answer: at any
moment it has got the answers to the first `k` requests (the last of them perhaps cut, C110), and the log has got all the records
about those requests. For every service, input, segmentation and behaviour of the peer. -/
theorem C174_order {K : Type} (c : Codec K) (lim : HttpLimits) (env : Nat → Env K) (l : LogEnv K) (r : Reader) (p : List ConnAct)
    (hp : p <+: serveActs c lim env l r) :
    ∃ k, k ≤ (serve c lim env r).1.length ∧ answered p = (((serve c lim env r).1.take k).map (·.written)).flatten ∧
      (((((serve c lim env r).1.take k).map (·.req)).mapIdx l.service).flatten <:+: recordsOf p) := by
  rcases prefix_logs (by simpa only [serveActs] using hp) with h0 | ⟨p', rfl, hp'⟩
  · exact ⟨0, Nat.zero_le _, by simpa using h0, by simp⟩
  · obtain ⟨k, h1, h2, h3⟩ := serveActsLoop_order c lim env l _ 0 _ _ r p' hp'
    simp only [Nat.zero_add] at h3
    refine ⟨k, h1, ?_, ?_⟩
    · rw [answered_append, answered_logs, List.nil_append]; exact h2
    · rw [recordsOf_append, recordsOf_logs]
      obtain ⟨t, ht⟩ := h3
      refine ⟨madeLog l, t, ?_⟩
      rw [List.append_assoc, ← ht]
      rfl

/-! ## After the end of the consumer -/

theorem dead_sends {R : Type} (enabled : R → Bool) {s s' : Log.Sys R} {tr : List (Log.Act R)} (h : Log.Run enabled s tr s')
    (hd : s.consumer = .dead) : Log.Spec.sends tr = [] ∧ s'.consumer = .dead := by
  induction h with
  | nil => exact ⟨rfl, hd⟩
  | snoc _ hs ih =>
    rw [Log.sends_append, ih.1]
    have hd' := ih.2
    cases hs <;> simp_all [Log.Spec.sends]

theorem helloLog_two {K : Type} (idx : Nat) (addr : Bytes) (ord : List Pair → List Pair) (req : Message K) : 2 ≤ (helloLog idx addr ord req).length := by
  simp only [helloLog, List.length_append, List.length_cons, List.length_nil]
  omega

theorem flatten_two {α : Type} (xss : List (List α)) (h : ∀ xs ∈ xss, 2 ≤ xs.length) : 2 * xss.length ≤ xss.flatten.length := by
  induction xss with
  | nil => simp
  | cons xs xss ih =>
    have h1 := h xs (by simp)
    have h2 := ih (fun ys hy => h ys (by simp [hy]))
    simp only [List.length_cons, List.flatten_cons, List.length_append]
    omega

/-- **C174**, violated: the consumer of the log has panicked (one panic is enough, C96, C153). From then on a hello-world connection
gets answers only as long as its records were taken before: with `n` records taken at most `n / 2` requests are answered, ever, whatever
the other threads do and however long one waits, with the default maximum level. A connection made after the panic gets not a single byte. -/
theorem C174_dead_violated {K : Type} (c : Codec K) (lim : HttpLimits) (env : Nat → Env K) (l : LogEnv K) (idx : Nat)
    (ord : Nat → List Pair → List Pair) (hl : ∀ i, l.service i = helloLog idx l.addr (ord i)) (r : Reader)
    (progs : Nat → List (Log.Call Item)) (tr tr' : List (Log.Act Item)) (s s' : Log.Sys Item) (u : Nat)
    (h : Log.Run (passes .trace) (Log.start progs) tr s) (hcrash : Log.Act.crash ∈ tr) (h' : Log.Run (passes .trace) s tr' s')
    (p : List ConnAct)
    (hp : GotTo .trace (serveActs c lim env l r) p (Log.Spec.byThread u (Log.Spec.sends (tr ++ tr'))).length) :
    (∃ k, 2 * k ≤ (Log.Spec.byThread u (Log.Spec.sends tr)).length ∧
      answered p = (((serve c lim env r).1.take k).map (·.written)).flatten) ∧
    (Log.Spec.byThread u (Log.Spec.sends tr) = [] → answered p = []) := by
  have hd : s.consumer = .dead := (Log.dead_iff _ progs h).mpr hcrash
  obtain ⟨hpre, hn⟩ := hp
  rw [Log.sends_append, (dead_sends _ h' hd).1, List.append_nil] at hn
  have hall : (recordsOf p).filter (fun x => decide (x.level.rank ≤ Level.trace.rank)) = recordsOf p := by
    apply List.filter_eq_self.mpr
    intro x _
    cases x.level <;> decide
  rw [hall] at hn
  obtain ⟨k, hk, h2, h3⟩ := C174_order c lim env l r p hpre
  have hlen := flatten_two (((((serve c lim env r).1.take k).map (·.req)).mapIdx l.service)) (by
    intro xs hx
    obtain ⟨j, hj, rfl⟩ := List.mem_mapIdx.mp hx
    rw [hl]
    exact helloLog_two _ _ _ _)
  have h4 := h3.length_le
  rw [hn] at h4
  simp only [List.length_mapIdx, List.length_map, List.length_take, Nat.min_eq_left hk] at hlen
  have hb : 2 * k ≤ (Log.Spec.byThread u (Log.Spec.sends tr)).length := Nat.le_trans hlen h4
  refine ⟨⟨k, hb, h2⟩, fun h0 => ?_⟩
  rw [h0] at hb
  have : k = 0 := by simp at hb; omega
  subst this
  simpa using h2

/-! ## What holds -/

theorem no_panic {R : Type} (enabled : R → Bool) (progs : Nat → List (Log.Call R)) (u : Nat) {tr : List (Log.Act R)} {s : Log.Sys R}
    (h : Log.Run enabled (Log.start progs) tr s) (hq : ∀ x ∈ progs u, ∃ r, x = .log r ∧ enabled r = false) :
    .panic u ∉ tr ∧ ∀ x ∈ s.progs u, ∃ r, x = .log r ∧ enabled r = false := by
  induction h with
  | nil => exact ⟨by simp, hq⟩
  | snoc _ hs ih =>
    obtain ⟨i1, i2⟩ := ih
    have upd : ∀ (f : Nat → List (Log.Call R)) t rest x, f t = x :: rest → (∀ x ∈ f u, ∃ r, x = .log r ∧ enabled r = false) →
        ∀ x ∈ Log.update f t rest u, ∃ r, x = .log r ∧ enabled r = false := by
      intro f t rest x hf hu y hy
      by_cases ht : u = t
      · subst ht
        simp only [Log.update, if_true] at hy
        exact hu y (by rw [hf]; simp [hy])
      · simp only [Log.update, if_neg ht] at hy
        exact hu y hy
    cases hs with
    | send t r rest _ _ g => exact ⟨by simpa using i1, upd _ _ _ _ g i2⟩
    | skip t r rest _ _ g => exact ⟨by simpa using i1, upd _ _ _ _ g i2⟩
    | flushCall t rest _ _ g => exact ⟨by simpa using i1, upd _ _ _ _ g i2⟩
    | logPanic t r rest _ _ g g' =>
      refine ⟨?_, i2⟩
      intro hm
      rcases List.mem_append.mp hm with hm | hm
      · exact i1 hm
      · simp only [List.mem_singleton, Log.Act.panic.injEq] at hm
        subst hm
        obtain ⟨r', e1, e2⟩ := i2 (.log r) (by rw [g]; simp)
        cases e1
        rw [g'] at e2
        exact absurd e2 (by simp)
    | flushPanic t rest _ _ g =>
      refine ⟨?_, i2⟩
      intro hm
      rcases List.mem_append.mp hm with hm | hm
      · exact i1 hm
      · simp only [List.mem_singleton, Log.Act.panic.injEq] at hm
        subst hm
        obtain ⟨r', e1, _⟩ := i2 .flush (by rw [g]; simp)
        cases e1
    | _ => exact ⟨by simpa using i1, i2⟩

theorem mem_each2 {α β : Type} {R : α → β → Prop} {xs : List α} {ys : List β} (h : Each2 R xs ys) : ∀ y ∈ ys, ∃ x ∈ xs, R x y := by
  induction h with
  | nil => simp
  | cons h _ ih =>
    intro y hy
    rcases List.mem_cons.mp hy with rfl | hy
    · exact ⟨_, by simp, h⟩
    · obtain ⟨x, hx, hr⟩ := ih y hy
      exact ⟨x, by simp [hx], hr⟩

/-- **C174**, what holds: if no record of a connection passes the maximum level, the connection's task does not panic in a log call, in no run, also
if the consumer has panicked; without having logged anything it can come to its end and the client gets all answers. -/
theorem C174_quiet_partial {K : Type} (c : Codec K) (lim : HttpLimits) (env : Nat → Env K) (lg : LogEnv K) (r : Reader) (l : Level)
    (hq : ∀ x ∈ serveLog c lim env lg r, l.rank < x.level.rank)
    (progs : Nat → List (Log.Call Item)) (tr : List (Log.Act Item)) (s : Log.Sys Item) (u : Nat)
    (h : Log.Run (passes l) (Log.start progs) tr s) (hu : CallsOf (serveLog c lim env lg r) (progs u)) :
    .panic u ∉ tr ∧ GotTo l (serveActs c lim env lg r) (serveActs c lim env lg r) 0 ∧
      answered (serveActs c lim env lg r) = ((serve c lim env r).1.map (·.written)).flatten := by
  obtain ⟨items, hi, hp⟩ := hu
  refine ⟨(no_panic _ progs u h ?_).1, ⟨List.prefix_refl _, ?_⟩, (serveActs_spec c lim env lg r).2⟩
  · intro x hx
    rw [hp] at hx
    obtain ⟨item, hm, rfl⟩ := List.mem_map.mp hx
    refine ⟨item, rfl, ?_⟩
    obtain ⟨y, hy, time, file, line, rfl⟩ := mem_each2 hi item hm
    simp only [passes, decide_eq_false_iff_not, Nat.not_le]
    exact hq y hy
  · rw [(serveActs_spec c lim env lg r).1, List.length_eq_zero_iff, List.filter_eq_nil_iff]
    intro x hx
    have := hq x hx
    simp only [decide_eq_true_eq]
    omega

/-- **C174**, when that is the case: with a maximum level of info or less for hello-world and the file service, whose records are all for tracing,
unless a service fails; and with every maximum level for a silent service in a release build, unless the service or a write fails. -/
theorem C174_level_partial {K : Type} (c : Codec K) (lim : HttpLimits) (env : Nat → Env K) (lg : LogEnv K) (r : Reader) (l : Level) :
    ((∀ i q, ∀ x ∈ lg.service i q, x.level = .trace) → (serve c lim env r).2 ≠ .handlerErr → l.rank ≤ Level.info.rank →
      ∀ x ∈ serveLog c lim env lg r, l.rank < x.level.rank) ∧
    ((∀ i q, lg.service i q = []) → lg.debug = false → (serve c lim env r).2 ≠ .handlerErr → (serve c lim env r).2 ≠ .writeFail →
      ∀ x ∈ serveLog c lim env lg r, l.rank < x.level.rank) := by
  rw [C120_story]
  generalize (serve c lim env r).1.map (·.req) = reqs
  generalize (serve c lim env r).2 = e
  constructor
  · intro h1 h2 h3 x hx
    have hx' : x.level = .trace ∨ x.level = .debug := by
      simp only [story, List.mem_append] at hx
      rcases hx with (hx | hx) | hx
      · split at hx
        · simp only [List.mem_singleton] at hx; subst hx; exact .inl rfl
        · simp at hx
      · obtain ⟨xs, hxs, hm⟩ := List.mem_flatten.mp hx
        obtain ⟨j, hj, rfl⟩ := List.mem_mapIdx.mp hxs
        exact .inl (h1 _ _ x hm)
      · revert hx
        simp only [endRecords]
        cases hdb : lg.debug <;> cases e with
          | headFail code => cases code <;> simp [aboutConn] <;> rintro (rfl | rfl) <;> simp
          | bodyFail code => cases code <;> simp [aboutConn] <;> rintro (rfl | rfl) <;> simp
          | handlerErr => exact absurd rfl h2
          | writeFail => simp [aboutConn] <;> rintro (rfl | rfl) <;> simp
          | _ => simp [aboutConn] <;> intro h <;> simp_all
    have : Level.debug.rank ≤ x.level.rank := by rcases hx' with h | h <;> rw [h] <;> decide
    simp only [Level.rank] at this h3 ⊢
    omega
  · intro h1 h2 h3 h4 x hx
    simp only [story, List.mem_append, h2] at hx
    rcases hx with (hx | hx) | hx
    · simp at hx
    · obtain ⟨xs, hxs, hm⟩ := List.mem_flatten.mp hx
      obtain ⟨j, hj, rfl⟩ := List.mem_mapIdx.mp hxs
      rw [h1] at hm
      simp at hm
    · exfalso
      revert hx
      simp only [endRecords, h2]
      cases e with
      | headFail code => cases code <;> simp
      | bodyFail code => cases code <;> simp
      | handlerErr => exact absurd rfl h3
      | writeFail => exact absurd rfl h4
      | _ => simp

/-! ## Cases meeting the hypotheses -/

/-- A record of another thread. -/
def firstItem : Item := Rec.item b!"t" b!"f" 1 ⟨.trace, [], b!"started"⟩

/-- The log dies at the record of thread 0, before thread 1 has logged anything. -/
example : ∃ s, Log.Run (passes .trace) (Log.start (fun t => if t = 0 then [.log firstItem] else [])) [.send 0 firstItem, .recv, .crash] s ∧
    Log.Spec.byThread 1 (Log.Spec.sends [.send 0 firstItem, .recv, .crash]) = [] := by
  refine ⟨_, .snoc (.snoc (.snoc .nil (.send _ 0 firstItem [] rfl rfl rfl rfl (by simp [Log.start])))
    (.recvItem _ 0 firstItem [] rfl rfl)) (.crash _ 0 firstItem rfl), rfl⟩

/-- Thread 1 serves this client, in a release build. With a working log there is an answer (`answered` is not empty). -/
example : (answered (serveActs noCodec sampleLimits (fun _ => { sampleEnv with http := helloHttp }) { sampleLog with debug := false }
    (Reader.ofBytes sampleReq.encode .eof))).length = 77 := by decide +kernel

/-- The client has got the answer when the log has taken five records, not before. -/
example : ((serveActs noCodec sampleLimits (fun _ => { sampleEnv with http := helloHttp }) { sampleLog with debug := false }
    (Reader.ofBytes sampleReq.encode .eof)).map (fun a => match a with | .log _ => 0 | .answer b => b.length)) = [0, 0, 0, 0, 0, 77] := by
  decide +kernel

/-- The file service in a release build logs nothing. -/
example : serveActs noCodec sampleLimits (fun _ => { sampleEnv with http := fsHttp }) { sampleLog with debug := false, service := fun _ _ => [] }
    (Reader.ofBytes sampleReq.encode .eof) = [.answer b!"  \r\ncontent-length: 0\r\n\r\n"] := by decide +kernel

end Httpd
