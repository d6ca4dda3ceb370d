import Verif.Props.Dispatcher
/-!
# C229: flush requests are answered in the order in which they were made
-/

namespace Httpd.Log

variable {R : Type}

namespace Spec

/-- The flush requests of a run, in the order in which threads made them. -/
def asked : List (Act R) → List Nat
  | [] => []
  | .flushCall _ n :: as => n :: asked as
  | _ :: as => asked as

/-- The flush requests that were answered, in the order of the answers. -/
def answered : List (Act R) → List Nat
  | [] => []
  | .store n :: as => n :: answered as
  | _ :: as => answered as

end Spec

open Spec

theorem asked_append (a b : List (Act R)) : asked (a ++ b) = asked a ++ asked b := by
  induction a with
  | nil => rfl
  | cons x a ih => cases x <;> simp [asked, ih]

theorem answered_append (a b : List (Act R)) : answered (a ++ b) = answered a ++ answered b := by
  induction a with
  | nil => rfl
  | cons x a ih => cases x <;> simp [answered, ih]

theorem mem_asked (tr : List (Act R)) (n : Nat) : n ∈ asked tr ↔ ∃ t, Act.flushCall t n ∈ tr := by
  induction tr with
  | nil => simp [asked]
  | cons x tr ih => cases x <;> simp [asked, ih, exists_or]

theorem mem_answered (tr : List (Act R)) (n : Nat) : n ∈ answered tr ↔ Act.store n ∈ tr := by
  induction tr with
  | nil => simp [answered]
  | cons x tr ih => cases x <;> simp [answered, ih]

/-- The flush requests in the channel. -/
def requests : List (Msg R) → List Nat
  | [] => []
  | .flush n :: q => n :: requests q
  | .item .. :: q => requests q

theorem requests_append (a b : List (Msg R)) : requests (a ++ b) = requests a ++ requests b := by
  induction a with
  | nil => rfl
  | cons x a ih => cases x <;> simp [requests, ih]

/-- The flush request the consumer is at. -/
def requestInHand : Consuming R → List Nat
  | .flushing n => [n]
  | .storing n => [n]
  | _ => []

/-- What is known of the requests of a run. -/
structure FlushInv (tr : List (Act R)) (s : Sys R) : Prop where
  asked : asked tr = List.range s.nlocks
  order : answered tr ++ requestInHand s.consumer ++ requests s.queue <+: List.range s.nlocks
  alive : s.consumer ≠ .dead → answered tr ++ requestInHand s.consumer ++ requests s.queue = List.range s.nlocks
  locks : ∀ n, s.locks n = true ↔ n ∈ answered tr
  who : ∀ t n, s.phases t = .waiting n → Act.flushCall t n ∈ tr ∧ Act.flushRet t n ∉ tr
  back : ∀ t n, Act.flushRet t n ∈ tr → Act.flushCall t n ∈ tr ∧ n ∈ answered tr
  new : ∀ t n, Act.flushCall t n ∈ tr → n < s.nlocks

theorem flush_inv (enabled : R → Bool) (progs : Nat → List (Call R)) {tr : List (Act R)} {s : Sys R}
    (h : Run enabled (start progs) tr s) : FlushInv tr s := by
  induction h with
  | nil => exact ⟨rfl, List.prefix_rfl, fun _ => rfl, by simp [start, answered], by simp [start], by simp, by simp⟩
  | @snoc tr s1 s2 a hrun hs ih =>
    obtain ⟨i1, i2, i3, i4, i5, i6, i7⟩ := ih
    have same : ∀ {s2 : Sys R} {a : Act R}, (∀ t n, a ≠ .flushCall t n) → (∀ n, a ≠ .store n) → (∀ t n, a ≠ .flushRet t n) → s2.nlocks = s1.nlocks →
        s2.locks = s1.locks → (∀ t n, s2.phases t = .waiting n → s1.phases t = .waiting n) →
        ((s2.consumer ≠ .dead → s1.consumer ≠ .dead ∧
          requestInHand s2.consumer ++ requests s2.queue = requestInHand s1.consumer ++ requests s1.queue)) →
        (requestInHand s2.consumer ++ requests s2.queue <+: requestInHand s1.consumer ++ requests s1.queue) → FlushInv (tr ++ [a]) s2 := by
      intro s2 a n1 n2 n3 e1 e2 e3 e4 e5
      have ha : asked [a] = [] := by cases a <;> simp_all [asked]
      have hb : answered [a] = [] := by cases a <;> simp_all [answered]
      refine ⟨by rw [asked_append, ha, e1, List.append_nil, i1], ?_, ?_, ?_, ?_, ?_, ?_⟩
      · rw [answered_append, hb, e1, List.append_nil, List.append_assoc]
        refine List.IsPrefix.trans ?_ i2
        rw [List.append_assoc]
        exact (List.prefix_append_right_inj _).mpr e5
      · intro hd
        rw [answered_append, hb, e1, List.append_nil, List.append_assoc, (e4 hd).2, ← List.append_assoc]
        exact i3 (e4 hd).1
      · intro n; rw [answered_append, hb, List.append_nil, e2]; exact i4 n
      · intro t n hw
        obtain ⟨h1, h2⟩ := i5 t n (e3 t n hw)
        refine ⟨List.mem_append_left _ h1, ?_⟩
        intro hm
        rcases List.mem_append.mp hm with hm | hm
        · exact h2 hm
        · exact n3 t n (List.mem_singleton.mp hm).symm
      · intro t n hm
        rcases List.mem_append.mp hm with hm | hm
        · rw [answered_append]
          exact ⟨List.mem_append_left _ (i6 t n hm).1, List.mem_append_left _ (i6 t n hm).2⟩
        · exact absurd (List.mem_singleton.mp hm).symm (n3 t n)
      · intro t n hm
        rcases List.mem_append.mp hm with hm | hm
        · rw [e1]; exact i7 t n hm
        · exact absurd (List.mem_singleton.mp hm).symm (n1 t n)
    have upd : ∀ (t : Nat) (p : Phase), (∀ n, p ≠ .waiting n) → ∀ u n, update s1.phases t p u = .waiting n → s1.phases u = .waiting n := by
      intro t p hp u n hu
      unfold update at hu
      split at hu
      · exact absurd hu (hp n)
      · exact hu
    cases hs with
    | send t r rest h1 h2 h3 h4 h5 =>
      exact same (by simp) (by simp) (by simp) rfl rfl (fun _ _ h => h) (fun h => ⟨h, by simp [requests_append, requests]⟩)
        (by simp only [requests_append, requests, List.append_nil]; exact List.prefix_rfl)
    | skip t r rest h1 h2 h3 h4 =>
      exact same (by simp) (by simp) (by simp) rfl rfl (fun _ _ h => h) (fun h => ⟨h, rfl⟩) List.prefix_rfl
    | logPanic t r rest h1 h2 h3 h4 h5 =>
      exact same (by simp) (by simp) (by simp) rfl rfl (upd t _ (by simp)) (fun h => ⟨h, rfl⟩) List.prefix_rfl
    | flushPanic t rest h1 h2 h3 h4 =>
      exact same (by simp) (by simp) (by simp) rfl rfl (upd t _ (by simp)) (fun h => ⟨h, rfl⟩) List.prefix_rfl
    | flushCall t rest h1 h2 h3 h4 =>
      refine ⟨?_, ?_, ?_, ?_, ?_, ?_, ?_⟩
      · simp only [asked_append, asked, i1, List.range_succ]
      · simp only [answered_append, answered, List.append_nil, requests_append, requests, ← List.append_assoc, i3 h4, List.range_succ]
        exact List.prefix_rfl
      · intro _
        simp only [answered_append, answered, List.append_nil, requests_append, requests, ← List.append_assoc, i3 h4, List.range_succ]
      · intro n; rw [answered_append]; simpa [answered] using i4 n
      · intro u n hw
        simp only [update] at hw
        split at hw
        · next he =>
          subst he
          cases hw
          refine ⟨List.mem_append_right _ (List.mem_singleton.mpr rfl), ?_⟩
          intro hm
          rcases List.mem_append.mp hm with hm | hm
          · exact absurd (i7 _ _ (i6 _ _ hm).1) (Nat.lt_irrefl _)
          · cases List.mem_singleton.mp hm
        · refine ⟨List.mem_append_left _ (i5 u n hw).1, ?_⟩
          intro hm
          rcases List.mem_append.mp hm with hm | hm
          · exact (i5 u n hw).2 hm
          · cases List.mem_singleton.mp hm
      · intro u n hm
        rcases List.mem_append.mp hm with hm | hm
        · rw [answered_append]
          exact ⟨List.mem_append_left _ (i6 u n hm).1, List.mem_append_left _ (i6 u n hm).2⟩
        · cases List.mem_singleton.mp hm
      · intro u n hm
        rcases List.mem_append.mp hm with hm | hm
        · exact Nat.lt_succ_of_lt (i7 u n hm)
        · cases List.mem_singleton.mp hm
          exact Nat.lt_succ_self _
    | flushRet t m h1 h2 =>
      refine ⟨?_, ?_, ?_, ?_, ?_, ?_, ?_⟩
      · simpa only [asked_append, asked, List.append_nil] using i1
      · simpa only [answered_append, answered, List.append_nil] using i2
      · simpa only [answered_append, answered, List.append_nil] using i3
      · simpa only [answered_append, answered, List.append_nil] using i4
      · intro u n hw
        simp only [update] at hw
        split at hw
        · cases hw
        · next he =>
          refine ⟨List.mem_append_left _ (i5 u n hw).1, ?_⟩
          intro hm
          rcases List.mem_append.mp hm with hm | hm
          · exact (i5 u n hw).2 hm
          · cases List.mem_singleton.mp hm
            exact he rfl
      · intro u n hm
        rw [answered_append]
        rcases List.mem_append.mp hm with hm | hm
        · exact ⟨List.mem_append_left _ (i6 u n hm).1, List.mem_append_left _ (i6 u n hm).2⟩
        · cases List.mem_singleton.mp hm
          exact ⟨List.mem_append_left _ (i5 t m h1).1, List.mem_append_left _ ((i4 m).mp h2)⟩
      · intro u n hm
        rcases List.mem_append.mp hm with hm | hm
        · exact i7 u n hm
        · cases List.mem_singleton.mp hm
    | recvItem t r q h1 h2 =>
      refine same (by simp) (by simp) (by simp) rfl rfl (fun _ _ h => h) (fun _ => ⟨by simp [h1], ?_⟩) ?_
      · simp [requestInHand, h1, h2, requests]
      · simp [requestInHand, h1, h2, requests]
    | recvFlush n q h1 h2 =>
      refine same (by simp) (by simp) (by simp) rfl rfl (fun _ _ h => h) (fun _ => ⟨by simp [h1], ?_⟩) ?_
      · simp [requestInHand, h1, h2, requests]
      · simp [requestInHand, h1, h2, requests]
    | write t r h1 =>
      refine same (by simp) (by simp) (by simp) rfl rfl (fun _ _ h => h) (fun _ => ⟨by simp [h1], ?_⟩) ?_
      · simp [requestInHand, h1]
      · simp [requestInHand, h1]
    | flush n h1 =>
      refine same (by simp) (by simp) (by simp) rfl rfl (fun _ _ h => h) (fun _ => ⟨by simp [h1], ?_⟩) ?_
      · simp [requestInHand, h1]
      · simp [requestInHand, h1]
    | store m h1 =>
      have hd : s1.consumer ≠ .dead := by simp [h1]
      have key : answered (tr ++ [Act.store m]) ++ requestInHand (Consuming.idle : Consuming R) ++ requests s1.queue = List.range s1.nlocks := by
        rw [← i3 hd, h1, answered_append]
        simp [answered, requestInHand]
      refine ⟨by simpa only [asked_append, asked, List.append_nil] using i1, ?_, fun _ => key, ?_, ?_, ?_, ?_⟩
      · exact key ▸ List.prefix_rfl
      · intro n
        rw [answered_append]
        simp only [update, answered, List.mem_append, List.mem_singleton]
        split
        · next he => simp [he]
        · next he => simpa [he] using i4 n
      · intro u n hw
        refine ⟨List.mem_append_left _ (i5 u n hw).1, ?_⟩
        intro hm
        rcases List.mem_append.mp hm with hm | hm
        · exact (i5 u n hw).2 hm
        · cases List.mem_singleton.mp hm
      · intro u n hm
        rw [answered_append]
        rcases List.mem_append.mp hm with hm | hm
        · exact ⟨List.mem_append_left _ (i6 u n hm).1, List.mem_append_left _ (i6 u n hm).2⟩
        · cases List.mem_singleton.mp hm
      · intro u n hm
        rcases List.mem_append.mp hm with hm | hm
        · exact i7 u n hm
        · cases List.mem_singleton.mp hm
    | closed h1 h2 h3 =>
      refine same (by simp) (by simp) (by simp) rfl rfl (fun _ _ h => h) (fun _ => ⟨by simp [h1], ?_⟩) ?_
      · simp [requestInHand, h1]
      · simp [requestInHand, h1]
    | signal h1 =>
      refine same (by simp) (by simp) (by simp) rfl rfl (fun _ _ h => h) (fun _ => ⟨by simp [h1], ?_⟩) ?_
      · simp [requestInHand, h1]
      · simp [requestInHand, h1]
    | lastFlush h1 =>
      refine same (by simp) (by simp) (by simp) rfl rfl (fun _ _ h => h) (fun _ => ⟨by simp [h1], ?_⟩) ?_
      · simp [requestInHand, h1]
      · simp [requestInHand, h1]
    | crash t r h1 =>
      exact same (by simp) (by simp) (by simp) rfl rfl (fun _ _ h => h) (fun h => absurd rfl h) (by simp [requestInHand, requests])
    | crashFlush n h1 =>
      exact same (by simp) (by simp) (by simp) rfl rfl (fun _ _ h => h) (fun h => absurd rfl h) (by simp [requestInHand, requests])
    | drop h1 =>
      exact same (by simp) (by simp) (by simp) rfl rfl (fun _ _ h => h) (fun h => ⟨h, rfl⟩) List.prefix_rfl
    | dropRet h1 h2 =>
      exact same (by simp) (by simp) (by simp) rfl rfl (fun _ _ h => h) (fun h => ⟨h, rfl⟩) List.prefix_rfl

/-- **C229** Flush requests are answered in the order in which they were made, each at most once, whichever threads make them and whether or not
the consumer panics in the end. -/
theorem C229_order (enabled : R → Bool) (progs : Nat → List (Call R)) (tr : List (Act R)) (s : Sys R)
    (h : Run enabled (start progs) tr s) : answered tr <+: asked tr ∧ (asked tr).Nodup := by
  have hi := flush_inv enabled progs h
  rw [hi.asked]
  refine ⟨?_, List.nodup_range⟩
  exact (List.prefix_append _ _).trans ((List.append_assoc _ _ _).symm ▸ hi.order)

/-- A request is made by one thread. -/
theorem one_asker (enabled : R → Bool) (progs : Nat → List (Call R)) {tr : List (Act R)} {s : Sys R}
    (h : Run enabled (start progs) tr s) (t u n : Nat) (ht : Act.flushCall t n ∈ tr) (hu : Act.flushCall u n ∈ tr) : t = u := by
  induction h with
  | nil => cases ht
  | snoc hrun hs ih =>
    have hi := flush_inv enabled progs hrun
    rcases List.mem_append.mp ht with ht' | ht' <;> rcases List.mem_append.mp hu with hu' | hu'
    · exact ih ht' hu'
    · have he := List.mem_singleton.mp hu'
      subst he
      cases hs
      exact absurd (hi.new _ _ ht') (Nat.lt_irrefl _)
    · have he := List.mem_singleton.mp ht'
      subst he
      cases hs
      exact absurd (hi.new _ _ hu') (Nat.lt_irrefl _)
    · rw [List.mem_singleton] at ht' hu'
      rw [← ht'] at hu'
      cases hu'
      rfl

/-- When a `flush` returns, it was called, answered, and has not returned before. -/
theorem ret_before (enabled : R → Bool) (progs : Nat → List (Call R)) {tr1 tr2 : List (Act R)} {t n : Nat} {s : Sys R}
    (h : Run enabled (start progs) (tr1 ++ .flushRet t n :: tr2) s) :
    .flushCall t n ∈ tr1 ∧ n ∈ answered tr1 ∧ .flushRet t n ∉ tr1 := by
  obtain ⟨s1, s2, h1, h2, _⟩ := h.cut _ _ _ rfl
  have hi := flush_inv enabled progs h1
  cases h2 with
  | flushRet _ _ g1 g2 => exact ⟨(hi.who t n g1).1, (hi.locks n).mp g2, (hi.who t n g1).2⟩

/-- **C229** A `flush` returns only to the thread that called it, after its own request was answered, and once. -/
theorem C229_returns (enabled : R → Bool) (progs : Nat → List (Call R)) (tr1 tr2 : List (Act R)) (t n : Nat) (s : Sys R)
    (h : Run enabled (start progs) (tr1 ++ .flushRet t n :: tr2) s) :
    .flushCall t n ∈ tr1 ∧ n ∈ answered tr1 ∧ (∀ u, .flushCall u n ∈ tr1 ++ .flushRet t n :: tr2 → u = t) ∧
      ∀ u, .flushRet u n ∉ tr1 ∧ .flushRet u n ∉ tr2 := by
  obtain ⟨h1, h2, h3⟩ := ret_before enabled progs h
  have hone : ∀ u, .flushCall u n ∈ tr1 ++ .flushRet t n :: tr2 → u = t := fun u hu =>
    one_asker enabled progs h u t n hu (List.mem_append_left _ h1)
  have hi := flush_inv enabled progs h
  refine ⟨h1, h2, hone, fun u => ⟨fun hm => ?_, fun hm => ?_⟩⟩
  · have := hone u (hi.back u n (List.mem_append_left _ hm)).1
    subst this
    exact h3 hm
  · have := hone u (hi.back u n (List.mem_append_right _ (List.mem_cons_of_mem _ hm))).1
    subst this
    obtain ⟨a, b, rfl⟩ := List.append_of_mem hm
    have h' : Run enabled (start progs) ((tr1 ++ .flushRet u n :: a) ++ .flushRet u n :: b) s := by simpa using h
    exact (ret_before enabled progs h').2.2 (List.mem_append_right _ (List.mem_cons_self ..))

/-- **C93**, negation for the code as written, for the flushes that wait: the request in the hand of the consumer when it panics was not answered,
and no request that was not answered before the panic ever is: the threads that made them wait for ever. -/
theorem C93_waits_violated (enabled : R → Bool) (progs : Nat → List (Call R)) (tr : List (Act R)) (s s1 : Sys R)
    (h : Run enabled (start progs) tr s) (hs : Step enabled s .crash s1) :
    (∀ n, s.consumer = .flushing n → n ∉ answered tr ∧ ∃ t, .flushCall t n ∈ tr ∧ s.phases t = .waiting n) ∧
    ∀ t n, .flushCall t n ∈ tr → n ∉ answered tr → ∀ tr' s', Run enabled s1 tr' s' → .flushRet t n ∉ tr' ∧ s'.phases t = .waiting n := by
  have hi := flush_inv enabled progs h
  have h1 : Run enabled (start progs) (tr ++ [.crash]) s1 := .snoc h hs
  have hwait : ∀ t n, Act.flushCall t n ∈ tr → n ∉ answered tr → s.phases t = .waiting n := by
    intro t n hc ha
    exact (locks_run enabled progs h).2 t n hc (fun hr => ha (hi.back t n hr).2)
  constructor
  · intro n hn
    have hd : s.consumer ≠ .dead := by simp [hn]
    have hal := hi.alive hd
    have hna : n ∉ answered tr := by
      intro hm
      have hnd : (answered tr ++ requestInHand s.consumer ++ requests s.queue).Nodup := hal ▸ List.nodup_range
      rw [hn, List.append_assoc, List.nodup_append] at hnd
      exact hnd.2.2 n hm n (List.mem_append_left _ (List.mem_singleton.mpr rfl)) rfl
    have hin : n ∈ asked tr := by
      rw [hi.asked, ← hal, hn]
      simp [requestInHand]
    obtain ⟨t, ht⟩ := (mem_asked tr n).mp hin
    exact ⟨hna, t, ht, hwait t n ht hna⟩
  · intro t n hc ha tr' s' hr
    have hfin := flush_inv enabled progs (h1.trans hr)
    have hret : Act.flushRet t n ∉ tr' := by
      have hl : s1.locks n = false := by
        have := (flush_inv enabled progs h1).locks n
        rw [answered_append] at this
        cases hx : s1.locks n with
        | false => rfl
        | true => exact absurd (this.mp hx) (by simpa [answered] using ha)
      exact (C93_spreads_violated enabled progs _ _ h1 (List.mem_append_right _ (List.mem_singleton.mpr rfl))).2.2 tr' s' hr |>.2.2 t n hl
    refine ⟨hret, (locks_run enabled progs (h1.trans hr)).2 t n (List.mem_append_left _ (List.mem_append_left _ hc)) ?_⟩
    intro hm
    rcases List.mem_append.mp hm with hm | hm
    · rcases List.mem_append.mp hm with hm | hm
      · exact ha (hi.back t n hm).2
      · cases List.mem_singleton.mp hm
    · exact hret hm

/-- Two threads flush; the second asks while the first is being answered; both return, in the other order. -/
theorem twoFlushes : ∃ s, Run (fun _ : Nat => true) (start (fun t => if t < 2 then [.flush] else []))
    [.flushCall 1 0, .recv, .flushCall 0 1, .flush, .store 0, .recv, .flush, .store 1, .flushRet 0 1, .flushRet 1 0] s := by
  refine run_cons (.flushCall _ 1 _ rfl rfl rfl (by simp [start])) ?_
  refine run_cons (.recvFlush _ 0 _ rfl rfl) ?_
  refine run_cons (.flushCall _ 0 _ rfl rfl rfl (by simp)) ?_
  refine run_cons (.flush _ 0 rfl) ?_
  refine run_cons (.store _ 0 rfl) ?_
  refine run_cons (.recvFlush _ 1 _ rfl rfl) ?_
  refine run_cons (.flush _ 1 rfl) ?_
  refine run_cons (.store _ 1 rfl) ?_
  refine run_cons (.flushRet _ 0 1 rfl rfl) ?_
  exact run_cons (.flushRet _ 1 0 rfl rfl) ⟨_, .nil⟩

example : answered ([.flushCall 1 0, .recv, .flushCall 0 1, .flush, .store 0, .recv, .flush, .store 1, .flushRet 0 1, .flushRet 1 0] : List (Act Nat)) =
    [0, 1] := rfl

/-- The return of thread 1 in that run: it called, it was answered. -/
example : Act.flushCall (R := Nat) 1 0 ∈ [.flushCall 1 0, .recv, .flushCall 0 1, .flush, .store 0, .recv, .flush, .store 1, .flushRet 0 1] := by
  obtain ⟨s, h⟩ := twoFlushes
  exact (C229_returns _ _ [.flushCall 1 0, .recv, .flushCall 0 1, .flush, .store 0, .recv, .flush, .store 1, .flushRet 0 1] [] 1 0 s h).1

/-- The consumer panics while it flushes for thread 0, and thread 1 waits for its turn. -/
example : ∃ s s1, Run (fun _ : Nat => true) (start (fun t => if t < 2 then [.flush] else [])) [.flushCall 0 0, .recv, .flushCall 1 1] s ∧
    Step (fun _ : Nat => true) s .crash s1 ∧ s.consumer = .flushing 0 ∧
    ∀ tr' s', Run (fun _ : Nat => true) s1 tr' s' → .flushRet 1 1 ∉ tr' := by
  have h : Run (fun _ : Nat => true) (start (fun t => if t < 2 then [.flush] else [])) [.flushCall 0 0, .recv, .flushCall 1 1] _ :=
    .snoc (tr := [.flushCall 0 0, .recv]) (.snoc (tr := [.flushCall 0 0]) (.snoc (tr := []) .nil (.flushCall _ 0 _ rfl rfl rfl (by simp [start])))
      (.recvFlush _ 0 _ rfl rfl)) (.flushCall _ 1 _ rfl rfl rfl (by simp))
  refine ⟨_, _, h, .crashFlush _ 0 rfl, rfl, fun tr' s' hr => ?_⟩
  exact ((C93_waits_violated _ _ _ _ _ h (.crashFlush _ 0 rfl)).2 1 1 (by simp) (by simp [answered]) tr' s' hr).1

end Httpd.Log
