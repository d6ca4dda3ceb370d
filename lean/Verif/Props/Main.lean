import Verif.Model.Main
/-! # C34, C35, C75, C76: starting services and accepting connections -/

namespace Httpd

/-! ## C35 -/

/-- The connections that were accepted before the first Ctrl-C. -/
def accepted : List AcceptEvent → List (Nat × Handshake)
  | [] => []
  | .conn id hs :: es => (id, hs) :: accepted es
  | .acceptErr :: es => accepted es
  | .ctrlC :: _ => []

/-- The handshake succeeded, within the time limit. -/
def HandshakeDone (timeout : Nat) (hs : Handshake) : Prop := hs.ok = true ∧ ∃ t, hs.time = some t ∧ t ≤ timeout

instance (timeout : Nat) (hs : Handshake) : Decidable (HandshakeDone timeout hs) :=
  match h : hs.time with
  | none => .isFalse (fun hh => by obtain ⟨_, t, h1, _⟩ := hh; rw [h] at h1; cases h1)
  | some t => if h2 : hs.ok = true ∧ t ≤ timeout then .isTrue ⟨h2.1, t, h, h2.2⟩
      else .isFalse (fun hh => by
        obtain ⟨h3, t', h1, h4⟩ := hh
        rw [h] at h1
        cases h1
        exact h2 ⟨h3, h4⟩)

/-- Everything loads: both files can be read and yield certificates and a key that fit. -/
def TlsLoads {C : Type} (x : TlsEnv C) (cert key : Str) : Prop :=
  ∃ ct cs kt k cfg, x.file cert = some ct ∧ x.certs ct = some cs ∧ x.file key = some kt ∧ x.privateKey kt = some (some k) ∧
    x.build cs k = some cfg

theorem plainLoop_served (es : List AcceptEvent) :
    (plainLoop es).1 = (accepted es).map (fun p => ⟨p.1, false, true⟩) := by
  induction es with
  | nil => rfl
  | cons e es ih =>
    cases e with
    | conn id hs => simp [plainLoop, accepted, ih]
    | acceptErr => simpa [plainLoop, accepted] using ih
    | ctrlC => rfl

theorem tlsLoop_served (timeout : Nat) (es : List AcceptEvent) :
    (tlsLoop timeout es).1 =
      ((accepted es).filter (fun p => decide (HandshakeDone timeout p.2))).map (fun p => ⟨p.1, true, false⟩) := by
  induction es with
  | nil => rfl
  | cons e es ih =>
    cases e with
    | acceptErr => simpa [tlsLoop, accepted] using ih
    | ctrlC => rfl
    | conn id hs =>
      simp only [tlsLoop, accepted]
      obtain ⟨ms, ok⟩ := hs
      cases ms with
      | none =>
        rw [List.filter_cons_of_neg (by simp [HandshakeDone])]
        exact ih
      | some t =>
        simp only
        by_cases ht : timeout < t
        · rw [if_pos ht, List.filter_cons_of_neg (by simp [HandshakeDone]; omega)]
          exact ih
        · rw [if_neg ht]
          cases ok with
          | false =>
            rw [List.filter_cons_of_neg (by simp [HandshakeDone])]
            exact ih
          | true =>
            rw [List.filter_cons_of_pos (by simp [HandshakeDone]; omega), List.map_cons, ← ih]
            rfl

theorem tlsLoad_cases {C : Type} (x : TlsEnv C) (cert key : Str) (h : cert ≠ [] ∨ key ≠ []) :
    (TlsLoads x cert key ∧ ∃ cfg, tlsLoad x cert key = some (some cfg)) ∨ (¬ TlsLoads x cert key ∧ tlsLoad x cert key = none) := by
  have h0 : (cert.isEmpty && key.isEmpty) = false := by
    cases cert <;> cases key <;> simp_all
  by_cases hl : TlsLoads x cert key
  · left
    refine ⟨hl, ?_⟩
    obtain ⟨ct, cs, kt, k, cfg, h1, h2, h3, h4, h5⟩ := hl
    exact ⟨cfg, by simp [tlsLoad, h0, h1, h2, h3, h4, h5]⟩
  · right
    refine ⟨hl, ?_⟩
    simp only [tlsLoad, h0, Bool.false_eq_true, if_false]
    cases h1 : x.file cert with
    | none => rfl
    | some ct =>
      simp only
      cases h2 : x.certs ct with
      | none => rfl
      | some cs =>
        simp only
        cases h3 : x.file key with
        | none => rfl
        | some kt =>
          simp only
          cases h4 : x.privateKey kt with
          | none => rfl
          | some ok =>
            cases ok with
            | none => rfl
            | some k =>
              simp only
              cases h5 : x.build cs k with
              | none => rfl
              | some cfg => exact absurd ⟨ct, cs, kt, k, cfg, h1, h2, h3, h4, h5⟩ hl

/-- **C35.** If a certificate or a key is configured for a service: when the TLS configuration does not load, the service ends with an
error and serves nothing; in every case each served connection is encrypted and is one whose handshake succeeded in time. And
without certificate and key all connections are served in plain text. -/
theorem C35_tls_never_dropped {C : Type} (x : TlsEnv C) (cert key : Str) (timeout : Nat) (kind : ServiceKind) (bindOk initOk : Bool)
    (es : List AcceptEvent) :
    (cert ≠ [] ∨ key ≠ [] →
      (¬ TlsLoads x cert key → runService x cert key timeout kind bindOk initOk es = ([], .err)) ∧
      ∀ s ∈ (runService x cert key timeout kind bindOk initOk es).1,
        s.encrypted = true ∧ ∃ hs, (s.id, hs) ∈ accepted es ∧ HandshakeDone timeout hs) ∧
    (cert = [] ∧ key = [] → ∀ s ∈ (runService x cert key timeout kind bindOk initOk es).1, s.encrypted = false) := by
  constructor
  · intro hcfg
    rcases tlsLoad_cases x cert key hcfg with ⟨hl, cfg, hload⟩ | ⟨hl, hload⟩
    · refine ⟨fun h => absurd hl h, ?_⟩
      intro s hs
      have hs' : s ∈ (tlsLoop timeout es).1 := by
        cases bindOk with
        | false => simp [runService] at hs
        | true =>
          cases initOk <;> cases kind <;> simp [runService, hload, acceptLoop] at hs <;> exact hs
      rw [tlsLoop_served] at hs'
      simp only [List.mem_map, List.mem_filter, decide_eq_true_eq] at hs'
      obtain ⟨p, ⟨h1, h2⟩, rfl⟩ := hs'
      exact ⟨rfl, p.2, h1, h2⟩
    · have hr : runService x cert key timeout kind bindOk initOk es = ([], .err) := by
        cases bindOk <;> simp [runService, hload]
      refine ⟨fun _ => hr, ?_⟩
      intro s hs
      rw [hr] at hs
      cases hs
  · rintro ⟨rfl, rfl⟩ s hs
    have hs' : s ∈ (plainLoop es).1 := by
      cases bindOk with
      | false => simp [runService] at hs
      | true => cases initOk <;> cases kind <;> simp [runService, tlsLoad, acceptLoop] at hs <;> exact hs
    rw [plainLoop_served] at hs'
    simp only [List.mem_map] at hs'
    obtain ⟨p, _, rfl⟩ := hs'
    rfl

/-- **C81.** Which connections are served, exactly: a hello-world or file-system service that binds, loads and initialises serves every
connection accepted before Ctrl-C once and in order - with TLS those whose handshake succeeds in time, without TLS all of them - and
ends without error at Ctrl-C and not before; failed accepts change nothing. -/
theorem C81_accepts_all {C : Type} (x : TlsEnv C) (cert key : Str) (timeout : Nat) (kind : ServiceKind)
    (hk : kind = .helloWorld ∨ kind = .fileSystem) (es : List AcceptEvent) :
    ((TlsLoads x cert key ∧ (cert ≠ [] ∨ key ≠ []) →
      (runService x cert key timeout kind true true es).1.map (·.id) =
        ((accepted es).filter (fun p => decide (HandshakeDone timeout p.2))).map (·.1)) ∧
     (cert = [] ∧ key = [] → (runService x cert key timeout kind true true es).1.map (·.id) = (accepted es).map (·.1))) ∧
    (TlsLoads x cert key ∨ (cert = [] ∧ key = []) →
      ((runService x cert key timeout kind true true es).2 = .ok ↔ AcceptEvent.ctrlC ∈ es) ∧
      ((runService x cert key timeout kind true true es).2 = .waiting ↔ AcceptEvent.ctrlC ∉ es)) := by
  have hend : ∀ f : List AcceptEvent → List Served × RunEnd, (f = plainLoop ∨ f = tlsLoop timeout) →
      ((f es).2 = .ok ↔ AcceptEvent.ctrlC ∈ es) ∧ ((f es).2 = .waiting ↔ AcceptEvent.ctrlC ∉ es) := by
    rintro f (rfl | rfl)
    · induction es with
      | nil => simp [plainLoop]
      | cons e es ih => cases e <;> simp_all [plainLoop]
    · induction es with
      | nil => simp [tlsLoop]
      | cons e es ih =>
        cases e with
        | acceptErr => simp_all [tlsLoop]
        | ctrlC => simp [tlsLoop]
        | conn id hs =>
          simp only [List.mem_cons, reduceCtorEq, false_or]
          rw [← ih.2, ← ih.1]
          simp only [tlsLoop]
          cases hs.time with
          | none => exact ⟨Iff.rfl, Iff.rfl⟩
          | some t =>
            simp only
            split
            · exact ⟨Iff.rfl, Iff.rfl⟩
            · split <;> exact ⟨Iff.rfl, Iff.rfl⟩
  have htls : TlsLoads x cert key → (cert ≠ [] ∨ key ≠ []) → runService x cert key timeout kind true true es = tlsLoop timeout es := by
    intro hl hc
    rcases tlsLoad_cases x cert key hc with ⟨_, cfg, hload⟩ | ⟨h, _⟩
    · rcases hk with rfl | rfl <;> simp [runService, hload, acceptLoop]
    · exact absurd hl h
  have hplain : cert = [] ∧ key = [] → runService x cert key timeout kind true true es = plainLoop es := by
    rintro ⟨rfl, rfl⟩
    rcases hk with rfl | rfl <;> simp [runService, tlsLoad, acceptLoop]
  refine ⟨⟨fun ⟨hl, hc⟩ => ?_, fun hc => ?_⟩, ?_⟩
  · rw [htls hl hc, tlsLoop_served, List.map_map]; rfl
  · rw [hplain hc, plainLoop_served, List.map_map]; rfl
  · intro h
    by_cases hc : cert = [] ∧ key = []
    · rw [hplain hc]; exact hend _ (Or.inl rfl)
    · have hc' : cert ≠ [] ∨ key ≠ [] := by
        by_cases h1 : cert = []
        · exact Or.inr (fun h2 => hc ⟨h1, h2⟩)
        · exact Or.inl h1
      rcases h with hl | h
      · rw [htls hl hc']; exact hend _ (Or.inr rfl)
      · exact absurd h hc

/-- An environment in which TLS loads from `c` and `k`. -/
def sampleTls : TlsEnv Unit :=
  { file := fun n => if n = u!"c" then some b!"c" else if n = u!"k" then some b!"k" else none, certs := fun t => some [t], privateKey := fun t => some (some t),
    build := fun _ _ => some () }

/-- Non-trivial case: three clients (in time, too late, failing), then Ctrl-C, then another client; only the first is served. And a
service whose key file is missing does not start. -/
example : runService sampleTls u!"c" u!"k" 15000 .helloWorld true true
      [.conn 1 ⟨some 20, true⟩, .acceptErr, .conn 2 ⟨some 15001, true⟩, .conn 3 ⟨some 5, false⟩, .ctrlC, .conn 4 ⟨some 1, true⟩] =
      ([⟨1, true, false⟩], .ok) ∧
    runService sampleTls u!"c" u!"x" 15000 .helloWorld true true [.conn 1 ⟨some 20, true⟩] = ([], .err) ∧
    runService sampleTls [] [] 15000 .fileSystem true true [.conn 1 ⟨none, true⟩, .conn 2 ⟨none, false⟩] =
      ([⟨1, false, true⟩, ⟨2, false, true⟩], .waiting) := by decide

/-! ## C34 -/

/-- **C34**, negation for the code as written: every service that serves a connection at all is told the opposite of the truth. -/
theorem C34_over_tls_violated {C : Type} (x : TlsEnv C) (cert key : Str) (timeout : Nat) (kind : ServiceKind) (bindOk initOk : Bool)
    (es : List AcceptEvent) (s : Served) (h : s ∈ (runService x cert key timeout kind bindOk initOk es).1) :
    s.overTls = !s.encrypted := by
  have hcase : s ∈ (tlsLoop timeout es).1 ∨ s ∈ (plainLoop es).1 := by
    cases bindOk with
    | false => simp [runService] at h
    | true =>
      simp only [runService, Bool.not_true, Bool.false_eq_true, if_false] at h
      cases hl : tlsLoad x cert key with
      | none => simp [hl] at h
      | some tls =>
        rw [hl] at h
        have hk : s ∈ (acceptLoop tls timeout initOk es).1 := by
          cases kind <;> first | exact h | (simp at h)
        cases initOk with
        | false => simp [acceptLoop] at hk
        | true =>
          cases tls with
          | none => right; simpa [acceptLoop] using hk
          | some c => left; simpa [acceptLoop] using hk
  rcases hcase with h | h
  · rw [tlsLoop_served] at h
    simp only [List.mem_map] at h
    obtain ⟨p, _, rfl⟩ := h
    rfl
  · rw [plainLoop_served] at h
    simp only [List.mem_map] at h
    obtain ⟨p, _, rfl⟩ := h
    rfl

/-- Such connections exist, of both kinds. -/
example : (∃ s ∈ (runService sampleTls u!"c" u!"k" 15000 .helloWorld true true [.conn 1 ⟨some 20, true⟩]).1,
      s.encrypted = true ∧ s.overTls = false) ∧
    (∃ s ∈ (runService sampleTls [] [] 15000 .helloWorld true true [.conn 1 ⟨none, true⟩]).1, s.encrypted = false ∧ s.overTls = true) := by
  decide

/-! ## C76 -/

/-- A task has ended, with whatever outcome. -/
def TaskState.over : TaskState → Prop
  | .running => False
  | _ => True

theorem multi_inv {n : Nat} {s : MultiState} (h : MultiRun (multiStart n) s) :
    s.tasks.length = n ∧ (s.returned = true → ∀ t ∈ s.tasks, ∃ o, t = .joined o) := by
  have aux : ∀ a b, MultiRun a b → a = multiStart n →
      b.tasks.length = n ∧ (b.returned = true → ∀ t ∈ b.tasks, ∃ o, t = .joined o) := by
    intro a b hab
    induction hab with
    | nil => rintro rfl; simp [multiStart]
    | snoc _ hstep ih =>
      intro ha
      obtain ⟨h1, h2⟩ := ih ha
      cases hstep with
      | finish i o hr _ => exact ⟨by simpa using h1, fun h => by simp [hr] at h⟩
      | join i o hr _ => exact ⟨by simpa using h1, fun h => by simp [hr] at h⟩
      | exit hr hall => exact ⟨h1, fun _ => hall⟩
  exact aux _ _ h rfl

/-- Tasks that are not yet joined. -/
def unjoined (ts : List TaskState) : Nat := ts.countP (fun t => match t with | .joined _ => false | _ => true)

theorem unjoined_join (ts : List TaskState) (i : Nat) (o : TaskEnd) (h : ts[i]? = some (.ended o)) :
    unjoined (ts.set i (.joined o)) + 1 = unjoined ts := by
  induction ts generalizing i with
  | nil => simp at h
  | cons t ts ih =>
    cases i with
    | zero =>
      simp only [List.getElem?_cons_zero, Option.some.injEq] at h
      subst h
      simp [unjoined]
    | succ i =>
      simp only [List.getElem?_cons_succ] at h
      have := ih i h
      simp only [unjoined, List.set_cons_succ, List.countP_cons] at this ⊢
      omega

theorem MultiRun.cons {s t u : MultiState} (hs : MultiStep s t) (h : MultiRun t u) : MultiRun s u := by
  induction h with
  | nil => exact .snoc (.nil _) hs
  | snoc _ h2 ih => exact .snoc ih h2

/-- From a state where every task has ended, the loop reaches its end. -/
theorem multi_finishes (m : Nat) (s : MultiState) (hm : unjoined s.tasks = m) (hr : s.returned = false)
    (hall : ∀ t ∈ s.tasks, t.over) : ∃ s', MultiRun s s' ∧ s'.returned = true := by
  induction m generalizing s with
  | zero =>
    refine ⟨_, .snoc (.nil s) (.exit s hr ?_), rfl⟩
    intro t ht
    simp only [unjoined, List.countP_eq_zero] at hm
    have h1 := hm t ht
    have h2 := hall t ht
    cases t with
    | running => exact h2.elim
    | ended o => simp at h1
    | joined o => exact ⟨o, rfl⟩
  | succ m ih =>
    have : ∃ t ∈ s.tasks, ∃ o, t = .ended o := by
      have hpos : 0 < unjoined s.tasks := by omega
      simp only [unjoined, List.countP_pos_iff] at hpos
      obtain ⟨t, ht, h1⟩ := hpos
      refine ⟨t, ht, ?_⟩
      have h2 := hall t ht
      cases t with
      | running => exact h2.elim
      | ended o => exact ⟨o, rfl⟩
      | joined o => simp at h1
    obtain ⟨t, ht, o, rfl⟩ := this
    obtain ⟨i, hi, hget⟩ := List.mem_iff_getElem.mp ht
    have hget? : s.tasks[i]? = some (.ended o) := by rw [List.getElem?_eq_getElem hi, hget]
    have hstep := MultiStep.join s i o hr hget?
    obtain ⟨s', h1, h2⟩ := ih { s with tasks := s.tasks.set i (.joined o) }
      (by have := unjoined_join s.tasks i o hget?; simp only; omega) hr
      (by
        intro t ht
        rcases List.mem_or_eq_of_mem_set ht with h | rfl
        · exact hall t h
        · trivial)
    exact ⟨s', MultiRun.cons hstep h1, h2⟩

/-- **C76.** In every execution of multi-thread mode with `n` services, whatever their outcomes and the order of events: when the
function has returned, all `n` services have ended; while a service is running, the function has not returned and that service can
still end in any way, whatever happened to the others; and once all services have ended, the function can return, every possible
step brings it closer to that, and it is never stuck. -/
theorem C76_all_services (n : Nat) (s : MultiState) (h : MultiRun (multiStart n) s) :
    (s.returned = true → s.tasks.length = n ∧ ∀ t ∈ s.tasks, t.over) ∧
    (∀ i o, s.tasks[i]? = some .running → s.returned = false ∧ MultiStep s { s with tasks := s.tasks.set i (.ended o) }) ∧
    ((∀ t ∈ s.tasks, t.over) → s.returned = false → (∃ s', MultiRun s s' ∧ s'.returned = true) ∧
      ∀ s', MultiStep s s' → s'.returned = true ∨ unjoined s'.tasks < unjoined s.tasks) := by
  obtain ⟨h1, h2⟩ := multi_inv h
  refine ⟨fun hr => ⟨h1, fun t ht => ?_⟩, fun i o hi => ?_, fun hall hr => ⟨multi_finishes _ s rfl hr hall, ?_⟩⟩
  · obtain ⟨o, rfl⟩ := h2 hr t ht
    trivial
  · have hr : s.returned = false := by
      cases hret : s.returned with
      | false => rfl
      | true =>
        obtain ⟨o', h3⟩ := h2 hret _ (List.mem_of_getElem? hi)
        cases h3
    exact ⟨hr, .finish s i o hr hi⟩
  · intro s' hs
    cases hs with
    | finish i o _ hi => exact (hall _ (List.mem_of_getElem? hi)).elim
    | join i o _ hi => right; have := unjoined_join s.tasks i o hi; simp only; omega
    | exit _ _ => left; rfl

/-- Non-trivial case: of two services one panics and is joined while the other runs on; the function has not returned. -/
example : ∃ s, MultiRun (multiStart 2) s ∧ s.tasks = [.running, .joined .panic] ∧ s.returned = false :=
  ⟨_, .snoc (.snoc (.nil _) (.finish _ 1 .panic rfl rfl)) (.join _ 1 .panic rfl rfl), rfl, rfl⟩

/-! ## C75 -/

theorem PerCoreRun.trans {n : Nat} {s t u : PerCore} (h1 : PerCoreRun n s t) (h2 : PerCoreRun n t u) : PerCoreRun n s u := by
  induction h2 with
  | nil => exact h1
  | snoc _ hs ih => exact .snoc ih hs

/-- All threads can be spawned before any of them runs. -/
theorem perCore_spawned (n k : Nat) (hk : k ≤ n) : PerCoreRun n .start ⟨.spawning k, List.replicate k .spawned⟩ := by
  induction k with
  | zero => exact .nil _
  | succ k ih =>
    have := PerCoreStep.spawn (n := n) (List.replicate k .spawned) k (by omega)
    rw [List.replicate_succ']
    exact .snoc (ih (by omega)) this

/-- **C75**, negation for the code as written (race): with two or more services, the process can end although a service has never run -
its thread had not yet taken the lock when another service's thread released it. -/
theorem C75_race_violated (n : Nat) (hn : 2 ≤ n) :
    ∃ s, PerCoreRun n .start s ∧ s.main = .returned ∧ s.threads.length = n ∧ ThreadState.spawned ∈ s.threads := by
  obtain ⟨m, rfl⟩ : ∃ m, n = m + 2 := ⟨n - 2, by omega⟩
  have h0 := perCore_spawned (m + 2) (m + 2) (Nat.le_refl _)
  have h1 : PerCoreRun (m + 2) .start ⟨.polling, .spawned :: .spawned :: List.replicate m .spawned⟩ := .snoc h0 (.spawnDone _)
  have h2 : PerCoreRun (m + 2) .start ⟨.polling, .holding :: .spawned :: List.replicate m .spawned⟩ :=
    .snoc h1 (.take .polling _ 0 (by decide) (by decide) rfl)
  have h3 : PerCoreRun (m + 2) .start ⟨.waiting, .holding :: .spawned :: List.replicate m .spawned⟩ :=
    .snoc h2 (.giveUp _ (fun h => h .holding (by simp) rfl))
  have h4 : PerCoreRun (m + 2) .start ⟨.waiting, .ended :: .spawned :: List.replicate m .spawned⟩ :=
    .snoc h3 (.release .waiting _ 0 (by decide) (by decide) rfl)
  refine ⟨_, .snoc h4 (.enter _ ?_), rfl, by simp, by simp⟩
  intro t ht
  simp only [List.mem_cons, List.mem_replicate] at ht
  rcases ht with rfl | rfl | ⟨_, rfl⟩ <;> decide

/-- **C75**, negation for the code as written (livelock): for every number of services, if they all end before the main thread looks at
the lock, the process never ends: whatever happens next, the state stays as it is. -/
theorem C75_livelock_violated (n : Nat) :
    PerCoreRun n .start ⟨.polling, List.replicate n .ended⟩ ∧
      ∀ s, PerCoreRun n ⟨.polling, List.replicate n .ended⟩ s → s = ⟨.polling, List.replicate n .ended⟩ := by
  constructor
  · have h0 : PerCoreRun n .start ⟨.polling, List.replicate n .spawned⟩ := .snoc (perCore_spawned n n (Nat.le_refl _)) (.spawnDone _)
    have h1 : ∀ k, k ≤ n → PerCoreRun n .start ⟨.polling, List.replicate k .ended ++ List.replicate (n - k) .spawned⟩ := by
      intro k
      induction k with
      | zero => intro _; simpa using h0
      | succ k ih =>
        intro hk
        have hs : List.replicate (n - k) ThreadState.spawned = .spawned :: List.replicate (n - (k + 1)) .spawned := by
          rw [← List.replicate_succ]; congr 1; omega
        have hpre := ih (by omega)
        rw [hs] at hpre
        have hget : (List.replicate k ThreadState.ended ++ .spawned :: List.replicate (n - (k + 1)) .spawned)[k]? = some .spawned := by
          rw [List.getElem?_append_right (by simp)]; simp
        have h2 := PerCoreRun.snoc hpre (.take .polling _ k (by decide) (by decide) hget)
        have hset : ∀ x : ThreadState, ∀ y : ThreadState,
            (List.replicate k ThreadState.ended ++ x :: List.replicate (n - (k + 1)) .spawned).set k y =
              List.replicate k ThreadState.ended ++ y :: List.replicate (n - (k + 1)) .spawned := by
          intro x y
          rw [List.set_append_right _ _ (by simp)]; simp
        rw [hset] at h2
        have hget2 : (List.replicate k ThreadState.ended ++ .holding :: List.replicate (n - (k + 1)) .spawned)[k]? = some .holding := by
          rw [List.getElem?_append_right (by simp)]; simp
        have h3 := PerCoreRun.snoc h2 (.release .polling _ k (by decide) (by decide) hget2)
        rw [hset] at h3
        rw [List.replicate_succ', List.append_assoc]
        exact h3
    have := h1 n (Nat.le_refl _)
    simpa using this
  · intro s hs
    generalize ha : (⟨.polling, List.replicate n .ended⟩ : PerCore) = a at hs
    induction hs with
    | nil => exact ha.symm ▸ rfl
    | @snoc t u _ hstep ih =>
      have ht := ih
      rw [ht, ← ha] at hstep
      rw [← ha]
      have noSp : ∀ i : Nat, (List.replicate n ThreadState.ended)[i]? = some .spawned → False := by
        intro i hi
        have := List.eq_of_mem_replicate (List.mem_of_getElem? hi)
        cases this
      have noHold : ∀ i : Nat, (List.replicate n ThreadState.ended)[i]? = some .holding → False := by
        intro i hi
        have := List.eq_of_mem_replicate (List.mem_of_getElem? hi)
        cases this
      cases hstep with
      | poll _ _ => rfl
      | giveUp _ hf =>
        refine absurd ?_ hf
        intro t ht
        rw [List.eq_of_mem_replicate ht]
        decide
      | take _ _ i _ _ hi => exact (noSp _ hi).elim
      | release _ _ i _ _ hi => exact (noHold _ hi).elim

theorem perCore_inv {n : Nat} {s : PerCore} (h : PerCoreRun n .start s) :
    (∀ k, s.main = .spawning k → k ≤ n ∧ s.threads.length = k) ∧
    ((s.main = .polling ∨ s.main = .waiting ∨ s.main = .returned) → s.threads.length = n) ∧
    ((s.main = .waiting ∨ s.main = .returned) → ∃ t ∈ s.threads, t ≠ .spawned) ∧
    (s.main = .returned → s.free) := by
  generalize ha : PerCore.start = a at h
  induction h with
  | nil => subst ha; simp [PerCore.start]
  | snoc _ hstep ih =>
    obtain ⟨h1, h2, h3, h4⟩ := ih
    cases hstep with
    | spawn ts k hk => have := h1 k rfl; simp_all; omega
    | spawnFail ts k hk => simp
    | spawnDone ts => have := h1 n rfl; simp_all
    | poll ts _ => exact ⟨h1, h2, h3, h4⟩
    | giveUp ts hf =>
      have := h2 (Or.inl rfl)
      refine ⟨by simp, fun _ => this, fun _ => ?_, by simp⟩
      simp only [PerCore.free, ne_eq, Classical.not_forall, Classical.not_not] at hf
      obtain ⟨t, ht, rfl⟩ := hf
      exact ⟨.holding, ht, by decide⟩
    | enter ts hf =>
      exact ⟨by simp, fun _ => h2 (Or.inr (Or.inl rfl)), fun _ => h3 (Or.inl rfl), fun _ => hf⟩
    | take m ts i hm1 hm2 hi =>
      refine ⟨fun k hk => by simpa using h1 k hk, fun hk => by simpa using h2 hk, fun hk => ?_, fun hk => absurd hk hm1⟩
      have hlt : i < ts.length := by
        rw [List.getElem?_eq_some_iff] at hi; exact hi.1
      exact ⟨.holding, List.mem_set hlt _, by decide⟩
    | release m ts i hm1 hm2 hi =>
      refine ⟨fun k hk => by simpa using h1 k hk, fun hk => by simpa using h2 hk, fun hk => ?_, fun hk => absurd hk hm1⟩
      have hlt : i < ts.length := by
        rw [List.getElem?_eq_some_iff] at hi; exact hi.1
      exact ⟨.ended, List.mem_set hlt _, by decide⟩

/-- **C75**, what holds in every execution: when the function has returned without error, every service was started, none is running, and
at least one has run to its end; and if all service threads had taken the lock when the main thread began to wait for it, all have
run to their end. Missing from C75: threads that had not, and ending when all end early. -/
theorem C75_waits_partial (n : Nat) (s : PerCore) (h : PerCoreRun n .start s) (hr : s.main = .returned) :
    s.threads.length = n ∧ (∀ t ∈ s.threads, t ≠ .holding) ∧ ThreadState.ended ∈ s.threads ∧
    (∀ s0, PerCoreRun n .start s0 → s0.main = .waiting → (∀ t ∈ s0.threads, t ≠ .spawned) → PerCoreRun n s0 s →
      ∀ t ∈ s.threads, t = .ended) := by
  obtain ⟨-, h2, h3, h4⟩ := perCore_inv h
  refine ⟨h2 (Or.inr (Or.inr hr)), h4 hr, ?_, ?_⟩
  · obtain ⟨t, ht, hne⟩ := h3 (Or.inr hr)
    have := h4 hr t ht
    cases t with
    | spawned => exact absurd rfl hne
    | holding => exact absurd rfl this
    | ended => exact ht
  · intro s0 _ hw hall hrun t ht
    have hinv : (s.main = .waiting ∨ s.main = .returned) ∧ ∀ t ∈ s.threads, t ≠ .spawned := by
      clear h h2 h3 h4 hr ht
      induction hrun with
      | nil => exact ⟨Or.inl hw, hall⟩
      | snoc _ hstep ih =>
        obtain ⟨g1, g2⟩ := ih
        cases hstep with
        | spawn ts k _ => rcases g1 with g | g <;> cases g
        | spawnFail ts k _ => rcases g1 with g | g <;> cases g
        | spawnDone ts => rcases g1 with g | g <;> cases g
        | poll ts _ => rcases g1 with g | g <;> cases g
        | giveUp ts _ => rcases g1 with g | g <;> cases g
        | enter ts _ => exact ⟨Or.inr rfl, g2⟩
        | take m ts i _ _ hi => exact absurd rfl (g2 _ (List.mem_of_getElem? hi))
        | release m ts i _ _ hi =>
          refine ⟨g1, fun t ht => ?_⟩
          rcases List.mem_or_eq_of_mem_set ht with h | rfl
          · exact g2 t h
          · decide
    have h5 := hinv.2 t ht
    have h6 := h4 hr t ht
    cases t with
    | spawned => exact absurd rfl h5
    | holding => exact absurd rfl h6
    | ended => rfl

/-- Non-trivial case: one service runs, is waited for, ends; the function returns. -/
example : ∃ s, PerCoreRun 1 .start s ∧ s.main = .returned ∧ s.threads = [.ended] :=
  ⟨_, .snoc (.snoc (.snoc (.snoc (.snoc (.snoc (.nil _) (.spawn [] 0 (by decide))) (.spawnDone _))
    (.take .polling _ 0 (by decide) (by decide) rfl)) (.giveUp _ (fun h => h .holding (by simp) rfl)))
    (.release .waiting _ 0 (by decide) (by decide) rfl)) (.enter _ (by intro t ht; simp at ht; rw [ht]; decide)), rfl, rfl⟩

end Httpd
