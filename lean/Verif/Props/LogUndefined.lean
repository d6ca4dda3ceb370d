import Verif.Props.LogChain
/-!
# C175: no request makes the behaviour of the logger undefined
-/

namespace Httpd

open Spec MultiMap

/-! ## One record that cannot be delivered is enough -/

theorem handleAll_none {U : Unicode} (hU : LawfulUnicode U) (pathExists openOk : Str → Bool) (order : List Str → List Str)
    (horder : ∀ l, (order l).Perm l) (c c' : Config) (hslab : c.slab = []) (hfix : c.autofix pathExists = some c')
    (as : List AppenderInit) (has : c'.appenders openOk = some as) (k : Consumer) (l : Level)
    (hk : c'.startLogging U openOk order true = .value (k, l)) (items : List Item) (hd : ∃ item ∈ items, ¬ Deliverable as item) :
    k.handleAll items k.bufs = none := by
  have hne : as ≠ [] := by
    rintro rfl
    rw [(start_spec hU pathExists openOk order horder c c' hslab hfix true).2.1 [] has rfl] at hk
    cases hk
  obtain ⟨k', hk', hsound, happ, hnd, hmem⟩ := (start_spec hU pathExists openOk order horder c c' hslab hfix true).2.2.2 as has hne rfl
  rw [hk] at hk'
  simp only [Started.value.injEq, Prod.mk.injEq] at hk'
  obtain ⟨rfl, _⟩ := hk'
  have hcount := renderers_count as (appenders_renderer openOk c' as has) k.renderers hnd hmem hne
  have h1 : k.renderers.length ≠ 1 := by
    intro hlen
    obtain ⟨item, _, hn⟩ := hd
    simp only [Deliverable, not_or] at hn
    rcases hcount.mp hlen with h | h
    · exact hn.1 h
    · exact hn.2.1 h
  have gen : ∀ (items : List Item) (bufs : List Bytes), bufs.length = k.renderers.length → (∃ item ∈ items, ¬ Deliverable as item) →
      k.handleAll items bufs = none := by
    intro items
    induction items with
    | nil => intro _ _ h; simp at h
    | cons x items ih =>
      intro bufs hb h
      have hh : k.handle x bufs = k.consume x bufs := by
        unfold Consumer.handle
        rw [if_neg (by omega)]
      simp only [Consumer.handleAll, hh]
      by_cases hx : wanted k.appenders x = List.range (wanted k.appenders x).length
      · obtain ⟨bufs', ws, e1, e2, _, _⟩ := (consume_spec k hsound x bufs hb).1 hx
        have hrest : ∃ item ∈ items, ¬ Deliverable as item := by
          obtain ⟨item, hm, hn⟩ := h
          rcases List.mem_cons.mp hm with rfl | hm
          · exact absurd (.inr (.inr (by rw [← happ]; exact hx))) hn
          · exact ⟨item, hm, hn⟩
        simp [e1, ih bufs' (by omega) hrest]
      · simp [(consume_spec k hsound x bufs hb).2 hx]
  exact gen items k.bufs (by simp [Consumer.bufs]) hd

theorem calls_none (k : Consumer) (tr : List (Log.Act Item)) (bufs : List Bytes)
    (h : k.handleAll ((Log.Spec.writes tr).map (·.2)) bufs = none) : k.calls tr bufs = none := by
  induction tr generalizing bufs with
  | nil => simp [Log.Spec.writes, Consumer.handleAll] at h
  | cons a tr ih =>
    cases a with
    | write t item =>
      simp only [Log.Spec.writes, List.map_cons, Consumer.handleAll] at h
      simp only [Consumer.calls]
      cases hh : k.handle item bufs with
      | none => rfl
      | some x =>
        obtain ⟨bufs', w⟩ := x
        rw [hh] at h
        simp only at h ⊢
        have : k.handleAll ((Log.Spec.writes tr).map (·.2)) bufs' = none := by
          cases hq : k.handleAll ((Log.Spec.writes tr).map (·.2)) bufs' with
          | none => rfl
          | some ws => simp [hq] at h
        rw [ih bufs' this]
        rfl
    | flush =>
      simp only [Log.Spec.writes] at h
      simp only [Consumer.calls, ih bufs h, Option.map_none]
    | _ =>
      simp only [Log.Spec.writes] at h
      simp only [Consumer.calls, ih bufs h]

/-! ## The records of a service that is not the first -/

/-- The appenders of a configuration with consoles and files, in which the first appender is not the service's, and the service has
one for tracing. -/
structure Mixed (as : List AppenderInit) (idx : Nat) : Prop where
  console : ∃ a ∈ as, a.path = none
  file : ∃ a ∈ as, a.path ≠ none
  first : ∀ a, as[0]? = some a → a.service ≠ idx
  own : ∃ a ∈ as, a.service = idx ∧ a.filter.filter .trace = true

theorem mixed_undeliverable {as : List AppenderInit} {idx : Nat} (h : Mixed as idx) (item : Item) (hs : item.service = idx)
    (hl : item.level = .trace) : ¬ Deliverable as item := by
  rintro (h1 | h1 | h1)
  · obtain ⟨a, ha, hp⟩ := h.file
    exact hp (h1 a ha)
  · obtain ⟨a, ha, hp⟩ := h.console
    exact h1 a ha hp
  · obtain ⟨a, ha, hi, hf⟩ := h.own
    obtain ⟨j, hj⟩ := List.getElem?_of_mem ha
    have hlt : j < as.length := (List.getElem?_eq_some_iff.mp hj).1
    have hmem : j ∈ wanted (as.map (·.appender)) item := by
      simp only [wanted, List.mem_filter, List.mem_range, List.length_map]
      refine ⟨hlt, ?_⟩
      simp [hj, AppenderInit.appender, hs, hi, hl, hf]
    have h0 : 0 ∈ wanted (as.map (·.appender)) item := by
      rw [h1, List.mem_range] at hmem
      rw [h1, List.mem_range]
      omega
    simp only [wanted, List.mem_filter, List.mem_range, List.length_map] at h0
    obtain ⟨h2, h3⟩ := h0
    cases h4 : as[0]? with
    | none => simp [h4] at h3
    | some b =>
      simp [h4, AppenderInit.appender, hs] at h3
      exact h.first b h4 h3.1

theorem initLoop_first (openOk : Str → Bool) (logpath name : Str) (service : Nat) (cs : List AppenderConfig) (idx : Nat) (fps : List Str)
    (as : List AppenderInit) (h : initLoop openOk logpath name service cs idx fps = some as) (hne : cs ≠ []) :
    ∃ a rest, as = a :: rest ∧ a.service = service := by
  cases cs with
  | nil => exact absurd rfl hne
  | cons x cs =>
    cases x with
    | console level =>
      simp only [initLoop] at h
      split at h
      · cases h
      · cases h; exact ⟨_, _, rfl, rfl⟩
    | file level equal daily bufsize =>
      simp only [initLoop] at h
      generalize (if fps.contains (logPath1 logpath name (appenderLevel level)) then logPath2 logpath name (appenderLevel level) idx
        else logPath1 logpath name (appenderLevel level)) = path at h
      split at h
      · cases h
      · split at h
        · cases h
        · cases h; exact ⟨_, _, rfl, rfl⟩

/-- If the root logs at all, the first appender is the root's. -/
theorem first_is_root (pathExists openOk : Str → Bool) (c c' : Config) (hfix : c.autofix pathExists = some c') (as : List AppenderInit)
    (has : c'.appenders openOk = some as) (hon : c'.logging.disable ≠ some true) (hne : c'.logging.appenders ≠ []) :
    ∃ a rest, as = a :: rest ∧ a.service = 0 := by
  obtain ⟨_, hroot, _⟩ := C56_identities pathExists c c' hfix
  unfold Config.appenders at has
  cases hi : c'.logging.init openOk c'.logpath with
  | none => simp [hi] at has
  | some r =>
    simp only [hi] at has
    split at has
    · cases has
    · cases has
      unfold LoggingConfig.init at hi
      rw [if_neg hon] at hi
      cases hl : initLoop openOk c'.logpath c'.logging.serviceName c'.logging.serviceIdx c'.logging.appenders 0 [] with
      | none => simp [hl] at hi
      | some as0 =>
        simp only [hl, Option.map_some, Option.some.injEq] at hi
        subst hi
        obtain ⟨a, rest, e, e'⟩ := initLoop_first _ _ _ _ _ _ _ _ hl hne
        exact ⟨a, rest ++ _, by rw [e]; rfl, by rw [e', hroot]⟩

/-- **C175**, how common that is: unless the log of the root is disabled, the first appender of a configuration is not that of any service. -/
theorem C175_first_violated (pathExists openOk : Str → Bool) (c c' : Config) (hfix : c.autofix pathExists = some c') (as : List AppenderInit)
    (has : c'.appenders openOk = some as) (hon : c'.logging.disable ≠ some true) (hne : c'.logging.appenders ≠ []) :
    ∀ p ∈ c'.services, ∀ a, as[0]? = some a → a.service ≠ p.2.idx := by
  obtain ⟨b, rest, rfl, h0⟩ := first_is_root pathExists openOk c c' hfix as has hon hne
  intro p hp a ha
  simp at ha
  subst ha
  rw [h0]
  exact fun h => ((C56_identities pathExists c c' hfix).2.2.1 p hp).1 h.symm

/-! ## C175 -/

theorem each2_getElem {α β : Type} {R : α → β → Prop} {xs : List α} {ys : List β} (h : Each2 R xs ys) (i : Nat) (x : α) (hx : xs[i]? = some x) :
    ∃ y, ys[i]? = some y ∧ R x y := by
  induction h generalizing i with
  | nil => simp at hx
  | cons h _ ih =>
    cases i with
    | zero => simp at hx; subst hx; exact ⟨_, by simp, h⟩
    | succ i => simpa using ih i (by simpa using hx)

/-- **C175**, violated: the configuration has a console and a log file, and its first appender is not the service's (the root's appenders come
first, so that is so for every service unless the log of the root is disabled). Then one request of any client to the hello-world service is
enough: when the consumer has handled the first record about it, it has read outside a vector (`none`), whatever else the program logs,
in every interleaving. And if the log has not crashed before, nothing but the consumer's own steps are needed to get there. -/
theorem C175_request_violated {U : Unicode} (hU : LawfulUnicode U) (pathExists openOk : Str → Bool) (order : List Str → List Str)
    (horder : ∀ l, (order l).Perm l) (c c' : Config) (hslab : c.slab = []) (hfix : c.autofix pathExists = some c')
    (as : List AppenderInit) (has : c'.appenders openOk = some as) (k : Consumer)
    (hk : c'.startLogging U openOk order true = .value (k, .trace)) (idx : Nat) (hmix : Mixed as idx)
    {K : Type} (cd : Codec K) (lim : HttpLimits) (env : Nat → Env K) (lg : LogEnv K) (ord : Nat → List Pair → List Pair)
    (hlg : ∀ i, lg.service i = helloLog idx lg.addr (ord i)) (r : Reader) (hreq : (serve cd lim env r).1 ≠ [])
    (progs : Nat → List (Log.Call Item)) (u : Nat) (hu : CallsOf (serveLog cd lim env lg r) (progs u))
    (tr : List (Log.Act Item)) (s : Log.Sys Item) (h : Log.Run (passes .trace) (Log.start progs) tr s) :
    ((madeLog lg).length < (Log.Spec.byThread u (Log.Spec.writes tr)).length → k.calls tr k.bufs = none) ∧
    (Log.Act.crash ∉ tr → (madeLog lg).length < (Log.Spec.byThread u (Log.Spec.sends tr)).length →
      ∃ tr' s', Log.Run (passes .trace) s tr' s' ∧ (∀ a ∈ tr', a.ofConsumer = true) ∧ k.calls (tr ++ tr') k.bufs = none) := by
  have key : ∀ tr s, Log.Run (passes .trace) (Log.start progs) tr s →
      (madeLog lg).length < (Log.Spec.byThread u (Log.Spec.writes tr)).length → k.calls tr k.bufs = none := by
    intro tr s h hlen
    apply calls_none
    apply handleAll_none hU pathExists openOk order horder c c' hslab hfix as has k .trace hk
    obtain ⟨items, hi, hp⟩ := hu
    have hpre := ((Log.C66_order (passes .trace) progs tr s h).2.1 u).2
    rw [hp, logged_map] at hpre
    have hall : items.filter (passes .trace) = items := by
      apply List.filter_eq_self.mpr
      intro x _
      simp only [passes]
      cases x.level <;> decide
    rw [hall] at hpre
    have hrec : ∃ m, (serveLog cd lim env lg r)[(madeLog lg).length]? = some ⟨.trace, [(b!"service", KvValue.ofNat idx)], m⟩ := by
      rw [C120_story]
      cases hreqs : (serve cd lim env r).1 with
      | nil => exact absurd hreqs hreq
      | cons x xs =>
        have hmade : (if lg.debug then [aboutConn lg.name b!"connection made, " lg.addr] else []) = madeLog lg := rfl
        simp only [story, List.map_cons, List.mapIdx_cons, List.flatten_cons, hmade, List.append_assoc]
        rw [List.getElem?_append_right (Nat.le_refl _), Nat.sub_self, hlg]
        simp only [helloLog, List.cons_append, List.nil_append, List.getElem?_cons_zero]
        exact ⟨_, rfl⟩
    obtain ⟨m, hm⟩ := hrec
    obtain ⟨item, hitem, time, file, line, he⟩ := each2_getElem hi _ _ hm
    have hget : (Log.Spec.byThread u (Log.Spec.writes tr))[(madeLog lg).length]? = some item := by
      obtain ⟨t, ht⟩ := hpre
      rw [← ht, List.getElem?_append_left hlen] at hitem
      exact hitem
    have hin : item ∈ (Log.Spec.writes tr).map (·.2) := by
      have := List.mem_of_getElem? hget
      simp only [Log.Spec.byThread, List.mem_map, List.mem_filter] at this
      obtain ⟨p, ⟨hp1, _⟩, rfl⟩ := this
      exact List.mem_map.mpr ⟨p, hp1, rfl⟩
    refine ⟨item, hin, mixed_undeliverable hmix item ?_ ?_⟩
    · rw [he]; rfl
    · rw [he]; rfl
  refine ⟨key tr s h, fun hc hlen => ?_⟩
  obtain ⟨tr', s', h1, h2, h3⟩ := (Log.C66_order (passes .trace) progs tr s h).2.2 hc
  exact ⟨tr', s', h1, h2, key _ _ (h.trans h1) (by rw [h3]; exact hlen)⟩

/-- **C175**, what holds: with consoles only, or with files only, the consumer stays inside its vectors in every run, whatever is logged. -/
theorem C175_defined_partial {U : Unicode} (hU : LawfulUnicode U) (pathExists openOk : Str → Bool) (order : List Str → List Str)
    (horder : ∀ l, (order l).Perm l) (c c' : Config) (hslab : c.slab = []) (hfix : c.autofix pathExists = some c')
    (as : List AppenderInit) (has : c'.appenders openOk = some as) (k : Consumer) (l : Level)
    (hk : c'.startLogging U openOk order true = .value (k, l))
    (hone : (∀ a ∈ as, a.path = none) ∨ (∀ a ∈ as, a.path ≠ none)) (tr : List (Log.Act Item)) : k.calls tr k.bufs ≠ none := by
  obtain ⟨calls, h, _⟩ := calls_eq hU pathExists openOk order horder c c' hslab hfix as has k l hk tr
    (fun p _ => hone.elim .inl (fun h => .inr (.inl h)))
  rw [h]
  simp

/-! ## Cases meeting the hypotheses -/

/-- The console of the root, which is the default, and a log file for the only service: every service of this configuration other than the
root is `Mixed`. -/
example : ∃ c' as, consoleAndFile.autofix (fun _ => true) = some c' ∧ c'.appenders (fun _ => true) = some as ∧ Mixed as 1 := by
  cases hc : consoleAndFile.autofix (fun _ => true) with
  | none => exact absurd hc (by decide +kernel)
  | some c' =>
    have : (consoleAndFile.autofix (fun _ => true)).bind (fun c => c.appenders (fun _ => true)) =
        some [⟨0, u!"colored", ⟨.trace, false⟩, none, false, 0⟩, ⟨1, u!"json", ⟨.trace, false⟩, some u!"./logs//web/TRACE.log", false, 0⟩] := by
      decide +kernel
    rw [hc] at this
    refine ⟨c', _, rfl, this, ⟨_, List.mem_cons_self .., rfl⟩, ⟨_, List.mem_cons_of_mem _ (List.mem_cons_self ..), by simp⟩, ?_,
      ⟨_, List.mem_cons_of_mem _ (List.mem_cons_self ..), rfl, by decide⟩⟩
    intro a ha
    simp at ha
    subst ha
    decide

/-- A request is delivered. -/
example : (serve noCodec sampleLimits (fun _ => { sampleEnv with http := helloHttp }) (Reader.ofBytes sampleReq.encode .eof)).1.length = 1 := by
  decide +kernel

end Httpd
