import Verif.Spec.Chorus
import Verif.Props.CoreVoices
import Verif.Props.JoinLoop
import Verif.Props.TlsAccepting
/-! # C226: what the process says when its services share one runtime -/

namespace Httpd

open Spec

variable {C K : Type} {x : ChorusEnv C K} {services : List (Str × ServiceConfig)}

/-- The same environment for per-core mode. -/
def ChorusEnv.core (x : ChorusEnv C K) : CoreEnv C K := ⟨x.env, x.prints, fun _ => true, [], fun _ => []⟩

theorem ran_core (x : ChorusEnv C K) (p : Str × ServiceConfig) : x.ran p = x.core.thread p := by
  simp [ChorusEnv.ran, CoreEnv.thread, ChorusEnv.core]

theorem introduces_core (x : ChorusEnv C K) (p : Str × ServiceConfig) (l : Str) : Introduces x.env x.prints p l ↔ CoreAnnounces x.core p l :=
  ⟨fun h => ⟨rfl, h.bound, h.tls, h.printed, h.line⟩, fun h => ⟨h.bound, h.tls, h.printed, h.line⟩⟩

theorem ran_line (x : ChorusEnv C K) (p : Str × ServiceConfig) (l : Str) : (x.ran p).1 = [l] ↔ Introduces x.env x.prints p l := by
  rw [ran_core, introduces_core]; exact thread_line x.core p l

theorem ran_one (x : ChorusEnv C K) (p : Str × ServiceConfig) : (x.ran p).1 = [] ∨ ∃ l, (x.ran p).1 = [l] := by
  rw [ran_core]; exact thread_one x.core p

theorem loops_no_panic {C : Type} (tls : Option C) (timeout : Nat) (i : Bool) (es : List AcceptEvent) : (acceptLoop tls timeout i es).2 ≠ .panic := by
  have hp : ∀ es : List AcceptEvent, (plainLoop es).2 ≠ .panic := by
    intro es
    induction es with
    | nil => simp [plainLoop]
    | cons e es ih => cases e <;> simp [plainLoop, ih]
  have ht : ∀ es : List AcceptEvent, (tlsLoop timeout es).2 ≠ .panic := by
    intro es
    induction es with
    | nil => simp [tlsLoop]
    | cons e es ih =>
      cases e with
      | conn id hs => simp only [tlsLoop]; repeat' split
                      all_goals exact ih
      | acceptErr => exact ih
      | ctrlC => simp [tlsLoop]
  simp only [acceptLoop]
  cases i with
  | false => simp
  | true => cases tls with
    | none => exact hp es
    | some _ => exact ht es

theorem ran_panic (x : ChorusEnv C K) (p : Str × ServiceConfig) : (x.ran p).2 = .panic ↔ Falls x.env x.prints p := by
  constructor
  · intro h
    simp only [ChorusEnv.ran, ProcEnv.runPrinting, ServiceConfig.runPrinting] at h
    split at h
    · cases h
    · rename_i hb
      split at h
      · cases h
      · rename_i t ht
        refine ⟨by simpa using hb, ⟨t, ht⟩, ?_⟩
        split at h
        · rename_i hs; left; simpa using hs
        · rename_i hs
          right
          have hb' : x.env.bindOk p.1 = true := by simpa using hb
          simp only [ServiceConfig.run, runService, hb', ht] at h
          cases hk : p.2.service with
          | forward => exact .inl rfl
          | upstream => exact .inr rfl
          | helloWorld => simp [hk, ServiceSetting.kind] at h; exact absurd h (loops_no_panic _ _ _ _)
          | fileSystem root => simp [hk, ServiceSetting.kind] at h; exact absurd h (loops_no_panic _ _ _ _)
  · intro h
    rw [ran_core]
    exact thread_panics x.core p ⟨rfl, h.1, h.2.1, h.2.2⟩

/-! ## Traces -/

/-- The actions of the join loop. -/
def chorusJoins : List ChorusAct → List JoinAct
  | [] => []
  | .finish i :: rest => .finish i :: chorusJoins rest
  | .join i :: rest => .join i :: chorusJoins rest
  | .leave :: rest => .exit :: chorusJoins rest
  | _ :: rest => chorusJoins rest

theorem chorusJoins_append (a b : List ChorusAct) : chorusJoins (a ++ b) = chorusJoins a ++ chorusJoins b := by
  induction a with
  | nil => rfl
  | cons y a ih => cases y <;> simp [chorusJoins, ih]

theorem chorusJoins_finish (tr : List ChorusAct) (i : Nat) : JoinAct.finish i ∈ chorusJoins tr ↔ ChorusAct.finish i ∈ tr := by
  induction tr with
  | nil => simp [chorusJoins]
  | cons y tr ih => cases y <;> simp [chorusJoins, ih]

theorem chorus_joins {tr : List ChorusAct} {s : Chorus} (h : ChorusRun x services (.start (services.map x.task)) tr s) :
    JoinRun (services.map x.task) (.start (services.map x.task)) (chorusJoins tr) s.join := by
  induction h with
  | nil => exact .nil
  | snoc _ hs ih =>
    rw [chorusJoins_append]
    cases hs with
    | finish i p j _ _ _ hj => exact .snoc ih hj
    | join i j _ hj => exact .snoc ih hj
    | leave j _ hj => exact .snoc ih hj
    | _ => simpa [chorusJoins] using ih

/-- What the main thread adds to standard error. -/
def mainErr (x : ChorusEnv C K) (s : Chorus) : List Str :=
  if s.main = .panicked ∨ s.status = some 101 then [x.mainText] else if s.status = some 1 then [u!"Error: " ++ x.runtimeText] else []

/-- What is true after every action. -/
structure ChorusInv (x : ChorusEnv C K) (services : List (Str × ServiceConfig)) (tr : List ChorusAct) (s : Chorus) : Prop where
  nodup : s.said.Nodup
  says : ∀ i, i ∈ s.said ↔ ChorusAct.say i ∈ tr
  lines : ∃ lines, Each2 (fun i line => ∃ p, services[i]? = some p ∧ (x.ran p).1 = [line]) s.said lines ∧
    s.out = lines ++ if s.main = .bye ∨ s.status = some 0 then [byeLine] else []
  fallen : ∃ fallen : List Nat, fallen.Nodup ∧
    (∀ i, i ∈ fallen ↔ ChorusAct.finish i ∈ tr ∧ ∃ p, services[i]? = some p ∧ (x.ran p).2 = .panic) ∧
    s.err = (fallen.filterMap (fun i => services[i]?)).map (fun p => x.taskText p.1) ++ mainErr x s
  phase : match s.main with
    | .building => s.join = .start (services.map x.task) ∧ tr = [] ∧ s.status = none
    | .joining => x.env.runtime = .value () ∧ s.join.returned = false ∧ s.status = none
    | .returned => x.env.runtime = .value () ∧ s.join.returned = true ∧ s.status = none
    | .bye => x.env.runtime = .value () ∧ s.join.returned = true ∧ s.status = none ∧ x.prints.bye = true
    | .refused => x.env.runtime = .error ∧ tr = [.buildErr] ∧ s.status = none
    | .panicked => s.status = none ∧ (x.env.runtime = .panic ∧ tr = [.buildPanic] ∨ x.env.runtime = .value () ∧ s.join.returned = true ∧ x.prints.bye = false)
    | .exited => s.status = some 0 ∧ x.env.runtime = .value () ∧ s.join.returned = true ∧ x.prints.bye = true ∨
        s.status = some 1 ∧ x.env.runtime = .error ∧ tr = [.buildErr, .report] ∨
        s.status = some 101 ∧ (x.env.runtime = .panic ∧ tr = [.buildPanic, .exit] ∨ x.env.runtime = .value () ∧ s.join.returned = true ∧ x.prints.bye = false)
  ended : ∀ i p, ChorusAct.finish i ∈ tr → services[i]? = some p → (x.ran p).1 ≠ [] → i ∈ s.said
  built : ChorusAct.build ∈ tr ↔ s.main ≠ .building ∧ x.env.runtime = .value ()
  work : tr.length + joinWork s.join + (match s.main with
    | .building => 4 | .joining => 3 | .returned => 3 | .bye => 2 | .refused => 2 | .panicked => 2 | .exited => 1) ≤
    s.said.length + 2 * services.length + 5

theorem chorus_inv {tr : List ChorusAct} {s : Chorus} (h : ChorusRun x services (.start (services.map x.task)) tr s) : ChorusInv x services tr s := by
  induction h with
  | nil =>
    have hw := (join_inv (ts := services.map x.task) .nil).work
    simp only [List.length_map, List.length_nil] at hw
    refine ⟨.nil, by simp [Chorus.start], ⟨[], .nil, rfl⟩, ⟨[], .nil, by simp, by simp [Chorus.start, mainErr]⟩, ⟨rfl, rfl, rfl⟩, by simp, by simp [Chorus.start], ?_⟩
    simp only [Chorus.start, List.length_nil]; omega
  | @snoc tr s u a hr hs ih =>
    have hm := ih.phase
    obtain ⟨lines, hl, ho⟩ := ih.lines
    obtain ⟨fallen, hf1, hf2, hf3⟩ := ih.fallen
    have hw := ih.work
    have hlen : (tr ++ [a]).length = tr.length + 1 := by simp
    cases hs with
    | build h1 h2 =>
      simp only [h1] at hm hw
      obtain ⟨hj, rfl, hst⟩ := hm
      refine ⟨ih.nodup, by simpa using ih.says, ⟨lines, hl, by simpa [h1] using ho⟩, ⟨fallen, hf1, by simpa using hf2, by simpa [mainErr, h1] using hf3⟩, ⟨h2, by rw [hj]; rfl, hst⟩,
        by simp, by simp [h2], ?_⟩
      simp only [hlen]; omega
    | buildErr h1 h2 =>
      simp only [h1] at hm hw
      obtain ⟨hj, rfl, hst⟩ := hm
      refine ⟨ih.nodup, by simpa using ih.says, ⟨lines, hl, by simpa [h1] using ho⟩, ⟨fallen, hf1, by simpa using hf2, by simpa [mainErr, h1] using hf3⟩, ⟨h2, rfl, hst⟩,
        by simp, by simp [h2], ?_⟩
      simp only [hlen]; omega
    | buildPanic h1 h2 =>
      simp only [h1] at hm hw
      obtain ⟨hj, rfl, hst⟩ := hm
      refine ⟨ih.nodup, by simpa using ih.says, ⟨lines, hl, by simpa [h1] using ho⟩, ⟨fallen, hf1, by simpa using hf2, ?_⟩, ⟨hst, .inl ⟨h2, rfl⟩⟩,
        by simp, by simp [h2], ?_⟩
      · simp [hf3, mainErr, h1, hst]
      · simp only [hlen]; omega
    | say i p line h1 hrun hp hli hni =>
      simp only [h1] at hm hw
      refine ⟨?_, ?_, ⟨lines ++ [line], each2_snoc hl ⟨p, hp, hli⟩, ?_⟩, ⟨fallen, hf1, by simpa using hf2, by simpa [mainErr, h1] using hf3⟩, by simpa only [h1] using hm,
        ?_, by simpa using ih.built, ?_⟩
      · rw [List.nodup_append]
        exact ⟨ih.nodup, by simp, fun a ha b hb => by rintro rfl; simp at hb; exact hni (hb ▸ ha)⟩
      · intro j; simp [ih.says j]
      · simp [ho, h1, hm.2.2]
      · intro j q hj hq hne
        exact List.mem_append_left _ (ih.ended j q (by simpa using hj) hq hne)
      · simp only [h1, hlen, List.length_append, List.length_singleton]; omega
    | finish i p j h1 hp hsaid hj =>
      simp only [h1] at hm hw
      have hwork := hj.work
      have hnew : ChorusAct.finish i ∉ tr := by
        intro hin
        obtain ⟨o, ho'⟩ := (join_finished (chorus_joins hr) i).1 ((chorusJoins_finish tr i).2 hin)
        cases hj with
        | finish _ _ _ _ hi _ => rw [hi] at ho'; rcases ho' with h | h <;> cases h
      have hret : j.returned = false := by cases hj; exact hm.2.1
      refine ⟨ih.nodup, by simpa using ih.says, ⟨lines, hl, by simpa [h1] using ho⟩, ?_, by simp only [h1]; exact ⟨hm.1, hret, hm.2.2⟩, ?_, by simpa using ih.built, ?_⟩
      · by_cases hpan : (x.ran p).2 = .panic
        · refine ⟨fallen ++ [i], ?_, ?_, ?_⟩
          · rw [List.nodup_append]
            refine ⟨hf1, by simp, fun a ha b hb => ?_⟩
            rintro rfl
            simp at hb
            exact hnew (hb ▸ ((hf2 a).1 ha).1)
          · intro k
            rw [List.mem_append, hf2 k]
            simp only [List.mem_append, List.mem_singleton, ChorusAct.finish.injEq]
            constructor
            · rintro (⟨h, h'⟩ | rfl)
              · exact ⟨.inl h, h'⟩
              · exact ⟨.inr rfl, p, hp, hpan⟩
            · rintro ⟨h | h, h'⟩
              · exact .inl ⟨h, h'⟩
              · exact .inr h
          · simp only [hpan, if_true, hf3, mainErr, h1, hm.2.2]
            simp [hp]
        · refine ⟨fallen, hf1, ?_, by simp only [hpan, if_false, List.append_nil, hf3]; rfl⟩
          intro k
          rw [hf2 k]
          simp only [List.mem_append, List.mem_singleton, ChorusAct.finish.injEq]
          constructor
          · rintro ⟨h, h'⟩; exact ⟨.inl h, h'⟩
          · rintro ⟨h | rfl, q, hq, hqp⟩
            · exact ⟨h, q, hq, hqp⟩
            · rw [hp] at hq; cases hq; exact absurd hqp hpan
      · intro k q hk hq hne
        simp only [List.mem_append, List.mem_singleton, ChorusAct.finish.injEq] at hk
        rcases hk with hk | rfl
        · exact ih.ended k q hk hq hne
        · rw [hp] at hq; cases hq; exact hsaid hne
      · simp only [h1, hlen]; omega
    | join i j h1 hj =>
      simp only [h1] at hm hw
      have hwork := hj.work
      have hret : j.returned = false := by cases hj; exact hm.2.1
      refine ⟨ih.nodup, by simpa using ih.says, ⟨lines, hl, by simpa [h1] using ho⟩, ⟨fallen, hf1, by simpa using hf2, by simpa [mainErr, h1] using hf3⟩, by simp only [h1]; exact ⟨hm.1, hret, hm.2.2⟩,
        fun k q hk => ih.ended k q (by simpa using hk), by simpa using ih.built, ?_⟩
      simp only [h1, hlen]; omega
    | leave j h1 hj =>
      simp only [h1] at hm hw
      have hwork := hj.work
      have hret : j.returned = true := by cases hj; rfl
      have hb := ih.built
      refine ⟨ih.nodup, by simpa using ih.says, ⟨lines, hl, by simpa [h1] using ho⟩, ⟨fallen, hf1, by simpa using hf2, by simpa [mainErr, h1] using hf3⟩, ⟨hm.1, hret, hm.2.2⟩,
        fun k q hk => ih.ended k q (by simpa using hk), by simpa [h1] using ih.built, ?_⟩
      simp only [hlen]; omega
    | bye h1 h2 =>
      simp only [h1] at hm hw
      refine ⟨ih.nodup, by simpa using ih.says, ⟨lines, hl, ?_⟩, ⟨fallen, hf1, by simpa using hf2, by simpa [mainErr, h1] using hf3⟩, ⟨hm.1, hm.2.1, hm.2.2, h2⟩,
        fun k q hk => ih.ended k q (by simpa using hk), by simpa [h1] using ih.built, ?_⟩
      · simp [ho, h1, hm.2.2, byeLine]
      · simp only [hlen]; omega
    | byeFail h1 h2 =>
      simp only [h1] at hm hw
      refine ⟨ih.nodup, by simpa using ih.says, ⟨lines, hl, by simpa [h1] using ho⟩, ⟨fallen, hf1, by simpa using hf2, ?_⟩, ⟨hm.2.2, .inr ⟨hm.1, hm.2.1, h2⟩⟩,
        fun k q hk => ih.ended k q (by simpa using hk), by simpa [h1] using ih.built, ?_⟩
      · simp [hf3, mainErr, h1, hm.2.2]
      · simp only [hlen]; omega
    | report h1 =>
      simp only [h1] at hm hw
      obtain ⟨hrt, rfl, hst⟩ := hm
      refine ⟨ih.nodup, by simpa using ih.says, ⟨lines, hl, by simpa [h1, hst] using ho⟩, ⟨fallen, hf1, by simpa using hf2, ?_⟩, .inr (.inl ⟨rfl, hrt, rfl⟩),
        by simp, by simp [hrt], ?_⟩
      · simp [hf3, mainErr, h1, hst]
      · simp only [hlen]; omega
    | exit code h1 =>
      rcases h1 with ⟨h1, rfl⟩ | ⟨h1, rfl⟩
      · simp only [h1] at hm hw
        refine ⟨ih.nodup, by simpa using ih.says, ⟨lines, hl, by simpa [h1] using ho⟩, ⟨fallen, hf1, by simpa using hf2, ?_⟩, .inl ⟨rfl, hm.1, hm.2.1, hm.2.2.2⟩,
          fun k q hk => ih.ended k q (by simpa using hk), by simpa [h1] using ih.built, ?_⟩
        · simp [hf3, mainErr, h1, hm.2.2.1]
        · simp only [hlen]; omega
      · simp only [h1] at hm hw
        refine ⟨ih.nodup, by simpa using ih.says, ⟨lines, hl, by simpa [h1, hm.1] using ho⟩, ⟨fallen, hf1, by simpa using hf2, ?_⟩, .inr (.inr ⟨rfl, ?_⟩),
          fun k q hk => ih.ended k q (by simpa using hk), by simpa [h1] using ih.built, ?_⟩
        · simp [hf3, mainErr, h1]
        · rcases hm.2 with ⟨h2, rfl⟩ | h2
          · exact .inl ⟨h2, rfl⟩
          · exact .inr h2
        · simp only [hlen]; omega

/-- Records and end of the join loop when nothing can happen any more, in terms of an order of the tasks. -/
theorem join_order {ts : List Finished} {tr : List JoinAct} {s : JoinState} (h : JoinRun ts (.start ts) tr s) (hst : s.stuck ts) :
    ∃ l0 : List Finished, l0.Perm ts ∧ l0.flatMap joinRecord = s.log ∧ l0.any (fun t => decide (t.result = .waiting)) = !s.returned := by
  have hinv := join_inv h
  obtain ⟨_, h2⟩ := stuck_all h hst
  have hp := joined_perm h hst
  refine ⟨_, hp, ?_, ?_⟩
  · have hwait : (ts.filter (fun t => t.result = .waiting)).flatMap joinRecord = [] := by
      rw [List.flatMap_eq_nil_iff]
      intro t ht
      have := (List.mem_filter.mp ht).2
      simp only [decide_eq_true_eq] at this
      simp [joinRecord, this]
    rw [List.flatMap_append, hwait, List.append_nil, hinv.log]
  · rw [Bool.eq_iff_iff, Bool.not_eq_true', ← Bool.not_eq_true, h2, List.any_eq_true]
    constructor
    · rintro ⟨t, ht, hw⟩ hall
      exact hall t (hp.mem_iff.mp ht) (of_decide_eq_true hw)
    · intro hn
      simp only [Classical.not_forall, Classical.not_not] at hn
      obtain ⟨t, ht, hw⟩ := hn
      exact ⟨t, hp.mem_iff.mpr ht, decide_eq_true hw⟩

/-- The lines of the services in the order in which they were said, and in that of the configuration. -/
theorem said_perm (x : ChorusEnv C K) (services : List (Str × ServiceConfig)) (said : List Nat) (lines : List Str) (hnd : said.Nodup)
    (hl : Each2 (fun i line => ∃ p, services[i]? = some p ∧ (x.ran p).1 = [line]) said lines)
    (hall : ∀ i p, services[i]? = some p → (x.ran p).1 ≠ [] → i ∈ said) : (services.flatMap (fun p => (x.ran p).1)).Perm lines := by
  let g : Nat → List Str := fun i => ((services[i]?).map (fun p => (x.ran p).1)).getD []
  have h1 : lines = said.flatMap g := by
    clear hnd hall
    induction hl with
    | nil => rfl
    | cons h _ ih =>
      obtain ⟨p, hp, hpl⟩ := h
      rw [List.flatMap_cons, ← ih]
      simp [g, hp, hpl]
  have h2 : ∀ l : List Nat, (l.filter (fun i => g i ≠ [])).flatMap g = l.flatMap g := by
    intro l
    induction l with
    | nil => rfl
    | cons i l ih =>
      by_cases hi : g i = []
      · rw [List.filter_cons_of_neg (by simp [hi]), ih, List.flatMap_cons, hi]; rfl
      · rw [List.filter_cons_of_pos (by simp [hi]), List.flatMap_cons, ih, List.flatMap_cons]
  have h3 : (List.range services.length).flatMap g = services.flatMap (fun p => (x.ran p).1) := by
    have : (List.range services.length).flatMap g = ((List.range services.length).map (fun i => services[i]?)).flatMap (fun o => (o.map (fun p => (x.ran p).1)).getD []) := by
      rw [List.flatMap_map]
    rw [this, range_get, List.flatMap_map]
    rfl
  have hin : ∀ i ∈ said, ∃ p, services[i]? = some p ∧ (x.ran p).1 ≠ [] := by
    intro i hi
    obtain ⟨l, _, p, hp, hpl⟩ := each2_mem_left hl i hi
    exact ⟨p, hp, by simp [hpl]⟩
  have h4 : said.Perm ((List.range services.length).filter (fun i => g i ≠ [])) := by
    rw [List.perm_ext_iff_of_nodup hnd (List.Pairwise.filter _ List.nodup_range)]
    intro i
    simp only [List.mem_filter, List.mem_range, decide_eq_true_eq]
    constructor
    · intro hi
      obtain ⟨p, hp, hne⟩ := hin i hi
      exact ⟨(List.getElem?_eq_some_iff.1 hp).1, by simpa [g, hp] using hne⟩
    · rintro ⟨hlt, hne⟩
      refine hall i services[i] (List.getElem?_eq_getElem hlt) ?_
      simpa [g, List.getElem?_eq_getElem hlt] using hne
  rw [h1, ← h3, ← h2]
  exact (h4.flatMap_right g).symm

theorem nodup_length {l : List Nat} {n : Nat} (h : l.Nodup) (hn : ∀ i ∈ l, i < n) : l.length ≤ n := by
  have := nodup_subset_length h (b := List.range n) (fun i hi => List.mem_range.2 (hn i hi))
  simpa using this

/-- All services have ended when the join loop has been left. -/
theorem all_finished {tr : List ChorusAct} {s : Chorus} (h : ChorusRun x services (.start (services.map x.task)) tr s) (hr : s.join.returned = true) :
    ∀ i, i < services.length → ChorusAct.finish i ∈ tr := by
  intro i hi
  have hj := chorus_joins h
  have hinv := join_inv hj
  have hlt : i < s.join.tasks.length := by rw [hinv.length, List.length_map]; exact hi
  obtain ⟨o, ho⟩ := hinv.ret hr _ (List.getElem_mem hlt)
  exact (chorusJoins_finish tr i).1 ((join_finished hj i).2 ⟨o, .inr (by rw [List.getElem?_eq_getElem hlt, ho])⟩)

/-- While the runtime is there, a service that has not ended is running. -/
theorem still_running {tr : List ChorusAct} {s : Chorus} (h : ChorusRun x services (.start (services.map x.task)) tr s) (i : Nat) (hi : i < services.length)
    (hn : ChorusAct.finish i ∉ tr) : s.join.tasks[i]? = some .running ∧ s.join.returned = false := by
  have hj := chorus_joins h
  have hinv := join_inv hj
  have hlt : i < s.join.tasks.length := by rw [hinv.length, List.length_map]; exact hi
  constructor
  · cases hc : s.join.tasks[i] with
    | running => rw [List.getElem?_eq_getElem hlt, hc]
    | ended o => exact absurd ((chorusJoins_finish tr i).1 ((join_finished hj i).2 ⟨o, .inl (by rw [List.getElem?_eq_getElem hlt, hc])⟩)) hn
    | joined o => exact absurd ((chorusJoins_finish tr i).1 ((join_finished hj i).2 ⟨o, .inr (by rw [List.getElem?_eq_getElem hlt, hc])⟩)) hn
  · cases hr : s.join.returned with
    | false => rfl
    | true => exact absurd (all_finished h hr i hi) hn

theorem chorus_length {tr : List ChorusAct} {s : Chorus} (h : ChorusRun x services (.start (services.map x.task)) tr s) :
    tr.length ≤ 3 * services.length + 4 := by
  have hi := chorus_inv h
  obtain ⟨lines, hl, _⟩ := hi.lines
  have := nodup_length hi.nodup (n := services.length) (fun i hi => by
    obtain ⟨l, _, p, hp, _⟩ := each2_mem_left hl i hi
    exact (List.getElem?_eq_some_iff.1 hp).1)
  have hw := hi.work
  split at hw <;> omega

theorem ChorusRun.trans {s t u : Chorus} {a b : List ChorusAct} (h1 : ChorusRun x services s a t) (h2 : ChorusRun x services t b u) :
    ChorusRun x services s (a ++ b) u := by
  induction h2 with
  | nil => simpa using h1
  | snoc _ hs ih => rw [← List.append_assoc]; exact .snoc ih hs

theorem chorus_completes (m : Nat) {tr : List ChorusAct} {s : Chorus} (h : ChorusRun x services (.start (services.map x.task)) tr s)
    (hm : 3 * services.length + 4 ≤ tr.length + m) : ∃ tr' s', ChorusRun x services s tr' s' ∧ ∀ a s'', ¬ ChorusStep x services s' a s'' := by
  induction m generalizing tr s with
  | zero =>
    refine ⟨[], s, .nil, fun a s'' hs => ?_⟩
    have := chorus_length (.snoc h hs)
    simp only [List.length_append, List.length_singleton] at this
    omega
  | succ m ih =>
    by_cases hs : ∃ a s', ChorusStep x services s a s'
    · obtain ⟨a, s', hs⟩ := hs
      obtain ⟨tr', s'', h1, h2⟩ := ih (.snoc h hs) (by simp only [List.length_append, List.length_singleton]; omega)
      exact ⟨[a] ++ tr', s'', ChorusRun.trans (.snoc .nil hs) h1, h2⟩
    · exact ⟨[], s, .nil, fun a s' h => hs ⟨a, s', h⟩⟩

/-! ## C226 -/

/-- **C226**, at every moment of every execution. Standard output has one line for each service that has begun to listen and printed it, with where and what it serves, in whatever order; then
nothing, or `httpd: shutdown`, and that only when every service has ended and every service that got as far as listening has its line. A service that is to say its line and has not can say it at once, whatever
the others do, and does not end before it has. Standard error has one message for each service that has panicked, in the order in which they did, and at most one more, of the
main thread. -/
theorem C226_says (x : ChorusEnv C K) (services : List (Str × ServiceConfig)) (tr : List ChorusAct) (s : Chorus)
    (h : ChorusRun x services (.start (services.map x.task)) tr s) :
    (∃ (who : List Nat) (lines : List Str), who.Nodup ∧ (∀ i, i ∈ who ↔ ChorusAct.say i ∈ tr) ∧
      Each2 (fun i line => ∃ p, services[i]? = some p ∧ Introduces x.env x.prints p line) who lines ∧
      (s.out = lines ∨ s.out = lines ++ [u!"httpd: shutdown"] ∧ (∀ i, i < services.length → ChorusAct.finish i ∈ tr) ∧
        ∀ i p line, services[i]? = some p → Introduces x.env x.prints p line → i ∈ who)) ∧
    (∀ i p line, ChorusAct.build ∈ tr → services[i]? = some p → Introduces x.env x.prints p line →
      (ChorusAct.say i ∉ tr → ∃ s', ChorusStep x services s (.say i) s' ∧ s'.out = s.out ++ [line]) ∧
      (ChorusAct.finish i ∈ tr → ChorusAct.say i ∈ tr)) ∧
    (∃ (fallen : List Nat) (last : List Str), fallen.Nodup ∧
      (∀ i, i ∈ fallen ↔ ChorusAct.finish i ∈ tr ∧ ∃ p, services[i]? = some p ∧ Falls x.env x.prints p) ∧
      s.err = (fallen.filterMap (fun i => services[i]?)).map (fun p => x.taskText p.1) ++ last ∧
      (last = [] ∨ last = [x.mainText] ∨ last = [u!"Error: " ++ x.runtimeText])) := by
  have hi := chorus_inv h
  obtain ⟨lines, hl, ho⟩ := hi.lines
  refine ⟨⟨s.said, lines, hi.nodup, hi.says, ?_, ?_⟩, ?_, ?_⟩
  · clear ho
    generalize s.said = said at hl
    induction hl with
    | nil => exact .nil
    | cons h _ ih =>
      obtain ⟨p, hp, hpl⟩ := h
      exact .cons ⟨p, hp, (ran_line x p _).1 hpl⟩ ih
  · by_cases hb : s.main = .bye ∨ s.status = some 0
    · rw [if_pos hb] at ho
      have hret : s.join.returned = true := by
        have hm := hi.phase
        rcases hb with hb | hb
        · rw [hb] at hm; exact hm.2.1
        · cases hmain : s.main <;> simp only [hmain, hb] at hm
          all_goals first | exact absurd hm.2.2 (by simp) | exact absurd hm.2.2.1 (by simp) | exact absurd hm.1 (by simp) | skip
          rcases hm with hm | hm | hm
          · exact hm.2.2.1
          · exact absurd hm.1 (by simp)
          · exact absurd hm.1 (by simp)
      refine .inr ⟨ho, all_finished h hret, fun i p line hp hin => ?_⟩
      exact hi.ended i p (all_finished h hret i (List.getElem?_eq_some_iff.1 hp).1) hp (by rw [(ran_line x p line).2 hin]; simp)
    · rw [if_neg hb, List.append_nil] at ho
      exact .inl ho
  · intro i p line hb hp hin
    have hline := (ran_line x p line).2 hin
    have hlt := (List.getElem?_eq_some_iff.1 hp).1
    have hfin : ChorusAct.finish i ∈ tr → ChorusAct.say i ∈ tr := fun hf => (hi.says i).1 (hi.ended i p hf hp (by rw [hline]; simp))
    refine ⟨fun hns => ?_, hfin⟩
    obtain ⟨hrun, hret⟩ := still_running h i hlt (fun hf => hns (hfin hf))
    have hmain : s.main = .joining := by
      have hm := hi.phase
      obtain ⟨hb1, hb2⟩ := hi.built.1 hb
      cases hmain : s.main <;> simp only [hmain, hret, hb2] at hm <;> simp_all
    exact ⟨_, .say s i p line hmain hrun hp hline (fun hc => hns ((hi.says i).1 hc)), rfl⟩
  · obtain ⟨fallen, hf1, hf2, hf3⟩ := hi.fallen
    refine ⟨fallen, mainErr x s, hf1, ?_, hf3, ?_⟩
    · intro i
      rw [hf2 i]
      simp only [ran_panic]
    · rw [mainErr]
      split
      · exact .inr (.inl rfl)
      · split
        · exact .inr (.inr rfl)
        · exact .inl rfl

/-- **C226**, the exit status: 0 exactly if `httpd: shutdown` is there; 1 exactly if the runtime could not be built, and then no service has been started, nothing has been said, and standard error has
`Error: ` and the reason only; 101 exactly if the main thread has panicked - while building the runtime, when nothing has been said, or at its last line, when all services have ended -, and then its message is the last on
standard error. There is no other. -/
theorem C226_status (x : ChorusEnv C K) (services : List (Str × ServiceConfig)) (tr : List ChorusAct) (s : Chorus)
    (h : ChorusRun x services (.start (services.map x.task)) tr s) (code : Nat) (hc : s.status = some code) :
    code = 0 ∧ x.env.runtime = .value () ∧ s.out.getLast? = some u!"httpd: shutdown" ∨
    code = 1 ∧ x.env.runtime = .error ∧ s.out = [] ∧ s.err = [u!"Error: " ++ x.runtimeText] ∨
    code = 101 ∧ u!"httpd: shutdown" ∉ s.out ∧ s.err.getLast? = some x.mainText ∧
      (x.env.runtime = .panic ∧ s.out = [] ∨
        x.env.runtime = .value () ∧ x.prints.bye = false ∧ ∀ i, i < services.length → ChorusAct.finish i ∈ tr) := by
  have hi := chorus_inv h
  obtain ⟨lines, hl, ho⟩ := hi.lines
  obtain ⟨fallen, hf1, hf2, hf3⟩ := hi.fallen
  have hmain : s.main = .exited := by
    have hm := hi.phase
    cases hmain : s.main <;> simp only [hmain, hc] at hm <;> simp_all
  have hm := hi.phase
  simp only [hmain] at hm
  have hquiet : ∀ a b, tr = [a, b] → (∀ i, a ≠ .say i) → (∀ i, b ≠ .say i) → s.said = [] := by
    intro a b ht ha hb
    rw [List.eq_nil_iff_forall_not_mem]
    intro i hin
    have := (hi.says i).1 hin
    rw [ht] at this
    simp only [List.mem_cons, List.not_mem_nil, or_false] at this
    rcases this with h | h
    · exact ha i h.symm
    · exact hb i h.symm
  have hnil : s.said = [] → lines = [] := by intro h0; rw [h0] at hl; cases hl; rfl
  have hnb : u!"httpd: shutdown" ∉ lines := by
    intro hin
    obtain ⟨k, hk⟩ := List.mem_iff_getElem?.1 hin
    clear ho hf3
    generalize s.said = said at hl
    have : ∀ l ∈ lines, l ≠ byeLine := by
      clear hk hin hnil
      induction hl with
      | nil => simp
      | cons h _ ih =>
        obtain ⟨p, hp, hpl⟩ := h
        intro l hl
        rcases List.mem_cons.1 hl with rfl | hl
        · exact announce_ne_bye (x := x.core) ((introduces_core x p _).1 ((ran_line x p _).1 hpl))
        · exact ih l hl
    exact this _ hin rfl
  rcases hm with ⟨h1, h2, h3, h4⟩ | ⟨h1, h2, h3⟩ | ⟨h1, h2⟩
  · rw [h1] at hc
    cases hc
    rw [if_pos (.inr h1)] at ho
    exact .inl ⟨rfl, h2, by rw [ho]; simp [byeLine]⟩
  · rw [h1] at hc
    cases hc
    refine .inr (.inl ⟨rfl, h2, ?_, ?_⟩)
    · rw [ho, hnil (hquiet _ _ h3 (by simp) (by simp)), h1, hmain]; simp
    · have : fallen = [] := by
        rw [List.eq_nil_iff_forall_not_mem]
        intro i hin
        have := ((hf2 i).1 hin).1
        rw [h3] at this
        simp at this
      rw [hf3, this]
      simp [mainErr, h1, hmain]
  · rw [h1] at hc
    cases hc
    have hout : s.out = lines := by rw [ho, h1, hmain]; simp
    refine .inr (.inr ⟨rfl, by rw [hout]; exact hnb, by rw [hf3, mainErr, h1]; simp, ?_⟩)
    rcases h2 with ⟨h2, h3⟩ | ⟨h2, h3, h4⟩
    · exact .inl ⟨h2, by rw [hout, hnil (hquiet _ _ h3 (by simp) (by simp))]⟩
    · exact .inr ⟨h2, h4, all_finished h h3⟩

/-- **C226**, in the end: no execution has more than three actions for each service and four others. Every execution can be continued until nothing can happen any more; then the process
has ended unless the runtime is there and some service runs on, and lines, records and exit status are those that the description of `main` as a function (C194, C195, C197) gives for some order of the services, the lines up to their order. -/
theorem C226_in_the_end (x : ChorusEnv C K) (hpr : x.prints.name = true ∧ x.prints.pid = true) (services : List (Str × ServiceConfig)) (tr : List ChorusAct) (s : Chorus)
    (h : ChorusRun x services (.start (services.map x.task)) tr s) :
    tr.length ≤ 3 * services.length + 4 ∧
    (∃ tr' s', ChorusRun x services s tr' s' ∧ ∀ a s'', ¬ ChorusStep x services s' a s'') ∧
    ((∀ a s'', ¬ ChorusStep x services s a s'') →
      (s.status = none ↔ x.env.runtime = .value () ∧ ∃ p ∈ services, (x.ran p).2 = .waiting) ∧
      ∃ order : List Finished → List Finished, (∀ l, (order l).Perm l) ∧ ∀ pid, ∃ o,
        mainPrinting { x.env with order := order } pid x.prints (.serving services) = o ∧
        o.said.Perm ((u!"httpd: load configuration ok, pid: " ++ pid) :: s.out) ∧ o.records = s.join.log ∧
        o.exit = (match s.status with | none => .running | some code => .status code)) := by
  refine ⟨chorus_length h, chorus_completes _ h (Nat.le_add_left _ _), fun hstuck => ?_⟩
  have hi := chorus_inv h
  have hj := chorus_joins h
  obtain ⟨lines, hl, ho⟩ := hi.lines
  have hm := hi.phase
  have htasks : ∀ (r : Outcome Unit) (order : List Finished → List Finished), (services.map (fun p => (p.1, ProcEnv.runPrinting { x.env with runtime := r, order := order } x.prints p))).map
      (fun r => (⟨r.2.2.2, x.env.text r.1 r.2.2.2⟩ : Finished)) = services.map x.task := by
    intro r order
    rw [List.map_map]
    rfl
  have hsaid : ∀ (r : Outcome Unit) (order : List Finished → List Finished), (services.map (fun p => (p.1, ProcEnv.runPrinting { x.env with runtime := r, order := order } x.prints p))).flatMap (·.2.1) =
      services.flatMap (fun p => (x.ran p).1) := by
    intro r order
    rw [List.flatMap_map]
    rfl
  -- with a runtime, in a state in which the loop is stuck and all lines are said
  have key : x.env.runtime = .value () → s.join.stuck (services.map x.task) → (∀ i p, services[i]? = some p → (x.ran p).1 ≠ [] → i ∈ s.said) →
      (s.status = none ↔ s.join.returned = false) →
      (s.join.returned = true → s.status = (if x.prints.bye then some 0 else some 101)) → s.main ≠ .bye →
      (s.status = none ↔ x.env.runtime = .value () ∧ ∃ p ∈ services, (x.ran p).2 = .waiting) ∧
      ∃ order : List Finished → List Finished, (∀ l, (order l).Perm l) ∧ ∀ pid, ∃ o,
        mainPrinting { x.env with order := order } pid x.prints (.serving services) = o ∧
        o.said.Perm ((u!"httpd: load configuration ok, pid: " ++ pid) :: s.out) ∧ o.records = s.join.log ∧
        o.exit = (match s.status with | none => .running | some code => .status code) := by
    intro hrt hst hall hnone hsome hnb
    obtain ⟨l0, hp0, hlog, hany⟩ := join_order hj hst
    have hperm := said_perm x services s.said lines hi.nodup hl hall
    have hret := (stuck_all hj hst).2
    refine ⟨?_, fun l => if l = services.map x.task then l0 else l, ?_, ?_⟩
    · rw [hnone, ← Bool.not_eq_true, hret]
      constructor
      · intro hn
        simp only [Classical.not_forall, Classical.not_not] at hn
        obtain ⟨t, ht, hw⟩ := hn
        obtain ⟨p, hp, rfl⟩ := List.mem_map.1 ht
        exact ⟨hrt, p, hp, hw⟩
      · rintro ⟨_, p, hp, hw⟩ hall
        exact hall _ (List.mem_map_of_mem hp) hw
    · intro l
      by_cases hl : l = services.map x.task
      · simp only [hl, if_true]; exact hp0
      · simp only [hl, if_false]; exact .refl _
    · intro pid
      refine ⟨_, rfl, ?_⟩
      simp only [mainPrinting, hpr.1, hpr.2, hrt, Bool.not_true, Bool.false_eq_true, if_false, htasks, hsaid, if_true, hany, hlog]
      cases hr : s.join.returned with
      | false =>
        have hn := hnone.2 hr
        simp only [Bool.not_false, if_true, hn]
        refine ⟨?_, trivial, trivial⟩
        rw [ho, hn]
        simpa [hnb] using hperm
      | true =>
        have hs := hsome hr
        cases hb : x.prints.bye with
        | true =>
          simp only [hb, if_true] at hs
          simp only [Bool.not_true, Bool.false_eq_true, if_false, hs]
          refine ⟨?_, trivial, trivial⟩
          rw [ho, hs]
          simpa [byeLine] using hperm.append_right _
        | false =>
          simp only [hb, Bool.false_eq_true, if_false] at hs
          simp only [Bool.not_true, Bool.not_false, Bool.false_eq_true, if_false, if_true, hs]
          refine ⟨?_, trivial, trivial⟩
          rw [ho, hs]
          simpa [hnb] using hperm
  have done : s.join.returned = true → s.join.stuck (services.map x.task) := by
    intro hr a j hs
    cases hs <;> simp_all
  have ended : s.join.returned = true → ∀ i p, services[i]? = some p → (x.ran p).1 ≠ [] → i ∈ s.said :=
    fun hr i p hp hne => hi.ended i p (all_finished h hr i (List.getElem?_eq_some_iff.1 hp).1) hp hne
  cases hmain : s.main with
  | building =>
    cases hrt : x.env.runtime with
    | value u => exact absurd (ChorusStep.build s hmain hrt) (hstuck _ _)
    | error => exact absurd (ChorusStep.buildErr s hmain hrt) (hstuck _ _)
    | panic => exact absurd (ChorusStep.buildPanic s hmain hrt) (hstuck _ _)
  | joining =>
    simp only [hmain] at hm
    have hsay : ∀ i p, services[i]? = some p → (x.ran p).1 ≠ [] → i ∈ s.said := by
      intro i p hp hne
      by_cases hin : i ∈ s.said
      · exact hin
      · exfalso
        have hnf : ChorusAct.finish i ∉ tr := fun hf => hin (hi.ended i p hf hp hne)
        obtain ⟨hrun, _⟩ := still_running h i (List.getElem?_eq_some_iff.1 hp).1 hnf
        rcases ran_one x p with hl' | ⟨l, hl'⟩
        · exact hne hl'
        · exact hstuck _ _ (.say s i p l hmain hrun hp hl' hin)
    refine key hm.1 ?_ hsay (by simp [hm.2.1, hm.2.2]) (by simp [hm.2.1]) (by simp [hmain])
    intro a j hs
    cases a with
    | finish i =>
      have hs' := hs
      cases hs' with
      | finish _ t o hr hi' ht ho' =>
        rw [List.getElem?_map] at ht
        cases hp : services[i]? with
        | none => rw [hp] at ht; cases ht
        | some p => exact hstuck _ _ (.finish s i p _ hmain hp (hsay i p hp) hs)
    | join i => exact hstuck _ _ (.join s i j hmain hs)
    | exit => exact hstuck _ _ (.leave s j hmain hs)
  | returned =>
    cases hb : x.prints.bye with
    | true => exact absurd (ChorusStep.bye s hmain hb) (hstuck _ _)
    | false => exact absurd (ChorusStep.byeFail s hmain hb) (hstuck _ _)
  | bye => exact absurd (ChorusStep.exit s 0 (.inl ⟨hmain, rfl⟩)) (hstuck _ _)
  | refused => exact absurd (ChorusStep.report s hmain) (hstuck _ _)
  | panicked => exact absurd (ChorusStep.exit s 101 (.inr ⟨hmain, rfl⟩)) (hstuck _ _)
  | exited =>
    simp only [hmain] at hm
    have hnolog : ∀ a b, tr = [a, b] → chorusJoins [a, b] = [] → s.join.log = [] := by
      intro a b ht hab
      rw [(join_inv hj).log, ht, hab]
      rfl
    rcases hm with ⟨h1, h2, h3, h4⟩ | ⟨h1, h2, h3⟩ | ⟨h1, ⟨h2, h3⟩ | ⟨h2, h3, h4⟩⟩
    · exact key h2 (done h3) (ended h3) (by simp [h1, h3]) (fun _ => by simp [h1, h4]) (by simp [hmain])
    · have hlog := hnolog _ _ h3 rfl
      have hout : s.out = [] := by
        rcases C226_status x services tr s h 1 h1 with h | h | h
        · cases h.1
        · exact h.2.2.1
        · cases h.1
      refine ⟨by simp [h1, h2], id, fun _ => .refl _, fun pid => ⟨_, rfl, ?_⟩⟩
      simp [mainPrinting, hpr.1, hpr.2, h2, hout, hlog, h1]
    · have hlog := hnolog _ _ h3 rfl
      have hout : s.out = [] := by
        rcases C226_status x services tr s h 101 h1 with h | h | h
        · cases h.1
        · cases h.1
        · rcases h.2.2.2 with h | h
          · exact h.2
          · rw [h2] at h; cases h.1
      refine ⟨by simp [h1, h2], id, fun _ => .refl _, fun pid => ⟨_, rfl, ?_⟩⟩
      simp [mainPrinting, hpr.1, hpr.2, h2, hout, hlog, h1]
    · exact key h2 (done h3) (ended h3) (by simp [h1, h3]) (fun _ => by simp [h1, h4]) (by simp [hmain])

/-- Two services on free addresses, stopped by Ctrl-C; the line of the second cannot be printed. -/
def chorusEnv : ChorusEnv Unit Unit :=
  ⟨{ printProc with runtime := .value () }, { Prints.all with service := fun n => n ≠ u!"b" }, u!"no threads", fun n => n ++ u!" panicked", u!"main panicked"⟩

theorem chorusEnv_a : chorusEnv.ran (u!"a", defaultEffective) = ([u!"httpd: listening @ 0.0.0.0:8080, serve as Hello world"], .ok) := by decide +kernel

theorem chorusEnv_b : chorusEnv.ran (u!"b", defaultEffective) = ([], .panic) := by decide +kernel

/-- The second panics, the first says its line and ends, and the process says goodbye and exits with status 0. -/
example : ∃ tr s, ChorusRun chorusEnv samplePair (.start (samplePair.map chorusEnv.task)) tr s ∧ s.status = some 0 ∧ s.err = [u!"b panicked"] ∧
    s.out = [u!"httpd: listening @ 0.0.0.0:8080, serve as Hello world", u!"httpd: shutdown"] := by
  have h0 := ChorusRun.snoc (ChorusRun.nil (x := chorusEnv) (services := samplePair) (s := .start (samplePair.map chorusEnv.task))) (.build _ rfl rfl)
  have h1 := ChorusRun.snoc h0 (.finish _ 1 (u!"b", defaultEffective) _ rfl rfl (by rw [chorusEnv_b]; simp)
    (.finish _ 1 (chorusEnv.task (u!"b", defaultEffective)) .panic rfl rfl rfl (by rw [ChorusEnv.task, chorusEnv_b]; rfl)))
  have h2 := ChorusRun.snoc h1 (.say _ 0 (u!"a", defaultEffective) _ rfl rfl rfl (congrArg Prod.fst chorusEnv_a) (by simp [Chorus.start]))
  have h3 := ChorusRun.snoc h2 (.finish _ 0 (u!"a", defaultEffective) _ rfl rfl (by simp)
    (.finish _ 0 (chorusEnv.task (u!"a", defaultEffective)) .ok rfl rfl rfl (by rw [ChorusEnv.task, chorusEnv_a]; rfl)))
  have h4 := ChorusRun.snoc h3 (.join _ 0 _ rfl (.join _ 0 (chorusEnv.task (u!"a", defaultEffective)) .ok rfl rfl rfl))
  have h5 := ChorusRun.snoc h4 (.join _ 1 _ rfl (.join _ 1 (chorusEnv.task (u!"b", defaultEffective)) .panic rfl rfl rfl))
  have h6 := ChorusRun.snoc h5 (.leave _ _ rfl (.exit _ rfl (by
    intro t ht
    simp [JoinState.start, Chorus.start, samplePair] at ht
    rcases ht with rfl | rfl <;> exact ⟨_, rfl⟩)))
  have h7 := ChorusRun.snoc h6 (.bye _ rfl rfl)
  have h8 := ChorusRun.snoc h7 (.exit _ 0 (.inl ⟨rfl, rfl⟩))
  refine ⟨_, _, h8, rfl, ?_, rfl⟩
  simp only [chorusEnv_a, chorusEnv_b]
  rfl

end Httpd
