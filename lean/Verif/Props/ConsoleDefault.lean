import Verif.Props.ConsoleChain
import Verif.Props.System
/-!
# C189 for the default configuration: from a connection to standard output
-/

namespace Httpd

open Spec MultiMap

/-- The appenders of an empty configuration file: a console for the root and one for the only service. -/
def defaultAppenders : List AppenderInit :=
  [⟨0, u!"colored", ⟨.trace, false⟩, none, false, 0⟩, ⟨1, u!"colored", ⟨.trace, false⟩, none, false, 0⟩]

theorem default_start (pathExists openOk : Str → Bool) (sorder : List (Str × ServiceConfig) → List (Str × ServiceConfig))
    (hsorder : ∀ l, (sorder l).Perm l) :
    ∃ c c' : Config, Config.load pathExists (some .empty) true [] sorder = .value c' ∧ c.slab = [] ∧ c.autofix pathExists = some c' ∧
      c'.appenders openOk = some defaultAppenders ∧ c'.loglevel = none := by
  have h1 : sorder [(u!"helloworld", defaultService)] = [(u!"helloworld", defaultService)] :=
    List.perm_singleton.mp (hsorder _)
  refine ⟨{ Config.empty with services := [(u!"helloworld", defaultService)] }, _, ?_, rfl, rfl, rfl, rfl⟩
  simp only [Config.load, Bool.not_true, Bool.false_eq_true, ↓reduceIte, includeAll]
  have hss : (if Config.empty.services.length < 1 then [(u!"helloworld", defaultService)] else Config.empty.services) =
      [(u!"helloworld", defaultService)] := rfl
  rw [hss, h1]
  rfl

/-- The records of a connection to hello-world are the root's or the service's. -/
theorem story_services {K : Type} (lg : LogEnv K) (idx : Nat) (ord : Nat → List Pair → List Pair)
    (hl : ∀ i, lg.service i = helloLog idx lg.addr (ord i)) (reqs : List (Message K)) (e : Ending) (time file : Bytes) (line : Nat) :
    ∀ x ∈ story lg reqs e, (x.item time file line).service = 0 ∨ (x.item time file line).service = idx := by
  have hconn : ∀ text addr, ((aboutConn lg.name text addr).item time file line).service = 0 := fun _ _ => rfl
  intro x hx
  unfold story at hx
  rcases List.mem_append.mp hx with hx | hx
  · rcases List.mem_append.mp hx with hx | hx
    · split at hx
      · rw [List.mem_singleton.mp hx]; exact .inl rfl
      · cases hx
    · obtain ⟨l, hl', hx⟩ := List.mem_flatten.mp hx
      obtain ⟨j, hj, rfl⟩ := List.mem_mapIdx.mp hl'
      rw [hl] at hx
      rcases C90_hello_log_partial idx lg.addr (ord j) _ time file line x hx with h | ⟨h, _⟩
      · exact .inr h
      · exact .inl h
  · left
    unfold endRecords at hx
    have hcase : x = aboutConn lg.name b!"connection lost, " lg.addr ∨ x.kvs = [] ∨ x.kvs = [(b!"service", .ofString lg.name)] := by
      cases e with
      | headFail c => cases c <;> cases hdb : lg.debug <;> simp [hdb] at hx <;> first | (rcases hx with rfl | rfl <;> simp) | (subst hx; simp)
      | bodyFail c => cases c <;> cases hdb : lg.debug <;> simp [hdb] at hx <;> first | (rcases hx with rfl | rfl <;> simp) | (subst hx; simp)
      | _ => cases hdb : lg.debug <;> simp [hdb] at hx <;> first | (rcases hx with rfl | rfl <;> simp) | (subst hx; simp)
    rcases hcase with rfl | h | h
    · rfl
    · simp [Rec.item, Item.from, h]
    · simp only [Rec.item, Item.from, h]; rfl

theorem each2_mem {α β : Type} {R : α → β → Prop} {l : List α} {m : List β} (h : Each2 R l m) : ∀ b ∈ m, ∃ a ∈ l, R a b := by
  induction h with
  | nil => intro b hb; cases hb
  | cons hr _ ih =>
    intro b hb
    rcases List.mem_cons.mp hb with rfl | hb
    · exact ⟨_, List.mem_cons_self, hr⟩
    · obtain ⟨a, ha, hr'⟩ := ih b hb
      exact ⟨a, List.mem_cons_of_mem _ ha, hr'⟩

/-- **C189**, for the default configuration: with an empty configuration file the program logs to two consoles and at every level, so that
every record whose line is at most 2 MiB long reaches standard output, whatever the runs. For a connection to its service: every record
of its story is the root's or the service's, and, if all were logged before the flush and the task of the log has done everything,
standard output shows whole lines, among them all those of the story, each once, those of the root in the order of the story and those
of the service in the order of the story. -/
theorem C189_default {U : Unicode} (hU : LawfulUnicode U) (pathExists openOk : Str → Bool) (order : List Str → List Str)
    (horder : ∀ l, (order l).Perm l) (sorder : List (Str × ServiceConfig) → List (Str × ServiceConfig))
    (hsorder : ∀ l, (sorder l).Perm l) :
    ∃ c k, Config.load pathExists (some .empty) true [] sorder = .value c ∧ c.appenders openOk = some defaultAppenders ∧
      c.startLogging U openOk order true = .value (k, .trace) ∧
      ∀ (progs : Nat → List (Log.Call Item)) (tr1 tr2 : List (Log.Act Item)) (t n : Nat) (s : Log.Sys Item),
        Log.Run (passes .trace) (Log.start progs) (tr1 ++ .flushCall t n :: tr2 ++ [.flushRet t n]) s →
        (∀ p ∈ Log.Spec.sends (tr1 ++ .flushCall t n :: tr2), (colorRender .default p.2).length ≤ 2097152) →
        ∀ {K : Type} (cd : Codec K) (lim : HttpLimits) (env : Nat → Env K) (lg : LogEnv K) (ord : Nat → List Pair → List Pair) (r : Reader)
          (u : Nat), (∀ i, lg.service i = helloLog 1 lg.addr (ord i)) → CallsOf (serveLog cd lim env lg r) (progs u) →
          Log.Spec.byThread u (Log.Spec.sends tr1) = Log.Spec.logged (passes .trace) (progs u) →
          ∃ calls items, k.calls (tr1 ++ .flushCall t n :: tr2) k.bufs = some calls ∧
            Each2 (fun x item => ∃ time file line, item = Rec.item time file line x)
              (story lg ((serve cd lim env r).1.map (·.req)) (serve cd lim env r).2) items ∧
            (∀ item ∈ items, item.service = 0 ∨ item.service = 1) ∧
            ∀ o, Console.Run (.init (consoleCalls defaultAppenders calls)) o → o.todo = [] →
              ∃ done, o.out.shown = Console.Spec.text done ∧ (∀ p ∈ done, p.1 = 0 ∨ p.1 = 1) ∧
                ∀ i, i = 0 ∨ i = 1 → ∃ all : List (Nat × Item), Console.Spec.ofOne i done = all.map (fun p => colorRender .default p.2) ∧
                  Log.Spec.byThread u all = items.filter (fun item => item.service = i) := by
  obtain ⟨c, c', hload, hslab, hfix, has, hlev⟩ := default_start pathExists openOk sorder hsorder
  obtain ⟨k, hk, _⟩ := (start_spec hU pathExists openOk order horder c c' hslab hfix true).2.2.2 _ has (by decide) rfl
  rw [hlev] at hk
  refine ⟨c', k, hload, has, hk, ?_⟩
  intro progs tr1 tr2 t n s h hsmall K cd lim env lg ord r u hl hu hall
  have hdel : ∀ item, Deliverable defaultAppenders item := fun item => .inl (by
    intro a ha
    simp only [defaultAppenders, List.mem_cons, List.not_mem_nil, or_false] at ha
    rcases ha with rfl | rfl <;> rfl)
  obtain ⟨items, hi, hpr⟩ := hu
  obtain ⟨calls, c1, c2⟩ := C189_console hU pathExists openOk order horder c c' hslab hfix _ has k .trace hk progs tr1 tr2 t n s h
    (fun p _ => hdel p.2) hsmall
  rw [C120_story] at hi
  refine ⟨calls, items, c1, hi, ?_, fun o ho hret => ?_⟩
  · intro item hitem
    obtain ⟨x, hx, time, file, line, rfl⟩ := each2_mem hi item hitem
    exact story_services lg 1 ord hl _ _ time file line x hx
  obtain ⟨done, d1, d2, d3⟩ := c2 [] (fun p hp => by cases hp) o (by rw [List.append_nil]; exact ho) (by rw [hret]; simp)
  refine ⟨done, d1, ?_, ?_⟩
  · intro p hp
    apply Classical.byContradiction
    intro hne
    have hnil := List.prefix_nil.mp (d2 p.1 (by
      intro a ha
      exfalso
      have : p.1 < 2 := (List.getElem?_eq_some_iff.mp ha).1
      omega))
    have hm : p.2 ∈ Console.Spec.ofOne p.1 done := List.mem_map.mpr ⟨p, List.mem_filter.mpr ⟨hp, by simp⟩, rfl⟩
    rw [hnil] at hm
    cases hm
  · intro i hi01
    have hex : ∃ a, defaultAppenders[i]? = some a ∧ a.path = none ∧ ∀ item, (passes .trace item && a.Wants item) = decide (item.service = i) := by
      have hw : ∀ (j : Nat) (item : Item), (passes .trace item && AppenderInit.Wants ⟨j, u!"colored", ⟨.trace, false⟩, none, false, 0⟩ item) =
          decide (item.service = j) := by
        intro j item
        have h5 : item.level.rank ≤ Level.trace.rank := by cases item.level <;> decide
        have e1 : (j = item.service) ↔ (item.service = j) := ⟨Eq.symm, Eq.symm⟩
        simp only [passes, AppenderInit.Wants, FilterConfig.filter, Bool.false_eq_true, if_false, h5, decide_true, Bool.and_true, Bool.true_and, e1]
      rcases hi01 with rfl | rfl
      · exact ⟨_, rfl, rfl, hw 0⟩
      · exact ⟨_, rfl, rfl, hw 1⟩
    obtain ⟨a, ha, hp, hwants⟩ := hex
    obtain ⟨before, after, e1, e2, e3, e4⟩ := d3 i a ha hp
    have hnil : Console.Spec.ofOne i (Console.Spec.records []) = [] := rfl
    rw [hnil, List.append_nil] at e2
    obtain ⟨mid, hmid⟩ := e1
    rw [← hmid, List.map_append] at e2
    obtain ⟨z, hz⟩ := List.prefix_append_right_inj _ |>.mp e2
    obtain ⟨x1, x2, rfl, y1, y2⟩ := List.map_eq_append_iff.mp hz.symm
    have hb : Log.Spec.byThread u before = items.filter (fun item => item.service = i) := by
      rw [e3 u, hall, hpr, logged_map, List.filter_filter]
      apply List.filter_congr
      intro x _
      rw [Bool.and_comm, hwants]
    have hsplit : Log.Spec.byThread u (before ++ (x1 ++ x2)) =
        Log.Spec.byThread u before ++ (Log.Spec.byThread u x1 ++ Log.Spec.byThread u x2) := by
      simp [Log.Spec.byThread]
    have e5 := e4 u
    rw [hsplit, ← hall, ← e3 u] at e5
    have hlen := e5.length_le
    rw [List.length_append, List.length_append] at hlen
    have hx1 : Log.Spec.byThread u x1 = [] := List.length_eq_zero_iff.mp (by omega)
    refine ⟨before ++ x1, by rw [List.map_append, y1, hmid], ?_⟩
    have : Log.Spec.byThread u (before ++ x1) = Log.Spec.byThread u before ++ Log.Spec.byThread u x1 := by simp [Log.Spec.byThread]
    rw [this, hx1, List.append_nil, hb]

/-- A connection of a debug build on which nothing comes, to the default service. -/
example : (story ({ sampleLog with service := fun _ => helloLog 1 b!"127.0.0.1:5000" id } : LogEnv Unit) [] .closed).length = 2 ∧
    ∀ i, ({ sampleLog with service := fun _ => helloLog 1 b!"127.0.0.1:5000" id } : LogEnv Unit).service i =
      helloLog 1 b!"127.0.0.1:5000" id := ⟨by decide +kernel, fun _ => rfl⟩

end Httpd
