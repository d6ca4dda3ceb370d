import Verif.Props.Tasks
import Verif.Props.WholeProcess
/-! # C208: from the command line to the answers, with all clients at the same time -/

namespace Httpd
open Spec MultiMap

/-- **C206**, for both services and everything a client can send: what was written to the client is at every moment a beginning of what the grammar `Talk` gives
for the bytes that have arrived from it, and all of it when its task has no step to do; turns of this task alone are enough for that. -/
theorem C206_grammar {K : Type} (c : Codec K) (setup : Nat → Setup K) (tr : List (Nat × ServerAct)) (s : Server) (h : Server.Run c setup tr s)
    (i : Nat) (t : Task) (ht : s.task i = some t) (kind : ServiceSetting) (reply : Nat → Bytes → Bytes) (stops : Bytes → Prop) (ha : Answers kind reply stops)
    (he : ∀ j, ((setup i).env j).http = kind.kind.http ∧ ((setup i).env j).write = .ok) :
    ∃ outs f, Talk (setup i).lim.maxUrl (setup i).lim.maxHeaderLine (setup i).lim.maxHeadersCount (afterOf t.fin) reply stops 0
        (t.arrived.map Seg.bytes).flatten outs f ∧
      s.wire i <+: outs.flatten ∧
      ((∀ a s', a = .fetch ∨ a = .seeEnd ∨ a = .act → ¬ Server.Step c setup s (i, a) s') → s.wire i = outs.flatten) ∧
      ∃ tr' s', (∀ a ∈ tr', isTurn i a = true) ∧ Server.Run c setup (tr ++ tr') s' ∧ s'.wire i = outs.flatten := by
  have hk : ∃ f, fateOf (serve c (setup i).lim (setup i).env t.all).2 = some f ∧
      Talk (setup i).lim.maxUrl (setup i).lim.maxHeaderLine (setup i).lim.maxHeadersCount (afterOf t.all.fin) reply stops 0 t.all.flat
        ((serve c (setup i).lim (setup i).env t.all).1.map (·.written)) f := by
    cases ha with
    | hello => exact C130_hello_whole c _ _ he _
    | files root => exact C130_fs_whole c _ _ he _
  obtain ⟨f, _, hf⟩ := hk
  have hflat : t.all.flat = (t.arrived.map Seg.bytes).flatten := by simp [Task.all, Reader.flat]
  rw [hflat] at hf
  refine ⟨_, f, hf, ?_, fun hn => ((C206_as_if_alone c setup tr s h i t ht).2 hn).1, ?_⟩
  · obtain ⟨p, ⟨q, hp⟩, h1, _⟩ := (C206_as_if_alone c setup tr s h i t ht).1
    have := (serveActs_spec c (setup i).lim (setup i).env (setup i).log t.all).2
    rw [← hp, answered_append] at this
    rw [h1, ← this]
    exact List.prefix_append _ _
  · obtain ⟨tr', s', k1, k2, _, k4, _⟩ := C206_finishes c setup tr s h i t ht
    exact ⟨tr', s', k1, k2, k4⟩

/-- **C208.** Let the file named on the command line be accepted and the log started. Then `main` goes on to serve a list of services: each that the file asks
for, once, and no other. Let any number of clients be connected to them, in one runtime or in one for each service, their tasks taking turns in any order. Then a client
of one of the services that takes what it is sent has been sent a beginning of what the grammar gives for the bytes that have arrived from it, for the kind
and the limits that the file says; and its task has only to be given turns for it to be all of it, whatever the others do. -/
theorem C208_all_at_once (m : Machine) (horder : ∀ l, (m.order l).Perm l) (p : Profile) (arg : Str)
    (harg : trimUnicode (fileArgument p arg) ≠ []) (v : Toml) (hread : m.read (fileArgument p arg) = some v)
    (hnd : ∀ ss, setting [u!"services", u!"Services"] 9 v = some (.table ss) → (ss.map (·.1)).Nodup) (c : Config)
    (hload : loadFile m.U p m.strict m.pathExists m.chdir m.glob m.order (some v) = .value c)
    (hlog : ∃ k, c.initLogging m.U m.openOk m.midnight m.names m.setOk = .value k) :
    ∃ services, m.start p arg = .serving services ∧ (services.map (·.1)).Nodup ∧ (∀ k, k ∈ services.map (·.1) ↔ ∃ sv, ToRun m.glob v k sv) ∧
      ∀ {K : Type} (codec : Codec K) (setup : Nat → Setup K) (tr : List (Nat × ServerAct)) (s : Server), Server.Run codec setup tr s →
        ∀ (q : Str × ServiceConfig), q ∈ services → ∀ i, (setup i).Serves q.2 → ∀ t, s.task i = some t →
          ∃ sv kind maxUrl maxLine maxHeaders, ToRun m.glob v q.1 sv ∧
            Given (KindSays m.strict) .helloWorld (setting [u!"service", u!"Service"] 2 sv) kind ∧
            LimitsInForce m.U p v sv maxUrl maxLine maxHeaders ∧
            ∀ reply stops, Answers kind reply stops →
              ∃ outs f, Talk maxUrl maxLine maxHeaders (afterOf t.fin) reply stops 0 (t.arrived.map Seg.bytes).flatten outs f ∧
                s.wire i <+: outs.flatten ∧
                ∃ tr' s', (∀ a ∈ tr', isTurn i a = true) ∧ Server.Run codec setup (tr ++ tr') s' ∧ s'.wire i = outs.flatten := by
  obtain ⟨hs1, hs2, _, hs4⟩ := run_in_force m.U p m.strict m.pathExists m.chdir m.glob m.order horder v c hload hnd
  refine ⟨c.services, (start_serving m p arg harg v hread hnd horder c hload hlog).1, hs1, fun k => ⟨fun hk => ?_, fun ⟨sv, hk⟩ => ?_⟩, ?_⟩
  · obtain ⟨q, hq, rfl⟩ := List.mem_map.1 hk
    exact hs2 q.1 q.2 hq
  · obtain ⟨s, hs, _⟩ := hs4 k sv hk
    exact List.mem_map.2 ⟨_, hs, rfl⟩
  · intro K codec setup tr s hrun q hof i hsetup t ht
    obtain ⟨sv, hsv⟩ := hs2 q.1 q.2 hof
    obtain ⟨s', hmem, hkind, hlim, _⟩ := hs4 _ sv hsv
    have hsame : s' = q.2 :=
      eq_of_key_nodup hs1 hmem hof
    subst hsame
    refine ⟨sv, _, _, _, _, hsv, hkind, hlim, fun reply stops ha => ?_⟩
    obtain ⟨hl, he⟩ := hsetup
    obtain ⟨outs, f, h1, h2, _, h4⟩ := C206_grammar codec setup tr s hrun i t ht _ reply stops ha he
    rw [hl] at h1
    exact ⟨outs, f, h1, h2, h4⟩

/-- What the connections of a service of `limitsFile` bring along. -/
def limitsSetup (q : Str × ServiceConfig) : Nat → Setup Unit := fun _ =>
  ⟨q.2.http.limits, fun _ => { sampleEnv with http := q.2.service.kind.http }, { sampleLog with debug := false }⟩

/-- C208: the process serves `limitsFile`; two clients send half a request each, turn by turn. The first one is refused, since its second half makes the line too long for
the file; the second one is answered. -/
def limitsRun : List (Nat × ServerAct) :=
  [(0, .accept), (1, .accept), (0, .send ⟨71, b!"ET /1234567890"⟩), (1, .send ⟨71, b!"ET / HT"⟩), (0, .fetch), (1, .fetch),
   (0, .send ⟨49, List.replicate 1100 50⟩), (1, .send ⟨84, b!"P/1.1\r\n\r\n"⟩), (1, .fetch), (0, .fetch), (1, .act), (1, .act), (1, .act), (1, .act)]

example : (match (machineWith limitsFile).start .release u!"my.toml" with
    | .serving (q :: _) => (Server.start.run? noCodec (limitsSetup q) limitsRun).map (fun s =>
        (q.1, s.wire 0, s.wire 1 == helloText b!"HTTP/1.1" 0, (s.step? noCodec (limitsSetup q) (0, .fetch)).isSome))
    | _ => none) = some (u!"a", [], true, false) := by
  decide +kernel

example (q : Str × ServiceConfig) (i : Nat) : (limitsSetup q i).Serves q.2 := ⟨rfl, fun _ => ⟨rfl, rfl⟩⟩

end Httpd
