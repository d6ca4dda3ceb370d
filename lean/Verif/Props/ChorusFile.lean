import Verif.Spec.ChorusFile
import Verif.Props.Chorus
import Verif.Props.WholeProcess
import Verif.Props.Refusal
/-! # C226, from the command line -/

namespace Httpd

open Spec

/-- Different places of a list without repeated names have different names. -/
theorem keys_of_places {α : Type} {l : List (Str × α)} (hnd : (l.map (·.1)).Nodup) {R : Nat → Str → Prop} {Q : Str → Str → Prop}
    (hR : ∀ i line, R i line → ∃ p, l[i]? = some p ∧ Q p.1 line) {who : List Nat} {lines : List Str} (h : Each2 R who lines) (hw : who.Nodup) :
    ∃ keys : List Str, keys.Nodup ∧ Each2 Q keys lines ∧ ∀ k, k ∈ keys ↔ ∃ i ∈ who, ∃ p, l[i]? = some p ∧ p.1 = k := by
  induction h with
  | nil => exact ⟨[], .nil, .nil, by simp⟩
  | @cons i line who lines h1 _ ih =>
    obtain ⟨hi, hw⟩ := List.nodup_cons.1 hw
    obtain ⟨keys, k1, k2, k3⟩ := ih hw
    obtain ⟨p, p1, p2⟩ := hR i line h1
    refine ⟨p.1 :: keys, List.nodup_cons.2 ⟨fun hk => ?_, k1⟩, .cons p2 k2, fun k => ?_⟩
    · obtain ⟨j, hj, q, q1, q2⟩ := (k3 _).1 hk
      have hij : i = j := by
        have a1 : (l.map (·.1))[i]? = some p.1 := by rw [List.getElem?_map, p1]; rfl
        have a2 : (l.map (·.1))[j]? = some p.1 := by rw [List.getElem?_map, q1, ← q2]; rfl
        obtain ⟨b1, _⟩ := List.getElem?_eq_some_iff.1 a1
        exact (List.getElem?_inj b1 hnd).1 (a1.trans a2.symm)
      exact hi (hij ▸ hj)
    · rw [List.mem_cons, k3]
      constructor
      · rintro (rfl | ⟨j, hj, q⟩)
        · exact ⟨i, .head _, p, p1, rfl⟩
        · exact ⟨j, .tail _ hj, q⟩
      · rintro ⟨j, hj, q, q1, rfl⟩
        rcases List.mem_cons.1 hj with rfl | hj
        · rw [p1] at q1; cases q1; exact .inl rfl
        · exact .inr ⟨j, hj, q, q1, rfl⟩

/-- **C226**, from the command line: let the file named there be accepted, not ask for per-core mode, and let the log be started. Then at every moment of every execution standard output holds, after the line about
the configuration, one line each for some of the services that the file asks for, in some order, with the address, TLS and the kind that the file says, and nothing else; or these and, last, that the process shuts down, and then
every service that got its address and its certificate and whose line could be printed has its line. -/
theorem C226_command_line (m : Machine) (horder : ∀ l, (m.order l).Perm l) (p : Profile) (arg : Str)
    (harg : trimUnicode (fileArgument p arg) ≠ []) (v : Toml) (hread : m.read (fileArgument p arg) = some v)
    (hnd : ∀ ss, setting [u!"services", u!"Services"] 9 v = some (.table ss) → (ss.map (·.1)).Nodup) (c : Config)
    (hload : loadFile m.U p m.strict m.pathExists m.chdir m.glob m.order (some v) = .value c)
    (hlog : ∃ k, c.initLogging m.U m.openOk m.midnight m.names m.setOk = .value k)
    (hone : (setting [u!"runtime", u!"Runtime"] 1 v).bind (setting [u!"per_core", u!"PerCore"] 1) ≠ some (.bool true)) :
    ∃ services, m.start p arg = .serving services ∧ m.perCore p arg = false ∧
      ∀ {C K : Type} (x : ChorusEnv C K) (tr : List ChorusAct) (s : Chorus), ChorusRun x services (.start (services.map x.task)) tr s →
        ∃ keys lines : List Str, keys.Nodup ∧ Each2 (FileIntroduces m p v x.env) keys lines ∧
          (s.out = lines ∨ s.out = lines ++ [u!"httpd: shutdown"] ∧ ∀ k line, FileIntroduces m p v x.env k line → x.prints.service k = true → k ∈ keys) := by
  obtain ⟨hst, hpc⟩ := start_serving m p arg harg v hread hnd horder c hload hlog
  have hpc : m.perCore p arg = false := by
    cases hb : m.perCore p arg with
    | false => rfl
    | true => exact absurd (hpc.1 hb) hone
  obtain ⟨hnodup, hsvc, _, hrun⟩ := run_in_force m.U p m.strict m.pathExists m.chdir m.glob m.order horder v c hload hnd
  refine ⟨c.services, hst, hpc, fun {C K} x tr s h => ?_⟩
  obtain ⟨⟨who, lines, h1, _, h3, h4⟩, _⟩ := C226_says x c.services tr s h
  have hfile : ∀ (i : Nat) (line : Str), (∃ q, c.services[i]? = some q ∧ Introduces x.env x.prints q line) →
      ∃ q : Str × ServiceConfig, c.services[i]? = some q ∧ FileIntroduces m p v x.env q.1 line := by
    rintro i line ⟨q, hq, hi⟩
    have hm := List.mem_of_getElem? hq
    obtain ⟨sv, hsv⟩ := hsvc q.1 q.2 hm
    obtain ⟨s', hmem, hkind, _, haddr, _, _, _, htls⟩ := hrun _ sv hsv
    have hsame : s' = q.2 := eq_of_key_nodup hnodup hmem hm
    subst hsame
    exact ⟨q, hq, sv, _, _, _, _, _, hsv, hkind, haddr, htls, hi.bound, hi.tls, hi.line⟩
  obtain ⟨keys, k1, k2, k3⟩ := keys_of_places hnodup hfile h3 h1
  refine ⟨keys, lines, k1, k2, h4.imp id (fun ⟨g1, _, g3⟩ => ⟨g1, fun k line hk hpr => ?_⟩)⟩
  obtain ⟨sv, kind, addr, cert, key, time, f1, f2, f3, ⟨own, main, f4, f5, _⟩, f6, f7, _⟩ := hk
  obtain ⟨s', hmem, _, _, _, _, _, _, ⟨own', main', e4, e5, _⟩⟩ := hrun _ sv f1
  obtain ⟨i, hi⟩ := List.mem_iff_getElem?.1 hmem
  have c1 := given_unique reads_str e4 f4
  have c2 := given_unique reads_str e5 f5
  exact (k3 k).2 ⟨i, g3 i _ _ hi ⟨f6, by rw [c1, c2]; exact f7, hpr, rfl⟩, _, hi, rfl⟩

/-- **C216**, from the command line: let the file named there be accepted, ask for per-core mode, and let the log be started. Then at every moment of every execution standard output holds, after the line
about the configuration, one line each for some of the services that the file asks for, with the address, TLS and the kind that the file says, and besides these at most that the process shuts down, once. When that is
there and the file asks for one service, it is the last line, and the line of this service is there if it got its address and its certificate and its line could be printed. Missing from C216: as for `C216_says_partial`. -/
theorem C216_command_line_partial (m : Machine) (horder : ∀ l, (m.order l).Perm l) (p : Profile) (arg : Str)
    (harg : trimUnicode (fileArgument p arg) ≠ []) (v : Toml) (hread : m.read (fileArgument p arg) = some v)
    (hnd : ∀ ss, setting [u!"services", u!"Services"] 9 v = some (.table ss) → (ss.map (·.1)).Nodup) (c : Config)
    (hload : loadFile m.U p m.strict m.pathExists m.chdir m.glob m.order (some v) = .value c)
    (hlog : ∃ k, c.initLogging m.U m.openOk m.midnight m.names m.setOk = .value k)
    (hcore : (setting [u!"runtime", u!"Runtime"] 1 v).bind (setting [u!"per_core", u!"PerCore"] 1) = some (.bool true)) :
    ∃ services, m.start p arg = .serving services ∧ m.perCore p arg = true ∧
      ∀ {C K : Type} (x : CoreEnv C K) (tr : List VoiceAct) (s : Voices), VoiceRun x services .start tr s →
        (∃ keys : List Str, keys.Nodup ∧ Each2 (FileIntroduces m p v x.env) keys (s.out.filter (· ≠ u!"httpd: shutdown"))) ∧
        s.out.count u!"httpd: shutdown" ≤ 1 ∧
        (u!"httpd: shutdown" ∈ s.out → (∀ k k' sv sv', ToRun m.glob v k sv → ToRun m.glob v k' sv' → k = k') →
          s.out.getLast? = some u!"httpd: shutdown" ∧
          ∀ k line, FileIntroduces m p v x.env k line → x.runtimeOk k = true → x.prints.service k = true → ∃ line', FileIntroduces m p v x.env k line' ∧ line' ∈ s.out) := by
  obtain ⟨hst, hpc⟩ := start_serving m p arg harg v hread hnd horder c hload hlog
  obtain ⟨hnodup, hsvc, hne, hrun⟩ := run_in_force m.U p m.strict m.pathExists m.chdir m.glob m.order horder v c hload hnd
  refine ⟨c.services, hst, hpc.2 hcore, fun {C K} x tr s h => ?_⟩
  obtain ⟨⟨who, h1, h3⟩, h4, _⟩ := C216_says_partial x c.services tr s h
  have hone : ∀ (q : Str × ServiceConfig) (line : Str), q ∈ c.services → CoreAnnounces x q line → FileIntroduces m p v x.env q.1 line := by
    intro q line hm hi
    obtain ⟨sv, hsv⟩ := hsvc q.1 q.2 hm
    obtain ⟨s', hmem, hkind, _, haddr, _, _, _, htls⟩ := hrun _ sv hsv
    have hsame : s' = q.2 := eq_of_key_nodup hnodup hmem hm
    subst hsame
    exact ⟨sv, _, _, _, _, _, hsv, hkind, haddr, htls, hi.bound, hi.tls, hi.line⟩
  obtain ⟨keys, k1, k2, _⟩ := keys_of_places (Q := FileIntroduces m p v x.env) hnodup
    (fun i line ⟨⟨q, hq, hi⟩, _⟩ => ⟨q, hq, hone q line (List.mem_of_getElem? hq) hi⟩) h3 h1
  refine ⟨⟨keys, k1, k2⟩, h4, fun hb hsame => ?_⟩
  have hlen : c.services.length = 1 := by
    match hc : c.services with
    | [] => exact absurd hc hne
    | [q] => rfl
    | q :: r :: rest =>
      obtain ⟨sv, hsv⟩ := hsvc q.1 q.2 (by simp [hc])
      obtain ⟨sv', hsv'⟩ := hsvc r.1 r.2 (by simp [hc])
      have := hsame _ _ _ _ hsv hsv'
      rw [hc] at hnodup
      simp [this] at hnodup
  obtain ⟨g1, _, g3⟩ := C216_in_time_partial x c.services tr s h (.inl hlen) hb
  refine ⟨g1, fun k line hk hrt hpr => ?_⟩
  obtain ⟨sv, kind, addr, cert, key, time, f1, f2, f3, ⟨own, main, f4, f5, _⟩, f6, f7, _⟩ := hk
  obtain ⟨s', hmem, _, _, _, _, _, _, ⟨own', main', e4, e5, _⟩⟩ := hrun _ sv f1
  have c1 := given_unique reads_str e4 f4
  have c2 := given_unique reads_str e5 f5
  have ha : CoreAnnounces x (k, s') _ := ⟨hrt, f6, by rw [c1, c2]; exact f7, hpr, rfl⟩
  exact ⟨_, hone _ _ hmem ha, g3 _ hmem _ ha⟩

/-- C226: what the only service of `limitsFile` says, and an execution in which it has said it. -/
example : FileIntroduces (machineWith limitsFile) .release limitsFile chorusEnv.env u!"a" u!"httpd: listening @ , serve as Hello world" :=
  ⟨.table [(u!"http", .table [(u!"max_header_line_size", .str u!"512b")])], .helloWorld, [], [], [], 15000000000,
    .inl (.listed _ _ _ rfl (.head _)), rfl, rfl, ⟨0, 0, rfl, rfl, rfl, rfl, rfl⟩, rfl, ⟨none, rfl⟩, rfl⟩

theorem limitsFile_served : (match (machineWith limitsFile).start .release u!"my.toml" with
    | .serving [q] => (chorusEnv.ran q == ([u!"httpd: listening @ , serve as Hello world"], .ok))
    | _ => false) = true := by
  decide +kernel

example : ∃ services tr s, (machineWith limitsFile).start .release u!"my.toml" = .serving services ∧
    ChorusRun chorusEnv services (.start (services.map chorusEnv.task)) tr s ∧ s.out = [u!"httpd: listening @ , serve as Hello world"] := by
  have h := limitsFile_served
  split at h
  · rename_i q hq
    have hr : chorusEnv.ran q = ([u!"httpd: listening @ , serve as Hello world"], .ok) := by simpa using h
    have h0 := ChorusRun.snoc (ChorusRun.nil (x := chorusEnv) (services := [q]) (s := .start ([q].map chorusEnv.task))) (.build _ rfl rfl)
    have h1 := ChorusRun.snoc h0 (.say _ 0 q _ rfl rfl rfl (congrArg Prod.fst hr) (by simp [Chorus.start]))
    exact ⟨_, _, _, hq, h1, rfl⟩
  · cases h

/-- C216: a file that asks for per-core mode. -/
def coreLimitsFile : Toml :=
  .table [(u!"runtime", .table [(u!"per_core", .bool true)]), (u!"services", .table [(u!"a", .table [(u!"tcp", .table [(u!"addr", .str u!"1.2.3.4:5")])])])]

theorem coreLimitsFile_served : (match (machineWith coreLimitsFile).start .release u!"my.toml" with
    | .serving [q] => (chorusEnv.core.thread q == ([u!"httpd: listening @ 1.2.3.4:5, serve as Hello world"], .ok)) && ((machineWith coreLimitsFile).perCore .release u!"my.toml") && !q.2.name.contains 0
    | _ => false) = true := by
  decide +kernel

example : ∃ services tr s, (machineWith coreLimitsFile).start .release u!"my.toml" = .serving services ∧
    VoiceRun chorusEnv.core services .start tr s ∧ s.out = [u!"httpd: listening @ 1.2.3.4:5, serve as Hello world"] := by
  have h := coreLimitsFile_served
  split at h
  · rename_i q hq
    simp only [Bool.and_eq_true, beq_iff_eq] at h
    obtain ⟨⟨hr, _⟩, hn⟩ := h
    have h0 := voices_spawned chorusEnv.core [q] (by simpa using hn) 1 (by simp)
    have h1 := VoiceRun.snoc h0 (.life _ (.take 0) _ rfl (.take _ 0 (by simp) rfl))
    have h2 := VoiceRun.snoc h1 (.say _ 0 q _ (by simp) rfl rfl (congrArg Prod.fst hr) (by simp))
    exact ⟨_, _, _, hq, h2, rfl⟩
  · cases h

end Httpd
