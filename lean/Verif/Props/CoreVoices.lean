import Verif.Spec.CoreVoices
import Verif.Spec.Config
import Verif.Props.Process
import Verif.Props.Printing
import Verif.Props.CoreReports
/-! # C216: what the process says in per-core mode -/

namespace Httpd

open Spec

variable {C K : Type} {x : CoreEnv C K} {services : List (Str × ServiceConfig)}

/-- The last line of `main`. -/
def byeLine : Str := u!"httpd: shutdown"

theorem thread_line (x : CoreEnv C K) (p : Str × ServiceConfig) (l : Str) : (x.thread p).1 = [l] ↔ CoreAnnounces x p l := by
  have h := C195_line_partial (x.env.world p.1) (x.env.bindOk p.1) (x.env.events p.1) (x.prints.service p.1) p.2
  rw [CoreEnv.thread]
  cases hr : x.runtimeOk p.1 with
  | false => exact ⟨fun h => (by simp at h), fun h => by have := h.runtime; rw [hr] at this; cases this⟩
  | true =>
    simp only [if_true, ProcEnv.runPrinting]
    constructor
    · intro hl
      obtain ⟨h1, h2, h3⟩ := h.2.1.1 (by rw [hl]; simp)
      refine ⟨hr, h1, h2, h3, ?_⟩
      rcases h.1 with h4 | h4
      · rw [hl] at h4; cases h4
      · rw [hl] at h4; exact (List.cons.inj h4).1
    · intro ha
      rcases h.1 with h4 | h4
      · exact absurd h4 (h.2.1.2 ⟨ha.bound, ha.tls, ha.printed⟩)
      · rw [h4, ha.line]; rfl

theorem thread_one (x : CoreEnv C K) (p : Str × ServiceConfig) : (x.thread p).1 = [] ∨ ∃ l, (x.thread p).1 = [l] := by
  have h := C195_line_partial (x.env.world p.1) (x.env.bindOk p.1) (x.env.events p.1) (x.prints.service p.1) p.2
  rw [CoreEnv.thread]
  cases hr : x.runtimeOk p.1 with
  | false => exact .inl rfl
  | true => exact h.1.imp id (fun h => ⟨_, h⟩)

theorem thread_panics (x : CoreEnv C K) (p : Str × ServiceConfig) (h : CorePanics x p) : (x.thread p).2 = .panic := by
  obtain ⟨h1, h2, ⟨t, h3⟩, h4⟩ := h
  simp only [CoreEnv.thread, h1, if_true, ProcEnv.runPrinting, ServiceConfig.runPrinting, h2, h3]
  cases h5 : x.prints.service p.1 with
  | false => rfl
  | true =>
    rw [h5] at h4
    rcases h4 with h4 | h4 | h4
    · cases h4
    · simp [ServiceConfig.run, runService, h3, h4, ServiceSetting.kind]
    · simp [ServiceConfig.run, runService, h3, h4, ServiceSetting.kind]

theorem announce_ne_bye {p : Str × ServiceConfig} {l : Str} (h : CoreAnnounces x p l) : l ≠ byeLine := by
  intro hl
  have h2 := congrArg (fun l => l[7]?) (hl.symm.trans h.line)
  simp only [List.append_assoc] at h2
  rw [List.getElem?_append_left (by decide)] at h2
  revert h2
  decide

theorem each2_snoc {α β : Type} {R : α → β → Prop} {l : List α} {m : List β} (h : Each2 R l m) {a : α} {b : β} (hab : R a b) : Each2 R (l ++ [a]) (m ++ [b]) := by
  induction h with
  | nil => exact .cons hab .nil
  | cons h _ ih => exact .cons h ih

theorem each2_mem_left {α β : Type} {R : α → β → Prop} {l : List α} {m : List β} (h : Each2 R l m) : ∀ a ∈ l, ∃ b ∈ m, R a b := by
  induction h with
  | nil => simp
  | cons h _ ih =>
    intro a ha
    rcases List.mem_cons.1 ha with rfl | ha
    · exact ⟨_, by simp, h⟩
    · obtain ⟨b, h1, h2⟩ := ih a ha
      exact ⟨b, by simp [h1], h2⟩

/-- What is true after every action. -/
structure VoiceInv (x : CoreEnv C K) (services : List (Str × ServiceConfig)) (tr : List VoiceAct) (s : Voices) : Prop where
  nodup : s.said.Nodup
  lines : Each2 (fun i line => ∃ p, services[i]? = some p ∧ (x.thread p).1 = [line]) s.said (s.out.filter (· ≠ byeLine))
  begun : ∀ i ∈ s.said, s.life.threads[i]? = some .holding ∨ s.life.threads[i]? = some .ended
  count : s.out.count byeLine = if s.voice = .bye then 1 else 0
  main : match s.life.main with
    | .spawning k => s.voice = .going ∧ s.life.threads.length = k ∧ k ≤ services.length
    | .polling => s.voice = .going ∧ s.life.threads.length = services.length
    | .waiting => s.voice = .going ∧ s.life.threads.length = services.length ∧ ∃ i : Nat, s.life.threads[i]? = some .holding ∨ s.life.threads[i]? = some .ended
    | .returned => (s.voice = .going ∨ s.voice = .bye ∨ s.voice = .panicked) ∧ s.life.threads.length = services.length ∧ ∃ i : Nat, s.life.threads[i]? = some .ended
    | .failed => s.voice = .refused ∨ s.voice = .panicked
    | _ => s.voice ≠ .going ∧ (s.voice = .bye → s.life.threads.length = services.length ∧ ∃ i : Nat, s.life.threads[i]? = some .ended)
  status : if s.life.main = .exited then s.status = s.voice.status ∧ s.voice ≠ .refused else s.status = none
  refused : s.voice = .refused ∨ s.voice = .reported → VoiceAct.spawnFail ∈ tr
  reported : s.voice = .reported → u!"Error: " ++ x.spawnText ∈ s.err
  panicked : s.voice = .panicked → x.panicText u!"main" ∈ s.err ∧ (VoiceAct.spawnPanic ∈ tr ∨ VoiceAct.byeFail ∈ tr)
  ended : ∀ i : Nat, s.life.threads[i]? = some .ended → ∃ p, services[i]? = some p ∧ (x.thread p).2 ≠ .waiting ∧ ((x.thread p).1 ≠ [] → i ∈ s.said) ∧
    ((x.thread p).2 = .panic → x.panicText (threadName p) ∈ s.err)

theorem begun_step {n : Nat} {l l' : Life} {a : LifeAct} (h : LifeStep n l a l') (i : Nat) (hi : l.threads[i]? = some .holding ∨ l.threads[i]? = some .ended) :
    l'.threads[i]? = some .holding ∨ l'.threads[i]? = some .ended := by
  have hlt : i < l.threads.length := by
    rcases hi with hi | hi <;> exact (List.getElem?_eq_some_iff.1 hi).1
  cases h with
  | spawn k _ _ => simpa [List.getElem?_append, hlt] using hi
  | take j _ hj =>
    simp only [List.getElem?_set]
    split
    · left; simp [*]
    · exact hi
  | release j _ hj =>
    simp only [List.getElem?_set]
    split
    · right; simp [*]
    · exact hi
  | _ => exact hi

theorem stays_ended {n : Nat} {l l' : Life} {a : LifeAct} (h : LifeStep n l a l') (i : Nat) (hi : l.threads[i]? = some .ended) :
    l'.threads[i]? = some .ended := by
  have hlt : i < l.threads.length := (List.getElem?_eq_some_iff.1 hi).1
  cases h with
  | spawn k _ _ => simpa [List.getElem?_append, hlt] using hi
  | take j _ hj =>
    simp only [List.getElem?_set]
    split
    · rename_i h; subst h; rw [hi] at hj; cases hj
    · exact hi
  | release j _ hj =>
    simp only [List.getElem?_set]
    split
    · simp [*]
    · exact hi
  | _ => exact hi

/-- Once the main thread has stopped waiting, no thread comes to hold the lock by itself: one that has begun has ended. -/
theorem enter_ended {n : Nat} {l l' : Life} (h : LifeStep n l .enter l') (i : Nat) (hi : l.threads[i]? = some .holding ∨ l.threads[i]? = some .ended) :
    l'.threads[i]? = some .ended := by
  cases h with
  | enter hw hf =>
    rcases hi with hi | hi
    · exact absurd rfl (hf _ (List.mem_of_getElem? hi))
    · exact hi

theorem voice_inv {tr : List VoiceAct} {s : Voices} (h : VoiceRun x services .start tr s) : VoiceInv x services tr s := by
  induction h with
  | nil => exact ⟨.nil, .nil, fun _ h => (by cases h), rfl, ⟨rfl, rfl, Nat.zero_le _⟩, rfl, by simp [Voices.start], by simp [Voices.start], by simp [Voices.start],
      fun i h => by simp [Voices.start, Life.start] at h⟩
  | @snoc tr s s' a _ hs ih =>
    have hm := ih.main
    have hst := ih.status
    have mono : ∀ {b}, b ∈ tr → b ∈ tr ++ [a] := fun h => List.mem_append_left _ h
    have hend : ∀ (l : Life) (b : LifeAct) (err : List Str), LifeStep services.length s.life b l → (∀ i, b ≠ .release i) → (∀ t ∈ s.err, t ∈ err) →
        ∀ i : Nat, l.threads[i]? = some .ended → ∃ p, services[i]? = some p ∧ (x.thread p).2 ≠ .waiting ∧ ((x.thread p).1 ≠ [] → i ∈ s.said) ∧
          ((x.thread p).2 = .panic → x.panicText (threadName p) ∈ err) := by
      intro l b err hl hb herr i hi
      rcases ended_step hl i hi with h | h
      · obtain ⟨p, h1, h2, h3, h4⟩ := ih.ended i h
        exact ⟨p, h1, h2, h3, fun h => herr _ (h4 h)⟩
      · exact absurd h (hb i)
    cases hs with
    | life a l hq hl =>
      have hnr : ∀ i, a ≠ .release i := by rintro i rfl; cases hq
      refine ⟨ih.nodup, ih.lines, fun i hi => begun_step hl i (ih.begun i hi), ih.count, ?_, ?_, fun h => mono (ih.refused h), ih.reported,
        fun h => ⟨(ih.panicked h).1, (ih.panicked h).2.imp mono mono⟩, hend l a s.err hl hnr (fun _ h => h)⟩
      · have hb := begun_step hl
        have he := stays_ended hl
        cases hl with
        | spawn | spawnFail | freeLogger | exit | release => cases hq
        | spawnDone h => rw [h] at hm; exact ⟨hm.1, hm.2.1⟩
        | poll h _ => simpa only [h] using hm
        | giveUp h hf =>
          rw [h] at hm
          simp only [Life.free, Classical.not_forall, Decidable.not_not] at hf
          obtain ⟨t, ht, rfl⟩ := hf
          obtain ⟨i, hi⟩ := List.mem_iff_getElem?.1 ht
          exact ⟨hm.1, hm.2, i, .inl hi⟩
        | enter h hf =>
          rw [h] at hm
          obtain ⟨h1, h2, i, hi⟩ := hm
          exact ⟨.inl h1, h2, i, enter_ended (n := services.length) (.enter _ h hf) i hi⟩
        | freeConfig h => rw [h] at hm; exact hm
        | take j hx hj =>
          revert hm
          simp only [List.length_set]
          cases hmain : s.life.main with
          | waiting => exact fun hm => ⟨hm.1, hm.2.1, hm.2.2.imp fun i => hb i⟩
          | spawning | polling | failed => exact id
          | returned => exact fun hm => ⟨hm.1, hm.2.1, hm.2.2.imp fun i => he i⟩
          | _ => exact fun hm => ⟨hm.1, fun h => ⟨(hm.2 h).1, (hm.2 h).2.imp fun i => he i⟩⟩
        | log => exact hm
        | read => exact hm
      · cases hl <;> simp_all [LifeAct.quiet]
    | spawn k p l hk hp hn hl =>
      refine ⟨ih.nodup, ih.lines, fun i hi => begun_step hl i (ih.begun i hi), ih.count, ?_, ?_, fun h => mono (ih.refused h), ih.reported,
        fun h => ⟨(ih.panicked h).1, (ih.panicked h).2.imp mono mono⟩, hend l _ s.err hl (by simp) (fun _ h => h)⟩
      · cases hl with
        | spawn k' hk' hlt => rw [hk'] at hm; exact ⟨hm.1, by simp [hm.2.1], hlt⟩
      · cases hl with
        | spawn k' hk' hlt => simpa [hk'] using hst
    | spawnFail k p l hk hp hn hl =>
      have hv : s.voice = .going := by rw [hk] at hm; exact hm.1
      refine ⟨ih.nodup, ih.lines, fun i hi => begun_step hl i (ih.begun i hi), by rw [ih.count, hv]; rfl, ?_, ?_, fun _ => by simp, by simp, by simp,
        hend l _ s.err hl (by simp) (fun _ h => h)⟩
      · cases hl with
        | spawnFail k' hk' hlt => exact .inl rfl
      · cases hl with
        | spawnFail k' hk' hlt => simpa [hk'] using hst
    | spawnPanic k p l hk hp hn hl =>
      have hv : s.voice = .going := by rw [hk] at hm; exact hm.1
      refine ⟨ih.nodup, ih.lines, fun i hi => begun_step hl i (ih.begun i hi), by rw [ih.count, hv]; rfl, ?_, ?_, by simp, by simp, fun _ => by simp,
        hend l _ _ hl (by simp) (fun _ h => List.mem_append_left _ h)⟩
      · cases hl with
        | spawnFail k' hk' hlt => exact .inr rfl
      · cases hl with
        | spawnFail k' hk' hlt => simpa [hk'] using hst
    | bye hr hg hb =>
      rw [hr] at hm
      refine ⟨ih.nodup, ?_, ih.begun, ?_, ?_, ?_, by simp, by simp, by simp, ih.ended⟩
      · rw [List.filter_append, show [u!"httpd: shutdown"].filter (· ≠ byeLine) = [] from by decide, List.append_nil]; exact ih.lines
      · rw [List.count_append, ih.count, hg]; rfl
      · rw [hr]; exact ⟨.inr (.inl rfl), hm.2⟩
      · simpa [hr] using hst
    | byeFail hr hg hb =>
      rw [hr] at hm
      refine ⟨ih.nodup, ih.lines, ih.begun, by rw [ih.count, hg]; rfl, ?_, ?_, by simp, by simp, fun _ => by simp, ?_⟩
      · rw [hr]; exact ⟨.inr (.inr rfl), hm.2⟩
      · simpa [hr] using hst
      · intro i hi
        obtain ⟨p, h1, h2, h3, h4⟩ := ih.ended i hi
        exact ⟨p, h1, h2, h3, fun h => List.mem_append_left _ (h4 h)⟩
    | freeLogger l hv hl =>
      refine ⟨ih.nodup, ih.lines, fun i hi => begun_step hl i (ih.begun i hi), ih.count, ?_, ?_, fun h => mono (ih.refused h), ih.reported,
        fun h => ⟨(ih.panicked h).1, (ih.panicked h).2.imp mono mono⟩, hend l _ s.err hl (by simp) (fun _ h => h)⟩
      · cases hl with
        | freeLogger hf =>
          rcases hf with hf | hf
          · rw [hf] at hm; exact ⟨hv, fun _ => hm.2⟩
          · rw [hf] at hm; exact ⟨hv, fun h => by rw [h] at hm; simp at hm⟩
      · cases hl with
        | freeLogger hf => rcases hf with hf | hf <;> simpa [hf] using hst
    | report hu hr =>
      rw [hu] at hm
      refine ⟨ih.nodup, ih.lines, ih.begun, by rw [ih.count, hr]; rfl, ?_, ?_, fun _ => mono (ih.refused (.inl hr)), fun _ => by simp, by simp, ?_⟩
      · rw [hu]; exact ⟨by simp, by simp⟩
      · simpa [hu] using hst
      · intro i hi
        obtain ⟨p, h1, h2, h3, h4⟩ := ih.ended i hi
        exact ⟨p, h1, h2, h3, fun h => List.mem_append_left _ (h4 h)⟩
    | exit l hv hl =>
      refine ⟨ih.nodup, ih.lines, fun i hi => begun_step hl i (ih.begun i hi), ih.count, ?_, ?_, fun h => mono (ih.refused h), ih.reported,
        fun h => ⟨(ih.panicked h).1, (ih.panicked h).2.imp mono mono⟩, hend l _ s.err hl (by simp) (fun _ h => h)⟩
      · cases hl with
        | exit hu => rw [hu] at hm; exact hm
      · cases hl with
        | exit hu => exact ⟨rfl, hv⟩
    | say i p line hx hh hp hl hi =>
      have hne : line ≠ byeLine := announce_ne_bye ((thread_line x p line).1 hl)
      refine ⟨?_, ?_, ?_, ?_, hm, hst, fun h => mono (ih.refused h), ih.reported,
        fun h => ⟨(ih.panicked h).1, (ih.panicked h).2.imp mono mono⟩, ?_⟩
      · rw [List.nodup_append]
        exact ⟨ih.nodup, by simp, fun a ha b hb => by rintro rfl; simp at hb; exact hi (hb ▸ ha)⟩
      · rw [List.filter_append, show [line].filter (· ≠ byeLine) = [line] from by simp [hne]]
        exact each2_snoc ih.lines ⟨p, hp, hl⟩
      · intro j hj
        rcases List.mem_append.1 hj with hj | hj
        · exact ih.begun j hj
        · simp at hj; subst hj; exact .inl hh
      · rw [List.count_append, ih.count, List.count_eq_zero_of_not_mem (by simpa using hne.symm), Nat.add_zero]
      · intro j hj
        obtain ⟨q, h1, h2, h3, h4⟩ := ih.ended j hj
        exact ⟨q, h1, h2, fun h => List.mem_append_left _ (h3 h), h4⟩
    | ends i p l hp hw hsaid hl =>
      have he := stays_ended hl
      refine ⟨ih.nodup, ih.lines, fun i hi => begun_step hl i (ih.begun i hi), ih.count, ?_, ?_, fun h => mono (ih.refused h), fun h => List.mem_append_left _ (ih.reported h),
        fun h => ⟨List.mem_append_left _ (ih.panicked h).1, (ih.panicked h).2.imp mono mono⟩, ?_⟩
      · have hb := begun_step hl
        cases hl with
        | release hx hj =>
          revert hm
          simp only [List.length_set]
          cases hmain : s.life.main with
          | waiting => exact fun hm => ⟨hm.1, hm.2.1, hm.2.2.imp fun i => hb i⟩
          | spawning | polling | failed => exact id
          | returned => exact fun hm => ⟨hm.1, hm.2.1, hm.2.2.imp fun i => he i⟩
          | _ => exact fun hm => ⟨hm.1, fun h => ⟨(hm.2 h).1, (hm.2 h).2.imp fun i => he i⟩⟩
      · cases hl with
        | release hx hj => exact hst
      · intro j hj
        rcases ended_step hl j hj with h | h
        · obtain ⟨q, h1, h2, h3, h4⟩ := ih.ended j h
          exact ⟨q, h1, h2, h3, fun h => List.mem_append_left _ (h4 h)⟩
        · cases h
          exact ⟨p, hp, hw, hsaid, fun h => by simp [h]⟩

/-! ## C216 -/

/-- **C216**, what holds in every execution: standard output has the line of each service that has begun to listen, once, with where and what it serves, and besides these at most
`httpd: shutdown`, once; a service that is ready can say its line at once, whatever the others do, and does not end before it has. `httpd: shutdown` comes only when the threads of
all services were created and at least one has ended. A service that has panicked has its message on standard error. The process has an exit status when it has exited: 0 exactly if
`httpd: shutdown` is there; 1 if a thread could not be created, and then standard error has `Error: ` and the reason; 101 if the main thread panicked, and then that has its message.
Missing from C216: that `httpd: shutdown` is the last line and comes when all services have ended, and that nobody is announced when the process refuses. -/
theorem C216_says_partial (x : CoreEnv C K) (services : List (Str × ServiceConfig)) (tr : List VoiceAct) (s : Voices) (h : VoiceRun x services .start tr s) :
    (∃ who : List Nat, who.Nodup ∧ Each2 (fun i line => (∃ p, services[i]? = some p ∧ CoreAnnounces x p line) ∧
      (s.life.threads[i]? = some .holding ∨ s.life.threads[i]? = some .ended)) who (s.out.filter (· ≠ u!"httpd: shutdown"))) ∧
    s.out.count u!"httpd: shutdown" ≤ 1 ∧
    (∀ (i : Nat) p line, s.life.threads[i]? = some .holding → s.life.main ≠ .exited → services[i]? = some p → CoreAnnounces x p line → VoiceAct.say i ∉ tr →
      ∃ s', VoiceStep x services s (.say i) s' ∧ s'.out = s.out ++ [line]) ∧
    (∀ (i : Nat) p line, s.life.threads[i]? = some .ended → services[i]? = some p → CoreAnnounces x p line → line ∈ s.out) ∧
    (u!"httpd: shutdown" ∈ s.out → s.life.threads.length = services.length ∧ ∃ i : Nat, s.life.threads[i]? = some .ended) ∧
    (∀ (i : Nat) p, s.life.threads[i]? = some .ended → services[i]? = some p → CorePanics x p → x.panicText (u!"httpd.service:" ++ p.2.name) ∈ s.err) ∧
    (s.life.main = .exited ↔ s.status ≠ none) ∧
    (∀ c, s.status = some c →
      c = 0 ∧ u!"httpd: shutdown" ∈ s.out ∨
      c = 1 ∧ u!"httpd: shutdown" ∉ s.out ∧ VoiceAct.spawnFail ∈ tr ∧ u!"Error: " ++ x.spawnText ∈ s.err ∨
      c = 101 ∧ u!"httpd: shutdown" ∉ s.out ∧ (VoiceAct.spawnPanic ∈ tr ∨ VoiceAct.byeFail ∈ tr) ∧ x.panicText u!"main" ∈ s.err) := by
  have hi := voice_inv h
  have hsaid : ∀ i, i ∈ s.said ↔ VoiceAct.say i ∈ tr := by
    intro i
    clear hi
    induction h with
    | nil => simp [Voices.start]
    | snoc _ hs ih => cases hs <;> simp [ih]
  have hbye : u!"httpd: shutdown" ∈ s.out ↔ s.voice = .bye := by
    have hc := hi.count
    constructor
    · intro hm
      have := List.count_pos_iff.2 hm
      by_cases hv : s.voice = .bye
      · exact hv
      · rw [if_neg hv] at hc; exact absurd hc (by rw [byeLine]; omega)
    · intro hv
      rw [if_pos hv] at hc
      exact List.count_pos_iff.1 (by rw [byeLine] at hc; omega)
  refine ⟨⟨s.said, hi.nodup, ?_⟩, ?_, ?_, ?_, ?_, ?_, ?_, ?_⟩
  · have hb := hi.begun
    have he : Each2 _ s.said (s.out.filter (· ≠ u!"httpd: shutdown")) := hi.lines
    revert hb he
    generalize s.said = l
    generalize s.out.filter (· ≠ u!"httpd: shutdown") = m
    intro hb he
    induction he with
    | nil => exact .nil
    | cons hab _ ih =>
      obtain ⟨p, h1, h2⟩ := hab
      exact .cons ⟨⟨p, h1, (thread_line x p _).1 h2⟩, hb _ (by simp)⟩ (ih (fun i hi => hb i (by simp [hi])))
  · have := hi.count
    rw [byeLine] at this
    rw [this]; split <;> omega
  · intro i p line hh hx hp ha hn
    exact ⟨_, .say s i p line hx hh hp ((thread_line x p line).2 ha) (fun h => hn ((hsaid i).1 h)), rfl⟩
  · intro i p line he hp ha
    obtain ⟨q, h1, _, h3, _⟩ := hi.ended i he
    rw [hp] at h1; cases h1
    have hl := (thread_line x p line).2 ha
    obtain ⟨b, hb, q, hq, hq'⟩ := each2_mem_left hi.lines i (h3 (by rw [hl]; simp))
    rw [hp] at hq; cases hq
    rw [hl] at hq'; cases hq'
    exact (List.mem_filter.1 hb).1
  · intro hb
    have hm := hi.main
    have hv := hbye.1 hb
    cases hmain : s.life.main <;> rw [hmain] at hm <;> simp only [hv] at hm
    all_goals first
      | exact hm.2
      | exact hm.2 trivial
      | simp at hm
  · intro i p he hp hpan
    obtain ⟨q, h1, _, _, h4⟩ := hi.ended i he
    rw [hp] at h1; cases h1
    exact h4 (thread_panics x p hpan)
  · have hs := hi.status
    have hm := hi.main
    by_cases hx : s.life.main = .exited
    · rw [if_pos hx] at hs
      rw [hx] at hm
      refine ⟨fun _ => ?_, fun _ => hx⟩
      rw [hs.1]
      cases hv : s.voice <;> rw [hv] at hs hm <;> simp_all [MainVoice.status]
    · rw [if_neg hx] at hs; simp [hx, hs]
  · intro c hc
    have hs := hi.status
    by_cases hx : s.life.main = .exited
    · rw [if_pos hx] at hs
      rw [hs.1] at hc
      rw [hbye]
      cases hv : s.voice <;> rw [hv] at hc <;> simp only [MainVoice.status, Option.some.injEq, reduceCtorEq] at hc <;> subst hc
      · exact .inl ⟨rfl, rfl⟩
      · exact .inr (.inl ⟨rfl, by simp, hi.refused (.inr hv), hi.reported hv⟩)
      · exact .inr (.inr ⟨rfl, by simp, (hi.panicked hv).2, (hi.panicked hv).1⟩)
    · rw [if_neg hx, hc] at hs; cases hs

theorem voice_split {s u : Voices} {tr : List VoiceAct} (h : VoiceRun x services s tr u) :
    ∀ tr1 a tr2, tr = tr1 ++ a :: tr2 → ∃ t t', VoiceRun x services s tr1 t ∧ VoiceStep x services t a t' := by
  induction h with
  | nil => intro tr1 a tr2 h; simp at h
  | @snoc tr t u b hr hs ih =>
    intro tr1 a tr2 he
    rcases tr2.eq_nil_or_concat with rfl | ⟨tr3, c, rfl⟩
    · obtain ⟨rfl, h2⟩ := List.append_inj' he rfl
      cases h2
      exact ⟨t, u, hr, hs⟩
    · rw [List.concat_eq_append, ← List.cons_append, ← List.append_assoc] at he
      obtain ⟨rfl, _⟩ := List.append_inj' he rfl
      exact ih tr1 a tr3 rfl

/-- A thread has begun exactly if it has taken the lock. -/
theorem begun_iff {tr : List VoiceAct} {s : Voices} (h : VoiceRun x services .start tr s) (i : Nat) :
    VoiceAct.life (.take i) ∈ tr ↔ s.life.threads[i]? = some .holding ∨ s.life.threads[i]? = some .ended := by
  induction h with
  | nil => simp [Voices.start, Life.start]
  | @snoc tr s s' a hr hs ih =>
    have key : ∀ (b : LifeAct) (l : Life), LifeStep services.length s.life b l → b ≠ .take i →
        (l.threads[i]? = some .holding ∨ l.threads[i]? = some .ended → VoiceAct.life (.take i) ∈ tr) := by
      intro b l hl hb hi
      refine ih.2 ?_
      cases hl with
      | spawn k _ _ =>
        simp only [List.getElem?_append] at hi
        split at hi
        · exact hi
        · simp only [List.getElem?_singleton] at hi; split at hi <;> simp at hi
      | take j _ hj =>
        simp only [List.getElem?_set] at hi
        split at hi
        · rename_i h; subst h; exact absurd rfl hb
        · exact hi
      | release j _ hj =>
        simp only [List.getElem?_set] at hi
        split at hi
        · rename_i h; subst h; exact .inl hj
        · exact hi
      | _ => exact hi
    constructor
    · intro hm
      rcases List.mem_append.1 hm with hm | hm
      · have hb := ih.1 hm
        cases hs with
        | life b l hq hl => exact begun_step hl i hb
        | spawn k p l _ _ _ hl => exact begun_step hl i hb
        | spawnFail k p l _ _ _ hl => exact begun_step hl i hb
        | spawnPanic k p l _ _ _ hl => exact begun_step hl i hb
        | freeLogger l _ hl => exact begun_step hl i hb
        | exit l _ hl => exact begun_step hl i hb
        | ends j p l _ _ _ hl => exact begun_step hl i hb
        | _ => exact hb
      · simp only [List.mem_singleton] at hm
        subst hm
        cases hs with
        | life b l hq hl =>
          cases hl with
          | take j hx hj => left; simp [List.getElem?_set, (List.getElem?_eq_some_iff.1 hj).1]
    · intro hb
      cases hs with
      | life b l hq hl =>
        by_cases hbt : b = .take i
        · subst hbt; simp
        · exact List.mem_append_left _ (key b l hl hbt hb)
      | spawn k p l _ _ _ hl => exact List.mem_append_left _ (key _ l hl (by simp) hb)
      | spawnFail k p l _ _ _ hl => exact List.mem_append_left _ (key _ l hl (by simp) hb)
      | spawnPanic k p l _ _ _ hl => exact List.mem_append_left _ (key _ l hl (by simp) hb)
      | freeLogger l _ hl => exact List.mem_append_left _ (key _ l hl (by simp) hb)
      | exit l _ hl => exact List.mem_append_left _ (key _ l hl (by simp) hb)
      | ends j p l _ _ _ hl => exact List.mem_append_left _ (key _ l hl (by simp) hb)
      | _ => exact List.mem_append_left _ (ih.2 hb)

/-- What is true after every action, if all threads take the lock before the main thread stops looking for one that has. -/
structure InTime (services : List (Str × ServiceConfig)) (s : Voices) : Prop where
  waiting : s.life.main = .waiting → ∀ i, i < services.length → s.life.threads[i]? = some .holding ∨ s.life.threads[i]? = some .ended
  returned : s.life.main = .returned ∨ s.voice = .bye → ∀ i, i < services.length → s.life.threads[i]? = some .ended
  last : s.voice = .bye → s.out.getLast? = some byeLine

theorem in_time {tr : List VoiceAct} {s : Voices} (h : VoiceRun x services .start tr s)
    (ht : ∀ tr1 tr2, tr = tr1 ++ VoiceAct.life .giveUp :: tr2 → ∀ i, i < services.length → VoiceAct.life (.take i) ∈ tr1) : InTime services s := by
  induction h with
  | nil => exact ⟨by simp [Voices.start, Life.start], by simp [Voices.start, Life.start], by simp [Voices.start]⟩
  | @snoc tr s s' a hr hs ih =>
    have ih := ih (fun tr1 tr2 he => ht tr1 (tr2 ++ [a]) (by rw [he]; simp))
    have keep : ∀ (b : LifeAct) (l : Life) (t : Voices), LifeStep services.length s.life b l → t.life = l → t.voice = .bye → s.voice = .bye →
        ∀ i, i < services.length → t.life.threads[i]? = some .ended := by
      intro b l t hl ht _ hv i hi
      rw [ht]; exact stays_ended hl i (ih.returned (.inr hv) i hi)
    cases hs with
    | life a l hq hl =>
      have hb := begun_step hl
      have he := stays_ended hl
      refine ⟨?_, ?_, ih.last⟩
      · intro hw i hi
        cases hl with
        | spawn | spawnFail | freeLogger | exit | release => cases hq
        | giveUp h hf => exact (begun_iff hr i).1 (ht tr [] rfl i hi)
        | poll h _ => exact ih.waiting hw i hi
        | take j hx hj => exact hb i (ih.waiting hw i hi)
        | log => exact ih.waiting hw i hi
        | read => exact ih.waiting hw i hi
        | _ => simp at hw
      · rintro (hw | hw) i hi
        · cases hl with
          | spawn | spawnFail | freeLogger | exit | release => cases hq
          | enter h hf => exact enter_ended (n := services.length) (.enter _ h hf) i (ih.waiting h i hi)
          | poll h _ => exact ih.returned (.inl hw) i hi
          | take j hx hj => exact he i (ih.returned (.inl hw) i hi)
          | log => exact ih.returned (.inl hw) i hi
          | read => exact ih.returned (.inl hw) i hi
          | _ => simp at hw
        · exact he i (ih.returned (.inr hw) i hi)
    | spawn k p l hk _ _ hl =>
      refine ⟨fun hw => ?_, ?_, ih.last⟩
      · cases hl; simp at hw
      · rintro (hw | hw) i hi
        · cases hl; simp at hw
        · exact stays_ended hl i (ih.returned (.inr hw) i hi)
    | spawnFail k p l _ _ _ hl =>
      refine ⟨fun hw => ?_, ?_, by simp⟩
      · cases hl; simp at hw
      · rintro (hw | hw) i hi
        · cases hl; simp at hw
        · cases hw
    | spawnPanic k p l _ _ _ hl =>
      refine ⟨fun hw => ?_, ?_, by simp⟩
      · cases hl; simp at hw
      · rintro (hw | hw) i hi
        · cases hl; simp at hw
        · cases hw
    | bye hm _ _ => exact ⟨ih.waiting, fun _ => ih.returned (.inl hm), fun _ => by simp [byeLine]⟩
    | byeFail hm _ _ => exact ⟨ih.waiting, fun _ => ih.returned (.inl hm), by simp⟩
    | freeLogger l _ hl =>
      refine ⟨fun hw => ?_, ?_, ih.last⟩
      · cases hl; simp at hw
      · rintro (hw | hw) i hi
        · cases hl; simp at hw
        · exact stays_ended hl i (ih.returned (.inr hw) i hi)
    | report hm _ => exact ⟨ih.waiting, fun h => by rcases h with h | h <;> simp_all, by simp⟩
    | exit l _ hl =>
      refine ⟨fun hw => ?_, ?_, ih.last⟩
      · cases hl; simp at hw
      · rintro (hw | hw) i hi
        · cases hl; simp at hw
        · exact stays_ended hl i (ih.returned (.inr hw) i hi)
    | say i p line hx hh hp hl hi =>
      refine ⟨ih.waiting, ih.returned, fun hv => ?_⟩
      have := ih.returned (.inr hv) i (List.getElem?_eq_some_iff.1 hp).1
      rw [hh] at this; cases this
    | ends j p l hp _ _ hl =>
      have hm : l.main = s.life.main := by cases hl; rfl
      refine ⟨fun hw i hi => begun_step hl i (ih.waiting (hm ▸ hw) i hi), ?_, ih.last⟩
      rintro (hw | hw) i hi
      · exact stays_ended hl i (ih.returned (.inl (hm ▸ hw)) i hi)
      · exact stays_ended hl i (ih.returned (.inr hw) i hi)

/-- **C216**, what holds in the executions in which every thread has taken the lock before the main thread stops looking for one that has; with a single service that is
every execution: when `httpd: shutdown` is there it is the last line, every service has ended, and every service that got as far as listening has its line. -/
theorem C216_in_time_partial (x : CoreEnv C K) (services : List (Str × ServiceConfig)) (tr : List VoiceAct) (s : Voices) (h : VoiceRun x services .start tr s)
    (ht : services.length = 1 ∨ ∀ tr1 tr2, tr = tr1 ++ VoiceAct.life .giveUp :: tr2 → ∀ i, i < services.length → VoiceAct.life (.take i) ∈ tr1)
    (hb : u!"httpd: shutdown" ∈ s.out) :
    s.out.getLast? = some u!"httpd: shutdown" ∧ (∀ i, i < services.length → s.life.threads[i]? = some .ended) ∧
    ∀ p ∈ services, ∀ line, CoreAnnounces x p line → line ∈ s.out := by
  have hi := voice_inv h
  have hv : s.voice = .bye := by
    have hc := hi.count
    have := List.count_pos_iff.2 hb
    by_cases hv : s.voice = .bye
    · exact hv
    · rw [if_neg hv] at hc; exact absurd hc (by rw [byeLine]; omega)
  have hj : InTime services s := by
    refine in_time h ?_
    rcases ht with ht | ht
    · intro tr1 tr2 he i hlt
      obtain rfl : i = 0 := by omega
      obtain ⟨t, t', h1, h2⟩ := voice_split h tr1 _ tr2 he
      refine (begun_iff h1 0).2 ?_
      cases h2 with
      | life _ l hq hl =>
        cases hl with
        | giveUp hp hf =>
          have hm := (voice_inv h1).main
          rw [hp] at hm
          simp only [Life.free, Classical.not_forall, Decidable.not_not] at hf
          obtain ⟨y, hy, rfl⟩ := hf
          obtain ⟨j, hj⟩ := List.mem_iff_getElem?.1 hy
          have := (List.getElem?_eq_some_iff.1 hj).1
          obtain rfl : j = 0 := by omega
          exact .inl hj
    · exact ht
  refine ⟨hj.last hv, hj.returned (.inr hv), fun p hp line ha => ?_⟩
  obtain ⟨i, hip⟩ := List.mem_iff_getElem?.1 hp
  exact (C216_says_partial x services tr s h).2.2.2.1 i p line (hj.returned (.inr hv) i (List.getElem?_eq_some_iff.1 hip).1) hip ha

/-- All threads can be created before any of them runs. -/
theorem voices_spawned (x : CoreEnv C K) (services : List (Str × ServiceConfig)) (hn : ∀ p ∈ services, 0 ∉ p.2.name) (k : Nat) (hk : k ≤ services.length) :
    VoiceRun x services .start (List.replicate k .spawn) ⟨⟨.spawning k, List.replicate k .spawned, 0, 0⟩, [], .going, [], [], none⟩ := by
  induction k with
  | zero => exact .nil
  | succ k ih =>
    have hlt : k < services.length := by omega
    have h1 := VoiceRun.snoc (ih (by omega)) (.spawn _ k (services[k]'hlt) _ rfl (List.getElem?_eq_getElem hlt)
      (by
        have := hn _ (List.getElem_mem hlt)
        simp only [threadName, List.contains_eq_mem, List.mem_append, this, or_false, decide_eq_false_iff_not]
        decide) (.spawn _ k rfl hlt))
    rw [List.replicate_succ', List.replicate_succ']
    exact h1

/-- **C216**, negation for the code as written: whenever there are two services, the first of which ends while the second gets as far as listening, there is an execution
in which all threads are created, the process says `httpd: shutdown` and after that that the second service is listening, and exits with status 0 while this
service is running. -/
theorem C216_late_violated (x : CoreEnv C K) (p q : Str × ServiceConfig) (rest : List (Str × ServiceConfig)) (hn : ∀ r ∈ p :: q :: rest, 0 ∉ r.2.name)
    (hp : (x.thread p).2 ≠ .waiting) (line : Str) (hq : CoreAnnounces x q line) (hb : x.prints.bye = true) :
    ∃ tr s before, VoiceRun x (p :: q :: rest) .start tr s ∧ VoiceAct.spawnFail ∉ tr ∧ s.status = some 0 ∧
      s.out = before ++ [u!"httpd: shutdown", line] ∧ s.life.threads[1]? = some .holding := by
  have h0 := voices_spawned x (p :: q :: rest) hn (rest.length + 2) (by simp)
  have h1 := VoiceRun.snoc h0 (.life _ .spawnDone _ rfl (.spawnDone _ rfl))
  have h2 := VoiceRun.snoc h1 (.life _ (.take 0) _ rfl (.take _ 0 (by simp) rfl))
  have h3 := VoiceRun.snoc h2 (.life _ .giveUp _ rfl (.giveUp _ rfl (fun h => h .holding (by simp [List.replicate_succ]) rfl)))
  obtain ⟨tr, said, out, h4, h4s, h5⟩ : ∃ tr said out, VoiceRun x (p :: q :: rest) .start tr
      ⟨⟨.waiting, .holding :: List.replicate (rest.length + 1) .spawned, 0, 0⟩, said, .going, out, [], none⟩ ∧ (1 ∉ said ∧ VoiceAct.spawnFail ∉ tr) ∧
      ((x.thread p).1 ≠ [] → 0 ∈ said) := by
    rcases thread_one x p with h | ⟨l, h⟩
    · exact ⟨_, _, _, h3, by simp, fun h' => absurd h h'⟩
    · exact ⟨_, _, _, .snoc h3 (.say _ 0 p l (by simp) (by simp [List.replicate_succ]) rfl h (by simp)), by simp, fun _ => by simp⟩
  have h6 := VoiceRun.snoc h4 (.ends _ 0 p _ rfl hp h5 (.release _ 0 (by simp) (by simp)))
  have h7 := VoiceRun.snoc h6 (.life _ .enter _ rfl (.enter _ rfl (by
    intro t ht
    simp only [List.set_cons_zero, List.mem_cons, List.mem_replicate] at ht
    rcases ht with rfl | ⟨_, rfl⟩ <;> decide)))
  have h8 := VoiceRun.snoc h7 (.bye _ rfl rfl hb)
  have h9 := VoiceRun.snoc h8 (.life _ (.take 1) _ rfl (.take _ 1 (by simp) (by simp [List.replicate_succ])))
  have h10 := VoiceRun.snoc h9 (.say _ 1 q line (by simp) (by simp [List.replicate_succ]) rfl ((thread_line x q line).2 hq) h4s.1)
  have h11 := VoiceRun.snoc h10 (.freeLogger _ _ (by simp) (.freeLogger _ (.inl rfl)))
  have h12 := VoiceRun.snoc h11 (.life _ .freeConfig _ rfl (.freeConfig _ rfl))
  have h13 := VoiceRun.snoc h12 (.exit _ _ (by simp) (.exit _ rfl))
  exact ⟨_, _, out, h13, by simpa using h4s.2, rfl, by simp, by simp [List.replicate_succ]⟩

/-- **C216**, negation for the code as written: if the thread of a service other than the first cannot be created, there is an execution in which a service has said that it is listening
and the process gives up with status 1. -/
theorem C216_refused_violated (x : CoreEnv C K) (p : Str × ServiceConfig) (rest : List (Str × ServiceConfig)) (hn : ∀ r ∈ p :: rest, 0 ∉ r.2.name)
    (k : Nat) (hk : 1 ≤ k ∧ k ≤ rest.length) (line : Str) (hp : CoreAnnounces x p line) :
    ∃ tr s, VoiceRun x (p :: rest) .start tr s ∧ s.status = some 1 ∧ s.out = [line] ∧ s.err = [u!"Error: " ++ x.spawnText] ∧ s.life.threads.length = k ∧
      s.life.threads[0]? = some .holding := by
  obtain ⟨m, rfl⟩ : ∃ m, k = m + 1 := ⟨k - 1, by omega⟩
  have hlt : m + 1 < (p :: rest).length := by simp; omega
  have h0 := voices_spawned x (p :: rest) hn (m + 1) (by omega)
  have h1 := VoiceRun.snoc h0 (.life _ (.take 0) _ rfl (.take _ 0 (by simp) rfl))
  have h2 := VoiceRun.snoc h1 (.say _ 0 p line (by simp) (by simp [List.replicate_succ]) rfl ((thread_line x p line).2 hp) (by simp))
  have h3 := VoiceRun.snoc h2 (.spawnFail _ (m + 1) ((p :: rest)[m + 1]'hlt) _ rfl (List.getElem?_eq_getElem hlt)
    (by
      have := hn _ (List.getElem_mem hlt)
      simp only [threadName, List.contains_eq_mem, List.mem_append, this, or_false, decide_eq_false_iff_not]
      decide) (.spawnFail _ (m + 1) rfl hlt))
  have h4 := VoiceRun.snoc h3 (.freeLogger _ _ (by simp) (.freeLogger _ (.inr rfl)))
  have h5 := VoiceRun.snoc h4 (.life _ .freeConfig _ rfl (.freeConfig _ rfl))
  have h6 := VoiceRun.snoc h5 (.report _ rfl rfl)
  have h7 := VoiceRun.snoc h6 (.exit _ _ (by simp) (.exit _ rfl))
  exact ⟨_, _, h7, rfl, rfl, rfl, by simp, by simp [List.replicate_succ]⟩

/-- Two services on free addresses that are stopped by Ctrl-C, each on its own runtime. -/
def voiceEnv : CoreEnv Unit Unit := ⟨printProc, Prints.all, fun _ => true, u!"no threads", fun n => n ++ u!" panicked"⟩

theorem voiceEnv_thread (p : Str × ServiceConfig) (hp : p ∈ samplePair) : voiceEnv.thread p = ([u!"httpd: listening @ 0.0.0.0:8080, serve as Hello world"], .ok) := by
  simp only [samplePair, List.mem_cons, List.not_mem_nil, or_false] at hp
  rcases hp with rfl | rfl <;> decide +kernel

/-- They meet the hypotheses of `C216_late_violated` and `C216_refused_violated`. -/
example : (∀ r ∈ samplePair, 0 ∉ r.2.name) ∧ (∀ p ∈ samplePair, (voiceEnv.thread p).2 ≠ .waiting) ∧
    (∀ p ∈ samplePair, CoreAnnounces voiceEnv p u!"httpd: listening @ 0.0.0.0:8080, serve as Hello world") ∧ voiceEnv.prints.bye = true := by
  refine ⟨by decide +kernel, fun p hp => by rw [voiceEnv_thread p hp]; decide, fun p hp => (thread_line _ _ _).1 (by rw [voiceEnv_thread p hp]), rfl⟩

/-- Both begin in time, say their lines and end; then the process says goodbye and exits with status 0. -/
example : ∃ tr s, VoiceRun voiceEnv samplePair .start tr s ∧ s.status = some 0 ∧ s.err = [] ∧
    s.out = [u!"httpd: listening @ 0.0.0.0:8080, serve as Hello world", u!"httpd: listening @ 0.0.0.0:8080, serve as Hello world", u!"httpd: shutdown"] := by
  have ht0 := voiceEnv_thread (u!"a", defaultEffective) (by simp [samplePair])
  have ht1 := voiceEnv_thread (u!"b", defaultEffective) (by simp [samplePair])
  have h0 := voices_spawned voiceEnv samplePair (by decide +kernel) 2 (by decide)
  have h1 := VoiceRun.snoc h0 (.life _ .spawnDone _ rfl (.spawnDone _ rfl))
  have h2 := VoiceRun.snoc h1 (.life _ (.take 0) _ rfl (.take _ 0 (by simp) rfl))
  have h3 := VoiceRun.snoc h2 (.life _ (.take 1) _ rfl (.take _ 1 (by simp) rfl))
  have h4 := VoiceRun.snoc h3 (.life _ .giveUp _ rfl (.giveUp _ rfl (fun h => h .holding (by simp) rfl)))
  have h5 := VoiceRun.snoc h4 (.say _ 1 _ _ (by simp) rfl rfl (congrArg Prod.fst ht1) (by simp))
  have h6 := VoiceRun.snoc h5 (.say _ 0 _ _ (by simp) rfl rfl (congrArg Prod.fst ht0) (by simp))
  have h7 := VoiceRun.snoc h6 (.ends _ 0 (u!"a", defaultEffective) _ rfl (by rw [ht0]; decide) (fun _ => by simp) (.release _ 0 (by simp) rfl))
  have h8 := VoiceRun.snoc h7 (.ends _ 1 (u!"b", defaultEffective) _ rfl (by rw [ht1]; decide) (fun _ => by simp) (.release _ 1 (by simp) rfl))
  have h9 := VoiceRun.snoc h8 (.life _ .enter _ rfl (.enter _ rfl (by intro t ht; simp at ht; rw [ht]; decide)))
  have h10 := VoiceRun.snoc h9 (.bye _ rfl rfl rfl)
  have h11 := VoiceRun.snoc h10 (.freeLogger _ _ (by simp) (.freeLogger _ (.inl rfl)))
  have h12 := VoiceRun.snoc h11 (.life _ .freeConfig _ rfl (.freeConfig _ rfl))
  have h13 := VoiceRun.snoc h12 (.exit _ _ (by simp) (.exit _ rfl))
  refine ⟨_, _, h13, rfl, ?_, rfl⟩
  simp only [ht0, ht1]
  rfl

end Httpd
