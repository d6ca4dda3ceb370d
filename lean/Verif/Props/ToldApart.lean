import Verif.Props.EndToEnd
import Verif.Props.Rfc
/-!
# Which settings of a service a client can tell apart (C125)
-/

namespace Httpd
open Spec

theorem taken_full_eq {delim : Byte} {limit : Nat} {p q rest rest' : Bytes} (h1 : delim ∉ p) (h2 : p.length = limit) (h : Taken delim limit false q rest')
    (he : q ++ rest' = p ++ rest) : q = p ∧ rest' = rest := by
  cases h with
  | upTo q' _ hq hl =>
    exfalso
    rw [List.append_assoc] at he
    rcases List.append_eq_append_iff.mp he with ⟨a, rfl, ha⟩ | ⟨a, rfl, _⟩
    · cases a with
      | nil => simp at h2; omega
      | cons x a =>
        simp only [List.cons_append, List.cons.injEq] at ha
        exact h1 (by simp [← ha.1])
    · simp at hl; omega
  | full _ _ hq hl => exact List.append_inj he (by omega)
  | last _ hc _ _ => cases hc

/-- No header section begins with LF. -/
theorem section_no_lf {maxLine maxCount : Nat} {t rest : Bytes} {fs : List (Bytes × Bytes)} : ¬ Section maxLine maxCount false (10 :: t) fs rest := by
  have key : ∀ p r : Bytes, 2 ≤ p.length → p ++ r = 10 :: t → ¬ Taken 10 maxLine false p r := by
    intro p r hp he h
    cases h with
    | upTo q _ hq _ =>
      cases q with
      | nil => simp at hp
      | cons x q => simp only [List.cons_append, List.cons.injEq] at he; exact hq (by simp [he.1])
    | full _ _ hq _ =>
      cases p with
      | nil => simp at hp
      | cons x q => simp only [List.cons_append, List.cons.injEq] at he; exact hq (by simp [he.1])
    | last _ hc _ _ => cases hc
  generalize hs : 10 :: t = s
  intro h
  cases h with
  | stop x y _ ht => exact key _ _ (by simp) hs.symm ht
  | skip l x y _ _ _ ht => exact key _ _ (by simp) hs.symm ht
  | field n v n' v' x y _ _ _ ht => exact key _ _ (by simp; omega) hs.symm ht

theorem talk_answers {u l c j : Nat} {reply : Nat → Bytes → Bytes} {stops : Bytes → Prop} {s w0 w1 w2 rest : Bytes} {fs : List (Bytes × Bytes)} {outs : List Bytes} {f : Fate}
    (h : HeadText u l c false s w0 w1 w2 fs rest) (hv : valuesIn (collect fs) b!"content-length" = none) (ht : Talk u l c .silent reply stops j s outs f) :
    ∃ more, outs = reply j w2 :: more := by
  obtain ⟨h1, h2⟩ := C129_unambiguous u l c false s w0 w1 w2 rest fs h
  have hann : ∀ (fs' : List (Bytes × Bytes)) n, (∀ k, valuesIn (collect fs') k = valuesIn (collect fs) k) → Announces fs' n → n = some 0 := by
    intro fs' n he ha
    have he := he b!"content-length"
    rw [hv] at he
    cases ha with
    | absent => rfl
    | number v vs n hx => rw [he] at hx; cases hx
    | bad v vs hx => rw [he] at hx; cases hx
  cases ht with
  | refused _ _ hno _ => exact absurd ⟨_, _, _, _, _, h⟩ hno
  | waits _ _ _ ho => exact absurd ho (h2 rfl)
  | badLength _ _ _ _ _ _ _ hh ha => have := hann _ _ (h1 _ _ _ _ _ hh).2.2.2.2 ha; cases this
  | short _ _ _ _ _ _ _ n hh ha hl => have := hann _ _ (h1 _ _ _ _ _ hh).2.2.2.2 ha; cases this; omega
  | final _ _ _ _ _ _ _ _ hh ha hs => exact ⟨[], by rw [(h1 _ _ _ _ _ hh).2.2.1]⟩
  | next _ _ _ _ _ _ _ _ outs _ hh ha hs _ => exact ⟨outs, by rw [(h1 _ _ _ _ _ hh).2.2.1]⟩

theorem talk_none {u l c j : Nat} {reply : Nat → Bytes → Bytes} {stops : Bytes → Prop} {s : Bytes} {outs : List Bytes} {f : Fate}
    (h : ¬ ∃ w0 w1 w2 fs rest, HeadText u l c false s w0 w1 w2 fs rest) (ht : Talk u l c .silent reply stops j s outs f) : outs = [] := by
  cases ht with
  | refused => rfl
  | waits => rfl
  | badLength _ _ _ _ _ _ _ hh => exact absurd ⟨_, _, _, _, _, hh⟩ h
  | short _ _ _ _ _ _ _ n hh => exact absurd ⟨_, _, _, _, _, hh⟩ h
  | final _ _ _ _ _ _ _ _ hh => exact absurd ⟨_, _, _, _, _, hh⟩ h
  | next _ _ _ _ _ _ _ _ outs _ hh => exact absurd ⟨_, _, _, _, _, hh⟩ h

/-! ## Three requests -/

/-- A request with a target of `n` bytes and a version text of 126 bytes. -/
def longTarget (n : Nat) : Bytes := [71, 32] ++ (List.replicate n 97 ++ [32] ++ (List.replicate 126 118 ++ [13, 10] ++ [13, 10]))

/-- A request with a header line of `n` bytes and its LF. -/
def longLine (n : Nat) : Bytes := [71, 32] ++ ([32] ++ ([86] ++ [13, 10] ++ (58 :: List.replicate (n - 2) 97 ++ [13, 10] ++ [13, 10])))

/-- A request without any header. -/
def plainRequest : Bytes := [71, 32] ++ ([32] ++ ([86] ++ [13, 10] ++ [13, 10]))

theorem text_replicate (n : Nat) (b : Byte) (hb : IsText b) : ∀ c ∈ List.replicate n b, IsText c := by
  intro c hc
  rw [(List.mem_replicate.mp hc).2]
  exact hb

theorem stop_section {l c : Nat} (hl : 2 ≤ l) : Section l c false [13, 10] [] [] :=
  .stop 13 10 [] (.upTo [13] [] (by decide) (by simp; omega))

theorem longTarget_head {u l c n : Nat} (hn : n < u) (hl : 2 ≤ l) : HeadText u l c false (longTarget n) [71] (List.replicate n 97) (List.replicate 126 118) [] [] := by
  refine .mk [71] (List.replicate n 97) (List.replicate 126 118) 32 32 13 10 [13, 10] [] [] (.upTo [71] _ (by decide) (by decide)) (by decide)
    (.upTo _ _ (by simp [List.mem_replicate]) (by simpa using hn)) (text_replicate _ _ (by decide)) ?_ (by simp) (text_replicate _ _ (by decide)) (by decide) (stop_section hl)
  exact Taken.upTo (delim := 10) (limit := 128) (List.replicate 126 118 ++ [13]) _ (by simp) (by simp)

theorem plain_head {u l c : Nat} (hu : 1 ≤ u) (hl : 2 ≤ l) : HeadText u l c false plainRequest [71] [] [86] [] [] := by
  refine .mk [71] [] [86] 32 32 13 10 [13, 10] [] [] (.upTo [71] _ (by decide) (by decide)) (by decide) (.upTo [] _ (by decide) (by simp; omega)) (by decide) ?_ (by decide) (by decide)
    (by decide) (stop_section hl)
  exact .upTo [86, 13] _ (by decide) (by decide)

theorem longLine_head {u l c n : Nat} (hu : 1 ≤ u) (hn : 3 ≤ n) (hl : n < l) (hc : 1 ≤ c) :
    HeadText u l c false (longLine n) [71] [] [86] [(lower [], List.replicate (n - 2) 97)] [] := by
  refine .mk [71] [] [86] 32 32 13 10 _ _ [] (.upTo [71] _ (by decide) (by decide)) (by decide) (.upTo [] _ (by decide) (by simp; omega)) (by decide) ?_ (by decide) (by decide)
    (by decide) ?_
  · exact .upTo [86, 13] _ (by decide) (by decide)
  · have hne : List.replicate (n - 2) (97 : Byte) ≠ [] := by simp; omega
    refine .field [] (List.replicate (n - 2) 97) [] _ 13 10 [13, 10] [] [] ?_ (by simp) (by simp) (by simp) (text_replicate _ _ (by decide)) hne hc ⟨0, 0, by simp⟩ ⟨0, 0, by simp, ?_, ?_⟩
      (stop_section (by omega))
    · have : ([] ++ 58 :: List.replicate (n - 2) 97 ++ [13, 10] : Bytes) = (58 :: List.replicate (n - 2) 97 ++ [13]) ++ [10] := by simp
      rw [this]
      exact .upTo _ _ (by simp [List.mem_replicate]) (by simp; omega)
    · rw [List.head?_replicate]; split <;> simp
    · rw [List.getLast?_replicate]; split <;> simp

theorem longTarget_refused {u l c : Nat} : ¬ ∃ w0 w1 w2 fs rest, HeadText u l c false (longTarget u) w0 w1 w2 fs rest := by
  rintro ⟨w0, w1, w2, fs, rest, h⟩
  generalize hs : longTarget u = s at h
  cases h with
  | mk _ _ _ a b x y t _ _ h0 _ h1 _ h2 _ _ _ h3 =>
    unfold longTarget at hs
    obtain ⟨-, e1⟩ := taken_eq (q := [71]) (by decide) (by decide) h0 hs.symm
    have e1' : w1 ++ [b] ++ (w2 ++ [x, y] ++ t) = List.replicate u 97 ++ ([32] ++ (List.replicate 126 118 ++ [13, 10] ++ [13, 10])) := by rw [e1, List.append_assoc]
    obtain ⟨-, e2⟩ := taken_full_eq (by simp [List.mem_replicate]) (by simp) h1 e1'
    have e2' : w2 ++ [x, y] ++ t = ([32] ++ List.replicate 126 118 ++ [13]) ++ [10, 13, 10] := by rw [e2]; rfl
    obtain ⟨-, e3⟩ := taken_full_eq (by simp) (by simp) h2 e2'
    rw [e3] at h3
    exact section_no_lf h3

theorem longLine_refused {u l c : Nat} (hu : 1 ≤ u) (hl : 3 ≤ l) : ¬ ∃ w0 w1 w2 fs rest, HeadText u l c false (longLine l) w0 w1 w2 fs rest := by
  rintro ⟨w0, w1, w2, fs, rest, h⟩
  generalize hs : longLine l = s at h
  cases h with
  | mk _ _ _ a b x y t _ _ h0 _ h1 _ h2 _ _ _ h3 =>
    unfold longLine at hs
    obtain ⟨-, e1⟩ := taken_eq (q := [71]) (by decide) (by decide) h0 hs.symm
    obtain ⟨-, e2⟩ := taken_eq (q := []) (by decide) (by simp; omega) h1 e1
    obtain ⟨-, e3⟩ := taken_eq (q := [86, 13]) (by decide) (by decide) h2 e2
    have key : ∀ p r : Bytes, Taken 10 l false p r → p ++ r = t → p.length = l ∧ r = [10, 13, 10] := by
      intro p r ht hp
      obtain ⟨e4, e5⟩ := taken_full_eq (p := 58 :: List.replicate (l - 2) 97 ++ [13]) (rest := [10, 13, 10]) (by simp [List.mem_replicate]) (by simp; omega) ht (by rw [hp, e3]; simp)
      exact ⟨by rw [e4]; simp; omega, e5⟩
    cases h3 with
    | stop x y _ ht => have := (key _ _ ht rfl).1; simp at this; omega
    | skip _ x y _ _ _ ht _ _ _ _ h4 => rw [(key _ _ ht rfl).2] at h4; exact section_no_lf h4
    | field n v n' v' x y _ _ _ ht _ _ _ _ _ _ _ _ h4 => rw [(key _ _ ht rfl).2] at h4; exact section_no_lf h4

/-! ## C125: told apart -/

/-- What a client gets on a connection of a service that serves HTTP. -/
theorem wire_talk {C K : Type} (s : ServiceConfig) (hk : s.service.kind = .helloWorld ∨ s.service.kind = .fileSystem) (ha : s.Allocates) (x : World C K) (d : Served)
    (hp : ∀ j, ∃ n, x.plan d.id j = .takes (n + 1)) (hf : (x.client d.id).fin = .silent) :
    ∃ reply stops outs f, Answers s.service reply stops ∧ (s.connection x d).wire = outs.flatten ∧
      Talk s.http.maxUrl s.http.maxLine s.http.maxHeaders .silent reply stops 0 (x.client d.id).flat outs f := by
  obtain ⟨env, e1, _, _, e4⟩ := connection_serve x s ha d hp
  cases hsv : s.service with
  | helloWorld =>
    rw [hsv] at e1
    obtain ⟨f, _, h⟩ := C130_hello_whole x.codec s.http.limits env e1 (x.client d.id)
    rw [hf] at h
    exact ⟨_, _, _, f, .hello, e4, h⟩
  | fileSystem root =>
    rw [hsv] at e1
    obtain ⟨f, _, h⟩ := C130_fs_whole x.codec s.http.limits env e1 (x.client d.id)
    rw [hf] at h
    exact ⟨_, _, _, f, .files root, e4, h⟩
  | forward => rw [hsv] at hk; rcases hk with h | h <;> cases h
  | upstream => rw [hsv] at hk; rcases hk with h | h <;> cases h

/-- The first byte of an answer tells the kind. -/
theorem reply_first {k : ServiceSetting} {reply : Nat → Bytes → Bytes} {stops : Bytes → Prop} (h : Answers k reply stops) (v : Bytes) (j : Nat) :
    (reply j v).head? = some (if k.kind = .helloWorld then 72 else 32) := by
  cases h with
  | hello =>
    simp only [helloText, ServiceSetting.kind]
    split <;> rfl
  | files root => rfl

/-- Every client that sends these bytes, in whatever pieces, and takes what it is sent gets something else from the one service than from the other. -/
def TellsApart (s s' : ServiceConfig) (sent : Bytes) : Prop :=
  ∀ (C K : Type) (x : World C K) (d : Served), (x.client d.id).flat = sent → (x.client d.id).fin = .silent → (∀ j, ∃ n, x.plan d.id j = .takes (n + 1)) →
    (s.connection x d).wire ≠ (s'.connection x d).wire

/-- A request that one of them answers and the other does not. -/
theorem apart_one (a b : ServiceConfig) (ka : a.service.kind = .helloWorld ∨ a.service.kind = .fileSystem) (kb : b.service.kind = .helloWorld ∨ b.service.kind = .fileSystem) (aa : a.Allocates)
    (ab : b.Allocates) (sent w0 w1 w2 rest : Bytes) (fs : List (Bytes × Bytes))
    (hno : ¬ ∃ w0 w1 w2 fs rest, HeadText a.http.maxUrl a.http.maxLine a.http.maxHeaders false sent w0 w1 w2 fs rest)
    (hyes : HeadText b.http.maxUrl b.http.maxLine b.http.maxHeaders false sent w0 w1 w2 fs rest) (hv : valuesIn (collect fs) b!"content-length" = none) : TellsApart a b sent := by
  intro C K x d hx hf hp h
  obtain ⟨_, _, outs, _, _, r2, r3⟩ := wire_talk a ka aa x d hp hf
  obtain ⟨reply, _, outs', _, an, r2', r3'⟩ := wire_talk b kb ab x d hp hf
  rw [hx] at r3 r3'
  obtain ⟨more, hm⟩ := talk_answers hyes hv r3'
  rw [r2, r2', talk_none hno r3, hm] at h
  have := reply_first an w2 0
  rw [List.append_eq_nil_iff.mp h.symm |>.1] at this
  cases this

theorem apart (s s' : ServiceConfig) (hk : s.service.kind = .helloWorld ∨ s.service.kind = .fileSystem) (hk' : s'.service.kind = .helloWorld ∨ s'.service.kind = .fileSystem)
    (ha : s.Allocates) (ha' : s'.Allocates)
    (hu : 1 ≤ s.http.maxUrl) (hu' : 1 ≤ s'.http.maxUrl) (hl : 3 ≤ s.http.maxLine) (hl' : 3 ≤ s'.http.maxLine) (hc : 1 ≤ s.http.maxHeaders) (hc' : 1 ≤ s'.http.maxHeaders)
    (hne : ¬ (s'.service.kind = s.service.kind ∧ s'.http.maxUrl = s.http.maxUrl ∧ s'.http.maxLine = s.http.maxLine)) : ∃ sent, TellsApart s s' sent := by
  have flip : ∀ sent, TellsApart s' s sent → ∃ sent, TellsApart s s' sent := fun sent h => ⟨sent, fun C K x d h1 h2 h3 => (h C K x d h1 h2 h3).symm⟩
  by_cases e1 : s'.http.maxUrl = s.http.maxUrl
  · by_cases e2 : s'.http.maxLine = s.http.maxLine
    · have e3 : s'.service.kind ≠ s.service.kind := fun h => hne ⟨h, e1, e2⟩
      refine ⟨plainRequest, fun C K x d hx hf hp h => ?_⟩
      obtain ⟨reply, _, outs, _, an, r2, r3⟩ := wire_talk s hk ha x d hp hf
      obtain ⟨reply', _, outs', _, an', r2', r3'⟩ := wire_talk s' hk' ha' x d hp hf
      rw [hx] at r3 r3'
      obtain ⟨more, hm⟩ := talk_answers (plain_head hu (by omega)) rfl r3
      obtain ⟨more', hm'⟩ := talk_answers (plain_head hu' (by omega)) rfl r3'
      have hh := congrArg List.head? h
      rw [r2, r2', hm, hm', List.flatten_cons, List.flatten_cons, List.head?_append, List.head?_append, reply_first an, reply_first an'] at hh
      rcases hk with k | k <;> rcases hk' with k' | k' <;> simp [k, k'] at hh e3
    · rcases Nat.lt_or_gt_of_ne e2 with h | h
      · exact flip _ (apart_one s' s hk' hk ha' ha _ _ _ _ _ _ (longLine_refused hu' hl') (longLine_head hu hl' h hc) rfl)
      · exact ⟨_, apart_one s s' hk hk' ha ha' _ _ _ _ _ _ (longLine_refused hu hl) (longLine_head hu' hl h hc') rfl⟩
  · rcases Nat.lt_or_gt_of_ne e1 with h | h
    · exact flip _ (apart_one s' s hk' hk ha' ha _ _ _ _ _ _ longTarget_refused (longTarget_head h (by omega)) rfl)
    · exact ⟨_, apart_one s s' hk hk' ha ha' _ _ _ _ _ _ longTarget_refused (longTarget_head h (by omega)) rfl⟩

/-- **C125**, what holds of which clients can tell services apart: let two services without TLS serve HTTP, with limits for targets of at least one byte, for header lines of at least three, and for headers of at
least one. If their kind, their limit for targets, or their limit for header lines is not the same, then there are bytes such that every client that sends them, in whatever pieces, and takes what it is sent gets different bytes from
the two. -/
theorem C125_told_apart_partial (s s' : ServiceConfig) (hk : s.service.kind = .helloWorld ∨ s.service.kind = .fileSystem) (hk' : s'.service.kind = .helloWorld ∨ s'.service.kind = .fileSystem)
    (htls : s.tcp.tls.cert = [] ∧ s.tcp.tls.key = []) (htls' : s'.tcp.tls.cert = [] ∧ s'.tcp.tls.key = []) (ha : s.Allocates) (ha' : s'.Allocates)
    (hu : 1 ≤ s.http.maxUrl) (hu' : 1 ≤ s'.http.maxUrl) (hl : 3 ≤ s.http.maxLine) (hl' : 3 ≤ s'.http.maxLine) (hc : 1 ≤ s.http.maxHeaders) (hc' : 1 ≤ s'.http.maxHeaders)
    (hne : ¬ (s'.service.kind = s.service.kind ∧ s'.http.maxUrl = s.http.maxUrl ∧ s'.http.maxLine = s.http.maxLine)) :
    ∃ sent : Bytes, ∀ {C K : Type} (x : World C K) (i : Nat) (hs : Handshake), (x.client i).flat = sent → (x.client i).fin = .silent → (∀ j, ∃ n, x.plan i j = .takes (n + 1)) →
      ∃ w w', (s.run x true [.conn i hs]).1 = [w] ∧ (s'.run x true [.conn i hs]).1 = [w'] ∧ w.wire ≠ w'.wire := by
  obtain ⟨sent, h⟩ := apart s s' hk hk' ha ha' hu hu' hl hl' hc hc' hne
  refine ⟨sent, fun x i hs h1 h2 h3 => ?_⟩
  have hrun : ∀ a : ServiceConfig, (a.service.kind = .helloWorld ∨ a.service.kind = .fileSystem) → (a.tcp.tls.cert = [] ∧ a.tcp.tls.key = []) →
      (a.run x true [.conn i hs]).1 = [a.connection x ⟨i, false, true⟩] := by
    intro a ka ta
    have : runService x.tls a.tcp.tls.cert a.tcp.tls.key a.tcp.tls.timeout a.service.kind true true [.conn i hs] = ([⟨i, false, true⟩], .waiting) := by
      rw [ta.1, ta.2]
      rcases ka with e | e <;> rw [e] <;> rfl
    simp only [ServiceConfig.run, this, List.map_cons, List.map_nil]
  exact ⟨_, _, hrun s hk htls, hrun s' hk' htls', h _ _ x ⟨i, false, true⟩ h1 h2 h3⟩

/-- **C125**, the same with TLS: let both services have the same certificate and key, which load. If their kind, one of the two limits, or their limit of time for handshakes is not the same, then there are bytes and a time such that every
client whose handshake succeeds and takes that long, and that sends these bytes and takes what it is sent, either is served by one of them and not by the other or gets different bytes from the two. -/
theorem C125_tls_partial (s s' : ServiceConfig) (hk : s.service.kind = .helloWorld ∨ s.service.kind = .fileSystem) (hk' : s'.service.kind = .helloWorld ∨ s'.service.kind = .fileSystem)
    (hpath : s'.tcp.tls.cert = s.tcp.tls.cert ∧ s'.tcp.tls.key = s.tcp.tls.key) (hsome : s.tcp.tls.cert ≠ [] ∨ s.tcp.tls.key ≠ []) (ha : s.Allocates) (ha' : s'.Allocates)
    (hu : 1 ≤ s.http.maxUrl) (hu' : 1 ≤ s'.http.maxUrl) (hl : 3 ≤ s.http.maxLine) (hl' : 3 ≤ s'.http.maxLine) (hc : 1 ≤ s.http.maxHeaders) (hc' : 1 ≤ s'.http.maxHeaders)
    (hne : ¬ (s'.service.kind = s.service.kind ∧ s'.http.maxUrl = s.http.maxUrl ∧ s'.http.maxLine = s.http.maxLine ∧ s'.tcp.tls.timeout = s.tcp.tls.timeout)) :
    ∃ (sent : Bytes) (time : Nat), ∀ {C K : Type} (x : World C K) (i : Nat), TlsLoads x.tls s.tcp.tls.cert s.tcp.tls.key → (x.client i).flat = sent → (x.client i).fin = .silent →
      (∀ j, ∃ n, x.plan i j = .takes (n + 1)) →
      (s.run x true [.conn i ⟨some time, true⟩]).1.map (fun w => (w.served.id, w.wire)) ≠ (s'.run x true [.conn i ⟨some time, true⟩]).1.map (fun w => (w.served.id, w.wire)) := by
  have hrun : ∀ (a : ServiceConfig), (a.service.kind = .helloWorld ∨ a.service.kind = .fileSystem) → (a.tcp.tls.cert = s.tcp.tls.cert ∧ a.tcp.tls.key = s.tcp.tls.key) →
      ∀ {C K : Type} (x : World C K) (i time : Nat), TlsLoads x.tls s.tcp.tls.cert s.tcp.tls.key →
      (a.run x true [.conn i ⟨some time, true⟩]).1 = if a.tcp.tls.timeout < time then [] else [a.connection x ⟨i, true, false⟩] := by
    intro a ka pa C K x i time hload
    obtain ⟨_, cfg, h⟩ | ⟨h, _⟩ := tlsLoad_cases x.tls s.tcp.tls.cert s.tcp.tls.key hsome
    · simp only [ServiceConfig.run, runService, pa.1, pa.2, h, Bool.not_true, Bool.false_eq_true, ↓reduceIte]
      rcases ka with e | e <;> rw [e] <;> simp only [acceptLoop, tlsLoop, Bool.not_true, Bool.false_eq_true, ↓reduceIte] <;> split <;> simp
    · exact absurd hload h
  by_cases ht : s'.tcp.tls.timeout = s.tcp.tls.timeout
  · obtain ⟨sent, h⟩ := apart s s' hk hk' ha ha' hu hu' hl hl' hc hc' (fun h => hne ⟨h.1, h.2.1, h.2.2, ht⟩)
    refine ⟨sent, 0, fun x i hload h1 h2 h3 => ?_⟩
    rw [hrun s hk ⟨rfl, rfl⟩ x i 0 hload, hrun s' hk' hpath x i 0 hload]
    simpa using h _ _ x ⟨i, true, false⟩ h1 h2 h3
  · refine ⟨[], max s.tcp.tls.timeout s'.tcp.tls.timeout, fun x i hload _ _ _ => ?_⟩
    rw [hrun s hk ⟨rfl, rfl⟩ x i _ hload, hrun s' hk' hpath x i _ hload]
    rcases Nat.lt_or_gt_of_ne ht with h | h
    · rw [if_neg (by omega), if_pos (by omega)]; simp
    · rw [if_pos (by omega), if_neg (by omega)]; simp

/-- **C125**, exactly what makes a difference, for such services with read buffers of the same size: kind, limit for targets and limit for header lines, and no other setting. -/
theorem C125_exactly_partial (s s' : ServiceConfig) (hk : s.service.kind = .helloWorld ∨ s.service.kind = .fileSystem) (hk' : s'.service.kind = .helloWorld ∨ s'.service.kind = .fileSystem)
    (htls : s.tcp.tls.cert = [] ∧ s.tcp.tls.key = []) (htls' : s'.tcp.tls.cert = [] ∧ s'.tcp.tls.key = []) (hbuf : s'.tcp.readBuf = s.tcp.readBuf) (ha : s.Allocates) (ha' : s'.Allocates)
    (hu : 1 ≤ s.http.maxUrl) (hu' : 1 ≤ s'.http.maxUrl) (hl : 3 ≤ s.http.maxLine) (hl' : 3 ≤ s'.http.maxLine) (hc : 1 ≤ s.http.maxHeaders) (hc' : 1 ≤ s'.http.maxHeaders) :
    (∀ {C K : Type} (x : World C K) (bindOk : Bool) (es : List AcceptEvent), s'.run x bindOk es = s.run x bindOk es) ↔
      s'.service.kind = s.service.kind ∧ s'.http.maxUrl = s.http.maxUrl ∧ s'.http.maxLine = s.http.maxLine := by
  constructor
  · intro h
    apply Classical.byContradiction
    intro hne
    obtain ⟨sent, hsent⟩ := C125_told_apart_partial s s' hk hk' htls htls' ha ha' hu hu' hl hl' hc hc' hne
    obtain ⟨w, w', h1, h2, h3⟩ := hsent { sampleWorld with client := fun _ => Reader.ofBytes sent .silent } 0 ⟨none, true⟩ (Reader.flat_ofBytes _ _) rfl (fun _ => ⟨2, rfl⟩)
    rw [h, h1] at h2
    cases h2
    exact h3 rfl
  · rintro ⟨e1, e2, e3⟩ C K x bindOk es
    have hc : s'.connection x = s.connection x := by
      funext d
      simp only [ServiceConfig.connection]
      rw [if_neg ha.neg, if_neg ha'.neg]
      simp only [e1, serveW, hbuf, serveLoopW_limits x.codec s.http.limits s'.http.limits e2 e3 hc hc']
    have ht : ∀ (k : ServiceKind), runService x.tls [] [] s'.tcp.tls.timeout k bindOk true es = runService x.tls [] [] s.tcp.tls.timeout k bindOk true es := by
      intro k
      unfold runService
      simp [tlsLoad, acceptLoop]
    simp only [ServiceConfig.run, htls.1, htls.2, htls'.1, htls'.2, e1, hc, ht]

/-- The hypotheses are met by the default service and one with a limit of 20 bytes for targets; this is what a client gets from the two. -/
example :
    let s : ServiceConfig := { defaultEffective with http := { defaultEffective.http with maxUrl := 20 } }
    let x : World Unit Unit := { sampleWorld with client := fun _ => Reader.ofBytes (longTarget 20) .silent }
    (1 ≤ s.http.maxUrl ∧ 3 ≤ s.http.maxLine ∧ 1 ≤ s.http.maxHeaders ∧ s.Allocates ∧ s.service.kind = .helloWorld ∧ s.tcp.tls.cert = [] ∧ s.tcp.tls.key = []) ∧
    (1 ≤ defaultEffective.http.maxUrl ∧ 3 ≤ defaultEffective.http.maxLine ∧ 1 ≤ defaultEffective.http.maxHeaders ∧ defaultEffective.Allocates ∧ defaultEffective.service.kind = .helloWorld ∧
      defaultEffective.tcp.tls.cert = [] ∧ defaultEffective.tcp.tls.key = []) ∧
    (s.run x true [.conn 7 ⟨none, true⟩]).1.map (·.wire) = [[]] ∧
    (defaultEffective.run x true [.conn 7 ⟨none, true⟩]).1.map (·.wire) = [helloText [] 0] := by
  decide +kernel

/-- With TLS: limits of time of 20 and 10 nanoseconds, and a handshake that takes 15. -/
example :
    let s (t : Nat) : ServiceConfig := { defaultEffective with tcp := { defaultEffective.tcp with tls := ⟨u!"c", u!"k", t⟩ } }
    TlsLoads sampleWorld.tls (s 20).tcp.tls.cert (s 20).tcp.tls.key ∧ (s 10).Allocates ∧
    ((s 20).run sampleWorld true [.conn 5 ⟨some 15, true⟩]).1.map (fun w => (w.served.id, w.wire)) = [(5, [])] ∧
    ((s 10).run sampleWorld true [.conn 5 ⟨some 15, true⟩]).1.map (fun w => (w.served.id, w.wire)) = [] :=
  ⟨⟨b!"c", [b!"c"], b!"k", b!"k", (), rfl, rfl, rfl, rfl, rfl⟩, by decide, by decide +kernel, by decide +kernel⟩

end Httpd
