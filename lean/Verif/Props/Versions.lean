import Verif.Spec.Versions
import Verif.Props.FileSettings
import Verif.Props.Run
/-! # C244: an answer depends on the version of the request and on nothing else in it -/

namespace Httpd
open Spec

open Classical in
/-- The answers to requests with these versions, the first of them the `j`-th of its connection. -/
noncomputable def answersTo (reply : Nat → Bytes → Bytes) (stops : Bytes → Prop) : Nat → List Bytes → List Bytes
  | _, [] => []
  | j, v :: vs => reply j v :: if stops v then [] else answersTo reply stops (j + 1) vs

theorem talk_versions {u l c : Nat} {after : After} {reply : Nat → Bytes → Bytes} {stops : Bytes → Prop} {s rest : Bytes} {qs : List Req}
    (h : Reqs u l c (after = .closes) s qs rest) (hmax : ¬ ∃ q rest', Req.At u l c (after = .closes) rest q rest') {j : Nat} {outs : List Bytes} {f : Fate}
    (ht : Talk u l c after reply stops j s outs f) : outs = answersTo reply stops j (qs.map (·.w2)) := by
  induction h generalizing j outs f with
  | stop s =>
    cases ht with
    | final _ _ w0 w1 w2 body rest fs h1 h2 => exact absurd ⟨⟨w0, w1, w2, fs, body⟩, rest, h1, h2⟩ hmax
    | next _ _ w0 w1 w2 body rest fs _ _ h1 h2 => exact absurd ⟨⟨w0, w1, w2, fs, body⟩, rest, h1, h2⟩ hmax
    | _ => rfl
  | more s s' rest q qs hq _ ih =>
    have uniq : ∀ {w0 w1 w2 r : Bytes} {fs : List (Bytes × Bytes)}, HeadText u l c (after = .closes) s w0 w1 w2 fs r →
        r = q.body ++ s' ∧ ∀ n, Announces fs n → n = some q.body.length := by
      intro w0 w1 w2 r fs hh
      have h1 := (C129_unambiguous _ _ _ _ _ _ _ _ _ _ hq.1).1 _ _ _ _ _ hh
      exact ⟨h1.2.2.2.1, fun n hn => announced_same h1.2.2.2.2 hq.2 hn⟩
    have same : ∀ {w0 w1 w2 body r : Bytes} {fs : List (Bytes × Bytes)}, HeadText u l c (after = .closes) s w0 w1 w2 fs (body ++ r) → Announces fs (some body.length) → w2 = q.w2 ∧ r = s' := by
      intro w0 w1 w2 body r fs hh ha
      obtain ⟨_, _, h3, _, _, h6⟩ := at_unique hq (q' := ⟨w0, w1, w2, fs, body⟩) ⟨hh, ha⟩
      exact ⟨h3, h6⟩
    cases ht with
    | refused _ _ a => exact absurd ⟨_, _, _, _, _, hq.1⟩ a
    | waits _ _ a b => exact absurd b ((C129_unambiguous _ _ _ _ _ _ _ _ _ _ hq.1).2 (by rw [a]; rfl))
    | badLength _ _ _ _ _ _ _ hh ha => have := (uniq hh).2 _ ha; cases this
    | short _ _ _ _ _ _ _ n hh ha hl =>
      have e := (uniq hh).2 _ ha
      cases e; rw [(uniq hh).1] at hl; simp at hl; omega
    | final _ _ _ _ _ _ _ _ hh ha hs =>
      obtain ⟨e, _⟩ := same hh ha
      subst e
      simp [answersTo, hs]
    | next _ _ _ _ _ _ _ _ outs _ hh ha hs hm =>
      obtain ⟨e1, e2⟩ := same hh ha
      subst e1 e2
      simp only [List.map_cons, answersTo, hs, ↓reduceIte]
      rw [ih hmax hm]

/-- **C244.** For the two services: two clients whose complete requests have the same versions, in order, and that take what they are sent get the same bytes - whatever the methods, targets, headers and bodies of their requests,
whatever follows the last complete request, in whatever pieces they send it and however they end, whatever the limits of the two services, their addresses, TLS and the worlds they are in. -/
theorem C244_versions {C K C' K' : Type} (s s' : ServiceConfig) (hk : s.service.kind = .helloWorld ∨ s.service.kind = .fileSystem) (hk' : s'.service.kind = s.service.kind) (ha : s.Allocates)
    (ha' : s'.Allocates) (x : World C K) (x' : World C' K') (bindOk bindOk' : Bool) (es es' : List AcceptEvent) (w : Conn K) (w' : Conn K') (hw : w ∈ (s.run x bindOk es).1) (hw' : w' ∈ (s'.run x' bindOk' es').1)
    (hp : ∀ i, ∃ n, x.plan w.served.id i = .takes (n + 1)) (hp' : ∀ i, ∃ n, x'.plan w'.served.id i = .takes (n + 1)) (qs qs' : List Req)
    (hq : AllRequests s.http.maxUrl s.http.maxLine s.http.maxHeaders ((x.client w.served.id).fin = .eof) (x.client w.served.id).flat qs)
    (hq' : AllRequests s'.http.maxUrl s'.http.maxLine s'.http.maxHeaders ((x'.client w'.served.id).fin = .eof) (x'.client w'.served.id).flat qs')
    (hv : qs'.map (·.w2) = qs.map (·.w2)) : w'.wire = w.wire := by
  obtain ⟨reply, stops, a1, a2⟩ : ∃ reply stops, Answers s.service reply stops ∧ Answers s'.service reply stops := by
    cases h1 : s.service <;> cases h2 : s'.service <;> simp only [h1, h2, ServiceSetting.kind, reduceCtorEq, or_self] at hk hk'
    · exact ⟨_, _, .hello, .hello⟩
    · exact ⟨_, _, .files _, .files _⟩
  obtain ⟨outs, f, e1, _, e3⟩ := service_talks x s ha reply stops a1 bindOk es w hw hp
  obtain ⟨outs', f', e1', _, e3'⟩ := service_talks x' s' ha' reply stops a2 bindOk' es' w' hw' hp'
  have hc : ∀ e : StreamEnd, decide (e = .eof) = decide (afterOf e = .closes) := by intro e; cases e <;> rfl
  obtain ⟨rest, r1, r2⟩ := hq
  obtain ⟨rest', r1', r2'⟩ := hq'
  rw [hc] at r1 r2 r1' r2'
  rw [e1, e1', talk_versions r1 r2 e3, talk_versions r1' r2' e3', hv]

/-- **C244.** All bytes are such a list of requests and a rest, and the versions in it are determined. -/
theorem C244_all (maxUrl maxLine maxCount : Nat) (closed : Bool) (s : Bytes) :
    (∃ qs, AllRequests maxUrl maxLine maxCount closed s qs) ∧
    ∀ qs qs', AllRequests maxUrl maxLine maxCount closed s qs → AllRequests maxUrl maxLine maxCount closed s qs' → qs'.map (·.w2) = qs.map (·.w2) := by
  refine ⟨?_, ?_⟩
  · generalize hn : s.length = n
    induction n using Nat.strongRecOn generalizing s with
    | ind n ih =>
      by_cases h : ∃ q rest', Req.At maxUrl maxLine maxCount closed s q rest'
      · obtain ⟨q, rest, h⟩ := h
        have hlt : rest.length < n := by
          obtain ⟨h1, _⟩ := h
          generalize hr : q.body ++ rest = r at h1
          cases h1 with
          | mk _ _ _ a b x y t _ _ _ _ _ _ _ _ _ _ hs =>
            have := section_length hs
            rw [← hr] at this
            simp only [List.length_append] at this hn
            omega
        obtain ⟨qs, r, h1, h2⟩ := ih _ hlt rest rfl
        exact ⟨q :: qs, r, .more _ _ _ _ _ h h1, h2⟩
      · exact ⟨[], s, .stop s, h⟩
  · rintro qs qs' ⟨r, h1, h2⟩ ⟨r', h1', h2'⟩
    have hl := reqs_length_le h1 h2 h1'
    have hl' := reqs_length_le h1' h2' h1
    apply List.ext_getElem?
    intro j
    rw [List.getElem?_map, List.getElem?_map]
    by_cases hj : j < qs.length
    · have hj' : j < qs'.length := by omega
      have := C135_determined _ _ _ _ _ _ _ _ _ h1 h1' j _ _ (List.getElem?_eq_getElem hj) (List.getElem?_eq_getElem hj')
      rw [List.getElem?_eq_getElem hj, List.getElem?_eq_getElem hj']
      simp only [Option.map_some, this.2.2.1]
    · rw [List.getElem?_eq_none (by omega), List.getElem?_eq_none (by omega)]

theorem no_request {u l c : Nat} {closed : Bool} : ¬ ∃ q rest', Req.At u l c closed [] q rest' := by
  rintro ⟨q, r, h, _⟩
  generalize hs : ([] : Bytes) = s at h
  cases h with
  | mk => simp at hs

/-- Two requests with the same version, one of them with a header line of a hundred bytes; both services give them the same answer. -/
example : AllRequests 10 200 1 false plainRequest [⟨[71], [], [86], [], []⟩] ∧
    AllRequests 10 200 1 false (longLine 100) [⟨[71], [], [86], [(lower [], List.replicate (100 - 2) 97)], []⟩] :=
  ⟨⟨[], .more _ _ _ _ _ ⟨plain_head (by decide) (by decide), .absent rfl⟩ (.stop _), no_request⟩,
    ⟨[], .more _ _ _ _ _ ⟨longLine_head (by decide) (by decide) (by decide) (by decide), .absent rfl⟩ (.stop _), no_request⟩⟩

/-- The two services answer a `GET` with a `Host` header like a `HEAD` that asks for something else, without one and with a body. -/
example : ([ServiceKind.helloWorld.http, ServiceKind.fileSystem.http].map fun h =>
      (serve noCodec sampleLimits (fun _ => { sampleEnv with http := h }) (Reader.ofBytes b!"GET /a HTTP/1.1\r\nHost: x\r\n\r\n" .silent)).1.map (·.written)) =
    [ServiceKind.helloWorld.http, ServiceKind.fileSystem.http].map fun h =>
      (serve noCodec sampleLimits (fun _ => { sampleEnv with http := h }) (Reader.ofBytes b!"HEAD /b HTTP/1.1\r\nContent-Length: 2\r\n\r\nabG" .silent)).1.map (·.written) := by
  decide +kernel

end Httpd
