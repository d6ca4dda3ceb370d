import Verif.Props.Services
import Verif.Props.Body
import Verif.Lemmas.Grammar
/-! # The whole language of the server: C129, C130 -/

namespace Httpd
open Spec MultiMap

theorem Head.Blank.noStart {hd : Head} (h : hd.Blank) : hd.NoStart := ⟨h.f0, h.f1, h.f2⟩

/-! ## C129: exactly these bytes are a head -/

/-- **C129.** Whatever the bytes, their segmentation and the limits: what the head reader accepts is a head of the grammar; it
delivers the three parts and the headers that the grammar says, and leaves the rest. -/
theorem C129_accepted (lim : HttpLimits) (hd hd' : Head) (hb : hd.Blank) (r r' : Reader) (h : readHead lim hd r = .ok (hd', r')) :
    ∃ fs, HeadText lim.maxUrl lim.maxHeaderLine lim.maxHeadersCount (decide (r.fin = .eof)) r.flat hd'.f0 hd'.f1 hd'.f2 fs r'.flat ∧
      (∀ k, hd'.headers.getall k = valuesIn (collect fs) k) ∧ r'.fin = r.fin := by
  obtain ⟨fs, h1, h2, h3⟩ := readHead_headText lim hd hd' hb.noStart r r' h
  exact ⟨fs, h1, fun k => by rw [h2, storePairs_getall _ _ hb.headers], h3⟩

/-- **C129, the converse.** Every head of the grammar is accepted, as that. -/
theorem C129_accepts (lim : HttpLimits) (hd : Head) (hb : hd.Blank) (r : Reader) (w0 w1 w2 rest : Bytes) (fs : List (Bytes × Bytes))
    (h : HeadText lim.maxUrl lim.maxHeaderLine lim.maxHeadersCount (decide (r.fin = .eof)) r.flat w0 w1 w2 fs rest) :
    ∃ hd' r', readHead lim hd r = .ok (hd', r') ∧ hd'.f0 = w0 ∧ hd'.f1 = w1 ∧ hd'.f2 = w2 ∧
      (∀ k, hd'.headers.getall k = valuesIn (collect fs) k) ∧ r'.flat = rest ∧ r'.fin = r.fin := by
  obtain ⟨r', h1, h2, h3⟩ := headText_readHead lim _ _ w0 w1 w2 rest fs h hd hb.noStart r rfl rfl
  exact ⟨_, r', h1, rfl, rfl, rfl, fun k => storePairs_getall _ _ hb.headers k, h2, h3⟩

/-- **C129, waiting.** The head reader goes on waiting exactly when the client sends nothing more and what it sent is an unfinished
head. Note that an unfinished piece may hold anything: it is not examined before its end has come. -/
theorem C129_waits (lim : HttpLimits) (hd : Head) (hb : hd.Blank) (r : Reader) :
    readHead lim hd r = .error .waiting ↔ r.fin = .silent ∧ HeadOpen lim.maxUrl lim.maxHeaderLine lim.maxHeadersCount r.flat :=
  ⟨readHead_open lim hd hb.noStart r, fun h => open_readHead lim _ h.2 hd hb.noStart r rfl h.1⟩

/-- **C129, refusal.** Everything else is refused. -/
theorem C129_refused (lim : HttpLimits) (hd : Head) (hb : hd.Blank) (r : Reader) :
    (∃ e, readHead lim hd r = .error e ∧ e ≠ .waiting) ↔
      (¬ ∃ w0 w1 w2 fs rest, HeadText lim.maxUrl lim.maxHeaderLine lim.maxHeadersCount (decide (r.fin = .eof)) r.flat w0 w1 w2 fs rest) ∧
      ¬ (r.fin = .silent ∧ HeadOpen lim.maxUrl lim.maxHeaderLine lim.maxHeadersCount r.flat) := by
  rw [← C129_waits lim hd hb r]
  constructor
  · rintro ⟨e, h1, h2⟩
    refine ⟨?_, fun h => ?_⟩
    · rintro ⟨w0, w1, w2, fs, rest, h⟩
      obtain ⟨hd', r', h3, _⟩ := C129_accepts lim hd hb r w0 w1 w2 rest fs h
      rw [h1] at h3; cases h3
    · rw [h1] at h
      cases h; exact h2 rfl
  · rintro ⟨h1, h2⟩
    cases h : readHead lim hd r with
    | ok p =>
      obtain ⟨hd', r'⟩ := p
      obtain ⟨fs, h3, _⟩ := C129_accepted lim hd hd' hb r r' h
      exact absurd ⟨_, _, _, _, _, h3⟩ h1
    | error e =>
      refine ⟨e, rfl, ?_⟩
      rintro rfl
      exact h2 h

/-- **C129, no ambiguity.** The grammar gives a byte string at most one reading, and on a stream that stays open no string is both a
finished head and an unfinished one. -/
theorem C129_unambiguous (maxUrl maxLine maxCount : Nat) (closed : Bool) (s w0 w1 w2 rest : Bytes) (fs : List (Bytes × Bytes))
    (h : HeadText maxUrl maxLine maxCount closed s w0 w1 w2 fs rest) :
    (∀ w0' w1' w2' rest' fs', HeadText maxUrl maxLine maxCount closed s w0' w1' w2' fs' rest' →
      w0' = w0 ∧ w1' = w1 ∧ w2' = w2 ∧ rest' = rest ∧ ∀ k, valuesIn (collect fs') k = valuesIn (collect fs) k) ∧
    (closed = false → ¬ HeadOpen maxUrl maxLine maxCount s) := by
  let lim : HttpLimits := { maxUrl := maxUrl, maxHeaderLine := maxLine, maxHeadersCount := maxCount, maxBody := 0 }
  let r : Reader := Reader.ofBytes s (if closed then .eof else .silent)
  have hc : decide (r.fin = .eof) = closed := by cases closed <;> rfl
  have hs : r.flat = s := Reader.flat_ofBytes _ _
  obtain ⟨hd, r', h1, h2, h3, h4, h5, h6, _⟩ := C129_accepts lim Head.new Head.blank_new r w0 w1 w2 rest fs (by rw [hc, hs]; exact h)
  refine ⟨fun w0' w1' w2' rest' fs' h' => ?_, fun hcl ho => ?_⟩
  · obtain ⟨hd', r'', k1, k2, k3, k4, k5, k6, _⟩ := C129_accepts lim Head.new Head.blank_new r w0' w1' w2' rest' fs'
      (by rw [hc, hs]; exact h')
    rw [h1] at k1
    cases k1
    exact ⟨k2 ▸ h2, k3 ▸ h3, k4 ▸ h4, k6 ▸ h6, fun k => by rw [← k5, ← h5]⟩
  · have := (C129_waits lim Head.new Head.blank_new r).mpr ⟨by simp [r, Reader.ofBytes, hcl], by rw [hs]; exact ho⟩
    rw [h1] at this; cases this

/-- Under the empty-name-free use of headers, the values of a name are those of the fields with that name, in order. -/
theorem C129_values (fs : List (Bytes × Bytes)) (hne : ∀ f ∈ fs, f.1 ≠ []) (k : Bytes) :
    valuesIn (collect fs) k = (match (fs.filter (fun f => f.1 == k)).map (·.2) with | [] => none | vs => some vs) := by
  have hput : ∀ (b : Bool) (k' v x : Bytes) (l : List (Bytes × List Bytes)), (∀ e ∈ l, e.1 ≠ []) →
      valuesIn (put b k' v l) x = (if x = k' then some ((valuesIn l k').getD [] ++ [v]) else valuesIn l x) := by
    intro b k' v x l
    induction l with
    | nil =>
      intro _
      by_cases hx : x = k'
      · simp [put, valuesIn, hx]
      · simp [put, valuesIn, hx, Ne.symm hx]
    | cons e l ih =>
      obtain ⟨a, vs⟩ := e
      intro hl
      have ha : a ≠ [] := hl (a, vs) (by simp)
      have ih := ih (fun e he => hl e (by simp [he]))
      simp only [put, ha, and_false, if_false]
      by_cases hk : a = k'
      · subst hk
        by_cases hx : x = a
        · simp [valuesIn, hx]
        · simp [valuesIn, hx, Ne.symm hx]
      · simp only [hk, if_false, valuesIn, ih]
        by_cases hx : a = x
        · subst hx; simp [hk]
        · simp [hx]
  have hkeys : ∀ (b : Bool) (k' v : Bytes) (l : List (Bytes × List Bytes)), k' ≠ [] → (∀ e ∈ l, e.1 ≠ []) →
      ∀ e ∈ put b k' v l, e.1 ≠ [] := by
    intro b k' v l hk'
    induction l with
    | nil => intro _ e he; simp only [put, List.mem_singleton] at he; rw [he]; exact hk'
    | cons a l ih =>
      obtain ⟨a, vs⟩ := a
      intro hl e he
      have ha : a ≠ [] := hl (a, vs) (by simp)
      have ih := ih (fun e he => hl e (by simp [he]))
      simp only [put, ha, and_false, if_false] at he
      split at he
      · rcases List.mem_cons.mp he with rfl | he
        · exact ha
        · exact hl e (by simp [he])
      · rcases List.mem_cons.mp he with rfl | he
        · exact ha
        · exact ih e he
  have key : ∀ (l : List (Bytes × List Bytes)), (∀ e ∈ l, e.1 ≠ []) →
      valuesIn (fs.foldl (fun l f => put (decide (l.length < 36)) f.1 f.2 l) l) k =
        (match (fs.filter (fun f => f.1 == k)).map (·.2) with | [] => valuesIn l k | vs => some ((valuesIn l k).getD [] ++ vs)) := by
    induction fs with
    | nil => intro l _; rfl
    | cons f fs ih =>
      intro l hl
      rw [List.foldl_cons, ih (fun f hf => hne f (by simp [hf])) _ (hkeys _ _ _ _ (hne f (by simp)) hl), hput _ _ _ _ _ hl]
      by_cases hf : f.1 = k
      · have hf' : (f.1 == k) = true := by simpa using hf
        rw [List.filter_cons, if_pos hf', if_pos hf.symm, List.map_cons, hf]
        generalize (fs.filter (fun f => f.1 == k)).map (·.2) = vs
        cases vs <;> simp
      · have hf' : (f.1 == k) = false := by simpa using hf
        simp only [List.filter_cons, hf', Bool.false_eq_true, if_false, if_neg (Ne.symm hf)]
  have := key [] (by simp)
  simp only [collect, this, valuesIn, Option.getD_none, List.nil_append]

/-- Non-trivial cases: a head that is accepted although it looks odd - the version line ends in two arbitrary bytes, a line without
colon is skipped and the name has spaces -, one that waits although its method can no longer be right, and one that is refused. -/
example : readHead sampleLimits Head.new (Reader.ofBytes b!"G / vxx\nnote\r\n A : 1\r\n\r\nrest" .silent) ≠ .error .waiting ∧
    HeadText sampleLimits.maxUrl sampleLimits.maxHeaderLine sampleLimits.maxHeadersCount false
      b!"G / vxx\nnote\r\n A : 1\r\n\r\nrest" b!"G" b!"/" b!"vx" [(b!"a", b!"1")] b!"rest" := by
  have h : HeadText sampleLimits.maxUrl sampleLimits.maxHeaderLine sampleLimits.maxHeadersCount false
      b!"G / vxx\nnote\r\n A : 1\r\n\r\nrest" b!"G" b!"/" b!"vx" [(b!"a", b!"1")] b!"rest" :=
    .mk b!"G" b!"/" b!"vx" 32 32 120 10 b!"note\r\n A : 1\r\n\r\nrest" _ _
      (.upTo b!"G" _ (by decide) (by decide)) (by decide) (.upTo b!"/" _ (by decide) (by decide)) (by decide)
      (.upTo b!"vxx" _ (by decide) (by decide)) (by decide) (by decide) (by decide)
      (.skip b!"note" 13 10 b!" A : 1\r\n\r\nrest" _ _ (.upTo b!"note\r" _ (by decide) (by decide)) (by decide) (by decide) (by decide)
        (by decide)
        (.field b!" A " b!" 1" b!"A" b!"1" 13 10 b!"\r\nrest" [] _ (.upTo b!" A : 1\r" _ (by decide) (by decide)) (by decide) (by decide)
          (by decide) (by decide) (by decide) (by decide) ⟨1, 1, by decide, by decide, by decide⟩ ⟨1, 0, by decide, by decide, by decide⟩
          (.stop 13 10 b!"rest" (.upTo b!"\r" _ (by decide) (by decide)))))
  refine ⟨fun hw => ?_, h⟩
  obtain ⟨hd', r', h1, _⟩ := C129_accepts sampleLimits Head.new Head.blank_new (Reader.ofBytes b!"G / vxx\nnote\r\n A : 1\r\n\r\nrest" .silent)
    _ _ _ _ _ (by rw [Reader.flat_ofBytes]; exact h)
  rw [h1] at hw; cases hw

example : readHead sampleLimits Head.new (Reader.ofBytes [0, 255, 7] .silent) = .error .waiting :=
  (C129_waits _ _ Head.blank_new _).mpr ⟨rfl, by rw [Reader.flat_ofBytes]; exact .method _ (by decide) (by decide)⟩

example : ¬ ∃ w0 w1 w2 fs rest, HeadText sampleLimits.maxUrl sampleLimits.maxHeaderLine sampleLimits.maxHeadersCount true
    [0, 255, 7] w0 w1 w2 fs rest :=
  ((C129_refused sampleLimits Head.new Head.blank_new (Reader.ofBytes [0, 255, 7] .eof)).mp ⟨.badDatagram, rfl, by decide⟩).1

/-! ## C130: the whole connection, whatever the client sends -/

/-- The end of the stream, in the words of the specification. -/
def afterOf : StreamEnd → After
  | .eof => .closes
  | .err => .breaks
  | .silent => .silent

/-- The end of the connection loop, in the words of the specification; `none` for those that the two services never come to. -/
def fateOf : Ending → Option Fate
  | .headFail _ => some .dropped
  | .bodyFail _ => some .dropped
  | .waiting => some .waiting
  | .closed => some .closed
  | .hang => some .spinning
  | _ => none

theorem afterOf_closes (e : StreamEnd) : decide (afterOf e = .closes) = decide (e = .eof) := by cases e <;> rfl

theorem afterOf_silent (e : StreamEnd) : afterOf e = .silent ↔ e = .silent := by cases e <;> simp [afterOf]

theorem collect_nonempty (fs : List (Bytes × Bytes)) (k : Bytes) : valuesIn (collect fs) k ≠ some [] := by
  have hput : ∀ (b : Bool) (k' v : Bytes) (l : List (Bytes × List Bytes)), (∀ e ∈ l, e.2 ≠ []) → ∀ e ∈ put b k' v l, e.2 ≠ [] := by
    intro b k' v l
    induction l with
    | nil => intro _ e he; simp only [put, List.mem_singleton] at he; rw [he]; simp
    | cons a l ih =>
      obtain ⟨a, vs⟩ := a
      intro hl e he
      have ih := ih (fun e he => hl e (by simp [he]))
      simp only [put] at he
      split at he
      · rcases List.mem_cons.mp he with rfl | he
        · simp
        · exact hl e (by simp [he])
      · split at he
        · rcases List.mem_cons.mp he with rfl | he
          · simp
          · exact hl e (by simp [he])
        · rcases List.mem_cons.mp he with rfl | he
          · exact hl _ (by simp)
          · exact ih e he
  have key : ∀ (l : List (Bytes × List Bytes)), (∀ e ∈ l, e.2 ≠ []) →
      ∀ e ∈ fs.foldl (fun l f => put (decide (l.length < 36)) f.1 f.2 l) l, e.2 ≠ [] := by
    induction fs with
    | nil => intro l h; exact h
    | cons f fs ih => intro l h; exact ih _ (hput _ _ _ _ h)
  have hv : ∀ l : List (Bytes × List Bytes), (∀ e ∈ l, e.2 ≠ []) → valuesIn l k ≠ some [] := by
    intro l
    induction l with
    | nil => intro _ h; cases h
    | cons a l ih =>
      obtain ⟨a, vs⟩ := a
      intro hl h
      simp only [valuesIn] at h
      split at h
      · cases h; exact hl _ (by simp : (a, []) ∈ _) rfl
      · exact ih (fun e he => hl e (by simp [he])) h
  exact hv _ (key [] (by simp))

/-- The announced length of the specification is the one that the program works out. -/
theorem announces_iff {hs : MultiMap} {fs : List (Bytes × Bytes)} (h : ∀ k, hs.getall k = valuesIn (collect fs) k) (o : Option Nat) :
    Announces fs o ↔ getContentLength hs = o := by
  have hget : hs.get b!"content-length" = (match valuesIn (collect fs) b!"content-length" with | some vs => vs.head? | none => none) := by
    simp only [MultiMap.get, h]
    cases valuesIn (collect fs) b!"content-length" <;> rfl
  constructor
  · intro ha
    cases ha with
    | absent h1 => rw [h1] at hget; exact (C16_content_length hs).2 hget
    | number v vs n h1 h2 h3 =>
      rw [h1] at hget
      exact ((C16_content_length hs).1 v n hget).mpr ⟨h2, h3⟩
    | bad v vs h1 h2 =>
      rw [h1] at hget
      cases hc : getContentLength hs with
      | none => rfl
      | some n =>
        have := ((C16_content_length hs).1 v n hget).mp hc
        have := h2 n this.1
        omega
  · rintro rfl
    cases hv : valuesIn (collect fs) b!"content-length" with
    | none =>
      rw [hv] at hget
      rw [(C16_content_length hs).2 hget]
      exact .absent hv
    | some vs =>
      cases vs with
      | nil => exact absurd hv (collect_nonempty _ _)
      | cons v vs =>
        rw [hv] at hget
        have hiff := (C16_content_length hs).1 v
        cases hc : getContentLength hs with
        | some n =>
          have := (hiff n hget).mp hc
          exact .number v vs n hv this.1 this.2
        | none =>
          refine .bad v vs hv (fun n hn => ?_)
          rcases Nat.lt_or_ge n (2 ^ 64) with hlt | hge
          · have := (hiff n hget).mpr ⟨hn, hlt⟩
            rw [hc] at this; cases this
          · exact hge

/-- What a connection comes to, for a service that answers every request with `reply` and goes on unless `stops`. `bodies j` is what
the body of the response message holds before request `j`. -/
theorem serveLoop_talk {K : Type} (c : Codec K) (lim : HttpLimits) (env : Nat → Env K) (bodies : Nat → Bytes)
    (reply : Nat → Bytes → Bytes) (stops : Bytes → Prop)
    (hstep : ∀ j, (env j).write = .ok ∧ ∀ req resp : Message K, req.body.Plain → resp.head.Blank →
        resp.body = { internal := some (bodies j), cw := none } →
        ∃ keep req2 resp2 m', (env j).http req resp = .ok (.current keep) req2 resp2 ∧ (keep = true ↔ ¬ stops req.head.f2) ∧
          req2.body.Usable ∧ encodeResponse c (env j).ord resp2 = (m', some (reply j req.head.f2)) ∧
          m'.body = { internal := some (bodies (j + 1)), cw := none })
    (fuel i : Nat) (req resp : Message K) (hb : req.head.Blank) (hp : req.body.Plain) (hb' : resp.head.Blank)
    (hp' : resp.body = { internal := some (bodies i), cw := none }) (r : Reader) (hf : r.flat.length < fuel) :
    ∃ f, fateOf (serveLoop c lim env fuel i req resp r).2 = some f ∧
      Talk lim.maxUrl lim.maxHeaderLine lim.maxHeadersCount (afterOf r.fin) reply stops i r.flat
        ((serveLoop c lim env fuel i req resp r).1.map (·.written)) f := by
  induction fuel generalizing i req resp r with
  | zero => omega
  | succ fuel ih =>
    simp only [serveLoop]
    cases hh : readHead lim req.head r with
    | error e =>
      by_cases he : e = .waiting
      · subst he
        obtain ⟨h1, h2⟩ := (C129_waits lim req.head hb r).mp hh
        exact ⟨.waiting, rfl, .waits _ _ ((afterOf_silent _).mpr h1) h2⟩
      · obtain ⟨h1, h2⟩ := (C129_refused lim req.head hb r).mp ⟨e, hh, he⟩
        refine ⟨.dropped, ?_, .refused _ _ (by rw [afterOf_closes]; exact h1) (by rw [afterOf_silent]; exact h2)⟩
        cases e <;> first | rfl | exact absurd rfl he
    | ok p =>
      obtain ⟨hd, r1⟩ := p
      obtain ⟨fs, h1, h2, h3⟩ := C129_accepted lim req.head hd hb r r1 hh
      rw [← afterOf_closes] at h1
      have hcons := readHead_consumes hh
      obtain ⟨x, hx⟩ := Option.isSome_iff_exists.mp hp.1
      simp only [readConstLengthBody]
      cases hc : getContentLength hd.headers with
      | none => exact ⟨.dropped, rfl, .badLength _ _ _ _ _ _ _ h1 ((announces_iff h2 none).mpr hc)⟩
      | some n =>
        have ha := (announces_iff h2 (some n)).mpr hc
        rcases readConst_raw (env i).cap n req.body x r1 (env i).cap_pos hx with ⟨g1, r2, g2, g3, g4⟩ | ⟨g1, g2, g3⟩ | ⟨g1, g2, g3⟩
        · have hbody : ({ req.body with internal := some (x ++ r1.flat.take n) } : Body K).Plain := ⟨rfl, hp.2⟩
          obtain ⟨hw, hs⟩ := hstep i
          obtain ⟨keep, req2, resp2, m', k1, k2, k3, k4, k5⟩ :=
            hs { head := hd, body := { req.body with internal := some (x ++ r1.flat.take n) } } resp hbody hb' hp'
          simp only [g2, k1, k4, hw]
          have hsplit : r1.flat = r1.flat.take n ++ r2.flat := by rw [g3, List.take_append_drop]
          have hlen : (r1.flat.take n).length = n := by simp; omega
          rw [hsplit] at h1
          rw [← hlen] at ha
          cases keep with
          | false =>
            have hst : stops hd.f2 := by
              rcases Classical.em (stops hd.f2) with h | h
              · exact h
              · exact absurd (k2.mpr h) (by decide)
            exact ⟨.closed, rfl, .final _ _ _ _ _ _ _ _ h1 ha hst⟩
          | true =>
            have hf2 : r2.flat.length < fuel := by
              have := congrArg List.length hsplit
              simp only [List.length_append] at this
              omega
            obtain ⟨f, e1, e2⟩ := ih (i + 1) (req2.clear c) (m'.clear c) (Head.blank_clear _) (Body.plain_clear c k3) (Head.blank_clear _)
              (by
                show m'.body.clear c = _
                rw [Body.clear_plain c (by rw [k5]; exact ⟨rfl, rfl⟩), k5]) r2 hf2
            rw [show r2.fin = r.fin from g4.trans h3] at e2
            exact ⟨f, e1, .next _ _ _ _ _ _ _ _ _ _ h1 ha (k2.mp rfl) e2⟩
        · simp only [g3]
          rw [h3] at g2 ⊢
          have := Talk.short (reply := reply) (stops := stops) i _ _ _ _ _ _ n h1 ha g1
          cases hfin : r.fin with
          | eof => exact absurd hfin g2
          | err => rw [hfin] at this; exact ⟨.dropped, rfl, this⟩
          | silent => rw [hfin] at this; exact ⟨.waiting, rfl, this⟩
        · simp only [g3]
          rw [h3] at g2
          have := Talk.short (reply := reply) (stops := stops) i _ _ _ _ _ _ n h1 ha g1
          rw [g2] at this ⊢
          exact ⟨.spinning, rfl, this⟩

/-- **C130, the hello-world service.** Whatever the client sends, however it is cut into segments and whatever the limits: the answers
and the end of the connection are those that the specification `Talk` gives for these bytes. -/
theorem C130_hello_whole {K : Type} (c : Codec K) (lim : HttpLimits) (env : Nat → Env K)
    (he : ∀ j, (env j).http = helloHttp ∧ (env j).write = .ok) (r : Reader) :
    ∃ f, fateOf (serve c lim env r).2 = some f ∧
      Talk lim.maxUrl lim.maxHeaderLine lim.maxHeadersCount (afterOf r.fin) (fun j v => helloText v j) helloCloses 0 r.flat
        ((serve c lim env r).1.map (·.written)) f := by
  refine serveLoop_talk c lim env greetings _ _ (fun j => ⟨(he j).2, fun req resp hp hb hx => ?_⟩) _ 0 _ _ Head.blank_new Body.plain_new
    Head.blank_new rfl r (by omega)
  obtain ⟨resp2, m', h1, h2, _, h4⟩ := hello_step c (env j).ord req resp hb (greetings j) hx
  rw [← greetings_succ] at h2 h4
  exact ⟨_, req, resp2, m', by rw [(he j).1, h1], hello_keepAlive _, hp.usable, by rw [h2, helloText_eq], h4⟩

/-- **C130, the file-system service.** The same; it never closes a connection. -/
theorem C130_fs_whole {K : Type} (c : Codec K) (lim : HttpLimits) (env : Nat → Env K)
    (he : ∀ j, (env j).http = fsHttp ∧ (env j).write = .ok) (r : Reader) :
    ∃ f, fateOf (serve c lim env r).2 = some f ∧
      Talk lim.maxUrl lim.maxHeaderLine lim.maxHeadersCount (afterOf r.fin) (fun _ _ => fsText) (fun _ => False) 0 r.flat
        ((serve c lim env r).1.map (·.written)) f := by
  refine serveLoop_talk c lim env (fun _ => []) _ _ (fun j => ⟨(he j).2, fun req resp hp hb hx => ?_⟩) _ 0 _ _ Head.blank_new
    Body.plain_new Head.blank_new rfl r (by omega)
  refine ⟨true, req, resp, (encodeResponse c (env j).ord resp).1, by rw [(he j).1]; rfl, by simp, hp.usable, ?_⟩
  obtain ⟨e0, e1, e2, ef⟩ := hb
  have hfin : resp.body.finish c = (resp.body, true) := by rw [hx]; rfl
  rw [encodeResponse_ok c _ resp (by rw [hfin]), hfin]
  have hz : natToBytes 0 = b!"0" := by decide
  have hset : resp.head.headers.set b!"content-length" b!"0" =
      { ismap := false, vec := [(b!"content-length", [b!"0"])], map := resp.head.headers.map } := by
    rw [set_vec _ ef.1, ef.2.1]
    simp [upsert, ef.1]
  simp only [hx, Body.size, List.length_nil, hz, hset, entries, e0, e1, e2, Bool.false_eq_true, if_false, Option.getD_some]
  exact ⟨rfl, trivial⟩

theorem announces_unique {fs fs' : List (Bytes × Bytes)} (h : ∀ k, valuesIn (collect fs') k = valuesIn (collect fs) k) {o o' : Option Nat}
    (h1 : Announces fs o) (h2 : Announces fs' o') : o' = o := by
  have hs : ∀ k, (storePairs MultiMap.new fs).getall k = valuesIn (collect fs) k := storePairs_getall fs _ fresh_new
  rw [← (announces_iff hs o).mp h1, ← (announces_iff (fun k => (hs k).trans (h k).symm) o').mp h2]

/-- **C130, no ambiguity.** The specification gives every sequence of bytes at most one list of answers and one end - so it says
exactly what the server does. -/
theorem C130_determined (maxUrl maxLine maxCount : Nat) (after : After) (reply : Nat → Bytes → Bytes) (stops : Bytes → Prop) (j : Nat)
    (s : Bytes) (outs outs' : List Bytes) (f f' : Fate) (h : Talk maxUrl maxLine maxCount after reply stops j s outs f)
    (h' : Talk maxUrl maxLine maxCount after reply stops j s outs' f') : outs' = outs ∧ f' = f := by
  have hsil : ∀ s w0 w1 w2 fs rest, HeadText maxUrl maxLine maxCount (after = .closes) s w0 w1 w2 fs rest → after = .silent →
      ¬ HeadOpen maxUrl maxLine maxCount s := by
    intro s w0 w1 w2 fs rest h hs
    exact (C129_unambiguous _ _ _ _ _ _ _ _ _ _ h).2 (by rw [hs]; rfl)
  induction h generalizing outs' f' with
  | refused j s h1 h2 =>
    cases h' with
    | refused => exact ⟨rfl, rfl⟩
    | waits _ _ a b => exact absurd ⟨a, b⟩ h2
    | badLength _ _ _ _ _ _ _ a => exact absurd ⟨_, _, _, _, _, a⟩ h1
    | short _ _ _ _ _ _ _ _ a => exact absurd ⟨_, _, _, _, _, a⟩ h1
    | final _ _ _ _ _ _ _ _ a => exact absurd ⟨_, _, _, _, _, a⟩ h1
    | next _ _ _ _ _ _ _ _ _ _ a => exact absurd ⟨_, _, _, _, _, a⟩ h1
  | waits j s h1 h2 =>
    cases h' with
    | refused _ _ _ a => exact absurd ⟨h1, h2⟩ a
    | waits => exact ⟨rfl, rfl⟩
    | badLength _ _ _ _ _ _ _ a => exact absurd h2 (hsil _ _ _ _ _ _ a h1)
    | short _ _ _ _ _ _ _ _ a => exact absurd h2 (hsil _ _ _ _ _ _ a h1)
    | final _ _ _ _ _ _ _ _ a => exact absurd h2 (hsil _ _ _ _ _ _ a h1)
    | next _ _ _ _ _ _ _ _ _ _ a => exact absurd h2 (hsil _ _ _ _ _ _ a h1)
  | badLength j s w0 w1 w2 rest fs h1 h2 =>
    have hu := (C129_unambiguous _ _ _ _ _ _ _ _ _ _ h1).1
    cases h' with
    | refused _ _ a => exact absurd ⟨_, _, _, _, _, h1⟩ a
    | waits _ _ a b => exact absurd b (hsil _ _ _ _ _ _ h1 a)
    | badLength => exact ⟨rfl, rfl⟩
    | short _ _ _ _ _ _ _ _ a b => cases announces_unique (hu _ _ _ _ _ a).2.2.2.2 h2 b
    | final _ _ _ _ _ _ _ _ a b => cases announces_unique (hu _ _ _ _ _ a).2.2.2.2 h2 b
    | next _ _ _ _ _ _ _ _ _ _ a b => cases announces_unique (hu _ _ _ _ _ a).2.2.2.2 h2 b
  | short j s w0 w1 w2 rest fs n h1 h2 h3 =>
    have hu := (C129_unambiguous _ _ _ _ _ _ _ _ _ _ h1).1
    have hlong : ∀ w0' w1' w2' body rest' fs', HeadText maxUrl maxLine maxCount (after = .closes) s w0' w1' w2' fs' (body ++ rest') →
        ¬ Announces fs' (some body.length) := by
      intro w0' w1' w2' body rest' fs' a b
      obtain ⟨_, _, _, e, hv⟩ := hu _ _ _ _ _ a
      have e2 := announces_unique hv h2 b
      cases e2
      rw [← e, List.length_append] at h3
      omega
    cases h' with
    | refused _ _ a => exact absurd ⟨_, _, _, _, _, h1⟩ a
    | waits _ _ a b => exact absurd b (hsil _ _ _ _ _ _ h1 a)
    | badLength _ _ _ _ _ _ _ a b => cases announces_unique (hu _ _ _ _ _ a).2.2.2.2 h2 b
    | short => exact ⟨rfl, rfl⟩
    | final _ _ _ _ _ _ _ _ a b => exact absurd b (hlong _ _ _ _ _ _ a)
    | next _ _ _ _ _ _ _ _ _ _ a b => exact absurd b (hlong _ _ _ _ _ _ a)
  | final j s w0 w1 w2 body rest fs h1 h2 h3 =>
    have hu := (C129_unambiguous _ _ _ _ _ _ _ _ _ _ h1).1
    cases h' with
    | refused _ _ a => exact absurd ⟨_, _, _, _, _, h1⟩ a
    | waits _ _ a b => exact absurd b (hsil _ _ _ _ _ _ h1 a)
    | badLength _ _ _ _ _ _ _ a b => cases announces_unique (hu _ _ _ _ _ a).2.2.2.2 h2 b
    | short _ _ _ _ _ _ _ n a b d =>
      obtain ⟨_, _, _, e, hv⟩ := hu _ _ _ _ _ a
      have e2 := announces_unique hv h2 b
      cases e2
      rw [e, List.length_append] at d
      omega
    | final _ _ _ _ _ _ _ _ a b d =>
      obtain ⟨_, _, e, _⟩ := hu _ _ _ _ _ a
      rw [e]; exact ⟨rfl, rfl⟩
    | next _ _ _ _ _ _ _ _ _ _ a b d =>
      obtain ⟨_, _, e, _⟩ := hu _ _ _ _ _ a
      rw [e] at d; exact absurd h3 d
  | next j s w0 w1 w2 body rest fs outs f h1 h2 h3 h4 ih =>
    have hu := (C129_unambiguous _ _ _ _ _ _ _ _ _ _ h1).1
    cases h' with
    | refused _ _ a => exact absurd ⟨_, _, _, _, _, h1⟩ a
    | waits _ _ a b => exact absurd b (hsil _ _ _ _ _ _ h1 a)
    | badLength _ _ _ _ _ _ _ a b => cases announces_unique (hu _ _ _ _ _ a).2.2.2.2 h2 b
    | short _ _ _ _ _ _ _ n a b d =>
      obtain ⟨_, _, _, e, hv⟩ := hu _ _ _ _ _ a
      have e2 := announces_unique hv h2 b
      cases e2
      rw [e, List.length_append] at d
      omega
    | final _ _ _ _ _ _ _ _ a b d =>
      obtain ⟨_, _, e, _⟩ := hu _ _ _ _ _ a
      rw [e] at d; exact absurd d h3
    | next _ _ _ _ _ body' rest' _ outs' _ a b d t =>
      obtain ⟨_, _, e, e1, hv⟩ := hu _ _ _ _ _ a
      have e2 := announces_unique hv h2 b
      simp only [Option.some.injEq] at e2
      obtain ⟨_, e4⟩ := List.append_inj e1 e2
      rw [e4] at t
      obtain ⟨g1, g2⟩ := ih _ _ t
      rw [e, g1, g2]; exact ⟨rfl, rfl⟩

/-- Non-trivial case: a request, then one whose version line ends in two arbitrary bytes and whose body is cut off by the client's
close. One answer; then the connection spins. -/
example : Talk sampleLimits.maxUrl sampleLimits.maxHeaderLine sampleLimits.maxHeadersCount .closes (fun j v => helloText v j) helloCloses 0
    b!"G / v\r\n\r\nG / v!!\nContent-Length:2\r\n\r\n1" [helloText b!"v" 0] .spinning := by
  obtain ⟨f, h1, h2⟩ := C130_hello_whole noCodec sampleLimits (fun _ => helloEnv) (fun _ => ⟨rfl, rfl⟩)
    (Reader.ofBytes b!"G / v\r\n\r\nG / v!!\nContent-Length:2\r\n\r\n1" .eof)
  rw [Reader.flat_ofBytes] at h2
  have e1 : (serve noCodec sampleLimits (fun _ => helloEnv)
      (Reader.ofBytes b!"G / v\r\n\r\nG / v!!\nContent-Length:2\r\n\r\n1" .eof)).2 = .hang := by decide +kernel
  have e2 : (serve noCodec sampleLimits (fun _ => helloEnv)
      (Reader.ofBytes b!"G / v\r\n\r\nG / v!!\nContent-Length:2\r\n\r\n1" .eof)).1.map (·.written) = [helloText b!"v" 0] := by
    decide +kernel
  rw [e1] at h1
  rw [e2] at h2
  cases h1
  exact h2

end Httpd
