import Verif.Spec.Loose
import Verif.Props.HeadEnd
import Verif.Props.Body
/-! # C102–C106: what RFC 9112 asks a server to refuse -/

namespace Httpd
open Spec MultiMap

theorem scanLine_loose {lim mx : Nat} {f : LooseField} (h : f.Fits lim) (hmx : 1 ≤ mx) (hs : MultiMap) :
    scanLine mx hs [] (List.replicate f.before 32 ++ f.name ++ List.replicate f.after 32 ++ [58, 32] ++ f.value) =
      .ok (hs.append (lower f.name) f.value) := by
  rw [scanLine_ok_iff _ _ _ _ _ (by simp)]
  right
  refine ⟨List.replicate f.before 32 ++ f.name ++ List.replicate f.after 32, 32 :: f.value, by simp, ?_, ?_, ?_, by simp, ?_,
    hmx, ?_⟩
  · simp only [List.mem_append, List.mem_replicate, not_or]
    exact ⟨⟨fun hh => absurd hh.2 (by decide), fun hm => (h.name_text _ hm).2 rfl⟩, fun hh => absurd hh.2 (by decide)⟩
  · rw [all_isText_iff]
    intro b hb
    simp only [List.mem_append, List.mem_replicate] at hb
    rcases hb with (⟨_, rfl⟩ | hb) | ⟨_, rfl⟩
    · decide
    · exact (h.name_text b hb).1
    · decide
  · rw [all_isText_iff]
    intro b hb
    rcases List.mem_cons.mp hb with rfl | hb
    · decide
    · exact h.value_text b hb
  · simpa [Nat.add_assoc] using h.name_len
  · have e1 : trimSp (32 :: f.value) = f.value := by
      have := trimSp_pad 1 0 f.value h.value_first h.value_last
      simpa using this
    have e2 : trimSp (lower (List.replicate f.before 32 ++ f.name ++ List.replicate f.after 32)) = lower f.name := by
      have e3 : lower (List.replicate f.before 32 ++ f.name ++ List.replicate f.after 32) =
          List.replicate f.before 32 ++ lower f.name ++ List.replicate f.after 32 := by
        simp [lower]
      rw [e3]
      apply trimSp_pad
      · rw [← map_toAsciiLower, List.head?_map]
        have := h.name_first
        cases hn : f.name.head? with
        | none => simp
        | some b =>
          rw [hn] at this
          simp only [Option.map_some, ne_eq, Option.some.injEq, toAsciiLower_space]
          simpa using this
      · rw [← map_toAsciiLower, List.getLast?_map]
        have := h.name_last
        cases hn : f.name.getLast? with
        | none => simp
        | some b =>
          rw [hn] at this
          simp only [Option.map_some, ne_eq, Option.some.injEq, toAsciiLower_space]
          simpa using this
    rw [List.nil_append, map_toAsciiLower, e1, e2]

/-- A loose line anywhere among the header lines of a well-formed head is stored like a header sent without the spaces. -/
theorem readHead_loose (lim : HttpLimits) (w : WireHead) (pre post : List Field) (hfs : w.fields = pre ++ post)
    (hw : w.WF lim.maxUrl lim.maxHeaderLine lim.maxHeadersCount) (hmx1 : 1 ≤ lim.maxHeadersCount) (f : LooseField)
    (hf : f.Fits lim.maxHeaderLine) (hd : Head) (hb : hd.Blank) (r : Reader) (s : Bytes)
    (hr : r.flat = w.start ++ (pre.map Field.line).flatten ++ f.line ++ encodeFields post ++ s) :
    ∃ hd' r', readHead lim hd r = .ok (hd', r') ∧ r'.flat = s ∧ hd'.f0 = w.w0 ∧ hd'.f1 = w.w1 ∧ hd'.f2 = w.w2 ∧
      ∀ k, hd'.headers.getall k = lookupFields (pre ++ f.field :: post) k := by
  obtain ⟨q, a1, a2, a3⟩ := readHead_wireStart lim w hw.toStartWF hd ⟨hb.f0, hb.f1, hb.f2⟩ r
    ((pre.map Field.line).flatten ++ (f.line ++ (encodeFields post ++ s))) (by rw [hr]; simp)
  obtain ⟨q1, b1, b2, b3⟩ := headerLoop_lines lim pre (fun x hx => hw.fields_wf x (by rw [hfs]; simp [hx]))
    (Or.inr hmx1) hd.headers q _ a1
  have hll := hf.line_len
  have hpl : IsPiece 10 lim.maxHeaderLine f.line := by
    have := isPiece_delim 10 lim.maxHeaderLine
      (List.replicate f.before 32 ++ f.name ++ List.replicate f.after 32 ++ [58, 32] ++ f.value ++ [13]) (by
      simp only [List.mem_append, List.mem_replicate, List.mem_cons, List.not_mem_nil, or_false, not_or]
      exact ⟨⟨⟨⟨⟨fun hh => absurd hh.2 (by decide), fun hm => (hf.name_text _ hm).1.ne_lf rfl⟩,
        fun hh => absurd hh.2 (by decide)⟩, by decide, by decide⟩, fun hm => (hf.value_text _ hm).ne_lf rfl⟩, by decide⟩)
      (by simp [LooseField.line] at hll ⊢; omega)
    simpa [LooseField.line] using this
  obtain ⟨q2, c1, c2, c3⟩ := headerLoop_piece lim (hs := storeFields hd.headers pre)
    (hs' := (storeFields hd.headers pre).append (lower f.name) f.value)
    (r := q1) hpl b1 (by simp [LooseField.line]; omega) (by
      rw [LooseField.line, List.take_left' (by simp; omega)]
      exact scanLine_loose hf hmx1 _)
  obtain ⟨q3, d1, d2, d3⟩ := headerLoop_fields lim post (fun x hx => hw.fields_wf x (by rw [hfs]; simp [hx])) hw.line_room
    (Or.inr hmx1) _ q2 s c1
  have hsf : storeFields ((storeFields hd.headers pre).append (lower f.name) f.value) post =
      storeFields hd.headers (pre ++ f.field :: post) := by
    rw [storeFields_append]; rfl
  rw [← c3, ← b3, hsf] at d1
  have := a3 _ _ d1
  simp only [addStart, Option.some.injEq] at this
  refine ⟨_, _, this, d2, rfl, rfl, rfl, fun k => storeFields_getall _ hb.headers _ ?_ k⟩
  intro x hx
  simp only [List.mem_append, List.mem_cons] at hx
  rcases hx with hx | rfl | hx
  · exact (hw.fields_wf x (by rw [hfs]; simp [hx])).name_ne
  · exact hf.name_ne
  · exact (hw.fields_wf x (by rw [hfs]; simp [hx])).name_ne

/-! ## C102 white space around a header name -/

/-- **C102 is violated**: spaces between a header name and its colon, or before the name (the form of a continuation line),
anywhere in a well-formed head, do not make the request fail: the line is stored as a header of that name. -/
theorem C102_space_before_colon_violated (lim : HttpLimits) (w : WireHead) (pre post : List Field)
    (hfs : w.fields = pre ++ post) (hw : w.WF lim.maxUrl lim.maxHeaderLine lim.maxHeadersCount)
    (hmx : 1 ≤ lim.maxHeadersCount) (f : LooseField) (hf : f.Fits lim.maxHeaderLine) (_hsp : 1 ≤ f.before + f.after)
    (hd : Head) (hb : hd.Blank) (r : Reader) (s : Bytes)
    (hr : r.flat = w.start ++ (pre.map Field.line).flatten ++ f.line ++ encodeFields post ++ s) :
    ∃ hd' r', readHead lim hd r = .ok (hd', r') ∧ r'.flat = s ∧
      hd'.headers.getall (lower f.name) =
        some (valuesOf pre (lower f.name) ++ f.value :: valuesOf post (lower f.name)) := by
  obtain ⟨hd', r', h1, h2, _, _, _, h3⟩ := readHead_loose lim w pre post hfs hw hmx f hf hd hb r s hr
  refine ⟨hd', r', h1, h2, ?_⟩
  rw [h3, lookupFields]
  have : valuesOf (pre ++ f.field :: post) (lower f.name) =
      valuesOf pre (lower f.name) ++ f.value :: valuesOf post (lower f.name) := by
    simp [valuesOf, LooseField.field]
  rw [this]
  cases valuesOf pre (lower f.name) <;> rfl

/-- Non-trivial cases: `Content-Length : 3`, and a continuation line that becomes a header of its own. -/
example : (LooseField.mk 0 b!"Content-Length" 1 b!"3").Fits 6144 :=
  ⟨by decide, by decide, by decide, by decide, by decide, by decide, by decide, by decide, by decide⟩

example : (serve noCodec sampleLimits (fun _ => sampleEnv)
    (Reader.ofBytes b!"POST / HTTP/1.1\r\nX: a\r\n Content-Length : 3\r\n\r\nabc" .eof)).1.map
      (fun e => e.req.body.internal) = [some b!"abc"] := by decide +kernel

/-! ## C103 header names are tokens -/

/-- **C103 is violated**: any printable bytes and inner spaces are taken as a name, whether they are token characters or not. -/
theorem C103_not_a_token_violated (lim : HttpLimits) (w : WireHead) (pre post : List Field)
    (hfs : w.fields = pre ++ post) (hw : w.WF lim.maxUrl lim.maxHeaderLine lim.maxHeadersCount)
    (hmx : 1 ≤ lim.maxHeadersCount) (f : LooseField) (hf : f.Fits lim.maxHeaderLine)
    (_hbad : ∃ b ∈ f.name, ¬ IsTchar b)
    (hd : Head) (hb : hd.Blank) (r : Reader) (s : Bytes)
    (hr : r.flat = w.start ++ (pre.map Field.line).flatten ++ f.line ++ encodeFields post ++ s) :
    ∃ hd' r', readHead lim hd r = .ok (hd', r') ∧ r'.flat = s ∧ ∃ vs, hd'.headers.getall (lower f.name) = some vs ∧ f.value ∈ vs := by
  obtain ⟨hd', r', h1, h2, _, _, _, h3⟩ := readHead_loose lim w pre post hfs hw hmx f hf hd hb r s hr
  refine ⟨hd', r', h1, h2, ?_⟩
  rw [h3, lookupFields]
  have : valuesOf (pre ++ f.field :: post) (lower f.name) =
      valuesOf pre (lower f.name) ++ f.value :: valuesOf post (lower f.name) := by
    simp [valuesOf, LooseField.field]
  rw [this]
  cases h : valuesOf pre (lower f.name) with
  | nil => exact ⟨_, rfl, by simp⟩
  | cons a l => exact ⟨_, rfl, by simp⟩

/-- Non-trivial case: `a(b "c": 1`. -/
example : (LooseField.mk 0 b!"a(b \"c\"" 0 b!"1").Fits 6144 ∧ ∃ b ∈ b!"a(b \"c\"", ¬ IsTchar b :=
  ⟨⟨by decide, by decide, by decide, by decide, by decide, by decide, by decide, by decide, by decide⟩, 40, by decide, by decide⟩

/-- **C103 (partial).** What is true of every stored name, whatever the input: it contains no colon, no control character, no
byte above 126, no capital letter, and no space at either end. Missing: the other characters that are not allowed in a name. -/
theorem C103_names_partial (lim : HttpLimits) (hd hd' : Head) (hb : hd.Blank) (r r' : Reader)
    (h : readHead lim hd r = .ok (hd', r')) (k : Bytes) (vs : List Bytes) (hk : hd'.headers.getall k = some vs) :
    (∀ b ∈ k, 32 ≤ b ∧ b ≤ 126 ∧ b ≠ 58 ∧ ¬ (65 ≤ b ∧ b ≤ 90)) ∧ k.head? ≠ some 32 ∧ k.getLast? ≠ some 32 := by
  obtain ⟨⟨p⟩, _⟩ := readHead_ok h
  have hall : hd'.headers.AllE (fun e => (58 : Byte) ∉ e.1) := by
    refine p.lines.allE (AllE_fresh hb.headers) ?_
    intro hs n v hR hn _ _ _ _ _
    have hk : (58 : Byte) ∉ trimSp (n.map toAsciiLower) := by
      intro hm
      have := (trimSp_sublist _).subset hm
      rw [List.mem_map] at this
      obtain ⟨a, ha, he⟩ := this
      have key : ∀ a : Byte, toAsciiLower a = 58 → a = 58 := by
        apply forall_byte; decide +kernel
      rw [key a he] at ha
      exact hn ha
    exact AllE_append hR _ _ hk (fun _ _ => hk) (fun _ _ => hk)
  obtain ⟨h1, h2, h3, _⟩ := (C04_names_normalised lim hd hd' hb r r' h).1 k vs hk
  refine ⟨?_, h2, h3⟩
  intro b hbm
  have ht := ((C03_text_only lim hd hd' hb r r' h).2.1 k vs hk).1 b hbm
  refine ⟨ht.1, ht.2, fun hb58 => ?_, fun hcap => ?_⟩
  · have := AllE_getall hall k vs hk
    rw [hb58] at hbm; exact this hbm
  · have key : ∀ a : Byte, 65 ≤ a ∧ a ≤ 90 → (if 65 ≤ a ∧ a ≤ 90 then a + 32 else a) ≠ a := by
      apply forall_byte; decide +kernel
    have hm : ∀ (l : Bytes), lower l = l → ∀ b ∈ l, (if 65 ≤ b ∧ b ≤ 90 then b + 32 else b) = b := by
      intro l hl
      induction l with
      | nil => intro b hb; cases hb
      | cons a l ih =>
        simp only [lower, List.map_cons, List.cons.injEq] at hl
        intro b hb
        rcases List.mem_cons.mp hb with rfl | hb
        · exact hl.1
        · exact ih hl.2 b hb
    exact key b hcap (hm k h1 b hbm)

/-- Non-trivial case: such a head is accepted. -/
example : (readHead sampleLimits Head.new (Reader.ofBytes b!"GET / HTTP/1.1\r\nA(b \"C\" : 1\r\n\r\n" .eof)).toOption.map
    (fun p => p.1.headers.getall b!"a(b \"c\"") = some (some [b!"1"]) := by decide +kernel

/-! ## C104 the words of the request line -/

/-- The bytes before the last one of a piece cut at a delimiter contain no delimiter. -/
theorem cut_take_no_delim (delim : Byte) (limit : Nat) (s : Bytes) :
    delim ∉ (cut delim limit s).1.take ((cut delim limit s).1.length - 1) := by
  rcases cut_shape delim limit s with ⟨p, hp, he⟩ | ⟨hn, _⟩
  · rw [he]; simpa using hp
  · exact fun hm => hn (List.mem_of_mem_take hm)

/-- **C104 (partial).** Whatever the input, the method and the target delivered contain no space, so the words of the request
line cannot be misplaced by spaces inside them. Missing: that they are not empty, which is false
(`C104_empty_words_violated`). -/
theorem C104_no_space_partial (lim : HttpLimits) (hd hd' : Head) (hb : hd.Blank) (r r' : Reader)
    (h : readHead lim hd r = .ok (hd', r')) : 32 ∉ hd'.f0 ∧ 32 ∉ hd'.f1 := by
  obtain ⟨⟨p⟩, _⟩ := readHead_ok h
  have h0 := cut_take_no_delim 32 128 r.flat
  have h1 := cut_take_no_delim 32 lim.maxUrl p.s1
  rw [p.hm] at h0; rw [p.ht] at h1
  constructor
  · rw [p.f0, hb.f0]; exact h0
  · rw [p.f1, hb.f1]; exact h1

/-- Non-trivial case: a request line with too many words is accepted; the spaces end up in the version. -/
example : (readHead sampleLimits Head.new (Reader.ofBytes b!"GET /a b HTTP/1.1\r\n\r\n" .eof)).toOption.map
    (fun p => (p.1.f0, p.1.f1, p.1.f2)) = some (b!"GET", b!"/a", b!"b HTTP/1.1") := by decide +kernel

/-- **C104 is violated** for empty words: a request line that begins with a space, or has two spaces after the method, is
delivered to every service, with an empty method or target. -/
theorem C104_empty_words_violated {K : Type} (c : Codec K) (lim : HttpLimits) (env : Nat → Env K) (q : WireReq)
    (hq : q.WF lim.maxUrl lim.maxHeaderLine lim.maxHeadersCount) (_hempty : q.head.w0 = [] ∨ q.head.w1 = [])
    (r : Reader) (s : Bytes) (hr : r.flat = q.encode ++ s) :
    ∃ ex rest e, serve c lim env r = (ex :: rest, e) ∧ ex.req.head.f0 = q.head.w0 ∧ ex.req.head.f1 = q.head.w1 := by
  obtain ⟨ex, rest, e, h1, h2, _⟩ := serveLoop_delivers_request c lim env r.flat.length 0 q hq Message.new Message.new []
    Head.blank_new Body.plain_new rfl r s hr
  exact ⟨ex, rest, e, h1, h2.f0, h2.f1⟩

/-- Non-trivial case: two spaces and a version. -/
example : (WireReq.mk ⟨[], [], b!"HTTP/1.1", []⟩ []).WF 8192 6144 128 ∧
    (WireReq.mk ⟨[], [], b!"HTTP/1.1", []⟩ []).encode = b!"  HTTP/1.1\r\n\r\n" := by
  refine ⟨⟨⟨⟨by decide, by decide, by decide, by decide, by decide, by decide, by decide⟩, ?_, by decide, by decide⟩, by decide, rfl⟩, by decide⟩
  intro f hf; cases hf

/-! ## C105 the version -/

/-- **C105 is violated**: the version is not looked at. A request with any version text of 1 to 126 printable bytes is
delivered to the service. -/
theorem C105_any_version_violated {K : Type} (c : Codec K) (lim : HttpLimits) (env : Nat → Env K) (q : WireReq)
    (hq : q.WF lim.maxUrl lim.maxHeaderLine lim.maxHeadersCount)
    (v : Bytes) (hv : ∀ b ∈ v, IsText b) (hne : v ≠ []) (hlen : v.length ≤ 126)
    (r : Reader) (s : Bytes) (hr : r.flat = { q with head := { q.head with w2 := v } }.encode ++ s) :
    ∃ ex rest e, serve c lim env r = (ex :: rest, e) ∧ ex.req.head.f2 = v ∧ ex.req.head.f0 = q.head.w0 ∧
      ex.req.head.f1 = q.head.w1 := by
  have hw := hq.head_wf
  have hq' : WireReq.WF lim.maxUrl lim.maxHeaderLine lim.maxHeadersCount { q with head := { q.head with w2 := v } } :=
    ⟨⟨⟨hw.w0_vis, hw.w0_len, hw.w1_vis, hw.w1_len, hv, hne, by simp only; omega⟩, hw.fields_wf, hw.fields_count, hw.line_room⟩,
      hq.body_len, hq.announce⟩
  obtain ⟨ex, rest, e, h1, h2, _⟩ := serveLoop_delivers_request c lim env r.flat.length 0 _ hq' Message.new Message.new []
    Head.blank_new Body.plain_new rfl r s hr
  exact ⟨ex, rest, e, h1, h2.f2, h2.f0, h2.f1⟩

/-- Non-trivial case: nonsense for a version, and the preface of HTTP/2. -/
example : (serve noCodec sampleLimits (fun _ => sampleEnv)
    (Reader.ofBytes b!"PRI * HTTP/2.0\r\n\r\nGET / nonsense\r\n\r\n" .eof)).1.map (fun e => e.req.head.f2) =
      [b!"HTTP/2.0", b!"nonsense"] := by decide +kernel

/-- **C105 (partial).** Every version delivered is 1 to 126 printable bytes. -/
theorem C105_version_partial (lim : HttpLimits) (hd hd' : Head) (hb : hd.Blank) (r r' : Reader)
    (h : readHead lim hd r = .ok (hd', r')) :
    1 ≤ hd'.f2.length ∧ hd'.f2.length ≤ 126 ∧ ∀ b ∈ hd'.f2, IsText b := by
  obtain ⟨⟨p⟩, _⟩ := readHead_ok h
  have h3 := p.hv3
  have hle := (C07_sizes_partial lim hd hd' hb r r' h).2.2.1
  refine ⟨?_, by omega, (all_isText_iff _).mp p.f2t⟩
  rw [p.f2, hb.f2, List.nil_append, List.length_take]; omega

/-! ## C106 the Host header -/

/-- **C106 is violated**: an HTTP/1.1 request is delivered whatever Host headers it has: none, several, or any text. -/
theorem C106_host_violated {K : Type} (c : Codec K) (lim : HttpLimits) (env : Nat → Env K) (q : WireReq)
    (hq : q.WF lim.maxUrl lim.maxHeaderLine lim.maxHeadersCount) (_hv : q.head.w2 = b!"HTTP/1.1")
    (_hhost : (valuesOf q.head.fields b!"host").length ≠ 1)
    (r : Reader) (s : Bytes) (hr : r.flat = q.encode ++ s) :
    ∃ ex rest e, serve c lim env r = (ex :: rest, e) ∧ ex.req.head.f2 = b!"HTTP/1.1" ∧
      (ex.req.head.headers.getall b!"host").getD [] = valuesOf q.head.fields b!"host" := by
  obtain ⟨ex, rest, e, h1, h2, _⟩ := serveLoop_delivers_request c lim env r.flat.length 0 q hq Message.new Message.new []
    Head.blank_new Body.plain_new rfl r s hr
  refine ⟨ex, rest, e, h1, by rw [h2.f2, _hv], ?_⟩
  rw [h2.headers, lookupFields]
  cases valuesOf q.head.fields b!"host" <;> rfl

/-- Non-trivial case: two Host headers. -/
example : (serve noCodec sampleLimits (fun _ => sampleEnv)
    (Reader.ofBytes b!"GET / HTTP/1.1\r\nHost: a\r\nHost: b\r\n\r\nGET / HTTP/1.1\r\n\r\n" .eof)).1.map
      (fun e => e.req.head.headers.getall b!"host") = [some [b!"a", b!"b"], none] := by decide +kernel

end Httpd
