import Verif.Lemmas.Online
/-! # C09–C13: how a head ends, truncated and malformed heads -/

namespace Httpd
open Spec MultiMap

/-! ## C08 -/

/-- **C08 (partial).** A header name longer than 256 bytes makes the request fail, when the line limit leaves room to see it
(or the server still waits for the rest of the line). Missing: over-long methods, targets and header lines, which are cut and
re-interpreted (`C08_method_resplit_violated`, `C08_target_resplit_violated`, `C08_header_resplit_violated`). -/
theorem C08_long_name_partial (lim : HttpLimits) (w : WireHead) (hst : w.StartWF lim.maxUrl) (fs : List Field)
    (hfs : ∀ f ∈ fs, f.WF lim.maxHeaderLine) (hmx : 1 ≤ lim.maxHeadersCount) (n rest : Bytes) (c : Byte)
    (hn : 58 ∉ n) (hlf : 10 ∉ n) (hnl : 257 ≤ n.length) (hline : 259 ≤ lim.maxHeaderLine)
    (hd : Head) (hb : hd.Blank) (r : Reader)
    (hr : r.flat = w.start ++ (fs.map Field.line).flatten ++ n ++ 58 :: c :: rest) :
    ∃ e, readHead lim hd r = .error e ∧ (e = .waiting → r.fin = .silent) := by
  obtain ⟨e, he⟩ := long_name_refused lim w hst fs hfs hmx n rest c hn hlf hnl hline hd hb r hr
  exact ⟨e, he, fun h => readHead_waiting (h ▸ he)⟩

/-- Non-trivial case: 300 letters after one good field. -/
example : ∃ e, readHead sampleLimits Head.new (Reader.ofBytes (sampleHead.start ++ b!"a: b\r\n" ++ List.replicate 300 97 ++
    b!": x\r\n\r\n") .eof) = .error e ∧ (e = .waiting → StreamEnd.eof = .silent) :=
  C08_long_name_partial sampleLimits sampleHead sampleHead_wf.toStartWF [⟨b!"a", b!"b", 1, 0⟩]
    (by intro f hf; simp only [List.mem_singleton] at hf; subst hf
        exact ⟨by decide, by decide, by decide, by decide, by decide, by decide, by decide, by decide⟩)
    (by decide) (List.replicate 300 97) b!"x\r\n\r\n" 32
    (fun h => absurd (List.mem_replicate.mp h).2 (by decide)) (fun h => absurd (List.mem_replicate.mp h).2 (by decide))
    (by rw [List.length_replicate]; decide) (by decide) Head.new Head.blank_new _
    (by rw [Reader.flat_ofBytes]; decide +kernel)

/-! ## C09 -/

/-- **C09.** Reading a head finishes: with `fuel` header-line steps for any `fuel` larger than the number of bytes available,
whatever the bytes, the segmentation, the end of the stream and the limits; and more fuel gives the same result. Each
`read_until` inside a step finishes within the number of segments available (`readUntil` is total: `readUntilLoop_spec`). -/
theorem C09_head_terminates (lim : HttpLimits) (hd : Head) (r : Reader) (fuel : Nat) (h : r.flat.length < fuel) :
    readHeadFuel lim fuel hd r = some (readHead lim hd r) ∧
    (∀ delim limit, ∃ x, Reader.readUntilLoop delim (r.segs.length + 3) limit r [] = some x) ∧
    (r.fin ≠ .silent → readHead lim hd r ≠ .error .waiting) := by
  refine ⟨?_, fun delim limit => ?_, fun hn hw => hn (readHead_waiting hw)⟩
  · have := readHeadFuel_isSome lim fuel hd r h
    cases hx : readHeadFuel lim fuel hd r with
    | none => rw [hx] at this; cases this
    | some x => rw [readHead_of_fuel hx]
  · have := Reader.readUntilLoop_spec delim (r.segs.length + 3) limit r [] (by split <;> omega)
    split at this
    · obtain ⟨r', h1, _⟩ := this; exact ⟨_, h1⟩
    · exact ⟨_, this⟩

/-- Non-trivial case: a failing stream in the middle of a header. -/
example : (readHeadFuel sampleLimits 40 Head.new { buf := b!"GET / HTT", segs := [⟨80, b!"/1.1\r\nHo"⟩], fin := .err }).map
    Except.toOption = some none := by decide +kernel

/-! ## C10 -/

theorem prefix_append_cases {α : Type} {p a b : List α} (h : p <+: a ++ b) :
    (p <+: a ∧ p ≠ a) ∨ ∃ q, p = a ++ q ∧ q <+: b := by
  induction a generalizing p with
  | nil => right; exact ⟨p, rfl, h⟩
  | cons x a ih =>
    cases p with
    | nil => left; exact ⟨List.nil_prefix, by simp⟩
    | cons y p =>
      rw [List.cons_append, List.cons_prefix_cons] at h
      obtain ⟨rfl, h⟩ := h
      rcases ih h with ⟨h1, h2⟩ | ⟨q, rfl, hq⟩
      · left; exact ⟨by rw [List.cons_prefix_cons]; exact ⟨rfl, h1⟩, by simpa using h2⟩
      · right; exact ⟨q, rfl, hq⟩

/-- A strict prefix of `a ++ [d]` is a prefix of `a`. -/
theorem strict_prefix_snoc {α : Type} {p a : List α} {d : α} (h : p <+: a ++ [d]) (hne : p ≠ a ++ [d]) : p <+: a := by
  rcases prefix_append_cases h with ⟨h1, _⟩ | ⟨q, rfl, hq⟩
  · exact h1
  · cases q with
    | nil => simp
    | cons x q =>
      rw [List.cons_prefix_cons] at hq
      obtain ⟨rfl, hq⟩ := hq
      rw [List.prefix_nil] at hq
      subst hq; exact absurd rfl hne

theorem cut_no_delim (delim : Byte) (limit : Nat) (p : Bytes) (h : delim ∉ p) (hl : p.length ≤ limit) :
    cut delim limit p = (p, []) := by
  have hc := cut_append_notin delim p [] limit h hl
  rw [List.append_nil] at hc
  have h0 : cut delim (limit - p.length) [] = ([], []) := by cases limit - p.length <;> rfl
  rw [h0, List.append_nil] at hc
  exact hc

theorem cut_nil (delim : Byte) (limit : Nat) : cut delim limit [] = ([], []) := by cases limit <;> rfl

theorem Lines.not_nil {lim : HttpLimits} {hs hs' : MultiMap} {s rest : Bytes} (h : Lines lim hs s hs' rest) : s ≠ [] := by
  rintro rfl
  cases h with
  | stop _ _ h => rw [cut_nil] at h; cases h
  | line _ _ _ _ _ hl => rw [cut_nil] at hl; cases hl

/-- The two-byte cuts: after some complete fields, exactly two bytes of the next field's line. -/
def TwoByteCut (fs : List Field) (p : Bytes) : Prop :=
  ∃ pre f post, fs = pre ++ f :: post ∧ p = (pre.map Field.line).flatten ++ f.line.take 2

theorem lines_truncated {lim : HttpLimits} {hs hs' : MultiMap} {p rest : Bytes} (h : Lines lim hs p hs' rest)
    (fs : List Field) (hwf : ∀ f ∈ fs, f.WF lim.maxHeaderLine) (h2 : 2 ≤ lim.maxHeaderLine)
    (hp : p <+: encodeFields fs) (hne : p ≠ encodeFields fs) : TwoByteCut fs p := by
  induction fs generalizing hs p with
  | nil =>
    exfalso
    have hp' : p <+: [13] := strict_prefix_snoc (a := [13]) (d := 10) (by simpa [encodeFields] using hp)
      (by simpa [encodeFields] using hne)
    have hl : p.length ≤ 1 := by have := hp'.length_le; simpa using this
    have hn : (10 : Byte) ∉ p := fun hm => by have := hp'.subset hm; simp at this
    have hc := cut_no_delim 10 lim.maxHeaderLine p hn (by omega)
    cases h with
    | stop _ _ h => rw [hc] at h; simp only at h; omega
    | line _ _ _ _ _ hl' => rw [hc] at hl'; simp only at hl'; omega
  | cons f fs ih =>
    have hf := hwf f (by simp)
    have he : encodeFields (f :: fs) = f.line ++ encodeFields fs := by simp [encodeFields]
    rw [he] at hp hne
    rcases prefix_append_cases hp with ⟨h1, h3⟩ | ⟨q, rfl, hq⟩
    · have hpl : p <+: f.name ++ [58] ++ List.replicate f.pre 32 ++ f.value ++ List.replicate f.post 32 ++ [13] :=
        strict_prefix_snoc (by rw [← f.line_eq]; exact h1) (by rw [← f.line_eq]; exact h3)
      have hn : (10 : Byte) ∉ p := fun hm => hf.no_lf (hpl.subset hm)
      have hl : p.length ≤ lim.maxHeaderLine := by
        have := hf.line_len; have := h1.length_le; omega
      have hc := cut_no_delim 10 lim.maxHeaderLine p hn hl
      cases h with
      | stop _ _ h =>
        rw [hc] at h
        refine ⟨[], f, fs, rfl, ?_⟩
        rw [List.prefix_iff_eq_take] at h1
        rw [h1, h]; simp
      | line _ _ _ _ _ hl' _ h' =>
        rw [hc] at h'
        exact absurd rfl h'.not_nil
    · obtain ⟨hc, _⟩ := hf.piece q
      cases h with
      | stop _ _ h => rw [hc] at h; have := hf.len; simp only at h; omega
      | line _ _ _ _ _ hl' _ h' =>
        rw [hc] at h'
        obtain ⟨pre, g, post, e1, e2⟩ := ih h' (fun f hf => hwf f (by simp [hf])) hq (by rintro rfl; exact hne rfl)
        exact ⟨f :: pre, g, post, by simp [e1], by change q = _ at e2; rw [e2]; simp⟩

/-- **C10 (partial).** If the stream ends inside a well-formed head, the read fails - except when the client closes exactly
two bytes into a header line (`C10_truncated_violated`). If the stream ends with an error it always fails. If the client
stops sending inside the head without closing, the server waits. -/
theorem C10_truncated_partial (lim : HttpLimits) (w : WireHead)
    (hw : w.WF lim.maxUrl lim.maxHeaderLine lim.maxHeadersCount) (hd : Head) (hb : hd.Blank) (r : Reader)
    (hp : r.flat <+: w.encode) (hne : r.flat ≠ w.encode)
    (hcut : r.fin ≠ .eof ∨ ∀ q, r.flat = w.start ++ q → ¬ TwoByteCut w.fields q) :
    ∃ e, readHead lim hd r = .error e ∧ (e = .waiting ↔ r.fin = .silent) := by
  cases hres : readHead lim hd r with
  | error e =>
    refine ⟨e, rfl, ⟨fun h => readHead_waiting (h ▸ hres), fun hs => ?_⟩⟩
    obtain ⟨z, hz⟩ := hp
    have hx := readHead_extend lim z hd r (Reader.ofBytes w.encode .eof) ⟨hs, by rw [Reader.flat_ofBytes, hz]⟩
    rw [hres] at hx
    rcases hx with h | h
    · exact h
    · obtain ⟨hd', r', h1, _⟩ := C02_wellformed_head lim w hw hd hb (Reader.ofBytes w.encode .eof) [] (by simp [Reader.flat_ofBytes])
      rw [h1] at h; cases h
  | ok x =>
    exfalso
    obtain ⟨hd', r'⟩ := x
    obtain ⟨⟨P⟩, hfin⟩ := readHead_ok hres
    have hs : w.encode = (w.w0 ++ [32]) ++ ((w.w1 ++ [32]) ++ ((w.w2 ++ [13, 10]) ++ encodeFields w.fields)) := by
      simp [WireHead.encode, WireHead.start]
    have hpc := hw.toStartWF.pieces
    rw [hs] at hp hne
    rcases prefix_append_cases hp with ⟨h1, h2⟩ | ⟨p1, e1, hp1⟩
    · have h3 := strict_prefix_snoc h1 h2
      have hc := cut_no_delim 32 128 r.flat (fun hm => (hw.w0_vis _ (h3.subset hm)).ne_space rfl)
        (by have := h3.length_le; have := hw.w0_len; omega)
      have hm := P.hm; rw [hc] at hm
      have ht := P.ht; rw [← (Prod.mk.inj hm).2, cut_nil] at ht
      have := P.ht1; rw [← (Prod.mk.inj ht).1] at this; cases this
    rw [e1] at hne
    have hm : (w.w0 ++ [32], p1) = (P.m, P.s1) := by rw [← P.hm, congrArg (cut 32 128) e1]; exact (hpc.pm p1).1.symm
    rcases prefix_append_cases hp1 with ⟨h1, h2⟩ | ⟨p2, e2, hp2⟩
    · have h3 := strict_prefix_snoc h1 h2
      have hc := cut_no_delim 32 lim.maxUrl p1 (fun hm => (hw.w1_vis _ (h3.subset hm)).ne_space rfl)
        (by have := h3.length_le; have := hw.w1_len; omega)
      have ht := P.ht; rw [← (Prod.mk.inj hm).2, hc] at ht
      have hv := P.hv; rw [← (Prod.mk.inj ht).2, cut_nil] at hv
      have := P.hv3; rw [← (Prod.mk.inj hv).1] at this; cases this
    rw [e2] at hne
    have ht : (w.w1 ++ [32], p2) = (P.t, P.s2) := by
      rw [← P.ht, ← (Prod.mk.inj hm).2, congrArg (cut 32 lim.maxUrl) e2]; exact (hpc.pt p2).1.symm
    rcases prefix_append_cases hp2 with ⟨h1, h2⟩ | ⟨p3, e3, hp3⟩
    · have h3 : p2 <+: w.w2 ++ [13] := strict_prefix_snoc (d := 10) (by simpa using h1) (by simpa using h2)
      have hc := cut_no_delim 10 128 p2 (fun hm => by
          have := h3.subset hm
          simp only [List.mem_append, List.mem_singleton] at this
          rcases this with h | h
          · exact (hw.w2_text _ h).ne_lf rfl
          · cases h)
        (by have h4 := h3.length_le; have := hw.w2_len; simp at h4; omega)
      have hv := P.hv; rw [← (Prod.mk.inj ht).2, hc] at hv
      have hl := P.lines; rw [← (Prod.mk.inj hv).2] at hl
      exact hl.not_nil rfl
    rw [e3] at hne
    have hv : (w.w2 ++ [13, 10], p3) = (P.v, P.s3) := by
      rw [← P.hv, ← (Prod.mk.inj ht).2, congrArg (cut 10 128) e3]; exact (hpc.pv p3).1.symm
    have hl := P.lines; rw [← (Prod.mk.inj hv).2] at hl
    have hcut2 := lines_truncated hl w.fields hw.fields_wf hw.line_room hp3 (by rintro rfl; exact hne rfl)
    have hflat : r.flat = w.start ++ p3 := by rw [e1, e2, e3]; simp [WireHead.start]
    rcases hcut with hfe | hcut
    · -- the stream fails: the last read is an error
      obtain ⟨pre, f, post, g1, g2⟩ := hcut2
      have hmx : 1 ≤ lim.maxHeadersCount := by
        have := hw.fields_count; rw [g1] at this; simp at this; omega
      obtain ⟨q, a1, a2, a3⟩ := readHead_wireStart lim w hw.toStartWF hd ⟨hb.f0, hb.f1, hb.f2⟩ r p3 hflat
      have hf : f.WF lim.maxHeaderLine := hw.fields_wf f (by rw [g1]; simp)
      obtain ⟨q1, b1, b2, b3⟩ := headerLoop_lines lim pre (fun x hx => hw.fields_wf x (by rw [g1]; simp [hx]))
        (Or.inr hmx) hd.headers q _ (by rw [a1, g2])
      have hlf : (10 : Byte) ∉ f.line.take 2 := by
        intro hm
        have : f.line.take 2 = (f.name ++ [58] ++ List.replicate f.pre 32 ++ f.value ++ List.replicate f.post 32 ++ [13]).take 2 := by
          rw [f.line_eq, List.take_append_of_le_length]
          have := hf.len; rw [f.line_eq, List.length_append] at this; simp at this ⊢; omega
        rw [this] at hm
        exact hf.no_lf (List.mem_of_mem_take hm)
      have hdone : cutDone 10 lim.maxHeaderLine q1.flat = false := by
        rw [b1]
        have hl3 : 2 < lim.maxHeaderLine := by have := hf.len; have := hf.line_len; omega
        have := cutDone_append_notin 10 (f.line.take 2) [] lim.maxHeaderLine hlf (by simp; omega)
        rw [List.append_nil] at this
        rw [this]
        obtain ⟨k, hk⟩ : ∃ k, lim.maxHeaderLine - (f.line.take 2).length = k + 1 :=
          ⟨lim.maxHeaderLine - (f.line.take 2).length - 1, by simp; omega⟩
        rw [hk]; rfl
      have hu := Reader.readUntil_spec 10 lim.maxHeaderLine q1
      rw [if_neg (by rw [hdone, b2, a2]; simp [hfe])] at hu
      have hloop : headerLoop lim 1 (storeFields hd.headers pre) q1 =
          some (.error ((Reader.endStop q1.fin).code .connReadError)) := by
        simp [headerLoop, hu]
      rw [← b3] at hloop
      have := a3 _ _ hloop
      rw [hres] at this
      simp [addStart] at this
    · exact hcut p3 hflat hcut2

/-- Every strict prefix has to be considered: a case in the middle of a value. -/
example : ∃ r : Reader, r.flat <+: sampleHead.encode ∧ r.flat ≠ sampleHead.encode ∧ 30 < r.flat.length ∧
    ∀ q, r.flat = sampleHead.start ++ q → ¬ TwoByteCut sampleHead.fields q := by
  refine ⟨Reader.ofBytes (sampleHead.encode.take 31) .eof, ?_, ?_, ?_, ?_⟩
  · rw [Reader.flat_ofBytes]; exact List.take_prefix _ _
  · rw [Reader.flat_ofBytes]; decide +kernel
  · rw [Reader.flat_ofBytes]; decide +kernel
  · rw [Reader.flat_ofBytes]
    intro q hq h
    have hq' : q = b!"Host: exam" := by
      have h1 : sampleHead.encode.take 31 = sampleHead.start ++ b!"Host: exam" := by decide +kernel
      rw [h1] at hq
      exact (List.append_cancel_left hq).symm
    subst hq'
    obtain ⟨pre, f, post, e1, e2⟩ := h
    cases pre with
    | nil =>
      have := congrArg List.length e2
      simp at this; omega
    | cons g pre =>
      simp only [sampleHead, List.cons_append, List.cons.injEq] at e1
      have hg : g.line = b!"Host: example.org\r\n" := by rw [← e1.1]; decide
      have := congrArg List.length e2
      simp only [List.map_cons, List.flatten_cons, List.length_append, hg] at this
      simp at this
      omega

/-- **C10 is violated**: a client that closes two bytes into any header line of a well-formed request has its request
accepted, with the headers sent before. -/
theorem C10_truncated_violated (lim : HttpLimits) (w : WireHead)
    (hw : w.WF lim.maxUrl lim.maxHeaderLine lim.maxHeadersCount) (hd : Head) (hb : hd.Blank) (r : Reader)
    (pre post : List Field) (f : Field) (hfs : w.fields = pre ++ f :: post)
    (hr : r.flat = w.start ++ (pre.map Field.line).flatten ++ f.line.take 2) (hfin : r.fin = .eof) :
    ∃ hd' r', readHead lim hd r = .ok (hd', r') ∧ hd'.f0 = w.w0 ∧ hd'.f1 = w.w1 ∧ hd'.f2 = w.w2 ∧
      ∀ k, hd'.headers.getall k = lookupFields pre k := by
  have hmx : 1 ≤ lim.maxHeadersCount := by
    have := hw.fields_count; rw [hfs] at this; simp at this; omega
  have hf : f.WF lim.maxHeaderLine := hw.fields_wf f (by rw [hfs]; simp)
  obtain ⟨q, a1, a2, a3⟩ := readHead_wireStart lim w hw.toStartWF hd ⟨hb.f0, hb.f1, hb.f2⟩ r
    ((pre.map Field.line).flatten ++ f.line.take 2) (by rw [hr]; simp)
  obtain ⟨q1, b1, b2, b3⟩ := headerLoop_lines lim pre (fun x hx => hw.fields_wf x (by rw [hfs]; simp [hx]))
    (Or.inr hmx) hd.headers q _ a1
  have hl := hf.len
  have hlf : (10 : Byte) ∉ f.line.take 2 := by
    intro hm
    have : f.line.take 2 = (f.name ++ [58] ++ List.replicate f.pre 32 ++ f.value ++ List.replicate f.post 32 ++ [13]).take 2 := by
      rw [f.line_eq, List.take_append_of_le_length]
      rw [f.line_eq, List.length_append] at hl; simp at hl ⊢; omega
    rw [this] at hm
    exact hf.no_lf (List.mem_of_mem_take hm)
  obtain ⟨q2, c1, c2, c3⟩ := Reader.readUntil_rest (delim := 10) (limit := lim.maxHeaderLine) (r := q1)
    (by rw [b1]; exact hlf) (by rw [b1]; have := hf.line_len; simp; omega) (by rw [b2, a2, hfin])
  have hloop : headerLoop lim 1 (storeFields hd.headers pre) q1 = some (.ok (storeFields hd.headers pre, q2)) := by
    simp only [headerLoop, c1]
    have : q1.flat.length = 2 := by rw [b1]; simp; omega
    rw [if_neg (by omega), if_pos this]
  rw [← b3] at hloop
  have := a3 _ _ hloop
  simp only [addStart, Option.some.injEq] at this
  exact ⟨_, _, this, rfl, rfl, rfl,
    fun k => storeFields_getall _ hb.headers _ (fun x hx => (hw.fields_wf x (by rw [hfs]; simp [hx])).name_ne) k⟩

/-! ## C11 -/

theorem Lines.last {lim : HttpLimits} {hs hs' : MultiMap} {s rest : Bytes} (h : Lines lim hs s hs' rest) :
    ∃ pre last, s = pre ++ last ++ rest ∧ last.length = 2 ∧
      (last.getLast? = some 10 ∨ lim.maxHeaderLine = 2 ∨ rest = []) := by
  induction h with
  | stop hs s h =>
    refine ⟨[], (cut 10 lim.maxHeaderLine s).1, by simp [cut_append], h, ?_⟩
    rcases cut_shape 10 lim.maxHeaderLine s with ⟨p, _, he⟩ | ⟨_, hl | hr⟩
    · left; rw [he]; simp
    · right; left; omega
    · right; right; exact hr
  | line hs hs1 hs2 s rest hl hscan h ih =>
    obtain ⟨pre, last, e1, e2, e3⟩ := ih
    refine ⟨(cut 10 lim.maxHeaderLine s).1 ++ pre, last, ?_, e2, e3⟩
    conv => lhs; rw [← cut_append 10 lim.maxHeaderLine s, e1]
    simp

/-- **C11 (partial, what does end a head).** A head that is read successfully ends in a two-byte line: two bytes of which the
second is LF, unless the line limit is two or the stream ended right after them. Missing: that the first of the two bytes is
CR, which is false. -/
theorem C11_end_exact_partial (lim : HttpLimits) (hd hd' : Head) (r r' : Reader)
    (h : readHead lim hd r = .ok (hd', r')) :
    ∃ pre last, r.flat = pre ++ last ++ r'.flat ∧ last.length = 2 ∧
      (last.getLast? = some 10 ∨ lim.maxHeaderLine = 2 ∨ r'.flat = []) := by
  obtain ⟨⟨P⟩, _⟩ := readHead_ok h
  obtain ⟨pre, last, e1, e2, e3⟩ := P.lines.last
  refine ⟨P.m ++ P.t ++ P.v ++ pre, last, ?_, e2, e3⟩
  have h1 := cut_append 32 128 r.flat
  have h2 := cut_append 32 lim.maxUrl P.s1
  have h3 := cut_append 10 128 P.s2
  rw [P.hm] at h1; rw [P.ht] at h2; rw [P.hv] at h3
  simp only at h1 h2 h3
  have h4 : P.m ++ (P.t ++ (P.v ++ (pre ++ last ++ r'.flat))) = r.flat := by rw [← e1, h3, h2, h1]
  simpa using h4.symm

/-- **C11 is violated**: any one byte followed by LF ends the head, e.g. `x` LF; what follows is then taken as the body or the
next request. -/
theorem C11_any_two_bytes_violated (lim : HttpLimits) (w : WireHead)
    (hw : w.WF lim.maxUrl lim.maxHeaderLine lim.maxHeadersCount) (hd : Head) (hb : hd.Blank) (r : Reader) (s : Bytes)
    (x : Byte) (hx : x ≠ 10)
    (hr : r.flat = w.start ++ (w.fields.map Field.line).flatten ++ [x, 10] ++ s) :
    ∃ hd' r', readHead lim hd r = .ok (hd', r') ∧ r'.flat = s ∧
      ∀ k, hd'.headers.getall k = lookupFields w.fields k := by
  have hmx : w.fields = [] ∨ 1 ≤ lim.maxHeadersCount := by
    have := hw.fields_count
    cases hf : w.fields with
    | nil => exact Or.inl rfl
    | cons f fs => rw [hf] at this; simp at this; right; omega
  obtain ⟨q, a1, a2, a3⟩ := readHead_wireStart lim w hw.toStartWF hd ⟨hb.f0, hb.f1, hb.f2⟩ r
    ((w.fields.map Field.line).flatten ++ ([x, 10] ++ s)) (by rw [hr]; simp)
  obtain ⟨q1, b1, b2, b3⟩ := headerLoop_lines lim w.fields hw.fields_wf hmx hd.headers q _ a1
  have h2 := hw.line_room
  obtain ⟨q2, c1, c2, c3⟩ := headerLoop_end lim (hs := storeFields hd.headers w.fields) (r := q1) (p := [x, 10]) (s := s)
    (isPiece_delim 10 _ [x] (by simpa using fun h => hx h.symm) (by simp; omega)) b1 rfl
  have hloop := c3 0
  rw [Nat.zero_add, ← b3] at hloop
  have := a3 _ _ hloop
  simp only [addStart, Option.some.injEq] at this
  exact ⟨_, _, this, c1,
    fun k => storeFields_getall _ hb.headers _ (fun f hf => (hw.fields_wf f hf).name_ne) k⟩

/-- The request `GET /a?b=c HTTP/1.1`, headers, `x` LF, `rest` is an instance. -/
example : ∃ hd' r', readHead sampleLimits Head.new
    (Reader.ofBytes (sampleHead.start ++ (sampleHead.fields.map Field.line).flatten ++ [120, 10] ++ b!"rest") .eof) = .ok (hd', r') ∧
    r'.flat = b!"rest" := by
  obtain ⟨hd', r', h1, h2, _⟩ := C11_any_two_bytes_violated sampleLimits sampleHead sampleHead_wf Head.new Head.blank_new
    (Reader.ofBytes (sampleHead.start ++ (sampleHead.fields.map Field.line).flatten ++ [120, 10] ++ b!"rest") .eof)
    b!"rest" 120 (by decide) (Reader.flat_ofBytes _ _)
  exact ⟨hd', r', h1, h2⟩

/-! ## C12 -/

/-- Scanning a line without a colon leaves the headers alone. -/
theorem scanLine_colonless (mx : Nat) (hs : MultiMap) (l : Bytes) (h1 : 58 ∉ l) (h2 : ∀ b ∈ l, IsText b) (h3 : l.length ≤ 256) :
    scanLine mx hs [] l = .ok hs := by
  rw [scanLine_ok_iff _ _ _ _ _ (by simp)]
  left; exact ⟨h1, (all_isText_iff _).mpr h2, by simpa using h3, rfl⟩

/-- **C12 is violated** for lines without colon: such a line of up to 256 bytes, anywhere among the headers of a well-formed
head, is silently skipped. -/
theorem C12_colonless_skipped_violated (lim : HttpLimits) (w : WireHead) (pre post : List Field)
    (hfs : w.fields = pre ++ post)
    (hw : w.WF lim.maxUrl lim.maxHeaderLine lim.maxHeadersCount) (l : Bytes) (h1 : 58 ∉ l) (h2 : ∀ b ∈ l, IsText b)
    (h3 : l.length ≤ 256) (h4 : 1 ≤ l.length) (h5 : l.length + 2 ≤ lim.maxHeaderLine) (hd : Head) (hb : hd.Blank)
    (r : Reader) (s : Bytes)
    (hr : r.flat = w.start ++ (pre.map Field.line).flatten ++ l ++ [13, 10] ++ encodeFields post ++ s) :
    ∃ hd' r', readHead lim hd r = .ok (hd', r') ∧ r'.flat = s ∧ hd'.f0 = w.w0 ∧ hd'.f1 = w.w1 ∧ hd'.f2 = w.w2 ∧
      ∀ k, hd'.headers.getall k = lookupFields w.fields k := by
  have hmx : ∀ l : List Field, l <+: w.fields ∨ l <:+ w.fields → l = [] ∨ 1 ≤ lim.maxHeadersCount := by
    intro l hl
    have := hw.fields_count
    cases l with
    | nil => exact Or.inl rfl
    | cons f fs =>
      right
      rcases hl with hl | hl <;> have := hl.length_le <;> simp at this <;> omega
  obtain ⟨q, a1, a2, a3⟩ := readHead_wireStart lim w hw.toStartWF hd ⟨hb.f0, hb.f1, hb.f2⟩ r
    ((pre.map Field.line).flatten ++ ((l ++ [13, 10]) ++ (encodeFields post ++ s))) (by rw [hr]; simp)
  obtain ⟨q1, b1, b2, b3⟩ := headerLoop_lines lim pre (fun x hx => hw.fields_wf x (by rw [hfs]; simp [hx]))
    (hmx pre (Or.inl (by rw [hfs]; simp))) hd.headers q _ a1
  have hpl : IsPiece 10 lim.maxHeaderLine (l ++ [13, 10]) := by
    have := isPiece_delim 10 lim.maxHeaderLine (l ++ [13]) (by
      simp only [List.mem_append, List.mem_singleton, not_or]
      exact ⟨fun hm => (h2 _ hm).ne_lf rfl, by decide⟩) (by simp; omega)
    simpa using this
  obtain ⟨q2, c1, c2, c3⟩ := headerLoop_piece lim (hs := storeFields hd.headers pre) (hs' := storeFields hd.headers pre)
    (r := q1) hpl b1 (by simp; omega) (by
      rw [List.take_left' (by simp)]
      exact scanLine_colonless _ _ l h1 h2 h3)
  obtain ⟨q3, d1, d2, d3⟩ := headerLoop_fields lim post (fun x hx => hw.fields_wf x (by rw [hfs]; simp [hx])) hw.line_room
    (hmx post (Or.inr (by rw [hfs]; simp))) (storeFields hd.headers pre) q2 s c1
  rw [← c3, ← b3, ← storeFields_append, ← hfs] at d1
  have := a3 _ _ d1
  simp only [addStart, Option.some.injEq] at this
  exact ⟨_, _, this, d2, rfl, rfl, rfl,
    fun k => storeFields_getall _ hb.headers _ (fun f hf => (hw.fields_wf f hf).name_ne) k⟩

/-- **C12 is violated** for empty names: `: v` is accepted, and the value is delivered under the next header's name, before
that header's own value. -/
theorem C12_empty_name_merged_violated (lim : HttpLimits) (w : WireHead) (f : Field) (hfs : w.fields = [f])
    (hw : w.WF lim.maxUrl lim.maxHeaderLine lim.maxHeadersCount) (v : Bytes) (hv : ∀ b ∈ v, IsText b)
    (hv1 : v.head? ≠ some 32) (hv2 : v.getLast? ≠ some 32) (h5 : v.length + 4 ≤ lim.maxHeaderLine) (hd : Head) (hb : hd.Blank)
    (r : Reader) (s : Bytes) (hr : r.flat = w.start ++ ([58, 32] ++ v ++ [13, 10]) ++ encodeFields w.fields ++ s) :
    ∃ hd' r', readHead lim hd r = .ok (hd', r') ∧ r'.flat = s ∧
      hd'.headers.getall (lower f.name) = some [v, f.value] ∧ hd'.headers.get (lower f.name) = some v := by
  have hmx : 1 ≤ lim.maxHeadersCount := by
    have := hw.fields_count; rw [hfs] at this; simpa using this
  obtain ⟨q, a1, a2, a3⟩ := readHead_wireStart lim w hw.toStartWF hd ⟨hb.f0, hb.f1, hb.f2⟩ r
    (([58, 32] ++ v ++ [13, 10]) ++ (encodeFields w.fields ++ s)) (by rw [hr]; simp)
  have hpl : IsPiece 10 lim.maxHeaderLine ([58, 32] ++ v ++ [13, 10]) := by
    have := isPiece_delim 10 lim.maxHeaderLine ([58, 32] ++ v ++ [13]) (by
      simp only [List.mem_append, List.mem_cons, List.not_mem_nil, or_false, not_or]
      exact ⟨⟨⟨by decide, by decide⟩, fun hm => (hv _ hm).ne_lf rfl⟩, by decide⟩) (by simp; omega)
    simpa using this
  obtain ⟨q2, c1, c2, c3⟩ := headerLoop_piece lim (hs := hd.headers) (hs' := hd.headers.append [] v)
    (r := q) hpl a1 (by simp) (by
      rw [List.take_left' (by simp), scanLine_ok_iff _ _ _ _ _ (by simp)]
      right
      refine ⟨[], 32 :: v, by simp, by simp, by simp, ?_, by simp, by simp, hmx, ?_⟩
      · rw [all_isText_iff]; intro b hb; rw [List.mem_cons] at hb
        rcases hb with rfl | hb
        · decide
        · exact hv b hb
      · have := trimSp_pad 1 0 v hv1 hv2
        simp at this
        simp [this]; rfl)
  obtain ⟨q3, d1, d2, d3⟩ := headerLoop_fields lim w.fields hw.fields_wf hw.line_room (Or.inr hmx) (hd.headers.append [] v) q2 s c1
  rw [← c3] at d1
  have := a3 _ _ d1
  simp only [addStart, Option.some.injEq] at this
  have hg : (storeFields (hd.headers.append [] v) w.fields).getall (lower f.name) = some [v, f.value] := by
    rw [hfs]
    obtain ⟨b1, b2, b3⟩ := hb.headers
    have e1 : hd.headers.append [] v = { hd.headers with vec := [([], [v])] } := by
      simp [MultiMap.append, b1, b2, vecFindOrEmpty]
    simp only [storeFields, List.foldl_cons, List.foldl_nil, e1]
    have e2 : (MultiMap.append { hd.headers with vec := [([], [v])] } (lower f.name) f.value) =
        { hd.headers with vec := [(lower f.name, [v, f.value])] } := by
      simp [MultiMap.append, b1, vecFindOrEmpty]
    rw [e2, getall_vec _ (by simpa using b1)]
    simp [hmGet]
  exact ⟨_, _, this, d2, hg, by simp [MultiMap.get, hg]⟩

/-- Non-trivial case: `: evil` then `host: good` is read as `host` = `evil`. -/
example : ∃ hd' r', readHead sampleLimits Head.new
    (Reader.ofBytes b!"GET / HTTP/1.1\r\n: evil\r\nHost: good\r\n\r\n" .eof) = .ok (hd', r') ∧
    hd'.headers.get b!"host" = some b!"evil" := by
  obtain ⟨hd', r', h1, _, _, h2⟩ := C12_empty_name_merged_violated sampleLimits
    ⟨b!"GET", b!"/", b!"HTTP/1.1", [⟨b!"Host", b!"good", 1, 0⟩]⟩ ⟨b!"Host", b!"good", 1, 0⟩ rfl
    ⟨⟨by decide, by decide, by decide, by decide, by decide, by decide, by decide⟩, by
      intro f hf; simp only [List.mem_singleton] at hf; subst hf
      exact ⟨by decide, by decide, by decide, by decide, by decide, by decide, by decide, by decide⟩, by decide, by decide⟩
    b!"evil" (by decide) (by decide) (by decide) (by decide) Head.new Head.blank_new
    (Reader.ofBytes b!"GET / HTTP/1.1\r\n: evil\r\nHost: good\r\n\r\n" .eof) [] (by rw [Reader.flat_ofBytes]; decide +kernel)
  exact ⟨hd', r', h1, h2⟩

/-- **C12 (partial).** A line containing a byte that is not printable ASCII or space makes the request fail, and so does a
line without colon of more than 256 bytes. Missing: shorter colonless lines and empty names (theorems above). -/
theorem C12_bad_line_refused_partial (lim : HttpLimits) (w : WireHead) (hst : w.StartWF lim.maxUrl) (fs : List Field)
    (hfs : ∀ f ∈ fs, f.WF lim.maxHeaderLine) (hmx : 1 ≤ lim.maxHeadersCount) (l : Bytes) (hl : 10 ∉ l)
    (hbad : (∃ b ∈ l, ¬ IsText b) ∨ (58 ∉ l ∧ 256 < l.length)) (hlen : l.length + 2 ≤ lim.maxHeaderLine)
    (hd : Head) (hb : hd.Blank) (r : Reader) (s : Bytes)
    (hr : r.flat = w.start ++ (fs.map Field.line).flatten ++ l ++ [13, 10] ++ s) :
    readHead lim hd r = .error .badDatagram := by
  obtain ⟨q, a1, a2, a3⟩ := readHead_wireStart lim w hst hd ⟨hb.f0, hb.f1, hb.f2⟩ r
    ((fs.map Field.line).flatten ++ ((l ++ [13, 10]) ++ s)) (by rw [hr]; simp)
  obtain ⟨q1, b1, b2, b3⟩ := headerLoop_lines lim fs hfs (Or.inr hmx) hd.headers q _ a1
  have hne : l ≠ [] := by
    rintro rfl
    rcases hbad with ⟨b, hb, _⟩ | ⟨_, h⟩
    · cases hb
    · cases h
  have hll := List.length_pos_iff.mpr hne
  have hpl : IsPiece 10 lim.maxHeaderLine (l ++ [13, 10]) := by
    have := isPiece_delim 10 lim.maxHeaderLine (l ++ [13]) (by
      simp only [List.mem_append, List.mem_singleton, not_or]
      exact ⟨hl, by decide⟩) (by simp; omega)
    simpa using this
  cases hsc : scanLine lim.maxHeadersCount (storeFields hd.headers fs) [] l with
  | ok hs' =>
    exfalso
    rw [scanLine_ok_iff _ _ _ _ _ (by simp)] at hsc
    rcases hsc with ⟨h1, h2, h3, _⟩ | ⟨n, v, h1, h2, h3, h4, _⟩
    · rcases hbad with ⟨b, hb, hnt⟩ | ⟨_, h⟩
      · exact hnt ((all_isText_iff _).mp h2 b hb)
      · simp at h3; omega
    · rcases hbad with ⟨b, hb, hnt⟩ | ⟨h, _⟩
      · rw [h1] at hb
        simp only [List.mem_append, List.mem_cons] at hb
        rcases hb with hb | rfl | hb
        · exact hnt ((all_isText_iff _).mp h3 b hb)
        · exact hnt (by decide)
        · exact hnt ((all_isText_iff _).mp h4 b hb)
      · rw [h1] at h; simp at h
  | error e =>
    have := headerLoop_bad lim (hs := storeFields hd.headers fs) (r := q1) hpl b1 (by simp; omega)
      (by rw [List.take_left' (by simp)]; exact hsc) 0
    rw [Nat.zero_add, ← b3] at this
    have := a3 _ _ this
    rcases scanLine_codes _ _ _ _ _ hsc with rfl | ⟨_, h0⟩
    · simpa [addStart] using this
    · omega

example : ∃ b ∈ b!"a:\tb", ¬ IsText b := ⟨9, by decide, by decide⟩

/-! ## C13 -/

/-- **C13 is violated** for empty values: a header line `name:` with nothing after the colon makes the request fail. -/
theorem C13_empty_value_violated (lim : HttpLimits) (w : WireHead) (hst : w.StartWF lim.maxUrl)
    (n : Bytes) (hn : n ≠ []) (hnv : ∀ b ∈ n, IsVisible b ∧ b ≠ 58) (hlen : n.length + 3 ≤ lim.maxHeaderLine) (hd : Head)
    (hb : hd.Blank) (r : Reader) (s : Bytes) (hr : r.flat = w.start ++ (n ++ [58] ++ [13, 10]) ++ s) :
    ∃ e, e ≠ .waiting ∧ readHead lim hd r = .error e := by
  obtain ⟨q, a1, a2, a3⟩ := readHead_wireStart lim w hst hd ⟨hb.f0, hb.f1, hb.f2⟩ r
    ((n ++ [58] ++ [13, 10]) ++ s) (by rw [hr]; simp)
  have hnl := List.length_pos_iff.mpr hn
  have hpl : IsPiece 10 lim.maxHeaderLine (n ++ [58] ++ [13, 10]) := by
    have := isPiece_delim 10 lim.maxHeaderLine (n ++ [58] ++ [13]) (by
      simp only [List.mem_append, List.mem_singleton, not_or]
      exact ⟨⟨fun hm => (hnv _ hm).1.text.ne_lf rfl, by decide⟩, by decide⟩) (by simp; omega)
    simpa using this
  cases hsc : scanLine lim.maxHeadersCount hd.headers [] (n ++ [58]) with
  | ok hs' =>
    exfalso
    rw [scanLine_ok_iff _ _ _ _ _ (by simp)] at hsc
    rcases hsc with ⟨h1, _⟩ | ⟨n', v, h1, h2, _, _, h3, _⟩
    · simp at h1
    · have hv : v = [] := by
        have h58 : 58 ∉ n := fun hm => (hnv _ hm).2 rfl
        rcases List.append_eq_append_iff.mp h1 with ⟨c, e1, e2⟩ | ⟨c, e1, e2⟩
        · cases c with
          | nil => simpa using e2.symm
          | cons x c => simp at e2
        · cases c with
          | nil => simpa using e2
          | cons x c =>
            simp only [List.cons_append, List.cons.injEq] at e2
            rw [e1, ← e2.1] at h58; simp at h58
      exact h3 hv
  | error e =>
    have := headerLoop_bad lim (hs := hd.headers) (r := q) hpl a1 (by simp)
      (by rw [List.take_left' (by simp)]; exact hsc) 0
    have := a3 _ _ this
    refine ⟨e, ?_, by simpa [addStart] using this⟩
    rintro rfl
    rcases scanLine_codes _ _ _ _ _ hsc with h | ⟨h, _⟩ <;> cases h

/-- **C13 is violated** for lines ended by a bare LF: the last byte of the value is lost. -/
theorem C13_bare_lf_violated (lim : HttpLimits) (w : WireHead) (hst : w.StartWF lim.maxUrl) (hmx : 1 ≤ lim.maxHeadersCount)
    (n v : Bytes) (x : Byte) (hn : n ≠ []) (hnv : ∀ b ∈ n, IsVisible b ∧ b ≠ 58) (hnl : n.length ≤ 256)
    (hv : ∀ b ∈ v, IsText b) (hvne : v ≠ []) (hv1 : v.head? ≠ some 32) (hv2 : v.getLast? ≠ some 32) (hx : x ≠ 10)
    (hlen : n.length + v.length + 3 ≤ lim.maxHeaderLine) (hd : Head) (hb : hd.Blank) (r : Reader) (s : Bytes)
    (hr : r.flat = w.start ++ (n ++ [58] ++ v ++ [x] ++ [10]) ++ [13, 10] ++ s) :
    ∃ hd' r', readHead lim hd r = .ok (hd', r') ∧ r'.flat = s ∧ hd'.headers.getall (lower n) = some [v] := by
  obtain ⟨q, a1, a2, a3⟩ := readHead_wireStart lim w hst hd ⟨hb.f0, hb.f1, hb.f2⟩ r
    ((n ++ [58] ++ v ++ [x] ++ [10]) ++ ([13, 10] ++ s)) (by rw [hr]; simp)
  have hnl' := List.length_pos_iff.mpr hn
  have hvl := List.length_pos_iff.mpr hvne
  obtain ⟨q2, c1, c2, c3⟩ := headerLoop_piece lim (hs := hd.headers) (hs' := hd.headers.append (lower n) v)
    (r := q) (isPiece_delim 10 lim.maxHeaderLine (n ++ [58] ++ v ++ [x]) (by
      simp only [List.mem_append, List.mem_singleton, not_or]
      exact ⟨⟨⟨fun hm => (hnv _ hm).1.text.ne_lf rfl, by decide⟩, fun hm => (hv _ hm).ne_lf rfl⟩, fun hh => hx hh.symm⟩)
      (by simp; omega)) a1 (by simp; omega) (by
      have : (n ++ [58] ++ v ++ [x] ++ [10]).take ((n ++ [58] ++ v ++ [x] ++ [10]).length - 2) =
          n ++ [58] ++ List.replicate 0 32 ++ v ++ List.replicate 0 32 := by
        rw [List.append_assoc _ [x] [10], List.take_left' (by simp; omega)]; simp
      rw [this]
      exact scanLine_field (lim := n.length + v.length + 3) (f := ⟨n, v, 0, 0⟩)
        ⟨hn, hnv, hnl, hv, hv1, hv2, by simp; omega, by simp [Field.line]; omega⟩ hmx _)
  obtain ⟨q3, d1, d2, d3⟩ := headerLoop_end lim (hs := hd.headers.append (lower n) v) (r := q2)
    (isPiece_crlf _ (by omega)) c1 rfl
  have h0 := d3 0
  rw [← c3] at h0
  have := a3 _ _ h0
  simp only [addStart, Option.some.injEq] at this
  refine ⟨_, _, this, d1, ?_⟩
  have hg := storeFields_getall hd.headers hb.headers [⟨n, v, 0, 0⟩] (by simpa using hn) (lower n)
  have hl : lookupFields [⟨n, v, 0, 0⟩] (lower n) = some [v] := by simp [lookupFields, valuesOf]
  rw [hl] at hg
  exact hg

/-- Non-trivial case: `x:yz` LF is delivered as `y`. -/
example : ∃ hd' r', readHead sampleLimits Head.new
    (Reader.ofBytes b!"GET / HTTP/1.1\r\nx:yz\n\r\n" .eof) = .ok (hd', r') ∧ r'.flat = [] ∧
    hd'.headers.getall b!"x" = some [b!"y"] :=
  C13_bare_lf_violated sampleLimits ⟨b!"GET", b!"/", b!"HTTP/1.1", []⟩
    ⟨by decide, by decide, by decide, by decide, by decide, by decide, by decide⟩ (by decide) b!"x" b!"y" 122 (by decide)
    (by decide) (by decide) (by decide) (by decide) (by decide) (by decide) (by decide) (by decide) Head.new Head.blank_new _ []
    (by rw [Reader.flat_ofBytes]; decide +kernel)

/-- **C13 (partial).** With a CRLF line end and at least one byte (a space will do) after the colon, the value is delivered
unchanged without its surrounding spaces, the empty value included. Missing: nothing after the colon, and bare LF. -/
theorem C13_value_delivered_partial (lim : HttpLimits) (w : WireHead) (f : Field) (hfs : w.fields = [f])
    (hw : w.WF lim.maxUrl lim.maxHeaderLine lim.maxHeadersCount) (hd : Head) (hb : hd.Blank) (r : Reader) (s : Bytes)
    (hr : r.flat = w.start ++ (f.name ++ [58] ++ List.replicate f.pre 32 ++ f.value ++ List.replicate f.post 32 ++ [13, 10]) ++
      [13, 10] ++ s) :
    ∃ hd' r', readHead lim hd r = .ok (hd', r') ∧ r'.flat = s ∧ hd'.headers.getall (lower f.name) = some [f.value] := by
  obtain ⟨hd', r', h1, _, _, _, h2, h3, _⟩ := C02_wellformed_head lim w hw hd hb r s
    (by rw [hr]; simp [WireHead.encode, encodeFields, hfs, Field.line])
  refine ⟨hd', r', h1, h3, ?_⟩
  rw [h2, hfs]; simp [lookupFields, valuesOf]

example : Field.WF 6144 ⟨b!"x-empty", b!"", 1, 0⟩ :=
  ⟨by decide, by decide, by decide, by decide, by decide, by decide, by decide, by decide⟩

end Httpd
