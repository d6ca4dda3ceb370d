import Verif.Lemmas.Recase
/-! # C02–C13: reading a request head -/

namespace Httpd
open Spec MultiMap

/-- The state of a message before its head is read: new, or cleared (src/serve.rs:32-33, 46-47). -/
structure Head.Blank (h : Head) : Prop where
  f0 : h.f0 = []
  f1 : h.f1 = []
  f2 : h.f2 = []
  headers : h.headers.Fresh

theorem Head.blank_new : Head.new.Blank := ⟨rfl, rfl, rfl, fresh_new⟩
theorem Head.blank_clear (h : Head) : h.clear.Blank := ⟨rfl, rfl, rfl, fresh_clear _⟩

/-- A stream whose bytes have all arrived. -/
def Reader.ofBytes (s : Bytes) (fin : StreamEnd) : Reader := { buf := s, segs := [], fin := fin }

theorem Reader.flat_ofBytes (s : Bytes) (fin : StreamEnd) : (Reader.ofBytes s fin).flat = s := by
  simp [Reader.ofBytes, Reader.flat]

/-! ## C02 -/

/-- **C02.** A well-formed head within the limits, in any segmentation and followed by anything, is read exactly. -/
theorem C02_wellformed_head (lim : HttpLimits) (w : WireHead)
    (hw : w.WF lim.maxUrl lim.maxHeaderLine lim.maxHeadersCount) (hd : Head) (hb : hd.Blank)
    (r : Reader) (s : Bytes) (hr : r.flat = w.encode ++ s) :
    ∃ hd' r', readHead lim hd r = .ok (hd', r') ∧ hd'.f0 = w.w0 ∧ hd'.f1 = w.w1 ∧ hd'.f2 = w.w2 ∧
      (∀ k, hd'.headers.getall k = lookupFields w.fields k) ∧ r'.flat = s ∧ r'.fin = r.fin := by
  have hmx : w.fields = [] ∨ 1 ≤ lim.maxHeadersCount := by
    have := hw.fields_count
    cases hf : w.fields with
    | nil => exact Or.inl rfl
    | cons f fs => rw [hf] at this; simp at this; right; omega
  obtain ⟨r', h1, h2, h3⟩ := readHead_wire lim w hw.toStartWF hw.fields_wf hw.line_room hmx hd ⟨hb.f0, hb.f1, hb.f2⟩ r s hr
  exact ⟨_, r', h1, rfl, rfl, rfl,
    fun k => storeFields_getall _ hb.headers _ (fun f hf => (hw.fields_wf f hf).name_ne) k, h2, h3⟩

/-- A sample head. -/
def sampleHead : WireHead :=
  { w0 := b!"GET", w1 := b!"/a?b=c", w2 := b!"HTTP/1.1",
    fields := [⟨b!"Host", b!"example.org", 1, 0⟩, ⟨b!"X-A", b!"1 2", 0, 2⟩, ⟨b!"x-a", b!"", 1, 0⟩] }

/-- Limits used in examples. -/
def sampleLimits : HttpLimits := { maxUrl := 8192, maxHeaderLine := 6144, maxHeadersCount := 128, maxBody := 1024 }

theorem sampleHead_wf : sampleHead.WF 8192 6144 128 := by
  refine ⟨⟨by decide, by decide, by decide, by decide, by decide, by decide, by decide⟩, ?_, by decide, by decide⟩
  intro f hf
  simp only [sampleHead, List.mem_cons, List.not_mem_nil, or_false] at hf
  rcases hf with rfl | rfl | rfl <;>
    exact ⟨by decide, by decide, by decide, by decide, by decide, by decide, by decide, by decide⟩

/-- Non-trivial case of C02, in two segments, followed by a body. -/
example : ∃ r : Reader, r.segs.length = 2 ∧ r.flat = sampleHead.encode ++ b!"body" ∧
    sampleHead.WF sampleLimits.maxUrl sampleLimits.maxHeaderLine sampleLimits.maxHeadersCount := by
  refine ⟨{ buf := [], segs := [⟨71, (sampleHead.encode.take 20).tail⟩,
    ⟨(sampleHead.encode.drop 20).head!, (sampleHead.encode.drop 20).tail ++ b!"body"⟩], fin := .eof }, rfl, ?_, sampleHead_wf⟩
  decide +kernel

/-! ## C03 -/

/-- **C03.** Whatever the bytes, limits and segmentation: if reading a head succeeds, the start line and every stored name
and value (as seen by `getall` and by `each`) are printable ASCII or space. -/
theorem C03_text_only (lim : HttpLimits) (hd hd' : Head) (hb : hd.Blank) (r r' : Reader)
    (h : readHead lim hd r = .ok (hd', r')) :
    (∀ b ∈ hd'.f0 ++ hd'.f1 ++ hd'.f2, IsText b) ∧
    (∀ k vs, hd'.headers.getall k = some vs → (∀ b ∈ k, IsText b) ∧ ∀ v ∈ vs, ∀ b ∈ v, IsText b) ∧
    (∀ ord, IsOrder ord → ∀ e ∈ hd'.headers.entries ord, (∀ b ∈ e.1, IsText b) ∧ ∀ v ∈ e.2, ∀ b ∈ v, IsText b) := by
  obtain ⟨⟨p⟩, _⟩ := readHead_ok h
  have hall : hd'.headers.AllE (fun e => (∀ b ∈ e.1, IsText b) ∧ ∀ v ∈ e.2, ∀ b ∈ v, IsText b) := by
    refine p.lines.allE (AllE_fresh hb.headers) ?_
    intro hs n v hR _ hn hv _ _ _
    rw [all_isText_iff] at hn hv
    have hk : ∀ b ∈ trimSp (n.map toAsciiLower), IsText b := by
      intro b hbm
      have := (trimSp_sublist _).subset hbm
      rw [List.mem_map] at this
      obtain ⟨a, ha, rfl⟩ := this
      exact toAsciiLower_isText a (hn a ha)
    have hv' : ∀ b ∈ trimSp v, IsText b := fun b hbm => hv b ((trimSp_sublist _).subset hbm)
    refine AllE_append hR _ _ ⟨hk, by simpa using hv'⟩ ?_ ?_ <;>
    · intro vs hvs
      refine ⟨hk, fun x hx => ?_⟩
      rw [List.mem_append, List.mem_singleton] at hx
      rcases hx with hx | rfl
      · exact hvs.2 x hx
      · exact hv'
  refine ⟨?_, fun k vs hg => AllE_getall hall k vs hg, fun ord hord => AllE_entries hall ord hord⟩
  intro b hbm
  rw [List.mem_append, List.mem_append] at hbm
  rcases hbm with (hbm | hbm) | hbm
  · exact (all_isText_iff _).mp p.f0t b hbm
  · exact (all_isText_iff _).mp p.f1t b hbm
  · exact (all_isText_iff _).mp p.f2t b hbm

/-- Non-trivial case: an accepted head that is not well-formed (a skipped line, a bare LF). -/
example : (readHead sampleLimits Head.new (Reader.ofBytes b!"A B C\r\nno colon\r\nx:yy\n\r\n" .eof)).toOption.map
    (fun p => p.1.headers.getall b!"x") = some (some [b!"y"]) := by decide +kernel

/-! ## C04 -/

/-- **C04 (stored form).** Every stored name is lower case, without surrounding spaces and at most 256 bytes long. -/
theorem C04_names_normalised (lim : HttpLimits) (hd hd' : Head) (hb : hd.Blank) (r r' : Reader)
    (h : readHead lim hd r = .ok (hd', r')) :
    (∀ k vs, hd'.headers.getall k = some vs →
      lower k = k ∧ k.head? ≠ some 32 ∧ k.getLast? ≠ some 32 ∧ k.length ≤ 256) ∧
    (∀ ord, IsOrder ord → ∀ e ∈ hd'.headers.entries ord,
      lower e.1 = e.1 ∧ e.1.head? ≠ some 32 ∧ e.1.getLast? ≠ some 32 ∧ e.1.length ≤ 256) := by
  obtain ⟨⟨p⟩, _⟩ := readHead_ok h
  have hall : hd'.headers.AllE (fun e => lower e.1 = e.1 ∧ e.1.head? ≠ some 32 ∧ e.1.getLast? ≠ some 32 ∧ e.1.length ≤ 256) := by
    refine p.lines.allE (AllE_fresh hb.headers) ?_
    intro hs n v hR _ hn hv _ hl _
    have hk : lower (trimSp (n.map toAsciiLower)) = trimSp (n.map toAsciiLower) := by
      rw [← map_toAsciiLower]
      conv => rhs; rw [← List.map_id (trimSp (n.map toAsciiLower))]
      apply List.map_congr_left
      intro b hbm
      have := (trimSp_sublist _).subset hbm
      rw [List.mem_map] at this
      obtain ⟨a, _, rfl⟩ := this
      exact toAsciiLower_idem a
    have hlen : (trimSp (n.map toAsciiLower)).length ≤ 256 := by
      have := trimSp_length_le (n.map toAsciiLower)
      rw [List.length_map] at this; omega
    exact AllE_append hR _ _ ⟨hk, trimSp_head _, trimSp_getLast _, hlen⟩
      (fun vs hvs => ⟨hk, trimSp_head _, trimSp_getLast _, hlen⟩) (fun vs hvs => ⟨hk, trimSp_head _, trimSp_getLast _, hlen⟩)
  exact ⟨fun k vs hg => AllE_getall hall k vs hg, fun ord hord => AllE_entries hall ord hord⟩

/-- **C04 (letter case).** After any accepted start line (`m`, `t`, `v` are its three pieces, over-long ones included),
changing the letter case of header names in an arbitrary header section changes nothing: same head or same error. -/
theorem C04_recase (lim : HttpLimits) (m t v s s' : Bytes) (hst : StartPieces lim.maxUrl m t v)
    (hre : Recased false s s') (hd : Head) (hb : hd.Blank) (r r' : Reader) (hr : r.flat = m ++ t ++ v ++ s)
    (hr' : r'.flat = m ++ t ++ v ++ s') (hf : r.fin = r'.fin) :
    (readHead lim hd r).map (·.1) = (readHead lim hd r').map (·.1) := by
  obtain ⟨q, a1, a2, a3⟩ := readHeadFuel_start lim m t v hst hd ⟨hb.f0, hb.f1, hb.f2⟩ r s hr
  obtain ⟨q', b1, b2, b3⟩ := readHeadFuel_start lim m t v hst hd ⟨hb.f0, hb.f1, hb.f2⟩ r' s' hr'
  have hl : r.flat.length = r'.flat.length := by
    rw [hr, hr']; simp [recased_length hre]
  have hs := recased_headerLoop lim (r.flat.length + 1) hd.headers q q' false (by rw [a1, b1]; exact hre) (by rw [a2, b2, hf])
  have e1 := readHead_eq lim hd r
  have e2 := readHead_eq lim hd r'
  rw [a3] at e1
  rw [b3, ← hl] at e2
  cases h1 : headerLoop lim (r.flat.length + 1) hd.headers q with
  | none => rw [h1] at e1; cases e1
  | some x =>
    cases h2 : headerLoop lim (r.flat.length + 1) hd.headers q' with
    | none => rw [h2] at e2; cases e2
    | some y =>
      rw [h1, h2] at hs
      rw [h1] at e1; rw [h2] at e2
      cases x with
      | error e =>
        cases y with
        | error e' =>
          cases hs
          simp only [addStart, Option.some.injEq] at e1 e2
          rw [← e1, ← e2]
        | ok y => exact hs.elim
      | ok x =>
        cases y with
        | error e' => exact hs.elim
        | ok y =>
          obtain ⟨x1, x2⟩ := x
          obtain ⟨y1, y2⟩ := y
          have hxy : x1 = y1 := hs
          simp only [addStart, Option.some.injEq] at e1 e2
          rw [← e1, ← e2, hxy]; rfl

/-- Non-trivial case: `Host` and `hOST`, the value's case untouched. -/
example : Recased false b!"Host: X\r\n\r\n" b!"hOST: X\r\n\r\n" ∧
    StartPieces 8192 b!"GET " b!"/ " b!"HTTP/1.1\r\n" := by
  constructor
  · repeat first
      | exact .nil _
      | apply Recased.lf
      | (apply Recased.colon)
      | (apply Recased.name (by decide) (by decide) (by decide))
      | (apply Recased.value (by decide))
  · exact (show (WireHead.mk b!"GET" b!"/" b!"HTTP/1.1" []).StartWF 8192 from
      ⟨by decide, by decide, by decide, by decide, by decide, by decide, by decide⟩).pieces

/-! ## C05 -/

/-- **C05.** Looking up a name after reading a well-formed head returns all values sent under it in order, whatever the
letter case used by the sender; `get` returns the first. The number of fields is arbitrary. -/
theorem C05_repeated_headers (lim : HttpLimits) (w : WireHead)
    (hw : w.WF lim.maxUrl lim.maxHeaderLine lim.maxHeadersCount) (hd : Head) (hb : hd.Blank)
    (r : Reader) (s : Bytes) (hr : r.flat = w.encode ++ s) (hd' : Head) (r' : Reader)
    (h : readHead lim hd r = .ok (hd', r')) (k : Bytes) :
    (hd'.headers.getall k).getD [] = (w.fields.filter (fun f => lower f.name = k)).map (·.value) ∧
    (hd'.headers.getall k = none ↔ ∀ f ∈ w.fields, lower f.name ≠ k) ∧
    hd'.headers.get k = ((w.fields.filter (fun f => lower f.name = k)).map (·.value)).head? := by
  obtain ⟨hd2, r2, h1, _, _, _, h2, _⟩ := C02_wellformed_head lim w hw hd hb r s hr
  rw [h] at h1
  simp only [Except.ok.injEq, Prod.mk.injEq] at h1
  rw [← h1.1] at h2
  have hk := h2 k
  unfold lookupFields at hk
  change _ = (match (w.fields.filter (fun f => lower f.name = k)).map (·.value) with | [] => none | vs => some vs) at hk
  unfold MultiMap.get
  refine ⟨?_, ?_, ?_⟩
  · rw [hk]; cases (w.fields.filter (fun f => lower f.name = k)).map (·.value) <;> rfl
  · rw [hk]
    constructor
    · intro hn f hf hfk
      have : f ∈ w.fields.filter (fun f => lower f.name = k) := by simp [hf, hfk]
      cases hl : w.fields.filter (fun f => lower f.name = k) with
      | nil => rw [hl] at this; cases this
      | cons a l => rw [hl] at hn; cases hn
    · intro hn
      have : w.fields.filter (fun f => lower f.name = k) = [] := by
        rw [List.filter_eq_nil_iff]; intro f hf; simpa using hn f hf
      rw [this]; rfl
  · rw [hk]; cases (w.fields.filter (fun f => lower f.name = k)).map (·.value) <;> rfl

/-- A head with 41 fields: 40 distinct names (past the switch of representation) and a repeated one. -/
def bigHead : WireHead :=
  { w0 := b!"GET", w1 := b!"/", w2 := b!"HTTP/1.1",
    fields := (List.range 40).map (fun i => ⟨[97, UInt8.ofNat (65 + i)], b!"1", 1, 0⟩) ++ [⟨b!"Aa", b!"2", 1, 0⟩] }

example : bigHead.WF 8192 6144 128 ∧ valuesOf bigHead.fields b!"aa" = [b!"1", b!"1", b!"2"] := by
  refine ⟨⟨⟨by decide, by decide, by decide, by decide, by decide, by decide, by decide⟩, ?_, by decide, by decide⟩, by decide⟩
  have h : ∀ i : Fin 40, Field.WF 6144 ⟨[97, UInt8.ofNat (65 + i.val)], b!"1", 1, 0⟩ ∨ i.val = 200 := by
    intro i
    refine Or.inl ⟨by simp, ?_, by simp, by simp; decide, by simp, by simp, by simp, by simp [Field.line]⟩
    revert i; decide +kernel
  intro f hf
  simp only [bigHead, List.mem_append, List.mem_map, List.mem_range, List.mem_singleton] at hf
  rcases hf with ⟨i, hi, rfl⟩ | rfl
  · rcases h ⟨i, hi⟩ with h | h
    · exact h
    · simp at h; omega
  · exact ⟨by decide, by decide, by decide, by decide, by decide, by decide, by decide, by decide⟩

/-! ## C06 -/

/-- The header-count limit, unless it is zero, never makes a request fail: well-formed heads with any number of fields are
read, whatever the limit. -/
theorem C06_count_ignored_violated (lim : HttpLimits) (hmx : 1 ≤ lim.maxHeadersCount) (w : WireHead)
    (hst : w.StartWF lim.maxUrl) (hwf : ∀ f ∈ w.fields, f.WF lim.maxHeaderLine) (h2 : 2 ≤ lim.maxHeaderLine)
    (r : Reader) (s : Bytes) (hr : r.flat = w.encode ++ s) :
    ∃ hd' r', readHead lim Head.new r = .ok (hd', r') ∧ ∀ k, hd'.headers.getall k = lookupFields w.fields k := by
  obtain ⟨r', h1, h2, h3⟩ := readHead_wire lim w hst hwf h2 (Or.inr hmx) Head.new ⟨rfl, rfl, rfl⟩ r s hr
  exact ⟨_, r', h1, fun k => storeFields_getall _ fresh_new _ (fun f hf => (hwf f hf).name_ne) k⟩

/-- **C06 is violated.** -/
theorem C06_header_count_violated :
    ¬ ∀ (lim : HttpLimits) (w : WireHead) (r : Reader), w.StartWF lim.maxUrl →
      (∀ f ∈ w.fields, f.WF lim.maxHeaderLine) → 2 ≤ lim.maxHeaderLine → lim.maxHeadersCount < w.fields.length →
      r.flat = w.encode → ∃ e, readHead lim Head.new r = .error e := by
  intro h
  have hw := sampleHead_wf
  obtain ⟨e, he⟩ := h { sampleLimits with maxHeadersCount := 1 } sampleHead (Reader.ofBytes sampleHead.encode .eof)
    hw.toStartWF hw.fields_wf (by decide) (by decide) (Reader.flat_ofBytes _ _)
  obtain ⟨hd', r', h1, _⟩ := C06_count_ignored_violated { sampleLimits with maxHeadersCount := 1 } (by decide) sampleHead
    hw.toStartWF hw.fields_wf (by decide) (Reader.ofBytes sampleHead.encode .eof) [] (by simp [Reader.flat_ofBytes])
  rw [h1] at he; cases he

/-- **C06 (partial).** With a limit of zero every request with a header field is refused. Missing: every other limit. -/
theorem C06_zero_limit_partial (lim : HttpLimits) (hmx : lim.maxHeadersCount = 0) (w : WireHead)
    (hst : w.StartWF lim.maxUrl) (f : Field) (fs : List Field) (hfs : w.fields = f :: fs) (hf : f.WF lim.maxHeaderLine)
    (hd : Head) (hb : hd.Blank) (r : Reader) (s : Bytes) (hr : r.flat = w.encode ++ s) :
    readHead lim hd r = .error .reachMaxHeadersCount := by
  obtain ⟨q, a1, a2, a3⟩ := readHead_wireStart lim w hst hd ⟨hb.f0, hb.f1, hb.f2⟩ r (encodeFields w.fields ++ s)
    (by rw [hr]; simp [WireHead.encode])
  have hscan : scanLine lim.maxHeadersCount hd.headers [] (f.line.take (f.line.length - 2)) = .error .reachMaxHeadersCount := by
    rw [f.line_take, hmx]
    have key : ∀ (key n rest : Bytes), 58 ∉ n → n.all isText = true → rest.all isText = true → rest ≠ [] →
        key.length + n.length ≤ 256 → scanLine 0 hd.headers key (n ++ 58 :: rest) = .error .reachMaxHeadersCount := by
      intro key n rest
      induction n generalizing key with
      | nil =>
        intro _ _ h3 h4 _
        simp [scanLine, show isText 58 = true by decide, h4, h3]
      | cons c n ih =>
        intro h1 h2 h3 h4 h5
        simp only [List.mem_cons, not_or] at h1
        simp only [List.all_cons, Bool.and_eq_true] at h2
        simp only [List.length_cons] at h5
        have hlen : ¬ maxHeaderNameLength ≤ key.length := by unfold maxHeaderNameLength; omega
        simp only [List.cons_append, scanLine, h2.1, Bool.not_true, Bool.false_eq_true, if_false, Ne.symm h1.1, hlen]
        exact ih _ h1.2 h2.2 h3 h4 (by simp; omega)
    have := key [] f.name (List.replicate f.pre 32 ++ f.value ++ List.replicate f.post 32)
      (fun hm => (hf.name_vis _ hm).2 rfl)
      (by rw [all_isText_iff]; intro b hb; exact (hf.name_vis b hb).1.text)
      (by rw [all_isText_iff]
          intro b hb
          simp only [List.mem_append, List.mem_replicate] at hb
          rcases hb with (⟨_, rfl⟩ | hb) | ⟨_, rfl⟩
          · decide
          · exact hf.value_text b hb
          · decide)
      (by intro he
          have h0 := congrArg List.length he
          simp at h0
          have := hf.after_colon
          simp [h0.1, h0.2.1, h0.2.2] at this)
      (by simpa using hf.name_len)
    simpa using this
  have := headerLoop_bad lim (hs := hd.headers) (r := q) hf.piece (s := encodeFields fs ++ s)
    (by rw [a1, hfs]; simp [encodeFields]) (by have := hf.len; omega) hscan 0
  have := a3 1 _ this
  simpa [addStart] using this

/-! ## C07 -/

/-- **C07 (partial).** Sizes of what is delivered, for every input. The method is shorter than 128 bytes, the target shorter
than `max_url_size`, the version shorter than 127; every name and every value are shorter than the line limit, and so is
every name together with the last value stored under it. Missing: name plus value for the other values of a name, which is
false (`C07_header_sum_violated`). -/
theorem C07_sizes_partial (lim : HttpLimits) (hd hd' : Head) (hb : hd.Blank) (r r' : Reader)
    (h : readHead lim hd r = .ok (hd', r')) :
    hd'.f0.length < 128 ∧ hd'.f1.length < lim.maxUrl ∧ hd'.f2.length < 127 ∧
    (∀ ord, IsOrder ord → ∀ e ∈ hd'.headers.entries ord, e.1.length + 3 ≤ lim.maxHeaderLine ∧
      (∀ v ∈ e.2, v.length + 3 ≤ lim.maxHeaderLine) ∧
      ∀ v, e.2.getLast? = some v → e.1.length + v.length < lim.maxHeaderLine) := by
  obtain ⟨⟨p⟩, _⟩ := readHead_ok h
  have hall : hd'.headers.AllE (fun e => e.1.length + 3 ≤ lim.maxHeaderLine ∧
      (∀ v ∈ e.2, v.length + 3 ≤ lim.maxHeaderLine) ∧
      ∀ v, e.2.getLast? = some v → e.1.length + v.length < lim.maxHeaderLine) := by
    refine p.lines.allE (AllE_fresh hb.headers) ?_
    intro hs n v hR _ _ _ _ _ hl
    have h1 := trimSp_length_le (n.map toAsciiLower)
    have h2 := trimSp_length_le v
    rw [List.length_map] at h1
    refine AllE_append hR _ _ ⟨by simp only; omega, ?_, ?_⟩ ?_ ?_
    · intro x hx; simp at hx; rw [hx]; omega
    · intro x hx; simp at hx; rw [← hx]; simp only; omega
    all_goals
      intro vs hvs
      refine ⟨by simp only; omega, ?_, ?_⟩
      · intro x hx
        rw [List.mem_append, List.mem_singleton] at hx
        rcases hx with hx | rfl
        · exact hvs.2.1 x hx
        · omega
      · intro x hx; simp at hx; rw [← hx]; simp only; omega
  have lm := cut_length_le 32 128 r.flat
  have lt := cut_length_le 32 lim.maxUrl p.s1
  have lv := cut_length_le 10 128 p.s2
  rw [p.hm] at lm; rw [p.ht] at lt; rw [p.hv] at lv
  have := p.hm1; have := p.ht1; have := p.hv3
  refine ⟨?_, ?_, ?_, fun ord hord => AllE_entries hall ord hord⟩
  · rw [p.f0, List.length_take]; simp only at lm; omega
  · rw [p.f1, List.length_take]; simp only at lt; omega
  · rw [p.f2, List.length_take]; simp only at lv; omega

example : ∃ hd' r', readHead sampleLimits Head.new (Reader.ofBytes sampleHead.encode .eof) = .ok (hd', r') := by
  obtain ⟨hd', r', h, _⟩ := C02_wellformed_head sampleLimits sampleHead sampleHead_wf Head.new Head.blank_new
    (Reader.ofBytes sampleHead.encode .eof) [] (by simp [Reader.flat_ofBytes])
  exact ⟨hd', r', h⟩

/-- **C07 is violated** for name plus value: a value sent with an empty name is merged into the next header, whose longer
name it was never sent with. -/
theorem C07_header_sum_violated :
    ¬ ∀ (lim : HttpLimits) (r r' : Reader) (hd' : Head), readHead lim Head.new r = .ok (hd', r') →
      ∀ k vs, hd'.headers.getall k = some vs → ∀ v ∈ vs, k.length + v.length < lim.maxHeaderLine := by
  intro h
  have key : ∀ x, readHead ⟨100, 10, 10, 10⟩ Head.new (Reader.ofBytes b!"G / HTTP/1.1\r\n: aaaaa\r\nbbbbb: c\r\n\r\n" .eof) = x →
      x.toOption.map (fun p => p.1.headers.getall b!"bbbbb") = some (some [b!"aaaaa", b!"c"]) := by
    intro x hx; rw [← hx]; decide +kernel
  generalize hx : readHead ⟨100, 10, 10, 10⟩ Head.new (Reader.ofBytes b!"G / HTTP/1.1\r\n: aaaaa\r\nbbbbb: c\r\n\r\n" .eof) = x at key
  have k1 := key x rfl
  cases x with
  | error e => cases k1
  | ok p =>
    obtain ⟨hd', r'⟩ := p
    have := h _ _ _ _ hx b!"bbbbb" [b!"aaaaa", b!"c"] (by simpa [Except.toOption] using k1) b!"aaaaa" (by simp)
    exact absurd this (by decide)

/-! ## C08 -/

/-- Bytes of a piece that reached its limit without delimiter. -/
theorem isPiece_text_full (delim : Byte) (limit : Nat) (p : Bytes) (h : ∀ b ∈ p, IsVisible b) (hd : delim = 32 ∨ delim = 10)
    (hl : p.length = limit) : IsPiece delim limit p := by
  refine isPiece_full _ _ _ (fun hm => ?_) hl
  rcases hd with rfl | rfl
  · exact (h _ hm).ne_space rfl
  · exact (h _ hm).text.ne_lf rfl

/-- The start line of an over-long method: what the reader makes of it. -/
theorem C08_method_resplit_violated (lim : HttpLimits) (M T V : Bytes) (fs : List Field) (hM : ∀ b ∈ M, IsVisible b)
    (hMl : 128 ≤ M.length) (hMu : M.length - 128 + 1 ≤ lim.maxUrl) (hT : ∀ b ∈ T, IsVisible b) (hV : ∀ b ∈ V, IsText b)
    (hTV : T.length + V.length + 3 ≤ 128) (hfs : ∀ f ∈ fs, f.WF lim.maxHeaderLine) (h2 : 2 ≤ lim.maxHeaderLine)
    (hmx : 1 ≤ lim.maxHeadersCount) (hd : Head) (hb : hd.Blank) (r : Reader) (s : Bytes)
    (hr : r.flat = M ++ [32] ++ T ++ [32] ++ V ++ [13, 10] ++ encodeFields fs ++ s) :
    ∃ hd' r', readHead lim hd r = .ok (hd', r') ∧ hd'.f0 = M.take 127 ∧ hd'.f1 = M.drop 128 ∧
      hd'.f2 = T ++ [32] ++ V ∧ r'.flat = s := by
  have hw : (WireHead.mk [] (M.drop 128) (T ++ [32] ++ V) []).StartWF lim.maxUrl := by
    refine ⟨by simp, by simp, fun b hb => hM b (List.mem_of_mem_drop hb), by simpa using hMu, ?_, by simp, by simp; omega⟩
    intro b hb
    simp only [List.mem_append, List.mem_singleton] at hb
    rcases hb with (hb | rfl) | hb
    · exact (hT b hb).text
    · decide
    · exact hV b hb
  have hp := hw.pieces
  have hst : StartPieces lim.maxUrl (M.take 128) (M.drop 128 ++ [32]) (T ++ [32] ++ V ++ [13, 10]) :=
    ⟨isPiece_text_full 32 128 _ (fun b hb => hM b (List.mem_of_mem_take hb)) (Or.inl rfl) (by simp [hMl]), hp.pt, hp.pv,
      by simp; omega, hp.t1, hp.v3, fun b hb => (hM b (List.mem_of_mem_take (List.mem_of_mem_take hb))).text,
      hp.tt, hp.vt, hp.utf8⟩
  obtain ⟨q, a1, a2, a3⟩ := readHead_start lim _ _ _ hst hd ⟨hb.f0, hb.f1, hb.f2⟩ r (encodeFields fs ++ s)
    (by rw [hr]; simp only [List.append_assoc]; rw [← List.append_assoc (List.take 128 M), List.take_append_drop])
  obtain ⟨r', b1, b2, b3⟩ := headerLoop_fields lim fs hfs h2 (Or.inr hmx) hd.headers q s a1
  have := a3 _ _ b1
  simp only [addStart, Option.some.injEq] at this
  refine ⟨_, r', this, ?_, by simp, ?_, b2⟩
  · simp only [List.take_take, List.length_take]; congr 1; omega
  · exact List.take_left' (by simp; omega)

/-- The same for an over-long target. -/
theorem C08_target_resplit_violated (lim : HttpLimits) (M T V : Bytes) (fs : List Field) (hM : ∀ b ∈ M, IsVisible b)
    (hMl : M.length + 1 ≤ 128) (hT : ∀ b ∈ T, IsVisible b) (hu : 1 ≤ lim.maxUrl) (hTu : lim.maxUrl ≤ T.length)
    (hV : ∀ b ∈ V, IsText b)
    (hTV : T.length - lim.maxUrl + V.length + 3 ≤ 128) (hfs : ∀ f ∈ fs, f.WF lim.maxHeaderLine) (h2 : 2 ≤ lim.maxHeaderLine)
    (hmx : 1 ≤ lim.maxHeadersCount) (hd : Head) (hb : hd.Blank) (r : Reader) (s : Bytes)
    (hr : r.flat = M ++ [32] ++ T ++ [32] ++ V ++ [13, 10] ++ encodeFields fs ++ s) :
    ∃ hd' r', readHead lim hd r = .ok (hd', r') ∧ hd'.f0 = M ∧ hd'.f1 = T.take (lim.maxUrl - 1) ∧
      hd'.f2 = T.drop lim.maxUrl ++ [32] ++ V ∧ r'.flat = s := by
  have hw : (WireHead.mk M [] (T.drop lim.maxUrl ++ [32] ++ V) []).StartWF lim.maxUrl := by
    refine ⟨hM, hMl, by simp, by simpa using hu, ?_, by simp, by simp; omega⟩
    intro b hb
    simp only [List.mem_append, List.mem_singleton] at hb
    rcases hb with (hb | rfl) | hb
    · exact (hT b (List.mem_of_mem_drop hb)).text
    · decide
    · exact hV b hb
  have hp := hw.pieces
  have hst : StartPieces lim.maxUrl (M ++ [32]) (T.take lim.maxUrl) (T.drop lim.maxUrl ++ [32] ++ V ++ [13, 10]) :=
    ⟨hp.pm, isPiece_text_full 32 _ _ (fun b hb => hT b (List.mem_of_mem_take hb)) (Or.inl rfl) (by simp [hTu]), hp.pv,
      hp.m1, by simp; omega, hp.v3, hp.mt, fun b hb => (hT b (List.mem_of_mem_take (List.mem_of_mem_take hb))).text,
      hp.vt, hp.utf8⟩
  obtain ⟨q, a1, a2, a3⟩ := readHead_start lim _ _ _ hst hd ⟨hb.f0, hb.f1, hb.f2⟩ r (encodeFields fs ++ s)
    (by rw [hr]; simp only [List.append_assoc]; rw [← List.append_assoc (List.take lim.maxUrl T), List.take_append_drop])
  obtain ⟨r', b1, b2, b3⟩ := headerLoop_fields lim fs hfs h2 (Or.inr hmx) hd.headers q s a1
  have := a3 _ _ b1
  simp only [addStart, Option.some.injEq] at this
  refine ⟨_, r', this, by simp, ?_, List.take_left' (by simp; omega), b2⟩
  simp only [List.take_take, List.length_take]; congr 1; omega

/-- The same for an over-long header line: one header `n: v` whose line is too long becomes two headers, the second made of
the end of the value. `x` and `y` are the two parts of the value around the cut; two bytes before the cut are lost. -/
theorem C08_header_resplit_violated (lim : HttpLimits) (w : WireHead) (hst : w.StartWF lim.maxUrl) (n x : Bytes) (l1 l2 : Byte)
    (f : Field) (fs : List Field)
    (hn : n ≠ []) (hnv : ∀ b ∈ n, IsVisible b ∧ b ≠ 58) (hnl : n.length ≤ 256)
    (hx : ∀ b ∈ x, IsText b) (hx1 : x.head? ≠ some 32) (hx2 : x.getLast? ≠ some 32) (hxne : x ≠ [])
    (hl1 : IsText l1) (hl2 : IsText l2)
    (hlen : (n ++ [58] ++ x ++ [l1, l2]).length = lim.maxHeaderLine)
    (hf : f.WF lim.maxHeaderLine) (hfs : ∀ f ∈ fs, f.WF lim.maxHeaderLine) (h2 : 2 ≤ lim.maxHeaderLine)
    (hmx : 1 ≤ lim.maxHeadersCount) (hd : Head) (hb : hd.Blank) (r : Reader) (s : Bytes)
    (hr : r.flat = w.start ++ (n ++ [58] ++ x ++ [l1, l2] ++ f.line) ++ encodeFields fs ++ s) :
    ∃ hd' r', readHead lim hd r = .ok (hd', r') ∧ r'.flat = s ∧
      ∀ k, hd'.headers.getall k = lookupFields (⟨n, x, 0, 0⟩ :: f :: fs) k := by
  obtain ⟨q, a1, a2, a3⟩ := readHead_wireStart lim w hst hd ⟨hb.f0, hb.f1, hb.f2⟩ r
    (n ++ [58] ++ x ++ [l1, l2] ++ f.line ++ encodeFields fs ++ s) (by rw [hr]; simp)
  have hnlf : (10 : Byte) ∉ n ++ [58] ++ x ++ [l1, l2] := by
    simp only [List.mem_append, List.mem_cons, List.not_mem_nil, or_false, not_or]
    exact ⟨⟨⟨fun hm => (hnv _ hm).1.text.ne_lf rfl, by decide⟩, fun hm => (hx _ hm).ne_lf rfl⟩,
      fun hh => hl1.ne_lf hh.symm, fun hh => hl2.ne_lf hh.symm⟩
  have hxl := List.length_pos_iff.mpr hxne
  have hnl' := List.length_pos_iff.mpr hn
  obtain ⟨q1, b1, b2, b3⟩ := headerLoop_piece lim (hs := hd.headers) (hs' := hd.headers.append (lower n) x) (r := q)
    (p := n ++ [58] ++ x ++ [l1, l2]) (s := f.line ++ encodeFields fs ++ s)
    (isPiece_full _ _ _ hnlf hlen) (by rw [a1]; simp) (by simp; omega)
    (by
      have : (n ++ [58] ++ x ++ [l1, l2]).take ((n ++ [58] ++ x ++ [l1, l2]).length - 2) =
          n ++ [58] ++ List.replicate 0 32 ++ x ++ List.replicate 0 32 := by
        rw [List.take_left' (by simp; omega)]; simp
      rw [this]
      refine scanLine_field (lim := n.length + x.length + 3) (f := ⟨n, x, 0, 0⟩)
        ⟨hn, hnv, hnl, hx, hx1, hx2, by simp; omega, by simp [Field.line]; omega⟩ hmx _)
  obtain ⟨r', c1, c2, c3⟩ := headerLoop_fields lim (f :: fs)
    (by intro g hg; rw [List.mem_cons] at hg; rcases hg with rfl | hg; exact hf; exact hfs g hg) h2 (Or.inr hmx)
    (hd.headers.append (lower n) x) q1 s (by rw [b1]; simp [encodeFields])
  rw [← b3] at c1
  have := a3 _ _ c1
  simp only [addStart, Option.some.injEq] at this
  refine ⟨_, r', this, c2, fun k => ?_⟩
  have := storeFields_getall hd.headers hb.headers (⟨n, x, 0, 0⟩ :: f :: fs) (by
    intro g hg; simp only [List.mem_cons] at hg
    rcases hg with rfl | rfl | hg
    · exact hn
    · exact hf.name_ne
    · exact (hfs g hg).name_ne) k
  exact this

/-- Non-trivial case: the value `aaaaaaaaaa..host: evil` smuggles a `host` header past a limit of 16 bytes. -/
example : ∃ hd' r', readHead ⟨100, 16, 10, 10⟩ Head.new
      (Reader.ofBytes b!"GET / HTTP/1.1\r\nx:aaaaaaaaaaaa..host: evil\r\n\r\n" .eof) = .ok (hd', r') ∧
    r'.flat = [] ∧ ∀ k, hd'.headers.getall k = lookupFields [⟨b!"x", b!"aaaaaaaaaaaa", 0, 0⟩, ⟨b!"host", b!"evil", 1, 0⟩] k :=
  C08_header_resplit_violated ⟨100, 16, 10, 10⟩ ⟨b!"GET", b!"/", b!"HTTP/1.1", []⟩
    ⟨by decide, by decide, by decide, by decide, by decide, by decide, by decide⟩ b!"x" b!"aaaaaaaaaaaa" 46 46
    ⟨b!"host", b!"evil", 1, 0⟩ [] (by decide) (by decide) (by decide) (by decide) (by decide) (by decide) (by decide)
    (by decide) (by decide) (by decide)
    ⟨by decide, by decide, by decide, by decide, by decide, by decide, by decide, by decide⟩
    (by simp) (by decide) (by decide) Head.new Head.blank_new _ [] (by rw [Reader.flat_ofBytes]; decide +kernel)

/-- **C08 is violated**: an over-long method is not refused. -/
theorem C08_oversized_violated :
    ¬ ∀ (lim : HttpLimits) (M T V : Bytes) (r : Reader), 128 ≤ M.length → (∀ b ∈ M, IsVisible b) →
      r.flat = M ++ [32] ++ T ++ [32] ++ V ++ [13, 10, 13, 10] → ∃ e, readHead lim Head.new r = .error e := by
  intro h
  let M : Bytes := List.replicate 130 65
  have hM : ∀ b ∈ M, IsVisible b := by
    intro b hb; rw [List.mem_replicate] at hb; rw [hb.2]; decide
  obtain ⟨e, he⟩ := h sampleLimits M b!"/" b!"HTTP/1.1"
    (Reader.ofBytes (M ++ [32] ++ b!"/" ++ [32] ++ b!"HTTP/1.1" ++ [13, 10, 13, 10]) .eof) (by simp [M]) hM
    (Reader.flat_ofBytes _ _)
  obtain ⟨hd', r', h1, _⟩ := C08_method_resplit_violated sampleLimits M b!"/" b!"HTTP/1.1" [] hM (by simp [M])
    (by simp [M, sampleLimits]) (by decide) (by decide) (by decide) (by simp) (by decide) (by decide) Head.new Head.blank_new
    (Reader.ofBytes (M ++ [32] ++ b!"/" ++ [32] ++ b!"HTTP/1.1" ++ [13, 10, 13, 10]) .eof) []
    (by rw [Reader.flat_ofBytes]; simp [encodeFields])
  rw [h1] at he; cases he

/-- A header name longer than 256 bytes is not delivered, when the line limit leaves room to see it. -/
theorem long_name_refused (lim : HttpLimits) (w : WireHead) (hst : w.StartWF lim.maxUrl) (fs : List Field)
    (hfs : ∀ f ∈ fs, f.WF lim.maxHeaderLine) (hmx : 1 ≤ lim.maxHeadersCount) (n rest : Bytes) (c : Byte)
    (hn : 58 ∉ n) (hlf : 10 ∉ n) (hnl : 257 ≤ n.length) (hline : 259 ≤ lim.maxHeaderLine)
    (hd : Head) (hb : hd.Blank) (r : Reader)
    (hr : r.flat = w.start ++ (fs.map Field.line).flatten ++ n ++ 58 :: c :: rest) :
    ∃ e, readHead lim hd r = .error e := by
  obtain ⟨q, a1, a2, a3⟩ := readHead_wireStart lim w hst hd ⟨hb.f0, hb.f1, hb.f2⟩ r
    ((fs.map Field.line).flatten ++ (n ++ 58 :: c :: rest)) (by rw [hr]; simp)
  obtain ⟨q1, b1, b2, b3⟩ := headerLoop_lines lim fs hfs (Or.inr hmx) hd.headers q _ a1
  suffices h : ∃ e, headerLoop lim 1 (storeFields hd.headers fs) q1 = some (.error e) by
    obtain ⟨e, he⟩ := h
    rw [← b3] at he
    have := a3 _ _ he
    exact ⟨e, by simpa [addStart] using this⟩
  -- the piece starts with at least 257 bytes of the name, or the read fails
  simp only [headerLoop]
  cases h1 : q1.readUntil 10 lim.maxHeaderLine with
  | err => exact ⟨_, rfl⟩
  | ok p q2 =>
    obtain ⟨c1, _, _⟩ := Reader.readUntil_ok h1
    have hp : ∃ z, p = n.take 257 ++ z ∧ 2 ≤ z.length := by
      rw [b1] at c1
      have hsplit : n ++ 58 :: c :: rest = n.take 257 ++ (n.drop 257 ++ 58 :: c :: rest) := by
        rw [← List.append_assoc, List.take_append_drop]
      rw [hsplit, cut_append_notin _ _ _ _ (fun hm => hlf (List.mem_of_mem_take hm)) (by simp; omega)] at c1
      refine ⟨_, c1, ?_⟩
      have hlen : (n.take 257).length = 257 := by simp; omega
      rw [hlen]
      obtain ⟨k, hk⟩ : ∃ k, lim.maxHeaderLine - 257 = k + 2 := ⟨lim.maxHeaderLine - 259, by omega⟩
      have hcut : ∀ (a b : Byte) (s : Bytes), a ≠ 10 → 2 ≤ (cut 10 (k + 2) (a :: b :: s)).1.length := by
        intro a b s ha
        simp only [cut, ha, if_false]
        split <;> simp
      rw [hk]
      cases hd : n.drop 257 with
      | nil => exact hcut _ _ _ (by decide)
      | cons a l =>
        have ha : a ≠ 10 := fun hh => hlf (List.mem_of_mem_drop (i := 257) (by rw [hd, hh]; simp))
        cases l with
        | nil => exact hcut _ _ _ ha
        | cons b l => exact hcut _ _ _ ha
    obtain ⟨z, rfl, hz⟩ := hp
    simp only
    have hl : (n.take 257).length = 257 := by simp; omega
    rw [if_neg (by simp; omega), if_neg (by simp; omega)]
    have htake : ∃ y, (n.take 257 ++ z).take ((n.take 257 ++ z).length - 2) = n.take 257 ++ y := by
      rw [List.take_append, List.take_of_length_le (by simp; omega)]
      exact ⟨_, rfl⟩
    obtain ⟨y, hy⟩ := htake
    rw [hy]
    cases hsc : scanLine lim.maxHeadersCount (storeFields hd.headers fs) [] (n.take 257 ++ y) with
    | error e => exact ⟨e, rfl⟩
    | ok hs' =>
      exfalso
      rw [scanLine_ok_iff _ _ _ _ _ (by simp)] at hsc
      rcases hsc with ⟨_, _, h3, _⟩ | ⟨n', v, h3, h4, _, _, _, h5, _⟩
      · simp at h3; omega
      · have hle : n'.length ≤ 256 := by simpa using h5
        have h6 : (n.take 257 ++ y)[n'.length]? = some 58 := by rw [h3]; simp
        rw [List.getElem?_append_left (by omega)] at h6
        have := List.mem_of_getElem? h6
        exact hn (List.mem_of_mem_take this)

end Httpd
