import Verif.Props.Body
import Verif.Lemmas.Chunked
/-! # C19–C21: the limited body reader and chunked bodies -/

namespace Httpd
open Spec MultiMap

/-! ## C19 -/

theorem containsBytes_iff (s t : Bytes) : containsBytes s t = true ↔ t <:+: s := by
  induction s with
  | nil =>
    unfold containsBytes
    simp only [Bool.or_false, List.isPrefixOf_iff_prefix, List.prefix_nil, List.infix_nil]
  | cons x s ih =>
    unfold containsBytes
    simp only [Bool.or_eq_true, List.isPrefixOf_iff_prefix, ih, List.infix_cons_iff]

theorem headerContains_iff (o : Option (List Bytes)) (t : Bytes) :
    headerContains o t = true ↔ ∃ vs v, o = some vs ∧ v ∈ vs ∧ t <:+: v := by
  cases o with
  | none => simp [headerContains]
  | some vs =>
    simp only [headerContains, List.any_eq_true, Bool.or_eq_true, beq_iff_eq, containsBytes_iff, Option.some.injEq]
    constructor
    · rintro ⟨v, h1, rfl | h2⟩
      · exact ⟨vs, v, rfl, h1, List.infix_refl _⟩
      · exact ⟨vs, v, rfl, h1, h2⟩
    · rintro ⟨_, v, rfl, h1, h2⟩; exact ⟨v, h1, Or.inr h2⟩

theorem code_not_max (s : Reader.IoStop) : s.code .connReadError ≠ .reachMaxBodySize ∧ s.code .badDatagram ≠ .reachMaxBodySize := by
  cases s <;> simp [Reader.IoStop.code]

theorem readConst_not_max {K : Type} (cap n : Nat) (hc : 1 ≤ cap) (b : Body K) (r : Reader) :
    readConst Body.writeRaw cap n b r ≠ .fail .reachMaxBodySize := by
  cases hb : b.internal with
  | none =>
    rw [readConst_nobuf _ _ _ _ hb]
    split
    · simp
    · split <;> simp [code_not_max]
  | some x =>
    rcases readConst_raw cap n b x r hc hb with ⟨_, _, g, _⟩ | ⟨_, _, g⟩ | ⟨_, _, g⟩ <;> rw [g] <;> simp [code_not_max]

/-- The request is sent in chunks, as far as `read_body_normal` is concerned: some Transfer-Encoding value contains `chunked`. -/
def SaysChunked (hs : MultiMap) : Prop :=
  ∃ vs v, hs.getall b!"transfer-encoding" = some vs ∧ v ∈ vs ∧ b!"chunked" <:+: v

/-- The size announced by the first line of a chunked body (the first 128 bytes of it at most): a decimal numeral between
white space. -/
def ChunkAnnounces (r : Reader) (n : Nat) : Prop :=
  (cutDone 10 128 r.flat = true ∨ r.fin = .eof) ∧
  ∃ cps a t b, decodeUtf8 (cut 10 128 r.flat).1 = some cps ∧ cps = a ++ t.map UInt8.toNat ++ b ∧
    (∀ x ∈ a, isUnicodeWhitespace x = true) ∧ (∀ x ∈ b, isUnicodeWhitespace x = true) ∧ Numeral t n ∧ n < 2 ^ 64

/-- **C19.** `read_body_normal` adds at most `max_body_size` bytes (and only appends), and reports `ReachMaxBodySize` exactly
when the announced length - the Content-Length, or the size of the first chunk when the request says it is chunked - exceeds
the limit. For every header set, stream, limit, capacity and segmentation. -/
theorem C19_limited_reader {K : Type} (cap maxBody : Nat) (hc : 1 ≤ cap) (hs : MultiMap) (b : Body K) (x : Bytes)
    (hb : b.internal = some x) (r : Reader) :
    (∀ b' r', readBodyNormal cap maxBody hs b r = .done b' r' →
      ∃ data, b'.internal = some (x ++ data) ∧ data.length ≤ maxBody) ∧
    (¬ SaysChunked hs → (readBodyNormal cap maxBody hs b r = .fail .reachMaxBodySize ↔
      ∃ n, getContentLength hs = some n ∧ maxBody < n)) ∧
    (SaysChunked hs → (readBodyNormal cap maxBody hs b r = .fail .reachMaxBodySize ↔
      ∃ n, ChunkAnnounces r n ∧ maxBody < n)) := by
  have hch : headerContains (hs.getall b!"transfer-encoding") b!"chunked" = true ↔ SaysChunked hs := headerContains_iff _ _
  refine ⟨?_, ?_, ?_⟩
  · intro b' r' h
    simp only [readBodyNormal] at h
    split at h
    · simp only [readChunked] at h
      split at h
      · cases h
      · split at h
        · cases h
        · next size _ =>
          split at h
          · cases h
          · split at h
            · next hdone =>
              split at h
              · cases h
                obtain ⟨_, _, _, _, g⟩ := readConst_done hc hdone
                exact ⟨_, by rw [g, hb]; rfl, by simp; omega⟩
              · cases h
            · cases h
            · cases h
            · cases h
    · split at h
      · split at h
        · cases h
        · obtain ⟨_, _, _, _, g⟩ := readConst_done hc h
          exact ⟨_, by rw [g, hb]; rfl, by simp; omega⟩
      · cases h
  · intro hn
    rw [← hch] at hn
    simp only [readBodyNormal, if_neg hn]
    constructor
    · intro h
      split at h
      · next n hcl =>
        split at h
        · next hlt => exact ⟨n, hcl, hlt⟩
        · exact absurd h (readConst_not_max cap n hc b r)
      · cases h
    · rintro ⟨n, hcl, hlt⟩
      rw [hcl]; simp only; rw [if_pos hlt]
  · intro hy
    rw [← hch] at hy
    simp only [readBodyNormal, if_pos hy, readChunked]
    have hspec := Reader.readUntil_spec 10 128 r
    constructor
    · intro h
      cases hl : r.readLine 128 with
      | err s => rw [hl] at h; exact absurd (by simpa using h) (code_not_max s).1
      | ok line r1 =>
        rw [hl] at h
        simp only at h
        obtain ⟨e1, _, _, _⟩ := Reader.readLine_ok hl
        cases hp : parseChunkSize line with
        | none => rw [hp] at h; cases h
        | some n =>
          rw [hp] at h
          simp only at h
          split at h
          · next hlt =>
            refine ⟨n, ⟨?_, ?_⟩, hlt⟩
            · simp only [Reader.readLine] at hl
              split at hl
              · cases hl
              · next hu =>
                split at hspec
                · next hcond => exact hcond
                · rw [hspec] at hu; cases hu
            · obtain ⟨cps, a, t, b2, p1, p2, p3, p4, p5, p6⟩ := (parseChunkSize_iff _ _).mp hp
              rw [e1] at p1
              exact ⟨cps, a, t, b2, p1, p2, p3, p4, p5, by simp only [u64Max] at p6; omega⟩
          · split at h
            · split at h
              · cases h
              · next s _ => exact absurd (by simpa using h) (code_not_max s).2
            · next c hfail =>
              cases h
              exact absurd hfail (readConst_not_max cap n hc b r1)
            · cases h
            · cases h
    · rintro ⟨n, ⟨hcond, cps, a, t, b2, p1, p2, p3, p4, p5, p6⟩, hlt⟩
      rw [if_pos hcond] at hspec
      obtain ⟨r1, hu, _, _⟩ := hspec
      have hl : r.readLine 128 = .ok (cut 10 128 r.flat).1 r1 := by
        simp [Reader.readLine, hu, p1]
      have hp : parseChunkSize (cut 10 128 r.flat).1 = some n :=
        (parseChunkSize_iff _ _).mpr ⟨cps, a, t, b2, p1, p2, p3, p4, p5, by simp only [u64Max]; omega⟩
      rw [hl]
      simp only [hp]
      rw [if_pos hlt]

/-- Non-trivial cases: at the limit and above it. -/
example : (match readBodyNormal 2 3 (MultiMap.new.append b!"content-length" b!"3") (Body.new : Body Unit)
    (Reader.ofBytes b!"abcdef" .eof) with | .done b _ => b.internal | _ => none) = some b!"abc" := by decide +kernel
example : (match readBodyNormal 2 3 (MultiMap.new.append b!"transfer-encoding" b!"gzip, chunked") (Body.new : Body Unit)
    (Reader.ofBytes b!" 4 \r\nabcd\r\n" .eof) with | .fail c => some c | _ => none) = some .reachMaxBodySize := by decide +kernel

/-! ## C20 -/

/-- A size line is read as a line. -/
theorem readLine_size (t : Bytes) (ht : ∀ b ∈ t, b.toNat < 128) (hlf : 10 ∉ t) (hlen : t.length + 2 ≤ 128) (r : Reader) (s : Bytes)
    (hr : r.flat = t ++ crlf ++ s) : ∃ r1, r.readLine 128 = .ok (t ++ crlf) r1 ∧ r1.flat = s ∧ r1.fin = r.fin := by
  have hp : IsPiece 10 128 (t ++ crlf) := by
    have := isPiece_delim 10 128 (t ++ [13]) (by simp [hlf]) (by simp; omega)
    simpa [crlf] using this
  exact Reader.readLine_piece hp hr (by rw [decodeUtf8_digits t ht]; rfl)

/-- What `read_chunked_body` does with a size line that is a decimal numeral, the data and a line end: it delivers that one
chunk and stops. -/
theorem readChunked_one {K : Type} (cap maxBody : Nat) (hc : 1 ≤ cap) (b : Body K) (x : Bytes) (hb : b.internal = some x)
    (r : Reader) (t data rest : Bytes) (n : Nat) (ht : Numeral t n) (hn : data.length = n) (h64 : n < 2 ^ 64)
    (hmax : n ≤ maxBody) (hlen : t.length + 2 ≤ 128) (hr : r.flat = t ++ crlf ++ data ++ crlf ++ rest) :
    ∃ r', readChunked Body.writeRaw cap maxBody b r = .done { b with internal := some (x ++ data) } r' ∧ r'.flat = rest ∧
      r'.fin = r.fin := by
  have hsm := (numeral_small ht).2
  have hlf : (10 : Byte) ∉ t := by
    intro hm
    have := (hsm 10 hm).2
    revert this; decide
  obtain ⟨r1, h1, h2, h3⟩ := readLine_size t (fun b hb => (hsm b hb).1) hlf hlen r (data ++ crlf ++ rest) (by rw [hr]; simp)
  obtain ⟨r2, g1, g2, g3⟩ := C14_exact_body cap hc b x hb r1 n data (crlf ++ rest) hn (by rw [h2]; simp)
  obtain ⟨r3, k1, k2, k3⟩ := Reader.readLine_piece (limit := 2) (r := r2) (p := crlf) (s := rest)
    (isPiece_delim 10 2 [13] (by decide) (by decide)) g2 (by decide)
  refine ⟨r3, ?_, k2, by rw [k3, g3, h3]⟩
  simp only [readChunked, h1, parseChunkSize_numeral t n ht (by simp only [u64Max]; omega)]
  rw [if_neg (by omega), g1]
  simp only [k1]

/-- **C20 is violated**: of a chunked body whose first chunk is not empty and shorter than 10 bytes, only the first chunk is
delivered; the other chunks and the end marker stay in the stream, whatever they are - even if there is only one chunk. -/
theorem C20_first_chunk_only_violated {K : Type} (cap maxBody : Nat) (hc : 1 ≤ cap) (b : Body K) (x : Bytes)
    (hb : b.internal = some x) (d : Bytes) (cs : List (Bytes × Bytes)) (hd : d.length < 10) (hmax : d.length ≤ maxBody)
    (r : Reader) (s : Bytes) (hr : r.flat = encodeChunked (([], d) :: cs) ++ s) :
    ∃ r', readChunked Body.writeRaw cap maxBody b r = .done { b with internal := some (x ++ d) } r' ∧
      r'.flat = encodeChunked cs ++ s ∧ r'.flat ≠ s := by
  have h10 := hex_small ⟨d.length, hd⟩
  simp only at h10
  obtain ⟨r', h1, h2, _⟩ := readChunked_one cap maxBody hc b x hb r (natToBytes d.length) d (encodeChunked cs ++ s) d.length
    (natToBytes_numeral _) rfl (by omega) hmax
    (by have := natToBytes_length d.length 1 (by omega) (by omega); omega)
    (by rw [hr]; simp [encodeChunked, encodeChunk, h10, crlf])
  refine ⟨r', h1, h2, ?_⟩
  rw [h2]
  intro h
  have := congrArg List.length h
  simp [encodeChunked] at this
  omega

/-- **C20 is violated**: a chunk whose size has a letter when written in hexadecimal (10 bytes, for instance) is refused. -/
theorem C20_hex_refused_violated {K : Type} (cap maxBody : Nat) (b : Body K) (d : Bytes)
    (h64 : d.length < 2 ^ 64) (hletter : ∃ y ∈ hex d.length, ¬ IsDigit y) (cs : List (Bytes × Bytes)) (r : Reader) (s : Bytes)
    (hr : r.flat = encodeChunked (([], d) :: cs) ++ s) :
    readChunked Body.writeRaw cap maxBody b r = .fail .badChunkSize := by
  obtain ⟨y, hy, hyd⟩ := hletter
  have hsh := (hex_shape d.length).2
  have hasc : ∀ b ∈ hex d.length, b.toNat < 128 := by
    intro b hb
    obtain ⟨k, hk, rfl⟩ := hsh b hb
    exact (hexDigit_fact k hk).2.1
  have hlf : (10 : Byte) ∉ hex d.length := by
    intro hm
    obtain ⟨k, hk, he⟩ := hsh 10 hm
    have := (hexDigit_fact k hk).2.2.1
    rw [← he] at this; revert this; decide
  obtain ⟨r1, h1, h2, h3⟩ := readLine_size (hex d.length) hasc hlf (by have := hex_length d.length h64; omega) r
    (d ++ [13, 10] ++ encodeChunked cs ++ s) (by rw [hr]; simp [encodeChunked, encodeChunk, crlf])
  obtain ⟨k, hk, rfl⟩ := hsh y hy
  simp only [readChunked, h1, parseChunkSize_bad _ hasc _ hy hyd (hexDigit_fact k hk).2.2.2.1 (hexDigit_fact k hk).2.2.1]

/-- **C20 is violated**: a chunk of 16 bytes or more whose hexadecimal size has no letter is read as a decimal number, so that
fewer bytes than it has are delivered (or the request is refused). -/
theorem C20_hex_misread_violated {K : Type} (cap maxBody : Nat) (hc : 1 ≤ cap) (b b' : Body K) (x : Bytes)
    (hb : b.internal = some x) (d : Bytes) (h64 : d.length < 2 ^ 64) (h16 : 16 ≤ d.length)
    (hdig : ∀ y ∈ hex d.length, IsDigit y) (cs : List (Bytes × Bytes)) (r r' : Reader) (s : Bytes)
    (hr : r.flat = encodeChunked (([], d) :: cs) ++ s)
    (h : readChunked Body.writeRaw cap maxBody b r = .done b' r') :
    ∃ m, m < d.length ∧ b'.internal = some (x ++ d.take m) := by
  have hasc : ∀ b ∈ hex d.length, b.toNat < 128 := by
    intro b hb
    have := (hdig b hb).2; omega
  have hlf : (10 : Byte) ∉ hex d.length := fun hm => absurd (hdig 10 hm) (by decide)
  obtain ⟨r1, h1, h2, h3⟩ := readLine_size (hex d.length) hasc hlf (by have := hex_length d.length h64; omega) r
    (d ++ [13, 10] ++ encodeChunked cs ++ s) (by rw [hr]; simp [encodeChunked, encodeChunk, crlf])
  obtain ⟨v1, v2⟩ := hex_decValue d.length hdig
  have hp := parseChunkSize_numeral (hex d.length) (decValue (hex d.length))
    ⟨_, Or.inl rfl, (hex_shape d.length).1, hdig, rfl⟩ (by simp only [u64Max]; omega)
  simp only [readChunked, h1, hp] at h
  split at h
  · cases h
  · split at h
    · next hdone =>
      split at h
      · cases h
        obtain ⟨_, _, _, _, g⟩ := readConst_done hc hdone
        refine ⟨decValue (hex d.length), v2 h16, ?_⟩
        rw [g, hb, h2, List.append_assoc, List.append_assoc, List.take_append_of_le_length (by omega)]
        rfl
      · cases h
    · cases h
    · cases h
    · cases h

/-- **C20 (partial).** A chunked body without data (just the last chunk) is read correctly. Missing: any data. -/
theorem C20_empty_partial {K : Type} (cap maxBody : Nat) (hc : 1 ≤ cap) (b : Body K) (x : Bytes) (hb : b.internal = some x)
    (r : Reader) (s : Bytes) (hr : r.flat = encodeChunked [] ++ s) :
    ∃ r', readChunked Body.writeRaw cap maxBody b r = .done { b with internal := some (x ++ chunkData []) } r' ∧ r'.flat = s := by
  obtain ⟨r', h1, h2, _⟩ := readChunked_one cap maxBody hc b x hb r b!"0" [] s 0
    ⟨b!"0", Or.inl rfl, by decide, by decide, by decide⟩ rfl (by decide) (by omega) (by decide)
    (by rw [hr]; simp [encodeChunked, crlf])
  exact ⟨r', by simpa [chunkData] using h1, h2⟩

/-- Non-trivial cases. -/
example : hex 26 = b!"1a" ∧ (∃ y ∈ hex 26, ¬ IsDigit y) ∧ (∀ y ∈ hex 18, IsDigit y) := by decide
example : (match readChunked Body.writeRaw 8 100 (Body.new : Body Unit)
    (Reader.ofBytes (encodeChunked [([], b!"abc"), ([], b!"def")]) .eof) with
    | .done b r => some (b.internal, r.flat) | _ => none) = some (some b!"abc", b!"3\r\ndef\r\n0\r\n\r\n") := by decide +kernel

/-! ## C21 -/

/-- **C21 is violated**: `serve` does not look at Transfer-Encoding. A request sent in chunks (without Content-Length) is
delivered with an empty body, whatever its chunks are, to every service. -/
theorem C21_chunked_ignored_violated {K : Type} (c : Codec K) (lim : HttpLimits) (env : Nat → Env K) (w : WireHead)
    (hw : w.WF lim.maxUrl lim.maxHeaderLine lim.maxHeadersCount) (hno : announced w.fields = none)
    (hte : b!"chunked" ∈ valuesOf w.fields b!"transfer-encoding")
    (cs : List (Bytes × Bytes)) (r : Reader) (s : Bytes) (hr : r.flat = w.encode ++ encodeChunked cs ++ s) :
    ∃ ex rest e, serve c lim env r = (ex :: rest, e) ∧ ex.req.body.internal = some [] ∧
      ∃ vs, ex.req.head.headers.getall b!"transfer-encoding" = some vs ∧ b!"chunked" ∈ vs := by
  obtain ⟨ex, rest, e, h1, h2, h3⟩ := serveLoop_delivers_request c lim env r.flat.length 0 ⟨w, []⟩
    ⟨hw, by simp, by simp [hno]⟩ Message.new Message.new []
    Head.blank_new Body.plain_new rfl r (encodeChunked cs ++ s) (by rw [hr]; simp [WireReq.encode])
  refine ⟨ex, rest, e, h1, by simpa using h3, valuesOf w.fields b!"transfer-encoding", ?_, hte⟩
  rw [h2.headers]
  simp only [lookupFields]
  cases hv : valuesOf w.fields b!"transfer-encoding" with
  | nil => rw [hv] at hte; cases hte
  | cons v vs => rfl

/-- **C21 is violated**: request smuggling. The one chunk of this chunked request (with a chunk extension) contains, after an
empty line, any request `q` the attacker likes; a service that keeps the connection open sees `q` as a request of its own. -/
theorem C21_smuggling_violated {K : Type} (c : Codec K) (lim : HttpLimits) (env : Nat → Env K)
    (hk : ∀ j, j < 3 → KeepsOpen c (env j)) (w : WireHead)
    (hw : w.WF lim.maxUrl lim.maxHeaderLine lim.maxHeadersCount) (hurl : 2 ≤ lim.maxUrl) (hno : announced w.fields = none)
    (q : WireReq) (hq : q.WF lim.maxUrl lim.maxHeaderLine lim.maxHeadersCount) (hsize : q.encode.length + 2 < 2 ^ 64)
    (r : Reader) (hr : r.flat = w.encode ++ encodeChunked [(b!" ; x", crlf ++ q.encode)]) :
    ∃ ex, (serve c lim env r).1[2]? = some ex ∧ ex.req.head.f0 = q.head.w0 ∧ ex.req.head.f1 = q.head.w1 ∧
      ∀ k, ex.req.head.headers.getall k = lookupFields q.head.fields k := by
  let n := (crlf ++ q.encode).length
  let w2 : WireHead := ⟨hex n, b!";", b!"x", []⟩
  have hn : n < 2 ^ 64 := by simp [n]; omega
  have hsh := (hex_shape n).2
  have hw2 : w2.WF lim.maxUrl lim.maxHeaderLine lim.maxHeadersCount := by
    refine ⟨⟨?_, ?_, by show ∀ b ∈ b!";", IsVisible b; decide, ?_, by show ∀ b ∈ b!"x", IsText b; decide,
      by simp [w2], by simp [w2]⟩, by simp [w2], by simp [w2], hw.line_room⟩
    · intro b hb
      obtain ⟨k, hk, rfl⟩ := hsh b hb
      exact (hexDigit_fact k hk).1
    · have := hex_length n hn
      show (hex n).length + 1 ≤ 128
      omega
    · exact hurl
  obtain ⟨exs, _, _, _, _, h1, _, h3, h4, _⟩ := serve_requests c lim env [⟨w, []⟩, ⟨w2, []⟩, q]
    (by
      intro x hx
      simp only [List.mem_cons, List.not_mem_nil, or_false] at hx
      rcases hx with rfl | rfl | rfl
      · exact ⟨hw, by simp, by simp [hno]⟩
      · exact ⟨hw2, by simp, by simp [w2, announced, valuesOf]⟩
      · exact hq)
    (by simpa using hk) r (crlf ++ [48, 13, 10, 13, 10])
    (by
      rw [hr]
      have e1 : encodeChunked [(b!" ; x", crlf ++ q.encode)] =
          hex n ++ b!" ; x" ++ [13, 10] ++ (crlf ++ q.encode) ++ [13, 10] ++ [48, 13, 10, 13, 10] := by
        simp only [encodeChunked, encodeChunk, n, List.map_cons, List.map_nil, List.flatten_cons, List.flatten_nil,
          List.append_nil]
      have e2 : w2.encode = hex n ++ b!" ; x" ++ [13, 10] ++ crlf := by
        simp [w2, WireHead.encode, WireHead.start, encodeFields, crlf]
      rw [e1]
      simp [encodeAll, WireReq.encode, e2, crlf])
  have hlt : 2 < exs.length := by rw [h3]; simp
  refine ⟨exs[2], ?_, ?_⟩
  · rw [h1]
    rw [List.getElem?_append_left hlt]
    simp
  · obtain ⟨⟨a, b, _, d⟩, _⟩ := h4 2 q exs[2] rfl (by simp)
    exact ⟨a, b, d⟩

/-- Non-trivial case: `GET /admin` smuggled past the first request. -/
example : ((serve noCodec sampleLimits (fun _ => sampleEnv)
    (Reader.ofBytes (b!"POST / HTTP/1.1\r\nTransfer-Encoding: chunked\r\n\r\n" ++
      encodeChunked [(b!" ; x", b!"\r\nGET /admin HTTP/1.1\r\n\r\n")]) .eof)).1.map (fun e => e.req.head.f1)) =
    [b!"/", b!";", b!"/admin"] := by decide +kernel

end Httpd
