import Verif.Props.Run
import Verif.Props.HeadEnd
import Verif.Props.Main
/-! # Exactly which bytes are a chunked body, and what holds of C20, C21, C32, C34, C43, C102: C136 -/

namespace Httpd
open Spec MultiMap

/-! ## C136 -/

theorem Reader.readLine_taken {limit : Nat} {r : Reader} {p rest : Bytes} (hr : r.flat = p ++ rest)
    (h : Taken 10 limit r.closed p rest) (hu : (decodeUtf8 p).isSome = true) :
    ∃ r', r.readLine limit = .ok p r' ∧ r'.flat = rest ∧ r'.fin = r.fin := by
  obtain ⟨r', h1, h2, h3⟩ := Reader.readUntil_taken hr h
  exact ⟨r', by simp only [Reader.readLine, h1, hu, if_true], h2, h3⟩

theorem Reader.taken_readLine {limit : Nat} {r r' : Reader} {p : Bytes} (h : r.readLine limit = .ok p r') :
    r.flat = p ++ r'.flat ∧ Taken 10 limit r.closed p r'.flat ∧ (decodeUtf8 p).isSome = true ∧ r'.fin = r.fin := by
  simp only [Reader.readLine] at h
  cases h1 : r.readUntil 10 limit with
  | err s => rw [h1] at h; cases h
  | ok d q =>
    rw [h1] at h
    simp only at h
    split at h
    · next hu =>
      cases h
      obtain ⟨a, b, c⟩ := Reader.taken_readUntil h1
      exact ⟨a, b, hu, c⟩
    · cases h

theorem Reader.readLine_waits (limit : Nat) (r : Reader) :
    r.readLine limit = .err .wait ↔ r.fin = .silent ∧ 10 ∉ r.flat ∧ r.flat.length < limit := by
  rw [← Reader.readUntil_waits]
  simp only [Reader.readLine]
  cases h1 : r.readUntil 10 limit with
  | err s => simp
  | ok d q => simp only; split <;> simp

theorem sizeLine_iff (line : Bytes) (n : Nat) : SizeLine line n ↔ parseChunkSize line = some n := by
  rw [parseChunkSize_iff]
  have e : ∀ n, n ≤ u64Max ↔ n < 2 ^ 64 := fun n => by simp only [u64Max]; omega
  simp only [SizeLine, e]

theorem sizeLine_utf8 {line : Bytes} {n : Nat} (h : SizeLine line n) : (decodeUtf8 line).isSome = true := by
  obtain ⟨cps, _, _, _, h1, _⟩ := h
  rw [h1]; rfl

theorem Reader.closed_eq (r : Reader) : r.closed = decide (r.fin = .eof) := by
  cases h : r.fin <;> simp [Reader.closed, h]

/-- **C136.** Whatever the bytes, their segmentation, the size of the buffer and the limit: what the chunk reader accepts is a body of
the grammar; it appends the data and leaves the rest. -/
theorem C136_accepted {K : Type} (cap maxBody : Nat) (hc : 1 ≤ cap) (b b' : Body K) (x : Bytes) (hb : b.internal = some x) (r r' : Reader)
    (h : readChunked Body.writeRaw cap maxBody b r = .done b' r') :
    ∃ data, b' = { b with internal := some (x ++ data) } ∧ ChunkText maxBody (decide (r.fin = .eof)) r.flat data r'.flat ∧
      r'.fin = r.fin := by
  simp only [readChunked] at h
  cases h1 : r.readLine 128 with
  | err s => rw [h1] at h; cases h
  | ok line r1 =>
    rw [h1] at h
    simp only at h
    obtain ⟨a1, a2, a3, a4⟩ := Reader.taken_readLine h1
    cases h2 : parseChunkSize line with
    | none => rw [h2] at h; cases h
    | some n =>
      rw [h2] at h
      simp only at h
      split at h
      · cases h
      · next hm =>
        rcases readConst_raw cap n b x r1 hc hb with ⟨g1, r2, g2, g3, g4⟩ | ⟨g1, g2, g3⟩ | ⟨g1, g2, g3⟩
        · rw [g2] at h
          simp only at h
          cases h3 : r2.readLine 2 with
          | err s => rw [h3] at h; cases h
          | ok tail r3 =>
            rw [h3] at h
            cases h
            obtain ⟨b1, b2, b3, b4⟩ := Reader.taken_readLine h3
            have hlen : (r1.flat.take n).length = n := by simp; omega
            have hs : r1.flat = r1.flat.take n ++ (tail ++ r'.flat) := by rw [← b1, g3, List.take_append_drop]
            have hcl : r2.closed = r.closed := Reader.closed_congr (g4.trans a4)
            refine ⟨_, rfl, ?_, by rw [b4, g4, a4]⟩
            rw [a1, ← Reader.closed_eq]
            generalize r1.flat.take n = data at hs hlen ⊢
            rw [hs] at a2 ⊢
            exact .mk line data tail _ a2 (by rw [hlen, sizeLine_iff]; exact h2) (by omega) (hcl ▸ b2) b3
        · rw [g3] at h; cases h
        · rw [g3] at h; cases h

/-- **C136, the converse.** Every body of the grammar is accepted, as that. -/
theorem C136_accepts {K : Type} (cap maxBody : Nat) (hc : 1 ≤ cap) (b : Body K) (x : Bytes) (hb : b.internal = some x) (r : Reader)
    (data rest : Bytes) (h : ChunkText maxBody (decide (r.fin = .eof)) r.flat data rest) :
    ∃ r', readChunked Body.writeRaw cap maxBody b r = .done { b with internal := some (x ++ data) } r' ∧ r'.flat = rest ∧
      r'.fin = r.fin := by
  rw [← Reader.closed_eq] at h
  generalize hs : r.flat = s at h
  cases h with
  | mk line _ tail _ h1 h2 h3 h4 h5 =>
    obtain ⟨r1, a1, a2, a3⟩ := Reader.readLine_taken hs h1 (sizeLine_utf8 h2)
    simp only [readChunked, a1, (sizeLine_iff _ _).mp h2, if_neg (Nat.not_lt.mpr h3)]
    rcases readConst_raw cap data.length b x r1 hc hb with ⟨g1, r2, g2, g3, g4⟩ | ⟨g1, g2, g3⟩ | ⟨g1, g2, g3⟩
    · rw [a2] at g2 g3
      rw [List.take_left] at g2
      rw [List.drop_left] at g3
      obtain ⟨r3, c1, c2, c3⟩ := Reader.readLine_taken (limit := 2) g3 (by rw [Reader.closed_congr (g4.trans a3)]; exact h4) h5
      exact ⟨r3, by simp only [g2, c1], c2, by rw [c3, g4, a3]⟩
    · rw [a2] at g1; simp at g1; omega
    · rw [a2] at g1; simp at g1; omega

/-- **C136, waiting.** The chunk reader goes on waiting exactly when the client sends nothing more and what it sent is an unfinished
body. -/
theorem C136_waits {K : Type} (cap maxBody : Nat) (hc : 1 ≤ cap) (b : Body K) (x : Bytes) (hb : b.internal = some x) (r : Reader) :
    readChunked Body.writeRaw cap maxBody b r = .fail .waiting ↔ r.fin = .silent ∧ ChunkOpen maxBody r.flat := by
  constructor
  · intro h
    simp only [readChunked] at h
    cases h1 : r.readLine 128 with
    | err s =>
      rw [h1] at h
      cases s with
      | error => simp [Reader.IoStop.code] at h
      | wait =>
        obtain ⟨a, b, c⟩ := (Reader.readLine_waits _ _).mp h1
        exact ⟨a, .line _ b c⟩
    | ok line r1 =>
      rw [h1] at h
      simp only at h
      obtain ⟨a1, a2, a3, a4⟩ := Reader.taken_readLine h1
      cases h2 : parseChunkSize line with
      | none => rw [h2] at h; cases h
      | some n =>
        rw [h2] at h
        simp only at h
        split at h
        · cases h
        · next hm =>
          rcases readConst_raw cap n b x r1 hc hb with ⟨g1, r2, g2, g3, g4⟩ | ⟨g1, g2, g3⟩ | ⟨g1, g2, g3⟩
          · rw [g2] at h
            simp only at h
            cases h3 : r2.readLine 2 with
            | ok tail r3 => rw [h3] at h; cases h
            | err s =>
              rw [h3] at h
              cases s with
              | error => simp [Reader.IoStop.code] at h
              | wait =>
                obtain ⟨b1, b2, b3⟩ := (Reader.readLine_waits _ _).mp h3
                have hsil : r.fin = .silent := by rw [← a4, ← g4, b1]
                rw [Reader.silent_open hsil] at a2
                have hlen : (r1.flat.take n).length = n := by simp; omega
                have hs : r1.flat = r1.flat.take n ++ r2.flat := by rw [g3, List.take_append_drop]
                refine ⟨hsil, ?_⟩
                rw [a1]
                rw [hs] at a2 ⊢
                exact .tail line _ _ a2 (by rw [hlen, sizeLine_iff]; exact h2) (by omega) b2 b3
          · rw [g3] at h
            simp only [BodyRes.fail.injEq] at h
            have hsil : r1.fin = .silent := by
              cases hf : r1.fin <;> simp [Reader.endStop, Reader.IoStop.code, hf] at h ⊢
            rw [a4] at hsil
            rw [Reader.silent_open hsil] at a2
            refine ⟨hsil, ?_⟩
            rw [a1]
            exact .data line _ n a2 ((sizeLine_iff _ _).mpr h2) (by omega) g1
          · rw [g3] at h; cases h
  · rintro ⟨hsil, h⟩
    have hcl := Reader.silent_open hsil
    generalize hs : r.flat = s at h
    cases h with
    | line _ h1 h2 =>
      have := (Reader.readLine_waits 128 r).mpr ⟨hsil, hs ▸ h1, hs ▸ h2⟩
      simp only [readChunked, this, Reader.IoStop.code]
    | data line s n h1 h2 h3 h4 =>
      obtain ⟨r1, a1, a2, a3⟩ := Reader.readLine_taken hs (hcl ▸ h1) (sizeLine_utf8 h2)
      simp only [readChunked, a1, (sizeLine_iff _ _).mp h2, if_neg (Nat.not_lt.mpr h3)]
      rcases readConst_raw cap n b x r1 hc hb with ⟨g1, r2, g2, g3, g4⟩ | ⟨g1, g2, g3⟩ | ⟨g1, g2, g3⟩
      · rw [a2] at g1; omega
      · simp only [g3, a3, hsil, Reader.endStop, Reader.IoStop.code]
      · rw [a3, hsil] at g2; cases g2
    | tail line data s h1 h2 h3 h4 h5 =>
      obtain ⟨r1, a1, a2, a3⟩ := Reader.readLine_taken hs (hcl ▸ h1) (sizeLine_utf8 h2)
      simp only [readChunked, a1, (sizeLine_iff _ _).mp h2, if_neg (Nat.not_lt.mpr h3)]
      rcases readConst_raw cap data.length b x r1 hc hb with ⟨g1, r2, g2, g3, g4⟩ | ⟨g1, g2, g3⟩ | ⟨g1, g2, g3⟩
      · rw [a2, List.drop_left] at g3
        have := (Reader.readLine_waits 2 r2).mpr ⟨by rw [g4, a3, hsil], g3 ▸ h4, g3 ▸ h5⟩
        simp only [g2, this, Reader.IoStop.code]
      · rw [a2] at g1; simp at g1; omega
      · rw [a2] at g1; simp at g1; omega

/-- **C136, spinning.** The chunk reader goes on reading nothing for ever exactly when the client closed the connection after a size line
within the limit and before the last byte it announces. -/
theorem C136_spins {K : Type} (cap maxBody : Nat) (hc : 1 ≤ cap) (b : Body K) (x : Bytes) (hb : b.internal = some x) (r : Reader) :
    readChunked Body.writeRaw cap maxBody b r = .hang ↔
      r.fin = .eof ∧ ∃ line s n, r.flat = line ++ s ∧ Taken 10 128 true line s ∧ SizeLine line n ∧ n ≤ maxBody ∧ s.length < n := by
  have hcl : ∀ r : Reader, r.fin = .eof → r.closed = true := fun r h => by rw [Reader.closed_eq]; simpa using h
  constructor
  · intro h
    simp only [readChunked] at h
    cases h1 : r.readLine 128 with
    | err s => rw [h1] at h; cases h
    | ok line r1 =>
      rw [h1] at h
      simp only at h
      obtain ⟨a1, a2, a3, a4⟩ := Reader.taken_readLine h1
      cases h2 : parseChunkSize line with
      | none => rw [h2] at h; cases h
      | some n =>
        rw [h2] at h
        simp only at h
        split at h
        · cases h
        · next hm =>
          rcases readConst_raw cap n b x r1 hc hb with ⟨g1, r2, g2, g3, g4⟩ | ⟨g1, g2, g3⟩ | ⟨g1, g2, g3⟩
          · rw [g2] at h
            simp only at h
            cases h3 : r2.readLine 2 <;> rw [h3] at h <;> cases h
          · rw [g3] at h; cases h
          · have hf : r.fin = .eof := by rw [← a4, g2]
            exact ⟨hf, line, _, n, a1, hcl r hf ▸ a2, (sizeLine_iff _ _).mpr h2, by omega, g1⟩
  · rintro ⟨hf, line, s, n, h0, h1, h2, h3, h4⟩
    obtain ⟨r1, a1, a2, a3⟩ := Reader.readLine_taken h0 (by rw [hcl r hf]; exact h1) (sizeLine_utf8 h2)
    simp only [readChunked, a1, (sizeLine_iff _ _).mp h2, if_neg (Nat.not_lt.mpr h3)]
    rcases readConst_raw cap n b x r1 hc hb with ⟨g1, r2, g2, g3, g4⟩ | ⟨g1, g2, g3⟩ | ⟨g1, g2, g3⟩
    · rw [a2] at g1; omega
    · rw [a3, hf] at g2; exact absurd rfl g2
    · simp only [g3]

theorem readChunked_no_panic {K : Type} (cap maxBody : Nat) (hc : 1 ≤ cap) (b : Body K) (x : Bytes) (hb : b.internal = some x) (r : Reader) :
    readChunked Body.writeRaw cap maxBody b r ≠ .panic := by
  intro h
  simp only [readChunked] at h
  cases h1 : r.readLine 128 with
  | err s => rw [h1] at h; cases h
  | ok line r1 =>
    rw [h1] at h
    simp only at h
    cases h2 : parseChunkSize line with
    | none => rw [h2] at h; cases h
    | some n =>
      rw [h2] at h
      simp only at h
      split at h
      · cases h
      · rcases readConst_raw cap n b x r1 hc hb with ⟨_, r2, g2, _, _⟩ | ⟨_, _, g3⟩ | ⟨_, _, g3⟩
        · rw [g2] at h
          simp only at h
          cases h3 : r2.readLine 2 <;> rw [h3] at h <;> cases h
        · rw [g3] at h; cases h
        · rw [g3] at h; cases h

/-- **C136, refusal.** Everything else is refused with an error code; nothing makes the reader panic. -/
theorem C136_refused {K : Type} (cap maxBody : Nat) (hc : 1 ≤ cap) (b : Body K) (x : Bytes) (hb : b.internal = some x) (r : Reader) :
    (∃ e, readChunked Body.writeRaw cap maxBody b r = .fail e ∧ e ≠ .waiting) ↔
      (¬ ∃ data rest, ChunkText maxBody (decide (r.fin = .eof)) r.flat data rest) ∧
      ¬ (r.fin = .silent ∧ ChunkOpen maxBody r.flat) ∧
      ¬ (r.fin = .eof ∧ ∃ line s n, r.flat = line ++ s ∧ Taken 10 128 true line s ∧ SizeLine line n ∧ n ≤ maxBody ∧ s.length < n) := by
  rw [← C136_waits cap maxBody hc b x hb r, ← C136_spins cap maxBody hc b x hb r]
  constructor
  · rintro ⟨e, h, he⟩
    refine ⟨?_, ?_, ?_⟩
    · rintro ⟨data, rest, h1⟩
      obtain ⟨r', h2, _⟩ := C136_accepts cap maxBody hc b x hb r data rest h1
      rw [h] at h2; cases h2
    · rw [h]; intro h1; cases h1; exact he rfl
    · rw [h]; intro h1; cases h1
  · rintro ⟨h1, h2, h3⟩
    cases h : readChunked Body.writeRaw cap maxBody b r with
    | done b' r' =>
      obtain ⟨data, _, h4, _⟩ := C136_accepted cap maxBody hc b b' x hb r r' h
      exact absurd ⟨data, _, h4⟩ h1
    | fail e => exact ⟨e, rfl, fun he => h2 (by rw [h, he])⟩
    | panic => exact absurd h (readChunked_no_panic cap maxBody hc b x hb r)
    | hang => exact absurd h h3

/-- Non-trivial cases: a number with white space around it, and a last piece of one byte on a closed connection. -/
example : SizeLine b!" 3\t\r\n" 3 ∧ ChunkText 100 true b!" 3\t\r\nabc\rx" b!"abc" [] ∧ ChunkOpen 100 b!"3\r\nab" := by
  have h : SizeLine b!" 3\t\r\n" 3 := (sizeLine_iff _ _).mpr (by decide +kernel)
  refine ⟨h, ?_, .data b!"3\r\n" b!"ab" 3 ?_ ((sizeLine_iff _ _).mpr (by decide +kernel)) (by decide) (by decide)⟩
  · refine .mk b!" 3\t\r\n" b!"abc" b!"\rx" [] ?_ h (by decide) (.full _ _ (by decide) (by decide)) (by decide)
    exact .upTo b!" 3\t\r" _ (by decide) (by decide)
  · exact .upTo b!"3\r" _ (by decide) (by decide)

/-! ## C20: what does hold -/

theorem taken_length {delim : Byte} {limit : Nat} {closed : Bool} {p rest : Bytes} (h : Taken delim limit closed p rest) :
    p.length ≤ limit := by
  cases h with
  | upTo q rest _ h => simp; omega
  | full p rest _ h => omega
  | last p _ _ h => omega

theorem hex_no_lf (n : Nat) : (10 : Byte) ∉ hex n ∧ (32 : Byte) ∉ hex n := by
  constructor <;>
  · intro hm
    obtain ⟨k, hk, he⟩ := (hex_shape n).2 _ hm
    have : ∀ k : Fin 16, hexDigit k.val ≠ 10 ∧ hexDigit k.val ≠ 32 := by decide
    first
    | exact (this ⟨k, hk⟩).1 he.symm
    | exact (this ⟨k, hk⟩).2 he.symm

theorem encodeChunked_length (cs : List (Bytes × Bytes)) : (chunkData cs).length + 5 ≤ (encodeChunked cs).length := by
  induction cs with
  | nil => simp [chunkData, encodeChunked]
  | cons c cs ih =>
    simp only [chunkData, encodeChunked, encodeChunk, List.map_cons, List.flatten_cons, List.length_append] at ih ⊢
    omega

/-- **C20**, exactly what holds: a chunked body of RFC 9112 - whatever its chunks, their extensions and what follows it - is decoded and
consumed if and only if it has no chunks at all. -/
theorem C20_only_empty_partial {K : Type} (cap maxBody : Nat) (hc : 1 ≤ cap) (b : Body K) (x : Bytes) (hb : b.internal = some x)
    (cs : List (Bytes × Bytes)) (hext : ∀ p ∈ cs, 10 ∉ p.1) (r : Reader) (s : Bytes) (hr : r.flat = encodeChunked cs ++ s) :
    (∃ r', readChunked Body.writeRaw cap maxBody b r = .done { b with internal := some (x ++ chunkData cs) } r' ∧ r'.flat = s) ↔
      cs = [] := by
  constructor
  · rintro ⟨r', h, hs⟩
    cases cs with
    | nil => rfl
    | cons p cs =>
      exfalso
      obtain ⟨e, d⟩ := p
      obtain ⟨data, hd, ht, _⟩ := C136_accepted cap maxBody hc b _ x hb r r' h
      have hdata : chunkData ((e, d) :: cs) = data := by
        have := congrArg Body.internal hd
        simpa using this
      rw [hs] at ht
      generalize hfl : r.flat = z at ht
      have hz := hfl.symm.trans hr
      cases ht with
      | mk line _ tail _ t1 h2 h3 t2 h5 =>
        have he : 10 ∉ hex d.length ++ e ++ [13] := by
          simp only [List.mem_append, not_or]
          exact ⟨⟨(hex_no_lf _).1, hext (e, d) (by simp)⟩, by decide⟩
        have hz' : line ++ (data ++ (tail ++ s)) =
            (hex d.length ++ e ++ [13]) ++ [10] ++ (d ++ [13, 10] ++ encodeChunked cs ++ s) := by
          rw [hz]; simp [encodeChunked, encodeChunk]
        have hline : line.length ≤ (hex d.length ++ e ++ [13]).length + 1 := by
          rcases Nat.lt_or_ge (hex d.length ++ e ++ [13]).length 128 with h | h
          · rw [(taken_eq he h t1 hz').1, List.length_append]; exact Nat.le_refl _
          · have := taken_length t1; omega
        have htail := taken_length t2
        have hl := congrArg List.length hz'
        have h5 := encodeChunked_length cs
        have hcd : data.length = d.length + (chunkData cs).length := by rw [← hdata]; simp [chunkData]
        simp only [List.length_append, List.length_cons, List.length_nil] at hl hline
        omega
  · rintro rfl
    obtain ⟨r', h1, h2⟩ := C20_empty_partial cap maxBody hc b x hb r s hr
    exact ⟨r', h1, h2⟩

/-! ## C21: what does hold -/

/-- **C21**, what holds, for every service: a request sent in chunks, the first of which has no space in its size line (which a client
gets by leaving out chunk extensions), is the last one delivered on its connection: its chunks are not taken for a request. -/
theorem C21_no_space_partial {K : Type} (c : Codec K) (lim : HttpLimits) (env : Nat → Env K) (w : WireHead)
    (hw : w.WF lim.maxUrl lim.maxHeaderLine lim.maxHeadersCount) (hno : announced w.fields = none)
    (line s : Bytes) (hsp : 32 ∉ line) (hlen : line.length + 1 < 128) (r : Reader) (hr : r.flat = w.encode ++ (line ++ [13, 10] ++ s)) :
    (serve c lim env r).1.length = 1 := by
  obtain ⟨ex, rest, e, h0, _⟩ := serveLoop_delivers_request c lim env r.flat.length 0 ⟨w, []⟩
    ⟨hw, by simp, by simp [hno]⟩ Message.new Message.new []
    Head.blank_new Body.plain_new rfl r (line ++ [13, 10] ++ s) (by rw [hr]; simp [WireReq.encode])
  obtain ⟨qs, rest', h1, h2, _⟩ := C135_any_service c lim env r
  have h0' : serve c lim env r = (ex :: rest, e) := h0
  rw [h0'] at h2 ⊢
  suffices h : qs.length ≤ 1 by simp only [List.length_cons] at h2 ⊢; omega
  obtain ⟨hd, r1, g1, _, _, _, g5, g6, g7⟩ := C02_wellformed_head lim w hw Head.new Head.blank_new r _ hr
  obtain ⟨fs, k1, k2, _⟩ := C129_accepted lim Head.new hd Head.blank_new r r1 g1
  have hat : Req.At lim.maxUrl lim.maxHeaderLine lim.maxHeadersCount (decide (r.fin = .eof)) r.flat
      ⟨hd.f0, hd.f1, hd.f2, fs, []⟩ (line ++ [13, 10] ++ s) := by
    refine ⟨by rw [← g6]; exact k1, (announces_iff k2 _).mpr ?_⟩
    refine (C16_content_length _).2 ?_
    have : valuesOf w.fields b!"content-length" = [] := by
      simp only [announced] at hno
      exact List.head?_eq_none_iff.mp hno
    simp only [MultiMap.get, g5, lookupFields, this]
  cases h1 with
  | stop => simp
  | more _ s1 _ q qs t1 t2 =>
    obtain ⟨_, _, _, _, _, e1⟩ := at_unique hat t1
    cases t2 with
    | stop => simp
    | more _ s2 _ q2 qs t3 t4 =>
      exfalso
      rw [e1] at t3
      obtain ⟨hd', r', u1, _⟩ := C129_accepts lim Head.new Head.blank_new
        (Reader.ofBytes (line ++ [13, 10] ++ s) r.fin) _ _ _ _ _ (by rw [Reader.flat_ofBytes]; exact t3.1)
      refine (C132_hopeless_violated lim (line ++ [13]) ?_ (by simpa using hlen) ⟨13, by simp, by decide⟩).2 Head.new Head.blank_new
        (10 :: s) _ ?_ _ u1
      · simp only [List.mem_append, not_or]; exact ⟨hsp, by decide⟩
      · rw [Reader.flat_ofBytes]; simp

/-- Non-trivial case: a chunked request without extensions, and a body that looks like a request. -/
example : (serve noCodec sampleLimits (fun _ => helloEnv)
    (Reader.ofBytes b!"POST / HTTP/1.1\r\nTransfer-Encoding: chunked\r\n\r\n12\r\nGET / HTTP/1.1\r\n\r\n\r\n0\r\n\r\n" .silent)).1.length = 1 := by
  decide +kernel

/-! ## C43 and C102: what does hold -/

/-- **C43**, what holds: a request without a Sec-WebSocket-Key, or whose first one is empty, is not upgraded, and the response message is
left as it was. -/
theorem C43_no_key_partial {K : Type} (sha1 base64 : Bytes → Bytes) (lim : HttpLimits) (q : WireReq) (req resp : Message K)
    (hd : Delivered lim q req.head)
    (hv : valuesOf q.head.fields b!"sec-websocket-key" = [] ∨ ∃ vs, valuesOf q.head.fields b!"sec-websocket-key" = [] :: vs) :
    (wsUpgrade sha1 base64 req resp).2 = false ∧ (wsUpgrade sha1 base64 req resp).1 = resp := by
  have h := C42_upgrade sha1 base64 req resp
  have hf : (wsUpgrade sha1 base64 req resp).2 = false := by
    rw [← Bool.not_eq_true, h.1]
    rintro ⟨key, vs, hk, hg⟩
    rw [hd.headers, lookupFields] at hg
    rcases hv with hv | ⟨vs', hv⟩
    · rw [hv] at hg; cases hg
    · rw [hv] at hg; cases hg; exact hk rfl
  exact ⟨hf, h.2.1 hf⟩

/-- **C102**, what holds: a header line with a white-space character other than the space - a tab, say, before its colon or at its start -
makes the whole request fail, wherever it stands. -/
theorem C102_tab_refused_partial (lim : HttpLimits) (w : WireHead) (hst : w.StartWF lim.maxUrl) (fs : List Field)
    (hfs : ∀ f ∈ fs, f.WF lim.maxHeaderLine) (hmx : 1 ≤ lim.maxHeadersCount) (a name b v : Bytes) (t : Byte)
    (ht : t = 9 ∨ t = 11 ∨ t = 12 ∨ t = 13) (hpos : t ∈ a ∨ t ∈ b) (hl : 10 ∉ a ++ name ++ b ++ 58 :: v)
    (hlen : (a ++ name ++ b ++ 58 :: v).length + 2 ≤ lim.maxHeaderLine)
    (hd : Head) (hb : hd.Blank) (r : Reader) (s : Bytes)
    (hr : r.flat = w.start ++ (fs.map Field.line).flatten ++ (a ++ name ++ b ++ 58 :: v) ++ [13, 10] ++ s) :
    readHead lim hd r = .error .badDatagram := by
  refine C12_bad_line_refused_partial lim w hst fs hfs hmx _ hl (Or.inl ⟨t, ?_, ?_⟩) hlen hd hb r s hr
  · rcases hpos with h | h <;> simp [h]
  · rcases ht with rfl | rfl | rfl | rfl <;> decide

/-- Non-trivial case. -/
example : (serve noCodec sampleLimits (fun _ => helloEnv) (Reader.ofBytes b!"GET / HTTP/1.1\r\nX\t: a\r\n\r\n" .eof)).1.length = 0 := by
  decide +kernel

/-! ## C32 and C34: what does hold -/

/-- **C32**, what holds, whatever the client sends: every response of a file-system service is complete and delimited: a first
line, a Content-Length that is right, and nothing after the head. -/
theorem C32_delimited_partial {K : Type} (c : Codec K) (lim : HttpLimits) (env : Nat → Env K)
    (he : ∀ j, (env j).http = fsHttp ∧ (env j).write = .ok) (r : Reader) (ex : Exchange K) (h : ex ∈ (serve c lim env r).1) :
    splitHead ex.written = some ([b!"  ", b!"content-length: 0"], []) := by
  obtain ⟨f, _, ht⟩ := C130_fs_whole c lim env he r
  have key : ∀ (j : Nat) (s : Bytes) (outs : List Bytes) (f : Fate),
      Talk lim.maxUrl lim.maxHeaderLine lim.maxHeadersCount (afterOf r.fin) (fun _ _ => fsText) (fun _ => False) j s outs f →
      ∀ o ∈ outs, o = fsText := by
    intro j s outs f h
    induction h with
    | refused => simp
    | waits => simp
    | badLength => simp
    | short => simp
    | final _ _ _ _ _ _ _ _ _ _ h => exact h.elim
    | next _ _ _ _ _ _ _ _ _ _ _ _ _ _ ih => intro o ho; rcases List.mem_cons.mp ho with h | h; exact h; exact ih o h
  rw [key _ _ _ _ ht ex.written (List.mem_map_of_mem h)]
  decide +kernel

/-- **C34**, what holds: the flag does tell encrypted connections from others (it is the wrong way round for all of them). -/
theorem C34_tells_apart_partial {C : Type} (x : TlsEnv C) (cert key : Str) (timeout : Nat) (kind : ServiceKind) (bindOk initOk : Bool)
    (es : List AcceptEvent) (cert' key' : Str) (timeout' : Nat) (kind' : ServiceKind) (bindOk' initOk' : Bool) (es' : List AcceptEvent)
    (s s' : Served) (h : s ∈ (runService x cert key timeout kind bindOk initOk es).1)
    (h' : s' ∈ (runService x cert' key' timeout' kind' bindOk' initOk' es').1) :
    s.overTls = s'.overTls ↔ s.encrypted = s'.encrypted := by
  rw [C34_over_tls_violated x cert key timeout kind bindOk initOk es s h,
    C34_over_tls_violated x cert' key' timeout' kind' bindOk' initOk' es' s' h']
  cases s.encrypted <;> cases s'.encrypted <;> simp

end Httpd
