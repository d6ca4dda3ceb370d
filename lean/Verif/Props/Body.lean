import Verif.Props.Serve
import Verif.Spec.Chunked
/-! # C14–C21: reading a body -/

namespace Httpd
open Spec MultiMap

/-! ## C14 -/

/-- **C14.** When `n` bytes `data` are available, in any segmentation and for any capacity of the connection's buffer, the body
reader appends exactly them and leaves the stream right after them. -/
theorem C14_exact_body {K : Type} (cap : Nat) (hc : 1 ≤ cap) (b : Body K) (x : Bytes) (hb : b.internal = some x) (r : Reader)
    (n : Nat) (data s : Bytes) (hn : data.length = n) (hr : r.flat = data ++ s) :
    ∃ r', readConst Body.writeRaw cap n b r = .done { b with internal := some (x ++ data) } r' ∧ r'.flat = s ∧ r'.fin = r.fin := by
  rcases readConst_raw cap n b x r hc hb with ⟨g1, q', g2, g3, g4⟩ | ⟨g1, _⟩ | ⟨g1, _⟩
  · refine ⟨q', ?_, ?_, g4⟩
    · rw [g2, hr, List.take_left' hn]
    · rw [g3, hr, List.drop_left' hn]
  · rw [hr, List.length_append] at g1; omega
  · rw [hr, List.length_append] at g1; omega

/-- Non-trivial case: seven bytes in three segments through a buffer of two bytes, with bytes left over. -/
example : (match readConst Body.writeRaw 2 7 (Body.new : Body Unit)
      { buf := b!"abc", segs := [⟨100, b!""⟩, ⟨101, b!"fghi"⟩], fin := .eof } with
    | .done b r => some (b.internal, r.flat) | _ => none) = some (some b!"abcdefg", b!"hi") := by decide +kernel

/-! ## C15 -/

/-- **C15 is violated**: when the client closes before the announced body has arrived, the body loop of `serve` spins for
ever - it has not ended after any number of iterations. -/
theorem C15_closed_early_violated {K : Type} (cap : Nat) (hc : 1 ≤ cap) (b : Body K) (x : Bytes) (hb : b.internal = some x)
    (r : Reader) (n : Nat) (hlt : r.flat.length < n) (hfin : r.fin = .eof) :
    ∀ fuel, constLoop Body.writeRaw cap fuel n b r = none :=
  fun fuel => constLoop_hang cap fuel n b x r hc hb hlt hfin

/-- **C15 (partial).** A request whose announced body does not arrive completely is never delivered: if the stream fails the
connection ends with a read error; if the client closes, the task never finishes (and the connection is never closed). At any
position of a connection, for every service. Missing: that the connection is closed when the client closes. -/
theorem C15_short_body_partial {K : Type} (c : Codec K) (lim : HttpLimits) (env : Nat → Env K) (fuel i : Nat)
    (w : WireHead) (hw : w.WF lim.maxUrl lim.maxHeaderLine lim.maxHeadersCount) (v : Bytes) (n : Nat)
    (hv : announced w.fields = some v) (hn : Numeral v n) (h64 : n < 2 ^ 64)
    (req resp : Message K) (hb : req.head.Blank) (hp : req.body.Plain) (r : Reader) (part : Bytes)
    (hr : r.flat = w.encode ++ part) (hlt : part.length < n) :
    serveLoop c lim env (fuel + 1) i req resp r =
      ([], match r.fin with | .err => .bodyFail .connReadError | .silent => .waiting | .eof => .hang) := by
  obtain ⟨hd, r1, h1, f0, f1, f2, hh, h2, h3⟩ := C02_wellformed_head lim w hw req.head hb r part hr
  have hcl : getContentLength hd.headers = some n := by
    rw [getContentLength_of_fields hh, hv]
    simp only
    rw [parseUInt_iff]; exact ⟨hn, by simp only [u64Max]; omega⟩
  obtain ⟨x, hx⟩ := Option.isSome_iff_exists.mp hp.1
  simp only [serveLoop, h1, readConstLengthBody, hcl]
  rcases readConst_raw (env i).cap n req.body x r1 (env i).cap_pos hx with ⟨g1, _⟩ | ⟨g1, g2, g3⟩ | ⟨g1, g2, g3⟩
  · rw [h2] at g1; omega
  · rw [g3, ← h3]; cases hf : r1.fin <;> first | rfl | exact absurd hf g2
  · rw [g3, ← h3, g2]

/-- Non-trivial case: `Content-Length: 4` and three bytes. -/
example : (serve noCodec sampleLimits (fun _ => sampleEnv) (Reader.ofBytes (sampleReq.head.encode ++ b!"bod") .eof)).2 = .hang := by
  decide +kernel

/-! ## C16 -/

/-- **C16.** The announced length: with a Content-Length header (the first value counts), it is `n` exactly when the value is
a decimal numeral of value `n`, possibly with a plus sign, and `n` fits the machine word; without the header it is 0. -/
theorem C16_content_length (hs : MultiMap) :
    (∀ v n, hs.get b!"content-length" = some v → (getContentLength hs = some n ↔ Numeral v n ∧ n < 2 ^ 64)) ∧
    (hs.get b!"content-length" = none → getContentLength hs = some 0) := by
  constructor
  · intro v n h
    simp only [getContentLength, h]
    rw [parseUInt_iff]
    simp only [u64Max]
    constructor
    · rintro ⟨a, b⟩; exact ⟨a, by omega⟩
    · rintro ⟨a, b⟩; exact ⟨a, by omega⟩
  · intro h; simp [getContentLength, h]

/-- **C16 (refusal).** A request whose Content-Length is anything else is refused: the service does not see it and nothing is
written for it, at any position of the connection. -/
theorem C16_bad_length_refused {K : Type} (c : Codec K) (lim : HttpLimits) (env : Nat → Env K) (fuel i : Nat)
    (req resp : Message K) (r r1 : Reader) (hd : Head) (h1 : readHead lim req.head r = .ok (hd, r1)) (v : Bytes)
    (hv : hd.headers.get b!"content-length" = some v) (hbad : ∀ n, Numeral v n → 2 ^ 64 ≤ n) :
    serveLoop c lim env (fuel + 1) i req resp r = ([], .bodyFail .badContentLength) := by
  have : getContentLength hd.headers = none := by
    simp only [getContentLength, hv]
    rw [parseUInt_none]
    intro n hn
    have := hbad n hn
    simp only [u64Max]; omega
  simp only [serveLoop, h1, readConstLengthBody, this, bodyEnding]

/-- Which texts are numerals: a numeral has a digit, and only digits after an optional plus sign. -/
theorem numeral_chars {v : Bytes} {n : Nat} (h : Numeral v n) : v ≠ [] ∧ v ≠ [43] ∧ ∀ b ∈ v.tail, IsDigit b := by
  obtain ⟨ds, h1, h2, h3, _⟩ := h
  obtain ⟨d, ds, rfl⟩ := List.exists_cons_of_ne_nil h2
  rcases h1 with rfl | rfl
  · exact ⟨by simp, by rintro h; cases h; exact absurd (h3 43 (by simp)) (by decide), fun b hb => h3 b (by simpa using Or.inr hb)⟩
  · exact ⟨by simp, by simp, fun b hb => h3 b (by simpa using hb)⟩

/-- Non-trivial cases: a value with a sign, one too large, one with two numbers. -/
example : parseUInt u64Max b!"+0012" = some 12 ∧ parseUInt u64Max b!"18446744073709551616" = none ∧
    parseUInt u64Max b!"5, 5" = none ∧ parseUInt u64Max b!"-1" = none ∧ parseUInt u64Max b!"0x10" = none := by decide +kernel

/-! ## C17 -/

/-- **C17 is violated**: a request with two Content-Length headers (of any two values) is delivered; the first one counts and
the rest of the bytes is taken as the next request. For every service. -/
theorem C17_conflicting_violated {K : Type} (c : Codec K) (lim : HttpLimits) (env : Nat → Env K) (q : WireReq) (m : Nat)
    (hfs : q.head.fields = [⟨b!"Content-Length", natToBytes q.body.length, 1, 0⟩, ⟨b!"Content-Length", natToBytes m, 1, 0⟩])
    (hw : q.head.WF lim.maxUrl lim.maxHeaderLine lim.maxHeadersCount) (h64 : q.body.length < 2 ^ 64)
    (r : Reader) (s : Bytes) (hr : r.flat = q.head.encode ++ q.body ++ s) :
    ∃ ex rest e, serve c lim env r = (ex :: rest, e) ∧ ex.req.body.internal = some q.body ∧
      ex.req.head.headers.getall b!"content-length" = some [natToBytes q.body.length, natToBytes m] := by
  have hn : lower b!"Content-Length" = b!"content-length" := by decide
  have hvals : valuesOf q.head.fields b!"content-length" = [natToBytes q.body.length, natToBytes m] := by
    simp only [hfs, valuesOf, List.filter_cons, hn]; simp
  have hq : q.WF lim.maxUrl lim.maxHeaderLine lim.maxHeadersCount := by
    refine ⟨hw, h64, ?_⟩
    simp only [announced, hvals, List.head?_cons]
    exact natToBytes_numeral _
  obtain ⟨ex, rest, e, h1, h2, h3⟩ := serveLoop_delivers_request c lim env r.flat.length 0 q hq Message.new Message.new []
    Head.blank_new Body.plain_new rfl r s (by rw [hr]; simp [WireReq.encode])
  refine ⟨ex, rest, e, h1, h3, ?_⟩
  rw [h2.headers, lookupFields, hvals]

/-- Non-trivial case: lengths 3 and 0. -/
example : (serve noCodec sampleLimits (fun _ => sampleEnv)
    (Reader.ofBytes b!"POST / HTTP/1.1\r\nContent-Length: 3\r\nContent-Length: 0\r\n\r\nabc" .eof)).1.map
      (fun e => e.req.body.internal) = [some b!"abc"] := by decide +kernel

/-! ## C18 -/

/-- **C18 is violated**: `serve` does not look at `max_body_size`; every well-formed request is delivered with its body, however
large. -/
theorem C18_body_limit_violated {K : Type} (c : Codec K) (lim : HttpLimits) (env : Nat → Env K) (q : WireReq)
    (hq : q.WF lim.maxUrl lim.maxHeaderLine lim.maxHeadersCount) (_hbig : lim.maxBody < q.body.length)
    (r : Reader) (s : Bytes) (hr : r.flat = q.encode ++ s) :
    ∃ ex rest e, serve c lim env r = (ex :: rest, e) ∧ ex.req.body.internal = some q.body ∧
      lim.maxBody < ex.req.body.size := by
  obtain ⟨ex, rest, e, h1, h2, h3⟩ := serveLoop_delivers_request c lim env r.flat.length 0 q hq Message.new Message.new []
    Head.blank_new Body.plain_new rfl r s hr
  exact ⟨ex, rest, e, h1, h3, by simp only [Body.size, h3]; simpa using _hbig⟩

/-- Non-trivial case: a limit of 3 bytes and a body of 4. -/
example : sampleReq.WF 8192 6144 128 ∧ ({ sampleLimits with maxBody := 3 } : HttpLimits).maxBody < sampleReq.body.length :=
  ⟨sampleReq_wf, by decide⟩

end Httpd
