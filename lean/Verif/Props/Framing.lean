import Verif.Spec.Framing
import Verif.Props.Limited
import Verif.Props.Run
/-!
# Where a body ends: lengths that are not digits (C182), length and chunks together (C183), two readers (C184), recognising chunks (C185)
-/

namespace Httpd
open Spec MultiMap

theorem numeral_unique {v : Bytes} {n m : Nat} (h : Numeral v n) (h' : Numeral v m) : n = m := by
  obtain ⟨ds, h1, _, h3, h4⟩ := h
  obtain ⟨ds', h1', _, h3', h4'⟩ := h'
  rcases h1 with rfl | rfl <;> rcases h1' with e | e
  · rw [← h4, ← h4', e]
  · exact absurd (h3 43 (by rw [e]; simp)) (by decide)
  · exact absurd (h3' 43 (by rw [← e]; simp)) (by decide)
  · simp only [List.cons.injEq, true_and] at e
    rw [← h4, ← h4', e]

/-! ## C182 -/

/-- **C182 is violated**: a request whose Content-Length has a plus sign is delivered like any other, to every service; what follows the
body is read as the next request. -/
theorem C182_plus_violated {K : Type} (c : Codec K) (lim : HttpLimits) (env : Nat → Env K) (q : WireReq)
    (hw : q.head.WF lim.maxUrl lim.maxHeaderLine lim.maxHeadersCount) (h64 : q.body.length < 2 ^ 64)
    (ha : announced q.head.fields = some (43 :: natToBytes q.body.length)) (r : Reader) (s : Bytes) (hr : r.flat = q.encode ++ s) :
    ¬ LengthText (43 :: natToBytes q.body.length) ∧
    ∃ ex rest e, serve c lim env r = (ex :: rest, e) ∧ ex.req.body.internal = some q.body ∧
      ex.req.head.headers.get b!"content-length" = some (43 :: natToBytes q.body.length) := by
  refine ⟨fun h => absurd (h.2 43 (by simp)) (by decide), ?_⟩
  obtain ⟨ds, hds, h1, h2, h3⟩ := natToBytes_numeral q.body.length
  have hnum : Numeral (43 :: natToBytes q.body.length) q.body.length := by
    rcases hds with e | e
    · exact ⟨ds, Or.inr (by rw [e]), h1, h2, h3⟩
    · exact absurd (natToBytes_digits q.body.length 43 (by rw [e]; simp)) (by decide)
  obtain ⟨ex, rest, e, g1, g2, g3⟩ := serveLoop_delivers_request c lim env r.flat.length 0 q
    ⟨hw, h64, by rw [ha]; exact hnum⟩ Message.new Message.new []
    Head.blank_new Body.plain_new rfl r s hr
  refine ⟨ex, rest, e, g1, by simpa using g3, ?_⟩
  have := g2.headers b!"content-length"
  simp only [MultiMap.get, this]
  simp only [announced] at ha
  simp only [lookupFields]
  cases hv : valuesOf q.head.fields b!"content-length" with
  | nil => rw [hv] at ha; cases ha
  | cons v vs => rw [hv] at ha; simpa using ha

/-- **C182**, what holds, for every service and every input: nothing else than a plus sign gets past: the first Content-Length of a
delivered request is a string of digits, or a plus sign and a string of digits. -/
theorem C182_digits_partial {K : Type} (c : Codec K) (lim : HttpLimits) (env : Nat → Env K) (r : Reader) (ex : Exchange K)
    (h : ex ∈ (serve c lim env r).1) (v : Bytes) (vs : List Bytes)
    (hv : ex.req.head.headers.getall b!"content-length" = some (v :: vs)) :
    LengthText v ∨ ∃ ds, v = 43 :: ds ∧ LengthText ds := by
  obtain ⟨body, ⟨ds, h1, h2, h3, _⟩, _⟩ := C17_first_decides_partial c lim env r ex h v vs hv
  rcases h1 with rfl | rfl
  · exact Or.inl ⟨h2, h3⟩
  · exact Or.inr ⟨ds, rfl, h2, h3⟩

/-- Non-trivial case: `Content-Length: +3`. -/
example : (serve noCodec sampleLimits (fun _ => sampleEnv)
    (Reader.ofBytes b!"POST / HTTP/1.1\r\nContent-Length: +3\r\n\r\nabc" .eof)).1.map (fun e => e.req.body.internal) = [some b!"abc"] := by
  decide +kernel

/-! ## C183 -/

/-- **C183 is violated**: request smuggling with both headers. The client sends one request, in chunks as its Transfer-Encoding says; its
Content-Length covers the line with the size of the first chunk. The chunk contains any request `q`, which a service that keeps
the connection open sees as a request of its own. -/
theorem C183_smuggling_violated {K : Type} (c : Codec K) (lim : HttpLimits) (env : Nat → Env K)
    (hk : ∀ j, j < 2 → KeepsOpen c (env j)) (w : WireHead)
    (hw : w.WF lim.maxUrl lim.maxHeaderLine lim.maxHeadersCount)
    (_hte : valuesOf w.fields b!"transfer-encoding" = [b!"chunked"])
    (q : WireReq) (hq : q.WF lim.maxUrl lim.maxHeaderLine lim.maxHeadersCount) (hsize : q.encode.length < 2 ^ 64)
    (ha : announced w.fields = some (natToBytes ((hex q.encode.length).length + 2)))
    (r : Reader) (hr : r.flat = w.encode ++ encodeChunked [([], q.encode)]) :
    ∃ ex, (serve c lim env r).1[1]? = some ex ∧ ex.req.head.f0 = q.head.w0 ∧ ex.req.head.f1 = q.head.w1 ∧ ex.req.head.f2 = q.head.w2 ∧
      ∀ k, ex.req.head.headers.getall k = lookupFields q.head.fields k := by
  have hl := hex_length q.encode.length hsize
  have hlen : (hex q.encode.length ++ [13, 10]).length = (hex q.encode.length).length + 2 := by simp
  obtain ⟨exs, _, _, _, _, h1, _, h3, h4, _⟩ := serve_requests c lim env [⟨w, hex q.encode.length ++ [13, 10]⟩, q]
    (by
      intro x hx
      simp only [List.mem_cons, List.not_mem_nil, or_false] at hx
      rcases hx with rfl | rfl
      · refine ⟨hw, ?_, ?_⟩
        · simp only [hlen]; omega
        · simp only [ha, hlen]; exact natToBytes_numeral _
      · exact hq)
    (by simpa using hk) r (crlf ++ [48, 13, 10, 13, 10])
    (by
      rw [hr]
      simp [encodeChunked, encodeChunk, encodeAll, WireReq.encode, crlf])
  have hlt : 1 < exs.length := by rw [h3]; simp
  refine ⟨exs[1], ?_, ?_⟩
  · rw [h1, List.getElem?_append_left hlt]; simp
  · obtain ⟨⟨a, b, d, e⟩, _⟩ := h4 1 q exs[1] rfl (by simp)
    exact ⟨a, b, d, e⟩

/-- **C183**, what holds, for every service that keeps the connection open: Content-Length is what counts. Requests with both headers, sent
by a client that goes by Content-Length, are delivered one by one, each with its own head and a body of the length it announces. -/
theorem C183_length_counts_partial {K : Type} (c : Codec K) (lim : HttpLimits) (env : Nat → Env K) (qs : List WireReq)
    (hq : ∀ q ∈ qs, q.WF lim.maxUrl lim.maxHeaderLine lim.maxHeadersCount) (hk : ∀ j, j < qs.length → KeepsOpen c (env j))
    (hcl : ∀ q ∈ qs, announced q.head.fields ≠ none)
    (r : Reader) (hr : r.flat = encodeAll qs) (j : Nat) (q : WireReq) (ex : Exchange K) (hj : qs[j]? = some q)
    (hex : (serve c lim env r).1[j]? = some ex) :
    (serve c lim env r).1.length = qs.length ∧ ex.req.head.f0 = q.head.w0 ∧ ex.req.head.f1 = q.head.w1 ∧ ex.req.head.f2 = q.head.w2 ∧
      (∀ k, ex.req.head.headers.getall k = lookupFields q.head.fields k) ∧
      ∃ body, body.length = q.body.length ∧ ∀ y, ex.req.body.internal = some y → body <:+ y := by
  obtain ⟨h1, _, h3⟩ := C23_pipelined c lim env qs hq hk r hr
  obtain ⟨a, b, d, e, _⟩ := h3 j q ex hj hex
  refine ⟨h1, a, b, d, e, ?_⟩
  have hmem := List.mem_of_getElem? hj
  have hwf := hq q hmem
  have hann := hwf.announce
  have hne := hcl q hmem
  have hv := e b!"content-length"
  simp only [announced] at hann hne
  simp only [lookupFields] at hv
  cases hvs : valuesOf q.head.fields b!"content-length" with
  | nil => rw [hvs] at hne; exact absurd rfl hne
  | cons v vs =>
    rw [hvs] at hv hann
    obtain ⟨body, g1, _, g3⟩ := C17_first_decides_partial c lim env r ex (List.mem_of_getElem? hex) v vs hv
    exact ⟨body, numeral_unique g1 hann, g3⟩

/-- Non-trivial case: one chunked request with Content-Length 4, the chunk is `GET /admin`. -/
example : ((serve noCodec sampleLimits (fun _ => sampleEnv)
    (Reader.ofBytes (b!"POST / HTTP/1.1\r\nTransfer-Encoding: chunked\r\nContent-Length: 4\r\n\r\n" ++
      encodeChunked [([], b!"GET /admin HTTP/1.1\r\n\r\n")]) .eof)).1.map (fun e => e.req.head.f1)) = [b!"/", b!"/admin"] := by
  decide +kernel

/-! ## C184 -/

/-- **C184**, exactly when they agree: the reader that `serve` uses and the limited reader do the same on every stream if and only if
no Transfer-Encoding value has `chunked` in it and the announced length is within the limit. -/
theorem C184_agree_partial {K : Type} (cap maxBody : Nat) (hc : 1 ≤ cap) (hs : MultiMap) (fs : List (Bytes × Bytes))
    (hh : ∀ k, hs.getall k = valuesIn (collect fs) k) (b : Body K) (x : Bytes) (hb : b.internal = some x) :
    (∀ r, readBodyNormal cap maxBody hs b r = readConstLengthBody cap hs b r) ↔
      ¬ Chunky fs ∧ ∀ n, Announces fs (some n) → n ≤ maxBody := by
  constructor
  · intro h
    have hnch : ¬ Chunky fs := by
      intro hch
      obtain ⟨r', h1, h2⟩ := (C20_only_empty_partial cap maxBody hc b x hb [] (by simp)
        (Reader.ofBytes (encodeChunked []) .eof) [] (by simp [Reader.ofBytes, Reader.flat])).mpr rfl
      have e := h (Reader.ofBytes (encodeChunked []) .eof)
      unfold readBodyNormal at e
      rw [if_pos ((chunky_iff hh).mpr hch), h1] at e
      unfold readConstLengthBody at e
      split at e
      · next n _ =>
        rcases readConst_raw cap n b x (Reader.ofBytes (encodeChunked []) .eof) hc hb with ⟨g1, r2, g2, g3, _⟩ | ⟨_, _, g⟩ | ⟨_, _, g⟩
        · rw [g2] at e
          simp only [BodyRes.done.injEq, Body.mk.injEq, Option.some.injEq, List.append_cancel_left_eq, and_true] at e
          obtain ⟨e1, e2⟩ := e
          have hf : (Reader.ofBytes (encodeChunked []) .eof).flat = [48, 13, 10, 13, 10] := by decide
          rw [← e2, h2, hf] at g3
          rw [hf] at e1 g1
          have h5 := congrArg List.length g3
          have h6 := congrArg List.length e1
          simp only [chunkData, List.map_nil, List.flatten_nil, List.length_nil, List.length_take, List.length_drop, List.length_cons] at h5 h6
          omega
        · rw [g] at e; cases e
        · rw [g] at e; cases e
      · cases e
    refine ⟨hnch, fun n hn => ?_⟩
    · refine Nat.le_of_not_lt fun hlt => ?_
      have hcl := (announces_iff hh _).mp hn
      obtain ⟨r', h1, _⟩ := C14_exact_body cap hc b x hb (Reader.ofBytes (List.replicate n 0) .eof) n (List.replicate n 0) [] (by simp)
        (by simp [Reader.ofBytes, Reader.flat])
      have e := h (Reader.ofBytes (List.replicate n 0) .eof)
      unfold readConstLengthBody at e
      rw [hcl] at e
      simp only [h1] at e
      rcases (C170_accepted cap maxBody hc hs fs hh b x hb _ _ r'.flat).mp ⟨r', e, rfl, readBodyNormal_fin hc hb e⟩ with ⟨data, _, hbo⟩
      rcases bodyOf_cases hbo with ⟨hch, _⟩ | ⟨_, ha, hle, _⟩
      · exact hnch hch
      · have := announces_unique (fun _ => rfl) ha hn
        simp only [Option.some.injEq] at this
        omega
  · rintro ⟨h1, h2⟩ r
    unfold readBodyNormal readConstLengthBody
    rw [if_neg (fun h => h1 ((chunky_iff hh).mp h))]
    split
    · next n hn =>
      rw [if_neg (Nat.not_lt.mpr (h2 n ((announces_iff hh _).mpr hn)))]
    · rfl

/-- **C184 is violated**: a message in chunks without Content-Length has the body `d` for the limited reader and none for `serve`, which
leaves the chunks to be read as the next request. -/
theorem C184_disagree_violated {K : Type} (cap maxBody : Nat) (hc : 1 ≤ cap) (hs : MultiMap) (fs : List (Bytes × Bytes))
    (hh : ∀ k, hs.getall k = valuesIn (collect fs) k) (hch : Chunky fs) (hno : hs.getall b!"content-length" = none)
    (b : Body K) (x : Bytes) (hb : b.internal = some x) (d : Bytes) (cs : List (Bytes × Bytes)) (hd : d.length < 10)
    (hmax : d.length ≤ maxBody) (r : Reader) (s : Bytes) (hr : r.flat = encodeChunked (([], d) :: cs) ++ s) :
    (∃ r', readBodyNormal cap maxBody hs b r = .done { b with internal := some (x ++ d) } r' ∧ r'.flat = encodeChunked cs ++ s) ∧
    (∃ r', readConstLengthBody cap hs b r = .done b r' ∧ r'.flat = encodeChunked (([], d) :: cs) ++ s) := by
  constructor
  · obtain ⟨r', h1, h2, _⟩ := C20_first_chunk_only_violated cap maxBody hc b x hb d cs hd hmax r s hr
    refine ⟨r', ?_, h2⟩
    unfold readBodyNormal
    rw [if_pos ((chunky_iff hh).mpr hch), h1]
  · obtain ⟨r', h1, h2, _⟩ := C14_exact_body cap hc b x hb r 0 [] (encodeChunked (([], d) :: cs) ++ s) rfl (by rw [hr]; rfl)
    refine ⟨r', ?_, h2⟩
    have hg : hs.get b!"content-length" = none := by simp only [MultiMap.get, hno]
    unfold readConstLengthBody
    rw [(C16_content_length hs).2 hg]
    simp only [h1, List.append_nil]
    rw [← hb]

/-- Non-trivial case. -/
example : (let hs := MultiMap.new.append b!"transfer-encoding" b!"chunked"
    let r := Reader.ofBytes b!"3\r\nabc\r\n0\r\n\r\n" .eof
    ((match readBodyNormal 8 100 hs (Body.new : Body Unit) r with | .done b r => some (b.internal, r.flat) | _ => none),
     (match readConstLengthBody 8 hs (Body.new : Body Unit) r with | .done b r => some (b.internal, r.flat) | _ => none))) =
    (some (some b!"abc", b!"0\r\n\r\n"), some (some [], b!"3\r\nabc\r\n0\r\n\r\n")) := by decide +kernel

/-! ## C185 -/

/-- **C185 is violated**: `Chunked`, or any other spelling with a capital letter, is not recognised: the limited reader takes the message for
one without a body and leaves the chunks in the stream. -/
theorem C185_case_violated {K : Type} (cap maxBody : Nat) (hc : 1 ≤ cap) (hs : MultiMap) (w : Bytes) (hw : lower w = b!"chunked")
    (hne : w ≠ b!"chunked") (hte : hs.getall b!"transfer-encoding" = some [w]) (hno : hs.getall b!"content-length" = none)
    (b : Body K) (x : Bytes) (hb : b.internal = some x) (cs : List (Bytes × Bytes)) (r : Reader) (s : Bytes)
    (hr : r.flat = encodeChunked cs ++ s) :
    LastChunked [w] ∧ ∃ r', readBodyNormal cap maxBody hs b r = .done b r' ∧ r'.flat = encodeChunked cs ++ s := by
  refine ⟨⟨[], w, [], [], w, [], rfl, by simp, Or.inl rfl, by simp, hw⟩, ?_⟩
  have hlen : w.length = 7 := by
    have := congrArg List.length hw
    simpa [lower] using this
  have hcont : headerContains (hs.getall b!"transfer-encoding") b!"chunked" = false := by
    rw [Bool.eq_false_iff]
    intro h
    rw [headerContains_iff, hte] at h
    obtain ⟨vs, v, e, hv, p, q, hpq⟩ := h
    cases e
    simp only [List.mem_singleton] at hv
    subst hv
    have hl := congrArg List.length hpq
    simp only [List.length_append, List.length_cons, List.length_nil] at hl
    have hp : p = [] := List.length_eq_zero_iff.mp (by omega)
    have hq : q = [] := List.length_eq_zero_iff.mp (by omega)
    subst hp; subst hq
    exact hne (by simpa using hpq.symm)
  obtain ⟨r', h1, h2, _⟩ := C14_exact_body cap hc b x hb r 0 [] (encodeChunked cs ++ s) rfl (by rw [hr]; rfl)
  refine ⟨r', ?_, h2⟩
  have hg : hs.get b!"content-length" = none := by simp only [MultiMap.get, hno]
  unfold readBodyNormal
  rw [hcont, (C16_content_length hs).2 hg]
  simp only [Bool.false_eq_true, if_false, Nat.not_lt_zero, h1, List.append_nil]
  rw [← hb]

/-- **C185 is violated**: any value with these letters in it - `unchunked`, `chunked, gzip` - is taken for chunks, also where Content-Length
announces the bytes that follow: those `n` bytes are the body for `serve`, and not for the limited reader. -/
theorem C185_substring_violated {K : Type} (cap maxBody : Nat) (hc : 1 ≤ cap) (hs : MultiMap) (vs : List Bytes) (p q : Bytes)
    (hmem : p ++ b!"chunked" ++ q ∈ vs) (_hnot : ¬ LastChunked vs) (hte : hs.getall b!"transfer-encoding" = some vs)
    (b : Body K) (x : Bytes) (hb : b.internal = some x) (d : Bytes) (cs : List (Bytes × Bytes)) (hd : d.length < 10)
    (hmax : d.length ≤ maxBody) (r : Reader) (s : Bytes) (hr : r.flat = encodeChunked (([], d) :: cs) ++ s) (v : Bytes)
    (hcl : hs.get b!"content-length" = some v) (hv : Numeral v (encodeChunked (([], d) :: cs)).length)
    (h64 : (encodeChunked (([], d) :: cs)).length < 2 ^ 64) :
    (∃ r', readBodyNormal cap maxBody hs b r = .done { b with internal := some (x ++ d) } r' ∧ r'.flat = encodeChunked cs ++ s) ∧
    ∃ r', readConstLengthBody cap hs b r = .done { b with internal := some (x ++ encodeChunked (([], d) :: cs)) } r' ∧ r'.flat = s := by
  constructor
  · obtain ⟨r', h1, h2, _⟩ := C20_first_chunk_only_violated cap maxBody hc b x hb d cs hd hmax r s hr
    refine ⟨r', ?_, h2⟩
    unfold readBodyNormal
    rw [if_pos ((headerContains_iff _ _).mpr ⟨vs, _, hte, hmem, ⟨p, q, rfl⟩⟩), h1]
  · obtain ⟨r', h1, h2, _⟩ := C14_exact_body cap hc b x hb r _ (encodeChunked (([], d) :: cs)) s rfl hr
    refine ⟨r', ?_, h2⟩
    unfold readConstLengthBody
    rw [((C16_content_length hs).1 v _ hcl).mpr ⟨hv, h64⟩]
    exact h1

/-- **C185**, what holds: `chunked` in lower case is recognised as the last coding - the body is decoded as far as the reader decodes chunks at
all (C136) -; and where no value has these letters, in whatever case, the message is not in chunks and none are read: the body is what
Content-Length announces. -/
theorem C185_lower_partial {K : Type} (cap maxBody : Nat) (hc : 1 ≤ cap) (hs : MultiMap) (b : Body K) (x : Bytes) (hb : b.internal = some x)
    (r : Reader) (vs : List Bytes) (hte : hs.getall b!"transfer-encoding" = some vs) :
    (∀ init front p q data rest, vs = init ++ [front ++ p ++ b!"chunked" ++ q] →
      ChunkText maxBody (decide (r.fin = .eof)) r.flat data rest →
      ∃ r', readBodyNormal cap maxBody hs b r = .done { b with internal := some (x ++ data) } r' ∧ r'.flat = rest) ∧
    ((∀ v ∈ vs, ¬ b!"chunked" <:+: lower v) → ¬ LastChunked vs ∧
      ∀ v data rest, hs.get b!"content-length" = some v → Numeral v data.length → data.length < 2 ^ 64 → data.length ≤ maxBody →
        r.flat = data ++ rest →
        ∃ r', readBodyNormal cap maxBody hs b r = .done { b with internal := some (x ++ data) } r' ∧ r'.flat = rest) := by
  constructor
  · rintro init front p q data rest rfl hct
    obtain ⟨r', h1, h2, _⟩ := C136_accepts cap maxBody hc b x hb r data rest hct
    refine ⟨r', ?_, h2⟩
    unfold readBodyNormal
    rw [if_pos ((headerContains_iff _ _).mpr ⟨_, _, hte, by simp, ⟨front ++ p, q, rfl⟩⟩), h1]
  · intro hno
    constructor
    · rintro ⟨init, v, front, p, w, q, rfl, rfl, _, _, hw⟩
      refine hno _ (List.mem_append_right _ (List.mem_singleton_self _)) ⟨lower (front ++ p), lower q, ?_⟩
      simp only [← hw, lower, List.map_append]
    · intro v data rest hcl hv h64 hmax hr
      obtain ⟨r', h1, h2, _⟩ := C14_exact_body cap hc b x hb r _ data rest rfl hr
      refine ⟨r', ?_, h2⟩
      have hcont : ¬ headerContains (hs.getall b!"transfer-encoding") b!"chunked" = true := by
        rw [headerContains_iff, hte]
        rintro ⟨vs', v', e, hv', p, q, hpq⟩
        cases e
        refine hno v' hv' ⟨lower p, lower q, ?_⟩
        rw [← hpq]
        simp only [lower, List.map_append]
        rfl
      unfold readBodyNormal
      rw [if_neg hcont, ((C16_content_length hs).1 v _ hcl).mpr ⟨hv, h64⟩]
      simp only [if_neg (Nat.not_lt.mpr hmax), h1]

/-- Non-trivial cases: `Chunked` is not recognised, `unchunked` is. -/
example : (let r := Reader.ofBytes b!"3\r\nabc\r\n0\r\n\r\n" .eof
    [b!"Chunked", b!"unchunked", b!"chunked, gzip"].map fun te =>
      match readBodyNormal 8 100 (MultiMap.new.append b!"transfer-encoding" te) (Body.new : Body Unit) r with
      | .done b _ => b.internal | _ => none) = [some [], some b!"abc", some b!"abc"] := by decide +kernel
/-- If a single value does not end in white space, its last coding is its last seven bytes, after a comma and white space. -/
theorem lastChunked_end {u : Bytes} {z : Byte} (hz : z ≠ 32 ∧ z ≠ 9) (h : LastChunked [u ++ [z]]) :
    ∃ front a w, u ++ [z] = front ++ a ++ w ∧ (front = [] ∨ ∃ f, front = f ++ [44]) ∧ (∀ x ∈ a, x = 32 ∨ x = 9) ∧ lower w = b!"chunked" := by
  obtain ⟨init, v, front, a, w, q, h1, h2, h3, h4, h5⟩ := h
  have hv : u ++ [z] = v := by
    cases init with
    | nil => simpa using h1
    | cons i is => have := congrArg List.length h1; simp at this
  rcases List.eq_nil_or_concat q with rfl | ⟨q', y, rfl⟩
  · exact ⟨front, a, w, by rw [hv, h2, List.append_nil], h3, fun x hx => h4 x (by simp [hx]), h5⟩
  · rw [h2, List.concat_eq_append, ← List.append_assoc] at hv
    have := (List.append_inj' hv rfl).2
    simp only [List.cons.injEq, and_true] at this
    subst this
    rcases h4 z (by simp) with e | e
    · exact absurd e hz.1
    · exact absurd e hz.2

example : ¬ LastChunked [b!"unchunked"] ∧ ¬ LastChunked [b!"chunked, gzip"] ∧ LastChunked [b!"gzip", b!"br,\tCHUNKED "] := by
  refine ⟨?_, ?_, [b!"gzip"], _, b!"br,", [9], b!"CHUNKED", [32], rfl, by decide, Or.inr ⟨b!"br", by decide⟩, by decide, by decide⟩
  · intro h
    obtain ⟨front, a, w, h1, h2, h3, h4⟩ := lastChunked_end (u := b!"unchunke") (z := 100) (by decide) h
    rcases h2 with rfl | ⟨f, rfl⟩
    · cases a with
      | nil =>
        have := congrArg List.length h4
        have h5 := congrArg List.length h1
        simp only [lower, List.length_map, List.length_append, List.length_cons, List.length_nil] at this h5
        omega
      | cons y a =>
        have hy := h3 y (by simp)
        have : y = 117 := by
          have := congrArg List.head? h1
          simpa using this.symm
        rw [this] at hy
        exact absurd hy (by decide)
    · have : (44 : Byte) ∈ b!"unchunke" ++ [100] := by rw [h1]; simp
      exact absurd this (by decide)
  · intro h
    obtain ⟨front, a, w, h1, h2, h3, h4⟩ := lastChunked_end (u := b!"chunked, gzi") (z := 112) (by decide) h
    have h7 : w.length = 7 := by
      have := congrArg List.length h4
      simpa [lower] using this
    have h8 : b!"chunke" ++ b!"d, gzip" = (front ++ a) ++ w := h1
    have := (List.append_inj' h8 (by rw [h7]; rfl)).2
    rw [← this] at h4
    exact absurd h4 (by decide)

end Httpd
