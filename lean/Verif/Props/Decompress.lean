import Verif.Props.Codec
import Verif.Props.BodyText
/-!
# Reading compressed bodies (C191, C192)

`read_const_length_body_decompression` and `read_chunked_body_decompression` (src/message.rs:300-307, 318-325) are the readers of
src/message.rs:157-245 with `write_compression` in the place of `write_raw`. (No service uses them at this commit.)
-/

namespace Httpd
open Spec MultiMap

/-- Two results of reading a body, once into the buffer that held `x` and once into the decoder `k`: the same code and the same
stream, and the decoder has got, in some pieces, what was put into the buffer. -/
inductive SameBody {K : Type} (c : Codec K) (x : Bytes) (k : K) : BodyRes K → BodyRes K → Prop
  | done (ps : List Bytes) (cw : Option K) (r : Reader) :
      SameBody c x k (.done { internal := some (x ++ ps.flatten), cw := cw } r) (.done { internal := none, cw := some (fed c k ps) } r)
  | fail (e : ReadCode) : SameBody c x k (.fail e) (.fail e)
  | hang : SameBody c x k .hang .hang

theorem constLoop_same {K : Type} (c : Codec K) (cap fuel remain : Nat) (x : Bytes) (cw : Option K) (k0 : K) (ps : List Bytes) (r : Reader) :
    (constLoop Body.writeRaw cap fuel remain { internal := some (x ++ ps.flatten), cw := cw } r = none ∧
      constLoop (Body.writeCompression c) cap fuel remain { internal := none, cw := some (fed c k0 ps) } r = none) ∨
    ∃ a b, constLoop Body.writeRaw cap fuel remain { internal := some (x ++ ps.flatten), cw := cw } r = some a ∧
      constLoop (Body.writeCompression c) cap fuel remain { internal := none, cw := some (fed c k0 ps) } r = some b ∧
      SameBody c x k0 a b := by
  induction fuel generalizing remain ps r with
  | zero => exact Or.inl ⟨rfl, rfl⟩
  | succ fuel ih =>
    have hb : ∀ v, x ++ ps.flatten ++ v = x ++ (ps ++ [v]).flatten := by simp
    have hk : ∀ v, (c.append (fed c k0 ps) v).1 = fed c k0 (ps ++ [v]) := by simp [fed]
    simp only [constLoop]
    cases Reader.read (if remain < cap then remain else cap) r with
    | err s => exact Or.inr ⟨_, _, rfl, rfl, .fail _⟩
    | ok v r1 =>
      simp only [Body.writeRaw, Body.writeCompression, Body.write, hb, hk]
      by_cases hd : remain - v.length < 1
      · simp only [if_pos hd]
        exact Or.inr ⟨_, _, rfl, rfl, .done _ _ _⟩
      · simp only [if_neg hd]
        exact ih _ _ _

theorem readConst_same {K : Type} (c : Codec K) (cap n : Nat) (x : Bytes) (cw : Option K) (k : K) (r : Reader) :
    SameBody c x k (readConst Body.writeRaw cap n { internal := some x, cw := cw } r)
      (readConst (Body.writeCompression c) cap n { internal := none, cw := some k } r) := by
  simp only [readConst]
  split
  · simpa [fed] using SameBody.done (c := c) (x := x) (k := k) [] cw r
  · rcases constLoop_same c cap (r.flat.length + 1) n x cw k [] r with ⟨h1, h2⟩ | ⟨a, b, h1, h2, h3⟩
    · simp only [List.flatten_nil, List.append_nil, fed, List.foldl_nil] at h1 h2
      rw [h1, h2]; exact .hang
    · simp only [List.flatten_nil, List.append_nil, fed, List.foldl_nil] at h1 h2
      rw [h1, h2]; exact h3

theorem readChunked_same {K : Type} (c : Codec K) (cap maxBody : Nat) (x : Bytes) (cw : Option K) (k : K) (r : Reader) :
    SameBody c x k (readChunked Body.writeRaw cap maxBody { internal := some x, cw := cw } r)
      (readChunked (Body.writeCompression c) cap maxBody { internal := none, cw := some k } r) := by
  simp only [readChunked]
  cases r.readLine 128 with
  | err s => exact .fail _
  | ok line r1 =>
    simp only
    cases parseChunkSize line with
    | none => exact .fail _
    | some size =>
      simp only
      split
      · exact .fail _
      · have h := readConst_same c cap size x cw k r1
        generalize readConst Body.writeRaw cap size { internal := some x, cw := cw } r1 = a at h
        generalize readConst (Body.writeCompression c) cap size { internal := none, cw := some k } r1 = b at h
        cases h with
        | fail e => exact .fail e
        | hang => exact .hang
        | done ps cw' r2 =>
          simp only
          cases r2.readLine 2 with
          | err s => exact .fail _
          | ok l r3 => exact .done _ _ _

/-- **C191.** Whatever the stream, its segmentation, the capacity of the buffer, the limit, and whatever the decoder does or says: the reader
for announced lengths and the one for chunks, with decompression, return the same code as without (or wait, or go on for ever, on the
same streams), leave the same stream, and hand to the decoder, in order and in some pieces, exactly the bytes that the others put into the
body. -/
theorem C191_same_bytes {K : Type} (c : Codec K) (cap : Nat) (x : Bytes) (cw : Option K) (k : K) (r : Reader) :
    (∀ n, SameBody c x k (readConst Body.writeRaw cap n { internal := some x, cw := cw } r)
      (readConst (Body.writeCompression c) cap n { internal := none, cw := some k } r)) ∧
    ∀ maxBody, SameBody c x k (readChunked Body.writeRaw cap maxBody { internal := some x, cw := cw } r)
      (readChunked (Body.writeCompression c) cap maxBody { internal := none, cw := some k } r) :=
  ⟨fun n => readConst_same c cap n x cw k r, fun m => readChunked_same c cap m x cw k r⟩

/-- **C191**, with the grammar of C136: the chunk reader with decompression accepts exactly the bodies of that grammar. -/
theorem C191_chunks {K : Type} (c : Codec K) (cap maxBody : Nat) (hc : 1 ≤ cap) (k : K) (r : Reader) (rest : Bytes) :
    (∀ data, ChunkText maxBody (decide (r.fin = .eof)) r.flat data rest →
      ∃ ps r', ps.flatten = data ∧ r'.flat = rest ∧
        readChunked (Body.writeCompression c) cap maxBody { internal := none, cw := some k } r =
          .done { internal := none, cw := some (fed c k ps) } r') ∧
    ∀ b' r', readChunked (Body.writeCompression c) cap maxBody { internal := none, cw := some k } r = .done b' r' → r'.flat = rest →
      ∃ ps, ChunkText maxBody (decide (r.fin = .eof)) r.flat ps.flatten rest ∧ b' = { internal := none, cw := some (fed c k ps) } := by
  have h := readChunked_same c cap maxBody [] none k r
  constructor
  · intro data ht
    obtain ⟨r', h1, h2, _⟩ := C136_accepts cap maxBody hc ({ internal := some [], cw := none } : Body K) [] rfl r data rest ht
    rw [h1] at h
    generalize hz : readChunked (Body.writeCompression c) cap maxBody { internal := none, cw := some k } r = z at h
    generalize hy : BodyRes.done { ({ internal := some [], cw := none } : Body K) with internal := some ([] ++ data) } r' = y at h
    cases h with
    | fail e => simp at hy
    | hang => simp at hy
    | done ps cw r2 =>
      simp only [BodyRes.done.injEq, Body.mk.injEq, Option.some.injEq, List.nil_append] at hy
      obtain ⟨⟨rfl, _⟩, rfl⟩ := hy
      exact ⟨ps, r', rfl, h2, rfl⟩
  · intro b' r' hd hr'
    rw [hd] at h
    generalize hy : readChunked Body.writeRaw cap maxBody { internal := some [], cw := none } r = y at h
    generalize hz : BodyRes.done b' r' = z at h
    cases h with
    | fail e => simp at hz
    | hang => simp at hz
    | done ps cw r2 =>
      simp only [BodyRes.done.injEq] at hz
      obtain ⟨rfl, rfl⟩ := hz
      obtain ⟨data, e1, e2, _⟩ := C136_accepted cap maxBody hc ({ internal := some [], cw := none } : Body K) _ [] rfl r r' hy
      simp only [Body.mk.injEq, Option.some.injEq, List.nil_append] at e1
      obtain ⟨e1, _⟩ := e1
      rw [hr', ← e1] at e2
      exact ⟨ps, e2, rfl⟩

/-! ## C192 -/

/-- **C192**, negation for the code as written: the limit is one on what arrives. For every codec, whatever a compressed body of at most
`maxBody` bytes expands to is accepted, however long it is. -/
theorem C192_expands_violated {K : Type} (c : Codec K) (ct : CompressionType) (enc : Nat → List Bytes → Bytes) (law : Lawful c ct enc)
    (level : Nat) (hl : levelOk ct level) (ps : List Bytes) (cap maxBody : Nat) (hc : 1 ≤ cap) (r : Reader) (rest : Bytes)
    (ht : ChunkText maxBody (decide (r.fin = .eof)) r.flat (enc level ps) rest) (_hbig : maxBody < ps.flatten.length) :
    ∃ b b' r', (Body.new : Body K).decompression c ct = .ret b ∧ readChunked (Body.writeCompression c) cap maxBody b r = .done b' r' ∧
      r'.flat = rest ∧ b'.finish c = ({ internal := some ps.flatten, cw := none }, true) := by
  obtain ⟨qs, r', hq, hr, h⟩ := (C191_chunks c cap maxBody hc (c.decompressor ct []) r rest).1 _ ht
  refine ⟨_, _, r', rfl, h, hr, ?_⟩
  simp only [Body.finish, law.dec_expose level ps hl [] qs hq, List.nil_append]

/-- **C192**, negation for the code as written: a decoder that reports an error is not listened to. Whatever the codec - even one that
takes nothing at all, `c.append` always an error - the readers return `Ok` where they would with any other. -/
theorem C192_corrupt_violated {K : Type} (c : Codec K) (_hbad : ∀ k v, (c.append k v).2 = none) (ct : CompressionType) (cap : Nat)
    (hc : 1 ≤ cap) (r : Reader) :
    (∀ n, n ≤ r.flat.length → ∃ b b' r', (Body.new : Body K).decompression c ct = .ret b ∧
      readConst (Body.writeCompression c) cap n b r = .done b' r' ∧ r'.flat = r.flat.drop n) ∧
    ∀ maxBody data rest, ChunkText maxBody (decide (r.fin = .eof)) r.flat data rest →
      ∃ b b' r', (Body.new : Body K).decompression c ct = .ret b ∧
        readChunked (Body.writeCompression c) cap maxBody b r = .done b' r' ∧ r'.flat = rest := by
  refine ⟨fun n hn => ?_, fun maxBody data rest ht => ?_⟩
  · obtain ⟨ps, r', h1, _, h3, _⟩ := readConst_codec c cap n (c.decompressor ct []) r hc hn
    exact ⟨_, _, r', rfl, h1, h3⟩
  · obtain ⟨qs, r', _, hr, h⟩ := (C191_chunks c cap maxBody hc (c.decompressor ct []) r rest).1 _ ht
    exact ⟨_, _, r', rfl, h, hr⟩

/-- **C192**, what holds: no more than `maxBody` bytes get into the decoder by way of the chunk reader; and when the body is ended, it is
said whether the decoder gives up what it has: then the body holds exactly that, and otherwise the end is reported as failed. -/
theorem C192_received_partial {K : Type} (c : Codec K) (ct : CompressionType) (x : Bytes) (cap maxBody : Nat) (hc : 1 ≤ cap) (r r' : Reader)
    (b' : Body K) (h : readChunked (Body.writeCompression c) cap maxBody { internal := none, cw := some (c.decompressor ct x) } r = .done b' r') :
    ∃ ps : List Bytes, ps.flatten.length ≤ maxBody ∧
      (∀ z, c.expose (fed c (c.decompressor ct x) ps) = some z ↔ b'.finish c = ({ internal := some z, cw := none }, true)) ∧
      (c.expose (fed c (c.decompressor ct x) ps) = none ↔ (b'.finish c).2 = false) := by
  obtain ⟨ps, ht, rfl⟩ := (C191_chunks c cap maxBody hc (c.decompressor ct x) r r'.flat).2 b' r' h rfl
  refine ⟨ps, ?_, ?_, ?_⟩
  · generalize hf : r.flat = s at ht
    generalize hd : ps.flatten = d at ht
    cases ht with
    | mk line data tail rest h1 h2 h3 h4 h5 => exact h3
  · intro z
    simp only [Body.finish]
    cases c.expose (fed c (c.decompressor ct x) ps) <;> simp
  · simp only [Body.finish]
    cases c.expose (fed c (c.decompressor ct x) ps) <;> simp

/-- A decoder that takes nothing, and what becomes of a body of five bytes. -/
example : ∃ b b' r', (Body.new : Body Unit).decompression ⟨fun _ _ _ => (), fun _ _ => (), fun _ _ => ((), none), fun _ => none⟩ .deflate = .ret b ∧
    readConst (Body.writeCompression ⟨fun _ _ _ => (), fun _ _ => (), fun _ _ => ((), none), fun _ => none⟩) 64 5 b
      ⟨b!"hello", [], .silent⟩ = .done b' r' ∧ r'.flat = [] :=
  (C192_corrupt_violated ⟨fun _ _ _ => (), fun _ _ => (), fun _ _ => ((), none), fun _ => none⟩ (fun _ _ => rfl) .deflate 64 (by decide)
    ⟨b!"hello", [], .silent⟩).1 5 (by decide)

/-! A codec that makes much out of one byte: `n` zeros are the single byte 1, everything else is a 0 and itself. -/

/-- State: whether it decodes, the buffer it was given, what was written. -/
structure Bomb where
  dec : Bool
  buf : Bytes
  got : Bytes

def bombEnc (n : Nat) (s : Bytes) : Bytes := if s = List.replicate n 0 then [1] else 0 :: s

def bombDec (n : Nat) : Bytes → Option Bytes
  | [1] => some (List.replicate n 0)
  | 0 :: s => some s
  | _ => none

def bombCodec (n : Nat) : Codec Bomb where
  compressor _ _ b := ⟨false, b, []⟩
  decompressor _ b := ⟨true, b, []⟩
  append k v := ({ k with got := k.got ++ v }, some v.length)
  expose k := if k.dec then (bombDec n k.got).map (k.buf ++ ·) else some (k.buf ++ bombEnc n k.got)

theorem bomb_fed (n : Nat) (k : Bomb) (ps : List Bytes) : fed (bombCodec n) k ps = { k with got := k.got ++ ps.flatten } := by
  induction ps generalizing k with
  | nil => simp [fed]
  | cons p ps ih =>
    have := ih { k with got := k.got ++ p }
    simp only [fed, List.foldl_cons] at this ⊢
    rw [show ((bombCodec n).append k p).1 = { k with got := k.got ++ p } from rfl, this]
    simp

theorem bomb_lawful (n : Nat) (ct : CompressionType) : Lawful (bombCodec n) ct (fun _ ps => bombEnc n ps.flatten) where
  enc_accepts _ _ _ _ _ := rfl
  enc_expose _ _ buf ps := by rw [bomb_fed]; simp [bombCodec]
  dec_accepts _ _ _ := rfl
  dec_expose _ ps _ buf qs hq := by
    rw [bomb_fed]
    simp only [bombCodec, if_true, List.nil_append, hq, bombEnc]
    split
    · rename_i h; simp [bombDec, h]
    · simp [bombDec]

/-- One chunk of one byte, and a body limit of one byte: the body becomes `n` bytes long, whatever `n`. -/
example (n : Nat) (hn : 2 ≤ n) : ∃ b b' r', (Body.new : Body Bomb).decompression (bombCodec n) .gzip = .ret b ∧
    readChunked (Body.writeCompression (bombCodec n)) 64 1 b ⟨b!"1\r\n\x01\r\n", [], .silent⟩ = .done b' r' ∧
    r'.flat = [] ∧ b'.finish (bombCodec n) = ({ internal := some (List.replicate n 0), cw := none }, true) := by
  have hf : [List.replicate n (0 : Byte)].flatten = List.replicate n 0 := by simp
  have ht : ChunkText 1 (decide ((⟨b!"1\r\n\x01\r\n", [], .silent⟩ : Reader).fin = .eof)) (Reader.flat ⟨b!"1\r\n\x01\r\n", [], .silent⟩)
      (bombEnc n [List.replicate n 0].flatten) [] := by
    have he : bombEnc n [List.replicate n 0].flatten = [1] := by rw [hf, bombEnc, if_pos rfl]
    rw [he]
    exact .mk b!"1\r\n" [1] b!"\r\n" [] (.upTo b!"1\r" _ (by decide) (by decide))
      ⟨[49, 13, 10], [], b!"1", [13, 10], rfl, rfl, by simp, by decide,
        ⟨b!"1", Or.inl rfl, by simp, by simp [IsDigit], by decide⟩, by decide⟩ (by decide) (.upTo b!"\r" _ (by decide) (by decide)) (by decide)
  have h := C192_expands_violated (bombCodec n) .gzip _ (bomb_lawful n .gzip) 1 (Or.inr (by decide)) [List.replicate n 0]
    64 1 (by decide) _ [] ht (by rw [hf, List.length_replicate]; omega)
  rw [hf] at h
  exact h

end Httpd
