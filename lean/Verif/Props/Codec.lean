import Verif.Spec.Codec
import Verif.Lemmas.Serve
/-! # C44–C47, C80: message bodies and codecs -/

namespace Httpd
open Spec

/-! ## Writing pieces -/

/-- A sequence of `Write::write` calls: the body afterwards and what each call returned; `none` if one panics. -/
def Body.writes {K : Type} (c : Codec K) (b : Body K) : List Bytes → Option (Body K × List (Option Nat))
  | [] => some (b, [])
  | p :: ps =>
    match b.write c p with
    | .panic => none
    | .ret (b', n) => (b'.writes c ps).map (fun x => (x.1, n :: x.2))

theorem fed_snoc {K : Type} (c : Codec K) (k : K) (ps : List Bytes) (p : Bytes) :
    fed c k (ps ++ [p]) = (c.append (fed c k ps) p).1 := by simp [fed]

theorem fed_append {K : Type} (c : Codec K) (k : K) (ps qs : List Bytes) : fed c k (ps ++ qs) = fed c (fed c k ps) qs := by
  simp [fed]

theorem writes_codec {K : Type} (c : Codec K) (k : K) (ps : List Bytes) :
    ∀ done, (∀ ps p, (c.append (fed c k ps) p).2 = some p.length) →
    Body.writes c { internal := none, cw := some (fed c k done) } ps =
      some ({ internal := none, cw := some (fed c k (done ++ ps)) }, ps.map (fun p => some p.length)) := by
  induction ps with
  | nil => intro done _; simp [Body.writes]
  | cons p ps ih =>
    intro done h
    have hw : ({ internal := none, cw := some (fed c k done) } : Body K).write c p =
        .ret ({ internal := none, cw := some (fed c k (done ++ [p])) }, some p.length) := by
      simp only [Body.write, fed_snoc]
      rw [← h done p]
    simp only [Body.writes, hw, ih (done ++ [p]) h, Option.map_some, List.map_cons, List.append_assoc, List.singleton_append]

/-! ## Reading a body into a codec -/

/-- The loop of the body reader on a body in a codec: all the bytes are handed over, in some cut. -/
theorem constLoop_codec {K : Type} (c : Codec K) (cap fuel remain : Nat) (k : K) (r : Reader) (hcap : 1 ≤ cap)
    (hr : 1 ≤ remain) (hf : r.flat.length < fuel) (hlen : remain ≤ r.flat.length) :
    ∃ ps r', constLoop (Body.writeCompression c) cap fuel remain { internal := none, cw := some k } r =
        some (.done { internal := none, cw := some (fed c k ps) } r') ∧
      ps.flatten = r.flat.take remain ∧ r'.flat = r.flat.drop remain ∧ r'.fin = r.fin := by
  induction fuel generalizing remain k r with
  | zero => omega
  | succ fuel ih =>
    have hn : 0 < (if remain < cap then remain else cap) := by split <;> omega
    have hn2 : (if remain < cap then remain else cap) ≤ remain := by split <;> omega
    simp only [constLoop]
    generalize (if remain < cap then remain else cap) = n at hn hn2
    rcases Reader.read_spec n r with ⟨hflat, _⟩ | ⟨hne, j, r1, hread, h1, h2, h3, h4, h5⟩
    · rw [hflat] at hlen; simp at hlen; omega
    · have hj := h3 hn
      have hl : (r.flat.take j).length = j := by simp; omega
      simp only [hread, Body.writeCompression, Body.write, hl]
      by_cases hdone : remain - j < 1
      · rw [if_pos hdone]
        have : j = remain := by omega
        subst this
        exact ⟨[r.flat.take j], r1, rfl, by simp, h4, h5⟩
      · rw [if_neg hdone]
        have hlen1 : r1.flat.length = r.flat.length - j := by rw [h4]; simp
        obtain ⟨ps, r', g1, g2, g3, g4⟩ := ih (remain - j) (c.append k (r.flat.take j)).1 r1 (by omega) (by omega) (by omega)
        refine ⟨r.flat.take j :: ps, r', ?_, ?_, ?_, by rw [g4, h5]⟩
        · rw [g1]; rfl
        · rw [List.flatten_cons, g2, h4, take_take_drop _ _ _ (by omega)]
        · rw [g3, h4, List.drop_drop]; congr 1; omega

theorem readConst_codec {K : Type} (c : Codec K) (cap n : Nat) (k : K) (r : Reader) (hcap : 1 ≤ cap) (hlen : n ≤ r.flat.length) :
    ∃ ps r', readConst (Body.writeCompression c) cap n { internal := none, cw := some k } r =
        .done { internal := none, cw := some (fed c k ps) } r' ∧
      ps.flatten = r.flat.take n ∧ r'.flat = r.flat.drop n ∧ r'.fin = r.fin := by
  simp only [readConst]
  by_cases hn : n < 1
  · have : n = 0 := by omega
    subst this
    rw [if_pos hn]
    exact ⟨[], r, rfl, by simp, by simp, rfl⟩
  · rw [if_neg hn]
    obtain ⟨ps, r', h1, h2, h3, h4⟩ := constLoop_codec c cap (r.flat.length + 1) n k r hcap (by omega) (by omega) hlen
    exact ⟨ps, r', by rw [h1]; rfl, h2, h3, h4⟩

/-! ## C44 -/

/-- The level `MessageBody::compression` uses is one for which the encoder is specified. -/
theorem compression_level {K : Type} (c : Codec K) (ct : CompressionType) (level : Nat) (x : Bytes) :
    ∃ l, levelOk ct l ∧ ({ internal := some x, cw := none } : Body K).compression c ct level =
      .ret { internal := none, cw := some (c.compressor ct l x) } := by
  cases ct with
  | brotli => exact ⟨level, Or.inl rfl, rfl⟩
  | deflate => exact ⟨min level 9, Or.inr (by omega), rfl⟩
  | gzip => exact ⟨min level 9, Or.inr (by omega), rfl⟩

/-- **C44.** For every lawful codec, every body in plain mode (with whatever it already holds, `x`), every requested level and every
sequence of writes `ps`: after starting compression, writing and ending, the body holds `x ++ z`; every write was accepted whole.
Writing `z`, cut in any way, to any plain body on which decompression was started, and ending, appends exactly the concatenation
of the pieces `ps`. -/
theorem C44_round_trip {K : Type} (c : Codec K) (ct : CompressionType) (enc : Nat → List Bytes → Bytes) (law : Lawful c ct enc)
    (level : Nat) (x : Bytes) (ps : List Bytes) :
    ∃ b1 b2 z, ({ internal := some x, cw := none } : Body K).compression c ct level = .ret b1 ∧
      b1.writes c ps = some (b2, ps.map (fun p => some p.length)) ∧
      b2.finish c = ({ internal := some (x ++ z), cw := none }, true) ∧
      ∀ (y : Bytes) (qs : List Bytes), qs.flatten = z →
        ∃ d1 d2, ({ internal := some y, cw := none } : Body K).decompression c ct = .ret d1 ∧
          d1.writes c qs = some (d2, qs.map (fun p => some p.length)) ∧
          d2.finish c = ({ internal := some (y ++ ps.flatten), cw := none }, true) := by
  obtain ⟨l, hl, hc⟩ := compression_level c ct level x
  refine ⟨_, _, enc l ps, hc, writes_codec c (c.compressor ct l x) ps [] (law.enc_accepts l hl x), ?_, ?_⟩
  · simp only [Body.finish, List.nil_append, law.enc_expose l hl x ps]
  · intro y qs hqs
    refine ⟨_, _, rfl, writes_codec c (c.decompressor ct y) qs [] (law.dec_accepts y), ?_⟩
    simp only [Body.finish, List.nil_append, law.dec_expose l ps hl y qs hqs]

/-- **C44**, when the compressed bytes come from the network: the decompressing body reader, on every segmentation of a stream that
starts with the compressed bytes, delivers the original text and consumes exactly the compressed bytes. -/
theorem C44_from_network {K : Type} (c : Codec K) (ct : CompressionType) (enc : Nat → List Bytes → Bytes) (law : Lawful c ct enc)
    (level : Nat) (hl : levelOk ct level) (ps : List Bytes) (y rest : Bytes) (cap : Nat) (hcap : 1 ≤ cap) (r : Reader)
    (hr : r.flat = enc level ps ++ rest) :
    ∃ d1 d2 r', ({ internal := some y, cw := none } : Body K).decompression c ct = .ret d1 ∧
      readConst (Body.writeCompression c) cap (enc level ps).length d1 r = .done d2 r' ∧ r'.flat = rest ∧
      d2.finish c = ({ internal := some (y ++ ps.flatten), cw := none }, true) := by
  obtain ⟨qs, r', h1, h2, h3, _⟩ := readConst_codec c cap (enc level ps).length (c.decompressor ct y) r hcap (by rw [hr]; simp)
  refine ⟨_, _, r', rfl, h1, by rw [h3, hr]; simp, ?_⟩
  have h4 : qs.flatten = enc level ps := by rw [h2, hr]; simp
  simp only [Body.finish, law.dec_expose level ps hl y qs h4]

/-- A toy codec: the encoder adds one to every byte and puts a 7 in front, the decoder undoes it. -/
structure Toy where
  dec : Bool
  buf : Bytes
  acc : Bytes

def toyCodec : Codec Toy :=
  { compressor := fun _ _ b => ⟨false, b, []⟩, decompressor := fun _ b => ⟨true, b, []⟩,
    append := fun k v => ({ k with acc := k.acc ++ v }, some v.length),
    expose := fun k =>
      if k.dec then
        match k.acc with
        | 7 :: s => some (k.buf ++ s.map (· - 1))
        | _ => none
      else some (k.buf ++ 7 :: k.acc.map (· + 1)) }

theorem toy_fed (k : Toy) (ps : List Bytes) : fed toyCodec k ps = { k with acc := k.acc ++ ps.flatten } := by
  induction ps generalizing k with
  | nil => simp [fed]
  | cons p ps ih =>
    have : fed toyCodec k (p :: ps) = fed toyCodec { k with acc := k.acc ++ p } ps := rfl
    rw [this, ih]; simp

theorem toy_lawful (ct : CompressionType) : Lawful toyCodec ct (fun _ ps => 7 :: ps.flatten.map (· + 1)) where
  enc_accepts := fun _ _ _ _ _ => rfl
  enc_expose := fun _ _ buf ps => by rw [toy_fed]; simp [toyCodec]
  dec_accepts := fun _ _ _ => rfl
  dec_expose := fun _ ps _ buf qs h => by
    rw [toy_fed, h]
    have h1 : ∀ l : Bytes, (l.map (· + 1)).map (· - 1) = l := by
      intro l
      rw [List.map_map]
      have : ((fun x : Byte => x - 1) ∘ (fun x : Byte => x + 1)) = id := by
        funext x
        simp
      rw [this, List.map_id]
    simp only [toyCodec, List.nil_append, if_true]
    rw [h1]

/-- The hypotheses of C44 are met, and the compressed form differs from the text. -/
example : ∃ (K : Type) (c : Codec K) (enc : Nat → List Bytes → Bytes), Lawful c .gzip enc ∧ enc 6 [b!"ab", b!"c"] = b!"\x07bcd" :=
  ⟨Toy, toyCodec, _, toy_lawful .gzip, by decide⟩

/-! ## C45 -/

/-- A decoder that takes at most `m` bytes per call and says so; it delivers what it took. -/
def shyCodec (m : Nat) : Codec Bytes :=
  { compressor := fun _ _ b => b, decompressor := fun _ b => b,
    append := fun k v => (k ++ v.take m, some (min m v.length)), expose := fun k => some k }

/-- Offering a codec again what it did not take, until it has taken everything (what src/compression.rs:106-110 does in its test). -/
def offerAll {K : Type} (c : Codec K) : Nat → K → Bytes → Option K
  | 0, _, _ => none
  | fuel + 1, k, v =>
    if v = [] then some k
    else
      match c.append k v with
      | (k', some n) => offerAll c fuel k' (v.drop n)
      | (_, none) => none

/-- The shy decoder loses nothing when its answers are heeded. -/
theorem shy_complete (m : Nat) (hm : 1 ≤ m) (fuel : Nat) (k v : Bytes) (hf : v.length < fuel) :
    offerAll (shyCodec m) fuel k v = some (k ++ v) := by
  induction fuel generalizing k v with
  | zero => omega
  | succ fuel ih =>
    simp only [offerAll]
    by_cases hv : v = []
    · simp [hv]
    · rw [if_neg hv]
      have hpos : 0 < v.length := List.length_pos_iff.mpr hv
      have ha : (shyCodec m).append k v = (k ++ v.take m, some (min m v.length)) := rfl
      rw [ha]
      simp only
      rw [ih _ _ (by simp; omega), List.append_assoc]
      congr 2
      have : v.take m = v.take (min m v.length) := by
        rcases Nat.le_total m v.length with h | h
        · rw [Nat.min_eq_left h]
        · rw [Nat.min_eq_right h, List.take_length, List.take_of_length_le h]
      rw [this, List.take_append_drop]

/-- **C45**, negation for the code as written: for every `m ≥ 1`, a decoder that takes at most `m` bytes per call gets only the first
`m` bytes of a longer body that arrives in one read; the rest is dropped without error. -/
theorem C45_short_write_violated (m : Nat) (hm : 1 ≤ m) (ct : CompressionType) (s : Bytes) (hs : m < s.length) (cap : Nat)
    (hcap : s.length ≤ cap) (fin : StreamEnd) :
    (∀ k v, offerAll (shyCodec m) (v.length + 1) k v = some (k ++ v)) ∧
    ∃ d1 d2 r', (Body.new : Body Bytes).decompression (shyCodec m) ct = .ret d1 ∧
      readConst (Body.writeCompression (shyCodec m)) cap s.length d1 { buf := s, segs := [], fin := fin } = .done d2 r' ∧
      d2.finish (shyCodec m) = ({ internal := some (s.take m), cw := none }, true) ∧ s.take m ≠ s := by
  refine ⟨fun k v => shy_complete m hm _ k v (by omega), { internal := none, cw := some [] }, { internal := none, cw := some (s.take m) },
    { buf := [], segs := [], fin := fin }, rfl, ?_, rfl, ?_⟩
  · have hread : Reader.read (if s.length < cap then s.length else cap) { buf := s, segs := [], fin := fin } =
        .ok s { buf := [], segs := [], fin := fin } := by
      have hn : (if s.length < cap then s.length else cap) = s.length := by split <;> omega
      rw [hn]
      cases s with
      | nil => simp at hs
      | cons b s => simp [Reader.read, Reader.fillBuf, Reader.consume]
    simp only [readConst]
    rw [if_neg (by omega)]
    have : ({ buf := s, segs := [], fin := fin } : Reader).flat.length + 1 = s.length + 1 := by simp [Reader.flat]
    rw [this, constLoop]
    simp only [hread, Body.writeCompression, Body.write, shyCodec, List.nil_append, Nat.sub_self]
    rfl
  · intro h
    have := congrArg List.length h
    simp at this; omega

/-- **C45**, what holds: every received body byte is offered to the decompressor, in order and once. Missing from C45: what the
decompressor does not take is not offered again. -/
theorem C45_offered_partial {K : Type} (c : Codec K) (cap n : Nat) (hcap : 1 ≤ cap) (k : K) (r : Reader) (hlen : n ≤ r.flat.length) :
    ∃ ps r', readConst (Body.writeCompression c) cap n { internal := none, cw := some k } r =
        .done { internal := none, cw := some (fed c k ps) } r' ∧ ps.flatten = r.flat.take n ∧ r'.flat = r.flat.drop n := by
  obtain ⟨ps, r', h1, h2, h3, _⟩ := readConst_codec c cap n k r hcap hlen
  exact ⟨ps, r', h1, h2, h3⟩

example : ∃ d1 d2 r', (Body.new : Body Bytes).decompression (shyCodec 2) .gzip = .ret d1 ∧
    readConst (Body.writeCompression (shyCodec 2)) 100 5 d1 { buf := b!"hello", segs := [], fin := .eof } = .done d2 r' ∧
    d2.finish (shyCodec 2) = ({ internal := some b!"he", cw := none }, true) :=
  ⟨_, _, _, rfl, rfl, rfl⟩

/-! ## C46 -/

/-- **C46**, negation for the code as written: clearing a message leaves the body's bytes in place, whatever they are. -/
theorem C46_body_kept_violated {K : Type} (c : Codec K) (hd : Head) (x : Bytes) :
    (({ head := hd, body := { internal := some x, cw := none } } : Message K).clear c).body = { internal := some x, cw := none } := rfl

/-- **C46**, negation for the code as written: clearing a message whose body is being compressed ends the compression and leaves its
result as the body. -/
theorem C46_compressed_kept_violated {K : Type} (c : Codec K) (hd : Head) (k : K) (z : Bytes) (h : c.expose k = some z) :
    (({ head := hd, body := { internal := none, cw := some k } } : Message K).clear c).body = { internal := some z, cw := none } := by
  simp [Message.clear, Body.clear, Body.finish, h]

/-- **C46**, what holds, for every message: after `clear` start line and headers are empty; the body has no codec, and is empty exactly
if it was a plain empty body, or its codec delivers nothing or fails. Missing from C46: emptying the body. -/
theorem C46_clear_partial {K : Type} (c : Codec K) (m : Message K) :
    (m.clear c).head.f0 = [] ∧ (m.clear c).head.f1 = [] ∧ (m.clear c).head.f2 = [] ∧
    (∀ k, (m.clear c).head.headers.getall k = none) ∧ (m.clear c).body.cw = none ∧
    ((m.clear c).body.internal = some [] ↔
      (m.body.cw = none ∧ m.body.internal = some []) ∨ (∃ k, m.body.cw = some k ∧ (c.expose k = some [] ∨ c.expose k = none))) := by
  refine ⟨rfl, rfl, rfl, fun k => (MultiMap.fresh_clear _).getall k, ?_, ?_⟩
  · simp only [Message.clear, Body.clear, Body.finish]
    cases hc : m.body.cw with
    | none => exact hc
    | some k => simp only; cases c.expose k <;> rfl
  · simp only [Message.clear, Body.clear, Body.finish]
    cases hc : m.body.cw with
    | none => simp
    | some k => simp only; cases he : c.expose k <;> simp [he]

example : (({ head := Head.new, body := { internal := some b!"secret", cw := none } } : Message Toy).clear toyCodec).body.internal =
    some b!"secret" := rfl

/-! ## C47, C80 -/

/-- One operation of a history; `none` = it panics. Return values are dropped. -/
def Body.apply {K : Type} (c : Codec K) (b : Body K) : BodyOp → Option (Body K)
  | .write v => match b.write c v with | .ret (b', _) => some b' | .panic => none
  | .compression ct l => match b.compression c ct l with | .ret b' => some b' | .panic => none
  | .decompression ct => match b.decompression c ct with | .ret b' => some b' | .panic => none
  | .finish => some (b.finish c).1
  | .clear => some (b.clear c)
  | .size => some b
  | .inner => match b.inner with | .ret _ => some b | .panic => none
  | .writeRaw v => match b.writeRaw v with | .ret b' => some b' | .panic => none

/-- The bodies reachable from a new one. -/
inductive Body.Reachable {K : Type} (c : Codec K) : Body K → Prop
  | new : Body.Reachable c Body.new
  | step {b b' : Body K} {op : BodyOp} : Body.Reachable c b → b.apply c op = some b' → Body.Reachable c b'

/-- The mode of a body; `none` if it has a buffer and a codec. -/
def Body.mode {K : Type} (b : Body K) : Option Mode :=
  match b.internal, b.cw with
  | some _, none => some .plain
  | none, some _ => some .codec
  | none, none => some .broken
  | some _, some _ => none

/-- Whether the codec of a body delivers its buffer. -/
def Body.codecOk {K : Type} (c : Codec K) (b : Body K) : Bool :=
  match b.cw with
  | some k => (c.expose k).isSome
  | none => true

theorem Body.apply_mode {K : Type} (c : Codec K) (b : Body K) (m : Mode) (hm : b.mode = some m) (op : BodyOp) :
    (b.apply c op).bind Body.mode = m.next (b.codecOk c) op ∧ ((b.apply c op).isSome = (m.next (b.codecOk c) op).isSome) := by
  obtain ⟨internal, cw⟩ := b
  cases internal <;> cases cw <;> simp only [Body.mode, Option.some.injEq, reduceCtorEq] at hm <;> subst hm <;>
    cases op <;>
    simp only [Body.apply, Body.write, Body.compression, Body.decompression, Body.finish, Body.clear, Body.inner, Body.writeRaw,
      Mode.next, Body.codecOk, Option.bind_some, Option.bind_none, Option.isSome_some, Option.isSome_none, and_self]
  all_goals (refine ⟨?_, trivial⟩; first | rfl | (rename_i k; cases hk : c.expose k <;> rfl))

/-- **C80.** In every history of body operations from a new body, for every codec: the body is in exactly one mode (buffer, codec,
neither), which operations panic is determined by the mode alone, and so is the mode after each operation, apart from what the codec
answers to `end`. -/
theorem C80_body_modes {K : Type} (c : Codec K) (b : Body K) (h : Body.Reachable c b) :
    ∃ m, b.mode = some m ∧ ∀ op, ((b.apply c op) = none ↔ m.next (b.codecOk c) op = none) ∧
      ∀ b', b.apply c op = some b' → b'.mode = m.next (b.codecOk c) op := by
  have hmode : ∃ m, b.mode = some m := by
    induction h with
    | new => exact ⟨.plain, rfl⟩
    | @step b b' op _ hs ih =>
      obtain ⟨m, hm⟩ := ih
      obtain ⟨h1, h2⟩ := Body.apply_mode c b m hm op
      rw [hs] at h1 h2
      simp only [Option.bind_some, Option.isSome_some] at h1 h2
      rw [h1]
      exact Option.isSome_iff_exists.mp h2.symm
  obtain ⟨m, hm⟩ := hmode
  refine ⟨m, hm, fun op => ?_⟩
  obtain ⟨h1, h2⟩ := Body.apply_mode c b m hm op
  constructor
  · rw [← Option.not_isSome_iff_eq_none, ← Option.not_isSome_iff_eq_none, h2]
  · intro b' hb'
    rw [hb'] at h1
    exact h1

/-- **C47**, negation for the code as written: after a failing `end`, `clear` does not repair the body - for every codec that fails, the
body has neither buffer nor codec after any number of `clear`s, and the next write panics. -/
theorem C47_clear_does_not_repair_violated {K : Type} (c : Codec K) (k : K) (hk : c.expose k = none) (n : Nat) (v : Bytes) :
    ∃ b, Nat.repeat (Body.clear c) n ((({ internal := none, cw := some k } : Body K).finish c).1) = b ∧ b.mode = some .broken ∧
      b.apply c (.write v) = none ∧ b.apply c (.writeRaw v) = none := by
  have h0 : (({ internal := none, cw := some k } : Body K).finish c).1 = { internal := none, cw := none } := by
    simp [Body.finish, hk]
  rw [h0]
  have h1 : Nat.repeat (Body.clear c) n ({ internal := none, cw := none } : Body K) = { internal := none, cw := none } := by
    induction n with
    | zero => rfl
    | succ n ih => rw [Nat.repeat, ih]; rfl
  exact ⟨_, rfl, by rw [h1]; rfl, by rw [h1]; rfl, by rw [h1]; rfl⟩

/-- Such a body is reachable: a new body, decompression of something the decoder refuses, `end`. -/
example : ∃ b : Body Toy, Body.Reachable toyCodec b ∧ b.mode = some .broken :=
  ⟨_, .step (op := .finish) (.step (op := .write b!"x") (.step (op := .decompression .gzip) .new rfl) rfl) rfl, by decide⟩

/-- **C47**, what holds: a body is in one mode, and it is broken only after a codec failure. Missing from C47: `clear` as the way out. -/
theorem C47_modes_partial {K : Type} (c : Codec K) (hok : ∀ k, (c.expose k).isSome = true) (b : Body K) (h : Body.Reachable c b) :
    b.mode = some .plain ∨ b.mode = some .codec := by
  induction h with
  | new => exact Or.inl rfl
  | @step b b' op _ hs ih =>
    have hco : b.codecOk c = true := by
      simp only [Body.codecOk]; cases b.cw with
      | none => rfl
      | some k => exact hok k
    rcases ih with hm | hm
    · have h1 := (Body.apply_mode c b _ hm op).1
      rw [hs, hco, Option.bind_some] at h1
      rw [h1]
      have h2 := (Body.apply_mode c b _ hm op).2
      rw [hs, hco] at h2
      cases op <;> simp_all [Mode.next]
    · have h1 := (Body.apply_mode c b _ hm op).1
      rw [hs, hco, Option.bind_some] at h1
      rw [h1]
      have h2 := (Body.apply_mode c b _ hm op).2
      rw [hs, hco] at h2
      cases op <;> simp_all [Mode.next]

/-- The bodies reachable from a new one by operations none of which is an `end` that fails. -/
inductive Body.Unbroken {K : Type} (c : Codec K) : Body K → Prop
  | new : Body.Unbroken c Body.new
  | step {b b' : Body K} {op : BodyOp} : Body.Unbroken c b → b.apply c op = some b' → (op = .finish → (b.finish c).2 = true) →
      Body.Unbroken c b'

/-- **C47**, what holds, for every codec: as long as no `end` has failed, the body is plain or in a codec; then in plain mode nothing panics,
and in a codec exactly starting another codec, writing around it and looking at the buffer do. Missing from C47: `clear` as the way out
after a failure. -/
theorem C47_unbroken_partial {K : Type} (c : Codec K) (b : Body K) (h : Body.Unbroken c b) :
    (b.mode = some .plain ∧ ∀ op, b.apply c op ≠ none) ∨
    (b.mode = some .codec ∧ ∀ op, b.apply c op = none ↔
      ((∃ ct l, op = .compression ct l) ∨ (∃ ct, op = .decompression ct) ∨ op = .inner ∨ ∃ v, op = .writeRaw v)) := by
  have hm : b.mode = some .plain ∨ b.mode = some .codec := by
    induction h with
    | new => exact Or.inl rfl
    | @step b b' op _ hs hf ih =>
      rcases ih with hm | hm
      · have h1 := (Body.apply_mode c b _ hm op).1
        have h2 := (Body.apply_mode c b _ hm op).2
        rw [hs, Option.bind_some] at h1
        rw [hs] at h2
        rw [h1]
        cases op <;> simp_all [Mode.next]
      · have hco : op = .finish → b.codecOk c = true := by
          intro ho
          have := hf ho
          obtain ⟨internal, cw⟩ := b
          cases internal <;> cases cw <;> simp only [Body.mode, Option.some.injEq, reduceCtorEq] at hm
          simp only [Body.finish] at this
          simp only [Body.codecOk]
          split at this
          · next hk => rw [hk]; rfl
          · cases this
        have h1 := (Body.apply_mode c b _ hm op).1
        have h2 := (Body.apply_mode c b _ hm op).2
        rw [hs, Option.bind_some] at h1
        rw [hs] at h2
        rw [h1]
        cases op <;> simp_all [Mode.next]
  rcases hm with hm | hm
  · refine Or.inl ⟨hm, fun op hn => ?_⟩
    have h2 := (Body.apply_mode c b _ hm op).2
    rw [hn] at h2
    cases op <;> simp [Mode.next] at h2
  · refine Or.inr ⟨hm, fun op => ?_⟩
    have h2 := (Body.apply_mode c b _ hm op).2
    cases ho : b.apply c op with
    | none => rw [ho] at h2; cases op <;> simp [Mode.next] at h2 ⊢
    | some b' => rw [ho] at h2; cases op <;> simp [Mode.next] at h2 ⊢

example : ∃ b : Body Toy, Body.Unbroken toyCodec b ∧ b.mode = some .codec ∧ b.apply toyCodec .inner = none :=
  ⟨_, .step (op := .write b!"x") (.step (op := .decompression .gzip) .new rfl (by simp)) rfl (by simp), by decide, rfl⟩

end Httpd
