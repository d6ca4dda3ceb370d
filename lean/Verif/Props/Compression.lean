import Verif.Spec.Compression
import Verif.Props.WriteAll
/-!
# C230, C231, C232: the writers of the compression crates behind one interface
-/

namespace Httpd
open Spec

variable {W : WriterKind → Type}

/-- What a boxed writer took, the writer in the box took. -/
theorem took_wrote (x : Crates W) {kind : WriterKind} (w0 : W kind) {s : Bytes} {b : Boxed W} (h : Took x.codec ⟨kind, w0⟩ s b) :
    ∃ w, b = ⟨kind, w⟩ ∧ Wrote x w0 s w := by
  induction h with
  | start => exact ⟨w0, rfl, .start⟩
  | more p n k' _ ha hn ih =>
    obtain ⟨w, rfl, hw⟩ := ih
    change ((⟨kind, (x.write kind w p).1⟩, (x.write kind w p).2) : Boxed W × Option Nat) = (k', some n) at ha
    rw [Prod.mk.injEq] at ha
    refine ⟨(x.write kind w p).1, ha.1.symm, .more p n _ hw ?_ hn⟩
    rw [← ha.2]

theorem takes_append (x : Crates W) {kind : WriterKind} {w : W kind} {p : Bytes} (h : Takes x w p) :
    ∃ k' n, x.codec.append ⟨kind, w⟩ p = (k', some n) ∧ 1 ≤ n ∧ n ≤ p.length := by
  obtain ⟨w', n, h1, h2, h3⟩ := h
  refine ⟨⟨kind, w'⟩, n, ?_, h2, h3⟩
  change ((⟨kind, (x.write kind w p).1⟩, (x.write kind w p).2) : Boxed W × Option Nat) = _
  rw [h1]

theorem encodes_box (x : Crates W) {kind : WriterKind} {w0 : W kind} {done : W kind → Option Bytes} {buf : Bytes} {E : Bytes → Bytes → Prop}
    (h : Encodes x w0 done buf E) (hd : ∀ w v, done w = some v → x.expose ⟨kind, w⟩ = some v) {s : Bytes} {b : Boxed W}
    (ht : Took x.codec ⟨kind, w0⟩ s b) :
    (∀ p, p ≠ [] → ∃ k' n, x.codec.append b p = (k', some n) ∧ 1 ≤ n ∧ n ≤ p.length) ∧ ∃ z, x.codec.expose b = some (buf ++ z) ∧ E s z := by
  obtain ⟨w, rfl, hw⟩ := took_wrote x w0 ht
  obtain ⟨h1, z, h2, h3⟩ := h s w hw
  exact ⟨fun p hp => takes_append x (h1 p hp), z, hd w _ h2, h3⟩

theorem decodes_box (x : Crates W) {kind : WriterKind} {w0 : W kind} {done : W kind → Option Bytes} {buf : Bytes} {E : Bytes → Bytes → Prop}
    (h : Decodes x w0 done buf E) (hd : ∀ w v, done w = some v → x.expose ⟨kind, w⟩ = some v) {s z t : Bytes} (he : E s z) {b : Boxed W}
    (ht : Took x.codec ⟨kind, w0⟩ t b) :
    (∀ p, p ≠ [] → (t ++ p) <+: z → ∃ k' n, x.codec.append b p = (k', some n) ∧ 1 ≤ n ∧ n ≤ p.length) ∧
      (t = z → x.codec.expose b = some (buf ++ s)) := by
  obtain ⟨w, rfl, hw⟩ := took_wrote x w0 ht
  obtain ⟨h1, h2⟩ := h s z he t w hw
  exact ⟨fun p hp hpre => takes_append x (h1 p hp hpre), fun e => hd w _ (h2 e)⟩

theorem expose_brEnc (x : Crates W) (w : W .brEnc) (v : Bytes)
    (h : (if (x.brFlush w).2 && (x.brEncInner (x.brFlush w).1).2 then some (x.brEncInner (x.brFlush w).1).1 else none) = some v) :
    x.expose ⟨.brEnc, w⟩ = some v := by
  change x.exposeBrEnc w = _
  unfold Crates.exposeBrEnc
  split at h
  · next hc =>
    rw [Bool.and_eq_true] at hc
    cases hf : x.brFlush w with
    | mk w' ok => simp_all
  · cases h

theorem expose_brDec (x : Crates W) (w : W .brDec) (v : Bytes)
    (h : (if (x.brClose w).2 && (x.brDecInner (x.brClose w).1).2 then some (x.brDecInner (x.brClose w).1).1 else none) = some v) :
    x.expose ⟨.brDec, w⟩ = some v := by
  change x.exposeBrDec w = _
  unfold Crates.exposeBrDec
  split at h
  · next hc =>
    rw [Bool.and_eq_true] at hc
    cases hf : x.brClose w with
    | mk w' ok =>
      rw [hf] at h hc
      simp only at h hc
      cases hi : x.brDecInner w' with
      | mk v' ok' => simp_all
  · cases h

/-- Sound crates make a codec that keeps to the contract of `Write` and whose decoder inverts its encoder. -/
theorem crates_streaming (x : Crates W) (E : CompressionType → Bytes → Bytes → Prop) (h : Sound x E) (ct : CompressionType) :
    Streaming x.codec ct (E ct) := by
  have key : (∀ level, (ct = .brotli ∨ level ≤ 9) → ∀ buf s k, Took x.codec (x.codec.compressor ct level buf) s k →
      (∀ p, p ≠ [] → ∃ k' n, x.codec.append k p = (k', some n) ∧ 1 ≤ n ∧ n ≤ p.length) ∧ ∃ z, x.codec.expose k = some (buf ++ z) ∧ E ct s z) ∧
      ∀ s z, E ct s z → ∀ buf t k, Took x.codec (x.codec.decompressor ct buf) t k →
        (∀ p, p ≠ [] → (t ++ p) <+: z → ∃ k' n, x.codec.append k p = (k', some n) ∧ 1 ≤ n ∧ n ≤ p.length) ∧
        (t = z → x.codec.expose k = some (buf ++ s)) := by
    cases ct with
    | brotli =>
      exact ⟨fun level _ buf s k ht => encodes_box x (h.brEnc buf (asI32 level)) (expose_brEnc x) ht,
        fun s z he buf t k ht => decodes_box x (h.brDec buf) (expose_brDec x) he ht⟩
    | deflate =>
      exact ⟨fun level hl buf s k ht => encodes_box x (h.deflateEnc buf level (hl.resolve_left (by simp))) (fun _ _ e => e) ht,
        fun s z he buf t k ht => decodes_box x (h.deflateDec buf) (fun _ _ e => e) he ht⟩
    | gzip =>
      exact ⟨fun level hl buf s k ht => encodes_box x (h.gzEnc buf level (hl.resolve_left (by simp))) (fun _ _ e => e) ht,
        fun s z he buf t k ht => decodes_box x (h.gzDec buf) (fun _ _ e => e) he ht⟩
  exact ⟨fun level hl buf s k ht => (key.1 level hl buf s k ht).1, fun level hl buf s k ht => (key.1 level hl buf s k ht).2,
    fun s z he buf t k ht => (key.2 s z he buf t k ht).1, fun s z he buf k ht => (key.2 s z he buf z k ht).2 rfl⟩

/-- **C230** With crates each of whose writers does what it is documented to do, and for every type of compression, every level, every body and all
pieces: `write_all` of the pieces to a compressing body succeeds, as does ending it, and gives an encoding of the pieces in the format asked for;
`write_all` of that, cut in any way, to a body that decompresses the same format succeeds, as does ending it, and gives the pieces. -/
theorem C230_round_trip (x : Crates W) (E : CompressionType → Bytes → Bytes → Prop) (h : Sound x E) (ct : CompressionType)
    (level : Nat) (buf : Bytes) (ps : List Bytes) :
    ∃ b1 b2 z, ({ internal := some buf, cw := none } : Body (Boxed W)).compression x.codec ct level = .ret b1 ∧
      b1.writeAlls x.codec ps = some b2 ∧ b2.finish x.codec = ({ internal := some (buf ++ z), cw := none }, true) ∧ E ct ps.flatten z ∧
      ∀ (y : Bytes) (qs : List Bytes), qs.flatten = z →
        ∃ d1 d2, ({ internal := some y, cw := none } : Body (Boxed W)).decompression x.codec ct = .ret d1 ∧
          d1.writeAlls x.codec qs = some d2 ∧ d2.finish x.codec = ({ internal := some (y ++ ps.flatten), cw := none }, true) :=
  C196_round_trip x.codec ct (E ct) (crates_streaming x E h ct) level buf ps

/-! ## C231 -/

theorem endedWith_expose (x : Crates W) (b : Boxed W) : endedWith x.codec b = x.expose b := by
  have h : x.codec.expose b = x.expose b := rfl
  simp only [endedWith, Body.finish, h]
  cases x.expose b <;> rfl

/-- **C231**, negation for the code as written: the end of a Brotli stream that could not be written, and a Brotli decompressor that fails in
`into_inner`, are not reported: ending the body returns `Ok`. -/
theorem C231_silent_violated (x : Crates W) :
    (∀ w, (x.brFlush w).2 = true → (x.brEncInner (x.brFlush w).1).2 = false →
      endsWell x ⟨.brEnc, w⟩ = false ∧ endedWith x.codec ⟨.brEnc, w⟩ = some (x.brEncInner (x.brFlush w).1).1) ∧
    ∀ w, (x.brClose w).2 = true → (x.brDecInner (x.brClose w).1).2 = false →
      endsWell x ⟨.brDec, w⟩ = false ∧ endedWith x.codec ⟨.brDec, w⟩ = some (x.brDecInner (x.brClose w).1).1 := by
  constructor
  · intro w h1 h2
    refine ⟨by simp [endsWell, h2], ?_⟩
    rw [endedWith_expose]
    change x.exposeBrEnc w = _
    unfold Crates.exposeBrEnc
    cases hf : x.brFlush w with
    | mk w' ok => rw [hf] at h1; simp only at h1; subst h1; rfl
  · intro w h1 h2
    refine ⟨by simp [endsWell, h2], ?_⟩
    rw [endedWith_expose]
    change x.exposeBrDec w = _
    unfold Crates.exposeBrDec
    cases hf : x.brClose w with
    | mk w' ok =>
      rw [hf] at h1 h2
      simp only at h1 h2
      subst h1
      cases hi : x.brDecInner w' with
      | mk v ok' => cases ok' <;> simp [hi]

/-- **C231**, what holds: with the other four writers ending the body reports exactly their failures; with the two of Brotli, exactly those of
`flush` and `close`. And when every step was successful, ending is, for all six. Missing from C231: see `C231_silent_violated`. -/
theorem C231_reported_partial (x : Crates W) :
    (∀ w, endedWith x.codec ⟨.gzEnc, w⟩ = x.gzEncFinish w) ∧ (∀ w, endedWith x.codec ⟨.gzDec, w⟩ = x.gzDecFinish w) ∧
    (∀ w, endedWith x.codec ⟨.deflateEnc, w⟩ = x.deflateEncFinish w) ∧ (∀ w, endedWith x.codec ⟨.deflateDec, w⟩ = x.deflateDecFinish w) ∧
    (∀ w, (endedWith x.codec ⟨.brEnc, w⟩).isSome = (x.brFlush w).2) ∧ (∀ w, (endedWith x.codec ⟨.brDec, w⟩).isSome = (x.brClose w).2) ∧
    ∀ b, endsWell x b = true → (endedWith x.codec b).isSome = true := by
  have h5 : ∀ w, (endedWith x.codec ⟨.brEnc, w⟩).isSome = (x.brFlush w).2 := by
    intro w
    rw [endedWith_expose]
    change (x.exposeBrEnc w).isSome = _
    unfold Crates.exposeBrEnc
    cases x.brFlush w with
    | mk w' ok => cases ok <;> rfl
  have h6 : ∀ w, (endedWith x.codec ⟨.brDec, w⟩).isSome = (x.brClose w).2 := by
    intro w
    rw [endedWith_expose]
    change (x.exposeBrDec w).isSome = _
    unfold Crates.exposeBrDec
    cases x.brClose w with
    | mk w' ok =>
      cases ok with
      | false => rfl
      | true =>
        cases hi : x.brDecInner w' with
        | mk v ok' => cases ok' <;> simp [hi]
  refine ⟨fun w => endedWith_expose x _, fun w => endedWith_expose x _, fun w => endedWith_expose x _, fun w => endedWith_expose x _, h5, h6, ?_⟩
  rintro ⟨kind, w⟩ hb
  cases kind with
  | brEnc => rw [h5]; simp only [endsWell, Bool.and_eq_true] at hb; exact hb.1
  | brDec => rw [h6]; simp only [endsWell, Bool.and_eq_true] at hb; exact hb.1
  | _ => rw [endedWith_expose]; exact hb

/-! ## C232 -/

/-- The writer a body has after `compression`. -/
theorem compression_writer (x : Crates W) (ct : CompressionType) (level : Nat) (buf : Bytes) :
    ({ internal := some buf, cw := none } : Body (Boxed W)).compression x.codec ct level =
      .ret { internal := none, cw := some (match ct with
        | .brotli => ⟨.brEnc, x.brCompressor buf (asI32 level)⟩
        | .deflate => ⟨.deflateEnc, x.deflateEncoder buf (min level 9)⟩
        | .gzip => ⟨.gzEnc, x.gzEncoder buf (min level 9)⟩) } := by
  cases ct <;> rfl

/-- **C232**, negation for the code as written: a level of 2147483648 or more (it is a `u32`) asks Brotli for a negative quality, which is the
lowest, not the highest. -/
theorem C232_high_violated (x : Crates W) (level : Nat) (h : 2147483648 ≤ level) (hu : level < 4294967296) (buf : Bytes) :
    ∃ q, ({ internal := some buf, cw := none } : Body (Boxed W)).compression x.codec .brotli level =
        .ret { internal := none, cw := some ⟨.brEnc, x.brCompressor buf q⟩ } ∧
      q < 0 ∧ nearestQuality q = 0 ∧ nearestQuality level = 11 := by
  refine ⟨asI32 level, compression_writer x .brotli level buf, ?_⟩
  unfold asI32 nearestQuality
  rw [Nat.mod_eq_of_lt hu, if_neg (by omega)]
  omega

/-- **C232**, what holds: a body compresses with the encoder of the format asked for; with the level asked for, capped at 9, for Deflate and gzip, and
with the level asked for as quality for Brotli if it is below 2147483648. Missing from C232: see `C232_high_violated`. -/
theorem C232_level_partial (x : Crates W) (level : Nat) (buf : Bytes) :
    ({ internal := some buf, cw := none } : Body (Boxed W)).compression x.codec .deflate level =
      .ret { internal := none, cw := some ⟨.deflateEnc, x.deflateEncoder buf (min level 9)⟩ } ∧
    ({ internal := some buf, cw := none } : Body (Boxed W)).compression x.codec .gzip level =
      .ret { internal := none, cw := some ⟨.gzEnc, x.gzEncoder buf (min level 9)⟩ } ∧
    (level < 2147483648 → ({ internal := some buf, cw := none } : Body (Boxed W)).compression x.codec .brotli level =
      .ret { internal := none, cw := some ⟨.brEnc, x.brCompressor buf level⟩ }) ∧
    ({ internal := some buf, cw := none } : Body (Boxed W)).decompression x.codec .deflate =
      .ret { internal := none, cw := some ⟨.deflateDec, x.deflateDecoder buf⟩ } ∧
    ({ internal := some buf, cw := none } : Body (Boxed W)).decompression x.codec .gzip =
      .ret { internal := none, cw := some ⟨.gzDec, x.gzDecoder buf⟩ } ∧
    ({ internal := some buf, cw := none } : Body (Boxed W)).decompression x.codec .brotli =
      .ret { internal := none, cw := some ⟨.brDec, x.brDecompressor buf⟩ } := by
  refine ⟨rfl, rfl, ?_, rfl, rfl, rfl⟩
  intro h
  rw [compression_writer]
  have : asI32 level = level := by
    unfold asI32
    rw [Nat.mod_eq_of_lt (by omega), if_pos h]
  rw [this]

/-! ## Examples -/

/-- Small formats: the text and a byte that tells the format and the end. Encoders write the end byte when they are ended; decoders take at most two
bytes at a time and want the end byte. A state is the buffer and what was taken. -/
structure MarkState (k : WriterKind) where
  buf : Bytes
  got : Bytes

@[inherit_doc MarkState] def markCrates : Crates MarkState :=
  { gzEncoder := fun buf _ => ⟨buf, []⟩, gzDecoder := fun buf => ⟨buf, []⟩, deflateEncoder := fun buf _ => ⟨buf, []⟩,
    deflateDecoder := fun buf => ⟨buf, []⟩, brCompressor := fun buf _ => ⟨buf, []⟩, brDecompressor := fun buf => ⟨buf, []⟩,
    write := fun _ w p => (⟨w.buf, w.got ++ p.take 2⟩, some (min 2 p.length)),
    gzEncFinish := fun w => some (w.buf ++ w.got ++ [1]),
    gzDecFinish := fun w => if w.got.getLast? = some 1 then some (w.buf ++ w.got.dropLast) else none,
    deflateEncFinish := fun w => some (w.buf ++ w.got ++ [2]),
    deflateDecFinish := fun w => if w.got.getLast? = some 2 then some (w.buf ++ w.got.dropLast) else none,
    brFlush := fun w => (w, true), brEncInner := fun w => (w.buf ++ w.got ++ [3], true),
    brClose := fun w => (w, w.got.getLast? = some 3), brDecInner := fun w => (w.buf ++ w.got.dropLast, w.got.getLast? = some 3) }

/-- The end byte of a format. -/
def markOf : CompressionType → UInt8
  | .gzip => 1 | .deflate => 2 | .brotli => 3

theorem mark_wrote {kind : WriterKind} (w0 : MarkState kind) {s : Bytes} {w : MarkState kind} (h : Wrote markCrates w0 s w) :
    w = ⟨w0.buf, w0.got ++ s⟩ := by
  induction h with
  | start => simp
  | @more s w p n w' _ ha hn ih =>
    have h : (⟨w.buf, w.got ++ p.take 2⟩ : MarkState kind) = w' ∧ min 2 p.length = n := by simpa [markCrates] using ha
    rw [← h.1, ih, ← h.2]
    simp only [MarkState.mk.injEq, true_and, List.append_assoc]
    congr 2
    rw [List.take_eq_take_iff]
    omega

theorem mark_takes {kind : WriterKind} (w : MarkState kind) (p : Bytes) (hp : p ≠ []) : Takes markCrates w p := by
  have := List.length_pos_iff.mpr hp
  exact ⟨⟨w.buf, w.got ++ p.take 2⟩, min 2 p.length, rfl, by omega, by omega⟩

theorem mark_sound : Sound markCrates (fun ct s z => z = s ++ [markOf ct]) := by
  refine ⟨?_, ?_, ?_, ?_, ?_, ?_⟩
  · intro buf level _ s w hw
    have := mark_wrote _ hw
    subst this
    exact ⟨mark_takes _, _, by simp [markCrates, List.append_assoc]; rfl, rfl⟩
  · rintro buf s z rfl t w hw
    have := mark_wrote _ hw
    subst this
    refine ⟨fun p hp _ => mark_takes _ p hp, ?_⟩
    rintro rfl
    simp [markCrates, markOf]
  · intro buf level _ s w hw
    have := mark_wrote _ hw
    subst this
    exact ⟨mark_takes _, _, by simp [markCrates, List.append_assoc]; rfl, rfl⟩
  · rintro buf s z rfl t w hw
    have := mark_wrote _ hw
    subst this
    refine ⟨fun p hp _ => mark_takes _ p hp, ?_⟩
    rintro rfl
    simp [markCrates, markOf]
  · intro buf level s w hw
    have := mark_wrote _ hw
    subst this
    exact ⟨mark_takes _, _, by simp [markCrates, List.append_assoc]; rfl, rfl⟩
  · rintro buf s z rfl t w hw
    have := mark_wrote _ hw
    subst this
    refine ⟨fun p hp _ => mark_takes _ p hp, ?_⟩
    rintro rfl
    simp [markCrates, markOf]

/-- A text through Brotli and back; what came out is the text and the mark of Brotli. -/
example : ∃ b1 b2, ({ internal := some b!"x", cw := none } : Body (Boxed MarkState)).compression markCrates.codec .brotli 6 = .ret b1 ∧
    b1.writeAlls markCrates.codec [b!"hello", b!" world"] = some b2 ∧
    b2.finish markCrates.codec = ({ internal := some (b!"x" ++ b!"hello world" ++ [3]), cw := none }, true) := by
  obtain ⟨b1, b2, z, h1, h2, h3, h4, _⟩ := C230_round_trip markCrates _ mark_sound .brotli 6 b!"x" [b!"hello", b!" world"]
  refine ⟨b1, b2, h1, h2, ?_⟩
  rw [h3, h4]
  rfl

/-- A truncated stream is refused by the decoders when they are ended. -/
example : endedWith markCrates.codec ⟨.brDec, ⟨[], b!"hello"⟩⟩ = none ∧ endedWith markCrates.codec ⟨.gzDec, ⟨[], b!"hello"⟩⟩ = none ∧
    endedWith markCrates.codec ⟨.brDec, ⟨[], b!"hello" ++ [3]⟩⟩ = some b!"hello" := by decide +kernel

/-- A compressor that cannot write the end of its stream: the body that is ended holds an unfinished stream, and nothing says so. -/
def brokenEnd : Crates MarkState := { markCrates with brEncInner := fun w => (w.buf ++ w.got, false) }

example : endsWell brokenEnd ⟨.brEnc, ⟨b!"x", b!"hello"⟩⟩ = false ∧ endedWith brokenEnd.codec ⟨.brEnc, ⟨b!"x", b!"hello"⟩⟩ = some b!"xhello" :=
  (C231_silent_violated brokenEnd).1 ⟨b!"x", b!"hello"⟩ rfl rfl

/-- Level 4294967295, "as much as possible", is quality -1. -/
example : asI32 4294967295 = -1 ∧ nearestQuality (-1) = 0 := by decide

end Httpd
