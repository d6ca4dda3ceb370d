import Verif.Model.WriteAll
import Verif.Spec.Streaming
import Verif.Props.Codec
/-! # C196: round trip with codecs that take a part of a write -/

namespace Httpd
open Spec

/-- Several calls of `write_all`; `none` = a panic or an error. -/
def Body.writeAlls {K : Type} (c : Codec K) (b : Body K) : List Bytes → Option (Body K)
  | [] => some b
  | p :: ps =>
    match b.writeAll c p with
    | .ret (b', true) => b'.writeAlls c ps
    | _ => none

/-- `write_all` hands everything over if the codec keeps taking. -/
theorem writeAll_took {K : Type} (c : Codec K) (k0 : K) (ok : Bytes → Prop)
    (htakes : ∀ s k, Took c k0 s k → ∀ p, p ≠ [] → ok (s ++ p) → ∃ k' n, c.append k p = (k', some n) ∧ 1 ≤ n ∧ n ≤ p.length)
    (n : Nat) : ∀ (v s : Bytes) (k : K), v.length ≤ n → Took c k0 s k → ok (s ++ v) →
      ∃ k', Took c k0 (s ++ v) k' ∧
        ({ internal := none, cw := some k } : Body K).writeAll c v = .ret ({ internal := none, cw := some k' }, true) := by
  induction n with
  | zero =>
    intro v s k hn ht _
    have hv : v = [] := List.length_eq_zero_iff.mp (by omega)
    subst hv
    exact ⟨k, by simpa using ht, by rw [Body.writeAll]; simp⟩
  | succ n ih =>
    intro v s k hn ht hok
    by_cases hv : v = []
    · subst hv
      exact ⟨k, by simpa using ht, by rw [Body.writeAll]; simp⟩
    · obtain ⟨k', m, ha, h1, h2⟩ := htakes s k ht v hv hok
      have hsplit : s ++ v.take m ++ v.drop m = s ++ v := by simp
      have hlen : (v.drop m).length ≤ n := by rw [List.length_drop]; omega
      obtain ⟨k'', h3, h4⟩ := ih (v.drop m) (s ++ v.take m) k' hlen (ht.more v m k' ha h2) (by rw [hsplit]; exact hok)
      refine ⟨k'', by rw [← hsplit]; exact h3, ?_⟩
      rw [Body.writeAll, if_neg hv]
      simp only [Body.write, ha]
      rw [if_neg (by omega), if_neg (by omega)]
      exact h4

theorem writeAlls_took {K : Type} (c : Codec K) (k0 : K) (ok : Bytes → Prop) (hpre : ∀ s t, ok (s ++ t) → ok s)
    (htakes : ∀ s k, Took c k0 s k → ∀ p, p ≠ [] → ok (s ++ p) → ∃ k' n, c.append k p = (k', some n) ∧ 1 ≤ n ∧ n ≤ p.length)
    (ps : List Bytes) : ∀ (s : Bytes) (k : K), Took c k0 s k → ok (s ++ ps.flatten) →
      ∃ k', Took c k0 (s ++ ps.flatten) k' ∧
        ({ internal := none, cw := some k } : Body K).writeAlls c ps = some { internal := none, cw := some k' } := by
  induction ps with
  | nil => intro s k ht _; exact ⟨k, by simpa using ht, rfl⟩
  | cons p ps ih =>
    intro s k ht hok
    simp only [List.flatten_cons, ← List.append_assoc] at hok ⊢
    obtain ⟨k', h1, h2⟩ := writeAll_took c k0 ok htakes p.length p s k (Nat.le_refl _) ht (hpre _ _ hok)
    obtain ⟨k'', h3, h4⟩ := ih (s ++ p) k' h1 hok
    exact ⟨k'', h3, by simp only [Body.writeAlls, h2, h4]⟩

/-- **C196.** For every codec that keeps to the contract of `Write` and whose decoder inverts its encoder - it may take as little of a write
as it likes - every plain body, requested level and pieces `ps`: after starting compression, `write_all` of the pieces succeeds, ending
succeeds, and the body holds what it held before and an encoding `z` of the pieces. `write_all` of `z`, cut in any way, to any plain body
on which decompression was started succeeds, and after ending, exactly the pieces have been appended. -/
theorem C196_round_trip {K : Type} (c : Codec K) (ct : CompressionType) (E : Bytes → Bytes → Prop) (law : Streaming c ct E)
    (level : Nat) (x : Bytes) (ps : List Bytes) :
    ∃ b1 b2 z, ({ internal := some x, cw := none } : Body K).compression c ct level = .ret b1 ∧
      b1.writeAlls c ps = some b2 ∧ b2.finish c = ({ internal := some (x ++ z), cw := none }, true) ∧ E ps.flatten z ∧
      ∀ (y : Bytes) (qs : List Bytes), qs.flatten = z →
        ∃ d1 d2, ({ internal := some y, cw := none } : Body K).decompression c ct = .ret d1 ∧
          d1.writeAlls c qs = some d2 ∧ d2.finish c = ({ internal := some (y ++ ps.flatten), cw := none }, true) := by
  obtain ⟨l, hl, hc⟩ := compression_level c ct level x
  obtain ⟨k1, h1, h2⟩ := writeAlls_took c (c.compressor ct l x) (fun _ => True) (fun _ _ _ => trivial)
    (fun s k ht p hp _ => law.enc_takes l hl x s k ht p hp) ps [] _ .start trivial
  rw [List.nil_append] at h1
  obtain ⟨z, hz, he⟩ := law.enc_expose l hl x _ k1 h1
  refine ⟨_, _, z, hc, h2, by simp only [Body.finish, hz], he, ?_⟩
  intro y qs hqs
  obtain ⟨k2, h3, h4⟩ := writeAlls_took c (c.decompressor ct y) (fun s => s <+: z)
    (fun s t h => (List.prefix_append s t).trans h) (fun t k ht p hp hpre => law.dec_takes _ z he y t k ht p hp hpre) qs [] _ .start
    (by rw [List.nil_append, hqs]; exact List.prefix_refl z)
  rw [List.nil_append, hqs] at h3
  refine ⟨_, _, rfl, h4, ?_⟩
  simp only [Body.finish, law.dec_expose _ z he y k2 h3]

/-- **C196**, for a codec that takes whole writes, as C44 has it: it is one of these, with the encodings it produces. -/
theorem C196_covers_whole {K : Type} (c : Codec K) (ct : CompressionType) (enc : Nat → List Bytes → Bytes) (law : Lawful c ct enc) :
    Streaming c ct (fun s z => ∃ level ps, (ct = .brotli ∨ level ≤ 9) ∧ List.flatten ps = s ∧ enc level ps = z) := by
  have hfed : ∀ k0, (∀ ps p, (c.append (fed c k0 ps) p).2 = some p.length) → ∀ s k, Took c k0 s k →
      ∃ ps : List Bytes, ps.flatten = s ∧ k = fed c k0 ps := by
    intro k0 hacc s k ht
    induction ht with
    | start => exact ⟨[], rfl, rfl⟩
    | @more s k p n k' _ ha _ ih =>
      obtain ⟨ps, h1, h2⟩ := ih
      have h3 := hacc ps p
      rw [← h2, ha] at h3
      simp only [Option.some.injEq] at h3
      refine ⟨ps ++ [p], ?_, ?_⟩
      · rw [List.flatten_append, h1, h3, List.take_length]
        simp
      · rw [fed, List.foldl_append]
        simp only [List.foldl_cons, List.foldl_nil]
        rw [← fed, ← h2, ha]
  refine ⟨?_, ?_, ?_, ?_⟩
  · intro level hl buf s k ht p hp
    obtain ⟨ps, _, h2⟩ := hfed _ (law.enc_accepts level hl buf) s k ht
    have := law.enc_accepts level hl buf ps p
    rw [← h2] at this
    refine ⟨(c.append k p).1, p.length, ?_, List.length_pos_iff.mpr hp, Nat.le_refl _⟩
    rw [← this]
  · intro level hl buf s k ht
    obtain ⟨ps, h1, h2⟩ := hfed _ (law.enc_accepts level hl buf) s k ht
    exact ⟨enc level ps, by rw [h2]; exact law.enc_expose level hl buf ps, level, ps, hl, h1, rfl⟩
  · intro s z _ buf t k ht p hp _
    obtain ⟨ps, _, h2⟩ := hfed _ (law.dec_accepts buf) t k ht
    have := law.dec_accepts buf ps p
    rw [← h2] at this
    refine ⟨(c.append k p).1, p.length, ?_, List.length_pos_iff.mpr hp, Nat.le_refl _⟩
    rw [← this]
  · rintro s z ⟨level, ps, hl, h1, h2⟩ buf k ht
    obtain ⟨qs, h3, h4⟩ := hfed _ (law.dec_accepts buf) z k ht
    rw [h4, law.dec_expose level ps hl buf qs (by rw [h3, h2]), h1]

/-- **C196**, for every codec, lawful or not: when `write_all` succeeds the codec has said it took exactly the bytes given; nothing is
dropped without an error. -/
theorem C196_no_silent_loss {K : Type} (c : Codec K) (n : Nat) : ∀ (v : Bytes) (k : K) (b' : Body K), v.length ≤ n →
    ({ internal := none, cw := some k } : Body K).writeAll c v = .ret (b', true) →
    ∃ k', b' = { internal := none, cw := some k' } ∧ Took c k v k' := by
  have happend : ∀ (k0 : K) (s t : Bytes) (k1 k2 : K), Took c k0 s k1 → Took c k1 t k2 → Took c k0 (s ++ t) k2 := by
    intro k0 s t k1 k2 h1 h2
    induction h2 with
    | start => simpa using h1
    | @more t k p m k' _ ha hm ih =>
      rw [← List.append_assoc]
      exact ih.more p m k' ha hm
  induction n with
  | zero =>
    intro v k b' hn h
    have hv : v = [] := List.length_eq_zero_iff.mp (by omega)
    subst hv
    rw [Body.writeAll] at h
    simp only [↓reduceIte, Body.Out.ret.injEq, Prod.mk.injEq, and_true] at h
    exact ⟨k, h.symm, .start⟩
  | succ n ih =>
    intro v k b' hn h
    rw [Body.writeAll] at h
    by_cases hv : v = []
    · subst hv
      simp only [↓reduceIte, Body.Out.ret.injEq, Prod.mk.injEq, and_true] at h
      exact ⟨k, h.symm, .start⟩
    · rw [if_neg hv] at h
      cases ha : c.append k v with
      | mk k1 o =>
        simp only [Body.write, ha] at h
        cases o with
        | none => simp at h
        | some m =>
          simp only at h
          split at h
          · simp at h
          split at h
          · cases h
          rename_i hm hm2
          obtain ⟨k', h1, h2⟩ := ih (v.drop m) k1 b' (by rw [List.length_drop]; omega) h
          refine ⟨k', h1, ?_⟩
          have h3 : Took c k ([] ++ v.take m) k1 := Took.start.more v m k1 ha (by omega)
          have := happend k _ _ k1 k' h3 h2
          simpa using this

/-- **C196**, for every body, also one that has been ended unsuccessfully and has neither buffer nor codec: when `write_all` succeeds, the buffer holds what it held and the bytes given,
or the codec has taken them, or there were none. -/
theorem C196_every_body {K : Type} (c : Codec K) (b b' : Body K) (v : Bytes) (h : b.writeAll c v = .ret (b', true)) :
    v = [] ∧ b' = b ∨ (∃ inner, b.internal = some inner ∧ b' = { b with internal := some (inner ++ v) }) ∨
    ∃ k k', b.internal = none ∧ b.cw = some k ∧ b' = { b with cw := some k' } ∧ Took c k v k' := by
  obtain ⟨internal, cw⟩ := b
  by_cases hv : v = []
  · subst hv
    rw [Body.writeAll] at h
    simp only [↓reduceIte, Body.Out.ret.injEq, Prod.mk.injEq, and_true] at h
    exact .inl ⟨rfl, h.symm⟩
  · cases internal with
    | some inner =>
      rw [Body.writeAll, if_neg hv] at h
      have h0 : v.length ≠ 0 := fun h => hv (List.length_eq_zero_iff.mp h)
      simp only [Body.write, if_neg h0, Nat.lt_irrefl, ↓reduceIte, List.drop_length] at h
      rw [Body.writeAll] at h
      simp only [↓reduceIte, Body.Out.ret.injEq, Prod.mk.injEq, and_true] at h
      exact .inr (.inl ⟨inner, rfl, h.symm⟩)
    | none =>
      cases cw with
      | none => rw [Body.writeAll, if_neg hv] at h; simp [Body.write] at h
      | some k =>
        obtain ⟨k', h1, h2⟩ := C196_no_silent_loss c v.length v k b' (Nat.le_refl _) h
        exact .inr (.inr ⟨k, k', rfl, rfl, h1, h2⟩)

/-- A plain body, and one with neither buffer nor codec. -/
example (c : Codec Unit) : (∃ b', ({ internal := some [104], cw := none } : Body Unit).writeAll c [105] = .ret (b', true) ∧ b'.internal = some [104, 105]) ∧
    ({ internal := none, cw := none } : Body Unit).writeAll c [105] = .panic := by
  constructor
  · exact ⟨_, by rw [Body.writeAll, if_neg (by simp)]; simp only [Body.write]; rw [if_neg (by simp), if_neg (by simp), Body.writeAll]; rfl, rfl⟩
  · rw [Body.writeAll, if_neg (by simp)]; simp [Body.write]

/-- A codec that takes at most three bytes per call (C45's, with which `write` alone loses the rest): it keeps to the contract. -/
theorem shy_streaming (ct : CompressionType) : Streaming (shyCodec 3) ct (fun s z => s = z) := by
  have htook : ∀ k0 s k, Took (shyCodec 3) k0 s k → k = k0 ++ s := by
    intro k0 s k ht
    induction ht with
    | start => simp
    | @more s k p n k' _ ha hn ih =>
      have h : k ++ p.take 3 = k' ∧ min 3 p.length = n := by simpa [shyCodec] using ha
      rw [← h.1, ih, List.append_assoc, ← h.2]
      congr 2
      rw [List.take_eq_take_iff]
      omega
  have happ : ∀ k p, p ≠ [] → ∃ k' n, (shyCodec 3).append k p = (k', some n) ∧ 1 ≤ n ∧ n ≤ p.length := by
    intro k p hp
    have := List.length_pos_iff.mpr hp
    exact ⟨k ++ p.take 3, min 3 p.length, rfl, by omega, by omega⟩
  refine ⟨fun _ _ _ _ k _ p hp => happ k p hp, ?_, fun _ _ _ _ _ k _ p hp _ => happ k p hp, ?_⟩
  · intro level _ buf s k ht
    exact ⟨s, by rw [htook _ _ _ ht]; rfl, rfl⟩
  · rintro s z rfl buf k ht
    rw [htook _ _ _ ht]
    rfl

/-- With it, `write` of "hello" takes three bytes, and `write_all` all five. -/
example : (match ({ internal := none, cw := some [] } : Body Bytes).write (shyCodec 3) b!"hello" with
    | .ret (b, n) => (b.cw, n) | .panic => (none, none)) = (some b!"hel", some 3) := by decide +kernel

example : ∃ b1 b2 z, ({ internal := some b!"x", cw := none } : Body Bytes).compression (shyCodec 3) .gzip 6 = .ret b1 ∧
    b1.writeAlls (shyCodec 3) [b!"hello", b!" world"] = some b2 ∧
    b2.finish (shyCodec 3) = ({ internal := some (b!"x" ++ z), cw := none }, true) ∧ z = b!"hello world" := by
  obtain ⟨b1, b2, z, h1, h2, h3, h4, _⟩ := C196_round_trip (shyCodec 3) .gzip _ (shy_streaming .gzip) 6 b!"x" [b!"hello", b!" world"]
  exact ⟨b1, b2, z, h1, h2, h3, h4.symm.trans (by decide)⟩

end Httpd
