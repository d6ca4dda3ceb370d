import Verif.Props.TimeFormat
import Verif.Props.JsonLine
/-!
# Exactly which layouts of times spoil JSON lines (C155)
-/

namespace Httpd

open Spec

/-- A character that a JSON string may contain as it is. -/
def QuietChar (c : Nat) : Prop := 32 ≤ c ∧ c ≠ 34 ∧ c ≠ 92

instance (c : Nat) : Decidable (QuietChar c) := by unfold QuietChar; infer_instance

theorem plainByte_ofNat {c : Nat} (h : c < 256) : (32 ≤ UInt8.ofNat c ∧ UInt8.ofNat c ≠ 34 ∧ UInt8.ofNat c ≠ 92) ↔ QuietChar c := by
  have hn : (UInt8.ofNat c).toNat = c := by simp; omega
  have e : ∀ d : UInt8, UInt8.ofNat c = d ↔ c = d.toNat := fun d => by rw [← UInt8.toNat_inj, hn]
  unfold QuietChar
  rw [UInt8.le_iff_toNat_le, hn, Ne, e, Ne, e]
  rfl

theorem plainText_cons {b : Byte} {t : Bytes} : PlainText (b :: t) ↔ (32 ≤ b ∧ b ≠ 34 ∧ b ≠ 92) ∧ PlainText t := by
  simp only [PlainText, List.forall_mem_cons]

theorem plainText_append {s t : Bytes} : PlainText (s ++ t) ↔ PlainText s ∧ PlainText t := by
  simp only [PlainText, List.forall_mem_append]

theorem plain_enc {c : Nat} (h : c < 0x110000) : PlainText (encodeUtf8.enc c) ↔ QuietChar c := by
  have hnil : PlainText [] := fun _ h => by cases h
  have hb : ∀ d, 128 ≤ d → d < 256 → (32 ≤ UInt8.ofNat d ∧ UInt8.ofNat d ≠ 34 ∧ UInt8.ofNat d ≠ 92) := fun d h1 h2 =>
    (plainByte_ofNat h2).mpr ⟨by omega, by omega, by omega⟩
  unfold encodeUtf8.enc
  split
  · rw [plainText_cons, plainByte_ofNat (by omega)]
    exact ⟨fun h => h.1, fun h => ⟨h, hnil⟩⟩
  · have hq : QuietChar c := ⟨by omega, by omega, by omega⟩
    split
    · simp only [plainText_cons]
      exact ⟨fun _ => hq, fun _ => ⟨hb _ (by omega) (by omega), hb _ (by omega) (by omega), hnil⟩⟩
    · split
      · simp only [plainText_cons]
        exact ⟨fun _ => hq, fun _ => ⟨hb _ (by omega) (by omega), hb _ (by omega) (by omega), hb _ (by omega) (by omega), hnil⟩⟩
      · simp only [plainText_cons]
        exact ⟨fun _ => hq, fun _ => ⟨hb _ (by omega) (by omega), hb _ (by omega) (by omega), hb _ (by omega) (by omega),
          hb _ (by omega) (by omega), hnil⟩⟩

theorem plain_encode {s : Str} (h : ∀ c ∈ s, c < 0x110000) : PlainText (encodeUtf8 s) ↔ ∀ c ∈ s, QuietChar c := by
  unfold encodeUtf8
  induction s with
  | nil => exact ⟨fun _ _ h => (by cases h), fun _ _ h => (by cases h)⟩
  | cons c s ih =>
    rw [List.forall_mem_cons] at h
    rw [List.map_cons, List.flatten_cons, plainText_append, plain_enc h.1, ih h.2, List.forall_mem_cons]

theorem padded_quiet (w n : Nat) : ∀ c ∈ padded w n, QuietChar c ∧ c < 0x110000 := by
  induction w generalizing n with
  | zero => intro c hc; cases hc
  | succ w ih =>
    intro c hc
    simp only [padded, List.mem_append, List.mem_singleton] at hc
    rcases hc with hc | rfl
    · exact ih _ c hc
    · exact ⟨⟨by omega, by omega, by omega⟩, by omega⟩

theorem natToBytes_quiet (n : Nat) : ∀ c ∈ (natToBytes n).map UInt8.toNat, QuietChar c ∧ c < 0x110000 := by
  intro c hc
  obtain ⟨b, hb, rfl⟩ := List.mem_map.mp hc
  have := natToBytes_digits n b hb
  obtain ⟨h1, h2⟩ := this
  exact ⟨⟨by omega, by omega, by omega⟩, by omega⟩

theorem yearText_quiet (y : Nat) : ∀ c ∈ yearText y, QuietChar c ∧ c < 0x110000 := by
  unfold yearText
  split
  · exact padded_quiet _ _
  · intro c hc
    rcases List.mem_append.mp hc with hc | hc
    · rw [List.mem_singleton.mp hc]; exact ⟨by decide, by decide⟩
    · exact natToBytes_quiet _ c hc

/-- The other specifiers are spelled with characters that a JSON string may contain, and so are their texts. -/
def QuietSpecifiers (x : Specifiers) : Prop :=
  ∀ s n f, x s = some (n, f) → (∀ c ∈ s.take (n + 1), QuietChar c) ∧ ∀ l, ∀ c ∈ f l, QuietChar c ∧ c < 0x110000

theorem layout_quiet {x : Specifiers} (hx : QuietSpecifiers x) (l fuel : Nat) (s : Str) (ps : List Piece) (h : parseLayout x fuel s = some ps) :
    ((∀ c ∈ (ps.map (Piece.text l)).flatten, QuietChar c) ↔ ∀ c ∈ s, QuietChar c) ∧
    ((∀ c ∈ s, c < 0x110000) → ∀ c ∈ (ps.map (Piece.text l)).flatten, c < 0x110000) := by
  induction fuel generalizing s ps with
  | zero =>
    cases s with
    | nil => cases h; simp
    | cons c s => cases h
  | succ fuel ih =>
    cases s with
    | nil => cases h; simp
    | cons c rest =>
      have step : ∀ (front rest : Str) (p : Piece), (parseLayout x fuel rest).map (p :: ·) = some ps →
          ((∀ c ∈ p.text l, QuietChar c) ↔ ∀ c ∈ front, QuietChar c) → ((∀ c ∈ front, c < 0x110000) → ∀ c ∈ p.text l, c < 0x110000) →
          ((∀ c ∈ (ps.map (Piece.text l)).flatten, QuietChar c) ↔ ∀ c ∈ front ++ rest, QuietChar c) ∧
          ((∀ c ∈ front ++ rest, c < 0x110000) → ∀ c ∈ (ps.map (Piece.text l)).flatten, c < 0x110000) := by
        intro front rest p h1 h2 h3
        obtain ⟨qs, hq, rfl⟩ := Option.map_eq_some_iff.mp h1
        obtain ⟨i1, i2⟩ := ih rest qs hq
        rw [List.map_cons, List.flatten_cons, List.forall_mem_append, List.forall_mem_append, List.forall_mem_append, List.forall_mem_append, h2, i1]
        exact ⟨Iff.rfl, fun h => ⟨h3 h.1, i2 h.2⟩⟩
      have known : ∀ (front rest : Str) (p : Piece), (parseLayout x fuel rest).map (p :: ·) = some ps →
          (∀ c ∈ p.text l, QuietChar c ∧ c < 0x110000) → (∀ c ∈ front, QuietChar c) →
          ((∀ c ∈ (ps.map (Piece.text l)).flatten, QuietChar c) ↔ ∀ c ∈ front ++ rest, QuietChar c) ∧
          ((∀ c ∈ front ++ rest, c < 0x110000) → ∀ c ∈ (ps.map (Piece.text l)).flatten, c < 0x110000) := fun front rest p h1 h2 h3 =>
        step front rest p h1 ⟨fun _ => h3, fun _ c hc => (h2 c hc).1⟩ (fun _ c hc => (h2 c hc).2)
      unfold parseLayout at h
      split at h
      · exact step [c] rest (.char c) h Iff.rfl id
      · rename_i hc
        have hc : c = 37 := Decidable.of_not_not hc
        subst hc
        split at h
        · cases h
        · exact known [37, 37] _ _ h (by intro c hc; rw [List.mem_singleton.mp hc]; decide) (by decide)
        · exact known [37, 89] _ _ h (yearText_quiet _) (by decide)
        · exact known [37, 109] _ _ h (padded_quiet _ _) (by decide)
        · exact known [37, 100] _ _ h (padded_quiet _ _) (by decide)
        · exact known [37, 72] _ _ h (padded_quiet _ _) (by decide)
        · exact known [37, 77] _ _ h (padded_quiet _ _) (by decide)
        · exact known [37, 83] _ _ h (padded_quiet _ _) (by decide)
        · refine known [37, 46, 51, 102] _ _ h (fun c hc => ?_) (by decide)
          rcases List.mem_append.mp hc with hc | hc
          · rw [List.mem_singleton.mp hc]; decide
          · exact padded_quiet _ _ c hc
        · split at h
          · cases h
          · rename_i n text hxs
            obtain ⟨h1, h2⟩ := hx _ _ _ hxs
            have := known (37 :: rest.take (n + 1)) (rest.drop (n + 1)) _ h (h2 l) (by
              rw [List.forall_mem_cons]; exact ⟨by decide, h1⟩)
            rwa [List.cons_append, List.take_append_drop] at this

/-- **C155**, exactly: whatever the time, the line of a record whose other texts need no escapes tells the record if and only if the layout of times
has no control characters, quotes and backslashes. (Of chrono's specifiers only `%t` and `%n` are not `QuietSpecifiers`: their texts are a tab and
the end of a line.) Missing from C155: layouts with such characters. -/
theorem C155_exactly_partial (x : Specifiers) (hx : QuietSpecifiers x) (c : Config) (hs : ∀ ch ∈ c.logging.timelayout, ch < 0x110000) (l : Nat)
    (txt : Bytes) (h : c.timeText x l = some txt) (item : Item) (hk : item.kvs = []) (hf : PlainText item.file) (hm : PlainText item.msg) :
    TellsRecord { item with time := txt } (jsonRender { item with time := txt }) ↔
      ∀ ch ∈ c.logging.timelayout, 32 ≤ ch ∧ ch ≠ 34 ∧ ch ≠ 92 := by
  rw [C205_exact]
  obtain ⟨text, ht, rfl⟩ := Option.map_eq_some_iff.mp h
  obtain ⟨ps, hp, rfl⟩ := Option.map_eq_some_iff.mp ht
  obtain ⟨h1, h2⟩ := layout_quiet hx l _ _ _ hp
  have hl : (∀ ch ∈ layoutOf c.logging.timelayout, QuietChar ch) ↔ ∀ ch ∈ c.logging.timelayout, QuietChar ch := by
    unfold layoutOf
    split
    · rename_i he
      rw [List.isEmpty_iff.mp he]
      exact ⟨fun _ _ h => (by cases h), fun _ => (by decide)⟩
    · rfl
  have hs' : ∀ ch ∈ layoutOf c.logging.timelayout, ch < 0x110000 := by
    unfold layoutOf
    split
    · decide
    · exact hs
  rw [plain_encode (h2 hs'), h1, hl]
  exact ⟨fun h => h.2.1, fun h => ⟨hk, h, hf, hm⟩⟩

/-- C155: a layout with a backslash, at a time; the record of C205's example. -/
example : QuietSpecifiers (fun _ => none) := fun _ _ _ h => by cases h

example : (fmtLocal (fun _ => none) u!"%H\\%M" 3600000).isSome = true ∧ ¬ ∀ ch ∈ u!"%H\\%M", 32 ≤ ch ∧ ch ≠ 34 ∧ ch ≠ 92 := by
  decide +kernel

example : (fmtLocal (fun _ => none) u!"%H:%M é" 3600000).isSome = true ∧ ∀ ch ∈ u!"%H:%M é", 32 ≤ ch ∧ ch ≠ 34 ∧ ch ≠ 92 := by
  decide +kernel

end Httpd
