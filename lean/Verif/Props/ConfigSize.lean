import Verif.Lemmas.Config
/-! # C48–C51, C82, C83: sizes and durations -/

namespace Httpd
open Spec

/-- Tables that know ASCII and nothing else. -/
def asciiUnicode : Unicode := ⟨fun c => 48 ≤ c && c ≤ 57, fun s => s.map lowerPoint⟩

theorem asciiUnicode_lawful : LawfulUnicode asciiUnicode :=
  ⟨fun c _ => by simp [asciiUnicode], fun _ _ => rfl⟩

theorem sizeTable_ok : TableOk actualSizeTable := by unfold TableOk; decide

theorem durationTable_ok : TableOk durationTable := by unfold TableOk; decide

theorem natStr_digits (n : Nat) : ∀ c ∈ natStr n, 48 ≤ c ∧ c ≤ 57 := by
  intro c hc
  obtain ⟨b, hb, rfl⟩ := List.mem_map.mp hc
  exact natToBytes_digits n b hb

theorem natStr_ne (n : Nat) : natStr n ≠ [] := by
  simp [natStr, natToBytes_ne n]

theorem decOf_natStr (n : Nat) : decOf (natStr n) = n := by
  have h := decOf_bytes (natStr n) (natStr_digits n)
  have : (natStr n).map UInt8.ofNat = natToBytes n := by
    simp [natStr, List.map_map, Function.comp_def]
  rw [this, natToBytes_value] at h
  exact h.symm

/-- A number and a unit, without white space. -/
theorem spells_one (n : Nat) (u : Str) (hu : ∀ c ∈ u, IsLetter c) : Spells (natStr n ++ u) [⟨natStr n, u⟩] := by
  refine ⟨⟨natStr_ne n, natStr_digits n, hu⟩, ?_⟩
  simp only [List.flatMap_cons, List.flatMap_nil, List.append_nil]
  unfold squeeze
  rw [List.filter_eq_self]
  intro c hc
  rcases List.mem_append.mp hc with hc | hc
  · have := natStr_digits n c hc
    have : isUnicodeWhitespace c = false := by
      rw [Bool.eq_false_iff]
      simp only [isUnicodeWhitespace, ne_eq, Bool.or_eq_true, Bool.and_eq_true, decide_eq_true_eq, beq_iff_eq]
      omega
    simp [this]
  · simp [not_white_letter (hu c hc)]

/-! ## C48: sizes -/

/-- **C48**, negation for the code as written: a gigabyte is taken to be 1204 megabytes. Every string of a positive number and `g`
(or `G`, `gb`, ...) means one thing and is read as another. -/
theorem C48_gigabytes_violated (U : Unicode) (hU : LawfulUnicode U) (p : Profile) (n : Nat) (h1 : 1 ≤ n)
    (h2 : n * (1204 * 2 ^ 20) < 2 ^ 64) (u : Str) (hu : u ∈ [u!"g", u!"G", u!"gb", u!"Gb", u!"gB", u!"GB"]) :
    Spells (natStr n ++ u) [⟨natStr n, u⟩] ∧ total sizeTable [⟨natStr n, u⟩] = some (n * 2 ^ 30) ∧ n * 2 ^ 30 < 2 ^ 64 ∧
      parseSize U p (natStr n ++ u) = .value (n * (1204 * 2 ^ 20)) ∧ parseSize U p (natStr n ++ u) ≠ .value (n * 2 ^ 30) := by
  have hlt : n * 2 ^ 30 < 2 ^ 64 := Nat.lt_of_le_of_lt (Nat.mul_le_mul_left n (by decide)) h2
  have hl : ∀ c ∈ u, IsLetter c := by
    simp only [List.mem_cons, List.not_mem_nil, or_false] at hu
    intro c hc
    rcases hu with rfl | rfl | rfl | rfl | rfl | rfl <;> simp at hc <;> (unfold IsLetter; omega)
  have hs := spells_one n u hl
  have htot : ∀ (table : List (Str × Nat)) (f : Nat), table.lookup (u.map lowerPoint) = some f →
      total table [⟨natStr n, u⟩] = some (n * f) := by
    intro table f hf
    simp [total, hf, decOf_natStr]
  have hlook : sizeTable.lookup (u.map lowerPoint) = some (2 ^ 30) ∧
      actualSizeTable.lookup (u.map lowerPoint) = some (1204 * 2 ^ 20) := by
    simp only [List.mem_cons, List.not_mem_nil, or_false] at hu
    rcases hu with rfl | rfl | rfl | rfl | rfl | rfl <;> exact ⟨by decide, by decide⟩
  have hp : parseSize U p (natStr n ++ u) = .value (n * (1204 * 2 ^ 20)) :=
    parseAmount_spells hU p sizeUnit actualSizeTable sizeUnit_table (fun u f h => (sizeTable_ok _ (lookup_mem h)).2) hs
      (htot _ _ hlook.2) (by simp only [u64Max]; omega)
  refine ⟨hs, htot _ _ hlook.1, hlt, hp, ?_⟩
  rw [hp]
  intro h
  simp only [Outcome.value.injEq] at h
  clear hlook htot
  omega

example : parseSize asciiUnicode .release u!"2 GB" = .value 2524971008 ∧ 2 * 2 ^ 30 = 2147483648 := by decide +kernel

theorem total_no_g (ts : List Term) (h : ∀ t ∈ ts, t.InG → decOf t.digits = 0) : total actualSizeTable ts = total sizeTable ts := by
  induction ts with
  | nil => rfl
  | cons t ts ih =>
    have ih := ih (fun t ht => h t (by simp [ht]))
    simp only [total, ih]
    by_cases hg : t.InG
    · have h0 := h t (by simp) hg
      rcases hg with hg | hg <;> rw [hg, h0]
      · have h1 : List.lookup u!"g" actualSizeTable = some (1204 * 2 ^ 20) := by decide
        have h2 : List.lookup u!"g" sizeTable = some (2 ^ 30) := by decide
        rw [h1, h2]
        cases total sizeTable ts <;> simp
      · have h1 : List.lookup u!"gb" actualSizeTable = some (1204 * 2 ^ 20) := by decide
        have h2 : List.lookup u!"gb" sizeTable = some (2 ^ 30) := by decide
        rw [h1, h2]
        cases total sizeTable ts <;> simp
    · have : List.lookup (t.unit.map lowerPoint) actualSizeTable = List.lookup (t.unit.map lowerPoint) sizeTable := by
        simp only [Term.InG, not_or] at hg
        unfold actualSizeTable sizeTable
        simp only [lookup_cons_if, List.lookup_nil, if_neg hg.1, if_neg hg.2]
      rw [this]

/-- **C48**, what holds: strings without a positive number of gigabytes are read right, in every build profile. Missing from C48:
gigabytes. -/
theorem C48_below_g_partial (U : Unicode) (hU : LawfulUnicode U) (p : Profile) (s : Str) (ts : List Term) (hs : Spells s ts)
    (hg : ∀ t ∈ ts, t.InG → decOf t.digits = 0) (n : Nat) (hn : total sizeTable ts = some n) (hb : n < 2 ^ 64) :
    parseSize U p s = .value n :=
  parseAmount_spells hU p sizeUnit actualSizeTable sizeUnit_table (fun u f h => (sizeTable_ok _ (lookup_mem h)).2) hs
    ((total_no_g ts hg).trans hn) (by simp only [u64Max]; omega)

example : Spells u!" 1 M 2kB 3" [⟨u!"1", u!"M"⟩, ⟨u!"2", u!"kB"⟩, ⟨u!"3", u!""⟩] ∧
    total sizeTable [⟨u!"1", u!"M"⟩, ⟨u!"2", u!"kB"⟩, ⟨u!"3", u!""⟩] = some 1050627 ∧
    parseSize asciiUnicode .debug u!" 1 M 2kB 3" = .value 1050627 := by
  refine ⟨⟨⟨⟨by decide, by decide, ?_⟩, by decide, ⟨by decide, by decide, ?_⟩, by decide, ⟨by decide, by decide, ?_⟩⟩, by decide +kernel⟩,
    by decide, by decide +kernel⟩ <;> (unfold IsLetter; decide)

/-! ## C49: durations -/

/-- **C49** Every duration string is read as the number of milliseconds it means, in every build profile. -/
theorem C49_durations (U : Unicode) (hU : LawfulUnicode U) (p : Profile) (s : Str) (ts : List Term) (hs : Spells s ts)
    (n : Nat) (hn : total durationTable ts = some n) (hb : n < 2 ^ 64) : parseDuration U p s = .value n :=
  parseAmount_spells hU p durationUnit durationTable durationUnit_table (fun u f h => (durationTable_ok _ (lookup_mem h)).2) hs hn
    (by simp only [u64Max]; omega)

example : total durationTable [⟨u!"1", u!"H"⟩, ⟨u!"30", u!"m"⟩, ⟨u!"5", u!"MS"⟩] = some 5400005 ∧
    parseDuration asciiUnicode .debug u!"1H 30m 5 MS" = .value 5400005 := by decide +kernel

/-! ## C51: splitting -/

/-- **C51** Splitting keeps every character that is not white space, in order; number parts are numeric, unit parts are not; if
there is anything at all, every number part is non-empty and every unit part but the last is. For every Unicode table. -/
theorem C51_split_lossless (U : Unicode) (s : Str) (items : List (Str × Str)) (h : splitUnit U s = some items) :
    items.flatMap (fun p => p.1 ++ p.2) = squeeze s ∧
    (∀ p ∈ items, (∀ c ∈ p.1, U.numeric c = true) ∧ (∀ c ∈ p.2, U.numeric c = false)) ∧
    (squeeze s ≠ [] → (∀ p ∈ items, p.1 ≠ []) ∧ (∀ p ∈ items.dropLast, p.2 ≠ [])) ∧
    (squeeze s = [] → items = [([], [])]) := by
  obtain ⟨h1, h2, h3⟩ := splitUnit_some h
  have key : ∀ items, Shape U items → (∀ p ∈ items, (∀ c ∈ p.1, U.numeric c = true) ∧ (∀ c ∈ p.2, U.numeric c = false)) ∧
      (∀ p ∈ items, p.1 ≠ []) ∧ (∀ p ∈ items.dropLast, p.2 ≠ []) := by
    intro items
    induction items with
    | nil => intro h; cases h
    | cons p ps ih =>
      intro h
      have hh := h.head
      cases ps with
      | nil =>
        refine ⟨?_, ?_, ?_⟩
        · intro q hq; rw [List.mem_singleton.mp hq]; exact ⟨hh.2.1, hh.2.2.1⟩
        · intro q hq; rw [List.mem_singleton.mp hq]; exact hh.1
        · simp
      | cons r ps =>
        rcases hh.2.2.2 with h0 | ⟨h0, h1⟩
        · cases h0
        · obtain ⟨i1, i2, i3⟩ := ih h1
          refine ⟨?_, ?_, ?_⟩
          · intro q hq
            rcases List.mem_cons.mp hq with rfl | hq
            · exact ⟨hh.2.1, hh.2.2.1⟩
            · exact i1 q hq
          · intro q hq
            rcases List.mem_cons.mp hq with rfl | hq
            · exact hh.1
            · exact i2 q hq
          · intro q hq
            rw [List.dropLast_cons_of_ne_nil (by simp)] at hq
            rcases List.mem_cons.mp hq with rfl | hq
            · exact h0
            · exact i3 q hq
  refine ⟨h1, ?_, fun hne => (key items (h2 hne)).2, h3⟩
  by_cases hz : squeeze s = []
  · rw [h3 hz]; simp
  · exact (key items (h2 hz)).1

example : splitUnit asciiUnicode u!"1 days 2hours3" = some [(u!"1", u!"days"), (u!"2", u!"hours"), (u!"3", u!"")] := by decide +kernel

/-! ## C50: malformed strings -/

/-- **C50**, negation for the code as written: every string whose first character (white space aside) is not numeric crashes the
program, whatever follows. -/
theorem C50_leading_unit_violated (U : Unicode) (p : Profile) (s : Str) (c : Nat) (h : (squeeze s).head? = some c)
    (hc : U.numeric c = false) : parseSize U p s = .panic ∧ parseDuration U p s = .panic := by
  have h1 := (splitUnit_none_iff U s).mpr ⟨c, h, hc⟩
  have h2 : s.isEmpty = false := by
    cases s with
    | nil => simp [squeeze] at h
    | cons _ _ => rfl
  simp [parseSize, parseDuration, parseAmount, h1, h2]

example : (squeeze u!" kb").head? = some 107 ∧ parseSize asciiUnicode .release u!" kb" = .panic := by decide +kernel

/-- **C50**, negation for the code as written: amounts of 2^64 and more crash a debug build and are silently wrong in a release
build. Here for every number of kilobytes that is itself below 2^64. -/
theorem C50_wrap_violated (U : Unicode) (hU : LawfulUnicode U) (n : Nat) (h1 : 2 ^ 54 ≤ n) (h2 : n < 2 ^ 64) :
    parseSize U .debug (natStr n ++ u!"k") = .panic ∧
    parseSize U .release (natStr n ++ u!"k") = .value (n * 2 ^ 10 % 2 ^ 64) ∧ n * 2 ^ 10 % 2 ^ 64 ≠ n * 2 ^ 10 := by
  have hl : ∀ c ∈ u!"k", IsLetter c := by
    intro c hc; rw [List.mem_singleton.mp hc]; unfold IsLetter; omega
  have hs := spells_one n u!"k" hl
  have hne : (natStr n ++ u!"k").isEmpty = false := by simp
  have hpl : Plain ⟨natStr n, u!"k"⟩ := Term.WF.plain ⟨natStr_ne n, natStr_digits n, hl⟩
  have ht : total actualSizeTable [⟨natStr n, u!"k"⟩] = some (n * 2 ^ 10) := by
    have : List.lookup [lowerPoint 107] actualSizeTable = some (2 ^ 10) := by decide
    simp [total, this, decOf_natStr]
  refine ⟨?_, ?_, ?_⟩
  · simp only [parseSize, parseAmount, hne, Bool.false_eq_true, ↓reduceIte, splitUnit_spells hU hs]
    obtain ⟨i1, i2⟩ := item_read hU hpl
    simp only [decOf_natStr, h2, ↓reduceIte] at i1
    simp only [List.map_cons, List.map_nil, sumItems, i1, i2]
    have : sizeUnit [lowerPoint 107] = some 1024 := by decide
    rw [this]
    have : arith .debug (n * 1024) = none := by
      rw [arith, if_neg (by simp only [u64Max]; omega)]
    simp [this]
  · simp only [parseSize, parseAmount, hne, Bool.false_eq_true, ↓reduceIte, splitUnit_spells hU hs]
    have hfit : NumbersFit [⟨natStr n, u!"k"⟩] := by
      intro t ht; rw [List.mem_singleton.mp ht]; simpa [decOf_natStr] using h2
    have := (sumItems_release hU sizeUnit actualSizeTable sizeUnit_table [⟨natStr n, u!"k"⟩]
      (fun t ht => by rw [List.mem_singleton.mp ht]; exact hpl) 0 (by decide)).1 _ hfit ht
    rw [Nat.zero_add] at this
    exact this
  · omega

example : parseSize asciiUnicode .release u!"18014398509481985k" = .value 1024 := by decide +kernel

/-- **C50**, what holds: in a release build nothing but a leading unit panics; in a debug build a returned value is always the sum
that the string means (taking a gigabyte for 1204 megabytes). The strings that return a value are exactly those of C83. Missing from
C50: no panic at all, and no wrong value in a release build. -/
theorem C50_values_partial (U : Unicode) (hU : LawfulUnicode U) (s : Str) :
    (parseSize U .release s = .panic ↔ ∃ c, (squeeze s).head? = some c ∧ U.numeric c = false) ∧
    (parseDuration U .release s = .panic ↔ ∃ c, (squeeze s).head? = some c ∧ U.numeric c = false) ∧
    ((∀ c ∈ s, c < 128) → ∀ n,
      (parseSize U .debug s = .value n → s = [] ∧ n = 0 ∨ ∃ ts, Spells s ts ∧ total actualSizeTable ts = some n) ∧
      (parseDuration U .debug s = .value n → s = [] ∧ n = 0 ∨ ∃ ts, Spells s ts ∧ total durationTable ts = some n)) := by
  have key : ∀ units, parseAmount U .release units s = .panic ↔ ∃ c, (squeeze s).head? = some c ∧ U.numeric c = false := by
    intro units
    rw [← splitUnit_none_iff]
    unfold parseAmount
    cases hs : s with
    | nil => simp [splitUnit, splitLoop]
    | cons a l =>
      simp only [List.isEmpty_cons, Bool.false_eq_true, ↓reduceIte]
      cases splitUnit U (a :: l) with
      | none => simp
      | some items => simp [sumItems_release_no_panic]
  refine ⟨key _, key _, ?_⟩
  intro hs n
  constructor
  · intro h
    rcases (parseAmount_exact hU sizeUnit actualSizeTable sizeUnit_table sizeTable_ok s hs n).1.mp h with h | ⟨ts, h1, h2, _⟩
    · exact Or.inl h
    · exact Or.inr ⟨ts, h1, h2⟩
  · intro h
    rcases (parseAmount_exact hU durationUnit durationTable durationUnit_table durationTable_ok s hs n).1.mp h with h | ⟨ts, h1, h2, _⟩
    · exact Or.inl h
    · exact Or.inr ⟨ts, h1, h2⟩

/-! ## C82, C83: exact characterisations -/

/-- **C82** The value of every size string, gigabytes included, as the code has it; it is the intended one exactly when no positive
number of gigabytes occurs. -/
theorem C82_size_value (U : Unicode) (hU : LawfulUnicode U) (p : Profile) (s : Str) (ts : List Term) (hs : Spells s ts) (n m : Nat)
    (hn : total sizeTable ts = some n) (hm : total actualSizeTable ts = some m) (hb : m < 2 ^ 64) :
    parseSize U p s = .value m ∧ (m = n ↔ ∀ t ∈ ts, t.InG → decOf t.digits = 0) := by
  refine ⟨parseAmount_spells hU p sizeUnit actualSizeTable sizeUnit_table (fun u f h => (sizeTable_ok _ (lookup_mem h)).2) hs hm
    (by simp only [u64Max]; omega), ?_, ?_⟩
  · have key : ∀ ts n m, total sizeTable ts = some n → total actualSizeTable ts = some m →
        n ≤ m ∧ (m = n → ∀ t ∈ ts, t.InG → decOf t.digits = 0) := by
      intro ts
      induction ts with
      | nil =>
        intro n m hn hm
        simp only [total, Option.some.injEq] at hn hm
        exact ⟨by omega, by simp⟩
      | cons t ts ih =>
        intro n m hn hm
        simp only [total] at hn hm
        cases h1 : total sizeTable ts with
        | none => simp [h1] at hn
        | some n' =>
          cases h2 : total actualSizeTable ts with
          | none => simp [h2] at hm
          | some m' =>
            obtain ⟨ih1, ih2⟩ := ih n' m' h1 h2
            by_cases hg : t.InG
            · have hl : sizeTable.lookup (t.unit.map lowerPoint) = some (2 ^ 30) ∧
                  actualSizeTable.lookup (t.unit.map lowerPoint) = some (1204 * 2 ^ 20) := by
                rcases hg with hg | hg <;> rw [hg] <;> exact ⟨by decide, by decide⟩
              simp only [h1, hl.1, Option.some.injEq] at hn
              simp only [h2, hl.2, Option.some.injEq] at hm
              refine ⟨by omega, ?_⟩
              intro he x hx hxg
              rcases List.mem_cons.mp hx with rfl | hx
              · omega
              · exact ih2 (by omega) x hx hxg
            · have hl : actualSizeTable.lookup (t.unit.map lowerPoint) = sizeTable.lookup (t.unit.map lowerPoint) := by
                have hg' := hg
                simp only [Term.InG, not_or] at hg'
                unfold actualSizeTable sizeTable
                simp only [lookup_cons_if, List.lookup_nil, if_neg hg'.1, if_neg hg'.2]
              rw [hl] at hm
              cases h3 : sizeTable.lookup (t.unit.map lowerPoint) with
              | none => simp [h3] at hn
              | some f =>
                simp only [h1, h3, Option.some.injEq] at hn
                simp only [h2, h3, Option.some.injEq] at hm
                refine ⟨by omega, ?_⟩
                intro he x hx hxg
                rcases List.mem_cons.mp hx with rfl | hx
                · exact absurd hxg hg
                · exact ih2 (by omega) x hx hxg
    exact (key ts n m hn hm).2
  · intro h
    have := total_no_g ts h
    rw [hn, hm] at this
    exact Option.some.inj this

example : total sizeTable [⟨u!"1", u!"g"⟩, ⟨u!"1", u!"k"⟩] = some 1073742848 ∧
    total actualSizeTable [⟨u!"1", u!"g"⟩, ⟨u!"1", u!"k"⟩] = some 1262486528 := by decide

/-- **C83** Exactly which ASCII strings are read as which size: the empty string as 0, and the spellings of sums. In a debug build
the sum has to be below 2^64, in a release build each number has to be and the sum is taken modulo 2^64. -/
theorem C83_sizes_exactly (U : Unicode) (hU : LawfulUnicode U) (s : Str) (hs : ∀ c ∈ s, c < 128) (n : Nat) :
    (parseSize U .debug s = .value n ↔
      s = [] ∧ n = 0 ∨ ∃ ts, Spells s ts ∧ total actualSizeTable ts = some n ∧ n < 2 ^ 64) ∧
    (parseSize U .release s = .value n ↔
      s = [] ∧ n = 0 ∨ ∃ ts m, Spells s ts ∧ NumbersFit ts ∧ total actualSizeTable ts = some m ∧ n = m % 2 ^ 64) :=
  parseAmount_exact hU sizeUnit actualSizeTable sizeUnit_table sizeTable_ok s hs n

/-- **C83** The same for durations. -/
theorem C83_durations_exactly (U : Unicode) (hU : LawfulUnicode U) (s : Str) (hs : ∀ c ∈ s, c < 128) (n : Nat) :
    (parseDuration U .debug s = .value n ↔
      s = [] ∧ n = 0 ∨ ∃ ts, Spells s ts ∧ total durationTable ts = some n ∧ n < 2 ^ 64) ∧
    (parseDuration U .release s = .value n ↔
      s = [] ∧ n = 0 ∨ ∃ ts m, Spells s ts ∧ NumbersFit ts ∧ total durationTable ts = some m ∧ n = m % 2 ^ 64) :=
  parseAmount_exact hU durationUnit durationTable durationUnit_table durationTable_ok s hs n

example : parseSize asciiUnicode .debug u!"12x" = .error ∧ parseSize asciiUnicode .debug u!"  " = .error ∧
    parseSize asciiUnicode .debug u!"" = .value 0 ∧ parseDuration asciiUnicode .release u!"99999999999999999999" = .error := by
  decide +kernel

end Httpd
