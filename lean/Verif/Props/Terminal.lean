import Verif.Spec.Terminal
import Verif.Props.Render
/-!
# C240: what a terminal shows of coloured lines
-/

namespace Httpd

open Spec

theorem shows_open (a b : Bytes) (pen : Pen) (h : 27 ∉ a) : shows none pen (a ++ b) = inPen a pen ++ shows none pen b := by
  induction a with
  | nil => rfl
  | cons c cs ih =>
    simp only [List.mem_cons, not_or] at h
    simp only [List.cons_append, shows, Ne.symm h.1, ↓reduceIte, ih h.2, inPen, List.map_cons]

theorem shows_skip (seq a b : Bytes) (pen : Pen) (h : 109 ∉ a) : shows (some seq) pen (a ++ 109 :: b) = shows none (sgrPen pen (seq ++ a)) b := by
  induction a generalizing seq with
  | nil => simp [shows]
  | cons c cs ih =>
    simp only [List.mem_cons, not_or] at h
    simp only [List.cons_append, shows, Ne.symm h.1, ↓reduceIte, ih _ h.2, List.append_assoc, List.singleton_append]
    simp

theorem sgrNumbers_digits (ds rest : Bytes) (acc : Nat) (h : ∀ b ∈ ds, IsDigit b) :
    sgrNumbers acc (ds ++ rest) = sgrNumbers (acc * 10 ^ ds.length + decValue ds) rest := by
  induction ds generalizing acc with
  | nil => simp [decValue]
  | cons c cs ih =>
    have hc : c ≠ 59 := by
      rintro rfl
      have := h 59 (List.mem_cons_self ..)
      simp only [IsDigit] at this
      exact absurd this (by decide)
    simp only [List.cons_append, sgrNumbers, hc, ↓reduceIte]
    rw [ih _ fun b hb => h b (List.mem_cons_of_mem _ hb)]
    congr 1
    simp only [decValue, List.length_cons, Nat.pow_succ]
    rw [Nat.add_mul, Nat.mul_comm (10 ^ _) 10, Nat.mul_assoc, Nat.add_assoc]

theorem sgrNumbers_nat (n : Nat) (rest : Bytes) : sgrNumbers 0 (natToBytes n ++ rest) = sgrNumbers n rest := by
  rw [sgrNumbers_digits _ _ _ (natToBytes_digits n), natToBytes_value]
  simp

theorem sgrPen_color (pen : Pen) (c : Color) :
    sgrPen pen (b!"[38;2;" ++ natToBytes c.r ++ [59] ++ natToBytes c.g ++ [59] ++ natToBytes c.b) = some (c.r, c.g, c.b) := by
  have e : sgrNumbers 0 ((b!"[38;2;" ++ natToBytes c.r ++ [59] ++ natToBytes c.g ++ [59] ++ natToBytes c.b).drop 1) = [38, 2, c.r, c.g, c.b] := by
    have : (b!"[38;2;" ++ natToBytes c.r ++ [59] ++ natToBytes c.g ++ [59] ++ natToBytes c.b).drop 1
        = b!"38;2;" ++ (natToBytes c.r ++ (59 :: (natToBytes c.g ++ (59 :: (natToBytes c.b ++ []))))) := by
      simp
    rw [this]
    have h0 : ∀ t, sgrNumbers 0 (b!"38;2;" ++ t) = 38 :: 2 :: sgrNumbers 0 t := by
      intro t; simp [sgrNumbers]
    rw [h0, sgrNumbers_nat]
    simp only [sgrNumbers, ↓reduceIte]
    rw [sgrNumbers_nat]
    simp only [sgrNumbers, ↓reduceIte]
    rw [sgrNumbers_nat]
    simp only [sgrNumbers]
  simp only [sgrPen, e]

theorem shows_withColor (txt rest : Bytes) (c : Option Color) (h : 27 ∉ txt) :
    shows none none (withColor txt c ++ rest) = inPen txt (penOf c) ++ shows none none rest := by
  cases c with
  | none => exact shows_open txt rest none h
  | some c =>
    by_cases hb : c.isBlock = true
    · have hp : penOf (some c) = none := by
        simp only [Color.isBlock, Bool.and_eq_true, decide_eq_true_eq] at hb
        simp [penOf, hb]
      simp only [withColor, hb, ↓reduceIte, hp]
      exact shows_open txt rest none h
    · have hp : penOf (some c) = some (c.r, c.g, c.b) := by
        simp only [Color.isBlock, Bool.and_eq_true, decide_eq_true_eq] at hb
        simp only [penOf, Prod.mk.injEq]
        rw [if_neg (fun hh => hb ⟨⟨hh.1, hh.2.1⟩, hh.2.2⟩)]
      have hm : 109 ∉ b!"[38;2;" ++ natToBytes c.r ++ [59] ++ natToBytes c.g ++ [59] ++ natToBytes c.b := by
        have h1 := natToBytes_not c.r 109 (by decide)
        have h2 := natToBytes_not c.g 109 (by decide)
        have h3 := natToBytes_not c.b 109 (by decide)
        simp [h1, h2, h3]
      have e : withColor txt (some c) ++ rest
          = 27 :: ((b!"[38;2;" ++ natToBytes c.r ++ [59] ++ natToBytes c.g ++ [59] ++ natToBytes c.b) ++ 109 :: (txt ++ 27 :: (b!"[0" ++ 109 :: rest))) := by
        simp [withColor, hb]
      rw [e, hp]
      simp only [shows, ↓reduceIte]
      rw [shows_skip _ _ _ _ hm, List.nil_append, sgrPen_color, shows_open _ _ _ h]
      simp only [shows, ↓reduceIte]
      rw [shows_skip _ _ _ _ (by decide)]
      rfl

theorem shows_colorPairs (key level : Option Color) (kvs : List (Bytes × Bytes)) (rest : Bytes) (h : ∀ kv ∈ kvs, 27 ∉ kv.1 ∧ 27 ∉ kv.2) :
    shows none none (colorPairs key level kvs ++ rest) =
      (inPen b!" , " none).intercalate (kvs.map fun kv => inPen kv.1 (penOf key) ++ inPen b!": " none ++ inPen kv.2 (penOf level)) ++
        shows none none rest := by
  induction kvs with
  | nil => simp [colorPairs, List.intercalate]
  | cons kv kvs ih =>
    obtain ⟨k, v⟩ := kv
    obtain ⟨h1, h2⟩ := h (k, v) (List.mem_cons_self ..)
    have ih := ih (fun x hx => h x (List.mem_cons_of_mem _ hx))
    match kvs, ih with
    | [], _ =>
      simp only [colorPairs, List.append_assoc]
      rw [shows_withColor _ _ _ h1, shows_open _ _ _ (by decide), shows_withColor _ _ _ h2]
      simp [List.intercalate]
    | kv' :: kvs', ih =>
      simp only [colorPairs, List.append_assoc]
      rw [shows_withColor _ _ _ h1, shows_open _ _ _ (by decide), shows_withColor _ _ _ h2, shows_open _ _ _ (by decide), ih]
      simp [List.intercalate]

theorem colourOf_get {levels : Option LevelColors} {l : Level} {c : Option Color} (h : IsColourOf levels l c) : levels.bind (·.get l) = c := by
  cases h <;> rfl

/-- One line, whatever is written after it. -/
theorem shows_line (scheme : ColorScheme) (c : Option Color) (item : Item) (rest : Bytes) (hc : IsColourOf scheme.levels item.level c)
    (h : NoEscape item) : shows none none (colorRender scheme item ++ rest) = shownLine scheme c item ++ shows none none rest := by
  obtain ⟨h1, h2, h3, h4⟩ := h
  have hl : 27 ∉ [91] ++ (item.level.bytes ++ [93]) := by cases item.level <;> decide
  have hn := natToBytes_not item.line 27 (by decide)
  unfold colorRender shownLine
  simp only [colourOf_get hc, levelWord_eq]
  cases hk : item.kvs with
  | nil =>
    simp only [List.isEmpty_nil, ↓reduceIte, List.append_assoc]
    rw [shows_withColor _ _ _ hl, shows_open [32] _ _ (by decide), shows_withColor _ _ _ h1, shows_open [32] _ _ (by decide),
      shows_open [40] _ _ (by decide), shows_withColor _ _ _ h2, shows_open [58] _ _ (by decide), shows_withColor _ _ _ hn,
      shows_open _ _ _ (by decide), shows_withColor _ _ _ h3, shows_open _ _ _ (by decide)]
    simp [inPen]
  | cons kv kvs =>
    rw [hk] at h4
    simp only [List.isEmpty_cons, Bool.false_eq_true, ↓reduceIte, List.append_assoc, reduceCtorEq]
    rw [shows_withColor _ _ _ hl, shows_open [32] _ _ (by decide), shows_withColor _ _ _ h1, shows_open [32] _ _ (by decide),
      shows_open [40] _ _ (by decide), shows_withColor _ _ _ h2, shows_open [58] _ _ (by decide), shows_withColor _ _ _ hn,
      shows_open _ _ _ (by decide), shows_withColor _ _ _ h3, shows_open _ _ _ (by decide), shows_colorPairs _ _ _ _ h4,
      shows_open _ _ _ (by decide)]
    simp [inPen]

/-- **C240**: of any records written one after another, a terminal shows every part in its colour: the level, the message and the values in the
colour configured for the level of that very record, the time, the file, the line and the keys in theirs, everything else - and whatever is
written afterwards - in the default colour. -/
theorem C240_shown (scheme : ColorScheme) (items : List Item) (rest : Bytes) (hs : ∀ item ∈ items, NoEscape item) (col : Item → Option Color)
    (hc : ∀ item ∈ items, IsColourOf scheme.levels item.level (col item)) :
    shows none none (items.flatMap (colorRender scheme) ++ rest) =
      items.flatMap (fun item => shownLine scheme (col item) item) ++ shows none none rest := by
  induction items with
  | nil => rfl
  | cons item items ih =>
    simp only [List.flatMap_cons, List.append_assoc]
    rw [shows_line scheme (col item) item _ (hc _ (List.mem_cons_self ..)) (hs _ (List.mem_cons_self ..)),
      ih (fun x hx => hs x (List.mem_cons_of_mem _ hx)) (fun x hx => hc x (List.mem_cons_of_mem _ hx))]

/-- **C240**: the colours of the levels in the scheme the server uses. -/
theorem C240_default (l : Level) (c : Option Color) (h : IsColourOf ColorScheme.default.levels l c) :
    penOf c = some (usualColour l) := by
  cases h <;> rfl

/-- **C240**: so, in the scheme the server uses, the level can be told from the colour of the first character alone. -/
theorem C240_told (a b : Item) (ha : NoEscape a) (hb : NoEscape b)
    (hsame : (shows none none (colorRender .default a)).head? = (shows none none (colorRender .default b)).head?) : a.level = b.level := by
  have get : ∀ l : Level, ∃ c, IsColourOf ColorScheme.default.levels l c := by
    intro l
    cases l
    · exact ⟨_, .error ..⟩
    · exact ⟨_, .warn ..⟩
    · exact ⟨_, .info ..⟩
    · exact ⟨_, .debug ..⟩
    · exact ⟨_, .trace ..⟩
  have first : ∀ (x : Item) (c : Option Color), NoEscape x → IsColourOf ColorScheme.default.levels x.level c →
      (shows none none (colorRender .default x)).head? = some (91, penOf c) := by
    intro x c hx hc
    have := shows_line .default c x [] hc hx
    rw [List.append_nil] at this
    rw [this]
    simp [shownLine, inPen]
  obtain ⟨ca, hca⟩ := get a.level
  obtain ⟨cb, hcb⟩ := get b.level
  rw [first a ca ha hca, first b cb hb hcb] at hsame
  have e : penOf ca = penOf cb := by simpa using hsame
  rw [C240_default _ _ hca, C240_default _ _ hcb] at e
  have h2 : usualColour a.level = usualColour b.level := by simpa using e
  generalize a.level = x at h2 ⊢
  generalize b.level = y at h2 ⊢
  revert h2
  cases x <;> cases y <;> decide

/-! A warning and an error, one after the other. -/

private def someWarning : Item := ⟨b!"12:00", .warn, b!"a.rs", 7, b!"hi", [(b!"k", b!"1")], 0⟩

private def someError : Item := ⟨b!"12:01", .error, b!"a.rs", 9, b!"no", [], 0⟩

example : (∀ item ∈ [someWarning, someError], NoEscape item) ∧ IsColourOf ColorScheme.default.levels .warn (some ⟨252, 211, 55⟩) ∧
    IsColourOf ColorScheme.default.levels .error (some ⟨237, 90, 101⟩) := by
  refine ⟨?_, .warn .., .error ..⟩
  intro item h
  simp only [List.mem_cons, List.not_mem_nil, or_false] at h
  rcases h with rfl | rfl <;> (unfold NoEscape; decide)

example : (shows none none ([someWarning, someError].flatMap (colorRender .default))).filter (fun p => p.2 = some (237, 90, 101)) =
    inPen b!"[ERROR]no" (some (237, 90, 101)) := by decide +kernel

end Httpd
