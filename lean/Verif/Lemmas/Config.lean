import Verif.Spec.Config
import Verif.Lemmas.RustInt
/-! # Facts about sizes and durations -/

namespace Httpd
open Spec

attribute [local irreducible] isUnicodeWhitespace

/-! ## Splitting -/

/-- Pairs of a non-empty run of numeric characters and a run of others, empty at most for the last pair. -/
def Shape (U : Unicode) : List (Str × Str) → Prop
  | [] => False
  | [p] => p.1 ≠ [] ∧ (∀ c ∈ p.1, U.numeric c = true) ∧ (∀ c ∈ p.2, U.numeric c = false)
  | p :: q :: ps => p.1 ≠ [] ∧ (∀ c ∈ p.1, U.numeric c = true) ∧ (∀ c ∈ p.2, U.numeric c = false) ∧ p.2 ≠ [] ∧ Shape U (q :: ps)

/-- Pairs put back together. -/
def joinPairs (ps : List (Str × Str)) : Str := ps.flatMap (fun p => p.1 ++ p.2)

theorem joinPairs_cons (p : Str × Str) (ps : List (Str × Str)) : joinPairs (p :: ps) = p.1 ++ p.2 ++ joinPairs ps := by
  simp [joinPairs]

theorem joinPairs_append (ps qs : List (Str × Str)) : joinPairs (ps ++ qs) = joinPairs ps ++ joinPairs qs := by
  simp [joinPairs]

theorem squeeze_white {c : Nat} (h : isUnicodeWhitespace c = true) (cs : Str) : squeeze (c :: cs) = squeeze cs := by
  unfold squeeze; rw [List.filter_cons, h]; rfl

theorem squeeze_black {c : Nat} (h : isUnicodeWhitespace c = false) (cs : Str) : squeeze (c :: cs) = c :: squeeze cs := by
  unfold squeeze; rw [List.filter_cons, h]; rfl

theorem splitStep_white (U : Unicode) (st : SplitState) {c : Nat} (h : isUnicodeWhitespace c = true) :
    splitStep U st c = some st := by
  unfold splitStep; rw [if_pos h]

theorem splitLoop_squeeze (U : Unicode) (s : Str) (st : SplitState) :
    splitLoop U st s = splitLoop U st (squeeze s) := by
  induction s generalizing st with
  | nil => rfl
  | cons c cs ih =>
    cases h : isUnicodeWhitespace c with
    | true => rw [squeeze_white h, splitLoop, splitStep_white U st h]; exact ih st
    | false =>
      rw [squeeze_black h, splitLoop, splitLoop]
      cases splitStep U st c with
      | none => rfl
      | some st' => exact ih st'

theorem after_numeric {U : Unicode} {c : Nat} (h : U.numeric c = true) (st : SplitState) :
    (st.after U c).unitBegin = st.unitBegin := by
  simp only [SplitState.after, h, Bool.not_true, Bool.and_false, Bool.false_eq_true, ↓reduceIte]
  split <;> rfl

theorem after_other {U : Unicode} {c : Nat} (h : U.numeric c = false) (st : SplitState)
    (h2 : st.unitBegin = true ∨ ∃ p, st.prev = some p ∧ U.numeric p = true) : (st.after U c).unitBegin = true := by
  simp only [SplitState.after]
  rcases h2 with h2 | ⟨p, h2, h3⟩
  · rw [h2]
    split
    · rfl
    · split <;> rfl
  · simp [h2, h3, h]

/-- Invariant of the splitting loop; `seen` is what was read, without white space. -/
structure SplitInv (U : Unicode) (st : SplitState) (seen : Str) : Prop where
  flat : joinPairs st.done ++ st.num ++ st.unit = seen
  done : ∀ p ∈ st.done, p.1 ≠ [] ∧ (∀ c ∈ p.1, U.numeric c = true) ∧ (∀ c ∈ p.2, U.numeric c = false) ∧ p.2 ≠ []
  num : ∀ c ∈ st.num, U.numeric c = true
  unit : ∀ c ∈ st.unit, U.numeric c = false
  begin_ : st.unitBegin = !st.unit.isEmpty
  prev : st.prev = seen.getLast?
  first : st.num = [] → seen = []

theorem SplitInv.init (U : Unicode) : SplitInv U .init [] := by
  constructor <;> simp [SplitState.init, joinPairs]

theorem splitStep_inv {U : Unicode} {st st' : SplitState} {seen : Str} {c : Nat} (hi : SplitInv U st seen)
    (hw : isUnicodeWhitespace c = false) (h : splitStep U st c = some st') : SplitInv U st' (seen ++ [c]) := by
  obtain ⟨flat, done, num, unit, hb, prev, first⟩ := hi
  simp only [splitStep, hw, Bool.false_eq_true, ↓reduceIte] at h
  by_cases hn : U.numeric c = true
  · simp only [hn, ↓reduceIte] at h
    by_cases hu : st.unitBegin = true
    · simp only [hu, ↓reduceIte, Option.some.injEq] at h
      subst h
      have hune : st.unit ≠ [] := by
        intro h0; rw [hb, h0] at hu; simp at hu
      have hnne : st.num ≠ [] := by
        intro h0
        have h1 := first h0
        rw [← flat] at h1
        simp at h1
        exact hune h1.2.2
      constructor
      · simp [SplitState.after, ← flat, joinPairs]
      · intro p hp
        simp only [SplitState.after, List.mem_append, List.mem_singleton] at hp
        rcases hp with hp | rfl
        · exact done p hp
        · exact ⟨hnne, num, unit, hune⟩
      · simp [SplitState.after, hn]
      · simp [SplitState.after]
      · rw [after_numeric hn]; simp [SplitState.after]
      · simp [SplitState.after]
      · simp [SplitState.after]
    · simp only [hu, Bool.false_eq_true, ↓reduceIte, Option.some.injEq] at h
      subst h
      have hu0 : st.unit = [] := by
        cases h0 : st.unit with
        | nil => rfl
        | cons a l => rw [hb, h0] at hu; simp at hu
      constructor
      · simp [SplitState.after, ← flat, hu0]
      · exact done
      · intro d hd
        simp only [SplitState.after, List.mem_append, List.mem_singleton] at hd
        rcases hd with hd | rfl
        · exact num d hd
        · exact hn
      · exact unit
      · rw [after_numeric hn]; simp [SplitState.after, hu0]
      · simp [SplitState.after]
      · simp [SplitState.after]
  · rw [Bool.not_eq_true] at hn
    simp only [hn, Bool.false_eq_true, ↓reduceIte] at h
    by_cases h0 : st.num = []
    · simp [h0] at h
    · have h0' : st.num.isEmpty = false := by simpa using h0
      simp only [h0', Bool.false_eq_true, ↓reduceIte, Option.some.injEq] at h
      subst h
      constructor
      · simp [SplitState.after, ← flat]
      · exact done
      · exact num
      · intro d hd
        simp only [SplitState.after, List.mem_append, List.mem_singleton] at hd
        rcases hd with hd | rfl
        · exact unit d hd
        · exact hn
      · rw [after_other hn _ ?_]
        · simp [SplitState.after]
        · cases h1 : st.unit with
          | cons b m => left; simp [hb, h1]
          | nil =>
            right
            refine ⟨st.num.getLast h0, ?_, num _ (List.getLast_mem h0)⟩
            show st.prev = _
            rw [prev, ← flat, h1, List.append_nil, List.getLast?_append, List.getLast?_eq_some_getLast h0]
            rfl
      · simp [SplitState.after]
      · intro h2; exact absurd h2 h0

theorem splitLoop_inv {U : Unicode} {st st' : SplitState} {seen : Str} (s : Str) (hi : SplitInv U st seen)
    (h : splitLoop U st s = some st') : SplitInv U st' (seen ++ squeeze s) := by
  induction s generalizing st seen with
  | nil => simp only [splitLoop, Option.some.injEq] at h; subst h; simpa [squeeze] using hi
  | cons c cs ih =>
    cases hw : isUnicodeWhitespace c with
    | true =>
      rw [splitLoop, splitStep_white U st hw] at h
      rw [squeeze_white hw]
      exact ih hi h
    | false =>
      rw [splitLoop] at h
      cases hs : splitStep U st c with
      | none => rw [hs] at h; cases h
      | some st1 =>
        rw [hs] at h
        have := ih (splitStep_inv hi hw hs) h
        rw [squeeze_black hw]
        simpa using this

/-- The loop panics only at the first character that is not white space. -/
theorem splitLoop_total {U : Unicode} {st : SplitState} (s : Str) (h : st.num ≠ []) : ∃ st', splitLoop U st s = some st' := by
  induction s generalizing st with
  | nil => exact ⟨st, rfl⟩
  | cons c cs ih =>
    have : ∃ st1, splitStep U st c = some st1 ∧ st1.num ≠ [] := by
      unfold splitStep
      split
      · exact ⟨_, rfl, h⟩
      split
      · split
        · exact ⟨_, rfl, by simp [SplitState.after]⟩
        · exact ⟨_, rfl, by simp [SplitState.after]⟩
      · split
        · next h0 => simp [h] at h0
        · exact ⟨_, rfl, by simpa [SplitState.after] using h⟩
    obtain ⟨st1, h1, h2⟩ := this
    obtain ⟨st', h3⟩ := ih h2
    exact ⟨st', by simp [splitLoop, h1, h3]⟩

theorem splitUnit_none_iff (U : Unicode) (s : Str) :
    splitUnit U s = none ↔ ∃ c, (squeeze s).head? = some c ∧ U.numeric c = false := by
  unfold splitUnit
  rw [splitLoop_squeeze]
  cases hs : squeeze s with
  | nil => simp [splitLoop]
  | cons c cs =>
    have hw : isUnicodeWhitespace c = false := by
      have : c ∈ squeeze s := by rw [hs]; simp
      simpa [squeeze] using (List.mem_filter.mp this).2
    by_cases hn : U.numeric c = true
    · obtain ⟨st', h⟩ := splitLoop_total (U := U) (st := { SplitState.init with num := [c] }.after U c) cs
        (by simp [SplitState.after])
      have : splitLoop U .init (c :: cs) = some st' := by
        simp only [splitLoop, splitStep, hw, hn, Bool.false_eq_true, ↓reduceIte, SplitState.init, List.nil_append]
        exact h
      simp [this, hn]
    · have : splitLoop U .init (c :: cs) = none := by
        simp [splitLoop, splitStep, hw, hn, SplitState.init]
      simp [this, hn]

theorem shape_of_parts {U : Unicode} (ps : List (Str × Str)) (q : Str × Str)
    (h : ∀ p ∈ ps, p.1 ≠ [] ∧ (∀ c ∈ p.1, U.numeric c = true) ∧ (∀ c ∈ p.2, U.numeric c = false) ∧ p.2 ≠ [])
    (hq : q.1 ≠ [] ∧ (∀ c ∈ q.1, U.numeric c = true) ∧ (∀ c ∈ q.2, U.numeric c = false)) : Shape U (ps ++ [q]) := by
  induction ps with
  | nil => exact hq
  | cons p ps ih =>
    have hp := h p (by simp)
    have := ih (fun p hp => h p (by simp [hp]))
    cases ps with
    | nil => exact ⟨hp.1, hp.2.1, hp.2.2.1, hp.2.2.2, this⟩
    | cons r ps => exact ⟨hp.1, hp.2.1, hp.2.2.1, hp.2.2.2, this⟩

theorem splitUnit_some {U : Unicode} {s : Str} {items : List (Str × Str)} (h : splitUnit U s = some items) :
    joinPairs items = squeeze s ∧ (squeeze s ≠ [] → Shape U items) ∧ (squeeze s = [] → items = [([], [])]) := by
  unfold splitUnit at h
  cases hl : splitLoop U .init s with
  | none => simp [hl] at h
  | some st =>
    simp only [hl, Option.some.injEq] at h
    subst h
    have hi := splitLoop_inv s (SplitInv.init U) hl
    simp only [List.nil_append] at hi
    refine ⟨?_, ?_, ?_⟩
    · rw [← hi.flat, joinPairs_append]; simp [joinPairs]
    · intro hne
      refine shape_of_parts _ _ hi.done ⟨?_, hi.num, hi.unit⟩
      intro h0
      exact hne (hi.first h0)
    · intro he
      have hf := hi.flat
      rw [he] at hf
      simp only [List.append_eq_nil_iff] at hf
      have hd : st.done = [] := by
        cases h1 : st.done with
        | nil => rfl
        | cons p ps =>
          exfalso
          have := (hi.done p (by simp [h1])).1
          rw [h1, joinPairs_cons] at hf
          simp at hf
          exact this hf.1.1.1
      simp [hd, hf.1.2, hf.2]

theorem takeWhile_append_stop {α : Type} (f : α → Bool) (a b : List α) (ha : ∀ x ∈ a, f x = true)
    (hb : ∀ x, b.head? = some x → f x = false) : (a ++ b).takeWhile f = a ∧ (a ++ b).dropWhile f = b := by
  induction a with
  | nil =>
    cases b with
    | nil => simp
    | cons x b => simp [hb x rfl]
  | cons x a ih =>
    have := ih (fun y hy => ha y (by simp [hy]))
    simp [ha x (by simp), this]

theorem Shape.head {U : Unicode} {p : Str × Str} {ps : List (Str × Str)} (h : Shape U (p :: ps)) :
    p.1 ≠ [] ∧ (∀ c ∈ p.1, U.numeric c = true) ∧ (∀ c ∈ p.2, U.numeric c = false) ∧ (ps = [] ∨ p.2 ≠ [] ∧ Shape U ps) := by
  cases ps with
  | nil => exact ⟨h.1, h.2.1, h.2.2, Or.inl rfl⟩
  | cons q ps => exact ⟨h.1, h.2.1, h.2.2.1, Or.inr h.2.2.2⟩

theorem Shape.join_head {U : Unicode} {ps : List (Str × Str)} (h : Shape U ps) :
    ∃ c, (joinPairs ps).head? = some c ∧ U.numeric c = true := by
  cases ps with
  | nil => cases h
  | cons p ps =>
    have := h.head
    obtain ⟨x, xs, hx⟩ := List.exists_cons_of_ne_nil this.1
    refine ⟨x, ?_, this.2.1 x (by simp [hx])⟩
    rw [joinPairs_cons, hx]; simp

/-- A string can be cut up in only one way. -/
theorem shape_unique {U : Unicode} (ps qs : List (Str × Str)) (hp : Shape U ps) (hq : Shape U qs)
    (h : joinPairs ps = joinPairs qs) : ps = qs := by
  induction ps generalizing qs with
  | nil => cases hp
  | cons p ps ih =>
    cases qs with
    | nil => cases hq
    | cons q qs =>
      have key : ∀ (p : Str × Str) (ps : List (Str × Str)), Shape U (p :: ps) →
          (joinPairs (p :: ps)).takeWhile U.numeric = p.1 ∧
          ((joinPairs (p :: ps)).dropWhile U.numeric).takeWhile (fun c => !U.numeric c) = p.2 ∧
          ((joinPairs (p :: ps)).dropWhile U.numeric).dropWhile (fun c => !U.numeric c) = joinPairs ps := by
        intro p ps hp
        have hh := hp.head
        have htail : ∀ x, (joinPairs ps).head? = some x → (!U.numeric x) = false := by
          intro x hx
          rcases hh.2.2.2 with h0 | ⟨_, h1⟩
          · subst h0; simp [joinPairs] at hx
          · obtain ⟨c, hc, hc2⟩ := h1.join_head
            rw [hc] at hx; cases hx
            simp [hc2]
        have h1 : ∀ x, (p.2 ++ joinPairs ps).head? = some x → U.numeric x = false := by
          intro x hx
          cases h2 : p.2 with
          | cons a l =>
            rw [h2] at hx; simp at hx; subst hx
            exact hh.2.2.1 a (by simp [h2])
          | nil =>
            rcases hh.2.2.2 with h0 | ⟨h0, _⟩
            · subst h0; rw [h2] at hx; simp [joinPairs] at hx
            · exact absurd h2 h0
        have t1 := takeWhile_append_stop U.numeric p.1 (p.2 ++ joinPairs ps) hh.2.1 h1
        have t2 := takeWhile_append_stop (fun c => !U.numeric c) p.2 (joinPairs ps)
          (fun x hx => by simp [hh.2.2.1 x hx]) htail
        rw [joinPairs_cons, List.append_assoc, t1.1, t1.2, t2.1, t2.2]
        exact ⟨rfl, rfl, rfl⟩
      have k1 := key p ps hp
      have k2 := key q qs hq
      rw [h] at k1
      have e1 : p = q := Prod.ext (k1.1.symm.trans k2.1) (k1.2.1.symm.trans k2.2.1)
      have e2 : joinPairs ps = joinPairs qs := k1.2.2.symm.trans k2.2.2
      subst e1
      congr 1
      rcases hp.head.2.2.2 with h0 | ⟨_, h1⟩
      · subst h0
        rcases hq.head.2.2.2 with h0' | ⟨_, h1'⟩
        · exact h0'.symm
        · obtain ⟨c, hc, _⟩ := h1'.join_head
          rw [← e2] at hc; simp [joinPairs] at hc
      · rcases hq.head.2.2.2 with h0' | ⟨_, h1'⟩
        · subst h0'
          obtain ⟨c, hc, _⟩ := h1.join_head
          rw [e2] at hc; simp [joinPairs] at hc
        · exact ih qs h1 h1' e2

/-! ## Terms -/

theorem isLetter_lt {c : Nat} (h : IsLetter c) : c < 128 := by
  rcases h with h | h <;> omega

theorem wellSpelt_shape {U : Unicode} (hU : LawfulUnicode U) (ts : List Term) (h : WellSpelt ts) :
    Shape U (ts.map fun t => (t.digits, t.unit)) := by
  have base : ∀ t : Term, t.WF → t.digits ≠ [] ∧ (∀ c ∈ t.digits, U.numeric c = true) ∧ (∀ c ∈ t.unit, U.numeric c = false) := by
    intro t ht
    refine ⟨ht.digits_ne, ?_, ?_⟩
    · intro c hc
      have := ht.digits_ok c hc
      exact (hU.numeric_ascii c (by omega)).mpr this
    · intro c hc
      have h1 := ht.unit_ok c hc
      rw [Bool.eq_false_iff]
      intro h2
      have := (hU.numeric_ascii c (isLetter_lt h1)).mp h2
      rcases h1 with h1 | h1 <;> omega
  induction ts with
  | nil => cases h
  | cons t ts ih =>
    cases ts with
    | nil => exact base t h
    | cons u ts =>
      have hb := base t h.1
      exact ⟨hb.1, hb.2.1, hb.2.2, h.2.1, ih h.2.2⟩

theorem joinPairs_terms (ts : List Term) :
    joinPairs (ts.map fun t => (t.digits, t.unit)) = ts.flatMap (fun t => t.digits ++ t.unit) := by
  simp [joinPairs, List.flatMap_map]

/-- A spelling is split into its terms. -/
theorem splitUnit_spells {U : Unicode} (hU : LawfulUnicode U) {s : Str} {ts : List Term} (h : Spells s ts) :
    splitUnit U s = some (ts.map fun t => (t.digits, t.unit)) := by
  have hsh := wellSpelt_shape hU ts h.1
  have hj : joinPairs (ts.map fun t => (t.digits, t.unit)) = squeeze s := by rw [joinPairs_terms, h.2]
  obtain ⟨c, hc, hn⟩ := hsh.join_head
  cases hs : splitUnit U s with
  | none =>
    obtain ⟨c', hc', hn'⟩ := (splitUnit_none_iff U s).mp hs
    rw [hj, hc'] at hc; cases hc
    rw [hn] at hn'; cases hn'
  | some items =>
    obtain ⟨h1, h2, _⟩ := splitUnit_some hs
    congr 1
    refine shape_unique _ _ (h2 ?_) hsh (by rw [h1, hj])
    intro h0; rw [← hj] at h0; rw [h0] at hc; simp at hc

/-! ## Sums -/

theorem decOf_bytes (ds : Str) (h : ∀ c ∈ ds, 48 ≤ c ∧ c ≤ 57) : decValue (ds.map UInt8.ofNat) = decOf ds := by
  induction ds with
  | nil => rfl
  | cons d ds ih =>
    have hd := h d (by simp)
    have : (UInt8.ofNat d).toNat = d := by simp; omega
    simp only [List.map_cons, decValue, decOf, List.length_map, ih (fun c hc => h c (by simp [hc])), this]

theorem parseUIntCodepoints_digits (max : Nat) (ds : Str) (hne : ds ≠ []) (h : ∀ c ∈ ds, 48 ≤ c ∧ c ≤ 57)
    (hm : decOf ds ≤ max) : parseUIntCodepoints max ds = some (decOf ds) := by
  have hall : ds.all (· < 128) = true := by
    rw [List.all_eq_true]; intro c hc; have := h c hc; simp; omega
  simp only [parseUIntCodepoints, hall, ↓reduceIte]
  rw [parseUInt_iff]
  refine ⟨⟨ds.map UInt8.ofNat, Or.inl rfl, by simpa using hne, ?_, decOf_bytes ds h⟩, hm⟩
  intro b hb
  obtain ⟨c, hc, rfl⟩ := List.mem_map.mp hb
  have := h c hc
  simp only [IsDigit, UInt8.toNat_ofNat']
  omega

theorem not_white_letter {c : Nat} (h : IsLetter c) : isUnicodeWhitespace c = false := by
  rw [Bool.eq_false_iff]
  simp only [isUnicodeWhitespace, ne_eq, Bool.or_eq_true, Bool.and_eq_true, decide_eq_true_eq, beq_iff_eq]
  rcases h with h | h <;> omega

theorem lowerPoint_white (c : Nat) : isUnicodeWhitespace (lowerPoint c) = isUnicodeWhitespace c := by
  unfold lowerPoint
  split
  · next h => rw [not_white_letter (Or.inr (by omega)), not_white_letter (Or.inl h)]
  · rfl

theorem dropWhile_none {α : Type} (f : α → Bool) (l : List α) (h : ∀ x ∈ l, f x = false) : l.dropWhile f = l := by
  cases l with
  | nil => rfl
  | cons x l => simp [h x (by simp)]

theorem trimUnicode_black (s : Str) (h : ∀ c ∈ s, isUnicodeWhitespace c = false) : trimUnicode s = s := by
  unfold trimUnicode
  rw [dropWhile_none _ s h, dropWhile_none _ s.reverse (fun c hc => h c (by simpa using hc)), List.reverse_reverse]

/-- A number in ASCII digits and a unit in ASCII without white space. -/
structure Plain (t : Term) : Prop where
  digits_ne : t.digits ≠ []
  digits_ok : ∀ c ∈ t.digits, 48 ≤ c ∧ c ≤ 57
  unit_ok : ∀ c ∈ t.unit, c < 128 ∧ isUnicodeWhitespace c = false

theorem Spec.Term.WF.plain {t : Term} (h : t.WF) : Plain t :=
  ⟨h.digits_ne, h.digits_ok, fun c hc => ⟨isLetter_lt (h.unit_ok c hc), not_white_letter (h.unit_ok c hc)⟩⟩

theorem unit_text {U : Unicode} (hU : LawfulUnicode U) {t : Term} (ht : Plain t) :
    trimUnicode (U.lower t.unit) = t.unit.map lowerPoint := by
  rw [hU.lower_ascii _ (fun c hc => (ht.unit_ok c hc).1)]
  refine trimUnicode_black _ fun c hc => ?_
  obtain ⟨d, hd, rfl⟩ := List.mem_map.mp hc
  rw [lowerPoint_white]
  exact (ht.unit_ok d hd).2

theorem wellSpelt_wf (ts : List Term) (h : WellSpelt ts) : ∀ t ∈ ts, t.WF := by
  induction ts with
  | nil => simp
  | cons t ts ih =>
    cases ts with
    | nil => intro x hx; rw [List.mem_singleton.mp hx]; exact h
    | cons u ts =>
      intro x hx
      rcases List.mem_cons.mp hx with rfl | hx
      · exact h.1
      · exact ih h.2.2 x hx

theorem arith_small (p : Profile) (n : Nat) (h : n ≤ u64Max) : arith p n = some n := by simp [arith, h]

theorem sumItems_total {U : Unicode} (hU : LawfulUnicode U) (p : Profile) (units : Str → Option Nat) (table : List (Str × Nat))
    (htab : ∀ u, units u = table.lookup u) (hpos : ∀ u f, table.lookup u = some f → 1 ≤ f) (ts : List Term) (hts : ∀ t ∈ ts, Plain t)
    (n acc : Nat) (hn : total table ts = some n) (hb : acc + n ≤ u64Max) :
    sumItems U p units (ts.map fun t => (t.digits, t.unit)) acc = .value (acc + n) := by
  induction ts generalizing acc n with
  | nil => simp only [total, Option.some.injEq] at hn; subst hn; rfl
  | cons t ts ih =>
    simp only [total] at hn
    cases hf : table.lookup (t.unit.map lowerPoint) with
    | none => simp [hf] at hn
    | some f =>
      cases hm : total table ts with
      | none => simp [hf, hm] at hn
      | some m =>
        simp only [hf, hm, Option.some.injEq] at hn
        subst hn
        have ht := hts t (by simp)
        have hf1 := hpos _ _ hf
        have hle : decOf t.digits ≤ decOf t.digits * f := Nat.le_mul_of_pos_right _ hf1
        simp only [List.map_cons, sumItems]
        rw [parseUIntCodepoints_digits _ _ ht.digits_ne ht.digits_ok (by omega)]
        simp only [unit_text hU ht, htab, hf]
        rw [arith_small _ _ (by omega)]
        simp only []
        rw [arith_small _ _ (by omega)]
        simp only []
        rw [ih (fun t h => hts t (by simp [h])) m (acc + decOf t.digits * f) hm (by omega)]
        congr 1; omega

theorem flatMap_ne_of_wellSpelt {ts : List Term} (h : WellSpelt ts) : ts.flatMap (fun t => t.digits ++ t.unit) ≠ [] := by
  cases ts with
  | nil => cases h
  | cons t ts =>
    have := (wellSpelt_wf _ h t (by simp)).digits_ne
    simp [this]

theorem parseAmount_spells {U : Unicode} (hU : LawfulUnicode U) (p : Profile) (units : Str → Option Nat)
    (table : List (Str × Nat)) (htab : ∀ u, units u = table.lookup u) (hpos : ∀ u f, table.lookup u = some f → 1 ≤ f)
    {s : Str} {ts : List Term} (h : Spells s ts) {n : Nat} (hn : total table ts = some n) (hb : n ≤ u64Max) :
    parseAmount U p units s = .value n := by
  have hne : s.isEmpty = false := by
    cases s with
    | nil => exact absurd h.2.symm (flatMap_ne_of_wellSpelt h.1)
    | cons _ _ => rfl
  simp only [parseAmount, hne, Bool.false_eq_true, ↓reduceIte, splitUnit_spells hU h]
  rw [sumItems_total hU p units table htab hpos ts (fun t ht => (wellSpelt_wf ts h.1 t ht).plain) n 0 hn (by omega)]
  simp

/-- One item: what its number and its unit are read as. -/
theorem item_read {U : Unicode} (hU : LawfulUnicode U) {t : Term} (ht : Plain t) :
    parseUIntCodepoints u64Max t.digits = (if decOf t.digits < 2 ^ 64 then some (decOf t.digits) else none) ∧
      trimUnicode (U.lower t.unit) = t.unit.map lowerPoint := by
  refine ⟨?_, unit_text hU ht⟩
  split
  · next h => exact parseUIntCodepoints_digits _ _ ht.digits_ne ht.digits_ok (by simp only [u64Max]; omega)
  · next h =>
    have hall : t.digits.all (· < 128) = true := by
      rw [List.all_eq_true]; intro c hc; have := ht.digits_ok c hc; simp; omega
    simp only [parseUIntCodepoints, hall, ↓reduceIte]
    cases hp : parseUInt u64Max (t.digits.map UInt8.ofNat) with
    | none => rfl
    | some n =>
      exfalso
      obtain ⟨⟨ds, h1, h2, h3, h4⟩, h5⟩ := (parseUInt_iff _ _ _).mp hp
      rcases h1 with h1 | h1
      · rw [← h1, decOf_bytes _ ht.digits_ok] at h4
        simp only [u64Max] at h5; omega
      · cases hd : t.digits with
        | nil => simp [hd] at h1
        | cons c cs =>
          have := ht.digits_ok c (by simp [hd])
          simp only [hd, List.map_cons, List.cons.injEq] at h1
          have h6 := congrArg UInt8.toNat h1.1
          rw [UInt8.toNat_ofNat'] at h6
          have : c % 2 ^ 8 = 43 := h6
          omega

/-- Everything about the sum when overflow wraps around. -/
theorem sumItems_release {U : Unicode} (hU : LawfulUnicode U) (units : Str → Option Nat) (table : List (Str × Nat))
    (htab : ∀ u, units u = table.lookup u) (ts : List Term) (hts : ∀ t ∈ ts, Plain t) (acc : Nat) (hacc : acc < 2 ^ 64) :
    (∀ m, NumbersFit ts → total table ts = some m →
      sumItems U .release units (ts.map fun t => (t.digits, t.unit)) acc = .value ((acc + m) % 2 ^ 64)) ∧
    (¬ NumbersFit ts ∨ total table ts = none →
      sumItems U .release units (ts.map fun t => (t.digits, t.unit)) acc = .error) := by
  have harith : ∀ n, arith .release n = some (n % 2 ^ 64) := by
    intro n
    by_cases h : n ≤ u64Max
    · rw [arith, if_pos h]; simp only [u64Max] at h; congr 1; omega
    · rw [arith, if_neg h]; rfl
  induction ts generalizing acc with
  | nil =>
    refine ⟨?_, ?_⟩
    · intro m _ hm
      simp only [total, Option.some.injEq] at hm
      subst hm
      simp only [List.map_nil, sumItems, Nat.add_zero]
      rw [Nat.mod_eq_of_lt hacc]
    · rintro (h | h)
      · exact absurd (fun t ht => by cases ht) h
      · cases h
  | cons t ts ih =>
    obtain ⟨h1, h2⟩ := item_read hU (hts t (by simp))
    have ih := fun acc hacc => ih (fun t h => hts t (by simp [h])) acc hacc
    have hfit : NumbersFit (t :: ts) ↔ decOf t.digits < 2 ^ 64 ∧ NumbersFit ts := by simp [NumbersFit]
    simp only [List.map_cons, sumItems, h1, h2, htab, harith, hfit, total]
    by_cases hd : decOf t.digits < 2 ^ 64
    · simp only [hd, ↓reduceIte, true_and]
      cases hf : table.lookup (t.unit.map lowerPoint) with
      | none => simp
      | some f =>
        simp only []
        have ih := ih ((acc + decOf t.digits * f % 2 ^ 64) % 2 ^ 64) (Nat.mod_lt _ (by decide))
        cases hm : total table ts with
        | none =>
          refine ⟨by simp, fun _ => ?_⟩
          exact ih.2 (Or.inr hm)
        | some m =>
          simp only [Option.some.injEq, reduceCtorEq, or_false]
          refine ⟨?_, fun h => ih.2 (Or.inl h)⟩
          rintro _ hfit rfl
          rw [ih.1 m hfit hm]
          congr 1
          omega
    · simp [hd]

/-- Everything about the value when overflow panics. -/
theorem sumItems_debug {U : Unicode} (hU : LawfulUnicode U) (units : Str → Option Nat) (table : List (Str × Nat))
    (htab : ∀ u, units u = table.lookup u) (ts : List Term) (hts : ∀ t ∈ ts, Plain t) (acc n : Nat) (hacc : acc < 2 ^ 64)
    (h : sumItems U .debug units (ts.map fun t => (t.digits, t.unit)) acc = .value n) :
    ∃ m, total table ts = some m ∧ n = acc + m ∧ n < 2 ^ 64 := by
  have harith : ∀ n m, arith .debug n = some m → m = n ∧ n < 2 ^ 64 := by
    intro n m h
    by_cases h1 : n ≤ u64Max
    · rw [arith, if_pos h1, Option.some.injEq] at h; simp only [u64Max] at h1; exact ⟨h.symm, by omega⟩
    · rw [arith, if_neg h1] at h; cases h
  induction ts generalizing acc with
  | nil => simp only [List.map_nil, sumItems, Outcome.value.injEq] at h; exact ⟨0, rfl, by omega, by omega⟩
  | cons t ts ih =>
    obtain ⟨h1, h2⟩ := item_read hU (hts t (by simp))
    simp only [List.map_cons, sumItems, h1, h2, htab] at h
    by_cases hd : decOf t.digits < 2 ^ 64
    · simp only [hd, ↓reduceIte] at h
      cases hf : table.lookup (t.unit.map lowerPoint) with
      | none => simp [hf] at h
      | some f =>
        simp only [hf] at h
        cases ha : arith .debug (decOf t.digits * f) with
        | none => simp [ha] at h
        | some q =>
          simp only [ha] at h
          cases hb : arith .debug (acc + q) with
          | none => simp [hb] at h
          | some r =>
            simp only [hb] at h
            obtain ⟨rfl, _⟩ := harith _ _ ha
            obtain ⟨rfl, hr⟩ := harith _ _ hb
            obtain ⟨m, hm, hn, hlt⟩ := ih (fun t h => hts t (by simp [h])) _ hr h
            refine ⟨decOf t.digits * f + m, ?_, by omega, hlt⟩
            simp [total, hf, hm]
    · simp [hd] at h

/-- The items of an ASCII string are plain terms. -/
theorem shape_plain {U : Unicode} (hU : LawfulUnicode U) (items : List (Str × Str)) (h : Shape U items)
    (hs : ∀ c ∈ joinPairs items, c < 128 ∧ isUnicodeWhitespace c = false) :
    ∀ t ∈ items.map (fun p => Term.mk p.1 p.2), Plain t := by
  induction items with
  | nil => simp
  | cons p ps ih =>
    have hh := h.head
    rw [joinPairs_cons] at hs
    intro t ht
    rcases List.mem_cons.mp ht with rfl | ht
    · refine ⟨hh.1, ?_, ?_⟩
      · intro c hc
        exact (hU.numeric_ascii c (hs c (by simp [hc])).1).mp (hh.2.1 c hc)
      · intro c hc
        exact hs c (by simp [hc])
    · rcases hh.2.2.2 with h0 | ⟨_, h1⟩
      · subst h0; simp at ht
      · exact ih h1 (fun c hc => hs c (by simp [hc])) t ht

/-- Every unit of a table is written in lower-case letters. -/
def TableOk (table : List (Str × Nat)) : Prop := ∀ p ∈ table, (∀ c ∈ p.1, 97 ≤ c ∧ c ≤ 122) ∧ 1 ≤ p.2

theorem lookup_mem {table : List (Str × Nat)} {u : Str} {f : Nat} (h : table.lookup u = some f) : (u, f) ∈ table := by
  induction table with
  | nil => cases h
  | cons p ps ih =>
    obtain ⟨k, v⟩ := p
    by_cases hk : u = k
    · subst hk; simp at h; subst h; simp
    · have : (u == k) = false := by simpa using hk
      rw [List.lookup_cons, this] at h
      exact List.mem_cons_of_mem _ (ih h)

theorem wellSpelt_of_shape {U : Unicode} {table : List (Str × Nat)} (htab : TableOk table) (items : List (Str × Str))
    (h : Shape U items) (hp : ∀ t ∈ items.map (fun p => Term.mk p.1 p.2), Plain t) {m : Nat}
    (ht : total table (items.map fun p => Term.mk p.1 p.2) = some m) : WellSpelt (items.map fun p => Term.mk p.1 p.2) := by
  have base : ∀ (p : Str × Str) (f : Nat), Plain (Term.mk p.1 p.2) → table.lookup (p.2.map lowerPoint) = some f →
      (Term.mk p.1 p.2).WF := by
    intro p f hp hf
    refine ⟨hp.digits_ne, hp.digits_ok, ?_⟩
    intro c hc
    have := (htab _ (lookup_mem hf)).1 (lowerPoint c) (List.mem_map.mpr ⟨c, hc, rfl⟩)
    unfold lowerPoint at this
    unfold IsLetter
    split at this <;> omega
  induction items generalizing m with
  | nil => cases h
  | cons p ps ih =>
    simp only [List.map_cons, total] at ht
    cases hf : table.lookup (p.2.map lowerPoint) with
    | none => simp [hf] at ht
    | some f =>
      cases hm : total table (ps.map fun p => Term.mk p.1 p.2) with
      | none => simp [hf, hm] at ht
      | some k =>
        have hb := base p f (hp _ (by simp)) hf
        cases ps with
        | nil => exact hb
        | cons q ps =>
          exact ⟨hb, h.2.2.2.1, ih h.2.2.2.2 (fun t ht => hp t (List.mem_cons_of_mem _ ht)) hm⟩

theorem items_terms (items : List (Str × Str)) :
    (items.map fun p => Term.mk p.1 p.2).map (fun t => (t.digits, t.unit)) = items := by
  simp [List.map_map, Function.comp_def]

/-- The meaning of a size or duration with a given table of units, exactly, on ASCII strings. -/
theorem parseAmount_exact {U : Unicode} (hU : LawfulUnicode U) (units : Str → Option Nat) (table : List (Str × Nat))
    (htab : ∀ u, units u = table.lookup u) (hok : TableOk table) (s : Str) (hs : ∀ c ∈ s, c < 128) (n : Nat) :
    (parseAmount U .debug units s = .value n ↔
      s = [] ∧ n = 0 ∨ ∃ ts, Spells s ts ∧ total table ts = some n ∧ n < 2 ^ 64) ∧
    (parseAmount U .release units s = .value n ↔
      s = [] ∧ n = 0 ∨ ∃ ts m, Spells s ts ∧ NumbersFit ts ∧ total table ts = some m ∧ n = m % 2 ^ 64) := by
  have hpos : ∀ u f, table.lookup u = some f → 1 ≤ f := fun u f h => (hok _ (lookup_mem h)).2
  have hsq : ∀ c ∈ squeeze s, c < 128 ∧ isUnicodeWhitespace c = false := by
    intro c hc
    have := List.mem_filter.mp hc
    exact ⟨hs c this.1, by simpa using this.2⟩
  by_cases h0 : s = []
  · subst h0
    have hno : ∀ ts, ¬ Spells [] ts := fun ts h => absurd h.2.symm (flatMap_ne_of_wellSpelt h.1)
    constructor
    · constructor
      · intro h
        simp only [parseAmount, List.isEmpty_nil, ↓reduceIte, Outcome.value.injEq] at h
        exact Or.inl ⟨rfl, h.symm⟩
      · rintro (⟨_, rfl⟩ | ⟨ts, h, _⟩)
        · rfl
        · exact absurd h (hno ts)
    · constructor
      · intro h
        simp only [parseAmount, List.isEmpty_nil, ↓reduceIte, Outcome.value.injEq] at h
        exact Or.inl ⟨rfl, h.symm⟩
      · rintro (⟨_, rfl⟩ | ⟨ts, m, h, _⟩)
        · rfl
        · exact absurd h (hno ts)
  · have hne : s.isEmpty = false := by simpa using h0
    have hfrom : ∀ (p : Profile), parseAmount U p units s = .value n → ∃ items, splitUnit U s = some items ∧
        Shape U items ∧ joinPairs items = squeeze s ∧ (∀ t ∈ items.map (fun p => Term.mk p.1 p.2), Plain t) ∧
        sumItems U p units ((items.map fun p => Term.mk p.1 p.2).map fun t => (t.digits, t.unit)) 0 = .value n := by
      intro p h
      simp only [parseAmount, hne, Bool.false_eq_true, ↓reduceIte] at h
      cases hi : splitUnit U s with
      | none => simp [hi] at h
      | some items =>
        simp only [hi] at h
        obtain ⟨h1, h2, h3⟩ := splitUnit_some hi
        by_cases hz : squeeze s = []
        · rw [h3 hz] at h
          simp [sumItems, parseUIntCodepoints, parseUInt] at h
        · have hsh := h2 hz
          refine ⟨items, rfl, hsh, h1, shape_plain hU items hsh (by rw [h1]; exact hsq), ?_⟩
          rw [items_terms]; exact h
    have hspell : ∀ (items : List (Str × Str)), Shape U items → joinPairs items = squeeze s →
        (∀ t ∈ items.map (fun p => Term.mk p.1 p.2), Plain t) → ∀ m, total table (items.map fun p => Term.mk p.1 p.2) = some m →
        Spells s (items.map fun p => Term.mk p.1 p.2) := by
      intro items hsh hj hpl m hm
      refine ⟨wellSpelt_of_shape hok items hsh hpl hm, ?_⟩
      rw [← hj, ← joinPairs_terms, items_terms]
    constructor
    · constructor
      · intro h
        obtain ⟨items, _, hsh, hj, hpl, hsum⟩ := hfrom .debug h
        obtain ⟨m, hm, hn, hlt⟩ := sumItems_debug hU units table htab _ hpl 0 n (by decide) hsum
        rw [Nat.zero_add] at hn
        subst hn
        exact Or.inr ⟨_, hspell items hsh hj hpl _ hm, hm, hlt⟩
      · rintro (⟨h, _⟩ | ⟨ts, h, hm, hlt⟩)
        · exact absurd h h0
        · exact parseAmount_spells hU .debug units table htab hpos h hm (by simp only [u64Max]; omega)
    · constructor
      · intro h
        obtain ⟨items, _, hsh, hj, hpl, hsum⟩ := hfrom .release h
        have hr := sumItems_release hU units table htab _ hpl 0 (by decide)
        by_cases hfit : NumbersFit (items.map fun p => Term.mk p.1 p.2)
        · cases hm : total table (items.map fun p => Term.mk p.1 p.2) with
          | none => rw [hr.2 (Or.inr hm)] at hsum; cases hsum
          | some m =>
            rw [hr.1 m hfit hm, Nat.zero_add, Outcome.value.injEq] at hsum
            exact Or.inr ⟨_, m, hspell items hsh hj hpl m hm, hfit, hm, hsum.symm⟩
        · rw [hr.2 (Or.inl hfit)] at hsum; cases hsum
      · rintro (⟨h, _⟩ | ⟨ts, m, h, hfit, hm, rfl⟩)
        · exact absurd h h0
        · simp only [parseAmount, hne, Bool.false_eq_true, ↓reduceIte, splitUnit_spells hU h]
          rw [(sumItems_release hU units table htab ts (fun t ht => (wellSpelt_wf ts h.1 t ht).plain) 0 (by decide)).1 m hfit hm,
            Nat.zero_add]

/-- Without overflow checks only splitting can panic. -/
theorem sumItems_release_no_panic (U : Unicode) (units : Str → Option Nat) (items : List (Str × Str)) (acc : Nat) :
    sumItems U .release units items acc ≠ .panic := by
  induction items generalizing acc with
  | nil => simp [sumItems]
  | cons p ps ih =>
    have harith : ∀ n, ∃ m, arith .release n = some m := by
      intro n
      simp only [arith]
      split
      · exact ⟨_, rfl⟩
      · exact ⟨_, rfl⟩
    obtain ⟨nums, us⟩ := p
    simp only [sumItems]
    cases parseUIntCodepoints u64Max nums with
    | none => simp
    | some num =>
      cases units (trimUnicode (U.lower us)) with
      | none => simp
      | some f =>
        obtain ⟨q, hq⟩ := harith (num * f)
        obtain ⟨r, hr⟩ := harith (acc + q)
        simp only [hq, hr]
        exact ih r

theorem lookup_cons_if (u k : Str) (v : Nat) (l : List (Str × Nat)) :
    List.lookup u ((k, v) :: l) = if u = k then some v else List.lookup u l := by
  by_cases h : u = k
  · subst h; simp
  · have : (u == k) = false := by simpa using h
    rw [List.lookup_cons, this, if_neg h]

theorem sizeUnit_table (u : Str) : sizeUnit u = actualSizeTable.lookup u := by
  unfold sizeUnit actualSizeTable
  simp only [lookup_cons_if, List.lookup_nil]
  by_cases h1 : u = u!""
  · simp [h1]
  by_cases h2 : u = u!"b"
  · simp [h2]
  by_cases h3 : u = u!"k"
  · simp [h3]
  by_cases h4 : u = u!"kb"
  · simp [h4]
  by_cases h5 : u = u!"m"
  · simp [h5]
  by_cases h6 : u = u!"mb"
  · simp [h6]
  by_cases h7 : u = u!"g"
  · simp [h7]
  by_cases h8 : u = u!"gb"
  · simp [h8]
  simp [h1, h2, h3, h4, h5, h6, h7, h8]

theorem durationUnit_table (u : Str) : durationUnit u = durationTable.lookup u := by
  unfold durationUnit durationTable
  simp only [lookup_cons_if, List.lookup_nil]
  by_cases h1 : u = u!""
  · simp [h1]
  by_cases h2 : u = u!"ms"
  · simp [h2]
  simp [h1, h2]

end Httpd
