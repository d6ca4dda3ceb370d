import Verif.Spec.Hopeful
import Verif.Props.Rfc
import Verif.Props.BodyText
/-! # Which unfinished heads can still become heads: C132, exactly -/

namespace Httpd
open Spec MultiMap

/-! ## pieces -/

/-- A piece that is complete stays the same whatever follows. -/
theorem Spec.Taken.further {delim : Byte} {limit : Nat} {p rest : Bytes} (h : Taken delim limit false p rest) (closed : Bool) (rest' : Bytes) :
    Taken delim limit closed p rest' := by
  cases h with
  | upTo q _ h1 h2 => exact .upTo q _ h1 h2
  | full _ _ h1 h2 => exact .full p _ h1 h2
  | last _ h1 => cases h1

theorem Spec.Taken.same {delim : Byte} {limit : Nat} {closed : Bool} {p p' rest rest' t : Bytes} (h : Taken delim limit false p rest)
    (h' : Taken delim limit closed p' rest') (he : p' ++ rest' = p ++ rest ++ t) : p' = p ∧ rest' = rest ++ t := by
  have h1 := (taken_cut (h.further closed (rest ++ t))).1
  have h2 := (taken_cut h').1
  rw [he, List.append_assoc] at h2
  rw [h2] at h1
  exact ⟨congrArg Prod.fst h1, congrArg Prod.snd h1⟩

/-- An unfinished piece is a beginning of the piece it becomes, without the last byte of that. -/
theorem Spec.Taken.begins {delim : Byte} {limit : Nat} {closed : Bool} {p rest s t : Bytes} (h : Taken delim limit closed p rest)
    (hr : rest ≠ []) (he : p ++ rest = s ++ t) (hs : delim ∉ s) (hl : s.length < limit) : s <+: p.dropLast := by
  have hcase : s.length < p.length → s <+: p.dropLast := by
    intro h1
    have hp : s <+: p := List.prefix_of_prefix_length_le (⟨t, rfl⟩ : s <+: s ++ t) ⟨rest, he⟩ (by omega)
    exact List.prefix_of_prefix_length_le hp (List.dropLast_prefix p) (by rw [List.length_dropLast]; omega)
  cases h with
  | full _ _ h1 h2 => exact hcase (by omega)
  | last _ _ => exact absurd rfl hr
  | upTo q _ h1 h2 =>
    refine hcase (Nat.lt_of_not_le fun hle => ?_)
    have hp : q ++ [delim] <+: s := List.prefix_of_prefix_length_le ⟨rest, he⟩ ⟨t, rfl⟩ hle
    exact hs (hp.subset (by simp))

theorem dropLast_two (l : Bytes) (x y : Byte) : (l ++ [x, y]).dropLast = l ++ [x] := by
  rw [List.dropLast_append_of_ne_nil (by simp)]; rfl

/-- A beginning of `l ++ [x]` is a beginning of `l`, up to its last byte. -/
theorem begins_last {s l : Bytes} {x : Byte} (h : s <+: l ++ [x]) : s = [] ∨ ∃ w z, s = w ++ [z] ∧ w <+: l ∧ (s <+: l ∨ (w = l ∧ z = x)) := by
  rcases List.eq_nil_or_concat s with rfl | ⟨w, z, rfl⟩
  · exact Or.inl rfl
  · right
    refine ⟨w, z, by simp, ?_, ?_⟩
    · have h1 : w <+: l ++ [x] := (List.prefix_append w [z]).trans (by simpa using h)
      have h2 := h.length_le
      simp at h2
      exact List.prefix_of_prefix_length_le h1 (List.prefix_append l [x]) (by omega)
    · rcases List.prefix_concat_iff.mp (by simpa using h) with h1 | h1
      · right
        have := List.append_inj' h1 rfl
        exact ⟨this.1, by simpa using this.2⟩
      · left; simpa using h1

/-! ## header sections -/

theorem Spec.Section.nonempty {maxLine maxCount : Nat} {closed : Bool} {s rest : Bytes} {fs : List (Bytes × Bytes)}
    (h : Section maxLine maxCount closed s fs rest) : s ≠ [] := by
  cases h <;> simp

theorem lineHope_of_section {maxLine maxCount : Nat} {closed : Bool} {s t rest : Bytes} {fs : List (Bytes × Bytes)}
    (hs : 10 ∉ s) (hl : s.length < maxLine) (h : Section maxLine maxCount closed (s ++ t) fs rest) : LineHope maxLine maxCount s := by
  by_cases hshort : s.length ≤ 2
  · exact .short s hshort
  generalize hu : s ++ t = u at h
  cases h with
  | stop x y rest ht =>
    exfalso
    have hlen : ¬ rest ≠ [] := fun hr => by
      have := (ht.begins hr hu.symm hs hl).length_le
      simp at this; omega
    have hr : rest = [] := Classical.not_not.mp hlen
    have := congrArg List.length hu
    simp [hr] at this; omega
  | skip l x y s' _ _ ht hne htext hcol hlen hsec =>
    have hb := ht.begins hsec.nonempty hu.symm hs hl
    rw [dropLast_two] at hb
    rcases begins_last hb with rfl | ⟨w, z, rfl, hw, _⟩
    · simp at hshort
    · refine .plain w z ?_ (fun b hb => htext b (hw.subset hb)) (fun hm => hcol (hw.subset hm)) (Nat.le_trans hw.length_le hlen)
      rintro rfl
      simp at hshort
  | field n v n' v' x y s' _ _ ht hn hcol hlen hv hvne hmx _ _ hsec =>
    have hb := ht.begins hsec.nonempty hu.symm hs hl
    have hpl := taken_length ht
    rw [dropLast_two] at hb
    rcases begins_last hb with rfl | ⟨w, z, rfl, hw, _⟩
    · simp at hshort
    · by_cases hwn : w.length ≤ n.length
      · have hwn' : w <+: n := List.prefix_of_prefix_length_le hw (List.prefix_append n _) hwn
        refine .plain w z ?_ (fun b hb => hn b (hwn'.subset hb)) (fun hm => hcol (hwn'.subset hm)) (Nat.le_trans hwn'.length_le hlen)
        rintro rfl
        simp at hshort
      · have hnw : n <+: w := List.prefix_of_prefix_length_le (List.prefix_append n _) hw (by omega)
        obtain ⟨u, rfl⟩ := hnw
        rw [List.prefix_append_right_inj] at hw
        cases u with
        | nil => simp at hwn
        | cons c v1 =>
          obtain ⟨rfl, hv1⟩ := List.cons_prefix_cons.mp hw
          cases v1 with
          | nil =>
            cases v with
            | nil => exact absurd rfl hvne
            | cons d v2 =>
              have hz : z = d := by
                rw [show n ++ [58] ++ [z] = n ++ [58, z] by simp, show n ++ 58 :: (d :: v2) ++ [x] = n ++ (58 :: d :: (v2 ++ [x])) by simp,
                  List.prefix_append_right_inj, List.cons_prefix_cons, List.cons_prefix_cons] at hb
                exact hb.2.1
              subst hz
              rw [show n ++ [58] ++ [z] = n ++ [58, z] by simp]
              exact .colon n z hn hcol hlen (hv z (by simp)) hmx (by simp at hpl; omega)
          | cons d v2 =>
            exact .field n (d :: v2) z hn hcol hlen (fun b hb => hv b (hv1.subset hb)) (by simp) hmx

theorem sectionHope_of_section {maxLine maxCount : Nat} {closed : Bool} {s : Bytes} (h : SectionOpen maxLine maxCount s) :
    ∀ {t rest : Bytes} {fs : List (Bytes × Bytes)}, Section maxLine maxCount closed (s ++ t) fs rest → SectionHope maxLine maxCount s := by
  have next : ∀ {p s t rest : Bytes} {fs : List (Bytes × Bytes)}, Taken 10 maxLine false p s → 2 < p.length →
      Section maxLine maxCount closed (p ++ s ++ t) fs rest → ∃ fs', Section maxLine maxCount closed (s ++ t) fs' rest := by
    intro p s t rest fs hp hlen hsec
    generalize hu : p ++ s ++ t = u at hsec
    cases hsec with
    | stop x y rest ht =>
      have := (hp.same ht hu.symm).1
      rw [← this] at hlen; simp at hlen
    | skip l x y s' _ _ ht _ _ _ _ hsec =>
      rw [← (hp.same ht hu.symm).2]
      exact ⟨_, hsec⟩
    | field n v n' v' x y s' _ _ ht _ _ _ _ _ _ _ _ hsec =>
      rw [← (hp.same ht hu.symm).2]
      exact ⟨_, hsec⟩
  induction h with
  | here s h1 h2 => intro t rest fs hsec; exact .here s h1 h2 (lineHope_of_section h1 h2 hsec)
  | skip l x y s ht hne htext hcol hlen _ ih =>
    intro t rest fs hsec
    obtain ⟨fs', h⟩ := next ht (by have := List.length_pos_iff.mpr hne; simp; omega) hsec
    exact .skip l x y s ht hne htext hcol hlen (ih h)
  | field n v x y s ht hn hcol hlen hv hvne hmx _ ih =>
    intro t rest fs hsec
    obtain ⟨fs', h⟩ := next ht (by simp; omega) hsec
    exact .field n v x y s ht hn hcol hlen hv hvne hmx (ih h)

theorem Spec.SectionHope.isOpen {maxLine maxCount : Nat} {s : Bytes} (h : SectionHope maxLine maxCount s) : SectionOpen maxLine maxCount s := by
  induction h with
  | here s h1 h2 => exact .here s h1 h2
  | skip l x y s ht hne htext hcol hlen _ ih => exact .skip l x y s ht hne htext hcol hlen ih
  | field n v x y s ht hn hcol hlen hv hvne hmx _ ih => exact .field n v x y s ht hn hcol hlen hv hvne hmx ih

theorem section_end (maxLine maxCount : Nat) (hl : 2 ≤ maxLine) : Section maxLine maxCount true [13, 10] [] [] :=
  .stop 13 10 [] (.upTo [13] [] (by decide) (by simp; omega))

theorem section_of_sectionHope {maxLine maxCount : Nat} (hl : 2 ≤ maxLine) {s : Bytes} (h : SectionHope maxLine maxCount s) :
    ∃ t fs, Section maxLine maxCount true (s ++ t) fs [] := by
  induction h with
  | here s h1 h2 h3 =>
    cases h3 with
    | short _ h3 =>
      match s, h3 with
      | [], _ => exact ⟨[13, 10], [], section_end _ _ hl⟩
      | [x], _ => exact ⟨[10], [], .stop x 10 [] (.upTo [x] [] h1 h2)⟩
      | [x, y], _ => exact ⟨[], [], .stop x y [] (.last [x, y] rfl h1 h2)⟩
    | plain w z hne htext hcol hlen =>
      refine ⟨[10, 13, 10], [], ?_⟩
      rw [show w ++ [z] ++ [10, 13, 10] = w ++ [z, 10] ++ [13, 10] by simp]
      refine .skip w z 10 _ _ _ ?_ hne htext hcol hlen (section_end _ _ hl)
      rw [show w ++ [z, 10] = w ++ [z] ++ [10] by simp]
      exact .upTo _ _ h1 h2
    | field n v z hn hcol hlen hv hvne hmx =>
      refine ⟨[10, 13, 10], [(lower (trimSp n), trimSp v)], ?_⟩
      rw [show n ++ 58 :: v ++ [z] ++ [10, 13, 10] = n ++ 58 :: v ++ [z, 10] ++ [13, 10] by simp]
      refine .field n v _ _ z 10 _ _ _ ?_ hn hcol hlen hv hvne hmx (trimSp_stripped n) (trimSp_stripped v) (section_end _ _ hl)
      rw [show n ++ 58 :: v ++ [z, 10] = n ++ 58 :: v ++ [z] ++ [10] by simp]
      exact .upTo _ _ h1 h2
    | colon n z hn hcol hlen hz hmx hroom =>
      refine ⟨[13, 10, 13, 10], [(lower (trimSp n), trimSp [z])], ?_⟩
      rw [show n ++ [58, z] ++ [13, 10, 13, 10] = n ++ 58 :: [z] ++ [13, 10] ++ [13, 10] by simp]
      refine .field n [z] _ _ 13 10 _ _ _ ?_ hn hcol hlen (by simpa using hz) (by simp) hmx (trimSp_stripped n) (trimSp_stripped [z])
        (section_end _ _ hl)
      rw [show n ++ 58 :: [z] ++ [13, 10] = n ++ [58, z] ++ [13] ++ [10] by simp]
      refine .upTo _ _ ?_ (by simp; omega)
      intro hm
      rcases List.mem_append.mp hm with hm | hm
      · exact h1 hm
      · simp at hm
  | skip l x y s ht hne htext hcol hlen _ ih =>
    obtain ⟨t, fs, h⟩ := ih
    refine ⟨t, fs, ?_⟩
    rw [List.append_assoc]
    exact .skip l x y _ _ _ (ht.further _ _) hne htext hcol hlen h
  | field n v x y s ht hn hcol hlen hv hvne hmx _ ih =>
    obtain ⟨t, fs, h⟩ := ih
    refine ⟨t, (lower (trimSp n), trimSp v) :: fs, ?_⟩
    rw [List.append_assoc]
    exact .field n v _ _ x y _ _ _ (ht.further _ _) hn hcol hlen hv hvne hmx (trimSp_stripped n) (trimSp_stripped v) h

/-! ## heads -/

theorem Spec.HeadHope.isOpen {maxUrl maxLine maxCount : Nat} {s : Bytes} (h : HeadHope maxUrl maxLine maxCount s) : HeadOpen maxUrl maxLine maxCount s := by
  cases h with
  | method s h1 h2 => exact .method s h1 h2
  | target w0 a s h1 h2 h3 h4 => exact .target w0 a s h1 h2 h3 h4
  | version w0 w1 a b s h1 h2 h3 h4 h5 h6 => exact .version w0 w1 a b s h1 h2 h3 h4 h5 h6
  | fields w0 w1 w2 a b x y s h1 h2 h3 h4 h5 h6 h7 h8 h9 => exact .fields w0 w1 w2 a b x y s h1 h2 h3 h4 h5 h6 h7 h8 h9.isOpen

theorem text_ascii {x : Byte} (h : IsText x) : x < 0x80 := by
  have := h.2
  simp only [UInt8.lt_iff_toNat_lt, UInt8.le_iff_toNat_le] at *
  have e : (126 : UInt8).toNat = 126 := rfl
  have e' : (128 : UInt8).toNat = 128 := rfl
  omega

theorem versionHope_of_taken {closed : Bool} {w2 rest s t : Bytes} {x y : Byte} (ht : Taken 10 128 closed (w2 ++ [x, y]) rest) (hr : rest ≠ [])
    (he : w2 ++ [x, y] ++ rest = s ++ t) (hs : 10 ∉ s) (hl : s.length < 128) (htext : ∀ c ∈ w2, IsText c) (htwo : TwoBytes x y) (hne : w2 ≠ []) :
    VersionHope s := by
  have hb := ht.begins hr he hs hl
  rw [dropLast_two] at hb
  rcases begins_last hb with rfl | ⟨w, z, rfl, hw, hcase⟩
  · exact .start [] (by simp) (by simp)
  · rcases hcase with hcase | ⟨rfl, rfl⟩
    · by_cases hwe : w = []
      · subst hwe
        exact .start [z] (by simp) (fun b hb => htext b (hcase.subset hb))
      · exact .more w z hwe (fun b hb => htext b (hw.subset hb)) (text_ascii (htext z (hcase.subset (by simp))))
    · rcases htwo with ⟨h1, _⟩ | ⟨h1, h2, h3, _⟩
      · exact .more w z hne htext h1
      · refine .full w z ?_ htext h1 h2
        generalize hp : w ++ [z, y] = p at ht
        cases ht with
        | full _ _ _ h5 => rw [← hp] at h5; simp at h5; omega
        | last => exact absurd rfl hr
        | upTo q _ _ _ =>
          have : y = 10 := by
            rw [show w ++ [z, y] = (w ++ [z]) ++ [y] by simp] at hp
            simpa using (List.append_inj' hp rfl).2
          subst this
          exact absurd h3 (by decide)

theorem headHope_of_head {maxUrl maxLine maxCount : Nat} {closed : Bool} {s t w0 w1 w2 rest : Bytes} {fs : List (Bytes × Bytes)}
    (h : HeadOpen maxUrl maxLine maxCount s) (hh : HeadText maxUrl maxLine maxCount closed (s ++ t) w0 w1 w2 fs rest) :
    HeadHope maxUrl maxLine maxCount s := by
  generalize hu : s ++ t = u at hh
  cases hh with
  | mk _ _ _ a b x y s' _ _ t0 x0 t1 x1 t2 hne x2 htwo hsec =>
  cases h with
  | method s h1 h2 =>
    refine .method s h1 h2 fun c hc => x0 c ?_
    have := t0.begins (by simp) hu.symm h1 h2
    rw [List.dropLast_concat] at this
    exact this.subset hc
  | target v0 a' s h1 h2 h3 h4 =>
    obtain ⟨e1, e2⟩ := h1.same t0 hu.symm
    refine .target v0 a' s h1 h2 h3 h4 fun c hc => x1 c ?_
    have := t1.begins (by simp) e2 h3 h4
    rw [List.dropLast_concat] at this
    exact this.subset hc
  | version v0 v1 a' b' s h1 h2 h3 h4 h5 h6 =>
    obtain ⟨e1, e2⟩ := h1.same t0 hu.symm
    obtain ⟨e3, e4⟩ := h3.same t1 e2
    exact .version v0 v1 a' b' s h1 h2 h3 h4 h5 h6 (versionHope_of_taken t2 hsec.nonempty e4 h5 h6 x2 htwo hne)
  | fields v0 v1 v2 a' b' x' y' s h1 h2 h3 h4 h5 h6 h7 h8 h9 =>
    obtain ⟨e1, e2⟩ := h1.same t0 hu.symm
    obtain ⟨e3, e4⟩ := h3.same t1 e2
    obtain ⟨e5, e6⟩ := h5.same t2 e4
    rw [e6] at hsec
    exact .fields v0 v1 v2 a' b' x' y' s h1 h2 h3 h4 h5 h6 h7 h8 (sectionHope_of_section h9 hsec)

theorem head_of_pieces {maxUrl maxLine maxCount : Nat} (hl : 2 ≤ maxLine) {w0 w1 w2 : Bytes} {a b x y : Byte} {s t : Bytes}
    (hs : s ++ t = w0 ++ [a] ++ (w1 ++ [b] ++ (w2 ++ [x, y] ++ [13, 10])))
    (h0 : ∀ r, Taken 32 128 true (w0 ++ [a]) r) (x0 : ∀ c ∈ w0, IsText c) (h1 : ∀ r, Taken 32 maxUrl true (w1 ++ [b]) r) (x1 : ∀ c ∈ w1, IsText c)
    (h2 : ∀ r, Taken 10 128 true (w2 ++ [x, y]) r) (hne : w2 ≠ []) (x2 : ∀ c ∈ w2, IsText c) (htwo : TwoBytes x y) :
    ∃ t w0 w1 w2 fs, HeadText maxUrl maxLine maxCount true (s ++ t) w0 w1 w2 fs [] := by
  refine ⟨t, w0, w1, w2, [], ?_⟩
  rw [hs]
  exact .mk w0 w1 w2 a b x y _ _ _ (h0 _) x0 (h1 _) x1 (h2 _) hne x2 htwo (section_end _ _ hl)

theorem head_of_headHope {maxUrl maxLine maxCount : Nat} (hurl : 1 ≤ maxUrl) (hl : 2 ≤ maxLine) {s : Bytes}
    (h : HeadHope maxUrl maxLine maxCount s) : ∃ t w0 w1 w2 fs, HeadText maxUrl maxLine maxCount true (s ++ t) w0 w1 w2 fs [] := by
  have hx : ∀ c ∈ ([88] : Bytes), IsText c := by decide
  have hv : ∀ r, Taken 10 128 true ([88] ++ [13, 10]) r := fun r => .upTo [88, 13] r (by decide) (by decide)
  have htwo : TwoBytes 13 10 := by decide
  cases h with
  | method s h1 h2 h3 =>
    exact head_of_pieces hl (w0 := s) (a := 32) (w1 := []) (b := 32) (w2 := [88]) (x := 13) (y := 10) (t := [32, 32, 88, 13, 10, 13, 10])
      (by simp) (fun r => .upTo s r h1 h2) h3 (fun r => .upTo [] r (by simp) hurl) (by simp) hv (by simp) hx htwo
  | target w0 a s h1 h2 h3 h4 h5 =>
    exact head_of_pieces hl (w0 := w0) (a := a) (w1 := s) (b := 32) (w2 := [88]) (x := 13) (y := 10) (t := [32, 88, 13, 10, 13, 10])
      (by simp) (fun r => h1.further _ r) h2 (fun r => .upTo s r h3 h4) h5 hv (by simp) hx htwo
  | version w0 w1 a b s h1 h2 h3 h4 h5 h6 h7 =>
    cases h7 with
    | start _ h7 h8 =>
      match s, h7 with
      | [], _ =>
        exact head_of_pieces hl (w0 := w0) (a := a) (w1 := w1) (b := b) (w2 := [88]) (x := 13) (y := 10) (t := [88, 13, 10, 13, 10])
          (by simp) (fun r => h1.further _ r) h2 (fun r => h3.further _ r) h4 hv (by simp) hx htwo
      | [c], _ =>
        refine head_of_pieces hl (w0 := w0) (a := a) (w1 := w1) (b := b) (w2 := [c]) (x := 13) (y := 10) (t := [13, 10, 13, 10])
          (by simp) (fun r => h1.further _ r) h2 (fun r => h3.further _ r) h4 (fun r => .upTo [c, 13] r ?_ (by simp)) (by simp) h8 htwo
        simp only [List.mem_cons, List.not_mem_nil, or_false] at h5 ⊢
        rintro (h | h)
        · exact h5 h
        · exact absurd h (by decide)
    | more w x h7 h8 h9 =>
      refine head_of_pieces hl (w0 := w0) (a := a) (w1 := w1) (b := b) (w2 := w) (x := x) (y := 10) (t := [10, 13, 10])
        (by simp) (fun r => h1.further _ r) h2 (fun r => h3.further _ r) h4 (fun r => ?_) h7 h8 (Or.inl ⟨h9, by decide⟩)
      rw [show w ++ [x, 10] = w ++ [x] ++ [10] by simp]
      exact .upTo _ r h5 h6
    | full w x h7 h8 h9 h10 =>
      refine head_of_pieces hl (w0 := w0) (a := a) (w1 := w1) (b := b) (w2 := w) (x := x) (y := 0x80) (t := [0x80, 13, 10])
        (by simp) (fun r => h1.further _ r) h2 (fun r => h3.further _ r) h4 (fun r => ?_) (by rintro rfl; simp at h7) h8
        (Or.inr ⟨h9, h10, by decide, by decide⟩)
      refine .full _ r ?_ (by simp [h7])
      rw [show w ++ [x, 0x80] = w ++ [x] ++ [0x80] by simp]
      intro hm
      rcases List.mem_append.mp hm with hm | hm
      · exact h5 hm
      · simp at hm
  | fields w0 w1 w2 a b x y s h1 h2 h3 h4 h5 h6 h7 h8 h9 =>
    obtain ⟨t, fs, h⟩ := section_of_sectionHope hl h9
    refine ⟨t, w0, w1, w2, fs, ?_⟩
    rw [show w0 ++ [a] ++ (w1 ++ [b] ++ (w2 ++ [x, y] ++ s)) ++ t = w0 ++ [a] ++ (w1 ++ [b] ++ (w2 ++ [x, y] ++ (s ++ t))) by simp]
    exact .mk w0 w1 w2 a b x y _ _ _ (h1.further _ _) h2 (h3.further _ _) h4 (h5.further _ _) h6 h7 h8 h

/-- **C132**, exactly when the server is right to wait: the bytes received are an unfinished head and can still become one - by more bytes, or
by the end of the stream - if and only if they are as `HeadHope` says. It waits for all of `HeadOpen` (`C129_waits`), so it waits in vain for those
unfinished heads that are not of this kind. Missing: that it refuses them (`C132_hopeless_violated`). -/
theorem C132_exactly_partial (lim : HttpLimits) (hurl : 1 ≤ lim.maxUrl) (hline : 2 ≤ lim.maxHeaderLine) (hd : Head) (hb : hd.Blank) (s : Bytes) :
    HeadHope lim.maxUrl lim.maxHeaderLine lim.maxHeadersCount s ↔
      (∀ r : Reader, r.flat = s → r.fin = .silent → readHead lim hd r = .error .waiting) ∧
      ∃ (t : Bytes) (r : Reader) (x : Head × Reader), r.flat = s ++ t ∧ readHead lim hd r = .ok x := by
  constructor
  · intro h
    refine ⟨fun r hr hf => (C129_waits lim hd hb r).mpr ⟨hf, by rw [hr]; exact h.isOpen⟩, ?_⟩
    obtain ⟨t, w0, w1, w2, fs, ht⟩ := head_of_headHope hurl hline h
    obtain ⟨hd', r', h1, _⟩ := C129_accepts lim hd hb (Reader.ofBytes (s ++ t) .eof) w0 w1 w2 [] fs
      (by rw [Reader.flat_ofBytes]; exact ht)
    exact ⟨t, _, _, Reader.flat_ofBytes _ _, h1⟩
  · rintro ⟨h1, t, r, ⟨hd', r'⟩, hr, hx⟩
    have h2 := ((C129_waits lim hd hb _).mp (h1 (Reader.ofBytes s .silent) (Reader.flat_ofBytes _ _) rfl)).2
    rw [Reader.flat_ofBytes] at h2
    obtain ⟨fs, h3, _⟩ := C129_accepted lim hd hd' hb r r' hx
    rw [hr] at h3
    exact headHope_of_head h2 h3

/-- Non-trivial cases: the beginning of a request, broken off in its version; and a header line with a control character, for which the server waits
in vain. -/
example : HeadHope 100 100 10 b!"GET /a HT" ∧ ¬ LineHope 100 10 (b!"Na" ++ [1] ++ b!"me") := by
  constructor
  · exact .version b!"GET" b!"/a" 32 32 b!"HT" (.upTo _ _ (by decide) (by decide)) (by decide) (.upTo _ _ (by decide) (by decide)) (by decide)
      (by decide) (by decide) (.more [72] 84 (by simp) (by decide) (by decide))
  · intro h
    generalize hu : b!"Na" ++ [1] ++ b!"me" = u at h
    cases h with
    | short _ h => rw [← hu] at h; exact absurd h (by decide)
    | plain w z _ h _ _ =>
      have := (List.append_inj' (show [78, 97, 1, 109] ++ [101] = w ++ [z] from hu) rfl).1
      exact absurd (h 1 (by rw [← this]; decide)) (by decide)
    | field n v z hn _ _ hv _ _ =>
      have := (List.append_inj' (show [78, 97, 1, 109] ++ [101] = n ++ 58 :: v ++ [z] from hu) rfl).1
      have hm : (58 : Byte) ∈ [78, 97, 1, 109] := by rw [this]; simp
      exact absurd hm (by decide)
    | colon n z hn _ _ _ _ _ =>
      have hm : (58 : Byte) ∈ b!"Na" ++ [1] ++ b!"me" := by rw [hu]; simp
      exact absurd hm (by decide)

end Httpd
