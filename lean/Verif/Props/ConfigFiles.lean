import Verif.Spec.Config
import Verif.Props.ConfigFix
/-! # C58, C59, C86: files -/

namespace Httpd
open Spec

/-! ## Paths -/

theorem splitSlash_ne (s : Str) : splitSlash s ≠ [] := by
  cases s with
  | nil => simp [splitSlash]
  | cons c cs =>
    simp only [splitSlash]
    split
    · simp
    · split <;> simp

theorem splitSlash_no (s : Str) (h : 47 ∉ s) : splitSlash s = [s] := by
  induction s with
  | nil => rfl
  | cons c cs ih =>
    simp only [List.mem_cons, not_or] at h
    rw [splitSlash, if_neg (Ne.symm h.1), ih h.2]

theorem splitSlash_append (a b : Str) : splitSlash (a ++ 47 :: b) = splitSlash a ++ splitSlash b := by
  induction a with
  | nil => simp [splitSlash]
  | cons c cs ih =>
    simp only [List.cons_append, splitSlash, ih]
    split
    · rfl
    · cases h : splitSlash cs with
      | nil => exact absurd h (splitSlash_ne cs)
      | cons p ps => rfl

theorem pathParts_append (a b : Str) : pathParts (a ++ 47 :: b) = pathParts a ++ pathParts b := by
  simp [pathParts, splitSlash_append]

theorem pathParts_filler {t : Str} (h : Filler t) : pathParts t = [] := by
  induction h with
  | nil => decide
  | slash t _ ih =>
    have := pathParts_append [] t
    simp only [List.nil_append] at this
    rw [this, ih]; decide
  | dot t ht ih =>
    have h1 := pathParts_append [] (46 :: t)
    simp only [List.nil_append] at h1
    rw [h1]
    cases ht with
    | nil => decide
    | slash t' ht' =>
      have h2 := pathParts_append [46] t'
      have h3 := pathParts_append [] t'
      simp only [List.nil_append] at h3
      simp only [List.cons_append, List.nil_append] at h2
      rw [h3] at ih
      rw [h2]
      have h4 : pathParts t' = [] := (List.append_eq_nil_iff.mp ih).2
      rw [h4]; decide
    | dot t' ht' =>
      have h2 := pathParts_append [46] (46 :: t')
      have h3 := pathParts_append [] (46 :: t')
      simp only [List.nil_append] at h3
      simp only [List.cons_append, List.nil_append] at h2
      rw [h3] at ih
      rw [h2]
      have h4 : pathParts (46 :: t') = [] := (List.append_eq_nil_iff.mp ih).2
      rw [h4]; decide

theorem pathParts_one {c : Str} (h1 : c ≠ []) (h2 : c ≠ [46]) (h3 : 47 ∉ c) : pathParts c = [c] := by
  rw [pathParts, splitSlash_no c h3]
  simp [h1, h2]

theorem filler_cases {t : Str} (h : Filler t) : t = [] ∨ ∃ t', t = 47 :: t' ∧ pathParts t' = [] := by
  cases h with
  | nil => exact Or.inl rfl
  | slash t h => exact Or.inr ⟨t, rfl, pathParts_filler h⟩
  | dot t h =>
    refine Or.inr ⟨46 :: t, rfl, ?_⟩
    have h1 := pathParts_append [] (46 :: t)
    have h2 := pathParts_filler (Filler.dot t h)
    simp only [List.nil_append] at h1
    rw [h1] at h2
    exact (List.append_eq_nil_iff.mp h2).2

theorem lastComponent_last {p c : Str} (h : LastComponent p c) : (pathParts p).getLast? = some c := by
  obtain ⟨h1, h2, h3, pre, post, rfl, hpre, hpost⟩ := h
  have hc : pathParts (c ++ post) = [c] := by
    rcases filler_cases hpost with rfl | ⟨t, rfl, ht⟩
    · rw [List.append_nil, pathParts_one h1 h2 h3]
    · rw [pathParts_append, pathParts_one h1 h2 h3, ht]; rfl
  rcases hpre with rfl | hpre
  · rw [List.nil_append, hc]; rfl
  · obtain ⟨pre', rfl⟩ := List.getLast?_eq_some_iff.mp hpre
    have : pre' ++ [47] ++ c ++ post = pre' ++ 47 :: (c ++ post) := by simp
    rw [this, pathParts_append, hc, List.getLast?_append]; simp

theorem path_cases (p : Str) : (∃ c, LastComponent p c) ∨ Filler p ∨ ∃ t, p = 46 :: t ∧ Filler t := by
  induction p with
  | nil => exact Or.inr (Or.inl .nil)
  | cons x p ih =>
    rcases ih with ⟨c, h1, h2, h3, pre, post, rfl, hpre, hpost⟩ | hf | ⟨t, rfl, hf⟩
    · left
      cases pre with
      | cons y pre =>
        refine ⟨c, h1, h2, h3, x :: y :: pre, post, by simp, Or.inr ?_, hpost⟩
        rcases hpre with h | h
        · cases h
        · rw [List.getLast?_cons_cons]; exact h
      | nil =>
        by_cases hx : x = 47
        · subst hx
          exact ⟨c, h1, h2, h3, [47], post, by simp, Or.inr rfl, hpost⟩
        · refine ⟨x :: c, by simp, ?_, ?_, [], post, by simp, Or.inl rfl, hpost⟩
          · intro h; simp only [List.cons.injEq] at h; exact h1 h.2
          · simp only [List.mem_cons, not_or]; exact ⟨fun h => hx h.symm, h3⟩
    · by_cases hx : x = 47
      · subst hx; exact Or.inr (Or.inl (.slash p hf))
      · by_cases hx2 : x = 46
        · subst hx2; exact Or.inr (Or.inr ⟨p, rfl, hf⟩)
        · left
          exact ⟨[x], by simp, by simpa using hx2, by simpa using fun h => hx h.symm, [], p, by simp, Or.inl rfl, hf⟩
    · by_cases hx : x = 47
      · subst hx; exact Or.inr (Or.inl (.dot t hf))
      · left
        exact ⟨[x, 46], by simp, by simp, by simpa using fun h => hx h.symm, [], t, by simp, Or.inl rfl, hf⟩

theorem lastComponent_iff (p c : Str) : (pathParts p).getLast? = some c ↔ LastComponent p c := by
  refine ⟨fun h => ?_, lastComponent_last⟩
  rcases path_cases p with ⟨c', h'⟩ | hf | ⟨t, rfl, hf⟩
  · have := lastComponent_last h'
    rw [h] at this; cases this
    exact h'
  · rw [pathParts_filler hf] at h; cases h
  · have h1 := pathParts_append [] (46 :: t)
    have h2 := pathParts_filler (Filler.dot t hf)
    simp only [List.nil_append] at h1
    rw [h1] at h2
    have h3 : pathParts (46 :: t) = [] := (List.append_eq_nil_iff.mp h2).2
    rw [h3] at h; cases h

theorem fileName_iff (p c : Str) : fileName p = some c ↔ LastComponent p c ∧ c ≠ [46, 46] := by
  rw [← lastComponent_iff]
  unfold fileName
  cases (pathParts p).getLast? with
  | none => simp
  | some s =>
    simp only [Option.some.injEq]
    by_cases hs : s = [46, 46]
    · subst hs
      simp only [↓reduceIte, reduceCtorEq, false_iff, not_and]
      intro h1 h2
      exact h2 h1.symm
    · simp only [hs, ↓reduceIte, Option.some.injEq]
      constructor
      · rintro rfl; exact ⟨rfl, hs⟩
      · exact fun h => h.1

theorem fileName_none (p : Str) : fileName p = none ↔ ∀ c, LastComponent p c → c = [46, 46] := by
  constructor
  · intro h c hc
    by_cases h2 : c = [46, 46]
    · exact h2
    · rw [(fileName_iff p c).mpr ⟨hc, h2⟩] at h; cases h
  · intro h
    cases hf : fileName p with
    | none => rfl
    | some c =>
      have := (fileName_iff p c).mp hf
      exact absurd (h c this.1) this.2

theorem takeWhile_prefix_split (s : Str) :
    (46 ∉ s ∧ s.takeWhile (· != 46) = s) ∨ ∃ t, s = s.takeWhile (· != 46) ++ 46 :: t := by
  induction s with
  | nil => left; simp
  | cons x s ih =>
    by_cases hx : x = 46
    · right; exact ⟨s, by simp [hx]⟩
    · have hx' : (x != 46) = true := by simpa using hx
      rw [List.takeWhile_cons_of_pos (by simpa using hx)]
      rcases ih with ⟨h1, h2⟩ | ⟨t, h⟩
      · left
        refine ⟨?_, by rw [h2]⟩
        simp only [List.mem_cons, not_or]; exact ⟨fun h => hx h.symm, h1⟩
      · right
        exact ⟨t, by rw [List.cons_append, ← h]⟩

theorem takeWhile_no_dot (s : Str) : 46 ∉ s.takeWhile (· != 46) := by
  induction s with
  | nil => simp
  | cons x s ih =>
    by_cases hx : x = 46
    · simp [hx]
    · rw [List.takeWhile_cons_of_pos (by simpa using hx)]
      simp only [List.mem_cons, not_or]
      exact ⟨fun h => hx h.symm, ih⟩

/-- The three cases of `Path::extension`. -/
theorem extension_cases (name : Str) :
    (46 ∉ name ∧ extension name = none) ∨ (∃ t, name = 46 :: t ∧ 46 ∉ t ∧ extension name = none) ∨
    (∃ stem ext, name = stem ++ [46] ++ ext ∧ stem ≠ [] ∧ 46 ∉ ext ∧ extension name = some ext) := by
  have hlen : name.reverse.length = name.length := by simp
  rcases takeWhile_prefix_split name.reverse with ⟨h1, h2⟩ | ⟨t, ht⟩
  · left
    refine ⟨by simpa using h1, ?_⟩
    simp [extension, h2]
  · right
    have hnd := takeWhile_no_dot name.reverse
    generalize hw : name.reverse.takeWhile (· != 46) = w at *
    have hname : name = t.reverse ++ [46] ++ w.reverse := by
      have := congrArg List.reverse ht
      simpa using this
    have hl : name.length = t.length + 1 + w.length := by rw [hname]; simp; omega
    cases t with
    | nil =>
      left
      refine ⟨w.reverse, by simpa using hname, by simpa using hnd, ?_⟩
      simp only [List.length_nil] at hl
      unfold extension
      simp only [hw, List.length_reverse]
      rw [if_neg (by omega), if_pos (by omega)]
    | cons y t =>
      right
      refine ⟨(y :: t).reverse, w.reverse, hname, by simp, by simpa using hnd, ?_⟩
      simp only [List.length_cons] at hl
      unfold extension
      simp only [hw, List.length_reverse]
      rw [if_neg (by omega), if_neg (by omega)]

theorem stem_unique {name a b : Str} (ha : IsStem name a) (hb : IsStem name b) : a = b := by
  have key : ∀ (s1 e1 s2 e2 : Str), s1 ++ [46] ++ e1 = s2 ++ [46] ++ e2 → 46 ∉ e1 → 46 ∉ e2 → s1 = s2 := by
    intro s1 e1 s2 e2 h h1 h2
    have hr := congrArg List.reverse h
    simp only [List.reverse_append, List.reverse_cons, List.reverse_nil, List.nil_append, List.append_assoc] at hr
    have ht : ∀ (e s : Str), 46 ∉ e → (e.reverse ++ ([46] ++ s.reverse)).takeWhile (· != 46) = e.reverse := by
      intro e s he
      have : ∀ x ∈ e.reverse, (x != 46) = true := by
        intro x hx
        simp only [bne_iff_ne, ne_eq]
        rintro rfl
        exact he (by simpa using hx)
      rw [List.takeWhile_append_of_pos this]
      simp
    have h3 := ht e1 s1 h1
    rw [hr, ht e2 s2 h2] at h3
    have h4 : e1 = e2 := by simpa using h3.symm
    subst h4
    simpa using h
  rcases ha with ⟨rfl, ha⟩ | ⟨e1, h1, h2, h3⟩
  · rcases hb with ⟨rfl, _⟩ | ⟨e2, h4, h5, h6⟩
    · rfl
    · exfalso
      obtain ⟨x, l, rfl⟩ := List.exists_cons_of_ne_nil h6
      rw [h4] at ha
      simp at ha
  · rcases hb with ⟨rfl, hb⟩ | ⟨e2, h4, h5, h6⟩
    · exfalso
      obtain ⟨x, l, rfl⟩ := List.exists_cons_of_ne_nil h3
      rw [h1] at hb
      simp at hb
    · exact key _ _ _ _ (h1.symm.trans h4) h2 h5

/-! ## C59 -/

/-- **C59** `namewithoutext` never panics. It returns `r` exactly if the path has a last component other than `..` and `r` is that
component without its last extension; otherwise it is an error. -/
theorem C59_namewithoutext (fp : Str) :
    nameWithoutExt fp ≠ .panic ∧
    (∀ r, nameWithoutExt fp = .value r ↔ ∃ name, LastComponent fp name ∧ name ≠ [46, 46] ∧ IsStem name r) ∧
    (nameWithoutExt fp = .error ↔ ∀ name, LastComponent fp name → name = [46, 46]) := by
  cases hf : fileName fp with
  | none =>
    have hn := (fileName_none fp).mp hf
    refine ⟨by simp [nameWithoutExt, hf], ?_, by simp [nameWithoutExt, hf]; exact hn⟩
    intro r
    simp only [nameWithoutExt, hf, reduceCtorEq, false_iff]
    rintro ⟨name, h1, h2, _⟩
    exact h2 (hn name h1)
  | some name =>
    obtain ⟨hl, hdd⟩ := (fileName_iff fp name).mp hf
    have huniq : ∀ name', LastComponent fp name' → name' = name := by
      intro name' h'
      have h1 := (lastComponent_iff fp name').mpr h'
      rw [(lastComponent_iff fp name).mpr hl] at h1
      exact (Option.some.inj h1).symm
    have key : ∃ r0, nameWithoutExt fp = .value r0 ∧ IsStem name r0 := by
      simp only [nameWithoutExt, hf]
      rcases extension_cases name with ⟨h1, h2⟩ | ⟨t, h1, h2, h3⟩ | ⟨stem, ext, h1, h2, h3, h4⟩
      · refine ⟨name, by simp [h2], Or.inl ⟨rfl, fun h => h1 (List.mem_of_mem_tail h)⟩⟩
      · refine ⟨name, by simp [h3], Or.inl ⟨rfl, by rw [h1]; exact h2⟩⟩
      · refine ⟨stem, ?_, Or.inr ⟨ext, h1, h3, h2⟩⟩
        have hlen : name.length = stem.length + 1 + ext.length := by rw [h1]; simp; omega
        simp only [h4]
        rw [if_pos (by omega)]
        congr 1
        have : name.length - ext.length - 1 = stem.length := by omega
        rw [this, h1, List.append_assoc]
        simp
    obtain ⟨r0, hr0, hs0⟩ := key
    rw [hr0]
    refine ⟨by simp, ?_, ?_⟩
    · intro r
      constructor
      · intro h
        cases h
        exact ⟨name, hl, hdd, hs0⟩
      · rintro ⟨name', h1, _, h3⟩
        rw [huniq name' h1] at h3
        rw [stem_unique hs0 h3]
    · simp only [reduceCtorEq, false_iff]
      intro h
      exact hdd (h name hl)

example : nameWithoutExt u!"./conf.d/a.b.toml/." = .value u!"a.b" ∧ nameWithoutExt u!".hidden" = .value u!".hidden" ∧
    nameWithoutExt u!"a." = .value u!"a" ∧ nameWithoutExt u!"a/.." = .error := by decide

/-! ## C58 -/

/-- **C58** Loading the matched files either fails or adds exactly the services of the visible regular files, in order, after those
already there, which it leaves alone; it never panics; and names stay distinct. -/
theorem C58_include (patterns : List (Option (List GlobItem))) (services : List (Str × ServiceConfig)) :
    includeAll patterns services ≠ .panic ∧
    ∀ out, includeAll patterns services = .value out →
      (∃ (items : List (List GlobItem)) (added : List (List (Str × ServiceConfig))), patterns = items.map some ∧ Each2 Adds items.flatten added ∧ out = services ++ added.flatten) ∧
      ((services.map (·.1)).Nodup → (out.map (·.1)).Nodup) ∧ (∀ p ∈ out, p ∈ services ∨ p.2.name = p.1) := by
  have loop : ∀ (items : List GlobItem) (services : List (Str × ServiceConfig)),
      includeLoop items services ≠ .panic ∧
      ∀ out, includeLoop items services = .value out →
        (∃ added, Each2 Adds items added ∧ out = services ++ added.flatten) ∧
        ((services.map (·.1)).Nodup → (out.map (·.1)).Nodup) ∧ (∀ p ∈ out, p ∈ services ∨ p.2.name = p.1) := by
    intro items
    induction items with
    | nil =>
      intro services
      refine ⟨by simp [includeLoop], ?_⟩
      intro out h
      simp only [includeLoop, Outcome.value.injEq] at h
      subst h
      exact ⟨⟨[], .nil, by simp⟩, id, fun p hp => Or.inl hp⟩
    | cons e es ih =>
      intro services
      -- an item that adds nothing
      have skip : Adds e [] → includeLoop (e :: es) services = includeLoop es services →
          includeLoop (e :: es) services ≠ .panic ∧ ∀ out, includeLoop (e :: es) services = .value out →
            (∃ added, Each2 Adds (e :: es) added ∧ out = services ++ added.flatten) ∧
            ((services.map (·.1)).Nodup → (out.map (·.1)).Nodup) ∧ (∀ p ∈ out, p ∈ services ∨ p.2.name = p.1) := by
        intro h1 h2
        rw [h2]
        refine ⟨(ih services).1, ?_⟩
        intro out h
        obtain ⟨⟨added, h3, h4⟩, h5⟩ := (ih services).2 out h
        exact ⟨⟨[] :: added, .cons h1 h3, by simpa using h4⟩, h5⟩
      -- an item that adds a service
      have add : ∀ (name : Str) (s : ServiceConfig), Adds e [(name, { s with name := name })] →
          includeLoop (e :: es) services =
            (if services.any (fun s => s.1 = name) then .error else includeLoop es (services ++ [(name, { s with name := name })])) →
          includeLoop (e :: es) services ≠ .panic ∧ ∀ out, includeLoop (e :: es) services = .value out →
            (∃ added, Each2 Adds (e :: es) added ∧ out = services ++ added.flatten) ∧
            ((services.map (·.1)).Nodup → (out.map (·.1)).Nodup) ∧ (∀ p ∈ out, p ∈ services ∨ p.2.name = p.1) := by
        intro name s h1 h2
        rw [h2]
        by_cases hdup : services.any (fun s => s.1 = name) = true
        · rw [if_pos hdup]
          exact ⟨by simp, by simp⟩
        · rw [if_neg hdup]
          have ih := ih (services ++ [(name, { s with name := name })])
          refine ⟨ih.1, ?_⟩
          intro out h
          obtain ⟨⟨added, h3, h4⟩, h5, h6⟩ := ih.2 out h
          refine ⟨⟨_ :: added, .cons h1 h3, by simpa using h4⟩, ?_, ?_⟩
          · intro hnd
            refine h5 ?_
            rw [List.map_append, List.nodup_append]
            refine ⟨hnd, by simp, ?_⟩
            intro a ha b hb
            simp only [List.map_cons, List.map_nil, List.mem_singleton] at hb
            subst hb
            rintro rfl
            obtain ⟨p, hp, hpa⟩ := List.mem_map.mp ha
            exact hdup (List.any_eq_true.mpr ⟨p, hp, by simpa using hpa⟩)
          · intro p hp
            rcases h6 p hp with h7 | h7
            · rcases List.mem_append.mp h7 with h8 | h8
              · exact Or.inl h8
              · rw [List.mem_singleton.mp h8]; exact Or.inr rfl
            · exact Or.inr h7
      cases e with
      | err => exact skip .err rfl
      | ok path isFile text parsed =>
        cases hf : fileName path with
        | none => exact skip (.noName _ _ _ _ ((fileName_none path).mp hf)) (by simp [includeLoop, hf])
        | some base =>
          obtain ⟨hl, hdd⟩ := (fileName_iff path base).mp hf
          cases isFile with
          | false => exact skip (.notFile _ _ _) (by simp [includeLoop, hf])
          | true =>
            by_cases hh : base.head? = some 46
            · exact skip (.hidden _ _ _ _ base hl hh) (by simp [includeLoop, hf, hh])
            · cases text with
              | false => exact ⟨by simp [includeLoop, hf, hh], by simp [includeLoop, hf, hh]⟩
              | true =>
                cases parsed with
                | none => exact ⟨by simp [includeLoop, hf, hh], by simp [includeLoop, hf, hh]⟩
                | some s =>
                  by_cases ht : trimUnicode s.name = []
                  · cases hn : nameWithoutExt path with
                    | panic => exact absurd hn (C59_namewithoutext path).1
                    | error => exact ⟨by simp [includeLoop, hf, hh, ht, hn], by simp [includeLoop, hf, hh, ht, hn]⟩
                    | value stem =>
                      obtain ⟨name, h1, _, h3⟩ := ((C59_namewithoutext path).2.1 stem).mp hn
                      have : name = base := by
                        have h4 := (lastComponent_iff path name).mpr h1
                        rw [(lastComponent_iff path base).mpr hl] at h4
                        exact (Option.some.inj h4).symm
                      subst this
                      exact add stem s (.unnamed path name stem s hl hh ht h3) (by simp [includeLoop, hf, hh, ht, hn])
                  · exact add (trimUnicode s.name) s (.named path base s hl hh ht) (by simp [includeLoop, hf, hh, ht])
  induction patterns generalizing services with
  | nil =>
    refine ⟨by simp [includeAll], ?_⟩
    intro out h
    simp only [includeAll, Outcome.value.injEq] at h
    subst h
    exact ⟨⟨[], [], rfl, .nil, by simp⟩, id, fun p hp => Or.inl hp⟩
  | cons p ps ih =>
    cases p with
    | none => exact ⟨by simp [includeAll, includePattern], by simp [includeAll, includePattern]⟩
    | some items =>
      obtain ⟨l1, l2⟩ := loop items services
      simp only [includeAll, includePattern]
      cases hl : includeLoop items services with
      | panic => exact absurd hl l1
      | error => exact ⟨by simp, by simp⟩
      | value mid =>
        obtain ⟨⟨added1, a1, a2⟩, a3, a4⟩ := l2 mid hl
        obtain ⟨i1, i2⟩ := ih mid
        refine ⟨i1, ?_⟩
        intro out h
        obtain ⟨⟨items2, added2, b1, b2, b3⟩, b4, b5⟩ := i2 out h
        refine ⟨⟨items :: items2, added1 ++ added2, by simp [b1], ?_, by simp [b3, a2]⟩, fun h => b4 (a3 h), ?_⟩
        · have app : ∀ (l1 : List GlobItem) (m1 : List (List (Str × ServiceConfig))), Each2 Adds l1 m1 → ∀ l2 m2,
              Each2 Adds l2 m2 → Each2 Adds (l1 ++ l2) (m1 ++ m2) := by
            intro l1 m1 h
            induction h with
            | nil => intro l2 m2 h2; exact h2
            | cons hr _ ih => intro l2 m2 h2; exact .cons hr (ih l2 m2 h2)
          exact app _ _ a1 _ _ b2
        · intro p hp
          rcases b5 p hp with h1 | h1
          · exact a4 p h1
          · exact Or.inr h1

theorem each2_split {α β : Type} {R : α → β → Prop} (a b : List α) (out : List β) (h : Each2 R (a ++ b) out) :
    ∃ x y, out = x ++ y ∧ Each2 R a x ∧ Each2 R b y := by
  induction a generalizing out with
  | nil => exact ⟨[], out, rfl, .nil, h⟩
  | cons e es ih =>
    cases h with
    | cons hr ht =>
      obtain ⟨x, y, rfl, h1, h2⟩ := ih _ ht
      exact ⟨_ :: x, y, rfl, .cons hr h1, h2⟩

/-- A matched file that adds services is passed over or adds them, if none has a name that is taken. -/
theorem includeLoop_adds (e : GlobItem) (a : List (Str × ServiceConfig)) (h : Adds e a) (es : List GlobItem)
    (services : List (Str × ServiceConfig)) (hnew : ∀ p ∈ a, p.1 ∉ services.map (·.1)) :
    includeLoop (e :: es) services = includeLoop es (services ++ a) := by
  have free : ∀ name : Str, name ∉ services.map (·.1) → services.any (fun s => s.1 = name) = false := by
    intro name hn
    rw [Bool.eq_false_iff]
    intro h
    obtain ⟨p, hp, hpn⟩ := List.any_eq_true.mp h
    exact hn (List.mem_map.mpr ⟨p, hp, by simpa using hpn⟩)
  have named : ∀ path name, LastComponent path name → name.head? ≠ some 46 → fileName path = some name := by
    intro path name hl hh
    exact (fileName_iff path name).mpr ⟨hl, by rintro rfl; exact hh rfl⟩
  cases h with
  | err => simp [includeLoop]
  | notFile path text parsed =>
    cases hf : fileName path with
    | none => simp [includeLoop, hf]
    | some base => simp [includeLoop, hf]
  | noName path isFile text parsed hn =>
    simp [includeLoop, (fileName_none path).mpr hn]
  | hidden path isFile text parsed name hl hh =>
    cases hf : fileName path with
    | none => simp [includeLoop, hf]
    | some base =>
      have h1 := (lastComponent_iff path base).mpr ((fileName_iff path base).mp hf).1
      rw [(lastComponent_iff path name).mpr hl] at h1
      cases h1
      cases isFile <;> simp [includeLoop, hf, hh]
  | named path name s hl hh ht =>
    have hfree := free (trimUnicode s.name) (hnew _ List.mem_cons_self)
    simp [includeLoop, named path name hl hh, hh, ht, hfree]
  | unnamed path name stem s hl hh ht hs =>
    have hfree := free stem (hnew _ List.mem_cons_self)
    have hn := ((C59_namewithoutext path).2.1 stem).mpr ⟨name, hl, by rintro rfl; exact hh rfl, hs⟩
    simp [includeLoop, named path name hl hh, hh, ht, hn, hfree]

theorem includeLoop_all (items : List GlobItem) (added : List (List (Str × ServiceConfig))) (h : Each2 Adds items added)
    (services : List (Str × ServiceConfig)) (hnd : (added.flatten.map (·.1)).Nodup)
    (hnew : ∀ p ∈ added.flatten, p.1 ∉ services.map (·.1)) :
    includeLoop items services = .value (services ++ added.flatten) := by
  induction h generalizing services with
  | nil => simp [includeLoop]
  | @cons e a es as hr _ ih =>
    simp only [List.flatten_cons, List.map_append, List.nodup_append, List.mem_append] at hnd hnew ⊢
    rw [includeLoop_adds e a hr es services (fun p hp => hnew p (Or.inl hp)), ih (services ++ a) hnd.2.1, List.append_assoc]
    intro p hp hm
    rw [List.map_append, List.mem_append] at hm
    rcases hm with hm | hm
    · exact hnew p (Or.inr hp) hm
    · exact hnd.2.2 p.1 hm p.1 (List.mem_map.mpr ⟨p, hp, rfl⟩) rfl

/-- **C58**, exactly when it succeeds and with what: every pattern can be used, every matched item is one that adds nothing or a visible
regular file that can be read as a service, and no service added has a name that is taken. -/
theorem C58_exactly (patterns : List (Option (List GlobItem))) (services out : List (Str × ServiceConfig))
    (hserv : (services.map (·.1)).Nodup) :
    includeAll patterns services = .value out ↔
      ∃ (items : List (List GlobItem)) (added : List (List (Str × ServiceConfig))), patterns = items.map some ∧
        Each2 Adds items.flatten added ∧ out = services ++ added.flatten ∧ (out.map (·.1)).Nodup := by
  constructor
  · intro h
    obtain ⟨⟨items, added, h1, h2, h3⟩, h4, _⟩ := (C58_include patterns services).2 out h
    exact ⟨items, added, h1, h2, h3, h4 hserv⟩
  · rintro ⟨items, added, rfl, h2, rfl, h4⟩
    induction items generalizing services added with
    | nil =>
      cases h2
      simp [includeAll]
    | cons its items ih =>
      rw [List.flatten_cons] at h2
      obtain ⟨x, y, rfl, hx, hy⟩ := each2_split _ _ _ h2
      simp only [List.flatten_append, List.map_append, List.nodup_append, List.mem_append] at h4
      have hl := includeLoop_all its x hx services h4.2.1.1 (fun p hp hm =>
        h4.2.2 p.1 hm p.1 (Or.inl (List.mem_map.mpr ⟨p, hp, rfl⟩)) rfl)
      have hnd : ((services ++ x.flatten).map (·.1)).Nodup := by
        rw [List.map_append, List.nodup_append]
        exact ⟨hserv, h4.2.1.1, fun a ha b hb => h4.2.2 a ha b (Or.inl hb)⟩
      simp only [List.map_cons, includeAll, includePattern, hl]
      rw [ih (services ++ x.flatten) hnd y hy]
      · simp
      · rw [List.map_append, List.nodup_append]
        refine ⟨hnd, h4.2.1.2.1, ?_⟩
        intro a ha b hb
        rw [List.map_append, List.mem_append] at ha
        rcases ha with ha | ha
        · exact h4.2.2 a ha b (Or.inr hb)
        · exact h4.2.1.2.2 a ha b hb

example : (includeAll [some [.ok u!"c/.x.toml" true true none, .err, .ok u!"c/web.toml" true true (some { defaultService with name := u!" " }),
    .ok u!"c" false true none]] []) = .value [(u!"web", { defaultService with name := u!"web" })] := by decide +kernel

/-! ## C86 -/

/-- **C86** Loading: when it succeeds, the services are those of the file and of the included files, or, if there are none at all, a
single hello-world service named `helloworld` at 0.0.0.0:8080 for every host; in whatever order the map is iterated. -/
theorem C86_load (pathExists : Str → Bool) (parsed : Option Config) (chdirOk : Bool) (patterns : List (Option (List GlobItem)))
    (order : List (Str × ServiceConfig) → List (Str × ServiceConfig)) (horder : ∀ l, (order l).Perm l) :
    Config.load pathExists parsed chdirOk patterns order ≠ .panic ∧
    ∀ c', Config.load pathExists parsed chdirOk patterns order = .value c' →
      ∃ config all, parsed = some config ∧ chdirOk = true ∧ includeAll patterns config.services = .value all ∧
        c'.services ≠ [] ∧
        (all ≠ [] → (c'.services.map (·.1)).Perm (all.map (·.1))) ∧
        (all = [] → ∃ s, c'.services = [(u!"helloworld", s)] ∧ s.name = u!"helloworld" ∧ s.tcp.addr = u!"0.0.0.0:8080" ∧
          s.service = .helloWorld ∧ s.host = u!"*") := by
  cases parsed with
  | none => exact ⟨by simp [Config.load], by simp [Config.load]⟩
  | some config =>
    cases chdirOk with
    | false => exact ⟨by simp [Config.load], by simp [Config.load]⟩
    | true =>
      simp only [Config.load, Bool.not_true, Bool.false_eq_true, ↓reduceIte]
      cases hi : includeAll patterns config.services with
      | panic => exact absurd hi (C58_include patterns config.services).1
      | error => exact ⟨by simp, by simp⟩
      | value all =>
        simp only []
        generalize hss : (if all.length < 1 then [(u!"helloworld", defaultService)] else all) = ss
        have hss0 : ss ≠ [] := by
          rw [← hss]
          split
          · simp
          · next h => intro h0; rw [h0] at h; simp at h
        cases ha : Config.autofix pathExists { config with services := order ss } with
        | none => exact ⟨by simp, by simp⟩
        | some c =>
          refine ⟨by simp, ?_⟩
          intro c' h
          simp only [Outcome.value.injEq] at h
          subst h
          obtain ⟨_, _, _, hk, hn⟩ := C56_identities pathExists _ c ha
          have hperm := horder ss
          refine ⟨config, all, rfl, trivial, hi, ?_, ?_, ?_⟩
          · intro h0
            rw [h0] at hk
            have h1 : (order ss).length = 0 := by have := congrArg List.length hk; simp only [List.length_map, List.length_nil] at this; exact this.symm
            have h2 := hperm.length_eq
            rw [h1] at h2
            exact hss0 (List.length_eq_zero_iff.mp h2.symm)
          · intro hne
            have : ss = all := by
              rw [← hss, if_neg]
              cases all with
              | nil => exact absurd rfl hne
              | cons _ _ => simp
            rw [hk]
            rw [this] at hperm ⊢
            exact hperm.map _
          · intro h0
            have h1 : ss = [(u!"helloworld", defaultService)] := by rw [← hss, h0]; rfl
            rw [h1] at hperm hk hn ha
            have h2 : order [(u!"helloworld", defaultService)] = [(u!"helloworld", defaultService)] :=
              List.perm_singleton.mp hperm
            rw [h2] at hk hn
            simp only [List.map_cons, List.map_nil] at hk hn
            have hlen : c.services.length = 1 := by simpa using congrArg List.length hk
            obtain ⟨⟨k, s⟩, hs⟩ := List.length_eq_one_iff.mp hlen
            rw [hs] at hk hn
            simp only [List.map_cons, List.map_nil, List.cons.injEq, and_true] at hk hn
            have h84 := (C84_nothing_else pathExists _ c ha).2
            rw [hs, h2] at h84
            cases h84 with
            | cons hr _ =>
              refine ⟨s, by rw [hs, hk], ?_, hr.2.2.2.1, hr.2.2.1, hr.2.1⟩
              rw [hn]; decide +kernel

/-- **C86**, exactly when loading succeeds: the file can be read, its directory entered and the files it includes read, and every service
has a name that is not blank and, if it is a file service, a root that exists. -/
theorem C86_exactly (pathExists : Str → Bool) (parsed : Option Config) (chdirOk : Bool) (patterns : List (Option (List GlobItem)))
    (order : List (Str × ServiceConfig) → List (Str × ServiceConfig)) (horder : ∀ l, (order l).Perm l) :
    (∃ c', Config.load pathExists parsed chdirOk patterns order = .value c') ↔
      ∃ config all, parsed = some config ∧ chdirOk = true ∧ includeAll patterns config.services = .value all ∧
        ∀ p ∈ all, trimUnicode p.1 ≠ [] ∧ ∀ root, p.2.service = .fileSystem root → root ≠ [] ∧ pathExists root = true := by
  constructor
  · rintro ⟨c', h⟩
    obtain ⟨config, all, h1, h2, h3, _, _, _⟩ := (C86_load pathExists parsed chdirOk patterns order horder).2 c' h
    subst h1 h2
    refine ⟨config, all, rfl, rfl, h3, ?_⟩
    intro p hp
    simp only [Config.load, Bool.not_true, Bool.false_eq_true, ↓reduceIte, h3] at h
    rw [if_neg (by have := List.length_pos_of_mem hp; omega)] at h
    cases ha : Config.autofix pathExists { config with services := order all } with
    | none => rw [ha] at h; cases h
    | some c =>
      have := (C87_accepted_iff pathExists { config with services := order all }).mp (by rw [ha]; rfl)
      exact this p ((horder all).mem_iff.mpr hp)
  · rintro ⟨config, all, rfl, rfl, h3, hall⟩
    simp only [Config.load, Bool.not_true, Bool.false_eq_true, ↓reduceIte, h3]
    generalize hss : (if all.length < 1 then [(u!"helloworld", defaultService)] else all) = ss
    have hok : (Config.autofix pathExists { config with services := order ss }).isSome := by
      rw [C87_accepted_iff]
      intro p hp
      have hp := (horder ss).mem_iff.mp hp
      rw [← hss] at hp
      split at hp
      · rw [List.mem_singleton.mp hp]
        exact ⟨by decide +kernel, by intro root h; cases h⟩
      · exact hall p hp
    obtain ⟨c, hc⟩ := Option.isSome_iff_exists.mp hok
    exact ⟨c, by rw [hc]⟩

/-- **C86**, with their contents: the services of a loaded configuration are those of the file and the included files, in the order in which
the map is iterated, each with the host, the kind of service, the address, the TLS files and the appenders that were given under its name. -/
theorem C86_contents (pathExists : Str → Bool) (parsed : Option Config) (chdirOk : Bool) (patterns : List (Option (List GlobItem)))
    (order : List (Str × ServiceConfig) → List (Str × ServiceConfig)) (c' : Config)
    (h : Config.load pathExists parsed chdirOk patterns order = .value c') (config : Config) (hp : parsed = some config)
    (all : List (Str × ServiceConfig)) (hall : includeAll patterns config.services = .value all) (hne : all ≠ []) :
    Each2 (fun p q => q.1 = p.1 ∧ q.2.name = trimUnicode p.1 ∧ q.2.host = p.2.host ∧ q.2.service = p.2.service ∧
      q.2.tcp.addr = p.2.tcp.addr ∧ q.2.tcp.tls.cert = p.2.tcp.tls.cert ∧ q.2.tcp.tls.key = p.2.tcp.tls.key ∧
      q.2.logging.appenders = p.2.logging.appenders) (order all) c'.services := by
  subst hp
  cases chdirOk with
  | false => simp [Config.load] at h
  | true =>
    simp only [Config.load, Bool.not_true, Bool.false_eq_true, ↓reduceIte, hall] at h
    rw [if_neg (by cases all with | nil => exact absurd rfl hne | cons _ _ => simp)] at h
    cases ha : Config.autofix pathExists { config with services := order all } with
    | none => rw [ha] at h; cases h
    | some c =>
      rw [ha] at h
      simp only [Outcome.value.injEq] at h
      subst h
      have h1 := (C84_nothing_else pathExists _ c ha).2
      have h2 := (C56_identities pathExists _ c ha).2.2.2.2
      simp only at h1 h2
      clear ha hne hall
      generalize order all = l at h1 h2
      generalize c.services = l' at h1 h2
      induction h1 with
      | nil => exact .nil
      | cons hd _ ih =>
        simp only [List.map_cons, List.cons.injEq] at h2
        exact .cons ⟨hd.1, h2.1, hd.2.1, hd.2.2.1, hd.2.2.2.1, hd.2.2.2.2.1, hd.2.2.2.2.2.1, hd.2.2.2.2.2.2.2.1⟩ (ih h2.2)

/-- The services of an outcome by name and number. -/
private def brief : Outcome Config → List (Str × Nat)
  | .value c => c.services.map (fun s => (s.2.name, s.2.idx))
  | _ => []

example : brief (Config.load (fun _ => true) (some (collidingConfig u!"a" defaultService)) true [] id) = [(u!"a", 1), (u!"a", 2)] ∧
    brief (Config.load (fun _ => true) (some { collidingConfig u!"a" defaultService with services := [] }) true [] id) =
      [(u!"helloworld", 1)] := by decide +kernel

end Httpd
