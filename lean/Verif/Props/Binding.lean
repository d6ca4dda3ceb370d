import Verif.Model.Binding
/-! # C202: which service answers at an address -/

namespace Httpd
variable {A : Type}

theorem Binding.put_self (b : Binding A) (i : Nat) (p : BindPhase A) : b.put i p i = p := by simp [Binding.put]

theorem Binding.put_other (b : Binding A) {i j : Nat} (p : BindPhase A) (h : j ≠ i) : b.put i p j = b j := by simp [Binding.put, h]

/-- Two services never listen at addresses that clash. -/
theorem bound_apart (n : NetEnv A) (hsym : ∀ x y, n.clash x y = n.clash y x) (addrs : List Str) {b : Binding A} (h : BindRun n addrs b) :
    ∀ i j x y, i ≠ j → b i = .listening x → b j = .listening y → n.clash x y = false := by
  induction h with
  | start => intro i j x y _ h; cases h
  | @step b b' _ hs ih =>
    intro i j x y hij hi hj
    -- a step that makes `k` listen, or not
    have other : ∀ (k : Nat) (p : BindPhase A), (∀ z, p ≠ .listening z) → b' = b.put k p → n.clash x y = false := by
      intro k p hp e
      subst e
      refine ih i j x y hij ?_ ?_
      · by_cases hik : i = k
        · subst hik; rw [Binding.put_self] at hi; exact absurd hi (hp x)
        · rwa [Binding.put_other b p hik] at hi
      · by_cases hjk : j = k
        · subst hjk; rw [Binding.put_self] at hj; exact absurd hj (hp y)
        · rwa [Binding.put_other b p hjk] at hj
    cases hs with
    | resolve k t => exact other k _ (by simp) rfl
    | refuse k a rest => exact other k _ (by simp) rfl
    | fail k => exact other k _ (by simp) rfl
    | leave k a => exact other k _ (by simp) rfl
    | take k a rest hk hc =>
      by_cases hik : i = k
      · subst hik
        rw [Binding.put_self] at hi
        rw [Binding.put_other b _ (Ne.symm hij)] at hj
        cases hi
        rw [hsym]
        exact hc.2 j y hj
      · rw [Binding.put_other b _ hik] at hi
        by_cases hjk : j = k
        · subst hjk
          rw [Binding.put_self] at hj
          cases hj
          exact hc.2 i x hi
        · rw [Binding.put_other b _ hjk] at hj
          exact ih i j x y hij hi hj

/-- One service after the other: `i` gets `a`, and `j` is at `rest` after it was refused `a`. -/
theorem first_wins (n : NetEnv A) (addrs : List Str) (i j : Nat) (hij : i ≠ j) (ti tj : Str) (hi : addrs[i]? = some ti) (hj : addrs[j]? = some tj)
    (a : A) (ri rj : List A) (hri : n.resolve ti = a :: ri) (hrj : n.resolve tj = a :: rj) (hg : n.grants a = true)
    (hc : n.clash a a = true) : ∃ b, BindRun n addrs b ∧ b i = .listening a ∧ b j = .trying rj ∧ ∀ k, k ≠ i → k ≠ j → b k = .start := by
  let b1 : Binding A := (Binding.start (A := A)).put i (.trying (a :: ri))
  let b2 : Binding A := b1.put i (.listening a)
  let b3 : Binding A := b2.put j (.trying (a :: rj))
  let b4 : Binding A := b3.put j (.trying rj)
  have h1 : BindRun n addrs b1 := by
    have := BindStep.resolve (n := n) (addrs := addrs) Binding.start i ti hi rfl
    rw [hri] at this
    exact .step .start this
  have e1 : b1 i = .trying (a :: ri) := Binding.put_self ..
  have o1 : ∀ k, k ≠ i → b1 k = .start := fun k hk => Binding.put_other _ _ hk
  have h2 : BindRun n addrs b2 := by
    refine .step h1 (.take b1 i a ri e1 ⟨hg, fun k x hk => ?_⟩)
    by_cases hki : k = i
    · subst hki; rw [e1] at hk; cases hk
    · rw [o1 k hki] at hk; cases hk
  have e2 : b2 i = .listening a := Binding.put_self ..
  have o2 : ∀ k, k ≠ i → b2 k = .start := fun k hk => (Binding.put_other _ _ hk).trans (o1 k hk)
  have h3 : BindRun n addrs b3 := by
    have := BindStep.resolve (n := n) b2 j tj hj (o2 j (Ne.symm hij))
    rw [hrj] at this
    exact .step h2 this
  have e3 : b3 j = .trying (a :: rj) := Binding.put_self ..
  have i3 : b3 i = .listening a := (Binding.put_other _ _ hij).trans e2
  have h4 : BindRun n addrs b4 := by
    refine .step h3 (.refuse b3 j a rj e3 ?_)
    rintro ⟨_, h⟩
    have := h i a i3
    rw [hc] at this
    cases this
  exact ⟨b4, h4, (Binding.put_other _ _ hij).trans i3, Binding.put_self .., fun k hki hkj =>
    (Binding.put_other _ _ hkj).trans ((Binding.put_other _ _ hkj).trans (o2 k hki))⟩

/-- **C202**, negation for the code as written. Take any two services whose addresses mean the same socket address, which the machine has free. They
never listen both; and each of them may be the one that does while the other has failed: which of the two services answers is left to chance. -/
theorem C202_chance_violated (n : NetEnv A) (hsym : ∀ x y, n.clash x y = n.clash y x) (addrs : List Str) (i j : Nat) (hij : i ≠ j) (ti tj : Str)
    (hi : addrs[i]? = some ti) (hj : addrs[j]? = some tj) (a : A) (hri : n.resolve ti = [a]) (hrj : n.resolve tj = [a]) (hg : n.grants a = true)
    (hc : n.clash a a = true) :
    (∃ b, BindRun n addrs b ∧ b i = .listening a ∧ b j = .failed) ∧ (∃ b, BindRun n addrs b ∧ b j = .listening a ∧ b i = .failed) ∧
    ∀ b, BindRun n addrs b → ¬ ((∃ x, b i = .listening x) ∧ ∃ y, b j = .listening y) := by
  refine ⟨?_, ?_, ?_⟩
  · obtain ⟨b, h1, h2, h3, _⟩ := first_wins n addrs i j hij ti tj hi hj a [] [] hri hrj hg hc
    exact ⟨b.put j .failed, .step h1 (.fail b j h3), (Binding.put_other _ _ hij).trans h2, Binding.put_self ..⟩
  · obtain ⟨b, h1, h2, h3, _⟩ := first_wins n addrs j i (Ne.symm hij) tj ti hj hi a [] [] hrj hri hg hc
    exact ⟨b.put i .failed, .step h1 (.fail b i h3), (Binding.put_other _ _ (Ne.symm hij)).trans h2, Binding.put_self ..⟩
  · rintro b hb ⟨⟨x, hx⟩, y, hy⟩
    have hown : ∀ (b : Binding A), BindRun n addrs b → ∀ (k : Nat) (t : Str), addrs[k]? = some t → n.resolve t = [a] →
        (∀ z, b k = .listening z → z = a) ∧ ∀ rest, b k = .trying rest → rest = [a] ∨ rest = [] := by
      intro b hb k t hk ht
      induction hb with
      | start => exact ⟨fun z h => (by cases h), fun r h => by cases h⟩
      | @step b b' _ hs ih =>
        cases hs with
        | resolve m u hu =>
          by_cases hkm : k = m
          · subst hkm
            rw [hk] at hu
            cases hu
            rw [Binding.put_self]
            refine ⟨fun z h => (by cases h), fun r h => ?_⟩
            cases h
            exact .inl ht
          · rw [Binding.put_other _ _ hkm]; exact ih
        | take m x rest hm =>
          by_cases hkm : k = m
          · subst hkm
            rw [Binding.put_self]
            refine ⟨fun z h => ?_, fun r h => by cases h⟩
            cases h
            rcases ih.2 _ hm with h | h
            · exact (List.cons.inj h).1
            · cases h
          · rw [Binding.put_other _ _ hkm]; exact ih
        | refuse m x rest hm =>
          by_cases hkm : k = m
          · subst hkm
            rw [Binding.put_self]
            refine ⟨fun z h => (by cases h), fun r h => ?_⟩
            cases h
            rcases ih.2 _ hm with h | h
            · exact .inr (List.cons.inj h).2
            · cases h
          · rw [Binding.put_other _ _ hkm]; exact ih
        | fail m hm =>
          by_cases hkm : k = m
          · subst hkm
            rw [Binding.put_self]
            exact ⟨fun z h => (by cases h), fun r h => by cases h⟩
          · rw [Binding.put_other _ _ hkm]; exact ih
        | leave m x hm =>
          by_cases hkm : k = m
          · subst hkm
            rw [Binding.put_self]
            exact ⟨fun z h => (by cases h), fun r h => by cases h⟩
          · rw [Binding.put_other _ _ hkm]; exact ih
    have e1 := (hown b hb i ti hi hri).1 x hx
    have e2 := (hown b hb j tj hj hrj).1 y hy
    have := bound_apart n hsym addrs hb i j x y hij hx hy
    rw [e1, e2, hc] at this
    cases this

/-- **C202**, negation for the code as written, for a text that means two socket addresses (`localhost`: one of each version of IP). Two services
with this text may listen both, each at one of the two addresses, and either way round: the clients of one version of IP get one service and the
others get the other. -/
theorem C202_split_violated (n : NetEnv A) (addrs : List Str) (i j : Nat) (hij : i ≠ j) (t : Str)
    (hi : addrs[i]? = some t) (hj : addrs[j]? = some t) (a a' : A) (hr : n.resolve t = [a, a']) (hg : n.grants a = true) (hg' : n.grants a' = true)
    (hc : n.clash a a = true) (hc' : n.clash a a' = false) :
    (∃ b, BindRun n addrs b ∧ b i = .listening a ∧ b j = .listening a') ∧ (∃ b, BindRun n addrs b ∧ b j = .listening a ∧ b i = .listening a') := by
  have go : ∀ i j : Nat, i ≠ j → addrs[i]? = some t → addrs[j]? = some t →
      ∃ b, BindRun n addrs b ∧ b i = .listening a ∧ b j = .listening a' := by
    intro i j hij hi hj
    obtain ⟨b, h1, h2, h3, h4⟩ := first_wins n addrs i j hij t t hi hj a [a'] [a'] hr hr hg hc
    refine ⟨b.put j (.listening a'), .step h1 (.take b j a' [] h3 ⟨hg', fun k x hk => ?_⟩), (Binding.put_other _ _ hij).trans h2, Binding.put_self ..⟩
    by_cases hki : k = i
    · subst hki; rw [h2] at hk; cases hk; exact hc'
    · by_cases hkj : k = j
      · subst hkj; rw [h3] at hk; cases hk
      · rw [h4 k hki hkj] at hk; cases hk
  exact ⟨go i j hij hi hj, go j i (Ne.symm hij) hj hi⟩

/-- **C202**, what holds: if no address of one service clashes with one of another, then what becomes of each service does not depend on the others or
on chance: it listens at the first of its addresses that the machine lets it have, and fails exactly if there is none. -/
theorem C202_apart_partial (n : NetEnv A) (addrs : List Str)
    (hap : ∀ (i j : Nat) (ti tj : Str), i ≠ j → addrs[i]? = some ti → addrs[j]? = some tj → ∀ x ∈ n.resolve ti, ∀ y ∈ n.resolve tj, n.clash x y = false)
    (b : Binding A) (h : BindRun n addrs b) (i : Nat) (t : Str) (hi : addrs[i]? = some t) :
    (∀ x, b i = .listening x ∨ b i = .gone x → (n.resolve t).find? n.grants = some x) ∧
    (b i = .failed → (n.resolve t).find? n.grants = none) := by
  have hinv : ∀ (k : Nat) (t : Str), addrs[k]? = some t →
      (∀ x, b k = .listening x ∨ b k = .gone x → (n.resolve t).find? n.grants = some x) ∧
      (b k = .failed → (n.resolve t).find? n.grants = none) ∧
      ∀ rest, b k = .trying rest → ∃ before, n.resolve t = before ++ rest ∧ ∀ x ∈ before, n.grants x = false := by
    induction h with
    | start =>
      intro k t _
      exact ⟨fun x h => (by rcases h with h | h <;> cases h), fun h => (by cases h), fun r h => by cases h⟩
    | @step b b' hb hs ih =>
      intro k t hk
      have idle : ∀ k : Nat, addrs[k]? = none → b k = .start := by
        clear ih hs hk
        induction hb with
        | start => intro k _; rfl
        | @step b b' _ hs ih =>
          intro k hk
          have other : ∀ m p, b' = b.put m p → b m ≠ .start ∨ addrs[m]? ≠ none → b' k = .start := by
            intro m p e hm
            subst e
            by_cases hkm : k = m
            · subst hkm
              rcases hm with hm | hm
              · exact absurd (ih k hk) hm
              · exact absurd hk hm
            · rw [Binding.put_other _ _ hkm]; exact ih k hk
          cases hs with
          | resolve m u hu => exact other m _ rfl (.inr (by simp [hu]))
          | take m a rest hm => exact other m _ rfl (.inl (by simp [hm]))
          | refuse m a rest hm => exact other m _ rfl (.inl (by simp [hm]))
          | fail m hm => exact other m _ rfl (.inl (by simp [hm]))
          | leave m a hm => exact other m _ rfl (.inl (by simp [hm]))
      cases hs with
      | resolve m u hu =>
        by_cases hkm : k = m
        · subst hkm
          rw [hk] at hu
          cases hu
          rw [Binding.put_self]
          exact ⟨fun x h => (by rcases h with h | h <;> cases h), fun h => (by cases h), fun r h => by cases h; exact ⟨[], rfl, by simp⟩⟩
        · rw [Binding.put_other _ _ hkm]; exact ih k t hk
      | take m a rest hm hc =>
        by_cases hkm : k = m
        · subst hkm
          rw [Binding.put_self]
          refine ⟨fun x h => ?_, fun h => (by cases h), fun r h => by cases h⟩
          have hx : x = a := by rcases h with h | h <;> cases h; rfl
          subst hx
          obtain ⟨before, e, hb⟩ := (ih k t hk).2.2 _ hm
          rw [e, List.find?_append, List.find?_eq_none.mpr (fun x hx => by simp [hb x hx])]
          simp [hc.1]
        · rw [Binding.put_other _ _ hkm]; exact ih k t hk
      | refuse m a rest hm hc =>
        by_cases hkm : k = m
        · subst hkm
          rw [Binding.put_self]
          refine ⟨fun x h => (by rcases h with h | h <;> cases h), fun h => (by cases h), fun r h => ?_⟩
          cases h
          obtain ⟨before, e, hb⟩ := (ih k t hk).2.2 _ hm
          refine ⟨before ++ [a], by simp [e], ?_⟩
          intro x hx
          rcases List.mem_append.mp hx with h | h
          · exact hb x h
          · simp only [List.mem_singleton] at h
            subst h
            -- it was not refused because of another service
            cases hgr : n.grants x with
            | false => rfl
            | true =>
              exfalso
              refine hc ⟨hgr, fun j y hj => ?_⟩
              by_cases hjk : j = k
              · subst hjk; rw [hm] at hj; cases hj
              · cases haj : addrs[j]? with
                | none => rw [idle j haj] at hj; cases hj
                | some u =>
                  have hy := (ih j u haj).1 y (.inl hj)
                  exact hap j k u t hjk haj hk y (List.mem_of_find?_eq_some hy) x (by rw [e]; simp)
        · rw [Binding.put_other _ _ hkm]; exact ih k t hk
      | fail m hm =>
        by_cases hkm : k = m
        · subst hkm
          rw [Binding.put_self]
          refine ⟨fun x h => (by rcases h with h | h <;> cases h), fun _ => ?_, fun r h => by cases h⟩
          obtain ⟨before, e, hb⟩ := (ih k t hk).2.2 _ hm
          rw [e, List.append_nil, List.find?_eq_none]
          exact fun x hx => by simp [hb x hx]
        · rw [Binding.put_other _ _ hkm]; exact ih k t hk
      | leave m a hm =>
        by_cases hkm : k = m
        · subst hkm
          rw [Binding.put_self]
          refine ⟨fun x h => ?_, fun h => (by cases h), fun r h => by cases h⟩
          have hx : x = a := by rcases h with h | h <;> cases h; rfl
          subst hx
          exact (ih k t hk).1 x (.inl hm)
        · rw [Binding.put_other _ _ hkm]; exact ih k t hk
  exact ⟨(hinv i t hi).1, (hinv i t hi).2.1⟩

/-- No service is kept waiting for an address: as long as it has neither a listener nor an error it can move on, whatever the others do. -/
theorem C202_no_wait_partial (n : NetEnv A) (addrs : List Str) (b : Binding A) (i : Nat) (t : Str) (hi : addrs[i]? = some t)
    (h : b i = .start ∨ ∃ rest, b i = .trying rest) : ∃ p, BindStep n addrs b (b.put i p) ∧ p ≠ b i := by
  rcases h with h | ⟨rest, h⟩
  · exact ⟨_, .resolve b i t hi h, by rw [h]; simp⟩
  · cases rest with
    | nil => exact ⟨_, .fail b i h, by rw [h]; simp⟩
    | cons a rest =>
      by_cases hc : b.canBind n a
      · exact ⟨_, .take b i a rest h hc, by rw [h]; simp⟩
      · refine ⟨_, .refuse b i a rest h hc, ?_⟩
        rw [h]
        simp only [ne_eq, BindPhase.trying.injEq]
        intro e
        have := congrArg List.length e
        simp at this

/-- A machine: addresses are numbers, the text `A` means 1, `L` means 2 and 3, `B` means 4. -/
def smallNet : NetEnv Nat :=
  ⟨fun t => if t = u!"A" then [1] else if t = u!"L" then [2, 3] else if t = u!"B" then [4] else [], fun a => a ≠ 4, fun a b => a = b⟩

/-- Non-trivial cases: two services with `A`, two with `L`, and three services with different texts of which one cannot be bound. -/
example : (∃ b, BindRun smallNet [u!"A", u!"A"] b ∧ b 0 = .listening 1 ∧ b 1 = .failed) ∧
    (∃ b, BindRun smallNet [u!"A", u!"A"] b ∧ b 1 = .listening 1 ∧ b 0 = .failed) :=
  have h := C202_chance_violated smallNet (fun x y => by simp [smallNet, eq_comm]) [u!"A", u!"A"] 0 1 (by decide) u!"A" u!"A" rfl rfl 1 (by decide) (by decide)
    (by decide) (by decide)
  ⟨h.1, h.2.1⟩

example : ∃ b, BindRun smallNet [u!"L", u!"B", u!"L"] b ∧ b 2 = .listening 2 ∧ b 0 = .listening 3 :=
  (C202_split_violated smallNet [u!"L", u!"B", u!"L"] 0 2 (by decide) u!"L" rfl rfl 2 3 (by decide) (by decide) (by decide) (by decide) (by decide)).2

example (b : Binding Nat) (h : BindRun smallNet [u!"A", u!"L", u!"B"] b) : ∀ x, b 1 = .listening x → x = 2 := by
  intro x hx
  have := (C202_apart_partial smallNet [u!"A", u!"L", u!"B"] (by
    intro i j ti tj hij hi hj
    have hi' : i < 3 := by
      have := (List.getElem?_eq_some_iff.mp hi).1
      simpa using this
    have hj' : j < 3 := by
      have := (List.getElem?_eq_some_iff.mp hj).1
      simpa using this
    rcases (by omega : i = 0 ∨ i = 1 ∨ i = 2) with rfl | rfl | rfl <;> rcases (by omega : j = 0 ∨ j = 1 ∨ j = 2) with rfl | rfl | rfl <;>
      first
      | exact absurd rfl hij
      | (cases hi; cases hj; decide)) b h 1 u!"L" rfl).1 x (.inl hx)
  have h2 : (smallNet.resolve u!"L").find? smallNet.grants = some 2 := by decide
  rw [h2] at this
  exact (Option.some.inj this).symm

end Httpd
