import Verif.Lemmas.Reader
import Verif.Model.Message
/-! # Lemmas about reading a head -/

namespace Httpd
open Spec

/-! ## One header line -/

/-- Exact description of the scan of a header line. -/
theorem scanLine_ok_iff (mx : Nat) (hs hs' : MultiMap) (line : Bytes) (key : Bytes) (hkey : key.length ≤ 256) :
    scanLine mx hs key line = .ok hs' ↔
      (58 ∉ line ∧ line.all isText = true ∧ key.length + line.length ≤ 256 ∧ hs' = hs) ∨
      (∃ n rest, line = n ++ 58 :: rest ∧ 58 ∉ n ∧ n.all isText = true ∧ rest.all isText = true ∧ rest ≠ [] ∧
        key.length + n.length ≤ 256 ∧ 1 ≤ mx ∧ hs' = hs.append (trimSp (key ++ n.map toAsciiLower)) (trimSp rest)) := by
  induction line generalizing key with
  | nil =>
    simp only [scanLine, Except.ok.injEq]
    constructor
    · rintro rfl; left; exact ⟨by simp, rfl, hkey, rfl⟩
    · rintro (⟨_, _, _, h⟩ | ⟨n, rest, h, _⟩)
      · exact h.symm
      · cases n <;> simp at h
  | cons c line ih =>
    have h58 : isText 58 = true := by decide
    by_cases hc : c = 58
    · subst hc
      have lhs : scanLine mx hs key (58 :: line) =
          if line = [] then .error .badDatagram
          else if !line.all isText then .error .badDatagram
          else if mx < 1 then .error .reachMaxHeadersCount
          else .ok (hs.append (trimSp key) (trimSp line)) := by simp [scanLine, h58]
      rw [lhs]
      constructor
      · intro h
        right
        split at h
        · cases h
        · next hne =>
          split at h
          · cases h
          · next ht =>
            split at h
            · cases h
            · next hmx =>
              cases h
              refine ⟨[], line, by simp, by simp, by simp, by simpa using ht, hne, by simpa using hkey, by omega, by simp⟩
      · rintro (⟨h, _⟩ | ⟨n, rest, he, hn, hnt, hrt, hne, hl, hmx, hs'⟩)
        · simp at h
        · cases n with
          | nil =>
            simp only [List.nil_append, List.cons.injEq, true_and] at he
            subst he
            rw [if_neg hne, if_neg (by simpa using hrt), if_neg (by omega), hs']
            simp
          | cons a n =>
            simp only [List.cons_append, List.cons.injEq] at he
            rw [← he.1] at hn; simp at hn
    · by_cases ht : isText c = true
      · by_cases hl : maxHeaderNameLength ≤ key.length
        · have lhs : scanLine mx hs key (c :: line) = .error .badDatagram := by simp [scanLine, ht, hc, hl]
          rw [lhs]
          have hk : key.length = 256 := by unfold maxHeaderNameLength at hl; omega
          constructor
          · intro h; cases h
          · rintro (⟨_, _, h, _⟩ | ⟨n, rest, he, hn, hnt, hrt, hne, hl, hmx, hs'⟩)
            · simp at h; omega
            · cases n with
              | nil => simp at he; exact absurd he.1 hc
              | cons a n => simp at hl; omega
        · have lhs : scanLine mx hs key (c :: line) = scanLine mx hs (key ++ [toAsciiLower c]) line := by
            simp [scanLine, ht, hc, hl]
          have hk : key.length < 256 := by unfold maxHeaderNameLength at hl; omega
          rw [lhs, ih _ (by simp; omega)]
          constructor
          · rintro (⟨h1, h2, h3, h4⟩ | ⟨n, rest, he, hn, hnt, hrt, hne, hl, hmx, hs'⟩)
            · left
              refine ⟨by simp [h1, Ne.symm hc], by simp [ht, h2], ?_, h4⟩
              simp at h3 ⊢; omega
            · right
              refine ⟨c :: n, rest, by simp [he], by simp [hn, Ne.symm hc], by simp [ht, hnt], hrt, hne, ?_, hmx, ?_⟩
              · simp at hl ⊢; omega
              · simpa using hs'
          · rintro (⟨h1, h2, h3, h4⟩ | ⟨n, rest, he, hn, hnt, hrt, hne, hl, hmx, hs'⟩)
            · left
              simp only [List.mem_cons, not_or] at h1
              simp only [List.all_cons, Bool.and_eq_true] at h2
              refine ⟨h1.2, h2.2, ?_, h4⟩
              simp at h3 ⊢; omega
            · right
              cases n with
              | nil => simp at he; exact absurd he.1 hc
              | cons a n =>
                simp only [List.cons_append, List.cons.injEq] at he
                simp only [List.mem_cons, not_or] at hn
                simp only [List.all_cons, Bool.and_eq_true] at hnt
                refine ⟨n, rest, he.2, hn.2, hnt.2, hrt, hne, ?_, hmx, ?_⟩
                · simp at hl ⊢; omega
                · rw [hs', ← he.1]; simp
      · have lhs : scanLine mx hs key (c :: line) = .error .badDatagram := by simp [scanLine, ht]
        rw [lhs]
        constructor
        · intro h; cases h
        · rintro (⟨_, h, _⟩ | ⟨n, rest, he, hn, hnt, hrt, hne, hl, hmx, hs'⟩)
          · simp [ht] at h
          · cases n with
            | nil => simp at he; exact absurd he.1 hc
            | cons a n =>
              simp only [List.cons_append, List.cons.injEq] at he
              simp only [List.all_cons, Bool.and_eq_true, ← he.1] at hnt
              exact absurd hnt.1 ht

/-- The scan looks at the headers stored so far only to append to them: it succeeds or fails regardless of them. -/
theorem scanLine_error_indep (mx : Nat) (hs hs2 : MultiMap) (line key : Bytes) (e : ReadCode)
    (h : scanLine mx hs key line = .error e) : scanLine mx hs2 key line = .error e := by
  induction line generalizing key with
  | nil => simp [scanLine] at h
  | cons c line ih =>
    simp only [scanLine] at h ⊢
    split
    · next ht => simpa [ht] using h
    · next ht =>
      simp only [ht] at h
      split
      · next hc =>
        simp only [hc, if_true] at h
        split
        · next h1 => simpa [h1] using h
        · next h1 =>
          simp only [h1] at h
          split
          · next h2 => simpa [h2] using h
          · next h2 =>
            simp only [h2] at h
            split
            · next h3 => simpa [h3] using h
            · next h3 => simp [h3] at h
      · next hc =>
        simp only [hc] at h
        split
        · next h1 => simpa [h1] using h
        · next h1 => simp only [h1] at h; exact ih _ (by simpa using h)

/-- The codes a header line can be refused with. -/
theorem scanLine_codes (mx : Nat) (hs : MultiMap) (line key : Bytes) (e : ReadCode)
    (h : scanLine mx hs key line = .error e) : e = .badDatagram ∨ (e = .reachMaxHeadersCount ∧ mx = 0) := by
  induction line generalizing key with
  | nil => cases h
  | cons c line ih =>
    simp only [scanLine] at h
    split at h
    · cases h; exact .inl rfl
    · split at h
      · split at h
        · cases h; exact .inl rfl
        · split at h
          · cases h; exact .inl rfl
          · split at h
            · cases h; exact .inr ⟨rfl, by omega⟩
            · cases h
      · split at h
        · cases h; exact .inl rfl
        · exact ih _ h

/-! ## Congruence: results depend only on the flattened bytes -/

/-- Equivalence of results of head readers. -/
def HeadResEquiv {α : Type} : Except ReadCode (α × Reader) → Except ReadCode (α × Reader) → Prop
  | .error e, .error e' => e = e'
  | .ok (a, r), .ok (a', r') => a = a' ∧ r.Equiv r'
  | _, _ => False

/-- The same for results with fuel. -/
def OptEquiv {α : Type} (R : α → α → Prop) : Option α → Option α → Prop
  | none, none => True
  | some a, some b => R a b
  | _, _ => False

theorem headerLoop_congr (lim : HttpLimits) (fuel : Nat) (hs : MultiMap) (r r' : Reader) (h : r.Equiv r') :
    OptEquiv HeadResEquiv (headerLoop lim fuel hs r) (headerLoop lim fuel hs r') := by
  induction fuel generalizing hs r r' with
  | zero => trivial
  | succ fuel ih =>
    have hc := Reader.readUntil_congr h 10 lim.maxHeaderLine
    simp only [headerLoop]
    cases h1 : r.readUntil 10 lim.maxHeaderLine with
    | err =>
      cases h2 : r'.readUntil 10 lim.maxHeaderLine with
      | err => rw [h1, h2] at hc; cases hc; exact rfl
      | ok d2 r2 => rw [h1, h2] at hc; exact hc.elim
    | ok d1 r1 =>
      cases h2 : r'.readUntil 10 lim.maxHeaderLine with
      | err => rw [h1, h2] at hc; exact hc.elim
      | ok d2 r2 =>
        rw [h1, h2] at hc
        obtain ⟨rfl, he⟩ := hc
        simp only
        by_cases hl : d1.length < 2
        · simp [hl, OptEquiv, HeadResEquiv]
        · by_cases hl2 : d1.length = 2
          · simp only [hl, hl2, if_true, if_false]; exact ⟨rfl, he⟩
          · simp only [hl, hl2, if_false]
            cases scanLine lim.maxHeadersCount hs [] (d1.take (d1.length - 2)) with
            | error e => simp [OptEquiv, HeadResEquiv]
            | ok hs' => exact ih hs' r1 r2 he

theorem readHeadFuel_congr (lim : HttpLimits) (fuel : Nat) (hd : Head) (r r' : Reader) (h : r.Equiv r') :
    OptEquiv HeadResEquiv (readHeadFuel lim fuel hd r) (readHeadFuel lim fuel hd r') := by
  have hc := Reader.readUntil_congr h 32 128
  simp only [readHeadFuel]
  cases h1 : r.readUntil 32 128 with
  | err =>
    cases h2 : r'.readUntil 32 128 with
    | err => rw [h1, h2] at hc; cases hc; exact rfl
    | ok d2 r2 => rw [h1, h2] at hc; exact hc.elim
  | ok m r1 =>
    cases h2 : r'.readUntil 32 128 with
    | err => rw [h1, h2] at hc; exact hc.elim
    | ok m2 r1' =>
      rw [h1, h2] at hc
      obtain ⟨rfl, he⟩ := hc
      simp only
      by_cases c1 : m.length < 1
      · simp [c1, OptEquiv, HeadResEquiv]
      simp only [c1, if_false]
      by_cases c2 : (!((hd.f0 ++ m).take (m.length - 1)).all isText) = true
      · simp only [c2, if_true]; exact rfl
      simp only [c2, Bool.false_eq_true, if_false]
      have hc := Reader.readUntil_congr he 32 lim.maxUrl
      cases h3 : r1.readUntil 32 lim.maxUrl with
      | err =>
        cases h4 : r1'.readUntil 32 lim.maxUrl with
        | err => rw [h3, h4] at hc; cases hc; exact rfl
        | ok d2 r2 => rw [h3, h4] at hc; exact hc.elim
      | ok t r2 =>
        cases h4 : r1'.readUntil 32 lim.maxUrl with
        | err => rw [h3, h4] at hc; exact hc.elim
        | ok t2 r2' =>
          rw [h3, h4] at hc
          obtain ⟨rfl, he⟩ := hc
          simp only
          by_cases c1 : t.length < 1
          · simp [c1, OptEquiv, HeadResEquiv]
          simp only [c1, if_false]
          by_cases c2 : (!((hd.f1 ++ t).take (t.length - 1)).all isText) = true
          · simp only [c2, if_true]; exact rfl
          simp only [c2, Bool.false_eq_true, if_false]
          have hc := Reader.readLine_congr he 128
          cases h5 : r2.readLine 128 with
          | err =>
            cases h6 : r2'.readLine 128 with
            | err => rw [h5, h6] at hc; cases hc; exact rfl
            | ok d2 r2 => rw [h5, h6] at hc; exact hc.elim
          | ok v r3 =>
            cases h6 : r2'.readLine 128 with
            | err => rw [h5, h6] at hc; exact hc.elim
            | ok v2 r3' =>
              rw [h5, h6] at hc
              obtain ⟨rfl, he⟩ := hc
              simp only
              by_cases c1 : v.length < 3
              · simp [c1, OptEquiv, HeadResEquiv]
              simp only [c1, if_false]
              by_cases c2 : (!((hd.f2 ++ v).take (v.length - 2)).all isText) = true
              · simp only [c2, if_true]; exact rfl
              simp only [c2, Bool.false_eq_true, if_false]
              have hc := headerLoop_congr lim fuel hd.headers r3 r3' he
              cases h7 : headerLoop lim fuel hd.headers r3 with
              | none =>
                cases h8 : headerLoop lim fuel hd.headers r3' with
                | none => trivial
                | some b => rw [h7, h8] at hc; exact hc.elim
              | some a =>
                cases h8 : headerLoop lim fuel hd.headers r3' with
                | none => rw [h7, h8] at hc; exact hc.elim
                | some b =>
                  rw [h7, h8] at hc
                  cases a with
                  | error e =>
                    cases b with
                    | error e' => simpa [OptEquiv, HeadResEquiv] using hc
                    | ok b => exact hc.elim
                  | ok a =>
                    cases b with
                    | error e' => exact hc.elim
                    | ok b =>
                      obtain ⟨a1, a2⟩ := a
                      obtain ⟨b1, b2⟩ := b
                      obtain ⟨hab, hr⟩ := hc
                      subst hab
                      exact ⟨rfl, hr⟩

theorem readHead_congr (lim : HttpLimits) (hd : Head) (r r' : Reader) (h : r.Equiv r') :
    HeadResEquiv (readHead lim hd r) (readHead lim hd r') := by
  have hc := readHeadFuel_congr lim (r.flat.length + 1) hd r r' h
  unfold readHead
  rw [← h.1]
  cases h1 : readHeadFuel lim (r.flat.length + 1) hd r with
  | none =>
    cases h2 : readHeadFuel lim (r.flat.length + 1) hd r' with
    | none => rfl
    | some b => rw [h1, h2] at hc; exact hc.elim
  | some a =>
    cases h2 : readHeadFuel lim (r.flat.length + 1) hd r' with
    | none => rw [h1, h2] at hc; exact hc.elim
    | some b => rw [h1, h2] at hc; exact hc

/-! ## Fuel -/

theorem headerLoop_fuel (lim : HttpLimits) (fuel : Nat) (hs : MultiMap) (r : Reader) (h : r.flat.length < fuel) :
    (headerLoop lim fuel hs r).isSome = true := by
  induction fuel generalizing hs r with
  | zero => omega
  | succ fuel ih =>
    simp only [headerLoop]
    cases h1 : r.readUntil 10 lim.maxHeaderLine with
    | err => rfl
    | ok d1 r1 =>
      obtain ⟨ha, hb, _⟩ := Reader.readUntil_ok h1
      have hsplit := cut_append 10 lim.maxHeaderLine r.flat
      rw [← ha, ← hb] at hsplit
      have hlen : d1.length + r1.flat.length = r.flat.length := by rw [← hsplit]; simp
      simp only
      split
      · rfl
      · split
        · rfl
        · split
          · rfl
          · exact ih _ _ (by omega)

theorem headerLoop_mono (lim : HttpLimits) (fuel k : Nat) (hs : MultiMap) (r : Reader) (x)
    (h : headerLoop lim fuel hs r = some x) : headerLoop lim (fuel + k) hs r = some x := by
  induction fuel generalizing hs r with
  | zero => simp [headerLoop] at h
  | succ fuel ih =>
    rw [show fuel + 1 + k = (fuel + k) + 1 by omega]
    simp only [headerLoop] at h ⊢
    split at h
    · exact h
    · next line r' hr =>
      split at h
      · next hl => simpa [hl] using h
      · next hl =>
        split at h
        · next hl2 => simpa [hl, hl2] using h
        · next hl2 =>
          simp only [hl, hl2, if_false]
          split at h
          · exact h
          · exact ih _ _ h

theorem readHeadFuel_isSome (lim : HttpLimits) (fuel : Nat) (hd : Head) (r : Reader) (h : r.flat.length < fuel) :
    (readHeadFuel lim fuel hd r).isSome = true := by
  simp only [readHeadFuel]
  cases h1 : r.readUntil 32 128 with
  | err => rfl
  | ok m r1 =>
    obtain ⟨_, hb1, _⟩ := Reader.readUntil_ok h1
    simp only
    split
    · rfl
    split
    · rfl
    cases h2 : r1.readUntil 32 lim.maxUrl with
    | err => rfl
    | ok t r2 =>
      obtain ⟨_, hb2, _⟩ := Reader.readUntil_ok h2
      simp only
      split
      · rfl
      split
      · rfl
      cases h3 : r2.readLine 128 with
      | err => rfl
      | ok v r3 =>
        obtain ⟨_, hb3, _, _⟩ := Reader.readLine_ok h3
        have l1 := congrArg List.length (cut_append 32 128 r.flat)
        have l2 := congrArg List.length (cut_append 32 lim.maxUrl r1.flat)
        have l3 := congrArg List.length (cut_append 10 128 r2.flat)
        rw [← hb1, List.length_append] at l1
        rw [← hb2, List.length_append] at l2
        rw [← hb3, List.length_append] at l3
        simp only
        split
        · rfl
        split
        · rfl
        have := headerLoop_fuel lim fuel hd.headers r3 (by omega)
        revert this
        cases headerLoop lim fuel hd.headers r3 with
        | none => intro h; cases h
        | some x => intro _; cases x <;> rfl

theorem readHeadFuel_mono (lim : HttpLimits) (fuel k : Nat) (hd : Head) (r : Reader) (x)
    (h : readHeadFuel lim fuel hd r = some x) : readHeadFuel lim (fuel + k) hd r = some x := by
  simp only [readHeadFuel] at h ⊢
  split at h
  · exact h
  next m r1 h1 =>

  split at h
  · next c => simpa [c] using h
  next c =>
  simp only [c, if_false]
  split at h
  · next c => simp only [c, if_true]; exact h
  next c =>
  simp only [c, Bool.false_eq_true, if_false]
  split at h
  · exact h
  next t r2 h2 =>

  split at h
  · next c => simpa [c] using h
  next c =>
  simp only [c, if_false]
  split at h
  · next c => simp only [c, if_true]; exact h
  next c =>
  simp only [c, Bool.false_eq_true, if_false]
  split at h
  · exact h
  next v r3 h3 =>

  split at h
  · next c => simpa [c] using h
  next c =>
  simp only [c, if_false]
  split at h
  · next c => simp only [c, if_true]; exact h
  next c =>
  simp only [c, Bool.false_eq_true, if_false]
  split at h
  · cases h
  · next e hl => rw [headerLoop_mono _ _ k _ _ _ hl]; exact h
  · next hs r4 hl => rw [headerLoop_mono _ _ k _ _ _ hl]; exact h

/-- `readHead` is `readHeadFuel` with any sufficient fuel. -/
theorem readHead_eq (lim : HttpLimits) (hd : Head) (r : Reader) :
    readHeadFuel lim (r.flat.length + 1) hd r = some (readHead lim hd r) := by
  have := readHeadFuel_isSome lim (r.flat.length + 1) hd r (by omega)
  unfold readHead
  cases h : readHeadFuel lim (r.flat.length + 1) hd r with
  | none => rw [h] at this; cases this
  | some x => rfl

/-! ## Inversion of a successful read -/

/-- The header section that a successful header loop consumed: the lines, in order, and the two-byte line that ended it. -/
inductive Lines (lim : HttpLimits) : MultiMap → Bytes → MultiMap → Bytes → Prop
  | stop (hs : MultiMap) (s : Bytes) (h : (cut 10 lim.maxHeaderLine s).1.length = 2) :
      Lines lim hs s hs (cut 10 lim.maxHeaderLine s).2
  | line (hs hs' hs'' : MultiMap) (s rest : Bytes)
      (hl : 2 < (cut 10 lim.maxHeaderLine s).1.length)
      (hscan : scanLine lim.maxHeadersCount hs []
        ((cut 10 lim.maxHeaderLine s).1.take ((cut 10 lim.maxHeaderLine s).1.length - 2)) = .ok hs')
      (h : Lines lim hs' (cut 10 lim.maxHeaderLine s).2 hs'' rest) :
      Lines lim hs s hs'' rest

theorem headerLoop_ok (lim : HttpLimits) (fuel : Nat) (hs hs' : MultiMap) (r r' : Reader)
    (h : headerLoop lim fuel hs r = some (.ok (hs', r'))) : Lines lim hs r.flat hs' r'.flat ∧ r'.fin = r.fin := by
  induction fuel generalizing hs r with
  | zero => simp [headerLoop] at h
  | succ fuel ih =>
    simp only [headerLoop] at h
    split at h
    · cases h
    · next line r1 hr =>
      obtain ⟨ha, hb, hc⟩ := Reader.readUntil_ok hr
      split at h
      · cases h
      · next hl =>
        split at h
        · next hl2 =>
          cases h
          rw [hb]
          rw [ha] at hl2
          exact ⟨Lines.stop _ _ hl2, hc⟩
        · next hl2 =>
          split at h
          · cases h
          · next hs1 hscan =>
            obtain ⟨h1, h2⟩ := ih _ _ h
            rw [hb] at h1
            rw [ha] at hscan hl hl2
            exact ⟨Lines.line hs hs1 hs' _ _ (by omega) hscan h1, by rw [h2, hc]⟩

/-- The parts of a successfully read head. -/
structure HeadParts (lim : HttpLimits) (hd : Head) (s : Bytes) (hd' : Head) (rest : Bytes) where
  m : Bytes
  t : Bytes
  v : Bytes
  s1 : Bytes
  s2 : Bytes
  s3 : Bytes
  hm : cut 32 128 s = (m, s1)
  ht : cut 32 lim.maxUrl s1 = (t, s2)
  hv : cut 10 128 s2 = (v, s3)
  hm1 : 1 ≤ m.length
  ht1 : 1 ≤ t.length
  hv3 : 3 ≤ v.length
  f0 : hd'.f0 = (hd.f0 ++ m).take (m.length - 1)
  f1 : hd'.f1 = (hd.f1 ++ t).take (t.length - 1)
  f2 : hd'.f2 = (hd.f2 ++ v).take (v.length - 2)
  f0t : hd'.f0.all isText = true
  f1t : hd'.f1.all isText = true
  f2t : hd'.f2.all isText = true
  lines : Lines lim hd.headers s3 hd'.headers rest

theorem readHeadFuel_ok (lim : HttpLimits) (fuel : Nat) (hd hd' : Head) (r r' : Reader)
    (h : readHeadFuel lim fuel hd r = some (.ok (hd', r'))) :
    Nonempty (HeadParts lim hd r.flat hd' r'.flat) ∧ r'.fin = r.fin := by
  simp only [readHeadFuel] at h
  split at h
  · cases h
  next m r1 h1 =>
  split at h
  · cases h
  next c1 =>
  split at h
  · cases h
  next c1' =>
  split at h
  · cases h
  next t r2 h2 =>
  split at h
  · cases h
  next c2 =>
  split at h
  · cases h
  next c2' =>
  split at h
  · cases h
  next v r3 h3 =>
  split at h
  · cases h
  next c3 =>
  split at h
  · cases h
  next c3' =>
  split at h
  · cases h
  · cases h
  next hs r4 hl =>
  cases h
  obtain ⟨a1, b1, e1⟩ := Reader.readUntil_ok h1
  obtain ⟨a2, b2, e2⟩ := Reader.readUntil_ok h2
  obtain ⟨a3, b3, e3, _⟩ := Reader.readLine_ok h3
  obtain ⟨hlines, e4⟩ := headerLoop_ok _ _ _ _ _ _ hl
  refine ⟨⟨{
    m := m, t := t, v := v, s1 := r1.flat, s2 := r2.flat, s3 := r3.flat
    hm := by rw [a1, b1]
    ht := by rw [a2, b2]
    hv := by rw [a3, b3]
    hm1 := by omega
    ht1 := by omega
    hv3 := by omega
    f0 := rfl, f1 := rfl, f2 := rfl
    f0t := by simpa using c1'
    f1t := by simpa using c2'
    f2t := by simpa using c3'
    lines := hlines }⟩, by rw [e4, e3, e2, e1]⟩

theorem readHead_ok {lim : HttpLimits} {hd hd' : Head} {r r' : Reader}
    (h : readHead lim hd r = .ok (hd', r')) :
    Nonempty (HeadParts lim hd r.flat hd' r'.flat) ∧ r'.fin = r.fin := by
  apply readHeadFuel_ok lim (r.flat.length + 1)
  rw [readHead_eq, h]

end Httpd
