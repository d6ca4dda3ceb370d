import Verif.Lemmas.Serve
/-!
# The readers are online

What has been computed from a part of the stream does not change when more of it arrives; and a read waits only if the part
received does not decide its result.
-/

namespace Httpd
open Spec

theorem cut_extend (delim : Byte) (limit : Nat) (s x : Bytes) (h : cutDone delim limit s = true) :
    cut delim limit (s ++ x) = ((cut delim limit s).1, (cut delim limit s).2 ++ x) ∧ cutDone delim limit (s ++ x) = true := by
  induction s generalizing limit with
  | nil =>
    cases limit with
    | zero => simp [cut, cutDone]
    | succ n => simp [cutDone] at h
  | cons b s ih =>
    cases limit with
    | zero => simp [cut, cutDone]
    | succ n =>
      simp only [List.cons_append, cut, cutDone] at h ⊢
      split
      · exact ⟨rfl, rfl⟩
      · next hb =>
        rw [if_neg hb] at h
        obtain ⟨h1, h2⟩ := ih n h
        rw [h1]
        exact ⟨rfl, h2⟩

/-- The second reader has received the bytes of the first, whose peer has stopped sending, and then `x`. -/
def Reader.Ext (x : Bytes) (r r' : Reader) : Prop := r.fin = .silent ∧ r'.flat = r.flat ++ x

/-- Results of a read on `r` and on `r'` with `r.Ext x r'`. -/
def Reader.ExtRes (x : Bytes) : Reader.IoRes → Reader.IoRes → Prop
  | .err .wait, _ => True
  | .err .error, .err .error => True
  | .ok d r, .ok d' r' => d = d' ∧ r.Ext x r'
  | _, _ => False

theorem Reader.readUntil_extend {x : Bytes} {r r' : Reader} (h : r.Ext x r') (delim : Byte) (limit : Nat) :
    Reader.ExtRes x (r.readUntil delim limit) (r'.readUntil delim limit) := by
  obtain ⟨hf, hx⟩ := h
  have h1 := Reader.readUntil_spec delim limit r
  have h2 := Reader.readUntil_spec delim limit r'
  cases hc : cutDone delim limit r.flat with
  | false =>
    rw [if_neg (by simp [hc, hf])] at h1
    rw [h1, hf]; trivial
  | true =>
    obtain ⟨e1, e2⟩ := cut_extend delim limit r.flat x hc
    rw [if_pos (Or.inl hc)] at h1
    rw [hx, if_pos (Or.inl e2), e1] at h2
    obtain ⟨r1, a1, a2, a3⟩ := h1
    obtain ⟨r1', b1, b2, b3⟩ := h2
    rw [a1, b1]
    exact ⟨rfl, by rw [a3, hf], by rw [b2, a2]⟩

theorem Reader.readLine_extend {x : Bytes} {r r' : Reader} (h : r.Ext x r') (limit : Nat) :
    Reader.ExtRes x (r.readLine limit) (r'.readLine limit) := by
  have hu := Reader.readUntil_extend h 10 limit
  unfold Reader.readLine
  cases h1 : r.readUntil 10 limit with
  | err s =>
    cases s with
    | wait => trivial
    | error =>
      rw [h1] at hu
      cases h2 : r'.readUntil 10 limit with
      | err s => cases s <;> rw [h2] at hu <;> exact hu
      | ok d r2 => rw [h2] at hu; exact hu.elim
  | ok d r1 =>
    cases h2 : r'.readUntil 10 limit with
    | err s => rw [h1, h2] at hu; exact hu.elim
    | ok d' r2 =>
      rw [h1, h2] at hu
      obtain ⟨rfl, he⟩ := hu
      by_cases hd : (decodeUtf8 d).isSome = true
      · simp only [hd, if_true]; exact ⟨rfl, he⟩
      · simp only [hd]; trivial

/-- Results of reading a head on `r` and on `r'` with `r.Ext x r'`. -/
def HeadExtRes {α : Type} (x : Bytes) : Except ReadCode (α × Reader) → Except ReadCode (α × Reader) → Prop
  | .error e, y => e = .waiting ∨ y = .error e
  | .ok (a, r), .ok (a', r') => a = a' ∧ r.Ext x r'
  | .ok _, .error _ => False

theorem headerLoop_extend (lim : HttpLimits) (x : Bytes) (fuel : Nat) (hs : MultiMap) (r r' : Reader) (h : r.Ext x r') :
    OptEquiv (HeadExtRes x) (headerLoop lim fuel hs r) (headerLoop lim fuel hs r') ∨
      headerLoop lim fuel hs r = some (.error .waiting) := by
  induction fuel generalizing hs r r' with
  | zero => left; trivial
  | succ fuel ih =>
    have hc := Reader.readUntil_extend h 10 lim.maxHeaderLine
    simp only [headerLoop]
    cases h1 : r.readUntil 10 lim.maxHeaderLine with
    | err s =>
      cases s with
      | wait => right; rfl
      | error =>
        rw [h1] at hc
        cases h2 : r'.readUntil 10 lim.maxHeaderLine with
        | err s =>
          cases s with
          | wait => rw [h2] at hc; exact hc.elim
          | error => left; exact Or.inr rfl
        | ok d r2 => rw [h2] at hc; exact hc.elim
    | ok d r1 =>
      cases h2 : r'.readUntil 10 lim.maxHeaderLine with
      | err s => rw [h1, h2] at hc; exact hc.elim
      | ok d' r1' =>
        rw [h1, h2] at hc
        obtain ⟨rfl, he⟩ := hc
        simp only
        by_cases hl : d.length < 2
        · simp only [hl, if_true]; left; exact Or.inr rfl
        · by_cases hl2 : d.length = 2
          · simp only [hl2, Nat.lt_irrefl, if_true, if_false]; left; exact ⟨rfl, he⟩
          · simp only [hl, hl2, if_false]
            cases scanLine lim.maxHeadersCount hs [] (d.take (d.length - 2)) with
            | error e => left; exact Or.inr rfl
            | ok hs' => exact ih hs' r1 r1' he

theorem readHeadFuel_extend (lim : HttpLimits) (x : Bytes) (fuel : Nat) (hd : Head) (r r' : Reader) (h : r.Ext x r') :
    OptEquiv (HeadExtRes x) (readHeadFuel lim fuel hd r) (readHeadFuel lim fuel hd r') ∨
      readHeadFuel lim fuel hd r = some (.error .waiting) := by
  have hc := Reader.readUntil_extend h 32 128
  simp only [readHeadFuel]
  cases h1 : r.readUntil 32 128 with
  | err s =>
    cases s with
    | wait => right; rfl
    | error =>
      rw [h1] at hc
      cases h2 : r'.readUntil 32 128 with
      | err s =>
        cases s with
        | wait => rw [h2] at hc; exact hc.elim
        | error => left; exact Or.inr rfl
      | ok d r2 => rw [h2] at hc; exact hc.elim
  | ok m r1 =>
    cases h2 : r'.readUntil 32 128 with
    | err s => rw [h1, h2] at hc; exact hc.elim
    | ok m' r1' =>
      rw [h1, h2] at hc
      obtain ⟨rfl, he⟩ := hc
      simp only
      by_cases c1 : m.length < 1
      · simp only [c1, if_true]; left; exact Or.inr rfl
      simp only [c1, if_false]
      by_cases c2 : (!((hd.f0 ++ m).take (m.length - 1)).all isText) = true
      · simp only [c2, if_true]; left; exact Or.inr rfl
      simp only [c2, Bool.false_eq_true, if_false]
      have hc := Reader.readUntil_extend he 32 lim.maxUrl
      cases h3 : r1.readUntil 32 lim.maxUrl with
      | err s =>
        cases s with
        | wait => right; rfl
        | error =>
          rw [h3] at hc
          cases h4 : r1'.readUntil 32 lim.maxUrl with
          | err s =>
            cases s with
            | wait => rw [h4] at hc; exact hc.elim
            | error => left; exact Or.inr rfl
          | ok d r2 => rw [h4] at hc; exact hc.elim
      | ok t r2 =>
        cases h4 : r1'.readUntil 32 lim.maxUrl with
        | err s => rw [h3, h4] at hc; exact hc.elim
        | ok t' r2' =>
          rw [h3, h4] at hc
          obtain ⟨rfl, he⟩ := hc
          simp only
          by_cases c1 : t.length < 1
          · simp only [c1, if_true]; left; exact Or.inr rfl
          simp only [c1, if_false]
          by_cases c2 : (!((hd.f1 ++ t).take (t.length - 1)).all isText) = true
          · simp only [c2, if_true]; left; exact Or.inr rfl
          simp only [c2, Bool.false_eq_true, if_false]
          have hc := Reader.readLine_extend he 128
          cases h5 : r2.readLine 128 with
          | err s =>
            cases s with
            | wait => right; rfl
            | error =>
              rw [h5] at hc
              cases h6 : r2'.readLine 128 with
              | err s =>
                cases s with
                | wait => rw [h6] at hc; exact hc.elim
                | error => left; exact Or.inr rfl
              | ok d r2 => rw [h6] at hc; exact hc.elim
          | ok v r3 =>
            cases h6 : r2'.readLine 128 with
            | err s => rw [h5, h6] at hc; exact hc.elim
            | ok v' r3' =>
              rw [h5, h6] at hc
              obtain ⟨rfl, he⟩ := hc
              simp only
              by_cases c1 : v.length < 3
              · simp only [c1, if_true]; left; exact Or.inr rfl
              simp only [c1, if_false]
              by_cases c2 : (!((hd.f2 ++ v).take (v.length - 2)).all isText) = true
              · simp only [c2, if_true]; left; exact Or.inr rfl
              simp only [c2, Bool.false_eq_true, if_false]
              rcases headerLoop_extend lim x fuel hd.headers r3 r3' he with hl | hl
              · cases h7 : headerLoop lim fuel hd.headers r3 with
                | none =>
                  cases h8 : headerLoop lim fuel hd.headers r3' with
                  | none => left; trivial
                  | some z => rw [h7, h8] at hl; exact hl.elim
                | some y =>
                  cases h8 : headerLoop lim fuel hd.headers r3' with
                  | none => rw [h7, h8] at hl; exact hl.elim
                  | some z =>
                    rw [h7, h8] at hl
                    cases y with
                    | error e =>
                      rcases hl with rfl | rfl
                      · right; rfl
                      · left; exact Or.inr rfl
                    | ok y =>
                      cases z with
                      | error e => exact hl.elim
                      | ok z =>
                        obtain ⟨h9, h10⟩ := hl
                        left
                        exact ⟨by rw [h9], h10⟩
              · rw [hl]; right; rfl

/-- **Reading a head is online**: what was read from a part of the stream is read from the whole. -/
theorem readHead_extend (lim : HttpLimits) (x : Bytes) (hd : Head) (r r' : Reader) (h : r.Ext x r') :
    HeadExtRes x (readHead lim hd r) (readHead lim hd r') := by
  have hle : r.flat.length ≤ r'.flat.length := by rw [h.2]; simp
  have e1 := readHead_eq lim hd r
  have e2 := readHead_eq lim hd r'
  have e3 := readHeadFuel_mono lim (r.flat.length + 1) (r'.flat.length - r.flat.length) hd r _ e1
  rw [show r.flat.length + 1 + (r'.flat.length - r.flat.length) = r'.flat.length + 1 by omega] at e3
  rcases readHeadFuel_extend lim x (r'.flat.length + 1) hd r r' h with he | he
  · rw [e3, e2] at he; exact he
  · rw [he] at e3
    rw [← Option.some.inj e3]
    exact Or.inl rfl

/-- A head is waited for only if the peer has stopped sending without closing. -/
theorem headerLoop_waiting (lim : HttpLimits) (fuel : Nat) (hs : MultiMap) (r : Reader)
    (h : headerLoop lim fuel hs r = some (.error .waiting)) : r.fin = .silent := by
  induction fuel generalizing hs r with
  | zero => cases h
  | succ fuel ih =>
    have hu := Reader.readUntil_spec 10 lim.maxHeaderLine r
    simp only [headerLoop] at h
    cases h1 : r.readUntil 10 lim.maxHeaderLine with
    | err s =>
      rw [h1] at h hu
      split at hu
      · obtain ⟨_, h2, _⟩ := hu; cases h2
      · cases hu
        cases hf : r.fin <;> rw [hf] at h <;> first | rfl | cases h
    | ok d r1 =>
      obtain ⟨_, _, hfin⟩ := Reader.readUntil_ok h1
      rw [h1] at h
      simp only at h
      split at h
      · cases h
      · split at h
        · cases h
        · cases hs2 : scanLine lim.maxHeadersCount hs [] (d.take (d.length - 2)) with
          | error e =>
            rw [hs2] at h
            exfalso
            simp only [Option.some.injEq, Except.error.injEq] at h
            rw [h] at hs2
            rcases scanLine_codes _ _ _ _ _ hs2 with h | ⟨h, _⟩ <;> cases h
          | ok hs' =>
            rw [hs2] at h
            rw [← hfin]; exact ih _ _ h

theorem readUntil_err {delim : Byte} {limit : Nat} {r : Reader} {s : Reader.IoStop} (h : r.readUntil delim limit = .err s) :
    s = .wait → r.fin = .silent := by
  rintro rfl
  have hu := Reader.readUntil_spec delim limit r
  rw [h] at hu
  split at hu
  · obtain ⟨_, h2, _⟩ := hu; cases h2
  · cases hf : r.fin <;> rw [hf] at hu <;> first | rfl | cases hu

theorem readLine_err {limit : Nat} {r : Reader} {s : Reader.IoStop} (h : r.readLine limit = .err s) :
    s = .wait → r.fin = .silent := by
  rintro rfl
  unfold Reader.readLine at h
  cases h1 : r.readUntil 10 limit with
  | err s =>
    rw [h1] at h
    cases h
    exact readUntil_err h1 rfl
  | ok d r1 =>
    rw [h1] at h
    simp only at h
    split at h <;> cases h

theorem readHead_waiting {lim : HttpLimits} {hd : Head} {r : Reader} (h : readHead lim hd r = .error .waiting) :
    r.fin = .silent := by
  have h0 := readHead_eq lim hd r
  rw [h] at h0
  simp only [readHeadFuel] at h0
  split at h0
  · next s h1 =>
    cases s with
    | error => cases h0
    | wait => exact readUntil_err h1 rfl
  · next m r1 h1 =>
    obtain ⟨_, _, f1⟩ := Reader.readUntil_ok h1
    split at h0
    · cases h0
    split at h0
    · cases h0
    split at h0
    · next s h2 =>
      cases s with
      | error => cases h0
      | wait => rw [← f1]; exact readUntil_err h2 rfl
    · next t r2 h2 =>
      obtain ⟨_, _, f2⟩ := Reader.readUntil_ok h2
      split at h0
      · cases h0
      split at h0
      · cases h0
      split at h0
      · next s h3 =>
        cases s with
        | error => cases h0
        | wait => rw [← f1, ← f2]; exact readLine_err h3 rfl
      · next v r3 h3 =>
        obtain ⟨_, _, f3, _⟩ := Reader.readLine_ok h3
        split at h0
        · cases h0
        split at h0
        · cases h0
        split at h0
        · cases h0
        · next e h4 =>
          cases h0
          rw [← f1, ← f2, ← f3]
          exact headerLoop_waiting _ _ _ _ h4
        · cases h0

/-! ## Bodies -/

/-- Results of reading a body on `r` and on `r'` with `r.Ext x r'`. -/
def BodyExtRes {K : Type} (x : Bytes) : BodyRes K → BodyRes K → Prop
  | .fail e, y => e = .waiting ∨ y = .fail e
  | .done b r, .done b' r' => b = b' ∧ r.Ext x r'
  | .panic, .panic => True
  | _, _ => False

theorem readConst_extend {K : Type} (cap n : Nat) (b : Body K) (x : Bytes) (r r' : Reader) (h : r.Ext x r') (hc : 1 ≤ cap) :
    BodyExtRes x (readConst Body.writeRaw cap n b r) (readConst Body.writeRaw cap n b r') := by
  obtain ⟨hf, hx⟩ := h
  cases hb : b.internal with
  | none =>
    rw [readConst_nobuf _ _ _ _ hb, readConst_nobuf _ _ _ _ hb]
    by_cases hn : n < 1
    · simp only [if_pos hn]; exact ⟨rfl, hf, hx⟩
    · simp only [if_neg hn]
      by_cases he : r.flat = []
      · rw [if_pos ⟨he, by rw [hf]; simp⟩, hf]; exact Or.inl rfl
      · rw [if_neg (fun h => he h.1), if_neg (fun h => he (by have := h.1; rw [hx] at this; simp at this; exact this.1))]
        trivial
  | some y =>
    rcases readConst_raw cap n b y r hc hb with ⟨g1, q, g2, g3, g4⟩ | ⟨g1, g2, g3⟩ | ⟨g1, g2, g3⟩
    · rcases readConst_raw cap n b y r' hc hb with ⟨g1', q', g2', g3', g4'⟩ | ⟨g1', g2', g3'⟩ | ⟨g1', g2', g3'⟩
      · rw [g2, g2', hx, List.take_append_of_le_length g1]
        exact ⟨rfl, by rw [g4, hf], by rw [g3, g3', hx, List.drop_append_of_le_length g1]⟩
      · rw [hx] at g1'; simp at g1'; omega
      · rw [hx] at g1'; simp at g1'; omega
    · rw [g3, hf]; exact Or.inl rfl
    · rw [hf] at g2; cases g2

theorem readConstLengthBody_extend {K : Type} (cap : Nat) (hs : MultiMap) (b : Body K) (x : Bytes) (r r' : Reader)
    (h : r.Ext x r') (hc : 1 ≤ cap) :
    BodyExtRes x (readConstLengthBody cap hs b r) (readConstLengthBody cap hs b r') := by
  unfold readConstLengthBody
  cases getContentLength hs with
  | none => exact Or.inr rfl
  | some n => exact readConst_extend cap n b x r r' h hc

/-! ## Connections -/

/-- The connection loop is online: the exchanges after a part of the stream are the first ones of the whole, and unless the
server waits for more, they are all and it ends in the same way. -/
theorem serveLoop_extend {K : Type} (c : Codec K) (lim : HttpLimits) (env : Nat → Env K) (x : Bytes) (fuel i : Nat)
    (req resp : Message K) (r r' : Reader) (h : r.Ext x r') (hf : r'.flat.length < fuel) :
    ∃ more, (serveLoop c lim env fuel i req resp r').1 = (serveLoop c lim env fuel i req resp r).1 ++ more ∧
      ((serveLoop c lim env fuel i req resp r).2 ≠ .waiting → more = [] ∧
        (serveLoop c lim env fuel i req resp r').2 = (serveLoop c lim env fuel i req resp r).2) := by
  induction fuel generalizing i req resp r r' with
  | zero => omega
  | succ fuel ih =>
    have hh := readHead_extend lim x req.head r r' h
    simp only [serveLoop]
    cases h1 : readHead lim req.head r with
    | error e =>
      rw [h1] at hh
      rcases hh with rfl | hh
      · exact ⟨_, rfl, fun h => absurd rfl h⟩
      · rw [hh]; exact ⟨[], rfl, fun _ => ⟨rfl, rfl⟩⟩
    | ok y =>
      obtain ⟨hd, r1⟩ := y
      cases h2 : readHead lim req.head r' with
      | error e => rw [h1, h2] at hh; exact hh.elim
      | ok y' =>
        obtain ⟨hd', r1'⟩ := y'
        rw [h1, h2] at hh
        obtain ⟨rfl, he⟩ := hh
        simp only
        have hbx := readConstLengthBody_extend (env i).cap hd.headers req.body x r1 r1' he (env i).cap_pos
        have hcons := readHead_consumes h2
        cases h3 : readConstLengthBody (env i).cap hd.headers req.body r1 with
        | fail e =>
          rw [h3] at hbx
          rcases hbx with rfl | hbx
          · exact ⟨_, rfl, fun h => absurd rfl h⟩
          · rw [hbx]; exact ⟨[], rfl, fun _ => ⟨rfl, rfl⟩⟩
        | panic =>
          rw [h3] at hbx
          cases h4 : readConstLengthBody (env i).cap hd.headers req.body r1' with
          | panic => exact ⟨[], rfl, fun _ => ⟨rfl, rfl⟩⟩
          | fail e => rw [h4] at hbx; exact hbx.elim
          | hang => rw [h4] at hbx; exact hbx.elim
          | done b q => rw [h4] at hbx; exact hbx.elim
        | hang => rw [h3] at hbx; cases h4 : readConstLengthBody (env i).cap hd.headers req.body r1' <;> rw [h4] at hbx <;> exact hbx.elim
        | done body r2 =>
          cases h4 : readConstLengthBody (env i).cap hd.headers req.body r1' with
          | panic => rw [h3, h4] at hbx; exact hbx.elim
          | fail e => rw [h3, h4] at hbx; exact hbx.elim
          | hang => rw [h3, h4] at hbx; exact hbx.elim
          | done body' r2' =>
            rw [h3, h4] at hbx
            obtain ⟨rfl, he2⟩ := hbx
            obtain ⟨n, _, _, hr2, _⟩ := readConstLengthBody_done (env i).cap_pos h4
            have hlen : r2'.flat.length ≤ r1'.flat.length := by rw [hr2]; simp
            simp only
            cases h5 : (env i).http { head := hd, body := body } resp with
            | err => exact ⟨[], rfl, fun _ => ⟨rfl, rfl⟩⟩
            | panic => exact ⟨[], rfl, fun _ => ⟨rfl, rfl⟩⟩
            | ok p req2 resp2 =>
              simp only
              cases h6 : encodeResponse c (env i).ord resp2 with
              | mk resp3 ob =>
                cases ob with
                | none => exact ⟨[], rfl, fun _ => ⟨rfl, rfl⟩⟩
                | some bytes =>
                  simp only
                  cases (env i).write with
                  | failAfter k s' => exact ⟨[], rfl, fun _ => ⟨rfl, rfl⟩⟩
                  | ok =>
                    simp only
                    cases p with
                    | webSocket => exact ⟨[], rfl, fun _ => ⟨rfl, rfl⟩⟩
                    | http2 => exact ⟨[], rfl, fun _ => ⟨rfl, rfl⟩⟩
                    | current ka =>
                      cases ka with
                      | false => exact ⟨[], rfl, fun _ => ⟨rfl, rfl⟩⟩
                      | true =>
                        obtain ⟨more, m1, m2⟩ := ih (i + 1) (req2.clear c) (resp3.clear c) r2 r2' he2 (by omega)
                        refine ⟨more, ?_, m2⟩
                        simp only [List.cons_append, m1]

end Httpd
