import Verif.Model.Memory
import Verif.Props.BodyText
import Verif.Props.Logging
/-! # C137–C140: unsafe code and memory -/

namespace Httpd
open Spec MultiMap

namespace RVec

/-- The length is within the allocation. -/
def Fits (v : RVec) : Prop := v.len ≤ v.cap

/-- The vector holds exactly these bytes: its cells up to the length are initialised with them. -/
def Holds (v : RVec) (s : Bytes) : Prop := v.len = s.length ∧ v.cells.take v.len = s.map some

theorem Holds.fits {v : RVec} {s : Bytes} (h : v.Holds s) : v.Fits := by
  have := congrArg List.length h.2
  simp only [List.length_take, List.length_map] at this
  have := h.1
  simp only [Fits, cap]; omega

theorem mapM_some (s : Bytes) : (s.map some).mapM id = some s := by
  induction s with
  | nil => rfl
  | cons a t ih => simp [List.mapM_cons, ih]

theorem Holds.read {v : RVec} {s : Bytes} (h : v.Holds s) : v.read v.len = some s := by
  rw [RVec.read, h.2, mapM_some]

theorem holds_empty : (withCapacity 0).Holds [] := ⟨rfl, rfl⟩

theorem holds_clear (v : RVec) : v.clear.Holds [] := ⟨rfl, rfl⟩

theorem holds_extend {v : RVec} {s : Bytes} (alloc : Nat → Nat → Nat) (h : v.Holds s) (bs : Bytes) :
    (v.extend alloc bs).Holds (s ++ bs) := by
  have hl : (v.cells.take v.len ++ bs.map some).length = v.len + bs.length := by
    rw [h.2]; simp [h.1]
  unfold extend Holds
  split <;> refine ⟨by simp [h.1], ?_⟩ <;>
    rw [List.take_append_of_le_length (Nat.le_of_eq hl.symm), List.take_of_length_le (Nat.le_of_eq hl), h.2, List.map_append]

theorem fits_extend {v : RVec} (alloc : Nat → Nat → Nat) (h : v.Fits) (bs : Bytes) : (v.extend alloc bs).Fits := by
  have h' : v.len ≤ v.cells.length := h
  unfold extend Fits cap
  split
  · rename_i hc
    have hc' : v.len + bs.length ≤ v.cells.length := hc
    simp only [List.length_append, List.length_take, List.length_map, List.length_drop]; omega
  · simp only [List.length_append, List.length_take, List.length_map, List.length_replicate]; omega

theorem cap_extend {v : RVec} (alloc : Nat → Nat → Nat) (h : v.Fits) (bs : Bytes) : v.len + bs.length ≤ (v.extend alloc bs).cap := by
  have := fits_extend alloc h bs
  have h2 : (v.extend alloc bs).len = v.len + bs.length := by unfold extend; split <;> rfl
  unfold Fits at this; omega

/-- Shortening keeps the contract of `set_len`. -/
theorem setLen_shrink {v : RVec} {s : Bytes} (h : v.Holds s) (n : Nat) (hn : n ≤ s.length) :
    ∃ v', v.setLen n = some v' ∧ v'.Holds (s.take n) ∧ v'.cells = v.cells := by
  have hf := h.fits
  unfold Fits at hf
  refine ⟨{ v with len := n }, ?_, ⟨by simp [hn], ?_⟩, rfl⟩
  · unfold setLen
    rw [if_pos]
    refine ⟨by have := h.1; omega, ?_⟩
    rw [List.drop_eq_nil_of_le (by simp only [List.length_take]; have := h.1; omega)]
    rfl
  · have : v.cells.take n = (v.cells.take v.len).take n := by
      rw [List.take_take, Nat.min_eq_left (by rw [h.1]; exact hn)]
    simp only [this, h.2, List.map_take]

theorem read_fill (v : RVec) (data : Bytes) : (v.fill data).read data.length = some data := by
  unfold read fill
  rw [List.take_append_of_le_length (by simp), List.take_of_length_le (by simp), mapM_some]

theorem cap_fill (v : RVec) (data : Bytes) (h : data.length ≤ v.cap) : (v.fill data).cap = v.cap := by
  unfold cap at *
  simp only [fill, List.length_append, List.length_map, List.length_drop]; omega

end RVec

/-! ## C137 -/

theorem isText_lt {b : Byte} (h : IsText b) : b < 0x80 :=
  forall_byte (P := fun b => IsText b → b < 0x80) (by decide +kernel) b h

theorem utf8_of_text {s : Bytes} (h : ∀ b ∈ s, IsText b) : (decodeUtf8 s).isSome = true := by
  rw [decodeUtf8_ascii s (fun b hb => isText_lt (h b hb))]; rfl

theorem fromUtf8_of_text {s : Bytes} (h : ∀ b ∈ s, IsText b) : fromUtf8Unchecked s = some s := by
  rw [fromUtf8Unchecked, if_pos (utf8_of_text h)]

theorem lowScan_eq (mhc : Nat) (hs : MultiMap) (line key keytmp : Bytes) (hk : ∀ b ∈ key, IsText b)
    (hl : keytmp.length = maxHeaderNameLength) (ht : keytmp.take key.length = key) :
    ∃ o, lowScan mhc hs keytmp key.length line = some o ∧
      match o, scanLine mhc hs key line with
      | .error e, .error e' => e = e'
      | .ok (hs', keytmp'), .ok hs'' => hs' = hs'' ∧ keytmp'.length = maxHeaderNameLength
      | _, _ => False := by
  induction line generalizing key keytmp with
  | nil => exact ⟨.ok (hs, keytmp), rfl, rfl, hl⟩
  | cons c rest ih =>
    unfold lowScan scanLine
    by_cases h1 : isText c = true
    · simp only [h1, Bool.not_true, Bool.false_eq_true, if_false]
      by_cases h2 : c = 58
      · simp only [h2, if_true]
        rw [ht, fromUtf8_of_text hk]
        by_cases h3 : rest = []
        · simp only [h3, if_true]; exact ⟨_, rfl, rfl⟩
        · simp only [h3, if_false]
          by_cases h4 : rest.all isText = true
          · simp only [h4, Bool.not_true, Bool.false_eq_true, if_false]
            rw [fromUtf8_of_text ((all_isText_iff rest).mp h4)]
            simp only
            by_cases h5 : mhc < 1
            · simp only [h5, if_true]; exact ⟨_, rfl, rfl⟩
            · simp only [h5, if_false]; exact ⟨_, rfl, rfl, by simp [keyZero]⟩
          · simp only [Bool.not_eq_true] at h4
            simp only [h4, Bool.not_false, if_true]; exact ⟨_, rfl, rfl⟩
      · simp only [h2, if_false]
        by_cases h3 : maxHeaderNameLength ≤ key.length
        · simp only [h3, if_true]; exact ⟨_, rfl, rfl⟩
        · simp only [h3, if_false]
          have hlt : key.length < keytmp.length := by omega
          rw [setUnchecked, if_pos hlt]
          have := ih (key ++ [toAsciiLower c]) (keytmp.set key.length (toAsciiLower c))
            (by
              intro b hb
              rcases List.mem_append.mp hb with hb | hb
              · exact hk b hb
              · rw [List.mem_singleton.mp hb]; exact toAsciiLower_isText c ((isText_iff c).mp h1))
            (by simp [hl])
            (by
              rw [List.length_append, List.length_singleton, List.take_add_one, List.take_set, ht]
              have e1 : key.set key.length (toAsciiLower c) = key := List.set_eq_of_length_le (Nat.le_refl _)
              rw [e1]
              simp [hlt])
          simpa using this
    · simp only [Bool.not_eq_true] at h1
      simp only [h1, Bool.not_false, if_true]; exact ⟨_, rfl, rfl⟩

namespace LowMsg

/-- The three strings hold the start line of `h`, the headers are those of `h`, and the length of the buffer is within its
allocation (it may have cells that were never written). -/
structure Holds (m : LowMsg) (h : Head) : Prop where
  f0 : m.f0.Holds h.f0
  f1 : m.f1.Holds h.f1
  f2 : m.f2.Holds h.f2
  headers : m.headers = h.headers
  buf : m.buf.Fits

/-- All four vectors are in order, whatever they hold. -/
structure Fits (m : LowMsg) : Prop where
  f0 : ∃ s, m.f0.Holds s
  f1 : ∃ s, m.f1.Holds s
  f2 : ∃ s, m.f2.Holds s
  buf : m.buf.Fits

theorem Holds.fits {m : LowMsg} {h : Head} (hm : m.Holds h) : m.Fits := ⟨⟨_, hm.f0⟩, ⟨_, hm.f1⟩, ⟨_, hm.f2⟩, hm.buf⟩

end LowMsg

/-- A run on memory and a run on byte strings come to the same. -/
def SameHead (low : Option LowRes) (high : Option (Except ReadCode (Head × Reader))) : Prop :=
  match low, high with
  | none, none => True
  | some ⟨m, .error e⟩, some (.error e') => e = e' ∧ m.Fits
  | some ⟨m, .ok r⟩, some (.ok (h, r')) => r = r' ∧ m.Holds h ∧ 2 ≤ m.buf.cap
  | _, _ => False

theorem lowHeaderLoop_same (lim : HttpLimits) (alloc : Nat → Nat → Nat) (fuel : Nat) (m : LowMsg) (h : Head) (keytmp : Bytes)
    (r : Reader) (hm : m.Holds h) (hk : keytmp.length = maxHeaderNameLength) :
    ∃ low, lowHeaderLoop lim alloc fuel m keytmp r = some low ∧
      SameHead low (match headerLoop lim fuel h.headers r with
        | none => none
        | some (.error e) => some (.error e)
        | some (.ok (hs, r4)) => some (.ok ({ h with headers := hs }, r4))) := by
  induction fuel generalizing m h keytmp r with
  | zero => exact ⟨none, rfl, trivial⟩
  | succ fuel ih =>
    unfold lowHeaderLoop headerLoop
    have hc := RVec.holds_clear m.buf
    cases hr : r.readUntil 10 lim.maxHeaderLine with
    | err s => exact ⟨_, rfl, rfl, ⟨⟨_, hm.f0⟩, ⟨_, hm.f1⟩, ⟨_, hm.f2⟩, RVec.fits_extend alloc hc.fits _⟩⟩
    | ok line r' =>
      have he := RVec.holds_extend alloc hc line
      simp only
      by_cases h1 : line.length < 2
      · simp only [h1, if_true]
        exact ⟨_, rfl, rfl, ⟨⟨_, hm.f0⟩, ⟨_, hm.f1⟩, ⟨_, hm.f2⟩, he.fits⟩⟩
      · simp only [h1, if_false]
        by_cases h2 : line.length = 2
        · simp only [h2, if_true]
          refine ⟨_, rfl, rfl, ⟨hm.f0, hm.f1, hm.f2, hm.headers, he.fits⟩, ?_⟩
          have := RVec.cap_extend alloc hc.fits line
          have e : m.buf.clear.len = 0 := rfl
          simp only [e] at this
          simp only; omega
        · simp only [h2, if_false]
          obtain ⟨v, hv, hh, _⟩ := RVec.setLen_shrink he (line.length - 2) (by simp)
          rw [hv]
          simp only [hh.read, List.nil_append]
          obtain ⟨o, ho, hs⟩ := lowScan_eq lim.maxHeadersCount m.headers (line.take (line.length - 2)) [] keytmp
            (by simp) hk (by simp)
          simp only [List.length_nil] at ho
          rw [ho, ← hm.headers]
          cases o with
          | error e =>
            cases hsc : scanLine lim.maxHeadersCount m.headers [] (line.take (line.length - 2)) with
            | error e' =>
              rw [hsc] at hs
              exact ⟨_, rfl, hs, ⟨⟨_, hm.f0⟩, ⟨_, hm.f1⟩, ⟨_, hm.f2⟩, hh.fits⟩⟩
            | ok _ => rw [hsc] at hs; exact hs.elim
          | ok p =>
            obtain ⟨hs1, k1⟩ := p
            cases hsc : scanLine lim.maxHeadersCount m.headers [] (line.take (line.length - 2)) with
            | error e' => rw [hsc] at hs; exact hs.elim
            | ok hs2 =>
              rw [hsc] at hs
              obtain ⟨e1, e2⟩ := hs
              subst e1
              have := ih { m with headers := hs1, buf := v } { h with headers := hs1 } k1 r'
                ⟨hm.f0, hm.f1, hm.f2, rfl, hh.fits⟩ e2
              simpa using this

/-- **C137** Whatever the client sends, in whatever pieces, whatever the limits and whatever the message and the buffer held before:
`read_headers` breaks none of the contracts of the unsafe calls it makes - `set_len` within the capacity and over initialised
cells, `get_unchecked_mut` within `keytmp`, `from_utf8_unchecked` on valid UTF-8 - and reads no cell that was not written; what it
returns and leaves in the message is what `Model/Message` says, and after `Ok` the buffer has room for at least two bytes, so that
reading a body makes progress. The strings of the message are in order afterwards, whatever the code. -/
theorem C137_head_contracts (lim : HttpLimits) (alloc : Nat → Nat → Nat) (fuel : Nat) (m : LowMsg) (h : Head) (r : Reader)
    (hm : m.Holds h) :
    ∃ low, lowReadHead lim alloc fuel m r = some low ∧ SameHead low (readHeadFuel lim fuel h r) := by
  unfold lowReadHead readHeadFuel
  cases hr : r.readUntil 32 128 with
  | err s =>
    exact ⟨_, rfl, rfl, ⟨⟨_, RVec.holds_extend alloc hm.f0 _⟩, ⟨_, hm.f1⟩, ⟨_, hm.f2⟩, hm.buf⟩⟩
  | ok w r1 =>
    have e0 := RVec.holds_extend alloc hm.f0 w
    simp only
    by_cases h1 : w.length < 1
    · simp only [h1, if_true]
      exact ⟨_, rfl, rfl, ⟨⟨_, e0⟩, ⟨_, hm.f1⟩, ⟨_, hm.f2⟩, hm.buf⟩⟩
    · simp only [h1, if_false]
      obtain ⟨v0, hv0, hh0, _⟩ := RVec.setLen_shrink e0 (w.length - 1) (by simp; omega)
      rw [hv0]
      simp only [hh0.read]
      by_cases h2 : ((h.f0 ++ w).take (w.length - 1)).all isText = true
      · simp only [h2, Bool.not_true, Bool.false_eq_true, if_false]
        cases hr1 : r1.readUntil 32 lim.maxUrl with
        | err s => exact ⟨_, rfl, rfl, ⟨⟨_, hh0⟩, ⟨_, RVec.holds_extend alloc hm.f1 _⟩, ⟨_, hm.f2⟩, hm.buf⟩⟩
        | ok w1 r2 =>
          have e1 := RVec.holds_extend alloc hm.f1 w1
          simp only
          by_cases h3 : w1.length < 1
          · simp only [h3, if_true]
            exact ⟨_, rfl, rfl, ⟨⟨_, hh0⟩, ⟨_, e1⟩, ⟨_, hm.f2⟩, hm.buf⟩⟩
          · simp only [h3, if_false]
            obtain ⟨v1, hv1, hh1, _⟩ := RVec.setLen_shrink e1 (w1.length - 1) (by simp; omega)
            rw [hv1]
            simp only [hh1.read]
            by_cases h4 : ((h.f1 ++ w1).take (w1.length - 1)).all isText = true
            · simp only [h4, Bool.not_true, Bool.false_eq_true, if_false]
              cases hr2 : r2.readLine 128 with
              | err s => exact ⟨_, rfl, rfl, ⟨⟨_, hh0⟩, ⟨_, hh1⟩, ⟨_, hm.f2⟩, hm.buf⟩⟩
              | ok w2 r3 =>
                have e2 := RVec.holds_extend alloc hm.f2 w2
                simp only
                by_cases h5 : w2.length < 3
                · simp only [h5, if_true]
                  exact ⟨_, rfl, rfl, ⟨⟨_, hh0⟩, ⟨_, hh1⟩, ⟨_, e2⟩, hm.buf⟩⟩
                · simp only [h5, if_false]
                  obtain ⟨v2, hv2, hh2, _⟩ := RVec.setLen_shrink e2 (w2.length - 2) (by simp; omega)
                  rw [hv2]
                  simp only [hh2.read]
                  by_cases h6 : ((h.f2 ++ w2).take (w2.length - 2)).all isText = true
                  · simp only [h6, Bool.not_true, Bool.false_eq_true, if_false]
                    have := lowHeaderLoop_same lim alloc fuel { f0 := v0, f1 := v1, f2 := v2, headers := m.headers, buf := m.buf }
                      { f0 := (h.f0 ++ w).take (w.length - 1), f1 := (h.f1 ++ w1).take (w1.length - 1),
                        f2 := (h.f2 ++ w2).take (w2.length - 2), headers := h.headers } keyZero r3
                      ⟨hh0, hh1, hh2, hm.headers, hm.buf⟩ (by simp [keyZero])
                    obtain ⟨low, hl, hs⟩ := this
                    refine ⟨low, hl, ?_⟩
                    cases hh : headerLoop lim fuel h.headers r3 with
                    | none => rw [hh] at hs; exact hs
                    | some o => rw [hh] at hs; cases o <;> exact hs
                  · simp only [Bool.not_eq_true] at h6
                    simp only [h6, Bool.not_false, if_true]
                    exact ⟨_, rfl, rfl, ⟨⟨_, hh0⟩, ⟨_, hh1⟩, ⟨_, hh2⟩, hm.buf⟩⟩
            · simp only [Bool.not_eq_true] at h4
              simp only [h4, Bool.not_false, if_true]
              exact ⟨_, rfl, rfl, ⟨⟨_, hh0⟩, ⟨_, hh1⟩, ⟨_, hm.f2⟩, hm.buf⟩⟩
      · simp only [Bool.not_eq_true] at h2
        simp only [h2, Bool.not_false, if_true]
        exact ⟨_, rfl, rfl, ⟨⟨_, hh0⟩, ⟨_, hm.f1⟩, ⟨_, hm.f2⟩, hm.buf⟩⟩

/-- The same for the call as `serve` makes it (a fresh or cleared message, enough fuel): it is defined and comes to the result of
`readHead`. -/
theorem C137_head (lim : HttpLimits) (alloc : Nat → Nat → Nat) (m : LowMsg) (h : Head) (r : Reader) (hm : m.Holds h) :
    ∃ res, lowReadHead lim alloc (r.flat.length + 1) m r = some (some res) ∧
      match res.out, readHead lim h r with
      | .error e, .error e' => e = e' ∧ res.msg.Fits
      | .ok r1, .ok (h', r2) => r1 = r2 ∧ res.msg.Holds h' ∧ 2 ≤ res.msg.buf.cap
      | _, _ => False := by
  obtain ⟨low, hl, hs⟩ := C137_head_contracts lim alloc (r.flat.length + 1) m h r hm
  have ht := C09_head_terminates lim h r (r.flat.length + 1) (by omega)
  rw [hl]
  unfold readHead
  cases hf : readHeadFuel lim (r.flat.length + 1) h r with
  | none => rw [hf] at ht; simp at ht
  | some o =>
    rw [hf] at hs
    cases low with
    | none => exact hs.elim
    | some res =>
      obtain ⟨m', out⟩ := res
      refine ⟨_, rfl, ?_⟩
      cases out <;> cases o <;> exact hs

/-- Non-trivial cases: the contracts can be broken - one index beyond `keytmp`, a length beyond the capacity, a cell never written, bytes that are
not UTF-8. -/
example : setUnchecked keyZero 256 0 = none ∧ (RVec.withCapacity 3).setLen 4 = none ∧ (RVec.withCapacity 3).setLen 1 = none ∧
    (⟨[none], 1⟩ : RVec).read 1 = none ∧ fromUtf8Unchecked [0xc3] = none := by decide +kernel

/-- The memory of a connection before its first request: empty strings, a buffer of the configured capacity
(src/ctx.rs:17-34). -/
def LowMsg.fresh (cap : Nat) : LowMsg :=
  { f0 := .withCapacity 0, f1 := .withCapacity 0, f2 := .withCapacity 0, headers := MultiMap.new, buf := .withCapacity cap }

theorem fresh_holds (cap : Nat) : (LowMsg.fresh cap).Holds Head.new :=
  ⟨RVec.holds_empty, RVec.holds_empty, RVec.holds_empty, rfl, Nat.zero_le _⟩

/-! ## C138 -/

theorem lowConstLoop_same {K : Type} (write : Body K → Bytes → Body.Out (Body K)) (fuel remain : Nat) (b : Body K) (v : RVec)
    (r : Reader) (cap : Nat) (hc : v.cap = cap) :
    ∃ low, lowConstLoop write fuel remain b v r = some low ∧ low.map (·.res) = constLoop write cap fuel remain b r ∧
      ∀ l, low = some l → l.buf.cap = cap ∧ l.buf.len = v.len := by
  induction fuel generalizing remain b v r with
  | zero => exact ⟨none, rfl, rfl, by simp⟩
  | succ fuel ih =>
    unfold lowConstLoop constLoop
    rw [hc]
    simp only
    cases hr : r.read (if remain < cap then remain else cap) with
    | err s => exact ⟨_, rfl, rfl, by simp [hc]⟩
    | ok data r' =>
      have hd : data.length ≤ v.cap := by
        rw [hc]
        unfold Reader.read at hr
        cases hf : r.fillBuf with
        | err s => rw [hf] at hr; simp at hr
        | ok d r0 =>
          rw [hf] at hr
          simp only [Reader.IoRes.ok.injEq] at hr
          rw [← hr.1, List.length_take]
          split <;> omega
      have hcf : (v.fill data).cap = cap := by rw [RVec.cap_fill v data hd, hc]
      simp only [RVec.read_fill]
      cases hw : write b data with
      | panic => exact ⟨_, rfl, rfl, by simp [hcf]; rfl⟩
      | ret b' =>
        simp only
        by_cases h1 : remain - data.length < 1
        · simp only [h1, if_true]; exact ⟨_, rfl, rfl, by simp [hcf]; rfl⟩
        · simp only [h1, if_false]; exact ih _ b' (v.fill data) r' hcf

theorem lowReadConst_same {K : Type} (setLen : RVec → Nat → Unchecked RVec) (write : Body K → Bytes → Body.Out (Body K)) (remain : Nat)
    (b : Body K) (v v' : RVec) (r : Reader) (hs : setLen v v.cap = some v') (hc : v'.cap = v.cap) (hf : v.Fits) (hf' : v'.Fits) :
    ∃ low, lowReadConst setLen write remain b v r = some low ∧ low.res = readConst write v.cap remain b r ∧
      low.buf.cap = v.cap ∧ low.buf.Fits := by
  unfold lowReadConst readConst
  by_cases h : remain < 1
  · simp only [h, if_true]; exact ⟨_, rfl, rfl, rfl, hf⟩
  · simp only [h, if_false, hs]
    obtain ⟨low, hl, he, hb⟩ := lowConstLoop_same write (r.flat.length + 1) remain b v' r v.cap hc
    rw [hl, ← he]
    refine ⟨_, rfl, ?_⟩
    cases low with
    | none => exact ⟨rfl, hc, hf'⟩
    | some l =>
      refine ⟨rfl, (hb l rfl).1, ?_⟩
      have h1 := (hb l rfl).1
      have h2 := (hb l rfl).2
      unfold RVec.Fits at hf' ⊢
      simp only [Option.getD_some]
      omega

/-- **C138**, what holds: although the body readers make the whole buffer accessible, a cell that was not written is never read by
them: whatever the buffer holds, the bytes put into the body are those the client sent, exactly as in `Model/Message`, and the
capacity stays. Missing from C138: the second half of the contract of `set_len`, see `C138_exposed_violated`. -/
theorem C138_reads_written_partial {K : Type} (write : Body K → Bytes → Body.Out (Body K)) (n : Nat) (b : Body K) (v : RVec)
    (r : Reader) (hf : v.Fits) :
    (∃ low, lowReadConst RVec.setLenRaw write n b v r = some low ∧ low.res = readConst write v.cap n b r ∧ low.buf.cap = v.cap ∧
      low.buf.Fits) ∧
    (∃ low, lowReadChunked RVec.setLenRaw write n b v r = some low ∧ low.res = readChunked write v.cap n b r ∧
      low.buf.cap = v.cap ∧ low.buf.Fits) := by
  have hs : v.setLenRaw v.cap = some { v with len := v.cap } := by simp [RVec.setLenRaw]
  have hf' : RVec.Fits { v with len := v.cap } := Nat.le_refl _
  refine ⟨lowReadConst_same _ write n b v _ r hs rfl hf hf', ?_⟩
  unfold lowReadChunked readChunked
  rw [hs]
  simp only
  cases r.readLine 128 with
  | err s => exact ⟨_, rfl, rfl, rfl, hf'⟩
  | ok line r1 =>
    simp only
    cases parseChunkSize line with
    | none => exact ⟨_, rfl, rfl, rfl, hf'⟩
    | some size =>
      simp only
      by_cases h : n < size
      · simp only [h, if_true]; exact ⟨_, rfl, rfl, rfl, hf'⟩
      · simp only [h, if_false]
        obtain ⟨⟨res, w⟩, hl, he, hcap, hfit⟩ := lowReadConst_same (fun v _ => some v) write size b { v with len := v.cap } _ r1 rfl rfl
          hf' hf'
        have e : RVec.cap { v with len := v.cap } = v.cap := rfl
        rw [hl]
        rw [e] at he hcap
        simp only at he hcap hfit
        rw [← he]
        cases res with
        | done b' r2 =>
          simp only
          cases r2.readLine 2 with
          | err s => exact ⟨_, rfl, rfl, hcap, hfit⟩
          | ok _ r3 => exact ⟨_, rfl, rfl, hcap, hfit⟩
        | fail c => exact ⟨_, rfl, rfl, hcap, hfit⟩
        | panic => exact ⟨_, rfl, rfl, hcap, hfit⟩
        | hang => exact ⟨_, rfl, rfl, hcap, hfit⟩

theorem setLen_cap_none (v : RVec) : v.setLen v.cap = none ↔ none ∈ v.cells.drop v.len := by
  have e : v.cells.take v.cap = v.cells := List.take_of_length_le (Nat.le_refl _)
  unfold RVec.setLen
  rw [e]
  constructor
  · intro h
    by_cases hn : none ∈ v.cells.drop v.len
    · exact hn
    · rw [if_pos] at h
      · cases h
      · refine ⟨Nat.le_refl _, List.all_eq_true.mpr ?_⟩
        intro x hx
        cases x with
        | none => exact absurd hx hn
        | some _ => rfl
  · intro h
    rw [if_neg]
    rintro ⟨_, ha⟩
    have := List.all_eq_true.mp ha none h
    simp at this

/-- **C138**, exactly when the contract is broken: when there is a body to read and the buffer has a cell beyond its length that was
never written. -/
theorem C138_exactly {K : Type} (write : Body K → Bytes → Body.Out (Body K)) (remain : Nat) (b : Body K) (v : RVec) (r : Reader)
    (hf : v.Fits) : lowReadConst RVec.setLen write remain b v r = none ↔ 1 ≤ remain ∧ none ∈ v.cells.drop v.len := by
  constructor
  · intro h
    by_cases h1 : remain < 1
    · unfold lowReadConst at h; simp [h1] at h
    · refine ⟨by omega, (setLen_cap_none v).mp ?_⟩
      cases hs : v.setLen v.cap with
      | none => rfl
      | some v' =>
        exfalso
        have hv : v' = { v with len := v.cap } := by
          unfold RVec.setLen at hs
          split at hs
          · exact (Option.some.inj hs).symm
          · cases hs
        subst hv
        obtain ⟨low, hl, _⟩ := lowReadConst_same RVec.setLen write remain b v _ r hs rfl hf (Nat.le_refl _)
        rw [hl] at h
        cases h
  · rintro ⟨h1, h2⟩
    unfold lowReadConst
    rw [if_neg (by omega), (setLen_cap_none v).mpr h2]

/-- **C138**, the same for the reader of chunks, which makes the buffer accessible before it knows whether there is anything to read. -/
theorem C138_exactly_chunked {K : Type} (write : Body K → Bytes → Body.Out (Body K)) (maxBody : Nat) (b : Body K) (v : RVec) (r : Reader)
    (hf : v.Fits) : lowReadChunked RVec.setLen write maxBody b v r = none ↔ none ∈ v.cells.drop v.len := by
  constructor
  · intro h
    refine (setLen_cap_none v).mp ?_
    cases hs : v.setLen v.cap with
    | none => rfl
    | some v' =>
      exfalso
      have hv : v' = { v with len := v.cap } := by
        unfold RVec.setLen at hs
        split at hs
        · exact (Option.some.inj hs).symm
        · cases hs
      subst hv
      have e : lowReadChunked RVec.setLen write maxBody b v r = lowReadChunked RVec.setLenRaw write maxBody b v r := by
        unfold lowReadChunked
        rw [hs, show v.setLenRaw v.cap = some { v with len := v.cap } by simp [RVec.setLenRaw]]
      obtain ⟨low, hl, _⟩ := (C138_reads_written_partial write maxBody b v r hf).2
      rw [← e] at hl
      rw [hl] at h
      cases h
  · intro h2
    unfold lowReadChunked
    rw [(setLen_cap_none v).mpr h2]

/-- The cells from `k` on were never written. -/
def RVec.Untouched (v : RVec) (k cap : Nat) : Prop := ∃ front, front.length = k ∧ v.cells = front ++ List.replicate (cap - k) none

theorem untouched_extend (alloc : Nat → Nat → Nat) {v : RVec} {k cap : Nat} (h : v.Untouched k cap) (hk : k ≤ cap) (bs : Bytes)
    (hb : bs.length ≤ k) : (v.clear.extend alloc bs).Untouched k cap := by
  obtain ⟨front, hl, hc⟩ := h
  have hcap : v.clear.cap = cap := by simp [RVec.cap, RVec.clear, hc, hl]; omega
  refine ⟨bs.map some ++ front.drop bs.length, by simp [hl]; omega, ?_⟩
  unfold RVec.extend
  rw [hcap, if_pos (by simp [RVec.clear]; omega)]
  simp [RVec.clear, hc, List.drop_append, hl, Nat.sub_eq_zero_of_le hb]

theorem setLen_cells {v v' : RVec} {n : Nat} (h : v.setLen n = some v') : v'.cells = v.cells ∧ v'.len = n := by
  unfold RVec.setLen at h
  split at h
  · rw [← Option.some.inj h]; exact ⟨rfl, rfl⟩
  · cases h

theorem readUntil_lengths {delim : Byte} {limit : Nat} {r r' : Reader} {data : Bytes} (h : r.readUntil delim limit = .ok data r') :
    data.length + r'.flat.length = r.flat.length := by
  obtain ⟨h1, h2, _⟩ := Reader.readUntil_ok h
  rw [h1, h2, ← List.length_append, cut_append]

theorem lowHeaderLoop_untouched (lim : HttpLimits) (alloc : Nat → Nat → Nat) (fuel : Nat) (m : LowMsg) (keytmp : Bytes) (r : Reader)
    (k cap : Nat) (hk : k ≤ cap) (hr : r.flat.length ≤ k) (hm : m.buf.Untouched k cap) (m' : LowMsg) (r1 : Reader)
    (h : lowHeaderLoop lim alloc fuel m keytmp r = some (some ⟨m', .ok r1⟩)) : m'.buf.Untouched k cap ∧ m'.buf.len ≤ k := by
  induction fuel generalizing m keytmp r with
  | zero => cases h
  | succ fuel ih =>
    unfold lowHeaderLoop at h
    cases hu : r.readUntil 10 lim.maxHeaderLine with
    | err s => rw [hu] at h; cases h
    | ok line r' =>
      rw [hu] at h
      simp only at h
      have hlen := readUntil_lengths hu
      have hx := untouched_extend alloc hm hk line (by omega)
      by_cases h1 : line.length < 2
      · simp only [h1, if_true] at h; cases h
      · simp only [h1, if_false] at h
        by_cases h2 : line.length = 2
        · simp only [h2, if_true] at h
          cases h
          refine ⟨hx, ?_⟩
          have : (m.buf.clear.extend alloc line).len = line.length := by
            unfold RVec.extend; split <;> simp [RVec.clear]
          simp only [this]; omega
        · simp only [h2, if_false] at h
          cases hs : (m.buf.clear.extend alloc line).setLen (line.length - 2) with
          | none => rw [hs] at h; cases h
          | some v =>
            rw [hs] at h
            simp only at h
            cases hrd : v.read v.len with
            | none => rw [hrd] at h; cases h
            | some text =>
              rw [hrd] at h
              simp only at h
              cases hsc : lowScan lim.maxHeadersCount m.headers keytmp 0 text with
              | none => rw [hsc] at h; cases h
              | some o =>
                rw [hsc] at h
                cases o with
                | error e => cases h
                | ok p =>
                  refine ih _ p.2 r' (by omega) ?_ h
                  obtain ⟨front, hf1, hf2⟩ := hx
                  exact ⟨front, hf1, by rw [← hf2]; exact (setLen_cells hs).1⟩

theorem lowReadHead_untouched (lim : HttpLimits) (alloc : Nat → Nat → Nat) (fuel : Nat) (m : LowMsg) (r : Reader)
    (k cap : Nat) (hk : k ≤ cap) (hr : r.flat.length ≤ k) (hm : m.buf.Untouched k cap) (m' : LowMsg) (r1 : Reader)
    (h : lowReadHead lim alloc fuel m r = some (some ⟨m', .ok r1⟩)) : m'.buf.Untouched k cap ∧ m'.buf.len ≤ k := by
  unfold lowReadHead at h
  cases h1 : r.readUntil 32 128 with
  | err s => rw [h1] at h; cases h
  | ok w ra =>
    rw [h1] at h
    simp only at h
    have l1 := readUntil_lengths h1
    split at h
    · cases h
    · split at h
      · cases h
      · split at h
        · cases h
        · split at h
          · cases h
          · cases h2 : ra.readUntil 32 lim.maxUrl with
            | err s => rw [h2] at h; cases h
            | ok w1 rb =>
              rw [h2] at h
              simp only at h
              have l2 := readUntil_lengths h2
              split at h
              · cases h
              · split at h
                · cases h
                · split at h
                  · cases h
                  · split at h
                    · cases h
                    · cases h3 : rb.readLine 128 with
                      | err s => rw [h3] at h; cases h
                      | ok w2 rc =>
                        rw [h3] at h
                        simp only at h
                        have l3 : w2.length + rc.flat.length = rb.flat.length := by
                          obtain ⟨e1, e2, _⟩ := Reader.readLine_ok h3
                          rw [e1, e2, ← List.length_append, cut_append]
                        split at h
                        · cases h
                        · split at h
                          · cases h
                          · split at h
                            · cases h
                            · split at h
                              · cases h
                              · refine lowHeaderLoop_untouched lim alloc fuel _ _ rc k cap hk (by omega) ?_ m' r1 h
                                exact hm

/-- A request with a body of one byte. -/
def oneBytePost : Bytes := b!"POST / HTTP/1.1\r\nContent-Length: 1\r\n\r\nx"

/-- **C138**, negation for the code as written: whatever the capacity of the buffer, if everything the client sends is shorter than it
(the default is 8092 bytes), the first request with a body of a connection makes cells accessible that were never written - the
contract of `set_len` is broken, by the reader for announced lengths and by the one for chunks. -/
theorem C138_exposed_violated :
    (∀ (K : Type) (lim : HttpLimits) (alloc : Nat → Nat → Nat) (fuel cap : Nat) (r r1 : Reader) (m : LowMsg)
      (write : Body K → Bytes → Body.Out (Body K)) (n : Nat) (b : Body K), r.flat.length < cap →
      lowReadHead lim alloc fuel (.fresh cap) r = some (some ⟨m, .ok r1⟩) →
      (1 ≤ n → lowReadConst RVec.setLen write n b m.buf r1 = none) ∧ lowReadChunked RVec.setLen write n b m.buf r1 = none) ∧
    ∃ (lim : HttpLimits) (m : LowMsg) (r1 : Reader) (h : Head),
      lowReadHead lim (fun _ _ => 0) 60 (.fresh 64) ⟨oneBytePost, [], .eof⟩ = some (some ⟨m, .ok r1⟩) ∧ m.Holds h ∧
      getContentLength h.headers = some 1 := by
  constructor
  · intro K lim alloc fuel cap r r1 m write n b hlt hh
    have hu := lowReadHead_untouched lim alloc fuel (.fresh cap) r r.flat.length cap (by omega) (Nat.le_refl _)
      ⟨List.replicate r.flat.length none, by simp, by
        simp only [LowMsg.fresh, RVec.withCapacity, List.replicate_append_replicate]
        congr 1; omega⟩ m r1 hh
    have hn : none ∈ m.buf.cells.drop m.buf.len := by
      obtain ⟨⟨front, hl, hc⟩, hlen⟩ := hu
      rw [hc, List.drop_append, List.mem_append]
      right
      rw [hl, Nat.sub_eq_zero_of_le hlen, List.drop_zero, List.mem_replicate]
      exact ⟨by omega, rfl⟩
    have hs := (setLen_cap_none m.buf).mpr hn
    constructor
    · intro h1
      unfold lowReadConst
      rw [if_neg (by omega), hs]
    · unfold lowReadChunked
      rw [hs]
  · have hr := C137_head_contracts ⟨2048, 2048, 1024, 1000⟩ (fun _ _ => 0) 60 (.fresh 64) Head.new ⟨oneBytePost, [], .eof⟩
      (fresh_holds 64)
    obtain ⟨low, hl, hs⟩ := hr
    have he : readHeadFuel ⟨2048, 2048, 1024, 1000⟩ 60 Head.new ⟨oneBytePost, [], .eof⟩ = some (.ok
        ({ f0 := b!"POST", f1 := b!"/", f2 := b!"HTTP/1.1", headers := MultiMap.new.append b!"content-length" b!"1" },
          ⟨b!"x", [], .eof⟩)) := by
      rfl
    rw [he] at hs
    cases low with
    | none => exact hs.elim
    | some res =>
      obtain ⟨m, out⟩ := res
      cases out with
      | error e => exact hs.elim
      | ok r1 =>
        obtain ⟨e, hm, _⟩ := hs
        exact ⟨_, m, r1, _, hl, hm, by decide +kernel⟩

/-- Non-trivial case of C138: the body of that request is read, and it is the byte the client sent. -/
example (v : RVec) (hc : v.cap = 8092) (hf : v.Fits) : ∃ low,
    lowReadConst (K := Unit) RVec.setLenRaw Body.writeRaw 1 Body.new v ⟨b!"x", [], .eof⟩ = some low ∧
      low.res = .done { internal := some b!"x", cw := none } ⟨[], [], .eof⟩ := by
  obtain ⟨low, h1, h2, _⟩ := (C138_reads_written_partial (K := Unit) Body.writeRaw 1 Body.new v ⟨b!"x", [], .eof⟩ hf).1
  refine ⟨low, h1, ?_⟩
  rw [h2, hc]
  rfl

/-! ## C139 -/

theorem readHeadFuel_text (lim : HttpLimits) (fuel : Nat) (h h' : Head) (r r' : Reader)
    (hk : readHeadFuel lim fuel h r = some (.ok (h', r'))) :
    (∀ b ∈ h'.f0, IsText b) ∧ (∀ b ∈ h'.f1, IsText b) ∧ (∀ b ∈ h'.f2, IsText b) := by
  unfold readHeadFuel at hk
  split at hk
  · cases hk
  · split at hk
    · cases hk
    · simp only at hk
      split at hk
      · cases hk
      · rename_i t0
        split at hk
        · cases hk
        · split at hk
          · cases hk
          · split at hk
            · cases hk
            · rename_i t1
              split at hk
              · cases hk
              · split at hk
                · cases hk
                · split at hk
                  · cases hk
                  · rename_i t2
                    split at hk
                    · cases hk
                    · cases hk
                    · cases hk
                      simp only [Bool.not_eq_true', Bool.not_eq_false] at t0 t1 t2
                      exact ⟨(all_isText_iff _).mp t0, (all_isText_iff _).mp t1, (all_isText_iff _).mp t2⟩

/-- **C139**, what holds: when `read_headers` returns `Ok`, the three strings of the start line are valid UTF-8, whatever was in them
before; so they are in every request that reaches a service (`C139_service_partial`). Missing from C139: the other codes, see
`C139_invalid_violated`. -/
theorem C139_ok_partial (lim : HttpLimits) (alloc : Nat → Nat → Nat) (fuel : Nat) (m m' : LowMsg) (h : Head) (r r' : Reader)
    (hm : m.Holds h) (hk : lowReadHead lim alloc fuel m r = some (some ⟨m', .ok r'⟩)) :
    ∃ s0 s1 s2, m'.f0.Holds s0 ∧ m'.f1.Holds s1 ∧ m'.f2.Holds s2 ∧
      (decodeUtf8 s0).isSome ∧ (decodeUtf8 s1).isSome ∧ (decodeUtf8 s2).isSome := by
  obtain ⟨low, hl, hs⟩ := C137_head_contracts lim alloc fuel m h r hm
  rw [hk] at hl
  cases hl
  cases hf : readHeadFuel lim fuel h r with
  | none => rw [hf] at hs; exact hs.elim
  | some o =>
    rw [hf] at hs
    cases o with
    | error e => exact hs.elim
    | ok p =>
      obtain ⟨h', r''⟩ := p
      obtain ⟨_, hh, _⟩ := hs
      obtain ⟨t0, t1, t2⟩ := readHeadFuel_text lim fuel h h' r r'' hf
      exact ⟨_, _, _, hh.f0, hh.f1, hh.f2, utf8_of_text t0, utf8_of_text t1, utf8_of_text t2⟩

/-- Every request delivered was returned by `read_headers`. -/
theorem serveLoop_from_head {K : Type} (c : Codec K) (lim : HttpLimits) (env : Nat → Env K) (fuel i : Nat) (req resp : Message K)
    (r : Reader) (ex : Exchange K) (he : ex ∈ (serveLoop c lim env fuel i req resp r).1) :
    ∃ h r0 r1, readHead lim h r0 = .ok (ex.req.head, r1) := by
  induction fuel generalizing i req resp r with
  | zero => simp [serveLoop] at he
  | succ fuel ih =>
    unfold serveLoop at he
    cases hh : readHead lim req.head r with
    | error e => rw [hh] at he; simp at he
    | ok p =>
      obtain ⟨head, r1⟩ := p
      rw [hh] at he
      simp only at he
      cases hb : readConstLengthBody (env i).cap head.headers req.body r1 with
      | fail e => rw [hb] at he; simp at he
      | panic => rw [hb] at he; simp at he
      | hang => rw [hb] at he; simp at he
      | done body r2 =>
        rw [hb] at he
        simp only at he
        have one : ∀ w, ex = ⟨⟨head, body⟩, w⟩ → ∃ h r0 r1, readHead lim h r0 = .ok (ex.req.head, r1) := by
          rintro w rfl; exact ⟨_, _, _, hh⟩
        split at he
        · exact one _ (List.mem_singleton.mp he)
        · exact one _ (List.mem_singleton.mp he)
        · split at he
          · exact one _ (List.mem_singleton.mp he)
          · split at he
            · exact one _ (List.mem_singleton.mp he)
            · split at he
              · rcases List.mem_cons.mp he with he | he
                · exact one _ he
                · exact ih _ _ _ _ he
              · exact one _ (List.mem_singleton.mp he)
              · exact one _ (List.mem_singleton.mp he)
              · exact one _ (List.mem_singleton.mp he)

/-- **C139** at the service: the start line of every request that any service gets, on any connection, is valid UTF-8. -/
theorem C139_service_partial {K : Type} (c : Codec K) (lim : HttpLimits) (env : Nat → Env K) (r : Reader) (ex : Exchange K)
    (he : ex ∈ (serve c lim env r).1) :
    (decodeUtf8 ex.req.head.f0).isSome ∧ (decodeUtf8 ex.req.head.f1).isSome ∧ (decodeUtf8 ex.req.head.f2).isSome := by
  obtain ⟨h, r0, r1, hr⟩ := serveLoop_from_head c lim env _ _ _ _ r ex he
  have hf : readHeadFuel lim (r0.flat.length + 1) h r0 = some (.ok (ex.req.head, r1)) := by
    unfold readHead at hr
    cases ho : readHeadFuel lim (r0.flat.length + 1) h r0 with
    | none => rw [ho] at hr; cases hr
    | some o => rw [ho] at hr; exact congrArg some hr
  obtain ⟨t0, t1, t2⟩ := readHeadFuel_text lim _ h _ r0 r1 hf
  exact ⟨utf8_of_text t0, utf8_of_text t1, utf8_of_text t2⟩

/-- **C139**, negation for the code as written: if the first word of a request is not valid UTF-8 (and a space follows within 128
bytes), `read_headers` returns with that word in the method string: a `String` that is not UTF-8. -/
theorem C139_invalid_violated :
    (∀ (lim : HttpLimits) (alloc : Nat → Nat → Nat) (fuel cap : Nat) (w rest : Bytes) (r : Reader),
      r.flat = w ++ 32 :: rest → 32 ∉ w → w.length < 128 → decodeUtf8 w = none →
      ∃ m, lowReadHead lim alloc fuel (.fresh cap) r = some (some ⟨m, .error .badDatagram⟩) ∧ m.f0.Holds w) ∧
    decodeUtf8 [0xff] = none := by
  refine ⟨?_, by decide +kernel⟩
  intro lim alloc fuel cap w rest r hr hw hl hd
  have hs := Reader.readUntil_spec 32 128 r
  rw [hr, cut_found 32 w rest 128 hw hl, cutDone_found 32 w rest 128 hw hl] at hs
  simp only [true_or, if_true] at hs
  obtain ⟨r', h1, _, _⟩ := hs
  have e0 := RVec.holds_extend alloc RVec.holds_empty (w ++ [32])
  obtain ⟨v0, hv0, hh0, _⟩ := RVec.setLen_shrink e0 ((w ++ [32]).length - 1) (by simp)
  have et : ([] ++ (w ++ [32])).take ((w ++ [32]).length - 1) = w := by simp
  rw [et] at hh0
  unfold lowReadHead
  rw [h1]
  simp only [LowMsg.fresh]
  rw [if_neg (by simp), hv0]
  simp only [hh0.read]
  have ht : w.all isText = false := by
    cases ha : w.all isText with
    | false => rfl
    | true =>
      have := utf8_of_text ((all_isText_iff w).mp ha)
      rw [hd] at this; cases this
  simp only [ht, Bool.not_false, if_true]
  exact ⟨_, rfl, hh0⟩

/-- Non-trivial case of C139: after the request `oneBytePost` the strings hold its start line. -/
example : readHeadFuel ⟨2048, 2048, 1024, 1000⟩ 60 Head.new ⟨oneBytePost, [], .eof⟩ = some (.ok
    ({ f0 := b!"POST", f1 := b!"/", f2 := b!"HTTP/1.1", headers := MultiMap.new.append b!"content-length" b!"1" },
      ⟨b!"x", [], .eof⟩)) := rfl

/-! ## C140 -/

/-- **C140** For a fixed-up configuration and records that can be delivered (see C61): for each record, every appender is borrowed for
writing at most once. The consumer makes `&'static mut` references through raw pointers (src/logging/consumer.rs:29-40) and keeps
all those of one record at the same time; two to the same appender would be undefined behaviour. -/
theorem C140_exclusive {U : Unicode} (hU : LawfulUnicode U) (pathExists openOk : Str → Bool) (order : List Str → List Str)
    (horder : ∀ l, (order l).Perm l) (c c' : Config) (hslab : c.slab = []) (hfix : c.autofix pathExists = some c')
    (as : List AppenderInit) (has : c'.appenders openOk = some as) (k : Consumer) (l : Level)
    (hk : c'.startLogging U openOk order true = .value (k, l)) (items : List Item) (hd : ∀ item ∈ items, Deliverable as item) :
    ∃ ws, k.handleAll items k.bufs = some ws ∧ ws.length = items.length ∧
      ∀ w ∈ ws, (w.map (·.1)).Nodup ∧ ∀ i ∈ w.map (·.1), i < k.appenders.length := by
  obtain ⟨ws, h1, h2⟩ := C61_delivered_partial hU pathExists openOk order horder c c' hslab hfix as has k l hk items hd
  have hka : k.appenders = as.map (·.appender) := by
    have hne : as ≠ [] := by
      rintro rfl
      rw [(start_spec hU pathExists openOk order horder c c' hslab hfix true).2.1 [] has rfl] at hk
      cases hk
    obtain ⟨k', hk', _, happ, _⟩ := (start_spec hU pathExists openOk order horder c c' hslab hfix true).2.2.2 as has hne rfl
    rw [hk] at hk'
    simp only [Started.value.injEq, Prod.mk.injEq] at hk'
    rw [hk'.1, happ]
  refine ⟨ws, h1, ?_, ?_⟩
  · clear h1 hd
    induction h2 with
    | nil => rfl
    | cons _ _ ih => simp [ih]
  · clear h1 hd
    induction h2 with
    | nil => simp
    | cons hr _ ih =>
      intro w hw
      rcases List.mem_cons.mp hw with rfl | hw
      · rw [hr.1, hka]
        exact ⟨List.nodup_range.filter _, wanted_lt _ _⟩
      · exact ih w hw

end Httpd
