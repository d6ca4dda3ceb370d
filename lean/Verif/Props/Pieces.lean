import Verif.Model.Pieces
import Verif.Props.Limited
/-!
# C19 when reading fails half way
-/

namespace Httpd

open Spec MultiMap

variable {K : Type}

/-- The body and the end of reading, put together. -/
def assemble (o : Body.Out (Body K)) (e : PiecesEnd) : BodyRes K :=
  match o, e with
  | .panic, _ => .panic
  | .ret _, none => .hang
  | .ret _, some (.error c) => .fail c
  | .ret b, some (.ok r) => .done b r

theorem constLoop_pieces (write : Body K → Bytes → Body.Out (Body K)) (cap fuel remain : Nat) (b : Body K) (r : Reader) :
    (constLoop write cap fuel remain b r).getD .hang =
      assemble (feed write b (constPieces cap fuel remain r).1) (constPieces cap fuel remain r).2 := by
  induction fuel generalizing remain b r with
  | zero => rfl
  | succ fuel ih =>
    simp only [constLoop, constPieces]
    cases hr : r.read (if remain < cap then remain else cap) with
    | err s => rfl
    | ok data r' =>
      simp only
      by_cases hlt : remain - data.length < 1
      · simp only [hlt, if_true, feed]
        cases write b data <;> rfl
      · simp only [hlt, if_false, feed]
        cases hw : write b data with
        | panic => rfl
        | ret b' => simp only; exact ih (remain - data.length) b' r'

theorem readConst_pieces (write : Body K → Bytes → Body.Out (Body K)) (cap remain : Nat) (b : Body K) (r : Reader) :
    readConst write cap remain b r = assemble (feed write b (readConstPieces cap remain r).1) (readConstPieces cap remain r).2 := by
  unfold readConst readConstPieces
  by_cases h : remain < 1
  · simp only [h, if_true]; rfl
  · simp only [h, if_false]; exact constLoop_pieces ..

/-- **C19**, the two halves of the reader: it hands these pieces to the body and ends like this. -/
theorem C19_halves (cap maxBody : Nat) (hs : MultiMap) (b : Body K) (r : Reader) :
    readBodyNormal cap maxBody hs b r =
      assemble (feed Body.writeRaw b (readNormalPieces cap maxBody hs r).1) (readNormalPieces cap maxBody hs r).2 := by
  unfold readBodyNormal readNormalPieces
  by_cases hc : headerContains (hs.getall b!"transfer-encoding") b!"chunked" = true
  · simp only [hc, if_true]
    unfold readChunked readChunkedPieces
    cases r.readLine 128 with
    | err s => rfl
    | ok line r1 =>
      simp only
      cases parseChunkSize line with
      | none => rfl
      | some size =>
        simp only
        by_cases hm : maxBody < size
        · simp only [hm, if_true]; rfl
        · simp only [hm, if_false]
          rw [readConst_pieces]
          generalize readConstPieces cap size r1 = x
          obtain ⟨ps, e⟩ := x
          simp only
          match e with
          | none => cases feed Body.writeRaw b ps <;> rfl
          | some (.error c) => cases feed Body.writeRaw b ps <;> rfl
          | some (.ok r2) =>
            cases hf : feed Body.writeRaw b ps with
            | panic => simp only [assemble]; cases r2.readLine 2 <;> simp only [hf, assemble]
            | ret b' => simp only [assemble]; cases r2.readLine 2 <;> simp only [hf, assemble]
  · simp only [hc, Bool.false_eq_true, if_false]
    cases getContentLength hs with
    | none => rfl
    | some n =>
      simp only
      by_cases hm : maxBody < n
      · simp only [hm, if_true]; rfl
      · simp only [hm, if_false]; exact readConst_pieces ..

theorem constPieces_spec (cap fuel remain : Nat) (r : Reader) :
    (constPieces cap fuel remain r).1.flatten <+: r.flat ∧ (constPieces cap fuel remain r).1.flatten.length ≤ remain ∧
    (constPieces cap fuel remain r).2 ≠ some (.error .reachMaxBodySize) := by
  induction fuel generalizing remain r with
  | zero => simp [constPieces]
  | succ fuel ih =>
    have hread := Reader.read_spec (if remain < cap then remain else cap) r
    simp only [constPieces]
    cases hr : r.read (if remain < cap then remain else cap) with
    | err s => cases s <;> simp [Reader.IoStop.code]
    | ok data r' =>
      simp only
      have hdata : data <+: r.flat ∧ data.length ≤ remain ∧ r'.flat = r.flat.drop data.length := by
        rw [hr] at hread
        rcases hread with ⟨hf, h | h⟩ | ⟨_, k, r1, he, hk, hkl, _, hdrop, _⟩
        · obtain ⟨_, h⟩ := h
          cases h
          simp [hf]
        · cases h.2
        · cases he
          refine ⟨List.take_prefix _ _, ?_, ?_⟩
          · rw [List.length_take]
            split at hk <;> omega
          · rw [hdrop, List.length_take, Nat.min_eq_left hkl]
      by_cases hlt : remain - data.length < 1
      · simp only [hlt, if_true]
        simpa using ⟨hdata.1, hdata.2.1⟩
      · simp only [hlt, if_false]
        obtain ⟨i1, i2, i3⟩ := ih (remain - data.length) r'
        refine ⟨?_, ?_, i3⟩
        · rw [List.flatten_cons]
          obtain ⟨z, hz⟩ := hdata.1
          rw [hdata.2.2, ← hz, List.drop_left] at i1
          rw [← hz]
          exact (List.prefix_append_right_inj data).mpr i1
        · rw [List.flatten_cons, List.length_append]
          omega

theorem readConstPieces_spec (cap remain : Nat) (r : Reader) :
    (readConstPieces cap remain r).1.flatten <+: r.flat ∧ (readConstPieces cap remain r).1.flatten.length ≤ remain ∧
    (readConstPieces cap remain r).2 ≠ some (.error .reachMaxBodySize) := by
  unfold readConstPieces
  by_cases h : remain < 1
  · simp [h]
  · simp only [h, if_false]; exact constPieces_spec ..

theorem feed_raw (ps : List Bytes) (b : Body K) (x : Bytes) (hb : b.internal = some x) :
    feed Body.writeRaw b ps = .ret { b with internal := some (x ++ ps.flatten) } := by
  induction ps generalizing b x with
  | nil => simp [feed, ← hb]
  | cons p ps ih =>
    simp only [feed, Body.writeRaw, hb]
    rw [ih { b with internal := some (x ++ p) } (x ++ p) rfl]
    simp

/-- **C19**, however reading ends - with success, with any error, or never -: what the body has got by then is at most `max_body_size`
bytes, the next ones of the stream; and when the limit is reported, nothing. -/
theorem C19_whatever_happens (cap maxBody : Nat) (hs : MultiMap) (b : Body K) (x : Bytes) (hb : b.internal = some x) (r : Reader) :
    feed Body.writeRaw b (readNormalPieces cap maxBody hs r).1 =
      .ret { b with internal := some (x ++ (readNormalPieces cap maxBody hs r).1.flatten) } ∧
    (readNormalPieces cap maxBody hs r).1.flatten.length ≤ maxBody ∧
    (∃ skipped rest, r.flat = skipped ++ (readNormalPieces cap maxBody hs r).1.flatten ++ rest ∧ (¬ SaysChunked hs → skipped = [])) ∧
    (readBodyNormal cap maxBody hs b r = .fail .reachMaxBodySize → (readNormalPieces cap maxBody hs r).1 = []) := by
  refine ⟨feed_raw _ b x hb, ?_⟩
  rw [C19_halves, feed_raw _ b x hb]
  have hch : headerContains (hs.getall b!"transfer-encoding") b!"chunked" = true ↔ SaysChunked hs := headerContains_iff _ _
  have key : (readNormalPieces cap maxBody hs r).1.flatten.length ≤ maxBody ∧
      (∃ skipped rest, r.flat = skipped ++ (readNormalPieces cap maxBody hs r).1.flatten ++ rest ∧ (¬ SaysChunked hs → skipped = [])) ∧
      ((readNormalPieces cap maxBody hs r).2 = some (.error .reachMaxBodySize) → (readNormalPieces cap maxBody hs r).1 = []) := by
    have nothing : ∀ e : PiecesEnd, (([], e) : List Bytes × PiecesEnd).1.flatten.length ≤ maxBody ∧
        (∃ skipped rest, r.flat = skipped ++ (([], e) : List Bytes × PiecesEnd).1.flatten ++ rest ∧ (¬ SaysChunked hs → skipped = [])) ∧
        ((([], e) : List Bytes × PiecesEnd).2 = some (.error .reachMaxBodySize) → (([], e) : List Bytes × PiecesEnd).1 = []) :=
      fun e => ⟨Nat.zero_le _, ⟨[], r.flat, by simp, fun _ => rfl⟩, fun _ => rfl⟩
    unfold readNormalPieces
    by_cases hc : headerContains (hs.getall b!"transfer-encoding") b!"chunked" = true
    · simp only [hc, if_true]
      have hsc := hch.mp hc
      unfold readChunkedPieces
      cases hl : r.readLine 128 with
      | err s => exact nothing _
      | ok line r1 =>
        obtain ⟨hline, hflat, _⟩ := Reader.readLine_ok hl
        simp only
        cases parseChunkSize line with
        | none => exact nothing _
        | some size =>
          simp only
          by_cases hm : maxBody < size
          · rw [if_pos hm]; exact nothing _
          · rw [if_neg hm]
            obtain ⟨q1, q2, q3⟩ := readConstPieces_spec cap size r1
            generalize readConstPieces cap size r1 = y at q1 q2 q3
            obtain ⟨ps, e⟩ := y
            simp only at q1 q2 q3
            have got : ps.flatten.length ≤ maxBody ∧ ∃ skipped rest, r.flat = skipped ++ ps.flatten ++ rest ∧ (¬ SaysChunked hs → skipped = []) := by
              obtain ⟨z, hz⟩ := q1
              exact ⟨by omega, line, z, by rw [List.append_assoc, hz, hline, hflat, cut_append], fun h => absurd hsc h⟩
            match e with
            | none => exact ⟨got.1, got.2, fun h => by cases h⟩
            | some (.error code) => exact ⟨got.1, got.2, fun h => absurd h q3⟩
            | some (.ok r2) =>
              simp only
              cases r2.readLine 2 with
              | ok _ _ => exact ⟨got.1, got.2, fun h => by cases h⟩
              | err s => cases s <;> exact ⟨got.1, got.2, fun h => by simp [Reader.IoStop.code] at h⟩
    · simp only [hc, Bool.false_eq_true, if_false]
      cases getContentLength hs with
      | none => exact nothing _
      | some n =>
        simp only
        by_cases hm : maxBody < n
        · rw [if_pos hm]; exact nothing _
        · rw [if_neg hm]
          obtain ⟨q1, q2, q3⟩ := readConstPieces_spec cap n r
          obtain ⟨z, hz⟩ := q1
          exact ⟨by omega, ⟨[], z, by rw [List.nil_append, hz], fun _ => rfl⟩, fun h => absurd h q3⟩
  refine ⟨key.1, key.2.1, fun h => key.2.2 ?_⟩
  generalize (readNormalPieces cap maxBody hs r).2 = e at h
  match e, h with
  | some (.error _), h => simp only [assemble, BodyRes.fail.injEq] at h; rw [h]

/-- A client that announces 5 bytes and closes the connection by an error after 3: these are in the body. -/
example : (readNormalPieces 8 10 ((MultiMap.new).set b!"content-length" b!"5") (Reader.ofBytes b!"abc" .err)).1.flatten = b!"abc" := by
  decide +kernel

end Httpd
