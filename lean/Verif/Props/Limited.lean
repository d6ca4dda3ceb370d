import Verif.Spec.Limited
import Verif.Props.Grammar
import Verif.Props.BodyText
import Verif.Props.Chunked
/-!
# The limited body reader, exactly (C170)

`read_body_normal` (src/message.rs:327-351) after a head: which byte strings it takes for a request, with which body.
-/

namespace Httpd
open Spec MultiMap

theorem chunky_iff {hs : MultiMap} {fs : List (Bytes × Bytes)} (h : ∀ k, hs.getall k = valuesIn (collect fs) k) :
    headerContains (hs.getall b!"transfer-encoding") b!"chunked" = true ↔ Chunky fs := by
  rw [headerContains_iff, h]; rfl

theorem bodyOf_cases {maxBody : Nat} {closed : Bool} {fs : List (Bytes × Bytes)} {s data rest : Bytes}
    (h : BodyOf maxBody closed fs s data rest) :
    (Chunky fs ∧ ChunkText maxBody closed s data rest) ∨
    (¬ Chunky fs ∧ Announces fs (some data.length) ∧ data.length ≤ maxBody ∧ s = data ++ rest) := by
  cases h with
  | chunks _ _ _ h1 h2 => exact Or.inl ⟨h1, h2⟩
  | counted _ _ h1 h2 h3 => exact Or.inr ⟨h1, h2, h3, rfl⟩

theorem readBodyNormal_fin {K : Type} {cap maxBody : Nat} (hc : 1 ≤ cap) {hs : MultiMap} {b b' : Body K} {x : Bytes}
    (hb : b.internal = some x) {r r' : Reader} (h : readBodyNormal cap maxBody hs b r = .done b' r') : r'.fin = r.fin := by
  unfold readBodyNormal at h
  split at h
  · exact (C136_accepted cap maxBody hc b b' x hb r r' h).choose_spec.2.2
  · split at h
    · split at h
      · cases h
      · exact (readConst_done hc h).2.2.1
    · cases h

/-- **C170.** After a head with the fields `fs`, the limited reader accepts exactly the bodies of the grammar, appends their data and
leaves what follows. -/
theorem C170_accepted {K : Type} (cap maxBody : Nat) (hc : 1 ≤ cap) (hs : MultiMap) (fs : List (Bytes × Bytes))
    (hh : ∀ k, hs.getall k = valuesIn (collect fs) k) (b : Body K) (x : Bytes) (hb : b.internal = some x) (r : Reader) (b' : Body K)
    (rest : Bytes) :
    (∃ r', readBodyNormal cap maxBody hs b r = .done b' r' ∧ r'.flat = rest ∧ r'.fin = r.fin) ↔
      ∃ data, b' = { b with internal := some (x ++ data) } ∧ BodyOf maxBody (decide (r.fin = .eof)) fs r.flat data rest := by
  have hch := chunky_iff hh
  unfold readBodyNormal
  by_cases hk : Chunky fs
  · rw [if_pos (hch.mpr hk)]
    constructor
    · rintro ⟨r', h1, rfl, _⟩
      obtain ⟨data, h2, h3, _⟩ := C136_accepted cap maxBody hc b b' x hb r r' h1
      exact ⟨data, h2, .chunks _ _ _ hk h3⟩
    · rintro ⟨data, rfl, h⟩
      rcases bodyOf_cases h with ⟨_, h⟩ | ⟨hn, _⟩
      · obtain ⟨r', h1, h2, h3⟩ := C136_accepts cap maxBody hc b x hb r data rest h
        exact ⟨r', h1, h2, h3⟩
      · exact absurd hk hn
  · rw [if_neg (fun h => hk (hch.mp h))]
    constructor
    · rintro ⟨r', h1, rfl, _⟩
      split at h1
      · next n hn =>
        split at h1
        · cases h1
        · next hle =>
          rcases readConst_raw cap n b x r hc hb with ⟨g1, r2, g2, g3, _⟩ | ⟨_, _, g⟩ | ⟨_, _, g⟩
          · rw [g2] at h1
            simp only [BodyRes.done.injEq] at h1
            obtain ⟨rfl, rfl⟩ := h1
            refine ⟨r.flat.take n, rfl, ?_⟩
            have hl : (r.flat.take n).length = n := by rw [List.length_take]; omega
            have := BodyOf.counted (maxBody := maxBody) (closed := decide (r.fin = .eof)) (fs := fs) (r.flat.take n) (r.flat.drop n) hk
              (by rw [hl]; exact (announces_iff hh _).mpr hn) (by omega)
            rw [List.take_append_drop] at this
            rw [g3]; exact this
          · rw [g] at h1; cases h1
          · rw [g] at h1; cases h1
      · cases h1
    · rintro ⟨data, rfl, h⟩
      rcases bodyOf_cases h with ⟨hn, _⟩ | ⟨_, ha, hle, hr⟩
      · exact absurd hn hk
      · obtain ⟨r', h1, h2, h3⟩ := C14_exact_body cap hc b x hb r data.length data rest rfl hr
        refine ⟨r', ?_, h2, h3⟩
        rw [(announces_iff hh _).mp ha]
        simp only [if_neg (Nat.not_lt.mpr hle), h1]

/-- **C170, waiting.** The reader goes on waiting exactly when the client sends nothing more and what it sent is an unfinished body. -/
theorem C170_waits {K : Type} (cap maxBody : Nat) (hc : 1 ≤ cap) (hs : MultiMap) (fs : List (Bytes × Bytes))
    (hh : ∀ k, hs.getall k = valuesIn (collect fs) k) (b : Body K) (x : Bytes) (hb : b.internal = some x) (r : Reader) :
    readBodyNormal cap maxBody hs b r = .fail .waiting ↔ r.fin = .silent ∧ BodyOpen maxBody fs r.flat := by
  have hch := chunky_iff hh
  unfold readBodyNormal
  by_cases hk : Chunky fs
  · rw [if_pos (hch.mpr hk), C136_waits cap maxBody hc b x hb r]
    refine and_congr_right fun _ => ⟨fun h => .chunks _ hk h, fun h => ?_⟩
    cases h with
    | chunks _ h => exact h
    | counted _ h => exact absurd hk h
  · rw [if_neg (fun h => hk (hch.mp h))]
    constructor
    · intro h1
      split at h1
      · next n hn =>
        split at h1
        · cases h1
        · next hle =>
          rcases readConst_raw cap n b x r hc hb with ⟨_, r2, g2, _⟩ | ⟨g, g1, g2⟩ | ⟨_, _, g⟩
          · rw [g2] at h1; cases h1
          · rw [g2] at h1
            have hsil : r.fin = .silent := by
              cases hf : r.fin with
              | eof => exact absurd hf g1
              | silent => rfl
              | err => rw [hf] at h1; cases h1
            exact ⟨hsil, .counted _ n hk ((announces_iff hh _).mpr hn) (by omega) g⟩
          · rw [g] at h1; cases h1
      · cases h1
    · rintro ⟨hsil, h⟩
      cases h with
      | chunks h _ => exact absurd h hk
      | counted n _ ha hle hlt =>
        rw [(announces_iff hh _).mp ha]
        simp only [if_neg (Nat.not_lt.mpr hle)]
        rcases readConst_raw cap n b x r hc hb with ⟨g, _⟩ | ⟨_, _, g2⟩ | ⟨_, g, _⟩
        · omega
        · rw [g2, hsil]; rfl
        · rw [hsil] at g; cases g

/-- **C170, spinning.** The reader goes on for ever exactly when the client closed the connection before the last byte it announced. -/
theorem C170_spins {K : Type} (cap maxBody : Nat) (hc : 1 ≤ cap) (hs : MultiMap) (fs : List (Bytes × Bytes))
    (hh : ∀ k, hs.getall k = valuesIn (collect fs) k) (b : Body K) (x : Bytes) (hb : b.internal = some x) (r : Reader) :
    readBodyNormal cap maxBody hs b r = .hang ↔ r.fin = .eof ∧ BodyCut maxBody fs r.flat := by
  have hch := chunky_iff hh
  unfold readBodyNormal
  by_cases hk : Chunky fs
  · rw [if_pos (hch.mpr hk), C136_spins cap maxBody hc b x hb r]
    refine and_congr_right fun _ => ⟨?_, fun h => ?_⟩
    · rintro ⟨line, s, n, h0, h1, h2, h3, h4⟩
      rw [h0]
      exact .chunks line s n hk h1 h2 h3 h4
    · generalize r.flat = t at h
      cases h with
      | chunks line s n _ h1 h2 h3 h4 => exact ⟨line, s, n, rfl, h1, h2, h3, h4⟩
      | counted _ _ h => exact absurd hk h
  · rw [if_neg (fun h => hk (hch.mp h))]
    constructor
    · intro h1
      split at h1
      · next n hn =>
        split at h1
        · cases h1
        · next hle =>
          rcases readConst_raw cap n b x r hc hb with ⟨_, r2, g2, _⟩ | ⟨_, _, g⟩ | ⟨g, g1, _⟩
          · rw [g2] at h1; cases h1
          · rw [g] at h1; cases h1
          · exact ⟨g1, .counted _ n hk ((announces_iff hh _).mpr hn) (by omega) g⟩
      · cases h1
    · rintro ⟨hf, h⟩
      generalize ht : r.flat = t at h
      cases h with
      | chunks _ _ _ h => exact absurd h hk
      | counted _ n _ ha hle hlt =>
        subst ht
        rw [(announces_iff hh _).mp ha]
        simp only [if_neg (Nat.not_lt.mpr hle)]
        rcases readConst_raw cap n b x r hc hb with ⟨g, _⟩ | ⟨_, g, _⟩ | ⟨_, _, g⟩
        · omega
        · exact absurd hf g
        · exact g

/-- **C170, refusal.** Everything else is refused with an error code; nothing makes the reader panic. -/
theorem C170_refused {K : Type} (cap maxBody : Nat) (hc : 1 ≤ cap) (hs : MultiMap) (fs : List (Bytes × Bytes))
    (hh : ∀ k, hs.getall k = valuesIn (collect fs) k) (b : Body K) (x : Bytes) (hb : b.internal = some x) (r : Reader) :
    (∃ e, readBodyNormal cap maxBody hs b r = .fail e ∧ e ≠ .waiting) ↔
      (¬ ∃ data rest, BodyOf maxBody (decide (r.fin = .eof)) fs r.flat data rest) ∧
      ¬ (r.fin = .silent ∧ BodyOpen maxBody fs r.flat) ∧ ¬ (r.fin = .eof ∧ BodyCut maxBody fs r.flat) := by
  rw [← C170_waits cap maxBody hc hs fs hh b x hb r, ← C170_spins cap maxBody hc hs fs hh b x hb r]
  constructor
  · rintro ⟨e, h, he⟩
    refine ⟨?_, ?_, ?_⟩
    · rintro ⟨data, rest, h1⟩
      obtain ⟨r', h2, _⟩ := (C170_accepted cap maxBody hc hs fs hh b x hb r _ rest).mpr ⟨data, rfl, h1⟩
      rw [h] at h2; cases h2
    · rw [h]; intro h1; cases h1; exact he rfl
    · rw [h]; intro h1; cases h1
  · rintro ⟨h1, h2, h3⟩
    cases h : readBodyNormal cap maxBody hs b r with
    | done b' r' =>
      obtain ⟨data, _, h4⟩ := (C170_accepted cap maxBody hc hs fs hh b x hb r b' r'.flat).mp ⟨r', h, rfl, readBodyNormal_fin hc hb h⟩
      exact absurd ⟨data, _, h4⟩ h1
    | fail e => exact ⟨e, rfl, fun he => h2 (by rw [h, he])⟩
    | hang => exact absurd h h3
    | panic =>
      unfold readBodyNormal at h
      split at h
      · exact absurd h (readChunked_no_panic cap maxBody hc b x hb r)
      · split at h
        · next n hn =>
          split at h
          · cases h
          · rcases readConst_raw cap n b x r hc hb with ⟨_, r2, g, _⟩ | ⟨_, _, g⟩ | ⟨_, _, g⟩ <;> rw [g] at h <;> cases h
        · cases h

/-- **C170, whole requests.** A head followed by the limited reader accepts exactly the byte strings that begin with a head of the
grammar and a body of the grammar, whatever their segmentation and the capacity of the buffer, and with the parts that the grammar says. -/
theorem C170_request {K : Type} (lim : HttpLimits) (cap : Nat) (hc : 1 ≤ cap) (hd : Head) (hbl : hd.Blank) (b : Body K) (x : Bytes)
    (hb : b.internal = some x) (r : Reader) (w0 w1 w2 : Bytes) (data rest : Bytes) :
    (∃ hd' r1 r2, readHead lim hd r = .ok (hd', r1) ∧ hd'.f0 = w0 ∧ hd'.f1 = w1 ∧ hd'.f2 = w2 ∧
      readBodyNormal cap lim.maxBody hd'.headers b r1 = .done { b with internal := some (x ++ data) } r2 ∧ r2.flat = rest) ↔
    ∃ fs s, HeadText lim.maxUrl lim.maxHeaderLine lim.maxHeadersCount (decide (r.fin = .eof)) r.flat w0 w1 w2 fs s ∧
      BodyOf lim.maxBody (decide (r.fin = .eof)) fs s data rest := by
  constructor
  · rintro ⟨hd', r1, r2, h1, rfl, rfl, rfl, h2, rfl⟩
    obtain ⟨fs, h3, h4, h5⟩ := C129_accepted lim hd hd' hbl r r1 h1
    refine ⟨fs, r1.flat, h3, ?_⟩
    have hfin := readBodyNormal_fin hc hb h2
    obtain ⟨data', e, h6⟩ := (C170_accepted cap lim.maxBody hc hd'.headers fs h4 b x hb r1 _ r2.flat).mp ⟨r2, h2, rfl, hfin⟩
    simp only [Body.mk.injEq, Option.some.injEq, List.append_cancel_left_eq, and_true] at e
    rw [e, ← h5]; exact h6
  · rintro ⟨fs, s, h1, h2⟩
    obtain ⟨hd', r1, h3, h4, h5, h6, h7, h8, h9⟩ := C129_accepts lim hd hbl r w0 w1 w2 s fs h1
    obtain ⟨r2, h10, h11, _⟩ := (C170_accepted cap lim.maxBody hc hd'.headers fs h7 b x hb r1 _ rest).mpr
      ⟨data, rfl, by rw [h8, h9]; exact h2⟩
    exact ⟨hd', r1, r2, h3, h4, h5, h6, h10, h11⟩

/-- The grammar of bodies is unambiguous. -/
theorem C170_unambiguous (maxBody : Nat) (closed : Bool) (fs : List (Bytes × Bytes)) (s data data' rest rest' : Bytes)
    (h : BodyOf maxBody closed fs s data rest) (h' : BodyOf maxBody closed fs s data' rest') : data' = data ∧ rest' = rest := by
  rcases bodyOf_cases h with ⟨hk, h1⟩ | ⟨hk, ha, _, hr⟩ <;> rcases bodyOf_cases h' with ⟨hk', h1'⟩ | ⟨hk', ha', _, hr'⟩
  · obtain ⟨r1, g1, g2, _⟩ := C136_accepts (K := Unit) 1 maxBody (by decide) Body.new [] rfl
      (Reader.ofBytes s (if closed then .eof else .silent)) data rest (by cases closed <;> simpa [Reader.ofBytes, Reader.flat] using h1)
    obtain ⟨r1', g1', g2', _⟩ := C136_accepts (K := Unit) 1 maxBody (by decide) Body.new [] rfl
      (Reader.ofBytes s (if closed then .eof else .silent)) data' rest' (by cases closed <;> simpa [Reader.ofBytes, Reader.flat] using h1')
    rw [g1] at g1'
    simp only [BodyRes.done.injEq, Body.mk.injEq, Option.some.injEq, List.append_cancel_left_eq, and_true] at g1'
    exact ⟨g1'.1.symm, by rw [← g2, ← g2', g1'.2]⟩
  · exact absurd hk hk'
  · exact absurd hk' hk
  · have := announces_unique (fun _ => rfl) ha ha'
    simp only [Option.some.injEq] at this
    rw [hr] at hr'
    have := List.append_inj hr' (by omega)
    exact ⟨this.1.symm, this.2.symm⟩

/-- A chunked body, although Content-Length says something else. -/
example : BodyOf 10 false [(b!"content-length", b!"7"), (b!"transfer-encoding", b!"gzip, chunked")] b!"3\r\nabc\r\nx" b!"abc" b!"x" := by
  refine .chunks _ _ _ ⟨[b!"gzip, chunked"], _, by decide, List.mem_singleton_self _, ⟨b!"gzip, ", [], by decide⟩⟩ ?_
  exact .mk b!"3\r\n" b!"abc" b!"\r\n" b!"x" (.upTo b!"3\r" _ (by decide) (by decide))
    ⟨[51, 13, 10], [], b!"3", [13, 10], by decide, by decide, by decide, by decide, ⟨b!"3", Or.inl rfl, by decide, by decide, by decide⟩,
      by decide⟩
    (by decide) (.upTo [13] _ (by decide) (by decide)) (by decide)

/-- Ten bytes are announced and four have arrived: with a silent client the body is open, with one that has closed it breaks off. -/
example : readBodyNormal (K := Unit) 8 20 (MultiMap.new.append b!"content-length" b!"10") Body.new (Reader.ofBytes b!"abcd" .silent) =
      .fail .waiting ∧
    readBodyNormal (K := Unit) 8 20 (MultiMap.new.append b!"content-length" b!"10") Body.new (Reader.ofBytes b!"abcd" .eof) = .hang := by
  exact ⟨rfl, rfl⟩

/-- More than the limit is refused, and so is a size that is no number. -/
example : readBodyNormal (K := Unit) 8 20 (MultiMap.new.append b!"content-length" b!"21") Body.new (Reader.ofBytes b!"abcd" .silent) =
      .fail .reachMaxBodySize ∧
    readBodyNormal (K := Unit) 8 20 (MultiMap.new.append b!"transfer-encoding" b!"chunked") Body.new
      (Reader.ofBytes b!"zz\r\nabc" .eof) = .fail .badChunkSize := by
  exact ⟨rfl, rfl⟩

end Httpd
