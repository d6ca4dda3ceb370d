import Verif.Props.Online
import Verif.Model.Closing
/-! # C199: answers that are lost because of how the server closes a connection -/

namespace Httpd
open Spec

/-- Complete well-formed requests and a strict prefix of a further one: no service, whatever it does, is called more often than there are complete
requests. -/
theorem serveLoop_strict {K : Type} (c : Codec K) (lim : HttpLimits) (env : Nat → Env K) (q : WireReq) (qs : List WireReq)
    (hqw : q.WF lim.maxUrl lim.maxHeaderLine lim.maxHeadersCount)
    (hq : ∀ p ∈ qs, p.WF lim.maxUrl lim.maxHeaderLine lim.maxHeadersCount) (p z : Bytes) (hz : z ≠ []) (hp : p ++ z = q.encode)
    (fuel i : Nat) (req resp : Message K) (hb : req.head.Blank) (r : Reader) (hs : r.fin = .silent) (hr : r.flat = encodeAll qs ++ p) :
    (serveLoop c lim env fuel i req resp r).1.length ≤ qs.length := by
  induction qs generalizing fuel i req resp r with
  | nil =>
    cases fuel with
    | zero => simp [serveLoop]
    | succ fuel =>
      have hr' : r.flat ++ z = q.head.encode ++ q.body := by rw [hr]; simpa [encodeAll, WireReq.encode] using hp
      obtain ⟨hd', r', h1, _, _, _, hh, h2, _⟩ := C02_wellformed_head lim q.head hqw.head_wf req.head hb
        (Reader.ofBytes q.encode .eof) q.body (by simp [Reader.flat_ofBytes, WireReq.encode])
      have hx := readHead_extend lim z req.head r (Reader.ofBytes q.encode .eof) ⟨hs, by rw [Reader.flat_ofBytes, hr']; rfl⟩
      rw [h1] at hx
      cases hres : readHead lim req.head r with
      | error e => simp [serveLoop, hres]
      | ok w =>
        obtain ⟨hd2, r2⟩ := w
        rw [hres] at hx
        obtain ⟨e1, _, h3⟩ := hx
        subst e1
        have hlt : r2.flat.length < q.body.length := by
          have := List.length_pos_iff.mpr hz
          rw [← h2, h3, List.length_append]; omega
        simp only [serveLoop, hres]
        cases hbd : readConstLengthBody (env i).cap hd2.headers req.body r2 with
        | fail e => simp
        | panic => simp
        | hang => simp
        | done body r3 =>
          obtain ⟨n, g1, g2, _⟩ := readConstLengthBody_done (env i).cap_pos hbd
          rw [WF.content_length hqw hh] at g1
          cases g1
          omega
  | cons q1 qs ih =>
    cases fuel with
    | zero => simp [serveLoop]
    | succ fuel =>
      have hqw1 := hq q1 (by simp)
      obtain ⟨hd, r1, h1, f0, f1, f2, hh, h2, h3⟩ := C02_wellformed_head lim q1.head hqw1.head_wf req.head hb r
        (q1.body ++ (encodeAll qs ++ p)) (by rw [hr]; simp [encodeAll, WireReq.encode])
      simp only [serveLoop, h1]
      cases hbd : readConstLengthBody (env i).cap hd.headers req.body r1 with
      | fail e => simp
      | panic => simp
      | hang => simp
      | done body r2 =>
        obtain ⟨n, g1, g2, g3, g4, _⟩ := readConstLengthBody_done (env i).cap_pos hbd
        rw [WF.content_length hqw1 hh] at g1
        cases g1
        simp only
        cases (env i).http ⟨hd, body⟩ resp with
        | err => simp
        | panic => simp
        | ok p req2 resp2 =>
          simp only
          rcases encodeResponse c (env i).ord resp2 with ⟨resp3, _ | bytes⟩
          · simp
          · simp only
            cases (env i).write with
            | failAfter k s => simp
            | ok =>
              simp only
              split
              · have k1 := ih (fun q hq' => hq q (by simp [hq'])) fuel (i + 1) (req2.clear c) (resp3.clear c) (Head.blank_clear _) r2
                  (g4.trans (h3.trans hs)) (by rw [g3, h2]; simp)
                simpa using k1
              · simp
              · simp
              · simp

/-- The bytes of segments. -/
def segBytes (segs : List Seg) : Bytes := (segs.map Seg.bytes).flatten

theorem segBytes_append (a b : List Seg) : segBytes (a ++ b) = segBytes a ++ segBytes b := by simp [segBytes]

theorem segBytes_one (s : Seg) : segBytes [s] = s.bytes := by simp [segBytes]

theorem segBytes_ne {segs : List Seg} (h : segs ≠ []) : segBytes segs ≠ [] := by
  cases segs with
  | nil => exact absurd rfl h
  | cons s ss => simp [segBytes, Seg.bytes]

theorem segBytes_split (segs : List Seg) (n : Nat) : segBytes (segs.take n) ++ segBytes (segs.drop n) = segBytes segs := by
  rw [← segBytes_append, List.take_append_drop]

/-- What the server has done after `n` segments it has done, first, after more of them. -/
theorem serverAfter_mono {K : Type} (c : Codec K) (lim : HttpLimits) (env : Nat → Env K) (segs : List Seg) {n m : Nat} (h : n ≤ m) :
    ∃ more, (serverAfter c lim env segs m).1 = (serverAfter c lim env segs n).1 ++ more ∧
      ((serverAfter c lim env segs n).2 ≠ .waiting → more = [] ∧ (serverAfter c lim env segs m).2 = (serverAfter c lim env segs n).2) := by
  refine C98_online c lim env ⟨[], segs.take n, .silent⟩ ⟨[], segs.take m, .silent⟩ (segBytes ((segs.drop n).take (m - n))) rfl ?_
  simp only [Reader.flat, List.nil_append]
  rw [show ((segs.take n).map Seg.bytes).flatten = segBytes (segs.take n) from rfl, ← segBytes_append]
  have : segs.take m = segs.take n ++ (segs.drop n).take (m - n) := by
    rw [← List.take_add, Nat.add_sub_cancel' h]
  rw [this]; rfl

theorem serverAfter_take {K : Type} (c : Codec K) (lim : HttpLimits) (env : Nat → Env K) (segs : List Seg) (s : Seg) {n : Nat}
    (h : n ≤ segs.length) : serverAfter c lim env (segs ++ [s]) n = serverAfter c lim env segs n := by
  simp only [serverAfter, List.take_append_of_le_length h]

theorem writtenAfter_take {K : Type} (c : Codec K) (lim : HttpLimits) (env : Nat → Env K) (segs : List Seg) (s : Seg) {n : Nat}
    (h : n ≤ segs.length) : writtenAfter c lim env (segs ++ [s]) n = writtenAfter c lim env segs n := by
  simp only [writtenAfter, serverAfter_take c lim env segs s h]

/-! ## Everything lost -/

/-- Nothing is read after a reset. -/
theorem Link.reset_final {K : Type} {c : Codec K} {lim : HttpLimits} {env : Nat → Env K} {l l' : Link} (h : Link.Steps c lim env l l')
    (hr : l.phase = .reset) : l' = l := by
  induction h with
  | refl => rfl
  | @snoc l1 l2 a _ hs ih =>
    subst ih
    cases hs <;> simp_all

/-- **C199 is violated**: whenever the server, having read some segments, ends the connection, a client that has sent one more segment by then
can lose every byte of every answer: there is a run in which the server has written all its answers, none of them has been read, the connection
is reset, and nothing can be read any more. For every service. -/
theorem C199_reset_violated {K : Type} (c : Codec K) (lim : HttpLimits) (env : Nat → Env K) (segs : List Seg) (s : Seg)
    (hover : (serve c lim env ⟨[], segs, .silent⟩).2.over = true) :
    ∃ l : Link, Link.Steps c lim env Link.new l ∧ l.arrived = segs ++ [s] ∧ l.phase = .reset ∧ l.got = 0 ∧
      (serverAfter c lim env l.arrived l.fetched).1 = (serve c lim env ⟨[], segs, .silent⟩).1 ∧
      ∀ l', Link.Steps c lim env l l' → l'.got = 0 := by
  -- everything is sent first
  have sent : ∀ ss : List Seg, Link.Steps c lim env Link.new ⟨ss, 0, 0, .opened⟩ := by
    intro ss
    generalize hn : ss.length = n
    induction n generalizing ss with
    | zero => cases List.length_eq_zero_iff.mp hn; exact .refl _
    | succ n ih =>
      have hne : ss ≠ [] := by rintro rfl; simp at hn
      have h1 := ih ss.dropLast (by simp [hn])
      have h2 := Link.Steps.snoc h1 (.send _ (ss.getLast hne) rfl)
      simpa [List.dropLast_concat_getLast hne] using h2
  -- the server reads until it does not wait any more
  have hall : serverAfter c lim env (segs ++ [s]) segs.length = serve c lim env ⟨[], segs, .silent⟩ := by
    simp [serverAfter]
  have fetched : ∀ n, n ≤ segs.length → ∃ m, m ≤ segs.length ∧ Link.Steps c lim env Link.new ⟨segs ++ [s], m, 0, .opened⟩ ∧
      (m = n ∨ (serverAfter c lim env (segs ++ [s]) m).2 ≠ .waiting) := by
    intro n
    induction n with
    | zero => exact fun _ => ⟨0, by omega, sent _, Or.inl rfl⟩
    | succ n ih =>
      intro hn
      obtain ⟨m, h1, h2, h3⟩ := ih (by omega)
      rcases Classical.em ((serverAfter c lim env (segs ++ [s]) m).2 = .waiting) with hw | hw
      · rcases h3 with rfl | h3
        · exact ⟨m + 1, hn, .snoc h2 (.fetch _ rfl hw (by simp; omega)), Or.inl rfl⟩
        · exact absurd hw h3
      · exact ⟨m, h1, h2, Or.inr hw⟩
  obtain ⟨m, h1, h2, h3⟩ := fetched segs.length (Nat.le_refl _)
  have hm : serverAfter c lim env (segs ++ [s]) m = serve c lim env ⟨[], segs, .silent⟩ := by
    rcases h3 with rfl | h3
    · exact hall
    · obtain ⟨more, e1, e2⟩ := serverAfter_mono c lim env (segs ++ [s]) h1
      obtain ⟨rfl, e3⟩ := e2 h3
      rw [hall] at e1 e3
      exact Prod.ext (by rw [e1]; simp) e3.symm
  have hlt : m < (segs ++ [s]).length := by simp; omega
  have hstep := Link.Steps.snoc h2 (.close ⟨segs ++ [s], m, 0, .opened⟩ rfl (by rw [hm]; exact hover))
  simp only [hlt, ↓reduceIte] at hstep
  refine ⟨⟨segs ++ [s], m, 0, .reset⟩, hstep, rfl, rfl, rfl, by rw [hm], fun l' hl' => ?_⟩
  rw [Link.reset_final hl' rfl]

/-- The bytes of a request whose body is sent in chunks, the first chunk with it: a client that does nothing wrong. -/
def chunkedStart : Bytes := b!"POST /a HTTP/1.1\r\nTransfer-Encoding: chunked\r\n\r\n13\r\nHow are you?\r\nFine.\r\n"

/-- Non-trivial case: the server answers the request without its body, takes the chunk for the next request, refuses it and ends the connection; the
client sends the next chunk in the meantime. The answer that is lost says `ok`. -/
example : (serve noCodec sampleLimits (fun _ => sampleEnv) ⟨[], [⟨80, chunkedStart.tail⟩], .silent⟩).2.over = true ∧
    ((serve noCodec sampleLimits (fun _ => sampleEnv) ⟨[], [⟨80, chunkedStart.tail⟩], .silent⟩).1.map (fun e => e.written.drop 47)) =
      [b!"\r\nok"] := by decide +kernel

/-! ## One request at a time -/

/-- The runs of a client that sends the requests `qs` one at a time: it begins with the next one only when it has read the whole answer to the one
before. Within a request the segments are cut anywhere. The indices are the number of the current request and the part of it sent so far. -/
inductive PoliteRun {K : Type} (c : Codec K) (lim : HttpLimits) (env : Nat → Env K) (qs : List WireReq) : Nat → Bytes → Link → Prop
  | start : PoliteRun c lim env qs 0 [] Link.new
  | send {j : Nat} {p : Bytes} {l l' : Link} {q : WireReq} {s : Seg} : PoliteRun c lim env qs j p l → qs[j]? = some q →
      p ++ s.bytes <+: q.encode → Link.Step c lim env l (.send s) l' → PoliteRun c lim env qs j (p ++ s.bytes) l'
  | next {j : Nat} {p : Bytes} {l : Link} {q : WireReq} : PoliteRun c lim env qs j p l → qs[j]? = some q → p = q.encode →
      (serverAfter c lim env l.arrived l.fetched).1.length = j + 1 → l.got = (writtenAfter c lim env l.arrived l.fetched).length →
      PoliteRun c lim env qs (j + 1) [] l
  | other {j : Nat} {p : Bytes} {l l' : Link} {a : LinkAct} : PoliteRun c lim env qs j p l → (∀ s, a ≠ .send s) →
      Link.Step c lim env l a l' → PoliteRun c lim env qs j p l'

/-- What holds in the run of a client that sends one request at a time. -/
structure PoliteInv {K : Type} (c : Codec K) (lim : HttpLimits) (env : Nat → Env K) (qs : List WireReq) (j : Nat) (p : Bytes) (l : Link) : Prop where
  fetched : l.fetched ≤ l.arrived.length
  sent : l.phase ≠ .reset → segBytes l.arrived = encodeAll (qs.take j) ++ p
  within : p ≠ [] → ∃ q, qs[j]? = some q ∧ p <+: q.encode
  start : l.phase ≠ .reset → ∃ m, m ≤ l.arrived.length ∧ segBytes (l.arrived.take m) = encodeAll (qs.take j) ∧
    (serverAfter c lim env l.arrived m).1.length = j ∧ (writtenAfter c lim env l.arrived m).length ≤ l.got
  le : l.got ≤ (writtenAfter c lim env l.arrived l.fetched).length
  reset : l.phase = .reset → (writtenAfter c lim env l.arrived l.fetched).length ≤ l.got

theorem written_mono {K : Type} (c : Codec K) (lim : HttpLimits) (env : Nat → Env K) (segs : List Seg) {n m : Nat} (h : n ≤ m) :
    (writtenAfter c lim env segs n).length ≤ (writtenAfter c lim env segs m).length := by
  obtain ⟨more, e, _⟩ := serverAfter_mono c lim env segs h
  simp [writtenAfter, e]

/-- As long as the request under way is not complete at the server, all that the server has written has been read. -/
theorem PoliteInv.early {K : Type} {c : Codec K} {lim : HttpLimits} {env : Nat → Env K} {qs : List WireReq} {j : Nat} {p : Bytes} {l : Link}
    (hq : ∀ q ∈ qs, q.WF lim.maxUrl lim.maxHeaderLine lim.maxHeadersCount) (h : PoliteInv c lim env qs j p l) (hr : l.phase ≠ .reset)
    (n : Nat) (q : WireReq) (hj : qs[j]? = some q) (z : Bytes) (hz : z ≠ [])
    (he : ∃ y, segBytes (l.arrived.take n) ++ z ++ y = encodeAll (qs.take j) ++ q.encode) :
    (writtenAfter c lim env l.arrived n).length ≤ l.got := by
  obtain ⟨z, hz, he⟩ : ∃ z : Bytes, z ≠ [] ∧ segBytes (l.arrived.take n) ++ z = encodeAll (qs.take j) ++ q.encode := by
    obtain ⟨y, he⟩ := he
    exact ⟨z ++ y, by simp [hz], by rw [← List.append_assoc]; exact he⟩
  obtain ⟨m, m1, m2, m3, m4⟩ := h.start hr
  rcases Nat.le_total n m with hnm | hnm
  · exact Nat.le_trans (written_mono c lim env _ hnm) m4
  · obtain ⟨more, e, _⟩ := serverAfter_mono c lim env l.arrived hnm
    have hpre : segBytes (l.arrived.take n) = encodeAll (qs.take j) ++ segBytes ((l.arrived.drop m).take (n - m)) := by
      rw [← m2, ← segBytes_append, ← List.take_add, Nat.add_sub_cancel' hnm]
    rw [hpre, List.append_assoc] at he
    have he' := List.append_cancel_left he
    have hle := serveLoop_strict c lim env q (qs.take j) (hq q (List.mem_of_getElem? hj)) (fun x hx => hq x (List.mem_of_mem_take hx))
      (segBytes ((l.arrived.drop m).take (n - m))) z hz he'
      ((⟨[], l.arrived.take n, .silent⟩ : Reader).flat.length + 1) 0 Message.new Message.new Head.blank_new
      ⟨[], l.arrived.take n, .silent⟩ rfl (by simpa [Reader.flat, segBytes] using hpre)
    have hle' : (serverAfter c lim env l.arrived n).1.length ≤ j :=
      Nat.le_trans hle (by simp; omega)
    rw [e, List.length_append, m3] at hle'
    have hm : more = [] := List.length_eq_zero_iff.mp (by omega)
    subst hm
    simp only [writtenAfter, e, List.append_nil]
    exact m4

theorem PoliteRun.inv {K : Type} {c : Codec K} {lim : HttpLimits} {env : Nat → Env K} {qs : List WireReq}
    (hq : ∀ q ∈ qs, q.WF lim.maxUrl lim.maxHeaderLine lim.maxHeadersCount) {j : Nat} {p : Bytes} {l : Link}
    (h : PoliteRun c lim env qs j p l) : PoliteInv c lim env qs j p l := by
  induction h with
  | start =>
    have h0 : (serverAfter c lim env ([] : List Seg) 0).1 = [] := by
      have he := readHead_empty lim (Message.new : Message K).head ⟨[], [], .silent⟩ rfl
      simp [serverAfter, serve, serveLoop, he, Reader.flat]
    exact ⟨by simp [Link.new], fun _ => by simp [Link.new, segBytes, encodeAll], fun h => absurd rfl h,
      fun _ => ⟨0, by simp, by simp [segBytes, encodeAll], by simp [Link.new, h0], by simp [Link.new, writtenAfter, h0]⟩,
      by simp [Link.new], by simp [Link.new]⟩
  | @send j p l l' q s hrun hj hpre hs ih =>
    generalize ha : LinkAct.send s = a at hs
    cases hs with
    | send s' ho =>
      cases ha
      have hnr : l.phase ≠ .reset := by rw [ho]; simp
      obtain ⟨m, m1, m2, m3, m4⟩ := ih.start hnr
      refine ⟨by have := ih.fetched; simp; omega, fun _ => ?_, fun _ => ⟨q, hj, hpre⟩, fun _ => ⟨m, by simp; omega, ?_, ?_, ?_⟩, ?_, fun h => absurd h hnr⟩
      · simp only; rw [segBytes_append, ih.sent hnr, segBytes_one, List.append_assoc]
      · simp only; rw [List.take_append_of_le_length m1]; exact m2
      · simp only; rw [serverAfter_take _ _ _ _ _ m1]; exact m3
      · simp only; rw [writtenAfter_take _ _ _ _ _ m1]; exact m4
      · simp only; rw [writtenAfter_take _ _ _ _ _ ih.fetched]; exact ih.le
    | sendLate s' ho =>
      cases ha
      have hnr : l.phase ≠ .reset := by rw [ho]; simp
      refine ⟨ih.fetched, fun h => absurd rfl h, fun _ => ⟨q, hj, hpre⟩, fun h => absurd rfl h, ih.le, fun _ => ?_⟩
      obtain ⟨y, hy⟩ := hpre
      refine ih.early hq hnr l.fetched q hj (segBytes (l.arrived.drop l.fetched) ++ s.bytes) (by simp [Seg.bytes]) ⟨y, ?_⟩
      rw [← List.append_assoc, segBytes_split, ih.sent hnr, ← hy]
      simp [List.append_assoc]
    | fetch _ _ _ => cases ha
    | read k _ _ => cases ha
    | close _ _ => cases ha
  | @next j p l q hrun hj hp hlen hgot ih =>
    refine ⟨ih.fetched, fun hr => ?_, fun h => absurd rfl h, fun hr => ⟨l.arrived.length, Nat.le_refl _, ?_, ?_, ?_⟩, ih.le, fun _ => Nat.le_of_eq hgot.symm⟩
    all_goals
      have htake : encodeAll (qs.take (j + 1)) = encodeAll (qs.take j) ++ q.encode := by
        obtain ⟨hl, e⟩ := List.getElem?_eq_some_iff.mp hj
        rw [List.take_add_one, hj]
        simp [encodeAll]
      have hsent := ih.sent hr
      rw [hp, ← htake] at hsent
    · rw [List.append_nil]; exact hsent
    · rw [List.take_length]; exact hsent
    all_goals
      obtain ⟨more, e, _⟩ := serverAfter_mono c lim env l.arrived ih.fetched
      have hle := (C23_prefix c lim env (qs.take (j + 1)) (fun x hx => hq x (List.mem_of_mem_take hx)) ⟨[], l.arrived, .silent⟩
        (by simpa [Reader.flat, segBytes] using hsent)).1
      have hle' : (serverAfter c lim env l.arrived l.arrived.length).1.length ≤ j + 1 := by
        have : (serverAfter c lim env l.arrived l.arrived.length).1 = (serve c lim env ⟨[], l.arrived, .silent⟩).1 := by
          simp [serverAfter]
        rw [this]
        exact Nat.le_trans hle (by simp; omega)
      rw [e, List.length_append, hlen] at hle'
      have hm : more = [] := List.length_eq_zero_iff.mp (by omega)
      subst hm
      rw [List.append_nil] at e
    · rw [e]; exact hlen
    · simp only [writtenAfter, e] at hgot ⊢
      exact Nat.le_of_eq hgot.symm
  | @other j p l l' a hrun hna hs ih =>
    cases hs with
    | send s ho => exact absurd rfl (hna s)
    | sendLate s ho => exact absurd rfl (hna s)
    | fetch ho hw hlt =>
      have hnr : l.phase ≠ .reset := by rw [ho]; simp
      exact ⟨by simp only; omega, fun _ => ih.sent hnr, ih.within, fun _ => ih.start hnr,
        Nat.le_trans ih.le (written_mono c lim env _ (by simp)), fun h => absurd h hnr⟩
    | read k hnr hle =>
      refine ⟨ih.fetched, fun _ => ih.sent hnr, ih.within, fun _ => ?_, hle, fun h => absurd h hnr⟩
      obtain ⟨m, m1, m2, m3, m4⟩ := ih.start hnr
      exact ⟨m, m1, m2, m3, by simp only; omega⟩
    | close ho hover =>
      have hnr : l.phase ≠ .reset := by rw [ho]; simp
      refine ⟨ih.fetched, fun _ => ih.sent hnr, ih.within, fun _ => ih.start hnr, ih.le, fun h => ?_⟩
      simp only at h ⊢
      split at h
      · next hlt =>
        have hdrop : l.arrived.drop l.fetched ≠ [] := by
          intro h0
          have := congrArg List.length h0
          simp at this
          omega
        have hsent := ih.sent hnr
        obtain ⟨m, m1, m2, m3, m4⟩ := ih.start hnr
        rcases Classical.em (p = []) with rfl | hpn
        · -- nothing of the request under way has been sent
          rw [List.append_nil] at hsent
          rcases Nat.le_total l.fetched m with hfm | hfm
          · exact Nat.le_trans (written_mono c lim env _ hfm) m4
          · -- the segments after the first `m` would be empty
            have h1 : segBytes (l.arrived.drop m) = [] := by
              have h2 := segBytes_split l.arrived m
              rw [m2, hsent] at h2
              have := congrArg List.length h2
              rw [List.length_append] at this
              exact List.length_eq_zero_iff.mp (by omega)
            have h3 : l.arrived.drop m = [] := Classical.byContradiction fun hc => segBytes_ne hc h1
            have h4 := congrArg List.length h3
            simp at h4
            omega
        · obtain ⟨q, hj, y, hy⟩ := ih.within hpn
          refine ih.early hq hnr l.fetched q hj (segBytes (l.arrived.drop l.fetched)) (segBytes_ne hdrop) ⟨y, ?_⟩
          rw [segBytes_split, hsent, ← hy, List.append_assoc]
      · cases h

/-- **C199 (partial).** A client that sends well-formed requests one at a time, each only after it has read the whole answer to the one before, can
read every byte the server ever writes for it, whatever the service does, however the requests are cut into segments and whenever the server
closes the connection: if there is a reset, everything written has been read, and without one everything written can still be read. Missing:
clients that send more before they have read the answer, `C199_reset_violated`. -/
theorem C199_polite_partial {K : Type} (c : Codec K) (lim : HttpLimits) (env : Nat → Env K) (qs : List WireReq)
    (hq : ∀ q ∈ qs, q.WF lim.maxUrl lim.maxHeaderLine lim.maxHeadersCount) (j : Nat) (p : Bytes) (l : Link)
    (h : PoliteRun c lim env qs j p l) :
    (l.phase = .reset → l.got = (writtenAfter c lim env l.arrived l.fetched).length) ∧
    ∃ l' : Link, PoliteRun c lim env qs j p l' ∧ l'.arrived = l.arrived ∧ l'.fetched = l.fetched ∧ l'.phase = l.phase ∧
      l'.got = (writtenAfter c lim env l.arrived l.fetched).length := by
  have hi := h.inv hq
  have h1 : l.phase = .reset → l.got = (writtenAfter c lim env l.arrived l.fetched).length :=
    fun hr => Nat.le_antisymm hi.le (hi.reset hr)
  refine ⟨h1, ?_⟩
  rcases Classical.em (l.phase = .reset) with hr | hr
  · exact ⟨l, h, rfl, rfl, rfl, h1 hr⟩
  · have hle := hi.le
    refine ⟨_, .other h (a := .read ((writtenAfter c lim env l.arrived l.fetched).length - l.got)) (fun s hs => by cases hs)
      (.read l _ hr (by omega)), rfl, rfl, rfl, ?_⟩
    simp only
    omega

/-- Non-trivial case: a service that closes after its first answer; the client has sent the one request in one segment, the server has read and
answered it and closed, and the client reads the answer after that. -/
example : ∃ l, PoliteRun noCodec sampleLimits (fun _ => { sampleEnv with http := fun q p => .ok (.current false) q p }) [sampleReq] 0
    sampleReq.encode l ∧ l.phase = .fin ∧ 0 < l.got := by
  have hseg : (⟨sampleReq.encode.head (by decide +kernel), sampleReq.encode.tail⟩ : Seg).bytes = sampleReq.encode := by decide +kernel
  have h1 := PoliteRun.send (.start (c := noCodec) (lim := sampleLimits)
    (env := fun _ => { sampleEnv with http := fun q p => .ok (.current false) q p }) (qs := [sampleReq])) (q := sampleReq) rfl
    (s := ⟨sampleReq.encode.head (by decide +kernel), sampleReq.encode.tail⟩) (by rw [hseg]; exact ⟨[], by simp⟩) (.send _ _ rfl)
  rw [hseg, List.nil_append] at h1
  have h2 := PoliteRun.other h1 (fun s h => by cases h) (.fetch _ rfl (by decide +kernel) (by decide +kernel))
  have h3 := PoliteRun.other h2 (fun s h => by cases h) (.close _ rfl (by decide +kernel))
  have h4 := PoliteRun.other h3 (fun s h => by cases h) (.read _ 10 (by decide +kernel) (by decide +kernel))
  exact ⟨_, h4, by decide +kernel, by decide +kernel⟩

/-! ## What has been read stays what it was -/

theorem written_prefix {K : Type} (c : Codec K) (lim : HttpLimits) (env : Nat → Env K) (segs : List Seg) {n m : Nat} (h : n ≤ m) :
    writtenAfter c lim env segs n <+: writtenAfter c lim env segs m := by
  obtain ⟨more, e, _⟩ := serverAfter_mono c lim env segs h
  simp [writtenAfter, e]

/-- What holds of every connection. -/
theorem Link.sound {K : Type} {c : Codec K} {lim : HttpLimits} {env : Nat → Env K} {l : Link} (h : Link.Steps c lim env Link.new l) :
    l.fetched ≤ l.arrived.length ∧ l.got ≤ (writtenAfter c lim env l.arrived l.fetched).length := by
  induction h with
  | refl => exact ⟨Nat.le_refl _, Nat.zero_le _⟩
  | @snoc l1 l2 a _ hs ih =>
    cases hs with
    | send s hp => exact ⟨by simp only [List.length_append]; omega, by simp only [writtenAfter_take c lim env _ s ih.1]; exact ih.2⟩
    | sendLate s hp => exact ih
    | fetch hp hw hl => exact ⟨hl, Nat.le_trans ih.2 (written_mono c lim env _ (Nat.le_succ _))⟩
    | read k hp hk => exact ⟨ih.1, hk⟩
    | close hp ho => exact ih

/-- **C199**, about every client: what it has read at any time is the beginning of the answers to what it has sent, in the order of the requests, and stays
the beginning of what it has read later. -/
theorem C199_in_order {K : Type} (c : Codec K) (lim : HttpLimits) (env : Nat → Env K) (l l' : Link) (h : Link.Steps c lim env Link.new l)
    (h' : Link.Steps c lim env l l') :
    (writtenAfter c lim env l.arrived l.fetched).take l.got <+: (writtenAfter c lim env l'.arrived l'.fetched).take l'.got ∧
    (writtenAfter c lim env l'.arrived l'.fetched).take l'.got <+: ((serve c lim env ⟨[], l'.arrived, .silent⟩).1.map (·.written)).flatten := by
  have trans : ∀ {l1}, Link.Steps c lim env l l1 → Link.Steps c lim env Link.new l1 := by
    intro l1 h1
    induction h1 with
    | refl => exact h
    | snoc _ hs ih => exact .snoc ih hs
  constructor
  · induction h' with
    | refl => exact List.prefix_refl _
    | @snoc l1 l2 a h1 hs ih =>
      obtain ⟨i1, i2⟩ := Link.sound (trans h1)
      refine ih.trans ?_
      cases hs with
      | send s hp => simp only [writtenAfter_take c lim env _ s i1]; exact List.prefix_refl _
      | sendLate s hp => exact List.prefix_refl _
      | fetch hp hw hl =>
        obtain ⟨z, hz⟩ := written_prefix c lim env l1.arrived (Nat.le_succ l1.fetched)
        simp only [Nat.succ_eq_add_one] at hz
        simp only [← hz, List.take_append_of_le_length i2]
        exact List.prefix_refl _
      | read k hp hk => exact List.take_prefix_take_left (Nat.le_add_right _ _)
      | close hp ho => exact List.prefix_refl _
  · obtain ⟨i1, _⟩ := Link.sound (trans h')
    refine (List.take_prefix _ _).trans ?_
    have := written_prefix c lim env l'.arrived i1
    simpa [writtenAfter, serverAfter] using this

/-- Two requests are answered; the client reads 10 bytes after the first answer is there, and 15 more after the second. -/
example : ∃ l l', Link.Steps noCodec sampleLimits (fun _ => sampleEnv) Link.new l ∧ Link.Steps noCodec sampleLimits (fun _ => sampleEnv) l l' ∧
    l.got = 10 ∧ 10 < l'.got ∧ (serverAfter noCodec sampleLimits (fun _ => sampleEnv) l'.arrived l'.fetched).1.length = 2 := by
  have h1 := Link.Steps.snoc (.refl Link.new) (.send (c := noCodec) (lim := sampleLimits) (env := fun _ => sampleEnv) Link.new
    ⟨sampleReq.encode.head (by decide +kernel), sampleReq.encode.tail⟩ rfl)
  have h2 := h1.snoc (.send _ ⟨sampleReq.encode.head (by decide +kernel), sampleReq.encode.tail⟩ rfl)
  have h3 := h2.snoc (.fetch _ rfl (by decide +kernel) (by decide +kernel))
  have h4 := h3.snoc (.read _ 10 (by decide +kernel) (by decide +kernel))
  refine ⟨_, _, h4, ((Link.Steps.refl _).snoc (.fetch _ rfl ?_ ?_)).snoc (.read _ 15 ?_ ?_), rfl, ?_, ?_⟩ <;> decide +kernel

end Httpd
