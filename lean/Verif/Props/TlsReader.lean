import Verif.Spec.TlsReader
import Verif.Props.TlsWriter
import Verif.Props.Online
import Verif.Props.Grammar
import Verif.Props.Turns
/-! # C236, C237, C238: requests over TLS -/

namespace Httpd
open Spec

/-! ## Cutting plaintext -/

theorem cutChunk_bytes (cap : Nat) : ∀ (fuel : Nat) (b : Bytes), b.length ≤ fuel → ((cutChunk cap fuel b).map Seg.bytes).flatten = b := by
  intro fuel
  induction fuel with
  | zero => intro b h; cases b with | nil => rfl | cons _ _ => simp at h
  | succ fuel ih =>
    intro b h
    cases b with
    | nil => rfl
    | cons x xs =>
      simp only [cutChunk, List.map_cons, List.flatten_cons, Seg.bytes, List.cons_append]
      rw [ih _ (by simp at h ⊢; omega), List.take_append_drop]

theorem cutChunks_bytes (cap : Nat) (cs : List Bytes) : ((cutChunks cap cs).map Seg.bytes).flatten = cs.flatten := by
  induction cs with
  | nil => rfl
  | cons d cs ih =>
    simp only [cutChunks, List.map_cons, List.flatten_cons, List.map_append, List.flatten_append] at ih ⊢
    rw [cutChunk_bytes cap d.length d (Nat.le_refl _), ih]

/-- The bytes of what the reads return. -/
def readBytes (x : List Seg × StreamEnd) : Bytes := (x.1.map Seg.bytes).flatten

theorem tlsReader_flat (o : TlsOpener) (cap : Nat) (segs : List Seg) (fin : StreamEnd) :
    (tlsReader o cap segs fin).flat = readBytes (o.reads cap fin 0 [] segs) := by simp [tlsReader, Reader.flat, readBytes]

/-! ## Whatever arrives -/

/-- What opening records from the one with number `k` on can come to. -/
def GotSome (sent : List TlsRecord) (k : Nat) : TlsGot → Prop
  | .bad => True
  | .closed cs => cs.flatten = spoken (sent.drop k) ∧ .closeNotify ∈ sent.drop k
  | .ready k' _ cs => k ≤ k' ∧ spoken (sent.drop k) = cs.flatten ++ spoken (sent.drop k') ∧ (TlsRecord.closeNotify ∈ sent.drop k' → .closeNotify ∈ sent.drop k)

theorem drop_get {α : Type} {l : List α} {k : Nat} {a : α} (h : l[k]? = some a) : l.drop k = a :: l.drop (k + 1) := by
  obtain ⟨hk, rfl⟩ := List.getElem?_eq_some_iff.1 h
  exact List.drop_eq_getElem_cons hk

theorem process_some {layer : RecordLayer} {sent : List TlsRecord} {o : TlsOpener} (ha : Authentic layer sent o) : ∀ (fuel k : Nat) (b : Bytes),
    GotSome sent k (o.process fuel k b) := by
  intro fuel
  induction fuel with
  | zero => intro k b; exact ⟨Nat.le_refl _, rfl, id⟩
  | succ fuel ih =>
    intro k b
    simp only [TlsOpener.process]
    split
    · exact ⟨Nat.le_refl _, rfl, id⟩
    · cases hn : o.next k b with
      | more => exact ⟨Nat.le_refl _, rfl, id⟩
      | bad => trivial
      | record r rest =>
        obtain ⟨h1, _⟩ := ha k b r rest hn
        have hd := drop_get h1
        cases r with
        | closeNotify => exact ⟨by rw [hd]; rfl, by rw [hd]; simp⟩
        | data d =>
          have hi := ih (k + 1) rest
          simp only
          cases hp : o.process fuel (k + 1) rest with
          | bad => trivial
          | closed cs =>
            rw [hp] at hi
            obtain ⟨g1, g2⟩ := hi
            exact ⟨by rw [hd]; simp [spoken, beforeGoodbye, carried, g1], by rw [hd]; exact List.mem_cons_of_mem _ g2⟩
          | ready k' b' cs =>
            rw [hp] at hi
            obtain ⟨g1, g2, g3⟩ := hi
            refine ⟨by omega, ?_, fun h => by rw [hd]; exact List.mem_cons_of_mem _ (g3 h)⟩
            rw [hd]
            simp only [spoken, beforeGoodbye, carried, List.flatten_cons, List.append_assoc] at g2 ⊢
            rw [g2]

theorem reads_some {layer : RecordLayer} {sent : List TlsRecord} {o : TlsOpener} (ha : Authentic layer sent o) (cap : Nat) (fin : StreamEnd) :
    ∀ (segs : List Seg) (k : Nat) (pend : Bytes), readBytes (o.reads cap fin k pend segs) <+: spoken (sent.drop k) ∧
      ((o.reads cap fin k pend segs).2 = .eof → readBytes (o.reads cap fin k pend segs) = spoken (sent.drop k) ∧ .closeNotify ∈ sent.drop k) := by
  intro segs
  induction segs with
  | nil => intro k pend; exact ⟨List.nil_prefix, fun h => by cases fin <;> cases h⟩
  | cons s segs ih =>
    intro k pend
    have hp := process_some ha (pend ++ s.bytes).length k (pend ++ s.bytes)
    simp only [TlsOpener.reads]
    cases hg : o.process (pend ++ s.bytes).length k (pend ++ s.bytes) with
    | bad => exact ⟨List.nil_prefix, fun h => by cases h⟩
    | closed cs =>
      rw [hg] at hp
      obtain ⟨h1, h2⟩ := hp
      have : readBytes (cutChunks cap cs, StreamEnd.eof) = spoken (sent.drop k) := by rw [readBytes, cutChunks_bytes, h1]
      exact ⟨by rw [this]; exact List.prefix_rfl, fun _ => ⟨this, h2⟩⟩
    | ready k' pend' cs =>
      rw [hg] at hp
      obtain ⟨_, h1, h2⟩ := hp
      obtain ⟨i1, i2⟩ := ih k' pend'
      have : readBytes (cutChunks cap cs ++ (o.reads cap fin k' pend' segs).1, (o.reads cap fin k' pend' segs).2) =
          cs.flatten ++ readBytes (o.reads cap fin k' pend' segs) := by
        simp only [readBytes, List.map_append, List.flatten_append, cutChunks_bytes]
      simp only
      refine ⟨by rw [this, h1]; exact (List.prefix_append_right_inj _).2 i1, fun h => ?_⟩
      obtain ⟨j1, j2⟩ := i2 h
      exact ⟨by rw [this, h1, j1], h2 j2⟩

/-- **C236.** Whatever bytes arrive in place of those of the client - changed, left out, repeated, in another order, broken off, in any portions: what the server reads is a beginning of
what the client said, and the server sees an end of it only if the client itself ended there, after everything it said. -/
theorem C236_beginning (layer : RecordLayer) (sent : List TlsRecord) (o : TlsOpener) (ha : Authentic layer sent o) (cap : Nat) (segs : List Seg) (fin : StreamEnd) :
    (tlsReader o cap segs fin).flat <+: spoken sent ∧
      ((tlsReader o cap segs fin).fin = .eof → (tlsReader o cap segs fin).flat = spoken sent ∧ .closeNotify ∈ sent) := by
  rw [tlsReader_flat]
  exact reads_some ha cap fin segs 0 []

/-! ## What is read without an end does not depend on what follows -/

/-- As long as the stream has not come to an end, it does not matter whether it is broken or silent. -/
theorem readHead_broken (lim : HttpLimits) (hd : Head) (hb : hd.NoStart) (r r' : Reader) (hs : r.fin = .silent) (he : r'.fin = .err) (hf : r'.flat = r.flat)
    (hw : readHead lim hd r = .error .waiting) : ∃ e, readHead lim hd r' = .error e ∧ e ≠ .waiting := by
  cases h : readHead lim hd r' with
  | error e =>
    refine ⟨e, rfl, ?_⟩
    rintro rfl
    rw [readHead_waiting h] at he
    cases he
  | ok x =>
    obtain ⟨hd', q⟩ := x
    obtain ⟨fs, h1, _, _⟩ := readHead_headText lim hd hd' hb r' q h
    obtain ⟨r2, h2, _, _⟩ := headText_readHead lim _ _ _ _ _ _ _ h1 hd hb r hf.symm (by rw [Reader.closed, Reader.closed, hs, he]; rfl)
    rw [hw] at h2
    cases h2

theorem readBody_broken {K : Type} (cap : Nat) (hc : 1 ≤ cap) (hs : MultiMap) (b : Body K) (r r' : Reader) (he : r'.fin = .err) (hf : r'.flat = r.flat)
    (hr : r.fin = .silent) (hw : readConstLengthBody cap hs b r = .fail .waiting) : ∃ e, readConstLengthBody cap hs b r' = .fail e := by
  unfold readConstLengthBody at hw ⊢
  cases hn : getContentLength hs with
  | none => exact ⟨_, rfl⟩
  | some n =>
    rw [hn] at hw
    simp only at hw ⊢
    cases hb : b.internal with
    | none =>
      rw [readConst_nobuf _ _ _ _ hb] at hw ⊢
      rw [hf, he]
      split at hw
      · cases hw
      · rename_i h1
        split at hw
        · rename_i h2
          rw [if_neg h1, if_pos ⟨h2.1, by simp⟩]
          exact ⟨_, rfl⟩
        · cases hw
    | some y =>
      rcases readConst_raw cap n b y r hc hb with ⟨g1, q, g2, _⟩ | ⟨g1, g2, g3⟩ | ⟨g1, g2, g3⟩
      · rw [g2] at hw; cases hw
      · rcases readConst_raw cap n b y r' hc hb with ⟨g1', _⟩ | ⟨_, _, g3'⟩ | ⟨_, g2', _⟩
        · rw [hf] at g1'; omega
        · exact ⟨_, g3'⟩
        · rw [he] at g2'; cases g2'
      · rw [hr] at g2; cases g2

/-- A connection that breaks off has come to what it would have come to if the client had fallen silent. -/
theorem serveLoop_broken {K : Type} (c : Codec K) (lim : HttpLimits) (env : Nat → Env K) : ∀ (fuel i : Nat) (req resp : Message K) (r r' : Reader),
    req.head.NoStart → r.Ext [] r' → r'.fin = .err → (serveLoop c lim env fuel i req resp r').1 = (serveLoop c lim env fuel i req resp r).1 := by
  intro fuel
  induction fuel with
  | zero => intros; rfl
  | succ fuel ih =>
    intro i req resp r r' hns h he
    have hflat : r'.flat = r.flat := by rw [h.2, List.append_nil]
    have hh := readHead_extend lim [] req.head r r' h
    simp only [serveLoop]
    cases h1 : readHead lim req.head r with
    | error e =>
      rw [h1] at hh
      rcases hh with rfl | hh
      · obtain ⟨e', h2, _⟩ := readHead_broken lim req.head hns r r' h.1 he hflat h1
        rw [h2]
      · rw [hh]
    | ok y =>
      obtain ⟨hd, r1⟩ := y
      cases h2 : readHead lim req.head r' with
      | error e => rw [h1, h2] at hh; exact hh.elim
      | ok y' =>
        obtain ⟨hd', r1'⟩ := y'
        rw [h1, h2] at hh
        obtain ⟨rfl, hx⟩ := hh
        have hfin1 : r1'.fin = .err := by rw [(readHead_headText lim _ _ hns _ _ h2).choose_spec.2.2, he]
        have hflat1 : r1'.flat = r1.flat := by rw [hx.2, List.append_nil]
        simp only
        have hbx := readConstLengthBody_extend (env i).cap hd.headers req.body [] r1 r1' hx (env i).cap_pos
        cases h3 : readConstLengthBody (env i).cap hd.headers req.body r1 with
        | fail e =>
          rw [h3] at hbx
          rcases hbx with rfl | hbx
          · obtain ⟨e', h4⟩ := readBody_broken (env i).cap (env i).cap_pos hd.headers req.body r1 r1' hfin1 hflat1 hx.1 h3
            rw [h4]
          · rw [hbx]
        | panic =>
          rw [h3] at hbx
          cases h4 : readConstLengthBody (env i).cap hd.headers req.body r1' with
          | panic => rfl
          | fail e => rfl
          | hang => rfl
          | done b q => rw [h4] at hbx; exact hbx.elim
        | hang => rw [h3] at hbx; cases h4 : readConstLengthBody (env i).cap hd.headers req.body r1' <;> rw [h4] at hbx <;> exact hbx.elim
        | done body r2 =>
          cases h4 : readConstLengthBody (env i).cap hd.headers req.body r1' with
          | panic => rw [h3, h4] at hbx; exact hbx.elim
          | fail e => rw [h3, h4] at hbx; exact hbx.elim
          | hang => rw [h3, h4] at hbx; exact hbx.elim
          | done body' r2' =>
            rw [h3, h4] at hbx
            obtain ⟨rfl, he2⟩ := hbx
            obtain ⟨n, _, _, _, hr2, _⟩ := readConstLengthBody_done (env i).cap_pos h4
            simp only
            cases h5 : (env i).http { head := hd, body := body } resp with
            | err => rfl
            | panic => rfl
            | ok p req2 resp2 =>
              simp only
              cases h6 : encodeResponse c (env i).ord resp2 with
              | mk resp3 ob =>
                cases ob with
                | none => rfl
                | some bytes =>
                  simp only
                  cases (env i).write with
                  | failAfter k s' => rfl
                  | ok =>
                    cases p with
                    | webSocket => rfl
                    | http2 => rfl
                    | current ka =>
                      cases ka with
                      | false => rfl
                      | true =>
                        simp only
                        rw [ih (i + 1) (req2.clear c) (resp3.clear c) r2 r2' ⟨rfl, rfl, rfl⟩ he2 (by rw [hr2, hfin1])]

/-- What the server has done when a stream has broken off or fallen silent, it has also done, first, when the stream goes on in any way. -/
theorem serve_prefix {K : Type} (c : Codec K) (lim : HttpLimits) (env : Nat → Env K) (r r' : Reader) (hf : r.fin ≠ .eof) (hp : r.flat <+: r'.flat) :
    (serve c lim env r).1 <+: (serve c lim env r').1 := by
  obtain ⟨x, hx⟩ := hp
  have hs : (serve c lim env r).1 = (serve c lim env (Reader.ofBytes r.flat .silent)).1 := by
    cases hfin : r.fin with
    | eof => exact absurd hfin hf
    | silent => rw [C01_segmentation c lim env env (fun _ => ⟨rfl, rfl, rfl⟩) r (Reader.ofBytes r.flat .silent) (Reader.flat_ofBytes _ _).symm hfin]
    | err =>
      have := serveLoop_broken c lim env (r.flat.length + 1) 0 Message.new Message.new (Reader.ofBytes r.flat .silent) r ⟨rfl, rfl, rfl⟩
        ⟨rfl, by rw [Reader.flat_ofBytes, List.append_nil]⟩ hfin
      rw [serve, serve, Reader.flat_ofBytes]
      exact this
  rw [hs]
  obtain ⟨more, h1, _⟩ := C98_online c lim env (Reader.ofBytes r.flat .silent) r' x rfl (by rw [Reader.flat_ofBytes, hx])
  exact ⟨more, h1.symm⟩

/-- **C236**, requests. Whatever arrives in place of the bytes of the client: the requests that are handed to the service, with the bodies, and the answers to them are the first ones of
those of the connection on which everything arrives that the client said. -/
theorem C236_requests {K : Type} (c : Codec K) (lim : HttpLimits) (env : Nat → Env K) (layer : RecordLayer) (sent : List TlsRecord) (o : TlsOpener)
    (ha : Authentic layer sent o) (cap : Nat) (segs : List Seg) (fin : StreamEnd) (r : Reader) (hr : r.flat = spoken sent) (hg : .closeNotify ∈ sent → r.fin = .eof) :
    (serve c lim env (tlsReader o cap segs fin)).1 <+: (serve c lim env r).1 := by
  obtain ⟨h1, h2⟩ := C236_beginning layer sent o ha cap segs fin
  by_cases he : (tlsReader o cap segs fin).fin = .eof
  · obtain ⟨h3, h4⟩ := h2 he
    rw [C01_segmentation c lim env env (fun _ => ⟨rfl, rfl, rfl⟩) (tlsReader o cap segs fin) r (by rw [h3, hr]) (by rw [he, hg h4])]
    exact List.prefix_rfl
  · exact serve_prefix c lim env _ r he (by rw [hr]; exact h1)

/-! ## What the client sent arrives -/

theorem beforeGoodbye_append (a b : List TlsRecord) : beforeGoodbye (a ++ b) = if .closeNotify ∈ a then beforeGoodbye a else a ++ beforeGoodbye b := by
  induction a with
  | nil => simp
  | cons r a ih =>
    cases r with
    | closeNotify => simp [beforeGoodbye]
    | data d =>
      simp only [List.cons_append, beforeGoodbye, ih, List.mem_cons, reduceCtorEq, false_or]
      split <;> rfl

theorem beforeGoodbye_self {a : List TlsRecord} (h : .closeNotify ∉ a) : beforeGoodbye a = a := by
  have := beforeGoodbye_append a []
  simpa [h, beforeGoodbye] using this

theorem spoken_append (a b : List TlsRecord) : spoken (a ++ b) = if .closeNotify ∈ a then spoken a else carried a ++ spoken b := by
  simp only [spoken, beforeGoodbye_append]
  split
  · rfl
  · rw [carried_append]

theorem opened_nil (layer : RecordLayer) (k : Nat) : Opened layer k [] [] := .rest _ _ fun r h => layer.nonempty k r (List.prefix_nil.1 h)

theorem process_honest {layer : RecordLayer} {sent : List TlsRecord} {o : TlsOpener} (ho : Opens layer sent o) : ∀ (fuel k : Nat) (b : Bytes),
    b.length ≤ fuel → b <+: sealedFrom layer k (sent.drop k) →
    (∃ rs cs, rs <+: sent.drop k ∧ sealedFrom layer k rs <+: b ∧ o.process fuel k b = .closed cs ∧ .closeNotify ∈ rs ∧ cs.flatten = spoken rs) ∨
    (∃ rs cs b', rs <+: sent.drop k ∧ b = sealedFrom layer k rs ++ b' ∧ o.process fuel k b = .ready (k + rs.length) b' cs ∧ .closeNotify ∉ rs ∧ cs.flatten = carried rs ∧
      Opened layer (k + rs.length) b' []) := by
  intro fuel
  induction fuel with
  | zero =>
    intro k b hl hb
    have : b = [] := List.length_eq_zero_iff.1 (by omega)
    subst this
    exact Or.inr ⟨[], [], [], List.nil_prefix, rfl, rfl, by simp, rfl, opened_nil layer k⟩
  | succ fuel ih =>
    intro k b hl hb
    by_cases hne : b = []
    · subst hne
      exact Or.inr ⟨[], [], [], List.nil_prefix, rfl, by simp [TlsOpener.process], by simp, rfl, opened_nil layer k⟩
    · simp only [TlsOpener.process, if_neg hne]
      cases hd : sent[k]? with
      | none =>
        rw [List.drop_eq_nil_of_le (by simpa using hd)] at hb
        exact absurd (List.prefix_nil.1 hb) hne
      | some r =>
        have hdrop := drop_get hd
        rw [hdrop, sealedFrom] at hb
        by_cases hp : layer.crypt k r <+: b
        · obtain ⟨rest, rfl⟩ := hp
          have hrest := (List.prefix_append_right_inj _).1 hb
          rw [ho.whole k r rest hd]
          have hlen : 0 < (layer.crypt k r).length := List.length_pos_iff.2 (layer.nonempty k r)
          cases r with
          | closeNotify =>
            exact Or.inl ⟨[.closeNotify], [], by rw [hdrop]; exact List.cons_prefix_cons.2 ⟨rfl, List.nil_prefix⟩, by simp [sealedFrom], rfl, by simp, rfl⟩
          | data d =>
            rcases ih (k + 1) rest (by simp at hl; omega) hrest with ⟨rs, cs, h1, h2, h3, h4, h5⟩ | ⟨rs, cs, b', h1, h2, h3, h4, h5, h6⟩
            · refine Or.inl ⟨.data d :: rs, d :: cs, by rw [hdrop]; exact List.cons_prefix_cons.2 ⟨rfl, h1⟩, ?_, by simp only [h3], List.mem_cons_of_mem _ h4, ?_⟩
              · rw [sealedFrom]; exact (List.prefix_append_right_inj _).2 h2
              · simp only [List.flatten_cons, h5, spoken, beforeGoodbye, carried]
            · refine Or.inr ⟨.data d :: rs, d :: cs, b', by rw [hdrop]; exact List.cons_prefix_cons.2 ⟨rfl, h1⟩, ?_, ?_, by simpa using h4, ?_, ?_⟩
              · rw [sealedFrom, List.append_assoc, ← h2]
              · simp only [h3, List.length_cons]
                rw [show k + 1 + rs.length = k + (rs.length + 1) by omega]
              · simp only [List.flatten_cons, h5, carried]
              · rw [List.length_cons, show k + (rs.length + 1) = k + 1 + rs.length by omega]; exact h6
        · have hpart : b <+: layer.crypt k r := by
            rcases List.prefix_or_prefix_of_prefix hb (List.prefix_append (layer.crypt k r) _) with h | h
            · exact h
            · exact absurd h hp
          rw [ho.part k r b hd hpart (fun h => hp (h ▸ List.prefix_rfl)) hne]
          refine Or.inr ⟨[], [], b, List.nil_prefix, rfl, rfl, by simp, rfl, .rest _ _ fun r' h' => ?_⟩
          have := layer.delimited k r' r (h'.trans hpart)
          subst this
          exact hp h'

theorem reads_honest {layer : RecordLayer} {sent : List TlsRecord} {o : TlsOpener} (ho : Opens layer sent o) (cap : Nat) (fin : StreamEnd) :
    ∀ (segs : List Seg) (k : Nat) (pend : Bytes) (rs : List TlsRecord), Opened layer k pend [] →
    pend ++ (segs.map Seg.bytes).flatten <+: sealedFrom layer k (sent.drop k) → Opened layer k (pend ++ (segs.map Seg.bytes).flatten) rs →
    readBytes (o.reads cap fin k pend segs) = spoken rs ∧
      (o.reads cap fin k pend segs).2 = if .closeNotify ∈ rs then .eof else brokenOff fin := by
  intro segs
  induction segs with
  | nil =>
    intro k pend rs hp _ hrs
    simp only [List.map_nil, List.flatten_nil, List.append_nil] at hrs
    have := hrs.unique hp
    subst this
    exact ⟨rfl, by simp [TlsOpener.reads]⟩
  | cons s segs ih =>
    intro k pend rs hp hw hrs
    simp only [List.map_cons, List.flatten_cons, ← List.append_assoc] at hw hrs
    have hw1 := (List.prefix_append (pend ++ s.bytes) (segs.map Seg.bytes).flatten).trans hw
    simp only [TlsOpener.reads]
    rcases process_honest ho _ k (pend ++ s.bytes) (Nat.le_refl _) hw1 with ⟨rs1, cs, h1, h2, h3, h4, h5⟩ | ⟨rs1, cs, b', h1, h2, h3, h4, h5, h6⟩
    · obtain ⟨x, hx⟩ := h2
      obtain ⟨y, hy⟩ := h1
      rw [← hx, List.append_assoc] at hrs hw
      rw [← hy, sealedFrom_append] at hw
      obtain ⟨rs2, _, g2⟩ := opened_part layer y (k + rs1.length) _ ((List.prefix_append_right_inj _).1 hw)
      have := hrs.unique (opened_more layer rs1 k _ _ g2)
      subst this
      rw [h3]
      exact ⟨by rw [readBytes, cutChunks_bytes, h5, spoken_append, if_pos h4], by rw [if_pos (List.mem_append_left _ h4)]⟩
    · obtain ⟨y, hy⟩ := h1
      rw [h2, List.append_assoc] at hrs hw
      have hdrop : sent.drop (k + rs1.length) = y := by
        rw [← List.drop_drop, ← hy, List.drop_left]
      rw [← hy, sealedFrom_append] at hw
      have hw := (List.prefix_append_right_inj _).1 hw
      obtain ⟨rs2, _, g2⟩ := opened_part layer y (k + rs1.length) _ hw
      have := hrs.unique (opened_more layer rs1 k _ _ g2)
      subst this
      obtain ⟨i1, i2⟩ := ih (k + rs1.length) b' rs2 h6 (by rw [hdrop]; exact hw) g2
      rw [h3]
      simp only
      refine ⟨?_, ?_⟩
      · rw [spoken_append, if_neg h4, ← h5, ← i1]
        simp only [readBytes, List.map_append, List.flatten_append, cutChunks_bytes]
      · rw [i2]; simp only [List.mem_append, h4, false_or]

/-- **C237.** If what arrives is what the client sent, or the beginning of it, in whatever portions: of the bytes the server reads exactly what the records carry that have arrived in whole, up to the
one that says goodbye. It sees the end of the stream if that one has arrived; if the connection ends without it, this is an error and not an end; otherwise it waits. -/
theorem C237_arrives (layer : RecordLayer) (sent : List TlsRecord) (o : TlsOpener) (ho : Opens layer sent o) (cap : Nat) (segs : List Seg) (fin : StreamEnd)
    (hw : (segs.map Seg.bytes).flatten <+: sealedFrom layer 0 sent) (rs : List TlsRecord) (hr : Opened layer 0 (segs.map Seg.bytes).flatten rs) :
    (tlsReader o cap segs fin).flat = spoken rs ∧
      (tlsReader o cap segs fin).fin = if .closeNotify ∈ rs then .eof else if fin = .silent then .silent else .err := by
  rw [tlsReader_flat]
  obtain ⟨h1, h2⟩ := reads_honest ho cap fin segs 0 [] rs (opened_nil layer 0) (by simpa using hw) (by simpa using hr)
  refine ⟨h1, ?_⟩
  rw [tlsReader, h2]
  split
  · rfl
  · cases fin <;> rfl

/-- **C237**, the connection: it comes to what a connection without TLS comes to on which the client says the same, however its words are cut into records, and the records into portions. -/
theorem C237_same {K : Type} (c : Codec K) (lim : HttpLimits) (env : Nat → Env K) (layer : RecordLayer) (sent : List TlsRecord) (o : TlsOpener) (ho : Opens layer sent o)
    (cap : Nat) (segs : List Seg) (fin : StreamEnd) (hw : (segs.map Seg.bytes).flatten = sealedFrom layer 0 sent) (r : Reader) (hr : r.flat = spoken sent)
    (hf : r.fin = if .closeNotify ∈ sent then .eof else if fin = .silent then .silent else .err) :
    serve c lim env (tlsReader o cap segs fin) = serve c lim env r := by
  have hopen : Opened layer 0 (segs.map Seg.bytes).flatten sent := by
    rw [hw]
    have := opened_more layer sent 0 [] [] (opened_nil layer _)
    rwa [List.append_nil, List.append_nil] at this
  obtain ⟨h1, h2⟩ := C237_arrives layer sent o ho cap segs fin (by rw [hw]; exact List.prefix_rfl) sent hopen
  exact C01_segmentation c lim env env (fun _ => ⟨rfl, rfl, rfl⟩) _ _ (by rw [h1, hr]) (by rw [h2, hf])

/-! ## Forged records -/

/-- The record that is due is not there in whole, and if it is the forged one, it is not there in whole either. -/
def Pending (layer : RecordLayer) (x : Bytes) (k : Nat) (pend : Bytes) (rs : List TlsRecord) : Prop :=
  (rs = [] → ¬ x <+: pend) ∧ ∀ r t, rs = r :: t → ¬ layer.crypt k r <+: pend

theorem process_forged {layer : RecordLayer} {sent : List TlsRecord} {o : TlsOpener} (ho : Opens layer sent o) (n : Nat) (x z : Bytes)
    (hbad : ∀ y, o.next n (x ++ y) = .bad) (hno : ∀ y, y <+: x → ∀ r rest, o.next n y ≠ .record r rest) (hx : x ≠ []) : ∀ (fuel k : Nat) (b w : Bytes) (rs : List TlsRecord),
    b.length ≤ fuel → rs <+: sent.drop k → .closeNotify ∉ rs → k + rs.length = n → b ++ w = sealedFrom layer k rs ++ (x ++ z) →
    o.process fuel k b = .bad ∨ ∃ k' b' cs rs', o.process fuel k b = .ready k' b' cs ∧ rs' <+: sent.drop k' ∧ .closeNotify ∉ rs' ∧ k' + rs'.length = n ∧
      b' ++ w = sealedFrom layer k' rs' ++ (x ++ z) ∧ Pending layer x k' b' rs' := by
  intro fuel
  have hnil : ∀ k rs, Pending layer x k [] rs := fun k rs =>
    ⟨fun _ h => hx (List.prefix_nil.1 h), fun r _ _ h => layer.nonempty k r (List.prefix_nil.1 h)⟩
  induction fuel with
  | zero =>
    intro k b w rs hl h1 h2 h3 h4
    have : b = [] := List.length_eq_zero_iff.1 (by omega)
    subst this
    exact Or.inr ⟨k, [], [], rs, rfl, h1, h2, h3, h4, hnil k rs⟩
  | succ fuel ih =>
    intro k b w rs hl h1 h2 h3 h4
    by_cases hne : b = []
    · subst hne
      exact Or.inr ⟨k, [], [], rs, by simp [TlsOpener.process], h1, h2, h3, h4, hnil k rs⟩
    · simp only [TlsOpener.process, if_neg hne]
      cases rs with
      | nil =>
        simp only [sealedFrom, List.nil_append] at h4
        simp only [List.length_nil, Nat.add_zero] at h3
        subst h3
        by_cases hp : x <+: b
        · obtain ⟨y, rfl⟩ := hp
          rw [hbad]
          exact Or.inl rfl
        · have hb : b <+: x := by
            rcases List.prefix_or_prefix_of_prefix (⟨w, h4⟩ : b <+: x ++ z) (List.prefix_append x z) with h | h
            · exact h
            · exact absurd h hp
          cases hnx : o.next k b with
          | bad => exact Or.inl rfl
          | record r rest => exact absurd hnx (hno b hb r rest)
          | more => exact Or.inr ⟨k, b, [], [], rfl, h1, h2, rfl, h4, fun _ => hp, fun r t h => by cases h⟩
      | cons r t =>
        obtain ⟨y, hy⟩ := h1
        have hget : sent[k]? = some r := by
          have := congrArg (·[0]?) hy
          simpa using this.symm
        have hdrop := drop_get hget
        rw [hdrop] at hy
        simp only [List.cons_append, List.cons.injEq, true_and] at hy
        rw [sealedFrom, List.append_assoc] at h4
        by_cases hp : layer.crypt k r <+: b
        · obtain ⟨rest, rfl⟩ := hp
          rw [List.append_assoc] at h4
          have h5 := List.append_cancel_left h4
          rw [ho.whole k r rest hget]
          have hlen : 0 < (layer.crypt k r).length := List.length_pos_iff.2 (layer.nonempty k r)
          cases r with
          | closeNotify => simp at h2
          | data d =>
            simp only
            rcases ih (k + 1) rest w t (by simp at hl; omega) ⟨y, hy⟩ (by simpa using h2) (by simp at h3; omega) h5 with h | ⟨k', b', cs, rs', g1, g2⟩
            · rw [h]; exact Or.inl rfl
            · rw [g1]; exact Or.inr ⟨k', b', d :: cs, rs', rfl, g2⟩
        · have hb : b <+: layer.crypt k r := by
            rcases List.prefix_or_prefix_of_prefix (⟨w, h4⟩ : b <+: layer.crypt k r ++ (sealedFrom layer (k + 1) t ++ (x ++ z))) (List.prefix_append (layer.crypt k r) _) with h | h
            · exact h
            · exact absurd h hp
          rw [ho.part k r b hget hb (fun h => hp (h ▸ List.prefix_rfl)) hne]
          exact Or.inr ⟨k, b, [], r :: t, rfl, ⟨y, by rw [hdrop, List.cons_append, hy]⟩, h2, h3, by rw [sealedFrom, List.append_assoc]; exact h4, (fun h => by cases h),
            (fun r' t' h => by cases h; exact hp)⟩

theorem reads_forged {layer : RecordLayer} {sent : List TlsRecord} {o : TlsOpener} (ho : Opens layer sent o) (cap : Nat) (fin : StreamEnd) (n : Nat) (x z : Bytes)
    (hbad : ∀ y, o.next n (x ++ y) = .bad) (hno : ∀ y, y <+: x → ∀ r rest, o.next n y ≠ .record r rest) (hx : x ≠ []) :
    ∀ (segs : List Seg) (k : Nat) (pend : Bytes) (rs : List TlsRecord), Pending layer x k pend rs → rs <+: sent.drop k → .closeNotify ∉ rs → k + rs.length = n →
    pend ++ (segs.map Seg.bytes).flatten = sealedFrom layer k rs ++ (x ++ z) → (o.reads cap fin k pend segs).2 = .err := by
  intro segs
  induction segs with
  | nil =>
    intro k pend rs hp _ _ _ h4
    simp only [List.map_nil, List.flatten_nil, List.append_nil] at h4
    cases rs with
    | nil => exact absurd ⟨z, h4.symm⟩ (hp.1 rfl)
    | cons r t => rw [sealedFrom, List.append_assoc] at h4; exact absurd ⟨_, h4.symm⟩ (hp.2 r t rfl)
  | cons s segs ih =>
    intro k pend rs _ h1 h2 h3 h4
    simp only [List.map_cons, List.flatten_cons, ← List.append_assoc] at h4
    rw [List.append_assoc (sealedFrom layer k rs)] at h4
    simp only [TlsOpener.reads]
    rcases process_forged ho n x z hbad hno hx _ k (pend ++ s.bytes) _ rs (Nat.le_refl _) h1 h2 h3 h4 with h | ⟨k', b', cs, rs', g1, g2, g3, g4, g5, g6⟩
    · rw [h]
    · rw [g1]
      exact ih k' b' rs' g6 g2 g3 g4 g5

/-- **C236**, forged records: if in the place of a record of the client there is something that does not open, whatever comes before and after it and in whatever portions, this is a read error and the
stream has no end. (`x` is as much of it as makes this certain; nothing shorter opens.) -/
theorem C236_forged (layer : RecordLayer) (sent : List TlsRecord) (o : TlsOpener) (ho : Opens layer sent o) (cap : Nat) (segs : List Seg) (fin : StreamEnd)
    (rs : List TlsRecord) (hr : rs <+: sent) (hg : .closeNotify ∉ rs) (x z : Bytes) (hw : (segs.map Seg.bytes).flatten = sealedFrom layer 0 rs ++ (x ++ z))
    (hx : x ≠ []) (hbad : ∀ y, o.next rs.length (x ++ y) = .bad) (hno : ∀ y, y <+: x → ∀ r rest, o.next rs.length y ≠ .record r rest) :
    (tlsReader o cap segs fin).fin = .err :=
  reads_forged ho cap fin rs.length x z hbad hno hx segs 0 [] rs ⟨fun _ h => hx (List.prefix_nil.1 h), fun r _ _ h => layer.nonempty 0 r (List.prefix_nil.1 h)⟩
    (by simpa using hr) hg (Nat.zero_add _) (by simpa using hw)

/-! ## Requests and answers -/

/-- **C238.** A client sends requests one after the other over TLS. Whatever happens to the bytes on their way, as long as TCP takes the answers: the requests that are handed to the service are the first ones
of those that the client sent, as it sent them, none is cut short, and what the client can decrypt are exactly the complete answers to these. -/
theorem C238_both {K : Type} (c : Codec K) (lim : HttpLimits) (env : Nat → Env K) (qs : List WireReq)
    (hq : ∀ q ∈ qs, q.WF lim.maxUrl lim.maxHeaderLine lim.maxHeadersCount)
    (hk : ∀ j, j < qs.length → KeepsOpen c { env j with write := .ok }) (layer : RecordLayer) (sent : List TlsRecord) (hs : spoken sent = encodeAll qs) (o : TlsOpener)
    (ha : Authentic layer sent o) (cap : Nat) (segs : List Seg) (fin : StreamEnd)
    (wcap : Nat) (back : RecordLayer) (plan : Nat → TcpRes) (hp : ∀ i, ∃ now n, plan i = .takes now n) :
    let s := serveTls c lim env (tlsReader o cap segs fin) wcap back plan
    ∃ (exs : List (Exchange K)) (rs : List TlsRecord),
      exs <+: (serve c lim (fun j => { env j with write := .ok }) (Reader.ofBytes (encodeAll qs) .eof)).1 ∧ exs.length ≤ qs.length ∧ s.1 = exs.map (·.req) ∧
      Opened back 0 s.2.1.tls.wire rs ∧ carried rs = (exs.map (·.written)).flatten ∧
      ∀ (j : Nat) (ex : Exchange K), exs[j]? = some ex → ∃ q, qs[j]? = some q ∧
        ex.req.head.f0 = q.head.w0 ∧ ex.req.head.f1 = q.head.w1 ∧ ex.req.head.f2 = q.head.w2 ∧
        (∀ k, ex.req.head.headers.getall k = lookupFields q.head.fields k) ∧
        Answered c { env j with write := .ok } ex (.current true) := by
  intro s
  obtain ⟨outs, h1, h2, _, rs, h3, h4, _⟩ := C233_answers c lim env (tlsReader o cap segs fin) wcap back plan
  have : outs = fun _ => .ok := funext (h1 hp)
  subst this
  have hpre := C236_requests c lim (fun j => { env j with write := .ok }) layer sent o ha cap segs fin (Reader.ofBytes (encodeAll qs) .eof)
    (by rw [Reader.flat_ofBytes, hs]) (fun _ => rfl)
  obtain ⟨g1, _, g3⟩ := C23_pipelined c lim (fun j => { env j with write := .ok }) qs hq hk (Reader.ofBytes (encodeAll qs) .eof) (Reader.flat_ofBytes _ _)
  have hlen := hpre.length_le
  rw [g1] at hlen
  refine ⟨_, rs, hpre, hlen, h2, h3, h4, fun j ex hj => ?_⟩
  have hj2 : j < qs.length := by
    have := (List.getElem?_eq_some_iff.1 hj).1
    omega
  obtain ⟨y, hy⟩ := hpre
  have hj3 : (serve c lim (fun j => { env j with write := .ok }) (Reader.ofBytes (encodeAll qs) .eof)).1[j]? = some ex := by
    rw [← hy, List.getElem?_append_left (List.getElem?_eq_some_iff.1 hj).1]; exact hj
  exact ⟨qs[j], List.getElem?_eq_getElem hj2, g3 j _ ex (List.getElem?_eq_getElem hj2) hj3⟩

/-- **C238**, endless loops: nothing that happens on the way makes the connection spin; only a client that itself says goodbye inside a body can. -/
theorem C238_calm {K : Type} (c : Codec K) (lim : HttpLimits) (env : Nat → Env K) (layer : RecordLayer) (sent : List TlsRecord) (hs : .closeNotify ∉ sent) (o : TlsOpener)
    (ha : Authentic layer sent o) (cap : Nat) (segs : List Seg) (fin : StreamEnd) : (serve c lim env (tlsReader o cap segs fin)).2 ≠ .hang := fun h =>
  hs ((C236_beginning layer sent o ha cap segs fin).2 (hang_eof c lim env _ _ _ _ _ h)).2

/-! ## Non-trivial cases -/

/-- An opener that knows the records of the client. -/
def idealOpener (layer : RecordLayer) (sent : List TlsRecord) : TlsOpener where
  next k b :=
    match sent[k]? with
    | none => .bad
    | some r =>
      if (layer.crypt k r).isPrefixOf b then .record r (b.drop (layer.crypt k r).length)
      else if b.isPrefixOf (layer.crypt k r) then .more else .bad

/-- Non-trivial case for C236 and C238: for every encryption and all records there is such an opener. -/
theorem ideal_authentic (layer : RecordLayer) (sent : List TlsRecord) : Authentic layer sent (idealOpener layer sent) := by
  intro k b r rest h
  simp only [idealOpener] at h
  split at h
  · cases h
  · rename_i r' hr
    split at h
    · rename_i hp
      obtain ⟨x, rfl⟩ := List.isPrefixOf_iff_prefix.1 hp
      cases h
      exact ⟨hr, by rw [List.drop_left]⟩
    · split at h <;> cases h

/-- Non-trivial case for C237: the same one. -/
theorem ideal_opens (layer : RecordLayer) (sent : List TlsRecord) : Opens layer sent (idealOpener layer sent) where
  whole k r rest h := by
    simp only [idealOpener, h]
    rw [if_pos (List.isPrefixOf_iff_prefix.2 (List.prefix_append _ _)), List.drop_left]
  part k r b h hp hne _ := by
    simp only [idealOpener, h]
    rw [if_neg (fun h => hne (hp.eq_of_length_le (List.isPrefixOf_iff_prefix.1 h).length_le)), if_pos (List.isPrefixOf_iff_prefix.2 hp)]

/-- Three records with two requests, and the goodbye. -/
def sampleSent : List TlsRecord :=
  [.data b!"GET / HTTP/1.1\r\nA: b\r\n\r\n", .data b!"POST / HTTP/1.1\r\nContent-Length: 4\r\n\r\nbo", .data b!"dy", .closeNotify]

/-- Their bytes. -/
def sampleWire : Bytes := sealedFrom bareLayer 0 sampleSent

/-- The server on some bytes, which come nine at a time: the methods and bodies of the requests, and the end. -/
def sampleSeen (b : Bytes) (fin : StreamEnd) : List (Bytes × Bytes) × Ending :=
  let s := serve noCodec sampleLimits (fun _ => sampleEnv) (tlsReader (idealOpener bareLayer sampleSent) 7 (cutChunk 9 b.length b) fin)
  (s.1.map fun ex => (ex.req.head.f0, ex.req.body.internal.getD []), s.2)

/-- Everything arrives. -/
example : sampleSeen sampleWire .silent = ([(b!"GET", []), (b!"POST", b!"body")], .headFail .connReadError) := by decide +kernel

/-- The last byte of the third record and the goodbye do not arrive: the connection ends there, or stays open. -/
example : sampleSeen (sampleWire.take 71) .eof = ([(b!"GET", [])], .bodyFail .connReadError) := by decide +kernel

example : sampleSeen (sampleWire.take 71) .silent = ([(b!"GET", [])], .waiting) := by decide +kernel

/-- A byte of the third record is changed (the end of the second one comes in the same portion and is lost with it); the second record is left out. -/
example : sampleSeen (sampleWire.set 71 0) .silent = ([(b!"GET", [])], .headFail .connReadError) := by decide +kernel

/-- Non-trivial case for C236: the third record with a changed byte, whatever follows it. -/
example : (∀ y, (idealOpener bareLayer sampleSent).next 2 ([0, 2, 100, 0] ++ y) = .bad) ∧
    ∀ y, y <+: [0, 2, 100, 0] → ∀ r rest, (idealOpener bareLayer sampleSent).next 2 y ≠ .record r rest := by
  refine ⟨fun y => by simp [idealOpener, sampleSent, bareLayer, bareCrypt, List.isPrefixOf], fun y ⟨x, hx⟩ r rest h => ?_⟩
  obtain ⟨_, h⟩ := ideal_authentic bareLayer sampleSent 2 y r rest h
  rename_i h0
  simp [sampleSent] at h0
  subst h0
  rw [h] at hx
  simp [bareLayer, bareCrypt] at hx

example : sampleSeen (sampleWire.take 26 ++ sampleWire.drop 68) .silent = ([(b!"GET", [])], .headFail .connReadError) := by decide +kernel

/-- Non-trivial case for C238: a client that says goodbye inside a body. -/
example : (serve noCodec sampleLimits (fun _ => sampleEnv) (tlsReader (idealOpener bareLayer (sampleSent.take 2 ++ [.closeNotify])) 7
    (cutChunk 9 100 (sealedFrom bareLayer 0 (sampleSent.take 2 ++ [.closeNotify]))) .silent)).2 = .hang := by decide +kernel

end Httpd
