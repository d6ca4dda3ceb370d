import Verif.Lemmas.Appender
import Verif.Spec.Rotation
import Verif.Props.ConfigFiles
/-!
# C70, C71, C95: rotation of log files
-/

namespace Httpd

open Spec

/-! ## When no write of the system fails -/

def NoFail (d : Disk) : Prop := ∀ o ∈ d.os, o = none

theorem settle_ok (d : Disk) (f : AFile) (h : NoFail d) : (settle d f).2.2 = true ∧ NoFail (settle d f).1 := by
  unfold settle
  cases f.inflight with
  | none => exact ⟨rfl, h⟩
  | some b =>
    match ho : d.os, h with
    | [], h => exact ⟨rfl, by intro o hm; simp [Disk.append, ho] at hm⟩
    | none :: rest, h =>
      refine ⟨rfl, ?_⟩
      intro o hm
      exact h o (by rw [ho]; exact List.mem_cons_of_mem _ hm)
    | some k :: rest, h => exact absurd (h (some k) (by rw [ho]; exact List.mem_cons_self ..)) (by simp)

theorem fileWrite_ok (d : Disk) (f : AFile) (src : Bytes) (h : NoFail d) :
    (fileWrite d f src).2.2 = some (min maxChunk src.length) ∧ NoFail (fileWrite d f src).1 := by
  obtain ⟨h1, h2⟩ := settle_ok d f h
  unfold fileWrite
  generalize settle d f = x at h1 h2
  obtain ⟨d', f', ok⟩ := x
  simp only at h1 h2
  subst h1
  simp [h2]

theorem flushLoop_ok (fuel : Nat) (d : Disk) (f : AFile) (rest : Bytes) (hf : rest.length ≤ fuel) (h : NoFail d) :
    (flushLoop fuel d f rest).2.2.2 = true ∧ NoFail (flushLoop fuel d f rest).1 := by
  induction fuel generalizing d f rest with
  | zero =>
    have : rest = [] := List.length_eq_zero_iff.mp (by omega)
    subst this
    exact ⟨rfl, h⟩
  | succ fuel ih =>
    unfold flushLoop
    by_cases hr : rest = []
    · subst hr; exact ⟨rfl, h⟩
    · have hre : rest.isEmpty = false := by simpa using hr
      have hpos : 0 < rest.length := List.length_pos_iff.mpr hr
      simp only [hre, Bool.false_eq_true, ↓reduceIte]
      obtain ⟨h1, h2⟩ := fileWrite_ok d f rest h
      generalize fileWrite d f rest = x at h1 h2
      obtain ⟨d', f', o⟩ := x
      simp only at h1 h2
      subst h1
      cases hm : min maxChunk rest.length with
      | zero => simp only [maxChunk] at hm; omega
      | succ n => exact ih d' f' _ (by simp only [List.length_drop]; omega) h2

theorem flushBuf_ok (d : Disk) (w : BufW) (h : NoFail d) : (flushBuf d w).2.2 = true ∧ NoFail (flushBuf d w).1 :=
  flushLoop_ok w.buf.length d w.file w.buf (Nat.le_refl _) h

theorem bufWrite_ok (d : Disk) (w : BufW) (src : Bytes) (h : NoFail d) :
    (∃ n, (bufWrite d w src).2.2 = some n) ∧ NoFail (bufWrite d w src).1 := by
  have hroom : ∃ x : Disk × BufW × Bool, x = (if w.cap < w.buf.length + src.length then flushBuf d w else (d, w, true)) ∧
      x.2.2 = true ∧ NoFail x.1 := by
    refine ⟨_, rfl, ?_⟩
    split
    · exact flushBuf_ok d w h
    · exact ⟨rfl, h⟩
  obtain ⟨x, hx, h1, h2⟩ := hroom
  unfold bufWrite
  rw [← hx]
  obtain ⟨d', w', ok⟩ := x
  simp only at h1 h2
  subst h1
  simp only
  split
  · obtain ⟨g1, g2⟩ := fileWrite_ok d' w'.file src h2
    exact ⟨⟨_, g1⟩, g2⟩
  · exact ⟨⟨_, rfl⟩, h2⟩

theorem fileAppend_ok (d : Disk) (w : BufW) (src : Bytes) (h : NoFail d) : (fileAppend d w src).2.2 = true ∧ NoFail (fileAppend d w src).1 := by
  have gen : ∀ (fuel : Nat) (d : Disk) (w : BufW) (src : Bytes), src.length ≤ fuel → NoFail d →
      (writeLoop fuel d w src).2.2 = true ∧ NoFail (writeLoop fuel d w src).1 := by
    intro fuel
    induction fuel with
    | zero =>
      intro d w src hf h
      have : src = [] := List.length_eq_zero_iff.mp (by omega)
      subst this
      exact ⟨rfl, h⟩
    | succ fuel ih =>
      intro d w src hf h
      unfold writeLoop
      by_cases hr : src = []
      · subst hr; exact ⟨rfl, h⟩
      · have hre : src.isEmpty = false := by simpa using hr
        simp only [hre, Bool.false_eq_true, ↓reduceIte]
        obtain ⟨⟨n, hn⟩, h2⟩ := bufWrite_ok d w src h
        obtain ⟨_, _, _, h4⟩ := bufWrite_spec d w src
        have hpos := (h4 n hn).2.1 hr
        generalize bufWrite d w src = x at hn h2
        obtain ⟨d', w', o⟩ := x
        simp only at hn h2
        subst hn
        match n, hpos with
        | n + 1, _ => exact ih d' w' _ (by simp only [List.length_drop]; omega) h2
  exact gen src.length d w src (Nat.le_refl _) h

theorem fileFlush_ok (d : Disk) (w : BufW) (h : NoFail d) : (fileFlush d w).2.2 = true ∧ NoFail (fileFlush d w).1 := by
  obtain ⟨h1, h2⟩ := flushBuf_ok d w h
  unfold fileFlush
  generalize flushBuf d w = x at h1 h2
  obtain ⟨d', w', ok⟩ := x
  simp only at h1 h2
  subst h1
  exact settle_ok d' w'.file h2

/-! ## C70 -/

/-- Writing a record shorter than the buffer: it ends up in the buffer, and apart from that only its length matters. -/
theorem fileAppend_mid (d : Disk) (w : BufW) (src : Bytes) (h0 : src ≠ []) (h : src.length < w.cap) :
    fileAppend d w src = match (if w.cap < w.buf.length + src.length then flushBuf d w else (d, w, true)) with
      | (d', w', true) => (d', { w' with buf := w'.buf ++ src }, true)
      | (d', w', false) => (d', w', false) := by
  have hcap : ∀ x : Disk × BufW × Bool, x = (if w.cap < w.buf.length + src.length then flushBuf d w else (d, w, true)) → x.2.1.cap = w.cap := by
    rintro x rfl
    split
    · exact (flushBuf_spec d w).2.1
    · rfl
  unfold fileAppend
  cases hs : src.length with
  | zero => exact absurd (List.length_eq_zero_iff.mp hs) h0
  | succ n =>
    have hne : src.isEmpty = false := by simpa using h0
    have hd : src.drop (n + 1) = [] := by rw [← hs]; exact List.drop_length
    unfold writeLoop
    rw [if_neg (by simp [hne])]
    unfold bufWrite
    rw [hs] at hcap ⊢
    generalize (if w.cap < w.buf.length + (n + 1) then flushBuf d w else (d, w, true)) = x at hcap ⊢
    obtain ⟨d', w', ok⟩ := x
    have := hcap _ rfl
    simp only at this
    cases ok with
    | false => rfl
    | true =>
      simp only
      rw [if_neg (by omega)]
      simp only
      rw [hd]
      cases n <;> simp [writeLoop]

theorem renameLoop_buf (r : Rotator) (w : BufW) (m : Moment) (d : Disk) (left i : Nat) :
    renameLoop { r with inner := w } m d left i = renameLoop r m d left i := by
  induction left generalizing i with
  | zero => rfl
  | succ left ih =>
    simp only [renameLoop, ih]
    rfl

/-- **C70**, negation for the code as written: a record shorter than the buffer whose write triggers a rotation is lost. The call reports
success, nothing stays in memory, and disk and appender end up the same whatever the bytes of the record were (given its length). -/
theorem C70_lost_violated (d : Disk) (r : Rotator) (m : Moment) (at' : Nat) (b b' : Bytes) (hb : b ≠ []) (hlen : b'.length = b.length)
    (hcap : b.length < r.inner.cap) (hdue : r.rotateAt ≤ m.now) (hren : m.renameOk 0 = true) (hopen : m.openOk = true)
    (hnext : m.next = some at') (hfp : d.fs.names r.fp ≠ none) (hok : NoFail d) :
    rotAppend d r m b = rotAppend d r m b' ∧
    ∃ d' r', rotAppend d r m b = .value (d', r', true) ∧ r'.inner.buf = [] ∧ r'.inner.file.inflight = none := by
  have hb' : b' ≠ [] := by
    intro h
    rw [h] at hlen
    exact hb (List.length_eq_zero_iff.mp hlen.symm)
  have key : ∃ (d1 : Disk) (w1 : BufW) (d2 : Disk), d1.fs.names = d.fs.names ∧ (∀ c : Bytes, c ≠ [] → c.length = b.length →
      fileAppend d r.inner c = (d1, { w1 with buf := w1.buf ++ c }, true)) ∧ renameLoop r m d1 10 0 = some d2 := by
    have hx : ∃ x : Disk × BufW × Bool, x = (if r.inner.cap < r.inner.buf.length + b.length then flushBuf d r.inner else (d, r.inner, true)) ∧
        x.2.2 = true ∧ x.1.fs.names = d.fs.names := by
      refine ⟨_, rfl, ?_⟩
      split
      · exact ⟨(flushBuf_ok d r.inner hok).1, (flushBuf_spec d r.inner).2.2.1.1⟩
      · exact ⟨rfl, rfl⟩
    obtain ⟨⟨d1, w1, ok⟩, hx, h1, h2⟩ := hx
    simp only at h1 h2
    subst h1
    have hr : ∃ d2, renameLoop r m d1 10 0 = some d2 := by
      cases hn : d1.fs.names r.fp with
      | none => rw [h2] at hn; exact absurd hn hfp
      | some ino =>
        have : ∃ d2, d1.rename r.fp (rotatedName r m 0) = some d2 := by
          simp only [Disk.rename, hn]
          split <;> exact ⟨_, rfl⟩
        obtain ⟨d2, h⟩ := this
        refine ⟨d2, ?_⟩
        rw [renameLoop, if_pos hren, h]
    obtain ⟨d2, hr⟩ := hr
    refine ⟨d1, w1, d2, h2, ?_, hr⟩
    intro c hc hl
    rw [fileAppend_mid d r.inner c hc (by omega), hl, ← hx]
  obtain ⟨d1, w1, d2, h1, h2, h3⟩ := key
  have hrot : ∀ c : Bytes, rotate d1 { r with inner := { w1 with buf := w1.buf ++ c } } m =
      .value ((reopen d2 w1 r.fp).1, { r with inner := (reopen d2 w1 r.fp).2, rotateAt := at' }, true) := by
    intro c
    unfold rotate
    rw [if_neg (by simp only; omega), renameLoop_buf, h3]
    simp only [hopen, ↓reduceIte, hnext, reopen]
  have hall : ∀ c : Bytes, c ≠ [] → c.length = b.length → rotAppend d r m c =
      .value ((reopen d2 w1 r.fp).1, { r with inner := (reopen d2 w1 r.fp).2, rotateAt := at' }, true) := by
    intro c hc hl
    simp only [rotAppend, h2 c hc hl, hrot c]
  refine ⟨by rw [hall b hb rfl, hall b' hb' hlen], _, _, hall b hb rfl, ?_, ?_⟩ <;> rfl

/-- A name of a file whose content is kept elsewhere. -/
def Named (d : Disk) (ino : Nat) : Prop := ∃ n, d.fs.names n = some ino

/-- **C70**, negation for the code as written: rotating onto a name that exists replaces that file. Its content is gone unless it has
another name. -/
theorem C70_replaced_violated (d : Disk) (r : Rotator) (m : Moment) (at' ino old : Nat) (hdue : r.rotateAt ≤ m.now)
    (hren : m.renameOk 0 = true) (hopen : m.openOk = true) (hnext : m.next = some at') (hfp : d.fs.names r.fp = some ino)
    (hold : d.fs.names (rotatedName r m 0) = some old) (hne : r.fp ≠ rotatedName r m 0)
    (honly : ∀ n, d.fs.names n = some old → n = rotatedName r m 0) (hio : ino ≠ old) (hs : Sane d) :
    ∃ d' r', rotate d r m = .value (d', r', true) ∧ ¬ Named d' old ∧ d'.fs.names (rotatedName r m 0) = some ino := by
  have hr : renameLoop r m d 10 0 = d.rename r.fp (rotatedName r m 0) := by
    simp only [renameLoop, hren, ↓reduceIte]
    have : d.rename r.fp (rotatedName r m 0) ≠ none := by
      simp only [Disk.rename, hfp, hne, ↓reduceIte]
      simp
    cases hc : d.rename r.fp (rotatedName r m 0) with
    | none => exact absurd hc this
    | some x => rfl
  unfold rotate
  rw [if_neg (by omega), hr]
  simp only [Disk.rename, hfp, hne, ↓reduceIte, hopen, hnext, reopen, Disk.openFile]
  refine ⟨_, _, rfl, ?_, ?_⟩
  · have hset : ∀ (x : Disk) (f : AFile), (settle x f).1.fs.names = x.fs.names := fun x f => (settle_spec x f).2.2.1.1
    rintro ⟨n, hn⟩
    rw [hset] at hn
    simp only at hn
    have hlt := hs _ _ hold
    split at hn
    · simp only [Option.some.injEq] at hn; omega
    · split at hn
      · simp only [Option.some.injEq] at hn; exact hio hn
      · next h2 => exact h2 (honly n hn)
  · rw [(settle_spec _ _).2.2.1.1]
    simp [Ne.symm hne]

/-- Rotations that lose nothing: nothing is in the buffer when the file is given up, and the names tried are free. -/
def CleanRotations (d : Disk) (r : Rotator) : List RotOp → Prop
  | [] => True
  | .write b m :: ops =>
    (m.now < r.rotateAt ∨ ((fileAppend d r.inner b).2.1.buf = [] ∧ ∀ i, i < 10 → (fileAppend d r.inner b).1.fs.names (rotatedName r m i) = none)) ∧
    match rotAppend d r m b with
    | .value (d, r, _) => CleanRotations d r ops
    | _ => True
  | .flush :: ops => CleanRotations (rotFlush d r).1 (rotFlush d r).2.1 ops

/-- Where the records are. -/
structure Kept (d : Disk) (r : Rotator) (recs : List Bytes) : Prop where
  sane : Sane d
  fresh : r.inner.file.ino < d.fs.next
  noFail : NoFail d
  named : Named d r.inner.file.ino
  where_ : ∀ b ∈ recs, (∃ ino, Named d ino ∧ ino ≠ r.inner.file.ino ∧ b <:+: d.fs.data ino) ∨ b <:+: r.inner.total d

theorem named_same {ino : Nat} {d d' : Disk} (h : SameBut ino d d') (i : Nat) : Named d' i ↔ Named d i := by
  unfold Named; rw [h.1]

theorem sane_same {ino : Nat} {d d' : Disk} (h : SameBut ino d d') (hs : Sane d) : Sane d' := by
  intro n i hn
  rw [h.1] at hn
  rw [h.2.1]
  exact hs n i hn

/-- Adding to the current file keeps the records. -/
theorem kept_append (d : Disk) (r : Rotator) (recs : List Bytes) (b : Bytes) (h : Kept d r recs) :
    Kept (fileAppend d r.inner b).1 { r with inner := (fileAppend d r.inner b).2.1 } (recs ++ [b]) ∧ (fileAppend d r.inner b).2.2 = true := by
  obtain ⟨h1, h2, h3, h4⟩ := fileAppend_spec d r.inner b
  obtain ⟨g1, g2⟩ := fileAppend_ok d r.inner b h.noFail
  have ht := h4 g1
  refine ⟨⟨sane_same h3 h.sane, ?_, g2, ?_, ?_⟩, g1⟩
  · simp only [h1, h3.2.1]; exact h.fresh
  · simp only [h1]; exact (named_same h3 _).mpr h.named
  · intro c hc
    simp only [h1]
    rcases List.mem_append.mp hc with hc | hc
    · rcases h.where_ c hc with ⟨i, k1, k2, k3⟩ | k
      · exact Or.inl ⟨i, (named_same h3 _).mpr k1, k2, by rw [h3.2.2.1 i k2]; exact k3⟩
      · right; rw [ht]; exact k.trans (List.infix_append [] _ _)
    · rw [List.mem_singleton.mp hc]
      right; rw [ht]; exact (List.suffix_append _ _).isInfix

theorem kept_flush (d : Disk) (r : Rotator) (recs : List Bytes) (h : Kept d r recs) :
    Kept (rotFlush d r).1 (rotFlush d r).2.1 recs ∧ (rotFlush d r).2.2 = true := by
  obtain ⟨h1, h2, h3, h4⟩ := fileFlush_spec d r.inner
  obtain ⟨g1, g2⟩ := fileFlush_ok d r.inner h.noFail
  have ht := fileFlush_total d r.inner g1
  unfold rotFlush
  refine ⟨⟨sane_same h3 h.sane, ?_, g2, ?_, ?_⟩, g1⟩
  · simp only [h1, h3.2.1]; exact h.fresh
  · simp only [h1]; exact (named_same h3 _).mpr h.named
  · intro c hc
    simp only [h1]
    rcases h.where_ c hc with ⟨i, k1, k2, k3⟩ | k
    · exact Or.inl ⟨i, (named_same h3 _).mpr k1, k2, by rw [h3.2.2.1 i k2]; exact k3⟩
    · right; rw [ht]; exact k

/-- A rename to one of the free names. -/
theorem renameLoop_spec (r : Rotator) (m : Moment) (d : Disk) (left i : Nat) (d' : Disk) (h : renameLoop r m d left i = some d')
    (hfree : ∀ j, i ≤ j → j < i + left → d.fs.names (rotatedName r m j) = none) :
    d'.fs.data = d.fs.data ∧ d'.fs.next = d.fs.next ∧ d'.os = d.os ∧ d'.fs.names r.fp = none ∧ (∀ ino, Named d' ino ↔ Named d ino) := by
  induction left generalizing i with
  | zero => cases h
  | succ left ih =>
    simp only [renameLoop] at h
    have hf := hfree i (Nat.le_refl _) (by omega)
    cases hx : (if m.renameOk i then d.rename r.fp (rotatedName r m i) else none) with
    | none =>
      rw [hx] at h
      exact ih (i + 1) h (fun j hj hj2 => hfree j (by omega) (by omega))
    | some d1 =>
      rw [hx] at h
      simp only [Option.some.injEq] at h
      subst h
      split at hx
      · unfold Disk.rename at hx
        cases hn : d.fs.names r.fp with
        | none => rw [hn] at hx; cases hx
        | some ino =>
          rw [hn] at hx
          have hne : r.fp ≠ rotatedName r m i := by
            intro he; rw [← he, hn] at hf; cases hf
          simp only [hne, ↓reduceIte, Option.some.injEq] at hx
          subst hx
          refine ⟨rfl, rfl, rfl, by simp [hne], ?_⟩
          intro i0
          unfold Named
          simp only
          constructor
          · rintro ⟨n, hn0⟩
            split at hn0
            · simp only [Option.some.injEq] at hn0; exact ⟨r.fp, by rw [hn, hn0]⟩
            · split at hn0
              · cases hn0
              · exact ⟨n, hn0⟩
          · rintro ⟨n, hn0⟩
            by_cases h1 : n = r.fp
            · refine ⟨rotatedName r m i, ?_⟩
              rw [h1, hn] at hn0
              simp only [↓reduceIte]
              exact hn0
            · refine ⟨n, ?_⟩
              have h2 : n ≠ rotatedName r m i := by rintro rfl; rw [hf] at hn0; cases hn0
              simp [h1, h2, hn0]
      · cases hx

/-- A rotation that loses nothing. -/
theorem kept_rotate (d : Disk) (r : Rotator) (m : Moment) (recs : List Bytes) (h : Kept d r recs) (d' : Disk) (r' : Rotator) (ok : Bool)
    (hr : rotate d r m = .value (d', r', ok))
    (hclean : m.now < r.rotateAt ∨ (r.inner.buf = [] ∧ ∀ i, i < 10 → d.fs.names (rotatedName r m i) = none)) : Kept d' r' recs := by
  unfold rotate at hr
  split at hr
  · cases hr; exact h
  · next hdue =>
    obtain ⟨hbuf, hfree⟩ : r.inner.buf = [] ∧ ∀ i, i < 10 → d.fs.names (rotatedName r m i) = none := by
      rcases hclean with h' | h'
      · exact absurd h' hdue
      · exact h'
    cases hl : renameLoop r m d 10 0 with
    | none =>
      rw [hl] at hr
      simp only at hr
      cases hn : m.next with
      | none => rw [hn] at hr; cases hr
      | some at' =>
        rw [hn] at hr
        cases hr
        exact ⟨h.sane, h.fresh, h.noFail, h.named, h.where_⟩
    | some d1 =>
      rw [hl] at hr
      simp only at hr
      obtain ⟨e1, e2, e3, e4, e5⟩ := renameLoop_spec r m d 10 0 d1 hl (fun j _ hj => hfree j (by omega))
      have hs1 : Sane d1 := by
        intro n ino hn
        obtain ⟨n', hn'⟩ := (e5 ino).mp ⟨n, hn⟩
        rw [e2]
        exact h.sane n' ino hn'
      have hk1 : Kept d1 r recs := by
        refine ⟨hs1, by rw [e2]; exact h.fresh, by intro o ho; rw [e3] at ho; exact h.noFail o ho, (e5 _).mpr h.named, ?_⟩
        intro b hb
        rcases h.where_ b hb with ⟨i, k1, k2, k3⟩ | k
        · exact Or.inl ⟨i, (e5 i).mpr k1, k2, by rw [e1]; exact k3⟩
        · right
          simpa [BufW.total, AFile.total, e1] using k
      split at hr
      · -- reopened
        unfold reopen at hr
        simp only [Disk.openFile, e4] at hr
        generalize hd2 : ({ d1 with fs := ⟨fun n => if n = r.fp then some d1.fs.next else d1.fs.names n,
          fun i => if i = d1.fs.next then [] else d1.fs.data i, d1.fs.next + 1⟩ } : Disk) = d2 at hr
        have f1 : ∀ i, i ≠ d1.fs.next → d2.fs.data i = d1.fs.data i := by intro i hi; rw [← hd2]; simp [hi]
        have f2 : d2.fs.data d1.fs.next = [] := by rw [← hd2]; simp
        have f3 : ∀ i, Named d1 i → Named d2 i := by
          rintro i ⟨n, hn⟩
          have : n ≠ r.fp := by rintro rfl; rw [e4] at hn; cases hn
          exact ⟨n, by rw [← hd2]; simp [this, hn]⟩
        have f4 : d2.fs.names r.fp = some d1.fs.next := by rw [← hd2]; simp
        have f5 : d2.fs.next = d1.fs.next + 1 := by rw [← hd2]
        have f6 : NoFail d2 := by intro o ho; rw [← hd2] at ho; exact hk1.noFail o ho
        have f7 : Sane d2 := by
          intro n ino hn
          rw [f5]
          rw [← hd2] at hn
          simp only at hn
          split at hn
          · simp only [Option.some.injEq] at hn; omega
          · have := hs1 n ino hn; omega
        obtain ⟨g1, g2, g3, g4⟩ := settle_spec d2 r.inner.file
        obtain ⟨g5, g6⟩ := settle_ok d2 r.inner.file f6
        have g7 := g4 g5
        generalize settle d2 r.inner.file = x at hr g1 g2 g3 g4 g5 g6 g7
        obtain ⟨d3, f, okx⟩ := x
        simp only at g1 g2 g3 g4 g5 g6 g7
        cases hn : m.next with
        | none => rw [hn] at hr; cases hr
        | some at' =>
          rw [hn] at hr
          simp only [Outcome.value.injEq, Prod.mk.injEq] at hr
          obtain ⟨rfl, rfl, rfl⟩ := hr
          have hcur : r.inner.file.ino ≠ d1.fs.next := by have := hk1.fresh; omega
          refine ⟨sane_same g3 f7, by simp only [g3.2.1, f5]; omega, g6, (named_same g3 _).mpr ⟨r.fp, f4⟩, ?_⟩
          intro b hb
          left
          simp only
          rcases hk1.where_ b hb with ⟨i, k1, k2, k3⟩ | k
          · have hi : i ≠ d1.fs.next := by
              obtain ⟨n, hn⟩ := k1
              have := hs1 n i hn
              omega
            exact ⟨i, (named_same g3 _).mpr (f3 i k1), hi, by rw [g3.2.2.1 i k2, f1 i hi]; exact k3⟩
          · refine ⟨r.inner.file.ino, (named_same g3 _).mpr (f3 _ hk1.named), hcur, ?_⟩
            rw [g7]
            simpa [BufW.total, AFile.total, hbuf, f1 _ hcur] using k
      · cases hn : m.next with
        | none => rw [hn] at hr; cases hr
        | some at' =>
          rw [hn] at hr
          cases hr
          exact ⟨hk1.sane, hk1.fresh, hk1.noFail, hk1.named, hk1.where_⟩

theorem kept_perform (ops : List RotOp) (d : Disk) (r : Rotator) (recs : List Bytes) (h : Kept d r recs) (hclean : CleanRotations d r ops)
    (d' : Disk) (r' : Rotator) (ok : Bool) (hp : rotPerform d r ops = .value (d', r', ok)) : Kept d' r' (recs ++ records ops) ∧ ok = true := by
  induction ops generalizing d r recs ok with
  | nil =>
    simp only [rotPerform, Outcome.value.injEq, Prod.mk.injEq] at hp
    obtain ⟨rfl, rfl, rfl⟩ := hp
    simpa [records] using h
  | cons op ops ih =>
    cases op with
    | write b m =>
      obtain ⟨hc1, hc2⟩ := hclean
      simp only [rotPerform] at hp
      obtain ⟨k1, k2⟩ := kept_append d r recs b h
      cases ha : rotAppend d r m b with
      | error => rw [ha] at hp; cases hp
      | panic => rw [ha] at hp; cases hp
      | value x =>
        obtain ⟨d1, r1, ok1⟩ := x
        rw [ha] at hp hc2
        simp only at hp hc2
        have hk : Kept d1 r1 (recs ++ [b]) ∧ ok1 = true := by
          unfold rotAppend at ha
          generalize fileAppend d r.inner b = y at ha k1 k2 hc1
          obtain ⟨d2, w2, ok2⟩ := y
          simp only at k1 k2 hc1
          subst k2
          simp only at ha
          cases hr : rotate d2 { r with inner := w2 } m with
          | error => rw [hr] at ha; cases ha
          | panic => rw [hr] at ha; cases ha
          | value z =>
            obtain ⟨d3, r3, ok3⟩ := z
            rw [hr] at ha
            simp only [Outcome.value.injEq, Prod.mk.injEq] at ha
            obtain ⟨rfl, rfl, rfl⟩ := ha
            exact ⟨kept_rotate d2 { r with inner := w2 } m _ k1 d3 r3 ok3 hr hc1, rfl⟩
        cases hp2 : rotPerform d1 r1 ops with
        | error => rw [hp2] at hp; cases hp
        | panic => rw [hp2] at hp; cases hp
        | value z =>
          obtain ⟨d3, r3, ok3⟩ := z
          rw [hp2] at hp
          simp only [Outcome.value.injEq, Prod.mk.injEq] at hp
          obtain ⟨rfl, rfl, rfl⟩ := hp
          obtain ⟨i1, i2⟩ := ih d1 r1 (recs ++ [b]) hk.1 hc2 ok3 hp2
          refine ⟨by simpa [records] using i1, by simp [hk.2, i2]⟩
    | flush =>
      simp only [rotPerform] at hp
      obtain ⟨k1, k2⟩ := kept_flush d r recs h
      have hc := hclean
      simp only [CleanRotations] at hc
      generalize rotFlush d r = y at hp k1 k2 hc
      obtain ⟨d1, r1, ok1⟩ := y
      simp only at k1 k2 hc hp
      cases hp2 : rotPerform d1 r1 ops with
      | error => rw [hp2] at hp; cases hp
      | panic => rw [hp2] at hp; cases hp
      | value z =>
        obtain ⟨d3, r3, ok3⟩ := z
        rw [hp2] at hp
        simp only [Outcome.value.injEq, Prod.mk.injEq] at hp
        obtain ⟨rfl, rfl, rfl⟩ := hp
        obtain ⟨i1, i2⟩ := ih d1 r1 recs k1 hc ok3 hp2
        exact ⟨by simpa [records] using i1, by simp [k2, i2]⟩

/-- **C70**, what holds: if no write of the system fails, nothing is in the buffer whenever the file is rotated, and the names rotated to
are free, then after a flush every record is in a named file, whatever the outcomes of renaming and opening. Missing from C70: a buffer
that is not empty (`C70_lost_violated`) and names that are taken (`C70_replaced_violated`). -/
theorem C70_kept_partial (d0 : Disk) (hs : Sane d0) (hok : NoFail d0) (fp : Str) (bufsize at' : Nat) (d : Disk) (r : Rotator)
    (hnew : rotNew d0 fp bufsize at' = some (d, r)) (ops : List RotOp) (hclean : CleanRotations d r (ops ++ [.flush])) (d' : Disk)
    (r' : Rotator) (ok : Bool) (hp : rotPerform d r (ops ++ [.flush]) = .value (d', r', ok)) :
    ok = true ∧ ∀ b ∈ records ops, ∃ n, b <:+: content d' n := by
  have hk0 : Kept d r [] := by
    obtain ⟨o1, o2, o3, o4, o5, o6⟩ := openFile_spec d0 hs fp
    unfold rotNew at hnew
    cases hn : rotationNames fp with
    | none => rw [hn] at hnew; cases hnew
    | some x =>
      obtain ⟨p, b, e⟩ := x
      rw [hn] at hnew
      simp only [fileNew, Option.some.injEq, Prod.mk.injEq] at hnew
      obtain ⟨rfl, rfl⟩ := hnew
      refine ⟨o3, o3 _ _ o1, by intro o ho; rw [o6] at ho; exact hok o ho, ⟨fp, o1⟩, by simp⟩
  -- split off the last flush
  have hsplit : ∀ (ops : List RotOp) (d : Disk) (r : Rotator) (ok : Bool), rotPerform d r (ops ++ [.flush]) = .value (d', r', ok) →
      ∃ d1 r1 ok1, rotPerform d r ops = .value (d1, r1, ok1) ∧ rotFlush d1 r1 = (d', r', (rotFlush d1 r1).2.2) := by
    intro ops
    induction ops with
    | nil =>
      intro d r ok h
      simp only [List.nil_append, rotPerform, Outcome.value.injEq, Prod.mk.injEq] at h
      obtain ⟨h1, h2, h3⟩ := h
      exact ⟨d, r, true, rfl, by rw [← h1, ← h2]⟩
    | cons op ops ih =>
      intro d r ok h
      cases op with
      | write b m =>
        simp only [List.cons_append, rotPerform] at h ⊢
        cases ha : rotAppend d r m b with
        | error => rw [ha] at h; cases h
        | panic => rw [ha] at h; cases h
        | value x =>
          obtain ⟨d1, r1, ok1⟩ := x
          rw [ha] at h
          simp only at h ⊢
          cases hp2 : rotPerform d1 r1 (ops ++ [.flush]) with
          | error => rw [hp2] at h; cases h
          | panic => rw [hp2] at h; cases h
          | value z =>
            obtain ⟨d3, r3, ok3⟩ := z
            rw [hp2] at h
            simp only [Outcome.value.injEq, Prod.mk.injEq] at h
            obtain ⟨rfl, rfl, _⟩ := h
            obtain ⟨d4, r4, ok4, i1, i2⟩ := ih d1 r1 ok3 hp2
            exact ⟨d4, r4, _, by rw [i1], i2⟩
      | flush =>
        simp only [List.cons_append, rotPerform] at h ⊢
        generalize rotFlush d r = y at h ⊢
        obtain ⟨d1, r1, ok1⟩ := y
        simp only at h ⊢
        cases hp2 : rotPerform d1 r1 (ops ++ [.flush]) with
        | error => rw [hp2] at h; cases h
        | panic => rw [hp2] at h; cases h
        | value z =>
          obtain ⟨d3, r3, ok3⟩ := z
          rw [hp2] at h
          simp only [Outcome.value.injEq, Prod.mk.injEq] at h
          obtain ⟨rfl, rfl, _⟩ := h
          obtain ⟨d4, r4, ok4, i1, i2⟩ := ih d1 r1 ok3 hp2
          exact ⟨d4, r4, _, by rw [i1], i2⟩
  have hrec : records (ops ++ [.flush]) = records ops := by
    clear hclean hp
    induction ops with
    | nil => rfl
    | cons op ops ih => cases op <;> simp [records, ih]
  obtain ⟨hk, hok'⟩ := kept_perform (ops ++ [.flush]) d r [] hk0 hclean d' r' ok hp
  refine ⟨hok', ?_⟩
  obtain ⟨d1, r1, ok1, hp1, hf⟩ := hsplit ops d r ok hp
  have hflushed : r'.inner.buf = [] ∧ r'.inner.file.inflight = none := by
    -- the state before the flush is kept as well
    have hcl : CleanRotations d r ops := by
      clear hk hp hp1 hf hk0 hnew hrec
      induction ops generalizing d r with
      | nil => trivial
      | cons op ops ih =>
        cases op with
        | write b m =>
          simp only [List.cons_append, CleanRotations] at hclean ⊢
          refine ⟨hclean.1, ?_⟩
          cases ha : rotAppend d r m b with
          | value x =>
            obtain ⟨d1, r1, ok1⟩ := x
            have := hclean.2
            rw [ha] at this
            exact ih d1 r1 this
          | error => trivial
          | panic => trivial
        | flush =>
          simp only [List.cons_append, CleanRotations] at hclean ⊢
          exact ih _ _ hclean
    have hk1 := (kept_perform ops d r [] hk0 hcl d1 r1 ok1 hp1).1
    have hg := fileFlush_ok d1 r1.inner hk1.noFail
    obtain ⟨_, _, _, h4⟩ := fileFlush_spec d1 r1.inner
    have := h4 hg.1
    have hr' : r' = (rotFlush d1 r1).2.1 := by rw [hf]
    rw [hr']
    exact ⟨this.1, this.2.1⟩
  intro b hb
  rcases hk.where_ b (by simp [hrec, hb]) with ⟨ino, ⟨n, hn⟩, _, h3⟩ | h3
  · exact ⟨n, by simpa [content, hn] using h3⟩
  · obtain ⟨n, hn⟩ := hk.named
    refine ⟨n, ?_⟩
    simpa [content, hn, BufW.total, AFile.total, hflushed] using h3

/-! ## C71 -/

theorem renameLoop_none_names (r : Rotator) (m : Moment) (d : Disk) (hfp : d.fs.names r.fp = none) (left i : Nat) :
    renameLoop r m d left i = none := by
  induction left generalizing i with
  | zero => rfl
  | succ left ih => simp [renameLoop, Disk.rename, hfp, ih]

/-- What a write does to the time of the next rotation. -/
theorem rotAppend_cases (d : Disk) (r : Rotator) (m : Moment) (b : Bytes) (d' : Disk) (r' : Rotator) (ok : Bool)
    (h : rotAppend d r m b = .value (d', r', ok)) :
    r'.fp = r.fp ∧ ((m.now < r.rotateAt ∧ r'.rotateAt = r.rotateAt ∧ d'.fs.names = d.fs.names) ∨
      (r.rotateAt ≤ m.now ∧ m.next = some r'.rotateAt)) := by
  have hrot : ∀ (d : Disk) (w : BufW) (d' : Disk) (r' : Rotator) (ok : Bool), rotate d { r with inner := w } m = .value (d', r', ok) →
      r'.fp = r.fp ∧ ((m.now < r.rotateAt ∧ r'.rotateAt = r.rotateAt ∧ d' = d ∧ ok = false) ∨
        (r.rotateAt ≤ m.now ∧ m.next = some r'.rotateAt)) := by
    intro d w d' r' ok h
    unfold rotate at h
    simp only at h
    split at h
    · next hlt =>
      simp only [Outcome.value.injEq, Prod.mk.injEq] at h
      obtain ⟨rfl, rfl, rfl⟩ := h
      exact ⟨rfl, Or.inl ⟨hlt, rfl, rfl, rfl⟩⟩
    · next hge =>
      have hge : r.rotateAt ≤ m.now := by omega
      cases hl : renameLoop { r with inner := w } m d 10 0 with
      | none =>
        rw [hl] at h
        cases hn : m.next with
        | none => rw [hn] at h; cases h
        | some a => rw [hn] at h; cases h; exact ⟨rfl, Or.inr ⟨hge, rfl⟩⟩
      | some d1 =>
        rw [hl] at h
        simp only at h
        split at h
        · cases hn : m.next with
          | none => rw [hn] at h; cases h
          | some a => rw [hn] at h; cases h; exact ⟨rfl, Or.inr ⟨hge, rfl⟩⟩
        · cases hn : m.next with
          | none => rw [hn] at h; cases h
          | some a => rw [hn] at h; cases h; exact ⟨rfl, Or.inr ⟨hge, rfl⟩⟩
  have hnames : ∀ (d : Disk) (w : BufW), (fileAppend d w b).1.fs.names = d.fs.names := fun d w => (fileAppend_spec d w b).2.2.1.1
  unfold rotAppend at h
  have h0 := hnames d r.inner
  generalize fileAppend d r.inner b = x at h h0
  obtain ⟨d1, w1, ok1⟩ := x
  cases ok1 with
  | true =>
    simp only at h h0
    cases hr : rotate d1 { r with inner := w1 } m with
    | error => rw [hr] at h; cases h
    | panic => rw [hr] at h; cases h
    | value y =>
      obtain ⟨d2, r2, ok2⟩ := y
      rw [hr] at h
      cases h
      obtain ⟨k1, k2⟩ := hrot _ _ _ _ _ hr
      refine ⟨k1, ?_⟩
      rcases k2 with ⟨a1, a2, a3, _⟩ | k2
      · exact Or.inl ⟨a1, a2, by rw [a3, h0]⟩
      · exact Or.inr k2
  | false =>
    simp only at h h0
    cases hr : rotate d1 { r with inner := w1 } m with
    | error => rw [hr] at h; cases h
    | panic => rw [hr] at h; cases h
    | value y =>
      obtain ⟨d2, r2, ok2⟩ := y
      rw [hr] at h
      obtain ⟨k1, k2⟩ := hrot _ _ _ _ _ hr
      cases ok2 with
      | false =>
        cases h
        refine ⟨k1, ?_⟩
        rcases k2 with ⟨a1, a2, a3, _⟩ | k2
        · exact Or.inl ⟨a1, a2, by rw [a3, h0]⟩
        · exact Or.inr k2
      | true =>
        simp only at h
        have h1 := hnames d2 r2.inner
        generalize fileAppend d2 r2.inner b = y at h h1
        obtain ⟨d3, w3, ok3⟩ := y
        cases h
        refine ⟨k1, ?_⟩
        rcases k2 with ⟨_, _, _, a4⟩ | k2
        · cases a4
        · exact Or.inr k2

theorem endOf_over {z : Zone} {p t : Int} {at' : Nat} (h : endOf z p t = some at') (hl : NotLong z p t) {v : Int} (hv : (at' : Int) ≤ v) :
    period z p t < period z p v := by
  obtain ⟨u, h1, h2⟩ := hl
  unfold endOf at h
  rw [h1] at h
  simp only at h
  split at h
  · simp only [Option.some.injEq] at h
    exact h2 v (by omega)
  · cases h

/-- **C71**, what holds: with `t` the time at which the appender was opened, the first rotation comes in a later local day (hour) than
`t`, and each further one in a later local day (hour) than the one before, whatever renaming, opening and writing give - as long as none of
the days (hours) is longer than 24 hours (one hour) and the local date does not go backwards while a rotation is going on. Missing from
C71: days of 25 hours (`C71_twice_violated`). -/
theorem C71_once_partial (z : Zone) (p : Int) (date : Int → Str) (d : Disk) (r : Rotator) (t : Int) (ws : List Timed)
    (hstart : endOf z p t = some r.rotateAt) (hl : NotLong z p t) (hws : InTime z p date t ws)
    (hall : ∀ w ∈ ws, NotLong z p w.later ∧ period z p w.moment.now ≤ period z p w.later) :
    (period z p t :: (rotatedAt d r ws).map (period z p)).Pairwise (· < ·) := by
  suffices H : ∀ (ws : List Timed) (d : Disk) (r : Rotator) (t0 t : Int), endOf z p t0 = some r.rotateAt → NotLong z p t0 → InTime z p date t ws →
      (∀ w ∈ ws, NotLong z p w.later ∧ period z p w.moment.now ≤ period z p w.later) →
      (period z p t0 :: (rotatedAt d r ws).map (period z p)).Pairwise (· < ·) from H ws d r t t hstart hl hws hall
  clear hstart hl hws hall
  intro ws
  induction ws with
  | nil => intros; simp [rotatedAt]
  | cons w ws ih =>
    intro d r t0 t hstart hl hws hall
    obtain ⟨_, h2, h3, _, h5⟩ := hws
    obtain ⟨hn1, hn2⟩ := hall w (List.mem_cons_self ..)
    have hall' : ∀ w ∈ ws, NotLong z p w.later ∧ period z p w.moment.now ≤ period z p w.later :=
      fun w hw => hall w (List.mem_cons_of_mem _ hw)
    simp only [rotatedAt]
    cases ha : rotAppend d r w.moment w.record with
    | error => simp
    | panic => simp
    | value x =>
      obtain ⟨d', r', ok⟩ := x
      obtain ⟨k1, k2⟩ := rotAppend_cases _ _ _ _ _ _ _ ha
      simp only
      rcases k2 with ⟨a1, a2, a3⟩ | ⟨a1, a2⟩
      · rw [a3]
        simp only [↓reduceIte, List.nil_append]
        exact ih d' r' t0 w.later (by rw [a2]; exact hstart) hl h5 hall'
      · have hlt : period z p t0 < period z p w.moment.now := endOf_over hstart hl (by omega)
        have := ih d' r' w.later w.later (by rw [← h3, a2]) hn1 h5 hall'
        rw [List.pairwise_cons] at this
        obtain ⟨b1, b2⟩ := this
        split
        · simp only [List.nil_append, List.pairwise_cons]
          exact ⟨fun x hx => by have := b1 x hx; omega, b2⟩
        · simp only [List.cons_append, List.nil_append, List.map_cons, List.pairwise_cons]
          refine ⟨?_, fun x hx => by have := b1 x hx; omega, b2⟩
          intro x hx
          rcases List.mem_cons.mp hx with rfl | hx
          · exact hlt
          · have := b1 x hx; omega

/-- A zone with the same offset all the time. -/
def fixedZone (c : Int) : Zone := ⟨fun _ => c, fun l => .single (l - c)⟩

theorem fixedZone_lawful (c : Int) : LawfulZone (fixedZone c) := by
  intro l
  simp only [fixedZone, Zone.localTime]
  intro v
  constructor <;> intro h <;> omega

/-- In such a zone no day or hour is too long, and the local date does not go backwards: there C71 holds for all times. -/
theorem fixedZone_notLong (c t p : Int) (hp : 0 < p) : NotLong (fixedZone c) p t ∧ ∀ u v, u ≤ v → period (fixedZone c) p u ≤ period (fixedZone c) p v := by
  refine ⟨⟨(t + c) / p * p - c, rfl, ?_⟩, ?_⟩
  · intro v hv
    simp only [period, Zone.localTime, fixedZone]
    have : (t + c) / p + 1 ≤ (v + c) / p := by
      rw [Int.le_ediv_iff_mul_le hp]
      have : ((t + c) / p + 1) * p = (t + c) / p * p + p := by rw [Int.add_mul, Int.one_mul]
      omega
    omega
  · intro u v h
    exact Int.ediv_le_ediv hp (by simp only [Zone.localTime, fixedZone]; omega)

/-- A write at or after the time of the next rotation gives the name of the log file a new file. -/
theorem rotate_due (d : Disk) (r : Rotator) (m : Moment) (b : Bytes) (at' old : Nat) (hdue : r.rotateAt ≤ m.now) (hren : m.renameOk 0 = true)
    (hopen : m.openOk = true) (hnext : m.next = some at') (hfp : d.fs.names r.fp = some old) (hne : r.fp ≠ rotatedName r m 0) (hs : Sane d)
    (hok : NoFail d) :
    ∃ d' r', rotAppend d r m b = .value (d', r', true) ∧ d'.fs.names r.fp = some d.fs.next ∧ d'.fs.names (rotatedName r m 0) = some old ∧
      r' = { r with inner := r'.inner, rotateAt := at' } ∧ Sane d' ∧ NoFail d' := by
  obtain ⟨g1, g2⟩ := fileAppend_ok d r.inner b hok
  obtain ⟨_, _, h3, _⟩ := fileAppend_spec d r.inner b
  have hs1 := sane_same h3 hs
  unfold rotAppend
  generalize fileAppend d r.inner b = x at g1 g2 h3 hs1
  obtain ⟨d1, w1, ok1⟩ := x
  simp only at g1 g2 h3 hs1
  subst g1
  have hfp1 : d1.fs.names r.fp = some old := by rw [h3.1]; exact hfp
  have hl : renameLoop { r with inner := w1 } m d1 10 0 =
      some { d1 with fs := { d1.fs with names := fun n => if n = rotatedName r m 0 then some old else if n = r.fp then none else d1.fs.names n } } := by
    rw [renameLoop, if_pos hren]
    simp only [Disk.rename, hfp1]
    rw [if_neg (by exact hne)]
    rfl
  simp only [rotate, if_neg (Nat.not_lt.mpr hdue), hl, hopen, ↓reduceIte, reopen, Disk.openFile, hne, hnext]
  generalize hd2 : Disk.mk _ _ = d2
  obtain ⟨_, _, k3, _⟩ := settle_spec d2 w1.file
  have hnf : NoFail d2 := by intro o ho; rw [← hd2] at ho; exact g2 o ho
  have hsn : Sane d2 := by
    intro n i hn
    rw [← hd2] at hn ⊢
    simp only at hn ⊢
    split at hn
    · simp only [Option.some.injEq] at hn; omega
    · split at hn
      · simp only [Option.some.injEq] at hn
        have := hs1 _ _ hfp1; omega
      · have := hs1 _ _ hn; omega
  refine ⟨_, _, rfl, ?_, ?_, rfl, sane_same k3 hsn, (settle_ok d2 w1.file hnf).2⟩
  · rw [k3.1, ← hd2]; simp [h3.2.1]
  · rw [k3.1, ← hd2]; simp [Ne.symm hne]

/-- **C71**, negation for the code as written: if a local day (hour) goes on for more than 24 hours (one hour) after its start `u`, then
every write from there to its end rotates the file, so two writes do it twice in one day - and the second rotation puts its file in the place
of the first one's. -/
theorem C71_twice_violated (z : Zone) (p t u s1 s2 : Int) (date : Int → Str) (hz : z.fromLocal (z.localTime t / p * p) = .single u)
    (hu : 0 ≤ u + p) (h1 : period z p s1 = period z p t) (h2 : period z p s2 = period z p t) (hs1 : u + p ≤ s1) (hs12 : s1 ≤ s2)
    (d : Disk) (r : Rotator) (hstart : endOf z p t = some r.rotateAt) (hs : Sane d) (hok : NoFail d) (old : Nat)
    (hfp : d.fs.names r.fp = some old) (hdate : ∀ k, r.fp ≠ r.namePrefix ++ r.baseName ++ date k ++ u!"." ++ r.fileExt) (b1 b2 : Bytes) :
    ∃ w1 w2 : Timed, w1.record = b1 ∧ w2.record = b2 ∧ w1.later = s1 ∧ w2.later = s2 ∧ InTime z p date s1 [w1, w2] ∧
      rotatedAt d r [w1, w2] = [s1, s2] ∧ rotatedName r w1.moment 0 = rotatedName r w2.moment 0 := by
  have e : ∀ s, period z p s = period z p t → endOf z p s = some r.rotateAt := by
    intro s h
    rw [← hstart]
    unfold endOf
    simp only [period] at h
    rw [h]
  have hat : (r.rotateAt : Int) = u + p := by
    unfold endOf at hstart
    rw [hz] at hstart
    simp only [hu, ↓reduceIte, Option.some.injEq] at hstart
    omega
  let m : Int → Moment := fun s => ⟨s.toNat, date (period z p t), fun _ => [], fun _ => true, true, some r.rotateAt⟩
  have c1 : ((s1.toNat : Nat) : Int) = s1 := by omega
  have c2 : ((s2.toNat : Nat) : Int) = s2 := by omega
  have hne : r.fp ≠ rotatedName r (m s1) 0 := hdate _
  obtain ⟨d1, r1, k1, k2, k3, k4, k5, k6⟩ := rotate_due d r (m s1) b1 r.rotateAt old (by simp only [m]; omega) rfl rfl rfl hfp hne hs hok
  have hr1 : r1.rotateAt = r.rotateAt ∧ r1.fp = r.fp ∧ r1.namePrefix = r.namePrefix ∧ r1.baseName = r.baseName ∧ r1.fileExt = r.fileExt := by
    rw [k4]; exact ⟨rfl, rfl, rfl, rfl, rfl⟩
  obtain ⟨q1, q2, q3, q4, q5⟩ := hr1
  obtain ⟨d2, r2, l1, l2, l3, l4, l5, l6⟩ := rotate_due d1 r1 (m s2) b2 r.rotateAt d.fs.next (by rw [q1]; simp only [m]; omega) rfl rfl rfl
    (by rw [q2]; exact k2) (by simp only [rotatedName, q2, q3, q4, q5]; exact hdate _) k5 k6
  refine ⟨⟨b1, m s1, s1⟩, ⟨b2, m s2, s2⟩, rfl, rfl, rfl, rfl, ?_, ?_, rfl⟩
  · simp only [InTime, m, c1, c2, e s1 h1, e s2 h2, h1, h2, and_true, true_and]
    exact ⟨Int.le_refl _, Int.le_refl _, hs12, Int.le_refl _⟩
  · simp only [rotatedAt, k1, l1]
    have n1 : d.fs.next ≠ old := by have := hs _ _ hfp; omega
    have hnx := k5 _ _ k2
    rw [if_neg (by rw [k2, hfp]; simpa using n1), if_neg (by rw [l2, q2, k2]; simp only [Option.some.injEq]; omega)]
    simp [m, c1, c2]

/-- A zone that goes back by an hour at 03:00 of the local day 1. -/
def autumn : Zone :=
  ⟨fun t => if t < 97200000 then 3600000 else 0,
   fun l => if l < 97200000 then .single (l - 3600000) else if l < 100800000 then .ambiguous else .single l⟩

theorem autumn_lawful : LawfulZone autumn := by
  intro l
  by_cases h1 : l < 97200000
  · simp only [autumn, h1, ↓reduceIte, Zone.localTime]
    intro v
    split <;> constructor <;> intro h <;> omega
  · by_cases h2 : l < 100800000
    · simp only [autumn, h1, h2, ↓reduceIte, Zone.localTime]
      refine ⟨l - 3600000, l, by omega, ?_, ?_⟩
      · rw [if_pos (by omega)]; omega
      · rw [if_neg (by omega)]; omega
    · simp only [autumn, h1, h2, ↓reduceIte, Zone.localTime]
      intro v
      split <;> constructor <;> intro h <;> omega

/-- The day on which the clocks go back: 23:10 and 23:20 are on the day of 12:00, more than 24 hours after it started. -/
example : autumn.fromLocal (autumn.localTime 126000000 / dayMs * dayMs) = .single 82800000 ∧
    period autumn dayMs 170000000 = period autumn dayMs 126000000 ∧ (82800000 : Int) + dayMs ≤ 170000000 ∧
    endOf autumn dayMs 126000000 = some 169200000 := by decide +kernel

/-! ## C96: a write in a later period rotates -/

/-- **C96**, what holds: if the day (hour) of `t` lasts for 24 hours (one hour), a write in a later day (hour) moves the log file away to
its dated name and starts a new one, when renaming, opening and writing work. -/
theorem C96_rotates_partial (z : Zone) (p : Int) (date : Int → Str) (d : Disk) (r : Rotator) (t u : Int) (w : Timed)
    (hstart : endOf z p t = some r.rotateAt) (hz : z.fromLocal (z.localTime t / p * p) = .single u)
    (hreg : ∀ v, t ≤ v → (period z p v = period z p t ↔ v < u + p)) (hws : InTime z p date t [w])
    (hlate : period z p w.moment.now ≠ period z p t) (hnext : ∃ at', endOf z p w.later = some at') (hren : w.moment.renameOk 0 = true)
    (hopen : w.moment.openOk = true) (old : Nat) (hfp : d.fs.names r.fp = some old) (hne : r.fp ≠ rotatedName r w.moment 0) (hs : Sane d)
    (hok : NoFail d) :
    rotatedAt d r [w] = [(w.moment.now : Int)] ∧
    ∃ d' r', rotAppend d r w.moment w.record = .value (d', r', true) ∧
      d'.fs.names (r.namePrefix ++ r.baseName ++ date (period z p w.moment.now) ++ u!"." ++ r.fileExt) = some old := by
  obtain ⟨h1, h2, h3, h4, _⟩ := hws
  obtain ⟨at', hat⟩ := hnext
  have hdue : r.rotateAt ≤ w.moment.now := by
    have hv := mt (hreg w.moment.now h1).mpr hlate
    unfold endOf at hstart
    rw [hz] at hstart
    simp only at hstart
    split at hstart
    · simp only [Option.some.injEq] at hstart; omega
    · cases hstart
  obtain ⟨d', r', k1, k2, k3, _⟩ := rotate_due d r w.moment w.record at' old hdue hren hopen (by rw [h3]; exact hat) hfp hne hs hok
  refine ⟨?_, d', r', k1, ?_⟩
  · simp only [rotatedAt, k1]
    have n1 : d.fs.next ≠ old := by have := hs _ _ hfp; omega
    rw [if_neg (by rw [k2, hfp]; simpa using n1)]
    simp
  · rw [← k3]; simp [rotatedName, h4]

/-- **C96**, negation for the code as written: when a day (hour) is shorter than 24 hours (one hour), writes after its end do not rotate
the file until 24 hours (one hour) have passed since its start. -/
theorem C96_late_violated (z : Zone) (p t u : Int) (d : Disk) (r : Rotator) (b : Bytes) (m : Moment) (hstart : endOf z p t = some r.rotateAt)
    (hz : z.fromLocal (z.localTime t / p * p) = .single u) (hearly : (m.now : Int) < u + p) (d' : Disk) (r' : Rotator) (ok : Bool)
    (h : rotAppend d r m b = .value (d', r', ok)) : d'.fs.names = d.fs.names := by
  have hlt : m.now < r.rotateAt := by
    unfold endOf at hstart
    rw [hz] at hstart
    simp only at hstart
    split at hstart
    · simp only [Option.some.injEq] at hstart; omega
    · cases hstart
  rcases (rotAppend_cases _ _ _ _ _ _ _ h).2 with ⟨_, _, h⟩ | ⟨h, _⟩
  · exact h
  · omega

/-- **C96**, negation for the code as written: when the start of the local day (hour) does not exist or comes twice, a rotation due on
that day panics, which ends the logging thread (see C93) - and takes the renamed file and the record with it. -/
theorem C96_panic_violated (z : Zone) (p : Int) (d : Disk) (r : Rotator) (m : Moment) (b : Bytes) (later : Int)
    (hz : ∀ u, z.fromLocal (z.localTime later / p * p) ≠ .single u) (hnext : m.next = endOf z p later) (hdue : r.rotateAt ≤ m.now) :
    rotAppend d r m b = .panic := by
  have hn : m.next = none := by
    rw [hnext]
    unfold endOf
    cases h : z.fromLocal (z.localTime later / p * p) with
    | single u => exact absurd h (hz u)
    | none => rfl
    | ambiguous => rfl
  have hr : ∀ (d : Disk) (w : BufW), rotate d { r with inner := w } m = .panic := by
    intro d w
    unfold rotate
    simp only [if_neg (Nat.not_lt.mpr hdue), hn]
    cases renameLoop { r with inner := w } m d 10 0 with
    | none => rfl
    | some d1 => simp only; split <;> rfl
  unfold rotAppend
  generalize fileAppend d r.inner b = x
  obtain ⟨d1, w1, ok1⟩ := x
  cases ok1 <;> simp only [hr]

/-- A zone whose clocks go forward from 00:00 to 01:00 on the local day 1: that day has no midnight. -/
def spring : Zone :=
  ⟨fun t => if t < 86400000 then 0 else 3600000,
   fun l => if l < 86400000 then .single l else if l < 90000000 then .none else .single (l - 3600000)⟩

theorem spring_lawful : LawfulZone spring := by
  intro l
  by_cases h1 : l < 86400000
  · simp only [spring, h1, ↓reduceIte, Zone.localTime]
    intro v
    split <;> constructor <;> intro h <;> omega
  · by_cases h2 : l < 90000000
    · simp only [spring, h1, h2, ↓reduceIte, Zone.localTime]
      intro v
      split <;> omega
    · simp only [spring, h1, h2, ↓reduceIte, Zone.localTime]
      intro v
      split <;> constructor <;> intro h <;> omega

example : spring.fromLocal (spring.localTime 100000000 / dayMs * dayMs) = .none := by decide +kernel

/-- Before that, a whole day; the next day is one of 23 hours: a write at 00:30 of day 2 is after the end of day 1. -/
def springTwo : Zone :=
  ⟨fun t => if t < 97200000 then 0 else 3600000,
   fun l => if l < 97200000 then .single l else if l < 100800000 then .none else .single (l - 3600000)⟩

example : period springTwo dayMs 171000000 = 2 ∧ period springTwo dayMs 126000000 = 1 ∧
    springTwo.fromLocal (springTwo.localTime 126000000 / dayMs * dayMs) = .single 86400000 ∧ (171000000 : Int) < 86400000 + dayMs := by
  decide +kernel

/-! ## C97: the date of a rotated file -/

/-- **C97**, negation for the code as written: a rotation names the file it puts away after the day (hour) in which the rotation happens,
which is always a later one than the day (hour) `t` in which the file was opened. -/
theorem C97_misdated_violated (z : Zone) (p : Int) (date : Int → Str) (d : Disk) (r : Rotator) (t : Int) (w : Timed)
    (hstart : endOf z p t = some r.rotateAt) (hl : NotLong z p t) (hws : InTime z p date t [w]) (hren : w.moment.renameOk 0 = true)
    (hopen : w.moment.openOk = true) (at' old : Nat) (hnext : w.moment.next = some at') (hfp : d.fs.names r.fp = some old)
    (hne : r.fp ≠ rotatedName r w.moment 0) (hs : Sane d) (hok : NoFail d) (hrot : rotatedAt d r [w] ≠ []) :
    ∃ d' r' k, rotAppend d r w.moment w.record = .value (d', r', true) ∧ period z p t < k ∧ k = period z p w.moment.now ∧
      d'.fs.names (r.namePrefix ++ r.baseName ++ date k ++ u!"." ++ r.fileExt) = some old := by
  have hdue : r.rotateAt ≤ w.moment.now := by
    simp only [rotatedAt] at hrot
    cases ha : rotAppend d r w.moment w.record with
    | error => rw [ha] at hrot; exact absurd rfl hrot
    | panic => rw [ha] at hrot; exact absurd rfl hrot
    | value x =>
      obtain ⟨d', r', ok⟩ := x
      rw [ha] at hrot
      rcases (rotAppend_cases _ _ _ _ _ _ _ ha).2 with ⟨_, _, h⟩ | ⟨h, _⟩
      · simp [h] at hrot
      · exact h
  obtain ⟨d', r', k1, k2, k3, _⟩ := rotate_due d r w.moment w.record at' old hdue hren hopen hnext hfp hne hs hok
  refine ⟨d', r', _, k1, endOf_over hstart hl (by omega), rfl, ?_⟩
  rw [← k3]
  simp [rotatedName, hws.2.2.2.1]

/-- A rotating appender for `l/a.log` with a buffer of 8192 bytes, opened at noon of day 1. -/
private def noon : Option (Disk × Rotator) := rotNew ⟨⟨fun _ => none, fun _ => [], 0⟩, []⟩ u!"l/a.log" 8192 172800000

private def showDate (k : Int) : Str := 46 :: List.replicate k.toNat 49

private def at' (s : Int) : Moment :=
  ⟨s.toNat, showDate (period (fixedZone 0) dayMs s), fun _ => u!"7", fun _ => true, true, endOf (fixedZone 0) dayMs s⟩

/-- Writes at 13:00 on day 1, twice on day 2, and on day 4: rotations on days 2 and 4 (C71), and the files are named for those days (C97). -/
example : (noon.map fun x => (endOf (fixedZone 0) dayMs 129600000 == some x.2.rotateAt,
    rotatedAt x.1 x.2 [⟨b!"a", at' 133200000, 133200000⟩, ⟨b!"b", at' 172800005, 172800005⟩, ⟨b!"c", at' 180000000, 180000000⟩,
      ⟨b!"d", at' 345600000, 345600000⟩])) = some (true, [172800005, 345600000]) := by decide +kernel

/-- The same with records and flushes: what was flushed is kept, and the record that comes first on day 2 (`b`) is gone (C70). -/
example : (noon.map fun x => match rotPerform x.1 x.2 [.write b!"a" (at' 133200000), .flush, .write b!"b" (at' 172800005),
      .write b!"c" (at' 180000000), .flush] with
    | .value (d, _, ok) => some (ok, content d u!"l/a.log", content d u!"l/a.11.log")
    | _ => none) = some (some (true, b!"c", b!"a")) := by decide +kernel

/-- With records that do not fit into the buffer nothing is lost (`C70_kept_partial`). -/
example : (noon.map fun x => match rotPerform x.1 x.2 [.write (List.replicate 8192 1) (at' 133200000), .write (List.replicate 8192 2) (at' 172800005),
      .write (List.replicate 8192 3) (at' 180000000), .flush] with
    | .value (d, _, ok) => some (ok, content d u!"l/a.log" == List.replicate 8192 3,
        content d u!"l/a.11.log" == List.replicate 8192 1 ++ List.replicate 8192 2)
    | _ => none) = some (some (true, true, true)) := by decide +kernel

/-! ## C95: the names of rotated files -/

theorem takeWhile_none {s : Str} (h : 46 ∉ s) (t : Str) : (s ++ 46 :: t).takeWhile (· != 46) = s := by
  induction s with
  | nil => rfl
  | cons c cs ih =>
    simp only [List.mem_cons, not_or] at h
    have : (c != 46) = true := by simpa using Ne.symm h.1
    simp [this, ih h.2]

theorem extension_dot (base ext : Str) (hb : base ≠ []) (he : 46 ∉ ext) : extension (base ++ 46 :: ext) = some ext := by
  have hpos : 0 < base.length := List.length_pos_iff.mpr hb
  unfold extension
  have : ((base ++ 46 :: ext).reverse.takeWhile (· != 46)).reverse = ext := by
    have hr : (base ++ 46 :: ext).reverse = ext.reverse ++ 46 :: base.reverse := by simp
    rw [hr, takeWhile_none (by simpa using he), List.reverse_reverse]
  simp only [this]
  rw [if_neg (by simp only [List.length_append, List.length_cons]; omega), if_neg (by simp only [List.length_append, List.length_cons]; omega)]

/-- **C95**: a log file `dir/base.ext` is rotated to `dir/base` with the date and, from the second try on, the clock, and then `.ext`: a name
in the same directory and different from its own. Different dates give different names, and files whose paths differ get different names
on the same date. -/
theorem C95_names (dir base ext : Str) (hb : base ≠ []) (he : ext ≠ []) (hb47 : 47 ∉ base) (he47 : 47 ∉ ext) (he46 : 46 ∉ ext)
    (hdir : dir = [] ∨ dir.getLast? = some 47) :
    rotationNames (dir ++ base ++ [46] ++ ext) = some (dir, base, ext) ∧
    ∀ (r : Rotator) (m : Moment), r.namePrefix = dir → r.baseName = base → r.fileExt = ext →
      rotatedName r m 0 = dir ++ (base ++ m.stamp ++ [46] ++ ext) ∧
      (∀ i, rotatedName r m (i + 1) = dir ++ (base ++ m.stamp ++ [46] ++ m.nanos (i + 1) ++ [46] ++ ext)) ∧
      (m.stamp ≠ [] → ∀ i, rotatedName r m i ≠ dir ++ base ++ [46] ++ ext) ∧
      ∀ (r' : Rotator) (m' : Moment), r'.fileExt = ext → m'.stamp.length = m.stamp.length → rotatedName r' m' 0 = rotatedName r m 0 →
        m'.stamp = m.stamp ∧ r'.namePrefix ++ r'.baseName = dir ++ base := by
  have hname : fileName (dir ++ base ++ [46] ++ ext) = some (base ++ 46 :: ext) := by
    rw [fileName_iff]
    have hpos : 0 < base.length := List.length_pos_iff.mpr hb
    have hpos' : 0 < ext.length := List.length_pos_iff.mpr he
    have h2 : base ++ 46 :: ext ≠ [46, 46] := by
      intro h
      match base, ext, hb, he with
      | [a], [b], _, _ =>
        simp only [List.singleton_append, List.cons.injEq] at h
        obtain ⟨_, h⟩ := h
        simp at h
      | a :: a' :: base', b :: ext', _, _ =>
        have := congrArg List.length h
        simp only [List.length_append, List.length_cons, List.length_nil] at this
        omega
      | [a], b :: b' :: ext', _, _ =>
        have := congrArg List.length h
        simp only [List.length_append, List.length_cons, List.length_nil] at this
        omega
    refine ⟨⟨by simp, ?_, by simp [hb47, he47], dir, [], by simp, hdir, Filler.nil⟩, h2⟩
    intro h
    have := congrArg List.length h
    simp only [List.length_append, List.length_cons, List.length_nil] at this
    omega
  refine ⟨?_, ?_⟩
  · unfold rotationNames
    rw [hname]
    simp only [extension_dot base ext hb he46, Option.getD_some]
    have hne : ext.isEmpty = false := by simpa using he
    rw [if_neg (by simp [hne])]
    have t1 : (dir ++ base ++ [46] ++ ext).take ((dir ++ base ++ [46] ++ ext).length - (base ++ 46 :: ext).length) = dir := by
      have : (dir ++ base ++ [46] ++ ext).length - (base ++ 46 :: ext).length = dir.length := by
        simp only [List.length_append, List.length_cons, List.length_nil]; omega
      rw [this]
      simp
    have t2 : (base ++ 46 :: ext).take ((base ++ 46 :: ext).length - ext.length - 1) = base := by
      have : (base ++ 46 :: ext).length - ext.length - 1 = base.length := by
        simp only [List.length_append, List.length_cons]; omega
      rw [this]
      simp
    rw [t1, t2]
  · rintro r m rfl rfl rfl
    refine ⟨by simp [rotatedName], fun i => by simp [rotatedName], ?_, ?_⟩
    · intro hst i h
      have := congrArg List.length h
      have hp : 0 < m.stamp.length := List.length_pos_iff.mpr hst
      unfold rotatedName at this
      split at this <;> simp only [List.length_append, List.length_cons, List.length_nil] at this <;> omega
    · intro r' m' hext hlen h
      simp only [rotatedName, ↓reduceIte, hext] at h
      have h := List.append_cancel_right (List.append_cancel_right h)
      have h' := List.append_inj' h hlen
      exact ⟨h'.2, h'.1⟩

/-- Two texts that are the same after a last dot each are the same before it too. -/
theorem last_dot (a a' n n' : Str) (h : a ++ 46 :: n = a' ++ 46 :: n') (hn : 46 ∉ n) (hn' : 46 ∉ n') : a = a' ∧ n = n' := by
  have hlen : ∀ (a a' n n' : Str), a ++ 46 :: n = a' ++ 46 :: n' → 46 ∉ n → n.length ≤ n'.length := by
    intro a a' n n' h hn
    apply Nat.le_of_not_lt
    intro hlt
    apply hn
    have hl := congrArg List.length h
    simp only [List.length_append, List.length_cons] at hl
    have h1 : (a ++ 46 :: n)[a'.length]? = some 46 := by rw [h]; simp
    rw [List.getElem?_append_right (by omega)] at h1
    obtain ⟨k, hk⟩ : ∃ k, a'.length - a.length = k + 1 := ⟨a'.length - a.length - 1, by omega⟩
    rw [hk, List.getElem?_cons_succ] at h1
    exact List.mem_of_getElem? h1
  have hl := Nat.le_antisymm (hlen a a' n n' h hn) (hlen a' a n' n h.symm hn')
  have h' := List.append_inj' h (by simp only [List.length_cons, hl])
  exact ⟨h'.1, (List.cons.inj h'.2).2⟩

/-- **C95**, in whatever rounds the two names were tried: with dates `.%Y%m%d` (or with the hour) of the same length, and clocks that are
digits of another length, equal names mean the same date, the same log file, and the same clock if there is one. -/
theorem C95_rounds (r r' : Rotator) (m m' : Moment) (i j : Nat) (hext : r'.fileExt = r.fileExt) (s s' : Str) (hs : m.stamp = 46 :: s)
    (hs' : m'.stamp = 46 :: s') (hd : 46 ∉ s ∧ 46 ∉ s') (hlen : s'.length = s.length)
    (hn : 46 ∉ m.nanos i ∧ (m.nanos i).length ≠ s.length) (hn' : 46 ∉ m'.nanos j ∧ (m'.nanos j).length ≠ s.length)
    (h : rotatedName r' m' j = rotatedName r m i) :
    s' = s ∧ r'.namePrefix ++ r'.baseName = r.namePrefix ++ r.baseName ∧ (j = 0 ↔ i = 0) ∧ (i ≠ 0 → m'.nanos j = m.nanos i) := by
  unfold rotatedName at h
  simp only [hs, hs', hext] at h
  split at h <;> split at h <;> rename_i hj hi
  · have h := List.append_cancel_right (List.append_cancel_right h)
    have h' := List.append_inj' h (by simp only [List.length_cons, hlen])
    exact ⟨(List.cons.inj h'.2).2, h'.1, by simp [hi, hj], fun h0 => absurd hi h0⟩
  · have h := List.append_cancel_right (List.append_cancel_right h)
    have h' := last_dot (r'.namePrefix ++ r'.baseName) (r.namePrefix ++ r.baseName ++ 46 :: s) s' (m.nanos i)
      (by simpa [List.append_assoc] using h) hd.2 hn.1
    exact absurd (by rw [← h'.2, hlen]) hn.2
  · have h := List.append_cancel_right (List.append_cancel_right h)
    have h' := last_dot (r'.namePrefix ++ r'.baseName ++ 46 :: s') (r.namePrefix ++ r.baseName) (m'.nanos j) s
      (by simpa [List.append_assoc] using h) hn'.1 hd.1
    exact absurd (by rw [h'.2]) hn'.2
  · have h := List.append_cancel_right (List.append_cancel_right h)
    have h' := last_dot (r'.namePrefix ++ r'.baseName ++ 46 :: s') (r.namePrefix ++ r.baseName ++ 46 :: s) (m'.nanos j) (m.nanos i)
      (by simpa [List.append_assoc] using h) hn'.1 hn.1
    have h'' := List.append_inj' h'.1 (by simp only [List.length_cons, hlen])
    exact ⟨(List.cons.inj h''.2).2, h''.1, by simp [hi, hj], fun _ => h'.2⟩

example : rotationNames u!"./logs/web/TRACE.log" = some (u!"./logs/web/", u!"TRACE", u!"log") := by decide +kernel

end Httpd
