import Verif.Props.Rotation
import Verif.Spec.RotationLoss
/-!
# C172: a rotation loses at most one buffer
-/

namespace Httpd

open Spec

/-! ## The buffer never holds more than its capacity -/

theorem flushLoop_short (fuel : Nat) (d : Disk) (f : AFile) (rest : Bytes) : (flushLoop fuel d f rest).2.2.1.length ≤ rest.length := by
  induction fuel generalizing d f rest with
  | zero => simp [flushLoop]
  | succ fuel ih =>
    unfold flushLoop
    split
    · exact Nat.le_refl _
    · generalize fileWrite d f rest = x
      obtain ⟨d', f', o⟩ := x
      match o with
      | none => exact Nat.le_refl _
      | some 0 => exact Nat.le_refl _
      | some (n + 1) =>
        refine Nat.le_trans (ih d' f' _) ?_
        simp only [List.length_drop]; omega

theorem flushBuf_short (d : Disk) (w : BufW) : (flushBuf d w).2.1.buf.length ≤ w.buf.length := by
  have := flushLoop_short w.buf.length d w.file w.buf
  unfold flushBuf
  generalize flushLoop w.buf.length d w.file w.buf = x at this
  exact this

theorem bufWrite_short (d : Disk) (w : BufW) (src : Bytes) (h : w.buf.length ≤ w.cap) : (bufWrite d w src).2.1.buf.length ≤ w.cap := by
  unfold bufWrite
  by_cases hc : w.cap < w.buf.length + src.length
  · rw [if_pos hc]
    have h1 := flushBuf_short d w
    obtain ⟨_, h2, _, h4⟩ := flushBuf_spec d w
    generalize flushBuf d w = x at h1 h2 h4
    obtain ⟨d', w', ok⟩ := x
    cases ok with
    | false => simp only at h1 ⊢; omega
    | true =>
      simp only at h1 h2 h4 ⊢
      have hb := (h4 trivial).1
      split
      · simp only [hb, List.length_nil]; omega
      · simp only [hb, List.nil_append]; omega
  · rw [if_neg hc]
    simp only
    split
    · exact h
    · simp only [List.length_append]; omega

theorem writeLoop_short (fuel : Nat) (d : Disk) (w : BufW) (src : Bytes) (h : w.buf.length ≤ w.cap) :
    (writeLoop fuel d w src).2.1.buf.length ≤ w.cap := by
  induction fuel generalizing d w src with
  | zero => exact h
  | succ fuel ih =>
    unfold writeLoop
    split
    · exact h
    · have h1 := bufWrite_short d w src h
      obtain ⟨_, h2, _, _⟩ := bufWrite_spec d w src
      generalize bufWrite d w src = x at h1 h2
      obtain ⟨d', w', o⟩ := x
      simp only at h1 h2
      match o with
      | none => exact h1
      | some 0 => exact h1
      | some (n + 1) =>
        have := ih d' w' (src.drop (n + 1)) (by rw [h2]; exact h1)
        rw [h2] at this
        exact this

theorem fileAppend_short (d : Disk) (w : BufW) (src : Bytes) (h : w.buf.length ≤ w.cap) : (fileAppend d w src).2.1.buf.length ≤ w.cap :=
  writeLoop_short _ d w src h

/-! ## The parts of the log -/

/-- A part of the log, with the file as the system knows it and with what that file held before. -/
structure Part where
  ino : Nat
  old : Bytes
  kept : Bytes
  lost : Bytes

/-- Where all that was written is: `parts` in files given up, the rest in the current one, after `old`. -/
structure Parted (base : Bytes) (cap : Nat) (d : Disk) (r : Rotator) (out : Bytes) (parts : List Part) (old : Bytes) : Prop where
  sane : Sane d
  fresh : r.inner.file.ino < d.fs.next
  noFail : NoFail d
  named : Named d r.inner.file.ino
  capEq : r.inner.cap = cap
  short : r.inner.buf.length ≤ cap
  split : ∃ cur, out = (parts.map (fun p => p.kept ++ p.lost)).flatten ++ cur ∧ r.inner.total d = old ++ cur
  olds : parts.map (·.old) ++ [old] = base :: List.replicate parts.length []
  files : ∀ p ∈ parts, p.ino ≠ r.inner.file.ino ∧ Named d p.ino ∧ d.fs.data p.ino = p.old ++ p.kept ∧ p.lost.length ≤ cap
  distinct : (parts.map (·.ino)).Nodup
  begun : old <+: d.fs.data r.inner.file.ino

/-- A step on the current file. -/
theorem Parted.step {base : Bytes} {cap : Nat} {d d' : Disk} {r : Rotator} {w : BufW} {out : Bytes} {parts : List Part} {old : Bytes}
    (h : Parted base cap d r out parts old) (b : Bytes) (hi : w.file.ino = r.inner.file.ino) (hc : w.cap = r.inner.cap)
    (hs : SameBut r.inner.file.ino d d') (hn : NoFail d') (hb : w.buf.length ≤ cap) (ht : w.total d' = r.inner.total d ++ b) :
    Parted base cap d' { r with inner := w } (out ++ b) parts old := by
  refine ⟨sane_same hs h.sane, by simp only [hi, hs.2.1]; exact h.fresh, hn, by simp only [hi]; exact (named_same hs _).mpr h.named,
    by simp only [hc]; exact h.capEq, hb, ?_, h.olds, ?_, h.distinct, ?_⟩
  · obtain ⟨cur, h1, h2⟩ := h.split
    exact ⟨cur ++ b, by rw [h1, List.append_assoc], by simp only [ht, h2, List.append_assoc]⟩
  · intro p hp
    obtain ⟨f1, f2, f3, f4⟩ := h.files p hp
    simp only [hi]
    exact ⟨f1, (named_same hs _).mpr f2, by rw [hs.2.2.1 _ f1]; exact f3, f4⟩
  · simp only [hi]
    exact h.begun.trans hs.2.2.2

theorem Parted.append {base : Bytes} {cap : Nat} {d : Disk} {r : Rotator} {out : Bytes} {parts : List Part} {old : Bytes}
    (h : Parted base cap d r out parts old) (b : Bytes) :
    Parted base cap (fileAppend d r.inner b).1 { r with inner := (fileAppend d r.inner b).2.1 } (out ++ b) parts old ∧
      (fileAppend d r.inner b).2.2 = true := by
  obtain ⟨h1, h2, h3, h4⟩ := fileAppend_spec d r.inner b
  obtain ⟨g1, g2⟩ := fileAppend_ok d r.inner b h.noFail
  refine ⟨h.step b h1 h2 h3 g2 ?_ (h4 g1), g1⟩
  have := fileAppend_short d r.inner b (by rw [h.capEq]; exact h.short)
  rw [h.capEq] at this
  exact this

theorem Parted.flush {base : Bytes} {cap : Nat} {d : Disk} {r : Rotator} {out : Bytes} {parts : List Part} {old : Bytes}
    (h : Parted base cap d r out parts old) :
    Parted base cap (rotFlush d r).1 (rotFlush d r).2.1 out parts old ∧ (rotFlush d r).2.2 = true ∧ (rotFlush d r).2.1.inner.buf = [] ∧
      (rotFlush d r).2.1.inner.file.inflight = none ∧ (rotFlush d r).2.1.fp = r.fp := by
  obtain ⟨h1, h2, h3, h4⟩ := fileFlush_spec d r.inner
  obtain ⟨g1, g2⟩ := fileFlush_ok d r.inner h.noFail
  have ht := fileFlush_total d r.inner g1
  obtain ⟨h5, h6, _⟩ := h4 g1
  have hp := h.step (w := (fileFlush d r.inner).2.1) [] h1 h2 h3 g2 (by rw [h5]; exact Nat.zero_le _) (by rw [ht, List.append_nil])
  rw [List.append_nil] at hp
  exact ⟨hp, g1, h5, h6, rfl⟩

/-- A rotation onto a free name: what is in the buffer is lost. -/
theorem Parted.rotate {base : Bytes} {cap : Nat} {d : Disk} {r : Rotator} {out : Bytes} {parts : List Part} {old : Bytes}
    (h : Parted base cap d r out parts old) (m : Moment) (d' : Disk) (r' : Rotator) (ok : Bool)
    (hr : rotate d r m = .value (d', r', ok)) (hfree : m.now < r.rotateAt ∨ ∀ i, i < 10 → d.fs.names (rotatedName r m i) = none) :
    ∃ parts' old', Parted base cap d' r' out parts' old' ∧ r'.fp = r.fp ∧
      ((parts' = parts ∧ old' = old ∧ (m.now < r.rotateAt ∨ renameLoop r m d 10 0 = none ∨ m.openOk = false)) ∨
        ((∃ p, parts' = parts ++ [p] ∧ p.ino = r.inner.file.ino) ∧ old' = [] ∧ r'.inner.total d' = [] ∧ r.rotateAt ≤ m.now ∧
          d'.fs.names r.fp = some r'.inner.file.ino ∧ d'.fs.names r.fp ≠ d.fs.names r.fp)) := by
  unfold Httpd.rotate at hr
  split at hr
  · next hlt => cases hr; exact ⟨parts, old, h, rfl, Or.inl ⟨rfl, rfl, Or.inl hlt⟩⟩
  · next hdue =>
    have hfree : ∀ i, i < 10 → d.fs.names (rotatedName r m i) = none := by
      rcases hfree with h' | h'
      · exact absurd h' hdue
      · exact h'
    cases hl : renameLoop r m d 10 0 with
    | none =>
      rw [hl] at hr
      simp only at hr
      cases hn : m.next with
      | none => rw [hn] at hr; cases hr
      | some at' =>
        rw [hn] at hr
        cases hr
        exact ⟨parts, old, ⟨h.sane, h.fresh, h.noFail, h.named, h.capEq, h.short, h.split, h.olds, h.files, h.distinct, h.begun⟩, rfl,
          Or.inl ⟨rfl, rfl, Or.inr (Or.inl rfl)⟩⟩
    | some d1 =>
      have hfp : ∃ i, d.fs.names r.fp = some i := by
        cases hx : d.fs.names r.fp with
        | some i => exact ⟨i, rfl⟩
        | none => rw [renameLoop_none_names r m d hx] at hl; cases hl
      obtain ⟨i0, hi0⟩ := hfp
      rw [hl] at hr
      simp only at hr
      obtain ⟨e1, e2, e3, e4, e5⟩ := renameLoop_spec r m d 10 0 d1 hl (fun j _ hj => hfree j (by omega))
      have hs1 : Sane d1 := by
        intro n ino hn
        obtain ⟨n', hn'⟩ := (e5 ino).mp ⟨n, hn⟩
        rw [e2]
        exact h.sane n' ino hn'
      have hk1 : Parted base cap d1 r out parts old := by
        refine ⟨hs1, by rw [e2]; exact h.fresh, by intro o ho; rw [e3] at ho; exact h.noFail o ho, (e5 _).mpr h.named, h.capEq, h.short, ?_,
          h.olds, ?_, h.distinct, ?_⟩
        · simpa only [BufW.total, AFile.total, e1] using h.split
        · intro p hp
          obtain ⟨f1, f2, f3, f4⟩ := h.files p hp
          exact ⟨f1, (e5 _).mpr f2, by rw [e1]; exact f3, f4⟩
        · rw [e1]; exact h.begun
      split at hr
      · -- reopened
        unfold reopen at hr
        simp only [Disk.openFile, e4] at hr
        generalize hd2 : ({ d1 with fs := ⟨fun n => if n = r.fp then some d1.fs.next else d1.fs.names n,
          fun i => if i = d1.fs.next then [] else d1.fs.data i, d1.fs.next + 1⟩ } : Disk) = d2 at hr
        have f1 : ∀ i, i ≠ d1.fs.next → d2.fs.data i = d1.fs.data i := by intro i hi; rw [← hd2]; simp [hi]
        have f2 : d2.fs.data d1.fs.next = [] := by rw [← hd2]; simp
        have f3 : ∀ i, Named d1 i → Named d2 i := by
          rintro i ⟨n, hn⟩
          have : n ≠ r.fp := by rintro rfl; rw [e4] at hn; cases hn
          exact ⟨n, by rw [← hd2]; simp [this, hn]⟩
        have f4 : d2.fs.names r.fp = some d1.fs.next := by rw [← hd2]; simp
        have f5 : d2.fs.next = d1.fs.next + 1 := by rw [← hd2]
        have f6 : NoFail d2 := by intro o ho; rw [← hd2] at ho; exact hk1.noFail o ho
        have f7 : Sane d2 := by
          intro n ino hn
          rw [f5]
          rw [← hd2] at hn
          simp only at hn
          split at hn
          · simp only [Option.some.injEq] at hn; omega
          · have := hs1 n ino hn; omega
        obtain ⟨g1, g2, g3, g4⟩ := settle_spec d2 r.inner.file
        obtain ⟨g5, g6⟩ := settle_ok d2 r.inner.file f6
        have g7 := g4 g5
        generalize settle d2 r.inner.file = x at hr g1 g2 g3 g4 g5 g6 g7
        obtain ⟨d3, f, okx⟩ := x
        simp only at g1 g2 g3 g4 g5 g6 g7
        cases hn : m.next with
        | none => rw [hn] at hr; cases hr
        | some at' =>
          rw [hn] at hr
          simp only [Outcome.value.injEq, Prod.mk.injEq] at hr
          obtain ⟨rfl, rfl, rfl⟩ := hr
          have hcur : r.inner.file.ino ≠ d1.fs.next := by have := hk1.fresh; omega
          have hnew3 : d3.fs.data d1.fs.next = [] := by rw [g3.2.2.1 _ (Ne.symm hcur), f2]
          obtain ⟨cur, hsp, htot⟩ := hk1.split
          -- what is on the disk of the part given up, and what is not
          have hdata : d3.fs.data r.inner.file.ino ++ r.inner.buf = old ++ cur := by
            rw [g7, ← htot]
            simp only [BufW.total, AFile.total, f1 _ hcur]
          have hpre : old <+: d3.fs.data r.inner.file.ino := by
            rw [g7]
            simp only [AFile.total, f1 _ hcur]
            exact hk1.begun.trans (List.prefix_append _ _)
          obtain ⟨kept, hkept⟩ := hpre
          have hcurs : kept ++ r.inner.buf = cur := by
            rw [← hkept, List.append_assoc] at hdata
            exact List.append_cancel_left hdata
          refine ⟨parts ++ [⟨r.inner.file.ino, old, kept, r.inner.buf⟩], [], ?_, rfl, Or.inr ⟨⟨_, rfl, rfl⟩, rfl,
            by simp [BufW.total, AFile.total, hnew3], Nat.not_lt.mp hdue, by rw [g3.1, f4], ?_⟩⟩
          · refine ⟨sane_same g3 f7, by simp only [g3.2.1, f5]; omega, g6, (named_same g3 _).mpr ⟨r.fp, f4⟩, hk1.capEq, by simp, ?_, ?_, ?_, ?_, ?_⟩
            · refine ⟨[], ?_, ?_⟩
              · simp only [List.map_append, List.map_cons, List.map_nil, List.flatten_append, List.flatten_cons, List.flatten_nil,
                  List.append_nil, hcurs, hsp]
              · simp [BufW.total, AFile.total, hnew3]
            · have := hk1.olds
              simp only [List.map_append, List.map_cons, List.map_nil, List.length_append, List.length_cons, List.length_nil, this]
              rw [List.replicate_succ']; rfl
            · intro p hp
              rcases List.mem_append.mp hp with hp | hp
              · obtain ⟨k1, k2, k3, k4⟩ := hk1.files p hp
                have hi : p.ino ≠ d1.fs.next := by
                  obtain ⟨n, hn⟩ := k2
                  have := hs1 n _ hn
                  omega
                exact ⟨hi, (named_same g3 _).mpr (f3 _ k2), by rw [g3.2.2.1 _ k1, f1 _ hi]; exact k3, k4⟩
              · rw [List.mem_singleton.mp hp]
                exact ⟨hcur, (named_same g3 _).mpr (f3 _ hk1.named), hkept.symm, hk1.short⟩
            · rw [List.map_append, List.nodup_append]
              refine ⟨hk1.distinct, by simp, ?_⟩
              intro a ha b hb
              obtain ⟨p, hp, rfl⟩ := List.mem_map.mp ha
              simp only [List.map_cons, List.map_nil, List.mem_singleton] at hb
              rw [hb]
              exact (hk1.files p hp).1
            · exact List.nil_prefix
          · rw [g3.1, f4, hi0]
            intro he
            simp only [Option.some.injEq] at he
            have := h.sane _ _ hi0
            omega
      · next hop =>
        cases hn : m.next with
        | none => rw [hn] at hr; cases hr
        | some at' =>
          rw [hn] at hr
          cases hr
          exact ⟨parts, old, ⟨hk1.sane, hk1.fresh, hk1.noFail, hk1.named, hk1.capEq, hk1.short, hk1.split, hk1.olds, hk1.files, hk1.distinct,
            hk1.begun⟩, rfl, Or.inl ⟨rfl, rfl, Or.inr (Or.inr (by simpa using hop))⟩⟩

/-- A write. -/
theorem Parted.write {base : Bytes} {cap : Nat} {d : Disk} {r : Rotator} {out : Bytes} {parts : List Part} {old : Bytes}
    (h : Parted base cap d r out parts old) (b : Bytes) (m : Moment) (d1 : Disk) (r1 : Rotator) (ok1 : Bool)
    (ha : rotAppend d r m b = .value (d1, r1, ok1)) (hc1 : m.now < r.rotateAt ∨ ∀ i, i < 10 → d.fs.names (rotatedName r m i) = none) :
    ok1 = true ∧ ∃ parts' old', Parted base cap d1 r1 (out ++ b) parts' old' ∧ r1.fp = r.fp ∧
      (∀ p ∈ parts', p ∈ parts ∨ p.ino = r.inner.file.ino) ∧
      (parts'.length = parts.length ∨ (parts'.length = parts.length + 1 ∧ d1.fs.names r.fp ≠ d.fs.names r.fp)) := by
  obtain ⟨k1, k2⟩ := h.append b
  obtain ⟨h1, _, h3, _⟩ := fileAppend_spec d r.inner b
  unfold rotAppend at ha
  generalize fileAppend d r.inner b = y at ha k1 k2 h1 h3
  obtain ⟨d2, w2, ok2⟩ := y
  simp only at k1 k2 h1 h3
  subst k2
  simp only at ha
  cases hr : Httpd.rotate d2 { r with inner := w2 } m with
  | error => rw [hr] at ha; cases ha
  | panic => rw [hr] at ha; cases ha
  | value z =>
    obtain ⟨d3, r3, ok3⟩ := z
    rw [hr] at ha
    simp only [Outcome.value.injEq, Prod.mk.injEq] at ha
    obtain ⟨rfl, rfl, rfl⟩ := ha
    obtain ⟨parts', old', j1, j2, j3⟩ := k1.rotate m d3 r3 ok3 hr (by rw [h3.1]; exact hc1)
    refine ⟨rfl, parts', old', j1, j2, ?_⟩
    rcases j3 with ⟨rfl, _⟩ | ⟨⟨p, rfl, j4⟩, _, _, _, _, j5⟩
    · exact ⟨fun p hp => Or.inl hp, Or.inl rfl⟩
    · refine ⟨?_, Or.inr ⟨by simp, by rw [← h3.1]; exact j5⟩⟩
      intro q hq
      rcases List.mem_append.mp hq with hq | hq
      · exact Or.inl hq
      · rw [List.mem_singleton.mp hq, j4]; exact Or.inr h1

/-- Any calls. -/
theorem parted_perform (base : Bytes) (cap : Nat) (ops : List RotOp) (d : Disk) (r : Rotator) (out : Bytes) (parts : List Part) (old : Bytes)
    (h : Parted base cap d r out parts old) (hfree : FreeNames d r ops) (d' : Disk) (r' : Rotator) (ok : Bool)
    (hp : rotPerform d r ops = .value (d', r', ok)) :
    ok = true ∧ ∃ parts' old', Parted base cap d' r' (out ++ (records ops).flatten) parts' old' ∧
      parts'.length ≤ parts.length + (rotTimes d r ops).length := by
  induction ops generalizing d r out parts old ok with
  | nil =>
    simp only [rotPerform, Outcome.value.injEq, Prod.mk.injEq] at hp
    obtain ⟨rfl, rfl, rfl⟩ := hp
    exact ⟨rfl, parts, old, by simpa [records] using h, Nat.le_add_right _ _⟩
  | cons op ops ih =>
    cases op with
    | write b m =>
      obtain ⟨hc1, hc2⟩ := hfree
      simp only [rotPerform] at hp
      cases ha : rotAppend d r m b with
      | error => rw [ha] at hp; cases hp
      | panic => rw [ha] at hp; cases hp
      | value x =>
        obtain ⟨d1, r1, ok1⟩ := x
        obtain ⟨hk0, parts1, old1, hk1, _, _, hk2⟩ := h.write b m d1 r1 ok1 ha hc1
        have hrt : rotTimes d r (.write b m :: ops) =
            (if d1.fs.names r.fp = d.fs.names r.fp then [] else [m.now]) ++ rotTimes d1 r1 ops := by
          simp only [rotTimes, ha]
        rw [ha] at hp hc2
        simp only at hp hc2
        cases hp2 : rotPerform d1 r1 ops with
        | error => rw [hp2] at hp; cases hp
        | panic => rw [hp2] at hp; cases hp
        | value z =>
          obtain ⟨d3, r3, ok3⟩ := z
          rw [hp2] at hp
          simp only [Outcome.value.injEq, Prod.mk.injEq] at hp
          obtain ⟨rfl, rfl, rfl⟩ := hp
          obtain ⟨i1, parts2, old2, i2, i3⟩ := ih d1 r1 (out ++ b) parts1 old1 hk1 hc2 ok3 hp2
          refine ⟨by simp [hk0, i1], parts2, old2, by simpa [records, List.append_assoc] using i2, ?_⟩
          rw [hrt]
          rcases hk2 with hk2 | ⟨hk2, hk3⟩
          · simp only [List.length_append]; omega
          · rw [if_neg hk3]
            simp only [List.length_append, List.length_cons, List.length_nil]; omega
    | flush =>
      simp only [rotPerform] at hp
      obtain ⟨k1, k2, _, _, _⟩ := h.flush
      have hc := hfree
      simp only [FreeNames] at hc
      have hrt : rotTimes d r (.flush :: ops) = rotTimes (rotFlush d r).1 (rotFlush d r).2.1 ops := rfl
      generalize rotFlush d r = y at hp k1 k2 hc hrt
      obtain ⟨d1, r1, ok1⟩ := y
      simp only at k1 k2 hc hp hrt
      cases hp2 : rotPerform d1 r1 ops with
      | error => rw [hp2] at hp; cases hp
      | panic => rw [hp2] at hp; cases hp
      | value z =>
        obtain ⟨d3, r3, ok3⟩ := z
        rw [hp2] at hp
        simp only [Outcome.value.injEq, Prod.mk.injEq] at hp
        obtain ⟨rfl, rfl, rfl⟩ := hp
        obtain ⟨i1, parts2, old2, i2, i3⟩ := ih d1 r1 out parts old k1 hc ok3 hp2
        exact ⟨by simp [k2, i1], parts2, old2, by simpa [records] using i2, by rw [hrt]; exact i3⟩

/-- A name of a file. -/
noncomputable def nameOf (d : Disk) (i : Nat) : Str := open Classical in if h : Named d i then Classical.choose h else []

theorem nameOf_spec {d : Disk} {i : Nat} (h : Named d i) : d.fs.names (nameOf d i) = some i := by
  unfold nameOf
  rw [dif_pos h]
  exact Classical.choose_spec h

theorem lossAtMost_mono {n n' size : Nat} {before after : Disk} {fp : Str} {out : Bytes} (h : LossAtMost n size before after fp out) (hn : n ≤ n') :
    LossAtMost n' size before after fp out := by
  obtain ⟨first, rest, h1, h2, h3, h4, h5, h6, h7⟩ := h
  exact ⟨first, rest, h1, h2, h3, h4, h5, h6, Nat.le_trans h7 hn⟩

/-- What is on the disk. -/
theorem Parted.logFiles {cap : Nat} {d0 d2 : Disk} {fp : Str} {r2 : Rotator} {out : Bytes} {parts : List Part} {old : Bytes}
    (hk' : Parted (content d0 fp) cap d2 r2 out parts old) :
    ∃ cur first rest, LogFiles cap d0 d2 fp first rest ∧ d2.fs.data r2.inner.file.ino = old ++ cur ∧
      (first :: rest).map (fun p => p.kept ++ p.lost) = parts.map (fun p => p.kept ++ p.lost) ++ [cur] ∧
      out = (parts.map (fun p => p.kept ++ p.lost)).flatten ++ cur ++ (r2.inner.file.inflight.getD [] ++ r2.inner.buf) := by
  obtain ⟨cur', hsp, htot⟩ := hk'.split
  obtain ⟨cur, hcur⟩ := hk'.begun
  have hcur := hcur.symm
  have hcc : cur' = cur ++ (r2.inner.file.inflight.getD [] ++ r2.inner.buf) := by
    simp only [BufW.total, AFile.total, hcur, List.append_assoc] at htot
    exact (List.append_cancel_left htot).symm
  suffices H : ∃ first rest, LogFiles cap d0 d2 fp first rest ∧
      (first :: rest).map (fun p => p.kept ++ p.lost) = parts.map (fun p => p.kept ++ p.lost) ++ [cur] by
    obtain ⟨first, rest, h1, h2⟩ := H
    exact ⟨cur, first, rest, h1, hcur, h2, by rw [hsp, hcc, List.append_assoc]⟩
  · -- all parts
    have hall : ∃ all : List Part, all = parts ++ [⟨r2.inner.file.ino, old, cur, []⟩] := ⟨_, rfl⟩
    obtain ⟨all, hall⟩ := hall
    have a1 : parts.map (fun p => p.kept ++ p.lost) ++ [cur] = all.map (fun p => p.kept ++ p.lost) := by
      rw [hall]; simp
    have a2 : ∀ p ∈ all, Named d2 p.ino ∧ d2.fs.data p.ino = p.old ++ p.kept ∧ p.lost.length ≤ cap := by
      intro p hp
      rw [hall] at hp
      rcases List.mem_append.mp hp with hp | hp
      · exact (hk'.files p hp).2
      · rw [List.mem_singleton.mp hp]
        exact ⟨hk'.named, hcur, by simp⟩
    have a3 : (all.map (·.ino)).Nodup := by
      rw [hall, List.map_append, List.nodup_append]
      refine ⟨hk'.distinct, by simp, ?_⟩
      intro a ha b hb
      obtain ⟨p, hp, rfl⟩ := List.mem_map.mp ha
      simp only [List.map_cons, List.map_nil, List.mem_singleton] at hb
      rw [hb]
      exact (hk'.files p hp).1
    have a4 : all.map (·.old) = content d0 fp :: List.replicate parts.length [] := by
      rw [hall, List.map_append]; exact hk'.olds
    have a5 : ∀ h : all ≠ [], (all.getLast h).lost = [] := by
      subst hall; intro h; simp
    have a6 : all.length = parts.length + 1 := by rw [hall]; simp
    clear hall hsp htot hcur hcc
    cases all with
    | nil => simp at a6
    | cons p ps =>
      simp only [List.map_cons, List.cons.injEq] at a4
      obtain ⟨a4, a7⟩ := a4
      have name_inj : ∀ i j, Named d2 i → Named d2 j → nameOf d2 i = nameOf d2 j → i = j := by
        intro i j hi hj he
        have h1 := nameOf_spec hi
        rw [he, nameOf_spec hj] at h1
        simpa using h1.symm
      refine ⟨⟨nameOf d2 p.ino, p.kept, p.lost⟩, ps.map (fun p => ⟨nameOf d2 p.ino, p.kept, p.lost⟩), ⟨?_, ?_, ?_, ?_, ?_⟩, ?_⟩
      · obtain ⟨b1, b2, _⟩ := a2 p List.mem_cons_self
        simp [content, nameOf_spec b1, b2, a4]
      · intro q hq
        obtain ⟨p', hp', rfl⟩ := List.mem_map.mp hq
        obtain ⟨b1, b2, _⟩ := a2 p' (List.mem_cons_of_mem _ hp')
        have : p'.old = [] := by
          have : p'.old ∈ ps.map (·.old) := List.mem_map.mpr ⟨p', hp', rfl⟩
          rw [a7] at this
          exact List.eq_of_mem_replicate this
        simp [content, nameOf_spec b1, b2, this]
      · have : ((p :: ps).map (fun p => nameOf d2 p.ino)).Nodup := by
          have hn := a3
          rw [List.nodup_iff_pairwise_ne, List.pairwise_map] at hn ⊢
          refine List.Pairwise.imp_of_mem ?_ hn
          intro a b ha hb hab he
          exact hab (name_inj _ _ (a2 a ha).1 (a2 b hb).1 he)
        simpa [Function.comp_def] using this
      · intro q hq
        rcases List.mem_cons.mp hq with rfl | hq
        · exact (a2 p List.mem_cons_self).2.2
        · obtain ⟨p', hp', rfl⟩ := List.mem_map.mp hq
          exact (a2 p' (List.mem_cons_of_mem _ hp')).2.2
      · intro q hq
        have hm : ((p :: ps).map (fun p => (⟨nameOf d2 p.ino, p.kept, p.lost⟩ : LogPart))).getLast? = some q := hq
        rw [List.getLast?_map, List.getLast?_eq_some_getLast (List.cons_ne_nil _ _)] at hm
        simp only [Option.map_some, Option.some.injEq] at hm
        rw [← hm]
        exact a5 _
      · rw [a1]; simp [Function.comp_def]

theorem Parted.loss {cap : Nat} {d0 d2 : Disk} {fp : Str} {r2 : Rotator} {out : Bytes} {parts : List Part} {old : Bytes}
    (hk' : Parted (content d0 fp) cap d2 r2 out parts old) :
    ∃ out', LossAtMost parts.length cap d0 d2 fp out' ∧ out = out' ++ (r2.inner.file.inflight.getD [] ++ r2.inner.buf) ∧
      (parts = [] → d2.fs.data r2.inner.file.ino = content d0 fp ++ out') := by
  obtain ⟨cur, first, rest, ⟨h1, h2, h3, h4, h5⟩, h6, h7, h8⟩ := hk'.logFiles
  refine ⟨(parts.map (fun p => p.kept ++ p.lost)).flatten ++ cur, ⟨first, rest, by rw [h7]; simp, h1, h2, h3, h4, h5, ?_⟩, h8, ?_⟩
  · have := congrArg List.length h7
    simp at this
    omega
  · intro hp
    subst hp
    have := hk'.olds
    simp only [List.map_nil, List.nil_append, List.length_nil, List.replicate_zero, List.cons.injEq, and_true] at this
    rw [h6, this]
    simp

/-- **C172** A rotation loses at most one buffer of bytes, from the end of what was written before it: if no write of the system fails and
the dated names are free, then after any calls and a flush every call has succeeded and there are as many gaps as there were rotations at most,
none of them longer than the buffer. -/
theorem C172_loss (d0 : Disk) (hs : Sane d0) (hok : NoFail d0) (fp : Str) (bufsize at' : Nat) (d : Disk) (r : Rotator)
    (hnew : rotNew d0 fp bufsize at' = some (d, r)) (ops : List RotOp) (hfree : FreeNames d r ops) (d1 d2 : Disk) (r1 r2 : Rotator)
    (ok1 ok2 : Bool) (hp : rotPerform d r ops = .value (d1, r1, ok1)) (hf : rotFlush d1 r1 = (d2, r2, ok2)) :
    ok1 = true ∧ ok2 = true ∧ LossAtMost (rotTimes d r ops).length (bufferSize bufsize) d0 d2 fp (records ops).flatten := by
  have hk0 : Parted (content d0 fp) (bufferSize bufsize) d r [] [] (content d0 fp) := by
    obtain ⟨o1, o2, o3, o4, o5, o6⟩ := openFile_spec d0 hs fp
    unfold rotNew at hnew
    cases hn : rotationNames fp with
    | none => rw [hn] at hnew; cases hnew
    | some x =>
      obtain ⟨p, b, e⟩ := x
      rw [hn] at hnew
      simp only [fileNew, Option.some.injEq, Prod.mk.injEq] at hnew
      obtain ⟨rfl, rfl⟩ := hnew
      refine ⟨o3, o3 _ _ o1, by intro o ho; rw [o6] at ho; exact hok o ho, ⟨fp, o1⟩, rfl, by simp, ?_, by simp, by simp, by simp, ?_⟩
      · exact ⟨[], rfl, by simp [BufW.total, AFile.total, o2]⟩
      · simp only [o2]; exact List.prefix_refl _
  obtain ⟨hok1, parts, old, hk, hlen⟩ := parted_perform _ _ ops d r [] [] _ hk0 hfree d1 r1 ok1 hp
  obtain ⟨hk', hok2, hbuf, hfl, _⟩ := hk.flush
  rw [hf] at hk' hok2 hbuf hfl
  simp only [List.nil_append, List.length_nil, Nat.zero_add] at hk' hok2 hbuf hfl hlen
  refine ⟨hok1, hok2, ?_⟩
  obtain ⟨out', hl, ho, _⟩ := hk'.loss
  rw [hbuf, hfl, Option.getD_none, List.append_nil, List.append_nil] at ho
  rw [ho]
  exact lossAtMost_mono hl hlen

/-- **C71**, what holds, for runs with flushes in between (`none`): the same as `C71_once_partial`. -/
theorem C71_flushes_partial (z : Zone) (p : Int) (date : Int → Str) (d : Disk) (r : Rotator) (t : Int) (ops : List (Option Timed))
    (hstart : endOf z p t = some r.rotateAt) (hl : NotLong z p t) (hws : InTime z p date t (ops.filterMap id))
    (hall : ∀ w, some w ∈ ops → NotLong z p w.later ∧ period z p w.moment.now ≤ period z p w.later) :
    (period z p t :: (rotTimes d r (ops.map timedOp)).map (fun n : Nat => period z p n)).Pairwise (· < ·) := by
  suffices H : ∀ (ops : List (Option Timed)) (d : Disk) (r : Rotator) (t0 t : Int), endOf z p t0 = some r.rotateAt → NotLong z p t0 →
      InTime z p date t (ops.filterMap id) →
      (∀ w, some w ∈ ops → NotLong z p w.later ∧ period z p w.moment.now ≤ period z p w.later) →
      (period z p t0 :: (rotTimes d r (ops.map timedOp)).map (fun n : Nat => period z p n)).Pairwise (· < ·) from H ops d r t t hstart hl hws hall
  clear hstart hl hws hall
  intro ops
  induction ops with
  | nil => intros; simp [rotTimes]
  | cons o ops ih =>
    intro d r t0 t hstart hl hws hall
    have hall' : ∀ w, some w ∈ ops → NotLong z p w.later ∧ period z p w.moment.now ≤ period z p w.later :=
      fun w hw => hall w (List.mem_cons_of_mem _ hw)
    cases o with
    | none =>
      simp only [List.map_cons, timedOp, rotTimes]
      exact ih _ _ t0 t (by simpa [rotFlush] using hstart) hl (by simpa using hws) hall'
    | some w =>
      simp only [List.filterMap_cons, id_eq] at hws
      obtain ⟨_, h2, h3, _, h5⟩ := hws
      obtain ⟨hn1, hn2⟩ := hall w (List.mem_cons_self ..)
      simp only [List.map_cons, timedOp, rotTimes]
      cases ha : rotAppend d r w.moment w.record with
      | error => simp
      | panic => simp
      | value x =>
        obtain ⟨d', r', ok⟩ := x
        obtain ⟨k1, k2⟩ := rotAppend_cases _ _ _ _ _ _ _ ha
        simp only
        rcases k2 with ⟨a1, a2, a3⟩ | ⟨a1, a2⟩
        · rw [a3]
          simp only [↓reduceIte, List.nil_append]
          exact ih d' r' t0 w.later (by rw [a2]; exact hstart) hl h5 hall'
        · have hlt : period z p t0 < period z p w.moment.now := endOf_over hstart hl (by omega)
          have := ih d' r' w.later w.later (by rw [← h3, a2]) hn1 h5 hall'
          rw [List.pairwise_cons] at this
          obtain ⟨b1, b2⟩ := this
          split
          · simp only [List.nil_append, List.pairwise_cons]
            exact ⟨fun x hx => by have := b1 x hx; omega, b2⟩
          · simp only [List.cons_append, List.nil_append, List.map_cons, List.pairwise_cons]
            refine ⟨?_, fun x hx => by have := b1 x hx; omega, b2⟩
            intro x hx
            rcases List.mem_cons.mp hx with rfl | hx
            · exact hlt
            · have := b1 x hx; omega

theorem records_timed (ops : List (Option Timed)) : records (ops.map timedOp) = (ops.filterMap id).map (·.record) := by
  induction ops with
  | nil => rfl
  | cons o ops ih =>
    cases o with
    | none => simpa [timedOp, records] using ih
    | some w => simpa [timedOp, records] using ih

/-- **C172** ... and so at most one buffer for each new day (hour) in which something is written, as long as no day (hour) is longer than 24 hours
(one hour), see C71. Flushes (`none`) may come anywhere. -/
theorem C172_per_day (d0 : Disk) (hs : Sane d0) (hok : NoFail d0) (fp : Str) (bufsize at' : Nat) (d : Disk) (r : Rotator)
    (hnew : rotNew d0 fp bufsize at' = some (d, r)) (z : Zone) (p : Int) (date : Int → Str) (t : Int) (ops : List (Option Timed))
    (hstart : endOf z p t = some r.rotateAt) (hl : NotLong z p t) (hws : InTime z p date t (ops.filterMap id))
    (hall : ∀ w, some w ∈ ops → NotLong z p w.later ∧ period z p w.moment.now ≤ period z p w.later)
    (hfree : FreeNames d r (ops.map timedOp)) (d1 d2 : Disk) (r1 r2 : Rotator) (ok1 ok2 : Bool)
    (hp : rotPerform d r (ops.map timedOp) = .value (d1, r1, ok1)) (hf : rotFlush d1 r1 = (d2, r2, ok2)) :
    ∃ days : List Int, (period z p t :: days).Pairwise (· < ·) ∧ (∀ k ∈ days, ∃ w, some w ∈ ops ∧ k = period z p w.moment.now) ∧
      LossAtMost days.length (bufferSize bufsize) d0 d2 fp ((ops.filterMap id).map (·.record)).flatten := by
  refine ⟨_, C71_flushes_partial z p date d r t ops hstart hl hws hall, ?_, ?_⟩
  · clear hfree hp hws hall hstart hnew
    induction ops generalizing d r with
    | nil => intro k hk; simp [rotTimes] at hk
    | cons o ops ih =>
      intro k hk
      cases o with
      | none =>
        simp only [List.map_cons, timedOp, rotTimes] at hk
        obtain ⟨w', h1, h2⟩ := ih _ _ k hk
        exact ⟨w', List.mem_cons_of_mem _ h1, h2⟩
      | some w =>
        simp only [List.map_cons, timedOp, rotTimes] at hk
        cases ha : rotAppend d r w.moment w.record with
        | error => rw [ha] at hk; simp at hk
        | panic => rw [ha] at hk; simp at hk
        | value x =>
          obtain ⟨d', r', ok⟩ := x
          rw [ha] at hk
          simp only [List.map_append, List.mem_append] at hk
          rcases hk with hk | hk
          · split at hk
            · simp at hk
            · simp only [List.map_cons, List.map_nil, List.mem_singleton] at hk
              exact ⟨w, List.mem_cons_self, hk⟩
          · obtain ⟨w', h1, h2⟩ := ih d' r' k hk
            exact ⟨w', List.mem_cons_of_mem _ h1, h2⟩
  · obtain ⟨_, _, h⟩ := C172_loss d0 hs hok fp bufsize at' d r hnew _ hfree d1 d2 r1 r2 ok1 ok2 hp hf
    rw [records_timed] at h
    rw [List.length_map]
    exact h

private def decFree (d : Disk) (r : Rotator) : (ops : List RotOp) → Decidable (FreeNames d r ops)
  | [] => .isTrue trivial
  | .write b m :: ops => by
    unfold FreeNames
    cases rotAppend d r m b with
    | value x => exact @instDecidableAnd _ _ _ (decFree x.1 x.2.1 ops)
    | error => infer_instance
    | panic => infer_instance
  | .flush :: ops => by
    unfold FreeNames
    exact decFree _ _ ops

private instance (d : Disk) (r : Rotator) (ops : List RotOp) : Decidable (FreeNames d r ops) := decFree d r ops

private def empty : Disk := ⟨⟨fun _ => none, fun _ => [], 0⟩, []⟩

private def when' (s : Int) : Moment :=
  ⟨s.toNat, 46 :: List.replicate (period (fixedZone 0) dayMs s).toNat 49, fun _ => u!"7", fun _ => true, true, endOf (fixedZone 0) dayMs s⟩

private def threeDays : List RotOp :=
  [.write b!"a" (when' 133200000), .flush, .write b!"b" (when' 172800005), .write b!"c" (when' 180000000), .write b!"d" (when' 345600000)]

/-- Writes on day 1, twice on day 2, and on day 4: the dated names are free, there are two rotations, and each of the two loses what was in the
buffer: `b` is missing at the end of the first file, `cd` at the end of the second, the last file is empty. -/
example : (rotNew empty u!"l/a.log" 8192 172800000).map (fun x => (decide (FreeNames x.1 x.2 threeDays), rotTimes x.1 x.2 threeDays)) =
    some (true, [172800005, 345600000]) := by decide +kernel

example : (rotNew empty u!"l/a.log" 8192 172800000).map (fun x => match rotPerform x.1 x.2 threeDays with
    | .value (d, r, ok) => (ok, [u!"l/a.11.log", u!"l/a.1111.log", u!"l/a.log"].map (content (rotFlush d r).1))
    | _ => (false, [])) = some (true, [b!"a", [], []]) := by decide +kernel

private def timedDays : List (Option Timed) :=
  [some ⟨b!"a", when' 133200000, 133200001⟩, none, some ⟨b!"b", when' 172800005, 172800006⟩, some ⟨b!"c", when' 180000000, 180000000⟩,
    some ⟨b!"d", when' 345600000, 345600000⟩]

/-- The same run meets the hypotheses of `C71_flushes_partial` and `C172_per_day`, with the file opened on day 1. -/
example : timedDays.map timedOp = threeDays := rfl

example : (rotNew empty u!"l/a.log" 8192 172800000).map (fun x => some x.2.rotateAt) = some (endOf (fixedZone 0) dayMs 90000000) := by decide +kernel

example : InTime (fixedZone 0) dayMs (fun k => 46 :: List.replicate k.toNat 49) 90000000 (timedDays.filterMap id) := by
  simp only [timedDays, InTime, List.filterMap_cons, List.filterMap_nil, id_eq]
  decide +kernel

example : ∀ w, some w ∈ timedDays → NotLong (fixedZone 0) dayMs w.later ∧
    period (fixedZone 0) dayMs w.moment.now ≤ period (fixedZone 0) dayMs w.later := by
  intro w hw
  obtain ⟨h1, h2⟩ := fixedZone_notLong 0 w.later dayMs (by decide)
  refine ⟨h1, h2 _ _ ?_⟩
  simp only [timedDays, List.mem_cons, Option.some.injEq, List.not_mem_nil, or_false, reduceCtorEq, false_or] at hw
  rcases hw with rfl | rfl | rfl | rfl <;> decide

end Httpd
