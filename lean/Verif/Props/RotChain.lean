import Verif.Props.RotationLoss
import Verif.Props.LogChain
/-!
# C173: from a connection to log files that rotate
-/

namespace Httpd

open Spec MultiMap

/-! ## What a call on one file does to the others -/

/-- A call on the file `q`, which then writes to the file `q'`: other files keep their contents and stay reachable. -/
structure Beside (q q' : Nat) (d d' : Disk) : Prop where
  sane : Sane d'
  noFail : NoFail d'
  data : ∀ ino, ino < d.fs.next → ino ≠ q → d'.fs.data ino = d.fs.data ino
  named : ∀ ino, Named d ino → Named d' ino
  mono : d.fs.next ≤ d'.fs.next
  ino : q' = q ∨ (d.fs.next ≤ q' ∧ q' < d'.fs.next)

/-- All names but one keep their meaning. -/
def KeepsNames (fp : Str) (d d' : Disk) : Prop := ∀ n ino, n ≠ fp → d.fs.names n = some ino → d'.fs.names n = some ino

theorem Beside.trans {q q2 : Nat} {d d1 d2 : Disk} (h : Beside q q d d1) (h' : Beside q q2 d1 d2) : Beside q q2 d d2 := by
  refine ⟨h'.sane, h'.noFail, ?_, fun ino hn => h'.named ino (h.named ino hn), Nat.le_trans h.mono h'.mono, ?_⟩
  · intro ino hlt hne
    rw [h'.data ino (Nat.lt_of_lt_of_le hlt h.mono) hne, h.data ino hlt hne]
  · rcases h'.ino with h2 | ⟨h2, h3⟩
    · exact Or.inl h2
    · exact Or.inr ⟨Nat.le_trans h.mono h2, h3⟩

theorem beside_same {q : Nat} {d d' : Disk} (hs : Sane d) (h : SameBut q d d') (hn : NoFail d') : Beside q q d d' :=
  ⟨sane_same h hs, hn, fun ino _ hne => h.2.2.1 ino hne, fun ino hi => (named_same h ino).mpr hi, Nat.le_of_eq h.2.1.symm, Or.inl rfl⟩

theorem keeps_same {q : Nat} {d d' : Disk} (fp : Str) (h : SameBut q d d') : KeepsNames fp d d' := by
  intro n ino _ hn
  rw [h.1]; exact hn

theorem beside_fileAppend (d : Disk) (w : BufW) (b : Bytes) (hs : Sane d) (hn : NoFail d) :
    Beside w.file.ino (fileAppend d w b).2.1.file.ino d (fileAppend d w b).1 ∧ (∀ fp, KeepsNames fp d (fileAppend d w b).1) := by
  obtain ⟨h1, _, h3, _⟩ := fileAppend_spec d w b
  rw [h1]
  exact ⟨beside_same hs h3 (fileAppend_ok d w b hn).2, fun fp => keeps_same fp h3⟩

theorem beside_fileFlush (d : Disk) (w : BufW) (hs : Sane d) (hn : NoFail d) :
    Beside w.file.ino (fileFlush d w).2.1.file.ino d (fileFlush d w).1 ∧ (∀ fp, KeepsNames fp d (fileFlush d w).1) := by
  obtain ⟨h1, _, h3, _⟩ := fileFlush_spec d w
  rw [h1]
  exact ⟨beside_same hs h3 (fileFlush_ok d w hn).2, fun fp => keeps_same fp h3⟩

theorem renameLoop_keeps (r : Rotator) (m : Moment) (d : Disk) (left i : Nat) (d' : Disk) (h : renameLoop r m d left i = some d')
    (hfree : ∀ j, i ≤ j → j < i + left → d.fs.names (rotatedName r m j) = none) : KeepsNames r.fp d d' := by
  induction left generalizing i with
  | zero => cases h
  | succ left ih =>
    simp only [renameLoop] at h
    cases hx : (if m.renameOk i then d.rename r.fp (rotatedName r m i) else none) with
    | none =>
      rw [hx] at h
      exact ih (i + 1) h (fun j hj hj' => hfree j (by omega) (by omega))
    | some d1 =>
      rw [hx] at h
      simp only [Option.some.injEq] at h
      subst h
      split at hx
      · unfold Disk.rename at hx
        cases ho : d.fs.names r.fp with
        | none => rw [ho] at hx; cases hx
        | some o =>
          rw [ho] at hx
          simp only at hx
          split at hx
          · cases hx; exact fun n ino _ hn => hn
          · cases hx
            intro n ino hne hn
            simp only
            have : n ≠ rotatedName r m i := by
              rintro rfl
              rw [hfree i (Nat.le_refl _) (by omega)] at hn
              cases hn
            rw [if_neg this, if_neg hne]; exact hn
      · cases hx

theorem beside_rotate (d : Disk) (r : Rotator) (m : Moment) (hs : Sane d) (hn : NoFail d) (hf : r.inner.file.ino < d.fs.next)
    (d' : Disk) (r' : Rotator) (ok : Bool) (hr : rotate d r m = .value (d', r', ok))
    (hfree : m.now < r.rotateAt ∨ ∀ i, i < 10 → d.fs.names (rotatedName r m i) = none) :
    Beside r.inner.file.ino r'.inner.file.ino d d' ∧ KeepsNames r.fp d d' ∧ r'.fp = r.fp ∧
      (r'.inner = r.inner ∨ (r'.inner.buf = [] ∧ r'.inner.file.inflight = none)) := by
  have self : Beside r.inner.file.ino r.inner.file.ino d d :=
    ⟨hs, hn, fun _ _ _ => rfl, fun _ h => h, Nat.le_refl _, Or.inl rfl⟩
  unfold rotate at hr
  split at hr
  · cases hr; exact ⟨self, fun _ _ _ h => h, rfl, Or.inl rfl⟩
  · next hdue =>
    have hfree : ∀ i, i < 10 → d.fs.names (rotatedName r m i) = none := by
      rcases hfree with h' | h'
      · exact absurd h' hdue
      · exact h'
    cases hl : renameLoop r m d 10 0 with
    | none =>
      rw [hl] at hr
      simp only at hr
      cases hx : m.next with
      | none => rw [hx] at hr; cases hr
      | some at' =>
        rw [hx] at hr
        cases hr
        exact ⟨self, fun _ _ _ h => h, rfl, Or.inl rfl⟩
    | some d1 =>
      rw [hl] at hr
      simp only at hr
      obtain ⟨e1, e2, e3, e4, e5⟩ := renameLoop_spec r m d 10 0 d1 hl (fun j _ hj => hfree j (by omega))
      have e6 := renameLoop_keeps r m d 10 0 d1 hl (fun j _ hj => hfree j (by omega))
      have hs1 : Sane d1 := by
        intro n ino hn
        obtain ⟨n', hn'⟩ := (e5 ino).mp ⟨n, hn⟩
        rw [e2]
        exact hs n' ino hn'
      have hn1 : NoFail d1 := by intro o ho; rw [e3] at ho; exact hn o ho
      have k1 : Beside r.inner.file.ino r.inner.file.ino d d1 :=
        ⟨hs1, hn1, fun _ _ _ => by rw [e1], fun i h => (e5 i).mpr h, Nat.le_of_eq e2.symm, Or.inl rfl⟩
      split at hr
      · unfold reopen at hr
        obtain ⟨o1, o2, o3, _, _, o6⟩ := openFile_spec d1 hs1 r.fp
        have hop : d1.openFile r.fp = (({ d1 with fs := ⟨fun n => if n = r.fp then some d1.fs.next else d1.fs.names n,
          fun i => if i = d1.fs.next then [] else d1.fs.data i, d1.fs.next + 1⟩ } : Disk), d1.fs.next) := by simp only [Disk.openFile, e4]
        rw [hop] at hr o1 o2 o3 o6
        generalize hd2 : ({ d1 with fs := ⟨fun n => if n = r.fp then some d1.fs.next else d1.fs.names n,
          fun i => if i = d1.fs.next then [] else d1.fs.data i, d1.fs.next + 1⟩ } : Disk) = d2 at hr o1 o2 o3 o6
        simp only at hr o1 o2 o3 o6
        have f6 : NoFail d2 := by intro o ho; rw [o6] at ho; exact hn1 o ho
        have hnext : d2.fs.next = d1.fs.next + 1 := by rw [← hd2]
        have k2 : KeepsNames r.fp d1 d2 := by
          intro n ino hne hn
          rw [← hd2]; simp [hne, hn]
        have k3 : ∀ i, Named d1 i → Named d2 i := by
          rintro i ⟨n, hn⟩
          have : n ≠ r.fp := by rintro rfl; rw [e4] at hn; cases hn
          exact ⟨n, k2 n i this hn⟩
        have k4 : ∀ i, i < d1.fs.next → d2.fs.data i = d1.fs.data i := by
          intro i hi
          rw [← hd2]
          have : i ≠ d1.fs.next := by omega
          simp [this]
        obtain ⟨_, _, g3, _⟩ := settle_spec d2 r.inner.file
        obtain ⟨_, g6⟩ := settle_ok d2 r.inner.file f6
        generalize settle d2 r.inner.file = x at hr g3 g6
        obtain ⟨d3, f, okx⟩ := x
        simp only at g3 g6
        cases hx : m.next with
        | none => rw [hx] at hr; cases hr
        | some at' =>
          rw [hx] at hr
          simp only [Outcome.value.injEq, Prod.mk.injEq] at hr
          obtain ⟨rfl, rfl, rfl⟩ := hr
          refine ⟨⟨sane_same g3 o3, g6, ?_, ?_, ?_, Or.inr ⟨?_, ?_⟩⟩, ?_, rfl, Or.inr ⟨rfl, rfl⟩⟩
          · intro ino hlt hne
            rw [g3.2.2.1 ino hne, k4 ino (by omega), e1]
          · intro ino h
            exact (named_same g3 ino).mpr (k3 ino ((e5 ino).mpr h))
          · rw [g3.2.1]; omega
          · simp only; omega
          · simp only [g3.2.1]; omega
          · intro n ino hne hn
            rw [g3.1]
            exact k2 n ino hne (e6 n ino hne hn)
      · cases hx : m.next with
        | none => rw [hx] at hr; cases hr
        | some at' =>
          rw [hx] at hr
          cases hr
          exact ⟨k1, e6, rfl, Or.inl rfl⟩

/-- What has been written but is not on the disk yet. -/
def BufW.pending (w : BufW) : Nat := (w.file.inflight.getD []).length + w.buf.length

theorem fileAppend_pending (d : Disk) (w : BufW) (b : Bytes) (hn : NoFail d) : (fileAppend d w b).2.1.pending ≤ w.pending + b.length := by
  obtain ⟨h1, _, h3, h4⟩ := fileAppend_spec d w b
  have ht := h4 (fileAppend_ok d w b hn).1
  have hl := congrArg List.length ht
  have hp := h3.2.2.2.length_le
  simp only [BufW.total, AFile.total, List.length_append, h1] at hl
  simp only [BufW.pending]
  omega

theorem beside_rotAppend (d : Disk) (r : Rotator) (m : Moment) (b : Bytes) (hs : Sane d) (hn : NoFail d) (hf : r.inner.file.ino < d.fs.next)
    (d' : Disk) (r' : Rotator) (ok : Bool) (hr : rotAppend d r m b = .value (d', r', ok))
    (hfree : m.now < r.rotateAt ∨ ∀ i, i < 10 → d.fs.names (rotatedName r m i) = none) :
    Beside r.inner.file.ino r'.inner.file.ino d d' ∧ KeepsNames r.fp d d' ∧ r'.fp = r.fp ∧ r'.inner.pending ≤ r.inner.pending + b.length := by
  obtain ⟨k1, k2⟩ := beside_fileAppend d r.inner b hs hn
  have k3 := (fileAppend_ok d r.inner b hn).1
  have k4 := fileAppend_pending d r.inner b hn
  obtain ⟨k5, _, k6, _⟩ := fileAppend_spec d r.inner b
  unfold rotAppend at hr
  generalize fileAppend d r.inner b = y at hr k1 k2 k3 k4 k5 k6
  obtain ⟨d2, w2, ok2⟩ := y
  simp only at k1 k2 k3 k4 k5 k6
  subst k3
  simp only at hr
  cases hx : rotate d2 { r with inner := w2 } m with
  | error => rw [hx] at hr; cases hr
  | panic => rw [hx] at hr; cases hr
  | value z =>
    obtain ⟨d3, r3, ok3⟩ := z
    rw [hx] at hr
    simp only [Outcome.value.injEq, Prod.mk.injEq] at hr
    obtain ⟨rfl, rfl, rfl⟩ := hr
    obtain ⟨j1, j2, j3, j4⟩ := beside_rotate d2 { r with inner := w2 } m k1.sane k1.noFail
      (by simp only [k5]; exact Nat.lt_of_lt_of_le hf k1.mono) d3 r3 ok3 hx (by rw [k6.1]; exact hfree)
    simp only [k5] at j1 k1
    refine ⟨k1.trans j1, ?_, j3, ?_⟩
    · intro n ino hne h
      exact j2 n ino hne (k2 r.fp n ino hne h)
    · rcases j4 with j4 | ⟨j4, j5⟩
      · rw [j4]; exact k4
      · simp [BufW.pending, j4, j5]

/-! ## One appender among others -/

/-- The open file of an appender. -/
def Dest.writer : Dest → Option BufW
  | .console => none
  | .file w => some w
  | .rotating r => some r.inner

/-- The bytes of a call. -/
def FileCall.bytes : FileCall → Bytes
  | .write b => b
  | .flush => []

/-- Appender `i` among the others: where all that was written to it is, and that nobody else has a hand in its files. A file that does not
rotate is like one that is never due. At most `since` bytes are not on the disk yet. -/
structure Among (i : Nat) (fp : Str) (base : Bytes) (cap : Nat) (st : Disk × List Dest) (out : Bytes) (parts : List Part) (old : Bytes)
    (since : Nat) (r : Rotator) : Prop where
  here : st.2[i]? = some (.rotating r) ∨ (st.2[i]? = some (.file r.inner) ∧ parts = [] ∧ st.1.fs.names fp = some r.inner.file.ino)
  path : r.fp = fp
  parted : Parted base cap st.1 r out parts old
  others : ∀ (j : Nat) (x : Dest) (w : BufW), j ≠ i → st.2[j]? = some x → x.writer = some w →
    w.file.ino < st.1.fs.next ∧ w.file.ino ≠ r.inner.file.ino ∧ ∀ p ∈ parts, p.ino ≠ w.file.ino
  paths : ∀ (j : Nat) (r' : Rotator), j ≠ i → st.2[j]? = some (.rotating r') → r'.fp ≠ fp
  pending : r.inner.pending ≤ since

/-- The files of this appender under a call of another one. -/
theorem Parted.beside {base : Bytes} {cap : Nat} {d d' : Disk} {r : Rotator} {out : Bytes} {parts : List Part} {old : Bytes}
    (h : Parted base cap d r out parts old) {q q' : Nat} (hb : Beside q q' d d') (hq : q ≠ r.inner.file.ino) (hp : ∀ p ∈ parts, p.ino ≠ q) :
    Parted base cap d' r out parts old := by
  have hd := hb.data _ h.fresh (Ne.symm hq)
  refine ⟨hb.sane, Nat.lt_of_lt_of_le h.fresh hb.mono, hb.noFail, hb.named _ h.named, h.capEq, h.short, ?_, h.olds, ?_, h.distinct, ?_⟩
  · simpa only [BufW.total, AFile.total, hd] using h.split
  · intro p hp'
    obtain ⟨f1, f2, f3, f4⟩ := h.files p hp'
    obtain ⟨n, hn⟩ := f2
    exact ⟨f1, hb.named _ ⟨n, hn⟩, by rw [hb.data _ (h.sane n _ hn) (hp p hp')]; exact f3, f4⟩
  · rw [hd]; exact h.begun

/-- A call of another appender. -/
theorem Among.other {i : Nat} {fp : Str} {base : Bytes} {cap : Nat} {st : Disk × List Dest} {out : Bytes} {parts : List Part} {old : Bytes}
    {since : Nat} {r : Rotator} (h : Among i fp base cap st out parts old since r) (j : Nat) (hj : j ≠ i) (x x' : Dest) (w w' : BufW)
    (hx : st.2[j]? = some x) (hw : x.writer = some w) (hw' : x'.writer = some w') (d' : Disk) (hb : Beside w.file.ino w'.file.ino st.1 d')
    (hk : ∃ fp', fp' ≠ fp ∧ KeepsNames fp' st.1 d') (hr : ∀ r', x' = .rotating r' → r'.fp ≠ fp) :
    Among i fp base cap (d', st.2.set j x') out parts old since r := by
  obtain ⟨o1, o2, o3⟩ := h.others j x w hj hx hw
  refine ⟨?_, h.path, h.parted.beside hb o2 o3, ?_, ?_, h.pending⟩
  · simp only [List.getElem?_set_ne hj]
    rcases h.here with h1 | ⟨h1, h2, h3⟩
    · exact Or.inl h1
    · obtain ⟨fp', k1, k2⟩ := hk
      exact Or.inr ⟨h1, h2, k2 fp _ (Ne.symm k1) h3⟩
  · intro j' y v hj' hy hv
    simp only at hy ⊢
    by_cases he : j = j'
    · subst he
      have hlt : j < st.2.length := (List.getElem?_eq_some_iff.mp hx).1
      rw [List.getElem?_set_self hlt] at hy
      cases hy
      rw [hw'] at hv
      cases hv
      rcases hb.ino with e | ⟨e1, e2⟩
      · rw [e]; exact ⟨Nat.lt_of_lt_of_le o1 hb.mono, o2, o3⟩
      · refine ⟨e2, by have := h.parted.fresh; omega, ?_⟩
        intro p hp he
        obtain ⟨_, ⟨n, hn⟩, _⟩ := h.parted.files p hp
        have := h.parted.sane n _ hn
        omega
    · rw [List.getElem?_set_ne he] at hy
      obtain ⟨p1, p2, p3⟩ := h.others j' y v hj' hy hv
      exact ⟨Nat.lt_of_lt_of_le p1 hb.mono, p2, p3⟩
  · intro j' r' hj' hy
    simp only at hy
    by_cases he : j = j'
    · subst he
      have hlt : j < st.2.length := (List.getElem?_eq_some_iff.mp hx).1
      rw [List.getElem?_set_self hlt] at hy
      cases hy
      exact hr r' rfl
    · rw [List.getElem?_set_ne he] at hy
      exact h.paths j' r' hj' hy

/-- A call of this appender. -/
theorem Among.own {i : Nat} {fp : Str} {base : Bytes} {cap : Nat} {st : Disk × List Dest} {out : Bytes} {parts : List Part} {old : Bytes}
    {since : Nat} {r : Rotator} (h : Among i fp base cap st out parts old since r) (r' : Rotator) (x' : Dest) (d' : Disk) (out' : Bytes)
    (parts' : List Part) (old' : Bytes) (since' : Nat) (hp : Parted base cap d' r' out' parts' old') (hf : r'.fp = r.fp)
    (hs : ∀ p ∈ parts', p ∈ parts ∨ p.ino = r.inner.file.ino) (hb : Beside r.inner.file.ino r'.inner.file.ino st.1 d')
    (hx : x' = .rotating r' ∨ (x' = .file r'.inner ∧ parts' = [] ∧ d'.fs.names fp = some r'.inner.file.ino)) (hpe : r'.inner.pending ≤ since') :
    Among i fp base cap (d', st.2.set i x') out' parts' old' since' r' := by
  have hlt : i < st.2.length := by
    rcases h.here with h1 | ⟨h1, _⟩ <;> exact (List.getElem?_eq_some_iff.mp h1).1
  refine ⟨?_, hf.trans h.path, hp, ?_, ?_, hpe⟩
  · simp only [List.getElem?_set_self hlt]
    rcases hx with rfl | ⟨rfl, h2, h3⟩
    · exact Or.inl rfl
    · exact Or.inr ⟨rfl, h2, h3⟩
  · intro j y v hj hy hv
    simp only [List.getElem?_set_ne (Ne.symm hj)] at hy ⊢
    obtain ⟨p1, p2, p3⟩ := h.others j y v hj hy hv
    refine ⟨Nat.lt_of_lt_of_le p1 hb.mono, ?_, ?_⟩
    · rcases hb.ino with e | ⟨e1, _⟩
      · rw [e]; exact p2
      · omega
    · intro p hp'
      rcases hs p hp' with hp' | hp'
      · exact p3 p hp'
      · rw [hp']; exact Ne.symm p2
  · intro j r'' hj hy
    simp only [List.getElem?_set_ne (Ne.symm hj)] at hy
    exact h.paths j r'' hj hy

/-- One call. -/
theorem Among.step {i : Nat} {fp : Str} {base : Bytes} {cap : Nat} {st : Disk × List Dest} {out : Bytes} {parts : List Part} {old : Bytes}
    {since : Nat} {r : Rotator} (h : Among i fp base cap st out parts old since r) (m : Moment) (call : Nat × FileCall)
    (hfree : ∀ r, st.2[call.1]? = some (.rotating r) → call.2 = .flush ∨ m.now < r.rotateAt ∨
      ∀ i, i < 10 → st.1.fs.names (rotatedName r m i) = none) (st' : Disk × List Dest) (hc : callDest st m call = .value st') :
    ∃ parts' old' r', Among i fp base cap st' (out ++ (if call.1 = i then call.2.bytes else [])) parts' old'
        (if call = (i, .flush) then 0 else since + (if call.1 = i then call.2.bytes.length else 0)) r' ∧
      parts'.length ≤ parts.length + (if call.1 = i ∧ st'.1.fs.names fp ≠ st.1.fs.names fp then 1 else 0) := by
  obtain ⟨j, c⟩ := call
  unfold callDest at hc
  simp only at hc hfree
  by_cases hj : j = i
  · subst hj
    simp only [if_true, true_and]
    rcases h.here with h1 | ⟨h1, h2, h3⟩
    · rw [h1] at hc
      simp only [Dest.call] at hc
      cases c with
      | write b =>
        simp only at hc
        cases ha : rotAppend st.1 r m b with
        | error => rw [ha] at hc; cases hc
        | panic => rw [ha] at hc; cases hc
        | value z =>
          obtain ⟨d1, r1, ok1⟩ := z
          rw [ha] at hc
          simp only [Outcome.value.injEq] at hc
          subst hc
          have hfr : m.now < r.rotateAt ∨ ∀ i, i < 10 → st.1.fs.names (rotatedName r m i) = none := by
            rcases hfree r h1 with h' | h'
            · cases h'
            · exact h'
          obtain ⟨_, parts', old', k1, k2, k3, k4⟩ := h.parted.write b m d1 r1 ok1 ha hfr
          obtain ⟨b1, _, _, b4⟩ := beside_rotAppend st.1 r m b h.parted.sane h.parted.noFail h.parted.fresh d1 r1 ok1 ha hfr
          refine ⟨parts', old', r1, ?_, ?_⟩
          · refine h.own r1 _ d1 _ parts' old' _ k1 k2 k3 b1 (Or.inl rfl) ?_
            rw [if_neg (by simp)]
            simp only [FileCall.bytes]
            have := h.pending
            omega
          · simp only
            rw [← h.path]
            rcases k4 with k4 | ⟨k4, k5⟩
            · rw [k4]; exact Nat.le_add_right _ _
            · rw [if_pos k5, k4]; exact Nat.le_refl _
      | flush =>
        simp only [Outcome.value.injEq] at hc
        subst hc
        obtain ⟨k1, k2, k3, k4, k5⟩ := h.parted.flush
        obtain ⟨b1, _⟩ := beside_fileFlush st.1 r.inner h.parted.sane h.parted.noFail
        refine ⟨parts, old, (rotFlush st.1 r).2.1, ?_, Nat.le_add_right _ _⟩
        simp only [FileCall.bytes, List.append_nil]
        refine h.own _ _ _ _ parts old _ k1 k5 (fun p hp => Or.inl hp) ?_ (Or.inl rfl) ?_
        · exact b1
        · simp [BufW.pending, k3, k4]
    · rw [h1] at hc
      simp only [Dest.call] at hc
      subst h2
      cases c with
      | write b =>
        simp only [Outcome.value.injEq] at hc
        subst hc
        obtain ⟨k1, k2⟩ := h.parted.append b
        obtain ⟨b1, b2⟩ := beside_fileAppend st.1 r.inner b h.parted.sane h.parted.noFail
        have b4 := fileAppend_pending st.1 r.inner b h.parted.noFail
        obtain ⟨q1, _, q3, _⟩ := fileAppend_spec st.1 r.inner b
        refine ⟨[], old, { r with inner := (fileAppend st.1 r.inner b).2.1 }, ?_, Nat.le_add_right _ _⟩
        refine h.own _ _ _ _ [] old _ k1 rfl (fun p hp => Or.inl hp) b1 (Or.inr ⟨rfl, rfl, ?_⟩) ?_
        · rw [q3.1, h3, q1]
        · rw [if_neg (by simp)]
          simp only [FileCall.bytes]
          have := h.pending
          omega
      | flush =>
        simp only [Outcome.value.injEq] at hc
        subst hc
        obtain ⟨k1, k2, k3, k4, k5⟩ := h.parted.flush
        obtain ⟨b1, _⟩ := beside_fileFlush st.1 r.inner h.parted.sane h.parted.noFail
        obtain ⟨q1, _, q3, _⟩ := fileFlush_spec st.1 r.inner
        refine ⟨[], old, (rotFlush st.1 r).2.1, ?_, Nat.le_add_right _ _⟩
        simp only [FileCall.bytes, List.append_nil]
        refine h.own _ _ _ _ [] old _ k1 k5 (fun p hp => Or.inl hp) b1 (Or.inr ⟨rfl, rfl, ?_⟩) ?_
        · show (fileFlush st.1 r.inner).1.fs.names fp = some (fileFlush st.1 r.inner).2.1.file.ino
          rw [q3.1, h3, q1]
        · simp [BufW.pending, k3, k4]
  · have hne : ¬ (j, c) = (i, FileCall.flush) := by
      intro he
      exact hj (Prod.mk.inj he).1
    simp only [if_neg hj, if_neg hne, List.append_nil, Nat.add_zero, hj, false_and, if_false]
    refine ⟨parts, old, r, ?_, Nat.le_refl _⟩
    cases hx : st.2[j]? with
    | none =>
      rw [hx] at hc
      simp only [Outcome.value.injEq] at hc
      subst hc
      exact h
    | some x =>
      rw [hx] at hc
      simp only at hc
      cases x with
      | console =>
        simp only [Dest.call, Outcome.value.injEq] at hc
        subst hc
        have : st.2.set j .console = st.2 := by
          obtain ⟨hlt, he⟩ := List.getElem?_eq_some_iff.mp hx
          rw [← he]; exact List.set_getElem_self hlt
        rw [this]; exact h
      | file w =>
        cases c with
        | write b =>
          simp only [Dest.call, Outcome.value.injEq] at hc
          subst hc
          obtain ⟨b1, b2⟩ := beside_fileAppend st.1 w b h.parted.sane h.parted.noFail
          exact h.other j hj _ _ w _ hx rfl rfl _ b1 ⟨0 :: fp, by simp, b2 _⟩ (by intro r' he; cases he)
        | flush =>
          simp only [Dest.call, Outcome.value.injEq] at hc
          subst hc
          obtain ⟨b1, b2⟩ := beside_fileFlush st.1 w h.parted.sane h.parted.noFail
          exact h.other j hj _ _ w _ hx rfl rfl _ b1 ⟨0 :: fp, by simp, b2 _⟩ (by intro r' he; cases he)
      | rotating r' =>
        have hfp' := h.paths j r' hj hx
        cases c with
        | write b =>
          simp only [Dest.call] at hc
          cases ha : rotAppend st.1 r' m b with
          | error => rw [ha] at hc; cases hc
          | panic => rw [ha] at hc; cases hc
          | value z =>
            obtain ⟨d1, r1, ok1⟩ := z
            rw [ha] at hc
            simp only [Outcome.value.injEq] at hc
            subst hc
            have hfr : m.now < r'.rotateAt ∨ ∀ i, i < 10 → st.1.fs.names (rotatedName r' m i) = none := by
              rcases hfree r' hx with h' | h'
              · cases h'
              · exact h'
            obtain ⟨b1, b2, b3, _⟩ := beside_rotAppend st.1 r' m b h.parted.sane h.parted.noFail
              (h.others j _ _ hj hx rfl).1 d1 r1 ok1 ha hfr
            exact h.other j hj _ _ r'.inner r1.inner hx rfl rfl _ b1 ⟨_, hfp', b2⟩ (by intro r'' he; cases he; rw [b3]; exact hfp')
        | flush =>
          simp only [Dest.call, Outcome.value.injEq] at hc
          subst hc
          obtain ⟨b1, b2⟩ := beside_fileFlush st.1 r'.inner h.parted.sane h.parted.noFail
          exact h.other j hj _ _ r'.inner _ hx rfl rfl _ b1 ⟨_, hfp', b2 _⟩ (by intro r'' he; cases he; exact hfp')

/-- The bytes of calls. -/
def bytesOf (cs : List FileCall) : Bytes := cs.flatMap FileCall.bytes

theorem callsOn_cons (i : Nat) (call : Nat × FileCall) (calls : List (Nat × FileCall)) :
    callsOn i (call :: calls) = (if call.1 = i then [call.2] else []) ++ callsOn i calls := by
  unfold callsOn
  by_cases h : call.1 = i <;> simp [h]

/-- Any calls. -/
theorem Among.run {i : Nat} {fp : Str} {base : Bytes} {cap : Nat} (calls : List (Nat × FileCall)) (st : Disk × List Dest) (out : Bytes)
    (parts : List Part) (old : Bytes) (since : Nat) (r : Rotator) (h : Among i fp base cap st out parts old since r) (moments : Nat → Moment)
    (hfree : FreeDests st moments calls) (st' : Disk × List Dest) (hc : callDests st moments calls = .value st') :
    ∃ parts' old' r' since', Among i fp base cap st' (out ++ bytesOf (callsOn i calls)) parts' old' since' r' ∧
      parts'.length ≤ parts.length + (rotTimesOf i fp st moments calls).length ∧ since' ≤ since + (bytesOf (callsOn i calls)).length ∧
      (∀ a b, callsOn i calls = a ++ .flush :: b → since' ≤ (bytesOf b).length) := by
  induction calls generalizing st out parts old since r moments with
  | nil =>
    simp only [callDests, Outcome.value.injEq] at hc
    subst hc
    exact ⟨parts, old, r, since, by simpa [callsOn, bytesOf] using h, Nat.le_add_right _ _, Nat.le_add_right _ _, by
      intro a b he; simp [callsOn] at he⟩
  | cons call calls ih =>
    obtain ⟨hf1, hf2⟩ := hfree
    simp only [callDests] at hc
    cases hx : callDest st (moments 0) call with
    | error => rw [hx] at hc; cases hc
    | panic => rw [hx] at hc; cases hc
    | value st1 =>
      rw [hx] at hc hf2
      simp only at hc hf2
      obtain ⟨parts1, old1, r1, h1, l1⟩ := h.step (moments 0) call hf1 st1 hx
      obtain ⟨parts2, old2, r2, since2, h2, l2, s2, t2⟩ := ih st1 _ parts1 old1 _ r1 h1 _ hf2 hc
      have hrt : rotTimesOf i fp st moments (call :: calls) =
          (if call.1 = i ∧ st1.1.fs.names fp ≠ st.1.fs.names fp then [(moments 0).now] else []) ++
            rotTimesOf i fp st1 (fun i => moments (i + 1)) calls := by simp only [rotTimesOf, hx]
      have hb : bytesOf (callsOn i (call :: calls)) = (if call.1 = i then call.2.bytes else []) ++ bytesOf (callsOn i calls) := by
        rw [callsOn_cons]
        unfold bytesOf
        rw [List.flatMap_append]
        congr 1
        split <;> simp
      refine ⟨parts2, old2, r2, since2, ?_, ?_, ?_, ?_⟩
      · rw [hb, ← List.append_assoc]; exact h2
      · rw [hrt, List.length_append]
        have : (if call.1 = i ∧ st1.1.fs.names fp ≠ st.1.fs.names fp then [(moments 0).now] else []).length =
            (if call.1 = i ∧ st1.1.fs.names fp ≠ st.1.fs.names fp then 1 else 0) := by split <;> rfl
        omega
      · rw [hb, List.length_append]
        have : (if call.1 = i then call.2.bytes else []).length = (if call.1 = i then call.2.bytes.length else 0) := by split <;> rfl
        split at s2 <;> omega
      · intro a b he
        rw [callsOn_cons] at he
        by_cases hi : call.1 = i
        · rw [if_pos hi] at he
          cases a with
          | nil =>
            simp only [List.singleton_append, List.nil_append, List.cons.injEq] at he
            have hcall : call = (i, .flush) := Prod.ext hi he.1
            rw [if_pos hcall, he.2] at s2
            omega
          | cons c a =>
            simp only [List.singleton_append, List.cons_append, List.cons.injEq] at he
            exact t2 a b he.2
        · rw [if_neg hi] at he
          exact t2 a b (by simpa using he)

/-! ## Opening the files -/

/-- One appender made. -/
theorem openDest_spec (d : Disk) (at' : Nat) (a : AppenderInit) (d1 : Disk) (x : Dest) (h : openDest d at' a = some (d1, x)) :
    (a.path = none ∧ d1 = d ∧ x.writer = none) ∨
    ∃ fp w, a.path = some fp ∧ d1 = (d.openFile fp).1 ∧ x.writer = some w ∧ w = ⟨bufferSize a.bufsize, [], ⟨(d.openFile fp).2, none⟩⟩ ∧
      ((a.daily = false ∧ x = .file w) ∨ (a.daily = true ∧ ∃ r, x = .rotating r ∧ r.inner = w ∧ r.fp = fp)) := by
  unfold openDest at h
  cases hp : a.path with
  | none =>
    rw [hp] at h
    simp only [Option.some.injEq, Prod.mk.injEq] at h
    obtain ⟨rfl, rfl⟩ := h
    exact Or.inl ⟨rfl, rfl, rfl⟩
  | some fp =>
    rw [hp] at h
    right
    simp only at h
    cases hd : a.daily with
    | true =>
      rw [hd, if_pos rfl] at h
      simp only [rotNew, fileNew, Option.map_eq_some_iff] at h
      obtain ⟨⟨d2, r⟩, h1, h2⟩ := h
      cases hn : rotationNames fp with
      | none => rw [hn] at h1; cases h1
      | some z =>
        obtain ⟨p, b, e⟩ := z
        rw [hn] at h1
        simp only [Option.some.injEq, Prod.mk.injEq] at h1 h2
        obtain ⟨rfl, rfl⟩ := h1
        obtain ⟨rfl, rfl⟩ := h2
        exact ⟨fp, _, rfl, rfl, rfl, rfl, Or.inr ⟨rfl, _, rfl, rfl, rfl⟩⟩
    | false =>
      rw [hd] at h
      simp only [fileNew, Bool.false_eq_true, if_false, Option.some.injEq, Prod.mk.injEq] at h
      obtain ⟨rfl, rfl⟩ := h
      exact ⟨fp, _, rfl, rfl, rfl, rfl, Or.inl ⟨rfl, rfl⟩⟩

/-- All appenders made. -/
theorem openDests_spec (as : List AppenderInit) (d : Disk) (hs : Sane d) (ends : Nat → Nat) (d0 : Disk) (ds : List Dest)
    (h : openDests d ends as = some (d0, ds)) :
    Sane d0 ∧ d0.os = d.os ∧ (∀ fp, SoleName d fp → SoleName d0 fp) ∧ (∀ n ino, d.fs.names n = some ino → d0.fs.names n = some ino) ∧
    (∀ n, content d0 n = content d n) ∧
    (∀ (i : Nat) (a : AppenderInit) (fp : Str), as[i]? = some a → a.path = some fp → ∃ (x : Dest) (w : BufW), ds[i]? = some x ∧
      x.writer = some w ∧ d0.fs.names fp = some w.file.ino ∧ w.buf = [] ∧ w.file.inflight = none ∧ w.cap = bufferSize a.bufsize ∧
      ((a.daily = false ∧ x = .file w) ∨ (a.daily = true ∧ ∃ r, x = .rotating r ∧ r.inner = w ∧ r.fp = fp))) ∧
    (∀ (i : Nat) (x : Dest) (w : BufW), ds[i]? = some x → x.writer = some w → ∃ (a : AppenderInit) (fp : Str), as[i]? = some a ∧ a.path = some fp) := by
  induction as generalizing d ends d0 ds with
  | nil =>
    simp only [openDests, Option.some.injEq, Prod.mk.injEq] at h
    obtain ⟨rfl, rfl⟩ := h
    exact ⟨hs, rfl, fun _ h => h, fun _ _ h => h, fun _ => rfl, fun i a fp h => by simp at h, fun i x w h => by simp at h⟩
  | cons a as ih =>
    simp only [openDests] at h
    cases ho : openDest d (ends 0) a with
    | none => rw [ho] at h; cases h
    | some z =>
      obtain ⟨d1, x⟩ := z
      rw [ho] at h
      simp only at h
      cases hr : openDests d1 (fun i => ends (i + 1)) as with
      | none => rw [hr] at h; cases h
      | some z =>
        obtain ⟨d2, xs⟩ := z
        rw [hr] at h
        simp only [Option.some.injEq, Prod.mk.injEq] at h
        obtain ⟨rfl, rfl⟩ := h
        rcases openDest_spec d _ a d1 x ho with ⟨hp, rfl, hw⟩ | ⟨p, w0, hp, rfl, hw, hw0, hx⟩
        · obtain ⟨i1, i2, i3, i4, i5, i6, i7⟩ := ih d1 hs _ d2 xs hr
          refine ⟨i1, i2, i3, i4, i5, ?_, ?_⟩
          · intro i b fp hb hfp
            cases i with
            | zero =>
              simp only [List.getElem?_cons_zero, Option.some.injEq] at hb
              subst hb
              rw [hp] at hfp; cases hfp
            | succ i => exact i6 i b fp (by simpa using hb) hfp
          · intro i y w hy hyw
            cases i with
            | zero =>
              simp only [List.getElem?_cons_zero, Option.some.injEq] at hy
              subst hy
              rw [hw] at hyw; cases hyw
            | succ i => exact i7 i y w (by simpa using hy) hyw
        · obtain ⟨o1, o2, o3, _, _, o6⟩ := openFile_spec d hs p
          obtain ⟨i1, i2, i3, i4, i5, i6, i7⟩ := ih _ o3 _ d2 xs hr
          refine ⟨i1, i2.trans o6, fun fp h => i3 fp (openFile_sole d hs fp p h), fun n ino h => i4 n ino (openFile_keeps d p n ino h),
            fun n => (i5 n).trans (openFile_content d hs p n), ?_, ?_⟩
          · intro i b fp hb hfp
            cases i with
            | zero =>
              simp only [List.getElem?_cons_zero, Option.some.injEq] at hb
              subst hb
              rw [hp] at hfp
              cases hfp
              refine ⟨x, w0, rfl, hw, ?_, by rw [hw0], by rw [hw0], by rw [hw0], hx⟩
              rw [hw0]; exact i4 _ _ o1
            | succ i => exact i6 i b fp (by simpa using hb) hfp
          · intro i y w hy hyw
            cases i with
            | zero => exact ⟨a, p, by simp, hp⟩
            | succ i => exact i7 i y w (by simpa using hy) hyw

/-- Right after the start. -/
theorem openDests_among (as : List AppenderInit) (d : Disk) (hs : Sane d) (hn : NoFail d) (ends : Nat → Nat) (d0 : Disk) (ds : List Dest)
    (h : openDests d ends as = some (d0, ds)) (i : Nat) (a : AppenderInit) (fp : Str) (ha : as[i]? = some a)
    (hfp : a.path = some fp) (hsole : SoleName d fp) (hone : ∀ j b, as[j]? = some b → b.path = some fp → j = i) :
    ∃ r, Among i fp (content d fp) (bufferSize a.bufsize) (d0, ds) [] [] (content d fp) 0 r ∧ (a.daily = false → ∃ w, ds[i]? = some (.file w)) := by
  obtain ⟨i1, i2, i3, _, i5, i6, i7⟩ := openDests_spec as d hs ends d0 ds h
  obtain ⟨x, w, x1, x2, x3, x4, x5, x6, x7⟩ := i6 i a fp ha hfp
  have hr : ∃ r : Rotator, r.inner = w ∧ r.fp = fp ∧ (x = .rotating r ∨ x = .file w) := by
    rcases x7 with ⟨_, x7⟩ | ⟨_, r, x7, x8, x9⟩
    · exact ⟨⟨w, 0, fp, [], [], []⟩, rfl, rfl, Or.inr x7⟩
    · exact ⟨r, x8, x9, Or.inl x7⟩
  obtain ⟨r, r1, r2, r3⟩ := hr
  refine ⟨r, ⟨?_, r2, ?_, ?_, ?_, ?_⟩, ?_⟩
  · rcases r3 with rfl | rfl
    · exact Or.inl x1
    · exact Or.inr ⟨by rw [r1]; exact x1, rfl, by rw [r1]; exact x3⟩
  · have hc : d0.fs.data w.file.ino = content d fp := by rw [← i5 fp]; simp [content, x3]
    refine ⟨i1, ?_, ?_, ⟨fp, ?_⟩, ?_, ?_, ⟨[], rfl, ?_⟩, rfl, by simp, by simp, ?_⟩
    · rw [r1]; exact i1 fp _ x3
    · intro o ho
      simp only [i2] at ho
      exact hn o ho
    · rw [r1]; exact x3
    · rw [r1]; exact x6
    · rw [r1, x4]; simp
    · rw [r1]; simp [BufW.total, AFile.total, x4, x5, hc]
    · rw [r1]; simp only [hc]; exact List.prefix_refl _
  · intro j y v hj hy hv
    obtain ⟨b, p, hb, hp⟩ := i7 j y v hy hv
    obtain ⟨y', v', y1, y2, y3, _⟩ := i6 j b p hb hp
    rw [hy] at y1
    cases y1
    rw [hv] at y2
    cases y2
    refine ⟨i1 p _ y3, ?_, by simp⟩
    rw [r1]
    intro he
    rw [he] at y3
    have := i3 fp hsole p _ y3 x3
    subst this
    exact hj (hone j b hb hp)
  · intro j r' hj hy hf
    obtain ⟨b, p, hb, hp⟩ := i7 j _ _ hy rfl
    obtain ⟨y', v', y1, _, _, _, _, _, y7⟩ := i6 j b p hb hp
    rw [hy] at y1
    cases y1
    rcases y7 with ⟨_, y7⟩ | ⟨_, r'', y7, _, y8⟩
    · cases y7
    · cases y7
      rw [hf] at y8
      subst y8
      exact hj (hone j b hb hp)
  · rw [r1]; simp [BufW.pending, x4, x5]
  · intro hd
    rcases x7 with ⟨_, x7⟩ | ⟨x7, _⟩
    · exact ⟨w, by rw [x1, x7]⟩
    · rw [hd] at x7; cases x7

/-! ## C173 -/

theorem bytesOf_written (cs : List FileCall) : bytesOf cs = written (cs.map FileCall.op) := by
  induction cs with
  | nil => rfl
  | cons c cs ih =>
    cases c with
    | write b => simp only [bytesOf, List.flatMap_cons, FileCall.bytes, List.map_cons, FileCall.op, written] at ih ⊢; rw [ih]
    | flush => simpa only [bytesOf, List.flatMap_cons, FileCall.bytes, List.map_cons, FileCall.op, written, List.nil_append] using ih

/-- A file that does not rotate stays one. -/
theorem callDests_file (i : Nat) (calls : List (Nat × FileCall)) (st : Disk × List Dest) (moments : Nat → Moment) (st' : Disk × List Dest)
    (hc : callDests st moments calls = .value st') (h : ∃ w, st.2[i]? = some (.file w)) : ∃ w, st'.2[i]? = some (.file w) := by
  induction calls generalizing st moments with
  | nil =>
    simp only [callDests, Outcome.value.injEq] at hc
    subst hc; exact h
  | cons call calls ih =>
    simp only [callDests] at hc
    cases hx : callDest st (moments 0) call with
    | error => rw [hx] at hc; cases hc
    | panic => rw [hx] at hc; cases hc
    | value st1 =>
      rw [hx] at hc
      refine ih st1 _ hc ?_
      obtain ⟨w, hw⟩ := h
      unfold callDest at hx
      cases hj : st.2[call.1]? with
      | none => rw [hj] at hx; cases hx; exact ⟨w, hw⟩
      | some x =>
        rw [hj] at hx
        simp only at hx
        cases hk : x.call st.1 (moments 0) call.2 with
        | error => rw [hk] at hx; cases hx
        | panic => rw [hk] at hx; cases hx
        | value z =>
          obtain ⟨d1, y⟩ := z
          rw [hk] at hx
          simp only [Outcome.value.injEq] at hx
          subst hx
          by_cases he : call.1 = i
          · rw [he] at hj
            rw [hw] at hj
            cases hj
            have hlt : i < st.2.length := (List.getElem?_eq_some_iff.mp hw).1
            simp only [he, List.getElem?_set_self hlt]
            cases hcc : call.2 with
            | write b =>
              rw [hcc] at hk
              simp only [Dest.call, Outcome.value.injEq, Prod.mk.injEq] at hk
              exact ⟨_, by rw [← hk.2]⟩
            | flush =>
              rw [hcc] at hk
              simp only [Dest.call, Outcome.value.injEq, Prod.mk.injEq] at hk
              exact ⟨_, by rw [← hk.2]⟩
          · exact ⟨w, by simp only [List.getElem?_set_ne he]; exact hw⟩

theorem linesOf_append (a b : List (Nat × Item)) : linesOf (a ++ b) = linesOf a ++ linesOf b := by simp [linesOf]

/-- A run in which the consumer has flushed: all that was handed to the appender before the flush has been put into its files. -/
theorem files_flushed {U : Unicode} (hU : LawfulUnicode U) (pathExists openOk : Str → Bool) (order : List Str → List Str)
    (horder : ∀ l, (order l).Perm l) (c c' : Config) (hslab : c.slab = []) (hfix : c.autofix pathExists = some c')
    (as : List AppenderInit) (has : c'.appenders openOk = some as) (k : Consumer) (l : Level)
    (hk : c'.startLogging U openOk order true = .value (k, l))
    (progs : Nat → List (Log.Call Item)) (tr x y : List (Log.Act Item)) (s1 : Log.Sys Item)
    (h1 : Log.Run (passes l) (Log.start progs) tr s1) (hxy : tr = x ++ .flush :: y)
    (hd : ∀ p ∈ Log.Spec.sends tr, Deliverable as p.2)
    (d : Disk) (hs : Sane d) (hok : NoFail d) (ends : Nat → Nat) (st0 : Disk × List Dest) (hopen : openDests d ends as = some st0)
    (i : Nat) (a : AppenderInit) (fp : Str) (ha : as[i]? = some a) (hfp : a.path = some fp)
    (hsole : SoleName d fp) (hone : ∀ j b, as[j]? = some b → b.path = some fp → j = i) :
    ∃ calls, k.calls tr k.bufs = some calls ∧ ∀ moments st, FreeDests st0 moments calls →
      callDests st0 moments calls = .value st → ∃ out : Bytes,
        linesOf ((Log.Spec.writes x).filter (fun p => a.Wants p.2)) <+: out ∧ out <+: linesOf ((Log.Spec.writes tr).filter (fun p => a.Wants p.2)) ∧
        LossAtMost (rotTimesOf i fp st0 moments calls).length (bufferSize a.bufsize) d st.1 fp out ∧
        (a.daily = false → content st.1 fp = content d fp ++ out) := by
  obtain ⟨w1, w2, _⟩ := Log.C66_order (passes l) progs _ s1 h1
  obtain ⟨calls, c1, c2⟩ := calls_eq hU pathExists openOk order horder c c' hslab hfix as has k l hk tr
    (fun p hp => hd p (w1.subset hp))
  have c2 := c2 i a ha (by rw [hfp]; simp)
  obtain ⟨d0, ds⟩ := st0
  obtain ⟨r0, q1, q2⟩ := openDests_among as d hs hok ends d0 ds hopen i a fp ha hfp hsole hone
  refine ⟨calls, c1, ?_⟩
  intro moments st hfree hrun
  obtain ⟨parts, old, r, since, m1, m2, _, m4⟩ := Among.run calls (d0, ds) [] [] _ 0 r0 q1 moments hfree st hrun
  obtain ⟨out, z1, z2, z3⟩ := m1.parted.loss
  simp only [List.nil_append, List.length_nil, Nat.zero_add] at z2 m2
  have hops : ∃ a' b', callsOn i calls = a' ++ .flush :: b' ∧ a'.map FileCall.op = Log.fileOps a.Wants jsonRender x := by
    have e : (callsOn i calls).map FileCall.op = Log.fileOps a.Wants jsonRender x ++ .flush :: Log.fileOps a.Wants jsonRender y := by
      rw [c2, hxy, show x ++ Log.Act.flush :: y = (x ++ [Log.Act.flush]) ++ y by simp, Log.fileOps_append, Log.fileOps_append]
      simp [Log.fileOps]
    obtain ⟨a', b', e1, e2, e3⟩ := List.map_eq_append_iff.mp e
    obtain ⟨z, b'', e4, e5, e6⟩ := List.map_eq_cons_iff.mp e3
    refine ⟨a', b'', ?_, e2⟩
    cases z with
    | write b => cases e5
    | flush => rw [e1, e4]
  obtain ⟨a', b', e1, e2⟩ := hops
  have hexp : ∀ L : List (Nat × Item), Log.expected a.Wants jsonRender L = linesOf (L.filter (fun p => a.Wants p.2)) := fun _ => rfl
  have hall : bytesOf (callsOn i calls) = linesOf ((Log.Spec.writes tr).filter (fun p => a.Wants p.2)) := by
    rw [bytesOf_written, c2, Log.written_fileOps, hexp]
  have hsplit : bytesOf (callsOn i calls) = bytesOf a' ++ bytesOf b' := by
    rw [e1]; simp [bytesOf, FileCall.bytes]
  have hlow : bytesOf a' = linesOf ((Log.Spec.writes x).filter (fun p => a.Wants p.2)) := by
    rw [bytesOf_written, e2, Log.written_fileOps, hexp]
  have hout : bytesOf a' <+: out := by
    have hlen := m4 a' b' e1
    have hpend := m1.pending
    have hp1 : out <+: bytesOf (callsOn i calls) := ⟨_, z2.symm⟩
    have hp2 : bytesOf a' <+: bytesOf (callsOn i calls) := ⟨_, hsplit.symm⟩
    refine List.prefix_of_prefix_length_le hp2 hp1 ?_
    have l1 := congrArg List.length z2
    have l2 := congrArg List.length hsplit
    simp only [List.length_append, BufW.pending] at l1 l2 hpend
    omega
  refine ⟨out, hlow ▸ hout, ?_, lossAtMost_mono z1 m2, ?_⟩
  · rw [← hall]
    exact ⟨_, z2.symm⟩
  · intro hdaily
    obtain ⟨w, hw⟩ := callDests_file i calls (d0, ds) moments st hrun (q2 hdaily)
    rcases m1.here with m5 | ⟨_, m5, m6⟩
    · rw [hw] at m5; cases m5
    · rw [← z3 m5]
      simp [content, m6]

/-- **C173** From log calls of any threads down to a disk with all log files of a configuration, of which any may rotate at any time. If no write of the
system fails and dated names are free, then when a flush returns the lines of the records that were logged before and are for this appender, for each
thread exactly these in the order of its calls, have been put into its files in this order; there is at most one gap for each rotation of this appender, at
most one buffer long. For an appender that does not rotate there is no gap, whatever the others do. -/
theorem C173_files {U : Unicode} (hU : LawfulUnicode U) (pathExists openOk : Str → Bool) (order : List Str → List Str)
    (horder : ∀ l, (order l).Perm l) (c c' : Config) (hslab : c.slab = []) (hfix : c.autofix pathExists = some c')
    (as : List AppenderInit) (has : c'.appenders openOk = some as) (k : Consumer) (l : Level)
    (hk : c'.startLogging U openOk order true = .value (k, l))
    (progs : Nat → List (Log.Call Item)) (tr1 tr2 : List (Log.Act Item)) (t n : Nat) (s : Log.Sys Item)
    (h : Log.Run (passes l) (Log.start progs) (tr1 ++ .flushCall t n :: tr2 ++ [.flushRet t n]) s)
    (hd : ∀ p ∈ Log.Spec.sends (tr1 ++ .flushCall t n :: tr2), Deliverable as p.2)
    (d : Disk) (hs : Sane d) (hok : NoFail d) (ends : Nat → Nat) (st0 : Disk × List Dest) (hopen : openDests d ends as = some st0)
    (i : Nat) (a : AppenderInit) (fp : Str) (ha : as[i]? = some a) (hfp : a.path = some fp)
    (hsole : SoleName d fp) (hone : ∀ j b, as[j]? = some b → b.path = some fp → j = i) :
    ∃ calls, k.calls (tr1 ++ .flushCall t n :: tr2) k.bufs = some calls ∧ ∀ moments st, FreeDests st0 moments calls →
      callDests st0 moments calls = .value st → ∃ (before after : List (Nat × Item)) (out : Bytes),
        linesOf before <+: out ∧ out <+: linesOf (before ++ after) ∧
        LossAtMost (rotTimesOf i fp st0 moments calls).length (bufferSize a.bufsize) d st.1 fp out ∧
        (a.daily = false → content st.1 fp = content d fp ++ out) ∧
        (∀ u, Log.Spec.byThread u before = (Log.Spec.byThread u (Log.Spec.sends tr1)).filter a.Wants) ∧
        (∀ u, Log.Spec.byThread u (before ++ after) <+: (Log.Spec.logged (passes l) (progs u)).filter a.Wants) := by
  have hrun1 : ∃ s1, Log.Run (passes l) (Log.start progs) (tr1 ++ .flushCall t n :: tr2) s1 := by
    obtain ⟨s1, _, h1, _⟩ := h.cut (tr1 ++ .flushCall t n :: tr2) (.flushRet t n) [] rfl
    exact ⟨s1, h1⟩
  obtain ⟨s1, h1⟩ := hrun1
  obtain ⟨w1, w2, _⟩ := Log.C66_order (passes l) progs _ s1 h1
  obtain ⟨x, y, hxy, z, hz⟩ := Log.C67_barrier (passes l) progs tr1 tr2 t n s h
  obtain ⟨calls, c1, c2⟩ := files_flushed hU pathExists openOk order horder c c' hslab hfix as has k l hk progs _ x y s1 h1 hxy hd d hs hok ends st0 hopen
    i a fp ha hfp hsole hone
  refine ⟨calls, c1, fun moments st hfree hrun => ?_⟩
  obtain ⟨out, o1, o2, o3, o4⟩ := c2 moments st hfree hrun
  have hrest : Log.Spec.sends tr1 ++ (z ++ Log.Spec.writes y) = Log.Spec.writes (tr1 ++ .flushCall t n :: tr2) := by
    rw [hxy, Log.writes_append, ← hz, List.append_assoc]; rfl
  refine ⟨(Log.Spec.sends tr1).filter (fun p => a.Wants p.2), (z ++ Log.Spec.writes y).filter (fun p => a.Wants p.2), out, ?_, ?_, o3, o4, ?_, ?_⟩
  · rw [← hz, List.filter_append, linesOf_append] at o1
    exact (List.prefix_append _ _).trans o1
  · rw [← List.filter_append, hrest]; exact o2
  · intro u
    exact byThread_filter u a.Wants _
  · intro u
    rw [← List.filter_append, hrest, byThread_filter]
    obtain ⟨z, hz⟩ := (w2 u).2
    rw [← hz, List.filter_append]
    exact List.prefix_append _ _

/-- **C173** for a connection: if it has made all its log calls before the flush, these lines are, of this connection, those of its story (requests
delivered and how it ended) that are for this appender, in order, each once. -/
theorem C173_connection {U : Unicode} (hU : LawfulUnicode U) (pathExists openOk : Str → Bool) (order : List Str → List Str)
    (horder : ∀ l, (order l).Perm l) (c c' : Config) (hslab : c.slab = []) (hfix : c.autofix pathExists = some c')
    (as : List AppenderInit) (has : c'.appenders openOk = some as) (k : Consumer) (l : Level)
    (hk : c'.startLogging U openOk order true = .value (k, l))
    (progs : Nat → List (Log.Call Item)) (tr1 tr2 : List (Log.Act Item)) (t n : Nat) (s : Log.Sys Item)
    (h : Log.Run (passes l) (Log.start progs) (tr1 ++ .flushCall t n :: tr2 ++ [.flushRet t n]) s)
    (hd : ∀ p ∈ Log.Spec.sends (tr1 ++ .flushCall t n :: tr2), Deliverable as p.2)
    (d : Disk) (hs : Sane d) (hok : NoFail d) (ends : Nat → Nat) (st0 : Disk × List Dest) (hopen : openDests d ends as = some st0)
    (i : Nat) (a : AppenderInit) (fp : Str) (ha : as[i]? = some a) (hfp : a.path = some fp)
    (hsole : SoleName d fp) (hone : ∀ j b, as[j]? = some b → b.path = some fp → j = i)
    {K : Type} (cd : Codec K) (lim : HttpLimits) (env : Nat → Env K) (lg : LogEnv K) (r : Reader) (u : Nat)
    (hu : CallsOf (serveLog cd lim env lg r) (progs u))
    (hall : Log.Spec.byThread u (Log.Spec.sends tr1) = Log.Spec.logged (passes l) (progs u)) :
    ∃ calls items, k.calls (tr1 ++ .flushCall t n :: tr2) k.bufs = some calls ∧
      Each2 (fun x item => ∃ time file line, item = Rec.item time file line x)
        (story lg ((serve cd lim env r).1.map (·.req)) (serve cd lim env r).2) items ∧
      ∀ moments st, FreeDests st0 moments calls → callDests st0 moments calls = .value st →
        ∃ (before after : List (Nat × Item)) (out : Bytes), linesOf before <+: out ∧ out <+: linesOf (before ++ after) ∧
          LossAtMost (rotTimesOf i fp st0 moments calls).length (bufferSize a.bufsize) d st.1 fp out ∧
          (a.daily = false → content st.1 fp = content d fp ++ out) ∧
          Log.Spec.byThread u before = items.filter (fun item => passes l item && a.Wants item) ∧
          (∀ p ∈ after, p.1 ≠ u) := by
  obtain ⟨items, hi, hp⟩ := hu
  obtain ⟨calls, c1, c3⟩ := C173_files hU pathExists openOk order horder c c' hslab hfix as has k l hk progs tr1 tr2 t n s h
    hd d hs hok ends st0 hopen i a fp ha hfp hsole hone
  rw [C120_story] at hi
  refine ⟨calls, items, c1, hi, fun moments st hfree hrun => ?_⟩
  obtain ⟨before, after, out, e1, e2, e6, e7, e3, e4⟩ := c3 moments st hfree hrun
  have hb : Log.Spec.byThread u before = items.filter (fun item => passes l item && a.Wants item) := by
    rw [e3 u, hall, hp, logged_map, List.filter_filter]
    apply List.filter_congr
    intro x _
    rw [Bool.and_comm]
  refine ⟨before, after, out, e1, e2, e6, e7, hb, ?_⟩
  intro p hpa he
  have e5 := e4 u
  have hsplit : Log.Spec.byThread u (before ++ after) = Log.Spec.byThread u before ++ Log.Spec.byThread u after := by
    simp [Log.Spec.byThread]
  rw [hsplit, ← hall, ← e3 u] at e5
  have hlen := e5.length_le
  rw [List.length_append] at hlen
  have hmem : p.2 ∈ Log.Spec.byThread u after := List.mem_map.mpr ⟨p, List.mem_filter.mpr ⟨hpa, by simp [he]⟩, rfl⟩
  have := List.length_pos_of_mem hmem
  omega

/-! ## A case meeting the hypotheses -/

/-- The root has a log file, the only service has one that rotates. -/
def dailyFiles : Config :=
  { Config.empty with
    logging := oneFile [],
    services := [(u!"web", { defaultService with logging := { oneFile [] with appenders := [.file none none true 0] } })] }

/-- The appenders of that configuration. -/
def dailyAppenders : List AppenderInit :=
  [⟨0, u!"json", ⟨.trace, false⟩, some u!"./logs//httpd.TRACE.log", false, 0⟩,
    ⟨1, u!"json", ⟨.trace, false⟩, some u!"./logs//web/TRACE.log", true, 0⟩]

example : (dailyFiles.autofix (fun _ => true)).bind (fun c => c.appenders (fun _ => true)) = some dailyAppenders ∧
    (∀ item, Deliverable dailyAppenders item) ∧ (∀ j b, dailyAppenders[j]? = some b → b.path = some u!"./logs//web/TRACE.log" → j = 1) ∧
    (openDests emptyDisk (fun _ => 100) dailyAppenders).isSome := by
  refine ⟨by decide +kernel, fun item => .inr (.inl (by decide)), ?_, by decide +kernel⟩
  intro j b hb hp
  match j with
  | 0 => cases hb; exact absurd hp (by decide)
  | 1 => rfl
  | j + 2 => cases hb

/-- The clock shows 60, 70, ...; the day ends at 100, the next one at 200. -/
def ticking (k : Nat) : Moment := ⟨60 + 10 * k, u!".20261116", fun _ => u!"7", fun _ => true, true, some 200⟩

private def pieces : List (Nat × FileCall) :=
  [(1, .write b!"a"), (0, .write b!"b"), (0, .flush), (1, .flush), (1, .write b!"c"), (1, .write b!"d"), (0, .flush), (1, .flush)]

/-- The file of the service rotates once, when `c` is written, and loses it; that of the root keeps what is written to it. -/
example : (match openDests emptyDisk (fun _ => 100) dailyAppenders with
    | some st => match callDests st ticking pieces with
      | .value st' => some (rotTimesOf 1 u!"./logs//web/TRACE.log" st ticking pieces,
          [u!"./logs//web/TRACE.20261116.log", u!"./logs//web/TRACE.log", u!"./logs//httpd.TRACE.log"].map (content st'.1))
      | _ => none
    | none => none) = some ([100], [b!"a", b!"d", b!"b"]) := by decide +kernel

example : ∀ st, openDests emptyDisk (fun _ => 100) dailyAppenders = some st → FreeDests st ticking pieces := by
  intro st h
  have : st = (openDests emptyDisk (fun _ => 100) dailyAppenders).get (by decide +kernel) := by simp [h]
  subst this
  refine ⟨?_, ?_, ?_, ?_, ?_, ?_, ?_, ?_, trivial⟩
  · intro r hr; cases hr; exact .inr (.inl (by decide +kernel))
  · intro r hr; cases hr
  · intro r hr; exact .inl rfl
  · intro r hr; exact .inl rfl
  · intro r hr; cases hr; exact .inr (.inr (by decide +kernel))
  · intro r hr; cases hr; exact .inr (.inl (by decide +kernel))
  · intro r hr; exact .inl rfl
  · intro r hr; exact .inl rfl

end Httpd
