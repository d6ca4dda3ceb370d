import Verif.Spec.Appender
/-!
# Lemmas about files and buffered writers
-/

namespace Httpd

open Spec

/-- At most the content of one inode differs, and it has grown. -/
def SameBut (ino : Nat) (d d' : Disk) : Prop :=
  d'.fs.names = d.fs.names ∧ d'.fs.next = d.fs.next ∧ (∀ i, i ≠ ino → d'.fs.data i = d.fs.data i) ∧ d.fs.data ino <+: d'.fs.data ino

theorem SameBut.refl (ino : Nat) (d : Disk) : SameBut ino d d := ⟨rfl, rfl, fun _ _ => rfl, List.prefix_refl _⟩

theorem SameBut.trans {ino : Nat} {d1 d2 d3 : Disk} (h1 : SameBut ino d1 d2) (h2 : SameBut ino d2 d3) : SameBut ino d1 d3 :=
  ⟨h2.1.trans h1.1, h2.2.1.trans h1.2.1, fun i hi => (h2.2.2.1 i hi).trans (h1.2.2.1 i hi), h1.2.2.2.trans h2.2.2.2⟩

theorem append_same (d : Disk) (ino : Nat) (b : Bytes) : SameBut ino d (d.append ino b) := by
  refine ⟨rfl, rfl, ?_, ?_⟩
  · intro i hi
    simp [Disk.append, hi]
  · simp [Disk.append]

theorem append_data (d : Disk) (ino : Nat) (b : Bytes) : (d.append ino b).fs.data ino = d.fs.data ino ++ b := by
  simp [Disk.append]

/-- What a file will hold once the write in flight is done. -/
def AFile.total (d : Disk) (f : AFile) : Bytes := d.fs.data f.ino ++ f.inflight.getD []

/-- What a file will hold once the buffer is written, too. -/
def BufW.total (d : Disk) (w : BufW) : Bytes := w.file.total d ++ w.buf

theorem settle_spec (d : Disk) (f : AFile) :
    (settle d f).2.1.ino = f.ino ∧ (settle d f).2.1.inflight = none ∧ SameBut f.ino d (settle d f).1 ∧
    ((settle d f).2.2 = true → (settle d f).1.fs.data f.ino = f.total d) := by
  unfold settle AFile.total
  cases h : f.inflight with
  | none => simp [SameBut.refl, h]
  | some b =>
    match d.os with
    | [] =>
      refine ⟨rfl, rfl, append_same _ _ _, ?_⟩
      intro _; exact append_data _ _ _
    | none :: rest =>
      refine ⟨rfl, rfl, append_same _ _ _, ?_⟩
      intro _; exact append_data _ _ _
    | some k :: rest =>
      refine ⟨rfl, rfl, append_same _ _ _, ?_⟩
      intro h; cases h

theorem fileWrite_spec (d : Disk) (f : AFile) (src : Bytes) :
    (fileWrite d f src).2.1.ino = f.ino ∧ SameBut f.ino d (fileWrite d f src).1 ∧
    (∀ n, (fileWrite d f src).2.2 = some n →
      n = min maxChunk src.length ∧ (fileWrite d f src).2.1.total (fileWrite d f src).1 = f.total d ++ src.take n) := by
  obtain ⟨h1, h2, h3, h4⟩ := settle_spec d f
  unfold fileWrite
  generalize hs : settle d f = x at h1 h2 h3 h4
  obtain ⟨d', f', ok⟩ := x
  cases ok with
  | false => exact ⟨h1, h3, by simp⟩
  | true =>
    refine ⟨h1, h3, ?_⟩
    intro n hn
    simp only [Option.some.injEq, List.length_take] at hn
    refine ⟨hn.symm, ?_⟩
    simp only at h1 h4
    simp only [AFile.total, Option.getD_some, h1]
    rw [h4 trivial]
    simp only [AFile.total]
    congr 1
    subst hn
    rw [List.take_eq_take_iff]
    omega

theorem flushLoop_spec (fuel : Nat) (d : Disk) (f : AFile) (rest : Bytes) (hf : rest.length ≤ fuel) :
    (flushLoop fuel d f rest).2.1.ino = f.ino ∧ SameBut f.ino d (flushLoop fuel d f rest).1 ∧
    ((flushLoop fuel d f rest).2.2.2 = true → (flushLoop fuel d f rest).2.2.1 = [] ∧
      (flushLoop fuel d f rest).2.1.total (flushLoop fuel d f rest).1 = f.total d ++ rest) := by
  induction fuel generalizing d f rest with
  | zero =>
    have : rest = [] := List.length_eq_zero_iff.mp (by omega)
    subst this
    simp [flushLoop, SameBut.refl]
  | succ fuel ih =>
    unfold flushLoop
    by_cases hr : rest = []
    · subst hr; simp [SameBut.refl]
    · have hre : rest.isEmpty = false := by simpa using hr
      simp only [hre, Bool.false_eq_true, ↓reduceIte]
      obtain ⟨h1, h2, h3⟩ := fileWrite_spec d f rest
      generalize hx : fileWrite d f rest = x at h1 h2 h3
      obtain ⟨d', f', o⟩ := x
      match o with
      | none => exact ⟨h1, h2, by simp⟩
      | some 0 => exact ⟨h1, h2, by simp⟩
      | some (n + 1) =>
        simp only
        obtain ⟨_, h4⟩ := h3 (n + 1) rfl
        have hpos : 0 < rest.length := List.length_pos_iff.mpr hr
        obtain ⟨i1, i2, i3⟩ := ih d' f' (rest.drop (n + 1)) (by simp only [List.length_drop]; omega)
        simp only at h1 h2
        rw [h1] at i1 i2
        refine ⟨i1, h2.trans i2, ?_⟩
        intro hok
        obtain ⟨j1, j2⟩ := i3 hok
        refine ⟨j1, ?_⟩
        rw [j2, h4, List.append_assoc, List.take_append_drop]

theorem flushBuf_spec (d : Disk) (w : BufW) :
    (flushBuf d w).2.1.file.ino = w.file.ino ∧ (flushBuf d w).2.1.cap = w.cap ∧ SameBut w.file.ino d (flushBuf d w).1 ∧
    ((flushBuf d w).2.2 = true → (flushBuf d w).2.1.buf = [] ∧ (flushBuf d w).2.1.total (flushBuf d w).1 = w.total d) := by
  obtain ⟨h1, h2, h3⟩ := flushLoop_spec w.buf.length d w.file w.buf (Nat.le_refl _)
  unfold flushBuf
  generalize flushLoop w.buf.length d w.file w.buf = x at h1 h2 h3
  obtain ⟨d', f', rest, ok⟩ := x
  refine ⟨h1, rfl, h2, ?_⟩
  intro hok
  obtain ⟨h4, h5⟩ := h3 hok
  simp only at h4 h5
  refine ⟨h4, ?_⟩
  simp only [BufW.total, h5, h4, List.append_nil]

theorem bufWrite_spec (d : Disk) (w : BufW) (src : Bytes) :
    (bufWrite d w src).2.1.file.ino = w.file.ino ∧ (bufWrite d w src).2.1.cap = w.cap ∧ SameBut w.file.ino d (bufWrite d w src).1 ∧
    (∀ n, (bufWrite d w src).2.2 = some n → n ≤ src.length ∧ (src ≠ [] → 0 < n) ∧
      (bufWrite d w src).2.1.total (bufWrite d w src).1 = w.total d ++ src.take n) := by
  have hroom : ∃ x : Disk × BufW × Bool, x = (if w.cap < w.buf.length + src.length then flushBuf d w else (d, w, true)) ∧
      x.2.1.file.ino = w.file.ino ∧ x.2.1.cap = w.cap ∧ SameBut w.file.ino d x.1 ∧
      (x.2.2 = true → x.2.1.total x.1 = w.total d ∧ (w.cap ≤ src.length → x.2.1.buf = [])) := by
    refine ⟨_, rfl, ?_⟩
    obtain ⟨h1, h2, h3, h4⟩ := flushBuf_spec d w
    split
    · exact ⟨h1, h2, h3, fun h => ⟨(h4 h).2, fun _ => (h4 h).1⟩⟩
    · next hlt =>
      refine ⟨rfl, rfl, SameBut.refl _ _, fun _ => ⟨rfl, fun hc => ?_⟩⟩
      exact List.length_eq_zero_iff.mp (by simp only; omega)
  obtain ⟨x, hx, h1, h2, h3, h4⟩ := hroom
  unfold bufWrite
  rw [← hx]
  clear hx
  obtain ⟨d', w', ok⟩ := x
  simp only at h1 h2 h3 h4
  cases ok with
  | false => exact ⟨h1, h2, h3, by simp⟩
  | true =>
    obtain ⟨h5, h6⟩ := h4 rfl
    by_cases hc : w'.cap ≤ src.length
    · simp only [hc, ↓reduceIte]
      obtain ⟨g1, g2, g3⟩ := fileWrite_spec d' w'.file src
      generalize fileWrite d' w'.file src = y at g1 g2 g3
      obtain ⟨d2, f2, o⟩ := y
      simp only at g1 g2 g3
      rw [h1] at g1 g2
      refine ⟨g1, h2, h3.trans g2, ?_⟩
      intro n hn
      obtain ⟨k1, k2⟩ := g3 n hn
      refine ⟨by omega, ?_, ?_⟩
      · intro hs
        have : 0 < src.length := List.length_pos_iff.mpr hs
        simp only [maxChunk] at k1
        omega
      · have hb := h6 (by omega)
        simp only [BufW.total] at h5 ⊢
        rw [k2, ← h5, hb]
        simp
    · simp only [hc, ↓reduceIte]
      refine ⟨h1, h2, h3, ?_⟩
      intro n hn
      simp only [Option.some.injEq] at hn
      subst hn
      refine ⟨Nat.le_refl _, fun hs => List.length_pos_iff.mpr hs, ?_⟩
      simp only [BufW.total] at h5 ⊢
      rw [← List.append_assoc, h5, List.take_length]

theorem writeLoop_spec (fuel : Nat) (d : Disk) (w : BufW) (src : Bytes) (hf : src.length ≤ fuel) :
    (writeLoop fuel d w src).2.1.file.ino = w.file.ino ∧ (writeLoop fuel d w src).2.1.cap = w.cap ∧
    SameBut w.file.ino d (writeLoop fuel d w src).1 ∧
    ((writeLoop fuel d w src).2.2 = true → (writeLoop fuel d w src).2.1.total (writeLoop fuel d w src).1 = w.total d ++ src) := by
  induction fuel generalizing d w src with
  | zero =>
    have : src = [] := List.length_eq_zero_iff.mp (by omega)
    subst this
    simp [writeLoop, SameBut.refl]
  | succ fuel ih =>
    unfold writeLoop
    by_cases hr : src = []
    · subst hr; simp [SameBut.refl]
    · have hre : src.isEmpty = false := by simpa using hr
      simp only [hre, Bool.false_eq_true, ↓reduceIte]
      obtain ⟨h1, h2, h3, h4⟩ := bufWrite_spec d w src
      generalize hx : bufWrite d w src = x at h1 h2 h3 h4
      obtain ⟨d', w', o⟩ := x
      match o with
      | none => exact ⟨h1, h2, h3, by simp⟩
      | some 0 => exact ⟨h1, h2, h3, by simp⟩
      | some (n + 1) =>
        simp only at h1 h2 h3
        obtain ⟨_, _, h5⟩ := h4 (n + 1) rfl
        obtain ⟨i1, i2, i3, i4⟩ := ih d' w' (src.drop (n + 1)) (by simp only [List.length_drop]; omega)
        rw [h1] at i1 i3
        refine ⟨i1, by simp only [i2, h2], h3.trans i3, ?_⟩
        intro hok
        rw [i4 hok, h5, List.append_assoc, List.take_append_drop]

/-- A write that succeeds adds its bytes at the end. -/
theorem fileAppend_spec (d : Disk) (w : BufW) (src : Bytes) :
    (fileAppend d w src).2.1.file.ino = w.file.ino ∧ (fileAppend d w src).2.1.cap = w.cap ∧
    SameBut w.file.ino d (fileAppend d w src).1 ∧
    ((fileAppend d w src).2.2 = true → (fileAppend d w src).2.1.total (fileAppend d w src).1 = w.total d ++ src) :=
  writeLoop_spec src.length d w src (Nat.le_refl _)

/-- A flush that succeeds leaves nothing in memory. -/
theorem fileFlush_spec (d : Disk) (w : BufW) :
    (fileFlush d w).2.1.file.ino = w.file.ino ∧ (fileFlush d w).2.1.cap = w.cap ∧ SameBut w.file.ino d (fileFlush d w).1 ∧
    ((fileFlush d w).2.2 = true → (fileFlush d w).2.1.buf = [] ∧ (fileFlush d w).2.1.file.inflight = none ∧
      (fileFlush d w).1.fs.data w.file.ino = w.total d) := by
  obtain ⟨h1, h2, h3, h4⟩ := flushBuf_spec d w
  unfold fileFlush
  generalize flushBuf d w = x at h1 h2 h3 h4
  obtain ⟨d', w', ok⟩ := x
  simp only at h1 h2 h3 h4
  cases ok with
  | false => exact ⟨h1, h2, h3, by simp⟩
  | true =>
    obtain ⟨h5, h6⟩ := h4 rfl
    obtain ⟨g1, g2, g3, g4⟩ := settle_spec d' w'.file
    simp only
    generalize settle d' w'.file = y at g1 g2 g3 g4
    obtain ⟨d2, f2, ok2⟩ := y
    simp only at g1 g2 g3 g4
    rw [h1] at g1 g3 g4
    refine ⟨g1, h2, h3.trans g3, ?_⟩
    intro hok
    refine ⟨h5, g2, ?_⟩
    rw [g4 hok, ← h6]
    simp [BufW.total, h5]

theorem fileFlush_total (d : Disk) (w : BufW) (h : (fileFlush d w).2.2 = true) :
    (fileFlush d w).2.1.total (fileFlush d w).1 = w.total d := by
  obtain ⟨h1, _, _, h4⟩ := fileFlush_spec d w
  obtain ⟨h5, h6, h7⟩ := h4 h
  simp only [BufW.total, AFile.total] at h7 ⊢
  rw [h5, h6, h1, h7]
  simp

/-- Calls that all succeed. -/
theorem perform_spec (ops : List FileOp) (d : Disk) (w : BufW) :
    (perform d w ops).2.1.file.ino = w.file.ino ∧ (perform d w ops).2.1.cap = w.cap ∧ SameBut w.file.ino d (perform d w ops).1 ∧
    ((perform d w ops).2.2 = true → (perform d w ops).2.1.total (perform d w ops).1 = w.total d ++ written ops) := by
  induction ops generalizing d w with
  | nil => simp [perform, SameBut.refl, written]
  | cons op ops ih =>
    cases op with
    | write b =>
      obtain ⟨h1, h2, h3, h4⟩ := fileAppend_spec d w b
      simp only [perform]
      generalize fileAppend d w b = x at h1 h2 h3 h4
      obtain ⟨d', w', ok⟩ := x
      simp only at h1 h2 h3 h4
      obtain ⟨i1, i2, i3, i4⟩ := ih d' w'
      rw [h1] at i1 i3
      refine ⟨i1, by simp only [i2, h2], h3.trans i3, ?_⟩
      intro hok
      simp only [Bool.and_eq_true] at hok
      simp only [written]
      rw [i4 hok.2, h4 hok.1, List.append_assoc]
    | flush =>
      obtain ⟨h1, h2, h3, _⟩ := fileFlush_spec d w
      have h4 := fileFlush_total d w
      simp only [perform]
      generalize fileFlush d w = x at h1 h2 h3 h4
      obtain ⟨d', w', ok⟩ := x
      simp only at h1 h2 h3 h4
      obtain ⟨i1, i2, i3, i4⟩ := ih d' w'
      rw [h1] at i1 i3
      refine ⟨i1, by simp only [i2, h2], h3.trans i3, ?_⟩
      intro hok
      simp only [Bool.and_eq_true] at hok
      simp only [written]
      rw [i4 hok.2, h4 hok.1]

theorem perform_append (a b : List FileOp) (d : Disk) (w : BufW) :
    perform d w (a ++ b) = (let (d1, w1, ok1) := perform d w a; let (d2, w2, ok2) := perform d1 w1 b; (d2, w2, ok1 && ok2)) := by
  induction a generalizing d w with
  | nil => simp [perform]
  | cons op a ih =>
    cases op <;> simp [perform, ih, Bool.and_assoc]

/-- After opening. -/
theorem openFile_spec (d : Disk) (hs : Sane d) (fp : Str) :
    (d.openFile fp).1.fs.names fp = some (d.openFile fp).2 ∧ (d.openFile fp).1.fs.data (d.openFile fp).2 = content d fp ∧
    Sane (d.openFile fp).1 ∧ (∀ n, n ≠ fp → (d.openFile fp).1.fs.names n = d.fs.names n) ∧
    (∀ n, n ≠ fp → content (d.openFile fp).1 n = content d n) ∧ (d.openFile fp).1.os = d.os := by
  unfold Disk.openFile content
  cases h : d.fs.names fp with
  | some ino => simp [h, hs]
  | none =>
    simp only [↓reduceIte, true_and]
    refine ⟨?_, ?_, ?_⟩
    · intro n ino hn
      simp only at hn ⊢
      split at hn
      · simp only [Option.some.injEq] at hn; omega
      · have := hs n ino hn; omega
    · intro n hn; simp [hn]
    · refine ⟨?_, trivial⟩
      intro n hn
      simp only [hn, ↓reduceIte]
      cases hc : d.fs.names n with
      | none => rfl
      | some ino =>
        have := hs n ino hc
        have hne : ino ≠ d.fs.next := by omega
        simp [hne]

/-- A small write stays in memory. -/
theorem fileAppend_small (d : Disk) (w : BufW) (src : Bytes) (h : w.buf.length + src.length ≤ w.cap) (h2 : src.length < w.cap) :
    fileAppend d w src = (d, { w with buf := w.buf ++ src }, true) := by
  unfold fileAppend
  cases hs : src.length with
  | zero =>
    have : src = [] := List.length_eq_zero_iff.mp hs
    subst this
    simp [writeLoop]
  | succ n =>
    have hne : src.isEmpty = false := by
      cases src with
      | nil => simp at hs
      | cons _ _ => rfl
    have hb : bufWrite d w src = (d, { w with buf := w.buf ++ src }, some (n + 1)) := by
      unfold bufWrite
      rw [if_neg (by omega)]
      simp only
      rw [if_neg (by omega), hs]
    have hd : src.drop (n + 1) = [] := by rw [← hs]; exact List.drop_length
    unfold writeLoop
    rw [if_neg (by simp [hne]), hb]
    simp only
    rw [hd]
    cases n <;> simp [writeLoop]

end Httpd
