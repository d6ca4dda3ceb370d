import Verif.Props.Appender
import Verif.Props.Rotation
/-!
# C160-C162: log files when writes to the disk fail
-/

namespace Httpd

open Spec

/-! ## C161: whatever the disk does -/

theorem settle_sub (d : Disk) (f : AFile) : ((settle d f).2.1.total (settle d f).1).Sublist (f.total d) := by
  unfold settle AFile.total
  cases h : f.inflight with
  | none => simp [h]
  | some b =>
    match d.os with
    | [] => simp [append_data]
    | none :: rest => simp [append_data]
    | some k :: rest =>
      simp only [append_data, Option.getD_none, Option.getD_some, List.append_nil]
      exact List.Sublist.append_left (List.take_sublist k b) _

theorem fileWrite_sub (d : Disk) (f : AFile) (src : Bytes) (h : (fileWrite d f src).2.2 = none) :
    ((fileWrite d f src).2.1.total (fileWrite d f src).1).Sublist (f.total d) := by
  have hs := settle_sub d f
  unfold fileWrite at h ⊢
  generalize settle d f = x at h hs
  obtain ⟨d', f', ok⟩ := x
  cases ok with
  | false => exact hs
  | true => cases h

theorem flushLoop_sub (fuel : Nat) (d : Disk) (f : AFile) (rest : Bytes) (hf : rest.length ≤ fuel) :
    ((flushLoop fuel d f rest).2.1.total (flushLoop fuel d f rest).1 ++ (flushLoop fuel d f rest).2.2.1).Sublist (f.total d ++ rest) := by
  induction fuel generalizing d f rest with
  | zero => simp [flushLoop]
  | succ fuel ih =>
    unfold flushLoop
    by_cases hr : rest = []
    · subst hr; simp
    · have hre : rest.isEmpty = false := by simpa using hr
      simp only [hre, Bool.false_eq_true, ↓reduceIte]
      obtain ⟨_, _, h3⟩ := fileWrite_spec d f rest
      have h4 := fileWrite_sub d f rest
      generalize fileWrite d f rest = x at h3 h4
      obtain ⟨d', f', o⟩ := x
      match o with
      | none => exact List.Sublist.append_right (h4 rfl) _
      | some 0 =>
        have := (h3 0 rfl).2
        simp only [List.take_zero, List.append_nil] at this
        simp only [this]
        exact List.Sublist.refl _
      | some (n + 1) =>
        have := (h3 (n + 1) rfl).2
        simp only at this ⊢
        have hi := ih d' f' (rest.drop (n + 1)) (by simp only [List.length_drop]; omega)
        rw [this, List.append_assoc, List.take_append_drop] at hi
        exact hi

theorem flushBuf_sub (d : Disk) (w : BufW) : ((flushBuf d w).2.1.total (flushBuf d w).1).Sublist (w.total d) := by
  have h := flushLoop_sub w.buf.length d w.file w.buf (Nat.le_refl _)
  unfold flushBuf BufW.total
  generalize flushLoop w.buf.length d w.file w.buf = x at h
  obtain ⟨d', f', rest, ok⟩ := x
  exact h

theorem bufWrite_sub (d : Disk) (w : BufW) (src : Bytes) (h : (bufWrite d w src).2.2 = none) :
    ((bufWrite d w src).2.1.total (bufWrite d w src).1).Sublist (w.total d) := by
  have hx : ∃ x : Disk × BufW × Bool, x = (if w.cap < w.buf.length + src.length then flushBuf d w else (d, w, true)) ∧
      (x.2.1.total x.1).Sublist (w.total d) ∧ (x.2.2 = true → x.2.1.cap ≤ src.length → x.2.1.buf = []) := by
    refine ⟨_, rfl, ?_⟩
    obtain ⟨_, _, _, h4⟩ := flushBuf_spec d w
    split
    · exact ⟨flushBuf_sub d w, fun h _ => (h4 h).1⟩
    · next hlt =>
      refine ⟨List.Sublist.refl _, fun _ hc => ?_⟩
      exact List.length_eq_zero_iff.mp (by simp only at hc ⊢; omega)
  obtain ⟨x, hx, h1, h2⟩ := hx
  unfold bufWrite at h ⊢
  rw [← hx] at h ⊢
  clear hx
  obtain ⟨d', w', ok⟩ := x
  cases ok with
  | false => exact h1
  | true =>
    simp only at h h1 h2 ⊢
    by_cases hc : w'.cap ≤ src.length
    · simp only [hc, ↓reduceIte] at h ⊢
      have hf := fileWrite_sub d' w'.file src h
      have hb := h2 trivial hc
      generalize fileWrite d' w'.file src = y at hf
      obtain ⟨d2, f2, o⟩ := y
      simp only [BufW.total, hb, List.append_nil] at hf h1 ⊢
      exact hf.trans h1
    · simp [hc] at h

theorem writeLoop_sub (fuel : Nat) (d : Disk) (w : BufW) (src : Bytes) :
    ((writeLoop fuel d w src).2.1.total (writeLoop fuel d w src).1).Sublist (w.total d ++ src) := by
  induction fuel generalizing d w src with
  | zero => exact List.sublist_append_left _ _
  | succ fuel ih =>
    unfold writeLoop
    split
    · exact List.sublist_append_left _ _
    · obtain ⟨_, _, _, h4⟩ := bufWrite_spec d w src
      have h5 := bufWrite_sub d w src
      generalize bufWrite d w src = x at h4 h5
      obtain ⟨d', w', o⟩ := x
      match o with
      | none => exact (h5 rfl).trans (List.sublist_append_left _ _)
      | some 0 =>
        have := (h4 0 rfl).2.2
        simp only [List.take_zero, List.append_nil] at this
        simp only [this]
        exact List.sublist_append_left _ _
      | some (n + 1) =>
        have := (h4 (n + 1) rfl).2.2
        simp only at this ⊢
        have hi := ih d' w' (src.drop (n + 1))
        rw [this, List.append_assoc, List.take_append_drop] at hi
        exact hi

theorem fileFlush_sub (d : Disk) (w : BufW) : ((fileFlush d w).2.1.total (fileFlush d w).1).Sublist (w.total d) := by
  have h1 := flushBuf_sub d w
  obtain ⟨_, _, _, h4⟩ := flushBuf_spec d w
  unfold fileFlush
  generalize flushBuf d w = x at h1 h4
  obtain ⟨d', w', ok⟩ := x
  cases ok with
  | false => exact h1
  | true =>
    have hb := (h4 rfl).1
    have hs := settle_sub d' w'.file
    simp only at h1 hb ⊢
    generalize settle d' w'.file = y at hs
    obtain ⟨d2, f2, ok2⟩ := y
    simp only [BufW.total, hb, List.append_nil] at hs h1 ⊢
    exact hs.trans h1

theorem perform_sub (ops : List FileOp) (d : Disk) (w : BufW) :
    ((perform d w ops).2.1.total (perform d w ops).1).Sublist (w.total d ++ written ops) := by
  induction ops generalizing d w with
  | nil => simp [perform, written]
  | cons op ops ih =>
    cases op with
    | write b =>
      have h := writeLoop_sub b.length d w b
      simp only [perform, written, fileAppend]
      generalize writeLoop b.length d w b = x at h
      obtain ⟨d', w', ok⟩ := x
      refine (ih d' w').trans ?_
      rw [← List.append_assoc]
      exact List.Sublist.append_right h _
    | flush =>
      have h := fileFlush_sub d w
      simp only [perform, written]
      generalize fileFlush d w = x at h
      obtain ⟨d', w', ok⟩ := x
      exact (ih d' w').trans (List.Sublist.append_right h _)

/-- After opening: the calls work on one inode, that of the file. -/
theorem perform_content (d : Disk) (hs : Sane d) (fp : Str) (bufsize : Nat) (ops : List FileOp) (d' : Disk) (w' : BufW) (ok : Bool)
    (h : perform (fileNew d fp bufsize).1 (fileNew d fp bufsize).2 ops = (d', w', ok)) :
    content d' fp = d'.fs.data w'.file.ino ∧ content d fp <+: content d' fp ∧ (w'.total d').Sublist (content d fp ++ written ops) ∧
      ∀ n, n ≠ fp → d.fs.names n ≠ d.fs.names fp → content d' n = content d n := by
  obtain ⟨o1, o2, o3, o4, o5, _⟩ := openFile_spec d hs fp
  have hnew : fileNew d fp bufsize = ((d.openFile fp).1, ⟨bufferSize bufsize, [], ⟨(d.openFile fp).2, none⟩⟩) := rfl
  have hino : ∀ n ino, n ≠ fp → d.fs.names n ≠ d.fs.names fp → (d.openFile fp).1.fs.names n = some ino → ino ≠ (d.openFile fp).2 := by
    intro n ino hn hne hni
    rw [o4 n hn] at hni
    unfold Disk.openFile
    cases hf : d.fs.names fp with
    | some i =>
      simp only
      rintro rfl
      exact hne (by rw [hni, hf])
    | none =>
      have := hs n ino hni
      simp only
      omega
  rw [hnew] at h
  generalize (d.openFile fp).1 = d0 at *
  generalize (d.openFile fp).2 = ino at *
  simp only at h
  obtain ⟨p1, _, p3, _⟩ := perform_spec ops d0 ⟨bufferSize bufsize, [], ⟨ino, none⟩⟩
  have p4 := perform_sub ops d0 ⟨bufferSize bufsize, [], ⟨ino, none⟩⟩
  rw [h] at p1 p3 p4
  simp only at p1 p3 p4
  have hc : content d' fp = d'.fs.data ino := by simp [content, p3.1, o1]
  refine ⟨by rw [hc, p1], ?_, ?_, ?_⟩
  · rw [hc, ← o2]; exact p3.2.2.2
  · simpa [BufW.total, AFile.total, o2] using p4
  · intro n hn hne
    rw [← o5 n hn]
    unfold content
    rw [p3.1]
    cases hni : d0.fs.names n with
    | none => rfl
    | some i => exact p3.2.2.1 i (hino n i hn hne hni)

/-- **C161** Whatever the results of the writes of the system: after any calls of a file appender the file holds what it held before,
and then bytes of the records in the order in which they were written, none of them twice. No other file changes. -/
theorem C161_only_records (d : Disk) (hs : Sane d) (fp : Str) (bufsize : Nat) (ops : List FileOp) (d' : Disk) (w' : BufW) (ok : Bool)
    (h : perform (fileNew d fp bufsize).1 (fileNew d fp bufsize).2 ops = (d', w', ok)) :
    (∃ x, content d' fp = content d fp ++ x ∧ x.Sublist (written ops)) ∧
      ∀ n, n ≠ fp → d.fs.names n ≠ d.fs.names fp → content d' n = content d n := by
  obtain ⟨h1, ⟨x, h2⟩, h3, h4⟩ := perform_content d hs fp bufsize ops d' w' ok h
  refine ⟨⟨x, h2.symm, ?_⟩, h4⟩
  have : (content d' fp).Sublist (w'.total d') := by
    rw [h1]
    simp only [BufW.total, AFile.total, List.append_assoc]
    exact List.sublist_append_left _ _
  have := this.trans h3
  rw [← h2] at this
  exact (List.append_sublist_append_left _).mp this

/-- One of two writes of the system fails after a byte. -/
example : content (perform (fileNew { emptyDisk with os := [some 1] } u!"a.log" 0).1 (fileNew { emptyDisk with os := [some 1] } u!"a.log" 0).2
    [.write [1, 2], .flush, .write [3, 4], .flush]).1 u!"a.log" = [1, 3, 4] := by decide +kernel

/-! ## C162: whole records -/

/-- **C162**, what holds: whatever failed before, as soon as the calls succeed again, up to a flush, all that they wrote is in the file,
whole and in order, at its end. -/
theorem C162_recovers_partial (d : Disk) (hs : Sane d) (fp : Str) (bufsize : Nat) (before ops : List FileOp) (d1 d2 : Disk) (w1 w2 : BufW) (ok : Bool)
    (h1 : perform (fileNew d fp bufsize).1 (fileNew d fp bufsize).2 before = (d1, w1, ok))
    (h2 : perform d1 w1 (ops ++ [.flush]) = (d2, w2, true)) :
    ∃ x, content d2 fp = content d fp ++ x ++ written ops ∧ x.Sublist (written before) := by
  obtain ⟨a1, ⟨x, a2⟩, a3, _⟩ := perform_content d hs fp bufsize before d1 w1 ok h1
  have hall : perform (fileNew d fp bufsize).1 (fileNew d fp bufsize).2 (before ++ (ops ++ [.flush])) = (d2, w2, ok && true) := by
    rw [perform_append, h1]; simp only [h2]
  obtain ⟨b1, _, _, _⟩ := perform_content d hs fp bufsize _ d2 w2 _ hall
  rw [perform_append] at h2
  obtain ⟨p1, _, p3, p4⟩ := perform_spec ops d1 w1
  generalize perform d1 w1 ops = y at h2 p1 p3 p4
  obtain ⟨d3, w3, ok3⟩ := y
  obtain ⟨f1, _, _, f4⟩ := fileFlush_spec d3 w3
  simp only [perform] at h2
  generalize fileFlush d3 w3 = z at h2 f1 f4
  obtain ⟨d4, w4, ok4⟩ := z
  simp only [Bool.and_true, Prod.mk.injEq, Bool.and_eq_true] at h2
  obtain ⟨rfl, rfl, hok1, hok2⟩ := h2
  have e : content d4 fp = w1.total d1 ++ written ops := by
    rw [b1]
    simp only at f1 f4 p1 p4
    rw [f1, (f4 hok2).2.2, p4 hok1]
  have : w1.total d1 = content d fp ++ (x ++ (w1.file.inflight.getD [] ++ w1.buf)) := by
    simp only [BufW.total, AFile.total, ← a1, ← a2, List.append_assoc]
  refine ⟨x ++ (w1.file.inflight.getD [] ++ w1.buf), ?_, ?_⟩
  · rw [e, this]
  · rw [this] at a3
    exact (List.append_sublist_append_left _).mp a3

/-- The disk works again after a failed flush. -/
example :
    let d := { emptyDisk with os := [some 1] }
    let a := perform (fileNew d u!"a.log" 0).1 (fileNew d u!"a.log" 0).2 [.write [1, 2], .flush]
    a.2.2 = false ∧ (perform a.1 a.2.1 ([.write [3, 4]] ++ [.flush])).2.2 = true := by decide +kernel

/-- Flushing a buffer that holds one piece. -/
theorem fileFlush_fails (d : Disk) (cap ino k : Nat) (rest : List (Option Nat)) (hos : d.os = some k :: rest) (b : Bytes) (hb : b ≠ [])
    (hl : b.length ≤ maxChunk) :
    fileFlush d ⟨cap, b, ⟨ino, none⟩⟩ = ({ d with os := rest }.append ino (b.take k), ⟨cap, [], ⟨ino, none⟩⟩, false) := by
  have hfw : fileWrite d ⟨ino, none⟩ b = (d, ⟨ino, some b⟩, some b.length) := by
    simp [fileWrite, settle, List.take_of_length_le hl]
  have hbuf : flushBuf d ⟨cap, b, ⟨ino, none⟩⟩ = (d, ⟨cap, [], ⟨ino, some b⟩⟩, true) := by
    unfold flushBuf
    cases hn : b.length with
    | zero => exact absurd (List.length_eq_zero_iff.mp hn) hb
    | succ n =>
      have hd : b.drop (n + 1) = [] := by rw [← hn]; exact List.drop_length
      have hre : b.isEmpty = false := by simpa using hb
      simp only [flushLoop, hre, Bool.false_eq_true, ↓reduceIte, hfw, hn, hd]
      cases n <;> simp [flushLoop]
  unfold fileFlush
  rw [hbuf]
  simp only [settle, hos]

/-- **C162**, negation for the code as written: a write of a record that has been reported as done is done later; when the disk then takes
only a part of it, the rest is given up (only the flush reports it, on standard error) and the next record is put behind the part. -/
theorem C162_torn_violated (d : Disk) (hs : Sane d) (fp : Str) (bufsize k : Nat) (rest : List (Option Nat)) (hos : d.os = some k :: rest)
    (hrest : ∀ o ∈ rest, o = none) (b c : Bytes) (hb : b ≠ []) (hlb : b.length < bufferSize bufsize) (hmax : b.length ≤ maxChunk)
    (hlc : c.length < bufferSize bufsize) :
    ∃ d1 w1 d2 w2 d3 w3 d4 w4,
      fileAppend (fileNew d fp bufsize).1 (fileNew d fp bufsize).2 b = (d1, w1, true) ∧ fileFlush d1 w1 = (d2, w2, false) ∧
      fileAppend d2 w2 c = (d3, w3, true) ∧ fileFlush d3 w3 = (d4, w4, true) ∧ content d4 fp = content d fp ++ b.take k ++ c := by
  obtain ⟨o1, o2, o3, o4, o5, o6⟩ := openFile_spec d hs fp
  have hnew : fileNew d fp bufsize = ((d.openFile fp).1, ⟨bufferSize bufsize, [], ⟨(d.openFile fp).2, none⟩⟩) := rfl
  rw [hnew]
  rw [hos] at o6
  generalize (d.openFile fp).1 = d0 at *
  generalize (d.openFile fp).2 = ino at *
  simp only
  have a1 := fileAppend_small d0 ⟨bufferSize bufsize, [], ⟨ino, none⟩⟩ b (by simp only [List.length_nil]; omega) hlb
  have a2 := fileFlush_fails d0 (bufferSize bufsize) ino k rest o6 b hb hmax
  have hnf : NoFail ({ d0 with os := rest }.append ino (b.take k)) := hrest
  generalize hd2 : ({ d0 with os := rest } : Disk).append ino (b.take k) = d2 at a2 hnf
  have a3 := fileAppend_small d2 ⟨bufferSize bufsize, [], ⟨ino, none⟩⟩ c (by simp only [List.length_nil]; omega) hlc
  obtain ⟨g1, _⟩ := fileFlush_ok d2 ⟨bufferSize bufsize, c, ⟨ino, none⟩⟩ hnf
  obtain ⟨_, _, f3, f4⟩ := fileFlush_spec d2 ⟨bufferSize bufsize, c, ⟨ino, none⟩⟩
  refine ⟨_, _, _, _, _, _, _, _, a1, a2, a3, Prod.ext rfl (Prod.ext rfl g1), ?_⟩
  have hn : d2.fs.names fp = some ino := by rw [← hd2]; exact o1
  have hdat : d2.fs.data ino = content d fp ++ b.take k := by rw [← hd2, append_data, ← o2]
  have e : ∀ x : Bytes, x = c → content (fileFlush d2 ⟨bufferSize bufsize, x, ⟨ino, none⟩⟩).1 fp = content d fp ++ b.take k ++ c := by
    rintro x rfl
    unfold content at hdat ⊢
    rw [f3.1, hn]
    simp only
    rw [(f4 g1).2.2]
    simp only [BufW.total, AFile.total, Option.getD_none, List.append_nil, hdat]
  exact e _ (List.nil_append c)

/-! ## C160: a record that could not be written is written again after a rotation -/

/-- A rotation to a name that is not the file's own. -/
theorem renameLoop_moved (r : Rotator) (m : Moment) (d : Disk) (left i : Nat) (d' : Disk) (h : renameLoop r m d left i = some d')
    (hne : ∀ j, i ≤ j → j < i + left → r.fp ≠ rotatedName r m j) :
    ∃ j, j < i + left ∧ d'.fs.data = d.fs.data ∧ d'.fs.next = d.fs.next ∧ d'.fs.names r.fp = none ∧
      d'.fs.names (rotatedName r m j) = d.fs.names r.fp ∧ d.fs.names r.fp ≠ none ∧
      (∀ n i0, d'.fs.names n = some i0 → ∃ n', d.fs.names n' = some i0) := by
  induction left generalizing i with
  | zero => cases h
  | succ left ih =>
    simp only [renameLoop] at h
    have hf := hne i (Nat.le_refl _) (by omega)
    cases hx : (if m.renameOk i then d.rename r.fp (rotatedName r m i) else none) with
    | none =>
      rw [hx] at h
      obtain ⟨j, hj, hr⟩ := ih (i + 1) h (fun j hj hj2 => hne j (by omega) (by omega))
      exact ⟨j, by omega, hr⟩
    | some d1 =>
      rw [hx] at h
      simp only [Option.some.injEq] at h
      subst h
      split at hx
      · unfold Disk.rename at hx
        cases hn : d.fs.names r.fp with
        | none => rw [hn] at hx; cases hx
        | some ino =>
          rw [hn] at hx
          simp only [hf, ↓reduceIte, Option.some.injEq] at hx
          subst hx
          refine ⟨i, by omega, rfl, rfl, by simp [hf], by simp, by simp, ?_⟩
          intro n i0 hn0
          simp only at hn0
          split at hn0
          · exact ⟨r.fp, by rw [hn]; exact hn0⟩
          · split at hn0
            · cases hn0
            · exact ⟨n, hn0⟩
      · cases hx

/-- A rotation that succeeded: the name means a new, empty file, and one of the dated names the old one. -/
theorem rotate_moved (d : Disk) (r : Rotator) (m : Moment) (hs : Sane d) (hfp : d.fs.names r.fp = some r.inner.file.ino)
    (hne : ∀ j, j < 10 → r.fp ≠ rotatedName r m j) (d' : Disk) (r' : Rotator) (h : rotate d r m = .value (d', r', true)) :
    r.rotateAt ≤ m.now ∧ r'.fp = r.fp ∧ d'.fs.names r.fp = some r'.inner.file.ino ∧ r'.inner.total d' = [] ∧
      (∃ j, j < 10 ∧ d'.fs.names (rotatedName r m j) = some r.inner.file.ino) ∧ r.inner.file.ino ≠ r'.inner.file.ino ∧
      d.fs.data r.inner.file.ino <+: d'.fs.data r.inner.file.ino := by
  unfold rotate at h
  split at h
  · cases h
  · next hdue =>
    cases hl : renameLoop r m d 10 0 with
    | none =>
      rw [hl] at h
      simp only at h
      cases hn : m.next with
      | none => rw [hn] at h; cases h
      | some at' => rw [hn] at h; cases h
    | some d1 =>
      rw [hl] at h
      simp only at h
      obtain ⟨j, hj, e1, e2, e3, e4, _, e6⟩ := renameLoop_moved r m d 10 0 d1 hl (fun j _ hj => hne j (by omega))
      have hs1 : Sane d1 := by
        intro n i hn
        obtain ⟨n', hn'⟩ := e6 n i hn
        rw [e2]; exact hs n' i hn'
      have hold : r.inner.file.ino < d1.fs.next := by rw [e2]; exact hs _ _ hfp
      rw [hfp] at e4
      split at h
      · unfold reopen at h
        simp only [Disk.openFile, e3] at h
        generalize hd2 : ({ d1 with fs := ⟨fun n => if n = r.fp then some d1.fs.next else d1.fs.names n,
          fun i => if i = d1.fs.next then [] else d1.fs.data i, d1.fs.next + 1⟩ } : Disk) = d2 at h
        obtain ⟨g1, g2, g3, _⟩ := settle_spec d2 r.inner.file
        generalize settle d2 r.inner.file = x at h g1 g2 g3
        obtain ⟨d3, f, okx⟩ := x
        simp only at g1 g2 g3
        cases hn : m.next with
        | none => rw [hn] at h; cases h
        | some at' =>
          rw [hn] at h
          simp only [Outcome.value.injEq, Prod.mk.injEq] at h
          obtain ⟨rfl, rfl, _⟩ := h
          refine ⟨by omega, rfl, ?_, ?_, ⟨j, by omega, ?_⟩, ?_, ?_⟩
          · rw [g3.1, ← hd2]; simp
          · have : d3.fs.data d1.fs.next = [] := by
              rw [g3.2.2.1 _ (by omega), ← hd2]; simp
            simp [BufW.total, AFile.total, this]
          · rw [g3.1, ← hd2]
            have : rotatedName r m j ≠ r.fp := Ne.symm (hne j (by omega))
            simp [this, e4]
          · simp only; omega
          · have : d2.fs.data r.inner.file.ino = d.fs.data r.inner.file.ino := by
              rw [← hd2]
              have : r.inner.file.ino ≠ d1.fs.next := by omega
              simp [this, e1]
            rw [← this]; exact g3.2.2.2
      · cases hn : m.next with
        | none => rw [hn] at h; cases h
        | some at' => rw [hn] at h; cases h

/-- **C160** If a record could not be written and the call reports success all the same, then the time for a rotation had come, the old
file is there under a dated name with all it held, and after a successful flush the new file holds the record, whole, and nothing else. -/
theorem C160_again (d : Disk) (r : Rotator) (m : Moment) (b : Bytes) (hs : Sane d) (hfp : d.fs.names r.fp = some r.inner.file.ino)
    (hne : ∀ j, j < 10 → r.fp ≠ rotatedName r m j) (hfail : (fileAppend d r.inner b).2.2 = false) (d1 d2 : Disk) (r1 r2 : Rotator)
    (h1 : rotAppend d r m b = .value (d1, r1, true)) (h2 : rotFlush d1 r1 = (d2, r2, true)) :
    r.rotateAt ≤ m.now ∧ content d2 r.fp = b ∧ ∃ j, j < 10 ∧ content d r.fp <+: content d2 (rotatedName r m j) := by
  obtain ⟨a1, _, a3, _⟩ := fileAppend_spec d r.inner b
  unfold rotAppend at h1
  generalize fileAppend d r.inner b = x at h1 hfail a1 a3
  obtain ⟨d3, w3, ok3⟩ := x
  simp only at hfail a1 a3
  subst hfail
  simp only at h1
  cases hr : rotate d3 { r with inner := w3 } m with
  | error => rw [hr] at h1; cases h1
  | panic => rw [hr] at h1; cases h1
  | value v =>
    obtain ⟨d4, r4, ok4⟩ := v
    rw [hr] at h1
    cases ok4 with
    | false => cases h1
    | true =>
      simp only at h1
      obtain ⟨m1, m2, m3, m4, ⟨j, m5, m6⟩, m7, m8⟩ := rotate_moved d3 { r with inner := w3 } m (sane_same a3 hs)
        (by simp only [a1, a3.1]; exact hfp) hne d4 r4 hr
      simp only [a1] at m1 m2 m3 m6 m7 m8
      obtain ⟨b1, _, b3, b4⟩ := fileAppend_spec d4 r4.inner b
      generalize fileAppend d4 r4.inner b = y at h1 b1 b3 b4
      obtain ⟨d5, w5, ok5⟩ := y
      simp only [Outcome.value.injEq, Prod.mk.injEq] at h1
      obtain ⟨rfl, rfl, rfl⟩ := h1
      simp only at b1 b3 b4
      unfold rotFlush at h2
      simp only at h2
      obtain ⟨c1, _, c3, c4⟩ := fileFlush_spec d5 w5
      generalize fileFlush d5 w5 = z at h2 c1 c3 c4
      obtain ⟨d6, w6, ok6⟩ := z
      simp only [Prod.mk.injEq] at h2
      obtain ⟨rfl, rfl, rfl⟩ := h2
      simp only at c1 c3 c4
      rw [b1] at c3 c4
      have hnames : d6.fs.names = d4.fs.names := c3.1.trans b3.1
      refine ⟨m1, ?_, j, m5, ?_⟩
      · simp only [content, hnames, m3]
        rw [(c4 trivial).2.2, b4 trivial, m4, List.nil_append]
      · have hn : d6.fs.names (rotatedName r m j) = some r.inner.file.ino := by rw [hnames]; exact m6
        simp only [content, hn, hfp]
        rw [c3.2.2.1 _ m7, b3.2.2.1 _ m7]
        exact a3.2.2.2.trans m8

/-- ... and it is written again whenever a rotation is due, and renaming, opening and writing work from then on. -/
theorem C160_when_due (d : Disk) (r : Rotator) (m : Moment) (b : Bytes) (hs : Sane d) (hfp : d.fs.names r.fp = some r.inner.file.ino)
    (hne : ∀ j, j < 10 → r.fp ≠ rotatedName r m j) (hfail : (fileAppend d r.inner b).2.2 = false) (hwork : NoFail (fileAppend d r.inner b).1)
    (hdue : r.rotateAt ≤ m.now) (hren : m.renameOk 0 = true) (hopen : m.openOk = true) (hnext : m.next ≠ none) :
    ∃ d1 r1 d2 r2, rotAppend d r m b = .value (d1, r1, true) ∧ rotFlush d1 r1 = (d2, r2, true) ∧ content d2 r.fp = b ∧
      ∃ j, j < 10 ∧ content d r.fp <+: content d2 (rotatedName r m j) := by
  have key : ∃ d1 r1, rotAppend d r m b = .value (d1, r1, true) ∧ NoFail d1 := by
    obtain ⟨a1, _, a3, _⟩ := fileAppend_spec d r.inner b
    unfold rotAppend
    generalize fileAppend d r.inner b = x at hfail hwork a1 a3
    obtain ⟨d3, w3, ok3⟩ := x
    simp only at hfail hwork a1 a3
    subst hfail
    have hfp3 : d3.fs.names r.fp = some r.inner.file.ino := by rw [a3.1]; exact hfp
    obtain ⟨d4, hl, hos⟩ : ∃ d4, renameLoop { r with inner := w3 } m d3 10 0 = some d4 ∧ d4.os = d3.os := by
      rw [renameLoop, if_pos hren]
      simp only [Disk.rename, hfp3]
      rw [if_neg (by exact hne 0 (by omega))]
      exact ⟨_, rfl, rfl⟩
    have ho : ∀ (e : Disk) (q : Str), (e.openFile q).1.os = e.os := by
      intro e q; unfold Disk.openFile; cases e.fs.names q <;> rfl
    have hnf : NoFail (d4.openFile r.fp).1 := by
      intro o h; rw [ho, hos] at h; exact hwork o h
    obtain ⟨_, s2⟩ := settle_ok _ w3.file hnf
    cases hn : m.next with
    | none => exact absurd hn hnext
    | some at' =>
      simp only [rotate, if_neg (Nat.not_lt.mpr hdue), hl, hopen, ↓reduceIte, reopen, hn]
      generalize settle (d4.openFile r.fp).1 w3.file = y at s2
      obtain ⟨d5, f5, ok5⟩ := y
      simp only at s2 ⊢
      obtain ⟨t1, t2⟩ := fileAppend_ok d5 ⟨w3.cap, [], ⟨(d4.openFile r.fp).2, none⟩⟩ b s2
      generalize fileAppend d5 ⟨w3.cap, [], ⟨(d4.openFile r.fp).2, none⟩⟩ b = z at t1 t2
      obtain ⟨d6, w6, ok6⟩ := z
      simp only at t1 t2
      subst t1
      exact ⟨_, _, rfl, t2⟩
  obtain ⟨d1, r1, h1, h2⟩ := key
  obtain ⟨f1, _⟩ := fileFlush_ok d1 r1.inner h2
  have hf : rotFlush d1 r1 = ((fileFlush d1 r1.inner).1, { r1 with inner := (fileFlush d1 r1.inner).2.1 }, true) := by
    unfold rotFlush
    rw [← f1]
  exact ⟨d1, r1, _, _, h1, hf, (C160_again d r m b hs hfp hne hfail _ _ _ _ h1 hf).2⟩

/-- A file with a write in flight that fails; the time for a rotation has come. -/
def dueRotator : Rotator := ⟨⟨8092, [], ⟨0, some [1, 2]⟩⟩, 5, u!"l/a.log", u!"l/", u!"a", u!"log"⟩

/-- See `dueRotator`. -/
def dueDisk : Disk := ⟨⟨fun n => if n = u!"l/a.log" then some 0 else none, fun _ => [9], 1⟩, [some 1]⟩

/-- See `dueRotator`: a record as long as the buffer goes to the file directly, where it meets the failure. -/
example : Sane dueDisk ∧ dueDisk.fs.names dueRotator.fp = some dueRotator.inner.file.ino ∧
    (fileAppend dueDisk dueRotator.inner (List.replicate 8092 7)).2.2 = false ∧
    NoFail (fileAppend dueDisk dueRotator.inner (List.replicate 8092 7)).1 ∧
    ∀ j, j < 10 → dueRotator.fp ≠ rotatedName dueRotator ⟨7, u!".20240101", fun _ => u!"1", fun _ => true, true, some 9⟩ j := by
  refine ⟨?_, rfl, by decide +kernel, ?_, ?_⟩
  · intro n i h
    simp only [dueDisk] at h ⊢
    split at h
    · cases h; omega
    · cases h
  · have : (fileAppend dueDisk dueRotator.inner (List.replicate 8092 7)).1.os = [] := by decide +kernel
    intro o h; rw [this] at h; cases h
  · intro j _
    unfold rotatedName
    split
    · decide +kernel
    · show dueRotator.fp ≠ dueRotator.namePrefix ++ dueRotator.baseName ++ u!".20240101" ++ u!"." ++ u!"1" ++ u!"." ++ dueRotator.fileExt
      decide +kernel

/-- A record that could not be written is reported when there is no rotation. -/
theorem C160_reported (d : Disk) (r : Rotator) (m : Moment) (b : Bytes) (hfail : (fileAppend d r.inner b).2.2 = false)
    (hdue : m.now < r.rotateAt) : ∃ d1 r1, rotAppend d r m b = .value (d1, r1, false) := by
  unfold rotAppend
  generalize fileAppend d r.inner b = x at hfail
  obtain ⟨d3, w3, ok3⟩ := x
  simp only at hfail
  subst hfail
  simp only [rotate, hdue, ↓reduceIte]
  exact ⟨_, _, rfl⟩

end Httpd
