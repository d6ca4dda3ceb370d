import Verif.Props.DiskErrors
/-!
# C161: rotating appenders when writes to the disk fail
-/

namespace Httpd

open Spec

/-- What an inode held at the start. -/
def atStart (d0 : Disk) (i : Nat) : Bytes := if i < d0.fs.next then d0.fs.data i else []

/-- What an inode holds or is going to hold. -/
def due (d : Disk) (w : BufW) (i : Nat) : Bytes := if i = w.file.ino then w.total d else d.fs.data i

/-- Every file holds what it held at the start and then bytes of the records `out`. -/
structure OnlyRecords (d0 d : Disk) (w : BufW) (out : Bytes) : Prop where
  sane : Sane d
  later : d0.fs.next ≤ d.fs.next
  cur : w.file.ino < d.fs.next
  files : ∀ i, i < d.fs.next → atStart d0 i <+: d.fs.data i ∧ (due d w i).Sublist (atStart d0 i ++ out)
  named : ∀ n i, d.fs.names n = some i → i < d0.fs.next → ∃ n0, d0.fs.names n0 = some i

/-- A step on the open file. -/
theorem OnlyRecords.step {d0 d d' : Disk} {w w' : BufW} {out : Bytes} (h : OnlyRecords d0 d w out) (b : Bytes)
    (hi : w'.file.ino = w.file.ino) (hs : SameBut w.file.ino d d') (ht : (w'.total d').Sublist (w.total d ++ b)) :
    OnlyRecords d0 d' w' (out ++ b) := by
  obtain ⟨s1, s2, s3, s4⟩ := hs
  refine ⟨?_, by rw [s2]; exact h.later, by rw [s2, hi]; exact h.cur, ?_, ?_⟩
  · intro n i hn
    rw [s1] at hn; rw [s2]
    exact h.sane n i hn
  · intro i hlt
    rw [s2] at hlt
    obtain ⟨f1, f2⟩ := h.files i hlt
    by_cases hc : i = w.file.ino
    · subst hc
      simp only [due, hi, if_true] at f2 ⊢
      refine ⟨f1.trans s4, ht.trans ?_⟩
      rw [← List.append_assoc]
      exact List.Sublist.append_right f2 _
    · simp only [due, hi, hc, if_false, s3 i hc] at f2 ⊢
      refine ⟨f1, f2.trans ?_⟩
      rw [← List.append_assoc]
      exact List.sublist_append_left _ _
  · intro n i hn
    rw [s1] at hn
    exact h.named n i hn

/-- Only names change. -/
theorem OnlyRecords.renamed {d0 d d' : Disk} {w : BufW} {out : Bytes} (h : OnlyRecords d0 d w out) (hd : d'.fs.data = d.fs.data)
    (hn : d'.fs.next = d.fs.next) (hnames : ∀ n i, d'.fs.names n = some i → ∃ n', d.fs.names n' = some i) : OnlyRecords d0 d' w out := by
  refine ⟨?_, by rw [hn]; exact h.later, by rw [hn]; exact h.cur, ?_, ?_⟩
  · intro n i he
    obtain ⟨n', hn'⟩ := hnames n i he
    rw [hn]; exact h.sane n' i hn'
  · intro i hlt
    rw [hn] at hlt
    simpa only [due, BufW.total, AFile.total, hd] using h.files i hlt
  · intro n i he
    obtain ⟨n', hn'⟩ := hnames n i he
    exact h.named n' i hn'

/-- A new file is opened in the place of the old one. -/
theorem OnlyRecords.reopened {d0 d : Disk} {w : BufW} {out : Bytes} (h : OnlyRecords d0 d w out) (fp : Str) (hfp : d.fs.names fp = none) :
    OnlyRecords d0 (reopen d w fp).1 (reopen d w fp).2 out ∧ (reopen d w fp).2.total (reopen d w fp).1 = [] := by
  unfold reopen
  simp only [Disk.openFile, hfp]
  generalize hd2 : ({ d with fs := ⟨fun n => if n = fp then some d.fs.next else d.fs.names n,
    fun i => if i = d.fs.next then [] else d.fs.data i, d.fs.next + 1⟩ } : Disk) = d2
  have hne : w.file.ino ≠ d.fs.next := by have := h.cur; omega
  have hdat : ∀ i, i ≠ d.fs.next → d2.fs.data i = d.fs.data i := by intro i hi; rw [← hd2]; simp [hi]
  have hnew : d2.fs.data d.fs.next = [] := by rw [← hd2]; simp
  have hnext : d2.fs.next = d.fs.next + 1 := by rw [← hd2]
  have hnames : ∀ n, d2.fs.names n = if n = fp then some d.fs.next else d.fs.names n := by intro n; rw [← hd2]
  have hsub := settle_sub d2 w.file
  obtain ⟨g1, g2, ⟨s1, s2, s3, s4⟩, _⟩ := settle_spec d2 w.file
  generalize settle d2 w.file = x at g1 g2 s1 s2 s3 s4 hsub
  obtain ⟨d3, f, ok⟩ := x
  simp only at g1 g2 s1 s2 s3 s4 hsub
  have h3 : d3.fs.data d.fs.next = [] := by rw [s3 _ (Ne.symm hne), hnew]
  refine ⟨⟨?_, ?_, ?_, ?_, ?_⟩, ?_⟩
  · intro n i hn
    rw [s1, hnames] at hn
    rw [s2, hnext]
    split at hn
    · cases hn; omega
    · have := h.sane n i hn; omega
  · have := h.later; simp only [s2, hnext]; omega
  · simp only [s2, hnext]; omega
  · intro i hlt
    simp only [s2, hnext] at hlt
    by_cases hc : i = d.fs.next
    · subst hc
      have hst : atStart d0 d.fs.next = [] := by
        have := h.later
        simp only [atStart]; rw [if_neg (by omega)]
      simp only [due, if_true, BufW.total, AFile.total, h3, hst]
      exact ⟨List.nil_prefix, List.nil_sublist _⟩
    · obtain ⟨f1, f2⟩ := h.files i (by omega)
      simp only [due, hc, if_false] at f2 ⊢
      by_cases hc2 : i = w.file.ino
      · subst hc2
        simp only [if_true] at f2
        refine ⟨(by rw [← hdat _ hc] at f1; exact f1.trans s4), ?_⟩
        have e1 : f.total d3 = d3.fs.data w.file.ino := by simp only [AFile.total, g1, g2, Option.getD_none, List.append_nil]
        rw [e1] at hsub
        refine hsub.trans (List.Sublist.trans ?_ f2)
        simp only [BufW.total, AFile.total, hdat _ hc]
        exact List.sublist_append_left _ _
      · simp only [hc2, if_false] at f2
        rw [s3 _ hc2, hdat _ hc]
        exact ⟨f1, f2⟩
  · intro n i hn hlt
    rw [s1, hnames] at hn
    split at hn
    · cases hn; have := h.later; omega
    · exact h.named n i hn hlt
  · simp only [BufW.total, AFile.total, h3]; rfl

/-- The names that a rotation makes are longer than the name of the file. -/
def Longer (r : Rotator) : Prop := r.fp.length ≤ r.namePrefix.length + r.baseName.length + 1 + r.fileExt.length

theorem Longer.ne {r : Rotator} (h : Longer r) (m : Moment) (hm : m.stamp ≠ []) (j : Nat) : r.fp ≠ rotatedName r m j := by
  intro e
  have hl : 0 < m.stamp.length := List.length_pos_iff.mpr hm
  have := congrArg List.length e
  simp only [Longer] at h
  unfold rotatedName at this
  split at this
  · simp only [List.length_append, List.length_cons, List.length_nil] at this; omega
  · simp only [List.length_append, List.length_cons, List.length_nil] at this; omega

theorem rotate_only (d0 d : Disk) (r : Rotator) (m : Moment) (out : Bytes) (h : OnlyRecords d0 d r.inner out) (hl : Longer r)
    (hm : m.stamp ≠ []) (d' : Disk) (r' : Rotator) (ok : Bool) (hr : rotate d r m = .value (d', r', ok)) :
    OnlyRecords d0 d' r'.inner out ∧ Longer r' ∧ (ok = true → r'.inner.total d' = []) := by
  unfold rotate at hr
  split at hr
  · simp only [Outcome.value.injEq, Prod.mk.injEq] at hr
    obtain ⟨rfl, rfl, rfl⟩ := hr
    exact ⟨h, hl, fun h => nomatch h⟩
  · cases hrl : renameLoop r m d 10 0 with
    | none =>
      rw [hrl] at hr
      simp only at hr
      cases hn : m.next with
      | none => rw [hn] at hr; cases hr
      | some at' =>
        rw [hn] at hr
        simp only [Outcome.value.injEq, Prod.mk.injEq] at hr
        obtain ⟨rfl, rfl, rfl⟩ := hr
        exact ⟨h, hl, fun h => nomatch h⟩
    | some d1 =>
      rw [hrl] at hr
      simp only at hr
      obtain ⟨j, hj, e1, e2, e3, e4, _, e6⟩ := renameLoop_moved r m d 10 0 d1 hrl (fun j _ _ => hl.ne m hm j)
      have h1 := h.renamed e1 e2 e6
      split at hr
      · obtain ⟨h2, h3⟩ := h1.reopened r.fp e3
        generalize reopen d1 r.inner r.fp = x at hr h2 h3
        obtain ⟨d2, w2⟩ := x
        simp only at hr h2 h3
        cases hn : m.next with
        | none => rw [hn] at hr; cases hr
        | some at' =>
          rw [hn] at hr
          simp only [Outcome.value.injEq, Prod.mk.injEq] at hr
          obtain ⟨rfl, rfl, rfl⟩ := hr
          exact ⟨h2, hl, fun _ => h3⟩
      · cases hn : m.next with
        | none => rw [hn] at hr; cases hr
        | some at' =>
          rw [hn] at hr
          simp only [Outcome.value.injEq, Prod.mk.injEq] at hr
          obtain ⟨rfl, rfl, rfl⟩ := hr
          exact ⟨h1, hl, fun h => nomatch h⟩

theorem fileAppend_only (d0 d : Disk) (w : BufW) (out b : Bytes) (h : OnlyRecords d0 d w out) :
    OnlyRecords d0 (fileAppend d w b).1 (fileAppend d w b).2.1 (out ++ b) := by
  obtain ⟨a1, _, a3, _⟩ := fileAppend_spec d w b
  exact h.step b a1 a3 (writeLoop_sub b.length d w b)

/-- A record put into a new file for the second time. -/
theorem fileAppend_again (d0 d : Disk) (w : BufW) (out b : Bytes) (h : OnlyRecords d0 d w (out ++ b)) (he : w.total d = []) :
    OnlyRecords d0 (fileAppend d w b).1 (fileAppend d w b).2.1 (out ++ b) := by
  obtain ⟨a1, _, a3, _⟩ := fileAppend_spec d w b
  have hsub := writeLoop_sub b.length d w b
  change ((fileAppend d w b).2.1.total (fileAppend d w b).1).Sublist _ at hsub
  rw [he, List.nil_append] at hsub
  have h0 : atStart d0 w.file.ino = [] := by
    have := (h.files _ h.cur).1
    have e : d.fs.data w.file.ino = [] := by
      simp only [BufW.total, AFile.total, List.append_eq_nil_iff] at he
      exact he.1.1
    rw [e] at this
    exact List.prefix_nil.mp this
  have hst := h.step b a1 a3 (writeLoop_sub b.length d w b)
  obtain ⟨s1, s2, s3, s4⟩ := a3
  refine ⟨hst.sane, hst.later, hst.cur, ?_, hst.named⟩
  intro i hlt
  by_cases hc : i = w.file.ino
  · subst hc
    refine ⟨by rw [h0]; exact List.nil_prefix, ?_⟩
    simp only [due, a1, if_true, h0, List.nil_append]
    exact hsub.trans (List.sublist_append_right _ _)
  · rw [s2] at hlt
    have := h.files i hlt
    simpa only [due, a1, hc, if_false, s3 i hc] using this

theorem rotAppend_only (d0 d : Disk) (r : Rotator) (m : Moment) (out b : Bytes) (h : OnlyRecords d0 d r.inner out) (hl : Longer r)
    (hm : m.stamp ≠ []) (d' : Disk) (r' : Rotator) (ok : Bool) (hr : rotAppend d r m b = .value (d', r', ok)) :
    OnlyRecords d0 d' r'.inner (out ++ b) ∧ Longer r' := by
  have h1 := fileAppend_only d0 d r.inner out b h
  unfold rotAppend at hr
  generalize fileAppend d r.inner b = x at h1 hr
  obtain ⟨d1, w1, ok1⟩ := x
  have hl1 : Longer { r with inner := w1 } := hl
  cases ok1 with
  | true =>
    simp only at hr h1
    cases h2 : rotate d1 { r with inner := w1 } m with
    | error => rw [h2] at hr; cases hr
    | panic => rw [h2] at hr; cases hr
    | value y =>
      obtain ⟨d2, r2, ok2⟩ := y
      rw [h2] at hr
      simp only [Outcome.value.injEq, Prod.mk.injEq] at hr
      obtain ⟨rfl, rfl, _⟩ := hr
      obtain ⟨k1, k2, _⟩ := rotate_only d0 d1 { r with inner := w1 } m (out ++ b) h1 hl1 hm d2 r2 ok2 h2
      exact ⟨k1, k2⟩
  | false =>
    simp only at hr h1
    cases h2 : rotate d1 { r with inner := w1 } m with
    | error => rw [h2] at hr; cases hr
    | panic => rw [h2] at hr; cases hr
    | value y =>
      obtain ⟨d2, r2, ok2⟩ := y
      rw [h2] at hr
      obtain ⟨k1, k2, k3⟩ := rotate_only d0 d1 { r with inner := w1 } m (out ++ b) h1 hl1 hm d2 r2 ok2 h2
      cases ok2 with
      | false =>
        simp only [Outcome.value.injEq, Prod.mk.injEq] at hr
        obtain ⟨rfl, rfl, _⟩ := hr
        exact ⟨k1, k2⟩
      | true =>
        have h3 := fileAppend_again d0 d2 r2.inner out b k1 (k3 rfl)
        simp only at hr
        generalize fileAppend d2 r2.inner b = z at h3 hr
        obtain ⟨d3, w3, ok3⟩ := z
        simp only [Outcome.value.injEq, Prod.mk.injEq] at hr
        obtain ⟨rfl, rfl, _⟩ := hr
        exact ⟨h3, k2⟩

/-- The text of the date of every write is not empty. -/
def Dated : List RotOp → Prop
  | [] => True
  | .write _ m :: ops => m.stamp ≠ [] ∧ Dated ops
  | .flush :: ops => Dated ops

theorem rotPerform_only (ops : List RotOp) (d0 d : Disk) (r : Rotator) (out : Bytes) (h : OnlyRecords d0 d r.inner out) (hl : Longer r)
    (hd : Dated ops) (d' : Disk) (r' : Rotator) (ok : Bool) (hr : rotPerform d r ops = .value (d', r', ok)) :
    OnlyRecords d0 d' r'.inner (out ++ (records ops).flatten) := by
  induction ops generalizing d r out ok with
  | nil =>
    simp only [rotPerform, Outcome.value.injEq, Prod.mk.injEq] at hr
    obtain ⟨rfl, rfl, _⟩ := hr
    simpa [records] using h
  | cons op ops ih =>
    cases op with
    | write b m =>
      simp only [rotPerform] at hr
      cases h1 : rotAppend d r m b with
      | error => rw [h1] at hr; cases hr
      | panic => rw [h1] at hr; cases hr
      | value x =>
        obtain ⟨d1, r1, ok1⟩ := x
        rw [h1] at hr
        simp only at hr
        obtain ⟨k1, k2⟩ := rotAppend_only d0 d r m out b h hl hd.1 d1 r1 ok1 h1
        cases h2 : rotPerform d1 r1 ops with
        | error => rw [h2] at hr; cases hr
        | panic => rw [h2] at hr; cases hr
        | value y =>
          obtain ⟨d2, r2, ok2⟩ := y
          rw [h2] at hr
          simp only [Outcome.value.injEq, Prod.mk.injEq] at hr
          obtain ⟨rfl, rfl, _⟩ := hr
          have := ih d1 r1 (out ++ b) k1 k2 hd.2 ok2 h2
          simpa [records] using this
    | flush =>
      simp only [rotPerform] at hr
      obtain ⟨f1, _, f3, _⟩ := fileFlush_spec d r.inner
      have k1 := h.step [] f1 f3 (by rw [List.append_nil]; exact fileFlush_sub d r.inner)
      rw [List.append_nil] at k1
      unfold rotFlush at hr
      generalize fileFlush d r.inner = x at hr k1
      obtain ⟨d1, w1, ok1⟩ := x
      simp only at hr k1
      cases h2 : rotPerform d1 { r with inner := w1 } ops with
      | error => rw [h2] at hr; cases hr
      | panic => rw [h2] at hr; cases hr
      | value y =>
        obtain ⟨d2, r2, ok2⟩ := y
        rw [h2] at hr
        simp only [Outcome.value.injEq, Prod.mk.injEq] at hr
        obtain ⟨rfl, rfl, _⟩ := hr
        exact ih d1 { r with inner := w1 } out k1 hl hd ok2 h2

/-- **C161**, for a rotating appender: whatever the results of the writes of the system, of renaming and of opening, and whatever the clock
does: after any calls every file of the file system holds what some file held at the start (or nothing), and then bytes of the records in
the order in which they were written, none of them twice. -/
theorem C161_rotating (d0 : Disk) (hs : Sane d0) (fp : Str) (bufsize at' : Nat) (d : Disk) (r : Rotator)
    (hnew : rotNew d0 fp bufsize at' = some (d, r)) (ops : List RotOp) (hd : Dated ops) (d' : Disk) (r' : Rotator) (ok : Bool)
    (h : rotPerform d r ops = .value (d', r', ok)) (n : Str) :
    ∃ old x, content d' n = old ++ x ∧ x.Sublist (records ops).flatten ∧ (old = [] ∨ ∃ n0, old = content d0 n0) := by
  have h0 : OnlyRecords d0 d r.inner [] ∧ Longer r := by
    unfold rotNew at hnew
    cases hn : rotationNames fp with
    | none => rw [hn] at hnew; cases hnew
    | some x =>
      obtain ⟨p, b, e⟩ := x
      rw [hn] at hnew
      simp only [fileNew, Option.some.injEq, Prod.mk.injEq] at hnew
      obtain ⟨rfl, rfl⟩ := hnew
      obtain ⟨o1, o2, o3, o4, o5, o6⟩ := openFile_spec d0 hs fp
      constructor
      · have hnext : d0.fs.next ≤ (d0.openFile fp).1.fs.next := by
          unfold Disk.openFile; cases d0.fs.names fp <;> simp
        refine ⟨o3, hnext, o3 _ _ o1, ?_, ?_⟩
        · intro i hi
          have e : (d0.openFile fp).1.fs.data i = atStart d0 i := by
            unfold Disk.openFile at hi ⊢
            cases hf : d0.fs.names fp with
            | some ino => rw [hf] at hi; simp only at hi ⊢; simp only [atStart, if_pos hi]
            | none =>
              rw [hf] at hi
              simp only at hi ⊢
              simp only [atStart]
              by_cases hc : i = d0.fs.next
              · rw [if_pos hc, if_neg (by omega)]
              · rw [if_neg hc, if_pos (by omega)]
          refine ⟨by rw [e]; exact List.prefix_rfl, ?_⟩
          rw [List.append_nil, ← e]
          simp only [due]
          split
          · next hc => subst hc; simp [BufW.total, AFile.total]
          · exact List.Sublist.refl _
        · intro n i hn hlt
          unfold Disk.openFile at hn
          cases hf : d0.fs.names fp with
          | some ino => rw [hf] at hn; exact ⟨n, hn⟩
          | none =>
            rw [hf] at hn
            simp only at hn
            split at hn
            · cases hn; omega
            · exact ⟨n, hn⟩
      · unfold rotationNames at hn
        cases hfn : fileName fp with
        | none => rw [hfn] at hn; cases hn
        | some filename =>
          rw [hfn] at hn
          simp only at hn
          split at hn
          · simp only [Option.some.injEq, Prod.mk.injEq] at hn
            obtain ⟨rfl, rfl, rfl⟩ := hn
            simp only [Longer, List.length_take]; omega
          · simp only [Option.some.injEq, Prod.mk.injEq] at hn
            obtain ⟨rfl, rfl, rfl⟩ := hn
            simp only [Longer, List.length_take]; omega
  have hfin := rotPerform_only ops d0 d r [] h0.1 h0.2 hd d' r' ok h
  rw [List.nil_append] at hfin
  unfold content
  cases hn : d'.fs.names n with
  | none => exact ⟨[], [], rfl, List.nil_sublist _, .inl rfl⟩
  | some i =>
    simp only
    obtain ⟨⟨x, f1⟩, f2⟩ := hfin.files i (hfin.sane n i hn)
    refine ⟨atStart d0 i, x, f1.symm, ?_, ?_⟩
    · have : (d'.fs.data i).Sublist (due d' r'.inner i) := by
        simp only [due]
        split
        · next hc => subst hc; simp only [BufW.total, AFile.total, List.append_assoc]; exact List.sublist_append_left _ _
        · exact List.Sublist.refl _
      have := this.trans f2
      rw [← f1] at this
      exact (List.append_sublist_append_left _).mp this
    · by_cases hlt : i < d0.fs.next
      · obtain ⟨n0, hn0⟩ := hfin.named n i hn hlt
        exact .inr ⟨n0, by simp only [atStart, if_pos hlt, hn0]⟩
      · exact .inl (by simp only [atStart, if_neg hlt])

/-- A moment of the examples. -/
def plainMoment (now : Nat) : Moment := ⟨now, u!".20240101", fun _ => u!"7", fun _ => true, true, some 1000⟩

/-- A write of the system fails after a byte, then the file is rotated while a write is in the buffer. -/
example : (match rotNew { emptyDisk with os := [some 1] } u!"a.log" 0 100 with
    | some (d, r) =>
      match rotPerform d r [.write [1, 2] (plainMoment 5), .flush, .write [3, 4] (plainMoment 7), .flush, .write [5] (plainMoment 200),
        .write [6, 7] (plainMoment 300), .flush] with
      | .value (d, _, ok) => some (content d u!"a.log", content d u!"a.20240101.log", ok)
      | _ => none
    | none => none) = some ([6, 7], [1, 3, 4], false) ∧ Dated [.write [1, 2] (plainMoment 5), .flush] :=
  ⟨by decide +kernel, List.cons_ne_nil _ _, trivial⟩

end Httpd
