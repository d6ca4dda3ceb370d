import Verif.Spec.OneDay
import Verif.Props.RotationLoss
/-!
# A log file holds the records of one day (C204)
-/

namespace Httpd
open Spec

theorem regular_end {z : Zone} {p t : Int} (h : Regular z p t) : ∃ at' : Nat, endOf z p t = some at' ∧
    (∀ v, (at' : Int) ≤ v → period z p t < period z p v) ∧ ∀ v, t ≤ v → v < at' → period z p v = period z p t := by
  obtain ⟨u, h1, h2, h3, h4⟩ := h
  refine ⟨(u + p).toNat, ?_, fun v hv => h3 v (by omega), fun v h5 h6 => h4 v h5 (by omega)⟩
  unfold endOf
  rw [h1]
  simp [h2]

theorem recordBytes_cons (w : Timed) (ws : List Timed) : recordBytes (w :: ws) = w.record ++ recordBytes ws := by simp [recordBytes]

/-- A write of the same day: the file stays. -/
theorem rotAppend_early (d : Disk) (r : Rotator) (m : Moment) (b : Bytes) (hlt : m.now < r.rotateAt) (hok : (fileAppend d r.inner b).2.2 = true) :
    rotAppend d r m b = .value ((fileAppend d r.inner b).1, { r with inner := (fileAppend d r.inner b).2.1 }, true) := by
  unfold rotAppend
  generalize fileAppend d r.inner b = x at hok
  obtain ⟨d1, w1, ok1⟩ := x
  cases hok
  simp [rotate, hlt]

/-- A write of a later day: there is a new file. -/
theorem Parted.turn {base : Bytes} {cap : Nat} {d : Disk} {r : Rotator} {out : Bytes} {parts : List Part} {old : Bytes}
    (h : Parted base cap d r out parts old) (m : Moment) (b c : Bytes) (d1 : Disk) (r1 : Rotator) (ok : Bool)
    (hcut : out = (parts.map (fun p => p.kept ++ p.lost)).flatten ++ c)
    (ha : rotAppend d r m b = .value (d1, r1, ok)) (hdue : r.rotateAt ≤ m.now) (hfree : ∀ i, i < 10 → d.fs.names (rotatedName r m i) = none)
    (hfp : ∃ i, d.fs.names r.fp = some i) (hren : m.renameOk 0 = true) (hopen : m.openOk = true) :
    ∃ q, Parted base cap d1 r1 (out ++ b) (parts ++ [q]) [] ∧ q.kept ++ q.lost = c ++ b ∧ d1.fs.names r1.fp = some r1.inner.file.ino ∧
      r1.fp = r.fp ∧ m.next = some r1.rotateAt := by
  obtain ⟨k1, k2⟩ := h.append b
  obtain ⟨h1, _, h3, _⟩ := fileAppend_spec d r.inner b
  have hcase := rotAppend_cases _ _ _ _ _ _ _ ha
  unfold rotAppend at ha
  generalize fileAppend d r.inner b = y at ha k1 k2 h1 h3
  obtain ⟨d2, w2, ok2⟩ := y
  simp only at k1 k2 h1 h3
  subst k2
  simp only at ha
  cases hr : Httpd.rotate d2 { r with inner := w2 } m with
  | error => rw [hr] at ha; cases ha
  | panic => rw [hr] at ha; cases ha
  | value z =>
    obtain ⟨d3, r3, ok3⟩ := z
    rw [hr] at ha
    simp only [Outcome.value.injEq, Prod.mk.injEq] at ha
    obtain ⟨rfl, rfl, rfl⟩ := ha
    obtain ⟨parts', old', j1, j2, j3⟩ := k1.rotate m d3 r3 ok3 hr (by rw [h3.1]; exact Or.inr hfree)
    rcases j3 with ⟨_, _, j | j | j⟩ | ⟨⟨q, rfl, _⟩, rfl, j5, _, j6, _⟩
    · simp only at j; omega
    · exfalso
      obtain ⟨i, hi⟩ := hfp
      have : d2.fs.names r.fp = some i := by rw [h3.1]; exact hi
      rw [renameLoop] at j
      simp only [hren, ↓reduceIte, Disk.rename, this] at j
      split at j
      · cases j
      · next hx => split at hx <;> cases hx
    · rw [hopen] at j; cases j
    · refine ⟨q, j1, ?_, by rw [j2]; exact j6, j2, ?_⟩
      · obtain ⟨cur, e1, e2⟩ := j1.split
        rw [j5, List.nil_append] at e2
        rw [← e2, List.append_nil, hcut, List.map_append, List.flatten_append, List.append_assoc] at e1
        have := List.append_cancel_left e1
        simpa using this.symm
      · rcases hcase.2 with ⟨a, _⟩ | ⟨_, a⟩
        · omega
        · exact a

/-- The writes from a given time on, in groups, and the files that they made. -/
theorem parted_days (z : Zone) (p : Int) (date : Int → Str) (base : Bytes) (cap : Nat) (ops : List (Option Timed)) :
    ∀ (d : Disk) (r : Rotator) (t0 t : Int) (out c : Bytes) (parts : List Part) (old : Bytes), Parted base cap d r out parts old →
      out = (parts.map (fun p => p.kept ++ p.lost)).flatten ++ c → d.fs.names r.fp = some r.inner.file.ino → t0 ≤ t →
      endOf z p t0 = some r.rotateAt → Regular z p t0 → InTime z p date t (ops.filterMap id) →
      (∀ w, some w ∈ ops → Regular z p w.later ∧ w.moment.renameOk 0 = true ∧ w.moment.openOk = true) →
      FreeNames d r (ops.map timedOp) → ∀ (d1 : Disk) (r1 : Rotator) (ok1 : Bool), rotPerform d r (ops.map timedOp) = .value (d1, r1, ok1) →
      ∃ (g : List Timed) (gs : List (List Timed)) (new : List Part) (cur : Bytes) (old' : Bytes),
        g ++ gs.flatten = ops.filterMap id ∧
        (∀ pre : List Timed, (∀ w ∈ pre, period z p w.moment.now = period z p t0) → DayGroups z p t0 ((pre ++ g) :: gs)) ∧
        Parted base cap d1 r1 (((parts ++ new).map (fun p => p.kept ++ p.lost)).flatten ++ cur) (parts ++ new) old' ∧
        new.map (fun p => p.kept ++ p.lost) ++ [cur] = (c ++ recordBytes g) :: gs.map recordBytes ∧
        d1.fs.names r1.fp = some r1.inner.file.ino ∧ r1.fp = r.fp := by
  induction ops with
  | nil =>
    intro d r t0 t out c parts old h hcut hfp _ _ _ _ _ _ d1 r1 ok1 hp
    cases hp
    refine ⟨[], [], [], c, old, rfl, ?_, by rw [List.append_nil, ← hcut]; exact h, by simp [recordBytes], hfp, rfl⟩
    intro pre hpre
    simpa [DayGroups] using hpre
  | cons o ops ih =>
    intro d r t0 t out c parts old h hcut hfp ht hend hreg hin hall hfree d1 r1 ok1 hp
    have hall' : ∀ w, some w ∈ ops → Regular z p w.later ∧ w.moment.renameOk 0 = true ∧ w.moment.openOk = true :=
      fun w hw => hall w (List.mem_cons_of_mem _ hw)
    cases o with
    | none =>
      simp only [List.map_cons, timedOp, rotPerform, FreeNames] at hp hfree
      obtain ⟨k1, _, _, _, k5⟩ := h.flush
      obtain ⟨f1, _, f3, _⟩ := fileFlush_spec d r.inner
      have hfp' : (rotFlush d r).1.fs.names (rotFlush d r).2.1.fp = some (rotFlush d r).2.1.inner.file.ino := by
        simp only [rotFlush, f1, f3.1]; exact hfp
      have hend' : endOf z p t0 = some (rotFlush d r).2.1.rotateAt := by simpa [rotFlush] using hend
      generalize rotFlush d r = x at hp hfree k1 k5 hfp' hend'
      obtain ⟨d2, r2, ok2⟩ := x
      simp only at hp hfree k1 k5 hfp' hend'
      cases hq : rotPerform d2 r2 (ops.map timedOp) with
      | error => rw [hq] at hp; cases hp
      | panic => rw [hq] at hp; cases hp
      | value y =>
        obtain ⟨d3, r3, ok3⟩ := y
        rw [hq] at hp
        simp only [Outcome.value.injEq, Prod.mk.injEq] at hp
        obtain ⟨rfl, rfl, _⟩ := hp
        obtain ⟨g, gs, new, cur, old', e1, e2, e3, e4, e5, e6⟩ :=
          ih d2 r2 t0 t out c parts old k1 hcut hfp' ht hend' hreg (by simpa using hin) hall' hfree _ _ _ hq
        exact ⟨g, gs, new, cur, old', by simpa using e1, e2, e3, e4, e5, e6.trans k5⟩
    | some w =>
      simp only [List.map_cons, timedOp, rotPerform, FreeNames] at hp hfree
      simp only [List.filterMap_cons, id_eq] at hin ⊢
      obtain ⟨i1, i2, i3, _, i5⟩ := hin
      obtain ⟨a1, a2, a3⟩ := hall w (List.mem_cons_self ..)
      obtain ⟨at', b1, b2, b3⟩ := regular_end hreg
      have hat : at' = r.rotateAt := by rw [b1] at hend; exact Option.some.inj hend
      subst hat
      obtain ⟨hf1, hfree⟩ := hfree
      cases ha : rotAppend d r w.moment w.record with
      | error => rw [ha] at hp; cases hp
      | panic => rw [ha] at hp; cases hp
      | value x =>
        obtain ⟨d2, r2, ok2⟩ := x
        rw [ha] at hp hfree
        simp only at hp hfree
        cases hq : rotPerform d2 r2 (ops.map timedOp) with
        | error => rw [hq] at hp; cases hp
        | panic => rw [hq] at hp; cases hp
        | value y =>
          obtain ⟨d3, r3, ok3⟩ := y
          rw [hq] at hp
          simp only [Outcome.value.injEq, Prod.mk.injEq] at hp
          obtain ⟨rfl, rfl, _⟩ := hp
          by_cases hlt : w.moment.now < r.rotateAt
          · obtain ⟨k1, k2⟩ := h.append w.record
            obtain ⟨f1, _, f3, _⟩ := fileAppend_spec d r.inner w.record
            rw [rotAppend_early d r w.moment w.record hlt k2] at ha
            cases ha
            obtain ⟨g, gs, new, cur, old', e1, e2, e3, e4, e5, e6⟩ :=
              ih _ _ t0 w.later _ (c ++ w.record) parts old k1 (by rw [hcut, List.append_assoc]) (by simp only [f1, f3.1]; exact hfp)
                (by omega) hend hreg i5 hall' hfree _ _ _ hq
            refine ⟨w :: g, gs, new, cur, old', by rw [List.cons_append, e1], ?_, e3, by rw [e4, recordBytes_cons, List.append_assoc], e5, e6⟩
            intro pre hpre
            have := e2 (pre ++ [w]) (by
              intro x hx
              rcases List.mem_append.mp hx with hx | hx
              · exact hpre x hx
              · rw [List.mem_singleton] at hx
                subst hx
                exact b3 _ (by omega) (by omega))
            simpa using this
          · have hdue : r.rotateAt ≤ w.moment.now := by omega
            obtain ⟨q, k1, k2, k3, k4, k5⟩ :=
              h.turn w.moment w.record c d2 r2 ok2 hcut ha hdue (hf1.resolve_left hlt) ⟨_, hfp⟩ a2 a3
            obtain ⟨g, gs, new, cur, old', e1, e2, e3, e4, e5, e6⟩ :=
              ih d2 r2 w.later w.later _ [] _ [] k1 (by rw [hcut]; simp [k2]) k3 (Int.le_refl _) (by rw [← i3]; exact k5) a1 i5 hall' hfree
                _ _ _ hq
            refine ⟨[w], g :: gs, q :: new, cur, old', by simpa using e1, ?_, by simpa using e3, ?_, e5, e6.trans k4⟩
            · intro pre hpre
              refine ⟨pre, w, rfl, hpre, b2 _ (by omega), ?_⟩
              have := e2 [] (by simp)
              simpa using this
            · simp only [List.map_cons, List.cons_append, k2]
              rw [e4]
              simp [recordBytes]

/-- The start: one file, and its name means it. -/
theorem parted_start {d0 : Disk} (hs : Sane d0) (hok : NoFail d0) {fp : Str} {bufsize at' : Nat} {d : Disk} {r : Rotator}
    (hnew : rotNew d0 fp bufsize at' = some (d, r)) :
    Parted (content d0 fp) (bufferSize bufsize) d r [] [] (content d0 fp) ∧ d.fs.names r.fp = some r.inner.file.ino ∧ r.fp = fp ∧
      r.rotateAt = at' := by
  obtain ⟨o1, o2, o3, o4, o5, o6⟩ := openFile_spec d0 hs fp
  unfold rotNew at hnew
  cases hn : rotationNames fp with
  | none => rw [hn] at hnew; cases hnew
  | some x =>
    obtain ⟨p, b, e⟩ := x
    rw [hn] at hnew
    simp only [fileNew, Option.some.injEq, Prod.mk.injEq] at hnew
    obtain ⟨rfl, rfl⟩ := hnew
    refine ⟨⟨o3, o3 _ _ o1, by intro o ho; rw [o6] at ho; exact hok o ho, ⟨fp, o1⟩, rfl, by simp, ?_, by simp, by simp, by simp, ?_⟩, o1, rfl, rfl⟩
    · exact ⟨[], rfl, by simp [BufW.total, AFile.total, o2]⟩
    · simp only [o2]; exact List.prefix_refl _

/-- **C204**, what holds: if the days are regular, no write, no rename and no opening fails and the dated names are free, then after any run of
writes and flushes and a last flush the writes are, in their order, in groups, one for each file. All of a group are of the day (hour) in which
its file was begun, except the last one, which is of a later day (hour) and ends the group; and the file was given the records of its group and no
others. Of these at most one buffer is lost, at the end; of the last file nothing is. -/
theorem C204_one_day_partial (z : Zone) (p : Int) (date : Int → Str) (d0 : Disk) (hs : Sane d0) (hok : NoFail d0) (fp : Str)
    (bufsize at' : Nat) (d : Disk) (r : Rotator) (hnew : rotNew d0 fp bufsize at' = some (d, r)) (t : Int) (ops : List (Option Timed))
    (hstart : endOf z p t = some at') (hreg : Regular z p t) (hin : InTime z p date t (ops.filterMap id))
    (hall : ∀ w, some w ∈ ops → Regular z p w.later ∧ w.moment.renameOk 0 = true ∧ w.moment.openOk = true)
    (hfree : FreeNames d r (ops.map timedOp)) (d1 d2 : Disk) (r1 r2 : Rotator) (ok1 ok2 : Bool)
    (hp : rotPerform d r (ops.map timedOp) = .value (d1, r1, ok1)) (hf : rotFlush d1 r1 = (d2, r2, ok2)) :
    ∃ (gs : List (List Timed)) (first : LogPart) (rest : List LogPart), gs.flatten = ops.filterMap id ∧ DayGroups z p t gs ∧
      LogFiles (bufferSize bufsize) d0 d2 fp first rest ∧ (first :: rest).map (fun f => f.kept ++ f.lost) = gs.map recordBytes := by
  obtain ⟨h1, h2, h3, h4⟩ := parted_start hs hok hnew
  obtain ⟨g, gs, new, cur, old', e1, e2, e3, e4, e5, e6⟩ :=
    parted_days z p date _ _ ops d r t t [] [] [] _ h1 rfl h2 (Int.le_refl _) (by rw [h4]; exact hstart) hreg hin hall hfree d1 r1 ok1 hp
  obtain ⟨hk', _, hbuf, hfl, _⟩ := e3.flush
  rw [hf] at hk' hbuf hfl
  simp only at hk' hbuf hfl
  obtain ⟨cur', first, rest, hl, _, hm, ho⟩ := hk'.logFiles
  rw [hbuf, hfl, Option.getD_none, List.append_nil, List.append_nil] at ho
  have hcc := List.append_cancel_left ho
  subst hcc
  refine ⟨g :: gs, first, rest, by rw [List.flatten_cons, e1], by simpa using e2 [] (by simp), hl, ?_⟩
  rw [hm, List.nil_append, e4, List.nil_append, List.map_cons]

/-- **C204**, negation for the code as written: a start of the server looks at no dates. After a start on one day (hour), a record, the end of the
server and a start on a later day (hour), a record of that day goes to the same file, after the records of the earlier day. -/
theorem C204_restart_violated (z : Zone) (p t1 t2 : Int) (hday : period z p t1 < period z p t2) (h1 : Regular z p t1) (h2 : Regular z p t2)
    (d0 : Disk) (hs : Sane d0) (hok : NoFail d0) (fp : Str) (size1 size2 at1 at2 : Nat) (he1 : endOf z p t1 = some at1)
    (he2 : endOf z p t2 = some at2) (m1 m2 : Moment) (hm1 : t1 ≤ m1.now ∧ m1.now < at1) (hm2 : t2 ≤ m2.now ∧ m2.now < at2) (a b : Bytes)
    (d1 : Disk) (r1 : Rotator) (hn1 : rotNew d0 fp size1 at1 = some (d1, r1)) :
    ∃ d2 r2 d3 r3, rotAppend d1 r1 m1 a = .value (d2, r2, true) ∧ rotFlush d2 r2 = (d3, r3, true) ∧
      ∃ d4 r4 d5 r5 d6 r6, rotNew d3 fp size2 at2 = some (d4, r4) ∧ rotAppend d4 r4 m2 b = .value (d5, r5, true) ∧
        rotFlush d5 r5 = (d6, r6, true) ∧ period z p m1.now < period z p m2.now ∧ content d6 fp = content d0 fp ++ a ++ b := by
  have run : ∀ (d0 : Disk) (_ : Sane d0) (_ : NoFail d0) (size at' : Nat) (d1 : Disk) (r1 : Rotator)
      (_ : rotNew d0 fp size at' = some (d1, r1)) (m : Moment) (_ : m.now < at') (a : Bytes),
      ∃ d2 r2 d3 r3, rotAppend d1 r1 m a = .value (d2, r2, true) ∧ rotFlush d2 r2 = (d3, r3, true) ∧ Sane d3 ∧ NoFail d3 ∧
        content d3 fp = content d0 fp ++ a := by
    intro d0 hs hok size at' d1 r1 hn m hm a
    obtain ⟨k1, k2, k3, k4⟩ := parted_start hs hok hn
    obtain ⟨j1, j2⟩ := k1.append a
    obtain ⟨f1, _, f3, _⟩ := fileAppend_spec d1 r1.inner a
    have hearly := rotAppend_early d1 r1 m a (by omega) j2
    generalize fileAppend d1 r1.inner a = x at j1 f1 f3 hearly
    obtain ⟨d2, w2, ok2⟩ := x
    simp only at j1 f1 f3 hearly
    refine ⟨d2, { r1 with inner := w2 }, (rotFlush d2 { r1 with inner := w2 }).1, (rotFlush d2 { r1 with inner := w2 }).2.1, hearly, ?_⟩
    obtain ⟨g1, g2, g3, g4, g5⟩ := j1.flush
    obtain ⟨e1, _, e3, _⟩ := fileFlush_spec d2 w2
    refine ⟨by rw [← g2], g1.sane, g1.noFail, ?_⟩
    obtain ⟨out', _, ho, hd⟩ := g1.loss
    rw [g3, g4, Option.getD_none, List.append_nil, List.append_nil, List.nil_append] at ho
    subst ho
    have hd := hd rfl
    rw [← hd]
    have hnm : (rotFlush d2 { r1 with inner := w2 }).1.fs.names fp = some (rotFlush d2 { r1 with inner := w2 }).2.1.inner.file.ino := by
      simp only [rotFlush, e1, e3.1, f1, f3.1]
      rw [← k3]; exact k2
    unfold content
    rw [hnm]
  obtain ⟨d2, r2, d3, r3, q1, q2, q3, q4, q5⟩ := run d0 hs hok size1 at1 d1 r1 hn1 m1 hm1.2 a
  have hn2 : ∃ d4 r4, rotNew d3 fp size2 at2 = some (d4, r4) := by
    unfold rotNew at hn1 ⊢
    cases hx : rotationNames fp with
    | none => rw [hx] at hn1; cases hn1
    | some x => exact ⟨_, _, rfl⟩
  obtain ⟨d4, r4, hn2⟩ := hn2
  obtain ⟨d5, r5, d6, r6, s1, s2, _, _, s5⟩ := run d3 q3 q4 size2 at2 d4 r4 hn2 m2 hm2.2 b
  refine ⟨d2, r2, d3, r3, q1, q2, d4, r4, d5, r5, d6, r6, hn2, s1, s2, ?_, by rw [s5, q5]⟩
  obtain ⟨e1, c1, _, c3⟩ := regular_end h1
  obtain ⟨e2, c4, _, c6⟩ := regular_end h2
  rw [c1] at he1
  rw [c4] at he2
  simp only [Option.some.injEq] at he1 he2
  rw [c3 _ hm1.1 (by omega), c6 _ hm2.1 (by omega)]
  exact hday

/-- A record as long as the buffer goes to the file at once. -/
theorem fileAppend_large (d : Disk) (w : BufW) (b : Bytes) (hok : NoFail d) (hne : b ≠ []) (hcap : w.cap ≤ b.length) (hmax : b.length ≤ maxChunk) :
    (fileAppend d w b).2.1.buf = [] := by
  have hroom : ∃ x : Disk × BufW × Bool, x = (if w.cap < w.buf.length + b.length then flushBuf d w else (d, w, true)) ∧
      x.2.2 = true ∧ NoFail x.1 ∧ x.2.1.buf = [] ∧ x.2.1.cap = w.cap := by
    refine ⟨_, rfl, ?_⟩
    split
    · obtain ⟨h1, h2⟩ := flushBuf_ok d w hok
      obtain ⟨_, h3, _, h4⟩ := flushBuf_spec d w
      exact ⟨h1, h2, (h4 h1).1, h3⟩
    · exact ⟨rfl, hok, List.length_eq_zero_iff.mp (by change w.buf.length = 0; omega), rfl⟩
  obtain ⟨⟨d1, w1, ok1⟩, hx, h1, h2, h3, h4⟩ := hroom
  simp only at h1 h2 h3 h4
  subst h1
  obtain ⟨n, hn⟩ : ∃ n, b.length = n + 1 := ⟨b.length - 1, by have := List.length_pos_iff.mpr hne; omega⟩
  obtain ⟨g1, _⟩ := fileWrite_ok d1 w1.file b h2
  have hbw : (bufWrite d w b).2.2 = some (n + 1) ∧ (bufWrite d w b).2.1.buf = [] := by
    unfold bufWrite
    rw [← hx]
    simp only
    rw [if_pos (by rw [h4]; exact hcap)]
    generalize fileWrite d1 w1.file b = y at g1
    obtain ⟨d2, f2, r2⟩ := y
    simp only at g1
    refine ⟨by simp only [g1]; congr 1; omega, h3⟩
  unfold fileAppend
  rw [hn, writeLoop, if_neg (by simpa using hne)]
  generalize bufWrite d w b = y at hbw
  obtain ⟨d2, w2, r2⟩ := y
  simp only at hbw
  obtain ⟨rfl, hb⟩ := hbw
  have hdrop : b.drop (n + 1) = [] := List.drop_eq_nil_of_le (by omega)
  simp only [hdrop]
  cases n <;> simp [writeLoop, hb]

/-- **C204**, negation for the code as written: the first record of a later day (hour) is not in that day's file. If it is as long as the buffer,
it is in the file of the earlier day; if it is shorter, it is in none (`C70_lost_violated`). -/
theorem C204_trigger_violated (z : Zone) (p t : Int) (hreg : Regular z p t) (d : Disk) (r : Rotator) (hstart : endOf z p t = some r.rotateAt)
    (hs : Sane d) (hok : NoFail d) (hfp : d.fs.names r.fp = some r.inner.file.ino) (m : Moment) (at' : Nat) (hdue : r.rotateAt ≤ m.now)
    (hren : m.renameOk 0 = true) (hopen : m.openOk = true) (hnext : m.next = some at') (hne : r.fp ≠ rotatedName r m 0) (b : Bytes)
    (hb : b ≠ []) (hcap : r.inner.cap ≤ b.length) (hmax : b.length ≤ maxChunk) :
    ∃ d' r', rotAppend d r m b = .value (d', r', true) ∧ period z p t < period z p m.now ∧
      content d' (rotatedName r m 0) = r.inner.total d ++ b ∧ content d' r.fp = [] ∧ r'.inner.buf = [] ∧ r'.inner.file.inflight = none := by
  obtain ⟨g1, g2⟩ := fileAppend_ok d r.inner b hok
  have gb := fileAppend_large d r.inner b hok hb hcap hmax
  obtain ⟨h1, _, h3, h4⟩ := fileAppend_spec d r.inner b
  have h4 := h4 g1
  have hs1 := sane_same h3 hs
  unfold rotAppend
  generalize fileAppend d r.inner b = x at g1 g2 gb h1 h3 h4 hs1
  obtain ⟨d1, w1, ok1⟩ := x
  simp only at g1 g2 gb h1 h3 h4 hs1
  subst g1
  have hfp1 : d1.fs.names r.fp = some r.inner.file.ino := by rw [h3.1]; exact hfp
  have hl : renameLoop { r with inner := w1 } m d1 10 0 =
      some { d1 with fs := { d1.fs with names := fun n => if n = rotatedName r m 0 then some r.inner.file.ino else if n = r.fp then none else d1.fs.names n } } := by
    rw [renameLoop, if_pos hren]
    simp only [Disk.rename, hfp1]
    rw [if_neg (by exact hne)]
    rfl
  simp only [rotate, if_neg (Nat.not_lt.mpr hdue), hl, hopen, ↓reduceIte, reopen, Disk.openFile, hne, hnext]
  generalize hd2 : Disk.mk _ _ = d2
  have hnf : NoFail d2 := by intro o ho; rw [← hd2] at ho; exact g2 o ho
  obtain ⟨_, _, k3, k4⟩ := settle_spec d2 w1.file
  have k4 := k4 (settle_ok d2 w1.file hnf).1
  have hlt := hs1 _ _ hfp1
  refine ⟨_, _, rfl, ?_, ?_, ?_, rfl, rfl⟩
  · obtain ⟨e, c1, c2, _⟩ := regular_end hreg
    rw [c1] at hstart
    exact c2 _ (by have := Option.some.inj hstart; omega)
  · have e1 : (settle d2 w1.file).1.fs.names (rotatedName r m 0) = some w1.file.ino := by
      rw [k3.1, ← hd2, h1]; simp [Ne.symm hne]
    unfold content
    rw [e1]
    simp only
    rw [k4, ← h4]
    have hdat : d2.fs.data w1.file.ino = d1.fs.data w1.file.ino := by
      rw [← hd2, h1]; simp only; rw [if_neg (by omega)]
    simp [BufW.total, AFile.total, gb, hdat]
  · have e1 : (settle d2 w1.file).1.fs.names r.fp = some d1.fs.next := by
      rw [k3.1, ← hd2]; simp
    unfold content
    rw [e1]
    simp only
    rw [k3.2.2.1 _ (by rw [h1]; omega), ← hd2]
    simp

/-- In a zone with one offset all days (hours) are regular. -/
theorem fixedZone_regular (c p t : Int) (hp : 0 < p) (ht : 0 ≤ t) : Regular (fixedZone c) p t := by
  have h1 : p * ((t + c) / p) + (t + c) % p = t + c := Int.mul_ediv_add_emod (t + c) p
  have h2 := Int.emod_nonneg (t + c) (Int.ne_of_gt hp)
  have h3 := Int.emod_lt_of_pos (t + c) hp
  have h4 : (t + c) / p * p = p * ((t + c) / p) := Int.mul_comm _ _
  refine ⟨(t + c) / p * p - c, rfl, by omega, ?_, ?_⟩
  · intro v hv
    simp only [period, Zone.localTime, fixedZone]
    have : (t + c) / p + 1 ≤ (v + c) / p := by
      rw [Int.le_ediv_iff_mul_le hp, Int.add_mul]
      omega
    omega
  · intro v h5 h6
    simp only [period, Zone.localTime, fixedZone]
    apply Int.le_antisymm
    · have : (v + c) / p < (t + c) / p + 1 := by
        rw [Int.ediv_lt_iff_lt_mul hp, Int.add_mul]
        omega
      omega
    · exact Int.ediv_le_ediv hp (by omega)

private def date' (k : Int) : Str := 46 :: List.replicate k.toNat 49

private def at' (s : Int) : Moment := ⟨s.toNat, date' (period (fixedZone 0) dayMs s), fun _ => u!"7", fun _ => true, true, endOf (fixedZone 0) dayMs s⟩

/-- Four writes of days 1, 2, 2 and 4. -/
private def fewDays : List (Option Timed) :=
  [some ⟨b!"a", at' 133200000, 133200001⟩, none, some ⟨b!"b", at' 172800005, 172800006⟩, some ⟨b!"c", at' 180000000, 180000000⟩,
    some ⟨b!"d", at' 345600000, 345600000⟩]

private def empty' : Disk := ⟨⟨fun _ => none, fun _ => [], 0⟩, []⟩

/-- It meets the hypotheses of `C204_one_day_partial`. -/
example : Regular (fixedZone 0) dayMs 90000000 ∧ endOf (fixedZone 0) dayMs 90000000 = some 172800000 ∧
    InTime (fixedZone 0) dayMs date' 90000000 (fewDays.filterMap id) ∧
    (∀ w, some w ∈ fewDays → Regular (fixedZone 0) dayMs w.later ∧ w.moment.renameOk 0 = true ∧ w.moment.openOk = true) := by
  refine ⟨fixedZone_regular 0 dayMs _ (by decide) (by decide), by decide +kernel, ?_, ?_⟩
  · simp only [fewDays, InTime, List.filterMap_cons, List.filterMap_nil, id_eq]
    decide +kernel
  · intro w hw
    refine ⟨fixedZone_regular 0 dayMs _ (by decide) ?_, ?_⟩ <;>
      simp only [fewDays, List.mem_cons, Option.some.injEq, List.not_mem_nil, or_false, reduceCtorEq, false_or] at hw <;>
      rcases hw with rfl | rfl | rfl | rfl <;> first | decide | exact ⟨rfl, rfl⟩

example : (rotNew empty' u!"l/a.log" 8192 172800000).map (fun x => match rotPerform x.1 x.2 (fewDays.map timedOp) with
    | .value (d, r, ok) => (ok, [u!"l/a.11.log", u!"l/a.1111.log", u!"l/a.log"].map (content (rotFlush d r).1))
    | _ => (false, [])) = some (true, [b!"a", [], []]) := by decide +kernel

/-- The groups: the write that comes first on day 2 ends the first one, that of day 4 the second. -/
example : DayGroups (fixedZone 0) dayMs 90000000
    [[⟨b!"a", at' 133200000, 133200001⟩, ⟨b!"b", at' 172800005, 172800006⟩],
      [⟨b!"c", at' 180000000, 180000000⟩, ⟨b!"d", at' 345600000, 345600000⟩], []] := by
  refine ⟨[_], _, rfl, ?_, by decide, [_], _, rfl, ?_, by decide, by simp [DayGroups]⟩ <;> simp <;> decide

/-- A start on day 1 and one on day 2. -/
example : period (fixedZone 0) dayMs 90000000 < period (fixedZone 0) dayMs 172800001 ∧ Regular (fixedZone 0) dayMs 90000000 ∧
    Regular (fixedZone 0) dayMs 172800001 ∧ endOf (fixedZone 0) dayMs 90000000 = some 172800000 ∧
    endOf (fixedZone 0) dayMs 172800001 = some 259200000 ∧ (at' 100000000).now < 172800000 ∧ (at' 172800001).now < 259200000 :=
  ⟨by decide, fixedZone_regular 0 dayMs _ (by decide) (by decide), fixedZone_regular 0 dayMs _ (by decide) (by decide), by decide +kernel,
    by decide +kernel, by decide, by decide⟩

/-- A record of 9000 bytes just after the end of day 1. -/
example : ((rotNew empty' u!"l/a.log" 8192 172800000).map fun x => (x.1.fs.names x.2.fp == some x.2.inner.file.ino, decide (x.2.inner.cap ≤ 9000),
    decide (x.2.fp ≠ rotatedName x.2 (at' 172800005) 0), decide ((at' 172800005).next ≠ none))) = some (true, true, true, true) := by decide +kernel

end Httpd
