import Verif.Lemmas.Appender
import Verif.Props.Dispatcher
/-!
# C69, C68, C94: what is in a log file
-/

namespace Httpd

open Spec

/-! ## C69 -/

/-- **C69** Opening a file appender, any calls and a flush at the end: if no call fails, the file holds what it held before followed by
all that was written, in order. Whatever the buffer size, the sizes of the records and the results of the writes of the system; no other
file changes. -/
theorem C69_content (d : Disk) (hs : Sane d) (fp : Str) (bufsize : Nat) (ops : List FileOp) (d' : Disk) (w' : BufW)
    (h : perform (fileNew d fp bufsize).1 (fileNew d fp bufsize).2 (ops ++ [.flush]) = (d', w', true)) :
    content d' fp = content d fp ++ written ops ∧ ∀ n, n ≠ fp → d.fs.names n ≠ d.fs.names fp → content d' n = content d n := by
  obtain ⟨o1, o2, o3, o4, o5, _⟩ := openFile_spec d hs fp
  have hnew : fileNew d fp bufsize = ((d.openFile fp).1, ⟨bufferSize bufsize, [], ⟨(d.openFile fp).2, none⟩⟩) := rfl
  have hino : ∀ n ino, n ≠ fp → d.fs.names n ≠ d.fs.names fp → (d.openFile fp).1.fs.names n = some ino → ino ≠ (d.openFile fp).2 := by
    intro n ino hn hne hni
    rw [o4 n hn] at hni
    unfold Disk.openFile
    cases hf : d.fs.names fp with
    | some i =>
      simp only
      rintro rfl
      exact hne (by rw [hni, hf])
    | none =>
      have := hs n ino hni
      simp only
      omega
  rw [hnew] at h
  generalize (d.openFile fp).1 = d0 at *
  generalize (d.openFile fp).2 = ino at *
  simp only at h
  rw [perform_append] at h
  obtain ⟨p1, _, p3, p4⟩ := perform_spec ops d0 ⟨bufferSize bufsize, [], ⟨ino, none⟩⟩
  generalize perform d0 ⟨bufferSize bufsize, [], ⟨ino, none⟩⟩ ops = x at h p1 p3 p4
  obtain ⟨d1, w1, ok1⟩ := x
  obtain ⟨f1, _, f3, f4⟩ := fileFlush_spec d1 w1
  simp only [perform] at h
  generalize fileFlush d1 w1 = y at h f1 f3 f4
  obtain ⟨d2, w2, ok2⟩ := y
  simp only [Bool.and_true, Prod.mk.injEq, Bool.and_eq_true] at h
  obtain ⟨rfl, rfl, hok1, hok2⟩ := h
  simp only at p1 p3 p4 f1 f3 f4
  rw [p1] at f1 f3 f4
  have hnames : d2.fs.names = d0.fs.names := f3.1.trans p3.1
  constructor
  · have : content d2 fp = d2.fs.data ino := by simp [content, hnames, o1]
    rw [this, (f4 hok2).2.2, p4 hok1]
    simp [BufW.total, AFile.total, o2]
  · intro n hn hne
    rw [← o5 n hn]
    unfold content
    rw [hnames]
    cases hni : d0.fs.names n with
    | none => rfl
    | some i =>
      have := hino n i hn hne hni
      simp only
      rw [f3.2.2.1 i this, p3.2.2.1 i this]

/-- A disk with nothing on it. -/
def emptyDisk : Disk := ⟨⟨fun _ => none, fun _ => [], 0⟩, []⟩

/-- Small and large records and a flush between; one write of the system per large piece. -/
example : (perform (fileNew emptyDisk u!"a.log" 0).1 (fileNew emptyDisk u!"a.log" 0).2
    [.write [1, 2], .flush, .write [3], .flush]).2.2 = true := by decide +kernel

/-- A failing write of the system is reported by the flush. -/
example : (perform (fileNew { emptyDisk with os := [some 1] } u!"a.log" 0).1 (fileNew emptyDisk u!"a.log" 0).2 [.write [1, 2], .flush]).2.2 = false := by
  decide +kernel

/-! ## C94, C68: from log calls to the file -/

namespace Log

variable {R : Type}

/-- The calls of one file appender in a run: the records it wants, rendered, and the flushes. -/
def fileOps (wants : R → Bool) (render : R → Bytes) : List (Act R) → List FileOp
  | [] => []
  | .write _ r :: tr => if wants r then .write (render r) :: fileOps wants render tr else fileOps wants render tr
  | .flush :: tr => .flush :: fileOps wants render tr
  | _ :: tr => fileOps wants render tr

/-- What of some records should be in the file. -/
def expected (wants : R → Bool) (render : R → Bytes) (l : List (Nat × R)) : Bytes := (l.filter (fun p => wants p.2)).flatMap (fun p => render p.2)

theorem fileOps_append (wants : R → Bool) (render : R → Bytes) (a b : List (Act R)) :
    fileOps wants render (a ++ b) = fileOps wants render a ++ fileOps wants render b := by
  induction a with
  | nil => rfl
  | cons x a ih =>
    cases x <;> simp only [List.cons_append, fileOps, ih]
    split <;> simp

theorem written_append (a b : List FileOp) : written (a ++ b) = written a ++ written b := by
  induction a with
  | nil => rfl
  | cons x a ih => cases x <;> simp [written, ih]

theorem written_fileOps (wants : R → Bool) (render : R → Bytes) (tr : List (Act R)) :
    written (fileOps wants render tr) = expected wants render (Spec.writes tr) := by
  induction tr with
  | nil => rfl
  | cons x tr ih =>
    cases x with
    | write t r =>
      simp only [fileOps, Spec.writes, expected] at ih ⊢
      by_cases hw : wants r = true <;> simp [hw, written, ih]
    | _ => simpa [fileOps, Spec.writes, written] using ih

/-- **C94** When a flush call returns, every record sent before the call by any thread that a file appender wants is in its file, in
order, after what the file held before; provided no write of the system fails. -/
theorem C94_in_file (enabled wants : R → Bool) (render : R → Bytes) (progs : Nat → List (Call R)) (tr1 tr2 : List (Act R)) (t n : Nat)
    (s : Sys R) (h : Run enabled (start progs) (tr1 ++ .flushCall t n :: tr2 ++ [.flushRet t n]) s)
    (d : Disk) (hs : Sane d) (fp : Str) (bufsize : Nat) (d' : Disk) (w' : BufW)
    (hp : perform (fileNew d fp bufsize).1 (fileNew d fp bufsize).2 (fileOps wants render (tr1 ++ .flushCall t n :: tr2)) = (d', w', true)) :
    content d fp ++ expected wants render (Spec.sends tr1) <+: content d' fp := by
  obtain ⟨a, b, he, hpre⟩ := C67_barrier enabled progs tr1 tr2 t n s h
  rw [he, show a ++ Act.flush :: b = (a ++ [Act.flush]) ++ b by simp, fileOps_append, fileOps_append, perform_append] at hp
  have hfl : fileOps wants render [Act.flush] = [.flush] := rfl
  rw [hfl] at hp
  generalize hx : perform (fileNew d fp bufsize).1 (fileNew d fp bufsize).2 (fileOps wants render a ++ [.flush]) = x at hp
  obtain ⟨d1, w1, ok1⟩ := x
  simp only at hp
  obtain ⟨p1, _, p3, _⟩ := perform_spec (fileOps wants render b) d1 w1
  generalize perform d1 w1 (fileOps wants render b) = y at hp p1 p3
  obtain ⟨d2, w2, ok2⟩ := y
  simp only [Prod.mk.injEq, Bool.and_eq_true] at hp
  obtain ⟨rfl, rfl, hok1, _⟩ := hp
  subst hok1
  have hc := (C69_content d hs fp bufsize _ d1 w1 hx).1
  rw [written_fileOps] at hc
  have hle : expected wants render (Spec.sends tr1) <+: expected wants render (Spec.writes a) := by
    obtain ⟨c, hc⟩ := hpre
    rw [← hc]
    simp [expected]
  have hgrow : content d1 fp <+: content d2 fp := by
    unfold content
    simp only at p3
    rw [p3.1]
    cases d1.fs.names fp with
    | none => exact List.prefix_refl _
    | some ino =>
      simp only
      by_cases hi : ino = w1.file.ino
      · subst hi; exact p3.2.2.2
      · rw [p3.2.2.1 ino hi]; exact List.prefix_refl _
  refine List.IsPrefix.trans ?_ hgrow
  rw [hc]
  obtain ⟨c, hc'⟩ := hle
  rw [← hc', ← List.append_assoc]
  exact List.prefix_append _ _

/-- The run of the example for C67, with a file appender. -/
example : (perform (fileNew emptyDisk u!"a.log" 0).1 (fileNew emptyDisk u!"a.log" 0).2
    (fileOps (fun _ => true) (fun n => [UInt8.ofNat n]) ([.send 1 5] ++ .flushCall 0 0 :: [.recv, .write 1 5, .recv, .flush, .store 0]))).2.2 = true ∧
    content (perform (fileNew emptyDisk u!"a.log" 0).1 (fileNew emptyDisk u!"a.log" 0).2
    (fileOps (fun _ => true) (fun n => [UInt8.ofNat n]) ([.send 1 5] ++ .flushCall 0 0 :: [.recv, .write 1 5, .recv, .flush, .store 0]))).1 u!"a.log" = [5] := by
  decide +kernel

/-- **C68**, negation for the code as written, down to the file: whatever is logged (a record shorter than the buffer), the guard's drop
can return while the file of every appender is as it was. -/
theorem C68_lost_violated (enabled : R → Bool) (progs : Nat → List (Call R)) (r : R) (rest : List (Call R)) (hr : enabled r = true)
    (h0 : progs 0 = .log r :: rest) (render : R → Bytes) (hlen : (render r).length < 8092) :
    ∃ tr s, Run enabled (start progs) tr s ∧ .dropRet ∈ tr ∧ Spec.sends tr = [(0, r)] ∧
      ∀ (d : Disk), Sane d → ∀ fp bufsize,
        content (perform (fileNew d fp bufsize).1 (fileNew d fp bufsize).2 (fileOps (fun _ => true) render tr)).1 fp = content d fp := by
  have hrun' : ∃ s, Run enabled (start progs) [.send 0 r, .drop, .recv, .write 0 r, .closed, .signal, .dropRet] s := by
    refine run_cons (.send _ 0 r rest rfl rfl h0 hr (by simp [start])) ?_
    refine run_cons (.drop _ rfl) ?_
    refine run_cons (.recvItem _ 0 r _ rfl rfl) ?_
    refine run_cons (.write _ 0 r rfl) ?_
    refine run_cons (.closed _ rfl rfl (by simp)) ?_
    refine run_cons (.signal _ rfl) ?_
    exact run_cons (.dropRet _ rfl rfl) ⟨_, .nil⟩
  obtain ⟨s, hs⟩ := hrun'
  refine ⟨_, s, hs, by simp, rfl, ?_⟩
  intro d hsane fp bufsize
  have hops : fileOps (fun _ => true) render ([.send 0 r, .drop, .recv, .write 0 r, .closed, .signal, .dropRet] : List (Act R)) =
      [.write (render r)] := rfl
  rw [hops]
  have hcap : 8092 ≤ bufferSize bufsize := by unfold bufferSize; split <;> omega
  have hnew : fileNew d fp bufsize = ((d.openFile fp).1, ⟨bufferSize bufsize, [], ⟨(d.openFile fp).2, none⟩⟩) := rfl
  obtain ⟨o1, o2, _⟩ := openFile_spec d hsane fp
  rw [hnew]
  simp only [perform]
  rw [fileAppend_small _ _ _ (by simp only [List.length_nil]; omega) (by simp only; omega)]
  simp only [content, o1, o2]

end Log

end Httpd
