import Verif.Model.Config
/-!
# Model of src/logging/file_appender.rs and src/logging/rotation_file_appender.rs

A small file system: names refer to inodes, inodes have contents; an open file refers to an inode. The kernel's side of a write is an
oracle: a list that says for each coming `write_all` of a blocking thread whether it succeeds or after how many bytes it fails (after the
end of the list all succeed). Nobody else changes the files.

`tokio::fs::File` and `tokio::io::BufWriter` are modelled as documented for tokio 1: a write to a file is copied (at most 2 MiB) and
done by a blocking thread; its result is seen by the next operation on the file. When a file is dropped the write in flight goes on;
here it is finished at that moment.
-/

namespace Httpd

/-- Names and contents. -/
structure Fs where
  names : Str → Option Nat
  data : Nat → Bytes
  /-- The next inode. -/
  next : Nat

/-- The file system and the results of the coming blocking writes: `some k` = fails after `k` bytes. -/
structure Disk where
  fs : Fs
  os : List (Option Nat)

/-- Append to an inode (files are opened with `append(true)`). -/
def Disk.append (d : Disk) (ino : Nat) (b : Bytes) : Disk :=
  { d with fs := { d.fs with data := fun i => if i = ino then d.fs.data i ++ b else d.fs.data i } }

/-- `File::options().append(true).create(true).open(fp)` (src/logging/file_appender.rs:41-43, 71-77) when it succeeds. -/
def Disk.openFile (d : Disk) (fp : Str) : Disk × Nat :=
  match d.fs.names fp with
  | some ino => (d, ino)
  | none =>
    ({ d with fs := ⟨fun n => if n = fp then some d.fs.next else d.fs.names n, fun i => if i = d.fs.next then [] else d.fs.data i, d.fs.next + 1⟩ },
      d.fs.next)

/-- `rename(2)`: the new name refers to the file afterwards, whatever it referred to before. Fails without a file of the old name. -/
def Disk.rename (d : Disk) (old new : Str) : Option Disk :=
  match d.fs.names old with
  | none => none
  | some ino =>
    if old = new then some d
    else some { d with fs := { d.fs with names := fun n => if n = new then some ino else if n = old then none else d.fs.names n } }

/-- `tokio::fs::File`: the inode and the bytes a blocking thread is writing. -/
structure AFile where
  ino : Nat
  inflight : Option Bytes
deriving DecidableEq

/-- Wait for the write in flight; says whether it succeeded. -/
def settle (d : Disk) (f : AFile) : Disk × AFile × Bool :=
  match f.inflight with
  | none => (d, f, true)
  | some b =>
    match d.os with
    | [] => (d.append f.ino b, ⟨f.ino, none⟩, true)
    | none :: rest => ({ d with os := rest }.append f.ino b, ⟨f.ino, none⟩, true)
    | some k :: rest => ({ d with os := rest }.append f.ino (b.take k), ⟨f.ino, none⟩, false)

/-- The most a `tokio::fs::File` takes at once: 2 MiB. -/
def maxChunk : Nat := 2097152

/-- `poll_write` of `tokio::fs::File`: how many bytes were taken, `none` = error. -/
def fileWrite (d : Disk) (f : AFile) (src : Bytes) : Disk × AFile × Option Nat :=
  match settle d f with
  | (d, f, false) => (d, f, none)
  | (d, f, true) => (d, { f with inflight := some (src.take maxChunk) }, some (src.take maxChunk).length)

/-- `tokio::io::BufWriter` around a file. -/
structure BufW where
  cap : Nat
  buf : Bytes
  file : AFile
deriving DecidableEq

/-- The loop of `BufWriter::flush_buf`: write the rest of the buffer; what was written is taken from the buffer, even on an error.
`fuel` bounds the rounds; the length of the buffer is enough. -/
def flushLoop : Nat → Disk → AFile → Bytes → Disk × AFile × Bytes × Bool
  | 0, d, f, rest => (d, f, rest, rest.isEmpty)
  | fuel + 1, d, f, rest =>
    if rest.isEmpty then (d, f, rest, true)
    else
      match fileWrite d f rest with
      | (d, f, none) => (d, f, rest, false)
      | (d, f, some 0) => (d, f, rest, false)
      | (d, f, some (n + 1)) => flushLoop fuel d f (rest.drop (n + 1))

/-- `BufWriter::flush_buf`. -/
def flushBuf (d : Disk) (w : BufW) : Disk × BufW × Bool :=
  match flushLoop w.buf.length d w.file w.buf with
  | (d, f, rest, ok) => (d, { w with file := f, buf := rest }, ok)

/-- `BufWriter::poll_write`: make room if needed; large data go to the file directly. -/
def bufWrite (d : Disk) (w : BufW) (src : Bytes) : Disk × BufW × Option Nat :=
  match (if w.cap < w.buf.length + src.length then flushBuf d w else (d, w, true)) with
  | (d, w, false) => (d, w, none)
  | (d, w, true) =>
    if w.cap ≤ src.length then
      match fileWrite d w.file src with
      | (d, f, r) => (d, { w with file := f }, r)
    else (d, { w with buf := w.buf ++ src }, some src.length)

/-- `AsyncWriteExt::write_all`; `fuel` as above. -/
def writeLoop : Nat → Disk → BufW → Bytes → Disk × BufW × Bool
  | 0, d, w, src => (d, w, src.isEmpty)
  | fuel + 1, d, w, src =>
    if src.isEmpty then (d, w, true)
    else
      match bufWrite d w src with
      | (d, w, none) => (d, w, false)
      | (d, w, some 0) => (d, w, false)
      | (d, w, some (n + 1)) => writeLoop fuel d w (src.drop (n + 1))

/-- src/logging/file_appender.rs:30-32 `FileAppender::writeall`. -/
def fileAppend (d : Disk) (w : BufW) (src : Bytes) : Disk × BufW × Bool := writeLoop src.length d w src

/-- src/logging/file_appender.rs:34-36 `FileAppender::flush`: the buffer, then the write in flight. -/
def fileFlush (d : Disk) (w : BufW) : Disk × BufW × Bool :=
  match flushBuf d w with
  | (d, w, false) => (d, w, false)
  | (d, w, true) =>
    match settle d w.file with
    | (d, f, ok) => (d, { w with file := f }, ok)

/-- src/logging/file_appender.rs:56-58: the size of the buffer. -/
def bufferSize (bufsize : Nat) : Nat := if bufsize < 8092 then 8092 else bufsize

/-- src/logging/file_appender.rs:45-67 `FileAppender::new`, when the file can be opened. -/
def fileNew (d : Disk) (fp : Str) (bufsize : Nat) : Disk × BufW :=
  match d.openFile fp with
  | (d, ino) => (d, ⟨bufferSize bufsize, [], ⟨ino, none⟩⟩)

/-- src/logging/file_appender.rs:70-80 `FileAppender::reopen`, when the file can be opened. The old writer is dropped: its buffer is
lost, the write in flight is finished. -/
def reopen (d : Disk) (w : BufW) (fp : Str) : Disk × BufW :=
  match d.openFile fp with
  | (d, ino) =>
    match settle d w.file with
    | (d, _, _) => (d, ⟨w.cap, [], ⟨ino, none⟩⟩)

/-! ## Rotation -/

/-- src/logging/rotation_file_appender.rs:13-24 `RotationFileAppender`; `rotateAt` in milliseconds. -/
structure Rotator where
  inner : BufW
  rotateAt : Nat
  fp : Str
  namePrefix : Str
  baseName : Str
  fileExt : Str

/-- src/logging/rotation_file_appender.rs:93-108: the parts of the path. `none` = no file name. The path could be opened as a file, so
its file name is its end. -/
def rotationNames (fp : Str) : Option (Str × Str × Str) :=
  match fileName fp with
  | none => none
  | some filename =>
    let ext := (extension filename).getD []
    let namePrefix := fp.take (fp.length - filename.length)
    if ext.isEmpty then some (namePrefix, filename, ext)
    else some (namePrefix, filename.take (filename.length - ext.length - 1), ext)

/-- What a call of `rotate` sees of the world: the clock (milliseconds), the date of that time as text (`.%Y%m%d` or `.%Y%m%d%H`), the
clock in nanoseconds as text in later rounds, whether `rename` is let through in each round, whether the file can be opened, and
`calcnext` at the end (`none` = panic). -/
structure Moment where
  now : Nat
  stamp : Str
  nanos : Nat → Str
  renameOk : Nat → Bool
  openOk : Bool
  next : Option Nat

/-- src/logging/rotation_file_appender.rs:157-163: the name tried in round `i`. -/
def rotatedName (r : Rotator) (m : Moment) (i : Nat) : Str :=
  let newname := r.namePrefix ++ r.baseName ++ m.stamp
  if i = 0 then newname ++ u!"." ++ r.fileExt else newname ++ u!"." ++ m.nanos i ++ u!"." ++ r.fileExt

/-- src/logging/rotation_file_appender.rs:155-178: the loop over names; `left` rounds are left. `none` = all failed. -/
def renameLoop (r : Rotator) (m : Moment) (d : Disk) : Nat → Nat → Option Disk
  | 0, _ => none
  | left + 1, i =>
    match (if m.renameOk i then d.rename r.fp (rotatedName r m i) else none) with
    | some d => some d
    | none => renameLoop r m d left (i + 1)

/-- src/logging/rotation_file_appender.rs:125-191 `rotate`. -/
def rotate (d : Disk) (r : Rotator) (m : Moment) : Outcome (Disk × Rotator × Bool) :=
  if m.now < r.rotateAt then .value (d, r, false)
  else
    match renameLoop r m d 10 0 with
    | none =>
      match m.next with
      | none => .panic
      | some at' => .value (d, { r with rotateAt := at' }, false)
    | some d =>
      if m.openOk then
        match reopen d r.inner r.fp with
        | (d, w) =>
          match m.next with
          | none => .panic
          | some at' => .value (d, { r with inner := w, rotateAt := at' }, true)
      else
        match m.next with
        | none => .panic
        | some at' => .value (d, { r with rotateAt := at' }, false)

/-- src/logging/rotation_file_appender.rs:42-55 `writeall`. -/
def rotAppend (d : Disk) (r : Rotator) (m : Moment) (src : Bytes) : Outcome (Disk × Rotator × Bool) :=
  match fileAppend d r.inner src with
  | (d, w, true) =>
    match rotate d { r with inner := w } m with
    | .value (d, r, _) => .value (d, r, true)
    | .error => .error
    | .panic => .panic
  | (d, w, false) =>
    match rotate d { r with inner := w } m with
    | .value (d, r, true) =>
      match fileAppend d r.inner src with
      | (d, w, ok) => .value (d, { r with inner := w }, ok)
    | .value (d, r, false) => .value (d, r, false)
    | .error => .error
    | .panic => .panic

/-- src/logging/rotation_file_appender.rs:57-59 `flush`. -/
def rotFlush (d : Disk) (r : Rotator) : Disk × Rotator × Bool :=
  match fileFlush d r.inner with
  | (d, w, ok) => (d, { r with inner := w }, ok)

/-- src/logging/rotation_file_appender.rs:73-110 `new`, when the file can be opened; `at'` is the result of `next`. -/
def rotNew (d : Disk) (fp : Str) (bufsize at' : Nat) : Option (Disk × Rotator) :=
  match fileNew d fp bufsize, rotationNames fp with
  | (d, w), some (p, b, e) => some (d, ⟨w, at', fp, p, b, e⟩)
  | _, none => none

end Httpd
