import Verif.Model.Appender
/-!
# What log files should hold

Said in terms of calls of the appender and of contents of named files.
-/

namespace Httpd.Spec

open Httpd

/-- The content of a named file; a missing file counts as empty. -/
def content (d : Disk) (fp : Str) : Bytes :=
  match d.fs.names fp with
  | some ino => d.fs.data ino
  | none => []

/-- Calls of an appender. -/
inductive FileOp
  | write (b : Bytes)
  | flush

/-- All that was written, in order. -/
def written : List FileOp → Bytes
  | [] => []
  | .write b :: ops => b ++ written ops
  | .flush :: ops => written ops

/-- Carry out calls on a file appender; says whether all of them succeeded. -/
def perform (d : Disk) (w : BufW) : List FileOp → Disk × BufW × Bool
  | [] => (d, w, true)
  | op :: ops =>
    let (d, w, ok) := match op with
      | .write b => fileAppend d w b
      | .flush => fileFlush d w
    let (d, w, oks) := perform d w ops
    (d, w, ok && oks)

/-- A file system as it should be: no file refers to an inode that is yet to be made. -/
def Sane (d : Disk) : Prop := ∀ fp ino, d.fs.names fp = some ino → ino < d.fs.next

end Httpd.Spec
