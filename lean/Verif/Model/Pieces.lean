import Verif.Model.Message
/-!
# The pieces a body reader hands to the body

`Model/Message` gives the body only when reading succeeds; the program has it also when reading fails half way, as the caller's
`&mut self`. Here the readers of src/message.rs are cut in two: which pieces are handed to the body, and how reading ends. That
the two together are the readers of `Model/Message` is `C19_halves`.
-/

namespace Httpd

/-- How reading ended: `none` = never. -/
abbrev PiecesEnd := Option (Except ReadCode Reader)

/-- The pieces in the loop of src/message.rs:162-182. -/
def constPieces (cap : Nat) : Nat → Nat → Reader → List Bytes × PiecesEnd
  | 0, _, _ => ([], none)
  | fuel + 1, remain, r =>
    match r.read (if remain < cap then remain else cap) with
    | .err s => ([], some (.error (s.code .connReadError)))
    | .ok data r' =>
      if remain - data.length < 1 then ([data], some (.ok r'))
      else
        match constPieces cap fuel (remain - data.length) r' with
        | (ps, e) => (data :: ps, e)

/-- The same for `read_const_length_body_impl` (src/message.rs:156-184). -/
def readConstPieces (cap remain : Nat) (r : Reader) : List Bytes × PiecesEnd :=
  if remain < 1 then ([], some (.ok r)) else constPieces cap (r.flat.length + 1) remain r

/-- The same for `read_chunked_body_impl` (src/message.rs:186-245). -/
def readChunkedPieces (cap maxBody : Nat) (r : Reader) : List Bytes × PiecesEnd :=
  match r.readLine 128 with
  | .err s => ([], some (.error (s.code .connReadError)))
  | .ok line r1 =>
    match parseChunkSize line with
    | none => ([], some (.error .badChunkSize))
    | some size =>
      if maxBody < size then ([], some (.error .reachMaxBodySize))
      else
        match readConstPieces cap size r1 with
        | (ps, some (.ok r2)) =>
          match r2.readLine 2 with
          | .ok _ r3 => (ps, some (.ok r3))
          | .err s => (ps, some (.error (s.code .badDatagram)))
        | (ps, e) => (ps, e)

/-- The same for `read_body_normal` (src/message.rs:327-351). -/
def readNormalPieces (cap maxBody : Nat) (hs : MultiMap) (r : Reader) : List Bytes × PiecesEnd :=
  if headerContains (hs.getall b!"transfer-encoding") b!"chunked" then readChunkedPieces cap maxBody r
  else
    match getContentLength hs with
    | some n => if maxBody < n then ([], some (.error .reachMaxBodySize)) else readConstPieces cap n r
    | none => ([], some (.error .badContentLength))

/-- Handing pieces to the body, one after the other. -/
def feed {K : Type} (write : Body K → Bytes → Body.Out (Body K)) : Body K → List Bytes → Body.Out (Body K)
  | b, [] => .ret b
  | b, p :: ps =>
    match write b p with
    | .panic => .panic
    | .ret b' => feed write b' ps

end Httpd
