import Verif.Base.RustInt
/-!
# Model of the buffered reader used by src/message.rs

`ctx.reader` is a `tokio::io::BufReader` over a socket (src/serve.rs:29). A read of the socket returns some non-empty
segment of what the peer sent; when everything has been read it returns 0 bytes (the peer closed) or an error, or does not
return at all (the peer keeps the connection open and sends nothing: no timeout is put on any read). How the bytes
are cut into segments is up to the transport, so the segmentation is part of the reader's state and theorems quantify over it.
-/

namespace Httpd

/-- How the stream ends once all bytes have been read. -/
inductive StreamEnd
  | eof
  | err
  /-- the peer sends nothing more and keeps the connection open -/
  | silent
deriving DecidableEq, Repr

/-- A non-empty segment returned by one read of the socket. -/
structure Seg where
  hd : Byte
  tl : Bytes
deriving DecidableEq, Repr

/-- The bytes of a segment. -/
def Seg.bytes (s : Seg) : Bytes := s.hd :: s.tl

/-- `tokio::io::BufReader`: the bytes buffered and not yet consumed, the segments that later reads of the socket will return,
and the end of the stream. The capacity of the buffer (`read_stream_buf_size`) only influences how long segments can be. -/
structure Reader where
  buf : Bytes
  segs : List Seg
  fin : StreamEnd
deriving DecidableEq, Repr

namespace Reader

/-- All the bytes not yet consumed. -/
def flat (r : Reader) : Bytes := r.buf ++ (r.segs.map Seg.bytes).flatten

/-- Why a read operation has no result: an I/O error, or it is still waiting for bytes. -/
inductive IoStop
  | error
  | wait
deriving DecidableEq, Repr

/-- Result of a read operation: the bytes read and the reader after it, or none (after an I/O error the callers in
src/message.rs give up the connection, so the reader's state no longer matters). -/
inductive IoRes
  | ok (data : Bytes) (r : Reader)
  | err (s : IoStop)

/-- `BufReader::fill_buf` (tokio): returns the buffered bytes, reading one segment from the socket if there are none. -/
def fillBuf (r : Reader) : IoRes :=
  match r.buf with
  | b :: bs => .ok (b :: bs) r
  | [] =>
    match r.segs with
    | s :: ss => .ok s.bytes { r with buf := s.bytes, segs := ss }
    | [] =>
      match r.fin with
      | .eof => .ok [] r
      | .err => .err .error
      | .silent => .err .wait

/-- `BufReader::consume`. -/
def consume (r : Reader) (n : Nat) : Reader := { r with buf := r.buf.drop n }

/-- `reader.take(limit)`'s `fill_buf` (tokio `Take::poll_fill_buf`): nothing, without touching the reader, once the limit is
used up; otherwise at most `limit` of the inner buffer. -/
def takeFill (limit : Nat) (r : Reader) : IoRes :=
  if limit = 0 then .ok [] r
  else
    match r.fillBuf with
    | .ok data r' => .ok (data.take limit) r'
    | .err s => .err s

/-- The loop of tokio's `read_until` on `reader.take(limit)`: look for the delimiter in what is available, take everything up
to and including it (or everything available), stop when it was found or nothing was available. `fuel` bounds the number of
iterations; `none` = still running. -/
def readUntilLoop (delim : Byte) : Nat → Nat → Reader → Bytes → Option IoRes
  | 0, _, _, _ => none
  | fuel + 1, limit, r, acc =>
    match takeFill limit r with
    | .err s => some (.err s)
    | .ok avail r' =>
      match avail.findIdx? (· == delim) with
      | some i => some (.ok (acc ++ avail.take (i + 1)) (r'.consume (i + 1)))
      | none =>
        let used := avail.length
        if used = 0 then some (.ok acc r')
        else readUntilLoop delim fuel (limit - used) (r'.consume used) (acc ++ avail)

/-- `reader.take(limit).read_until(delim, dest)`. Every iteration but the last uses up the buffered bytes, so the number of
segments bounds the iterations (`Verif.Lemmas.Reader.readUntil_spec` shows the fuel suffices). -/
def readUntil (delim : Byte) (limit : Nat) (r : Reader) : IoRes :=
  (readUntilLoop delim (r.segs.length + 3) limit r []).getD (.err .error)

/-- `reader.take(limit).read_line(dest)` (tokio): `read_until(b'\n')`, then an error unless the bytes are UTF-8. -/
def readLine (limit : Nat) (r : Reader) : IoRes :=
  match readUntil 10 limit r with
  | .err s => .err s
  | .ok data r' => if (decodeUtf8 data).isSome then .ok data r' else .err .error

/-- `reader.read(buf)` with a destination of `n` bytes: what is buffered (reading one segment first if nothing is), at most
`n` bytes. When nothing is buffered and `n` is at least the capacity, tokio reads directly into the destination; what does
not fit then stays in the socket instead of the buffer, which is the same as here. -/
def read (n : Nat) (r : Reader) : IoRes :=
  match r.fillBuf with
  | .err s => .err s
  | .ok data r' => .ok (data.take n) (r'.consume (min n data.length))

end Reader
end Httpd
