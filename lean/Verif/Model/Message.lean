import Verif.Model.Reader
import Verif.Model.MultiMap
/-!
# Model of src/message.rs

A message is a start line of three strings, a multi-map of headers, and a body. The body holds its bytes in a byte buffer or
inside a compressor/decompressor. Compressors are a parameter `K` with the operations of
src/compression.rs (`Codec K`).
-/

namespace Httpd

/-- src/message.rs:143-152 `MessageReadCode`. `waiting` is not in the source: it stands for a call that has not returned
because it waits for bytes the peer does not send. -/
inductive ReadCode
  | ok | connReadError | badDatagram | reachMaxBodySize | badContentLength | reachMaxHeadersCount | badChunkSize
  | waiting
deriving DecidableEq, Repr

/-- The code returned when a read has no result: `Err(_) => return $code` in every caller, and no code while it waits. -/
def Reader.IoStop.code (err : ReadCode) : Reader.IoStop → ReadCode
  | .error => err
  | .wait => .waiting

/-! ## Body -/

/-- src/message.rs:45-49. -/
inductive CompressionType
  | brotli | deflate | gzip
deriving DecidableEq, Repr

/-- The operations of `BoxedWriteCompressionImpl` (src/compression.rs:3-19) and the constructors used by `MessageBody`
(src/message.rs:52-92). `append` returns the number of bytes accepted or `none` on error; `expose` consumes the codec. -/
structure Codec (K : Type) where
  /-- `compression(ct, level)` applied to the current buffer. -/
  compressor : CompressionType → Nat → Bytes → K
  /-- `decompression(ct)` applied to the current buffer. -/
  decompressor : CompressionType → Bytes → K
  append : K → Bytes → K × Option Nat
  expose : K → Option Bytes

/-- src/message.rs:18-21 `MessageBody`. `bytebuffer::ByteBuffer` is only written to by this project: an append-only byte
vector. -/
structure Body (K : Type) where
  internal : Option Bytes
  cw : Option K

namespace Body
variable {K : Type}

/-- src/message.rs:23-30 `default`. -/
def new : Body K := { internal := some [], cw := none }

/-- Outcome of an operation that can panic. -/
inductive Out (α : Type)
  | ret (a : α)
  | panic

/-- src/message.rs:32-43 `Write::write`: to the buffer if there is one, else to the codec, panic if there is neither.
Returns the number of bytes accepted or `none` on error. -/
def write (c : Codec K) (b : Body K) (v : Bytes) : Out (Body K × Option Nat) :=
  match b.internal with
  | some inner => .ret ({ b with internal := some (inner ++ v) }, some v.length)
  | none =>
    match b.cw with
    | none => .panic
    | some k => let (k', n) := c.append k v; .ret ({ b with cw := some k' }, n)

/-- src/message.rs:52-76 `compression`: panics when there is no buffer. `min(level, 9)` for deflate and gzip. -/
def compression (c : Codec K) (b : Body K) (ct : CompressionType) (level : Nat) : Out (Body K) :=
  match b.internal with
  | none => .panic
  | some buf =>
    let level' := match ct with | .brotli => level | _ => min level 9
    .ret { internal := none, cw := some (c.compressor ct level' buf) }

/-- src/message.rs:78-92 `decompression`. -/
def decompression (c : Codec K) (b : Body K) (ct : CompressionType) : Out (Body K) :=
  match b.internal with
  | none => .panic
  | some buf => .ret { internal := none, cw := some (c.decompressor ct buf) }

/-- src/message.rs:104-111 `end`: takes the codec out and exposes its buffer; on error the codec is gone and the buffer is
still missing. The `Bool` is true for `Ok`. -/
def finish (c : Codec K) (b : Body K) : Body K × Bool :=
  match b.cw with
  | none => (b, true)
  | some k =>
    match c.expose k with
    | some buf => ({ internal := some buf, cw := none }, true)
    | none => ({ b with cw := none }, false)

/-- src/message.rs:94-102 `clear`. Note: the bytes of the buffer are not removed. -/
def clear (c : Codec K) (b : Body K) : Body K :=
  match b.finish c with
  | (b', true) => b'
  | (_, false) => { internal := some [], cw := none }

/-- src/message.rs:113-119 `size`. -/
def size (b : Body K) : Nat :=
  match b.internal with
  | some buf => buf.length
  | none => 0

/-- src/message.rs:121-123 `is_empty`. -/
def isEmpty (b : Body K) : Bool := b.size == 0

/-- src/message.rs:125-128 `inner`: panics when there is no buffer. -/
def inner (b : Body K) : Out Bytes :=
  match b.internal with
  | some buf => .ret buf
  | none => .panic

/-- src/message.rs:130-133 `write_all_to_internal` and 266-268 `write_raw`: panic when there is no buffer. -/
def writeRaw (b : Body K) (v : Bytes) : Out (Body K) :=
  match b.internal with
  | some buf => .ret { b with internal := some (buf ++ v) }
  | none => .panic

/-- src/message.rs:270-272 `write_compression`: the number of bytes accepted is ignored. -/
def writeCompression (c : Codec K) (b : Body K) (v : Bytes) : Out (Body K) :=
  match b.write c v with
  | .ret (b', _) => .ret b'
  | .panic => .panic

end Body

/-! ## Head -/

/-- Start line and headers of a message (the first two fields of `Message`, src/message.rs:136-141). -/
structure Head where
  f0 : Bytes
  f1 : Bytes
  f2 : Bytes
  headers : MultiMap
deriving DecidableEq, Repr

/-- src/message.rs:136-141 `Message`. -/
structure Message (K : Type) where
  head : Head
  body : Body K

/-- An empty head. -/
def Head.new : Head := { f0 := [], f1 := [], f2 := [], headers := MultiMap.new }

/-- `Message::default()`. -/
def Message.new {K : Type} : Message K := { head := Head.new, body := Body.new }

/-- The part of `Message::clear` (src/message.rs:248-254) about the head. -/
def Head.clear (h : Head) : Head := { f0 := [], f1 := [], f2 := [], headers := h.headers.clear }

/-- src/message.rs:248-254 `Message::clear`. -/
def Message.clear {K : Type} (c : Codec K) (m : Message K) : Message K :=
  { head := m.head.clear, body := m.body.clear c }

/-- The HTTP limits used by src/message.rs (src/config/http.rs). -/
structure HttpLimits where
  maxUrl : Nat
  maxHeaderLine : Nat
  maxHeadersCount : Nat
  maxBody : Nat
deriving DecidableEq, Repr

/-- src/message.rs:154 `MAX_HEADER_NAME_LENGTH`. -/
def maxHeaderNameLength : Nat := 256

/-- The scan of one header line (src/message.rs:454-496), without its line end. `key` is what was copied to `keytmp` so far
(lower-cased). Result: an error, or the headers after the line (unchanged if the line has no colon). `hc` counts the fields
of *this line*: it is declared inside the loop over lines (line 438), so it is 1 when compared with the limit. -/
def scanLine (maxHeadersCount : Nat) (hs : MultiMap) : Bytes → Bytes → Except ReadCode MultiMap
  | _, [] => .ok hs
  | key, c :: rest =>
    if !isText c then .error .badDatagram
    else if c = 58 then
      if rest = [] then .error .badDatagram
      else if !rest.all isText then .error .badDatagram
      else
        let hs' := hs.append (trimSp key) (trimSp rest)
        let hc := 1
        if maxHeadersCount < hc then .error .reachMaxHeadersCount
        else .ok hs'
    else if maxHeaderNameLength ≤ key.length then .error .badDatagram
    else scanLine maxHeadersCount hs (key ++ [toAsciiLower c]) rest

/-- The loop over header lines (src/message.rs:432-506, states `FirstLine2` and `HeadersDone`). `fuel` bounds the number of
lines; `none` = still running. -/
def headerLoop (lim : HttpLimits) : Nat → MultiMap → Reader → Option (Except ReadCode (MultiMap × Reader))
  | 0, _, _ => none
  | fuel + 1, hs, r =>
    match r.readUntil 10 lim.maxHeaderLine with
    | .err s => some (.error (s.code .connReadError))
    | .ok line r' =>
      if line.length < 2 then some (.error .badDatagram)
      else if line.length = 2 then some (.ok (hs, r'))
      else
        match scanLine lim.maxHeadersCount hs [] (line.take (line.length - 2)) with
        | .error e => some (.error e)
        | .ok hs' => headerLoop lim fuel hs' r'

/-- src/message.rs:353-509 `read_headers`, with a bound on the number of header lines. The destination strings are extended
by what was read and then truncated to `size - 1` (or `size - 2`) bytes, unchecked: the last byte (or two) is dropped whether
or not it is the delimiter. -/
def readHeadFuel (lim : HttpLimits) (fuel : Nat) (h : Head) (r : Reader) : Option (Except ReadCode (Head × Reader)) :=
  match r.readUntil 32 128 with
  | .err s => some (.error (s.code .connReadError))
  | .ok m r1 =>
    if m.length < 1 then some (.error .connReadError)
    else
      let f0 := (h.f0 ++ m).take (m.length - 1)
      if !f0.all isText then some (.error .badDatagram)
      else
        match r1.readUntil 32 lim.maxUrl with
        | .err s => some (.error (s.code .connReadError))
        | .ok t r2 =>
          if t.length < 1 then some (.error .connReadError)
          else
            let f1 := (h.f1 ++ t).take (t.length - 1)
            if !f1.all isText then some (.error .badDatagram)
            else
              match r2.readLine 128 with
              | .err s => some (.error (s.code .connReadError))
              | .ok v r3 =>
                if v.length < 3 then some (.error .badDatagram)
                else
                  let f2 := (h.f2 ++ v).take (v.length - 2)
                  if !f2.all isText then some (.error .badDatagram)
                  else
                    match headerLoop lim fuel h.headers r3 with
                    | none => none
                    | some (.error e) => some (.error e)
                    | some (.ok (hs, r4)) => some (.ok ({ f0 := f0, f1 := f1, f2 := f2, headers := hs }, r4))

/-- `read_headers`. The number of bytes available bounds the number of header lines (`C09_head_terminates`), so the default
result is never used. -/
def readHead (lim : HttpLimits) (h : Head) (r : Reader) : Except ReadCode (Head × Reader) :=
  (readHeadFuel lim (r.flat.length + 1) h r).getD (.error .connReadError)

/-! ## Reading the body -/

/-- src/message.rs:256-264 `get_content_length`: the first value of the header; `none` when it does not parse. -/
def getContentLength (hs : MultiMap) : Option Nat :=
  match hs.get b!"content-length" with
  | some v => parseUInt u64Max v
  | none => some 0

/-- Outcome of reading a body. `hang` = the loop never ends. -/
inductive BodyRes (K : Type)
  | done (b : Body K) (r : Reader)
  | fail (c : ReadCode)
  | panic
  | hang

/-- The loop of `read_const_length_body_impl` (src/message.rs:162-182), `remain ≥ 1`. `write` is `write_raw` or
`write_compression`; `cap` is the capacity of the connection's buffer. A read of 0 bytes (the peer closed) changes nothing
and the loop goes on. `none` = still running after `fuel` iterations. -/
def constLoop {K : Type} (write : Body K → Bytes → Body.Out (Body K)) (cap : Nat) :
    Nat → Nat → Body K → Reader → Option (BodyRes K)
  | 0, _, _, _ => none
  | fuel + 1, remain, b, r =>
    let n := if remain < cap then remain else cap
    match r.read n with
    | .err s => some (.fail (s.code .connReadError))
    | .ok data r' =>
      match write b data with
      | .panic => some .panic
      | .ret b' =>
        if remain - data.length < 1 then some (.done b' r')
        else constLoop write cap fuel (remain - data.length) b' r'

/-- `read_const_length_body_impl` (src/message.rs:156-184). Every iteration that reads something shortens the stream; once an
iteration reads nothing, all later ones do (`constLoop_hang`), so running out of this fuel means that the loop never ends. -/
def readConst {K : Type} (write : Body K → Bytes → Body.Out (Body K)) (cap remain : Nat) (b : Body K) (r : Reader) :
    BodyRes K :=
  if remain < 1 then .done b r
  else (constLoop write cap (r.flat.length + 1) remain b r).getD .hang

/-- src/message.rs:274-298 `read_const_length_body`: what `serve` calls. -/
def readConstLengthBody {K : Type} (cap : Nat) (hs : MultiMap) (b : Body K) (r : Reader) : BodyRes K :=
  match getContentLength hs with
  | some n => readConst Body.writeRaw cap n b r
  | none => .fail .badContentLength

/-- `lenline.as_str().trim().parse::<usize>()` on the (valid UTF-8) bytes of the line. -/
def parseChunkSize (line : Bytes) : Option Nat :=
  match decodeUtf8 line with
  | some cps => parseUIntCodepoints u64Max (trimUnicode cps)
  | none => none

/-- `read_chunked_body_impl` (src/message.rs:186-245): reads a size line, that many bytes, and two more bytes, then returns
(the `loop` around it never repeats). The addition `read_size += remain_size` starts from 0 and is done once, so it cannot
overflow. -/
def readChunked {K : Type} (write : Body K → Bytes → Body.Out (Body K)) (cap maxBody : Nat) (b : Body K) (r : Reader) :
    BodyRes K :=
  match r.readLine 128 with
  | .err s => .fail (s.code .connReadError)
  | .ok line r1 =>
    match parseChunkSize line with
    | none => .fail .badChunkSize
    | some size =>
      if maxBody < size then .fail .reachMaxBodySize
      else
        match readConst write cap size b r1 with
        | .done b' r2 =>
          match r2.readLine 2 with
          | .ok _ r3 => .done b' r3
          | .err s => .fail (s.code .badDatagram)
        | .fail c => .fail c
        | .panic => .panic
        | .hang => .hang

/-- `str::contains` on bytes. -/
def containsBytes (s t : Bytes) : Bool :=
  t.isPrefixOf s || match s with
    | [] => false
    | _ :: s' => containsBytes s' t

/-- src/internal/header.rs:1-13 `contains`. -/
def headerContains (ovs : Option (List Bytes)) (target : Bytes) : Bool :=
  match ovs with
  | some vs => vs.any (fun v => v == target || containsBytes v target)
  | none => false

/-- src/message.rs:327-351 `read_body_normal`. -/
def readBodyNormal {K : Type} (cap maxBody : Nat) (hs : MultiMap) (b : Body K) (r : Reader) : BodyRes K :=
  if headerContains (hs.getall b!"transfer-encoding") b!"chunked" then
    readChunked Body.writeRaw cap maxBody b r
  else
    match getContentLength hs with
    | some n => if maxBody < n then .fail .reachMaxBodySize else readConst Body.writeRaw cap n b r
    | none => .fail .badContentLength

/-! ## Writing -/

/-- One header line of `write_to`'s visitor (src/message.rs:531-539). -/
def headerLine (k v : Bytes) : Bytes := k ++ [58, 32] ++ v ++ crlf

/-- All header lines, in the order in which `each` visits the pairs (src/message.rs:531-540). -/
def headerLines (ps : List Pair) : Bytes := (ps.map (fun p => (p.2.map (headerLine p.1)).flatten)).flatten

/-- The bytes `write_to` (src/message.rs:511-549) sends for a message with the given start line, headers (with
content-length already set) and body. -/
def responseBytes (f0 f1 f2 : Bytes) (ps : List Pair) (body : Bytes) : Bytes :=
  f0 ++ [32] ++ f1 ++ [32] ++ f2 ++ crlf ++ headerLines ps ++ crlf ++ body

/-- What `write_to` does before any byte is sent: finish the body (failure = error, nothing sent), set content-length, and
produce the bytes. Returns the message afterwards and the bytes. `ord` is the iteration order of the header table. -/
def encodeResponse {K : Type} (c : Codec K) (ord : List Pair → List Pair) (m : Message K) :
    Message K × Option Bytes :=
  match m.body.finish c with
  | (b, false) => ({ m with body := b }, none)
  | (b, true) =>
    let hs := m.head.headers.set b!"content-length" (natToBytes b.size)
    let h := { m.head with headers := hs }
    let body := match b.internal with | some buf => buf | none => []
    ({ head := h, body := b }, some (responseBytes h.f0 h.f1 h.f2 (hs.entries ord) body))

end Httpd
