import Verif.Model.Message
import Verif.Model.Logging
/-!
# Model of src/message.rs at the level of memory

The readers of src/message.rs again, this time with the vectors they work on as memory: cells that may never have been written, a
length and a capacity, and the `unsafe` calls with the contracts that the standard library documents for them. A broken contract
is undefined behaviour, `none` of `Unchecked`. `Props/Memory` relates this to `Model/Message`, which has byte strings only.
-/

namespace Httpd

/-- A `Vec<u8>`, or the vector inside a `String`: its allocation, as many cells as the capacity, `none` = not initialised; and the
length. -/
structure RVec where
  cells : List (Option Byte)
  len : Nat
deriving DecidableEq

namespace RVec

/-- `Vec::capacity`. -/
def cap (v : RVec) : Nat := v.cells.length

/-- `Vec::with_capacity(n)`. `String::new()` is the case 0. -/
def withCapacity (n : Nat) : RVec := ⟨List.replicate n none, 0⟩

/-- `Vec::clear` for bytes: the cells keep what they hold. -/
def clear (v : RVec) : RVec := { v with len := 0 }

/-- `extend_from_slice`: in place if there is room. Otherwise a new allocation gets the bytes up to the length; `alloc cap need` is the
number of cells it has beyond what is needed, and they are not initialised. -/
def extend (alloc : Nat → Nat → Nat) (v : RVec) (bs : Bytes) : RVec :=
  if v.len + bs.length ≤ v.cap then
    ⟨v.cells.take v.len ++ bs.map some ++ v.cells.drop (v.len + bs.length), v.len + bs.length⟩
  else
    ⟨v.cells.take v.len ++ bs.map some ++ List.replicate (alloc v.cap (v.len + bs.length)) none, v.len + bs.length⟩

/-- `Vec::set_len(n)`, contract: "`new_len` must be less than or equal to `capacity()`. The elements at `old_len..new_len` must be
initialized." -/
def setLen (v : RVec) (n : Nat) : Unchecked RVec :=
  if n ≤ v.cap ∧ ((v.cells.take n).drop v.len).all Option.isSome then some { v with len := n } else none

/-- `Vec::set_len(n)` with the first half of its contract only: what the machine does. -/
def setLenRaw (v : RVec) (n : Nat) : Unchecked RVec := if n ≤ v.cap then some { v with len := n } else none

/-- Reading the first `n` cells (those up to the length: `as_slice`). A cell that is not initialised must not be read. -/
def read (v : RVec) (n : Nat) : Unchecked Bytes := (v.cells.take n).mapM id

/-- What a `read(&mut v[..])` of the reader does to the vector: the bytes it got go to the first cells. -/
def fill (v : RVec) (data : Bytes) : RVec := { v with cells := data.map some ++ v.cells.drop data.length }

end RVec

/-- `*a.get_unchecked_mut(i) = b`, contract: the index is in bounds. -/
def setUnchecked (a : Bytes) (i : Nat) (b : Byte) : Unchecked Bytes := if i < a.length then some (a.set i b) else none

/-- `std::str::from_utf8_unchecked(s)`, contract: "The bytes passed in must be valid UTF-8." -/
def fromUtf8Unchecked (s : Bytes) : Unchecked Bytes := if (decodeUtf8 s).isSome then some s else none

/-- What `read_headers` works on: the three strings of the start line, the headers (src/message.rs:136-141), and the buffer of the
connection (src/ctx.rs:13). -/
structure LowMsg where
  f0 : RVec
  f1 : RVec
  f2 : RVec
  headers : MultiMap
  buf : RVec

/-- A returned `read_headers`: the memory afterwards, and the code or the reader (for `Ok`). -/
structure LowRes where
  msg : LowMsg
  out : Except ReadCode Reader

/-- src/message.rs:433 `[0 as u8; MAX_HEADER_NAME_LENGTH]`. -/
def keyZero : Bytes := List.replicate maxHeaderNameLength 0

/-- src/message.rs:453-496: the scan of a header line. `&keytmp[..keyidx]` is a checked slice and keeps within the array because
`keyidx` does. Result: the code, or the headers and `keytmp` for the next line (it is declared anew after a field: the loop
`'readlines` is left and the state entered again, lines 433 and 484; it is not after a line without a colon). -/
def lowScan (maxHeadersCount : Nat) (hs : MultiMap) : Bytes → Nat → Bytes → Unchecked (Except ReadCode (MultiMap × Bytes))
  | keytmp, _, [] => some (.ok (hs, keytmp))
  | keytmp, keyidx, c :: rest =>
    if !isText c then some (.error .badDatagram)
    else if c = 58 then
      match fromUtf8Unchecked (keytmp.take keyidx) with
      | none => none
      | some key =>
        if rest = [] then some (.error .badDatagram)
        else if !rest.all isText then some (.error .badDatagram)
        else
          match fromUtf8Unchecked rest with
          | none => none
          | some value =>
            if maxHeadersCount < 1 then some (.error .reachMaxHeadersCount)
            else some (.ok (hs.append (trimSp key) (trimSp value), keyZero))
    else if maxHeaderNameLength ≤ keyidx then some (.error .badDatagram)
    else
      match setUnchecked keytmp keyidx (toAsciiLower c) with
      | none => none
      | some keytmp' => lowScan maxHeadersCount hs keytmp' (keyidx + 1) rest

/-- src/message.rs:432-506: the loop over header lines. When a read does not finish, everything available is in the buffer. The outer
`none` is undefined behaviour, the inner one "still running". -/
def lowHeaderLoop (lim : HttpLimits) (alloc : Nat → Nat → Nat) : Nat → LowMsg → Bytes → Reader → Unchecked (Option LowRes)
  | 0, _, _, _ => some none
  | fuel + 1, m, keytmp, r =>
    let buf := m.buf.clear
    match r.readUntil 10 lim.maxHeaderLine with
    | .err s => some (some ⟨{ m with buf := buf.extend alloc r.flat }, .error (s.code .connReadError)⟩)
    | .ok line r' =>
      let buf := buf.extend alloc line
      if line.length < 2 then some (some ⟨{ m with buf := buf }, .error .badDatagram⟩)
      else if line.length = 2 then some (some ⟨{ m with buf := buf }, .ok r'⟩)
      else
        match buf.setLen (line.length - 2) with
        | none => none
        | some buf =>
          match buf.read buf.len with
          | none => none
          | some text =>
            match lowScan lim.maxHeadersCount m.headers keytmp 0 text with
            | none => none
            | some (.error e) => some (some ⟨{ m with buf := buf }, .error e⟩)
            | some (.ok (hs, keytmp')) => lowHeaderLoop lim alloc fuel { m with headers := hs, buf := buf } keytmp' r'

/-- src/message.rs:353-509 `read_headers`. `as_mut_vec` gives the vectors of the strings; what `read_line` (tokio) leaves in the
string when it fails is what was there before. -/
def lowReadHead (lim : HttpLimits) (alloc : Nat → Nat → Nat) (fuel : Nat) (m : LowMsg) (r : Reader) : Unchecked (Option LowRes) :=
  match r.readUntil 32 128 with
  | .err s => some (some ⟨{ m with f0 := m.f0.extend alloc r.flat }, .error (s.code .connReadError)⟩)
  | .ok w r1 =>
    let m := { m with f0 := m.f0.extend alloc w }
    if w.length < 1 then some (some ⟨m, .error .connReadError⟩)
    else
      match m.f0.setLen (w.length - 1) with
      | none => none
      | some f0 =>
        let m := { m with f0 := f0 }
        match f0.read f0.len with
        | none => none
        | some text =>
          if !text.all isText then some (some ⟨m, .error .badDatagram⟩)
          else
            match r1.readUntil 32 lim.maxUrl with
            | .err s => some (some ⟨{ m with f1 := m.f1.extend alloc r1.flat }, .error (s.code .connReadError)⟩)
            | .ok w r2 =>
              let m := { m with f1 := m.f1.extend alloc w }
              if w.length < 1 then some (some ⟨m, .error .connReadError⟩)
              else
                match m.f1.setLen (w.length - 1) with
                | none => none
                | some f1 =>
                  let m := { m with f1 := f1 }
                  match f1.read f1.len with
                  | none => none
                  | some text =>
                    if !text.all isText then some (some ⟨m, .error .badDatagram⟩)
                    else
                      match r2.readLine 128 with
                      | .err s => some (some ⟨m, .error (s.code .connReadError)⟩)
                      | .ok w r3 =>
                        let m := { m with f2 := m.f2.extend alloc w }
                        if w.length < 3 then some (some ⟨m, .error .badDatagram⟩)
                        else
                          match m.f2.setLen (w.length - 2) with
                          | none => none
                          | some f2 =>
                            let m := { m with f2 := f2 }
                            match f2.read f2.len with
                            | none => none
                            | some text =>
                              if !text.all isText then some (some ⟨m, .error .badDatagram⟩)
                              else lowHeaderLoop lim alloc fuel m keyZero r3

/-! ## Bodies -/

/-- A body reader that returned, or never will: with the buffer afterwards. -/
structure LowBody (K : Type) where
  res : BodyRes K
  buf : RVec

/-- src/message.rs:165-182: the loop of `read_const_length_body_impl`: the reader writes to the front of the buffer, and what it wrote
is read from there. -/
def lowConstLoop {K : Type} (write : Body K → Bytes → Body.Out (Body K)) :
    Nat → Nat → Body K → RVec → Reader → Unchecked (Option (LowBody K))
  | 0, _, _, _, _ => some none
  | fuel + 1, remain, b, v, r =>
    let n := if remain < v.cap then remain else v.cap
    match r.read n with
    | .err s => some (some ⟨.fail (s.code .connReadError), v⟩)
    | .ok data r' =>
      let v := v.fill data
      match v.read data.length with
      | none => none
      | some bytes =>
        match write b bytes with
        | .panic => some (some ⟨.panic, v⟩)
        | .ret b' =>
          if remain - data.length < 1 then some (some ⟨.done b' r', v⟩)
          else lowConstLoop write fuel (remain - data.length) b' v r'

/-- `read_const_length_body_impl` (src/message.rs:156-184). `setLen` is `Vec::set_len` under one of its two contracts. -/
def lowReadConst {K : Type} (setLen : RVec → Nat → Unchecked RVec) (write : Body K → Bytes → Body.Out (Body K)) (remain : Nat)
    (b : Body K) (v : RVec) (r : Reader) : Unchecked (LowBody K) :=
  if remain < 1 then some ⟨.done b r, v⟩
  else
    match setLen v v.cap with
    | none => none
    | some v => (lowConstLoop write (r.flat.length + 1) remain b v r).map (·.getD ⟨.hang, v⟩)

/-- `read_chunked_body_impl` (src/message.rs:186-245). -/
def lowReadChunked {K : Type} (setLen : RVec → Nat → Unchecked RVec) (write : Body K → Bytes → Body.Out (Body K)) (maxBody : Nat)
    (b : Body K) (v : RVec) (r : Reader) : Unchecked (LowBody K) :=
  match setLen v v.cap with
  | none => none
  | some v =>
    match r.readLine 128 with
    | .err s => some ⟨.fail (s.code .connReadError), v⟩
    | .ok line r1 =>
      match parseChunkSize line with
      | none => some ⟨.fail .badChunkSize, v⟩
      | some size =>
        if maxBody < size then some ⟨.fail .reachMaxBodySize, v⟩
        else
          match lowReadConst (fun v _ => some v) write size b v r1 with
          | none => none
          | some ⟨.done b' r2, v⟩ =>
            match r2.readLine 2 with
            | .ok _ r3 => some ⟨.done b' r3, v⟩
            | .err s => some ⟨.fail (s.code .badDatagram), v⟩
          | some other => some other

end Httpd
