import Verif.Model.Serve
/-!
# Model of src/reqr.rs, src/respw.rs, src/services/helloworld.rs, src/services/fs.rs and src/ws_impl.rs

SHA-1 and base64 (crates `sha1` and `base64`) are parameters. Log calls are in `Model/ConnLog`.
-/

namespace Httpd

/-- `str::find` of a one-byte pattern and the two slices around it: what is before the first `d`, and what is after it. -/
def splitFirst (d : Byte) : Bytes → Option (Bytes × Bytes)
  | [] => none
  | b :: s => if b = d then some ([], s) else (splitFirst d s).map (fun p => (b :: p.1, p.2))

/-- `str::eq_ignore_ascii_case`. -/
def eqIgnoreAsciiCase (s t : Bytes) : Bool := s.map toAsciiLower == t.map toAsciiLower

/-- src/reqr.rs:27-65 `RequestReader::version`. Line 53 parses the same slice `versions[..idx]` again for the minor number. -/
def reqVersion (f2 : Bytes) : Option (Nat × Nat) :=
  match splitFirst 47 f2 with
  | none => none
  | some (p, versions) =>
    if !eqIgnoreAsciiCase p b!"http" then none
    else
      match splitFirst 46 versions with
      | none => none
      | some (t, _) =>
        match parseUInt 255 t with
        | none => none
        | some major =>
          match parseUInt 255 t with
          | none => none
          | some minor => some (major, minor)

/-! ## ResponseWriter (src/respw.rs) -/

namespace Message
variable {K : Type}

/-- src/respw.rs:15-21 `version`: appends to what is already there. -/
def version (m : Message K) (major minor : Nat) : Message K :=
  { m with head := { m.head with f0 := m.head.f0 ++ (b!"HTTP/" ++ natToBytes major ++ [46] ++ natToBytes minor) } }

/-- src/respw.rs:24-28 `code`. -/
def code (m : Message K) (code : Nat) (reason : Bytes) : Message K :=
  { m with head := { m.head with f1 := m.head.f1 ++ natToBytes code, f2 := m.head.f2 ++ reason } }

/-- src/respw.rs:31-34 `header`. -/
def header (m : Message K) (k v : Bytes) : Message K :=
  { m with head := { m.head with headers := m.head.headers.append k v } }

/-- src/respw.rs:37-40 `setheader`. -/
def setheader (m : Message K) (k v : Bytes) : Message K :=
  { m with head := { m.head with headers := m.head.headers.set k v } }

/-- src/respw.rs:43-46 `delheader`. -/
def delheader (m : Message K) (k : Bytes) : Message K :=
  { m with head := { m.head with headers := m.head.headers.delete k } }

end Message

/-! ## Services -/

/-- src/services/helloworld.rs:27-86 `HelloWorldService::http`. The request is only read. -/
def helloHttp {K : Type} (req resp : Message K) : HandlerRes K :=
  let reqversion := reqVersion req.head.f2
  let w := ((resp.version 1 1).code 200 b!"OK").header b!"server" b!"httpd.rs"
  let (w, keepAlive) :=
    match reqversion with
    | some (major, minor) => (w.version major minor, decide (1 ≤ major) && decide (1 ≤ minor))
    | none => (w, true)
  match w.body.writeRaw b!"Hello world!" with
  | .panic => .panic
  | .ret body => .ok (.current keepAlive) req { w with body := body }

/-- src/services/fs.rs:26-36 `FsService::http`. -/
def fsHttp {K : Type} (req resp : Message K) : HandlerRes K := .ok (.current true) req resp

/-! ## WebSocket (src/ws_impl.rs) -/

/-- src/ws_impl.rs:18 `MAGIC_BYTES`. -/
def wsMagic : Bytes := b!"258EAFA5-E914-47DA-95CA-C5AB0DC85B11"

/-- src/ws_impl.rs:17-49 `upgrade`: the response afterwards and the `Ok` value (it never returns `Err`). -/
def wsUpgrade {K : Type} (sha1 base64 : Bytes → Bytes) (req resp : Message K) : Message K × Bool :=
  match req.head.headers.get b!"sec-websocket-key" with
  | none => (resp, false)
  | some key =>
    if key.isEmpty then (resp, false)
    else
      let resp := resp.header b!"sec-websocket-accept" (base64 (sha1 (key ++ wsMagic)))
      let resp := (resp.version 1 1).code 101 b!"Switching Protocols"
      (((resp.header b!"sec-websocket-version" b!"13").header b!"upgrade" b!"websocket").header b!"connection" b!"Upgrade", true)

end Httpd
