import Verif.Props.Response
import Verif.Props.Services
import Verif.Props.Codec
/-! # C115, C116: building a response -/

namespace Httpd
open Spec MultiMap

/-! ## C115 -/

/-- One write to a body, through `std::io::Write` (`true`) or `write_all_to_internal` (`false`); `none` = panic, or not all bytes
accepted. -/
def Body.put {K : Type} (c : Codec K) (b : Body K) (viaWrite : Bool) (v : Bytes) : Option (Body K) :=
  if viaWrite then
    match b.write c v with
    | .ret (b', some n) => if n = v.length then some b' else none
    | _ => none
  else
    match b.writeRaw v with
    | .ret b' => some b'
    | .panic => none

/-- **C115.** Every sequence of writes to a body that is not being compressed, through either of the two ways, is accepted whole
and leaves exactly the bytes that were there followed by those written, in order; `inner`, `size` and `is_empty` say so; and
ending the body changes nothing. -/
theorem C115_plain_writes {K : Type} (c : Codec K) (x : Bytes) (ps : List (Bool × Bytes)) :
    ∃ b : Body K, ps.foldlM (fun b p => b.put c p.1 p.2) ({ internal := some x, cw := none } : Body K) = some b ∧
      b.inner = .ret (x ++ (ps.map (·.2)).flatten) ∧ b.size = (x ++ (ps.map (·.2)).flatten).length ∧
      (b.isEmpty = true ↔ x ++ (ps.map (·.2)).flatten = []) ∧ b.finish c = (b, true) := by
  refine ⟨{ internal := some (x ++ (ps.map (·.2)).flatten), cw := none }, ?_, rfl, rfl, ?_, rfl⟩
  · induction ps generalizing x with
    | nil => simp
    | cons p ps ih =>
      have h : ({ internal := some x, cw := none } : Body K).put c p.1 p.2 = some { internal := some (x ++ p.2), cw := none } := by
        obtain ⟨w, v⟩ := p
        cases w <;> simp [Body.put, Body.write, Body.writeRaw]
      rw [List.foldlM_cons, h]
      show List.foldlM _ _ _ = _
      rw [ih]
      simp
  · rw [← List.length_eq_zero_iff]
    simp only [Body.isEmpty, Body.size, beq_iff_eq]

/-- Non-trivial case. -/
example : (([(true, b!"Hello"), (false, b!" "), (true, b!""), (true, b!"world")] : List (Bool × Bytes)).foldlM
    (fun (b : Body Unit) p => b.put noCodec p.1 p.2) ({ internal := some b!">", cw := none } : Body Unit)).map (·.internal) =
    some (some b!">Hello world") := by decide +kernel

/-! ## C116 -/

/-- What a call does to the message (src/respw.rs). -/
def Message.respCall {K : Type} (m : Message K) : RespCall → Message K
  | .version a b => m.version a b
  | .code n r => m.code n r
  | .header k v => m.header k v
  | .setheader k v => m.setheader k v
  | .delheader k => m.delheader k

/-- The message after all calls. -/
theorem respCalls_head {K : Type} (cs : List RespCall) (m : Message K) (ops : List HeaderOp) (hb : BuiltBy ops m.head.headers) :
    (cs.foldl Message.respCall m).head.f0 = m.head.f0 ++ (versionsOf cs).flatten ∧
    (cs.foldl Message.respCall m).head.f1 = m.head.f1 ++ ((codesOf cs).map (·.1)).flatten ∧
    (cs.foldl Message.respCall m).head.f2 = m.head.f2 ++ ((codesOf cs).map (·.2)).flatten ∧
    BuiltBy (ops ++ headerOpsOf cs) (cs.foldl Message.respCall m).head.headers ∧
    (cs.foldl Message.respCall m).body = m.body := by
  induction cs generalizing m ops with
  | nil => simpa [versionsOf, codesOf, headerOpsOf] using hb
  | cons c cs ih =>
    obtain ⟨hs0, hf, hs⟩ := hb
    have ids : IsOrder (id : List Pair → List Pair) := fun l => List.Perm.refl l
    cases c with
    | version a b =>
      obtain ⟨g0, g1, g2, g3, g4⟩ := ih (m.version a b) ops ⟨hs0, hf, hs⟩
      refine ⟨g0.trans ?_, g1, g2, g3, g4⟩
      show (m.head.f0 ++ versionText a b) ++ _ = m.head.f0 ++ (versionText a b :: versionsOf cs).flatten
      rw [List.flatten_cons, List.append_assoc]
    | code n r =>
      obtain ⟨g0, g1, g2, g3, g4⟩ := ih (m.code n r) ops ⟨hs0, hf, hs⟩
      refine ⟨g0, g1.trans ?_, g2.trans ?_, g3, g4⟩
      · show (m.head.f1 ++ natToBytes n) ++ _ = m.head.f1 ++ (natToBytes n :: (codesOf cs).map (·.1)).flatten
        rw [List.flatten_cons, List.append_assoc]
      · show (m.head.f2 ++ r) ++ _ = m.head.f2 ++ (r :: (codesOf cs).map (·.2)).flatten
        rw [List.flatten_cons, List.append_assoc]
    | header k v =>
      obtain ⟨g0, g1, g2, g3, g4⟩ := ih (m.header k v) (ops ++ [.append k v]) ⟨hs0, hf, steps_snoc hs id ids (.append k v)⟩
      rw [List.append_assoc] at g3
      exact ⟨g0, g1, g2, g3, g4⟩
    | setheader k v =>
      obtain ⟨g0, g1, g2, g3, g4⟩ := ih (m.setheader k v) (ops ++ [.set k v]) ⟨hs0, hf, steps_snoc hs id ids (.set k v)⟩
      rw [List.append_assoc] at g3
      exact ⟨g0, g1, g2, g3, g4⟩
    | delheader k =>
      obtain ⟨g0, g1, g2, g3, g4⟩ := ih (m.delheader k) (ops ++ [.delete k]) ⟨hs0, hf, steps_snoc hs id ids (.delete k)⟩
      rw [List.append_assoc] at g3
      exact ⟨g0, g1, g2, g3, g4⟩

/-- **C116 (partial).** A service that, on a response as the connection loop hands it out, gives one version and one status code
and reason, in any order among any calls of `header` and `setheader` (no line breaks, no empty names), sends exactly: the status
line `HTTP/a.b code reason`, one line per value of the headers as a plain map has them (with Content-Length set), and the body.
Missing: responses whose version or code is set more than once, and `delheader`; both violate the property. -/
theorem C116_once_partial {K : Type} (c : Codec K) (ord : List Pair → List Pair) (hord : IsOrder ord) (m : Message K)
    (hblank : m.head.Blank) (cs : List RespCall) (a b n : Nat) (reason : Bytes)
    (hv : versionsOf cs = [versionText a b]) (hc : codesOf cs = [(natToBytes n, reason)]) (hreason : OneLine reason)
    (hn : ∀ op ∈ headerOpsOf cs, op.nameNonempty) (hd : ∀ op ∈ headerOpsOf cs, op.notDelete)
    (hone : HeaderMapOneLine (run (headerOpsOf cs) HeaderMap.empty)) (bd : Bytes)
    (hbody : m.body = { internal := some bd, cw := none }) :
    ∃ m' bytes names, encodeResponse c ord (cs.foldl Message.respCall m) = (m', some bytes) ∧
      splitHead bytes = some (statusLine (versionText a b) (natToBytes n) reason ::
        linesOf names (intended (headerOpsOf cs) bd.length), bd) ∧
      names.Nodup ∧ ∀ k, k ∈ names ↔ intended (headerOpsOf cs) bd.length k ≠ none := by
  obtain ⟨b0, b1, b2, b3⟩ := hblank
  obtain ⟨h0, h1, h2, h3, h4⟩ := respCalls_head cs m [] ⟨_, b3, Steps.nil _⟩
  rw [List.nil_append] at h3
  rw [b0, hv] at h0
  rw [b1, hc] at h1
  rw [b2, hc] at h2
  simp only [List.flatten_cons, List.flatten_nil, List.append_nil, List.nil_append, List.map_cons, List.map_nil] at h0 h1 h2
  have := C29_lines_partial c ord hord (cs.foldl Message.respCall m) (headerOpsOf cs) h3 hn hd bd
    ⟨none, by rw [h4, hbody]; rfl⟩ (by rw [h0]; exact versionText_oneLine a b) (by rw [h1]; exact natToBytes_oneLine n)
    (by rw [h2]; exact hreason) hone
  rw [h0, h1, h2] at this
  exact this

/-- **C116 is violated**: `version` and `code` add to what is there. Whatever else the service does, after a second version no
version text stands in the status line, after a second code the codes are glued together. -/
theorem C116_glued_violated {K : Type} (m : Message K) (hblank : m.head.Blank) (cs : List RespCall) :
    (cs.foldl Message.respCall m).head.f0 = (versionsOf cs).flatten ∧
    (cs.foldl Message.respCall m).head.f1 = ((codesOf cs).map (·.1)).flatten ∧
    (cs.foldl Message.respCall m).head.f2 = ((codesOf cs).map (·.2)).flatten ∧
    (2 ≤ (versionsOf cs).length → ∀ a b, (cs.foldl Message.respCall m).head.f0 ≠ versionText a b) := by
  obtain ⟨b0, b1, b2, b3⟩ := hblank
  obtain ⟨h0, h1, h2, _, _⟩ := respCalls_head cs m [] ⟨_, b3, Steps.nil _⟩
  rw [b0, List.nil_append] at h0
  rw [b1, List.nil_append] at h1
  rw [b2, List.nil_append] at h2
  refine ⟨h0, h1, h2, fun hl a b he => ?_⟩
  have count : ∀ vs : List Bytes, (∀ v ∈ vs, ∃ a b, v = versionText a b) → vs.flatten.count 72 = vs.length := by
    intro vs hvs
    induction vs with
    | nil => rfl
    | cons v vs ih =>
      obtain ⟨a, b, rfl⟩ := hvs v (by simp)
      rw [List.flatten_cons, List.count_append, count_versionText, ih (fun v hv => hvs v (by simp [hv]))]
      simp; omega
  have h := count (versionsOf cs) (by
    intro v hv
    simp only [versionsOf, List.mem_filterMap] at hv
    obtain ⟨x, _, hx⟩ := hv
    cases x <;> simp at hx
    exact ⟨_, _, hx.symm⟩)
  rw [← h0, he, count_versionText] at h
  omega

/-- Non-trivial cases: a response built in an unusual order; one with two versions. -/
example : (encodeResponse noCodec id ([RespCall.header b!"x" b!"1", .code 404 b!"Not Found", .header b!"x" b!"2",
      .setheader b!"y" b!"3", .version 1 1].foldl Message.respCall (Message.new : Message Unit))).2 =
    some b!"HTTP/1.1 404 Not Found\r\nx: 1\r\nx: 2\r\ny: 3\r\ncontent-length: 0\r\n\r\n" := by decide +kernel

example : (encodeResponse noCodec id ([RespCall.version 1 1, .code 200 b!"OK", .version 1 0, .code 404 b!"Not Found"].foldl
      Message.respCall (Message.new : Message Unit))).2 =
    some b!"HTTP/1.1HTTP/1.0 200404 OKNot Found\r\ncontent-length: 0\r\n\r\n" := by decide +kernel

end Httpd
