import Verif.Props.Body
import Verif.Lemmas.Response
/-! # C27–C29: written responses -/

namespace Httpd
open Spec MultiMap

/-- The headers a response is meant to have: those set by the service with history `ops`, and Content-Length. -/
def intended (ops : List HeaderOp) (bodyLen : Nat) : HeaderMap :=
  (HeaderOp.set b!"content-length" (natToBytes bodyLen)).apply (run ops HeaderMap.empty)

theorem intended_cl (ops : List HeaderOp) (n : Nat) : intended ops n b!"content-length" = some [natToBytes n] := by
  simp [intended, HeaderOp.apply]

theorem intended_other (ops : List HeaderOp) (n : Nat) (k : Bytes) (h : k ≠ b!"content-length") :
    intended ops n k = run ops HeaderMap.empty k := by
  simp [intended, HeaderOp.apply, h]

/-- No name and no value of the map has a line break. -/
def HeaderMapOneLine (a : HeaderMap) : Prop := ∀ k vs, a k = some vs → OneLine k ∧ ∀ v ∈ vs, OneLine v

theorem natToBytes_oneLine (n : Nat) : OneLine (natToBytes n) := by
  have h := natToBytes_digits n
  constructor <;> intro hm <;> exact absurd (h _ hm) (by decide)

/-! ## C29 -/

/-- **C29 (partial).** If no name or value has a CR or LF, the head of the written response consists of the status line and
exactly one line `name: value` per value of the headers the service set (with Content-Length set), the values of a name in
order; then the body. For every history of set, append, remove, clear and each_mut, every number of headers, every iteration
order. Missing: values with line breaks. -/
theorem C29_lines_partial {K : Type} (c : Codec K) (ord : List Pair → List Pair) (hord : IsOrder ord) (m : Message K)
    (ops : List HeaderOp) (hb : BuiltBy ops m.head.headers)
    (hn : ∀ op ∈ ops, op.nameNonempty) (hd : ∀ op ∈ ops, op.notDelete) (bd : Bytes)
    (hbody : ∃ cw, m.body.finish c = ({ internal := some bd, cw := cw }, true))
    (h0 : OneLine m.head.f0) (h1 : OneLine m.head.f1) (h2 : OneLine m.head.f2)
    (hone : HeaderMapOneLine (run ops HeaderMap.empty)) :
    ∃ m' bytes names, encodeResponse c ord m = (m', some bytes) ∧
      splitHead bytes = some (statusLine m.head.f0 m.head.f1 m.head.f2 :: linesOf names (intended ops bd.length), bd) ∧
      names.Nodup ∧ ∀ k, k ∈ names ↔ intended ops bd.length k ≠ none := by
  obtain ⟨m', ps, e1, e2, e3⟩ := response_written c ord hord m ops hb hn hd bd hbody
  refine ⟨m', _, ps.map (·.1), e1, ?_, e2, ?_⟩
  · rw [splitHead_response _ _ _ _ _ h0 h1 h2, entryLines_eq ps (intended ops bd.length) (fun k vs hk => (e3 k vs).mp hk)]
    intro p hp
    have hp' := (e3 p.1 p.2).mp hp
    by_cases hk : p.1 = b!"content-length"
    · rw [hk] at hp' ⊢
      have := intended_cl ops bd.length
      rw [intended, hp'] at this
      simp only [Option.some.injEq] at this
      rw [this]
      exact ⟨by decide, fun v hv => by simp only [List.mem_singleton] at hv; rw [hv]; exact natToBytes_oneLine _⟩
    · have hi := intended_other ops bd.length p.1 hk
      rw [intended, hp'] at hi
      exact hone p.1 p.2 hi.symm
  · intro k
    simp only [List.mem_map]
    constructor
    · rintro ⟨p, hp, rfl⟩
      rw [intended, (e3 p.1 p.2).mp hp]; simp
    · intro hk
      obtain ⟨vs, hvs⟩ := Option.ne_none_iff_exists'.mp hk
      exact ⟨(k, vs), (e3 k vs).mpr hvs, rfl⟩

/-- What is written for a response whose service appended one header to an empty table. -/
theorem written_one {K : Type} (c : Codec K) (ord : List Pair → List Pair) (m : Message K) (k v bd : Bytes)
    (hk : k ≠ [] ∧ k ≠ b!"content-length") (hs0 : MultiMap) (hf : hs0.Fresh) (hm : m.head.headers = hs0.append k v)
    (hbody : ∃ cw, m.body.finish c = ({ internal := some bd, cw := cw }, true)) :
    ∃ m', encodeResponse c ord m = (m', some (responseBytes m.head.f0 m.head.f1 m.head.f2
      [(k, [v]), (b!"content-length", [natToBytes bd.length])] bd)) := by
  obtain ⟨cw, hfin⟩ := hbody
  refine ⟨(encodeResponse c ord m).1, ?_⟩
  rw [encodeResponse_ok c ord m (by rw [hfin]), hfin, hm]
  have e1 : hs0.append k v = { ismap := false, vec := [(k, [v])], map := hs0.map } := by
    rw [append_vec hs0 hf.1 (by rw [hf.2.1]; decide), hf.2.1]
    simp [upsert, hf.1]
  have e2 : (hs0.append k v).set b!"content-length" (natToBytes bd.length) =
      { ismap := false, vec := [(k, [v]), (b!"content-length", [natToBytes bd.length])], map := hs0.map } := by
    rw [e1, set_vec _ rfl]
    have : (k == b!"content-length") = false := by simpa using hk.2
    have h3 : k.isEmpty = false := by cases k with | nil => exact absurd rfl hk.1 | cons _ _ => rfl
    simp only [upsert, this, h3, Bool.or_false, Bool.false_eq_true, if_false]
  show (_, some (responseBytes _ _ _ (((hs0.append k v).set b!"content-length" (natToBytes bd.length)).entries ord) bd)) = _
  rw [e2]
  rfl

/-- **C29 is violated**: a value with a line break adds a header line of its own. Whatever line `l` the second part of the
value is, the client sees it as a header of the response. -/
theorem C29_injected_line_violated {K : Type} (c : Codec K) (ord : List Pair → List Pair) (m : Message K) (k v l bd : Bytes)
    (hk : k ≠ [] ∧ k ≠ b!"content-length" ∧ OneLine k) (hv : OneLine v) (hl : OneLine l ∧ l ≠ [])
    (hs0 : MultiMap) (hf : hs0.Fresh) (hm : m.head.headers = hs0.append k (v ++ crlf ++ l))
    (hbody : ∃ cw, m.body.finish c = ({ internal := some bd, cw := cw }, true))
    (h0 : OneLine m.head.f0) (h1 : OneLine m.head.f1) (h2 : OneLine m.head.f2) :
    ∃ m' bytes, encodeResponse c ord m = (m', some bytes) ∧
      splitHead bytes = some ([statusLine m.head.f0 m.head.f1 m.head.f2, headerText k v, l,
        headerText b!"content-length" (natToBytes bd.length)], bd) := by
  obtain ⟨m', e⟩ := written_one c ord m k (v ++ crlf ++ l) bd ⟨hk.1, hk.2.1⟩ hs0 hf hm hbody
  refine ⟨m', _, e, ?_⟩
  have := scanLines_lines [statusLine m.head.f0 m.head.f1 m.head.f2, headerText k v, l,
        headerText b!"content-length" (natToBytes bd.length)] (by
    intro x hx
    simp only [List.mem_cons, List.not_mem_nil, or_false] at hx
    rcases hx with rfl | rfl | rfl | rfl
    · exact ⟨((h0.append (t := [32]) (by decide)).append h1).append (t := [32]) (by decide) |>.append h2, by simp [statusLine]⟩
    · exact ⟨(hk.2.2.append (t := [58, 32]) (by decide)).append hv, by simp [headerText]⟩
    · exact hl
    · exact ⟨Spec.OneLine.append (s := b!"content-length: ") (by decide) (natToBytes_oneLine _), by simp [headerText]⟩) [] bd
  rw [splitHead]
  simp only [List.reverse_nil, List.nil_append] at this
  rw [← this]
  congr 1
  simp [responseBytes, headerLines, headerLine, statusLine, headerText, crlf]

/-- **C29 is violated**: a value with an empty line ends the head; what follows it in the value is taken as the body, before the
real headers and body. -/
theorem C29_split_response_violated {K : Type} (c : Codec K) (ord : List Pair → List Pair) (m : Message K) (k v x bd : Bytes)
    (hk : k ≠ [] ∧ k ≠ b!"content-length" ∧ OneLine k) (hv : OneLine v)
    (hs0 : MultiMap) (hf : hs0.Fresh) (hm : m.head.headers = hs0.append k (v ++ crlf ++ crlf ++ x))
    (hbody : ∃ cw, m.body.finish c = ({ internal := some bd, cw := cw }, true))
    (h0 : OneLine m.head.f0) (h1 : OneLine m.head.f1) (h2 : OneLine m.head.f2) :
    ∃ m' bytes, encodeResponse c ord m = (m', some bytes) ∧
      splitHead bytes = some ([statusLine m.head.f0 m.head.f1 m.head.f2, headerText k v],
        x ++ crlf ++ headerText b!"content-length" (natToBytes bd.length) ++ crlf ++ crlf ++ bd) := by
  obtain ⟨m', e⟩ := written_one c ord m k (v ++ crlf ++ crlf ++ x) bd ⟨hk.1, hk.2.1⟩ hs0 hf hm hbody
  refine ⟨m', _, e, ?_⟩
  have := scanLines_lines [statusLine m.head.f0 m.head.f1 m.head.f2, headerText k v] (by
    intro x hx
    simp only [List.mem_cons, List.not_mem_nil, or_false] at hx
    rcases hx with rfl | rfl
    · exact ⟨((h0.append (t := [32]) (by decide)).append h1).append (t := [32]) (by decide) |>.append h2, by simp [statusLine]⟩
    · exact ⟨(hk.2.2.append (t := [58, 32]) (by decide)).append hv, by simp [headerText]⟩) []
    (x ++ crlf ++ headerText b!"content-length" (natToBytes bd.length) ++ crlf ++ crlf ++ bd)
  rw [splitHead]
  simp only [List.reverse_nil, List.nil_append] at this
  rw [← this]
  congr 1
  simp [responseBytes, headerLines, headerLine, statusLine, headerText, crlf]

/-! ## C27 -/

/-- The Content-Length lines among header lines (names compared without regard to case). -/
def contentLengthLines (lines : List Bytes) : List Bytes := lines.filter (fun l => lineName l = b!"content-length")

theorem lineName_headerText (k v : Bytes) (h : 58 ∉ k) : lineName (headerText k v) = lower k := by
  have : (headerText k v).takeWhile (fun b => b ≠ 58) = k := by
    simp only [headerText, List.append_assoc]
    rw [List.takeWhile_append_of_pos]
    · simp
    · intro b hb
      simp only [decide_eq_true_eq]
      exact fun e => h (e ▸ hb)
  rw [lineName, this]

theorem contentLength_linesOf (names : List Bytes) (a : HeaderMap) (n : Bytes) (hnd : names.Nodup)
    (hcl : a b!"content-length" = some [n]) (hmem : b!"content-length" ∈ names) (h58 : ∀ k ∈ names, 58 ∉ k)
    (hcase : ∀ k ∈ names, lower k = b!"content-length" → k = b!"content-length") :
    contentLengthLines (linesOf names a) = [headerText b!"content-length" n] := by
  have none_ : ∀ names : List Bytes, (∀ k ∈ names, 58 ∉ k) →
      (∀ k ∈ names, lower k ≠ b!"content-length") → contentLengthLines (linesOf names a) = [] := by
    intro names h58 hc
    rw [contentLengthLines, List.filter_eq_nil_iff]
    intro l hl
    simp only [linesOf, List.mem_flatMap, List.mem_map] at hl
    obtain ⟨k, hk, v, _, rfl⟩ := hl
    rw [lineName_headerText k v (h58 k hk)]
    simpa using hc k hk
  induction names with
  | nil => cases hmem
  | cons k names ih =>
    have e : contentLengthLines (linesOf (k :: names) a) =
        contentLengthLines (((a k).getD []).map (headerText k)) ++ contentLengthLines (linesOf names a) := by
      simp [contentLengthLines, linesOf]
    rw [e]
    simp only [List.nodup_cons] at hnd
    by_cases hk : k = b!"content-length"
    · subst hk
      rw [none_ names (fun k hk => h58 k (by simp [hk])) (fun k hk hc => by
        have := hcase k (by simp [hk]) hc
        exact hnd.1 (this ▸ hk))]
      rw [hcl]
      simp only [Option.getD_some, List.map_cons, List.map_nil, List.append_nil, contentLengthLines]
      rw [List.filter_cons_of_pos]
      · rfl
      · rw [lineName_headerText _ _ (by decide)]; decide
    · have hl : ∀ l ∈ ((a k).getD []).map (headerText k), ¬ (decide (lineName l = b!"content-length")) = true := by
        intro l hl
        simp only [List.mem_map] at hl
        obtain ⟨v, _, rfl⟩ := hl
        rw [lineName_headerText k v (h58 k (by simp))]
        simp only [decide_eq_true_eq]
        exact fun hc => hk (hcase k (by simp) hc)
      have : contentLengthLines (((a k).getD []).map (headerText k)) = [] := by
        rw [contentLengthLines, List.filter_eq_nil_iff]; exact hl
      rw [this, List.nil_append]
      refine ih hnd.2 ?_ (fun k hk => h58 k (by simp [hk])) (fun k hk => hcase k (by simp [hk]))
      simp only [List.mem_cons] at hmem
      exact hmem.resolve_left (fun h => hk h.symm)

/-- **C27 (partial).** For every history of set, append, remove, clear and each_mut, any number of headers, any body and
iteration order: if names and values have no line breaks, names no colons, and no name other than `content-length` itself
equals it up to letter case, the written response has exactly one Content-Length line, with the length of the body that
follows the blank line, whatever Content-Length the service had set. Missing: histories with delete, and names differing
only in case (both violate the property, below). -/
theorem C27_self_delimiting_partial {K : Type} (c : Codec K) (ord : List Pair → List Pair) (hord : IsOrder ord) (m : Message K)
    (ops : List HeaderOp) (hb : BuiltBy ops m.head.headers)
    (hn : ∀ op ∈ ops, op.nameNonempty) (hd : ∀ op ∈ ops, op.notDelete) (bd : Bytes)
    (hbody : ∃ cw, m.body.finish c = ({ internal := some bd, cw := cw }, true))
    (h0 : OneLine m.head.f0) (h1 : OneLine m.head.f1) (h2 : OneLine m.head.f2)
    (hone : HeaderMapOneLine (run ops HeaderMap.empty))
    (hcolon : ∀ k, run ops HeaderMap.empty k ≠ none → 58 ∉ k)
    (hcase : ∀ k, run ops HeaderMap.empty k ≠ none → lower k = b!"content-length" → k = b!"content-length") :
    ∃ m' bytes lines, encodeResponse c ord m = (m', some bytes) ∧
      splitHead bytes = some (statusLine m.head.f0 m.head.f1 m.head.f2 :: lines, bd) ∧
      contentLengthLines lines = [headerText b!"content-length" (natToBytes bd.length)] ∧
      Numeral (natToBytes bd.length) bd.length := by
  obtain ⟨m', bytes, names, e1, e2, e3, e4⟩ := C29_lines_partial c ord hord m ops hb hn hd bd hbody h0 h1 h2 hone
  have hmem : ∀ k ∈ names, k ≠ b!"content-length" → run ops HeaderMap.empty k ≠ none := by
    intro k hk hne
    have := (e4 k).mp hk
    rwa [intended_other _ _ _ hne] at this
  refine ⟨m', bytes, _, e1, e2, contentLength_linesOf names _ _ e3 (intended_cl _ _) ?_ ?_ ?_, natToBytes_numeral _⟩
  · rw [e4, intended_cl]; simp
  · intro k hk
    by_cases hne : k = b!"content-length"
    · rw [hne]; decide
    · exact hcolon k (hmem k hk hne)
  · intro k hk hl
    by_cases hne : k = b!"content-length"
    · exact hne
    · exact hcase k (hmem k hk hne) hl

/-- **C27 (partial), exactly.** For every history of set, append, remove, clear and each_mut, if names and values have no line breaks: the written
response has exactly one Content-Length line, with the length of the body, if and only if no other header with a value has a name that reads
`content-length` up to its first colon, ignoring case. -/
theorem C27_exactly_partial {K : Type} (c : Codec K) (ord : List Pair → List Pair) (hord : IsOrder ord) (m : Message K)
    (ops : List HeaderOp) (hb : BuiltBy ops m.head.headers)
    (hn : ∀ op ∈ ops, op.nameNonempty) (hd : ∀ op ∈ ops, op.notDelete) (bd : Bytes)
    (hbody : ∃ cw, m.body.finish c = ({ internal := some bd, cw := cw }, true))
    (h0 : OneLine m.head.f0) (h1 : OneLine m.head.f1) (h2 : OneLine m.head.f2)
    (hone : HeaderMapOneLine (run ops HeaderMap.empty)) :
    ∃ m' bytes lines, encodeResponse c ord m = (m', some bytes) ∧
      splitHead bytes = some (statusLine m.head.f0 m.head.f1 m.head.f2 :: lines, bd) ∧
      headerText b!"content-length" (natToBytes bd.length) ∈ contentLengthLines lines ∧
      (contentLengthLines lines = [headerText b!"content-length" (natToBytes bd.length)] ↔
        ∀ k v, k ≠ b!"content-length" → v ∈ (run ops HeaderMap.empty k).getD [] → lower (k.takeWhile (fun b => b ≠ 58)) ≠ b!"content-length") := by
  obtain ⟨m', bytes, names, e1, e2, e3, e4⟩ := C29_lines_partial c ord hord m ops hb hn hd bd hbody h0 h1 h2 hone
  have hcl : b!"content-length" ∈ names := by rw [e4, intended_cl]; simp
  obtain ⟨a, b, rfl⟩ := List.append_of_mem hcl
  have hname : ∀ k v, lineName (headerText k v) = lower (k.takeWhile (fun b => b ≠ 58)) := by
    intro k v
    unfold lineName headerText
    congr 1
    induction k with
    | nil => rfl
    | cons x xs ih =>
      by_cases hx : x = 58
      · subst hx; rfl
      · simp only [List.cons_append, List.takeWhile_cons, ne_eq, hx, not_false_eq_true, decide_true, ↓reduceIte, List.cons.injEq, true_and]
        simpa using ih
  have hab : ∀ k, k ∈ a ∨ k ∈ b → k ≠ b!"content-length" := by
    rintro k hk rfl
    rw [List.nodup_append, List.nodup_cons] at e3
    rcases hk with hk | hk
    · exact e3.2.2 _ hk _ (List.mem_cons_self ..) rfl
    · exact e3.2.1.1 hk
  have hnil : ∀ l : List Bytes, (∀ k ∈ l, k ≠ b!"content-length") → (contentLengthLines (linesOf l (intended ops bd.length)) = [] ↔
      ∀ k ∈ l, ∀ v ∈ (run ops HeaderMap.empty k).getD [], lower (k.takeWhile (fun b => b ≠ 58)) ≠ b!"content-length") := by
    intro l hl
    simp only [contentLengthLines, linesOf, List.filter_eq_nil_iff, List.mem_flatMap, List.mem_map]
    constructor
    · intro h k hk v hv he
      have := h (headerText k v) ⟨k, hk, v, by rw [intended_other _ _ _ (hl k hk)]; exact hv, rfl⟩
      rw [hname, he] at this
      exact this (by decide)
    · rintro h _ ⟨k, hk, v, hv, rfl⟩
      rw [intended_other _ _ _ (hl k hk)] at hv
      rw [hname]
      simpa using h k hk v hv
  have hsplit : contentLengthLines (linesOf (a ++ b!"content-length" :: b) (intended ops bd.length)) =
      contentLengthLines (linesOf a (intended ops bd.length)) ++ [headerText b!"content-length" (natToBytes bd.length)] ++
        contentLengthLines (linesOf b (intended ops bd.length)) := by
    simp only [contentLengthLines, linesOf, List.flatMap_append, List.flatMap_cons, List.filter_append, intended_cl, Option.getD_some, List.map_cons,
      List.map_nil, List.append_assoc]
    congr 2
  refine ⟨m', bytes, _, e1, e2, by rw [hsplit]; simp, ?_⟩
  rw [hsplit]
  constructor
  · intro h k v hk hv
    have hlen := congrArg List.length h
    simp only [List.length_append, List.length_cons, List.length_nil] at hlen
    have ha := (hnil a (fun k hk => hab k (.inl hk))).mp (List.length_eq_zero_iff.mp (by omega))
    have hb' := (hnil b (fun k hk => hab k (.inr hk))).mp (List.length_eq_zero_iff.mp (by omega))
    have hm : k ∈ a ++ b!"content-length" :: b := by
      rw [e4, intended_other _ _ _ hk]
      intro hn
      rw [hn] at hv
      cases hv
    simp only [List.mem_append, List.mem_cons, hk, false_or] at hm
    exact hm.elim (fun hm => ha k hm v hv) (fun hm => hb' k hm v hv)
  · intro h
    rw [(hnil a (fun k hk => hab k (.inl hk))).mpr (fun k hk v hv => h k v (hab k (.inl hk)) hv),
      (hnil b (fun k hk => hab k (.inr hk))).mpr (fun k hk v hv => h k v (hab k (.inr hk)) hv)]
    rfl

/-- **C27 is violated**: after a header was deleted, the response has no Content-Length line at all; the length is written in a
line without a name. For every name and value. -/
theorem C27_after_delete_violated {K : Type} (c : Codec K) (ord : List Pair → List Pair) (m : Message K) (k v bd : Bytes)
    (hk : k ≠ []) (hs0 : MultiMap) (hf : hs0.Fresh) (hm : m.head.headers = (hs0.append k v).delete k)
    (hbody : ∃ cw, m.body.finish c = ({ internal := some bd, cw := cw }, true))
    (h0 : OneLine m.head.f0) (h1 : OneLine m.head.f1) (h2 : OneLine m.head.f2) :
    ∃ m' bytes lines, encodeResponse c ord m = (m', some bytes) ∧
      splitHead bytes = some (statusLine m.head.f0 m.head.f1 m.head.f2 :: lines, bd) ∧
      contentLengthLines lines = [] ∧ lines = [headerText [] (natToBytes bd.length)] := by
  obtain ⟨cw, hfin⟩ := hbody
  have e1 : hs0.append k v = { ismap := false, vec := [(k, [v])], map := hs0.map } := by
    rw [append_vec hs0 hf.1 (by rw [hf.2.1]; decide), hf.2.1]
    simp [upsert, hf.1]
  have e2 : (hs0.append k v).delete k = { ismap := false, vec := [([], [])], map := hs0.map } := by
    rw [e1, delete_vec _ rfl]
    simp [updFirst]
  have e3 : ((hs0.append k v).delete k).set b!"content-length" (natToBytes bd.length) =
      { ismap := false, vec := [([], [natToBytes bd.length])], map := hs0.map } := by
    rw [e2, set_vec _ rfl]
    simp [upsert]
  have e4 : encodeResponse c ord m = ((encodeResponse c ord m).1, some (responseBytes m.head.f0 m.head.f1 m.head.f2
      [([], [natToBytes bd.length])] bd)) := by
    rw [encodeResponse_ok c ord m (by rw [hfin]), hfin, hm]
    show (_, some (responseBytes _ _ _
      ((((hs0.append k v).delete k).set b!"content-length" (natToBytes bd.length)).entries ord) bd)) = _
    rw [e3]
    rfl
  refine ⟨_, _, _, e4, ?_, ?_, rfl⟩
  · rw [splitHead_response _ _ _ _ _ h0 h1 h2]
    · rfl
    · intro p hp
      simp only [List.mem_singleton] at hp
      subst hp
      exact ⟨(by decide : OneLine []), fun v hv => by simp only [List.mem_singleton] at hv; rw [hv]; exact natToBytes_oneLine _⟩
  · rw [contentLengthLines, List.filter_eq_nil_iff]
    intro l hl
    simp only [List.mem_singleton] at hl
    rw [hl, lineName_headerText _ _ (by decide)]
    decide

/-- **C27 is violated**: a service that sets the header as `Content-Length` (any spelling that is not all lower case) produces a
response with two Content-Length lines, the first with whatever value the service gave. -/
theorem C27_case_violated {K : Type} (c : Codec K) (ord : List Pair → List Pair) (m : Message K) (k v bd : Bytes)
    (hk : k ≠ b!"content-length" ∧ lower k = b!"content-length") (hv : OneLine v)
    (hs0 : MultiMap) (hf : hs0.Fresh) (hm : m.head.headers = hs0.append k v)
    (hbody : ∃ cw, m.body.finish c = ({ internal := some bd, cw := cw }, true))
    (h0 : OneLine m.head.f0) (h1 : OneLine m.head.f1) (h2 : OneLine m.head.f2) :
    ∃ m' bytes lines, encodeResponse c ord m = (m', some bytes) ∧
      splitHead bytes = some (statusLine m.head.f0 m.head.f1 m.head.f2 :: lines, bd) ∧
      contentLengthLines lines = [headerText k v, headerText b!"content-length" (natToBytes bd.length)] := by
  have hlow : ∀ b : Byte, lowerByte b ∈ b!"content-length" → b ≠ 58 ∧ b ≠ 13 ∧ b ≠ 10 := by
    apply forall_byte; decide +kernel
  have hbk : ∀ b ∈ k, b ≠ 58 ∧ b ≠ 13 ∧ b ≠ 10 := by
    intro b hb
    apply hlow
    rw [← hk.2]
    exact List.mem_map.mpr ⟨b, hb, rfl⟩
  have hone : OneLine k := ⟨fun h => (hbk _ h).2.1 rfl, fun h => (hbk _ h).2.2 rfl⟩
  have h58 : 58 ∉ k := fun h => (hbk _ h).1 rfl
  have hne : k ≠ [] := by intro h; rw [h] at hk; exact absurd hk.2 (by decide)
  obtain ⟨m', e⟩ := written_one c ord m k v bd ⟨hne, hk.1⟩ hs0 hf hm hbody
  refine ⟨m', _, _, e, splitHead_response _ _ _ _ _ h0 h1 h2 ?_, ?_⟩
  · intro p hp
    simp only [List.mem_cons, List.not_mem_nil, or_false] at hp
    rcases hp with rfl | rfl
    · exact ⟨hone, fun x hx => by simp only [List.mem_singleton] at hx; rw [hx]; exact hv⟩
    · exact ⟨(by decide : OneLine b!"content-length"),
        fun x hx => by simp only [List.mem_singleton] at hx; rw [hx]; exact natToBytes_oneLine _⟩
  · simp only [contentLengthLines, entryLines, List.flatMap_cons, List.flatMap_nil, List.map_cons, List.map_nil, List.append_nil,
      List.cons_append, List.nil_append]
    rw [List.filter_cons_of_pos, List.filter_cons_of_pos]
    · rfl
    · rw [lineName_headerText _ _ (by decide)]; decide
    · rw [lineName_headerText _ _ h58, hk.2]; decide

/-! ## C28 -/

/-- The fields of a written response as they appear on the wire. -/
def entryFields (ps : List Pair) : List Field := ps.flatMap (fun p => p.2.map (fun v => ⟨p.1, v, 1, 0⟩))

theorem responseBytes_wire (f0 f1 f2 : Bytes) (ps : List Pair) (body : Bytes) :
    responseBytes f0 f1 f2 ps body = (WireHead.mk f0 f1 f2 (entryFields ps)).encode ++ body := by
  have : headerLines ps = ((entryFields ps).map Field.line).flatten := by
    induction ps with
    | nil => rfl
    | cons p ps ih =>
      have e : headerLines (p :: ps) = (p.2.map (headerLine p.1)).flatten ++ headerLines ps := by simp [headerLines]
      rw [e, ih]
      simp only [entryFields, List.flatMap_cons, List.map_append, List.flatten_append, List.map_map]
      congr 2
      apply List.map_congr_left
      intro v _
      simp [headerLine, Field.line]
  simp [responseBytes, this, WireHead.encode, WireHead.start, encodeFields]

theorem valuesOf_entryFields (ps : List Pair) (k : Bytes) (vs : List Bytes) (hnd : (ps.map (·.1)).Nodup)
    (hmem : (k, vs) ∈ ps) (hinj : ∀ p ∈ ps, lower p.1 = lower k → p.1 = k) :
    valuesOf (entryFields ps) (lower k) = vs := by
  have none_ : ∀ ps : List Pair, (∀ p ∈ ps, lower p.1 ≠ lower k) → valuesOf (entryFields ps) (lower k) = [] := by
    intro ps h
    simp only [valuesOf, List.map_eq_nil_iff, List.filter_eq_nil_iff]
    intro f hf
    simp only [entryFields, List.mem_flatMap, List.mem_map] at hf
    obtain ⟨p, hp, v, _, rfl⟩ := hf
    simpa using h p hp
  induction ps with
  | nil => cases hmem
  | cons p ps ih =>
    have e : valuesOf (entryFields (p :: ps)) (lower k) =
        valuesOf (p.2.map (fun v => ⟨p.1, v, 1, 0⟩)) (lower k) ++ valuesOf (entryFields ps) (lower k) := by
      simp [valuesOf, entryFields]
    rw [e]
    simp only [List.map_cons, List.nodup_cons] at hnd
    by_cases hk : p.1 = k
    · have hrest : ∀ q ∈ ps, lower q.1 ≠ lower k := by
        intro q hq hl
        have := hinj q (by simp [hq]) hl
        exact hnd.1 (List.mem_map.mpr ⟨q, hq, by rw [this, hk]⟩)
      rw [none_ ps hrest, List.append_nil]
      have hp : p = (k, vs) := by
        simp only [List.mem_cons] at hmem
        rcases hmem with h | h
        · exact h.symm
        · exact absurd rfl (hrest _ h)
      subst hp
      simp only [valuesOf]
      rw [List.filter_eq_self.mpr]
      · rw [List.map_map]; exact List.map_id vs
      · intro f hf
        simp only [List.mem_map] at hf
        obtain ⟨v, _, rfl⟩ := hf
        simp
    · have h1 : valuesOf (p.2.map (fun v => ⟨p.1, v, 1, 0⟩)) (lower k) = [] := by
        simp only [valuesOf, List.map_eq_nil_iff, List.filter_eq_nil_iff]
        intro f hf
        simp only [List.mem_map] at hf
        obtain ⟨v, _, rfl⟩ := hf
        simp only [decide_eq_true_eq]
        exact fun h => hk (hinj p (by simp) h)
      rw [h1, List.nil_append]
      refine ih hnd.2 ?_ (fun q hq => hinj q (by simp [hq]))
      simp only [List.mem_cons] at hmem
      rcases hmem with h | h
      · exact absurd (by rw [← h]) hk
      · exact h

/-- Header names and values that fit on the wire and within the reader's limit for a line. -/
def HeaderMapWF (maxLine : Nat) (a : HeaderMap) : Prop :=
  ∀ k vs, a k = some vs → ∀ v ∈ vs, (Field.mk k v 1 0).WF maxLine

/-- **C28.** A response with a well-formed start line and well-formed headers (names pairwise different ignoring case), any
number of them, built by any history of set, append, remove, clear and each_mut, with any body, written in any iteration order
and arriving in any segmentation followed by anything, is read back by the head and body reader: same start line; under each
name the same values in order; nothing under other names; same body; exactly the response is consumed. -/
theorem C28_round_trip {K K' : Type} (c : Codec K) (ord : List Pair → List Pair) (hord : IsOrder ord) (m : Message K)
    (ops : List HeaderOp) (hb : BuiltBy ops m.head.headers)
    (hn : ∀ op ∈ ops, op.nameNonempty) (hd : ∀ op ∈ ops, op.notDelete) (bd : Bytes) (h64 : bd.length < 2 ^ 64)
    (hbody : ∃ cw, m.body.finish c = ({ internal := some bd, cw := cw }, true))
    (lim : HttpLimits) (hcount : 1 ≤ lim.maxHeadersCount) (hline : 38 ≤ lim.maxHeaderLine)
    (hst : (WireHead.mk m.head.f0 m.head.f1 m.head.f2 []).StartWF lim.maxUrl)
    (hwf : HeaderMapWF lim.maxHeaderLine (run ops HeaderMap.empty))
    (hinj : ∀ k k', intended ops bd.length k ≠ none → intended ops bd.length k' ≠ none → lower k = lower k' → k = k')
    (hd0 : Head) (hblank : hd0.Blank) (b0 : Body K') (hplain : b0.internal = some []) (cap : Nat) (hcap : 1 ≤ cap) :
    ∃ m' bytes, encodeResponse c ord m = (m', some bytes) ∧
      ∀ (r : Reader) (s : Bytes), r.flat = bytes ++ s →
        ∃ hd' r1 b' r2, readHead lim hd0 r = .ok (hd', r1) ∧ readConstLengthBody cap hd'.headers b0 r1 = .done b' r2 ∧
          hd'.f0 = m.head.f0 ∧ hd'.f1 = m.head.f1 ∧ hd'.f2 = m.head.f2 ∧
          (∀ k, intended ops bd.length k ≠ none →
            (hd'.headers.getall (lower k)).getD [] = (intended ops bd.length k).getD []) ∧
          (∀ x, (∀ k, intended ops bd.length k ≠ none → lower k ≠ x) → hd'.headers.getall x = none) ∧
          b'.internal = some bd ∧ r2.flat = s ∧ r2.fin = r.fin := by
  obtain ⟨m', ps, e1, e2, e3⟩ := response_written c ord hord m ops hb hn hd bd hbody
  refine ⟨m', _, e1, fun r s hr => ?_⟩
  rw [responseBytes_wire, List.append_assoc] at hr
  have hvis : ∀ y, IsDigit y → IsVisible y ∧ y ≠ 58 ∧ IsText y ∧ y ≠ 32 := by
    apply forall_byte; decide +kernel
  have hfields : ∀ f ∈ entryFields ps, f.WF lim.maxHeaderLine := by
    intro f hf
    simp only [entryFields, List.mem_flatMap, List.mem_map] at hf
    obtain ⟨p, hp, v, hv, rfl⟩ := hf
    have hp' := (e3 p.1 p.2).mp hp
    by_cases hk : p.1 = b!"content-length"
    · have := intended_cl ops bd.length
      rw [hk] at hp' ⊢
      rw [intended, hp'] at this
      simp only [Option.some.injEq] at this
      rw [this] at hv
      simp only [List.mem_singleton] at hv
      have hdg := natToBytes_digits bd.length
      have hlen := natToBytes_length bd.length 20 (by omega) (by omega)
      rw [hv]
      refine ⟨(by decide : b!"content-length" ≠ []), (by decide : ∀ b ∈ b!"content-length", IsVisible b ∧ b ≠ 58),
        (by decide : (b!"content-length").length ≤ 256), fun b hb => (hvis b (hdg b hb)).2.2.1, ?_, ?_, by simp, ?_⟩
      · intro h
        exact (hvis 32 (hdg 32 (List.mem_of_mem_head? h))).2.2.2 rfl
      · intro h
        exact (hvis 32 (hdg 32 (List.mem_of_getLast? h))).2.2.2 rfl
      · simp [Field.line]; omega
    · have hi := intended_other ops bd.length p.1 hk
      rw [intended, hp'] at hi
      exact hwf p.1 p.2 hi.symm v hv
  obtain ⟨r1, g1, g2, g3⟩ := readHead_wire lim (WireHead.mk m.head.f0 m.head.f1 m.head.f2 (entryFields ps))
    ⟨hst.w0_vis, hst.w0_len, hst.w1_vis, hst.w1_len, hst.w2_text, hst.w2_ne, hst.w2_len⟩ hfields (by omega) (Or.inr hcount) hd0
    ⟨hblank.f0, hblank.f1, hblank.f2⟩ r (bd ++ s) hr
  have hget : ∀ k, (storeFields hd0.headers (entryFields ps)).getall k = lookupFields (entryFields ps) k :=
    fun k => storeFields_getall _ hblank.headers _ (fun f hf => (hfields f hf).name_ne) k
  have hin : ∀ k vs, intended ops bd.length k = some vs → valuesOf (entryFields ps) (lower k) = vs := by
    intro k vs hk
    refine valuesOf_entryFields ps k vs e2 ((e3 k vs).mpr hk) (fun p hp hl => ?_)
    refine hinj p.1 k ?_ (by rw [hk]; simp) hl
    rw [intended, (e3 p.1 p.2).mp hp]; simp
  have hcl : getContentLength (storeFields hd0.headers (entryFields ps)) = some bd.length := by
    rw [getContentLength_of_fields hget]
    have : valuesOf (entryFields ps) b!"content-length" = [natToBytes bd.length] :=
      hin b!"content-length" _ (intended_cl ops bd.length)
    simp only [announced, this, List.head?_cons]
    exact parseUInt_natToBytes _ _ (by simp only [u64Max]; omega)
  obtain ⟨r2, k1, k2, k3⟩ := C14_exact_body cap hcap b0 [] hplain r1 bd.length bd s rfl g2
  refine ⟨_, r1, { b0 with internal := some ([] ++ bd) }, r2, g1, ?_, rfl, rfl, rfl, ?_, ?_, rfl, k2, by rw [k3, g3]⟩
  · simp only [readConstLengthBody, hcl]
    exact k1
  · intro k hk
    obtain ⟨vs, hvs⟩ := Option.ne_none_iff_exists'.mp hk
    show ((storeFields hd0.headers (entryFields ps)).getall (lower k)).getD [] = _
    rw [hget, lookupFields, hin k vs hvs, hvs]
    cases vs <;> rfl
  · intro x hx
    show (storeFields hd0.headers (entryFields ps)).getall x = none
    rw [hget, lookupFields]
    have : valuesOf (entryFields ps) x = [] := by
      simp only [valuesOf, List.map_eq_nil_iff, List.filter_eq_nil_iff]
      intro f hf
      simp only [entryFields, List.mem_flatMap, List.mem_map] at hf
      obtain ⟨p, hp, v, _, rfl⟩ := hf
      simp only [decide_eq_true_eq]
      refine hx p.1 ?_
      rw [intended, (e3 p.1 p.2).mp hp]; simp
    rw [this]

/-- Non-trivial case of C27–C29: three headers (one twice, one set by the service to a wrong length), a body of 12 bytes. -/
def sampleOps : List HeaderOp :=
  [.append b!"server" b!"httpd.rs", .append b!"x-a" b!"1", .set b!"content-length" b!"99", .append b!"x-a" b!"2"]

/-- The response built with it. -/
def sampleResp : Message Unit :=
  { head := { f0 := b!"HTTP/1.1", f1 := b!"200", f2 := b!"OK", headers := MultiMap.new.runOps sampleOps }
    body := { internal := some b!"Hello world!", cw := none } }

theorem sampleResp_built : BuiltBy sampleOps sampleResp.head.headers := ⟨MultiMap.new, fresh_new, steps_runOps _ _⟩

example : (∀ op ∈ sampleOps, op.nameNonempty) ∧ (∀ op ∈ sampleOps, op.notDelete) ∧
    (∃ cw, sampleResp.body.finish noCodec = ({ internal := some b!"Hello world!", cw := cw }, true)) := by
  refine ⟨?_, ?_, none, rfl⟩ <;>
  · intro op ho
    simp only [sampleOps, List.mem_cons, List.not_mem_nil, or_false] at ho
    rcases ho with rfl | rfl | rfl | rfl <;> simp [HeaderOp.nameNonempty, HeaderOp.notDelete]

/-- What the map of the sample history is. -/
theorem sampleOps_run (k : Bytes) : run sampleOps HeaderMap.empty k =
    if k = b!"x-a" then some [b!"1", b!"2"] else if k = b!"content-length" then some [b!"99"]
    else if k = b!"server" then some [b!"httpd.rs"] else none := by
  simp only [run, sampleOps, List.foldl_cons, List.foldl_nil, HeaderOp.apply, HeaderMap.empty]
  by_cases h1 : k = b!"x-a"
  · subst h1; decide
  · by_cases h2 : k = b!"content-length"
    · subst h2; decide
    · by_cases h3 : k = b!"server"
      · subst h3; decide
      · simp [h1, h2, h3]

/-- The hypotheses of C27 and C29 on names and values hold for it. -/
example : HeaderMapOneLine (run sampleOps HeaderMap.empty) ∧
    (∀ k, run sampleOps HeaderMap.empty k ≠ none → 58 ∉ k ∧ (lower k = b!"content-length" → k = b!"content-length")) := by
  refine ⟨?_, ?_⟩
  · intro k vs h
    rw [sampleOps_run] at h
    split at h
    · next e => cases h; subst e; decide
    · split at h
      · next e => cases h; subst e; decide
      · split at h
        · next e => cases h; subst e; decide
        · cases h
  · intro k h
    rw [sampleOps_run] at h
    split at h
    · next e => subst e; decide
    · split at h
      · next e => subst e; decide
      · split at h
        · next e => subst e; decide
        · exact absurd rfl h

/-- Both sides of `C27_exactly_partial`: with the sample history there is no such name; after one more append there is, spelled with a colon. -/
example : (∀ k v, k ≠ b!"content-length" → v ∈ (run sampleOps HeaderMap.empty k).getD [] → lower (k.takeWhile (fun b => b ≠ 58)) ≠ b!"content-length") ∧
    ¬ (∀ k v, k ≠ b!"content-length" → v ∈ (run (sampleOps ++ [.append b!"Content-Length:5" b!"x"]) HeaderMap.empty k).getD [] →
      lower (k.takeWhile (fun b => b ≠ 58)) ≠ b!"content-length") := by
  refine ⟨?_, ?_⟩
  · intro k v hk hv
    rw [sampleOps_run] at hv
    split at hv
    · next e => subst e; decide
    · split at hv
      · next e => subst e; decide
      · cases hv
  · intro h
    exact h b!"Content-Length:5" b!"x" (by decide) (by decide) (by decide)

/-- And those of C28: the headers fit in lines of 6144 bytes, and the bytes are these. -/
example : HeaderMapWF 6144 (run sampleOps HeaderMap.empty) ∧
    (encodeResponse noCodec id sampleResp).2 =
      some b!"HTTP/1.1 200 OK\r\nserver: httpd.rs\r\nx-a: 1\r\nx-a: 2\r\ncontent-length: 12\r\n\r\nHello world!" := by
  refine ⟨?_, by decide +kernel⟩
  intro k vs h
  rw [sampleOps_run] at h
  have mk : ∀ k v : Bytes, k ≠ [] → (∀ b ∈ k, IsVisible b ∧ b ≠ 58) → k.length ≤ 20 → (∀ b ∈ v, IsText b) → v.length ≤ 20 →
      v.head? ≠ some 32 → v.getLast? ≠ some 32 → (Field.mk k v 1 0).WF 6144 := fun k v h1 h2 h3 h4 h5 h6 h7 =>
    ⟨h1, h2, by show k.length ≤ 256; omega, h4, h6, h7, by simp, by simp [Field.line]; omega⟩
  split at h
  · next e => cases h; subst e; intro v hv; simp only [List.mem_cons, List.not_mem_nil, or_false] at hv
              rcases hv with rfl | rfl <;> apply mk <;> decide
  · split at h
    · next e => cases h; subst e; intro v hv; simp only [List.mem_cons, List.not_mem_nil, or_false] at hv
                subst hv; apply mk <;> decide
    · split at h
      · next e => cases h; subst e; intro v hv; simp only [List.mem_cons, List.not_mem_nil, or_false] at hv
                  subst hv; apply mk <;> decide
      · cases h

/-- A response with an injected header, and one with a deleted header. -/
example : (encodeResponse noCodec id { sampleResp with head := { sampleResp.head with
      headers := MultiMap.new.append b!"location" b!"/a\r\nset-cookie: admin=1" } }).2.bind splitHead =
    some ([b!"HTTP/1.1 200 OK", b!"location: /a", b!"set-cookie: admin=1", b!"content-length: 12"], b!"Hello world!") ∧
    (encodeResponse noCodec id { sampleResp with head := { sampleResp.head with
      headers := (MultiMap.new.append b!"server" b!"httpd.rs").delete b!"server" } }).2.bind splitHead =
    some ([b!"HTTP/1.1 200 OK", b!": 12"], b!"Hello world!") := by decide +kernel

end Httpd
