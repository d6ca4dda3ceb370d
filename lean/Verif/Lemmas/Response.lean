import Verif.Lemmas.Serve
import Verif.Spec.Response
/-! # Facts about written responses -/

namespace Httpd
open Spec MultiMap

theorem scanLines_line (cur : Bytes) (ls : List Bytes) (l s : Bytes) (hl : OneLine l) (hne : l.reverse ++ cur ≠ []) :
    scanLines cur ls (l ++ 13 :: 10 :: s) = scanLines [] ((l.reverse ++ cur).reverse :: ls) s := by
  induction l generalizing cur with
  | nil =>
    simp only [List.reverse_nil, List.nil_append] at hne
    simp [scanLines, hne]
  | cons b l ih =>
    have hb : b ≠ 13 := fun h => hl.1 (by simp [h])
    have hl' : OneLine l := ⟨fun h => hl.1 (by simp [h]), fun h => hl.2 (by simp [h])⟩
    have : scanLines cur ls (b :: (l ++ 13 :: 10 :: s)) = scanLines (b :: cur) ls (l ++ 13 :: 10 :: s) := by
      rw [scanLines]
      intro s' hs' _
      exact absurd hs' hb
    rw [List.cons_append, this, ih _ hl' (by simp)]
    simp

/-- Lines without line breaks are split where they were joined. -/
theorem scanLines_lines (ls : List Bytes) (h : ∀ l ∈ ls, OneLine l ∧ l ≠ []) (acc : List Bytes) (s : Bytes) :
    scanLines [] acc ((ls.map (fun l => l ++ crlf)).flatten ++ crlf ++ s) = some (acc.reverse ++ ls, s) := by
  induction ls generalizing acc with
  | nil => simp [scanLines, crlf]
  | cons l ls ih =>
    obtain ⟨h1, h2⟩ := h l (by simp)
    have := scanLines_line [] acc l ((ls.map (fun l => l ++ crlf)).flatten ++ crlf ++ s) h1 (by simpa using h2)
    simp only [List.map_cons, List.flatten_cons, List.append_assoc, crlf, List.cons_append, List.nil_append] at this ⊢
    rw [this]
    have := ih (fun l hl => h l (by simp [hl])) (l :: acc)
    simp only [List.append_assoc, crlf, List.cons_append, List.nil_append] at this
    simp [this]

/-- The lines of a list of entries. -/
def entryLines (ps : List Pair) : List Bytes := ps.flatMap (fun p => p.2.map (headerText p.1))

theorem headerLines_eq (ps : List Pair) : headerLines ps = ((entryLines ps).map (fun l => l ++ crlf)).flatten := by
  induction ps with
  | nil => rfl
  | cons p ps ih =>
    have e : headerLines (p :: ps) = (p.2.map (headerLine p.1)).flatten ++ headerLines ps := by simp [headerLines]
    rw [e, ih]
    simp only [entryLines, List.flatMap_cons, List.map_append, List.flatten_append, List.map_map]
    congr 2

theorem responseBytes_eq (f0 f1 f2 : Bytes) (ps : List Pair) (body : Bytes) :
    responseBytes f0 f1 f2 ps body =
      ((statusLine f0 f1 f2 :: entryLines ps).map (fun l => l ++ crlf)).flatten ++ crlf ++ body := by
  simp [responseBytes, headerLines_eq, statusLine]

theorem Spec.OneLine.append {s t : Bytes} (hs : OneLine s) (ht : OneLine t) : OneLine (s ++ t) := by
  simp only [OneLine, List.mem_append, not_or] at *
  exact ⟨⟨hs.1, ht.1⟩, ⟨hs.2, ht.2⟩⟩

theorem splitHead_response (f0 f1 f2 : Bytes) (ps : List Pair) (body : Bytes) (h0 : OneLine f0) (h1 : OneLine f1)
    (h2 : OneLine f2) (hp : ∀ p ∈ ps, OneLine p.1 ∧ ∀ v ∈ p.2, OneLine v) :
    splitHead (responseBytes f0 f1 f2 ps body) = some (statusLine f0 f1 f2 :: entryLines ps, body) := by
  rw [splitHead, responseBytes_eq, scanLines_lines]
  · rfl
  · intro l hl
    simp only [List.mem_cons, entryLines, List.mem_flatMap, List.mem_map] at hl
    rcases hl with rfl | ⟨p, hp', v, hv, rfl⟩
    · exact ⟨((h0.append (by decide)).append h1).append (by decide) |>.append h2, by simp [statusLine]⟩
    · exact ⟨(((hp p hp').1).append (by decide)).append ((hp p hp').2 v hv), by simp [headerText]⟩

/-- The service built the headers of its response by the history `ops` on an empty (new or cleared) header table. -/
def BuiltBy (ops : List HeaderOp) (hs : MultiMap) : Prop := ∃ hs0 : MultiMap, hs0.Fresh ∧ Steps hs0 ops hs

theorem steps_snoc {m m' : MultiMap} {ops : List HeaderOp} (hs : Steps m ops m') (ord) (hord : IsOrder ord) (op : HeaderOp) :
    Steps m (ops ++ [op]) (applyOp ord m' op) := by
  induction hs with
  | nil m => exact Steps.cons ord hord (Steps.nil _)
  | cons ord' hord' _ ih => exact Steps.cons ord' hord' ih

theorem run_snoc (ops : List HeaderOp) (op : HeaderOp) (a : HeaderMap) : run (ops ++ [op]) a = op.apply (run ops a) := by
  simp [run]

/-- Entries of a header table built without delete. -/
theorem built_entries {ops : List HeaderOp} {m : MultiMap} (hb : BuiltBy ops m)
    (hn : ∀ op ∈ ops, op.nameNonempty) (hd : ∀ op ∈ ops, op.notDelete)
    (ord : List Pair → List Pair) (hord : IsOrder ord) :
    ((m.entries ord).map (·.1)).Nodup ∧
    ∀ k vs, (k, vs) ∈ m.entries ord ↔ Spec.run ops Spec.HeaderMap.empty k = some vs := by
  obtain ⟨hs0, hf, hs⟩ := hb
  have hinv := steps_inv hs hn hd hf.inv Spec.HeaderMap.empty (fun k => hf.getall k)
  cases hm : m.ismap with
  | true =>
    obtain ⟨_, hnd, _⟩ := hinv.1.mapMode hm
    have hp := hord m.table
    have he : m.entries ord = ord m.table := by simp [entries, hm]
    rw [he]
    refine ⟨(hp.map _).nodup_iff.mpr hnd, fun k vs => ?_⟩
    rw [hp.mem_iff, ← hmGet_some_iff _ hnd, ← getall_map m hm, hinv.2]
  | false =>
    have hnd := hinv.1.nodup_vec hm
    have he : m.entries ord = m.vec := by simp [entries, hm]
    rw [he]
    refine ⟨hnd, fun k vs => ?_⟩
    rw [← hmGet_some_iff _ hnd, ← getall_vec m hm, hinv.2]

theorem entryLines_eq (ps : List Pair) (m : HeaderMap) (h : ∀ k vs, (k, vs) ∈ ps → m k = some vs) :
    entryLines ps = linesOf (ps.map (·.1)) m := by
  induction ps with
  | nil => rfl
  | cons p ps ih =>
    have e := h p.1 p.2 (by simp)
    simp only [entryLines, linesOf, List.flatMap_cons, List.map_cons, e, Option.getD_some] at ih ⊢
    rw [ih (fun k vs hk => h k vs (by simp [hk]))]

/-- What is written for a response, in terms of the plain map of its headers. -/
theorem response_written {K : Type} (c : Codec K) (ord : List Pair → List Pair) (hord : IsOrder ord) (m : Message K)
    (ops : List HeaderOp) (hb : BuiltBy ops m.head.headers)
    (hn : ∀ op ∈ ops, op.nameNonempty) (hd : ∀ op ∈ ops, op.notDelete) (bd : Bytes)
    (hbody : ∃ cw, m.body.finish c = ({ internal := some bd, cw := cw }, true)) :
    ∃ m' ps, encodeResponse c ord m = (m', some (responseBytes m.head.f0 m.head.f1 m.head.f2 ps bd)) ∧
      (ps.map (·.1)).Nodup ∧
      (∀ k vs, (k, vs) ∈ ps ↔
        (HeaderOp.set b!"content-length" (natToBytes bd.length)).apply (run ops HeaderMap.empty) k = some vs) := by
  obtain ⟨cw, hfin⟩ := hbody
  have hb' : BuiltBy (ops ++ [.set b!"content-length" (natToBytes bd.length)])
      (m.head.headers.set b!"content-length" (natToBytes bd.length)) := by
    obtain ⟨hs0, hf, hs⟩ := hb
    exact ⟨hs0, hf, steps_snoc hs ord hord _⟩
  have hn' : ∀ op ∈ ops ++ [.set b!"content-length" (natToBytes bd.length)], op.nameNonempty := by
    intro op ho
    simp only [List.mem_append, List.mem_singleton] at ho
    rcases ho with ho | rfl
    · exact hn op ho
    · simp [HeaderOp.nameNonempty]
  have hd' : ∀ op ∈ ops ++ [.set b!"content-length" (natToBytes bd.length)], op.notDelete := by
    intro op ho
    simp only [List.mem_append, List.mem_singleton] at ho
    rcases ho with ho | rfl
    · exact hd op ho
    · trivial
  obtain ⟨h1, h2⟩ := built_entries hb' hn' hd' ord hord
  rw [run_snoc] at h2
  refine ⟨(encodeResponse c ord m).1, _, ?_, h1, h2⟩
  rw [encodeResponse_ok c ord m (by rw [hfin]), hfin]
  rfl

end Httpd
