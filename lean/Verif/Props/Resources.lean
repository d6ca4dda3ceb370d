import Verif.Spec.Resources
import Verif.Props.Serve
import Verif.Props.Services
import Verif.Props.Head
import Verif.Props.ConnLog
import Verif.Lemmas.Grammar
/-!
# The memory a connection needs (C166)

What is kept of a request while it is handled: start line, header names and values, body (src/message.rs:136-141). A connection has one
request and one response message, which it clears and uses again (src/serve.rs:32-33, 46-47).
-/

namespace Httpd
open Spec MultiMap

/-- The bytes of a message, its headers visited in the order `ord`. -/
def Message.held {K : Type} (ord : List Pair → List Pair) (m : Message K) : Nat :=
  m.head.f0.length + m.head.f1.length + m.head.f2.length + fieldsHeld (m.head.headers.entries ord) + m.body.size

/-! ## Headers -/

theorem fieldsHeld_cons (e : Pair) (l : List Pair) :
    fieldsHeld (e :: l) = e.1.length + (e.2.map (·.length + 1)).sum + fieldsHeld l := by simp [fieldsHeld]

theorem fieldsHeld_append (l l' : List Pair) : fieldsHeld (l ++ l') = fieldsHeld l + fieldsHeld l' := by
  simp [fieldsHeld]

theorem fieldsHeld_perm {l l' : List Pair} (h : l.Perm l') : fieldsHeld l = fieldsHeld l' := by
  unfold fieldsHeld
  induction h with
  | nil => rfl
  | cons x _ ih => simp [ih]
  | swap x y l => simp; omega
  | trans _ _ ih1 ih2 => rw [ih1, ih2]

theorem valueCount_perm {l l' : List Pair} (h : l.Perm l') : valueCount l = valueCount l' := by
  unfold valueCount
  induction h with
  | nil => rfl
  | cons x _ ih => simp [ih]
  | swap x y l => simp; omega
  | trans _ _ ih1 ih2 => rw [ih1, ih2]

/-- The bytes in a table of headers. -/
def mapHeld (m : MultiMap) : Nat := fieldsHeld m.vec + fieldsHeld m.table

theorem held_hmInsert (l : List Pair) (k : Bytes) (vs : List Bytes) :
    fieldsHeld (hmInsert l k vs) + (hmGet l k).elim 0 (fun ws => k.length + (ws.map (·.length + 1)).sum) =
      fieldsHeld l + (k.length + (vs.map (·.length + 1)).sum) := by
  induction l with
  | nil => simp [hmInsert, hmGet, fieldsHeld]
  | cons a l ih =>
    obtain ⟨k', ws⟩ := a
    by_cases h : k' = k
    · subst h
      simp only [hmInsert, hmGet, if_true, fieldsHeld_cons, Option.elim_some]
      omega
    · simp only [hmInsert, hmGet, if_neg h, fieldsHeld_cons]
      omega

theorem held_foldl_insert (l t : List Pair) :
    fieldsHeld (l.foldl (fun t e => hmInsert t e.1 e.2) t) ≤ fieldsHeld l + fieldsHeld t := by
  induction l generalizing t with
  | nil => simp [fieldsHeld]
  | cons a l ih =>
    have h1 := ih (hmInsert t a.1 a.2)
    have h2 := held_hmInsert t a.1 a.2
    rw [List.foldl_cons, fieldsHeld_cons]
    omega

theorem held_mapAppend (m : MultiMap) (k v : Bytes) : mapHeld (m.mapAppend k v) ≤ mapHeld m + k.length + v.length + 1 := by
  unfold mapHeld
  rw [mapAppend_vec, mapAppend_table]
  have h := held_hmInsert m.table k ((hmGet m.table k).getD [] ++ [v])
  cases hg : hmGet m.table k with
  | none => rw [hg] at h; simp at h ⊢; omega
  | some ws => rw [hg] at h; simp at h ⊢; omega

theorem held_upsert (p : Pair → Bool) (g : Pair → Pair) (x : Pair) (l : List Pair) (d : Nat)
    (hg : ∀ e ∈ l, (g e).1.length + ((g e).2.map (·.length + 1)).sum ≤ e.1.length + (e.2.map (·.length + 1)).sum + d)
    (hx : x.1.length + (x.2.map (·.length + 1)).sum ≤ d) : fieldsHeld (upsert p g x l) ≤ fieldsHeld l + d := by
  induction l with
  | nil => simp [upsert, fieldsHeld]; omega
  | cons a l ih =>
    have h1 := hg a (by simp)
    have h2 := ih (fun e he => hg e (by simp [he]))
    simp only [upsert]
    split <;> simp only [fieldsHeld_cons] <;> omega

theorem held_append (m : MultiMap) (k v : Bytes) : mapHeld (m.append k v) ≤ mapHeld m + k.length + v.length + 1 := by
  by_cases hm : m.ismap = true
  · simp only [MultiMap.append, hm, if_true]
    exact held_mapAppend m k v
  · rw [Bool.not_eq_true] at hm
    by_cases hl : 36 ≤ m.vec.length
    · simp only [MultiMap.append, hm, hl, if_true]
      have h1 := held_mapAppend m.tomap k v
      have h2 := held_foldl_insert m.vec m.table
      have h3 : mapHeld m.tomap = fieldsHeld (m.vec.foldl (fun t e => hmInsert t e.1 e.2) m.table) := by
        simp [mapHeld, MultiMap.tomap, MultiMap.table, fieldsHeld]
      simp only [Bool.false_eq_true, if_false]
      unfold mapHeld at h1 h3 ⊢
      omega
    · rw [append_vec m hm (by omega)]
      have h := held_upsert (fun e => e.1 == k || e.1.isEmpty) (fun e => (if e.1.isEmpty then k else e.1, e.2 ++ [v])) (k, [v]) m.vec
        (k.length + v.length + 1)
        (by
          intro e _
          simp only [List.map_append, List.sum_append, List.map_cons, List.map_nil, List.sum_cons, List.sum_nil]
          split <;> omega)
        (by simp; omega)
      have e1 : ∀ l, mapHeld { m with vec := l } = fieldsHeld l + fieldsHeld m.table := fun _ => rfl
      rw [e1]
      unfold mapHeld
      omega

theorem held_storePairs (m : MultiMap) (fs : List (Bytes × Bytes)) :
    mapHeld (storePairs m fs) ≤ mapHeld m + (fs.map fun f => f.1.length + f.2.length + 1).sum := by
  induction fs generalizing m with
  | nil => simp [storePairs]
  | cons f fs ih =>
    have h1 := ih (m.append f.1 f.2)
    have h2 := held_append m f.1 f.2
    simp only [storePairs, List.foldl_cons, List.map_cons, List.sum_cons] at h1 ⊢
    omega

theorem held_entries (m : MultiMap) (ord : List Pair → List Pair) (ho : IsOrder ord) : fieldsHeld (m.entries ord) ≤ mapHeld m := by
  unfold entries mapHeld
  split
  · rw [fieldsHeld_perm (ho _)]; omega
  · omega

theorem stripped_length {s t : Bytes} (h : Stripped s t) : t.length ≤ s.length := by
  obtain ⟨i, j, rfl, _⟩ := h; simp; omega

/-- What a header section stores is less than what it is written as. -/
theorem section_held {maxLine maxCount : Nat} {closed : Bool} {s rest : Bytes} {fs : List (Bytes × Bytes)}
    (h : Section maxLine maxCount closed s fs rest) :
    (fs.map fun f => f.1.length + f.2.length + 1).sum + rest.length ≤ s.length := by
  induction h with
  | stop => simp only [List.map_nil, List.sum_nil, List.length_append]; omega
  | skip l x y s fs rest _ _ _ _ _ _ ih => simp only [List.length_append] at ih ⊢; omega
  | field n v n' v' x y s fs rest _ _ _ _ _ _ _ h1 h2 _ ih =>
    have a1 := stripped_length h1
    have a2 := stripped_length h2
    have a3 : (lower n').length = n'.length := by simp [lower]
    simp only [List.map_cons, List.sum_cons, List.length_append, List.length_cons] at ih ⊢
    omega

/-- What is kept of a head is less than what it is written as. -/
theorem readHead_held (lim : HttpLimits) (hd hd' : Head) (hb : hd.Blank) (r r' : Reader) (h : readHead lim hd r = .ok (hd', r'))
    (ord : List Pair → List Pair) (ho : IsOrder ord) :
    hd'.f0.length + hd'.f1.length + hd'.f2.length + fieldsHeld (hd'.headers.entries ord) + r'.flat.length ≤ r.flat.length := by
  obtain ⟨fs, h1, h2, _⟩ := readHead_headText lim hd hd' ⟨hb.f0, hb.f1, hb.f2⟩ r r' h
  have h3 := held_entries hd'.headers ord ho
  have h4 := held_storePairs hd.headers fs
  have h5 : mapHeld hd.headers = 0 := by
    unfold mapHeld
    rw [hb.headers.2.1, hb.headers.2.2]; rfl
  rw [← h2, h5] at h4
  generalize hs : r.flat = s at h1
  generalize hw0 : hd'.f0 = w0 at h1
  generalize hw1 : hd'.f1 = w1 at h1
  generalize hw2 : hd'.f2 = w2 at h1
  generalize hrest : r'.flat = rest at h1
  cases h1 with
  | mk _ _ _ a b x y s fs rest _ _ _ _ _ _ _ _ hsec =>
    have h6 := section_held hsec
    simp only [List.length_append] at h6 ⊢
    omega

/-! ## Requests -/

theorem serveLoop_held {K : Type} (c : Codec K) (lim : HttpLimits) (env : Nat → Env K) (hk : ∀ j, KeepsReqBody (env j))
    (ord : List Pair → List Pair) (ho : IsOrder ord) (fuel i : Nat) (req resp : Message K) (r : Reader) (hb : req.head.Blank)
    (x : Bytes) (hp : req.body.Plain) (hx : req.body.internal = some x) :
    ∀ ex ∈ (serveLoop c lim env fuel i req resp r).1, ex.req.held ord ≤ x.length + r.flat.length := by
  induction fuel generalizing i req resp r x with
  | zero => intro ex he; simp [serveLoop] at he
  | succ fuel ih =>
    intro ex he
    simp only [serveLoop] at he
    split at he
    · cases he
    · next head r1 h1 =>
      have hh := readHead_held lim req.head head hb r r1 h1 ord ho
      split at he
      · cases he
      · cases he
      · cases he
      · next body r2 h2 =>
        obtain ⟨n, _, hn, hf, _, hcw, hin⟩ := readConstLengthBody_done (env i).cap_pos h2
        have hbx : body.internal = some (x ++ r1.flat.take n) := by rw [hin, hx]; rfl
        have hr2 : r2.flat.length + n = r1.flat.length := by rw [hf, List.length_drop]; omega
        have hlen : (x ++ r1.flat.take n).length + r2.flat.length = x.length + r1.flat.length := by
          rw [List.length_append, List.length_take]; omega
        have hthis : ∀ w, (⟨⟨head, body⟩, w⟩ : Exchange K).req.held ord ≤ x.length + r.flat.length := by
          intro w
          simp only [Message.held, Body.size, hbx]
          omega
        have one : ∀ w (y : Ending), ex ∈ (([⟨⟨head, body⟩, w⟩], y) : List (Exchange K) × Ending).1 →
            ex.req.held ord ≤ x.length + r.flat.length := by
          intro w y h
          simp only [List.mem_singleton] at h
          rw [h]; exact hthis w
        split at he
        · exact one _ _ he
        · exact one _ _ he
        · next p req2 resp2 h3 =>
          have hkb := hk i _ _ _ _ _ h3
          split at he
          · exact one _ _ he
          · next resp3 bytes h4 =>
            split at he
            · exact one _ _ he
            · split at he
              · rcases List.mem_cons.mp he with rfl | he
                · exact hthis _
                · have hpl : body.Plain := ⟨by rw [hbx]; rfl, by rw [hcw]; exact hp.2⟩
                  have hcl : (req2.clear c).body = body := by
                    show req2.body.clear c = body
                    rw [hkb]; exact Body.clear_plain c hpl
                  have := ih (i + 1) (req2.clear c) (resp3.clear c) r2 (Head.blank_clear _) (x ++ r1.flat.take n)
                    (by rw [hcl]; exact hpl) (by rw [hcl]; exact hbx) ex he
                  omega
              · exact one _ _ he
              · exact one _ _ he
              · exact one _ _ he

/-- What a list of headers read from lines of at most `maxHeaderLine` bytes takes up, by the number of its values. -/
theorem readHead_held_lines (lim : HttpLimits) (hd hd' : Head) (hb : hd.Blank) (r r' : Reader) (h : readHead lim hd r = .ok (hd', r'))
    (ord : List Pair → List Pair) (ho : IsOrder ord) :
    fieldsHeld (hd'.headers.entries ord) ≤ valueCount (hd'.headers.entries ord) * lim.maxHeaderLine := by
  obtain ⟨⟨p⟩, _⟩ := readHead_ok h
  have hall : hd'.headers.AllE (fun e => e.1.length + (e.2.map (·.length + 1)).sum ≤ e.2.length * lim.maxHeaderLine) := by
    refine p.lines.allE (AllE_fresh hb.headers) ?_
    intro hs n v hR _ _ _ _ _ hl
    have h1 := trimSp_length_le (n.map toAsciiLower)
    have h2 := trimSp_length_le v
    rw [List.length_map] at h1
    refine AllE_append hR _ _ (by simp; omega) ?_ ?_
    · intro vs hvs
      simp only [List.map_append, List.sum_append, List.map_cons, List.map_nil, List.sum_cons, List.sum_nil, List.length_append,
        List.length_cons, List.length_nil, Nat.add_mul] at hvs ⊢
      omega
    · intro vs hvs
      simp only [List.map_append, List.sum_append, List.map_cons, List.map_nil, List.sum_cons, List.sum_nil, List.length_append,
        List.length_cons, List.length_nil, Nat.add_mul] at hvs ⊢
      omega
  have hent := AllE_entries hall ord ho
  generalize hd'.headers.entries ord = l at hent
  induction l with
  | nil => simp [fieldsHeld]
  | cons e l ih =>
    have h1 := hent e (by simp)
    have h2 := ih (fun e he => hent e (by simp [he]))
    rw [fieldsHeld_cons]
    simp only [valueCount, List.map_cons, List.sum_cons, Nat.add_mul] at h2 ⊢
    omega

/-- **C166 (partial).** While a request is handled, what is kept of it and of the bodies before it is no more than the client has sent
on the connection, for every input and every service that leaves the bodies of requests alone; and it is bounded by the limits, the
number of header values and the size of the body. Missing: that these two are bounded, which is false (`C166_headers_violated`,
`C166_requests_violated`, `C166_no_bound_violated`). -/
theorem C166_received_partial {K : Type} (c : Codec K) (lim : HttpLimits) (env : Nat → Env K) (r : Reader) (ex : Exchange K)
    (hex : ex ∈ (serve c lim env r).1) (ord : List Pair → List Pair) (ho : IsOrder ord) :
    ((∀ j, KeepsReqBody (env j)) → ex.req.held ord ≤ r.flat.length) ∧
    ex.req.held ord < 255 + lim.maxUrl + valueCount (ex.req.head.headers.entries ord) * lim.maxHeaderLine + ex.req.body.size := by
  refine ⟨fun hk => ?_, ?_⟩
  · have := serveLoop_held c lim env hk ord ho _ 0 Message.new Message.new r Head.blank_new [] Body.plain_new rfl ex hex
    simpa using this
  · obtain ⟨hd0, r0, r1, h0, h1⟩ := serveLoop_heads c lim env _ 0 Message.new Message.new Head.blank_new r ex hex
    have h2 := readHead_held_lines lim hd0 _ h0 r0 r1 h1 ord ho
    obtain ⟨a, b, d, _⟩ := C07_sizes_partial lim hd0 _ h0 r0 r1 h1
    unfold Message.held
    omega

theorem held_hmGet {l : List Pair} {k : Bytes} {vs : List Bytes} (h : hmGet l k = some vs) :
    k.length + (vs.map (·.length + 1)).sum ≤ fieldsHeld l := by
  induction l with
  | nil => simp [hmGet] at h
  | cons a l ih =>
    obtain ⟨k', ws⟩ := a
    rw [fieldsHeld_cons]
    simp only [hmGet] at h
    split at h
    · next hk => injection h with h; subst hk; subst h; simp only; omega
    · have := ih h; omega

theorem held_getall {m : MultiMap} {k : Bytes} {vs : List Bytes} (h : m.getall k = some vs) (ord : List Pair → List Pair)
    (ho : IsOrder ord) : (vs.map (·.length + 1)).sum ≤ fieldsHeld (m.entries ord) := by
  unfold entries
  cases hm : m.ismap with
  | true =>
    rw [getall_map m hm] at h
    have := held_hmGet h
    rw [if_pos rfl, fieldsHeld_perm (ho _)]; omega
  | false =>
    rw [getall_vec m hm] at h
    have := held_hmGet h
    simp only [Bool.false_eq_true, if_false]; omega

/-- **C166**, negation for the code as written, header fields: one request takes up more with every header line it has, whatever the
limit on their number (unless it is 0), and reaches the service. -/
theorem C166_headers_violated {K : Type} (c : Codec K) (lim : HttpLimits) (env : Nat → Env K) (hmx : 1 ≤ lim.maxHeadersCount)
    (h2 : 2 ≤ lim.maxHeaderLine) (w : WireHead) (hst : w.StartWF lim.maxUrl) (f : Field) (hf : f.WF lim.maxHeaderLine)
    (hcl : lower f.name ≠ b!"content-length") (n : Nat) (hfs : w.fields = List.replicate (n + 1) f) (r : Reader)
    (hr : r.flat = w.encode) :
    ∃ ex, (serve c lim env r).1[0]? = some ex ∧ ∀ ord, IsOrder ord → (n + 1) * (f.value.length + 1) ≤ ex.req.held ord := by
  obtain ⟨hd, r1, h1, hget⟩ := C06_count_ignored_violated lim hmx w hst
    (by intro g hg; rw [hfs] at hg; rw [List.eq_of_mem_replicate hg]; exact hf) h2 r [] (by rw [hr, List.append_nil])
  have hval : ∀ k m, valuesOf (List.replicate m f) k = if lower f.name = k then List.replicate m f.value else [] := by
    intro k m
    unfold valuesOf
    rw [List.filter_replicate]
    by_cases hk : lower f.name = k <;> simp [hk]
  have hnone : hd.headers.getall b!"content-length" = none := by
    rw [hget, hfs]
    unfold lookupFields
    rw [hval, if_neg hcl]
  have hsome : hd.headers.getall (lower f.name) = some (List.replicate (n + 1) f.value) := by
    rw [hget, hfs]
    unfold lookupFields
    rw [hval, if_pos rfl]
    rfl
  have hbody : readConstLengthBody (env 0).cap hd.headers (Message.new : Message K).body r1 = .done Body.new r1 := by
    have : getContentLength hd.headers = some 0 := by simp [getContentLength, MultiMap.get, hnone]
    simp only [readConstLengthBody, this, readConst]
    rfl
  obtain ⟨x, rest, e, hx⟩ := serveLoop_delivers c lim env r.flat.length 0 Message.new Message.new r r1 r1 hd Body.new h1 hbody
  refine ⟨⟨⟨hd, Body.new⟩, x⟩, ?_, ?_⟩
  · unfold serve; rw [hx]; rfl
  · intro ord ho
    have := held_getall hsome ord ho
    rw [List.map_replicate, List.sum_replicate_nat] at this
    unfold Message.held
    simp only
    omega

/-- The bodies of well-formed requests pile up, as far as the connection gets. -/
theorem serveLoop_bodies {K : Type} (c : Codec K) (lim : HttpLimits) (env : Nat → Env K) (hk : ∀ j, KeepsReqBody (env j))
    (qs : List WireReq) (hq : ∀ q ∈ qs, q.WF lim.maxUrl lim.maxHeaderLine lim.maxHeadersCount) (fuel i : Nat)
    (req resp : Message K) (r : Reader) (hb : req.head.Blank) (x : Bytes) (hp : req.body.Plain) (hx : req.body.internal = some x)
    (hr : r.flat = encodeAll qs) (j : Nat) (ex : Exchange K) (hj : (serveLoop c lim env fuel i req resp r).1[j]? = some ex) :
    ex.req.body.internal = some (x ++ ((qs.take (j + 1)).map WireReq.body).flatten) := by
  induction qs generalizing fuel i req resp r x j with
  | nil =>
    cases fuel with
    | zero => simp [serveLoop] at hj
    | succ fuel => simp [serveLoop, readHead_empty lim req.head r (by simpa [encodeAll] using hr)] at hj
  | cons q qs ih =>
    cases fuel with
    | zero => simp [serveLoop] at hj
    | succ fuel =>
      obtain ⟨hd, r1, r2, x', h1, h2, h3, _, h4, _⟩ := read_request lim q (hq q (by simp)) (env i).cap (env i).cap_pos req hb hp r
        (encodeAll qs) (by rw [hr]; simp [encodeAll])
      obtain rfl : x' = x := by rw [hx] at h2; injection h2 with h2; exact h2.symm
      cases j with
      | zero =>
        obtain ⟨w, rest, e, hd'⟩ := serveLoop_delivers c lim env fuel i req resp r r1 r2 hd _ h1 h3
        rw [hd'] at hj
        simp only [List.getElem?_cons_zero, Option.some.injEq] at hj
        rw [← hj]; simp
      | succ j =>
        simp only [serveLoop, h1, h3] at hj
        split at hj
        · simp at hj
        · simp at hj
        · next p req2 resp2 hh =>
          have hkb := hk i _ _ _ _ _ hh
          split at hj
          · simp at hj
          · next resp3 bytes _ =>
            split at hj
            · simp at hj
            · split at hj
              · have hcl : (req2.clear c).body = { internal := some (x' ++ q.body), cw := none } := by
                  show req2.body.clear c = _
                  rw [hkb]; exact Body.clear_plain c ⟨rfl, rfl⟩
                have := ih (fun q' h => hq q' (by simp [h])) fuel (i + 1) (req2.clear c) (resp3.clear c) r2 (Head.blank_clear _)
                  (x' ++ q.body) (by rw [hcl]; exact ⟨rfl, rfl⟩) (by rw [hcl]) h4 j (by simpa using hj)
                rw [this]; simp
              · simp at hj
              · simp at hj
              · simp at hj

/-- **C166**, negation for the code as written, bodies: the same small request again and again. With the `n`th one the service - any
that leaves the bodies of requests alone and that answers that many - holds the bodies of all of them. -/
theorem C166_requests_violated {K : Type} (c : Codec K) (lim : HttpLimits) (env : Nat → Env K) (hk : ∀ j, KeepsReqBody (env j))
    (q : WireReq) (hq : q.WF lim.maxUrl lim.maxHeaderLine lim.maxHeadersCount) (n : Nat) (r : Reader)
    (hr : r.flat = encodeAll (List.replicate (n + 1) q)) (hlen : n < (serve c lim env r).1.length) :
    ∃ ex, (serve c lim env r).1[n]? = some ex ∧ ∀ ord, (n + 1) * q.body.length ≤ ex.req.held ord := by
  refine ⟨_, List.getElem?_eq_getElem hlen, fun ord => ?_⟩
  have := serveLoop_bodies c lim env hk (List.replicate (n + 1) q)
    (by intro q' h; rw [List.eq_of_mem_replicate h]; exact hq) _ 0 Message.new Message.new r Head.blank_new [] Body.plain_new rfl hr n _
    (List.getElem?_eq_getElem hlen)
  unfold Message.held Body.size
  unfold serve at *
  rw [this]
  simp only [List.take_replicate, Nat.min_self, List.nil_append, List.map_replicate, List.length_flatten, List.sum_replicate_nat]
  omega

theorem hello_keepsReqBody {K : Type} (e : Env K) (he : e.http = helloHttp) : KeepsReqBody e := by
  intro req resp p req2 resp2 h
  rw [he] at h
  simp only [helloHttp] at h
  split at h
  · cases h
  · injection h with _ h _; rw [← h]

theorem fs_keepsReqBody {K : Type} (e : Env K) (he : e.http = fsHttp) : KeepsReqBody e := by
  intro req resp p req2 resp2 h
  rw [he] at h
  simp only [fsHttp] at h
  injection h with _ h _; rw [← h]

/-- **C166 is violated**: whatever the limits - each request is within them - there is no bound on what the hello-world service and the
file-system service hold of a client's requests. -/
theorem C166_no_bound_violated {K : Type} (c : Codec K) (lim : HttpLimits) (env : Nat → Env K)
    (he : ∀ j, ((env j).http = helloHttp ∨ (env j).http = fsHttp) ∧ (env j).write = .ok) (hone : ∀ j, (env j).http = (env 0).http)
    (q : WireReq) (hq : q.WF lim.maxUrl lim.maxHeaderLine lim.maxHeadersCount) (hq1 : q.body ≠ []) (hopen : ¬ helloCloses q.head.w2)
    (bound : Nat) :
    ∃ n, ∀ r : Reader, r.flat = encodeAll (List.replicate n q) →
      ∃ ex ∈ (serve c lim env r).1, ∀ ord, bound < ex.req.held ord := by
  refine ⟨bound + 1, fun r hr => ?_⟩
  have hlen : bound < (serve c lim env r).1.length := by
    have hall : ∀ q' ∈ List.replicate (bound + 1) q, q' = q := fun q' h => List.eq_of_mem_replicate h
    rcases (he 0).1 with h0 | h0
    · have := ((C78_hello_transcript c lim env (fun j => ⟨by rw [hone, h0], (he j).2⟩) (List.replicate (bound + 1) q)
        (fun q' h => by rw [hall q' h]; exact hq) (fun q' h => by rw [hall q' h]; exact hopen) r).1 hr).1
      have := congrArg List.length this
      simp at this
      omega
    · have := (C79_fs_transcript c lim env (fun j => ⟨by rw [hone, h0], (he j).2⟩) (List.replicate (bound + 1) q)
        (fun q' h => by rw [hall q' h]; exact hq) r hr).1
      have := congrArg List.length this
      simp at this
      omega
  obtain ⟨ex, h1, h2⟩ := C166_requests_violated c lim env
    (fun j => (he j).1.elim (hello_keepsReqBody _) (fs_keepsReqBody _)) q hq bound r hr hlen
  refine ⟨ex, List.mem_of_getElem? h1, fun ord => ?_⟩
  have h3 := h2 ord
  have h4 : 1 ≤ q.body.length := List.length_pos_iff.mpr hq1
  have h5 := Nat.mul_le_mul_left (bound + 1) h4
  omega

/-- Three equal requests of 51 bytes with bodies of 4: what is held with each of them. -/
example : (serve noCodec sampleLimits (fun _ => helloEnv) (Reader.ofBytes (encodeAll [sampleReq, sampleReq, sampleReq]) .eof)).1.map
    (fun ex => ex.req.held id) = [40, 44, 48] ∧ sampleReq.body.length = 4 ∧ sampleReq.encode.length = 51 ∧
    ¬ helloCloses sampleReq.head.w2 := by
  refine ⟨by decide +kernel, rfl, rfl, ?_⟩
  exact (hello_keepAlive _).mp (by decide +kernel)

/-- Three fields where one is allowed. -/
example : (serve noCodec { sampleLimits with maxHeadersCount := 1 } (fun _ => helloEnv)
    (Reader.ofBytes b!"GET / HTTP/1.1\r\na: b\r\na: b\r\na: b\r\n\r\n" .eof)).1.map
    (fun ex => (ex.req.held id, valueCount (ex.req.head.headers.entries id))) = [(19, 3)] := by decide +kernel

end Httpd
