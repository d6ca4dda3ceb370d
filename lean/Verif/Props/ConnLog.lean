import Verif.Spec.ConnLog
import Verif.Props.Body
import Verif.Lemmas.Response
import Verif.Props.Services
/-!
# C120-C123: the log of a connection
-/

namespace Httpd

open Httpd.Spec MultiMap

/-! ## C120 -/

theorem codeName_eq (c : ReadCode) : codeName c = c.debug := by cases c <;> rfl

theorem serveLogLoop_story {K : Type} (c : Codec K) (lim : HttpLimits) (env : Nat → Env K) (l : LogEnv K) (fuel i : Nat)
    (req resp : Message K) (r : Reader) :
    serveLogLoop c lim env l fuel i req resp r =
      (((serveLoop c lim env fuel i req resp r).1.map (·.req)).mapIdx (fun j q => l.service (i + j) q)).flatten ++
        endRecords l (i + (serveLoop c lim env fuel i req resp r).1.length) (serveLoop c lim env fuel i req resp r).2 := by
  induction fuel generalizing i req resp r with
  | zero => rfl
  | succ fuel ih =>
    simp only [serveLogLoop, serveLoop]
    cases hh : readHead lim req.head r with
    | error e => cases e <;> cases hd : l.debug <;> simp [headEnding, headLog, lostLog, endRecords, aboutConn, codeName_eq, hd]
    | ok x =>
      obtain ⟨hd, r1⟩ := x
      simp only
      cases hb : readConstLengthBody (env i).cap hd.headers req.body r1 with
      | fail e => cases e <;> cases hd : l.debug <;> simp [bodyEnding, bodyLog, lostLog, endRecords, aboutConn, codeName_eq, hd]
      | panic => simp [endRecords]
      | hang => simp [endRecords]
      | done body r2 =>
        simp only
        cases hs : (env i).http ⟨hd, body⟩ resp with
        | err => simp [endRecords, lostLog, aboutConn]
        | panic => simp [endRecords]
        | ok p req2 resp2 =>
          simp only
          rcases he : encodeResponse c (env i).ord resp2 with ⟨resp3, _ | bytes⟩
          · simp [endRecords, lostLog, aboutConn]
          · simp only
            cases hw : (env i).write with
            | failAfter k s => cases s <;> simp [endRecords, lostLog, aboutConn, writeEnding]
            | ok =>
              simp only
              cases p with
              | webSocket => simp [endRecords]
              | http2 => simp [endRecords]
              | current ka =>
                cases ka with
                | false => simp [endRecords, lostLog, aboutConn]
                | true =>
                  simp only
                  rw [ih]
                  simp only [List.map_cons, List.mapIdx_cons, List.flatten_cons, List.append_assoc, Nat.add_zero,
                    List.length_cons]
                  congr 2
                  · congr 2
                    funext j q
                    rw [Nat.add_assoc, Nat.add_comm 1 j]
                  · congr 1; omega

/-- **C120.** The log of a connection tells what happened on it: in a debug build that it was made, then for every request delivered, in
order, what the service says about it, then why the connection ended and that it was lost. In a release build the same without the
records about the connection and about refused requests. For every service, input, segmentation and behaviour of the peer. -/
theorem C120_story {K : Type} (c : Codec K) (lim : HttpLimits) (env : Nat → Env K) (l : LogEnv K) (r : Reader) :
    serveLog c lim env l r = story l ((serve c lim env r).1.map (·.req)) (serve c lim env r).2 := by
  unfold serveLog
  rw [serveLogLoop_story]
  simp only [story, serve, madeLog, aboutConn, Nat.zero_add, List.length_map, List.append_assoc]

theorem visit_all {σ : Type} (f : σ → Bytes → List Bytes → σ) (L : List Pair) (s : σ) :
    MultiMap.visit (fun s k vs => (f s k vs, true)) L s = L.foldl (fun s e => f s e.1 e.2) s := by
  induction L generalizing s with
  | nil => rfl
  | cons e L ih => obtain ⟨k, vs⟩ := e; simp [MultiMap.visit, ih]

theorem foldl_append_flatMap {α β : Type} (f : α → List β) (L : List α) (acc : List β) :
    L.foldl (fun s e => s ++ f e) acc = acc ++ L.flatMap f := by
  induction L generalizing acc with
  | nil => simp
  | cons e L ih => simp [ih]

/-- The records of the headers. -/
theorem hello_headers (m : MultiMap) (ord : List Pair → List Pair) (kv : List (Bytes × KvValue)) :
    m.each ord (fun acc k vs => (acc ++ vs.map (fun v => (⟨.trace, kv, k ++ b!": " ++ v⟩ : Rec)), true)) [] =
      (m.entries ord).flatMap (fun e => e.2.map (fun v => ⟨.trace, kv, e.1 ++ b!": " ++ v⟩)) := by
  unfold MultiMap.each
  rw [visit_all (fun acc k vs => acc ++ vs.map (fun v => (⟨.trace, kv, k ++ b!": " ++ v⟩ : Rec)))]
  rw [foldl_append_flatMap (fun e : Pair => e.2.map (fun v => (⟨.trace, kv, e.1 ++ b!": " ++ v⟩ : Rec)))]
  rfl

/-- Pairs of lists that agree key by key are the same up to order. -/
theorem perm_of_keys {α β : Type} [DecidableEq α] [DecidableEq β] (P F : List (α × β))
    (h : ∀ k, P.filter (fun p => p.1 = k) = F.filter (fun p => p.1 = k)) : P.Perm F := by
  rw [List.perm_iff_count]
  intro p
  have e := congrArg (List.count p) (h p.1)
  rwa [List.count_filter (by simp), List.count_filter (by simp)] at e

/-- One pair per value. -/
def flatPairs (L : List Pair) : List (Bytes × Bytes) := L.flatMap (fun e => e.2.map (fun v => (e.1, v)))

theorem flatPairs_filter (L : List Pair) (hn : (L.map (·.1)).Nodup) (k : Bytes) :
    ((∀ vs, (k, vs) ∉ L) → (flatPairs L).filter (fun p => p.1 = k) = []) ∧
    (∀ vs, (k, vs) ∈ L → (flatPairs L).filter (fun p => p.1 = k) = vs.map (fun v => (k, v))) := by
  induction L with
  | nil => exact ⟨fun _ => rfl, fun vs h => by cases h⟩
  | cons e L ih =>
    obtain ⟨k', vs'⟩ := e
    simp only [List.map_cons, List.nodup_cons] at hn
    obtain ⟨i1, i2⟩ := ih hn.2
    have hc : flatPairs ((k', vs') :: L) = vs'.map (fun v => (k', v)) ++ flatPairs L := by simp [flatPairs]
    rw [hc, List.filter_append]
    by_cases hk : k' = k
    · subst hk
      have hnot : ∀ vs, (k', vs) ∉ L := fun vs h => hn.1 (List.mem_map.mpr ⟨_, h, rfl⟩)
      have hall : (vs'.map (fun v => (k', v))).filter (fun p => decide (p.1 = k')) = vs'.map (fun v => (k', v)) := by
        rw [List.filter_eq_self]
        intro p hp
        obtain ⟨v, _, rfl⟩ := List.mem_map.mp hp
        simp
      rw [i1 hnot, hall, List.append_nil]
      refine ⟨fun h => absurd (List.mem_cons_self ..) (h vs'), fun vs h => ?_⟩
      rcases List.mem_cons.mp h with h | h
      · rw [(Prod.mk.inj h).2]
      · exact absurd h (hnot vs)
    · have hnone : (vs'.map (fun v => (k', v))).filter (fun p => decide (p.1 = k)) = [] := by
        rw [List.filter_eq_nil_iff]
        intro p hp
        obtain ⟨v, _, rfl⟩ := List.mem_map.mp hp
        simp [hk]
      rw [hnone, List.nil_append]
      refine ⟨fun h => i1 (fun vs hm => h vs (List.mem_cons_of_mem _ hm)), fun vs h => ?_⟩
      rcases List.mem_cons.mp h with h | h
      · exact absurd (Prod.mk.inj h).1.symm hk
      · exact i2 vs h

theorem fields_filter (fs : List Field) (k : Bytes) :
    (fs.map (fun f => (lower f.name, f.value))).filter (fun p => p.1 = k) = (valuesOf fs k).map (fun v => (k, v)) := by
  induction fs with
  | nil => rfl
  | cons f fs ih =>
    by_cases hk : lower f.name = k
    · simp only [valuesOf, List.map_cons, List.filter_cons, hk, decide_true, if_true] at ih ⊢
      rw [ih]
    · simp only [valuesOf, List.map_cons, List.filter_cons, hk, decide_false, Bool.false_eq_true, if_false] at ih ⊢
      exact ih

/-- The entries of a stored list of fields are these fields, up to order. -/
theorem stored_pairs (hs : MultiMap) (hf : hs.Fresh) (fs : List Field) (hn : ∀ f ∈ fs, f.name ≠ []) (ord : List Pair → List Pair)
    (hord : IsOrder ord) :
    (flatPairs ((storeFields hs fs).entries ord)).Perm (fs.map (fun f => (lower f.name, f.value))) := by
  obtain ⟨h1, h2⟩ := built_entries ⟨hs, hf, storeFields_steps hs fs⟩
    (by
      intro op hop
      obtain ⟨f, hfm, rfl⟩ := List.mem_map.mp hop
      exact lower_ne_nil (hn f hfm))
    (by
      intro op hop
      obtain ⟨f, hfm, rfl⟩ := List.mem_map.mp hop
      trivial) ord hord
  apply perm_of_keys
  intro k
  rw [fields_filter]
  obtain ⟨i1, i2⟩ := flatPairs_filter _ h1 k
  have hrun := run_fieldOps fs Spec.HeaderMap.empty k
  cases hv : valuesOf fs k with
  | nil =>
    rw [hv] at hrun
    rw [i1]
    · rfl
    · intro vs hm
      rw [h2, hrun] at hm
      simp [Spec.HeaderMap.empty] at hm
  | cons v vs =>
    rw [hv] at hrun
    exact i2 _ ((h2 _ _).mpr (by rw [hrun]; simp [Spec.HeaderMap.empty]))

/-- What hello-world says about the body of a request. -/
def bodyRecord (idx : Nat) (body : Bytes) : Rec :=
  if body = [] then ⟨.trace, [], b!"EmptyBody"⟩
  else if (decodeUtf8 body).isSome then
    ⟨.trace, [(b!"service", .ofNat idx)], b!"PrintableBody:\r\n---------------------\r\n" ++ body ++ b!"\r\n---------------------"⟩
  else ⟨.trace, [(b!"service", .ofNat idx)], b!"BinaryBody: " ++ natToBytes body.length⟩

theorem helloLog_eq {K : Type} (idx : Nat) (addr : Bytes) (ord : List Pair → List Pair) (req : Message K) (body : Bytes)
    (hb : req.body.internal = some body) :
    helloLog idx addr ord req =
      [⟨.trace, [(b!"service", .ofNat idx)], b!"Request From " ++ addr⟩,
       ⟨.trace, [], req.head.f0 ++ b!" " ++ req.head.f1 ++ b!" " ++ versionDebug (reqVersion req.head.f2)⟩] ++
      (flatPairs (req.head.headers.entries ord)).map (fun p => ⟨.trace, [(b!"service", .ofNat idx)], p.1 ++ b!": " ++ p.2⟩) ++
      [bodyRecord idx body] := by
  unfold helloLog
  simp only
  rw [hello_headers]
  congr 1
  · congr 1
    unfold flatPairs
    rw [List.map_flatMap]
    congr 1
    funext e
    rw [List.map_map]
    rfl
  · unfold bodyRecord
    cases body with
    | nil => simp [Body.size, hb]
    | cons b bs =>
      simp only [Body.size, hb, List.length_cons, Nat.add_one_ne_zero, if_false, reduceCtorEq]
      cases decodeUtf8 (b :: bs) <;> simp

/-- How hello-world shows the version of a request: the major number twice (C33), or `Err(())`. -/
def VersionShown (word shown : Bytes) : Prop :=
  (∃ a, HasMajor word a ∧ shown = b!"Ok((" ++ natToBytes a ++ b!", " ++ natToBytes a ++ b!"))") ∨
  ((¬ ∃ a, HasMajor word a) ∧ shown = b!"Err(())")

theorem versionDebug_shown (word : Bytes) : VersionShown word (versionDebug (reqVersion word)) := by
  cases h : reqVersion word with
  | none => exact .inr ⟨(C33_major_partial word).2.1.1 h, rfl⟩
  | some v =>
    obtain ⟨a, b⟩ := v
    obtain ⟨rfl, ha⟩ := (reqVersion_major word a b).1 h
    exact .inl ⟨b, ha, rfl⟩

/-- **C120**, what hello-world says about a request as a client sends it: the peer, method, target and version, every header with its
name in lower case and its value - in some order -, and the body. These are the records of the first request of any connection that
begins with it, whatever follows. -/
theorem C120_hello_request {K : Type} (c : Codec K) (lim : HttpLimits) (env : Nat → Env K) (l : LogEnv K) (idx : Nat)
    (ord : List Pair → List Pair) (hord : IsOrder ord) (hl : l.service 0 = helloLog idx l.addr ord) (q : WireReq)
    (hq : q.WF lim.maxUrl lim.maxHeaderLine lim.maxHeadersCount) (r : Reader) (s : Bytes) (hr : r.flat = q.encode ++ s) :
    ∃ hs rest ver, VersionShown q.head.w2 ver ∧ serveLog c lim env l r =
        (if l.debug then [aboutConn l.name b!"connection made, " l.addr] else []) ++
        [⟨.trace, [(b!"service", .ofNat idx)], b!"Request From " ++ l.addr⟩,
         ⟨.trace, [], q.head.w0 ++ b!" " ++ q.head.w1 ++ b!" " ++ ver⟩] ++
        hs ++ [bodyRecord idx q.body] ++ rest ∧
      hs.Perm (q.head.fields.map (fun f => ⟨.trace, [(b!"service", .ofNat idx)], fieldText f⟩)) := by
  have hw := hq.head_wf
  have hmx : q.head.fields = [] ∨ 1 ≤ lim.maxHeadersCount := by
    have := hw.fields_count
    cases hf : q.head.fields with
    | nil => exact Or.inl rfl
    | cons f fs => rw [hf] at this; simp at this; right; omega
  obtain ⟨hd, r1, r2, x, h1, hx, h2, _⟩ := read_request lim q hq (env 0).cap (env 0).cap_pos (Message.new : Message K)
    Head.blank_new Body.plain_new r s hr
  obtain ⟨r', g1, _⟩ := readHead_wire lim q.head hw.toStartWF hw.fields_wf hw.line_room hmx (Message.new : Message K).head
    ⟨rfl, rfl, rfl⟩ r (q.body ++ s) (by rw [hr]; simp [WireReq.encode])
  rw [g1] at h1
  obtain ⟨rfl, rfl⟩ := Prod.mk.inj (Except.ok.inj h1)
  have hx0 : x = [] := by
    have : (Message.new : Message K).body.internal = some [] := rfl
    rw [this] at hx
    exact (Option.some.inj hx).symm
  subst hx0
  rw [List.nil_append] at h2
  obtain ⟨w, rest, e, hs⟩ := serveLoop_delivers c lim env (r.flat.length) 0 Message.new Message.new r _ _ _ _ g1 h2
  have hserve : serve c lim env r = (⟨⟨_, _⟩, w⟩ :: rest, e) := hs
  rw [C120_story, hserve]
  refine ⟨(flatPairs ((storeFields (Message.new : Message K).head.headers q.head.fields).entries ord)).map
    (fun p => (⟨.trace, [(b!"service", .ofNat idx)], p.1 ++ b!": " ++ p.2⟩ : Rec)),
    ((rest.map (·.req)).mapIdx (fun i => l.service (i + 1))).flatten ++ endRecords l (rest.length + 1) e, _, versionDebug_shown _, ?_, ?_⟩
  · simp only [story, List.map_cons, List.mapIdx_cons, List.flatten_cons, hl]
    rw [helloLog_eq _ _ _ _ q.body rfl]
    simp only [List.append_assoc, List.length_cons, List.length_map]
  · have := (stored_pairs (Message.new : Message K).head.headers Head.blank_new.headers q.head.fields
      (fun f hf => (hw.fields_wf f hf).name_ne) ord hord).map
      (fun p => (⟨.trace, [(b!"service", .ofNat idx)], p.1 ++ b!": " ++ p.2⟩ : Rec))
    rw [List.map_map] at this
    exact this

/-! ## C121 -/

/-- The endings at which the loop is left by `break`. -/
def Left : Ending → Prop
  | .headFail _ | .bodyFail _ | .handlerErr | .writeFail | .closed => True
  | _ => False

/-- **C121**, debug builds, for connections that end by a refusal, a failure or a request to close (missing: connections that end
otherwise, `C121_spinning_violated`, `C121_upgraded_violated`): the first record says that the connection was made and the last one
that it was lost. -/
theorem C121_made_lost_partial {K : Type} (c : Codec K) (lim : HttpLimits) (env : Nat → Env K) (l : LogEnv K) (r : Reader)
    (hd : l.debug = true) (he : Left (serve c lim env r).2) :
    ∃ mid, serveLog c lim env l r =
      [aboutConn l.name b!"connection made, " l.addr] ++ mid ++ [aboutConn l.name b!"connection lost, " l.addr] := by
  rw [C120_story]
  simp only [story, hd, if_true, List.append_assoc]
  have : ∃ m, endRecords l ((serve c lim env r).1.map (·.req)).length (serve c lim env r).2 =
      m ++ [aboutConn l.name b!"connection lost, " l.addr] := by
    generalize ((serve c lim env r).1.map (·.req)).length = n
    generalize (serve c lim env r).2 = e at he ⊢
    cases e <;> simp only [Left] at he
    all_goals exact ⟨_, by simp only [endRecords, hd, if_true]; rfl⟩
  obtain ⟨m, hm⟩ := this
  exact ⟨(((serve c lim env r).1.map (·.req)).mapIdx l.service).flatten ++ m, by rw [hm, List.append_assoc]⟩

/-- **C121**, negation for the code as written: a client that announces a body and closes before it is complete. The connection is never
reported lost - nor anything else about it, except that it was made. -/
theorem C121_spinning_violated {K : Type} (c : Codec K) (lim : HttpLimits) (env : Nat → Env K) (l : LogEnv K) (hd : l.debug = true)
    (w : WireHead) (hw : w.WF lim.maxUrl lim.maxHeaderLine lim.maxHeadersCount) (v : Bytes) (n : Nat)
    (hv : announced w.fields = some v) (hn : Numeral v n) (h64 : n < 2 ^ 64) (r : Reader) (part : Bytes)
    (hr : r.flat = w.encode ++ part) (hlt : part.length < n) (hfin : r.fin = .eof) :
    serveLog c lim env l r = [aboutConn l.name b!"connection made, " l.addr] := by
  have := C15_short_body_partial c lim env r.flat.length 0 w hw v n hv hn h64 Message.new Message.new Head.blank_new Body.plain_new r part
    hr hlt
  have hs : serve c lim env r = ([], .hang) := by
    show serveLoop c lim env (r.flat.length + 1) 0 Message.new Message.new r = _
    rw [this, hfin]
  rw [C120_story, hs]
  simp [story, hd, endRecords]

/-- **C121**, negation for the code as written: an upgraded connection is not reported lost. -/
theorem C121_upgraded_violated {K : Type} (c : Codec K) (lim : HttpLimits) (env : Nat → Env K) (l : LogEnv K) (hd : l.debug = true)
    (r : Reader) (he : (serve c lim env r).2 = .webSocket) :
    serveLog c lim env l r = [aboutConn l.name b!"connection made, " l.addr] ++
      (((serve c lim env r).1.map (·.req)).mapIdx l.service).flatten := by
  rw [C120_story, he]
  simp [story, hd, endRecords]

/-! ## C122 -/

/-- **C122**, debug builds (missing: release builds, `C122_release_silent_violated`, and a stream that fails): a request that is refused
while its head or its body is read leaves a record with the reason. -/
theorem C122_debug_partial {K : Type} (c : Codec K) (lim : HttpLimits) (env : Nat → Env K) (l : LogEnv K) (r : Reader)
    (hd : l.debug = true) (code : ReadCode) (hc : code ≠ .connReadError) :
    ((serve c lim env r).2 = .headFail code →
      ⟨.trace, [], b!"read request header failed, " ++ codeName code⟩ ∈ serveLog c lim env l r) ∧
    ((serve c lim env r).2 = .bodyFail code →
      ⟨.trace, [], b!"read request body failed, " ++ codeName code⟩ ∈ serveLog c lim env l r) := by
  rw [C120_story]
  constructor
  · intro h
    rw [h]
    cases code <;> simp_all [story, endRecords]
  · intro h
    rw [h]
    cases code <;> simp_all [story, endRecords]

/-- **C122**, negation for the code as written: in a release build refused requests leave nothing. The log has only what the service
said about the requests before; of a connection whose first request is refused there is no record at all. -/
theorem C122_release_silent_violated {K : Type} (c : Codec K) (lim : HttpLimits) (env : Nat → Env K) (l : LogEnv K) (r : Reader)
    (hd : l.debug = false) (code : ReadCode)
    (he : (serve c lim env r).2 = .headFail code ∨ (serve c lim env r).2 = .bodyFail code) :
    serveLog c lim env l r = (((serve c lim env r).1.map (·.req)).mapIdx l.service).flatten ∧
      ((serve c lim env r).1 = [] → serveLog c lim env l r = []) := by
  have : serveLog c lim env l r = (((serve c lim env r).1.map (·.req)).mapIdx l.service).flatten := by
    rw [C120_story]
    rcases he with he | he <;> rw [he] <;> cases code <;> simp [story, hd, endRecords]
  exact ⟨this, fun h => by rw [this, h]; rfl⟩

/-! ## C123 -/

theorem oneText_append {a b : Bytes} (ha : OneText a) (hb : OneText b) : OneText (a ++ b) := by
  intro x hx
  rcases List.mem_append.mp hx with h | h
  · exact ha x h
  · exact hb x h

theorem oneText_nat (n : Nat) : OneText (natToBytes n) := by
  intro b hb
  have := natToBytes_digits n b hb
  obtain ⟨h1, h2⟩ := this
  exact ⟨UInt8.le_iff_toNat_le.mpr (Nat.le_trans (by decide) h1), UInt8.le_iff_toNat_le.mpr (Nat.le_trans h2 (by decide))⟩

theorem oneText_lit {s : Bytes} (h : s.all isText = true) : OneText s := (all_isText_iff s).mp h

/-- Every request that reaches a service has a head read into empty fields. -/
theorem serveLoop_heads {K : Type} (c : Codec K) (lim : HttpLimits) (env : Nat → Env K) (fuel i : Nat) (req resp : Message K)
    (hb : req.head.Blank) (r : Reader) (ex : Exchange K) (h : ex ∈ (serveLoop c lim env fuel i req resp r).1) :
    ∃ hd0 r0 r1, Head.Blank hd0 ∧ readHead lim hd0 r0 = .ok (ex.req.head, r1) := by
  induction fuel generalizing i req resp r with
  | zero => cases h
  | succ fuel ih =>
    simp only [serveLoop] at h
    cases hh : readHead lim req.head r with
    | error e => rw [hh] at h; cases h
    | ok x =>
      obtain ⟨hd, r1⟩ := x
      simp only [hh] at h
      have one : ∀ {w : Bytes} {body : Body K}, ex = ⟨⟨hd, body⟩, w⟩ →
          ∃ hd0 r0 r1, Head.Blank hd0 ∧ readHead lim hd0 r0 = .ok (ex.req.head, r1) := by
        intro w body e; subst e; exact ⟨req.head, r, r1, hb, hh⟩
      cases hbd : readConstLengthBody (env i).cap hd.headers req.body r1 with
      | fail e => simp [hbd] at h
      | panic => simp [hbd] at h
      | hang => simp [hbd] at h
      | done body r2 =>
        simp only [hbd] at h
        cases hs : (env i).http ⟨hd, body⟩ resp with
        | err => simp only [hs, List.mem_singleton] at h; exact one h
        | panic => simp only [hs, List.mem_singleton] at h; exact one h
        | ok p req2 resp2 =>
          simp only [hs] at h
          rcases he : encodeResponse c (env i).ord resp2 with ⟨resp3, _ | bytes⟩
          · simp only [he, List.mem_singleton] at h; exact one h
          · simp only [he] at h
            cases hw : (env i).write with
            | failAfter k s => simp only [hw, List.mem_singleton] at h; exact one h
            | ok =>
              simp only [hw] at h
              cases p with
              | webSocket => simp only [List.mem_singleton] at h; exact one h
              | http2 => simp only [List.mem_singleton] at h; exact one h
              | current ka =>
                cases ka with
                | false => simp only [List.mem_singleton] at h; exact one h
                | true =>
                  simp only [List.mem_cons] at h
                  rcases h with h | h
                  · exact one h
                  · exact ih _ _ _ (Head.blank_clear _) _ h

/-- **C123**, what holds: whatever a client sends, every record of a connection to hello-world is one line of printable ASCII, except the
one that quotes the body (missing: that one, `C123_body_quoted_violated`). -/
theorem C123_one_line_partial {K : Type} (c : Codec K) (lim : HttpLimits) (env : Nat → Env K) (l : LogEnv K) (r : Reader) (idx : Nat)
    (ord : Nat → List Pair → List Pair) (hord : ∀ i, IsOrder (ord i)) (hl : ∀ i, l.service i = helloLog idx l.addr (ord i))
    (haddr : OneText l.addr) (hsend : ∀ i, OneText (l.sendError i)) (hhandle : ∀ i, OneText (l.handleError i)) :
    ∀ x ∈ serveLog c lim env l r, OneText x.msg ∨
      ∃ body, x.msg = b!"PrintableBody:\r\n---------------------\r\n" ++ body ++ b!"\r\n---------------------" := by
  intro x hx
  rw [C120_story] at hx
  simp only [story, List.mem_append, List.mem_flatten, List.mem_mapIdx] at hx
  rcases hx with (hx | ⟨recs, ⟨i, hi, rfl⟩, hx⟩) | hx
  · left
    cases hdb : l.debug <;> simp [hdb] at hx
    subst hx
    exact oneText_append (oneText_lit (by decide)) haddr
  · have hmem := List.getElem_mem hi
    generalize ((serve c lim env r).1.map (·.req))[i] = q at hx hmem
    obtain ⟨ex, hex, rfl⟩ := List.mem_map.mp hmem
    obtain ⟨hd0, r0, r1, hb0, hrd⟩ := serveLoop_heads c lim env _ 0 Message.new Message.new Head.blank_new r ex hex
    obtain ⟨t1, _, t3⟩ := C03_text_only lim hd0 ex.req.head hb0 r0 r1 hrd
    rw [hl i] at hx
    unfold helloLog at hx
    simp only at hx
    rw [hello_headers] at hx
    simp only [List.mem_append, List.mem_cons, List.not_mem_nil, or_false, List.mem_flatMap, List.mem_map] at hx
    rcases hx with ((rfl | rfl) | ⟨e, he, v, hv, rfl⟩) | hx
    · left; exact oneText_append (oneText_lit (by decide)) haddr
    · left
      refine oneText_append (oneText_append (oneText_append (oneText_append ?_ (oneText_lit (by decide))) ?_) (oneText_lit (by decide))) ?_
      · exact fun b hb => t1 b (by simp [hb])
      · exact fun b hb => t1 b (by simp [hb])
      · cases hv : reqVersion ex.req.head.f2 with
        | none => exact oneText_lit (by decide)
        | some p =>
          obtain ⟨a, b⟩ := p
          exact oneText_append (oneText_append (oneText_append (oneText_append (oneText_lit (by decide)) (oneText_nat _))
            (oneText_lit (by decide))) (oneText_nat _)) (oneText_lit (by decide))
    · left
      obtain ⟨k1, k2⟩ := t3 (ord i) (hord i) e he
      exact oneText_append (oneText_append k1 (oneText_lit (by decide))) (k2 v hv)
    · by_cases h0 : ex.req.body.size = 0
      · rw [if_pos h0, List.mem_singleton] at hx
        subst hx
        left; exact oneText_lit (by decide)
      · rw [if_neg h0] at hx
        cases hin : ex.req.body.internal with
        | none => rw [hin] at hx; cases hx
        | some buf =>
          rw [hin] at hx
          simp only at hx
          cases hdec : decodeUtf8 buf with
          | none =>
            rw [hdec] at hx
            simp only [List.mem_singleton] at hx
            subst hx
            left; exact oneText_append (oneText_lit (by decide)) (oneText_nat _)
          | some cs =>
            rw [hdec] at hx
            simp only [List.mem_singleton] at hx
            subst hx
            right; exact ⟨buf, rfl⟩
  · left
    have hlost : ∀ {y : Rec}, y ∈ (if l.debug then [aboutConn l.name b!"connection lost, " l.addr] else []) → OneText y.msg := by
      intro y hy
      cases hdb : l.debug <;> simp [hdb] at hy
      subst hy
      exact oneText_append (oneText_lit (by decide)) haddr
    have hcode : ∀ code : ReadCode, OneText code.debug := by
      intro code
      cases code <;> exact oneText_lit (by decide)
    generalize (serve c lim env r).2 = e at hx
    cases e <;> simp only [endRecords, List.not_mem_nil, List.mem_append] at hx
    case headFail code =>
      rcases hx with hx | hx
      · cases code <;> cases hdb : l.debug <;> simp [hdb] at hx
        all_goals subst hx; exact oneText_lit (by decide)
      · exact hlost hx
    case bodyFail code =>
      rcases hx with hx | hx
      · cases code <;> cases hdb : l.debug <;> simp [hdb] at hx
        all_goals subst hx; exact oneText_lit (by decide)
      · exact hlost hx
    case handlerErr =>
      rcases hx with hx | hx
      · rw [List.mem_singleton] at hx; subst hx
        exact oneText_append (oneText_lit (by decide)) (hhandle _)
      · exact hlost hx
    case writeFail =>
      rcases hx with hx | hx
      · rw [List.mem_singleton] at hx; subst hx
        exact oneText_append (oneText_lit (by decide)) (hsend _)
      · exact hlost hx
    case closed =>
      rcases hx with hx | hx
      · cases hx
      · exact hlost hx

/-- One text inside another. -/
def Has (m s : Bytes) : Prop := ∃ a b, s = a ++ m ++ b

theorem has_self (m : Bytes) : Has m m := ⟨[], [], by simp⟩

theorem has_left {m s : Bytes} (x : Bytes) (h : Has m s) : Has m (x ++ s) := by
  obtain ⟨a, b, rfl⟩ := h
  exact ⟨x ++ a, b, by simp⟩

theorem has_right {m s : Bytes} (x : Bytes) (h : Has m s) : Has m (s ++ x) := by
  obtain ⟨a, b, rfl⟩ := h
  exact ⟨a, b ++ x, by simp⟩

theorem has_quoted (m : Bytes) : Has m (quoted m) := has_right _ (has_left _ (has_self m))

theorem json_has_msg (item : Item) : Has item.msg (jsonRender item) := by
  unfold jsonRender
  by_cases h : item.kvs.isEmpty <;> simp only [h, if_true, Bool.false_eq_true, if_false]
  · exact has_right _ (has_left _ (has_quoted _))
  · exact has_right _ (has_right _ (has_right _ (has_right _ (has_right _ (has_right _ (has_left _ (has_quoted _)))))))

theorem withColor_has (t : Bytes) (o : Option Color) : Has t (withColor t o) := by
  cases o with
  | none => exact has_self t
  | some c =>
    by_cases h : c.isBlock = true
    · simp only [withColor, h, if_true]; exact has_self t
    · simp only [withColor, h]; exact has_right _ (has_right _ (has_left _ (has_self t)))

theorem color_has_msg (scheme : ColorScheme) (item : Item) : Has item.msg (colorRender scheme item) := by
  unfold colorRender
  by_cases hk : item.kvs.isEmpty <;> simp only [hk, if_true, Bool.false_eq_true, if_false]
  · exact has_right _ (has_left _ (withColor_has _ _))
  · exact has_right _ (has_right _ (has_right _ (has_left _ (withColor_has _ _))))

/-- **C123**, negation for the code as written. Any UTF-8 text that a client sends as a body appears in the log as lines of its own, with
either renderer, whatever the time and place of the record: nothing tells it from what the server wrote. -/
theorem C123_body_quoted_violated {K : Type} (c : Codec K) (lim : HttpLimits) (env : Nat → Env K) (l : LogEnv K) (idx : Nat)
    (ord : List Pair → List Pair) (hord : IsOrder ord) (hl : l.service 0 = helloLog idx l.addr ord) (q : WireReq)
    (hq : q.WF lim.maxUrl lim.maxHeaderLine lim.maxHeadersCount) (hne : q.body ≠ []) (hu : (decodeUtf8 q.body).isSome = true)
    (r : Reader) (s : Bytes) (hr : r.flat = q.encode ++ s) :
    ∃ x ∈ serveLog c lim env l r, ∀ time file line scheme,
      StandsAlone q.body (jsonRender (x.item time file line)) ∧ StandsAlone q.body (colorRender scheme (x.item time file line)) := by
  obtain ⟨hs, rest, _, _, e, _⟩ := C120_hello_request c lim env l idx ord hord hl q hq r s hr
  refine ⟨bodyRecord idx q.body, by rw [e]; simp, ?_⟩
  intro time file line scheme
  have hmsg : ((bodyRecord idx q.body).item time file line).msg =
      b!"PrintableBody:\r\n---------------------\r\n" ++ q.body ++ b!"\r\n---------------------" := by
    simp only [Rec.item, Item.from, bodyRecord, hne, if_false, hu, if_true]
  have key : ∀ s, Has ((bodyRecord idx q.body).item time file line).msg s → StandsAlone q.body s := by
    rintro s ⟨a, b, rfl⟩
    rw [hmsg]
    exact ⟨a ++ b!"PrintableBody:\r\n---------------------", b!"---------------------" ++ b, by simp⟩
  exact ⟨key _ (json_has_msg _), key _ (color_has_msg _ _)⟩

/-! ## C90: whose records they are -/

/-- **C90**, hello-world's records of a request: all are the service's, except the request line and the one about an empty body
(missing: these two, `C90_request_line_violated`). -/
theorem C90_hello_log_partial {K : Type} (idx : Nat) (addr : Bytes) (ord : List Pair → List Pair) (req : Message K)
    (time file : Bytes) (line : Nat) :
    ∀ x ∈ helloLog idx addr ord req, (x.item time file line).service = idx ∨
      ((x.item time file line).service = 0 ∧ (x.msg = b!"EmptyBody" ∨
        x.msg = req.head.f0 ++ b!" " ++ req.head.f1 ++ b!" " ++ versionDebug (reqVersion req.head.f2))) := by
  intro x hx
  have key : ∀ m : Bytes, ((⟨.trace, [(b!"service", .ofNat idx)], m⟩ : Rec).item time file line).service = idx := fun _ => rfl
  unfold helloLog at hx
  simp only at hx
  rw [hello_headers] at hx
  simp only [List.mem_append, List.mem_cons, List.not_mem_nil, or_false, List.mem_flatMap, List.mem_map] at hx
  rcases hx with ((rfl | rfl) | ⟨e, he, v, hv, rfl⟩) | hx
  · exact .inl rfl
  · exact .inr ⟨rfl, .inr rfl⟩
  · exact .inl rfl
  · split at hx
    · rw [List.mem_singleton] at hx; subst hx; exact .inr ⟨rfl, .inl rfl⟩
    · split at hx
      · cases hx
      · split at hx <;> (rw [List.mem_singleton] at hx; subst hx; exact .inl rfl)

/-- **C90**, negation for the code as written: the record with the method and the target of a request is not the service's, whatever the
request and the service. -/
theorem C90_request_line_violated {K : Type} (idx : Nat) (addr : Bytes) (ord : List Pair → List Pair) (req : Message K)
    (time file : Bytes) (line : Nat) :
    ∃ x ∈ helloLog idx addr ord req, (x.item time file line).service = 0 ∧
      x.msg = req.head.f0 ++ b!" " ++ req.head.f1 ++ b!" " ++ versionDebug (reqVersion req.head.f2) :=
  ⟨_, by unfold helloLog; simp only [List.mem_append, List.mem_cons]; exact .inl (.inl (.inr (.inl rfl))), rfl, rfl⟩

/-! ## Cases meeting the hypotheses -/

/-- A debug build. -/
def sampleLog : LogEnv Unit :=
  { debug := true, addr := b!"127.0.0.1:5000", name := b!"\"a\"", service := fun _ => helloLog 3 b!"127.0.0.1:5000" id,
    sendError := fun _ => b!"broken pipe", handleError := fun _ => b!"failed" }

/-- C120, C121, C123: one request, then the client closes. -/
example : (serveLog noCodec sampleLimits (fun _ => { sampleEnv with http := helloHttp }) sampleLog
    (Reader.ofBytes sampleReq.encode .eof)).map (·.msg) =
    [b!"connection made, 127.0.0.1:5000", b!"Request From 127.0.0.1:5000", b!"POST /x Ok((1, 1))", b!"content-length: 4", b!"host: h",
     b!"PrintableBody:\r\n---------------------\r\nbody\r\n---------------------", b!"connection lost, 127.0.0.1:5000"] := by
  decide +kernel

/-- C122: a refused request. -/
example : (serveLog noCodec sampleLimits (fun _ => { sampleEnv with http := helloHttp }) sampleLog
    (Reader.ofBytes b!"GET /\n" .eof)).map (·.msg) =
    [b!"connection made, 127.0.0.1:5000", b!"read request header failed, BadDatagram", b!"connection lost, 127.0.0.1:5000"] := by
  decide +kernel

/-- C122: the same in a release build. -/
example : serveLog noCodec sampleLimits (fun _ => { sampleEnv with http := helloHttp }) { sampleLog with debug := false }
    (Reader.ofBytes b!"GET /\n" .eof) = [] := by decide +kernel

end Httpd
