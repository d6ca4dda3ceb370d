import Verif.Props.Online
import Verif.Spec.Order
/-! # C200: what the seed of the hash tables can change -/

namespace Httpd
open Spec MultiMap

theorem headerLines_blocks (ps : List Pair) : headerLines ps = (ps.map fieldLines).flatten := by
  have h : (fun p : Pair => (p.2.map (headerLine p.1)).flatten) = fieldLines := by
    funext p
    simp only [fieldLines]
    congr 2
  simp only [headerLines, h]

theorem encodeResponse_order {K : Type} (c : Codec K) (ord ord' : List Pair → List Pair) (ho : IsOrder ord) (ho' : IsOrder ord') (m : Message K) :
    (encodeResponse c ord m).1 = (encodeResponse c ord' m).1 ∧
    match (encodeResponse c ord m).2, (encodeResponse c ord' m).2 with
    | none, none => True
    | some a, some b => SameButOrder a b
    | _, _ => False := by
  simp only [encodeResponse]
  cases m.body.finish c with
  | mk b ok =>
    cases ok with
    | false => exact ⟨rfl, trivial⟩
    | true =>
      refine ⟨rfl, m.head.f0 ++ [32] ++ m.head.f1 ++ [32] ++ m.head.f2,
        (m.head.headers.set b!"content-length" (natToBytes b.size)).entries ord,
        (m.head.headers.set b!"content-length" (natToBytes b.size)).entries ord',
        (match b.internal with | some buf => buf | none => []), ?_, ?_, ?_⟩
      · simp only [MultiMap.entries]
        split
        · exact (ho _).trans (ho' _).symm
        · exact .refl _
      · simp only [responseBytes, headerLines_blocks]; rfl
      · simp only [responseBytes, headerLines_blocks]; rfl

/-- Two exchanges: the same request, and answers that differ in the order of the header names only. -/
def SameExchange {K : Type} (x y : Exchange K) : Prop := x.req = y.req ∧ GotSame x.written y.written

/-- Two lists of the same length whose elements are related one by one. -/
inductive Pairwise₂ {A B : Type} (R : A → B → Prop) : List A → List B → Prop
  | nil : Pairwise₂ R [] []
  | cons {x : A} {y : B} {xs : List A} {ys : List B} : R x y → Pairwise₂ R xs ys → Pairwise₂ R (x :: xs) (y :: ys)

theorem serveLoop_order {K : Type} (c : Codec K) (lim : HttpLimits) (env env' : Nat → Env K)
    (he : ∀ i, (env i).http = (env' i).http ∧ (env i).write = (env' i).write ∧ IsOrder (env i).ord ∧ IsOrder (env' i).ord)
    (fuel i : Nat) (req resp : Message K) (r r' : Reader) (h : r.Equiv r') :
    Pairwise₂ SameExchange (serveLoop c lim env fuel i req resp r).1 (serveLoop c lim env' fuel i req resp r').1 ∧
    (serveLoop c lim env fuel i req resp r).2 = (serveLoop c lim env' fuel i req resp r').2 := by
  induction fuel generalizing i req resp r r' with
  | zero => exact ⟨.nil, rfl⟩
  | succ fuel ih =>
    obtain ⟨e1, e2, e3, e4⟩ := he i
    simp only [serveLoop]
    have hh := readHead_congr lim req.head r r' h
    revert hh
    cases readHead lim req.head r with
    | error e =>
      cases readHead lim req.head r' with
      | error e' => intro hh; simp only [HeadResEquiv] at hh; rw [hh]; exact ⟨.nil, rfl⟩
      | ok x => intro hh; exact hh.elim
    | ok x =>
      cases readHead lim req.head r' with
      | error e' => intro hh; exact hh.elim
      | ok x' =>
        obtain ⟨hd, r1⟩ := x
        obtain ⟨hd', r1'⟩ := x'
        rintro ⟨rfl, h1⟩
        simp only
        have hb := readConstLengthBody_congr (env i).cap (env' i).cap hd.headers req.body r1 r1' h1 (env i).cap_pos (env' i).cap_pos
        revert hb
        cases readConstLengthBody (env i).cap hd.headers req.body r1 <;>
          cases readConstLengthBody (env' i).cap hd.headers req.body r1' <;> intro hb <;> first | exact hb.elim | skip
        · obtain ⟨rfl, h2⟩ := hb
          rename_i body _ _
          simp only [e1, e2]
          have one : ∀ (x y : Bytes) (e : Ending), GotSame x y →
              Pairwise₂ SameExchange [(⟨⟨hd, body⟩, x⟩ : Exchange K)] [⟨⟨hd, body⟩, y⟩] ∧ e = e :=
            fun x y e hxy => ⟨.cons ⟨rfl, hxy⟩ .nil, rfl⟩
          cases (env' i).http ⟨hd, body⟩ resp with
          | err => exact one _ _ _ (Or.inl ⟨rfl, rfl⟩)
          | panic => exact one _ _ _ (Or.inl ⟨rfl, rfl⟩)
          | ok p req2 resp2 =>
            simp only
            obtain ⟨g1, g2⟩ := encodeResponse_order c (env i).ord (env' i).ord e3 e4 resp2
            generalize encodeResponse c (env i).ord resp2 = u at g1 g2 ⊢
            generalize encodeResponse c (env' i).ord resp2 = v at g1 g2 ⊢
            rcases u with ⟨resp3, _ | a⟩ <;> rcases v with ⟨resp3', _ | b⟩ <;> simp only at g1 g2 ⊢
            · exact ⟨(one _ _ .writeFail (Or.inl ⟨rfl, rfl⟩)).1, trivial⟩
            · subst g1
              cases (env' i).write with
              | failAfter k s => exact one _ _ _ (Or.inr (Or.inr ⟨a, b, k, g2, rfl, rfl⟩))
              | ok =>
                simp only
                split
                · obtain ⟨k1, k2⟩ := ih (i + 1) (req2.clear c) (resp3.clear c) _ _ h2
                  exact ⟨.cons ⟨rfl, Or.inr (Or.inl g2)⟩ k1, k2⟩
                · exact one _ _ _ (Or.inr (Or.inl g2))
                · exact one _ _ _ (Or.inr (Or.inl g2))
                · exact one _ _ _ (Or.inr (Or.inl g2))
        · simp only [BodyResEquiv] at hb; rw [hb]; exact ⟨.nil, rfl⟩
        · exact ⟨.nil, rfl⟩
        · exact ⟨.nil, rfl⟩

/-- **C200.** What happens on a connection is determined by the bytes the client sends and the service, apart from the order of the header names in
the answers: for any two segmentations of the same bytes, any buffer capacities and any iteration orders of the hash tables, the same requests
are delivered, the connection ends in the same way, and each answer has the same first line, the same values in the same order for each name,
the same length and the same body. For every service and all outcomes of the writes. -/
theorem C200_determined {K : Type} (c : Codec K) (lim : HttpLimits) (env env' : Nat → Env K) (r r' : Reader)
    (he : ∀ i, (env i).http = (env' i).http ∧ (env i).write = (env' i).write ∧ IsOrder (env i).ord ∧ IsOrder (env' i).ord)
    (hr : r.flat = r'.flat) (hf : r.fin = r'.fin) :
    (serve c lim env r).2 = (serve c lim env' r').2 ∧
    (serve c lim env r).1.map (·.req) = (serve c lim env' r').1.map (·.req) ∧
    (serve c lim env r).1.map (·.written.length) = (serve c lim env' r').1.map (·.written.length) ∧
    ∀ (j : Nat) (x y : Exchange K), (serve c lim env r).1[j]? = some x → (serve c lim env' r').1[j]? = some y → GotSame x.written y.written := by
  have h := serveLoop_order c lim env env' he (r.flat.length + 1) 0 Message.new Message.new r r' ⟨hr, hf⟩
  simp only [serve]
  rw [← hr]
  obtain ⟨h1, h2⟩ := h
  refine ⟨h2, ?_⟩
  have hlen : ∀ a b : Bytes, SameButOrder a b → a.length = b.length := by
    rintro a b ⟨st, ps, ps', body, hp, rfl, rfl⟩
    simp only [List.length_append]
    rw [(hp.map fieldLines).flatten.length_eq]
  generalize (serveLoop c lim env (r.flat.length + 1) 0 Message.new Message.new r).1 = xs at h1
  generalize (serveLoop c lim env' (r.flat.length + 1) 0 Message.new Message.new r').1 = ys at h1
  clear h2
  induction h1 with
  | nil => simp
  | @cons x y xs ys hxy _ ih =>
    obtain ⟨k1, k2, k3⟩ := ih
    refine ⟨by simp [k1, hxy.1], ?_, ?_⟩
    · simp only [List.map_cons, k2]
      congr 1
      rcases hxy.2 with ⟨h3, h4⟩ | h3 | ⟨a, b, k, h3, h4, h5⟩
      · rw [h3, h4]
      · exact hlen _ _ h3
      · rw [h4, h5, List.length_take, List.length_take, hlen _ _ h3]
    · intro j a b ha hb
      cases j with
      | zero => cases ha; cases hb; exact hxy.2
      | succ j => exact k3 j a b (by simpa using ha) (by simpa using hb)

/-- A service whose answer has 40 header names, so that its headers are in a hash table. -/
def wideEnv (ord : List Pair → List Pair) : Env Unit :=
  { sampleEnv with
    http := fun q p => .ok (.current true) q
      { p with head := { p.head with headers := (List.range 40).foldl (fun m i => m.append (120 :: natToBytes i) b!"v") p.head.headers } }
    ord := ord }

/-- Non-trivial case: two orders, and answers that are different but of the same length. -/
example : IsOrder id ∧ IsOrder List.reverse ∧
    (serve noCodec sampleLimits (fun _ => wideEnv id) (Reader.ofBytes sampleReq.encode .eof)).1.map (·.written) ≠
      (serve noCodec sampleLimits (fun _ => wideEnv List.reverse) (Reader.ofBytes sampleReq.encode .eof)).1.map (·.written) ∧
    (serve noCodec sampleLimits (fun _ => wideEnv id) (Reader.ofBytes sampleReq.encode .eof)).1.map (·.written.length) =
      (serve noCodec sampleLimits (fun _ => wideEnv List.reverse) (Reader.ofBytes sampleReq.encode .eof)).1.map (·.written.length) :=
  ⟨fun l => .refl l, fun l => l.reverse_perm, by decide +kernel, by decide +kernel⟩

end Httpd
