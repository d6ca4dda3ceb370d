import Verif.Props.Writer
import Verif.Props.BodyText
import Verif.Spec.ClientView
/-! # C201: what a client that only sees the bytes makes of them -/

namespace Httpd
open Spec

theorem scanLines_append (cur : Bytes) (ls : List Bytes) (s t : Bytes) (lines : List Bytes) (rest : Bytes)
    (h : scanLines cur ls s = some (lines, rest)) : scanLines cur ls (s ++ t) = some (lines, rest ++ t) := by
  fun_induction scanLines cur ls s with
  | case1 ls s =>
    cases h
    simp [scanLines]
  | case2 cur ls s hc ih => simpa [scanLines, hc] using ih h
  | case3 cur ls b s hne ih =>
    have hx : ∀ s', b = 13 → s ++ t = 10 :: s' → False := by
      intro s' hb hs
      cases s with
      | nil => simp [scanLines] at h
      | cons a s =>
        simp only [List.cons_append, List.cons.injEq] at hs
        exact hne s hb (by rw [hs.1])
    rw [List.cons_append, scanLines]
    · exact ih h
    · exact hx
  | case4 cur ls => cases h

theorem splitHead_append {s t : Bytes} {lines : List Bytes} {rest : Bytes} (h : splitHead s = some (lines, rest)) :
    splitHead (s ++ t) = some (lines, rest ++ t) := scanLines_append _ _ _ _ _ _ h

theorem Spec.LengthLine.unique {l : Bytes} {n m : Nat} (h : LengthLine l n) (h' : LengthLine l m) : n = m := by
  obtain ⟨a, ws, v, e, ha, _, hws, hv, hd, hn⟩ := h
  obtain ⟨a', ws', v', e', ha', _, hws', hv', hd', hm⟩ := h'
  rw [e] at e'
  -- the names end at the first colon
  have hcut : ∀ (x y u w : Bytes), 58 ∉ x → 58 ∉ y → x ++ 58 :: u = y ++ 58 :: w → u = w := by
    intro x
    induction x with
    | nil =>
      intro y u w _ hy h
      cases y with
      | nil => simpa using h
      | cons b y => simp only [List.nil_append, List.cons_append, List.cons.injEq] at h; exact absurd (by simp [h.1]) hy
    | cons a x ih =>
      intro y u w hx hy h
      cases y with
      | nil => simp only [List.nil_append, List.cons_append, List.cons.injEq] at h; exact absurd (by simp [h.1]) hx
      | cons b y =>
        simp only [List.cons_append, List.cons.injEq] at h
        exact ih y u w (fun hm => hx (by simp [hm])) (fun hm => hy (by simp [hm])) h.2
  have e2 := hcut _ _ _ _ ha ha' e'
  -- the digits begin after the last space
  have hsp : ∀ (x y u w : Bytes), (∀ b ∈ x, b = 32 ∨ b = 9) → (∀ b ∈ y, b = 32 ∨ b = 9) → u ≠ [] → w ≠ [] → (∀ b ∈ u, IsDigit b) →
      (∀ b ∈ w, IsDigit b) → x ++ u = y ++ w → u = w := by
    intro x
    induction x with
    | nil =>
      intro y u w _ hy hu _ hdu _ h
      cases y with
      | nil => simpa using h
      | cons b y =>
        simp only [List.nil_append, List.cons_append] at h
        have h1 : IsDigit b := hdu b (by rw [h]; simp)
        rcases hy b (by simp) with rfl | rfl <;> exact absurd h1 (by decide)
    | cons a x ih =>
      intro y u w hx hy hu hw hdu hdw h
      cases y with
      | nil =>
        simp only [List.nil_append, List.cons_append] at h
        have h1 : IsDigit a := hdw a (by rw [← h]; simp)
        rcases hx a (by simp) with rfl | rfl <;> exact absurd h1 (by decide)
      | cons b y =>
        simp only [List.cons_append, List.cons.injEq] at h
        exact ih y u w (fun c hc => hx c (by simp [hc])) (fun c hc => hy c (by simp [hc])) hu hw hdu hdw h.2
  have := hsp _ _ _ _ hws hws' hv hv' hd hd' e2
  rw [← hn, ← hm, this]

theorem Spec.OneAnswer.append {s t : Bytes} {lines : List Bytes} {body rest : Bytes} (h : OneAnswer s lines body rest) :
    OneAnswer (s ++ t) lines body (rest ++ t) := by
  refine ⟨?_, h.2⟩
  rw [splitHead_append h.1, List.append_assoc]

theorem Spec.OneAnswer.unique {s : Bytes} {lines lines' : List Bytes} {body body' rest rest' : Bytes} (h : OneAnswer s lines body rest)
    (h' : OneAnswer s lines' body' rest') : lines' = lines ∧ body' = body ∧ rest' = rest := by
  obtain ⟨h1, l, h2, h3⟩ := h
  obtain ⟨h1', l', h2', h3'⟩ := h'
  rw [h1] at h1'
  simp only [Option.some.injEq, Prod.mk.injEq] at h1'
  obtain ⟨rfl, e⟩ := h1'
  rw [h2] at h2'
  simp only [List.cons.injEq, and_true] at h2'
  subst h2'
  have hl := h3.unique h3'
  exact ⟨rfl, (List.append_inj e hl).1.symm, (List.append_inj e hl).2.symm⟩

/-- **C201, no ambiguity.** A client finds one list of answers at most. -/
theorem C201_determined {s : Bytes} {outs outs' : List (List Bytes × Bytes)} {left left' : Bytes} (h : Framed s outs left)
    (h' : Framed s outs' left') : outs' = outs ∧ left' = left := by
  induction h generalizing outs' left' with
  | stop s hs =>
    cases h' with
    | stop => exact ⟨rfl, rfl⟩
    | more _ lines body rest outs left h1 _ => exact absurd ⟨lines, body, rest, h1⟩ hs
  | more s lines body rest outs left h1 _ ih =>
    generalize hs : s = s' at h'
    cases h' with
    | stop => subst hs; next hn => exact absurd ⟨lines, body, rest, h1⟩ hn
    | more _ lines' body' rest' outs' left' h1' h2' =>
      subst hs
      obtain ⟨rfl, rfl, rfl⟩ := h1.unique h1'
      obtain ⟨rfl, rfl⟩ := ih h2'
      exact ⟨rfl, rfl⟩

/-- A whole answer and nothing else. -/
def Whole1 (a : Bytes) (x : List Bytes × Bytes) : Prop := OneAnswer a x.1 x.2 []

/-- Whatever part of whole answers that follow each other a client has received, it finds the ones that are complete in it. -/
theorem framed_prefix (as : List Bytes) (xs : List (List Bytes × Bytes)) (hlen : as.length = xs.length)
    (h : ∀ (j : Nat) (a : Bytes) (x : List Bytes × Bytes), as[j]? = some a → xs[j]? = some x → Whole1 a x) (p : Bytes) (hp : p <+: as.flatten) :
    ∃ n left, n ≤ as.length ∧ Framed p (xs.take n) left ∧ p = (as.take n).flatten ++ left ∧
      (p = as.flatten → n = as.length ∧ left = []) ∧
      (left = [] ∨ ∃ a, as[n]? = some a ∧ left <+: a ∧ left.length < a.length) := by
  have hnil : ¬ ∃ lines body rest, OneAnswer [] lines body rest := by
    rintro ⟨lines, body, rest, h1, _⟩
    simp [splitHead, scanLines] at h1
  induction as generalizing xs p with
  | nil =>
    have : p = [] := by simpa using hp
    subst this
    exact ⟨0, [], by simp, by simpa using Framed.stop [] hnil, by simp, by simp, Or.inl rfl⟩
  | cons a as ih =>
    cases xs with
    | nil => simp at hlen
    | cons x xs =>
      have h0 : Whole1 a x := h 0 a x rfl rfl
      rcases Nat.lt_or_ge p.length a.length with hlt | hge
      · -- not even the first is complete
        have hpa : p <+: a := List.prefix_of_prefix_length_le hp ⟨as.flatten, by simp⟩ (by omega)
        obtain ⟨z, hz⟩ := id hpa
        have hzn : z ≠ [] := by rintro rfl; rw [List.append_nil] at hz; rw [hz] at hlt; omega
        refine ⟨0, p, by simp, .stop p ?_, by simp, ?_, Or.inr ⟨a, rfl, hpa, hlt⟩⟩
        · rintro ⟨lines, body, rest, h1⟩
          have h2 := h1.append (t := z)
          rw [hz] at h2
          have h3 := (h0.unique h2).2.2
          exact hzn (List.append_eq_nil_iff.mp h3).2
        · intro hpe
          rw [hpe] at hlt
          simp at hlt
          omega
      · have hap : a <+: p := List.prefix_of_prefix_length_le ⟨as.flatten, by simp⟩ hp hge
        obtain ⟨p', rfl⟩ := hap
        obtain ⟨w, hw⟩ := hp
        simp only [List.flatten_cons, List.append_assoc] at hw
        have hp' : p' <+: as.flatten := ⟨w, List.append_cancel_left hw⟩
        obtain ⟨n, left, g1, g2, g3, g4, g5⟩ := ih xs (by simpa using hlen)
          (fun j a' x' ha hx => h (j + 1) a' x' (by simpa using ha) (by simpa using hx)) p' hp'
        refine ⟨n + 1, left, by simp only [List.length_cons]; omega, ?_, ?_, ?_, by simpa using g5⟩
        · have h1 := h0.append (t := p')
          simp only [List.nil_append] at h1
          exact .more _ x.1 x.2 p' _ left h1 g2
        · simp only [List.take_succ_cons, List.flatten_cons, List.append_assoc]
          rw [← g3]
        · intro hpe
          simp only [List.flatten_cons] at hpe
          obtain ⟨k1, k2⟩ := g4 (List.append_cancel_left hpe)
          exact ⟨by simp [k1], k2⟩

/-- Writes that fail cut the stream of the answers; they change nothing in what was sent before. -/
theorem serveLoop_cut {K : Type} (c : Codec K) (lim : HttpLimits) (env : Nat → Env K) (outs : Nat → WriteOutcome) (fuel i : Nat)
    (req resp : Message K) (r : Reader) :
    ∃ n, (serveLoop c lim (fun j => { env j with write := outs j }) fuel i req resp r).1.length = n ∧
      n ≤ (serveLoop c lim (fun j => { env j with write := .ok }) fuel i req resp r).1.length ∧
      ((serveLoop c lim (fun j => { env j with write := outs j }) fuel i req resp r).1.map (·.written)).flatten <+:
        (((serveLoop c lim (fun j => { env j with write := .ok }) fuel i req resp r).1.map (·.written)).take n).flatten := by
  refine ⟨_, rfl, ?_⟩
  induction fuel generalizing i req resp r with
  | zero => simp [serveLoop]
  | succ fuel ih =>
    simp only [serveLoop]
    cases readHead lim req.head r with
    | error e => simp
    | ok w =>
      obtain ⟨hd, r1⟩ := w
      simp only
      cases readConstLengthBody (env i).cap hd.headers req.body r1 with
      | fail e => simp
      | panic => simp
      | hang => simp
      | done body r2 =>
        simp only
        cases (env i).http ⟨hd, body⟩ resp with
        | err => simp
        | panic => simp
        | ok p req2 resp2 =>
          simp only
          rcases encodeResponse c (env i).ord resp2 with ⟨resp3, _ | bytes⟩
          · simp
          · simp only
            cases outs i with
            | failAfter k s =>
              simp only [sent]
              have hk : bytes.take k <+: bytes := List.take_prefix k bytes
              cases p with
              | current keep =>
                cases keep with
                | true => simpa using hk
                | false => simpa using hk
              | webSocket => simpa using hk
              | http2 => simpa using hk
            | ok =>
              simp only
              split
              · obtain ⟨k1, k2⟩ := ih (i + 1) (req2.clear c) (resp3.clear c) r2
                simp only [List.map_cons, List.flatten_cons, List.length_cons, List.take_succ_cons]
                exact ⟨Nat.succ_le_succ k1, (List.prefix_append_right_inj _).mpr k2⟩
              · simp
              · simp
              · simp

theorem serveW_le {K : Type} (c : Codec K) (lim : HttpLimits) (env : Nat → Env K) (r : Reader) (cap : Nat) (plan : Nat → SockRes) :
    (serveW c lim env r cap plan).1.length ≤ (serve c lim (fun j => { env j with write := .ok }) r).1.length := by
  obtain ⟨os, _, k2, _, _⟩ := C112_wire c lim env r cap plan
  obtain ⟨n, g1, g2, _⟩ := serveLoop_cut c lim env os (r.flat.length + 1) 0 Message.new Message.new r
  rw [k2, List.length_map]
  exact Nat.le_trans (Nat.le_of_eq g1) g2

/-- **C201, what a client finds.** If all the answers of a service are whole answers, then a client finds them in the bytes that it has received, one
after the other, in the order of the requests; at any moment what is left over is only the beginning of one more answer. If the stream always takes
bytes, then it finds as many answers as requests were delivered and nothing is left. -/
theorem C201_found {K : Type} (c : Codec K) (lim : HttpLimits) (env : Nat → Env K) (r : Reader) (cap : Nat) (plan : Nat → SockRes)
    (hw : ∀ ex ∈ (serve c lim (fun j => { env j with write := .ok }) r).1, ∃ lines body, OneAnswer ex.written lines body [])
    (p : Bytes) (hp : p <+: (serveW c lim env r cap plan).2.1.sock.taken) :
    ∃ outs left, Framed p outs left ∧ outs.length ≤ (serveW c lim env r cap plan).1.length ∧
      (∀ (j : Nat) (x : List Bytes × Bytes) (ex : Exchange K), outs[j]? = some x →
        (serve c lim (fun j => { env j with write := .ok }) r).1[j]? = some ex → OneAnswer ex.written x.1 x.2 []) ∧
      ((∀ i, ∃ n, plan i = .takes (n + 1)) → p = (serveW c lim env r cap plan).2.1.sock.taken →
        left = [] ∧ outs.length = (serveW c lim env r cap plan).1.length) ∧
      (left = [] ∨ ∃ ex, (serve c lim (fun j => { env j with write := .ok }) r).1[outs.length]? = some ex ∧ left <+: ex.written ∧
        left.length < ex.written.length) := by
  obtain ⟨os, h1, h2, _, h4⟩ := C112_wire c lim env r cap plan
  obtain ⟨n, g1, g2, g3⟩ := serveLoop_cut c lim env os (r.flat.length + 1) 0 Message.new Message.new r
  change (serve c lim (fun j => { env j with write := os j }) r).1.length = n at g1
  change n ≤ (serve c lim (fun j => { env j with write := .ok }) r).1.length at g2
  change ((serve c lim (fun j => { env j with write := os j }) r).1.map (·.written)).flatten <+:
    (((serve c lim (fun j => { env j with write := .ok }) r).1.map (·.written)).take n).flatten at g3
  rw [← h4] at g3
  have hn : (serveW c lim env r cap plan).1.length = n := by rw [h2, List.length_map, g1]
  have hfull : (∀ i, ∃ n, plan i = .takes (n + 1)) → (serveW c lim env r cap plan).2.1.sock.taken =
      (((serve c lim (fun j => { env j with write := .ok }) r).1.map (·.written)).take n).flatten := by
    intro hpl
    have : os = fun _ => .ok := funext (h1 hpl)
    subst this
    rw [h4, List.take_of_length_le (by rw [List.length_map, g1]; exact Nat.le_refl _)]
  generalize (serve c lim (fun j => { env j with write := .ok }) r).1 = exs at hw g2 g3 hfull ⊢
  have hx : ∃ xs : List (List Bytes × Bytes), xs.length = exs.length ∧
      ∀ (j : Nat) (x : List Bytes × Bytes) (ex : Exchange K), xs[j]? = some x → exs[j]? = some ex → OneAnswer ex.written x.1 x.2 [] := by
    clear g2 g3 hfull
    induction exs with
    | nil => exact ⟨[], rfl, by simp⟩
    | cons e exs ih =>
      obtain ⟨xs, k1, k2⟩ := ih (fun ex he => hw ex (by simp [he]))
      obtain ⟨lines, body, k3⟩ := hw e (by simp)
      refine ⟨(lines, body) :: xs, by simp [k1], fun j x ex hx he => ?_⟩
      cases j with
      | zero =>
        simp only [List.getElem?_cons_zero, Option.some.injEq] at hx he
        subst hx; subst he
        exact k3
      | succ j => exact k2 j x ex (by simpa using hx) (by simpa using he)
  obtain ⟨xs, k1, k2⟩ := hx
  obtain ⟨m, left, f1, f2, _, f4, f5⟩ := framed_prefix ((exs.map (·.written)).take n) (xs.take n) (by simp [k1]) (by
    intro j a x ha hx
    rw [List.getElem?_take] at ha hx
    split at ha
    · next hj =>
      rw [if_pos hj] at hx
      rw [List.getElem?_map, Option.map_eq_some_iff] at ha
      obtain ⟨ex, he, rfl⟩ := ha
      exact k2 j x ex hx he
    · cases ha) p (hp.trans g3)
  have hlen : ((exs.map (·.written)).take n).length = n := by simp; omega
  rw [hlen] at f1 f4
  refine ⟨_, left, f2, ?_, ?_, ?_, ?_⟩
  · rw [hn]
    simp only [List.length_take]
    omega
  · intro j x ex hx he
    refine k2 j x ex ?_ he
    rw [List.getElem?_take] at hx
    split at hx
    · rw [List.getElem?_take] at hx
      split at hx
      · exact hx
      · cases hx
    · cases hx
  · intro hpl hpe
    obtain ⟨q1, q2⟩ := f4 (hpe.trans (hfull hpl))
    refine ⟨q2, ?_⟩
    rw [hn, q1, List.take_take, Nat.min_self, List.length_take]
    omega
  · refine f5.imp id ?_
    rintro ⟨a, ha, e1, e2⟩
    rw [List.getElem?_take] at ha
    split at ha
    · rw [List.getElem?_map, Option.map_eq_some_iff] at ha
      obtain ⟨ex, he, rfl⟩ := ha
      refine ⟨ex, ?_, e1, e2⟩
      have : ((xs.take n).take m).length = m := by simp only [List.length_take]; omega
      rw [this]
      exact he
    · cases ha

theorem LengthLine_header (n : Nat) : LengthLine (b!"content-length: " ++ natToBytes n) n :=
  ⟨b!"content-length", [32], natToBytes n, by simp, by decide, by decide, by simp, natToBytes_ne n, natToBytes_digits n, natToBytes_value n⟩

theorem helloText_one (v : Bytes) (j : Nat) : OneAnswer (helloText v j)
    [helloStatus v ++ b!" 200 OK", b!"server: httpd.rs", b!"content-length: " ++ natToBytes ((j + 1) * 12)] (greetings (j + 1)) [] := by
  refine ⟨by rw [splitHead_hello, List.append_nil], b!"content-length: " ++ natToBytes ((j + 1) * 12), ?_, ?_⟩
  · have h1 : lineName (helloStatus v ++ b!" 200 OK") ≠ b!"content-length" := by
      have : ∃ t, helloStatus v ++ b!" 200 OK" = 72 :: t := by
        simp only [helloStatus]
        cases reqVersion v <;> exact ⟨_, rfl⟩
      obtain ⟨t, ht⟩ := this
      rw [ht]
      simp [lineName, lower]
    have h3 : lineName (b!"content-length: " ++ natToBytes ((j + 1) * 12)) = b!"content-length" := rfl
    have h2 : lineName b!"server: httpd.rs" ≠ b!"content-length" := by decide
    simp only [List.filter_cons, h1, h2, h3, decide_false, decide_true, Bool.false_eq_true, if_false, if_true, List.filter_nil]
  · rw [greetings_length]
    exact LengthLine_header _

theorem fsText_one : OneAnswer fsText [b!"  ", b!"content-length: 0"] [] [] :=
  ⟨by decide +kernel, b!"content-length: 0", by decide, LengthLine_header 0⟩

/-- **C201, the hello-world service.** Whatever bytes a client sends and in whatever portions its own end takes the answers, in what it has received
so far it finds answers one after the other; the body of the `j`-th is `j + 1` greetings, and there are no more of them than requests. -/
theorem C201_hello {K : Type} (c : Codec K) (lim : HttpLimits) (env : Nat → Env K) (he : ∀ j, (env j).http = helloHttp) (r : Reader) (cap : Nat)
    (plan : Nat → SockRes) (p : Bytes) (hp : p <+: (serveW c lim env r cap plan).2.1.sock.taken) :
    ∃ outs left, Framed p outs left ∧ outs.length ≤ (serveW c lim env r cap plan).1.length ∧
      (∀ (j : Nat) (x : List Bytes × Bytes), outs[j]? = some x → x.2 = greetings (j + 1)) ∧
      ((∀ i, ∃ n, plan i = .takes (n + 1)) → p = (serveW c lim env r cap plan).2.1.sock.taken →
        left = [] ∧ outs.length = (serveW c lim env r cap plan).1.length) := by
  obtain ⟨f, _, ht⟩ := C130_hello_whole c lim (fun j => { env j with write := .ok }) (fun j => ⟨he j, rfl⟩) r
  have key : ∀ (i : Nat) (s : Bytes) (outs : List Bytes) (f : Fate),
      Talk lim.maxUrl lim.maxHeaderLine lim.maxHeadersCount (afterOf r.fin) (fun j v => helloText v j) helloCloses i s outs f →
      ∀ (j : Nat) (o : Bytes), outs[j]? = some o → ∃ v, o = helloText v (i + j) := by
    intro i s outs f h
    induction h with
    | refused => simp
    | waits => simp
    | badLength => simp
    | short => simp
    | final j _ _ _ w2 =>
      intro k o ho
      cases k with
      | zero => simp only [List.getElem?_cons_zero, Option.some.injEq] at ho; exact ⟨w2, ho.symm⟩
      | succ k => simp at ho
    | next j _ _ _ w2 _ _ _ _ _ _ _ _ _ ih =>
      intro k o ho
      cases k with
      | zero => simp only [List.getElem?_cons_zero, Option.some.injEq] at ho; exact ⟨w2, ho.symm⟩
      | succ k =>
        obtain ⟨v, hv⟩ := ih k o (by simpa using ho)
        exact ⟨v, by rw [hv]; congr 1; omega⟩
  have hkey : ∀ (j : Nat) (ex : Exchange K), (serve c lim (fun j => { env j with write := .ok }) r).1[j]? = some ex →
      ∃ v, ex.written = helloText v j := by
    intro j ex hex
    obtain ⟨v, hv⟩ := key 0 _ _ _ ht j ex.written (by rw [List.getElem?_map, hex]; rfl)
    exact ⟨v, by rw [hv, Nat.zero_add]⟩
  obtain ⟨outs, left, h1, h2, h3, h4, _⟩ := C201_found c lim env r cap plan (by
    intro ex hex
    obtain ⟨j, hj⟩ := List.getElem?_of_mem hex
    obtain ⟨v, hv⟩ := hkey j ex hj
    rw [hv]
    exact ⟨_, _, helloText_one v j⟩) p hp
  refine ⟨outs, left, h1, h2, fun j x hx => ?_, h4⟩
  have hlen := serveW_le c lim env r cap plan
  have hj : j < outs.length := by
    rw [List.getElem?_eq_some_iff] at hx
    exact hx.1
  obtain ⟨ex, hex⟩ : ∃ ex, (serve c lim (fun j => { env j with write := .ok }) r).1[j]? = some ex :=
    ⟨_, List.getElem?_eq_getElem (by omega)⟩
  have := h3 j x ex hx hex
  obtain ⟨v, hv⟩ := hkey j ex hex
  rw [hv] at this
  exact ((helloText_one v j).unique this).2.1

/-- **C201, the file-system service.** The same; all the bodies are empty. -/
theorem C201_fs {K : Type} (c : Codec K) (lim : HttpLimits) (env : Nat → Env K) (he : ∀ j, (env j).http = fsHttp) (r : Reader) (cap : Nat)
    (plan : Nat → SockRes) (p : Bytes) (hp : p <+: (serveW c lim env r cap plan).2.1.sock.taken) :
    ∃ outs left, Framed p outs left ∧ outs.length ≤ (serveW c lim env r cap plan).1.length ∧ left.length < 25 ∧
      (∀ x ∈ outs, x = ([b!"  ", b!"content-length: 0"], [])) ∧
      ((∀ i, ∃ n, plan i = .takes (n + 1)) → p = (serveW c lim env r cap plan).2.1.sock.taken →
        left = [] ∧ outs.length = (serveW c lim env r cap plan).1.length) := by
  have hall : ∀ ex ∈ (serve c lim (fun j => { env j with write := .ok }) r).1, ex.written = fsText := by
    obtain ⟨f, _, ht⟩ := C130_fs_whole c lim (fun j => { env j with write := .ok }) (fun j => ⟨he j, rfl⟩) r
    have key : ∀ (j : Nat) (s : Bytes) (outs : List Bytes) (f : Fate),
        Talk lim.maxUrl lim.maxHeaderLine lim.maxHeadersCount (afterOf r.fin) (fun _ _ => fsText) (fun _ => False) j s outs f →
        ∀ o ∈ outs, o = fsText := by
      intro j s outs f h
      induction h with
      | refused => simp
      | waits => simp
      | badLength => simp
      | short => simp
      | final _ _ _ _ _ _ _ _ _ _ h => exact h.elim
      | next _ _ _ _ _ _ _ _ _ _ _ _ _ _ ih => intro o ho; rcases List.mem_cons.mp ho with h | h; exact h; exact ih o h
    exact fun ex hex => key _ _ _ _ ht ex.written (List.mem_map_of_mem hex)
  obtain ⟨outs, left, h1, h2, h3, h4, h5⟩ := C201_found c lim env r cap plan
    (fun ex hex => ⟨_, _, by rw [hall ex hex]; exact fsText_one⟩) p hp
  refine ⟨outs, left, h1, h2, ?_, fun x hx => ?_, h4⟩
  · rcases h5 with rfl | ⟨ex, hex, _, hl⟩
    · decide
    · rw [hall ex (List.mem_of_getElem? hex)] at hl
      exact hl
  · obtain ⟨j, hj⟩ := List.getElem?_of_mem hx
    have hlt : j < outs.length := by
      rw [List.getElem?_eq_some_iff] at hj
      exact hj.1
    have hlen := serveW_le c lim env r cap plan
    obtain ⟨ex, hex⟩ : ∃ ex, (serve c lim (fun j => { env j with write := .ok }) r).1[j]? = some ex :=
      ⟨_, List.getElem?_eq_getElem (by omega)⟩
    have := h3 j x ex hj hex
    rw [hall ex (List.mem_of_getElem? hex)] at this
    obtain ⟨e1, e2, _⟩ := fsText_one.unique this
    exact Prod.ext e1 e2

/-- Non-trivial case: two requests and then bytes that are no request; buffer of 16 bytes, 5 bytes at a time. The stream has taken two answers; and of
the first 100 bytes the client makes one answer and the beginning of another. -/
example : ∃ outs left, Framed ((serveW noCodec sampleLimits (fun _ => helloEnv) (Reader.ofBytes b!"G / v\r\n\r\nG / v!!\r\n\r\n?" .eof) 16
      (fun _ => .takes 5)).2.1.sock.taken.take 100) outs left ∧ outs.length ≤ 2 ∧
    (serveW noCodec sampleLimits (fun _ => helloEnv) (Reader.ofBytes b!"G / v\r\n\r\nG / v!!\r\n\r\n?" .eof) 16 (fun _ => .takes 5)).2.1.sock.taken.length
      = 150 := by
  obtain ⟨outs, left, h1, h2, _⟩ := C201_hello noCodec sampleLimits (fun _ => helloEnv) (fun _ => rfl)
    (Reader.ofBytes b!"G / v\r\n\r\nG / v!!\r\n\r\n?" .eof) 16 (fun _ => .takes 5) _ (List.take_prefix 100 _)
  refine ⟨outs, left, h1, Nat.le_trans h2 ?_, ?_⟩
  · decide +kernel
  · decide +kernel

end Httpd
