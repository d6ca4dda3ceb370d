import Verif.Props.Grammar
import Verif.Spec.Rfc
/-! # Requests of RFC 9112, hopeless heads, empty lines, amplification: C131-C134 -/

namespace Httpd
open Spec MultiMap

/-! ## C131: how much is written -/

theorem helloText_length_ge (v : Bytes) (j : Nat) : 12 * (j + 1) ≤ (helloText v j).length := by
  simp only [helloText, List.length_append, greetings_length]
  omega

/-- **C131**, negation for the code as written. `n` equal requests to the hello-world service - any well-formed request that does not
close the connection - make it write at least `6 n (n + 1)` bytes. -/
theorem C131_quadratic_violated {K : Type} (c : Codec K) (lim : HttpLimits) (env : Nat → Env K)
    (he : ∀ j, (env j).http = helloHttp ∧ (env j).write = .ok) (q : WireReq) (hq : q.WF lim.maxUrl lim.maxHeaderLine lim.maxHeadersCount)
    (ho : ¬ helloCloses q.head.w2) (n : Nat) (r : Reader) (hr : r.flat = encodeAll (List.replicate n q)) :
    r.flat.length = n * q.encode.length ∧
      6 * (n * (n + 1)) ≤ (((serve c lim env r).1.map (·.written)).map List.length).sum := by
  refine ⟨by rw [hr]; simp [encodeAll], ?_⟩
  rw [((C78_hello_transcript c lim env he (List.replicate n q) (fun q' h => by rw [List.eq_of_mem_replicate h]; exact hq)
    (fun q' h => by rw [List.eq_of_mem_replicate h]; exact ho) r).1 hr).1]
  clear hr
  induction n with
  | zero => simp
  | succ n ih =>
    rw [List.replicate_succ', List.mapIdx_append, List.map_append, List.sum_append]
    have := helloText_length_ge q.head.w2 n
    simp only [List.mapIdx_cons, List.mapIdx_nil, List.length_replicate, List.map_cons, List.map_nil, List.sum_cons, List.sum_nil,
      Nat.zero_add, Nat.add_zero]
    have e : 6 * ((n + 1) * (n + 1 + 1)) = 6 * (n * (n + 1)) + 12 * (n + 1) := by
      rw [Nat.mul_add (n + 1) (n + 1) 1, Nat.add_mul n 1 (n + 1), Nat.mul_one, Nat.one_mul]; omega
    omega

/-- **C131**, no factor is enough: for every factor `k` there is an input for which the hello-world service writes more than `k` times
as many bytes as it received. -/
theorem C131_no_factor_violated {K : Type} (c : Codec K) (lim : HttpLimits) (env : Nat → Env K)
    (he : ∀ j, (env j).http = helloHttp ∧ (env j).write = .ok) (q : WireReq) (hq : q.WF lim.maxUrl lim.maxHeaderLine lim.maxHeadersCount)
    (ho : ¬ helloCloses q.head.w2) (k : Nat) :
    ∃ s : Bytes, ∀ r : Reader, r.flat = s → k * s.length < (((serve c lim env r).1.map (·.written)).map List.length).sum := by
  refine ⟨encodeAll (List.replicate (k * q.encode.length + 1) q), fun r hr => ?_⟩
  obtain ⟨h1, h2⟩ := C131_quadratic_violated c lim env he q hq ho _ r hr
  rw [← hr, h1]
  refine Nat.lt_of_lt_of_le ?_ h2
  have e : k * ((k * q.encode.length + 1) * q.encode.length) = (k * q.encode.length + 1) * (k * q.encode.length) := by
    rw [Nat.mul_left_comm]
  rw [e]
  generalize k * q.encode.length = m
  have : (m + 1) * m < (m + 1) * (m + 1 + 1) := Nat.mul_lt_mul_of_pos_left (by omega) (by omega)
  omega

/-- **C131**, what holds: whatever the client sends, a file-system service writes at most 25 bytes for every 7 it receives. -/
theorem C131_fs_partial {K : Type} (c : Codec K) (lim : HttpLimits) (env : Nat → Env K)
    (he : ∀ j, (env j).http = fsHttp ∧ (env j).write = .ok) (r : Reader) :
    7 * (((serve c lim env r).1.map (·.written)).map List.length).sum ≤ 25 * r.flat.length := by
  obtain ⟨f, _, h⟩ := C130_fs_whole c lim env he r
  have h7 := (C77_finitely_many c lim env r).1
  have key : ∀ (j : Nat) (s : Bytes) (outs : List Bytes) (f : Fate),
      Talk lim.maxUrl lim.maxHeaderLine lim.maxHeadersCount (afterOf r.fin) (fun _ _ => fsText) (fun _ => False) j s outs f →
      (outs.map List.length).sum = 25 * outs.length := by
    intro j s outs f h
    induction h with
    | refused => rfl
    | waits => rfl
    | badLength => rfl
    | short => rfl
    | final _ _ _ _ _ _ _ _ _ _ h => exact h.elim
    | next _ _ _ _ _ _ _ _ _ _ _ _ _ _ ih =>
      have : fsText.length = 25 := by decide
      simp only [List.map_cons, List.sum_cons, List.length_cons, ih, this]
      omega
  rw [key _ _ _ _ h, List.length_map]
  omega

/-- Non-trivial case: three equal requests; the third answer is longer than the first by 24 bytes. -/
example : (((serve noCodec sampleLimits (fun _ => helloEnv)
    (Reader.ofBytes (encodeAll (List.replicate 3 (reqOf b!"x"))) .eof)).1.map (·.written)).map List.length) = [69, 81, 93] := by
  decide +kernel

/-! ## C132: hopeless heads -/

/-- The first piece of a stream that starts with `s` is longer than `s`, or is the whole stream. -/
theorem first_piece {s t p rest : Bytes} {closed : Bool} (h : Taken 32 128 closed p rest) (he : p ++ rest = s ++ t) (hs : 32 ∉ s)
    (hl : s.length < 128) : (∃ u, u ≠ [] ∧ p = s ++ u) ∨ rest = [] := by
  have hcase : ∀ n, s.length < n → p.length = n → ∃ u, u ≠ [] ∧ p = s ++ u := by
    intro n h1 h2
    have hp : s <+: p := List.prefix_of_prefix_length_le (⟨t, rfl⟩ : s <+: s ++ t) ⟨rest, he⟩ (by omega)
    obtain ⟨u, hu⟩ := hp
    refine ⟨u, ?_, hu.symm⟩
    rintro rfl
    have := congrArg List.length hu
    simp at this; omega
  cases h with
  | full _ _ h1 h2 => left; exact hcase 128 hl h2
  | last _ _ => right; rfl
  | upTo q _ h1 h2 =>
    left
    refine hcase _ (Nat.lt_of_not_le fun hle => ?_) rfl
    have hp : q ++ [32] <+: s := List.prefix_of_prefix_length_le ⟨rest, he⟩ ⟨t, rfl⟩ hle
    exact hs (hp.subset (by simp))

/-- **C132**, negation for the code as written. Bytes that have no space and are not all printable, fewer than 128: no continuation of
them is a request, but the connection goes on waiting for one. -/
theorem C132_hopeless_violated (lim : HttpLimits) (s : Bytes) (hs : 32 ∉ s) (hl : s.length < 128) (hbad : ∃ b ∈ s, ¬ IsText b) :
    (∀ hd : Head, hd.Blank → ∀ r : Reader, r.flat = s → r.fin = .silent → readHead lim hd r = .error .waiting) ∧
    (∀ hd : Head, hd.Blank → ∀ (t : Bytes) (r : Reader), r.flat = s ++ t → ∀ x, readHead lim hd r ≠ .ok x) := by
  refine ⟨fun hd hb r hr hf => (C129_waits lim hd hb r).mpr ⟨hf, by rw [hr]; exact .method s hs hl⟩, ?_⟩
  intro hd hb t r hr x hx
  obtain ⟨hd', r'⟩ := x
  obtain ⟨fs, h, _⟩ := C129_accepted lim hd hd' hb r r' hx
  generalize hfl : r.flat = w at h
  cases h with
  | mk _ _ _ a b x y s' fs rest t0 x0 _ _ _ _ _ _ _ =>
    rcases first_piece t0 (hfl.symm.trans hr) hs hl with ⟨u, hu, he⟩ | he
    · obtain ⟨c, hc, hn⟩ := hbad
      obtain ⟨u', z, rfl⟩ : ∃ u' z, u = u' ++ [z] := ⟨u.dropLast, u.getLast hu, (List.dropLast_concat_getLast hu).symm⟩
      rw [← List.append_assoc] at he
      have := (List.append_inj' he rfl).1
      exact hn (x0 c (by rw [this]; simp [hc]))
    · simp at he

/-- **C132**, what holds: a first word that is complete and not printable is refused at once, whether or not more bytes come. -/
theorem C132_complete_word_partial (lim : HttpLimits) (s rest : Bytes) (hs : 32 ∉ s) (hl : s.length < 128) (hbad : ∃ b ∈ s, ¬ IsText b)
    (hd : Head) (hb : hd.Blank) (r : Reader) (hr : r.flat = s ++ [32] ++ rest) :
    ∃ e, readHead lim hd r = .error e ∧ e ≠ .waiting := by
  obtain ⟨c, hc, hn⟩ := hbad
  have hu : ∀ {closed : Bool} {p rest' : Bytes}, Taken 32 128 closed p rest' → p ++ rest' = s ++ [32] ++ rest → p = s ++ [32] := by
    intro closed p rest' h1 h2
    have := (taken_cut h1).1
    rw [h2, (taken_cut (Taken.upTo (closed := closed) s rest hs hl)).1] at this
    exact (congrArg Prod.fst this).symm
  rw [C129_refused lim hd hb r]
  constructor
  · rintro ⟨w0, w1, w2, fs, rest', h⟩
    generalize hfl : r.flat = w at h
    cases h with
    | mk _ _ _ a b x y s' fs rest t0 x0 _ _ _ _ _ _ _ =>
      have := (List.append_inj' (hu t0 (hfl.symm.trans hr)) rfl).1
      exact hn (x0 c (by rw [this]; exact hc))
  · rintro ⟨_, h⟩
    generalize hfl : r.flat = w at h
    have hw := hfl.symm.trans hr
    cases h with
    | method _ h1 => rw [hw] at h1; simp at h1
    | target _ a s' t0 x0 => exact hn (x0 c (by rw [(List.append_inj' (hu t0 hw) rfl).1]; exact hc))
    | version _ _ _ _ s' t0 x0 => exact hn (x0 c (by rw [(List.append_inj' (hu t0 hw) rfl).1]; exact hc))
    | fields _ _ _ _ _ _ _ s' t0 x0 => exact hn (x0 c (by rw [(List.append_inj' (hu t0 hw) rfl).1]; exact hc))

/-- Non-trivial cases: the first byte of a TLS handshake on a plain port, and the same followed by a space. -/
example : (∃ b ∈ ([22, 3, 1] : Bytes), ¬ IsText b) ∧
    readHead sampleLimits Head.new (Reader.ofBytes [22, 3, 1] .silent) = .error .waiting ∧
    readHead sampleLimits Head.new (Reader.ofBytes [22, 3, 1, 32] .silent) = .error .badDatagram := by
  refine ⟨⟨22, by decide, by decide⟩, ?_, rfl⟩
  exact (C132_hopeless_violated sampleLimits [22, 3, 1] (by decide) (by decide) ⟨22, by decide, by decide⟩).1 _ Head.blank_new _
    (Reader.flat_ofBytes _ _) rfl

/-! ## C134: an empty line before a request -/

/-- **C134**, negation for the code as written: nothing that starts with an empty line is ever accepted. -/
theorem C134_leading_crlf_violated (lim : HttpLimits) (hd : Head) (hb : hd.Blank) (s : Bytes) (r : Reader) (hr : r.flat = 13 :: 10 :: s)
    (x : Head × Reader) : readHead lim hd r ≠ .ok x :=
  (C132_hopeless_violated lim [13, 10] (by decide) (by decide) ⟨13, by decide, by decide⟩).2 hd hb s r hr x

/-- **C134**, the connection: a client that sends an empty line before its next request is cut off (or, until its first space, waited
for) without an answer to that request. -/
theorem C134_no_answer_violated {K : Type} (c : Codec K) (lim : HttpLimits) (env : Nat → Env K) (r : Reader) (s : Bytes)
    (hr : r.flat = 13 :: 10 :: s) : (serve c lim env r).1 = [] := by
  simp only [serve, serveLoop]
  cases h : readHead lim (Message.new : Message K).head r with
  | error e => rfl
  | ok x => exact absurd h (C134_leading_crlf_violated lim _ Head.blank_new s r hr x)

/-- Non-trivial case. -/
example : serve noCodec sampleLimits (fun _ => helloEnv) (Reader.ofBytes (b!"\r\n" ++ sampleReq.encode) .silent) =
    ([], .headFail .badDatagram) ∧
    (serve noCodec sampleLimits (fun _ => helloEnv) (Reader.ofBytes sampleReq.encode .silent)).1.length = 1 := by
  refine ⟨?_, by decide +kernel⟩
  apply Prod.ext
  · exact C134_no_answer_violated _ _ _ _ (sampleReq.encode) (Reader.flat_ofBytes _ _)
  · decide +kernel

/-! ## C133: the requests of RFC 9112 -/

theorem tchar_visible {b : Byte} (h : IsTchar b) : IsVisible b ∧ b ≠ 58 :=
  forall_byte (P := fun b => IsTchar b → IsVisible b ∧ b ≠ 58) (by decide +kernel) b h

theorem visible_text {b : Byte} (h : IsVisible b) : IsText b :=
  forall_byte (P := fun b => IsVisible b → IsText b) (by decide +kernel) b h

theorem fieldByte_ne_lf {b : Byte} (h : IsFieldByte b) : b ≠ 10 :=
  forall_byte (P := fun b => IsFieldByte b → b ≠ 10) (by decide +kernel) b h

theorem tchar_ne_lf {b : Byte} (h : IsTchar b) : b ≠ 10 :=
  forall_byte (P := fun b => IsTchar b → b ≠ 10) (by decide +kernel) b h

theorem taken_eq {delim : Byte} {limit : Nat} {closed : Bool} {q p rest rest' : Bytes} (h1 : delim ∉ q) (h2 : q.length < limit)
    (h : Taken delim limit closed p rest') (he : p ++ rest' = q ++ [delim] ++ rest) : p = q ++ [delim] ∧ rest' = rest := by
  have := (taken_cut h).1
  rw [he, (taken_cut (Taken.upTo (closed := closed) q rest h1 h2)).1] at this
  exact ⟨(congrArg Prod.fst this).symm, (congrArg Prod.snd this).symm⟩

/-- A valid field line within the limits. -/
structure RfcField.Good (maxLine : Nat) (f : RfcField) : Prop where
  ne : f.name ≠ []
  name : ∀ b ∈ f.name, IsTchar b
  raw : ∀ b ∈ f.raw, IsFieldByte b
  line : f.line.length ≤ maxLine
  name_len : f.name.length ≤ 256

theorem RfcField.Good.piece {maxLine : Nat} {f : RfcField} (h : RfcField.Good maxLine f) :
    10 ∉ f.name ++ 58 :: f.raw ++ [13] ∧ (f.name ++ 58 :: f.raw ++ [13]).length < maxLine ∧
      f.line = (f.name ++ 58 :: f.raw ++ [13]) ++ [10] := by
  refine ⟨?_, ?_, by simp [RfcField.line]⟩
  · simp only [List.mem_append, List.mem_cons, List.not_mem_nil, or_false]
    rintro ((h1 | h1 | h1) | h1)
    · exact tchar_ne_lf (h.name _ h1) rfl
    · cases h1
    · exact fieldByte_ne_lf (h.raw _ h1) rfl
    · cases h1
  · have := h.line
    simp only [RfcField.line, List.length_append, List.length_cons, List.length_nil] at this ⊢
    omega

theorem colon_split {n n' v v' : Bytes} (h : n ++ 58 :: v = n' ++ 58 :: v') (h1 : 58 ∉ n) (h2 : 58 ∉ n') : n = n' ∧ v = v' := by
  induction n generalizing n' with
  | nil =>
    cases n' with
    | nil => simpa using h
    | cons a n' => simp at h; exact absurd (by simp [← h.1]) h2
  | cons a n ih =>
    cases n' with
    | nil => simp at h; exact absurd (by simp [h.1]) h1
    | cons a' n' =>
      simp only [List.cons_append, List.cons.injEq] at h
      obtain ⟨e1, e2⟩ := ih h.2 (fun hm => h1 (by simp [hm])) (fun hm => h2 (by simp [hm]))
      exact ⟨by rw [h.1, e1], e2⟩

theorem rfcField_colon {maxLine : Nat} {f : RfcField} (h : RfcField.Good maxLine f) : 58 ∉ f.name :=
  fun hm => (tchar_visible (h.name _ hm)).2 rfl

/-- A section of valid field lines is a section of the grammar only if they are all plain. -/
theorem section_plain {maxLine maxCount : Nat} {closed : Bool} (fs : List RfcField) (hg : ∀ f ∈ fs, RfcField.Good maxLine f)
    (s gs rest' : _) (h : Section maxLine maxCount closed s gs rest') (rest : Bytes) (hs : s = rfcFields fs ++ rest) :
    ∀ f ∈ fs, f.Plain := by
  induction fs generalizing s gs with
  | nil => simp
  | cons f fs ih =>
    obtain ⟨g1, g2, g3⟩ := (hg f (by simp)).piece
    have hfl : s = (f.name ++ 58 :: f.raw ++ [13]) ++ [10] ++ (rfcFields fs ++ rest) := by
      rw [hs, ← g3]; simp [rfcFields]
    have hcol := rfcField_colon (hg f (by simp))
    cases h with
    | stop x y rest'' t =>
      have := (taken_eq g1 g2 t hfl).1
      have := congrArg List.length this
      simp at this
      have := List.length_pos_iff.mpr (hg f (by simp)).ne
      omega
    | skip l x y s' fs' rest'' t hne ht hc hlen hsec =>
      have h1 := (taken_eq g1 g2 t hfl).1
      rw [show f.name ++ 58 :: f.raw ++ [13] ++ [10] = (f.name ++ 58 :: f.raw) ++ [13, 10] by simp] at h1
      have h2 := (List.append_inj' h1 rfl).1
      exact absurd (by rw [h2]; simp) hc
    | field n v n' v' x y s' fs' rest'' t hn hc hlen hv hvne hmx st sv hsec =>
      obtain ⟨h1, h3⟩ := taken_eq g1 g2 t hfl
      rw [show f.name ++ 58 :: f.raw ++ [13] ++ [10] = (f.name ++ 58 :: f.raw) ++ [13, 10] by simp] at h1
      obtain ⟨h4, h5⟩ := colon_split (List.append_inj' h1 rfl).1 hc hcol
      intro g hgm
      rcases List.mem_cons.mp hgm with rfl | hgm
      · exact ⟨h5 ▸ hvne, h5 ▸ hv⟩
      · exact ih (fun f hf => hg f (by simp [hf])) s' fs' hsec h3 g hgm

/-- And it is never an unfinished one. -/
theorem sectionOpen_rfc {maxLine maxCount : Nat} (fs : List RfcField) (hg : ∀ f ∈ fs, RfcField.Good maxLine f) (h2 : 2 ≤ maxLine)
    (s : Bytes) (h : SectionOpen maxLine maxCount s) (rest : Bytes) (hs : s = rfcFields fs ++ rest) : False := by
  induction fs generalizing s with
  | nil =>
    have hfl : s = [13] ++ [10] ++ rest := by rw [hs]; simp [rfcFields]
    cases h with
    | here _ h1 => rw [hfl] at h1; simp at h1
    | skip l x y s' t hne =>
      have := congrArg List.length (taken_eq (by decide) (by simp; omega) t hfl).1
      have := List.length_pos_iff.mpr hne
      simp only [List.length_append, List.length_cons, List.length_nil] at *; omega
    | field n v x y s' t =>
      have := congrArg List.length (taken_eq (by decide) (by simp; omega) t hfl).1
      simp at this; omega
  | cons f fs ih =>
    obtain ⟨g1, g2, g3⟩ := (hg f (by simp)).piece
    have hfl : s = (f.name ++ 58 :: f.raw ++ [13]) ++ [10] ++ (rfcFields fs ++ rest) := by
      rw [hs, ← g3]; simp [rfcFields]
    cases h with
    | here _ h1 => rw [hfl] at h1; simp at h1
    | skip l x y s' t hne ht hc hlen hsec =>
      exact ih (fun f hf => hg f (by simp [hf])) s' hsec (taken_eq g1 g2 t hfl).2
    | field n v x y s' t hn hc hlen hv hvne hmx hsec =>
      exact ih (fun f hf => hg f (by simp [hf])) s' hsec (taken_eq g1 g2 t hfl).2

theorem trimSp_stripped (s : Bytes) : Stripped s (trimSp s) := (stripped_iff _ _).mpr rfl

theorem tchar_ne_space {b : Byte} (h : IsTchar b) : b ≠ 32 :=
  forall_byte (P := fun b => IsTchar b → b ≠ 32) (by decide +kernel) b h

theorem tchar_stripped {s : Bytes} (h : ∀ b ∈ s, IsTchar b) : Stripped s s := by
  refine ⟨0, 0, by simp, ?_, ?_⟩
  · intro hh; exact tchar_ne_space (h 32 (List.mem_of_mem_head? hh)) rfl
  · intro hh; exact tchar_ne_space (h 32 (List.mem_of_getLast? hh)) rfl

/-- Plain field lines are a section of the grammar. -/
theorem rfc_section {maxLine maxCount : Nat} {closed : Bool} (fs : List RfcField) (hg : ∀ f ∈ fs, RfcField.Good maxLine f)
    (hp : ∀ f ∈ fs, f.Plain) (h2 : 2 ≤ maxLine) (hc : fs.length ≤ maxCount) (rest : Bytes) :
    Section maxLine maxCount closed (rfcFields fs ++ rest) (fs.map (fun f => (lower f.name, trimSp f.raw))) rest := by
  have key : ∀ fs : List RfcField, (∀ f ∈ fs, RfcField.Good maxLine f) → (∀ f ∈ fs, f.Plain) → (fs ≠ [] → 1 ≤ maxCount) →
      Section maxLine maxCount closed (rfcFields fs ++ rest) (fs.map (fun f => (lower f.name, trimSp f.raw))) rest := by
    intro fs
    induction fs with
    | nil => intro _ _ _; exact .stop 13 10 rest (.upTo [13] rest (by decide) (by simp; omega))
    | cons f fs ih =>
      intro hg hp hc
      obtain ⟨g1, g2, g3⟩ := (hg f (by simp)).piece
      have hgf := hg f (by simp)
      have hpf := hp f (by simp)
      have he : rfcFields (f :: fs) ++ rest = f.name ++ 58 :: f.raw ++ [13, 10] ++ (rfcFields fs ++ rest) := by
        simp [rfcFields, RfcField.line]
      rw [he]
      refine .field f.name f.raw f.name (trimSp f.raw) 13 10 _ _ _ ?_ (fun b hb => visible_text (tchar_visible (hgf.name b hb)).1)
        (rfcField_colon hgf) hgf.name_len hpf.2 hpf.1 (hc (by simp)) (tchar_stripped hgf.name) (trimSp_stripped _)
        (ih (fun f hf => hg f (by simp [hf])) (fun f hf => hp f (by simp [hf])) (fun _ => hc (by simp)))
      have := Taken.upTo (closed := closed) (f.name ++ 58 :: f.raw ++ [13]) (rfcFields fs ++ rest) g1 g2
      simpa using this
  exact key fs hg hp (fun hne => by have := List.length_pos_iff.mpr hne; omega)

theorem isValue_trim {raw : Bytes} (h : ∀ b ∈ raw, IsText b) : IsValue raw (trimSp raw) := by
  obtain ⟨i, j, h1, h2, h3⟩ := trimSp_stripped raw
  have hno : ∀ b ∈ trimSp raw, b ≠ 9 := by
    intro b hb hb9
    have := h b (by rw [h1]; simp [hb])
    rw [hb9] at this; revert this; decide
  refine ⟨_, _, h1, ?_, h2, ?_, h3, ?_⟩
  · intro x hx
    simp only [List.mem_append, List.mem_replicate] at hx
    rcases hx with ⟨_, h⟩ | ⟨_, h⟩ <;> exact Or.inl h
  · intro hh; exact hno 9 (List.mem_of_mem_head? hh) rfl
  · intro hh; exact hno 9 (List.mem_of_getLast? hh) rfl

theorem values_plain (k : Bytes) (fs : List RfcField) (hp : ∀ f ∈ fs, f.Plain) :
    Values k fs (((fs.map (fun f => (lower f.name, trimSp f.raw))).filter (fun f => f.1 == k)).map (·.2)) := by
  induction fs with
  | nil => exact .nil
  | cons f fs ih =>
    have ih := ih (fun f hf => hp f (by simp [hf]))
    by_cases h : lower f.name = k
    · rw [List.map_cons, List.filter_cons, if_pos (by simpa using h)]
      exact .this f fs _ _ h (isValue_trim (hp f (by simp)).2) ih
    · rw [List.map_cons, List.filter_cons, if_neg (by simpa using h)]
      exact .other f fs _ h ih

theorem digit_text {b : Byte} (h : 48 ≤ b ∧ b ≤ 57) : IsText b :=
  forall_byte (P := fun b => 48 ≤ b ∧ b ≤ 57 → IsText b) (by decide +kernel) b h

theorem RfcHead.good {maxUrl maxLine maxCount : Nat} {h : RfcHead} (hv : h.Valid) (hw : h.Within maxUrl maxLine maxCount) :
    ∀ f ∈ h.fields, RfcField.Good maxLine f :=
  fun f hf => ⟨(hv.names f hf).1, (hv.names f hf).2, hv.raws f hf, hw.lines f hf, hw.name_len f hf⟩

theorem rfc_version {h : RfcHead} (hv : h.Valid) :
    h.version.length = 8 ∧ (∀ b ∈ h.version, IsText b) ∧ 10 ∉ h.version := by
  have ht : ∀ b ∈ h.version, IsText b := by
    intro b hb
    simp only [RfcHead.version, List.mem_append, List.mem_cons, List.not_mem_nil, or_false] at hb
    rcases hb with hb | rfl | rfl | rfl
    · rcases hb with rfl | rfl | rfl | rfl | rfl <;> decide
    · exact digit_text hv.major_digit
    · decide
    · exact digit_text hv.minor_digit
  exact ⟨rfl, ht, fun hm => by have := ht _ hm; revert this; decide⟩

theorem rfc_pieces {maxUrl maxLine maxCount : Nat} {h : RfcHead} (hv : h.Valid) (hw : h.Within maxUrl maxLine maxCount) :
    32 ∉ h.method ∧ h.method.length < 128 ∧ 32 ∉ h.target ∧ h.target.length < maxUrl ∧ 10 ∉ h.version ++ [13] ∧
      (h.version ++ [13]).length < 128 := by
  have h1 := hw.method_len
  have h2 := hw.target_len
  obtain ⟨v1, v2, v3⟩ := rfc_version hv
  refine ⟨fun hm => tchar_ne_space (hv.method_char _ hm) rfl, by omega, fun hm => ?_, by omega, ?_, by simp [v1]⟩
  · have := hv.target_char _ hm; revert this; decide
  · simp only [List.mem_append, not_or]; exact ⟨v3, by decide⟩

/-- **C133**, exactly which requests of RFC 9112 are accepted, for every head within the limits, whatever follows it and however it
arrives: those in which every field line has something after its colon, and that only printable ASCII and spaces. The method, target,
version and values delivered are then those of the RFC. Every other one is refused at its first other field line. -/
theorem C133_exactly_plain_partial (lim : HttpLimits) (w : RfcHead) (hv : w.Valid)
    (hw : w.Within lim.maxUrl lim.maxHeaderLine lim.maxHeadersCount) (hd : Head) (hb : hd.Blank) (rest : Bytes) (r : Reader)
    (hr : r.flat = w.encode ++ rest) :
    ((∀ f ∈ w.fields, f.Plain) → ∃ hd' r', readHead lim hd r = .ok (hd', r') ∧ hd'.f0 = w.method ∧ hd'.f1 = w.target ∧
      hd'.f2 = w.version ∧ r'.flat = rest ∧ r'.fin = r.fin ∧
      ∀ k, ∃ vs, Values k w.fields vs ∧ hd'.headers.getall k = (if vs = [] then none else some vs)) ∧
    ((∃ f ∈ w.fields, ¬ f.Plain) → ∃ e, readHead lim hd r = .error e ∧ e ≠ .waiting) := by
  obtain ⟨p1, p2, p3, p4, p5, p6⟩ := rfc_pieces hv hw
  obtain ⟨v1, v2, v3⟩ := rfc_version hv
  have hgood := RfcHead.good hv hw
  have hm : ∀ c ∈ w.method, IsText c := fun c hc => visible_text (tchar_visible (hv.method_char c hc)).1
  have ht : ∀ c ∈ w.target, IsText c := fun c hc => visible_text (hv.target_char c hc)
  have hvne : w.version ≠ [] := by simp [RfcHead.version]
  have he : w.encode ++ rest = w.method ++ [32] ++ (w.target ++ [32] ++ (w.version ++ [13, 10] ++ (rfcFields w.fields ++ rest))) := by
    simp [RfcHead.encode]
  constructor
  · intro hp
    have hT : HeadText lim.maxUrl lim.maxHeaderLine lim.maxHeadersCount (decide (r.fin = .eof)) r.flat w.method w.target w.version
        (w.fields.map (fun f => (lower f.name, trimSp f.raw))) rest := by
      rw [hr, he]
      refine .mk _ _ _ 32 32 13 10 _ _ _ (.upTo _ _ p1 p2) hm (.upTo _ _ p3 p4) ht ?_ hvne v2 (by decide)
        (rfc_section _ hgood hp hw.room hw.count rest)
      have := Taken.upTo (closed := decide (r.fin = .eof)) (w.version ++ [13]) (rfcFields w.fields ++ rest) p5 p6
      simpa using this
    obtain ⟨hd', r', h1, h2, h3, h4, h5, h6, h7⟩ := C129_accepts lim hd hb r _ _ _ _ _ hT
    refine ⟨hd', r', h1, h2, h3, h4, h6, h7, fun k => ⟨_, values_plain k _ hp, ?_⟩⟩
    rw [h5, C129_values]
    · generalize ((w.fields.map (fun f => (lower f.name, trimSp f.raw))).filter (fun f => f.1 == k)).map (·.2) = vs
      cases vs <;> simp
    · intro g hg
      obtain ⟨f, hf, rfl⟩ := List.mem_map.mp hg
      have := (hv.names f hf).1
      simp only [lower]
      intro h0
      exact this (List.map_eq_nil_iff.mp h0)
  · rintro ⟨f, hf, hnp⟩
    rw [C129_refused lim hd hb r]
    constructor
    · rintro ⟨w0, w1, w2, fs, rest', h⟩
      generalize hfl : r.flat = z at h
      have hz := (hfl.symm.trans hr).trans he
      cases h with
      | mk _ _ _ a b x y s' fs rest'' t0 x0 t1 x1 t2 ne x2 hu hsec =>
        obtain ⟨_, e1⟩ := taken_eq p1 p2 t0 hz
        obtain ⟨_, e2⟩ := taken_eq p3 p4 t1 e1
        obtain ⟨_, e3⟩ := taken_eq (rest := rfcFields w.fields ++ rest) p5 p6 t2 (by rw [e2]; simp)
        exact hnp (section_plain w.fields hgood _ _ _ hsec rest e3 f hf)
    · rintro ⟨_, h⟩
      generalize hfl : r.flat = z at h
      have hz := (hfl.symm.trans hr).trans he
      cases h with
      | method _ h1 => rw [hz] at h1; simp at h1
      | target _ a s' t0 x0 h1 =>
        obtain ⟨_, e1⟩ := taken_eq p1 p2 t0 hz
        rw [e1] at h1; simp at h1
      | version _ _ _ _ s' t0 x0 t1 x1 h1 =>
        obtain ⟨_, e1⟩ := taken_eq p1 p2 t0 hz
        obtain ⟨_, e2⟩ := taken_eq p3 p4 t1 e1
        rw [e2] at h1; simp at h1
      | fields _ _ _ _ _ _ _ s' t0 x0 t1 x1 t2 ne x2 hu hsec =>
        obtain ⟨_, e1⟩ := taken_eq p1 p2 t0 hz
        obtain ⟨_, e2⟩ := taken_eq p3 p4 t1 e1
        obtain ⟨_, e3⟩ := taken_eq (rest := rfcFields w.fields ++ rest) p5 p6 t2 (by rw [e2]; simp)
        exact sectionOpen_rfc w.fields hgood hw.room _ hsec rest e3

/-- **C133**, negation for the code as written: a head of RFC 9112 with a field line that has an empty value, a tab or a byte from 128
on is refused, whatever else it holds. -/
theorem C133_valid_refused_violated (lim : HttpLimits) (w : RfcHead) (hv : w.Valid)
    (hw : w.Within lim.maxUrl lim.maxHeaderLine lim.maxHeadersCount) (f : RfcField) (hf : f ∈ w.fields)
    (hodd : f.raw = [] ∨ 9 ∈ f.raw ∨ ∃ b ∈ f.raw, 128 ≤ b) (hd : Head) (hb : hd.Blank) (rest : Bytes) (r : Reader)
    (hr : r.flat = w.encode ++ rest) : ∃ e, readHead lim hd r = .error e ∧ e ≠ .waiting := by
  refine (C133_exactly_plain_partial lim w hv hw hd hb rest r hr).2 ⟨f, hf, ?_⟩
  rintro ⟨h1, h2⟩
  rcases hodd with h | h | ⟨b, h, hb⟩
  · exact h1 h
  · have := h2 _ h; revert this; decide
  · have := (h2 b h).2
    exact absurd (UInt8.le_trans hb this) (by decide)

/-- The request of the examples. -/
def rfcSample (raw : Bytes) : RfcHead :=
  { method := b!"GET", target := b!"/", major := 49, minor := 49, fields := [⟨b!"Host", b!" h"⟩, ⟨b!"X-Y", raw⟩] }

/-- Non-trivial cases: one head that is accepted and one that is refused because of a tab. -/
example : (rfcSample b!" a b ").Valid ∧ (rfcSample b!" a b ").Within sampleLimits.maxUrl sampleLimits.maxHeaderLine sampleLimits.maxHeadersCount ∧
    (∀ f ∈ (rfcSample b!" a b ").fields, f.Plain) ∧
    (rfcSample b!"\ta").Valid ∧ (rfcSample b!"\ta").Within sampleLimits.maxUrl sampleLimits.maxHeaderLine sampleLimits.maxHeadersCount ∧
    ¬ (∀ f ∈ (rfcSample b!"\ta").fields, f.Plain) := by
  refine ⟨⟨by decide, by decide, by decide, by decide, by decide, by decide, ?_, ?_⟩, ⟨by decide, by decide, ?_, ?_, by decide, by decide⟩, ?_,
    ⟨by decide, by decide, by decide, by decide, by decide, by decide, ?_, ?_⟩, ⟨by decide, by decide, ?_, ?_, by decide, by decide⟩, ?_⟩ <;>
    first
    | (simp only [rfcSample, List.mem_cons, List.not_mem_nil, or_false, forall_eq_or_imp, forall_eq]; decide)

example : readHead sampleLimits Head.new (Reader.ofBytes (rfcSample b!"\ta").encode .silent) = .error .badDatagram := rfl

end Httpd
