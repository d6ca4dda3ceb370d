import Verif.Spec.ReadBack
import Verif.Props.ConnLog
import Verif.Props.Render
/-!
# Reading a log file back (C186)
-/

namespace Httpd
open Spec MultiMap

/-- Up to the first `d` on both sides. -/
theorem peel {d : Byte} {a b s t : Bytes} (ha : d ∉ a) (hb : d ∉ b) (h : a ++ d :: s = b ++ d :: t) : a = b ∧ s = t := by
  induction a generalizing b with
  | nil =>
    cases b with
    | nil => simpa using h
    | cons y b =>
      simp only [List.nil_append, List.cons_append, List.cons.injEq] at h
      exact absurd (by rw [h.1]; simp) hb
  | cons x a ih =>
    cases b with
    | nil =>
      simp only [List.nil_append, List.cons_append, List.cons.injEq] at h
      exact absurd (by rw [h.1]; simp) ha
    | cons y b =>
      simp only [List.cons_append, List.cons.injEq] at h
      obtain ⟨e1, e2⟩ := ih (fun hx => ha (List.mem_cons_of_mem _ hx)) (fun hx => hb (List.mem_cons_of_mem _ hx)) h.2
      exact ⟨by rw [h.1, e1], e2⟩

/-- From the last `d` on. -/
theorem peel_end {d : Byte} {a b s t : Bytes} (hs : d ∉ s) (ht : d ∉ t) (h : a ++ d :: s = b ++ d :: t) : a = b ∧ s = t := by
  have h' := congrArg List.reverse h
  simp only [List.reverse_append, List.reverse_cons, List.append_assoc, List.singleton_append] at h'
  obtain ⟨e1, e2⟩ := peel (by simpa using hs) (by simpa using ht) h'
  exact ⟨List.reverse_inj.mp e2, List.reverse_inj.mp e1⟩

theorem level_not (l : Level) : 34 ∉ l.bytes ∧ 93 ∉ l.bytes := by cases l <;> decide

theorem level_inj {l l' : Level} (h : l.bytes = l'.bytes) : l = l' := by
  cases l <;> cases l' <;> first | rfl | exact absurd h (by decide)

theorem place_inj {f f' : Bytes} {n n' : Nat} (h : f ++ 58 :: natToBytes n = f' ++ 58 :: natToBytes n') : f = f' ∧ n = n' := by
  obtain ⟨e1, e2⟩ := peel_end (natToBytes_not n 58 (by decide)) (natToBytes_not n' 58 (by decide)) h
  exact ⟨e1, natToBytes_inj e2⟩

/-- A readable JSON line, by its quotes. -/
theorem json_shape (i : Item) (h : i.kvs = []) (rest : Bytes) :
    jsonRender i ++ rest = b!"{\"level\":\"" ++ (i.level.bytes ++ 34 :: (b!",\"time\":\"" ++ (i.time ++ 34 :: (b!",\"lineno\":\"" ++
      ((i.file ++ 58 :: natToBytes i.line) ++ 34 :: (b!",\"message\":\"" ++ (i.msg ++ 34 :: (b!"}\r\n" ++ rest)))))))) := by
  simp [jsonRender, h, quoted]

theorem json_peel {i j : Item} (hi : Quoteless i) (hj : Quoteless j) {s t : Bytes} (h : jsonRender i ++ s = jsonRender j ++ t) :
    told i = told j ∧ s = t := by
  rw [json_shape i hi.kvs, json_shape j hj.kvs] at h
  obtain ⟨e1, h⟩ := peel (level_not _).1 (level_not _).1 (List.append_cancel_left h)
  obtain ⟨e2, h⟩ := peel hi.time hj.time (List.append_cancel_left h)
  have hn : ∀ k : Item, Quoteless k → 34 ∉ k.file ++ 58 :: natToBytes k.line := by
    intro k hk
    simp only [List.mem_append, List.mem_cons, not_or]
    exact ⟨hk.file, by decide, natToBytes_not _ _ (by decide)⟩
  obtain ⟨e3, h⟩ := peel (hn i hi) (hn j hj) (List.append_cancel_left h)
  obtain ⟨e4, h⟩ := peel hi.msg hj.msg (List.append_cancel_left h)
  obtain ⟨e5, e6⟩ := place_inj e3
  refine ⟨?_, List.append_cancel_left h⟩
  simp only [told, Told.mk.injEq]
  exact ⟨level_inj e1, e2, e5, e6, e4⟩

/-- A readable plain line, by its punctuation. -/
theorem plain_shape (i : Item) (h : i.kvs = []) (rest : Bytes) :
    plainLine i ++ rest = b!"[" ++ (i.level.bytes ++ 93 :: (b!" " ++ ((i.time ++ [32]) ++ 40 ::
      ((i.file ++ 58 :: natToBytes i.line) ++ 41 :: (b!" " ++ ((i.msg ++ [13]) ++ 10 :: rest)))))) := by
  simp [plainLine, levelWord_eq, h]

theorem plain_peel {i j : Item} (hi : OneLined i) (hj : OneLined j) {s t : Bytes} (h : plainLine i ++ s = plainLine j ++ t) :
    told i = told j ∧ s = t := by
  rw [plain_shape i hi.kvs, plain_shape j hj.kvs] at h
  obtain ⟨e1, h⟩ := peel (level_not _).2 (level_not _).2 (List.append_cancel_left h)
  obtain ⟨e2, h⟩ := peel (by simpa using hi.time) (by simpa using hj.time) (List.append_cancel_left h)
  have hn : ∀ k : Item, OneLined k → 41 ∉ k.file ++ 58 :: natToBytes k.line := by
    intro k hk
    simp only [List.mem_append, List.mem_cons, not_or]
    exact ⟨hk.file, by decide, natToBytes_not _ _ (by decide)⟩
  obtain ⟨e3, h⟩ := peel (hn i hi) (hn j hj) h
  obtain ⟨e4, h⟩ := peel (by simpa using hi.msg) (by simpa using hj.msg) (List.append_cancel_left h)
  obtain ⟨e5, e6⟩ := place_inj e3
  refine ⟨?_, h⟩
  simp only [told, Told.mk.injEq]
  exact ⟨level_inj e1, List.append_cancel_right e2, e5, e6, List.append_cancel_right e4⟩

/-- A code whose words can be told from what follows them can be read back. -/
theorem read_back {P : Item → Prop} {f : Item → Bytes} (hne : ∀ i, f i ≠ [])
    (hp : ∀ i j s t, P i → P j → f i ++ s = f j ++ t → told i = told j ∧ s = t) (xs ys : List Item) (hx : ∀ i ∈ xs, P i) (hy : ∀ i ∈ ys, P i)
    (h : (xs.map f).flatten = (ys.map f).flatten) : xs.map told = ys.map told := by
  induction xs generalizing ys with
  | nil =>
    cases ys with
    | nil => rfl
    | cons y ys =>
      simp only [List.map_nil, List.flatten_nil, List.map_cons, List.flatten_cons] at h
      exact absurd (List.append_eq_nil_iff.mp h.symm).1 (hne y)
  | cons x xs ih =>
    cases ys with
    | nil =>
      simp only [List.map_nil, List.flatten_nil, List.map_cons, List.flatten_cons] at h
      exact absurd (List.append_eq_nil_iff.mp h).1 (hne x)
    | cons y ys =>
      simp only [List.map_cons, List.flatten_cons] at h
      obtain ⟨e1, e2⟩ := hp x y _ _ (hx x (by simp)) (hy y (by simp)) h
      rw [List.map_cons, List.map_cons, e1, ih ys (fun i hi => hx i (by simp [hi])) (fun i hi => hy i (by simp [hi])) e2]

/-- **C186**, what holds for JSON lines: records without quotes in their texts can be read back from a file: two lists of such records with the
same lines are the same. -/
theorem C186_json_partial (xs ys : List Item) (hx : ∀ i ∈ xs, Quoteless i) (hy : ∀ i ∈ ys, Quoteless i)
    (h : (xs.map jsonRender).flatten = (ys.map jsonRender).flatten) : xs.map told = ys.map told :=
  read_back (fun i h => by
    have := json_shape i
    unfold jsonRender at h
    split at h <;> simp [quoted] at h) (fun _ _ _ _ hi hj h => json_peel hi hj h) xs ys hx hy h

/-- **C186**, what holds for plain lines (lines of the colour renderer without their colours, C73): records whose messages are one line can be read back. -/
theorem C186_plain_partial (xs ys : List Item) (hx : ∀ i ∈ xs, OneLined i) (hy : ∀ i ∈ ys, OneLined i)
    (h : (xs.map plainLine).flatten = (ys.map plainLine).flatten) : xs.map told = ys.map told :=
  read_back (fun i h => by simp [plainLine] at h) (fun _ _ _ _ hi hj h => plain_peel hi hj h) xs ys hx hy h

/-- The body that makes hello-world's JSON line look like two: the rest of the first line, and the second one up to its message. -/
def forgingBody (x : Bytes) (f : Item) : Bytes :=
  x ++ b!"\"}\r\n" ++ b!"{\"level\":\"" ++ f.level.bytes ++ b!"\",\"time\":\"" ++ f.time ++ b!"\",\"lineno\":\"" ++ f.file ++ b!":" ++
    natToBytes f.line ++ b!"\",\"message\":\"" ++ f.msg

theorem forging_ascii (x : Bytes) (f : Item) (hascii : ∀ b ∈ x ++ f.time ++ f.file ++ f.msg, b < 0x80) : ∀ b ∈ forgingBody x f, b < 0x80 := by
  have hlvl : ∀ b ∈ f.level.bytes, b < 0x80 := by cases f.level <;> decide
  have hdig : ∀ b ∈ natToBytes f.line, b < 0x80 := by
    intro b hb
    obtain ⟨_, h2⟩ := natToBytes_digits _ b hb
    exact UInt8.lt_iff_toNat_lt.mpr (Nat.lt_of_le_of_lt h2 (by decide))
  simp only [List.forall_mem_append] at hascii
  obtain ⟨⟨⟨h1, h2⟩, h3⟩, h4⟩ := hascii
  unfold forgingBody
  repeat' refine List.forall_mem_append.mpr ⟨?_, ?_⟩
  all_goals first | assumption | decide

theorem json_forge (it f : Item) (x before after : Bytes) (h1 : it.kvs = []) (h2 : f.kvs = []) (hm : it.msg = before ++ forgingBody x f ++ after) :
    jsonRender it = jsonRender { it with msg := before ++ x } ++ jsonRender { f with msg := f.msg ++ after } := by
  have e1 := json_shape it h1 []
  have e2 := json_shape { it with msg := before ++ x } h1 (jsonRender { f with msg := f.msg ++ after })
  have e3 := json_shape { f with msg := f.msg ++ after } h2 []
  rw [List.append_nil] at e1 e3
  rw [e1, e2, e3, hm, forgingBody]
  simp only [List.append_assoc, List.cons_append, List.nil_append]

/-- **C186 is violated**: whatever record `f` - of any level, time, place, and with any message of ASCII characters, quotes among them or not -
a client can put it into the JSON log: it sends a body; the one record about it has the same text as a record of the beginning of the body and
the record `f` (with a line of dashes at the end of its message). -/
theorem C186_forged_violated {K : Type} (c : Codec K) (lim : HttpLimits) (env : Nat → Env K) (l : LogEnv K) (idx : Nat)
    (ord : List Pair → List Pair) (hord : IsOrder ord) (hl : l.service 0 = helloLog idx l.addr ord) (x : Bytes) (f : Item)
    (hf : f.kvs = []) (hascii : ∀ b ∈ x ++ f.time ++ f.file ++ f.msg, b < 0x80) (q : WireReq) (hbody : q.body = forgingBody x f)
    (hq : q.WF lim.maxUrl lim.maxHeaderLine lim.maxHeadersCount) (r : Reader) (s : Bytes) (hr : r.flat = q.encode ++ s) :
    ∃ rec ∈ serveLog c lim env l r, ∀ time file line,
      jsonRender (rec.item time file line) =
        jsonRender { rec.item time file line with msg := b!"PrintableBody:\r\n---------------------\r\n" ++ x } ++
        jsonRender { f with msg := f.msg ++ b!"\r\n---------------------" } := by
  obtain ⟨hs, rest, _, _, e, _⟩ := C120_hello_request c lim env l idx ord hord hl q hq r s hr
  refine ⟨bodyRecord idx q.body, by rw [e]; simp, fun time file line => ?_⟩
  have hne : q.body ≠ [] := by rw [hbody]; simp [forgingBody]
  have hu : (decodeUtf8 q.body).isSome = true := by
    rw [decodeUtf8_ascii _ (by rw [hbody]; exact forging_ascii x f hascii)]; rfl
  refine json_forge _ f x _ _ ?_ hf ?_
  · simp only [bodyRecord, hne, if_false, hu, if_true]; rfl
  · rw [← hbody]
    simp only [Rec.item, Item.from, bodyRecord, hne, if_false, hu, if_true]

/-- Non-trivial cases: two records and their lines; a body that forges one. -/
def sampleTold : Item := { time := b!"2024-01-02 03:04:05.678", level := .info, file := b!"src/main.rs", line := 12, msg := b!"started", kvs := [], service := 0 }
example : Quoteless sampleTold ∧ OneLined sampleTold := ⟨⟨by decide, by decide, by decide, rfl⟩, ⟨by decide, by decide, by decide, rfl⟩⟩
example : forgingBody b!"x" sampleTold =
    b!"x\"}\r\n{\"level\":\"INFO\",\"time\":\"2024-01-02 03:04:05.678\",\"lineno\":\"src/main.rs:12\",\"message\":\"started" := by decide +kernel

end Httpd
