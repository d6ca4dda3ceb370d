import Verif.Spec.Render
import Verif.Lemmas.Config
import Verif.Lemmas.RustInt
/-!
# C72, C73: what log lines look like
-/

namespace Httpd

open Spec

theorem levelWord_eq (l : Level) : levelWord l = l.bytes := by cases l <;> rfl

/-! ## C73 -/

theorem strip_append_open (a b : Bytes) (h : 27 ∉ a) : strip false (a ++ b) = a ++ strip false b := by
  induction a with
  | nil => rfl
  | cons c cs ih =>
    simp only [List.mem_cons, not_or] at h
    simp [strip, Ne.symm h.1, ih h.2]

theorem strip_skip (a b : Bytes) (h : 109 ∉ a) : strip true (a ++ 109 :: b) = strip false b := by
  induction a with
  | nil => simp [strip]
  | cons c cs ih =>
    simp only [List.mem_cons, not_or] at h
    simp [strip, Ne.symm h.1, ih h.2]

theorem natToBytes_not (n : Nat) (b : Byte) (h : ¬ (48 ≤ b ∧ b ≤ 57)) : b ∉ natToBytes n := by
  intro hm
  have := natToBytes_digits n b hm
  simp only [IsDigit] at this
  exact h this

theorem strip_withColor (txt rest : Bytes) (c : Option Color) (h : 27 ∉ txt) : strip false (withColor txt c ++ rest) = txt ++ strip false rest := by
  cases c with
  | none => exact strip_append_open txt rest h
  | some c =>
    simp only [withColor]
    split
    · exact strip_append_open txt rest h
    · have hm : 109 ∉ b!"[38;2;" ++ natToBytes c.r ++ [59] ++ natToBytes c.g ++ [59] ++ natToBytes c.b := by
        have h1 := natToBytes_not c.r 109 (by decide)
        have h2 := natToBytes_not c.g 109 (by decide)
        have h3 := natToBytes_not c.b 109 (by decide)
        simp [h1, h2, h3]
      have e : [27] ++ (b!"[38;2;" ++ natToBytes c.r ++ [59] ++ natToBytes c.g ++ [59] ++ natToBytes c.b ++ [109]) ++ txt ++ [27] ++ b!"[0m" ++ rest
          = 27 :: ((b!"[38;2;" ++ natToBytes c.r ++ [59] ++ natToBytes c.g ++ [59] ++ natToBytes c.b) ++ 109 :: (txt ++ 27 :: (b!"[0" ++ 109 :: rest))) := by
        simp
      rw [e]
      simp only [strip, ↓reduceIte]
      rw [strip_skip _ _ hm, strip_append_open _ _ h]
      simp only [strip, ↓reduceIte]
      rw [strip_skip _ _ (by decide)]

theorem strip_colorPairs (key level : Option Color) (kvs : List (Bytes × Bytes)) (rest : Bytes) (h : ∀ kv ∈ kvs, 27 ∉ kv.1 ∧ 27 ∉ kv.2) :
    strip false (colorPairs key level kvs ++ rest) =
      b!" , ".intercalate (kvs.map fun kv => kv.1 ++ b!": " ++ kv.2) ++ strip false rest := by
  induction kvs with
  | nil => simp [colorPairs, List.intercalate]
  | cons kv kvs ih =>
    obtain ⟨k, v⟩ := kv
    obtain ⟨h1, h2⟩ := h (k, v) (List.mem_cons_self ..)
    have ih := ih (fun x hx => h x (List.mem_cons_of_mem _ hx))
    match kvs, ih with
    | [], _ =>
      simp only [colorPairs, List.append_assoc]
      rw [strip_withColor _ _ _ h1, strip_append_open _ _ (by decide), strip_withColor _ _ _ h2]
      simp [List.intercalate]
    | kv' :: kvs', ih =>
      simp only [colorPairs, List.append_assoc]
      rw [strip_withColor _ _ _ h1, strip_append_open _ _ (by decide), strip_withColor _ _ _ h2, strip_append_open _ _ (by decide), ih]
      simp [List.intercalate]

/-- **C73**: without its colour sequences, a coloured line is the plain line of the record, for every scheme. -/
theorem C73_color (scheme : ColorScheme) (item : Item) (h1 : 27 ∉ item.time) (h2 : 27 ∉ item.file) (h3 : 27 ∉ item.msg)
    (h4 : ∀ kv ∈ item.kvs, 27 ∉ kv.1 ∧ 27 ∉ kv.2) : strip false (colorRender scheme item) = plainLine item := by
  have hl : 27 ∉ [91] ++ item.level.bytes ++ [93] := by cases item.level <;> decide
  have hn := natToBytes_not item.line 27 (by decide)
  unfold colorRender plainLine
  simp only [levelWord_eq]
  cases hk : item.kvs with
  | nil =>
    simp only [List.isEmpty_nil, ↓reduceIte, List.append_assoc]
    simp only [List.append_assoc] at hl
    rw [strip_withColor _ _ _ hl, strip_append_open [32] _ (by decide), strip_withColor _ _ _ h1, strip_append_open [32] _ (by decide),
      strip_append_open [40] _ (by decide), strip_withColor _ _ _ h2, strip_append_open [58] _ (by decide), strip_withColor _ _ _ hn,
      strip_append_open _ _ (by decide), strip_withColor _ _ _ h3]
    simp [strip]
  | cons kv kvs =>
    rw [hk] at h4
    simp only [List.isEmpty_cons, Bool.false_eq_true, ↓reduceIte, List.append_assoc]
    simp only [List.append_assoc] at hl
    rw [strip_withColor _ _ _ hl, strip_append_open [32] _ (by decide), strip_withColor _ _ _ h1, strip_append_open [32] _ (by decide),
      strip_append_open [40] _ (by decide), strip_withColor _ _ _ h2, strip_append_open [58] _ (by decide), strip_withColor _ _ _ hn,
      strip_append_open _ _ (by decide), strip_withColor _ _ _ h3, strip_append_open _ _ (by decide), strip_colorPairs _ _ _ _ h4]
    simp [strip]

private def sample : Item := ⟨b!"12:00", .warn, b!"src/a.rs", 7, b!"hi", [(b!"k", b!"1"), (b!"l", b!"\"x\"")], 0⟩

example : strip false (colorRender .default sample) = b!"[WARN] 12:00 (src/a.rs:7) hi { k: 1 , l: \"x\" }\r\n" ∧
    colorRender .default sample ≠ plainLine sample := by decide +kernel

/-! ## C72 -/

theorem ws_nil : Ws [] := by intro b hb; cases hb

theorem members_text {ms : List (Bytes × Bytes)} {t : Bytes} (h : Members ms t) : JText .members t := by
  induction h with
  | one w w' v v' s k t h1 h2 h3 h4 h5 h6 => exact .member w w' v v' s k t h1 h2 h3 h4 h5 h6
  | more w w' v v' s k t r ms h1 h2 h3 h4 h5 h6 _ ih => exact .members w w' v v' s k t r h1 h2 h3 h4 h5 h6 ih

/-- An object is a JSON text. -/
theorem object_json {ms : List (Bytes × Bytes)} {t : Bytes} (h : Object ms t) : JText .value t := by
  obtain ⟨body, rfl, h⟩ := h
  exact .obj _ (members_text h)

theorem strBody_plain {t : Bytes} (h : PlainText t) : StrBody t t := by
  induction t with
  | nil => exact .nil
  | cons c cs ih =>
    obtain ⟨h1, h2, h3⟩ := h c (List.mem_cons_self ..)
    exact .plain c cs cs h1 h2 h3 (ih fun b hb => h b (List.mem_cons_of_mem _ hb))

theorem strText_plain {t : Bytes} (h : PlainText t) : StrText t (quoted t) := ⟨t, rfl, strBody_plain h⟩

theorem level_plain (l : Level) : PlainText l.bytes := by
  cases l <;> (intro b hb; revert b; decide)

theorem plain_append {a b : Bytes} (ha : PlainText a) (hb : PlainText b) : PlainText (a ++ b) := by
  intro c hc
  rcases List.mem_append.mp hc with h | h
  · exact ha c h
  · exact hb c h

theorem natToBytes_plain (n : Nat) : PlainText (natToBytes n) := by
  intro b hb
  have := natToBytes_digits n b hb
  simp only [IsDigit] at this
  obtain ⟨h1, h2⟩ := this
  refine ⟨UInt8.le_trans (b := 48) (by decide) h1, ?_, ?_⟩
  · rintro rfl; exact absurd h1 (by decide)
  · rintro rfl; exact absurd h2 (by decide)

theorem lineno_plain {item : Item} (h : PlainText item.file) : PlainText (item.file ++ [58] ++ natToBytes item.line) :=
  plain_append (plain_append h (by decide)) (natToBytes_plain _)

theorem plain_no_line {t : Bytes} (h : PlainText t) : 10 ∉ t ∧ 13 ∉ t := by
  refine ⟨fun hm => ?_, fun hm => ?_⟩
  · exact absurd (h 10 hm).1 (by decide)
  · exact absurd (h 13 hm).1 (by decide)

theorem quoted_no_line {t : Bytes} (h : PlainText t) : 10 ∉ quoted t ∧ 13 ∉ quoted t := by
  obtain ⟨h1, h2⟩ := plain_no_line h
  simp [quoted, h1, h2]

/-- The members of the line of a record with plain texts. -/
def lineMembers (item : Item) : List (Bytes × Bytes) :=
  [(b!"level", quoted (levelWord item.level)), (b!"time", quoted item.time), (b!"lineno", quoted (item.file ++ [58] ++ natToBytes item.line)),
    (b!"message", quoted item.msg)]

/-- A member without white space. -/
theorem members_cons {s k t r : Bytes} {ms : List (Bytes × Bytes)} (h1 : StrText s k) (h2 : JText .value t) (h3 : Members ms r) :
    Members ((s, t) :: ms) (k ++ [58] ++ t ++ [44] ++ r) := by
  have := Members.more [] [] [] [] s k t r ms ws_nil h1 ws_nil ws_nil h2 ws_nil h3
  simpa using this

theorem members_one {s k t : Bytes} (h1 : StrText s k) (h2 : JText .value t) : Members [(s, t)] (k ++ [58] ++ t) := by
  have := Members.one [] [] [] [] s k t ws_nil h1 ws_nil ws_nil h2 ws_nil
  simpa using this

theorem value_plain {t : Bytes} (h : PlainText t) : JText .value (quoted t) := .str _ _ (strText_plain h)

/-- A pair whose key is the JSON text of a string and whose value is a JSON text, on one line. -/
def PairOk (m kv : Bytes × Bytes) : Prop :=
  StrText m.1 kv.1 ∧ m.2 = kv.2 ∧ JText .value kv.2 ∧ 10 ∉ kv.1 ∧ 13 ∉ kv.1 ∧ 10 ∉ kv.2 ∧ 13 ∉ kv.2

theorem jsonPairs_members : ∀ (ms kvs : List (Bytes × Bytes)), Each2 PairOk ms kvs → kvs ≠ [] →
    Members ms (jsonPairs kvs) ∧ 10 ∉ jsonPairs kvs ∧ 13 ∉ jsonPairs kvs
  | _, [], _, h => absurd rfl h
  | _, [(k, v)], .cons (a := m) h .nil, _ => by
    obtain ⟨s, t⟩ := m
    obtain ⟨h1, h2, h3, h4, h5, h6, h7⟩ := h
    simp only at h1 h2 h3 h4 h5 h6 h7
    subst h2
    exact ⟨members_one h1 h3, by simp [jsonPairs, h4, h6], by simp [jsonPairs, h5, h7]⟩
  | _, (k, v) :: kv :: kvs, .cons (a := m) h hr, _ => by
    obtain ⟨s, t⟩ := m
    obtain ⟨h1, h2, h3, h4, h5, h6, h7⟩ := h
    simp only at h1 h2 h3 h4 h5 h6 h7
    subst h2
    obtain ⟨i1, i2, i3⟩ := jsonPairs_members _ (kv :: kvs) hr (by simp)
    refine ⟨members_cons h1 h3 i1, by simp [jsonPairs, h4, h6, i2], by simp [jsonPairs, h5, h7, i3]⟩

/-- **C72**, what holds: a record whose texts need no escapes, and whose keys happen to be JSON texts of strings already, is rendered as
one line that is one JSON object with the fields of the record. Missing from C72: texts that need escapes (`C72_message_violated`,
`C72_forged_violated`) and all other keys (`C72_keys_violated`). -/
theorem C72_plain_partial (item : Item) (h1 : PlainText item.time) (h2 : PlainText item.file) (h3 : PlainText item.msg)
    (ms : List (Bytes × Bytes)) (hkvs : Each2 PairOk ms item.kvs) :
    ∃ t, jsonRender item = t ++ crlf ∧ 10 ∉ t ∧ 13 ∉ t ∧
      ∃ inner, Object (lineMembers item ++ if item.kvs = [] then [] else [(b!"kvs", inner)]) t ∧ (item.kvs ≠ [] → Object ms inner) := by
  have p1 := level_plain item.level
  have p2 := lineno_plain h2
  have k1 : StrText b!"level" (quoted b!"level") := strText_plain (by decide)
  have k2 : StrText b!"time" (quoted b!"time") := strText_plain (by decide)
  have k3 : StrText b!"lineno" (quoted b!"lineno") := strText_plain (by decide)
  have k4 : StrText b!"message" (quoted b!"message") := strText_plain (by decide)
  have k5 : StrText b!"kvs" (quoted b!"kvs") := strText_plain (by decide)
  have q1 := quoted_no_line p1
  have q2 := quoted_no_line p2
  simp only [List.append_assoc, List.singleton_append] at q2
  have q3 := quoted_no_line h1
  have q4 := quoted_no_line h3
  have q5 := quoted_no_line (show PlainText b!"level" by decide)
  have q6 := quoted_no_line (show PlainText b!"time" by decide)
  have q7 := quoted_no_line (show PlainText b!"lineno" by decide)
  have q8 := quoted_no_line (show PlainText b!"message" by decide)
  have q9 := quoted_no_line (show PlainText b!"kvs" by decide)
  by_cases hk : item.kvs = []
  · refine ⟨[123] ++ (quoted b!"level" ++ [58] ++ quoted item.level.bytes ++ [44] ++ (quoted b!"time" ++ [58] ++ quoted item.time ++ [44] ++
      (quoted b!"lineno" ++ [58] ++ quoted (item.file ++ [58] ++ natToBytes item.line) ++ [44] ++ (quoted b!"message" ++ [58] ++ quoted item.msg)))) ++ [125],
      ?_, ?_, ?_, [], ?_, fun h => absurd hk h⟩
    · simp [jsonRender, hk]
    · simp [q1, q2, q3, q4, q5, q6, q7, q8]
    · simp [q1, q2, q3, q4, q5, q6, q7, q8]
    · rw [if_pos hk]
      exact ⟨_, rfl, members_cons k1 (value_plain p1) (members_cons k2 (value_plain h1) (members_cons k3 (value_plain p2) (members_one k4 (value_plain h3))))⟩
  · obtain ⟨m1, m2, m3⟩ := jsonPairs_members ms item.kvs hkvs hk
    have ho : Object ms ([123] ++ jsonPairs item.kvs ++ [125]) := ⟨_, rfl, m1⟩
    refine ⟨[123] ++ (quoted b!"level" ++ [58] ++ quoted item.level.bytes ++ [44] ++ (quoted b!"time" ++ [58] ++ quoted item.time ++ [44] ++
      (quoted b!"lineno" ++ [58] ++ quoted (item.file ++ [58] ++ natToBytes item.line) ++ [44] ++ (quoted b!"message" ++ [58] ++ quoted item.msg ++ [44] ++
      (quoted b!"kvs" ++ [58] ++ ([123] ++ jsonPairs item.kvs ++ [125])))))) ++ [125],
      ?_, ?_, ?_, [123] ++ jsonPairs item.kvs ++ [125], ?_, fun _ => ho⟩
    · have : item.kvs.isEmpty = false := by simpa using hk
      simp [jsonRender, this]
    · simp [q1, q2, q3, q4, q5, q6, q7, q8, q9, m2]
    · simp [q1, q2, q3, q4, q5, q6, q7, q8, q9, m3]
    · rw [if_neg hk]
      exact ⟨_, rfl, members_cons k1 (value_plain p1) (members_cons k2 (value_plain h1) (members_cons k3 (value_plain p2) (members_cons k4 (value_plain h3)
        (members_one k5 (object_json ho)))))⟩

/-! ### Every JSON text passes this automaton -/

inductive Scan
  | start
  | opened
  | inside
  | escape
  | closed
  | dead
deriving DecidableEq

def isWs (b : Byte) : Bool := b == 32 || b == 9 || b == 10 || b == 13

/-- The characters that may follow a backslash. -/
def mayEscape (b : Byte) : Bool := b == 34 || b == 92 || b == 47 || b == 98 || b == 102 || b == 110 || b == 114 || b == 116 || b == 117

/-- The characters that may follow a string. -/
def mayFollow (b : Byte) : Bool := b == 44 || b == 58 || b == 93 || b == 125

def Scan.step : Scan → Byte → Scan
  | .dead, _ => .dead
  | .start, b => if b = 34 then .inside else if b = 123 then .opened else .start
  | .opened, b => if isWs b then .opened else if b = 34 then .inside else if b = 125 then .start else .dead
  | .inside, b => if b = 34 then .closed else if b = 92 then .escape else if b < 32 then .dead else .inside
  | .escape, b => if mayEscape b then .inside else .dead
  | .closed, b => if isWs b then .closed else if mayFollow b then .start else .dead

def scan (q : Scan) (t : Bytes) : Scan := t.foldl Scan.step q

theorem scan_append (q : Scan) (a b : Bytes) : scan q (a ++ b) = scan (scan q a) b := List.foldl_append

theorem scan_dead (t : Bytes) : scan .dead t = .dead := by
  induction t with
  | nil => rfl
  | cons c cs ih => exact ih

theorem isWs_iff (b : Byte) : isWs b = true ↔ (b = 32 ∨ b = 9 ∨ b = 10 ∨ b = 13) := by
  simp [isWs, or_assoc]

theorem scan_ws {q : Scan} {w : Bytes} (h : Ws w) (hq : q = .start ∨ q = .opened ∨ q = .closed) : scan q w = q := by
  induction w with
  | nil => rfl
  | cons c cs ih =>
    have hc := h c (List.mem_cons_self ..)
    have : q.step c = q := by
      rcases hq with rfl | rfl | rfl
      · rcases hc with rfl | rfl | rfl | rfl <;> rfl
      · rcases hc with rfl | rfl | rfl | rfl <;> rfl
      · rcases hc with rfl | rfl | rfl | rfl <;> rfl
    show scan (q.step c) cs = q
    rw [this]
    exact ih fun b hb => h b (List.mem_cons_of_mem _ hb)

theorem hexVal_inside {b : Byte} {v : Nat} (h : hexVal b = some v) : Scan.inside.step b = .inside := by
  have : ∀ b : Byte, hexVal b ≠ none → Scan.inside.step b = .inside := forall_byte (by decide +kernel)
  exact this b (by rw [h]; simp)

theorem hex4_inside {h : Bytes} {v : Nat} (hh : Hex4 h v) : scan .inside h = .inside := by
  obtain ⟨a, b, c, d, va, vb, vc, vd, rfl, h1, h2, h3, h4, _⟩ := hh
  simp only [scan, List.foldl_cons, List.foldl_nil, hexVal_inside h1, hexVal_inside h2, hexVal_inside h3, hexVal_inside h4]

theorem scan_body {s t : Bytes} (h : StrBody s t) : scan .inside t = .inside := by
  induction h with
  | nil => rfl
  | plain c s t h1 h2 h3 _ ih =>
    have hstep : Scan.inside.step c = .inside := by
      have : ¬ c < 32 := UInt8.not_lt.mpr h1
      simp [Scan.step, h2, h3, this]
    show scan (Scan.inside.step c) t = _
    rw [hstep]
    exact ih
  | escape c d s t hm _ ih =>
    have hstep : Scan.escape.step c = .inside := by
      have : ∀ cd ∈ escapes, Scan.escape.step cd.1 = .inside := by decide
      exact this (c, d) hm
    show scan (Scan.escape.step c) t = _
    rw [hstep]
    exact ih
  | unit h v s t hh _ _ ih =>
    show scan .inside (h ++ t) = _
    rw [scan_append, hex4_inside hh]
    exact ih
  | pair h h' v v' s t hh hh' _ _ _ _ _ ih =>
    have e : scan .inside (92 :: 117 :: h ++ 92 :: 117 :: h' ++ t) = scan (scan .inside (h ++ (92 :: 117 :: (h' ++ t)))) [] := by
      show scan .inside (92 :: 117 :: h ++ 92 :: 117 :: h' ++ t) = scan .inside (h ++ (92 :: 117 :: (h' ++ t)))
      have : 92 :: 117 :: h ++ 92 :: 117 :: h' ++ t = [92, 117] ++ (h ++ (92 :: 117 :: (h' ++ t))) := by simp
      rw [this, scan_append]
      rfl
    rw [e]
    show scan .inside (h ++ (92 :: 117 :: (h' ++ t))) = _
    rw [scan_append, hex4_inside hh]
    show scan .inside (h' ++ t) = _
    rw [scan_append, hex4_inside hh']
    exact ih

theorem scan_str {q : Scan} {s t : Bytes} (h : StrText s t) (hq : q = .start ∨ q = .opened) : scan q t = .closed := by
  obtain ⟨body, rfl, hb⟩ := h
  rw [scan_append, scan_append]
  have : scan q [34] = .inside := by rcases hq with rfl | rfl <;> rfl
  rw [this, scan_body hb]
  rfl

/-- Scanning leaves a state in which anything may follow that may follow a value. -/
def Done (q : Scan) : Prop := q = .start ∨ q = .closed

theorem done_ws {q : Scan} (h : Done q) {w : Bytes} (hw : Ws w) : scan q w = q :=
  scan_ws hw (by rcases h with h | h <;> simp [h])

theorem done_step {q : Scan} (h : Done q) {b : Byte} (hb : mayFollow b = true) : q.step b = .start := by
  rcases h with rfl | rfl
  · have : ∀ b : Byte, mayFollow b = true → Scan.start.step b = .start := forall_byte (by decide +kernel)
    exact this b hb
  · have : ∀ b : Byte, mayFollow b = true → Scan.closed.step b = .start := forall_byte (by decide +kernel)
    exact this b hb

theorem scan_start_all {t : Bytes} (h : ∀ b ∈ t, b ≠ 34 ∧ b ≠ 123) : scan .start t = .start := by
  induction t with
  | nil => rfl
  | cons c cs ih =>
    obtain ⟨h1, h2⟩ := h c (List.mem_cons_self ..)
    have : Scan.start.step c = .start := by simp [Scan.step, h1, h2]
    show scan (Scan.start.step c) cs = _
    rw [this]
    exact ih fun b hb => h b (List.mem_cons_of_mem _ hb)

theorem digits_chars {t : Bytes} (h : Digits t) : ∀ b ∈ t, b ≠ 34 ∧ b ≠ 123 := by
  intro b hb
  obtain ⟨h1, h2⟩ := h.2 b hb
  exact ⟨by rintro rfl; exact absurd h1 (by decide), by rintro rfl; exact absurd h2 (by decide)⟩

theorem num_chars {t : Bytes} (h : NumText t) : ∀ b ∈ t, b ≠ 34 ∧ b ≠ 123 := by
  obtain ⟨sign, int, frac, exp, rfl, hs, hi, _, hf, he⟩ := h
  intro b hb
  simp only [List.mem_append] at hb
  rcases hb with ((hb | hb) | hb) | hb
  · rcases hs with rfl | rfl
    · cases hb
    · rw [List.mem_singleton.mp hb]; decide
  · exact digits_chars hi b hb
  · rcases hf with rfl | ⟨ds, rfl, hd⟩
    · cases hb
    · rcases List.mem_cons.mp hb with rfl | hb
      · decide
      · exact digits_chars hd b hb
  · rcases he with rfl | ⟨e, s, ds, rfl, he, hs, hd⟩
    · cases hb
    · simp only [List.cons_append, List.mem_cons, List.mem_append] at hb
      rcases hb with rfl | hb | hb
      · rcases he with rfl | rfl <;> decide
      · rcases hs with rfl | rfl | rfl
        · cases hb
        · rw [List.mem_singleton.mp hb]; decide
        · rw [List.mem_singleton.mp hb]; decide
      · exact digits_chars hd b hb

theorem scan_json {p : Part} {t : Bytes} (h : JText p t) :
    match p with
    | .value => Done (scan .start t)
    | .elems => Done (scan .start t)
    | .members => ∀ q, q = .start ∨ q = .opened → Done (scan q t) := by
  induction h with
  | null => exact Or.inl (by decide)
  | true => exact Or.inl (by decide)
  | false => exact Or.inl (by decide)
  | num t h => exact Or.inl (scan_start_all (num_chars h))
  | str s t h => exact Or.inr (scan_str h (Or.inl rfl))
  | emptyArr w h =>
    left
    rw [scan_append, scan_append]
    show scan (scan .start w) [93] = _
    rw [scan_ws h (Or.inl rfl)]
    rfl
  | arr t _ ih =>
    left
    rw [scan_append, scan_append]
    show (scan .start t).step 93 = _
    exact done_step ih (by decide)
  | emptyObj w h =>
    left
    rw [scan_append, scan_append]
    show scan (scan .opened w) [125] = _
    rw [scan_ws h (Or.inr (Or.inl rfl))]
    rfl
  | obj t _ ih =>
    left
    rw [scan_append, scan_append]
    show (scan .opened t).step 125 = _
    exact done_step (ih _ (Or.inr rfl)) (by decide)
  | elem w w' t h1 _ h3 ih =>
    simp only at ih ⊢
    rw [scan_append, scan_append, scan_ws h1 (Or.inl rfl), done_ws ih h3]
    exact ih
  | elems w w' t r h1 _ h3 _ ih ihr =>
    simp only at ih ihr ⊢
    rw [scan_append, scan_append, scan_append, scan_append, scan_ws h1 (Or.inl rfl), done_ws ih h3]
    show Done (scan ((scan .start t).step 44) r)
    rw [done_step ih (by decide)]
    exact ihr
  | member w w' v v' s k t h1 h2 h3 h4 _ h6 ih =>
    intro q hq
    simp only at ih
    rw [scan_append, scan_append, scan_append, scan_append, scan_append, scan_append, scan_ws h1 (by rcases hq with rfl | rfl <;> simp),
      scan_str h2 hq, scan_ws h3 (by simp)]
    show Done (scan (scan (scan .start v) t) v')
    rw [scan_ws h4 (Or.inl rfl), done_ws ih h6]
    exact ih
  | members w w' v v' s k t r h1 h2 h3 h4 _ h6 _ ih ihr =>
    intro q hq
    simp only at ih ihr
    rw [scan_append, scan_append, scan_append, scan_append, scan_append, scan_append, scan_append, scan_append,
      scan_ws h1 (by rcases hq with rfl | rfl <;> simp), scan_str h2 hq, scan_ws h3 (by simp)]
    show Done (scan (scan (scan (scan (scan .start v) t) v') [44]) r)
    rw [scan_ws h4 (Or.inl rfl), done_ws ih h6]
    show Done (scan ((scan .start t).step 44) r)
    rw [done_step ih (by decide)]
    exact ihr _ (Or.inl rfl)

theorem scan_isJson {t : Bytes} (h : IsJson t) : Done (scan .start t) := by
  obtain ⟨w, v, w', rfl, hw, hw', hv⟩ := h
  have := scan_json hv
  simp only at this
  rw [scan_append, scan_append, scan_ws hw (Or.inl rfl), done_ws this hw']
  exact this

theorem scan_plain {t : Bytes} (h : PlainText t) : scan .inside t = .inside := scan_body (strBody_plain h)

/-- Scanning a line up to the message. -/
theorem scan_line (item : Item) (h1 : PlainText item.time) (h2 : PlainText item.file) :
    ∃ pre tail, jsonRender item = pre ++ (item.msg ++ tail) ∧ scan .start pre = .inside := by
  have p1 := scan_plain (level_plain item.level)
  have p2 := scan_plain (lineno_plain h2)
  have p3 := scan_plain h1
  have hsc : scan .start (b!"{\"level\":\"" ++ item.level.bytes ++ b!"\",\"time\":\"" ++ item.time ++ b!"\",\"lineno\":\"" ++
      (item.file ++ [58] ++ natToBytes item.line) ++ b!"\",\"message\":\"") = .inside := by
    simp only [scan_append] at p2 ⊢
    have e1 : scan .start b!"{\"level\":\"" = .inside := by decide
    have e2 : scan .inside b!"\",\"time\":\"" = .inside := by decide
    have e3 : scan .inside b!"\",\"lineno\":\"" = .inside := by decide
    have e4 : scan .inside b!"\",\"message\":\"" = .inside := by decide
    rw [e1, p1, e2, p3, e3, p2, e4]
  unfold jsonRender
  simp only
  split
  · exact ⟨_, b!"\"}\r\n", by simp [quoted], hsc⟩
  · exact ⟨_, [34, 44] ++ quoted b!"kvs" ++ [58] ++ [123] ++ jsonPairs item.kvs ++ b!"}}\r\n", by simp [quoted], hsc⟩

/-- **C72**, negation for the code as written: if after some plain text the message holds a control character, a backslash that does
not start an escape, or a quote not followed by what follows a string, the line is not JSON. -/
theorem C72_message_violated (item : Item) (h1 : PlainText item.time) (h2 : PlainText item.file) (a rest : Bytes) (c : Byte)
    (ha : PlainText a)
    (hmsg : (item.msg = a ++ c :: rest ∧ c < 32) ∨ (item.msg = a ++ 92 :: c :: rest ∧ mayEscape c = false) ∨
      (item.msg = a ++ 34 :: c :: rest ∧ mayFollow c = false ∧ isWs c = false)) : ¬ IsJson (jsonRender item) := by
  intro h
  have hd := scan_isJson h
  obtain ⟨pre, tail, hp, hs⟩ := scan_line item h1 h2
  rw [hp, scan_append, scan_append, hs] at hd
  have hdead : scan .inside item.msg = .dead := by
    rcases hmsg with ⟨hm, hc⟩ | ⟨hm, hc⟩ | ⟨hm, hc, hw⟩
    · rw [hm, scan_append, scan_plain ha]
      show scan (Scan.inside.step c) rest = _
      have : Scan.inside.step c = .dead := by
        have : ∀ c : Byte, c < 32 → Scan.inside.step c = .dead := forall_byte (by decide +kernel)
        exact this c hc
      rw [this, scan_dead]
    · rw [hm, scan_append, scan_plain ha]
      show scan (Scan.escape.step c) rest = _
      have : Scan.escape.step c = .dead := by simp [Scan.step, hc]
      rw [this, scan_dead]
    · rw [hm, scan_append, scan_plain ha]
      show scan (Scan.closed.step c) rest = _
      have : Scan.closed.step c = .dead := by simp [Scan.step, hc, hw]
      rw [this, scan_dead]
  rw [hdead, scan_dead] at hd
  rcases hd with h | h <;> cases h

/-- **C72**, negation for the code as written: a record with plain texts and a key/value pair whose key does not itself start with a quote,
white space or a closing brace - all usual keys - gives a line that is not JSON. -/
theorem C72_keys_violated (item : Item) (h1 : PlainText item.time) (h2 : PlainText item.file) (h3 : PlainText item.msg) (c : Byte) (key v : Bytes)
    (kvs : List (Bytes × Bytes)) (hk : item.kvs = (c :: key, v) :: kvs) (hc : c ≠ 34 ∧ c ≠ 125 ∧ isWs c = false) :
    ¬ IsJson (jsonRender item) := by
  intro h
  have hd := scan_isJson h
  have p1 := scan_plain (level_plain item.level)
  have p2 := scan_plain (lineno_plain h2)
  have p3 := scan_plain h1
  have p4 := scan_plain h3
  have hex : ∃ tail, jsonRender item = b!"{\"level\":\"" ++ item.level.bytes ++ b!"\",\"time\":\"" ++ item.time ++ b!"\",\"lineno\":\"" ++
      (item.file ++ [58] ++ natToBytes item.line) ++ b!"\",\"message\":\"" ++ item.msg ++ b!"\",\"kvs\":{" ++ (c :: tail) := by
    unfold jsonRender
    simp only [hk, List.isEmpty_cons, Bool.false_eq_true, ↓reduceIte]
    have hj : ∃ t, jsonPairs ((c :: key, v) :: kvs) = c :: t := by
      cases kvs with
      | nil => exact ⟨_, rfl⟩
      | cons kv kvs => exact ⟨_, rfl⟩
    obtain ⟨t, ht⟩ := hj
    exact ⟨t ++ b!"}}\r\n", by simp [quoted, ht]⟩
  obtain ⟨tail, ht⟩ := hex
  rw [ht] at hd
  simp only [scan_append] at hd
  have e1 : scan .start b!"{\"level\":\"" = .inside := by decide
  have e2 : scan .inside b!"\",\"time\":\"" = .inside := by decide
  have e3 : scan .inside b!"\",\"lineno\":\"" = .inside := by decide
  have e4 : scan .inside b!"\",\"message\":\"" = .inside := by decide
  have e5 : scan .inside b!"\",\"kvs\":{" = .opened := by decide
  simp only [scan_append] at p2
  rw [e1, p1, e2, p3, e3, p2, e4, p4, e5] at hd
  have : scan .opened (c :: tail) = .dead := by
    show scan (Scan.opened.step c) tail = _
    have : Scan.opened.step c = .dead := by simp [Scan.step, hc]
    rw [this, scan_dead]
  rw [this] at hd
  rcases hd with h | h <;> cases h

/-- **C72**, negation for the code as written: a message can forge fields. The line of a record with message `a","k":"v` is a JSON object
whose message is `a` and which has one more member `k` with value `v`. -/
theorem C72_forged_violated (item : Item) (h1 : PlainText item.time) (h2 : PlainText item.file) (a k v : Bytes) (ha : PlainText a)
    (hk : PlainText k) (hv : PlainText v) (hmsg : item.msg = a ++ b!"\",\"" ++ k ++ b!"\":\"" ++ v) (hkvs : item.kvs = []) :
    ∃ t, jsonRender item = t ++ crlf ∧ Object (lineMembers { item with msg := a } ++ [(k, quoted v)]) t := by
  refine ⟨[123] ++ (quoted b!"level" ++ [58] ++ quoted item.level.bytes ++ [44] ++ (quoted b!"time" ++ [58] ++ quoted item.time ++ [44] ++
      (quoted b!"lineno" ++ [58] ++ quoted (item.file ++ [58] ++ natToBytes item.line) ++ [44] ++ (quoted b!"message" ++ [58] ++ quoted a ++ [44] ++
      (quoted k ++ [58] ++ quoted v))))) ++ [125], ?_, _, rfl, ?_⟩
  · simp [jsonRender, hkvs, hmsg, quoted]
  · exact members_cons (strText_plain (by decide)) (value_plain (level_plain _)) (members_cons (strText_plain (by decide)) (value_plain h1)
      (members_cons (strText_plain (by decide)) (value_plain (lineno_plain h2)) (members_cons (strText_plain (by decide)) (value_plain ha)
        (members_one (strText_plain hk) (value_plain hv)))))

example : jsonRender { sample with kvs := [] } = b!"{\"level\":\"WARN\",\"time\":\"12:00\",\"lineno\":\"src/a.rs:7\",\"message\":\"hi\"}\r\n" ∧
    jsonRender sample = b!"{\"level\":\"WARN\",\"time\":\"12:00\",\"lineno\":\"src/a.rs:7\",\"message\":\"hi\",\"kvs\":{k:1,l:\"x\"}}\r\n" := by
  decide +kernel

/-- A message with a tab, one with a quotation mark, one with a backslash, and a record with a pair: no JSON. -/
example : ¬ IsJson (jsonRender { sample with msg := b!"a\tb" }) ∧ ¬ IsJson (jsonRender { sample with msg := b!"say \"hi\"" }) ∧
    ¬ IsJson (jsonRender { sample with msg := b!"C:\\dir" }) ∧ ¬ IsJson (jsonRender sample) :=
  ⟨C72_message_violated _ (by decide) (by decide) b!"a" b!"b" 9 (by decide) (.inl (by decide)),
    C72_message_violated _ (by decide) (by decide) b!"say " b!"i\"" 104 (by decide) (.inr (.inr (by decide))),
    C72_message_violated _ (by decide) (by decide) b!"C:" b!"ir" 100 (by decide) (.inr (.inl (by decide))),
    C72_keys_violated sample (by decide) (by decide) (by decide) 107 [] b!"1" [(b!"l", b!"\"x\"")] (by decide) (by decide)⟩

/-- A message that adds a second level to its record. -/
example : ∃ t, jsonRender { sample with msg := b!"hi\",\"level\":\"ERROR", kvs := [] } = t ++ crlf ∧
    Object (lineMembers { sample with msg := b!"hi", kvs := [] } ++ [(b!"level", quoted b!"ERROR")]) t :=
  C72_forged_violated { sample with msg := b!"hi\",\"level\":\"ERROR", kvs := [] } (by decide) (by decide) b!"hi" b!"level" b!"ERROR"
    (by decide) (by decide) (by decide) (by decide) rfl

end Httpd
