import Verif.Spec.ConfigFile
import Verif.Props.ConfigSize
/-!
# C141: what a configuration file says
-/

namespace Httpd

open Spec

/-! ## Reading values -/

theorem Outcome.bind_value {α β : Type} (x : Outcome α) (f : α → Outcome β) (b : β) :
    x.bind f = .value b ↔ ∃ a, x = .value a ∧ f a = .value b := by
  cases x <;> simp [Outcome.bind]

/-- `de` reads exactly what `R` says. -/
def Reads {α : Type} (de : Toml → Outcome α) (R : Toml → α → Prop) : Prop := ∀ v a, de v = .value a ↔ R v a

theorem reads_str : Reads deStr IsString := by
  intro v a
  cases v <;> simp [deStr, IsString]

theorem reads_bool : Reads deBool IsBool := by
  intro v a
  cases v <;> simp [deBool, IsBool]

theorem reads_int (lo hi : Int) : Reads (deInt lo hi) (IsInt lo hi) := by
  intro v a
  cases v with
  | int i =>
    simp only [deInt, IsInt]
    split
    · rename_i h
      simp only [Outcome.value.injEq, Toml.int.injEq]
      exact ⟨fun e => ⟨e, e ▸ h⟩, fun e => e.1⟩
    · rename_i h
      constructor
      · intro e; cases e
      · rintro ⟨e, h2⟩; cases e; exact absurd h2 h
  | _ => simp [deInt, IsInt]

theorem reads_u32 : Reads deU32 IsCount := by
  intro v a
  simp only [deU32, Outcome.bind_value, reads_int _ _ v, IsInt, IsCount]
  constructor
  · rintro ⟨i, ⟨rfl, h1, h2⟩, h3⟩
    simp only [Outcome.value.injEq] at h3
    have : (a : Int) = i := by omega
    exact ⟨by rw [this], by omega⟩
  · rintro ⟨rfl, h⟩
    exact ⟨a, ⟨rfl, by omega, by omega⟩, by simp⟩

theorem reads_i32 : Reads deI32 (IsInt (-2147483648) 2147483647) := reads_int _ _

theorem reads_size (U : Unicode) (p : Profile) : Reads (deSize U p) (IsSize U p) := by
  intro v a
  cases v <;> simp [deSize, IsSize]

theorem reads_duration (U : Unicode) (p : Profile) : Reads (deDuration U p) (IsDuration U p) := by
  intro v a
  cases v with
  | str s =>
    simp only [deDuration, IsDuration, Outcome.bind_value, Outcome.value.injEq, Toml.str.injEq]
    constructor
    · rintro ⟨m, h, e⟩; exact ⟨s, m, rfl, h, e.symm⟩
    · rintro ⟨t, m, e, h, e2⟩; subst e; exact ⟨m, h, e2.symm⟩
  | _ => simp [deDuration, IsDuration]

theorem reads_opt {α : Type} {de : Toml → Outcome α} {R : Toml → α → Prop} (h : Reads de R) : Reads (deOpt de) (IsSome R) := by
  intro v a
  simp only [deOpt, Outcome.bind_value, h v, IsSome, Outcome.value.injEq]
  constructor
  · rintro ⟨b, h1, rfl⟩; exact ⟨b, rfl, h1⟩
  · rintro ⟨b, rfl, h1⟩; exact ⟨b, h1, rfl⟩

theorem reads_all {α : Type} {de : Toml → Outcome α} {R : Toml → α → Prop} (h : Reads de R) (vs : List Toml) (l : List α) :
    deAll de vs = .value l ↔ Each2 R vs l := by
  induction vs generalizing l with
  | nil =>
    simp only [deAll, Outcome.value.injEq]
    constructor
    · rintro rfl; exact .nil
    · intro h; cases h; rfl
  | cons v vs ih =>
    simp only [deAll, Outcome.bind_value, h v, ih, Outcome.value.injEq]
    constructor
    · rintro ⟨a, h1, as, h2, rfl⟩; exact .cons h1 h2
    · intro h
      cases h with
      | cons h1 h2 => exact ⟨_, h1, _, h2, rfl⟩

theorem reads_vec {α : Type} {de : Toml → Outcome α} {R : Toml → α → Prop} (h : Reads de R) : Reads (deVec de) (IsList R) := by
  intro v a
  cases v <;> simp [deVec, IsList, reads_all h]

theorem reads_entries {α : Type} {de : Toml → Outcome α} {R : Toml → α → Prop} (h : Reads de R) (es : List (Str × Toml))
    (l : List (Str × α)) : deEntries de es = .value l ↔ Each2 (fun e a => e.1 = a.1 ∧ R e.2 a.2) es l := by
  induction es generalizing l with
  | nil =>
    simp only [deEntries, Outcome.value.injEq]
    constructor
    · rintro rfl; exact .nil
    · intro h; cases h; rfl
  | cons e es ih =>
    obtain ⟨k, v⟩ := e
    simp only [deEntries, Outcome.bind_value, h v, ih, Outcome.value.injEq]
    constructor
    · rintro ⟨a, h1, as, h2, rfl⟩; exact .cons ⟨rfl, h1⟩ h2
    · intro h
      cases h with
      | cons h1 h2 =>
        rename_i b l
        obtain ⟨k', a⟩ := b
        obtain ⟨rfl, h1⟩ := h1
        exact ⟨a, h1, l, h2, rfl⟩

theorem reads_map {α : Type} {de : Toml → Outcome α} {R : Toml → α → Prop} (h : Reads de R) : Reads (deMap de) (IsMap R) := by
  intro v a
  cases v <;> simp [deMap, IsMap, reads_entries h]

/-! ## Reading structs -/

/-- The values of the settings, from place `i` on. -/
def settingsFrom (v : Toml) : List (List Str) → Nat → List (Option Toml)
  | [], _ => []
  | names :: rest, i => setting names i v :: settingsFrom v rest (i + 1)

theorem pick_value (names : List Str) (es : List (Str × Toml)) (o : Option Toml) :
    pick names es = .value o ↔ (es.filter (fun e => names.contains e.1)).length ≤ 1 ∧ o = setting names 0 (.table es) := by
  have hf : es.find? (fun e => names.contains e.1) = (es.filter (fun e => names.contains e.1)).head? := by
    rw [List.head?_filter]
  simp only [pick, setting, hf]
  generalize es.filter (fun e => names.contains e.1) = l
  match l with
  | [] => simp [eq_comm]
  | [e] => simp [eq_comm]
  | _ :: _ :: _ => simp

theorem fieldsFrom_table (es : List (Str × Toml)) (fs : List (List Str)) (i : Nat) (xs : List (Option Toml)) :
    fieldsFrom (.table es) fs i = .value xs ↔ TomlSection fs (.table es) ∧ xs = settingsFrom (.table es) fs i := by
  induction fs generalizing i xs with
  | nil => simp [fieldsFrom, settingsFrom, TomlSection, eq_comm]
  | cons f fs ih =>
    simp only [fieldsFrom, Outcome.bind_value, pick_value, ih, settingsFrom, TomlSection, List.mem_cons, forall_eq_or_imp,
      Outcome.value.injEq]
    constructor
    · rintro ⟨x, ⟨h1, rfl⟩, ys, ⟨h2, rfl⟩, rfl⟩
      exact ⟨⟨h1, h2⟩, rfl⟩
    · rintro ⟨⟨h1, h2⟩, rfl⟩
      exact ⟨_, ⟨h1, rfl⟩, _, ⟨h2, rfl⟩, rfl⟩

theorem fieldsFrom_arr (vs : List Toml) (fs : List (List Str)) (i : Nat) :
    fieldsFrom (.arr vs) fs i = .value (settingsFrom (.arr vs) fs i) := by
  induction fs generalizing i with
  | nil => rfl
  | cons f fs ih => simp [fieldsFrom, ih, settingsFrom, Outcome.bind, setting]

theorem firstMistake_not {α : Type} (fs : List (List Str)) (make : List (Option Toml) → Outcome α) (es : List (Str × Toml)) (seen : List Nat) (a : α) :
    firstMistake fs make es seen ≠ .value a := by
  induction es generalizing seen with
  | nil => simp [firstMistake]
  | cons e es ih =>
    obtain ⟨k, x⟩ := e
    simp only [firstMistake]
    split
    · exact ih _
    · split
      · simp
      · split
        · exact ih _
        · simp
        · simp

theorem deStruct_value {α : Type} (fs : List (List Str)) (make : List (Option Toml) → Outcome α) (v : Toml) (a : α) :
    deStruct fs make v = .value a ↔ TomlSection fs v ∧ make (settingsFrom v fs 0) = .value a := by
  cases v with
  | table es =>
    have key : deStruct fs make (.table es) = .value a ↔ (fieldsFrom (.table es) fs 0).bind make = .value a := by
      simp only [deStruct]
      cases (fieldsFrom (.table es) fs 0).bind make <;> simp [firstMistake_not]
    rw [key]
    simp only [Outcome.bind_value, fieldsFrom_table]
    constructor
    · rintro ⟨_, ⟨h1, rfl⟩, h2⟩; exact ⟨h1, h2⟩
    · rintro ⟨h1, h2⟩; exact ⟨_, ⟨h1, rfl⟩, h2⟩
  | arr vs => simp [deStruct, fieldsFrom_arr, Outcome.bind, TomlSection]
  | _ => simp [deStruct, TomlSection]

theorem field_value {α : Type} {de : Toml → Outcome α} {R : Toml → α → Prop} (h : Reads de R) {xs : List (Option Toml)} {i : Nat}
    {x : Option Toml} (hx : xs[i]? = some x) (d a : α) : field xs i d de = .value a ↔ Given R d x a := by
  unfold field
  rw [hx]
  cases x with
  | none => simp [Given, eq_comm]
  | some v => simp [Given, h v]

theorem setting_perm {n n' : List Str} (h : n.Perm n') (i : Nat) (v : Toml) : setting n i v = setting n' i v := by
  have : ∀ k, n.contains k = n'.contains k := fun k => by
    rw [Bool.eq_iff_iff]; simp [h.mem_iff]
  cases v <;> simp only [setting, this]

theorem TomlSection_perm {fs gs : List (List Str)} (h : ∀ g ∈ gs, ∃ f ∈ fs, f.Perm g) (v : Toml) (hv : TomlSection fs v) :
    TomlSection gs v := by
  cases v <;> simp_all [TomlSection]
  intro g hg
  obtain ⟨f, hf, hp⟩ := h g hg
  have : ∀ k, f.contains k = g.contains k := fun k => by
    rw [Bool.eq_iff_iff]; simp [hp.mem_iff]
  have h2 := hv f hf
  simpa [← List.contains_eq_mem, this] using h2

theorem settingsFrom_get (v : Toml) (fs : List (List Str)) (i j : Nat) :
    (settingsFrom v fs j)[i]? = fs[i]?.map (fun n => setting n (j + i) v) := by
  induction fs generalizing i j with
  | nil => simp [settingsFrom]
  | cons f fs ih =>
    cases i with
    | zero => simp [settingsFrom]
    | succ i => simp [settingsFrom, ih, Nat.add_assoc, Nat.add_comm 1 i]

/-- The field at place `i` of a struct, under any order of its names. -/
theorem field_says {α : Type} {de : Toml → Outcome α} {R : Toml → α → Prop} (h : Reads de R) (fs : List (List Str)) (i : Nat)
    (n' : List Str) (hp : fs[i]?.any (fun n => n.isPerm n') = true) (v : Toml) (d a : α) :
    field (settingsFrom v fs 0) i d de = .value a ↔ Given R d (setting n' i v) a := by
  cases hf : fs[i]? with
  | none => rw [hf] at hp; cases hp
  | some n =>
    rw [hf] at hp
    have hp' : n.Perm n' := List.isPerm_iff.1 hp
    rw [field_value h (x := setting n i v) (by rw [settingsFrom_get, hf]; simp), setting_perm hp']

theorem TomlSection_congr (fs gs : List (List Str)) (h : (gs.all (fun g => fs.any (fun f => f.isPerm g)) &&
    fs.all (fun f => gs.any (fun g => g.isPerm f))) = true) (v : Toml) : TomlSection fs v ↔ TomlSection gs v := by
  simp only [Bool.and_eq_true, List.all_eq_true, List.any_eq_true, List.isPerm_iff] at h
  exact ⟨TomlSection_perm h.1 v, TomlSection_perm h.2 v⟩

/-! ## The sections -/

theorem reads_tls (U : Unicode) (p : Profile) : Reads (TlsConfig.de U p) (TlsSays U p) := by
  intro v a
  obtain ⟨cert, key, timeout⟩ := a
  simp only [TlsConfig.de, deStruct_value, Outcome.bind_value,
    field_says reads_str tlsFields 0 [u!"cert"] (by decide +kernel), field_says reads_str tlsFields 1 [u!"key"] (by decide +kernel),
    field_says (reads_duration U p) tlsFields 2 [u!"timeout"] (by decide +kernel)]
  constructor
  · rintro ⟨hs, c, h1, k, h2, t, h3, h⟩
    cases h
    exact ⟨hs, h1, h2, h3⟩
  · rintro ⟨hs, h1, h2, h3⟩
    exact ⟨hs, _, h1, _, h2, _, h3, rfl⟩

theorem reads_tcp (U : Unicode) (p : Profile) : Reads (TcpConfig.de U p) (TcpSays U p) := by
  intro v a
  obtain ⟨addr, tls, rb, wb, b⟩ := a
  simp only [TcpConfig.de, deStruct_value, Outcome.bind_value, TlsConfig.default,
    TomlSection_congr tcpFields tcpSettings (by decide +kernel),
    field_says reads_str tcpFields 0 [u!"addr", u!"Addr", u!"address", u!"Address"] (by decide +kernel),
    field_says (reads_tls U p) tcpFields 1 [u!"tls"] (by decide +kernel),
    field_says (reads_size U p) tcpFields 2 [u!"read_stream_buf_size", u!"ReadStreamBufSize"] (by decide +kernel),
    field_says (reads_size U p) tcpFields 3 [u!"write_stream_buf_size", u!"WriteStreamBufSize"] (by decide +kernel),
    field_says (reads_size U p) tcpFields 4 [u!"buf_size", u!"BufSize"] (by decide +kernel)]
  constructor
  · rintro ⟨hs, _, h1, _, h2, _, h3, _, h4, _, h5, h⟩
    cases h
    exact ⟨hs, h1, h2, h3, h4, h5⟩
  · rintro ⟨hs, h1, h2, h3, h4, h5⟩
    exact ⟨hs, _, h1, _, h2, _, h3, _, h4, _, h5, rfl⟩

theorem reads_websocket (U : Unicode) (p : Profile) : Reads (websocketDe U p) (fun v n => WebsocketReads U p v ∧ n = 0) := by
  intro v a
  simp only [websocketDe, deStruct_value, Outcome.bind_value,
    field_says (reads_size U p) websocketFields 0 [u!"max_frame_body_size", u!"MaxFrameBodySize"] (by decide +kernel),
    field_says (reads_size U p) websocketFields 1 [u!"max_message_body_size", u!"MaxMessageBodySize"] (by decide +kernel),
    field_says (reads_duration U p) websocketFields 2 [u!"read_timeout", u!"ReadTimeout"] (by decide +kernel),
    field_says (reads_opt reads_i32) websocketFields 3 [u!"compression", u!"Compression"] (by decide +kernel)]
  constructor
  · rintro ⟨hs, _, h1, _, h2, _, h3, _, h4, h⟩
    cases h
    exact ⟨⟨hs, ⟨_, h1⟩, ⟨_, h2⟩, ⟨_, h3⟩, ⟨_, h4⟩⟩, rfl⟩
  · rintro ⟨⟨hs, ⟨_, h1⟩, ⟨_, h2⟩, ⟨_, h3⟩, ⟨_, h4⟩⟩, rfl⟩
    exact ⟨hs, _, h1, _, h2, _, h3, _, h4, rfl⟩

theorem reads_http (U : Unicode) (p : Profile) : Reads (HttpConfig.de U p) (HttpSays U p) := by
  intro v a
  obtain ⟨ka, it, mu, ml, mh, mb, co, ws⟩ := a
  simp only [HttpConfig.de, deStruct_value, Outcome.bind_value,
    field_says (reads_opt reads_bool) httpFields 0 [u!"keep_alive", u!"KeepAlive"] (by decide +kernel),
    field_says (reads_duration U p) httpFields 1 [u!"idle_timeout", u!"IdleTimeout"] (by decide +kernel),
    field_says (reads_size U p) httpFields 2 [u!"max_url_size", u!"MaxUrlSize"] (by decide +kernel),
    field_says (reads_size U p) httpFields 3 [u!"max_header_line_size", u!"MaxHeaderLineSize"] (by decide +kernel),
    field_says reads_u32 httpFields 4 [u!"max_headers_count", u!"MaxHeadersCount"] (by decide +kernel),
    field_says (reads_size U p) httpFields 5 [u!"max_body_size", u!"MaxBodySize"] (by decide +kernel),
    field_says (reads_opt reads_i32) httpFields 6 [u!"compression", u!"Compression"] (by decide +kernel),
    field_says (reads_opt (reads_websocket U p)) httpFields 7 [u!"websocket", u!"Websocket", u!"ws"] (by decide +kernel)]
  constructor
  · rintro ⟨hs, _, h1, _, h2, _, h3, _, h4, _, h5, _, h6, _, h7, _, h8, h⟩
    cases h
    exact ⟨hs, h1, h2, h3, h4, h5, h6, h7, h8⟩
  · rintro ⟨hs, h1, h2, h3, h4, h5, h6, h7, h8⟩
    exact ⟨hs, _, h1, _, h2, _, h3, _, h4, _, h5, _, h6, _, h7, _, h8, rfl⟩

theorem reads_runtime : Reads RuntimeConfig.de RuntimeSays := by
  intro v a
  obtain ⟨wt, pc⟩ := a
  simp only [RuntimeConfig.de, deStruct_value, Outcome.bind_value,
    field_says reads_u32 runtimeFields 0 [u!"worker_threads", u!"WorkerThreads"] (by decide +kernel),
    field_says (reads_opt reads_bool) runtimeFields 1 [u!"per_core", u!"PerCore"] (by decide +kernel)]
  constructor
  · rintro ⟨hs, _, h1, _, h2, h⟩
    cases h
    exact ⟨hs, h1, h2⟩
  · rintro ⟨hs, h1, h2⟩
    exact ⟨hs, _, h1, _, h2, rfl⟩

/-! ## Enums -/

theorem deVariant_table (vs : List (List Str)) (v : Toml) (i : Nat) (w : Toml) :
    deVariant vs v = .value (i, some w) ↔ ∃ k, v = .table [(k, w)] ∧ vs.findIdx? (·.contains k) = some i := by
  unfold deVariant
  split
  · rename_i s
    split <;> simp
  · rename_i k x
    cases hx : vs.findIdx? (·.contains k) with
    | none => simp [hx, -List.contains_eq_mem]
    | some j =>
      simp only [Outcome.value.injEq, Prod.mk.injEq, Option.some.injEq, Toml.table.injEq, List.cons.injEq, and_true]
      constructor
      · rintro ⟨rfl, rfl⟩; exact ⟨k, ⟨rfl, rfl⟩, hx⟩
      · rintro ⟨k', ⟨rfl, rfl⟩, h⟩; rw [hx] at h; exact ⟨Option.some.inj h, rfl⟩
  · rename_i h1 h2
    constructor
    · intro h; cases h
    · rintro ⟨k, rfl, _⟩; exact absurd rfl (h2 k w)

theorem deVariant_str (vs : List (List Str)) (v : Toml) (i : Nat) :
    deVariant vs v = .value (i, none) ↔ ∃ k, v = .str k ∧ vs.findIdx? (·.contains k) = some i := by
  unfold deVariant
  split
  · rename_i s
    cases hx : vs.findIdx? (·.contains s) with
    | none => simp [hx, -List.contains_eq_mem]
    | some j => simp [hx, -List.contains_eq_mem]
  · rename_i k x
    cases hx : vs.findIdx? (·.contains k) with
    | none => simp [hx, -List.contains_eq_mem]
    | some j => simp [hx, -List.contains_eq_mem]
  · rename_i h1 h2
    constructor
    · intro h; cases h
    · rintro ⟨k, rfl, _⟩; exact absurd rfl (h1 k)

theorem deVariantStruct_value {α : Type} (strict : Bool) (fs : List (List Str)) (make : List (Option Toml) → Outcome α) (v : Toml) (a : α) :
    deVariantStruct strict fs make v = .value a ↔ VariantTable strict fs v ∧ make (settingsFrom v fs 0) = .value a := by
  cases v with
  | table es =>
    simp only [deVariantStruct, VariantTable, NoOther]
    split
    · rename_i h
      simp only [Bool.and_eq_true, List.any_eq_true, Bool.not_eq_true', List.contains_eq_mem, decide_eq_false_iff_not] at h
      constructor
      · intro h; cases h
      · rintro ⟨⟨_, h2⟩, _⟩
        obtain ⟨h1, e, he, hn⟩ := h
        exact absurd (h2 h1 e he) hn
    · rename_i h
      rw [deStruct_value]
      simp only [Bool.and_eq_true, List.any_eq_true, Bool.not_eq_true', List.contains_eq_mem, decide_eq_false_iff_not, not_and,
        not_exists, Decidable.not_not] at h
      constructor
      · rintro ⟨h1, h2⟩; exact ⟨⟨h1, fun hs e he => h hs e he⟩, h2⟩
      · rintro ⟨⟨h1, _⟩, h2⟩; exact ⟨h1, h2⟩
  | _ => simp [deVariantStruct, VariantTable, NoOther, deStruct_value]

theorem variant_names (vs : List (List Str)) (hd : vs.Pairwise (fun a b => ∀ x ∈ a, x ∉ b)) (k : Str) (i : Nat) :
    vs.findIdx? (·.contains k) = some i ↔ k ∈ vs.getD i [] := by
  induction vs generalizing i with
  | nil => simp
  | cons a vs ih =>
    rw [List.pairwise_cons] at hd
    rw [List.findIdx?_cons]
    cases hk : a.contains k with
    | true =>
      have hka : k ∈ a := by simpa using hk
      cases i with
      | zero => simp [hka]
      | succ i =>
        simp only [if_true, Option.some.injEq, List.getD_cons_succ]
        constructor
        · intro h; omega
        · intro h
          by_cases hi : i < vs.length
          · rw [List.getD_eq_getElem?_getD, List.getElem?_eq_getElem hi] at h
            exact absurd h (hd.1 _ (List.getElem_mem hi) k hka)
          · rw [List.getD_eq_getElem?_getD, List.getElem?_eq_none (by omega)] at h; cases h
    | false =>
      have hka : k ∉ a := by simpa using hk
      simp only [Bool.false_eq_true, if_false, Option.map_eq_some_iff]
      cases i with
      | zero => simp [hka]
      | succ i =>
        simp only [List.getD_cons_succ, ← ih hd.2]
        constructor
        · rintro ⟨j, h1, h2⟩; rw [h1]; congr 1; omega
        · intro h; exact ⟨i, h, rfl⟩

theorem deVariant_only (vs : List (List Str)) (hd : vs.Pairwise (fun a b => ∀ x ∈ a, x ∉ b)) (v : Toml) (i : Nat) (w : Toml) :
    deVariant vs v = .value (i, some w) ↔ Only (vs.getD i []) v w := by
  rw [deVariant_table]
  constructor
  · rintro ⟨k, rfl, h⟩; exact ⟨k, (variant_names vs hd k i).1 h, rfl⟩
  · rintro ⟨k, h, rfl⟩; exact ⟨k, rfl, (variant_names vs hd k i).2 h⟩

/-- The names of the appenders. -/
def appenderKinds : List (List Str) := [[u!"Console", u!"console"], [u!"File", u!"file"]]

/-- The settings of an appender that writes to a file. -/
def fileFields : List (List Str) := [[u!"level", u!"Level"], [u!"equal", u!"Equal"], [u!"daily", u!"Daily"], [u!"bufsize", u!"BufferSize"]]

theorem reads_appender (U : Unicode) (p : Profile) (strict : Bool) : Reads (AppenderConfig.de U p strict) (AppenderSays U p strict) := by
  intro v a
  have hd : appenderKinds.Pairwise (fun a b => ∀ x ∈ a, x ∉ b) := by decide +kernel
  simp only [AppenderConfig.de, Outcome.bind_value]
  constructor
  · rintro ⟨⟨i, o⟩, h1, h2⟩
    split at h2
    · rename_i w he
      cases he
      have h1 := (deVariant_only appenderKinds hd v 0 w).1 h1
      simp only [deVariantStruct_value, Outcome.bind_value,
        field_says (reads_opt reads_str) [[u!"level", u!"Level"]] 0 [u!"level", u!"Level"] (by decide +kernel)] at h2
      obtain ⟨h3, l, h4, h5⟩ := h2
      cases h5
      exact .console w l h1 h3 h4
    · rename_i w he
      cases he
      have h1 := (deVariant_only appenderKinds hd v 1 w).1 h1
      change deVariantStruct strict fileFields _ w = _ at h2
      simp only [deVariantStruct_value, Outcome.bind_value,
        field_says (reads_opt reads_str) fileFields 0 [u!"level", u!"Level"] (by decide +kernel),
        field_says (reads_opt reads_bool) fileFields 1 [u!"equal", u!"Equal"] (by decide +kernel),
        field_says reads_bool fileFields 2 [u!"daily", u!"Daily"] (by decide +kernel),
        field_says (reads_size U p) fileFields 3 [u!"bufsize", u!"BufferSize"] (by decide +kernel)] at h2
      obtain ⟨h3, l, h4, e, h5, d, h6, b, h7, h8⟩ := h2
      cases h8
      exact .file w l e d b h1 h3 h4 h5 h6 h7
    · cases h2
  · intro h
    cases h with
    | console w l h1 h3 h4 =>
      refine ⟨(0, some w), (deVariant_only appenderKinds hd v 0 w).2 h1, ?_⟩
      simp only [deVariantStruct_value, Outcome.bind_value,
        field_says (reads_opt reads_str) [[u!"level", u!"Level"]] 0 [u!"level", u!"Level"] (by decide +kernel)]
      exact ⟨h3, l, h4, rfl⟩
    | file w l e d b h1 h3 h4 h5 h6 h7 =>
      refine ⟨(1, some w), (deVariant_only appenderKinds hd v 1 w).2 h1, ?_⟩
      change deVariantStruct strict fileFields _ w = _
      simp only [deVariantStruct_value, Outcome.bind_value,
        field_says (reads_opt reads_str) fileFields 0 [u!"level", u!"Level"] (by decide +kernel),
        field_says (reads_opt reads_bool) fileFields 1 [u!"equal", u!"Equal"] (by decide +kernel),
        field_says reads_bool fileFields 2 [u!"daily", u!"Daily"] (by decide +kernel),
        field_says (reads_size U p) fileFields 3 [u!"bufsize", u!"BufferSize"] (by decide +kernel)]
      exact ⟨h3, l, h4, e, h5, d, h6, b, h7, rfl⟩

theorem reads_logging (U : Unicode) (p : Profile) (strict : Bool) : Reads (LoggingConfig.de U p strict) (LoggingSays U p strict) := by
  intro v a
  obtain ⟨sn, si, di, tl, ap⟩ := a
  simp only [LoggingConfig.de, deStruct_value, Outcome.bind_value,
    field_says (reads_opt reads_bool) loggingFields 0 [u!"disable", u!"Disable"] (by decide +kernel),
    field_says reads_str loggingFields 1 [u!"timelayout", u!"TimeLayout", u!"time_layout"] (by decide +kernel),
    field_says (reads_vec (reads_appender U p strict)) loggingFields 2 [u!"appenders", u!"Appender"] (by decide +kernel)]
  constructor
  · rintro ⟨hs, _, h1, _, h2, _, h3, h⟩
    cases h
    exact ⟨hs, rfl, rfl, h1, h2, h3⟩
  · rintro ⟨hs, hn, hi, h1, h2, h3⟩
    simp only at hn hi
    subst hn hi
    exact ⟨hs, _, h1, _, h2, _, h3, rfl⟩

/-! ## Services -/

theorem reads_match : Reads deMatch (fun w (_ : Unit) => MatchReads w) := by
  intro v a
  cases v <;> simp [deMatch, MatchReads]

theorem reads_rewrite : Reads deRewrite (fun w (_ : Unit) => RewriteReads w) := by
  intro v a
  simp [deRewrite, deStruct_value, RewriteReads]

/-- The names of the bodies of an early answer. -/
def bodyKinds : List (List Str) :=
  [[u!"None", u!"none", u!"null", u!"nil"], [u!"Text", u!"text", u!"Txt", u!"txt"], [u!"File", u!"file"]]

theorem reads_staticBody : Reads deStaticBody (fun w (_ : Unit) => BodyReads w) := by
  intro v a
  have hd : bodyKinds.Pairwise (fun a b => ∀ x ∈ a, x ∉ b) := by decide +kernel
  simp only [deStaticBody, Outcome.bind_value]
  constructor
  · rintro ⟨⟨i, o⟩, h1, h2⟩
    split at h2
    · rename_i he
      cases he
      obtain ⟨k, rfl, h⟩ := (deVariant_str bodyKinds v 0).1 h1
      exact .word k ((variant_names bodyKinds hd k 0).1 h)
    · rename_i he
      cases he
      exact .none v _ ((deVariant_only bodyKinds hd v 0 _).1 h1) (.inl rfl)
    · rename_i he
      cases he
      exact .none v _ ((deVariant_only bodyKinds hd v 0 _).1 h1) (.inr rfl)
    · rename_i w he
      cases he
      have h1 := (deVariant_only bodyKinds hd v 1 _).1 h1
      obtain ⟨s, hs, _⟩ := (Outcome.bind_value _ _ _).1 h2
      rw [(reads_str w s).1 hs] at h1
      exact .text v s h1
    · rename_i w he
      cases he
      have h1 := (deVariant_only bodyKinds hd v 2 _).1 h1
      obtain ⟨s, hs, _⟩ := (Outcome.bind_value _ _ _).1 h2
      rw [(reads_str w s).1 hs] at h1
      exact .file v s h1
    · cases h2
  · intro h
    cases h with
    | word s hs => exact ⟨(0, none), (deVariant_str bodyKinds _ 0).2 ⟨s, rfl, (variant_names bodyKinds hd s 0).2 hs⟩, rfl⟩
    | none _ w h1 h2 =>
      refine ⟨(0, some w), (deVariant_only bodyKinds hd v 0 w).2 h1, ?_⟩
      rcases h2 with rfl | rfl <;> rfl
    | text _ s h1 => exact ⟨(1, some (.str s)), (deVariant_only bodyKinds hd v 1 _).2 h1, rfl⟩
    | file _ s h1 => exact ⟨(2, some (.str s)), (deVariant_only bodyKinds hd v 2 _).2 h1, rfl⟩

/-- The settings of an early answer. -/
def answerFields : List (List Str) := [[u!"code", u!"Code"], [u!"reason", u!"Reason"], [u!"headers", u!"Headers"], [u!"body", u!"Body"]]

theorem reads_answer : Reads deStaticResponse (fun w (_ : Unit) => AnswerReads w) := by
  intro v a
  change deStruct answerFields _ v = _ ↔ _
  simp only [deStruct_value, Outcome.bind_value,
    field_says (reads_opt reads_u32) answerFields 0 [u!"code", u!"Code"] (by decide +kernel),
    field_says (reads_opt reads_str) answerFields 1 [u!"reason", u!"Reason"] (by decide +kernel),
    field_says (reads_vec reads_str) answerFields 2 [u!"headers", u!"Headers"] (by decide +kernel),
    field_says reads_staticBody answerFields 3 [u!"body", u!"Body"] (by decide +kernel)]
  constructor
  · rintro ⟨hs, _, h1, _, h2, _, h3, h4⟩
    exact ⟨hs, ⟨_, h1⟩, ⟨_, h2⟩, ⟨_, h3⟩, h4⟩
  · rintro ⟨hs, ⟨_, h1⟩, ⟨_, h2⟩, ⟨_, h3⟩, h4⟩
    exact ⟨hs, _, h1, _, h2, _, h3, h4⟩

/-- The settings of an early return. -/
def earlyFields : List (List Str) := [[u!"matchs", u!"Matchs"], [u!"resp", u!"Resp", u!"response", u!"Response"]]

theorem reads_early : Reads deEarly (fun w (_ : Unit) => EarlyReads w) := by
  intro v a
  change deStruct earlyFields _ v = _ ↔ _
  simp only [deStruct_value, Outcome.bind_value,
    field_says (reads_vec reads_match) earlyFields 0 [u!"matchs", u!"Matchs"] (by decide +kernel),
    field_says (reads_opt reads_answer) earlyFields 1 [u!"resp", u!"Resp", u!"response", u!"Response"] (by decide +kernel)]
  constructor
  · rintro ⟨hs, _, h1, _, h2, _⟩
    exact ⟨hs, ⟨_, h1⟩, ⟨_, h2⟩⟩
  · rintro ⟨hs, ⟨_, h1⟩, ⟨_, h2⟩⟩
    exact ⟨hs, _, h1, _, h2, trivial⟩

/-- The settings of a rule. -/
def ruleFields : List (List Str) :=
  [[u!"match", u!"Match"], [u!"reqrewrites", u!"ReqRewrites", u!"req_rewrites"], [u!"resprewrites", u!"RespRewrites", u!"resp_rewrites"]]

theorem reads_rule : Reads deRule (fun w (_ : Unit) => RuleReads w) := by
  intro v a
  change deStruct ruleFields _ v = _ ↔ _
  simp only [deStruct_value, Outcome.bind_value,
    TomlSection_congr ruleFields [[u!"match", u!"Match"], [u!"reqrewrites", u!"req_rewrites", u!"ReqRewrites"],
      [u!"resprewrites", u!"resp_rewrites", u!"RespRewrites"]] (by decide +kernel),
    field_says reads_match ruleFields 0 [u!"match", u!"Match"] (by decide +kernel),
    field_says (reads_opt reads_rewrite) ruleFields 1 [u!"reqrewrites", u!"req_rewrites", u!"ReqRewrites"] (by decide +kernel),
    field_says (reads_opt reads_rewrite) ruleFields 2 [u!"resprewrites", u!"resp_rewrites", u!"RespRewrites"] (by decide +kernel)]
  constructor
  · rintro ⟨hs, _, h1, _, h2, _, h3, _⟩
    exact ⟨hs, ⟨_, h1⟩, ⟨_, h2⟩, ⟨_, h3⟩⟩
  · rintro ⟨hs, ⟨_, h1⟩, ⟨_, h2⟩, ⟨_, h3⟩⟩
    exact ⟨hs, _, h1, _, h2, _, h3, trivial⟩

/-- The names of the services. -/
def serviceKinds : List (List Str) :=
  [[u!"HelloWorld", u!"helloworld"], [u!"FileSystem", u!"fs"], [u!"Forward", u!"forward"], [u!"Upstream", u!"upstream"]]

/-- The settings of a service that serves files. -/
def fsFields : List (List Str) := [earlyNames, [u!"root", u!"Root"], [u!"rewrites", u!"Rewrites"]]
/-- The settings of a proxy. -/
def forwardFields : List (List Str) := [earlyNames, [u!"target_addr", u!"target", u!"Target", u!"TargetAddress"], [u!"rules", u!"Rules"]]
/-- The settings of a proxy for several targets. -/
def upstreamFields : List (List Str) :=
  [earlyNames, [u!"target_addrs", u!"targets", u!"target_addresses", u!"Targets", u!"TargetAddrs", u!"TargetAddresses"], [u!"rules", u!"Rules"]]

theorem NoOther_congr {fs gs : List (List Str)} (h : ∀ k, k ∈ fs.flatten → k ∈ gs.flatten) (v : Toml) (hv : NoOther fs v) : NoOther gs v := by
  cases v <;> simp only [NoOther] at hv ⊢
  exact fun e he => h _ (hv e he)

theorem VariantTable_congr (strict : Bool) (fs gs : List (List Str)) (h : (gs.all (fun g => fs.any (fun f => f.isPerm g)) &&
    fs.all (fun f => gs.any (fun g => g.isPerm f))) = true) (v : Toml) : VariantTable strict fs v ↔ VariantTable strict gs v := by
  have h1 := TomlSection_congr fs gs h v
  simp only [Bool.and_eq_true, List.all_eq_true, List.any_eq_true, List.isPerm_iff] at h
  have k1 : ∀ k, k ∈ fs.flatten → k ∈ gs.flatten := by
    intro k hk
    obtain ⟨f, hf, hkf⟩ := List.mem_flatten.1 hk
    obtain ⟨g, hg, hp⟩ := h.2 f hf
    exact List.mem_flatten.2 ⟨g, hg, hp.mem_iff.2 hkf⟩
  have k2 : ∀ k, k ∈ gs.flatten → k ∈ fs.flatten := by
    intro k hk
    obtain ⟨f, hf, hkf⟩ := List.mem_flatten.1 hk
    obtain ⟨g, hg, hp⟩ := h.1 f hf
    exact List.mem_flatten.2 ⟨g, hg, hp.mem_iff.2 hkf⟩
  exact ⟨fun ⟨a, b⟩ => ⟨h1.1 a, fun hs => NoOther_congr k1 v (b hs)⟩, fun ⟨a, b⟩ => ⟨h1.2 a, fun hs => NoOther_congr k2 v (b hs)⟩⟩

theorem reads_kind (strict : Bool) : Reads (ServiceSetting.de strict) (KindSays strict) := by
  intro v a
  have hd : serviceKinds.Pairwise (fun a b => ∀ x ∈ a, x ∉ b) := by decide +kernel
  simp only [ServiceSetting.de, Outcome.bind_value]
  constructor
  · rintro ⟨⟨i, o⟩, h1, h2⟩
    split at h2
    · rename_i w he
      cases he
      have h1 := (deVariant_only serviceKinds hd v 0 w).1 h1
      simp only [deVariantStruct_value, Outcome.bind_value,
        field_says (reads_opt reads_early) [earlyNames] 0 earlySetting (by decide +kernel)] at h2
      obtain ⟨h3, l, h4, h5⟩ := h2
      cases h5
      exact .hello w h1 h3 ⟨l, h4⟩
    · rename_i w he
      cases he
      have h1 := (deVariant_only serviceKinds hd v 1 w).1 h1
      change deVariantStruct strict fsFields _ w = _ at h2
      simp only [deVariantStruct_value, Outcome.bind_value,
        field_says (reads_opt reads_early) fsFields 0 earlySetting (by decide +kernel),
        field_says reads_str fsFields 1 [u!"root", u!"Root"] (by decide +kernel),
        field_says (reads_map reads_rewrite) fsFields 2 [u!"rewrites", u!"Rewrites"] (by decide +kernel)] at h2
      obtain ⟨h3, l, h4, r, h5, m, h6, h7⟩ := h2
      cases h7
      exact .fs w r h1 h3 ⟨l, h4⟩ h5 ⟨m, h6⟩
    · rename_i w he
      cases he
      have h1 := (deVariant_only serviceKinds hd v 2 w).1 h1
      change deVariantStruct strict forwardFields _ w = _ at h2
      simp only [deVariantStruct_value, Outcome.bind_value,
        field_says (reads_opt reads_early) forwardFields 0 earlySetting (by decide +kernel),
        field_says reads_str forwardFields 1 [u!"target", u!"Target", u!"target_addr", u!"TargetAddress"] (by decide +kernel),
        field_says (reads_map reads_rule) forwardFields 2 [u!"rules", u!"Rules"] (by decide +kernel)] at h2
      obtain ⟨h3, l, h4, r, h5, m, h6, h7⟩ := h2
      cases h7
      exact .forward w h1 ((VariantTable_congr strict _ _ (by decide +kernel) w).1 h3) ⟨l, h4⟩ ⟨r, h5⟩ ⟨m, h6⟩
    · rename_i w he
      cases he
      have h1 := (deVariant_only serviceKinds hd v 3 w).1 h1
      change deVariantStruct strict upstreamFields _ w = _ at h2
      simp only [deVariantStruct_value, Outcome.bind_value,
        field_says (reads_opt reads_early) upstreamFields 0 earlySetting (by decide +kernel),
        field_says (reads_vec reads_str) upstreamFields 1 [u!"targets", u!"Targets", u!"target_addrs", u!"TargetAddrs",
          u!"target_addresses", u!"TargetAddresses"] (by decide +kernel),
        field_says (reads_vec reads_rule) upstreamFields 2 [u!"rules", u!"Rules"] (by decide +kernel)] at h2
      obtain ⟨h3, l, h4, r, h5, m, h6, h7⟩ := h2
      cases h7
      exact .upstream w h1 ((VariantTable_congr strict _ _ (by decide +kernel) w).1 h3) ⟨l, h4⟩ ⟨r, h5⟩ ⟨m, h6⟩
    · cases h2
  · intro h
    cases h with
    | hello w h1 h3 h4 =>
      refine ⟨(0, some w), (deVariant_only serviceKinds hd v 0 w).2 h1, ?_⟩
      simp only [deVariantStruct_value, Outcome.bind_value,
        field_says (reads_opt reads_early) [earlyNames] 0 earlySetting (by decide +kernel)]
      obtain ⟨l, h4⟩ := h4
      exact ⟨h3, l, h4, trivial⟩
    | fs w r h1 h3 h4 h5 h6 =>
      refine ⟨(1, some w), (deVariant_only serviceKinds hd v 1 w).2 h1, ?_⟩
      change deVariantStruct strict fsFields _ w = _
      simp only [deVariantStruct_value, Outcome.bind_value,
        field_says (reads_opt reads_early) fsFields 0 earlySetting (by decide +kernel),
        field_says reads_str fsFields 1 [u!"root", u!"Root"] (by decide +kernel),
        field_says (reads_map reads_rewrite) fsFields 2 [u!"rewrites", u!"Rewrites"] (by decide +kernel)]
      obtain ⟨l, h4⟩ := h4
      obtain ⟨m, h6⟩ := h6
      exact ⟨h3, l, h4, r, h5, m, h6, rfl⟩
    | forward w h1 h3 h4 h5 h6 =>
      refine ⟨(2, some w), (deVariant_only serviceKinds hd v 2 w).2 h1, ?_⟩
      change deVariantStruct strict forwardFields _ w = _
      simp only [deVariantStruct_value, Outcome.bind_value,
        field_says (reads_opt reads_early) forwardFields 0 earlySetting (by decide +kernel),
        field_says reads_str forwardFields 1 [u!"target", u!"Target", u!"target_addr", u!"TargetAddress"] (by decide +kernel),
        field_says (reads_map reads_rule) forwardFields 2 [u!"rules", u!"Rules"] (by decide +kernel)]
      obtain ⟨l, h4⟩ := h4
      obtain ⟨r, h5⟩ := h5
      obtain ⟨m, h6⟩ := h6
      exact ⟨(VariantTable_congr strict _ _ (by decide +kernel) w).2 h3, l, h4, r, h5, m, h6, trivial⟩
    | upstream w h1 h3 h4 h5 h6 =>
      refine ⟨(3, some w), (deVariant_only serviceKinds hd v 3 w).2 h1, ?_⟩
      change deVariantStruct strict upstreamFields _ w = _
      simp only [deVariantStruct_value, Outcome.bind_value,
        field_says (reads_opt reads_early) upstreamFields 0 earlySetting (by decide +kernel),
        field_says (reads_vec reads_str) upstreamFields 1 [u!"targets", u!"Targets", u!"target_addrs", u!"TargetAddrs",
          u!"target_addresses", u!"TargetAddresses"] (by decide +kernel),
        field_says (reads_vec reads_rule) upstreamFields 2 [u!"rules", u!"Rules"] (by decide +kernel)]
      obtain ⟨l, h4⟩ := h4
      obtain ⟨r, h5⟩ := h5
      obtain ⟨m, h6⟩ := h6
      exact ⟨(VariantTable_congr strict _ _ (by decide +kernel) w).2 h3, l, h4, r, h5, m, h6, trivial⟩

/-! ## C141 -/

/-- **C141**, a file that defines one service (`toml::from_str::<ServiceConfig>`, src/config/mod.rs:93). -/
theorem C141_service_file (U : Unicode) (p : Profile) (strict : Bool) (v : Toml) (c : ServiceConfig) :
    ServiceConfig.de U p strict v = .value c ↔ ServiceSays U p strict v c := by
  obtain ⟨idx, name, host, service, logging, tcp, http⟩ := c
  simp only [ServiceConfig.de, deStruct_value, Outcome.bind_value,
    TomlSection_congr serviceFields serviceSettings (by decide +kernel),
    field_says reads_str serviceFields 0 [u!"name", u!"Name"] (by decide +kernel),
    field_says reads_str serviceFields 1 [u!"host", u!"Host"] (by decide +kernel),
    field_says (reads_kind strict) serviceFields 2 [u!"service", u!"Service"] (by decide +kernel),
    field_says (reads_logging U p strict) serviceFields 3 [u!"log", u!"Log", u!"logging", u!"Logging"] (by decide +kernel),
    field_says (reads_tcp U p) serviceFields 4 [u!"tcp", u!"Tcp"] (by decide +kernel),
    field_says (reads_http U p) serviceFields 5 [u!"http", u!"Http"] (by decide +kernel)]
  constructor
  · rintro ⟨hs, _, h1, _, h2, _, h3, _, h4, _, h5, _, h6, h⟩
    cases h
    exact ⟨hs, rfl, h1, h2, h3, h4, h5, h6⟩
  · rintro ⟨hs, hi, h1, h2, h3, h4, h5, h6⟩
    simp only at hi
    subst hi
    exact ⟨hs, _, h1, _, h2, _, h3, _, h4, _, h5, _, h6, rfl⟩

/-- **C141**: a configuration file (`toml::from_str::<Config>`, src/config/mod.rs:123) is accepted, with this result, exactly if
that is what it says. -/
theorem C141_file (U : Unicode) (p : Profile) (strict : Bool) (v : Toml) (c : ConfigFile) :
    ConfigFile.de U p strict v = .value c ↔ FileSays U p strict v c := by
  obtain ⟨wd, rt, ⟨lo, lp, ll, tcp, http, ss, slab⟩, inc, incs⟩ := c
  simp only [ConfigFile.de, deStruct_value, Outcome.bind_value,
    TomlSection_congr configFields fileSettings (by decide +kernel),
    field_says reads_str configFields 0 [u!"workdir", u!"Workdir"] (by decide +kernel),
    field_says reads_runtime configFields 1 [u!"runtime", u!"Runtime"] (by decide +kernel),
    field_says (reads_logging U p strict) configFields 2 [u!"log", u!"Log", u!"logging", u!"Logging"] (by decide +kernel),
    field_says reads_str configFields 3 [u!"logpath", u!"log_path", u!"LogPath"] (by decide +kernel),
    field_says (reads_opt reads_str) configFields 4 [u!"loglevel", u!"log_level", u!"LogLevel"] (by decide +kernel),
    field_says (reads_tcp U p) configFields 5 [u!"tcp", u!"Tcp"] (by decide +kernel),
    field_says (reads_http U p) configFields 6 [u!"http", u!"Http"] (by decide +kernel),
    field_says reads_str configFields 7 [u!"include", u!"Include"] (by decide +kernel),
    field_says (reads_vec reads_str) configFields 8 [u!"includes", u!"Includes"] (by decide +kernel),
    field_says (reads_map (C141_service_file U p strict)) configFields 9 [u!"services", u!"Services"] (by decide +kernel)]
  constructor
  · rintro ⟨hs, _, h1, _, h2, _, h3, _, h4, _, h5, _, h6, _, h7, _, h8, _, h9, _, h10, h⟩
    cases h
    exact ⟨hs, rfl, h1, h2, h3, h4, h5, h6, h7, h8, h9, h10⟩
  · rintro ⟨hs, hi, h1, h2, h3, h4, h5, h6, h7, h8, h9, h10⟩
    simp only at hi
    subst hi
    exact ⟨hs, _, h1, _, h2, _, h3, _, h4, _, h5, _, h6, _, h7, _, h8, _, h9, _, h10, rfl⟩

/-- A file with a service under an alias, one with a size that is not a string, one with a setting given under two names. -/
example : (match ConfigFile.de asciiUnicode .release true
      (.table [(u!"Workdir", .str u!"/srv"), (u!"services", .table [(u!"a", .table [(u!"Host", .str u!"x.org"),
        (u!"service", .table [(u!"fs", .table [(u!"root", .str u!"/www")])])])])]) with
    | .value c => some (c.workdir, c.config.services.map (fun s => (s.1, s.2.host, s.2.service))) | _ => none) =
      some (u!"/srv", [(u!"a", u!"x.org", .fileSystem u!"/www")]) ∧
    (match ConfigFile.de asciiUnicode .release true (.table [(u!"http", .table [(u!"max_body_size", .int 5)])]) with
    | .error => true | _ => false) = true ∧
    (match ConfigFile.de asciiUnicode .release true (.table [(u!"workdir", .str u!"/a"), (u!"Workdir", .str u!"/b")]) with
    | .error => true | _ => false) = true := by
  decide +kernel

end Httpd
