import Verif.Props.ConfigFile
/-!
# The order of the entries of a configuration file (C146)
-/

namespace Httpd

open Spec

/-- What `R` reads does not depend on the order of entries. -/
def Still {α : Type} (R : Toml → α → Prop) : Prop := ∀ v w a, Swapped v w → R v a → R w a

/-- The same for something of which only the existence matters. -/
def StillE {α : Type} (R : Toml → α → Prop) : Prop := ∀ v w a, Swapped v w → R v a → ∃ b, R w b

theorem Still.e {α : Type} {R : Toml → α → Prop} (h : Still R) : StillE R := fun v w a hs hr => ⟨a, h v w a hs hr⟩

theorem swapped_str {v w : Toml} {s : Str} (h : Swapped v w) : v ≠ .str s := by
  intro he; subst he; cases h
theorem swapped_int {v w : Toml} {i : Int} (h : Swapped v w) : v ≠ .int i := by
  intro he; subst he; cases h
theorem swapped_bool {v w : Toml} {b : Bool} (h : Swapped v w) : v ≠ .bool b := by
  intro he; subst he; cases h

theorem still_str : Still IsString := fun _ _ _ hs h => absurd h (swapped_str hs)
theorem still_bool : Still IsBool := fun _ _ _ hs h => absurd h (swapped_bool hs)
theorem still_int (lo hi : Int) : Still (IsInt lo hi) := fun _ _ _ hs h => absurd h.1 (swapped_int hs)
theorem still_count : Still IsCount := fun _ _ _ hs h => absurd h.1 (swapped_int hs)
theorem still_size (U : Unicode) (p : Profile) : Still (IsSize U p) := fun _ _ _ hs ⟨_, h, _⟩ => absurd h (swapped_str hs)
theorem still_duration (U : Unicode) (p : Profile) : Still (IsDuration U p) := fun _ _ _ hs ⟨_, _, h, _⟩ => absurd h (swapped_str hs)

theorem still_some {α : Type} {R : Toml → α → Prop} (h : Still R) : Still (IsSome R) :=
  fun v w _ hs ⟨a, ho, hr⟩ => ⟨a, ho, h v w a hs hr⟩

theorem Each2_split {α β : Type} {R : α → β → Prop} (a : List α) (x : List α) (m : List β) (h : Each2 R (a ++ x) m) :
    ∃ m1 m2, m = m1 ++ m2 ∧ Each2 R a m1 ∧ Each2 R x m2 := by
  induction a generalizing m with
  | nil => exact ⟨[], m, rfl, .nil, h⟩
  | cons y a ih =>
    cases h with
    | cons h1 h2 =>
      obtain ⟨m1, m2, rfl, k1, k2⟩ := ih _ h2
      exact ⟨_ :: m1, m2, rfl, .cons h1 k1, k2⟩

theorem Each2_append {α β : Type} {R : α → β → Prop} {a x : List α} {m n : List β} (h : Each2 R a m) (k : Each2 R x n) :
    Each2 R (a ++ x) (m ++ n) := by
  induction h with
  | nil => exact k
  | cons h1 _ ih => exact .cons h1 ih

theorem still_list {α : Type} {R : Toml → α → Prop} (h : Still R) : Still (IsList R) := by
  rintro v w l hs ⟨vs, rfl, hl⟩
  cases hs with
  | inArr a b v w hs =>
    obtain ⟨m1, m2, rfl, k1, k2⟩ := Each2_split a _ l hl
    cases k2 with
    | cons k2 k3 => exact ⟨_, rfl, Each2_append k1 (.cons (h _ _ _ hs k2) k3)⟩

/-- The entries of a table can come in any order: the same map. -/
theorem swapped_map {α : Type} {R : Toml → α → Prop} (h : Still R) {v w : Toml} {l : List (Str × α)} (hs : Swapped v w) (hl : IsMap R v l) :
    ∃ l', IsMap R w l' ∧ l.Perm l' := by
  obtain ⟨es, rfl, hl⟩ := hl
  cases hs with
  | here a b x y =>
    obtain ⟨m1, m2, rfl, k1, k2⟩ := Each2_split a _ l hl
    cases k2 with
    | cons k2 k3 =>
      cases k3 with
      | cons k3 k4 => exact ⟨_, ⟨_, rfl, Each2_append k1 (.cons k3 (.cons k2 k4))⟩, List.Perm.append_left _ (List.Perm.swap ..)⟩
  | inTable a b k v w hs =>
    obtain ⟨m1, m2, rfl, k1, k2⟩ := Each2_split a _ l hl
    cases k2 with
    | cons k2 k3 => exact ⟨_, ⟨_, rfl, Each2_append k1 (.cons ⟨k2.1, h _ _ _ hs k2.2⟩ k3)⟩, List.Perm.refl _⟩

theorem stillE_map {α : Type} {R : Toml → α → Prop} (h : Still R) : StillE (IsMap R) :=
  fun _ _ _ hs hr => let ⟨l, hl, _⟩ := swapped_map h hs hr; ⟨l, hl⟩

/-! ## Settings -/

theorem section_swapped {fs : List (List Str)} {v w : Toml} (hs : Swapped v w) (h : TomlSection fs v) : TomlSection fs w := by
  cases hs with
  | here a b x y =>
    intro names hn
    have := h names hn
    have hp : (a ++ x :: y :: b).Perm (a ++ y :: x :: b) := List.Perm.append_left _ (List.Perm.swap ..)
    rw [← (hp.filter _).length_eq]
    exact this
  | inTable a b k v w hs =>
    intro names hn
    have := h names hn
    simp only [List.filter_append, List.length_append, List.filter_cons] at this ⊢
    split at this <;> simp_all
  | inArr a b v w hs => trivial

theorem noOther_swapped {fs : List (List Str)} {v w : Toml} (hs : Swapped v w) (h : NoOther fs v) : NoOther fs w := by
  cases hs with
  | here a b x y =>
    intro e he
    refine h e ?_
    simp only [List.mem_append, List.mem_cons] at he ⊢
    rcases he with he | he | he | he <;> simp [he]
  | inTable a b k v w hs =>
    intro e he
    simp only [List.mem_append, List.mem_cons] at he
    rcases he with he | rfl | he
    · exact h e (by simp [he])
    · exact h (k, v) (by simp)
    · exact h e (by simp [he])
  | inArr a b v w hs => trivial

theorem variant_swapped {strict : Bool} {fs : List (List Str)} {v w : Toml} (hs : Swapped v w) (h : VariantTable strict fs v) :
    VariantTable strict fs w := ⟨section_swapped hs h.1, fun hst => noOther_swapped hs (h.2 hst)⟩

/-- A setting given at most once: the same value, or one with two entries exchanged. -/
theorem setting_swapped {fs : List (List Str)} {v w : Toml} (hs : Swapped v w) (h : TomlSection fs v) {names : List Str} (hn : names ∈ fs) (i : Nat) :
    setting names i v = setting names i w ∨ ∃ v' w', setting names i v = some v' ∧ setting names i w = some w' ∧ Swapped v' w' := by
  cases hs with
  | here a b x y =>
    left
    have h := h names hn
    simp only [setting]
    congr 1
    simp only [List.filter_append, List.length_append, List.filter_cons, List.find?_append, List.find?_cons] at h ⊢
    by_cases hx : names.contains x.1 = true <;> by_cases hy : names.contains y.1 = true <;> simp only [hx, hy] at h ⊢ <;> simp at h <;> try omega
  | inTable a b k v w hs =>
    simp only [setting, List.find?_append, List.find?_cons]
    cases ha : a.find? (fun e => names.contains e.1) with
    | some e => left; rfl
    | none =>
      cases hk : names.contains k with
      | false => left; rfl
      | true => exact .inr ⟨v, w, rfl, rfl, hs⟩
  | inArr a b v w hs =>
    simp only [setting]
    rcases Nat.lt_trichotomy i a.length with hi | hi | hi
    · left; rw [List.getElem?_append_left hi, List.getElem?_append_left hi]
    · right; subst hi; exact ⟨v, w, by simp, by simp, hs⟩
    · left
      rw [List.getElem?_append_right (by omega), List.getElem?_append_right (by omega)]
      obtain ⟨j, hj⟩ : ∃ j, i - a.length = j + 1 := ⟨i - a.length - 1, by omega⟩
      rw [hj]; rfl

theorem still_given {α : Type} {R : Toml → α → Prop} (hR : Still R) {fs : List (List Str)} {v w : Toml} (hs : Swapped v w) (h : TomlSection fs v)
    {names : List Str} (hn : names ∈ fs) {i : Nat} {d a : α} (hg : Given R d (setting names i v) a) : Given R d (setting names i w) a := by
  rcases setting_swapped hs h hn i with he | ⟨v', w', h1, h2, h3⟩
  · rwa [← he]
  · rw [h1] at hg
    rw [h2]
    exact hR v' w' a h3 hg

theorem stillE_given {α : Type} {R : Toml → α → Prop} (hR : StillE R) {fs : List (List Str)} {v w : Toml} (hs : Swapped v w) (h : TomlSection fs v)
    {names : List Str} (hn : names ∈ fs) {i : Nat} {d : α} (hg : ∃ a, Given R d (setting names i v) a) : ∃ a, Given R d (setting names i w) a := by
  obtain ⟨a, hg⟩ := hg
  rcases setting_swapped hs h hn i with he | ⟨v', w', h1, h2, h3⟩
  · exact ⟨a, by rwa [← he]⟩
  · rw [h1] at hg
    rw [h2]
    exact hR v' w' a h3 hg

theorem only_swapped {names : List Str} {v w x : Toml} (hs : Swapped v w) (h : Only names v x) : ∃ y, Only names w y ∧ Swapped x y := by
  obtain ⟨k, hk, rfl⟩ := h
  generalize he : Toml.table [(k, x)] = t at hs
  cases hs with
  | here a b x y =>
    have := congrArg (fun t => match t with | .table l => l.length | _ => 0) he
    simp at this
    omega
  | inTable a b k' v w hs =>
    cases a with
    | nil => cases he; exact ⟨w, ⟨k, hk, rfl⟩, hs⟩
    | cons y a =>
      have := congrArg (fun t => match t with | .table l => l.length | _ => 0) he
      simp at this
  | inArr a b v w hs => cases he

/-! ## The sections -/

section
variable {U : Unicode} {p : Profile}

theorem still_tls : Still (TlsSays U p) := fun _ _ _ hs h =>
  ⟨section_swapped hs h.sect, still_given still_str hs h.sect (by decide) h.cert, still_given still_str hs h.sect (by decide) h.key,
    still_given (still_duration U p) hs h.sect (by decide) h.timeout⟩

theorem still_tcp : Still (TcpSays U p) := fun _ _ _ hs h =>
  ⟨section_swapped hs h.sect, still_given still_str hs h.sect (by decide) h.addr, still_given still_tls hs h.sect (by decide) h.tls,
    still_given (still_size U p) hs h.sect (by decide) h.readBuf, still_given (still_size U p) hs h.sect (by decide) h.writeBuf,
    still_given (still_size U p) hs h.sect (by decide) h.buf⟩

theorem still_websocket : Still (fun w (n : Nat) => WebsocketReads U p w ∧ n = 0) := fun _ _ _ hs ⟨h, hn⟩ =>
  ⟨⟨section_swapped hs h.sect, stillE_given (still_size U p).e hs h.sect (by decide) h.frame,
    stillE_given (still_size U p).e hs h.sect (by decide) h.message, stillE_given (still_duration U p).e hs h.sect (by decide) h.timeout,
    stillE_given (still_some (still_int _ _)).e hs h.sect (by decide) h.compression⟩, hn⟩

theorem still_http : Still (HttpSays U p) := fun _ _ _ hs h =>
  ⟨section_swapped hs h.sect, still_given (still_some still_bool) hs h.sect (by decide) h.keepAlive,
    still_given (still_duration U p) hs h.sect (by decide) h.idleTimeout, still_given (still_size U p) hs h.sect (by decide) h.maxUrl,
    still_given (still_size U p) hs h.sect (by decide) h.maxLine, still_given still_count hs h.sect (by decide) h.maxHeaders,
    still_given (still_size U p) hs h.sect (by decide) h.maxBody, still_given (still_some (still_int _ _)) hs h.sect (by decide) h.compression,
    still_given (still_some still_websocket) hs h.sect (by decide) h.websocket⟩

theorem still_appender (strict : Bool) : Still (AppenderSays U p strict) := by
  intro v w a hs h
  cases h with
  | console x level h1 h2 h3 =>
    obtain ⟨y, k1, k2⟩ := only_swapped hs h1
    exact .console y level k1 (variant_swapped k2 h2) (still_given (still_some still_str) k2 h2.1 (by decide) h3)
  | file x level equal daily bufsize h1 h2 h3 h4 h5 h6 =>
    obtain ⟨y, k1, k2⟩ := only_swapped hs h1
    exact .file y level equal daily bufsize k1 (variant_swapped k2 h2) (still_given (still_some still_str) k2 h2.1 (by decide) h3)
      (still_given (still_some still_bool) k2 h2.1 (by decide) h4) (still_given still_bool k2 h2.1 (by decide) h5)
      (still_given (still_size U p) k2 h2.1 (by decide) h6)

theorem still_logging (strict : Bool) : Still (LoggingSays U p strict) := fun _ _ _ hs h =>
  ⟨section_swapped hs h.sect, h.noName, h.noIdx, still_given (still_some still_bool) hs h.sect (by decide) h.disable,
    still_given still_str hs h.sect (by decide) h.timelayout, still_given (still_list (still_appender strict)) hs h.sect (by decide) h.appenders⟩

theorem still_runtime : Still RuntimeSays := fun _ _ _ hs h =>
  ⟨section_swapped hs h.sect, still_given still_count hs h.sect (by decide) h.workerThreads,
    still_given (still_some still_bool) hs h.sect (by decide) h.perCore⟩

theorem still_rewrite : Still (fun w (_ : Unit) => RewriteReads w) := fun _ _ _ hs h => section_swapped hs h

theorem still_match : Still (fun w (_ : Unit) => MatchReads w) := fun _ _ _ hs ⟨_, h⟩ => absurd h (swapped_str hs)

theorem still_body : Still (fun w (_ : Unit) => BodyReads w) := by
  intro v w _ hs h
  cases h with
  | word s h => exact absurd rfl (swapped_str hs)
  | none _ x h1 h2 =>
    obtain ⟨y, k1, k2⟩ := only_swapped hs h1
    rcases h2 with rfl | rfl
    · generalize he : Toml.table [] = t at k2
      cases k2 <;> simp at he
    · generalize he : Toml.arr [] = t at k2
      cases k2 <;> simp at he
  | text _ s h1 =>
    obtain ⟨y, k1, k2⟩ := only_swapped hs h1
    exact absurd rfl (swapped_str k2)
  | file _ s h1 =>
    obtain ⟨y, k1, k2⟩ := only_swapped hs h1
    exact absurd rfl (swapped_str k2)

theorem still_answer : Still (fun w (_ : Unit) => AnswerReads w) := fun _ _ _ hs h =>
  ⟨section_swapped hs h.sect, stillE_given (still_some still_count).e hs h.sect (by decide) h.code,
    stillE_given (still_some still_str).e hs h.sect (by decide) h.reason, stillE_given (still_list still_str).e hs h.sect (by decide) h.headers,
    still_given still_body hs h.sect (by decide) h.body⟩

theorem still_early : Still (fun w (_ : Unit) => EarlyReads w) := fun _ _ _ hs h =>
  ⟨section_swapped hs h.sect, stillE_given (still_list still_match).e hs h.sect (by decide) h.matchs,
    stillE_given (still_some still_answer).e hs h.sect (by decide) h.resp⟩

theorem still_rule : Still (fun w (_ : Unit) => RuleReads w) := fun _ _ _ hs h =>
  ⟨section_swapped hs h.sect, stillE_given still_match.e hs h.sect (by decide) h.cond,
    stillE_given (still_some still_rewrite).e hs h.sect (by decide) h.req,
    stillE_given (still_some still_rewrite).e hs h.sect (by decide) h.resp⟩

theorem still_kind (strict : Bool) : Still (KindSays strict) := by
  intro v w a hs h
  cases h with
  | hello x h1 h2 h3 =>
    obtain ⟨y, k1, k2⟩ := only_swapped hs h1
    exact .hello y k1 (variant_swapped k2 h2) (stillE_given (still_some still_early).e k2 h2.1 (by decide) h3)
  | fs x root h1 h2 h3 h4 h5 =>
    obtain ⟨y, k1, k2⟩ := only_swapped hs h1
    exact .fs y root k1 (variant_swapped k2 h2) (stillE_given (still_some still_early).e k2 h2.1 (by decide) h3)
      (still_given still_str k2 h2.1 (by decide) h4) (stillE_given (stillE_map still_rewrite) k2 h2.1 (by decide) h5)
  | forward x h1 h2 h3 h4 h5 =>
    obtain ⟨y, k1, k2⟩ := only_swapped hs h1
    exact .forward y k1 (variant_swapped k2 h2) (stillE_given (still_some still_early).e k2 h2.1 (by decide) h3)
      (stillE_given still_str.e k2 h2.1 (by decide) h4) (stillE_given (stillE_map still_rule) k2 h2.1 (by decide) h5)
  | upstream x h1 h2 h3 h4 h5 =>
    obtain ⟨y, k1, k2⟩ := only_swapped hs h1
    exact .upstream y k1 (variant_swapped k2 h2) (stillE_given (still_some still_early).e k2 h2.1 (by decide) h3)
      (stillE_given (still_list still_str).e k2 h2.1 (by decide) h4) (stillE_given (still_list still_rule).e k2 h2.1 (by decide) h5)

theorem still_service (strict : Bool) : Still (ServiceSays U p strict) := fun _ _ _ hs h =>
  ⟨section_swapped hs h.sect, h.noIdx, still_given still_str hs h.sect (by decide) h.name, still_given still_str hs h.sect (by decide) h.host,
    still_given (still_kind strict) hs h.sect (by decide) h.service, still_given (still_logging strict) hs h.sect (by decide) h.logging,
    still_given still_tcp hs h.sect (by decide) h.tcp, still_given still_http hs h.sect (by decide) h.http⟩

theorem swapped_file (strict : Bool) {v w : Toml} {c : ConfigFile} (hs : Swapped v w) (h : FileSays U p strict v c) :
    ∃ l, c.config.services.Perm l ∧ FileSays U p strict w { c with config := { c.config with services := l } } := by
  have hserv : ∃ l, c.config.services.Perm l ∧ Given (IsMap (ServiceSays U p strict)) [] (setting [u!"services", u!"Services"] 9 w) l := by
    have hg := h.services
    rcases setting_swapped hs h.sect (names := [u!"services", u!"Services"]) (by decide) 9 with he | ⟨v', w', h1, h2, h3⟩
    · exact ⟨_, .refl _, by rwa [← he]⟩
    · rw [h1] at hg
      rw [h2]
      obtain ⟨l, k1, k2⟩ := swapped_map (still_service strict) h3 hg
      exact ⟨l, k2, k1⟩
  obtain ⟨l, hp, hl⟩ := hserv
  exact ⟨l, hp, ⟨section_swapped hs h.sect, h.noSlab, still_given still_str hs h.sect (by decide) h.workdir,
    still_given still_runtime hs h.sect (by decide) h.runtime, still_given (still_logging strict) hs h.sect (by decide) h.logging,
    still_given still_str hs h.sect (by decide) h.logpath, still_given (still_some still_str) hs h.sect (by decide) h.loglevel,
    still_given still_tcp hs h.sect (by decide) h.tcp, still_given still_http hs h.sect (by decide) h.http,
    still_given still_str hs h.sect (by decide) h.incl, still_given (still_list still_str) hs h.sect (by decide) h.includes, hl⟩⟩

/-- **C146**: the order in which the entries of a service file are written, in any of its tables, does not matter. -/
theorem C146_service (strict : Bool) (v w : Toml) (c : ServiceConfig) (hr : Reordered v w) (h : ServiceConfig.de U p strict v = .value c) :
    ServiceConfig.de U p strict w = .value c := by
  induction hr with
  | same v => exact h
  | step u v w hs _ ih => exact ih ((C141_service_file U p strict v c).2 (still_service strict u v c hs ((C141_service_file U p strict u c).1 h)))

/-- **C146** for the main file: the same configuration, the services possibly in another order. (The code keeps them in a hash map:
the order is lost in any case.) -/
theorem C146_file (strict : Bool) (v w : Toml) (c : ConfigFile) (hr : Reordered v w) (h : ConfigFile.de U p strict v = .value c) :
    ∃ l, c.config.services.Perm l ∧
      ConfigFile.de U p strict w = .value { c with config := { c.config with services := l } } := by
  induction hr generalizing c with
  | same v => exact ⟨_, .refl _, h⟩
  | step u v w hs _ ih =>
    obtain ⟨l, hp, hl⟩ := swapped_file strict hs ((C141_file U p strict u c).1 h)
    obtain ⟨l', hp', hl'⟩ := ih _ ((C141_file U p strict v _).2 hl)
    exact ⟨l', hp.trans hp', hl'⟩

/-- `tcp.addr` before or after `workdir`, `key` before or after `cert`. -/
example : Reordered
    (.table [(u!"workdir", .str u!"/srv"), (u!"tcp", .table [(u!"addr", .str u!"0.0.0.0:80"), (u!"buf_size", .str u!"4096")])])
    (.table [(u!"tcp", .table [(u!"buf_size", .str u!"4096"), (u!"addr", .str u!"0.0.0.0:80")]), (u!"workdir", .str u!"/srv")]) :=
  .step _ _ _ (.here [] [] _ _) (.step _ _ _ (.inTable [] _ _ _ _ (.here [] [] _ _)) (.same _))

end

end Httpd
