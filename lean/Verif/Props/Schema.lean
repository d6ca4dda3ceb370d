import Verif.Spec.Schema
import Verif.Props.ConfigUse
/-! # The types of the settings: C142 for all sections -/

namespace Httpd
open Spec

/-- The settings of a section, from the `i`th on, have values of their kinds. -/
def AllFit (v : Toml) : Nat → List (List Str × Kind) → Prop
  | _, [] => True
  | i, s :: ss => (∀ w, setting s.1 i v = some w → Fits s.2 w) ∧ AllFit v (i + 1) ss

theorem AllFit.at {v : Toml} : ∀ {i : Nat} {ss : List (List Str × Kind)}, AllFit v i ss → ∀ (j : Nat) (s : List Str × Kind), ss[j]? = some s →
    ∀ w, setting s.1 (i + j) v = some w → Fits s.2 w
  | _, [], _, _, _, hs, _, _ => by simp at hs
  | i, t :: ss, h, 0, s, hs, w, hw => by
    obtain rfl : t = s := by simpa using hs
    exact h.1 w hw
  | i, t :: ss, h, j + 1, s, hs, w, hw => h.2.at j s (by simpa using hs) w (by rwa [show i + 1 + j = i + (j + 1) by omega])

theorem fits_settings {ss : List (List Str × Kind)} {v : Toml} (hsect : TomlSection (ss.map (·.1)) v) (h : AllFit v 0 ss) : Fits (.settings ss) v := by
  match v, hsect with
  | .table es, hsect =>
    refine .table ss es (fun s hs => hsect s.1 (List.mem_map_of_mem hs)) fun s hs e he hk => ?_
    obtain ⟨j, hj⟩ := List.getElem?_of_mem hs
    exact h.at j s hj e.2 (setting_entry hsect (v := e.2) (k := e.1) he s.1 (List.mem_map_of_mem hs) hk _)
  | .arr vs, _ =>
    refine .inOrder ss vs fun i s w hs hw => h.at i s hs w ?_
    simpa [setting] using hw

/-- What is given has the kind that everything that can be given has. -/
theorem given_fits {α : Type} {R : Toml → α → Prop} {d a : α} {names : List Str} {i : Nat} {v : Toml} {k : Kind}
    (hg : Given R d (setting names i v) a) (hR : ∀ w b, R w b → Fits k w) : ∀ w, setting names i v = some w → Fits k w := by
  intro w hw
  rw [hw] at hg
  exact hR w a hg

theorem string_fits (w : Toml) (s : Str) (h : IsString w s) : Fits .text w := by cases h; exact .text s
theorem bool_fits (w : Toml) (b : Bool) (h : IsBool w b) : Fits .flag w := by cases h; exact .flag b
theorem size_fits (U : Unicode) (p : Profile) (w : Toml) (n : Nat) (h : IsSize U p w n) : Fits .text w := by
  obtain ⟨s, rfl, _⟩ := h; exact .text s
theorem duration_fits (U : Unicode) (p : Profile) (w : Toml) (n : Nat) (h : IsDuration U p w n) : Fits .text w := by
  obtain ⟨s, _, rfl, _⟩ := h; exact .text s
theorem int_fits (lo hi : Int) (w : Toml) (i : Int) (h : IsInt lo hi w i) : Fits (.integer lo hi) w := by
  obtain ⟨rfl, h1, h2⟩ := h; exact .integer lo hi i h1 h2
theorem count_fits (w : Toml) (n : Nat) (h : IsCount w n) : Fits .count w := by
  obtain ⟨rfl, h1⟩ := h
  exact .integer _ _ _ (by omega) (by omega)
theorem some_fits {α : Type} {R : Toml → α → Prop} {k : Kind} (hR : ∀ w b, R w b → Fits k w) (w : Toml) (o : Option α) (h : IsSome R w o) : Fits k w := by
  obtain ⟨a, _, h⟩ := h; exact hR w a h
theorem each2_left {α β : Type} {R : α → β → Prop} {l : List α} {m : List β} (h : Each2 R l m) : ∀ a ∈ l, ∃ b, R a b := by
  induction h with
  | nil => simp
  | cons h _ ih =>
    intro a ha
    rcases List.mem_cons.mp ha with rfl | ha
    · exact ⟨_, h⟩
    · exact ih a ha
theorem list_fits {α : Type} {R : Toml → α → Prop} {k : Kind} (hR : ∀ w b, R w b → Fits k w) (w : Toml) (l : List α) (h : IsList R w l) :
    Fits (.list k) w := by
  obtain ⟨vs, rfl, h⟩ := h
  exact .list k vs fun v hv => let ⟨b, hb⟩ := each2_left h v hv; hR v b hb
theorem map_fits {α : Type} {R : Toml → α → Prop} {k : Kind} (hR : ∀ w b, R w b → Fits k w) (w : Toml) (l : List (Str × α)) (h : IsMap R w l) :
    Fits (.named k) w := by
  obtain ⟨vs, rfl, h⟩ := h
  exact .named k vs fun v hv => let ⟨b, hb⟩ := each2_left h v hv; hR v.2 b.2 hb.2

section
variable (U : Unicode) (p : Profile) (strict : Bool)

theorem tls_fits (w : Toml) (c : TlsConfig) (h : TlsSays U p w c) : Fits tlsKind w :=
  fits_settings h.sect ⟨given_fits h.cert string_fits, given_fits h.key string_fits, given_fits h.timeout (duration_fits U p), trivial⟩

theorem tcp_fits (w : Toml) (c : TcpConfig) (h : TcpSays U p w c) : Fits tcpKind w :=
  fits_settings h.sect ⟨given_fits h.addr string_fits, given_fits h.tls (tls_fits U p), given_fits h.readBuf (size_fits U p),
    given_fits h.writeBuf (size_fits U p), given_fits h.buf (size_fits U p), trivial⟩

theorem websocket_fits (w : Toml) (h : WebsocketReads U p w) : Fits websocketKind w := by
  obtain ⟨h0, ⟨_, h1⟩, ⟨_, h2⟩, ⟨_, h3⟩, ⟨_, h4⟩⟩ := h
  exact fits_settings h0 ⟨given_fits h1 (size_fits U p), given_fits h2 (size_fits U p), given_fits h3 (duration_fits U p),
    given_fits h4 (some_fits (int_fits _ _)), trivial⟩

theorem http_fits (w : Toml) (c : HttpConfig) (h : HttpSays U p w c) : Fits httpKind w :=
  fits_settings h.sect ⟨given_fits h.keepAlive (some_fits bool_fits), given_fits h.idleTimeout (duration_fits U p), given_fits h.maxUrl (size_fits U p),
    given_fits h.maxLine (size_fits U p), given_fits h.maxHeaders count_fits, given_fits h.maxBody (size_fits U p),
    given_fits h.compression (some_fits (int_fits _ _)), given_fits h.websocket (some_fits fun w _ h => websocket_fits U p w h.1), trivial⟩

theorem only_fits {names : List Str} {v w : Toml} {k : Kind} {vs : List (List Str × Kind)} (h : Only names v w) (hm : (names, k) ∈ vs) (hw : Fits k w) :
    Fits (.oneOf vs) v := by
  obtain ⟨n, hn, rfl⟩ := h
  exact .one vs (names, k) n w hm hn hw

theorem appender_fits (v : Toml) (c : AppenderConfig) (h : AppenderSays U p strict v c) : Fits appenderKind v := by
  cases h with
  | console w level h1 h2 h3 =>
    exact only_fits h1 (List.mem_cons_self ..) (fits_settings h2.1 ⟨given_fits h3 (some_fits string_fits), trivial⟩)
  | file w level equal daily bufsize h1 h2 h3 h4 h5 h6 =>
    exact only_fits h1 (List.mem_cons_of_mem _ (List.mem_cons_self ..)) (fits_settings h2.1 ⟨given_fits h3 (some_fits string_fits),
      given_fits h4 (some_fits bool_fits), given_fits h5 bool_fits, given_fits h6 (size_fits U p), trivial⟩)

theorem logging_fits (w : Toml) (c : LoggingConfig) (h : LoggingSays U p strict w c) : Fits loggingKind w :=
  fits_settings h.sect ⟨given_fits h.disable (some_fits bool_fits), given_fits h.timelayout string_fits,
    given_fits h.appenders (list_fits (appender_fits U p strict)), trivial⟩

theorem runtime_fits (w : Toml) (c : RuntimeConfig) (h : RuntimeSays w c) : Fits runtimeKind w :=
  fits_settings h.sect ⟨given_fits h.workerThreads count_fits, given_fits h.perCore (some_fits bool_fits), trivial⟩

theorem match_fits (w : Toml) (_ : Unit) (h : MatchReads w) : Fits .text w := by obtain ⟨s, rfl⟩ := h; exact .text s

theorem rewrite_fits (w : Toml) (_ : Unit) (h : RewriteReads w) : Fits (.settings []) w := fits_settings h trivial

theorem body_fits (w : Toml) (_ : Unit) (h : BodyReads w) : Fits bodyKind w := by
  cases h with
  | word s hs => exact .word _ _ s (List.mem_cons_self ..) hs
  | none _ w h1 h2 =>
    refine only_fits h1 (List.mem_cons_self ..) ?_
    rcases h2 with rfl | rfl
    · exact .emptyTable
    · exact .emptyList
  | text _ s h1 => exact only_fits h1 (List.mem_cons_of_mem _ (List.mem_cons_self ..)) (.text s)
  | file _ s h1 => exact only_fits h1 (List.mem_cons_of_mem _ (List.mem_cons_of_mem _ (List.mem_cons_self ..))) (.text s)

theorem answer_fits (w : Toml) (_ : Unit) (h : AnswerReads w) : Fits answerKind w := by
  obtain ⟨h0, ⟨_, h1⟩, ⟨_, h2⟩, ⟨_, h3⟩, h4⟩ := h
  exact fits_settings h0 ⟨given_fits h1 (some_fits count_fits), given_fits h2 (some_fits string_fits), given_fits h3 (list_fits string_fits),
    given_fits h4 body_fits, trivial⟩

theorem early_fits (w : Toml) (_ : Unit) (h : EarlyReads w) : Fits earlyKind w := by
  obtain ⟨h0, ⟨_, h1⟩, ⟨_, h2⟩⟩ := h
  exact fits_settings h0 ⟨given_fits h1 (list_fits match_fits), given_fits h2 (some_fits answer_fits), trivial⟩

theorem rule_fits (w : Toml) (_ : Unit) (h : RuleReads w) : Fits ruleKind w := by
  obtain ⟨h0, ⟨_, h1⟩, ⟨_, h2⟩, ⟨_, h3⟩⟩ := h
  exact fits_settings h0 ⟨given_fits h1 match_fits, given_fits h2 (some_fits rewrite_fits), given_fits h3 (some_fits rewrite_fits), trivial⟩

theorem kind_fits (v : Toml) (c : ServiceSetting) (h : KindSays strict v c) : Fits serviceKindKind v := by
  cases h with
  | hello w h1 h2 h3 =>
    obtain ⟨_, h3⟩ := h3
    exact only_fits h1 (List.mem_cons_self ..) (fits_settings h2.1 ⟨given_fits h3 (some_fits early_fits), trivial⟩)
  | fs w root h1 h2 h3 h4 h5 =>
    obtain ⟨_, h3⟩ := h3
    obtain ⟨_, h5⟩ := h5
    exact only_fits h1 (List.mem_cons_of_mem _ (List.mem_cons_self ..)) (fits_settings h2.1 ⟨given_fits h3 (some_fits early_fits),
      given_fits h4 string_fits, given_fits h5 (map_fits rewrite_fits), trivial⟩)
  | forward w h1 h2 h3 h4 h5 =>
    obtain ⟨_, h3⟩ := h3
    obtain ⟨_, h4⟩ := h4
    obtain ⟨_, h5⟩ := h5
    exact only_fits h1 (List.mem_cons_of_mem _ (List.mem_cons_of_mem _ (List.mem_cons_self ..))) (fits_settings h2.1
      ⟨given_fits h3 (some_fits early_fits), given_fits h4 string_fits, given_fits h5 (map_fits rule_fits), trivial⟩)
  | upstream w h1 h2 h3 h4 h5 =>
    obtain ⟨_, h3⟩ := h3
    obtain ⟨_, h4⟩ := h4
    obtain ⟨_, h5⟩ := h5
    exact only_fits h1 (List.mem_cons_of_mem _ (List.mem_cons_of_mem _ (List.mem_cons_of_mem _ (List.mem_cons_self ..)))) (fits_settings h2.1
      ⟨given_fits h3 (some_fits early_fits), given_fits h4 (list_fits string_fits), given_fits h5 (list_fits rule_fits), trivial⟩)

theorem service_fits (w : Toml) (c : ServiceConfig) (h : ServiceSays U p strict w c) : Fits serviceKind w :=
  fits_settings h.sect ⟨given_fits h.name string_fits, given_fits h.host string_fits, given_fits h.service (kind_fits strict),
    given_fits h.logging (logging_fits U p strict), given_fits h.tcp (tcp_fits U p), given_fits h.http (http_fits U p), trivial⟩

theorem file_fits (w : Toml) (c : ConfigFile) (h : FileSays U p strict w c) : Fits fileKind w :=
  fits_settings h.sect ⟨given_fits h.workdir string_fits, given_fits h.runtime runtime_fits, given_fits h.logging (logging_fits U p strict),
    given_fits h.logpath string_fits, given_fits h.loglevel (some_fits string_fits), given_fits h.tcp (tcp_fits U p), given_fits h.http (http_fits U p),
    given_fits h.incl string_fits, given_fits h.includes (list_fits string_fits), given_fits h.services (map_fits (service_fits U p strict)), trivial⟩

end

/-- **C142**, what holds, for every section of every file: a file in which a setting - at whatever depth - is given twice or has a value that is not
of its kind is not accepted. Missing: entries that are not settings (`C142_unknown_violated`). -/
theorem C142_kinds_partial (U : Unicode) (p : Profile) (strict : Bool) (v : Toml) :
    (∀ c, ConfigFile.de U p strict v = .value c → Fits fileKind v) ∧ (∀ c, ServiceConfig.de U p strict v = .value c → Fits serviceKind v) :=
  ⟨fun c h => file_fits U p strict v c ((C141_file U p strict v c).1 h), fun c h => service_fits U p strict v c ((C141_service_file U p strict v c).1 h)⟩

/-- Non-trivial case: `[[logging.appenders]]` with `file = {daily = 1}` - three levels down - is not of the kind, so no such file is accepted. -/
example (U : Unicode) (p : Profile) (strict : Bool) (c : ConfigFile) :
    ConfigFile.de U p strict (.table [(u!"logging", .table [(u!"appenders", .arr [.table [(u!"file", .table [(u!"daily", .int 1)])]])])]) ≠ .value c := by
  intro h
  have h1 := (C142_kinds_partial U p strict _).1 c h
  cases h1 with | table _ _ _ h1 =>
  have h2 := h1 ([u!"log", u!"Log", u!"logging", u!"Logging"], loggingKind) (by simp) (u!"logging", _) (List.mem_singleton.mpr rfl) (by decide +kernel)
  cases h2 with | table _ _ _ h2 =>
  have h3 := h2 ([u!"appenders", u!"Appender"], .list appenderKind) (by simp) (u!"appenders", _) (List.mem_singleton.mpr rfl) (by decide +kernel)
  cases h3 with | list _ _ h3 =>
  have h4 := h3 _ (List.mem_singleton.mpr rfl)
  cases h4 with | one _ s _ _ hs hk h4 =>
  simp only [List.mem_cons, List.not_mem_nil, or_false] at hs
  rcases hs with rfl | rfl
  · exact absurd hk (by decide +kernel)
  · cases h4 with | table _ _ _ h4 =>
    have h5 := h4 ([u!"daily", u!"Daily"], .flag) (by simp) (u!"daily", _) (List.mem_singleton.mpr rfl) (by decide +kernel)
    cases h5

end Httpd
