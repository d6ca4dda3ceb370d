import Verif.Spec.Config
/-! # C52–C57, C84, C86, C87: fixing up a configuration -/

namespace Httpd
open Spec

/-! ## The fields after fix-up -/

theorem TlsConfig.autofix_eq (c : TlsConfig) (root : Option TlsConfig) :
    c.autofix root =
      { cert := c.cert
        key := c.key
        timeout :=
          if (if c.timeout = 0 then root.elim 0 (·.timeout) else c.timeout) < 1000000 then 15000000000
          else (if c.timeout = 0 then root.elim 0 (·.timeout) else c.timeout) } := by
  have key : ∀ t : Nat, (if asMillis t < 1 then 15 * 1000000000 else t) = if t < 1000000 then 15000000000 else t := by
    intro t
    unfold asMillis
    by_cases h : t < 1000000
    · rw [if_pos (by omega), if_pos h]
    · rw [if_neg (by omega), if_neg h]
  cases root with
  | none =>
    simp only [TlsConfig.autofix, key, Option.elim]
    by_cases h : c.timeout = 0 <;> simp [h]
  | some r => simp only [TlsConfig.autofix, key, Option.elim]; rfl

/-- What a buffer size becomes: an explicit usable one is kept, an unset one takes the root's if usable, and 8 KiB otherwise. -/
def effectiveBuf (own root : Nat) : Nat :=
  if 4096 ≤ own then own
  else if own = 0 ∧ 4096 ≤ root then root
  else 8192

theorem TcpConfig.autofix_eq (c : TcpConfig) (root : Option TcpConfig) :
    c.autofix root =
      { addr := c.addr
        tls := c.tls.autofix (root.map (·.tls))
        readBuf := effectiveBuf c.readBuf (root.elim 0 (·.readBuf))
        writeBuf := effectiveBuf c.writeBuf (root.elim 0 (·.writeBuf))
        buf := effectiveBuf c.buf (root.elim 0 (·.buf)) } := by
  have key : ∀ own root : Nat, (if (if own < 1 then root else own) < 4096 then 8 * 1024 else (if own < 1 then root else own)) =
      effectiveBuf own root := by
    intro own root
    simp only [effectiveBuf]
    repeat' split
    all_goals omega
  have key0 : ∀ own : Nat, (if own < 4096 then 8 * 1024 else own) = effectiveBuf own 0 := by
    intro own
    simp only [effectiveBuf]
    repeat' split
    all_goals omega
  cases root with
  | none => simp only [TcpConfig.autofix, key0, Option.elim, Option.map]
  | some r => simp only [TcpConfig.autofix, key, Option.elim, Option.map]

/-! ## C52 -/

/-- **C52** After fix-up: buffer sizes are at least 4096; an explicit one of at least 4096 is kept; an unset one is the root's if
that is usable, else 8 KiB; the TLS timeout is positive. -/
theorem C52_tcp (c : TcpConfig) (root : Option TcpConfig) :
    (∀ g ∈ [TcpConfig.readBuf, TcpConfig.writeBuf, TcpConfig.buf],
      4096 ≤ g (c.autofix root) ∧
      (4096 ≤ g c → g (c.autofix root) = g c) ∧
      (g c = 0 → ∀ r, root = some r → 4096 ≤ g r → g (c.autofix root) = g r) ∧
      (g c = 0 → (∀ r, root = some r → g r < 4096) → g (c.autofix root) = 8192)) ∧
    0 < (c.autofix root).tls.timeout ∧
    (1000000 ≤ c.tls.timeout → (c.autofix root).tls.timeout = c.tls.timeout) := by
  have key : ∀ own root, 4096 ≤ effectiveBuf own root ∧ (4096 ≤ own → effectiveBuf own root = own) ∧
      (own = 0 → 4096 ≤ root → effectiveBuf own root = root) ∧ (own = 0 → root < 4096 → effectiveBuf own root = 8192) := by
    intro own root
    unfold effectiveBuf
    split
    · omega
    · split <;> omega
  have key2 : ∀ (own : Nat) (root : Option TcpConfig) (g : TcpConfig → Nat),
      4096 ≤ effectiveBuf own (root.elim 0 g) ∧ (4096 ≤ own → effectiveBuf own (root.elim 0 g) = own) ∧
      (own = 0 → ∀ r, root = some r → 4096 ≤ g r → effectiveBuf own (root.elim 0 g) = g r) ∧
      (own = 0 → (∀ r, root = some r → g r < 4096) → effectiveBuf own (root.elim 0 g) = 8192) := by
    intro own root g
    obtain ⟨h1, h2, h3, h4⟩ := key own (root.elim 0 g)
    refine ⟨h1, h2, ?_, ?_⟩
    · rintro h0 r rfl hr; exact h3 h0 hr
    · intro h0 hr
      cases root with
      | none => exact h4 h0 (by simp)
      | some r => exact h4 h0 (hr r rfl)
  refine ⟨?_, ?_, ?_⟩
  · intro g hg
    simp only [List.mem_cons, List.not_mem_nil, or_false] at hg
    rw [TcpConfig.autofix_eq]
    rcases hg with rfl | rfl | rfl
    · exact key2 _ _ _
    · exact key2 _ _ _
    · exact key2 _ _ _
  · rw [TcpConfig.autofix_eq]
    simp only [TlsConfig.autofix_eq]
    generalize (if c.tls.timeout = 0 then _ else c.tls.timeout) = v
    split <;> omega
  · intro h
    rw [TcpConfig.autofix_eq]
    simp only [TlsConfig.autofix_eq]
    have h0 : c.tls.timeout ≠ 0 := by omega
    simp only [h0, ↓reduceIte]
    split
    · omega
    · rfl

example : (TcpConfig.autofix ⟨[], ⟨[], [], 0⟩, 0, 5000, 17⟩ (some ⟨[], ⟨[], [], 20000000⟩, 65536, 65536, 65536⟩)) =
    ⟨[], ⟨[], [], 20000000⟩, 65536, 5000, 8192⟩ := by decide

/-! ## C53, C54 -/

/-- What the idle time becomes: zero stays zero, anything below ten seconds becomes ten seconds. -/
def effectiveIdle (t : Nat) : Nat := if t = 0 then 0 else if t < 10000000000 then 10000000000 else t

/-- What a limit becomes: the default if it is zero. -/
def effectiveLimit (t default : Nat) : Nat := if t = 0 then default else t

theorem HttpConfig.autofix_eq (c : HttpConfig) (root : Option HttpConfig) :
    c.autofix root =
      { keepAlive := if c.keepAlive.isNone then (root.elim none (·.keepAlive)) else c.keepAlive
        idleTimeout := effectiveIdle (if c.idleTimeout = 0 then root.elim 0 (·.idleTimeout) else c.idleTimeout)
        maxUrl := effectiveLimit (if c.maxUrl = 0 then root.elim 0 (·.maxUrl) else c.maxUrl) 8192
        maxLine := effectiveLimit (if c.maxLine = 0 then root.elim 0 (·.maxLine) else c.maxLine) 6144
        maxHeaders := effectiveLimit c.maxHeaders 128
        maxBody := effectiveLimit c.maxBody 10485760
        compression := if c.compression.isNone then (root.elim none (·.compression)) else c.compression
        websocket := c.websocket } := by
  have klim : ∀ t d : Nat, (if t < 1 then d else t) = effectiveLimit t d := by
    intro t d
    unfold effectiveLimit
    by_cases h : t = 0
    · rw [if_pos h, if_pos (by omega)]
    · rw [if_neg h, if_neg (by omega)]
  have kidle : ∀ t : Nat, (if t ≠ 0 ∧ asMillis t < 10000 then 10000 * 1000000 else t) = effectiveIdle t := by
    intro t
    unfold effectiveIdle asMillis
    by_cases h : t = 0
    · simp [h]
    · by_cases h2 : t < 10000000000
      · rw [if_pos ⟨h, by omega⟩, if_neg h, if_pos h2]
      · rw [if_neg (by omega), if_neg h, if_neg h2]
  cases root with
  | none =>
    simp only [HttpConfig.autofix, kidle, klim, Option.elim, HttpConfig.mk.injEq, true_and, and_true]
    refine ⟨?_, ?_, ?_, ?_, ?_⟩
    · cases c.keepAlive <;> rfl
    · by_cases h : c.idleTimeout = 0 <;> simp [h]
    · by_cases h : c.maxUrl = 0 <;> simp [h]
    · by_cases h : c.maxLine = 0 <;> simp [h]
    · cases c.compression <;> rfl
  | some r =>
    simp only [HttpConfig.autofix, kidle, klim, Option.elim, HttpConfig.mk.injEq, true_and, and_true]
    refine ⟨?_, ?_⟩
    · congr 1; repeat' split
      all_goals omega
    · congr 1; repeat' split
      all_goals omega

/-- **C53** After fix-up every limit is positive, a positive limit is kept, and the idle time is zero or at least ten seconds (kept if
at least that). -/
theorem C53_http (c : HttpConfig) (root : Option HttpConfig) :
    (∀ g ∈ [HttpConfig.maxUrl, HttpConfig.maxLine, HttpConfig.maxHeaders, HttpConfig.maxBody],
      0 < g (c.autofix root) ∧ (0 < g c → g (c.autofix root) = g c)) ∧
    ((c.autofix root).idleTimeout = 0 ∨ 10000000000 ≤ (c.autofix root).idleTimeout) ∧
    (10000000000 ≤ c.idleTimeout → (c.autofix root).idleTimeout = c.idleTimeout) := by
  have key : ∀ (t d : Nat), 0 < d → 0 < effectiveLimit t d ∧ (0 < t → effectiveLimit t d = t) := by
    intro t d hd
    unfold effectiveLimit
    split <;> omega
  have key2 : ∀ (t r d : Nat), 0 < d → 0 < effectiveLimit (if t = 0 then r else t) d ∧
      (0 < t → effectiveLimit (if t = 0 then r else t) d = t) := by
    intro t r d hd
    refine ⟨(key _ _ hd).1, fun h => ?_⟩
    rw [if_neg (by omega)]
    exact (key _ _ hd).2 h
  refine ⟨?_, ?_, ?_⟩
  · intro g hg
    simp only [List.mem_cons, List.not_mem_nil, or_false] at hg
    rw [HttpConfig.autofix_eq]
    rcases hg with rfl | rfl | rfl | rfl
    · exact key2 _ _ _ (by decide)
    · exact key2 _ _ _ (by decide)
    · exact key _ _ (by decide)
    · exact key _ _ (by decide)
  · rw [HttpConfig.autofix_eq]
    simp only [effectiveIdle]
    generalize (if c.idleTimeout = 0 then _ else c.idleTimeout) = v
    split
    · simp
    · split <;> omega
  · intro h
    rw [HttpConfig.autofix_eq]
    have h0 : c.idleTimeout ≠ 0 := by omega
    simp only [h0, ↓reduceIte, effectiveIdle]
    rw [if_neg (by omega)]

example : (HttpConfig.default.autofix none) = ⟨none, 0, 8192, 6144, 128, 10485760, none, none⟩ := by decide

/-- **C54**, negation for the code as written: the number of headers and the size of a body are not inherited; whatever the root
says, a service that does not set them gets the built-in default. -/
theorem C54_not_inherited_violated (c root : HttpConfig) :
    (c.maxHeaders = 0 → 0 < root.maxHeaders → root.maxHeaders ≠ 128 →
      (c.autofix (some (root.autofix none))).maxHeaders ≠ (root.autofix none).maxHeaders) ∧
    (c.maxBody = 0 → 0 < root.maxBody → root.maxBody ≠ 10485760 →
      (c.autofix (some (root.autofix none))).maxBody ≠ (root.autofix none).maxBody) := by
  simp only [HttpConfig.autofix_eq, effectiveLimit]
  constructor
  · intro h1 h2 h3
    rw [if_pos h1, if_neg (by omega)]
    exact h3.symm
  · intro h1 h2 h3
    rw [if_pos h1, if_neg (by omega)]
    exact h3.symm

example : ({ HttpConfig.default with maxBody := 1000 }.autofix none).maxBody = 1000 ∧
    (HttpConfig.default.autofix (some ({ HttpConfig.default with maxBody := 1000 }.autofix none))).maxBody = 10485760 := by decide

/-- **C54**, what holds: the URL and header line limits, the idle time, keep-alive and the compression level of a fixed-up root are
inherited by a service that does not set them. Missing from C54: the number of headers and the size of a body. -/
theorem C54_inherited_partial (c root : HttpConfig) :
    (c.maxUrl = 0 → (c.autofix (some (root.autofix none))).maxUrl = (root.autofix none).maxUrl) ∧
    (c.maxLine = 0 → (c.autofix (some (root.autofix none))).maxLine = (root.autofix none).maxLine) ∧
    (c.idleTimeout = 0 → (c.autofix (some (root.autofix none))).idleTimeout = (root.autofix none).idleTimeout) ∧
    (c.keepAlive = none → (c.autofix (some (root.autofix none))).keepAlive = (root.autofix none).keepAlive) ∧
    (c.compression = none → (c.autofix (some (root.autofix none))).compression = (root.autofix none).compression) := by
  obtain ⟨h1, h2, _⟩ := C53_http root none
  have hu := (h1 HttpConfig.maxUrl (by simp)).1
  have hl := (h1 HttpConfig.maxLine (by simp)).1
  generalize root.autofix none = r at *
  simp only [HttpConfig.autofix_eq, Option.elim]
  refine ⟨?_, ?_, ?_, ?_, ?_⟩
  · intro h; rw [if_pos h, effectiveLimit, if_neg (by omega)]
  · intro h; rw [if_pos h, effectiveLimit, if_neg (by omega)]
  · intro h
    rw [if_pos h, effectiveIdle]
    rcases h2 with h2 | h2
    · rw [if_pos h2, h2]
    · rw [if_neg (by omega), if_neg (by omega)]
  · intro h; simp [h]
  · intro h; simp [h]

/-! ## C55 -/

/-- **C55** Fixing up twice is the same as fixing up once, with the same root. -/
theorem C55_idempotent :
    (∀ (c : TlsConfig) (root : Option TlsConfig), (c.autofix root).autofix root = c.autofix root) ∧
    (∀ (c : TcpConfig) (root : Option TcpConfig), (c.autofix root).autofix root = c.autofix root) ∧
    (∀ (c : HttpConfig) (root : Option HttpConfig), (c.autofix root).autofix root = c.autofix root) := by
  have htls : ∀ (c : TlsConfig) (root : Option TlsConfig), (c.autofix root).autofix root = c.autofix root := by
    intro c root
    rw [TlsConfig.autofix_eq (c.autofix root), TlsConfig.autofix_eq c]
    simp only [TlsConfig.mk.injEq, true_and]
    generalize hv : (if c.timeout = 0 then root.elim 0 (·.timeout) else c.timeout) = v
    have : (if v < 1000000 then 15000000000 else v) ≠ 0 := by split <;> omega
    rw [if_neg this]
    split <;> simp_all
  refine ⟨htls, ?_, ?_⟩
  · intro c root
    have key : ∀ own r, effectiveBuf (effectiveBuf own r) r = effectiveBuf own r := by
      intro own r
      have : 4096 ≤ effectiveBuf own r := by
        unfold effectiveBuf; split
        · assumption
        · split <;> omega
      generalize effectiveBuf own r = v at *
      rw [effectiveBuf, if_pos this]
    rw [TcpConfig.autofix_eq (c.autofix root), TcpConfig.autofix_eq c]
    simp only [key, htls]
  · intro c root
    have klim : ∀ t d : Nat, effectiveLimit (effectiveLimit t d) d = effectiveLimit t d := by
      intro t d
      unfold effectiveLimit
      by_cases h : t = 0
      · simp only [h, ↓reduceIte]; by_cases hd : d = 0 <;> simp [hd]
      · simp [h]
    have klim2 : ∀ t r d : Nat, 0 < d → effectiveLimit (if effectiveLimit (if t = 0 then r else t) d = 0 then r
        else effectiveLimit (if t = 0 then r else t) d) d = effectiveLimit (if t = 0 then r else t) d := by
      intro t r d hd
      have : effectiveLimit (if t = 0 then r else t) d ≠ 0 := by
        generalize (if t = 0 then r else t) = v
        unfold effectiveLimit; split <;> omega
      rw [if_neg this, klim]
    have kidle : ∀ t r : Nat, effectiveIdle (if effectiveIdle (if t = 0 then r else t) = 0 then r
        else effectiveIdle (if t = 0 then r else t)) = effectiveIdle (if t = 0 then r else t) := by
      intro t r
      generalize hv : (if t = 0 then r else t) = v
      have hi : effectiveIdle (effectiveIdle v) = effectiveIdle v := by
        unfold effectiveIdle
        by_cases h1 : v = 0
        · simp [h1]
        · by_cases h2 : v < 10000000000
          · simp [h1, h2]
          · simp [h1, h2]
      by_cases h0 : effectiveIdle v = 0
      · have hv0 : v = 0 := by
          unfold effectiveIdle at h0
          split at h0
          · assumption
          · split at h0 <;> omega
        have hr : r = 0 := by
          rw [hv0] at hv
          split at hv
          · exact hv
          · next h => exact absurd hv h
        rw [if_pos h0, hr, hv0]
      · rw [if_neg h0, hi]
    have kopt : ∀ {α : Type} (a b : Option α), (if (if a.isNone = true then b else a).isNone = true then b
        else (if a.isNone = true then b else a)) = (if a.isNone = true then b else a) := by
      intro α a b
      cases a <;> cases b <;> simp
    rw [HttpConfig.autofix_eq (c.autofix root), HttpConfig.autofix_eq c]
    simp only [HttpConfig.mk.injEq, and_true]
    exact ⟨kopt _ _, kidle _ _, klim2 _ _ _ (by decide), klim2 _ _ _ (by decide), klim _ _, klim _ _, kopt _ _⟩

example : (TcpConfig.default.autofix none) ≠ TcpConfig.default := by decide

/-! ## Services -/

theorem fixServices_spec (pathExists : Str → Bool) (tcp : TcpConfig) (http : HttpConfig) (ss : List (Str × ServiceConfig))
    (slab : List (List Nat)) (ss' : List (Str × ServiceConfig)) (slab' : List (List Nat))
    (h : fixServices pathExists tcp http ss slab = some (ss', slab')) :
    ss'.map (·.1) = ss.map (·.1) ∧ ss'.map (·.2.name) = ss.map (fun p => trimUnicode p.1) ∧
    ss'.map (·.2.idx) = List.range' slab.length ss.length ∧ slab' = slab ++ List.replicate ss.length [] ∧
    (∀ p ∈ ss', p.2.name ≠ [] ∧ p.2.logging.serviceName = p.2.name ∧ p.2.logging.serviceIdx = p.2.idx) ∧
    Each2 (fun p q => q.2.host = p.2.host ∧ q.2.service = p.2.service ∧ q.2.service.autofix pathExists = true ∧
      q.2.tcp = p.2.tcp.autofix (some tcp) ∧ q.2.http = p.2.http.autofix (some http) ∧
      q.2.logging.appenders = p.2.logging.appenders ∧ q.2.logging.disable = p.2.logging.disable ∧
      q.2.logging.timelayout = p.2.logging.timelayout) ss ss' := by
  induction ss generalizing slab ss' slab' with
  | nil =>
    simp only [fixServices, Option.some.injEq, Prod.mk.injEq] at h
    obtain ⟨rfl, rfl⟩ := h
    exact ⟨rfl, rfl, rfl, by simp, by simp, .nil⟩
  | cons p ps ih =>
    obtain ⟨key, s⟩ := p
    simp only [fixServices] at h
    split at h
    · cases h
    next hne =>
    simp only [ServiceConfig.autofix] at h
    by_cases hs : s.service.autofix pathExists = true
    · simp only [hs, ↓reduceIte] at h
      cases hr : fixServices pathExists tcp http ps (slab ++ [[]]) with
      | none => simp [hr] at h
      | some r =>
        obtain ⟨ps', sl⟩ := r
        simp only [hr, Option.some.injEq, Prod.mk.injEq] at h
        obtain ⟨rfl, rfl⟩ := h
        obtain ⟨i1, i2, i3, i4, i5, i6⟩ := ih _ _ _ hr
        refine ⟨by simp [i1], by simp [i2], ?_, ?_, ?_, ?_⟩
        · simp [i3, List.range'_succ]
        · rw [i4]; simp [List.replicate_succ]
        · intro q hq
          rcases List.mem_cons.mp hq with rfl | hq
          · refine ⟨?_, rfl, rfl⟩
            simpa using hne
          · exact i5 q hq
        · exact Each2.cons ⟨rfl, rfl, hs, rfl, rfl, rfl, rfl, rfl⟩ i6
    · simp [hs] at h

theorem Config.autofix_spec (pathExists : Str → Bool) (c c' : Config) (h : c.autofix pathExists = some c') :
    c'.logging = { c.logging with serviceName := [], serviceIdx := 0 } ∧
    c'.logpath = (if c.logpath.isEmpty then u!"./logs/" else c.logpath) ∧ c'.loglevel = c.loglevel ∧
    c'.tcp = c.tcp.autofix none ∧ c'.http = c.http.autofix none ∧
    fixServices pathExists (c.tcp.autofix none) (c.http.autofix none) c.services (c.slab ++ [[]]) = some (c'.services, c'.slab) := by
  simp only [Config.autofix] at h
  cases hf : fixServices pathExists (c.tcp.autofix none) (c.http.autofix none) c.services (c.slab ++ [[]]) with
  | none => simp [hf] at h
  | some r =>
    simp only [hf, Option.some.injEq] at h
    subst h
    exact ⟨rfl, rfl, rfl, rfl, rfl, rfl⟩

theorem trimUnicode_trimmed (s : Str) : Trimmed (trimUnicode s) := by
  have hhead : ∀ (l : Str) (c : Nat), (l.dropWhile isUnicodeWhitespace).head? = some c → isUnicodeWhitespace c = false := by
    intro l c h
    induction l with
    | nil => simp at h
    | cons a l ih =>
      by_cases ha : isUnicodeWhitespace a = true
      · rw [List.dropWhile_cons_of_pos ha] at h; exact ih h
      · rw [List.dropWhile_cons_of_neg ha] at h
        simp only [List.head?_cons, Option.some.injEq] at h
        subst h; simpa using ha
  have hsuf : ∀ l : Str, ∃ p, l = p ++ l.dropWhile isUnicodeWhitespace := by
    intro l; exact ⟨l.takeWhile isUnicodeWhitespace, (List.takeWhile_append_dropWhile).symm⟩
  unfold trimUnicode
  generalize hd : s.dropWhile isUnicodeWhitespace = d
  refine ⟨?_, ?_⟩
  · intro c hc
    obtain ⟨p, hp⟩ := hsuf d.reverse
    have : d = (d.reverse.dropWhile isUnicodeWhitespace).reverse ++ p.reverse := by
      have := congrArg List.reverse hp
      simpa using this
    have hc' : d.head? = some c := by
      rw [this]
      cases h1 : (d.reverse.dropWhile isUnicodeWhitespace).reverse with
      | nil => rw [h1] at hc; simp at hc
      | cons a l => rw [h1] at hc; simpa using hc
    rw [← hd] at hc'
    exact hhead s c hc'
  · intro c hc
    rw [List.getLast?_reverse] at hc
    exact hhead _ c hc

/-! ## C56, C57 -/

/-- **C56** After a successful fix-up: every service has its own number, different from the root's; names are the trimmed keys and
not empty; the logging part of a service carries its name and number. For every iteration order of the services. -/
theorem C56_identities (pathExists : Str → Bool) (c c' : Config) (h : c.autofix pathExists = some c') :
    (c'.services.map (·.2.idx)).Nodup ∧ c'.logging.serviceIdx = 0 ∧
    (∀ p ∈ c'.services, p.2.idx ≠ 0 ∧ p.2.name ≠ [] ∧ Trimmed p.2.name ∧
      p.2.logging.serviceName = p.2.name ∧ p.2.logging.serviceIdx = p.2.idx ∧ p.2.idx < c'.slab.length) ∧
    c'.services.map (·.1) = c.services.map (·.1) ∧
    c'.services.map (·.2.name) = c.services.map (fun p => trimUnicode p.1) := by
  obtain ⟨hl, _, _, _, _, hf⟩ := Config.autofix_spec pathExists c c' h
  obtain ⟨h1, h2, h3, h4, h5, _⟩ := fixServices_spec _ _ _ _ _ _ _ hf
  refine ⟨?_, by rw [hl], ?_, h1, h2⟩
  · rw [h3]; exact List.nodup_range'
  · intro p hp
    have hidx : p.2.idx ∈ List.range' (c.slab ++ [[]]).length c.services.length := by
      rw [← h3]; exact List.mem_map.mpr ⟨p, hp, rfl⟩
    have hname : p.2.name ∈ c.services.map (fun p => trimUnicode p.1) := by
      rw [← h2]; exact List.mem_map.mpr ⟨p, hp, rfl⟩
    obtain ⟨q, _, hq⟩ := List.mem_map.mp hname
    obtain ⟨h6, h7, h8⟩ := h5 p hp
    rw [List.mem_range'] at hidx
    obtain ⟨i, hi, hidx⟩ := hidx
    simp only [List.length_append, List.length_cons, List.length_nil] at hidx
    refine ⟨by omega, h6, ?_, h7, h8, ?_⟩
    · rw [← hq]; exact trimUnicode_trimmed _
    · rw [h4]; simp; omega

/-- Keys `a` (twice, the second time with a space) for two services of the same configuration. -/
def collidingConfig (a : Str) (s : ServiceConfig) : Config :=
  { logging := .default, logpath := [], loglevel := none, tcp := .default, http := .default,
    services := [(a, s), (32 :: a, s)], slab := [] }

/-- **C57**, negation for the code as written: two keys of the services table that differ in white space at the ends give two services
of the same name. -/
theorem C57_white_space_violated (pathExists : Str → Bool) (a : Str) (ha : Trimmed a) (hne : a ≠ []) :
    a ≠ 32 :: a ∧ ∃ c', (collidingConfig a defaultService).autofix pathExists = some c' ∧
      c'.services.map (·.1) = [a, 32 :: a] ∧ c'.services.map (·.2.name) = [a, a] := by
  have ht : trimUnicode a = a := by
    unfold trimUnicode
    have h1 : a.dropWhile isUnicodeWhitespace = a := by
      cases a with
      | nil => rfl
      | cons x l => rw [List.dropWhile_cons_of_neg]; simp [ha.1 x rfl]
    have h2 : a.reverse.dropWhile isUnicodeWhitespace = a.reverse := by
      cases hr : a.reverse with
      | nil => rfl
      | cons x l =>
        rw [List.dropWhile_cons_of_neg]
        have : a.getLast? = some x := by
          rw [← List.reverse_reverse a, hr]; simp
        simp [ha.2 x this]
    rw [h1, h2, List.reverse_reverse]
  have ht2 : trimUnicode (32 :: a) = a := by
    have : trimUnicode (32 :: a) = trimUnicode a := by
      unfold trimUnicode
      rw [List.dropWhile_cons_of_pos (by decide)]
    rw [this, ht]
  have hemp : a.isEmpty = false := by simpa using hne
  refine ⟨fun h => absurd (congrArg List.length h) (by simp), ?_⟩
  cases hc : (collidingConfig a defaultService).autofix pathExists with
  | none =>
    exfalso
    simp [Config.autofix, collidingConfig, fixServices, ht, ht2, hemp, ServiceConfig.autofix, defaultService,
      ServiceSetting.autofix] at hc
  | some c' =>
    obtain ⟨_, _, _, h4, h5⟩ := C56_identities pathExists _ c' hc
    exact ⟨c', rfl, by rw [h4]; rfl, by rw [h5]; simp [collidingConfig, ht, ht2]⟩

example : Trimmed u!"web" ∧ u!"web" ≠ [] := by
  refine ⟨⟨?_, ?_⟩, by decide⟩
  · intro c h; simp at h; subst h; decide
  · intro c h; simp at h; subst h; decide

/-- **C57**, what holds: names are unique exactly if the keys are still different after trimming. Missing from C57: that they are. -/
theorem C57_unique_partial (pathExists : Str → Bool) (c c' : Config) (h : c.autofix pathExists = some c') :
    (c'.services.map (·.2.name)).Nodup ↔ (c.services.map (fun p => trimUnicode p.1)).Nodup := by
  rw [(C56_identities pathExists c c' h).2.2.2.2]

/-! ## C84, C87 -/

/-- **C84** Fix-up changes nothing else: addresses, certificates and keys (which in particular are never taken from the root),
host, kind of service, appenders, WebSocket settings and the log level stay as they were, of the root and of every service. -/
theorem C84_nothing_else (pathExists : Str → Bool) (c c' : Config) (h : c.autofix pathExists = some c') :
    (c'.tcp.addr = c.tcp.addr ∧ c'.tcp.tls.cert = c.tcp.tls.cert ∧ c'.tcp.tls.key = c.tcp.tls.key ∧
      c'.http.websocket = c.http.websocket ∧ c'.loglevel = c.loglevel ∧ c'.logging.appenders = c.logging.appenders ∧
      c'.logging.disable = c.logging.disable) ∧
    Each2 (fun p q => q.1 = p.1 ∧ q.2.host = p.2.host ∧ q.2.service = p.2.service ∧ q.2.tcp.addr = p.2.tcp.addr ∧
      q.2.tcp.tls.cert = p.2.tcp.tls.cert ∧ q.2.tcp.tls.key = p.2.tcp.tls.key ∧ q.2.http.websocket = p.2.http.websocket ∧
      q.2.logging.appenders = p.2.logging.appenders ∧ q.2.logging.disable = p.2.logging.disable) c.services c'.services := by
  obtain ⟨h1, _, h3, h4, h5, hf⟩ := Config.autofix_spec pathExists c c' h
  have hk := fixServices_spec _ _ _ _ _ _ _ hf
  have k1 := hk.1
  have k6 := hk.2.2.2.2.2
  clear hk
  have htcp : ∀ (t : TcpConfig) (r : Option TcpConfig), (t.autofix r).addr = t.addr ∧ (t.autofix r).tls.cert = t.tls.cert ∧
      (t.autofix r).tls.key = t.tls.key := by
    intro t r
    rw [TcpConfig.autofix_eq]
    exact ⟨rfl, by rw [TlsConfig.autofix_eq], by rw [TlsConfig.autofix_eq]⟩
  refine ⟨⟨?_, ?_, ?_, ?_, h3, by rw [h1], by rw [h1]⟩, ?_⟩
  · rw [h4]; exact (htcp _ _).1
  · rw [h4]; exact (htcp _ _).2.1
  · rw [h4]; exact (htcp _ _).2.2
  · rw [h5, HttpConfig.autofix_eq]
  · clear hf h1 h3 h4 h5 h
    generalize c.services = ss at *
    generalize c'.services = ss' at *
    induction k6 with
    | nil => exact .nil
    | cons hpq _ ih =>
      simp only [List.map_cons, List.cons.injEq] at k1
      refine .cons ⟨k1.1, hpq.1, hpq.2.1, ?_, ?_, ?_, ?_, hpq.2.2.2.2.2.1, hpq.2.2.2.2.2.2.1⟩ (ih k1.2)
      · rw [hpq.2.2.2.1]; exact (htcp _ _).1
      · rw [hpq.2.2.2.1]; exact (htcp _ _).2.1
      · rw [hpq.2.2.2.1]; exact (htcp _ _).2.2
      · rw [hpq.2.2.2.2.1, HttpConfig.autofix_eq]

/-- **C87** A configuration is accepted exactly if every key is more than white space and every file-system service has a root that is
not empty and exists. -/
theorem C87_accepted_iff (pathExists : Str → Bool) (c : Config) :
    (c.autofix pathExists).isSome ↔
      ∀ p ∈ c.services, trimUnicode p.1 ≠ [] ∧ ∀ root, p.2.service = .fileSystem root → root ≠ [] ∧ pathExists root = true := by
  have key : ∀ tcp http ss slab, (fixServices pathExists tcp http ss slab).isSome ↔
      ∀ p ∈ ss, trimUnicode p.1 ≠ [] ∧ ∀ root, p.2.service = .fileSystem root → root ≠ [] ∧ pathExists root = true := by
    intro tcp http ss
    induction ss with
    | nil => intro slab; simp [fixServices]
    | cons p ps ih =>
      intro slab
      obtain ⟨key, s⟩ := p
      have ih := ih (slab ++ [[]])
      simp only [List.forall_mem_cons, ← ih]
      simp only [fixServices]
      by_cases hk : trimUnicode key = []
      · simp [hk]
      · have hk' : (trimUnicode key).isEmpty = false := by simpa using hk
        simp only [hk', Bool.false_eq_true, ↓reduceIte, ServiceConfig.autofix]
        have hsvc : s.service.autofix pathExists = true ↔ ∀ root, s.service = .fileSystem root → root ≠ [] ∧ pathExists root = true := by
          cases hs : s.service with
          | fileSystem root =>
            simp only [ServiceSetting.autofix, ServiceSetting.fileSystem.injEq, forall_eq']
            cases root with
            | nil => simp
            | cons x l => cases pathExists (x :: l) <;> simp
          | _ => simp [ServiceSetting.autofix]
        by_cases hb : s.service.autofix pathExists = true
        · simp only [hb, ↓reduceIte]
          have := hsvc.mp hb
          cases hr : fixServices pathExists tcp http ps (slab ++ [[]]) with
          | none => simp
          | some r => simpa [hk] using this
        · simp only [hb, Bool.false_eq_true, ↓reduceIte, Option.isSome_none, false_iff, not_and]
          intro h
          exact absurd (hsvc.mpr h.2) hb
  rw [← key (c.tcp.autofix none) (c.http.autofix none) c.services (c.slab ++ [[]])]
  simp only [Config.autofix]
  cases fixServices pathExists (c.tcp.autofix none) (c.http.autofix none) c.services (c.slab ++ [[]]) with
  | none => simp
  | some r => simp

example : ((collidingConfig u!"a" { defaultService with service := .fileSystem u!"/srv" }).autofix (fun _ => true)).isSome = true ∧
    ((collidingConfig u!"a" { defaultService with service := .fileSystem u!"/srv" }).autofix (fun _ => false)).isSome = false := by
  decide +kernel

end Httpd
