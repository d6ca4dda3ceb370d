import Verif.Props.ConfigFix

/-!
# Buffers, limits and inheritance, for whole configurations (C52, C53, C54, C55)

`Props.ConfigFix` has these for the part of the configuration that is fixed up. Here they are stated for the configuration the program
starts with and the one it runs with, so that a program that fixes up a service without the root, or with another root, is excluded.
-/

namespace Httpd

open Spec

/-- Every service is fixed up with the fixed-up root. -/
theorem services_fixed (pathExists : Str → Bool) (c c' : Config) (h : c.autofix pathExists = some c') :
    c'.tcp = c.tcp.autofix none ∧ c'.http = c.http.autofix none ∧
    Each2 (fun p q => q.1 = p.1 ∧ q.2.tcp = p.2.tcp.autofix (some (c.tcp.autofix none)) ∧
      q.2.http = p.2.http.autofix (some (c.http.autofix none))) c.services c'.services := by
  obtain ⟨_, _, _, h4, h5, hf⟩ := Config.autofix_spec pathExists c c' h
  have hk := fixServices_spec _ _ _ _ _ _ _ hf
  have k1 := hk.1
  have k6 := hk.2.2.2.2.2
  refine ⟨h4, h5, ?_⟩
  clear hk hf h4 h5 h
  generalize c.services = ss at *
  generalize c'.services = ss' at *
  induction k6 with
  | nil => exact .nil
  | cons hpq _ ih =>
    simp only [List.map_cons, List.cons.injEq] at k1
    exact .cons ⟨k1.1, hpq.2.2.2.1, hpq.2.2.2.2.1⟩ (ih k1.2)

theorem Each2.weaken {α β : Type} {R S : α → β → Prop} (hRS : ∀ a b, R a b → S a b) {l : List α} {m : List β} (h : Each2 R l m) :
    Each2 S l m := by
  induction h with
  | nil => exact .nil
  | cons hab _ ih => exact .cons (hRS _ _ hab) ih

/-- **C52**, for whole configurations: every buffer size the program runs with, of the root and of every service, is at least 4096;
one set to at least 4096 is kept; one that is not set is 8 KiB in the root, and the root's in a service; TLS timeouts are positive. -/
theorem C52_services (pathExists : Str → Bool) (c c' : Config) (h : c.autofix pathExists = some c') :
    (∀ g ∈ [TcpConfig.readBuf, TcpConfig.writeBuf, TcpConfig.buf],
      4096 ≤ g c'.tcp ∧ (4096 ≤ g c.tcp → g c'.tcp = g c.tcp) ∧ (g c.tcp = 0 → g c'.tcp = 8192)) ∧
    0 < c'.tcp.tls.timeout ∧
    Each2 (fun p q => q.1 = p.1 ∧ 0 < q.2.tcp.tls.timeout ∧ ∀ g ∈ [TcpConfig.readBuf, TcpConfig.writeBuf, TcpConfig.buf],
      4096 ≤ g q.2.tcp ∧ (4096 ≤ g p.2.tcp → g q.2.tcp = g p.2.tcp) ∧ (g p.2.tcp = 0 → g q.2.tcp = g c'.tcp))
      c.services c'.services := by
  obtain ⟨ht, _, hs⟩ := services_fixed pathExists c c' h
  have hr := C52_tcp c.tcp none
  rw [ht]
  refine ⟨?_, hr.2.1, ?_⟩
  · intro g hg
    obtain ⟨a1, a2, _, a4⟩ := hr.1 g hg
    exact ⟨a1, a2, fun h0 => a4 h0 (by intro r hr; cases hr)⟩
  · refine Each2.weaken ?_ hs
    rintro p q ⟨e, et, _⟩
    have hq := C52_tcp p.2.tcp (some (c.tcp.autofix none))
    rw [et]
    refine ⟨e, hq.2.1, ?_⟩
    intro g hg
    obtain ⟨a1, a2, a3, _⟩ := hq.1 g hg
    exact ⟨a1, a2, fun h0 => a3 h0 _ rfl (hr.1 g hg).1⟩

/-- **C53**, for whole configurations: every limit the program runs with, of the root and of every service, is positive; a positive one
is kept; idle times are zero or at least ten seconds. -/
theorem C53_services (pathExists : Str → Bool) (c c' : Config) (h : c.autofix pathExists = some c') :
    ((∀ g ∈ [HttpConfig.maxUrl, HttpConfig.maxLine, HttpConfig.maxHeaders, HttpConfig.maxBody],
      0 < g c'.http ∧ (0 < g c.http → g c'.http = g c.http)) ∧
      (c'.http.idleTimeout = 0 ∨ 10000000000 ≤ c'.http.idleTimeout)) ∧
    Each2 (fun p q => q.1 = p.1 ∧
      (∀ g ∈ [HttpConfig.maxUrl, HttpConfig.maxLine, HttpConfig.maxHeaders, HttpConfig.maxBody],
        0 < g q.2.http ∧ (0 < g p.2.http → g q.2.http = g p.2.http)) ∧
      (q.2.http.idleTimeout = 0 ∨ 10000000000 ≤ q.2.http.idleTimeout)) c.services c'.services := by
  obtain ⟨_, ht, hs⟩ := services_fixed pathExists c c' h
  rw [ht]
  refine ⟨⟨(C53_http c.http none).1, (C53_http c.http none).2.1⟩, Each2.weaken ?_ hs⟩
  rintro p q ⟨e, _, et⟩
  rw [et]
  exact ⟨e, (C53_http _ _).1, (C53_http _ _).2.1⟩

/-- **C54**, what holds, for whole configurations: a service that does not set the URL limit, the header line limit, the idle time,
keep-alive or the compression level runs with the one the root runs with. Missing from C54: the number of headers and the size of
a body. -/
theorem C54_services_partial (pathExists : Str → Bool) (c c' : Config) (h : c.autofix pathExists = some c') :
    Each2 (fun p q => q.1 = p.1 ∧
      (p.2.http.maxUrl = 0 → q.2.http.maxUrl = c'.http.maxUrl) ∧
      (p.2.http.maxLine = 0 → q.2.http.maxLine = c'.http.maxLine) ∧
      (p.2.http.idleTimeout = 0 → q.2.http.idleTimeout = c'.http.idleTimeout) ∧
      (p.2.http.keepAlive = none → q.2.http.keepAlive = c'.http.keepAlive) ∧
      (p.2.http.compression = none → q.2.http.compression = c'.http.compression)) c.services c'.services := by
  obtain ⟨_, ht, hs⟩ := services_fixed pathExists c c' h
  rw [ht]
  refine Each2.weaken ?_ hs
  rintro p q ⟨e, _, et⟩
  rw [et]
  exact ⟨e, C54_inherited_partial p.2.http c.http⟩

/-- **C54**, negation for the code as written, for whole configurations: whatever number of headers and size of a body the root sets, a
service that does not set them runs with 128 and 10 MiB. -/
theorem C54_services_violated (pathExists : Str → Bool) (c c' : Config) (h : c.autofix pathExists = some c') :
    Each2 (fun p q => q.1 = p.1 ∧ (p.2.http.maxHeaders = 0 → q.2.http.maxHeaders = 128) ∧
      (p.2.http.maxBody = 0 → q.2.http.maxBody = 10485760)) c.services c'.services ∧
    (0 < c.http.maxHeaders → c'.http.maxHeaders = c.http.maxHeaders) ∧ (0 < c.http.maxBody → c'.http.maxBody = c.http.maxBody) := by
  obtain ⟨_, ht, hs⟩ := services_fixed pathExists c c' h
  rw [ht]
  refine ⟨Each2.weaken ?_ hs, ((C53_http c.http none).1 HttpConfig.maxHeaders (by simp)).2,
    ((C53_http c.http none).1 HttpConfig.maxBody (by simp)).2⟩
  rintro p q ⟨e, _, et⟩
  rw [et, HttpConfig.autofix_eq]
  exact ⟨e, fun h0 => by simp [effectiveLimit, h0], fun h0 => by simp [effectiveLimit, h0]⟩

/-- **C55**, for whole configurations: a configuration that has been fixed up can be fixed up again, and then the root and every service
have the same TCP, TLS and HTTP settings as before. -/
theorem C55_services (pathExists : Str → Bool) (c c' : Config) (h : c.autofix pathExists = some c') :
    ∃ c'', c'.autofix pathExists = some c'' ∧ c''.tcp = c'.tcp ∧ c''.http = c'.http ∧
      Each2 (fun p q => q.1 = p.1 ∧ q.2.tcp = p.2.tcp ∧ q.2.http = p.2.http) c'.services c''.services := by
  have hacc : (c'.autofix pathExists).isSome := by
    rw [C87_accepted_iff]
    have h0 := (C87_accepted_iff pathExists c).mp (by rw [h]; rfl)
    have h1 := (C84_nothing_else pathExists c c' h).2
    clear h
    generalize c.services = ss at *
    generalize c'.services = ss' at *
    induction h1 with
    | nil => intro p hp; cases hp
    | cons hpq _ ih =>
      intro p hp
      cases hp with
      | head =>
        rw [hpq.1, hpq.2.2.1]
        exact h0 _ (.head _)
      | tail _ hp => exact ih (fun p hp => h0 p (.tail _ hp)) p hp
  obtain ⟨c'', h''⟩ := Option.isSome_iff_exists.mp hacc
  obtain ⟨ht, hh, hs⟩ := services_fixed pathExists c c' h
  obtain ⟨ht'', hh'', hs''⟩ := services_fixed pathExists c' c'' h''
  have et : c'.tcp.autofix none = c'.tcp := by rw [ht]; exact C55_idempotent.2.1 _ _
  have eh : c'.http.autofix none = c'.http := by rw [hh]; exact C55_idempotent.2.2 _ _
  refine ⟨c'', h'', by rw [ht'', et], by rw [hh'', eh], ?_⟩
  rw [et, eh, ht, hh] at hs''
  have hown : ∀ q ∈ c'.services, q.2.tcp.autofix (some (c.tcp.autofix none)) = q.2.tcp ∧
      q.2.http.autofix (some (c.http.autofix none)) = q.2.http := by
    clear hs'' h h'' hacc
    generalize c.services = ss at *
    generalize c'.services = ss' at *
    induction hs with
    | nil => intro p hp; cases hp
    | cons hpq _ ih =>
      intro p hp
      cases hp with
      | head =>
        rw [hpq.2.1, hpq.2.2]
        exact ⟨C55_idempotent.2.1 _ _, C55_idempotent.2.2 _ _⟩
      | tail _ hp => exact ih p hp
  clear hs h h'' hacc
  generalize c'.services = ss at *
  generalize c''.services = ss' at *
  induction hs'' with
  | nil => exact .nil
  | cons hpq _ ih =>
    have h1 := hown _ (.head _)
    exact .cons ⟨hpq.1, hpq.2.1.trans h1.1, hpq.2.2.trans h1.2⟩ (ih fun q hq => hown q (.tail _ hq))

/-- A root with its own buffer size, URL limit and body limit, and two services, the first of which sets nothing. -/
def inheritingConfig : Config :=
  { logging := .default, logpath := [], loglevel := none, tcp := { TcpConfig.default with buf := 5000 },
    http := { HttpConfig.default with maxUrl := 100, maxBody := 1000 },
    services := [(u!"a", defaultService), (u!"b", { defaultService with http := { HttpConfig.default with maxUrl := 7 } })], slab := [] }

example : ((inheritingConfig.autofix fun _ => true).map fun c => (c.http.maxUrl, c.http.maxBody, c.tcp.buf)) = some (100, 1000, 5000) ∧
    ((inheritingConfig.autofix fun _ => true).map fun c => c.services.map fun p => (p.2.http.maxUrl, p.2.http.maxBody, p.2.tcp.buf)) =
      some [(100, 10485760, 5000), (7, 10485760, 5000)] := by decide +kernel

example : (((inheritingConfig.autofix fun _ => true).bind fun c => c.autofix fun _ => true).map fun c =>
    (c.http.maxUrl, c.services.map fun p => (p.2.http.maxUrl, p.2.tcp.buf))) = some (100, [(100, 5000), (7, 5000)]) := by decide +kernel

end Httpd
