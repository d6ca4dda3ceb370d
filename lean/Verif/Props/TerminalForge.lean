import Verif.Props.Terminal
import Verif.Props.JsonLine
import Verif.Props.ReadBack
/-!
# C241: clients and the terminal
-/

namespace Httpd

open Spec MultiMap

/-- **C241**, what holds, for any connection to hello-world and whatever bytes the client sends: a terminal shows every record about it whole, every
part in its colour, and what comes afterwards as if it stood alone - unless it is the record of a body of text in which the client has put an
escape character. Missing: such bodies (`C241_forged_violated`). -/
theorem C241_shown_partial {K : Type} (c : Codec K) (lim : HttpLimits) (env : Nat → Env K) (l : LogEnv K) (r : Reader) (idx : Nat)
    (ord : Nat → List Pair → List Pair) (hord : ∀ i, IsOrder (ord i)) (hl : ∀ i, l.service i = helloLog idx l.addr (ord i))
    (haddr : OneText l.addr) (hsend : ∀ i, OneText (l.sendError i)) (hhandle : ∀ i, OneText (l.handleError i))
    (scheme : ColorScheme) (time file : Bytes) (line : Nat) (ht : 27 ∉ time) (hf : 27 ∉ file) :
    ∀ x ∈ serveLog c lim env l r,
      (∀ (col : Option Color) (rest : Bytes), IsColourOf scheme.levels x.level col →
        shows none none (colorRender scheme (x.item time file line) ++ rest) = shownLine scheme col (x.item time file line) ++ shows none none rest) ∨
      ∃ body, 27 ∈ body ∧ x.msg = b!"PrintableBody:\r\n---------------------\r\n" ++ body ++ b!"\r\n---------------------" := by
  intro x hx
  have h1 := item_no_pairs x (serveLog_pairs c lim env l r idx ord hl x hx) time file line
  have fine : 27 ∉ x.msg → ∀ (col : Option Color) (rest : Bytes), IsColourOf scheme.levels x.level col →
      shows none none (colorRender scheme (x.item time file line) ++ rest) = shownLine scheme col (x.item time file line) ++ shows none none rest := by
    intro hm col rest hc
    refine shows_line scheme col _ rest hc ⟨ht, hf, hm, ?_⟩
    rw [h1]
    intro kv hkv
    cases hkv
  rcases C123_one_line_partial c lim env l r idx ord hord hl haddr hsend hhandle x hx with h | ⟨body, h⟩
  · left
    refine fine fun hm => ?_
    exact absurd (h 27 hm).1 (by decide)
  · by_cases hb : 27 ∈ body
    · exact .inr ⟨body, hb, h⟩
    · left
      refine fine ?_
      rw [h]
      simp [hb]

theorem shows_opened (txt rest : Bytes) (c : Color) (h : c.isBlock = false) :
    shows none none (withColor txt (some c) ++ rest) = shows none (some (c.r, c.g, c.b)) (txt ++ (b!"\x1b[0m" ++ rest)) := by
  have hm : 109 ∉ b!"[38;2;" ++ natToBytes c.r ++ [59] ++ natToBytes c.g ++ [59] ++ natToBytes c.b := by
    have h1 := natToBytes_not c.r 109 (by decide)
    have h2 := natToBytes_not c.g 109 (by decide)
    have h3 := natToBytes_not c.b 109 (by decide)
    simp [h1, h2, h3]
  have e : withColor txt (some c) ++ rest
      = 27 :: ((b!"[38;2;" ++ natToBytes c.r ++ [59] ++ natToBytes c.g ++ [59] ++ natToBytes c.b) ++ 109 :: (txt ++ (b!"\x1b[0m" ++ rest))) := by
    simp [withColor, h]
  rw [e]
  simp only [shows, ↓reduceIte]
  rw [shows_skip _ _ _ _ hm, List.nil_append, sgrPen_color]

theorem shows_reset (pen : Pen) (rest : Bytes) : shows none pen (b!"\x1b[0m" ++ rest) = shows none none rest := rfl

/-- The body that makes a terminal show one record more: the end of the colour and of the line, and a coloured line. -/
def paintingBody (x : Bytes) (f : Item) : Bytes := x ++ b!"\x1b[0m\r\n" ++ colorRender .default f

theorem painting_ascii (x : Bytes) (f : Item) (hk : f.kvs = []) (h : ∀ b ∈ x ++ f.time ++ f.file ++ f.msg, b < 0x80) : ∀ b ∈ paintingBody x f, b < 0x80 := by
  have hdig : ∀ n, ∀ b ∈ natToBytes n, b < 0x80 := by
    intro n b hb
    obtain ⟨_, h2⟩ := natToBytes_digits _ b hb
    exact UInt8.lt_iff_toNat_lt.mpr (Nat.lt_of_le_of_lt h2 (by decide))
  have hcol : ∀ (t : Bytes) (c : Option Color), (∀ b ∈ t, b < 0x80) → ∀ b ∈ withColor t c, b < 0x80 := by
    intro t c ht
    cases c with
    | none => exact ht
    | some c =>
      simp only [withColor]
      split
      · exact ht
      · repeat' refine List.forall_mem_append.mpr ⟨?_, ?_⟩
        all_goals first | assumption | exact hdig _ | decide
  have hlvl : ∀ b ∈ [91] ++ f.level.bytes ++ [93], b < 0x80 := by cases f.level <;> decide
  simp only [List.forall_mem_append] at h
  obtain ⟨⟨⟨h1, h2⟩, h3⟩, h4⟩ := h
  unfold paintingBody colorRender
  simp only [hk, List.isEmpty_nil, ↓reduceIte]
  repeat' refine List.forall_mem_append.mpr ⟨?_, ?_⟩
  all_goals first | assumption | exact hcol _ _ h2 | exact hcol _ _ h3 | exact hcol _ _ h4 | exact hcol _ _ (hdig _) | exact hcol _ _ hlvl | exact hdig _ | (cases f.level <;> decide) | decide

/-- **C241 is violated**: whatever record `f` without escape characters - of any level, time, place and with any message of ASCII characters - a client
can make a terminal show it in its own colours: it sends a body; what is shown of the one record about it is the record of a body `x` broken off,
then the line of `f` exactly as it would be shown if the server had logged it, then a line of dashes. -/
theorem C241_forged_violated {K : Type} (c : Codec K) (lim : HttpLimits) (env : Nat → Env K) (l : LogEnv K) (idx : Nat)
    (ord : List Pair → List Pair) (hord : IsOrder ord) (hl : l.service 0 = helloLog idx l.addr ord) (x : Bytes) (f : Item)
    (hf : NoEscape f) (hk : f.kvs = []) (hx : 27 ∉ x) (hascii : ∀ b ∈ x ++ f.time ++ f.file ++ f.msg, b < 0x80) (q : WireReq) (hbody : q.body = paintingBody x f)
    (hq : q.WF lim.maxUrl lim.maxHeaderLine lim.maxHeadersCount) (r : Reader) (s : Bytes) (hr : r.flat = q.encode ++ s) :
    ∃ rec ∈ serveLog c lim env l r, ∀ (time file : Bytes) (line : Nat) (rest : Bytes), 27 ∉ time → 27 ∉ file →
      ∃ before,
        shownLine .default (some ⟨94, 102, 91⟩) { rec.item time file line with msg := b!"PrintableBody:\r\n---------------------\r\n" ++ x } =
          before ++ inPen b!"\r\n" none ∧
        shows none none (colorRender .default (rec.item time file line) ++ rest) =
          before ++ inPen b!"\r\n" none ++ shows none none (colorRender .default f) ++ inPen b!"\r\n---------------------\r\n" none ++
            shows none none rest := by
  obtain ⟨hs, rest', _, _, e, _⟩ := C120_hello_request c lim env l idx ord hord hl q hq r s hr
  have hne : q.body ≠ [] := by rw [hbody]; simp [paintingBody]
  have hu : (decodeUtf8 q.body).isSome = true := by
    rw [decodeUtf8_ascii _ (by rw [hbody]; exact painting_ascii x f hk hascii)]; rfl
  have hrec : bodyRecord idx q.body = ⟨.trace, [(b!"service", .ofNat idx)],
      b!"PrintableBody:\r\n---------------------\r\n" ++ paintingBody x f ++ b!"\r\n---------------------"⟩ := by
    simp only [bodyRecord, hne, if_false, hu, if_true]
    rw [hbody]
  refine ⟨bodyRecord idx q.body, by rw [e]; simp, fun time file line rest ht hfile => ?_⟩
  obtain ⟨cf, hcf⟩ : ∃ cf, IsColourOf ColorScheme.default.levels f.level cf := by
    cases f.level
    · exact ⟨_, .error ..⟩
    · exact ⟨_, .warn ..⟩
    · exact ⟨_, .info ..⟩
    · exact ⟨_, .debug ..⟩
    · exact ⟨_, .trace ..⟩
  have hforged : ∀ t, shows none none (colorRender .default f ++ t) = shows none none (colorRender .default f) ++ shows none none t := by
    intro t
    have h0 := shows_line .default cf f [] hcf hf
    rw [List.append_nil] at h0
    rw [shows_line .default cf f t hcf hf, h0]
    simp [shows]
  rw [hrec]
  have hitem : (Rec.item time file line ⟨.trace, [(b!"service", .ofNat idx)],
      b!"PrintableBody:\r\n---------------------\r\n" ++ paintingBody x f ++ b!"\r\n---------------------"⟩) =
      ⟨time, .trace, file, line, b!"PrintableBody:\r\n---------------------\r\n" ++ paintingBody x f ++ b!"\r\n---------------------", [], idx⟩ := rfl
  rw [hitem]
  refine ⟨inPen b!"[TRACE]" (some (94, 102, 91)) ++ (inPen b!" " none ++ (inPen time (some (106, 64, 40)) ++ (inPen b!" (" none ++ (inPen file (some (85, 187, 138)) ++
    (inPen b!":" none ++ (inPen (natToBytes line) (some (20, 145, 168)) ++ (inPen b!") " none ++
      inPen (b!"PrintableBody:\r\n---------------------\r\n" ++ x) (some (94, 102, 91))))))))), ?_, ?_⟩
  · simp [shownLine, penOf, ColorScheme.default, levelWord, inPen]
  · have hn := natToBytes_not line 27 (by decide)
    have hpre : 27 ∉ b!"PrintableBody:\r\n---------------------\r\n" ++ x := by simp [hx]
    have hmsg : b!"PrintableBody:\r\n---------------------\r\n" ++ paintingBody x f ++ b!"\r\n---------------------" =
        (b!"PrintableBody:\r\n---------------------\r\n" ++ x) ++ (b!"\x1b[0m" ++ (b!"\r\n" ++ (colorRender .default f ++ b!"\r\n---------------------"))) := by
      simp [paintingBody]
    rw [hmsg]
    generalize colorRender .default f = L at hforged
    unfold colorRender
    simp only [List.isEmpty_nil, ↓reduceIte, List.append_assoc]
    rw [show ColorScheme.default.levels.bind (·.get .trace) = some ⟨94, 102, 91⟩ from rfl]
    rw [shows_withColor _ _ _ (by decide), shows_open [32] _ _ (by decide), shows_withColor _ _ _ ht, shows_open [32] _ _ (by decide),
      shows_open [40] _ _ (by decide), shows_withColor _ _ _ hfile, shows_open [58] _ _ (by decide), shows_withColor _ _ _ hn,
      shows_open _ _ _ (by decide), shows_opened _ _ _ (by decide)]
    simp only [List.append_assoc]
    simp only [List.append_assoc] at hpre
    rw [shows_open b!"PrintableBody:\r\n---------------------\r\n" _ _ (by decide), shows_open x _ _ hx, shows_reset,
      shows_open b!"\r\n" _ _ (by decide), hforged, shows_open _ _ _ (by decide), shows_reset, shows_open _ _ _ (by decide)]
    simp [inPen, penOf, ColorScheme.default, Level.bytes]

/-! A client forges an error. -/

private def noSuchError : Item := ⟨b!"12:00", .error, b!"a.rs", 7, b!"out of memory", [], 0⟩

private def forgingReq : WireReq :=
  { head := { w0 := b!"POST", w1 := b!"/x", w2 := b!"HTTP/1.1", fields := [⟨b!"Content-Length", natToBytes (paintingBody b!"x" noSuchError).length, 1, 0⟩] },
    body := paintingBody b!"x" noSuchError }

example : forgingReq.WF sampleLimits.maxUrl sampleLimits.maxHeaderLine sampleLimits.maxHeadersCount := by
  refine ⟨⟨⟨by decide, by decide, by decide, by decide, by decide, by decide, by decide⟩, ?_, by decide +kernel, by decide +kernel⟩, by decide +kernel, ?_⟩
  · intro f hf
    simp only [forgingReq, List.mem_cons, List.not_mem_nil, or_false] at hf
    subst hf
    exact ⟨by decide, by decide, by decide, by decide +kernel, by decide +kernel, by decide +kernel, by decide +kernel, by decide +kernel⟩
  · have e : announced forgingReq.head.fields = some (natToBytes forgingReq.body.length) := by decide +kernel
    rw [e]
    exact natToBytes_numeral _

example : NoEscape noSuchError ∧ ∀ b ∈ b!"x" ++ noSuchError.time ++ noSuchError.file ++ noSuchError.msg, b < 0x80 := by
  unfold NoEscape; decide

example : (serveLog noCodec sampleLimits (fun _ => { sampleEnv with http := helloHttp }) sampleLog (Reader.ofBytes forgingReq.encode .eof)).flatMap
      (fun x => (shows none none (colorRender .default (x.item b!"13:00" b!"b.rs" 8))).filter (fun p => p.2 = some (237, 90, 101))) =
    inPen b!"[ERROR]out of memory" (some (237, 90, 101)) := by decide +kernel

end Httpd
