import Verif.Props.ToldApart
import Verif.Props.Refusal
import Verif.Props.Framing
import Verif.Props.WholeProcess
/-!
# Settings of a file that have no effect (C125)
-/

namespace Httpd
open Spec

/-! ## The text of the protocol says one thing -/

theorem section_count {l c c' : Nat} {b : Bool} {s rest : Bytes} {fs : List (Bytes × Bytes)} (hc : 1 ≤ c') (h : Section l c b s fs rest) : Section l c' b s fs rest := by
  induction h with
  | stop x y rest h => exact .stop x y rest h
  | skip w x y s fs rest h1 h2 h3 h4 h5 _ ih => exact .skip w x y s fs rest h1 h2 h3 h4 h5 ih
  | field n v n' v' x y s fs rest h1 h2 h3 h4 h5 h6 _ h7 h8 _ ih => exact .field n v n' v' x y s fs rest h1 h2 h3 h4 h5 h6 hc h7 h8 ih

theorem headText_count {u l c c' : Nat} {b : Bool} {s w0 w1 w2 rest : Bytes} {fs : List (Bytes × Bytes)} (hc : 1 ≤ c') (h : HeadText u l c b s w0 w1 w2 fs rest) :
    HeadText u l c' b s w0 w1 w2 fs rest := by
  cases h with
  | mk _ _ _ a b x y s _ _ h0 h1 h2 h3 h4 h5 h6 h7 h8 => exact .mk w0 w1 w2 a b x y s fs rest h0 h1 h2 h3 h4 h5 h6 h7 (section_count hc h8)

theorem headOpen_count {u l c c' : Nat} {s : Bytes} (hc : 1 ≤ c') (h : HeadOpen u l c s) : HeadOpen u l c' s := by
  have sec : ∀ {s}, SectionOpen l c s → SectionOpen l c' s := by
    intro s h
    induction h with
    | here s h1 h2 => exact .here s h1 h2
    | skip w x y s h1 h2 h3 h4 h5 _ ih => exact .skip w x y s h1 h2 h3 h4 h5 ih
    | field n v x y s h1 h2 h3 h4 h5 h6 _ _ ih => exact .field n v x y s h1 h2 h3 h4 h5 h6 hc ih
  cases h with
  | method _ h1 h2 => exact .method _ h1 h2
  | target w0 a s h1 h2 h3 h4 => exact .target w0 a s h1 h2 h3 h4
  | version w0 w1 a b s h1 h2 h3 h4 h5 h6 => exact .version w0 w1 a b s h1 h2 h3 h4 h5 h6
  | fields w0 w1 w2 a b x y s h0 h1 h2 h3 h4 h5 h6 h7 h8 => exact .fields w0 w1 w2 a b x y s h0 h1 h2 h3 h4 h5 h6 h7 (sec h8)

theorem talk_count {u l c c' j : Nat} {after : After} {reply : Nat → Bytes → Bytes} {stops : Bytes → Prop} {s : Bytes} {outs : List Bytes} {f : Fate} (hc : 1 ≤ c) (hc' : 1 ≤ c')
    (h : Talk u l c after reply stops j s outs f) : Talk u l c' after reply stops j s outs f := by
  induction h with
  | refused j s h1 h2 =>
    exact .refused j s (fun ⟨_, _, _, _, _, h⟩ => h1 ⟨_, _, _, _, _, headText_count hc h⟩) (fun ⟨h, h'⟩ => h2 ⟨h, headOpen_count hc h'⟩)
  | waits j s h1 h2 => exact .waits j s h1 (headOpen_count hc' h2)
  | badLength j s w0 w1 w2 rest fs h1 h2 => exact .badLength j s w0 w1 w2 rest fs (headText_count hc' h1) h2
  | short j s w0 w1 w2 rest fs n h1 h2 h3 => exact .short j s w0 w1 w2 rest fs n (headText_count hc' h1) h2 h3
  | final j s w0 w1 w2 body rest fs h1 h2 h3 => exact .final j s w0 w1 w2 body rest fs (headText_count hc' h1) h2 h3
  | next j s w0 w1 w2 body rest fs outs f h1 h2 h3 _ ih => exact .next j s w0 w1 w2 body rest fs outs f (headText_count hc' h1) h2 h3 ih

theorem announced_same {fs fs' : List (Bytes × Bytes)} {n n' : Option Nat} (he : ∀ k, valuesIn (collect fs') k = valuesIn (collect fs) k) (h : Announces fs n) (h' : Announces fs' n') : n' = n := by
  have he := he b!"content-length"
  cases h with
  | absent h1 =>
    rw [h1] at he
    cases h' with
    | absent => rfl
    | number v vs n h2 => rw [he] at h2; cases h2
    | bad v vs h2 => rw [he] at h2; cases h2
  | number v vs n h1 h2 h3 =>
    rw [h1] at he
    cases h' with
    | absent h4 => rw [he] at h4; cases h4
    | number v' vs' n' h4 h5 => rw [he] at h4; cases h4; rw [numeral_unique h2 h5]
    | bad v' vs' h4 h5 => rw [he] at h4; cases h4; have := h5 n h2; omega
  | bad v vs h1 h2 =>
    rw [h1] at he
    cases h' with
    | absent h4 => rw [he] at h4; cases h4
    | number v' vs' n' h4 h5 h6 => rw [he] at h4; cases h4; have := h2 _ h5; omega
    | bad => rfl

/-- For every byte string there is one list of answers and one end. -/
theorem talk_unique {u l c j : Nat} {after : After} {reply : Nat → Bytes → Bytes} {stops : Bytes → Prop} {s : Bytes} {outs outs' : List Bytes} {f f' : Fate}
    (h : Talk u l c after reply stops j s outs f) (h' : Talk u l c after reply stops j s outs' f') : outs' = outs ∧ f' = f := by
  have uniq : ∀ {s w0 w1 w2 rest : Bytes} {fs : List (Bytes × Bytes)}, HeadText u l c (after = .closes) s w0 w1 w2 fs rest →
      (∀ {w0' w1' w2' rest' : Bytes} {fs' : List (Bytes × Bytes)}, HeadText u l c (after = .closes) s w0' w1' w2' fs' rest' →
        w2' = w2 ∧ rest' = rest ∧ ∀ k, valuesIn (collect fs') k = valuesIn (collect fs) k) ∧ ¬ (after = .silent ∧ HeadOpen u l c s) := by
    intro s w0 w1 w2 rest fs h
    obtain ⟨h1, h2⟩ := C129_unambiguous _ _ _ _ _ _ _ _ _ _ h
    exact ⟨fun h' => ⟨(h1 _ _ _ _ _ h').2.2.1, (h1 _ _ _ _ _ h').2.2.2.1, (h1 _ _ _ _ _ h').2.2.2.2⟩, fun ⟨ha, ho⟩ => h2 (by rw [ha]; rfl) ho⟩
  induction h generalizing outs' f' with
  | refused j s h1 h2 =>
    cases h' with
    | refused => exact ⟨rfl, rfl⟩
    | waits _ _ a b => exact absurd ⟨a, b⟩ h2
    | badLength _ _ _ _ _ _ _ hh => exact absurd ⟨_, _, _, _, _, hh⟩ h1
    | short _ _ _ _ _ _ _ n hh => exact absurd ⟨_, _, _, _, _, hh⟩ h1
    | final _ _ _ _ _ _ _ _ hh => exact absurd ⟨_, _, _, _, _, hh⟩ h1
    | next _ _ _ _ _ _ _ _ _ _ hh => exact absurd ⟨_, _, _, _, _, hh⟩ h1
  | waits j s h1 h2 =>
    cases h' with
    | refused _ _ _ b => exact absurd ⟨h1, h2⟩ b
    | waits => exact ⟨rfl, rfl⟩
    | badLength _ _ _ _ _ _ _ hh => exact absurd ⟨h1, h2⟩ (uniq hh).2
    | short _ _ _ _ _ _ _ n hh => exact absurd ⟨h1, h2⟩ (uniq hh).2
    | final _ _ _ _ _ _ _ _ hh => exact absurd ⟨h1, h2⟩ (uniq hh).2
    | next _ _ _ _ _ _ _ _ _ _ hh => exact absurd ⟨h1, h2⟩ (uniq hh).2
  | badLength j s w0 w1 w2 rest fs h1 h2 =>
    cases h' with
    | refused => exact ⟨rfl, rfl⟩
    | waits _ _ a b => exact absurd ⟨a, b⟩ (uniq h1).2
    | badLength => exact ⟨rfl, rfl⟩
    | short _ _ _ _ _ _ _ n hh ha => have := announced_same ((uniq h1).1 hh).2.2 h2 ha; cases this
    | final _ _ _ _ _ _ _ _ hh ha => have := announced_same ((uniq h1).1 hh).2.2 h2 ha; cases this
    | next _ _ _ _ _ _ _ _ _ _ hh ha => have := announced_same ((uniq h1).1 hh).2.2 h2 ha; cases this
  | short j s w0 w1 w2 rest fs n h1 h2 h3 =>
    cases h' with
    | refused _ _ a => exact absurd ⟨_, _, _, _, _, h1⟩ a
    | waits _ _ a b => exact absurd ⟨a, b⟩ (uniq h1).2
    | badLength _ _ _ _ _ _ _ hh ha => have := announced_same ((uniq h1).1 hh).2.2 h2 ha; cases this
    | short => exact ⟨rfl, rfl⟩
    | final _ _ _ _ _ _ _ _ hh ha =>
      have e := announced_same ((uniq h1).1 hh).2.2 h2 ha
      have e2 := ((uniq h1).1 hh).2.1
      cases e; rw [← e2] at h3; simp at h3; omega
    | next _ _ _ _ _ _ _ _ _ _ hh ha =>
      have e := announced_same ((uniq h1).1 hh).2.2 h2 ha
      have e2 := ((uniq h1).1 hh).2.1
      cases e; rw [← e2] at h3; simp at h3; omega
  | final j s w0 w1 w2 body rest fs h1 h2 h3 =>
    cases h' with
    | refused _ _ a => exact absurd ⟨_, _, _, _, _, h1⟩ a
    | waits _ _ a b => exact absurd ⟨a, b⟩ (uniq h1).2
    | badLength _ _ _ _ _ _ _ hh ha => have := announced_same ((uniq h1).1 hh).2.2 h2 ha; cases this
    | short _ _ _ _ _ _ _ n hh ha hl =>
      have e := announced_same ((uniq h1).1 hh).2.2 h2 ha
      have e2 := ((uniq h1).1 hh).2.1
      cases e; rw [e2] at hl; simp at hl; omega
    | final _ _ _ _ _ _ _ _ hh => rw [((uniq h1).1 hh).1]; exact ⟨rfl, rfl⟩
    | next _ _ _ _ _ _ _ _ _ _ hh _ hs => rw [((uniq h1).1 hh).1] at hs; exact absurd h3 hs
  | next j s w0 w1 w2 body rest fs outs f h1 h2 h3 _ ih =>
    cases h' with
    | refused _ _ a => exact absurd ⟨_, _, _, _, _, h1⟩ a
    | waits _ _ a b => exact absurd ⟨a, b⟩ (uniq h1).2
    | badLength _ _ _ _ _ _ _ hh ha => have := announced_same ((uniq h1).1 hh).2.2 h2 ha; cases this
    | short _ _ _ _ _ _ _ n hh ha hl =>
      have e := announced_same ((uniq h1).1 hh).2.2 h2 ha
      have e2 := ((uniq h1).1 hh).2.1
      cases e; rw [e2] at hl; simp at hl; omega
    | final _ _ _ _ _ _ _ _ hh _ hs => rw [((uniq h1).1 hh).1] at hs; exact absurd hs h3
    | next _ _ _ _ _ body' rest' _ outs' _ hh ha hs hmore =>
      obtain ⟨e1, e2, e3⟩ := (uniq h1).1 hh
      have e := announced_same e3 h2 ha
      obtain ⟨_, e4⟩ := List.append_inj e2 (by simpa using e)
      subst e1 e4
      obtain ⟨i1, i2⟩ := ih hmore
      exact ⟨by rw [i1], i2⟩

/-! ## C125: files -/

/-- **C125**, negation for the code as written, for files: take any two files that are accepted, on machines that may differ in their files, and a service of each. If the two services have the same entry for
`service`, and the entries `max_url_size` and `max_header_line_size` of the section `http` are the same in both services and in both files, then every client that takes what it is sent gets the same bytes from the two, and its
connection ends in the same way. So no other entry of a file makes a difference to such a client: not `host`, not `keep_alive`, `idle_timeout`, `max_body_size`, `compression` or `websocket`, no buffer size, nothing in the section
`log`. (Buffers that cannot be allocated do, `C126_too_large_violated`; and with TLS it has to be let in.) -/
theorem C125_file_violated (U : Unicode) (p : Profile) (strict : Bool) (pathExists chdir pathExists' chdir' : Str → Bool) (glob glob' : Str → Option (List GlobFile))
    (order order' : List (Str × ServiceConfig) → List (Str × ServiceConfig)) (horder : ∀ l, (order l).Perm l) (horder' : ∀ l, (order' l).Perm l)
    (v v' : Toml) (c c' : Config) (h : loadFile U p strict pathExists chdir glob order (some v) = .value c) (h' : loadFile U p strict pathExists' chdir' glob' order' (some v') = .value c')
    (hnd : ∀ ss, setting [u!"services", u!"Services"] 9 v = some (.table ss) → (ss.map (·.1)).Nodup) (hnd' : ∀ ss, setting [u!"services", u!"Services"] 9 v' = some (.table ss) → (ss.map (·.1)).Nodup)
    (k k' : Str) (sv sv' : Toml) (hk : Offers glob v k sv) (hk' : Offers glob' v' k' sv')
    (hkind : setting [u!"service", u!"Service"] 2 sv' = setting [u!"service", u!"Service"] 2 sv)
    (hurl : httpSetting 5 [u!"max_url_size", u!"MaxUrlSize"] 2 sv' = httpSetting 5 [u!"max_url_size", u!"MaxUrlSize"] 2 sv ∧
      httpSetting 6 [u!"max_url_size", u!"MaxUrlSize"] 2 v' = httpSetting 6 [u!"max_url_size", u!"MaxUrlSize"] 2 v)
    (hline : httpSetting 5 [u!"max_header_line_size", u!"MaxHeaderLineSize"] 3 sv' = httpSetting 5 [u!"max_header_line_size", u!"MaxHeaderLineSize"] 3 sv ∧
      httpSetting 6 [u!"max_header_line_size", u!"MaxHeaderLineSize"] 3 v' = httpSetting 6 [u!"max_header_line_size", u!"MaxHeaderLineSize"] 3 v) :
    ∃ s s', (k, s) ∈ c.services ∧ (k', s') ∈ c'.services ∧ (s.Allocates → s'.Allocates →
      ∀ {C K : Type} (x : World C K) (bindOk bindOk' : Bool) (es es' : List AcceptEvent), ∀ w ∈ (s.run x bindOk es).1, ∀ w' ∈ (s'.run x bindOk' es').1, w'.served.id = w.served.id →
        (∀ i, ∃ n, x.plan w.served.id i = .takes (n + 1)) → w'.wire = w.wire ∧ ∃ f, fateOf w.ending = some f ∧ fateOf w'.ending = some f) := by
  obtain ⟨s, kind, u, l, n, h1, h2, ⟨ou, mu, ol, ml, m, g1, g2, g3, g4, _, rfl, rfl, rfl⟩, _, h4, h5, _⟩ := C148_file_to_wire U p strict pathExists chdir glob order horder v c h hnd k sv hk
  obtain ⟨s', kind', u', l', n', h1', h2', ⟨ou', mu', ol', ml', m', g1', g2', g3', g4', _, rfl, rfl, rfl⟩, _, h4', h5', _⟩ :=
    C148_file_to_wire U p strict pathExists' chdir' glob' order' horder' v' c' h' hnd' k' sv' hk'
  rw [hkind] at h2'
  rw [hurl.1] at g1'
  rw [hurl.2] at g2'
  rw [hline.1] at g3'
  rw [hline.2] at g4'
  have e0 := given_unique (reads_kind strict) h2 h2'
  have e1 := given_unique (reads_size U p) g1 g1'
  have e2 := given_unique (reads_size U p) g2 g2'
  have e3 := given_unique (reads_size U p) g3 g3'
  have e4 := given_unique (reads_size U p) g4 g4'
  subst e0 e1 e2 e3 e4
  refine ⟨s, s', (h1 s).2 rfl, (h1' s').2 rfl, fun ha ha' C K x bindOk bindOk' es es' w hw w' hw' hid hp => ?_⟩
  have hreply : ∃ reply stops, Answers kind reply stops := by
    cases kind with
    | helloWorld => exact ⟨_, _, .hello⟩
    | fileSystem root => exact ⟨_, _, .files root⟩
    | forward => rw [h5 (.inl rfl) x bindOk es] at hw; cases hw
    | upstream => rw [h5 (.inr rfl) x bindOk es] at hw; cases hw
  obtain ⟨reply, stops, han⟩ := hreply
  obtain ⟨outs, f, w1, w2, w3⟩ := h4 ha reply stops han x bindOk es w hw hp
  obtain ⟨outs', f', w1', w2', w3'⟩ := h4' ha' reply stops han x bindOk' es' w' hw' (by rw [hid]; exact hp)
  rw [hid] at w3'
  have pos : ∀ m, 1 ≤ inForce m 0 128 := by intro m; unfold inForce; repeat' split
                                            all_goals omega
  obtain ⟨t1, t2⟩ := talk_unique w3 (talk_count (pos _) (pos _) w3')
  exact ⟨by rw [w1, w1', t1], f, w2, by rw [w2', t2]⟩

/-- **C125**, the converse for files: take two files that are accepted and a service of each, without TLS and with buffers that can be allocated, that says hello or serves files. If these are not of the same kind, or the limits in
force for targets or for header lines are not the same (for targets at least one byte, for header lines at least three), then there are bytes such that every client that sends them, in whatever pieces, and takes what it is sent gets
different bytes from the two. With `C125_file_violated` these are all the differences between files such clients can see. -/
theorem C125_file_apart_partial (U : Unicode) (p : Profile) (strict : Bool) (pathExists chdir pathExists' chdir' : Str → Bool) (glob glob' : Str → Option (List GlobFile))
    (order order' : List (Str × ServiceConfig) → List (Str × ServiceConfig)) (horder : ∀ l, (order l).Perm l) (horder' : ∀ l, (order' l).Perm l)
    (v v' : Toml) (c c' : Config) (h : loadFile U p strict pathExists chdir glob order (some v) = .value c) (h' : loadFile U p strict pathExists' chdir' glob' order' (some v') = .value c')
    (hnd : ∀ ss, setting [u!"services", u!"Services"] 9 v = some (.table ss) → (ss.map (·.1)).Nodup) (hnd' : ∀ ss, setting [u!"services", u!"Services"] 9 v' = some (.table ss) → (ss.map (·.1)).Nodup)
    (k k' : Str) (sv sv' : Toml) (hk : ToRun glob v k sv) (hk' : ToRun glob' v' k' sv') (hno : tcpSetting [u!"tls"] 1 sv = none) (hno' : tcpSetting [u!"tls"] 1 sv' = none)
    (hsmall : SmallBuffers U p v sv) (hsmall' : SmallBuffers U p v' sv') :
    ∃ s s' kind kind' u u' l l' n n', (k, s) ∈ c.services ∧ (k', s') ∈ c'.services ∧
      Given (KindSays strict) .helloWorld (setting [u!"service", u!"Service"] 2 sv) kind ∧ Given (KindSays strict) .helloWorld (setting [u!"service", u!"Service"] 2 sv') kind' ∧
      LimitsInForce U p v sv u l n ∧ LimitsInForce U p v' sv' u' l' n' ∧
      ((kind = .helloWorld ∨ ∃ root, kind = .fileSystem root) → (kind' = .helloWorld ∨ ∃ root, kind' = .fileSystem root) → 1 ≤ u → 1 ≤ u' → 3 ≤ l → 3 ≤ l' →
        ¬ ((kind' = .helloWorld ↔ kind = .helloWorld) ∧ u' = u ∧ l' = l) →
        ∃ sent : Bytes, ∀ {C K : Type} (x : World C K) (i : Nat) (hs : Handshake), (x.client i).flat = sent → (x.client i).fin = .silent → (∀ j, ∃ n, x.plan i j = .takes (n + 1)) →
          ∃ w w', (s.run x true [.conn i hs]).1 = [w] ∧ (s'.run x true [.conn i hs]).1 = [w'] ∧ w.wire ≠ w'.wire) := by
  obtain ⟨s, hs, kind, lim, _, tls, al, _⟩ := (run_in_force U p strict pathExists chdir glob order horder v c h hnd).2.2.2 k sv hk
  obtain ⟨s', hs', kind', lim', _, tls', al', _⟩ := (run_in_force U p strict pathExists' chdir' glob' order' horder' v' c' h' hnd').2.2.2 k' sv' hk'
  refine ⟨s, s', _, _, _, _, _, _, _, _, hs, hs', kind, kind', lim, lim', fun q q' hu hu' hl hl' hne => ?_⟩
  have pos : ∀ {v sv : Toml} {u l n : Nat}, LimitsInForce U p v sv u l n → 1 ≤ n := by
    rintro v sv u l n ⟨_, _, _, _, m, _, _, _, _, _, _, _, rfl⟩
    unfold inForce
    repeat' split
    all_goals omega
  have kinds : ∀ {a : ServiceSetting}, (a = .helloWorld ∨ ∃ root, a = .fileSystem root) → (a.kind = .helloWorld ∨ a.kind = .fileSystem) ∧ (a.kind = .helloWorld ↔ a = .helloWorld) := by
    rintro a (rfl | ⟨root, rfl⟩) <;> simp [ServiceSetting.kind]
  refine C125_told_apart_partial s s' (kinds q).1 (kinds q').1 (tls hno) (tls' hno') (al hsmall) (al' hsmall') hu hu' hl hl' (pos lim) (pos lim') (fun ⟨e1, e2, e3⟩ => hne ⟨?_, e2, e3⟩)
  rw [← (kinds q).2, ← (kinds q').2, e1]

/-- `limitsFile`, and a file that says much more and has the same limits. -/
def chattyFile : Toml :=
  .table [(u!"http", .table [(u!"max_url_size", .str u!"1kb"), (u!"keep_alive", .bool true)]),
    (u!"services", .table [(u!"b", .table [(u!"host", .str u!"example.org"), (u!"http", .table [(u!"max_header_line_size", .str u!"512b"), (u!"keep_alive", .bool false),
      (u!"max_body_size", .str u!"1b"), (u!"max_headers_count", .int 1)])])])]

example : (match loadFile asciiUnicode .release true (fun _ => false) (fun _ => false) (fun _ => none) id (some limitsFile),
      loadFile asciiUnicode .release true (fun _ => false) (fun _ => false) (fun _ => none) id (some chattyFile) with
    | .value c, .value c' =>
      (c.services.map (fun s => s.1) = [u!"a"] ∧ c'.services.map (fun s => s.1) = [u!"b"] ∧ c'.services.map (fun s => s.2.http.maxBody) = [1] ∧
      c.services.map (fun s => (s.2.run sampleWorld true [.conn 7 ⟨none, true⟩]).1.map (fun w => (w.wire, w.ending))) =
        c'.services.map (fun s => (s.2.run sampleWorld true [.conn 7 ⟨none, true⟩]).1.map (fun w => (w.wire, w.ending))) ∧
      c.services.map (fun s => (s.2.run sampleWorld true [.conn 7 ⟨none, true⟩]).1.map (fun w => decide (w.wire.length > 0))) = [[true]] : Bool)
    | _, _ => false) = true := by
  decide +kernel

example : let sv : Toml := .table [(u!"http", .table [(u!"max_header_line_size", .str u!"512b")])]
    let sv' : Toml := .table [(u!"host", .str u!"example.org"), (u!"http", .table [(u!"max_header_line_size", .str u!"512b"), (u!"keep_alive", .bool false),
      (u!"max_body_size", .str u!"1b"), (u!"max_headers_count", .int 1)])]
    setting [u!"service", u!"Service"] 2 sv' = setting [u!"service", u!"Service"] 2 sv ∧
    httpSetting 5 [u!"max_url_size", u!"MaxUrlSize"] 2 sv' = httpSetting 5 [u!"max_url_size", u!"MaxUrlSize"] 2 sv ∧
    httpSetting 6 [u!"max_url_size", u!"MaxUrlSize"] 2 chattyFile = httpSetting 6 [u!"max_url_size", u!"MaxUrlSize"] 2 limitsFile ∧
    httpSetting 5 [u!"max_header_line_size", u!"MaxHeaderLineSize"] 3 sv' = httpSetting 5 [u!"max_header_line_size", u!"MaxHeaderLineSize"] 3 sv ∧
    httpSetting 6 [u!"max_header_line_size", u!"MaxHeaderLineSize"] 3 chattyFile = httpSetting 6 [u!"max_header_line_size", u!"MaxHeaderLineSize"] 3 limitsFile :=
  ⟨rfl, rfl, rfl, rfl, rfl⟩

/-- A file with another limit for header lines than `limitsFile`. -/
def tightFile : Toml :=
  .table [(u!"http", .table [(u!"max_url_size", .str u!"1kb")]), (u!"services", .table [(u!"a", .table [(u!"http", .table [(u!"max_header_line_size", .str u!"256b")])])])]

example : (match loadFile asciiUnicode .release true (fun _ => false) (fun _ => false) (fun _ => none) id (some tightFile) with | .value c => c.services.map (·.1) == [u!"a"] | _ => false) = true := by
  decide +kernel

example : let sv : Toml := .table [(u!"http", .table [(u!"max_header_line_size", .str u!"256b")])]
    ToRun (fun _ => none) tightFile u!"a" sv ∧ tcpSetting [u!"tls"] 1 sv = none ∧ SmallBuffers asciiUnicode .release tightFile sv ∧
    LimitsInForce asciiUnicode .release tightFile sv 1024 256 128 := by
  refine ⟨.inl (.listed _ _ _ rfl (.head _)), rfl, ?_,
    ⟨0, 1024, 256, 0, 0, rfl, ⟨_, rfl, by decide +kernel⟩, ⟨_, rfl, by decide +kernel⟩, rfl, rfl, by decide, by decide, by decide⟩⟩
  intro names i hm n hn
  simp only [List.mem_cons, Prod.mk.injEq, List.not_mem_nil, or_false] at hm
  rcases hm with ⟨rfl, rfl⟩ | ⟨rfl, rfl⟩ <;> rcases hn with h | h <;> (have : n = 0 := h; omega)

end Httpd
