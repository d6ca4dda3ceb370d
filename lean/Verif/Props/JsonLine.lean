import Verif.Spec.JsonLine
import Verif.Props.Render
import Verif.Props.ConnLog
/-!
# Exactly which JSON lines tell their record (C205)
-/

namespace Httpd

open Spec MultiMap

theorem utf8_length (v : Nat) : (utf8 v).length ≤ 4 := by
  unfold utf8
  repeat' split
  all_goals simp

theorem hex4_length {t : Bytes} {v : Nat} (h : Hex4 t v) : t.length = 4 := by
  obtain ⟨_, _, _, _, _, _, _, _, rfl, _⟩ := h
  rfl

/-- A JSON text of a string is at least as long as the string; if it is not longer, there are no escapes. -/
theorem strBody_length {s t : Bytes} (h : StrBody s t) : s.length ≤ t.length ∧ (t.length = s.length → PlainText s) := by
  induction h with
  | nil => exact ⟨Nat.le_refl _, fun _ => by intro b hb; cases hb⟩
  | plain c s t h1 h2 h3 _ ih =>
    refine ⟨by simp only [List.length_cons]; omega, fun he => ?_⟩
    intro b hb
    rcases List.mem_cons.mp hb with rfl | hb
    · exact ⟨h1, h2, h3⟩
    · exact ih.2 (by simp only [List.length_cons] at he; omega) b hb
  | escape c d s t _ _ ih => simp only [List.length_cons]; exact ⟨by omega, fun h => by omega⟩
  | unit h v s t h1 _ _ ih =>
    have h2 := hex4_length h1
    have h3 := utf8_length v
    simp only [List.length_cons, List.length_append]
    exact ⟨by omega, fun h => by omega⟩
  | pair h h' v v' s t h1 h2 _ _ _ _ _ ih =>
    have h3 := hex4_length h1
    have h4 := hex4_length h2
    have h5 := utf8_length (0x10000 + (v - 0xd800) * 1024 + (v' - 0xdc00))
    simp only [List.length_cons, List.length_append]
    exact ⟨by omega, fun h => by omega⟩

theorem strText_length {s t : Bytes} (h : StrText s t) : s.length + 2 ≤ t.length ∧ (t.length = s.length + 2 → PlainText s) := by
  obtain ⟨body, rfl, hb⟩ := h
  obtain ⟨h1, h2⟩ := strBody_length hb
  simp only [List.length_append, List.length_cons, List.length_nil]
  exact ⟨by omega, fun h => h2 (by omega)⟩

/-- The least length of a member with the comma after it. -/
def memberSize (m : Bytes × Bytes) : Nat := m.1.length + m.2.length + 4

theorem members_length {ms : List (Bytes × Bytes)} {t : Bytes} (h : Members ms t) : (ms.map memberSize).sum ≤ t.length + 1 := by
  induction h with
  | one w w' v v' s k t _ h2 _ _ _ _ =>
    have := (strText_length h2).1
    simp only [List.map_cons, List.map_nil, List.sum_cons, List.sum_nil, memberSize, List.length_append, List.length_cons, List.length_nil]
    omega
  | more w w' v v' s k t r ms _ h2 _ _ _ _ _ ih =>
    have := (strText_length h2).1
    simp only [List.map_cons, List.sum_cons, memberSize, List.length_append, List.length_cons, List.length_nil]
    omega

theorem object_length {ms : List (Bytes × Bytes)} {t : Bytes} (h : Object ms t) : (ms.map memberSize).sum + 1 ≤ t.length := by
  obtain ⟨body, rfl, hm⟩ := h
  have := members_length hm
  simp only [List.length_append, List.length_cons, List.length_nil]
  omega

/-- Different elements of a list are not larger together than all its elements. -/
theorem sum_le_of_mem (f : Bytes × Bytes → Nat) (l : List (Bytes × Bytes)) : ∀ (ms : List (Bytes × Bytes)), l.Nodup → (∀ x ∈ l, x ∈ ms) →
    (l.map f).sum ≤ (ms.map f).sum := by
  induction l with
  | nil => intros; simp
  | cons x l ih =>
    intro ms hn hm
    obtain ⟨a, b, rfl⟩ := List.append_of_mem (hm x (List.mem_cons_self ..))
    obtain ⟨h1, h2⟩ := List.nodup_cons.mp hn
    have := ih (a ++ b) h2 (by
      intro y hy
      have hne : y ≠ x := by rintro rfl; exact h1 hy
      have := hm y (List.mem_cons_of_mem _ hy)
      simp only [List.mem_append, List.mem_cons, hne, false_or] at this ⊢
      exact this)
    simp only [List.map_append, List.map_cons, List.sum_append, List.sum_cons] at this ⊢
    omega

theorem jsonPairs_length : ∀ kvs : List (Bytes × Bytes), kvs ≠ [] → (jsonPairs kvs).length + 1 = (kvs.map fun m => m.1.length + m.2.length + 2).sum
  | [], h => absurd rfl h
  | [(k, v)], _ => by simp [jsonPairs]; omega
  | (k, v) :: kv :: kvs, _ => by
    have := jsonPairs_length (kv :: kvs) (by simp)
    simp only [jsonPairs, List.length_append, List.length_cons, List.length_nil, List.map_cons, List.sum_cons] at this ⊢
    omega

theorem pairs_more : ∀ kvs : List (Bytes × Bytes), kvs ≠ [] →
    (kvs.map fun m => m.1.length + m.2.length + 2).sum < (kvs.map memberSize).sum
  | [], h => absurd rfl h
  | [(k, v)], _ => by simp [memberSize]
  | (k, v) :: kv :: kvs, _ => by
    have := pairs_more (kv :: kvs) (by simp)
    rw [List.map_cons, List.sum_cons, List.map_cons (f := memberSize), List.sum_cons]
    simp only [memberSize] at this ⊢
    omega

/-- White space at the end of a line that ends with `}` and a line break. -/
theorem ws_end {a w t w' : Bytes} (h : a ++ [125] ++ crlf = w ++ t ++ w') (body : Bytes) (ht : t = [123] ++ body ++ [125]) (hw : Ws w') :
    t.length ≤ a.length + 1 := by
  have hlen := congrArg List.length h
  simp only [List.length_append, List.length_cons, List.length_nil, crlf] at hlen
  by_cases h2 : 2 ≤ w'.length
  · omega
  · exfalso
    subst ht
    have h' := congrArg List.reverse h
    simp only [List.reverse_append, crlf] at h'
    match w', h2 with
    | [], _ => simp at h'
    | [x], _ => simp at h'
    | _ :: _ :: _, h2 => simp at h2

/-- **C205** The line of a record tells the record if and only if the record has no pairs and its texts need no escapes. -/
theorem C205_exact (item : Item) :
    TellsRecord item (jsonRender item) ↔ item.kvs = [] ∧ PlainText item.time ∧ PlainText item.file ∧ PlainText item.msg := by
  constructor
  · rintro ⟨w, t, w', ms, hl, _, hw', ho, ⟨t1, m1, s1⟩, ⟨t2, m2, s2⟩, ⟨t3, m3, s3⟩, ⟨t4, m4, s4⟩, hk⟩
    have ho1 := object_length ho
    obtain ⟨body, ht, _⟩ := ho
    obtain ⟨l1, _⟩ := strText_length s1
    obtain ⟨l2, p2⟩ := strText_length s2
    obtain ⟨l3, p3⟩ := strText_length s3
    obtain ⟨l4, p4⟩ := strText_length s4
    simp only [List.length_append, List.length_cons, List.length_nil] at l3 p3
    rw [levelWord_eq] at l1
    by_cases hkv : item.kvs = []
    · have hsum := sum_le_of_mem memberSize [(b!"level", t1), (b!"time", t2), (b!"lineno", t3), (b!"message", t4)] ms (by simp) (by
        intro x hx; simp only [List.mem_cons, List.not_mem_nil, or_false] at hx; rcases hx with rfl | rfl | rfl | rfl <;> assumption)
      have hr : ∃ a, jsonRender item = a ++ [125] ++ crlf ∧
          a.length = item.level.bytes.length + item.time.length + item.file.length + (natToBytes item.line).length + item.msg.length + 47 := by
        refine ⟨_, by simp only [jsonRender, hkv, List.isEmpty_nil, ↓reduceIte]; rw [show b!"}\r\n" = [125] ++ crlf from rfl, ← List.append_assoc], ?_⟩
        simp only [quoted, List.length_append, List.length_cons, List.length_nil]
        omega
      obtain ⟨a, ha, hal⟩ := hr
      rw [ha] at hl
      have := ws_end hl body ht hw'
      simp only [memberSize, List.map_cons, List.map_nil, List.sum_cons, List.sum_nil, List.length_cons, List.length_nil] at hsum
      refine ⟨hkv, p2 (by omega), ?_, p4 (by omega)⟩
      have := p3 (by omega)
      intro b hb
      exact this b (by simp [hb])
    · exfalso
      obtain ⟨inner, pairs, m5, ho5, hp⟩ := hk hkv
      have ho5 := object_length ho5
      have hsum := sum_le_of_mem memberSize [(b!"level", t1), (b!"time", t2), (b!"lineno", t3), (b!"message", t4), (b!"kvs", inner)] ms (by simp) (by
        intro x hx; simp only [List.mem_cons, List.not_mem_nil, or_false] at hx; rcases hx with rfl | rfl | rfl | rfl | rfl <;> assumption)
      have hj := jsonPairs_length item.kvs hkv
      have hps : (pairs.map memberSize).sum = (item.kvs.map memberSize).sum := (hp.map memberSize).sum_nat
      have hgt : (item.kvs.map fun m => m.1.length + m.2.length + 2).sum < (item.kvs.map memberSize).sum := pairs_more item.kvs hkv
      have hr : ∃ a, jsonRender item = a ++ [125] ++ crlf ∧
          a.length = item.level.bytes.length + item.time.length + item.file.length + (natToBytes item.line).length + item.msg.length + 47 +
            (jsonPairs item.kvs).length + 9 := by
        have hne : item.kvs.isEmpty = false := by simpa using hkv
        refine ⟨_, by
          simp only [jsonRender, hne, Bool.false_eq_true, ↓reduceIte]
          rw [show b!"}}\r\n" = [125] ++ ([125] ++ crlf) from rfl, ← List.append_assoc, ← List.append_assoc], ?_⟩
        simp only [quoted, List.length_append, List.length_cons, List.length_nil]
        omega
      obtain ⟨a, ha, hal⟩ := hr
      rw [ha] at hl
      have := ws_end hl body ht hw'
      simp only [memberSize, List.map_cons, List.map_nil, List.sum_cons, List.sum_nil, List.length_cons, List.length_nil] at hsum
      omega
  · rintro ⟨hk, h1, h2, h3⟩
    obtain ⟨t, ht, _, _, inner, ho, _⟩ := C72_plain_partial item h1 h2 h3 [] (by rw [hk]; exact .nil)
    rw [if_pos hk, List.append_nil] at ho
    refine ⟨[], t, crlf, lineMembers item, by simpa using ht, ws_nil, by intro b hb; revert b; decide, ho, ?_, ?_, ?_, ?_, fun h => absurd hk h⟩
    · exact ⟨_, List.mem_cons_self .., strText_plain (levelWord_eq _ ▸ level_plain _)⟩
    · exact ⟨_, by simp [lineMembers], strText_plain h1⟩
    · exact ⟨_, by simp [lineMembers], strText_plain (lineno_plain h2)⟩
    · exact ⟨_, by simp [lineMembers], strText_plain h3⟩

theorem plain_append_iff (a b : Bytes) : PlainText (a ++ b) ↔ PlainText a ∧ PlainText b := by
  simp only [PlainText, List.mem_append]
  exact ⟨fun h => ⟨fun x hx => h x (Or.inl hx), fun x hx => h x (Or.inr hx)⟩, fun h x hx => hx.elim (h.1 x) (h.2 x)⟩

theorem plain_lower (a : Bytes) : PlainText (lower a) ↔ PlainText a := by
  have key : ∀ b : Byte, (32 ≤ (if 65 ≤ b ∧ b ≤ 90 then b + 32 else b) ∧ (if 65 ≤ b ∧ b ≤ 90 then b + 32 else b) ≠ 34 ∧
      (if 65 ≤ b ∧ b ≤ 90 then b + 32 else b) ≠ 92) ↔ (32 ≤ b ∧ b ≠ 34 ∧ b ≠ 92) := by
    intro b
    have : ∀ n : Fin 256, (32 ≤ (if 65 ≤ UInt8.ofFin n ∧ UInt8.ofFin n ≤ 90 then UInt8.ofFin n + 32 else UInt8.ofFin n) ∧
        (if 65 ≤ UInt8.ofFin n ∧ UInt8.ofFin n ≤ 90 then UInt8.ofFin n + 32 else UInt8.ofFin n) ≠ 34 ∧
        (if 65 ≤ UInt8.ofFin n ∧ UInt8.ofFin n ≤ 90 then UInt8.ofFin n + 32 else UInt8.ofFin n) ≠ 92) ↔
        (32 ≤ UInt8.ofFin n ∧ UInt8.ofFin n ≠ 34 ∧ UInt8.ofFin n ≠ 92) := by decide +kernel
    exact this b.toFin
  simp only [PlainText, lower, List.mem_map]
  constructor
  · intro h b hb
    exact (key b).mp (h _ ⟨b, hb, rfl⟩)
  · rintro h _ ⟨b, hb, rfl⟩
    exact (key b).mpr (h b hb)

/-- The key `service` is not among the pairs of a record. -/
theorem item_no_pairs (x : Rec) (h : x.kvs = [] ∨ ∃ v, x.kvs = [(b!"service", v)]) (time file : Bytes) (line : Nat) :
    (x.item time file line).kvs = [] := by
  obtain ⟨lev, kvs, msg⟩ := x
  simp only at h
  rcases h with rfl | ⟨v, rfl⟩
  · rfl
  · cases hv : v.u64 <;> simp [Rec.item, Item.from, visitPair, hv]

theorem endRecords_pairs {K : Type} (l : LogEnv K) (n : Nat) (e : Ending) (x : Rec) (hx : x ∈ endRecords l n e) :
    x.kvs = [] ∨ ∃ v, x.kvs = [(b!"service", v)] := by
  unfold endRecords at hx
  cases e <;> cases hd : l.debug <;> simp only [hd, Bool.false_eq_true, ↓reduceIte, List.append_nil, List.nil_append, List.mem_append,
      List.mem_singleton, List.not_mem_nil] at hx
  case headFail.false code => cases code <;> simp at hx
  case bodyFail.false code => cases code <;> simp at hx
  case headFail.true code =>
    rcases hx with hx | rfl
    · cases code <;> simp at hx <;> subst hx <;> exact .inl rfl
    · exact .inr ⟨_, rfl⟩
  case bodyFail.true code =>
    rcases hx with hx | rfl
    · cases code <;> simp at hx <;> subst hx <;> exact .inl rfl
    · exact .inr ⟨_, rfl⟩
  all_goals first
    | (rcases hx with rfl | rfl <;> first | exact .inl rfl | exact .inr ⟨_, rfl⟩)
    | (subst hx; first | exact .inl rfl | exact .inr ⟨_, rfl⟩)

theorem serveLog_pairs {K : Type} (c : Codec K) (lim : HttpLimits) (env : Nat → Env K) (l : LogEnv K) (r : Reader) (idx : Nat)
    (ord : Nat → List Pair → List Pair) (hl : ∀ i, l.service i = helloLog idx l.addr (ord i)) (x : Rec) (hx : x ∈ serveLog c lim env l r) :
    x.kvs = [] ∨ ∃ v, x.kvs = [(b!"service", v)] := by
  rw [C120_story] at hx
  simp only [story, List.mem_append, List.mem_flatten, List.mem_mapIdx] at hx
  rcases hx with (hx | ⟨recs, ⟨i, hi, rfl⟩, hx⟩) | hx
  · cases hdb : l.debug <;> simp [hdb] at hx
    subst hx
    exact .inr ⟨_, rfl⟩
  · rw [hl i] at hx
    unfold helloLog at hx
    simp only at hx
    rw [hello_headers] at hx
    simp only [List.mem_append, List.mem_cons, List.not_mem_nil, or_false, List.mem_flatMap, List.mem_map] at hx
    rcases hx with ((rfl | rfl) | ⟨e, he, v, hv, rfl⟩) | hx
    · exact .inr ⟨_, rfl⟩
    · exact .inl rfl
    · exact .inr ⟨_, rfl⟩
    · split at hx
      · simp only [List.mem_singleton] at hx; subst hx; exact .inl rfl
      · split at hx
        · cases hx
        · split at hx <;> simp only [List.mem_singleton] at hx <;> subst hx <;> exact .inr ⟨_, rfl⟩
  · exact endRecords_pairs l _ _ x hx

/-- **C205**, for the records of any connection to hello-world, whatever the client sends: the JSON line of a record tells the record if and only
if its message needs no escapes, provided that the time and the name of the source file need none. -/
theorem C205_connection {K : Type} (c : Codec K) (lim : HttpLimits) (env : Nat → Env K) (l : LogEnv K) (r : Reader) (idx : Nat)
    (ord : Nat → List Pair → List Pair) (hl : ∀ i, l.service i = helloLog idx l.addr (ord i)) (time file : Bytes) (line : Nat)
    (ht : PlainText time) (hf : PlainText file) :
    ∀ x ∈ serveLog c lim env l r, TellsRecord (x.item time file line) (jsonRender (x.item time file line)) ↔ PlainText x.msg := by
  intro x hx
  have hk := serveLog_pairs c lim env l r idx ord hl x hx
  rw [C205_exact]
  have h1 := item_no_pairs x hk time file line
  simp only [h1, true_and]
  exact ⟨fun h => h.2.2, fun h => ⟨ht, hf, h⟩⟩

theorem versionShown_plain {w v : Bytes} (h : VersionShown w v) : PlainText v := by
  rcases h with ⟨a, _, rfl⟩ | ⟨_, rfl⟩
  · simp only [plain_append_iff]
    exact ⟨⟨⟨⟨by decide, natToBytes_plain _⟩, by decide⟩, natToBytes_plain _⟩, by decide⟩
  · decide

theorem bodyRecord_plain (idx : Nat) (body : Bytes) : PlainText (bodyRecord idx body).msg ↔ body = [] ∨ decodeUtf8 body = none := by
  unfold bodyRecord
  by_cases h0 : body = []
  · simp only [h0, ↓reduceIte, true_or, iff_true]; decide
  · rw [if_neg h0]
    cases hu : decodeUtf8 body with
    | some x =>
      simp only [Option.isSome_some, ↓reduceIte, h0, reduceCtorEq, or_self, iff_false]
      intro h
      exact absurd (h 10 (by simp)).1 (by decide)
    | none =>
      simp only [Option.isSome_none, Bool.false_eq_true, ↓reduceIte, or_true, iff_true, plain_append_iff]
      exact ⟨by decide, natToBytes_plain _⟩

/-- **C205**, for the first request of a connection to hello-world as a client sends it: the JSON lines of all its records tell them if and only if
there are no quotes and backslashes in the method, the target and the headers, and the body is empty or not text. So the record of a text body is
never told. -/
theorem C205_request {K : Type} (c : Codec K) (lim : HttpLimits) (env : Nat → Env K) (l : LogEnv K) (idx : Nat)
    (ord : List Pair → List Pair) (hord : IsOrder ord) (hl : l.service 0 = helloLog idx l.addr ord) (q : WireReq)
    (hq : q.WF lim.maxUrl lim.maxHeaderLine lim.maxHeadersCount) (r : Reader) (s : Bytes) (hr : r.flat = q.encode ++ s) (time file : Bytes)
    (line : Nat) (ht : PlainText time) (hf : PlainText file) (ha : PlainText l.addr) :
    ∃ before recs after, serveLog c lim env l r = before ++ recs ++ after ∧ before.length ≤ 1 ∧ recs.length = q.head.fields.length + 3 ∧
      ((∀ x ∈ recs, TellsRecord (x.item time file line) (jsonRender (x.item time file line))) ↔
        PlainText q.head.w0 ∧ PlainText q.head.w1 ∧ (∀ f ∈ q.head.fields, PlainText f.name ∧ PlainText f.value) ∧
        (q.body = [] ∨ decodeUtf8 q.body = none)) := by
  obtain ⟨hs, rest, ver, hv, hlog, hperm⟩ := C120_hello_request c lim env l idx ord hord hl q hq r s hr
  refine ⟨if l.debug then [aboutConn l.name b!"connection made, " l.addr] else [],
    [⟨.trace, [(b!"service", .ofNat idx)], b!"Request From " ++ l.addr⟩,
      ⟨.trace, [], q.head.w0 ++ b!" " ++ q.head.w1 ++ b!" " ++ ver⟩] ++ hs ++ [bodyRecord idx q.body], rest,
    by rw [hlog]; simp only [List.append_assoc], ?_, ?_, ?_⟩
  · split <;> simp
  · have := hperm.length_eq
    simp only [List.length_map] at this
    simp only [List.length_append, List.length_cons, List.length_nil, this]
    omega
  · have tells : ∀ x : Rec, (x.kvs = [] ∨ ∃ v, x.kvs = [(b!"service", v)]) →
        (TellsRecord (x.item time file line) (jsonRender (x.item time file line)) ↔ PlainText x.msg) := by
      intro x hk
      rw [C205_exact]
      have h1 := item_no_pairs x hk time file line
      simp only [h1, true_and]
      exact ⟨fun h => h.2.2, fun h => ⟨ht, hf, h⟩⟩
    have hb : (bodyRecord idx q.body).kvs = [] ∨ ∃ v, (bodyRecord idx q.body).kvs = [(b!"service", v)] := by
      unfold bodyRecord
      repeat' split
      all_goals first | exact .inl rfl | exact .inr ⟨_, rfl⟩
    have hsf : (∀ x ∈ hs, TellsRecord (x.item time file line) (jsonRender (x.item time file line))) ↔
        ∀ f ∈ q.head.fields, PlainText f.name ∧ PlainText f.value := by
      have e : ∀ f : Field, TellsRecord ((Rec.mk .trace [(b!"service", .ofNat idx)] (fieldText f)).item time file line)
          (jsonRender ((Rec.mk .trace [(b!"service", .ofNat idx)] (fieldText f)).item time file line)) ↔ PlainText f.name ∧ PlainText f.value := by
        intro f
        rw [tells _ (.inr ⟨_, rfl⟩)]
        simp only [fieldText, plain_append_iff, plain_lower]
        exact ⟨fun h => ⟨h.1.1, h.2⟩, fun h => ⟨⟨h.1, by decide⟩, h.2⟩⟩
      constructor
      · intro h f hf
        exact (e f).mp (h _ (hperm.mem_iff.mpr (List.mem_map.mpr ⟨f, hf, rfl⟩)))
      · intro h x hx
        obtain ⟨f, hf, rfl⟩ := List.mem_map.mp (hperm.mem_iff.mp hx)
        exact (e f).mpr (h f hf)
    rw [← bodyRecord_plain idx, ← tells _ hb, ← hsf]
    have t1 : TellsRecord ((Rec.mk .trace [(b!"service", .ofNat idx)] (b!"Request From " ++ l.addr)).item time file line)
        (jsonRender ((Rec.mk .trace [(b!"service", .ofNat idx)] (b!"Request From " ++ l.addr)).item time file line)) :=
      (tells _ (.inr ⟨_, rfl⟩)).mpr ((plain_append_iff _ _).mpr ⟨by decide, ha⟩)
    have t2 := tells (Rec.mk .trace [] (q.head.w0 ++ b!" " ++ q.head.w1 ++ b!" " ++ ver)) (.inl rfl)
    simp only [plain_append_iff] at t2
    have hvp := versionShown_plain hv
    have hsp : PlainText b!" " := by decide
    constructor
    · intro h
      have g2 := t2.mp (h _ (by simp))
      exact ⟨g2.1.1.1.1, g2.1.1.2, fun x hx => h x (by simp [hx]), h _ (by simp)⟩
    · rintro ⟨h1, h2, h3, h4⟩ x hx
      simp only [List.mem_append, List.mem_cons, List.not_mem_nil, or_false] at hx
      rcases hx with ((rfl | rfl) | hx) | rfl
      · exact t1
      · exact t2.mpr ⟨⟨⟨⟨h1, hsp⟩, h2⟩, hsp⟩, hvp⟩
      · exact h3 x hx
      · exact h4

private def plainItem : Item := ⟨b!"12:00", .trace, b!"src/a.rs", 7, b!"host: a", [], 0⟩

example : jsonRender plainItem = b!"{\"level\":\"TRACE\",\"time\":\"12:00\",\"lineno\":\"src/a.rs:7\",\"message\":\"host: a\"}\r\n" := by decide +kernel

example : TellsRecord plainItem (jsonRender plainItem) := (C205_exact _).mpr (by decide)

/-- An entity tag in a header. -/
example : ¬ TellsRecord { plainItem with msg := b!"if-match: \"x\"" } (jsonRender { plainItem with msg := b!"if-match: \"x\"" }) := by
  rw [C205_exact]; decide

/-- A pair. -/
example : ¬ TellsRecord { plainItem with kvs := [(b!"a", b!"1")] } (jsonRender { plainItem with kvs := [(b!"a", b!"1")] }) := by
  rw [C205_exact]; decide

/-- A correct rendering of the same record tells it: the claim is about the renderer. -/
example : TellsRecord { plainItem with kvs := [(b!"a", b!"1")] }
    b!"{\"level\":\"TRACE\",\"time\":\"12:00\",\"lineno\":\"src/a.rs:7\",\"message\":\"host: a\",\"kvs\":{\"a\":1}}\r\n" := by
  have hn : JText .value b!"1" := .num _ ⟨[], b!"1", [], [], rfl, .inl rfl, ⟨by decide, by decide⟩, by decide, .inl rfl, .inl rfl⟩
  have ho : Object [(b!"a", b!"1")] b!"{\"a\":1}" := ⟨b!"\"a\":1", rfl, members_one (k := b!"\"a\"") (strText_plain (t := b!"a") (by decide)) hn⟩
  have p : ∀ t : Bytes, PlainText t → StrText t (quoted t) := fun t h => strText_plain h
  refine ⟨[], _, crlf, _, rfl, ws_nil, by intro b hb; revert b; decide,
    ⟨_, rfl, members_cons (p b!"level" (by decide)) (value_plain (t := b!"TRACE") (by decide))
      (members_cons (p b!"time" (by decide)) (value_plain (t := b!"12:00") (by decide))
      (members_cons (p b!"lineno" (by decide)) (value_plain (t := b!"src/a.rs:7") (by decide))
      (members_cons (p b!"message" (by decide)) (value_plain (t := b!"host: a") (by decide))
      (members_one (p b!"kvs" (by decide)) (object_json ho)))))⟩, ?_, ?_, ?_, ?_, fun _ => ⟨_, _, ?_, ho, .refl _⟩⟩
  · exact ⟨_, List.mem_cons_self .., p _ (by decide)⟩
  · exact ⟨_, List.mem_cons_of_mem _ (List.mem_cons_self ..), p _ (by decide)⟩
  · exact ⟨_, List.mem_cons_of_mem _ (List.mem_cons_of_mem _ (List.mem_cons_self ..)), p _ (by decide)⟩
  · exact ⟨_, List.mem_cons_of_mem _ (List.mem_cons_of_mem _ (List.mem_cons_of_mem _ (List.mem_cons_self ..))), p _ (by decide)⟩
  · simp

/-- A request whose records are told, and one whose records are not. -/
private def toldReq : WireReq := ⟨⟨b!"GET", b!"/", b!"HTTP/1.1", [⟨b!"Host", b!"a", 1, 0⟩]⟩, []⟩
private def untoldReq : WireReq := ⟨⟨b!"GET", b!"/", b!"HTTP/1.1", [⟨b!"If-Match", b!"\"x\"", 1, 0⟩]⟩, []⟩

example : PlainText toldReq.head.w0 ∧ PlainText toldReq.head.w1 ∧ (∀ f ∈ toldReq.head.fields, PlainText f.name ∧ PlainText f.value) ∧
    (toldReq.body = [] ∨ decodeUtf8 toldReq.body = none) := by decide

example : ¬ ∀ f ∈ untoldReq.head.fields, PlainText f.name ∧ PlainText f.value := by decide

end Httpd
