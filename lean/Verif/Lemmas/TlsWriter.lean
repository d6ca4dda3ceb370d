import Verif.Spec.TlsWriter
/-! # Lemmas about the write side over TLS -/

namespace Httpd
open Spec

/-! ## What the client can decrypt -/

theorem sealedFrom_append (layer : RecordLayer) (k : Nat) (a b : List TlsRecord) :
    sealedFrom layer k (a ++ b) = sealedFrom layer k a ++ sealedFrom layer (k + a.length) b := by
  induction a generalizing k with
  | nil => simp [sealedFrom]
  | cons r a ih =>
    rw [List.cons_append, sealedFrom, ih, sealedFrom, List.append_assoc, List.length_cons, show k + 1 + a.length = k + (a.length + 1) by omega]

theorem carried_append (a b : List TlsRecord) : carried (a ++ b) = carried a ++ carried b := by
  induction a with
  | nil => rfl
  | cons r a ih => cases r <;> simp [carried, ih]

theorem Spec.Opened.unique {layer : RecordLayer} {k : Nat} {b : Bytes} {rs rs' : List TlsRecord} (h : Opened layer k b rs) (h' : Opened layer k b rs') : rs = rs' := by
  induction h generalizing rs' with
  | rest k b h =>
    cases h' with
    | rest _ _ _ => rfl
    | record _ r b' rs' _ => exact absurd (List.prefix_append _ _) (h r)
  | record k r b rs _ ih =>
    generalize he : layer.crypt k r ++ b = c at h'
    cases h' with
    | rest _ _ h => subst he; exact absurd (List.prefix_append _ _) (h r)
    | record _ r' b' rs' h2 =>
      have hr : r = r' := by
        rcases List.append_eq_append_iff.1 he with ⟨x, h1, _⟩ | ⟨x, h1, _⟩
        · exact layer.delimited k r r' ⟨x, h1.symm⟩
        · exact (layer.delimited k r' r ⟨x, h1.symm⟩).symm
      subst hr
      have := List.append_cancel_left he
      subst this
      rw [ih h2]

/-- Of a part of the bytes of some records the client can decrypt the first ones. -/
theorem opened_part (layer : RecordLayer) (recs : List TlsRecord) : ∀ (k : Nat) (b : Bytes), b <+: sealedFrom layer k recs →
    ∃ rs, rs <+: recs ∧ Opened layer k b rs := by
  induction recs with
  | nil =>
    intro k b hb
    have : b = [] := List.prefix_nil.1 hb
    subst this
    exact ⟨[], List.prefix_rfl, .rest _ _ fun r h => layer.nonempty k r (List.prefix_nil.1 h)⟩
  | cons r recs ih =>
    intro k b hb
    rw [sealedFrom] at hb
    have hb : b <+: layer.crypt k r ∨ ∃ c, b = layer.crypt k r ++ c ∧ c <+: sealedFrom layer (k + 1) recs := by
      obtain ⟨x, hx⟩ := hb
      rcases List.append_eq_append_iff.1 hx with ⟨y, h1, h2⟩ | ⟨y, h1, h2⟩
      · exact Or.inl ⟨y, h1.symm⟩
      · exact Or.inr ⟨y, h1, ⟨x, h2.symm⟩⟩
    rcases hb with h | ⟨c, rfl, hc⟩
    · by_cases he : b = layer.crypt k r
      · subst he
        refine ⟨[r], ⟨recs, rfl⟩, ?_⟩
        have := Opened.record k r [] [] (.rest (layer := layer) (k + 1) [] fun r' h' => layer.nonempty (k + 1) r' (List.prefix_nil.1 h'))
        rwa [List.append_nil] at this
      · refine ⟨[], ⟨_, rfl⟩, .rest _ _ fun r' h' => ?_⟩
        have := layer.delimited k r' r (h'.trans h)
        subst this
        exact he (h.eq_of_length_le h'.length_le)
    · obtain ⟨rs, h1, h2⟩ := ih (k + 1) c hc
      exact ⟨r :: rs, List.cons_prefix_cons.2 ⟨rfl, h1⟩, .record k r c rs h2⟩

/-- Whole records and a part of further ones. -/
theorem opened_more (layer : RecordLayer) (a : List TlsRecord) : ∀ (k : Nat) (b : Bytes) (rs : List TlsRecord), Opened layer (k + a.length) b rs →
    Opened layer k (sealedFrom layer k a ++ b) (a ++ rs) := by
  induction a with
  | nil => intro k b rs h; simpa [sealedFrom] using h
  | cons r a ih =>
    intro k b rs h
    rw [sealedFrom, List.append_assoc]
    exact .record k r _ _ (ih (k + 1) b rs (by rw [show k + 1 + a.length = k + (r :: a).length by simp; omega]; exact h))

/-! ## The TLS stream -/

/-- A record with content as TLS allows it. -/
def TlsRecord.Fine (r : TlsRecord) : Prop := ∃ b, r = .data b ∧ b ≠ [] ∧ b.length ≤ maxFragment

/-- What happened to the TLS stream: it made records of these bytes. -/
structure TlsLater (t t' : TlsSock) (added : Bytes) : Prop where
  layer : t'.layer = t.layer
  plan : t'.plan = t.plan
  recs : ∃ more, t'.recs = t.recs ++ more ∧ carried more = added ∧ ∀ r ∈ more, r.Fine
  wire : t.wire <+: t'.wire
  books : t.wire ++ t.queue = sealedFrom t.layer 0 t.recs → t'.wire ++ t'.queue = sealedFrom t'.layer 0 t'.recs

theorem TlsLater.refl (t : TlsSock) : TlsLater t t [] := ⟨rfl, rfl, ⟨[], by simp [carried]⟩, List.prefix_rfl, id⟩

theorem TlsLater.trans {t t1 t2 : TlsSock} {a b : Bytes} (h1 : TlsLater t t1 a) (h2 : TlsLater t1 t2 b) : TlsLater t t2 (a ++ b) := by
  obtain ⟨m1, g1, g2, g3⟩ := h1.recs
  obtain ⟨m2, k1, k2, k3⟩ := h2.recs
  refine ⟨h2.layer.trans h1.layer, h2.plan.trans h1.plan, ⟨m1 ++ m2, by rw [k1, g1, List.append_assoc], by rw [carried_append, g2, k2], ?_⟩,
    h1.wire.trans h2.wire, fun h => h2.books (h1.books h)⟩
  intro r hr
  rcases List.mem_append.1 hr with h | h
  · exact g3 r h
  · exact k3 r h

theorem later_attempt (t : TlsSock) (n : Nat) : TlsLater t { t with attempts := n } [] := ⟨rfl, rfl, ⟨[], by simp [carried]⟩, List.prefix_rfl, id⟩

theorem later_sealOne (t : TlsSock) (b : Bytes) (h1 : b ≠ []) (h2 : b.length ≤ maxFragment) : TlsLater t (t.sealOne (.data b)) b := by
  refine ⟨rfl, rfl, ⟨[.data b], rfl, by simp [carried], fun r hr => ?_⟩, List.prefix_rfl, fun h => ?_⟩
  · rw [List.mem_singleton] at hr
    exact ⟨b, hr, h1, h2⟩
  · simp only [TlsSock.sealOne]
    rw [← List.append_assoc, h, sealedFrom_append]
    simp [sealedFrom]

theorem later_encrypt : ∀ (fuel : Nat) (t : TlsSock) (b : Bytes), b.length ≤ fuel → TlsLater t (t.encrypt fuel b) b := by
  intro fuel
  induction fuel with
  | zero =>
    intro t b h
    rw [List.eq_nil_of_length_eq_zero (Nat.le_zero.1 h)]
    exact .refl t
  | succ fuel ih =>
    intro t b h
    simp only [TlsSock.encrypt]
    split
    · rename_i hb
      rw [hb]
      exact .refl t
    · rename_i hb
      have hpos := List.length_pos_iff.2 hb
      have h1 := later_sealOne t (b.take maxFragment) (by
        intro h'
        have := congrArg List.length h'
        rw [List.length_take, List.length_nil] at this
        simp only [maxFragment] at this
        omega) (by rw [List.length_take]; omega)
      have h2 := ih (t.sealOne (.data (b.take maxFragment))) (b.drop maxFragment) (by rw [List.length_drop]; simp only [maxFragment]; omega)
      have := h1.trans h2
      rwa [List.take_append_drop] at this

theorem later_taken (t : TlsSock) (n : Nat) : TlsLater t (t.taken n) [] := by
  refine ⟨rfl, rfl, ⟨[], by simp [TlsSock.taken, carried]⟩, List.prefix_append _ _, fun h => ?_⟩
  simp only [TlsSock.taken]
  rw [List.append_assoc, List.take_append_drop, h]

theorem later_push : ∀ (fuel : Nat) (t : TlsSock), t.queue.length ≤ fuel →
    TlsLater t (t.push fuel).1 [] ∧ ((t.push fuel).2 = .done → (t.push fuel).1.queue = []) ∧
      ((t.push fuel).2 = .blocked → (t.push fuel).1.queue ≠ []) ∧ (t.push fuel).1.queue.length ≤ t.queue.length := by
  intro fuel
  induction fuel with
  | zero =>
    intro t h
    exact ⟨.refl t, fun _ => List.eq_nil_of_length_eq_zero (Nat.le_zero.1 h), by simp [TlsSock.push], Nat.le_refl _⟩
  | succ fuel ih =>
    intro t h
    simp only [TlsSock.push]
    by_cases hq : t.queue = []
    · rw [if_pos hq]
      exact ⟨.refl t, fun _ => hq, by simp, Nat.le_refl _⟩
    · rw [if_neg hq]
      have hpos := List.length_pos_iff.2 hq
      split
      · rename_i n _
        have hl : (t.taken (n + 1)).queue.length ≤ t.queue.length - 1 := by simp only [TlsSock.taken, List.length_drop]; omega
        obtain ⟨g1, g2, g3, g4⟩ := ih (t.taken (n + 1)) (by omega)
        exact ⟨(later_taken t _).trans g1, g2, g3, by omega⟩
      · exact ⟨later_attempt t _, by simp, by simp, Nat.le_refl _⟩
      · exact ⟨later_attempt t _, by simp, fun _ => hq, Nat.le_refl _⟩

theorem later_wait (t : TlsSock) : TlsLater t t.wait.1 [] ∧ t.wait.1.queue.length ≤ t.queue.length ∧
    (t.wait.2 = none → t.queue ≠ [] → t.wait.1.queue.length < t.queue.length) := by
  simp only [TlsSock.wait]
  split
  · refine ⟨later_taken t _, by simp only [TlsSock.taken, List.length_drop]; omega, fun _ hq => ?_⟩
    have := List.length_pos_iff.2 hq
    simp only [TlsSock.taken, List.length_drop]
    omega
  · exact ⟨later_attempt t _, Nat.le_refl _, by simp⟩
  · exact ⟨later_attempt t _, Nat.le_refl _, by simp⟩

/-- TCP goes on taking bytes. -/
def TcpTakes (plan : Nat → TcpRes) : Prop := ∀ i, ∃ now n, plan i = .takes now n

theorem push_takes (fuel : Nat) : ∀ (t : TlsSock), TcpTakes t.plan → (t.push fuel).2 ≠ .failed := by
  induction fuel with
  | zero => intro t _; simp [TlsSock.push]
  | succ fuel ih =>
    intro t h
    simp only [TlsSock.push]
    split
    · simp
    · obtain ⟨now, n, hn⟩ := h t.attempts
      rw [hn]
      cases now with
      | false => simp
      | true => exact ih _ h

theorem wait_takes (t : TlsSock) (h : TcpTakes t.plan) : t.wait.2 = none := by
  obtain ⟨now, n, hn⟩ := h t.attempts
  simp [TlsSock.wait, hn]

/-- What waits stays bounded: every record is at most this much longer than its content. -/
def Overhead (layer : RecordLayer) (ov : Nat) : Prop := ∀ k b, b.length ≤ maxFragment → (layer.crypt k (.data b)).length ≤ b.length + ov

theorem encrypt_queue (ov : Nat) : ∀ (fuel : Nat) (t : TlsSock) (b : Bytes), Overhead t.layer ov →
    (t.encrypt fuel b).queue.length ≤ t.queue.length + b.length + ov * ((b.length + (maxFragment - 1)) / maxFragment) := by
  intro fuel
  induction fuel with
  | zero => intro t b _; simp only [TlsSock.encrypt]; omega
  | succ fuel ih =>
    intro t b h
    simp only [TlsSock.encrypt]
    split
    · omega
    · rename_i hb
      have hpos := List.length_pos_iff.2 hb
      have h1 := ih (t.sealOne (.data (b.take maxFragment))) (b.drop maxFragment) h
      have h2 := h t.recs.length (b.take maxFragment) (by rw [List.length_take]; omega)
      simp only [TlsSock.sealOne, List.length_append, List.length_drop, List.length_take] at h1 h2 ⊢
      have h3 : (b.length - maxFragment + (maxFragment - 1)) / maxFragment + 1 ≤ (b.length + (maxFragment - 1)) / maxFragment := by
        simp only [maxFragment]
        omega
      have h4 := Nat.mul_le_mul_left ov h3
      rw [Nat.mul_add, Nat.mul_one] at h4
      omega

/-- The bound. -/
def Small (ov : Nat) (t : TlsSock) : Prop := t.queue.length ≤ tlsLimit + 4 * ov

theorem encrypt_small (ov : Nat) (t : TlsSock) (b : Bytes) (fuel : Nat) (h : Overhead t.layer ov) (hs : Small ov t) (hb : b.length ≤ tlsLimit - t.queue.length) :
    Small ov (t.encrypt fuel b) := by
  have h1 := encrypt_queue ov fuel t b h
  simp only [Small] at hs ⊢
  by_cases hz : b.length = 0
  · rw [hz] at h1
    have : (0 + (maxFragment - 1)) / maxFragment = 0 := by decide
    rw [this] at h1
    omega
  · have h2 : (b.length + (maxFragment - 1)) / maxFragment ≤ 4 := by
      simp only [maxFragment, tlsLimit] at hb ⊢
      omega
    have h3 := Nat.mul_le_mul_left ov h2
    omega

/-- One call of `write`. -/
theorem later_writeLoop : ∀ (fuel : Nat) (t : TlsSock) (rest : Bytes) (pos : Nat),
    (∃ k, k ≤ rest.length ∧ TlsLater t (t.writeLoop fuel rest pos).1 (rest.take k) ∧ ∀ m, (t.writeLoop fuel rest pos).2 = .ok m → m = pos + k) ∧
    (∀ ov, Overhead t.layer ov → Small ov t → Small ov (t.writeLoop fuel rest pos).1) ∧
    (TcpTakes t.plan → t.queue.length + rest.length < fuel → (rest ≠ [] ∨ 0 < pos) → ∃ m, (t.writeLoop fuel rest pos).2 = .ok (m + 1)) := by
  intro fuel
  induction fuel with
  | zero => intro t rest pos; exact ⟨⟨0, Nat.zero_le _, by simpa [TlsSock.writeLoop] using TlsLater.refl t, by simp [TlsSock.writeLoop]⟩, fun _ _ h => h, by omega⟩
  | succ fuel ih =>
    intro t rest pos
    simp only [TlsSock.writeLoop]
    by_cases hr : rest = []
    · rw [if_pos hr]
      refine ⟨⟨0, Nat.zero_le _, by simpa using TlsLater.refl t, fun m h => by cases h; rfl⟩, fun _ _ h => h, fun _ _ h => ?_⟩
      rcases h with h | h
      · exact absurd hr h
      · exact ⟨pos - 1, by simp only; congr 1; omega⟩
    · rw [if_neg hr]
      have hpos := List.length_pos_iff.2 hr
      generalize hn : min rest.length (tlsLimit - t.queue.length) = n
      have hnl : n ≤ rest.length := by omega
      have htl : (rest.take n).length = n := by rw [List.length_take]; omega
      have h1 := later_encrypt n t (rest.take n) (by omega)
      have hs1 : ∀ ov, Overhead t.layer ov → Small ov t → Small ov (t.encrypt n (rest.take n)) := fun ov ho hs => encrypt_small ov t _ n ho hs (by omega)
      have he0 : n = 0 → t.encrypt n (rest.take n) = t := by rintro rfl; rfl
      generalize t.encrypt n (rest.take n) = t1 at h1 hs1 he0
      have h2 := later_push t1.queue.length t1 (Nat.le_refl _)
      have hf2 := push_takes t1.queue.length t1
      rcases hp : t1.push t1.queue.length with ⟨t2, res⟩
      rw [hp] at h2 hf2
      obtain ⟨h2, h2d, h2b, h2l⟩ := h2
      simp only at h2 h2d h2b h2l hf2
      have h12 := h1.trans h2
      rw [List.append_nil] at h12
      have hs2 : ∀ ov, Overhead t.layer ov → Small ov t → Small ov t2 := fun ov ho hs => Nat.le_trans h2l (hs1 ov ho hs)
      cases res with
      | failed => exact ⟨⟨n, hnl, h12, by simp⟩, hs2, fun h => absurd rfl (hf2 (by rw [h1.plan]; exact h))⟩
      | done =>
        simp only
        obtain ⟨⟨k, hk, g1, g2⟩, g3, g4⟩ := ih t2 (rest.drop n) (pos + n)
        refine ⟨⟨n + k, by rw [List.length_drop] at hk; omega, ?_, fun m hm => by rw [g2 m hm]; omega⟩, fun ov ho hs => g3 ov (by rw [h12.layer]; exact ho) (hs2 ov ho hs), fun h hfu _ => ?_⟩
        · have := h12.trans g1
          rwa [← List.take_add] at this
        · refine g4 (by rw [h12.plan]; exact h) ?_ ?_
          · rw [h2d rfl, List.length_drop, List.length_nil]
            by_cases hz : n = 0
            · have : 0 < t.queue.length := by simp only [tlsLimit] at hn; omega
              omega
            · omega
          · by_cases hd : rest.drop n = []
            · right
              have := congrArg List.length hd
              rw [List.length_drop, List.length_nil] at this
              omega
            · exact Or.inl hd
      | blocked =>
        simp only
        by_cases hpn : 0 < pos + n
        · rw [if_pos hpn]
          exact ⟨⟨n, hnl, h12, fun m hm => by cases hm; rfl⟩, hs2, fun _ _ _ => ⟨pos + n - 1, by simp only; congr 1; omega⟩⟩
        · rw [if_neg hpn]
          have hn0 : n = 0 := by omega
          subst hn0
          rw [List.take_zero] at h12
          obtain ⟨h3, h3l, h3s⟩ := later_wait t2
          have hw := wait_takes t2
          rcases hw3 : t2.wait with ⟨t3, res3⟩
          rw [hw3] at h3 h3l h3s hw
          simp only at h3 h3l h3s hw
          have h13 := h12.trans h3
          have hs3 : ∀ ov, Overhead t.layer ov → Small ov t → Small ov t3 := fun ov ho hs => Nat.le_trans h3l (hs2 ov ho hs)
          cases res3 with
          | some e => exact ⟨⟨0, Nat.zero_le _, by simpa using h13, by simp⟩, hs3, fun h => absurd (hw (by rw [h12.plan]; exact h)) (by simp)⟩
          | none =>
            simp only
            have h4 := later_push t3.queue.length t3 (Nat.le_refl _)
            have hf4 := push_takes t3.queue.length t3
            rcases hp4 : t3.push t3.queue.length with ⟨t4, res4⟩
            rw [hp4] at h4 hf4
            obtain ⟨h4, h4d, _, h4l⟩ := h4
            simp only at h4 h4d h4l hf4
            have h14 := h13.trans h4
            have hs4 : ∀ ov, Overhead t.layer ov → Small ov t → Small ov t4 := fun ov ho hs => Nat.le_trans h4l (hs3 ov ho hs)
            have go : (∃ k, k ≤ rest.length ∧ TlsLater t (t4.writeLoop fuel rest pos).1 (rest.take k) ∧ ∀ m, (t4.writeLoop fuel rest pos).2 = .ok m → m = pos + k) ∧
                (∀ ov, Overhead t.layer ov → Small ov t → Small ov (t4.writeLoop fuel rest pos).1) ∧
                (TcpTakes t.plan → t.queue.length + rest.length < fuel + 1 → (rest ≠ [] ∨ 0 < pos) → ∃ m, (t4.writeLoop fuel rest pos).2 = .ok (m + 1)) := by
              obtain ⟨⟨k, hk, g1, g2⟩, g3, g4⟩ := ih t4 rest pos
              refine ⟨⟨k, hk, by simpa using h14.trans g1, g2⟩, fun ov ho hs => g3 ov (by rw [h14.layer]; exact ho) (hs4 ov ho hs), fun h hfu hne => ?_⟩
              refine g4 (by rw [h14.plan]; exact h) ?_ hne
              have := h3s rfl (h2b rfl)
              rw [he0 rfl] at h2l
              omega
            cases res4 with
            | failed => exact ⟨⟨0, Nat.zero_le _, by simpa using h14, by simp⟩, hs4, fun h => absurd rfl (hf4 (by rw [h13.plan]; exact h))⟩
            | done => exact go
            | blocked => exact go

theorem later_flush : ∀ (fuel : Nat) (t : TlsSock), t.queue.length ≤ fuel →
    TlsLater t (t.flush fuel).1 [] ∧ (t.flush fuel).1.queue.length ≤ t.queue.length ∧ ((t.flush fuel).2 = none → (t.flush fuel).1.queue = []) ∧
      (TcpTakes t.plan → (t.flush fuel).2 = none) := by
  intro fuel
  induction fuel with
  | zero =>
    intro t h
    exact ⟨.refl t, Nat.le_refl _, fun _ => List.eq_nil_of_length_eq_zero (Nat.le_zero.1 h), fun _ => rfl⟩
  | succ fuel ih =>
    intro t h
    simp only [TlsSock.flush]
    by_cases hq : t.queue = []
    · rw [if_pos hq]
      exact ⟨.refl t, Nat.le_refl _, fun _ => hq, fun _ => rfl⟩
    · rw [if_neg hq]
      obtain ⟨h3, h3l, h3s⟩ := later_wait t
      have hw := wait_takes t
      rcases hw3 : t.wait with ⟨t3, res3⟩
      rw [hw3] at h3 h3l h3s hw
      simp only at h3 h3l h3s hw
      cases res3 with
      | some e => exact ⟨h3, h3l, by simp, hw⟩
      | none =>
        have := h3s rfl hq
        obtain ⟨g1, g2, g3, g4⟩ := ih t3 (by omega)
        exact ⟨h3.trans g1, by simp only; omega, g3, fun h => g4 (by rw [h3.plan]; exact h)⟩

/-! ## The buffered writer over it -/

/-- What any write operation does. -/
structure TlsMoves (w w' : TlsConn) (src : Bytes) (res : Option Reader.IoStop) : Prop where
  cap : w'.cap = w.cap
  later : ∃ a, TlsLater w.tls w'.tls a ∧ a <+: w.buf ++ src ∧ (res = none → a ++ w'.buf = w.buf ++ src)
  queue : ∀ ov, Overhead w.tls.layer ov → Small ov w.tls → Small ov w'.tls
  small : w.buf.length ≤ w.cap → w'.buf.length ≤ w'.cap
  fine : TcpTakes w.tls.plan → res = none

theorem TlsMoves.layer {w w' : TlsConn} {src : Bytes} {res : Option Reader.IoStop} (h : TlsMoves w w' src res) : w'.tls.layer = w.tls.layer := by
  obtain ⟨a, h, _⟩ := h.later
  exact h.layer

theorem TlsMoves.plan {w w' : TlsConn} {src : Bytes} {res : Option Reader.IoStop} (h : TlsMoves w w' src res) : w'.tls.plan = w.tls.plan := by
  obtain ⟨a, h, _⟩ := h.later
  exact h.plan

theorem TlsMoves.refl (w : TlsConn) : TlsMoves w w [] none :=
  ⟨rfl, ⟨[], .refl _, List.nil_prefix, by simp⟩, fun _ _ h => h, id, fun _ => rfl⟩

theorem TlsMoves.trans {w w1 w2 : TlsConn} {s1 s2 : Bytes} {res : Option Reader.IoStop} (h1 : TlsMoves w w1 s1 none) (h2 : TlsMoves w1 w2 s2 res) :
    TlsMoves w w2 (s1 ++ s2) res := by
  obtain ⟨a1, g1, _, g3⟩ := h1.later
  obtain ⟨a2, k1, k2, k3⟩ := h2.later
  have g3 := g3 rfl
  refine ⟨h2.cap.trans h1.cap, ⟨a1 ++ a2, g1.trans k1, ?_, fun h => ?_⟩, fun ov ho hs => h2.queue ov (by rw [h1.layer]; exact ho) (h1.queue ov ho hs),
    fun h => h2.small (h1.small h), fun h => h2.fine (by rw [h1.plan]; exact h)⟩
  · rw [← List.append_assoc, ← g3, List.append_assoc]
    exact (List.prefix_append_right_inj a1).2 k2
  · rw [← List.append_assoc, ← g3, List.append_assoc, List.append_assoc, k3 h]

theorem TlsMoves.stop {w w1 : TlsConn} {s1 : Bytes} {e : Reader.IoStop} (h : TlsMoves w w1 s1 (some e)) (s2 : Bytes) : TlsMoves w w1 (s1 ++ s2) (some e) := by
  obtain ⟨a, g1, g2, _⟩ := h.later
  exact ⟨h.cap, ⟨a, g1, by rw [← List.append_assoc]; exact g2.trans (List.prefix_append _ _), by simp⟩, h.queue, h.small, fun hp => by cases h.fine hp⟩

theorem tls_flushBuf : ∀ (fuel : Nat) (w : TlsConn), w.buf.length ≤ fuel →
    TlsMoves w (w.flushBuf fuel).1 [] (w.flushBuf fuel).2 ∧ ((w.flushBuf fuel).2 = none → (w.flushBuf fuel).1.buf = []) := by
  intro fuel
  induction fuel with
  | zero =>
    intro w h
    exact ⟨.refl w, fun _ => List.eq_nil_of_length_eq_zero (Nat.le_zero.1 h)⟩
  | succ fuel ih =>
    intro w h
    simp only [TlsConn.flushBuf]
    by_cases hb : w.buf = []
    · rw [if_pos hb]
      exact ⟨.refl w, fun _ => hb⟩
    · rw [if_neg hb]
      have hpos := List.length_pos_iff.2 hb
      have h1 := later_writeLoop (w.tls.queue.length + w.buf.length + 1) w.tls w.buf 0
      rw [← TlsSock.write] at h1
      rcases hw : w.tls.write w.buf with ⟨s, res⟩
      rw [hw] at h1
      obtain ⟨⟨k, hk, g1, g2⟩, g3, g4⟩ := h1
      simp only at g1 g2 g3 g4
      cases res with
      | error e =>
        refine ⟨⟨rfl, ⟨_, g1, ?_, by simp⟩, g3, id, fun hp => ?_⟩, by simp⟩
        · rw [List.append_nil]; exact List.take_prefix _ _
        · obtain ⟨m, hm⟩ := g4 hp (by omega) (Or.inl hb); cases hm
      | ok n =>
        cases n with
        | zero =>
          refine ⟨⟨rfl, ⟨_, g1, ?_, by simp⟩, g3, id, fun hp => ?_⟩, by simp⟩
          · rw [List.append_nil]; exact List.take_prefix _ _
          · obtain ⟨m, hm⟩ := g4 hp (by omega) (Or.inl hb); cases hm
        | succ n =>
          simp only
          have hk' := g2 (n + 1) rfl
          rw [Nat.zero_add] at hk'
          subst hk'
          have hstep : TlsMoves w { w with tls := s, buf := w.buf.drop (n + 1) } [] none :=
            ⟨rfl, ⟨_, g1, by rw [List.append_nil]; exact List.take_prefix _ _, fun _ => by simp⟩, g3,
              fun h => by simp only [List.length_drop]; omega, fun _ => rfl⟩
          obtain ⟨k1, k2⟩ := ih { w with tls := s, buf := w.buf.drop (n + 1) } (by simp only [List.length_drop]; omega)
          exact ⟨hstep.trans k1, k2⟩

theorem tls_put (w : TlsConn) (src : Bytes) (h1 : w.cap ≤ src.length → w.buf = []) (h2 : src.length < w.cap → w.buf.length + src.length ≤ w.cap) :
    match (w.put src).2 with
    | .ok n => n ≤ src.length ∧ TlsMoves w (w.put src).1 (src.take n) none ∧ (src ≠ [] → TcpTakes w.tls.plan → 0 < n)
    | .error e => TlsMoves w (w.put src).1 src (some e) := by
  simp only [TlsConn.put]
  by_cases hc : w.cap ≤ src.length
  · rw [if_pos hc]
    have hb := h1 hc
    have h1 := later_writeLoop (w.tls.queue.length + src.length + 1) w.tls src 0
    rw [← TlsSock.write] at h1
    rcases hw : w.tls.write src with ⟨s, res⟩
    rw [hw] at h1
    obtain ⟨⟨k, hk, g1, g2⟩, g3, g4⟩ := h1
    simp only at g1 g2 g3 g4 ⊢
    cases res with
    | error e =>
      simp only
      refine ⟨rfl, ⟨_, g1, ?_, by simp⟩, g3, id, fun hp => ?_⟩
      · rw [hb]; exact List.take_prefix _ _
      · by_cases hs : src = []
        · have h0 : w.tls.write [] = (w.tls, .ok 0) := rfl
          rw [hs, h0] at hw
          cases hw
        · obtain ⟨m, hm⟩ := g4 hp (by omega) (Or.inl hs); cases hm
    | ok n =>
      have hk' := g2 n rfl
      rw [Nat.zero_add] at hk'
      subst hk'
      refine ⟨hk, ⟨rfl, ⟨_, g1, by rw [hb]; exact List.prefix_rfl, fun _ => by simp [hb]⟩, g3, id, fun _ => rfl⟩, fun hs hp => ?_⟩
      obtain ⟨m, hm⟩ := g4 hp (by omega) (Or.inl hs)
      cases hm
      omega
  · rw [if_neg hc]
    refine ⟨Nat.le_refl _, ⟨rfl, ⟨[], .refl _, List.nil_prefix, fun _ => by simp⟩, fun _ _ h => h, fun _ => ?_, fun _ => rfl⟩, fun hs _ => List.length_pos_iff.2 hs⟩
    have := h2 (by omega)
    simpa using this

theorem tls_write (w : TlsConn) (src : Bytes) :
    match (w.write src).2 with
    | .ok n => n ≤ src.length ∧ TlsMoves w (w.write src).1 (src.take n) none ∧ (src ≠ [] → TcpTakes w.tls.plan → 0 < n)
    | .error e => TlsMoves w (w.write src).1 src (some e) := by
  simp only [TlsConn.write]
  by_cases hc : w.cap < w.buf.length + src.length
  · rw [if_pos hc]
    obtain ⟨g1, g2⟩ := tls_flushBuf w.buf.length w (Nat.le_refl _)
    rcases hf : w.flushBuf w.buf.length with ⟨w1, _ | e⟩
    · rw [hf] at g1 g2
      have hb := g2 rfl
      simp only at g1 hb ⊢
      have hp := tls_put w1 src (fun _ => hb) (fun h => by rw [hb]; simp; omega)
      cases hr : (w1.put src).2 with
      | error e => rw [hr] at hp; exact g1.trans hp
      | ok n =>
        rw [hr] at hp
        exact ⟨hp.1, g1.trans hp.2.1, fun hs ht => hp.2.2 hs (by rw [g1.plan]; exact ht)⟩
    · rw [hf] at g1
      exact g1.stop src
  · rw [if_neg hc]
    exact tls_put w src (fun h => List.eq_nil_of_length_eq_zero (by omega)) (fun _ => by omega)

theorem tls_writeAll : ∀ (fuel : Nat) (w : TlsConn) (src : Bytes), src.length ≤ fuel → TlsMoves w (w.writeAll fuel src).1 src (w.writeAll fuel src).2 := by
  intro fuel
  induction fuel with
  | zero =>
    intro w src h
    rw [List.eq_nil_of_length_eq_zero (Nat.le_zero.1 h)]
    exact .refl w
  | succ fuel ih =>
    intro w src h
    simp only [TlsConn.writeAll]
    by_cases hs : src = []
    · rw [if_pos hs, hs]
      exact .refl w
    · rw [if_neg hs]
      have hw := tls_write w src
      rcases hr : w.write src with ⟨w1, res⟩
      rw [hr] at hw
      cases res with
      | error e => exact hw
      | ok n =>
        obtain ⟨g1, g2, g3⟩ := hw
        cases n with
        | zero =>
          simp only at g2 ⊢
          obtain ⟨a, k1, k2, _⟩ := g2.later
          refine ⟨g2.cap, ⟨a, k1, ?_, by simp⟩, g2.queue, g2.small, fun hp => absurd (g3 hs hp) (by omega)⟩
          rw [List.take_zero, List.append_nil] at k2
          exact k2.trans (List.prefix_append _ _)
        | succ n =>
          have := g2.trans (ih w1 (src.drop (n + 1)) (by rw [List.length_drop]; omega))
          rwa [List.take_append_drop] at this

theorem tls_flush (w : TlsConn) : TlsMoves w w.flush.1 [] w.flush.2 ∧ (w.flush.2 = none → w.flush.1.buf = [] ∧ w.flush.1.tls.queue = []) := by
  simp only [TlsConn.flush]
  obtain ⟨g1, g2⟩ := tls_flushBuf w.buf.length w (Nat.le_refl _)
  rcases hf : w.flushBuf w.buf.length with ⟨w1, _ | e⟩
  · rw [hf] at g1 g2
    obtain ⟨k1, k2, k3, k4⟩ := later_flush w1.tls.queue.length w1.tls (Nat.le_refl _)
    simp only at g1 g2 ⊢
    refine ⟨g1.trans ⟨rfl, ⟨[], k1, List.nil_prefix, fun _ => by simp⟩, fun _ _ h => Nat.le_trans k2 h, id, k4⟩, fun h => ⟨g2 trivial, k3 h⟩⟩
  · rw [hf] at g1
    exact ⟨g1, by simp⟩

theorem tls_send (w : TlsConn) (head body : Bytes) : TlsMoves w (w.send head body).1 (head ++ body) (w.send head body).2 ∧
    ((w.send head body).2 = none → (w.send head body).1.buf = [] ∧ (w.send head body).1.tls.queue = []) := by
  simp only [TlsConn.send]
  have h1 := tls_writeAll head.length w head (Nat.le_refl _)
  rcases hr1 : w.writeAll head.length head with ⟨w1, _ | e⟩
  · rw [hr1] at h1
    simp only at h1 ⊢
    by_cases hb : 0 < body.length
    · rw [if_pos hb]
      have h2 := tls_writeAll body.length w1 body (Nat.le_refl _)
      rcases hr2 : w1.writeAll body.length body with ⟨w2, _ | e⟩
      · rw [hr2] at h2
        obtain ⟨h3, h4⟩ := tls_flush w2
        have := (h1.trans h2).trans h3
        rw [List.append_nil] at this
        exact ⟨this, h4⟩
      · rw [hr2] at h2
        exact ⟨h1.trans h2, by simp⟩
    · rw [if_neg hb]
      have : body = [] := List.eq_nil_of_length_eq_zero (by omega)
      subst this
      obtain ⟨h3, h4⟩ := tls_flush w1
      exact ⟨h1.trans h3, h4⟩
  · rw [hr1] at h1
    exact ⟨h1.stop body, by simp⟩

theorem tls_writeTo {K : Type} (c : Codec K) (ord : List Pair → List Pair) (m : Message K) (w : TlsConn) :
    (writeToTls c ord m w).1 = (encodeResponse c ord m).1 ∧
    match (encodeResponse c ord m).2 with
    | none => (writeToTls c ord m w).2 = (w, some .error)
    | some bytes => TlsMoves w (writeToTls c ord m w).2.1 bytes (writeToTls c ord m w).2.2 ∧
        ((writeToTls c ord m w).2.2 = none → (writeToTls c ord m w).2.1.buf = [] ∧ (writeToTls c ord m w).2.1.tls.queue = []) := by
  simp only [writeToTls, encodeResponse]
  cases m.body.finish c with
  | mk b ok =>
    cases ok with
    | false => simp
    | true =>
      exact ⟨by rfl, tls_send w (responseHead m.head.f0 m.head.f1 m.head.f2
        ((m.head.headers.set b!"content-length" (natToBytes b.size)).entries ord))
        (match b.internal with | some buf => buf | none => [])⟩

end Httpd
