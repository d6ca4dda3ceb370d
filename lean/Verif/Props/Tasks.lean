import Verif.Model.Tasks
import Verif.Props.DeadLog
import Verif.Props.Online
/-! # C206: connections do not affect each other -/

namespace Httpd
open Spec MultiMap

/-! ## What a connection has done stays done when more arrives -/

theorem serveActsLoop_fuel {K : Type} (c : Codec K) (lim : HttpLimits) (env : Nat → Env K) (l : LogEnv K) (fuel fuel' i : Nat) (req resp : Message K)
    (r : Reader) (h1 : r.flat.length < fuel) (h2 : r.flat.length < fuel') :
    serveActsLoop c lim env l fuel i req resp r = serveActsLoop c lim env l fuel' i req resp r := by
  induction fuel generalizing fuel' i req resp r with
  | zero => omega
  | succ fuel ih =>
    cases fuel' with
    | zero => omega
    | succ fuel' =>
      unfold serveActsLoop
      cases hh : readHead lim req.head r with
      | error e => cases e <;> rfl
      | ok x =>
        obtain ⟨head, r1⟩ := x
        have hc := readHead_consumes hh
        simp only
        cases hb : readConstLengthBody (env i).cap head.headers req.body r1 with
        | fail e => cases e <;> rfl
        | panic => rfl
        | hang => rfl
        | done body r2 =>
          obtain ⟨n, _, _, hr2, _⟩ := readConstLengthBody_done (env i).cap_pos hb
          have hlen : r2.flat.length ≤ r1.flat.length := by rw [hr2]; simp
          simp only
          congr 1
          cases hq : (env i).http { head := head, body := body } resp with
          | err => rfl
          | panic => rfl
          | ok p req2 resp2 =>
            simp only
            cases he : encodeResponse c (env i).ord resp2 with
            | mk resp3 o =>
              cases o with
              | none => rfl
              | some bytes =>
                simp only
                cases hw : (env i).write with
                | failAfter k s => cases s <;> rfl
                | ok =>
                  simp only
                  cases p with
                  | webSocket => rfl
                  | http2 => rfl
                  | current b =>
                    cases b with
                    | false => rfl
                    | true =>
                      simp only
                      rw [ih fuel' (i + 1) (req2.clear c) (resp3.clear c) r2 (by omega) (by omega)]

theorem serveActsLoop_extend {K : Type} (c : Codec K) (lim : HttpLimits) (env : Nat → Env K) (l : LogEnv K) (x : Bytes) (fuel i : Nat)
    (req resp : Message K) (r r' : Reader) (h : r.Ext x r') (hf : r'.flat.length < fuel) :
    serveActsLoop c lim env l fuel i req resp r <+: serveActsLoop c lim env l fuel i req resp r' ∧
      ((serveLoop c lim env fuel i req resp r).2 ≠ .waiting →
        serveActsLoop c lim env l fuel i req resp r' = serveActsLoop c lim env l fuel i req resp r) := by
  induction fuel generalizing i req resp r r' with
  | zero => omega
  | succ fuel ih =>
    have hh := readHead_extend lim x req.head r r' h
    unfold serveActsLoop serveLoop
    cases h1 : readHead lim req.head r with
    | error e =>
      rw [h1] at hh
      rcases hh with rfl | hh
      · exact ⟨List.nil_prefix, fun h => absurd rfl h⟩
      · rw [hh]; exact ⟨by cases e <;> exact List.prefix_refl _, fun _ => by cases e <;> rfl⟩
    | ok y =>
      obtain ⟨hd, r1⟩ := y
      cases h2 : readHead lim req.head r' with
      | error e => rw [h1, h2] at hh; exact hh.elim
      | ok y' =>
        obtain ⟨hd', r1'⟩ := y'
        rw [h1, h2] at hh
        obtain ⟨rfl, he⟩ := hh
        simp only
        have hbx := readConstLengthBody_extend (env i).cap hd.headers req.body x r1 r1' he (env i).cap_pos
        have hcons := readHead_consumes h2
        cases h3 : readConstLengthBody (env i).cap hd.headers req.body r1 with
        | fail e =>
          rw [h3] at hbx
          rcases hbx with rfl | hbx
          · exact ⟨List.nil_prefix, fun h => absurd rfl h⟩
          · rw [hbx]; exact ⟨by cases e <;> exact List.prefix_refl _, fun _ => by cases e <;> rfl⟩
        | panic =>
          rw [h3] at hbx
          cases h4 : readConstLengthBody (env i).cap hd.headers req.body r1' with
          | panic => exact ⟨List.prefix_refl _, fun _ => rfl⟩
          | fail e => rw [h4] at hbx; exact hbx.elim
          | hang => rw [h4] at hbx; exact hbx.elim
          | done b q => rw [h4] at hbx; exact hbx.elim
        | hang => rw [h3] at hbx; cases h4 : readConstLengthBody (env i).cap hd.headers req.body r1' <;> rw [h4] at hbx <;> exact hbx.elim
        | done body r2 =>
          cases h4 : readConstLengthBody (env i).cap hd.headers req.body r1' with
          | panic => rw [h3, h4] at hbx; exact hbx.elim
          | fail e => rw [h3, h4] at hbx; exact hbx.elim
          | hang => rw [h3, h4] at hbx; exact hbx.elim
          | done body' r2' =>
            rw [h3, h4] at hbx
            obtain ⟨rfl, he2⟩ := hbx
            obtain ⟨n, _, _, hr2, _⟩ := readConstLengthBody_done (env i).cap_pos h4
            have hlen : r2'.flat.length ≤ r1'.flat.length := by rw [hr2]; simp
            simp only
            rw [List.prefix_append_right_inj, List.append_cancel_left_eq]
            cases h5 : (env i).http { head := hd, body := body } resp with
            | err => exact ⟨List.prefix_refl _, fun _ => rfl⟩
            | panic => exact ⟨List.prefix_refl _, fun _ => rfl⟩
            | ok p req2 resp2 =>
              simp only
              cases h6 : encodeResponse c (env i).ord resp2 with
              | mk resp3 ob =>
                cases ob with
                | none => exact ⟨List.prefix_refl _, fun _ => rfl⟩
                | some bytes =>
                  simp only
                  cases (env i).write with
                  | failAfter k s' => cases s' <;> exact ⟨List.prefix_refl _, fun _ => rfl⟩
                  | ok =>
                    simp only
                    cases p with
                    | webSocket => exact ⟨List.prefix_refl _, fun _ => rfl⟩
                    | http2 => exact ⟨List.prefix_refl _, fun _ => rfl⟩
                    | current ka =>
                      cases ka with
                      | false => exact ⟨List.prefix_refl _, fun _ => rfl⟩
                      | true =>
                        obtain ⟨m1, m2⟩ := ih (i + 1) (req2.clear c) (resp3.clear c) r2 r2' he2 (by omega)
                        simp only
                        exact ⟨by rw [List.cons_prefix_cons]; exact ⟨rfl, m1⟩, fun hn => by rw [m2 hn]⟩

/-- What a connection has done when the client is silent stays done when the stream goes on in any way; if it does not wait at that point, nothing is
added. -/
theorem serveActs_extend {K : Type} (c : Codec K) (lim : HttpLimits) (env : Nat → Env K) (l : LogEnv K) (x : Bytes) (r r' : Reader)
    (hs : r.fin = .silent) (hx : r'.flat = r.flat ++ x) :
    serveActs c lim env l r <+: serveActs c lim env l r' ∧
      ((serve c lim env r).2 ≠ .waiting → serveActs c lim env l r' = serveActs c lim env l r) := by
  have hle : r.flat.length ≤ r'.flat.length := by rw [hx]; simp
  have h := serveActsLoop_extend c lim env l x (r'.flat.length + 1) 0 Message.new Message.new r r' ⟨hs, hx⟩ (by omega)
  have e : serve c lim env r = serveLoop c lim env (r'.flat.length + 1) 0 Message.new Message.new r :=
    ((C77_finitely_many c lim env r).2.2 (r'.flat.length + 1) (by omega)).symm
  unfold serveActs
  rw [e, List.prefix_append_right_inj, List.append_cancel_left_eq,
    serveActsLoop_fuel c lim env l (r.flat.length + 1) (r'.flat.length + 1) 0 Message.new Message.new r (by omega) (by omega)]
  exact h

/-! ## The invariant of one connection -/

/-- Everything that has arrived at a connection. -/
def Task.all (t : Task) : Reader := ⟨[], t.arrived, t.fin⟩

/-- The number of segments read, the end seen and the acts done go together. -/
structure TaskOk {K : Type} (c : Codec K) (x : Setup K) (t : Task) (recs : List Rec) (out : Bytes) : Prop where
  fetched : t.fetched ≤ t.arrived.length
  ended : t.sawEnd = true → t.fin ≠ .silent ∧ t.fetched = t.arrived.length
  done : t.done ≤ (t.acts c x).length
  recs : recs = recordsOf ((t.acts c x).take t.done)
  out : out = answered ((t.acts c x).take t.done)

theorem Task.acts_all {K : Type} {c : Codec K} {x : Setup K} {t : Task} {recs : List Rec} {out : Bytes} (h : TaskOk c x t recs out) :
    t.acts c x <+: serveActs c x.lim x.env x.log t.all ∧
      ((serve c x.lim x.env t.reader).2 ≠ .waiting → serveActs c x.lim x.env x.log t.all = t.acts c x) := by
  cases he : t.sawEnd with
  | true =>
    have : t.reader = t.all := by
      simp only [Task.reader, Task.all, he, ↓reduceIte, (h.ended he).2, List.take_length]
    rw [Task.acts, this]
    exact ⟨List.prefix_refl _, fun _ => rfl⟩
  | false =>
    refine serveActs_extend c x.lim x.env x.log ((t.arrived.drop t.fetched).map Seg.bytes).flatten t.reader t.all ?_ ?_
    · simp [Task.reader, he]
    · simp only [Task.reader, Task.all, Reader.flat, List.nil_append, ← List.flatten_append, ← List.map_append, List.take_append_drop]

theorem take_prefix {α : Type} {a b : List α} (h : a <+: b) {n : Nat} (hn : n ≤ a.length) : b.take n = a.take n := by
  obtain ⟨z, rfl⟩ := h
  rw [List.take_append_of_le_length hn]

theorem flat_take_succ (l : List Seg) (n : Nat) :
    ∃ x, (⟨[], l.take (n + 1), .silent⟩ : Reader).flat = (⟨[], l.take n, .silent⟩ : Reader).flat ++ x := by
  refine ⟨(((l.drop n).take 1).map Seg.bytes).flatten, ?_⟩
  simp only [Reader.flat, List.nil_append, ← List.flatten_append, ← List.map_append]
  rw [← List.take_add]

/-- The records of one connection in the channel. -/
def ofConn (i : Nat) (q : List (Nat × Rec)) : List Rec := (q.filter (fun p => p.1 = i)).map (·.2)

theorem ofConn_snoc (i j : Nat) (q : List (Nat × Rec)) (r : Rec) : ofConn i (q ++ [(j, r)]) = if j = i then ofConn i q ++ [r] else ofConn i q := by
  unfold ofConn
  by_cases h : j = i <;> simp [h]

theorem Server.Run.inv {K : Type} {c : Codec K} {setup : Nat → Setup K} {tr : List (Nat × ServerAct)} {s : Server} (h : Server.Run c setup tr s) (i : Nat) :
    (s.task i = none → ofConn i s.queue = [] ∧ s.wire i = []) ∧
    ∀ t, s.task i = some t → TaskOk c (setup i) t (ofConn i s.queue) (s.wire i) := by
  induction h with
  | nil => exact ⟨fun _ => ⟨rfl, rfl⟩, fun t ht => by cases ht⟩
  | @snoc tr s s' a _ hs ih =>
    obtain ⟨ih0, ih⟩ := ih
    cases hs with
    | accept j hj =>
      by_cases hi : i = j
      · subst hi
        refine ⟨fun h => by simp [Server.put] at h, fun t ht => ?_⟩
        simp only [Server.put, ↓reduceIte, Option.some.injEq] at ht
        subst ht
        obtain ⟨h1, h2⟩ := ih0 hj
        exact ⟨by simp [Task.new], by simp [Task.new], by simp [Task.new], by simp [Server.put, h1, Task.new, recordsOf],
          by simp [Server.put, h2, Task.new, answered]⟩
      · simp only [Server.put, hi, ↓reduceIte]; exact ⟨ih0, ih⟩
    | send j t g hj hfin =>
      by_cases hi : i = j
      · subst hi
        refine ⟨fun h => by simp [Server.put] at h, fun t' ht => ?_⟩
        simp only [Server.put, ↓reduceIte, Option.some.injEq] at ht
        subst ht
        have h0 := ih t hj
        have hr : Task.reader { t with arrived := t.arrived ++ [g] } = t.reader := by
          simp only [Task.reader, List.take_append_of_le_length h0.fetched]
        have ha : Task.acts c (setup i) { t with arrived := t.arrived ++ [g] } = t.acts c (setup i) := by simp only [Task.acts, hr]
        refine ⟨by simp only [List.length_append]; have := h0.fetched; omega, fun he => absurd hfin (h0.ended he).1, ?_, ?_, ?_⟩
        · rw [ha]; exact h0.done
        · rw [ha]; exact h0.recs
        · rw [ha]; exact h0.out
      · simp only [Server.put, hi, ↓reduceIte]; exact ⟨ih0, ih⟩
    | finish j t e hj hfin hne =>
      by_cases hi : i = j
      · subst hi
        refine ⟨fun h => by simp [Server.put] at h, fun t' ht => ?_⟩
        simp only [Server.put, ↓reduceIte, Option.some.injEq] at ht
        subst ht
        have h0 := ih t hj
        have hsaw : t.sawEnd = false := by
          cases hc : t.sawEnd with
          | false => rfl
          | true => exact absurd hfin (h0.ended hc).1
        have ha : Task.acts c (setup i) { t with fin := e } = t.acts c (setup i) := by simp only [Task.acts, Task.reader, hsaw]; rfl
        refine ⟨h0.fetched, fun he => by simp [hsaw] at he, ?_, ?_, ?_⟩
        · rw [ha]; exact h0.done
        · rw [ha]; exact h0.recs
        · rw [ha]; exact h0.out
      · simp only [Server.put, hi, ↓reduceIte]; exact ⟨ih0, ih⟩
    | fetch j t hj hw hlt =>
      by_cases hi : i = j
      · subst hi
        refine ⟨fun h => by simp [Server.put] at h, fun t' ht => ?_⟩
        simp only [Server.put, ↓reduceIte, Option.some.injEq] at ht
        subst ht
        have h0 := ih t hj
        have hsaw : t.sawEnd = false := by
          cases hc : t.sawEnd with
          | false => rfl
          | true => have := (h0.ended hc).2; omega
        obtain ⟨x, hx⟩ := flat_take_succ t.arrived t.fetched
        have hpre : t.acts c (setup i) <+: Task.acts c (setup i) { t with fetched := t.fetched + 1 } := by
          refine (serveActs_extend c (setup i).lim (setup i).env (setup i).log x _ _ ?_ ?_).1
          · simp [Task.reader, hsaw]
          · simp only [Task.reader, hsaw]; exact hx
        refine ⟨hlt, fun he => by simp [hsaw] at he, Nat.le_trans h0.done hpre.length_le, ?_, ?_⟩
        · rw [take_prefix hpre h0.done]; exact h0.recs
        · rw [take_prefix hpre h0.done]; exact h0.out
      · simp only [Server.put, hi, ↓reduceIte]; exact ⟨ih0, ih⟩
    | seeEnd j t hj hw hall hfin hsaw =>
      by_cases hi : i = j
      · subst hi
        refine ⟨fun h => by simp [Server.put] at h, fun t' ht => ?_⟩
        simp only [Server.put, ↓reduceIte, Option.some.injEq] at ht
        subst ht
        have h0 := ih t hj
        have hpre : t.acts c (setup i) <+: Task.acts c (setup i) { t with sawEnd := true } := by
          refine (serveActs_extend c (setup i).lim (setup i).env (setup i).log [] _ _ ?_ ?_).1
          · simp [Task.reader, hsaw]
          · simp [Task.reader, Reader.flat]
        refine ⟨h0.fetched, fun _ => ⟨hfin, hall⟩, Nat.le_trans h0.done hpre.length_le, ?_, ?_⟩
        · rw [take_prefix hpre h0.done]; exact h0.recs
        · rw [take_prefix hpre h0.done]; exact h0.out
      · simp only [Server.put, hi, ↓reduceIte]; exact ⟨ih0, ih⟩
    | log j t r hj hact =>
      by_cases hi : i = j
      · subst hi
        refine ⟨fun h => by simp [Server.put] at h, fun t' ht => ?_⟩
        simp only [Server.put, ↓reduceIte, Option.some.injEq] at ht
        subst ht
        have h0 := ih t hj
        have hlt := (List.getElem?_eq_some_iff.mp hact).1
        have hta : ((t.acts c (setup i)).take (t.done + 1)) = (t.acts c (setup i)).take t.done ++ [.log r] := by
          rw [List.take_add_one, hact]; rfl
        refine ⟨h0.fetched, h0.ended, hlt, ?_, ?_⟩
        · show ofConn i (s.queue ++ [(i, r)]) = recordsOf ((t.acts c (setup i)).take (t.done + 1))
          rw [ofConn_snoc, if_pos rfl, hta, recordsOf_append, h0.recs]; rfl
        · show s.wire i = answered ((t.acts c (setup i)).take (t.done + 1))
          rw [hta, answered_append, h0.out]; simp [answered]
      · simp only [Server.put, hi, ↓reduceIte]
        rw [ofConn_snoc, if_neg (fun h => hi h.symm)]
        exact ⟨ih0, ih⟩
    | answer j t b hj hact =>
      by_cases hi : i = j
      · subst hi
        refine ⟨fun h => by simp [Server.put] at h, fun t' ht => ?_⟩
        simp only [Server.put, ↓reduceIte, Option.some.injEq] at ht
        subst ht
        have h0 := ih t hj
        have hlt := (List.getElem?_eq_some_iff.mp hact).1
        have hta : ((t.acts c (setup i)).take (t.done + 1)) = (t.acts c (setup i)).take t.done ++ [.answer b] := by
          rw [List.take_add_one, hact]; rfl
        refine ⟨h0.fetched, h0.ended, hlt, ?_, ?_⟩
        · show ofConn i s.queue = recordsOf ((t.acts c (setup i)).take (t.done + 1))
          rw [hta, recordsOf_append, ← h0.recs]; simp [recordsOf]
        · show (if i = i then s.wire i ++ b else s.wire i) = answered ((t.acts c (setup i)).take (t.done + 1))
          rw [if_pos rfl, hta, answered_append, ← h0.out]; simp [answered]
      · simp only [Server.put, hi, ↓reduceIte]; exact ⟨ih0, ih⟩

/-- What a step of connection `i` changes. -/
def Server.upd (s : Server) (i : Nat) (t : Task) (w : Bytes) (q : List (Nat × Rec)) : Server :=
  ⟨fun j => if j = i then some t else s.task j, s.queue ++ q, fun j => if j = i then s.wire j ++ w else s.wire j⟩

theorem Server.put_upd (s : Server) (i : Nat) (t : Task) : s.put i t = s.upd i t [] [] := by simp [Server.put, Server.upd]

theorem Server.Step.frame {K : Type} {c : Codec K} {setup : Nat → Setup K} {s s1 : Server} {i : Nat} {a : ServerAct}
    (h : Server.Step c setup s (i, a) s1) : ∃ t w q, (∀ p ∈ q, p.1 = i) ∧
      (∀ s', s'.task i = s.task i → Server.Step c setup s' (i, a) (s'.upd i t w q)) ∧ s1 = s.upd i t w q := by
  cases h with
  | accept _ hj => exact ⟨_, [], [], by simp, fun s' he => by rw [← Server.put_upd]; exact .accept s' i (he.trans hj), Server.put_upd _ _ _⟩
  | send _ t g hj hf => exact ⟨_, [], [], by simp, fun s' he => by rw [← Server.put_upd]; exact .send s' i t g (he.trans hj) hf, Server.put_upd _ _ _⟩
  | finish _ t e hj hf hne =>
    exact ⟨_, [], [], by simp, fun s' he => by rw [← Server.put_upd]; exact .finish s' i t e (he.trans hj) hf hne, Server.put_upd _ _ _⟩
  | fetch _ t hj hw hlt =>
    exact ⟨_, [], [], by simp, fun s' he => by rw [← Server.put_upd]; exact .fetch s' i t (he.trans hj) hw hlt, Server.put_upd _ _ _⟩
  | seeEnd _ t hj hw hall hf hsaw =>
    exact ⟨_, [], [], by simp, fun s' he => by rw [← Server.put_upd]; exact .seeEnd s' i t (he.trans hj) hw hall hf hsaw, Server.put_upd _ _ _⟩
  | log _ t r hj hact =>
    refine ⟨{ t with done := t.done + 1 }, [], [(i, r)], by simp, fun s' he => ?_, by simp [Server.put, Server.upd]⟩
    have := Server.Step.log s' i t r (he.trans hj) hact
    simpa [Server.put, Server.upd] using this
  | answer _ t b hj hact =>
    refine ⟨{ t with done := t.done + 1 }, b, [], by simp, fun s' he => ?_, by simp [Server.put, Server.upd]⟩
    have := Server.Step.answer s' i t b (he.trans hj) hact
    simpa [Server.put, Server.upd] using this

/-- A turn of the task of connection `i`: it reads, learns of the end, or performs an act. -/
def isTurn (i : Nat) (a : Nat × ServerAct) : Bool := a.1 = i && (a.2 = .fetch || a.2 = .seeEnd || a.2 = .act)

theorem Server.Run.turns {K : Type} {c : Codec K} {setup : Nat → Setup K} {tr : List (Nat × ServerAct)} {s : Server} (h : Server.Run c setup tr s)
    (i : Nat) : (s.task i = none → tr.countP (isTurn i) = 0) ∧
      ∀ t, s.task i = some t →
        tr.countP (isTurn i) = t.fetched + t.sawEnd.toNat + t.done := by
  induction h with
  | nil => exact ⟨fun _ => rfl, fun t ht => by cases ht⟩
  | @snoc tr s s' a _ hs ih =>
    obtain ⟨ih0, ih⟩ := ih
    rw [List.countP_append]
    by_cases hi : a.1 = i
    · subst hi
      cases hs with
      | accept j hj => refine ⟨fun h => by simp [Server.put] at h, fun t ht => ?_⟩
                       simp only [Server.put, ↓reduceIte, Option.some.injEq] at ht; subst ht
                       rw [ih0 hj]; simp [isTurn, Task.new]
      | send j t g hj hf => refine ⟨fun h => by simp [Server.put] at h, fun t' ht => ?_⟩
                            simp only [Server.put, ↓reduceIte, Option.some.injEq] at ht; subst ht
                            rw [ih t hj]; simp [isTurn]
      | finish j t e hj hf hne => refine ⟨fun h => by simp [Server.put] at h, fun t' ht => ?_⟩
                                  simp only [Server.put, ↓reduceIte, Option.some.injEq] at ht; subst ht
                                  rw [ih t hj]; simp [isTurn]
      | fetch j t hj hw hlt => refine ⟨fun h => by simp [Server.put] at h, fun t' ht => ?_⟩
                               simp only [Server.put, ↓reduceIte, Option.some.injEq] at ht; subst ht
                               rw [ih t hj]; simp [isTurn]; omega
      | seeEnd j t hj hw hall hf hsaw => refine ⟨fun h => by simp [Server.put] at h, fun t' ht => ?_⟩
                                         simp only [Server.put, ↓reduceIte, Option.some.injEq] at ht; subst ht
                                         rw [ih t hj]; simp [isTurn, hsaw]; omega
      | log j t r hj hact => refine ⟨fun h => by simp [Server.put] at h, fun t' ht => ?_⟩
                             simp only [Server.put, ↓reduceIte, Option.some.injEq] at ht; subst ht
                             rw [ih t hj]; simp [isTurn]; omega
      | answer j t b hj hact => refine ⟨fun h => by simp [Server.put] at h, fun t' ht => ?_⟩
                                simp only [Server.put, ↓reduceIte, Option.some.injEq] at ht; subst ht
                                rw [ih t hj]; simp [isTurn]; omega
    · have h0 : [a].countP (isTurn i) = 0 := by simp [isTurn, hi]
      obtain ⟨t, w, q, _, _, rfl⟩ := Server.Step.frame (i := a.1) (a := a.2) hs
      rw [h0]
      have hai : i ≠ a.1 := fun h => hi h.symm
      simp only [Server.upd, hai, ↓reduceIte]
      exact ⟨ih0, ih⟩

/-! ## C206 -/

/-- **C206.** Whatever the other connections do and however the tasks take turns: what was written to a client, and what was logged about its connection,
is at every moment a beginning of what `serve` does for all the bytes that have arrived from this client; and when the task has no step to do, it is all
of it: the answers are those of `serve` and the records those of `serveLog`. -/
theorem C206_as_if_alone {K : Type} (c : Codec K) (setup : Nat → Setup K) (tr : List (Nat × ServerAct)) (s : Server) (h : Server.Run c setup tr s)
    (i : Nat) (t : Task) (ht : s.task i = some t) :
    (∃ p, p <+: serveActs c (setup i).lim (setup i).env (setup i).log t.all ∧ s.wire i = answered p ∧ ofConn i s.queue = recordsOf p) ∧
    ((∀ a s', a = .fetch ∨ a = .seeEnd ∨ a = .act → ¬ Server.Step c setup s (i, a) s') →
      s.wire i = ((serve c (setup i).lim (setup i).env t.all).1.map (·.written)).flatten ∧
      ofConn i s.queue = serveLog c (setup i).lim (setup i).env (setup i).log t.all) := by
  have h0 := (h.inv i).2 t ht
  obtain ⟨h1, h2⟩ := Task.acts_all h0
  refine ⟨⟨_, (List.take_prefix _ _).trans h1, h0.out, h0.recs⟩, fun hno => ?_⟩
  have hdone : t.done = (t.acts c (setup i)).length := by
    refine Nat.le_antisymm h0.done (Nat.not_lt.mp fun hlt => ?_)
    cases ha : (t.acts c (setup i))[t.done] with
    | log r => exact hno .act _ (by simp) (.log s i t r ht (by rw [List.getElem?_eq_getElem hlt, ha]))
    | answer b => exact hno .act _ (by simp) (.answer s i t b ht (by rw [List.getElem?_eq_getElem hlt, ha]))
  have hall : t.acts c (setup i) = serveActs c (setup i).lim (setup i).env (setup i).log t.all := by
    by_cases hw : (serve c (setup i).lim (setup i).env t.reader).2 = .waiting
    · have hf : t.fetched = t.arrived.length := by
        refine Nat.le_antisymm h0.fetched (Nat.not_lt.mp fun hlt => ?_)
        exact hno .fetch _ (by simp) (.fetch s i t ht ⟨hdone, hw⟩ hlt)
      have he : t.reader = t.all := by
        cases hsaw : t.sawEnd with
        | true => simp only [Task.reader, Task.all, hsaw, ↓reduceIte, hf, List.take_length]
        | false =>
          by_cases hfin : t.fin = .silent
          · simp [Task.reader, Task.all, hsaw, hf, hfin]
          · exact absurd (.seeEnd s i t ht ⟨hdone, hw⟩ hf hfin hsaw) (hno .seeEnd _ (by simp))
      rw [Task.acts, he]
    · exact (h2 hw).symm
  obtain ⟨e1, e2⟩ := serveActs_spec c (setup i).lim (setup i).env (setup i).log t.all
  have hr := h0.recs
  have ho := h0.out
  rw [hdone, List.take_length, hall] at hr ho
  exact ⟨ho.trans e2, hr.trans e1⟩

/-- **C206.** Leaving out everything that happened on the other connections leaves a run of the process in which this connection gets the same answers
and logs the same. -/
theorem C206_others_left_out {K : Type} (c : Codec K) (setup : Nat → Setup K) (tr : List (Nat × ServerAct)) (s : Server) (h : Server.Run c setup tr s)
    (i : Nat) : ∃ s', Server.Run c setup (tr.filter (fun a => a.1 = i)) s' ∧ s'.task i = s.task i ∧ s'.wire i = s.wire i ∧
      s'.queue = s.queue.filter (fun p => p.1 = i) ∧ ∀ j, j ≠ i → s'.task j = none := by
  induction h with
  | nil => exact ⟨_, .nil, rfl, rfl, rfl, fun _ _ => rfl⟩
  | @snoc tr s s1 a _ hs ih =>
    obtain ⟨s', hrun, h1, h2, h3, h4⟩ := ih
    by_cases ha : a.1 = i
    · have key : ∀ s2, Server.Step c setup s' a s2 → s2.task i = s1.task i → s2.wire i = s1.wire i →
          s2.queue = s1.queue.filter (fun p => p.1 = i) → (∀ j, j ≠ i → s2.task j = none) → _ := fun s2 k1 k2 k3 k4 k5 =>
        (⟨s2, by rw [List.filter_append, List.filter_cons_of_pos (by simpa using ha)]; exact .snoc hrun k1, k2, k3, k4, k5⟩ :
          ∃ s', Server.Run c setup ((tr ++ [a]).filter (fun a => a.1 = i)) s' ∧ s'.task i = s1.task i ∧ s'.wire i = s1.wire i ∧
            s'.queue = s1.queue.filter (fun p => p.1 = i) ∧ ∀ j, j ≠ i → s'.task j = none)
      have hput : ∀ t j, j ≠ i → (s'.put i t).task j = none := by
        intro t j hj
        simp only [Server.put, hj, ↓reduceIte]
        exact h4 j hj
      cases hs with
      | accept j hj => subst ha; exact key _ (.accept s' j (h1.trans hj)) (by simp [Server.put]) h2 h3 (hput _)
      | send j t g hj hf => subst ha; exact key _ (.send s' j t g (h1.trans hj) hf) (by simp [Server.put]) h2 h3 (hput _)
      | finish j t e hj hf hne => subst ha; exact key _ (.finish s' j t e (h1.trans hj) hf hne) (by simp [Server.put]) h2 h3 (hput _)
      | fetch j t hj hw hlt => subst ha; exact key _ (.fetch s' j t (h1.trans hj) hw hlt) (by simp [Server.put]) h2 h3 (hput _)
      | seeEnd j t hj hw hall hf hsaw => subst ha; exact key _ (.seeEnd s' j t (h1.trans hj) hw hall hf hsaw) (by simp [Server.put]) h2 h3 (hput _)
      | log j t r hj hact =>
        subst ha
        exact key _ (.log s' j t r (h1.trans hj) hact) (by simp [Server.put]) h2 (by simp [h3]) (hput _)
      | answer j t b hj hact =>
        subst ha
        exact key _ (.answer s' j t b (h1.trans hj) hact) (by simp [Server.put]) (by simp [h2]) h3 (hput _)
    · refine ⟨s', by rw [List.filter_append, List.filter_cons_of_neg (by simpa using ha)]; simpa using hrun, ?_, ?_, ?_, h4⟩ <;>
        (have hai : i ≠ a.1 := fun h => ha h.symm
         cases hs <;> simp_all [Server.put])

/-- **C206.** A step of one connection is neither made possible nor impossible by a step of another: two steps of different connections can be
made in either order, and what becomes of every connection is the same. -/
theorem C206_any_order {K : Type} (c : Codec K) (setup : Nat → Setup K) (s s1 s2 : Server) (i j : Nat) (a b : ServerAct) (hij : i ≠ j)
    (h1 : Server.Step c setup s (i, a) s1) (h2 : Server.Step c setup s1 (j, b) s2) :
    ∃ s1' s2', Server.Step c setup s (j, b) s1' ∧ Server.Step c setup s1' (i, a) s2' ∧ s2'.task = s2.task ∧ s2'.wire = s2.wire ∧
      ∀ k, ofConn k s2'.queue = ofConn k s2.queue := by
  obtain ⟨t, w, q, hq, hs, rfl⟩ := h1.frame
  obtain ⟨t', w', q', hq', hs', rfl⟩ := h2.frame
  have hji : j ≠ i := fun h => hij h.symm
  refine ⟨_, _, hs' s (by simp [Server.upd, hji]), hs _ (by simp [Server.upd, hij]), ?_, ?_, fun k => ?_⟩
  · funext k
    simp only [Server.upd]
    by_cases h1 : k = i
    · subst h1; simp [hij]
    · simp [h1]
  · funext k
    simp only [Server.upd]
    by_cases h1 : k = i
    · subst h1; simp [hij]
    · simp [h1]
  · simp only [Server.upd, ofConn, List.filter_append, List.map_append, List.append_assoc]
    by_cases h1 : k = i
    · have : q'.filter (fun p => p.1 = k) = [] := List.filter_eq_nil_iff.mpr fun p hp => by simp [hq' p hp, h1, hji]
      simp [this]
    · have : q.filter (fun p => p.1 = k) = [] := List.filter_eq_nil_iff.mpr fun p hp => by simp [hq p hp]; exact fun h => h1 h.symm
      simp [this]

/-- **C206.** A connection needs a bounded number of turns, whatever the others do: one for every segment, one for the end of the stream, and one for every
record and answer. -/
theorem C206_turns {K : Type} (c : Codec K) (setup : Nat → Setup K) (tr : List (Nat × ServerAct)) (s : Server) (h : Server.Run c setup tr s)
    (i : Nat) (t : Task) (ht : s.task i = some t) :
    tr.countP (isTurn i) ≤
      t.arrived.length + 1 + (serveActs c (setup i).lim (setup i).env (setup i).log t.all).length := by
  have h0 := (h.inv i).2 t ht
  have h1 := (Task.acts_all h0).1.length_le
  have h2 := h0.fetched
  have h3 := h0.done
  have h4 := (h.turns i).2 t ht
  have h5 : t.sawEnd.toNat ≤ 1 := Bool.toNat_le _
  rw [h4]
  omega

theorem Server.Step.turn {K : Type} {c : Codec K} {setup : Nat → Setup K} {s s' : Server} {i : Nat} {a : ServerAct} {t : Task}
    (h : Server.Step c setup s (i, a) s') (ha : a = .fetch ∨ a = .seeEnd ∨ a = .act) (ht : s.task i = some t) :
    ∃ t', s'.task i = some t' ∧ t'.arrived = t.arrived ∧ t'.all = t.all := by
  cases h with
  | accept _ _ => rcases ha with h | h | h <;> cases h
  | send _ _ _ _ _ => rcases ha with h | h | h <;> cases h
  | finish _ _ _ _ _ _ => rcases ha with h | h | h <;> cases h
  | fetch _ t0 h0 => cases h0.symm.trans ht; exact ⟨_, if_pos rfl, rfl, rfl⟩
  | seeEnd _ t0 h0 => cases h0.symm.trans ht; exact ⟨_, if_pos rfl, rfl, rfl⟩
  | log _ t0 _ h0 => cases h0.symm.trans ht; exact ⟨_, if_pos rfl, rfl, rfl⟩
  | answer _ t0 _ h0 => cases h0.symm.trans ht; exact ⟨_, if_pos rfl, rfl, rfl⟩

theorem Server.Run.finish_turns {K : Type} {c : Codec K} {setup : Nat → Setup K} {tr : List (Nat × ServerAct)} {s : Server} (h : Server.Run c setup tr s)
    (i : Nat) (t : Task) (ht : s.task i = some t) :
    ∃ tr' s' t', (∀ a ∈ tr', isTurn i a = true) ∧ Server.Run c setup (tr ++ tr') s' ∧
      s'.task i = some t' ∧ t'.arrived = t.arrived ∧ t'.all = t.all ∧
      ∀ a s'', a = .fetch ∨ a = .seeEnd ∨ a = .act → ¬ Server.Step c setup s' (i, a) s'' := by
  generalize hn : t.arrived.length + 1 + (serveActs c (setup i).lim (setup i).env (setup i).log t.all).length - tr.countP (isTurn i) = n
  induction n generalizing tr s t with
  | zero =>
    refine ⟨[], s, t, fun _ h => (by cases h), by simpa using h, ht, rfl, rfl, fun a s' ha hs => ?_⟩
    have h1 := C206_turns c setup _ s' (.snoc h hs) i
    obtain ⟨t', h2, h3, h4⟩ := hs.turn ha ht
    have h5 := h1 t' h2
    have h6 : [(i, a)].countP (isTurn i) = 1 := by rcases ha with rfl | rfl | rfl <;> simp [isTurn]
    rw [List.countP_append, h6, h3, h4] at h5
    omega
  | succ n ih =>
    by_cases hno : ∀ a s', a = .fetch ∨ a = .seeEnd ∨ a = .act → ¬ Server.Step c setup s (i, a) s'
    · exact ⟨[], s, t, fun _ h => (by cases h), by simpa using h, ht, rfl, rfl, hno⟩
    · obtain ⟨a, hno⟩ := Classical.not_forall.mp hno
      obtain ⟨s1, hno⟩ := Classical.not_forall.mp hno
      obtain ⟨ha, hs⟩ := Classical.not_imp.mp hno
      have hs := Classical.not_not.mp hs
      obtain ⟨t', h2, h3, h4⟩ := hs.turn ha ht
      have h6 : [(i, a)].countP (isTurn i) = 1 := by rcases ha with rfl | rfl | rfl <;> simp [isTurn]
      have ha' : isTurn i (i, a) = true := by rcases ha with rfl | rfl | rfl <;> simp [isTurn]
      obtain ⟨tr', s', t2, k1, k2, k3, k4, k5, k6⟩ := ih (.snoc h hs) t' h2 (by
        rw [List.countP_append, h6, h3, h4]
        omega)
      refine ⟨(i, a) :: tr', s', t2, ?_, by simpa using k2, k3, k4.trans h3, k5.trans h4, k6⟩
      rw [List.forall_mem_cons]; exact ⟨ha', k1⟩

/-- **C206.** A connection never has to wait for another: in whatever state the process is, turns of this connection alone complete what is to be done for what has
arrived from its client; afterwards its client has been sent everything that `serve` answers, and all records have been logged. -/
theorem C206_finishes {K : Type} (c : Codec K) (setup : Nat → Setup K) (tr : List (Nat × ServerAct)) (s : Server) (h : Server.Run c setup tr s)
    (i : Nat) (t : Task) (ht : s.task i = some t) :
    ∃ tr' s', (∀ a ∈ tr', isTurn i a = true) ∧ Server.Run c setup (tr ++ tr') s' ∧
      tr'.length ≤ t.arrived.length + 1 + (serveActs c (setup i).lim (setup i).env (setup i).log t.all).length ∧
      s'.wire i = ((serve c (setup i).lim (setup i).env t.all).1.map (·.written)).flatten ∧
      ofConn i s'.queue = serveLog c (setup i).lim (setup i).env (setup i).log t.all := by
  obtain ⟨tr', s', t', k1, k2, k3, k4, k5, k6⟩ := h.finish_turns i t ht
  have h1 := C206_turns c setup _ s' k2 i t' k3
  have h2 := (C206_as_if_alone c setup _ s' k2 i t' k3).2 k6
  rw [k5] at h1 h2
  rw [k4, List.countP_append, List.countP_eq_length.mpr k1] at h1
  exact ⟨tr', s', k1, k2, by omega, h2⟩

/-- **C206**, for the hello-world service: while any other clients of this or other services do whatever they like, a client that sends well-formed requests (none
with major version 0) is sent a beginning of the answers of `helloText` to its requests, and all of them as soon as its task has had its turns. -/
theorem C206_hello {K : Type} (c : Codec K) (setup : Nat → Setup K) (tr : List (Nat × ServerAct)) (s : Server) (h : Server.Run c setup tr s)
    (i : Nat) (t : Task) (ht : s.task i = some t) (he : ∀ j, ((setup i).env j).http = helloHttp ∧ ((setup i).env j).write = .ok)
    (qs : List WireReq) (hq : ∀ q ∈ qs, q.WF (setup i).lim.maxUrl (setup i).lim.maxHeaderLine (setup i).lim.maxHeadersCount)
    (hopen : ∀ q ∈ qs, ¬ helloCloses q.head.w2) (hsent : (t.arrived.map Seg.bytes).flatten = encodeAll qs) :
    s.wire i <+: (qs.mapIdx (fun j q => helloText q.head.w2 j)).flatten ∧
    ∃ tr' s', (∀ a ∈ tr', isTurn i a = true) ∧ Server.Run c setup (tr ++ tr') s' ∧
      s'.wire i = (qs.mapIdx (fun j q => helloText q.head.w2 j)).flatten := by
  have hf : t.all.flat = encodeAll qs := by simpa [Task.all, Reader.flat] using hsent
  have h78 := ((C78_hello_transcript c (setup i).lim (setup i).env he qs hq hopen t.all).1 hf).1
  refine ⟨?_, ?_⟩
  · obtain ⟨p, ⟨q, hp⟩, h1, _⟩ := (C206_as_if_alone c setup tr s h i t ht).1
    have := (serveActs_spec c (setup i).lim (setup i).env (setup i).log t.all).2
    rw [← hp, answered_append, h78] at this
    rw [h1, ← this]
    exact List.prefix_append _ _
  · obtain ⟨tr', s', k1, k2, _, k4, _⟩ := C206_finishes c setup tr s h i t ht
    exact ⟨tr', s', k1, k2, by rw [k4, h78]⟩

/-- The steps as a function. -/
def Server.step? {K : Type} (c : Codec K) (setup : Nat → Setup K) (s : Server) (a : Nat × ServerAct) : Option Server :=
  match a.2, s.task a.1 with
  | .accept, none => some (s.put a.1 Task.new)
  | .send g, some t => if t.fin = .silent then some (s.put a.1 { t with arrived := t.arrived ++ [g] }) else none
  | .finish e, some t => if t.fin = .silent ∧ e ≠ .silent then some (s.put a.1 { t with fin := e }) else none
  | .fetch, some t =>
    if (t.done = (t.acts c (setup a.1)).length ∧ (serve c (setup a.1).lim (setup a.1).env t.reader).2 = .waiting) ∧ t.fetched < t.arrived.length
    then some (s.put a.1 { t with fetched := t.fetched + 1 }) else none
  | .seeEnd, some t =>
    if (t.done = (t.acts c (setup a.1)).length ∧ (serve c (setup a.1).lim (setup a.1).env t.reader).2 = .waiting) ∧
      t.fetched = t.arrived.length ∧ t.fin ≠ .silent ∧ t.sawEnd = false
    then some (s.put a.1 { t with sawEnd := true }) else none
  | .act, some t =>
    match (t.acts c (setup a.1))[t.done]? with
    | some (.log r) => some { s.put a.1 { t with done := t.done + 1 } with queue := s.queue ++ [(a.1, r)] }
    | some (.answer b) => some { s.put a.1 { t with done := t.done + 1 } with wire := fun j => if j = a.1 then s.wire j ++ b else s.wire j }
    | none => none
  | _, _ => none

theorem Server.step?_sound {K : Type} {c : Codec K} {setup : Nat → Setup K} {s s' : Server} {a : Nat × ServerAct}
    (h : s.step? c setup a = some s') : Server.Step c setup s a s' := by
  obtain ⟨i, a⟩ := a
  unfold Server.step? at h
  simp only at h
  split at h
  · cases h; exact .accept s i ‹_›
  · split at h
    · cases h; exact .send s i _ _ ‹_› ‹_›
    · cases h
  · split at h
    · rename_i hc; cases h; exact .finish s i _ _ ‹_› hc.1 hc.2
    · cases h
  · split at h
    · rename_i hc; cases h; exact .fetch s i _ ‹_› hc.1 hc.2
    · cases h
  · split at h
    · rename_i hc; cases h; exact .seeEnd s i _ ‹_› hc.1 hc.2.1 hc.2.2.1 hc.2.2.2
    · cases h
  · split at h
    · cases h; exact .log s i _ _ ‹_› ‹_›
    · cases h; exact .answer s i _ _ ‹_› ‹_›
    · cases h
  · cases h

/-- Many of them. -/
def Server.run? {K : Type} (c : Codec K) (setup : Nat → Setup K) : Server → List (Nat × ServerAct) → Option Server
  | s, [] => some s
  | s, a :: tr => match s.step? c setup a with
    | some s' => Server.run? c setup s' tr
    | none => none

theorem Server.run?_sound {K : Type} {c : Codec K} {setup : Nat → Setup K} {tr tr' : List (Nat × ServerAct)} {s s' : Server}
    (h0 : Server.Run c setup tr' s) (h : s.run? c setup tr = some s') : Server.Run c setup (tr' ++ tr) s' := by
  induction tr generalizing s tr' with
  | nil => cases h; simpa using h0
  | cons a tr ih =>
    unfold Server.run? at h
    split at h
    · rename_i s1 h1
      have := ih (.snoc h0 (Server.step?_sound h1)) h
      simpa using this
    · cases h

/-- C206: a run in which two clients send half a request each, turn by turn, and the first one is answered after the second one was refused. -/
def twoClients : List (Nat × ServerAct) :=
  [(0, .accept), (1, .accept), (0, .act), (1, .act), (0, .send ⟨71, b!"ET / HTTP/1.1\r\nHost"⟩), (1, .send ⟨71, b!"ET /\n"⟩), (0, .fetch), (1, .fetch),
   (1, .finish .eof), (0, .send ⟨58, b!" h\r\n\r\n"⟩), (1, .seeEnd), (1, .act), (1, .act), (0, .fetch), (0, .act), (0, .act)]

def twoSetup : Nat → Setup Unit := fun i =>
  ⟨sampleLimits, fun _ => { sampleEnv with http := helloHttp }, { sampleLog with addr := if i = 0 then b!"10.0.0.1:1" else b!"10.0.0.2:2" }⟩

/-- C206: it is a run; the log has the records of the two connections mixed, and each client has its own answer or none. -/
example : ∃ s, Server.Run noCodec twoSetup twoClients s ∧
    s.queue.map (fun p => (p.1, p.2.msg)) =
      [(0, b!"connection made, 10.0.0.1:1"), (1, b!"connection made, 10.0.0.2:2"), (1, b!"read request header failed, BadDatagram"),
       (1, b!"connection lost, 10.0.0.2:2"), (0, b!"Request From 127.0.0.1:5000"), (0, b!"GET / Ok((1, 1))")] ∧
    s.wire 1 = [] ∧ (s.task 0).isSome = true ∧ (s.task 1).isSome = true := by
  have h : ((Server.start.run? noCodec twoSetup twoClients).map fun s =>
      (s.queue.map (fun p => (p.1, p.2.msg)), s.wire 1, (s.task 0).isSome, (s.task 1).isSome)) =
      some ([(0, b!"connection made, 10.0.0.1:1"), (1, b!"connection made, 10.0.0.2:2"), (1, b!"read request header failed, BadDatagram"),
       (1, b!"connection lost, 10.0.0.2:2"), (0, b!"Request From 127.0.0.1:5000"), (0, b!"GET / Ok((1, 1))")], [], true, true) := by
    decide +kernel
  cases hs : Server.start.run? noCodec twoSetup twoClients with
  | none => rw [hs] at h; cases h
  | some s =>
    rw [hs] at h
    simp only [Option.map_some, Option.some.injEq, Prod.mk.injEq] at h
    exact ⟨s, Server.run?_sound .nil hs, h⟩

end Httpd
