import Verif.Model.LogChain
import Verif.Props.Logging
import Verif.Props.Appender
import Verif.Props.ConnLog
/-!
# C171: from a connection to its log file
-/

namespace Httpd

open Spec MultiMap

/-! ## The calls of one appender -/

/-- The calls made on one appender. -/
def callsOn (i : Nat) (calls : List (Nat × FileCall)) : List FileCall := (calls.filter (fun c => c.1 = i)).map (·.2)

/-- Calls as in `Spec/Appender`. -/
def FileCall.op : FileCall → FileOp
  | .write b => .write b
  | .flush => .flush

theorem callsOn_append (i : Nat) (a b : List (Nat × FileCall)) : callsOn i (a ++ b) = callsOn i a ++ callsOn i b := by
  simp [callsOn]

/-- Does the appender want the record? -/
def AppenderInit.Wants (a : AppenderInit) (item : Item) : Bool := a.service = item.service && a.filter.filter item.level

theorem range_filter_eq (n i : Nat) (h : i < n) : (List.range n).filter (fun j => j = i) = [i] := by
  induction n with
  | zero => omega
  | succ n ih =>
    rw [List.range_succ, List.filter_append]
    by_cases hi : i < n
    · rw [ih hi]
      have : ¬ n = i := by omega
      simp [this]
    · have : n = i := by omega
      subst this
      have : (List.range n).filter (fun j => decide (j = n)) = [] := by
        rw [List.filter_eq_nil_iff]
        intro j hj
        have := List.mem_range.mp hj
        simp; omega
      simp [this]

theorem wanted_one (as : List AppenderInit) (i : Nat) (a : AppenderInit) (ha : as[i]? = some a) (item : Item) :
    (wanted (as.map (·.appender)) item).filter (fun j => j = i) = if a.Wants item then [i] else [] := by
  have hlt : i < as.length := (List.getElem?_eq_some_iff.mp ha).1
  unfold wanted
  rw [List.filter_filter]
  rw [List.filter_congr (q := fun j => a.Wants item && decide (j = i))]
  · cases a.Wants item with
    | true => simp only [Bool.true_and, if_true, List.length_map]; exact range_filter_eq _ _ hlt
    | false => simp
  · intro j _
    by_cases hj : j = i
    · subst hj
      simp [ha, AppenderInit.appender, AppenderInit.Wants]
    · simp [hj]

/-- The line of a record for this appender: coloured for a console, JSON for a file. -/
def AppenderInit.lineFor (a : AppenderInit) (item : Item) : Bytes := if a.path = none then colorRender .default item else jsonRender item

/-- What is written for one record to one appender. -/
theorem writes_one (as : List AppenderInit) (i : Nat) (a : AppenderInit) (ha : as[i]? = some a) (item : Item)
    (w : Writes) (h1 : w.map (·.1) = wanted (as.map (·.appender)) item)
    (h2 : ∀ x ∈ w, ∃ a ∈ as, as[x.1]? = some a ∧ x.2 = if a.path = none then colorRender .default item else jsonRender item) :
    callsOn i (w.map (fun x => (x.1, FileCall.write x.2))) = if a.Wants item then [.write (a.lineFor item)] else [] := by
  have e1 : callsOn i (w.map (fun x => (x.1, FileCall.write x.2))) = (w.filter (fun x => x.1 = i)).map (fun x => FileCall.write x.2) := by
    unfold callsOn
    clear h1 h2
    induction w with
    | nil => rfl
    | cons x w ih => by_cases hx : x.1 = i <;> simp [hx] at ih ⊢ <;> exact ih
  have e2 : (w.filter (fun x => x.1 = i)).map (·.1) = if a.Wants item then [i] else [] := by
    rw [← wanted_one as i a ha item, ← h1, List.filter_map]
    rfl
  have e3 : ∀ x ∈ w.filter (fun x => x.1 = i), x.2 = a.lineFor item := by
    intro x hx
    obtain ⟨hxw, hxi⟩ := List.mem_filter.mp hx
    have hxi : x.1 = i := by simpa using hxi
    obtain ⟨a', _, ha', hr⟩ := h2 x hxw
    rw [hxi, ha] at ha'
    cases ha'
    exact hr
  rw [e1]
  generalize w.filter (fun x => decide (x.1 = i)) = v at e2 e3
  by_cases hw : a.Wants item = true
  · rw [if_pos hw] at e2 ⊢
    match v, e2, e3 with
    | [x], _, e3 => simp [e3 x (by simp)]
  · rw [if_neg hw] at e2 ⊢
    rw [List.map_eq_nil_iff.mp e2]; rfl

/-- The calls of a run, from what is written for each record. -/
theorem calls_handleAll (k : Consumer) (tr : List (Log.Act Item)) (bufs : List Bytes) (ws : List Writes)
    (h : k.handleAll ((Log.Spec.writes tr).map (·.2)) bufs = some ws) (i : Nat) (hi : i < k.appenders.length)
    (f : Item → List FileCall)
    (hw : Each2 (fun item w => callsOn i (w.map (fun x => (x.1, FileCall.write x.2))) = f item) ((Log.Spec.writes tr).map (·.2)) ws) :
    ∃ calls, k.calls tr bufs = some calls ∧
      (callsOn i calls) = tr.flatMap (fun act => match act with
        | .write _ item => f item
        | .flush => [.flush]
        | _ => []) := by
  induction tr generalizing bufs ws with
  | nil => exact ⟨[], rfl, rfl⟩
  | cons act tr ih =>
    cases act with
    | write t item =>
      simp only [Log.Spec.writes, List.map_cons, Consumer.handleAll] at h hw
      cases hh : k.handle item bufs with
      | none => rw [hh] at h; simp at h
      | some r =>
        obtain ⟨bufs', w⟩ := r
        rw [hh] at h
        simp only [Option.bind_some, Option.map_eq_some_iff] at h
        obtain ⟨ws', h', rfl⟩ := h
        cases hw with
        | cons h1 h2 =>
          obtain ⟨calls, c1, c2⟩ := ih bufs' ws' h' h2
          refine ⟨_, by simp only [Consumer.calls, hh, c1, Option.map_some]; rfl, ?_⟩
          rw [callsOn_append, h1, c2]
          simp
    | flush =>
      obtain ⟨calls, c1, c2⟩ := ih bufs ws h hw
      refine ⟨_, by simp only [Consumer.calls, c1, Option.map_some]; rfl, ?_⟩
      rw [callsOn_append, c2]
      have : callsOn i ((List.range k.appenders.length).map (fun j => (j, FileCall.flush))) = [.flush] := by
        unfold callsOn
        rw [List.filter_map, List.map_map]
        have e : ((fun c : Nat × FileCall => decide (c.1 = i)) ∘ fun j => (j, FileCall.flush)) = fun j => decide (j = i) := rfl
        rw [e, range_filter_eq _ _ hi]
        rfl
      rw [this]
      simp
    | _ =>
      obtain ⟨calls, c1, c2⟩ := ih bufs ws h hw
      exact ⟨calls, c1, by rw [c2]; simp⟩

theorem each2_and {α β : Type} {P Q : α → β → Prop} {l : List α} {m : List β} (h1 : Each2 P l m) (h2 : Each2 Q l m) :
    Each2 (fun a b => P a b ∧ Q a b) l m := by
  induction h1 with
  | nil => exact .nil
  | cons p _ ih => cases h2 with | cons q h2 => exact .cons ⟨p, q⟩ (ih h2)

theorem each2_imp {α β : Type} {P Q : α → β → Prop} (f : ∀ a b, P a b → Q a b) {l : List α} {m : List β} (h : Each2 P l m) : Each2 Q l m := by
  induction h with
  | nil => exact .nil
  | cons p _ ih => exact .cons (f _ _ p) ih

/-- The calls an appender gets in a run. -/
theorem calls_any {U : Unicode} (hU : LawfulUnicode U) (pathExists openOk : Str → Bool) (order : List Str → List Str)
    (horder : ∀ l, (order l).Perm l) (c c' : Config) (hslab : c.slab = []) (hfix : c.autofix pathExists = some c')
    (as : List AppenderInit) (has : c'.appenders openOk = some as) (k : Consumer) (l : Level)
    (hk : c'.startLogging U openOk order true = .value (k, l)) (tr : List (Log.Act Item))
    (hd : ∀ p ∈ Log.Spec.writes tr, Deliverable as p.2) :
    ∃ calls, k.calls tr k.bufs = some calls ∧ ∀ i a, as[i]? = some a →
      (callsOn i calls).map FileCall.op = Log.fileOps a.Wants a.lineFor tr := by
  have hd' : ∀ item ∈ (Log.Spec.writes tr).map (·.2), Deliverable as item := by
    intro item hi
    obtain ⟨p, hp, rfl⟩ := List.mem_map.mp hi
    exact hd p hp
  obtain ⟨ws, e1, e2⟩ := C61_delivered_partial hU pathExists openOk order horder c c' hslab hfix as has k l hk _ hd'
  obtain ⟨ws', e1', e3⟩ := C62_rendering_partial hU pathExists openOk order horder c c' hslab hfix as has k l hk _ hd'
  rw [e1] at e1'
  cases e1'
  have hlen : k.appenders.length = as.length := by
    have hne : as ≠ [] := by
      rintro rfl
      rw [(start_spec hU pathExists openOk order horder c c' hslab hfix true).2.1 [] has rfl] at hk
      cases hk
    obtain ⟨k', hk', _, happ, _⟩ := (start_spec hU pathExists openOk order horder c c' hslab hfix true).2.2.2 as has hne rfl
    rw [hk] at hk'
    simp only [Started.value.injEq, Prod.mk.injEq] at hk'
    obtain ⟨rfl, _⟩ := hk'
    rw [happ, List.length_map]
  have hone : ∀ i a, as[i]? = some a →
      ∃ calls, k.calls tr k.bufs = some calls ∧ (callsOn i calls).map FileCall.op = Log.fileOps a.Wants a.lineFor tr := by
    intro i a ha
    have hlt : i < as.length := (List.getElem?_eq_some_iff.mp ha).1
    obtain ⟨calls, c1, c2⟩ := calls_handleAll k tr k.bufs ws e1 i (by omega)
      (fun item => if a.Wants item then [.write (a.lineFor item)] else [])
      (each2_imp (fun item w hh => writes_one as i a ha item w hh.1.1 hh.2) (each2_and e2 e3))
    refine ⟨calls, c1, ?_⟩
    rw [c2]
    clear c1 c2 e1 e2 e3 hd hd'
    induction tr with
    | nil => rfl
    | cons act tr ih =>
      cases act with
      | write t item =>
        simp only [List.flatMap_cons, List.map_append, Log.fileOps, ih]
        by_cases hw : a.Wants item = true <;> simp [hw, FileCall.op]
      | flush => simp only [List.flatMap_cons, List.map_append, Log.fileOps, ih]; rfl
      | _ => simpa only [List.flatMap_cons, List.nil_append, Log.fileOps] using ih
  have hcalls : ∃ calls, k.calls tr k.bufs = some calls := by
    have gen : ∀ (tr : List (Log.Act Item)) (bufs : List Bytes) (ws : List Writes),
        k.handleAll ((Log.Spec.writes tr).map (·.2)) bufs = some ws → ∃ calls, k.calls tr bufs = some calls := by
      intro tr
      induction tr with
      | nil => intro bufs ws _; exact ⟨[], rfl⟩
      | cons act tr ih =>
        intro bufs ws h
        cases act with
        | write t item =>
          simp only [Log.Spec.writes, List.map_cons, Consumer.handleAll] at h
          cases hh : k.handle item bufs with
          | none => rw [hh] at h; simp at h
          | some r =>
            rw [hh] at h
            simp only [Option.bind_some, Option.map_eq_some_iff] at h
            obtain ⟨ws', h', _⟩ := h
            obtain ⟨calls, hc⟩ := ih r.1 ws' h'
            exact ⟨_, by simp only [Consumer.calls, hh, hc, Option.map_some]; rfl⟩
        | flush =>
          obtain ⟨calls, hc⟩ := ih bufs ws h
          exact ⟨_, by simp only [Consumer.calls, hc, Option.map_some]; rfl⟩
        | _ => exact ih bufs ws h
    exact gen tr k.bufs ws e1
  obtain ⟨calls, hc⟩ := hcalls
  refine ⟨calls, hc, ?_⟩
  intro i a ha
  obtain ⟨calls', c1, c2⟩ := hone i a ha
  rw [hc] at c1
  cases c1
  exact c2

/-- The calls a file appender gets in a run. -/
theorem calls_eq {U : Unicode} (hU : LawfulUnicode U) (pathExists openOk : Str → Bool) (order : List Str → List Str)
    (horder : ∀ l, (order l).Perm l) (c c' : Config) (hslab : c.slab = []) (hfix : c.autofix pathExists = some c')
    (as : List AppenderInit) (has : c'.appenders openOk = some as) (k : Consumer) (l : Level)
    (hk : c'.startLogging U openOk order true = .value (k, l)) (tr : List (Log.Act Item))
    (hd : ∀ p ∈ Log.Spec.writes tr, Deliverable as p.2) :
    ∃ calls, k.calls tr k.bufs = some calls ∧ ∀ i a, as[i]? = some a → a.path ≠ none →
      (callsOn i calls).map FileCall.op = Log.fileOps a.Wants jsonRender tr := by
  obtain ⟨calls, c1, c2⟩ := calls_any hU pathExists openOk order horder c c' hslab hfix as has k l hk tr hd
  refine ⟨calls, c1, fun i a ha hp => ?_⟩
  rw [c2 i a ha]
  have : a.lineFor = jsonRender := by funext item; simp [AppenderInit.lineFor, hp]
  rw [this]

/-! ## Many files on one disk -/

/-- Appender `i` has the file `ino`, and no other appender has. -/
def Apart (i ino : Nat) (ws : List (Option OpenLog)) : Prop :=
  (∃ o, ws[i]? = some (some o) ∧ o.w.file.ino = ino) ∧ ∀ j o, j ≠ i → ws[j]? = some (some o) → o.w.file.ino ≠ ino

/-- One call. -/
theorem callLog_spec (d : Disk) (ws : List (Option OpenLog)) (i ino : Nat) (h : Apart i ino ws) (call : Nat × FileCall) :
    Apart i ino (callLog (d, ws) call).2 ∧ (callLog (d, ws) call).1.fs.names = d.fs.names ∧
    d.fs.data ino <+: (callLog (d, ws) call).1.fs.data ino ∧
    ∀ o, ws[i]? = some (some o) → ∃ o', (callLog (d, ws) call).2[i]? = some (some o') ∧
      (o'.ok = true → o.ok = true ∧
        o'.w.total (callLog (d, ws) call).1 = o.w.total d ++ written ((callsOn i [call]).map FileCall.op) ∧
        (call = (i, .flush) → (callLog (d, ws) call).1.fs.data ino = o.w.total d)) := by
  obtain ⟨⟨oi, hoi, hino⟩, hother⟩ := h
  obtain ⟨j, call⟩ := call
  have same : Apart i ino ws ∧ d.fs.names = d.fs.names ∧ d.fs.data ino <+: d.fs.data ino :=
    ⟨⟨⟨oi, hoi, hino⟩, hother⟩, rfl, List.prefix_refl _⟩
  by_cases hji : j = i
  · subst hji
    have key : ∀ x : Disk × BufW × Bool, x.2.1.file.ino = oi.w.file.ino → SameBut oi.w.file.ino d x.1 →
        (x.2.2 = true → x.2.1.total x.1 = oi.w.total d ++ written ((callsOn j [(j, call)]).map FileCall.op) ∧
          (call = .flush → x.1.fs.data ino = oi.w.total d)) →
        Apart j ino (ws.set j (some ⟨x.2.1, oi.ok && x.2.2⟩)) ∧ x.1.fs.names = d.fs.names ∧ d.fs.data ino <+: x.1.fs.data ino ∧
        ∀ o, ws[j]? = some (some o) → ∃ o', (ws.set j (some ⟨x.2.1, oi.ok && x.2.2⟩))[j]? = some (some o') ∧
          (o'.ok = true → o.ok = true ∧ o'.w.total x.1 = o.w.total d ++ written ((callsOn j [(j, call)]).map FileCall.op) ∧
            ((j, call) = (j, .flush) → x.1.fs.data ino = o.w.total d)) := by
      intro x hx1 hx2 hx3
      have hlt : j < ws.length := (List.getElem?_eq_some_iff.mp hoi).1
      have hset : (ws.set j (some ⟨x.2.1, oi.ok && x.2.2⟩))[j]? = some (some ⟨x.2.1, oi.ok && x.2.2⟩) := by
        simp [hlt]
      refine ⟨⟨⟨_, hset, hx1.trans hino⟩, ?_⟩, hx2.1, ?_, ?_⟩
      · intro j' o' hne ho'
        rw [List.getElem?_set_ne (fun h => hne h.symm)] at ho'
        exact hother j' o' hne ho'
      · rw [← hino]; exact hx2.2.2.2
      · intro o ho
        rw [hoi] at ho
        cases ho
        refine ⟨_, hset, ?_⟩
        intro hok
        simp only [Bool.and_eq_true] at hok
        obtain ⟨k1, k2⟩ := hx3 hok.2
        refine ⟨hok.1, k1, ?_⟩
        intro he
        simp only [Prod.mk.injEq, true_and] at he
        exact k2 he
    cases call with
    | write b =>
      obtain ⟨f1, _, f3, f4⟩ := fileAppend_spec d oi.w b
      rw [show callLog (d, ws) (j, .write b) = ((fileAppend d oi.w b).1, ws.set j (some ⟨(fileAppend d oi.w b).2.1, oi.ok && (fileAppend d oi.w b).2.2⟩))
        by simp only [callLog, hoi]]
      refine key (fileAppend d oi.w b) f1 f3 (fun hok => ⟨?_, by simp⟩)
      rw [f4 hok]
      simp [callsOn, FileCall.op, written]
    | flush =>
      obtain ⟨f1, _, f3, f4⟩ := fileFlush_spec d oi.w
      rw [show callLog (d, ws) (j, .flush) = ((fileFlush d oi.w).1, ws.set j (some ⟨(fileFlush d oi.w).2.1, oi.ok && (fileFlush d oi.w).2.2⟩))
        by simp only [callLog, hoi]]
      refine key (fileFlush d oi.w) f1 f3 (fun hok => ⟨?_, fun _ => ?_⟩)
      · rw [fileFlush_total d oi.w hok]
        simp [callsOn, FileCall.op, written]
      · rw [← hino]; exact (f4 hok).2.2
  · have hcalls : callsOn i [(j, call)] = [] := by simp [callsOn, hji]
    have hnof : ¬ (j, call) = (i, FileCall.flush) := by simp [hji]
    rw [hcalls]
    cases hj : ws[j]? with
    | none =>
      rw [show callLog (d, ws) (j, call) = (d, ws) by simp only [callLog, hj]]
      exact ⟨same.1, same.2.1, same.2.2, fun o ho => ⟨o, ho, fun hok => ⟨hok, by simp [written], fun h => absurd h hnof⟩⟩⟩
    | some oj =>
      cases oj with
      | none =>
        rw [show callLog (d, ws) (j, call) = (d, ws) by simp only [callLog, hj]]
        exact ⟨same.1, same.2.1, same.2.2, fun o ho => ⟨o, ho, fun hok => ⟨hok, by simp [written], fun h => absurd h hnof⟩⟩⟩
      | some oj =>
        have hne := hother j oj hji hj
        have key : ∀ x : Disk × BufW × Bool, x.2.1.file.ino = oj.w.file.ino → SameBut oj.w.file.ino d x.1 →
            Apart i ino (ws.set j (some ⟨x.2.1, oj.ok && x.2.2⟩)) ∧ x.1.fs.names = d.fs.names ∧ d.fs.data ino <+: x.1.fs.data ino ∧
            ∀ o, ws[i]? = some (some o) → ∃ o', (ws.set j (some ⟨x.2.1, oj.ok && x.2.2⟩))[i]? = some (some o') ∧
              (o'.ok = true → o.ok = true ∧ o'.w.total x.1 = o.w.total d ++ written (([] : List FileCall).map FileCall.op) ∧
                ((j, call) = (i, .flush) → x.1.fs.data ino = o.w.total d)) := by
          intro x hx1 hx2
          have hdata : x.1.fs.data ino = d.fs.data ino := hx2.2.2.1 ino (fun h => hne h.symm)
          refine ⟨⟨⟨oi, by rw [List.getElem?_set_ne hji]; exact hoi, hino⟩, ?_⟩, hx2.1, by rw [hdata]; exact List.prefix_refl _, ?_⟩
          · intro j' o' hne' ho'
            by_cases hjj : j = j'
            · subst hjj
              have hlt : j < ws.length := (List.getElem?_eq_some_iff.mp hj).1
              rw [List.getElem?_set_self hlt] at ho'
              cases ho'
              simp only
              rw [hx1]; exact hne
            · rw [List.getElem?_set_ne hjj] at ho'
              exact hother j' o' hne' ho'
          · intro o ho
            refine ⟨o, by rw [List.getElem?_set_ne hji]; exact ho, fun hok => ⟨hok, ?_, fun h => absurd h hnof⟩⟩
            rw [hoi] at ho
            cases ho
            simp only [BufW.total, AFile.total, hino, hdata, written, List.map_nil, List.append_nil]
        cases call with
        | write b =>
          obtain ⟨f1, _, f3, _⟩ := fileAppend_spec d oj.w b
          rw [show callLog (d, ws) (j, .write b) = ((fileAppend d oj.w b).1, ws.set j (some ⟨(fileAppend d oj.w b).2.1, oj.ok && (fileAppend d oj.w b).2.2⟩))
            by simp only [callLog, hj]]
          exact key (fileAppend d oj.w b) f1 f3
        | flush =>
          obtain ⟨f1, _, f3, _⟩ := fileFlush_spec d oj.w
          rw [show callLog (d, ws) (j, .flush) = ((fileFlush d oj.w).1, ws.set j (some ⟨(fileFlush d oj.w).2.1, oj.ok && (fileFlush d oj.w).2.2⟩))
            by simp only [callLog, hj]]
          exact key (fileFlush d oj.w) f1 f3

/-- Many calls. -/
theorem callLogs_spec (calls : List (Nat × FileCall)) (d : Disk) (ws : List (Option OpenLog)) (i ino : Nat) (h : Apart i ino ws) :
    Apart i ino (callLogs (d, ws) calls).2 ∧ (callLogs (d, ws) calls).1.fs.names = d.fs.names ∧
    d.fs.data ino <+: (callLogs (d, ws) calls).1.fs.data ino ∧
    ∀ o, ws[i]? = some (some o) → ∃ o', (callLogs (d, ws) calls).2[i]? = some (some o') ∧
      (o'.ok = true → o.ok = true ∧
        o'.w.total (callLogs (d, ws) calls).1 = o.w.total d ++ written ((callsOn i calls).map FileCall.op) ∧
        ∀ a b, callsOn i calls = a ++ .flush :: b →
          o.w.total d ++ written (a.map FileCall.op) <+: (callLogs (d, ws) calls).1.fs.data ino) := by
  induction calls generalizing d ws with
  | nil =>
    refine ⟨h, rfl, List.prefix_refl _, fun o ho => ⟨o, ho, fun hok => ⟨hok, by simp [callLogs, callsOn, written], ?_⟩⟩⟩
    intro a b hab
    simp [callsOn] at hab
  | cons call calls ih =>
    obtain ⟨s1, s2, s3, s4⟩ := callLog_spec d ws i ino h call
    have e : callLogs (d, ws) (call :: calls) = callLogs (callLog (d, ws) call) calls := rfl
    rw [e]
    generalize hst : callLog (d, ws) call = st at s1 s2 s3 s4
    obtain ⟨d1, ws1⟩ := st
    simp only at s1 s2 s3 s4
    obtain ⟨i1, i2, i3, i4⟩ := ih d1 ws1 s1
    refine ⟨i1, i2.trans s2, s3.trans i3, ?_⟩
    intro o ho
    obtain ⟨o1, ho1, q1⟩ := s4 o ho
    obtain ⟨o2, ho2, q2⟩ := i4 o1 ho1
    refine ⟨o2, ho2, ?_⟩
    intro hok
    obtain ⟨hok1, t2, g2⟩ := q2 hok
    obtain ⟨hok0, t1, g1⟩ := q1 hok1
    have hsplit : callsOn i (call :: calls) = callsOn i [call] ++ callsOn i calls := callsOn_append i [call] calls
    refine ⟨hok0, ?_, ?_⟩
    · rw [t2, t1, hsplit, List.map_append, Log.written_append, List.append_assoc]
    · intro a b hab
      rw [hsplit] at hab
      by_cases hc : call.1 = i
      · have hone : callsOn i [call] = [call.2] := by simp [callsOn, hc]
        rw [hone] at hab t1
        cases a with
        | nil =>
          simp only [List.singleton_append, List.nil_append, List.cons.injEq] at hab
          have := g1 (by rw [← hc, ← hab.1])
          simp only [List.map_nil, written, List.append_nil]
          rw [← this]
          exact i3
        | cons x a =>
          simp only [List.singleton_append, List.cons_append, List.cons.injEq] at hab
          have := g2 a b hab.2
          rw [t1, hab.1] at this
          rw [List.map_cons, show x.op :: a.map FileCall.op = [x.op] ++ a.map FileCall.op from rfl, Log.written_append, ← List.append_assoc]
          exact this
      · have hone : callsOn i [call] = [] := by simp [callsOn, hc]
        rw [hone] at hab t1
        have := g2 a b hab
        rw [t1] at this
        simpa [written] using this

/-! ## Opening the files -/

/-- No other name for the file of this name. -/
def SoleName (d : Disk) (fp : Str) : Prop := ∀ n ino, d.fs.names n = some ino → d.fs.names fp = some ino → n = fp

theorem openFile_sole (d : Disk) (hs : Sane d) (fp p : Str) (h : SoleName d fp) : SoleName (d.openFile p).1 fp := by
  unfold Disk.openFile
  cases hp : d.fs.names p with
  | some ino => exact h
  | none =>
    intro n ino hn hfp
    simp only at hn hfp
    by_cases h1 : n = p
    · by_cases h2 : fp = p
      · rw [h1, h2]
      · rw [if_pos h1] at hn
        rw [if_neg h2] at hfp
        have := hs fp ino hfp
        cases hn
        omega
    · rw [if_neg h1] at hn
      by_cases h2 : fp = p
      · rw [if_pos h2] at hfp
        have := hs n ino hn
        cases hfp
        omega
      · rw [if_neg h2] at hfp
        exact h n ino hn hfp

theorem openFile_keeps (d : Disk) (p n : Str) (ino : Nat) (h : d.fs.names n = some ino) : (d.openFile p).1.fs.names n = some ino := by
  unfold Disk.openFile
  cases hp : d.fs.names p with
  | some ino => exact h
  | none =>
    simp only
    rw [if_neg]
    · exact h
    · rintro rfl; rw [h] at hp; cases hp

theorem openFile_content (d : Disk) (hs : Sane d) (p n : Str) : content (d.openFile p).1 n = content d n := by
  obtain ⟨o1, o2, _, _, o5, _⟩ := openFile_spec d hs p
  by_cases h : n = p
  · subst h
    rw [← o2]
    simp [content, o1]
  · exact o5 n h

/-- All files open. -/
theorem openLogs_spec (as : List AppenderInit) (d : Disk) (hs : Sane d) :
    Sane (openLogs d as).1 ∧ (∀ fp, SoleName d fp → SoleName (openLogs d as).1 fp) ∧
    (∀ n ino, d.fs.names n = some ino → (openLogs d as).1.fs.names n = some ino) ∧
    (∀ n, content (openLogs d as).1 n = content d n) ∧
    (∀ (i : Nat) (a : AppenderInit) (fp : Str), as[i]? = some a → a.path = some fp → ∃ o : OpenLog,
      (openLogs d as).2[i]? = some (some o) ∧ (openLogs d as).1.fs.names fp = some o.w.file.ino ∧
      o.w.buf = [] ∧ o.w.file.inflight = none ∧ o.ok = true) ∧
    (∀ (i : Nat) (o : OpenLog), (openLogs d as).2[i]? = some (some o) → ∃ (a : AppenderInit) (fp : Str), as[i]? = some a ∧ a.path = some fp) := by
  induction as generalizing d with
  | nil => exact ⟨hs, fun _ h => h, fun _ _ h => h, fun _ => rfl, fun i a fp h => by simp at h, fun i o h => by simp [openLogs] at h⟩
  | cons a as ih =>
    cases hp : a.path with
    | none =>
      obtain ⟨i1, i2, i3, i4, i5, i6⟩ := ih d hs
      have e : openLogs d (a :: as) = ((openLogs d as).1, none :: (openLogs d as).2) := by simp only [openLogs, hp]
      rw [e]
      refine ⟨i1, i2, i3, i4, ?_, ?_⟩
      · intro i b fp hb hfp
        cases i with
        | zero =>
          simp only [List.getElem?_cons_zero, Option.some.injEq] at hb
          subst hb
          rw [hp] at hfp; cases hfp
        | succ i => exact i5 i b fp (by simpa using hb) hfp
      · intro i o ho
        cases i with
        | zero => simp at ho
        | succ i => exact i6 i o (by simpa using ho)
    | some p =>
      obtain ⟨o1, o2, o3, _, _, _⟩ := openFile_spec d hs p
      obtain ⟨i1, i2, i3, i4, i5, i6⟩ := ih (d.openFile p).1 o3
      have e : openLogs d (a :: as) = ((openLogs (d.openFile p).1 as).1,
          some ⟨⟨bufferSize a.bufsize, [], ⟨(d.openFile p).2, none⟩⟩, true⟩ :: (openLogs (d.openFile p).1 as).2) := by
        simp only [openLogs, hp, fileNew]
      rw [e]
      refine ⟨i1, fun fp h => i2 fp (openFile_sole d hs fp p h), fun n ino h => i3 n ino (openFile_keeps d p n ino h),
        fun n => (i4 n).trans (openFile_content d hs p n), ?_, ?_⟩
      · intro i b fp hb hfp
        cases i with
        | zero =>
          simp only [List.getElem?_cons_zero, Option.some.injEq] at hb
          subst hb
          rw [hp] at hfp
          cases hfp
          exact ⟨_, rfl, i3 _ _ o1, rfl, rfl, rfl⟩
        | succ i => exact i5 i b fp (by simpa using hb) hfp
      · intro i o ho
        cases i with
        | zero => exact ⟨a, p, by simp, hp⟩
        | succ i => exact i6 i o (by simpa using ho)

/-- The files are apart if their names are. -/
theorem openLogs_apart (as : List AppenderInit) (d : Disk) (hs : Sane d) (i : Nat) (a : AppenderInit) (fp : Str) (ha : as[i]? = some a)
    (hfp : a.path = some fp) (hsole : SoleName d fp) (hone : ∀ j b, as[j]? = some b → b.path = some fp → j = i) :
    ∃ o : OpenLog, (openLogs d as).2[i]? = some (some o) ∧ Apart i o.w.file.ino (openLogs d as).2 ∧
      (openLogs d as).1.fs.names fp = some o.w.file.ino ∧ o.ok = true ∧ o.w.total (openLogs d as).1 = content d fp := by
  obtain ⟨_, i2, _, i4, i5, i6⟩ := openLogs_spec as d hs
  obtain ⟨o, p1, p2, p3, p4, p5⟩ := i5 i a fp ha hfp
  refine ⟨o, p1, ⟨⟨o, p1, rfl⟩, ?_⟩, p2, p5, ?_⟩
  · intro j o' hne ho' hino
    obtain ⟨b, q, hb, hq⟩ := i6 j o' ho'
    obtain ⟨o'', r1, r2, _⟩ := i5 j b q hb hq
    rw [ho'] at r1
    cases r1
    rw [hino] at r2
    have := i2 fp hsole q _ r2 p2
    subst this
    exact hne (hone j b hb hq)
  · rw [← i4 fp]
    simp [BufW.total, AFile.total, p3, p4, content, p2]

/-! ## C171 -/

/-- Does a record pass the maximum level? -/
def passes (l : Level) (item : Item) : Bool := item.level.rank ≤ l.rank

/-- The lines of a log file for some records, each with the thread that logged it. -/
def linesOf (records : List (Nat × Item)) : Bytes := records.flatMap (fun p => jsonRender p.2)

theorem byThread_filter (t : Nat) (f : Item → Bool) (l : List (Nat × Item)) :
    Log.Spec.byThread t (l.filter (fun p => f p.2)) = (Log.Spec.byThread t l).filter f := by
  unfold Log.Spec.byThread
  rw [List.filter_filter, List.filter_map, List.filter_filter]
  congr 1
  apply List.filter_congr
  intro x _
  rw [Bool.and_comm]
  rfl

/-- **C171**, what holds: from log calls of any threads down to the disk with all log files of a configuration. When a flush returns, the
file of an appender (if no call on it failed) holds, after what it held before, the lines of the records that were logged before and that
are for this appender: for each thread exactly these, in the order of its calls. And it holds nothing but lines of records that were logged and are for
this appender. Missing from C171: configurations with consoles and files where records are not `Deliverable` (`C61_undefined_violated`), and
files that rotate (C173). -/
theorem C171_file_partial {U : Unicode} (hU : LawfulUnicode U) (pathExists openOk : Str → Bool) (order : List Str → List Str)
    (horder : ∀ l, (order l).Perm l) (c c' : Config) (hslab : c.slab = []) (hfix : c.autofix pathExists = some c')
    (as : List AppenderInit) (has : c'.appenders openOk = some as) (_hdaily : ∀ a ∈ as, a.daily = false) (k : Consumer) (l : Level)
    (hk : c'.startLogging U openOk order true = .value (k, l))
    (progs : Nat → List (Log.Call Item)) (tr1 tr2 : List (Log.Act Item)) (t n : Nat) (s : Log.Sys Item)
    (h : Log.Run (passes l) (Log.start progs) (tr1 ++ .flushCall t n :: tr2 ++ [.flushRet t n]) s)
    (hd : ∀ p ∈ Log.Spec.sends (tr1 ++ .flushCall t n :: tr2), Deliverable as p.2)
    (d : Disk) (hs : Sane d) (i : Nat) (a : AppenderInit) (fp : Str) (ha : as[i]? = some a) (hfp : a.path = some fp)
    (hsole : SoleName d fp) (hone : ∀ j b, as[j]? = some b → b.path = some fp → j = i) :
    ∃ calls o, k.calls (tr1 ++ .flushCall t n :: tr2) k.bufs = some calls ∧ (callLogs (openLogs d as) calls).2[i]? = some (some o) ∧
      (o.ok = true → ∃ before after : List (Nat × Item),
        content d fp ++ linesOf before <+: content (callLogs (openLogs d as) calls).1 fp ∧
        content (callLogs (openLogs d as) calls).1 fp <+: content d fp ++ linesOf (before ++ after) ∧
        (∀ u, Log.Spec.byThread u before = (Log.Spec.byThread u (Log.Spec.sends tr1)).filter a.Wants) ∧
        (∀ u, Log.Spec.byThread u (before ++ after) <+: (Log.Spec.logged (passes l) (progs u)).filter a.Wants)) := by
  have hrun1 : ∃ s1, Log.Run (passes l) (Log.start progs) (tr1 ++ .flushCall t n :: tr2) s1 := by
    obtain ⟨s1, _, h1, _⟩ := h.cut (tr1 ++ .flushCall t n :: tr2) (.flushRet t n) [] rfl
    exact ⟨s1, h1⟩
  obtain ⟨s1, h1⟩ := hrun1
  obtain ⟨w1, w2, _⟩ := Log.C66_order (passes l) progs _ s1 h1
  obtain ⟨calls, c1, c2⟩ := calls_eq hU pathExists openOk order horder c c' hslab hfix as has k l hk (tr1 ++ .flushCall t n :: tr2)
    (fun p hp => hd p (w1.subset hp))
  have c2 := c2 i a ha (by rw [hfp]; simp)
  obtain ⟨o0, q1, q2, q3, q4, q5⟩ := openLogs_apart as d hs i a fp ha hfp hsole hone
  generalize hst : openLogs d as = st at q1 q2 q3 q5 ⊢
  obtain ⟨d0, ws0⟩ := st
  simp only at q1 q2 q3 q5
  obtain ⟨r1, r2, r3, r4⟩ := callLogs_spec calls d0 ws0 i o0.w.file.ino q2
  obtain ⟨o, r5, r6⟩ := r4 o0 q1
  refine ⟨calls, o, c1, r5, ?_⟩
  intro hok
  obtain ⟨_, t1, t2⟩ := r6 hok
  rw [c2, Log.written_fileOps, q5] at t1
  obtain ⟨x, y, hxy, hpre⟩ := Log.C67_barrier (passes l) progs tr1 tr2 t n s h
  have hcont : content (callLogs (d0, ws0) calls).1 fp = (callLogs (d0, ws0) calls).1.fs.data o0.w.file.ino := by
    simp [content, r2, q3]
  have hops : ∃ a' b', callsOn i calls = a' ++ .flush :: b' ∧ a'.map FileCall.op = Log.fileOps a.Wants jsonRender x := by
    have e : (callsOn i calls).map FileCall.op = Log.fileOps a.Wants jsonRender x ++ .flush :: Log.fileOps a.Wants jsonRender y := by
      rw [c2, hxy, show x ++ Log.Act.flush :: y = (x ++ [Log.Act.flush]) ++ y by simp, Log.fileOps_append, Log.fileOps_append]
      simp [Log.fileOps]
    obtain ⟨a', b', e1, e2, e3⟩ := List.map_eq_append_iff.mp e
    obtain ⟨z, b'', e4, e5, e6⟩ := List.map_eq_cons_iff.mp e3
    refine ⟨a', b'', ?_, e2⟩
    cases z with
    | write b => cases e5
    | flush => rw [e1, e4]
  obtain ⟨a', b', e1, e2⟩ := hops
  have hlow := t2 a' b' e1
  rw [e2, Log.written_fileOps, q5] at hlow
  have hexp : ∀ L : List (Nat × Item), Log.expected a.Wants jsonRender L = linesOf (L.filter (fun p => a.Wants p.2)) := fun _ => rfl
  have hsub : Log.Spec.sends tr1 <+: Log.Spec.writes (tr1 ++ .flushCall t n :: tr2) := by
    have : Log.Spec.writes x <+: Log.Spec.writes (tr1 ++ .flushCall t n :: tr2) := by
      have gen : ∀ p q : List (Log.Act Item), Log.Spec.writes p <+: Log.Spec.writes (p ++ q) := by
        intro p q
        induction p with
        | nil => exact List.nil_prefix
        | cons z p ih => cases z <;> simp only [Log.Spec.writes, List.cons_append, List.cons_prefix_cons, true_and] <;> exact ih
      rw [hxy]; exact gen x _
    exact hpre.trans this
  obtain ⟨rest, hrest⟩ := hsub
  refine ⟨(Log.Spec.sends tr1).filter (fun p => a.Wants p.2), rest.filter (fun p => a.Wants p.2), ?_, ?_, ?_, ?_⟩
  · rw [hcont]
    refine List.IsPrefix.trans ?_ hlow
    obtain ⟨z, hz⟩ := hpre
    rw [← hz, hexp, List.filter_append, linesOf, linesOf, List.flatMap_append, ← List.append_assoc]
    exact List.prefix_append _ _
  · rw [hcont, ← List.filter_append, hrest, ← hexp, ← t1]
    have hino : o.w.file.ino = o0.w.file.ino := by
      obtain ⟨⟨o', z1, z2⟩, _⟩ := r1
      rw [r5] at z1
      cases z1
      exact z2
    simp only [BufW.total, AFile.total, hino]
    rw [List.append_assoc]
    exact List.prefix_append _ _
  · intro u
    exact byThread_filter u a.Wants _
  · intro u
    rw [← List.filter_append, hrest, byThread_filter]
    obtain ⟨z, hz⟩ := (w2 u).2
    rw [← hz, List.filter_append]
    exact List.prefix_append _ _

/-- The log calls of a connection: its records in order, with time and place. -/
def CallsOf (records : List Rec) (prog : List (Log.Call Item)) : Prop :=
  ∃ items, Each2 (fun x item => ∃ time file line, item = Rec.item time file line x) records items ∧ prog = items.map .log

theorem logged_map (f : Item → Bool) (items : List Item) : Log.Spec.logged f (items.map .log) = items.filter f := by
  induction items with
  | nil => rfl
  | cons x xs ih => by_cases h : f x = true <;> simp [Log.Spec.logged, h, ih]

/-- **C171**, what holds, for a connection: if it has made all its log calls before the flush, its lines in the file are those of its
story (requests delivered and how it ended) that are for this appender, in order, each once. -/
theorem C171_connection_partial {U : Unicode} (hU : LawfulUnicode U) (pathExists openOk : Str → Bool) (order : List Str → List Str)
    (horder : ∀ l, (order l).Perm l) (c c' : Config) (hslab : c.slab = []) (hfix : c.autofix pathExists = some c')
    (as : List AppenderInit) (has : c'.appenders openOk = some as) (hdaily : ∀ a ∈ as, a.daily = false) (k : Consumer) (l : Level)
    (hk : c'.startLogging U openOk order true = .value (k, l))
    (progs : Nat → List (Log.Call Item)) (tr1 tr2 : List (Log.Act Item)) (t n : Nat) (s : Log.Sys Item)
    (h : Log.Run (passes l) (Log.start progs) (tr1 ++ .flushCall t n :: tr2 ++ [.flushRet t n]) s)
    (hd : ∀ p ∈ Log.Spec.sends (tr1 ++ .flushCall t n :: tr2), Deliverable as p.2)
    (d : Disk) (hs : Sane d) (i : Nat) (a : AppenderInit) (fp : Str) (ha : as[i]? = some a) (hfp : a.path = some fp)
    (hsole : SoleName d fp) (hone : ∀ j b, as[j]? = some b → b.path = some fp → j = i)
    {K : Type} (cd : Codec K) (lim : HttpLimits) (env : Nat → Env K) (lg : LogEnv K) (r : Reader) (u : Nat)
    (hu : CallsOf (serveLog cd lim env lg r) (progs u))
    (hall : Log.Spec.byThread u (Log.Spec.sends tr1) = Log.Spec.logged (passes l) (progs u)) :
    ∃ calls o items, k.calls (tr1 ++ .flushCall t n :: tr2) k.bufs = some calls ∧
      (callLogs (openLogs d as) calls).2[i]? = some (some o) ∧
      Each2 (fun x item => ∃ time file line, item = Rec.item time file line x)
        (story lg ((serve cd lim env r).1.map (·.req)) (serve cd lim env r).2) items ∧
      (o.ok = true → ∃ before after : List (Nat × Item),
        content d fp ++ linesOf before <+: content (callLogs (openLogs d as) calls).1 fp ∧
        content (callLogs (openLogs d as) calls).1 fp <+: content d fp ++ linesOf (before ++ after) ∧
        Log.Spec.byThread u before = items.filter (fun item => passes l item && a.Wants item) ∧
        (∀ p ∈ after, p.1 ≠ u)) := by
  obtain ⟨items, hi, hp⟩ := hu
  obtain ⟨calls, o, c1, c2, c3⟩ := C171_file_partial hU pathExists openOk order horder c c' hslab hfix as has hdaily k l hk progs tr1 tr2 t n s h
    hd d hs i a fp ha hfp hsole hone
  rw [C120_story] at hi
  refine ⟨calls, o, items, c1, c2, hi, fun hok => ?_⟩
  obtain ⟨before, after, e1, e2, e3, e4⟩ := c3 hok
  have hb : Log.Spec.byThread u before = items.filter (fun item => passes l item && a.Wants item) := by
    rw [e3 u, hall, hp, logged_map, List.filter_filter]
    apply List.filter_congr
    intro x _
    rw [Bool.and_comm]
  refine ⟨before, after, e1, e2, hb, ?_⟩
  intro p hpa he
  have e5 := e4 u
  have hsplit : Log.Spec.byThread u (before ++ after) = Log.Spec.byThread u before ++ Log.Spec.byThread u after := by
    simp [Log.Spec.byThread]
  rw [hsplit, ← hall, ← e3 u] at e5
  have hlen := e5.length_le
  rw [List.length_append] at hlen
  have hmem : p.2 ∈ Log.Spec.byThread u after := List.mem_map.mpr ⟨p, List.mem_filter.mpr ⟨hpa, by simp [he]⟩, rfl⟩
  have := List.length_pos_of_mem hmem
  omega

/-- **C171**, negation for the code as written: of a request to the hello-world service, the record with method and target is not for any
appender of that service (its number is not 0, `C56_identities`), so in the log file of the service no line says what was requested. -/
theorem C171_request_line_violated {K : Type} (cd : Codec K) (lim : HttpLimits) (env : Nat → Env K) (lg : LogEnv K) (idx : Nat)
    (hidx : idx ≠ 0) (ord : List Pair → List Pair) (hord : IsOrder ord) (hl : lg.service 0 = helloLog idx lg.addr ord) (q : WireReq)
    (hq : q.WF lim.maxUrl lim.maxHeaderLine lim.maxHeadersCount) (r : Reader) (rest : Bytes) (hr : r.flat = q.encode ++ rest)
    (items : List Item) (hi : Each2 (fun x item => ∃ time file line, item = Rec.item time file line x)
      (story lg ((serve cd lim env r).1.map (·.req)) (serve cd lim env r).2) items) :
    ∃ item ∈ items, ∃ ver, VersionShown q.head.w2 ver ∧ item.msg = q.head.w0 ++ b!" " ++ q.head.w1 ++ b!" " ++ ver ∧
      ∀ a : AppenderInit, a.service = idx → ∀ l, item ∉ items.filter (fun item => passes l item && a.Wants item) := by
  obtain ⟨hs, rest', ver, hv, e, _⟩ := C120_hello_request cd lim env lg idx ord hord hl q hq r rest hr
  rw [← C120_story, e] at hi
  have hmem : ∀ {L : List Rec} {M : List Item}, Each2 (fun x item => ∃ time file line, item = Rec.item time file line x) L M →
      ∀ x ∈ L, ∃ item ∈ M, ∃ time file line, item = Rec.item time file line x := by
    intro L M hLM
    induction hLM with
    | nil => intro x hx; cases hx
    | cons hab _ ih =>
      intro x hx
      rcases List.mem_cons.mp hx with rfl | hx
      · exact ⟨_, by simp, hab⟩
      · obtain ⟨it, hit, hh⟩ := ih x hx
        exact ⟨it, List.mem_cons_of_mem _ hit, hh⟩
  obtain ⟨item, hitem, time, file, line, rfl⟩ := hmem hi ⟨.trace, [], q.head.w0 ++ b!" " ++ q.head.w1 ++ b!" " ++ ver⟩ (by simp)
  refine ⟨_, hitem, ver, hv, rfl, ?_⟩
  intro a ha l hf
  have := (List.mem_filter.mp hf).2
  simp only [AppenderInit.Wants, Bool.and_eq_true, decide_eq_true_eq] at this
  exact hidx (by rw [← ha, this.2.1]; rfl)

/-! ## A case meeting the hypotheses -/

/-- The root and the only service each have a log file. -/
def twoFiles : Config :=
  { Config.empty with logging := oneFile [], services := [(u!"web", { defaultService with logging := oneFile [] })] }

/-- The appenders of that configuration. -/
def twoFilesAppenders : List AppenderInit :=
  [⟨0, u!"json", ⟨.trace, false⟩, some u!"./logs//httpd.TRACE.log", false, 0⟩,
    ⟨1, u!"json", ⟨.trace, false⟩, some u!"./logs//web/TRACE.log", false, 0⟩]

/-- Two records of a connection. -/
def sampleItems : List Item :=
  [Rec.item b!"t1" b!"f" 1 ⟨.trace, [(b!"service", .ofNat 1)], b!"m1"⟩, Rec.item b!"t2" b!"f" 2 ⟨.trace, [], b!"m2"⟩]

example : (twoFiles.autofix (fun _ => true)).bind (fun c => c.appenders (fun _ => true)) = some twoFilesAppenders ∧
    (∀ item, Deliverable twoFilesAppenders item) ∧ (∀ a ∈ twoFilesAppenders, a.daily = false) ∧
    (∀ j b, twoFilesAppenders[j]? = some b → b.path = some u!"./logs//web/TRACE.log" → j = 1) ∧
    SoleName emptyDisk u!"./logs//web/TRACE.log" ∧ Sane emptyDisk := by
  refine ⟨by decide +kernel, fun item => .inr (.inl (by decide)), by decide, ?_, (fun _ _ h _ => by cases h), (fun _ _ h => by cases h)⟩
  intro j b hb hp
  match j with
  | 0 => cases hb; exact absurd hp (by decide)
  | 1 => rfl
  | j + 2 => cases hb

/-- The run of the example for C67 with two records: the one of the service is in the file of the service, the other is not. -/
example : (match (twoFiles.autofix (fun _ => true)).map (fun c => c.startLogging asciiOnly (fun _ => true) id true) with
    | some (.value (k, _)) =>
      match k.calls ([.send 1 (sampleItems[0]), .send 1 (sampleItems[1])] ++ .flushCall 0 0 ::
        [.recv, .write 1 (sampleItems[0]), .recv, .write 1 (sampleItems[1]), .recv, .flush, .store 0]) k.bufs with
      | some calls =>
        let st := callLogs (openLogs emptyDisk twoFilesAppenders) calls
        some (content st.1 u!"./logs//web/TRACE.log", content st.1 u!"./logs//httpd.TRACE.log")
      | none => none
    | _ => none) = some (jsonRender (sampleItems[0]), jsonRender (sampleItems[1])) := by decide +kernel

/-- Such a run. -/
example : ∃ s, Log.Run (passes .trace) (Log.start (fun t => if t = 0 then [.flush] else if t = 1 then sampleItems.map .log else []))
    ([.send 1 (sampleItems[0]), .send 1 (sampleItems[1])] ++ .flushCall 0 0 ::
      [.recv, .write 1 (sampleItems[0]), .recv, .write 1 (sampleItems[1]), .recv, .flush, .store 0] ++ [.flushRet 0 0]) s := by
  refine Log.run_cons (.send _ 1 _ _ rfl rfl rfl rfl (by simp [Log.start])) ?_
  refine Log.run_cons (.send _ 1 _ _ rfl rfl rfl rfl (by simp [Log.start])) ?_
  refine Log.run_cons (.flushCall _ 0 _ rfl rfl rfl (by simp [Log.start])) ?_
  refine Log.run_cons (.recvItem _ 1 _ _ rfl rfl) ?_
  refine Log.run_cons (.write _ 1 _ rfl) ?_
  refine Log.run_cons (.recvItem _ 1 _ _ rfl rfl) ?_
  refine Log.run_cons (.write _ 1 _ rfl) ?_
  refine Log.run_cons (.recvFlush _ 0 _ rfl rfl) ?_
  refine Log.run_cons (.flush _ 0 rfl) ?_
  refine Log.run_cons (.store _ 0 rfl) ?_
  exact Log.run_cons (.flushRet _ 0 0 rfl rfl) ⟨_, .nil⟩

end Httpd
