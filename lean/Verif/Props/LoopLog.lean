import Verif.Model.LoopLog
import Verif.Props.Main
import Verif.Props.ConnLog
import Verif.Props.Logging
/-! # C207: whoever connects is in the log -/

namespace Httpd
open Spec

theorem serveLog_made {K : Type} (c : Codec K) (lim : HttpLimits) (env : Nat → Env K) (l : LogEnv K) (r : Reader) (hd : l.debug = true) :
    ∃ first rest, serveLog c lim env l r = first :: rest ∧ first.level = .trace ∧ first.msg = b!"connection made, " ++ l.addr := by
  unfold serveLog madeLog
  rw [hd]
  exact ⟨_, _, rfl, rfl, rfl⟩

/-- **C207**, what holds: in a debug build the log has, for every accepted connection and in this order, a record with the address of the client: that the connection
was made, if and only if it is served, and otherwise just that the handshake took too long or that it failed, and why. Missing: release builds
(`C207_release_violated`). -/
theorem C207_debug_partial {C K : Type} (c : Codec K) (tls : Option C) (timeout : Nat) (lim : HttpLimits) (env : Nat → Nat → Env K)
    (l : Nat → LogEnv K) (r : Nat → Reader) (err : Nat → Bytes) (hd : ∀ i, (l i).debug = true) (es : List AcceptEvent) :
    Each2 (fun p x => x.1 = p.1 ∧ ∃ first rest, x.2 = first :: rest ∧ first.level = .trace ∧
        ((tls.isSome → HandshakeDone timeout p.2) ∧ first.msg = b!"connection made, " ++ (l p.1).addr ∨
         (tls.isSome ∧ ¬ HandshakeDone timeout p.2) ∧ rest = [] ∧
          ((∀ t, p.2.time = some t → timeout < t) ∧ first.msg = b!"tls handshake timeout, " ++ (l p.1).addr ∨
           (∃ t, p.2.time = some t ∧ t ≤ timeout) ∧ first.msg = b!"tls handshake failed, " ++ (l p.1).addr ++ b!", " ++ err p.1)))
      (accepted es)
      (loopLog true (tls.map fun _ => timeout) (fun i => (l i).addr) err (fun i => serveLog c lim (env i) (l i) (r i)) es) ∧
    (acceptLoop tls timeout true es).1.map (·.id) =
      ((accepted es).filter (fun p => tls.isNone || decide (HandshakeDone timeout p.2))).map (·.1) := by
  constructor
  · induction es with
    | nil => exact .nil
    | cons e es ih =>
      cases e with
      | acceptErr => exact ih
      | ctrlC => exact .nil
      | conn id hs =>
        refine .cons ⟨rfl, ?_⟩ ih
        obtain ⟨f, rest, h1, h2, h3⟩ := serveLog_made c lim (env id) (l id) (r id) (hd id)
        cases tls with
        | none => exact ⟨f, rest, h1, h2, .inl ⟨fun h => (by cases h), h3⟩⟩
        | some _ =>
          simp only [Option.map_some, tlsTaskLog, ↓reduceIte]
          cases ht : hs.time with
          | none =>
            exact ⟨_, [], rfl, rfl, .inr ⟨⟨rfl, fun h => (by obtain ⟨_, t, h', _⟩ := h; simp only [ht] at h'; cases h')⟩, rfl,
              .inl ⟨fun t h => (by cases h), rfl⟩⟩⟩
          | some t =>
            simp only
            by_cases hlt : timeout < t
            · rw [if_pos hlt]
              exact ⟨_, [], rfl, rfl, .inr ⟨⟨rfl, fun h => (by
                obtain ⟨_, t', h', _⟩ := h; simp only [ht] at h'; cases h'; omega)⟩, rfl,
                .inl ⟨fun t' h => (by cases h; exact hlt), rfl⟩⟩⟩
            · rw [if_neg hlt]
              cases hok : hs.ok with
              | true =>
                rw [if_pos rfl]
                exact ⟨f, rest, h1, h2, .inl ⟨fun _ => ⟨hok, t, ht, by omega⟩, h3⟩⟩
              | false =>
                rw [if_neg (by decide)]
                exact ⟨_, [], rfl, rfl, .inr ⟨⟨rfl, fun h => (by rw [h.1] at hok; cases hok)⟩, rfl, .inr ⟨⟨t, rfl, by omega⟩, rfl⟩⟩⟩
  · cases tls with
    | none =>
      have h : (acceptLoop (none : Option C) timeout true es).1.map (·.id) = (accepted es).map (·.1) := by
        show (plainLoop es).1.map (·.id) = _
        rw [plainLoop_served, List.map_map]
        rfl
      rw [h]
      exact congrArg (List.map _) (List.filter_eq_self.mpr (fun _ _ => rfl)).symm
    | some x =>
      show (tlsLoop timeout es).1.map (·.id) = _
      rw [tlsLoop_served, List.map_map]
      rfl

/-- **C207 is violated** in a release build: who does not get through the handshake, and whose first request is refused, leaves no record at all. -/
theorem C207_release_violated {C K : Type} (c : Codec K) (tls : Option C) (timeout : Nat) (lim : HttpLimits) (env : Nat → Nat → Env K)
    (l : Nat → LogEnv K) (r : Nat → Reader) (err : Nat → Bytes) (hd : ∀ i, (l i).debug = false) (es : List AcceptEvent) :
    Each2 (fun p x => x.1 = p.1 ∧ (tls.isSome ∧ ¬ HandshakeDone timeout p.2 ∨
        (∃ code, serve c lim (env p.1) (r p.1) = ([], .headFail code) ∨ serve c lim (env p.1) (r p.1) = ([], .bodyFail code)) → x.2 = []))
      (accepted es)
      (loopLog false (tls.map fun _ => timeout) (fun i => (l i).addr) err (fun i => serveLog c lim (env i) (l i) (r i)) es) := by
  induction es with
  | nil => exact .nil
  | cons e es ih =>
    cases e with
    | acceptErr => exact ih
    | ctrlC => exact .nil
    | conn id hs =>
      refine .cons ⟨rfl, fun h => ?_⟩ ih
      have hs0 : (∃ code, serve c lim (env id) (r id) = ([], .headFail code) ∨ serve c lim (env id) (r id) = ([], .bodyFail code)) →
          serveLog c lim (env id) (l id) (r id) = [] := by
        rintro ⟨code, h⟩
        refine (C122_release_silent_violated c lim (env id) (l id) (r id) (hd id) code ?_).2 ?_
        · rcases h with h | h <;> simp [h]
        · rcases h with h | h <;> rw [h]
      cases tls with
      | none =>
        rcases h with h | h
        · cases h.1
        · exact hs0 h
      | some _ =>
        simp only [Option.map_some, tlsTaskLog, Bool.false_eq_true, ↓reduceIte]
        cases ht : hs.time with
        | none => rfl
        | some t =>
          simp only
          by_cases hlt : timeout < t
          · rw [if_pos hlt]
          · rw [if_neg hlt]
            cases hok : hs.ok with
            | true =>
              rw [if_pos rfl]
              rcases h with h | h
              · exact absurd ⟨hok, t, ht, by omega⟩ h.2
              · exact hs0 h
            | false => rw [if_neg (by decide)]

/-- **C207 is violated** for services with a log of their own: what is logged about a handshake does not name the service, so it goes to the log of the
server. -/
theorem C207_root_violated (debug : Bool) (timeout : Nat) (addr err : Bytes) (hs : Handshake) (time file : Bytes) (line : Nat) :
    ∀ x ∈ tlsTaskLog debug timeout addr err hs [], (x.item time file line).service = 0 := by
  have h0 : ∀ m : Bytes, (Rec.item time file line ⟨.trace, [], m⟩).service = 0 := fun m => by
    unfold Rec.item
    rw [(C74_pairs ..).1]
    rfl
  intro x hx
  unfold tlsTaskLog at hx
  split at hx
  · cases debug
    · cases hx
    · rw [List.mem_singleton.mp hx]; exact h0 _
  · split at hx
    · cases debug
      · cases hx
      · rw [List.mem_singleton.mp hx]; exact h0 _
    · split at hx
      · cases hx
      · cases debug
        · cases hx
        · rw [List.mem_singleton.mp hx]; exact h0 _

/-- C207: a service with TLS and a time limit of 5 for handshakes: one client is served, one does not finish, and one has nothing to show. -/
example : (loopLog true (some 5) (fun i => if i = 0 then b!"10.0.0.1:1" else if i = 1 then b!"10.0.0.2:2" else b!"10.0.0.3:3")
    (fun _ => b!"no certificate") (fun i => serveLog noCodec sampleLimits (fun _ => { sampleEnv with http := helloHttp })
      { sampleLog with addr := if i = 0 then b!"10.0.0.1:1" else b!"" } (Reader.ofBytes [] .eof))
    [.conn 0 ⟨some 1, true⟩, .conn 1 ⟨none, true⟩, .acceptErr, .conn 2 ⟨some 2, false⟩, .ctrlC, .conn 3 ⟨none, true⟩]).map
      (fun p => (p.1, p.2.map (·.msg))) =
    [(0, [b!"connection made, 10.0.0.1:1", b!"connection lost, 10.0.0.1:1"]),
     (1, [b!"tls handshake timeout, 10.0.0.2:2"]), (2, [b!"tls handshake failed, 10.0.0.3:3, no certificate"])] := by decide +kernel

/-- C207: in a release build nothing of this. -/
example : loopLog false (some 5) (fun _ => b!"10.0.0.1:1") (fun _ => b!"no certificate")
    (fun _ => serveLog noCodec sampleLimits (fun _ => { sampleEnv with http := helloHttp }) { sampleLog with debug := false }
      (Reader.ofBytes [] .eof)) [.conn 0 ⟨some 1, true⟩, .conn 1 ⟨none, true⟩, .conn 2 ⟨some 2, false⟩] = [(0, []), (1, []), (2, [])] := by
  decide +kernel

end Httpd
