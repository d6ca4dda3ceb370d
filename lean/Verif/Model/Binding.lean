import Verif.Model.Config
/-!
# Model of how the services of a process get their addresses (src/main.rs:168-169, 203-207, 230-250)

Each service asks for a listener at its own address (`tcp.addr`), all of them at the same time: as tasks of one runtime, or as threads. As
documented for tokio 1, `TcpListener::bind` turns the text into socket addresses and tries them one after the other until one can be bound; if none
can, the last error is returned (and an error, too, if there is none at all). The kernel does not let two sockets listen at addresses that clash: the
same one (unless the port is 0), or one that covers the other.
-/

namespace Httpd

/-- The network of the machine; `A` are the socket addresses. -/
structure NetEnv (A : Type) where
  /-- the socket addresses of a text, in order; `[]` also if it cannot be resolved -/
  resolve : Str → List A
  /-- the address exists on this machine, the process may bind it, and no other process has it -/
  grants : A → Bool
  /-- two sockets cannot listen there at the same time -/
  clash : A → A → Bool

/-- Where a service is in `TcpListener::bind` (src/main.rs:169). -/
inductive BindPhase (A : Type)
  | start
  | trying (rest : List A)
  | listening (a : A)
  | failed
  /-- the listener, which was bound to this address, is dropped: `run` has returned or panicked (src/main.rs:171-191) -/
  | gone (a : A)
deriving DecidableEq

/-- The services by number. -/
abbrev Binding (A : Type) := Nat → BindPhase A

/-- The beginning. -/
def Binding.start {A : Type} : Binding A := fun _ => .start

/-- A service moves on. -/
def Binding.put {A : Type} (b : Binding A) (i : Nat) (p : BindPhase A) : Binding A := fun j => if j = i then p else b j

/-- The kernel lets a socket listen at `a` now. -/
def Binding.canBind {A : Type} (n : NetEnv A) (b : Binding A) (a : A) : Prop :=
  n.grants a = true ∧ ∀ j x, b j = .listening x → n.clash x a = false

/-- The steps of `run` (src/main.rs:168-191) as far as addresses are concerned; `addrs` are the settings `tcp.addr` of the services. -/
inductive BindStep {A : Type} (n : NetEnv A) (addrs : List Str) : Binding A → Binding A → Prop
  | resolve (b : Binding A) (i : Nat) (t : Str) : addrs[i]? = some t → b i = .start → BindStep n addrs b (b.put i (.trying (n.resolve t)))
  | take (b : Binding A) (i : Nat) (a : A) (rest : List A) : b i = .trying (a :: rest) → b.canBind n a →
      BindStep n addrs b (b.put i (.listening a))
  | refuse (b : Binding A) (i : Nat) (a : A) (rest : List A) : b i = .trying (a :: rest) → ¬ b.canBind n a →
      BindStep n addrs b (b.put i (.trying rest))
  | fail (b : Binding A) (i : Nat) : b i = .trying [] → BindStep n addrs b (b.put i .failed)
  | leave (b : Binding A) (i : Nat) (a : A) : b i = .listening a → BindStep n addrs b (b.put i (.gone a))

/-- What can be reached. -/
inductive BindRun {A : Type} (n : NetEnv A) (addrs : List Str) : Binding A → Prop
  | start : BindRun n addrs .start
  | step {b b' : Binding A} : BindRun n addrs b → BindStep n addrs b b' → BindRun n addrs b'

end Httpd
