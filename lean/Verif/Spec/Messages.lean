/-
Point-to-point messages between processes: blocking standard sends and receives, as in MPI (trusted).  A standard send may be completed either by
storing the message or by handing it to a receive that waits for it; a program must not rely on either.  Messages with the same source, destination
and tag are received in the order they were sent.
-/

namespace WxVerif.Messages

/-- one blocking call of a process; `none` stands for a rank that is `None`, on which the call raises an error (the call never completes here) -/
inductive Act (α β : Type) where
  /-- `Send(data, dest, tag)` -/
  | send (dest : Option Nat) (tag : Nat) (data : α)
  /-- `Recv(buffer, source, tag)` -/
  | recv (source : Option Nat) (tag : Nat) (buffer : β)

/-- remaining calls of every process, stored messages for every source, destination and tag, and the buffers of every process -/
structure State (α β : Type) where
  prog : Nat → List (Act α β)
  stored : Nat → Nat → Nat → List α
  buf : Nat → β → α

variable {α β : Type} [DecidableEq β]

/-- a function changed at one place -/
def put {γ : Type} (f : Nat → γ) (i : Nat) (x : γ) : Nat → γ := fun j => if j = i then x else f j

/-- stored messages changed for one source, destination and tag -/
def putStored (f : Nat → Nat → Nat → List α) (s d t : Nat) (x : List α) : Nat → Nat → Nat → List α :=
  fun s' d' t' => if s' = s ∧ d' = d ∧ t' = t then x else f s' d' t'

/-- one buffer of one process changed -/
def putBuf (f : Nat → β → α) (r : Nat) (b : β) (x : α) : Nat → β → α := fun r' b' => if r' = r ∧ b' = b then x else f r' b'

/-- what can happen next without storing a message: a receive takes a stored message, or takes the message of a send that waits -/
inductive Progress : State α β → State α β → Prop
  | deliver (σ : State α β) (s d t : Nat) (b : β) (x : α) (xs : List α) (rest : List (Act α β)) :
      σ.prog d = .recv (some s) t b :: rest → σ.stored s d t = x :: xs →
      Progress σ ⟨put σ.prog d rest, putStored σ.stored s d t xs, putBuf σ.buf d b x⟩
  | handover (σ : State α β) (s d t : Nat) (b : β) (x : α) (rs rd : List (Act α β)) :
      s ≠ d → σ.prog s = .send (some d) t x :: rs → σ.prog d = .recv (some s) t b :: rd → σ.stored s d t = [] →
      Progress σ ⟨put (put σ.prog s rs) d rd, σ.stored, putBuf σ.buf d b x⟩

/-- what can happen next at all: progress, or a message is stored -/
inductive Step : State α β → State α β → Prop
  | progress (σ τ : State α β) : Progress σ τ → Step σ τ
  | store (σ : State α β) (s d t : Nat) (x : α) (rest : List (Act α β)) :
      σ.prog s = .send (some d) t x :: rest → Step σ ⟨put σ.prog s rest, putStored σ.stored s d t (σ.stored s d t ++ [x]), σ.buf⟩

/-- some number of steps -/
inductive Reaches : State α β → State α β → Prop
  | refl (σ : State α β) : Reaches σ σ
  | tail (σ τ υ : State α β) : Reaches σ τ → Step τ υ → Reaches σ υ

/-- all processes have finished their calls -/
def Finished (σ : State α β) : Prop := ∀ r, σ.prog r = []

/-- the calls of all processes are about to start and no message is stored -/
def start (prog : Nat → List (Act α β)) (buf : Nat → β → α) : State α β := ⟨prog, fun _ _ _ => [], buf⟩

/-- The exchange never gets stuck: from every state that can be reached, unless all is finished, something can happen that does not need a message
to be stored. -/
def NeverStuck (σ : State α β) : Prop := ∀ τ, Reaches σ τ → Finished τ ∨ ∃ υ, Progress τ υ

/-- There is a number of steps that no execution exceeds. -/
def Ends (σ : State α β) : Prop := ∃ N, ∀ (n : Nat) (f : Nat → State α β), f 0 = σ → (∀ i < n, Step (f i) (f (i + 1))) → n ≤ N

end WxVerif.Messages
