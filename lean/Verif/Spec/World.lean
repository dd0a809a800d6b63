import Verif.Spec.Crash

/-!
# Groups of programs that may crash, and their network

The honest members of a group run the programs of `Spec/Crash`. The others have told everybody their nonces. The network delivers what was sent, in any order, as often as it likes or never, to
whomever it likes; and it makes up partial signatures. Used by `Props/World`.
-/

namespace Verif

open Spec (Program Event)

/-- What members send. They say who they are. -/
inductive Spec.Message
  | nonce (j : ℕ) (n : PubNonce)
  | signature (j : ℕ) (s : PartialSignature)

/-- What can happen at a member. -/
inductive Spec.Action
  /-- Its program is stopped, if it is running, and started from the seed. -/
  | start
  /-- Its program is told to finalize the first round. -/
  | sign
  /-- A message is delivered: the one with this number of all that were ever sent. -/
  | deliver (k : ℕ)
  /-- A partial signature is delivered that nobody need have sent, in the name of a member. -/
  | inject (j : ℕ) (s : PartialSignature)

/-- The programs, and all messages that were ever sent. -/
structure Spec.World where
  programs : ℕ → Program
  sent : List Spec.Message

namespace MixedGroup

open Spec (Message Action World)

variable {H : Hash}

/-- The beginning: nothing runs, and the members who are not honest have sent the nonces that everybody is told. -/
def initial (g : MixedGroup H) : World :=
  ⟨fun _ => .stopped, (g.told.zipIdx.filter fun c => c.2 ∉ g.honest).map fun c => .nonce c.2 c.1⟩

/-- A message as the program meets it. -/
def arrival : Message → Event
  | .nonce j n => .nonce j n
  | .signature j s => .signature j s

/-- What the program of member `i` sends at an event: its public nonce when it starts, and partial signatures. -/
def announced (i : ℕ) : Event → Program × List PartialSignature → List Message
  | .start, (.first r, sigs) => .nonce i r.ourPublicNonce :: sigs.map (.signature i)
  | _, (_, sigs) => sigs.map (.signature i)

/-- An event at member `i`. -/
def act (g : MixedGroup H) (T : MaybePoint) (msg : Bytes) (w : World) (i : ℕ) (e : Event) : World :=
  ⟨Function.update w.programs i (g.step i T msg (w.programs i) e).1, w.sent ++ announced i e (g.step i T msg (w.programs i) e)⟩

/-- An action at an honest member. What the others do is up to the network. -/
def move (g : MixedGroup H) (T : MaybePoint) (msg : Bytes) (w : World) (a : ℕ × Action) : World :=
  if a.1 ∈ g.honest then
    match a.2 with
    | .start => g.act T msg w a.1 .start
    | .sign => g.act T msg w a.1 .sign
    | .deliver k => match w.sent[k]? with
      | some m => g.act T msg w a.1 (arrival m)
      | none => w
    | .inject j s => g.act T msg w a.1 (.signature j s)
  else w

/-- A sequence of actions. -/
def moves (g : MixedGroup H) (T : MaybePoint) (msg : Bytes) (w : World) (as : List (ℕ × Action)) : World := as.foldl (g.move T msg) w

end MixedGroup

end Verif
