import Verif.Spec.MixedSession

/-!
# Histories of a member whose program may crash

The program of a member keeps nothing but the inputs of `FirstRound::new`, the secret key, and what is to be signed. It may be
stopped and started again at any time. Used by `Props/Crash`.
-/

namespace Verif

/-- What the program of a member is doing. -/
inductive Spec.Program
  | stopped
  | first (r : FirstRound)
  | second (r : SecondRound)

/-- What happens to it. -/
inductive Spec.Event
  /-- It is started from the seed, after having been stopped, whatever it was doing. -/
  | start
  /-- A public nonce arrives that is said to be that of a member. -/
  | nonce (j : ℕ) (n : PubNonce)
  /-- The first round is to be finalized. -/
  | sign
  /-- An aggregated nonce arrives from an aggregator, who is to be sent a partial signature. -/
  | aggregated (an : AggNonce)
  /-- A partial signature arrives that is said to be that of a member. -/
  | signature (j : ℕ) (s : PartialSignature)

namespace MixedGroup

open Spec (Program Event)

variable {H : Hash}

/-- One event at the member `i`: what the program does then, and the partial signature that it sends. What arrives at the wrong time is
dropped. Finalizing takes the first round by value, so an error stops the program; and so does signing for an aggregator. -/
def step (g : MixedGroup H) (i : ℕ) (T : MaybePoint) (msg : Bytes) : Program → Event → Program × List PartialSignature
  | _, .start => match FirstRound.new H g.ctx (g.seed i) i (g.spices i) with
    | .ok r => (.first r, [])
    | _ => (.stopped, [])
  | .first r, .nonce j n => (.first (r.receiveNonce j n).1, [])
  | .first r, .sign => match r.finalizeAdaptor H (g.sk i) T msg with
    | .ok r2 => match (r2.ourSignature : Res Unit _) with
      | .ok s => (.second r2, [s])
      | _ => (.stopped, [])
    | _ => (.stopped, [])
  | .first r, .aggregated an => match r.signForAggregatorAdaptor H (g.sk i) T msg an with
    | .ok s => (.stopped, [s])
    | _ => (.stopped, [])
  | .second r, .signature j s => (.second (r.receiveSignature H j s).1, [])
  | p, _ => (p, [])

/-- A history: what the program does in the end, and all partial signatures that it has sent. -/
def life (g : MixedGroup H) (i : ℕ) (T : MaybePoint) (msg : Bytes) : Program → List Event → Program × List PartialSignature
  | p, [] => (p, [])
  | p, e :: es => ((g.life i T msg (g.step i T msg p e).1 es).1, (g.step i T msg p e).2 ++ (g.life i T msg (g.step i T msg p e).1 es).2)

/-- The nonces of other members that arrive are always those told, and aggregators send their sum. -/
def Faithful (g : MixedGroup H) (i : ℕ) (es : List Event) : Prop :=
  (∀ j n, .nonce j n ∈ es → j < g.ctx.pubkeys.length → j ≠ i → g.told[j]? = some n) ∧ ∀ an, .aggregated an ∈ es → an = AggNonce.sum g.told

end MixedGroup

end Verif
