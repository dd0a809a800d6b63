import Verif.Spec.Rounds

/-!
# Honest sessions

A group of signers that all run the state machines, with arbitrary seeds and spices.
-/

namespace Verif

/-- A group of honest signers that have started their first rounds. Signer `i` has the secret key `sks[i]` and the
first round `rounds i`. -/
structure HonestGroup (H : Hash) where
  ctx : KeyAggContext
  reachable : Reachable H ctx
  sks : List Scalar
  keys : ctx.pubkeys = sks.map mulG
  seeds : ℕ → Arr 32
  spices : ℕ → SecNonceSpices
  rounds : ℕ → FirstRound
  started : ∀ i < sks.length, FirstRound.new H ctx (seeds i) i (spices i) = .ok (rounds i)

namespace HonestGroup

variable {H : Hash}

/-- The public nonces of the group. -/
def nonces (g : HonestGroup H) : List PubNonce := (List.range g.sks.length).map fun i => (g.rounds i).ourPublicNonce

/-- `R1 + b·R2` for a message. -/
def sessionNonce (g : HonestGroup H) (msg : Bytes) : MaybePoint :=
  (AggNonce.sum g.nonces).R1
    + (AggNonce.sum g.nonces).nonceCoefficient H g.ctx.aggregatedPubkey msg • (AggNonce.sum g.nonces).R2

/-- A schedule of nonce deliveries to signer `i`: any calls in which the first one for every other member has that
member's nonce. Anything may be delivered for index `i`, for indexes outside the group, and again later. -/
def NonceSchedule (g : HonestGroup H) (i : ℕ) (calls : List (ℕ × PubNonce)) : Prop :=
  ∀ j < g.sks.length, j ≠ i → Spec.firstValue calls j = some (g.rounds j).ourPublicNonce

/-- A schedule of signature deliveries to signer `i`: any calls, valid or not, among which is every other member's
partial signature. -/
def SignatureSchedule (g : HonestGroup H) (psigs : ℕ → PartialSignature) (i : ℕ)
    (calls : List (ℕ × PartialSignature)) : Prop :=
  ∀ j < g.sks.length, j ≠ i → (j, psigs j) ∈ calls

end HonestGroup

end Verif
