import Verif.Spec.Rounds

/-!
# Sessions with misbehaving members

Some members of a group run the state machines, with arbitrary seeds and spices. The others do anything, but what they
say about nonces reaches all honest members alike (a reliable broadcast).
-/

namespace Verif

/-- A group, its honest members with their secret keys and first rounds, and the nonces that everybody was told. Those of
the honest members are right. The others may have been chosen after seeing them. -/
structure MixedGroup (H : Hash) where
  ctx : KeyAggContext
  reachable : Reachable H ctx
  honest : Finset ℕ
  sk : ℕ → Scalar
  keys : ∀ i ∈ honest, ctx.pubkeys[i]? = some (mulG (sk i))
  seed : ℕ → Arr 32
  spices : ℕ → SecNonceSpices
  rounds : ℕ → FirstRound
  started : ∀ i ∈ honest, FirstRound.new H ctx (seed i) i (spices i) = .ok (rounds i)
  told : List PubNonce
  told_length : told.length = ctx.pubkeys.length
  told_honest : ∀ i ∈ honest, told[i]? = some (rounds i).ourPublicNonce

namespace MixedGroup

variable {H : Hash}

/-- Any calls in which the first nonce for every other member is the one told. -/
def NonceSchedule (g : MixedGroup H) (i : ℕ) (calls : List (ℕ × PubNonce)) : Prop :=
  ∀ j < g.ctx.pubkeys.length, j ≠ i → Spec.firstValue calls j = g.told[j]?

/-- The signature `s` of member `j` is valid: `verify_partial` accepts it for the key of `j` and the nonces told. -/
def Valid (g : MixedGroup H) (T : MaybePoint) (msg : Bytes) (j : ℕ) (s : PartialSignature) : Prop :=
  ∃ P n, g.ctx.pubkeys[j]? = some P ∧ g.told[j]? = some n ∧
    verifyPartialAdaptor H g.ctx s (AggNonce.sum g.told) T P n msg = .ok ()

/-- `R1 + b·R2` for a message. -/
def sessionNonce (g : MixedGroup H) (msg : Bytes) : MaybePoint :=
  (AggNonce.sum g.told).R1
    + (AggNonce.sum g.told).nonceCoefficient H g.ctx.aggregatedPubkey msg • (AggNonce.sum g.told).R2

end MixedGroup

end Verif
