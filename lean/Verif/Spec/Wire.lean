import Verif.Spec.MixedSession
import Verif.Model.Signature

/-!
# Sessions over a network of bytes

Members send encodings of nonces and partial signatures. The network may lose, alter, reorder and repeat them, and add messages of its own.
Used by `Props/Wire`.
-/

namespace Verif

/-- What a member delivers to the first round of the messages `ms`, which say for whom they are: the nonces that `PubNonce::from_bytes` decodes. -/
def Spec.nonceCalls (ms : List (ℕ × Bytes)) : List (ℕ × PubNonce) :=
  ms.filterMap fun m => match PubNonce.fromBytes m.2 with
    | .ok n => some (m.1, n)
    | _ => none

/-- What a member delivers to the second round: the partial signatures that `MaybeScalar::from_slice` decodes. -/
def Spec.signatureCalls (ms : List (ℕ × Bytes)) : List (ℕ × PartialSignature) :=
  ms.filterMap fun m => (parseMaybeScalar m.2).map fun s => (m.1, s)

/-- For every other member than `i`, the encoding of the nonce that was told is among the messages, after nothing for this member but strings that
encode no nonce. -/
def MixedGroup.NonceMessages {H : Hash} (g : MixedGroup H) (i : ℕ) (ms : List (ℕ × Bytes)) : Prop :=
  ∀ j n, g.told[j]? = some n → j ≠ i → ∃ before after, ms = before ++ (j, n.toBytes) :: after ∧
    ∀ x, (j, x) ∈ before → ∀ n', PubNonce.fromBytes x ≠ .ok n'

end Verif
