import Verif.Spec.Asker
import Verif.Spec.OneMore
import Verif.Spec.Outsider

/-!
# Somebody who makes nonces with the library and uses them

They may ask for hashes and, at any time, choose what goes into a nonce, and get a secret nonce. The hashes that make nonces are drawn
while they are asked for. Used by `Props/NonceUser`.
-/

namespace Verif

/-- Somebody who asks for hashes and for secret nonces, with builders they choose, and in the end has a verdict. The seeds of the builders
do not matter: they are drawn. -/
inductive NonceUser where
  | done (verdict : Prop)
  | ask (x : Bytes) (next : Arr 32 → NonceUser)
  | nonce (b : SecNonceBuilder) (next : SecNonce → NonceUser)

namespace NonceUser

/-- The hashes of `SecNonceBuilder::build`. -/
def DrawnSeed (x : Bytes) : Prop := Spec.taggedInput "MuSig/aux" [] <+: x ∨ Spec.taggedInput "MuSig/nonce" [] <+: x

instance : DecidablePred DrawnSeed := fun _ => inferInstanceAs (Decidable (_ ∨ _))

/-- `SecNonceBuilder::build`, which asks for three hashes. -/
def build (H : Hash) (b : SecNonceBuilder) (next : SecNonce → Asker Prop) : Asker Prop :=
  .ask (Spec.auxQuery b.nonceSeedBytes) fun a =>
    let O := H.answering (Spec.auxQuery b.nonceSeedBytes) a
    .ask (Spec.nonceQuery O b 0) fun h => .ask (Spec.nonceQuery O b 1) fun h' =>
      next (b.build ((O.answering (Spec.nonceQuery O b 0) h).answering (Spec.nonceQuery O b 1) h'))

/-- The nonces are built with the seeds `s 0`, `s 1`, …. -/
def library (H : Hash) : NonceUser → (ℕ → Arr 32) → Asker Prop
  | .done v, _ => .done v
  | .ask x next, s => .ask x fun a => library H (next a) s
  | .nonce b next, s => build H (Spec.seeded b (s 0)) fun sn => library H (next sn) fun i => s (i + 1)

/-- The nonces are `w 0`, `w 1`, …. -/
def random : NonceUser → (ℕ → Scalar × Scalar) → Asker Prop
  | .done v, _ => .done v
  | .ask x next, w => .ask x fun a => random (next a) w
  | .nonce _ next, w => random (next ⟨(w 0).1, (w 0).2⟩) fun i => w (i + 1)

/-- At most `q` hashes are asked for that are drawn, and at most `k` nonces. -/
def Within (D : Bytes → Prop) [DecidablePred D] : ℕ → ℕ → NonceUser → Prop
  | _, _, .done _ => True
  | q, k, .ask x next => if D x then ∃ q', q = q' + 1 ∧ ∀ a, Within D q' k (next a) else ∀ a, Within D q k (next a)
  | q, k, .nonce _ next => ∃ k', k = k' + 1 ∧ ∀ sn, Within D q k' (next sn)

/-- The verdict with the nonces of the library, when the seeds are drawn as well as the hashes. -/
def OnLibrary (D : Bytes → Prop) [DecidablePred D] (H : Hash) (A : NonceUser) {k m : ℕ} (w : (Fin k → Arr 32) × (Fin m → Arr 32)) : Prop :=
  ((A.library H (Outsider.extend zeroSeed w.1)).run D H (Asker.draws w.2) []).1

/-- The verdict with nonces that are drawn. -/
def OnRandom (D : Bytes → Prop) [DecidablePred D] (H : Hash) (A : NonceUser) {k m : ℕ} (w : (Fin k → Scalar × Scalar) × (Fin m → Arr 32)) :
    Prop :=
  ((A.random (Outsider.extend (scalarOne, scalarOne) w.1)).run D H (Asker.draws w.2) []).1

end NonceUser

end Verif
