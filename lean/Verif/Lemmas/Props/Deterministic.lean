import Verif.Spec.Claims
import Verif.Lemmas.Deterministic
import Verif.Lemmas.Props.Bip340

/-!
# Lemmas and example data for `Props/Deterministic`
-/

namespace Verif

/-- The initial state is the one of the RFC, except that the digest goes in as it is. -/
theorem init_eq (H : Hash) (sk : Scalar) (msg : Bytes) :
    (⟨(rfc6979Init H sk msg).1, (rfc6979Init H sk msg).2⟩ : Spec.DrbgState)
      = Spec.drbgInitOctets H sk.1.val (H msg).1 := by
  simp only [Spec.drbgInitOctets, spec_hmac]
  rfl

/-- The secret key 1. -/
def skOne : Scalar := ⟨1, one_ne_zero⟩

theorem sha_candidate :
    (serScalar ((23811541301376427322566638629350632721800427365805819007653676916945408977770 : ℕ) : MaybeScalar)).1
      = (hmac sha256 (rfc6979Init sha256 skOne [115]).1 (rfc6979Init sha256 skOne [115]).2.1).1 := by
  decide +kernel

/-- A hash function with 32-byte output, for the counterexample. -/
def toyHash : Hash := fun m =>
  ⟨List.replicate 32 (m.foldl (fun a b => (a ^^^ b) * 29 + a / 8 + 7) 0), List.length_replicate⟩

end Verif
