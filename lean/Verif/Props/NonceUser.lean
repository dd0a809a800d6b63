import Verif.Lemmas.Props.NonceUser

/-!
# Property C134: the nonces of the library are like random ones

C105 is about one answer of the hash function for one nonce. Here any number of nonces are made, and whoever gets them may ask for
hashes before, between and after.
-/

namespace Verif

open NonceUser
open Outsider (extend)

/-- **C134**. Somebody asks for at most `q` hashes that are drawn and at most `k` secret nonces, at any time, with secret keys, messages and
other inputs of their choice, and does with the nonces whatever they want. Whether `SecNonceBuilder::build` makes the nonces from random
seeds, or both scalars of each nonce are drawn, the chance of a yes is the same up to `k(2(q + 3k)/2^256 + 1/2^126)`. The hashes that are
drawn are at least those of the library's nonces; whatever else is hashed may be drawn as well. -/
theorem C134_nonces_like_random (D : Bytes → Prop) [DecidablePred D] (hD : ∀ x, DrawnSeed x → D x) (H : Hash) (A : NonceUser) (q k m : ℕ)
    (hA : A.Within D q k) (hm : q + 3 * k ≤ m) :
    |(Spec.chance fun w : (Fin k → Arr 32) × (Fin m → Arr 32) => OnLibrary D H A w)
      - Spec.chance fun w : (Fin k → Scalar × Scalar) × (Fin m → Arr 32) => OnRandom D H A w|
      ≤ k * (2 * (q + 3 * k) / 2 ^ 256 + 1 / 2 ^ 126) := by
  letI := Fintype.ofFinite (Arr 32)
  letI := Fintype.ofFinite Scalar
  unfold OnLibrary OnRandom
  rw [Outsider.chance_game (p := fun s : Fin k → Arr 32 => A.library H (extend zeroSeed s)) fun s => (asks_library hD hA _).mono hm,
    Outsider.chance_game (p := fun w : Fin k → Scalar × Scalar => A.random (extend (scalarOne, scalarOne) w)) fun w =>
      (asks_random hA _).mono (by omega)]
  have h := game_close (H := H) (O := H) (T := fun _ => none) (j := 0) hD hA ⟨[], le_rfl, fun _ h => absurd rfl h⟩
  have e : (2 : ℚ) * (1 / 2 ^ 127) = 1 / 2 ^ 126 := by norm_num
  rwa [Nat.cast_zero, zero_add, e] at h

namespace NonceUser

/-- Somebody who makes two nonces with the same inputs, asks for a hash between, and says yes if the nonces are the same. -/
def twice (b : SecNonceBuilder) : NonceUser :=
  .nonce b fun sn => .ask (Spec.auxQuery (serScalar sn.k1.1)) fun _ => .nonce b fun sn' => .done (sn = sn')

end NonceUser

/-- The hypotheses can be met, and the verdict is not always the same. -/
example (b : SecNonceBuilder) : ∃ A : NonceUser, A.Within DrawnSeed 1 2 ∧
    (∃ w : (Fin 2 → Scalar × Scalar) × (Fin 7 → Arr 32), OnRandom DrawnSeed stubHash A w) ∧
    ∃ w : (Fin 2 → Scalar × Scalar) × (Fin 7 → Arr 32), ¬ OnRandom DrawnSeed stubHash A w := by
  have hv : ∀ w : (Fin 2 → Scalar × Scalar) × (Fin 7 → Arr 32), OnRandom DrawnSeed stubHash (twice b) w
      ↔ (⟨(w.1 0).1, (w.1 0).2⟩ : SecNonce) = ⟨(w.1 1).1, (w.1 1).2⟩ := by
    intro w
    unfold OnRandom twice
    simp only [random, Asker.run, if_pos (drawn_aux _)]
    exact Iff.rfl
  refine ⟨twice b, ⟨1, rfl, fun sn => ?_⟩, ⟨(fun _ => (scalarOne, scalarOne), fun _ => zeroSeed), ?_⟩,
    (fun i => (if i = 0 then scalarOne else ⟨2, by decide +kernel⟩, scalarOne), fun _ => zeroSeed), ?_⟩
  · unfold Within
    rw [if_pos (drawn_aux _)]
    exact ⟨0, rfl, fun _ => ⟨0, rfl, fun _ => trivial⟩⟩
  · rw [hv]
  · rw [hv]
    intro h
    have := congrArg (fun n : SecNonce => n.k1.1) h
    revert this
    decide +kernel

end Verif
