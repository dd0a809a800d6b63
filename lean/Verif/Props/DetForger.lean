import Verif.Lemmas.Props.DetForger
import Verif.Props.AdaptorForger

/-!
# Property C125: deterministic signing is as hard to forge as signing with random nonces
-/

namespace Verif

open Forger (answers)
open AdaptorForger (Transcript)
open DetGame

/-- **C125**. A forger asks for at most `q` challenges and `m` other hashes, and for `s` adaptor signatures made by
`deterministic::adaptor::sign_solo`, of messages and with adaptor points of its choice; the signer derives its nonces from the secret
key and the message with the hash function that the forger may ask. Let the forger submit with probability `acc` a message and a
signature that `verify_single` accepts for the signer's key and that does not complete an adaptor signature received, while it never
asks for one message with two adaptor points. Then two runs without the signer suffice to
compute the secret key, with the probability of the forking lemma for `acc` less
`2 s (q + 2 s + 1) / (n - 1) + 11 s (m + 13 s) / 2 ^ 256 + s / 2 ^ 126`. -/
theorem C125_deterministic_forger_reveals_key (H : Hash) (sk : Scalar) (A : AdaptorForger) (q m s : ℕ) (hA : AsksAtMost q m s A) :
    let acc := Spec.chance fun p : (Fin s → Fin 11 → Arr 32) × (Fin (q + s + 2) → Arr 32) × (Fin s → Arr 32 × Arr 32) => Forges H sk A p
    let loss : ℚ := 2 * s * (q + 2 * s + 1 : ℕ) / (orderN - 1 : ℕ) + 11 * s * (m + 13 * s : ℕ) / 2 ^ 256 + s / 2 ^ 126
    Spec.forked (q + s + 2) (max 0 (acc - loss))
      ≤ Spec.chance fun p :
            (Fin s → (T : MaybePoint) → Transcript (mulG sk) T) × (Fin (q + s + 2) → Arr 32) × (Fin (q + s + 2) → Arr 32) =>
          (strip (mulG sk) A []).extract H (mulG sk) p.1 p.2.1 p.2.2 • G = (mulG sk).1 := by
  intro acc loss
  refine le_trans (forked_mono _ (le_max_left _ _) ?_)
    (C123_adaptor_forger_reveals_key H sk (fun _ => zeroSeed) (strip (mulG sk) A []) (q + s + 1) s (strip_asks (mulG sk) hA []))
  refine max_le_max le_rfl ?_
  have hacc := forges_chance H sk (fun _ => zeroSeed) (q' := q + s + 2) hA
  have hl := loss_eq q m s
  rw [sub_le_iff_le_add]
  refine hacc.trans ?_
  unfold loss
  rw [hl]
  generalize (Spec.chance fun p : (Fin (q + s + 2) → Arr 32) × (Fin s → Arr 32 × Arr 32) =>
    (strip (mulG sk) A []).Forges H sk (fun _ => zeroSeed) p) = a
  generalize (s : ℚ) * (1 / 2 ^ 127 + 11 * ((m + s : ℕ) / 2 ^ 256 + s * (12 * (1 / 2 ^ 256)))) = b
  apply le_of_eq
  ring

/-- **C125**. The run that draws the hashes as they come up is that with one hash function, the one of the final state: with it, the
forger gets the same answers and the same adaptor signatures from `deterministic::adaptor::sign_solo`, and submits the
same. -/
theorem C125_one_hash_function (H : Hash) (sk : Scalar) (ω : ℕ → Arr 32) (v : ℕ → ℕ → Arr 32) (κ : ℕ → Arr 32 × Arr 32)
    (A : AdaptorForger) {msg : Bytes} {sig : CompactSignature} {st : State}
    (h : run H sk ω v κ A State.init = .submitted msg sig st) : play (st.hash H) sk A = some (msg, sig) :=
  (play_run H sk ω v κ A State.init (fun _ hm => by cases hm) h).2

/-- A forger that knows the secret key (one), asks for an adaptor signature and for another hash all the same, and always succeeds. -/
example (H : Hash) (p : (Fin 1 → Fin 11 → Arr 32) × (Fin 4 → Arr 32) × (Fin 1 → Arr 32 × Arr 32)) :
    AsksAtMost 1 1 1 exDet ∧ Forges H scalarOne exDet p :=
  ⟨exDet_asks, exDet_wins H _ _ _⟩

end Verif
