import Verif.Lemmas.Props.SoloForger
import Verif.Props.AdaptorForger

/-!
# Property C124: choosing the seeds of the signer and hashing nonces does not help to forge
-/

namespace Verif

open Forger (answers)
open AdaptorForger (Transcript)
open SoloForger

/-- **C124**. A forger asks for at most `q` challenges and `m` hashes of nonces, and for `s` adaptor signatures made by
`sign_solo_adaptor` with messages, seeds and adaptor points of its choice; the signer hashes its nonces with the function that the
forger may ask. Let the forger submit with probability `acc` a message and a signature that `verify_single` accepts for the
signer's key and that does not complete an adaptor signature received, while no nonce was used for two adaptor points. Then two runs
without the signer suffice to compute the secret key, with the probability of the forking lemma for `acc` less
`2 s (q + 1 + s) / (n - 1) + s / 2 ^ 127`. -/
theorem C124_chosen_seeds_reveal_key (H : Hash) (sk : Scalar) (A : SoloForger) (q m s : ℕ) (hA : A.AsksAtMost q m s) :
    let acc := Spec.chance fun p : (Fin m → Arr 32) × (Fin (q + 2) → Arr 32) × (Fin s → Arr 32 × Arr 32) => A.Forges H sk p
    let loss : ℚ := 2 * s * (q + 1 + s : ℕ) / (orderN - 1 : ℕ) + s / 2 ^ 127
    Spec.forked (q + 2) (max 0 (acc - loss))
      ≤ Spec.chance fun p : (Fin m → Arr 32) ×
            (Fin s → (T : MaybePoint) → Transcript (mulG sk) T) × (Fin (q + 2) → Arr 32) × (Fin (q + 2) → Arr 32) =>
          (A.strip H (mulG sk) (answers p.1) ⟨[], []⟩).extract H (mulG sk) p.2.1 p.2.2.1 p.2.2.2 • G = (mulG sk).1 := by
  intro acc loss
  letI : Fintype (Fin m → Arr 32) := Fintype.ofFinite _
  haveI : Nonempty (Fin m → Arr 32) := ⟨fun _ => zeroSeed⟩
  let B : (Fin m → Arr 32) → AdaptorForger := fun ν => A.strip H (mulG sk) (answers ν) ⟨[], []⟩
  let f : (Fin m → Arr 32) → ℚ := fun ν =>
    Spec.chance fun p : (Fin (q + 2) → Arr 32) × (Fin s → Arr 32 × Arr 32) => (B ν).Forges H sk (fun _ => zeroSeed) p
  have hc : (0 : ℚ) < Fintype.card (Fin m → Arr 32) := by exact_mod_cast Fintype.card_pos
  have hacc : acc ≤ (∑ ν, f ν) / Fintype.card (Fin m → Arr 32) := by
    unfold acc
    rw [Decision.chance_prod fun ν (p : (Fin (q + 2) → Arr 32) × (Fin s → Arr 32 × Arr 32)) => A.Forges H sk (ν, p)]
    refine div_le_div_of_nonneg_right (Finset.sum_le_sum fun ν _ => ?_) hc.le
    exact CmaForger.chance_mono fun p hp => strip_forges _ hp
  have havg : max 0 (acc - loss) ≤ (∑ ν, max 0 (f ν - loss)) / Fintype.card (Fin m → Arr 32) := by
    refine max_le (div_nonneg (Finset.sum_nonneg fun ν _ => le_max_left _ _) hc.le) ?_
    have h1 : ∑ ν, (f ν - loss) ≤ ∑ ν, max 0 (f ν - loss) := Finset.sum_le_sum fun ν _ => le_max_right _ _
    refine le_trans ?_ (div_le_div_of_nonneg_right h1 hc.le)
    rw [Finset.sum_sub_distrib, Finset.sum_const, Finset.card_univ, nsmul_eq_mul, sub_div, mul_div_cancel_left₀ _ hc.ne']
    exact sub_le_sub_right hacc _
  refine (forked_mono _ (le_max_left _ _) havg).trans ((forked_jensen _ _).trans ?_)
  rw [Decision.chance_prod fun ν
    (p : (Fin s → (T : MaybePoint) → Transcript (mulG sk) T) × (Fin (q + 2) → Arr 32) × (Fin (q + 2) → Arr 32)) =>
      (B ν).extract H (mulG sk) p.1 p.2.1 p.2.2 • G = (mulG sk).1]
  refine div_le_div_of_nonneg_right (Finset.sum_le_sum fun ν _ => ?_) hc.le
  exact C123_adaptor_forger_reveals_key H sk (fun _ => zeroSeed) (B ν) (q + 1) s (strip_asks H (mulG sk) _ hA _)

/-- **C124**. The run that draws the hashes as they come up is that with one hash function, the one of the final state: with it, the
forger gets the same answers and the same adaptor signatures from `sign_solo_adaptor`, and submits the same. -/
theorem C124_one_hash_function (H : Hash) (sk : Scalar) (ω ν : ℕ → Arr 32) (κ : ℕ → Arr 32 × Arr 32) (A : SoloForger) :
    let out := A.run H sk ω ν κ State.init
    A.play (out.state.hash H) sk = (out.msg, out.sig) :=
  play_run H sk ω ν κ A State.init fun _ _ _ h => by cases h

/-- **C124**. What `sign_solo_adaptor` hashes to the nonce: the secret key of the even point, masked by the hash of the seed. Whoever
hashes this string knows the secret key, up to its sign. -/
theorem C124_nonce_hash_reveals_key (H : Hash) (sk : Scalar) (msg : Bytes) (seed : Arr 32) (T : MaybePoint) :
    (signSoloAdaptor H sk msg seed T).R = (mulG (SecNonceBuilder.reduceOrOne (H (nonceQuery sk (mask H seed) msg)))).1 ∧
      ∃ d, keyOf (mulG sk) (mask H seed) (nonceQuery sk (mask H seed) msg) = some d ∧ (d.1 = sk.1 ∨ d.1 = -sk.1) := by
  refine ⟨by rw [sign_eq]; rfl, ?_⟩
  obtain ⟨d, hd⟩ := keyOf_nonceQuery sk (mask H seed) msg
  refine ⟨d, hd, ?_⟩
  have h := keyOf_some hd
  rw [sgn_smul] at h
  change d.1 • G = negIf _ (sk.1 • G) at h
  rw [negIf_smul, smul_G_inj] at h
  rw [h]
  cases hb : isOdd (mulG sk).1
  · exact .inl rfl
  · exact .inr rfl

/-- A forger that knows the secret key (one), asks for an adaptor signature and for a hash of a nonce all the same, and always
succeeds. -/
example (H : Hash) (p : (Fin 1 → Arr 32) × (Fin 3 → Arr 32) × (Fin 1 → Arr 32 × Arr 32)) :
    exSolo.AsksAtMost 1 1 1 ∧ exSolo.Forges H scalarOne p :=
  ⟨exSolo_asks, exSolo_wins H _ _ _⟩

end Verif
