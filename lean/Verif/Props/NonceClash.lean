import Verif.Lemmas.Props.NonceClash

/-!
# Property C129: nonces for different inputs are different, even if the random number generator is broken

A secret nonce that is used for two messages gives the key away (C54). The documentation recommends to add inputs to the nonce beside
the seed, since this makes nonce reuse less likely if the seed repeats (nonces.rs:66-73, 478-485). Here the seeds, and all other inputs, are
chosen by somebody who looks for two calls with a nonce in common.
-/

namespace Verif

open NonceClash

/-- **C129**. Somebody who asks for at most `q` hashes of seeds and of nonces, and then submits the inputs of two calls that make nonces
(`SecNonceBuilder::build` or solo signing): the chance that the calls have different inputs but a nonce in common, or that the first call makes
the same nonce twice, is tiny. Nonces are the same if their x coordinates are, and inputs as in `Different`: the seeds may be equal. -/
theorem C129_different_inputs_different_nonces (H : Hash) (A : Asker (Call × Call)) (q : ℕ)
    (hA : A.AsksAtMost Drawn (fun c => c.1.Fits ∧ c.2.Fits) q) :
    (Spec.chance fun ω : Fin (q + 6) → Arr 32 => Finds H A ω) ≤ 3 * (q + 6) ^ 2 / 2 ^ 256 :=
  chance_finds H hA

/-- The calls of the example: the seed zero twice, with a message and without. -/
def NonceClash.sameSeed : Call × Call :=
  (.session (SecNonceBuilder.new zeroSeed), .session ((SecNonceBuilder.new zeroSeed).withMessage [1]))

/-- Somebody who submits the seed zero twice, with a message and without; if all hashes are the same, so are the nonces. -/
example (H : Hash) : (Asker.done sameSeed).AsksAtMost Drawn (fun c => c.1.Fits ∧ c.2.Fits) 0 ∧ Different sameSeed.1 sameSeed.2 ∧
    ∃ ω : Fin (0 + 6) → Arr 32, Finds H (Asker.done sameSeed) ω := by
  have hd : Different sameSeed.1 sameSeed.2 := .inr (.inr (.inl (by simp [SecNonceBuilder.new, SecNonceBuilder.withMessage])))
  refine ⟨⟨by simp [sameSeed, Call.Fits, SecNonceBuilder.new], by simp [sameSeed, Call.Fits, SecNonceBuilder.withMessage]⟩, hd,
    fun _ => zeroSeed, ?_⟩
  unfold Finds
  simp only [Asker.bind]
  obtain ⟨log, h1, h2, -, -, h3, h4⟩ := run_check H (Asker.draws fun _ : Fin (0 + 6) => zeroSeed) sameSeed (log := []) (by simp [Asker.Distinct])
  have hall : ∀ e ∈ log, e.2 = zeroSeed := by
    have := Asker.run_drawn (D := Drawn) (H := H) (ω := Asker.draws fun _ : Fin (0 + 6) => zeroSeed) (P := fun a => a = zeroSeed)
      (M := 6) (fun i hi => by unfold Asker.draws; rw [dif_pos hi]) (asks_check H sameSeed) (log := []) (by simp) (by simp)
    rwa [h1] at this
  rw [h1]
  refine .inl ⟨hd, ?_⟩
  rw [nonces_eq, nonces_eq]
  obtain ⟨a, ha⟩ := h3 _ List.mem_cons_self
  obtain ⟨a', ha'⟩ := h4 _ List.mem_cons_self
  refine ⟨_, List.mem_map_of_mem List.mem_cons_self, _, List.mem_map_of_mem List.mem_cons_self, ?_⟩
  unfold pointOf
  rw [KeyCommit.hash_of_mem h2 ha, KeyCommit.hash_of_mem h2 ha', show a = zeroSeed from hall _ ha, show a' = zeroSeed from hall _ ha']

/-- **C129**. For `SecNonce::generate` every difference counts: it is a call of the builder, and if two calls differ in the seed, the secret
key, the x coordinate of the aggregated key, the message or the extra input, their inputs are different. -/
theorem C129_generate_any_difference (seed seed' : Arr 32) (sk sk' : Scalar) (Q Q' : Point) (msg msg' extra extra' : Bytes)
    (he : extra.length ≤ u32Max) (he' : extra'.length ≤ u32Max)
    (h : seed ≠ seed' ∨ sk ≠ sk' ∨ Spec.xbytes Q.1 ≠ Spec.xbytes Q'.1 ∨ msg ≠ msg' ∨ extra ≠ extra') :
    ∃ b b' : SecNonceBuilder, Different (.session b) (.session b') ∧ b.message = some msg ∧ b'.message = some msg' ∧
      ∀ (H : Hash) (ε : Type), SecNonce.generate (ε := ε) H seed sk Q msg extra = .ok (b.build H) ∧
        SecNonce.generate (ε := ε) H seed' sk' Q' msg' extra' = .ok (b'.build H) := by
  refine ⟨⟨seed, some sk, some (mulG sk), some Q, some msg, [extra]⟩, ⟨seed', some sk', some (mulG sk'), some Q', some msg', [extra']⟩, ?_, rfl, rfl,
    fun H ε => ⟨generate_eq_build H he, generate_eq_build H he'⟩⟩
  by_cases hk : sk = sk'
  · subst hk
    rcases h with h | h | h | h | h
    · exact .inr (.inr (.inr (.inr (.inr (.inl ⟨rfl, h⟩)))))
    · exact (h rfl).elim
    · exact .inr (.inl (by simpa using h))
    · exact .inr (.inr (.inl (by simpa using h)))
    · exact .inr (.inr (.inr (.inr (.inl (by simpa using h)))))
  · exact .inl fun e => hk (mulG_injective (Option.some.inj e))

/-- The same seed and key, for two messages. -/
example : (zeroSeed ≠ zeroSeed ∨ scalarOne ≠ scalarOne ∨ Spec.xbytes Gpt.1 ≠ Spec.xbytes Gpt.1 ∨ ([1] : Bytes) ≠ [2] ∨ ([] : Bytes) ≠ []) :=
  .inr (.inr (.inr (.inl (by decide))))

/-- **C129**. What `Different` leaves out: the secret key is only hashed together with the hash of the seed, so somebody who chooses the key to be
the difference of the hashes of two seeds has the same nonces, with the key and one seed, and without it (but for its public key) and
the other. -/
theorem C129_chosen_seckey (H : Hash) (seed seed' : Arr 32) (sk : Scalar)
    (hsk : Spec.bytes_xor (Spec.bytes_from_int sk.1.val) (H (Spec.taggedInput "MuSig/aux" seed.1)).1
      = (H (Spec.taggedInput "MuSig/aux" seed'.1)).1) :
    ((SecNonceBuilder.new seed).withSeckey sk).build H = ((SecNonceBuilder.new seed').withPubkey (mulG sk)).build H := by
  have h0 : maskedSeckey H seed (some sk) = maskedSeckey H seed' none := by
    have h1 : maskedSeckey H seed' none = (H (Spec.taggedInput "MuSig/aux" seed'.1)).1 := zero_xor _
    rw [h1]
    exact hsk
  have h1 : nonceInputs H ((SecNonceBuilder.new seed).withSeckey sk) = nonceInputs H ((SecNonceBuilder.new seed').withPubkey (mulG sk)) := by
    unfold nonceInputs
    simp only [SecNonceBuilder.withSeckey, SecNonceBuilder.withPubkey, SecNonceBuilder.new]
    rw [h0]
  rw [build_eq, build_eq]
  unfold Spec.nonceQuery
  rw [h1]

/-- A hash function and two seeds with such a secret key. -/
example : ∃ (H : Hash) (seed seed' : Arr 32) (sk : Scalar), seed ≠ seed' ∧
    Spec.bytes_xor (Spec.bytes_from_int sk.1.val) (H (Spec.taggedInput "MuSig/aux" seed.1)).1
      = (H (Spec.taggedInput "MuSig/aux" seed'.1)).1 := by
  have hne : zeroSeed ≠ serScalar 1 := by decide +kernel
  refine ⟨Hash.answering (fun _ => zeroSeed) (Spec.taggedInput "MuSig/aux" (serScalar 1).1) (serScalar 1), zeroSeed, serScalar 1, scalarOne, hne, ?_⟩
  rw [Hash.answering_same, Hash.answering_of_ne _ _ fun e => hne (Subtype.ext (taggedInput_injective e))]
  have h1 := congrArg Subtype.val (xorBytes_comm (serScalar 1) zeroSeed)
  exact h1.trans (zero_xor (serScalar 1))

end Verif
