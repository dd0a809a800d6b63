import Verif.Lemmas.Props.Cma

/-!
# Property C111: signatures received do not help to forge
-/

namespace Verif

open Forger (answers)
open CmaForger

/-- **C111**. Let a forger that asks for at most `q` challenges and `s` signatures of messages of its choice, made by
`sign_solo`, submit with probability `acc` a message and a signature, other than those received, that `verify_single`
accepts for the signer's key. Then two runs without the signer suffice to compute the secret key, with the probability of
the forking lemma for `acc` less `2 s (q + s) / (n - 1) + s / 2 ^ 127`. -/
theorem C111_chosen_messages_forger_reveals_key (H : Hash) (sk : Scalar) (seed : ℕ → Arr 32) (A : CmaForger) (q s : ℕ)
    (hA : A.AsksAtMost q s) :
    let acc := Spec.chance fun p : (Fin (q + 1) → Arr 32) × (Fin s → Arr 32 × Arr 32) => A.Forges H sk seed p
    let loss : ℚ := 2 * s * (q + s : ℕ) / (orderN - 1 : ℕ) + s / 2 ^ 127
    Spec.forked (q + 1) (max 0 (acc - loss))
      ≤ Spec.chance fun p : (Fin s → Transcript (mulG sk)) × (Fin (q + 1) → Arr 32) × (Fin (q + 1) → Arr 32) =>
          A.extract H (mulG sk) p.1 p.2.1 p.2.2 • G = (mulG sk).1 := by
  intro acc loss
  have hl : loss = s * (2 * (q + s : ℕ) / (orderN - 1 : ℕ)) + s * (1 / 2 ^ 127) := by
    unfold loss
    generalize orderN - 1 = n
    ring
  exact (forked_mono _ (le_max_left _ _) (max_le (chance_nonneg _) (sub_le_of_parts (forges_chance hA) hl))).trans
    (simulated_fork H (mulG sk) A q s hA)

/-- A signature received is no forgery. -/
example (H : Hash) (sk : Scalar) (seed : ℕ → Arr 32) (p : (Fin 1 → Arr 32) × (Fin 1 → Arr 32 × Arr 32)) :
    exReplay.AsksAtMost 0 1 ∧ ¬ exReplay.Forges H sk seed p := by
  refine ⟨exReplay_asks, fun h => h.1 ?_⟩
  have hs : ∀ (ω : ℕ → Arr 32) (st : State) (x : Bytes), (st.ask ω x).signed = st.signed := ask_signed
  change _ ∈ (State.ask _ _ _).signed
  rw [hs]
  exact List.mem_append_right _ (List.mem_singleton.2 rfl)

/-- A forger that knows the secret key (one), asks for a signature all the same, and always succeeds. -/
example (H : Hash) (seed : ℕ → Arr 32) (p : (Fin 2 → Arr 32) × (Fin 1 → Arr 32 × Arr 32)) :
    exCma.AsksAtMost 1 1 ∧ exCma.Forges H scalarOne seed p :=
  ⟨exCma_asks, exCma_wins H seed _ _⟩

/-- **C111**. A signature can be drawn without the secret key: over a uniform nonce and challenge, what `sign_solo` makes
for any message has the distribution of the transcripts. -/
theorem C111_signatures_simulated (H : Hash) (sk : Scalar) (msg : Bytes) (seed : Arr 32)
    (S : Set (Arr 32 × CompactSignature)) :
    (Spec.chance fun p : Scalar × Arr 32 =>
        (p.2, signature (nonceAnswering (challengeAnswering H p.2) (serScalar p.1.1)) sk msg seed) ∈ S)
      = Spec.chance fun t : Transcript (mulG sk) => (t.e, (⟨xonly t.R.1, t.s⟩ : CompactSignature)) ∈ S := by
  rw [← chance_fst (Ω' := Bool) fun t : Transcript (mulG sk) => (t.e, (⟨xonly t.R.1, t.s⟩ : CompactSignature)) ∈ S,
    ← chance_equiv (transcriptEquiv sk)]
  congr 1
  funext p
  rw [signature_ofNonce]
  rfl

/-- **C111**. Transcripts can be drawn without the secret key: they are the pairs of a challenge `e` and a scalar `s` for
which `s G - e P`, with `P` made even, is a point with an even y coordinate, which are almost half of all pairs. -/
theorem C111_transcripts_drawn (sk : Scalar) :
    Set.BijOn (fun t : Transcript (mulG sk) => (t.e, t.s)) Set.univ
        {p | p.2 • G - reduceFrom p.1 • Spec.sgn (mulG sk).1 • (mulG sk).1 ≠ 0 ∧
          Spec.has_even_y (p.2 • G - reduceFrom p.1 • Spec.sgn (mulG sk).1 • (mulG sk).1) = true} ∧
      2 * Nat.card (Transcript (mulG sk)) + 256 ^ 32 = Nat.card (Arr 32 × MaybeScalar) := by
  have hR : ∀ t : Transcript (mulG sk), t.s • G - reduceFrom t.e • Spec.sgn (mulG sk).1 • (mulG sk).1 = t.R.1 :=
    fun t => by rw [t.eqn, add_sub_cancel_right]
  refine ⟨⟨fun t _ => ?_, fun t _ t' _ h => ?_, fun p hp => ?_⟩, ?_⟩
  · simp only [Set.mem_setOf_eq]
    rw [hR]
    exact ⟨t.R.2, t.even⟩
  · simp only [Prod.mk.injEq] at h
    refine Transcript.ext_of ?_ h.1
    rw [← hR t, ← hR t', h.1, h.2]
  · exact ⟨⟨⟨_, hp.1⟩, p.1, p.2, hp.2, (sub_add_cancel _ _).symm⟩, Set.mem_univ _, rfl⟩
  · have hn := one_lt_orderN
    rw [mul_comm, transcript_card, Nat.card_prod, arr_card, Nat.card_eq_fintype_card, ZMod.card, mul_comm (256 ^ 32)]
    conv_lhs => rw [← one_mul (256 ^ 32), ← mul_assoc, mul_one, ← add_mul]
    congr 1
    omega

end Verif
