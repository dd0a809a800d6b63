import Verif.Lemmas.Props.AdaptorForger

/-!
# Property C123: adaptor signatures received do not help to forge, and completing one reveals the adaptor secret
-/

namespace Verif

open Forger (answers)
open CmaForger (nonceAnswering challengeAnswering sub_le_of_parts)
open AdaptorForger

/-- **C123**. A forger asks for at most `q` challenges and for `s` adaptor signatures, made by `sign_solo_adaptor`, of messages
and with adaptor points of its choice. Let it submit with probability `acc` a message and a signature that `verify_single`
accepts for the signer's key, but from which `reveal_secret` does not find the secret of the adaptor point of an adaptor signature
received for this message. Then two runs without the signer suffice to compute the secret key, with the probability of the forking lemma
for `acc` less `2 s (q + s) / (n - 1) + s / 2 ^ 127`. -/
theorem C123_adaptor_forger_reveals_key (H : Hash) (sk : Scalar) (seed : ℕ → Arr 32) (A : AdaptorForger) (q s : ℕ)
    (hA : A.AsksAtMost q s) :
    let acc := Spec.chance fun p : (Fin (q + 1) → Arr 32) × (Fin s → Arr 32 × Arr 32) => A.Forges H sk seed p
    let loss : ℚ := 2 * s * (q + s : ℕ) / (orderN - 1 : ℕ) + s / 2 ^ 127
    Spec.forked (q + 1) (max 0 (acc - loss))
      ≤ Spec.chance fun p : (Fin s → (T : MaybePoint) → Transcript (mulG sk) T) × (Fin (q + 1) → Arr 32) × (Fin (q + 1) → Arr 32) =>
          A.extract H (mulG sk) p.1 p.2.1 p.2.2 • G = (mulG sk).1 := by
  intro acc loss
  have hl : loss = s * (2 * (q + s : ℕ) / (orderN - 1 : ℕ)) + s * (1 / 2 ^ 127) := by
    unfold loss
    generalize orderN - 1 = n
    ring
  exact (forked_mono _ (le_max_left _ _) (max_le (CmaForger.chance_nonneg _) (sub_le_of_parts (forges_chance hA) hl))).trans
    (simulated_fork H (mulG sk) A q s hA)

/-- **C123**. What a completion is: the signature that `adapt` makes of an adaptor signature received for the message, with the
secret of its adaptor point. -/
theorem C123_completed_iff (out : Outcome) (hR : ∀ m ∈ out.state.signed, m.sig.R ≠ 0) :
    out.Completed ↔ ∃ m ∈ out.state.signed, m.msg = out.msg ∧ ∃ (L : LiftedSignature) (t : MaybeScalar),
      t • G = m.T ∧ m.sig.adapt t = some L ∧ L.compact = out.sig := by
  constructor
  · rintro ⟨m, hm, h1, L, t, h2, h3, h4⟩
    have h5 := CompactSignature.liftNonce_eq_some.1 h2
    exact ⟨m, hm, h1, L, t, h4, (C40_reveal_sound m.sig L h5.1).1 t h3, h5.2⟩
  · rintro ⟨m, hm, h1, L, t, h2, h3, h4⟩
    refine ⟨m, hm, h1, L, t, CompactSignature.liftNonce_eq_some.2 ⟨?_, h4⟩, C39_reveal_partial m.sig t L h3 (.inl (hR m hm)), h2⟩
    obtain ⟨A, -, hA, -⟩ := adapt_eq_some.1 h3
    rw [hA]
    exact isOdd_toEvenY A

/-- A forger that completes an adaptor signature whose secret it knows. This is no forgery. -/
example (H : Hash) (sk : Scalar) (seed : ℕ → Arr 32) (p : (Fin 1 → Arr 32) × (Fin 1 → Arr 32 × Arr 32))
    (hk : (SecNonceBuilder.reduceOrOne (p.2 0).1).1 ≠ -1) :
    exComplete.AsksAtMost 0 1 ∧
      (exComplete.run H sk seed (answers p.1) (CmaForger.pairs p.2) State.init).Completed ∧ ¬ exComplete.Forges H sk seed p := by
  obtain ⟨h1, sig, h2, h3, L, h4, h5⟩ := exComplete_signed H sk seed (answers p.1) (CmaForger.pairs p.2) hk
  have hc : (exComplete.run H sk seed (answers p.1) (CmaForger.pairs p.2) State.init).Completed := by
    refine (C123_completed_iff _ fun m hm => ?_).2 ⟨⟨[0], G, sig⟩, ?_, h1.symm, L, 1, one_smul _ _, h4, h5⟩
    · rw [h3] at hm
      rw [List.mem_singleton.1 hm]
      exact h2
    · rw [h3]
      exact List.mem_singleton.2 rfl
  exact ⟨exComplete_asks, hc, fun h => h.2 hc⟩

/-- A forger that knows the secret key (one), asks for an adaptor signature all the same, and always succeeds. -/
example (H : Hash) (seed : ℕ → Arr 32) (p : (Fin 2 → Arr 32) × (Fin 1 → Arr 32 × Arr 32)) :
    exAdaptor.AsksAtMost 1 1 ∧ exAdaptor.Forges H scalarOne seed p :=
  ⟨exAdaptor_asks, exAdaptor_wins H seed _ _⟩

/-- **C123**. An adaptor signature can be drawn without the secret key: over a uniform nonce and challenge, what
`sign_solo_adaptor` makes for any message and adaptor point has the distribution of the transcripts. -/
theorem C123_adaptor_signatures_simulated (H : Hash) (sk : Scalar) (msg : Bytes) (seed : Arr 32) (T : MaybePoint)
    (S : Set (Arr 32 × AdaptorSignature)) :
    (Spec.chance fun p : Scalar × Arr 32 =>
        (p.2, signSoloAdaptor (nonceAnswering (challengeAnswering H p.2) (serScalar p.1.1)) sk msg seed T) ∈ S)
      = Spec.chance fun t : Transcript (mulG sk) T => (t.e, (⟨t.R.1, t.s⟩ : AdaptorSignature)) ∈ S := by
  rw [← CmaForger.chance_equiv (transcriptEquiv sk T)]
  congr 1
  funext p
  rw [adaptor_ofNonce]
  rfl

/-- **C123**. Transcripts can be drawn without the secret key: they are the triples of a sign, a challenge `e` and a scalar `s` for
which the sign is that of the adapted nonce, the nonce being the sign times `s G - e P`, with `P` made even. These are
almost half of all triples. -/
theorem C123_transcripts_drawn (P : Point) (T : MaybePoint) :
    Set.BijOn (fun t : Transcript P T => (isOdd (t.R.1 + T), t.e, t.s)) Set.univ
        {p : Bool × Arr 32 × MaybeScalar |
          let R := negIf p.1 (p.2.2 • G - reduceFrom p.2.1 • Spec.sgn P.1 • P.1)
          R ≠ 0 ∧ isOdd (R + T) = p.1} ∧
      2 * orderN * Nat.card (Transcript P T) = (orderN - 1) * Nat.card (Bool × Arr 32 × MaybeScalar) := by
  have hR : ∀ t : Transcript P T, negIf (isOdd (t.R.1 + T)) (t.s • G - reduceFrom t.e • Spec.sgn P.1 • P.1) = t.R.1 := by
    intro t
    rw [t.eqn, add_sub_cancel_right, sgn_smul, negIf_negIf, Bool.xor_self, negIf_false]
  refine ⟨⟨fun t _ => ?_, fun t _ t' _ h => ?_, fun p hp => ?_⟩, ?_⟩
  · simp only [Set.mem_setOf_eq]
    rw [hR]
    exact ⟨t.R.2, rfl⟩
  · simp only [Prod.mk.injEq] at h
    refine Transcript.ext_of (Subtype.ext ?_) h.2.1
    rw [← hR t, ← hR t', h.1, h.2.1, h.2.2]
  · obtain ⟨b, e, s⟩ := p
    simp only [Set.mem_setOf_eq] at hp
    obtain ⟨h0, hb⟩ := hp
    refine ⟨⟨⟨_, h0⟩, e, s, ?_⟩, Set.mem_univ _, ?_⟩
    · simp only
      rw [sgn_smul, hb, negIf_negIf, Bool.xor_self, negIf_false, sub_add_cancel]
    · simp only
      rw [hb]
  · rw [transcript_card, Nat.card_prod, Nat.card_prod, arr_card, Nat.card_eq_fintype_card (α := Bool), Fintype.card_bool,
      Nat.card_eq_fintype_card (α := MaybeScalar), ZMod.card]
    ring

end Verif
