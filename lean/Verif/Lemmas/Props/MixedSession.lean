import Verif.Spec.MixedSession
import Verif.Lemmas.Props.Blame

/-!
# Lemmas and example data for `Props/MixedSession`
-/

namespace Verif

namespace MixedGroup

variable {H : Hash}

/-- The first round of an honest member with the nonces told. -/
theorem second_round (g : MixedGroup H) (T : MaybePoint) (msg : Bytes) {i : ℕ} (hi : i ∈ g.honest)
    (calls : List (ℕ × PubNonce)) (hn : g.NonceSchedule i calls) :
    let r := ((g.rounds i).run calls).1
    FirstRound.Reachable H r ∧ r.keyAggCtx = g.ctx ∧ r.signerIndex = i ∧
    ∃ r2, r.finalizeAdaptor H (g.sk i) T msg = .ok r2 ∧ r2.pubnonces = g.told ∧
      r2.aggregatedNonce = AggNonce.sum g.told ∧ r2.keyAggCtx = g.ctx ∧ r2.adaptorPoint = T ∧ r2.message = msg ∧
      ∀ ε, (r2.ourSignature : Res ε _) = .ok (partialSigValue H g.ctx (g.sk i) (g.rounds i).secnonce
        (AggNonce.sum g.told) T msg) := by
  intro r
  have hst := g.started i hi
  have hre : FirstRound.Reachable H r := (FirstRound.Reachable.new g.reachable hst).run calls
  obtain ⟨h1, h2, -⟩ := new_fields hst
  obtain ⟨k1, k2, k3⟩ := run_ctx (g.rounds i) calls
  have hk : r.keyAggCtx = g.ctx := k1.trans h1
  have ho : r.signerIndex = i := k2.trans h2
  have hns : r.pubnonceSlots.finalize = .ok g.told := by
    rw [hre.inv.slots_finalize, hk]
    refine ⟨g.told_length, fun j hj => ?_⟩
    rw [stored_history g.reachable hst calls hj, Spec.nonceFor_eq]
    by_cases hij : i = j
    · subst hij
      rw [if_pos rfl, g.told_honest i hi]
      rfl
    · rw [if_neg hij, Option.none_or]
      exact hn j hj fun e => hij e.symm
  have hf := hre.inv.finalizeAdaptor_eq (g.sk i) T msg hns
  rw [if_pos (by rw [hk]; exact List.mem_of_getElem? (g.keys i hi))] at hf
  have hs := (finalizeAdaptor_fields hre hf).2.2.2.2
  refine ⟨hre, hk, ho, _, hf, rfl, rfl, hk, rfl, rfl, fun ε => ?_⟩
  have hinv2 := SecondRound.inv_finalize hre.inv hf
  obtain ⟨s, hs1, hs2⟩ := SecondRound.ourSignature_eq hinv2 ε
  obtain ⟨s', hs1', hs2'⟩ := SecondRound.ourSignature_eq hinv2 Unit
  rw [hs1] at hs1'
  cases hs1'
  rw [hs2'] at hs
  rw [hs2]
  cases hs
  rw [hk, k3]
  rfl

end MixedGroup

/-- Three signers with the keys `1`, `2` and `3` under `stubHash`, of whom the first two are honest and the third has told
everybody `(G, -4·G)`. -/
theorem mixed_group (msg : Bytes) : ∃ g : MixedGroup stubHash, g.ctx = blameCtx ∧ g.honest = {0, 1} ∧
    g.told = [⟨Gpt, Gpt⟩, ⟨Gpt, Gpt⟩, blameNonce0] ∧ g.sessionNonce msg ≠ 0 := by
  have hex : ∀ i : ℕ, ∃ r, i < 3 → FirstRound.new stubHash blameCtx zeroSeed i SecNonceSpices.new = .ok r := by
    intro i
    by_cases hi : i < 3
    · obtain ⟨r, hr⟩ := new_ok (H := stubHash) (ctx := blameCtx) zeroSeed (i := i) hi SecNonceSpices.new (by decide)
      exact ⟨r, fun _ => hr⟩
    · exact ⟨⟨blameCtx, 0, ⟨scalarOne, scalarOne⟩, Slots.new 0⟩, fun h => absurd h hi⟩
  choose rounds hr using hex
  have hnonce : ∀ i, i < 3 → (rounds i).ourPublicNonce = ⟨Gpt, Gpt⟩ := by
    intro i hi
    unfold FirstRound.ourPublicNonce SecNonce.publicNonce
    rw [stub_secnonce (hr i hi), show mulG scalarOne = Gpt from Subtype.ext (one_smul _ _)]
  have hlt : ∀ i ∈ ({0, 1} : Finset ℕ), i = 0 ∨ i = 1 := by
    intro i hi
    simpa using hi
  refine ⟨⟨blameCtx, .new blameCtx_new, {0, 1}, fun i => blameKeys[i]?.getD scalarOne, ?_, fun _ => zeroSeed,
    fun _ => SecNonceSpices.new, rounds, ?_, [⟨Gpt, Gpt⟩, ⟨Gpt, Gpt⟩, blameNonce0], rfl, ?_⟩, rfl, rfl, rfl, ?_⟩
  · intro i hi
    rcases hlt i hi with rfl | rfl <;> rfl
  · intro i hi
    exact hr i (by rcases hlt i hi with rfl | rfl <;> norm_num)
  · intro i hi
    rcases hlt i hi with rfl | rfl
    · rw [hnonce 0 (by norm_num)]; rfl
    · rw [hnonce 1 (by norm_num)]; rfl
  · unfold MixedGroup.sessionNonce
    have hb : ∀ an : AggNonce, an.nonceCoefficient stubHash blameCtx.aggregatedPubkey msg = 1 :=
      fun an => stubHash_tagHash _ (by decide) _
    simp only
    rw [hb, one_smul, blame_sum0]
    exact Gpt.2

end Verif
