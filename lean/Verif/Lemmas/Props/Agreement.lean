import Verif.Props.Sessions
import Verif.Props.Forking
import Verif.Props.Group

/-!
# Helper lemmas for property C103
-/

namespace Verif

/-- What a successful finalization of the first round fixes. -/
theorem finalizeAdaptor_fields {H : Hash} {r : FirstRound} (hr : FirstRound.Reachable H r) {sk : Scalar}
    {T : MaybePoint} {msg : Bytes} {r2 : SecondRound} (h : r.finalizeAdaptor H sk T msg = .ok r2) :
    r2.keyAggCtx = r.keyAggCtx ∧ r2.adaptorPoint = T ∧ r2.message = msg ∧ mulG sk ∈ r.keyAggCtx.pubkeys ∧
    (r2.ourSignature : Res Unit _)
      = .ok (partialSigValue H r.keyAggCtx sk r.secnonce r2.aggregatedNonce T msg) := by
  rcases Slots.collect_cases r.pubnonceSlots.slots with ⟨ns, hns⟩ | hinc
  · have hns' : r.pubnonceSlots.finalize = .ok ns := hns
    have hinv2 := SecondRound.inv_finalize hr.inv h
    rw [hr.inv.finalizeAdaptor_eq sk T msg hns'] at h
    split_ifs at h with hm
    cases h
    refine ⟨rfl, rfl, rfl, hm, ?_⟩
    obtain ⟨s, h1, h2⟩ := SecondRound.ourSignature_eq hinv2 Unit
    rw [h2]
    obtain ⟨hl, -⟩ := (hr.inv.slots_finalize ns).1 hns'
    have hown : r.signerIndex < ns.length := by rw [hl]; exact hr.inv.own
    unfold SecondRound.stored at h1
    simp only at h1
    rw [Slots.place_new hown] at h1
    simp only at h1
    rw [List.getElem?_set_self (by simpa using hown), Option.join_some, Option.some.injEq] at h1
    rw [← h1]
    rfl
  · rw [FirstRound.finalizeAdaptor_incomplete sk T msg hinc] at h
    cases h

/-- What a second round returns is valid for its own key, message and adaptor point. -/
theorem SecondRound.finalizeAdaptor_valid {H : Hash} {r : SecondRound} {a : AdaptorSignature}
    (h : r.finalizeAdaptor H = .ok a) :
    verifySingleAdaptor H r.keyAggCtx.pubkey a r.message r.adaptorPoint = .ok () := by
  unfold SecondRound.finalizeAdaptor at h
  obtain ⟨ss, -, h⟩ := Res.bind_eq_ok.1 h
  rw [Res.mapErr_eq_ok] at h
  exact (aggregateAdaptor_eq_ok.1 h).2

/-- The second round of a signer of an honest group knows the nonces of the group. -/
theorem HonestGroup.second_round {H : Hash} (g : HonestGroup H) (T : MaybePoint) (msg : Bytes) {i : ℕ}
    (hi : i < g.sks.length) (calls : List (ℕ × PubNonce)) (hn : g.NonceSchedule i calls) :
    ∃ r2, ((g.rounds i).run calls).1.finalizeAdaptor H g.sks[i] T msg = .ok r2 ∧ r2.pubnonces = g.nonces ∧
      r2.aggregatedNonce = AggNonce.sum g.nonces := by
  obtain ⟨r2, h, -⟩ := g.signer T msg hi calls hn
  obtain ⟨c1, c2, c3⟩ := C57_first_round_finalize H g.ctx g.reachable _ i _ _ (g.started i hi) calls g.sks[i] T msg
  have hcomp : ((g.rounds i).run calls).1.isComplete = true := by
    by_contra hb
    rw [c1.2 (by simpa using hb)] at h
    cases h
  obtain ⟨r2', ns, s, h', h1, h2, h3, h4, -⟩ := c3 hcomp (List.mem_of_getElem? (g.key_get hi))
  have hns : ns = g.nonces := by
    refine List.ext_getElem? fun j => ?_
    by_cases hj : j < g.ctx.pubkeys.length
    · rw [h2 j hj, Spec.nonceFor_eq]
      rw [g.length_keys] at hj
      rw [g.nonces_get hj]
      by_cases hij : i = j
      · subst hij
        rw [if_pos rfl]
        rfl
      · rw [if_neg hij, Option.none_or]
        exact hn j hj fun e => hij e.symm
    · have hl : g.nonces.length = g.ctx.pubkeys.length := by simp [HonestGroup.nonces, g.length_keys]
      rw [List.getElem?_eq_none (by omega), List.getElem?_eq_none (by omega)]
  exact ⟨r2', h', h3.trans hns, h4.trans (by rw [hns])⟩

end Verif
