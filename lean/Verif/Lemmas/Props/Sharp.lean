import Verif.Props.Forking
import Verif.Props.Sessions
import Verif.Props.Unlock
import Verif.Props.KeyAggBytes

/-!
# Helper lemmas for `Props/Sharp.lean`
-/

namespace Verif

theorem header_and_three (hd : UInt8) :
    (hd &&& 3) &&& 1 = hd &&& 1 ∧ (hd &&& 3) &&& 2 = hd &&& 2 ∧ (hd &&& 3) &&& 3 = hd &&& 3 := by
  have : ∀ n : Fin 256, (UInt8.ofFin n &&& 3) &&& 1 = UInt8.ofFin n &&& 1 ∧
      (UInt8.ofFin n &&& 3) &&& 2 = UInt8.ofFin n &&& 2 ∧ (UInt8.ofFin n &&& 3) &&& 3 = UInt8.ofFin n &&& 3 := by
    decide +kernel
  exact this hd.toFin

/-- The decoder looks at the two low bits of the header only. -/
theorem fromBytes_header (H : Hash) (hd : UInt8) (rest : Bytes) (ctx : KeyAggContext) :
    KeyAggContext.fromBytes H (hd :: rest) = .ok ctx ↔ KeyAggContext.fromBytes H ((hd &&& 3) :: rest) = .ok ctx := by
  rw [fromBytes_eq_ok, fromBytes_eq_ok]
  obtain ⟨h1, h2, -⟩ := header_and_three hd
  constructor
  · rintro ⟨hd', keys, t, hb, ht, a, b, c, Q, hQ, he⟩
    simp only [List.append_assoc, List.singleton_append] at hb
    obtain ⟨rfl, rfl⟩ := List.cons.inj hb
    exact ⟨_, keys, t, by simp only [List.append_assoc, List.singleton_append]; rfl, by rw [h2]; exact ht, a, b, c, Q,
      by rw [h1]; exact hQ, by rw [h1]; exact he⟩
  · rintro ⟨hd', keys, t, hb, ht, a, b, c, Q, hQ, he⟩
    simp only [List.append_assoc, List.singleton_append] at hb
    obtain ⟨rfl, rfl⟩ := List.cons.inj hb
    rw [h2] at ht
    rw [h1] at hQ he
    exact ⟨hd, keys, t, by simp only [List.append_assoc, List.singleton_append]; rfl, ht, a, b, c, Q, hQ, he⟩

/-- What the first round hands over to the second one. -/
theorem finalized_fields {H : Hash} {r : FirstRound} (hr : FirstRound.Reachable H r) {sk : Scalar} {T : MaybePoint}
    {msg : Bytes} {r2 : SecondRound} (h : r.finalizeAdaptor H sk T msg = .ok r2) :
    r2.keyAggCtx = r.keyAggCtx ∧ r2.signerIndex = r.signerIndex ∧ r2.adaptorPoint = T ∧ r2.message = msg ∧
      mulG sk ∈ r.keyAggCtx.pubkeys ∧ r2.pubnonces[r.signerIndex]? = some r.ourPublicNonce ∧
      ∃ s, r2.stored r.signerIndex = some s ∧ (∀ ε, (r2.ourSignature : Res ε _) = .ok s) ∧
        signPartialAdaptor H r.keyAggCtx sk r.secnonce r2.aggregatedNonce T msg = .ok s := by
  have hinv2 := SecondRound.inv_finalize hr.inv h
  rcases Slots.collect_cases r.pubnonceSlots.slots with ⟨ns, hns⟩ | hinc
  · have hns' : r.pubnonceSlots.finalize = .ok ns := hns
    have h0 := h
    rw [hr.inv.finalizeAdaptor_eq sk T msg hns'] at h
    split_ifs at h with hm
    have hag : r2.aggregatedNonce = AggNonce.sum ns := by cases h; rfl
    cases h
    obtain ⟨hl, hst⟩ := (hr.inv.slots_finalize ns).1 hns'
    have hown : r.signerIndex < ns.length := by rw [hl]; exact hr.inv.own
    have hs : ∃ s, SecondRound.stored _ r.signerIndex = some s := hinv2.mine
    refine ⟨rfl, rfl, rfl, rfl, hm, ?_, partialSigValue H r.keyAggCtx sk r.secnonce (AggNonce.sum ns) T msg, ?_, fun ε => ?_, ?_⟩
    · simp only
      rw [← hst _ hr.inv.own]
      exact hr.inv.mine
    · unfold SecondRound.stored
      simp only
      rw [Slots.place_new hown]
      simp only
      rw [List.getElem?_set_self (by simpa using hown), Option.join_some]
    · obtain ⟨s, h1, h2⟩ := SecondRound.ourSignature_eq hinv2 ε
      rw [h2]
      unfold SecondRound.stored at h1
      simp only at h1
      rw [Slots.place_new hown] at h1
      simp only at h1
      rw [List.getElem?_set_self (by simpa using hown), Option.join_some, Option.some.injEq] at h1
      rw [h1]
    · rw [signPartialAdaptor_eq hr.inv.ctx.inv, if_pos hm, hag]
  · have hinc' : r.pubnonceSlots.finalize = .err .incomplete := hinc
    rw [FirstRound.finalizeAdaptor_incomplete sk T msg hinc'] at h
    cases h

end Verif
