import Verif.Lemmas.Props.OneMore
import Verif.Spec.Completion

/-!
# Lemmas for `Props/Completion`
-/

namespace Verif

theorem spec_sessionNonce (H : Hash) (ctx : KeyAggContext) (an : AggNonce) (T : MaybePoint) (msg : Bytes) :
    Spec.sessionNonce H ctx.aggregatedPubkey ⟨an, T, msg⟩ = sessionRT H ctx an T msg := by
  unfold Spec.sessionNonce sessionRT sessionR
  rw [reply_nonce, (C66_what_is_hashed _).2.2.1]
  rfl

theorem spec_part {H : Hash} (hH : TagsAgree H) (ctx : KeyAggContext) (an : AggNonce) (T : MaybePoint) (msg : Bytes) (P : Point) (pn : PubNonce) :
    Spec.part H ctx ⟨an, T, msg⟩ P pn = partialRhs H ctx an T P pn msg := by
  unfold Spec.part partialRhs
  simp only
  rw [spec_sessionNonce, spec_challenge hH, sgn_smul, keyCoeff_eq hH, (C66_what_is_hashed _).2.2.1]
  congr 1
  rw [mul_right_comm, mul_comm, keySign_mul, ← negIf_smul, mul_smul]
  rfl

theorem completion_pays {H : Hash} (hH : TagsAgree H) {ctx : KeyAggContext} (hi : CtxInv H ctx) {sk : Scalar} {sn : SecNonce}
    {an : AggNonce} {T : MaybePoint} {msg : Bytes} {s : MaybeScalar} (hs : signPartialAdaptor H ctx sk sn an T msg = .ok s) {Q : Point}
    {sig : CompactSignature} (hQ : Spec.xbytes ctx.aggregatedPubkey.1 = Spec.xbytes Q.1)
    (hrx : Spec.xbytes (Spec.sessionNonce H ctx.aggregatedPubkey ⟨an, T, msg⟩) = sig.rx.1) (hv : verifySingle H Q sig msg = .ok ()) :
    (sig.s - s) • G = Spec.owed H ctx ⟨an, T, msg⟩ (mulG sk) sn.publicNonce := by
  rw [spec_xbytes, spec_xbytes] at hQ
  replace hQ := Subtype.ext hQ
  rw [spec_xbytes] at hrx
  replace hrx : xonly _ = sig.rx := Subtype.ext hrx
  have hs' : s = partialSigValue H ctx sk sn an T msg := by
    rw [signPartialAdaptor_eq hi] at hs
    split at hs
    · exact (Res.ok.inj hs).symm
    · cases hs
  obtain ⟨V, h1, h2, h3⟩ := verifySingle_eq_ok.1 hv
  unfold Spec.owed Spec.whole
  simp only
  rw [sub_smul, spec_part hH, hs', partialSigValue_smul, h1, sgn_smul, spec_challenge hH, ← CmaForger.toEvenY_sgn, GroupForger.toEvenY_congr hQ,
    hrx]
  congr 2
  · have : V.1 = negIf (isOdd (Spec.sessionNonce H ctx.aggregatedPubkey ⟨an, T, msg⟩)) (Spec.sessionNonce H ctx.aggregatedPubkey ⟨an, T, msg⟩) := by
      refine eq_of_xonly_isOdd (by rw [h3, xonly_negIf, hrx]) ?_
      have hN : Spec.sessionNonce H ctx.aggregatedPubkey ⟨an, T, msg⟩ ≠ 0 := by
        intro h0
        rw [h0] at hrx
        rcases xonly_eq_iff.1 (h3.trans hrx.symm) with h | h
        · exact V.2 h
        · exact V.2 (h.trans neg_zero)
      rw [h2, isOdd_negIf hN, Bool.xor_self]
    exact this
  · unfold computeChallengeHashTweak
    rw [hQ]

theorem whole_eq {H : Hash} (hH : TagsAgree H) {ctx : KeyAggContext} (hi : CtxInv H ctx) (T : MaybePoint) (msg : Bytes)
    (l : List (Point × PubNonce)) (hk : l.map (·.1) = ctx.orderedPubkeys)
    (hR : (AggNonce.sum (l.map (·.2))).R1 + (AggNonce.sum (l.map (·.2))).nonceCoefficient H ctx.pubkey msg
      • (AggNonce.sum (l.map (·.2))).R2 ≠ 0) :
    Spec.whole H ctx.aggregatedPubkey ⟨AggNonce.sum (l.map (·.2)), T, msg⟩
      = (l.map fun x => Spec.part H ctx ⟨AggNonce.sum (l.map (·.2)), T, msg⟩ x.1 x.2).sum
        + Spec.tweakPart H ctx ⟨AggNonce.sum (l.map (·.2)), T, msg⟩ • G
        + Spec.sgn (Spec.sessionNonce H ctx.aggregatedPubkey ⟨AggNonce.sum (l.map (·.2)), T, msg⟩) • T := by
  set an := AggNonce.sum (l.map (·.2)) with han
  unfold Spec.whole Spec.tweakPart
  simp only [spec_part hH]
  have hRs : (sessionR H ctx an msg).1 = (l.map fun x => x.2.R1.1).sum
      + an.nonceCoefficient H ctx.pubkey msg • (l.map fun x => x.2.R2.1).sum := by
    unfold sessionR
    rw [finalNonce_eq_of_ne hR]
    have h1 : an.R1 = (l.map fun x => x.2.R1.1).sum := by
      rw [han]; unfold AggNonce.sum; simp only [List.map_map]; rfl
    have h2 : an.R2 = (l.map fun x => x.2.R2.1).sum := by
      rw [han]; unfold AggNonce.sum; simp only [List.map_map]; rfl
    rw [h1, h2]
  have hK : (l.map fun x => coeffOf H ctx.orderedPubkeys x.1 • x.1.1).sum = keySum H ctx.orderedPubkeys := by
    unfold keySum
    have : (l.map fun x => coeffOf H ctx.orderedPubkeys x.1 • x.1.1)
        = (l.map (·.1)).map fun P => coeffOf H ctx.orderedPubkeys P • P.1 := by rw [List.map_map]; rfl
    rw [this, hk]
  rw [sum_partialRhs, hK, ← hRs, spec_sessionNonce, spec_challenge hH]
  change _ + sessionE H ctx an T msg • _ = _ + (sessionE H ctx an T msg * _ * _) • G + _
  rw [sgn_smul, sgn_smul, sgn_smul]
  rw [mul_assoc, mul_smul, sgn_mul]
  have hRT : sessionRT H ctx an T msg = (sessionR H ctx an msg).1 + T := rfl
  change negIf (isOdd (sessionRT H ctx an T msg)) (sessionRT H ctx an T msg) + (sessionE H ctx an T msg) • negIf (isOdd ctx.pubkey.1) ctx.pubkey.1
    = _ + (sessionE H ctx an T msg) • negIf (isOdd ctx.pubkey.1) ctx.tweakAcc • G + _
  generalize isOdd ctx.pubkey.1 = c
  generalize isOdd (sessionRT H ctx an T msg) = b
  rw [hRT, hi.pub]
  generalize sessionE H ctx an T msg = e
  cases b <;> cases c <;> cases ctx.parityAcc <;> simp only [negIf_false, negIf_true, Bool.xor_false, Bool.xor_true, Bool.not_true, Bool.not_false] <;> module

namespace Adaptive

open Concurrent (secrets)
open Forger (answers)

/-- Without completing a session, a signature is about none. -/
theorem forges_of_uncompleted {H : Hash} (hH : TagsAgree H) {sk : Scalar} {sn : ℕ → SecNonce} {A : Adversary} {q k : ℕ} (hA : A.AsksAtMost q k)
    {N : ℕ} {ω : Fin N → Arr 32} (h : ForgesUncompleted k H sk sn A ω) : Forges k H sk sn A ω := by
  obtain ⟨h0, h1⟩ := game_inv (σ := fun i g r hb he => SessionForger.partialSignature g.hash g.ctx sk (sn i) r hb he) hH
    (fun i => (sn i).publicNonce) (secrets k sk sn) (answers ω) (sign := fun i g r hb he => .done _) (fun i hi g hg r hb he log => rfl) hA
    (by simp) (gameInv_nil (mulG sk) _)
  unfold ForgesUncompleted at h
  unfold Forges
  set res := (signerGame k H sk sn A).run (secrets k sk sn) (answers ω) [] with hres
  change ∀ e ∈ res.2, Drawn e.1 at h0
  have h2 : ∀ o, res.1 = some o → GameInv (mulG sk) (fun i g r hb he => SessionForger.partialSignature g.hash g.ctx sk (sn i) r hb he)
      o.sessions res.2 := fun o ho => (h1 o ho).1
  clear h1
  clear_value res
  obtain ⟨_ | out, log⟩ := res
  · exact h.elim
  obtain ⟨w1, w2, w3⟩ := h
  refine ⟨?_, w2, w3⟩
  rintro ⟨T, _⟩ hs r rfl ⟨hm, hk, hn⟩
  obtain ⟨i, hi⟩ := List.mem_iff_getElem?.1 hs
  replace h2 := h2 out rfl
  obtain ⟨g1, -, g3⟩ := signed_code (H := H) h2 hi
  refine w1 ⟨i, T, r, hi, hm, hk, completion_pays (tagsAgree_hash hH h0) g1.reachable.inv g3 hk ?_ (hm ▸ w2)⟩
  rw [← signed_nonce h2 hi]
  exact hn

end Adaptive

end Verif
