import Verif.Lemmas.Props.Completion
import Verif.Lemmas.Props.Aggregator
import Verif.Props.Adaptive
import Verif.Props.OneMore
import Verif.Props.Sessions
import Verif.Props.Solo

/-!
# Property C146: who completes a session knows what the others had to add

A member of a group has sent a partial signature in an adaptor session. Every valid signature with the message, the x-only key and the
x-only nonce of the session is, less this partial signature, the discrete logarithm of all that was missing: the partial signatures of the
others, and the adaptor point. And a forger that takes part in any number of sessions has no other valid signatures.
-/

namespace Verif

open Forger (answers)
open Concurrent (Unknown secrets)
open Adaptive

/-- **C146**. Let a member of the group have made the partial signature `s` with `sign_partial`. If `verify_single` accepts a signature with the
message, the x-only key and the x-only nonce of the session, then its scalar less `s` is the discrete logarithm of what the session needed. -/
theorem C146_completing_pays (H : Hash) (hH : TagsAgree H) (ctx : KeyAggContext) (hc : Reachable H ctx) (sk : Scalar) (sn : SecNonce)
    (an : AggNonce) (T : MaybePoint) (msg : Bytes) (s : MaybeScalar) (hs : signPartialAdaptor H ctx sk sn an T msg = .ok s) (Q : Point)
    (sig : CompactSignature) (hv : verifySingle H Q sig msg = .ok ()) (hQ : Spec.xbytes ctx.aggregatedPubkey.1 = Spec.xbytes Q.1)
    (hR : Spec.xbytes (Spec.sessionNonce H ctx.aggregatedPubkey ⟨an, T, msg⟩) = sig.rx.1) :
    (sig.s - s) • G = Spec.owed H ctx ⟨an, T, msg⟩ (mulG sk) sn.publicNonce :=
  completion_pays hH hc.inv hs hQ hR hv

/-- **C146**. What a session needed beside the partial signature of one member is what the others have to add: their partial signatures, the
part of the tweaks, and the adaptor point. The members and their nonces are in the order of the group, and the nonces add up to a finite one. -/
theorem C146_what_is_owed (H : Hash) (hH : TagsAgree H) (ctx : KeyAggContext) (hc : Reachable H ctx) (T : MaybePoint) (msg : Bytes)
    (before after : List (Point × PubNonce)) (P : Point) (pn : PubNonce)
    (hk : (before ++ (P, pn) :: after).map (·.1) = ctx.pubkeys) :
    let an := AggNonce.sum ((before ++ (P, pn) :: after).map (·.2))
    let r : Spec.Reply := ⟨an, T, msg⟩
    an.R1 + an.nonceCoefficient H ctx.aggregatedPubkey msg • an.R2 ≠ 0 →
    Spec.owed H ctx r P pn
      = ((before ++ after).map fun x => Spec.part H ctx r x.1 x.2).sum + Spec.tweakPart H ctx r • G
        + Spec.sgn (Spec.sessionNonce H ctx.aggregatedPubkey r) • T := by
  intro an r hR
  have hw : Spec.whole H ctx.aggregatedPubkey r = _ := whole_eq hH hc.inv T msg _ hk hR
  change _ = ((before ++ (P, pn) :: after).map fun x => Spec.part H ctx r x.1 x.2).sum + Spec.tweakPart H ctx r • G
    + Spec.sgn (Spec.sessionNonce H ctx.aggregatedPubkey r) • T at hw
  unfold Spec.owed
  rw [hw]
  clear hw hR
  clear_value r
  generalize Spec.part H ctx r = f
  simp only [List.map_append, List.map_cons, List.sum_append, List.sum_cons]
  abel

/-- **C146**. `verify_partial` accepts a partial signature of a member if and only if it is the discrete logarithm of their part. -/
theorem C146_parts_are_partial_signatures (H : Hash) (hH : TagsAgree H) (ctx : KeyAggContext) (hc : Reachable H ctx) (an : AggNonce) (T : MaybePoint)
    (msg : Bytes) (P : Point) (hP : P ∈ ctx.pubkeys) (pn : PubNonce) (s : MaybeScalar) :
    verifyPartialAdaptor H ctx s an T P pn msg = .ok () ↔ s • G = Spec.part H ctx ⟨an, T, msg⟩ P pn := by
  rw [spec_part hH, verifyPartialAdaptor_eq_ok hc.inv]
  exact ⟨fun h => h.2, fun h => ⟨hP, h⟩⟩

/-- **C146**. So who has the partial signatures of all members and sees the signature learns the adaptor secret: it is computed from them. -/
theorem C146_adaptor_secret (H : Hash) (hH : TagsAgree H) (ctx : KeyAggContext) (hc : Reachable H ctx) (T : MaybePoint) (msg : Bytes)
    (before after : List (Point × PubNonce)) (sk : Scalar) (sn : SecNonce)
    (hk : (before ++ (mulG sk, sn.publicNonce) :: after).map (·.1) = ctx.pubkeys) :
    let an := AggNonce.sum ((before ++ (mulG sk, sn.publicNonce) :: after).map (·.2))
    let N := Spec.sessionNonce H ctx.aggregatedPubkey ⟨an, T, msg⟩
    an.R1 + an.nonceCoefficient H ctx.aggregatedPubkey msg • an.R2 ≠ 0 →
    ∀ (s : MaybeScalar) (others : Point × PubNonce → MaybeScalar) (sig : CompactSignature),
      signPartialAdaptor H ctx sk sn an T msg = .ok s →
      (∀ x ∈ before ++ after, verifyPartialAdaptor H ctx (others x) an T x.1 x.2 msg = .ok ()) →
      verifySingle H ctx.aggregatedPubkey sig msg = .ok () → Spec.xbytes N = sig.rx.1 →
      (Spec.sgn N * (sig.s - s - ((before ++ after).map others).sum - Spec.tweakPart H ctx ⟨an, T, msg⟩)) • G = T := by
  intro an N hR s others sig hs ho hv hN
  have h1 := C146_completing_pays H hH ctx hc sk sn an T msg s hs _ sig hv rfl hN
  rw [C146_what_is_owed H hH ctx hc T msg before after (mulG sk) sn.publicNonce hk hR] at h1
  have h2 : ((before ++ after).map fun x => Spec.part H ctx ⟨an, T, msg⟩ x.1 x.2).sum = ((before ++ after).map others).sum • G := by
    rw [sum_smul_G, List.map_map]
    refine congrArg _ (List.map_congr_left fun x hx => ?_)
    have hx' : x.1 ∈ ctx.pubkeys := by
      rw [← hk]
      refine List.mem_map.2 ⟨x, ?_, rfl⟩
      rcases List.mem_append.1 hx with h | h
      · exact List.mem_append_left _ h
      · exact List.mem_append_right _ (List.mem_cons_of_mem _ h)
    exact ((C146_parts_are_partial_signatures H hH ctx hc an T msg x.1 hx' x.2 _).1 (ho x hx)).symm
  change (sig.s - s) • G = (List.map (fun x => Spec.part H ctx ⟨an, T, msg⟩ x.1 x.2) (before ++ after)).sum + _ + Spec.sgn N • T at h1
  rw [h2] at h1
  have h3 : (sig.s - s - ((before ++ after).map others).sum - Spec.tweakPart H ctx ⟨an, T, msg⟩) • G = Spec.sgn N • T := by
    rw [sub_smul, sub_smul, h1]
    change _ + Spec.tweakPart H ctx ⟨an, T, msg⟩ • G + _ - _ - _ = _
    abel
  rw [mul_smul, h3, ← mul_smul, sgn_mul_sgn, one_smul]

/-- The hypotheses can be met: a signer with the key `1·G` and another with `2·G`, both with the nonces `1`, and the adaptor
point `7·G`. The secret that is computed is `7`. -/
example (msg : Bytes) : let sn : SecNonce := ⟨scalarOne, scalarOne⟩
    let an := AggNonce.sum [sn.publicNonce, sn.publicNonce]
    let N := Spec.sessionNonce stubHash stubCtx.aggregatedPubkey ⟨an, (7 : MaybeScalar) • G, msg⟩
    ∃ (s s' : MaybeScalar) (sig : CompactSignature),
      signPartialAdaptor stubHash stubCtx scalarOne sn an ((7 : MaybeScalar) • G) msg = .ok s ∧
      verifyPartialAdaptor stubHash stubCtx s' an ((7 : MaybeScalar) • G) (mulG ⟨2, two_ne_zero_scalar⟩) sn.publicNonce msg = .ok () ∧
      verifySingle stubHash stubCtx.aggregatedPubkey sig msg = .ok () ∧ Spec.xbytes N = sig.rx.1 ∧
      Spec.sgn N * (sig.s - s - s' - Spec.tweakPart stubHash stubCtx ⟨an, (7 : MaybeScalar) • G, msg⟩) = 7 := by
  intro sn an N
  have hc : Reachable stubHash stubCtx := .new stubCtx_new
  have hb : an.nonceCoefficient stubHash stubCtx.aggregatedPubkey msg = 1 := stubHash_tagHash _ (by decide) _
  have h4 : an.R1 + an.nonceCoefficient stubHash stubCtx.aggregatedPubkey msg • an.R2 = (4 : MaybeScalar) • G := by
    rw [hb, one_smul]
    simp only [an]
    rw [AggNonce.sum_eq]
    simp only [List.map_cons, List.map_nil, List.sum_cons, List.sum_nil, add_zero]
    change (1 : MaybeScalar) • G + (1 : MaybeScalar) • G + ((1 : MaybeScalar) • G + (1 : MaybeScalar) • G) = _
    module
  have h4' : (4 : MaybeScalar) • G ≠ 0 := by
    rw [Ne, smul_G_eq_zero]
    exact_mod_cast natCast_scalar_ne_zero (k := 4) (by norm_num) (by norm_num)
  have hN : N = (11 : MaybeScalar) • G := by
    simp only [N]
    rw [spec_sessionNonce]
    unfold sessionRT sessionR
    change (an.finalNonce (an.nonceCoefficient stubHash stubCtx.aggregatedPubkey msg)).1 + _ = _
    rw [finalNonce_eq_of_ne (by rw [h4]; exact h4'), h4]
    module
  have hN0 : N ≠ 0 := by
    rw [hN, Ne, smul_G_eq_zero]
    exact_mod_cast natCast_scalar_ne_zero (k := 11) (by norm_num) (by norm_num)
  obtain ⟨s, hs⟩ := (C24_sign_iff_member stubHash stubCtx hc scalarOne sn an ((7 : MaybeScalar) • G) msg).1 (List.mem_cons_self ..)
  obtain ⟨s', hs', -⟩ := C27_unique_partial_signature stubHash stubCtx hc an ((7 : MaybeScalar) • G) (mulG ⟨2, two_ne_zero_scalar⟩)
    (List.mem_cons_of_mem _ (List.mem_cons_self ..)) sn.publicNonce msg
  have hl := spec_lift_x_xonly ⟨N, hN0⟩
  obtain ⟨z, hz⟩ := (C73_exists_iff_lift stubHash stubCtx.aggregatedPubkey (xonly N) msg).2 ⟨_, hl⟩
  refine ⟨s, s', ⟨xonly N, z⟩, hs, hs', hz, spec_xbytes N, ?_⟩
  have h := C146_adaptor_secret stubHash stubHash_tagsAgree stubCtx hc ((7 : MaybeScalar) • G) msg [] [(mulG ⟨2, two_ne_zero_scalar⟩, sn.publicNonce)]
    scalarOne sn rfl (by change an.R1 + an.nonceCoefficient stubHash stubCtx.aggregatedPubkey msg • an.R2 ≠ 0; rw [h4]; exact h4')
    s (fun _ => s') ⟨xonly N, z⟩ hs (fun x hx => by
      rw [List.nil_append, List.mem_singleton] at hx
      rw [hx]
      exact hs') hz (spec_xbytes N)
  simp only [List.nil_append, List.map_cons, List.map_nil, List.sum_cons, List.sum_nil, add_zero] at h
  exact smul_G_inj.1 h

/-- **C146**. A forger as in C119 comes up with a valid signature that does not complete a session no more often than `solver` computes the
secret key and all secret nonces, with one discrete logarithm less (`C119_solver_asks_one_less`), up to a negligible term. -/
theorem C146_only_completions (H : Hash) (hH : TagsAgree H) (sk : Scalar) (sn : ℕ → SecNonce) (A : Adversary) (q k : ℕ)
    (hA : A.AsksAtMost q k) :
    (Spec.chance fun ω : Fin q → Arr 32 => ForgesUncompleted k H sk sn A ω)
      ≤ (Spec.chance fun ω : Fin q → Arr 32 =>
          ((solver k H (mulG sk) (fun i => (sn i).publicNonce) A).run (secrets k sk sn) (answers ω) []).1 = secrets k sk sn)
        + ((k + 7) * (q * (q + 1)) + 2 ^ 34 * q) / 2 ^ 256 :=
  (CmaForger.chance_mono fun _ hω => forges_of_uncompleted hH hA hω).trans (C119_adaptive_forger_solves H hH sk sn A q k hA)

/-- **C146**. The same when the secret key and the secret nonces are drawn, in terms of the one-more discrete logarithm problem. -/
theorem C146_only_completions_one_more (H : Hash) (hH : TagsAgree H) (A : Point → Adversary) (q k : ℕ) (hA : ∀ P, (A P).AsksAtMost q k) :
    (Spec.chance fun p : (Unknown k → Scalar) × (Fin q → Arr 32) =>
        ForgesUncompleted k H (p.1 none) (secretNonces p.1) (A (mulG (p.1 none))) p.2)
      ≤ Spec.oneMoreDlog k q (attack k H A) + ((k + 7) * (q * (q + 1)) + 2 ^ 34 * q) / 2 ^ 256 :=
  (CmaForger.chance_mono fun _ hp => forges_of_uncompleted hH (hA _) hp).trans (C120_forging_solves_one_more H hH A q k hA)

/-- The forger of the example of C119, which has been told the secret key, succeeds with almost all hashes if the message of the session is
not the empty one that it signs. -/
example (sk : Scalar) (sn : ℕ → SecNonce) (an : AggNonce) (m : Bytes) (hm : m ≠ []) : ∃ A : Adversary, A.AsksAtMost 10 1 ∧
    ∀ ω : Fin 10 → Arr 32, reduceFrom (answers ω 1) ≠ 0 → ForgesUncompleted 1 sha256 sk sn A ω := by
  refine ⟨_, exAdversary_asks sk an m, fun ω h0 => ?_⟩
  have h := exAdversary_run sha256_tagsAgree sk sn an m (fun h => absurd h hm) ω h0
  unfold ForgesUncompleted
  set res := (signerGame 1 sha256 sk sn (exAdversary sk an m)).run (secrets 1 sk sn) (answers ω) [] with hres
  clear_value res
  obtain ⟨_ | out, log⟩ := res
  · exact h.1.elim
  · obtain ⟨⟨-, w⟩, h1, h2⟩ := h
    refine ⟨?_, w⟩
    rintro ⟨i, T, r, hi, hr, -⟩
    exact hm ((h2 _ (List.mem_of_getElem? hi) r rfl).symm.trans (hr.trans h1))

end Verif
