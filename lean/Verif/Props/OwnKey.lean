import Verif.Lemmas.Props.OwnKey
import Verif.Lemmas.Props.Decision
import Verif.Props.Signing
import Verif.Props.Adaptive
import Verif.Props.OneMore

/-!
# Property C144: taking part in groups, and signatures of the member's own key

A key that is used in groups may hold coins of its own too, directly, as a taproot output or by unhardened derivation. A forger takes part
in any number of sessions with the owner of `P`, as in C119, and submits a signature for `P + t·G`, with `t` of its choice.
-/

namespace Verif

open Forger (answers)
open Concurrent (Unknown secrets)
open Adaptive (Session Signed solver attack secretNonces)
open OwnForger

/-- **C144**. Let an algebraic forger open at most `k` sessions with the owner of the key `mulG sk` at once, have at most `q` strings
drawn, and submit a signature for the key `mulG sk` or this key with an offset, whose message, x-only key and
x-only nonce are not all those of one session. Then the solver of C119, for the forger `forGroup`, computes the secret key and all secret nonces with the same probability up to a
bound as in C119. -/
theorem C144_own_key_forger_solves (H : Hash) (hH : TagsAgree H) (sk : Scalar) (sn : ℕ → SecNonce) (A : OwnForger) (q k : ℕ)
    (hA : A.AsksAtMost q k) :
    (Spec.chance fun ω : Fin (q + 6) → Arr 32 => Forges k H sk sn A ω)
      ≤ (Spec.chance fun ω : Fin (q + 6) → Arr 32 =>
          ((solver k H (mulG sk) (fun i => (sn i).publicNonce) (A.forGroup (mulG sk) [])).run (secrets k sk sn) (answers ω) []).1
            = secrets k sk sn)
        + ((k + 7) * (((q + 6 : ℕ) : ℚ) * ((q + 6 : ℕ) + 1)) + 2 ^ 34 * (q + 6 : ℕ)) / 2 ^ 256 + 2 * (q + 6) / 2 ^ 256 := by
  by_cases hq : q + 2 < orderN
  · exact (forges_own hH sk sn hA hq).trans
      (add_le_add (C119_adaptive_forger_solves H hH sk sn _ _ k (forGroup_asks (mulG sk) hA [])) le_rfl)
  · refine (Decision.chance_le_one _).trans ((bound_trivial (k := k) hq).trans ?_)
    rw [add_assoc]
    exact le_add_of_nonneg_of_le (CmaForger.chance_nonneg _) (le_add_of_nonneg_right (by positivity))

/-- **C144**. If the secret key and the secret nonces are drawn, then the forger, which is given the public key, succeeds no more often than
the one-more discrete logarithm problem is solved, up to the bound. The solver asks for at most `2k` discrete logarithms. -/
theorem C144_own_key_forging_solves_one_more (H : Hash) (hH : TagsAgree H) (A : Point → OwnForger) (q k : ℕ)
    (hA : ∀ P, (A P).AsksAtMost q k) :
    (Spec.chance fun p : (Unknown k → Scalar) × (Fin (q + 6) → Arr 32) =>
        Forges k H (p.1 none) (secretNonces p.1) (A (mulG (p.1 none))) p.2)
      ≤ Spec.oneMoreDlog k (q + 6) (attack k H fun P => (A P).forGroup P [])
        + ((k + 7) * (((q + 6 : ℕ) : ℚ) * ((q + 6 : ℕ) + 1)) + 2 ^ 34 * (q + 6 : ℕ)) / 2 ^ 256 + 2 * (q + 6) / 2 ^ 256 ∧
      ∀ X, (attack k H (fun P => (A P).forGroup P []) X).DlogsAtMost (2 * k) := by
  refine ⟨?_, fun X => ?_⟩
  · by_cases hq : q + 2 < orderN
    · have h := Adaptive.forges_oneMore hH fun P => forGroup_asks P (hA P) []
      have h1 := CmaForger.chance_snd (Ω := Unknown k → Scalar) (Ω' := Fin (q + 6) → Arr 32)
        (fun x ω => Concurrent.Hits (bad (mulG (x none))) (secrets k (x none) (secretNonces x)) (answers ω)
          (Adaptive.signerGame k H (x none) (secretNonces x) ((A (mulG (x none))).forGroup (mulG (x none)) [])) [])
        (2 * ((q + 6 : ℕ) : ℚ) / 2 ^ 256) (fun x => chance_cancel (x none) (secretNonces x) (forGroup_asks _ (hA _) [])) (by positivity)
      push_cast at h h1 ⊢
      exact (CmaForger.chance_mono fun p hp => forges_group hH _ _ (hA _) hq p.2 hp).trans
        ((CmaForger.chance_or _ _).trans (add_le_add h h1))
    · refine (Decision.chance_le_one _).trans ((bound_trivial (k := k) hq).trans ?_)
      rw [add_assoc]
      exact le_add_of_nonneg_of_le (CmaForger.chance_nonneg _) (le_add_of_nonneg_right (by positivity))
  · exact (C120_attack_asks_one_less H _ _ k (fun P => forGroup_asks P (hA P) []) X).1

/-- **C144**. The same if the nonces are built from seeds that are drawn, as in C121. The settings of the builders may depend on the secret key
and the hashes of the nonces, though not on the seeds. -/
theorem C144_own_key_forging_with_built_nonces (H : Hash) (hH : TagsAgree H) (A : Point → OwnForger) (q k m : ℕ)
    (B : Scalar → (Fin k → Arr 32 × Arr 32) → ℕ → SecNonceBuilder) (hA : ∀ P, (A P).AsksAtMost q k) (hm : ∀ P, (A P).OthersAtMost m) :
    (Spec.chance fun p : Scalar × (Fin k → Spec.NonceDraw) × (Fin (q + 6) → Arr 32) =>
      let b := B p.1 fun i => (p.2.1 i).2
      Forges k (Spec.nonceHash H b p.2.1) p.1 (Spec.builtNonce H b p.2.1) (A (mulG p.1)) p.2.2)
      ≤ Spec.oneMoreDlog k (q + 6) (attack k H fun P => (A P).forGroup P [])
        + ((k + 7) * (((q + 6 : ℕ) : ℚ) * ((q + 6 : ℕ) + 1)) + 2 ^ 34 * (q + 6 : ℕ)) / 2 ^ 256
        + (2 * k * (k + m) / 2 ^ 256 + k / 2 ^ 126) + 2 * (q + 6) / 2 ^ 256 := by
  by_cases hq : q + 2 < orderN
  · have h := C121_forging_solves_one_more H hH (fun P => (A P).forGroup P []) (q + 6) k m (fun sk d _ => B sk d)
      (fun P => forGroup_asks P (hA P) []) fun P => forGroup_others P (hm P) []
    have h1 := CmaForger.chance_snd (Ω := Scalar × (Fin k → Spec.NonceDraw)) (Ω' := Fin (q + 6) → Arr 32)
      (fun x ω => Concurrent.Hits (bad (mulG x.1)) (secrets k x.1 (Spec.builtNonce H (B x.1 fun i => (x.2 i).2) x.2)) (answers ω)
        (Adaptive.signerGame k (Spec.nonceHash H (B x.1 fun i => (x.2 i).2) x.2) x.1
          (Spec.builtNonce H (B x.1 fun i => (x.2 i).2) x.2) ((A (mulG x.1)).forGroup (mulG x.1) [])) [])
      (2 * ((q + 6 : ℕ) : ℚ) / 2 ^ 256) (fun x => chance_cancel x.1 _ (forGroup_asks _ (hA _) [])) (by positivity)
    rw [← CmaForger.chance_equiv (Equiv.prodAssoc _ _ _).symm] at h1
    push_cast at h h1 ⊢
    exact (CmaForger.chance_mono fun p hp => forges_group (Adaptive.tagsAgree_nonceHash _ _ hH) _ _ (hA _) hq p.2.2 hp).trans
      ((CmaForger.chance_or _ _).trans (add_le_add h h1))
  · refine (Decision.chance_le_one _).trans ((bound_trivial (k := k) hq).trans ?_)
    rw [add_assoc, add_assoc]
    exact le_add_of_nonneg_of_le (CmaForger.chance_nonneg _) (le_add_of_nonneg_right (by positivity))

/-- **C144**. The game is one against the code. With the hash function that has been drawn, `new` and `with_tweaks` make the contexts from
the keys and tweaks that the forger sent, `sign_partial` returns each of the partial signatures that the forger receives, in sessions with
different secret nonces, and the key of the forgery is `mulG sk` with an offset. -/
theorem C144_game_is_code (H : Hash) (hH : TagsAgree H) (sk : Scalar) (sn : ℕ → SecNonce) (A : OwnForger) (q k : ℕ)
    (hA : A.AsksAtMost q k) (ω : ℕ → Arr 32) (out : Outcome) :
    let res := (signerGame k H sk sn A).run (secrets k sk sn) ω []
    res.1 = some out → TagsAgree (res.2.hash H) ∧ out.sessions.length ≤ k ∧ (∃ t : MaybeScalar, out.key.1 = (sk.1 + t) • G) ∧
      ∀ (i : ℕ) (T : MaybePoint) (r : Signed), out.sessions[i]? = some ⟨T, some r⟩ →
        BuiltFrom (res.2.hash H) r.group.ctx r.group.keys r.group.tweaks ∧ mulG sk ∈ r.group.keys ∧
        signPartialAdaptor (res.2.hash H) r.group.ctx sk (sn i) r.aggnonce T r.message = .ok r.sig ∧
        (⟨r.aggnonce, T, r.message⟩ : Spec.Reply).nonce r.hb
          = Spec.sessionNonce (res.2.hash H) r.group.ctx.aggregatedPubkey ⟨r.aggnonce, T, r.message⟩ := by
  intro res hres
  obtain ⟨t, msg, sig, d, ss', log', seen', e1, -, e3, -, e5, -⟩ :=
    reach (P := mulG sk) (σ := fun i g r hb he => SessionForger.partialSignature g.hash g.ctx sk (sn i) r hb he) hH
      (fun i => (sn i).publicNonce) (secrets k sk sn) ω (sign := fun i g r hb he => .done _)
      (fun i hi g hg r hb he log => rfl) hA (ss := []) (by simp) (Adaptive.gameInv_nil (mulG sk) _) (seen := [])
      (by intro e he; simp at he)
  obtain ⟨h1, h2, h3⟩ := finish_run e3 t msg sig d (k := k) (secrets k sk sn) ω (out := out) (by rw [← e1]; exact hres)
  rw [← e1] at h2
  change Adaptive.GameInv _ _ _ res.2 at h2
  refine ⟨Adaptive.tagsAgree_hash hH h2.drawn, ?_, ⟨t, ?_⟩, fun i T r hs =>
    have ⟨g1, g2, g3⟩ := Adaptive.signed_code (h1 ▸ h2) hs
    ⟨g1, g2, g3, Adaptive.signed_nonce (h1 ▸ h2) hs⟩⟩
  · rw [h1]
    simpa using e5
  · rw [h3, add_smul]
    rfl

/-- **C144**. The condition on the message is needed. With a key of one's own, `κ`, one can make the group of `κ` and the member, and a tweak
with which the aggregated key is the key of the member alone. When the member signs for this group, then the aggregated
signature is one of their own key. -/
theorem C144_group_with_the_key_of_one (H : Hash) (hH : TagsAgree H) (sk κ : Scalar) (hne : mulG κ ≠ mulG sk) (ctx0 : KeyAggContext)
    (hnew : KeyAggContext.new H [mulG κ, mulG sk] = .ok ctx0) :
    ∃ ctx ts, ctx0.withTweaks ts = .ok ctx ∧ ctx.aggregatedPubkey = mulG sk ∧
      ∀ (sn sn' : SecNonce) (msg : Bytes), let an := AggNonce.sum [sn'.publicNonce, sn.publicNonce]
        an.R1 + an.nonceCoefficient H (mulG sk) msg • an.R2 ≠ 0 →
        ∃ s s' sig, signPartial H ctx sk sn an msg = .ok s ∧ signPartial H ctx κ sn' an msg = .ok s' ∧
          aggregatePartialSignatures H ctx an [s', s] msg = .ok sig ∧ verifySingleLifted H (mulG sk) sig msg = .ok () := by
  obtain ⟨-, -, Q, hQ, -⟩ := new_eq_ok.1 hnew
  obtain ⟨ctx0', ctx, h0, h1, h2⟩ := pair_ok (H := H) (K := mulG κ) (P := mulG sk) (Y := mulG sk) (κ := κ.1) (t := 0) hne rfl rfl (by
    have : keySum H [mulG κ, mulG sk] = coeffOf H [mulG κ, mulG sk] (mulG κ) • (mulG κ).1 + (mulG sk).1 := by
      unfold keySum
      simp [(coeffOf_pair (H := H) hne).1]
    rw [← this, hQ]
    exact Q.2) (by rw [zero_smul, add_zero])
  obtain rfl : ctx0 = ctx0' := Res.ok.inj (hnew.symm.trans h0)
  have hb : BuiltFrom H ctx [mulG κ, mulG sk] _ := ⟨ctx0, h0, h1⟩
  have hk : ctx.pubkeys = [mulG κ, mulG sk] := hb.keys
  have hc := hb.reachable
  refine ⟨ctx, _, h1, h2, fun sn sn' msg => ?_⟩
  intro an hR
  obtain ⟨s, hs⟩ := (C24_sign_iff_member H ctx hc sk sn an 0 msg).1 (by rw [hk]; simp)
  obtain ⟨s', hs'⟩ := (C24_sign_iff_member H ctx hc κ sn' an 0 msg).1 (by rw [hk]; simp)
  have v := (C27_signer_produces_it H ctx hc an 0 sk (by rw [hk]; simp) sn msg s).2 hs
  have v' := (C27_signer_produces_it H ctx hc an 0 κ (by rw [hk]; simp) sn' msg s').2 hs'
  obtain ⟨sig, g1, g2, -⟩ := C28_verified_partials_aggregate H hH ctx hc [sn'.publicNonce, sn.publicNonce] [s', s] msg (by
    refine ⟨by rw [hk]; rfl, by rw [hk]; rfl, fun i P pn s'' h1 h2 h3 => ?_⟩
    rw [hk] at h1
    match i with
    | 0 =>
      cases h1; cases h2; cases h3
      exact v'
    | 1 =>
      cases h1; cases h2; cases h3
      exact v
    | i + 2 => cases h1) (by rw [h2]; exact hR)
  rw [h2] at g2
  exact ⟨s, s', sig, hs, hs', g1, g2⟩

/-- The group of the keys `G` and `-G` can be tweaked to have the key `-G`. -/
example : ∃ ctx ts, exCtx.withTweaks ts = .ok ctx ∧ ctx.aggregatedPubkey = mulG skMinusOne := by
  have h1 : mulG scalarOne = Gpt := Subtype.ext (one_smul _ _)
  have h2 : mulG skMinusOne = negGpt := Subtype.ext (by
    change (-1 : MaybeScalar) • G = -G
    rw [neg_smul, one_smul])
  obtain ⟨ctx, ts, h3, h4, -⟩ := C144_group_with_the_key_of_one sha256 sha256_tagsAgree skMinusOne scalarOne
    (by rw [h1, h2]; exact negGpt_ne.symm) exCtx (by rw [h1, h2]; exact exCtx_new)
  exact ⟨ctx, ts, h3, h4⟩

/-- A forger that computes the secret key from the public key, with unlimited time. It takes part in a session and forges signatures for
the key with the offset one, whatever is drawn. -/
example (an : AggNonce) : ∃ A : Point → OwnForger, (∀ P, (A P).AsksAtMost 6 1) ∧
    ∀ p : (Unknown 1 → Scalar) × (Fin (6 + 6) → Arr 32), (p.1 none).1 + 1 ≠ 0 →
      Forges 1 sha256 (p.1 none) (secretNonces p.1) (A (mulG (p.1 none))) p.2 := by
  choose sk hsk using mulG_surjective
  refine ⟨fun P => exForger (sk P) 1 ((Spec.offsetKey P 1).getD P) an [1], fun P => exForger_asks _ _ _ an [1], fun p hp => ?_⟩
  have e : sk (mulG (p.1 none)) = p.1 none := mulG_injective (hsk _)
  have hY : Spec.offsetKey (mulG (p.1 none)) 1 = some (mulG ⟨(p.1 none).1 + 1, hp⟩) := notInf_eq_some.2 (by
    change (p.1 none).1 • G + _ = ((p.1 none).1 + 1) • G
    rw [add_smul])
  beta_reduce
  rw [e, hY]
  exact exForger_forges sha256_tagsAgree _ _ hY an (by decide) _

/-- The same without an offset, and with nonces that are built. -/
example (an : AggNonce) : ∃ A : Point → OwnForger, (∀ P, (A P).AsksAtMost 6 1 ∧ (A P).OthersAtMost 0) ∧
    ∀ p : Scalar × (Fin 1 → Spec.NonceDraw) × (Fin (6 + 6) → Arr 32),
      let b := fun _ => (SecNonceBuilder.new zeroSeed).withSeckey p.1
      Forges 1 (Spec.nonceHash sha256 b p.2.1) p.1 (Spec.builtNonce sha256 b p.2.1) (A (mulG p.1)) p.2.2 := by
  choose sk hsk using mulG_surjective
  refine ⟨fun P => exForger (sk P) 0 P an [1], fun P => ⟨exForger_asks _ _ _ an [1], exForger_others _ _ _ _ _⟩, fun p => ?_⟩
  intro b
  have e : sk (mulG p.1) = p.1 := mulG_injective (hsk _)
  beta_reduce
  rw [e]
  exact exForger_forges (Adaptive.tagsAgree_nonceHash b p.2.1 sha256_tagsAgree) _ _ (notInf_eq_some.2 (by rw [zero_smul, add_zero])) an
    (by decide) _

end Verif
