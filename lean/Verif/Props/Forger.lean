import Verif.Lemmas.Props.Forger
import Verif.Props.Rogue

/-!
# Property C108: who forges can compute the secret key
-/

namespace Verif

open Forger

open Classical in
/-- **C108**. Let a forger that asks for at most `q` challenges submit, with probability `acc` over the
answers, a message and a signature that `verify_single` accepts for `P`. Then two runs of the forger suffice to compute
the discrete logarithm of `P`, with probability at least `acc² / (q + 1) - 2 acc / 2 ^ 256`. -/
theorem C108_forger_reveals_key (H : Hash) (P : Point) (A : Forger) (q : ℕ) (hA : A.AsksAtMost q) :
    let acc := Spec.chance fun ω : Fin (q + 1) → Arr 32 => A.Forges H P ω
    acc ^ 2 / (q + 1 : ℕ) - 2 * acc / 2 ^ 256
      ≤ Spec.chance fun p : (Fin (q + 1) → Arr 32) × (Fin (q + 1) → Arr 32) => A.extract H P p.1 p.2 • G = P.1 := by
  intro acc
  letI : Fintype (Arr 32) := Fintype.ofFinite _
  have hcard : Fintype.card (Arr 32) = 2 ^ 256 := by
    rw [← Nat.card_eq_fintype_card, arr_card]; norm_num
  have hbad : ∀ a : Arr 32, (Finset.univ.filter fun a' : Arr 32 => reduceFrom a = reduceFrom a').card ≤ 2 := by
    intro a
    have h := ncard_mod_le (reduceFrom a).val
    rw [Set.ncard_eq_toFinset_card'] at h
    refine (Finset.card_le_card fun a' ha' => ?_).trans h
    rw [Finset.mem_filter] at ha'
    rw [Set.mem_toFinset]
    change beNat a'.1 % orderN = _
    rw [← reduceFrom_val, ha'.2]
  have hF := forking_count (forkIndex H P A (q := q + 1)) (fun a a' => reduceFrom a = reduceFrom a') 2 hbad
  set W := Fintype.card (Fin (q + 1) → Arr 32) with hW
  set x := (Finset.univ.filter fun ω => forkIndex H P A (q := q + 1) ω ≠ none).card with hx
  set y := (Finset.univ.filter fun p : (Fin (q + 1) → Arr 32) × (Fin (q + 1) → Arr 32) =>
    ∃ j, forkIndex H P A p.1 = some j ∧ forkIndex H P A (splice j p.1 p.2) = some j ∧
      ¬ reduceFrom (p.1 j) = reduceFrom (p.2 j)).card with hy
  rw [hcard] at hF
  have hW0 : 0 < W := Fintype.card_pos_iff.2 ⟨fun _ => zeroSeed⟩
  have hacc : acc = x / W := by
    unfold acc Spec.chance
    rw [Nat.card_eq_fintype_card, Set.ncard_eq_toFinset_card']
    congr 3
    ext ω
    simp only [Set.mem_toFinset, Set.mem_setOf_eq, Finset.mem_filter, Finset.mem_univ, true_and]
    exact (forkIndex_ne_none hA ω).symm
  have hext : (y : ℚ) / (W * W) ≤ Spec.chance fun p : (Fin (q + 1) → Arr 32) × (Fin (q + 1) → Arr 32) =>
      A.extract H P p.1 p.2 • G = P.1 := by
    unfold Spec.chance
    rw [Nat.card_prod, Nat.card_eq_fintype_card, Set.ncard_eq_toFinset_card', Nat.cast_mul]
    refine div_le_div_of_nonneg_right (Nat.cast_le.2 (Finset.card_le_card fun p hp => ?_)) (by positivity)
    rw [Finset.mem_filter] at hp
    obtain ⟨-, j, h1, h2, h3⟩ := hp
    rw [Set.mem_toFinset]
    exact extract_of_indices h1 h2 h3
  refine le_trans ?_ hext
  have hFq : (2 ^ 256 : ℚ) * (x : ℚ) ^ 2 ≤ (q + 1 : ℕ) * (2 ^ 256 * y + 2 * x * W) := by exact_mod_cast hF
  have hWq : (0 : ℚ) < W := by exact_mod_cast hW0
  have hq : (0 : ℚ) < ((q + 1 : ℕ) : ℚ) := by positivity
  rw [hacc]
  obtain ⟨N, hN⟩ : ∃ N : ℚ, N = 2 ^ 256 := ⟨_, rfl⟩
  have hN0 : 0 < N := by rw [hN]; positivity
  rw [← hN] at hFq ⊢
  have e : ((x : ℚ) / W) ^ 2 / (q + 1 : ℕ) - 2 * (x / W) / N
      = (N * x ^ 2 - (q + 1 : ℕ) * (2 * x * W)) / (N * (q + 1 : ℕ) * (W * W)) := by
    field_simp
  rw [e, div_le_div_iff₀ (by positivity) (by positivity)]
  have : N * (x : ℚ) ^ 2 - (q + 1 : ℕ) * (2 * x * W) ≤ (q + 1 : ℕ) * (N * y) := by linarith
  calc (N * (x : ℚ) ^ 2 - (q + 1 : ℕ) * (2 * x * W)) * (W * W) ≤ ((q + 1 : ℕ) * (N * y)) * (W * W) := by gcongr
    _ = y * (N * (q + 1 : ℕ) * (W * W)) := by ring

/-- A forger that knows the secret key (one) and always succeeds; the bound is then about one half. -/
example : ∃ A : Forger, A.AsksAtMost 1 ∧ ∀ (H : Hash) (ω : Fin 2 → Arr 32), A.Forges H Gpt ω := by
  refine ⟨.ask (Spec.challengeQuery (xonly G).1 Gpt []) fun a => .submit [] ⟨xonly G, 1 + reduceFrom a⟩,
    .ask 0 _ _ fun a => .submit 0 _ _, fun H ω => ?_⟩
  unfold Forges
  simp only
  rw [verifySingle_eq_ok, challenge_run]
  have hd : Drawn (Spec.challengeQuery (xonly G).1 Gpt []) := by
    refine ⟨(xonly G).1 ++ Spec.xbytes Gpt.1 ++ [], ?_⟩
    unfold Spec.challengeQuery Spec.taggedInput
    rw [List.append_nil]
  have hrun : (Forger.ask (Spec.challengeQuery (xonly G).1 Gpt []) fun a => .submit [] ⟨xonly G, 1 + reduceFrom a⟩).run H Gpt
      (answers ω) [] = ⟨[], ⟨xonly G, 1 + reduceFrom (ω 0)⟩, [(Spec.challengeQuery (xonly G).1 Gpt [], ω 0)]⟩ := by
    unfold run
    rw [if_pos hd]
    have h1 : Log.add (answers ω) [] (Spec.challengeQuery (xonly G).1 Gpt [])
        = [(Spec.challengeQuery (xonly G).1 Gpt [], ω 0)] := rfl
    have h2 : Log.answer (answers ω) [] (Spec.challengeQuery (xonly G).1 Gpt []) = ω 0 := rfl
    rw [h1, h2]
    unfold run Log.add Log.find
    simp
  rw [hrun]
  have hidx : challengeIndex Gpt ⟨[], ⟨xonly G, 1 + reduceFrom (ω 0)⟩, [(Spec.challengeQuery (xonly G).1 Gpt [], ω 0)]⟩
      = 0 := by
    unfold challengeIndex
    simp
  rw [hidx]
  refine ⟨Gpt, ?_, isOdd_G, rfl⟩
  have hG : toEvenY Gpt = Gpt := if_neg (by rw [show isOdd Gpt.1 = false from isOdd_G]; decide)
  rw [hG, add_smul, one_smul]
  rfl

/-- **C108** for groups. The keys of a group are made from `G` and the key `P` of a victim (the other members know the
`α K`). If someone forges signatures of the group with probability `acc`, the victim's secret key can be computed from two
runs of the forger, unless the `β K`, weighted with the coefficients, cancel. -/
theorem C108_group_forger_reveals_key (H : Hash) (hH : TagsAgree H) (ctx : KeyAggContext) (hc : Reachable H ctx)
    (P : Point) (α β : Point → MaybeScalar) (hrep : ∀ K ∈ ctx.pubkeys, K.1 = α K • G + β K • P.1)
    (hB : Spec.weighted H ctx.pubkeys β ≠ 0) (A : Forger) (q : ℕ) (hA : A.AsksAtMost q) :
    let acc := Spec.chance fun ω : Fin (q + 1) → Arr 32 => A.Forges H ctx.aggregatedPubkey ω
    let g : MaybeScalar := if ctx.parityAcc then -1 else 1
    acc ^ 2 / (q + 1 : ℕ) - 2 * acc / 2 ^ 256
      ≤ Spec.chance fun p : (Fin (q + 1) → Arr 32) × (Fin (q + 1) → Arr 32) =>
          ((g * (A.extract H ctx.aggregatedPubkey p.1 p.2 - ctx.tweakAcc) - Spec.weighted H ctx.pubkeys α)
            / Spec.weighted H ctx.pubkeys β) • G = P.1 := by
  intro acc g
  refine (C108_forger_reveals_key H ctx.aggregatedPubkey A q hA).trans (le_of_eq ?_)
  congr 1
  funext p
  have := (C99_rogue_keys H hH ctx hc P α β hrep).2 hB (A.extract H ctx.aggregatedPubkey p.1 p.2) _ rfl
  exact propext (eq_comm.trans (this.trans eq_comm))

/-- A group of the generator and the victim `-G`, whose coefficient is one. -/
example : ∃ (ctx : KeyAggContext) (α β : Point → MaybeScalar), Reachable sha256 ctx ∧ ctx.pubkeys = [Gpt, negGpt] ∧
    (∀ K ∈ ctx.pubkeys, K.1 = α K • G + β K • negGpt.1) ∧ Spec.weighted sha256 ctx.pubkeys β ≠ 0 := by
  have hk : exCtx.pubkeys = [Gpt, negGpt] := by
    obtain ⟨-, -, Q, -, h⟩ := new_eq_ok.1 exCtx_new
    rw [h]
    rfl
  refine ⟨exCtx, fun K => if K = negGpt then 0 else 1, fun K => if K = negGpt then 1 else 0, exCtx_reachable, hk, ?_, ?_⟩
  · rw [hk]
    intro K hK
    simp only [List.mem_cons, List.not_mem_nil, or_false] at hK
    rcases hK with rfl | rfl
    · simp only [if_neg negGpt_ne.symm, one_smul, zero_smul, add_zero]
      rfl
    · simp
  · rw [hk]
    unfold Spec.weighted
    simp only [List.map_cons, List.map_nil, List.sum_cons, List.sum_nil, if_neg negGpt_ne.symm, if_true, mul_zero, mul_one,
      add_zero, zero_add]
    rw [keyCoeff_eq sha256_tagsAgree]
    have h2 : secondKey [Gpt, negGpt] = some negGpt := by
      change ([negGpt].find? fun pubkey => decide (pubkey ≠ Gpt)) = some negGpt
      simp [negGpt_ne]
    unfold coeffOf computeKeyAggregationCoefficient
    rw [if_pos h2]
    exact one_ne_zero

end Verif
