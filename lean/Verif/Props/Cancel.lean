import Verif.Lemmas.Props.Cancel
import Verif.Lemmas.Props.ConcurrentSolver

/-!
# Property C117: a victim's key does not cancel from the key of a group

C99 and C116 are about groups whose keys are combinations `α·G + β·P` of the generator and a victim's key. They need that
`P` does not cancel, that is, that the sum of the `β` weighted with the coefficients is not zero.
-/

namespace Verif

open Forger (answers)
open Concurrent

/-- **C117**. Let the coefficient of one key that is not the second one be drawn, and let `β` not vanish there. Whatever the
other keys, the weighted sum of the `β` hits a given value for at most two of the answers. In particular `P` cancels with
probability at most `2 / 2 ^ 256`. -/
theorem C117_weighted_target (H : Hash) (hH : TagsAgree H) (keys : List Point) (K : Point) (hm : K ∈ keys)
    (hl : keys.length ≤ 4294967295) (h2 : Spec.get_second_key (keys.map fun K => Spec.cbytes K.1) ≠ Spec.cbytes K.1)
    (β : Point → MaybeScalar) (hβ : β K ≠ 0) (v : MaybeScalar) :
    Spec.prob (fun h => Spec.weighted (H.answering (Spec.coeffQuery H keys K) h) keys β = v) ≤ 2 / 2 ^ 256 := by
  have h2' := secondKey_of_spec h2
  refine prob_le_two fun h h' e e' => ?_
  have key : ∀ h, Spec.weighted (H.answering (Spec.coeffQuery H keys K) h) keys β
      = reduceFrom h * ((keys.count K : ℕ) * β K) + ((keys.filter (· ≠ K)).map fun K' => coeffOf H keys K' * β K').sum := by
    intro h
    unfold Spec.weighted
    simp only [keyCoeff_eq (tagsAgree_answering hH (coeffQuery_length H keys K) h), coeffOf_answering H keys K _ h2']
    exact weighted_split keys K (reduceFrom h) _ β
  rw [key] at e e'
  exact mul_right_cancel₀ (mul_ne_zero (count_ne_zero_scalar hm hl) hβ) (add_right_cancel (e.trans e'.symm))

/-- **C117**. If `β` vanishes at all keys but the second one, where the coefficient is 1, then `P` never cancels. -/
theorem C117_weighted_second (H : Hash) (hH : TagsAgree H) (keys : List Point) (K : Point) (hm : K ∈ keys)
    (hl : keys.length ≤ 4294967295) (h2 : Spec.get_second_key (keys.map fun K => Spec.cbytes K.1) = Spec.cbytes K.1)
    (β : Point → MaybeScalar) (hβ : β K ≠ 0) (h0 : ∀ K' ∈ keys, K' ≠ K → β K' = 0) :
    Spec.weighted H keys β = (keys.count K : ℕ) * β K ∧ Spec.weighted H keys β ≠ 0 := by
  have hs : secondKey keys = some K := by
    have h := spec_get_second_key keys
    unfold keyBytes at h
    rw [h2, spec_cbytes_point] at h
    split at h
    · exact absurd h (serPoint_ne_zeros K)
    · rename_i P hP
      rw [hP, serPoint_point_inj.1 h]
  have h1 : coeffOf H keys K = 1 := by
    unfold coeffOf computeKeyAggregationCoefficient
    rw [if_pos hs]
  have e : Spec.weighted H keys β = (keys.count K : ℕ) * β K := by
    have hz : ∀ K' ∈ keys, Spec.keyCoeff H keys K' * β K' = (if K' = K then 1 else 0) * β K' := by
      intro K' hK'
      by_cases h : K' = K
      · rw [h, if_pos rfl, keyCoeff_eq hH, h1]
      · rw [h0 K' hK' h, mul_zero, mul_zero]
    unfold Spec.weighted
    rw [List.map_congr_left hz, weighted_split keys K 1 (fun _ => 0) β]
    simp
  exact ⟨e, by rw [e]; exact mul_ne_zero (count_ne_zero_scalar hm hl) hβ⟩

/-- In the group of `G` and `-G` the second key is `-G`. -/
example : Spec.get_second_key ([Gpt, negGpt].map fun K => Spec.cbytes K.1) = Spec.cbytes negGpt.1 ∧
    ∀ K ∈ [Gpt, negGpt], K ≠ negGpt → (if K = negGpt then 1 else 0 : MaybeScalar) = 0 := by
  have hb : Spec.cbytes negGpt.1 ≠ Spec.cbytes Gpt.1 := by
    rw [spec_cbytes_point, spec_cbytes_point]
    exact fun e => negGpt_ne (serPoint_point_inj.1 e)
  exact ⟨by simp [Spec.get_second_key, hb], fun K _ h => if_neg h⟩

/-- **C117**, for C116. Here the group is given by its keys, which are combinations of the generator and the signer's key, and
the coefficient of one of them is drawn before the game. It need not be assumed that the signer's key does not cancel. -/
theorem C117_concurrent_forger_solves (H : Hash) (hH : TagsAgree H) (keys : List Point) (sk : Scalar) (hm : mulG sk ∈ keys)
    (α β : Point → MaybeScalar) (hrep : ∀ K ∈ keys, K.1 = α K • G + β K • (mulG sk).1) (K : Point) (hK : K ∈ keys)
    (h2 : Spec.get_second_key (keys.map fun K => Spec.cbytes K.1) ≠ Spec.cbytes K.1) (hβ : β K ≠ 0)
    (sn : ℕ → SecNonce) (A : Adversary) (q k : ℕ) (hA : A.AsksAtMost q k) :
    let N := q + 2 * k + 1
    let H' := fun h => H.answering (Spec.coeffQuery H keys K) h
    (Spec.chance fun p : Arr 32 × (Fin N → Arr 32) =>
        ∃ ctx, KeyAggContext.new (H' p.1) keys = .ok ctx ∧ Forges k (H' p.1) (fun _ => ctx) sk sn A p.2)
      ≤ (Spec.chance fun p : Arr 32 × (Fin N → Arr 32) =>
          ∃ ctx a, KeyAggContext.new (H' p.1) keys = .ok ctx ∧
            (ctx.keyCoefficient (mulG sk) : Res Unit _) = .ok (some a) ∧
            ((solver k (publicOf (H' p.1) (fun _ => ctx) (mulG sk) α β fun _ => a) (fun i => (sn i).publicNonce) A).run (secrets k sk sn)
              (answers p.2) []).1 = secrets k sk sn)
        + (2 / 2 ^ 256 + (k + 2) * (N * (N + 1)) / 2 ^ 256) := by
  intro N H'
  by_cases hl : keys.length ≤ u32Max
  swap
  · refine le_trans (le_of_eq ?_) (add_nonneg (CmaForger.chance_nonneg _) (by positivity))
    unfold Spec.chance
    rw [show {p : Arr 32 × (Fin N → Arr 32) | ∃ ctx, KeyAggContext.new (H' p.1) keys = .ok ctx ∧
        Forges k (H' p.1) (fun _ => ctx) sk sn A p.2} = ∅ from ?_]
    · simp
    · refine Set.eq_empty_of_forall_notMem ?_
      rintro p ⟨ctx, hctx, -⟩
      exact hl (new_eq_ok.1 hctx).2.1
  let E : Arr 32 × (Fin N → Arr 32) → Prop := fun p => Spec.weighted (H' p.1) keys β = 0
  let F : Arr 32 → (Fin N → Arr 32) → Prop := fun h ω => Spec.weighted (H' h) keys β ≠ 0 ∧
    ∃ ctx a, KeyAggContext.new (H' h) keys = .ok ctx ∧ (ctx.keyCoefficient (mulG sk) : Res Unit _) = .ok (some a) ∧
      Forges k (H' h) (fun _ => ctx) sk sn A ω ∧
      ¬ ((solver k (publicOf (H' h) (fun _ => ctx) (mulG sk) α β fun _ => a) (fun i => (sn i).publicNonce) A).run (secrets k sk sn)
        (answers ω) []).1 = secrets k sk sn
  refine le_trans (CmaForger.chance_mono fun p hp => ?_) ((CmaForger.chance_or _ fun p => E p ∨ F p.1 p.2).trans
    (add_le_add_right ((CmaForger.chance_or E fun p => F p.1 p.2).trans (add_le_add ?_ ?_)) _))
  · obtain ⟨ctx, hctx, hf⟩ := hp
    have hr : Reachable (H' p.1) ctx := Reachable.new hctx
    have hkeys : ctx.pubkeys = keys := by
      obtain ⟨-, -, Q, -, rfl⟩ := new_eq_ok.1 hctx
      rfl
    have ha := hr.inv.keyCoefficient_eq (ε := Unit) (mulG sk)
    rw [if_pos (by rw [← hkeys] at hm; exact hm)] at ha
    generalize coeffOf (H' p.1) ctx.orderedPubkeys (mulG sk) = a at ha
    by_cases hs : ((solver k (publicOf (H' p.1) (fun _ => ctx) (mulG sk) α β fun _ => a) (fun i => (sn i).publicNonce) A).run (secrets k sk sn)
        (answers p.2) []).1 = secrets k sk sn
    · exact .inl ⟨ctx, _, hctx, ha, hs⟩
    · by_cases h0 : Spec.weighted (H' p.1) keys β = 0
      · exact .inr (.inl h0)
      · exact .inr (.inr ⟨h0, ctx, _, hctx, ha, hf, hs⟩)
  · have : Nonempty (Fin N → Arr 32) := ⟨fun _ => zeroSeed⟩
    rw [CmaForger.chance_fst (Ω' := Fin N → Arr 32) fun h => Spec.weighted (H' h) keys β = 0]
    have := C117_weighted_target H hH keys K hK hl h2 β hβ 0
    exact chance_of_prob this
  · refine CmaForger.chance_snd F _ (fun h => ?_) (by positivity)
    by_cases hex : Spec.weighted (H' h) keys β ≠ 0 ∧ ∃ ctx a, KeyAggContext.new (H' h) keys = .ok ctx ∧
      (ctx.keyCoefficient (mulG sk) : Res Unit _) = .ok (some a)
    swap
    · refine le_trans (le_of_eq ?_) (by positivity : (0 : ℚ) ≤ _)
      unfold Spec.chance
      rw [Set.eq_empty_of_forall_notMem (s := {ω | _})]
      · simp
      · rintro ω ⟨h0, ctx, a, h1, h2, -⟩
        exact hex ⟨h0, ctx, a, h1, h2⟩
    obtain ⟨h0, ctx, a, hctx, ha⟩ := hex
    have hr : Reachable (H' h) ctx := Reachable.new hctx
    have hkeys : ctx.pubkeys = keys := by
      obtain ⟨-, -, Q, -, rfl⟩ := new_eq_ok.1 hctx
      rfl
    refine (CmaForger.chance_mono fun ω hω => ?_).trans (forges_unsolved (α := α)
      (tagsAgree_answering hH (coeffQuery_length H keys K) h) (fun _ => hr) (fun _ _ _ => rfl) (fun _ => ha)
      (fun _ => by rwa [hkeys]) (fun _ => by rwa [hkeys]) sn hA)
    obtain ⟨-, ctx', a', hctx', ha', hf, hs⟩ := hω
    cases hctx.symm.trans hctx'
    cases ha.symm.trans ha'
    exact ⟨hf, hs⟩

/-- The group of `G` and `-G`: for the victim `G` as well as for `-G` its first key is such a `K`. -/
example : mulG scalarOne ∈ [Gpt, negGpt] ∧
    (∀ K ∈ [Gpt, negGpt], K.1 = (0 : MaybeScalar) • G + (if K = Gpt then 1 else -1 : MaybeScalar) • (mulG scalarOne).1) ∧
    Spec.get_second_key ([Gpt, negGpt].map fun K => Spec.cbytes K.1) ≠ Spec.cbytes Gpt.1 ∧
    (if Gpt = Gpt then 1 else -1 : MaybeScalar) ≠ 0 := by
  have e : (mulG scalarOne) = Gpt := Subtype.ext (one_smul _ _)
  have hne : negGpt ≠ Gpt := negGpt_ne
  refine ⟨by simp [e], ?_, ?_, by simp⟩
  · intro K hK
    rw [e]
    simp only [List.mem_cons, List.not_mem_nil, or_false] at hK
    rcases hK with rfl | rfl
    · simp
    · rw [if_neg hne, zero_smul, zero_add, neg_smul, one_smul]
      rfl
  · have hb : Spec.cbytes negGpt.1 ≠ Spec.cbytes Gpt.1 := by
      rw [spec_cbytes_point, spec_cbytes_point]
      exact fun e => hne (serPoint_point_inj.1 e)
    simp [Spec.get_second_key, hb]

end Verif
