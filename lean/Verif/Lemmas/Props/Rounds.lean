import Verif.Spec.Claims
import Verif.Lemmas.Rounds
import Verif.Lemmas.Props.Nonces
import Verif.Lemmas.Props.Signing

/-!
# Lemmas and example data for `Props/Rounds`
-/

namespace Verif

theorem Spec.nonceFor_eq (own : ℕ) (ours : PubNonce) (calls : List (ℕ × PubNonce)) (j : ℕ) :
    Spec.nonceFor own ours calls j = (if own = j then some ours else none).or (Spec.firstValue calls j) := by
  unfold Spec.nonceFor Spec.firstValue
  by_cases h : own = j
  · rw [if_pos h, List.find?_cons_of_pos (by simpa using h)]
    rfl
  · rw [if_neg h, List.find?_cons_of_neg (by simpa using h), Option.none_or]

theorem stored_history {H : Hash} {ctx : KeyAggContext} (hc : Reachable H ctx) {seed : Arr 32} {i : ℕ}
    {spices : SecNonceSpices} {r : FirstRound} (h : FirstRound.new H ctx seed i spices = .ok r)
    (calls : List (ℕ × PubNonce)) {j : ℕ} (hj : j < ctx.pubkeys.length) :
    (r.run calls).1.stored j = Spec.nonceFor i r.ourPublicNonce calls j := by
  have hctx : r.keyAggCtx = ctx := by
    obtain ⟨P, b, -, -, rfl⟩ := FirstRound.new_eq_ok.1 h
    rfl
  rw [(FirstRound.inv_new hc h).stored_run calls (by rw [hctx]; exact hj), FirstRound.stored_new h hj,
    Spec.nonceFor_eq]

theorem new_fields {H : Hash} {ctx : KeyAggContext} {seed : Arr 32} {i : ℕ}
    {spices : SecNonceSpices} {r : FirstRound} (h : FirstRound.new H ctx seed i spices = .ok r) :
    r.keyAggCtx = ctx ∧ r.signerIndex = i ∧ i < ctx.pubkeys.length := by
  obtain ⟨P, b, h1, -, rfl⟩ := FirstRound.new_eq_ok.1 h
  exact ⟨rfl, rfl, (List.getElem?_eq_some_iff.1 h1).1⟩

theorem run_ctx (r : FirstRound) (calls : List (ℕ × PubNonce)) :
    (r.run calls).1.keyAggCtx = r.keyAggCtx ∧ (r.run calls).1.signerIndex = r.signerIndex ∧
    (r.run calls).1.secnonce = r.secnonce := by
  rw [FirstRound.run_eq]
  exact ⟨rfl, rfl, rfl⟩

theorem builder_ok (seed : Arr 32) (P Q : Point) (i : ℕ) (spices : SecNonceSpices)
    (hs : spices.extraInputs.flatten.length + 4 ≤ u32Max) (ε : Type) :
    ∃ b, (FirstRound.builder seed P Q i spices : Res ε _) = .ok b := by
  unfold FirstRound.builder
  simp only
  have h1 : (((SecNonceBuilder.new seed).withPubkey P).withAggregatedPubkey Q).extraInputs = [] := rfl
  have e1 := (SecNonceBuilder.withExtraInput_eq_ok (ε := ε)
    (b := ((SecNonceBuilder.new seed).withPubkey P).withAggregatedPubkey Q) (x := beBytes 4 i)).2
    ⟨by rw [h1]; simp only [List.nil_append, List.flatten_cons, List.flatten_nil, List.append_nil, beBytes_length]; unfold u32Max; omega, rfl⟩
  rw [e1]
  simp only [Res.bind_ok]
  refine ⟨_, SecNonceBuilder.withSpices_eq_ok.2 ⟨?_, rfl⟩⟩
  rw [h1]
  simp only [List.nil_append, List.flatten_append, List.flatten_cons, List.flatten_nil, List.append_nil,
    List.length_append, beBytes_length]
  omega

/-- Every member can start a round. -/
theorem new_ok {H : Hash} {ctx : KeyAggContext} (seed : Arr 32) {i : ℕ} (hi : i < ctx.pubkeys.length)
    (spices : SecNonceSpices) (hs : spices.extraInputs.flatten.length + 4 ≤ u32Max) :
    ∃ r, FirstRound.new H ctx seed i spices = .ok r := by
  obtain ⟨b, hb⟩ := builder_ok seed ctx.pubkeys[i] ctx.aggregatedPubkey i spices hs SignerIndexError
  exact ⟨_, FirstRound.new_eq_ok.2 ⟨_, b, List.getElem?_eq_getElem hi, hb, rfl⟩⟩

/-- The state when call number `k` is made, and its result. -/
theorem run_result (r : FirstRound) (calls : List (ℕ × PubNonce)) (k : ℕ) (c : ℕ × PubNonce)
    (hk : calls[k]? = some c) :
    (r.run calls).2[k]? = some ((r.run (calls.take k)).1.receiveNonce c.1 c.2).2 := by
  induction calls generalizing r k with
  | nil => cases hk
  | cons d ds ih =>
    cases k with
    | zero =>
      cases hk
      rfl
    | succ k => exact ih (r.receiveNonce d.1 d.2).1 k hk

theorem mulG_one_mem : mulG scalarOne ∈ exCtx.pubkeys := by
  have : mulG scalarOne = Gpt := Subtype.ext (one_smul _ _)
  rw [this]
  simp [exCtx, baseCtx, exKeys, KeyAggContext.pubkeys]

theorem mulG_minusOne : mulG skMinusOne = negGpt := by
  refine Subtype.ext ?_
  change (-1 : MaybeScalar) • G = -G
  rw [neg_smul, one_smul]

theorem mulG_minusOne_mem : mulG skMinusOne ∈ exCtx.pubkeys := by
  rw [mulG_minusOne]
  simp [exCtx, baseCtx, exKeys, KeyAggContext.pubkeys]

theorem two_not_mem : mulG ⟨2, two_ne_zero_scalar⟩ ∉ exCtx.pubkeys := by
  simp only [exCtx, baseCtx, exKeys, KeyAggContext.pubkeys, List.mem_cons, List.not_mem_nil, or_false, not_or]
  constructor
  · intro h
    have h' : (2 : MaybeScalar) • G = (1 : MaybeScalar) • G := by rw [one_smul]; exact congrArg Subtype.val h
    rw [smul_G_inj] at h'
    exact one_ne_zero (α := MaybeScalar) (by linear_combination h')
  · intro h
    have h' : (2 : MaybeScalar) • G = (-1 : MaybeScalar) • G := by
      rw [neg_smul, one_smul]; exact congrArg Subtype.val h
    rw [smul_G_inj] at h'
    have h3 : ((3 : ℕ) : MaybeScalar) = 0 := by push_cast; linear_combination h'
    rw [ZMod.natCast_eq_zero_iff] at h3
    exact absurd (Nat.le_of_dvd (by norm_num) h3) (by decide +kernel)

end Verif
