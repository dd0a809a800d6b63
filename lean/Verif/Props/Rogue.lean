import Verif.Lemmas.Props.Rogue

/-!
# Properties C99, C100: keys and signatures made from a victim's key
-/

namespace Verif

/-! ## C99 -/

/-- **C99**. Let the members' keys be whatever combinations `α·G + β·P` of the generator and a victim's key `P` the
adversary cares to make (the victim's own key included). With `A`, `B` the sums of the `α`, `β` weighted by the BIP327
coefficients, the aggregated key is `±(A·G + B·P) + t·G`: if `B` vanishes its secret key is known, otherwise its secret
key and the victim's are computed from each other. -/
theorem C99_rogue_keys (H : Hash) (hH : TagsAgree H) (ctx : KeyAggContext) (hc : Reachable H ctx) (P : Point)
    (α β : Point → MaybeScalar) (hrep : ∀ K ∈ ctx.pubkeys, K.1 = α K • G + β K • P.1) :
    let A := Spec.weighted H ctx.pubkeys α
    let B := Spec.weighted H ctx.pubkeys β
    let g : MaybeScalar := if ctx.parityAcc then -1 else 1
    (B = 0 → ctx.aggregatedPubkey.1 = (g * A + ctx.tweakAcc) • G) ∧
    (B ≠ 0 → ∀ x p : MaybeScalar, p = (g * (x - ctx.tweakAcc) - A) / B →
      (ctx.aggregatedPubkey.1 = x • G ↔ P.1 = p • G)) := by
  intro A B g
  have hpub : ctx.aggregatedPubkey.1 = negIf ctx.parityAcc (keySum H ctx.pubkeys) + ctx.tweakAcc • G := hc.inv.pub
  rw [keySum_represented hH ctx.pubkeys P.1 α β hrep] at hpub
  have hg : ∀ X : MaybePoint, negIf ctx.parityAcc X = g • X := by
    intro X
    cases hp : ctx.parityAcc <;> simp [negIf, g, hp]
  have hgg : g * g = 1 := by
    cases hp : ctx.parityAcc <;> simp [g, hp]
  rw [hg] at hpub
  obtain ⟨d, hd⟩ := exists_dlog P.1
  change ctx.aggregatedPubkey.1 = g • (A • G + B • P.1) + ctx.tweakAcc • G at hpub
  constructor
  · intro hB
    rw [hpub, hB, zero_smul, add_zero, add_smul, mul_smul]
  · rintro hB x p rfl
    have e : ctx.aggregatedPubkey.1 = (g * (A + B * d) + ctx.tweakAcc) • G := by
      rw [hpub, ← hd, ← mul_smul B, ← add_smul, ← mul_smul, ← add_smul]
    rw [e, ← hd, smul_G_inj, smul_G_inj, eq_div_iff hB]
    constructor
    · intro h
      linear_combination g * h - (A + B * d) * hgg
    · intro h
      linear_combination g * h + (x - ctx.tweakAcc) * hgg

/-- The example context, all keys being multiples of the victim's. -/
example : ∃ (ctx : KeyAggContext) (α β : Point → MaybeScalar), Reachable sha256 ctx ∧ ctx.pubkeys ≠ [] ∧
    ∀ K ∈ ctx.pubkeys, K.1 = α K • G + β K • Gpt.1 := by
  choose f hf using fun K : Point => exists_dlog K.1
  exact ⟨exCtx, fun _ => 0, f, exCtx_reachable, by simp [exCtx_reachable.inv.nonempty, KeyAggContext.pubkeys],
    fun K _ => by simp [hf, Gpt]⟩

/-- **C99**, the classical attack. Who joins the victim `P` with the key `x·G - P`, whose sum with `P` is `x·G`, knows the
secret key of the aggregate exactly if the victim's coefficient happens to be 1, or if they know the victim's secret key. -/
theorem C99_cancellation_attack (H : Hash) (hH : TagsAgree H) (P K : Point) (x : MaybeScalar) (hK : K.1 = x • G - P.1)
    (hne : K ≠ P) (ctx : KeyAggContext) (hn : KeyAggContext.new H [P, K] = .ok ctx) :
    let a := Spec.keyCoeff H [P, K] P
    (a = 1 → ctx.aggregatedPubkey.1 = x • G) ∧
    (a ≠ 1 → ∀ y : MaybeScalar, ctx.aggregatedPubkey.1 = y • G ↔ P.1 = ((y - x) / (a - 1)) • G) := by
  intro a
  have hr : Reachable H ctx := Reachable.new hn
  obtain ⟨-, -, Q, -, rfl⟩ := new_eq_ok.1 hn
  have hkeys : (baseCtx H [P, K] Q).pubkeys = [P, K] := rfl
  have h := C99_rogue_keys H hH _ hr P (fun K' => if K' = P then 0 else x) (fun K' => if K' = P then 1 else -1) (by
    rw [hkeys]
    intro K' hK'
    simp only [List.mem_cons, List.not_mem_nil, or_false] at hK'
    rcases hK' with rfl | rfl
    · simp
    · rw [if_neg hne, if_neg hne, hK, neg_smul, one_smul, sub_eq_add_neg])
  have h1 : Spec.keyCoeff H [P, K] K = 1 := by
    rw [keyCoeff_eq hH]
    unfold coeffOf computeKeyAggregationCoefficient
    rw [if_pos]
    unfold secondKey
    simp [hne]
  have hA : Spec.weighted H (baseCtx H [P, K] Q).pubkeys (fun K' => if K' = P then 0 else x) = x := by
    rw [hkeys]
    simp [Spec.weighted, hne, h1]
  have hB : Spec.weighted H (baseCtx H [P, K] Q).pubkeys (fun K' => if K' = P then 1 else -1) = a - 1 := by
    rw [hkeys]
    simp [Spec.weighted, hne, h1, a, sub_eq_add_neg]
  have hg : (baseCtx H [P, K] Q).parityAcc = false := rfl
  have ht : (baseCtx H [P, K] Q).tweakAcc = 0 := rfl
  rw [hA, hB, hg, ht] at h
  simp only [Bool.false_eq_true, if_false, one_mul, add_zero, sub_zero] at h
  exact ⟨fun ha => h.1 (sub_eq_zero.2 ha), fun ha y => h.2 (sub_ne_zero.2 ha) y _ rfl⟩

/-- The attack with `x = 0`, on the victim with the key `G`. -/
example : negGpt.1 = (0 : MaybeScalar) • G - Gpt.1 ∧ negGpt ≠ Gpt ∧
    KeyAggContext.new sha256 [Gpt, negGpt] = .ok exCtx := by
  refine ⟨?_, negGpt_ne, exCtx_new⟩
  rw [zero_smul, zero_sub]
  rfl

/-! ## C100 -/

/-- **C100**. Let a forger make the nonce `W` as a combination `ρ·G + σ·P` of the generator and a victim's key, for a key
`A·G + B·P` made likewise. If `P` does not cancel from the verification equation, then for every scalar `s` the signature
is accepted exactly if the secret key of `P` is the number computed from `s`; if it does cancel, which takes a challenge
hash of one particular value, exactly one known `s` is accepted. -/
theorem C100_algebraic_forgery (H : Hash) (hH : TagsAgree H) (X W P : Point) (A B ρ σ : MaybeScalar) (msg : Bytes)
    (hX : X.1 = A • G + B • P.1) (hW : W.1 = ρ • G + σ • P.1) :
    let e := Spec.challenge H W.1 X.1 msg
    let known := Spec.sgn W.1 * ρ + e * Spec.sgn X.1 * A
    let c := Spec.sgn W.1 * σ + e * Spec.sgn X.1 * B
    (c ≠ 0 → ∀ s : MaybeScalar,
      verifySingle H X ⟨xonly W.1, s⟩ msg = .ok () ↔ P.1 = ((s - known) / c) • G) ∧
    (c = 0 → ∀ s : MaybeScalar, verifySingle H X ⟨xonly W.1, s⟩ msg = .ok () ↔ s = known) := by
  intro e known c
  obtain ⟨d, hd⟩ := exists_dlog P.1
  have hEq : ∀ s : MaybeScalar, verifySingle H X ⟨xonly W.1, s⟩ msg = .ok () ↔ s = known + c * d := by
    intro s
    rw [verifySingle_eq_ok]
    simp only
    rw [← spec_challenge hH, toEvenY_val, ← sgn_smul]
    have hrhs : (toEvenY W).1 + e • Spec.sgn X.1 • X.1 = (known + c * d) • G := by
      have hX' : X.1 = (A + B * d) • G := by rw [hX, ← hd, ← mul_smul, ← add_smul]
      have hW' : W.1 = (ρ + σ * d) • G := by rw [hW, ← hd, ← mul_smul, ← add_smul]
      have key : ∀ sw sx : MaybeScalar, sw • W.1 + e • sx • X.1
          = (sw * ρ + e * sx * A + (sw * σ + e * sx * B) * d) • G := by
        intro sw sx
        rw [hX', hW', ← mul_smul, ← mul_smul, ← mul_smul, ← add_smul]
        congr 1
        ring
      rw [toEvenY_val, ← sgn_smul]
      exact key _ _
    constructor
    · rintro ⟨V, h1, h2, h3⟩
      have hV : V.1 = (toEvenY W).1 :=
        eq_of_xonly_isOdd (h3.trans (xonly_toEvenY W).symm) (h2.trans (isOdd_toEvenY W).symm)
      rw [hV] at h1
      exact smul_G_inj.1 (h1.trans hrhs)
    · rintro rfl
      exact ⟨toEvenY W, hrhs.symm, isOdd_toEvenY W, xonly_toEvenY W⟩
  constructor
  · intro hc s
    rw [hEq, ← hd, smul_G_inj, eq_div_iff hc]
    constructor
    · intro h; linear_combination -h
    · intro h; linear_combination -h
  · intro hc s
    rw [hEq, hc, zero_mul, add_zero]

/-- The victim's own key, and a nonce the forger knows. -/
example (P : Point) : P.1 = (0 : MaybeScalar) • G + (1 : MaybeScalar) • P.1 ∧
    (mulG scalarOne).1 = scalarOne.1 • G + (0 : MaybeScalar) • P.1 := by
  simp

/-- **C100** for groups. Whoever signs for a group alone, having made the other members' keys and the nonce as
combinations of `G` and the victim's key, knows the victim's secret key. The exception is that `P` cancels from
the verification equation. -/
theorem C100_group_forgery (H : Hash) (hH : TagsAgree H) (ctx : KeyAggContext) (hc : Reachable H ctx) (P W : Point)
    (α β : Point → MaybeScalar) (hrep : ∀ K ∈ ctx.pubkeys, K.1 = α K • G + β K • P.1) (ρ σ s : MaybeScalar)
    (hW : W.1 = ρ • G + σ • P.1) (msg : Bytes)
    (h : verifySingle H ctx.aggregatedPubkey ⟨xonly W.1, s⟩ msg = .ok ()) :
    let g : MaybeScalar := if ctx.parityAcc then -1 else 1
    let A := g * Spec.weighted H ctx.pubkeys α + ctx.tweakAcc
    let B := g * Spec.weighted H ctx.pubkeys β
    let e := Spec.challenge H W.1 ctx.aggregatedPubkey.1 msg * Spec.sgn ctx.aggregatedPubkey.1
    Spec.sgn W.1 * σ + e * B ≠ 0 →
    P.1 = ((s - (Spec.sgn W.1 * ρ + e * A)) / (Spec.sgn W.1 * σ + e * B)) • G := by
  intro g A B e hne
  have hpub : ctx.aggregatedPubkey.1 = negIf ctx.parityAcc (keySum H ctx.pubkeys) + ctx.tweakAcc • G := hc.inv.pub
  rw [keySum_represented hH ctx.pubkeys P.1 α β hrep] at hpub
  have hX : ctx.aggregatedPubkey.1 = A • G + B • P.1 := by
    rw [hpub]
    cases hp : ctx.parityAcc
    · simp only [negIf, A, B, g, hp]
      simp [add_smul]
      abel
    · simp only [negIf, A, B, g, hp]
      simp [add_smul, neg_smul]
      abel
  exact (((C100_algebraic_forgery H hH ctx.aggregatedPubkey W P A B ρ σ msg hX hW).1 hne s).1 h)

/-- The example group, a nonce which is a multiple of the victim's key, and the signature that is accepted with it. -/
example (msg : Bytes) : ∃ (α β : Point → MaybeScalar) (s : MaybeScalar),
    (∀ K ∈ exCtx.pubkeys, K.1 = α K • G + β K • Gpt.1) ∧
    Gpt.1 = (0 : MaybeScalar) • G + (1 : MaybeScalar) • Gpt.1 ∧
    verifySingle sha256 exCtx.aggregatedPubkey ⟨xonly Gpt.1, s⟩ msg = .ok () := by
  choose f hf using fun K : Point => exists_dlog K.1
  obtain ⟨a, ha⟩ := exists_dlog exCtx.aggregatedPubkey.1
  have h := C100_algebraic_forgery sha256 sha256_tagsAgree exCtx.aggregatedPubkey Gpt Gpt a 0 1 0 msg
    (by rw [ha]; simp) (by simp [Gpt])
  refine ⟨fun _ => 0, f, ?_, fun K _ => by simp [hf, Gpt], by simp, ?_⟩
  · exact Spec.sgn Gpt.1 * 1 + Spec.challenge sha256 Gpt.1 exCtx.aggregatedPubkey.1 msg *
      Spec.sgn exCtx.aggregatedPubkey.1 * a
  · exact (h.2 (by ring) _).2 rfl

end Verif
