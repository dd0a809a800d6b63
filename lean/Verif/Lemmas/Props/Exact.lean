import Verif.Spec.Claims
import Verif.Lemmas.Props.Group
import Verif.Lemmas.Props.Batch

/-!
# Lemmas and example data for `Props/Exact`
-/

namespace Verif

theorem withTweaks_append {ctx : KeyAggContext} : ∀ {ts ts' : List (Scalar × Bool)} {ctx' : KeyAggContext},
    ctx.withTweaks (ts ++ ts') = .ok ctx' ↔ ∃ c, ctx.withTweaks ts = .ok c ∧ c.withTweaks ts' = .ok ctx' := by
  intro ts
  induction ts generalizing ctx with
  | nil => intro ts' ctx'; simp [KeyAggContext.withTweaks]
  | cons t ts ih =>
    intro ts' ctx'
    obtain ⟨t, x⟩ := t
    rw [List.cons_append, withTweaks_cons_eq_ok]
    constructor
    · rintro ⟨c, hc, h⟩
      obtain ⟨c', h1, h2⟩ := ih.1 h
      exact ⟨c', withTweaks_cons_eq_ok.2 ⟨c, hc, h1⟩, h2⟩
    · rintro ⟨c', h1, h2⟩
      obtain ⟨c, hc, h⟩ := withTweaks_cons_eq_ok.1 h1
      exact ⟨c, hc, ih.2 ⟨c', h, h2⟩⟩

theorem flipsAt_append {ctx : KeyAggContext} {ts : List (Scalar × Bool)} {t : Scalar × Bool} {j : ℕ} (hj : j < ts.length) :
    Spec.flipsAt ctx (ts ++ [t]) j ↔ Spec.flipsAt ctx ts j := by
  unfold Spec.flipsAt
  rw [List.getElem?_append_left hj, List.take_append_of_le_length hj.le]

open Classical in
theorem flipsFrom_append {ctx : KeyAggContext} {ts : List (Scalar × Bool)} {t : Scalar × Bool} {i : ℕ}
    (hi : i ≤ ts.length) : Spec.flipsFrom ctx (ts ++ [t]) i
      = Spec.flipsFrom ctx ts i + if Spec.flipsAt ctx (ts ++ [t]) ts.length then 1 else 0 := by
  unfold Spec.flipsFrom
  rw [List.length_append, List.length_singleton, ← Finset.insert_Ico_right_eq_Ico_add_one hi, Finset.filter_insert]
  have : (Finset.Ico i ts.length).filter (Spec.flipsAt ctx (ts ++ [t])) = (Finset.Ico i ts.length).filter (Spec.flipsAt ctx ts) :=
    Finset.filter_congr fun j hj => flipsAt_append (Finset.mem_Ico.1 hj).2
  rw [this]
  split_ifs
  · rw [Finset.card_insert_of_notMem (by simp)]
  · rfl

theorem flipsFrom_length (ctx : KeyAggContext) (ts : List (Scalar × Bool)) : Spec.flipsFrom ctx ts ts.length = 0 := by
  simp [Spec.flipsFrom]

theorem flipsAt_last {ctx c : KeyAggContext} {ts : List (Scalar × Bool)} (hc : ctx.withTweaks ts = .ok c) (t : Scalar)
    (x : Bool) : Spec.flipsAt ctx (ts ++ [(t, x)]) ts.length ↔ (x && isOdd c.pubkey.1) = true := by
  unfold Spec.flipsAt
  rw [List.getElem?_concat_length, List.take_left]
  constructor
  · rintro ⟨⟨t', h1⟩, c', h2, h3⟩
    cases h1
    rw [hc] at h2
    cases h2
    rw [spec_has_even_y] at h3
    simpa [KeyAggContext.aggregatedPubkey] using h3
  · intro hx
    rw [Bool.and_eq_true] at hx
    refine ⟨⟨t, by rw [hx.1]⟩, c, hc, ?_⟩
    rw [spec_has_even_y]
    simpa [KeyAggContext.aggregatedPubkey] using hx.2

/-- The sign of one more tweak. -/
theorem flips_step {ctx c : KeyAggContext} {ts : List (Scalar × Bool)} (hc : ctx.withTweaks ts = .ok c) (t : Scalar)
    (x : Bool) (i : ℕ) (hi : i ≤ ts.length) : ((-1 : MaybeScalar) ^ Spec.flipsFrom ctx (ts ++ [(t, x)]) i)
      = negIf (x && isOdd c.pubkey.1) ((-1) ^ Spec.flipsFrom ctx ts i) := by
  classical
  rw [flipsFrom_append hi, pow_add]
  have hflip := flipsAt_last hc t x
  by_cases hb : (x && isOdd c.pubkey.1) = true
  · rw [if_pos (hflip.2 hb), hb, negIf_true, pow_one, mul_neg_one]
  · rw [if_neg fun h => hb (hflip.1 h), Bool.eq_false_iff.2 hb, negIf_false, pow_zero, mul_one]

theorem signedTweakSum_step {ctx c : KeyAggContext} {ts : List (Scalar × Bool)} (hc : ctx.withTweaks ts = .ok c)
    (t : Scalar) (x : Bool) : Spec.signedTweakSum ctx (ts ++ [(t, x)])
      = negIf (x && isOdd c.pubkey.1) (Spec.signedTweakSum ctx ts) + t.1 := by
  have hf : ∀ (ts' : List (Scalar × Bool)), Spec.signedTweakSum ctx ts'
      = ∑ i ∈ Finset.range ts'.length, (-1) ^ Spec.flipsFrom ctx ts' (i + 1) * ((ts'[i]?).getD (t, x)).1.1 := by
    intro ts'
    unfold Spec.signedTweakSum
    rw [Finset.sum_range]
    apply Finset.sum_congr rfl
    intro i _
    simp
  rw [hf, hf, List.length_append, List.length_singleton, Finset.sum_range_succ]
  congr 1
  · have hneg : ∀ (b : Bool) (a : MaybeScalar), negIf b a = negIf b 1 * a := by
      intro b a; cases b <;> simp
    rw [hneg, Finset.mul_sum]
    apply Finset.sum_congr rfl
    intro i hi
    have hi := Finset.mem_range.1 hi
    rw [flips_step hc t x _ (by omega), hneg, List.getElem?_append_left hi, mul_assoc]
  · have := flipsFrom_length ctx (ts ++ [(t, x)])
    rw [List.length_append, List.length_singleton] at this
    rw [this, List.getElem?_concat_length, pow_zero, one_mul]
    rfl

theorem spec_challengeBytes {H : Hash} (hH : TagsAgree H) (rx : Arr 32) (P : Point) (msg : Bytes) :
    Spec.challengeBytes H rx.1 P.1 msg = computeChallengeHashTweak H rx P msg := by
  unfold Spec.challengeBytes computeChallengeHashTweak
  rw [tagged_bip340Challenge hH, spec_xbytes]
  rfl

theorem card_scalar : Nat.card Scalar = orderN - 1 := by
  have h := Nat.card_congr (unitsEquivNeZero (G₀ := MaybeScalar))
  have h2 : Nat.card MaybeScalarˣ = Nat.card MaybeScalar - 1 := Nat.card_units _
  rw [h, show Nat.card MaybeScalar = orderN from Nat.card_zmod _] at h2
  exact h2

instance : Finite Scalar := Subtype.finite

end Verif
