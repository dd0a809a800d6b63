import Verif.Lemmas.Reachable

/-!
# Every context has a tweak history

A context obtained in any way (also by decoding) could have been obtained from its keys by `new` and a list of tweaks,
so that statements about BIP327 sessions apply to it.
-/

namespace Verif

theorem natCast_ne_of_lt {a b : ℕ} (ha : a < orderN) (hb : b < orderN) (h : a ≠ b) :
    (a : MaybeScalar) ≠ (b : MaybeScalar) := by
  intro e
  rw [ZMod.natCast_eq_natCast_iff', Nat.mod_eq_of_lt ha, Nat.mod_eq_of_lt hb] at e
  exact h e

theorem small_lt_orderN {a : ℕ} (h : a < 1000) : a < orderN := h.trans (by decide +kernel)

/-- There are at least three odd points. -/
theorem exists_odd_ne (a b : MaybeScalar) : ∃ d : MaybeScalar, isOdd (d • G) = true ∧ d ≠ a ∧ d ≠ b := by
  have key : ∀ k : ℕ, 0 < k → k < 1000 → ∃ d : MaybeScalar, isOdd (d • G) = true ∧
      (d = (k : MaybeScalar) ∨ d = -(k : MaybeScalar)) := by
    intro k h0 hk
    have hne : (k : MaybeScalar) ≠ 0 := by
      have := natCast_ne_of_lt (small_lt_orderN hk) orderN_prime.pos (Nat.pos_iff_ne_zero.1 h0)
      simpa using this
    have hG : (k : MaybeScalar) • G ≠ 0 := by rwa [Ne, smul_G_eq_zero]
    cases h : isOdd ((k : MaybeScalar) • G) with
    | true => exact ⟨_, h, Or.inl rfl⟩
    | false => exact ⟨-(k : MaybeScalar), by rw [neg_smul, isOdd_neg hG, h]; rfl, Or.inr rfl⟩
  have hdiff : ∀ j k : ℕ, 0 < j → j < k → k < 400 → ∀ x y : MaybeScalar,
      (x = (j : MaybeScalar) ∨ x = -(j : MaybeScalar)) → (y = (k : MaybeScalar) ∨ y = -(k : MaybeScalar)) →
      x ≠ y := by
    intro j k h0 hjk hk x y hx hy e
    have h1 : (j : MaybeScalar) ≠ (k : MaybeScalar) :=
      natCast_ne_of_lt (small_lt_orderN (by omega)) (small_lt_orderN (by omega)) (by omega)
    have h2 : ((j + k : ℕ) : MaybeScalar) ≠ 0 := by
      have := natCast_ne_of_lt (small_lt_orderN (a := j + k) (by omega)) orderN_prime.pos (by omega)
      simpa using this
    push_cast at h2
    rcases hx with rfl | rfl <;> rcases hy with rfl | rfl
    · exact h1 e
    · exact h2 (by rw [e]; ring)
    · exact h2 (by rw [← e]; ring)
    · exact h1 (neg_injective e)
  obtain ⟨d1, o1, e1⟩ := key 1 (by norm_num) (by norm_num)
  obtain ⟨d2, o2, e2⟩ := key 2 (by norm_num) (by norm_num)
  obtain ⟨d3, o3, e3⟩ := key 3 (by norm_num) (by norm_num)
  have h12 := hdiff 1 2 (by norm_num) (by norm_num) (by norm_num) d1 d2 e1 e2
  have h13 := hdiff 1 3 (by norm_num) (by norm_num) (by norm_num) d1 d3 e1 e3
  have h23 := hdiff 2 3 (by norm_num) (by norm_num) (by norm_num) d2 d3 e2 e3
  by_cases c1 : d1 ≠ a ∧ d1 ≠ b
  · exact ⟨d1, o1, c1⟩
  by_cases c2 : d2 ≠ a ∧ d2 ≠ b
  · exact ⟨d2, o2, c2⟩
  refine ⟨d3, o3, ?_⟩
  constructor
  · rintro rfl
    have : d1 = b := by by_contra hb; exact c1 ⟨h13, hb⟩
    have : d2 = b := by by_contra hb; exact c2 ⟨h23, hb⟩
    exact h12 (by simp [*])
  · rintro rfl
    have : d1 = a := by by_contra hb; exact c1 ⟨hb, h13⟩
    have : d2 = a := by by_contra hb; exact c2 ⟨hb, h23⟩
    exact h12 (by simp [*])

theorem Reachable.history {H : Hash} {ctx : KeyAggContext} (hc : Reachable H ctx) :
    ∃ ctx0 ts, KeyAggContext.new H ctx.orderedPubkeys = .ok ctx0 ∧ ctx0.withTweaks ts = .ok ctx := by
  have hi := hc.inv
  set keys := ctx.orderedPubkeys with hkeys
  set c0 := baseCtx H keys ⟨keySum H keys, hi.sum_ne⟩ with hc0
  have hnew : KeyAggContext.new H keys = .ok c0 := new_eq_ok.2 ⟨hi.nonempty, hi.length_le, ⟨_, hi.sum_ne⟩, rfl, rfl⟩
  have hi0 : CtxInv H c0 := CtxInv.of_new hnew
  refine ⟨c0, ?_⟩
  have hk0 : c0.orderedPubkeys = ctx.orderedPubkeys := rfl
  have hp0 : c0.parityAcc = false := rfl
  have ht0 : c0.tweakAcc = 0 := rfl
  have hQ0 : c0.pubkey.1 = keySum H keys := rfl
  have hpub := hi.pub
  cases hpar : ctx.parityAcc with
  | false =>
    by_cases ht : ctx.tweakAcc = 0
    · refine ⟨[], hnew, ?_⟩
      rw [KeyAggContext.withTweaks]
      congr 1
      exact hi0.ext hi hk0 (by rw [hp0, hpar]) (by rw [ht0, ht])
    · refine ⟨[(⟨ctx.tweakAcc, ht⟩, false)], hnew, withTweaks_cons_eq_ok.2 ⟨ctx, ?_, rfl⟩⟩
      refine withTweak_eq_ok.2 ⟨ctx.pubkey, ?_, ?_⟩
      · rw [hpub, hpar, hQ0]; rfl
      · have hQ : negIf false c0.pubkey.1 + ctx.tweakAcc • G = ctx.pubkey.1 := by
          rw [hpub, hpar, hQ0]
        refine hi.ext (hi0.tweakStep hQ) hk0.symm ?_ ?_
        · rw [hpar, hp0]; rfl
        · simp [ht0]
  | true =>
    obtain ⟨q, hq⟩ := exists_dlog (keySum H keys)
    obtain ⟨d, hodd, h1, h2⟩ := exists_odd_ne q (q - ctx.tweakAcc)
    have hdG : d • G ≠ 0 := by
      intro h
      rw [h] at hodd
      exact absurd hodd (by decide)
    have ht1 : d - q ≠ 0 := sub_ne_zero.2 h1
    have ht2 : ctx.tweakAcc + (d - q) ≠ 0 := by
      intro h
      exact h2 (by linear_combination h)
    have hstep : negIf false c0.pubkey.1 + (d - q) • G = d • G := by
      rw [hQ0, ← hq, negIf_false, sub_smul]; abel
    set c1 : KeyAggContext :=
      { c0 with
        pubkey := ⟨d • G, hdG⟩
        parityAcc := (false ^^ c0.parityAcc)
        tweakAcc := negIf false c0.tweakAcc + (d - q) } with hc1
    have hi1 : CtxInv H c1 := hi0.tweakStep (Q := ⟨d • G, hdG⟩) hstep
    have hpub1 : c1.pubkey.1 = d • G := rfl
    have hodd1 : isOdd c1.pubkey.1 = true := hodd
    refine ⟨[(⟨d - q, ht1⟩, false), (⟨ctx.tweakAcc + (d - q), ht2⟩, true)], hnew,
      withTweaks_cons_eq_ok.2 ⟨c1, withTweak_eq_ok.2 ⟨⟨d • G, hdG⟩, hstep, rfl⟩,
        withTweaks_cons_eq_ok.2 ⟨ctx, withTweak_eq_ok.2 ⟨ctx.pubkey, ?_, ?_⟩, rfl⟩⟩⟩
    · rw [hodd1, hpub1, hpub, hpar, ← hq]
      simp only [Bool.and_self, negIf_true]
      rw [add_smul, sub_smul]; abel
    · rw [hodd1]
      have hstep2 : negIf true c1.pubkey.1 + (ctx.tweakAcc + (d - q)) • G = ctx.pubkey.1 := by
        rw [hpub1, hpub, hpar, ← hq]
        simp only [negIf_true]
        rw [add_smul, sub_smul]; abel
      refine hi.ext (hi1.tweakStep hstep2) hk0.symm ?_ ?_
      · rw [hpar]; rfl
      · change ctx.tweakAcc = negIf true (negIf false (0 : MaybeScalar) + (d - q)) + (ctx.tweakAcc + (d - q))
        simp only [negIf_true, negIf_false]
        ring

end Verif
