import Verif.Spec.Reachable
import Verif.Lemmas.KeyAggBytes

/-!
# Reachable contexts satisfy the invariant; concrete contexts
-/

namespace Verif

theorem Reachable.inv {H : Hash} {ctx : KeyAggContext} (h : Reachable H ctx) : CtxInv H ctx := by
  induction h with
  | new h => exact CtxInv.of_new h
  | plain _ h ih => exact ih.of_withTweak (x := false) h
  | xonly _ h ih => exact ih.of_withTweak (x := true) h
  | tweak _ h ih => exact ih.of_withTweak h
  | tweaks _ h ih => exact ih.of_withTweaks h
  | taproot _ h ih => exact ih.of_taproot h
  | unspendable _ h ih => exact ih.of_taproot h
  | decoded h => exact CtxInv.of_fromBytes h

/-- The invariant is exact: such a context can be obtained by decoding its encoding. -/
theorem reachable_iff {H : Hash} {ctx : KeyAggContext} : Reachable H ctx ↔ CtxInv H ctx :=
  ⟨Reachable.inv, fun h => .decoded h.fromBytes_toBytes⟩

/-! ## Concrete points -/

theorem isOdd_G : isOdd G = false := by
  have : isOdd G = decide (((baseY : ℕ) : Fp).val % 2 = 1) := rfl
  rw [this, ZMod.val_natCast]
  decide +kernel

theorem xNat_G : xNat G = baseX := by
  have : xNat G = ((baseX : ℕ) : Fp).val := rfl
  rw [this, ZMod.val_natCast]
  exact Nat.mod_eq_of_lt (by decide +kernel)

/-- The serialized generator. -/
def gBytes : Bytes := 2 :: beBytes 32 baseX

theorem serPoint_G : (serPoint G).1 = gBytes := by
  rw [serPoint_of_ne G_ne_zero, isOdd_G, xonly_eq, xNat_G]; rfl

/-- The generator's negation. -/
def negGpt : Point := Point.neg Gpt

theorem serPoint_negG : (serPoint negGpt.1).1 = 3 :: beBytes 32 baseX := by
  have h : (negGpt.1 : MaybePoint) = -G := rfl
  rw [h, serPoint_of_ne (neg_ne_zero.2 G_ne_zero), isOdd_neg G_ne_zero, isOdd_G, xonly_neg, xonly_eq, xNat_G]; rfl

theorem two_ne_zero_scalar : (2 : MaybeScalar) ≠ 0 := by
  have h : ((2 : ℕ) : MaybeScalar) ≠ 0 := by
    rw [Ne, ZMod.natCast_eq_zero_iff]
    intro hd
    exact absurd (Nat.le_of_dvd (by norm_num) hd) (by decide +kernel)
  exact_mod_cast h

theorem negGpt_ne : negGpt ≠ Gpt := by
  intro h
  have h1 : -G = G := congrArg Subtype.val h
  have h2 : (2 : MaybeScalar) • G = 0 := by
    rw [two_smul]; nth_rw 1 [← h1]; exact neg_add_cancel G
  exact two_ne_zero_scalar (smul_G_eq_zero.1 h2)

/-! ## Concrete contexts under SHA-256 -/

/-- The two-member group `[G, -G]`. -/
def exKeys : List Point := [Gpt, negGpt]

theorem exKeys_second : secondKey exKeys = some negGpt := by
  simp [secondKey, exKeys, negGpt_ne]

/-- The SHA-256 key list hash of the example group, as computed from bytes. -/
def exListHash : Arr 32 :=
  sha256 (KEYAGG_LIST_TAG_DIGEST ++ KEYAGG_LIST_TAG_DIGEST ++ (gBytes ++ 3 :: beBytes 32 baseX))

theorem exKeys_hash : hashPubkeys sha256 exKeys = exListHash := by
  unfold hashPubkeys tagHash exListHash exKeys
  congr 2
  simp only [List.map_cons, List.map_nil, List.flatten_cons, List.flatten_nil, List.append_nil, serPoint_negG]
  rw [← serPoint_G]; rfl

/-- The coefficient of `G` in the example group. -/
def exCoeff : ℕ := beNat (sha256 (KEYAGG_COEFF_TAG_DIGEST ++ KEYAGG_COEFF_TAG_DIGEST ++ (exListHash.1 ++ gBytes))).1

theorem exKeys_coeff_G : coeffOf sha256 exKeys Gpt = (exCoeff : MaybeScalar) := by
  unfold coeffOf computeKeyAggregationCoefficient
  rw [exKeys_second, if_neg (by simpa using negGpt_ne), exKeys_hash]
  have : (serPoint Gpt.1).1 = gBytes := serPoint_G
  rw [this]
  rfl

theorem exKeys_coeff_negG : coeffOf sha256 exKeys negGpt = 1 := by
  unfold coeffOf computeKeyAggregationCoefficient
  rw [exKeys_second, if_pos rfl]

theorem exCoeff_val : exCoeff % orderN ≠ 0 ∧ exCoeff % orderN ≠ 1 := by decide +kernel

theorem exKeys_sum : keySum sha256 exKeys = ((exCoeff : MaybeScalar) - 1) • G := by
  unfold keySum
  rw [show exKeys = [Gpt, negGpt] from rfl] at *
  simp only [List.map_cons, List.map_nil, List.sum_cons, List.sum_nil, add_zero]
  have h1 := exKeys_coeff_G
  have h2 := exKeys_coeff_negG
  rw [show exKeys = [Gpt, negGpt] from rfl] at h1 h2
  rw [h1, h2, one_smul, sub_smul, one_smul]
  change _ • G + -G = _
  abel

theorem exCoeff_ne_zero : (exCoeff : MaybeScalar) ≠ 0 := by
  intro h
  rw [ZMod.natCast_eq_zero_iff] at h
  exact exCoeff_val.1 (Nat.mod_eq_zero_of_dvd h)

theorem exCoeff_ne_one : (exCoeff : MaybeScalar) ≠ 1 := by
  intro h
  have : ((exCoeff : ℕ) : MaybeScalar) = ((1 : ℕ) : MaybeScalar) := by rw [h, Nat.cast_one]
  rw [ZMod.natCast_eq_natCast_iff', Nat.mod_eq_of_lt one_lt_orderN] at this
  exact exCoeff_val.2 this

theorem exKeys_sum_ne : keySum sha256 exKeys ≠ 0 := by
  rw [exKeys_sum, Ne, smul_G_eq_zero, sub_eq_zero]
  exact exCoeff_ne_one

/-- The context of the example group. -/
def exCtx : KeyAggContext := baseCtx sha256 exKeys ⟨keySum sha256 exKeys, exKeys_sum_ne⟩

theorem exCtx_new : KeyAggContext.new sha256 exKeys = .ok exCtx :=
  new_eq_ok.2 ⟨by simp [exKeys], by simp [exKeys, u32Max], ⟨_, exKeys_sum_ne⟩, rfl, rfl⟩

theorem exCtx_reachable : Reachable sha256 exCtx := .new exCtx_new

end Verif
