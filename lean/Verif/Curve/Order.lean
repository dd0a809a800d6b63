import Mathlib.GroupTheory.Perm.Cycle.Type
import Mathlib.FieldTheory.Finite.Basic
import Verif.Curve.Chain

/-!
# secp256k1 has prime order `n`

`n • G = 0` is checked with a double-and-add chain; the bound `#E ≤ 2p + 1`, Lagrange and the absence of
points of order two then give `#E = n`, so every point is a multiple of `G`.
-/

namespace Verif

open WeierstrassCurve.Affine

/-- `(x, y)` are the coordinates of `k • G`. -/
def ChainRep (k x y : ℕ) : Prop :=
  ∃ h : curve.Nonsingular (x : Fp) (y : Fp), Point.some (x : Fp) (y : Fp) h = k • baseG

/-- One step of the chain on (multiplier, x, y), checking the slope `l`. -/
def chainStep (s : ℕ × ℕ × ℕ) (op : Bool × ℕ) : Option (ℕ × ℕ × ℕ) :=
  let k := s.1
  let x := s.2.1
  let y := s.2.2
  let l := op.2
  bif op.1 then
    bif (x + (fieldP - baseX)) % fieldP != 0
        && (l * (x + (fieldP - baseX))) % fieldP == (y + (fieldP - baseY)) % fieldP then
      let x' := (l * l + (fieldP - x) + (fieldP - baseX)) % fieldP
      some (k + 1, x', (l * (x + (fieldP - x')) + (fieldP - y)) % fieldP)
    else none
  else
    bif (2 * y) % fieldP != 0 && (l * (2 * y)) % fieldP == (3 * (x * x)) % fieldP then
      let x' := (l * l + 2 * (fieldP - x)) % fieldP
      some (2 * k, x', (l * (x + (fieldP - x')) + (fieldP - y)) % fieldP)
    else none

def chainRun : ℕ × ℕ × ℕ → List (Bool × ℕ) → Option (ℕ × ℕ × ℕ)
  | s, [] => some s
  | s, op :: ops =>
    match chainStep s op with
    | some s' => chainRun s' ops
    | none => none

theorem cast_sub_fieldP {x : ℕ} (h : x ≤ fieldP) : ((fieldP - x : ℕ) : Fp) = -(x : Fp) := by
  rw [Nat.cast_sub h, ZMod.natCast_self, zero_sub]

theorem curve_slope_ne {x₁ x₂ y₁ y₂ l : Fp} (hx : x₁ ≠ x₂) (hl : l * (x₁ - x₂) = y₁ - y₂) :
    curve.slope x₁ x₂ y₁ y₂ = l := by
  rw [slope_of_X_ne hx]
  rw [div_eq_iff (sub_ne_zero.2 hx), hl]

theorem curve_slope_self {x y l : Fp} (hy : 2 * y ≠ 0) (hl : l * (2 * y) = 3 * x ^ 2) :
    curve.slope x x y y = l := by
  have hne : y ≠ curve.negY x y := by
    rw [curve_negY]
    intro h
    apply hy
    linear_combination h
  rw [slope_of_Y_ne rfl hne, curve_negY]
  have : y - -y ≠ 0 := by
    intro h; apply hy; linear_combination h
  rw [div_eq_iff this]
  simp only [curve]
  linear_combination -hl

theorem chainStep_sound {k x y : ℕ} {op : Bool × ℕ} {k' x' y' : ℕ}
    (hx : x ≤ fieldP) (hy : y ≤ fieldP) (h : ChainRep k x y)
    (hs : chainStep (k, x, y) op = some (k', x', y')) :
    ChainRep k' x' y' ∧ x' ≤ fieldP ∧ y' ≤ fieldP := by
  have hpos : 0 < fieldP := fieldP_prime.pos
  have hbx : baseX ≤ fieldP := by decide +kernel
  have hby : baseY ≤ fieldP := by decide +kernel
  obtain ⟨hn, hP⟩ := h
  obtain ⟨b, l⟩ := op
  cases b with
  | true =>
    simp only [chainStep, cond_eq_ite, if_true, Bool.and_eq_true, bne_iff_ne, beq_iff_eq] at hs
    split at hs
    case isFalse => cases hs
    case isTrue hc =>
    obtain ⟨h1, h2⟩ := hc
    simp only [Option.some.injEq, Prod.mk.injEq] at hs
    obtain ⟨rfl, hx', hy'⟩ := hs
    have hlt : x' < fieldP := by rw [← hx']; exact Nat.mod_lt _ hpos
    have hlt' : y' < fieldP := by rw [← hy']; exact Nat.mod_lt _ hpos
    refine ⟨?_, hlt.le, hlt'.le⟩
    have hxne : (x : Fp) ≠ (baseX : Fp) := by
      intro he
      apply h1
      rw [← Nat.dvd_iff_mod_eq_zero, ← ZMod.natCast_eq_zero_iff]
      push_cast
      rw [cast_sub_fieldP hbx, he]; ring
    have hl : (l : Fp) * ((x : Fp) - baseX) = (y : Fp) - baseY := by
      rw [← ZMod.natCast_eq_natCast_iff'] at h2
      push_cast at h2
      rw [cast_sub_fieldP hbx, cast_sub_fieldP hby] at h2
      linear_combination h2
    have hsl := curve_slope_ne hxne hl
    have hxv : (x' : Fp) = curve.addX x baseX l := by
      rw [← hx']
      simp only [ZMod.natCast_mod]
      push_cast
      rw [cast_sub_fieldP hbx, cast_sub_fieldP hx]
      simp [addX, curve]; ring
    have hyv : (y' : Fp) = curve.addY x baseX y l := by
      rw [← hy', hx']
      simp only [ZMod.natCast_mod]
      push_cast
      rw [cast_sub_fieldP hy, cast_sub_fieldP hlt.le]
      rw [addY, curve_negY, negAddY, ← hxv]
      ring
    have hadd := Point.add_of_X_ne (h₁ := hn) (h₂ := (curve_nonsingular_iff _ _).2 base_equation) hxne
    rw [show Point.some _ _ ((curve_nonsingular_iff _ _).2 base_equation) = baseG from rfl, hP] at hadd
    refine ⟨?_, ?_⟩
    · rw [hxv, hyv, ← hsl]
      exact nonsingular_add hn ((curve_nonsingular_iff _ _).2 base_equation) (fun hxy => hxne hxy.1)
    · rw [succ_nsmul, hadd]
      simp only [Point.some.injEq, hsl]
      exact ⟨hxv, hyv⟩
  | false =>
    simp only [chainStep, cond_eq_ite, Bool.false_eq_true, if_false, Bool.and_eq_true, bne_iff_ne, beq_iff_eq] at hs
    split at hs
    case isFalse => cases hs
    case isTrue hc =>
    obtain ⟨h1, h2⟩ := hc
    simp only [Option.some.injEq, Prod.mk.injEq] at hs
    obtain ⟨rfl, hx', hy'⟩ := hs
    have hlt : x' < fieldP := by rw [← hx']; exact Nat.mod_lt _ hpos
    have hlt' : y' < fieldP := by rw [← hy']; exact Nat.mod_lt _ hpos
    refine ⟨?_, hlt.le, hlt'.le⟩
    have hyne : 2 * (y : Fp) ≠ 0 := by
      intro he
      apply h1
      rw [← Nat.dvd_iff_mod_eq_zero, ← ZMod.natCast_eq_zero_iff]
      push_cast
      exact he
    have hl : (l : Fp) * (2 * (y : Fp)) = 3 * (x : Fp) ^ 2 := by
      rw [← ZMod.natCast_eq_natCast_iff'] at h2
      push_cast at h2
      linear_combination h2
    have hsl := curve_slope_self hyne hl
    have hxv : (x' : Fp) = curve.addX x x l := by
      rw [← hx']
      simp only [ZMod.natCast_mod]
      push_cast
      rw [cast_sub_fieldP hx]
      simp [addX, curve]; ring
    have hyv : (y' : Fp) = curve.addY x x y l := by
      rw [← hy', hx']
      simp only [ZMod.natCast_mod]
      push_cast
      rw [cast_sub_fieldP hy, cast_sub_fieldP hlt.le]
      rw [addY, curve_negY, negAddY, ← hxv]
      ring
    have hne : (y : Fp) ≠ curve.negY x y := by
      rw [curve_negY]
      intro he; apply hyne; linear_combination he
    have hadd := Point.add_self_of_Y_ne (h₁ := hn) hne
    rw [hP] at hadd
    refine ⟨?_, ?_⟩
    · rw [hxv, hyv, ← hsl]
      exact nonsingular_add hn hn (fun hxy => hne hxy.2)
    · rw [two_mul, add_nsmul, hadd]
      simp only [Point.some.injEq, hsl]
      exact ⟨hxv, hyv⟩

theorem chainRun_sound : ∀ (ops : List (Bool × ℕ)) {k x y k' x' y' : ℕ},
    x ≤ fieldP → y ≤ fieldP → ChainRep k x y →
    chainRun (k, x, y) ops = some (k', x', y') → ChainRep k' x' y'
  | [], k, x, y, k', x', y', _, _, h, hs => by
    simp only [chainRun, Option.some.injEq, Prod.mk.injEq] at hs
    obtain ⟨rfl, rfl, rfl⟩ := hs
    exact h
  | op :: ops, k, x, y, k', x', y', hx, hy, h, hs => by
    rw [chainRun] at hs
    split at hs
    · rename_i s' heq
      obtain ⟨k₁, x₁, y₁⟩ := s'
      obtain ⟨h', hx', hy'⟩ := chainStep_sound hx hy h heq
      exact chainRun_sound ops hx' hy' h' hs
    · cases hs

theorem chainRun_orderChain :
    chainRun (1, baseX, baseY) orderChain = some (orderN - 1, baseX, fieldP - baseY) := by
  decide +kernel

/-- `n • G = 0`. -/
theorem orderN_nsmul_baseG : orderN • baseG = 0 := by
  have hrep : ChainRep 1 baseX baseY :=
    ⟨(curve_nonsingular_iff _ _).2 base_equation, by rw [one_nsmul]; rfl⟩
  obtain ⟨h, hP⟩ := chainRun_sound orderChain (by decide +kernel) (by decide +kernel) hrep chainRun_orderChain
  have hneg : (orderN - 1) • baseG = -baseG := by
    rw [← hP, baseG, Point.neg_some]
    rw [Point.some.injEq]
    refine ⟨rfl, ?_⟩
    rw [curve_negY]
    exact cast_sub_fieldP (by decide +kernel)
  have : orderN = (orderN - 1) + 1 := by have := orderN_prime.pos; omega
  rw [this, succ_nsmul, hneg, neg_add_cancel]

theorem baseG_ne_zero : baseG ≠ 0 := Point.some_ne_zero _

theorem addOrderOf_baseG : addOrderOf baseG = orderN :=
  addOrderOf_eq_prime orderN_nsmul_baseG baseG_ne_zero

/-- The compressed form of a point: x and the parity of y. -/
def compress : CurvePoint → Option (Fp × Bool)
  | .zero => none
  | .some x y _ => some (x, decide (y.val % 2 = 1))

theorem neg_val_parity {y : Fp} (hy : y ≠ 0) : ((-y).val % 2 = 1) ↔ ¬ (y.val % 2 = 1) := by
  have h1 : y.val < fieldP := ZMod.val_lt y
  have h2 : y.val ≠ 0 := by rwa [Ne, ZMod.val_eq_zero]
  have : NeZero y := ⟨hy⟩
  rw [ZMod.val_neg_of_ne_zero]
  have hodd : fieldP % 2 = 1 := by decide +kernel
  omega

theorem compress_injective : Function.Injective compress := by
  intro P Q h
  cases P with
  | zero => cases Q with
    | zero => rfl
    | some x y hxy => simp [compress] at h
  | some x y hxy => cases Q with
    | zero => simp [compress] at h
    | some x' y' hxy' =>
      simp only [compress, Option.some.injEq, Prod.mk.injEq, decide_eq_decide] at h
      obtain ⟨rfl, hp⟩ := h
      have e1 := (curve_nonsingular_iff _ _).1 hxy
      have e2 := (curve_nonsingular_iff _ _).1 hxy'
      have : (y - y') * (y + y') = 0 := by linear_combination e1 - e2
      rcases mul_eq_zero.mp this with h | h
      · have : y = y' := sub_eq_zero.1 h
        subst this; rfl
      · have hy : y' = -y := by linear_combination h
        by_cases h0 : y = 0
        · subst h0; rw [neg_zero] at hy; subst hy; rfl
        · exfalso
          subst hy
          have := neg_val_parity h0
          tauto

instance : NeZero fieldP := ⟨fieldP_prime.ne_zero⟩

instance : Finite CurvePoint := Finite.of_injective compress compress_injective

theorem card_le : Nat.card CurvePoint ≤ 2 * fieldP + 1 := by
  have h := Nat.card_le_card_of_injective compress compress_injective
  have hc : Nat.card (Option (Fp × Bool)) = 2 * fieldP + 1 := by
    rw [Nat.card_eq_fintype_card, Fintype.card_option, Fintype.card_prod, ZMod.card, Fintype.card_bool]
    ring
  omega

/-- `-7` is not a cube modulo `p`, so no point has order two. -/
theorem no_cube (x : Fp) : x ^ 3 + 7 ≠ 0 := by
  intro h
  have hx3 : x ^ 3 = -7 := by linear_combination h
  have hx : x ≠ 0 := by
    rintro rfl
    apply Fp.seven_ne_zero
    linear_combination h
  have hf := ZMod.pow_card_sub_one_eq_one hx
  have he : fieldP - 1 = 3 * ((fieldP - 1) / 3) := by decide +kernel
  rw [he, pow_mul, hx3] at hf
  have hpm := powMod_cast (fieldP - 7) ((fieldP - 1) / 3) fieldP (by decide +kernel)
  rw [cast_sub_fieldP (by decide +kernel)] at hpm
  have hv : powMod (fieldP - 7) ((fieldP - 1) / 3) fieldP ≠ 1 := by decide +kernel
  apply hv
  have h1 : ((powMod (fieldP - 7) ((fieldP - 1) / 3) fieldP : ℕ) : Fp) = ((1 : ℕ) : Fp) := by
    rw [hpm]; push_cast; exact hf
  rw [ZMod.natCast_eq_natCast_iff', Nat.mod_eq_of_lt (powMod_lt _ _ _ fieldP_prime.pos),
    Nat.mod_eq_of_lt fieldP_prime.one_lt] at h1
  exact h1

theorem neg_ne_self (P : CurvePoint) (h0 : P ≠ 0) : -P ≠ P := by
  cases P with
  | zero => exact absurd rfl h0
  | some x y h =>
    rw [Point.neg_some]
    simp only [ne_eq, Point.some.injEq, true_and, curve_negY]
    intro hy
    have hy0 : y = 0 := by
      have : 2 * y = 0 := by linear_combination -hy
      exact (mul_eq_zero.mp this).resolve_left Fp.two_ne_zero
    have := (curve_nonsingular_iff _ _).1 h
    subst hy0
    exact no_cube x (by linear_combination -this)

/-- The number of points of secp256k1 is `n`. -/
theorem card_curve : Nat.card CurvePoint = orderN := by
  have hd : orderN ∣ Nat.card CurvePoint := by
    rw [← addOrderOf_baseG]; exact addOrderOf_dvd_natCard _
  obtain ⟨k, hk⟩ := hd
  have hle := card_le
  have hpos : 0 < Nat.card CurvePoint := Nat.card_pos
  have h3 : 2 * fieldP + 1 < orderN * 3 := by decide +kernel
  have hk3 : k < 3 := by
    by_contra hc
    have : orderN * 3 ≤ orderN * k := Nat.mul_le_mul_left _ (by omega)
    omega
  have hk0 : k ≠ 0 := by rintro rfl; omega
  have hk2 : k ≠ 2 := by
    rintro rfl
    obtain ⟨P, hP⟩ := exists_prime_addOrderOf_dvd_card' (G := CurvePoint) 2 (by rw [hk]; exact Dvd.intro_left _ rfl)
    have h0 : P ≠ 0 := by
      rintro rfl; simp at hP
    have h2 : P + P = 0 := by rw [← two_nsmul, ← hP]; exact addOrderOf_nsmul_eq_zero P
    exact neg_ne_self P h0 (neg_eq_of_add_eq_zero_left h2)
  have : k = 1 := by omega
  rw [hk, this, mul_one]

/-- Every point is killed by `n`. -/
theorem orderN_nsmul (P : CurvePoint) : orderN • P = 0 := by
  rw [← card_curve]; exact card_nsmul_eq_zero'

/-- Every point is a multiple of `G`. -/
theorem exists_nsmul_baseG (P : CurvePoint) : ∃ k : ℕ, k < orderN ∧ k • baseG = P := by
  have hc : Nat.card (AddSubgroup.zmultiples baseG) = Nat.card CurvePoint := by
    rw [Nat.card_zmultiples, addOrderOf_baseG, card_curve]
  have htop := AddSubgroup.eq_top_of_card_eq _ hc
  have hm : P ∈ AddSubgroup.zmultiples baseG := by rw [htop]; exact AddSubgroup.mem_top P
  rw [mem_zmultiples_iff_mem_range_addOrderOf, addOrderOf_baseG] at hm
  simpa using hm

end Verif
