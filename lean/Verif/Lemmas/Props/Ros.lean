import Verif.Spec.Ros
import Verif.Lemmas.Props.Rogue
import Verif.Lemmas.Props.NonceReuse
import Verif.Lemmas.Props.Solo
import Verif.Props.Uniform

/-!
# Lemmas and example data for `Props/Ros`
-/

namespace Verif

theorem sum_bits (m k : ℕ) : ∑ i : Fin k, (m.testBit i).toNat * 2 ^ (i : ℕ) = m % 2 ^ k := by
  induction k with
  | zero => simp [Nat.mod_one]
  | succ k ih =>
    rw [Fin.sum_univ_castSucc]
    simp only [Fin.val_castSucc, Fin.val_last]
    rw [ih, Nat.mod_pow_succ, Nat.testBit_eq_decide_div_mod_eq, mul_comm (2 ^ k)]
    rcases Nat.mod_two_eq_zero_or_one (m / 2 ^ k) with h | h <;> simp [h]

theorem sum_bits_scalar (x : MaybeScalar) :
    ∑ i : Fin 256, (if x.val.testBit i then (2 : MaybeScalar) ^ (i : ℕ) else 0) = x := by
  have h := sum_bits x.val 256
  rw [Nat.mod_eq_of_lt (lt_trans (ZMod.val_lt x) (by decide +kernel))] at h
  have h' := congrArg (Nat.cast (R := MaybeScalar)) h
  rw [ZMod.natCast_zmod_val, Nat.cast_sum] at h'
  refine Eq.trans (Finset.sum_congr rfl fun i _ => ?_) h'
  cases x.val.testBit i <;> simp

theorem verifySingle_of_eq {H : Hash} (hH : TagsAgree H) {X W : Point} {s : MaybeScalar} {msg : Bytes}
    (h : s • G = Spec.sgn W.1 • W.1 + (Spec.challenge H W.1 X.1 msg * Spec.sgn X.1) • X.1) :
    verifySingle H X ⟨xonly W.1, s⟩ msg = .ok () := by
  rw [verifySingle_eq_ok]
  refine ⟨toEvenY W, ?_, isOdd_toEvenY W, xonly_toEvenY W⟩
  simp only
  rw [← spec_challenge hH, toEvenY_val, toEvenY_val, ← sgn_smul, ← sgn_smul, h, mul_smul]

namespace Spec.Attack

theorem observed_b (X : Attack) (i : Fin 256) (c : Bool) : (X.observed i c).b = (X.observed i false).b := rfl

theorem weight_mul (X : Attack) (hd : ∀ i, (X.observed i true).e ≠ (X.observed i false).e) (i : Fin 256) :
    X.weight i * (X.observed i (X.choice i)).e
      = X.weight i * (X.observed i false).e + if X.target.val.testBit i then (2 : MaybeScalar) ^ (i : ℕ) else 0 := by
  unfold choice
  cases X.target.val.testBit i with
  | false => simp
  | true =>
    simp only [if_true]
    unfold weight
    have := sub_ne_zero.2 (hd i)
    field_simp
    ring

theorem sum_weight (X : Attack) (hd : ∀ i, (X.observed i true).e ≠ (X.observed i false).e) :
    ∑ i, X.weight i * (X.observed i (X.choice i)).e = ∑ i, X.weight i * (X.observed i false).e + X.target := by
  rw [Finset.sum_congr rfl fun i _ => X.weight_mul hd i, Finset.sum_add_distrib, sum_bits_scalar]

/-- The partial signatures, multiplied with the weights. -/
theorem sum_signatures (X : Attack) (hd : ∀ i, (X.observed i true).e ≠ (X.observed i false).e)
    (sigs : Fin 256 → MaybeScalar)
    (hs : ∀ i, ((X.observed i (X.choice i)).sign * sigs i) • Verif.G
      = X.signerNonce i + ((X.observed i (X.choice i)).e * X.u) • X.P.1) :
    (∑ i, X.weight i * ((X.observed i (X.choice i)).sign * sigs i)) • Verif.G = X.nonce + (X.target * X.u) • X.P.1 := by
  rw [Finset.sum_smul, Finset.sum_congr rfl fun i _ => by
    rw [mul_smul, hs i, smul_add, ← mul_smul, ← mul_assoc]]
  rw [Finset.sum_add_distrib, ← Finset.sum_smul, ← Finset.sum_mul, X.sum_weight hd, add_mul, add_smul, ← add_assoc]
  unfold nonce
  rw [Finset.sum_mul]

theorem accepted (X : Attack) (hH : TagsAgree X.H) (hQ : X.Q.1 = X.A • Verif.G + X.B • X.P.1) (hu : X.u ≠ 0)
    (hd : ∀ i, (X.observed i true).e ≠ (X.observed i false).e) (W : Point) (hW : W.1 = X.nonce)
    (sigs : Fin 256 → MaybeScalar)
    (hs : ∀ i, ((X.observed i (X.choice i)).sign * sigs i) • Verif.G
      = X.signerNonce i + ((X.observed i (X.choice i)).e * X.u) • X.P.1) :
    verifySingle X.H X.Q ⟨xonly W.1, X.scalar sigs⟩ X.message = .ok () := by
  apply verifySingle_of_eq hH
  rw [hW]
  unfold scalar
  rw [add_smul, mul_smul, X.sum_signatures hd sigs hs]
  have ht : Spec.sgn X.nonce * (X.target * X.u)
      = Spec.challenge X.H X.nonce X.Q.1 X.message * Spec.sgn X.Q.1 * X.B := by
    unfold target
    rw [div_mul_cancel₀ _ hu]
    linear_combination (Spec.challenge X.H X.nonce X.Q.1 X.message * Spec.sgn X.Q.1 * X.B) * sgn_mul_sgn X.nonce
  have hk : ∀ k : MaybeScalar, k • X.Q.1 = (k * X.A) • Verif.G + (k * X.B) • X.P.1 := fun k => by
    rw [hQ, smul_add, mul_smul, mul_smul]
  rw [hk, smul_add, ← mul_smul _ (X.target * X.u), ht]
  abel

end Spec.Attack

theorem keySign_ne_zero (ctx : KeyAggContext) : Spec.keySign ctx ≠ 0 := fun h => by
  have := keySign_mul_self ctx
  rw [h, mul_zero] at this
  exact zero_ne_one this

theorem attack_key {H : Hash} (hH : TagsAgree H) {ctx : KeyAggContext} (hc : Reachable H ctx) (P : Point)
    (α β : Point → MaybeScalar) (hrep : ∀ K ∈ ctx.pubkeys, K.1 = α K • G + β K • P.1) (a : MaybeScalar)
    (ss : Fin 256 → Spec.OpenSession) (msg : Bytes) :
    let X := Spec.attack H ctx P α β a ss msg
    X.Q.1 = X.A • G + X.B • X.P.1 := by
  have hpub : ctx.aggregatedPubkey.1 = negIf ctx.parityAcc (keySum H ctx.pubkeys) + ctx.tweakAcc • G := hc.inv.pub
  rw [keySum_represented hH ctx.pubkeys P.1 α β hrep] at hpub
  simp only [Spec.attack]
  rw [hpub]
  cases hp : ctx.parityAcc
  · simp [negIf, add_smul]
    abel
  · simp [negIf, add_smul, neg_smul]
    abel

theorem sgn_G : Spec.sgn G = 1 := sgn_Gpt

theorem sgn_neg_G : Spec.sgn (-G) = -1 := sgn_negGpt

theorem observe_flipping {H : Hash} (hH : TagsAgree H) (Q : Point) (pn : PubNonce) (an : AggNonce) (msg : Bytes) (c : Bool) :
    Spec.observe H Q an ((Spec.OpenSession.flipping H Q pn an msg).points c) msg
      = ⟨an.nonceCoefficient H Q msg, (if c then -1 else 1) * Spec.challenge H G Q.1 msg, if c then -1 else 1⟩ := by
  unfold Spec.observe Spec.OpenSession.flipping
  simp only [add_sub_cancel]
  cases c
  · simp [sgn_G]
  · simp only [if_true, sgn_neg_G]
    rw [spec_challenge hH, spec_challenge hH, xonly_neg]

theorem filterMap_range_eq {β : Type} {n : ℕ} {f : ℕ → Option β} {l : List β} (hl : l.length = n)
    (h : ∀ j < n, l[j]? = f j) : (List.range n).filterMap f = l := by
  induction l generalizing n f with
  | nil => subst hl; rfl
  | cons x l ih =>
    subst hl
    rw [List.length_cons, List.range_succ_eq_map, List.filterMap_cons, ← h 0 (by simp)]
    simp only [List.getElem?_cons_zero]
    rw [List.filterMap_map, ih (n := l.length) (f := f ∘ Nat.succ) rfl]
    intro j hj
    have := h (j + 1) (by simpa using hj)
    rwa [List.getElem?_cons_succ] at this

/-! ### A concrete attack -/

/-- Different nonces for 256 sessions. -/
def rosNonce (i : Fin 256) : SecNonce :=
  ⟨⟨((i.1 + 1 : ℕ) : MaybeScalar), by
    rw [Ne, ZMod.natCast_eq_zero_iff]
    intro hd
    have h1 := Nat.le_of_dvd (by omega) hd
    have h2 : 1000 < orderN := by decide +kernel
    omega⟩, scalarOne⟩

def rosAggNonce (i : Fin 256) : AggNonce := AggNonce.sum [⟨Gpt, Gpt⟩, (rosNonce i).publicNonce]

def rosAlpha (K : Point) : MaybeScalar := if K = mulG ⟨2, two_ne_zero_scalar⟩ then 0 else 1

def rosBeta (K : Point) : MaybeScalar := if K = mulG ⟨2, two_ne_zero_scalar⟩ then 1 else 0

theorem rosNonce_injective : Function.Injective rosNonce := by
  intro i j h
  have h1 : ((i.1 + 1 : ℕ) : MaybeScalar) = ((j.1 + 1 : ℕ) : MaybeScalar) := congrArg (fun n : SecNonce => n.k1.1) h
  have hn : 1000 < orderN := by decide +kernel
  have h2 := (ZMod.natCast_eq_natCast_iff' _ _ _).1 h1
  rw [Nat.mod_eq_of_lt (by omega), Nat.mod_eq_of_lt (by omega)] at h2
  exact Fin.ext (by omega)

theorem ros_represented : ∀ K ∈ lastCtx.pubkeys,
    K.1 = rosAlpha K • G + rosBeta K • (mulG ⟨2, two_ne_zero_scalar⟩).1 := by
  intro K hK
  have hK' : K = mulG scalarOne ∨ K = mulG ⟨2, two_ne_zero_scalar⟩ := by
    simpa [lastCtx, baseCtx, lastKeys, stubKeys, KeyAggContext.pubkeys] using hK
  unfold rosAlpha rosBeta
  split_ifs with h
  · rw [zero_smul, one_smul, zero_add, h]
  · rcases hK' with h' | h'
    · rw [h', one_smul, zero_smul, add_zero]
      exact one_smul _ _
    · exact absurd h' h

theorem ros_challenge : Spec.challenge lastByteHash G lastCtx.aggregatedPubkey.1 [1] ≠ 0 := by
  rw [last_challenge]
  exact natCast_scalar_ne_zero (k := 1) (by norm_num) (by norm_num)

/-- The attack of the example. -/
def rosAttack (msg : Bytes) : Spec.Attack :=
  Spec.attack lastByteHash lastCtx (mulG ⟨2, two_ne_zero_scalar⟩) rosAlpha rosBeta 1
    (fun i => .flipping lastByteHash lastCtx.aggregatedPubkey (rosNonce i).publicNonce (rosAggNonce i) [1]) msg

theorem ros_observed (msg : Bytes) (i : Fin 256) (c : Bool) :
    (rosAttack msg).observed i c = ⟨1, if c then -1 else 1, if c then -1 else 1⟩ := by
  refine (observe_flipping lastByteHash_tagsAgree lastCtx.aggregatedPubkey (rosNonce i).publicNonce (rosAggNonce i) [1] c).trans ?_
  rw [last_challenge]
  have hb : (rosAggNonce i).nonceCoefficient lastByteHash lastCtx.aggregatedPubkey [1] = 1 := by
    unfold AggNonce.nonceCoefficient
    rw [lastByteHash_append _ (by decide)]
    exact Nat.cast_one
  rw [hb]
  have h1 : (((1 : UInt8).toNat : ℕ) : MaybeScalar) = 1 := Nat.cast_one
  rw [h1, mul_one]

theorem ros_nonce_ne (msg : Bytes) : (rosAttack msg).nonce ≠ 0 := by
  have hu : (rosAttack msg).u = 1 * Spec.keySign lastCtx := rfl
  have hP : (rosAttack msg).P.1 = (2 : MaybeScalar) • G := rfl
  have hw : ∀ i, (rosAttack msg).weight i = -(2 ^ (i : ℕ) / 2) := fun i => by
    unfold Spec.Attack.weight
    rw [ros_observed, ros_observed]
    simp only [if_true, Bool.false_eq_true, if_false]
    rw [show (-1 - 1 : MaybeScalar) = -2 by ring, div_neg]
  have hN : ∀ i, (rosAttack msg).signerNonce i = ((i.1 + 2 : ℕ) : MaybeScalar) • G := fun i => by
    unfold Spec.Attack.signerNonce
    rw [ros_observed]
    change (mulG (rosNonce i).k1).1 + (1 : MaybeScalar) • (mulG (rosNonce i).k2).1 = _
    rw [mulG_val, mulG_val, one_smul, ← add_smul]
    congr 1
    change ((i.1 + 1 : ℕ) : MaybeScalar) + 1 = _
    push_cast
    ring
  unfold Spec.Attack.nonce
  rw [hu, hP]
  simp only [hw, hN, ros_observed, Bool.false_eq_true, if_false, mul_one, one_mul]
  simp only [← mul_smul]
  rw [← Finset.sum_smul, ← add_smul, Ne, smul_G_eq_zero]
  intro h
  have h1 : ∑ i : Fin 256, (2 : MaybeScalar) ^ (i : ℕ) * ((i.1 + 2 : ℕ) : MaybeScalar) = ((256 * 2 ^ 256 : ℕ) : MaybeScalar) := by
    rw [← show ∑ i : Fin 256, 2 ^ (i : ℕ) * (i.1 + 2) = 256 * 2 ^ 256 by decide +kernel]
    push_cast
    rfl
  have h2 : ∑ i : Fin 256, (2 : MaybeScalar) ^ (i : ℕ) = ((2 ^ 256 - 1 : ℕ) : MaybeScalar) := by
    rw [← show ∑ i : Fin 256, 2 ^ (i : ℕ) = 2 ^ 256 - 1 by decide +kernel]
    push_cast
    rfl
  have h3 : ((256 * 2 ^ 256 : ℕ) : MaybeScalar) + ((2 ^ 256 - 1 : ℕ) : MaybeScalar) * Spec.keySign lastCtx * 2 = 0 := by
    rw [← h1, ← h2, Finset.sum_mul, Finset.sum_mul, ← Finset.sum_add_distrib]
    rw [Finset.sum_mul, ← Finset.sum_add_distrib] at h
    have h4 : (2 : MaybeScalar) ≠ 0 := two_ne_zero_scalar
    rw [← neg_eq_zero, ← Finset.sum_neg_distrib, ← mul_eq_zero_iff_left h4, Finset.mul_sum] at h
    rw [← h]
    refine Finset.sum_congr rfl fun i _ => ?_
    field_simp
    ring
  have h5 : Spec.keySign lastCtx = 1 ∨ Spec.keySign lastCtx = -1 := by
    have := keySign_mul_self lastCtx
    exact mul_self_eq_one_iff.1 this
  rcases h5 with h5 | h5
  · rw [h5] at h3
    have : ((256 * 2 ^ 256 + (2 ^ 256 - 1) * 2 : ℕ) : MaybeScalar) = 0 := by
      rw [← h3]
      push_cast
      ring
    rw [ZMod.natCast_eq_zero_iff] at this
    revert this
    decide +kernel
  · rw [h5] at h3
    have : ((256 * 2 ^ 256 - (2 ^ 256 - 1) * 2 : ℕ) : MaybeScalar) = 0 := by
      rw [← h3, Nat.cast_sub (by decide +kernel)]
      push_cast
      ring
    rw [ZMod.natCast_eq_zero_iff] at this
    revert this
    decide +kernel

theorem noncecoefQuery_inj {an an' : AggNonce} {Q : Point} {msg msg' : Bytes}
    (h : Spec.noncecoefQuery an Q msg = Spec.noncecoefQuery an' Q msg') : an = an' ∧ msg = msg' := by
  obtain ⟨h1, -, h2⟩ := C66_inputs_determined.2.1 an an' Q Q msg msg' h
  exact ⟨h1, h2⟩

end Verif
