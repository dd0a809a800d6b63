import Verif.Lemmas.Props.BatchForger
import Verif.Lemmas.Props.Decision
import Verif.Lemmas.SubsetSum
import Mathlib.Algebra.Order.Ring.Pow

/-!
# Lemmas for `Props/AdaptorBatch`
-/

namespace Verif.BatchForger

open CmaForger (chance_mono chance_or chance_snd chance_equiv chance_fst chance_nonneg)

/-! ## Coefficients with a given sum -/

variable {n : ℕ}

/-- Some of the coefficients have the sum `z`. -/
def HasSum (z : MaybeScalar) (c : Fin (n + 1) → Scalar) : Prop := ∃ S : Finset (Fin n), ∑ i ∈ S, (c i.castSucc).1 = z

theorem order_pow_le (hn : n ≤ 2 ^ 254) : (orderN : ℚ) ^ n ≤ 2 * ((orderN - 1 : ℕ) : ℚ) ^ n := by
  have h1 : (1 : ℕ) ≤ orderN := one_lt_orderN.le
  have h2 : (2 * n : ℕ) ≤ orderN := by
    have := two_pow_256_lt_two_orderN
    omega
  rw [Nat.cast_sub h1, Nat.cast_one]
  have h3 : (0 : ℚ) < orderN := by exact_mod_cast h1
  have h4 : (2 * n : ℚ) ≤ orderN := by exact_mod_cast h2
  have h5 : (1 : ℚ) ≤ orderN := by exact_mod_cast h1
  generalize (orderN : ℚ) = p at *
  have h6 := one_add_mul_le_pow (a := -(1 / p)) (by have : 1 / p ≤ 1 := by rw [div_le_one h3]; exact h5
                                                    linarith) n
  have h7 : (n : ℚ) * (1 / p) ≤ 1 / 2 := by
    rw [mul_one_div, div_le_div_iff₀ h3 (by norm_num)]
    linarith
  have h8 : p - 1 = p * (1 + -(1 / p)) := by
    field_simp
    ring
  rw [h8, mul_pow]
  have h9 : 0 < p ^ n := pow_pos h3 n
  nlinarith

theorem chance_no_subset (hn : n ≤ 2 ^ 254) (z : MaybeScalar) :
    (Spec.chance fun c : Fin n → Scalar => ¬ ∃ S : Finset (Fin n), ∑ i ∈ S, (c i).1 = z) ≤ 2 * 2 ^ 256 / 2 ^ n := by
  classical
  have : Fact orderN.Prime := ⟨orderN_prime⟩
  have h1 := SubsetSum.card_miss (p := orderN) (n := n) z
  have h2 : {c : Fin n → Scalar | ¬ ∃ S : Finset (Fin n), ∑ i ∈ S, (c i).1 = z}.ncard
      ≤ ({c : Fin n → ZMod orderN | ¬ (SubsetSum.hits z c).Nonempty} : Finset (Fin n → ZMod orderN)).card := by
    rw [← Set.ncard_coe_finset]
    refine Set.ncard_le_ncard_of_injOn (fun c i => (c i).1) (fun c hc => ?_) (fun c _ c' _ h => ?_) (Set.toFinite _)
    · simp only [Finset.coe_filter, Finset.mem_univ, true_and, Set.mem_setOf_eq]
      rintro ⟨S, hS⟩
      exact hc ⟨S, (Finset.mem_filter.1 hS).2.2⟩
    · exact funext fun i => Subtype.ext (congrFun h i)
  unfold Spec.chance
  rw [Nat.card_fun, Nat.card_fin, card_scalar]
  have h3 : (0 : ℚ) < ((orderN - 1 : ℕ) : ℚ) := by
    have := one_lt_orderN
    exact_mod_cast (by omega : 0 < orderN - 1)
  have h4 := order_pow_le hn
  have h5 : (orderN : ℚ) ≤ 2 ^ 256 := by
    have := orderN_lt.le
    rw [show (256 : ℕ) ^ 32 = 2 ^ 256 by norm_num] at this
    exact_mod_cast this
  have h6 : ({c : Fin n → Scalar | ¬ ∃ S : Finset (Fin n), ∑ i ∈ S, (c i).1 = z}.ncard : ℚ) * 2 ^ n ≤ (orderN : ℚ) ^ n * orderN := by
    exact_mod_cast (Nat.mul_le_mul_right _ h2).trans h1
  rw [Nat.cast_pow, div_le_div_iff₀ (pow_pos h3 n) (by positivity)]
  refine h6.trans ?_
  calc (orderN : ℚ) ^ n * orderN ≤ (2 * ((orderN - 1 : ℕ) : ℚ) ^ n) * 2 ^ 256 := mul_le_mul h4 h5 (by positivity) (by positivity)
    _ = _ := by ring

theorem chance_hasSum (hn : n ≤ 2 ^ 254) (z : MaybeScalar) :
    1 - 2 * 2 ^ 256 / 2 ^ n ≤ Spec.chance fun c : Fin (n + 1) → Scalar => HasSum z c := by
  have h1 := chance_equiv (Fin.snocEquiv fun _ : Fin (n + 1) => Scalar).symm
    (fun p : Scalar × (Fin n → Scalar) => ¬ ∃ S : Finset (Fin n), ∑ i ∈ S, (p.2 i).1 = z)
  have h2 := chance_snd (fun (_ : Scalar) (c : Fin n → Scalar) => ¬ ∃ S : Finset (Fin n), ∑ i ∈ S, (c i).1 = z) _
    (fun _ => chance_no_subset hn z) (by positivity)
  have h3 : (Spec.chance fun c : Fin (n + 1) → Scalar => ¬ HasSum z c) ≤ 2 * 2 ^ 256 / 2 ^ n := h1.le.trans h2
  have h4 := chance_or (fun c : Fin (n + 1) → Scalar => HasSum z c) (fun c => ¬ HasSum z c)
  have : Nonempty Scalar := ⟨scalarOne⟩
  rw [Decision.chance_true (fun c => Classical.em _)] at h4
  linarith

/-! ## The batch -/

/-- An adaptor signature of the empty message for the key `G`, with the adaptor point `t • G`. The challenge is `e`. It is invalid if
`b` is true. -/
noncomputable def oneRow (e t : MaybeScalar) (b : Prop) [Decidable b] : BatchItem :=
  .adaptor Gpt [] ⟨(if b then G else -G) - t • G, e + 1 + t⟩ (t • G)

theorem oneRow_input (e t : MaybeScalar) (b : Prop) [Decidable b] :
    (oneRow e t b).challengeInput = Spec.taggedInput "BIP0340/challenge" (Spec.xbytes G ++ Spec.xbytes G ++ []) := by
  unfold oneRow BatchItem.challengeInput
  simp only [sub_add_cancel]
  split
  · rfl
  · rw [spec_xbytes, spec_xbytes, show xonly (-G) = xonly G from xonly_eq_iff.2 (.inr rfl)]
    rfl

theorem oneRow_defect {O : Hash} {e : MaybeScalar} (t : MaybeScalar) (b : Prop) [Decidable b]
    (h : reduceFrom (O (Spec.taggedInput "BIP0340/challenge" (Spec.xbytes G ++ Spec.xbytes G ++ []))) = e) :
    rowDefect ((oneRow e t b).row O) = (if b then 2 * t else 0) • G := by
  have h1 := row_challenge O (oneRow e t b)
  rw [oneRow_input, h] at h1
  have hG : isOdd (-G) = true := by
    rw [isOdd_neg G_ne_zero, isOdd_G]
    rfl
  unfold rowDefect
  rw [h1]
  unfold oneRow BatchItem.row BatchVerificationRow.fromAdaptorSignature
  simp only [sub_add_cancel]
  rw [toEvenY_of_even (P := Gpt) isOdd_G]
  change _ - _ - e • G = _
  split
  · rw [isOdd_G, Bool.not_false, if_pos rfl]
    module
  · rw [hG, Bool.not_true, if_neg (by simp)]
    module

/-- An invalid signature, and such adaptor signatures; those in `S` are invalid. -/
noncomputable def manyBatch (e t : MaybeScalar) (S : Finset (Fin n)) : List BatchItem :=
  wrongItem e :: List.ofFn fun i : Fin n => oneRow e t (i ∈ S)

theorem manyBatch_known (e t : MaybeScalar) (S : Finset (Fin n)) : Spec.KnownBatch [t • G] (manyBatch e t S) := by
  intro x hx
  rcases List.mem_cons.1 hx with rfl | hx
  · exact isOdd_G
  · obtain ⟨i, rfl⟩ := (List.mem_ofFn' _ _).1 hx
    exact List.mem_singleton.2 rfl

/-- The string of the seed does not depend on `S`. -/
def manySeed (n : ℕ) (e t : MaybeScalar) : Bytes :=
  Spec.batchString (e :: List.replicate n e) ((e + 2) :: List.replicate n (e + 1 + t))

theorem manyBatch_seed {O : Hash} {e : MaybeScalar} (t : MaybeScalar) (S : Finset (Fin n))
    (h : reduceFrom (O (Spec.taggedInput "BIP0340/challenge" (Spec.xbytes G ++ Spec.xbytes G ++ []))) = e) :
    batchSeed O ((manyBatch e t S).map (·.row O)) = O (manySeed n e t) := by
  have h1 : (manyBatch e t S).map (fun x => (x.row O).challenge) = e :: List.replicate n e := by
    unfold manyBatch
    rw [List.map_cons, row_challenge, show (wrongItem e).challengeInput = _ from rfl]
    refine congrArg₂ _ h (List.eq_replicate_iff.2 ⟨by simp, fun x hx => ?_⟩)
    obtain ⟨y, hy, rfl⟩ := List.mem_map.1 hx
    obtain ⟨i, rfl⟩ := (List.mem_ofFn' _ _).1 hy
    simp only [row_challenge, oneRow_input, h]
  have h2 : (manyBatch e t S).map (fun x => x.scalar) = (e + 2) :: List.replicate n (e + 1 + t) := by
    unfold manyBatch
    rw [List.map_cons]
    refine congrArg₂ _ rfl (List.eq_replicate_iff.2 ⟨by simp, fun x hx => ?_⟩)
    obtain ⟨y, hy, rfl⟩ := List.mem_map.1 hx
    obtain ⟨i, rfl⟩ := (List.mem_ofFn' _ _).1 hy
    rfl
  rw [batchSeed_eq]
  unfold manySeed Spec.batchString
  rw [← h1, ← h2]
  simp only [List.map_map, Function.comp_def, row_scalar]

theorem manyBatch_defect {O : Hash} {e : MaybeScalar} (t : MaybeScalar) (S : Finset (Fin n)) (c : Fin (n + 1) → Scalar)
    (h : reduceFrom (O (Spec.taggedInput "BIP0340/challenge" (Spec.xbytes G ++ Spec.xbytes G ++ []))) = e) :
    batchDefect (scalars c) 0 ((manyBatch e t S).map (·.row O)) = (1 + 2 * t * ∑ i ∈ S, (c i.castSucc).1) • G := by
  have key : ∀ (m k : ℕ) (hm : k + m = n), batchDefect (scalars c) (k + 1)
      ((List.ofFn fun i : Fin m => oneRow e t ((⟨k + i.1, by omega⟩ : Fin n) ∈ S)).map (·.row O))
      = (2 * t * ∑ i : Fin m, if (⟨k + i.1, by omega⟩ : Fin n) ∈ S then (c ⟨k + i.1, by omega⟩).1 else 0) • G := by
    intro m
    induction m with
    | zero =>
      intro k hm
      simp [batchDefect]
    | succ m ih =>
      intro k hm
      rw [List.ofFn_succ, List.map_cons, batchDefect, oneRow_defect t _ h, Fin.sum_univ_succ]
      have h1 := ih (k + 1) (by omega)
      simp only [Fin.val_succ, show ∀ i : Fin m, k + (i.1 + 1) = k + 1 + i.1 from fun i => by omega]
      rw [h1]
      simp only [Fin.val_zero, Nat.add_zero]
      have h2 : batchCoeff (scalars c) (k + 1) = c ⟨k, by omega⟩ := by
        unfold batchCoeff scalars
        rw [if_neg (by omega), Nat.add_sub_cancel, dif_pos (by omega)]
      rw [h2]
      by_cases hk : (⟨k, by omega⟩ : Fin n) ∈ S
      · simp only [hk, if_true]
        module
      · simp only [hk, if_false]
        module
  unfold manyBatch
  rw [List.map_cons, batchDefect, (wrong_row h).1]
  have h0 := key n 0 (by omega)
  simp only [Nat.zero_add, Fin.eta] at h0
  rw [Nat.zero_add, h0, Finset.sum_ite_mem, Finset.univ_inter]
  unfold rowDefect batchCoeff
  simp only [if_pos, scalarOne, one_smul]
  rw [toEvenY_of_even (P := Gpt) isOdd_G]
  change (e + 2) • G - G - e • G + (2 * t * ∑ i ∈ S, (c i.castSucc).1) • G = _
  module

open Classical in
/-- Coefficients with the sum `z`, if there are any. -/
noncomputable def pick (z : MaybeScalar) (c : Fin (n + 1) → Scalar) : Finset (Fin n) := if h : HasSum z c then h.choose else ∅

theorem sum_pick {z : MaybeScalar} {c : Fin (n + 1) → Scalar} (h : HasSum z c) : ∑ i ∈ pick z c, (c i.castSucc).1 = z := by
  unfold pick
  rw [dif_pos h]
  exact h.choose_spec

/-- Somebody who looks for coefficients with the right sum. -/
noncomputable def manyForger (n : ℕ) (t : MaybeScalar) : BatchForger (n + 1) (List BatchItem) :=
  .ask (.inl (Spec.taggedInput "BIP0340/challenge" (Spec.xbytes G ++ Spec.xbytes G ++ []))) fun h : Arr 32 =>
    .ask (.inl (manySeed n (reduceFrom h) t)) fun seed : Arr 32 =>
      .ask (.inr seed) fun c : Fin (n + 1) → Scalar =>
        .submit (manyBatch (reduceFrom h) t (pick (-(2 * t)⁻¹) c))

theorem manyForger_asks (n : ℕ) (t : MaybeScalar) :
    (manyForger n t).AsksAtMost (fun items => Spec.KnownBatch [t • G] items ∧ items.length = n + 1) 3 := by
  refine (if_pos (.inl (tag_prefix _ _))).mpr ⟨2, rfl, fun h => ?_⟩
  refine (if_pos (drawn_batch _ _)).mpr ⟨1, rfl, fun s => ?_⟩
  refine (if_pos (show Drawn (.inr (s : Arr 32)) from trivial)).mpr ⟨0, rfl, fun c => ⟨manyBatch_known _ _ _, ?_⟩⟩
  unfold manyBatch
  rw [List.length_cons, List.length_ofFn]

theorem run_new {L : ℕ} {α : Type} (H : Hash) (ω : ℕ → Draw L) {q : Question} (hq : Drawn q) (next : Answer L q → BatchForger L α)
    {log : Log L} (hn : q ∉ log.map (·.1)) :
    (BatchForger.ask q next).run H ω log = (next ((ω log.length).answer q)).run H ω (log ++ [(q, ω log.length)]) := by
  rw [run, if_pos hq, find_none.2 hn]

theorem two_mul_inv {t : MaybeScalar} (ht : t ≠ 0) : 1 + 2 * t * (-(2 * t)⁻¹) = 0 := by
  have h2 : (2 : MaybeScalar) * t ≠ 0 := mul_ne_zero two_ne_zero_scalar ht
  rw [mul_neg, mul_inv_cancel₀ h2, add_neg_cancel]

theorem manyForger_fools (H : Hash) {t : MaybeScalar} (ht : t ≠ 0) {m : ℕ} (hm : 2 < m) (ω : Fin m → Draw (n + 1))
    (hc : HasSum (-(2 * t)⁻¹) (ω ⟨2, hm⟩).2) : Fools H (manyForger n t) ω := by
  set x₁ := Spec.taggedInput "BIP0340/challenge" (Spec.xbytes G ++ Spec.xbytes G ++ []) with hx₁
  set e := reduceFrom (draws ω 0).1 with he
  have hq : (.inl (manySeed n e t) : Question) ≠ .inl x₁ := fun h => challenge_ne_batch (wrongItem e) _ _ (Sum.inl.inj h).symm
  have hd : draws ω 2 = ω ⟨2, hm⟩ := by
    unfold draws
    rw [dif_pos hm]
  rw [← hd] at hc
  set items := manyBatch e t (pick (-(2 * t)⁻¹) (draws ω 2).2) with hitems
  set log : Log (n + 1) := [(.inl x₁, draws ω 0), (.inl (manySeed n e t), draws ω 1), (.inr (draws ω 1).1, draws ω 2)] with hlog
  have hdist : Distinct log := by
    simp [Distinct, hlog, hq.symm]
  have hrun : ((manyForger n t).bind check).run H (draws ω) [] = (check items).run H (draws ω) log := by
    unfold manyForger
    simp only [bind]
    refine (run_new H _ (q := .inl x₁) (.inl (tag_prefix _ _)) _ (by simp)).trans ?_
    refine (run_new H _ (q := .inl (manySeed n e t)) (drawn_batch _ _) _ (by simpa using hq)).trans ?_
    refine (run_new H _ (q := .inr (draws ω 1).1) trivial _ (by simp)).trans ?_
    rfl
  have hpre := run_prefix H (draws ω) (check items) log
  obtain ⟨k1, k2, -⟩ := run_check H (draws ω) items hdist
  unfold Fools
  simp only
  rw [hrun, k1]
  generalize ((check items).run H (draws ω) log).2 = F at hpre k2
  have m1 : (.inl x₁, draws ω 0) ∈ F := hpre.mem (by simp [hlog])
  have m2 : (.inl (manySeed n e t), draws ω 1) ∈ F := hpre.mem (by simp [hlog])
  have m3 : (.inr (draws ω 1).1, draws ω 2) ∈ F := hpre.mem (by simp [hlog])
  have h1 : reduceFrom (F.hash H x₁) = e := by rw [hash_of_mem k2 m1]
  refine ⟨?_, wrongItem e, List.mem_cons_self, (wrong_row h1).2⟩
  rw [verifyBatch_eq_ok, hitems, manyBatch_seed t _ h1, hash_of_mem k2 m2]
  have hrng : F.rng (draws ω 1).1 = scalars (draws ω 2).2 := by
    unfold Log.rng
    rw [find_of_mem k2 m3]
  rw [hrng, manyBatch_defect t _ _ h1, sum_pick hc, two_mul_inv ht, zero_smul]

theorem chance_many (H : Hash) {t : MaybeScalar} (ht : t ≠ 0) (hn : n ≤ 2 ^ 254) {m : ℕ} (hm : 2 < m) :
    1 - 2 * 2 ^ 256 / 2 ^ n ≤ Spec.chance fun ω : Fin m → Draw (n + 1) => Fools H (manyForger n t) ω := by
  refine le_trans ?_ (chance_mono (E := fun ω : Fin m → Draw (n + 1) => HasSum (-(2 * t)⁻¹) (ω ⟨2, hm⟩).2)
    fun ω hω => manyForger_fools H ht hm ω hω)
  have : Nonempty Scalar := ⟨scalarOne⟩
  have : Nonempty (Arr 32) := ⟨zeroSeed⟩
  rw [Decision.chance_eval_one (Y := fun _ : Fin m => Draw (n + 1)) ⟨2, hm⟩ fun d => HasSum (-(2 * t)⁻¹) d.2]
  have h1 := chance_equiv (Equiv.prodComm (Arr 32) (Fin (n + 1) → Scalar)) fun p => HasSum (-(2 * t)⁻¹) p.1
  rw [chance_fst (Ω := Fin (n + 1) → Scalar) (Ω' := Arr 32) (fun c => HasSum (-(2 * t)⁻¹) c)] at h1
  exact (chance_hasSum hn _).trans h1.ge

end Verif.BatchForger
