import Verif.Spec.NonceUser
import Verif.Lemmas.Lazy
import Verif.Lemmas.Props.NonceClash
import Verif.Lemmas.Props.OneMore
import Verif.Lemmas.Props.Outsider
import Verif.Lemmas.Props.KeyHiding

/-!
# Helpers of `Props/NonceUser`
-/

set_option linter.unusedSectionVars false

namespace Verif.NonceUser

open Verif.CmaForger Verif.Asker Verif.ManySigs
open Outsider (extend extend_cons_zero extend_cons_succ)
open SecNonceBuilder (reduceOrOne)
open Function Finset

/-! ## What is hashed -/

/-- What is hashed to a nonce, if the hash of the seed is `a`. -/
def noncestr (b : SecNonceBuilder) (a : Arr 32) (i : UInt8) : Bytes := Spec.nonceQuery (fun _ => a) b i

theorem nonceQuery_seeded (O : Hash) (b : SecNonceBuilder) (s : Arr 32) (i : UInt8) :
    Spec.nonceQuery O (Spec.seeded b s) i = noncestr b (O (Spec.auxQuery s)) i := rfl

theorem noncestr_mask (b : SecNonceBuilder) (a : Arr 32) (i : UInt8) : ((noncestr b a i).drop 64).take 32 = (Adaptive.mask b a).1 := by
  unfold noncestr
  rw [nonceQuery_eq, hashInput_eq_bytes, nonceInputs_bytes]
  have h1 : (MUSIG_NONCE_TAG_DIGEST ++ MUSIG_NONCE_TAG_DIGEST).length = 64 := by decide
  rw [List.drop_append_of_le_length h1.ge, List.drop_of_length_le h1.le, List.nil_append, List.append_assoc]
  have h2 : (nonceInputs (fun _ => a) b).masked = (Adaptive.mask b a).1 := by
    change maskedSeckey (fun _ => a) b.nonceSeedBytes b.seckey = _
    rw [maskedSeckey_eq]
    rfl
  rw [h2, List.take_append_of_le_length (Adaptive.mask _ _).2.ge, List.take_of_length_le (Adaptive.mask _ _).2.le]

theorem noncestr_inj {b : SecNonceBuilder} {a a' : Arr 32} {i i' : UInt8} (h : noncestr b a i = noncestr b a' i') : a = a' := by
  apply Adaptive.mask_injective b
  apply Subtype.ext
  rw [← noncestr_mask b a i, ← noncestr_mask b a' i', h]

theorem noncestr_ne (b : SecNonceBuilder) (a : Arr 32) : noncestr b a 1 ≠ noncestr b a 0 := by
  unfold noncestr
  rw [nonceQuery_eq, nonceQuery_eq]
  intro h
  simp at h

theorem drawn_aux (s : Arr 32) : DrawnSeed (Spec.auxQuery s) := .inl (tag_prefix _ _)

theorem drawn_noncestr (b : SecNonceBuilder) (a : Arr 32) (i : UInt8) : DrawnSeed (noncestr b a i) := .inr (tag_prefix _ _)

theorem aux_ne (b : SecNonceBuilder) (s a : Arr 32) (i : UInt8) : noncestr b a i ≠ Spec.auxQuery s := by
  unfold noncestr Spec.auxQuery
  rw [nonceQuery_eq, taggedInput_musigAux]
  intro h
  exact absurd (List.append_inj h (by decide)).1 (by decide)

/-- What `build` does. -/
theorem build_eq (H : Hash) (b : SecNonceBuilder) (s : Arr 32) (next : SecNonce → Asker Prop) :
    build H (Spec.seeded b s) next = .ask (Spec.auxQuery s) fun a => .ask (noncestr b a 0) fun h => .ask (noncestr b a 1) fun h' =>
      next ⟨reduceOrOne h, reduceOrOne h'⟩ := by
  unfold build
  have e : (Spec.seeded b s).nonceSeedBytes = s := rfl
  simp only [e, nonceQuery_seeded, Hash.answering_same]
  congr 1
  funext a
  congr 1
  funext h
  congr 1
  funext h'
  congr 1
  rw [NonceClash.build_eq, nonceQuery_seeded, nonceQuery_seeded]
  have e1 : ((H.answering (Spec.auxQuery s) a).answering (noncestr b a 0) h).answering (noncestr b a 1) h' (Spec.auxQuery s) = a := by
    rw [Hash.answering_of_ne _ _ fun e => aux_ne b s a 1 e.symm, Hash.answering_of_ne _ _ fun e => aux_ne b s a 0 e.symm,
      Hash.answering_same]
  rw [e1, Hash.answering_same, Hash.answering_of_ne _ _ fun e => noncestr_ne b a e.symm, Hash.answering_same]

/-! ## A hash is nearly a scalar -/

variable [Fintype Scalar] [Fintype (Arr 32)]

theorem card_arr' : (Fintype.card (Arr 32) : ℚ) = 2 ^ 256 := by
  rw [← Nat.card_eq_fintype_card, arr_card]
  norm_num

theorem serScalar_inj : Injective fun k : Scalar => serScalar k.1 := fun k k' h => by
  have h : serScalar k.1 = serScalar k'.1 := h
  rw [← reduceOrOne_serScalar k, h, reduceOrOne_serScalar]

theorem sum_reduceOrOne_ge (g : Scalar → ℚ) (hg : ∀ k, 0 ≤ g k) : ∑ k, g k ≤ ∑ h : Arr 32, g (reduceOrOne h) := by
  have e : ∑ k, g k = ∑ h ∈ (univ : Finset Scalar).map ⟨_, serScalar_inj⟩, g (reduceOrOne h) := by
    rw [sum_map]
    exact sum_congr rfl fun k _ => by simp [reduceOrOne_serScalar]
  rw [e]
  exact sum_le_sum_of_subset_of_nonneg (subset_univ _) fun h _ _ => hg _

theorem close_arith {W m S S' ε : ℚ} (hm : 0 < m) (hmW : m ≤ W) (hε : W - m ≤ W * ε) (h0 : 0 ≤ S) (hS : S ≤ m) (h1 : S ≤ S')
    (h2 : S' - S ≤ W - m) : |S' / W - S / m| ≤ ε := by
  have hW : 0 < W := hm.trans_le hmW
  have hx : S / m - S / W = S / m * ((W - m) / W) := by field_simp
  have hcm : S / m ≤ 1 := by rw [div_le_one hm]; exact hS
  have hcm0 : 0 ≤ S / m := by positivity
  have hr : (W - m) / W ≤ ε := by rw [div_le_iff₀ hW]; linarith
  have hr0 : 0 ≤ (W - m) / W := div_nonneg (by linarith) hW.le
  have hprod : S / m * ((W - m) / W) ≤ (W - m) / W := by nlinarith
  have hprod0 : 0 ≤ S / m * ((W - m) / W) := mul_nonneg hcm0 hr0
  have h3 : S / W ≤ S' / W := by gcongr
  have h4 : S' / W - S / W ≤ (W - m) / W := by
    rw [← sub_div]
    gcongr
  rw [abs_le]
  constructor <;> linarith

theorem avg_reduceOrOne (g : Scalar → ℚ) (hg : ∀ k, 0 ≤ g k ∧ g k ≤ 1) :
    |(avg fun h : Arr 32 => g (reduceOrOne h)) - avg g| ≤ 1 / 2 ^ 127 := by
  unfold avg
  rw [card_arr']
  have h1 := sum_reduceOrOne_ge g fun k => (hg k).1
  have h2 := sum_reduceOrOne_ge (fun k => 1 - g k) fun k => by linarith [(hg k).2]
  rw [sum_sub_distrib, sum_sub_distrib, sum_const, sum_const, card_univ, card_univ, nsmul_eq_mul, nsmul_eq_mul, card_arr', mul_one,
    mul_one] at h2
  have h3 : ∑ k, g k ≤ Fintype.card Scalar := by
    refine (sum_le_sum fun k _ => (hg k).2).trans ?_
    simp
  have h4 : 0 ≤ ∑ k, g k := sum_nonneg fun k _ => (hg k).1
  have hc : (Fintype.card Scalar : ℚ) = (orderN - 1 : ℕ) := by rw [← Nat.card_eq_fintype_card, card_scalar]
  have hn := one_lt_orderN
  have hlt := orderN_lt
  have hcl := orderN_close
  have e : ((256 ^ 32 : ℕ) : ℚ) = 2 ^ 256 := by norm_num
  obtain ⟨m, hm⟩ : ∃ m, orderN - 1 = m := ⟨_, rfl⟩
  rw [hc, hm] at h2 h3
  rw [hc, hm]
  have hm0 : (0 : ℚ) < m := by
    have : 0 < m := by omega
    exact_mod_cast this
  have hm1 : (m : ℚ) ≤ 2 ^ 256 := by
    have : m ≤ 256 ^ 32 := by omega
    rw [← e]
    exact_mod_cast this
  have hm2 : (2 : ℚ) ^ 256 - m ≤ 2 ^ 256 * (1 / 2 ^ 127) := by
    have : 256 ^ 32 ≤ m + 2 ^ 129 := by omega
    have : (2 : ℚ) ^ 256 ≤ m + 2 ^ 129 := by rw [← e]; exact_mod_cast this
    have h5 : (2 : ℚ) ^ 256 * (1 / 2 ^ 127) = 2 ^ 129 := by norm_num
    rw [h5]
    linarith
  exact close_arith hm0 hm1 hm2 h4 h3 h1 (by linarith)

theorem avg_reduceOrOne_two (g : Scalar → Scalar → ℚ) (hg : ∀ k k', 0 ≤ g k k' ∧ g k k' ≤ 1) :
    |(avg fun h : Arr 32 => avg fun h' : Arr 32 => g (reduceOrOne h) (reduceOrOne h')) - avg fun p : Scalar × Scalar => g p.1 p.2|
      ≤ 2 * (1 / 2 ^ 127) := by
  have : Nonempty (Arr 32) := ⟨zeroSeed⟩
  have : Nonempty Scalar := ⟨scalarOne⟩
  rw [avg_prod g]
  have h1 : |(avg fun h : Arr 32 => avg fun h' : Arr 32 => g (reduceOrOne h) (reduceOrOne h'))
      - avg fun h : Arr 32 => avg fun y => g (reduceOrOne h) y| ≤ 1 / 2 ^ 127 :=
    (abs_avg_sub _ _).trans (avg_le fun h => avg_reduceOrOne _ fun k => hg _ k)
  have h2 := avg_reduceOrOne (fun x => avg fun y => g x y) fun x => ⟨avg_nonneg fun y => (hg x y).1, avg_le fun y => (hg x y).2⟩
  refine (abs_sub_le _ _ _).trans ((add_le_add h1 h2).trans (le_of_eq ?_))
  ring

/-! ## One nonce -/

variable {D : Bytes → Prop} [DecidablePred D] {H O : Hash} {T : Table} {f : SecNonce → Asker Prop} {b : SecNonceBuilder}

/-- The strings that are hashed for a nonce. -/
def Hashed (b : SecNonceBuilder) (p : Arr 32 × Arr 32) (y : Bytes) : Prop :=
  y = Spec.auxQuery p.1 ∨ y = noncestr b p.2 0 ∨ y = noncestr b p.2 1

open Classical in
theorem step_at (hD : ∀ x, DrawnSeed x → D x) (s : Arr 32) :
    |value D H (build O (Spec.seeded b s) f) T
      - avg fun h : Arr 32 => avg fun h' : Arr 32 => value D H (f ⟨reduceOrOne h, reduceOrOne h'⟩) T|
      ≤ (if ∃ y, y = Spec.auxQuery s ∧ T y ≠ none then (1 : ℚ) else 0)
        + avg fun a : Arr 32 => ((if ∃ y, (y = noncestr b a 0 ∨ y = noncestr b a 1) ∧ T y ≠ none then (1 : ℚ) else 0)
          + avg fun h : Arr 32 => avg fun h' : Arr 32 => touch D H (Hashed b (s, a)) (f ⟨reduceOrOne h, reduceOrOne h'⟩) T) := by
  have : Nonempty (Arr 32) := ⟨zeroSeed⟩
  have ht : ∀ a, 0 ≤ avg fun h : Arr 32 => avg fun h' : Arr 32 => touch D H (Hashed b (s, a)) (f ⟨reduceOrOne h, reduceOrOne h'⟩) T :=
    fun a => avg_nonneg fun h => avg_nonneg fun h' => touch_nonneg _ _ _
  have hv : 0 ≤ (avg fun h : Arr 32 => avg fun h' : Arr 32 => value D H (f ⟨reduceOrOne h, reduceOrOne h'⟩) T) ∧
      (avg fun h : Arr 32 => avg fun h' : Arr 32 => value D H (f ⟨reduceOrOne h, reduceOrOne h'⟩) T) ≤ 1 :=
    ⟨avg_nonneg fun h => avg_nonneg fun h' => (value_mem _ _).1, avg_le fun h => avg_le fun h' => (value_mem _ _).2⟩
  have hpos : ∀ a, 0 ≤ ((if ∃ y, (y = noncestr b a 0 ∨ y = noncestr b a 1) ∧ T y ≠ none then (1 : ℚ) else 0)
      + avg fun h : Arr 32 => avg fun h' : Arr 32 => touch D H (Hashed b (s, a)) (f ⟨reduceOrOne h, reduceOrOne h'⟩) T) :=
    fun a => add_nonneg (by split <;> norm_num) (ht a)
  by_cases hs : ∃ y, y = Spec.auxQuery s ∧ T y ≠ none
  · rw [if_pos hs]
    have h1 := avg_nonneg hpos
    have h2 := value_mem (D := D) (H := H) (build O (Spec.seeded b s) f) T
    rw [abs_le]
    constructor <;> linarith [h2.1, h2.2, hv.1, hv.2]
  rw [if_neg hs, zero_add, build_eq]
  have hs : T (Spec.auxQuery s) = none := by
    by_contra h
    exact hs ⟨_, rfl, h⟩
  rw [value_drawn (hD _ (drawn_aux s)) hs,
    ← avg_const (α := Arr 32) (avg fun h : Arr 32 => avg fun h' : Arr 32 => value D H (f ⟨reduceOrOne h, reduceOrOne h'⟩) T)]
  refine (abs_avg_sub _ _).trans (avg_mono fun a => ?_)
  by_cases ha : ∃ y, (y = noncestr b a 0 ∨ y = noncestr b a 1) ∧ T y ≠ none
  · rw [if_pos ha]
    have h1 := ht a
    have h2 := value_mem (D := D) (H := H) (.ask (noncestr b a 0) fun h => .ask (noncestr b a 1) fun h' =>
      f ⟨reduceOrOne h, reduceOrOne h'⟩) (update T (Spec.auxQuery s) (some a))
    rw [abs_le]
    constructor <;> linarith [h2.1, h2.2, hv.1, hv.2]
  rw [if_neg ha, zero_add]
  have h0 : T (noncestr b a 0) = none := by
    by_contra h
    exact ha ⟨_, .inl rfl, h⟩
  have h1 : T (noncestr b a 1) = none := by
    by_contra h
    exact ha ⟨_, .inr rfl, h⟩
  rw [value_drawn (hD _ (drawn_noncestr b a 0)) (by rw [update_of_ne (aux_ne b s a 0), h0])]
  refine (abs_avg_sub _ _).trans (avg_mono fun h => ?_)
  rw [value_drawn (hD _ (drawn_noncestr b a 1)) (by rw [update_of_ne (noncestr_ne b a), update_of_ne (aux_ne b s a 1), h1])]
  refine (abs_avg_sub _ _).trans (avg_mono fun h' => ?_)
  refine value_close _ fun y hy => ?_
  unfold Hashed at hy
  rw [not_or, not_or] at hy
  rw [update_of_ne hy.2.2, update_of_ne hy.2.1, update_of_ne hy.1]

open Classical in
theorem avg_small {j : ℕ} (hT : Small T j) {s : Arr 32 → Bytes → Prop} (hs : ∀ g g' y, s g y → s g' y → g = g') :
    (avg fun g => if ∃ y, s g y ∧ T y ≠ none then (1 : ℚ) else 0) ≤ j / 2 ^ 256 := by
  unfold avg
  rw [card_arr']
  exact div_le_div_of_nonneg_right (hT.sum_le hs) (by positivity)

theorem avg_point {p : Arr 32 → Prop} [DecidablePred p] (hp : ∀ a a', p a → p a' → a = a') : (avg fun a => if p a then (1 : ℚ) else 0) ≤ 1 / 2 ^ 256 := by
  unfold avg
  rw [card_arr', sum_boole]
  refine div_le_div_of_nonneg_right ?_ (by positivity)
  have : (univ.filter p).card ≤ 1 := card_le_one.2 fun a ha a' ha' => hp a a' (mem_filter.1 ha).2 (mem_filter.1 ha').2
  exact_mod_cast this

open Classical in
theorem hashed_rare (b : SecNonceBuilder) (y : Bytes) :
    (avg fun p : Arr 32 × Arr 32 => if Hashed b p y then (1 : ℚ) else 0) ≤ 2 / 2 ^ 256 := by
  have : Nonempty (Arr 32) := ⟨zeroSeed⟩
  have h : ∀ p : Arr 32 × Arr 32, (if Hashed b p y then (1 : ℚ) else 0) ≤ (if y = Spec.auxQuery p.1 then (1 : ℚ) else 0)
      + if y = noncestr b p.2 0 ∨ y = noncestr b p.2 1 then (1 : ℚ) else 0 := by
    intro p
    unfold Hashed
    by_cases h1 : y = Spec.auxQuery p.1
    · rw [if_pos (.inl h1), if_pos h1]
      have : (0 : ℚ) ≤ if y = noncestr b p.2 0 ∨ y = noncestr b p.2 1 then (1 : ℚ) else 0 := by split <;> norm_num
      linarith
    · rw [if_neg h1, zero_add]
      by_cases h2 : y = noncestr b p.2 0 ∨ y = noncestr b p.2 1
      · rw [if_pos h2, if_pos (.inr h2)]
      · rw [if_neg h2, if_neg (not_or.2 ⟨h1, h2⟩)]
  refine (avg_mono h).trans ?_
  rw [avg_add, avg_prod (fun s _ => if y = Spec.auxQuery s then (1 : ℚ) else 0),
    avg_prod (fun _ a => if y = noncestr b a 0 ∨ y = noncestr b a 1 then (1 : ℚ) else 0)]
  simp only [avg_const]
  have h1 := avg_point (p := fun s => y = Spec.auxQuery s) fun s s' h h' => Adaptive.auxQuery_injective (h.symm.trans h')
  have h2 := avg_point (p := fun a => y = noncestr b a 0 ∨ y = noncestr b a 1) fun a a' h h' => by
    rcases h with h | h <;> rcases h' with h' | h' <;> exact noncestr_inj (h.symm.trans h')
  refine (add_le_add h1 h2).trans (le_of_eq ?_)
  ring

theorem step_close (hD : ∀ x, DrawnSeed x → D x) {j l : ℕ} (hT : Small T j) (hf : ∀ sn, (f sn).AsksAtMost D (fun _ => True) l) :
    |(avg fun s : Arr 32 => value D H (build O (Spec.seeded b s) f) T)
      - avg fun p : Scalar × Scalar => value D H (f ⟨p.1, p.2⟩) T| ≤ 2 * (j + l) / 2 ^ 256 + 2 * (1 / 2 ^ 127) := by
  classical
  have : Nonempty (Arr 32) := ⟨zeroSeed⟩
  have h1 : |(avg fun s : Arr 32 => value D H (build O (Spec.seeded b s) f) T)
      - avg fun h : Arr 32 => avg fun h' : Arr 32 => value D H (f ⟨reduceOrOne h, reduceOrOne h'⟩) T| ≤ 2 * (j + l) / 2 ^ 256 := by
    rw [← avg_const (α := Arr 32) (avg fun h : Arr 32 => avg fun h' : Arr 32 => value D H (f ⟨reduceOrOne h, reduceOrOne h'⟩) T)]
    refine (abs_avg_sub _ _).trans ((avg_mono fun s => step_at hD s).trans ?_)
    rw [avg_add]
    simp only [avg_add]
    rw [avg_const]
    have a1 := avg_small hT (s := fun s y => y = Spec.auxQuery s) fun s s' y h h' => Adaptive.auxQuery_injective (h.symm.trans h')
    have a2 := avg_small hT (s := fun a y => y = noncestr b a 0 ∨ y = noncestr b a 1) fun a a' y h h' => by
      rcases h with h | h <;> rcases h' with h' | h' <;> exact noncestr_inj (h.symm.trans h')
    have a3 : (avg fun s : Arr 32 => avg fun a : Arr 32 => avg fun h : Arr 32 => avg fun h' : Arr 32 =>
        touch D H (Hashed b (s, a)) (f ⟨reduceOrOne h, reduceOrOne h'⟩) T) ≤ l * (2 / 2 ^ 256) := by
      rw [← avg_prod (fun s a : Arr 32 => avg fun h : Arr 32 => avg fun h' : Arr 32 =>
        touch D H (Hashed b (s, a)) (f ⟨reduceOrOne h, reduceOrOne h'⟩) T), avg_comm]
      refine avg_le fun h => ?_
      rw [avg_comm]
      exact avg_le fun h' => avg_touch (Hashed b) (by norm_num) (hashed_rare b) (hf _) T
    refine (add_le_add a1 (add_le_add a2 a3)).trans (le_of_eq ?_)
    ring
  have h2 := avg_reduceOrOne_two (fun x y => value D H (f ⟨x, y⟩) T) fun x y => value_mem _ _
  exact (abs_sub_le _ _ _).trans (add_le_add h1 h2)

/-! ## All nonces -/

omit [Fintype Scalar] [Fintype (Arr 32)] in
theorem asks_build (hD : ∀ x, DrawnSeed x → D x) {l : ℕ} (hf : ∀ sn, (f sn).AsksAtMost D (fun _ => True) l) (s : Arr 32) :
    (build O (Spec.seeded b s) f).AsksAtMost D (fun _ => True) (l + 3) := by
  rw [build_eq]
  unfold Asker.AsksAtMost
  rw [if_pos (hD _ (drawn_aux s))]
  refine ⟨l + 2, rfl, fun a => ?_⟩
  unfold Asker.AsksAtMost
  rw [if_pos (hD _ (drawn_noncestr b a 0))]
  refine ⟨l + 1, rfl, fun h => ?_⟩
  unfold Asker.AsksAtMost
  rw [if_pos (hD _ (drawn_noncestr b a 1))]
  exact ⟨l, rfl, fun h' => hf _⟩

omit [Fintype Scalar] [Fintype (Arr 32)] in
theorem asks_library (hD : ∀ x, DrawnSeed x → D x) {A : NonceUser} {q k : ℕ} (hA : A.Within D q k) (s : ℕ → Arr 32) :
    (A.library O s).AsksAtMost D (fun _ => True) (q + 3 * k) := by
  induction A generalizing q k s with
  | done v => trivial
  | ask x next ih =>
    unfold Within at hA
    unfold library Asker.AsksAtMost
    split at hA
    · rename_i hx
      obtain ⟨q', rfl, hA⟩ := hA
      rw [if_pos hx]
      exact ⟨q' + 3 * k, by omega, fun a => ih a (hA a) s⟩
    · rename_i hx
      rw [if_neg hx]
      exact fun a => ih a (hA a) s
  | nonce b next ih =>
    obtain ⟨k', rfl, hA⟩ := hA
    exact asks_build hD (fun sn => ih sn (hA sn) _) (s 0)

omit [Fintype Scalar] [Fintype (Arr 32)] in
theorem asks_random {A : NonceUser} {q k : ℕ} (hA : A.Within D q k) (w : ℕ → Scalar × Scalar) :
    (A.random w).AsksAtMost D (fun _ => True) q := by
  induction A generalizing q k w with
  | done v => trivial
  | ask x next ih =>
    unfold Within at hA
    unfold random Asker.AsksAtMost
    split at hA
    · rename_i hx
      obtain ⟨q', rfl, hA⟩ := hA
      rw [if_pos hx]
      exact ⟨q', rfl, fun a => ih a (hA a) w⟩
    · rename_i hx
      rw [if_neg hx]
      exact fun a => ih a (hA a) w
  | nonce b next ih =>
    obtain ⟨k', rfl, hA⟩ := hA
    exact ih _ (hA _) _

theorem game_close (hD : ∀ x, DrawnSeed x → D x) {A : NonceUser} {q k j : ℕ} (hA : A.Within D q k) (hT : Small T j) :
    |(avg fun s : Fin k → Arr 32 => value D H (A.library O (extend zeroSeed s)) T)
      - avg fun w : Fin k → Scalar × Scalar => value D H (A.random (extend (scalarOne, scalarOne) w)) T|
      ≤ k * (2 * (j + q + 3 * k) / 2 ^ 256 + 2 * (1 / 2 ^ 127)) := by
  have : Nonempty (Arr 32) := ⟨zeroSeed⟩
  have : Nonempty Scalar := ⟨scalarOne⟩
  have hmono : ∀ {x y : ℚ}, x ≤ y → (k : ℚ) * (2 * x / 2 ^ 256 + 2 * (1 / 2 ^ 127)) ≤ k * (2 * y / 2 ^ 256 + 2 * (1 / 2 ^ 127)) := by
    intro x y h
    gcongr
  induction A generalizing q k j T with
  | done v =>
    simp only [library, random, avg_const, sub_self, abs_zero]
    positivity
  | ask x next ih =>
    unfold Within at hA
    simp only [library, random]
    split at hA
    · rename_i hx
      obtain ⟨q', rfl, hA⟩ := hA
      cases hTx : T x with
      | some d =>
        simp only [value_known hx hTx]
        refine (ih d (hA d) hT hmono).trans (hmono ?_)
        push_cast
        linarith
      | none =>
        simp only [value_drawn hx hTx]
        rw [avg_comm, avg_comm (fun (w : Fin k → Scalar × Scalar) h => value D H ((next h).random (extend (scalarOne, scalarOne) w))
          (update T x (some h)))]
        refine (abs_avg_sub _ _).trans (avg_le fun h => (ih h (hA h) (hT.update x _) hmono).trans (hmono (le_of_eq ?_)))
        push_cast
        ring
    · rename_i hx
      simp only [value_given hx]
      exact ih _ (hA _) hT hmono
  | nonce b next ih =>
    clear hmono
    obtain ⟨k', rfl, hA⟩ := hA
    let f : (Fin k' → Arr 32) → SecNonce → Asker Prop := fun s sn => (next sn).library O (extend zeroSeed s)
    have e1 : (avg fun s : Fin (k' + 1) → Arr 32 => value D H ((NonceUser.nonce b next).library O (extend zeroSeed s)) T)
        = avg fun s : Fin k' → Arr 32 => avg fun t : Arr 32 => value D H (build O (Spec.seeded b t) (f s)) T := by
      rw [avg_cons, avg_comm]
      refine congrArg avg (funext fun s => congrArg avg (funext fun t => ?_))
      have e : (NonceUser.nonce b next).library O (extend zeroSeed (Fin.cons t s : Fin (k' + 1) → Arr 32))
          = build O (Spec.seeded b t) (f s) := by
        rw [library]
        simp only [extend_cons_zero, extend_cons_succ]
        rfl
      rw [e]
    have e2 : (avg fun w : Fin (k' + 1) → Scalar × Scalar =>
        value D H ((NonceUser.nonce b next).random (extend (scalarOne, scalarOne) w)) T)
        = avg fun p : Scalar × Scalar => avg fun w : Fin k' → Scalar × Scalar =>
          value D H ((next ⟨p.1, p.2⟩).random (extend (scalarOne, scalarOne) w)) T := by
      rw [avg_cons]
      refine congrArg avg (funext fun p => congrArg avg (funext fun w => ?_))
      have e : (NonceUser.nonce b next).random (extend (scalarOne, scalarOne) (Fin.cons p w : Fin (k' + 1) → Scalar × Scalar))
          = (next ⟨p.1, p.2⟩).random (extend (scalarOne, scalarOne) w) := by
        rw [random]
        simp only [extend_cons_zero, extend_cons_succ]
      rw [e]
    rw [e1, e2]
    have h1 : |(avg fun s : Fin k' → Arr 32 => avg fun t : Arr 32 => value D H (build O (Spec.seeded b t) (f s)) T)
        - avg fun s : Fin k' → Arr 32 => avg fun p : Scalar × Scalar => value D H (f s ⟨p.1, p.2⟩) T|
        ≤ 2 * (j + (q + 3 * k' : ℕ)) / 2 ^ 256 + 2 * (1 / 2 ^ 127) :=
      (abs_avg_sub _ _).trans (avg_le fun s => step_close hD hT fun sn => asks_library hD (hA sn) _)
    have h2 : |(avg fun s : Fin k' → Arr 32 => avg fun p : Scalar × Scalar => value D H (f s ⟨p.1, p.2⟩) T)
        - avg fun p : Scalar × Scalar => avg fun w : Fin k' → Scalar × Scalar =>
          value D H ((next ⟨p.1, p.2⟩).random (extend (scalarOne, scalarOne) w)) T|
        ≤ k' * (2 * (j + q + 3 * k') / 2 ^ 256 + 2 * (1 / 2 ^ 127)) := by
      rw [avg_comm]
      refine (abs_avg_sub _ _).trans (avg_le fun p => ih _ (hA _) hT ?_)
      intro x y h
      gcongr
    refine (abs_sub_le _ _ _).trans ((add_le_add h1 h2).trans ?_)
    have h3 : (k' : ℚ) * (2 * (j + q + 3 * k') / 2 ^ 256 + 2 * (1 / 2 ^ 127))
        ≤ k' * (2 * (j + q + 3 * (k' + 1 : ℕ)) / 2 ^ 256 + 2 * (1 / 2 ^ 127)) := by
      gcongr
      omega
    have h4 : 2 * ((j : ℚ) + (q + 3 * k' : ℕ)) / 2 ^ 256 + 2 * (1 / 2 ^ 127)
        ≤ 2 * (j + q + 3 * (k' + 1 : ℕ)) / 2 ^ 256 + 2 * (1 / 2 ^ 127) := by
      have : (j : ℚ) + (q + 3 * k' : ℕ) ≤ j + q + 3 * (k' + 1 : ℕ) := by
        push_cast
        linarith
      gcongr
    refine (add_le_add h4 h3).trans (le_of_eq ?_)
    push_cast
    ring

end Verif.NonceUser
