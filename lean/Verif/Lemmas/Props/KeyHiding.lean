import Verif.Spec.KeyHiding
import Verif.Lemmas.Lazy
import Verif.Lemmas.Props.KeyCommit
import Verif.Lemmas.Props.OneSigner

/-!
# Lemmas for `Props/KeyHiding`
-/

namespace Verif.KeyHiding

open Finset Function
open Forger (Log)
open AnyForger (coeffString)
open KeyCommit
open Asker (value touch Table Small fill avg)

/-! ## The key of a group -/

/-- The sum of the effective keys, with the coefficients from a table. -/
def tableSum (keys : List Point) (B : Point → Arr 32) : MaybePoint :=
  (keys.map fun K => (if secondKey keys = some K then 1 else reduceFrom (B K)) • K.1).sum

theorem keySum_tableSum {O : Hash} {keys : List Point} {B : Point → Arr 32}
    (h : ∀ P ∈ keys, O (coeffString (O (listString keys), P)) = B P) : keySum O keys = tableSum keys B := by
  unfold keySum tableSum
  congr 1
  refine List.map_congr_left fun P hP => ?_
  congr 1
  by_cases h2 : secondKey keys = some P
  · rw [GroupForger.coeffOf_second h2, if_pos h2]
  · rw [GroupForger.coeffOf_of_ne h2, coeffQuery_eq, h P hP, if_neg h2]

open Classical in
/-- A sum as a key. -/
noncomputable def toKey (R : MaybePoint) : Option Point := if h : R ≠ 0 then some ⟨R, h⟩ else none

theorem key_toKey {O : Hash} {g : Group} (h1 : g.keys ≠ []) (h2 : g.keys.length ≤ u32Max) : g.key O = toKey (keySum O g.keys) := by
  ext Q
  rw [key_eq_some]
  unfold toKey
  constructor
  · rintro ⟨-, -, h⟩
    rw [dif_pos (by rw [h]; exact Q.2)]
    simp only [h]
  · intro h
    split at h
    · cases h
      exact ⟨h1, h2, rfl⟩
    · cases h

theorem head_not_second (P : Point) (keys : List Point) : secondKey (P :: keys) ≠ some P := by
  intro h2
  have := List.find?_some h2
  simp at this

/-- The coefficient of the first key determines the sum, and any sum can be had. -/
theorem exists_pivot (P : Point) (keys : List Point) (hl : (P :: keys).length ≤ u32Max) (B : Point → Arr 32) :
    ∃ φ : MaybeScalar → MaybePoint, Bijective φ ∧ ∀ h, tableSum (P :: keys) (update B P h) = φ (reduceFrom h) := by
  set l := P :: keys with hlk
  have hc : (((l.count P : ℕ) : MaybeScalar) • P.1) ≠ 0 := by
    intro h0
    rcases smul_eq_zero_iff.1 h0 with h0 | h0
    · have hpos : 0 < l.count P := List.count_pos_iff.2 (by simp [hlk])
      have hle := List.count_le_length (a := P) (l := l)
      have hn : u32Max < orderN := by decide +kernel
      have := (ZMod.natCast_eq_zero_iff _ _).1 h0
      exact absurd (Nat.le_of_dvd hpos this) (by omega)
    · exact P.2 h0
  set C := (((l.count P : ℕ) : MaybeScalar) • P.1) with hC
  set g : Point → MaybeScalar := fun K => if secondKey l = some K then 1 else reduceFrom (B K) with hg
  refine ⟨fun a => a • C + ((l.filter (· ≠ P)).map fun K => g K • K.1).sum, ⟨?_, ?_⟩, ?_⟩
  · intro a b e
    exact smul_left_cancel hc (add_right_cancel e)
  · intro R
    obtain ⟨c, hcG⟩ := exists_dlog C
    obtain ⟨r, hr⟩ := exists_dlog (R - ((l.filter (· ≠ P)).map fun K => g K • K.1).sum)
    have hc0 : c ≠ 0 := by
      rintro rfl
      rw [zero_smul] at hcG
      exact hc hcG.symm
    refine ⟨r / c, ?_⟩
    dsimp only
    rw [← hcG, ← mul_smul, div_mul_cancel₀ _ hc0, hr, sub_add_cancel]
  · intro h
    refine Eq.trans ?_ (sum_split l P (reduceFrom h) g)
    unfold tableSum
    congr 1
    refine List.map_congr_left fun K hK => ?_
    congr 1
    by_cases hKP : K = P
    · subst hKP
      rw [if_pos rfl, if_neg (head_not_second _ _), update_self]
    · rw [if_neg hKP, update_of_ne hKP]

/-! ## The answers are spread evenly -/

section
variable [Fintype (Arr 32)]

theorem sum_reduce (f : MaybeScalar → ℚ) :
    ∑ h : Arr 32, f (reduceFrom h) = ∑ x : MaybeScalar, (∑ a : Arr 32, if reduceFrom a = x then (1 : ℚ) else 0) * f x := by
  simp only [sum_mul, ite_mul, one_mul, zero_mul]
  rw [sum_comm]
  refine sum_congr rfl fun h _ => ?_
  rw [sum_ite_eq, if_pos (mem_univ _)]

theorem count_le_two (x : MaybeScalar) : (∑ a : Arr 32, if reduceFrom a = x then (1 : ℚ) else 0) ≤ 2 := by
  have h := prob_le_two (E := fun a => reduceFrom a = x) fun h h' e e' => e.trans e'.symm
  unfold Spec.prob at h
  rw [div_le_div_iff_of_pos_right (by positivity)] at h
  refine le_of_eq_of_le ?_ h
  rw [sum_boole, Set.ncard_eq_toFinset_card']
  congr 2
  ext a
  simp

theorem avg_reduce_le {f : MaybeScalar → ℚ} (h0 : ∀ x, 0 ≤ f x) : (avg fun h : Arr 32 => f (reduceFrom h)) ≤ 2 / 2 ^ 256 * ∑ x, f x := by
  unfold avg
  rw [sum_reduce, OneSigner.card_arr, div_mul_eq_mul_div, div_le_div_iff_of_pos_right (by positivity), mul_sum]
  exact sum_le_sum fun x _ => mul_le_mul_of_nonneg_right (count_le_two x) (h0 x)

theorem avg_reduce_close {f : MaybeScalar → ℚ} (h0 : ∀ x, 0 ≤ f x) (h1 : ∀ x, f x ≤ 1) :
    |(avg fun h : Arr 32 => f (reduceFrom h)) - avg f| ≤ 1 / 2 ^ 126 := by
  refine le_trans ?_ OneSigner.bias
  unfold avg
  rw [sum_reduce, ZMod.card, sum_div, sum_div, ← sum_sub_distrib]
  refine (abs_sum_le_sum_abs _ _).trans (sum_le_sum fun x _ => ?_)
  have : (∑ a : Arr 32, if reduceFrom a = x then (1 : ℚ) else 0) * f x / Fintype.card (Arr 32) - f x / orderN
      = ((∑ a : Arr 32, if reduceFrom a = x then (1 : ℚ) else 0) / Fintype.card (Arr 32) - 1 / orderN) * f x := by ring
  rw [this, abs_mul, abs_of_nonneg (h0 x)]
  exact mul_le_of_le_one_right (abs_nonneg _) (h1 x)

variable [Fintype Point] [Fintype MaybePoint]

theorem sum_table_le (P : Point) (keys : List Point) (hl : (P :: keys).length ≤ u32Max) {F : MaybePoint → ℚ} (h0 : ∀ R, 0 ≤ F R) :
    (avg fun B : Point → Arr 32 => F (tableSum (P :: keys) B)) ≤ 2 / 2 ^ 256 * ∑ R, F R := by
  rw [Asker.avg_pull P]
  refine Asker.avg_le fun B => ?_
  obtain ⟨φ, hφ, h⟩ := exists_pivot P keys hl B
  simp only [h]
  rw [← hφ.sum_comp F]
  exact avg_reduce_le fun x => h0 _

theorem avg_table_close (P : Point) (keys : List Point) (hl : (P :: keys).length ≤ u32Max) {F : MaybePoint → ℚ} (h0 : ∀ R, 0 ≤ F R)
    (h1 : ∀ R, F R ≤ 1) : |(avg fun B : Point → Arr 32 => F (tableSum (P :: keys) B)) - avg F| ≤ 1 / 2 ^ 126 := by
  have key : ∀ B : Point → Arr 32, |(avg fun h => F (tableSum (P :: keys) (update B P h))) - avg F| ≤ 1 / 2 ^ 126 := by
    intro B
    obtain ⟨φ, hφ, h⟩ := exists_pivot P keys hl B
    have e := avg_reduce_close (f := fun x => F (φ x)) (fun x => h0 _) fun x => h1 _
    rw [Asker.avg_bij (f := F) hφ] at e
    simpa only [h] using e
  generalize (1 : ℚ) / 2 ^ 126 = c at key ⊢
  have e : avg F = avg fun _ : Point → Arr 32 => avg F := (Asker.avg_const _).symm
  rw [Asker.avg_pull P, e]
  exact (Asker.abs_avg_sub _ _).trans (Asker.avg_le key)

/-! ## The answers of the group -/

theorem find_zip (xs : List Bytes) (f : Bytes → Arr 32) {x : Bytes} (hx : x ∈ xs) : Log.find (xs.zip (xs.map f)) x = some (f x) := by
  induction xs with
  | nil => cases hx
  | cons y xs ih =>
    rw [List.map_cons, List.zip_cons_cons]
    unfold Log.find
    rw [List.find?_cons]
    by_cases hy : y = x
    · subst hy
      simp
    · rw [decide_eq_false (by exact hy)]
      exact ih ((List.mem_cons.1 hx).resolve_left fun e => hy e.symm)

variable {D : Bytes → Prop} [DecidablePred D]

theorem see_toKey_nonneg (H : Hash) (t : Test) (T : Table) (R : MaybePoint) : 0 ≤ value D H (t.see (toKey R)) T := (Asker.value_mem _ _).1

/-- What belongs to the group. -/
def Own (t : Test) (X : Point) (L : Arr 32) (y : Bytes) : Prop := y = listString (t.keys X) ∨ ∃ P, y = coeffString (L, P)

variable {H : Hash}

/-- If the hash of the list and the coefficients have not been asked for. -/
theorem value_coeffs (hD : ∀ x, Drawn x → D x) (t : Test) (X : Point) (hl : (t.keys X).length ≤ u32Max) (L : Arr 32) {T : Table}
    (hc : ∀ P, T (coeffString (L, P)) = none) :
    |value D H (Asker.askHashes ((t.keys X).map fun P => coeffString (L, P)) fun hs =>
        t.see (Group.key (Log.hash H ((listString (t.keys X), L) :: ((t.keys X).map fun P => coeffString (L, P)).zip hs)) ⟨t.keys X, t.root⟩))
        (update T (listString (t.keys X)) (some L))
      - avg fun B : Point → Arr 32 => value D H (t.see (toKey (tableSum (t.keys X) B))) T|
      ≤ avg fun B : Point → Arr 32 => touch D H (Own t X L) (t.see (toKey (tableSum (t.keys X) B))) T := by
  set keys := t.keys X with hkeys
  have hinj : Injective fun P : Point => coeffString (L, P) := fun P P' e => (coeffString_inj e).2
  rw [Asker.value_eager_fill hinj (fun P => hD _ (drawn_coeff _)) (T := update T (listString keys) (some L))
    (fun P => by rw [update_of_ne (coeffString_ne_listString _ _), hc]) _ Finset.univ]
  refine (Asker.abs_avg_sub _ _).trans (Asker.avg_mono fun B => ?_)
  set T2 := fill (fun P : Point => coeffString (L, P)) Finset.univ (update T (listString keys) (some L)) B with hT2
  have h2 : ∀ P, T2 (coeffString (L, P)) = some (B P) := fun P => Asker.fill_apply hinj (mem_univ P) _ B
  set f : Bytes → Arr 32 := fun y => (T2 y).getD zeroSeed with hf
  have hfP : ∀ P, f (coeffString (L, P)) = B P := fun P => by rw [hf]; dsimp only; rw [h2]; rfl
  rw [Asker.value_askHashes (f := f) _ (fun x hx => by
      obtain ⟨P, -, rfl⟩ := List.mem_map.1 hx
      exact hD _ (drawn_coeff _)) (fun x hx => by
      obtain ⟨P, -, rfl⟩ := List.mem_map.1 hx
      rw [hfP]
      exact h2 P)]
  set O := Log.hash H ((listString keys, L) :: (keys.map fun P => coeffString (L, P)).zip ((keys.map fun P => coeffString (L, P)).map f)) with hO
  have hOL : O (listString keys) = L := by
    rw [hO]
    unfold Log.hash Log.find
    simp
  have hOP : ∀ P ∈ keys, O (coeffString (L, P)) = B P := by
    intro P hP
    have h3 := find_zip (keys.map fun P => coeffString (L, P)) f (List.mem_map_of_mem (f := fun P => coeffString (L, P)) hP)
    rw [hfP] at h3
    rw [hO]
    unfold Log.hash
    have h4 : Log.find ((listString keys, L) :: (keys.map fun P => coeffString (L, P)).zip ((keys.map fun P => coeffString (L, P)).map f))
        (coeffString (L, P)) = some (B P) := by
      rw [← h3]
      unfold Log.find
      rw [List.find?_cons, decide_eq_false (by exact fun e => coeffString_ne_listString _ _ e.symm)]
    rw [h4]
    rfl
  have hk : Group.key O ⟨keys, t.root⟩ = toKey (tableSum keys B) := by
    rw [key_toKey (g := ⟨keys, t.root⟩) (by simp [hkeys, Test.keys]) hl, keySum_tableSum (B := B)]
    rw [hOL]
    exact hOP
  rw [hk]
  refine Asker.value_close _ fun y hy => ?_
  unfold Own at hy
  rw [not_or, not_exists] at hy
  rw [hT2, Asker.fill_of_ne (fun P _ e => hy.2 P e.symm), update_of_ne hy.1]

open Classical in
/-- The group of one unknown member. -/
theorem value_group (hD : ∀ x, Drawn x → D x) (t : Test) (X : Point) (hl : (t.keys X).length ≤ u32Max) (T : Table) :
    |value D H (group H X t) T - avg fun B : Point → Arr 32 => value D H (t.see (toKey (tableSum (t.keys X) B))) T|
      ≤ (if ∃ y, y = listString (t.keys X) ∧ T y ≠ none then (1 : ℚ) else 0)
        + ((avg fun L : Arr 32 => if ∃ y, (∃ P, y = coeffString (L, P)) ∧ T y ≠ none then (1 : ℚ) else 0)
        + avg fun L : Arr 32 => avg fun B : Point → Arr 32 => touch D H (Own t X L) (t.see (toKey (tableSum (t.keys X) B))) T) := by
  have hn1 : (0 : ℚ) ≤ avg fun L : Arr 32 => if ∃ y, (∃ P, y = coeffString (L, P)) ∧ T y ≠ none then (1 : ℚ) else 0 :=
    Asker.avg_nonneg fun L => by split <;> norm_num
  have hn2 : (0 : ℚ) ≤ avg fun L : Arr 32 => avg fun B : Point → Arr 32 =>
      touch D H (Own t X L) (t.see (toKey (tableSum (t.keys X) B))) T :=
    Asker.avg_nonneg fun L => Asker.avg_nonneg fun B => Asker.touch_nonneg _ _ _
  have hA0 : 0 ≤ avg fun B : Point → Arr 32 => value D H (t.see (toKey (tableSum (t.keys X) B))) T :=
    Asker.avg_nonneg fun B => (Asker.value_mem _ _).1
  have hA1 : (avg fun B : Point → Arr 32 => value D H (t.see (toKey (tableSum (t.keys X) B))) T) ≤ 1 :=
    Asker.avg_le fun B => (Asker.value_mem _ _).2
  have habs : ∀ p T', |value D H p T' - avg fun B : Point → Arr 32 => value D H (t.see (toKey (tableSum (t.keys X) B))) T| ≤ 1 := by
    intro p T'
    obtain ⟨h1, h2⟩ := Asker.value_mem (D := D) (H := H) p T'
    rw [abs_le]
    constructor <;> linarith
  by_cases hx : ∃ y, y = listString (t.keys X) ∧ T y ≠ none
  · rw [if_pos hx]
    have := habs (group H X t) T
    linarith
  · rw [if_neg hx, zero_add, ← Asker.avg_add]
    have hT : T (listString (t.keys X)) = none := by
      by_contra h
      exact hx ⟨_, rfl, h⟩
    unfold group
    rw [Asker.value_drawn (hD _ (drawn_list _)) hT]
    have e : (avg fun B : Point → Arr 32 => value D H (t.see (toKey (tableSum (t.keys X) B))) T)
        = avg fun _ : Arr 32 => avg fun B : Point → Arr 32 => value D H (t.see (toKey (tableSum (t.keys X) B))) T :=
      (Asker.avg_const _).symm
    rw [e]
    refine (Asker.abs_avg_sub _ _).trans (Asker.avg_mono fun L => ?_)
    by_cases hL : ∃ y, (∃ P, y = coeffString (L, P)) ∧ T y ≠ none
    · rw [if_pos hL]
      have h1 := habs (Asker.askHashes ((t.keys X).map fun P => coeffString (L, P)) fun hs =>
        t.see (Group.key (Log.hash H ((listString (t.keys X), L) :: ((t.keys X).map fun P => coeffString (L, P)).zip hs)) ⟨t.keys X, t.root⟩))
        (update T (listString (t.keys X)) (some L))
      have h2 : (0 : ℚ) ≤ avg fun B : Point → Arr 32 => touch D H (Own t X L) (t.see (toKey (tableSum (t.keys X) B))) T :=
        Asker.avg_nonneg fun B => Asker.touch_nonneg _ _ _
      linarith
    · rw [if_neg hL, zero_add]
      refine value_coeffs hD t X hl L fun P => ?_
      by_contra h
      exact hL ⟨_, ⟨P, rfl⟩, h⟩

variable [Fintype Scalar]

theorem keys_inj (t : Test) {X X' : Point} (h : t.keys X = t.keys X') : X = X' := by
  unfold Test.keys at h
  exact (List.cons.inj (List.append_cancel_left h)).1

omit [Fintype (Arr 32)] [Fintype Point] [Fintype MaybePoint] in
theorem card_scalar' : (Fintype.card Scalar : ℚ) = (orderN : ℚ) - 1 := by
  rw [← Nat.card_eq_fintype_card, card_scalar, Nat.cast_sub orderN_prime.one_le, Nat.cast_one]

open Classical in
/-- A string belongs to few groups. -/
theorem avg_own (t : Test) (y : Bytes) :
    (avg fun g : Scalar × Arr 32 => if Own t (mulG g.1) g.2 y then (1 : ℚ) else 0) ≤ 1 / ((orderN : ℚ) - 1) + 1 / 2 ^ 256 := by
  have h1 : (avg fun x : Scalar => if y = listString (t.keys (mulG x)) then (1 : ℚ) else 0) ≤ 1 / ((orderN : ℚ) - 1) := by
    unfold avg
    rw [card_scalar', sum_boole]
    refine div_le_div_of_nonneg_right ?_ (by rw [← card_scalar']; positivity)
    have : (Finset.univ.filter fun x : Scalar => y = listString (t.keys (mulG x))).card ≤ 1 := by
      refine Finset.card_le_one.2 fun x hx x' hx' => mulG_injective (keys_inj t (listString_inj ?_))
      exact (mem_filter.1 hx).2.symm.trans (mem_filter.1 hx').2
    exact_mod_cast this
  have h2 : (avg fun L : Arr 32 => if ∃ P, y = coeffString (L, P) then (1 : ℚ) else 0) ≤ 1 / 2 ^ 256 := by
    unfold avg
    rw [OneSigner.card_arr, sum_boole]
    refine div_le_div_of_nonneg_right ?_ (by positivity)
    have : (Finset.univ.filter fun L : Arr 32 => ∃ P, y = coeffString (L, P)).card ≤ 1 := by
      refine Finset.card_le_one.2 fun x hx x' hx' => ?_
      obtain ⟨P, e⟩ := (mem_filter.1 hx).2
      obtain ⟨P', e'⟩ := (mem_filter.1 hx').2
      exact (coeffString_inj (e.symm.trans e')).1
    exact_mod_cast this
  have : Nonempty Scalar := ⟨scalarOne⟩
  calc _ ≤ avg fun g : Scalar × Arr 32 => (if y = listString (t.keys (mulG g.1)) then (1 : ℚ) else 0)
          + if ∃ P, y = coeffString (g.2, P) then (1 : ℚ) else 0 := by
        refine Asker.avg_mono fun g => ?_
        unfold Own
        by_cases ha : y = listString (t.keys (mulG g.1))
        · rw [if_pos (.inl ha), if_pos ha]
          split <;> norm_num
        · by_cases hb : ∃ P, y = coeffString (g.2, P)
          · rw [if_pos (.inr hb), if_pos hb, if_neg ha]
            norm_num
          · rw [if_neg (by rintro (h | h); exacts [ha h, hb h]), if_neg ha, if_neg hb]
            norm_num
    _ = (avg fun x : Scalar => if y = listString (t.keys (mulG x)) then (1 : ℚ) else 0)
          + avg fun L : Arr 32 => if ∃ P, y = coeffString (L, P) then (1 : ℚ) else 0 := by
        rw [Asker.avg_add]
        congr 1
        · rw [Asker.avg_prod fun (x : Scalar) (_ : Arr 32) => if y = listString (t.keys (mulG x)) then (1 : ℚ) else 0]
          simp only [Asker.avg_const]
        · rw [Asker.avg_prod fun (_ : Scalar) (L : Arr 32) => if ∃ P, y = coeffString (L, P) then (1 : ℚ) else 0, Asker.avg_const]
    _ ≤ _ := add_le_add h1 h2

/-- All points, or all points but the one at infinity. -/
theorem avg_points {F : MaybePoint → ℚ} (h00 : F 0 = 0) (h0 : ∀ R, 0 ≤ F R) (h1 : ∀ R, F R ≤ 1) :
    |avg F - avg fun x : Scalar => F (mulG x).1| ≤ 1 / orderN := by
  have hb : Bijective fun a : MaybeScalar => a • G := ⟨fun a b e => smul_G_inj.1 e, fun R => exists_dlog R⟩
  have hn : (1 : ℚ) < orderN := by exact_mod_cast orderN_prime.one_lt
  have hs : ∑ a : MaybeScalar, F (a • G) = ∑ x : Scalar, F (mulG x).1 := by
    have h := Fintype.sum_eq_add_sum_subtype_ne (fun a : MaybeScalar => F (a • G)) 0
    rw [zero_smul, h00, zero_add] at h
    refine h.trans ?_
    congr! 1
    ext x
    simp
  have hsum : ∑ x : Scalar, F (mulG x).1 ≤ (orderN : ℚ) - 1 := by
    rw [← card_scalar', ← card_univ, ← nsmul_one]
    exact sum_le_card_nsmul _ _ _ fun x _ => h1 _
  have hsum0 : 0 ≤ ∑ x : Scalar, F (mulG x).1 := sum_nonneg fun x _ => h0 _
  rw [← Asker.avg_bij hb]
  unfold avg
  rw [hs, card_scalar', ZMod.card]
  generalize ∑ x : Scalar, F (mulG x).1 = S at *
  generalize (orderN : ℚ) = n at *
  have hn1 : 0 < n - 1 := by linarith
  have e : S / n - S / (n - 1) = - (S / (n - 1) * (1 / n)) := by
    field_simp
    ring
  rw [e, abs_neg, abs_of_nonneg (by positivity)]
  exact mul_le_of_le_one_left (by positivity) ((div_le_one hn1).2 hsum)

open Classical in
/-- All groups. -/
theorem avg_group (hD : ∀ x, Drawn x → D x) (t : Test) {N q k : ℕ} (ht : t.Within N q D) (hN : N + 1 ≤ u32Max) {T : Table} (hT : Small T k) :
    |(avg fun x : Scalar => value D H (group H (mulG x) t) T) - avg fun x : Scalar => value D H (single (mulG x) t) T|
      ≤ k / ((orderN : ℚ) - 1) + (k / 2 ^ 256 + 2 / 2 ^ 256 * (orderN * (q * (1 / ((orderN : ℚ) - 1) + 1 / 2 ^ 256)))) + 1 / 2 ^ 126 + 1 / orderN := by
  have : Nonempty Scalar := ⟨scalarOne⟩
  have hl : ∀ X, (t.keys X).length ≤ u32Max := by
    intro X
    unfold Test.keys
    rw [List.length_append, List.length_cons]
    have := ht.1
    omega
  have hcons : ∀ X, ∃ P rest, t.keys X = P :: rest := fun X =>
    List.exists_cons_of_ne_nil (by simp [Test.keys])
  have hn1 : (0 : ℚ) ≤ (orderN : ℚ) - 1 := by rw [← card_scalar']; positivity
  set F : MaybePoint → ℚ := fun R => value D H (t.see (toKey R)) T with hF
  have h0 : ∀ R, 0 ≤ F R := fun R => (Asker.value_mem _ _).1
  have h1 : ∀ R, F R ≤ 1 := fun R => (Asker.value_mem _ _).2
  have h00 : F 0 = 0 := by
    rw [hF]
    dsimp only
    unfold toKey
    rw [dif_neg (by simp)]
    unfold Test.see
    rw [value, if_neg not_false]
  have hFX : ∀ X : Point, F X.1 = value D H (single X t) T := by
    intro X
    rw [hF]
    dsimp only
    unfold toKey
    rw [dif_pos X.2]
    rfl
  -- the judge asks for little that belongs to the group
  have hasks : ∀ R, (t.see (toKey R)).AsksAtMost D (fun _ => True) q := by
    intro R
    cases toKey R with
    | none => exact trivial
    | some Q => exact ht.2 Q
  have htouch : (avg fun x : Scalar => avg fun L : Arr 32 => avg fun B : Point → Arr 32 =>
      touch D H (Own t (mulG x) L) (t.see (toKey (tableSum (t.keys (mulG x)) B))) T)
      ≤ 2 / 2 ^ 256 * (orderN * (q * (1 / ((orderN : ℚ) - 1) + 1 / 2 ^ 256))) := by
    calc _ ≤ avg fun x : Scalar => avg fun L : Arr 32 => 2 / 2 ^ 256 * ∑ R, touch D H (Own t (mulG x) L) (t.see (toKey R)) T := by
          refine Asker.avg_mono fun x => Asker.avg_mono fun L => ?_
          obtain ⟨P, rest, hk⟩ := hcons (mulG x)
          have := sum_table_le P rest (hk ▸ hl (mulG x)) (F := fun R => touch D H (Own t (mulG x) L) (t.see (toKey R)) T)
            fun R => Asker.touch_nonneg _ _ _
          rwa [← hk] at this
      _ = 2 / 2 ^ 256 * ∑ R, avg fun g : Scalar × Arr 32 => touch D H (Own t (mulG g.1) g.2) (t.see (toKey R)) T := by
          rw [← Asker.avg_prod fun (x : Scalar) (L : Arr 32) => 2 / 2 ^ 256 * ∑ R, touch D H (Own t (mulG x) L) (t.see (toKey R)) T,
            Asker.avg_mul, Asker.sum_avg]
      _ ≤ _ := by
          refine mul_le_mul_of_nonneg_left ?_ (by positivity)
          have hcard : (Fintype.card MaybePoint : ℚ) = orderN := by
            have hb : Bijective fun a : MaybeScalar => a • G := ⟨fun a b e => smul_G_inj.1 e, fun R => exists_dlog R⟩
            rw [← Fintype.card_of_bijective hb, ZMod.card]
          refine (sum_le_card_nsmul _ _ _ fun R _ => Asker.avg_touch (fun g : Scalar × Arr 32 => Own t (mulG g.1) g.2) (by positivity)
            (fun y => avg_own t y) (hasks R) T).trans_eq ?_
          rw [nsmul_eq_mul, card_univ, hcard]
  have hlist : (avg fun x : Scalar => if ∃ y, y = listString (t.keys (mulG x)) ∧ T y ≠ none then (1 : ℚ) else 0)
      ≤ k / ((orderN : ℚ) - 1) := by
    unfold avg
    rw [card_scalar']
    refine div_le_div_of_nonneg_right (hT.sum_le (s := fun (x : Scalar) y => y = listString (t.keys (mulG x))) ?_) hn1
    rintro x x' y rfl e
    exact mulG_injective (keys_inj t (listString_inj e))
  have hcoef : (avg fun L : Arr 32 => if ∃ y, (∃ P, y = coeffString (L, P)) ∧ T y ≠ none then (1 : ℚ) else 0) ≤ k / 2 ^ 256 := by
    unfold avg
    rw [OneSigner.card_arr]
    refine div_le_div_of_nonneg_right (hT.sum_le (s := fun (L : Arr 32) y => ∃ P, y = coeffString (L, P)) ?_) (by positivity)
    rintro L L' y ⟨P, rfl⟩ ⟨P', e⟩
    exact (coeffString_inj e).1
  have hA : |(avg fun x : Scalar => value D H (group H (mulG x) t) T)
      - avg fun x : Scalar => avg fun B : Point → Arr 32 => F (tableSum (t.keys (mulG x)) B)|
      ≤ k / ((orderN : ℚ) - 1) + (k / 2 ^ 256 + 2 / 2 ^ 256 * (orderN * (q * (1 / ((orderN : ℚ) - 1) + 1 / 2 ^ 256)))) := by
    refine (Asker.abs_avg_sub _ _).trans ((Asker.avg_mono fun x => value_group hD t (mulG x) (hl _) T).trans ?_)
    rw [Asker.avg_add, Asker.avg_add, Asker.avg_const]
    exact add_le_add hlist (add_le_add hcoef htouch)
  have hB : |(avg fun x : Scalar => avg fun B : Point → Arr 32 => F (tableSum (t.keys (mulG x)) B)) - avg F| ≤ 1 / 2 ^ 126 := by
    have key : ∀ x : Scalar, |(avg fun B : Point → Arr 32 => F (tableSum (t.keys (mulG x)) B)) - avg F| ≤ 1 / 2 ^ 126 := by
      intro x
      obtain ⟨P, rest, hk⟩ := hcons (mulG x)
      have := avg_table_close P rest (hk ▸ hl (mulG x)) h0 h1
      rwa [← hk] at this
    generalize (1 : ℚ) / 2 ^ 126 = c at key ⊢
    have e : avg F = avg fun _ : Scalar => avg F := (Asker.avg_const _).symm
    rw [e]
    exact (Asker.abs_avg_sub _ _).trans (Asker.avg_le key)
  have hC := avg_points (F := F) h00 h0 h1
  simp only [hFX] at hC
  have t1 := abs_sub_le (avg fun x : Scalar => value D H (group H (mulG x) t) T)
    (avg fun x : Scalar => avg fun B : Point → Arr 32 => F (tableSum (t.keys (mulG x)) B)) (avg fun x : Scalar => value D H (single (mulG x) t) T)
  have t2 := abs_sub_le (avg fun x : Scalar => avg fun B : Point → Arr 32 => F (tableSum (t.keys (mulG x)) B)) (avg F)
    (avg fun x : Scalar => value D H (single (mulG x) t) T)
  generalize (1 : ℚ) / 2 ^ 126 = c at *
  generalize (2 : ℚ) / 2 ^ 256 * (orderN * (q * (1 / ((orderN : ℚ) - 1) + 1 / 2 ^ 256))) = c' at *
  generalize (k : ℚ) / 2 ^ 256 = c'' at *
  linarith

/-- What the bounds come to. -/
theorem bound_group (k q : ℕ) : (k : ℚ) / ((orderN : ℚ) - 1) + (k / 2 ^ 256 + 2 / 2 ^ 256 * (orderN * (q * (1 / ((orderN : ℚ) - 1) + 1 / 2 ^ 256))))
    + 1 / 2 ^ 126 + 1 / orderN ≤ 6 * (k + q) / 2 ^ 256 + 1 / 2 ^ 125 := by
  have e : ((256 ^ 32 : ℕ) : ℚ) = 2 ^ 256 := by norm_num
  have hlt : (orderN : ℚ) < 2 ^ 256 := by rw [← e]; exact_mod_cast orderN_lt
  have hcl : (2 : ℚ) ^ 256 / 2 + 1 ≤ orderN := by
    have h := orderN_close
    have h2 : 2 ^ 255 + 1 ≤ orderN := by omega
    have h3 : (2 : ℚ) ^ 256 / 2 = 2 ^ 255 := by norm_num
    rw [h3]
    exact_mod_cast h2
  have hs : (1 : ℚ) / 2 ^ 125 = 1 / 2 ^ 126 + 1 / 2 ^ 126 := by norm_num
  have hs2 : (2 : ℚ) / 2 ^ 256 ≤ 1 / 2 ^ 126 := by norm_num
  rw [hs]
  have hW : (0 : ℚ) < 2 ^ 256 := by positivity
  generalize (1 : ℚ) / 2 ^ 126 = c at *
  generalize (2 : ℚ) ^ 256 = W at *
  generalize (orderN : ℚ) = n at *
  have hk : (0 : ℚ) ≤ k := Nat.cast_nonneg _
  have hq : (0 : ℚ) ≤ q := Nat.cast_nonneg _
  generalize (k : ℚ) = k at *
  generalize (q : ℚ) = q at *
  have h1 : 1 / (n - 1) ≤ 2 / W := by
    rw [div_le_div_iff₀ (by linarith) hW]
    linarith
  have h2 : 1 / n ≤ 2 / W := by
    rw [div_le_div_iff₀ (by linarith) hW]
    linarith
  have h3 : k / (n - 1) ≤ k * (2 / W) := by
    rw [div_eq_mul_one_div]
    exact mul_le_mul_of_nonneg_left h1 hk
  have h4 : 2 / W * (n * (q * (1 / (n - 1) + 1 / W))) ≤ 2 / W * (W * (q * (2 / W + 1 / W))) := by
    refine mul_le_mul_of_nonneg_left ?_ (by positivity)
    have h5 : 0 ≤ 1 / (n - 1) := by
      have : 0 < n - 1 := by linarith
      positivity
    refine mul_le_mul hlt.le ?_ (by positivity) hW.le
    exact mul_le_mul_of_nonneg_left (by linarith) hq
  have h6 : 2 / W * (W * (q * (2 / W + 1 / W))) = 6 * q / W := by
    field_simp
    ring
  have h7 : k * (2 / W) + k / W = 3 * k / W := by ring
  have h8 : 3 * k / W ≤ 6 * k / W := div_le_div_of_nonneg_right (by linarith) hW.le
  have h9 : 6 * (k + q) / W = 6 * k / W + 6 * q / W := by ring
  rw [h9]
  linarith

end

/-! ## The taproot output -/

/-- The output for an internal key and an answer. -/
noncomputable def outputOf (Q : Point) (h : Arr 32) : Option Point := (parseScalar h.1).bind fun k => toKey ((toEvenY Q).1 + k.1 • G)

theorem toKey_eq_some {R : MaybePoint} {Q : Point} : toKey R = some Q ↔ R = Q.1 := by
  unfold toKey
  constructor
  · intro h
    split at h
    · cases h; rfl
    · cases h
  · rintro rfl
    rw [dif_pos Q.2]

theorem output_outputOf {O : Hash} {g : Group} {Q : Point} (h : g.key O = some Q) :
    g.output O = outputOf Q (O (Spec.taptweakQuery Q g.rootBytes)) := by
  unfold Group.key at h
  unfold Group.output
  split at h
  · rename_i ctx hctx
    cases h
    have hi : g.tweak O ctx = ctx.withTaprootTweakInternal O g.rootBytes := by
      unfold Group.tweak Group.rootBytes
      cases g.root <;> rfl
    have hq : tagHash O TAPROOT_TWEAK_TAG_DIGEST ((xonly ctx.pubkey.1).1 ++ g.rootBytes)
        = O (Spec.taptweakQuery ctx.aggregatedPubkey g.rootBytes) := by
      unfold tagHash Spec.taptweakQuery
      rw [taggedInput_eq (D := TAPROOT_TWEAK_TAG_DIGEST) (by simp [tagTable]), spec_xbytes]
      rfl
    rw [hi]
    unfold KeyAggContext.withTaprootTweakInternal outputOf
    rw [hq]
    ext R
    rw [Option.bind_eq_some_iff]
    constructor
    · intro h
      split at h
      · rename_i ctx' hctx'
        simp only [Res.bind_eq_ok, Res.okOr_eq_ok] at hctx'
        obtain ⟨k, hk, e⟩ := hctx'
        obtain ⟨Q', hQ', rfl⟩ := withXonlyTweak_eq_ok.1 e
        cases h
        refine ⟨k, hk, toKey_eq_some.2 ?_⟩
        rw [toEvenY_val]
        exact hQ'
      · cases h
    · rintro ⟨k, hk, hR⟩
      rw [toKey_eq_some, toEvenY_val] at hR
      have e := withXonlyTweak_eq_ok.2 ⟨R, hR, rfl⟩
      dsimp only
      rw [hk, show (Res.okOr (some k) TweakError.tweakError >>= fun tweak => ctx.withXonlyTweak tweak) = ctx.withXonlyTweak k from rfl, e]
      rfl
  · cases h

/-- The judge who sees the internal key, and looks at the output. -/
noncomputable def Test.inner (t : Test) : Test where
  before := t.before
  after := t.after
  root := t.root
  judge Q := .ask (Spec.taptweakQuery Q (Group.rootBytes ⟨[], t.root⟩)) fun h => t.see (outputOf Q h)

theorem output_eq_group (H : Hash) (X : Point) (t : Test) : output H X t = group H X t.inner := by
  unfold output group
  have hk : t.inner.keys X = t.keys X := rfl
  rw [hk]
  congr 1
  funext L
  dsimp only
  congr 1
  funext hs
  set table : Log := (listString (t.keys X), L) :: ((t.keys X).map fun P => coeffString (L, P)).zip hs with htable
  have hr : t.inner.root = t.root := rfl
  rw [hr]
  cases hkey : Group.key (Log.hash H table) ⟨t.keys X, t.root⟩ with
  | none => rfl
  | some Q =>
    change Asker.ask _ _ = Asker.ask _ _
    have hrb : Group.rootBytes ⟨t.keys X, t.root⟩ = Group.rootBytes ⟨[], t.root⟩ := rfl
    rw [hrb]
    congr 1
    funext h
    congr 1
    have hne : ∀ y, y ≠ Spec.taptweakQuery Q (Group.rootBytes ⟨[], t.root⟩) →
        Log.hash H ((Spec.taptweakQuery Q (Group.rootBytes ⟨[], t.root⟩), h) :: table) y = Log.hash H table y := by
      intro y hy
      unfold Log.hash Log.find
      rw [List.find?_cons, decide_eq_false (by exact fun e => hy e.symm)]
    have hk' : Group.key (Log.hash H ((Spec.taptweakQuery Q (Group.rootBytes ⟨[], t.root⟩), h) :: table)) ⟨t.keys X, t.root⟩ = some Q := by
      rw [← hkey]
      refine key_congr (keySum_congr (hne _ (listString_ne_tap _ _ _)) fun P _ _ => hne _ (coeffString_ne_tap _ _ _))
    rw [output_outputOf hk', hrb]
    congr 1
    unfold Log.hash Log.find
    simp

section
variable [Fintype (Arr 32)] {H : Hash} {D : Bytes → Prop} [DecidablePred D]

theorem sum_parse [Fintype Scalar] {f : Option Scalar → ℚ} (h0 : f none = 0) : ∑ h : Arr 32, f (parseScalar h.1) = ∑ k : Scalar, f (some k) := by
  have h1 : ∀ h : Arr 32, f (parseScalar h.1) = ∑ k : Scalar, if h = serScalar k.1 then f (some k) else 0 := by
    intro h
    cases hp : parseScalar h.1 with
    | none =>
      rw [h0]
      refine (sum_eq_zero fun k _ => if_neg ?_).symm
      rintro rfl
      rw [parseScalar_ser] at hp
      cases hp
    | some k =>
      have hk := parseScalar_eq_some.1 hp
      rw [sum_eq_single k]
      · rw [if_pos (Subtype.ext hk)]
      · intro k' _ hne
        rw [if_neg]
        rintro rfl
        rw [parseScalar_ser] at hp
        exact hne (Option.some.inj hp)
      · exact fun h => absurd (mem_univ _) h
  simp only [h1]
  rw [sum_comm]
  refine sum_congr rfl fun k _ => ?_
  rw [sum_ite_eq', if_pos (mem_univ _)]

/-- Any output can be had, but for the internal key itself. -/
theorem sum_output [Fintype Scalar] [Fintype MaybePoint] {F : Option Point → ℚ} (h0 : F none = 0) (Q : Point) :
    ∑ h : Arr 32, F (outputOf Q h) = (∑ R, F (toKey R)) - F (some (toEvenY Q)) := by
  have h1 := sum_parse (f := fun o => F (o.bind fun k => toKey ((toEvenY Q).1 + k.1 • G))) h0
  have hb : Bijective fun a : MaybeScalar => (toEvenY Q).1 + a • G :=
    ⟨fun a b e => smul_G_inj.1 (add_left_cancel e), fun R => by
      obtain ⟨a, ha⟩ := exists_dlog (R - (toEvenY Q).1)
      exact ⟨a, by dsimp only; rw [ha]; abel⟩⟩
  have h2 := Fintype.sum_eq_add_sum_subtype_ne (fun a : MaybeScalar => F (toKey ((toEvenY Q).1 + a • G))) 0
  rw [zero_smul, add_zero, hb.sum_comp (fun R => F (toKey R)), toKey_eq_some.2 rfl] at h2
  unfold outputOf
  refine h1.trans ?_
  rw [h2, add_sub_cancel_left]
  congr! 1
  ext x
  simp

variable [Fintype Scalar]

open Classical in
/-- Few internal keys have a string that was asked for. -/
theorem sum_tap {T : Table} {k : ℕ} (hT : Small T k) (r : Bytes) :
    (∑ x : Scalar, if T (Spec.taptweakQuery (mulG x) r) ≠ none then (1 : ℚ) else 0) ≤ 2 * k := by
  have h : ∀ b : Bool, (∑ x : Scalar, if ∃ y, (isOdd (mulG x).1 = b ∧ y = Spec.taptweakQuery (mulG x) r) ∧ T y ≠ none then (1 : ℚ) else 0) ≤ k := by
    intro b
    refine hT.sum_le (s := fun (x : Scalar) y => isOdd (mulG x).1 = b ∧ y = Spec.taptweakQuery (mulG x) r) ?_
    rintro x x' y ⟨h1, rfl⟩ ⟨h2, e⟩
    exact mulG_injective (Subtype.ext (eq_of_xonly_isOdd (tap_inj e).1 (h1.trans h2.symm)))
  calc _ ≤ ∑ x : Scalar, ((if ∃ y, (isOdd (mulG x).1 = true ∧ y = Spec.taptweakQuery (mulG x) r) ∧ T y ≠ none then (1 : ℚ) else 0)
        + if ∃ y, (isOdd (mulG x).1 = false ∧ y = Spec.taptweakQuery (mulG x) r) ∧ T y ≠ none then (1 : ℚ) else 0) := by
        refine sum_le_sum fun x _ => ?_
        by_cases hx : T (Spec.taptweakQuery (mulG x) r) ≠ none
        · rw [if_pos hx]
          cases ho : isOdd (mulG x).1
          · rw [if_pos (c := ∃ y, (false = false ∧ y = Spec.taptweakQuery (mulG x) r) ∧ T y ≠ none) ⟨_, ⟨rfl, rfl⟩, hx⟩]
            split <;> norm_num
          · rw [if_pos (c := ∃ y, (true = true ∧ y = Spec.taptweakQuery (mulG x) r) ∧ T y ≠ none) ⟨_, ⟨rfl, rfl⟩, hx⟩]
            split <;> norm_num
        · rw [if_neg hx]
          split <;> split <;> norm_num
    _ ≤ _ := by
        rw [sum_add_distrib]
        have h1 := h true
        have h2 := h false
        linarith

theorem small_one (y : Bytes) : Small (update (fun _ => none) y (some zeroSeed)) 1 :=
  Small.update (T := fun _ => none) (k := 0) ⟨[], le_rfl, fun _ h => absurd rfl h⟩ y _

/-- What belongs to an internal key. -/
def Tap (r : Bytes) (x : Scalar) (y : Bytes) : Prop := y = Spec.taptweakQuery (mulG x) r

open Classical in
theorem avg_tap (r : Bytes) (y : Bytes) :
    (avg fun x : Scalar => if Tap r x y then (1 : ℚ) else 0) ≤ 2 / ((orderN : ℚ) - 1) := by
  have h := sum_tap (small_one y) r
  unfold avg
  rw [card_scalar']
  refine div_le_div_of_nonneg_right ?_ (by rw [← card_scalar']; positivity)
  rw [Nat.cast_one, mul_one] at h
  refine (sum_le_sum fun x _ => ?_).trans h
  by_cases hy : Tap r x y
  · rw [if_pos hy, if_pos (by rw [← (show y = Spec.taptweakQuery (mulG x) r from hy), update_self]; simp)]
  · rw [if_neg hy]
    split <;> norm_num

variable [Fintype MaybePoint]

omit [Fintype (Arr 32)] [Fintype Scalar] [Fintype MaybePoint] in
theorem output_arith {S f : ℚ} (hS0 : 0 ≤ S) (hS1 : S ≤ (orderN : ℚ) - 1) (hf0 : 0 ≤ f) (hf1 : f ≤ 1) :
    |(S - f) / 2 ^ 256 - S / ((orderN : ℚ) - 1)| ≤ ((2 : ℚ) ^ 256 - orderN + 2) / 2 ^ 256 := by
  have e : ((256 ^ 32 : ℕ) : ℚ) = 2 ^ 256 := by norm_num
  have hlt : (orderN : ℚ) < 2 ^ 256 := by rw [← e]; exact_mod_cast orderN_lt
  have hn1 : (0 : ℚ) < (orderN : ℚ) - 1 := by
    have : (1 : ℚ) < orderN := by exact_mod_cast orderN_prime.one_lt
    linarith
  generalize (2 : ℚ) ^ 256 = W at *
  generalize (orderN : ℚ) = n at *
  have hW : 0 < W := by linarith
  have e1 : (S - f) / W - S / (n - 1) = - (S / (n - 1) * ((W - n + 1) / W) + f / W) := by
    field_simp
    ring
  have h2 : S / (n - 1) * ((W - n + 1) / W) ≤ (W - n + 1) / W :=
    mul_le_of_le_one_left (div_nonneg (by linarith) hW.le) ((div_le_one hn1).2 hS1)
  have h3 : f / W ≤ 1 / W := div_le_div_of_nonneg_right hf1 hW.le
  have h4 : 0 ≤ S / (n - 1) * ((W - n + 1) / W) := mul_nonneg (div_nonneg hS0 hn1.le) (div_nonneg (by linarith) hW.le)
  have h5 : 0 ≤ f / W := div_nonneg hf0 hW.le
  have h6 : (W - n + 2) / W = (W - n + 1) / W + 1 / W := by ring
  rw [e1, abs_neg, abs_of_nonneg (by linarith), h6]
  linarith

open Classical in
/-- The output for a random internal key. -/
theorem avg_inner (hD : ∀ x, Drawn x → D x) (t : Test) {N q k : ℕ} (ht : t.Within N q D) {T : Table} (hT : Small T k) :
    |(avg fun x : Scalar => value D H (single (mulG x) t.inner) T) - avg fun x : Scalar => value D H (single (mulG x) t) T|
      ≤ 2 * k / ((orderN : ℚ) - 1) + 1 / 2 ^ 256 * (orderN * (q * (2 / ((orderN : ℚ) - 1)))) + ((2 : ℚ) ^ 256 - orderN + 2) / 2 ^ 256 := by
  have : Nonempty Scalar := ⟨scalarOne⟩
  have hn1 : (0 : ℚ) < (orderN : ℚ) - 1 := by rw [← card_scalar']; positivity
  set r := Group.rootBytes ⟨[], t.root⟩ with hr
  set F : Option Point → ℚ := fun o => value D H (t.see o) T with hF
  have h0 : ∀ o, 0 ≤ F o := fun o => (Asker.value_mem _ _).1
  have h1 : ∀ o, F o ≤ 1 := fun o => (Asker.value_mem _ _).2
  have h00 : F none = 0 := by
    rw [hF]
    dsimp only
    unfold Test.see
    rw [value, if_neg not_false]
  have hasks : ∀ o, (t.see o).AsksAtMost D (fun _ => True) q := by
    intro o
    cases o with
    | none => exact trivial
    | some Q => exact ht.2 Q
  have htn : ∀ x, touch D H (Tap r x) (t.see none) T = 0 := fun x => rfl
  -- one internal key
  have hone : ∀ x : Scalar, |value D H (single (mulG x) t.inner) T - avg fun h => F (outputOf (mulG x) h)|
      ≤ (if T (Spec.taptweakQuery (mulG x) r) ≠ none then (1 : ℚ) else 0)
        + avg fun h => touch D H (Tap r x) (t.see (outputOf (mulG x) h)) T := by
    intro x
    have hn : 0 ≤ avg fun h => touch D H (Tap r x) (t.see (outputOf (mulG x) h)) T := Asker.avg_nonneg fun h => Asker.touch_nonneg _ _ _
    by_cases hx : T (Spec.taptweakQuery (mulG x) r) = none
    · rw [if_neg (by rw [hx]; simp), zero_add]
      have e : single (mulG x) t.inner = .ask (Spec.taptweakQuery (mulG x) r) fun h => t.see (outputOf (mulG x) h) := rfl
      rw [e, Asker.value_drawn (hD _ (drawn_tap _ _)) hx]
      refine (Asker.abs_avg_sub _ _).trans (Asker.avg_mono fun h => Asker.value_close _ fun y hy => ?_)
      rw [update_of_ne hy]
    · rw [if_pos hx]
      have h2 : 0 ≤ avg fun h => F (outputOf (mulG x) h) := Asker.avg_nonneg fun h => h0 _
      have h3 : (avg fun h => F (outputOf (mulG x) h)) ≤ 1 := Asker.avg_le fun h => h1 _
      obtain ⟨h4, h5⟩ := Asker.value_mem (D := D) (H := H) (single (mulG x) t.inner) T
      rw [abs_le]
      constructor <;> linarith
  have hA : |(avg fun x : Scalar => value D H (single (mulG x) t.inner) T) - avg fun x : Scalar => avg fun h => F (outputOf (mulG x) h)|
      ≤ 2 * k / ((orderN : ℚ) - 1) + 1 / 2 ^ 256 * (orderN * (q * (2 / ((orderN : ℚ) - 1)))) := by
    refine (Asker.abs_avg_sub _ _).trans ((Asker.avg_mono hone).trans ?_)
    rw [Asker.avg_add]
    refine add_le_add ?_ ?_
    · unfold avg
      rw [card_scalar']
      exact div_le_div_of_nonneg_right (sum_tap hT r) hn1.le
    · calc _ ≤ avg fun x : Scalar => 1 / 2 ^ 256 * ∑ R, touch D H (Tap r x) (t.see (toKey R)) T := by
            refine Asker.avg_mono fun x => ?_
            unfold avg
            rw [sum_output (F := fun o => touch D H (Tap r x) (t.see o) T) (htn x) (mulG x), OneSigner.card_arr, ← one_div_mul_eq_div]
            refine mul_le_mul_of_nonneg_left ?_ (by positivity)
            have := Asker.touch_nonneg (D := D) (H := H) (Tap r x) (t.see (some (toEvenY (mulG x)))) T
            linarith
        _ = 1 / 2 ^ 256 * ∑ R, avg fun x : Scalar => touch D H (Tap r x) (t.see (toKey R)) T := by
            rw [Asker.avg_mul, Asker.sum_avg]
        _ ≤ _ := by
            refine mul_le_mul_of_nonneg_left ?_ (by positivity)
            have hcard : (Fintype.card MaybePoint : ℚ) = orderN := by
              have hb : Bijective fun a : MaybeScalar => a • G := ⟨fun a b e => smul_G_inj.1 e, fun R => exists_dlog R⟩
              rw [← Fintype.card_of_bijective hb, ZMod.card]
            refine (sum_le_card_nsmul _ _ _ fun R _ => Asker.avg_touch (Tap r) (by positivity) (fun y => avg_tap r y) (hasks _) T).trans_eq ?_
            rw [nsmul_eq_mul, card_univ, hcard]
  have hB : |(avg fun x : Scalar => avg fun h => F (outputOf (mulG x) h)) - avg fun x : Scalar => value D H (single (mulG x) t) T|
      ≤ ((2 : ℚ) ^ 256 - orderN + 2) / 2 ^ 256 := by
    have hb : Bijective fun a : MaybeScalar => a • G := ⟨fun a b e => smul_G_inj.1 e, fun R => exists_dlog R⟩
    have hs : ∑ R, F (toKey R) = ∑ x : Scalar, value D H (single (mulG x) t) T := by
      have h := Fintype.sum_eq_add_sum_subtype_ne (fun a : MaybeScalar => F (toKey (a • G))) 0
      have hz : toKey 0 = none := by
        unfold toKey
        rw [dif_neg (by simp)]
      rw [zero_smul, hz, h00, zero_add, hb.sum_comp (fun R => F (toKey R))] at h
      refine h.trans ?_
      have e : ∀ x : Scalar, value D H (single (mulG x) t) T = F (toKey (x.1 • G)) := by
        intro x
        rw [toKey_eq_some.2 (show x.1 • G = (mulG x).1 from rfl)]
        rfl
      simp only [e]
      congr! 1
      ext x
      simp
    have hS0 : 0 ≤ ∑ x : Scalar, value D H (single (mulG x) t) T := sum_nonneg fun x _ => (Asker.value_mem _ _).1
    have hS1 : ∑ x : Scalar, value D H (single (mulG x) t) T ≤ (orderN : ℚ) - 1 := by
      rw [← card_scalar', ← card_univ, ← nsmul_one]
      exact sum_le_card_nsmul _ _ _ fun x _ => (Asker.value_mem _ _).2
    have key : ∀ x : Scalar, |(avg fun h => F (outputOf (mulG x) h)) - avg fun x : Scalar => value D H (single (mulG x) t) T|
        ≤ ((2 : ℚ) ^ 256 - orderN + 2) / 2 ^ 256 := by
      intro x
      unfold avg
      rw [sum_output h00, hs, OneSigner.card_arr, card_scalar']
      have hf0 := h0 (some (toEvenY (mulG x)))
      have hf1 := h1 (some (toEvenY (mulG x)))
      exact output_arith hS0 hS1 hf0 hf1
    generalize ((2 : ℚ) ^ 256 - orderN + 2) / 2 ^ 256 = c at key ⊢
    have e : (avg fun x : Scalar => value D H (single (mulG x) t) T)
        = avg fun _ : Scalar => avg fun x : Scalar => value D H (single (mulG x) t) T := (Asker.avg_const _).symm
    rw [e]
    exact (Asker.abs_avg_sub _ _).trans (Asker.avg_le key)
  have t1 := abs_sub_le (avg fun x : Scalar => value D H (single (mulG x) t.inner) T)
    (avg fun x : Scalar => avg fun h => F (outputOf (mulG x) h)) (avg fun x : Scalar => value D H (single (mulG x) t) T)
  exact t1.trans (add_le_add hA hB)

end

theorem bound_inner (k q : ℕ) : 2 * (k : ℚ) / ((orderN : ℚ) - 1) + 1 / 2 ^ 256 * (orderN * (q * (2 / ((orderN : ℚ) - 1))))
    + ((2 : ℚ) ^ 256 - orderN + 2) / 2 ^ 256 ≤ 4 * (k + q) / 2 ^ 256 + 1 / 2 ^ 126 := by
  have e : ((256 ^ 32 : ℕ) : ℚ) = 2 ^ 256 := by norm_num
  have hlt : (orderN : ℚ) < 2 ^ 256 := by rw [← e]; exact_mod_cast orderN_lt
  have hcl : (2 : ℚ) ^ 256 / 2 + 1 ≤ orderN := by
    have h := orderN_close
    have h2 : 2 ^ 255 + 1 ≤ orderN := by omega
    have h3 : (2 : ℚ) ^ 256 / 2 = 2 ^ 255 := by norm_num
    rw [h3]
    exact_mod_cast h2
  have hcl' : (2 : ℚ) ^ 256 - orderN + 2 ≤ 2 ^ 256 * (1 / 2 ^ 126) := by
    have h3 : (2 : ℚ) ^ 256 * (1 / 2 ^ 126) = 2 ^ 130 := by norm_num
    have h4 : (2 : ℚ) ^ 256 + 2 ≤ orderN + 2 ^ 130 := by
      have h := orderN_close
      rw [← e]
      exact_mod_cast (by omega : 256 ^ 32 + 2 ≤ orderN + 2 ^ 130)
    rw [h3]
    generalize (2 : ℚ) ^ 256 = W at *
    linarith
  have hW : (0 : ℚ) < 2 ^ 256 := by positivity
  generalize (1 : ℚ) / 2 ^ 126 = c at *
  generalize (2 : ℚ) ^ 256 = W at *
  generalize (orderN : ℚ) = n at *
  have hk : (0 : ℚ) ≤ k := Nat.cast_nonneg _
  have hq : (0 : ℚ) ≤ q := Nat.cast_nonneg _
  generalize (k : ℚ) = k at *
  generalize (q : ℚ) = q at *
  have h1 : 2 / (n - 1) ≤ 4 / W := by
    rw [div_le_div_iff₀ (by linarith) hW]
    linarith
  have h3 : 2 * k / (n - 1) ≤ 4 * k / W := by
    have := mul_le_mul_of_nonneg_right h1 hk
    calc 2 * k / (n - 1) = 2 / (n - 1) * k := by ring
      _ ≤ 4 / W * k := this
      _ = _ := by ring
  have h4 : 1 / W * (n * (q * (2 / (n - 1)))) ≤ 1 / W * (W * (q * (4 / W))) := by
    refine mul_le_mul_of_nonneg_left ?_ (by positivity)
    have h5 : 0 ≤ 2 / (n - 1) := by
      have : 0 < n - 1 := by linarith
      positivity
    refine mul_le_mul hlt.le ?_ (by positivity) hW.le
    exact mul_le_mul_of_nonneg_left h1 hq
  have h6 : 1 / W * (W * (q * (4 / W))) = 4 * q / W := by
    field_simp
  have h7 : (W - n + 2) / W ≤ c := by
    rw [div_le_iff₀ hW]
    linarith
  have h9 : 4 * (k + q) / W = 4 * k / W + 4 * q / W := by ring
  rw [h9]
  linarith

/-! ## Chances -/

theorem chance_verdict {H : Hash} [Fintype (Arr 32)] [Fintype Scalar] {α : Type} {m : ℕ} {A : Asker α} {game : Point → α → Asker Prop}
    (h : ∀ X, (A.bind (game X)).AsksAtMost Drawn (fun _ => True) m) :
    (Spec.chance fun w : Scalar × (Fin m → Arr 32) => Verdict H A game w)
      = avg fun x : Scalar => value Drawn H (A.bind (game (mulG x))) fun _ => none := by
  unfold Verdict
  rw [Decision.chance_prod fun (x : Scalar) (ω : Fin m → Arr 32) => ((A.bind (game (mulG x))).run Drawn H (Asker.draws ω) []).1]
  unfold avg
  congr 1
  refine sum_congr rfl fun x _ => ?_
  exact Asker.chance_run (D := Drawn) (H := H) (h (mulG x)) []

theorem small_empty : Small (fun _ => none) 0 := ⟨[], le_rfl, fun _ h => absurd rfl h⟩

variable {D : Bytes → Prop} [DecidablePred D]

theorem asks_see {t : Test} {N q : ℕ} (ht : t.Within N q D) (o : Option Point) : (t.see o).AsksAtMost D (fun _ => True) q := by
  cases o with
  | none => exact trivial
  | some Q => exact ht.2 Q

theorem asks_group (hD : ∀ x, Drawn x → D x) (H : Hash) {t : Test} {N q : ℕ} (ht : t.Within N q D) (X : Point) :
    (group H X t).AsksAtMost D (fun _ => True) (q + N + 2) := by
  unfold group Asker.AsksAtMost
  rw [if_pos (hD _ (drawn_list _))]
  refine ⟨q + N + 1, rfl, fun L => ?_⟩
  refine (Asker.asks_askHashes (D := D) ((t.keys X).map fun P => coeffString (L, P)) (fun x hx => ?_)
    (fun hs => asks_see ht _)).mono ?_
  · obtain ⟨P, -, rfl⟩ := List.mem_map.1 hx
    exact hD _ (drawn_coeff _)
  · have := ht.1
    rw [List.length_map]
    unfold Test.keys
    rw [List.length_append, List.length_cons]
    omega

theorem within_inner (hD : ∀ x, Drawn x → D x) {t : Test} {N q : ℕ} (ht : t.Within N q D) : t.inner.Within N (q + 1) D := by
  refine ⟨ht.1, fun Q => ?_⟩
  unfold Test.inner Asker.AsksAtMost
  dsimp only
  rw [if_pos (hD _ (drawn_tap _ _))]
  exact ⟨q, rfl, fun h => asks_see ht _⟩

variable {H : Hash} {N q q' m : ℕ}

theorem group_close (hD : ∀ x, Drawn x → D x) {t : Test} [Fintype (Arr 32)] [Fintype Scalar] (ht : t.Within N q' D) (hN : N + 1 ≤ u32Max) {T : Table} (hT : Small T q) :
    |(avg fun x : Scalar => value D H (group H (mulG x) t) T) - avg fun x : Scalar => value D H (single (mulG x) t) T|
      ≤ 6 * (q + q') / 2 ^ 256 + 1 / 2 ^ 125 := by
  letI := Fintype.ofFinite Point
  letI := Fintype.ofFinite MaybePoint
  exact (avg_group hD t ht hN hT).trans (bound_group q q')

theorem output_close (hD : ∀ x, Drawn x → D x) {t : Test} [Fintype (Arr 32)] [Fintype Scalar] (ht : t.Within N q' D) (hN : N + 1 ≤ u32Max) {T : Table} (hT : Small T q) :
    |(avg fun x : Scalar => value D H (output H (mulG x) t) T) - avg fun x : Scalar => value D H (single (mulG x) t) T|
      ≤ 10 * (q + q') / 2 ^ 256 + 1 / 2 ^ 124 := by
  letI := Fintype.ofFinite MaybePoint
  have h1 := group_close (H := H) hD (within_inner hD ht) hN hT
  have h2 := (avg_inner (H := H) hD t ht hT).trans (bound_inner q q')
  simp only [output_eq_group]
  have t1 := abs_sub_le (avg fun x : Scalar => value D H (group H (mulG x) t.inner) T)
    (avg fun x : Scalar => value D H (single (mulG x) t.inner) T) (avg fun x : Scalar => value D H (single (mulG x) t) T)
  refine t1.trans ((add_le_add h1 h2).trans ?_)
  push_cast
  have e1 : (6 * ((q : ℚ) + (q' + 1)) / 2 ^ 256) = 6 * (q + q') / 2 ^ 256 + 6 / 2 ^ 256 := by ring
  have e2 : (10 * ((q : ℚ) + q') / 2 ^ 256) = 6 * (q + q') / 2 ^ 256 + 4 * (q + q') / 2 ^ 256 := by ring
  have e3 : (6 : ℚ) / 2 ^ 256 + 1 / 2 ^ 125 + 1 / 2 ^ 126 ≤ 1 / 2 ^ 124 := by norm_num
  rw [e1, e2]
  generalize (1 : ℚ) / 2 ^ 124 = a1 at *
  generalize (1 : ℚ) / 2 ^ 125 = a2 at *
  generalize (1 : ℚ) / 2 ^ 126 = a3 at *
  generalize (6 : ℚ) / 2 ^ 256 = a4 at *
  generalize 6 * ((q : ℚ) + q') / 2 ^ 256 = a5 at *
  generalize 4 * ((q : ℚ) + q') / 2 ^ 256 = a6 at *
  linarith

theorem asks_output (hD : ∀ x, Drawn x → D x) (H : Hash) {t : Test} (ht : t.Within N q D) (X : Point) :
    (output H X t).AsksAtMost D (fun _ => True) (q + N + 3) := by
  rw [output_eq_group]
  exact (asks_group hD H (within_inner hD ht) X).mono (by omega)

/-- Two games that are close, whatever was asked before. -/
theorem chance_close {α : Type} {A : Asker α} {post : α → Prop} (hA : A.AsksAtMost Drawn post q) {game game' : Point → α → Asker Prop} {l : ℕ}
    (hm : q + l ≤ m) (hg : ∀ X a, post a → (game X a).AsksAtMost Drawn (fun _ => True) l)
    (hg' : ∀ X a, post a → (game' X a).AsksAtMost Drawn (fun _ => True) l) {ε : ℚ}
    (hc : ∀ [Fintype (Arr 32)] [Fintype Scalar] (a : α) (T : Table), post a → Small T q →
      |(avg fun x : Scalar => value Drawn H (game (mulG x) a) T) - avg fun x : Scalar => value Drawn H (game' (mulG x) a) T| ≤ ε) :
    |(Spec.chance fun w : Scalar × (Fin m → Arr 32) => Verdict H A game w) - Spec.chance fun w : Scalar × (Fin m → Arr 32) => Verdict H A game' w|
      ≤ ε := by
  letI := Fintype.ofFinite (Arr 32)
  letI := Fintype.ofFinite Scalar
  rw [chance_verdict fun X => (hA.bind (hg X)).mono hm, chance_verdict fun X => (hA.bind (hg' X)).mono hm]
  refine Asker.avg_bind hA (fun x a => game (mulG x) a) (fun x a => game' (mulG x) a) (k := 0) (fun a T ha hT => ?_) small_empty
  rw [Nat.zero_add] at hT
  exact hc a T ha hT

end Verif.KeyHiding
