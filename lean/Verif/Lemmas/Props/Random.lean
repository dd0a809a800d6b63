import Verif.Spec.Random
import Verif.Lemmas.Props.Exact
import Verif.Lemmas.Props.Cma

/-!
# Lemmas for `Props/Random`
-/

namespace Verif

open CmaForger (chance_mono chance_exists_fin chance_update)

theorem calls_length {σ α : Type} (f : σ → α × σ) (m : ℕ) (s : σ) : (Spec.calls f m s).1.length = m := by
  induction m generalizing s with
  | zero => rfl
  | succ m ih => simp [Spec.calls, ih]

theorem calls_random (k : ℕ → Scalar) (b : ℕ → Arr 32) (m : ℕ) (i j : ℕ) :
    Spec.calls (SecNonce.random (Spec.replay k b)) m (i, j)
      = ((List.range m).map fun t => ⟨k (i + 2 * t), k (i + 2 * t + 1)⟩, (i + 2 * m, j)) := by
  induction m generalizing i with
  | zero => rfl
  | succ m ih =>
    have h : SecNonce.random (Spec.replay k b) (i, j) = (⟨k i, k (i + 1)⟩, (i + 2, j)) := rfl
    rw [Spec.calls, h]
    simp only
    rw [ih, List.range_succ_eq_map, List.map_cons, List.map_map]
    refine Prod.ext ?_ (by simp only [Prod.mk.injEq, and_true]; omega)
    simp only [List.cons.injEq]
    refine ⟨by simp, List.map_congr_left fun t _ => ?_⟩
    simp only [Function.comp]
    congr 2 <;> omega

theorem calls_seed (k : ℕ → Scalar) (b : ℕ → Arr 32) (m : ℕ) (i j : ℕ) :
    Spec.calls (NonceSeed.fromRng (Spec.replay k b)) m (i, j) = ((List.range m).map fun t => b (j + t), (i, j + m)) := by
  induction m generalizing j with
  | zero => rfl
  | succ m ih =>
    have h : NonceSeed.fromRng (Spec.replay k b) (i, j) = (b j, (i, j + 1)) := rfl
    rw [Spec.calls, h]
    simp only
    rw [ih, List.range_succ_eq_map, List.map_cons, List.map_map]
    refine Prod.ext ?_ (by simp only [Prod.mk.injEq, true_and]; omega)
    simp only [List.cons.injEq]
    refine ⟨by simp, List.map_congr_left fun t _ => ?_⟩
    simp only [Function.comp]
    congr 1; omega

/-- The points of `m` random nonces, in order. -/
theorem noncePoints_random (k : ℕ → Scalar) (b : ℕ → Arr 32) (m : ℕ) :
    Spec.noncePoints ((Spec.calls (SecNonce.random (Spec.replay k b)) m (0, 0)).1.map SecNonce.publicNonce)
      = (List.range (2 * m)).map fun i => mulG (k i) := by
  rw [calls_random]
  simp only [List.map_map]
  induction m with
  | zero => rfl
  | succ m ih =>
    unfold Spec.noncePoints at ih ⊢
    rw [List.range_succ, List.map_append, List.flatMap_append, ih, show 2 * (m + 1) = 2 * m + 1 + 1 by ring, List.range_succ,
      List.range_succ, List.map_append, List.map_append]
    simp [SecNonce.publicNonce]

theorem noncePoints_inj {l l' : List PubNonce} (h : Spec.noncePoints l = Spec.noncePoints l') : l = l' := by
  induction l generalizing l' with
  | nil =>
    cases l' with
    | nil => rfl
    | cons a l' => simp [Spec.noncePoints] at h
  | cons a l ih =>
    cases l' with
    | nil => simp [Spec.noncePoints] at h
    | cons a' l' =>
      simp only [Spec.noncePoints, List.flatMap_cons, List.cons_append, List.nil_append, List.cons.injEq] at h
      obtain ⟨h1, h2, h3⟩ := h
      rw [ih h3]
      congr 1
      cases a
      cases a'
      simp only at h1 h2
      rw [h1, h2]

theorem noncePoints_length (l : List PubNonce) : (Spec.noncePoints l).length = 2 * l.length := by
  induction l with
  | nil => rfl
  | cons a l ih =>
    unfold Spec.noncePoints at ih ⊢
    rw [List.flatMap_cons, List.length_append, ih]
    simp only [List.length_cons, List.length_nil]
    ring

theorem chance_singleton {Ω : Type} [Finite Ω] (E : Ω → Prop) (a : Ω) (h : ∀ ω, E ω ↔ ω = a) :
    Spec.chance E = 1 / Nat.card Ω := by
  unfold Spec.chance
  have : {ω | E ω} = {a} := by
    ext ω
    exact h ω
  rw [this, Set.ncard_singleton, Nat.cast_one]

theorem mulG_surj (P : Point) : ∃ k : Scalar, mulG k = P := by
  obtain ⟨d, hd⟩ := exists_dlog P.1
  refine ⟨⟨d, ?_⟩, Subtype.ext hd⟩
  rintro rfl
  rw [zero_smul] at hd
  exact P.2 hd.symm

/-- Among `m` values drawn uniformly from `n`, two agree with probability at most `m (m - 1) / n`. -/
theorem chance_repeat {α : Type} [Finite α] (hα : 0 < Nat.card α) (m : ℕ) :
    (Spec.chance fun f : Fin m → α => ¬ Function.Injective f) ≤ m * (m / Nat.card α) := by
  have key : ∀ j : Fin m, (Spec.chance fun f : Fin m → α => ∃ i, i ≠ j ∧ f i = f j) ≤ (m : ℕ) / Nat.card α := by
    intro j
    refine chance_update j _ m hα fun f => ?_
    have hsub : {t | ∃ i, i ≠ j ∧ Function.update f j t i = Function.update f j t j} ⊆ Set.range f := by
      rintro t ⟨i, hi, h⟩
      rw [Function.update_of_ne hi, Function.update_self] at h
      exact ⟨i, h⟩
    refine (Set.ncard_le_ncard hsub (Set.toFinite _)).trans ?_
    have := Set.ncard_image_le (f := f) (s := Set.univ) (Set.toFinite _)
    rw [Set.image_univ, Set.ncard_univ, Nat.card_eq_fintype_card, Fintype.card_fin] at this
    exact this
  refine le_trans (chance_mono fun f hf => ?_) (chance_exists_fin m _ _ key)
  unfold Function.Injective at hf
  push Not at hf
  obtain ⟨i, j, h, hij⟩ := hf
  exact ⟨j, i, hij, h⟩

end Verif
