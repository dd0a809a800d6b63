import Verif.Lemmas.Props.Cma
import Mathlib.Algebra.BigOperators.Field
import Mathlib.Logic.Equiv.Fin.Basic

/-!
# Choosing what to look at

Something is drawn for every index, and a decision tree looks at one index at a time. For the chance of an event it does
not matter how the values for different indices depend on each other. Used by `Lemmas/Props/AdaptorForger`.
-/

namespace Verif.Decision

open CmaForger (chance_mono chance_equiv chance_fst chance_nonneg)

section
variable {Ω Ω' : Type}

theorem chance_prod [Fintype Ω] [Finite Ω'] (E : Ω → Ω' → Prop) :
    (Spec.chance fun p : Ω × Ω' => E p.1 p.2) = (∑ ω, Spec.chance (E ω)) / Fintype.card Ω := by
  classical
  letI := Fintype.ofFinite Ω'
  unfold Spec.chance
  have hs : {p : Ω × Ω' | E p.1 p.2}.ncard = ∑ ω : Ω, {ω' | E ω ω'}.ncard := by
    simp only [Set.ncard_eq_toFinset_card', Set.toFinset_setOf]
    rw [Finset.card_filter, Fintype.sum_prod_type]
    exact Finset.sum_congr rfl fun ω _ => (Finset.card_filter _ _).symm
  rw [hs, Nat.card_prod, Nat.card_eq_fintype_card, ← Finset.sum_div, div_div, Nat.cast_sum, Nat.cast_mul, mul_comm]

theorem chance_le_one (E : Ω → Prop) [Finite Ω] : Spec.chance E ≤ 1 := by
  unfold Spec.chance
  refine div_le_one_of_le₀ ?_ (by positivity)
  rw [← Set.ncard_univ]
  exact_mod_cast Set.ncard_le_ncard (Set.subset_univ _) (Set.toFinite _)

theorem chance_true [Finite Ω] [Nonempty Ω] {E : Ω → Prop} (h : ∀ ω, E ω) : Spec.chance E = 1 := by
  unfold Spec.chance
  have : {ω | E ω} = Set.univ := Set.eq_univ_of_forall h
  rw [this, Set.ncard_univ, div_self]
  exact_mod_cast (Nat.card_pos (α := Ω)).ne'

theorem chance_false {E : Ω → Prop} (h : ∀ ω, ¬ E ω) : Spec.chance E = 0 := by
  unfold Spec.chance
  have : {ω | E ω} = ∅ := Set.eq_empty_of_forall_notMem h
  rw [this, Set.ncard_empty, Nat.cast_zero, zero_div]

/-- An event that is unlikely whatever the other entries. -/
theorem chance_update_le [Finite Ω] {s : ℕ} (j : Fin s) (E : (Fin s → Ω) → Prop) (c : ℚ) (hc : 0 ≤ c)
    (h : ∀ τ, (Spec.chance fun t => E (Function.update τ j t)) ≤ c) : Spec.chance E ≤ c := by
  rcases Nat.eq_zero_or_pos (Nat.card Ω) with h0 | h0
  · unfold Spec.chance
    rw [Nat.card_fun, h0, zero_pow, Nat.cast_zero, div_zero]
    · exact hc
    · rw [Nat.card_eq_fintype_card, Fintype.card_fin]
      exact fun h => (h ▸ j).elim0
  have : Nonempty Ω := (Nat.card_pos_iff.1 h0).1
  obtain ⟨τ, hτ⟩ := Finite.exists_max fun τ : Fin s → Ω => {t | E (Function.update τ j t)}.ncard
  exact (CmaForger.chance_update j E _ h0 hτ).trans (h τ)

end

section
variable {ι : Type} {Y : ι → Type} [Finite ι] [∀ i, Finite (Y i)] [∀ i, Nonempty (Y i)]

theorem chance_eval {Ω : Type} [Finite Ω] (i : ι) (E : Y i → Ω → Prop) :
    (Spec.chance fun p : (∀ i, Y i) × Ω => E (p.1 i) p.2) = Spec.chance fun p : Y i × Ω => E p.1 p.2 := by
  classical
  have h1 := chance_equiv ((Equiv.piSplitAt i Y).prodCongr (Equiv.refl Ω))
    (fun p : (Y i × ∀ j : { j // j ≠ i }, Y j) × Ω => E p.1.1 p.2)
  have h2 := chance_equiv ((Equiv.prodAssoc (Y i) (∀ j : { j // j ≠ i }, Y j) Ω).trans
      (((Equiv.refl (Y i)).prodCongr (Equiv.prodComm _ _)).trans (Equiv.prodAssoc _ _ _).symm))
    (fun p : (Y i × Ω) × ∀ j : { j // j ≠ i }, Y j => E p.1.1 p.1.2)
  rw [chance_fst (Ω := Y i × Ω) (Ω' := ∀ j : { j // j ≠ i }, Y j) (fun p => E p.1 p.2)] at h2
  exact h1.trans h2

theorem chance_eval_one (i : ι) (E : Y i → Prop) : (Spec.chance fun f : ∀ i, Y i => E (f i)) = Spec.chance E := by
  have := chance_eval (Y := Y) (Ω := Unit) i fun y _ => E y
  rwa [chance_fst (Ω := ∀ i, Y i) (Ω' := Unit) (fun f => E (f i)), chance_fst (Ω' := Unit) E] at this

/-- A decision tree: at a node the value for an index is looked at. -/
inductive Tree (ι : Type) (Y : ι → Type) where
  | leaf (b : Prop)
  | node (i : ι) (next : Y i → Tree ι Y)

omit [Finite ι] [∀ i, Finite (Y i)] [∀ i, Nonempty (Y i)] in
/-- What the tree decides. -/
def Tree.eval : Tree ι Y → (ℕ → ∀ i, Y i) → Prop
  | .leaf b, _ => b
  | .node i next, τ => (next (τ 0 i)).eval fun n => τ (n + 1)

omit [Finite ι] [∀ i, Finite (Y i)] [∀ i, Nonempty (Y i)] in
theorem eval_node (i : ι) (next : Y i → Tree ι Y) (τ : ℕ → ∀ i, Y i) :
    (Tree.node i next).eval τ = (next (τ 0 i)).eval fun n => τ (n + 1) := rfl

/-- A finite sequence, continued. -/
def ext (spare : ∀ i, Y i) {s : ℕ} (τ : Fin s → ∀ i, Y i) (n : ℕ) (i : ι) : Y i := if h : n < s then τ ⟨n, h⟩ i else spare i

omit [Finite ι] [∀ i, Finite (Y i)] [∀ i, Nonempty (Y i)] in
theorem ext_cons_zero (spare : ∀ i, Y i) {s : ℕ} (f : ∀ i, Y i) (τ : Fin s → ∀ i, Y i) :
    ext spare (Fin.cons f τ : Fin (s + 1) → ∀ i, Y i) 0 = f := by
  funext i
  unfold ext
  rw [dif_pos (Nat.succ_pos s)]
  rfl

omit [Finite ι] [∀ i, Finite (Y i)] [∀ i, Nonempty (Y i)] in
theorem ext_cons_succ (spare : ∀ i, Y i) {s : ℕ} (f : ∀ i, Y i) (τ : Fin s → ∀ i, Y i) :
    (fun n => ext spare (Fin.cons f τ : Fin (s + 1) → ∀ i, Y i) (n + 1)) = ext spare τ := by
  funext n i
  unfold ext
  by_cases h : n < s
  · rw [dif_pos h, dif_pos (Nat.succ_lt_succ h)]
    rfl
  · rw [dif_neg h, dif_neg fun h' => h (Nat.lt_of_succ_lt_succ h')]

/-- Values that are a function of one draw, for each index an injective one. -/
theorem chance_pull {X : Type} [Finite X] [Nonempty X] (good : X → Prop) (φ : ∀ i, X → Y i)
    (hinj : ∀ i x x', good x → good x' → φ i x = φ i x' → x = x') (hcard : ∀ i, Nat.card (Y i) ≤ Nat.card X) (spare : ∀ i, Y i)
    (s : ℕ) (D : Tree ι Y) :
    (Spec.chance fun κ : Fin s → X => (∀ j, good (κ j)) ∧ D.eval (ext spare fun j i => φ i (κ j)))
      ≤ Spec.chance fun τ : Fin s → ∀ i, Y i => D.eval (ext spare τ) := by
  classical
  haveI : Nonempty (∀ i, Y i) := ⟨spare⟩
  induction s generalizing D with
  | zero =>
    by_cases h : D.eval (ext spare (s := 0) fun j => j.elim0)
    · refine (chance_le_one _).trans (le_of_eq (chance_true fun τ => ?_).symm)
      rwa [show τ = fun j => j.elim0 from Subsingleton.elim _ _]
    · refine (le_of_eq (chance_false fun κ hκ => h ?_)).trans (chance_nonneg _)
      have h2 := hκ.2
      rwa [show (fun (j : Fin 0) i => φ i (κ j)) = fun j => j.elim0 from Subsingleton.elim _ _] at h2
  | succ s ih =>
    cases D with
    | leaf b =>
      by_cases h : b
      · exact (chance_le_one _).trans (le_of_eq (chance_true fun τ => h).symm)
      · exact (le_of_eq (chance_false fun κ hκ => h hκ.2)).trans (chance_nonneg _)
    | node i next =>
      letI := Fintype.ofFinite X
      letI := Fintype.ofFinite (Y i)
      have hl := chance_equiv (Fin.consEquiv fun _ : Fin (s + 1) => X)
        (fun κ => (∀ j, good (κ j)) ∧ (Tree.node i next).eval (ext spare fun j i => φ i (κ j)))
      have hr := chance_equiv (Fin.consEquiv fun _ : Fin (s + 1) => ∀ i, Y i)
        (fun τ => (Tree.node i next).eval (ext spare τ))
      rw [← hl, ← hr]
      have hl' : (fun p : X × (Fin s → X) => (∀ j, good ((Fin.consEquiv fun _ : Fin (s + 1) => X) p j)) ∧
          (Tree.node i next).eval (ext spare fun j i => φ i ((Fin.consEquiv fun _ : Fin (s + 1) => X) p j)))
          = fun p => good p.1 ∧ (∀ j, good (p.2 j)) ∧ (next (φ i p.1)).eval (ext spare fun j i => φ i (p.2 j)) := by
        funext p
        have h1 : (fun j i => φ i ((Fin.consEquiv fun _ : Fin (s + 1) => X) p j))
            = (Fin.cons (fun i => φ i p.1) (fun j i => φ i (p.2 j)) : Fin (s + 1) → ∀ i, Y i) := by
          funext j
          cases j using Fin.cases <;> rfl
        rw [h1]
        rw [eval_node, ext_cons_zero, ext_cons_succ]
        rw [Fin.forall_fin_succ, and_assoc]
        rfl
      have hr' : (fun p : (∀ i, Y i) × (Fin s → ∀ i, Y i) =>
          (Tree.node i next).eval (ext spare ((Fin.consEquiv fun _ : Fin (s + 1) => ∀ i, Y i) p)))
          = fun p => (next (p.1 i)).eval (ext spare p.2) := by
        funext p
        have h1 : (Fin.consEquiv fun _ : Fin (s + 1) => ∀ i, Y i) p = (Fin.cons p.1 p.2 : Fin (s + 1) → ∀ i, Y i) := rfl
        rw [h1]
        rw [eval_node, ext_cons_zero, ext_cons_succ]
      rw [hl', hr', chance_eval i fun y τ => (next y).eval (ext spare τ),
        chance_prod (fun (y : Y i) (τ : Fin s → ∀ i, Y i) => (next y).eval (ext spare τ)),
        chance_prod (fun (x : X) (κ : Fin s → X) => good x ∧ (∀ j, good (κ j)) ∧ (next (φ i x)).eval (ext spare fun j i => φ i (κ j)))]
      set g : Y i → ℚ := fun y => Spec.chance fun τ : Fin s → ∀ i, Y i => (next y).eval (ext spare τ) with hg
      have hg0 : ∀ y, 0 ≤ g y := fun y => chance_nonneg _
      have h1 : ∑ x, (Spec.chance fun κ : Fin s → X => good x ∧ (∀ j, good (κ j)) ∧
          (next (φ i x)).eval (ext spare fun j i => φ i (κ j))) ≤ ∑ y, g y := by
        calc _ ≤ ∑ x, if good x then g (φ i x) else 0 := by
              refine Finset.sum_le_sum fun x _ => ?_
              split
              · exact (chance_mono fun κ h => h.2).trans (ih _)
              · rename_i hx
                exact le_of_eq (chance_false fun κ h => hx h.1)
          _ = ∑ x ∈ Finset.univ.filter good, g (φ i x) := (Finset.sum_filter _ _).symm
          _ = ∑ y ∈ (Finset.univ.filter good).image (φ i), g y := by
              rw [Finset.sum_image]
              intro x hx x' hx' h
              exact hinj i x x' (Finset.mem_filter.1 hx).2 (Finset.mem_filter.1 hx').2 h
          _ ≤ _ := Finset.sum_le_sum_of_subset_of_nonneg (Finset.subset_univ _) fun y _ _ => hg0 y
      have hY : 0 < Fintype.card (Y i) := Fintype.card_pos
      have hXY : Fintype.card (Y i) ≤ Fintype.card X := by
        rw [← Nat.card_eq_fintype_card, ← Nat.card_eq_fintype_card]
        exact hcard i
      refine (div_le_div_of_nonneg_right h1 (by positivity)).trans ?_
      exact div_le_div_of_nonneg_left (Finset.sum_nonneg fun y _ => hg0 y) (by exact_mod_cast hY) (by exact_mod_cast hXY)

end

end Verif.Decision
