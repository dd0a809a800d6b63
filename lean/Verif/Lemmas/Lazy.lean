import Verif.Lemmas.Asker
import Verif.Lemmas.Spread
import Verif.Lemmas.Props.Decision

/-!
# The chance that somebody who asks for drawn hashes says yes

`value` is this chance, computed question by question, from a table of the answers so far. Strings can be drawn before they are asked
for (`value_eager`), and strings that are not asked for do not matter (`value_close`).
-/

set_option linter.unusedSectionVars false

namespace Verif.Asker

open Finset Function
open Forger (Log)

/-! ## Averages -/

section
variable {α β ι : Type} [Fintype α] [Fintype β]

/-- The average of the values of a function. -/
def avg (f : α → ℚ) : ℚ := (∑ a, f a) / Fintype.card α

theorem avg_const [Nonempty α] (c : ℚ) : avg (fun _ : α => c) = c := by
  have : (Fintype.card α : ℚ) ≠ 0 := by exact_mod_cast Fintype.card_ne_zero
  unfold avg
  rw [sum_const, card_univ, nsmul_eq_mul, mul_div_cancel_left₀ _ this]

theorem avg_mono {f g : α → ℚ} (h : ∀ a, f a ≤ g a) : avg f ≤ avg g :=
  div_le_div_of_nonneg_right (sum_le_sum fun a _ => h a) (Nat.cast_nonneg _)

theorem avg_le [Nonempty α] {f : α → ℚ} {c : ℚ} (h : ∀ a, f a ≤ c) : avg f ≤ c := (avg_mono h).trans_eq (avg_const c)

theorem avg_nonneg {f : α → ℚ} (h : ∀ a, 0 ≤ f a) : 0 ≤ avg f := div_nonneg (sum_nonneg fun a _ => h a) (Nat.cast_nonneg _)

theorem avg_add (f g : α → ℚ) : avg (fun a => f a + g a) = avg f + avg g := by
  unfold avg
  rw [sum_add_distrib, add_div]

theorem avg_sub (f g : α → ℚ) : avg (fun a => f a - g a) = avg f - avg g := by
  unfold avg
  rw [sum_sub_distrib, sub_div]

theorem avg_mul (c : ℚ) (f : α → ℚ) : avg (fun a => c * f a) = c * avg f := by
  unfold avg
  rw [← mul_sum, mul_div_assoc]

theorem avg_comm (f : α → β → ℚ) : avg (fun a => avg (f a)) = avg fun b => avg fun a => f a b := by
  unfold avg
  rw [← sum_div, ← sum_div, sum_comm, div_right_comm]

theorem abs_avg_sub (f g : α → ℚ) : |avg f - avg g| ≤ avg fun a => |f a - g a| := by
  rw [← avg_sub]
  unfold avg
  rw [abs_div, abs_of_nonneg (Nat.cast_nonneg _ : (0 : ℚ) ≤ Fintype.card α)]
  exact div_le_div_of_nonneg_right (abs_sum_le_sum_abs _ _) (Nat.cast_nonneg _)

theorem avg_prod (f : α → β → ℚ) : avg (fun p : α × β => f p.1 p.2) = avg fun a => avg (f a) := by
  unfold avg
  rw [Fintype.sum_prod_type, Fintype.card_prod, ← sum_div, div_div, Nat.cast_mul, mul_comm (Fintype.card α : ℚ)]

theorem sum_avg (f : α → β → ℚ) : ∑ a, avg (f a) = avg fun b => ∑ a, f a b := by
  unfold avg
  rw [← sum_div, sum_comm]

theorem avg_pull [Fintype ι] [DecidableEq ι] [Nonempty α] (i : ι) (f : (ι → α) → ℚ) :
    avg f = avg fun B : ι → α => avg fun a => f (update B i a) := by
  have := Spread.pull i f
  have h0 : (Fintype.card α : ℚ) ≠ 0 := by exact_mod_cast Fintype.card_ne_zero
  unfold avg
  rw [← sum_div, ← this, mul_div_cancel_left₀ _ h0]

theorem avg_bij {f : β → ℚ} {e : α → β} (he : Bijective e) : avg (fun a => f (e a)) = avg f := by
  unfold avg
  rw [he.sum_comp f, Fintype.card_of_bijective he]

end

/-! ## The chance of a yes -/

/-- The answers so far. -/
abbrev Table := Bytes → Option (Arr 32)

variable [Fintype (Arr 32)] {α β : Type} {D : Bytes → Prop} [DecidablePred D] {H : Hash}

open Classical in
/-- The chance that the result is a yes. -/
noncomputable def value (D : Bytes → Prop) [DecidablePred D] (H : Hash) : Asker Prop → Table → ℚ
  | .done a, _ => if a then 1 else 0
  | .ask x next, T =>
    if D x then
      match T x with
      | some d => value D H (next d) T
      | none => avg fun h => value D H (next h) (update T x (some h))
    else value D H (next (H x)) T

theorem value_drawn {x : Bytes} (hx : D x) {T : Table} (hT : T x = none) (next : Arr 32 → Asker Prop) :
    value D H (.ask x next) T = avg fun h => value D H (next h) (update T x (some h)) := by
  rw [value, if_pos hx, hT]

theorem value_known {x : Bytes} (hx : D x) {T : Table} {d : Arr 32} (hT : T x = some d) (next : Arr 32 → Asker Prop) :
    value D H (.ask x next) T = value D H (next d) T := by
  rw [value, if_pos hx, hT]

theorem value_given {x : Bytes} (hx : ¬ D x) (T : Table) (next : Arr 32 → Asker Prop) :
    value D H (.ask x next) T = value D H (next (H x)) T := by
  rw [value, if_neg hx]

theorem value_mem (p : Asker Prop) (T : Table) : 0 ≤ value D H p T ∧ value D H p T ≤ 1 := by
  induction p generalizing T with
  | done a => rw [value]; split <;> norm_num
  | ask x next ih =>
    by_cases hx : D x
    · cases hT : T x with
      | some d => rw [value_known hx hT]; exact ih _ _
      | none =>
        rw [value_drawn hx hT]
        exact ⟨avg_nonneg fun h => (ih _ _).1, avg_le fun h => (ih _ _).2⟩
    · rw [value_given hx]; exact ih _ _

theorem value_abs_sub (p p' : Asker Prop) (T T' : Table) : |value D H p T - value D H p' T'| ≤ 1 := by
  obtain ⟨h1, h2⟩ := value_mem (D := D) (H := H) p T
  obtain ⟨h3, h4⟩ := value_mem (D := D) (H := H) p' T'
  rw [abs_le]
  constructor <;> linarith

/-- A string can be drawn before it is asked for. -/
theorem value_eager {x : Bytes} {T : Table} (hT : T x = none) (p : Asker Prop) (hx : D x) :
    value D H p T = avg fun h => value D H p (update T x (some h)) := by
  induction p generalizing T with
  | done a => simp only [value]; rw [avg_const]
  | ask y next ih =>
    by_cases hy : D y
    · by_cases hyx : y = x
      · subst hyx
        rw [value_drawn hx hT]
        congr 1
        funext h
        rw [value_known hx (update_self y (some h) T)]
      · cases hTy : T y with
        | some d =>
          rw [value_known hy hTy, ih d hT]
          congr 1
          funext h
          rw [value_known hy (by rw [update_of_ne hyx, hTy])]
        | none =>
          rw [value_drawn hy hTy]
          have h1 : ∀ k, value D H (next k) (update T y (some k))
              = avg fun h => value D H (next k) (update (update T y (some k)) x (some h)) := fun k =>
            ih k (by rw [update_of_ne fun e => hyx e.symm, hT])
          simp only [h1]
          rw [avg_comm]
          congr 1
          funext h
          rw [value_drawn hy (by rw [update_of_ne hyx, hTy])]
          congr 1
          funext k
          rw [update_comm hyx]
    · rw [value_given hy, ih _ hT]
      congr 1
      funext h
      rw [value_given hy]

open Classical in
/-- A table with the strings `s i`, for `i` in `S`, added. -/
noncomputable def fill {ι : Type} (s : ι → Bytes) (S : Finset ι) (T : Table) (B : ι → Arr 32) : Table := fun y =>
  if h : ∃ i ∈ S, s i = y then some (B h.choose) else T y

theorem fill_apply {ι : Type} {s : ι → Bytes} (hs : Injective s) {S : Finset ι} {i : ι} (hi : i ∈ S) (T : Table) (B : ι → Arr 32) :
    fill s S T B (s i) = some (B i) := by
  have h : ∃ j ∈ S, s j = s i := ⟨i, hi, rfl⟩
  unfold fill
  rw [dif_pos h, hs h.choose_spec.2]

theorem fill_of_ne {ι : Type} {s : ι → Bytes} {S : Finset ι} {y : Bytes} (h : ∀ i ∈ S, s i ≠ y) (T : Table) (B : ι → Arr 32) :
    fill s S T B y = T y := by
  unfold fill
  rw [dif_neg (by rintro ⟨i, hi, e⟩; exact h i hi e)]

/-- Several strings can be drawn before they are asked for. -/
theorem value_eager_fill {ι : Type} [Fintype ι] [DecidableEq ι] {s : ι → Bytes} (hs : Injective s) (hd : ∀ i, D (s i)) {T : Table}
    (hT : ∀ i, T (s i) = none) (p : Asker Prop) (S : Finset ι) :
    value D H p T = avg fun B : ι → Arr 32 => value D H p (fill s S T B) := by
  induction S using Finset.induction_on with
  | empty =>
    have h : ∀ B, fill s ∅ T B = T := fun B => funext fun y => fill_of_ne (fun i hi => absurd hi (notMem_empty i)) T B
    simp only [h]
    rw [avg_const]
  | insert i S hi ih =>
    rw [ih]
    refine Eq.trans ?_ (avg_pull i _).symm
    congr 1
    funext B
    have hn : fill s S T B (s i) = none := by
      rw [fill_of_ne (fun j hj e => hi ((hs e : j = i) ▸ hj)), hT]
    rw [value_eager hn p (hd i)]
    congr 1
    funext a
    congr 1
    funext y
    by_cases hy : y = s i
    · rw [hy, update_self, fill_apply hs (mem_insert_self _ _), update_self]
    · rw [update_of_ne hy]
      by_cases hy' : ∃ j ∈ S, s j = y
      · obtain ⟨j, hj, rfl⟩ := hy'
        rw [fill_apply hs hj, fill_apply hs (mem_insert_of_mem hj), update_of_ne]
        rintro rfl
        exact hi hj
      · have h1 : ∀ j ∈ S, s j ≠ y := fun j hj e => hy' ⟨j, hj, e⟩
        rw [fill_of_ne h1, fill_of_ne]
        intro j hj
        rcases mem_insert.1 hj with rfl | hj
        · exact fun e => hy e.symm
        · exact h1 j hj

/-- Questions whose answers are known. -/
theorem value_askHashes {T : Table} {f : Bytes → Arr 32} (xs : List Bytes) (hd : ∀ x ∈ xs, D x) (hT : ∀ x ∈ xs, T x = some (f x))
    (next : List (Arr 32) → Asker Prop) : value D H (askHashes xs next) T = value D H (next (xs.map f)) T := by
  induction xs generalizing next with
  | nil => rfl
  | cons x xs ih =>
    rw [askHashes, value_known (hd x (by simp)) (hT x (by simp)),
      ih (fun y hy => hd y (by simp [hy])) (fun y hy => hT y (by simp [hy]))]
    rfl

/-! ## What is not asked for does not matter -/

open Classical in
/-- The chance that a string in `Z` is asked for. -/
noncomputable def touch (D : Bytes → Prop) [DecidablePred D] (H : Hash) (Z : Bytes → Prop) : Asker Prop → Table → ℚ
  | .done _, _ => 0
  | .ask x next, T =>
    if D x then
      if Z x then 1 else
        match T x with
        | some d => touch D H Z (next d) T
        | none => avg fun h => touch D H Z (next h) (update T x (some h))
    else touch D H Z (next (H x)) T

theorem touch_nonneg (Z : Bytes → Prop) (p : Asker Prop) (T : Table) : 0 ≤ touch D H Z p T := by
  induction p generalizing T with
  | done a => exact le_rfl
  | ask x next ih =>
    unfold touch
    split
    · split
      · exact zero_le_one
      · split
        · exact ih _ _
        · exact avg_nonneg fun h => ih _ _
    · exact ih _ _

theorem value_close {Z : Bytes → Prop} (p : Asker Prop) {T T' : Table} (h : ∀ y, ¬ Z y → T' y = T y) :
    |value D H p T' - value D H p T| ≤ touch D H Z p T := by
  induction p generalizing T T' with
  | done a =>
    simp only [value, touch, sub_self, abs_zero, le_refl]
  | ask x next ih =>
    by_cases hx : D x
    · by_cases hz : Z x
      · rw [touch, if_pos hx, if_pos hz]
        exact value_abs_sub _ _ _ _
      · rw [touch, if_pos hx, if_neg hz]
        have hT := h x hz
        cases hTx : T x with
        | some d =>
          rw [value_known hx (hT.trans hTx), value_known hx hTx]
          exact ih d h
        | none =>
          rw [value_drawn hx (hT.trans hTx), value_drawn hx hTx]
          refine (abs_avg_sub _ _).trans (avg_mono fun k => ih k fun y hy => ?_)
          by_cases hyx : y = x
          · rw [hyx, update_self, update_self]
          · rw [update_of_ne hyx, update_of_ne hyx, h y hy]
    · rw [value_given hx, value_given hx, touch, if_neg hx]
      exact ih _ h

open Classical in
/-- Nobody asks for many strings. -/
theorem sum_touch {Γ : Type} [Fintype Γ] (Z : Γ → Bytes → Prop) {c : ℚ} (hc : 0 ≤ c)
    (hZ : ∀ y, (∑ g, if Z g y then (1 : ℚ) else 0) ≤ c) {post : Prop → Prop} {p : Asker Prop} {m : ℕ}
    (hp : AsksAtMost D post m p) (T : Table) : ∑ g, touch D H (Z g) p T ≤ m * c := by
  induction p generalizing m T with
  | done a =>
    simp only [touch, sum_const_zero]
    positivity
  | ask x next ih =>
    unfold AsksAtMost at hp
    split at hp
    · rename_i hx
      obtain ⟨m', rfl, hp⟩ := hp
      have key : ∀ r : Γ → ℚ, (∀ g, 0 ≤ r g) → ∑ g, r g ≤ m' * c → ∑ g, (if Z g x then 1 else r g) ≤ (m' + 1 : ℕ) * c := by
        intro r h0 hr
        calc _ ≤ ∑ g, ((if Z g x then (1 : ℚ) else 0) + r g) := by
              refine sum_le_sum fun g _ => ?_
              have := h0 g
              split
              · linarith
              · linarith
          _ ≤ _ := by
              rw [sum_add_distrib]
              have := hZ x
              push_cast
              linarith
      cases hT : T x with
      | some d =>
        have e : ∀ g, touch D H (Z g) (.ask x next) T = if Z g x then 1 else touch D H (Z g) (next d) T := fun g => by
          rw [touch, if_pos hx, hT]
        simp only [e]
        exact key _ (fun g => touch_nonneg _ _ _) (ih d (hp d) T)
      | none =>
        have e : ∀ g, touch D H (Z g) (.ask x next) T
            = if Z g x then 1 else avg fun h => touch D H (Z g) (next h) (update T x (some h)) := fun g => by
          rw [touch, if_pos hx, hT]
        simp only [e]
        refine key _ (fun g => avg_nonneg fun h => touch_nonneg _ _ _) ?_
        rw [sum_avg]
        exact avg_le fun h => ih h (hp h) _
    · rename_i hx
      have e : ∀ g, touch D H (Z g) (.ask x next) T = touch D H (Z g) (next (H x)) T := fun g => by
        rw [touch, if_neg hx]
      simp only [e]
      exact ih _ (hp _) T

open Classical in
theorem avg_touch {Γ : Type} [Fintype Γ] (Z : Γ → Bytes → Prop) {c : ℚ} (hc : 0 ≤ c)
    (hZ : ∀ y, (avg fun g => if Z g y then (1 : ℚ) else 0) ≤ c) {post : Prop → Prop} {p : Asker Prop} {m : ℕ}
    (hp : AsksAtMost D post m p) (T : Table) : (avg fun g => touch D H (Z g) p T) ≤ m * c := by
  rcases isEmpty_or_nonempty Γ with hΓ | hΓ
  · unfold avg
    rw [Fintype.card_eq_zero, Nat.cast_zero, div_zero]
    positivity
  have hpos : (0 : ℚ) < Fintype.card Γ := by exact_mod_cast Fintype.card_pos
  unfold avg at *
  rw [div_le_iff₀ hpos, mul_assoc]
  exact sum_touch Z (by positivity) (fun y => (div_le_iff₀ hpos).1 (hZ y)) hp T

/-! ## Few answers so far -/

/-- At most `k` answers are known. -/
def Small (T : Table) (k : ℕ) : Prop := ∃ l : List Bytes, l.length ≤ k ∧ ∀ y, T y ≠ none → y ∈ l

theorem Small.update {T : Table} {k : ℕ} (h : Small T k) (x : Bytes) (d : Option (Arr 32)) : Small (update T x d) (k + 1) := by
  obtain ⟨l, hl, h⟩ := h
  refine ⟨x :: l, by rw [List.length_cons]; omega, fun y hy => ?_⟩
  by_cases hyx : y = x
  · simp [hyx]
  · rw [update_of_ne hyx] at hy
    exact List.mem_cons_of_mem _ (h y hy)

theorem Small.mono {T : Table} {k k' : ℕ} (h : Small T k) (hk : k ≤ k') : Small T k' := h.imp fun _ h => ⟨h.1.trans hk, h.2⟩

open Classical in
/-- Strings that determine what they belong to. -/
theorem Small.sum_le {T : Table} {k : ℕ} (h : Small T k) {Γ : Type} [Fintype Γ] {s : Γ → Bytes → Prop}
    (hs : ∀ g g' y, s g y → s g' y → g = g') : (∑ g, if ∃ y, s g y ∧ T y ≠ none then (1 : ℚ) else 0) ≤ k := by
  obtain ⟨l, hl, h⟩ := h
  rw [sum_boole]
  have : (Finset.univ.filter fun g => ∃ y, s g y ∧ T y ≠ none).card ≤ l.toFinset.card := by
    refine Finset.card_le_card_of_injOn (fun g => if hg : ∃ y, s g y ∧ T y ≠ none then hg.choose else []) ?_ ?_
    · intro g hg
      have hg := (mem_filter.1 hg).2
      dsimp only
      rw [dif_pos hg]
      exact List.mem_toFinset.2 (h _ hg.choose_spec.2)
    · intro g hg g' hg' e
      have hg := (mem_filter.1 hg).2
      have hg' := (mem_filter.1 hg').2
      dsimp only at e
      rw [dif_pos hg, dif_pos hg'] at e
      exact hs g g' _ hg.choose_spec.1 (e ▸ hg'.choose_spec.1)
  exact_mod_cast (this.trans l.toFinset_card_le).trans hl

/-- Two continuations with almost the same chances. -/
theorem avg_bind {Γ : Type} [Fintype Γ] {post : α → Prop} {p : Asker α} {m k : ℕ} (hp : AsksAtMost D post m p) (f f' : Γ → α → Asker Prop) {ε : ℚ}
    (hf : ∀ a T, post a → Small T (k + m) → |(avg fun g => value D H (f g a) T) - avg fun g => value D H (f' g a) T| ≤ ε)
    {T : Table} (hT : Small T k) :
    |(avg fun g => value D H (p.bind (f g)) T) - avg fun g => value D H (p.bind (f' g)) T| ≤ ε := by
  induction p generalizing m k T with
  | done a => exact hf a T hp (hT.mono (Nat.le_add_right _ _))
  | ask x next ih =>
    unfold AsksAtMost at hp
    have e : ∀ f : Γ → α → Asker Prop, ∀ g, (Asker.ask x next).bind (f g) = .ask x fun a => (next a).bind (f g) := fun f g => rfl
    simp only [e]
    split at hp
    · rename_i hx
      obtain ⟨m', rfl, hp⟩ := hp
      cases hTx : T x with
      | some d =>
        simp only [value_known hx hTx]
        exact ih d (hp d) (fun a T' ha h' => hf a T' ha (h'.mono (by omega))) hT
      | none =>
        simp only [value_drawn hx hTx]
        rw [avg_comm, avg_comm (fun g h => value D H ((next h).bind (f' g)) (update T x (some h)))]
        refine (abs_avg_sub _ _).trans (avg_le fun h => ?_)
        exact ih h (hp h) (fun a T' ha h' => hf a T' ha (h'.mono (by omega))) (hT.update x _)
    · rename_i hx
      simp only [value_given hx]
      exact ih _ (hp _) hf hT

/-! ## Chances -/

theorem run_congr {ω ω' : ℕ → Arr 32} {p : Asker α} {log : Log} (h : ∀ i, log.length ≤ i → ω i = ω' i) :
    (p.run D H ω log) = p.run D H ω' log := by
  induction p generalizing log with
  | done a => rfl
  | ask q next ih =>
    unfold run
    split
    · split
      · exact ih _ h
      · rw [h _ le_rfl]
        refine ih _ fun i hi => h i ?_
        rw [List.length_append] at hi
        omega
    · exact ih _ h

theorem find_append {log : Log} {x : Bytes} (hx : log.find x = none) (d : Arr 32) :
    Log.find (log ++ [(x, d)]) = update log.find x (some d) := by
  funext y
  by_cases hy : y = x
  · subst hy
    rw [update_self]
    unfold Log.find at hx ⊢
    rw [Option.map_eq_none_iff] at hx
    rw [List.find?_append, hx, Option.none_or, List.find?_singleton, if_pos (by simp)]
    rfl
  · rw [update_of_ne hy]
    unfold Log.find
    rw [List.find?_append, List.find?_singleton, if_neg (by simpa using fun e => hy e.symm), Option.or_none]

/-- The value is the chance of a yes. -/
theorem chance_run {post : Prop → Prop} {p : Asker Prop} {m : ℕ} (hp : AsksAtMost D post m p) (log : Log) :
    (Spec.chance fun ω : Fin m → Arr 32 => (p.run D H (fun i => draws ω (i - log.length)) log).1) = value D H p log.find := by
  induction p generalizing m log with
  | done a =>
    rw [value]
    split
    · exact Decision.chance_true fun _ => ‹a›
    · exact Decision.chance_false fun _ => ‹¬ a›
  | ask q next ih =>
    unfold AsksAtMost at hp
    split at hp
    · rename_i hq
      obtain ⟨m', rfl, hp⟩ := hp
      cases hf : log.find q with
      | some d =>
        rw [value_known hq hf, ← ih d ((hp d).mono (Nat.le_succ m')) log]
        congr 1
        funext ω
        rw [run, if_pos hq, hf]
      | none =>
        rw [value_drawn hq hf, ← CmaForger.chance_equiv (Fin.consEquiv fun _ => Arr 32)]
        have e : ∀ a : Arr 32, value D H (next a) (update log.find q (some a))
            = Spec.chance fun ω : Fin m' → Arr 32 =>
              ((next a).run D H (fun i => draws ω (i - (log ++ [(q, a)]).length)) (log ++ [(q, a)])).1 := fun a => by
          rw [ih a (hp a), find_append hf]
        simp only [e]
        unfold avg
        rw [← Decision.chance_prod (fun (a : Arr 32) (ω : Fin m' → Arr 32) =>
          ((next a).run D H (fun i => draws ω (i - (log ++ [(q, a)]).length)) (log ++ [(q, a)])).1)]
        congr 1
        funext p
        rw [run, if_pos hq, hf]
        have h0 : draws (Fin.consEquiv (fun _ => Arr 32) p) (log.length - log.length) = p.1 := by
          rw [Nat.sub_self]
          unfold draws
          rw [dif_pos (Nat.succ_pos _)]
          rfl
        simp only [h0]
        congr 1
        refine run_congr fun i hi => ?_
        rw [List.length_append, List.length_singleton] at hi ⊢
        unfold draws
        obtain ⟨d, rfl⟩ : ∃ d, i = log.length + 1 + d := ⟨i - (log.length + 1), by omega⟩
        have e1 : log.length + 1 + d - log.length = d + 1 := by omega
        have e2 : log.length + 1 + d - (log.length + 1) = d := by omega
        rw [e1, e2]
        by_cases hd : d < m'
        · rw [dif_pos (Nat.succ_lt_succ hd), dif_pos hd]
          rfl
        · rw [dif_neg hd, dif_neg (by omega)]
    · rename_i hq
      rw [value_given hq, ← ih (H q) (hp _) log]
      congr 1
      funext ω
      rw [run, if_neg hq]

end Verif.Asker
