import Verif.Spec.Oracle
import Verif.Lemmas.Props.SessionForger
import Verif.Lemmas.Props.Ros
import Mathlib.Data.Set.Card.Arithmetic

/-!
# Lemmas about questions for hashes and for discrete logarithms

Used by `Lemmas/Props/Concurrent` and `Lemmas/Props/Adaptive`.
-/

namespace Verif.Concurrent

open Forger (answers)
open CmaForger (chance_mono chance_or chance_snd chance_equiv chance_fst chance_nonneg)

/-! ## Answers that must not be drawn -/

section
variable {ν : Type} {k : ℕ} {α : Type} (bad : Log ν → Bytes → ν → Finset MaybeScalar) (y : Unknown k → MaybeScalar)

/-- At some time an answer is drawn that must not be. -/
def Hits (ω : ℕ → Arr 32) : Play ν k α → Log ν → Prop
  | .done _, _ => False
  | .ask x n next, log =>
    match log.find x with
    | some e => Hits ω (next e.1 e.2) log
    | none => reduceFrom (ω log.length) ∈ bad log x n ∨ Hits ω (next n (ω log.length)) (log ++ [(x, n, ω log.length)])
  | .dlog f next, log => Hits ω (next (∑ j, f j * y j)) log

/-- At most `m` strings are asked for. -/
def HashesAtMost : ℕ → Play ν k α → Prop
  | _, .done _ => True
  | m, .ask _ _ next => ∃ m', m = m' + 1 ∧ ∀ n h, HashesAtMost m' (next n h)
  | m, .dlog _ next => ∀ z, HashesAtMost m (next z)

theorem HashesAtMost.mono {p : Play ν k α} {m m' : ℕ} (hm : m ≤ m') (h : HashesAtMost m p) : HashesAtMost m' p := by
  induction p generalizing m m' with
  | done a => trivial
  | ask x n next ih =>
    obtain ⟨m₁, rfl, h⟩ := h
    obtain ⟨m₂, rfl⟩ : ∃ m₂, m' = m₂ + 1 := ⟨m' - 1, by omega⟩
    exact ⟨m₂, rfl, fun n a => ih n a (by omega) (h n a)⟩
  | dlog f next ih => exact fun z => ih z hm (h z)

theorem hits_congr {ω ω' : ℕ → Arr 32} {p : Play ν k α} {log : Log ν} (h : ∀ i, log.length ≤ i → ω i = ω' i) :
    Hits bad y ω p log ↔ Hits bad y ω' p log := by
  induction p generalizing log with
  | done a => exact Iff.rfl
  | ask x n next ih =>
    unfold Hits
    split
    · exact ih _ _ h
    · rw [h _ le_rfl]
      refine or_congr Iff.rfl (ih _ _ fun i hi => h i ?_)
      rw [List.length_append] at hi
      omega
  | dlog f next ih => exact ih _ h

theorem chance_reduce_mem (S : Finset MaybeScalar) :
    (Spec.chance fun h : Arr 32 => reduceFrom h ∈ S) ≤ 2 * S.card / 2 ^ 256 := by
  unfold Spec.chance
  rw [arr_card, show (256 : ℕ) ^ 32 = 2 ^ 256 by norm_num]
  push_cast
  refine div_le_div_of_nonneg_right ?_ (by positivity)
  have hsub : {h : Arr 32 | reduceFrom h ∈ S} ⊆ ⋃ s ∈ S, {h : Arr 32 | beNat h.1 % orderN = s.val} := by
    intro h hh
    refine Set.mem_iUnion₂.2 ⟨reduceFrom h, hh, ?_⟩
    change _ = (((beNat h.1 : ℕ) : MaybeScalar)).val
    rw [ZMod.val_natCast]
  have h1 : {h : Arr 32 | reduceFrom h ∈ S}.ncard ≤ 2 * S.card := by
    refine (Set.ncard_le_ncard hsub (Set.toFinite _)).trans ((Finset.set_ncard_biUnion_le S _).trans ?_)
    refine (Finset.sum_le_card_nsmul S _ 2 fun s _ => ncard_mod_le _).trans (le_of_eq ?_)
    rw [smul_eq_mul, mul_comm]
  exact_mod_cast h1

/-- The chance that an answer is drawn that must not be. -/
theorem chance_hits (c : ℕ → ℕ) (hbad : ∀ log x n, (bad log x n).card ≤ c log.length) {p : Play ν k α} {m : ℕ}
    (hp : HashesAtMost m p) (log : Log ν) :
    (Spec.chance fun ω : Fin m → Arr 32 => Hits bad y (fun i => answers ω (i - log.length)) p log)
      ≤ ∑ t ∈ Finset.range m, 2 * (c (log.length + t) : ℚ) / 2 ^ 256 := by
  have hnn : ∀ l m : ℕ, (0 : ℚ) ≤ ∑ t ∈ Finset.range m, 2 * (c (l + t) : ℚ) / 2 ^ 256 := fun l m =>
    Finset.sum_nonneg fun t _ => by positivity
  induction p generalizing m log with
  | done a =>
    refine le_trans (le_of_eq ?_) (hnn _ _)
    unfold Spec.chance Hits
    simp
  | ask x n next ih =>
    cases hf : log.find x with
    | some e =>
      obtain ⟨m', rfl, hp⟩ := hp
      have := ih e.1 e.2 ((hp e.1 e.2).mono (Nat.le_succ m')) log
      refine le_trans (le_of_eq ?_) this
      congr 1
      funext ω
      rw [Hits, hf]
    | none =>
      obtain ⟨m', rfl, hp⟩ := hp
      rw [← chance_equiv (Fin.consEquiv fun _ => Arr 32)]
      have hst : ∀ p : Arr 32 × (Fin m' → Arr 32),
          Hits bad y (fun i => answers (Fin.consEquiv (fun _ => Arr 32) p) (i - log.length)) (.ask x n next) log →
          reduceFrom p.1 ∈ bad log x n ∨ Hits bad y (fun i => answers p.2 (i - (log ++ [(x, n, p.1)]).length)) (next n p.1)
            (log ++ [(x, n, p.1)]) := by
        intro p h
        rw [Hits, hf] at h
        have h0 : answers (Fin.consEquiv (fun _ => Arr 32) p) (log.length - log.length) = p.1 := by
          rw [Nat.sub_self]
          unfold answers
          rw [dif_pos (Nat.succ_pos _)]
          rfl
        simp only [h0] at h
        refine h.imp_right fun h => (hits_congr bad y ?_).1 h
        intro i hi
        rw [List.length_append, List.length_singleton] at hi ⊢
        unfold answers
        obtain ⟨d, rfl⟩ : ∃ d, i = log.length + 1 + d := ⟨i - (log.length + 1), by omega⟩
        have e1 : log.length + 1 + d - log.length = d + 1 := by omega
        have e2 : log.length + 1 + d - (log.length + 1) = d := by omega
        rw [e1, e2]
        by_cases hd : d < m'
        · rw [dif_pos (Nat.succ_lt_succ hd), dif_pos hd]
          rfl
        · rw [dif_neg hd, dif_neg (by omega)]
      refine (chance_mono hst).trans ((chance_or _ _).trans ?_)
      rw [Finset.sum_range_succ', add_comm]
      refine add_le_add ?_ ?_
      · refine chance_snd (fun (a : Arr 32) (ω : Fin m' → Arr 32) => Hits bad y
          (fun i => answers ω (i - (log ++ [(x, n, a)]).length)) (next n a) (log ++ [(x, n, a)])) _ (fun a => ?_) ?_
        · refine (ih n a (hp n a) (log ++ [(x, n, a)])).trans (le_of_eq ?_)
          refine Finset.sum_congr rfl fun t _ => ?_
          rw [List.length_append, List.length_singleton, show log.length + 1 + t = log.length + (t + 1) by omega]
        · exact Finset.sum_nonneg fun t _ => by positivity
      · haveI : Nonempty (Fin m' → Arr 32) := ⟨fun _ => zeroSeed⟩
        rw [chance_fst (fun a : Arr 32 => reduceFrom a ∈ bad log x n)]
        refine (chance_reduce_mem _).trans ?_
        refine div_le_div_of_nonneg_right ?_ (by positivity)
        have := hbad log x n
        rw [Nat.add_zero]
        exact mul_le_mul_of_nonneg_left (by exact_mod_cast this) (by norm_num)
  | dlog f next ih => exact ih _ (hp _) log

/-- No answer in the log is one that must not be drawn. -/
def Good (log : Log ν) : Prop :=
  ∀ (t : ℕ) x n h, log[t]? = some (x, n, h) → reduceFrom h ∉ bad (log.take t) x n

/-- All strings in the log are different. -/
def Distinct (log : Log ν) : Prop := (log.map (·.1)).Nodup

theorem find_none {log : Log ν} {x : Bytes} : log.find x = none ↔ x ∉ log.map (·.1) := by
  unfold Log.find
  rw [Option.map_eq_none_iff, List.find?_eq_none]
  simp only [decide_eq_true_eq, List.mem_map, not_exists, not_and]

theorem find_some {log : Log ν} (hd : Distinct log) {x : Bytes} {e : ν × Arr 32} :
    log.find x = some e ↔ (x, e) ∈ log := by
  unfold Log.find Distinct at *
  induction log with
  | nil => simp
  | cons a log ih =>
    rw [List.map_cons, List.nodup_cons] at hd
    rw [List.find?_cons]
    by_cases h : a.1 = x
    · subst h
      simp only [decide_true, Option.map_some, Option.some.injEq, List.mem_cons]
      constructor
      · rintro rfl
        exact .inl rfl
      · rintro (h | h)
        · rw [← h]
        · exact absurd (List.mem_map_of_mem h) hd.1
    · simp only [h, decide_false]
      rw [ih hd.2, List.mem_cons]
      constructor
      · exact .inr
      · rintro (h' | h')
        · rw [← h'] at h
          exact absurd rfl h
        · exact h'

/-- A log with one more entry. -/
theorem Distinct.append {log : Log ν} (hd : Distinct log) {x : Bytes} (hx : log.find x = none) (n : ν) (h : Arr 32) :
    Distinct (log ++ [(x, n, h)]) := by
  unfold Distinct at *
  rw [List.map_append, List.nodup_append]
  refine ⟨hd, by simp, ?_⟩
  rintro a ha b hb rfl
  rw [List.map_singleton, List.mem_singleton] at hb
  subst hb
  exact find_none.1 hx ha

theorem Good.append {log : Log ν} (hg : Good bad log) {x : Bytes} {n : ν} {h : Arr 32} (hh : reduceFrom h ∉ bad log x n) :
    Good bad (log ++ [(x, n, h)]) := by
  intro t x' n' h' ht
  rcases lt_trichotomy t log.length with hlt | rfl | hgt
  · rw [List.getElem?_append_left hlt] at ht
    rw [List.take_append_of_le_length hlt.le]
    exact hg t x' n' h' ht
  · rw [List.getElem?_append_right le_rfl, Nat.sub_self] at ht
    cases ht
    rw [List.take_left' rfl]
    exact hh
  · rw [List.getElem?_eq_none (by rw [List.length_append, List.length_singleton]; omega)] at ht
    cases ht

theorem run_good {ω : ℕ → Arr 32} {p : Play ν k α} {log : Log ν} (hd : Distinct log) (hg : Good bad log)
    (hh : ¬ Hits bad y ω p log) : Distinct (p.run y ω log).2 ∧ Good bad (p.run y ω log).2 := by
  induction p generalizing log with
  | done a => exact ⟨hd, hg⟩
  | ask x n next ih =>
    cases hf : log.find x with
    | some e =>
      rw [Hits, hf] at hh
      rw [Play.run, hf]
      exact ih _ _ hd hg hh
    | none =>
      rw [Hits, hf] at hh
      rw [Play.run, hf]
      exact ih _ _ (hd.append hf _ _) (hg.append bad fun h => hh (.inl h)) fun h => hh (.inr h)
  | dlog f next ih =>
    rw [Hits] at hh
    exact ih _ hd hg hh

end

/-! ## Logs -/

theorem sum_pick {ν : Type} {log : Log ν} (hd : Distinct log) {x : Bytes} {n : ν} {h : Arr 32} (hx : (x, n, h) ∈ log)
    (c : MaybeScalar) : (log.map fun e => (if e.1 = x then c else 0) * reduceFrom e.2.2).sum = c * reduceFrom h := by
  unfold Distinct at hd
  induction log with
  | nil => cases hx
  | cons a log ih =>
    rw [List.map_cons, List.nodup_cons] at hd
    rw [List.map_cons, List.sum_cons]
    rcases List.mem_cons.1 hx with rfl | hx
    · have : (log.map fun e => (if e.1 = x then c else 0) * reduceFrom e.2.2).sum = 0 := by
        apply List.sum_eq_zero
        intro z hz
        obtain ⟨e, he, rfl⟩ := List.mem_map.1 hz
        rw [if_neg, zero_mul]
        intro h'
        apply hd.1
        rw [← h']
        exact List.mem_map.2 ⟨e, he, rfl⟩
      rw [this, if_pos rfl, add_zero]
    · rw [ih hd.2 hx, if_neg, zero_mul, zero_add]
      rintro rfl
      exact hd.1 (List.mem_map.2 ⟨_, hx, rfl⟩)

theorem sum_map_sub {ν : Type} {log : Log ν} (f g : (Bytes × ν × Arr 32) → MaybeScalar) :
    (log.map fun e => f e - g e).sum = (log.map f).sum - (log.map g).sum := by
  induction log with
  | nil => simp
  | cons a log ih =>
    simp only [List.map_cons, List.sum_cons, ih]
    ring

theorem sum_map_finset {ν : Type} {log : Log ν} (s : Finset ℕ) (f : ℕ → (Bytes × ν × Arr 32) → MaybeScalar) :
    (log.map fun e => ∑ i ∈ s, f i e).sum = ∑ i ∈ s, (log.map (f i)).sum := by
  induction log with
  | nil => simp
  | cons a log ih => simp only [List.map_cons, List.sum_cons, ih, Finset.sum_add_distrib]

theorem split_at {α : Type} {l : List α} {t : ℕ} {e : α} (h : l[t]? = some e) : l = l.take t ++ e :: l.drop (t + 1) := by
  obtain ⟨ht, rfl⟩ := List.getElem?_eq_some_iff.1 h
  rw [← List.drop_eq_getElem_cons ht, List.take_append_drop]

theorem mem_take {α : Type} {l : List α} {t j : ℕ} {e : α} (h : l[j]? = some e) (hj : j < t) : e ∈ l.take t := by
  apply List.mem_of_getElem? (i := j)
  rw [List.getElem?_take_of_lt hj, h]

theorem run_ask {ν : Type} {k : ℕ} {α : Type} (y : Unknown k → MaybeScalar) (ω : ℕ → Arr 32) {log : Log ν} (hd : Distinct log) (x : Bytes)
    (n : ν) (next : ν → Arr 32 → Play ν k α) :
    ∃ n' h' log', (Play.ask x n next).run y ω log = (next n' h').run y ω log' ∧ (x, n', h') ∈ log' ∧ Distinct log' ∧
      (∀ e, e ∈ log → e ∈ log') ∧ (∀ e, e ∈ log' → e ∈ log ∨ e.2.1 = n) := by
  cases hf : log.find x with
  | some e =>
    refine ⟨e.1, e.2, log, by rw [Play.run, hf], (find_some hd).1 hf, hd, fun _ h => h, fun _ h => .inl h⟩
  | none =>
    refine ⟨n, ω log.length, log ++ [(x, n, ω log.length)], by rw [Play.run, hf], by simp, hd.append hf _ _,
      fun _ h => List.mem_append_left _ h, fun e h => ?_⟩
    rcases List.mem_append.1 h with h | h
    · exact .inl h
    · rw [List.mem_singleton] at h
      exact .inr (by rw [h])

theorem run_ask_map {ν : Type} {k : ℕ} {α β : Type} {y : Unknown k → MaybeScalar} {ω : ℕ → Arr 32} {x : Bytes} {n : ν}
    {next : ν → Arr 32 → Play ν k α} {next' : ν → Arr 32 → Play ν k β} (F : β × Log ν → α × Log ν)
    (h : ∀ n a log, (next n a).run y ω log = F ((next' n a).run y ω log)) (log : Log ν) :
    (Play.ask x n next).run y ω log = F ((Play.ask x n next').run y ω log) := by
  rw [Play.run, Play.run]
  cases log.find x <;> exact h _ _ _

/-! ## The linear system -/

theorem sum_unknown {k : ℕ} (f : Unknown k → MaybeScalar) :
    ∑ j, f j = f none + ∑ i : Fin k, (f (some (i, true)) + f (some (i, false))) := by
  rw [Fintype.sum_option, Fintype.sum_prod_type]
  simp only [Fintype.sum_bool]

/-- Each row has the first nonce of its session with the coefficient `1`, and beside it only the second nonce and the key. -/
def RowShape {k : ℕ} (rows : ℕ → Option (Equation k)) : Prop :=
  ∀ (i : Fin k) e, rows i = some e → ∀ v : Unknown k → MaybeScalar,
    ∑ j, e.1 j * v j = e.1 none * v none + (v (some (i, false)) + e.1 (some (i, true)) * v (some (i, true)))

/-- Elimination of the first nonces. -/
theorem reduced_sum {k : ℕ} {rows : ℕ → Option (Equation k)} (hrows : RowShape rows) (f : Equation k)
    (v : Unknown k → MaybeScalar) :
    ∑ j, reduced rows f.1 j * v j = ∑ j, f.1 j * v j
      - ∑ i : Fin k, match rows i with
        | some e => f.1 (some (i, false)) * ∑ j, e.1 j * v j
        | none => 0 := by
  rw [sum_unknown, sum_unknown]
  simp only [reduced]
  rw [sub_mul, Finset.sum_mul, sub_add_eq_add_sub, add_sub_assoc, add_sub_assoc, ← Finset.sum_sub_distrib,
    ← Finset.sum_sub_distrib]
  congr 1
  refine Finset.sum_congr rfl fun i _ => ?_
  cases h : rows i with
  | none => simp only; ring
  | some e =>
    simp only
    rw [hrows i e h]
    ring

theorem mem_unknowns {k : ℕ} (j : Unknown k) : j ∈ unknowns k := by
  unfold unknowns
  rcases j with _ | ⟨i, _ | _⟩ <;> simp

theorem nodup_unknowns (k : ℕ) : (unknowns k).Nodup := by
  unfold unknowns
  rw [List.cons_append, List.nodup_cons, List.nodup_append]
  refine ⟨by simp, (List.nodup_finRange k).map fun a b h => by simpa using h,
    (List.nodup_finRange k).map fun a b h => by simpa using h, ?_⟩
  intro a ha b hb hab
  obtain ⟨x, -, rfl⟩ := List.mem_map.1 ha
  obtain ⟨z, -, rfl⟩ := List.mem_map.1 hb
  simp at hab

theorem run_askAll {ν : Type} {k : ℕ} {α : Type} (y : Unknown k → MaybeScalar) (ω : ℕ → Arr 32) (next : (Unknown k → MaybeScalar) → Play ν k α)
    (log : Log ν) (l : List (Unknown k)) (v : Unknown k → MaybeScalar) :
    (askAll l v next).run y ω log = (next fun j => if j ∈ l then y j else v j).run y ω log := by
  induction l generalizing v with
  | nil => simp [askAll]
  | cons a l ih =>
    rw [askAll, Play.run]
    have : ∑ j, (Pi.single a 1 : Unknown k → MaybeScalar) j * y j = y a := by
      rw [Finset.sum_eq_single a]
      · rw [Pi.single_eq_same, one_mul]
      · intro b _ hb
        rw [Pi.single_eq_of_ne hb, zero_mul]
      · intro h
        exact absurd (Finset.mem_univ _) h
    rw [this, ih]
    congr 2
    funext j
    by_cases hj : j ∈ l
    · rw [if_pos hj, if_pos (List.mem_cons_of_mem _ hj)]
    · rw [if_neg hj]
      by_cases hja : j = a
      · rw [hja, Function.update_self, if_pos List.mem_cons_self]
      · rw [Function.update_of_ne hja, if_neg]
        rw [List.mem_cons]
        tauto

/-- The matrix of the equations. -/
def matrixOf {k : ℕ} (eqn : Unknown k → Option ((Unknown k → MaybeScalar) × MaybeScalar)) :
    Matrix (Unknown k) (Unknown k) MaybeScalar := fun j => match eqn j with
  | some e => e.1
  | none => Pi.single j 1

theorem matrixOf_injective {k : ℕ} {rows : ℕ → Option (Equation k)} (hrows : RowShape rows) {f : Equation k} {p : Unknown k}
    (hp : reduced rows f.1 p ≠ 0) {v : Unknown k → MaybeScalar}
    (hv : (matrixOf (equations rows f p)).mulVec v = 0) : v = 0 := by
  have hrow : ∀ j, ∑ j', matrixOf (equations rows f p) j j' * v j' = 0 := fun j => congrFun hv j
  -- places without an equation
  have hnone : ∀ j, equations rows f p j = none → v j = 0 := by
    intro j hj
    have := hrow j
    unfold matrixOf at this
    rw [hj] at this
    simp only at this
    rw [Finset.sum_eq_single j] at this
    · rwa [Pi.single_eq_same, one_mul] at this
    · intro b _ hb
      rw [Pi.single_eq_of_ne hb, zero_mul]
    · intro h
      exact absurd (Finset.mem_univ _) h
  -- partial signatures
  have hps : ∀ (i : Fin k) e, rows i = some e → some (i, false) ≠ p := by
    rintro i e he rfl
    apply hp
    unfold reduced
    simp only [he]
  have hsig : ∀ (i : Fin k) e, rows i = some e → ∑ j, e.1 j * v j = 0 := by
    intro i e he
    have := hrow (some (i, false))
    unfold matrixOf equations at this
    rw [if_neg (hps i e he)] at this
    simp only [he] at this
    exact this
  have hforged : ∑ j, f.1 j * v j = 0 := by
    have := hrow p
    unfold matrixOf equations at this
    rw [if_pos rfl] at this
    exact this
  have hred := reduced_sum hrows f v
  have hz : (∑ i : Fin k, match rows i with
      | some e => f.1 (some (i, false)) * ∑ j, e.1 j * v j
      | none => 0) = 0 := by
    refine Finset.sum_eq_zero fun i _ => ?_
    cases h : rows i with
    | none => rfl
    | some e =>
      simp only
      rw [hsig i e h, mul_zero]
  rw [hforged, hz, sub_zero] at hred
  rw [Finset.sum_eq_single p] at hred
  · have hvp : v p = 0 := (mul_eq_zero.1 hred).resolve_left hp
    have hother : ∀ j, (∀ i, j ≠ some (i, false)) → v j = 0 := by
      intro j hj
      by_cases hjp : j = p
      · rw [hjp, hvp]
      · refine hnone j ?_
        unfold equations
        rw [if_neg hjp]
        rcases j with _ | ⟨i, _ | _⟩
        · rfl
        · exact absurd rfl (hj i)
        · rfl
    funext j
    rcases j with _ | ⟨i, _ | _⟩
    · exact hother _ (by simp)
    · cases h : rows i with
      | none =>
        by_cases hjp : some (i, false) = p
        · rw [hjp, hvp]
          rfl
        · refine hnone _ ?_
          unfold equations
          rw [if_neg hjp]
          exact h
      | some e =>
        have h0 := hsig i e h
        rw [hrows i e h, hother none (by simp), hother (some (i, true)) (by simp), mul_zero, mul_zero, zero_add, add_zero] at h0
        exact h0
    · exact hother _ (by simp)
  · intro j _ hjp
    rcases j with _ | ⟨i, _ | _⟩
    · rw [hnone none (by unfold equations; rw [if_neg hjp]), mul_zero]
    · cases h : rows i with
      | none =>
        rw [hnone (some (i, false)) (by unfold equations; rw [if_neg hjp]; exact h), mul_zero]
      | some e =>
        unfold reduced
        simp only [h, zero_mul]
    · rw [hnone (some (i, true)) (by unfold equations; rw [if_neg hjp]), mul_zero]
  · intro h
    exact absurd (Finset.mem_univ _) h

theorem pivot_some {k : ℕ} {rows : ℕ → Option (Equation k)} {fs : List (Equation k)} {f : Equation k} {p : Unknown k}
    (h : pivot rows fs = some (f, p)) : f ∈ fs ∧ reduced rows f.1 p ≠ 0 := by
  obtain ⟨g, hg, h⟩ := List.exists_of_findSome?_eq_some h
  obtain ⟨p', hp', h⟩ := Option.map_eq_some_iff.1 h
  cases h
  exact ⟨hg, by simpa using List.find?_some hp'⟩

theorem pivot_none {k : ℕ} {rows : ℕ → Option (Equation k)} {fs : List (Equation k)} (h : pivot rows fs = none) :
    ∀ f ∈ fs, ∀ j, reduced rows f.1 j = 0 := by
  intro f hf j
  have h := List.findSome?_eq_none_iff.1 h f hf
  rw [Option.map_eq_none_iff] at h
  simpa using List.find?_eq_none.1 h j (mem_unknowns j)

/-- If the equations hold and leave something over, then the solver finds the unknowns. -/
theorem run_solve {ν : Type} {k : ℕ} {rows : ℕ → Option (Equation k)} (hrows : RowShape rows) {fs : List (Equation k)}
    {y : Unknown k → MaybeScalar} (hf : ∀ f ∈ fs, ∑ j, f.1 j * y j = f.2)
    (hs : ∀ (i : Fin k) e, rows i = some e → ∑ j, e.1 j * y j = e.2)
    (hr : ∃ f ∈ fs, ∃ j, reduced rows f.1 j ≠ 0) (ω : ℕ → Arr 32) (log : Log ν) :
    ((solve rows fs : Play ν k _).run y ω log).1 = y := by
  unfold solve
  cases hfind : pivot rows fs with
  | none =>
    obtain ⟨f, hf, j, hj⟩ := hr
    exact absurd (pivot_none hfind f hf j) hj
  | some fp =>
    obtain ⟨f, p⟩ := fp
    obtain ⟨hfm, hp⟩ := pivot_some hfind
    replace hf := hf f hfm
    simp only
    rw [run_askAll, Play.run]
    simp only
    change (matrixOf (equations rows f p))⁻¹.mulVec _ = y
    have hunit : IsUnit (matrixOf (equations rows f p)) := by
      rw [← Matrix.mulVec_injective_iff_isUnit]
      intro v w hvw
      have h0 : (matrixOf (equations rows f p)).mulVec (v - w) = 0 := by
        rw [Matrix.mulVec_sub]
        exact sub_eq_zero.2 hvw
      exact sub_eq_zero.1 (matrixOf_injective hrows hp h0)
    have hdet : IsUnit (matrixOf (equations rows f p)).det := (Matrix.isUnit_iff_isUnit_det _).1 hunit
    have hM : (matrixOf (equations rows f p)).mulVec y = fun j => match equations rows f p j with
        | some e => e.2
        | none => if j ∈ (unknowns k).filter fun j => (equations rows f p j).isNone then y j
          else (0 : Unknown k → MaybeScalar) j := by
      funext j
      change ∑ j', matrixOf (equations rows f p) j j' * y j' = _
      unfold matrixOf
      cases he : equations rows f p j with
      | none =>
        simp only
        rw [if_pos (List.mem_filter.2 ⟨mem_unknowns j, by rw [he]; rfl⟩), Finset.sum_eq_single j]
        · rw [Pi.single_eq_same, one_mul]
        · intro b _ hb
          rw [Pi.single_eq_of_ne hb, zero_mul]
        · intro h
          exact absurd (Finset.mem_univ _) h
      | some e =>
        simp only
        unfold equations at he
        split_ifs at he with hjp
        · rw [← Option.some.inj he]
          exact hf
        · rcases j with _ | ⟨i, _ | _⟩
          · cases he
          · exact hs i e he
          · cases he
    refine (congrArg _ hM.symm).trans ?_
    rw [Matrix.mulVec_mulVec, Matrix.nonsing_inv_mul _ hdet, Matrix.one_mulVec]

/-! ## Numbers of discrete logarithms -/

theorem DlogsAtMost.mono {ν : Type} {k : ℕ} {α : Type} {p : Play ν k α} {m m' : ℕ} (hm : m ≤ m') (h : p.DlogsAtMost m) :
    p.DlogsAtMost m' := by
  induction p generalizing m m' with
  | done a => trivial
  | ask x n next ih => exact fun n a => ih n a hm (h n a)
  | dlog f next ih =>
    obtain ⟨m₁, rfl, h⟩ := h
    obtain ⟨m₂, rfl⟩ : ∃ m₂, m' = m₂ + 1 := ⟨m' - 1, by omega⟩
    exact ⟨m₂, rfl, fun z => ih z (by omega) (h z)⟩

theorem dlogs_askAll {ν : Type} {k : ℕ} {α : Type} (f : (Unknown k → MaybeScalar) → α) (l : List (Unknown k)) (v : Unknown k → MaybeScalar) :
    (askAll l v fun v => .done (f v) : Play ν k α).DlogsAtMost l.length := by
  induction l generalizing v with
  | nil => trivial
  | cons a l ih => exact ⟨l.length, rfl, fun z => ih _⟩

theorem dlogs_solve {ν : Type} {k : ℕ} (rows : ℕ → Option (Equation k)) (fs : List (Equation k)) :
    (solve rows fs : Play ν k _).DlogsAtMost (2 * k - (Finset.univ.filter fun i : Fin k => (rows i).isSome).card) := by
  classical
  unfold solve
  cases hfind : pivot rows fs with
  | none => trivial
  | some fp =>
    obtain ⟨f, p⟩ := fp
    obtain ⟨-, hp⟩ := pivot_some hfind
    simp only
    refine DlogsAtMost.mono ?_ (dlogs_askAll _ _ _)
    set l := (unknowns k).filter fun j => (equations rows f p j).isNone with hl
    have hcard : l.length = l.toFinset.card := (List.toFinset_card_of_nodup ((nodup_unknowns k).filter _)).symm
    set S : Finset (Unknown k) := insert p ((Finset.univ.filter fun i : Fin k => (rows i).isSome).image
      fun i => some (i, false)) with hS
    have hScard : S.card = (Finset.univ.filter fun i : Fin k => (rows i).isSome).card + 1 := by
      rw [hS, Finset.card_insert_of_notMem, Finset.card_image_of_injective]
      · intro a b h
        simpa using h
      · intro hm
        obtain ⟨i, hi, rfl⟩ := Finset.mem_image.1 hm
        rw [Finset.mem_filter] at hi
        obtain ⟨e, he⟩ := Option.isSome_iff_exists.1 hi.2
        apply hp
        unfold reduced
        simp only [he]
    have hdisj : Disjoint l.toFinset S := by
      rw [Finset.disjoint_left]
      intro j hj hjS
      rw [List.mem_toFinset, hl, List.mem_filter] at hj
      have hnone := Option.isNone_iff_eq_none.1 hj.2
      unfold equations at hnone
      rcases Finset.mem_insert.1 hjS with rfl | hm
      · rw [if_pos rfl] at hnone
        cases hnone
      · obtain ⟨i, hi, rfl⟩ := Finset.mem_image.1 hm
        rw [Finset.mem_filter] at hi
        obtain ⟨e, he⟩ := Option.isSome_iff_exists.1 hi.2
        split_ifs at hnone
        change rows i = none at hnone
        rw [he] at hnone
        cases hnone
    have hle : l.toFinset.card + S.card ≤ 2 * k + 1 := by
      rw [← Finset.card_union_of_disjoint hdisj]
      refine (Finset.card_le_univ _).trans ?_
      rw [Fintype.card_option, Fintype.card_prod, Fintype.card_fin, Fintype.card_bool]
      omega
    omega

theorem sum_bound (c m : ℕ) :
    (∑ t ∈ Finset.range m, 2 * (((0 + t + 1) * c : ℕ) : ℚ) / 2 ^ 256 : ℚ) = (c : ℚ) * ((m : ℚ) * ((m : ℚ) + 1)) / 2 ^ 256 := by
  induction m with
  | zero => simp
  | succ m ih =>
    rw [Finset.sum_range_succ, ih]
    push_cast
    ring

end Verif.Concurrent
