import Verif.Spec.Asker
import Verif.Lemmas.Props.Oracle
import Mathlib.Algebra.BigOperators.Field

/-!
# Lemmas for `Spec/Asker`
-/

namespace Verif.Asker

open CmaForger (chance_mono chance_or chance_snd chance_equiv chance_fst chance_nonneg)
open Forger (Log)

variable {α β : Type} {D : Bytes → Prop} [DecidablePred D]

/-! ## Runs -/

/-- All questions in the log are different. -/
def Distinct (log : Log) : Prop := (log.map (·.1)).Nodup

theorem find_none {log : Log} {q : Bytes} : log.find q = none ↔ q ∉ log.map (·.1) := by
  unfold Log.find
  rw [Option.map_eq_none_iff, List.find?_eq_none]
  simp only [decide_eq_true_eq, List.mem_map, not_exists, not_and]

theorem mem_of_find {log : Log} {q : Bytes} {d : Arr 32} (h : log.find q = some d) : (q, d) ∈ log := by
  unfold Log.find at h
  obtain ⟨e, he, rfl⟩ := Option.map_eq_some_iff.1 h
  have h1 := List.find?_some he
  rw [decide_eq_true_eq] at h1
  rw [← h1]
  exact List.mem_of_find?_eq_some he

theorem find_of_mem {log : Log} (hd : Distinct log) {q : Bytes} {d : Arr 32} (h : (q, d) ∈ log) : log.find q = some d := by
  cases hf : log.find q with
  | none => exact absurd (List.mem_map_of_mem (f := (·.1)) h) (find_none.1 hf)
  | some d' => exact congrArg some (congrArg Prod.snd (List.inj_on_of_nodup_map hd (mem_of_find hf) h rfl))

theorem distinct_add {log : Log} (hd : Distinct log) {q : Bytes} (hq : log.find q = none) (d : Arr 32) :
    Distinct (log ++ [(q, d)]) := by
  unfold Distinct at *
  rw [List.map_append, List.map_singleton]
  exact List.nodup_append.2 ⟨hd, by simp, fun a ha b hb => by
    rw [List.mem_singleton.1 hb]
    rintro rfl
    exact find_none.1 hq ha⟩

/-- The log only grows. -/
theorem run_prefix (H : Hash) (ω : ℕ → Arr 32) (p : Asker α) (log : Log) : log <+: (p.run D H ω log).2 := by
  induction p generalizing log with
  | done a => exact List.prefix_refl _
  | ask q next ih =>
    unfold run
    split
    · split
      · exact ih _ _
      · exact (List.prefix_append _ _).trans (ih _ _)
    · exact ih _ _

theorem run_distinct (H : Hash) (ω : ℕ → Arr 32) (p : Asker α) {log : Log} (hd : Distinct log) :
    Distinct (p.run D H ω log).2 := by
  induction p generalizing log with
  | done a => exact hd
  | ask q next ih =>
    unfold run
    split
    · split
      · exact ih _ hd
      · rename_i hf
        exact ih _ (distinct_add hd hf _)
    · exact ih _ hd

theorem run_bind (H : Hash) (ω : ℕ → Arr 32) (p : Asker α) (f : α → Asker β) (log : Log) :
    (p.bind f).run D H ω log = (f (p.run D H ω log).1).run D H ω (p.run D H ω log).2 := by
  induction p generalizing log with
  | done a => rfl
  | ask q next ih =>
    rw [bind, run, run]
    split
    · split
      · exact ih _ _
      · exact ih _ _
    · exact ih _ _

theorem run_post {H : Hash} {ω : ℕ → Arr 32} {post : α → Prop} {p : Asker α} {m : ℕ} (h : AsksAtMost D post m p)
    (log : Log) : post (p.run D H ω log).1 := by
  induction p generalizing m log with
  | done a => exact h
  | ask q next ih =>
    unfold AsksAtMost at h
    unfold run
    split at h
    · rename_i hq
      obtain ⟨m', -, h⟩ := h
      rw [if_pos hq]
      split
      · exact ih _ (h _) _
      · exact ih _ (h _) _
    · rename_i hq
      rw [if_neg hq]
      exact ih _ (h _) _

/-- A question is asked. -/
theorem run_ask (H : Hash) (ω : ℕ → Arr 32) {q : Bytes} (hq : D q) (next : Arr 32 → Asker α) {log : Log}
    (hd : Distinct log) : ∃ (d : Arr 32) (log' : Log), (Asker.ask q next).run D H ω log = (next d).run D H ω log' ∧
      Distinct log' ∧ log <+: log' ∧ (q, d) ∈ log' := by
  rw [run, if_pos hq]
  cases hf : log.find q with
  | some d => exact ⟨d, log, rfl, hd, List.prefix_refl _, mem_of_find hf⟩
  | none => exact ⟨ω log.length, log ++ [(q, ω log.length)], rfl, distinct_add hd hf _, List.prefix_append _ _, by simp⟩

theorem run_askHashes (H : Hash) (ω : ℕ → Arr 32) (xs : List Bytes) (hx : ∀ x ∈ xs, D x)
    (next : List (Arr 32) → Asker α) {log : Log} (hd : Distinct log) :
    ∃ (hs : List (Arr 32)) (log' : Log), (askHashes xs next).run D H ω log = (next hs).run D H ω log' ∧ Distinct log' ∧ log <+: log' ∧
      List.Forall₂ (fun x h => (x, h) ∈ log') xs hs := by
  induction xs generalizing next log with
  | nil => exact ⟨[], log, rfl, hd, List.prefix_refl _, .nil⟩
  | cons x xs ih =>
    obtain ⟨d, log₁, h1, h2, h3, h4⟩ := run_ask H ω (hx x (by simp)) (fun h : Arr 32 => askHashes xs fun hs => next (h :: hs)) hd
    obtain ⟨hs, log₂, g1, g2, g3, g4⟩ := ih (fun y hy => hx y (by simp [hy])) (fun hs => next (d :: hs)) h2
    refine ⟨d :: hs, log₂, h1.trans g1, g2, h3.trans g3, .cons (g3.mem h4) g4⟩

/-! ## Draws that must not happen -/

section
variable (bad : Log → Bytes → Arr 32 → Prop) (H : Hash)

/-- At some time something is drawn that must not be. -/
def Hits (D : Bytes → Prop) [DecidablePred D] (bad : Log → Bytes → Arr 32 → Prop) (H : Hash) (ω : ℕ → Arr 32) : Asker α → Log → Prop
  | .done _, _ => False
  | .ask q next, log =>
    if D q then
      match log.find q with
      | some d => Hits D bad H ω (next d) log
      | none => bad log q (ω log.length) ∨ Hits D bad H ω (next (ω log.length)) (log ++ [(q, ω log.length)])
    else Hits D bad H ω (next (H q)) log

theorem hits_congr {ω ω' : ℕ → Arr 32} {p : Asker α} {log : Log} (h : ∀ i, log.length ≤ i → ω i = ω' i) :
    Hits D bad H ω p log ↔ Hits D bad H ω' p log := by
  induction p generalizing log with
  | done a => exact Iff.rfl
  | ask q next ih =>
    unfold Hits
    split
    · split
      · exact ih _ h
      · rw [h _ le_rfl]
        refine or_congr Iff.rfl (ih _ fun i hi => h i ?_)
        rw [List.length_append] at hi
        omega
    · exact ih _ h

theorem AsksAtMost.mono {post : α → Prop} {p : Asker α} {m m' : ℕ} (hm : m ≤ m') (h : AsksAtMost D post m p) :
    AsksAtMost D post m' p := by
  induction p generalizing m m' with
  | done a => exact h
  | ask q next ih =>
    unfold AsksAtMost at h ⊢
    split at h
    · rename_i hq
      rw [if_pos hq]
      obtain ⟨m₁, rfl, h⟩ := h
      obtain ⟨m₂, rfl⟩ : ∃ m₂, m' = m₂ + 1 := ⟨m' - 1, by omega⟩
      exact ⟨m₂, rfl, fun a => ih a (by omega) (h a)⟩
    · rename_i hq
      rw [if_neg hq]
      exact fun a => ih a hm (h a)

theorem AsksAtMost.bind {post : α → Prop} {post' : β → Prop} {p : Asker α} {f : α → Asker β} {m k : ℕ}
    (h : AsksAtMost D post m p) (hf : ∀ a, post a → AsksAtMost D post' k (f a)) : AsksAtMost D post' (m + k) (p.bind f) := by
  induction p generalizing m with
  | done a => exact (hf a h).mono (Nat.le_add_left _ _)
  | ask q next ih =>
    rw [Asker.bind]
    unfold AsksAtMost at h ⊢
    split at h
    · rename_i hq
      rw [if_pos hq]
      obtain ⟨m₁, rfl, h⟩ := h
      exact ⟨m₁ + k, by omega, fun a => ih a (h a)⟩
    · rename_i hq
      rw [if_neg hq]
      exact fun a => ih a (h a)

theorem asks_askHashes {post : α → Prop} {m : ℕ} (xs : List Bytes) (hx : ∀ x ∈ xs, D x)
    {next : List (Arr 32) → Asker α} (h : ∀ hs, AsksAtMost D post m (next hs)) :
    AsksAtMost D post (m + xs.length) (askHashes xs next) := by
  induction xs generalizing next with
  | nil => exact h []
  | cons x xs ih =>
    unfold askHashes AsksAtMost
    rw [if_pos (hx x (by simp))]
    exact ⟨m + xs.length, rfl, fun a => ih (fun y hy => hx y (by simp [hy])) fun hs => h _⟩

instance : Nonempty (Arr 32) := ⟨zeroSeed⟩

/-- The chance that something is drawn that must not be. -/
theorem chance_hits (c : ℕ → ℚ) (hc : ∀ l, 0 ≤ c l) (hbad : ∀ log q, Spec.chance (bad log q) ≤ c log.length) {post : α → Prop}
    {p : Asker α} {m : ℕ} (hp : AsksAtMost D post m p) (log : Log) :
    (Spec.chance fun ω : Fin m → Arr 32 => Hits D bad H (fun i => draws ω (i - log.length)) p log)
      ≤ ∑ t ∈ Finset.range m, c (log.length + t) := by
  have hnn : ∀ l m : ℕ, (0 : ℚ) ≤ ∑ t ∈ Finset.range m, c (l + t) := fun l m => Finset.sum_nonneg fun t _ => hc _
  induction p generalizing m log with
  | done a =>
    refine le_trans (le_of_eq ?_) (hnn _ _)
    unfold Spec.chance Hits
    simp
  | ask q next ih =>
    unfold AsksAtMost at hp
    split at hp
    · rename_i hq
      obtain ⟨m', rfl, hp⟩ := hp
      cases hf : log.find q with
      | some d =>
        have := ih (d) ((hp (d)).mono (Nat.le_succ m')) log
        refine le_trans (le_of_eq ?_) this
        congr 1
        funext ω
        rw [Hits, if_pos hq, hf]
      | none =>
        rw [← chance_equiv (Fin.consEquiv fun _ => Arr 32)]
        have hst : ∀ p : Arr 32 × (Fin m' → Arr 32),
            Hits D bad H (fun i => draws (Fin.consEquiv (fun _ => Arr 32) p) (i - log.length)) (.ask q next) log →
            bad log q p.1 ∨ Hits D bad H (fun i => draws p.2 (i - (log ++ [(q, p.1)]).length)) (next (p.1))
              (log ++ [(q, p.1)]) := by
          intro p h
          rw [Hits, if_pos hq, hf] at h
          have h0 : draws (Fin.consEquiv (fun _ => Arr 32) p) (log.length - log.length) = p.1 := by
            rw [Nat.sub_self]
            unfold draws
            rw [dif_pos (Nat.succ_pos _)]
            rfl
          simp only [h0] at h
          refine h.imp_right fun h => (hits_congr bad H ?_).1 h
          intro i hi
          rw [List.length_append, List.length_singleton] at hi ⊢
          unfold draws
          obtain ⟨d, rfl⟩ : ∃ d, i = log.length + 1 + d := ⟨i - (log.length + 1), by omega⟩
          have e1 : log.length + 1 + d - log.length = d + 1 := by omega
          have e2 : log.length + 1 + d - (log.length + 1) = d := by omega
          rw [e1, e2]
          by_cases hd : d < m'
          · rw [dif_pos (Nat.succ_lt_succ hd), dif_pos hd]
            rfl
          · rw [dif_neg hd, dif_neg (by omega)]
        refine (chance_mono hst).trans ((chance_or _ _).trans ?_)
        rw [Finset.sum_range_succ', add_comm]
        refine add_le_add ?_ ?_
        · refine chance_snd (fun (a : Arr 32) (ω : Fin m' → Arr 32) => Hits D bad H
            (fun i => draws ω (i - (log ++ [(q, a)]).length)) (next (a)) (log ++ [(q, a)])) _ (fun a => ?_) ?_
          · refine (ih (a) (hp (a)) (log ++ [(q, a)])).trans (le_of_eq ?_)
            refine Finset.sum_congr rfl fun t _ => ?_
            rw [List.length_append, List.length_singleton, show log.length + 1 + t = log.length + (t + 1) by omega]
          · exact Finset.sum_nonneg fun t _ => hc _
        · rw [chance_fst (bad log q)]
          exact hbad log q
    · rename_i hq
      refine le_trans (le_of_eq ?_) (ih (H q) (hp _) log)
      congr 1
      funext ω
      rw [Hits, if_neg hq]

/-- Nothing in the log is something that must not be drawn. -/
def Good (log : Log) : Prop := ∀ (t : ℕ) q d, log[t]? = some (q, d) → ¬ bad (log.take t) q d

theorem good_run {ω : ℕ → Arr 32} {p : Asker α} {log : Log} (hg : Good bad log) (h : ¬ Hits D bad H ω p log) :
    Good bad (p.run D H ω log).2 := by
  induction p generalizing log with
  | done a => exact hg
  | ask q next ih =>
    unfold Hits at h
    unfold run
    split at h
    · rename_i hq
      rw [if_pos hq]
      cases hf : log.find q with
      | some d =>
        rw [hf] at h
        exact ih _ hg h
      | none =>
        rw [hf] at h
        rw [not_or] at h
        refine ih _ ?_ h.2
        intro t q' d' ht
        by_cases hlt : t < log.length
        · rw [List.getElem?_append_left hlt] at ht
          rw [List.take_append_of_le_length hlt.le]
          exact hg t q' d' ht
        · obtain ⟨h1, h2⟩ := List.getElem?_eq_some_iff.1 ht
          have h3 : t = log.length := by
            rw [List.length_append, List.length_singleton] at h1
            omega
          subst h3
          rw [List.getElem?_concat_length] at ht
          cases ht
          rw [List.take_left]
          exact h.1
    · rename_i hq
      rw [if_neg hq]
      exact ih _ hg h

end


theorem run_drawn {H : Hash} {ω : ℕ → Arr 32} {P : Arr 32 → Prop} {M : ℕ} (hω : ∀ i < M, P (ω i)) {post : α → Prop} {p : Asker α}
    {m : ℕ} (h : AsksAtMost D post m p) {log : Log} (hl : log.length + m ≤ M) (hP : ∀ e ∈ log, P e.2) :
    ∀ e ∈ (p.run D H ω log).2, P e.2 := by
  induction p generalizing m log with
  | done a => exact hP
  | ask q next ih =>
    unfold AsksAtMost at h
    unfold run
    split at h
    · rename_i hq
      obtain ⟨m', rfl, h⟩ := h
      rw [if_pos hq]
      split
      · exact ih _ (h _) (by omega) hP
      · refine ih _ (h _) (by rw [List.length_append, List.length_singleton]; omega) fun e he => ?_
        rcases List.mem_append.1 he with he | he
        · exact hP e he
        · rw [List.mem_singleton.1 he]
          exact hω _ (by omega)
    · rename_i hq
      rw [if_neg hq]
      exact ih _ (h _) hl hP

end Verif.Asker
