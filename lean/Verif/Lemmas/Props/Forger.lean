import Verif.Spec.Forger
import Verif.Lemmas.ForkingCount
import Verif.Lemmas.Props.Uniform
import Verif.Lemmas.Sgn

/-!
# Helpers of `Props/Forger`
-/

namespace Verif

namespace Forger

/-- The answers in a log are the first ones of the sequence, to different strings. -/
structure GoodLog (ω : ℕ → Arr 32) (log : Log) : Prop where
  ans : ∀ i e, log[i]? = some e → e.2 = ω i
  nodup : (log.map (·.1)).Nodup

theorem Log.find_eq_none {log : Log} {x : Bytes} : log.find x = none ↔ x ∉ log.map (·.1) := by
  unfold Log.find
  simp only [Option.map_eq_none_iff, List.find?_eq_none, decide_eq_true_eq, List.mem_map, not_exists, not_and]

theorem GoodLog.nil (ω : ℕ → Arr 32) : GoodLog ω [] := ⟨by simp, by simp⟩

theorem GoodLog.add {ω : ℕ → Arr 32} {log : Log} (h : GoodLog ω log) (x : Bytes) : GoodLog ω (log.add ω x) := by
  unfold Log.add
  cases hx : log.find x with
  | some _ => exact h
  | none =>
    rw [Log.find_eq_none] at hx
    refine ⟨fun i e hi => ?_, ?_⟩
    · by_cases hlt : i < log.length
      · rw [List.getElem?_append_left hlt] at hi
        exact h.ans i e hi
      · rw [List.getElem?_append_right (by omega), List.getElem?_singleton] at hi
        split at hi
        · rename_i h0
          cases hi
          have : i = log.length := by omega
          rw [this]
        · cases hi
    · rw [List.map_append, List.nodup_append]
      refine ⟨h.nodup, by simp, ?_⟩
      intro a ha b hb
      simp only [List.map_cons, List.map_nil, List.mem_singleton] at hb
      subst hb
      exact fun e => hx (e ▸ ha)

theorem Log.add_prefix (ω : ℕ → Arr 32) (log : Log) (x : Bytes) : log <+: log.add ω x := by
  unfold Log.add
  cases log.find x with
  | some _ => exact List.prefix_rfl
  | none => exact List.prefix_append _ _

theorem Log.mem_add (ω : ℕ → Arr 32) (log : Log) (x : Bytes) : x ∈ (log.add ω x).map (·.1) := by
  unfold Log.add
  cases h : log.find x with
  | some _ =>
    by_contra hn
    rw [← Log.find_eq_none, h] at hn
    cases hn
  | none => simp

theorem Log.add_length (ω : ℕ → Arr 32) (log : Log) (x : Bytes) : (log.add ω x).length ≤ log.length + 1 := by
  unfold Log.add
  cases h : log.find x <;> simp

theorem run_prefix (H : Hash) (P : Point) (ω : ℕ → Arr 32) (A : Forger) (log : Log) : log <+: (A.run H P ω log).log := by
  induction A generalizing log with
  | submit msg sig => exact Log.add_prefix _ _ _
  | ask x next ih =>
    unfold run
    split
    · exact (Log.add_prefix ω log x).trans (ih _ _)
    · exact ih _ _

theorem run_good (H : Hash) (P : Point) (ω : ℕ → Arr 32) (A : Forger) (log : Log) (h : GoodLog ω log) :
    GoodLog ω (A.run H P ω log).log := by
  induction A generalizing log with
  | submit msg sig => exact h.add _
  | ask x next ih =>
    unfold run
    split
    · exact ih _ _ (h.add x)
    · exact ih _ _ h

theorem run_mem (H : Hash) (P : Point) (ω : ℕ → Arr 32) (A : Forger) (log : Log) :
    Spec.challengeQuery (A.run H P ω log).sig.rx.1 P (A.run H P ω log).msg ∈ (A.run H P ω log).log.map (·.1) := by
  induction A generalizing log with
  | submit msg sig => exact Log.mem_add _ _ _
  | ask x next ih =>
    unfold run
    split
    · exact ih _ _
    · exact ih _ _

theorem run_length (H : Hash) (P : Point) (ω : ℕ → Arr 32) {q : ℕ} {A : Forger} (hA : AsksAtMost q A) (log : Log) :
    (A.run H P ω log).log.length ≤ log.length + q + 1 := by
  induction hA generalizing log with
  | submit q msg sig =>
    have := Log.add_length ω log (Spec.challengeQuery sig.rx.1 P msg)
    change (log.add ω _).length ≤ _
    omega
  | ask q x next h ih =>
    have h1 := ih (log.answer ω x) (log.add ω x)
    have h2 := Log.add_length ω log x
    unfold run
    split
    · omega
    · have := ih (H x) log
      omega
  | other q x next hx h ih =>
    unfold run
    rw [if_neg hx]
    exact ih _ _

theorem Log.find_congr {ω ω' : ℕ → Arr 32} {log : Log} {x : Bytes} {j : ℕ} (hj : log.length < j)
    (hω : ∀ i < j, ω i = ω' i) : log.add ω x = log.add ω' x ∧ log.answer ω x = log.answer ω' x := by
  unfold Log.add Log.answer
  rw [hω _ hj]
  exact ⟨rfl, rfl⟩

theorem getElem?_of_prefix {α : Type} {l l' : List α} (h : l <+: l') {i : ℕ} (hi : i < l.length) : l'[i]? = l[i]? := by
  obtain ⟨t, rfl⟩ := h
  exact List.getElem?_append_left hi

theorem add_getElem {log : Log} {x : Bytes} {j : ℕ} (hx : log.find x = none) (hj : log.length = j) (ω : ℕ → Arr 32)
    {l : Log} (hp : log.add ω x <+: l) : l[j]?.map (·.1) = some x := by
  unfold Log.add at hp
  rw [hx] at hp
  simp only at hp
  rw [getElem?_of_prefix hp (by simp [hj]), ← hj]
  simp

theorem add_same {ω ω' : ℕ → Arr 32} {log : Log} {x : Bytes} {j : ℕ} (hl : log.length ≤ j) (hω : ∀ i < j, ω i = ω' i)
    (hx : log.find x ≠ none ∨ log.length < j) :
    log.add ω x = log.add ω' x ∧ log.answer ω x = log.answer ω' x ∧ (log.add ω' x).length ≤ j := by
  rcases hx with hx | hx
  · obtain ⟨a, ha⟩ := Option.ne_none_iff_exists'.1 hx
    unfold Log.add Log.answer
    rw [ha]
    exact ⟨rfl, rfl, hl⟩
  · obtain ⟨h1, h2⟩ := Log.find_congr (x := x) hx hω
    exact ⟨h1, h2, (Log.add_length ω' log x).trans hx⟩

/-- The string asked at an index depends only on the answers before it. -/
theorem run_causal (H : Hash) (P : Point) (ω ω' : ℕ → Arr 32) (j : ℕ) (hω : ∀ i < j, ω i = ω' i) (A : Forger) (log : Log)
    (hl : log.length ≤ j) :
    (A.run H P ω log).log[j]?.map (·.1) = (A.run H P ω' log).log[j]?.map (·.1) := by
  induction A generalizing log with
  | submit msg sig =>
    change (log.add ω _)[j]?.map _ = (log.add ω' _)[j]?.map _
    by_cases h : log.find (Spec.challengeQuery sig.rx.1 P msg) ≠ none ∨ log.length < j
    · rw [(add_same hl hω h).1]
    · rw [not_or, not_not] at h
      rw [add_getElem h.1 (by omega) ω List.prefix_rfl, add_getElem h.1 (by omega) ω' List.prefix_rfl]
  | ask x next ih =>
    unfold run
    by_cases hx : Drawn x
    swap
    · rw [if_neg hx, if_neg hx]
      exact ih _ _ hl
    rw [if_pos hx, if_pos hx]
    by_cases h : log.find x ≠ none ∨ log.length < j
    · obtain ⟨h1, h2, h3⟩ := add_same hl hω h
      rw [h1, h2]
      exact ih _ _ h3
    · rw [not_or, not_not] at h
      rw [add_getElem h.1 (by omega) ω (run_prefix _ _ _ _ _), add_getElem h.1 (by omega) ω' (run_prefix _ _ _ _ _)]

theorem challengeIndex_lt (H : Hash) (P : Point) (ω : ℕ → Arr 32) (A : Forger) (log : Log) :
    challengeIndex P (A.run H P ω log) < (A.run H P ω log).log.length := by
  unfold challengeIndex
  rw [List.findIdx_lt_length]
  obtain ⟨e, he, hx⟩ := List.mem_map.1 (run_mem H P ω A log)
  exact ⟨e, he, by simpa using hx⟩

/-- What stands in the log at the index of the challenge. -/
theorem log_challenge (H : Hash) (P : Point) (ω : ℕ → Arr 32) (A : Forger) :
    (A.run H P ω []).log[challengeIndex P (A.run H P ω [])]?
      = some (Spec.challengeQuery (A.run H P ω []).sig.rx.1 P (A.run H P ω []).msg, ω (challengeIndex P (A.run H P ω []))) := by
  have hlt := challengeIndex_lt H P ω A []
  have hk : ((A.run H P ω []).log[challengeIndex P (A.run H P ω [])]).1
      = Spec.challengeQuery (A.run H P ω []).sig.rx.1 P (A.run H P ω []).msg := by
    have := List.findIdx_getElem (w := hlt)
    exact of_decide_eq_true this
  rw [List.getElem?_eq_getElem hlt]
  have ha := (run_good H P ω A [] (GoodLog.nil ω)).ans _ _ (List.getElem?_eq_getElem hlt)
  rw [← hk, ← ha]

theorem find_of_getElem {log : Log} {i : ℕ} {x : Bytes} {a : Arr 32} (hn : (log.map (·.1)).Nodup)
    (h : log[i]? = some (x, a)) : log.find x = some a := by
  induction log generalizing i with
  | nil => simp at h
  | cons e log ih =>
    rw [List.map_cons, List.nodup_cons] at hn
    unfold Log.find
    cases i with
    | zero =>
      simp only [List.getElem?_cons_zero, Option.some.injEq] at h
      subst h
      simp
    | succ i =>
      rw [List.getElem?_cons_succ] at h
      have hne : e.1 ≠ x := by
        intro he
        apply hn.1
        rw [he]
        exact List.mem_map.2 ⟨_, List.mem_of_getElem? h, rfl⟩
      rw [List.find?_cons_of_neg (by simpa using hne)]
      exact ih hn.2 h

/-- The challenge of the forgery is the answer at its index. -/
theorem challenge_run (H : Hash) (P : Point) (ω : ℕ → Arr 32) (A : Forger) :
    computeChallengeHashTweak ((A.run H P ω []).log.hash H) (A.run H P ω []).sig.rx P (A.run H P ω []).msg
      = reduceFrom (ω (challengeIndex P (A.run H P ω []))) := by
  rw [(C66_what_is_hashed _).2.2.2.1]
  congr 1
  have := find_of_getElem (run_good H P ω A [] (GoodLog.nil ω)).nodup (log_challenge H P ω A)
  unfold Log.hash
  change (Log.find _ (Spec.challengeQuery _ _ _)).getD _ = _
  rw [this]
  rfl

theorem challengeQuery_inj {rx rx' : Arr 32} {P : Point} {msg msg' : Bytes}
    (h : Spec.challengeQuery rx.1 P msg = Spec.challengeQuery rx'.1 P msg') : rx = rx' ∧ msg = msg' := by
  unfold Spec.challengeQuery Spec.taggedInput at h
  have h1 := List.append_cancel_left h
  rw [List.append_assoc, List.append_assoc] at h1
  obtain ⟨h2, h3⟩ := List.append_inj h1 (rx.2.trans rx'.2.symm)
  exact ⟨Subtype.ext h2, List.append_cancel_left h3⟩

/-- Two accepted forgeries whose challenges were asked at the same index, of runs with the same answers before it,
reveal the secret key. -/
theorem extract_of_fork (H : Hash) (P : Point) (A : Forger) (ω ω' : ℕ → Arr 32)
    (hj : challengeIndex P (A.run H P ω []) = challengeIndex P (A.run H P ω' []))
    (hω : ∀ i < challengeIndex P (A.run H P ω []), ω i = ω' i)
    (h : verifySingle ((A.run H P ω []).log.hash H) P (A.run H P ω []).sig (A.run H P ω []).msg = .ok ())
    (h' : verifySingle ((A.run H P ω' []).log.hash H) P (A.run H P ω' []).sig (A.run H P ω' []).msg = .ok ())
    (hne : reduceFrom (ω (challengeIndex P (A.run H P ω []))) ≠ reduceFrom (ω' (challengeIndex P (A.run H P ω [])))) :
    (Spec.sgn P.1 * ((A.run H P ω []).sig.s - (A.run H P ω' []).sig.s)
      / (reduceFrom (ω (challengeIndex P (A.run H P ω []))) - reduceFrom (ω' (challengeIndex P (A.run H P ω []))))) • G = P.1 := by
  have hq := run_causal H P ω ω' _ hω A [] (Nat.zero_le _)
  rw [log_challenge, hj, log_challenge] at hq
  simp only [Option.map_some, Option.some.injEq] at hq
  obtain ⟨hrx, -⟩ := challengeQuery_inj hq
  rw [verifySingle_eq_ok, challenge_run] at h h'
  obtain ⟨V, h1, h2, h3⟩ := h
  obtain ⟨V', h1', h2', h3'⟩ := h'
  have hV : V.1 = V'.1 := eq_of_xonly_isOdd (by rw [h3, h3', hrx]) (h2.trans h2'.symm)
  rw [← hj] at h1'
  rw [hV] at h1
  generalize reduceFrom (ω (challengeIndex P (A.run H P ω []))) = e at *
  generalize reduceFrom (ω' (challengeIndex P (A.run H P ω []))) = e' at *
  have hd : e - e' ≠ 0 := sub_ne_zero.2 hne
  have key : ((A.run H P ω []).sig.s - (A.run H P ω' []).sig.s) • G = (e - e') • (toEvenY P).1 := by
    rw [sub_smul, h1, h1', sub_smul]
    abel
  have hP : (toEvenY P).1 = Spec.sgn P.1 • P.1 := by
    rw [sgn_smul]
    unfold toEvenY negIf
    split <;> rfl
  have hs : Spec.sgn P.1 * Spec.sgn P.1 = 1 := sgn_mul_sgn P.1
  rw [div_eq_inv_mul, mul_smul, mul_smul, key, hP, smul_smul (Spec.sgn P.1), smul_smul (Spec.sgn P.1 * _), smul_smul]
  have : (e - e')⁻¹ * (Spec.sgn P.1 * (e - e') * Spec.sgn P.1) = 1 := by
    rw [mul_comm (Spec.sgn P.1) (e - e'), mul_assoc, hs, mul_one, inv_mul_cancel₀ hd]
  rw [this, one_smul]

/-- The index of the challenge, if the forgery is accepted. -/
noncomputable def forkIndex {q : ℕ} (H : Hash) (P : Point) (A : Forger) (ω : Fin q → Arr 32) : Option (Fin q) :=
  open Classical in
  if h : A.Forges H P ω ∧ challengeIndex P (A.run H P (answers ω) []) < q then some ⟨_, h.2⟩ else none

theorem forkIndex_ne_none {q : ℕ} {H : Hash} {P : Point} {A : Forger} (hA : AsksAtMost q A) (ω : Fin (q + 1) → Arr 32) :
    forkIndex H P A ω ≠ none ↔ A.Forges H P ω := by
  unfold forkIndex
  constructor
  · intro h
    by_contra hn
    exact h (dif_neg fun x => hn x.1)
  · intro h
    have h1 := challengeIndex_lt H P (answers ω) A []
    have h2 := run_length H P (answers ω) hA []
    rw [dif_pos ⟨h, by simp only [List.length_nil] at h2; omega⟩]
    exact Option.some_ne_none _

theorem forkIndex_eq_some {q : ℕ} {H : Hash} {P : Point} {A : Forger} {ω : Fin q → Arr 32} {j : Fin q}
    (h : forkIndex H P A ω = some j) : A.Forges H P ω ∧ challengeIndex P (A.run H P (answers ω) []) = j.1 := by
  unfold forkIndex at h
  split at h
  · rename_i hh
    cases h
    exact ⟨hh.1, rfl⟩
  · cases h

theorem answers_of_lt {q : ℕ} (ω : Fin q → Arr 32) (j : Fin q) : answers ω j.1 = ω j := dif_pos j.2

theorem rewind_eq_splice {q : ℕ} (j : Fin q) (ω ω' : Fin q → Arr 32) : rewind j.1 ω ω' = splice j ω ω' := rfl

theorem extract_of_indices {q : ℕ} {H : Hash} {P : Point} {A : Forger} {ω ω' : Fin q → Arr 32} {j : Fin q}
    (h : forkIndex H P A ω = some j) (h' : forkIndex H P A (splice j ω ω') = some j)
    (hne : reduceFrom (ω j) ≠ reduceFrom (ω' j)) : A.extract H P ω ω' • G = P.1 := by
  obtain ⟨hf, hj⟩ := forkIndex_eq_some h
  obtain ⟨hf', hj'⟩ := forkIndex_eq_some h'
  have key := extract_of_fork H P A (answers ω) (answers (splice j ω ω')) (hj.trans hj'.symm) ?_ hf hf' ?_
  · unfold extract
    simp only
    rw [hj, rewind_eq_splice]
    rw [hj, answers_of_lt, answers_of_lt, splice_self] at key
    rw [answers_of_lt, answers_of_lt]
    exact key
  · intro i hi
    rw [hj] at hi
    have hq := hi.trans j.2
    unfold answers
    rw [dif_pos hq, dif_pos hq]
    exact (if_pos (show (⟨i, hq⟩ : Fin q) < j from hi)).symm
  · rw [hj, answers_of_lt, answers_of_lt, splice_self]
    exact hne

end Forger

end Verif
