import Verif.Model.Deterministic
import Verif.Spec.Rfc6979
import Verif.Props.Encoding

/-!
# Lemmas about the RFC 6979 candidate loop
-/

namespace Verif

theorem zipWith_xor_replicate (c : UInt8) : ∀ (l : Bytes) (n : ℕ), l.length = n →
    List.zipWith (· ^^^ ·) l (List.replicate n c) = l.map (· ^^^ c)
  | [], _, h => by subst h; rfl
  | _ :: l, _, h => by
    subst h
    simp [List.replicate_succ, zipWith_xor_replicate c l l.length rfl]

/-- `hmac_sha256` is HMAC of RFC 2104. -/
theorem spec_hmac (H : Hash) (K : Arr 32) (m : Bytes) : Spec.hmac H K.1 m = hmac H K m := by
  unfold Spec.hmac hmac
  have h : ¬ K.1.length > 64 := by rw [K.2]; decide
  simp only [if_neg h]
  have h2 : 64 - K.1.length = 32 := by rw [K.2]
  rw [h2, zipWith_xor_replicate _ _ 64 (by simp [K.2]), zipWith_xor_replicate _ _ 64 (by simp [K.2])]

theorem spec_candidate (H : Hash) (s : Spec.DrbgState) : Spec.drbgCandidate H s = hmac H s.K s.V.1 := spec_hmac H _ _

theorem spec_retry (H : Hash) (K V : Arr 32) : Spec.drbgRetry H ⟨K, V⟩
    = ⟨hmac H K ((hmac H K V.1).1 ++ [0]), hmac H (hmac H K ((hmac H K V.1).1 ++ [0])) (hmac H K V.1).1⟩ := by
  simp only [Spec.drbgRetry, spec_candidate, spec_hmac]

theorem candidate_zero (H : Hash) (K V : Arr 32) : Spec.candidate H ⟨K, V⟩ 0 = beNat (hmac H K V.1).1 := by
  unfold Spec.candidate
  rw [Function.iterate_zero, id, spec_candidate]

theorem candidate_succ (H : Hash) (K V : Arr 32) (i : ℕ) : Spec.candidate H ⟨K, V⟩ (i + 1) = Spec.candidate H
    ⟨hmac H K ((hmac H K V.1).1 ++ [0]), hmac H (hmac H K ((hmac H K V.1).1 ++ [0])) (hmac H K V.1).1⟩ i := by
  unfold Spec.candidate
  rw [Function.iterate_succ_apply, spec_retry]

theorem parseScalar_eq_none {b : Arr 32} : parseScalar b.1 = none ↔ ¬ (0 < beNat b.1 ∧ beNat b.1 < orderN) := by
  have h := (C68_parsers_accept b.1).2.1
  rw [← not_iff_not, not_not]
  constructor
  · intro hn
    obtain ⟨s, hs⟩ := Option.ne_none_iff_exists'.1 hn
    exact (h.1 ⟨s, hs⟩).2
  · intro hb he
    obtain ⟨s, hs⟩ := h.2 ⟨b.2, hb⟩
    rw [he] at hs
    cases hs

theorem parseScalar_val {b : Bytes} {k : Scalar} (h : parseScalar b = some k) : beNat b = k.1.val := by
  rw [parseScalar_eq_some.1 h, beNat_serScalar]

theorem scalar_val_pos (k : Scalar) : 0 < k.1.val ∧ k.1.val < orderN := by
  refine ⟨Nat.pos_of_ne_zero fun h => k.2 ?_, ZMod.val_lt _⟩
  exact (ZMod.val_eq_zero _).1 h

theorem firstValid_unique {H : Hash} {st : Spec.DrbgState} {k k' : ℕ} (h : Spec.FirstValid H st k)
    (h' : Spec.FirstValid H st k') : k = k' := by
  obtain ⟨i, e, p, q, m⟩ := h
  obtain ⟨i', e', p', q', m'⟩ := h'
  rcases Nat.lt_trichotomy i i' with hlt | rfl | hlt
  · exact absurd ⟨e ▸ p, e ▸ q⟩ (m' i hlt)
  · rw [e, e']
  · exact absurd ⟨e' ▸ p', e' ▸ q'⟩ (m i' hlt)

theorem loop_sound (H : Hash) : ∀ (K V : Arr 32) (k : Scalar), rfc6979Loop H K V = some k →
    Spec.FirstValid H ⟨K, V⟩ k.1.val := by
  refine rfc6979Loop.partial_correctness H (fun K V k => Spec.FirstValid H ⟨K, V⟩ k.1.val) ?_
  intro f ih K V k h
  simp only at h
  cases hp : parseScalar (hmac H K V.1).1 with
  | some k' =>
    rw [hp] at h
    cases h
    refine ⟨0, by rw [candidate_zero, parseScalar_val hp], (scalar_val_pos k).1, (scalar_val_pos k).2, fun j hj => absurd hj (by omega)⟩
  | none =>
    rw [hp] at h
    obtain ⟨i, e, p, q, m⟩ := ih _ _ _ h
    refine ⟨i + 1, by rw [candidate_succ]; exact e, p, q, fun j hj => ?_⟩
    cases j with
    | zero => rw [candidate_zero]; exact parseScalar_eq_none.1 hp
    | succ j => rw [candidate_succ]; exact m j (by omega)

theorem loop_complete (H : Hash) : ∀ (i : ℕ) (K V : Arr 32) (k : ℕ),
    k = Spec.candidate H ⟨K, V⟩ i → 0 < k → k < orderN →
    (∀ j < i, ¬ (0 < Spec.candidate H ⟨K, V⟩ j ∧ Spec.candidate H ⟨K, V⟩ j < orderN)) →
    ∃ s : Scalar, rfc6979Loop H K V = some s ∧ s.1.val = k
  | 0, K, V, k, e, p, q, _ => by
    rw [rfc6979Loop]
    simp only
    cases hp : parseScalar (hmac H K V.1).1 with
    | some s => exact ⟨s, rfl, by rw [e, candidate_zero]; exact (parseScalar_val hp).symm⟩
    | none =>
      rw [e, candidate_zero] at p q
      exact absurd ⟨p, q⟩ (parseScalar_eq_none.1 hp)
  | i + 1, K, V, k, e, p, q, m => by
    rw [rfc6979Loop]
    simp only
    have h0 : parseScalar (hmac H K V.1).1 = none :=
      parseScalar_eq_none.2 (by rw [← candidate_zero]; exact m 0 (by omega))
    rw [h0]
    exact loop_complete H i _ _ k (by rw [e, candidate_succ]) p q fun j hj => by
      rw [← candidate_succ]; exact m (j + 1) (by omega)

theorem loop_iff (H : Hash) (K V : Arr 32) (k : Scalar) :
    rfc6979Loop H K V = some k ↔ Spec.FirstValid H ⟨K, V⟩ k.1.val := by
  constructor
  · exact loop_sound H K V k
  · intro h
    obtain ⟨i, e, p, q, m⟩ := h
    obtain ⟨s, hs, hv⟩ := loop_complete H i K V _ e p q m
    rw [hs, Option.some.injEq]
    exact Subtype.ext (ZMod.val_injective _ hv)

theorem derive_of_candidate {H : Hash} {sk : Scalar} {msg : Bytes} {k : ℕ}
    (h : (serScalar (k : MaybeScalar)).1
      = (hmac H (rfc6979Init H sk msg).1 (rfc6979Init H sk msg).2.1).1) (hk : (k : MaybeScalar) ≠ 0) :
    deriveNonceRfc6979 H sk msg = some ⟨k, hk⟩ := by
  unfold deriveNonceRfc6979
  rw [rfc6979Loop]
  simp only
  rw [← h, parseScalar_ser ⟨(k : MaybeScalar), hk⟩]

end Verif
