import Verif.Model.Order
import Verif.Lemmas.Spec
import Verif.Lemmas.KeyAgg

/-!
# The derived orders and the order of the encodings
-/

namespace Verif

theorem cmpBytes_iff : ∀ a b : Bytes,
    (cmpBytes a b = .lt ↔ a < b) ∧ (cmpBytes a b = .eq ↔ a = b) ∧ (cmpBytes a b = .gt ↔ b < a)
  | [], [] => by simp [cmpBytes]
  | [], _ :: _ => by simp [cmpBytes]
  | _ :: _, [] => by simp [cmpBytes]
  | a :: as, b :: bs => by
    obtain ⟨h1, h2, h3⟩ := cmpBytes_iff as bs
    rw [cmpBytes, List.cons_lt_cons_iff, List.cons_lt_cons_iff, List.cons.injEq]
    by_cases hab : a < b
    · have h : ¬ b < a := fun h => absurd (UInt8.lt_trans hab h) (UInt8.lt_irrefl _)
      have he : a ≠ b := UInt8.ne_of_lt hab
      simp [hab, h, he, he.symm]
    · by_cases hba : b < a
      · have he : b ≠ a := UInt8.ne_of_lt hba
        simp [hab, hba, he, he.symm]
      · have he : a = b := UInt8.le_antisymm (UInt8.not_lt.1 hba) (UInt8.not_lt.1 hab)
        subst he
        simp [hab, h1, h2, h3]

theorem cmpBytes_append : ∀ {a a' : Bytes} (_ : a.length = a'.length) (b b' : Bytes),
    cmpBytes (a ++ b) (a' ++ b') = match cmpBytes a a' with
      | .eq => cmpBytes b b'
      | o => o
  | [], [], _, _, _ => by simp [cmpBytes]
  | [], _ :: _, h, _, _ => by simp at h
  | _ :: _, [], h, _, _ => by simp at h
  | x :: as, y :: bs, h, b, b' => by
    have ih := cmpBytes_append (a := as) (a' := bs) (by simpa using h) b b'
    simp only [List.cons_append, cmpBytes]
    split
    · rfl
    · split
      · rfl
      · exact ih

theorem MaybePoint.cmp_eq (P Q : MaybePoint) : MaybePoint.cmp P Q = cmpBytes (serPoint P).1 (serPoint Q).1 := by
  unfold MaybePoint.cmp notInf
  by_cases hP : P = 0
  · by_cases hQ : Q = 0
    · subst hP; subst hQ
      simp [((cmpBytes_iff _ _).2.1).2 rfl]
    · subst hP
      rw [serPoint_zero, serPoint_of_ne hQ]
      simp only [ne_eq, not_true_eq_false, dite_false, hQ, not_false_eq_true, dite_true]
      cases isOdd Q <;> rfl
  · by_cases hQ : Q = 0
    · subst hQ
      rw [serPoint_zero, serPoint_of_ne hP]
      simp only [ne_eq, not_true_eq_false, dite_false, hP, not_false_eq_true, dite_true]
      cases isOdd P <;> rfl
    · simp [hP, hQ, Point.cmp]

theorem PubNonce.cmp_eq (a b : PubNonce) :
    a.cmp b = cmpBytes ((serPoint a.R1.1).1 ++ (serPoint a.R2.1).1) ((serPoint b.R1.1).1 ++ (serPoint b.R2.1).1) := by
  rw [cmpBytes_append (by rw [(serPoint _).2, (serPoint _).2])]; rfl

theorem AggNonce.cmp_eq (a b : AggNonce) :
    a.cmp b = cmpBytes ((serPoint a.R1).1 ++ (serPoint a.R2).1) ((serPoint b.R1).1 ++ (serPoint b.R2).1) := by
  rw [cmpBytes_append (by rw [(serPoint _).2, (serPoint _).2]), ← MaybePoint.cmp_eq, ← MaybePoint.cmp_eq]; rfl

theorem serPoint_pair_inj {P P' Q Q' : MaybePoint}
    (h : (serPoint P).1 ++ (serPoint Q).1 = (serPoint P').1 ++ (serPoint Q').1) : P = P' ∧ Q = Q' := by
  obtain ⟨h1, h2⟩ := List.append_inj h (by rw [(serPoint _).2, (serPoint _).2])
  exact ⟨serPoint_injective (Subtype.ext h1), serPoint_injective (Subtype.ext h2)⟩

/-- Sorting by an injective key forgets the order. -/
theorem mergeSort_key_perm {α : Type} (key : α → Bytes) (hk : Function.Injective key) (le : α → α → Bool)
    (hle : ∀ a b, le a b = true ↔ key a ≤ key b) {l1 l2 : List α} (h : l1.Perm l2) :
    l1.mergeSort le = l2.mergeSort le ∧ (l1.mergeSort le).Pairwise fun a b => key a ≤ key b := by
  have htr : ∀ a b c : α, le a b = true → le b c = true → le a c = true := by
    intro a b c h1 h2
    rw [hle] at *
    exact List.le_trans h1 h2
  have htot : ∀ a b : α, (le a b || le b a) = true := by
    intro a b
    rw [Bool.or_eq_true, hle, hle]
    exact List.le_total _ _
  have hp : (l1.mergeSort le).Perm (l2.mergeSort le) :=
    ((List.mergeSort_perm l1 _).trans h).trans (List.mergeSort_perm l2 _).symm
  refine ⟨hp.eq_of_pairwise ?_ (List.pairwise_mergeSort htr htot l1) (List.pairwise_mergeSort htr htot l2),
    (List.pairwise_mergeSort htr htot l1).imp fun {a b} => (hle a b).1⟩
  intro a b _ _ h1 h2
  rw [hle] at h1 h2
  exact hk (List.le_antisymm h1 h2)

end Verif
