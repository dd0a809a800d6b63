import Verif.Lemmas.Props.Order
import Verif.Lemmas.Reachable

/-!
# Property C138: the order of nonces
-/

namespace Verif

/-- **C138**. Public nonces are ordered as the 66 bytes BIP327 writes them as, and are equal only if they are the same. -/
theorem C138_pubnonce_order (a b : PubNonce) :
    (a.cmp b = .lt ↔ Spec.cbytes a.R1.1 ++ Spec.cbytes a.R2.1 < Spec.cbytes b.R1.1 ++ Spec.cbytes b.R2.1) ∧
    (a.cmp b = .gt ↔ Spec.cbytes b.R1.1 ++ Spec.cbytes b.R2.1 < Spec.cbytes a.R1.1 ++ Spec.cbytes a.R2.1) ∧
    (a.cmp b = .eq ↔ a = b) := by
  simp only [PubNonce.cmp_eq, spec_cbytes_point]
  refine ⟨(cmpBytes_iff _ _).1, (cmpBytes_iff _ _).2.2, (cmpBytes_iff _ _).2.1.trans ⟨fun h => ?_, fun h => by rw [h]⟩⟩
  obtain ⟨h1, h2⟩ := serPoint_pair_inj h
  cases a; cases b
  simp only [PubNonce.mk.injEq]
  exact ⟨Subtype.ext h1, Subtype.ext h2⟩

/-- **C138**. So are aggregated nonces, with the 33 zero bytes of the point at infinity coming first. -/
theorem C138_aggnonce_order (a b : AggNonce) :
    (a.cmp b = .lt ↔
      Spec.cbytes_ext a.R1 ++ Spec.cbytes_ext a.R2 < Spec.cbytes_ext b.R1 ++ Spec.cbytes_ext b.R2) ∧
    (a.cmp b = .gt ↔
      Spec.cbytes_ext b.R1 ++ Spec.cbytes_ext b.R2 < Spec.cbytes_ext a.R1 ++ Spec.cbytes_ext a.R2) ∧
    (a.cmp b = .eq ↔ a = b) := by
  simp only [AggNonce.cmp_eq, spec_cbytes_ext]
  refine ⟨(cmpBytes_iff _ _).1, (cmpBytes_iff _ _).2.2, (cmpBytes_iff _ _).2.1.trans ⟨fun h => ?_, fun h => by rw [h]⟩⟩
  obtain ⟨h1, h2⟩ := serPoint_pair_inj h
  cases a; cases b
  simp only [AggNonce.mk.injEq]
  exact ⟨h1, h2⟩

/-- **C138**. Sorting public nonces gives the same list for every order they are given in, with the same aggregated
nonce. -/
theorem C138_sorted {l1 l2 : List PubNonce} (h : l1.Perm l2) :
    l1.mergeSort (fun a b => a.cmp b != .gt) = l2.mergeSort (fun a b => a.cmp b != .gt) ∧
    (l1.mergeSort fun a b => a.cmp b != .gt).Pairwise (fun a b =>
      Spec.cbytes a.R1.1 ++ Spec.cbytes a.R2.1 ≤ Spec.cbytes b.R1.1 ++ Spec.cbytes b.R2.1) ∧
    AggNonce.sum (l1.mergeSort fun a b => a.cmp b != .gt) = AggNonce.sum l2 := by
  have hk : Function.Injective fun a : PubNonce => Spec.cbytes a.R1.1 ++ Spec.cbytes a.R2.1 := by
    intro a b hab
    simp only [spec_cbytes_point] at hab
    obtain ⟨h1, h2⟩ := serPoint_pair_inj hab
    cases a; cases b
    simp only [PubNonce.mk.injEq]
    exact ⟨Subtype.ext h1, Subtype.ext h2⟩
  obtain ⟨h1, h2⟩ := mergeSort_key_perm _ hk (fun a b : PubNonce => a.cmp b != .gt) (fun a b => by
    rw [bne_iff_ne, ne_eq, (C138_pubnonce_order a b).2.1]; exact List.not_lt) h
  refine ⟨h1, h2, ?_⟩
  have hp := (List.mergeSort_perm l1 fun a b => a.cmp b != .gt).trans h
  simp only [AggNonce.sum, AggNonce.mk.injEq]
  exact ⟨(((hp.map _).map _).map _).sum_eq, (((hp.map _).map _).map _).sum_eq⟩

/-- The generator comes before its negative, and the point at infinity before both. -/
example : (PubNonce.mk Gpt Gpt).cmp ⟨negGpt, Gpt⟩ = .lt ∧ (AggNonce.mk G 0).cmp ⟨G, G⟩ = .lt := by
  constructor
  · rw [PubNonce.cmp_eq, serPoint_negG, show (serPoint Gpt.1).1 = gBytes from serPoint_G]
    rfl
  · rw [AggNonce.cmp_eq, serPoint_G, serPoint_zero]
    decide +kernel

/-- Both orders of the two nonces are sorted to the same list. -/
example : [PubNonce.mk negGpt Gpt, ⟨Gpt, Gpt⟩].mergeSort (fun a b => a.cmp b != .gt) =
    [PubNonce.mk Gpt Gpt, ⟨negGpt, Gpt⟩].mergeSort (fun a b => a.cmp b != .gt) :=
  (C138_sorted (List.Perm.swap _ _ [])).1

end Verif
