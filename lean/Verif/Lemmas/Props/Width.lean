import Verif.Lemmas.Width
import Verif.Lemmas.Deterministic
import Verif.Lemmas.Reachable
import Verif.Spec.Width

/-!
# Helpers for `Props.Width`
-/

namespace Verif

theorem tweakField_iff (hd : UInt8) (tw : Bytes) : Spec.TweakField hd tw ↔ ∃ u, TweakField hd tw u := by
  have h68 := (C68_parsers_accept tw).2.1
  constructor
  · rintro (⟨h, rfl⟩ | ⟨h, hl, h0, h1⟩)
    · exact ⟨none, h, rfl⟩
    · obtain ⟨s, hs⟩ := h68.2 ⟨hl, h0, h1⟩
      exact ⟨some s, h, parseScalar_eq_some.1 hs⟩
  · rintro ⟨u, hu⟩
    cases u with
    | none => exact Or.inl hu
    | some s =>
      obtain ⟨h, hs⟩ := hu
      obtain ⟨hl, h0, h1⟩ := h68.1 ⟨s, parseScalar_eq_some.2 hs⟩
      exact Or.inr ⟨h, hl, h0, h1⟩

theorem wrappedCount_lt (len : ℕ) : Spec.wrappedCount len < 2 ^ 32 := Nat.mod_lt _ (by norm_num)

theorem wrappedCount_mul (len : ℕ) (h : len < 2 ^ 32) : Spec.wrappedCount len * 33 % 2 ^ 32 = len := by
  unfold Spec.wrappedCount
  omega

theorem count_lt (cnt : Bytes) (hc : cnt.length = 4) : beNat cnt < 2 ^ 32 := by
  have := beNat_lt cnt
  rw [hc] at this
  omega

/-! ## Extra inputs -/

theorem sumLensOn_fits {ε : Type} (t : Target) (l : List Bytes) (acc : ℕ)
    (h : acc + (l.map List.length).sum < 2 ^ t.bits) :
    (sumLensOn t l acc : Res ε ℕ) = .ok (acc + (l.map List.length).sum) := by
  induction l generalizing acc with
  | nil => rfl
  | cons b l ih =>
    simp only [List.map_cons, List.sum_cons] at h ⊢
    rw [sumLensOn, Target.usize_fits (by omega), Res.bind_ok, ih _ (by omega), Nat.add_assoc]

theorem sumLensOn_wraps {ε : Type} (t : Target) (ht : t.overflowChecks = false) (l : List Bytes) (acc : ℕ)
    (ha : acc < 2 ^ t.bits) :
    (sumLensOn t l acc : Res ε ℕ) = .ok ((acc + (l.map List.length).sum) % 2 ^ t.bits) := by
  induction l generalizing acc with
  | nil => simp [sumLensOn, Nat.mod_eq_of_lt ha]
  | cons b l ih =>
    simp only [List.map_cons, List.sum_cons]
    rw [sumLensOn, Target.usize_wraps ht, Res.bind_ok, ih _ (Nat.mod_lt _ (by positivity)), Nat.mod_add_mod,
      Nat.add_assoc]

theorem sumLensOn_checked {ε : Type} (t : Target) (ht : t.overflowChecks = true) (l : List Bytes) (acc : ℕ)
    (ha : acc < 2 ^ t.bits) (h : 2 ^ t.bits ≤ acc + (l.map List.length).sum) :
    (sumLensOn t l acc : Res ε ℕ) = .panic := by
  induction l generalizing acc with
  | nil => simp at h; omega
  | cons b l ih =>
    simp only [List.map_cons, List.sum_cons] at h
    rw [sumLensOn]
    by_cases hb : acc + b.length < 2 ^ t.bits
    · rw [Target.usize_fits hb, Res.bind_ok, ih _ hb (by omega)]
    · rw [Target.usize_checked (by omega) ht, Res.bind_panic]

theorem withExtraInputOn_eq {ε : Type} (t : Target) (b : SecNonceBuilder) (x : Bytes) :
    (b.withExtraInputOn t x : Res ε SecNonceBuilder)
      = ((sumLensOn t (b.extraInputs ++ [x]) 0 >>= fun n => Res.assert (decide (n ≤ 4294967295))) >>= fun _ =>
          .ok { b with extraInputs := b.extraInputs ++ [x] }) := rfl

end Verif
