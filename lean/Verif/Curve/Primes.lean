import Verif.Curve.PowMod

/-!
# The two primes of secp256k1

Pratt certificates, checked by evaluation in the kernel. Supporting mathematics only.
-/

namespace Verif

theorem prime_13441 : Nat.Prime 13441 := by
  refine prime_of_pratt 13441 11 [2, 2, 2, 2, 2, 2, 2, 3, 5, 7] ?_ (by decide +kernel)
  simp only [List.mem_cons, List.not_mem_nil, or_false, forall_eq_or_imp, forall_eq]
  exact ⟨by norm_num, by norm_num, by norm_num, by norm_num, by norm_num, by norm_num, by norm_num, by norm_num, by norm_num, by norm_num⟩

theorem prime_96557 : Nat.Prime 96557 := by
  refine prime_of_pratt 96557 2 [2, 2, 101, 239] ?_ (by decide +kernel)
  simp only [List.mem_cons, List.not_mem_nil, or_false, forall_eq_or_imp, forall_eq]
  exact ⟨by norm_num, by norm_num, by norm_num, by norm_num⟩

theorem prime_20113 : Nat.Prime 20113 := by
  refine prime_of_pratt 20113 10 [2, 2, 2, 2, 3, 419] ?_ (by decide +kernel)
  simp only [List.mem_cons, List.not_mem_nil, or_false, forall_eq_or_imp, forall_eq]
  exact ⟨by norm_num, by norm_num, by norm_num, by norm_num, by norm_num, by norm_num⟩

theorem prime_1206781 : Nat.Prime 1206781 := by
  refine prime_of_pratt 1206781 10 [2, 2, 3, 5, 20113] ?_ (by decide +kernel)
  simp only [List.mem_cons, List.not_mem_nil, or_false, forall_eq_or_imp, forall_eq]
  exact ⟨by norm_num, by norm_num, by norm_num, by norm_num, prime_20113⟩

theorem prime_7240687 : Nat.Prime 7240687 := by
  refine prime_of_pratt 7240687 3 [2, 3, 1206781] ?_ (by decide +kernel)
  simp only [List.mem_cons, List.not_mem_nil, or_false, forall_eq_or_imp, forall_eq]
  exact ⟨by norm_num, by norm_num, prime_1206781⟩

theorem prime_41201 : Nat.Prime 41201 := by
  refine prime_of_pratt 41201 3 [2, 2, 2, 2, 5, 5, 103] ?_ (by decide +kernel)
  simp only [List.mem_cons, List.not_mem_nil, or_false, forall_eq_or_imp, forall_eq]
  exact ⟨by norm_num, by norm_num, by norm_num, by norm_num, by norm_num, by norm_num, by norm_num⟩

theorem prime_107590001 : Nat.Prime 107590001 := by
  refine prime_of_pratt 107590001 3 [2, 2, 2, 2, 5, 5, 5, 5, 7, 29, 53] ?_ (by decide +kernel)
  simp only [List.mem_cons, List.not_mem_nil, or_false, forall_eq_or_imp, forall_eq]
  exact ⟨by norm_num, by norm_num, by norm_num, by norm_num, by norm_num, by norm_num, by norm_num, by norm_num, by norm_num, by norm_num, by norm_num⟩

theorem prime_255515944373312847190720520512484175977 : Nat.Prime 255515944373312847190720520512484175977 := by
  refine prime_of_pratt 255515944373312847190720520512484175977 3 [2, 2, 2, 7, 7, 11, 1627, 2657, 4423, 41201, 96557, 7240687, 107590001] ?_ (by decide +kernel)
  simp only [List.mem_cons, List.not_mem_nil, or_false, forall_eq_or_imp, forall_eq]
  exact ⟨by norm_num, by norm_num, by norm_num, by norm_num, by norm_num, by norm_num, by norm_num, by norm_num, by norm_num, prime_41201, prime_96557, prime_7240687, prime_107590001⟩

theorem prime_7723 : Nat.Prime 7723 := by
  refine prime_of_pratt 7723 3 [2, 3, 3, 3, 11, 13] ?_ (by decide +kernel)
  simp only [List.mem_cons, List.not_mem_nil, or_false, forall_eq_or_imp, forall_eq]
  exact ⟨by norm_num, by norm_num, by norm_num, by norm_num, by norm_num, by norm_num⟩

theorem prime_24809 : Nat.Prime 24809 := by
  refine prime_of_pratt 24809 6 [2, 2, 2, 7, 443] ?_ (by decide +kernel)
  simp only [List.mem_cons, List.not_mem_nil, or_false, forall_eq_or_imp, forall_eq]
  exact ⟨by norm_num, by norm_num, by norm_num, by norm_num, by norm_num⟩

theorem prime_13331831 : Nat.Prime 13331831 := by
  refine prime_of_pratt 13331831 13 [2, 5, 971, 1373] ?_ (by decide +kernel)
  simp only [List.mem_cons, List.not_mem_nil, or_false, forall_eq_or_imp, forall_eq]
  exact ⟨by norm_num, by norm_num, by norm_num, by norm_num⟩

theorem prime_173378833005251801 : Nat.Prime 173378833005251801 := by
  refine prime_of_pratt 173378833005251801 6 [2, 2, 2, 5, 5, 2621, 24809, 13331831] ?_ (by decide +kernel)
  simp only [List.mem_cons, List.not_mem_nil, or_false, forall_eq_or_imp, forall_eq]
  exact ⟨by norm_num, by norm_num, by norm_num, by norm_num, by norm_num, by norm_num, prime_24809, prime_13331831⟩

theorem prime_5323 : Nat.Prime 5323 := by
  refine prime_of_pratt 5323 5 [2, 3, 887] ?_ (by decide +kernel)
  simp only [List.mem_cons, List.not_mem_nil, or_false, forall_eq_or_imp, forall_eq]
  exact ⟨by norm_num, by norm_num, by norm_num⟩

theorem prime_22149492674086928081353 : Nat.Prime 22149492674086928081353 := by
  refine prime_of_pratt 22149492674086928081353 5 [2, 2, 2, 3, 5323, 173378833005251801] ?_ (by decide +kernel)
  simp only [List.mem_cons, List.not_mem_nil, or_false, forall_eq_or_imp, forall_eq]
  exact ⟨by norm_num, by norm_num, by norm_num, by norm_num, prime_5323, prime_173378833005251801⟩

theorem prime_132896956044521568488119 : Nat.Prime 132896956044521568488119 := by
  refine prime_of_pratt 132896956044521568488119 6 [2, 3, 22149492674086928081353] ?_ (by decide +kernel)
  simp only [List.mem_cons, List.not_mem_nil, or_false, forall_eq_or_imp, forall_eq]
  exact ⟨by norm_num, by norm_num, prime_22149492674086928081353⟩

theorem prime_205115282021455665897114700593932402728804164701536103180137503955397371 : Nat.Prime 205115282021455665897114700593932402728804164701536103180137503955397371 := by
  refine prime_of_pratt 205115282021455665897114700593932402728804164701536103180137503955397371 10 [2, 3, 5, 29, 29, 31, 7723, 132896956044521568488119, 255515944373312847190720520512484175977] ?_ (by decide +kernel)
  simp only [List.mem_cons, List.not_mem_nil, or_false, forall_eq_or_imp, forall_eq]
  exact ⟨by norm_num, by norm_num, by norm_num, by norm_num, by norm_num, by norm_num, prime_7723, prime_132896956044521568488119, prime_255515944373312847190720520512484175977⟩

theorem prime_115792089237316195423570985008687907853269984665640564039457584007908834671663 : Nat.Prime 115792089237316195423570985008687907853269984665640564039457584007908834671663 := by
  refine prime_of_pratt 115792089237316195423570985008687907853269984665640564039457584007908834671663 3 [2, 3, 7, 13441, 205115282021455665897114700593932402728804164701536103180137503955397371] ?_ (by decide +kernel)
  simp only [List.mem_cons, List.not_mem_nil, or_false, forall_eq_or_imp, forall_eq]
  exact ⟨by norm_num, by norm_num, by norm_num, prime_13441, prime_205115282021455665897114700593932402728804164701536103180137503955397371⟩

theorem prime_9349 : Nat.Prime 9349 := by
  refine prime_of_pratt 9349 2 [2, 2, 3, 19, 41] ?_ (by decide +kernel)
  simp only [List.mem_cons, List.not_mem_nil, or_false, forall_eq_or_imp, forall_eq]
  exact ⟨by norm_num, by norm_num, by norm_num, by norm_num, by norm_num⟩

theorem prime_44706919 : Nat.Prime 44706919 := by
  refine prime_of_pratt 44706919 6 [2, 3, 797, 9349] ?_ (by decide +kernel)
  simp only [List.mem_cons, List.not_mem_nil, or_false, forall_eq_or_imp, forall_eq]
  exact ⟨by norm_num, by norm_num, by norm_num, prime_9349⟩

theorem prime_120233 : Nat.Prime 120233 := by
  refine prime_of_pratt 120233 3 [2, 2, 2, 7, 19, 113] ?_ (by decide +kernel)
  simp only [List.mem_cons, List.not_mem_nil, or_false, forall_eq_or_imp, forall_eq]
  exact ⟨by norm_num, by norm_num, by norm_num, by norm_num, by norm_num, by norm_num⟩

theorem prime_174723607534414371449 : Nat.Prime 174723607534414371449 := by
  refine prime_of_pratt 174723607534414371449 3 [2, 2, 2, 17, 59, 4051, 120233, 44706919] ?_ (by decide +kernel)
  simp only [List.mem_cons, List.not_mem_nil, or_false, forall_eq_or_imp, forall_eq]
  exact ⟨by norm_num, by norm_num, by norm_num, by norm_num, by norm_num, by norm_num, prime_120233, prime_44706919⟩

theorem prime_4681609 : Nat.Prime 4681609 := by
  refine prime_of_pratt 4681609 23 [2, 2, 2, 3, 97, 2011] ?_ (by decide +kernel)
  simp only [List.mem_cons, List.not_mem_nil, or_false, forall_eq_or_imp, forall_eq]
  exact ⟨by norm_num, by norm_num, by norm_num, by norm_num, by norm_num, by norm_num⟩

theorem prime_16699 : Nat.Prime 16699 := by
  refine prime_of_pratt 16699 3 [2, 3, 11, 11, 23] ?_ (by decide +kernel)
  simp only [List.mem_cons, List.not_mem_nil, or_false, forall_eq_or_imp, forall_eq]
  exact ⟨by norm_num, by norm_num, by norm_num, by norm_num, by norm_num⟩

theorem prime_85831 : Nat.Prime 85831 := by
  refine prime_of_pratt 85831 3 [2, 3, 5, 2861] ?_ (by decide +kernel)
  simp only [List.mem_cons, List.not_mem_nil, or_false, forall_eq_or_imp, forall_eq]
  exact ⟨by norm_num, by norm_num, by norm_num, by norm_num⟩

theorem prime_107361793816595537 : Nat.Prime 107361793816595537 := by
  refine prime_of_pratt 107361793816595537 3 [2, 2, 2, 2, 16699, 85831, 4681609] ?_ (by decide +kernel)
  simp only [List.mem_cons, List.not_mem_nil, or_false, forall_eq_or_imp, forall_eq]
  exact ⟨by norm_num, by norm_num, by norm_num, by norm_num, prime_16699, prime_85831, prime_4681609⟩

theorem prime_305873 : Nat.Prime 305873 := by
  refine prime_of_pratt 305873 3 [2, 2, 2, 2, 7, 2731] ?_ (by decide +kernel)
  simp only [List.mem_cons, List.not_mem_nil, or_false, forall_eq_or_imp, forall_eq]
  exact ⟨by norm_num, by norm_num, by norm_num, by norm_num, by norm_num, by norm_num⟩

theorem prime_1627771 : Nat.Prime 1627771 := by
  refine prime_of_pratt 1627771 3 [2, 3, 5, 29, 1871] ?_ (by decide +kernel)
  simp only [List.mem_cons, List.not_mem_nil, or_false, forall_eq_or_imp, forall_eq]
  exact ⟨by norm_num, by norm_num, by norm_num, by norm_num, by norm_num⟩

theorem prime_297159362677 : Nat.Prime 297159362677 := by
  refine prime_of_pratt 297159362677 2 [2, 2, 3, 3, 11, 461, 1627771] ?_ (by decide +kernel)
  simp only [List.mem_cons, List.not_mem_nil, or_false, forall_eq_or_imp, forall_eq]
  exact ⟨by norm_num, by norm_num, by norm_num, by norm_num, by norm_num, by norm_num, prime_1627771⟩

theorem prime_28181 : Nat.Prime 28181 := by
  refine prime_of_pratt 28181 2 [2, 2, 5, 1409] ?_ (by decide +kernel)
  simp only [List.mem_cons, List.not_mem_nil, or_false, forall_eq_or_imp, forall_eq]
  exact ⟨by norm_num, by norm_num, by norm_num, by norm_num⟩

theorem prime_545358713 : Nat.Prime 545358713 := by
  refine prime_of_pratt 545358713 5 [2, 2, 2, 41, 59, 28181] ?_ (by decide +kernel)
  simp only [List.mem_cons, List.not_mem_nil, or_false, forall_eq_or_imp, forall_eq]
  exact ⟨by norm_num, by norm_num, by norm_num, by norm_num, by norm_num, prime_28181⟩

theorem prime_29047611873442575647497758179 : Nat.Prime 29047611873442575647497758179 := by
  refine prime_of_pratt 29047611873442575647497758179 2 [2, 293, 305873, 545358713, 297159362677] ?_ (by decide +kernel)
  simp only [List.mem_cons, List.not_mem_nil, or_false, forall_eq_or_imp, forall_eq]
  exact ⟨by norm_num, by norm_num, prime_305873, prime_545358713, prime_297159362677⟩

theorem prime_341948486974166000522343609283189 : Nat.Prime 341948486974166000522343609283189 := by
  refine prime_of_pratt 341948486974166000522343609283189 2 [2, 2, 3, 3, 3, 109, 29047611873442575647497758179] ?_ (by decide +kernel)
  simp only [List.mem_cons, List.not_mem_nil, or_false, forall_eq_or_imp, forall_eq]
  exact ⟨by norm_num, by norm_num, by norm_num, by norm_num, by norm_num, by norm_num, prime_29047611873442575647497758179⟩

theorem prime_115792089237316195423570985008687907852837564279074904382605163141518161494337 : Nat.Prime 115792089237316195423570985008687907852837564279074904382605163141518161494337 := by
  refine prime_of_pratt 115792089237316195423570985008687907852837564279074904382605163141518161494337 7 [2, 2, 2, 2, 2, 2, 3, 149, 631, 107361793816595537, 174723607534414371449, 341948486974166000522343609283189] ?_ (by decide +kernel)
  simp only [List.mem_cons, List.not_mem_nil, or_false, forall_eq_or_imp, forall_eq]
  exact ⟨by norm_num, by norm_num, by norm_num, by norm_num, by norm_num, by norm_num, by norm_num, by norm_num, by norm_num, prime_107361793816595537, prime_174723607534414371449, prime_341948486974166000522343609283189⟩

/-- The field size of secp256k1 (`reference.py` line 18). -/
@[irreducible] def fieldP : ℕ := 0xFFFFFFFFFFFFFFFFFFFFFFFFFFFFFFFFFFFFFFFFFFFFFFFFFFFFFFFEFFFFFC2F

/-- The order of the secp256k1 group (`reference.py` line 19). -/
@[irreducible] def orderN : ℕ := 0xFFFFFFFFFFFFFFFFFFFFFFFFFFFFFFFEBAAEDCE6AF48A03BBFD25E8CD0364141

theorem fieldP_prime : Nat.Prime fieldP := by
  unfold fieldP; exact prime_115792089237316195423570985008687907853269984665640564039457584007908834671663

theorem orderN_prime : Nat.Prime orderN := by
  unfold orderN; exact prime_115792089237316195423570985008687907852837564279074904382605163141518161494337

end Verif
