import Mathlib.NumberTheory.LucasPrimality
import Mathlib.Tactic.Ring
import Mathlib.Tactic.NormNum.Prime

/-!
# Modular exponentiation and Pratt certificates

Nothing in this file models code of the repository: it is the machinery used to
prove that the field size and the group order of secp256k1 are prime.
-/

namespace Verif

/-- `acc * b ^ e % m` by square and multiply, `f` bounding the bit length of `e`. -/
def powModAux : ℕ → ℕ → ℕ → ℕ → ℕ → ℕ
  | 0, _, _, m, acc => acc % m
  | f + 1, b, e, m, acc =>
    powModAux f (b * b % m) (e / 2) m (bif e % 2 == 1 then acc * b % m else acc)

/-- `b ^ e % m` for exponents below `2 ^ 300`. -/
def powMod (b e m : ℕ) : ℕ := powModAux 300 b e m 1

theorem powModAux_cast (m : ℕ) : ∀ (f b e acc : ℕ), e < 2 ^ f →
    ((powModAux f b e m acc : ℕ) : ZMod m) = acc * b ^ e
  | 0, b, e, acc, h => by
    have : e = 0 := by simpa using h
    subst this; simp [powModAux]
  | f + 1, b, e, acc, h => by
    rw [powModAux, powModAux_cast m f _ _ _ (by rw [pow_succ] at h; omega)]
    have he := Nat.div_add_mod e 2
    have hb : ((b * b % m : ℕ) : ZMod m) = (b : ZMod m) ^ 2 := by
      rw [ZMod.natCast_mod]; push_cast; ring
    rw [hb, ← pow_mul]
    rcases Nat.mod_two_eq_zero_or_one e with h0 | h1
    · rw [h0] at he ⊢
      simp only [Nat.reduceBEq, cond_false]
      conv_rhs => rw [← he]
      simp
    · rw [h1] at he ⊢
      simp only [BEq.rfl, cond_true, ZMod.natCast_mod]
      conv_rhs => rw [← he]
      push_cast; ring

theorem powModAux_lt (m : ℕ) (hm : 0 < m) : ∀ (f b e acc : ℕ), powModAux f b e m acc < m
  | 0, _, _, _ => Nat.mod_lt _ hm
  | f + 1, _, _, _ => powModAux_lt m hm f _ _ _

theorem powMod_cast (b e m : ℕ) (h : e < 2 ^ 300) :
    ((powMod b e m : ℕ) : ZMod m) = (b : ZMod m) ^ e := by
  rw [powMod, powModAux_cast m 300 b e 1 h]; simp

theorem powMod_lt (b e m : ℕ) (hm : 0 < m) : powMod b e m < m := powModAux_lt m hm _ _ _ _

/-- A Pratt certificate: `a` has order `N - 1` modulo `N`. -/
def prattCheck (N a : ℕ) (fs : List ℕ) : Bool :=
  Nat.blt 1 N && Nat.blt N (2 ^ 300) && (fs.prod == N - 1) && (powMod a (N - 1) N == 1) &&
    fs.all fun q => powMod a ((N - 1) / q) N != 1

theorem prime_of_pratt (N a : ℕ) (fs : List ℕ) (hp : ∀ q ∈ fs, q.Prime)
    (h : prattCheck N a fs = true) : N.Prime := by
  simp only [prattCheck, Bool.and_eq_true, Nat.blt_eq, beq_iff_eq, List.all_eq_true,
    bne_iff_ne] at h
  obtain ⟨⟨⟨⟨h1, h2⟩, h3⟩, h4⟩, h5⟩ := h
  have : Fact (1 < N) := ⟨h1⟩
  have key : ∀ e, e < 2 ^ 300 → ((powMod a e N = 1) ↔ (a : ZMod N) ^ e = 1) := by
    intro e he
    rw [← powMod_cast a e N he]
    constructor
    · intro h; rw [h]; simp
    · intro h
      have h' : ((powMod a e N : ℕ) : ZMod N) = ((1 : ℕ) : ZMod N) := by simpa using h
      rw [ZMod.natCast_eq_natCast_iff'] at h'
      rw [Nat.mod_eq_of_lt (powMod_lt a e N (by omega)), Nat.mod_eq_of_lt h1] at h'
      exact h'
  refine lucas_primality N (a : ZMod N) ((key _ (by omega)).1 h4) ?_
  intro q hq hd
  rw [← h3] at hd
  obtain ⟨r, hr, hqr⟩ := (Prime.dvd_prod_iff hq.prime).1 hd
  have : q = r := (Nat.prime_dvd_prime_iff_eq hq (hp r hr)).1 hqr
  subst this
  have := h5 q hr
  rw [Ne, key _ (lt_of_le_of_lt (Nat.div_le_self _ _) (by omega))] at this
  exact this

end Verif
