import Verif.Lemmas.Props.Random

/-!
# Property C118: nonces and seeds from a random number generator

`SecNonce::random`, and `NonceSeed::from` applied to a generator, as with `SecNonce::build(&mut rng)`. What a generator draws
is given beforehand by `Spec.replay`.
-/

namespace Verif

/-- **C118**. If the generator draws independent uniform scalars, then `m` calls of `random` yield each list of `m` public
nonces with the same probability `1 / (n - 1) ^ (2m)`. So all public nonces are equally likely, and a nonce says nothing about
those before it. -/
theorem C118_random_uniform (b : ℕ → Arr 32) (m : ℕ) (pns : List PubNonce) (hm : pns.length = m) :
    (Spec.chance fun k : Fin (2 * m) → Scalar =>
      (Spec.calls (SecNonce.random (Spec.replay (Spec.sequence scalarOne k) b)) m (0, 0)).1.map SecNonce.publicNonce = pns)
        = 1 / ((orderN - 1 : ℕ) : ℚ) ^ (2 * m) := by
  have hlen : (Spec.noncePoints pns).length = 2 * m := by rw [noncePoints_length, hm]
  choose dlog hdlog using mulG_surj
  rw [chance_singleton _ (fun i : Fin (2 * m) => dlog ((Spec.noncePoints pns)[i.1]'(by rw [hlen]; exact i.2)))]
  · rw [Nat.card_fun, card_scalar, Nat.card_eq_fintype_card, Fintype.card_fin, Nat.cast_pow]
  · intro k
    constructor
    · intro h
      funext i
      have h' := congrArg Spec.noncePoints h
      rw [noncePoints_random] at h'
      apply mulG_injective
      rw [hdlog]
      have hi := i.2
      simp only [← h', List.getElem_map, List.getElem_range, Spec.sequence, dif_pos hi]
    · intro h
      apply noncePoints_inj
      rw [noncePoints_random, h]
      refine List.ext_getElem (by rw [List.length_map, List.length_range, hlen]) fun i h1 h2 => ?_
      rw [hlen] at h2
      simp only [List.getElem_map, List.getElem_range, Spec.sequence, dif_pos h2, hdlog]

/-- **C118**. No two of the `2m` points of the nonces from `m` calls agree, except with probability at most
`(2m)² / (n - 1)`. -/
theorem C118_random_no_repeat (b : ℕ → Arr 32) (m : ℕ) :
    (Spec.chance fun k : Fin (2 * m) → Scalar =>
      ¬ (Spec.noncePoints ((Spec.calls (SecNonce.random (Spec.replay (Spec.sequence scalarOne k) b)) m (0, 0)).1.map
        SecNonce.publicNonce)).Nodup) ≤ (2 * m) ^ 2 / (orderN - 1 : ℕ) := by
  have hn : 0 < orderN - 1 := by have := one_lt_orderN; omega
  refine le_trans (CmaForger.chance_mono fun k hk => ?_) ((chance_repeat (α := Scalar) (by rw [card_scalar]; exact hn) (2 * m)).trans
    (le_of_eq ?_))
  · intro hinj
    apply hk
    rw [noncePoints_random, List.nodup_map_iff_inj_on List.nodup_range]
    intro i hi j hj h
    rw [List.mem_range] at hi hj
    have := mulG_injective h
    simp only [Spec.sequence, dif_pos hi, dif_pos hj] at this
    exact congrArg Fin.val (hinj this)
  · rw [card_scalar]
    push_cast
    ring

/-- **C118**. Two scalars are drawn for a nonce and nothing else, the first one being the first nonce. The next call goes on
behind them. -/
theorem C118_random_draws (k : ℕ → Scalar) (b : ℕ → Arr 32) (i j : ℕ) :
    SecNonce.random (Spec.replay k b) (i, j) = (SecNonce.new (k i) (k (i + 1)), (i + 2, j)) ∧
      (SecNonce.random (Spec.replay k b) (i, j)).1.publicNonce = PubNonce.new (mulG (k i)) (mulG (k (i + 1))) :=
  ⟨rfl, rfl⟩

/-- **C118**. `m` seeds from a generator of independent uniform blocks are different from each other, except with probability
at most `m² / 2 ^ 256`. -/
theorem C118_seeds_no_repeat (k : ℕ → Scalar) (m : ℕ) :
    (Spec.chance fun b : Fin m → Arr 32 =>
      ¬ (Spec.calls (NonceSeed.fromRng (Spec.replay k (Spec.sequence zeroSeed b))) m (0, 0)).1.Nodup) ≤ (m : ℚ) ^ 2 / 2 ^ 256 := by
  refine le_trans (CmaForger.chance_mono fun b hb => ?_) ((chance_repeat (α := Arr 32) (by rw [arr_card]; positivity) m).trans
    (le_of_eq ?_))
  · intro hinj
    apply hb
    rw [calls_seed, List.nodup_map_iff_inj_on List.nodup_range]
    intro i hi j hj h
    rw [List.mem_range] at hi hj
    simp only [zero_add, Spec.sequence, dif_pos hi, dif_pos hj] at h
    exact congrArg Fin.val (hinj h)
  · rw [arr_card]
    rw [Nat.cast_pow, show ((256 : ℕ) : ℚ) ^ 32 = 2 ^ 256 by norm_num]
    ring

/-- **C118**. `SecNonce::build` and `generate` with a generator use 32 bytes of it as the seed, and are otherwise what they are
with that seed. -/
theorem C118_seed_from_rng {ε : Type} (H : Hash) (k : ℕ → Scalar) (b : ℕ → Arr 32) (i j : ℕ) (sk : Scalar) (Q : Point)
    (msg extra : Bytes) :
    SecNonce.builderRng (Spec.replay k b) (i, j) = (SecNonce.builder (b j), (i, j + 1)) ∧
      (SecNonce.generateRng H (Spec.replay k b) (i, j) sk Q msg extra : Res ε SecNonce × _)
        = (SecNonce.generate H (NonceSeed.fromArray (b j)) sk Q msg extra, (i, j + 1)) ∧
      (SecNonce.generate H (b j) sk Q msg extra : Res ε SecNonce)
        = (do let s ← (((SecNonce.builder (b j)).withSeckey sk).withAggregatedPubkey Q |>.withMessage msg).withExtraInput extra
              return s.build H) :=
  ⟨rfl, rfl, rfl⟩

/-- A generator that draws the same scalar again and again repeats points, and one that draws different ones does not. -/
example : (∃ k : Fin 6 → Scalar, ¬ (Spec.noncePoints ((Spec.calls (SecNonce.random (Spec.replay (Spec.sequence scalarOne k)
      fun _ => zeroSeed)) 3 (0, 0)).1.map SecNonce.publicNonce)).Nodup) ∧
    ∃ k : Fin 2 → Scalar, (Spec.noncePoints ((Spec.calls (SecNonce.random (Spec.replay (Spec.sequence scalarOne k)
      fun _ => zeroSeed)) 1 (0, 0)).1.map SecNonce.publicNonce)).Nodup := by
  constructor
  · refine ⟨fun _ => scalarOne, ?_⟩
    rw [noncePoints_random]
    intro h
    have := (List.nodup_map_iff_inj_on List.nodup_range).1 h 0 (by simp) 1 (by simp) (by simp [Spec.sequence])
    omega
  · refine ⟨fun i => if i = 0 then scalarOne else ⟨2, two_ne_zero_scalar⟩, ?_⟩
    rw [noncePoints_random]
    refine (List.nodup_map_iff_inj_on List.nodup_range).2 fun i hi j hj h => ?_
    have h1 : scalarOne.1 ≠ (2 : MaybeScalar) := by decide +kernel
    rw [List.mem_range] at hi hj
    have h' := mulG_injective h
    have hi' : i = 0 ∨ i = 1 := by omega
    have hj' : j = 0 ∨ j = 1 := by omega
    rcases hi' with rfl | rfl <;> rcases hj' with rfl | rfl
    · rfl
    · exact absurd (congrArg Subtype.val h') (by simpa [Spec.sequence] using h1)
    · exact absurd (congrArg Subtype.val h').symm (by simpa [Spec.sequence] using h1)
    · rfl

end Verif
