import Verif.Lemmas.Props.BatchForger

/-!
# Property C122: nobody finds a batch of plain signatures that passes although one of them is invalid
-/

namespace Verif

open BatchForger

/-! ## C122 -/

/-- **C122**. Somebody asks for at most `q` challenges, batch seeds and outputs of the generator, and submits at most `L` plain
signatures. With the draws of `verify_batch` itself there are at most `N = q + L + 2` draws. The chance that `verify_batch` accepts
although a signature is invalid is at most `(L + 1) N (N + 1) / 2 ^ 256`. -/
theorem C122_plain_batches_sound (H : Hash) (L q : ℕ) (A : BatchForger L (List BatchItem))
    (hA : A.AsksAtMost (fun items => Spec.PlainBatch items ∧ items.length ≤ L) q) :
    (Spec.chance fun ω : Fin (q + (L + 2)) → Draw L => Fools H A ω)
      ≤ (L + 1) * ((q + L + 2) * (q + L + 3)) / 2 ^ 256 := by
  refine (chance_fools [] H (hA.weaken fun items h => ⟨known_of_plain h.1, h.2⟩)).trans (div_le_div_of_nonneg_right ?_ (by positivity))
  have h1 : (0 : ℚ) ≤ L := Nat.cast_nonneg L
  have h2 : (0 : ℚ) ≤ q := Nat.cast_nonneg q
  simp only [List.length_nil, Nat.cast_zero, mul_zero, zero_add, one_pow, mul_one]
  nlinarith [mul_nonneg h1 h2, mul_nonneg h1 h1]

/-- **C122**. It is necessary that the signatures are plain: with an adaptor signature in the batch three questions suffice to fool
`verify_batch`, always. -/
theorem C122_adaptor_rows_fool (H : Hash) (ω : Fin 7 → Draw 2) :
    adaptorForger.AsksAtMost (fun items => items.length = 2) 3 ∧ Fools H adaptorForger ω := by
  refine ⟨?_, ?_⟩
  · refine (if_pos (.inl (tag_prefix _ _))).mpr ⟨2, rfl, fun h => ?_⟩
    refine (if_pos (drawn_batch _ _)).mpr ⟨1, rfl, fun s => ?_⟩
    exact (if_pos (show Drawn (.inr (s : Arr 32)) from trivial)).mpr ⟨0, rfl, fun c => rfl⟩
  · obtain ⟨d₁, log₁, h1, g1, -, m1⟩ := run_ask H (draws ω) (q := .inl (Spec.taggedInput "BIP0340/challenge"
      (Spec.xbytes G ++ Spec.xbytes G ++ []))) (.inl (tag_prefix _ _)) (fun h : Arr 32 => .ask (.inl (Spec.batchString
        [reduceFrom h, reduceFrom h] [reduceFrom h + 2, 0])) fun seed : Arr 32 => .ask (.inr seed) fun c : Fin 2 → Scalar =>
          check (adaptorBatch (reduceFrom h) c)) (log := []) (by simp [Distinct])
    set e := reduceFrom d₁.1 with he
    obtain ⟨d₂, log₂, h2, g2, p2, m2⟩ := run_ask H (draws ω) (drawn_batch [e, e] [e + 2, 0]) (fun seed : Arr 32 => .ask (.inr seed)
      fun c : Fin 2 → Scalar => check (adaptorBatch e c)) g1
    obtain ⟨d₃, log₃, h3, g3, p3, m3⟩ := run_ask H (draws ω) (q := .inr d₂.1) trivial
      (fun c : Fin 2 → Scalar => check (adaptorBatch e c)) g2
    have hrun : (adaptorForger.bind check).run H (draws ω) [] = (check (adaptorBatch e d₃.2)).run H (draws ω) log₃ :=
      h1.trans (h2.trans h3)
    have hpre := run_prefix H (draws ω) (check (adaptorBatch e d₃.2)) log₃
    obtain ⟨k1, k2, -⟩ := run_check H (draws ω) (adaptorBatch e d₃.2) g3
    unfold Fools
    simp only
    rw [hrun, k1]
    generalize ((check (adaptorBatch e d₃.2)).run H (draws ω) log₃).2 = F at hpre k2
    exact adaptorBatch_passes k2 (hpre.mem (p3.mem (p2.mem m1))) (hpre.mem (p3.mem m2)) (hpre.mem m3)

/-- Somebody who submits an invalid signature twice. It passes if the coefficient of the second one is drawn to be `-1`. -/
example (H : Hash) : ∃ A : BatchForger 2 (List BatchItem), A.AsksAtMost (fun items => Spec.PlainBatch items ∧ items.length ≤ 2) 1 ∧
    ∃ ω : Fin (1 + (2 + 2)) → Draw 2, Fools H A ω := by
  refine ⟨twice, twice_asks, fun _ => (zeroSeed, fun _ => ⟨-1, neg_ne_zero.2 one_ne_zero⟩), ?_⟩
  set ω : Fin (1 + (2 + 2)) → Draw 2 := fun _ => (zeroSeed, fun _ => ⟨-1, neg_ne_zero.2 one_ne_zero⟩) with hω
  have hm : ∀ e ∈ ((twice.bind check).run H (draws ω) []).2, (e.2.2 0).1 = -1 :=
    run_drawn (P := fun d => (d.2 0).1 = -1) (M := 1 + (2 + 2)) (fun i hi => by unfold draws; rw [dif_pos hi])
      (twice_asks.bind (k := 2 + 2) fun items hi => (asks_check items).mono (by have := hi.2; omega)) (by simp) (by simp)
  obtain ⟨d₁, log₁, h1, g1, -, m1⟩ := run_ask H (draws ω) (q := .inl (Spec.taggedInput "BIP0340/challenge"
    (Spec.xbytes G ++ Spec.xbytes G ++ []))) (.inl (tag_prefix _ _)) (fun h : Arr 32 =>
      check [wrongItem (reduceFrom h), wrongItem (reduceFrom h)]) (log := []) (by simp [Distinct])
  have hpre := run_prefix H (draws ω) (check [wrongItem (reduceFrom d₁.1), wrongItem (reduceFrom d₁.1)]) log₁
  obtain ⟨k1, k2, -, d₂, d₃, k3, k4⟩ := run_check H (draws ω) [wrongItem (reduceFrom d₁.1), wrongItem (reduceFrom d₁.1)] g1
  have hrun : (twice.bind check).run H (draws ω) [] =
    (check [wrongItem (reduceFrom d₁.1), wrongItem (reduceFrom d₁.1)]).run H (draws ω) log₁ := h1
  rw [hrun] at hm
  unfold Fools
  simp only
  rw [hrun, k1]
  exact twice_passes k2 hm (hpre.mem m1) k3 k4

end Verif
