import Verif.Lemmas.Props.KeyHiding

/-!
# Property C130: an aggregated key looks like the key of a single signer

C127 says that the signatures of a group cannot be told from those of a single signer with the same key. Here it is the key. Whoever does
not know the key of one of the members, and asks for fewer than about 2^100 hashes, cannot tell the aggregated key from the key of a
single signer, and cannot tell which of two groups it belongs to, even if they chose all other members; the same goes for taproot outputs.
-/

namespace Verif

open KeyHiding
open KeyCommit (Drawn)

/-- **C130**. Somebody asks for at most `q` hashes, chooses a list of at most `N` other members and the place of the unknown member, is
shown a key, asks for at most `q'` hashes, and says yes or no. Whether the key is the aggregated key of the group or that of a single
signer with a random secret key, the chance of a yes is the same up to `6(q + q')/2^256 + 1/2^125`. -/
theorem C130_key_like_single_signer (H : Hash) (A : Asker Test) (q q' N m : ℕ) (hA : A.AsksAtMost Drawn (Test.Within N q') q)
    (hN : N + 1 ≤ u32Max) (hm : q + q' + N + 2 ≤ m) :
    |(Spec.chance fun w : Scalar × (Fin m → Arr 32) => Verdict H A (group H) w)
      - Spec.chance fun w : Scalar × (Fin m → Arr 32) => Verdict H A single w| ≤ 6 * (q + q') / 2 ^ 256 + 1 / 2 ^ 125 :=
  chance_close hA (l := q' + N + 2) (by omega) (fun X _ ht => asks_group (fun _ h => h) H ht X) (fun X _ ht => (ht.2 X).mono (by omega))
    fun _ _ ht hT => group_close (fun _ h => h) ht hN hT

/-- **C130**. The same for the taproot output of the group, with a merkle root or without one. -/
theorem C130_output_like_single_signer (H : Hash) (A : Asker Test) (q q' N m : ℕ) (hA : A.AsksAtMost Drawn (Test.Within N q') q)
    (hN : N + 1 ≤ u32Max) (hm : q + q' + N + 3 ≤ m) :
    |(Spec.chance fun w : Scalar × (Fin m → Arr 32) => Verdict H A (output H) w)
      - Spec.chance fun w : Scalar × (Fin m → Arr 32) => Verdict H A single w| ≤ 10 * (q + q') / 2 ^ 256 + 1 / 2 ^ 124 :=
  chance_close hA (l := q' + N + 3) (by omega) (fun X _ ht => asks_output (fun _ h => h) H ht X) (fun X _ ht => (ht.2 X).mono (by omega))
    fun _ _ ht hT => output_close (fun _ h => h) ht hN hT

/-- **C130**. Nobody can tell which of two groups with the unknown member a key belongs to, even if they chose both. -/
theorem C130_groups_look_alike (H : Hash) (A : Asker (Test × Test)) (q q' N m : ℕ)
    (hA : A.AsksAtMost Drawn (fun t => t.1.Within N q' ∧ t.2.Within N q' ∧ t.1.judge = t.2.judge) q)
    (hN : N + 1 ≤ u32Max) (hm : q + q' + N + 2 ≤ m) :
    |(Spec.chance fun w : Scalar × (Fin m → Arr 32) => Verdict H A (fun X t => group H X t.1) w)
      - Spec.chance fun w : Scalar × (Fin m → Arr 32) => Verdict H A (fun X t => group H X t.2) w| ≤ 12 * (q + q') / 2 ^ 256 + 1 / 2 ^ 124 := by
  refine chance_close hA (l := q' + N + 2) (by omega) (fun X _ ht => asks_group (fun _ h => h) H ht.1 X) (fun X _ ht => asks_group (fun _ h => h) H ht.2.1 X) ?_
  intro _ _ t T ht hT
  have h1 := group_close (H := H) (fun _ h => h) ht.1 hN hT
  have h2 := group_close (H := H) (fun _ h => h) ht.2.1 hN hT
  have e : ∀ X, single X t.2 = single X t.1 := fun X => congrFun ht.2.2.symm X
  simp only [e] at h2
  rw [abs_sub_comm] at h2
  refine (abs_sub_le _ _ _).trans ((add_le_add h1 h2).trans (le_of_eq ?_))
  have e1 : (12 * ((q : ℚ) + q') / 2 ^ 256) = 6 * (q + q') / 2 ^ 256 + 6 * (q + q') / 2 ^ 256 := by ring
  have e2 : (1 : ℚ) / 2 ^ 124 = 1 / 2 ^ 125 + 1 / 2 ^ 125 := by norm_num
  rw [e1, e2]
  ring

namespace KeyHiding

/-- Somebody who is curious. -/
def curious : Asker Test := .ask (KeyCommit.listString [Gpt, Gpt]) fun h => .done
  { before := [Gpt], after := [Gpt], root := none,
    judge := fun Q => .ask (KeyCommit.listString [Q]) fun h' => .done (isOdd Q.1 = true ∨ h = h') }

end KeyHiding

/-- Somebody who asks for the hash of a list of two keys, puts the unknown member into the middle of a group of three, asks for the hash of
a list with the key they see, and says yes if the key is odd or the two hashes are equal. There are secret keys with which they say yes, and
others. -/
example (H : Hash) : ∃ A : Asker Test, A.AsksAtMost Drawn (Test.Within 2 1) 1 ∧ 2 + 1 ≤ u32Max ∧ 1 + 1 + 2 + 2 ≤ 6 ∧
    (∃ w : Scalar × (Fin 6 → Arr 32), Verdict H A single w) ∧ ∃ w : Scalar × (Fin 6 → Arr 32), ¬ Verdict H A single w := by
  have hv : ∀ w : Scalar × (Fin 6 → Arr 32), Verdict H curious single w ↔ isOdd (mulG w.1).1 = true ∨ w.2 0 = w.2 1 := by
    intro w
    have hf : Forger.Log.find [(KeyCommit.listString [Gpt, Gpt], w.2 0)] (KeyCommit.listString [mulG w.1]) = none := by
      rw [Asker.find_none]
      simp only [List.map_cons, List.map_nil, List.mem_singleton]
      intro e
      have := congrArg List.length (KeyCommit.listString_inj e)
      simp at this
    unfold Verdict curious
    rw [Asker.bind, Asker.run, if_pos (KeyCommit.drawn_list _)]
    change (Asker.run Drawn H (Asker.draws w.2) (Asker.ask (KeyCommit.listString [mulG w.1]) fun h' =>
      .done (isOdd (mulG w.1).1 = true ∨ w.2 0 = h')) [(KeyCommit.listString [Gpt, Gpt], w.2 0)]).1 ↔ _
    rw [Asker.run, if_pos (KeyCommit.drawn_list _), hf]
    rfl
  refine ⟨curious, ?_, by decide, by norm_num, ⟨(scalarOne, fun _ => zeroSeed), (hv _).2 (.inr rfl)⟩, ?_⟩
  · unfold curious Asker.AsksAtMost
    rw [if_pos (KeyCommit.drawn_list _)]
    refine ⟨0, rfl, fun h => ⟨le_rfl, fun Q => ?_⟩⟩
    unfold Asker.AsksAtMost
    rw [if_pos (KeyCommit.drawn_list _)]
    exact ⟨0, rfl, fun h' => trivial⟩
  · obtain ⟨one, hone⟩ := reduceFrom_surjective 1
    obtain ⟨x, hx⟩ : ∃ x : Scalar, isOdd (mulG x).1 = false := by
      obtain ⟨x, hx⟩ := mulG_surjective (toEvenY Gpt)
      exact ⟨x, by rw [hx]; exact isOdd_toEvenY _⟩
    obtain ⟨zero, hzero⟩ := reduceFrom_surjective 0
    refine ⟨(x, fun i => if i = 0 then zero else one), fun h => ?_⟩
    rcases (hv _).1 h with h | h
    · rw [hx] at h
      cases h
    · have := congrArg reduceFrom h
      simp only [if_true, one_ne_zero, if_false, hone, hzero] at this
      exact zero_ne_one this

/-- Two groups: the unknown member alone, or between two others; and somebody who wants to know whether the key is odd. -/
example : ∃ A : Asker (Test × Test), A.AsksAtMost Drawn (fun t => t.1.Within 2 0 ∧ t.2.Within 2 0 ∧ t.1.judge = t.2.judge) 0 ∧
    ∀ X : Point, ∃ t, A = .done t ∧ t.1.keys X = [X] ∧ t.2.keys X = [Gpt, X, Gpt] :=
  ⟨.done (⟨[], [], none, fun Q => .done (isOdd Q.1 = true)⟩, ⟨[Gpt], [Gpt], none, fun Q => .done (isOdd Q.1 = true)⟩),
    ⟨⟨by simp, fun _ => trivial⟩, ⟨by simp, fun _ => trivial⟩, rfl⟩, fun _ => ⟨_, rfl, rfl, rfl⟩⟩

end Verif
