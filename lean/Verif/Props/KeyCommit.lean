import Verif.Lemmas.Props.KeyCommit

/-!
# Property C128: an aggregated key commits to its members and their order

The documentation says that an ordering of the keys uniquely determines the aggregated key, and that a different order gives a different
key (key_agg.rs:45-51). The first half is C01; the second half cannot hold for every hash function, since there are more key lists than
keys (`C128_order_can_be_invisible`). With hashes that are drawn at random it holds but for a tiny chance, even against somebody who
looks for two such lists: so a key, and a taproot output made of it, stand for one ordered list of members (and one merkle root).
-/

namespace Verif

open KeyCommit

/-- **C128**. Somebody who asks for at most `q` hashes of key aggregation and of taproot tweaks, and then submits two groups with at most `N`
members each: the chance that the groups have different lists of members (or the same members in a different order) but the same aggregated
key, or that they differ in anything but have the same taproot output, is tiny. Keys are the same if their x coordinates are. -/
theorem C128_key_commits_to_group (H : Hash) (A : Asker (Group × Group)) (q N : ℕ)
    (hA : A.AsksAtMost Drawn (fun g => g.1.keys.length ≤ N ∧ g.2.keys.length ≤ N) q) :
    (Spec.chance fun ω : Fin (q + (2 * N + 4)) → Arr 32 => Finds H A ω) ≤ (q + 2 * N + 4) ^ 2 / 2 ^ 255 := by
  refine (chance_finds H hA).trans (le_of_eq ?_)
  have : (2 : ℚ) ^ 256 = 2 * 2 ^ 255 := by norm_num
  rw [this, mul_div_mul_left _ _ (by norm_num)]

/-- Somebody who submits the keys `G` and `2·G` in both orders; if all hashes are `1`, they have the same aggregated key. -/
example (H : Hash) : (Asker.done swapped).AsksAtMost Drawn (fun g => g.1.keys.length ≤ 2 ∧ g.2.keys.length ≤ 2) 0 ∧
    ∃ ω : Fin (0 + (2 * 2 + 4)) → Arr 32, Finds H (Asker.done swapped) ω := by
  have hA : (Asker.done swapped).AsksAtMost Drawn (fun g => g.1.keys.length ≤ 2 ∧ g.2.keys.length ≤ 2) 0 :=
    ⟨by simp [swapped, stubKeys], by simp [swapped, stubKeys]⟩
  obtain ⟨one, hone⟩ := reduceFrom_surjective 1
  refine ⟨hA, fun _ => one, .inl ?_⟩
  simp only [Asker.bind]
  obtain ⟨log, h1, h2, ⟨L, h3⟩, ⟨L', h4⟩, -⟩ := run_check H (Asker.draws fun _ : Fin (0 + (2 * 2 + 4)) => one) swapped (log := [])
    (by simp [Asker.Distinct])
  have hall : ∀ e ∈ log, reduceFrom e.2 = 1 := by
    have := Asker.run_drawn (D := Drawn) (H := H) (ω := Asker.draws fun _ : Fin (0 + (2 * 2 + 4)) => one) (P := fun a => reduceFrom a = 1)
      (M := 8) (fun i hi => by unfold Asker.draws; rw [dif_pos hi]; exact hone) (asks_check H swapped) (log := [])
      (by simp [swapped, stubKeys]) (by simp)
    rwa [h1] at this
  rw [h1]
  exact ⟨swapped_ne, _, _, key_swapped (.inl rfl) (coeffOf_complete h2 hall h3), key_swapped (.inr rfl) (coeffOf_complete h2 hall h4), rfl⟩

/-- **C128**. For given lists: whatever the other hashes, if the hashes of the two lists differ then for at most four of the answers for the
coefficient of the first key of one list do they have the same aggregated key. -/
theorem C128_given_lists (H : Hash) (P : Point) (keys keys' : List Point)
    (hne : AnyForger.listHash H (P :: keys) ≠ AnyForger.listHash H keys') :
    Spec.prob (fun h => ∃ ctx ctx', KeyAggContext.new (H.answering (Spec.coeffQuery H (P :: keys) P) h) (P :: keys) = .ok ctx ∧
      KeyAggContext.new (H.answering (Spec.coeffQuery H (P :: keys) P) h) keys' = .ok ctx' ∧
      Spec.xbytes ctx.aggregatedPubkey.1 = Spec.xbytes ctx'.aggregatedPubkey.1) ≤ 4 / 2 ^ 256 := by
  by_cases hl : (P :: keys).length ≤ u32Max
  · rw [← chance_eq_prob]
    refine (CmaForger.chance_mono fun h hh => ?_).trans (chance_xonly (f := fun h =>
      keySum (H.answering (Spec.coeffQuery H (P :: keys) P) h) (P :: keys)) (fun h h' e => ?_) (keySum H keys'))
    · obtain ⟨ctx, ctx', e, e', hx⟩ := hh
      obtain ⟨-, -, Q, hQ, rfl⟩ := new_eq_ok.1 e
      obtain ⟨-, -, Q', hQ', rfl⟩ := new_eq_ok.1 e'
      rw [keySum_other hne] at hQ'
      rw [hQ, hQ']
      rw [spec_xbytes, spec_xbytes] at hx
      exact Subtype.ext hx
    · refine keySum_answering_inj H _ P (by simp) hl ?_ h h' e
      intro h2
      have := List.find?_some h2
      simp at this
  · refine le_trans (le_of_eq ?_) (by positivity : (0 : ℚ) ≤ 4 / 2 ^ 256)
    unfold Spec.prob
    have : {h | ∃ ctx ctx', KeyAggContext.new (H.answering (Spec.coeffQuery H (P :: keys) P) h) (P :: keys) = .ok ctx ∧
      KeyAggContext.new (H.answering (Spec.coeffQuery H (P :: keys) P) h) keys' = .ok ctx' ∧
      Spec.xbytes ctx.aggregatedPubkey.1 = Spec.xbytes ctx'.aggregatedPubkey.1} = ∅ := by
      refine Set.eq_empty_iff_forall_notMem.2 ?_
      rintro h ⟨ctx, ctx', e, -⟩
      exact hl (new_eq_ok.1 e).2.1
    rw [this, Set.ncard_empty, Nat.cast_zero, zero_div]

/-- Two orders of the same keys, with a hash function for which their list hashes differ. -/
example : ∃ (H : Hash) (P : Point) (keys keys' : List Point), (P :: keys).Perm keys' ∧
    AnyForger.listHash H (P :: keys) ≠ AnyForger.listHash H keys' := by
  obtain ⟨one, hone⟩ := reduceFrom_surjective 1
  refine ⟨stubHash.answering (listString swapped.1.keys) zeroSeed, mulG scalarOne, [mulG ⟨2, two_ne_zero_scalar⟩], swapped.2.keys,
    (List.reverse_perm _).symm, ?_⟩
  change (stubHash.answering (listString swapped.1.keys) zeroSeed) (listString swapped.1.keys)
    ≠ (stubHash.answering (listString swapped.1.keys) zeroSeed) (listString swapped.2.keys)
  rw [Hash.answering_same, Hash.answering_of_ne _ _ fun e => swapped_ne (listString_inj e).symm]
  intro h
  have h1 := congrArg reduceFrom h
  rw [← hashPubkeys_eq stubHash] at h1
  unfold hashPubkeys at h1
  rw [stubHash_tagHash _ (by decide)] at h1
  exact absurd h1 (by decide +kernel)

/-- **C128**. Not so for every hash function: there is one, right on the tags, with which the order does not show. -/
theorem C128_order_can_be_invisible : ∃ H : Hash, TagsAgree H ∧ ∃ keys keys' : List Point, keys.Perm keys' ∧ keys ≠ keys' ∧
    ∃ ctx ctx', KeyAggContext.new H keys = .ok ctx ∧ KeyAggContext.new H keys' = .ok ctx' ∧ ctx.aggregatedPubkey = ctx'.aggregatedPubkey := by
  refine ⟨stubHash, stubHash_tagsAgree, swapped.1.keys, swapped.2.keys, (List.reverse_perm _).symm, swapped_ne, ?_⟩
  have h1 := sum_swapped (.inl rfl) (fun P _ => stub_coeff swapped.1.keys P)
  have h2 := sum_swapped (.inr rfl) (fun P _ => stub_coeff swapped.2.keys P)
  exact ⟨_, _, new_eq_ok.2 ⟨by simp [swapped, stubKeys], by simp [swapped, stubKeys, u32Max], ⟨_, three_ne⟩, h1, rfl⟩,
    new_eq_ok.2 ⟨by simp [swapped, stubKeys], by simp [swapped, stubKeys, u32Max], ⟨_, three_ne⟩, h2, rfl⟩, rfl⟩

end Verif
