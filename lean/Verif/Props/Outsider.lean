import Verif.Lemmas.Props.Outsider

/-!
# Property C132: signatures of groups on messages that are chosen while signatures are received

In C131 the messages, and the nonces of the other members, are chosen before anything is drawn. Here they are chosen at any time, by
somebody who asks for a limited number of hashes.
-/

namespace Verif

open Outsider OneSigner Asker
open Asking (DrawnNonce)

/-- **C132**. Somebody asks for at most `q` hashes of nonce coefficients, any number of other hashes and at most `k` signatures, at any
time, with groups, keys, tweaks, messages, adaptor secrets or adaptor points, and nonces of all members but one of their choice. Whether the
groups make adaptor signatures, and complete them if the adaptor secret is given, or single signers with the aggregated secret keys and
random nonces sign, the chance of a yes is the same up to `k(q + k + 5)/2^255`. -/
theorem C132_signatures_like_single_signers (H : Hash) (hH : TagsAgree H) (A : Outsider Spec.GroupOrder) (q k m : ℕ)
    (hA : A.Within DrawnNonce (Spec.GroupOrder.Fits H) q k) (hm : q + k ≤ m) :
    |(Spec.chance fun w : (Fin k → Scalar × Scalar) × (Fin m → Arr 32) => OnGroups H A w)
      - Spec.chance fun w : (Fin k → Scalar) × (Fin m → Arr 32) => OnSigners H A w| ≤ k * (q + k + 5) / 2 ^ 255 := by
  letI := Fintype.ofFinite (Arr 32)
  letI := Fintype.ofFinite Scalar
  letI := Fintype.ofFinite MaybeScalar
  unfold OnGroups OnSigners
  rw [chance_game (p := fun w : Fin k → Scalar × Scalar => A.groups H (extend (scalarOne, scalarOne) w)) fun w =>
      (asks_groups (fun _ h => h) hA _).mono hm,
    chance_game (p := fun c : Fin k → Scalar => (A.map Spec.GroupOrder.signer).signers H (extend scalarOne c)) fun c => (asks_signers (within_map (fits' := fun _ => True) (fun _ _ => trivial) hA) _).mono (by omega)]
  have h := game_close (H := H) (T := fun _ => none) (j := 0) (fun _ h => h) hH hA ⟨[], le_rfl, fun _ h => absurd rfl h⟩
  rw [Nat.cast_zero, zero_add] at h
  refine h.trans (div_le_div_of_nonneg_left (by positivity) (by positivity) ?_)
  have : 2 ^ 255 ≤ orderN - 1 := by decide +kernel
  exact_mod_cast this

namespace Outsider

/-- Somebody who has the group of two sign a message, asks for a hash, and then has the same group make an adaptor signature for the
adaptor point `G` on the signature; they say yes if both have the nonce point `G`. -/
def busy (d : Scalar) (n : SecNonce) (msg : Bytes) : Outsider Spec.GroupOrder :=
  .sign ⟨⟨stubCtx, stubKeys, d, [n], [], 1, msg⟩, none⟩ fun sig =>
    .ask (Spec.taggedInput "MuSig/noncecoef" sig) fun _ =>
      .sign ⟨⟨stubCtx, stubKeys, d, [], [n], 0, sig⟩, some Spec.G⟩ fun asig =>
        .done (sig.take 32 = Spec.xbytes Spec.G ∧ asig.take 33 = Spec.cbytes Spec.G)

theorem drawn_tagged (x : Bytes) : Asking.DrawnNonce (Spec.taggedInput "MuSig/noncecoef" x) := tag_prefix _ _

end Outsider

/-- The hypotheses can be met, and the verdict is not always the same. -/
example (n : SecNonce) (msg : Bytes) : ∃ A : Outsider Spec.GroupOrder, A.Within DrawnNonce (Spec.GroupOrder.Fits stubHash) 1 2 ∧
    (∃ w : (Fin 2 → Scalar) × (Fin 3 → Arr 32), OnSigners stubHash A w) ∧
    ∃ w : (Fin 2 → Scalar) × (Fin 3 → Arr 32), ¬ OnSigners stubHash A w := by
  obtain ⟨d, hd⟩ := C07_seckey_complete stubHash stubCtx (.new stubCtx_new) stubKeys rfl
  have hv : ∀ w : (Fin 2 → Scalar) × (Fin 3 → Arr 32),
      OnSigners stubHash (busy d n msg) w ↔ Spec.xbytes ((w.1 0).1 • Spec.G) = Spec.xbytes Spec.G ∧
        Spec.cbytes_ext ((w.1 1).1 • Spec.G) = Spec.cbytes Spec.G := by
    intro w
    have e : (Spec.signWith stubHash d (w.1 0) msg).take 32 = Spec.xbytes ((w.1 0).1 • Spec.G) := by
      unfold Spec.signWith
      rw [List.take_append_of_le_length (by rw [spec_xbytes, (xonly _).2]), List.take_of_length_le (by rw [spec_xbytes, (xonly _).2])]
    have e' : ∀ m, (Spec.adaptorWith stubHash d (w.1 1) Spec.G m).take 33 = Spec.cbytes_ext ((w.1 1).1 • Spec.G) := by
      intro m
      unfold Spec.adaptorWith
      rw [List.take_append_of_le_length (by rw [spec_cbytes_ext, (serPoint _).2]), List.take_of_length_le (by rw [spec_cbytes_ext, (serPoint _).2])]
    rw [← e, ← e' (Spec.signWith stubHash d (w.1 0) msg)]
    unfold OnSigners busy
    rw [map, signers, map, signers, Asker.run, if_pos (drawn_tagged _)]
    exact Iff.rfl
  refine ⟨busy d n msg, ⟨⟨.new stubCtx_new, rfl, hd, rfl⟩, 1, rfl, fun sig => ?_⟩, ⟨(fun _ => scalarOne, fun _ => zeroSeed), ?_⟩,
    (fun _ => ⟨2, by decide +kernel⟩, fun _ => zeroSeed), ?_⟩
  · unfold Within
    rw [if_pos (drawn_tagged _)]
    exact ⟨0, rfl, fun _ => ⟨⟨.new stubCtx_new, rfl, hd, rfl⟩, 0, rfl, fun _ => trivial⟩⟩
  · rw [hv]
    change Spec.xbytes ((1 : MaybeScalar) • Spec.G) = _ ∧ Spec.cbytes_ext ((1 : MaybeScalar) • Spec.G) = _
    rw [one_smul]
    refine ⟨rfl, ?_⟩
    rw [spec_G]
    exact if_neg Gpt.2
  · rw [hv, spec_xbytes, spec_xbytes, spec_G]
    rintro ⟨h, -⟩
    rcases xonly_eq_iff.1 (Subtype.ext h) with h | h
    · have := smul_G_inj.1 (h.trans (one_smul _ _).symm)
      revert this
      decide +kernel
    · rw [← neg_one_smul MaybeScalar] at h
      have := smul_G_inj.1 h
      revert this
      decide +kernel

end Verif
