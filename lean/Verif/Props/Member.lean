import Verif.Lemmas.Props.Member
import Verif.Props.Watcher

/-!
# Property C135: groups whose nonces come from the library look like single signers

In C132 and C133 the nonces of the one member are random scalars. Here they are made by `SecNonceBuilder::build` from random seeds, with
whatever inputs: also the secret key of the member, which nobody else knows.
-/

namespace Verif

open Watcher Outsider
open Asking (DrawnNonce)

/-- **C135**. As C132, but the one member of each session makes their nonces with the library, with inputs of the asker's choice. The hashes
that make nonces are drawn as well. -/
theorem C135_signatures_like_single_signers (H : Hash) (hH : TagsAgree H) (A : Outsider (SecNonceBuilder × Spec.GroupOrder)) (q k m : ℕ)
    (hA : A.Within DrawnSigning (fun s => s.2.Fits H) q k) (hm : q + 4 * k ≤ m) :
    |(Spec.chance fun w : (Fin k → Arr 32) × (Fin m → Arr 32) => NonceUser.OnLibrary DrawnSigning H (member H A) w)
      - Spec.chance fun w : (Fin k → Scalar) × (Fin m → Arr 32) => OnLoneSigners H A w|
      ≤ k * (q + 3 * k + 3) / 2 ^ 254 + k / 2 ^ 126 := by
  letI := Fintype.ofFinite (Arr 32)
  letI := Fintype.ofFinite Scalar
  letI := Fintype.ofFinite MaybeScalar
  have hN : ∀ x, DrawnNonce x → DrawnSigning x := fun _ h => .inl h
  have hS : ∀ x, NonceUser.DrawnSeed x → DrawnSigning x := fun _ h => .inr h
  have hT : Asker.Small (fun _ => none) 0 := ⟨[], le_rfl, fun _ h => absurd rfl h⟩
  unfold NonceUser.OnLibrary OnLoneSigners
  rw [chance_game (p := fun s : Fin k → Arr 32 => (member H A).library H (extend zeroSeed s)) fun s =>
      (NonceUser.asks_library hS (within_member hN H hA) _).mono (by omega),
    chance_game (p := fun c : Fin k → Scalar => (A.map fun s => s.2.signer).signers H (extend scalarOne c)) fun c =>
      (asks_signers (within_map (fits' := fun _ => True) (fun _ _ => trivial) hA) _).mono (by omega)]
  have h1 := member_close (H := H) (O := H) hN hS hA hT
  have h2 := game_close (H := H) (T := fun _ => none) (j := 0) hN hH (within_map (f := Prod.snd) (fun _ h => h) hA) hT
  rw [map_map] at h2
  have h3 := over_order k 0 q
  have h4 := bound_add k 0 q 0 0
  rw [Nat.add_zero, Nat.cast_zero] at h4
  rw [Nat.cast_zero] at h1 h2 h3
  have e : (k : ℚ) * (0 + q + 3 * k + 0 + 3) / 2 ^ 254 + k / 2 ^ 126 + 0 = k * (q + 3 * k + 3) / 2 ^ 254 + k / 2 ^ 126 := by ring
  rw [e] at h4
  exact (abs_sub_le _ _ _).trans ((add_le_add h1 ((h2.trans h3).trans_eq (add_zero _).symm)).trans h4)

/-- **C135**. As C133, but the one member makes their nonces with the library. What they put into them is chosen by whoever asks, and may
depend on the secret key of the member. The hashes that make nonces are drawn as well. -/
theorem C135_group_like_single_signer (H : Hash) (hH : TagsAgree H) (A : Asker Plan) (q q' k N m : ℕ)
    (hA : A.AsksAtMost DrawnAll (Plan.Within DrawnAll N q' k) q) (hN : N + 1 ≤ u32Max) (hm : q + q' + 4 * k + N + 2 ≤ m) :
    |(Spec.chance fun w : (Scalar × (Fin k → Arr 32)) × (Fin m → Arr 32) => OnMember DrawnAll H (plain H) A id w)
      - Spec.chance fun w : (Scalar × (Fin k → Scalar)) × (Fin m → Arr 32) => OnSingle DrawnAll H A w|
      ≤ k * (q + q' + 3 * k + N + 5) / 2 ^ 254 + k / 2 ^ 126 + 6 * (q + q') / 2 ^ 256 + 1 / 2 ^ 125 := by
  letI := Fintype.ofFinite (Arr 32)
  letI := Fintype.ofFinite Scalar
  have : Nonempty Scalar := ⟨scalarOne⟩
  have : Nonempty (Arr 32) := ⟨zeroSeed⟩
  refine chance_close (H := H) hA (f := fun (g : Scalar × (Fin k → Arr 32)) p => Watcher.member (plain H) g.1 (extend zeroSeed g.2) p)
    (f' := fun (g : Scalar × (Fin k → Scalar)) p => single H g.1 (extend scalarOne g.2) p) (l := N + 2 + (q' + k + 3 * k)) (by omega)
    (fun g p hp => asks_member drawn_all seed_all hp _ _ (fits_plain drawn_all hp _))
    (fun g p hp => (asks_single hp _ _).mono (by omega)) fun p T hp hT => ?_
  exact (plain_member drawn_all seed_all hH hp hN hT).trans_eq (add_assoc _ _ _).symm

/-- **C135**. The same for the taproot output of the group, with a merkle root or without one. -/
theorem C135_output_like_single_signer (H : Hash) (hH : TagsAgree H) (A : Asker Plan) (q q' k N m : ℕ)
    (hA : A.AsksAtMost DrawnAll (Plan.Within DrawnAll N q' k) q) (hN : N + 1 ≤ u32Max) (hm : q + q' + 4 * k + N + 3 ≤ m) :
    |(Spec.chance fun w : (Scalar × (Fin k → Arr 32)) × (Fin m → Arr 32) => OnMember DrawnAll H (taproot H) A id w)
      - Spec.chance fun w : (Scalar × (Fin k → Scalar)) × (Fin m → Arr 32) => OnSingle DrawnAll H A w|
      ≤ k * (q + q' + 3 * k + N + 6) / 2 ^ 254 + k / 2 ^ 126 + 10 * (q + q') / 2 ^ 256 + 1 / 2 ^ 124 := by
  letI := Fintype.ofFinite (Arr 32)
  letI := Fintype.ofFinite Scalar
  have : Nonempty Scalar := ⟨scalarOne⟩
  have : Nonempty (Arr 32) := ⟨zeroSeed⟩
  refine chance_close (H := H) hA (f := fun (g : Scalar × (Fin k → Arr 32)) p => Watcher.member (taproot H) g.1 (extend zeroSeed g.2) p)
    (f' := fun (g : Scalar × (Fin k → Scalar)) p => single H g.1 (extend scalarOne g.2) p) (l := N + 3 + (q' + k + 3 * k)) (by omega)
    (fun g p hp => asks_member drawn_all seed_all hp _ _ (fits_taproot drawn_all hp _))
    (fun g p hp => (asks_single hp _ _).mono (by omega)) fun p T hp hT => ?_
  exact (taproot_member drawn_all seed_all hH hp hN hT).trans_eq (add_assoc _ _ _).symm

namespace Watcher

/-- As `watchful`; the member puts their secret key, the shown key and the message into their nonces. -/
def careful (n : SecNonce) (msg : Bytes) : Asker Plan := .ask (KeyCommit.listString [Gpt, Gpt]) fun h => .done
  { before := [scalarOne], after := [], root := some h,
    watch := fun Q => .ask (KeyCommit.listString [Q]) fun _ =>
      .sign ⟨[n], [], 1, none, msg, fun x => ⟨zeroSeed, some x, some (mulG x), some Q, some msg, []⟩⟩ fun sig =>
      .sign ⟨[n], [], 0, some Spec.G, sig, fun x => ⟨zeroSeed, some x, some (mulG x), some Q, some sig, []⟩⟩ fun _ =>
        .done (sig.take 32 = Spec.xbytes Spec.G) }

theorem careful_within (n : SecNonce) (msg : Bytes) : (careful n msg).AsksAtMost DrawnAll (Plan.Within DrawnAll 1 1 2) 1 := by
  unfold careful Asker.AsksAtMost
  rw [if_pos (drawn_any drawn_all _ (KeyCommit.drawn_list _))]
  refine ⟨0, rfl, fun h => ⟨le_rfl, fun Q => ?_⟩⟩
  dsimp only
  unfold Outsider.Within
  rw [if_pos (drawn_any drawn_all _ (KeyCommit.drawn_list _))]
  exact ⟨0, rfl, fun _ => ⟨⟨rfl, rfl⟩, 1, rfl, fun _ => ⟨⟨rfl, rfl⟩, 0, rfl, fun _ => trivial⟩⟩⟩

end Watcher

/-- The hypotheses can be met, and the verdict is not always the same. -/
example (n : SecNonce) (msg : Bytes) : ∃ A : Asker Plan, A.AsksAtMost DrawnAll (Plan.Within DrawnAll 1 1 2) 1 ∧
    (∃ w : (Scalar × (Fin 2 → Scalar)) × (Fin 13 → Arr 32), OnSingle DrawnAll stubHash A w) ∧
    ∃ w : (Scalar × (Fin 2 → Scalar)) × (Fin 13 → Arr 32), ¬ OnSingle DrawnAll stubHash A w := by
  have hv : ∀ w : (Scalar × (Fin 2 → Scalar)) × (Fin 13 → Arr 32),
      OnSingle DrawnAll stubHash (careful n msg) w ↔ Spec.xbytes ((w.1.2 0).1 • Spec.G) = Spec.xbytes Spec.G := by
    intro w
    have e : (Spec.signWith stubHash w.1.1 (w.1.2 0) msg).take 32 = Spec.xbytes ((w.1.2 0).1 • Spec.G) := by
      unfold Spec.signWith
      rw [List.take_append_of_le_length (by rw [spec_xbytes, (xonly _).2]), List.take_of_length_le (by rw [spec_xbytes, (xonly _).2])]
    rw [← e]
    unfold OnSingle careful
    simp only [Asker.bind, single, Outsider.map, Outsider.signers, Asker.run, if_pos (drawn_any drawn_all _ (KeyCommit.drawn_list _))]
    split <;> split <;> exact Iff.rfl
  refine ⟨careful n msg, careful_within n msg, ⟨((scalarOne, fun _ => scalarOne), fun _ => zeroSeed), ?_⟩,
    ((scalarOne, fun _ => ⟨2, by decide +kernel⟩), fun _ => zeroSeed), ?_⟩
  · rw [hv]
    change Spec.xbytes ((1 : MaybeScalar) • Spec.G) = _
    rw [one_smul]
  · rw [hv, spec_xbytes, spec_xbytes, spec_G]
    intro h
    rcases xonly_eq_iff.1 (Subtype.ext h) with h | h
    · have := smul_G_inj.1 (h.trans (one_smul _ _).symm)
      revert this
      decide +kernel
    · rw [← neg_one_smul MaybeScalar] at h
      have := smul_G_inj.1 h
      revert this
      decide +kernel

/-- The hypotheses of the first theorem can be met. -/
example (n : SecNonce) (b : SecNonceBuilder) (msg : Bytes) : ∃ A : Outsider (SecNonceBuilder × Spec.GroupOrder),
    A.Within DrawnSigning (fun s => s.2.Fits stubHash) 1 2 := by
  obtain ⟨d, hd⟩ := C07_seckey_complete stubHash stubCtx (.new stubCtx_new) stubKeys rfl
  refine ⟨.sign (b, ⟨⟨stubCtx, stubKeys, d, [n], [], 1, msg⟩, none⟩) fun sig => .ask (Spec.taggedInput "MuSig/noncecoef" sig) fun _ =>
      .sign (b, ⟨⟨stubCtx, stubKeys, d, [], [n], 0, sig⟩, some Spec.G⟩) fun _ => .done (sig.take 32 = Spec.xbytes Spec.G),
    ⟨.new stubCtx_new, rfl, hd, rfl⟩, 1, rfl, fun sig => ?_⟩
  unfold Outsider.Within
  rw [if_pos (.inl (drawn_tagged _))]
  exact ⟨0, rfl, fun _ => ⟨⟨.new stubCtx_new, rfl, hd, rfl⟩, 0, rfl, fun _ => trivial⟩⟩

end Verif
