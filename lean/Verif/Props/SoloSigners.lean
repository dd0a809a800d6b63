import Verif.Lemmas.Props.SoloSigners
import Verif.Props.Member

/-!
# Property C136: signers who use `sign_solo`

In C132, C133 and C135 the single signer has random nonces. Here they call `sign_solo`, or `sign_solo_adaptor` if an adaptor
signature is wanted, with random seeds: this is as good as random nonces, and a group whose one member uses the library looks like a single signer who uses it.
-/

namespace Verif

open Watcher Outsider

/-- **C136**. Whoever asks for signatures and adaptor signatures of single signers, with keys, messages and adaptor points of their choice, each
chosen with all signatures before, cannot tell whether the signers call `sign_solo` and `sign_solo_adaptor` with random seeds or have
random nonces. The hashes that these make nonces from are drawn, and may be asked for; any others may be drawn as well. -/
theorem C136_solo_like_random_nonces (D : Bytes → Prop) [DecidablePred D] (hD : ∀ x, DrawnSolo x → D x) (H : Hash) (hH : TagsAgree H)
    (A : Outsider Spec.SignerOrder) (q k m : ℕ) (hA : A.Within D (fun _ => True) q k) (hm : q + 2 * k ≤ m) :
    |(Spec.chance fun w : (Fin k → Arr 32) × (Fin m → Arr 32) => OnSolos D H A w)
      - Spec.chance fun w : (Fin k → Scalar) × (Fin m → Arr 32) => OnRandomNonces D H A w|
      ≤ k * (q + 2 * k) / 2 ^ 255 + k / 2 ^ 127 := by
  letI := Fintype.ofFinite (Arr 32)
  letI := Fintype.ofFinite Scalar
  have hT : Asker.Small (fun _ => none) 0 := ⟨[], le_rfl, fun _ h => absurd rfl h⟩
  unfold OnSolos OnRandomNonces
  rw [chance_game (p := fun s : Fin k → Arr 32 => A.solos H (extend zeroSeed s)) fun s => (asks_solos hD hH hA _).mono hm,
    chance_game (p := fun c : Fin k → Scalar => A.signers H (extend scalarOne c)) fun c => (asks_signers hA _).mono (by omega)]
  refine (solos_close (H := H) hD hH hA hT).trans (le_of_eq ?_)
  rw [Nat.cast_zero]
  ring

/-- **C136**. A group whose one member makes their nonces with the library looks like a single signer who uses `sign_solo`. -/
theorem C136_group_like_solo (H : Hash) (hH : TagsAgree H) (A : Asker Plan) (q q' k N m : ℕ)
    (hA : A.AsksAtMost DrawnEvery (Plan.Within DrawnEvery N q' k) q) (hN : N + 1 ≤ u32Max) (hm : q + q' + 4 * k + N + 2 ≤ m) :
    |(Spec.chance fun w : (Scalar × (Fin k → Arr 32)) × (Fin m → Arr 32) => OnMember DrawnEvery H (plain H) A id w)
      - Spec.chance fun w : (Scalar × (Fin k → Arr 32)) × (Fin m → Arr 32) => OnSolo DrawnEvery H A w|
      ≤ k * (q + q' + 3 * k + N + 5) / 2 ^ 253 + k / 2 ^ 125 + (6 * (q + q') / 2 ^ 256 + 1 / 2 ^ 125) := by
  letI := Fintype.ofFinite (Arr 32)
  letI := Fintype.ofFinite Scalar
  have : Nonempty Scalar := ⟨scalarOne⟩
  have : Nonempty (Arr 32) := ⟨zeroSeed⟩
  refine chance_close (H := H) hA (f := fun (g : Scalar × (Fin k → Arr 32)) p => Watcher.member (plain H) g.1 (extend zeroSeed g.2) p)
    (f' := fun (g : Scalar × (Fin k → Arr 32)) p => solo H g.1 (extend zeroSeed g.2) p) (l := N + 2 + (q' + k + 3 * k)) (by omega)
    (fun g p hp => asks_member every_any every_seed hp _ _ (fits_plain every_any hp _))
    (fun g p hp => (Watcher.asks_solo every_solo hH hp _ _).mono (by omega)) fun p T hp hT => ?_
  refine (abs_sub_le _ _ _).trans ((add_le_add (plain_member every_any every_seed hH hp hN hT) (single_solo every_solo hH hp hT)).trans
    (bound_solo k q q' _ _ ?_))
  have h1 : (0 : ℚ) ≤ k := Nat.cast_nonneg k
  have h2 : (0 : ℚ) ≤ N := Nat.cast_nonneg N
  linarith

/-- **C136**. The same for the taproot output of the group. -/
theorem C136_output_like_solo (H : Hash) (hH : TagsAgree H) (A : Asker Plan) (q q' k N m : ℕ)
    (hA : A.AsksAtMost DrawnEvery (Plan.Within DrawnEvery N q' k) q) (hN : N + 1 ≤ u32Max) (hm : q + q' + 4 * k + N + 3 ≤ m) :
    |(Spec.chance fun w : (Scalar × (Fin k → Arr 32)) × (Fin m → Arr 32) => OnMember DrawnEvery H (taproot H) A id w)
      - Spec.chance fun w : (Scalar × (Fin k → Arr 32)) × (Fin m → Arr 32) => OnSolo DrawnEvery H A w|
      ≤ k * (q + q' + 3 * k + N + 6) / 2 ^ 253 + k / 2 ^ 125 + (10 * (q + q') / 2 ^ 256 + 1 / 2 ^ 124) := by
  letI := Fintype.ofFinite (Arr 32)
  letI := Fintype.ofFinite Scalar
  have : Nonempty Scalar := ⟨scalarOne⟩
  have : Nonempty (Arr 32) := ⟨zeroSeed⟩
  refine chance_close (H := H) hA (f := fun (g : Scalar × (Fin k → Arr 32)) p => Watcher.member (taproot H) g.1 (extend zeroSeed g.2) p)
    (f' := fun (g : Scalar × (Fin k → Arr 32)) p => solo H g.1 (extend zeroSeed g.2) p) (l := N + 3 + (q' + k + 3 * k)) (by omega)
    (fun g p hp => asks_member every_any every_seed hp _ _ (fits_taproot every_any hp _))
    (fun g p hp => (Watcher.asks_solo every_solo hH hp _ _).mono (by omega)) fun p T hp hT => ?_
  refine (abs_sub_le _ _ _).trans ((add_le_add (taproot_member every_any every_seed hH hp hN hT) (single_solo every_solo hH hp hT)).trans
    (bound_solo k q q' _ _ ?_))
  have h1 : (0 : ℚ) ≤ k := Nat.cast_nonneg k
  have h2 : (0 : ℚ) ≤ N := Nat.cast_nonneg N
  linarith

namespace Outsider

/-- Asks for the hash of a seed, has a message signed and then an adaptor signature made on the signature, for the adaptor point `G`, and
looks at the first nonce. -/
def curious (sk : Scalar) (msg : Bytes) : Outsider Spec.SignerOrder :=
  .ask (soloAux zeroSeed) fun _ => .sign ⟨sk, none, msg⟩ fun sig => .sign ⟨sk, some Spec.G, sig⟩ fun _ => .done (sig.take 32 = Spec.xbytes Spec.G)

theorem curious_within (sk : Scalar) (msg : Bytes) : (curious sk msg).Within DrawnSolo (fun _ => True) 1 2 := by
  unfold curious Outsider.Within
  rw [if_pos (drawn_soloAux _)]
  exact ⟨0, rfl, fun _ => ⟨trivial, 1, rfl, fun _ => ⟨trivial, 0, rfl, fun _ => trivial⟩⟩⟩

end Outsider

/-- The hypotheses can be met, and the verdict on random nonces is not always the same. -/
example (sk : Scalar) (msg : Bytes) : ∃ A : Outsider Spec.SignerOrder, A.Within DrawnSolo (fun _ => True) 1 2 ∧
    (∃ w : (Fin 2 → Scalar) × (Fin 5 → Arr 32), OnRandomNonces DrawnSolo stubHash A w) ∧
    ∃ w : (Fin 2 → Scalar) × (Fin 5 → Arr 32), ¬ OnRandomNonces DrawnSolo stubHash A w := by
  have hv : ∀ w : (Fin 2 → Scalar) × (Fin 5 → Arr 32),
      OnRandomNonces DrawnSolo stubHash (curious sk msg) w ↔ Spec.xbytes ((w.1 0).1 • Spec.G) = Spec.xbytes Spec.G := by
    intro w
    have e : (Spec.signWith stubHash sk (w.1 0) msg).take 32 = Spec.xbytes ((w.1 0).1 • Spec.G) := by
      unfold Spec.signWith
      rw [List.take_append_of_le_length (by rw [spec_xbytes, (xonly _).2]), List.take_of_length_le (by rw [spec_xbytes, (xonly _).2])]
    rw [← e]
    unfold OnRandomNonces curious
    simp only [Outsider.signers, Asker.run, if_pos (drawn_soloAux _)]
    split <;> exact Iff.rfl
  refine ⟨curious sk msg, curious_within sk msg, ⟨(fun _ => scalarOne, fun _ => zeroSeed), ?_⟩,
    (fun _ => ⟨2, by decide +kernel⟩, fun _ => zeroSeed), ?_⟩
  · rw [hv]
    change Spec.xbytes ((1 : MaybeScalar) • Spec.G) = _
    rw [one_smul]
  · rw [hv, spec_xbytes, spec_xbytes, spec_G]
    intro h
    rcases xonly_eq_iff.1 (Subtype.ext h) with h | h
    · have := smul_G_inj.1 (h.trans (one_smul _ _).symm)
      revert this
      decide +kernel
    · rw [← neg_one_smul MaybeScalar] at h
      have := smul_G_inj.1 h
      revert this
      decide +kernel

/-- The hypotheses of the other theorems can be met. -/
example (n : SecNonce) (msg : Bytes) : ∃ A : Asker Plan, A.AsksAtMost DrawnEvery (Plan.Within DrawnEvery 1 1 2) 1 := by
  refine ⟨careful n msg, ?_⟩
  unfold careful Asker.AsksAtMost
  rw [if_pos (drawn_any every_any _ (KeyCommit.drawn_list _))]
  refine ⟨0, rfl, fun h => ⟨le_rfl, fun Q => ?_⟩⟩
  dsimp only
  unfold Outsider.Within
  rw [if_pos (drawn_any every_any _ (KeyCommit.drawn_list _))]
  exact ⟨0, rfl, fun _ => ⟨⟨rfl, rfl⟩, 1, rfl, fun _ => ⟨⟨rfl, rfl⟩, 0, rfl, fun _ => trivial⟩⟩⟩

end Verif
