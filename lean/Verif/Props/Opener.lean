import Verif.Lemmas.Props.OpenerCode
import Verif.Lemmas.Props.AdaptiveExample
import Verif.Props.OneMore

/-!
# Property C143: forging is as hard as one-more discrete logarithms when the forger has a say in the nonces

C120 is about a signer whose nonces are drawn. Here `SecNonceBuilder::build` makes them from random seeds, and the forger chooses all other
inputs, which may depend on the secret key.
-/

namespace Verif

open Opener

/-- **C143**. A forger opens at most `k` sessions at once, with groups and messages of their choice, and for each of them chooses the inputs of
`SecNonceBuilder`, which may contain the secret key. It is given the public key, and asks for at most `q` hashes that are drawn, among them those of the nonces. The chance
of a forgery is at most that of solving one-more discrete logarithms, up to a negligible term. -/
theorem C143_forging_solves_one_more (H : Hash) (hH : TagsAgree H) (A : Point → Opener) (q k m : ℕ) (hA : ∀ P, (A P).AsksAtMost q k) (hm : q + 3 * k ≤ m) :
    (Spec.chance fun p : Scalar × (Fin k → Arr 32) × (Fin m → Arr 32) => Forges H A p)
      ≤ Spec.oneMoreDlog k q (Adaptive.attack k H fun P => (A P).plain) + ((k + 7) * (q * (q + 1)) + 2 ^ 34 * q) / 2 ^ 256
        + k * (2 * (q + 3 * k) / 2 ^ 256 + 1 / 2 ^ 126) :=
  (forges_library hA hm).trans (by linarith [forges_random (k := k) hH hA])

/-- **C143**. The solver is given `2k + 1` points and asks for at most `2k` discrete logarithms. -/
theorem C143_attack_asks_one_less (H : Hash) (A : Point → Opener) (q k : ℕ) (hA : ∀ P, (A P).AsksAtMost q k) (X : Concurrent.Unknown k → Point) :
    (Adaptive.attack k H (fun P => (A P).plain) X).DlogsAtMost (2 * k) ∧ Fintype.card (Concurrent.Unknown k) = 2 * k + 1 :=
  C120_attack_asks_one_less H _ q k (fun P => asks_plain (hA P)) X

/-- **C143**. The game is one against the code, with the hash function that has been drawn in the end. For all draws it ends with public nonces
`pn` and a result `r`, on which every verdict is taken. No session was about what is submitted, and it is valid, if and only if this is so when
`KeyAggContext`, `SecNonceBuilder::build`, `sign_partial` with the adaptor points, and `verify_single` do what they do in the model. -/
theorem C143_game_is_code (H : Hash) (A : Opener) (k m : ℕ) (p : Scalar × (Fin k → Arr 32) × (Fin m → Arr 32)) :
    ∃ pn r, (∀ V, (play V k H p.1 A [] [] []).OnLibrary Drawn H p.2 ↔ V pn r) ∧
      (Accepted H r ↔ AcceptedByCode (drawnHash H A p) p.1 A (Outsider.extend zeroSeed p.2.1) [] []) :=
  play_code H A p

/-- **C143**. Who wins has a signature that the code accepts. -/
theorem C143_forgery_is_accepted (H : Hash) (A : Point → Opener) (k m : ℕ) (p : Scalar × (Fin k → Arr 32) × (Fin m → Arr 32)) (h : Forges H A p) :
    AcceptedByCode (drawnHash H (A (mulG p.1)) p) p.1 (A (mulG p.1)) (Outsider.extend zeroSeed p.2.1) [] [] := by
  obtain ⟨pn, ⟨out, log⟩, h1, h2⟩ := play_code H (A (mulG p.1)) p
  have h3 := (h1 (Adaptive.Wins H (mulG p.1))).1 h
  rcases out with _ | o
  · exact h3.elim
  · exact h2.1 ⟨o, rfl, h3.1, h3.2.1⟩

/-! ### A forger that nearly always succeeds -/

namespace Opener

open Adaptive (exData exAdversary exAdversary_asks exAdversary_forges)

/-- The forger of `Props/Adaptive`, which has been told the secret key. If `Q` is the key of the group, it has the nonce built with `b Q`. -/
noncomputable def exOpener (b : Point → Scalar → SecNonceBuilder) (sk : Scalar) (an : AggNonce) (m : Bytes) : Opener :=
  .ask (Spec.listQuery [mulG sk]) (exData 0) fun h =>
    .ask (Spec.coefString h (mulG sk)) (exData 0) fun c =>
      match notInf (reduceFrom c • (mulG sk).1) with
      | none => .submit [] [] [] ⟨xonly G, 0⟩ (exData 0)
      | some Q => .ask (Spec.challengeQuery (xonly G).1 Q []) (exData (reduceFrom c)) fun e =>
          .start 0 (b Q) fun _ => .sign 0 [mulG sk] [] an m (exData 0) fun _ =>
            .submit [mulG sk] [] [] ⟨xonly G, 1 + reduceFrom e * (Spec.sgn Q.1 * (reduceFrom c * sk.1))⟩ (exData 0)

theorem exOpener_asks (b : Point → Scalar → SecNonceBuilder) (sk : Scalar) (an : AggNonce) (m : Bytes) : (exOpener b sk an m).AsksAtMost 10 1 := by
  refine .ask 9 1 _ _ _ fun h => .ask 8 1 _ _ _ fun c => ?_
  split
  · exact .submit 6 1 [] _ _ _ _
  · exact .ask 7 1 _ _ _ fun e => .start 7 0 _ _ _ fun _ => .sign 3 0 _ [mulG sk] _ _ _ _ _ fun _ => .submit 0 0 [mulG sk] _ _ _ _

theorem exOpener_plain (b : Point → Scalar → SecNonceBuilder) (sk : Scalar) (an : AggNonce) (m : Bytes) : (exOpener b sk an m).plain = exAdversary sk an m := by
  unfold exOpener exAdversary
  rw [plain, rename_list (by simp)]
  congr 1
  funext h
  rw [plain, show rename (Spec.coefString h (mulG sk)) = _ from rename_of_tag (by simp) _]
  congr 1
  funext c
  rcases notInf (reduceFrom c • (mulG sk).1) with _ | Q
  · rfl
  · dsimp only
    rw [plain, show rename (Spec.challengeQuery (xonly G).1 Q []) = _ from rename_of_tag (by simp) _]
    rfl

theorem chance_zero : (Spec.chance fun w : (Fin 1 → Scalar × Scalar) × (Fin 13 → Arr 32) => reduceFrom (w.2 1) = 0) ≤ 2 / 2 ^ 256 := by
  let _ := Fintype.ofFinite Scalar
  let _ := Fintype.ofFinite (Arr 32)
  have hpos : 0 < Nat.card (Arr 32) := by
    have : Nonempty (Arr 32) := ⟨zeroSeed⟩
    exact Nat.card_pos
  have h := CmaForger.chance_update (Ω := Arr 32) (1 : Fin 13) (fun ω => reduceFrom (ω 1) = 0) 2 hpos fun τ => by
    refine (Set.ncard_le_ncard (fun t ht => ?_) (Set.toFinite _)).trans (ncard_mod_le 0)
    change beNat t.1 % orderN = 0
    have ht : reduceFrom (Function.update τ 1 t 1) = 0 := ht
    rw [← reduceFrom_val]
    rw [Function.update_self] at ht
    rw [ht]
    exact ZMod.val_zero
  rw [arr_card] at h
  have hne : Nonempty (Fin 1 → Scalar × Scalar) := ⟨fun _ => (scalarOne, scalarOne)⟩
  have hc : (0 : ℚ) < Fintype.card (Fin 1 → Scalar × Scalar) := by exact_mod_cast Fintype.card_pos
  rw [Decision.chance_prod (Ω := Fin 1 → Scalar × Scalar) (Ω' := Fin 13 → Arr 32) fun _ ω => reduceFrom (ω 1) = 0, Finset.sum_const,
    Finset.card_univ, nsmul_eq_mul, mul_div_cancel_left₀ _ hc.ne']
  refine h.trans (le_of_eq ?_)
  norm_num

/-- The forger of the example wins, but for a negligible part of the seeds and hashes. -/
theorem exOpener_forges (b : Point → Scalar → SecNonceBuilder) (sk : Scalar) (an : AggNonce) (m : Bytes) (hm : m ≠ []) :
    1 - 1 / 2 ^ 120 ≤ Spec.chance fun w : (Fin 1 → Arr 32) × (Fin 13 → Arr 32) => Forges sha256 (fun _ => exOpener b sk an m) (sk, w) := by
  have hW := within_game (exOpener_asks b sk an m) 1 sha256 sk [] [] []
  have h := C134_nonces_like_random Drawn (fun x hx => .inr hx) sha256 _ 10 1 13 hW (by norm_num)
  have hr : ∀ w : (Fin 1 → Scalar × Scalar) × (Fin 13 → Arr 32), (game 1 sha256 sk (exOpener b sk an m) [] [] []).OnRandom Drawn sha256 w
      ∨ reduceFrom (w.2 1) = 0 := by
    intro w
    by_cases h0 : reduceFrom (w.2 1) = 0
    · exact .inr h0
    · refine .inl ?_
      have := (onRandom_iff sha256 (exOpener b sk an m) ((unknownEquiv 1 (Fin 13 → Arr 32)).symm (sk, w))).2 (by
        rw [exOpener_plain]
        exact exAdversary_forges sha256_tagsAgree sk _ an m (fun h => absurd h hm) w.2 h0)
      rwa [Equiv.apply_symm_apply] at this
  have h1 : 1 ≤ (Spec.chance fun w : (Fin 1 → Scalar × Scalar) × (Fin 13 → Arr 32) =>
      (game 1 sha256 sk (exOpener b sk an m) [] [] []).OnRandom Drawn sha256 w) + 2 / 2 ^ 256 := by
    refine le_trans ?_ ((CmaForger.chance_or _ fun w : (Fin 1 → Scalar × Scalar) × (Fin 13 → Arr 32) => reduceFrom (w.2 1) = 0).trans
      (add_le_add_right chance_zero _))
    unfold Spec.chance
    simp only [hr, Set.ofPred_true, Set.ncard_univ]
    have : Nonempty ((Fin 1 → Scalar × Scalar) × (Fin 13 → Arr 32)) := ⟨fun _ => (scalarOne, scalarOne), fun _ => zeroSeed⟩
    exact (div_self (Nat.cast_ne_zero.2 Nat.card_pos.ne')).ge
  have h2 := (abs_le.1 h).1
  have h3 : (Spec.chance fun w : (Fin 1 → Arr 32) × (Fin 13 → Arr 32) => Forges sha256 (fun _ => exOpener b sk an m) (sk, w))
      = Spec.chance fun w : (Fin 1 → Arr 32) × (Fin 13 → Arr 32) =>
        (game 1 sha256 sk (exOpener b sk an m) [] [] []).OnLibrary Drawn sha256 w := rfl
  rw [h3]
  norm_num at h1 h2 ⊢
  linarith

end Opener

/-- The hypotheses can be met by a forger with unlimited time that computes the secret key from the public key, has it put into the nonce, and
wins nearly always. -/
example (an : AggNonce) (m : Bytes) (hm : m ≠ []) : ∃ A : Point → Opener, (∀ P, (A P).AsksAtMost 10 1) ∧
    ∀ sk, 1 - 1 / 2 ^ 120 ≤ Spec.chance fun w : (Fin 1 → Arr 32) × (Fin 13 → Arr 32) => Forges sha256 A (sk, w) := by
  choose f hf using mulG_surjective
  let b : Point → Scalar → SecNonceBuilder := fun Q d => ⟨zeroSeed, some d, some (mulG d), some Q, some m, []⟩
  refine ⟨fun P => exOpener b (f P) an m, fun P => exOpener_asks _ _ an m, fun sk => ?_⟩
  refine (exOpener_forges b sk an m hm).trans_eq ?_
  unfold Forges
  simp only [mulG_injective (hf (mulG sk))]

end Verif
