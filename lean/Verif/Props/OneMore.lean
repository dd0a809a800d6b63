import Verif.Lemmas.Props.OneMore

/-!
# Properties C120 and C121: forging is as hard as the one-more discrete logarithm problem

The forgers are those of C119: they take part in any number of sessions at once and make up the groups, tweaks and messages during
the game. Now the secrets of the signer are drawn too, and the forger is given the public key. In C120 the nonces are those of
`SecNonce::random`. In C121 they are those of `SecNonceBuilder::build`, as with `FirstRound::new` and `SecNonce::generate`, from
seeds that are drawn, and the hashes with the tags `MuSig/aux` and `MuSig/nonce` that the signer makes are drawn as well.
-/

namespace Verif

open Forger (answers)
open Concurrent (Unknown secrets)
open Adaptive

/-! ## C120 -/

/-- **C120**. If the secret key and the secret nonces are drawn, then an algebraic forger that opens at most `k` sessions at once
and has at most `q` strings drawn succeeds no more often than `attack` solves the one-more discrete logarithm problem, up to
`((k + 7) q (q + 1) + 2 ^ 34 q) / 2 ^ 256`. -/
theorem C120_forging_solves_one_more (H : Hash) (hH : TagsAgree H) (A : Point → Adversary) (q k : ℕ) (hA : ∀ P, (A P).AsksAtMost q k) :
    (Spec.chance fun p : (Unknown k → Scalar) × (Fin q → Arr 32) => Forges k H (p.1 none) (secretNonces p.1) (A (mulG (p.1 none))) p.2)
      ≤ Spec.oneMoreDlog k q (attack k H A) + ((k + 7) * (q * (q + 1)) + 2 ^ 34 * q) / 2 ^ 256 :=
  forges_oneMore hH hA

/-- **C120**. The solver is given `2k + 1` points and asks for at most `2k` discrete logarithms. -/
theorem C120_attack_asks_one_less (H : Hash) (A : Point → Adversary) (q k : ℕ) (hA : ∀ P, (A P).AsksAtMost q k)
    (X : Unknown k → Point) :
    (attack k H A X).DlogsAtMost (2 * k) ∧ Fintype.card (Unknown k) = 2 * k + 1 := by
  refine ⟨?_, by simp [mul_comm]⟩
  have := dlogs_game H (X none) (publicNonces X) (fun i g r hb he => Concurrent.signatureRow k (g.known (X none)) i 0 r hb he)
    (fun i g r hb he z => Concurrent.nonceSign r hb * z)
    (fun | none => .done 0 | some out => Concurrent.solve (out.signatureRow k (X none)) (out.candidates k (X none) (publicNonces X)))
    (dlogs_finish k (X none) (publicNonces X)) (by trivial) (hA (X none)) [] (by simp)
  rw [List.map_nil, Concurrent.signedCount_nil] at this
  exact this

/-- **C120**. The nonces are those of `k` calls of `random`, with a generator that draws the unknowns. -/
theorem C120_nonces_are_random (k : ℕ) (x : Unknown k → Scalar) (f : ℕ → Scalar) (b : ℕ → Arr 32)
    (hf : ∀ i : Fin k, f (2 * i) = x (some (i, false)) ∧ f (2 * i + 1) = x (some (i, true))) (i : ℕ) (hi : i < k) :
    (Spec.calls (SecNonce.random (Spec.replay f b)) k (0, 0)).1[i]? = some (secretNonces x i) := by
  rw [calls_random, List.getElem?_map, List.getElem?_range hi]
  simp only [Option.map_some, zero_add, secretNonces, dif_pos hi]
  rw [(hf ⟨i, hi⟩).1, (hf ⟨i, hi⟩).2]

/-- A forger that computes the secret key from the public key, with unlimited time. It succeeds for all secret keys and nonces, and almost
all hashes. -/
example (an : AggNonce) : ∃ A : Point → Adversary, (∀ P, (A P).AsksAtMost 10 1) ∧
    ∀ p : (Unknown 1 → Scalar) × (Fin 10 → Arr 32), reduceFrom (answers p.2 1) ≠ 0 →
      Forges 1 sha256 (p.1 none) (secretNonces p.1) (A (mulG (p.1 none))) p.2 := by
  choose sk hsk using mulG_surjective
  refine ⟨fun P => exAdversary (sk P) an [1], fun P => exAdversary_asks _ an [1], fun p hp => ?_⟩
  have e : sk (mulG (p.1 none)) = p.1 none := mulG_injective (hsk _)
  beta_reduce
  rw [e]
  exact exAdversary_forges sha256_tagsAgree _ _ an [1] (fun h => absurd h (by decide)) _ hp

/-! ## C121 -/

/-- **C121**. The same if the nonces are built from seeds. The settings of the builders are arbitrary: they may depend on the secret key,
the nonces and the hashes that the forger is told, though not on the seeds. The hash function, which is given to the forger and to the signer,
is `H`, but for the strings that are drawn. If the forger asks for at most `m` strings other than those of challenges, nonce
coefficients and key aggregation, then the probability grows by at most `2k (k + m) / 2 ^ 256 + k / 2 ^ 126`. -/
theorem C121_forging_solves_one_more (H : Hash) (hH : TagsAgree H) (A : Point → Adversary) (q k m : ℕ)
    (B : Scalar → (Fin k → Arr 32 × Arr 32) → (Fin q → Arr 32) → ℕ → SecNonceBuilder)
    (hA : ∀ P, (A P).AsksAtMost q k) (hm : ∀ P, (A P).OthersAtMost m) :
    (Spec.chance fun p : Scalar × (Fin k → Spec.NonceDraw) × (Fin q → Arr 32) =>
      let b := B p.1 (fun i => (p.2.1 i).2) p.2.2
      Forges k (Spec.nonceHash H b p.2.1) p.1 (Spec.builtNonce H b p.2.1) (A (mulG p.1)) p.2.2)
      ≤ Spec.oneMoreDlog k q (attack k H A) + ((k + 7) * (q * (q + 1)) + 2 ^ 34 * q) / 2 ^ 256
        + (2 * k * (k + m) / 2 ^ 256 + k / 2 ^ 126) :=
  forges_built hH B hA hm

/-- **C121**. The hash function is `H` but for the strings of the signer, where it has the values that are drawn, unless strings
agree. -/
theorem C121_what_is_drawn (H : Hash) (k : ℕ) (B : ℕ → SecNonceBuilder) (d : Fin k → Spec.NonceDraw) :
    let O := Spec.nonceHash H B d
    let s := fun (i : Fin k) (j : UInt8) => Spec.nonceQuery O (Spec.seeded (B i) (d i).1.1) j
    (∀ x, (∀ i, x ≠ Spec.auxQuery (d i).1.1) → (∀ i, x ≠ s i 0 ∧ x ≠ s i 1) → O x = H x) ∧
      ((∀ i j, (d i).1.1 = (d j).1.1 → i = j) → ∀ i, O (Spec.auxQuery (d i).1.1) = (d i).1.2) ∧
      ((∀ i j a b, s i a = s j b → i = j) → ∀ i, O (s i 0) = (d i).2.1 ∧ O (s i 1) = (d i).2.2) := by
  intro O s
  have hstr : ∀ i j, s i j = nonceString H B d i j := fun i j => nonceQuery_nonceHash H B d i j
  refine ⟨fun x h1 h2 => ?_, fun hs i => ?_, fun hs i => ?_⟩
  · exact nonceHash_other' H B d h1 fun i => by rw [← hstr, ← hstr]; exact h2 i
  · rw [← seedHash_seed H d (fun i j h => hs i j h) i]
    exact nonceHash_aux H B d _
  · have hn := nonceStrings_nodup' H B d fun i j a b h => hs i j a b (by rw [hstr, hstr]; exact h)
    rw [hstr, hstr]
    exact ⟨answeringAll_of_mem _ hn (List.mem_flatMap.2 ⟨i, List.mem_finRange _, by simp [nonceString]⟩),
      answeringAll_of_mem _ hn (List.mem_flatMap.2 ⟨i, List.mem_finRange _, by simp [nonceString]⟩)⟩

/-- **C121**. The whole game is one against the code. With the hash function `O` that has been drawn, `build` makes the nonces of the
sessions, `new` and `with_tweaks` make the contexts from what the forger sent, `sign_partial` makes the partial signatures, and
`verify_single` accepts the forgery, whose message, x-only key and x-only nonce are not those of a
session. -/
theorem C121_game_is_code (H : Hash) (hH : TagsAgree H) (A : Adversary) (q k : ℕ) (hA : A.AsksAtMost q k) (sk : Scalar)
    (B : ℕ → SecNonceBuilder) (d : Fin k → Spec.NonceDraw) (ω : Fin q → Arr 32) :
    let sn := Spec.builtNonce H B d
    let res := (signerGame k (Spec.nonceHash H B d) sk sn A).run (secrets k sk sn) (answers ω) []
    let O := res.2.hash (Spec.nonceHash H B d)
    Forges k (Spec.nonceHash H B d) sk sn A ω → TagsAgree O ∧
      (∀ i (hi : i < k), sn i = (Spec.seeded (B i) (d ⟨i, hi⟩).1.1).build O) ∧
      ∃ out, res.1 = some out ∧ BuiltFrom O out.group.ctx out.group.keys out.group.tweaks ∧ mulG sk ∈ out.group.keys ∧
        verifySingle O out.group.ctx.aggregatedPubkey out.sig out.msg = .ok () ∧
        ∀ (i : ℕ) (T : MaybePoint) (r : Signed), out.sessions[i]? = some ⟨T, some r⟩ → i < k ∧
          BuiltFrom O r.group.ctx r.group.keys r.group.tweaks ∧ mulG sk ∈ r.group.keys ∧
          signPartialAdaptor O r.group.ctx sk (sn i) r.aggnonce T r.message = .ok r.sig ∧
          ¬ (r.message = out.msg ∧ Spec.xbytes r.group.ctx.aggregatedPubkey.1 = Spec.xbytes out.group.ctx.aggregatedPubkey.1 ∧
            Spec.xbytes (Spec.sessionNonce O r.group.ctx.aggregatedPubkey ⟨r.aggnonce, T, r.message⟩) = out.sig.rx.1) := by
  intro sn res O hF
  obtain ⟨h0, h1⟩ := game_inv (σ := fun i g r hb he => SessionForger.partialSignature g.hash g.ctx sk (sn i) r hb he)
    (tagsAgree_nonceHash B d hH) (fun i => (sn i).publicNonce) (secrets k sk sn) (answers ω)
    (sign := fun i g r hb he => .done _) (fun i hi g hg r hb he log => rfl) hA
    (by simp) (gameInv_nil (mulG sk) _)
  refine ⟨tagsAgree_hash (tagsAgree_nonceHash B d hH) h0, fun i hi => ?_, ?_⟩
  · change Spec.builtNonce H B d i = _
    rw [Spec.builtNonce, dif_pos hi]
    exact (build_log h0 _).symm
  · unfold Forges at hF
    change Wins _ _ _ res at hF
    have hres : (res.1, res.2) = res := rfl
    rcases hr : res.1 with _ | out
    · rw [← hres, hr] at hF
      exact hF.elim
    · rw [← hres, hr] at hF
      obtain ⟨f1, f2, -⟩ := hF
      obtain ⟨h2, h3, h4, h5, -⟩ := h1 out hr
      refine ⟨out, rfl, built_hash h2.distinct h4 h5, h4.member, f2, fun i T r hs => ?_⟩
      obtain ⟨hlt, hmem⟩ := List.getElem?_eq_some_iff.1 hs
      obtain ⟨g1, g2, g3⟩ := signed_code h2 hs
      refine ⟨lt_of_lt_of_le hlt (h3.trans (by simp)), g1, g2, g3, ?_⟩
      have hn : _ = Spec.sessionNonce O r.group.ctx.aggregatedPubkey ⟨r.aggnonce, T, r.message⟩ := signed_nonce h2 hs
      rw [← hn]
      exact f1 ⟨T, some r⟩ (hmem ▸ List.getElem_mem hlt) r rfl

/-- **C121**. `FirstRound::new` and `SecNonce::generate` build their nonces with settings that do not depend on the seed. -/
theorem C121_settings (ctx : KeyAggContext) (i : ℕ) (spices : SecNonceSpices) (sk : Scalar) (Q : Point) (msg extra : Bytes) :
    (∀ (H : Hash) (seed : Arr 32) (r : FirstRound), FirstRound.new H ctx seed i spices = .ok r →
      ∃ b : SecNonceBuilder, ∀ (H' : Hash) (seed' : Arr 32), ∃ r', FirstRound.new H' ctx seed' i spices = .ok r' ∧
        r'.secnonce = (Spec.seeded b seed').build H') ∧
    (extra.length ≤ 4294967295 → ∀ (ε : Type) (H' : Hash) (seed' : Arr 32),
      (SecNonce.generate H' seed' sk Q msg extra : Res ε SecNonce)
        = .ok ((Spec.seeded ⟨zeroSeed, some sk, some (mulG sk), some Q, some msg, [extra]⟩ seed').build H')) := by
  constructor
  · intro H seed r h
    obtain ⟨P, b, hP, hb, -⟩ := FirstRound.new_eq_ok.1 h
    refine ⟨b, fun H' seed' => ⟨_, FirstRound.new_eq_ok.2 ⟨P, Spec.seeded b seed', hP, ?_, rfl⟩, rfl⟩⟩
    unfold FirstRound.builder at hb ⊢
    obtain ⟨b1, h1, h2⟩ := Res.bind_eq_ok.1 hb
    obtain ⟨l1, rfl⟩ := SecNonceBuilder.withExtraInput_eq_ok.1 h1
    obtain ⟨l2, rfl⟩ := SecNonceBuilder.withSpices_eq_ok.1 h2
    exact Res.bind_eq_ok.2 ⟨_, SecNonceBuilder.withExtraInput_eq_ok.2 ⟨l1, rfl⟩, SecNonceBuilder.withSpices_eq_ok.2 ⟨l2, rfl⟩⟩
  · intro hl ε H' seed'
    unfold SecNonce.generate
    exact Res.bind_eq_ok.2 ⟨_, SecNonceBuilder.withExtraInput_eq_ok.2 ⟨by simpa [SecNonceBuilder.new, SecNonceBuilder.withSeckey,
      SecNonceBuilder.withAggregatedPubkey, SecNonceBuilder.withMessage, u32Max] using hl, rfl⟩, rfl⟩

/-- A forger with unlimited time that also asks for the hash of the zero seed, against a signer who puts the secret key into the builder. If
that is the seed of the session, then the forger is told its hash. -/
example (an : AggNonce) : ∃ A : Point → Adversary, (∀ P, (A P).AsksAtMost 10 1 ∧ (A P).OthersAtMost 1 ∧ ¬ (A P).OthersAtMost 0) ∧
    ∀ p : Scalar × (Fin 1 → Spec.NonceDraw) × (Fin 10 → Arr 32), reduceFrom (answers p.2.2 1) ≠ 0 →
      let b := fun _ => (SecNonceBuilder.new zeroSeed).withSeckey p.1
      Forges 1 (Spec.nonceHash sha256 b p.2.1) p.1 (Spec.builtNonce sha256 b p.2.1) (A (mulG p.1)) p.2.2 := by
  have hx : ¬ Drawn (Spec.auxQuery zeroSeed) := not_drawn_of_tag (.inl rfl) _
  choose sk hsk using mulG_surjective
  refine ⟨fun P => .ask (Spec.auxQuery zeroSeed) (exData 0) fun _ => exAdversary (sk P) an [1], fun P => ⟨.other _ _ _ _ _ hx fun _ =>
    exAdversary_asks _ an [1], ⟨fun h => absurd h hx, fun _ => ⟨0, rfl, fun _ => exAdversary_others _ _ _⟩⟩, fun h => ?_⟩, fun p hp => ?_⟩
  · obtain ⟨m, hm, -⟩ := h.2 hx
    omega
  · intro b
    have e : sk (mulG p.1) = p.1 := mulG_injective (hsk _)
    have := exAdversary_forges (tagsAgree_nonceHash b p.2.1 sha256_tagsAgree) p.1 (Spec.builtNonce sha256 b p.2.1) an [1] (fun h => absurd h (by decide)) p.2.2 hp
    unfold Forges signerGame at this ⊢
    beta_reduce
    rw [game, if_neg hx, e]
    exact this

end Verif
