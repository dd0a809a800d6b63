import Verif.Lemmas.Props.AdaptiveExample

/-!
# Property C119: forgers that make up the groups during the game

As in C116, a forger takes part in any number of sessions at once, with adaptor points fixed when a session is opened. Here the
keys and tweaks of a group are sent with the request for a partial signature, so the forger may choose them after it has seen
hashes, public nonces and partial signatures. Only the key of the signer is given. The hashes of key aggregation are drawn like
those of challenges and nonce coefficients, and nothing is assumed about the groups.
-/

namespace Verif

open Forger (answers)
open Concurrent (secrets)
open Adaptive

/-- **C119**. Let an algebraic forger open at most `k` sessions with the owner of the key `mulG sk` at once, have at most `q` strings
drawn, and submit a signature for the key of a group with the signer in it, whose message, x-only key and
x-only nonce are not all those of one session. Then `solver`, which is given only public data and runs the forger once, computes the secret key and all `2k` secret
nonces, with the same probability up to `((k + 7) q (q + 1) + 2 ^ 34 q) / 2 ^ 256`. -/
theorem C119_adaptive_forger_solves (H : Hash) (hH : TagsAgree H) (sk : Scalar) (sn : ℕ → SecNonce) (A : Adversary) (q k : ℕ)
    (hA : A.AsksAtMost q k) :
    (Spec.chance fun ω : Fin q → Arr 32 => Forges k H sk sn A ω)
      ≤ (Spec.chance fun ω : Fin q → Arr 32 =>
          ((solver k H (mulG sk) (fun i => (sn i).publicNonce) A).run (secrets k sk sn) (answers ω) []).1 = secrets k sk sn)
        + ((k + 7) * (q * (q + 1)) + 2 ^ 34 * q) / 2 ^ 256 := by
  refine le_trans (CmaForger.chance_mono fun ω hω => ?_) ((CmaForger.chance_or _ _).trans
    (add_le_add_right (forges_unsolved hH sk sn hA) _))
  by_cases hs : ((solver k H (mulG sk) (fun i => (sn i).publicNonce) A).run (secrets k sk sn) (answers ω) []).1 = secrets k sk sn
  · exact .inl hs
  · exact .inr ⟨hω, hs⟩

/-- **C119**. The solver asks for at most `2k` discrete logarithms, whatever the answers are, and returns those of the `2k + 1`
points that are given: the public key and the public nonces. So it solves the one-more discrete logarithm problem. -/
theorem C119_solver_asks_one_less (H : Hash) (P : Point) (pn : ℕ → PubNonce) (A : Adversary) (q k : ℕ) (hA : A.AsksAtMost q k) :
    (solver k H P pn A).DlogsAtMost (2 * k) := by
  have := dlogs_game H P pn (fun i g r hb he => Concurrent.signatureRow k (g.known P) i 0 r hb he)
    (fun i g r hb he z => Concurrent.nonceSign r hb * z)
    (fun | none => .done 0 | some out => Concurrent.solve (out.signatureRow k P) (out.candidates k P pn))
    (dlogs_finish k P pn) (by trivial) hA [] (by simp)
  rw [List.map_nil, Concurrent.signedCount_nil] at this
  exact this

/-- **C119**. The game is one against the code. With the hash function that has been drawn, `new` and `with_tweaks` make each of the
contexts from the keys and tweaks that the forger sent, `sign_partial` returns each of the partial signatures that the forger
receives, in sessions with different secret nonces, which are about the nonces that are compared with that of the forgery, and the forgery is for a key that `new` and `with_tweaks` make. -/
theorem C119_game_is_code (H : Hash) (hH : TagsAgree H) (sk : Scalar) (sn : ℕ → SecNonce) (A : Adversary) (q k : ℕ)
    (hA : A.AsksAtMost q k) (ω : ℕ → Arr 32) (out : Outcome) :
    let res := (signerGame k H sk sn A).run (secrets k sk sn) ω []
    res.1 = some out → TagsAgree (res.2.hash H) ∧ out.sessions.length ≤ k ∧
      BuiltFrom (res.2.hash H) out.group.ctx out.group.keys out.group.tweaks ∧ mulG sk ∈ out.group.keys ∧
      ∀ (i : ℕ) (T : MaybePoint) (r : Signed), out.sessions[i]? = some ⟨T, some r⟩ →
        BuiltFrom (res.2.hash H) r.group.ctx r.group.keys r.group.tweaks ∧ mulG sk ∈ r.group.keys ∧
        signPartialAdaptor (res.2.hash H) r.group.ctx sk (sn i) r.aggnonce T r.message = .ok r.sig ∧
        (⟨r.aggnonce, T, r.message⟩ : Spec.Reply).nonce r.hb
          = Spec.sessionNonce (res.2.hash H) r.group.ctx.aggregatedPubkey ⟨r.aggnonce, T, r.message⟩ := by
  intro res hres
  obtain ⟨h0, h1⟩ := game_inv (σ := fun i g r hb he => SessionForger.partialSignature g.hash g.ctx sk (sn i) r hb he) hH
    (fun i => (sn i).publicNonce) (secrets k sk sn) ω (sign := fun i g r hb he => .done _) (fun i hi g hg r hb he log => rfl) hA
    (by simp) (gameInv_nil (mulG sk) _)
  obtain ⟨h2, h3, h4, h5, -⟩ := h1 out hres
  exact ⟨tagsAgree_hash hH h0, h3.trans (by simp), built_hash h2.distinct h4 h5, h4.member, fun i T r hs =>
    have ⟨g1, g2, g3⟩ := signed_code h2 hs
    ⟨g1, g2, g3, signed_nonce h2 hs⟩⟩

/-- **C119**. The points whose logarithms are asked for and returned are the public key and the public nonces. -/
theorem C119_unknowns (k : ℕ) (sk : Scalar) (sn : ℕ → SecNonce) :
    secrets k sk sn none • G = (mulG sk).1 ∧ ∀ i : Fin k,
      secrets k sk sn (some (i, false)) • G = (sn i).publicNonce.R1.1 ∧
      secrets k sk sn (some (i, true)) • G = (sn i).publicNonce.R2.1 :=
  ⟨rfl, fun _ => ⟨rfl, rfl⟩⟩

/-! ### A forger that nearly always succeeds -/

/-- The forger of the example has been told the secret key. It asks for the coefficient in the group of this key alone, takes part in
a session of the group about the message `m`, and submits a signature of the empty message. If `m` is empty too, then it is another
signature than that of the session, with the nonce `G`. The solver finds the key and both
nonces, but for a negligible part of the answers. -/
example (sk : Scalar) (sn : ℕ → SecNonce) (an : AggNonce) (m : Bytes)
    (hm : m = [] → an = ⟨(2 : MaybeScalar) • G, 0⟩) : ∃ A : Adversary, A.AsksAtMost 10 1 ∧
    1 - 2 ^ 38 / 2 ^ 256 ≤ Spec.chance fun ω : Fin 10 → Arr 32 =>
      ((solver 1 sha256 (mulG sk) (fun i => (sn i).publicNonce) A).run (secrets 1 sk sn) (answers ω) []).1 = secrets 1 sk sn := by
  refine ⟨_, exAdversary_asks sk an m, ?_⟩
  have h := C119_adaptive_forger_solves sha256 sha256_tagsAgree sk sn _ 10 1 (exAdversary_asks sk an m)
  have h1 : 1 ≤ (Spec.chance fun ω : Fin 10 → Arr 32 => Forges 1 sha256 sk sn (exAdversary sk an m) ω) + 2 / 2 ^ 256 := by
    refine le_trans ?_ ((CmaForger.chance_or (fun ω : Fin 10 → Arr 32 => Forges 1 sha256 sk sn (exAdversary sk an m) ω)
      fun ω => reduceFrom (answers ω 1) = 0).trans (add_le_add_right chance_reduce_zero _))
    have : ∀ ω : Fin 10 → Arr 32, Forges 1 sha256 sk sn (exAdversary sk an m) ω ∨ reduceFrom (answers ω 1) = 0 := fun ω => by
      by_cases h0 : reduceFrom (answers ω 1) = 0
      · exact .inr h0
      · exact .inl (exAdversary_forges sha256_tagsAgree sk sn an m (fun h => hm h ▸ ⟨two_G_ne_zero, rfl, xonly_two_G⟩) ω h0)
    unfold Spec.chance
    simp only [this, Set.ofPred_true, Set.ncard_univ]
    have : Nonempty (Fin 10 → Arr 32) := ⟨fun _ => zeroSeed⟩
    exact (div_self (Nat.cast_ne_zero.2 Nat.card_pos.ne')).ge
  norm_num at h h1 ⊢
  linarith

end Verif
