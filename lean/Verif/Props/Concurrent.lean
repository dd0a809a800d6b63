import Verif.Lemmas.Props.ConcurrentSolver

/-!
# Property C116: any number of sessions and groups at once, with adaptor points fixed when a session is opened

The attack of C115 needs adaptor points chosen after the nonces. Here they are fixed before the signer sends its public
nonce, and everything else may be interleaved. The sessions may belong to different groups that the signer is a member of,
or to one group under different tweaks, and the group may be chosen as late as the message. The forger is algebraic and hash values of challenges and nonce coefficients
are drawn.
-/

namespace Verif

open Forger (answers)
open Concurrent

/-- **C116**. Let an algebraic forger open at most `k` sessions with a signer at once, ask for at most `q` challenges and
nonce coefficients, and submit a signature for one of the groups, whose message and x-only nonce are not both those of a session of that group.
Then `solver`, which is given only public
data and runs the forger once, computes the secret key and all `2k` secret nonces, with the same probability up to
`(k + 2) N (N + 1) / 2 ^ 256`, where `N = q + 2k + 1` is the number of strings that are drawn. -/
theorem C116_concurrent_forger_solves (H : Hash) (hH : TagsAgree H) (ctx : ℕ → KeyAggContext) (hc : ∀ g, Reachable H (ctx g))
    (hsame : ∀ g g', Spec.xbytes (ctx g).aggregatedPubkey.1 = Spec.xbytes (ctx g').aggregatedPubkey.1 → ctx g = ctx g')
    (sk : Scalar) (a : ℕ → MaybeScalar) (ha : ∀ g, ((ctx g).keyCoefficient (mulG sk) : Res Unit _) = .ok (some (a g)))
    (α β : Point → MaybeScalar) (hrep : ∀ g, ∀ K ∈ (ctx g).pubkeys, K.1 = α K • G + β K • (mulG sk).1)
    (hβ : ∀ g, Spec.weighted H (ctx g).pubkeys β ≠ 0)
    (sn : ℕ → SecNonce) (A : Adversary) (q k : ℕ) (hA : A.AsksAtMost q k) :
    let N := q + 2 * k + 1
    (Spec.chance fun ω : Fin N → Arr 32 => Forges k H ctx sk sn A ω)
      ≤ (Spec.chance fun ω : Fin N → Arr 32 =>
          ((solver k (publicOf H ctx (mulG sk) α β a) (fun i => (sn i).publicNonce) A).run (secrets k sk sn) (answers ω) []).1
            = secrets k sk sn)
        + (k + 2) * (N * (N + 1)) / 2 ^ 256 := by
  intro N
  refine le_trans (CmaForger.chance_mono fun ω hω => ?_) ((CmaForger.chance_or _ _).trans
    (add_le_add_right (forges_unsolved hH hc hsame ha hrep hβ sn hA) _))
  by_cases hs : ((solver k (publicOf H ctx (mulG sk) α β a) (fun i => (sn i).publicNonce) A).run (secrets k sk sn)
      (answers ω) []).1 = secrets k sk sn
  · exact .inl hs
  · exact .inr ⟨hω, hs⟩

/-- **C116**. The solver asks for at most `2k` discrete logarithms, whatever the answers are. So it solves the one-more discrete
logarithm problem for `2k + 1` points. -/
theorem C116_solver_asks_one_less (pub : Public) (pn : ℕ → PubNonce) (A : Adversary) (q k : ℕ) (hA : A.AsksAtMost q k) :
    (solver k pub pn A).DlogsAtMost (2 * k) := by
  have := dlogs_game pub.H (fun g => (pub.ctx g).aggregatedPubkey) pn (signatureRow k pub) (fun i g r hb he z => nonceSign r hb * z)
    (finish k pub pn) (dlogs_finish k pub pn) hA [] (by simp)
  rw [signedCount_nil] at this
  exact this

/-- **C116**. The points whose logarithms are asked for and returned are the public key and the public nonces. -/
theorem C116_unknowns (k : ℕ) (sk : Scalar) (sn : ℕ → SecNonce) :
    secrets k sk sn none • G = (mulG sk).1 ∧ ∀ i : Fin k,
      secrets k sk sn (some (i, false)) • G = (sn i).publicNonce.R1.1 ∧
      secrets k sk sn (some (i, true)) • G = (sn i).publicNonce.R2.1 :=
  ⟨rfl, fun _ => ⟨rfl, rfl⟩⟩

/-- **C116**. The game is one against the code: with the hash function that has been drawn, `sign_partial` returns each of the
partial signatures that the forger receives, in sessions with different secret nonces, which are about the nonces that are compared with
that of the forgery. -/
theorem C116_game_is_code (H : Hash) (ctx : ℕ → KeyAggContext) (hc : ∀ g, Reachable H (ctx g)) (sk : Scalar)
    (a : ℕ → MaybeScalar) (ha : ∀ g, ((ctx g).keyCoefficient (mulG sk) : Res Unit _) = .ok (some (a g))) (sn : ℕ → SecNonce) (A : Adversary) (q k : ℕ)
    (hA : A.AsksAtMost q k) (ω : ℕ → Arr 32) :
    let out := (signerGame k H ctx sk sn A).run (secrets k sk sn) ω []
    out.1.sessions.length ≤ k ∧ ∀ (i : ℕ) (T : MaybePoint) (r : Signed), out.1.sessions[i]? = some ⟨T, some r⟩ →
      signPartialAdaptor (out.2.hash H) (ctx r.group) sk (sn i) r.aggnonce T r.message = .ok r.sig ∧
      (⟨r.aggnonce, T, r.message⟩ : Spec.Reply).nonce r.hb
        = Spec.sessionNonce (out.2.hash H) (ctx r.group).aggregatedPubkey ⟨r.aggnonce, T, r.message⟩ := by
  intro out
  have hm : ∀ g, mulG sk ∈ (ctx g).orderedPubkeys := by
    intro g
    by_contra hm
    have ha := ha g
    rw [(hc g).inv.keyCoefficient_eq, if_neg hm] at ha
    cases ha
  have hinv : GameInv (fun g => (ctx g).aggregatedPubkey) (fun i g => SessionForger.partialSignature H (ctx g) sk (sn i)) [] [] :=
    ⟨List.nodup_nil, by simp, by simp⟩
  obtain ⟨h1, h2, -⟩ := game_inv H (fun i => (sn i).publicNonce) (secrets k sk sn) ω hA hinv
  have h3 := game_drawn H (fun g => (ctx g).aggregatedPubkey) (fun i => (sn i).publicNonce)
    (fun i g => SessionForger.partialSignature H (ctx g) sk (sn i)) (secrets k sk sn) ω A [] [] (by simp)
  exact ⟨h2.trans (by simp), fun i T r hs => ⟨signed_code h1 h3 hs (hc _) (hm _), signed_nonce h1 hs⟩⟩

/-! ### A forger that always succeeds -/

/-- The example group, and the same group with a tweak. -/
example : ∃ ctx : ℕ → KeyAggContext, ctx 0 = lastCtx ∧ (∃ t, lastCtx.withTweak t false = .ok (ctx 1)) ∧
    (∀ g, Reachable lastByteHash (ctx g)) ∧
    (∀ g g', Spec.xbytes (ctx g).aggregatedPubkey.1 = Spec.xbytes (ctx g').aggregatedPubkey.1 → ctx g = ctx g') ∧
    Spec.xbytes (ctx 1).aggregatedPubkey.1 ≠ Spec.xbytes (ctx 0).aggregatedPubkey.1 ∧
    (∀ g, ((ctx g).keyCoefficient (mulG ⟨2, two_ne_zero_scalar⟩) : Res Unit _) = .ok (some 1)) ∧
    (∀ g, ∀ K ∈ (ctx g).pubkeys, K.1 = rosAlpha K • G + rosBeta K • (mulG ⟨2, two_ne_zero_scalar⟩).1) ∧
    ∀ g, Spec.weighted lastByteHash (ctx g).pubkeys rosBeta ≠ 0 := exGroups

/-- The forger of the example takes part in a session of group `g` about the message `m` and is then told the secret of group
`0`. In the groups of the last example, where the second member has the secret key `2`, the solver finds this key and both
nonces, but for a negligible part of the answers. For the group `1` the message may be the forged one. -/
example (ctx : ℕ → KeyAggContext) (hc : ∀ g, Reachable lastByteHash (ctx g))
    (hsame : ∀ g g', Spec.xbytes (ctx g).aggregatedPubkey.1 = Spec.xbytes (ctx g').aggregatedPubkey.1 → ctx g = ctx g')
    (ha : ∀ g, ((ctx g).keyCoefficient (mulG ⟨2, two_ne_zero_scalar⟩) : Res Unit _) = .ok (some 1))
    (hrep : ∀ g, ∀ K ∈ (ctx g).pubkeys, K.1 = rosAlpha K • G + rosBeta K • (mulG ⟨2, two_ne_zero_scalar⟩).1)
    (hβ : ∀ g, Spec.weighted lastByteHash (ctx g).pubkeys rosBeta ≠ 0) (g : ℕ) (m : Bytes)
    (hm : ¬ (m = [] ∧ Spec.xbytes (ctx g).aggregatedPubkey.1 = Spec.xbytes (ctx 0).aggregatedPubkey.1))
    (sn : ℕ → SecNonce) (an : AggNonce) : ∃ A : Adversary, A.AsksAtMost 1 1 ∧
    1 - 60 / 2 ^ 256 ≤ Spec.chance fun ω : Fin 4 → Arr 32 =>
      ((solver 1 (publicOf lastByteHash ctx (mulG ⟨2, two_ne_zero_scalar⟩) rosAlpha rosBeta fun _ => 1)
        (fun i => (sn i).publicNonce) A).run (secrets 1 ⟨2, two_ne_zero_scalar⟩ sn) (answers ω) []).1
          = secrets 1 ⟨2, two_ne_zero_scalar⟩ sn := by
  obtain ⟨d, hd⟩ := exists_dlog (ctx 0).aggregatedPubkey.1
  have hA := exAdversary_asks (ctx 0).aggregatedPubkey d an g m
  refine ⟨_, hA, ?_⟩
  have h := C116_concurrent_forger_solves lastByteHash lastByteHash_tagsAgree ctx hc hsame
    ⟨2, two_ne_zero_scalar⟩ (fun _ => 1) ha rosAlpha rosBeta hrep hβ sn _ 1 1 hA
  have h1 : (Spec.chance fun ω : Fin 4 → Arr 32 => Forges 1 lastByteHash ctx ⟨2, two_ne_zero_scalar⟩ sn
      (exAdversary (ctx 0).aggregatedPubkey d an g m) ω) = 1 := by
    have : ∀ ω : Fin 4 → Arr 32, Forges 1 lastByteHash ctx ⟨2, two_ne_zero_scalar⟩ sn
      (exAdversary (ctx 0).aggregatedPubkey d an g m) ω := fun ω => exAdversary_forges _ _ _ _ d hd an g m hm ω
    unfold Spec.chance
    simp only [this, Set.ofPred_true, Set.ncard_univ]
    have : Nonempty (Fin 4 → Arr 32) := ⟨fun _ => zeroSeed⟩
    exact div_self (Nat.cast_ne_zero.2 Nat.card_pos.ne')
  norm_num at h
  rw [h1] at h
  linarith

end Verif
