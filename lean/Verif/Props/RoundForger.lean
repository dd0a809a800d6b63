import Verif.Lemmas.Props.RoundForger
import Verif.Props.Opener

/-!
# Property C147: forging stays as hard against users of the rounds

C143 is about a signer who calls `SecNonceBuilder::build` and `sign_partial`. Here the signer uses `FirstRound` and `SecondRound`, or
`FirstRound` with an aggregator, and the forger decides what is delivered to the rounds, and when. A first round that was lost in a crash, or
used up by a failing `finalize`, may be made again from the same seed as long as it has not signed.
-/

namespace Verif

open RoundForger

/-- **C147**. A forger takes part in at most `k` sessions at once with somebody who uses the rounds. It chooses the groups and the messages, the
place of the signer in each group, their spices, which may contain the secret key, and all nonces that are delivered, and has sessions that have not
signed started again with the same seed whenever it likes. The chance of a forgery is
at most that of solving one-more discrete logarithms, up to a negligible term. -/
theorem C147_forging_solves_one_more (H : Hash) (hH : TagsAgree H) (A : Point → RoundForger) (q k m : ℕ) (hA : ∀ P, (A P).AsksAtMost q k [])
    (hm : q + 3 * k ≤ m) :
    (Spec.chance fun p : Scalar × (Fin k → Arr 32) × (Fin m → Arr 32) => Forges H A p)
      ≤ Spec.oneMoreDlog k q (Adaptive.attack k H fun P => ((A P).opener P []).plain) + ((k + 7) * (q * (q + 1)) + 2 ^ 34 * q) / 2 ^ 256
        + k * (2 * (q + 3 * k) / 2 ^ 256 + 1 / 2 ^ 126) :=
  (CmaForger.chance_mono fun p hp => forges_opener H A p hp).trans
    (C143_forging_solves_one_more H hH (fun P => (A P).opener P []) q k m (fun P => opener_asks P (hA P) [] rfl) hm)

/-- **C147**. The solver is given `2k + 1` points and asks for at most `2k` discrete logarithms. -/
theorem C147_attack_asks_one_less (H : Hash) (A : Point → RoundForger) (q k : ℕ) (hA : ∀ P, (A P).AsksAtMost q k [])
    (X : Concurrent.Unknown k → Point) :
    (Adaptive.attack k H (fun P => ((A P).opener P []).plain) X).DlogsAtMost (2 * k) ∧ Fintype.card (Concurrent.Unknown k) = 2 * k + 1 :=
  C143_attack_asks_one_less H (fun P => (A P).opener P []) q k (fun P => opener_asks P (hA P) [] rfl) X

/-- **C147**. With every hash function, secret key and seeds: what a forger achieves against the rounds, `opener` achieves against a signer who builds
the same nonces with `SecNonceBuilder::build` and signs with `sign_partial`. -/
theorem C147_rounds_are_sessions (O : Hash) (sk : Scalar) (A : RoundForger) (seeds : ℕ → Arr 32) (h : A.Accepted O sk seeds []) :
    Opener.AcceptedByCode O sk (A.opener (mulG sk) []) seeds [] [] :=
  accepted_opener O sk A seeds [] (fun _ h => by cases h) h

/-! ### A forger that nearly always succeeds -/

namespace RoundForger

open Adaptive (exData)

/-- The forger of `Props/Opener`, which opens a first round in the group of the signer alone, with the secret key and the message `m` as spices,
has it started again after a crash, and is the aggregator. -/
noncomputable def exRound (sk : Scalar) (an : AggNonce) (m : Bytes) : RoundForger :=
  .ask (Spec.listQuery [mulG sk]) (exData 0) fun h =>
    .ask (Spec.coefString h (mulG sk)) (exData 0) fun c =>
      match notInf (reduceFrom c • (mulG sk).1) with
      | none => .submit [] [] [] ⟨xonly G, 0⟩ (exData 0)
      | some Q => .ask (Spec.challengeQuery (xonly G).1 Q []) (exData (reduceFrom c)) fun e =>
          .start [mulG sk] [] Q 0 0 (fun d => ⟨some d, some m, []⟩) fun _ =>
            .restart 0 <| .aggregator 0 an m (exData 0) fun _ => .submit [mulG sk] [] [] ⟨xonly G, 1 + reduceFrom e * (Spec.sgn Q.1 * (reduceFrom c * sk.1))⟩ (exData 0)

theorem exRound_asks (sk : Scalar) (an : AggNonce) (m : Bytes) : (exRound sk an m).AsksAtMost 10 1 [] := by
  refine .ask 9 1 _ _ _ _ fun h => .ask 8 1 _ _ _ _ fun c => ?_
  split
  · exact .submit 6 1 _ [] _ _ _ _
  · exact .ask 7 1 _ _ _ _ fun e => .start 7 0 _ _ _ _ _ _ _ _ fun _ =>
      .restart 7 0 _ _ _ <| .aggregator 3 0 [1] 0 _ _ _ _ fun _ => .submit 0 0 _ [mulG sk] _ _ _ _

theorem exRound_opener (sk : Scalar) (an : AggNonce) (m : Bytes) : (exRound sk an m).opener (mulG sk) []
    = Opener.exOpener (fun Q d => setup [mulG sk] Q 0 ⟨some d, some m, []⟩) sk an m := by
  unfold exRound Opener.exOpener
  rw [opener]
  congr 1
  funext h
  rw [opener]
  congr 1
  funext c
  rcases notInf (reduceFrom c • (mulG sk).1) with _ | Q
  · rfl
  · dsimp only
    rw [opener]
    congr 1
    funext e
    rw [opener]
    congr 1
    funext pn
    rw [opener, List.nil_append]
    change opener (mulG sk) (.aggregator 0 an m (exData 0) _) [_] = _
    rw [opener]
    simp only [List.getElem?_cons_zero, Known.restarted, Bool.false_eq_true, if_false, Option.filter_some, if_true, List.mem_singleton]
    congr 1

/-- The forger succeeds against the rounds if it does so against `sign_partial`. -/
theorem exRound_accepted (O : Hash) (sk : Scalar) (an : AggNonce) (m : Bytes) (hm : m ≠ []) (s : ℕ → Arr 32)
    (h : Opener.AcceptedByCode O sk ((exRound sk an m).opener (mulG sk) []) s [] []) : (exRound sk an m).Accepted O sk s [] := by
  rw [exRound_opener] at h
  unfold exRound
  unfold Opener.exOpener at h
  rw [Opener.AcceptedByCode, Opener.AcceptedByCode] at h
  rw [Accepted, Accepted]
  set c := O (Spec.coefString (O (Spec.listQuery [mulG sk])) (mulG sk)) with hc
  rcases hQ : notInf (reduceFrom c • (mulG sk).1) with _ | Q
  · rw [hQ] at h
    exact absurd h.1 (List.not_mem_nil)
  · rw [hQ] at h
    have hQ1 := notInf_eq_some.1 hQ
    dsimp only at h ⊢
    rw [Opener.AcceptedByCode, Opener.AcceptedByCode] at h
    rw [Accepted, Accepted]
    have h2 : coeffOf O [mulG sk] (mulG sk) = reduceFrom c := by
      rw [GroupForger.coeffOf_of_ne (by simp [secondKey])]
      rfl
    have h3 : KeyAggContext.new O [mulG sk] = .ok (baseCtx O [mulG sk] Q) := by
      refine new_eq_ok.2 ⟨by simp, by simp [u32Max], Q, ?_, rfl⟩
      unfold keySum
      simp [h2]
      exact hQ1
    have h4 : Adaptive.makeContext O [mulG sk] [] = some (baseCtx O [mulG sk] Q) := by
      unfold Adaptive.makeContext
      rw [h3]
      rfl
    obtain ⟨r, hr⟩ : ∃ r, FirstRound.new O (baseCtx O [mulG sk] Q) (s 0) 0 ⟨some sk, some m, []⟩ = .ok r :=
      new_ok (s 0) (Nat.zero_lt_one) _ (by simp [u32Max])
    refine ⟨_, r, h4, rfl, hr, ?_⟩
    have hv : ∀ ss, Opener.AcceptedByCode O sk (.submit [mulG sk] [] [] ⟨xonly G,
        1 + reduceFrom (O (Spec.challengeQuery (xonly G).1 Q [])) * (Spec.sgn Q.1 * (reduceFrom c * sk.1))⟩ (exData 0)) (fun i => s (i + 1)) ss
        ([] ++ [(Spec.seeded (setup [mulG sk] Q 0 ⟨some sk, some m, []⟩) (s 0)).build O]) →
        verifySingle O Q ⟨xonly G, 1 + reduceFrom (O (Spec.challengeQuery (xonly G).1 Q [])) * (Spec.sgn Q.1 * (reduceFrom c * sk.1))⟩ [] = .ok () := by
      rintro ss ⟨-, ctx, hc1, -, hv⟩
      rw [h4] at hc1
      cases hc1
      exact hv
    rw [Accepted, List.nil_append]
    change Accepted O sk (.aggregator 0 an m (exData 0) _) _ [_]
    rw [Accepted]
    change Accepted O sk (.submit [mulG sk] [] [] _ _) _ [_]
    refine ⟨List.mem_singleton.2 rfl, _, h4, fun r' hr' c' m' R hR h1 => ?_, ?_⟩
    · rw [List.mem_singleton.1 hr'] at hR
      obtain ⟨y, -, hy⟩ := Option.map_eq_some_iff.1 hR
      have : m = m' := congrArg (fun z => z.2.1) hy
      exact hm (this.trans h1.1)
    · rw [Opener.AcceptedByCode] at h
      simp only [List.nil_append, List.getElem?_cons_zero, h4] at h
      split at h <;> exact hv _ h

/-- The forger of the example succeeds, but for a negligible part of the seeds and hashes. -/
theorem exRound_forges (sk : Scalar) (an : AggNonce) (m : Bytes) (hm : m ≠ []) :
    1 - 1 / 2 ^ 120 ≤ Spec.chance fun w : (Fin 1 → Arr 32) × (Fin 13 → Arr 32) => Forges sha256 (fun _ => exRound sk an m) (sk, w) := by
  refine (Opener.exOpener_forges (fun Q d => setup [mulG sk] Q 0 ⟨some d, some m, []⟩) sk an m hm).trans (CmaForger.chance_mono fun w hw => ?_)
  rw [← exRound_opener] at hw
  obtain ⟨pn, ⟨out, log⟩, h1, h2⟩ := Opener.play_code sha256 ((exRound sk an m).opener (mulG sk) []) (sk, w)
  have h3 := (h1 _).1 hw
  refine ⟨exRound_accepted _ sk an m hm _ (C143_forgery_is_accepted sha256 (fun _ => (exRound sk an m).opener (mulG sk) []) 1 13 (sk, w) hw),
    (h1 _).2 ?_⟩
  rcases out with _ | o
  · exact h3.elim
  · exact h3.2.2

end RoundForger

/-- The hypotheses can be met by a forger with unlimited time that computes the secret key from the public key, has it given as a spice, and
succeeds nearly always. -/
example (an : AggNonce) (m : Bytes) (hm : m ≠ []) : ∃ A : Point → RoundForger, (∀ P, (A P).AsksAtMost 10 1 []) ∧
    ∀ sk, 1 - 1 / 2 ^ 120 ≤ Spec.chance fun w : (Fin 1 → Arr 32) × (Fin 13 → Arr 32) => Forges sha256 A (sk, w) := by
  choose f hf using mulG_surjective
  refine ⟨fun P => exRound (f P) an m, fun P => exRound_asks _ an m, fun sk => ?_⟩
  refine (exRound_forges sk an m hm).trans_eq ?_
  unfold Forges
  simp only [mulG_injective (hf (mulG sk))]

end Verif
