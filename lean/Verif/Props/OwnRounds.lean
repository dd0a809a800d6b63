import Verif.Lemmas.Props.OwnRounds
import Verif.Props.OwnKey
import Verif.Props.RoundForger

/-!
# Property C151: forging signatures of the own key of somebody who uses the rounds

C144 is about a signer whose nonces are drawn or built with settings that are fixed. Here the signer uses `FirstRound` and `SecondRound`, or
`FirstRound` with an aggregator, as in C147, and the forger submits a signature of the signer's own key.
-/

namespace Verif

open OwnRounds

/-- **C151**. A forger takes part in at most `k` sessions at once with somebody who uses the rounds, as in C147. It submits a signature for the
signer's own key, or this key with an offset, whose message, x-only key and x-only nonce are not all those of one session. The chance that
it is accepted is at most that of solving one-more discrete logarithms, up to a negligible term. -/
theorem C151_own_key_forging_solves_one_more (H : Hash) (hH : TagsAgree H) (A : Point → RoundForger) (q k m : ℕ)
    (hA : ∀ P, (A P).AsksAtMost q k []) (hm : q + 6 + 3 * k ≤ m) :
    (Spec.chance fun p : Scalar × (Fin k → Arr 32) × (Fin m → Arr 32) => Forges H A p)
      ≤ Spec.oneMoreDlog k (q + 6) (Adaptive.attack k H fun P => (plain ((A P).opener P [])).forGroup P [])
        + ((k + 7) * (((q + 6 : ℕ) : ℚ) * ((q + 6 : ℕ) + 1)) + 2 ^ 34 * (q + 6 : ℕ)) / 2 ^ 256 + 2 * (q + 6) / 2 ^ 256
        + k * (2 * ((q + 6 : ℕ) + 3 * k) / 2 ^ 256 + 1 / 2 ^ 126) := by
  have hop : ∀ P, ((A P).opener P []).AsksAtMost q k := fun P => RoundForger.opener_asks P (hA P) [] rfl
  refine (CmaForger.chance_mono fun p hp => forges_opener H A p hp).trans
    ((forges_library (A := fun P => (A P).opener P []) (fun P => RoundForger.opener_mono (hop P) (Nat.le_add_right q 6)) hm).trans
      (add_le_add ?_ le_rfl))
  rw [← CmaForger.chance_equiv (Opener.unknownEquiv k (Fin (q + 6) → Arr 32))]
  refine le_trans (CmaForger.chance_mono fun p hp => ?_)
    (C144_own_key_forging_solves_one_more H hH (fun P => plain ((A P).opener P [])) q k fun P => asks_plain (hop P)).1
  exact (onRandom_iff H ((A (mulG (p.1 none))).opener (mulG (p.1 none)) []) p).1 hp

/-- **C151**. The solver is given `2k + 1` points and asks for at most `2k` discrete logarithms. -/
theorem C151_attack_asks_one_less (H : Hash) (hH : TagsAgree H) (A : Point → RoundForger) (q k : ℕ) (hA : ∀ P, (A P).AsksAtMost q k [])
    (X : Concurrent.Unknown k → Point) :
    (Adaptive.attack k H (fun P => (plain ((A P).opener P [])).forGroup P []) X).DlogsAtMost (2 * k) ∧
      Fintype.card (Concurrent.Unknown k) = 2 * k + 1 :=
  ⟨(C144_own_key_forging_solves_one_more H hH (fun P => plain ((A P).opener P [])) q k fun P =>
      asks_plain (RoundForger.opener_asks P (hA P) [] rfl)).2 X,
    (C147_attack_asks_one_less H A q k hA X).2⟩

/-- **C151**. With every hash function, secret key and seeds: what a forger achieves against the rounds, `opener` achieves against a signer who builds
the same nonces with `SecNonceBuilder::build` and signs with `sign_partial`. -/
theorem C151_rounds_are_sessions (O : Hash) (sk : Scalar) (A : RoundForger) (seeds : ℕ → Arr 32) (h : Accepted O sk A seeds []) :
    AcceptedByCode O sk (A.opener (mulG sk) []) seeds [] [] :=
  accepted_opener O sk A seeds [] (fun _ h => by cases h) h

/-! ### A forger that nearly always succeeds -/

namespace OwnRounds

open Concurrent (Play Log Unknown secrets Distinct)
open Forger (answers)
open Adaptive (Session Note)
open OwnForger (exData)

/-- What the forger of the example submits. -/
noncomputable def exSubmit (sk : Scalar) (e : Arr 32) : RoundForger :=
  .submit [] [] [] ⟨xonly G, 1 + reduceFrom e * (Spec.sgn (mulG sk).1 * (sk.1 + 0))⟩ (exData 0)

/-- A forger that has been told the secret key. It opens a first round in the group of the signer alone, with the secret key and the message `m`
as spices, has it started again after a crash, is the aggregator, and submits a signature of the empty message for the key of the signer. -/
noncomputable def exOwn (sk : Scalar) (an : AggNonce) (m : Bytes) : RoundForger :=
  .ask (Spec.challengeQuery (xonly G).1 (mulG sk) []) (exData 0) fun e =>
    .ask (Spec.listQuery [mulG sk]) (exData 0) fun h =>
      .ask (Spec.coefString h (mulG sk)) (exData 0) fun c =>
        match notInf (reduceFrom c • (mulG sk).1) with
        | none => exSubmit sk e
        | some Q => .start [mulG sk] [] Q 0 0 (fun d => ⟨some d, some m, []⟩) fun _ =>
            .restart 0 <| .aggregator 0 an m (exData 0) fun _ => exSubmit sk e

theorem exOwn_asks (sk : Scalar) (an : AggNonce) (m : Bytes) : (exOwn sk an m).AsksAtMost 9 1 [] := by
  refine .ask 8 1 _ _ _ _ fun e => .ask 7 1 _ _ _ _ fun h => .ask 6 1 _ _ _ _ fun c => ?_
  split
  · exact .submit 4 1 _ [] _ _ _ _
  · exact .start 6 0 _ _ _ _ _ _ _ _ fun _ =>
      .restart 6 0 _ _ _ <| .aggregator 2 0 [1] 0 _ _ _ _ fun _ => .submit 0 0 _ [] _ _ _ _

/-- The same forger in the game of `Spec/OwnKey`. -/
noncomputable def exPlain (sk : Scalar) (an : AggNonce) (m : Bytes) : OwnForger :=
  .ask (Spec.challengeQuery (xonly G).1 (mulG sk) []) (exData 0) fun e =>
    .ask (Spec.listQuery [mulG sk]) (exData 0) fun h =>
      .ask (Spec.coefString h (mulG sk)) (exData 0) fun c =>
        match notInf (reduceFrom c • (mulG sk).1) with
        | none => .submit 0 [] ⟨xonly G, 1 + reduceFrom e * (Spec.sgn (mulG sk).1 * (sk.1 + 0))⟩ (exData 0)
        | some _ => .start 0 fun _ => .sign 0 [mulG sk] [] an m (exData 0) fun _ =>
            .submit 0 [] ⟨xonly G, 1 + reduceFrom e * (Spec.sgn (mulG sk).1 * (sk.1 + 0))⟩ (exData 0)

theorem exOwn_plain (sk : Scalar) (an : AggNonce) (m : Bytes) : plain ((exOwn sk an m).opener (mulG sk) []) = exPlain sk an m := by
  unfold exOwn exPlain
  rw [RoundForger.opener, plain, show Opener.rename (Spec.challengeQuery (xonly G).1 (mulG sk) []) = _ from Opener.rename_of_tag (by simp) _]
  congr 1
  funext e
  rw [RoundForger.opener, plain, Opener.rename_list (by simp)]
  congr 1
  funext h
  rw [RoundForger.opener, plain, show Opener.rename (Spec.coefString h (mulG sk)) = _ from Opener.rename_of_tag (by simp) _]
  congr 1
  funext c
  rcases notInf (reduceFrom c • (mulG sk).1) with _ | Q
  · rfl
  · dsimp only
    rw [RoundForger.opener, plain]
    congr 1
    funext pn
    rw [RoundForger.opener, List.nil_append]
    change plain (RoundForger.opener (mulG sk) (.aggregator 0 an m (exData 0) _) [_]) = _
    rw [RoundForger.opener]
    simp only [List.getElem?_cons_zero, RoundForger.Known.restarted, Bool.false_eq_true, if_false, Option.filter_some, if_true,
      List.mem_singleton]
    rw [plain]
    rfl

open Adaptive hiding exData in
theorem exPlain_forges {H : Hash} (hH : TagsAgree H) (sk : Scalar) (sn : ℕ → SecNonce) (an : AggNonce) {m : Bytes} (hm : m ≠ []) {N : ℕ}
    (ω : Fin N → Arr 32) : OwnForger.Forges 1 H sk sn (exPlain sk an m) ω := by
  have hY : Spec.offsetKey (mulG sk) 0 = some (mulG sk) := notInf_eq_some.2 (by rw [zero_smul, add_zero])
  unfold OwnForger.Forges OwnForger.signerGame exPlain
  rw [OwnForger.game, if_pos (drawn_challenge _ _ _), Play.run, show Log.find [] _ = none from rfl]
  simp only [List.length_nil, List.nil_append, List.map_nil]
  have f1 : Log.find [(Spec.challengeQuery (xonly G).1 (mulG sk) [], (⟨exData 0, []⟩ : Note), answers ω 0)] (Spec.listQuery [mulG sk]) = none := by
    rw [Concurrent.find_none, List.map_singleton, List.mem_singleton]
    exact C66_domain_separation _ _ (by decide +kernel) (by decide +kernel) (by decide) _ _
  rw [OwnForger.game, if_pos (drawn_list _), Play.run, f1]
  simp only [List.map_nil]
  set h := answers ω _ with hh
  have hd1 : Distinct [(Spec.challengeQuery (xonly G).1 (mulG sk) [], (⟨exData 0, []⟩ : Note), answers ω 0)] := List.nodup_singleton _
  have hd2 := hd1.append f1 ⟨exData 0, []⟩ h
  have f2 : Log.find ([(Spec.challengeQuery (xonly G).1 (mulG sk) [], (⟨exData 0, []⟩ : Note), answers ω 0)] ++
      [(Spec.listQuery [mulG sk], (⟨exData 0, []⟩ : Note), h)]) (Spec.coefString h (mulG sk)) = none := by
    rw [Concurrent.find_none, List.map_append, List.map_singleton, List.map_singleton, List.mem_append, List.mem_singleton, List.mem_singleton]
    rintro (h | h)
    · exact C66_domain_separation _ _ (by decide +kernel) (by decide +kernel) (by decide) _ _ h
    · exact C66_domain_separation _ _ (by decide +kernel) (by decide +kernel) (by decide) _ _ h
  rw [OwnForger.game, if_pos (drawn_coef _ _), Play.run, f2]
  simp only [List.map_nil]
  set c := answers ω _ with hc
  have hd := hd2.append f2 ⟨exData 0, []⟩ c
  set log := ([(Spec.challengeQuery (xonly G).1 (mulG sk) [], (⟨exData 0, []⟩ : Note), answers ω 0)] ++
      [(Spec.listQuery [mulG sk], (⟨exData 0, []⟩ : Note), h)]) ++ [(Spec.coefString h (mulG sk), (⟨exData 0, []⟩ : Note), c)] with hlog
  have m0' : (Spec.challengeQuery (xonly G).1 (mulG sk) [], (⟨exData 0, []⟩ : Note), answers ω 0) ∈ log := by simp [hlog]
  have l1 : ∀ a ∈ log, a.1 ≠ Spec.noncecoefQuery an (mulG sk) m ∧ ∀ Q, a.1 ≠ Spec.noncecoefQuery an Q m := by
    intro a ha
    suffices ∀ Q, a.1 ≠ Spec.noncecoefQuery an Q m from ⟨this _, this⟩
    intro Q
    simp only [hlog, List.mem_append, List.mem_singleton] at ha
    rcases ha with (rfl | rfl) | rfl
    · exact C66_domain_separation _ _ (by decide +kernel) (by decide +kernel) (by decide) _ _
    · exact C66_domain_separation _ _ (by decide +kernel) (by decide +kernel) (by decide) _ _
    · exact C66_domain_separation _ _ (by decide +kernel) (by decide +kernel) (by decide) _ _
  rcases notInf (reduceFrom c • (mulG sk).1) with _ | Q
  · simp only
    rw [OwnForger.game]
    exact OwnForger.finish_wins hY _ _ _ hd m0' rfl fun s hs => by cases hs
  · simp only
    rw [OwnForger.game, OwnForger.game]
    simp only [List.nil_append, List.getElem?_cons_zero]
    rw [Concurrent.run_bind]
    obtain ⟨og, log1, r1, x1, hg⟩ := run_makeGroup (secrets 1 sk sn) (answers ω) hH (mulG sk) [mulG sk] []
      ⟨exData 0, [(⟨0, none⟩ : Session)].map (·.point)⟩ hd
    have hnew := OwnForger.only_run (secrets 1 sk sn) (answers ω) (OwnForger.only_makeGroup (k := 1) H (mulG sk) [mulG sk] []
      ⟨exData 0, [(⟨0, none⟩ : Session)].map (·.point)⟩) log
    rw [r1] at hnew ⊢
    have m0 := x1.sub _ m0'
    cases og with
    | none =>
      simp only
      rw [OwnForger.game]
      refine OwnForger.finish_wins hY _ _ _ x1.distinct m0 rfl fun s hs r hr => ?_
      rw [List.mem_singleton] at hs
      rw [hs] at hr
      cases hr
    | some g =>
      obtain ⟨g1, g2, g3, -⟩ := hg g rfl
      simp only
      have l2 : log1.find (Spec.noncecoefQuery an g.ctx.aggregatedPubkey m) = none := by
        rw [Concurrent.find_none]
        intro hmem
        obtain ⟨a, ha, hx⟩ := List.mem_map.1 hmem
        rcases hnew a ha with h | h | ⟨h', K', h⟩
        · exact (l1 a h).2 _ hx
        · exact OwnForger.noncecoef_ne_list _ _ _ _ (hx.symm.trans h)
        · exact C66_domain_separation _ _ (by decide +kernel) (by decide +kernel) (by decide) _ _ (hx.symm.trans h)
      rw [Play.run, l2]
      simp only
      obtain ⟨n3, e3, log3, x3, m3, r3⟩ := run_ask_ext (secrets 1 sk sn) (answers ω) (x1.distinct.append l2
        ⟨{ exData 0 with combination := .zero, key := g.rep (mulG sk) }, [(⟨0, none⟩ : Session)].map (·.point)⟩ (answers ω log1.length))
        (drawn_challenge (Spec.xbytes ((⟨an, 0, m⟩ : Spec.Reply).nonce (answers ω log1.length))) g.ctx.aggregatedPubkey m)
        ⟨{ exData 0 with combination := .zero, key := g.rep (mulG sk) }, [(⟨0, none⟩ : Session)].map (·.point)⟩
      rw [r3]
      simp only [Play.bind, List.set_cons_zero]
      rw [OwnForger.game]
      refine OwnForger.finish_wins hY _ _ _ x3.distinct (x3.sub _ (List.mem_append_left _ m0)) rfl fun s hs r hr => ?_
      rw [List.mem_singleton] at hs
      rw [hs] at hr
      rw [← Option.some.inj hr]
      refine ⟨hm, right_single g3, ?_⟩
      simp only [Note.keyPoint]
      rw [← g1.key (right_single g3)]

/-- The forger succeeds against the rounds if it does so against `sign_partial`. -/
theorem exOwn_accepted (O : Hash) (sk : Scalar) (an : AggNonce) (m : Bytes) (hm : m ≠ []) (s : ℕ → Arr 32)
    (hv : verifySingle O (mulG sk) ⟨xonly G, 1 + reduceFrom (O (Spec.challengeQuery (xonly G).1 (mulG sk) [])) * (Spec.sgn (mulG sk).1 * (sk.1 + 0))⟩ []
      = .ok ()) : Accepted O sk (exOwn sk an m) s [] := by
  have hY : Spec.offsetKey (mulG sk) 0 = some (mulG sk) := notInf_eq_some.2 (by rw [zero_smul, add_zero])
  unfold exOwn
  rw [Accepted, Accepted, Accepted]
  set c := O (Spec.coefString (O (Spec.listQuery [mulG sk])) (mulG sk)) with hc
  rcases hQ : notInf (reduceFrom c • (mulG sk).1) with _ | Q
  · exact ⟨mulG sk, hY, fun r hr => by (cases hr), hv⟩
  · have hQ1 := notInf_eq_some.1 hQ
    dsimp only
    rw [Accepted]
    have h2 : coeffOf O [mulG sk] (mulG sk) = reduceFrom c := by
      rw [GroupForger.coeffOf_of_ne (by simp [secondKey])]
      rfl
    have h3 : KeyAggContext.new O [mulG sk] = .ok (baseCtx O [mulG sk] Q) := by
      refine new_eq_ok.2 ⟨by simp, by simp [u32Max], Q, ?_, rfl⟩
      unfold keySum
      simp [h2]
      exact hQ1
    have h4 : Adaptive.makeContext O [mulG sk] [] = some (baseCtx O [mulG sk] Q) := by
      unfold Adaptive.makeContext
      rw [h3]
      rfl
    obtain ⟨r, hr⟩ : ∃ r, FirstRound.new O (baseCtx O [mulG sk] Q) (s 0) 0 ⟨some sk, some m, []⟩ = .ok r :=
      new_ok (s 0) (Nat.zero_lt_one) _ (by simp [u32Max])
    refine ⟨_, r, h4, rfl, hr, ?_⟩
    rw [Accepted, List.nil_append]
    change Accepted O sk (.aggregator 0 an m (exData 0) _) _ [_]
    rw [Accepted]
    change Accepted O sk (.submit [] [] [] _ _) _ [_]
    refine ⟨mulG sk, hY, fun r' hr' c' m' R hR h1 => ?_, hv⟩
    rw [List.mem_singleton.1 hr'] at hR
    obtain ⟨y, -, hy⟩ := Option.map_eq_some_iff.1 hR
    have : m = m' := congrArg (fun z => z.2.1) hy
    exact hm (this.trans h1.1)

/-- The signature is valid with every hash function. -/
theorem exOwn_valid (O : Hash) (sk : Scalar) : verifySingle O (mulG sk)
    ⟨xonly G, 1 + reduceFrom (O (Spec.challengeQuery (xonly G).1 (mulG sk) [])) * (Spec.sgn (mulG sk).1 * (sk.1 + 0))⟩ [] = .ok () := by
  refine verifySingle_eq_ok.2 ⟨Gpt, ?_, isOdd_G, rfl⟩
  simp only
  rw [(C66_what_is_hashed O).2.2.2.1, CmaForger.toEvenY_sgn, add_smul, one_smul, mul_smul, mul_smul, add_zero]
  rfl

/-- The forger of the example succeeds, but for a negligible part of the seeds and hashes. -/
theorem exOwn_forges (sk : Scalar) (an : AggNonce) (m : Bytes) (hm : m ≠ []) :
    1 - 1 / 2 ^ 120 ≤ Spec.chance fun w : (Fin 1 → Arr 32) × (Fin 12 → Arr 32) => Forges sha256 (fun _ => exOwn sk an m) (sk, w) := by
  have hW := within_game (RoundForger.opener_asks (mulG sk) (exOwn_asks sk an m) [] rfl) 1 sha256 sk [] [] []
  have h := C134_nonces_like_random Opener.Drawn (fun x hx => .inr hx) sha256 _ 9 1 12 hW (by norm_num)
  have hr : ∀ w : (Fin 1 → Scalar × Scalar) × (Fin 12 → Arr 32),
      (game 1 sha256 sk ((exOwn sk an m).opener (mulG sk) []) [] [] []).OnRandom Opener.Drawn sha256 w := by
    intro w
    have := (onRandom_iff sha256 ((exOwn sk an m).opener (mulG sk) []) ((Opener.unknownEquiv 1 (Fin 12 → Arr 32)).symm (sk, w))).2 (by
      rw [exOwn_plain]
      exact exPlain_forges sha256_tagsAgree sk _ an hm w.2)
    rwa [Equiv.apply_symm_apply] at this
  have h1 : (Spec.chance fun w : (Fin 1 → Scalar × Scalar) × (Fin 12 → Arr 32) =>
      (game 1 sha256 sk ((exOwn sk an m).opener (mulG sk) []) [] [] []).OnRandom Opener.Drawn sha256 w) = 1 := by
    unfold Spec.chance
    simp only [hr, Set.ofPred_true, Set.ncard_univ]
    have : Nonempty ((Fin 1 → Scalar × Scalar) × (Fin 12 → Arr 32)) := ⟨fun _ => (scalarOne, scalarOne), fun _ => zeroSeed⟩
    exact div_self (Nat.cast_ne_zero.2 Nat.card_pos.ne')
  have h2 := (abs_le.1 h).1
  rw [h1] at h2
  refine le_trans ?_ (CmaForger.chance_mono (E := fun w : (Fin 1 → Arr 32) × (Fin 12 → Arr 32) =>
    (game 1 sha256 sk ((exOwn sk an m).opener (mulG sk) []) [] [] []).OnLibrary Opener.Drawn sha256 w) fun w hw => ?_)
  · norm_num at h2 ⊢
    linarith
  · obtain ⟨pn, ⟨out, log⟩, h3, -⟩ := play_code sha256 ((exOwn sk an m).opener (mulG sk) []) (sk, w)
    have h4 := (h3 _).1 hw
    refine ⟨exOwn_accepted _ sk an m hm _ (exOwn_valid _ sk), (h3 _).2 ?_⟩
    rcases out with _ | o
    · exact h4.elim
    · exact h4.2.2

end OwnRounds

/-- The hypotheses can be met by a forger with unlimited time that computes the secret key from the public key, has it given as a spice, and
succeeds nearly always. -/
example (an : AggNonce) (m : Bytes) (hm : m ≠ []) : ∃ A : Point → RoundForger, (∀ P, (A P).AsksAtMost 9 1 []) ∧
    ∀ sk, 1 - 1 / 2 ^ 120 ≤ Spec.chance fun w : (Fin 1 → Arr 32) × (Fin 12 → Arr 32) => Forges sha256 A (sk, w) := by
  choose f hf using mulG_surjective
  refine ⟨fun P => exOwn (f P) an m, fun P => exOwn_asks _ an m, fun sk => ?_⟩
  refine (exOwn_forges sk an m hm).trans_eq ?_
  unfold Forges
  simp only [mulG_injective (hf (mulG sk))]

end Verif
