import Verif.Lemmas.Props.Sessions
import Verif.Lemmas.Props.Cma
import Verif.Lemmas.Props.NonceClash
import Verif.Lemmas.Props.AnyGroup
import Verif.Lemmas.Props.AdaptiveSolver
import Verif.Lemmas.Props.Cancel
import Verif.Lemmas.Props.DetForger
import Verif.Lemmas.Deterministic
import Verif.Props.Rounds
import Verif.Props.Sessions
import Verif.Spec.Completes

/-!
# Lemmas for C139 and C140
-/

namespace Verif

namespace Completes

open CmaForger

/-! ## Contexts under other hash functions -/

/-- The hash functions agree on the strings hashed for contexts. -/
structure SameKeys (H H' : Hash) : Prop where
  list : ∀ r, H (Spec.taggedInput "KeyAgg list" r) = H' (Spec.taggedInput "KeyAgg list" r)
  coeff : ∀ r, H (Spec.taggedInput "KeyAgg coefficient" r) = H' (Spec.taggedInput "KeyAgg coefficient" r)
  tap : ∀ r, H (Spec.taggedInput "TapTweak" r) = H' (Spec.taggedInput "TapTweak" r)

theorem SameKeys.trans {H H' H'' : Hash} (h : SameKeys H H') (h' : SameKeys H' H'') : SameKeys H H'' :=
  ⟨fun r => (h.list r).trans (h'.list r), fun r => (h.coeff r).trans (h'.coeff r), fun r => (h.tap r).trans (h'.tap r)⟩

theorem sameKeys_answering (H : Hash) {tag : String} (ht : tag ∈ ["MuSig/nonce", "MuSig/noncecoef"]) (x : Bytes) (h : Arr 32) :
    SameKeys H (H.answering (Spec.taggedInput tag x) h) := by
  have key : ∀ tag' ∈ ["KeyAgg list", "KeyAgg coefficient", "TapTweak"], ∀ r,
      H (Spec.taggedInput tag' r) = H.answering (Spec.taggedInput tag x) h (Spec.taggedInput tag' r) := by
    intro tag' ht' r
    refine (Hash.answering_of_ne H h (C66_domain_separation _ _ ?_ ?_ ?_ _ _)).symm
    · simp only [List.mem_cons, List.not_mem_nil, or_false] at ht'
      rcases ht' with rfl | rfl | rfl <;> simp [Spec.tags]
    · simp only [List.mem_cons, List.not_mem_nil, or_false] at ht
      rcases ht with rfl | rfl <;> simp [Spec.tags]
    · simp only [List.mem_cons, List.not_mem_nil, or_false] at ht ht'
      rcases ht with rfl | rfl <;> rcases ht' with rfl | rfl | rfl <;> decide
  exact ⟨key _ (by simp), key _ (by simp), key _ (by simp)⟩

theorem SameKeys.coeffOf_eq {H H' : Hash} (h : SameKeys H H') (keys : List Point) (K : Point) :
    coeffOf H keys K = coeffOf H' keys K := by
  by_cases h2 : secondKey keys = some K
  · rw [GroupForger.coeffOf_second h2, GroupForger.coeffOf_second h2]
  · rw [GroupForger.coeffOf_of_ne h2, GroupForger.coeffOf_of_ne h2, GroupForger.coeffQuery_eq, GroupForger.coeffQuery_eq,
      GroupForger.hashPubkeys_congr h.list, h.coeff]

theorem SameKeys.new_eq {H H' : Hash} (h : SameKeys H H') : KeyAggContext.new H = KeyAggContext.new H' := by
  funext keys
  have hc : coeffOf H keys = coeffOf H' keys := funext (h.coeffOf_eq keys)
  rw [Verif.new_eq, Verif.new_eq]
  unfold keySum baseCtx
  rw [hc]

theorem SameKeys.taproot_eq {H H' : Hash} (h : SameKeys H H') (ctx : KeyAggContext) (root : Bytes) :
    ctx.withTaprootTweakInternal H root = ctx.withTaprootTweakInternal H' root := by
  unfold KeyAggContext.withTaprootTweakInternal tagHash
  rw [← taggedInput_eq (tag := "TapTweak") (by simp [tagTable]), h.tap]

theorem SameKeys.fromBytes_eq {H H' : Hash} (h : SameKeys H H') (b : Bytes) :
    KeyAggContext.fromBytes H b = KeyAggContext.fromBytes H' b := by
  unfold KeyAggContext.fromBytes
  rw [h.new_eq]

theorem SameKeys.reachable {H H' : Hash} (h : SameKeys H H') {ctx : KeyAggContext} (hc : Reachable H ctx) : Reachable H' ctx := by
  induction hc with
  | new e => exact .new (h.new_eq ▸ e)
  | plain _ e ih => exact .plain ih e
  | xonly _ e ih => exact .xonly ih e
  | tweak _ e ih => exact .tweak ih e
  | tweaks _ e ih => exact .tweaks ih e
  | taproot _ e ih => exact .taproot ih ((h.taproot_eq _ _).symm.trans e)
  | unspendable _ e ih => exact .unspendable ih ((h.taproot_eq _ _).symm.trans e)
  | decoded e => exact .decoded ((h.fromBytes_eq _).symm.trans e)

/-! ## Nonces under other hash functions -/

theorem round_builder (ctx : KeyAggContext) (seed : Arr 32) {i : ℕ} (hi : i < ctx.pubkeys.length) (spices : SecNonceSpices)
    (hs : spices.extraInputs.flatten.length + 4 ≤ u32Max) :
    ∃ b : SecNonceBuilder, ∀ H, (∃ r, FirstRound.new H ctx seed i spices = .ok r ∧ r.ourPublicNonce = (b.build H).publicNonce) ∧
      nonceInputs H b = roundNonceInputs H ctx seed i spices := by
  obtain ⟨b, h2⟩ := builder_ok seed ctx.pubkeys[i] ctx.aggregatedPubkey i spices hs SignerIndexError
  refine ⟨b, fun H => ⟨⟨_, FirstRound.new_eq_ok.2 ⟨_, b, List.getElem?_eq_getElem hi, h2, rfl⟩, rfl⟩, ?_⟩⟩
  unfold FirstRound.builder at h2
  obtain ⟨b1, h3, h4⟩ := Res.bind_eq_ok.1 h2
  obtain ⟨-, rfl⟩ := SecNonceBuilder.withExtraInput_eq_ok.1 h3
  obtain ⟨-, rfl⟩ := SecNonceBuilder.withSpices_eq_ok.1 h4
  unfold nonceInputs roundNonceInputs
  congr 1
  · congr 1
    cases spices.seckey <;> rfl
  · exact (List.getElem?_eq_getElem hi).symm
  · cases hm : spices.message <;> simp [hm, SecNonceBuilder.new, SecNonceBuilder.withPubkey,
      SecNonceBuilder.withAggregatedPubkey]

theorem build_answering_other (H : Hash) (b : SecNonceBuilder) (x : Bytes) (h : Arr 32)
    (hx : ∀ r, Spec.taggedInput "MuSig/aux" r ≠ x)
    (hx' : ∀ i, Spec.nonceQuery H b i ≠ x) : b.build (H.answering x h) = b.build H := by
  have hi : b.hashInput (H.answering x h) = b.hashInput H := by
    unfold SecNonceBuilder.hashInput tagHash
    rw [← taggedInput_eq (tag := "MuSig/aux") (by simp [tagTable]), Hash.answering_of_ne H h (hx _)]
  unfold SecNonceBuilder.build tagHash
  rw [hi, ← nonceQuery_eq, ← nonceQuery_eq, Hash.answering_of_ne H h (hx' _), Hash.answering_of_ne H h (hx' _)]

theorem build_answering_coef (H : Hash) (b : SecNonceBuilder) (an : AggNonce) (Q : Point) (msg : Bytes) (h : Arr 32) :
    b.build (H.answering (Spec.noncecoefQuery an Q msg) h) = b.build H := by
  refine build_answering_other H b _ h (fun r => ?_) fun i => ?_
  · exact C66_domain_separation _ _ (by simp [Spec.tags]) (by simp [Spec.tags]) (by decide) _ _
  · exact C66_domain_separation _ _ (by simp [Spec.tags]) (by simp [Spec.tags]) (by decide) _ _

theorem roundInputs_ne (H : Hash) (ctx : KeyAggContext) (seed seed' : Arr 32)
    (spices spices' : SecNonceSpices) (i i' : ℕ) (hi : i ≤ 4294967295) (hi' : i' ≤ 4294967295) (hne : i ≠ i')
    (hm : ∀ m ∈ spices.message, m.length < 2 ^ 64) (hm' : ∀ m ∈ spices'.message, m.length < 2 ^ 64) (x y : UInt8) :
    (roundNonceInputs H ctx seed i spices).bytes ++ [x] ≠ (roundNonceInputs H ctx seed' i' spices').bytes ++ [y] := by
  have hwf : ∀ seed i spices, (∀ m ∈ SecNonceSpices.message spices, m.length < 2 ^ 64) →
      (roundNonceInputs H ctx seed i spices).WF := fun seed i spices hm =>
    ⟨maskedSeckey_length _ _ _, by
      intro q hq
      rw [← Option.mem_some_iff.1 hq]
      exact spec_xbytes_length _, hm⟩
  intro h
  have := (nonceInputs_bytes_inj (hwf _ _ _ hm) (hwf _ _ _ hm') h).1
  have := congrArg NonceInputs.extra this
  simp only [roundNonceInputs, Option.some.injEq] at this
  have := (append_inj_len this (by simp)).1
  exact hne (beBytes_injective (by norm_num; omega) (by norm_num; omega) this)

/-! ## Bounds -/

theorem chance_second (S : MaybePoint) : (Spec.chance fun h : Arr 32 => S + (mulG (SecNonceBuilder.reduceOrOne h)).1 = 0) ≤ 4 / 2 ^ 256 := by
  classical
  by_cases hex : ∃ h0 : Arr 32, S + (mulG (SecNonceBuilder.reduceOrOne h0)).1 = 0
  · obtain ⟨h0, e0⟩ := hex
    have h1 := Concurrent.chance_reduce_mem {(SecNonceBuilder.reduceOrOne h0).1, 0}
    refine (chance_mono fun h hh => ?_).trans (h1.trans ?_)
    · have h2 : (SecNonceBuilder.reduceOrOne h).1 = (SecNonceBuilder.reduceOrOne h0).1 :=
        smul_G_inj.1 (add_left_cancel (hh.trans e0.symm))
      simp only [Finset.mem_insert, Finset.mem_singleton]
      rcases NonceClash.reduceFrom_of_reduceOrOne (h := h) rfl with h3 | h3
      · exact .inl (h3.trans h2)
      · exact .inr h3
    · have : (({(SecNonceBuilder.reduceOrOne h0).1, 0} : Finset MaybeScalar).card : ℚ) ≤ 2 := by
        exact_mod_cast Finset.card_le_two
      rw [div_le_div_iff_of_pos_right (by positivity)]
      linarith
  · exact KeyCommit.chance_zero (fun h hh => hex ⟨h, hh⟩) _ (by positivity)

theorem chance_coef {A B : MaybePoint} (hB : B ≠ 0) (T : MaybePoint) :
    (Spec.chance fun h : Arr 32 => A + reduceFrom h • B = T) ≤ 2 / 2 ^ 256 :=
  KeyCommit.chance_two fun _ _ e e' => smul_left_cancel hB (add_left_cancel (e.trans e'.symm))

theorem list_sum_range {M : Type} [AddCommMonoid M] (n : ℕ) (f : ℕ → M) : ((List.range n).map f).sum = ∑ j ∈ Finset.range n, f j := rfl

/-! ## The session -/

section

variable (H : Hash) (ctx : KeyAggContext) (n : ℕ) (seeds : ℕ → Arr 32) (spices : ℕ → SecNonceSpices)

theorem roundNonces_eq {b : ℕ → SecNonceBuilder}
    (hb : ∀ j < n, ∃ r, FirstRound.new H ctx (seeds j) j (spices j) = .ok r ∧ r.ourPublicNonce = ((b j).build H).publicNonce) :
    Spec.roundNonces H ctx n seeds spices = (List.range n).map fun j => ((b j).build H).publicNonce := by
  unfold Spec.roundNonces
  rw [← List.filterMap_eq_map]
  refine List.filterMap_congr fun j hj => ?_
  obtain ⟨r, h1, h2⟩ := hb j (List.mem_range.1 hj)
  rw [h1]
  exact congrArg some h2

end

theorem endsWell {H : Hash} {g : HonestGroup H} {t : MaybeScalar} {msg : Bytes} (h1 : g.sessionNonce msg ≠ 0)
    (h2 : g.sessionNonce msg ≠ -(t • G)) : g.EndsWell t msg := by
  obtain ⟨psigs, sig, hv, ha, hall⟩ := C61_honest_adaptor_session H g t msg h1
  obtain ⟨f, h3, h4, h5⟩ := ha fun e => h2 (eq_neg_of_add_eq_zero_left e)
  exact ⟨psigs, sig, f, hv, h3, h4, h5, hall⟩

theorem chance_fails (H : Hash) (ctx : KeyAggContext) (hc : Reachable H ctx) (sks : List Scalar) (hk : ctx.pubkeys = sks.map mulG)
    (seeds : ℕ → Arr 32) (spices : ℕ → SecNonceSpices)
    (hs : ∀ j < sks.length, (spices j).extraInputs.flatten.length + 4 ≤ u32Max)
    (hm : ∀ j < sks.length, ∀ m ∈ (spices j).message, m.length < 2 ^ 64) (i : ℕ) (hi : i < sks.length) (t : MaybeScalar) (msg : Bytes) :
    (Spec.chance fun h : Arr 32 × Arr 32 => ¬ ∃ g : HonestGroup (Spec.sessionDrawn H ctx sks.length seeds spices i msg h),
      g.ctx = ctx ∧ g.sks = sks ∧ g.seeds = seeds ∧ g.spices = spices ∧ g.sessionNonce msg ≠ 0 ∧
        g.sessionNonce msg ≠ -(t • G)) ≤ 1 / 2 ^ 253 := by
  classical
  have hne : Nonempty (Arr 32) := ⟨zeroSeed⟩
  have hlen : ctx.pubkeys.length = sks.length := by rw [hk, List.length_map]
  have hl : ctx.pubkeys.length ≤ 4294967295 := hc.inv.length_le
  have hex : ∀ j, ∃ b : SecNonceBuilder, j < sks.length → ∀ H,
      (∃ r, FirstRound.new H ctx (seeds j) j (spices j) = .ok r ∧ r.ourPublicNonce = (b.build H).publicNonce) ∧
      nonceInputs H b = roundNonceInputs H ctx (seeds j) j (spices j) := by
    intro j
    by_cases hj : j < sks.length
    · obtain ⟨b, hb⟩ := round_builder ctx (seeds j) (hlen ▸ hj) (spices j) (hs j hj)
      exact ⟨b, fun _ => hb⟩
    · exact ⟨SecNonceBuilder.new zeroSeed, fun h => absurd h hj⟩
  choose b hb using hex
  -- the string of the redrawn nonce
  have hq : Spec.taggedInput "MuSig/nonce" ((roundNonceInputs H ctx (seeds i) i (spices i)).bytes ++ [1]) = Spec.nonceQuery H (b i) 1 := by
    unfold Spec.nonceQuery
    rw [((hb i hi) H).2]
  set H1 : Arr 32 → Hash := fun h => Spec.nonceDrawn H ctx seeds spices i h with hH1
  have hown : ∀ h, (b i).build (H1 h) = ⟨((b i).build H).k1, SecNonceBuilder.reduceOrOne h⟩ := by
    intro h
    rw [hH1]
    change (b i).build (H.answering _ h) = _
    rw [hq, build_answering]
    simp
  have hoth : ∀ h, ∀ j < sks.length, j ≠ i → (b j).build (H1 h) = (b j).build H := by
    intro h j hj hji
    refine build_answering_other H (b j) _ h (fun r => ?_) fun a => ?_
    · exact C66_domain_separation _ _ (by simp [Spec.tags]) (by simp [Spec.tags]) (by decide) _ _
    · unfold Spec.nonceQuery
      rw [((hb j hj) H).2]
      intro e
      have e' := List.append_cancel_left ((by unfold Spec.taggedInput at e; exact e) : _ ++ _ = _ ++ _)
      exact roundInputs_ne H ctx _ _ _ _ _ _ (by omega) (by omega) hji (hm j hj) (hm i hi) _ _ e'
  set S : MaybePoint := ∑ j ∈ (Finset.range sks.length).erase i, (mulG ((b j).build H).k2).1 with hS
  set A : Arr 32 → AggNonce := fun h => AggNonce.sum (Spec.roundNonces (H1 h) ctx sks.length seeds spices) with hA
  have hN : ∀ H', Spec.roundNonces H' ctx sks.length seeds spices
      = (List.range sks.length).map fun j => ((b j).build H').publicNonce := fun H' =>
    roundNonces_eq H' ctx sks.length seeds spices fun j hj => ((hb j hj) H').1
  have hA2 : ∀ h, (A h).R2 = S + (mulG (SecNonceBuilder.reduceOrOne h)).1 := by
    intro h
    rw [hA]
    simp only
    rw [hN, AggNonce.sum_eq]
    simp only [List.map_map]
    rw [list_sum_range, ← Finset.sum_erase_add _ _ (Finset.mem_range.2 hi), hS]
    congr 1
    · refine Finset.sum_congr rfl fun j hj => ?_
      obtain ⟨hji, hj⟩ := Finset.mem_erase.1 hj
      simp only [Function.comp_apply]
      rw [hoth h j (Finset.mem_range.1 hj) hji]
      rfl
    · simp only [Function.comp_apply]
      rw [hown h]
      rfl
  -- the group under the redrawn hash function
  have hgrp : ∀ h : Arr 32 × Arr 32, ∃ g : HonestGroup (Spec.sessionDrawn H ctx sks.length seeds spices i msg h),
      g.ctx = ctx ∧ g.sks = sks ∧ g.seeds = seeds ∧ g.spices = spices ∧
        g.sessionNonce msg = (A h.1).R1 + reduceFrom h.2 • (A h.1).R2 := by
    intro h
    have hH2 : Spec.sessionDrawn H ctx sks.length seeds spices i msg h
      = (H1 h.1).answering (Spec.noncecoefQuery (A h.1) ctx.aggregatedPubkey msg) h.2 := rfl
    generalize hH2' : Spec.sessionDrawn H ctx sks.length seeds spices i msg h = H2 at hH2 ⊢
    have hr : Reachable H2 ctx := by
      rw [hH2]
      exact ((sameKeys_answering H (by simp) _ _).trans (sameKeys_answering _ (by simp) _ _)).reachable hc
    have hrounds : ∀ j, ∃ r, j < sks.length →
        FirstRound.new H2 ctx (seeds j) j (spices j) = .ok r ∧ r.ourPublicNonce = ((b j).build H2).publicNonce := by
      intro j
      by_cases hj : j < sks.length
      · obtain ⟨r, hr⟩ := ((hb j hj) H2).1
        exact ⟨r, fun _ => hr⟩
      · exact ⟨⟨ctx, 0, ⟨scalarOne, scalarOne⟩, Slots.new 0⟩, fun h => absurd h hj⟩
    choose rounds hrounds using hrounds
    refine ⟨⟨ctx, hr, sks, hk, seeds, spices, rounds, fun j hj => (hrounds j hj).1⟩, rfl, rfl, rfl, rfl, ?_⟩
    have hnon : HonestGroup.nonces ⟨ctx, hr, sks, hk, seeds, spices, rounds, fun j hj => (hrounds j hj).1⟩
        = Spec.roundNonces (H1 h.1) ctx sks.length seeds spices := by
      rw [hN]
      unfold HonestGroup.nonces
      refine List.map_congr_left fun j hj => ?_
      rw [(hrounds j (List.mem_range.1 hj)).2, hH2, build_answering_coef]
    unfold HonestGroup.sessionNonce
    rw [hnon]
    change (A h.1).R1 + (A h.1).nonceCoefficient H2 ctx.aggregatedPubkey msg • (A h.1).R2 = _
    rw [hH2, nonceCoefficient_answering]
  have hsub : ∀ h : Arr 32 × Arr 32, (¬ ∃ g : HonestGroup (Spec.sessionDrawn H ctx sks.length seeds spices i msg h),
      g.ctx = ctx ∧ g.sks = sks ∧ g.seeds = seeds ∧ g.spices = spices ∧ g.sessionNonce msg ≠ 0 ∧
        g.sessionNonce msg ≠ -(t • G)) →
      (S + (mulG (SecNonceBuilder.reduceOrOne h.1)).1 = 0) ∨
        ((A h.1).R2 ≠ 0 ∧ (A h.1).R1 + reduceFrom h.2 • (A h.1).R2 = 0) ∨
        ((A h.1).R2 ≠ 0 ∧ (A h.1).R1 + reduceFrom h.2 • (A h.1).R2 = -(t • G)) := by
    intro h hno
    by_cases h2 : (A h.1).R2 = 0
    · exact .inl ((hA2 h.1).symm.trans h2)
    obtain ⟨g, e1, e2, e3, e4, e5⟩ := hgrp h
    rw [← e5]
    by_contra hcon
    push Not at hcon
    exact hno ⟨g, e1, e2, e3, e4, hcon.2.1 h2, hcon.2.2 h2⟩
  refine (chance_mono hsub).trans ?_
  have key : ∀ T : MaybePoint, (Spec.chance fun h : Arr 32 × Arr 32 =>
      (A h.1).R2 ≠ 0 ∧ (A h.1).R1 + reduceFrom h.2 • (A h.1).R2 = T) ≤ 2 / 2 ^ 256 := by
    intro T
    refine chance_snd (fun a b => (A a).R2 ≠ 0 ∧ (A a).R1 + reduceFrom b • (A a).R2 = T) _ (fun a => ?_) (by positivity)
    by_cases h2 : (A a).R2 = 0
    · exact KeyCommit.chance_zero (fun _ h => h.1 h2) _ (by positivity)
    · exact (chance_mono fun _ h => h.2).trans (chance_coef h2 T)
  have h1 := chance_fst (Ω' := Arr 32) fun a : Arr 32 => S + (mulG (SecNonceBuilder.reduceOrOne a)).1 = 0
  have h2 := chance_second S
  refine (chance_or _ _).trans ?_
  refine (add_le_add (h1.trans_le h2) ((chance_or _ _).trans (add_le_add (key 0) (key (-(t • G)))))).trans ?_
  norm_num

/-! ## Aggregated keys and taproot outputs -/

theorem sessionDrawn_sameKeys (H : Hash) (ctx : KeyAggContext) (n : ℕ) (seeds : ℕ → Arr 32) (spices : ℕ → SecNonceSpices) (i : ℕ)
    (msg : Bytes) (h : Arr 32 × Arr 32) : SameKeys H (Spec.sessionDrawn H ctx n seeds spices i msg h) :=
  (sameKeys_answering H (by simp) _ _).trans (sameKeys_answering _ (by simp) _ _)

theorem new_answering_tap (H : Hash) (x : Bytes) (h : Arr 32) :
    KeyAggContext.new (H.answering (Spec.taggedInput "TapTweak" x) h) = KeyAggContext.new H := by
  have key : ∀ tag' ∈ ["KeyAgg list", "KeyAgg coefficient"], ∀ r,
      H.answering (Spec.taggedInput "TapTweak" x) h (Spec.taggedInput tag' r) = H (Spec.taggedInput tag' r) := by
    intro tag' ht' r
    refine Hash.answering_of_ne H h (C66_domain_separation _ _ ?_ (by simp [Spec.tags]) ?_ _ _)
    · simp only [List.mem_cons, List.not_mem_nil, or_false] at ht'
      rcases ht' with rfl | rfl <;> simp [Spec.tags]
    · simp only [List.mem_cons, List.not_mem_nil, or_false] at ht'
      rcases ht' with rfl | rfl <;> decide
  funext keys
  have hc : coeffOf (H.answering (Spec.taggedInput "TapTweak" x) h) keys = coeffOf H keys := by
    funext K
    by_cases h2 : secondKey keys = some K
    · rw [GroupForger.coeffOf_second h2, GroupForger.coeffOf_second h2]
    · rw [GroupForger.coeffOf_of_ne h2, GroupForger.coeffOf_of_ne h2, GroupForger.coeffQuery_eq, GroupForger.coeffQuery_eq,
        GroupForger.hashPubkeys_congr (key _ (by simp)), key _ (by simp)]
  rw [Verif.new_eq, Verif.new_eq]
  unfold keySum baseCtx
  rw [hc]

theorem taproot_fails (H : Hash) (ctx : KeyAggContext) (root : Arr 32) {h : Arr 32}
    (hno : ¬ ∃ ctx', ctx.withTaprootTweak (H.answering (Spec.taptweakQuery ctx.aggregatedPubkey root.1) h) root = .ok ctx') :
    h ∉ goodArr ∨ ∃ k : Scalar, parseScalar h.1 = some k ∧ negIf (isOdd ctx.pubkey.1) ctx.pubkey.1 + k.1 • G = 0 := by
  by_contra hcon
  push Not at hcon
  obtain ⟨hg, hk⟩ := hcon
  apply hno
  have hq : tagHash (H.answering (Spec.taptweakQuery ctx.aggregatedPubkey root.1) h) TAPROOT_TWEAK_TAG_DIGEST
      ((xonly ctx.pubkey.1).1 ++ root.1) = h := by
    unfold tagHash Spec.taptweakQuery
    rw [taggedInput_eq (D := TAPROOT_TWEAK_TAG_DIGEST) (by simp [tagTable]), spec_xbytes]
    exact Hash.answering_same _ _ _
  unfold KeyAggContext.withTaprootTweak KeyAggContext.withTaprootTweakInternal
  simp only [hq, Res.bind_eq_ok, Res.okOr_eq_ok]
  cases hp : parseScalar h.1 with
  | none => exact absurd ⟨hg.1, hg.2⟩ (parseScalar_eq_none.1 hp)
  | some k => exact ⟨_, k, rfl, withXonlyTweak_eq_ok.2 ⟨⟨_, hk k hp⟩, rfl, rfl⟩⟩

theorem chance_taproot_fails (H : Hash) (ctx : KeyAggContext) (root : Arr 32) :
    (Spec.chance fun h => ¬ ∃ ctx', ctx.withTaprootTweak (H.answering (Spec.taptweakQuery ctx.aggregatedPubkey root.1) h) root
      = .ok ctx') ≤ 1 / 2 ^ 127 + 1 / 2 ^ 256 := by
  refine (chance_mono fun h hno => taproot_fails H ctx root hno).trans ((chance_or _ _).trans (add_le_add DetGame.chance_not_goodArr ?_))
  refine chance_of_prob (prob_le_one fun h h' e e' => ?_)
  obtain ⟨k, hk, e⟩ := e
  obtain ⟨k', hk', e'⟩ := e'
  have hkk : k = k' := Subtype.ext (smul_G_inj.1 (add_left_cancel (e.trans e'.symm)))
  subst hkk
  rw [parseScalar_eq_some] at hk hk'
  exact Subtype.ext (hk.trans hk'.symm)

theorem secondKey_head (P : Point) (rest : List Point) : secondKey (P :: rest) ≠ some P := by
  intro h
  have := List.find?_some (show rest.find? (fun pubkey => pubkey ≠ P) = some P from h)
  simp at this

theorem chance_new_fails (H : Hash) (P : Point) (rest : List Point) (hl : (P :: rest).length ≤ 4294967295) :
    (Spec.chance fun h => ¬ ∃ ctx, KeyAggContext.new (H.answering (Spec.coeffQuery H (P :: rest) P) h) (P :: rest) = .ok ctx)
      ≤ 2 / 2 ^ 256 := by
  have key : ∀ H' : Hash, (¬ ∃ ctx, KeyAggContext.new H' (P :: rest) = .ok ctx) → keySum H' (P :: rest) = 0 := by
    intro H' e
    by_contra h0
    exact e ⟨_, new_eq_ok.2 ⟨by simp, hl, ⟨_, h0⟩, rfl, rfl⟩⟩
  refine chance_of_prob (prob_le_two fun h h' e e' => ?_)
  exact keySum_answering_inj H (P :: rest) P (by simp) hl (secondKey_head P rest) h h' ((key _ e).trans (key _ e').symm)

theorem taproot_pubkeys {H : Hash} {keys : List Point} {root : Arr 32} {ctx ctx' : KeyAggContext}
    (h1 : KeyAggContext.new H keys = .ok ctx) (h2 : ctx.withTaprootTweak H root = .ok ctx') : ctx'.pubkeys = keys := by
  unfold KeyAggContext.withTaprootTweak KeyAggContext.withTaprootTweakInternal at h2
  simp only [Res.bind_eq_ok, Res.okOr_eq_ok] at h2
  obtain ⟨k, -, e⟩ := h2
  obtain ⟨Q', -, rfl⟩ := withXonlyTweak_eq_ok.1 e
  obtain ⟨-, -, Q1, -, rfl⟩ := new_eq_ok.1 h1
  rfl

theorem taprootCtx_eq_some {H : Hash} {keys : List Point} {root : Arr 32} {ctx' : KeyAggContext} :
    Spec.taprootCtx H keys root = some ctx' ↔
      ∃ ctx, KeyAggContext.new H keys = .ok ctx ∧ ctx.withTaprootTweak H root = .ok ctx' := by
  unfold Spec.taprootCtx
  constructor
  · intro h
    split at h
    · rename_i ctx h1
      split at h
      · rename_i c h2
        cases h
        exact ⟨ctx, h1, h2⟩
      · cases h
    · cases h
  · rintro ⟨ctx, h1, h2⟩
    rw [h1]
    simp only
    rw [h2]

theorem chance_keys_fail (H : Hash) (P : Point) (rest : List Point) (hl : (P :: rest).length ≤ 4294967295) (root : Arr 32) :
    (Spec.chance fun h : Arr 32 × Arr 32 => Spec.taprootCtx (Spec.keyDrawn H (P :: rest) root h) (P :: rest) root = none)
      ≤ 1 / 2 ^ 127 + 3 / 2 ^ 256 := by
  have hne : Nonempty (Arr 32) := ⟨zeroSeed⟩
  set H1 : Arr 32 → Hash := fun a => H.answering (Spec.coeffQuery H (P :: rest) P) a with hH1
  have hsub : ∀ h : Arr 32 × Arr 32, Spec.taprootCtx (Spec.keyDrawn H (P :: rest) root h) (P :: rest) root = none →
      (¬ ∃ ctx, KeyAggContext.new (H1 h.1) (P :: rest) = .ok ctx) ∨
      ∃ ctx, KeyAggContext.new (H1 h.1) (P :: rest) = .ok ctx ∧
        ¬ ∃ ctx', ctx.withTaprootTweak ((H1 h.1).answering (Spec.taptweakQuery ctx.aggregatedPubkey root.1) h.2) root = .ok ctx' := by
    intro h hno
    by_cases hex : ∃ ctx, KeyAggContext.new (H1 h.1) (P :: rest) = .ok ctx
    · obtain ⟨ctx, hc⟩ := hex
      refine .inr ⟨ctx, hc, ?_⟩
      rintro ⟨ctx', h2⟩
      have hd : Spec.keyDrawn H (P :: rest) root h = (H1 h.1).answering (Spec.taptweakQuery ctx.aggregatedPubkey root.1) h.2 := by
        unfold Spec.keyDrawn
        simp only
        change (match KeyAggContext.new (H1 h.1) (P :: rest) with
          | .ok ctx => (H1 h.1).answering (Spec.taptweakQuery ctx.aggregatedPubkey root.1) h.2
          | _ => H1 h.1) = _
        rw [hc]
      have : Spec.taprootCtx (Spec.keyDrawn H (P :: rest) root h) (P :: rest) root = some ctx' := by
        refine taprootCtx_eq_some.2 ⟨ctx, ?_, ?_⟩
        · rw [hd]
          unfold Spec.taptweakQuery
          rw [new_answering_tap, hc]
        · rw [hd, h2]
      rw [this] at hno
      cases hno
    · exact .inl hex
  refine (chance_mono hsub).trans ((chance_or _ _).trans ?_)
  have h1 := (chance_fst (Ω' := Arr 32) fun a : Arr 32 => ¬ ∃ ctx, KeyAggContext.new (H1 a) (P :: rest) = .ok ctx).trans_le
    (chance_new_fails H P rest hl)
  have h2 : (Spec.chance fun h : Arr 32 × Arr 32 => ∃ ctx, KeyAggContext.new (H1 h.1) (P :: rest) = .ok ctx ∧
        ¬ ∃ ctx', ctx.withTaprootTweak ((H1 h.1).answering (Spec.taptweakQuery ctx.aggregatedPubkey root.1) h.2) root = .ok ctx')
      ≤ 1 / 2 ^ 127 + 1 / 2 ^ 256 := by
    refine chance_snd (fun a b => ∃ ctx, KeyAggContext.new (H1 a) (P :: rest) = .ok ctx ∧
        ¬ ∃ ctx', ctx.withTaprootTweak ((H1 a).answering (Spec.taptweakQuery ctx.aggregatedPubkey root.1) b) root = .ok ctx')
      _ (fun a => ?_) (by positivity)
    by_cases hex : ∃ ctx, KeyAggContext.new (H1 a) (P :: rest) = .ok ctx
    · obtain ⟨ctx, hc⟩ := hex
      refine (chance_mono fun b hb => ?_).trans (chance_taproot_fails (H1 a) ctx root)
      obtain ⟨c, hc', hno⟩ := hb
      rw [hc] at hc'
      cases hc'
      exact hno
    · exact KeyCommit.chance_zero (fun b hb => hex ⟨hb.choose, hb.choose_spec.1⟩) _ (by positivity)
  refine (add_le_add h1 h2).trans_eq ?_
  ring

theorem chance_all_fails (H : Hash) (sks : List Scalar) (hne : sks ≠ []) (hl : sks.length ≤ 4294967295) (root : Arr 32)
    (seeds : ℕ → Arr 32) (spices : ℕ → SecNonceSpices)
    (hs : ∀ j < sks.length, (spices j).extraInputs.flatten.length + 4 ≤ u32Max)
    (hm : ∀ j < sks.length, ∀ m ∈ (spices j).message, m.length < 2 ^ 64) (i : ℕ) (hi : i < sks.length) (t : MaybeScalar) (msg : Bytes) :
    (Spec.chance fun h : (Arr 32 × Arr 32) × Arr 32 × Arr 32 => ¬ ∃ ctx ctx',
      KeyAggContext.new (Spec.allDrawn H (sks.map mulG) root seeds spices i msg h) (sks.map mulG) = .ok ctx ∧
      ctx.withTaprootTweak (Spec.allDrawn H (sks.map mulG) root seeds spices i msg h) root = .ok ctx' ∧
      ∃ g : HonestGroup (Spec.allDrawn H (sks.map mulG) root seeds spices i msg h),
      g.ctx = ctx' ∧ g.sks = sks ∧ g.seeds = seeds ∧ g.spices = spices ∧ g.sessionNonce msg ≠ 0 ∧
        g.sessionNonce msg ≠ -(t • G)) ≤ 1 / 2 ^ 126 := by
  have hne' : Nonempty (Arr 32) := ⟨zeroSeed⟩
  set keys := sks.map mulG with hkeys
  have hlen : keys.length = sks.length := by rw [hkeys, List.length_map]
  set H2 : Arr 32 × Arr 32 → Hash := fun a => Spec.keyDrawn H keys root a with hH2
  have hsub : ∀ h : (Arr 32 × Arr 32) × Arr 32 × Arr 32, (¬ ∃ ctx ctx',
      KeyAggContext.new (Spec.allDrawn H keys root seeds spices i msg h) keys = .ok ctx ∧
      ctx.withTaprootTweak (Spec.allDrawn H keys root seeds spices i msg h) root = .ok ctx' ∧
      ∃ g : HonestGroup (Spec.allDrawn H keys root seeds spices i msg h),
      g.ctx = ctx' ∧ g.sks = sks ∧ g.seeds = seeds ∧ g.spices = spices ∧ g.sessionNonce msg ≠ 0 ∧
        g.sessionNonce msg ≠ -(t • G)) →
      Spec.taprootCtx (H2 h.1) keys root = none ∨ ∃ ctx', Spec.taprootCtx (H2 h.1) keys root = some ctx' ∧
        ¬ ∃ g : HonestGroup (Spec.sessionDrawn (H2 h.1) ctx' sks.length seeds spices i msg h.2),
          g.ctx = ctx' ∧ g.sks = sks ∧ g.seeds = seeds ∧ g.spices = spices ∧ g.sessionNonce msg ≠ 0 ∧
          g.sessionNonce msg ≠ -(t • G) := by
    intro h hno
    cases hc : Spec.taprootCtx (H2 h.1) keys root with
    | none => exact .inl rfl
    | some ctx' =>
      refine .inr ⟨ctx', rfl, fun hg => hno ?_⟩
      have hd : Spec.allDrawn H keys root seeds spices i msg h
          = Spec.sessionDrawn (H2 h.1) ctx' sks.length seeds spices i msg h.2 := by
        unfold Spec.allDrawn
        change (match Spec.taprootCtx (H2 h.1) keys root with
          | some ctx => Spec.sessionDrawn (H2 h.1) ctx keys.length seeds spices i msg h.2
          | none => H2 h.1) = _
        rw [hc, hlen]
      rw [hd]
      have same := sessionDrawn_sameKeys (H2 h.1) ctx' sks.length seeds spices i msg h.2
      obtain ⟨ctx, h1, h2⟩ := taprootCtx_eq_some.1 hc
      exact ⟨ctx, ctx', same.new_eq ▸ h1, (same.taproot_eq _ _).symm.trans h2, hg⟩
  refine (chance_mono hsub).trans ((chance_or _ _).trans ?_)
  have h1 : (Spec.chance fun h : (Arr 32 × Arr 32) × Arr 32 × Arr 32 => Spec.taprootCtx (H2 h.1) keys root = none)
      ≤ 1 / 2 ^ 127 + 3 / 2 ^ 256 := by
    refine (chance_fst (Ω' := Arr 32 × Arr 32) fun a : Arr 32 × Arr 32 => Spec.taprootCtx (H2 a) keys root = none).trans_le ?_
    obtain ⟨sk, sks', rfl⟩ := List.exists_cons_of_ne_nil hne
    exact chance_keys_fail H (mulG sk) (sks'.map mulG) (by simpa using hl) root
  have h2 : (Spec.chance fun h : (Arr 32 × Arr 32) × Arr 32 × Arr 32 => ∃ ctx', Spec.taprootCtx (H2 h.1) keys root = some ctx' ∧
        ¬ ∃ g : HonestGroup (Spec.sessionDrawn (H2 h.1) ctx' sks.length seeds spices i msg h.2),
          g.ctx = ctx' ∧ g.sks = sks ∧ g.seeds = seeds ∧ g.spices = spices ∧ g.sessionNonce msg ≠ 0 ∧
          g.sessionNonce msg ≠ -(t • G)) ≤ 1 / 2 ^ 253 := by
    refine chance_snd (fun a b => ∃ ctx', Spec.taprootCtx (H2 a) keys root = some ctx' ∧
        ¬ ∃ g : HonestGroup (Spec.sessionDrawn (H2 a) ctx' sks.length seeds spices i msg b),
          g.ctx = ctx' ∧ g.sks = sks ∧ g.seeds = seeds ∧ g.spices = spices ∧ g.sessionNonce msg ≠ 0 ∧
          g.sessionNonce msg ≠ -(t • G)) _ (fun a => ?_) (by positivity)
    cases hc : Spec.taprootCtx (H2 a) keys root with
    | none => exact KeyCommit.chance_zero (fun b hb => by obtain ⟨_, h, -⟩ := hb; cases h) _ (by positivity)
    | some ctx' =>
      obtain ⟨ctx, h1, h2⟩ := taprootCtx_eq_some.1 hc
      refine (chance_mono fun b hb => ?_).trans (chance_fails (H2 a) ctx' (.taproot (.new h1) h2) sks
        (taproot_pubkeys h1 h2) seeds spices hs hm i hi t msg)
      obtain ⟨c, hc', hno⟩ := hb
      cases hc'
      exact hno
  refine (add_le_add h1 h2).trans ?_
  norm_num

end Completes

end Verif
