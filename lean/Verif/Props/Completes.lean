import Verif.Lemmas.Props.Completes
import Verif.Lemmas.Props.Rounds

/-!
# Properties C139 and C140: honest sessions end well
-/

namespace Verif

/-- **C139**. The exception in C60 and C61 does not occur by chance. Take any hash function, any group that can be built with
it, the members' secret keys, and any seeds and spices. Draw two answers of the hash function anew: the one for the second
nonce of some member, and the one for the nonce coefficient of the session. Except with chance `2^-253` every member then ends
with the same valid adaptor signature, in every order of the messages, and the adaptor secret turns it into a valid signature
that reveals it. -/
theorem C139_adaptor_sessions_end_well (H : Hash) (ctx : KeyAggContext) (hc : Reachable H ctx) (sks : List Scalar)
    (hk : ctx.pubkeys = sks.map mulG) (seeds : ℕ → Arr 32) (spices : ℕ → SecNonceSpices)
    (hs : ∀ j < sks.length, (spices j).extraInputs.flatten.length + 4 ≤ 4294967295)
    (hm : ∀ j < sks.length, ∀ m ∈ (spices j).message, m.length < 2 ^ 64)
    (i : ℕ) (hi : i < sks.length) (t : MaybeScalar) (msg : Bytes) :
    (Spec.chance fun h : Arr 32 × Arr 32 => ¬ ∃ g : HonestGroup (Spec.sessionDrawn H ctx sks.length seeds spices i msg h),
      g.ctx = ctx ∧ g.sks = sks ∧ g.seeds = seeds ∧ g.spices = spices ∧ g.EndsWell t msg) ≤ 1 / 2 ^ 253 := by
  refine (CmaForger.chance_mono fun h hno => ?_).trans (Completes.chance_fails H ctx hc sks hk seeds spices hs hm i hi t msg)
  rintro ⟨g, e1, e2, e3, e4, h1, h2⟩
  exact hno ⟨g, e1, e2, e3, e4, Completes.endsWell h1 h2⟩

/-- **C139** for sessions without an adaptor point. -/
theorem C139_sessions_end_well (H : Hash) (ctx : KeyAggContext) (hc : Reachable H ctx) (sks : List Scalar)
    (hk : ctx.pubkeys = sks.map mulG) (seeds : ℕ → Arr 32) (spices : ℕ → SecNonceSpices)
    (hs : ∀ j < sks.length, (spices j).extraInputs.flatten.length + 4 ≤ 4294967295)
    (hm : ∀ j < sks.length, ∀ m ∈ (spices j).message, m.length < 2 ^ 64)
    (i : ℕ) (hi : i < sks.length) (msg : Bytes) :
    (Spec.chance fun h : Arr 32 × Arr 32 => ¬ ∃ g : HonestGroup (Spec.sessionDrawn H ctx sks.length seeds spices i msg h),
      g.ctx = ctx ∧ g.sks = sks ∧ g.seeds = seeds ∧ g.spices = spices ∧ g.EndsWellPlain msg) ≤ 1 / 2 ^ 253 := by
  refine (CmaForger.chance_mono fun h hno => ?_).trans (Completes.chance_fails H ctx hc sks hk seeds spices hs hm i hi 0 msg)
  rintro ⟨g, e1, e2, e3, e4, h1, -⟩
  exact hno ⟨g, e1, e2, e3, e4, C60_honest_session _ g msg h1⟩

/-- The hypotheses of C139 can be met: a group of two with keys `1` and `-1` under SHA-256, with spices, and either member. -/
example : ∃ (ctx : KeyAggContext) (sks : List Scalar) (spices : ℕ → SecNonceSpices), Reachable sha256 ctx ∧
    ctx.pubkeys = sks.map mulG ∧ sks.length = 2 ∧ (∀ j, (spices j).message = some [1, 2, 3]) ∧
    (∀ j < sks.length, (spices j).extraInputs.flatten.length + 4 ≤ 4294967295) ∧
    ∀ j < sks.length, ∀ m ∈ (spices j).message, m.length < 2 ^ 64 := by
  refine ⟨exCtx, [scalarOne, skMinusOne], fun _ => ⟨none, some [1, 2, 3], [[4]]⟩, exCtx_reachable, ?_, rfl, fun _ => rfl,
    fun _ _ => by simp, fun _ _ m hm => ?_⟩
  · have h1 : mulG scalarOne = Gpt := Subtype.ext (one_smul _ _)
    rw [List.map_cons, List.map_cons, List.map_nil, h1, mulG_minusOne]
    rfl
  · cases hm
    decide

/-! ## C140 -/

/-- **C140**. The whole protocol works for taproot outputs. Take any hash function, any secret keys, merkle root, seeds and
spices. Draw four answers of the hash function anew: for the coefficient of the first key, for the taproot tweak, for the second
nonce of some member, and for the nonce coefficient of the session. Except with chance `2^-126` the keys are aggregated and
tweaked without an error, and every member of the session ends with the same valid signature, in every order of the messages. -/
theorem C140_taproot_groups_sign (H : Hash) (sks : List Scalar) (hne : sks ≠ []) (hl : sks.length ≤ 4294967295) (root : Arr 32)
    (seeds : ℕ → Arr 32) (spices : ℕ → SecNonceSpices)
    (hs : ∀ j < sks.length, (spices j).extraInputs.flatten.length + 4 ≤ 4294967295)
    (hm : ∀ j < sks.length, ∀ m ∈ (spices j).message, m.length < 2 ^ 64)
    (i : ℕ) (hi : i < sks.length) (msg : Bytes) :
    (Spec.chance fun h : (Arr 32 × Arr 32) × Arr 32 × Arr 32 => ¬ ∃ ctx ctx',
      KeyAggContext.new (Spec.allDrawn H (sks.map mulG) root seeds spices i msg h) (sks.map mulG) = .ok ctx ∧
      ctx.withTaprootTweak (Spec.allDrawn H (sks.map mulG) root seeds spices i msg h) root = .ok ctx' ∧
      ∃ g : HonestGroup (Spec.allDrawn H (sks.map mulG) root seeds spices i msg h),
        g.ctx = ctx' ∧ g.sks = sks ∧ g.seeds = seeds ∧ g.spices = spices ∧ g.EndsWellPlain msg) ≤ 1 / 2 ^ 126 := by
  refine (CmaForger.chance_mono fun h hno => ?_).trans (Completes.chance_all_fails H sks hne hl root seeds spices hs hm i hi 0 msg)
  rintro ⟨ctx, ctx', h1, h2, g, e1, e2, e3, e4, h3, -⟩
  exact hno ⟨ctx, ctx', h1, h2, g, e1, e2, e3, e4, C60_honest_session _ g msg h3⟩

/-- **C140** for adaptor signatures. -/
theorem C140_taproot_groups_sign_adaptors (H : Hash) (sks : List Scalar) (hne : sks ≠ []) (hl : sks.length ≤ 4294967295)
    (root : Arr 32) (seeds : ℕ → Arr 32) (spices : ℕ → SecNonceSpices)
    (hs : ∀ j < sks.length, (spices j).extraInputs.flatten.length + 4 ≤ 4294967295)
    (hm : ∀ j < sks.length, ∀ m ∈ (spices j).message, m.length < 2 ^ 64)
    (i : ℕ) (hi : i < sks.length) (t : MaybeScalar) (msg : Bytes) :
    (Spec.chance fun h : (Arr 32 × Arr 32) × Arr 32 × Arr 32 => ¬ ∃ ctx ctx',
      KeyAggContext.new (Spec.allDrawn H (sks.map mulG) root seeds spices i msg h) (sks.map mulG) = .ok ctx ∧
      ctx.withTaprootTweak (Spec.allDrawn H (sks.map mulG) root seeds spices i msg h) root = .ok ctx' ∧
      ∃ g : HonestGroup (Spec.allDrawn H (sks.map mulG) root seeds spices i msg h),
        g.ctx = ctx' ∧ g.sks = sks ∧ g.seeds = seeds ∧ g.spices = spices ∧ g.EndsWell t msg) ≤ 1 / 2 ^ 126 := by
  refine (CmaForger.chance_mono fun h hno => ?_).trans (Completes.chance_all_fails H sks hne hl root seeds spices hs hm i hi t msg)
  rintro ⟨ctx, ctx', h1, h2, g, e1, e2, e3, e4, h3, h4⟩
  exact hno ⟨ctx, ctx', h1, h2, g, e1, e2, e3, e4, Completes.endsWell h3 h4⟩

/-- The hypotheses of C140 can be met, for instance by three members of whom two have the same key. -/
example : ∃ (sks : List Scalar) (spices : ℕ → SecNonceSpices), sks.length = 3 ∧ ¬ sks.Nodup ∧ sks ≠ [] ∧ sks.length ≤ 4294967295 ∧
    (∀ j < sks.length, (spices j).extraInputs.flatten.length + 4 ≤ 4294967295) ∧
    ∀ j < sks.length, ∀ m ∈ (spices j).message, m.length < 2 ^ 64 :=
  ⟨[scalarOne, skMinusOne, scalarOne], fun _ => ⟨none, some [1, 2, 3], [[4]]⟩, rfl, by simp, by simp, by simp, fun _ _ => by simp,
    fun _ _ m hm => by
      cases hm
      decide⟩

end Verif
