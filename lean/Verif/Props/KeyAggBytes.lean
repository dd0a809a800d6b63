import Verif.Lemmas.Props.KeyAggBytes
import Verif.Lemmas.Reachable

/-!
# Properties C10-C12, C67: serialized contexts and the key-list hash
-/

namespace Verif

/-! ## C10 -/

/-- **C10**. Decoding the encoding of a reachable context gives back that context, all fields included. -/
theorem C10_context_roundtrip (H : Hash) (ctx : KeyAggContext) (hc : Reachable H ctx) :
    KeyAggContext.fromBytes H ctx.toBytes = .ok ctx :=
  hc.inv.fromBytes_toBytes

/-- The encoding of the example context, and a tweaked context. -/
example : Reachable sha256 exCtx ∧ ∃ (t : Scalar) (ctx : KeyAggContext), exCtx.withXonlyTweak t = .ok ctx ∧
    Reachable sha256 ctx ∧ ctx.tweakAcc ≠ 0 := by
  refine ⟨exCtx_reachable, ?_⟩
  have h : ∃ t : Scalar, negIf (isOdd exCtx.pubkey.1) exCtx.pubkey.1 + t.1 • G ≠ 0 := by
    by_cases h1 : negIf (isOdd exCtx.pubkey.1) exCtx.pubkey.1 + (1 : MaybeScalar) • G = 0
    · refine ⟨⟨2, two_ne_zero_scalar⟩, fun h2 => ?_⟩
      have : (2 : MaybeScalar) • G = (1 : MaybeScalar) • G := add_left_cancel (h2.trans h1.symm)
      rw [smul_G_inj] at this
      exact one_ne_zero (α := MaybeScalar) (by linear_combination this)
    · exact ⟨scalarOne, h1⟩
  obtain ⟨t, ht⟩ := h
  have hx := withXonlyTweak_eq_ok (ctx := exCtx) (t := t).2 ⟨⟨_, ht⟩, rfl, rfl⟩
  refine ⟨t, _, hx, Reachable.xonly exCtx_reachable hx, ?_⟩
  change negIf _ (0 : MaybeScalar) + t.1 ≠ 0
  rw [negIf_zero, zero_add]
  exact t.2

/-! ## C11 -/

/-- **C11**. Decoding never panics, and what it accepts has at least one member, caches computed from the members,
and an aggregate key `±KeyAgg(members) + tweak·G`. -/
theorem C11_decode_total (H : Hash) (hH : TagsAgree H) (b : Bytes) :
    KeyAggContext.fromBytes H b ≠ .panic ∧
    ∀ ctx, KeyAggContext.fromBytes H b = .ok ctx →
      ctx.pubkeys ≠ [] ∧ ctx.pubkeys.length ≤ 4294967295 ∧
      ∃ c ctx0, Spec.key_agg H (ctx.pubkeys.map fun P => Spec.cbytes P.1) = some c ∧
        KeyAggContext.new H ctx.pubkeys = .ok ctx0 ∧
        ctx.aggregatedPubkey.1 = (if ctx.parityAcc then -c.Q else c.Q) + ctx.tweakAcc • G ∧
        ctx.pubkeyIndexes = ctx0.pubkeyIndexes ∧ ctx.keyCoefficients = ctx0.keyCoefficients ∧
        ctx.effectivePubkeys = ctx0.effectivePubkeys := by
  refine ⟨fromBytes_ne_panic H b, fun ctx h => ?_⟩
  have hi := CtxInv.of_fromBytes h
  have hspec := spec_key_agg hH ctx.orderedPubkeys
  unfold keyBytes at hspec
  rw [if_neg hi.sum_ne] at hspec
  refine ⟨hi.nonempty, hi.length_le, _, _, hspec,
    new_eq_ok.2 ⟨hi.nonempty, hi.length_le, ⟨_, hi.sum_ne⟩, rfl, rfl⟩, ?_, ?_⟩
  · exact hi.pub
  · exact ⟨hi.indexes, hi.coeffs, hi.eff⟩

/-- Some strings are accepted, some are not. -/
example : (∃ ctx, KeyAggContext.fromBytes sha256 exCtx.toBytes = .ok ctx) ∧
    KeyAggContext.fromBytes sha256 [] = .err (.badLength 0) :=
  ⟨⟨_, exCtx_reachable.inv.fromBytes_toBytes⟩, rfl⟩

/-! ## C12 -/

/-- **C12**, what holds: an accepted string is the canonical encoding up to the six high bits of the header byte.
Missing: those bits are ignored by the decoder, so the full statement is false
(`C12_context_encoding_not_canonical`). -/
theorem C12_context_canonical_partial (H : Hash) (b : Bytes) (ctx : KeyAggContext)
    (h : KeyAggContext.fromBytes H b = .ok ctx) :
    ∃ hd rest, b = hd :: rest ∧ ctx.toBytes = (hd &&& 3) :: rest ∧ (hd < 4 → ctx.toBytes = b) := by
  have hsmall : ∀ hd : UInt8, hd < 4 → hd &&& 3 = hd := by
    intro hd hlt
    have : ∀ n : Fin 256, UInt8.ofFin n < 4 → UInt8.ofFin n &&& 3 = UInt8.ofFin n := by decide +kernel
    exact this hd.toFin hlt
  obtain ⟨hd, keys, t, rfl, ht, -, -, -, Q, -, rfl⟩ := fromBytes_eq_ok.1 h
  cases t with
  | none =>
    have e := toBytes_decoded H keys hd 0 Q (by rw [ht]; simp)
    refine ⟨hd, beBytes 4 keys.length ++ keysFlat keys, by simp, ?_, fun hlt => ?_⟩
    · simpa using e
    · rw [hsmall hd hlt] at e
      simpa using e
  | some t =>
    have e := toBytes_decoded H keys hd t.1 Q (by rw [ht]; simp [t.2])
    rw [if_pos t.2] at e
    refine ⟨hd, (serScalar t.1).1 ++ (beBytes 4 keys.length ++ keysFlat keys), by simp, ?_, fun hlt => ?_⟩
    · simpa using e
    · rw [hsmall hd hlt] at e
      simpa using e

/-- **C12 is false.** Every reachable context has another accepted encoding, with bit 2 of the header byte set. -/
theorem C12_context_encoding_not_canonical (H : Hash) (ctx : KeyAggContext) (hc : Reachable H ctx) :
    ∃ b, KeyAggContext.fromBytes H b = .ok ctx ∧ b ≠ ctx.toBytes := by
  have h := hc.inv.fromBytes_toBytes
  obtain ⟨hd', rest, hb', hc', -⟩ := C12_context_canonical_partial H _ ctx h
  have hsmall : hd' = hd' &&& 3 := by rw [hb'] at hc'; exact (List.cons.inj hc').1
  have hno : (hd' ||| 4) :: rest ≠ ctx.toBytes := by
    rw [hb']
    intro he
    have e := (List.cons.inj he).1
    have hno : ∀ n : Fin 256, UInt8.ofFin n = UInt8.ofFin n &&& 3 → UInt8.ofFin n ||| 4 ≠ UInt8.ofFin n := by
      decide +kernel
    exact hno hd'.toFin hsmall e
  refine ⟨(hd' ||| 4) :: rest, ?_, hno⟩
  obtain ⟨hd, keys, t, hb, ht, h1, h2, h3, Q, hQ, he⟩ := fromBytes_eq_ok.1 h
  rw [hb'] at hb
  simp only [List.append_assoc, List.singleton_append] at hb
  obtain ⟨rfl, rfl⟩ := List.cons.inj hb
  rw [fromBytes_eq_ok]
  exact ⟨_, keys, t, by simp only [List.append_assoc, List.singleton_append]; rfl, by rw [(header_or_four hd').2]; exact ht, h1, h2, h3, Q,
      by rw [(header_or_four hd').1]; exact hQ, by rw [(header_or_four hd').1]; exact he⟩

example : ∃ b, KeyAggContext.fromBytes sha256 b = .ok exCtx ∧ b ≠ exCtx.toBytes :=
  C12_context_encoding_not_canonical sha256 exCtx exCtx_reachable

/-! ## C67 -/

/-- **C67**. The key-list hash is the hash of the serialized keys, and different key lists are serialized differently:
equal list hashes of different lists are a collision. -/
theorem C67_key_list_committed (H : Hash) (hH : TagsAgree H) (l1 l2 : List Point) (hne : l1 ≠ l2) :
    let flat := fun l : List Point => (l.map fun P => Spec.cbytes P.1).flatten
    flat l1 ≠ flat l2 ∧
    (hashPubkeys H l1).1 = Spec.tagged_hash H "KeyAgg list" (flat l1) ∧
    (hashPubkeys H l2).1 = Spec.tagged_hash H "KeyAgg list" (flat l2) := by
  have hflat : ∀ l : List Point, (l.map fun P => Spec.cbytes P.1).flatten = keysFlat l := by
    intro l
    unfold keysFlat
    congr 1
    exact List.map_congr_left fun P _ => spec_cbytes_point P
  intro flat
  simp only [flat, hflat, tagged_keyAggList hH]
  exact ⟨fun h => hne (keysFlat_injective h), rfl, rfl⟩

example : ([Gpt] : List Point) ≠ [Gpt, Gpt] := by simp

end Verif
