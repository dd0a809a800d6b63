import Verif.Spec.Claims
import Verif.Lemmas.Session
import Verif.Lemmas.Props.Bip340

/-!
# Lemmas and example data for `Props/Signing`
-/

namespace Verif

/-- The example context, without and with tweaks. -/
theorem exCtx_builtFrom : BuiltFrom sha256 exCtx exKeys [] := ⟨exCtx, exCtx_new, rfl⟩

theorem AllVerified.zip {H : Hash} {ctx : KeyAggContext} (hi : CtxInv H ctx) {T : MaybePoint}
    {pubnonces : List PubNonce} {sigs : List PartialSignature} {msg : Bytes}
    (h : AllVerified H ctx T pubnonces sigs msg) :
    ((ctx.orderedPubkeys.zip pubnonces).map (·.1) = ctx.orderedPubkeys) ∧
    ((ctx.orderedPubkeys.zip pubnonces).map (·.2) = pubnonces) ∧
    sigs.map (· • G) = (ctx.orderedPubkeys.zip pubnonces).map fun x =>
      partialRhs H ctx (AggNonce.sum pubnonces) T x.1 x.2 msg := by
  obtain ⟨h1, h2, h3⟩ := h
  unfold KeyAggContext.pubkeys at *
  refine ⟨List.map_fst_zip (by omega), List.map_snd_zip (by omega), ?_⟩
  apply List.ext_getElem
  · simp [List.length_zip, h1, h2]
  · intro i hi1 hi2
    simp only [List.getElem_map, List.getElem_zip]
    have hk : i < ctx.orderedPubkeys.length := by simp at hi1; omega
    have hp : i < pubnonces.length := by omega
    have hs : i < sigs.length := by omega
    have := h3 i _ _ _ (List.getElem?_eq_getElem hk) (List.getElem?_eq_getElem hp) (List.getElem?_eq_getElem hs)
    exact ((verifyPartialAdaptor_eq_ok hi).1 this).2

theorem allVerified_exists {H : Hash} {ctx : KeyAggContext} (hi : CtxInv H ctx) (T : MaybePoint)
    (pubnonces : List PubNonce) (hl : pubnonces.length = ctx.pubkeys.length) (msg : Bytes) :
    ∃ sigs, AllVerified H ctx T pubnonces sigs msg := by
  choose f hf using fun x : Point × PubNonce => exists_dlog (partialRhs H ctx (AggNonce.sum pubnonces) T x.1 x.2 msg)
  refine ⟨(ctx.pubkeys.zip pubnonces).map f, hl, by simp [List.length_zip, hl], fun i P pn s h1 h2 h3 => ?_⟩
  rw [verifyPartialAdaptor_eq_ok hi]
  refine ⟨List.mem_of_getElem? h1, ?_⟩
  rw [List.getElem?_map, (List.getElem?_zip_eq_some (z := (P, pn))).2 ⟨h1, h2⟩] at h3
  simp only [Option.map_some, Option.some.injEq] at h3
  rw [← h3]
  exact hf (P, pn)

end Verif
