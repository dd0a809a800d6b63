import Verif.Lemmas.Rounds
import Verif.Spec.Calls

/-!
# Helpers for `Props.Calls`
-/

namespace Verif

theorem signatures_nothing (H : Hash) (cs : List SessionCall) : Owned.nothing.signatures H cs = [] := by
  induction cs with
  | nil => rfl
  | cons c cs ih =>
    cases c <;> simpa [Owned.signatures, Owned.call] using ih

theorem Res.mem_toList {ε α : Type} {x : Res ε α} {a : α} : a ∈ x.toList ↔ x = .ok a := by
  cases x <;> simp [Res.toList, eq_comm]

theorem receiveSignature_stored {H : Hash} {r : SecondRound} (h : r.Inv H) (i : ℕ) (s : PartialSignature) :
    (r.receiveSignature H i s).1.stored r.signerIndex = r.stored r.signerIndex ∧
    (r.receiveSignature H i s).1.signerIndex = r.signerIndex := by
  unfold SecondRound.receiveSignature
  cases r.checkSignature H i s with
  | err e => exact ⟨rfl, rfl⟩
  | panic => exact ⟨rfl, rfl⟩
  | ok u =>
    refine ⟨?_, rfl⟩
    have := Slots.place_get h.slots s i r.signerIndex (by rw [h.len]; exact h.own)
    obtain ⟨w, hw⟩ := h.mine
    unfold SecondRound.stored at hw ⊢
    simp only
    rw [this, hw]
    rfl

/-- The second round returns its own signature only. -/
theorem signatures_second {H : Hash} (cs : List SessionCall) : ∀ {r : SecondRound}, r.Reachable H →
    ∀ sig, r.stored r.signerIndex = some sig → ∀ s ∈ (Owned.second r).signatures H cs, s = sig := by
  induction cs with
  | nil => intro r _ sig _ s hs; cases hs
  | cons c cs ih =>
    intro r hr sig hsig s hs
    have hin := hr.inv
    cases c with
    | ourSignature =>
      simp only [Owned.signatures, Owned.call, List.mem_append] at hs
      rcases hs with hs | hs
      · rw [Res.mem_toList] at hs
        obtain ⟨s', h1, h2⟩ := SecondRound.ourSignature_eq hin Unit
        rw [h2] at hs
        cases hs
        rw [hsig] at h1
        exact (Option.some.inj h1).symm
      · exact ih hr sig hsig s hs
    | receiveSignature i x =>
      simp only [Owned.signatures, Owned.call, List.nil_append] at hs
      obtain ⟨h1, h2⟩ := receiveSignature_stored hin i x
      exact ih (SecondRound.Reachable.receive hr i x) sig (by rw [h2, h1, hsig]) s hs
    | finalizeSecond =>
      simp only [Owned.signatures, Owned.call, List.nil_append, signatures_nothing] at hs
      cases hs
    | finalizeSecondAdaptor =>
      simp only [Owned.signatures, Owned.call, List.nil_append, signatures_nothing] at hs
      cases hs
    | _ =>
      simp only [Owned.signatures, Owned.call, List.nil_append] at hs
      exact ih hr sig hsig s hs

/-- The signature stored when the first round is finalized. -/
theorem stored_finalize {H : Hash} {r : FirstRound} (h : r.Inv H) {sk : Scalar} {T : MaybePoint} {msg : Bytes}
    {r2 : SecondRound} (hf : r.finalizeAdaptor H sk T msg = .ok r2) :
    ∃ an sig, signPartialAdaptor H r.keyAggCtx sk r.secnonce an T msg = .ok sig ∧
      r2.stored r2.signerIndex = some sig := by
  rcases Slots.collect_cases r.pubnonceSlots.slots with ⟨ns, hns⟩ | hinc
  · have hns' : r.pubnonceSlots.finalize = .ok ns := hns
    rw [h.finalizeAdaptor_eq sk T msg hns'] at hf
    split_ifs at hf with hm
    cases hf
    have hl := ((h.slots_finalize ns).1 hns').1
    have hown : r.signerIndex < ns.length := by rw [hl]; exact h.own
    refine ⟨AggNonce.sum ns, partialSigValue H r.keyAggCtx sk r.secnonce (AggNonce.sum ns) T msg, ?_, ?_⟩
    · rw [signPartialAdaptor_eq h.ctx.inv, if_pos hm]
    · unfold SecondRound.stored
      simp only
      rw [Slots.place_new hown]
      simp only
      rw [List.getElem?_set_self (by simpa using hown)]
      rfl
  · rw [FirstRound.finalizeAdaptor_incomplete sk T msg hinc] at hf
    cases hf

/-- Where the signatures of a session come from. -/
def OneSigning (H : Hash) (ctx : KeyAggContext) (secnonce : SecNonce) (l : List PartialSignature) : Prop :=
  l = [] ∨ ∃ sk T msg an sig, signPartialAdaptor H ctx sk secnonce an T msg = .ok sig ∧ ∀ s ∈ l, s = sig

theorem oneSigning_finalize {H : Hash} {r : FirstRound} (hr : r.Reachable H) (sk : Scalar) (T : MaybePoint) (msg : Bytes)
    (cs : List SessionCall) :
    OneSigning H r.keyAggCtx r.secnonce ((ownSecond (r.finalizeAdaptor H sk T msg)).signatures H cs) := by
  cases hf : r.finalizeAdaptor H sk T msg with
  | ok r2 =>
    obtain ⟨an, sig, h1, h2⟩ := stored_finalize hr.inv hf
    exact Or.inr ⟨sk, T, msg, an, sig, h1, signatures_second cs (SecondRound.Reachable.finalize hr hf) sig h2⟩
  | err e => exact Or.inl (signatures_nothing H cs)
  | panic => exact Or.inl (signatures_nothing H cs)

theorem oneSigning_sign {H : Hash} {ctx : KeyAggContext} {secnonce : SecNonce} {sk : Scalar} {T : MaybePoint}
    {msg : Bytes} {an : AggNonce} (cs : List SessionCall) :
    OneSigning H ctx secnonce ((signPartialAdaptor H ctx sk secnonce an T msg).toList
      ++ Owned.nothing.signatures H cs) := by
  rw [signatures_nothing, List.append_nil]
  cases h : signPartialAdaptor H ctx sk secnonce an T msg with
  | ok s => exact Or.inr ⟨sk, T, msg, an, s, h, by simp [Res.toList]⟩
  | err e => exact Or.inl rfl
  | panic => exact Or.inl rfl

theorem oneSigning_first {H : Hash} (cs : List SessionCall) : ∀ {r : FirstRound}, r.Reachable H →
    OneSigning H r.keyAggCtx r.secnonce ((Owned.first r).signatures H cs) := by
  induction cs with
  | nil => intro r _; exact Or.inl rfl
  | cons c cs ih =>
    intro r hr
    cases c with
    | receiveNonce i n => exact ih (FirstRound.Reachable.receive hr i n)
    | finalize sk msg => exact oneSigning_finalize hr sk 0 msg cs
    | finalizeAdaptor sk T msg => exact oneSigning_finalize hr sk T msg cs
    | signForAggregator sk msg an => exact oneSigning_sign (T := 0) cs
    | signForAggregatorAdaptor sk T msg an => exact oneSigning_sign cs
    | _ => exact ih hr

theorem signatures_receive {H : Hash} (cs : List SessionCall) : ∀ (nonces : List (ℕ × PubNonce)) (r : FirstRound),
    (Owned.first r).signatures H ((nonces.map fun c => SessionCall.receiveNonce c.1 c.2) ++ cs)
      = (Owned.first (r.run nonces).1).signatures H cs := by
  intro nonces
  induction nonces with
  | nil => intro r; rfl
  | cons c nonces ih => intro r; exact ih _

end Verif
