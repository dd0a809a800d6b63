import Verif.Lemmas.Props.Wire

/-!
# C149: sessions over a network of bytes
-/

namespace Verif

open Wire

/-- **C149**. In a group with any misbehaving members, whose nonces all honest members are told alike, each honest member `j` has one string
`wire j` of 32 bytes, and there is one string `sig` of 65 bytes, such that for every honest member `i` and whatever messages arrive:

* the first round is finalized, with a partial signature whose encoding is `wire i`;
* a message for the honest member `j` other than `wire j` is not decoded, or is rejected as invalid and changes nothing; `wire j` is accepted;
* the honest members that are not holdouts are `i` and those whose strings were among the messages;
* without holdouts the second round is finalized to the adaptor signature with the encoding `sig`, if the session nonce is finite. -/
theorem C149_sessions_over_bytes (H : Hash) (g : MixedGroup H) (T : MaybePoint) (msg : Bytes) :
    ∃ (wire : ℕ → Bytes) (sig : Bytes), (∀ j ∈ g.honest, (wire j).length = 32) ∧ sig.length = 65 ∧
      (∃ a, AdaptorSignature.fromBytes sig = .ok a ∧ verifySingleAdaptor H g.ctx.aggregatedPubkey a msg T = .ok ()) ∧
      ∀ i ∈ g.honest, ∀ nonceMsgs, g.NonceMessages i nonceMsgs →
        ∃ r2, ((g.rounds i).run (Spec.nonceCalls nonceMsgs)).1.finalizeAdaptor H (g.sk i) T msg = .ok r2 ∧
          (∃ s, (∀ ε, (r2.ourSignature : Res ε _) = .ok s) ∧ (serScalar s).1 = wire i) ∧
          ∀ sigMsgs,
            let st := (r2.run H (Spec.signatureCalls sigMsgs)).1
            (∀ j ∈ g.honest, ∃ s, parseMaybeScalar (wire j) = some s ∧ (st.receiveSignature H j s).2 = .ok ()) ∧
            (∀ j ∈ g.honest, ∀ x, x ≠ wire j → parseMaybeScalar x = none ∨
              ∃ s, parseMaybeScalar x = some s ∧ st.receiveSignature H j s = (st, .err ⟨j, .invalidSignature⟩)) ∧
            (∀ j ∈ g.honest, j ∈ st.holdouts ↔ j ≠ i ∧ (j, wire j) ∉ sigMsgs) ∧
            (g.sessionNonce msg ≠ 0 → st.holdouts = [] → ∃ a, st.finalizeAdaptor H = .ok a ∧ a.toBytes = sig) := by
  obtain ⟨psigs, a, ha, hval, hall⟩ := C142_only_misbehaving_named H g T msg
  refine ⟨fun j => (serScalar (psigs j)).1, a.toBytes, fun j _ => (serScalar (psigs j)).2, a.toBytes_length,
    ⟨a, AdaptorSignature.fromBytes_eq_ok.2 rfl, ha⟩, fun i hi ms hms => ?_⟩
  obtain ⟨r2, h1, h2, h3⟩ := hall i hi _ (nonceSchedule g hms)
  refine ⟨r2, h1, ⟨_, h2, rfl⟩, fun sms => ?_⟩
  intro st
  obtain ⟨k1, k2, k3, k4⟩ := h3 (Spec.signatureCalls sms)
  have hlt : ∀ j ∈ g.honest, j < g.ctx.pubkeys.length := fun j hj => (List.getElem?_eq_some_iff.1 (g.keys j hj)).1
  refine ⟨fun j hj => ?_, fun j hj x hx => ?_, fun j hj => ?_, fun hR h0 => ⟨a, k4 hR h0, rfl⟩⟩
  · exact ⟨psigs j, parseMaybeScalar_eq_some.2 rfl, ((k1 j _ (hlt j hj)).1).2 ((hval j hj _).2 rfl)⟩
  · rcases hs : parseMaybeScalar x with _ | s
    · exact .inl rfl
    · refine .inr ⟨s, rfl, (k1 j s (hlt j hj)).2 fun hv => hx ?_⟩
      rw [parseMaybeScalar_eq_some.1 hs, (hval j hj s).1 hv]
  · rw [k2 j]
    constructor
    · rintro ⟨-, e1, e2⟩
      exact ⟨e1, fun hm => e2 _ (mem_signatureCalls.2 hm) ((hval j hj _).2 rfl)⟩
    · rintro ⟨e1, e2⟩
      refine ⟨hlt j hj, e1, fun s hs hv => e2 ?_⟩
      rw [(hval j hj s).1 hv] at hs
      exact mem_signatureCalls.1 hs

/-- Two honest members and a third one. What the first receives for the second is at first no nonce and then the right one, and then another. -/
example (msg : Bytes) : ∃ (g : MixedGroup stubHash) (ms : List (ℕ × Bytes)), g.honest = {0, 1} ∧ g.ctx.pubkeys.length = 3 ∧
    g.sessionNonce msg ≠ 0 ∧ g.NonceMessages 0 ms ∧ ms.length = 4 := by
  obtain ⟨g, hc, hh, ht, hR⟩ := mixed_group msg
  refine ⟨g, [(1, [0]), (1, (⟨Gpt, Gpt⟩ : PubNonce).toBytes), (2, blameNonce0.toBytes), (1, blameNonce0.toBytes)], hh, by rw [hc]; rfl, hR, ?_, rfl⟩
  have hbad : ∀ n', PubNonce.fromBytes [0] ≠ .ok n' := fun n' h => by
    rw [((C23_nonce_bad_length [0]).1 (by decide)).1] at h
    cases h
  intro j n hn hj
  rw [ht] at hn
  match j, hj with
  | 1, _ =>
    cases hn
    refine ⟨[(1, [0])], _, rfl, fun x hx => ?_⟩
    obtain rfl : x = [0] := by simpa using hx
    exact hbad
  | 2, _ =>
    cases hn
    exact ⟨[(1, [0]), (1, (⟨Gpt, Gpt⟩ : PubNonce).toBytes)], _, rfl, fun x hx => by simp at hx⟩
  | j + 3, _ => simp at hn

end Verif
