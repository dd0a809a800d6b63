import Verif.Spec.World
import Verif.Props.Crash

/-!
# Helper lemmas for `Props/World`
-/

namespace Verif.MixedGroup

open Spec (Program Event Message Action World)

variable {H : Hash} (g : MixedGroup H) (T : MaybePoint) (msg : Bytes)

theorem moves_append (w : World) (as bs : List (ℕ × Action)) : g.moves T msg w (as ++ bs) = g.moves T msg (g.moves T msg w as) bs :=
  List.foldl_append

variable {g} in
theorem honest_lt {i : ℕ} (hi : i ∈ g.honest) : i < g.ctx.pubkeys.length := (List.getElem?_eq_some_iff.1 (g.keys i hi)).1

variable {g} in
theorem mem_initial {m : Message} : m ∈ g.initial.sent ↔ ∃ j n, m = .nonce j n ∧ j ∉ g.honest ∧ g.told[j]? = some n := by
  simp only [initial, List.mem_map, List.mem_filter, decide_eq_true_eq]
  constructor
  · rintro ⟨⟨n, j⟩, ⟨h1, h2⟩, rfl⟩
    exact ⟨j, n, rfl, h2, List.mem_zipIdx_iff_getElem?.1 h1⟩
  · rintro ⟨j, n, rfl, h1, h2⟩
    exact ⟨(n, j), ⟨List.mem_zipIdx_iff_getElem?.2 h2, h1⟩, rfl⟩

/-- Arrivals are not answered. -/
theorem step_arrival (i : ℕ) (p : Program) (m : Message) : (g.step i T msg p (arrival m)).2 = [] := by
  cases m <;> cases p <;> rfl

theorem act_arrival (w : World) (i : ℕ) (m : Message) :
    g.act T msg w i (arrival m) = ⟨Function.update w.programs i (g.step i T msg (w.programs i) (arrival m)).1, w.sent⟩ := by
  have h : announced i (arrival m) (g.step i T msg (w.programs i) (arrival m)) = [] := by
    rw [show g.step i T msg (w.programs i) (arrival m) = ((g.step i T msg (w.programs i) (arrival m)).1, []) from
      Prod.ext rfl (g.step_arrival T msg i _ m)]
    cases m <;> rfl
  rw [act, h, List.append_nil]

theorem announced_sign (i : ℕ) (p : Program × List PartialSignature) : announced i .sign p = p.2.map (.signature i) := rfl

/-- Messages that were sent can be delivered one after the other. -/
theorem deliver_all {i : ℕ} (hi : i ∈ g.honest) (ms : List Message) (w : World) (h : ∀ m ∈ ms, m ∈ w.sent) :
    ∃ as, g.moves T msg w as = ⟨Function.update w.programs i (g.life i T msg (w.programs i) (ms.map arrival)).1, w.sent⟩ := by
  induction ms generalizing w with
  | nil =>
    refine ⟨[], ?_⟩
    change w = _
    rw [List.map_nil, life, Function.update_eq_self]
  | cons m ms ih =>
    obtain ⟨k, hk⟩ := List.getElem?_of_mem (h m List.mem_cons_self)
    obtain ⟨as, has⟩ := ih (g.act T msg w i (arrival m)) (fun m' hm => by
      rw [act_arrival]
      exact h m' (List.mem_cons_of_mem _ hm))
    refine ⟨(i, .deliver k) :: as, ?_⟩
    change g.moves T msg (g.move T msg w (i, .deliver k)) as = _
    have : g.move T msg w (i, .deliver k) = g.act T msg w i (arrival m) := by
      simp only [move, if_pos hi, hk]
    rw [this, has, act_arrival]
    simp only [Function.update_self, Function.update_idem, List.map_cons, life]

/-- What can be done at one member can be done at all. -/
theorem at_all (F : ℕ → Program → Program) (X : ℕ → Program → List Message) (Pre : List Message → Prop)
    (mono : ∀ s t, Pre s → Pre (s ++ t))
    (h : ∀ i < g.ctx.pubkeys.length, ∀ w : World, Pre w.sent →
      ∃ as, g.moves T msg w as = ⟨Function.update w.programs i (F i (w.programs i)), w.sent ++ X i (w.programs i)⟩)
    (w : World) (hw : Pre w.sent) : ∀ k ≤ g.ctx.pubkeys.length, ∃ as t,
      g.moves T msg w as = ⟨fun i => if i < k then F i (w.programs i) else w.programs i, w.sent ++ t⟩ ∧
        ∀ i < k, ∀ m ∈ X i (w.programs i), m ∈ w.sent ++ t
  | 0, _ => ⟨[], [], by
      change w = _
      simp, fun i hi => absurd hi (Nat.not_lt_zero i)⟩
  | k + 1, hk => by
    obtain ⟨as, t, h1, h2⟩ := at_all F X Pre mono h w hw k (Nat.le_of_succ_le hk)
    obtain ⟨bs, h3⟩ := h k hk (g.moves T msg w as) (by
      rw [h1]
      exact mono _ _ hw)
    have hkk : (g.moves T msg w as).programs k = w.programs k := by
      rw [h1]
      simp
    refine ⟨as ++ bs, t ++ X k (w.programs k), ?_, fun i hi m hm => ?_⟩
    · rw [moves_append, h3, hkk, h1]
      congr 1
      · funext i
        simp only [Function.update_apply]
        by_cases hik : i = k
        · subst hik
          simp
        · rw [if_neg hik]
          have : i < k + 1 ↔ i < k := by omega
          simp only [this]
      · exact List.append_assoc _ _ _
    · rw [← List.append_assoc]
      by_cases hik : i = k
      · subst hik
        exact List.mem_append_right _ hm
      · exact List.mem_append_left _ (h2 i (by omega) m hm)

/-- Nonces that arrive in the first round. -/
theorem life_first (i : ℕ) (r : FirstRound) (calls : List (ℕ × PubNonce)) :
    g.life i T msg (.first r) (calls.map fun c => .nonce c.1 c.2) = (.first (r.run calls).1, []) := by
  induction calls generalizing r with
  | nil => rfl
  | cons c cs ih =>
    rw [List.map_cons, life]
    simp only [step, List.nil_append]
    rw [ih]
    rfl

end Verif.MixedGroup

namespace Verif

/-- Three honest signers with the keys `1`, `2` and `3` under `stubHash`. -/
theorem honest_group (msg : Bytes) : ∃ g : MixedGroup stubHash, g.ctx = blameCtx ∧ g.honest = Finset.range 3 ∧ g.sessionNonce msg ≠ 0 := by
  have hex : ∀ i : ℕ, ∃ r, i < 3 → FirstRound.new stubHash blameCtx zeroSeed i SecNonceSpices.new = .ok r := by
    intro i
    by_cases hi : i < 3
    · obtain ⟨r, hr⟩ := new_ok (H := stubHash) (ctx := blameCtx) zeroSeed (i := i) hi SecNonceSpices.new (by decide)
      exact ⟨r, fun _ => hr⟩
    · exact ⟨⟨blameCtx, 0, ⟨scalarOne, scalarOne⟩, Slots.new 0⟩, fun h => absurd h hi⟩
  choose rounds hr using hex
  have hnonce : ∀ i, i < 3 → (rounds i).ourPublicNonce = ⟨Gpt, Gpt⟩ := by
    intro i hi
    unfold FirstRound.ourPublicNonce SecNonce.publicNonce
    rw [stub_secnonce (hr i hi), show mulG scalarOne = Gpt from Subtype.ext (one_smul _ _)]
  have hlt : ∀ i ∈ Finset.range 3, i = 0 ∨ i = 1 ∨ i = 2 := by
    intro i hi
    rw [Finset.mem_range] at hi
    omega
  refine ⟨⟨blameCtx, .new blameCtx_new, Finset.range 3, fun i => blameKeys[i]?.getD scalarOne, ?_, fun _ => zeroSeed,
    fun _ => SecNonceSpices.new, rounds, ?_, [⟨Gpt, Gpt⟩, ⟨Gpt, Gpt⟩, ⟨Gpt, Gpt⟩], rfl, ?_⟩, rfl, rfl, ?_⟩
  · intro i hi
    rcases hlt i hi with rfl | rfl | rfl <;> rfl
  · intro i hi
    exact hr i (Finset.mem_range.1 hi)
  · intro i hi
    rw [hnonce i (Finset.mem_range.1 hi)]
    rcases hlt i hi with rfl | rfl | rfl <;> rfl
  · unfold MixedGroup.sessionNonce
    have hb : ∀ an : AggNonce, an.nonceCoefficient stubHash blameCtx.aggregatedPubkey msg = 1 :=
      fun an => stubHash_tagHash _ (by decide) _
    simp only
    rw [hb, one_smul]
    have h6 : (AggNonce.sum [⟨Gpt, Gpt⟩, ⟨Gpt, Gpt⟩, ⟨Gpt, Gpt⟩]).R1 + (AggNonce.sum [⟨Gpt, Gpt⟩, ⟨Gpt, Gpt⟩, ⟨Gpt, Gpt⟩]).R2
        = (6 : MaybeScalar) • G := by
      simp only [AggNonce.sum, List.map_cons, List.map_nil, List.sum_cons, List.sum_nil, add_zero]
      change G + (G + G) + (G + (G + G)) = _
      rw [show (6 : MaybeScalar) = 1 + (1 + 1) + (1 + (1 + 1)) by norm_num]
      simp only [add_smul, one_smul]
    rw [h6]
    exact fun h => (natCast_scalar_ne_zero (k := 6) (by norm_num) (by norm_num)) (by
      have := smul_G_eq_zero.1 h
      exact_mod_cast this)

end Verif
