import Verif.Lemmas.Props.AdaptiveGame

/-!
# Lemmas for `Props/Adaptive`: the solver
-/

namespace Verif.Adaptive

open Concurrent
open Forger (answers)

/-! ## The values of a group -/

/-- The list of a group with what was recorded, and its hash. -/
def Group.entry (g : Group) : Entry := (g.keys, g.note, g.hash (Spec.listQuery g.keys))

section
variable {P : Point} {g : Group} {log : Log Note}

theorem InLog.entry_mem (h : InLog g log) : g.entry ∈ entries log := mem_entries.2 h.list

theorem Fits.valid (h : Fits P g) : Valid P g.entry := by
  refine ⟨h.member, ?_⟩
  have := h.built.reachable.inv.length_le
  rw [h.built.keys] at this
  exact this

theorem InLog.resolved (h : InLog g log) : Resolved P log g.entry := by
  intro K hK
  obtain ⟨n, hn⟩ := h.coef K hK.1
  exact List.mem_map.2 ⟨_, hn, rfl⟩

theorem InLog.coefAt (hd : Distinct log) (hf : Fits P g) (h : InLog g log) {K : Point} (hK : K ∈ g.keys) :
    Adaptive.coefAt log g.entry K = Spec.keyCoeff g.hash g.keys K := by
  rw [keyCoeff_eq hf.tags]
  unfold Adaptive.coefAt
  split_ifs with h2
  · exact (GroupForger.coeffOf_second h2).symm
  · obtain ⟨n, hn⟩ := h.coef K hK
    have := (find_some hd).2 hn
    have h3 : secondKey g.keys ≠ some K := h2
    unfold Group.entry
    rw [this, GroupForger.coeffOf_of_ne h3]
    rfl

theorem InLog.valueAt (hd : Distinct log) (hf : Fits P g) (h : InLog g log) :
    Adaptive.valueAt P log g.entry = Spec.weighted g.hash g.keys (g.note.beta P) := by
  unfold Adaptive.valueAt Spec.weighted
  congr 1
  exact List.map_congr_left fun K hK => by rw [h.coefAt hd hf hK]; rfl

theorem Fits.pubkeys (h : Fits P g) : g.ctx.pubkeys = g.keys := h.built.keys

theorem sgn_rep (h : Fits P g) : Spec.sgn g.ctx.aggregatedPubkey.1 * (g.rep P).2
    = Spec.keySign g.ctx * Spec.weighted g.hash g.keys (g.note.beta P) := by
  rw [keySign_mul, sgn_mul]
  unfold Group.rep Group.known publicOf
  simp only [h.pubkeys]
  cases isOdd g.ctx.aggregatedPubkey.1 <;> cases g.ctx.parityAcc <;> simp [negIf]

theorem keySign_cases (ctx : KeyAggContext) : Spec.keySign ctx = 1 ∨ Spec.keySign ctx = -1 := by
  have := keySign_mul ctx 1
  rw [mul_one] at this
  rw [this]
  cases (isOdd ctx.aggregatedPubkey.1 ^^ ctx.parityAcc)
  · exact .inl rfl
  · exact .inr rfl

theorem Fits.coefficient (h : Fits P g) :
    (g.ctx.keyCoefficient P : Res Unit _) = .ok (some (Spec.keyCoeff g.hash g.ctx.pubkeys P)) := by
  have hm : P ∈ g.ctx.orderedPubkeys := by
    rw [h.built.keys]
    exact h.member
  rw [h.built.reachable.inv.keyCoefficient_eq, if_pos hm, keyCoeff_eq h.tags]
  rfl

theorem Fits.key (h : Fits P g) (hr : g.Right P) :
    g.ctx.aggregatedPubkey.1 = (g.rep P).1 • G + (g.rep P).2 • P.1 :=
  publicOf_key (ctx := fun _ => g.ctx) h.tags 0 h.built.reachable P (by rw [h.pubkeys]; exact hr)
    (fun _ => Spec.keyCoeff g.hash g.ctx.pubkeys P)

/-- What a partial signature is. -/
theorem Fits.signature {sk : Scalar} {g : Group} (h : Fits (mulG sk) g) (sn : ℕ → SecNonce) {k i : ℕ} (hi : i < k)
    (r : Spec.Reply) (hb he : Arr 32) :
    SessionForger.partialSignature g.hash g.ctx sk (sn i) r hb he
      = nonceSign r hb * ∑ j, Concurrent.signatureRow k (g.known (mulG sk)) i 0 r hb he j * secrets k sk sn j :=
  signer_signature (ctx := fun _ => g.ctx) 0 h.built.reachable h.coefficient hi r hb he

/-! ## The equations -/

theorem sgn_smul_congr {V E : MaybePoint} (hE : E ≠ 0) (h : xonly V = xonly E) : Spec.sgn V • V = Spec.sgn E • E := by
  rw [sgn_smul, sgn_smul]
  rcases xonly_eq_iff.1 h with rfl | rfl
  · rfl
  · rw [isOdd_neg hE]
    cases isOdd E <;> simp [negIf]

theorem key_equation {sk : Scalar} {g : Group} (sn : ℕ → SecNonce) (k : ℕ) (h : Fits (mulG sk) g) (hr : g.Right (mulG sk))
    {n : Note} (hn : xonly (n.keyPoint (mulG sk)) = xonly g.ctx.aggregatedPubkey.1) :
    ∑ j, (keyRow k (mulG sk) g n).1 j * secrets k sk sn j = (keyRow k (mulG sk) g n).2 := by
  rw [sum_unknown]
  simp only [keyRow, zero_mul, add_zero, Finset.sum_const_zero, secrets]
  have h1 := sgn_smul_congr g.ctx.aggregatedPubkey.2 hn
  have h2 : n.keyPoint (mulG sk) = (n.data.key.1 + n.data.key.2 * sk.1) • G := by
    unfold Note.keyPoint
    rw [add_smul, mul_smul]
    rfl
  have h3 : g.ctx.aggregatedPubkey.1 = ((g.rep (mulG sk)).1 + (g.rep (mulG sk)).2 * sk.1) • G := by
    rw [h.key hr, add_smul, mul_smul]
    rfl
  have h4 : ∀ c : MaybeScalar, c • n.keyPoint (mulG sk) = (c * (n.data.key.1 + n.data.key.2 * sk.1)) • G := fun c => by
    rw [h2, mul_smul]
  have h5 : ∀ c : MaybeScalar, c • g.ctx.aggregatedPubkey.1 = (c * ((g.rep (mulG sk)).1 + (g.rep (mulG sk)).2 * sk.1)) • G :=
    fun c => by rw [h3, mul_smul]
  rw [h4, h5, smul_G_inj] at h1
  linear_combination h1

theorem reduced_keyRow {k : ℕ} (rows : ℕ → Option (Equation k)) (g : Group) (n : Note) :
    reduced rows (keyRow k P g n).1 none = kappa P n - Spec.sgn g.ctx.aggregatedPubkey.1 * (g.rep P).2 := by
  simp only [reduced, keyRow, zero_mul]
  rw [Finset.sum_eq_zero, sub_zero]
  · rfl
  · intro i _
    cases rows i <;> rfl

theorem outcome_signatureRow {k : ℕ} {out : Outcome} {i : ℕ} {e : Equation k}
    (h : out.signatureRow k P i = some e) : ∃ T r, out.sessions[i]? = some ⟨T, some r⟩ ∧
      e = (Concurrent.signatureRow k (r.group.known P) i 0 ⟨r.aggnonce, T, r.message⟩ r.hb r.he,
        nonceSign ⟨r.aggnonce, T, r.message⟩ r.hb * r.sig) := by
  unfold Outcome.signatureRow at h
  split at h
  · rename_i T r hs
    exact ⟨T, r, hs, (Option.some.inj h).symm⟩
  · cases h

theorem row_shape {k : ℕ} (P : Point) (out : Outcome) : RowShape (out.signatureRow k P) := by
  intro i e h v
  obtain ⟨T, r, -, rfl⟩ := outcome_signatureRow h
  rw [signatureRow_sum _ i.2]
  simp only [Concurrent.signatureRow, if_true]

theorem signatureRow_isSome {k : ℕ} {out : Outcome} {i : ℕ} :
    (out.signatureRow k P i).isSome = true ↔ IsSigned (out.sessions.map plain) i := by
  unfold Outcome.signatureRow IsSigned
  rw [List.getElem?_map]
  rcases h : out.sessions[i]? with _ | ⟨T, _ | r⟩
  · simp
  · simp [plain]
  · simp [plain]

/-- Without bad answers, one of the equations is not a combination of the partial signatures. -/
theorem exists_reduced {k : ℕ} {pn : ℕ → PubNonce} {σ : ℕ → Group → Spec.Reply → Arr 32 → Arr 32 → MaybeScalar} {out : Outcome}
    (hi : GameInv P σ out.sessions log) (hg : Good (gameBad P pn k) log) (hk : out.sessions.length ≤ k)
    (hfit : Fits P out.group) (hin : InLog out.group log)
    (hm : (Spec.challengeQuery out.sig.rx.1 out.group.ctx.aggregatedPubkey out.msg, out.note, out.he) ∈ log)
    (hnew : ∀ s ∈ out.sessions, ∀ r, s.signed = some r → ¬ (r.message = out.msg ∧
        Spec.xbytes r.group.ctx.aggregatedPubkey.1 = Spec.xbytes out.group.ctx.aggregatedPubkey.1 ∧
        Spec.xbytes ((⟨r.aggnonce, s.point, r.message⟩ : Spec.Reply).nonce r.hb) = out.sig.rx.1)) :
    ∃ f ∈ out.candidates k P pn, ∃ j, reduced (out.signatureRow k P) f.1 j ≠ 0 := by
  by_contra hno
  push Not at hno
  have hd := hi.distinct
  set n := out.note with hn
  -- the key equations
  have hkey : kappa P n = Spec.keySign out.group.ctx * valueAt P log out.group.entry := by
    have h := hno (keyRow k P out.group n) (by unfold Outcome.candidates; simp [hn]) none
    rw [reduced_keyRow, sub_eq_zero] at h
    rw [h, sgn_rep hfit, hin.valueAt hd hfit]
  have hkeys : ∀ (i : ℕ) (T : MaybePoint) (r : Signed), out.sessions[i]? = some ⟨T, some r⟩ →
      kappa P r.note = Spec.keySign r.group.ctx * valueAt P log r.group.entry := by
    intro i T r hs
    obtain ⟨h1, h2, -⟩ := hi.signed i T r hs
    have h := hno (keyRow k P r.group r.note) (by
      unfold Outcome.candidates
      refine List.mem_append_left _ (List.mem_filterMap.2 ⟨_, List.mem_of_getElem? hs, ?_⟩)
      rfl) none
    rw [reduced_keyRow, sub_eq_zero] at h
    rw [h, sgn_rep h1, h2.valueAt hd h1]
  have hall := hno (out.forgery.forgedRow k (out.group.known P) pn, out.forgery.forgedValue (out.group.known P) pn)
    (by unfold Outcome.candidates; simp)
  have hpre : n.nonce.sessions.map (·.point) <+: out.sessions.map (·.point) := by
    have := hi.points _ hm
    unfold Note.nonce
    simp only [List.map_map]
    rw [show ((fun s : Concurrent.Session => s.point) ∘ fun T => (⟨T, none⟩ : Concurrent.Session)) = id from rfl, List.map_id]
    exact this
  have hlen : n.nonce.sessions.length ≤ out.sessions.length := by
    have := hpre.length_le
    rwa [List.length_map, List.length_map] at this
  have hW0 := sgn_ne_zero (n.nonce.value P pn)
  have hlt : ∀ i, (n.nonce.coef i).1 ≠ 0 → i < n.nonce.sessions.length := by
    intro i h
    by_contra hge
    apply h
    unfold Note.coef
    rw [if_neg hge]
  -- the nonces that are used have been signed with
  have hsig : ∀ i, (n.nonce.coef i).1 ≠ 0 → ∃ T r, out.sessions[i]? = some ⟨T, some r⟩ := by
    intro i h
    have hik : i < k := lt_of_lt_of_le (hlt i h) (hlen.trans hk)
    have hr := hall (some (⟨i, hik⟩, false))
    cases he : out.signatureRow k P i with
    | some e =>
      obtain ⟨T, r, h1, -⟩ := outcome_signatureRow he
      exact ⟨T, r, h1⟩
    | none =>
      unfold reduced at hr
      simp only [he, Concurrent.Outcome.forgedRow] at hr
      exact absurd hr (mul_ne_zero hW0 h)
  let dflt : Signed := ⟨out.group, ⟨0, 0⟩, [], n, zeroSeed, zeroSeed, 0⟩
  let T : ℕ → MaybePoint := fun i => match out.sessions[i]? with
    | some ⟨T, _⟩ => T
    | none => 0
  let d : ℕ → Signed := fun i => match out.sessions[i]? with
    | some ⟨_, some r⟩ => r
    | _ => dflt
  have hTd : ∀ i, (n.nonce.coef i).1 ≠ 0 → out.sessions[i]? = some ⟨T i, some (d i)⟩ := by
    intro i h
    obtain ⟨T', r, h1⟩ := hsig i h
    simp only [T, d, h1]
  have hrow : ∀ i, (n.nonce.coef i).1 ≠ 0 → out.signatureRow k P i
      = some (Concurrent.signatureRow k ((d i).group.known P) i 0 ⟨(d i).aggnonce, T i, (d i).message⟩ (d i).hb (d i).he,
          nonceSign ⟨(d i).aggnonce, T i, (d i).message⟩ (d i).hb * (d i).sig) := by
    intro i h
    unfold Outcome.signatureRow
    rw [hTd i h]
  have hκ : kappa P n ≠ 0 := by
    rw [hkey]
    refine mul_ne_zero ?_ (value_ne_zero hd hg hin.entry_mem hfit.valid hin.resolved)
    rcases keySign_cases out.group.ctx with h | h <;> rw [h]
    · exact one_ne_zero
    · exact neg_ne_zero.2 one_ne_zero
  refine core Note.nonce P pn _ _ k hd (good_nonce hg) hm (fun an Q msg h => ?_)
    hκ (fun i => (d i).aggnonce) (fun i => (d i).group.ctx.aggregatedPubkey)
    (fun i => (d i).message) (fun i => (d i).note) (fun i => (d i).hb) (fun i => (d i).he)
    (fun i => Spec.keyCoeff (d i).group.hash (d i).group.ctx.pubkeys P * Spec.keySign (d i).group.ctx) T
    (fun i h => lt_of_lt_of_le (hlt i h) (hlen.trans hk)) (fun i h => ?_) (fun i h t r hr hrt => ?_) ?_
  · exact Asking.not_drawn_noncecoefQuery an Q msg (h ▸ Asking.drawn_challengeQuery' _ _ _)
  · obtain ⟨-, -, h1, h2, -⟩ := hi.signed i _ _ (hTd i h)
    refine ⟨?_, h1, h2, ?_, ?_⟩
    · refine ⟨_, List.getElem?_eq_getElem (hlt i h), ?_⟩
      have hp : (n.nonce.sessions.map (·.point))[i]? = (out.sessions.map (·.point))[i]? := by
        have hi' : i < (n.nonce.sessions.map (·.point)).length := by
          rw [List.length_map]
          exact hlt i h
        rw [List.getElem?_eq_getElem hi', List.IsPrefix.getElem hpre hi', List.getElem?_eq_getElem]
      rw [List.getElem?_map, List.getElem?_map, hTd i h, List.getElem?_eq_getElem (hlt i h)] at hp
      exact Option.some.inj hp
    · rw [spec_xbytes]
      intro heq
      obtain ⟨h0, h1, h2⟩ := C66_inputs_determined.1 _ _ _ _ _ _ heq
      refine hnew _ (List.mem_of_getElem? (hTd i h)) _ rfl ⟨h2, ?_, ?_⟩
      · rw [spec_xbytes, spec_xbytes, xonly_eq_iff.2 h1]
      · rw [spec_xbytes]
        exact congrArg Subtype.val h0
    · have hik : i < k := lt_of_lt_of_le (hlt i h) (hlen.trans hk)
      have hr := hall (some (⟨i, hik⟩, true))
      unfold reduced at hr
      simp only [hrow i h, Concurrent.Outcome.forgedRow, Concurrent.signatureRow, if_true] at hr
      change Spec.sgn (n.nonce.value P pn) * (n.nonce.coef i).2
        - Spec.sgn (n.nonce.value P pn) * (n.nonce.coef i).1 * reduceFrom (d i).hb = 0 at hr
      refine mul_left_cancel₀ hW0 ?_
      linear_combination hr
  · obtain ⟨h1, h2, -⟩ := hi.signed i _ _ (hTd i h)
    rw [factor_eq hd hg h2.entry_mem h1.valid h2.resolved hr hrt (keySign_cases _) (hkeys i _ _ (hTd i h)),
      h2.coefAt hd h1 h1.member, h1.pubkeys, mul_comm]
  · have hr := hall none
    unfold reduced at hr
    simp only [Concurrent.Outcome.forgedRow] at hr
    have hs : (∑ i : Fin k, match out.signatureRow k P i with
        | some row => Spec.sgn (n.nonce.value P pn) * (n.nonce.coef i).1 * row.1 none
        | none => 0)
      = ∑ i ∈ Finset.range k, if (n.nonce.coef i).1 = 0 then 0 else Spec.sgn (n.nonce.value P pn) * (n.nonce.coef i).1
        * (Spec.sgn (nonceWith (d i).aggnonce (T i) (reduceFrom (d i).hb))
          * (Spec.keyCoeff (d i).group.hash (d i).group.ctx.pubkeys P * Spec.keySign (d i).group.ctx))
        * reduceFrom (d i).he := by
      rw [← Fin.sum_univ_eq_sum_range (fun i => if (n.nonce.coef i).1 = 0 then 0 else
        Spec.sgn (n.nonce.value P pn) * (n.nonce.coef i).1
        * (Spec.sgn (nonceWith (d i).aggnonce (T i) (reduceFrom (d i).hb))
          * (Spec.keyCoeff (d i).group.hash (d i).group.ctx.pubkeys P * Spec.keySign (d i).group.ctx))
        * reduceFrom (d i).he)]
      refine Finset.sum_congr rfl fun i _ => ?_
      by_cases h : (n.nonce.coef i).1 = 0
      · rw [if_pos h, h]
        cases out.signatureRow k P i <;> simp
      · rw [if_neg h, hrow i h]
        simp only [Concurrent.signatureRow]
        change _ * (Spec.sgn (nonceWith (d i).aggnonce (T i) (reduceFrom (d i).hb)) * _ * (Spec.keyCoeff _ _ P * Spec.keySign (d i).group.ctx)) = _
        ring
    have hk' : Spec.sgn out.group.ctx.aggregatedPubkey.1 * (out.group.rep P).2 = kappa P n := by
      rw [hkey, sgn_rep hfit, hin.valueAt hd hfit]
    have hr' := (congrArg (fun z => Spec.sgn (n.nonce.value P pn) * n.nonce.combination.p
      + reduceFrom out.he * Spec.sgn out.group.ctx.aggregatedPubkey.1 * (out.group.rep P).2 - z) hs).symm.trans hr
    rw [← hk']
    linear_combination hr'

end

/-! ## The game against the signer -/

section
variable {H : Hash} {sk : Scalar} {sn : ℕ → SecNonce}

theorem gameInv_nil (P : Point) (σ : ℕ → Group → Spec.Reply → Arr 32 → Arr 32 → MaybeScalar) : GameInv P σ [] [] :=
  ⟨List.nodup_nil, by simp, by simp, by simp⟩

/-- A forgery is solved, unless bad answers are drawn. -/
theorem solver_solves (hH : TagsAgree H) {A : Adversary} {q k : ℕ} (hA : A.AsksAtMost q k) {N : ℕ} {ω : Fin N → Arr 32}
    (hf : Forges k H sk sn A ω)
    (hh : ¬ Concurrent.Hits (gameBad (mulG sk) (fun i => (sn i).publicNonce) k) (secrets k sk sn)
      (answers ω) (signerGame k H sk sn A) []) :
    ((solver k H (mulG sk) (fun i => (sn i).publicNonce) A).run (secrets k sk sn) (answers ω) []).1 = secrets k sk sn := by
  set P := mulG sk with hP
  set pn := fun i => (sn i).publicNonce with hpn
  set σ := fun (i : ℕ) (g : Group) r hb he => SessionForger.partialSignature g.hash g.ctx sk (sn i) r hb he with hσ
  unfold solver
  rw [run_bind, game_congr (σ := σ) hH pn (secrets k sk sn) (answers ω) (fun i hi g hg r hb he log => by
    rw [Play.run, Play.run, hσ]
    simp only
    rw [hg.signature sn hi]) hA (by simp) (gameInv_nil P σ).distinct]
  obtain ⟨-, h1⟩ := game_inv (σ := σ) hH pn (secrets k sk sn) (answers ω)
    (sign := fun i g r hb he => .done (σ i g r hb he)) (fun i hi g hg r hb he log => rfl) hA (by simp) (gameInv_nil P σ)
  obtain ⟨-, h4⟩ := run_good _ (secrets k sk sn) (log := []) List.nodup_nil (by intro t x n h ht; simp at ht) hh
  unfold Forges at hf
  change Good (gameBad P pn k) ((game H P pn (fun i g r hb he => .done (σ i g r hb he)) A []).run (secrets k sk sn) (answers ω) []).2
    at h4
  change Wins H P pn ((game H P pn (fun i g r hb he => .done (σ i g r hb he)) A []).run (secrets k sk sn) (answers ω) []) at hf
  generalize (game H P pn (fun i g r hb he => .done (σ i g r hb he)) A []).run (secrets k sk sn) (answers ω) [] = res at h1 h4 hf ⊢
  obtain ⟨o, log⟩ := res
  cases o with
  | none => exact hf.elim
  | some out =>
    obtain ⟨w1, w2, w3, w4, w5, w6⟩ := hf
    obtain ⟨h1, h2, h3, h5, h6⟩ := h1 out rfl
    have h2' : out.sessions.length ≤ k := h2.trans (by simp)
    have hnlen : out.note.nonce.sessions.length ≤ k := by
      have := (h1.points _ h6).length_le
      rw [List.length_map] at this
      unfold Note.nonce
      simp only [List.length_map]
      exact this.trans h2'
    refine run_solve (row_shape _ _) ?_ ?_ (exists_reduced h1 h4 h2' h3 h5 h6 w1) _ _
    · intro f hf
      unfold Outcome.candidates at hf
      rcases List.mem_append.1 hf with hf | hf
      · obtain ⟨s, hs, hf⟩ := List.mem_filterMap.1 hf
        obtain ⟨r, hr, rfl⟩ := Option.map_eq_some_iff.1 hf
        obtain ⟨i, hi⟩ := List.mem_iff_getElem?.1 hs
        obtain ⟨g1, -⟩ := h1.signed i s.point r (by rw [hi, ← hr])
        obtain ⟨g2, g3⟩ := w6 s hs r hr
        exact key_equation sn k g1 g2 g3
      · rcases List.mem_cons.1 hf with rfl | hf
        · exact key_equation sn k h3 w4 w5
        · rw [List.mem_singleton] at hf
          subst hf
          exact forged_equation (ctx := fun _ => out.group.ctx) rfl rfl (h3.key w4) h1.distinct h6 hnlen w2 w3
    · intro i e he
      obtain ⟨T, r, hs, rfl⟩ := outcome_signatureRow he
      obtain ⟨g1, -, -, -, hsig⟩ := h1.signed i T r hs
      simp only
      rw [hsig, hσ]
      simp only
      rw [g1.signature sn i.2, ← mul_assoc, show nonceSign _ _ * nonceSign _ _ = (1 : MaybeScalar) from sgn_mul_sgn _, one_mul]

theorem dlogs_finish (k : ℕ) (P : Point) (pn : ℕ → PubNonce) (out : Outcome) :
    (Concurrent.solve (out.signatureRow k P) (out.candidates k P pn) : Play Note k _).DlogsAtMost
      (2 * k - signedCount k (out.sessions.map plain)) := by
  classical
  have h := dlogs_solve (ν := Note) (out.signatureRow k P) (out.candidates k P pn)
  have e : (Finset.univ.filter fun i : Fin k => (out.signatureRow k P i).isSome).card = signedCount k (out.sessions.map plain) := by
    unfold signedCount
    simp only [signatureRow_isSome]
  rwa [e] at h

/-! ## The game is one against the code -/

theorem new_congr {H H' : Hash} {keys : List Point} (h : ∀ K ∈ keys, coeffOf H keys K = coeffOf H' keys K) :
    KeyAggContext.new H keys = KeyAggContext.new H' keys := by
  have h1 : (keys.map fun K => coeffOf H keys K • K.1) = keys.map fun K => coeffOf H' keys K • K.1 :=
    List.map_congr_left fun K hK => by rw [h K hK]
  have h2 : keys.map (coeffOf H keys) = keys.map (coeffOf H' keys) := List.map_congr_left h
  rw [new_eq, new_eq]
  unfold keySum baseCtx
  rw [h1, h2]

theorem hash_of_mem {log : Log Note} (hd : Distinct log) {x : Bytes} {n : Note} {h : Arr 32} (hm : (x, n, h) ∈ log) :
    log.hash H x = h := by
  unfold Log.hash
  rw [(find_some hd).2 hm]

theorem coeffOf_hash {log : Log Note} (hd : Distinct log) {g : Group}
    (h : InLog g log) {K : Point} (hK : K ∈ g.keys) :
    coeffOf (log.hash H) g.keys K = coeffOf g.hash g.keys K := by
  by_cases h2 : secondKey g.keys = some K
  · rw [GroupForger.coeffOf_second h2, GroupForger.coeffOf_second h2]
  · rw [GroupForger.coeffOf_of_ne h2, GroupForger.coeffOf_of_ne h2]
    change reduceFrom (log.hash H (Spec.coefString (log.hash H (Spec.listQuery g.keys)) K))
      = reduceFrom (g.hash (Spec.coefString (g.hash (Spec.listQuery g.keys)) K))
    obtain ⟨n, hn⟩ := h.coef K hK
    rw [hash_of_mem hd h.list, hash_of_mem hd hn]

theorem built_hash {P : Point} {log : Log Note} (hd : Distinct log) {g : Group}
    (hf : Fits P g) (h : InLog g log) : BuiltFrom (log.hash H) g.ctx g.keys g.tweaks := by
  obtain ⟨c, h1, h2⟩ := hf.built
  exact ⟨c, (new_congr fun K hK => coeffOf_hash hd h hK).trans h1, h2⟩

/-- The partial signatures in the game are those of the code. -/
theorem signed_code {ss : List Session} {log : Log Note}
    (hi : GameInv (mulG sk) (fun i g r hb he => SessionForger.partialSignature g.hash g.ctx sk (sn i) r hb he) ss log)
    {i : ℕ} {T : MaybePoint} {r : Signed} (hs : ss[i]? = some ⟨T, some r⟩) :
    BuiltFrom (log.hash H) r.group.ctx r.group.keys r.group.tweaks ∧ mulG sk ∈ r.group.keys ∧
      signPartialAdaptor (log.hash H) r.group.ctx sk (sn i) r.aggnonce T r.message = .ok r.sig := by
  obtain ⟨hf, hin, hb, ⟨ne, he⟩, hsig⟩ := hi.signed i T r hs
  have hbuilt := built_hash (H := H) hi.distinct hf hin
  refine ⟨hbuilt, hf.member, ?_⟩
  have hm : mulG sk ∈ r.group.ctx.orderedPubkeys := by
    rw [hf.built.keys]
    exact hf.member
  rw [hsig, SessionForger.partialSignature_eq hf.built.reachable.inv hm, signPartialAdaptor_eq hbuilt.reachable.inv, if_pos hm]
  have hbc : r.aggnonce.nonceCoefficient (log.hash H) r.group.ctx.pubkey r.message = reduceFrom r.hb := by
    rw [(C66_what_is_hashed _).2.2.1]
    change reduceFrom (log.hash H (Spec.noncecoefQuery r.aggnonce r.group.ctx.aggregatedPubkey r.message)) = _
    rw [hash_of_mem hi.distinct hb]
  have hcoef : coeffOf (log.hash H) r.group.ctx.orderedPubkeys (mulG sk) = coeffOf r.group.hash r.group.ctx.orderedPubkeys (mulG sk) := by
    rw [hf.built.keys]
    exact coeffOf_hash hi.distinct hin hf.member
  have hec : computeChallengeHashTweak (log.hash H) (xonly ((⟨r.aggnonce, T, r.message⟩ : Spec.Reply).nonce r.hb)) r.group.ctx.pubkey
      r.message = reduceFrom r.he := by
    rw [spec_xbytes] at he
    exact hash_challenge hi.distinct he
  unfold partialSigValue sessionE sessionRT sessionR
  rw [hbc, hcoef]
  rw [reply_nonce] at hec ⊢
  rw [hec]
  rfl

theorem signed_nonce {P : Point} {σ : ℕ → Group → Spec.Reply → Arr 32 → Arr 32 → MaybeScalar} {ss : List Session} {log : Log Note}
    (hi : GameInv P σ ss log) {i : ℕ} {T : MaybePoint} {r : Signed} (hs : ss[i]? = some ⟨T, some r⟩) :
    (⟨r.aggnonce, T, r.message⟩ : Spec.Reply).nonce r.hb
      = Spec.sessionNonce (log.hash H) r.group.ctx.aggregatedPubkey ⟨r.aggnonce, T, r.message⟩ := by
  obtain ⟨-, -, hb, -⟩ := hi.signed i T r hs
  unfold Spec.sessionNonce
  rw [hash_of_mem hi.distinct hb]

theorem sum_bound' (c b m : ℕ) :
    (∑ t ∈ Finset.range m, 2 * (((0 + t + 1) * c + b : ℕ) : ℚ) / 2 ^ 256 : ℚ)
      = ((c : ℚ) * ((m : ℚ) * ((m : ℚ) + 1)) + 2 * b * m) / 2 ^ 256 := by
  induction m with
  | zero => simp
  | succ m ih =>
    rw [Finset.sum_range_succ, ih]
    push_cast
    ring

/-- A forgery is seldom left unsolved. -/
theorem forges_unsolved (hH : TagsAgree H) (sk : Scalar) (sn : ℕ → SecNonce) {A : Adversary} {q k : ℕ} (hA : A.AsksAtMost q k) :
    (Spec.chance fun ω : Fin q → Arr 32 => Forges k H sk sn A ω ∧
      ¬ ((solver k H (mulG sk) (fun i => (sn i).publicNonce) A).run (secrets k sk sn) (answers ω) []).1 = secrets k sk sn)
      ≤ ((k + 7) * ((q : ℚ) * (q + 1)) + 2 ^ 34 * q) / 2 ^ 256 := by
  have hHash : HashesAtMost q (signerGame k H sk sn A) :=
    game_hashes H (mulG sk) _ (fun _ _ _ _ _ => by trivial) hA []
  have h1 := chance_hits (gameBad (mulG sk) (fun i => (sn i).publicNonce) k) (secrets k sk sn)
    (fun l => (l + 1) * (k + 7) + 2 ^ 33) (fun log x n => gameBad_card _ _ _ _ _ _) hHash []
  replace h1 := h1.trans (le_of_eq (sum_bound' (k + 7) (2 ^ 33) q))
  have e : ((k + 7 : ℕ) : ℚ) * ((q : ℚ) * (q + 1)) + 2 * ((2 ^ 33 : ℕ) : ℚ) * q
      = (k + 7) * ((q : ℚ) * (q + 1)) + 2 ^ 34 * q := by
    push_cast
    ring
  rw [e] at h1
  refine (CmaForger.chance_mono fun ω hω => ?_).trans h1
  by_contra hh
  exact hω.2 (solver_solves hH hA hω.1 hh)

end

end Verif.Adaptive
