import Verif.Spec.Member
import Verif.Lemmas.Props.Watcher
import Verif.Lemmas.Props.NonceUser

/-!
# Helpers of `Props/Member`
-/

namespace Verif

open Asking (DrawnNonce)
open NonceUser (DrawnSeed)
open Asker (value Table Small avg)

namespace Outsider

variable {D : Bytes → Prop} [DecidablePred D]

theorem random_member (O : Hash) (A : Outsider (SecNonceBuilder × Spec.GroupOrder)) (w : ℕ → Scalar × Scalar) :
    (member O A).random w = (A.map Prod.snd).groups O w := by
  induction A generalizing w with
  | done v => rfl
  | ask x next ih =>
    simp only [member, NonceUser.random, map, groups]
    exact congrArg _ (funext fun a => ih a w)
  | sign s next ih =>
    simp only [member, NonceUser.random, map, groups]
    refine congrArg _ (funext fun b => ?_)
    cases s.2.output (O.answering (s.2.query (w 0)) b) (w 0) with
    | none => rfl
    | some sig => exact ih sig _

theorem within_member (hD : ∀ x, DrawnNonce x → D x) (O : Hash) {fits : SecNonceBuilder × Spec.GroupOrder → Prop}
    {A : Outsider (SecNonceBuilder × Spec.GroupOrder)} {q k : ℕ} (hA : A.Within D fits q k) : (member O A).Within D (q + k) k := by
  induction A generalizing q k with
  | done v => trivial
  | ask x next ih =>
    unfold Within at hA
    unfold member NonceUser.Within
    split at hA
    · rename_i hx
      obtain ⟨q', rfl, hA⟩ := hA
      rw [if_pos hx]
      exact ⟨q' + k, by omega, fun a => ih a (hA a)⟩
    · rename_i hx
      rw [if_neg hx]
      exact fun a => ih a (hA a)
  | sign s next ih =>
    obtain ⟨-, k', rfl, hA⟩ := hA
    unfold member NonceUser.Within
    refine ⟨k', rfl, fun sn => ?_⟩
    unfold NonceUser.Within
    rw [if_pos (hD _ (drawn_query _ _))]
    refine ⟨q + k', rfl, fun b => ?_⟩
    dsimp only
    split
    · exact ih _ (hA _)
    · trivial

variable [Fintype Scalar] [Fintype (Arr 32)] {H O : Hash} {T : Table}

/-- The nonces of the library instead of random ones. -/
theorem member_close (hD : ∀ x, DrawnNonce x → D x) (hS : ∀ x, DrawnSeed x → D x) {fits : SecNonceBuilder × Spec.GroupOrder → Prop}
    {A : Outsider (SecNonceBuilder × Spec.GroupOrder)} {q k j : ℕ} (hA : A.Within D fits q k) (hT : Small T j) :
    |(avg fun s : Fin k → Arr 32 => value D H ((member O A).library O (extend zeroSeed s)) T)
      - avg fun w : Fin k → Scalar × Scalar => value D H ((A.map Prod.snd).groups O (extend (scalarOne, scalarOne) w)) T|
      ≤ k * (2 * (j + q + 4 * k) / 2 ^ 256 + 2 * (1 / 2 ^ 127)) := by
  have h := NonceUser.game_close (H := H) (O := O) hS (within_member hD O hA) hT
  simp only [random_member] at h
  have e : (j : ℚ) + (q + k : ℕ) + 3 * k = j + q + 4 * k := by push_cast; ring
  rwa [e] at h

end Outsider

namespace Watcher

open KeyCommit (Group Drawn)
open Outsider (extend)

variable {D : Bytes → Prop} [DecidablePred D] {H : Hash}

theorem drawn_all : ∀ x, DrawnAny x → DrawnAll x := fun _ h => .inl h
theorem seed_all : ∀ x, DrawnSeed x → DrawnAll x := fun _ h => .inr h

/-- The group signs. -/
def jointMember (x : Scalar) (s : ℕ → Arr 32) (p : Plan) (r : Built) : Asker Prop :=
  match r.2 with
  | none => .done False
  | some ctx =>
    match Spec.okay (ctx.aggregatedSeckey (p.keys x)) with
    | none => .done False
    | some d => (Outsider.member r.1 ((p.watch ctx.aggregatedPubkey).map fun o => (o.inputs x, o.session ctx (p.keys x) d))).library r.1 s

theorem member_eq (build : Group → Asker Built) (x : Scalar) (s : ℕ → Arr 32) (p : Plan) :
    member build x s p = (build ⟨(p.keys x).map mulG, p.root⟩).bind (jointMember x s p) := rfl

section
variable {N q q' k : ℕ} {p : Plan}

theorem asks_member (hD : ∀ x, DrawnAny x → D x) (hS : ∀ x, DrawnSeed x → D x) (hp : p.Within D N q' k) (x : Scalar) (s : ℕ → Arr 32)
    {build : Group → Asker Built} {l : ℕ}
    (hb : (build ⟨(p.keys x).map mulG, p.root⟩).AsksAtMost D (Fine H ((p.keys x).map mulG)) l) :
    (member build x s p).AsksAtMost D (fun _ => True) (l + (q' + k + 3 * k)) := by
  rw [member_eq]
  refine hb.bind fun r hr => ?_
  unfold jointMember
  split
  · trivial
  · split
    · trivial
    · exact NonceUser.asks_library hS (Outsider.within_member (drawnNonce_any hD) _
        (Outsider.within_map (fits' := fun _ => True) (fun _ _ => trivial) (hp.2 _))) s

variable [Fintype Scalar] [Fintype (Arr 32)]

/-- The nonces of the library instead of random ones, in the game of one secret key. -/
theorem jointMember_close (hD : ∀ x, DrawnAny x → D x) (hS : ∀ x, DrawnSeed x → D x) (hp : p.Within D N q' k) (x : Scalar) (r : Built)
    {T : Table} {j : ℕ} (hT : Small T j) :
    |(avg fun s : Fin k → Arr 32 => value D H (jointMember x (extend zeroSeed s) p r) T)
      - avg fun w : Fin k → Scalar × Scalar => value D H (joint x (extend (scalarOne, scalarOne) w) p r) T|
      ≤ k * (2 * (j + q' + 4 * k) / 2 ^ 256 + 2 * (1 / 2 ^ 127)) := by
  have : Nonempty Scalar := ⟨scalarOne⟩
  have : Nonempty (Arr 32) := ⟨zeroSeed⟩
  have h0 : (0 : ℚ) ≤ k * (2 * (j + q' + 4 * k) / 2 ^ 256 + 2 * (1 / 2 ^ 127)) := by positivity
  obtain ⟨O, o⟩ := r
  unfold jointMember joint
  dsimp only
  cases o with
  | none =>
    simp only [Asker.avg_const, sub_self, abs_zero]
    exact h0
  | some ctx =>
    dsimp only
    cases Spec.okay (ctx.aggregatedSeckey (p.keys x)) with
    | none =>
      simp only [Asker.avg_const, sub_self, abs_zero]
      exact h0
    | some d =>
      dsimp only
      have h := Outsider.member_close (H := H) (O := O) (drawnNonce_any hD) hS
        (A := (p.watch ctx.aggregatedPubkey).map fun o => (o.inputs x, o.session ctx (p.keys x) d))
        (Outsider.within_map (fits' := fun _ => True) (fun _ _ => trivial) (hp.2 _)) hT
      rw [Outsider.map_map] at h
      exact h

theorem group_member (hD : ∀ x, DrawnAny x → D x) (hS : ∀ x, DrawnSeed x → D x) (hp : p.Within D N q' k) {build : Group → Asker Built} {l : ℕ}
    (hb : ∀ x, (build ⟨(p.keys x).map mulG, p.root⟩).AsksAtMost D (Fine H ((p.keys x).map mulG)) l) {T : Table} {j : ℕ} (hT : Small T j) :
    |(avg fun g : Scalar × (Fin k → Arr 32) => value D H (member build g.1 (extend zeroSeed g.2) p) T)
      - avg fun g : Scalar × (Fin k → Scalar × Scalar) => value D H (group build g.1 (extend (scalarOne, scalarOne) g.2) p) T|
      ≤ k * (2 * ((j + l : ℕ) + q' + 4 * k) / 2 ^ 256 + 2 * (1 / 2 ^ 127)) := by
  have : Nonempty Scalar := ⟨scalarOne⟩
  have : Nonempty (Arr 32) := ⟨zeroSeed⟩
  rw [Asker.avg_prod fun x (s : Fin k → Arr 32) => value D H (member build x (extend zeroSeed s) p) T,
    Asker.avg_prod fun x (w : Fin k → Scalar × Scalar) => value D H (group build x (extend (scalarOne, scalarOne) w) p) T]
  refine (Asker.abs_avg_sub _ _).trans (Asker.avg_le fun x => ?_)
  exact avg_bind_two (hb x) (fun s : Fin k → Arr 32 => jointMember x (extend zeroSeed s) p)
    (fun w : Fin k → Scalar × Scalar => joint x (extend (scalarOne, scalarOne) w) p)
    (fun r T hr hT => jointMember_close hD hS hp x r hT) hT

end

theorem bound_add (k q q' N : ℕ) (c : ℚ) :
    (k : ℚ) * (2 * ((q + N : ℕ) + q' + 4 * k) / 2 ^ 256 + 2 * (1 / 2 ^ 127)) + (k * ((q + N : ℕ) + q' + k + 5) / 2 ^ 255 + c)
      ≤ k * (q + q' + 3 * k + N + 3) / 2 ^ 254 + k / 2 ^ 126 + c := by
  have e : (k : ℚ) * (2 * ((q + N : ℕ) + q' + 4 * k) / 2 ^ 256 + 2 * (1 / 2 ^ 127))
      = k * ((q + N : ℕ) + q' + 4 * k) / 2 ^ 255 + k / 2 ^ 126 := by ring
  have e2 : (k : ℚ) * (q + q' + 3 * k + N + 3) / 2 ^ 254 = k * (2 * (q + q' + 3 * k + N + 3)) / 2 ^ 255 := by ring
  have h : (k : ℚ) * ((q + N : ℕ) + q' + 4 * k) / 2 ^ 255 + k * ((q + N : ℕ) + q' + k + 5) / 2 ^ 255
      ≤ k * (2 * (q + q' + 3 * k + N + 3)) / 2 ^ 255 := by
    rw [← add_div]
    refine div_le_div_of_nonneg_right ?_ (by positivity)
    rw [← mul_add]
    refine mul_le_mul_of_nonneg_left ?_ (Nat.cast_nonneg k)
    push_cast
    have : (0 : ℚ) ≤ k := Nat.cast_nonneg k
    linarith
  rw [e, e2]
  generalize (k : ℚ) / 2 ^ 126 = u
  linarith

section

variable {D : Bytes → Prop} [DecidablePred D] {H : Hash} {p : Plan} {N q' k : ℕ}

theorem fits_plain (hD : ∀ x, DrawnAny x → D x) (hp : p.Within D N q' k) (x : Scalar) :
    (plain H ⟨(p.keys x).map mulG, p.root⟩).AsksAtMost D (Fine H ((p.keys x).map mulG)) (N + 2) :=
  (asks_plain (H := H) (drawn_any hD) _).mono (Nat.succ_le_succ (keys_length hp _))

theorem fits_taproot (hD : ∀ x, DrawnAny x → D x) (hp : p.Within D N q' k) (x : Scalar) :
    (taproot H ⟨(p.keys x).map mulG, p.root⟩).AsksAtMost D (Fine H ((p.keys x).map mulG)) (N + 3) :=
  (asks_taproot (H := H) (drawn_any hD) _).mono (Nat.add_le_add_right (keys_length hp _) 2)

/-- The group whose one member uses the library, and the single signer. -/
theorem plain_member [Fintype Scalar] [Fintype (Arr 32)] (hD : ∀ x, DrawnAny x → D x) (hS : ∀ x, DrawnSeed x → D x) (hH : TagsAgree H)
    (hp : p.Within D N q' k) (hN : N + 1 ≤ u32Max) {T : Table} {q : ℕ} (hT : Small T q) :
    |(avg fun g : Scalar × (Fin k → Arr 32) => value D H (member (plain H) g.1 (extend zeroSeed g.2) p) T)
      - avg fun g : Scalar × (Fin k → Scalar) => value D H (single H g.1 (extend scalarOne g.2) p) T|
      ≤ k * (q + q' + 3 * k + N + 5) / 2 ^ 254 + k / 2 ^ 126 + (6 * (q + q') / 2 ^ 256 + 1 / 2 ^ 125) := by
  have h1 := group_member (H := H) hD hS hp (fits_plain hD hp) hT
  have h2 := plain_close hD hH hp hN hT
  have h3 := over_order k (q + (N + 2)) q'
  have h4 := bound_add k q q' (N + 2) (6 * (q + q') / 2 ^ 256 + 1 / 2 ^ 125)
  have e : (k : ℚ) * (q + q' + 3 * k + (N + 2 : ℕ) + 3) / 2 ^ 254 = k * (q + q' + 3 * k + N + 5) / 2 ^ 254 := by push_cast; ring
  rw [e] at h4
  exact (abs_sub_le _ _ _).trans ((add_le_add h1 (h2.trans (add_le_add h3 le_rfl))).trans h4)

/-- The group whose one member uses the library, and the single signer. -/
theorem taproot_member [Fintype Scalar] [Fintype (Arr 32)] (hD : ∀ x, DrawnAny x → D x) (hS : ∀ x, DrawnSeed x → D x) (hH : TagsAgree H)
    (hp : p.Within D N q' k) (hN : N + 1 ≤ u32Max) {T : Table} {q : ℕ} (hT : Small T q) :
    |(avg fun g : Scalar × (Fin k → Arr 32) => value D H (member (taproot H) g.1 (extend zeroSeed g.2) p) T)
      - avg fun g : Scalar × (Fin k → Scalar) => value D H (single H g.1 (extend scalarOne g.2) p) T|
      ≤ k * (q + q' + 3 * k + N + 6) / 2 ^ 254 + k / 2 ^ 126 + (10 * (q + q') / 2 ^ 256 + 1 / 2 ^ 124) := by
  have h1 := group_member (H := H) hD hS hp (fits_taproot hD hp) hT
  have h2 := taproot_close hD hH hp hN hT
  have h3 := over_order k (q + (N + 3)) q'
  have h4 := bound_add k q q' (N + 3) (10 * (q + q') / 2 ^ 256 + 1 / 2 ^ 124)
  have e : (k : ℚ) * (q + q' + 3 * k + (N + 3 : ℕ) + 3) / 2 ^ 254 = k * (q + q' + 3 * k + N + 6) / 2 ^ 254 := by push_cast; ring
  rw [e] at h4
  exact (abs_sub_le _ _ _).trans ((add_le_add h1 (h2.trans (add_le_add h3 le_rfl))).trans h4)

end

end Watcher

end Verif
