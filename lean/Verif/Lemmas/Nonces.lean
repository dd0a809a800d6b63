import Verif.Model.Nonces
import Verif.Lemmas.KeyAgg
import Verif.Lemmas.KeyAggBytes

/-!
# Lemmas about nonces
-/

namespace Verif

theorem lengthCheck_eq_ok {ε : Type} {l : List Bytes} :
    (extraInputLengthCheck l : Res ε Unit) = .ok () ↔ l.flatten.length ≤ u32Max := by
  unfold extraInputLengthCheck Res.assert
  rw [List.length_flatten]
  by_cases h : (l.map List.length).sum ≤ u32Max <;> simp [h]

theorem lengthCheck_eq_panic {ε : Type} {l : List Bytes} :
    (extraInputLengthCheck l : Res ε Unit) = .panic ↔ u32Max < l.flatten.length := by
  unfold extraInputLengthCheck Res.assert
  rw [List.length_flatten]
  by_cases h : (l.map List.length).sum ≤ u32Max
  · simp [h]
  · simp only [h, decide_false, Bool.false_eq_true, if_false, true_iff]; omega

theorem lengthCheck_cases {ε : Type} (l : List Bytes) :
    ((extraInputLengthCheck l : Res ε Unit) = .ok () ∧ l.flatten.length ≤ u32Max) ∨
    ((extraInputLengthCheck l : Res ε Unit) = .panic ∧ u32Max < l.flatten.length) := by
  by_cases h : l.flatten.length ≤ u32Max
  · exact Or.inl ⟨lengthCheck_eq_ok.2 h, h⟩
  · exact Or.inr ⟨lengthCheck_eq_panic.2 (by omega), by omega⟩

namespace SecNonceBuilder

theorem withExtraInput_eq_ok {ε : Type} {b b' : SecNonceBuilder} {x : Bytes} :
    (b.withExtraInput x : Res ε _) = .ok b' ↔
      (b.extraInputs ++ [x]).flatten.length ≤ u32Max ∧ b' = { b with extraInputs := b.extraInputs ++ [x] } := by
  unfold withExtraInput
  simp only
  rw [Res.bind_eq_ok]
  constructor
  · rintro ⟨u, h1, h2⟩
    simp only [Res.pure_def, Res.ok.injEq] at h2
    exact ⟨lengthCheck_eq_ok.1 h1, h2.symm⟩
  · rintro ⟨h1, rfl⟩
    exact ⟨(), lengthCheck_eq_ok.2 h1, rfl⟩

theorem withSpices_eq_ok {ε : Type} {b b' : SecNonceBuilder} {s : SecNonceSpices} :
    (b.withSpices s : Res ε _) = .ok b' ↔
      (b.extraInputs ++ s.extraInputs).flatten.length ≤ u32Max ∧
      b' = { b with seckey := s.seckey.or b.seckey, message := s.message.or b.message,
                    extraInputs := b.extraInputs ++ s.extraInputs } := by
  unfold withSpices
  simp only
  rw [Res.bind_eq_ok]
  constructor
  · rintro ⟨u, h1, h2⟩
    simp only [Res.pure_def, Res.ok.injEq] at h2
    exact ⟨lengthCheck_eq_ok.1 h1, h2.symm⟩
  · rintro ⟨h1, rfl⟩
    exact ⟨(), lengthCheck_eq_ok.2 h1, rfl⟩

theorem withSpices_eq_panic {ε : Type} {b : SecNonceBuilder} {s : SecNonceSpices} :
    (b.withSpices s : Res ε _) = .panic ↔ u32Max < (b.extraInputs ++ s.extraInputs).flatten.length := by
  unfold withSpices
  simp only
  rcases lengthCheck_cases (ε := ε) (b.extraInputs ++ s.extraInputs) with ⟨h, hl⟩ | ⟨h, hl⟩
  · rw [h]; simp only [Res.bind_ok, Res.pure_def, reduceCtorEq, false_iff]; omega
  · rw [h]; simp only [Res.bind_panic, true_iff]; exact hl

theorem withExtraInput_eq_panic {ε : Type} {b : SecNonceBuilder} {x : Bytes} :
    (b.withExtraInput x : Res ε _) = .panic ↔ u32Max < (b.extraInputs ++ [x]).flatten.length := by
  unfold withExtraInput
  simp only
  rcases lengthCheck_cases (ε := ε) (b.extraInputs ++ [x]) with ⟨h, hl⟩ | ⟨h, hl⟩
  · rw [h]; simp only [Res.bind_ok, Res.pure_def, reduceCtorEq, false_iff]; omega
  · rw [h]; simp only [Res.bind_panic, true_iff]; exact hl

theorem reduceOrOne_val (h : Arr 32) :
    (reduceOrOne h).1.val = if beNat h.1 % orderN = 0 then 1 else beNat h.1 % orderN := by
  unfold reduceOrOne
  have hv := reduceFrom_val h
  by_cases h0 : reduceFrom h = 0
  · rw [notZero_eq_none.2 h0]
    rw [h0, ZMod.val_zero] at hv
    rw [if_pos hv.symm]
    exact ZMod.val_one'' (by have := one_lt_orderN; omega)
  · have : notZero (reduceFrom h) = some ⟨_, h0⟩ := notZero_eq_some.2 rfl
    rw [this]
    simp only
    rw [hv, if_neg]
    rw [← hv, ZMod.val_eq_zero]
    exact h0

end SecNonceBuilder

/-! ## Parsing the nonce hash input -/

/-- An optional field: `[0]` if absent, otherwise a marker and a value. -/
def optField (tag : UInt8) : Option Bytes → Bytes
  | none => [0]
  | some x => tag :: x

theorem optField_inj {tag : UInt8} {len : ℕ} (htag : tag ≠ 0) {o o' : Option Bytes} {r r' : Bytes}
    (ho : ∀ x ∈ o, x.length = len) (ho' : ∀ x ∈ o', x.length = len)
    (h : optField tag o ++ r = optField tag o' ++ r') : o = o' ∧ r = r' := by
  cases o <;> cases o' <;> simp only [optField, List.cons_append, List.nil_append, List.cons.injEq] at h
  · exact ⟨rfl, h.2⟩
  · exact absurd h.1.symm htag
  · exact absurd h.1 htag
  · obtain ⟨-, h⟩ := h
    have := append_inj_len h ((ho _ rfl).trans (ho' _ rfl).symm)
    exact ⟨congrArg _ this.1, this.2⟩

/-- The message field. -/
def msgField : Option Bytes → Bytes
  | none => [0]
  | some m => 1 :: (beBytes 8 m.length ++ m)

theorem msgField_inj {o o' : Option Bytes} {r r' : Bytes}
    (ho : ∀ x ∈ o, x.length < 256 ^ 8) (ho' : ∀ x ∈ o', x.length < 256 ^ 8)
    (h : msgField o ++ r = msgField o' ++ r') : o = o' ∧ r = r' := by
  cases o <;> cases o' <;> simp only [msgField, List.cons_append, List.nil_append, List.cons.injEq] at h
  · exact ⟨rfl, h.2⟩
  · exact absurd h.1.symm (by decide)
  · exact absurd h.1 (by decide)
  · obtain ⟨-, h⟩ := h
    rw [List.append_assoc, List.append_assoc] at h
    obtain ⟨h1, h2⟩ := append_inj_len h (by simp)
    have hl := beBytes_injective (ho _ rfl) (ho' _ rfl) h1
    obtain ⟨h3, h4⟩ := append_inj_len h2 hl
    exact ⟨congrArg _ h3, h4⟩

/-- The extra input field. -/
def extraField : Option Bytes → Bytes
  | none => []
  | some x => beBytes 4 x.length ++ x

theorem extraField_inj {o o' : Option Bytes} {i j : UInt8}
    (h : extraField o ++ [i] = extraField o' ++ [j]) : o = o' ∧ i = j := by
  cases o <;> cases o' <;> simp only [extraField] at h
  · simpa using h
  · have := congrArg List.length h; simp at this; omega
  · have := congrArg List.length h; simp at this; omega
  · rw [List.append_assoc, List.append_assoc] at h
    obtain ⟨h1, h2⟩ := append_inj_len h (by simp)
    have hl := congrArg List.length h2
    simp only [List.length_append, List.length_singleton] at hl
    obtain ⟨h3, h4⟩ := append_inj_len h2 (by omega)
    exact ⟨congrArg _ h3, by simpa using h4⟩

theorem hashInput_eq (H : Hash) (b : SecNonceBuilder) :
    b.hashInput H = (xorBytes (match b.seckey with
        | some seckey => serScalar seckey.1
        | none => ⟨List.replicate 32 0, rfl⟩) (tagHash H MUSIG_AUX_TAG_DIGEST b.nonceSeedBytes.1)).1
      ++ (optField 33 (b.pubkey.map fun P => (serPoint P.1).1)
      ++ (optField 32 (b.aggregatedPubkey.map fun P => (xonly P.1).1)
      ++ (msgField b.message
      ++ extraField (if b.extraInputs.isEmpty then none else some b.extraInputs.flatten)))) := by
  unfold SecNonceBuilder.hashInput
  simp only [List.append_assoc]
  congr 1
  congr 1
  · cases b.pubkey <;> rfl
  congr 1
  · cases b.aggregatedPubkey <;> rfl
  congr 1
  · cases b.extraInputs with
    | nil => rfl
    | cons x xs => simp [extraField]

theorem xorBytes_left_inj {a b m : Arr 32} (h : xorBytes a m = xorBytes b m) : a = b := by
  have key : ∀ (a b m : Bytes), a.length = m.length → b.length = m.length →
      List.zipWith (· ^^^ ·) a m = List.zipWith (· ^^^ ·) b m → a = b := by
    intro a
    induction a with
    | nil => intro b m h1 h2 _; simp at h1; rw [← h1] at h2; simp at h2; exact h2.symm
    | cons x a ih =>
      intro b m h1 h2 h
      cases m with
      | nil => simp at h1
      | cons y m =>
        cases b with
        | nil => simp at h2
        | cons z b =>
          simp only [List.zipWith_cons_cons, List.cons.injEq] at h
          have hx : x = z := by
            have := congrArg (· ^^^ y) h.1
            simpa [UInt8.xor_assoc] using this
          rw [hx, ih b m (by simpa using h1) (by simpa using h2) h.2]
  exact Subtype.ext (key _ _ _ (a.2.trans m.2.symm) (b.2.trans m.2.symm) (congrArg Subtype.val h))

end Verif
