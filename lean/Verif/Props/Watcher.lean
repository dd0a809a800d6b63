import Verif.Lemmas.Props.Watcher
import Verif.Props.Outsider

/-!
# Property C133: a group looks like a single signer

C130 is about the key alone, and C132 about signatures of somebody who knows all keys. Here somebody sees both: they choose the other
members of a group, see the aggregated key or the taproot output, and then have signatures made. As long as they do not know the secret key
and the nonces of one member, they cannot tell the group from a single signer with a random key and random nonces.
-/

namespace Verif

open Watcher
open Outsider (extend)

/-- **C133**. Somebody asks for at most `q` hashes, chooses at most `N` other members of a group with their secret keys, and is shown a key.
Then they ask for at most `q'` hashes and at most `k` signatures, with messages, adaptor secrets or adaptor points, and nonces of the other
members of their choice. Whether the key and the signatures, or adaptor signatures, are those of the group or of a single signer, the
chance of a yes is the same up to the bound. -/
theorem C133_group_like_single_signer (H : Hash) (hH : TagsAgree H) (A : Asker Plan) (q q' k N m : ℕ)
    (hA : A.AsksAtMost DrawnAny (Plan.Within DrawnAny N q' k) q) (hN : N + 1 ≤ u32Max) (hm : q + q' + k + N + 2 ≤ m) :
    |(Spec.chance fun w : (Scalar × (Fin k → Scalar × Scalar)) × (Fin m → Arr 32) => OnGroup DrawnAny H (plain H) A id w)
      - Spec.chance fun w : (Scalar × (Fin k → Scalar)) × (Fin m → Arr 32) => OnSingle DrawnAny H A w|
      ≤ k * (q + q' + k + N + 7) / 2 ^ 255 + 6 * (q + q') / 2 ^ 256 + 1 / 2 ^ 125 := by
  letI := Fintype.ofFinite (Arr 32)
  letI := Fintype.ofFinite Scalar
  have : Nonempty Scalar := ⟨scalarOne⟩
  refine chance_close (H := H) hA (f := fun (g : Scalar × (Fin k → Scalar × Scalar)) p => group (plain H) g.1 (extend (scalarOne, scalarOne) g.2) p)
    (f' := fun (g : Scalar × (Fin k → Scalar)) p => single H g.1 (extend scalarOne g.2) p) (l := N + 2 + (q' + k)) (by omega)
    (fun g p hp => asks_group (fun _ h => h) hp _ _ ((asks_plain (H := H) (drawn_any fun _ h => h) _).mono (Nat.succ_le_succ (keys_length hp _))))
    (fun g p hp => (asks_single hp _ _).mono (by omega)) fun p T hp hT => (plain_close (fun _ h => h) hH hp hN hT).trans ?_
  have h := over_order k (q + (N + 2)) q'
  have e : (k : ℚ) * ((q + (N + 2) : ℕ) + q' + k + 5) / 2 ^ 255 = k * (q + q' + k + N + 7) / 2 ^ 255 := by push_cast; ring
  rw [e] at h
  exact (add_le_add h le_rfl).trans_eq (add_assoc _ _ _).symm

/-- **C133**. The same for the taproot output of the group, with a merkle root or without one. -/
theorem C133_output_like_single_signer (H : Hash) (hH : TagsAgree H) (A : Asker Plan) (q q' k N m : ℕ)
    (hA : A.AsksAtMost DrawnAny (Plan.Within DrawnAny N q' k) q) (hN : N + 1 ≤ u32Max) (hm : q + q' + k + N + 3 ≤ m) :
    |(Spec.chance fun w : (Scalar × (Fin k → Scalar × Scalar)) × (Fin m → Arr 32) => OnGroup DrawnAny H (taproot H) A id w)
      - Spec.chance fun w : (Scalar × (Fin k → Scalar)) × (Fin m → Arr 32) => OnSingle DrawnAny H A w|
      ≤ k * (q + q' + k + N + 8) / 2 ^ 255 + 10 * (q + q') / 2 ^ 256 + 1 / 2 ^ 124 := by
  letI := Fintype.ofFinite (Arr 32)
  letI := Fintype.ofFinite Scalar
  have : Nonempty Scalar := ⟨scalarOne⟩
  refine chance_close (H := H) hA (f := fun (g : Scalar × (Fin k → Scalar × Scalar)) p => group (taproot H) g.1 (extend (scalarOne, scalarOne) g.2) p)
    (f' := fun (g : Scalar × (Fin k → Scalar)) p => single H g.1 (extend scalarOne g.2) p) (l := N + 3 + (q' + k)) (by omega)
    (fun g p hp => asks_group (fun _ h => h) hp _ _ ((asks_taproot (H := H) (drawn_any fun _ h => h) _).mono (Nat.add_le_add_right (keys_length hp _) 2)))
    (fun g p hp => (asks_single hp _ _).mono (by omega)) fun p T hp hT => (taproot_close (fun _ h => h) hH hp hN hT).trans ?_
  have h := over_order k (q + (N + 3)) q'
  have e : (k : ℚ) * ((q + (N + 3) : ℕ) + q' + k + 5) / 2 ^ 255 = k * (q + q' + k + N + 8) / 2 ^ 255 := by push_cast; ring
  rw [e] at h
  exact (add_le_add h le_rfl).trans_eq (add_assoc _ _ _).symm

/-- **C133**. A key-path spend of a taproot output with script paths, and one of an output without, look alike, and so do groups of different
sizes: somebody who chose two groups with the unknown member, and two merkle roots, cannot tell which of them made the output and the
signatures. -/
theorem C133_outputs_look_alike (H : Hash) (hH : TagsAgree H) (A : Asker (Plan × Plan)) (q q' k N m : ℕ)
    (hA : A.AsksAtMost DrawnAny (fun p => p.1.Within DrawnAny N q' k ∧ p.2.Within DrawnAny N q' k ∧
      ∀ Q, ((p.1.watch Q).map fun o => (o.point, o.msg)) = (p.2.watch Q).map fun o => (o.point, o.msg)) q)
    (hN : N + 1 ≤ u32Max) (hm : q + q' + k + N + 3 ≤ m) :
    |(Spec.chance fun w : (Scalar × (Fin k → Scalar × Scalar)) × (Fin m → Arr 32) => OnGroup DrawnAny H (taproot H) A Prod.fst w)
      - Spec.chance fun w : (Scalar × (Fin k → Scalar × Scalar)) × (Fin m → Arr 32) => OnGroup DrawnAny H (taproot H) A Prod.snd w|
      ≤ k * (q + q' + k + N + 8) / 2 ^ 254 + 20 * (q + q') / 2 ^ 256 + 1 / 2 ^ 123 := by
  letI := Fintype.ofFinite (Arr 32)
  letI := Fintype.ofFinite Scalar
  have : Nonempty Scalar := ⟨scalarOne⟩
  refine chance_close (H := H) hA (f := fun (g : Scalar × (Fin k → Scalar × Scalar)) p => group (taproot H) g.1 (extend (scalarOne, scalarOne) g.2) p.1)
    (f' := fun (g : Scalar × (Fin k → Scalar × Scalar)) p => group (taproot H) g.1 (extend (scalarOne, scalarOne) g.2) p.2) (l := N + 3 + (q' + k)) (by omega)
    (fun g p hp => asks_group (fun _ h => h) hp.1 _ _ ((asks_taproot (H := H) (drawn_any fun _ h => h) _).mono (Nat.add_le_add_right (keys_length hp.1 _) 2)))
    (fun g p hp => asks_group (fun _ h => h) hp.2.1 _ _ ((asks_taproot (H := H) (drawn_any fun _ h => h) _).mono (Nat.add_le_add_right (keys_length hp.2.1 _) 2)))
    fun p T hp hT => ?_
  have h1 := taproot_close (fun _ h => h) hH hp.1 hN hT
  have h2 := taproot_close (fun _ h => h) hH hp.2.1 hN hT
  have e : ∀ x c, single H x c p.2 = single H x c p.1 := fun x c => by
    have := congrArg (fun B : Outsider (Option MaybePoint × Bytes) => (B.map fun o => (⟨x, o.1, o.2⟩ : Spec.SignerOrder)).signers H c) (hp.2.2 (mulG x)).symm
    simp only [Outsider.map_map] at this
    exact this
  simp only [e] at h2
  rw [abs_sub_comm] at h2
  refine (abs_sub_le _ _ _).trans ((add_le_add h1 h2).trans ?_)
  have h := over_order k (q + (N + 3)) q'
  have e1 : (k : ℚ) * (q + q' + k + N + 8) / 2 ^ 254 = k * ((q + (N + 3) : ℕ) + q' + k + 5) / 2 ^ 255
      + k * ((q + (N + 3) : ℕ) + q' + k + 5) / 2 ^ 255 := by push_cast; ring
  have e2 : (20 * ((q : ℚ) + q') / 2 ^ 256) = 10 * (q + q') / 2 ^ 256 + 10 * (q + q') / 2 ^ 256 := by ring
  have e3 : (1 : ℚ) / 2 ^ 123 = 1 / 2 ^ 124 + 1 / 2 ^ 124 := by norm_num
  rw [e1, e2, e3]
  generalize (1 : ℚ) / 2 ^ 124 = a1 at *
  generalize (10 * ((q : ℚ) + q') / 2 ^ 256) = a2 at *
  linarith

namespace Watcher

/-- Somebody who puts the unknown member beside the key `1`, has a message signed and then an adaptor signature made for the adaptor
point `G` on the signature they have seen, and says yes if the signature has the nonce point `G`. -/
def watchful (n : SecNonce) (msg : Bytes) : Asker Plan := .ask (KeyCommit.listString [Gpt, Gpt]) fun h => .done
  { before := [scalarOne], after := [], root := some h,
    watch := fun Q => .ask (KeyCommit.listString [Q]) fun _ =>
      .sign ⟨[n], [], 1, none, msg, fun _ => .new zeroSeed⟩ fun sig => .sign ⟨[n], [], 0, some Spec.G, sig, fun _ => .new zeroSeed⟩ fun _ => .done (sig.take 32 = Spec.xbytes Spec.G) }

theorem watchful_within (n : SecNonce) (msg : Bytes) : (watchful n msg).AsksAtMost DrawnAny (Plan.Within DrawnAny 1 1 2) 1 := by
  unfold watchful Asker.AsksAtMost
  rw [if_pos (drawn_any (fun _ h => h) _ (KeyCommit.drawn_list _))]
  refine ⟨0, rfl, fun h => ⟨le_rfl, fun Q => ?_⟩⟩
  dsimp only
  unfold Outsider.Within
  rw [if_pos (drawn_any (fun _ h => h) _ (KeyCommit.drawn_list _))]
  exact ⟨0, rfl, fun _ => ⟨⟨rfl, rfl⟩, 1, rfl, fun _ => ⟨⟨rfl, rfl⟩, 0, rfl, fun _ => trivial⟩⟩⟩

end Watcher

/-- The hypotheses can be met, and the verdict is not always the same. -/
example (n : SecNonce) (msg : Bytes) : ∃ A : Asker Plan, A.AsksAtMost DrawnAny (Plan.Within DrawnAny 1 1 2) 1 ∧
    (∃ w : (Scalar × (Fin 2 → Scalar)) × (Fin 7 → Arr 32), OnSingle DrawnAny stubHash A w) ∧
    ∃ w : (Scalar × (Fin 2 → Scalar)) × (Fin 7 → Arr 32), ¬ OnSingle DrawnAny stubHash A w := by
  have hv : ∀ w : (Scalar × (Fin 2 → Scalar)) × (Fin 7 → Arr 32),
      OnSingle DrawnAny stubHash (watchful n msg) w ↔ Spec.xbytes ((w.1.2 0).1 • Spec.G) = Spec.xbytes Spec.G := by
    intro w
    have e : (Spec.signWith stubHash w.1.1 (w.1.2 0) msg).take 32 = Spec.xbytes ((w.1.2 0).1 • Spec.G) := by
      unfold Spec.signWith
      rw [List.take_append_of_le_length (by rw [spec_xbytes, (xonly _).2]), List.take_of_length_le (by rw [spec_xbytes, (xonly _).2])]
    rw [← e]
    unfold OnSingle watchful
    simp only [Asker.bind, single, Outsider.map, Outsider.signers, Asker.run, if_pos (drawn_any (fun _ h => h) _ (KeyCommit.drawn_list _))]
    split <;> split <;> exact Iff.rfl
  refine ⟨watchful n msg, watchful_within n msg, ⟨((scalarOne, fun _ => scalarOne), fun _ => zeroSeed), ?_⟩,
    ((scalarOne, fun _ => ⟨2, by decide +kernel⟩), fun _ => zeroSeed), ?_⟩
  · rw [hv]
    change Spec.xbytes ((1 : MaybeScalar) • Spec.G) = _
    rw [one_smul]
  · rw [hv, spec_xbytes, spec_xbytes, spec_G]
    intro h
    rcases xonly_eq_iff.1 (Subtype.ext h) with h | h
    · have := smul_G_inj.1 (h.trans (one_smul _ _).symm)
      revert this
      decide +kernel
    · rw [← neg_one_smul MaybeScalar] at h
      have := smul_G_inj.1 h
      revert this
      decide +kernel

end Verif
