import Verif.Curve.Cofactor
import Verif.Curve.Random
import Verif.Props.Order
import Verif.Props.HashCurve
import Verif.Props.Ext2

/-!
# Cofactor clearing, subgroup tests, hashing and sampling into the subgroup: C41, C47, C48
-/

set_option linter.unusedSectionVars false
set_option maxRecDepth 100000

namespace Halo2.Props

open Halo2 Halo2.Prime Halo2.Ext Halo2.Curve Halo2.Curve.Cofactor Halo2.Field Halo2.Hash

section Generic

variable {F : Type} [_root_.Field F] [DecidableEq F] [BaseField F] [LawfulBase F] {C : Params F}

/-- `clear` is the multiplication by `k`; it lands in the subgroup of order `r`, and it maps this subgroup onto itself. -/
structure ClearSpec (C : Params F) (r : ℕ) (clear : Proj F → Proj F) (k : ℕ) : Prop where
  mul : ∀ P (p : Pt C), PRep C P p → PRep C (clear P) (k • p)
  lands : ∀ p : Pt C, r • k • p = 0
  onto : ∀ q : Pt C, r • q = 0 → ∃ p : Pt C, r • p = 0 ∧ k • p = q

/-- `free` accepts exactly the points of the subgroup of order `r`. -/
def FreeSpec (C : Params F) (r : ℕ) (free : Proj F → Bool) : Prop :=
  ∀ P (p : Pt C), PRep C P p → (free P = true ↔ r • p = 0)

/-- `into` returns exactly the points of the subgroup, unchanged; the outer `none` is a panic. -/
def IntoSpec (C : Params F) (r : ℕ) (into : Proj F → Option (Option (Proj F))) : Prop :=
  ∀ P (p : Pt C), PRep C P p →
    (r • p = 0 → ∃ Q, into P = some (some Q) ∧ PRep C Q p) ∧ (r • p ≠ 0 → into P = some none)

theorem clearSpec_of {r k : ℕ} (hr : r.Prime) (hk : ¬ r ∣ k) {clear : Proj F → Proj F}
    (mul : ∀ P (p : Pt C), PRep C P p → PRep C (clear P) (k • p)) (lands : ∀ p : Pt C, r • k • p = 0) : ClearSpec C r clear k := by
  refine ⟨mul, lands, fun q hq => ?_⟩
  have hc : Nat.Coprime k r := ((Nat.Prime.coprime_iff_not_dvd hr).mpr hk).symm
  obtain ⟨m, _, hm⟩ := Nat.exists_mul_mod_eq_one_of_coprime hc hr.one_lt
  refine ⟨m • q, by rw [smul_comm, hq, smul_zero], ?_⟩
  rw [smul_smul]
  have h : k * m = r * (k * m / r) + 1 := by rw [← hm, Nat.div_add_mod]
  rw [h, add_smul, one_smul, mul_comm, mul_smul, hq, smul_zero, zero_add]

/-- The three trivial methods on a curve with cofactor one. -/
theorem trivial_of [Finite (Pt C)] {G : Aff F} {r : ℕ} (s : OrderSpec C G 1 r) :
    ClearSpec C r trivialClear 1 ∧ FreeSpec C r trivialFree ∧ IntoSpec C r (fun P => some (trivialInto P)) := by
  refine ⟨⟨fun P p hP => by rw [one_smul]; exact hP, fun p => s.kill _, fun q _ => ⟨q, s.kill q, one_smul _ _⟩⟩, ?_, ?_⟩
  · exact fun P p _ => ⟨fun _ => s.kill p, fun _ => rfl⟩
  · exact fun P p hP => ⟨fun _ => ⟨P, rfl, hP⟩, fun h => absurd (s.kill p) h⟩

end Generic

/-! ## C41 -/

/-- **C41** The seven curves with cofactor one. -/
theorem C41_prime_order :
    (ClearSpec Bn256.g1 bnR trivialClear 1 ∧ FreeSpec Bn256.g1 bnR trivialFree ∧ IntoSpec Bn256.g1 bnR (fun P => some (trivialInto P))) ∧
    (ClearSpec Grumpkin.g1 bnQ trivialClear 1 ∧ FreeSpec Grumpkin.g1 bnQ trivialFree ∧
      IntoSpec Grumpkin.g1 bnQ (fun P => some (trivialInto P))) ∧
    (ClearSpec Pluto.g1 plQ trivialClear 1 ∧ FreeSpec Pluto.g1 plQ trivialFree ∧ IntoSpec Pluto.g1 plQ (fun P => some (trivialInto P))) ∧
    (ClearSpec Pluto.eris plP trivialClear 1 ∧ FreeSpec Pluto.eris plP trivialFree ∧ IntoSpec Pluto.eris plP (fun P => some (trivialInto P))) ∧
    (ClearSpec Secp256k1.c k1N trivialClear 1 ∧ FreeSpec Secp256k1.c k1N trivialFree ∧
      IntoSpec Secp256k1.c k1N (fun P => some (trivialInto P))) ∧
    (ClearSpec Secq256k1.c k1P trivialClear 1 ∧ FreeSpec Secq256k1.c k1P trivialFree ∧
      IntoSpec Secq256k1.c k1P (fun P => some (trivialInto P))) ∧
    (ClearSpec Secp256r1.c r1N trivialClear 1 ∧ FreeSpec Secp256r1.c r1N trivialFree ∧
      IntoSpec Secp256r1.c r1N (fun P => some (trivialInto P))) := by
  obtain ⟨o0, o1, o2, o3, o4, o5, o6, _⟩ := C44_orders
  exact ⟨trivial_of o0, trivial_of o1, trivial_of o2, trivial_of o3, trivial_of o4, trivial_of o5, trivial_of o6⟩

/-- The factor of `clear_cofactor` on bn256 G2, for the curve's parameter `x = 4965661367192848881` and its cofactor `h`:
`-(18 x³ + 12 x² + 3 x + 1) h`, reduced modulo the order `h r` of the curve. -/
@[irreducible] def bn256G2Factor : ℕ :=
  (bnR - (18 * 4965661367192848881 ^ 3 + 12 * 4965661367192848881 ^ 2 + 3 * 4965661367192848881 + 1)) *
    21888242871839275222246405745257275088844257914179612981679871602714643921549

/-- Multiples by congruent numbers. -/
theorem smul_eq_of_modEq {A : Type} [AddCommGroup A] {p : A} {n j k : ℕ} (h : n • p = 0) (he : Nat.ModEq n j k) : j • p = k • p :=
  nsmul_eq_nsmul_iff_modEq.mpr (he.of_dvd (addOrderOf_dvd_of_nsmul_eq_zero h))

/-- **C41** `clear_cofactor` of the four groups with a larger cofactor. The factor of bn256 G2 is `-(18 x³ + 12 x² + 3 x + 1)` times
the cofactor, that of bls12381 G1 is `1 - x`, that of G2
is the effective cofactor `3 (x² - 1) h` of RFC 9380, section 8.8.2; that of pluto G2 is the cofactor itself. -/
theorem C41_clear :
    ClearSpec Bn256.g2 bnR Bn256.g2ClearCofactor bn256G2Factor ∧
    ClearSpec Pluto.g2 plQ Pluto.g2ClearCofactor
      102211695604070082112571065507755096754575920209623522239390234855500789814276296758597959633551254826373265657863299916084618666704897 ∧
    ClearSpec Bls12381.g1 blsR Bls12381.g1ClearCofactor 0xd201000000010001 ∧
    ClearSpec Bls12381.g2 blsR Bls12381.g2ClearCofactor
      0xbc69f08f2ee75b3584c6a0ea91b352888e2a8e9145ad7689986ff031508ffe1329c2f178731db956d82bf015d1212b02ec0ec69d7477c1ae954cbc06689f6a359894c0adebbf6b4e8020005aaa95551 := by
  refine ⟨?_, ?_, ?_, ?_⟩
  · have hk : ¬ bnR ∣ bn256G2Factor := by decide +kernel
    have hd : Bn256.g2Cof * bnR ∣ bnR * bn256G2Factor := by decide +kernel
    have hm := @Bn256.g2Clear_rep
    have he : Nat.ModEq (Bn256.g2Cof * bnR) Bn256.g2ClearFactor bn256G2Factor := by unfold Nat.ModEq; decide +kernel
    generalize Bn256.g2ClearFactor = j at he hm
    generalize bn256G2Factor = k at hk hd he ⊢
    refine clearSpec_of bnR_prime hk (fun P p hP => ?_) fun p => ?_
    · rw [← smul_eq_of_modEq (Bn256.g2_card_smul p) he]
      exact hm hP
    · rw [smul_smul]
      exact smul_eq_zero_of_dvd (Bn256.g2_card_smul p) hd
  · rw [show (102211695604070082112571065507755096754575920209623522239390234855500789814276296758597959633551254826373265657863299916084618666704897 : ℕ)
      = Pluto.g2Cof by decide +kernel]
    refine clearSpec_of plQ_prime (by decide +kernel) (fun P p hP => Pluto.g2Clear_rep hP) fun p => ?_
    rw [smul_smul, mul_comm]
    exact Pluto.g2_card_smul p
  · rw [show (0xd201000000010001 : ℕ) = Bls12381.blsXAbs + 1 by decide +kernel]
    exact clearSpec_of blsR_prime (by decide +kernel) (fun P p hP => Bls12381.g1Clear_rep hP) Bls12381.g1Clear_zero
  · rw [show (0xbc69f08f2ee75b3584c6a0ea91b352888e2a8e9145ad7689986ff031508ffe1329c2f178731db956d82bf015d1212b02ec0ec69d7477c1ae954cbc06689f6a359894c0adebbf6b4e8020005aaa95551 : ℕ)
      = Bls12381.g2ClearFactor by decide +kernel]
    exact clearSpec_of blsR_prime (by decide +kernel) (fun P p hP => Bls12381.g2Clear_rep hP) Bls12381.g2Clear_zero

/-- **C41** `is_torsion_free` of the same groups. -/
theorem C41_free :
    FreeSpec Bn256.g2 bnR Bn256.g2TorsionFree ∧ FreeSpec Pluto.g2 plQ Pluto.g2TorsionFree ∧
    FreeSpec Bls12381.g1 blsR (Bls12381.g1TorsionFree (Fp.zeta blsQ blsQZeta)) ∧ FreeSpec Bls12381.g2 blsR Bls12381.g2TorsionFree := by
  refine ⟨fun P p hP => (Bn256.g2Free_iff hP).trans (Bn256.g2Test_iff p), fun P p hP => Pluto.g2Free_iff hP, fun P p hP => ?_,
    fun P p hP => (Bls12381.g2Free_iff hP).trans (Bls12381.g2Test_iff p)⟩
  have c := C12_constants.2.2.1
  have h3 : Fp.zeta blsQ blsQZeta ^ 3 = 1 := c.zeta_cube
  have hz3 : Fp.zeta blsQ blsQZeta * Fp.zeta blsQ blsQZeta * Fp.zeta blsQ blsQZeta = 1 := by rw [← h3]; ring
  exact (Bls12381.g1Free_iff _ hz3 hP).trans
    (Bls12381.g1Test_iff _ blsQZeta (Fp.constElem_eq blsQZeta) (cube_root h3 c.zeta_ne_one) hz3 (by decide +kernel) p)

/-- **C41** Together: what `clear_cofactor` returns passes `is_torsion_free`. -/
theorem C41_clear_free :
    (∀ P, Proj.Valid Bn256.g2 P → Bn256.g2TorsionFree (Bn256.g2ClearCofactor P) = true) ∧
    (∀ P, Proj.Valid Pluto.g2 P → Pluto.g2TorsionFree (Pluto.g2ClearCofactor P) = true) ∧
    (∀ P, Proj.Valid Bls12381.g1 P → Bls12381.g1TorsionFree (Fp.zeta blsQ blsQZeta) (Bls12381.g1ClearCofactor P) = true) ∧
    (∀ P, Proj.Valid Bls12381.g2 P → Bls12381.g2TorsionFree (Bls12381.g2ClearCofactor P) = true) := by
  obtain ⟨c0, c1, c2, c3⟩ := C41_clear
  obtain ⟨f0, f1, f2, f3⟩ := C41_free
  exact ⟨fun P ⟨p, hp⟩ => (f0 _ _ (c0.mul P p hp)).mpr (c0.lands p), fun P ⟨p, hp⟩ => (f1 _ _ (c1.mul P p hp)).mpr (c1.lands p),
    fun P ⟨p, hp⟩ => (f2 _ _ (c2.mul P p hp)).mpr (c2.lands p), fun P ⟨p, hp⟩ => (f3 _ _ (c3.mul P p hp)).mpr (c3.lands p)⟩

theorem wit_ne {A : Type} [AddCommGroup A] {w : A} {n r : ℕ} (hw : addOrderOf w = n) (h : ¬ n ∣ r) : r • w ≠ 0 := by
  intro h0
  exact h (by rw [← hw]; exact addOrderOf_dvd_of_nsmul_eq_zero h0)

/-- There are points on the four curves that the tests reject. -/
example : (∃ P p, PRep Bn256.g2 P p ∧ bnR • p ≠ 0 ∧ Bn256.g2TorsionFree P = false) ∧
    (∃ P p, PRep Pluto.g2 P p ∧ plQ • p ≠ 0 ∧ Pluto.g2TorsionFree P = false) ∧
    (∃ P p, PRep Bls12381.g1 P p ∧ blsR • p ≠ 0 ∧ Bls12381.g1TorsionFree (Fp.zeta blsQ blsQZeta) P = false) ∧
    (∃ P p, PRep Bls12381.g2 P p ∧ blsR • p ≠ 0 ∧ Bls12381.g2TorsionFree P = false) := by
  obtain ⟨f0, f1, f2, f3⟩ := C41_free
  have w0 := wit_ne (r := bnR) Bn256.g2Wit_order (by decide +kernel)
  have w1 := wit_ne (r := plQ) Pluto.g2Wit_order (by decide +kernel)
  have w2 := wit_ne (r := blsR) Bls12381.g1Wit_order (by decide +kernel)
  have w3 := wit_ne (r := blsR) Bls12381.g2Wit_order (by decide +kernel)
  refine ⟨⟨_, _, Bn256.g2Wit_rep, w0, ?_⟩, ⟨_, _, Pluto.g2Wit_rep, w1, ?_⟩, ⟨_, _, Bls12381.g1Wit_rep, w2, ?_⟩,
    ⟨_, _, Bls12381.g2Wit_rep, w3, ?_⟩⟩
  · rw [← Bool.not_eq_true, f0 _ _ Bn256.g2Wit_rep]; exact w0
  · rw [← Bool.not_eq_true, f1 _ _ Pluto.g2Wit_rep]; exact w1
  · rw [← Bool.not_eq_true, f2 _ _ Bls12381.g1Wit_rep]; exact w2
  · rw [← Bool.not_eq_true, f3 _ _ Bls12381.g2Wit_rep]; exact w3

/-- **`into_subgroup` is wrong for the four groups with a larger cofactor**: bls12381 returns points outside of the
subgroup, pluto G2 changes points of the subgroup, bn256 G2 panics. -/
theorem C41_into_false :
    ¬ IntoSpec Bls12381.g1 blsR (fun P => some (trivialInto P)) ∧ ¬ IntoSpec Bls12381.g2 blsR (fun P => some (trivialInto P)) ∧
    ¬ IntoSpec Pluto.g2 plQ (fun P => some (Pluto.g2IntoSubgroup P)) ∧ ¬ IntoSpec Bn256.g2 bnR Bn256.g2IntoSubgroup := by
  refine ⟨fun h => ?_, fun h => ?_, fun h => ?_, fun h => ?_⟩
  · have := (h _ _ Bls12381.g1Wit_rep).2 (wit_ne Bls12381.g1Wit_order (by decide +kernel))
    exact absurd (Option.some.inj this) (by simp [trivialInto])
  · have := (h _ _ Bls12381.g2Wit_rep).2 (wit_ne Bls12381.g2Wit_order (by decide +kernel))
    exact absurd (Option.some.inj this) (by simp [trivialInto])
  · have hk : plQ • Pluto.g2Pt = 0 := by rw [← Pluto.g2Pt_order, addOrderOf_nsmul_eq_zero]
    obtain ⟨Q, h1, h2⟩ := (h _ _ Pluto.g2Pt_rep).1 hk
    have e := Option.some.inj (Option.some.inj h1)
    rw [← e] at h2
    have h3 := h2.unique (Pluto.g2Clear_rep Pluto.g2Pt_rep)
    have h4 : 1 • Pluto.g2Pt = Pluto.g2Cof • Pluto.g2Pt := by rw [one_smul]; exact h3
    rw [nsmul_eq_nsmul_iff_modEq, Pluto.g2Pt_order] at h4
    exact absurd h4 (by unfold Nat.ModEq; decide +kernel)
  · have := (h _ _ Bn256.g2Wit_rep).2 (wit_ne Bn256.g2Wit_order (by decide +kernel))
    exact absurd this (by simp [Bn256.g2IntoSubgroup])

/-- **C41** What is left of `into_subgroup`: on bls12381 points of the subgroup are returned unchanged; on pluto G2 the result is always in
the subgroup. Missing: rejection on bls12381, the same point on pluto G2, anything on bn256 G2; see `C41_into_false`. -/
theorem C41_into_partial :
    (∀ P, (trivialInto P : Option (Proj Bls12381.Fq)) = some P) ∧ (∀ P, (trivialInto P : Option (Proj Bls12381.Fq2)) = some P) ∧
    (∀ P, Proj.Valid Pluto.g2 P → ∃ Q, Pluto.g2IntoSubgroup P = some Q ∧ Pluto.g2TorsionFree Q = true) :=
  ⟨fun _ => rfl, fun _ => rfl, fun P hP => ⟨_, rfl, C41_clear_free.2.1 P hP⟩⟩

/-! ## C47 -/

/-- The two points that RFC 9380 maps the message to, for a suite over a quadratic extension: `pt` is the map to the curve. -/
def Rfc2 {p : ℕ} [Fact p.Prime] [Fact (OddModulus p)] [_root_.Field (Quad (Fp p))] [DecidableEq (Quad (Fp p))] [BaseField (Quad (Fp p))]
    {C : Params (Quad (Fp p))} (D : Digest) (L : ℕ) (pt : Quad (Fp p) → Pt C → Prop) (msg dst : List ℕ) (A B : Pt C) : Prop :=
  ∃ n0 n1, hashToField2Rfc D L msg dst = some (n0, n1) ∧ pt ⟨((n0.1 : ℕ) : Fp p), ((n0.2 : ℕ) : Fp p)⟩ A ∧
    pt ⟨((n1.1 : ℕ) : Fp p), ((n1.2 : ℕ) : Fp p)⟩ B

/-- **C47** `hash_to_curve` of bn256 G2: for every message and every admissible domain the result is `k • (A + B)`, with the factor `k` of `C41_clear` and the two
points `A`, `B` of RFC 9380, and it lies in the subgroup of order `r`; longer domains panic. -/
theorem C47_bn256_g2 (D : Digest) (hD : D.Ok) (h32 : D.outputSize = 32) : 
    ∃ s, SvdwRoot Bn256.g2 1 (fun s => SameSign2 (0 : Bn256.Fq2) s) s ∧ ∀ (checks : Bool) (pre domain msg : List ℕ),
    (256 ≤ pre.length + domain.length → (hashToCurve Bn256.g2 D checks Tower2.fromUniform (48 * 2) (svdwSuite Bn256.g2 Bn256.ops2 1)
      pre domain msg).map Bn256.g2ClearCofactor = none) ∧
    (pre.length + domain.length < 256 → ∃ R A B, Rfc2 D 48 (SvdwPt Bn256.g2 1 s SameSign2) msg (pre ++ domain) A B ∧
      (hashToCurve Bn256.g2 D checks Tower2.fromUniform (48 * 2) (svdwSuite Bn256.g2 Bn256.ops2 1) pre domain msg).map
        Bn256.g2ClearCofactor = some R ∧ PRep Bn256.g2 R (bn256G2Factor • (A + B)) ∧
      bnR • bn256G2Factor • (A + B) = 0) := by
  obtain ⟨_, _, _, _, _, s, hs, h⟩ := C35_hash D hD h32
  have c := C41_clear.1
  refine ⟨s, hs, fun checks pre domain msg => ⟨fun hl => ?_, fun hl => ?_⟩⟩
  · rw [(h checks pre domain msg).1 hl]; rfl
  · obtain ⟨n0, n1, R, A, B, hf, h0, h1, e, hR⟩ := (h checks pre domain msg).2 hl
    exact ⟨_, A, B, ⟨n0, n1, hf, h0, h1⟩, by rw [e]; rfl, c.mul _ _ hR, c.lands _⟩

/-- **C47** `hash_to_curve` of bls12381 G2: the factor is `h_eff` of RFC 9380 (section 8.8.2). -/
theorem C47_bls12381_g2 (D : Digest) (hD : D.Ok) (h32 : D.outputSize = 32) (checks : Bool) (pre domain msg : List ℕ) :
    (256 ≤ pre.length + domain.length →
      (hashToCurve Bls12381.g2 D checks Tower2.fromUniform (64 * 2) g2Map pre domain msg).map Bls12381.g2ClearCofactor = none) ∧
    (pre.length + domain.length < 256 → ∃ R A B, Rfc2 D 64 (fun u A => ∃ t s,
        SswuPt Bls12381.g2IsoA Bls12381.g2IsoB Bls12381.g2SswuZ SameSign2 u t s ∧ IsoPt Bls12381.g2 Bls12381.g2Iso t s A)
        msg (pre ++ domain) A B ∧
      (hashToCurve Bls12381.g2 D checks Tower2.fromUniform (64 * 2) g2Map pre domain msg).map Bls12381.g2ClearCofactor = some R ∧
      PRep Bls12381.g2 R
        (0xbc69f08f2ee75b3584c6a0ea91b352888e2a8e9145ad7689986ff031508ffe1329c2f178731db956d82bf015d1212b02ec0ec69d7477c1ae954cbc06689f6a359894c0adebbf6b4e8020005aaa95551 • (A + B)) ∧
      blsR • (0xbc69f08f2ee75b3584c6a0ea91b352888e2a8e9145ad7689986ff031508ffe1329c2f178731db956d82bf015d1212b02ec0ec69d7477c1ae954cbc06689f6a359894c0adebbf6b4e8020005aaa95551 • (A + B)) = 0) := by
  have c := C41_clear.2.2.2
  generalize 0xbc69f08f2ee75b3584c6a0ea91b352888e2a8e9145ad7689986ff031508ffe1329c2f178731db956d82bf015d1212b02ec0ec69d7477c1ae954cbc06689f6a359894c0adebbf6b4e8020005aaa95551 = k at c ⊢
  obtain ⟨_, _, h⟩ := C36_hash D hD h32
  refine ⟨fun hl => ?_, fun hl => ?_⟩
  · rw [(h checks pre domain msg).1 hl]; rfl
  · obtain ⟨n0, n1, R, A, B, hf, h0, h1, e, hR⟩ := (h checks pre domain msg).2 hl
    exact ⟨_, A, B, ⟨n0, n1, hf, h0, h1⟩, by rw [e]; rfl, c.mul _ _ hR, c.lands _⟩

/-- **C47** `hash_to_curve` of bls12381 G1: with `(t₀, s₀)`, `(t₁, s₁)` the points that RFC 9380's map gives on the isogenous curve, the
result is `h_eff • (A + B)` for their images `A`, `B`, a point of the subgroup, as long as neither abscissa is a root of the denominators of
the isogeny. Missing: otherwise the result is not a point but the triple `(0, 0, 0)`; such field elements exist, see `C37_g1_reached`. -/
theorem C47_bls12381_g1_partial (D : Digest) (hD : D.Ok) (h32 : D.outputSize = 32) (checks : Bool) (pre domain msg : List ℕ)
    (hl : pre.length + domain.length < 256) :
    ∃ n0 n1 t₀ s₀ t₁ s₁ R, hashToFieldRfc D 64 msg (pre ++ domain) = some (n0, n1) ∧
      SswuPt Bls12381.g1IsoA Bls12381.g1IsoB Bls12381.g1SswuZ SameSign ((n0 : ℕ) : Bls12381.Fq) t₀ s₀ ∧
      SswuPt Bls12381.g1IsoA Bls12381.g1IsoB Bls12381.g1SswuZ SameSign ((n1 : ℕ) : Bls12381.Fq) t₁ s₁ ∧
      (hashToCurve Bls12381.g1 D checks Fp.fromUniform 64 g1Map pre domain msg).map Bls12381.g1ClearCofactor = some R ∧
      ((∀ r ∈ Bls12381.g1KernelX, t₀ ≠ (r : ℕ) ∧ t₁ ≠ (r : ℕ)) → ∃ A B, IsoPt Bls12381.g1 Bls12381.g1Iso t₀ s₀ A ∧
        IsoPt Bls12381.g1 Bls12381.g1Iso t₁ s₁ B ∧ PRep Bls12381.g1 R (0xd201000000010001 • (A + B)) ∧
        blsR • 0xd201000000010001 • (A + B) = 0) ∧
      ((∃ r ∈ Bls12381.g1KernelX, t₀ = (r : ℕ) ∨ t₁ = (r : ℕ)) → R = ⟨0, 0, 0⟩) := by
  have x1 : xmdEll D (64 * 2) ≤ 255 := by rw [xmdEll, h32]; decide
  have hf := C34_field (p := blsQ) D hD checks 64 (by decide) (by decide +kernel) x1 (by decide) pre domain msg
  obtain ⟨out, e, _, _⟩ := expandMessageXmd_spec D hD msg (pre ++ domain) (2 * 64) (by rwa [Nat.mul_comm]) (by omega)
    (by rwa [List.length_append])
  have hr : ∃ n0 n1, hashToFieldRfc D 64 msg (pre ++ domain) = some (n0, n1) := by
    rw [hashToFieldRfc, e]
    exact ⟨_, _, rfl⟩
  obtain ⟨n0, n1, hr⟩ := hr
  rw [hr] at hf
  obtain ⟨P, t₀, s₀, e1, m0, hA0, hB0⟩ := C37_g1_suite_partial ((n0 : ℕ) : Fp blsQ)
  obtain ⟨Q, t₁, s₁, e2, m1, hA1, hB1⟩ := C37_g1_suite_partial ((n1 : ℕ) : Fp blsQ)
  have er : hashToCurve Bls12381.g1 D checks Fp.fromUniform 64 g1Map pre domain msg = some (Proj.add Bls12381.g1 P Q) := by
    unfold hashToCurve
    rw [hf]
    simp only [Option.map_some, e1, e2]
  have c := C41_clear.2.2.1
  have z : Bls12381.g1ClearCofactor ⟨0, 0, 0⟩ = ⟨0, 0, 0⟩ := (C37_absorb _).1
  refine ⟨n0, n1, t₀, s₀, t₁, s₁, _, hr, m0, m1, by rw [er]; rfl, fun h => ?_, ?_⟩
  · obtain ⟨A, hA, iA⟩ := hA0 fun r hr => (h r hr).1
    obtain ⟨B, hB, iB⟩ := hA1 fun r hr => (h r hr).2
    exact ⟨A, B, iA, iB, c.mul _ _ (hA.add Bls12381.g1_good hB), c.lands _⟩
  · rintro ⟨r, hr, h | h⟩
    · rw [hB0 ⟨r, hr, h⟩, (C37_absorb _).1]
      exact z
    · rw [hB1 ⟨r, hr, h⟩, (C37_absorb _).2]
      exact z

/-! ## C48 -/

/-- Every point that `random` returns, whatever the source of randomness yields, is a point of the curve killed by `r`;
the loop goes on only as long as the abscissas belong to no point. -/
def RandomSpec {F : Type} [_root_.Field F] [DecidableEq F] [BaseField F] [LawfulBase F] (C : Params F) (r : ℕ) (sqrt : F → Option F)
    (clear : Proj F → Proj F) : Prop :=
  ∀ lowBit draws,
    (∀ A, random C sqrt lowBit clear draws = some A → ∃ p : Pt C, ARep C A p ∧ r • p = 0) ∧
    (random C sqrt lowBit clear draws = none → ∀ d ∈ draws, ¬ ∃ y, (Curve.W C).Equation d.1 y)

theorem randomSpec_of {F : Type} [_root_.Field F] [DecidableEq F] [BaseField F] [LawfulBase F] {C : Params F} (hC : Good C) {r k : ℕ}
    {sqrt : F → Option F} {clear : Proj F → Proj F} (hs : ∀ x, x ≠ 0 → (∀ y, sqrt x = some y → y * y = x) ∧ (sqrt x = none → ¬ IsSquare x))
    (hc : ClearSpec C r clear k) : RandomSpec C r sqrt clear := by
  intro lowBit draws
  have y0 : ∀ x, y2 C x ≠ 0 := by
    intro x hx
    rw [Codec.y2_eq] at hx
    refine y_ne_zero hC (x := x) (y := 0) ?_ rfl
    rw [equation_iff, mul_zero, hx]
  let sq' : F → Option F := fun x => if x = 0 then some 0 else sqrt x
  have e : random C sqrt lowBit clear draws = random C sq' lowBit clear draws := by
    induction draws with
    | nil => rfl
    | cons d rest ih =>
      obtain ⟨x, b⟩ := d
      rw [random, random, ih, show sq' (y2 C x) = sqrt (y2 C x) from if_neg (y0 x)]
  rw [e]
  constructor
  · intro A hA
    obtain ⟨p, hp⟩ := random_spec hC (sqrt := sq') (fun x y h => by
      by_cases hx : x = 0
      · rw [show sq' x = some 0 from if_pos hx] at h
        rw [← Option.some.inj h, hx, mul_zero]
      · rw [show sq' x = sqrt x from if_neg hx] at h
        exact (hs x hx).1 y h) lowBit hc.mul draws A hA
    exact ⟨_, hp, hc.lands p⟩
  · intro hn d hd
    rintro ⟨y, hy⟩
    refine random_none (sqrt := sq') (fun x h => ?_) lowBit clear draws hn d hd ⟨y, (equation_iff _ _ _).mp hy⟩
    by_cases hx : x = 0
    · rw [show sq' x = some 0 from if_pos hx] at h
      exact absurd h (by simp)
    · rw [show sq' x = sqrt x from if_neg hx] at h
      exact (hs x hx).2 h

/-- The result of pluto's `Fp2::sqrt`, whose recursion has depth two on the non-zero inputs that `random` passes to it, see
`C19_sqrt_pluto_partial`. -/
def plutoSqrt (x : Pluto.Fp2) : Option Pluto.Fp2 :=
  match Pluto.sqrt2 2 x with
  | .ok r => r
  | _ => none

theorem plutoSqrt_spec (x : Pluto.Fp2) (hx : x ≠ 0) : (∀ y, plutoSqrt x = some y → y * y = x) ∧ (plutoSqrt x = none → ¬ IsSquare x) := by
  obtain ⟨r, h1, h2, h3⟩ := C19_sqrt_pluto_partial 0 x hx
  have e : plutoSqrt x = r := by rw [plutoSqrt, h1]
  rw [e]
  exact ⟨h2, h3.mp⟩

/-- **C48** `random` of the eleven curves. -/
theorem C48_random :
    RandomSpec Bn256.g1 bnR (Fp.sqrt 3) trivialClear ∧ RandomSpec Grumpkin.g1 bnQ (Fp.sqrt 7) trivialClear ∧
    RandomSpec Pluto.g1 plQ (Fp.sqrt 10) trivialClear ∧ RandomSpec Pluto.eris plP (Fp.sqrt 7) trivialClear ∧
    RandomSpec Secp256k1.c k1N (Fp.sqrt 3) trivialClear ∧ RandomSpec Secq256k1.c k1P (Fp.sqrt 7) trivialClear ∧
    RandomSpec Secp256r1.c r1N (Fp.sqrt 6) trivialClear ∧ RandomSpec Bn256.g2 bnR Bn256.sqrt2 Bn256.g2ClearCofactor ∧
    RandomSpec Pluto.g2 plQ plutoSqrt Pluto.g2ClearCofactor ∧ RandomSpec Bls12381.g1 blsR (Fp.sqrt 2) Bls12381.g1ClearCofactor ∧
    RandomSpec Bls12381.g2 blsR Bls12381.sqrt2 Bls12381.g2ClearCofactor := by
  obtain ⟨t0, t1, t2, t3, t4, t5, t6⟩ := C41_prime_order
  obtain ⟨c0, c1, c2, c3⟩ := C41_clear
  exact ⟨randomSpec_of Bn256.g1_good (fun x _ => ⟨bnQ_ok.sqrt_some x, bnQ_ok.sqrt_none x⟩) t0.1,
    randomSpec_of Grumpkin.g1_good (fun x _ => ⟨bnR_ok.sqrt_some x, bnR_ok.sqrt_none x⟩) t1.1,
    randomSpec_of Pluto.g1_good (fun x _ => ⟨plP_ok.sqrt_some x, plP_ok.sqrt_none x⟩) t2.1,
    randomSpec_of Pluto.eris_good (fun x _ => ⟨plQ_ok.sqrt_some x, plQ_ok.sqrt_none x⟩) t3.1,
    randomSpec_of Secp256k1.c_good (fun x _ => ⟨k1P_ok.sqrt_some x, k1P_ok.sqrt_none x⟩) t4.1,
    randomSpec_of Secq256k1.c_good (fun x _ => ⟨k1N_ok.sqrt_some x, k1N_ok.sqrt_none x⟩) t5.1,
    randomSpec_of Secp256r1.c_good (fun x _ => ⟨r1P_ok.sqrt_some x, r1P_ok.sqrt_none x⟩) t6.1,
    randomSpec_of Bn256.g2_good (fun x _ => Bn256.sqrt2_spec x) c0, randomSpec_of Pluto.g2_good plutoSqrt_spec c1,
    randomSpec_of Bls12381.g1_good (fun x _ => ⟨blsQ_ok.sqrt_some x, blsQ_ok.sqrt_none x⟩) c2,
    randomSpec_of Bls12381.g2_good (fun x _ => Bls12381.sqrt2_spec x) c3⟩

/-- A source that yields the abscissa of bn256's generator makes `random` return. -/
example : ∃ A, random Bn256.g1 (Fp.sqrt 3) Fp.isOdd trivialClear [(Bn256.g1Gen.x, true)] = some A := by
  cases h : random Bn256.g1 (Fp.sqrt 3) Fp.isOdd trivialClear [(Bn256.g1Gen.x, true)] with
  | some A => exact ⟨A, rfl⟩
  | none => exact absurd ⟨_, Bn256.g1Gen_equation⟩ ((C48_random.1 Fp.isOdd [(Bn256.g1Gen.x, true)]).2 h _ List.mem_cons_self)

end Halo2.Props
