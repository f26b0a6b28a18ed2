import Verif.Pairing.OutsideBls
import Verif.Pairing.OutsidePluto
import Verif.Props.PairingTotal
import Verif.Props.Bilinear
import Verif.Props.PairingWide

/-!
# C85: the second argument of a pairing must be in the subgroup
-/

set_option linter.unusedSectionVars false
set_option maxRecDepth 100000

namespace Halo2.Props

open Halo2 Halo2.Ext Halo2.Field Halo2.Prime Halo2.Curve Halo2.Pairing

section
variable {L F K : Type} [_root_.Field L] [DecidableEq L] [BaseField L] [LawfulBase L]
  [_root_.Field F] [DecidableEq F] [BaseField F] [LawfulBase F] [CommMonoid K]

/-- A point `q` that every decoder accepts and a point `p` of the group of order `r` with which the pairing has values that are additive
neither in the first argument (`p + p`) nor in the second (`q + q`). -/
def NotBilinear (C1 : Params L) (C2 : Params F) (K2 : Codec F) (r : ℕ) (pairing : Aff L → Aff F → Option K) : Prop :=
  ∃ p q z z1 z2, InGroup C1 r p ∧ (∀ d : Decoder, ∃ b, d.Accepts K2 C2 b q) ∧ pairing p q = some z ∧
    pairing (Aff.add C1 p p).toAffine q = some z1 ∧ z1 ≠ z * z ∧
    pairing p (Aff.add C2 q q).toAffine = some z2 ∧ z2 ≠ z * z

/-- The claim for decoded points of which the second pass the subgroup test `free`: values for all, additive in both arguments. -/
def TestedBilinear (C1 : Params L) (C2 : Params F) (K1 : Codec L) (K2 : Codec F) (free : Proj F → Bool)
    (pairing : Aff L → Aff F → Option K) : Prop :=
  ∀ (d : Decoder) b p b' p' c q c' q', d.Accepts K1 C1 b p → d.Accepts K1 C1 b' p' → d.Accepts K2 C2 c q → d.Accepts K2 C2 c' q' →
    free q.toCurve = true → free q'.toCurve = true →
    ∃ z z' w, pairing p q = some z ∧ pairing p' q = some z' ∧ pairing p q' = some w ∧
      pairing (Aff.add C1 p p').toAffine q = some (z * z') ∧ pairing p (Aff.add C2 q q').toAffine = some (z * w)

theorem testedBilinear_of {C1 : Params L} {C2 : Params F} {K1 : Codec L} {K2 : Codec F} {r : ℕ} {free : Proj F → Bool}
    {pairing : Aff L → Aff F → Option K} {Ok : Aff L → Prop} (h1 : ∀ (d : Decoder) b p, d.Accepts K1 C1 b p → Ok p)
    (h2 : DecodesTested K2 C2 r free)
    (total : ∀ p q, Ok p → InGroup C2 r q → ∃ z, pairing p q = some z ∧ z ^ r = 1)
    (left : ∀ p p' q z z', Ok p → Ok p' → InGroup C2 r q → pairing p q = some z → pairing p' q = some z' →
      pairing (Aff.add C1 p p').toAffine q = some (z * z'))
    (right : ∀ p q q' z z', Ok p → InGroup C2 r q → InGroup C2 r q' → pairing p q = some z → pairing p q' = some z' →
      pairing p (Aff.add C2 q q').toAffine = some (z * z')) : TestedBilinear C1 C2 K1 K2 free pairing := by
  intro d b p b' p' c q c' q' hp hp' hq hq' hf hf'
  have gq : InGroup C2 r q := by
    obtain ⟨Q, h, hi⟩ := h2 d c q hq
    exact ⟨Q, h, hi.mp hf⟩
  have gq' : InGroup C2 r q' := by
    obtain ⟨Q, h, hi⟩ := h2 d c' q' hq'
    exact ⟨Q, h, hi.mp hf'⟩
  obtain ⟨z, hz, -⟩ := total p q (h1 d b p hp) gq
  obtain ⟨z', hz', -⟩ := total p' q (h1 d b' p' hp') gq
  obtain ⟨w, hw, -⟩ := total p q' (h1 d b p hp) gq'
  exact ⟨z, z', w, hz, hz', hw, left p p' q z z' (h1 d b p hp) (h1 d b' p' hp') gq hz hz', right p q q' z w (h1 d b p hp) gq gq' hz hw⟩

theorem dbl_toAffine {C : Params F} (hC : Good C) {A B : Aff F} {p : Pt C} (hA : ARep C A p) (hB : ARep C B (p + p)) :
    (Aff.add C A A).toAffine = B := ((hA.add hC hA).toAffine.ext_iff hC hB).mpr rfl

theorem two_torsion {A : Type} [AddGroup A] {P : A} {n l : ℕ} (h : addOrderOf P = n) (h2 : ¬ n ∣ l) : l • P ≠ 0 := by
  rw [Ne, ← addOrderOf_dvd_iff_nsmul_eq_zero, h]
  exact h2

end

theorem bn256_outside : NotBilinear Bn256.g1 Bn256.g2 Bn256.g2Codec bnR Bn256.pairing := by
  have hp : ARep Bn256.g1 ⟨(Bn256.g1XVal : Bn256.Fq), (Bn256.g1YVal : Bn256.Fq)⟩ Bn256.g1Pt := by
    rw [← Bn256.g1XVal_eq, ← Bn256.g1YVal_eq]; exact Bn256.g1Gen_rep
  have hq : ARep Bn256.g2 ⟨Bn256.g2Sh.φ Bn256.g2WitX, Bn256.g2Sh.φ Bn256.g2WitY⟩ Bn256.g2Wit := ⟨rfl, rfl⟩
  have hQ : Bn256.g2Wit ≠ 0 := fun h => by cases h
  have hA := (Aff.valid_iff Bn256.g2_good _).mp ⟨_, hq⟩
  refine ⟨_, _, _, _, _, ⟨_, hp, Bn256.g1Pt_r⟩, fun d => accepts_all Bn256.g2Codec_lawful hA (C26_others_partial.2.2.1 _ hA ?_) d,
    Bn256.out_pairing hp hq Bn256.g1Pt_ne hQ, ?_, Bn256.out_ne Bn256.outLeft, ?_, Bn256.out_ne Bn256.outRight⟩
  · change ((Bn256.g2WitY.1 : ℕ) : Fp bnQ) ≠ 0
    rw [← Nat.cast_zero, Ne, Fp.natCast_eq_iff]
    decide +kernel
  · rw [dbl_toAffine Bn256.g1_good hp Bn256.g1Dbl_rep.1]
    exact Bn256.out_pairing Bn256.g1Dbl_rep.1 hq Bn256.g1Dbl_rep.2 hQ
  · rw [dbl_toAffine Bn256.g2_good hq Bn256.g2Dbl_rep.1]
    exact Bn256.out_pairing hp Bn256.g2Dbl_rep.1 Bn256.g1Pt_ne Bn256.g2Dbl_rep.2

theorem bls12381_outside : NotBilinear Bls12381.g1 Bls12381.g2 Bls12381.g2Codec blsR Bls12381.pairing := by
  have hp : ARep Bls12381.g1 ⟨(Bls12381.g1XVal : Bls12381.Fq), (Bls12381.g1YVal : Bls12381.Fq)⟩ Bls12381.g1Pt := by
    rw [← Bls12381.g1XVal_eq, ← Bls12381.g1YVal_eq]; exact Bls12381.g1Gen_rep
  have hq : ARep Bls12381.g2 ⟨Bls12381.g2Sh.φ Bls12381.g2WitX, Bls12381.g2Sh.φ Bls12381.g2WitY⟩ Bls12381.g2Wit := ⟨rfl, rfl⟩
  have hQ : Bls12381.g2Wit ≠ 0 := fun h => by cases h
  have h13 : 13 • Bls12381.g2Wit ≠ 0 := two_torsion Bls12381.g2Wit_order (by decide +kernel)
  have h13' : 13 • (Bls12381.g2Wit + Bls12381.g2Wit) ≠ 0 := by
    rw [← two_nsmul, ← mul_nsmul]; exact two_torsion Bls12381.g2Wit_order (by decide +kernel)
  have hA := (Aff.valid_iff Bls12381.g2_good _).mp ⟨_, hq⟩
  refine ⟨_, _, _, _, _, ⟨_, hp, Bls12381.g1Pt_r⟩, fun d => accepts_all Bls12381.g2Codec_lawful hA
    (C26_others_partial.2.2.2.2.1 _ hA ?_ ?_) d,
    Bls12381.out_pairing hp hq Bls12381.g1Pt_ne hQ h13, ?_, Bls12381.out_ne Bls12381.outLeft, ?_, Bls12381.out_ne Bls12381.outRight⟩
  · change 2 * ((Bls12381.g2WitY.2 : ℕ) : Fp blsQ) * (2 * ((Bls12381.g2WitY.2 : ℕ) : Fp blsQ)) ≠ 1
    have e : 2 * ((Bls12381.g2WitY.2 : ℕ) : Fp blsQ) * (2 * ((Bls12381.g2WitY.2 : ℕ) : Fp blsQ)) =
        ((2 * Bls12381.g2WitY.2 * (2 * Bls12381.g2WitY.2) : ℕ) : Fp blsQ) := by push_cast; ring
    rw [e]
    intro h
    have := (Fp.natCast_eq_iff _ _).mp (h.trans Nat.cast_one.symm)
    revert this
    decide +kernel
  · intro h
    have h' : ((Bls12381.g2WitY.2 : ℕ) : Fp blsQ) = 0 := h
    have := (Fp.natCast_eq_iff _ _).mp (h'.trans Nat.cast_zero.symm)
    revert this
    decide +kernel
  · rw [dbl_toAffine Bls12381.g1_good hp Bls12381.g1Dbl_rep.1]
    exact Bls12381.out_pairing Bls12381.g1Dbl_rep.1 hq Bls12381.g1Dbl_rep.2 hQ h13
  · rw [dbl_toAffine Bls12381.g2_good hq Bls12381.g2Dbl_rep.1]
    exact Bls12381.out_pairing hp Bls12381.g2Dbl_rep.1 Bls12381.g1Pt_ne Bls12381.g2Dbl_rep.2 h13'

theorem pluto_outside : NotBilinear Pluto.g1 Pluto.g2 Pluto.g2Codec plQ Pluto.pairing := by
  have hp : ARep Pluto.g1 ⟨(Pluto.g1XVal : Pluto.Fp1), (Pluto.g1YVal : Pluto.Fp1)⟩ Pluto.g1Pt := by
    rw [← Pluto.g1XVal_eq, ← Pluto.g1YVal_eq]; exact Pluto.g1Gen_rep
  have hq : ARep Pluto.g2 ⟨Pluto.g2Sh.φ Pluto.g2WitX, Pluto.g2Sh.φ Pluto.g2WitY⟩ Pluto.g2Wit := ⟨rfl, rfl⟩
  have hQ : Pluto.g2Wit ≠ 0 := fun h => by cases h
  have h13 : 13 • Pluto.g2Wit ≠ 0 := two_torsion Pluto.g2Wit_order (by decide +kernel)
  have h73 : 73 • Pluto.g2Wit ≠ 0 := two_torsion Pluto.g2Wit_order (by decide +kernel)
  have h13' : 13 • (Pluto.g2Wit + Pluto.g2Wit) ≠ 0 := by
    rw [← two_nsmul, ← mul_nsmul]; exact two_torsion Pluto.g2Wit_order (by decide +kernel)
  have h73' : 73 • (Pluto.g2Wit + Pluto.g2Wit) ≠ 0 := by
    rw [← two_nsmul, ← mul_nsmul]; exact two_torsion Pluto.g2Wit_order (by decide +kernel)
  have hA := (Aff.valid_iff Pluto.g2_good _).mp ⟨_, hq⟩
  refine ⟨_, _, _, _, _, ⟨_, hp, Pluto.g1Pt_r⟩, fun d => accepts_all Pluto.g2Codec_lawful hA (C26_others_partial.2.2.2.1 _ hA ?_) d,
    Pluto.out_pairing hp hq Pluto.g1Pt_ne hQ h13 h73, ?_, Pluto.out_ne Pluto.outLeft, ?_, Pluto.out_ne Pluto.outRight⟩
  · change ((Pluto.g2WitY.1 : ℕ) : Fp plP) ≠ 0
    rw [← Nat.cast_zero, Ne, Fp.natCast_eq_iff]
    decide +kernel
  · rw [dbl_toAffine Pluto.g1_good hp Pluto.g1Dbl_rep.1]
    exact Pluto.out_pairing Pluto.g1Dbl_rep.1 hq Pluto.g1Dbl_rep.2 hQ h13 h73
  · rw [dbl_toAffine Pluto.g2_good hq Pluto.g2Dbl_rep.1]
    exact Pluto.out_pairing hp Pluto.g2Dbl_rep.1 Pluto.g1Pt_ne Pluto.g2Dbl_rep.2 h13' h73'

/-- **C85** The claim is false on all three engines: there are points accepted by every decoder of the second group on which the pairing
is additive in neither argument. -/
theorem C85_false : NotBilinear Bn256.g1 Bn256.g2 Bn256.g2Codec bnR Bn256.pairing ∧
    NotBilinear Bls12381.g1 Bls12381.g2 Bls12381.g2Codec blsR Bls12381.pairing ∧
    NotBilinear Pluto.g1 Pluto.g2 Pluto.g2Codec plQ Pluto.pairing := ⟨bn256_outside, bls12381_outside, pluto_outside⟩

/-- **C85** (partial: without the test the claim is false, `C85_false`) If the second points pass `is_torsion_free`, the pairing of decoded
points returns a value and is additive in both arguments. -/
theorem C85_tested_partial :
    TestedBilinear Bn256.g1 Bn256.g2 Bn256.g1Codec Bn256.g2Codec Bn256.g2TorsionFree Bn256.pairing ∧
    TestedBilinear Bls12381.g1 Bls12381.g2 Bls12381.g1Codec Bls12381.g2Codec Bls12381.g2TorsionFree Bls12381.pairing ∧
    TestedBilinear Pluto.g1 Pluto.g2 Pluto.g1Codec Pluto.g2Codec Pluto.g2TorsionFree Pluto.pairing := by
  obtain ⟨t0, t1, -, t3⟩ := C59_tested_partial
  refine ⟨testedBilinear_of (r := bnR) (Ok := InGroup Bn256.g1 bnR) C59_prime_order.1 t0 C49_bn256.total C49_bn256.add_left
      C49_bn256.add_right,
    testedBilinear_of (r := blsR) (Ok := fun p => Aff.isOnCurve Bls12381.g1 p = true) (fun d b p h => ?_) t3 C81_bls12381.total
      C81_bls12381.add_left C81_bls12381.add_right,
    testedBilinear_of (r := plQ) (Ok := InGroup Pluto.g1 plQ) C59_prime_order.2.2.1 t1 C49_pluto.total C49_pluto.add_left
      C49_pluto.add_right⟩
  obtain ⟨P, hP⟩ := d.onCurve Bls12381.g1Codec_lawful Bls12381.g1_good h
  exact (Aff.valid_iff Bls12381.g1_good p).mp ⟨P, hP⟩

/-- The generators are accepted by the decoders, and the generator of the second group passes the test. -/
example : (∃ b, Decoder.uncompressed.Accepts Bls12381.g1Codec Bls12381.g1 b Bls12381.g1Gen) ∧
    (∃ b, Decoder.uncompressed.Accepts Bls12381.g2Codec Bls12381.g2 b Bls12381.g2Gen) ∧
    Bls12381.g2TorsionFree Bls12381.g2Gen.toCurve = true := by
  have h1 := (Aff.valid_iff Bls12381.g1_good _).mp ⟨_, Bls12381.g1Gen_rep⟩
  have h2 := (Aff.valid_iff Bls12381.g2_good _).mp ⟨_, Bls12381.g2Gen_rep⟩
  refine ⟨?_, ?_, (C41_free.2.2.2 _ _ (Bls12381.g2Gen_rep.toCurve Bls12381.g2_good)).mpr Bls12381.g2Pt_r⟩
  · obtain ⟨-, k2, k3, k4⟩ := C28_uncompressed (C := Bls12381.g1) Bls12381.g1Codec_lawful Bls12381.g1Gen
    exact ⟨_, k2, k3, k4 h1⟩
  · obtain ⟨-, k2, k3, k4⟩ := C28_uncompressed (C := Bls12381.g2) Bls12381.g2Codec_lawful Bls12381.g2Gen
    exact ⟨_, k2, k3, k4 h2⟩

end Halo2.Props
