import Verif.Pairing.ShMiller
import Verif.Pairing.BilinBn
import Verif.Pairing.Bilin

/-!
# The pairing of bn256 is not degenerate
-/

set_option linter.unusedSectionVars false
set_option maxRecDepth 100000

namespace Halo2.Bn256

open Halo2.Field Halo2.Prime Halo2.Ext Halo2.Curve Halo2.Curve.Cofactor Halo2.Ext.Shadow
open Halo2.Pairing

abbrev R6 := (ℕ × ℕ) × (ℕ × ℕ) × (ℕ × ℕ)
abbrev R12 := R6 × R6

noncomputable abbrev sh6 : Sh R6 Fq6 := shCubicOf (F := Fq2) g2Sh xi nonRes_2

noncomputable abbrev sh12 : Sh R12 Fq12 := shQuadOf (F := Fq6) sh6 (g2Sh.zero, g2Sh.one, g2Sh.zero) (by
  apply Halo2.Ext.Cubic.ext
  · exact g2Sh.φ_zero.symm
  · exact g2Sh.φ_one.symm
  · exact g2Sh.φ_zero.symm)

/-- The line at the generator on literals. -/
noncomputable def shLine (c : Coeffs (ℕ × ℕ)) : R12 :=
  ((g2Sh.mul c.a (g1YVal, 0), (0, 0), (0, 0)), (g2Sh.mul c.b (g1XVal, 0), c.c, (0, 0)))

theorem ofBase_nat (n : ℕ) : (Quad.ofBase (n : Fq) : Fq2) = g2Sh.φ (n, 0) := by
  ext
  · rfl
  · exact Nat.cast_zero.symm

theorem shLine_eq (c : Coeffs (ℕ × ℕ)) : sh12.φ (shLine c) = lineAt (shCoeffs g2Sh c) g1Gen := by
  have h0 : g2Sh.φ (0, 0) = 0 := g2Sh.φ_zero
  rw [lineAt, scaleBy_eq, scaleBy_eq, g1XVal_eq, g1YVal_eq, ofBase_nat, ofBase_nat, shCoeffs]
  simp only [← g2Sh.φ_mul]
  rw [← h0]
  rfl

noncomputable def genQ : Aff (ℕ × ℕ) := ⟨g2XVal, g2YVal⟩
noncomputable def genNQ : Aff (ℕ × ℕ) := ⟨g2XVal, g2Sh.sub g2Sh.zero g2YVal⟩
noncomputable def genQ1 : Aff (ℕ × ℕ) :=
  ⟨g2Sh.mul (conj bnQ g2XVal) psiUVal, g2Sh.mul (conj bnQ g2YVal) psiVVal⟩
noncomputable def genQ2 : Aff (ℕ × ℕ) := ⟨g2Sh.mul g2XVal ((shadow frob6C1Raw).getD 2 (0, 0)), g2YVal⟩

theorem aff_ext {F : Type} {A B : Aff F} (hx : A.x = B.x) (hy : A.y = B.y) : A = B := by
  cases A
  cases B
  simp only at hx hy
  rw [hx, hy]

theorem genQ_eq : g2Gen = shAff g2Sh genQ := aff_ext g2XVal_eq g2YVal_eq

theorem genNQ_eq : g2Gen.neg = shAff g2Sh genNQ := by
  refine aff_ext g2XVal_eq ?_
  change -g2Gen.y = g2Sh.φ (g2Sh.sub g2Sh.zero g2YVal)
  rw [g2Sh.φ_sub, g2Sh.φ_zero, zero_sub, g2YVal_eq]
  rfl

theorem genQ1_eq : q1 g2Gen = shAff g2Sh genQ1 := by
  refine aff_ext ?_ ?_
  · change Quad.conjugate g2Gen.x * frob6C1.getD 1 0 = g2Sh.φ (g2Sh.mul _ _)
    rw [g2Sh.φ_mul, frob6C1_eq, getD_map _ _ (by decide +kernel), g2XVal_eq, ← cast_conj]
    congr 1
    change g2Sh.φ _ = g2Sh.φ _
    rw [← g2Sh.eq_iff]
    decide +kernel
  · change Quad.conjugate g2Gen.y * xiHalf = g2Sh.φ (g2Sh.mul _ _)
    rw [g2Sh.φ_mul, xiHalf, montPair_eq _ (by decide +kernel) _ bnQRinv_spec, g2YVal_eq, ← cast_conj]
    congr 1
    change g2Sh.φ _ = g2Sh.φ _
    rw [← g2Sh.eq_iff]
    decide +kernel

theorem genQ2_eq : minusq2 g2Gen = shAff g2Sh genQ2 := by
  refine aff_ext ?_ g2YVal_eq
  change g2Gen.x * frob6C1.getD 2 0 = g2Sh.φ (g2Sh.mul _ _)
  rw [g2Sh.φ_mul, frob6C1_eq, getD_map _ _ (by decide +kernel), g2XVal_eq]
  rfl

/-- The value of the loop at the generators, on literals. -/
noncomputable def genVal : R12 := shNaf g2Sh sh12 shLine sixUPlus2Naf genQ genNQ genQ1 genQ2

theorem g1Gen_rep : ARep g1 g1Gen g1Pt := ⟨rfl, rfl⟩

theorem g2Gen_rep : ARep g2 g2Gen g2Pt := ⟨rfl, rfl⟩

theorem g1Pt_ne : g1Pt ≠ 0 := fun h => by cases h

theorem g2Pt_ne : g2Pt ≠ 0 := fun h => by cases h

theorem gen_live : g2Gen.toCurve = ⟨g2Gen.x, g2Gen.y, 1⟩ := by
  rw [Aff.toCurve, if_neg]
  rw [g2Gen_rep.isIdentity g2_good]
  exact g2Pt_ne

theorem genVal_eq : nafOne lineAt sixUPlus2Naf q1 minusq2 (g1Gen, g2Gen) = sh12.φ genVal :=
  shNaf_eq LawfulExt.sqr_eq shLine_eq genQ_eq genNQ_eq gen_live _ genQ1_eq genQ2_eq

/-- The part of the final exponent after the power of Frobenius. -/
@[irreducible] def ateE : ℕ := (bnQ ^ 2 + 1) * ((bnQ ^ 4 - bnQ ^ 2 + 1) / bnR)

theorem genCheck : sh6.eq (sh12.pow genVal ateE).2 sh6.zero = false := by decide +kernel

theorem g1Pt_r : bnR • g1Pt = 0 := by rw [← g1Pt_order]; exact addOrderOf_nsmul_eq_zero _

theorem g2Pt_r : bnR • g2Pt = 0 := by rw [← g2Pt_order]; exact addOrderOf_nsmul_eq_zero _

theorem two_ne_6 (x : Fq6) (h : -x = x) : x = 0 := by
  have h0 : (2 : Fq6) * x = 0 := by rw [two_mul]; nth_rw 1 [← h]; exact neg_add_cancel x
  rcases mul_eq_zero.mp h0 with h1 | h1
  · exact absurd (congrArg Halo2.Ext.Cubic.c0 h1) two_ne
  · exact h1

/-- The value at the generators is not one. -/
theorem gen_ne : e g1Pt g2Pt ≠ 1 := by
  intro h
  have h1 := one_eq (t := (g1Gen, g2Gen)) g1Gen_rep g2Gen_rep g1Pt_r g2Pt_r
  have hl : isLive (g1Gen, g2Gen) = true := (isLive_iff g1_good g2_good g1Gen_rep g2Gen_rep).mpr ⟨g1Pt_ne, g2Pt_ne⟩
  rw [if_pos hl, genVal_eq] at h1
  change _ = ((e g1Pt g2Pt : Fq12ˣ) : Fq12) at h1
  rw [h, Units.val_one, show ateN = ateE * (bnQ ^ 6 - 1) by decide +kernel, pow_mul, ← Sh.pow_spec] at h1
  have hc := genCheck
  generalize sh12.pow genVal ateE = z at h1 hc
  have h2 : sh12.φ z ^ bnQ ^ 6 = sh12.φ z := by
    have e6 : bnQ ^ 6 = (bnQ ^ 6 - 1) + 1 := by decide +kernel
    rw [e6, pow_succ, h1, one_mul]
  rw [← conj_12] at h2
  have h3 : -(sh12.φ z).c1 = (sh12.φ z).c1 := congrArg Quad.c1 h2
  have h4 := two_ne_6 _ h3
  have h5 : sh6.eq z.2 sh6.zero = true := by
    rw [sh6.eq_iff, sh6.φ_zero]
    exact h4
  rw [h5] at hc
  exact absurd hc (by decide)

theorem bilin : BilinOn bnR e where
  add_left _ _ _ hP hP' hQ := e_add_left hP hP' hQ
  add_right _ _ _ _ hQ hQ' := e_add_right hQ hQ'

theorem nondeg {P : Pt g1} {Q : Pt g2} (hP : bnR • P = 0) (hQ : bnR • Q = 0) : e P Q = 1 ↔ P = 0 ∨ Q = 0 := by
  refine bilin.nondeg bnR_prime g1Pt_r g2Pt_r (fun P hP => ?_) (fun Q hQ => ?_) gen_ne hP hQ
  · rw [torsion_iff bnR_prime (by rw [g1_order.1]; decide +kernel) g1Pt_order] at hP
    obtain ⟨k, -, hk⟩ := mem_zmultiples_lt bnR_prime.pos g1Pt_order hP
    exact ⟨k, hk⟩
  · rw [torsion_iff bnR_prime (by rw [g2_order.1]; decide +kernel) g2Pt_order] at hQ
    obtain ⟨k, -, hk⟩ := mem_zmultiples_lt bnR_prime.pos g2Pt_order hQ
    exact ⟨k, hk⟩

end Halo2.Bn256
