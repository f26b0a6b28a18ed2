import Verif.Pairing.ShMiller
import Verif.Pairing.BilinBls
import Verif.Pairing.Bilin

/-!
# The pairing of bls12381 is not degenerate
-/

set_option linter.unusedSectionVars false
set_option maxRecDepth 100000

namespace Halo2.Bls12381

open Halo2.Field Halo2.Prime Halo2.Ext Halo2.Curve Halo2.Curve.Cofactor Halo2.Ext.Shadow
open Halo2.Pairing

abbrev R6 := (ℕ × ℕ) × (ℕ × ℕ) × (ℕ × ℕ)
abbrev R12 := R6 × R6

noncomputable abbrev sh6 : Sh R6 Fq6 := shCubicOf (F := Fq2) g2Sh xi nonRes_2

noncomputable abbrev sh12 : Sh R12 Fq12 := shQuadOf (F := Fq6) sh6 (g2Sh.zero, g2Sh.one, g2Sh.zero) (by
  apply Halo2.Ext.Cubic.ext
  · exact g2Sh.φ_zero.symm
  · exact g2Sh.φ_one.symm
  · exact g2Sh.φ_zero.symm)

/-- The line at the generator on literals. -/
noncomputable def shLine (c : Coeffs (ℕ × ℕ)) : R12 :=
  ((c.c, g2Sh.mul c.b (g1XVal, 0), (0, 0)), ((0, 0), g2Sh.mul c.a (g1YVal, 0), (0, 0)))

theorem ofBase_nat (n : ℕ) : (Quad.ofBase (n : Fq) : Fq2) = g2Sh.φ (n, 0) := by
  ext
  · rfl
  · exact Nat.cast_zero.symm

theorem shLine_eq (c : Coeffs (ℕ × ℕ)) : sh12.φ (shLine c) = lineAt (shCoeffs g2Sh c) g1Gen := by
  have h0 : g2Sh.φ (0, 0) = 0 := g2Sh.φ_zero
  rw [lineAt, scaleBy_eq, scaleBy_eq, g1XVal_eq, g1YVal_eq, ofBase_nat, ofBase_nat, shCoeffs]
  simp only [← g2Sh.φ_mul]
  rw [← h0]
  rfl

noncomputable def genQ : Aff (ℕ × ℕ) := ⟨g2XVal, g2YVal⟩
noncomputable def genNQ : Aff (ℕ × ℕ) := ⟨g2XVal, g2Sh.sub g2Sh.zero g2YVal⟩
theorem aff_ext {F : Type} {A B : Aff F} (hx : A.x = B.x) (hy : A.y = B.y) : A = B := by
  cases A
  cases B
  simp only at hx hy
  rw [hx, hy]

theorem genQ_eq : g2Gen = shAff g2Sh genQ := aff_ext g2XVal_eq g2YVal_eq

theorem genNQ_eq : g2Gen.neg = shAff g2Sh genNQ := by
  refine aff_ext g2XVal_eq ?_
  change -g2Gen.y = g2Sh.φ (g2Sh.sub g2Sh.zero g2YVal)
  rw [g2Sh.φ_sub, g2Sh.φ_zero, zero_sub, g2YVal_eq]
  rfl

/-- The digits of the loop. -/
def blsDigits : List ℤ := ((blsX.map fun b => b == 1).drop 1).map fun b => if b then 1 else 0

/-- The value of the loop at the generators, on literals. -/
noncomputable def genVal : R12 := (shLoop g2Sh sh12 shLine genQ genNQ blsDigits).1

theorem g1Gen_rep : ARep g1 g1Gen g1Pt := ⟨rfl, rfl⟩

theorem g2Gen_rep : ARep g2 g2Gen g2Pt := ⟨rfl, rfl⟩

theorem g1Pt_ne : g1Pt ≠ 0 := fun h => by cases h

theorem g2Pt_ne : g2Pt ≠ 0 := fun h => by cases h

theorem gen_live : g2Gen.toCurve = ⟨g2Gen.x, g2Gen.y, 1⟩ := by
  rw [Aff.toCurve, if_neg]
  rw [g2Gen_rep.isIdentity g2_good]
  exact g2Pt_ne

theorem genVal_eq : bitOne lineAt blsX (g1Gen, g2Gen) = sh12.φ genVal :=
  shBit_eq LawfulExt.sqr_eq shLine_eq genQ_eq genNQ_eq gen_live _

/-- The part of the final exponent after the power of Frobenius. -/
@[irreducible] def ateE : ℕ := (blsQ ^ 2 + 1) * ((blsQ ^ 4 - blsQ ^ 2 + 1) / blsR)

theorem genCheck : sh6.eq (sh12.pow genVal ateE).2 sh6.zero = false := by decide +kernel

theorem g1Pt_r : blsR • g1Pt = 0 := by rw [← g1Pt_order]; exact addOrderOf_nsmul_eq_zero _

theorem g2Pt_r : blsR • g2Pt = 0 := by rw [← g2Pt_order]; exact addOrderOf_nsmul_eq_zero _

theorem two_ne_6 (x : Fq6) (h : -x = x) : x = 0 := by
  have h0 : (2 : Fq6) * x = 0 := by rw [two_mul]; nth_rw 1 [← h]; exact neg_add_cancel x
  rcases mul_eq_zero.mp h0 with h1 | h1
  · exact absurd (congrArg Halo2.Ext.Cubic.c0 h1) two_ne
  · exact h1

/-- The value at the generators before the last power is not one. -/
theorem gen_ne' : ateAt setting twist ateCs g1Pt g2Pt ≠ 1 := by
  intro h
  have h1 := one_eq (t := (g1Gen, g2Gen)) g1Gen_rep g2Gen_rep g2Pt_r
  have hl : isLive (g1Gen, g2Gen) = true := (isLive_iff g1_good g2_good g1Gen_rep g2Gen_rep).mpr ⟨g1Pt_ne, g2Pt_ne⟩
  rw [if_pos hl, genVal_eq] at h1
  have h' : ((ateAt setting twist ateCs g1Pt g2Pt : Fq12ˣ) : Fq12) = ((1 : Fq12ˣ) : Fq12) := congrArg Units.val h
  have h1 := h1.trans h'
  rw [Units.val_one, show ateN = ateE * (blsQ ^ 6 - 1) by decide +kernel, pow_mul, ← Sh.pow_spec] at h1
  have hc := genCheck
  generalize sh12.pow genVal ateE = z at h1 hc
  have h2 : sh12.φ z ^ blsQ ^ 6 = sh12.φ z := by
    have e6 : blsQ ^ 6 = (blsQ ^ 6 - 1) + 1 := by decide +kernel
    rw [e6, pow_succ, h1, one_mul]
  rw [← conj_12] at h2
  have h3 : -(sh12.φ z).c1 = (sh12.φ z).c1 := congrArg Quad.c1 h2
  have h4 := two_ne_6 _ h3
  have h5 : sh6.eq z.2 sh6.zero = true := by
    rw [sh6.eq_iff, sh6.φ_zero]
    exact h4
  rw [h5] at hc
  exact absurd hc (by decide)

theorem ate_pow : ateAt setting twist ateCs g1Pt g2Pt ^ blsR = 1 := by
  have h1 := ateAt_nsmul_left setting twist horner_p g1Pt g1Pt_r (psi_torsion g2Pt_r) blsR
  have h2 : ateAt setting twist ateCs (blsR • g1Pt) g2Pt = ateAt setting twist ateCs 0 g2Pt :=
    congrArg (fun x => ateAt setting twist ateCs x g2Pt) g1Pt_r
  exact h1.symm.trans (h2.trans (ateAt_zero setting twist ateCs g2Pt))

/-- The value at the generators is not one. -/
theorem gen_ne : e g1Pt g2Pt ≠ 1 := by
  intro h
  have ho := orderOf_eq_prime_iff (hp := ⟨blsR_prime⟩) |>.mpr ⟨ate_pow, gen_ne'⟩
  have hd := orderOf_dvd_of_pow_eq_one h
  rw [ho] at hd
  exact absurd hd (by decide +kernel)

theorem bilin : BilinOn blsR e where
  add_left _ _ _ hP hP' hQ := e_add_left hP hP' hQ
  add_right _ _ _ _ hQ hQ' := e_add_right hQ hQ'

theorem nondeg {P : Pt g1} {Q : Pt g2} (hP : blsR • P = 0) (hQ : blsR • Q = 0) : e P Q = 1 ↔ P = 0 ∨ Q = 0 := by
  refine bilin.nondeg blsR_prime g1Pt_r g2Pt_r (fun P hP => ?_) (fun Q hQ => ?_) gen_ne hP hQ
  · rw [torsion_iff blsR_prime (by rw [g1_order.1]; decide +kernel) g1Pt_order] at hP
    obtain ⟨k, -, hk⟩ := mem_zmultiples_lt blsR_prime.pos g1Pt_order hP
    exact ⟨k, hk⟩
  · rw [torsion_iff blsR_prime (by rw [g2_order.1]; decide +kernel) g2Pt_order] at hQ
    obtain ⟨k, -, hk⟩ := mem_zmultiples_lt blsR_prime.pos g2Pt_order hQ
    exact ⟨k, hk⟩

end Halo2.Bls12381
