import Verif.Pairing.NondegBls
import Verif.Pairing.Outside

/-!
# The pairing of bls12381 at a second point outside the subgroup
-/

set_option linter.unusedSectionVars false
set_option maxRecDepth 100000

namespace Halo2.Bls12381

open Halo2.Field Halo2.Prime Halo2.Ext Halo2.Curve Halo2.Curve.Cofactor Halo2.Ext.Shadow
open Halo2.Pairing

/-- The conjugate on literals. -/
noncomputable def shConj (z : R12) : R12 := (z.1, sh6.sub sh6.zero z.2)

theorem shConj_eq (z : R12) : sh12.φ (shConj z) = Quad.conjugate (sh12.φ z) := by
  ext1
  · rfl
  · change sh6.φ (sh6.sub sh6.zero z.2) = -sh6.φ z.2
    rw [sh6.φ_sub, sh6.φ_zero, zero_sub]

theorem conj_conj (z : Fq12) : Quad.conjugate (Quad.conjugate z) = z := by
  ext1
  · rfl
  · exact neg_neg z.c1

/-- The line at a point with the coordinates `px`, `py`, on literals. -/
noncomputable def outLine (px py : ℕ) (c : Coeffs (ℕ × ℕ)) : R12 :=
  ((c.c, g2Sh.mul c.b (px, 0), (0, 0)), ((0, 0), g2Sh.mul c.a (py, 0), (0, 0)))

theorem outLine_eq (px py : ℕ) (c : Coeffs (ℕ × ℕ)) :
    sh12.φ (outLine px py c) = lineAt (shCoeffs g2Sh c) ⟨(px : Fq), (py : Fq)⟩ := by
  have h0 : g2Sh.φ (0, 0) = 0 := g2Sh.φ_zero
  rw [lineAt, scaleBy_eq, scaleBy_eq, ofBase_nat, ofBase_nat, shCoeffs]
  simp only [← g2Sh.φ_mul]
  rw [← h0]
  rfl

/-- The value of the loop on literals. -/
noncomputable def outVal (px py : ℕ) (x y : ℕ × ℕ) : R12 :=
  shConj (shLoop g2Sh sh12 (outLine px py) ⟨x, y⟩ ⟨x, g2Sh.sub g2Sh.zero y⟩ blsDigits).1

theorem outVal_eq (px py : ℕ) (x y : ℕ × ℕ) (hz : (⟨g2Sh.φ x, g2Sh.φ y⟩ : Aff Fq2).toCurve = ⟨g2Sh.φ x, g2Sh.φ y, 1⟩) :
    Quad.conjugate (bitOne lineAt blsX (⟨(px : Fq), (py : Fq)⟩, ⟨g2Sh.φ x, g2Sh.φ y⟩)) = sh12.φ (outVal px py x y) := by
  have hn : (⟨g2Sh.φ x, g2Sh.φ y⟩ : Aff Fq2).neg = shAff g2Sh ⟨x, g2Sh.sub g2Sh.zero y⟩ := by
    refine aff_ext rfl ?_
    change -g2Sh.φ y = g2Sh.φ (g2Sh.sub g2Sh.zero y)
    rw [g2Sh.φ_sub, g2Sh.φ_zero, zero_sub]
  have h : bitOne lineAt blsX (⟨(px : Fq), (py : Fq)⟩, ⟨g2Sh.φ x, g2Sh.φ y⟩) =
      sh12.φ (shLoop g2Sh sh12 (outLine px py) ⟨x, y⟩ ⟨x, g2Sh.sub g2Sh.zero y⟩ blsDigits).1 :=
    shBit_eq (t := ((⟨(px : Fq), (py : Fq)⟩ : Aff Fq), (⟨g2Sh.φ x, g2Sh.φ y⟩ : Aff Fq2))) LawfulExt.sqr_eq (outLine_eq px py) rfl hn hz _
  rw [outVal, shConj_eq, h]

/-- The part of the exponent of the code after the power of Frobenius. -/
@[irreducible] def outE : ℕ := 3 * ateE

/-- The pairing on literals. -/
theorem out_pairing {px py : ℕ} {x y : ℕ × ℕ} {P : Pt g1} {Q : Pt g2} (hp : ARep g1 ⟨(px : Fq), (py : Fq)⟩ P)
    (hq : ARep g2 ⟨g2Sh.φ x, g2Sh.φ y⟩ Q) (hP : P ≠ 0) (hQ : Q ≠ 0)
    (h13 : 13 • Q ≠ 0) :
    pairing ⟨(px : Fq), (py : Fq)⟩ ⟨g2Sh.φ x, g2Sh.φ y⟩ = some (sh12.φ (outVal px py x y) ^ (outE * (blsQ ^ 6 - 1))) := by
  have hl : isLive ((⟨(px : Fq), (py : Fq)⟩ : Aff Fq), (⟨g2Sh.φ x, g2Sh.φ y⟩ : Aff Fq2)) = true :=
    (isLive_iff g1_good g2_good hp hq).mpr ⟨hP, hQ⟩
  have hz : (⟨g2Sh.φ x, g2Sh.φ y⟩ : Aff Fq2).toCurve = ⟨g2Sh.φ x, g2Sh.φ y, 1⟩ := by
    rw [Aff.toCurve, if_neg]
    rw [hq.isIdentity g2_good]
    exact hQ
  have h0 : multiMillerLoop [((⟨(px : Fq), (py : Fq)⟩ : Aff Fq), (⟨g2Sh.φ x, g2Sh.φ y⟩ : Aff Fq2))] ≠ 0 := by
    rw [Ne, multi_zero_iff (PQ := [(P, Q)]) (.cons ⟨hp, hq⟩ .nil)]
    rintro ⟨s, hs, -, -, l, hl, h⟩
    obtain rfl := List.mem_singleton.mp hs
    rw [List.mem_singleton.mp hl] at h
    exact h13 h
  have e1 : multiMillerLoop [((⟨(px : Fq), (py : Fq)⟩ : Aff Fq), (⟨g2Sh.φ x, g2Sh.φ y⟩ : Aff Fq2))] = sh12.φ (outVal px py x y) := by
    rw [multiMillerLoop, bitMiller_eq millerLaws, prod_live, List.map_singleton, List.prod_singleton, if_pos hl, outVal_eq px py x y hz]
  rw [pairing, finalExp_eq _ h0, e1]
  congr 2
  decide +kernel

/-- What the kernel has to evaluate to see that the power of `va` is not the square of the power of `vb`. -/
noncomputable def outCheck (va vb : R12) : Bool :=
  sh6.eq (sh12.pow (sh12.mul va (sh12.mul (shConj vb) (shConj vb))) outE).2 sh6.zero

theorem out_ne {va vb : R12} (hc : outCheck va vb = false) :
    sh12.φ va ^ (outE * (blsQ ^ 6 - 1)) ≠ sh12.φ vb ^ (outE * (blsQ ^ 6 - 1)) * sh12.φ vb ^ (outE * (blsQ ^ 6 - 1)) := by
  intro h
  have h2 := fixed_of_square conj_12 conj_conj (by decide +kernel) h
  rw [outCheck] at hc
  rw [← shConj_eq, ← sh12.φ_mul, ← sh12.φ_mul, ← Sh.pow_spec] at h2
  generalize sh12.pow (sh12.mul va (sh12.mul (shConj vb) (shConj vb))) outE = z at h2 hc
  have h3 : -(sh12.φ z).c1 = (sh12.φ z).c1 := congrArg Quad.c1 h2
  have h4 := two_ne_6 _ h3
  have h5 : sh6.eq z.2 sh6.zero = true := by
    rw [sh6.eq_iff, sh6.φ_zero]
    exact h4
  rw [h5] at hc
  exact absurd hc (by decide)

/-- Twice the generator of the first group. -/
@[irreducible] def g1DblX : ℕ := 0x572cbea904d67468808c8eb50a9450c9721db309128012543902d0ac358a62ae28f75bb8f1c7c42c39a8c5529bf0f4e
@[irreducible] def g1DblY : ℕ := 0x166a9d8cabc673a322fda673779d8e3822ba3ecb8670e461f73bb9021d5fd76a4c56d9d4cd16bd1bba86881979749d28

/-- Twice the point `g2Wit` of the second curve, which generates the group of all its points. -/
@[irreducible] def g2DblX : ℕ × ℕ := (0x12b91723858f49dfbb32a1b66de490ed00a7cff9532c9cdbbaeff3d00dc7179f2052e146bd1dc28f29c1d70a3d706667, 0x575fc1506f4758bebeec47fe00d54efcadb9ca8b842586ac130a71caeaf66e3bec2d709f728ae146c2ddeb851eb7331)
@[irreducible] def g2DblY : ℕ × ℕ := (0x11b047d14561fd82492ffc822c182e814cdb0510002475a9fad833baa04c81f96368a83424bbc21ce48035993cc7b9dd, 0x171123be8c660450f253614cb68b9ae8e46b7e2bd3ec3b3e556d88137f55eb47801047db194f1120d8b0dd846404bcc2)

theorem g1Dbl_rep : ARep g1 ⟨(g1DblX : Fq), (g1DblY : Fq)⟩ (g1Pt + g1Pt) ∧ g1Pt + g1Pt ≠ 0 :=
  dbl_arep (S := g1Sh) (op := g1Op) g1_good g1Op_isAdd g1Pt_rep
    (shOn_spec (S := g1Sh) g1_good (g1_a.trans g1Sh.φ_zero.symm) g1BVal_eq (by decide +kernel)) (by decide +kernel)

theorem g2Dbl_rep : ARep g2 ⟨g2Sh.φ g2DblX, g2Sh.φ g2DblY⟩ (g2Wit + g2Wit) ∧ g2Wit + g2Wit ≠ 0 :=
  dbl_arep (S := g2Sh) (op := g2Op) g2_good g2Op_isAdd g2Wit_rep
    (shOn_spec (S := g2Sh) g2_good (g2_a.trans g2Sh.φ_zero.symm) g2BVal_eq (by decide +kernel)) (by decide +kernel)

theorem outLeft : outCheck (outVal g1DblX g1DblY g2WitX g2WitY) (outVal g1XVal g1YVal g2WitX g2WitY) = false := by decide +kernel

theorem outRight : outCheck (outVal g1XVal g1YVal g2DblX g2DblY) (outVal g1XVal g1YVal g2WitX g2WitY) = false := by decide +kernel

end Halo2.Bls12381
