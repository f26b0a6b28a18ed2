import Verif.Pairing.NondegPluto
import Verif.Pairing.Outside

/-!
# The pairing of pluto at a second point outside the subgroup
-/

set_option linter.unusedSectionVars false
set_option maxRecDepth 100000

namespace Halo2.Pluto

open Halo2.Field Halo2.Prime Halo2.Ext Halo2.Curve Halo2.Curve.Cofactor Halo2.Ext.Shadow
open Halo2.Pairing

/-- The line at a point with the coordinates `px`, `py`, on literals. -/
noncomputable def outLine (px py : ℕ) (c : Coeffs (ℕ × ℕ)) : R12 :=
  ((g2Sh.mul c.a (py, 0), (0, 0), (0, 0)), (g2Sh.mul c.b (px, 0), c.c, (0, 0)))

theorem outLine_eq (px py : ℕ) (c : Coeffs (ℕ × ℕ)) :
    sh12.φ (outLine px py c) = lineAt (shCoeffs g2Sh c) ⟨(px : Fp1), (py : Fp1)⟩ := by
  have h0 : g2Sh.φ (0, 0) = 0 := g2Sh.φ_zero
  rw [lineAt, scaleBy_eq, scaleBy_eq, ofBase_nat, ofBase_nat, shCoeffs]
  simp only [← g2Sh.φ_mul]
  rw [← h0]
  rfl

/-- The value of the loop on literals. -/
noncomputable def outVal (px py : ℕ) (x y : ℕ × ℕ) : R12 :=
  shNaf g2Sh sh12 (outLine px py) negSixUPlus2Naf ⟨x, y⟩ ⟨x, g2Sh.sub g2Sh.zero y⟩
    ⟨g2Sh.mul (conj plP x) psiUVal, g2Sh.sub g2Sh.zero (g2Sh.mul (conj plP y) psiVVal)⟩
    ⟨g2Sh.mul x ((shadow frob6C1Raw).getD 2 (0, 0)), g2Sh.sub g2Sh.zero y⟩

theorem outVal_eq (px py : ℕ) (x y : ℕ × ℕ) (hz : (⟨g2Sh.φ x, g2Sh.φ y⟩ : Aff Fp2).toCurve = ⟨g2Sh.φ x, g2Sh.φ y, 1⟩) :
    nafOne lineAt negSixUPlus2Naf (fun q => (q1 q).neg) (fun q => (minusq2 q).neg) (⟨(px : Fp1), (py : Fp1)⟩, ⟨g2Sh.φ x, g2Sh.φ y⟩) =
      sh12.φ (outVal px py x y) := by
  have hn : ∀ z, g2Sh.φ (g2Sh.sub g2Sh.zero z) = -g2Sh.φ z := fun z => by rw [g2Sh.φ_sub, g2Sh.φ_zero, zero_sub]
  refine shNaf_eq LawfulExt.sqr_eq (outLine_eq px py) rfl ?_ hz _ ?_ ?_
  · exact aff_ext rfl (hn y).symm
  · refine aff_ext ?_ ?_
    · change Quad.conjugate (g2Sh.φ x) * psiU = g2Sh.φ (g2Sh.mul _ _)
      rw [g2Sh.φ_mul, psiU_eq]
      congr 1
      exact (cast_conj x).symm
    · change -(Quad.conjugate (g2Sh.φ y) * psiV) = g2Sh.φ (g2Sh.sub _ (g2Sh.mul _ _))
      rw [hn, g2Sh.φ_mul, psiV_eq]
      congr 2
      exact (cast_conj y).symm
  · refine aff_ext ?_ (hn y).symm
    change g2Sh.φ x * frob6C1.getD 2 0 = g2Sh.φ (g2Sh.mul _ _)
    rw [g2Sh.φ_mul, frob6C1_eq, getD_map _ _ (by decide +kernel)]
    rfl

/-- The pairing on literals. -/
theorem out_pairing {px py : ℕ} {x y : ℕ × ℕ} {P : Pt g1} {Q : Pt g2} (hp : ARep g1 ⟨(px : Fp1), (py : Fp1)⟩ P)
    (hq : ARep g2 ⟨g2Sh.φ x, g2Sh.φ y⟩ Q) (hP : P ≠ 0) (hQ : Q ≠ 0)
    (h13 : 13 • Q ≠ 0) (h73 : 73 • Q ≠ 0) :
    pairing ⟨(px : Fp1), (py : Fp1)⟩ ⟨g2Sh.φ x, g2Sh.φ y⟩ = some (sh12.φ (outVal px py x y) ^ (ateE * (plP ^ 6 - 1))) := by
  have hl : isLive ((⟨(px : Fp1), (py : Fp1)⟩ : Aff Fp1), (⟨g2Sh.φ x, g2Sh.φ y⟩ : Aff Fp2)) = true :=
    (isLive_iff g1_good g2_good hp hq).mpr ⟨hP, hQ⟩
  have hz : (⟨g2Sh.φ x, g2Sh.φ y⟩ : Aff Fp2).toCurve = ⟨g2Sh.φ x, g2Sh.φ y, 1⟩ := by
    rw [Aff.toCurve, if_neg]
    rw [hq.isIdentity g2_good]
    exact hQ
  have h0 : multiMillerLoop [((⟨(px : Fp1), (py : Fp1)⟩ : Aff Fp1), (⟨g2Sh.φ x, g2Sh.φ y⟩ : Aff Fp2))] ≠ 0 := by
    rw [Ne, multi_zero_iff (PQ := [(P, Q)]) (.cons ⟨hp, hq⟩ .nil)]
    rintro ⟨s, hs, -, -, l, hl, h⟩
    obtain rfl := List.mem_singleton.mp hs
    simp only [List.mem_cons, List.not_mem_nil, or_false] at hl
    rcases hl with rfl | rfl
    · exact h13 h
    · exact h73 h
  have e1 : multiMillerLoop [((⟨(px : Fp1), (py : Fp1)⟩ : Aff Fp1), (⟨g2Sh.φ x, g2Sh.φ y⟩ : Aff Fp2))] = sh12.φ (outVal px py x y) := by
    rw [multiMillerLoop, nafMiller_eq millerLaws, prod_live, List.map_singleton, List.prod_singleton, if_pos hl, outVal_eq px py x y hz]
  rw [pairing, finalExp_eq _ h0, e1]
  congr 2
  decide +kernel

/-- The conjugate on literals. -/
noncomputable def shConj (z : R12) : R12 := (z.1, sh6.sub sh6.zero z.2)

theorem shConj_eq (z : R12) : sh12.φ (shConj z) = Quad.conjugate (sh12.φ z) := by
  ext1
  · rfl
  · change sh6.φ (sh6.sub sh6.zero z.2) = -sh6.φ z.2
    rw [sh6.φ_sub, sh6.φ_zero, zero_sub]

theorem conj_conj (z : Fp12) : Quad.conjugate (Quad.conjugate z) = z := by
  ext1
  · rfl
  · exact neg_neg z.c1

/-- What the kernel has to evaluate to see that the power of `va` is not the square of the power of `vb`. -/
noncomputable def outCheck (va vb : R12) : Bool :=
  sh6.eq (sh12.pow (sh12.mul va (sh12.mul (shConj vb) (shConj vb))) ateE).2 sh6.zero

theorem out_ne {va vb : R12} (hc : outCheck va vb = false) :
    sh12.φ va ^ (ateE * (plP ^ 6 - 1)) ≠ sh12.φ vb ^ (ateE * (plP ^ 6 - 1)) * sh12.φ vb ^ (ateE * (plP ^ 6 - 1)) := by
  intro h
  have h2 := fixed_of_square conj_12 conj_conj (by decide +kernel) h
  rw [outCheck] at hc
  rw [← shConj_eq, ← sh12.φ_mul, ← sh12.φ_mul, ← Sh.pow_spec] at h2
  generalize sh12.pow (sh12.mul va (sh12.mul (shConj vb) (shConj vb))) ateE = z at h2 hc
  have h3 : -(sh12.φ z).c1 = (sh12.φ z).c1 := congrArg Quad.c1 h2
  have h4 := two_ne_6 _ h3
  have h5 : sh6.eq z.2 sh6.zero = true := by
    rw [sh6.eq_iff, sh6.φ_zero]
    exact h4
  rw [h5] at hc
  exact absurd hc (by decide)

/-- Twice the generator of the first group. -/
@[irreducible] def g1DblX : ℕ := 0x21cbc14e5e0a94bc160416344b5d841a93477a26873ae029c2aea5cf54ff562b2a3f57e9c05a3417dc9da10aa735551cca72ed585e0a72f6
@[irreducible] def g1DblY : ℕ := 0x1e3a373af64c3f112b8acf7caf881d1c8a1696981fe856025e9f6302952a569c459677f8d2340eca9bfab304c2131479278e8b241ade693

/-- Twice the point `g2Wit` of the second curve, which generates the group of all its points. -/
@[irreducible] def g2DblX : ℕ × ℕ := (0x1dc485a8deb91cddc81de4be24e23f85b85054ea23c3ba77a1f4e68d876dfea3e44f6a3f3776b563bdf73a72e49761cfdd0d2d4867f3cef0, 0x818232089f5cd493c019c2d33c1297dcd96f4fea5122cad68e858ab181ec11005e2542709f1fc80ca359080d69dcf5cf044bedd0382e21b)
@[irreducible] def g2DblY : ℕ × ℕ := (0x19511fcf5bbea6ae673f9e8d92b573b05d5c34d2f6f2a2f730a5f5dd0ca66f3b3707f8376d5d85461c2bd3e06cb3c4fcd8d343e8bc21d5e9, 0x9d5f8abf6c4d0f57eca4ae949fa4d8c89e68acfce39722dcea659d68368ad25dcc427644163208195c22dd6f71fbefb322c5a5d77df937d)

theorem g1Dbl_rep : ARep g1 ⟨(g1DblX : Fp1), (g1DblY : Fp1)⟩ (g1Pt + g1Pt) ∧ g1Pt + g1Pt ≠ 0 :=
  dbl_arep (S := g1Sh) (op := g1Op) g1_good g1Op_isAdd g1Pt_rep
    (shOn_spec (S := g1Sh) g1_good (g1_a.trans g1Sh.φ_zero.symm) g1BVal_eq (by decide +kernel)) (by decide +kernel)

theorem g2Dbl_rep : ARep g2 ⟨g2Sh.φ g2DblX, g2Sh.φ g2DblY⟩ (g2Wit + g2Wit) ∧ g2Wit + g2Wit ≠ 0 :=
  dbl_arep (S := g2Sh) (op := g2Op) g2_good g2Op_isAdd g2Wit_rep
    (shOn_spec (S := g2Sh) g2_good (g2_a.trans g2Sh.φ_zero.symm) g2BVal_eq (by decide +kernel)) (by decide +kernel)

theorem outLeft : outCheck (outVal g1DblX g1DblY g2WitX g2WitY) (outVal g1XVal g1YVal g2WitX g2WitY) = false := by decide +kernel

theorem outRight : outCheck (outVal g1XVal g1YVal g2DblX g2DblY) (outVal g1XVal g1YVal g2WitX g2WitY) = false := by decide +kernel

end Halo2.Pluto
