import Verif.Pairing.NondegBn
import Verif.Pairing.TotalInst

/-!
# The pairing at a second point outside the subgroup

The loop is evaluated by the kernel at three pairs of points, `(G, Q)`, `(2G, Q)` and `(G, 2Q)`.
-/

set_option linter.unusedSectionVars false
set_option maxRecDepth 100000

namespace Halo2.Pairing

/-- If `a` is the square of `b` after the power `E (m - 1)`, where `x ↦ x ^ m` is an involution, then `a conj(b)²` to the power `E` is fixed
by the involution. -/
theorem fixed_of_square {K : Type} [Field K] {m E : ℕ} {conj : K → K} (hc : ∀ x, conj x = x ^ m) (hcc : ∀ x, conj (conj x) = x)
    (hm : 1 ≤ m) {a b : K} (h : a ^ (E * (m - 1)) = b ^ (E * (m - 1)) * b ^ (E * (m - 1))) :
    conj ((a * (conj b * conj b)) ^ E) = (a * (conj b * conj b)) ^ E := by
  have hb : (conj b) ^ m = b := by rw [← hc, hcc]
  have e : E * m = E * (m - 1) + E := by
    obtain ⟨k, rfl⟩ : ∃ k, m = k + 1 := ⟨m - 1, by omega⟩
    rw [Nat.add_sub_cancel]; ring
  have hb2 : ∀ x : K, (x ^ E) ^ m = x ^ (E * (m - 1)) * x ^ E := fun x => by rw [← pow_mul, e, pow_add]
  have ha : (a ^ E) ^ m = a ^ (E * (m - 1)) * a ^ E := hb2 a
  have h3 : (conj b) ^ E = b ^ (E * (m - 1)) * b ^ E := by rw [hc, ← pow_mul, mul_comm m E, e, pow_add]
  have h4 : ((conj b) ^ E) ^ m = b ^ E := by rw [← pow_mul, mul_comm, pow_mul, hb]
  rw [hc, mul_pow, mul_pow, mul_pow, mul_pow, ha, h4, h, h3]
  ring

section
open Halo2.Curve Halo2.Ext
variable {R F : Type} [Field F] [DecidableEq F] [BaseField F] [LawfulBase F] {C : Params F} {S : Sh R F}
  {op : Proj R → Proj R → Proj R}

/-- The double of a point, on literals. -/
theorem dbl_arep (hC : Good C) (hop : IsAdd S C op) {x y x2 y2 : R} {p : Pt C} (hP : PRep C (shProj S ⟨x, y, S.one⟩) p)
    (hn : (Halo2.Curve.W C).Nonsingular (S.φ x2) (S.φ y2))
    (h : ptEq S (op ⟨x, y, S.one⟩ ⟨x, y, S.one⟩) ⟨x2, y2, S.one⟩ = true) : ARep C ⟨S.φ x2, S.φ y2⟩ (p + p) ∧ p + p ≠ 0 := by
  rw [(ptEq_iff (sadd_rep hC hop hP hP) (shPt_rep rfl rfl hn)).mp h]
  exact ⟨⟨rfl, rfl⟩, fun h => by cases h⟩

end

end Halo2.Pairing

namespace Halo2.Bn256

open Halo2.Field Halo2.Prime Halo2.Ext Halo2.Curve Halo2.Curve.Cofactor Halo2.Ext.Shadow
open Halo2.Pairing

/-- The line at a point with the coordinates `px`, `py`, on literals. -/
noncomputable def outLine (px py : ℕ) (c : Coeffs (ℕ × ℕ)) : R12 :=
  ((g2Sh.mul c.a (py, 0), (0, 0), (0, 0)), (g2Sh.mul c.b (px, 0), c.c, (0, 0)))

theorem outLine_eq (px py : ℕ) (c : Coeffs (ℕ × ℕ)) :
    sh12.φ (outLine px py c) = lineAt (shCoeffs g2Sh c) ⟨(px : Fq), (py : Fq)⟩ := by
  have h0 : g2Sh.φ (0, 0) = 0 := g2Sh.φ_zero
  rw [lineAt, scaleBy_eq, scaleBy_eq, ofBase_nat, ofBase_nat, shCoeffs]
  simp only [← g2Sh.φ_mul]
  rw [← h0]
  rfl

/-- The value of the loop on literals. -/
noncomputable def outVal (px py : ℕ) (x y : ℕ × ℕ) : R12 :=
  shNaf g2Sh sh12 (outLine px py) sixUPlus2Naf ⟨x, y⟩ ⟨x, g2Sh.sub g2Sh.zero y⟩
    ⟨g2Sh.mul (conj bnQ x) psiUVal, g2Sh.mul (conj bnQ y) psiVVal⟩ ⟨g2Sh.mul x ((shadow frob6C1Raw).getD 2 (0, 0)), y⟩

theorem outVal_eq (px py : ℕ) (x y : ℕ × ℕ) (hz : (⟨g2Sh.φ x, g2Sh.φ y⟩ : Aff Fq2).toCurve = ⟨g2Sh.φ x, g2Sh.φ y, 1⟩) :
    nafOne lineAt sixUPlus2Naf q1 minusq2 (⟨(px : Fq), (py : Fq)⟩, ⟨g2Sh.φ x, g2Sh.φ y⟩) = sh12.φ (outVal px py x y) := by
  refine shNaf_eq LawfulExt.sqr_eq (outLine_eq px py) rfl ?_ hz _ ?_ ?_
  · refine aff_ext rfl ?_
    change -g2Sh.φ y = g2Sh.φ (g2Sh.sub g2Sh.zero y)
    rw [g2Sh.φ_sub, g2Sh.φ_zero, zero_sub]
  · refine aff_ext ?_ ?_
    · change Quad.conjugate (g2Sh.φ x) * frob6C1.getD 1 0 = g2Sh.φ (g2Sh.mul _ _)
      rw [g2Sh.φ_mul, frob6C1_eq, getD_map _ _ (by decide +kernel)]
      congr 1
      · exact (cast_conj x).symm
      · change g2Sh.φ _ = g2Sh.φ _
        rw [← g2Sh.eq_iff]
        decide +kernel
    · change Quad.conjugate (g2Sh.φ y) * xiHalf = g2Sh.φ (g2Sh.mul _ _)
      rw [g2Sh.φ_mul, xiHalf, montPair_eq _ (by decide +kernel) _ bnQRinv_spec]
      congr 1
      · exact (cast_conj y).symm
      · change g2Sh.φ _ = g2Sh.φ _
        rw [← g2Sh.eq_iff]
        decide +kernel
  · refine aff_ext ?_ rfl
    change g2Sh.φ x * frob6C1.getD 2 0 = g2Sh.φ (g2Sh.mul _ _)
    rw [g2Sh.φ_mul, frob6C1_eq, getD_map _ _ (by decide +kernel)]
    rfl

/-- The pairing on literals. -/
theorem out_pairing {px py : ℕ} {x y : ℕ × ℕ} {P : Pt g1} {Q : Pt g2} (hp : ARep g1 ⟨(px : Fq), (py : Fq)⟩ P)
    (hq : ARep g2 ⟨g2Sh.φ x, g2Sh.φ y⟩ Q) (hP : P ≠ 0) (hQ : Q ≠ 0) :
    pairing ⟨(px : Fq), (py : Fq)⟩ ⟨g2Sh.φ x, g2Sh.φ y⟩ = some (sh12.φ (outVal px py x y) ^ (ateE * (bnQ ^ 6 - 1))) := by
  have hl : isLive ((⟨(px : Fq), (py : Fq)⟩ : Aff Fq), (⟨g2Sh.φ x, g2Sh.φ y⟩ : Aff Fq2)) = true :=
    (isLive_iff g1_good g2_good hp hq).mpr ⟨hP, hQ⟩
  have hz : (⟨g2Sh.φ x, g2Sh.φ y⟩ : Aff Fq2).toCurve = ⟨g2Sh.φ x, g2Sh.φ y, 1⟩ := by
    rw [Aff.toCurve, if_neg]
    rw [hq.isIdentity g2_good]
    exact hQ
  have h0 := multi_ne_zero (ts := [((⟨(px : Fq), (py : Fq)⟩ : Aff Fq), (⟨g2Sh.φ x, g2Sh.φ y⟩ : Aff Fq2))]) (PQ := [(P, Q)])
    (.cons ⟨hp, hq⟩ .nil)
  have e1 : multiMillerLoop [((⟨(px : Fq), (py : Fq)⟩ : Aff Fq), (⟨g2Sh.φ x, g2Sh.φ y⟩ : Aff Fq2))] = sh12.φ (outVal px py x y) := by
    rw [multiMillerLoop, nafMiller_eq millerLaws, prod_live, List.map_singleton, List.prod_singleton, if_pos hl, outVal_eq px py x y hz]
  rw [pairing, finalExp_eq _ h0, e1]
  congr 2
  decide +kernel

/-- The conjugate on literals. -/
noncomputable def shConj (z : R12) : R12 := (z.1, sh6.sub sh6.zero z.2)

theorem shConj_eq (z : R12) : sh12.φ (shConj z) = Quad.conjugate (sh12.φ z) := by
  ext1
  · rfl
  · change sh6.φ (sh6.sub sh6.zero z.2) = -sh6.φ z.2
    rw [sh6.φ_sub, sh6.φ_zero, zero_sub]

theorem conj_conj (z : Fq12) : Quad.conjugate (Quad.conjugate z) = z := by
  ext1
  · rfl
  · exact neg_neg z.c1

/-- What the kernel has to evaluate to see that the power of `va` is not the square of the power of `vb`. -/
noncomputable def outCheck (va vb : R12) : Bool :=
  sh6.eq (sh12.pow (sh12.mul va (sh12.mul (shConj vb) (shConj vb))) ateE).2 sh6.zero

theorem out_ne {va vb : R12} (hc : outCheck va vb = false) :
    sh12.φ va ^ (ateE * (bnQ ^ 6 - 1)) ≠ sh12.φ vb ^ (ateE * (bnQ ^ 6 - 1)) * sh12.φ vb ^ (ateE * (bnQ ^ 6 - 1)) := by
  intro h
  have h2 := fixed_of_square conj_12 conj_conj (by decide +kernel) h
  rw [outCheck] at hc
  rw [← shConj_eq, ← sh12.φ_mul, ← sh12.φ_mul, ← Sh.pow_spec] at h2
  generalize sh12.pow (sh12.mul va (sh12.mul (shConj vb) (shConj vb))) ateE = z at h2 hc
  have h3 : -(sh12.φ z).c1 = (sh12.φ z).c1 := congrArg Quad.c1 h2
  have h4 := two_ne_6 _ h3
  have h5 : sh6.eq z.2 sh6.zero = true := by
    rw [sh6.eq_iff, sh6.φ_zero]
    exact h4
  rw [h5] at hc
  exact absurd hc (by decide)

/-- Twice the generator of the first group. -/
@[irreducible] def g1DblX : ℕ := 0x30644e72e131a029b85045b68181585d97816a916871ca8d3c208c16d87cfd3
@[irreducible] def g1DblY : ℕ := 0x15ed738c0e0a7c92e7845f96b2ae9c0a68a6a449e3538fc7ff3ebf7a5a18a2c4

/-- Twice the point `g2Wit` of the second curve, which generates the group of all its points. -/
@[irreducible] def g2DblX : ℕ × ℕ := (0x19d139b017cfeb38912d7701b29e14178a3b25b87666ef5c81115d366a42aeb7, 0x9fa4a3ca28e30dbbc6f8fb181a1445d31b66525e607a086b006b5f4e019c56)
@[irreducible] def g2DblY : ℕ × ℕ := (0x1bf53da9d931618d0689f989597d95c1c2a94d0cd59c797ce0afb53ddffb1600, 0x1643e5bdbd77dafeb19611068b7fd7c8096e73bbbd668216bb47df30731f9112)

theorem g1Dbl_rep : ARep g1 ⟨(g1DblX : Fq), (g1DblY : Fq)⟩ (g1Pt + g1Pt) ∧ g1Pt + g1Pt ≠ 0 :=
  dbl_arep (S := g1Sh) (op := g1Op) g1_good g1Op_isAdd g1Pt_rep
    (shOn_spec (S := g1Sh) g1_good (g1_a.trans g1Sh.φ_zero.symm) g1BVal_eq (by decide +kernel)) (by decide +kernel)

theorem g2Dbl_rep : ARep g2 ⟨g2Sh.φ g2DblX, g2Sh.φ g2DblY⟩ (g2Wit + g2Wit) ∧ g2Wit + g2Wit ≠ 0 :=
  dbl_arep (S := g2Sh) (op := g2Op) g2_good g2Op_isAdd g2Wit_rep
    (shOn_spec (S := g2Sh) g2_good (g2_a.trans g2Sh.φ_zero.symm) g2BVal_eq (by decide +kernel)) (by decide +kernel)

theorem outLeft : outCheck (outVal g1DblX g1DblY g2WitX g2WitY) (outVal g1XVal g1YVal g2WitX g2WitY) = false := by decide +kernel

theorem outRight : outCheck (outVal g1XVal g1YVal g2DblX g2DblY) (outVal g1XVal g1YVal g2WitX g2WitY) = false := by decide +kernel

end Halo2.Bn256
