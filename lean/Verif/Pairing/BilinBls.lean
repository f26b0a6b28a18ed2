import Verif.Pairing.Sparse
import Verif.Curve.Cofactor

/-!
# The pairing of bls12-381 in terms of points
-/

set_option linter.unusedSectionVars false
set_option maxRecDepth 100000

namespace Halo2.Bls12381

open Halo2.Field Halo2.Prime Halo2.Ext Halo2.Curve Halo2.Curve.Cofactor Halo2.Ext.Shadow
open Halo2.Pairing

/-- The exponent of the final exponentiation. -/
@[irreducible] def ateN : ℕ := (blsQ ^ 12 - 1) / blsR

theorem ateN_eq : (blsQ ^ 12 - 1) / blsR = ateN := by decide +kernel

/-- The factor of the Frobenius on the root of degree six. -/
def frobF : Fq2 := frob12C1.getD 1 0

@[irreducible] def frobFVal : ℕ × ℕ := (shadow frob12C1Raw).getD 1 (0, 0)

theorem frobF_eq : frobF = g2Sh.φ frobFVal := by
  rw [frobF, frob12C1_eq, getD_map _ _ (by decide +kernel), frobFVal]
  rfl

theorem U_frob : (Quad.U : Fq12) ^ blsQ = sig frobF * Quad.U := by
  have h := root_pow (p := blsQ) (i := 1) (d := 6) (by decide) dvd6 (U6 (L := Fq) rfl)
  rw [pow_one, ← map_pow] at h
  rw [h]
  have e := frob12C1_spec 1
  rw [pow_one] at e
  rw [← e]
  rfl

theorem U_ne : (Quad.U : Fq12) ≠ 0 := by
  intro h
  have := U_frob
  have h2 : (1 : Fq6) = 0 := congrArg Quad.c1 h
  exact one_ne_zero h2

theorem frob_hom : ∃ fr : Fq12 →+* Fq12, ∀ z, fr z = z ^ blsQ := by
  have : ExpChar Fq12 blsQ := ExpChar.prime blsQ_prime
  exact ⟨frobenius Fq12 blsQ, fun z => frobenius_def ..⟩

theorem sig_pow (t : Fq2) : (sig t : Fq12) ^ blsQ ^ 6 = sig t := by rw [← conj_12, conj_sig]

theorem pow_two_2 (t : Fq2) : t ^ blsQ ^ 2 = t := by rw [← frob_2]; rfl

theorem kill_2 (c : Fq2) (hc : c ≠ 0) : (sig c : Fq12) ^ ateN = 1 := by
  rw [← map_pow, pow_eq_one_of hc (q := blsQ ^ 2) (by decide +kernel) (pow_two_2 c) (by decide +kernel), map_one]

theorem setting : Setting (sig : Fq2 →+* Fq12) g2.a g2.b ateN blsR blsQ Quad.conjHom psiCoeffX psiCoeffY where
  N0 := by decide +kernel
  four := by decide +kernel
  card z hz := by
    have e : ateN * blsR = blsQ ^ 12 - 1 := by decide +kernel
    rw [e]
    exact finalLaws.card z hz
  kill := kill_2
  frob := frob_hom
  hτ z := by rw [Quad.conjHom_apply, conj_eq, map_pow]
  psi := psi_scaling

theorem xi_eq : (ExtField.nonRes : Fq2) = g2Sh.φ xi := nonRes_2

theorem twist : Twist (Quad.ofBase : Fq →+* Fq2) (sig : Fq2 →+* Fq12) g1.a g1.b g2.a g2.b ateN blsR blsQ
    psiCoeffX psiCoeffY ((Quad.U : Fq12) ^ 2) ((Quad.U : Fq12) ^ 3) := by
  refine twistM U_ne U_frob ?_ ?_ (U6 (L := Fq) rfl) g1_a g2_a ?_ Fp.pow_p frob_hom (by decide +kernel)
    (by decide +kernel) ?_ sig_pow (U2_out rfl) (by decide +kernel) blsR_prime
  · rw [psiX_eq, frobF_eq, ← g2Sh.φ_mul, ← g2Sh.φ_mul, ← g2Sh.φ_one, ← g2Sh.eq_iff]
    decide +kernel
  · rw [psiY_eq, frobF_eq, ← g2Sh.φ_mul, ← g2Sh.φ_mul, ← g2Sh.φ_mul, ← g2Sh.φ_one, ← g2Sh.eq_iff]
    decide +kernel
  · have e : (Quad.ofBase g1.b : Fq2) = g2Sh.φ (g1BVal, 0) := by
      rw [g1BVal_eq]
      ext
      · rfl
      · exact Nat.cast_zero.symm
    rw [e, xi_eq, g2BVal_eq]
    change g2Sh.φ _ = _
    rw [← g2Sh.φ_mul, ← g2Sh.eq_iff]
    decide +kernel
  · rw [← conj_12, conj_U2 rfl]

theorem line_law (t : Aff Fq) : LineLaw (sig : Fq2 →+* Fq12) ateN lineAt t
    ((Quad.U : Fq12) ^ 2 * sig (Quad.ofBase t.x)) ((Quad.U : Fq12) ^ 3 * sig (Quad.ofBase t.y)) :=
  lineLawM fun c => lineM rfl c t

/-- The coefficients of the optimal pairing. -/
def ateCs : List ℤ := [blsXAbs, 1]

theorem chain_ok : chainOk blsR 1 (((blsX.map fun b => b == 1).drop 1).map fun b => if b then 1 else 0) = true := by
  decide +kernel

theorem chain_val : chainVal 1 (((blsX.map fun b => b == 1).drop 1).map fun b => if b then 1 else 0) = (blsXAbs : ℤ) := by
  decide +kernel

theorem horner_p : (blsR : ℤ) ∣ horner blsQ ateCs := by decide +kernel

theorem psi_torsion {Q : Pt g2} (hQ : blsR • Q = 0) : thetaA setting.ψ ateCs Q = 0 := by
  have h : setting.ψ Q = -(blsXAbs • Q) := (g2Test_iff Q).mpr hQ
  have h' : setting.ψ Q = (-(blsXAbs : ℤ)) • Q := by
    rw [h, neg_smul, natCast_zsmul]
  exact thetaA_of_dvd h' (by decide +kernel) hQ

theorem two_ne : (2 : Fq2) ≠ 0 := g2_good.two

/-- The twist has no point with first coordinate zero: it would have order three. -/
theorem no_zero (s : Fq2) : ¬ (short g2.a g2.b).Nonsingular 0 s := by
  intro h
  rw [g2_a] at h
  have h3 := three_smul_of_x h
  have hc : Nat.card (short (0 : Fq2) g2.b).Point = Nat.card (Pt g2) := by rw [Pt, Curve.W, g2_a]; rfl
  have h1 := addOrderOf_dvd_of_nsmul_eq_zero h3
  have h2 := addOrderOf_dvd_natCard (WeierstrassCurve.Affine.Point.some 0 s h : (short (0 : Fq2) g2.b).Point)
  rw [hc, g2_order.1] at h2
  have h4 := Nat.dvd_gcd h1 h2
  rw [show Nat.gcd 3 _ = 1 by decide +kernel, Nat.dvd_one, AddMonoid.addOrderOf_eq_one_iff] at h4
  exact WeierstrassCurve.Affine.Point.some_ne_zero h h4

theorem fine (P : Pt g1) : Fine g2.a g2.b P := fun _ _ _ _ => Or.inr no_zero

/-- The value of the loop on a pair of points, the first on the curve and the second of order dividing `r`. -/
theorem one_eq {t : Aff Fq × Aff Fq2} {P : Pt g1} {Q : Pt g2} (hp : ARep g1 t.1 P) (hq : ARep g2 t.2 Q)
    (hQ : blsR • Q = 0) :
    (if isLive t then bitOne lineAt blsX t else 1) ^ ateN = (ateAt setting twist ateCs P Q : Fq12ˣ) := by
  refine one_value' g1_good g2_good setting twist horner_p hp hq (fine P) hQ fun ev ho hz hf => ?_
  exact bitOne_rep setting (LawfulExt.sqr_eq) two_ne g2_a ev (line_law t.1) hf hz ho chain_ok chain_val
    (psi_torsion hQ)

/-- Terms of points of order dividing `r`. -/
def TermRep (t : Aff Fq × Aff Fq2) (s : Pt g1 × Pt g2) : Prop :=
  ARep g1 t.1 s.1 ∧ ARep g2 t.2 s.2 ∧ blsR • s.1 = 0 ∧ blsR • s.2 = 0

/-- Terms with the second point of order dividing `r` and the first anywhere on the curve. -/
def WideRep (t : Aff Fq × Aff Fq2) (s : Pt g1 × Pt g2) : Prop :=
  ARep g1 t.1 s.1 ∧ ARep g2 t.2 s.2 ∧ blsR • s.2 = 0

/-- The pairing as a function of points. -/
noncomputable def e (P : Pt g1) (Q : Pt g2) : Fq12ˣ := ateAt setting twist ateCs P Q ^ (3 * blsQ ^ 6)

theorem multi_wide {ts : List (Aff Fq × Aff Fq2)} {PQ : List (Pt g1 × Pt g2)} (h : List.Forall₂ WideRep ts PQ) :
    finalExp (multiMillerLoop ts) = some ((PQ.map fun s => (e s.1 s.2 : Fq12)).prod) := by
  have h0 : multiMillerLoop ts = (ts.map fun t => if isLive t then bitOne lineAt blsX t else 1).prod ^ blsQ ^ 6 := by
    rw [multiMillerLoop, bitMiller_eq millerLaws, prod_live, conj_12]
  have h1 : multiMillerLoop ts ^ (3 * ateN) = (PQ.map fun s => (e s.1 s.2 : Fq12)).prod := by
    have e1 : ∀ z : Fq12, (z ^ blsQ ^ 6) ^ (3 * ateN) = (z ^ ateN) ^ (3 * blsQ ^ 6) := fun z => by
      rw [← pow_mul, ← pow_mul]
      congr 1
      ring
    have e2 : (ts.map fun t => if isLive t then bitOne lineAt blsX t else 1).prod ^ ateN =
        (PQ.map fun s => (ateAt setting twist ateCs s.1 s.2 : Fq12)).prod :=
      prod_pow_of (h.imp fun t s hts => one_eq hts.1 hts.2.1 hts.2.2)
    rw [h0, e1, e2]
    exact prod_pow_of (List.forall₂_same.mpr fun s _ => rfl)
  have h2 : multiMillerLoop ts ≠ 0 := by
    intro h0
    rw [h0, zero_pow (by decide +kernel)] at h1
    have : ((PQ.map fun s => e s.1 s.2).prod : Fq12) = 0 := by
      rw [h1, ← Units.coeHom_apply, map_list_prod, List.map_map]
      rfl
    exact Units.ne_zero _ this
  rw [finalExp_eq _ h2, ateN_eq, h1]

theorem multi_eq {ts : List (Aff Fq × Aff Fq2)} {PQ : List (Pt g1 × Pt g2)} (h : List.Forall₂ TermRep ts PQ) :
    finalExp (multiMillerLoop ts) = some ((PQ.map fun s => (e s.1 s.2 : Fq12)).prod) :=
  multi_wide (h.imp fun _ _ h => ⟨h.1, h.2.1, h.2.2.2⟩)

/-- Additivity in the first argument, on the whole curve. -/
theorem e_add_wide (P P' : Pt g1) {Q : Pt g2} (hQ : blsR • Q = 0) : e (P + P') Q = e P Q * e P' Q := by
  rw [e, e, e, ← mul_pow]
  exact congrArg (· ^ _) (ateAt_add_left' setting twist horner_p P P' (fine P) (fine P') (fine _) (psi_torsion hQ))

theorem e_add_left {P P' : Pt g1} (_hP : blsR • P = 0) (_hP' : blsR • P' = 0) {Q : Pt g2} (hQ : blsR • Q = 0) :
    e (P + P') Q = e P Q * e P' Q := e_add_wide P P' hQ

theorem e_add_right {P : Pt g1} {Q Q' : Pt g2} (hQ : blsR • Q = 0) (hQ' : blsR • Q' = 0) :
    e P (Q + Q') = e P Q * e P Q' := by
  rw [e, e, e, ← mul_pow]
  exact congrArg (· ^ _) (ateAt_add_right setting twist horner_p P (psi_torsion hQ) (psi_torsion hQ'))

end Halo2.Bls12381
