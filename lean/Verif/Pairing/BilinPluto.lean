import Verif.Pairing.Sparse
import Verif.Curve.Cofactor

/-!
# The pairing of pluto in terms of points
-/

set_option linter.unusedSectionVars false
set_option maxRecDepth 100000

namespace Halo2.Pluto

open Halo2.Field Halo2.Prime Halo2.Ext Halo2.Curve Halo2.Curve.Cofactor Halo2.Ext.Shadow
open Halo2.Pairing

/-- The exponent of the final exponentiation. -/
@[irreducible] def ateN : ℕ := (plP ^ 12 - 1) / plQ

theorem ateN_eq : (plP ^ 12 - 1) / plQ = ateN := by decide +kernel

/-- The factor of the Frobenius on the root of degree six. -/
def frobF : Fp2 := frob12C1.getD 1 0

@[irreducible] def frobFVal : ℕ × ℕ := (shadow frob12C1Raw).getD 1 (0, 0)

theorem frobF_eq : frobF = g2Sh.φ frobFVal := by
  rw [frobF, frob12C1_eq, getD_map _ _ (by decide +kernel), frobFVal]
  rfl

theorem U_frob : (Quad.U : Fp12) ^ plP = sig frobF * Quad.U := by
  have h := root_pow (p := plP) (i := 1) (d := 6) (by decide) dvd6 (U6 (L := Fp1) rfl)
  rw [pow_one, ← map_pow] at h
  rw [h]
  have e := frob12C1_spec 1
  rw [pow_one] at e
  rw [← e]
  rfl

theorem U_ne : (Quad.U : Fp12) ≠ 0 := by
  intro h
  have := U_frob
  have h2 : (1 : Fp6) = 0 := congrArg Quad.c1 h
  exact one_ne_zero h2

theorem frob_hom : ∃ fr : Fp12 →+* Fp12, ∀ z, fr z = z ^ plP := by
  have : ExpChar Fp12 plP := ExpChar.prime plP_prime
  exact ⟨frobenius Fp12 plP, fun z => frobenius_def ..⟩

theorem sig_pow (t : Fp2) : (sig t : Fp12) ^ plP ^ 6 = sig t := by rw [← conj_12, conj_sig]

theorem pow_two_2 (t : Fp2) : t ^ plP ^ 2 = t := by rw [← frob_2]; rfl

theorem kill_2 (c : Fp2) (hc : c ≠ 0) : (sig c : Fp12) ^ ateN = 1 := by
  rw [← map_pow, pow_eq_one_of hc (q := plP ^ 2) (by decide +kernel) (pow_two_2 c) (by decide +kernel), map_one]

theorem U_kill : (Quad.U : Fp12) ^ ateN = 1 := by
  obtain ⟨k, hk⟩ : 6 * (plP ^ 2 - 1) ∣ ateN := by decide +kernel
  have h6 : (ExtField.nonRes : Fp2) ≠ 0 := by
    intro h
    have := U6 (L := Fp1) rfl
    rw [h, map_zero] at this
    exact U_ne (pow_eq_zero_iff (by decide) |>.mp this)
  rw [hk, pow_mul, pow_mul, U6 (L := Fp1) rfl, ← map_pow,
    pow_eq_one_of h6 (q := plP ^ 2) (by decide +kernel) (pow_two_2 _) dvd_rfl, map_one, one_pow]

/-- The twisted Frobenius scales the first coordinate by this. -/
def psiU : Fp2 := frob6C1.getD 1 0

/-- The twisted Frobenius scales the second coordinate by this. -/
def psiV : Fp2 := xiHalf

@[irreducible] def psiUVal : ℕ × ℕ := (shadow frob6C1Raw).getD 1 (0, 0)

@[irreducible] def psiVVal : ℕ × ℕ := (val xiHalfRaw.1 % plP, val xiHalfRaw.2 % plP)

theorem psiU_eq : psiU = g2Sh.φ psiUVal := by
  rw [psiU, frob6C1_eq, getD_map _ _ (by decide +kernel), psiUVal]
  rfl

theorem psiV_eq : psiV = g2Sh.φ psiVVal :=
  (rawPair_eq _ (by decide +kernel)).trans (cast_eq_of _ _ (by decide +kernel) (by decide +kernel))

theorem ne_zero_of_sh {x : ℕ × ℕ} (h : g2Sh.eq x g2Sh.zero = false) : g2Sh.φ x ≠ 0 := by
  intro h0
  rw [← g2Sh.φ_zero, ← g2Sh.eq_iff, h] at h0
  exact Bool.false_ne_true h0

theorem psi_scaling : Scaling (Quad.conjHom : Fp2 →+* Fp2) psiU psiV g2.a g2.b g2.a g2.b where
  u0 := by rw [psiU_eq]; exact ne_zero_of_sh (by decide +kernel)
  v0 := by rw [psiV_eq]; exact ne_zero_of_sh (by decide +kernel)
  uv := by
    rw [psiU_eq, psiV_eq, ← g2Sh.φ_mul, ← g2Sh.φ_mul, ← g2Sh.φ_mul, ← g2Sh.eq_iff]
    decide +kernel
  ha := by rw [g2_a, map_zero, mul_zero]
  hb := by
    rw [psiU_eq, g2BVal_eq, Quad.conjHom_apply, ← cast_conj]
    change g2Sh.φ _ = g2Sh.φ _ * g2Sh.φ _ * g2Sh.φ _ * g2Sh.φ _
    rw [← g2Sh.φ_mul, ← g2Sh.φ_mul, ← g2Sh.φ_mul, ← g2Sh.eq_iff]
    decide +kernel

/-- The twisted Frobenius on points. -/
noncomputable def psiHom : Pt g2 →+ Pt g2 := psi_scaling.hom

theorem psi_sh {P : Proj (ℕ × ℕ)} {p : Pt g2} (hP : PRep g2 (shProj g2Sh P) p) :
    PRep g2 (shProj g2Sh (shScale g2Sh (conj plP) psiUVal psiVVal P)) (psiHom p) :=
  shScale_rep psi_scaling (fun x => cast_conj x) psiU_eq psiV_eq hP

/-- The eigenvalue on the points of order `q`. -/
@[irreducible] def psiLam : ℕ := plP % plQ

theorem psi_gen : psiHom g2Pt = psiLam • g2Pt := by
  refine (ptEq_iff (psi_sh g2Pt_rep) (smul_rep g2_good g2Op_isAdd psiLam g2Pt_rep)).mp ?_
  decide +kernel

theorem psi_eq {p : Pt g2} (h : plQ • p = 0) : psiHom p = psiLam • p := by
  rw [torsion_iff plQ_prime (by rw [g2_order.1]; decide +kernel) g2Pt_order] at h
  exact hom_eq_of_zmultiples (f := psiHom) (g := psiLam • AddMonoidHom.id _) psi_gen h

theorem setting : Setting (sig : Fp2 →+* Fp12) g2.a g2.b ateN plQ plP Quad.conjHom psiU psiV where
  N0 := by decide +kernel
  four := by decide +kernel
  card z hz := by
    have e : ateN * plQ = plP ^ 12 - 1 := by decide +kernel
    rw [e]
    exact finalLaws.card z hz
  kill := kill_2
  frob := frob_hom
  hτ z := by rw [Quad.conjHom_apply, conj_eq, map_pow]
  psi := psi_scaling

theorem xi_eq : (ExtField.nonRes : Fp2) = g2Sh.φ xi := nonRes_2

theorem twist : Twist (Quad.ofBase : Fp1 →+* Fp2) (sig : Fp2 →+* Fp12) g1.a g1.b g2.a g2.b ateN plQ plP
    psiU psiV ((Quad.U : Fp12) ^ 2)⁻¹ ((Quad.U : Fp12) ^ 3)⁻¹ := by
  refine twistD U_ne U_frob ?_ ?_ (U6 (L := Fp1) rfl) g1_a g2_a ?_ Fp.pow_p frob_hom (by decide +kernel)
    (by decide +kernel) ?_ sig_pow (U2_out rfl) (by decide +kernel) plQ_prime
  · rw [psiU_eq, frobF_eq, ← g2Sh.φ_mul, ← g2Sh.eq_iff]
    decide +kernel
  · rw [psiV_eq, frobF_eq, ← g2Sh.φ_mul, ← g2Sh.φ_mul, ← g2Sh.eq_iff]
    decide +kernel
  · have e : (Quad.ofBase g1.b : Fp2) = g2Sh.φ (g1BVal, 0) := by
      rw [g1BVal_eq]
      ext
      · rfl
      · exact Nat.cast_zero.symm
    rw [e, xi_eq, g2BVal_eq]
    change g2Sh.φ _ * g2Sh.φ _ = _
    rw [← g2Sh.φ_mul, ← g2Sh.eq_iff]
    decide +kernel
  · rw [← conj_12, conj_U2 rfl]

theorem line_law (t : Aff Fp1) : LineLaw (sig : Fp2 →+* Fp12) ateN lineAt t
    (((Quad.U : Fp12) ^ 2)⁻¹ * sig (Quad.ofBase t.x)) (((Quad.U : Fp12) ^ 3)⁻¹ * sig (Quad.ofBase t.y)) :=
  lineLawD U_ne U_kill fun c => lineD rfl c t

/-- The multiple of the loop: `-(6 u + 2)`. -/
@[irreducible] def ateM : ℤ := 6 * negPlutoU - 2

/-- The coefficients of the optimal pairing. -/
def ateCs : List ℤ := [ateM, -1, 1, -1]

theorem chain_ok : chainOk plQ 1 (negSixUPlus2Naf.reverse.drop 1) = true := by decide +kernel

theorem chain_val : chainVal 1 (negSixUPlus2Naf.reverse.drop 1) = ateM := by decide +kernel

theorem horner_p : (plQ : ℤ) ∣ horner plP ateCs := by decide +kernel

theorem horner_lam : (plQ : ℤ) ∣ horner psiLam ateCs := by decide +kernel

theorem q1_rep {q : Aff Fp2} {Q : Pt g2} (h : FRep g2.a g2.b q Q) : FRep g2.a g2.b (q1 q) (psiHom Q) := by
  obtain ⟨hn, rfl⟩ := h
  have hn' := psi_scaling.nonsingular hn
  have ex : psiU * Quad.conjHom q.x = (q1 q).x := by
    rw [mul_comm]
    rfl
  have ey : psiV * Quad.conjHom q.y = (q1 q).y := by
    rw [mul_comm]
    rfl
  rw [ex, ey] at hn'
  exact ⟨hn', point_ext ex ey⟩

theorem minusq2_rep {q : Aff Fp2} {Q : Pt g2} (h : FRep g2.a g2.b q Q) :
    FRep g2.a g2.b (minusq2 q) (-(psiHom (psiHom Q))) := by
  have h1 := q1_rep (q1_rep h)
  have h2 := h1.neg
  have hc : ∀ z : Fp2, Quad.conjugate (Quad.conjugate z) = z := fun z => by
    apply Quad.ext
    · rfl
    · exact neg_neg _
  have hmul : ∀ x y : Fp2, Quad.conjugate (x * y) = Quad.conjugate x * Quad.conjugate y :=
    map_mul (Quad.conjHom : Fp2 →+* Fp2)
  have e : (q1 (q1 q)).neg = minusq2 q := by
    have ex : (q1 (q1 q)).neg.x = (minusq2 q).x := by
      change Quad.conjugate (Quad.conjugate q.x * frob6C1.getD 1 0) * frob6C1.getD 1 0 = q.x * frob6C1.getD 2 0
      rw [hmul, hc, mul_assoc]
      congr 1
      rw [frob6C1_eq, getD_map _ _ (by decide +kernel), getD_map _ _ (by decide +kernel), ← cast_conj]
      change g2Sh.φ _ * g2Sh.φ _ = g2Sh.φ _
      rw [← g2Sh.φ_mul, ← g2Sh.eq_iff]
      decide +kernel
    have ey : (q1 (q1 q)).neg.y = (minusq2 q).y := by
      change -(Quad.conjugate (Quad.conjugate q.y * xiHalf) * xiHalf) = q.y
      have e1 : Quad.conjugate xiHalf * xiHalf = -1 := by
        rw [xiHalf, rawPair_eq _ (by decide +kernel), ← cast_conj, eq_neg_iff_add_eq_zero]
        change g2Sh.φ _ * g2Sh.φ _ + 1 = 0
        rw [← g2Sh.φ_mul, ← g2Sh.φ_one, ← g2Sh.φ_add, ← g2Sh.φ_zero, ← g2Sh.eq_iff]
        decide +kernel
      rw [hmul, hc, mul_assoc, e1]
      ring
    generalize (q1 (q1 q)).neg = A at ex ey ⊢
    generalize minusq2 q = B at ex ey ⊢
    cases A
    cases B
    simp only at ex ey
    rw [ex, ey]
  rwa [e] at h2

theorem two_ne : (2 : Fp2) ≠ 0 := g2_good.two

/-- The value of the loop on a pair of points. -/
theorem one_eq {t : Aff Fp1 × Aff Fp2} {P : Pt g1} {Q : Pt g2} (hp : ARep g1 t.1 P) (hq : ARep g2 t.2 Q)
    (hP : plQ • P = 0) (hQ : plQ • Q = 0) :
    (if isLive t then nafOne lineAt negSixUPlus2Naf (fun q => (q1 q).neg) (fun q => (minusq2 q).neg) t else 1) ^ ateN =
      (ateAt setting twist ateCs P Q : Fp12ˣ) := by
  refine one_value g1_good g2_good setting twist horner_p hp hq hP hQ fun ev ho hz hf => ?_
  have hlam : setting.ψ Q = (psiLam : ℤ) • Q := (psi_eq hQ).trans (natCast_zsmul _ _).symm
  refine nafOne_rep setting (LawfulExt.sqr_eq) two_ne g2_a ev (line_law t.1) hf hz ho chain_ok chain_val
    (Or.inr rfl) ?_ ?_ hlam (by decide +kernel) (by decide +kernel) (by decide +kernel) (by decide +kernel)
    (thetaA_of_dvd hlam horner_lam hQ)
  · rw [neg_smul, one_smul]
    exact (q1_rep hf).neg
  · rw [neg_smul, one_smul]
    exact (minusq2_rep hf).neg

/-- Terms of points of order dividing `r`. -/
def TermRep (t : Aff Fp1 × Aff Fp2) (s : Pt g1 × Pt g2) : Prop :=
  ARep g1 t.1 s.1 ∧ ARep g2 t.2 s.2 ∧ plQ • s.1 = 0 ∧ plQ • s.2 = 0

/-- The pairing as a function of points. -/
noncomputable def e (P : Pt g1) (Q : Pt g2) : Fp12ˣ := ateAt setting twist ateCs P Q

theorem multi_eq {ts : List (Aff Fp1 × Aff Fp2)} {PQ : List (Pt g1 × Pt g2)} (h : List.Forall₂ TermRep ts PQ) :
    finalExp (multiMillerLoop ts) = some ((PQ.map fun s => (e s.1 s.2 : Fp12)).prod) := by
  have h1 : multiMillerLoop ts ^ ateN = (PQ.map fun s => (e s.1 s.2 : Fp12)).prod := by
    rw [multiMillerLoop, nafMiller_eq millerLaws, prod_live]
    exact prod_pow_of (h.imp fun t s hts => one_eq hts.1 hts.2.1 hts.2.2.1 hts.2.2.2)
  have h2 : multiMillerLoop ts ≠ 0 := by
    intro h0
    rw [h0, zero_pow (by decide +kernel)] at h1
    have : ((PQ.map fun s => e s.1 s.2).prod : Fp12) = 0 := by
      rw [h1, ← Units.coeHom_apply, map_list_prod, List.map_map]
      rfl
    exact Units.ne_zero _ this
  rw [finalExp_eq _ h2, ateN_eq, h1]

theorem e_add_left {P P' : Pt g1} (hP : plQ • P = 0) (hP' : plQ • P' = 0) {Q : Pt g2} (hQ : plQ • Q = 0) :
    e (P + P') Q = e P Q * e P' Q := by
  have hlam : setting.ψ Q = (psiLam : ℤ) • Q := (psi_eq hQ).trans (natCast_zsmul _ _).symm
  exact ateAt_add_left setting twist horner_p P P' hP hP' (thetaA_of_dvd hlam horner_lam hQ)

theorem e_add_right {P : Pt g1} {Q Q' : Pt g2} (hQ : plQ • Q = 0) (hQ' : plQ • Q' = 0) :
    e P (Q + Q') = e P Q * e P Q' := by
  have hlam : ∀ Q, plQ • Q = 0 → setting.ψ Q = (psiLam : ℤ) • Q := fun Q hQ => (psi_eq hQ).trans (natCast_zsmul _ _).symm
  exact ateAt_add_right setting twist horner_p P (thetaA_of_dvd (hlam Q hQ) horner_lam hQ)
    (thetaA_of_dvd (hlam Q' hQ') horner_lam hQ')

end Halo2.Pluto
