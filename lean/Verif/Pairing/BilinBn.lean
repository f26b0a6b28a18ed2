import Verif.Pairing.Sparse
import Verif.Curve.Cofactor

/-!
# The pairing of bn256 in terms of points
-/

set_option linter.unusedSectionVars false
set_option maxRecDepth 100000

namespace Halo2.Bn256

open Halo2.Field Halo2.Prime Halo2.Ext Halo2.Curve Halo2.Curve.Cofactor Halo2.Ext.Shadow
open Halo2.Pairing

/-- The exponent of the final exponentiation. -/
@[irreducible] def ateN : ℕ := (bnQ ^ 12 - 1) / bnR

theorem ateN_eq : (bnQ ^ 12 - 1) / bnR = ateN := by decide +kernel

/-- The factor of the Frobenius on the root of degree six. -/
def frobF : Fq2 := frob12C1.getD 1 0

@[irreducible] def frobFVal : ℕ × ℕ := (shadow frob12C1Raw).getD 1 (0, 0)

theorem frobF_eq : frobF = g2Sh.φ frobFVal := by
  rw [frobF, frob12C1_eq, getD_map _ _ (by decide +kernel), frobFVal]
  rfl

theorem U_frob : (Quad.U : Fq12) ^ bnQ = sig frobF * Quad.U := by
  have h := root_pow (p := bnQ) (i := 1) (d := 6) (by decide) dvd6 (U6 (L := Fq) rfl)
  rw [pow_one, ← map_pow] at h
  rw [h]
  have e := frob12C1_spec 1
  rw [pow_one] at e
  rw [← e]
  rfl

theorem U_ne : (Quad.U : Fq12) ≠ 0 := by
  intro h
  have := U_frob
  have h2 : (1 : Fq6) = 0 := congrArg Quad.c1 h
  exact one_ne_zero h2

theorem frob_hom : ∃ fr : Fq12 →+* Fq12, ∀ z, fr z = z ^ bnQ := by
  have : ExpChar Fq12 bnQ := ExpChar.prime bnQ_prime
  exact ⟨frobenius Fq12 bnQ, fun z => frobenius_def ..⟩

theorem sig_pow (t : Fq2) : (sig t : Fq12) ^ bnQ ^ 6 = sig t := by rw [← conj_12, conj_sig]

theorem pow_two_2 (t : Fq2) : t ^ bnQ ^ 2 = t := by rw [← frob_2]; rfl

theorem kill_2 (c : Fq2) (hc : c ≠ 0) : (sig c : Fq12) ^ ateN = 1 := by
  rw [← map_pow, pow_eq_one_of hc (q := bnQ ^ 2) (by decide +kernel) (pow_two_2 c) (by decide +kernel), map_one]

theorem U_kill : (Quad.U : Fq12) ^ ateN = 1 := by
  obtain ⟨k, hk⟩ : 6 * (bnQ ^ 2 - 1) ∣ ateN := by decide +kernel
  have h6 : (ExtField.nonRes : Fq2) ≠ 0 := by
    intro h
    have := U6 (L := Fq) rfl
    rw [h, map_zero] at this
    exact U_ne (pow_eq_zero_iff (by decide) |>.mp this)
  rw [hk, pow_mul, pow_mul, U6 (L := Fq) rfl, ← map_pow,
    pow_eq_one_of h6 (q := bnQ ^ 2) (by decide +kernel) (pow_two_2 _) dvd_rfl, map_one, one_pow]

theorem setting : Setting (sig : Fq2 →+* Fq12) g2.a g2.b ateN bnR bnQ Quad.conjHom psiU psiV where
  N0 := by decide +kernel
  four := by decide +kernel
  card z hz := by
    have e : ateN * bnR = bnQ ^ 12 - 1 := by decide +kernel
    rw [e]
    exact finalLaws.card z hz
  kill := kill_2
  frob := frob_hom
  hτ z := by rw [Quad.conjHom_apply, conj_eq, map_pow]
  psi := psi_scaling

theorem xi_eq : (ExtField.nonRes : Fq2) = g2Sh.φ xi := nonRes_2

theorem twist : Twist (Quad.ofBase : Fq →+* Fq2) (sig : Fq2 →+* Fq12) g1.a g1.b g2.a g2.b ateN bnR bnQ
    psiU psiV ((Quad.U : Fq12) ^ 2)⁻¹ ((Quad.U : Fq12) ^ 3)⁻¹ := by
  refine twistD U_ne U_frob ?_ ?_ (U6 (L := Fq) rfl) g1_a g2_a ?_ Fp.pow_p frob_hom (by decide +kernel)
    (by decide +kernel) ?_ sig_pow (U2_out rfl) (by decide +kernel) bnR_prime
  · rw [psiU_eq, frobF_eq, ← g2Sh.φ_mul, ← g2Sh.eq_iff]
    decide +kernel
  · rw [psiV_eq, frobF_eq, ← g2Sh.φ_mul, ← g2Sh.φ_mul, ← g2Sh.eq_iff]
    decide +kernel
  · have e : (Quad.ofBase g1.b : Fq2) = g2Sh.φ (g1BVal, 0) := by
      rw [g1BVal_eq]
      ext
      · rfl
      · exact Nat.cast_zero.symm
    rw [e, xi_eq, g2BVal_eq]
    change g2Sh.φ _ * g2Sh.φ _ = _
    rw [← g2Sh.φ_mul, ← g2Sh.eq_iff]
    decide +kernel
  · rw [← conj_12, conj_U2 rfl]

theorem line_law (t : Aff Fq) : LineLaw (sig : Fq2 →+* Fq12) ateN lineAt t
    (((Quad.U : Fq12) ^ 2)⁻¹ * sig (Quad.ofBase t.x)) (((Quad.U : Fq12) ^ 3)⁻¹ * sig (Quad.ofBase t.y)) :=
  lineLawD U_ne U_kill fun c => lineD rfl c t

/-- The multiple of the loop: `6 u + 2`. -/
@[irreducible] def ateM : ℤ := 6 * bnX + 2

/-- The coefficients of the optimal pairing. -/
def ateCs : List ℤ := [ateM, 1, -1, 1]

theorem chain_ok : chainOk bnR 1 (sixUPlus2Naf.reverse.drop 1) = true := by decide +kernel

theorem chain_val : chainVal 1 (sixUPlus2Naf.reverse.drop 1) = ateM := by decide +kernel

theorem horner_p : (bnR : ℤ) ∣ horner bnQ ateCs := by decide +kernel

theorem horner_lam : (bnR : ℤ) ∣ horner psiLam ateCs := by decide +kernel

theorem q1_rep {q : Aff Fq2} {Q : Pt g2} (h : FRep g2.a g2.b q Q) : FRep g2.a g2.b (q1 q) (psiHom Q) := by
  obtain ⟨hn, rfl⟩ := h
  have hn' := psi_scaling.nonsingular hn
  have ex : psiU * Quad.conjHom q.x = (q1 q).x := by
    rw [mul_comm]
    congr 1
    rw [psiU_eq, frob6C1_eq, getD_map _ _ (by decide +kernel)]
    change g2Sh.φ _ = g2Sh.φ _
    rw [← g2Sh.eq_iff]
    decide +kernel
  have ey : psiV * Quad.conjHom q.y = (q1 q).y := by
    rw [mul_comm]
    congr 1
    rw [psiV_eq, xiHalf, montPair_eq _ (by decide +kernel) _ bnQRinv_spec]
    change g2Sh.φ _ = g2Sh.φ _
    rw [← g2Sh.eq_iff]
    decide +kernel
  rw [ex, ey] at hn'
  exact ⟨hn', point_ext ex ey⟩

theorem minusq2_rep {q : Aff Fq2} {Q : Pt g2} (h : FRep g2.a g2.b q Q) :
    FRep g2.a g2.b (minusq2 q) (-(psiHom (psiHom Q))) := by
  have h1 := q1_rep (q1_rep h)
  have h2 := h1.neg
  have hc : ∀ z : Fq2, Quad.conjugate (Quad.conjugate z) = z := fun z => by
    apply Quad.ext
    · rfl
    · exact neg_neg _
  have hmul : ∀ x y : Fq2, Quad.conjugate (x * y) = Quad.conjugate x * Quad.conjugate y :=
    map_mul (Quad.conjHom : Fq2 →+* Fq2)
  have e : (q1 (q1 q)).neg = minusq2 q := by
    have ex : (q1 (q1 q)).neg.x = (minusq2 q).x := by
      change Quad.conjugate (Quad.conjugate q.x * frob6C1.getD 1 0) * frob6C1.getD 1 0 = q.x * frob6C1.getD 2 0
      rw [hmul, hc, mul_assoc]
      congr 1
      rw [frob6C1_eq, getD_map _ _ (by decide +kernel), getD_map _ _ (by decide +kernel), ← cast_conj]
      change g2Sh.φ _ * g2Sh.φ _ = g2Sh.φ _
      rw [← g2Sh.φ_mul, ← g2Sh.eq_iff]
      decide +kernel
    have ey : (q1 (q1 q)).neg.y = (minusq2 q).y := by
      change -(Quad.conjugate (Quad.conjugate q.y * xiHalf) * xiHalf) = q.y
      have e1 : Quad.conjugate xiHalf * xiHalf = -1 := by
        rw [xiHalf, montPair_eq _ (by decide +kernel) _ bnQRinv_spec, ← cast_conj, eq_neg_iff_add_eq_zero]
        change g2Sh.φ _ * g2Sh.φ _ + 1 = 0
        rw [← g2Sh.φ_mul, ← g2Sh.φ_one, ← g2Sh.φ_add, ← g2Sh.φ_zero, ← g2Sh.eq_iff]
        decide +kernel
      rw [hmul, hc, mul_assoc, e1]
      ring
    generalize (q1 (q1 q)).neg = A at ex ey ⊢
    generalize minusq2 q = B at ex ey ⊢
    cases A
    cases B
    simp only at ex ey
    rw [ex, ey]
  rwa [e] at h2

theorem two_ne : (2 : Fq2) ≠ 0 := g2_good.two

/-- The value of the loop on a pair of points. -/
theorem one_eq {t : Aff Fq × Aff Fq2} {P : Pt g1} {Q : Pt g2} (hp : ARep g1 t.1 P) (hq : ARep g2 t.2 Q)
    (hP : bnR • P = 0) (hQ : bnR • Q = 0) :
    (if isLive t then nafOne lineAt sixUPlus2Naf q1 minusq2 t else 1) ^ ateN =
      (ateAt setting twist ateCs P Q : Fq12ˣ) := by
  refine one_value g1_good g2_good setting twist horner_p hp hq hP hQ fun ev ho hz hf => ?_
  have hlam : setting.ψ Q = (psiLam : ℤ) • Q := (psi_eq Q).trans (natCast_zsmul _ _).symm
  refine nafOne_rep setting (LawfulExt.sqr_eq) two_ne g2_a ev (line_law t.1) hf hz ho chain_ok chain_val
    (Or.inl rfl) ?_ ?_ hlam (by decide +kernel) (by decide +kernel) (by decide +kernel) (by decide +kernel)
    (thetaA_of_dvd hlam horner_lam hQ)
  · rw [one_smul]
    exact q1_rep hf
  · rw [one_smul]
    exact minusq2_rep hf

/-- Terms of points of order dividing `r`. -/
def TermRep (t : Aff Fq × Aff Fq2) (s : Pt g1 × Pt g2) : Prop :=
  ARep g1 t.1 s.1 ∧ ARep g2 t.2 s.2 ∧ bnR • s.1 = 0 ∧ bnR • s.2 = 0

/-- The pairing as a function of points. -/
noncomputable def e (P : Pt g1) (Q : Pt g2) : Fq12ˣ := ateAt setting twist ateCs P Q

theorem multi_eq {ts : List (Aff Fq × Aff Fq2)} {PQ : List (Pt g1 × Pt g2)} (h : List.Forall₂ TermRep ts PQ) :
    finalExp (multiMillerLoop ts) = some ((PQ.map fun s => (e s.1 s.2 : Fq12)).prod) := by
  have h1 : multiMillerLoop ts ^ ateN = (PQ.map fun s => (e s.1 s.2 : Fq12)).prod := by
    rw [multiMillerLoop, nafMiller_eq millerLaws, prod_live]
    exact prod_pow_of (h.imp fun t s hts => one_eq hts.1 hts.2.1 hts.2.2.1 hts.2.2.2)
  have h2 : multiMillerLoop ts ≠ 0 := by
    intro h0
    rw [h0, zero_pow (by decide +kernel)] at h1
    have : ((PQ.map fun s => e s.1 s.2).prod : Fq12) = 0 := by
      rw [h1, ← Units.coeHom_apply, map_list_prod, List.map_map]
      rfl
    exact Units.ne_zero _ this
  rw [finalExp_eq _ h2, ateN_eq, h1]

theorem e_add_left {P P' : Pt g1} (hP : bnR • P = 0) (hP' : bnR • P' = 0) {Q : Pt g2} (hQ : bnR • Q = 0) :
    e (P + P') Q = e P Q * e P' Q := by
  have hlam : setting.ψ Q = (psiLam : ℤ) • Q := (psi_eq Q).trans (natCast_zsmul _ _).symm
  exact ateAt_add_left setting twist horner_p P P' hP hP' (thetaA_of_dvd hlam horner_lam hQ)

theorem e_add_right {P : Pt g1} {Q Q' : Pt g2} (hQ : bnR • Q = 0) (hQ' : bnR • Q' = 0) :
    e P (Q + Q') = e P Q * e P Q' := by
  have hlam : ∀ Q, setting.ψ Q = (psiLam : ℤ) • Q := fun Q => (psi_eq Q).trans (natCast_zsmul _ _).symm
  exact ateAt_add_right setting twist horner_p P (thetaA_of_dvd (hlam Q) horner_lam hQ)
    (thetaA_of_dvd (hlam Q') horner_lam hQ')

end Halo2.Bn256
