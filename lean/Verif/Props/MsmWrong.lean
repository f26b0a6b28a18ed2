import Verif.Msm.CounterWrong
import Verif.Props.Msm
import Verif.Props.Cofactor

/-!
# `msm_best` may return a wrong point
-/

namespace Halo2.Props

open Halo2 Halo2.Field Halo2.Prime Halo2.Curve Halo2.Msm

theorem signedDigit_zero (c w : ℕ) : signedDigit c w 0 = 0 := by
  simp [signedDigit, roundDiv]

theorem roundDiv_two (m : ℕ) (h : 10 ≤ m) : roundDiv 2 m = 0 := by
  have : 2 ^ 10 ≤ 2 ^ m := Nat.pow_le_pow_right (by decide) h
  have h4 : 2 * 2 < 2 ^ m := by omega
  rw [roundDiv, Nat.div_eq_of_lt h4]

/-- `C32_no_double_partial` on the batched path of secp256r1: 32 terms, of which the first two meet in a bucket, with different
points. -/
example : ∃ (g z : Pt Secp256r1.c) (R : Proj (Fp r1P)), g ≠ 0 ∧ z ≠ 0 ∧ NoDouble 10 (badScalars r1N 30) (g :: z :: List.replicate 30 g) ∧
    msmBest Secp256r1.c (fun _ => 10) (numBits r1N) 64 [] (List.range (numBits r1N / 10 + 1))
      ((badScalars r1N 30).map Fp.toRepr) (Secp256r1.cGen :: r1Zero :: List.replicate 30 Secp256r1.cGen) = some R ∧
    PRep Secp256r1.c R (msmValue (badScalars r1N 30) (g :: z :: List.replicate 30 g)) := by
  obtain ⟨_, g, hg, h0⟩ := C21_generators.2.2.2.2.2.2.2.2.2.2
  obtain ⟨z, hz⟩ := (Aff.valid_iff Secp256r1.c_good r1Zero).mpr r1Zero_on
  have hz0 : z ≠ 0 := by
    rintro rfl
    exact r1Zero_y hz.2
  have hgz : g ≠ z := by
    rintro rfl
    have hx : Secp256r1.cGen = r1Zero := (ARep.ext_iff Secp256r1.c_good hg hz).mpr rfl
    have hx' : Secp256r1.cGen.x = 0 := by rw [hx]; rfl
    rw [Secp256r1.cXVal_eq, ← Nat.cast_zero, Fp.natCast_eq_iff] at hx'
    revert hx'
    decide +kernel
  have h2 : Fp.toNat ((2 : ℕ) : Fp r1N) = 2 := by
    rw [Fp.toNat_natCast, Nat.mod_eq_of_lt (by decide +kernel)]
  have hk : ∀ i, 2 ≤ i → (badScalars r1N 30).getD i 0 = 0 := by
    intro i hi
    obtain ⟨i, rfl⟩ : ∃ k, i = k + 2 := ⟨i - 2, by omega⟩
    rw [badScalars, List.getD_cons_succ, List.getD_cons_succ, List.getD_eq_getElem?_getD, List.getElem?_replicate]
    split <;> rfl
  have hnd : NoDouble 10 (badScalars r1N 30) (g :: z :: List.replicate 30 g) := by
    intro w _ i J hi hJ
    have hi2 : i < 2 := by
      by_contra h
      rw [hk i (by omega), Fp.toNat_zero, signedDigit_zero] at hi
      exact hi rfl
    have hki : ∀ j < 2, (badScalars r1N 30).getD j 0 = ((2 : ℕ) : Fp r1N) := by
      intro j hj
      have : j = 0 ∨ j = 1 := by omega
      rcases this with rfl | rfl <;> rfl
    have hw : w = 0 := by
      by_contra hw
      rw [hki i hi2, h2, signedDigit, roundDiv_two _ (by omega), roundDiv_two _ (by omega)] at hi
      exact hi (by norm_num)
    subst hw
    have hd : ∀ j < 2, signedDigit 10 0 (Fp.toNat ((badScalars r1N 30).getD j 0)) = 2 := by
      intro j hj
      rw [hki j hj, h2]
      decide +kernel
    rw [hd i hi2]
    have hJ' : J ⊆ {0} := by
      intro j hj
      have := (hJ j hj).1
      rw [Finset.mem_singleton]
      omega
    have hs : (Int.sign 2) = 1 := by decide
    rw [hs, one_smul]
    rcases Finset.subset_singleton_iff.mp hJ' with rfl | rfl
    · rw [Finset.sum_empty]
      have : i = 0 ∨ i = 1 := by omega
      rcases this with rfl | rfl
      · exact h0.symm
      · exact hz0.symm
    · have : i = 1 := by have := (hJ 0 (by simp)).1; omega
      subst this
      rw [Finset.sum_singleton, hd 0 (by decide), hs, one_smul]
      exact hgz
  have hrep : List.Forall₂ (ARep Secp256r1.c) (Secp256r1.cGen :: r1Zero :: List.replicate 30 Secp256r1.cGen)
      (g :: z :: List.replicate 30 g) := by
    refine .cons hg (.cons hz ?_)
    simp only [List.replicate]
    repeat' first | exact .nil | refine .cons hg ?_
  obtain ⟨R, e, hR⟩ := C32_no_double_partial Secp256r1.c_good (r := r1N) (ln := fun _ => 10)
    (fun _ _ _ => ⟨(by decide : 1 ≤ 10), (by decide : 10 ≤ 24)⟩) 64 (by decide) (badScalars r1N 30) hrep (by
      intro kp hkp h
      have hm := (List.of_mem_zip (show (kp.1, kp.2) ∈ _ from hkp)).2
      rw [h] at hm
      rcases List.mem_cons.mp hm with h | h
      · exact absurd h.symm h0
      · rcases List.mem_cons.mp h with h | h
        · exact absurd h.symm hz0
        · exact absurd (List.mem_replicate.mp h).2.symm h0) rfl (by simp) [] (List.range (numBits r1N / 10 + 1))
    (fun h => absurd h (by simp)) (List.Perm.refl _) (Or.inr hnd)
  exact ⟨g, z, R, h0, hz0, hnd, e, hR⟩

/-- **C32 is false for `a ≠ 0`, and the failure may be silent.** On secp256r1, with 8104 terms whose bases are all the same
finite point of the curve (the one with `x = 0`) and whose scalars are 2, 2, 0, …, 0, `msm_best` returns a point of the
curve other than the multi-scalar product: minus twice the point in place of four times the point. -/
theorem C32_a_wrong (ln : ℕ → ℕ) (h1 : 10 ≤ ln 8104) (h2 : ln 8104 ≤ 24) (threads : ℕ) (order1 order2 : List ℕ)
    (ho2 : order2.Perm (List.range (numBits r1N / windowSize ln 8104 + 1))) :
    ∃ (ks : List (Fp r1N)) (B : Aff (Fp r1P)) (p q : Pt Secp256r1.c) (A : Proj (Fp r1P)), ks.length = 8104 ∧
      ARep Secp256r1.c B p ∧ p ≠ 0 ∧
      msmBest Secp256r1.c ln (numBits r1N) threads order1 order2 (ks.map Fp.toRepr) (List.replicate 8104 B) = some A ∧
      PRep Secp256r1.c A q ∧ q = -(2 • p) ∧ msmValue ks (List.replicate 8104 p) = 4 • p ∧
      q ≠ msmValue ks (List.replicate 8104 p) := by
  obtain ⟨p, A, hp, hp0, e, hA⟩ := r1_wrong ln h1 h2 threads order1 order2 ho2
  have hv : ∀ m : ℕ, msmValue (badScalars r1N m) (List.replicate (m + 2) p) = 4 • p := by
    intro m
    have hz : ∀ m n : ℕ, (List.zipWith (fun k p => Fp.toNat k • p) (List.replicate m (0 : Fp r1N)) (List.replicate n p)).sum = 0 := by
      intro m
      induction m with
      | zero => intro n; rfl
      | succ m ih =>
        intro n
        cases n with
        | zero => rfl
        | succ n =>
          rw [List.replicate_succ, List.replicate_succ, List.zipWith_cons_cons, List.sum_cons, ih, Fp.toNat_zero, zero_smul, add_zero]
    have h2' : Fp.toNat ((2 : ℕ) : Fp r1N) = 2 := by
      rw [Fp.toNat_natCast, Nat.mod_eq_of_lt (by decide +kernel)]
    rw [msmValue, badScalars, List.replicate_succ, List.replicate_succ,
      List.zipWith_cons_cons, List.zipWith_cons_cons, List.sum_cons, List.sum_cons, hz, h2', add_zero, ← add_smul]
  refine ⟨badScalars r1N 8102, r1Zero, p, 2 • -p, A, ?_, hp, hp0, ?_, hA, smul_neg _ _, hv 8102, ?_⟩
  · simp only [badScalars, List.length_cons, List.length_replicate]
  · rw [← e]
    rfl
  · rw [hv 8102]
    intro h
    have h6 : 6 • p = 0 := by
      have : (6 : ℕ) • p = 4 • p + 2 • p := by rw [← add_smul]
      rw [this, ← h, smul_neg, neg_add_cancel]
    have hn : r1N • p = 0 := (C41_prime_order.2.2.2.2.2.2.2.1 _ p (hp.toCurve Secp256r1.c_good)).mp rfl
    have d := Nat.dvd_gcd (addOrderOf_dvd_of_nsmul_eq_zero h6) (addOrderOf_dvd_of_nsmul_eq_zero hn)
    rw [show Nat.gcd 6 r1N = 1 by decide +kernel, Nat.dvd_one, AddMonoid.addOrderOf_eq_one_iff] at d
    exact hp0 d

/-- With the window of 10 bits that the code picks for 8104 terms, and the windows run in order. -/
example : ∃ (p : Pt Secp256r1.c) (A : Proj (Fp r1P)) (ks : List (Fp r1N)) (B : Aff (Fp r1P)), p ≠ 0 ∧
    msmBest Secp256r1.c (fun _ => 10) (numBits r1N) 1 [] (List.range (numBits r1N / 10 + 1)) (ks.map Fp.toRepr)
      (List.replicate 8104 B) = some A ∧ PRep Secp256r1.c A (-(2 • p)) := by
  obtain ⟨ks, B, p, q, A, _, _, hp, e, hA, rfl, _⟩ := C32_a_wrong (fun _ => 10) le_rfl (by decide) 1 []
    (List.range (numBits r1N / 10 + 1)) (by rw [windowSize]; exact List.Perm.refl _)
  exact ⟨p, A, ks, B, hp, e, hA⟩

end Halo2.Props
