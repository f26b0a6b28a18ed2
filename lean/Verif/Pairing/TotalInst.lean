import Verif.Pairing.BilinBn
import Verif.Pairing.BilinBls
import Verif.Pairing.BilinPluto
import Verif.Pairing.Total

/-!
# When the pairings panic: the three engines

The fate of a point of the second curve is computed for every order it can have: the order divides the order of the curve, and the
common divisors of that with the multiples where a step is exceptional are computed by the kernel.
-/

set_option linter.unusedSectionVars false
set_option maxRecDepth 100000

namespace Halo2.Pairing

open Halo2.Field Halo2.Prime Halo2.Ext Halo2.Curve WeierstrassCurve.Affine

section
variable {L F K : Type} [Field L] [DecidableEq L] [BaseField L] [LawfulBase L] [Field F] [DecidableEq F] [BaseField F] [LawfulBase F]
  [ExtField F] [Field K] {C1 : Params L} {C2 : Params F}

/-- On a curve of odd order no finite point has second coordinate zero. -/
theorem live_y {p : Aff L} {P : Pt C1} (hp : ARep C1 p P) (hP : P ≠ 0) (hodd : Nat.card (Pt C1) % 2 = 1) : p.y ≠ 0 := by
  intro hy
  obtain ⟨hn, hPe⟩ := FRep.of_rep hp hP
  have hneg : (Point.some p.x p.y hn : (short C1.a C1.b).Point) = -Point.some p.x p.y hn := by
    rw [Point.neg_some]
    refine point_ext rfl ?_
    rw [negY, hy]
    simp [short]
  have h2 : 2 • P = 0 := by
    rw [two_nsmul, add_eq_zero_iff_eq_neg]
    exact hPe.trans (hneg.trans (congrArg Neg.neg hPe.symm))
  have h3 : addOrderOf P ∣ Nat.gcd 2 (Nat.card (Pt C1)) :=
    Nat.dvd_gcd (addOrderOf_dvd_of_nsmul_eq_zero h2) (addOrderOf_dvd_natCard P)
  have h4 : Nat.gcd 2 (Nat.card (Pt C1)) = 1 := by
    rw [Nat.gcd_rec, hodd]
    rfl
  rw [h4, Nat.dvd_one] at h3
  exact hP (AddMonoid.addOrderOf_eq_one_iff.mp h3)

/-- The value of a pair is zero exactly when both points are finite and the second has a bad order. -/
theorem value_zero_iff (h1 : Good C1) (h2 : Good C2) {one : Aff L × Aff F → K} {t : Aff L × Aff F} {P : Pt C1} {Q : Pt C2}
    (hp : ARep C1 t.1 P) (hq : ARep C2 t.2 Q) (hodd : Nat.card (Pt C1) % 2 = 1) {bad : List ℕ}
    (hb : ∀ l ∈ bad, l.Prime)
    (hone : t.1.y ≠ 0 → FRep C2.a C2.b t.2 Q → t.2.toCurve = ⟨t.2.x, t.2.y, 1⟩ → addOrderOf Q ≠ 1 →
      (one t = 0 ↔ addOrderOf Q ∈ bad)) :
    (if isLive t then one t else 1) = 0 ↔ P ≠ 0 ∧ Q ≠ 0 ∧ ∃ l ∈ bad, l • Q = 0 := by
  have hl : isLive t = true ↔ P ≠ 0 ∧ Q ≠ 0 := isLive_iff h1 h2 hp hq
  by_cases h : P ≠ 0 ∧ Q ≠ 0
  · rw [if_pos (hl.mpr h)]
    have hz : t.2.toCurve = ⟨t.2.x, t.2.y, 1⟩ := by
      rw [Aff.toCurve, if_neg]
      rw [hq.isIdentity h2]
      exact h.2
    have ho : addOrderOf Q ≠ 1 := fun e => h.2 (AddMonoid.addOrderOf_eq_one_iff.mp e)
    rw [hone (live_y hp h.1 hodd) (FRep.of_rep hq h.2) hz ho]
    constructor
    · exact fun hm => ⟨h.1, h.2, _, hm, addOrderOf_nsmul_eq_zero Q⟩
    · rintro ⟨-, -, l, hm, hlQ⟩
      rcases (Nat.dvd_prime (hb l hm)).mp (addOrderOf_dvd_of_nsmul_eq_zero hlQ) with e | e
      · exact absurd e ho
      · rw [e]; exact hm
  · rw [if_neg (fun e => h (hl.mp e))]
    constructor
    · exact fun e => absurd e one_ne_zero
    · exact fun e => absurd ⟨e.1, e.2.1⟩ h

end

section
variable {L : Type} [Field L] [ExtField L]

theorem scaleBy_ne {c : Quad L} {k : L} (hc : c ≠ 0) (hk : k ≠ 0) : scaleBy c k ≠ 0 := by
  intro h
  apply hc
  have h0 : c.c0 * k = 0 := congrArg Quad.c0 h
  have h1 : c.c1 * k = 0 := congrArg Quad.c1 h
  apply Quad.ext
  · exact (mul_eq_zero.mp h0).resolve_right hk
  · exact (mul_eq_zero.mp h1).resolve_right hk

theorem scaleBy_zero (k : L) : scaleBy (0 : Quad L) k = 0 := by
  apply Quad.ext
  · exact zero_mul k
  · exact zero_mul k

end

/-- The product of the values is zero exactly when one of them is. -/
theorem prod_zero_iff {K A B : Type} [Field K] {R : A → B → Prop} {f : A → K} {bad : B → Prop}
    (h : ∀ a b, R a b → (f a = 0 ↔ bad b)) {as : List A} {bs : List B} (hr : List.Forall₂ R as bs) :
    (as.map f).prod = 0 ↔ ∃ b ∈ bs, bad b := by
  induction hr with
  | nil => simp
  | cons hab _ ih =>
    rw [List.map_cons, List.prod_cons, mul_eq_zero, ih, h _ _ hab]
    simp only [List.mem_cons, exists_eq_or_imp]

end Halo2.Pairing

namespace Halo2.Bn256

open Halo2.Field Halo2.Prime Halo2.Ext Halo2.Curve Halo2.Curve.Cofactor Halo2.Ext.Shadow Halo2.Pairing

theorem lineOk {p : Aff Fq} (hy : p.y ≠ 0) : LineOk lineAt p where
  ne c hc h := scaleBy_ne hc hy (congrArg Cubic.c0 (congrArg Quad.c0 h) : scaleBy c.a p.y = 0)
  zero := by
    change (⟨⟨scaleBy 0 p.y, 0, 0⟩, ⟨scaleBy 0 p.x, 0, 0⟩⟩ : Fq12) = 0
    rw [scaleBy_zero, scaleBy_zero]
    rfl

theorem total_chain : chainGcd (g2Cof * bnR) [] 1 (sixUPlus2Naf.reverse.drop 1) = true := by decide +kernel

theorem total_last : (gcdIn (g2Cof * bnR) [] (ateM - psiLam) && gcdIn (g2Cof * bnR) [] (ateM + psiLam) &&
    gcdIn (g2Cof * bnR) [] (ateM + psiLam - -(psiLam * psiLam)) && gcdIn (g2Cof * bnR) [] (ateM + psiLam + -(psiLam * psiLam))) = true := by
  decide +kernel

theorem one_ne_zero {t : Aff Fq × Aff Fq2} {P : Pt g1} {Q : Pt g2} (hp : ARep g1 t.1 P) (hq : ARep g2 t.2 Q) :
    (if isLive t then nafOne lineAt sixUPlus2Naf q1 minusq2 t else 1) = 0 ↔ P ≠ 0 ∧ Q ≠ 0 ∧ ∃ l ∈ ([] : List ℕ), l • Q = 0 := by
  refine value_zero_iff g1_good g2_good hp hq (by rw [g1_order.1]; decide +kernel) (fun _ h => absurd h List.not_mem_nil)
    fun hy hf hz ho => ?_
  have hd : addOrderOf Q ∣ g2Cof * bnR := by
    rw [← g2_order.1]
    exact addOrderOf_dvd_natCard Q
  have hb : ∀ l ∈ ([] : List ℕ), l.Prime := fun _ h => absurd h List.not_mem_nil
  have hnb : addOrderOf Q ∉ ([] : List ℕ) := List.not_mem_nil
  have hc := chainGcd_spec hb hd ho hnb _ _ total_chain
  have hl := total_last
  rw [Bool.and_eq_true, Bool.and_eq_true, Bool.and_eq_true] at hl
  obtain ⟨⟨⟨l1, l2⟩, l3⟩, l4⟩ := hl
  have hT : ((((sixUPlus2Naf.reverse.drop 1).foldl (Fate.round (addOrderOf Q)) (.fin 1)).add (addOrderOf Q) psiLam).add (addOrderOf Q)
      (-(psiLam * psiLam))) = .fin (ateM + psiLam + -(psiLam * psiLam)) := by
    rw [hc, chain_val, Fate.add, if_neg (gcdIn_spec hb l1 hd ho hnb), if_neg (gcdIn_spec hb l2 hd ho hnb), Fate.add,
      if_neg (gcdIn_spec hb l3 hd ho hnb), if_neg (gcdIn_spec hb l4 hd ho hnb)]
  obtain ⟨r, h⟩ := nafOne_fate (g1 := q1) (g2 := minusq2) (LawfulExt.sqr_eq) two_ne g2_a (lineOk hy) rfl hf hz
    (c1 := psiLam) (c2 := -(psiLam * psiLam))
    (by
      have := q1_rep hf
      rwa [psi_eq, ← natCast_zsmul] at this)
    (by
      have := minusq2_rep hf
      rwa [psi_eq, psi_eq, smul_smul, ← natCast_zsmul, ← neg_smul, Nat.cast_mul] at this) hT
  constructor
  · exact fun e => absurd e h.1
  · exact fun e => absurd e hnb

/-- Terms of points of the curves. -/
def CurveRep (t : Aff Fq × Aff Fq2) (s : Pt g1 × Pt g2) : Prop := ARep g1 t.1 s.1 ∧ ARep g2 t.2 s.2

theorem multi_ne_zero {ts : List (Aff Fq × Aff Fq2)} {PQ : List (Pt g1 × Pt g2)} (h : List.Forall₂ CurveRep ts PQ) :
    multiMillerLoop ts ≠ 0 := by
  rw [multiMillerLoop, nafMiller_eq millerLaws, prod_live, Ne,
    prod_zero_iff (R := CurveRep) (fun t s hts => one_ne_zero hts.1 hts.2) h]
  rintro ⟨s, -, -, -, l, hl, -⟩
  exact absurd hl List.not_mem_nil

end Halo2.Bn256

namespace Halo2.Bls12381

open Halo2.Field Halo2.Prime Halo2.Ext Halo2.Curve Halo2.Curve.Cofactor Halo2.Ext.Shadow Halo2.Pairing

theorem lineOk {p : Aff Fq} (hy : p.y ≠ 0) : LineOk lineAt p where
  ne c hc h := scaleBy_ne hc hy (congrArg Cubic.c1 (congrArg Quad.c1 h) : scaleBy c.a p.y = 0)
  zero := by
    change (⟨⟨0, scaleBy 0 p.x, 0⟩, ⟨0, scaleBy 0 p.y, 0⟩⟩ : Fq12) = 0
    rw [scaleBy_zero, scaleBy_zero]
    rfl

/-- The digits of the loop. -/
def loopDigits : List ℤ := ((blsX.map fun b => b == 1).drop 1).map fun b => if b then 1 else 0

theorem total_chain : chainGcd (g2Cof * blsR) [13] 1 loopDigits = true := by decide +kernel

theorem bad_prime : ∀ l ∈ [13], l.Prime := fun l h => by
  rw [List.mem_singleton.mp h]
  decide +kernel

theorem one_zero {t : Aff Fq × Aff Fq2} {P : Pt g1} {Q : Pt g2} (hp : ARep g1 t.1 P) (hq : ARep g2 t.2 Q) :
    (if isLive t then bitOne lineAt blsX t else 1) = 0 ↔ P ≠ 0 ∧ Q ≠ 0 ∧ ∃ l ∈ [13], l • Q = 0 := by
  refine value_zero_iff g1_good g2_good hp hq (by rw [g1_order.1]; decide +kernel) bad_prime fun hy hf hz ho => ?_
  by_cases hnb : addOrderOf Q ∈ [13]
  · refine ⟨fun _ => hnb, fun _ => ?_⟩
    rw [List.mem_singleton] at hnb
    obtain ⟨r, h⟩ := bitOne_fate (bits := blsX) (T := .zero) (LawfulExt.sqr_eq) two_ne g2_a (lineOk hy) hnb hf hz (by decide +kernel)
    exact h
  · have hd : addOrderOf Q ∣ g2Cof * blsR := by
      rw [← g2_order.1]
      exact addOrderOf_dvd_natCard Q
    obtain ⟨r, h⟩ := bitOne_fate (bits := blsX) (LawfulExt.sqr_eq) two_ne g2_a (lineOk hy) rfl hf hz
      (chainGcd_spec bad_prime hd ho hnb _ _ total_chain)
    exact ⟨fun e => absurd e h.1, fun e => absurd e hnb⟩

/-- Terms of points of the curves. -/
def CurveRep (t : Aff Fq × Aff Fq2) (s : Pt g1 × Pt g2) : Prop := ARep g1 t.1 s.1 ∧ ARep g2 t.2 s.2

theorem multi_zero_iff {ts : List (Aff Fq × Aff Fq2)} {PQ : List (Pt g1 × Pt g2)} (h : List.Forall₂ CurveRep ts PQ) :
    multiMillerLoop ts = 0 ↔ ∃ s ∈ PQ, s.1 ≠ 0 ∧ s.2 ≠ 0 ∧ ∃ l ∈ [13], l • s.2 = 0 := by
  rw [multiMillerLoop, bitMiller_eq millerLaws, prod_live, conj_12, pow_eq_zero_iff (by decide +kernel)]
  exact prod_zero_iff (R := CurveRep) (fun t s hts => one_zero hts.1 hts.2) h

end Halo2.Bls12381

namespace Halo2.Pluto

open Halo2.Field Halo2.Prime Halo2.Ext Halo2.Curve Halo2.Curve.Cofactor Halo2.Ext.Shadow Halo2.Pairing

theorem lineOk {p : Aff Fp1} (hy : p.y ≠ 0) : LineOk lineAt p where
  ne c hc h := scaleBy_ne hc hy (congrArg Cubic.c0 (congrArg Quad.c0 h) : scaleBy c.a p.y = 0)
  zero := by
    change (⟨⟨scaleBy 0 p.y, 0, 0⟩, ⟨scaleBy 0 p.x, 0, 0⟩⟩ : Fp12) = 0
    rw [scaleBy_zero, scaleBy_zero]
    rfl

/-- The eigenvalue of the twisted Frobenius on the whole curve. -/
@[irreducible] def psiLamAll : ℕ :=
  0x206666666666a7333557f999d24c7a26c1a99874cb9d0c4a9638afd51910af999d4d015cd3c1c1cfcd587c29ec36a4468bfb95e2e9c87e04184fda8fcc1738990e348ee364cff923fd30469cfd9efe0c1a6ba7f70f56eaadf1afc32e9ecf49e22193a6e731baabf3999a247cccccccc

theorem psi_all (p : Pt g2) : psiHom p = psiLamAll • p := by
  have h : psiHom g2Wit = (psiLamAll • AddMonoidHom.id (Pt g2)) g2Wit := by
    refine (ptEq_iff (psi_sh g2Wit_rep) (smul_rep g2_good g2Op_isAdd psiLamAll g2Wit_rep)).mp ?_
    decide +kernel
  have hp : p ∈ AddSubgroup.zmultiples g2Wit := by rw [g2_order.2]; trivial
  exact hom_eq_of_zmultiples h hp

theorem total_chain : chainGcd (g2Cof * plQ) [13, 73] 1 (negSixUPlus2Naf.reverse.drop 1) = true := by decide +kernel

theorem total_last : (gcdIn (g2Cof * plQ) [13, 73] (ateM - -psiLamAll) && gcdIn (g2Cof * plQ) [13, 73] (ateM + -psiLamAll) &&
    gcdIn (g2Cof * plQ) [13, 73] (ateM + -psiLamAll - psiLamAll * psiLamAll) &&
    gcdIn (g2Cof * plQ) [13, 73] (ateM + -psiLamAll + psiLamAll * psiLamAll)) = true := by
  decide +kernel

theorem bad_prime : ∀ l ∈ [13, 73], l.Prime := fun l h => by
  rcases List.mem_cons.mp h with rfl | h
  · decide +kernel
  · rw [List.mem_singleton.mp h]
    decide +kernel

theorem one_zero {t : Aff Fp1 × Aff Fp2} {P : Pt g1} {Q : Pt g2} (hp : ARep g1 t.1 P) (hq : ARep g2 t.2 Q) :
    (if isLive t then nafOne lineAt negSixUPlus2Naf (fun q => (q1 q).neg) (fun q => (minusq2 q).neg) t else 1) = 0 ↔
      P ≠ 0 ∧ Q ≠ 0 ∧ ∃ l ∈ [13, 73], l • Q = 0 := by
  refine value_zero_iff g1_good g2_good hp hq (by rw [g1_order.1]; decide +kernel) bad_prime fun hy hf hz ho => ?_
  have h1 : FRep g2.a g2.b (q1 t.2).neg ((-psiLamAll : ℤ) • Q) := by
    have e : -psiHom Q = (-psiLamAll : ℤ) • Q := by rw [psi_all, neg_smul, natCast_zsmul]
    rw [← e]
    exact (q1_rep hf).neg
  have h2 : FRep g2.a g2.b (minusq2 t.2).neg ((psiLamAll * psiLamAll : ℤ) • Q) := by
    have e : - -psiHom (psiHom Q) = (psiLamAll * psiLamAll : ℤ) • Q := by
      rw [psi_all, psi_all, smul_smul, neg_neg, ← Nat.cast_mul, natCast_zsmul]
    rw [← e]
    exact (minusq2_rep hf).neg
  by_cases hnb : addOrderOf Q ∈ [13, 73]
  · refine ⟨fun _ => hnb, fun _ => ?_⟩
    rcases List.mem_cons.mp hnb with hn | hn
    · obtain ⟨r, h⟩ := nafOne_fate (naf := negSixUPlus2Naf) (g1 := fun q => (q1 q).neg) (g2 := fun q => (minusq2 q).neg) (T := .zero)
        (LawfulExt.sqr_eq) two_ne g2_a (lineOk hy) hn hf hz h1 h2 (by decide +kernel)
      exact h
    · rw [List.mem_singleton] at hn
      obtain ⟨r, h⟩ := nafOne_fate (naf := negSixUPlus2Naf) (g1 := fun q => (q1 q).neg) (g2 := fun q => (minusq2 q).neg) (T := .zero)
        (LawfulExt.sqr_eq) two_ne g2_a (lineOk hy) hn hf hz h1 h2 (by decide +kernel)
      exact h
  · have hd : addOrderOf Q ∣ g2Cof * plQ := by
      rw [← g2_order.1]
      exact addOrderOf_dvd_natCard Q
    have hc := chainGcd_spec bad_prime hd ho hnb _ _ total_chain
    have hl := total_last
    rw [Bool.and_eq_true, Bool.and_eq_true, Bool.and_eq_true] at hl
    obtain ⟨⟨⟨l1, l2⟩, l3⟩, l4⟩ := hl
    have hT : ((((negSixUPlus2Naf.reverse.drop 1).foldl (Fate.round (addOrderOf Q)) (.fin 1)).add (addOrderOf Q) (-psiLamAll)).add
        (addOrderOf Q) (psiLamAll * psiLamAll)) = .fin (ateM + -psiLamAll + psiLamAll * psiLamAll) := by
      rw [hc, chain_val, Fate.add, if_neg (gcdIn_spec bad_prime l1 hd ho hnb), if_neg (gcdIn_spec bad_prime l2 hd ho hnb), Fate.add,
        if_neg (gcdIn_spec bad_prime l3 hd ho hnb), if_neg (gcdIn_spec bad_prime l4 hd ho hnb)]
    obtain ⟨r, h⟩ := nafOne_fate (g1 := fun q => (q1 q).neg) (g2 := fun q => (minusq2 q).neg) (LawfulExt.sqr_eq) two_ne g2_a
      (lineOk hy) rfl hf hz h1 h2 hT
    exact ⟨fun e => absurd e h.1, fun e => absurd e hnb⟩

/-- Terms of points of the curves. -/
def CurveRep (t : Aff Fp1 × Aff Fp2) (s : Pt g1 × Pt g2) : Prop := ARep g1 t.1 s.1 ∧ ARep g2 t.2 s.2

theorem multi_zero_iff {ts : List (Aff Fp1 × Aff Fp2)} {PQ : List (Pt g1 × Pt g2)} (h : List.Forall₂ CurveRep ts PQ) :
    multiMillerLoop ts = 0 ↔ ∃ s ∈ PQ, s.1 ≠ 0 ∧ s.2 ≠ 0 ∧ ∃ l ∈ [13, 73], l • s.2 = 0 := by
  rw [multiMillerLoop, nafMiller_eq millerLaws, prod_live]
  exact prod_zero_iff (R := CurveRep) (fun t s hts => one_zero hts.1 hts.2) h

end Halo2.Pluto
