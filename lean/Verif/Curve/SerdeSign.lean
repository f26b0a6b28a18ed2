import Verif.Curve.SerdeInst

/-!
# Which points the sign rules separate from their opposites
-/

set_option linter.unusedSectionVars false

namespace Halo2

open Halo2.Field Halo2.Prime Halo2.Ext Halo2.Curve

section
variable {p : ℕ} [hp : Fact (OddModulus p)]

theorem Fp.odd_p : p % 2 = 1 := hp.out.odd

theorem Fp.isOdd_neg (y : Fp p) (h : y ≠ 0) : Fp.isOdd (-y) ≠ Fp.isOdd y := by
  rw [Fp.isOdd_eq, Fp.isOdd_eq, Fp.toNat_neg y h]
  have h1 := Fp.toNat_lt y
  have h2 := Fp.odd_p (p := p)
  intro h3
  rw [decide_eq_decide] at h3
  omega

theorem Fp.isOdd_neg_zero : Fp.isOdd (-(0 : Fp p)) = Fp.isOdd (0 : Fp p) := by rw [neg_zero]

/-- The two residues around half the modulus. -/
theorem Fp.half_iff [Fact p.Prime] [Fp.SmallModulus p] (a : Fp p) :
    2 * a * (2 * a) = 1 ↔ 2 * a.toNat + 1 = p ∨ 2 * a.toNat = p + 1 := by
  have h1 := Fp.toNat_lt a
  have h2 := Fp.odd_p (p := p)
  have e : ((2 * a.toNat : ℕ) : Fp p) = 2 * a := by rw [Nat.cast_mul, Fp.natCast_toNat]; rfl
  have hgt := hp.out.gt
  rw [mul_self_eq_one_iff, ← e, eq_neg_iff_add_eq_zero, ← Nat.cast_one, ← Nat.cast_add, ← Nat.cast_zero,
    Fp.natCast_eq_iff, Fp.natCast_eq_iff, Nat.zero_mod]
  generalize a.toNat = t at *
  rw [Nat.mod_eq_of_lt (show 1 < p by omega)]
  by_cases h : 2 * t < p
  · rw [Nat.mod_eq_of_lt h]
    by_cases h' : 2 * t + 1 < p
    · rw [Nat.mod_eq_of_lt h']; omega
    · rw [show 2 * t + 1 = p by omega, Nat.mod_self]; omega
  · rw [Nat.mod_eq_sub_mod (by omega), Nat.mod_eq_of_lt (show 2 * t - p < p by omega),
      Nat.mod_eq_sub_mod (show p ≤ 2 * t + 1 by omega), Nat.mod_eq_of_lt (show 2 * t + 1 - p < p by omega)]
    omega

theorem Fp.lexLargest_neg [Fact p.Prime] [Fp.SmallModulus p] (y : Fp p) (h : y ≠ 0) :
    Fp.lexLargest (-y) = Fp.lexLargest y ↔ 2 * y * (2 * y) = 1 := by
  have h1 := Fp.toNat_lt y
  have h2 := Fp.odd_p (p := p)
  rw [Fp.half_iff, Fp.lexLargest_eq, Fp.lexLargest_eq, Fp.toNat_neg y h, decide_eq_decide]
  omega

theorem Tower2.isOdd_eq (x : Quad (Fp p)) : Tower2.isOdd x = Fp.isOdd x.c0 := by
  rw [(Props.C20_order p x x).2.2, Fp.isOdd_eq]

theorem Tower2.isOdd_neg (y : Quad (Fp p)) : Tower2.isOdd (-y) = Tower2.isOdd y ↔ y.c0 = 0 := by
  rw [Tower2.isOdd_eq, Tower2.isOdd_eq]
  change Fp.isOdd (-y.c0) = _ ↔ _
  constructor
  · intro h
    by_contra h0
    exact Fp.isOdd_neg _ h0 h
  · intro h
    rw [h, neg_zero]

theorem Tower2.lexLargest_neg [Fact p.Prime] [Fp.SmallModulus p] (y : Quad (Fp p)) (h : y ≠ 0) :
    Tower2.lexLargest (-y) = Tower2.lexLargest y ↔
      2 * y.c1 * (2 * y.c1) = 1 ∨ (y.c1 = 0 ∧ 2 * y.c0 * (2 * y.c0) = 1) := by
  have e : Tower2.lexLargest (-y) = Tower2.lexLargest y ↔ (Tower2.lexLargest (-y) = true ↔ Tower2.lexLargest y = true) := by
    cases Tower2.lexLargest (-y) <;> cases Tower2.lexLargest y <;> decide
  rw [e, Props.C20_lex_largest, Props.C20_lex_largest]
  change ((p - 1) / 2 ≤ (-y.c1).toNat ∨ ((-y.c1).toNat = 0 ∧ (p - 1) / 2 ≤ (-y.c0).toNat) ↔ _) ↔ _
  have h2 := Fp.odd_p (p := p)
  have hgt := hp.out.gt
  rw [Fp.half_iff, Fp.half_iff]
  have l0 := Fp.toNat_lt y.c0
  have l1 := Fp.toNat_lt y.c1
  by_cases h1 : y.c1 = 0
  · have h0 : y.c0 ≠ 0 := fun h0 => h (Quad.ext h0 h1)
    rw [Fp.toNat_neg _ h0, h1, neg_zero, Fp.toNat_zero]
    have : ∀ a : Fp p, ((0 : Fp p) = 0) = True := fun _ => eq_self _
    simp only [true_and]
    omega
  · have hne := mt (Fp.toNat_eq_zero y.c1).mp h1
    rw [Fp.toNat_neg _ h1]
    simp only [h1, false_and, or_false]
    omega

end

variable {F : Type} [_root_.Field F] [DecidableEq F] [BaseField F] [LawfulBase F]

/-- No point with `x = 0` when `b` is not a square. -/
theorem Curve.x_ne_zero {C : Params F} (hb : ¬ IsSquare C.b) {A : Aff F} (hA : Aff.isOnCurve C A = true)
    (hid : A ≠ Aff.identity) : A.x ≠ 0 := by
  intro h
  rcases (Aff.isOnCurve_iff A).mp hA with h0 | h0
  · exact hid (Aff.ext h0.1 h0.2)
  · apply hb
    refine ⟨A.y, ?_⟩
    rw [h] at h0
    linear_combination -h0

namespace Bls12381

@[irreducible] def g1NonCube : ℕ := 0x680447a8e5ff9a692c6e9ed90d2eb35d91dd2e13ce144afd9cc34a83dac3d8907aaffffac54ffffee7fbfffffffeaa7

/-- No point of bls12381's G1 has `y = (q ± 1)/2`: it would make `-15/4` a cube. -/
theorem g1_sign_sep {A : Aff Fq} (hA : Aff.isOnCurve g1 A = true) (hid : A ≠ Aff.identity) :
    Fp.lexLargest (-A.y) ≠ Fp.lexLargest A.y := by
  obtain ⟨he, _, hy⟩ := Codec.nonid g1_good hA hid
  intro h
  rw [Fp.lexLargest_neg _ hy] at h
  rw [g1BVal_eq, g1_a] at he
  have h4 : ((g1BVal : ℕ) : Fp blsQ) = 4 := by rw [show g1BVal = 4 by decide +kernel]; rfl
  have hn : (4 : Fp blsQ) * ((g1NonCube : ℕ) : Fp blsQ) + 15 = 0 := by
    have : ((4 * g1NonCube + 15 : ℕ) : Fp blsQ) = ((0 : ℕ) : Fp blsQ) :=
      (Fp.natCast_eq_iff _ _).mpr (by decide +kernel)
    rw [Nat.cast_add, Nat.cast_mul, Nat.cast_zero] at this
    exact this
  have h4' : (4 : Fp blsQ) ≠ 0 := by
    rw [show (4 : Fp blsQ) = 2 * 2 by norm_num]
    exact mul_ne_zero Fp.two_ne_zero Fp.two_ne_zero
  refine Fp.not_cube_of g1NonCube (by decide +kernel) (by decide +kernel) (by decide +kernel) (by decide +kernel) A.x ?_
  apply mul_left_cancel₀ h4'
  rw [h4] at he
  linear_combination h - 4 * he - hn

end Bls12381

end Halo2
