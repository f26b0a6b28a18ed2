import Verif.Ext.Sqrt2
import Verif.Ext.Bn256
import Verif.Ext.Bls12381
import Verif.Ext.Pluto
import Verif.Props.Consts

/-!
# `Fq2::sqrt` of bn256, bls12381 and `Fp2::sqrt` of pluto

`Field::sqrt` for quadratic extensions is src/ff_ext/quadratic.rs:300-313 with the constants of each
curve.
-/

namespace Halo2

open Halo2.Ext Halo2.Field Halo2.Prime ExtField

theorem Fp.two_ne_zero {p : ℕ} [hp : Fact (OddModulus p)] : (2 : Fp p) ≠ 0 := by
  intro h
  have h2 : ((2 : ℕ) : Fp p) = ((0 : ℕ) : Fp p) := by rw [Nat.cast_zero]; exact h
  rw [Fp.natCast_eq_iff, Nat.zero_mod] at h2
  have h1 := hp.out.odd
  have h3 := hp.out.gt
  have : 2 < p := by omega
  rw [Nat.mod_eq_of_lt this] at h2
  omega

/-- `is_zero` of `QuadExtField` is right when that of the base is. -/
theorem Ext.Quad.isZero_iff {F : Type} [CommRing F] [ExtField F]
    (hz : ∀ x : F, ExtField.isZero x = true ↔ x = 0) (x : Quad F) : Quad.isZero x = true ↔ x = 0 := by
  rw [Quad.isZero, Bool.and_eq_true, hz, hz, Quad.ext_iff]
  rfl

namespace Bn256

/-- `Fq2::sqrt` with the constants of src/bn256/fq2.rs:19-32. -/
def sqrt2 (x : Fq2) : Option Fq2 :=
  sqrtAlgo9 x [0x4f082305b61f3f51, 0x65e05aa45a1c72a3, 0x6e14116da0605617, 0x0c19139cb84c680a]
    [0x9e10460b6c3e7ea3, 0xcbc0b548b438e546, 0xdc2822db40c0ac2e, 0x183227397098d014]

theorem isZero_base (x : Fq) : ExtField.isZero x = true ↔ x = 0 := decide_eq_true_iff

theorem sqrt2_spec (x : Fq2) : (∀ r, sqrt2 x = some r → r * r = x) ∧ (sqrt2 x = none → ¬ IsSquare x) := by
  have : IsDomain Fq2 := instField2.isDomain
  exact sqrtAlgo9_spec (q := bnQ) conj_eq (by decide +kernel) (by decide +kernel) Fp.two_ne_zero
    (by change (0 - 1 : Fq) = -1; ring) (fun _ => rfl) (Quad.isZero_iff isZero_base)
    _ _ (by decide +kernel) (by decide +kernel) (by decide +kernel) (by decide +kernel) x

end Bn256

namespace Bls12381

/-- `Fq2::sqrt` with the constants of src/bls12381/fq2.rs:19-36. -/
def sqrt2 (x : Fq2) : Option Fq2 :=
  sqrtAlgo9 x [0xee7fbfffffffeaaa, 0x07aaffffac54ffff, 0xd9cc34a83dac3d89, 0xd91dd2e13ce144af, 0x92c6e9ed90d2eb35,
      0x0680447a8e5ff9a6]
    [0xdcff7fffffffd555, 0x0f55ffff58a9ffff, 0xb39869507b587b12, 0xb23ba5c279c2895f, 0x258dd3db21a5d66b,
      0x0d0088f51cbff34d]

theorem isZero_base (x : Fq) : ExtField.isZero x = true ↔ x = 0 := decide_eq_true_iff

theorem sqrt2_spec (x : Fq2) : (∀ r, sqrt2 x = some r → r * r = x) ∧ (sqrt2 x = none → ¬ IsSquare x) := by
  have : IsDomain Fq2 := instField2.isDomain
  exact sqrtAlgo9_spec (q := blsQ) conj_eq (by decide +kernel) (by decide +kernel) Fp.two_ne_zero
    (by rw [nonRes_base, ← sub_eq_zero, sub_neg_eq_add, ← Nat.cast_one, ← Nat.cast_add, ← Nat.cast_zero, Fp.natCast_eq_iff]; decide +kernel)
    (fun _ => rfl) (Quad.isZero_iff isZero_base)
    _ _ (by decide +kernel) (by decide +kernel) (by decide +kernel) (by decide +kernel) x

end Bls12381

namespace Pluto

theorem isZero_base (x : Fp1) : ExtField.isZero x = true ↔ x = 0 := decide_eq_true_iff

/-- `precompute_e`, src/pluto_eris/fp2.rs:22-33. -/
def sqrtE : Fp2 := ⟨0, Fp.ofRaw [0x67153f9701e19938, 0x5d232408689b4c6c, 0x021848271d63f087, 0x03b21f15823a404a,
  0x667c70cf991a36e6, 0x7a82a3d83bc9e63a, 0x13e275a1fa6a13af]⟩
/-- `precompute_f`, src/pluto_eris/fp2.rs:34-37. -/
def sqrtF : Fp2 := ⟨Fp.ofRaw [5, 0, 0, 0, 0, 0, 0], 0⟩
/-- `q_minus_1_over_4`, src/pluto_eris/fp2.rs:38-46. -/
def qm1o4 : List ℕ := [0x67ffff34c0000000, 0xa8a9fa30c001ae51, 0xf929e97fa3eb7ff5, 0xd10fe69736a29b1e,
  0x2a00f29dbd0e499b, 0x004c3800035fdc39, 0x0900000000000900]

/-- `Fp2::sqrt` with the constants of src/pluto_eris/fp2.rs:21-47; the generator of `Fp` is 10. `fuel`
bounds the recursion depth. -/
def sqrt2 (fuel : ℕ) (x : Fp2) : SqrtResult Fp2 := sqrtAlgo10 (Fp.sqrt 10) sqrtE sqrtF qm1o4 fuel x

/-- The numeric value of the non-zero coefficient of `precompute_e`. -/
@[irreducible] def sqrtE1 : ℕ := 0x13e275a1fa6a13af7a82a3d83bc9e63a667c70cf991a36e603b21f15823a404a021848271d63f0875d232408689b4c6c67153f9701e19938

theorem sqrtE_eq : sqrtE = ⟨0, ((sqrtE1 : ℕ) : Fp1)⟩ := by
  rw [sqrtE, Fp.ofRaw_eq _ (by decide +kernel)]
  congr 2
  decide +kernel

theorem sqrtF_eq : sqrtF = Quad.ofBase ((5 : ℕ) : Fp1) := by
  rw [sqrtF, Fp.ofRaw_eq _ (by decide +kernel)]
  rfl

theorem ef : sqrtE * sqrtE * Quad.ofBase ((5 : ℕ) : Fp1) = 1 := by
  have h : nonRes * (((sqrtE1 : ℕ) : Fp1) * ((sqrtE1 : ℕ) : Fp1)) * ((5 : ℕ) : Fp1) = 1 := by
    rw [nonRes_base, ← Nat.cast_mul, ← Nat.cast_mul, ← Nat.cast_mul, ← Nat.cast_one, Fp.natCast_eq_iff]
    decide +kernel
  have e : sqrtE = Quad.U * Quad.ofBase ((sqrtE1 : ℕ) : Fp1) := by
    rw [sqrtE_eq]
    generalize ((sqrtE1 : ℕ) : Fp1) = t
    ext <;> simp [Quad.U]
  rw [e]
  calc Quad.U * Quad.ofBase ((sqrtE1 : ℕ) : Fp1) * (Quad.U * Quad.ofBase ((sqrtE1 : ℕ) : Fp1)) * Quad.ofBase ((5 : ℕ) : Fp1)
      = Quad.U * Quad.U * (Quad.ofBase ((sqrtE1 : ℕ) : Fp1) * Quad.ofBase ((sqrtE1 : ℕ) : Fp1)) * Quad.ofBase ((5 : ℕ) : Fp1) := by ring
    _ = 1 := by rw [Quad.U_sq, ← map_mul, ← map_mul, ← map_mul, h, map_one]

theorem sqrt_base (a : Fp1) : (∀ r, Fp.sqrt 10 a = some r → r * r = a) ∧ (Fp.sqrt 10 a = none ↔ ¬ IsSquare a) :=
  Props.C11_shipped.2.2.2.2.1 a

theorem sqrt2_spec (fuel : ℕ) (x : Fp2) (hx : x ≠ 0) : ∃ r, sqrt2 (fuel + 2) x = .ok r ∧
    (∀ s, r = some s → s * s = x) ∧ (r = none → ¬ IsSquare x) := by
  have : IsDomain Fp2 := instField2.isDomain
  rw [sqrt2, sqrtF_eq]
  refine sqrtAlgo10_spec (q := plP) conj_eq (by decide +kernel) Fp.pow_p ((plP - 1) / 4) (by decide +kernel)
    Fp.two_ne_zero (fun _ => rfl) qm1o4 (by decide +kernel) (by decide +kernel) (Fp.sqrt 10)
    (fun a => (sqrt_base a).1) (fun a ha => ?_) sqrtE _ ef ?_ fuel x hx
  · cases hc : Fp.sqrt 10 a with
    | some r => exact ⟨r, rfl⟩
    | none =>
      exfalso
      have h1 := Props.pow_half_of_not_square a ((sqrt_base a).2.mp hc)
      rw [show 2 * ((plP - 1) / 4) = (plP - 1) / 2 by decide +kernel] at ha
      rw [ha] at h1
      apply Fp.two_ne_zero (p := plP)
      linear_combination h1
  · rw [show 2 * ((plP - 1) / 4) = (plP - 1) / 2 by decide +kernel]
    exact Props.pow_half_of_not_square _ (Fp.not_square_of 5 (by decide +kernel) (by decide +kernel))

theorem sqrt2_zero (fuel : ℕ) : sqrt2 fuel 0 = .diverge := by
  have : IsDomain Fp2 := instField2.isDomain
  exact sqrtAlgo10_zero (q := plP) conj_eq (by decide +kernel) ((plP - 1) / 4) (by decide +kernel) (fun _ => rfl) qm1o4
    (by decide +kernel) (by decide +kernel) _ _ _ fuel

end Pluto

end Halo2
