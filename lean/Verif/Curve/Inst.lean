import Verif.Curve.Scalar
import Verif.Curve.NoRoot
import Verif.Ext.Sqrt2Inst

/-!
# The curves of the library

The constants `a`, `b` and the generators handed to `new_curve_impl!`, and the facts the group law needs
of them.
-/

set_option linter.unusedSectionVars false

namespace Halo2

open Halo2.Field Halo2.Prime Halo2.Ext Halo2.Ext.Shadow Halo2.Curve

/-- Prime fields as curve base fields: the generated methods. -/
instance Fp.instBaseField {p : ℕ} [Fact (OddModulus p)] : BaseField (Fp p) where
  sqr := Fp.square
  dbl := Fp.double
  invert := Fp.invert
  isZero x := decide (x = 0)

theorem invert_eq_of_iff {F : Type} [_root_.Field F] [DecidableEq F] {inv : F → Option F}
    (h : ∀ x y, inv x = some y ↔ x * y = 1) (x : F) : inv x = if x = 0 then none else some x⁻¹ := by
  split
  · next h0 =>
    cases hx : inv x with
    | none => rfl
    | some y =>
      rw [h, h0, zero_mul] at hx
      exact absurd hx zero_ne_one
  · next h0 =>
    rw [h]
    exact mul_inv_cancel₀ h0

instance Fp.instLawfulBase {p : ℕ} [Fact (OddModulus p)] [Fact p.Prime] [Fp.SmallModulus p] : LawfulBase (Fp p) where
  sqr_eq := Fp.square_eq
  dbl_eq := Fp.double_eq
  invert_eq := invert_eq_of_iff Fp.invert_iff
  isZero_iff _ := decide_eq_true_iff

/-- Quadratic extensions as curve base fields: the `ff::Field` methods. -/
instance Ext.Quad.instBaseField {F : Type} [ExtField (Quad F)] : BaseField (Quad F) where
  sqr := ExtField.sqr
  dbl := ExtField.dbl
  invert := ExtField.invert
  isZero := ExtField.isZero

instance : LawfulBase Bn256.Fq2 where
  sqr_eq := LawfulExt.sqr_eq
  dbl_eq := LawfulExt.dbl_eq
  invert_eq := invert_eq_of_iff LawfulExt.invert_iff
  isZero_iff := Quad.isZero_iff Bn256.isZero_base

instance : LawfulBase Bls12381.Fq2 where
  sqr_eq := LawfulExt.sqr_eq
  dbl_eq := LawfulExt.dbl_eq
  invert_eq := invert_eq_of_iff LawfulExt.invert_iff
  isZero_iff := Quad.isZero_iff Bls12381.isZero_base

instance : LawfulBase Pluto.Fp2 where
  sqr_eq := LawfulExt.sqr_eq
  dbl_eq := LawfulExt.dbl_eq
  invert_eq := invert_eq_of_iff LawfulExt.invert_iff
  isZero_iff := Quad.isZero_iff Pluto.isZero_base

/-- `a = 0` over a prime field: no root when `b` is not a cube. -/
theorem noRoot_of_not_cube {F : Type} [_root_.Field F] {b : F} (h : ∀ c : F, c ^ 3 ≠ b) (x : F) :
    x * x * x + 0 * x + b ≠ 0 := by
  intro h0
  apply h (-x)
  linear_combination -h0

theorem good_of_cube {F : Type} [_root_.Field F] [DecidableEq F] [BaseField F] {b : F} {bn : Bool}
    (h2 : (2 : F) ≠ 0) (h : ∀ c : F, c ^ 3 ≠ b) (hbn : bn = true → b = 3) : Good (⟨0, b, bn⟩ : Params F) :=
  ⟨h2, noRoot_of_not_cube h, hbn⟩

theorem Ext.Quad.two_ne_zero' {F : Type} [CommRing F] [ExtField F] [LawfulExt F] (h : (2 : F) ≠ 0) : (2 : Quad F) ≠ 0 := by
  intro h0
  apply h
  have h1 : ((1 : Quad F) + 1).c0 = 0 := by rw [one_add_one_eq_two, h0]; rfl
  have h3 : ((1 : Quad F) + 1).c0 = (1 : F) + 1 := rfl
  rw [h3, one_add_one_eq_two] at h1
  exact h1

namespace Bn256

/-- Models src/bn256/curve.rs:79 (`G1_A`), 80 (`G1_B`) and the identifier `"bn256_g1"`. -/
def g1 : Params (Fp bnQ) where
  a := 0
  b := Fp.ofRaw [3, 0, 0, 0]
  bnG1 := decide ("bn256_g1" = "bn256_g1")

/-- Models src/bn256/curve.rs:77 (`G1_GENERATOR_X`), 78 (`G1_GENERATOR_Y`). -/
def g1Gen : Aff (Fp bnQ) where
  x := 1
  y := Fp.ofRaw [2, 0, 0, 0]

theorem g1_a : g1.a = 0 := rfl

@[irreducible] def g1BVal : ℕ := 0x3

theorem g1BVal_eq : g1.b = ((g1BVal : ℕ) : Fp bnQ) := (Fp.ofRaw_eq _ (by decide +kernel)).trans ((Fp.natCast_eq_iff _ _).mpr (by decide +kernel))

@[irreducible] def g1XVal : ℕ := 0x1

theorem g1XVal_eq : g1Gen.x = ((g1XVal : ℕ) : Fp bnQ) := by change (1 : Fp bnQ) = _; rw [show g1XVal = 1 by decide +kernel, Nat.cast_one]

@[irreducible] def g1YVal : ℕ := 0x2

theorem g1YVal_eq : g1Gen.y = ((g1YVal : ℕ) : Fp bnQ) := (Fp.ofRaw_eq _ (by decide +kernel)).trans ((Fp.natCast_eq_iff _ _).mpr (by decide +kernel))

theorem g1_good : Good g1 := by
  have h0 : g1 = ⟨0, ((g1BVal : ℕ) : Fp bnQ), g1.bnG1⟩ := by
    rw [← g1_a, ← g1BVal_eq]
  rw [h0]
  exact good_of_cube Fp.two_ne_zero
    (Fp.not_cube_of g1BVal (by decide +kernel) (by decide +kernel) (by decide +kernel) (by decide +kernel))
    (fun _ => by
    rw [show g1BVal = 3 by decide +kernel]
    rfl)

theorem g1_b_nonsquare : ¬ IsSquare g1.b := by
  rw [g1BVal_eq]
  exact Fp.not_square_of g1BVal (by decide +kernel) (by decide +kernel)

theorem g1Gen_equation : (Curve.W g1).Equation g1Gen.x g1Gen.y := by
  rw [equation_iff, g1XVal_eq, g1YVal_eq, g1BVal_eq]
  rw [g1_a, zero_mul, add_zero, ← Nat.cast_mul, ← Nat.cast_mul, ← Nat.cast_mul, ← Nat.cast_add, Fp.natCast_eq_iff]
  decide +kernel

end Bn256

namespace Bn256

/-- Models src/bn256/curve.rs:82-85 (`G2_A`), 87-100 (`G2_B`) and the identifier `"bn256_g2"`. -/
def g2 : Params Fq2 where
  a := ⟨0, 0⟩
  b := ⟨Fp.ofRaw [0x3267e6dc24a138e5, 0xb5b4c5e559dbefa3, 0x81be18991be06ac3, 0x2b149d40ceb8aaae], Fp.ofRaw [0xe4a2bd0685c315d2, 0xa74fa084e52d1852, 0xcd2cafadeed8fdf4, 0x9713b03af0fed4]⟩
  bnG1 := decide ("bn256_g2" = "bn256_g1")

/-- Models src/bn256/curve.rs:102-115 (`G2_GENERATOR_X`), 117-131 (`G2_GENERATOR_Y`). -/
def g2Gen : Aff Fq2 where
  x := ⟨Fp.ofRaw [0x46debd5cd992f6ed, 0x674322d4f75edadd, 0x426a00665e5c4479, 0x1800deef121f1e76], Fp.ofRaw [0x97e485b7aef312c2, 0xf1aa493335a9e712, 0x7260bfb731fb5d25, 0x198e9393920d483a]⟩
  y := ⟨Fp.ofRaw [0x4ce6cc0166fa7daa, 0xe3d1e7690c43d37b, 0x4aab71808dcb408f, 0x12c85ea5db8c6deb], Fp.ofRaw [0x55acdadcd122975b, 0xbc4b313370b38ef3, 0xec9e99ad690c3395, 0x90689d0585ff075]⟩

theorem g2_a : g2.a = 0 := rfl

@[irreducible] def g2BVal : ℕ × ℕ := (0x2b149d40ceb8aaae81be18991be06ac3b5b4c5e559dbefa33267e6dc24a138e5, 0x9713b03af0fed4cd2cafadeed8fdf4a74fa084e52d1852e4a2bd0685c315d2)

theorem g2BVal_eq : g2.b = cast bnQ g2BVal := by
  ext
  · exact (Fp.ofRaw_eq _ (by decide +kernel)).trans ((Fp.natCast_eq_iff _ _).mpr (by decide +kernel))
  · exact (Fp.ofRaw_eq _ (by decide +kernel)).trans ((Fp.natCast_eq_iff _ _).mpr (by decide +kernel))

@[irreducible] def g2XVal : ℕ × ℕ := (0x1800deef121f1e76426a00665e5c4479674322d4f75edadd46debd5cd992f6ed, 0x198e9393920d483a7260bfb731fb5d25f1aa493335a9e71297e485b7aef312c2)

theorem g2XVal_eq : g2Gen.x = cast bnQ g2XVal := by
  ext
  · exact (Fp.ofRaw_eq _ (by decide +kernel)).trans ((Fp.natCast_eq_iff _ _).mpr (by decide +kernel))
  · exact (Fp.ofRaw_eq _ (by decide +kernel)).trans ((Fp.natCast_eq_iff _ _).mpr (by decide +kernel))

@[irreducible] def g2YVal : ℕ × ℕ := (0x12c85ea5db8c6deb4aab71808dcb408fe3d1e7690c43d37b4ce6cc0166fa7daa, 0x90689d0585ff075ec9e99ad690c3395bc4b313370b38ef355acdadcd122975b)

theorem g2YVal_eq : g2Gen.y = cast bnQ g2YVal := by
  ext
  · exact (Fp.ofRaw_eq _ (by decide +kernel)).trans ((Fp.natCast_eq_iff _ _).mpr (by decide +kernel))
  · exact (Fp.ofRaw_eq _ (by decide +kernel)).trans ((Fp.natCast_eq_iff _ _).mpr (by decide +kernel))

@[irreducible] def g2BNorm : ℕ := 0x2e9f1362305ea3ab50ca36acb4f65e7fa1928902b8ea81948e3855034733bbd1

theorem g2_bNorm : Quad.norm g2.b = ((g2BNorm : ℕ) : Fp bnQ) := by
  rw [Quad.norm_eq, nonRes_base, g2BVal_eq]
  change ((g2BVal.1 : ℕ) : Fp bnQ) * ((g2BVal.1 : ℕ) : Fp bnQ) - (beta : Fp bnQ) * (((g2BVal.2 : ℕ) : Fp bnQ) * ((g2BVal.2 : ℕ) : Fp bnQ)) = _
  rw [sub_eq_iff_eq_add, ← Nat.cast_mul, ← Nat.cast_mul, ← Nat.cast_mul, ← Nat.cast_add, Fp.natCast_eq_iff]
  decide +kernel

theorem g2_good : Good g2 := by
  change Good ⟨0, g2.b, _⟩
  refine good_of_cube (Quad.two_ne_zero' Fp.two_ne_zero) ?_ (fun h => absurd h (by decide))
  apply Quad.not_cube_of_norm
  rw [g2_bNorm]
  exact Fp.not_cube_of g2BNorm (by decide +kernel) (by decide +kernel) (by decide +kernel) (by decide +kernel)

theorem g2_b_nonsquare : ¬ IsSquare g2.b := by
  apply Quad.not_square_of_norm
  rw [g2_bNorm]
  exact Fp.not_square_of g2BNorm (by decide +kernel) (by decide +kernel)

theorem g2Gen_equation : (Curve.W g2).Equation g2Gen.x g2Gen.y := by
  rw [equation_iff, g2XVal_eq, g2YVal_eq, g2BVal_eq]
  change _ = _ + 0 * _ + _
  rw [zero_mul, add_zero, ← cast_mul nonRes_base, ← cast_mul nonRes_base, ← cast_mul nonRes_base, cast_add, cast_eq_iff]
  decide +kernel

end Bn256

namespace Grumpkin

/-- Models src/grumpkin/curve.rs:47 (`G1_A`), 48-53 (`G1_B`) and the identifier `"grumpkin_g1"`. -/
def g1 : Params (Fp bnR) where
  a := 0
  b := Fp.ofMont [0xdd7056026000005a, 0x223fa97acb319311, 0xcc388229877910c0, 0x34394632b724eaa]
  bnG1 := decide ("grumpkin_g1" = "bn256_g1")

/-- Models src/grumpkin/curve.rs:40 (`G1_GENERATOR_X`), 41-46 (`G1_GENERATOR_Y`). -/
def g1Gen : Aff (Fp bnR) where
  x := 1
  y := Fp.ofMont [0x11b2dff1448c41d8, 0x23d3446f21c77dc3, 0xaa7b8cf435dfafbb, 0x14b34cf69dc25d68]

theorem g1_a : g1.a = 0 := rfl

@[irreducible] def g1BVal : ℕ := 0x30644e72e131a029b85045b68181585d2833e84879b9709143e1f593effffff0

theorem g1BVal_eq : g1.b = ((g1BVal : ℕ) : Fp bnR) := (Fp.ofMont_eq _ ⟨by decide +kernel, by decide +kernel, by decide +kernel⟩ 0x15ebf95182c5551cc8260de4aeb85d5d090ef5a9e111ec87dc5ba0056db1194e (by decide +kernel)).trans ((Fp.natCast_eq_iff _ _).mpr (by decide +kernel))

@[irreducible] def g1XVal : ℕ := 0x1

theorem g1XVal_eq : g1Gen.x = ((g1XVal : ℕ) : Fp bnR) := by change (1 : Fp bnR) = _; rw [show g1XVal = 1 by decide +kernel, Nat.cast_one]

@[irreducible] def g1YVal : ℕ := 0x2cf135e7506a45d632d270d45f1181294833fc48d823f272c

theorem g1YVal_eq : g1Gen.y = ((g1YVal : ℕ) : Fp bnR) := (Fp.ofMont_eq _ ⟨by decide +kernel, by decide +kernel, by decide +kernel⟩ 0x15ebf95182c5551cc8260de4aeb85d5d090ef5a9e111ec87dc5ba0056db1194e (by decide +kernel)).trans ((Fp.natCast_eq_iff _ _).mpr (by decide +kernel))

theorem g1_good : Good g1 := by
  have h0 : g1 = ⟨0, ((g1BVal : ℕ) : Fp bnR), g1.bnG1⟩ := by
    rw [← g1_a, ← g1BVal_eq]
  rw [h0]
  exact good_of_cube Fp.two_ne_zero
    (Fp.not_cube_of g1BVal (by decide +kernel) (by decide +kernel) (by decide +kernel) (by decide +kernel))
    (fun h => absurd h (by decide))

theorem g1_b_nonsquare : ¬ IsSquare g1.b := by
  rw [g1BVal_eq]
  exact Fp.not_square_of g1BVal (by decide +kernel) (by decide +kernel)

theorem g1Gen_equation : (Curve.W g1).Equation g1Gen.x g1Gen.y := by
  rw [equation_iff, g1XVal_eq, g1YVal_eq, g1BVal_eq]
  rw [g1_a, zero_mul, add_zero, ← Nat.cast_mul, ← Nat.cast_mul, ← Nat.cast_mul, ← Nat.cast_add, Fp.natCast_eq_iff]
  decide +kernel

end Grumpkin

namespace Bls12381

/-- Models src/bls12381/g1.rs:80 (`A`), 81 (`B`) and the identifier `"bls12381_g1"`. -/
def g1 : Params (Fp blsQ) where
  a := 0
  b := Fp.ofRaw [4, 0, 0, 0, 0, 0]
  bnG1 := decide ("bls12381_g1" = "bn256_g1")

/-- Models src/bls12381/g1.rs:62-69 (`GENERATOR_X`), 71-78 (`GENERATOR_Y`). -/
def g1Gen : Aff (Fp blsQ) where
  x := Fp.ofMont [0x5cb38790fd530c16, 0x7817fc679976fff5, 0x154f95c7143ba1c1, 0xf0ae6acdf3d0e747, 0xedce6ecc21dbf440, 0x120177419e0bfb75]
  y := Fp.ofMont [0xbaac93d50ce72271, 0x8c22631a7918fd8e, 0xdd595f13570725ce, 0x51ac582950405194, 0xe1c8c3fad0059c0, 0xbbc3efc5008a26a]

theorem g1_a : g1.a = 0 := rfl

@[irreducible] def g1BVal : ℕ := 0x4

theorem g1BVal_eq : g1.b = ((g1BVal : ℕ) : Fp blsQ) := (Fp.ofRaw_eq _ (by decide +kernel)).trans ((Fp.natCast_eq_iff _ _).mpr (by decide +kernel))

@[irreducible] def g1XVal : ℕ := 0x17f1d3a73197d7942695638c4fa9ac0fc3688c4f9774b905a14e3a3f171bac586c55e83ff97a1aeffb3af00adb22c6bb

theorem g1XVal_eq : g1Gen.x = ((g1XVal : ℕ) : Fp blsQ) := (Fp.ofMont_eq _ ⟨by decide +kernel, by decide +kernel, by decide +kernel⟩ 0x14fec701e8fb0ce9ed5e64273c4f538b1797ab1458a88de9343ea97914956dc87fe11274d898fafbf4d38259380b4820 (by decide +kernel)).trans ((Fp.natCast_eq_iff _ _).mpr (by decide +kernel))

@[irreducible] def g1YVal : ℕ := 0x8b3f481e3aaa0f1a09e30ed741d8ae4fcf5e095d5d00af600db18cb2c04b3edd03cc744a2888ae40caa232946c5e7e1

theorem g1YVal_eq : g1Gen.y = ((g1YVal : ℕ) : Fp blsQ) := (Fp.ofMont_eq _ ⟨by decide +kernel, by decide +kernel, by decide +kernel⟩ 0x14fec701e8fb0ce9ed5e64273c4f538b1797ab1458a88de9343ea97914956dc87fe11274d898fafbf4d38259380b4820 (by decide +kernel)).trans ((Fp.natCast_eq_iff _ _).mpr (by decide +kernel))

theorem g1_good : Good g1 := by
  have h0 : g1 = ⟨0, ((g1BVal : ℕ) : Fp blsQ), g1.bnG1⟩ := by
    rw [← g1_a, ← g1BVal_eq]
  rw [h0]
  exact good_of_cube Fp.two_ne_zero
    (Fp.not_cube_of g1BVal (by decide +kernel) (by decide +kernel) (by decide +kernel) (by decide +kernel))
    (fun h => absurd h (by decide))

theorem g1Gen_equation : (Curve.W g1).Equation g1Gen.x g1Gen.y := by
  rw [equation_iff, g1XVal_eq, g1YVal_eq, g1BVal_eq]
  rw [g1_a, zero_mul, add_zero, ← Nat.cast_mul, ← Nat.cast_mul, ← Nat.cast_mul, ← Nat.cast_add, Fp.natCast_eq_iff]
  decide +kernel

end Bls12381

namespace Bls12381

/-- Models src/bls12381/g2.rs:65 (`G2_A`), 60-63 (`G2_B`) and the identifier `"bls12381_g2"`. -/
def g2 : Params Fq2 where
  a := 0
  b := ⟨Fp.ofRaw [4, 0, 0, 0, 0, 0], Fp.ofRaw [4, 0, 0, 0, 0, 0]⟩
  bnG1 := decide ("bls12381_g2" = "bn256_g1")

/-- Models src/bls12381/g2.rs:22-39 (`G2_GENERATOR_X`), 41-58 (`G2_GENERATOR_Y`). -/
def g2Gen : Aff Fq2 where
  x := ⟨Fp.ofMont [0xf5f28fa202940a10, 0xb3f5fb2687b4961a, 0xa1a893b53e2ae580, 0x9894999d1a3caee9, 0x6f67b7631863366b, 0x58191924350bcd7], Fp.ofMont [0xa5a9c0759e23f606, 0xaaa0c59dbccd60c3, 0x3bb17e18e2867806, 0x1b1ab6cc8541b367, 0xc2b6ed0ef2158547, 0x11922a097360edf3]⟩
  y := ⟨Fp.ofMont [0x4c730af860494c4a, 0x597cfa1f5e369c5a, 0xe7e6856caa0a635a, 0xbbefb5e96e0d495f, 0x7d3a975f0ef25a2, 0x83fd8e7e80dae5], Fp.ofMont [0xadc0fc92df64b05d, 0x18aa270a2b1461dc, 0x86adac6a3be4eba0, 0x79495c4ec93da33a, 0xe7175850a43ccaed, 0xb2bc2a163de1bf2]⟩

theorem g2_a : g2.a = 0 := rfl

@[irreducible] def g2BVal : ℕ × ℕ := (0x4, 0x4)

theorem g2BVal_eq : g2.b = cast blsQ g2BVal := by
  ext
  · exact (Fp.ofRaw_eq _ (by decide +kernel)).trans ((Fp.natCast_eq_iff _ _).mpr (by decide +kernel))
  · exact (Fp.ofRaw_eq _ (by decide +kernel)).trans ((Fp.natCast_eq_iff _ _).mpr (by decide +kernel))

@[irreducible] def g2XVal : ℕ × ℕ := (0x24aa2b2f08f0a91260805272dc51051c6e47ad4fa403b02b4510b647ae3d1770bac0326a805bbefd48056c8c121bdb8, 0x13e02b6052719f607dacd3a088274f65596bd0d09920b61ab5da61bbdc7f5049334cf11213945d57e5ac7d055d042b7e)

theorem g2XVal_eq : g2Gen.x = cast blsQ g2XVal := by
  ext
  · exact (Fp.ofMont_eq _ ⟨by decide +kernel, by decide +kernel, by decide +kernel⟩ 0x14fec701e8fb0ce9ed5e64273c4f538b1797ab1458a88de9343ea97914956dc87fe11274d898fafbf4d38259380b4820 (by decide +kernel)).trans ((Fp.natCast_eq_iff _ _).mpr (by decide +kernel))
  · exact (Fp.ofMont_eq _ ⟨by decide +kernel, by decide +kernel, by decide +kernel⟩ 0x14fec701e8fb0ce9ed5e64273c4f538b1797ab1458a88de9343ea97914956dc87fe11274d898fafbf4d38259380b4820 (by decide +kernel)).trans ((Fp.natCast_eq_iff _ _).mpr (by decide +kernel))

@[irreducible] def g2YVal : ℕ × ℕ := (0xce5d527727d6e118cc9cdc6da2e351aadfd9baa8cbdd3a76d429a695160d12c923ac9cc3baca289e193548608b82801, 0x606c4a02ea734cc32acd2b02bc28b99cb3e287e85a763af267492ab572e99ab3f370d275cec1da1aaa9075ff05f79be)

theorem g2YVal_eq : g2Gen.y = cast blsQ g2YVal := by
  ext
  · exact (Fp.ofMont_eq _ ⟨by decide +kernel, by decide +kernel, by decide +kernel⟩ 0x14fec701e8fb0ce9ed5e64273c4f538b1797ab1458a88de9343ea97914956dc87fe11274d898fafbf4d38259380b4820 (by decide +kernel)).trans ((Fp.natCast_eq_iff _ _).mpr (by decide +kernel))
  · exact (Fp.ofMont_eq _ ⟨by decide +kernel, by decide +kernel, by decide +kernel⟩ 0x14fec701e8fb0ce9ed5e64273c4f538b1797ab1458a88de9343ea97914956dc87fe11274d898fafbf4d38259380b4820 (by decide +kernel)).trans ((Fp.natCast_eq_iff _ _).mpr (by decide +kernel))

@[irreducible] def g2BNorm : ℕ := 0x20

theorem g2_bNorm : Quad.norm g2.b = ((g2BNorm : ℕ) : Fp blsQ) := by
  rw [Quad.norm_eq, nonRes_base, g2BVal_eq]
  change ((g2BVal.1 : ℕ) : Fp blsQ) * ((g2BVal.1 : ℕ) : Fp blsQ) - (beta : Fp blsQ) * (((g2BVal.2 : ℕ) : Fp blsQ) * ((g2BVal.2 : ℕ) : Fp blsQ)) = _
  rw [sub_eq_iff_eq_add, ← Nat.cast_mul, ← Nat.cast_mul, ← Nat.cast_mul, ← Nat.cast_add, Fp.natCast_eq_iff]
  decide +kernel

theorem g2_good : Good g2 := by
  change Good ⟨0, g2.b, _⟩
  refine good_of_cube (Quad.two_ne_zero' Fp.two_ne_zero) ?_ (fun h => absurd h (by decide))
  apply Quad.not_cube_of_norm
  rw [g2_bNorm]
  exact Fp.not_cube_of g2BNorm (by decide +kernel) (by decide +kernel) (by decide +kernel) (by decide +kernel)

theorem g2_b_nonsquare : ¬ IsSquare g2.b := by
  apply Quad.not_square_of_norm
  rw [g2_bNorm]
  exact Fp.not_square_of g2BNorm (by decide +kernel) (by decide +kernel)

theorem g2Gen_equation : (Curve.W g2).Equation g2Gen.x g2Gen.y := by
  rw [equation_iff, g2XVal_eq, g2YVal_eq, g2BVal_eq]
  change _ = _ + 0 * _ + _
  rw [zero_mul, add_zero, ← cast_mul nonRes_base, ← cast_mul nonRes_base, ← cast_mul nonRes_base, cast_add, cast_eq_iff]
  decide +kernel

end Bls12381

namespace Pluto

/-- Models src/pluto_eris/curve.rs:30 (`PLUTO_A`), 31 (`PLUTO_B`) and the identifier `"pluto"`. -/
def g1 : Params (Fp plP) where
  a := 0
  b := Fp.ofRaw [57, 0, 0, 0, 0, 0, 0]
  bnG1 := decide ("pluto" = "bn256_g1")

/-- Models src/pluto_eris/curve.rs:19-27 (`G1_GENERATOR_X`), 28 (`G1_GENERATOR_Y`). -/
def g1Gen : Aff (Fp plP) where
  x := Fp.ofRaw [0x9ffffcd2ffffffff, 0xa2a7e8c30006b945, 0xe4a7a5fe8fadffd6, 0x443f9a5cda8a6c7b, 0xa803ca76f439266f, 0x130e0000d7f70e4, 0x2400000000002400]
  y := Fp.ofRaw [7, 0, 0, 0, 0, 0, 0]

theorem g1_a : g1.a = 0 := rfl

@[irreducible] def g1BVal : ℕ := 0x39

theorem g1BVal_eq : g1.b = ((g1BVal : ℕ) : Fp plP) := (Fp.ofRaw_eq _ (by decide +kernel)).trans ((Fp.natCast_eq_iff _ _).mpr (by decide +kernel))

@[irreducible] def g1XVal : ℕ := 0x24000000000024000130e0000d7f70e4a803ca76f439266f443f9a5cda8a6c7be4a7a5fe8fadffd6a2a7e8c30006b9459ffffcd2ffffffff

theorem g1XVal_eq : g1Gen.x = ((g1XVal : ℕ) : Fp plP) := (Fp.ofRaw_eq _ (by decide +kernel)).trans ((Fp.natCast_eq_iff _ _).mpr (by decide +kernel))

@[irreducible] def g1YVal : ℕ := 0x7

theorem g1YVal_eq : g1Gen.y = ((g1YVal : ℕ) : Fp plP) := (Fp.ofRaw_eq _ (by decide +kernel)).trans ((Fp.natCast_eq_iff _ _).mpr (by decide +kernel))

theorem g1_good : Good g1 := by
  have h0 : g1 = ⟨0, ((g1BVal : ℕ) : Fp plP), g1.bnG1⟩ := by
    rw [← g1_a, ← g1BVal_eq]
  rw [h0]
  exact good_of_cube Fp.two_ne_zero
    (Fp.not_cube_of g1BVal (by decide +kernel) (by decide +kernel) (by decide +kernel) (by decide +kernel))
    (fun h => absurd h (by decide))

theorem g1_b_nonsquare : ¬ IsSquare g1.b := by
  rw [g1BVal_eq]
  exact Fp.not_square_of g1BVal (by decide +kernel) (by decide +kernel)

theorem g1Gen_equation : (Curve.W g1).Equation g1Gen.x g1Gen.y := by
  rw [equation_iff, g1XVal_eq, g1YVal_eq, g1BVal_eq]
  rw [g1_a, zero_mul, add_zero, ← Nat.cast_mul, ← Nat.cast_mul, ← Nat.cast_mul, ← Nat.cast_add, Fp.natCast_eq_iff]
  decide +kernel

end Pluto

namespace Pluto

/-- Models src/pluto_eris/curve.rs:44 (`ERIS_A`), 45 (`ERIS_B`) and the identifier `"eris"`. -/
def eris : Params (Fp plQ) where
  a := 0
  b := Fp.ofRaw [57, 0, 0, 0, 0, 0, 0]
  bnG1 := decide ("eris" = "bn256_g1")

/-- Models src/pluto_eris/curve.rs:33-41 (`ERIS_GENERATOR_X`), 42 (`ERIS_GENERATOR_Y`). -/
def erisGen : Aff (Fp plQ) where
  x := Fp.ofRaw [0x1ffffcd2ffffffff, 0x9ca7e85d60050af4, 0xe4a775fe8e177fd6, 0x443f9a5c7a8a6c7b, 0xa803ca76f439266f, 0x130e0000d7f70e4, 0x2400000000002400]
  y := Fp.ofRaw [7, 0, 0, 0, 0, 0, 0]

theorem eris_a : eris.a = 0 := rfl

@[irreducible] def erisBVal : ℕ := 0x39

theorem erisBVal_eq : eris.b = ((erisBVal : ℕ) : Fp plQ) := (Fp.ofRaw_eq _ (by decide +kernel)).trans ((Fp.natCast_eq_iff _ _).mpr (by decide +kernel))

@[irreducible] def erisXVal : ℕ := 0x24000000000024000130e0000d7f70e4a803ca76f439266f443f9a5c7a8a6c7be4a775fe8e177fd69ca7e85d60050af41ffffcd2ffffffff

theorem erisXVal_eq : erisGen.x = ((erisXVal : ℕ) : Fp plQ) := (Fp.ofRaw_eq _ (by decide +kernel)).trans ((Fp.natCast_eq_iff _ _).mpr (by decide +kernel))

@[irreducible] def erisYVal : ℕ := 0x7

theorem erisYVal_eq : erisGen.y = ((erisYVal : ℕ) : Fp plQ) := (Fp.ofRaw_eq _ (by decide +kernel)).trans ((Fp.natCast_eq_iff _ _).mpr (by decide +kernel))

theorem eris_good : Good eris := by
  have h0 : eris = ⟨0, ((erisBVal : ℕ) : Fp plQ), eris.bnG1⟩ := by
    rw [← eris_a, ← erisBVal_eq]
  rw [h0]
  exact good_of_cube Fp.two_ne_zero
    (Fp.not_cube_of erisBVal (by decide +kernel) (by decide +kernel) (by decide +kernel) (by decide +kernel))
    (fun h => absurd h (by decide))

theorem eris_b_nonsquare : ¬ IsSquare eris.b := by
  rw [erisBVal_eq]
  exact Fp.not_square_of erisBVal (by decide +kernel) (by decide +kernel)

theorem erisGen_equation : (Curve.W eris).Equation erisGen.x erisGen.y := by
  rw [equation_iff, erisXVal_eq, erisYVal_eq, erisBVal_eq]
  rw [eris_a, zero_mul, add_zero, ← Nat.cast_mul, ← Nat.cast_mul, ← Nat.cast_mul, ← Nat.cast_add, Fp.natCast_eq_iff]
  decide +kernel

end Pluto

namespace Pluto

/-- Models src/pluto_eris/curve.rs:94 (`TRITON_A`), 97-100 (`TRITON_B`) and the identifier `"triton"`. -/
def g2 : Params Fp2 where
  a := 0
  b := ⟨Fp.ofRaw [3, 0, 0, 0, 0, 0, 0], 1⟩
  bnG1 := decide ("triton" = "bn256_g1")

/-- Models src/pluto_eris/curve.rs:47-69 (`G2_GENERATOR_X`), 70-92 (`G2_GENERATOR_Y`). -/
def g2Gen : Aff Fp2 where
  x := ⟨Fp.ofRaw [0x4f2b5fe6556f9066, 0x9cfc86dd865f07d6, 0x23c9e276a4ebe755, 0x7ca972bfb93722e2, 0xee935948b84498b2, 0xd815d0e9bd54b845, 0x13576c81faf3a13f], Fp.ofRaw [0xfe7c781a8fd7bf21, 0xb9b3dff01bbe8d63, 0xaeb383298fdf5847, 0x3029f2d201554727, 0x55243d011699b739, 0x5e5092f9380f44f5, 0x142164cb875db046]⟩
  y := ⟨Fp.ofRaw [0xcd1b78ad106ab9fe, 0xe78574aca67b3898, 0xeb471c004db774bf, 0xa4dc17d7dace3f32, 0x42fdbb92e64ba85a, 0x58e88d4df1e7418c, 0x2239f7408ead478c], Fp.ofRaw [0xd49e3c080e6d945d, 0x539ef82a731fb88e, 0xc697b4e10bbcd9e0, 0x9ca65d97eb28fc9f, 0xeca714555bbe4f07, 0xdbb53dfd7caf450a, 0x1260b04d51136590]⟩

theorem g2_a : g2.a = 0 := rfl

@[irreducible] def g2BVal : ℕ × ℕ := (0x3, 0x1)

theorem g2BVal_eq : g2.b = cast plP g2BVal := by
  ext
  · exact (Fp.ofRaw_eq _ (by decide +kernel)).trans ((Fp.natCast_eq_iff _ _).mpr (by decide +kernel))
  · change (1 : Fp plP) = ((g2BVal.2 : ℕ) : Fp plP)
    rw [show g2BVal.2 = 1 by decide +kernel, Nat.cast_one]

@[irreducible] def g2XVal : ℕ × ℕ := (0x13576c81faf3a13fd815d0e9bd54b845ee935948b84498b27ca972bfb93722e223c9e276a4ebe7559cfc86dd865f07d64f2b5fe6556f9066, 0x142164cb875db0465e5092f9380f44f555243d011699b7393029f2d201554727aeb383298fdf5847b9b3dff01bbe8d63fe7c781a8fd7bf21)

theorem g2XVal_eq : g2Gen.x = cast plP g2XVal := by
  ext
  · exact (Fp.ofRaw_eq _ (by decide +kernel)).trans ((Fp.natCast_eq_iff _ _).mpr (by decide +kernel))
  · exact (Fp.ofRaw_eq _ (by decide +kernel)).trans ((Fp.natCast_eq_iff _ _).mpr (by decide +kernel))

@[irreducible] def g2YVal : ℕ × ℕ := (0x2239f7408ead478c58e88d4df1e7418c42fdbb92e64ba85aa4dc17d7dace3f32eb471c004db774bfe78574aca67b3898cd1b78ad106ab9fe, 0x1260b04d51136590dbb53dfd7caf450aeca714555bbe4f079ca65d97eb28fc9fc697b4e10bbcd9e0539ef82a731fb88ed49e3c080e6d945d)

theorem g2YVal_eq : g2Gen.y = cast plP g2YVal := by
  ext
  · exact (Fp.ofRaw_eq _ (by decide +kernel)).trans ((Fp.natCast_eq_iff _ _).mpr (by decide +kernel))
  · exact (Fp.ofRaw_eq _ (by decide +kernel)).trans ((Fp.natCast_eq_iff _ _).mpr (by decide +kernel))

@[irreducible] def g2BNorm : ℕ := 0xe

theorem g2_bNorm : Quad.norm g2.b = ((g2BNorm : ℕ) : Fp plP) := by
  rw [Quad.norm_eq, nonRes_base, g2BVal_eq]
  change ((g2BVal.1 : ℕ) : Fp plP) * ((g2BVal.1 : ℕ) : Fp plP) - (beta : Fp plP) * (((g2BVal.2 : ℕ) : Fp plP) * ((g2BVal.2 : ℕ) : Fp plP)) = _
  rw [sub_eq_iff_eq_add, ← Nat.cast_mul, ← Nat.cast_mul, ← Nat.cast_mul, ← Nat.cast_add, Fp.natCast_eq_iff]
  decide +kernel

theorem g2_good : Good g2 := by
  change Good ⟨0, g2.b, _⟩
  refine good_of_cube (Quad.two_ne_zero' Fp.two_ne_zero) ?_ (fun h => absurd h (by decide))
  apply Quad.not_cube_of_norm
  rw [g2_bNorm]
  exact Fp.not_cube_of g2BNorm (by decide +kernel) (by decide +kernel) (by decide +kernel) (by decide +kernel)

theorem g2_b_nonsquare : ¬ IsSquare g2.b := by
  apply Quad.not_square_of_norm
  rw [g2_bNorm]
  exact Fp.not_square_of g2BNorm (by decide +kernel) (by decide +kernel)

theorem g2Gen_equation : (Curve.W g2).Equation g2Gen.x g2Gen.y := by
  rw [equation_iff, g2XVal_eq, g2YVal_eq, g2BVal_eq]
  change _ = _ + 0 * _ + _
  rw [zero_mul, add_zero, ← cast_mul nonRes_base, ← cast_mul nonRes_base, ← cast_mul nonRes_base, cast_add, cast_eq_iff]
  decide +kernel

end Pluto

namespace Secp256k1

/-- Models src/secp256k1/curve.rs:49 (`SECP_A`), 50 (`SECP_B`) and the identifier `"secp256k1"`. -/
def c : Params (Fp k1P) where
  a := Fp.ofRaw [0, 0, 0, 0]
  b := Fp.ofRaw [7, 0, 0, 0]
  bnG1 := decide ("secp256k1" = "bn256_g1")

/-- Models src/secp256k1/curve.rs:36-41 (`SECP_GENERATOR_X`), 42-47 (`SECP_GENERATOR_Y`). -/
def cGen : Aff (Fp k1P) where
  x := Fp.ofRaw [0x59f2815b16f81798, 0x29bfcdb2dce28d9, 0x55a06295ce870b07, 0x79be667ef9dcbbac]
  y := Fp.ofRaw [0x9c47d08ffb10d4b8, 0xfd17b448a6855419, 0x5da4fbfc0e1108a8, 0x483ada7726a3c465]

theorem c_a : c.a = 0 := (Fp.ofRaw_eq _ (by decide +kernel)).trans (((Fp.natCast_eq_iff _ 0).mpr (by decide +kernel)).trans Nat.cast_zero)

@[irreducible] def cBVal : ℕ := 0x7

theorem cBVal_eq : c.b = ((cBVal : ℕ) : Fp k1P) := (Fp.ofRaw_eq _ (by decide +kernel)).trans ((Fp.natCast_eq_iff _ _).mpr (by decide +kernel))

@[irreducible] def cXVal : ℕ := 0x79be667ef9dcbbac55a06295ce870b07029bfcdb2dce28d959f2815b16f81798

theorem cXVal_eq : cGen.x = ((cXVal : ℕ) : Fp k1P) := (Fp.ofRaw_eq _ (by decide +kernel)).trans ((Fp.natCast_eq_iff _ _).mpr (by decide +kernel))

@[irreducible] def cYVal : ℕ := 0x483ada7726a3c4655da4fbfc0e1108a8fd17b448a68554199c47d08ffb10d4b8

theorem cYVal_eq : cGen.y = ((cYVal : ℕ) : Fp k1P) := (Fp.ofRaw_eq _ (by decide +kernel)).trans ((Fp.natCast_eq_iff _ _).mpr (by decide +kernel))

theorem c_good : Good c := by
  have h0 : c = ⟨0, ((cBVal : ℕ) : Fp k1P), c.bnG1⟩ := by
    rw [← c_a, ← cBVal_eq]
  rw [h0]
  exact good_of_cube Fp.two_ne_zero
    (Fp.not_cube_of cBVal (by decide +kernel) (by decide +kernel) (by decide +kernel) (by decide +kernel))
    (fun h => absurd h (by decide))

theorem c_b_nonsquare : ¬ IsSquare c.b := by
  rw [cBVal_eq]
  exact Fp.not_square_of cBVal (by decide +kernel) (by decide +kernel)

theorem cGen_equation : (Curve.W c).Equation cGen.x cGen.y := by
  rw [equation_iff, cXVal_eq, cYVal_eq, cBVal_eq]
  rw [c_a, zero_mul, add_zero, ← Nat.cast_mul, ← Nat.cast_mul, ← Nat.cast_mul, ← Nat.cast_add, Fp.natCast_eq_iff]
  decide +kernel

end Secp256k1

namespace Secq256k1

/-- Models src/secq256k1/curve.rs:32 (`SECQ_A`), 33 (`SECQ_B`) and the identifier `"secq256k1"`. -/
def c : Params (Fp k1N) where
  a := Fp.ofRaw [0, 0, 0, 0]
  b := Fp.ofRaw [7, 0, 0, 0]
  bnG1 := decide ("secq256k1" = "bn256_g1")

/-- Models src/secq256k1/curve.rs:18-23 (`SECQ_GENERATOR_X`), 25-30 (`SECQ_GENERATOR_Y`). -/
def cGen : Aff (Fp k1N) where
  x := Fp.ofRaw [0xa24288e37702eda6, 0x3134e45a097781a6, 0xb6b06c87a2ce32e2, 0x76c39f5585cb160e]
  y := Fp.ofRaw [0xa4120ddad952677f, 0xd18983d26e8dc055, 0xdc2d265a8e82a7f7, 0x3ffc646c7b2918b5]

theorem c_a : c.a = 0 := (Fp.ofRaw_eq _ (by decide +kernel)).trans (((Fp.natCast_eq_iff _ 0).mpr (by decide +kernel)).trans Nat.cast_zero)

@[irreducible] def cBVal : ℕ := 0x7

theorem cBVal_eq : c.b = ((cBVal : ℕ) : Fp k1N) := (Fp.ofRaw_eq _ (by decide +kernel)).trans ((Fp.natCast_eq_iff _ _).mpr (by decide +kernel))

@[irreducible] def cXVal : ℕ := 0x76c39f5585cb160eb6b06c87a2ce32e23134e45a097781a6a24288e37702eda6

theorem cXVal_eq : cGen.x = ((cXVal : ℕ) : Fp k1N) := (Fp.ofRaw_eq _ (by decide +kernel)).trans ((Fp.natCast_eq_iff _ _).mpr (by decide +kernel))

@[irreducible] def cYVal : ℕ := 0x3ffc646c7b2918b5dc2d265a8e82a7f7d18983d26e8dc055a4120ddad952677f

theorem cYVal_eq : cGen.y = ((cYVal : ℕ) : Fp k1N) := (Fp.ofRaw_eq _ (by decide +kernel)).trans ((Fp.natCast_eq_iff _ _).mpr (by decide +kernel))

theorem c_good : Good c := by
  have h0 : c = ⟨0, ((cBVal : ℕ) : Fp k1N), c.bnG1⟩ := by
    rw [← c_a, ← cBVal_eq]
  rw [h0]
  exact good_of_cube Fp.two_ne_zero
    (Fp.not_cube_of cBVal (by decide +kernel) (by decide +kernel) (by decide +kernel) (by decide +kernel))
    (fun h => absurd h (by decide))

theorem c_b_nonsquare : ¬ IsSquare c.b := by
  rw [cBVal_eq]
  exact Fp.not_square_of cBVal (by decide +kernel) (by decide +kernel)

theorem cGen_equation : (Curve.W c).Equation cGen.x cGen.y := by
  rw [equation_iff, cXVal_eq, cYVal_eq, cBVal_eq]
  rw [c_a, zero_mul, add_zero, ← Nat.cast_mul, ← Nat.cast_mul, ← Nat.cast_mul, ← Nat.cast_add, Fp.natCast_eq_iff]
  decide +kernel

end Secq256k1

namespace Secp256r1

/-- Models src/secp256r1/curve.rs:45-50 (`SECP_A`), 51-56 (`SECP_B`) and the identifier `"secp256r1"`. -/
def c : Params (Fp r1P) where
  a := Fp.ofRaw [0xfffffffffffffffc, 0xffffffff, 0, 0xffffffff00000001]
  b := Fp.ofRaw [0x3bce3c3e27d2604b, 0x651d06b0cc53b0f6, 0xb3ebbd55769886bc, 0x5ac635d8aa3a93e7]
  bnG1 := decide ("secp256r1" = "bn256_g1")

/-- Models src/secp256r1/curve.rs:31-36 (`SECP_GENERATOR_X`), 38-43 (`SECP_GENERATOR_Y`). -/
def cGen : Aff (Fp r1P) where
  x := Fp.ofRaw [0xf4a13945d898c296, 0x77037d812deb33a0, 0xf8bce6e563a440f2, 0x6b17d1f2e12c4247]
  y := Fp.ofRaw [0xcbb6406837bf51f5, 0x2bce33576b315ece, 0x8ee7eb4a7c0f9e16, 0x4fe342e2fe1a7f9b]

@[irreducible] def cAVal : ℕ := 0xffffffff00000001000000000000000000000000fffffffffffffffffffffffc

theorem cAVal_eq : c.a = ((cAVal : ℕ) : Fp r1P) := (Fp.ofRaw_eq _ (by decide +kernel)).trans ((Fp.natCast_eq_iff _ _).mpr (by decide +kernel))

@[irreducible] def cBVal : ℕ := 0x5ac635d8aa3a93e7b3ebbd55769886bc651d06b0cc53b0f63bce3c3e27d2604b

theorem cBVal_eq : c.b = ((cBVal : ℕ) : Fp r1P) := (Fp.ofRaw_eq _ (by decide +kernel)).trans ((Fp.natCast_eq_iff _ _).mpr (by decide +kernel))

@[irreducible] def cXVal : ℕ := 0x6b17d1f2e12c4247f8bce6e563a440f277037d812deb33a0f4a13945d898c296

theorem cXVal_eq : cGen.x = ((cXVal : ℕ) : Fp r1P) := (Fp.ofRaw_eq _ (by decide +kernel)).trans ((Fp.natCast_eq_iff _ _).mpr (by decide +kernel))

@[irreducible] def cYVal : ℕ := 0x4fe342e2fe1a7f9b8ee7eb4a7c0f9e162bce33576b315ececbb6406837bf51f5

theorem cYVal_eq : cGen.y = ((cYVal : ℕ) : Fp r1P) := (Fp.ofRaw_eq _ (by decide +kernel)).trans ((Fp.natCast_eq_iff _ _).mpr (by decide +kernel))

theorem c_good : Good c where
  two := Fp.two_ne_zero
  noRoot x := by
    have h := NoRoot.r1_no_root x
    intro h0
    apply h
    have ha : c.a = -((NoRoot.r1A' : ℕ) : Fp r1P) := by
      rw [cAVal_eq, eq_neg_iff_add_eq_zero, ← Nat.cast_add, ← Nat.cast_zero, Fp.natCast_eq_iff]
      decide +kernel
    have hb : c.b = -((NoRoot.r1B' : ℕ) : Fp r1P) := by
      rw [cBVal_eq, eq_neg_iff_add_eq_zero, ← Nat.cast_add, ← Nat.cast_zero, Fp.natCast_eq_iff]
      decide +kernel
    rw [ha, hb] at h0
    linear_combination h0
  bn h := absurd h (by decide)

theorem cGen_equation : (Curve.W c).Equation cGen.x cGen.y := by
  rw [equation_iff, cXVal_eq, cYVal_eq, cBVal_eq, cAVal_eq]
  rw [← Nat.cast_mul, ← Nat.cast_mul, ← Nat.cast_mul, ← Nat.cast_mul, ← Nat.cast_add, ← Nat.cast_add, Fp.natCast_eq_iff]
  decide +kernel

end Secp256r1

end Halo2
