import Verif.Hash.MapOps
import Verif.Hash.MapLemmas

/-!
# `Field::sqrt_ratio` and `Field::sqrt_alt`
-/

set_option linter.unusedSectionVars false

namespace Halo2

open Halo2.Field Halo2.Ext Halo2.Curve Halo2.Hash

/-- Models derive/src/field/mod.rs:416-418 (`sqrt_ratio`): `ff::helpers::sqrt_ratio_generic`, which is the function copied at
src/hash_to_curve.rs:192-225 with `z = ROOT_OF_UNITY`; `none` is a panic. -/
def Fp.sqrtRatio {p : ℕ} [Fact (OddModulus p)] (g : ℕ) (num div : Fp p) : Option (Bool × Fp p) :=
  Hash.sqrtRatio (fpOps p g) num div (Fp.rootOfUnity p g)

/-- The default `Field::sqrt_alt` of `ff`: `sqrt_ratio(self, ONE)`. -/
def Fp.sqrtAlt {p : ℕ} [Fact (OddModulus p)] (g : ℕ) (a : Fp p) : Option (Bool × Fp p) := Fp.sqrtRatio g a 1

/-- Models src/ff_ext/quadratic.rs:315-317 (`sqrt_ratio`): `unimplemented!()`. -/
def Ext.Quad.sqrtRatio {F : Type} (_num _div : Quad F) : Option (Bool × Quad F) := none

/-- Models src/ff_ext/cubic.rs:219-221 (`sqrt_ratio`): `unimplemented!()`. -/
def Ext.Cubic.sqrtRatio {F : Type} (_num _div : Ext.Cubic F) : Option (Bool × Ext.Cubic F) := none

/-- The default `sqrt_alt` on the extension fields. -/
def Ext.Quad.sqrtAlt {F : Type} [CommRing F] [ExtField F] (a : Quad F) : Option (Bool × Quad F) := Quad.sqrtRatio a 1

/-- The default `sqrt_alt` on the cubic extensions. -/
def Ext.Cubic.sqrtAlt {F : Type} [CommRing F] [ExtField F] (a : Ext.Cubic F) : Option (Bool × Ext.Cubic F) := Ext.Cubic.sqrtRatio a 1

namespace Hash

variable {F : Type} [Field F] [DecidableEq F] [BaseField F] [LawfulBase F]

/-- The case of a zero denominator. -/
theorem sqrtRatio_zero {O : HashOps F} (hO : O.Ok) (num z : F) : sqrtRatio O num 0 z = some (decide (num = 0), 0) := by
  have h0 : O.sqrt 0 = some 0 := by
    obtain ⟨r, h1, h2⟩ := sqrt_of_square hO (x := (0 : F)) ⟨0, by ring⟩
    rw [h1, mul_self_eq_zero.mp h2]
  have ea : (invert (0 : F)).getD 0 * num = 0 := by rw [getD_inv, inv_zero, zero_mul]
  have hz : isZero (0 : F) = true := LawfulBase.isZero_iff _ |>.mpr rfl
  unfold sqrtRatio
  dsimp only
  rw [ea, hz, zero_mul, h0, isZero_eq]
  simp

end Hash

end Halo2
