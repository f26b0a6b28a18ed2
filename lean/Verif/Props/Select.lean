import Verif.Ext.Select
import Verif.Ext.Bn256
import Verif.Ext.Bls12381
import Verif.Ext.Pluto
import Verif.Curve.Group

/-!
# Property C62: constant-time equality and selection
-/

set_option linter.unusedSectionVars false

namespace Halo2.Props

open Halo2 Halo2.Field Halo2.Ext Halo2.Curve Halo2.Prime

/-- **C62** Prime fields, for every odd modulus: `ct_eq` decides equality and `conditional_select` returns the first argument for the choice
0 and the second for 1. -/
theorem C62_field (p : ℕ) [Fact (OddModulus p)] : Decides (Fp.ctEq (p := p)) ∧ Selects (Fp.select (p := p)) :=
  ⟨Fp.ctEq_spec, Fp.select_spec⟩

/-- **C62** The towers of degree 2, 6 and 12 and the target groups, over every prime field. -/
theorem C62_towers (p : ℕ) [Fact (OddModulus p)] :
    (Decides (Quad.ctEqBy (Fp.ctEq (p := p))) ∧ Selects (Quad.select (Fp.select (p := p)))) ∧
    (Decides (Ext.Cubic.ctEqBy (Quad.ctEqBy (Fp.ctEq (p := p)))) ∧ Selects (Ext.Cubic.select (Quad.select (Fp.select (p := p))))) ∧
    (Decides (Quad.ctEqBy (Ext.Cubic.ctEqBy (Quad.ctEqBy (Fp.ctEq (p := p))))) ∧
      Selects (Quad.select (Ext.Cubic.select (Quad.select (Fp.select (p := p)))))) ∧
    (Decides (Pairing.gtCtEq (Quad.ctEqBy (Ext.Cubic.ctEqBy (Quad.ctEqBy (Fp.ctEq (p := p)))))) ∧
      Selects (Pairing.gtSelect (Quad.select (Ext.Cubic.select (Quad.select (Fp.select (p := p))))))) :=
  ⟨⟨Fp.ctEq_spec.quad, Fp.select_spec.quad⟩, ⟨Fp.ctEq_spec.quad.cubic, Fp.select_spec.quad.cubic⟩,
    ⟨Fp.ctEq_spec.quad.cubic.quad, Fp.select_spec.quad.cubic.quad⟩,
    ⟨fun a b => Fp.ctEq_spec.quad.cubic.quad a b, fun a b c => Fp.select_spec.quad.cubic.quad a b c⟩⟩

/-- **C62** Points, over every coordinate field whose selection is right: the selection of points, affine or projective, returns one of its
arguments unchanged. -/
theorem C62_points {F : Type} {sel : F → F → Bool → F} (h : Selects sel) : Selects (Proj.select sel) ∧ Selects (Aff.select sel) :=
  ⟨h.proj, h.aff⟩

/-- **C62** Points over the prime fields and the quadratic extensions used by the curves. -/
theorem C62_curves (p : ℕ) [Fact (OddModulus p)] :
    Selects (Proj.select (Fp.select (p := p))) ∧ Selects (Aff.select (Fp.select (p := p))) ∧
    Selects (Proj.select (Quad.select (Fp.select (p := p)))) ∧ Selects (Aff.select (Quad.select (Fp.select (p := p)))) :=
  ⟨Fp.select_spec.proj, Fp.select_spec.aff, Fp.select_spec.quad.proj, Fp.select_spec.quad.aff⟩

/-- Both answers occur. -/
example : Fp.ctEq (p := bnQ) 0 0 = true ∧ Fp.ctEq (p := bnQ) 0 1 = false ∧ Fp.select (p := bnQ) 0 1 true = 1 := by
  refine ⟨(Fp.ctEq_spec _ _).mpr rfl, ?_, Fp.select_spec _ _ _⟩
  rw [← Bool.not_eq_true, Fp.ctEq_spec]
  exact zero_ne_one

/-- The selection of points has an instance. -/
example : Proj.select (Fp.select (p := bnQ)) ⟨0, 1, 0⟩ ⟨1, 2, 1⟩ true = ⟨1, 2, 1⟩ := (C62_points Fp.select_spec).1 _ _ _

end Halo2.Props
