import Verif.Curve.Group
import Verif.Field.FpBytes
import Verif.Jacobi.Model
import Verif.Pairing.Model

/-!
# The forms in which an operation can be written

In Rust `&a + &b`, `a + &b`, `&a + b`, `a + b`, `a += b` and `a += &b` are six functions. One of them is written by hand, the
others by macros (src/derive/mod.rs) or by hand in terms of the first. References and values are the same in the model, so a
form is a function of its own with the same arguments; `op=` returns the new value of its left side.
-/

namespace Halo2.Forms

open Halo2 Halo2.Field Halo2.Curve

/-- The four functions of a binary operator: `&a op &b`, `a op &b`, `&a op b`, `a op b`. -/
structure Bin (A B O : Type) where
  rr : A → B → O
  vr : A → B → O
  rv : A → B → O
  vv : A → B → O

/-- The two functions of an assigning operator: `a op= b` and `a op= &b`. -/
structure Asg (A B : Type) where
  v : A → B → A
  r : A → B → A

/-- The two functions of a prefix operator: `op &a` and `op a`. -/
structure Un (A O : Type) where
  r : A → O
  v : A → O

variable {A B O : Type}

/-- Models src/derive/mod.rs:57-89 (`impl_add_binop_specify_output`), on top of `&a + &b`. -/
def addForms (rr : A → B → O) : Bin A B O where
  rr := rr
  vr a b := rr a b
  rv a b := rr a b
  vv a b := rr a b

/-- Models src/derive/mod.rs:91-121 (`impl_sub_binop_specify_output`). -/
def subForms (rr : A → B → O) : Bin A B O where
  rr := rr
  vr a b := rr a b
  rv a b := rr a b
  vv a b := rr a b

/-- Models src/derive/mod.rs:130-160 (`impl_binops_multiplicative_mixed`). -/
def mulForms (rr : A → B → O) : Bin A B O where
  rr := rr
  vr a b := rr a b
  rv a b := rr a b
  vv a b := rr a b

/-- Models src/derive/mod.rs:174-179, 188-193 (`add_assign` of `impl_binops_additive`). -/
def addAsg (rr : A → B → A) : Asg A B where
  v a b := rr a b
  r a b := rr a b

/-- Models src/derive/mod.rs:167-172, 181-186 (`sub_assign` of `impl_binops_additive`). -/
def subAsg (rr : A → B → A) : Asg A B where
  v a b := rr a b
  r a b := rr a b

/-- Models src/derive/mod.rs:202-214 (`mul_assign` of `impl_binops_multiplicative`). -/
def mulAsg (rr : A → B → A) : Asg A B where
  v a b := rr a b
  r a b := rr a b

/-! ## Fields -/

/-- The operators of a field type. -/
structure FieldForms (F : Type) where
  neg : Un F F
  add : Bin F F F
  sub : Bin F F F
  mul : Bin F F F
  addAsg : Asg F F
  subAsg : Asg F F
  mulAsg : Asg F F

/-- The operators of a field: the methods `neg`, `add`, `sub`, `mul` of the type under their operators, and the forms.
Models src/derive/mod.rs:9-56 (`impl_binops_calls`) and the calls of the macros, e.g. src/bn256/fq.rs:18-20, src/bn256/fq2.rs:9-11,
src/bn256/fq6.rs:13-15, src/bn256/fq12.rs:35-37. -/
def fieldForms {F : Type} [Neg F] [Add F] [Sub F] [Mul F] : FieldForms F where
  neg := ⟨fun a => -a, fun a => -a⟩
  add := addForms fun a b => a + b
  sub := subForms fun a b => a - b
  mul := mulForms fun a b => a * b
  addAsg := Forms.addAsg fun a b => a + b
  subAsg := Forms.subAsg fun a b => a - b
  mulAsg := Forms.mulAsg fun a b => a * b

/-! ## Points -/

/-- The operators and conversions of the two types of points of a curve; `S` is the scalar field. -/
structure PointForms (F S : Type) where
  negP : Un (Proj F) (Proj F)
  negA : Un (Aff F) (Aff F)
  addPP : Bin (Proj F) (Proj F) (Proj F)
  subPP : Bin (Proj F) (Proj F) (Proj F)
  addPA : Bin (Proj F) (Aff F) (Proj F)
  subPA : Bin (Proj F) (Aff F) (Proj F)
  addAA : Bin (Aff F) (Aff F) (Proj F)
  subAA : Bin (Aff F) (Aff F) (Proj F)
  addAP : Bin (Aff F) (Proj F) (Proj F)
  subAP : Bin (Aff F) (Proj F) (Proj F)
  addAsgPP : Asg (Proj F) (Proj F)
  subAsgPP : Asg (Proj F) (Proj F)
  addAsgPA : Asg (Proj F) (Aff F)
  subAsgPA : Asg (Proj F) (Aff F)
  mulP : Bin (Proj F) S (Proj F)
  mulAsgP : Asg (Proj F) S
  mulA : Bin (Aff F) S (Proj F)
  toProj : Un (Aff F) (Proj F)
  toAff : Un (Proj F) (Aff F)
  defaultP : Proj F
  defaultA : Aff F

variable {F : Type} [CommRing F] [DecidableEq F] [BaseField F]

/-- The table of a curve. The operators: src/derive/curve.rs:846-851 with the hand-written forms at 853-873 (`neg`), 888-1096
(`+` and `-` on the left of a projective point), 1124-1170 (affine points). `toProj` and `toAff` are the `From` conversions (342-352,
679-689), `defaultP` and `defaultA` the `Default` values (354-358, 691-695). The scalar enters by its `to_repr`. -/
def pointForms (C : Params F) (r : ℕ) [Fact (OddModulus r)] : PointForms F (Fp r) where
  negP := ⟨fun P => Proj.neg P, fun P => Proj.neg P⟩
  negA := ⟨fun A => Aff.neg A, fun A => Aff.neg A⟩
  addPP := addForms fun P Q => Proj.add C P Q
  subPP := subForms fun P Q => Proj.sub C P Q
  addPA := addForms fun P A => Proj.addMixed C P A
  subPA := subForms fun P A => Proj.subMixed C P A
  addAA := addForms fun A B => Aff.add C A B
  subAA := subForms fun A B => Aff.sub C A B
  addAP := addForms fun A P => Aff.addProj C A P
  subAP := subForms fun A P => Aff.subProj C A P
  addAsgPP := addAsg fun P Q => Proj.add C P Q
  subAsgPP := subAsg fun P Q => Proj.sub C P Q
  addAsgPA := addAsg fun P A => Proj.addMixed C P A
  subAsgPA := subAsg fun P A => Proj.subMixed C P A
  mulP := mulForms fun P s => Proj.mul C P (Fp.toRepr s)
  mulAsgP := mulAsg fun P s => Proj.mul C P (Fp.toRepr s)
  mulA := mulForms fun A s => Aff.mul C A (Fp.toRepr s)
  toProj := ⟨fun A => Aff.toCurve A, fun A => Aff.toCurve A⟩
  toAff := ⟨fun P => Proj.toAffine P, fun P => Proj.toAffine P⟩
  defaultP := Proj.identity
  defaultA := Aff.identity

/-- Models src/derive/curve.rs:269-276 (`generator` of the projective type, also by way of `Group`, 599-601). -/
def generatorP (G : Aff F) : Proj F := ⟨G.x, G.y, 1⟩

/-! ## Target groups -/

/-- The operators of a target group. -/
structure GtForms (T S : Type) where
  neg : Un T T
  add : Bin T T T
  sub : Bin T T T
  addAsg : Asg T T
  subAsg : Asg T T
  mul : Bin T S T
  mulAsg : Asg T S

/-- Models src/derive/pairing.rs:164-228. -/
def gtForms {T : Type} [Mul T] [One T] (square conj : T → T) (r : ℕ) [Fact (OddModulus r)] : GtForms T (Fp r) where
  neg := ⟨fun a => Pairing.gtNeg conj a, fun a => Pairing.gtNeg conj a⟩
  add := addForms fun a b => Pairing.gtAdd a b
  sub := subForms fun a b => Pairing.gtSub conj a b
  addAsg := Forms.addAsg fun a b => Pairing.gtAdd a b
  subAsg := Forms.subAsg fun a b => Pairing.gtSub conj a b
  mul := mulForms fun a s => Pairing.gtMul square a (Fp.toRepr s)
  mulAsg := Forms.mulAsg fun a s => Pairing.gtMul square a (Fp.toRepr s)

/-! ## `LInt` -/

/-- The operators of `LInt<L>`; there is no `&a op b`. The last two products have the `i64` on the left. -/
structure IntForms where
  neg : Un (List ℕ) (List ℕ)
  addRR : List ℕ → List ℕ → List ℕ
  addVR : List ℕ → List ℕ → List ℕ
  addVV : List ℕ → List ℕ → List ℕ
  subRR : List ℕ → List ℕ → List ℕ
  subVR : List ℕ → List ℕ → List ℕ
  subVV : List ℕ → List ℕ → List ℕ
  mulRR : List ℕ → List ℕ → List ℕ
  mulVR : List ℕ → List ℕ → List ℕ
  mulVV : List ℕ → List ℕ → List ℕ
  mulRI : List ℕ → ℤ → List ℕ
  mulVI : List ℕ → ℤ → List ℕ
  mulIR : ℤ → List ℕ → List ℕ
  mulIV : ℤ → List ℕ → List ℕ
  shrR : List ℕ → ℕ → List ℕ
  shrV : List ℕ → ℕ → List ℕ

/-- Models src/ff_ext/jacobi.rs:66-250. -/
def lintForms : IntForms where
  neg := ⟨fun x => Jacobi.lNeg x, fun x => Jacobi.lNeg x⟩
  addRR x y := Jacobi.lAdd x y
  addVR x y := Jacobi.lAdd x y
  addVV x y := Jacobi.lAdd x y
  subRR x y := Jacobi.lSub x y
  subVR x y := Jacobi.lSub x y
  subVV x y := Jacobi.lSub x y
  mulRR x y := Jacobi.lMul x y
  mulVR x y := Jacobi.lMul x y
  mulVV x y := Jacobi.lMul x y
  mulRI x o := Jacobi.lMulI64 x o
  mulVI x o := Jacobi.lMulI64 x o
  mulIR o x := Jacobi.lMulI64 x o
  mulIV o x := Jacobi.lMulI64 x o
  shrR x b := Jacobi.lShr x b
  shrV x b := Jacobi.lShr x b

end Halo2.Forms
