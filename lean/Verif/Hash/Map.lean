import Verif.Curve.Model
import Verif.Hash.Expand

/-!
# Model of src/hash_to_curve.rs, second part: mapping field elements to the curve

The maps are generic over the base field as in the code. `HashOps` collects the field methods they call
besides those of the curve code. `CtOption` is `Option`; a panic (`unwrap` of nothing, a failed
`assert!`) is `none`; `conditional_select(a, b, c)` is `if c then b else a`.
-/

namespace Halo2.Hash

open Halo2.Curve

/-- The methods of `C::Base` called by the maps. -/
structure HashOps (F : Type) where
  sqrt : F → Option F
  isOdd : F → Bool
  /-- `ct_quadratic_non_residue` -/
  nonResidue : F → Bool
  /-- `TWO_INV` -/
  twoInv : F

/-- The constants computed once per suite. -/
structure SvdwConsts (F : Type) where
  c1 : F
  c2 : F
  c3 : F
  c4 : F

variable {F : Type} [CommRing F] [DecidableEq F] [BaseField F] (C : Params F) (O : HashOps F)

/-- Models src/hash_to_curve.rs:156-177 (`svdw_precomputed_constants`). -/
def svdwConstants (z : F) : Option (SvdwConsts F) :=
  let a := C.a
  let b := C.b
  let one : F := 1
  let three := one + one + one
  let four := three + one
  let tmp := three * sqr z + four * a
  let c1 := (sqr z + a) * z + b
  let c2 := -z * O.twoInv
  match O.sqrt (-c1 * tmp) with
  | none => none
  | some r =>
    let c3 := if O.isOdd r then -r else r
    match invert tmp with
    | none => none
    | some i =>
      let c4 := -four * c1 * i
      some ⟨c1, c2, c3, c4⟩

/-- `gx` of steps 11-14, 17-20 and 29-32. -/
def svdwG (x : F) : F := (sqr x + C.a) * x + C.b

/-- Steps 1-28: the abscissa. Models src/hash_to_curve.rs:303-358. -/
def svdwX (k : SvdwConsts F) (z u : F) : F :=
  let tv1 := sqr u
  let tv1 := tv1 * k.c1
  let tv2 := 1 + tv1
  let tv1 := 1 - tv1
  let tv3 := tv1 * tv2
  let tv3 := (invert tv3).getD 0
  let tv4 := u * tv1
  let tv4 := tv4 * tv3
  let tv4 := tv4 * k.c3
  let x1 := k.c2 - tv4
  let e1 := !O.nonResidue (svdwG C x1)
  let x2 := k.c2 + tv4
  let e2 := !O.nonResidue (svdwG C x2) && !e1
  let x3 := sqr tv2
  let x3 := x3 * tv3
  let x3 := sqr x3
  let x3 := x3 * k.c4
  let x3 := x3 + z
  let x := if e1 then x1 else x3
  if e2 then x2 else x

/-- Models src/hash_to_curve.rs:287-375 (`svdw_map_to_curve`). -/
def svdwMap (k : SvdwConsts F) (z u : F) : Option (Proj F) :=
  let x := svdwX C O k z u
  match O.sqrt (svdwG C x) with
  | none => none
  | some y =>
    let e3 := O.isOdd u == O.isOdd y
    let y := if e3 then y else -y
    Proj.newJacobian C x y 1

/-- `sqrt_ratio`. Models src/hash_to_curve.rs:192-225. -/
def sqrtRatio (num div z : F) : Option (Bool × F) :=
  let a := (invert div).getD 0 * num
  let b := a * z
  let sqrtA := O.sqrt a
  let sqrtB := O.sqrt b
  let numZ := isZero num
  let divZ := isZero div
  let isSquare := sqrtA.isSome
  let isNonsquare := sqrtB.isSome
  if numZ || divZ || xor isSquare isNonsquare then
    (if isSquare then sqrtA else sqrtB).map fun r => (isSquare && (numZ || !divZ), r)
  else none

/-- Models src/hash_to_curve.rs:181-284 (`sswu_map_to_curve`), on the curve `y² = x³ + a x + b`; the result
is in homogeneous coordinates. -/
def sswuMap (a b z u : F) : Option (F × F × F) :=
  let tv1 := sqr u
  let tv1 := z * tv1
  let tv2 := sqr tv1
  let tv2 := tv2 + tv1
  let tv3 := tv2 + 1
  let tv3 := b * tv3
  let tv4 := if tv2 = 0 then z else -tv2
  let tv4 := a * tv4
  let tv2 := sqr tv3
  let tv6 := sqr tv4
  let tv5 := a * tv6
  let tv2 := tv2 + tv5
  let tv2 := tv2 * tv3
  let tv6 := tv6 * tv4
  let tv5 := b * tv6
  let tv2 := tv2 + tv5
  let x := tv1 * tv3
  match sqrtRatio O tv2 tv6 z with
  | none => none
  | some r =>
    let y := tv1 * u
    let y := y * r.2
    let x := if r.1 then tv3 else x
    let y := if r.1 then r.2 else y
    let e1 := O.isOdd u == O.isOdd y
    let y := if e1 then y else -y
    some (x, y * tv4, tv4)

/-- Horner's rule in homogeneous form, `zp` the list `z, z², …`; `coeff` is given from the constant term
upwards, so the loop runs over it from the end. The indices into
`zpows` are in range for the shipped tables, so `zip` cuts nothing off. Models src/bls12381/g1.rs:142-149. -/
def isoPoly (coeff : List F) (zp : List F) (x : F) : F :=
  match coeff.reverse with
  | [] => 0
  | c :: r => (r.zip zp).foldl (fun acc e => acc * x + e.2 * e.1) c

/-- The four coefficient tables of an isogeny. -/
structure IsoTable (F : Type) where
  xnum : List F
  xden : List F
  ynum : List F
  yden : List F

/-- `zpows`: `n` powers of `z`, each computed from the one before. Models src/bls12381/g1.rs:132-139. -/
def zpows (z : F) : ℕ → F → List F
  | 0, _ => []
  | n + 1, cur => cur :: zpows z n (cur * z)

/-- The end of both `iso_map`s of bls12-381. Models src/bls12381/g1.rs:141-162. -/
def isoMapWith (T : IsoTable F) (zp : List F) (x y z : F) : Proj F :=
  let m0 := isoPoly T.xnum zp x
  let m1 := isoPoly T.xden zp x
  let m2 := isoPoly T.ynum zp x
  let m3 := isoPoly T.yden zp x
  let m1 := m1 * z
  let m2 := m2 * y
  let m3 := m3 * z
  ⟨m0 * m3, m2 * m1, m1 * m3⟩

/-- Models src/bls12381/g1.rs:125-163 (`iso_map`). -/
def isoMapG1 (T : IsoTable F) (x y z : F) : Proj F := isoMapWith T (zpows z 15 z) x y z

/-- Models src/bls12381/g2.rs:288-320 (`iso_map`). -/
def isoMapG2 (T : IsoTable F) (x y z : F) : Proj F := isoMapWith T [z, sqr z, sqr z * z] x y z

/-- The table `K` of the 3-isogeny of secp256k1, row `i` column `j`. -/
def kAt (K : List (List F)) (i j : ℕ) : F := (K.getD i []).getD j 0

/-- Models src/secp256k1/curve.rs:204-219 (`iso_map` after its table). -/
def isoMapK1 (K : List (List F)) (x y z : F) : Proj F :=
  let z2 := sqr z
  let z3 := z2 * z
  let xNum := ((kAt K 1 3 * x + kAt K 1 2 * z) * x + kAt K 1 1 * z2) * x + kAt K 1 0 * z3
  let xDen := (z * x + kAt K 2 1 * z2) * x + kAt K 2 0 * z3
  let yNum := (((kAt K 3 3 * x + kAt K 3 2 * z) * x + kAt K 3 1 * z2) * x + kAt K 3 0 * z3) * y
  let yDen := (((x + kAt K 4 2 * z) * x + kAt K 4 1 * z2) * x + kAt K 4 0 * z3) * z
  ⟨xNum * yDen, yNum * xDen, xDen * yDen⟩

/-- The map of a suite with `Method::SVDW`; the constants are computed in `Suite::new`.
Models src/hash_to_curve.rs:117-120. -/
def svdwSuite (z u : F) : Option (Proj F) :=
  match svdwConstants C O z with
  | none => none
  | some k => svdwMap C O k z u

/-- The map of a suite with `Method::SSWU(iso)`. Models src/hash_to_curve.rs:109-115. -/
def sswuSuite (a b z : F) (iso : F → F → F → Proj F) (u : F) : Option (Proj F) :=
  match sswuMap O a b z u with
  | none => none
  | some r => some (iso r.1 r.2.1 r.2.2)

/-- `hash_to_curve` of a suite: the sum of the images of the two field elements.
Models src/hash_to_curve.rs:150-153. -/
def hashToCurve (D : Digest) (checks : Bool) (fromUniform : List ℕ → F) (L : ℕ) (map : F → Option (Proj F))
    (pre domain message : List ℕ) : Option (Proj F) :=
  match hashToField D checks fromUniform L pre domain message with
  | none => none
  | some u =>
    match map u.1, map u.2 with
    | some p, some q => some (Proj.add C p q)
    | _, _ => none

end Halo2.Hash
