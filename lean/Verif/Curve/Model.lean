import Mathlib.Algebra.Ring.Defs

/-!
# Model of the short Weierstrass curve code (src/derive/curve.rs, macro `new_curve_impl!`)

The macro is instantiated with a base field `$base`, constants `a`, `b` and a curve identifier; the
model is generic over the same data. `CtOption` is `Option`, `Choice` is `Bool`,
`conditional_select(a, b, c)` is `if c then b else a`.

Points are modelled as the code stores them: homogeneous projective triples and affine pairs, with no
validity condition built in.
-/

namespace Halo2.Curve

/-- The methods of the base field the curve code calls by name. The operators `+ - *` are those of
the `CommRing` instance, which for every field of the library is built from the code's functions. -/
class BaseField (F : Type) where
  sqr : F → F
  dbl : F → F
  invert : F → Option F
  isZero : F → Bool

export BaseField (sqr dbl invert isZero)

/-- The constants given to `new_curve_impl!`. `bnG1` is the outcome of the test
`CURVE_ID == "bn256_g1"`. -/
structure Params (F : Type) where
  a : F
  b : F
  bnG1 : Bool

/-- Models src/derive/curve.rs:251-255 (`struct $name`). -/
@[ext] structure Proj (F : Type) where
  x : F
  y : F
  z : F
deriving DecidableEq

/-- Models src/derive/curve.rs:258-261 (`struct $name_affine`). -/
@[ext] structure Aff (F : Type) where
  x : F
  y : F
deriving DecidableEq

variable {F : Type} [CommRing F] [DecidableEq F] [BaseField F] (C : Params F)

/-- Models src/derive/curve.rs:279-284 (`curve_constant_3b`). -/
def const3b : F := C.b + C.b + C.b

/-- Models src/derive/curve.rs:286-292 (`mul_by_3b`). -/
def mul3b (t : F) : F := if C.bnG1 then dbl (dbl (dbl t)) + t else t * const3b C

/-- Models src/derive/curve.rs:304-312 (`y2`). -/
def y2 (x : F) : F :=
  if C.a = 0 then
    let x3 := sqr x * x
    x3 + C.b
  else
    let x2 := sqr x
    (x2 + C.a) * x + C.b

namespace Proj

/-- Models src/derive/curve.rs:603-609 (`identity`). -/
def identity : Proj F := ⟨0, 1, 0⟩

/-- Models src/derive/curve.rs:611-613 (`is_identity`). -/
def isIdentity (p : Proj F) : Bool := isZero p.z

/-- Models src/derive/curve.rs:361-378 (`ct_eq`) and 393-395 (`eq`). -/
def ctEq (p q : Proj F) : Bool :=
  let x1 := p.x * q.z
  let y1 := p.y * q.z
  let x2 := q.x * p.z
  let y2 := q.y * p.z
  let pz := isIdentity p
  let qz := isIdentity q
  (pz && qz) || (!pz && !qz && decide (x1 = x2) && decide (y1 = y2))

/-- Models src/derive/curve.rs:408-414 (`endo`); `zeta` is `Base::ZETA`. -/
def endo (zeta : F) (p : Proj F) : Proj F := ⟨p.x * zeta, p.y, p.z⟩

/-- Models src/derive/curve.rs:416-421 (`jacobian_coordinates`). -/
def jacobianCoordinates (p : Proj F) : F × F × F := (p.x * p.z, p.y * sqr p.z, p.z)

/-- Models src/derive/curve.rs:429-446 (`is_on_curve`). -/
def isOnCurve (p : Proj F) : Bool :=
  if C.a = 0 then
    decide (p.z * sqr p.y - sqr p.x * p.x = sqr p.z * p.z * C.b) || isZero p.z
  else
    let z2 := sqr p.z
    decide (p.z * sqr p.y - (sqr p.x + C.a * z2) * p.x = z2 * p.z * C.b) || isZero p.z

/-- Models src/derive/curve.rs:456-467 (`new_jacobian`). -/
def newJacobian (x y z : F) : Option (Proj F) :=
  let zInv := (invert z).getD 0
  let px := x * zInv
  let py := y * sqr zInv
  let p : Proj F := ⟨px, if isZero z then 1 else py, z⟩
  if isOnCurve C p then some p else none

/-- Models src/derive/curve.rs:526-597 (`double`). -/
def double (p : Proj F) : Proj F :=
  if C.a = 0 then
    let t0 := sqr p.y
    let z3 := t0 + t0
    let z3 := z3 + z3
    let z3 := z3 + z3
    let t1 := p.y * p.z
    let t2 := sqr p.z
    let t2 := mul3b C t2
    let x3 := t2 * z3
    let y3 := t0 + t2
    let z3 := t1 * z3
    let t1 := t2 + t2
    let t2 := t1 + t2
    let t0 := t0 - t2
    let y3 := t0 * y3
    let y3 := x3 + y3
    let t1 := p.x * p.y
    let x3 := t0 * t1
    let x3 := x3 + x3
    if isIdentity p then identity else ⟨x3, y3, z3⟩
  else
    let t0 := sqr p.x
    let t1 := sqr p.y
    let t2 := sqr p.z
    let t3 := p.x * p.y
    let t3 := t3 + t3
    let z3 := p.x * p.z
    let z3 := z3 + z3
    let x3 := C.a * z3
    let y3 := mul3b C t2
    let y3 := x3 + y3
    let x3 := t1 - y3
    let y3 := t1 + y3
    let y3 := x3 * y3
    let x3 := t3 * x3
    let z3 := mul3b C z3
    let t2 := C.a * t2
    let t3 := t0 - t2
    let t3 := C.a * t3
    let t3 := t3 + z3
    let z3 := t0 + t0
    let t0 := z3 + t0
    let t0 := t0 + t2
    let t0 := t0 * t3
    let y3 := y3 + t0
    let t2 := p.y * p.z
    let t2 := t2 + t2
    let t0 := t2 * t3
    let x3 := x3 - t0
    let z3 := t2 * t1
    let z3 := z3 + z3
    let z3 := z3 + z3
    if isIdentity p then identity else ⟨x3, y3, z3⟩

/-- Models src/derive/curve.rs:853-863 (`neg`). -/
def neg (p : Proj F) : Proj F := ⟨p.x, -p.y, p.z⟩

/-- Models src/derive/curve.rs:885-980 (`add`, projective + projective). -/
def add (p q : Proj F) : Proj F :=
  if C.a = 0 then
    let t0 := p.x * q.x
    let t1 := p.y * q.y
    let t2 := p.z * q.z
    let t3 := p.x + p.y
    let t4 := q.x + q.y
    let t3 := t3 * t4
    let t4 := t0 + t1
    let t3 := t3 - t4
    let t4 := p.y + p.z
    let x3 := q.y + q.z
    let t4 := t4 * x3
    let x3 := t1 + t2
    let t4 := t4 - x3
    let x3 := p.x + p.z
    let y3 := q.x + q.z
    let x3 := x3 * y3
    let y3 := t0 + t2
    let y3 := x3 - y3
    let x3 := t0 + t0
    let t0 := x3 + t0
    let t2 := mul3b C t2
    let z3 := t1 + t2
    let t1 := t1 - t2
    let y3 := mul3b C y3
    let x3 := t4 * y3
    let t2 := t3 * t1
    let x3 := t2 - x3
    let y3 := y3 * t0
    let t1 := t1 * z3
    let y3 := t1 + y3
    let t0 := t0 * t3
    let z3 := z3 * t4
    let z3 := z3 + t0
    ⟨x3, y3, z3⟩
  else
    let t0 := p.x * q.x
    let t1 := p.y * q.y
    let t2 := p.z * q.z
    let t3 := p.x + p.y
    let t4 := q.x + q.y
    let t3 := t3 * t4
    let t4 := t0 + t1
    let t3 := t3 - t4
    let t4 := p.x + p.z
    let t5 := q.x + q.z
    let t4 := t4 * t5
    let t5 := t0 + t2
    let t4 := t4 - t5
    let t5 := p.y + p.z
    let x3 := q.y + q.z
    let t5 := t5 * x3
    let x3 := t1 + t2
    let t5 := t5 - x3
    let z3 := C.a * t4
    let x3 := mul3b C t2
    let z3 := x3 + z3
    let x3 := t1 - z3
    let z3 := t1 + z3
    let y3 := x3 * z3
    let t1 := t0 + t0
    let t1 := t1 + t0
    let t2 := C.a * t2
    let t4 := mul3b C t4
    let t1 := t1 + t2
    let t2 := t0 - t2
    let t2 := C.a * t2
    let t4 := t4 + t2
    let t0 := t1 * t4
    let y3 := y3 + t0
    let t0 := t5 * t4
    let x3 := t3 * x3
    let x3 := x3 - t0
    let t0 := t3 * t1
    let z3 := t5 * z3
    let z3 := z3 + t0
    ⟨x3, y3, z3⟩

/-- Models src/derive/curve.rs:1070-1076 (`sub`). -/
def sub (p q : Proj F) : Proj F := add C p (neg q)

/-- Models src/derive/curve.rs:873-883 (`Sum`). -/
def sum (l : List (Proj F)) : Proj F := l.foldl (fun acc q => add C acc q) identity

end Proj

namespace Aff

/-- Models src/derive/curve.rs:765-770 (`identity`). -/
def identity : Aff F := ⟨0, 0⟩

/-- Models src/derive/curve.rs:772-774 (`is_identity`). -/
def isIdentity (p : Aff F) : Bool := isZero p.x && isZero p.y

/-- Models src/derive/curve.rs:776-783 (`to_curve`). -/
def toCurve (p : Aff F) : Proj F := if isIdentity p then Proj.identity else ⟨p.x, p.y, 1⟩

/-- Models src/derive/curve.rs:698-703 (`ct_eq`). -/
def ctEq (p q : Aff F) : Bool :=
  let z1 := isIdentity p
  let z2 := isIdentity q
  (z1 && z2) || (!z1 && !z2 && decide (p.x = q.x) && decide (p.y = q.y))

/-- The derived `PartialEq` of src/derive/curve.rs:258: componentwise. -/
def eq (p q : Aff F) : Bool := decide (p.x = q.x) && decide (p.y = q.y)

/-- Models src/derive/curve.rs:813-823 (`is_on_curve`). -/
def isOnCurve (p : Aff F) : Bool :=
  if C.a = 0 then decide (sqr p.y - sqr p.x * p.x = C.b) || isIdentity p
  else decide (sqr p.y - (sqr p.x + C.a) * p.x = C.b) || isIdentity p

/-- Models src/derive/curve.rs:829-834 (`from_xy`). -/
def fromXY (x y : F) : Option (Aff F) :=
  let p : Aff F := ⟨x, y⟩
  if isOnCurve C p then some p else none

/-- Models src/derive/curve.rs:1113-1122 (`neg`). -/
def neg (p : Aff F) : Aff F := ⟨p.x, -p.y⟩

end Aff

namespace Proj

/-- Models src/derive/curve.rs:507-516 (`to_affine`). -/
def toAffine (p : Proj F) : Aff F :=
  let zinv := (invert p.z).getD 0
  let x := p.x * zinv
  let y := p.y * zinv
  if isZero zinv then Aff.identity else ⟨x, y⟩

/-- Models src/derive/curve.rs:982-1068 (`add`, projective + affine). -/
def addMixed (p : Proj F) (q : Aff F) : Proj F :=
  if C.a = 0 then
    let t0 := p.x * q.x
    let t1 := p.y * q.y
    let t3 := q.x + q.y
    let t4 := p.x + p.y
    let t3 := t3 * t4
    let t4 := t0 + t1
    let t3 := t3 - t4
    let t4 := q.y * p.z
    let t4 := t4 + p.y
    let y3 := q.x * p.z
    let y3 := y3 + p.x
    let x3 := t0 + t0
    let t0 := x3 + t0
    let t2 := mul3b C p.z
    let z3 := t1 + t2
    let t1 := t1 - t2
    let y3 := mul3b C y3
    let x3 := t4 * y3
    let t2 := t3 * t1
    let x3 := t2 - x3
    let y3 := y3 * t0
    let t1 := t1 * z3
    let y3 := t1 + y3
    let t0 := t0 * t3
    let z3 := z3 * t4
    let z3 := z3 + t0
    if Aff.isIdentity q then p else ⟨x3, y3, z3⟩
  else
    let t0 := p.x * q.x
    let t1 := p.y * q.y
    let t3 := q.x + q.y
    let t4 := p.x + p.y
    let t3 := t3 * t4
    let t4 := t0 + t1
    let t3 := t3 - t4
    let t4 := q.x * p.z
    let t4 := t4 + p.x
    let t5 := q.y * p.z
    let t5 := t5 + p.y
    let z3 := C.a * t4
    let x3 := mul3b C p.z
    let z3 := x3 + z3
    let x3 := t1 - z3
    let z3 := t1 + z3
    let y3 := x3 * z3
    let t1 := t0 + t0
    let t1 := t1 + t0
    let t2 := C.a * p.z
    let t4 := mul3b C t4
    let t1 := t1 + t2
    let t2 := t0 - t2
    let t2 := C.a * t2
    let t4 := t4 + t2
    let t0 := t1 * t4
    let y3 := y3 + t0
    let t0 := t5 * t4
    let x3 := t3 * x3
    let x3 := x3 - t0
    let t0 := t3 * t1
    let z3 := t5 * z3
    let z3 := z3 + t0
    if Aff.isIdentity q then p else ⟨x3, y3, z3⟩

/-- Models src/derive/curve.rs:1078-1084 (`sub`, projective − affine). -/
def subMixed (p : Proj F) (q : Aff F) : Proj F := addMixed C p (Aff.neg q)

/-- First loop of `batch_normalize`, src/derive/curve.rs:477-484: the products stored in `q.x`, in
order, and the final accumulator. -/
def batchForward : F → List (Proj F) → List F × F
  | acc, [] => ([], acc)
  | acc, p :: ps =>
    let r := batchForward (if isIdentity p then acc else acc * p.z) ps
    (acc :: r.1, r.2)

/-- Second loop of `batch_normalize`, src/derive/curve.rs:490-503; the argument is the list of
pairs `(p, q.x)` already reversed, the result is in the same reversed order. -/
def batchBackward : F → List (Proj F × F) → List (Aff F)
  | _, [] => []
  | acc, (p, qx) :: rest =>
    let skip := isIdentity p
    let tmp := qx * acc
    let acc := if skip then acc else acc * p.z
    let q : Aff F := ⟨p.x * tmp, p.y * tmp⟩
    (if skip then Aff.identity else q) :: batchBackward acc rest

/-- Models src/derive/curve.rs:474-505 (`batch_normalize`). The previous contents of the output slice
do not matter, only its length `qlen`; `none` is a panic (`assert_eq!` on the lengths, or
`invert().unwrap()`). -/
def batchNormalize (ps : List (Proj F)) (qlen : ℕ) : Option (List (Aff F)) :=
  if ps.length ≠ qlen then none
  else
    let fwd := batchForward 1 ps
    match invert fwd.2 with
    | none => none
    | some acc => some (batchBackward acc (ps.zip fwd.1).reverse).reverse

/-- The bits the scalar multiplication loops over: the bytes of `to_repr()` last to first, each from
bit 7 to bit 0. Models src/derive/curve.rs:1096-1103. -/
def bitsOf (repr : List ℕ) : List Bool :=
  repr.reverse.flatMap fun byte => (List.range 8).reverse.map fun i => ((byte >>> i) &&& 1) == 1

/-- Models src/derive/curve.rs:1089-1111 (`Mul<&Scalar> for &$name`); the argument is
`other.to_repr()`. -/
def mul (p : Proj F) (repr : List ℕ) : Proj F :=
  (bitsOf repr).foldl
    (fun acc bit =>
      let acc := double C acc
      if bit then add C acc p else acc)
    identity

end Proj

namespace Aff

/-- Models src/derive/curve.rs:1132-1138 (affine + projective). -/
def addProj (p : Aff F) (q : Proj F) : Proj F := Proj.addMixed C q p

/-- Models src/derive/curve.rs:1140-1146 (affine + affine). -/
def add (p q : Aff F) : Proj F := Proj.add C (toCurve q) (toCurve p)

/-- Models src/derive/curve.rs:1148-1154 (affine − affine). -/
def sub (p q : Aff F) : Proj F := add C p (neg q)

/-- Models src/derive/curve.rs:1156-1162 (affine − projective). -/
def subProj (p : Aff F) (q : Proj F) : Proj F := addProj C p (Proj.neg q)

/-- Models src/derive/curve.rs:1165-1188 (`Mul<&Scalar> for &$name_affine`). -/
def mul (p : Aff F) (repr : List ℕ) : Proj F :=
  (Proj.bitsOf repr).foldl
    (fun acc bit =>
      let acc := Proj.double C acc
      if bit then Proj.addMixed C acc p else acc)
    Proj.identity

end Aff

end Halo2.Curve
