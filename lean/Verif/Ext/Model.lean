import Mathlib.Algebra.Ring.Defs
import Mathlib.Tactic.Ring

/-!
# Model of the extension field code (src/ff_ext/{mod,quadratic,cubic}.rs, src/derive/field/tower.rs)

The Rust code is generic over a field type `F: ExtField`; so is the model.  The ring operators
`+ - *` of `F` are the operators of its `CommRing` instance, which for every type of the library is
built from the code's own functions (`Verif.Field.Fp`, `Verif.Ext.Ring`).  Methods that the Rust
code calls by name and that types may override (`square`, `double`, `invert`, `is_zero`,
`mul_by_nonresidue`, `frobenius_map`) are fields of the class `ExtField`.
-/

namespace Halo2.Ext

/-- The methods of `ff::Field` and `ExtField` the extension code calls by name.
Models src/ff_ext/mod.rs:36-43 (trait `ExtField: ff::Field`). `CtOption` is `Option`, `Choice` is
`Bool`. -/
class ExtField (F : Type) where
  sqr : F → F
  dbl : F → F
  invert : F → Option F
  isZero : F → Bool
  nonRes : F
  mulNr : F → F
  frob : ℕ → F → F

open ExtField

/-- The default body of `mul_by_nonresidue`. Models src/ff_ext/mod.rs:39-41. -/
def mulNrDefault {F : Type} [Mul F] (nr : F) (x : F) : F := nr * x

/-- Models src/ff_ext/quadratic.rs:173-176 (`QuadExtField`). -/
@[ext] structure Quad (F : Type) where
  c0 : F
  c1 : F
deriving DecidableEq

/-- Models src/ff_ext/cubic.rs:4-8 (`CubicExtField`). -/
@[ext] structure Cubic (F : Type) where
  c0 : F
  c1 : F
  c2 : F
deriving DecidableEq

namespace Quad

variable {F : Type} [CommRing F] [ExtField F]

/-- Models src/ff_ext/quadratic.rs:185-190. -/
def zero : Quad F := ⟨0, 0⟩
/-- Models src/ff_ext/quadratic.rs:193-198. -/
def one : Quad F := ⟨1, 0⟩
/-- Models src/ff_ext/quadratic.rs:211-216. -/
def double (x : Quad F) : Quad F := ⟨dbl x.c0, dbl x.c1⟩
/-- Models src/ff_ext/quadratic.rs:219-224. -/
def add (x y : Quad F) : Quad F := ⟨x.c0 + y.c0, x.c1 + y.c1⟩
/-- Models src/ff_ext/quadratic.rs:227-232. -/
def sub (x y : Quad F) : Quad F := ⟨x.c0 - y.c0, x.c1 - y.c1⟩
/-- Models src/ff_ext/quadratic.rs:235-240. -/
def neg (x : Quad F) : Quad F := ⟨-x.c0, -x.c1⟩
/-- Models src/ff_ext/quadratic.rs:243-245. -/
def conjugate (x : Quad F) : Quad F := ⟨x.c0, -x.c1⟩

/-- Models src/ff_ext/quadratic.rs:152-157 (`mul_assign`), 252-256 (`mul`). -/
def mul (x y : Quad F) : Quad F :=
  let v0 := x.c0 * y.c0
  let v1 := x.c1 * y.c1
  let c1 := (x.c0 + x.c1) * (y.c0 + y.c1) - (v0 + v1)
  let c0 := v0 + mulNr v1
  ⟨c0, c1⟩

/-- Models src/ff_ext/quadratic.rs:159-165 (`square_assign`, default body). -/
def square (x : Quad F) : Quad F :=
  let ab := x.c0 * x.c1
  let c0c1 := x.c0 + x.c1
  let c0 := (mulNr x.c1 + x.c0) * c0c1 - ab
  let c1 := dbl ab
  ⟨c0 - mulNr ab, c1⟩

/-- Models src/bn256/fq2.rs:34-40 and src/bls12381/fq2.rs:38-44 (`square_assign` overrides). -/
def squareComplex (x : Quad F) : Quad F :=
  let a := x.c0 + x.c1
  let b := x.c0 - x.c1
  let c := dbl x.c0
  ⟨a * b, c * x.c1⟩

/-- Models src/ff_ext/quadratic.rs:272-274. -/
def norm (x : Quad F) : F := sqr x.c0 - mulNr (sqr x.c1)

/-- Models src/ff_ext/quadratic.rs:288-290. -/
def isZero (x : Quad F) : Bool := ExtField.isZero x.c0 && ExtField.isZero x.c1

/-- Models src/ff_ext/quadratic.rs:319-324. -/
def invert (x : Quad F) : Option (Quad F) :=
  (ExtField.invert (norm x)).map fun t => ⟨x.c0 * t, x.c1 * -t⟩

/-- Models src/bn256/fq2.rs:60-64, src/bls12381/fq2.rs:57-61, src/pluto_eris/fp2.rs:72-76
(`frobenius_map` of the quadratic extension of the prime field). -/
def frob2 (power : ℕ) (x : Quad F) : Quad F := if power % 2 ≠ 0 then conjugate x else x

instance : Zero (Quad F) := ⟨zero⟩
instance : One (Quad F) := ⟨one⟩
instance : Add (Quad F) := ⟨add⟩
instance : Sub (Quad F) := ⟨sub⟩
instance : Neg (Quad F) := ⟨neg⟩
instance : Mul (Quad F) := ⟨mul⟩

end Quad

namespace Cubic

variable {F : Type} [CommRing F] [ExtField F]

/-- Models src/ff_ext/cubic.rs:94-100. -/
def zero : Cubic F := ⟨0, 0, 0⟩
/-- Models src/ff_ext/cubic.rs:103-109. -/
def one : Cubic F := ⟨1, 0, 0⟩
/-- Models src/ff_ext/cubic.rs:127-133. -/
def double (x : Cubic F) : Cubic F := ⟨dbl x.c0, dbl x.c1, dbl x.c2⟩
/-- Models src/ff_ext/cubic.rs:136-142. -/
def add (x y : Cubic F) : Cubic F := ⟨x.c0 + y.c0, x.c1 + y.c1, x.c2 + y.c2⟩
/-- Models src/ff_ext/cubic.rs:145-151. -/
def sub (x y : Cubic F) : Cubic F := ⟨x.c0 - y.c0, x.c1 - y.c1, x.c2 - y.c2⟩
/-- Models src/ff_ext/cubic.rs:154-160. -/
def neg (x : Cubic F) : Cubic F := ⟨-x.c0, -x.c1, -x.c2⟩

/-- Models src/ff_ext/cubic.rs:53-70 (`mul_assign`), 167-171 (`mul`). -/
def mul (x y : Cubic F) : Cubic F :=
  let a_a := x.c0 * y.c0
  let b_b := x.c1 * y.c1
  let c_c := x.c2 * y.c2
  let t1 := (y.c1 + y.c2) * (x.c1 + x.c2) - (c_c + b_b)
  let t1 := a_a + mulNr t1
  let t3 := (y.c0 + y.c2) * (x.c0 + x.c2) - (a_a - b_b + c_c)
  let t2 := (y.c0 + y.c1) * (x.c0 + x.c1) - (a_a + b_b)
  let t2 := t2 + mulNr c_c
  ⟨t1, t2, t3⟩

/-- Models src/ff_ext/cubic.rs:72-84 (`square_assign`). -/
def square (x : Cubic F) : Cubic F :=
  let s0 := sqr x.c0
  let s1 := dbl (x.c0 * x.c1)
  let s2 := sqr (x.c0 - x.c1 + x.c2)
  let s3 := dbl (x.c1 * x.c2)
  let s4 := sqr x.c2
  ⟨mulNr s3 + s0, mulNr s4 + s1, s1 + s2 + s3 - s0 - s4⟩

/-- Models src/ff_ext/cubic.rs:203-205 (`is_zero`: `c2` is not looked at). -/
def isZero (x : Cubic F) : Bool := ExtField.isZero x.c0 && ExtField.isZero x.c1

/-- The norm computed inside `invert`. Models src/ff_ext/cubic.rs:224-229. -/
def invAux (x : Cubic F) : Cubic F × F :=
  let c0 := mulNr x.c2 * -x.c1 + sqr x.c0
  let c1 := mulNr (sqr x.c2) - x.c0 * x.c1
  let c2 := sqr x.c1 - x.c0 * x.c2
  let t := x.c2 * c1 + x.c1 * c2
  let t := mulNr t + x.c0 * c0
  (⟨c0, c1, c2⟩, t)

/-- Models src/ff_ext/cubic.rs:223-236 (`invert`). -/
def invert (x : Cubic F) : Option (Cubic F) :=
  let r := invAux x
  (ExtField.invert r.2).map fun t => ⟨t * r.1.c0, t * r.1.c1, t * r.1.c2⟩

/-- Models src/ff_ext/cubic.rs:14-26. -/
def mulBy1 (x : Cubic F) (c1 : F) : Cubic F :=
  let b_b := x.c1 * c1
  let t1 := (x.c1 + x.c2) * c1 - b_b
  let t1 := mulNr t1
  let t2 := (x.c0 + x.c1) * c1 - b_b
  ⟨t1, t2, b_b⟩

/-- Models src/ff_ext/cubic.rs:29-47. -/
def mulBy01 (x : Cubic F) (c0 c1 : F) : Cubic F :=
  let a_a := x.c0 * c0
  let b_b := x.c1 * c1
  let t1 := c1 * (x.c1 + x.c2) - b_b
  let t1 := a_a + mulNr t1
  let t3 := c0 * (x.c0 + x.c2) - a_a + b_b
  let t2 := (c0 + c1) * (x.c0 + x.c1) - a_a - b_b
  ⟨t1, t2, t3⟩

/-- `NON_RESIDUE` of the sextic fields. Models src/bn256/fq6.rs:28, src/bls12381/fq6.rs:24,
src/pluto_eris/fp6.rs:27. -/
def v : Cubic F := ⟨0, 1, 0⟩

/-- `mul_by_nonresidue` of the sextic fields. Models src/bn256/fq6.rs:38-43,
src/bls12381/fq6.rs:34-39, src/pluto_eris/fp6.rs:37-42. -/
def mulV (x : Cubic F) : Cubic F := ⟨mulNr x.c2, x.c0, x.c1⟩

/-- `frobenius_map` of the sextic fields, with the two coefficient tables as arguments.
Models src/bn256/fq6.rs:30-36, src/bls12381/fq6.rs:26-32, src/pluto_eris/fp6.rs:29-35. -/
def frob6 (t1 t2 : List F) (power : ℕ) (x : Cubic F) : Cubic F :=
  let c0 := frob power x.c0
  let c1 := frob power x.c1
  let c2 := frob power x.c2
  ⟨c0, c1 * t1.getD (power % 6) 0, c2 * t2.getD (power % 6) 0⟩

instance : Zero (Cubic F) := ⟨zero⟩
instance : One (Cubic F) := ⟨one⟩
instance : Add (Cubic F) := ⟨add⟩
instance : Sub (Cubic F) := ⟨sub⟩
instance : Neg (Cubic F) := ⟨neg⟩
instance : Mul (Cubic F) := ⟨mul⟩

end Cubic

/-! ## The 12th degree field -/

namespace Deg12

variable {F : Type} [CommRing F] [ExtField F] [ExtField (Cubic F)]

/-- Models src/ff_ext/quadratic.rs:12-26. -/
def mulBy014 (x : Quad (Cubic F)) (c0 c1 c4 : F) : Quad (Cubic F) :=
  let aa := Cubic.mulBy01 x.c0 c0 c1
  let bb := Cubic.mulBy1 x.c1 c4
  let t0 := x.c1 + x.c0
  let t1 := c1 + c4
  let r1 := Cubic.mulBy01 t0 c0 t1 - (aa + bb)
  let r0 := mulNr bb + aa
  ⟨r0, r1⟩

/-- Models src/ff_ext/quadratic.rs:28-46. -/
def mulBy034 (x : Quad (Cubic F)) (c0 c3 c4 : F) : Quad (Cubic F) :=
  let t0 : Cubic F := ⟨x.c0.c0 * c0, x.c0.c1 * c0, x.c0.c2 * c0⟩
  let t1 := Cubic.mulBy01 x.c1 c3 c4
  let t2 := x.c0 + x.c1
  let t3 := c0 + c3
  let r1 := Cubic.mulBy01 t2 t3 c4 - t0 - t1
  let r0 := t0 + mulNr t1
  ⟨r0, r1⟩

/-- `frobenius_map` of the twelfth degree fields, with the coefficient table as argument.
Models src/bn256/fq12.rs:26-32, src/bls12381/fq12.rs:22-28, src/pluto_eris/fp12.rs:26-32. -/
def frob12 (t : List F) (power : ℕ) (x : Quad (Cubic F)) : Quad (Cubic F) :=
  let c0 := frob power x.c0
  let c1 := frob power x.c1
  let k := t.getD (power % 12) 0
  ⟨c0, ⟨c1.c0 * k, c1.c1 * k, c1.c2 * k⟩⟩

/-- `fp4_square`. Models src/derive/field/tower.rs:221-227. -/
def fp4Square (a0 a1 : F) : F × F :=
  let t0 := sqr a0
  let t1 := sqr a1
  (mulNr t1 + t0, sqr (a0 + a1) - t0 - t1)

/-- Models src/derive/field/tower.rs:220-248 (`cyclotomic_square`). -/
def cyclotomicSquare (x : Quad (Cubic F)) : Quad (Cubic F) :=
  let t34 := fp4Square x.c0.c0 x.c1.c1
  let c00 := dbl (t34.1 - x.c0.c0) + t34.1
  let c11 := dbl (t34.2 + x.c1.c1) + t34.2
  let t34' := fp4Square x.c1.c0 x.c0.c2
  let t56 := fp4Square x.c0.c1 x.c1.c2
  let c01 := dbl (t34'.1 - x.c0.c1) + t34'.1
  let c12 := dbl (t34'.2 + x.c1.c2) + t34'.2
  let t3 := mulNr t56.2
  let c10 := dbl (t3 + x.c1.c0) + t3
  let c02 := dbl (t56.1 - x.c0.c2) + t56.1
  ⟨⟨c00, c01, c02⟩, ⟨c10, c11, c12⟩⟩

end Deg12

/-! ## Exponentiation and square roots -/

/-- One step of the `ff` crate's `pow`/`pow_vartime`: square, then multiply if the bit is set. -/
def powStep {F : Type} [Mul F] (sqf : F → F) (base : F) (res : F) (bit : Bool) : F :=
  let r := sqf res
  if bit then r * base else r

/-- The 64 bits of a limb, most significant first. -/
def limbBits (e : ℕ) : List Bool := (List.range 64).reverse.map fun i => decide (e / 2 ^ i % 2 = 1)

/-- `ff::Field::pow` / `pow_vartime` (provided methods of the `ff` crate, version 0.13, modelled from
their published definition): limbs from the last to the first, bits from the top. -/
def pow {F : Type} [Mul F] [One F] (sqf : F → F) (base : F) (exp : List ℕ) : F :=
  (exp.reverse.flatMap limbBits).foldl (powStep sqf base) 1

section Sqrt

variable {F : Type} [CommRing F] [DecidableEq F] [ExtField F] [ExtField (Quad F)]

/-- Models src/ff_ext/quadratic.rs:50-93 (`sqrt_algo9`). -/
def sqrtAlgo9 (e : Quad F) (qm3o4 qm1o2 : List ℕ) : Option (Quad F) :=
  if ExtField.isZero e then some 0
  else
    let a1 := pow (sqr (F := Quad F)) e qm3o4
    let alpha := sqr a1
    let alpha := alpha * e
    let a0 := frob 1 alpha * alpha
    let neg1 : Quad F := ⟨0 - 1, 0⟩
    if a0 = neg1 then none
    else
      let a1 := a1 * e
      if alpha = neg1 then some (a1 * ⟨0, 1⟩)
      else
        let alpha := alpha + 1
        let alpha := pow (sqr (F := Quad F)) alpha qm1o2
        some (a1 * alpha)

/-- Outcome of `sqrt_algo10`: a `CtOption`, a panic of `unwrap`, or no result within the fuel. -/
inductive SqrtResult (α : Type) where
  | ok (r : Option α)
  | panic
  | diverge

/-- Models src/ff_ext/quadratic.rs:96-133 (`sqrt_algo10`). The recursive call
`(b_2 * precompute_f * el).sqrt()` goes through `Field::sqrt` (300-313) back to this function;
`fuel` bounds the recursion depth. `baseSqrt` is the square root of the base field. -/
def sqrtAlgo10 (baseSqrt : F → Option F) (pe pf : Quad F) (qm1o4 : List ℕ) : ℕ → Quad F → SqrtResult (Quad F)
  | 0, _ => .diverge
  | fuel + 1, el =>
    let b := pow (sqr (F := Quad F)) el qm1o4
    let b_2 := sqr b
    let b_2_q := frob 1 b_2
    let a0 := b_2_q * b_2
    let neg1 : Quad F := ⟨0 - 1, 0⟩
    if a0 = neg1 then .ok none
    else
      let x := frob 1 b
      if x * b = 1 then
        match baseSqrt (b_2 * el).c0 with
        | none => .panic
        | some x0 => .ok (some ⟨x.c0 * x0, x.c1 * x0⟩)
      else
        match sqrtAlgo10 baseSqrt pe pf qm1o4 fuel (b_2 * pf * el) with
        | .ok (some x0) => .ok (some (x * (x0 * pe)))
        | .ok none => .panic
        | .panic => .panic
        | .diverge => .diverge

end Sqrt

end Halo2.Ext
