import Verif.Ext.Model
import Verif.Curve.Model
import Verif.Field.Model

/-!
# Model of the pairing engines (src/derive/pairing.rs, src/{bn256,bls12381,pluto_eris}/engine.rs)

`F` is the prime field, `K` its quadratic extension (the field of `G2`) and `T` the field of degree twelve. The
methods of `T` enter through the structure `TOps`; the instances are in `Verif.Pairing.Inst`. A panic is `none`.
-/

namespace Halo2.Pairing

open Halo2.Curve Halo2.Ext

/-- The coefficients handed to `ell`. -/
structure Coeffs (K : Type) where
  a : K
  b : K
  c : K

section Lines

variable {K : Type} [CommRing K] [ExtField K]

/-- Models src/derive/pairing.rs:56-86 (`double`, except for the final call of `ell`): the coefficients of the line and the
new value of `r`. -/
def dblStep (r : Proj K) : Coeffs K × Proj K :=
  let t0 := ExtField.sqr r.x
  let t1 := ExtField.sqr r.y
  let t2 := ExtField.sqr t1
  let t3 := ExtField.sqr (t1 + r.x) - t0 - t2
  let t3 := t3 + t3
  let t4 := t0 + t0 + t0
  let t6 := r.x + t4
  let t5 := ExtField.sqr t4
  let zsquared := ExtField.sqr r.z
  let x := t5 - t3 - t3
  let z := ExtField.sqr (r.z + r.y) - t1 - zsquared
  let y := (t3 - x) * t4
  let t2 := t2 + t2
  let t2 := t2 + t2
  let t2 := t2 + t2
  let y := y - t2
  let t3 := t4 * zsquared
  let t3 := t3 + t3
  let t3 := -t3
  let t6 := ExtField.sqr t6 - t0 - t5
  let t1 := t1 + t1
  let t1 := t1 + t1
  let t6 := t6 - t1
  let t0 := z * zsquared
  let t0 := t0 + t0
  (⟨t0, t3, t6⟩, ⟨x, y, z⟩)

/-- Models src/derive/pairing.rs:87-117 (`add`, except for the final call of `ell`). -/
def addStep (r : Proj K) (q : Aff K) : Coeffs K × Proj K :=
  let zsquared := ExtField.sqr r.z
  let ysquared := ExtField.sqr q.y
  let t0 := zsquared * q.x
  let t1 := (ExtField.sqr (q.y + r.z) - ysquared - zsquared) * zsquared
  let t2 := t0 - r.x
  let t3 := ExtField.sqr t2
  let t4 := t3 + t3
  let t4 := t4 + t4
  let t5 := t4 * t2
  let t6 := t1 - r.y - r.y
  let t9 := t6 * q.x
  let t7 := t4 * r.x
  let x := ExtField.sqr t6 - t5 - t7 - t7
  let z := ExtField.sqr (r.z + t2) - zsquared - t3
  let t10 := q.y + z
  let t8 := (t7 - x) * t6
  let t0 := r.y * t5
  let t0 := t0 + t0
  let y := t8 - t0
  let t10 := ExtField.sqr t10 - ysquared
  let ztsquared := ExtField.sqr z
  let t10 := t10 - ztsquared
  let t9 := t9 + t9 - t10
  let t10 := z + z
  let t6 := -t6
  let t1 := t6 + t6
  (⟨t10, t1, t9⟩, ⟨x, y, z⟩)

end Lines

section Miller

variable {F K T : Type}

/-- The operations of the target field used by the Miller loop: `one`, `square_assign` and the engine's `ell`. -/
structure MillerOps (F K T : Type) where
  one : T
  square : T → T
  ell : T → Coeffs K → Aff F → T

variable [CommRing K] [ExtField K] (ops : MillerOps F K T)

/-- `for ((p, _), r) in terms.iter().zip(r.iter_mut()) { double(&mut f, r, p) }`; models src/bn256/engine.rs:147-149. -/
def doubleAll : T → List (Aff F × Aff K) → List (Proj K) → T × List (Proj K)
  | f, t :: ts, r :: rs =>
    let d := dblStep r
    let out := doubleAll (ops.ell f d.1 t.1) ts rs
    (out.1, d.2 :: out.2)
  | f, _, rs => (f, rs)

/-- `for ((p, q), r) in terms.iter().zip(r.iter_mut()) { add(&mut f, r, &g(q), p) }`, where `g(q)` is `q`, `-q` or one of
the points computed from `q` at the end; models src/bn256/engine.rs:153-159, 180-193. -/
def addAll (g : Aff K → Aff K) : T → List (Aff F × Aff K) → List (Proj K) → T × List (Proj K)
  | f, t :: ts, r :: rs =>
    let d := addStep r (g t.2)
    let out := addAll g (ops.ell f d.1 t.1) ts rs
    (out.1, d.2 :: out.2)
  | f, _, rs => (f, rs)

variable [CommRing F] [BaseField F] [BaseField K]

/-- The pairs without an identity. Models src/bn256/engine.rs:130-139. -/
def liveTerms (terms : List (Aff F × Aff K)) : List (Aff F × Aff K) :=
  terms.filter fun t => !(t.1.isIdentity || t.2.isIdentity)

/-- One round for a digit of a signed expansion. Models src/bn256/engine.rs:144-163, src/pluto_eris/engine.rs:52-71. -/
def nafRound (terms : List (Aff F × Aff K)) (s : T × List (Proj K)) (ix : ℤ × ℕ) : T × List (Proj K) :=
  let f := if ix.2 ≠ 0 then ops.square s.1 else s.1
  let s := doubleAll ops f terms s.2
  if ix.1 = 1 then addAll ops id s.1 terms s.2
  else if ix.1 = -1 then addAll ops Aff.neg s.1 terms s.2
  else s

/-- Models src/bn256/engine.rs:129-196 and src/pluto_eris/engine.rs:37-112 (`multi_miller_loop`); `g1`, `g2` compute the two points
added after the loop. -/
def nafMiller (naf : List ℤ) (g1 g2 : Aff K → Aff K) (terms : List (Aff F × Aff K)) : T :=
  let terms := liveTerms terms
  let s := (ops.one, terms.map fun t => t.2.toCurve)
  let s := ((naf.reverse.drop 1).zipIdx).foldl (nafRound ops terms) s
  let s := addAll ops g1 s.1 terms s.2
  let s := addAll ops g2 s.1 terms s.2
  s.1

/-- One round of the loop of bls12-381. Models src/bls12381/engine.rs:87-101. -/
def bitRound (terms : List (Aff F × Aff K)) (s : T × List (Proj K)) (ix : Bool × ℕ) : T × List (Proj K) :=
  let f := if ix.2 ≠ 0 then ops.square s.1 else s.1
  let s := doubleAll ops f terms s.2
  if ix.1 then addAll ops id s.1 terms s.2 else s

/-- Models src/bls12381/engine.rs:72-105 (`multi_miller_loop`); `conj` is `conjugate`. -/
def bitMiller (conj : T → T) (bits : List ℕ) (terms : List (Aff F × Aff K)) : T :=
  let terms := liveTerms terms
  let s := (ops.one, terms.map fun t => t.2.toCurve)
  let s := (((bits.map fun b => b == 1).drop 1).zipIdx).foldl (bitRound ops terms) s
  conj s.1

end Miller

section Ell

variable {F : Type} [CommRing F] [ExtField F] [CommRing (Quad F)] [ExtField (Quad F)] [ExtField (Cubic (Quad F))]

/-- `c.c0.mul_assign(&k); c.c1.mul_assign(&k)`. -/
def scaleBy (c : Quad F) (k : F) : Quad F := ⟨c.c0 * k, c.c1 * k⟩

/-- Models src/bn256/engine.rs:199-207 and src/pluto_eris/engine.rs:221-229 (`ell`). -/
def ell034 (f : Quad (Cubic (Quad F))) (co : Coeffs (Quad F)) (p : Aff F) : Quad (Cubic (Quad F)) :=
  Deg12.mulBy034 f (scaleBy co.a p.y) (scaleBy co.b p.x) co.c

/-- Models src/bls12381/engine.rs:107-115 (`ell`). -/
def ell014 (f : Quad (Cubic (Quad F))) (co : Coeffs (Quad F)) (p : Aff F) : Quad (Cubic (Quad F)) :=
  Deg12.mulBy014 f co.c (scaleBy co.b p.x) (scaleBy co.a p.y)

end Ell

section FinalExp

variable {T : Type}

/-- The operations of the target field used by `final_exponentiation`. -/
structure FinalOps (T : Type) where
  conj : T → T
  frob : ℕ → T → T
  cyc : T → T
  invert : T → Option T

variable [Mul T] [One T] (ops : FinalOps T)

/-- The loop of `exp_by_x` of bn256 and pluto: `n` bits of `x` from the top. Models src/bn256/engine.rs:27-37 and the loop of
src/pluto_eris/engine.rs:118-129. -/
def expLoop (x n : ℕ) (f : T) : T :=
  (List.range n).reverse.foldl
    (fun res i =>
      let res := ops.cyc res
      if (x >>> i) &&& 1 = 1 then res * f else res) 1

/-- The body of the closure of `final_exponentiation`, up to the end, for `f1` the conjugate and `f2` the inverse of the
argument. Models src/bn256/engine.rs:45-124 and src/pluto_eris/engine.rs:137-214; `expByX` is the local `exp_by_x`. -/
def bnChain (expByX : T → T) (f1 f2 : T) : T :=
  let r := f1 * f2
  let f2 := r
  let r := ops.frob 2 r
  let r := r * f2
  let fp := ops.frob 1 r
  let fp2 := ops.frob 2 r
  let fp3 := ops.frob 1 fp2
  let fu := expByX r
  let fu2 := expByX fu
  let fu3 := expByX fu2
  let y3 := ops.frob 1 fu
  let fu2p := ops.frob 1 fu2
  let fu3p := ops.frob 1 fu3
  let y2 := ops.frob 2 fu2
  let y0 := fp * fp2
  let y0 := y0 * fp3
  let y1 := ops.conj r
  let y5 := ops.conj fu2
  let y3 := ops.conj y3
  let y4 := fu * fu2p
  let y4 := ops.conj y4
  let y6 := fu3 * fu3p
  let y6 := ops.conj y6
  let y6 := ops.cyc y6
  let y6 := y6 * y4
  let y6 := y6 * y5
  let t1 := y3 * y5
  let t1 := t1 * y6
  let y6 := y6 * y2
  let t1 := ops.cyc t1
  let t1 := t1 * y6
  let t1 := ops.cyc t1
  let t0 := t1 * y1
  let t1 := t1 * y0
  let t0 := ops.cyc t0
  t0 * t1

/-- Models src/bn256/engine.rs:26-126 (`final_exponentiation`); `unwrap` of the missing inverse panics. -/
def bnFinalExp (x : ℕ) (f : T) : Option T :=
  (ops.invert f).map fun f2 => bnChain ops (expLoop ops x 64) (ops.conj f) f2

/-- Models src/pluto_eris/engine.rs:117-217 (`final_exponentiation`). -/
def plutoFinalExp (x : ℕ) (f : T) : Option T :=
  (ops.invert f).map fun f2 => bnChain ops (fun g => ops.conj (expLoop ops x 111 g)) (ops.conj f) f2

/-- Models src/bls12381/engine.rs:25-34 (`exp_by_x`). -/
def blsExpByX (bits : List ℕ) (f : T) : T :=
  ops.conj (bits.zipIdx.foldl
    (fun acc bi =>
      let acc := if bi.2 ≠ 0 then ops.cyc acc else acc
      if bi.1 = 1 then acc * f else acc) 1)

/-- The closure of `final_exponentiation`, for `t0` the sixth power of Frobenius and `t1` the inverse of the argument.
Models src/bls12381/engine.rs:42-66. -/
def blsChain (expByX : T → T) (t0 t1 : T) : T :=
  let t2 := t0 * t1
  let t1 := t2
  let t2 := ops.frob 2 t2
  let t2 := t2 * t1
  let t1 := t2
  let t1 := ops.cyc t1
  let t1 := ops.conj t1
  let t3 := expByX t2
  let t4 := t3
  let t4 := ops.cyc t4
  let t5 := t1 * t3
  let t1 := expByX t5
  let t0 := expByX t1
  let t6 := expByX t0 * t4
  let t4 := expByX t6
  let t5 := ops.conj t5
  let t4 := t4 * (t5 * t2)
  let t1 := t1 * t2
  let t1 := ops.frob 3 t1
  let t2 := ops.conj t2
  let t6 := t6 * t2
  let t6 := ops.frob 1 t6
  let t3 := t3 * t0
  let t3 := ops.frob 2 t3
  t3 * t4 * t1 * t6

/-- Models src/bls12381/engine.rs:24-69 (`final_exponentiation`). -/
def blsFinalExp (bits : List ℕ) (f : T) : Option T :=
  (ops.invert f).map fun t1 => blsChain ops (blsExpByX ops bits) (ops.frob 6 f) t1

end FinalExp

/-! ## The target group (`impl_gt!`) -/

section Gt

variable {T : Type} [Mul T] [One T]

/-- Models src/derive/pairing.rs:153-155, 250-252 (`identity`). -/
def gtIdentity : T := 1

/-- Models src/derive/pairing.rs:158-161, 263-265 (`double`); `square` is that of the field. -/
def gtDouble (square : T → T) (a : T) : T := square a

/-- Models src/derive/pairing.rs:168-183 (`neg`). -/
def gtNeg (conj : T → T) (a : T) : T := conj a

/-- Models src/derive/pairing.rs:190-192 (`add`). -/
def gtAdd (a b : T) : T := a * b

/-- Models src/derive/pairing.rs:199-201 (`sub`). -/
def gtSub (conj : T → T) (a b : T) : T := gtAdd a (gtNeg conj b)

/-- Models src/derive/pairing.rs:208-224 (`mul` by a scalar, given by its `to_repr`). -/
def gtMul (square : T → T) (a : T) (repr : List ℕ) : T :=
  ((Proj.bitsOf repr).drop 1).foldl
    (fun acc bit =>
      let acc := gtDouble square acc
      if bit then gtAdd acc a else acc) gtIdentity

/-- Models src/derive/pairing.rs:230-239 (`Sum`). -/
def gtSum (l : List T) : T := l.foldl (fun acc item => gtAdd acc item) gtIdentity

end Gt

end Halo2.Pairing
