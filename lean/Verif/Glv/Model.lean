import Verif.Field.FpBytes
import Verif.Field.Consts

/-!
# Model of the scalar decomposition (`endo!`, src/derive/curve.rs:1-50; src/arithmetic.rs)
-/

namespace Halo2.Glv

open Halo2 Halo2.Field

/-- Models src/arithmetic.rs:9-14 (`EndoParameters`). -/
structure EndoParams where
  gamma1 : List ℕ
  gamma2 : List ℕ
  b1 : List ℕ
  b2 : List ℕ

/-- Models src/arithmetic.rs:50-72 (`mul_512`). Each `d_ij` is the pair (limb, carry) of the step that multiplies
`a[i]` by `b[j]`. -/
def mul512 (a b : List ℕ) : List ℕ :=
  let a0 := a.getD 0 0
  let a1 := a.getD 1 0
  let a2 := a.getD 2 0
  let a3 := a.getD 3 0
  let b0 := b.getD 0 0
  let b1 := b.getD 1 0
  let b2 := b.getD 2 0
  let b3 := b.getD 3 0
  let d00 := macx 0 a0 b0
  let d01 := macx d00.2 a0 b1
  let d02 := macx d01.2 a0 b2
  let d03 := macx d02.2 a0 b3
  let d10 := macx d01.1 a1 b0
  let d11 := mac d02.1 a1 b1 d10.2
  let d12 := mac d03.1 a1 b2 d11.2
  let d13 := mac d03.2 a1 b3 d12.2
  let d20 := macx d11.1 a2 b0
  let d21 := mac d12.1 a2 b1 d20.2
  let d22 := mac d13.1 a2 b2 d21.2
  let d23 := mac d13.2 a2 b3 d22.2
  let d30 := macx d21.1 a3 b0
  let d31 := mac d22.1 a3 b1 d30.2
  let d32 := mac d23.1 a3 b2 d31.2
  let d33 := mac d23.2 a3 b3 d32.2
  [d00.1, d10.1, d20.1, d30.1, d31.1, d32.1, d33.1, d33.2]

variable {p : ℕ} [Fact (OddModulus p)]

/-- Models src/derive/curve.rs:6-14 (`to_limbs`). -/
def toLimbs (e : Fp p) : List ℕ :=
  let repr := e.toRepr
  [ofLeBytes ((repr.drop 0).take 8), ofLeBytes ((repr.drop 8).take 8), ofLeBytes ((repr.drop 16).take 8),
    ofLeBytes ((repr.drop 24).take 8)]

/-- Models src/derive/curve.rs:16-19 (`get_lower_128`). -/
def getLower128 (e : Fp p) : ℕ :=
  let e := toLimbs e
  e.getD 0 0 ||| (e.getD 1 0 <<< 64)

/-- Models src/derive/curve.rs:21-28 (`is_neg`). -/
def isNeg (e : Fp p) : Bool :=
  let e := toLimbs e
  let r0 := sbb 0xffffffffffffffff (e.getD 0 0) 0
  let r1 := sbb 0xffffffffffffffff (e.getD 1 0) r0.2
  let r2 := sbb 0xffffffffffffffff (e.getD 2 0) r1.2
  let r3 := sbb 0x00 (e.getD 3 0) r2.2
  (r3.2 &&& 1) != 0

/-- Models src/derive/curve.rs:5-47 (`decompose_scalar`). `zeta` is the field's `ZETA`. -/
def decompose (params : EndoParams) (zeta k : Fp p) : ℕ × Bool × ℕ × Bool :=
  let input := toLimbs k
  let c1 := (mul512 params.gamma2 input).drop 4
  let c2 := (mul512 params.gamma1 input).drop 4
  let q1 : Fp p := Fp.ofRaw ((mul512 c1 params.b1).take 4)
  let q2 : Fp p := Fp.ofRaw ((mul512 c2 params.b2).take 4)
  let k2 := q2 - q1
  let k1 := k + k2 * zeta
  let k1Neg := isNeg k1
  let k2Neg := isNeg k2
  let k1 := if k1Neg then -k1 else k1
  let k2 := if k2Neg then -k2 else k2
  (getLower128 k1, k1Neg, getLower128 k2, k2Neg)

/-- Models src/bn256/curve.rs:137-144 (`ENDO_PARAMS_BN`), used for bn256 G1 with scalar field `Fr`. -/
def paramsBn : EndoParams where
  gamma1 := [0xd91d232ec7e0b3d7, 0x2, 0, 0]
  gamma2 := [0x5398fd0300ff6565, 0x4ccef014a773d2d2, 0x02, 0]
  b1 := [0x89d3256894d213e3, 0, 0, 0]
  b2 := [0x0be4e1541221250b, 0x6f4d8248eeb859fd, 0, 0]

/-- Models src/grumpkin/curve.rs:59-64 (`ENDO_PARAMS_GRUMPKIN`), used for grumpkin, whose scalar field is bn256's `Fq`. -/
def paramsGrumpkin : EndoParams where
  gamma1 := [0xd91d232ec7e0b3d2, 0x2, 0, 0]
  gamma2 := [0x5398fd0300ff655f, 0x4ccef014a773d2d2, 0x02, 0]
  b1 := [0x89d3256894d213e2, 0, 0, 0]
  b2 := [0x0be4e1541221250b, 0x6f4d8248eeb859fd, 0, 0]

/-- Models src/bls12381/mod.rs:24-31 (`ENDO_PARAMS`), used for bls12381 G1 and G2. -/
def paramsBls : EndoParams where
  gamma2 := [0x63f6e522f6cfee30, 0x7c6becf1e01faadd, 0x01, 0x0]
  gamma1 := [0x02, 0x0, 0x0, 0x0]
  b1 := [0x01, 0x0, 0x0, 0x0]
  b2 := [0x0000000100000000, 0xac45a4010001a402, 0x0, 0x0]

/-- Models src/pasta/mod.rs:16-23 (`ENDO_PARAMS_EQ`), used for vesta, whose scalar field is `pasta_curves::Fp`. -/
def paramsEq : EndoParams where
  gamma1 := [0x32c49e4c00000003, 0x279a745902a2654e, 0x1, 0x0]
  gamma2 := [0x31f0256800000002, 0x4f34e8b2066389a4, 0x2, 0x0]
  b1 := [0x8cb1279300000001, 0x49e69d1640a89953, 0x0, 0x0]
  b2 := [0x0c7c095a00000001, 0x93cd3a2c8198e269, 0x0, 0x0]

/-- Models src/pasta/mod.rs:29-36 (`ENDO_PARAMS_EP`), used for pallas, whose scalar field is `pasta_curves::Fq`. -/
def paramsEp : EndoParams where
  gamma1 := [0x32c49e4bffffffff, 0x279a745902a2654e, 0x1, 0x0]
  gamma2 := [0x31f0256800000002, 0x4f34e8b2066389a4, 0x2, 0x0]
  b1 := [0x8cb1279300000000, 0x49e69d1640a89953, 0x0, 0x0]
  b2 := [0x0c7c095a00000001, 0x93cd3a2c8198e269, 0x0, 0x0]

/-- `pasta_curves::Fp::ZETA` (external crate). -/
@[irreducible] def zetaPaP : ℕ := 0x12ccca834acdba712caad5dc57aab1b01d1f8bd237ad31491dad5ebdfdfe4ab9
/-- `pasta_curves::Fq::ZETA` (external crate). -/
@[irreducible] def zetaPaQ : ℕ := 0x6819a58283e528e511db4d81cf70f5a0fed467d47c033af2aa9d2e050aa0e4f

end Halo2.Glv
