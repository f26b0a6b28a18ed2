import Mathlib.Data.Nat.Notation

/-!
# Model of the limb layer

Models `src/arithmetic.rs` and the code generated by `derive/src/field/arith.rs`.

Machine words are natural numbers; every place where Rust truncates (`as u64`), wraps
(`wrapping_*`) or computes in a fixed width type reduces explicitly.  `[u64; n]` is a `List ℕ` of
length `n`, least significant limb first.  The proc-macro unrolls its loops over `num_limbs`; the
model performs the same statements in the same order by recursion over the limb lists, so one
definition covers every `num_limbs`.
-/

namespace Halo2

/-- `2^64`, the modulus of `u64` arithmetic. -/
def W : ℕ := 2 ^ 64

/-- `2^128`, the modulus of `u128` arithmetic. -/
def W2 : ℕ := 2 ^ 128

/-- `src/arithmetic.rs:22-25`, `adc`. -/
def adc (a b carry : ℕ) : ℕ × ℕ :=
  let ret := (a + b + carry) % W2
  (ret % W, (ret / 2 ^ 64) % W)

/-- `src/arithmetic.rs:29-32`, `sbb`.  `u128::wrapping_sub` is `(x + 2^128 - y) % 2^128`. -/
def sbb (a b borrow : ℕ) : ℕ × ℕ :=
  let ret := (a + W2 - (b + borrow / 2 ^ 63) % W2) % W2
  (ret % W, (ret / 2 ^ 64) % W)

/-- `src/arithmetic.rs:36-39`, `mac`. -/
def mac (a b c carry : ℕ) : ℕ × ℕ :=
  let ret := (a + b * c + carry) % W2
  (ret % W, (ret / 2 ^ 64) % W)

/-- `src/arithmetic.rs:43-46`, `macx`. -/
def macx (a b c : ℕ) : ℕ × ℕ :=
  let ret := (a + b * c) % W2
  (ret % W, (ret / 2 ^ 64) % W)

attribute [irreducible] adc sbb mac macx

/-- The unrolled loop `let (d_i, carry) = adc(a[i], b[i], carry)` of
`derive/src/field/arith.rs:174-178` (and 189-196, 215-222, 300-307). -/
def adcChain : List ℕ → List ℕ → ℕ → List ℕ × ℕ
  | a :: as, b :: bs, carry =>
    let d := adc a b carry
    let ds := adcChain as bs d.2
    (d.1 :: ds.1, ds.2)
  | _, _, carry => ([], carry)

/-- The unrolled loop `let (d_i, borrow) = sbb(a[i], b[i], borrow)` of
`derive/src/field/arith.rs:182-186` (and 209-213, 235-240, 291-296). -/
def sbbChain : List ℕ → List ℕ → ℕ → List ℕ × ℕ
  | a :: as, b :: bs, borrow =>
    let d := sbb a b borrow
    let ds := sbbChain as bs d.2
    (d.1 :: ds.1, ds.2)
  | _, _, borrow => ([], borrow)

/-- The unrolled row `let (r_j, carry) = mac(r_j, k, m[j], carry)` of
`derive/src/field/arith.rs:101-110` (and 129-137, 267-272, 279-284, 327-335). -/
def macRow (k : ℕ) : List ℕ → List ℕ → ℕ → List ℕ × ℕ
  | r :: rs, m :: ms, carry =>
    let d := mac r k m carry
    let ds := macRow k rs ms d.2
    (d.1 :: ds.1, ds.2)
  | _, _, carry => ([], carry)

/-- `MODULUS_LIMBS[i] & borrow`, `derive/src/field/arith.rs:194, 220, 305`. -/
def maskLimbs (m : List ℕ) (mask : ℕ) : List ℕ := m.map (· &&& mask)

/-- `impl_add`, `derive/src/field/arith.rs:171-204`. -/
def fAdd (m a b : List ℕ) : List ℕ :=
  let d := adcChain a b 0
  let e := sbbChain d.1 m 0
  let borrow := (sbb d.2 0 e.2).2
  (adcChain e.1 (maskLimbs m borrow) 0).1

/-- `double`, `derive/src/field/arith.rs:29-31`. -/
def fDouble (m a : List ℕ) : List ℕ := fAdd m a a

/-- `impl_sub`, `derive/src/field/arith.rs:206-230`. -/
def fSub (m a b : List ℕ) : List ℕ :=
  let d := sbbChain a b 0
  (adcChain d.1 (maskLimbs m d.2) 0).1

/-- `impl_neg`, `derive/src/field/arith.rs:232-258`: limb-wise `MODULUS - self`, masked to zero when
the OR of all limbs of `self` is zero (`mask = ((or == 0) as u64).wrapping_sub(1)`). -/
def fNeg (m a : List ℕ) : List ℕ :=
  let d := (sbbChain m a 0).1
  let or := a.foldl (· ||| ·) 0
  let mask := ((if or = 0 then 1 else 0) + W - 1) % W
  d.map (· &&& mask)

/-- Rows of the schoolbook product, `impl_mul`, `derive/src/field/arith.rs:100-111`.
`acc` holds `r_i, ..., r_{i+n-1}`; after row `i`, `r_i` is final and `r_{i+n}` is the carry. -/
def mulRows (b : List ℕ) : List ℕ → List ℕ → List ℕ
  | [], acc => acc
  | ai :: as, acc =>
    let row := macRow ai acc b 0
    row.1.take 1 ++ mulRows b as (row.1.drop 1 ++ [row.2])

/-- Schoolbook product to `2n` limbs, `impl_mul`, `derive/src/field/arith.rs:98-114`. -/
def mulWide (a b : List ℕ) : List ℕ := mulRows b a (List.replicate b.length 0)

/-- Reduction rounds of `impl_mont`, `derive/src/field/arith.rs:263-289`.  `w` holds
`r_i, ..., r_{i+n-1}`, `hi` the input limbs not yet consumed (`r[n+i]...`), `carry2` the running
carry (`0` before round `0`, `derive/src/field/arith.rs:274`). -/
def montRounds (m : List ℕ) (inv : ℕ) : List ℕ → List ℕ → ℕ → List ℕ × ℕ
  | w, [], carry2 => (w, carry2)
  | w, h :: hs, carry2 =>
    let k := (w.headD 0 * inv) % W
    let row := macRow k w m 0
    let top := adc h carry2 row.2
    montRounds m inv (row.1.drop 1 ++ [top.1]) hs top.2

/-- `montgomery_reduce`, `impl_mont`, `derive/src/field/arith.rs:260-314`. -/
def montReduce (m : List ℕ) (inv : ℕ) (r : List ℕ) : List ℕ :=
  let w := montRounds m inv (r.take m.length) (r.drop m.length) 0
  let d := sbbChain w.1 m 0
  let borrow := (sbb w.2 0 d.2).2
  (adcChain d.1 (maskLimbs m borrow) 0).1

/-- `mul` (and `mul_const`), `derive/src/field/arith.rs:98-123`. -/
def fMul (m : List ℕ) (inv : ℕ) (a b : List ℕ) : List ℕ := montReduce m inv (mulWide a b)

/-- Off-diagonal products of `impl_square`, `derive/src/field/arith.rs:127-138`.  `acc` holds
`r_{2i+1}, ..., r_{i+n-1}`; after row `i`, `r_{2i+1}` and `r_{2i+2}` are final.
The result is `r_1, ..., r_{2n-2}`. -/
def sqOff : List ℕ → List ℕ → List ℕ
  | [], _ => []
  | [_], _ => []
  | ai :: as, acc =>
    let r := macRow ai acc as 0
    let row := r.1 ++ [r.2]
    row.take 2 ++ sqOff as (row.drop 2)

/-- Doubling shift of `impl_square`, `derive/src/field/arith.rs:140-149`:
`r_i = (r_i << 1) | (r_{i-1} >> 63)`, with `r_1 = r_1 << 1` and `r_{2n-1} = r_{2n-2} >> 63`. -/
def sqShift (prev : ℕ) : List ℕ → List ℕ
  | [] => [prev / 2 ^ 63]
  | r :: rs => ((r * 2) % W ||| prev / 2 ^ 63) :: sqShift r rs

/-- Diagonal products of `impl_square`, `derive/src/field/arith.rs:151-162`.  The list holds
`r_{2i}, r_{2i+1}, ...`. -/
def sqDiag : List ℕ → List ℕ → ℕ → List ℕ
  | ai :: as, r0 :: r1 :: rs, carry =>
    let d0 := mac r0 ai ai carry
    let d1 := adc 0 r1 d0.2
    d0.1 :: d1.1 :: sqDiag as rs d1.2
  | _, _, _ => []

/-- The `2n`-limb square of `impl_square`, `derive/src/field/arith.rs:125-162`. -/
def sqWide (a : List ℕ) : List ℕ :=
  let off := sqOff a (List.replicate (a.length - 1) 0)
  sqDiag a (0 :: sqShift 0 off) 0

/-- `square`, `derive/src/field/arith.rs:125-169`. -/
def fSquare (m : List ℕ) (inv : ℕ) (a : List ℕ) : List ℕ := montReduce m inv (sqWide a)

/-- Rounds of `impl_from_mont`, `derive/src/field/arith.rs:319-336`.  The generated code rotates the
indices `(i + j) % n`; the window `w` holds `r_i, ..., r_{i+n-1}` (indices mod `n`) and the carry
of round `i` is stored to `r_i`, which is the top of the next window. -/
def fromMontRounds (m : List ℕ) (inv : ℕ) : ℕ → List ℕ → List ℕ
  | 0, w => w
  | i + 1, w =>
    let k := (w.headD 0 * inv) % W
    let row := macRow k w m 0
    fromMontRounds m inv i (row.1.drop 1 ++ [row.2])

/-- `from_mont`, `derive/src/field/arith.rs:316-342`. -/
def fromMont (m : List ℕ) (inv : ℕ) (a : List ℕ) : List ℕ :=
  fSub m (fromMontRounds m inv m.length a) m

end Halo2
