import Verif.Limb.Lemmas
import Verif.Inverse.Model

/-!
# Model of the Jacobi symbol computation (src/ff_ext/jacobi.rs)

`u64` values are natural numbers and `i64` values integers; every operation whose mathematical
result may leave the type is followed by the wrap of a release build (`u64`, `i64`). An `LInt<L>`
is a list of `L` words, least significant first. `debug_assert!`s are absent here; they are in
`Verif/Jacobi/Checked.lean`, the model of a build with overflow checks and debug assertions.
-/

namespace Halo2.Jacobi

open Halo2.Inverse (u64 i64 asU64 tz)

/-- `LInt::ZERO`. Models src/ff_ext/jacobi.rs:16. -/
def lZero (L : ℕ) : List ℕ := List.replicate L 0

/-- `LInt::ONE`. Models src/ff_ext/jacobi.rs:19-23. -/
def lOne (L : ℕ) : List ℕ := 1 :: List.replicate (L - 1) 0

/-- `LInt::new`: pads with zeros, panics (`none`) when the input is longer than `L`.
Models src/ff_ext/jacobi.rs:28-32. -/
def lNew (L : ℕ) (data : List ℕ) : Option (List ℕ) :=
  if data.length ≤ L then some (data ++ List.replicate (L - data.length) 0) else none

/-- `is_negative`: `self.0[L - 1] > u64::MAX >> 1`. Models src/ff_ext/jacobi.rs:36-38. -/
def isNeg (x : List ℕ) : Bool := decide (x.getLastD 0 > (2 ^ 64 - 1) / 2)

/-- `sum`: two `overflowing_add`s; the carry is a bit. Models src/ff_ext/jacobi.rs:44-50. -/
def sum (first second carry : ℕ) : ℕ × ℕ :=
  let s := u64 (second + carry)
  let c := if 2 ^ 64 ≤ second + carry then 1 else 0
  let f := u64 (first + s)
  let high := if 2 ^ 64 ≤ first + s then 1 else 0
  (f, if c = 1 ∨ high = 1 then 1 else 0)

/-- `prodsum` (in `u128`). Models src/ff_ext/jacobi.rs:54-57. -/
def prodsum (first second summand carry : ℕ) : ℕ × ℕ :=
  let all := (first * second + carry + summand) % 2 ^ 128
  (u64 all, u64 (all / 2 ^ 64))

/-- The loop of `Add`. Models src/ff_ext/jacobi.rs:98-104. -/
def addLoop : List ℕ → List ℕ → ℕ → List ℕ
  | x :: xs, y :: ys, carry => (sum x y carry).1 :: addLoop xs ys (sum x y carry).2
  | _, _, _ => []

/-- Models src/ff_ext/jacobi.rs:96-105 (`Add`). -/
def lAdd (x y : List ℕ) : List ℕ := addLoop x y 0

/-- The bitwise inversion `!x` of a word. -/
def not64 (x : ℕ) : ℕ := 2 ^ 64 - 1 - x

/-- Models src/ff_ext/jacobi.rs:121-137 (`Sub`). -/
def lSub (x y : List ℕ) : List ℕ := addLoop x (y.map not64) 1

/-- The loop of `Neg`. Models src/ff_ext/jacobi.rs:158-161. -/
def negLoop : List ℕ → ℕ → List ℕ
  | x :: xs, carry =>
    u64 (not64 x + carry) :: negLoop xs (if 2 ^ 64 ≤ not64 x + carry then 1 else 0)
  | _, _ => []

/-- Models src/ff_ext/jacobi.rs:153-164 (`Neg`). -/
def lNeg (x : List ℕ) : List ℕ := negLoop x 1

/-- The loop of `Mul<i64>`. Models src/ff_ext/jacobi.rs:223-225. -/
def mulLoop (other mask : ℕ) : List ℕ → ℕ → List ℕ
  | x :: xs, carry =>
    (prodsum (x ^^^ mask) other 0 carry).1 ::
      mulLoop other mask xs (prodsum (x ^^^ mask) other 0 carry).2
  | _, _ => []

/-- Models src/ff_ext/jacobi.rs:202-228 (`Mul<i64>`). -/
def lMulI64 (x : List ℕ) (other : ℤ) : List ℕ :=
  if other < 0 then mulLoop (asU64 (i64 (-other))) (2 ^ 64 - 1) x (asU64 (i64 (-other)))
  else mulLoop (asU64 other) 0 x 0

/-- The inner loop of `Mul`: `data[i..] += x * other`, dropping the words beyond the end of `data`.
Models src/ff_ext/jacobi.rs:178-182. -/
def mulRow (x : ℕ) : List ℕ → List ℕ → ℕ → List ℕ
  | a :: acc, y :: ys, carry =>
    (prodsum x y a carry).1 :: mulRow x acc ys (prodsum x y a carry).2
  | _, _, _ => []

/-- The outer loop of `Mul` on the words of `self` that remain; `acc` is `data[i..]`. After a row the
word `data[i]` is final. Models src/ff_ext/jacobi.rs:177-183. -/
def mulRows (other : List ℕ) : List ℕ → List ℕ → List ℕ
  | x :: xs, acc => (mulRow x acc other 0).headD 0 :: mulRows other xs (mulRow x acc other 0).tail
  | _, _ => []

/-- Models src/ff_ext/jacobi.rs:173-186 (`Mul`). -/
def lMul (x y : List ℕ) : List ℕ := mulRows y x (List.replicate x.length 0)

/-- The loop of `Shr`, `right = 64 - bits`; `neg` is the sign of the number. For the last word
`u64::MAX << right` is or-ed in when the number is negative.
Models src/ff_ext/jacobi.rs:78-84. -/
def shrLoop (bits : ℕ) (neg : Bool) : List ℕ → List ℕ
  | [] => []
  | [x] => [if neg then x / 2 ^ bits ||| u64 ((2 ^ 64 - 1) * 2 ^ (64 - bits)) else x / 2 ^ bits]
  | x :: y :: r => (x / 2 ^ bits ||| u64 (y * 2 ^ (64 - bits))) :: shrLoop bits neg (y :: r)

/-- Models src/ff_ext/jacobi.rs:71-86 (`Shr<u32>`). -/
def lShr (x : List ℕ) (bits : ℕ) : List ℕ := shrLoop bits (isNeg x) x

/-- `u64::leading_zeros`. -/
def lz (x : ℕ) : ℕ := 64 - Nat.size x

/-- The `while` loop of `approximate`: the highest index not above `i` at which one of the numbers
is non-zero; when there is none the index underflows (`none`).
Models src/ff_ext/jacobi.rs:272-275. -/
def topIdx (x y : List ℕ) : ℕ → Option ℕ
  | 0 => if x.getD 0 0 = 0 ∧ y.getD 0 0 = 0 then none else some 0
  | i + 1 => if x.getD (i + 1) 0 = 0 ∧ y.getD (i + 1) 0 = 0 then topIdx x y i else some (i + 1)

/-- One of the two approximations once the index `i ≥ 1` and the shift `z` are known. The masks
`& u64::MAX << 32` and `& u64::MAX >> 32` are `/ 2^32 * 2^32` and `% 2^32`.
Models src/ff_ext/jacobi.rs:279-288. -/
def approx1 (x : List ℕ) (i z : ℕ) : ℕ :=
  let h := u64 (x.getD i 0 * 2 ^ z)
  let h := if z > 32 then h ||| x.getD (i - 1) 0 / 2 ^ z else h
  h / 2 ^ 32 * 2 ^ 32 ||| x.getD 0 0 % 2 ^ 32

/-- Models src/ff_ext/jacobi.rs:263-289 (`approximate`). -/
def approximate (L : ℕ) (x y : List ℕ) : Option (ℕ × ℕ × Bool) :=
  match topIdx x y (L - 1) with
  | none => none
  | some 0 => some (x.getD 0 0, y.getD 0 0, true)
  | some (i + 1) =>
    let z := min (lz (x.getD (i + 1) 0)) (lz (y.getD (i + 1) 0))
    some (approx1 x (i + 1) z, approx1 y (i + 1) z, false)

/-- The value returned for the final denominator test and the sign in `t`:
`(d == 1) as i64 * (1 - (t & 2) as i64)`. -/
def answer (one : Bool) (t : ℕ) : ℤ := (if one then 1 else 0) * (1 - ((t &&& 2 : ℕ) : ℤ))

/-- The loop of `jacobinary` with fuel; `none` when the fuel is exhausted.
Models src/ff_ext/jacobi.rs:298-312. -/
def jacobinaryLoop : ℕ → ℕ → ℕ → ℕ → Option ℤ
  | 0, _, _, _ => none
  | fuel + 1, n, d, t =>
    if n = 0 then some (answer (d == 1) t)
    else if n % 2 = 1 then
      if n < d then jacobinaryLoop fuel ((d - n) / 2) n (t ^^^ (d &&& n) ^^^ (n ^^^ n / 2))
      else jacobinaryLoop fuel ((n - d) / 2) d (t ^^^ (d ^^^ d / 2))
    else
      jacobinaryLoop fuel (n / 2 ^ tz 64 n) d (t ^^^ ((d ^^^ d / 2) &&& (tz 64 n * 2)))

/-- Models src/ff_ext/jacobi.rs:296-313 (`jacobinary`). Every round at least halves the product
of the two numbers, so `129` rounds suffice (proved in `jacobinary_spec`). -/
def jacobinary (n d t : ℕ) : Option ℤ := jacobinaryLoop 129 n d t

/-- The variables of the inner loop of `jacobi`. Models src/ff_ext/jacobi.rs:353-354. -/
structure Inner where
  i : ℕ
  a : ℕ
  b : ℕ
  u0 : ℤ
  u1 : ℤ
  v0 : ℤ
  v1 : ℤ
  t : ℕ

/-- The swap `(a, b, u, v) = (b, a, v, u)` with its update of `t`.
Models src/ff_ext/jacobi.rs:364-375. -/
def Inner.swap (s : Inner) : Inner := ⟨s.i, s.b, s.a, s.v0, s.v1, s.u0, s.u1, s.t ^^^ (s.b &&& s.a)⟩

/-- The subtraction step. Models src/ff_ext/jacobi.rs:376-381. -/
def Inner.subStep (s : Inner) : Inner :=
  ⟨s.i - 1, (s.a - s.b) / 2, s.b, i64 (s.u0 - s.v0), i64 (s.u1 - s.v1), i64 (s.v0 * 2),
    i64 (s.v1 * 2), s.t ^^^ (s.b ^^^ s.b / 2)⟩

/-- The halving step for an even `a`. Models src/ff_ext/jacobi.rs:382-391. -/
def Inner.halfStep (s : Inner) : Inner :=
  let z := min s.i (tz 64 s.a)
  ⟨s.i - z, s.a / 2 ^ z, s.b, s.u0, s.u1, i64 (s.v0 * 2 ^ z), i64 (s.v1 * 2 ^ z),
    s.t ^^^ ((s.b ^^^ s.b / 2) &&& (z * 2))⟩

/-- One round of the inner loop. Models src/ff_ext/jacobi.rs:363-391. -/
def Inner.step (s : Inner) : Inner :=
  if s.a % 2 = 1 then (if s.a < s.b then s.swap else s).subStep else s.halfStep

/-- The inner loop. Every round decreases `i`, so `30` rounds suffice.
Models src/ff_ext/jacobi.rs:362-392. -/
def innerLoop : ℕ → Inner → Inner
  | 0, s => s
  | fuel + 1, s => if s.i = 0 then s else innerLoop fuel s.step

/-- The row `(&n * c0 + &d * c1) >> 30`. Models src/ff_ext/jacobi.rs:393. -/
def row (n d : List ℕ) (c0 c1 : ℤ) : List ℕ := lShr (lAdd (lMulI64 n c0) (lMulI64 d c1)) 30

/-- The outer loop of `jacobi` with fuel; `none` is a panic or the exhaustion of the fuel.
Models src/ff_ext/jacobi.rs:343-415. -/
def jacobiLoop (L : ℕ) : ℕ → List ℕ → List ℕ → ℕ → Option ℤ
  | 0, _, _, _ => none
  | fuel + 1, n, d, t =>
    match approximate L n d with
    | none => none
    | some (a, b, true) => jacobinary a b t
    | some (a, b, false) =>
      let s := innerLoop 30 ⟨30, a, b, 1, 0, 0, 1, t⟩
      let n' := row n d s.u0 s.u1
      let d' := row n d s.v0 s.v1
      if n' = lZero L then some (answer (d' == lOne L) s.t)
      else if isNeg n' then jacobiLoop L fuel (lNeg n') d' (s.t ^^^ d'.headD 0)
      else if isNeg d' then jacobiLoop L fuel n' (lNeg d') s.t
      else jacobiLoop L fuel n' d' s.t

/-- Models src/ff_ext/jacobi.rs:331-416 (`jacobi`). The fuel `2^(128 L)` is never exhausted: the
pair (larger, smaller argument) decreases lexicographically (proved in `jacobi_spec`). -/
def jacobi (L : ℕ) (n d : List ℕ) : Option ℤ :=
  match lNew L n, lNew L d with
  | some n, some d => jacobiLoop L (2 ^ (128 * L)) n d 0
  | _, _ => none

/-- The loop computing the macro constant `jacobi_constant`, with fuel.
Models derive/src/field/mod.rs:150-157. -/
def jacobiConstLoop (p : ℕ) : ℕ → ℕ → ℕ
  | 0, c => c
  | fuel + 1, c => if p < 2 ^ (64 * c - 31) then c else jacobiConstLoop p fuel (c + 1)

/-- `jacobi_constant`. Models derive/src/field/mod.rs:150-157. -/
def jacobiConst (p : ℕ) : ℕ := jacobiConstLoop p (Nat.size p + 1) 1

end Halo2.Jacobi
