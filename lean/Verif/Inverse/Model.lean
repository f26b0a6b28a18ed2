import Verif.Field.Model
import Mathlib.Data.Int.Notation

/-!
# Model of the Bernstein-Yang inverter (src/ff_ext/inverse.rs)

`u64`/`u128` values are natural numbers, `i64`/`i128` values integers; every arithmetic operation
whose mathematical result may leave the type is followed by the wrap of a release build
(`u64`, `i64`, `i128` below). `CInt<62, L>` is a list of `L` chunks.
-/

namespace Halo2.Inverse

/-- Wrap to `u64`. -/
def u64 (x : ℕ) : ℕ := x % 2 ^ 64
/-- Wrap to `i64` (two's complement). -/
def i64 (x : ℤ) : ℤ := Int.bmod x (2 ^ 64)
/-- Wrap to `i128` (two's complement). -/
def i128 (x : ℤ) : ℤ := Int.bmod x (2 ^ 128)
/-- `x as u64` for a signed `x`. -/
def asU64 (x : ℤ) : ℕ := (x % 2 ^ 64).toNat
/-- `x as u128` for a signed `x`: the sign is extended. -/
def asU128 (x : ℤ) : ℕ := (x % 2 ^ 128).toNat

/-- `CInt::<62, L>::MASK`. Models src/ff_ext/inverse.rs:13. -/
def MASK : ℕ := 2 ^ 62 - 1

/-- `ZERO`. Models src/ff_ext/inverse.rs:19. -/
def cZero (L : ℕ) : List ℕ := List.replicate L 0
/-- `ONE`. Models src/ff_ext/inverse.rs:22-26. -/
def cOne (L : ℕ) : List ℕ := 1 :: List.replicate (L - 1) 0
/-- `MINUS_ONE`. Models src/ff_ext/inverse.rs:16. -/
def cMinusOne (L : ℕ) : List ℕ := List.replicate L MASK

/-- Models src/ff_ext/inverse.rs:45-47. -/
def isNeg (x : List ℕ) : Bool := decide (x.getLastD 0 > MASK / 2)

/-- Models src/ff_ext/inverse.rs:30-37. -/
def shift (x : List ℕ) : List ℕ := x.tail ++ [if isNeg x then MASK else 0]

/-- Models src/ff_ext/inverse.rs:40-42. -/
def lowest (x : List ℕ) : ℕ := x.headD 0

/-- The loop of `Add`. `sum & MASK` is `sum % 2^62`, `sum >> 62` is `sum / 2^62`.
Models src/ff_ext/inverse.rs:58-66. -/
def addLoop : List ℕ → List ℕ → ℕ → List ℕ
  | x :: xs, y :: ys, carry =>
    (u64 (u64 (x + y) + carry) % 2 ^ 62) :: addLoop xs ys (u64 (u64 (x + y) + carry) / 2 ^ 62)
  | _, _, _ => []

/-- Models src/ff_ext/inverse.rs:58-66. -/
def cAdd (x y : List ℕ) : List ℕ := addLoop x y 0

/-- The loop of `Neg`. Models src/ff_ext/inverse.rs:119-129. -/
def negLoop : List ℕ → ℕ → List ℕ
  | x :: xs, carry =>
    (u64 ((x ^^^ MASK) + carry) % 2 ^ 62) :: negLoop xs (u64 ((x ^^^ MASK) + carry) / 2 ^ 62)
  | _, _ => []

/-- Models src/ff_ext/inverse.rs:119-129. -/
def cNeg (x : List ℕ) : List ℕ := negLoop x 1

/-- The loop of `Sub`. Models src/ff_ext/inverse.rs:93-98. -/
def subLoop : List ℕ → List ℕ → ℕ → List ℕ
  | x :: xs, y :: ys, carry =>
    (u64 (u64 (x + (y ^^^ MASK)) + carry) % 2 ^ 62) :: subLoop xs ys (u64 (u64 (x + (y ^^^ MASK)) + carry) / 2 ^ 62)
  | _, _, _ => []

/-- Models src/ff_ext/inverse.rs:85-100 (`Sub`; no caller in the crate). -/
def cSub (x y : List ℕ) : List ℕ := subLoop x y 1

/-- The inner loop of `Mul`: `data[i..] += x * other`, dropping the chunks beyond the end of `data`. `sum` is a `u128`.
Models src/ff_ext/inverse.rs:144-151. -/
def mulRow (x : ℕ) : List ℕ → List ℕ → ℕ → List ℕ
  | a :: acc, y :: ys, carry =>
    ((a + carry + x * y) % 2 ^ 128 % 2 ^ 62) :: mulRow x acc ys (u64 ((a + carry + x * y) % 2 ^ 128 / 2 ^ 62))
  | _, _, _ => []

/-- The outer loop of `Mul` on the chunks of `self` that remain; `acc` is `data[i..]`. Models src/ff_ext/inverse.rs:143-152. -/
def mulRows (other : List ℕ) : List ℕ → List ℕ → List ℕ
  | x :: xs, acc => (mulRow x acc other 0).headD 0 :: mulRows other xs (mulRow x acc other 0).tail
  | _, _ => []

/-- Models src/ff_ext/inverse.rs:141-154 (`Mul`; no caller in the crate). -/
def cMul (x y : List ℕ) : List ℕ := mulRows y x (List.replicate x.length 0)

/-- The loop of `Mul<i64>`. `sum` is a `u128`. Models src/ff_ext/inverse.rs:192-196. -/
def mulLoop (other mask : ℕ) : List ℕ → ℕ → List ℕ
  | x :: xs, carry =>
    ((carry + (x ^^^ mask) * other) % 2 ^ 128 % 2 ^ 62) ::
      mulLoop other mask xs (u64 ((carry + (x ^^^ mask) * other) % 2 ^ 128 / 2 ^ 62))
  | _, _ => []

/-- Models src/ff_ext/inverse.rs:171-199 (`Mul<i64> for &CInt`). -/
def cMulI64 (x : List ℕ) (other : ℤ) : List ℕ :=
  if other < 0 then mulLoop (asU128 (i64 (-other))) MASK x (asU64 (i64 (-other)))
  else mulLoop (asU128 other) 0 x 0

/-- `trailing_zeros` of an integer of the given width: the width for zero. -/
def tz : ℕ → ℕ → ℕ
  | 0, _ => 0
  | w + 1, n => if n % 2 = 0 then tz w (n / 2) + 1 else 0

/-- The transition matrix. Models src/ff_ext/inverse.rs:257. -/
structure Mat where
  a : ℤ
  b : ℤ
  c : ℤ
  d : ℤ

/-- The number of bits cancelled in one go: `steps.min(1 - delta).min(5)`. -/
def wBits (steps : ℕ) (delta : ℤ) : ℕ := (min (min (steps : ℤ) (i64 (1 - delta))) 5).toNat

/-- `w`. Models src/ff_ext/inverse.rs:283-284. -/
def wOf (m : ℕ) (f g : ℤ) : ℕ :=
  (i64 (i64 g * i64 ((asU64 (i64 (f * 3)) ^^^ 28 : ℕ) : ℤ)) % 2 ^ 64).toNat &&& (2 ^ m - 1)

/-- The loop of `jump`. Every round but the first consumes at least one step, so `fuel = 64`
rounds are never exhausted (proved in `jumpLoop_spec`).
Models src/ff_ext/inverse.rs:267-288. -/
def jumpLoop : ℕ → ℕ → ℤ → ℤ → ℤ → Mat → ℤ × Mat
  | 0, _, delta, _, _, t => (delta, t)
  | fuel + 1, steps, delta, f, g, t =>
    let zeros := min steps (tz 128 (g % 2 ^ 128).toNat)
    let steps := steps - zeros
    let delta := i64 (delta + zeros)
    let g := g / 2 ^ zeros
    let t : Mat := ⟨i64 (t.a * 2 ^ zeros), i64 (t.b * 2 ^ zeros), t.c, t.d⟩
    if steps = 0 then (delta, t)
    else
      let swap := decide (delta > 0)
      let delta' := if swap then i64 (-delta) else delta
      let f' := if swap then i64 g else f
      let g' := if swap then i64 (-f) else g
      let t' : Mat := if swap then ⟨t.c, t.d, i64 (-t.a), i64 (-t.b)⟩ else t
      let w := wOf (wBits steps delta') f' g'
      let t'' : Mat := ⟨t'.a, t'.b, i64 (i64 (t'.a * w) + t'.c), i64 (i64 (t'.b * w) + t'.d)⟩
      let g'' := i128 (g' + i128 ((w : ℤ) * f'))
      jumpLoop fuel steps delta' f' g'' t''

/-- Models src/ff_ext/inverse.rs:263-291 (`jump`). -/
def jump (f g : List ℕ) (delta : ℤ) : ℤ × Mat :=
  jumpLoop 64 62 delta (lowest f) (lowest g) ⟨1, 0, 0, 1⟩

/-- Models src/ff_ext/inverse.rs:295-300 (`fg`). -/
def fg (f g : List ℕ) (t : Mat) : List ℕ × List ℕ :=
  (shift (cAdd (cMulI64 f t.a) (cMulI64 g t.b)), shift (cAdd (cMulI64 f t.c) (cMulI64 g t.d)))

/-- Models src/ff_ext/inverse.rs:245-254 (`BYInverter`). -/
structure Inverter where
  modulus : List ℕ
  adjuster : List ℕ
  inverse : ℤ

/-- `bool as i64`. -/
def b2i (b : Bool) : ℤ := if b then 1 else 0

/-- The multiple of the modulus added to one row of `de`. Models src/ff_ext/inverse.rs:308-321. -/
def deCoeff (inverse x y : ℤ) (d e : List ℕ) : ℤ :=
  let md := i64 (i64 (x * b2i (isNeg d)) + i64 (y * b2i (isNeg e)))
  let cd := i64 (i64 (x * (lowest d : ℤ)) + i64 (y * (lowest e : ℤ))) % 2 ^ 62
  i64 (md - i64 (i64 (inverse * cd) + md) % 2 ^ 62)

/-- One row of `de`. Models src/ff_ext/inverse.rs:323-326. -/
def deRow (v : Inverter) (x y : ℤ) (d e : List ℕ) : List ℕ :=
  shift (cAdd (cAdd (cMulI64 d x) (cMulI64 e y)) (cMulI64 v.modulus (deCoeff v.inverse x y d e)))

/-- Models src/ff_ext/inverse.rs:306-327 (`de`). -/
def de (v : Inverter) (d e : List ℕ) (t : Mat) : List ℕ × List ℕ :=
  (deRow v t.a t.b d e, deRow v t.c t.d d e)

/-- Models src/ff_ext/inverse.rs:332-346 (`norm`). -/
def norm (v : Inverter) (value : List ℕ) (negate : Bool) : List ℕ :=
  let value := if isNeg value then cAdd value v.modulus else value
  let value := if negate then cNeg value else value
  if isNeg value then cAdd value v.modulus else value

/-- `output[k] |= x` -/
def orAt (out : List ℕ) (k x : ℕ) : List ℕ := out.set k (out.getD k 0 ||| x)

/-- The first loop of `convert`; each round advances by at least one bit.
Models src/ff_ext/inverse.rs:363-367. -/
def convertLoop (I O total : ℕ) (input : List ℕ) : ℕ → ℕ → List ℕ → List ℕ
  | 0, _, out => out
  | fuel + 1, bits, out =>
    if bits < total then
      convertLoop I O total input fuel (bits + min (I - bits % I) (O - bits % O))
        (orAt out (bits / O) (u64 (input.getD (bits / I) 0 / 2 ^ (bits % I) * 2 ^ (bits % O))))
    else out

/-- Models src/ff_ext/inverse.rs:351-378 (`convert`). The second loop masks the first
`ceil(total / O)` chunks. -/
def convert (I O S : ℕ) (input : List ℕ) : List ℕ :=
  let total := min (input.length * I) (S * O)
  let out := convertLoop I O total input (total + 1) 0 (List.replicate S 0)
  let filled := total / O + if total % O > 0 then 1 else 0
  out.mapIdx fun k x => if k < filled then x % 2 ^ O else x

/-- One round of the Newton iteration of `inv`. -/
def invStep (xy : ℕ × ℕ) : ℕ × ℕ := (u64 (xy.1 * u64 (xy.2 + 1)), u64 (xy.2 * xy.2))

/-- Models src/ff_ext/inverse.rs:385-392 (`inv`). -/
def inv (value : ℕ) : ℤ :=
  let x := u64 (value * 3) ^^^ 2
  let y := u64 (1 + (2 ^ 64 - u64 (x * value)))
  let xy := invStep (invStep (invStep (x, y)))
  ((u64 (xy.1 * u64 (xy.2 + 1)) % 2 ^ 62 : ℕ) : ℤ)

/-- Models src/ff_ext/inverse.rs:395-401 (`new`). -/
def new (L : ℕ) (modulus adjuster : List ℕ) : Inverter :=
  ⟨convert 64 62 L modulus, convert 64 62 L adjuster, inv (modulus.headD 0)⟩

/-- The loop of `invert`, with fuel; `none` means that the fuel ran out before `g` was zero.
Models src/ff_ext/inverse.rs:410-414. -/
def invertLoop (v : Inverter) (L : ℕ) :
    ℕ → ℤ → List ℕ → List ℕ → List ℕ → List ℕ → Option (List ℕ × List ℕ)
  | 0, _, f, g, d, _ => if g = cZero L then some (f, d) else none
  | fuel + 1, delta, f, g, d, e =>
    if g = cZero L then some (f, d)
    else
      let r := jump f g delta
      let fg' := fg f g r.2
      let de' := de v d e r.2
      invertLoop v L fuel r.1 fg'.1 fg'.2 de'.1 de'.2

/-- Outcome of `BYInverter::invert`: the returned `Option`, or `outOfFuel` if the `while` loop did
not finish within the given number of rounds. -/
inductive Outcome where
  | done (r : Option (List ℕ))
  | outOfFuel
deriving DecidableEq

/-- Models src/ff_ext/inverse.rs:405-423 (`invert`). -/
def invert (v : Inverter) (L S fuel : ℕ) (value : List ℕ) : Outcome :=
  match invertLoop v L fuel 1 v.modulus (convert 64 62 L value) (cZero L) v.adjuster with
  | none => .outOfFuel
  | some (f, d) =>
    let antiunit := decide (f = cMinusOne L)
    if (!decide (f = cOne L)) && !antiunit then .done none
    else .done (some (convert 62 64 S (norm v d antiunit)))

/-- `by_inverter_constant`. Models derive/src/field/mod.rs:141-148. -/
def byConstantLoop (p : ℕ) : ℕ → ℕ → ℕ
  | 0, c => c
  | fuel + 1, c => if 2 ^ (62 * c - 64) > p then c else byConstantLoop p fuel (c + 1)

/-- Models derive/src/field/mod.rs:141-148. The loop stops after at most `numBits` rounds. -/
def byConstant (p : ℕ) : ℕ := byConstantLoop p (Field.numBits p + 2) 2

/-- Number of rounds that is always enough (`C09`). -/
def fuelBound (p : ℕ) : ℕ := (4 * Field.numBits p + 8) * (4 * Field.numBits p + 8)

/-- Models derive/src/field/mod.rs:403-412 (`invert` of the generated field). -/
def fieldInvert (p : ℕ) (a : List ℕ) : Outcome :=
  invert (new (byConstant p) (Field.modulusLimbs p) (Field.R2 p)) (byConstant p)
    (Field.numLimbs p) (fuelBound p) a

end Halo2.Inverse
