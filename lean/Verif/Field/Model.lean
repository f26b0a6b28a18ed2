import Verif.Limb.Model
import Mathlib.Data.Nat.Size

/-!
# Model of the code emitted by the `impl_field!` macro

`derive/src/field/mod.rs`, `derive/src/utils.rs`, `src/derive/field/common.rs`, and the byte-order
helpers of `src/serde.rs`.  A field is determined by its modulus `p`; an element is a `List ℕ` of
`numLimbs p` words holding the Montgomery form.  `CtOption` is `Option`.
-/

namespace Halo2.Field

open Halo2

/-! ### Constants computed by the macro -/

/-- `num_bits`, `derive/src/field/mod.rs:104` (`BigUint::bits`). -/
def numBits (p : ℕ) : ℕ := Nat.size p

/-- `num_limbs`, `derive/src/field/mod.rs:105-106`. -/
def numLimbs (p : ℕ) : ℕ := (numBits p - 1) / 64 + 1

/-- `big_to_limbs`, `derive/src/utils.rs:5-19`. -/
def bigToLimbs (e n : ℕ) : List ℕ := (List.range n).map fun i => (e / 2 ^ (64 * i)) % W

/-- `MODULUS_LIMBS`, `derive/src/field/mod.rs:108`. -/
def modulusLimbs (p : ℕ) : List ℕ := bigToLimbs p (numLimbs p)

/-- `r1 = 2^(64 n) mod p`, `derive/src/field/mod.rs:120-122`. -/
def r1Big (p : ℕ) : ℕ := 2 ^ (numLimbs p * 64) % p

/-- `mont`, `derive/src/field/mod.rs:123`. -/
def montBig (p v : ℕ) : ℕ := v * r1Big p % p

/-- `R`, `derive/src/field/mod.rs:122, 129`. -/
def R (p : ℕ) : List ℕ := bigToLimbs (r1Big p) (numLimbs p)
/-- `R2`, `derive/src/field/mod.rs:125, 130`. -/
def R2 (p : ℕ) : List ℕ := bigToLimbs (r1Big p * r1Big p % p) (numLimbs p)
/-- `R3`, `derive/src/field/mod.rs:127, 131`. -/
def R3 (p : ℕ) : List ℕ := bigToLimbs (r1Big p * r1Big p * r1Big p % p) (numLimbs p)

/-- The loop body of the `inv64` computation, `derive/src/field/mod.rs:135-138`. -/
def inv64Loop (m0 : ℕ) : ℕ → ℕ → ℕ
  | 0, x => x
  | i + 1, x => inv64Loop m0 i (x * x % W * m0 % W)

/-- `inv64`, `derive/src/field/mod.rs:134-139`. -/
def inv64 (p : ℕ) : ℕ := (W - inv64Loop ((modulusLimbs p).headD 0) 63 1) % W

/-- `half_modulus`, `derive/src/field/mod.rs:116-117`. -/
def halfModulus (p : ℕ) : List ℕ := bigToLimbs ((p - 1) / 2) (numLimbs p)

/-! ### Arithmetic (`impl_arith`) -/

/-- `add`. -/
def add (p : ℕ) (a b : List ℕ) : List ℕ := fAdd (modulusLimbs p) a b
/-- `double`. -/
def double (p : ℕ) (a : List ℕ) : List ℕ := fDouble (modulusLimbs p) a
/-- `sub`, `sub_const`. -/
def sub (p : ℕ) (a b : List ℕ) : List ℕ := fSub (modulusLimbs p) a b
/-- `neg`. -/
def neg (p : ℕ) (a : List ℕ) : List ℕ := fNeg (modulusLimbs p) a
/-- `mul`, `mul_const`. -/
def mul (p : ℕ) (a b : List ℕ) : List ℕ := fMul (modulusLimbs p) (inv64 p) a b
/-- `square`. -/
def square (p : ℕ) (a : List ℕ) : List ℕ := fSquare (modulusLimbs p) (inv64 p) a
/-- `from_mont`. -/
def fromMont (p : ℕ) (a : List ℕ) : List ℕ := Halo2.fromMont (modulusLimbs p) (inv64 p) a

/-- `zero`, `derive/src/field/mod.rs:310-312`. -/
def zero (p : ℕ) : List ℕ := List.replicate (numLimbs p) 0
/-- `one`, `derive/src/field/mod.rs:316-318`. -/
def one (p : ℕ) : List ℕ := R p

/-- `from_raw`, `derive/src/field/mod.rs:322-324`. -/
def fromRaw (p : ℕ) (v : List ℕ) : List ℕ := mul p v (R2 p)

/-- `From<u64>`, `src/derive/field/common.rs:51-66`. -/
def fromU64 (p v : ℕ) : List ℕ := mul p ((v :: List.replicate (numLimbs p) 0).take (numLimbs p)) (R2 p)

/-- `From<bool>`, `src/derive/field/common.rs:69-84`. -/
def fromBool (p : ℕ) (v : Bool) : List ℕ :=
  mul p (((if v then 1 else 0) :: List.replicate (numLimbs p) 0).take (numLimbs p)) (R2 p)

/-- `from_u128`, `derive/src/field/mod.rs:452-462`. -/
def fromU128 (p v : ℕ) : List ℕ :=
  mul p (R2 p) ((v % W :: (v / 2 ^ 64) % W :: List.replicate (numLimbs p) 0).take (numLimbs p))

/-! ### Bytes -/

/-- `u64::to_le_bytes` (Rust core). -/
def toLeBytes (x : ℕ) : List ℕ := (List.range 8).map fun j => (x / 256 ^ j) % 256
/-- `u64::to_be_bytes` (Rust core). -/
def toBeBytes (x : ℕ) : List ℕ := (toLeBytes x).reverse
/-- `u64::from_le_bytes` (Rust core). -/
def ofLeBytes (b : List ℕ) : ℕ := b.foldr (fun x acc => x + 256 * acc) 0
/-- `u64::from_be_bytes` (Rust core). -/
def ofBeBytes (b : List ℕ) : ℕ := ofLeBytes b.reverse

/-- `Endian`, `src/serde.rs:129-132`. -/
inductive Endian
  | LE
  | BE
  deriving DecidableEq

/-- `Endian::to_bytes`, `src/serde.rs:135-150` (the output buffer is exactly `8 * el.len()` long). -/
def Endian.toBytes : Endian → List ℕ → List ℕ
  | .LE, el => el.flatMap toLeBytes
  | .BE, el => el.reverse.flatMap toBeBytes

/-- `Endian::from_bytes`, `src/serde.rs:152-167`; `n` is the length of the limb slice written. -/
def Endian.fromBytes : Endian → ℕ → List ℕ → List ℕ
  | .LE, n, b => (List.range n).map fun i => ofLeBytes ((b.drop (i * 8)).take 8)
  | .BE, n, b => ((List.range n).map fun i => ofBeBytes ((b.drop (i * 8)).take 8)).reverse

/-- The final borrow of `limbs - other`, fold of `derive/src/field/mod.rs:360-362, 371-374`. -/
def borrowOf (limbs other : List ℕ) : ℕ :=
  (limbs.zip other).foldl (fun borrow x => (sbb x.1 x.2 borrow).2) 0

/-- `is_less_than_modulus`, `derive/src/field/mod.rs:359-364`. -/
def isLessThanModulus (p : ℕ) (limbs : List ℕ) : Bool :=
  (borrowOf limbs (modulusLimbs p) % 256) &&& 1 == 1

/-- `from_bytes` (with the declared byte order), `derive/src/field/mod.rs:328-333`; with `LE` this
is `from_repr`, `derive/src/field/mod.rs:464-468`. -/
def fromBytes (p : ℕ) (e : Endian) (b : List ℕ) : Option (List ℕ) :=
  let el := e.fromBytes (numLimbs p) b
  if isLessThanModulus p el then some (mul p el (R2 p)) else none

/-- `to_bytes`, `derive/src/field/mod.rs:338-344`; with `LE` this is `to_repr`,
`derive/src/field/mod.rs:470-476`. -/
def toBytes (p : ℕ) (e : Endian) (a : List ℕ) : List ℕ := e.toBytes (fromMont p a)

/-- `from_repr`, `derive/src/field/mod.rs:464-468`. -/
def fromRepr (p : ℕ) (b : List ℕ) : Option (List ℕ) := fromBytes p .LE b
/-- `to_repr`, `derive/src/field/mod.rs:470-476`. -/
def toRepr (p : ℕ) (a : List ℕ) : List ℕ := toBytes p .LE a

/-- `is_odd`, `derive/src/field/mod.rs:478-480`. -/
def isOdd (p : ℕ) (a : List ℕ) : Bool := ((toRepr p a).headD 0 &&& 1) == 1

/-- `lexicographically_largest`, `derive/src/field/mod.rs:368-376`. -/
def lexLargest (p : ℕ) (a : List ℕ) : Bool :=
  !((borrowOf (fromMont p a) (halfModulus p) % 256) &&& 1 == 1)

/-- `Ord::cmp`, `derive/src/field/mod.rs:260-272`: compare `to_repr` bytes from the most
significant end, first difference decides. -/
def cmp (p : ℕ) (a b : List ℕ) : Ordering :=
  (((toRepr p a).zip (toRepr p b)).reverse.findSome? fun x =>
    match compare x.1 x.2 with
    | .eq => none
    | r => some r).getD .eq

/-- `ct_eq`, `derive/src/field/mod.rs:232-239`. -/
def ctEq (a b : List ℕ) : Bool := (a.zip b).all fun x => x.1 == x.2

/-- `Sum`, `derive/src/field/mod.rs:275-279`. -/
def sum (p : ℕ) (l : List (List ℕ)) : List ℕ := l.foldl (fun acc x => add p acc x) (zero p)
/-- `Product`, `derive/src/field/mod.rs:281-285`. -/
def product (p : ℕ) (l : List (List ℕ)) : List ℕ := l.foldl (fun acc x => mul p acc x) (one p)

/-- `from_uniform_bytes`, `derive/src/field/mod.rs:568-591`: zero-pad to `2 * SIZE`, split in two
limb vectors, combine as `a0 * R2 + a1 * R3`. -/
def fromUniformBytes (p : ℕ) (b : List ℕ) : List ℕ :=
  let n := numLimbs p
  let wide := b ++ List.replicate (2 * (8 * n) - b.length) 0
  let a0 := Endian.LE.fromBytes n (wide.take (8 * n))
  let a1 := Endian.LE.fromBytes n (wide.drop (8 * n))
  add p (mul p a0 (R2 p)) (mul p a1 (R3 p))

/-! ### Raw (Montgomery limb) bytes: `SerdeObject`, `derive/src/field/mod.rs:484-546` -/

/-- `from_raw_bytes_unchecked`, `derive/src/field/mod.rs:486-495`. -/
def fromRawBytesUnchecked (p : ℕ) (b : List ℕ) : List ℕ := Endian.LE.fromBytes (numLimbs p) b

/-- `from_raw_bytes`, `derive/src/field/mod.rs:497-503`. -/
def fromRawBytes (p : ℕ) (b : List ℕ) : Option (List ℕ) :=
  if b.length ≠ numLimbs p * 8 then none
  else
    let el := fromRawBytesUnchecked p b
    if isLessThanModulus p el then some el else none

/-- `to_raw_bytes`, `derive/src/field/mod.rs:505-511`; `write_raw` (539-544) appends the same
bytes to the writer. -/
def toRawBytes (a : List ℕ) : List ℕ := a.flatMap toLeBytes

/-- `Read::read_exact` of `n` bytes from a byte stream (Rust std): fails when fewer are left. -/
def readExact (n : ℕ) (s : List ℕ) : Option (List ℕ × List ℕ) :=
  if s.length < n then none else some (s.take n, s.drop n)

/-- The limb reading loop of `read_raw`, `derive/src/field/mod.rs:523-528`. -/
def readLimbs : ℕ → List ℕ → Option (List ℕ × List ℕ)
  | 0, s => some ([], s)
  | n + 1, s =>
    match readExact 8 s with
    | none => none
    | some (buf, s) =>
      match readLimbs n s with
      | none => none
      | some (ls, s) => some (ofLeBytes buf :: ls, s)

/-- `read_raw`, `derive/src/field/mod.rs:522-538`.  `none` models `Err`. -/
def readRaw (p : ℕ) (s : List ℕ) : Option (List ℕ × List ℕ) :=
  match readLimbs (numLimbs p) s with
  | none => none
  | some (el, s) => if isLessThanModulus p el then some (el, s) else none

/-- `read_raw_unchecked`, `derive/src/field/mod.rs:513-520`.  `none` models the panic of
`unwrap` on a short stream. -/
def readRawUnchecked (p : ℕ) (s : List ℕ) : Option (List ℕ × List ℕ) := readLimbs (numLimbs p) s

/-- `write_raw`, `derive/src/field/mod.rs:539-544`: the stream after writing. -/
def writeRaw (a : List ℕ) (s : List ℕ) : List ℕ := a.foldl (fun s limb => s ++ toLeBytes limb) s

end Halo2.Field
