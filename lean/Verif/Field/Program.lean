import Verif.Asm.Programs
import Verif.Field.Consts
import Verif.Jacobi.Field
import Verif.Curve.Program

/-!
# Programs over a prime field, on either back end

The macro generates `add`, `double`, `sub`, `neg`, `mul`, `square` and `from_mont` either from portable code or, with the feature `asm`, from
assembly (derive/src/field/mod.rs:548-563); all other methods are written once and call these. Here these methods are written over an
arbitrary back end, on bare limbs, and client code is a program that calls them.
-/

namespace Halo2.FieldProg

open Halo2 Halo2.Field Halo2.Program

/-- The methods that depend on the feature `asm`. -/
structure Backend where
  add : List ℕ → List ℕ → List ℕ
  double : List ℕ → List ℕ
  sub : List ℕ → List ℕ → List ℕ
  neg : List ℕ → List ℕ
  mul : List ℕ → List ℕ → List ℕ
  square : List ℕ → List ℕ
  fromMont : List ℕ → List ℕ

/-- Without the feature. Models derive/src/field/arith.rs:13-64 (`impl_arith`). -/
def portable (p : ℕ) : Backend :=
  ⟨Field.add p, Field.double p, Field.sub p, Field.neg p, Field.mul p, Field.square p, Field.fromMont p⟩

/-- What a call of an assembly block finds in the registers and flags, and what the processor puts in the flags it leaves unspecified: any
function of the operands. -/
structure Machine where
  st : List ℕ → List ℕ → Asm.State
  junk : List ℕ → List ℕ → Asm.State → ℕ

/-- With the feature. Models derive/src/field/asm/limb4.rs:3-607 (`impl_arith`). -/
def assembly (p : ℕ) (M : Machine) : Backend where
  add a b := Asm.add (M.junk a b) (M.st a b) (modulusLimbs p) a b
  double a := Asm.double (M.junk a a) (M.st a a) (modulusLimbs p) a
  sub a b := Asm.sub (M.junk a b) (M.st a b) (modulusLimbs p) a b
  neg a := Asm.neg (M.junk a a) (M.st a a) (modulusLimbs p) a
  mul a b := Asm.mul (M.junk a b) (M.st a b) (modulusLimbs p) (inv64 p) a b
  square a := Asm.square (M.junk a a) (M.st a a) (modulusLimbs p) (inv64 p) a
  fromMont a := Asm.fromMont (M.junk a a) (M.st a a) (modulusLimbs p) (inv64 p) a

namespace Backend

variable (B : Backend) (p : ℕ)

/-- `From<u64>`, src/derive/field/common.rs:51-66. -/
def fromU64 (v : ℕ) : List ℕ := B.mul ((v :: List.replicate (numLimbs p) 0).take (numLimbs p)) (R2 p)

/-- `from_u128`, derive/src/field/mod.rs:452-462. -/
def fromU128 (v : ℕ) : List ℕ :=
  B.mul (R2 p) ((v % W :: (v / 2 ^ 64) % W :: List.replicate (numLimbs p) 0).take (numLimbs p))

/-- `from_bytes` and `from_repr`, derive/src/field/mod.rs:328-333, 464-468. -/
def fromBytes (e : Endian) (b : List ℕ) : Option (List ℕ) :=
  let el := e.fromBytes (numLimbs p) b
  if isLessThanModulus p el then some (B.mul el (R2 p)) else none

/-- `to_bytes` and `to_repr`, derive/src/field/mod.rs:338-344, 470-476. -/
def toBytes (e : Endian) (a : List ℕ) : List ℕ := e.toBytes (B.fromMont a)

/-- `is_odd`, derive/src/field/mod.rs:478-480. -/
def isOdd (a : List ℕ) : Bool := ((B.toBytes .LE a).headD 0 &&& 1) == 1

/-- `lexicographically_largest`, derive/src/field/mod.rs:368-376. -/
def lexLargest (a : List ℕ) : Bool := !((borrowOf (B.fromMont a) (halfModulus p) % 256) &&& 1 == 1)

/-- `Ord::cmp`, derive/src/field/mod.rs:260-272. -/
def cmp (a b : List ℕ) : Ordering :=
  (((B.toBytes .LE a).zip (B.toBytes .LE b)).reverse.findSome? fun x =>
    match compare x.1 x.2 with
    | .eq => none
    | r => some r).getD .eq

/-- `Sum`, derive/src/field/mod.rs:275-279. -/
def sum (l : List (List ℕ)) : List ℕ := l.foldl (fun acc x => B.add acc x) (zero p)

/-- `Product`, derive/src/field/mod.rs:281-285. -/
def product (l : List (List ℕ)) : List ℕ := l.foldl (fun acc x => B.mul acc x) (one p)

/-- `from_uniform_bytes`, derive/src/field/mod.rs:568-591; the multiplications are `mul_const`, which is always the portable code. -/
def fromUniformBytes (b : List ℕ) : List ℕ :=
  let n := numLimbs p
  let wide := b ++ List.replicate (2 * (8 * n) - b.length) 0
  let a0 := Endian.LE.fromBytes n (wide.take (8 * n))
  let a1 := Endian.LE.fromBytes n (wide.drop (8 * n))
  B.add (Field.mul p a0 (R2 p)) (Field.mul p a1 (R3 p))

/-- `pow` and `pow_vartime` of the `ff` crate. -/
def pow (a : List ℕ) (e : List ℕ) : List ℕ := @Ext.pow (List ℕ) ⟨B.mul⟩ ⟨one p⟩ B.square a e

/-- `sqrt`, derive/src/field/mod.rs:169-195. -/
def sqrt (g : ℕ) (a : List ℕ) : Option (List ℕ) :=
  if p % 16 = 1 then
    @Sqrt.tonelliShanks (List ℕ) ⟨B.mul⟩ ⟨one p⟩ _ B.square (Fp.macroS p)
      (bigToLimbs (montBig p (Fp.modpow p g (Fp.macroT p))) (numLimbs p))
      (bigToLimbs ((Fp.macroT p - 1) * Fp.twoInvBig p % p) (numLimbs p)) a
  else if p % 4 = 3 then
    @Sqrt.sqrt34 (List ℕ) ⟨B.mul⟩ ⟨one p⟩ _ B.square (bigToLimbs ((p + 1) / 4) (numLimbs p)) a
  else none

end Backend

/-- The calls. `d`, `a`, `b` are registers for elements, `f` for flags, `w` for byte strings. -/
inductive FOp where
  | const (d n : ℕ) | const128 (d n : ℕ)
  | add (d a b : ℕ) | sub (d a b : ℕ) | mul (d a b : ℕ) | neg (d a : ℕ) | double (d a : ℕ) | square (d a : ℕ)
  | invert (d f a : ℕ) | sqrt (d f a : ℕ) | pow (d a : ℕ) (e : List ℕ)
  | sum (d : ℕ) (l : List ℕ) | product (d : ℕ) (l : List ℕ) | select (d a b f : ℕ)
  | write (e : Endian) (w a : ℕ) | read (e : Endian) (d f w : ℕ)
  | writeRaw (w a : ℕ) | readRaw (d f w : ℕ) | uniform (d w len : ℕ)
  | lit (w : ℕ) (b : List ℕ) | out (w : ℕ)

/-- The comparisons. -/
inductive FTest where
  | eq (a b : ℕ) | less (a b : ℕ) | odd (a : ℕ) | zero (a : ℕ) | largest (a : ℕ) | nonResidue (a : ℕ) | flag (f : ℕ)

/-- Registers, output so far (latest first), and the number of calls made. -/
structure FSt where
  el : ℕ → List ℕ
  bs : ℕ → List ℕ
  fl : ℕ → Bool
  out : List Out
  clock : ℕ

/-- A `CtOption` is unwrapped to zero; the flag tells whether there was a value. -/
def FSt.put (p : ℕ) (s : FSt) (d f : ℕ) (o : Option (List ℕ)) : FSt :=
  { s with el := set s.el d (o.getD (zero p)), fl := set s.fl f o.isSome }

/-- One call with the back end `B`. Strings become arrays with `try_into().unwrap()`, which panics for another length. -/
def call (B : Backend) (p g : ℕ) (s : FSt) : FOp → Outcome FSt
  | .const d n => .ok { s with el := set s.el d (B.fromU64 p n) }
  | .const128 d n => .ok { s with el := set s.el d (B.fromU128 p n) }
  | .add d a b => .ok { s with el := set s.el d (B.add (s.el a) (s.el b)) }
  | .sub d a b => .ok { s with el := set s.el d (B.sub (s.el a) (s.el b)) }
  | .mul d a b => .ok { s with el := set s.el d (B.mul (s.el a) (s.el b)) }
  | .neg d a => .ok { s with el := set s.el d (B.neg (s.el a)) }
  | .double d a => .ok { s with el := set s.el d (B.double (s.el a)) }
  | .square d a => .ok { s with el := set s.el d (B.square (s.el a)) }
  | .invert d f a =>
    match Inverse.fieldInvert p (s.el a) with
    | .done o => .ok (s.put p d f o)
    | .outOfFuel => .panic
  | .sqrt d f a => .ok (s.put p d f (B.sqrt p g (s.el a)))
  | .pow d a e => .ok { s with el := set s.el d (B.pow p (s.el a) e) }
  | .sum d l => .ok { s with el := set s.el d (B.sum p (l.map s.el)) }
  | .product d l => .ok { s with el := set s.el d (B.product p (l.map s.el)) }
  | .select d a b f => .ok { s with el := set s.el d (if s.fl f then s.el b else s.el a) }
  | .write e w a => .ok { s with bs := set s.bs w (B.toBytes e (s.el a)) }
  | .read e d f w => if (s.bs w).length = 8 * numLimbs p then .ok (s.put p d f (B.fromBytes p e (s.bs w))) else .panic
  | .writeRaw w a => .ok { s with bs := set s.bs w (toRawBytes (s.el a)) }
  | .readRaw d f w => .ok (s.put p d f (fromRawBytes p (s.bs w)))
  | .uniform d w len => if (s.bs w).length = len then .ok { s with el := set s.el d (B.fromUniformBytes p (s.bs w)) } else .panic
  | .lit w b => .ok { s with bs := set s.bs w b }
  | .out w => .ok { s with out := .bytes (.ok (s.bs w)) :: s.out }

/-- The back end `X n` serves the call with number `n`. -/
def fstep (X : ℕ → Backend) (p g : ℕ) (s : FSt) (o : FOp) : Outcome FSt := call (X s.clock) p g { s with clock := s.clock + 1 } o

/-- A comparison. -/
def ftest (X : ℕ → Backend) (p : ℕ) (s : FSt) : FTest → Bool
  | .eq a b => ctEq (s.el a) (s.el b)
  | .less a b => (X s.clock).cmp (s.el a) (s.el b) == .lt
  | .odd a => (X s.clock).isOdd (s.el a)
  | .zero a => ctEq (s.el a) (zero p)
  | .largest a => (X s.clock).lexLargest p (s.el a)
  | .nonResidue a => Jacobi.jacobi (Jacobi.jacobiConst p) (s.el a) (modulusLimbs p) == some (-1)
  | .flag f => s.fl f

/-- The result of a comparison is put out. -/
def femit (s : FSt) (b : Bool) : FSt := { s with out := .bit b :: s.out }

/-- A program. -/
def frun (X : ℕ → Backend) (p g : ℕ) : ℕ → Prog FOp FTest → FSt → Option (Outcome FSt) := run (fstep X p g) (ftest X p) femit

end Halo2.FieldProg
