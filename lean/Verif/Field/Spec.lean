import Verif.Limb.Lemmas
import Verif.Field.Model
import Mathlib.Data.ZMod.Basic

/-!
# What a limb vector of a generated field stands for
-/

namespace Halo2.Field

open Halo2

/-- The moduli `impl_field!` is used with: odd and greater than one. -/
structure OddModulus (p : ℕ) : Prop where
  odd : p % 2 = 1
  gt : 1 < p

/-- `a` is a well-formed element of the field of modulus `p`: `numLimbs p` words of 64 bits
denoting an integer below `p`. -/
structure IsElem (p : ℕ) (a : List ℕ) : Prop where
  len : a.length = numLimbs p
  wf : ∀ x ∈ a, x < 2 ^ 64
  lt : val a < p

/-- `a` is the (unique) stored form of the residue class `x`: the Montgomery form `x * 2^(64 n)`. -/
structure Rep (p : ℕ) (a : List ℕ) (x : ZMod p) : Prop where
  elem : IsElem p a
  eq : (val a : ZMod p) = x * 2 ^ (64 * numLimbs p)

/-- The little-endian integer of a byte string. -/
def leNat : List ℕ → ℕ
  | [] => 0
  | b :: bs => b + 256 * leNat bs

/-- A byte string. -/
def IsBytes (b : List ℕ) : Prop := ∀ x ∈ b, x < 256

/-- The integer a byte string denotes in the given byte order. -/
def Endian.nat : Endian → List ℕ → ℕ
  | .LE, b => leNat b
  | .BE, b => leNat b.reverse

end Halo2.Field
