import Verif.Field.Bytes
import Mathlib.Algebra.Ring.Equiv
import Mathlib.Algebra.CharP.Basic
import Mathlib.Data.ZMod.Basic

/-!
# The generated field as a ring

`Fp p` is the Rust type generated by `impl_field!` for modulus `p`: the invariant every public
constructor keeps (`C01`-`C06`) is bundled with the limbs.  Its ring operations are the limb
functions of `Verif.Field.Model`; the ring laws are transported from `ZMod p`.
Everything built on top of prime fields (extension fields, curves, FFT, ...) is generic over a
field, and `Fp p` is the instance the library uses.
-/

namespace Halo2

open Halo2 Halo2.Field

/-- The type generated by `impl_field!`. Models derive/src/field/mod.rs:217 (`struct #field`)
together with the invariant of its private limb array. -/
structure Fp (p : ℕ) where
  limbs : List ℕ
  elem : IsElem p limbs
deriving DecidableEq

namespace Fp

theorem ext' {p : ℕ} {a b : Fp p} (h : a.limbs = b.limbs) : a = b := by
  cases a; cases b; cases h; rfl

variable {p : ℕ} [hp : Fact (OddModulus p)]

/-- The residue class an element stands for. -/
noncomputable def toZMod (a : Fp p) : ZMod p := Classical.choose (Rep.exists_of_elem hp.out a.elem)

theorem rep (a : Fp p) : Rep p a.limbs a.toZMod :=
  Classical.choose_spec (Rep.exists_of_elem hp.out a.elem)

theorem toZMod_eq {a : Fp p} {x : ZMod p} (h : Rep p a.limbs x) : a.toZMod = x :=
  a.rep.functional hp.out h

theorem toZMod_injective : Function.Injective (toZMod : Fp p → ZMod p) := fun a b h =>
  ext' (by have := a.rep; rw [h] at this; exact this.unique b.rep)

theorem toZMod_surjective : Function.Surjective (toZMod : Fp p → ZMod p) := fun x => by
  obtain ⟨a, ha⟩ := Rep.exists_elem hp.out x
  exact ⟨⟨a, ha.elem⟩, toZMod_eq ha⟩

/-- `ZERO` -/
@[irreducible] def zero : Fp p := ⟨Field.zero p, (rep_zero hp.out).elem⟩
/-- `ONE` -/
@[irreducible] def one : Fp p := ⟨Field.one p, (rep_one hp.out).elem⟩
/-- `add` -/
@[irreducible] def add (a b : Fp p) : Fp p := ⟨Field.add p a.limbs b.limbs, (add_val a.elem b.elem).1⟩
/-- `sub` -/
@[irreducible] def sub (a b : Fp p) : Fp p := ⟨Field.sub p a.limbs b.limbs, (sub_val a.elem b.elem).1⟩
/-- `neg` -/
@[irreducible] def neg (a : Fp p) : Fp p := ⟨Field.neg p a.limbs, (neg_val a.elem).1⟩
/-- `mul` -/
@[irreducible] def mul (a b : Fp p) : Fp p :=
  ⟨Field.mul p a.limbs b.limbs, (rep_mul hp.out a.rep b.rep).elem⟩
/-- `double` -/
@[irreducible] def double (a : Fp p) : Fp p := ⟨Field.double p a.limbs, (rep_double a.rep).elem⟩
/-- `square` -/
@[irreducible] def square (a : Fp p) : Fp p := ⟨Field.square p a.limbs, (rep_square hp.out a.rep).elem⟩
/-- `from_raw` (panics on a wrong number of limbs in Rust: the array type fixes it) -/
@[irreducible] def fromRaw (v : List ℕ) (hl : v.length = numLimbs p) (hv : ∀ x ∈ v, x < 2 ^ 64) : Fp p :=
  ⟨Field.fromRaw p v, (rep_fromRaw hp.out hl hv).elem⟩

theorem toZMod_zero : (zero : Fp p).toZMod = 0 := toZMod_eq (by unfold zero; exact rep_zero hp.out)
theorem toZMod_one : (one : Fp p).toZMod = 1 := toZMod_eq (by unfold one; exact rep_one hp.out)
theorem toZMod_add (a b : Fp p) : (add a b).toZMod = a.toZMod + b.toZMod :=
  toZMod_eq (by unfold add; exact rep_add a.rep b.rep)
theorem toZMod_sub (a b : Fp p) : (sub a b).toZMod = a.toZMod - b.toZMod :=
  toZMod_eq (by unfold sub; exact rep_sub a.rep b.rep)
theorem toZMod_neg (a : Fp p) : (neg a).toZMod = -a.toZMod :=
  toZMod_eq (by unfold neg; exact rep_neg a.rep)
theorem toZMod_mul (a b : Fp p) : (mul a b).toZMod = a.toZMod * b.toZMod :=
  toZMod_eq (by unfold mul; exact rep_mul hp.out a.rep b.rep)
theorem toZMod_double (a : Fp p) : (double a).toZMod = 2 * a.toZMod :=
  toZMod_eq (by unfold double; exact rep_double a.rep)
theorem toZMod_square (a : Fp p) : (square a).toZMod = a.toZMod * a.toZMod :=
  toZMod_eq (by unfold square; exact rep_square hp.out a.rep)

instance : Zero (Fp p) := ⟨zero⟩
instance : One (Fp p) := ⟨one⟩
instance : Add (Fp p) := ⟨add⟩
instance : Sub (Fp p) := ⟨sub⟩
instance : Neg (Fp p) := ⟨neg⟩
instance : Mul (Fp p) := ⟨mul⟩

/-- The code's field operations form a commutative ring. -/
instance instCommRing : CommRing (Fp p) where
  add := (· + ·)
  zero := 0
  neg := (- ·)
  sub := (· - ·)
  mul := (· * ·)
  one := 1
  nsmul := nsmulRec
  zsmul := zsmulRec
  npow := npowRec
  add_assoc a b c := toZMod_injective (by
    change (add (add a b) c).toZMod = (add a (add b c)).toZMod
    simp only [toZMod_add]; ring)
  zero_add a := toZMod_injective (by
    change (add zero a).toZMod = _
    simp only [toZMod_add, toZMod_zero]; ring)
  add_zero a := toZMod_injective (by
    change (add a zero).toZMod = _
    simp only [toZMod_add, toZMod_zero]; ring)
  add_comm a b := toZMod_injective (by
    change (add a b).toZMod = (add b a).toZMod
    simp only [toZMod_add]; ring)
  sub_eq_add_neg a b := toZMod_injective (by
    change (sub a b).toZMod = (add a (neg b)).toZMod
    simp only [toZMod_add, toZMod_sub, toZMod_neg]; ring)
  neg_add_cancel a := toZMod_injective (by
    change (add (neg a) a).toZMod = (zero : Fp p).toZMod
    simp only [toZMod_add, toZMod_zero, toZMod_neg]; ring)
  mul_assoc a b c := toZMod_injective (by
    change (mul (mul a b) c).toZMod = (mul a (mul b c)).toZMod
    simp only [toZMod_mul]; ring)
  one_mul a := toZMod_injective (by
    change (mul one a).toZMod = _
    simp only [toZMod_mul, toZMod_one]; ring)
  mul_one a := toZMod_injective (by
    change (mul a one).toZMod = _
    simp only [toZMod_mul, toZMod_one]; ring)
  zero_mul a := toZMod_injective (by
    change (mul zero a).toZMod = (zero : Fp p).toZMod
    simp only [toZMod_mul, toZMod_zero]; ring)
  mul_zero a := toZMod_injective (by
    change (mul a zero).toZMod = (zero : Fp p).toZMod
    simp only [toZMod_mul, toZMod_zero]; ring)
  mul_comm a b := toZMod_injective (by
    change (mul a b).toZMod = (mul b a).toZMod
    simp only [toZMod_mul]; ring)
  left_distrib a b c := toZMod_injective (by
    change (mul a (add b c)).toZMod = (add (mul a b) (mul a c)).toZMod
    simp only [toZMod_mul, toZMod_add]; ring)
  right_distrib a b c := toZMod_injective (by
    change (mul (add a b) c).toZMod = (add (mul a c) (mul b c)).toZMod
    simp only [toZMod_mul, toZMod_add]; ring)

theorem double_eq (a : Fp p) : double a = a + a := toZMod_injective (by
  change _ = (add a a).toZMod
  rw [toZMod_double, toZMod_add]; ring)

theorem square_eq (a : Fp p) : square a = a * a := toZMod_injective (by
  change _ = (mul a a).toZMod
  rw [toZMod_square, toZMod_mul])

variable (p) in
/-- The isomorphism with the abstract prime ring. -/
noncomputable def equiv : Fp p ≃+* ZMod p :=
  RingEquiv.ofBijective (R := Fp p) (S := ZMod p) (F := Fp p →+* ZMod p)
    { toFun := toZMod
      map_one' := toZMod_one
      map_mul' := toZMod_mul
      map_zero' := toZMod_zero
      map_add' := toZMod_add }
    ⟨toZMod_injective, toZMod_surjective⟩

theorem equiv_apply (a : Fp p) : equiv p a = a.toZMod := rfl

instance : CharP (Fp p) p :=
  ⟨fun n => by
    rw [← map_eq_zero_iff (equiv p) (equiv p).injective, map_natCast, ZMod.natCast_eq_zero_iff]⟩

theorem toZMod_natCast (n : ℕ) : ((n : Fp p)).toZMod = n := map_natCast (equiv p) n

theorem natCast_eq_iff (m n : ℕ) : ((m : Fp p) = n) ↔ m % p = n % p := by
  rw [CharP.natCast_eq_natCast (Fp p) p]; rfl

/-- `from_raw` is the reduction of the integer. -/
theorem fromRaw_eq (v : List ℕ) (hl : v.length = numLimbs p) (hv : ∀ x ∈ v, x < 2 ^ 64) :
    fromRaw v hl hv = ((val v : ℕ) : Fp p) := toZMod_injective (by
  rw [toZMod_natCast]
  exact toZMod_eq (by unfold fromRaw; exact rep_fromRaw hp.out hl hv))

/-- An element given by its Montgomery limbs. -/
theorem mont_eq (a : Fp p) : a * ((2 ^ (64 * numLimbs p) : ℕ) : Fp p) = ((val a.limbs : ℕ) : Fp p) :=
  toZMod_injective (by
    change (mul _ _).toZMod = _
    rw [toZMod_mul, toZMod_natCast, toZMod_natCast, a.rep.eq]
    push_cast
    rfl)

end Fp

end Halo2
