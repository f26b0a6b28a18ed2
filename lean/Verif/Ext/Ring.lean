import Verif.Ext.Model
import Mathlib.Algebra.Ring.Hom.Defs
import Mathlib.Tactic.LinearCombination
import Mathlib.Data.List.Induction

/-!
# The extension types form commutative rings under the code's operations
-/

set_option linter.unusedSectionVars false

namespace Halo2.Ext

open ExtField

/-- The overridable methods of a coefficient field mean what their names say. -/
class LawfulExt (F : Type) [CommRing F] [ExtField F] : Prop where
  sqr_eq : ∀ x : F, sqr x = x * x
  dbl_eq : ∀ x : F, dbl x = x + x
  mulNr_eq : ∀ x : F, mulNr x = nonRes * x
  invert_iff : ∀ x y : F, invert x = some y ↔ x * y = 1

open LawfulExt

variable {F : Type} [CommRing F] [ExtField F]

namespace Quad

@[simp] theorem zero_c0 : (0 : Quad F).c0 = 0 := rfl
@[simp] theorem zero_c1 : (0 : Quad F).c1 = 0 := rfl
@[simp] theorem one_c0 : (1 : Quad F).c0 = 1 := rfl
@[simp] theorem one_c1 : (1 : Quad F).c1 = 0 := rfl
@[simp] theorem add_c0 (x y : Quad F) : (x + y).c0 = x.c0 + y.c0 := rfl
@[simp] theorem add_c1 (x y : Quad F) : (x + y).c1 = x.c1 + y.c1 := rfl
@[simp] theorem sub_c0 (x y : Quad F) : (x - y).c0 = x.c0 - y.c0 := rfl
@[simp] theorem sub_c1 (x y : Quad F) : (x - y).c1 = x.c1 - y.c1 := rfl
@[simp] theorem neg_c0 (x : Quad F) : (-x).c0 = -x.c0 := rfl
@[simp] theorem neg_c1 (x : Quad F) : (-x).c1 = -x.c1 := rfl

theorem mul_c0' (x y : Quad F) : (x * y).c0 = x.c0 * y.c0 + mulNr (x.c1 * y.c1) := rfl
theorem mul_c1' (x y : Quad F) :
    (x * y).c1 = (x.c0 + x.c1) * (y.c0 + y.c1) - (x.c0 * y.c0 + x.c1 * y.c1) := rfl

variable [LawfulExt F]

@[simp] theorem mul_c0 (x y : Quad F) : (x * y).c0 = x.c0 * y.c0 + nonRes * (x.c1 * y.c1) := by
  rw [mul_c0', mulNr_eq]
@[simp] theorem mul_c1 (x y : Quad F) : (x * y).c1 = x.c0 * y.c1 + x.c1 * y.c0 := by
  rw [mul_c1']; ring

instance instCommRing : CommRing (Quad F) where
  nsmul := nsmulRec
  zsmul := zsmulRec
  npow := npowRec
  add_assoc a b c := by ext <;> simp <;> ring
  zero_add a := by ext <;> simp
  add_zero a := by ext <;> simp
  add_comm a b := by ext <;> simp <;> ring
  sub_eq_add_neg a b := by ext <;> simp <;> ring
  neg_add_cancel a := by ext <;> simp
  mul_assoc a b c := by ext <;> simp <;> ring
  one_mul a := by ext <;> simp
  mul_one a := by ext <;> simp
  zero_mul a := by ext <;> simp
  mul_zero a := by ext <;> simp
  mul_comm a b := by ext <;> simp <;> ring
  left_distrib a b c := by ext <;> simp <;> ring
  right_distrib a b c := by ext <;> simp <;> ring

theorem square_eq (x : Quad F) : square x = x * x := by
  ext <;> simp only [square, mul_c0, mul_c1, mulNr_eq, dbl_eq] <;> ring

theorem squareComplex_eq (h : (nonRes : F) = -1) (x : Quad F) : squareComplex x = x * x := by
  ext <;> simp only [squareComplex, mul_c0, mul_c1, dbl_eq, h] <;> ring

theorem double_eq (x : Quad F) : double x = x + x := by
  ext <;> simp only [double, add_c0, add_c1, dbl_eq]

theorem norm_eq (x : Quad F) : norm x = x.c0 * x.c0 - nonRes * (x.c1 * x.c1) := by
  simp only [norm, sqr_eq, mulNr_eq]

theorem norm_mul (x y : Quad F) : norm (x * y) = norm x * norm y := by
  simp only [norm_eq, mul_c0, mul_c1]; ring

theorem mul_conjugate (x : Quad F) : x * conjugate x = ⟨norm x, 0⟩ := by
  ext <;> simp only [mul_c0, mul_c1, conjugate, norm_eq] <;> ring

theorem invert_iff (x y : Quad F) : invert x = some y ↔ x * y = 1 := by
  unfold invert
  rw [Option.map_eq_some_iff]
  constructor
  · rintro ⟨t, ht, rfl⟩
    rw [LawfulExt.invert_iff, norm_eq] at ht
    ext
    · simp only [mul_c0, one_c0]; linear_combination ht
    · simp only [mul_c1, one_c1]; ring
  · intro h
    have hn : norm x * norm y = 1 := by rw [← norm_mul, h]; simp [norm_eq]
    refine ⟨norm y, (LawfulExt.invert_iff _ _).mpr hn, ?_⟩
    have h0 : x.c0 * y.c0 + nonRes * (x.c1 * y.c1) = 1 := by rw [← mul_c0, h]; rfl
    have h1 : x.c0 * y.c1 + x.c1 * y.c0 = 0 := by rw [← mul_c1, h]; rfl
    rw [norm_eq, norm_eq] at hn
    ext
    · simp only [norm_eq]
      linear_combination y.c0 * h0 - nonRes * y.c1 * h1
    · simp only [norm_eq]
      linear_combination y.c1 * h0 - y.c0 * h1

end Quad

namespace Cubic

@[simp] theorem zero_c0 : (0 : Cubic F).c0 = 0 := rfl
@[simp] theorem zero_c1 : (0 : Cubic F).c1 = 0 := rfl
@[simp] theorem zero_c2 : (0 : Cubic F).c2 = 0 := rfl
@[simp] theorem one_c0 : (1 : Cubic F).c0 = 1 := rfl
@[simp] theorem one_c1 : (1 : Cubic F).c1 = 0 := rfl
@[simp] theorem one_c2 : (1 : Cubic F).c2 = 0 := rfl
@[simp] theorem add_c0 (x y : Cubic F) : (x + y).c0 = x.c0 + y.c0 := rfl
@[simp] theorem add_c1 (x y : Cubic F) : (x + y).c1 = x.c1 + y.c1 := rfl
@[simp] theorem add_c2 (x y : Cubic F) : (x + y).c2 = x.c2 + y.c2 := rfl
@[simp] theorem sub_c0 (x y : Cubic F) : (x - y).c0 = x.c0 - y.c0 := rfl
@[simp] theorem sub_c1 (x y : Cubic F) : (x - y).c1 = x.c1 - y.c1 := rfl
@[simp] theorem sub_c2 (x y : Cubic F) : (x - y).c2 = x.c2 - y.c2 := rfl
@[simp] theorem neg_c0 (x : Cubic F) : (-x).c0 = -x.c0 := rfl
@[simp] theorem neg_c1 (x : Cubic F) : (-x).c1 = -x.c1 := rfl
@[simp] theorem neg_c2 (x : Cubic F) : (-x).c2 = -x.c2 := rfl

theorem mul_def (x y : Cubic F) : x * y = mul x y := rfl

variable [LawfulExt F]

@[simp] theorem mul_c0 (x y : Cubic F) :
    (x * y).c0 = x.c0 * y.c0 + nonRes * (x.c1 * y.c2 + x.c2 * y.c1) := by
  rw [mul_def]; simp only [mul, mulNr_eq]; ring
@[simp] theorem mul_c1 (x y : Cubic F) :
    (x * y).c1 = x.c0 * y.c1 + x.c1 * y.c0 + nonRes * (x.c2 * y.c2) := by
  rw [mul_def]; simp only [mul, mulNr_eq]; ring
@[simp] theorem mul_c2 (x y : Cubic F) :
    (x * y).c2 = x.c0 * y.c2 + x.c1 * y.c1 + x.c2 * y.c0 := by
  rw [mul_def]; simp only [mul]; ring

instance instCommRing : CommRing (Cubic F) where
  nsmul := nsmulRec
  zsmul := zsmulRec
  npow := npowRec
  add_assoc a b c := by ext <;> simp <;> ring
  zero_add a := by ext <;> simp
  add_zero a := by ext <;> simp
  add_comm a b := by ext <;> simp <;> ring
  sub_eq_add_neg a b := by ext <;> simp <;> ring
  neg_add_cancel a := by ext <;> simp
  mul_assoc a b c := by ext <;> simp <;> ring
  one_mul a := by ext <;> simp
  mul_one a := by ext <;> simp
  zero_mul a := by ext <;> simp
  mul_zero a := by ext <;> simp
  mul_comm a b := by ext <;> simp <;> ring
  left_distrib a b c := by ext <;> simp <;> ring
  right_distrib a b c := by ext <;> simp <;> ring

theorem square_eq (x : Cubic F) : square x = x * x := by
  ext <;> simp only [square, mul_c0, mul_c1, mul_c2, mulNr_eq, dbl_eq, sqr_eq] <;> ring

theorem double_eq (x : Cubic F) : double x = x + x := by
  ext <;> simp only [double, add_c0, add_c1, add_c2, dbl_eq]

/-- The norm of the cubic extension. -/
def nrm (x : Cubic F) : F :=
  x.c0 * x.c0 * x.c0 + nonRes * (x.c1 * x.c1 * x.c1) + nonRes * nonRes * (x.c2 * x.c2 * x.c2)
    - 3 * nonRes * (x.c0 * x.c1 * x.c2)

theorem nrm_mul (x y : Cubic F) : nrm (x * y) = nrm x * nrm y := by
  simp only [nrm, mul_c0, mul_c1, mul_c2]; ring

theorem invAux_snd (x : Cubic F) : (invAux x).2 = nrm x := by
  simp only [invAux, nrm, mulNr_eq, sqr_eq]; ring

theorem mul_invAux (x : Cubic F) : x * (invAux x).1 = ⟨nrm x, 0, 0⟩ := by
  ext <;> simp only [invAux, nrm, mulNr_eq, sqr_eq, mul_c0, mul_c1, mul_c2] <;> ring

theorem scalar_mul (t : F) (x : Cubic F) : (⟨t, 0, 0⟩ : Cubic F) * x = ⟨t * x.c0, t * x.c1, t * x.c2⟩ := by
  ext <;> simp

theorem invert_iff (x y : Cubic F) : invert x = some y ↔ x * y = 1 := by
  unfold invert
  simp only
  rw [Option.map_eq_some_iff]
  constructor
  · rintro ⟨t, ht, rfl⟩
    rw [LawfulExt.invert_iff, invAux_snd] at ht
    rw [← scalar_mul]
    calc x * (⟨t, 0, 0⟩ * (invAux x).1) = ⟨t, 0, 0⟩ * (x * (invAux x).1) := by ring
      _ = 1 := by
        rw [mul_invAux, scalar_mul]
        ext
        · simp only [one_c0]; linear_combination ht
        · simp
        · simp
  · intro h
    have hn : nrm x * nrm y = 1 := by rw [← nrm_mul, h]; simp [nrm]
    refine ⟨nrm y, by rw [invAux_snd]; exact (LawfulExt.invert_iff _ _).mpr hn, ?_⟩
    rw [← scalar_mul]
    have e : (⟨nrm y, 0, 0⟩ : Cubic F) * ⟨nrm x, 0, 0⟩ = 1 := by
      rw [scalar_mul]; ext
      · simp only [one_c0]; linear_combination hn
      · simp
      · simp
    calc (⟨nrm y, 0, 0⟩ : Cubic F) * (invAux x).1
        = ⟨nrm y, 0, 0⟩ * (invAux x).1 * (x * y) := by rw [h, mul_one]
      _ = ⟨nrm y, 0, 0⟩ * (x * (invAux x).1) * y := by ring
      _ = y := by rw [mul_invAux, e, one_mul]

theorem mulV_eq (x : Cubic F) : mulV x = v * x := by
  ext <;> simp [mulV, v, mulNr_eq]

theorem mulBy1_eq (x : Cubic F) (c1 : F) : mulBy1 x c1 = x * ⟨0, c1, 0⟩ := by
  ext <;> simp only [mulBy1, mul_c0, mul_c1, mul_c2, mulNr_eq] <;> ring

theorem mulBy01_eq (x : Cubic F) (c0 c1 : F) : mulBy01 x c0 c1 = x * ⟨c0, c1, 0⟩ := by
  ext <;> simp only [mulBy01, mul_c0, mul_c1, mul_c2, mulNr_eq] <;> ring

end Cubic

/-! ## Exponentiation -/

theorem foldl_powStep {R : Type} [CommRing R] (sqf : R → R) (hs : ∀ x, sqf x = x * x) (b : R)
    (bits : List Bool) (r : R) :
    bits.foldl (powStep sqf b) r
      = r ^ 2 ^ bits.length * b ^ (bits.foldl (fun n c => 2 * n + if c then 1 else 0) 0) := by
  induction bits using List.reverseRecOn with
  | nil => simp
  | append_singleton l c ih =>
    rw [List.foldl_append, List.foldl_append, ih]
    simp only [List.foldl_cons, List.foldl_nil, powStep, hs, List.length_append, List.length_singleton]
    cases c
    · simp only [Bool.false_eq_true, if_false, add_zero, pow_succ, pow_mul, mul_comm 2]
      ring
    · simp only [if_true, pow_succ, pow_mul, mul_comm 2]
      ring

/-- Value of a bit list, most significant first. -/
def bitsVal (bits : List Bool) : ℕ := bits.foldl (fun n c => 2 * n + if c then 1 else 0) 0

theorem bitsVal_foldl (bits : List Bool) (n : ℕ) :
    bits.foldl (fun n c => 2 * n + if c then 1 else 0) n = n * 2 ^ bits.length + bitsVal bits := by
  unfold bitsVal
  induction bits using List.reverseRecOn with
  | nil => simp
  | append_singleton l c ih =>
    rw [List.foldl_append, List.foldl_append, ih]
    simp only [List.foldl_cons, List.foldl_nil, List.length_append, List.length_singleton, pow_succ]
    ring

theorem bitsVal_append (a b : List Bool) : bitsVal (a ++ b) = bitsVal a * 2 ^ b.length + bitsVal b := by
  conv_lhs => rw [bitsVal, List.foldl_append, bitsVal_foldl]
  rfl

theorem bitsVal_range (e k : ℕ) :
    bitsVal ((List.range k).reverse.map fun i => decide (e / 2 ^ i % 2 = 1)) = e % 2 ^ k := by
  induction k with
  | zero => simp [bitsVal, Nat.mod_one]
  | succ k ih =>
    rw [List.range_succ, List.reverse_append, List.map_append, bitsVal_append, ih]
    simp only [List.reverse_cons, List.reverse_nil, List.nil_append, List.map_cons, List.map_nil,
      List.length_map, List.length_reverse, List.length_range, bitsVal, List.foldl_cons,
      List.foldl_nil]
    have h := Nat.mod_pow_succ (x := e) (b := 2) (k := k)
    rw [h]
    have h2 : e / 2 ^ k % 2 < 2 := Nat.mod_lt _ (by decide)
    by_cases h1 : e / 2 ^ k % 2 = 1
    · simp [h1]; ring
    · have : e / 2 ^ k % 2 = 0 := by omega
      simp [this]

/-- Value of a list of 64-bit limbs, least significant first. -/
def limbsVal : List ℕ → ℕ
  | [] => 0
  | x :: xs => x + 2 ^ 64 * limbsVal xs

theorem bitsVal_limbs (l : List ℕ) (h : ∀ x ∈ l, x < 2 ^ 64) :
    bitsVal (l.reverse.flatMap limbBits) = limbsVal l := by
  induction l with
  | nil => simp [bitsVal, limbsVal]
  | cons x xs ih =>
    rw [List.reverse_cons, List.flatMap_append, bitsVal_append,
      ih (fun y hy => h y (List.mem_cons_of_mem _ hy))]
    have hx := h x (List.mem_cons_self ..)
    simp only [List.flatMap_cons, List.flatMap_nil, List.append_nil, limbsVal]
    rw [limbBits, bitsVal_range, Nat.mod_eq_of_lt hx]
    simp
    ring

/-- The `ff` crate's exponentiation computes the power. -/
theorem pow_eq {R : Type} [CommRing R] (sqf : R → R) (hs : ∀ x, sqf x = x * x) (b : R)
    (exp : List ℕ) (h : ∀ x ∈ exp, x < 2 ^ 64) : pow sqf b exp = b ^ limbsVal exp := by
  unfold pow
  rw [foldl_powStep sqf hs, one_pow, one_mul]
  congr 1
  exact bitsVal_limbs exp h

end Halo2.Ext
