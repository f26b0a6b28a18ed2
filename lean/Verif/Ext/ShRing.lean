import Verif.Ext.Shadow

/-!
# Kernel arithmetic: shadows of the fields

A `Sh R F` is a type `R` of numerals with arithmetic that the kernel can evaluate, and a map to the field
`F` that respects it. The prime fields have natural numbers as shadows, their quadratic extensions pairs.
-/

set_option linter.unusedSectionVars false

namespace Halo2.Ext

open Halo2.Field ExtField

structure Sh (R F : Type) [CommRing F] where
  φ : R → F
  zero : R
  one : R
  add : R → R → R
  sub : R → R → R
  mul : R → R → R
  eq : R → R → Bool
  φ_zero : φ zero = 0
  φ_one : φ one = 1
  φ_add : ∀ x y, φ (add x y) = φ x + φ y
  φ_sub : ∀ x y, φ (sub x y) = φ x - φ y
  φ_mul : ∀ x y, φ (mul x y) = φ x * φ y
  eq_iff : ∀ x y, eq x y = true ↔ φ x = φ y

theorem cast_mod' {p : ℕ} [Fact (OddModulus p)] (m : ℕ) : ((m % p : ℕ) : Fp p) = (m : Fp p) := by
  rw [Fp.natCast_eq_iff, Nat.mod_mod]

/-- Residues modulo `p` as natural numbers. -/
def shFp (p : ℕ) [hp : Fact (OddModulus p)] : Sh ℕ (Fp p) where
  φ n := (n : Fp p)
  zero := 0
  one := 1
  add x y := (x + y) % p
  sub x y := (x + (p - y % p)) % p
  mul x y := x * y % p
  eq x y := decide (x % p = y % p)
  φ_zero := Nat.cast_zero
  φ_one := Nat.cast_one
  φ_add x y := by rw [cast_mod', Nat.cast_add]
  φ_sub x y := by
    have hpos : 0 < p := by have := hp.out.gt; omega
    have hl : y % p ≤ p := (Nat.mod_lt _ hpos).le
    rw [cast_mod', Nat.cast_add, Nat.cast_sub hl, CharP.cast_eq_zero (Fp p) p, cast_mod']
    ring
  φ_mul x y := by rw [cast_mod', Nat.cast_mul]
  eq_iff x y := by rw [decide_eq_true_eq, Fp.natCast_eq_iff]

/-- Pairs of residues, `u² = β`. -/
def shQuad (p β : ℕ) [hp : Fact (OddModulus p)] [ExtField (Fp p)] [LawfulExt (Fp p)]
    (hβ : (nonRes : Fp p) = (β : Fp p)) : Sh (ℕ × ℕ) (Quad (Fp p)) where
  φ := Shadow.cast p
  zero := (0, 0)
  one := (1, 0)
  add x y := ((x.1 + y.1) % p, (x.2 + y.2) % p)
  sub x y := ((x.1 + (p - y.1 % p)) % p, (x.2 + (p - y.2 % p)) % p)
  mul := Shadow.mul p β
  eq x y := decide (x.1 % p = y.1 % p) && decide (x.2 % p = y.2 % p)
  φ_zero := by
    ext
    · exact Nat.cast_zero
    · exact Nat.cast_zero
  φ_one := Shadow.cast_one
  φ_add x y := by
    rw [Shadow.cast_add]
    exact Shadow.cast_eq_of _ _ (Nat.mod_mod _ _) (Nat.mod_mod _ _)
  φ_sub x y := by
    ext
    · exact (shFp p).φ_sub x.1 y.1
    · exact (shFp p).φ_sub x.2 y.2
  φ_mul := Shadow.cast_mul hβ
  eq_iff x y := by
    rw [Bool.and_eq_true, decide_eq_true_eq, decide_eq_true_eq, Shadow.cast_eq_iff]

/-! ## Polynomials as coefficient lists, constant term first -/

/-- The value of a polynomial. -/
def peval {F : Type} [CommRing F] (l : List F) (t : F) : F := l.foldr (fun c acc => acc * t + c) 0

@[simp] theorem peval_nil {F : Type} [CommRing F] (t : F) : peval ([] : List F) t = 0 := rfl

@[simp] theorem peval_cons {F : Type} [CommRing F] (c : F) (l : List F) (t : F) :
    peval (c :: l) t = peval l t * t + c := rfl

namespace Sh

variable {R F : Type} [CommRing F] (S : Sh R F)

def padd : List R → List R → List R
  | [], m => m
  | l, [] => l
  | a :: l, b :: m => S.add a b :: padd l m

def pmul : List R → List R → List R
  | [], _ => []
  | a :: l, m => S.padd (m.map (S.mul a)) (S.zero :: pmul l m)

def peq : List R → List R → Bool
  | [], [] => true
  | a :: l, b :: m => S.eq a b && peq l m
  | _, _ => false

theorem peval_padd (l m : List R) (t : F) :
    peval ((S.padd l m).map S.φ) t = peval (l.map S.φ) t + peval (m.map S.φ) t := by
  induction l generalizing m with
  | nil => cases m <;> simp [padd]
  | cons a l ih =>
    cases m with
    | nil => simp [padd]
    | cons b m =>
      simp only [padd, List.map_cons, peval_cons, ih, S.φ_add]
      ring

theorem peval_scale (a : R) (m : List R) (t : F) :
    peval ((m.map (S.mul a)).map S.φ) t = S.φ a * peval (m.map S.φ) t := by
  induction m with
  | nil => simp
  | cons b m ih =>
    simp only [List.map_cons, peval_cons, ih, S.φ_mul]
    ring

theorem peval_pmul (l m : List R) (t : F) :
    peval ((S.pmul l m).map S.φ) t = peval (l.map S.φ) t * peval (m.map S.φ) t := by
  induction l with
  | nil => simp [pmul]
  | cons a l ih =>
    rw [pmul, peval_padd, peval_scale]
    simp only [List.map_cons, peval_cons, ih, S.φ_zero]
    ring

theorem peval_of_peq (l m : List R) (h : S.peq l m = true) (t : F) :
    peval (l.map S.φ) t = peval (m.map S.φ) t := by
  induction l generalizing m with
  | nil => cases m with
    | nil => rfl
    | cons b m => simp [peq] at h
  | cons a l ih =>
    cases m with
    | nil => simp [peq] at h
    | cons b m =>
      rw [peq, Bool.and_eq_true, S.eq_iff] at h
      simp only [List.map_cons, peval_cons, ih m h.2, h.1]

end Sh

end Halo2.Ext
