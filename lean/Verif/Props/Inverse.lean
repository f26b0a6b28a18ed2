import Verif.Inverse.FieldInv
import Verif.Props.FieldArith
import Mathlib.Data.ZMod.Basic
import Mathlib.FieldTheory.Finite.Basic

/-!
# C09: inversion

`fieldInvert p a` is the Bernstein-Yang inverter as the macro sets it up (signed 62-bit chunks, the
low-word division-step loop, lazy reduction of the cofactors, final normalisation), on the limbs of
a field element. `Outcome.done r` says that the `while` loop ends within `fuelBound p` rounds and
the returned option is `r`.
-/

namespace Halo2.Props

open Halo2 Halo2.Field Halo2.Inverse

/-- **C09** For every odd modulus (prime or not, of at most `2^20` bits) and every element: if the
element has an inverse `y`, the inverter terminates and returns the limbs of `y`; if it has none,
the inverter terminates and returns `None`. -/
theorem C09_invert (p : ℕ) (hp : OddModulus p) (hs : numBits p ≤ 2 ^ 20) (a : List ℕ) (x : ZMod p)
    (ha : Rep p a x) :
    (∀ y, x * y = 1 → ∃ b, fieldInvert p a = .done (some b) ∧ Rep p b y) ∧
    ((∀ y, x * y ≠ 1) → fieldInvert p a = .done none) := fieldInvert_spec hp hs ha

/-- **C09** for a prime modulus: zero has no inverse, every other element has one, and it is the
field inverse. -/
theorem C09_invert_prime (p : ℕ) [Fact p.Prime] (hp2 : p ≠ 2) (hs : numBits p ≤ 2 ^ 20) (a : List ℕ)
    (x : ZMod p) (ha : Rep p a x) :
    (x = 0 → fieldInvert p a = .done none) ∧
    (x ≠ 0 → ∃ b, fieldInvert p a = .done (some b) ∧ Rep p b x⁻¹) := by
  have hpr : p.Prime := Fact.out
  have hp : OddModulus p := ⟨by
    rcases hpr.eq_two_or_odd with h | h
    · exact absurd h hp2
    · exact h, hpr.one_lt⟩
  obtain ⟨h1, h2⟩ := fieldInvert_spec hp hs ha
  constructor
  · rintro rfl
    exact h2 (fun y => by rw [zero_mul]; exact zero_ne_one)
  · intro hx
    exact h1 _ (mul_inv_cancel₀ hx)

/-- **C09** The result is the same option for equal field elements and nothing else is returned:
`invert a = some b` exactly when `a * b = 1`. -/
theorem C09_invert_iff (p : ℕ) [Fact (OddModulus p)] [Fp.SmallModulus p] (a b : Fp p) :
    Fp.invert a = some b ↔ a * b = 1 := Fp.invert_iff a b

theorem byConstantLoop_least (p fuel c : ℕ) : ∀ c', c ≤ c' → p < 2 ^ (62 * c' - 64) → byConstantLoop p fuel c ≤ c' := by
  induction fuel generalizing c with
  | zero => exact fun c' h _ => h
  | succ fuel ih =>
    intro c' h1 h2
    rw [byConstantLoop]
    split
    · exact h1
    · rename_i h
      refine ih (c + 1) c' ?_ h2
      rcases Nat.lt_or_eq_of_le h1 with h1 | rfl
      · exact h1
      · exact absurd h2 h

/-- **C09** The number of 62-bit chunks that the macro chooses for a modulus is the least that the inverter allows for it: `p < 2^(62 L - 64)`,
and for no smaller `L` from `2` on. -/
theorem C09_width (p : ℕ) :
    2 ≤ byConstant p ∧ p < 2 ^ (62 * byConstant p - 64) ∧ ∀ L, 2 ≤ L → p < 2 ^ (62 * L - 64) → byConstant p ≤ L :=
  ⟨(byConstant_spec p).1, (byConstant_spec p).2, fun L h1 h2 => byConstantLoop_least p _ 2 L h1 h2⟩

/-- One is its own inverse, through the inverter. -/
example : ∃ b, fieldInvert k1p (Field.one k1p) = .done (some b) ∧ Rep k1p b 1 :=
  (C09_invert k1p k1p_odd (by decide +kernel) _ 1 (rep_one k1p_odd)).1 1 (one_mul 1)

/-- Zero has no inverse. -/
example : fieldInvert k1p (Field.zero k1p) = .done none :=
  (C09_invert k1p k1p_odd (by decide +kernel) _ 0 (rep_zero k1p_odd)).2 (fun y h => by
    rw [zero_mul] at h
    have : (0 : ZMod k1p) ≠ 1 := by
      have : Fact (1 < k1p) := ⟨k1p_odd.gt⟩
      exact zero_ne_one
    exact this h)

/-- Two is a unit: its inverse is `(p + 1) / 2`. -/
example : ∃ b, fieldInvert k1p (Field.double k1p (Field.one k1p)) = .done (some b) ∧
    Rep k1p b (((k1p + 1) / 2 : ℕ) : ZMod k1p) := by
  have h := rep_double (rep_one k1p_odd)
  refine (C09_invert k1p k1p_odd (by decide +kernel) _ _ h).1 _ ?_
  have : ((2 * ((k1p + 1) / 2) : ℕ) : ZMod k1p) = ((k1p + 1 : ℕ) : ZMod k1p) := by
    congr 1; have := k1p_odd.odd; omega
  push_cast at this
  rw [mul_one, this]
  simp

/-- The instances exist, and `-1` is its own inverse in the generated type. -/
example : ∃ (_ : Fact (OddModulus k1p)) (_ : Fp.SmallModulus k1p),
    Fp.invert (-1 : Fp k1p) = some (-1) :=
  let i : Fact (OddModulus k1p) := ⟨k1p_odd⟩
  let j : Fp.SmallModulus k1p := ⟨by decide +kernel⟩
  ⟨i, j, (C09_invert_iff k1p (-1) (-1)).mpr (by ring)⟩

end Halo2.Props
