import Verif.Jacobi.Main
import Verif.Field.FpField
import Mathlib.NumberTheory.LegendreSymbol.Basic

/-!
# `legendre` of the generated prime fields
-/

namespace Halo2.Jacobi

open Halo2.Field

theorem jacobiConstLoop_spec (p : ℕ) (fuel c : ℕ) (hc : 1 ≤ c)
    (hf : Nat.size p + 1 ≤ c + fuel) : 1 ≤ jacobiConstLoop p fuel c ∧
      p < 2 ^ (64 * jacobiConstLoop p fuel c - 31) := by
  induction fuel generalizing c with
  | zero =>
    rw [jacobiConstLoop]
    refine ⟨hc, lt_of_lt_of_le (Nat.lt_size_self p) (Nat.pow_le_pow_right (by decide) (by omega))⟩
  | succ fuel ih =>
    rw [jacobiConstLoop]
    split
    · rename_i h; exact ⟨hc, h⟩
    · exact ih (c + 1) (by omega) (by omega)

theorem jacobiConst_spec (p : ℕ) : 1 ≤ jacobiConst p ∧ p < 2 ^ (64 * jacobiConst p - 31) :=
  jacobiConstLoop_spec p _ 1 (le_refl _) (by omega)

theorem numLimbs_le_jacobiConst (p : ℕ) : numLimbs p ≤ jacobiConst p := by
  obtain ⟨h1, h2⟩ := jacobiConst_spec p
  have h3 : Nat.size p ≤ 64 * jacobiConst p - 31 := Nat.size_le.mpr h2
  unfold numLimbs numBits
  omega

end Halo2.Jacobi

namespace Halo2.Fp

open Halo2.Field Halo2.Jacobi

/-- `legendre`, the result of `jacobi`; `none` is a panic or a diverging loop.
Models derive/src/field/mod.rs:353-355 and src/ff_ext/mod.rs:27-32. -/
def legendre {p : ℕ} (a : Fp p) : Option ℤ := jacobi (jacobiConst p) a.limbs (modulusLimbs p)

/-- Models src/ff_ext/mod.rs:11-13. -/
def ctNonResidue {p : ℕ} (a : Fp p) : Bool := legendre a == some (-1)

/-- Models src/ff_ext/mod.rs:16-21. -/
def ctResidue {p : ℕ} (a : Fp p) : Bool := legendre a != some (-1)

variable {p : ℕ} [hp : Fact p.Prime] [ho : Fact (OddModulus p)]

omit hp in
theorem legendre_eq (a : Fp p) : legendre a = some (jacobiSym (val a.limbs) p) := by
  unfold legendre
  obtain ⟨h1, h2⟩ := jacobiConst_spec p
  have h := jacobi_spec h1 (n := a.limbs) (d := modulusLimbs p) a.elem.wf (modulusLimbs_wf p)
    (by rw [a.elem.len]; exact numLimbs_le_jacobiConst p)
    (by rw [modulusLimbs_length]; exact numLimbs_le_jacobiConst p)
    (lt_trans a.elem.lt h2) (by rw [val_modulusLimbs]; exact h2)
    (by rw [val_modulusLimbs]; exact ho.out.odd)
  rw [h, val_modulusLimbs]

theorem two_unit : (2 : ZMod p) ≠ 0 := by
  intro h
  have h2 : ((2 : ℕ) : ZMod p) = 0 := by exact_mod_cast h
  rw [ZMod.natCast_eq_zero_iff] at h2
  have := ho.out.odd
  have := Nat.le_of_dvd (by norm_num) h2
  have := hp.out.two_le
  have : p = 2 := by omega
  omega

theorem isSquare_toZMod (a : Fp p) : IsSquare a.toZMod ↔ IsSquare a := by
  constructor
  · rintro ⟨y, hy⟩
    obtain ⟨b, rfl⟩ := toZMod_surjective y
    exact ⟨b, toZMod_injective (by rw [hy]; exact (toZMod_mul b b).symm)⟩
  · rintro ⟨b, rfl⟩
    exact ⟨b.toZMod, toZMod_mul b b⟩

theorem toZMod_eq_zero (a : Fp p) : a.toZMod = 0 ↔ a = 0 := by
  constructor
  · intro h; exact toZMod_injective (by rw [h]; exact toZMod_zero.symm)
  · rintro rfl; exact toZMod_zero

theorem legendre_spec (a : Fp p) :
    (legendre a = some 0 ↔ a = 0) ∧ (legendre a = some 1 ↔ a ≠ 0 ∧ IsSquare a) ∧
      (legendre a = some (-1) ↔ ¬ IsSquare a) := by
  rw [legendre_eq, ← jacobiSym.legendreSym.to_jacobiSym]
  have e : ((val a.limbs : ℤ) : ZMod p) = a.toZMod * 2 ^ (64 * numLimbs p) := by
    have := a.rep.eq
    push_cast
    exact this
  have hpow : (2 : ZMod p) ^ (64 * numLimbs p) = (2 ^ (32 * numLimbs p)) ^ 2 := by
    rw [← pow_mul]; congr 1; ring
  have hne : (2 : ZMod p) ^ (32 * numLimbs p) ≠ 0 := pow_ne_zero _ two_unit
  have hz : ((val a.limbs : ℤ) : ZMod p) = 0 ↔ a = 0 := by
    rw [e, mul_eq_zero, or_iff_left (pow_ne_zero _ two_unit), toZMod_eq_zero]
  have hsq : IsSquare ((val a.limbs : ℤ) : ZMod p) ↔ IsSquare a := by
    rw [e, hpow, ← isSquare_toZMod]
    constructor
    · rintro ⟨y, hy⟩
      refine ⟨y / 2 ^ (32 * numLimbs p), ?_⟩
      field_simp
      rw [hy]; ring
    · rintro ⟨y, hy⟩
      exact ⟨y * 2 ^ (32 * numLimbs p), by rw [hy]; ring⟩
  rw [Option.some.injEq, Option.some.injEq, Option.some.injEq, legendreSym.eq_zero_iff,
    legendreSym.eq_neg_one_iff, hz, hsq]
  refine ⟨Iff.rfl, ?_, Iff.rfl⟩
  by_cases ha : a = 0
  · have : legendreSym p (val a.limbs) = 0 := (legendreSym.eq_zero_iff p _).mpr (hz.mpr ha)
    rw [this]
    simp [ha]
  · rw [legendreSym.eq_one_iff p (fun h => ha (hz.mp h)), hsq]
    simp [ha]

theorem legendre_cases (a : Fp p) :
    legendre a = some 0 ∨ legendre a = some 1 ∨ legendre a = some (-1) := by
  rw [legendre_eq]
  rcases jacobiSym.trichotomy (val a.limbs) p with h | h | h <;> rw [h] <;> simp

end Halo2.Fp
