import Verif.Inverse.FieldInv
import Verif.Prime.Pocklington
import Mathlib.FieldTheory.Finite.Basic
import Mathlib.NumberTheory.LegendreSymbol.Basic

/-!
# The generated field is a field when the modulus is prime; kernel arithmetic with its elements
-/

set_option linter.unusedSectionVars false

namespace Halo2.Fp

open Halo2.Field Halo2.Prime

theorem zpow_a {M} [Monoid M] [Inv M] (a : M) : zpowRec npowRec 0 a = 1 := rfl

theorem zpow_b {M} [Monoid M] [Inv M] (n : ℕ) (a : M) :
    zpowRec npowRec (n.succ : ℤ) a = zpowRec npowRec (n : ℤ) a * a := rfl

theorem zpow_c {M} [Monoid M] [Inv M] (n : ℕ) (a : M) :
    zpowRec npowRec (Int.negSucc n) a = (zpowRec npowRec (n.succ : ℤ) a)⁻¹ := rfl

variable {p : ℕ} [Fact p.Prime] [hp : Fact (OddModulus p)]

instance : Nontrivial (Fp p) :=
  ⟨⟨0, 1, fun h => by
    have := congrArg toZMod h
    rw [show (0 : Fp p).toZMod = 0 from toZMod_zero, show (1 : Fp p).toZMod = 1 from toZMod_one] at this
    exact zero_ne_one this⟩⟩

theorem mul_invert_getD [SmallModulus p] (a : Fp p) (ha : a ≠ 0) : a * (invert a).getD 0 = 1 := by
  have hz : a.toZMod ≠ 0 := fun h => ha (toZMod_injective (by rw [h]; exact toZMod_zero.symm))
  obtain ⟨b, hb⟩ := toZMod_surjective (p := p) (a.toZMod)⁻¹
  have hab : a * b = 1 := toZMod_injective (by
    change (mul a b).toZMod = (one : Fp p).toZMod
    rw [toZMod_mul, toZMod_one, hb, mul_inv_cancel₀ hz])
  rw [(invert_iff a b).mpr hab]
  exact hab

theorem invert_zero_getD [SmallModulus p] : (invert (0 : Fp p)).getD 0 = 0 := by
  have : invert (0 : Fp p) = none := by
    cases hc : invert (0 : Fp p) with
    | none => rfl
    | some y => rw [invert_iff, zero_mul] at hc; exact absurd hc zero_ne_one
  rw [this]; rfl

/-- `invert`, with the failure case mapped to `0`. -/
@[irreducible] def inv (a : Fp p) : Fp p := (invert a).getD 0

instance : Inv (Fp p) := ⟨inv⟩

theorem inv_def (a : Fp p) : a⁻¹ = (invert a).getD 0 := by
  change inv a = _
  unfold inv; rfl

/-- The field structure; its inverse is the code's `invert`. -/
noncomputable instance instField [SmallModulus p] : _root_.Field (Fp p) where
  toCommRing := instCommRing
  inv := inv
  exists_pair_ne := ⟨0, 1, zero_ne_one⟩
  mul_inv_cancel := fun a ha => by
    have h := mul_invert_getD a ha
    rwa [← inv_def] at h
  inv_zero := by
    have h := invert_zero_getD (p := p)
    rwa [← inv_def] at h
  zpow := zpowRec npowRec
  zpow_zero' := zpow_a
  zpow_succ' := zpow_b
  zpow_neg' := zpow_c
  nnqsmul := _
  nnqsmul_def := fun _ _ => rfl
  qsmul := _
  qsmul_def := fun _ _ => rfl

/-- Fermat. -/
theorem pow_p (a : Fp p) : a ^ p = a := (equiv p).injective (by
  rw [map_pow, ZMod.pow_card])

omit [Fact p.Prime] in
/-- Powers of small constants, by kernel arithmetic. -/
theorem natCast_pow (a e : ℕ) (he : e < 2 ^ 512) : (a : Fp p) ^ e = ((powMod p a e : ℕ) : Fp p) := by
  rw [← Nat.cast_pow, natCast_eq_iff]
  exact (powMod_modEq p a e he).symm

theorem neg_one_ne_one : (-1 : Fp p) ≠ 1 := by
  intro h
  have h2 : ((2 : ℕ) : Fp p) = ((0 : ℕ) : Fp p) := by push_cast; linear_combination -h
  rw [natCast_eq_iff] at h2
  have := hp.out.odd
  have := hp.out.gt
  rw [Nat.zero_mod] at h2
  have : p ∣ 2 := Nat.dvd_of_mod_eq_zero h2
  have := Nat.le_of_dvd (by decide) this
  omega

theorem pow_pred (a : Fp p) (ha : a ≠ 0) : a ^ (p - 1) = 1 := (equiv p).injective (by
  rw [map_pow, map_one]
  apply ZMod.pow_card_sub_one_eq_one
  intro h
  exact ha ((equiv p).injective (by rw [h, map_zero])))

/-- Euler's criterion for a constant, by kernel arithmetic. -/
theorem not_square_of (a : ℕ) (hsz : p < 2 ^ 512) (h : powMod p a ((p - 1) / 2) + 1 = p) :
    ¬ IsSquare ((a : ℕ) : Fp p) := by
  have hm : ((a : ℕ) : Fp p) ^ ((p - 1) / 2) = -1 := by
    rw [natCast_pow a _ (lt_of_le_of_lt (le_trans (Nat.div_le_self _ _) (Nat.sub_le _ _)) hsz)]
    have : ((powMod p a ((p - 1) / 2) + 1 : ℕ) : Fp p) = ((p : ℕ) : Fp p) := by rw [h]
    rw [Nat.cast_add, Nat.cast_one, CharP.cast_eq_zero (Fp p) p] at this
    linear_combination this
  rintro ⟨b, hb⟩
  rw [hb, ← pow_two, ← pow_mul] at hm
  have e : 2 * ((p - 1) / 2) = p - 1 := by have := hp.out.odd; omega
  rw [e] at hm
  by_cases hb0 : b = 0
  · rw [hb0, zero_pow (by have := hp.out.gt; omega)] at hm
    have : (1 : Fp p) = 0 := by linear_combination hm
    exact one_ne_zero this
  · rw [pow_pred b hb0] at hm
    exact neg_one_ne_one hm.symm

theorem not_cube_of (a : ℕ) (hsz : p < 2 ^ 512) (h3 : (p - 1) % 3 = 0) (h0 : a % p ≠ 0)
    (h : powMod p a ((p - 1) / 3) % p ≠ 1) : ∀ b : Fp p, b ^ 3 ≠ ((a : ℕ) : Fp p) := by
  intro b hb
  have hm := natCast_pow (p := p) a ((p - 1) / 3)
    (lt_of_le_of_lt (le_trans (Nat.div_le_self _ _) (Nat.sub_le _ _)) hsz)
  rw [← hb, ← pow_mul, show 3 * ((p - 1) / 3) = p - 1 by omega] at hm
  have hb0 : b ≠ 0 := by
    rintro rfl
    rw [zero_pow (by decide)] at hb
    have : ((0 : ℕ) : Fp p) = ((a : ℕ) : Fp p) := by rw [← hb]; simp
    rw [natCast_eq_iff, Nat.zero_mod] at this
    exact h0 this.symm
  rw [pow_pred b hb0] at hm
  have : ((1 : ℕ) : Fp p) = ((powMod p a ((p - 1) / 3) : ℕ) : Fp p) := by rw [← hm]; simp
  rw [natCast_eq_iff, Nat.mod_eq_of_lt hp.out.gt] at this
  exact h this.symm

/-! ## Constants of the source -/

omit [Fact p.Prime]

/-- `Fq([l0, l1, ..])`: the tuple constructor with Montgomery limbs (the fall-through branch is for
totality; it is never used). -/
def ofMont (l : List ℕ) : Fp p := if h : IsElem p l then ⟨l, h⟩ else 0

/-- `Fq::from_raw([l0, l1, ..])`. -/
def ofRaw (l : List ℕ) : Fp p :=
  if h : l.length = numLimbs p ∧ ∀ x ∈ l, x < 2 ^ 64 then fromRaw l h.1 h.2 else 0

theorem ofMont_eq (l : List ℕ) (h : IsElem p l) (rinv : ℕ) (hr : 2 ^ (64 * numLimbs p) * rinv % p = 1) :
    (ofMont l : Fp p) = ((val l * rinv % p : ℕ) : Fp p) := by
  have h1 := mont_eq (p := p) ⟨l, h⟩
  have h2 : (((2 ^ (64 * numLimbs p) : ℕ) * rinv : ℕ) : Fp p) = ((1 : ℕ) : Fp p) := by
    rw [natCast_eq_iff, hr, Nat.mod_eq_of_lt hp.out.gt]
  have h3 : ((val l * rinv % p : ℕ) : Fp p) = ((val l * rinv : ℕ) : Fp p) := by
    rw [natCast_eq_iff, Nat.mod_mod]
  rw [h3, ofMont, dif_pos h]
  rw [Nat.cast_mul] at h2 ⊢
  rw [← h1, mul_assoc, h2, Nat.cast_one, mul_one]

theorem ofRaw_eq (l : List ℕ) (h : l.length = numLimbs p ∧ ∀ x ∈ l, x < 2 ^ 64) :
    (ofRaw l : Fp p) = ((val l : ℕ) : Fp p) := by
  rw [ofRaw, dif_pos h, fromRaw_eq]

end Halo2.Fp
