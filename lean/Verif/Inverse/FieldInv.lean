import Verif.Inverse.Invert
import Verif.Field.Fp

/-!
# `invert` of the generated fields
-/

namespace Halo2.Inverse

open Halo2.Field

theorem field_terminates {p : ℕ} (hp : OddModulus p) (x : ℕ) (hx : x < p) :
    (divstep^[62 * fuelBound p] ⟨1, p, (x : ℤ)⟩).g = 0 := by
  have hb : p ≤ 2 ^ numBits p := (Nat.lt_size_self p).le
  have hpz : (p : ℤ) ≤ 2 ^ numBits p := by exact_mod_cast hb
  have hxz : (x : ℤ) < p := by exact_mod_cast hx
  apply terminates_bound (numBits p)
  · have := hp.odd; omega
  · rw [abs_of_nonneg (by positivity)]; exact hpz
  · rw [abs_of_nonneg (by positivity)]; omega
  · unfold fuelBound
    nlinarith

theorem field_fuel {p : ℕ} (hs : numBits p ≤ 2 ^ 20) : 62 * fuelBound p + 1 ≤ 2 ^ 62 := by
  unfold fuelBound
  have : (4 * numBits p + 8) * (4 * numBits p + 8) ≤ (4 * 2 ^ 20 + 8) * (4 * 2 ^ 20 + 8) :=
    Nat.mul_le_mul (by omega) (by omega)
  norm_num at *
  omega

theorem fieldInvert_spec {p : ℕ} (hp : OddModulus p) (hs : numBits p ≤ 2 ^ 20) {a : List ℕ}
    {x : ZMod p} (ha : Rep p a x) :
    (∀ y, x * y = 1 → ∃ b, fieldInvert p a = .done (some b) ∧ Rep p b y) ∧
    ((∀ y, x * y ≠ 1) → fieldInvert p a = .done none) := by
  have hw : CWf 64 a := ha.elem.wf
  have hv : uval 64 a = val a := uval_eq_val a
  have hlt : uval 64 a < p := by rw [hv]; exact ha.elem.lt
  obtain ⟨h1, h2⟩ := invert_spec (S := numLimbs p) (setup_of_field hp)
    (by have := modulus_lt p; rw [W_pow] at this; exact this) (fuelBound p) a hw hlt (field_fuel hs)
    (by rw [hv]; exact field_terminates hp _ ha.elem.lt)
  rw [hv] at h1 h2
  have hR : IsUnit ((2 : ZMod p) ^ (64 * numLimbs p)) := by
    apply IsUnit.pow
    have := (ZMod.isUnit_iff_coprime 2 p).mpr (by
      rw [Nat.coprime_two_left, Nat.odd_iff]; exact hp.odd)
    exact_mod_cast this
  have hunit : Nat.gcd p (val a) = 1 ↔ ∃ y, x * y = 1 := by
    rw [← isUnit_iff_exists_inv, Nat.gcd_comm]
    have h3 := ZMod.isUnit_iff_coprime (val a) p
    rw [ha.eq, IsUnit.mul_iff] at h3
    constructor
    · intro h; exact (h3.mpr h).1
    · intro h; exact h3.mp ⟨h, hR⟩
  constructor
  · intro y hy
    obtain ⟨b, e, b1, b2, b3, b4⟩ := h2 (hunit.mpr ⟨y, hy⟩)
    refine ⟨b, e, ⟨b1, b2, by rw [← uval_eq_val]; exact b3⟩, ?_⟩
    have h5 : (((uval 64 b * val a - val (R2 p) : ℤ)) : ZMod p) = 0 :=
      (ZMod.intCast_zmod_eq_zero_iff_dvd _ p).mpr b4
    push_cast at h5
    rw [uval_eq_val, ha.eq, (rep_R2 hp).eq, sub_eq_zero] at h5
    have h6 : (val b : ZMod p) * x = 2 ^ (64 * numLimbs p) := by
      apply hR.mul_right_cancel
      linear_combination h5
    calc (val b : ZMod p) = (val b : ZMod p) * (x * y) := by rw [hy, mul_one]
      _ = y * (val b * x) := by ring
      _ = _ := by rw [h6]
  · intro hn
    exact h1 (fun h => by obtain ⟨y, hy⟩ := hunit.mp h; exact hn y hy)

end Halo2.Inverse

namespace Halo2.Fp

open Halo2.Field Halo2.Inverse

instance (p : ℕ) (b : List ℕ) : Decidable (IsElem p b) :=
  decidable_of_iff (b.length = numLimbs p ∧ (∀ x ∈ b, x < 2 ^ 64) ∧ val b < p)
    ⟨fun h => ⟨h.1, h.2.1, h.2.2⟩, fun h => ⟨h.len, h.wf, h.lt⟩⟩

/-- The `CtOption` returned by `invert`. The two fall-through branches are not taken
(`invert_iff`, which determines the result completely). -/
@[irreducible] def invert {p : ℕ} (a : Fp p) : Option (Fp p) :=
  match fieldInvert p a.limbs with
  | .done (some b) => if h : IsElem p b then some ⟨b, h⟩ else none
  | _ => none

/-- The size of the modulus fits the inverter's step counter. Every modulus of the library has at
most 446 bits. -/
class SmallModulus (p : ℕ) : Prop where
  small : numBits p ≤ 2 ^ 20

theorem invert_iff {p : ℕ} [hp : Fact (OddModulus p)] [hs : SmallModulus p] (a b : Fp p) :
    invert a = some b ↔ a * b = 1 := by
  have hmul : a * b = 1 ↔ a.toZMod * b.toZMod = 1 := by
    rw [← toZMod_mul, ← toZMod_one (p := p)]
    exact ⟨fun h => congrArg toZMod h, fun h => toZMod_injective h⟩
  rw [hmul]
  obtain ⟨h1, h2⟩ := fieldInvert_spec hp.out hs.small a.rep
  by_cases hex : ∃ y, a.toZMod * y = 1
  · obtain ⟨y, hy⟩ := hex
    obtain ⟨c, hc, rc⟩ := h1 y hy
    have : invert a = some ⟨c, rc.elem⟩ := by
      unfold invert
      rw [hc]
      exact dif_pos rc.elem
    rw [this, Option.some.injEq]
    constructor
    · intro hb
      rw [← hb, toZMod_eq (a := ⟨c, rc.elem⟩) rc]; exact hy
    · intro hb
      have hby : b.toZMod = y := by
        calc b.toZMod = b.toZMod * (a.toZMod * y) := by rw [hy, mul_one]
          _ = (a.toZMod * b.toZMod) * y := by ring
          _ = y := by rw [hb, one_mul]
      apply toZMod_injective
      rw [toZMod_eq (a := ⟨c, rc.elem⟩) rc, hby]
  · have hn : ∀ y, a.toZMod * y ≠ 1 := fun y hy => hex ⟨y, hy⟩
    have : invert a = none := by unfold invert; rw [h2 hn]
    rw [this]
    simp [hn b.toZMod]

end Halo2.Fp
