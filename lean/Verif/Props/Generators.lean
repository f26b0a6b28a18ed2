import Verif.Prime.Generators
import Verif.Props.Consts
import Mathlib.GroupTheory.SpecificGroups.Cyclic

/-!
# Property C57: multiplicative generators and cosets
-/

set_option linter.unusedSectionVars false
set_option maxRecDepth 100000

namespace Halo2.Props

open Halo2 Halo2.Field Halo2.Ext Halo2.Prime

/-- The claims about `MULTIPLICATIVE_GENERATOR`, `DELTA`, `ROOT_OF_UNITY` and `S` of one field. -/
structure GeneratorSpec (p g : ℕ) [Fact p.Prime] [Fact (OddModulus p)] : Prop where
  /-- `MULTIPLICATIVE_GENERATOR` has order `p - 1`. -/
  order : orderOf (Fp.mulGen p g) = p - 1
  /-- Every non-zero element is exactly one of its powers. -/
  generates : ∀ x : Fp p, x ≠ 0 → ∃! k, k < p - 1 ∧ Fp.mulGen p g ^ k = x
  /-- `DELTA` has the odd part of `p - 1` as its order. -/
  delta_order : 2 ^ Fp.macroS p * orderOf (Fp.delta p g) = p - 1 ∧ orderOf (Fp.delta p g) % 2 = 1
  /-- The cosets `DELTA^i H` of the group `H` of the `2^S`-th roots of unity are disjoint and cover everything: every non-zero
  element is `DELTA^i ROOT_OF_UNITY^a` for exactly one pair of exponents. -/
  cosets : ∀ x : Fp p, x ≠ 0 → ∃! e : ℕ × ℕ, e.1 < orderOf (Fp.delta p g) ∧ e.2 < 2 ^ Fp.macroS p ∧
    Fp.delta p g ^ e.1 * Fp.rootOfUnity p g ^ e.2 = x

theorem generatorSpec_of {p g z : ℕ} [hp : Fact p.Prime] [ho : Fact (OddModulus p)] [Fp.SmallModulus p] (hC : ConstsSpec p g z) (fac : List (ℕ × ℕ))
    (h : checkGen p g fac = true) : GeneratorSpec p g := by
  have hcard : Nat.card (Fp p)ˣ = p - 1 := by
    rw [Nat.card_congr (Units.mapEquiv (Fp.equiv p).toMulEquiv).toEquiv, Nat.card_eq_fintype_card, ZMod.card_units]
  have hfin : Finite (Fp p)ˣ := Finite.of_equiv _ (Units.mapEquiv (Fp.equiv p).toMulEquiv).toEquiv.symm
  have hp2 := hp.out.two_le
  have hg0 : Fp.mulGen p g ≠ 0 := by
    intro e
    exact hC.generator_nonsquare (by rw [e]; exact ⟨0, by ring⟩)
  have hord : orderOf (Units.mk0 _ hg0) = p - 1 := by
    refine orderOf_eq_of_pow_and_pow_div_prime (by omega) ?_ ?_
    · rw [← hcard]; exact pow_card_eq_one'
    · intro q hq hd e
      refine checkGen_spec h q hq hd ?_
      have e1 : Fp.mulGen p g ^ ((p - 1) / q) = 1 := by
        have := congrArg Units.val e
        rwa [Units.val_pow_eq_pow_val, Units.val_mk0, Units.val_one] at this
      rw [hC.generator, ← Nat.cast_pow] at e1
      exact (Fp.natCast_eq_iff _ _).mp (e1.trans Nat.cast_one.symm)
  have hgen (u : (Fp p)ˣ) : ∃ k, k < p - 1 ∧ Units.mk0 _ hg0 ^ k = u := by
    have htop : Subgroup.zpowers (Units.mk0 _ hg0) = ⊤ :=
      Subgroup.eq_top_of_card_eq _ (by rw [Nat.card_zpowers, hord, hcard])
    have hu : u ∈ Subgroup.zpowers (Units.mk0 _ hg0) := by rw [htop]; exact Subgroup.mem_top u
    rw [← mem_powers_iff_mem_zpowers] at hu
    obtain ⟨k, hk⟩ := hu
    refine ⟨k % (p - 1), Nat.mod_lt _ (by omega), ?_⟩
    rw [← hord, pow_mod_orderOf]
    exact hk
  have hord' : orderOf (Fp.mulGen p g) = p - 1 := by
    rw [← hord, ← orderOf_units, Units.val_mk0]
  obtain ⟨t, ht, hst, hroot⟩ := hC.split
  have htpos : 0 < t := by omega
  have hApos : 0 < 2 ^ Fp.macroS p := Nat.pow_pos (by decide)
  have hcop : Nat.Coprime (2 ^ Fp.macroS p) t := Nat.Coprime.pow_left _ ((Nat.coprime_two_left).mpr (Nat.odd_iff.mpr ht))
  have hdo : orderOf (Fp.delta p g) = t := by
    rw [hC.delta, orderOf_pow' _ hApos.ne', hord', ← hst, Nat.gcd_mul_right_left, Nat.mul_div_cancel_left _ hApos]
  refine ⟨hord', fun x hx => ?_, ⟨by rw [hdo]; exact hst, by rw [hdo]; exact ht⟩, fun x hx => ?_⟩
  · obtain ⟨k, hk, e⟩ := hgen (Units.mk0 x hx)
    have e1 : Fp.mulGen p g ^ k = x := by
      have := congrArg Units.val e
      rwa [Units.val_pow_eq_pow_val, Units.val_mk0, Units.val_mk0] at this
    refine ⟨k, ⟨hk, e1⟩, ?_⟩
    rintro j ⟨hj, e2⟩
    exact pow_injOn_Iio_orderOf (Set.mem_Iio.mpr (by rw [hord']; exact hj)) (Set.mem_Iio.mpr (by rw [hord']; exact hk))
      (e2.trans e1.symm)
  · obtain ⟨k, hk, e⟩ := hgen (Units.mk0 x hx)
    rw [hdo]
    have hv (i a : ℕ) : (((Units.mk0 _ hg0 ^ 2 ^ Fp.macroS p) ^ i * (Units.mk0 _ hg0 ^ t) ^ a : (Fp p)ˣ) : Fp p) =
        Fp.delta p g ^ i * Fp.rootOfUnity p g ^ a := by
      rw [hC.delta, hroot]
      simp only [Units.val_mul, Units.val_pow_eq_pow_val, Units.val_mk0]
    obtain ⟨i, a, hi, ha, e3⟩ := coset_surj hApos htpos hcop (hord.trans hst.symm) k
    refine ⟨(i, a), ⟨hi, ha, ?_⟩, ?_⟩
    · rw [← hv, ← e3, e, Units.val_mk0]
    · rintro ⟨j, b⟩ ⟨hj, hb, e4⟩
      have e5 : (Units.mk0 _ hg0 ^ 2 ^ Fp.macroS p) ^ j * (Units.mk0 _ hg0 ^ t) ^ b =
          (Units.mk0 _ hg0 ^ 2 ^ Fp.macroS p) ^ i * (Units.mk0 _ hg0 ^ t) ^ a := by
        rw [← e3, e]
        ext
        rw [hv, Units.val_mk0]
        exact e4
      obtain ⟨h1, h2⟩ := coset_inj hcop (hord.trans hst.symm) hj hi hb ha e5
      exact Prod.ext h1 h2

/-- **C57** In each of the ten fields, `MULTIPLICATIVE_GENERATOR` generates the multiplicative group, and the powers of `DELTA`
represent each coset of the group of `2^S`-th roots of unity exactly once. -/
theorem C57_generators :
    GeneratorSpec bnQ 3 ∧ GeneratorSpec bnR 7 ∧ GeneratorSpec blsQ 2 ∧ GeneratorSpec blsR 7 ∧ GeneratorSpec plP 10 ∧
    GeneratorSpec plQ 7 ∧ GeneratorSpec k1P 3 ∧ GeneratorSpec k1N 7 ∧ GeneratorSpec r1P 6 ∧ GeneratorSpec r1N 7 := by
  obtain ⟨h1, h2, h3, h4, h5, h6, h7, h8, h9, h10⟩ := C12_constants
  exact ⟨generatorSpec_of h1 bnQFac (by decide +kernel), generatorSpec_of h2 bnRFac (by decide +kernel),
    generatorSpec_of h3 blsQFac (by decide +kernel), generatorSpec_of h4 blsRFac (by decide +kernel),
    generatorSpec_of h5 plPFac (by decide +kernel), generatorSpec_of h6 plQFac (by decide +kernel),
    generatorSpec_of h7 k1PFac (by decide +kernel), generatorSpec_of h8 k1NFac (by decide +kernel),
    generatorSpec_of h9 r1PFac (by decide +kernel), generatorSpec_of h10 r1NFac (by decide +kernel)⟩

end Halo2.Props
