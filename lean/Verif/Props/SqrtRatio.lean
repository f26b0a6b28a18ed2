import Verif.Hash.SqrtRatio
import Verif.Props.Consts
import Verif.Ext.Bn256
import Verif.Ext.Bls12381
import Verif.Ext.Pluto

/-!
# Property C63: `sqrt_ratio` and `sqrt_alt`
-/

set_option linter.unusedSectionVars false

namespace Halo2.Props

open Halo2 Halo2.Field Halo2.Ext Halo2.Prime Halo2.Curve Halo2.Hash

section
variable {F : Type} [Field F]

/-- The contract of `ff::Field::sqrt_ratio`, with the non-square `z` (the text calls it `G_S`). -/
structure RatioSpec (z : F) (ratio : F → F → Option (Bool × F)) : Prop where
  /-- the constant is a non-square -/
  nonsquare : ¬ IsSquare z
  /-- no panic -/
  total : ∀ num div, ∃ q r, ratio num div = some (q, r)
  /-- the root of the quotient, if it is a square -/
  square : ∀ num div q r, ratio num div = some (q, r) → num ≠ 0 → div ≠ 0 → IsSquare (num / div) → q = true ∧ r * r = num / div
  /-- a zero numerator -/
  num_zero : ∀ div, ratio 0 div = some (true, 0)
  /-- a zero denominator -/
  div_zero : ∀ num, num ≠ 0 → ratio num 0 = some (false, 0)
  /-- the root of `z` times the quotient otherwise -/
  otherwise : ∀ num div q r, ratio num div = some (q, r) → num ≠ 0 → div ≠ 0 → ¬ IsSquare (num / div) →
    q = false ∧ r * r = z * (num / div)

/-- The contract of `ff::Field::sqrt_alt`. -/
structure AltSpec (z : F) (alt : F → Option (Bool × F)) : Prop where
  total : ∀ a, ∃ q r, alt a = some (q, r)
  square : ∀ a q r, alt a = some (q, r) → (q = true ↔ IsSquare a) ∧ r * r = if q then a else z * a

theorem altSpec_of {z : F} {ratio : F → F → Option (Bool × F)} (h : RatioSpec z ratio) : AltSpec z fun a => ratio a 1 where
  total a := h.total a 1
  square a q r e := by
    by_cases h0 : a = 0
    · subst h0
      have e' : ratio 0 1 = some (q, r) := e
      rw [h.num_zero 1] at e'
      obtain ⟨rfl, rfl⟩ := Prod.mk.inj (Option.some.inj e')
      exact ⟨⟨fun _ => ⟨0, by ring⟩, fun _ => rfl⟩, by rw [if_pos rfl, mul_zero]⟩
    by_cases hs : IsSquare a
    · obtain ⟨rfl, hr⟩ := h.square a 1 q r e h0 one_ne_zero (by rwa [div_one])
      exact ⟨⟨fun _ => hs, fun _ => rfl⟩, by rw [if_pos rfl, hr, div_one]⟩
    · obtain ⟨rfl, hr⟩ := h.otherwise a 1 q r e h0 one_ne_zero (by rwa [div_one])
      exact ⟨⟨fun e => absurd e Bool.false_ne_true, fun e => absurd e hs⟩, by rw [if_neg Bool.false_ne_true, hr, div_one]⟩

variable [DecidableEq F] [BaseField F] [LawfulBase F]

theorem ratioSpec_of {O : HashOps F} (hO : O.Ok) {z : F} (hz : ¬ IsSquare z) : RatioSpec z fun num div => sqrtRatio O num div z where
  nonsquare := hz
  total num div := by
    by_cases hd : div = 0
    · rw [hd]
      exact ⟨_, _, sqrtRatio_zero hO num z⟩
    · obtain ⟨q, r, h, -⟩ := sqrtRatio_spec hO (num := num) hd hz
      exact ⟨q, r, h⟩
  square num div q r h _ hd hs := by
    obtain ⟨q', r', h', e1, e2, -⟩ := sqrtRatio_spec hO (num := num) hd hz
    have h : sqrtRatio O num div z = some (q, r) := h
    rw [h'] at h
    obtain ⟨rfl, rfl⟩ := Prod.mk.inj (Option.some.inj h)
    exact ⟨e1.mpr hs, e2 (e1.mpr hs)⟩
  num_zero div := by
    by_cases hd : div = 0
    · rw [hd]
      exact (sqrtRatio_zero hO 0 z).trans (by rw [decide_eq_true rfl])
    · obtain ⟨q, r, h, e1, e2, -⟩ := sqrtRatio_spec hO (num := 0) hd hz
      have hq : q = true := e1.mpr ⟨0, by rw [zero_div, mul_zero]⟩
      have hr := e2 hq
      rw [zero_div, mul_self_eq_zero] at hr
      exact h.trans (by rw [hq, hr])
  div_zero num hn := (sqrtRatio_zero hO num z).trans (by rw [decide_eq_false hn])
  otherwise num div q r h _ hd hs := by
    obtain ⟨q', r', h', e1, -, e3⟩ := sqrtRatio_spec hO (num := num) hd hz
    have h : sqrtRatio O num div z = some (q, r) := h
    rw [h'] at h
    obtain ⟨rfl, rfl⟩ := Prod.mk.inj (Option.some.inj h)
    have hq : q' = false := by
      rw [← Bool.not_eq_true, e1]
      exact hs
    exact ⟨hq, e3 hq⟩

end

/-- The contract for one prime field. -/
def FieldRatio (p g : ℕ) [Fact (OddModulus p)] [Fact p.Prime] [Fp.SmallModulus p] : Prop :=
  RatioSpec (Fp.rootOfUnity p g) (Fp.sqrtRatio g) ∧ AltSpec (Fp.rootOfUnity p g) (Fp.sqrtAlt g)

theorem fieldRatio_of {p g z : ℕ} [Fact (OddModulus p)] [Fact p.Prime] [Fp.SmallModulus p] (hsz : p < 2 ^ 512) (hc : ConstsSpec p g z)
    (hs : ∀ a : Fp p, (∀ r, Fp.sqrt g a = some r → r * r = a) ∧ (Fp.sqrt g a = none ↔ ¬ IsSquare a)) : FieldRatio p g := by
  have hz : ¬ IsSquare (Fp.rootOfUnity p g) := by
    obtain ⟨t, ht, -, e⟩ := hc.split
    intro h
    have hg0 : Fp.mulGen p g ≠ 0 := by
      intro h0
      exact hc.generator_nonsquare ⟨0, by rw [h0, mul_zero]⟩
    apply hc.generator_nonsquare
    obtain ⟨y, hy⟩ := h
    have e2 : t = 2 * (t / 2) + 1 := by omega
    rw [e, e2, pow_succ, pow_mul] at hy
    refine ⟨y / Fp.mulGen p g ^ (t / 2), ?_⟩
    rw [div_mul_div_comm, ← hy, ← mul_pow, ← pow_two, mul_comm, mul_div_assoc,
      div_self (pow_ne_zero _ (pow_ne_zero _ hg0)), mul_one]
  have h := ratioSpec_of (fpOps_ok p g hsz hs) hz
  exact ⟨h, altSpec_of h⟩

/-- **C63** `sqrt_ratio` and `sqrt_alt` of the ten prime fields satisfy their contract on all arguments and never panic.
Missing from the full property: the extension fields, of which it is false (`C63_extensions_false`). -/
theorem C63_fields_partial :
    FieldRatio bnQ 3 ∧ FieldRatio bnR 7 ∧ FieldRatio blsQ 2 ∧ FieldRatio blsR 7 ∧ FieldRatio plP 10 ∧ FieldRatio plQ 7 ∧
    FieldRatio k1P 3 ∧ FieldRatio k1N 7 ∧ FieldRatio r1P 6 ∧ FieldRatio r1N 7 := by
  obtain ⟨c0, c1, c2, c3, c4, c5, c6, c7, c8, c9⟩ := C12_constants
  obtain ⟨s0, s1, s2, s3, s4, s5, s6, s7, s8, s9⟩ := C11_shipped
  exact ⟨fieldRatio_of (by decide +kernel) c0 s0, fieldRatio_of (by decide +kernel) c1 s1, fieldRatio_of (by decide +kernel) c2 s2,
    fieldRatio_of (by decide +kernel) c3 s3, fieldRatio_of (by decide +kernel) c4 s4, fieldRatio_of (by decide +kernel) c5 s5,
    fieldRatio_of (by decide +kernel) c6 s6, fieldRatio_of (by decide +kernel) c7 s7, fieldRatio_of (by decide +kernel) c8 s8,
    fieldRatio_of (by decide +kernel) c9 s9⟩

/-- **C63** The contract is false of the extension fields: the methods panic on all arguments, so no choice of the constant meets it. -/
theorem C63_extensions_false :
    (∀ z : Bn256.Fq2, ¬ RatioSpec z Quad.sqrtRatio) ∧ (∀ z : Bls12381.Fq2, ¬ RatioSpec z Quad.sqrtRatio) ∧
    (∀ z : Pluto.Fp2, ¬ RatioSpec z Quad.sqrtRatio) ∧ (∀ z : Bn256.Fq6, ¬ RatioSpec z Ext.Cubic.sqrtRatio) ∧
    (∀ z : Bls12381.Fq6, ¬ RatioSpec z Ext.Cubic.sqrtRatio) ∧ (∀ z : Pluto.Fp6, ¬ RatioSpec z Ext.Cubic.sqrtRatio) ∧
    (∀ z : Bn256.Fq12, ¬ RatioSpec z Quad.sqrtRatio) ∧ (∀ z : Bls12381.Fq12, ¬ RatioSpec z Quad.sqrtRatio) ∧
    (∀ z : Pluto.Fp12, ¬ RatioSpec z Quad.sqrtRatio) ∧
    (∀ x : Bn256.Fq2, Quad.sqrtAlt x = none) ∧ (∀ x : Bls12381.Fq2, Quad.sqrtAlt x = none) ∧ (∀ x : Pluto.Fp2, Quad.sqrtAlt x = none) ∧
    (∀ x : Bn256.Fq6, Ext.Cubic.sqrtAlt x = none) ∧ (∀ x : Bls12381.Fq6, Ext.Cubic.sqrtAlt x = none) ∧
    (∀ x : Pluto.Fp6, Ext.Cubic.sqrtAlt x = none) := by
  have key : ∀ {F : Type} [Field F] (z : F) (f : F → F → Option (Bool × F)), f 0 1 = none → ¬ RatioSpec z f := by
    intro F _ z f h hf
    rw [hf.num_zero 1] at h
    exact absurd h (Option.some_ne_none _)
  exact ⟨fun z => key z _ rfl, fun z => key z _ rfl, fun z => key z _ rfl, fun z => key z _ rfl, fun z => key z _ rfl, fun z => key z _ rfl,
    fun z => key z _ rfl, fun z => key z _ rfl, fun z => key z _ rfl, fun _ => rfl, fun _ => rfl, fun _ => rfl, fun _ => rfl,
    fun _ => rfl, fun _ => rfl⟩

/-- Both answers occur in bn256's base field: 4/1, and the generator over 1. -/
example : (∃ r, Fp.sqrtRatio 3 (4 : Fp bnQ) 1 = some (true, r)) ∧ ∃ r, Fp.sqrtRatio 3 (Fp.mulGen bnQ 3) 1 = some (false, r) := by
  obtain ⟨h, -⟩ := C63_fields_partial
  obtain ⟨q, r, e⟩ := h.1.total 4 1
  obtain ⟨q', r', e'⟩ := h.1.total (Fp.mulGen bnQ 3) 1
  have a := (h.2.square 4 q r e).1.mpr ⟨2, by norm_num⟩
  have b : q' = false := by
    rw [← Bool.not_eq_true, (h.2.square _ q' r' e').1]
    exact C12_constants.1.generator_nonsquare
  rw [a] at e
  rw [b] at e'
  exact ⟨⟨r, e⟩, r', e'⟩

end Halo2.Props
