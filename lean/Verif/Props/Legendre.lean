import Verif.Jacobi.Field
import Verif.Props.Ext2

/-!
# C10 (and the Legendre part of C19): quadratic residuosity
-/

set_option linter.unusedSectionVars false

namespace Halo2.Props

open Halo2 Halo2.Ext Halo2.Field Halo2.Prime Halo2.Jacobi ExtField

/-- **C10** `jacobi::<L>(n, d)` terminates without panicking and returns the Jacobi symbol `(n / d)`, for
all numbers below `2^(64 L - 31)` given by at most `L` words and every odd `d` (prime or not). -/
theorem C10_jacobi (L : ℕ) (n d : List ℕ) (hn : ∀ x ∈ n, x < 2 ^ 64) (hd : ∀ x ∈ d, x < 2 ^ 64)
    (ln : n.length ≤ L) (ld : d.length ≤ L) (nb : val n < 2 ^ (64 * L - 31))
    (db : val d < 2 ^ (64 * L - 31)) (odd : val d % 2 = 1) :
    jacobi L n d = some (jacobiSym (val n) (val d)) := by
  have hL : 0 < L := by
    rcases Nat.eq_zero_or_pos L with rfl | h
    · have : d = [] := by simpa using ld
      subst this
      simp at odd
    · exact h
  exact jacobi_spec hL hn hd ln ld nb db odd

/-- The hypotheses of `C10_jacobi` hold for a computation with several outer rounds:
`(2^128 + 1 / 2^129 + 3)` with `L = 3`. -/
example : jacobi 3 [1, 0, 1] [3, 0, 2] = some (jacobiSym (2 ^ 128 + 1) (2 ^ 129 + 3)) := by
  rw [C10_jacobi 3 [1, 0, 1] [3, 0, 2] (by decide) (by decide) (by decide) (by decide) (by decide)
    (by decide) (by decide)]
  norm_num [val, W]

/-- The value of that computation: the model evaluates. -/
example : jacobi 3 [1, 0, 1] [3, 0, 2] = some 1 := by decide +kernel

theorem jacobiConstLoop_least (p fuel c : ℕ) : ∀ c', c ≤ c' → p < 2 ^ (64 * c' - 31) → jacobiConstLoop p fuel c ≤ c' := by
  induction fuel generalizing c with
  | zero => exact fun c' h _ => h
  | succ fuel ih =>
    intro c' h1 h2
    rw [jacobiConstLoop]
    split
    · exact h1
    · rename_i h
      refine ih (c + 1) c' ?_ h2
      rcases Nat.lt_or_eq_of_le h1 with h1 | rfl
      · exact h1
      · exact absurd h2 h

/-- **C10** The width that the macro chooses for a modulus is the least that `jacobi` allows for it: the modulus is below `2^(64 L - 31)`, and
for no smaller positive `L`. -/
theorem C10_width (p : ℕ) :
    1 ≤ jacobiConst p ∧ p < 2 ^ (64 * jacobiConst p - 31) ∧ ∀ L, 1 ≤ L → p < 2 ^ (64 * L - 31) → jacobiConst p ≤ L :=
  ⟨(jacobiConst_spec p).1, (jacobiConst_spec p).2, fun L h1 h2 => jacobiConstLoop_least p _ 1 L h1 h2⟩

/-- **C10** `legendre` of a generated prime field, for every odd prime modulus: it always returns (no
panic, no divergence), `0` exactly for zero, `1` exactly for the non-zero squares and `-1` exactly
for the non-squares, although it is computed on the Montgomery limbs. -/
theorem C10_legendre (p : ℕ) [Fact p.Prime] [Fact (OddModulus p)] (a : Fp p) :
    (Fp.legendre a = some 0 ∨ Fp.legendre a = some 1 ∨ Fp.legendre a = some (-1)) ∧
    (Fp.legendre a = some 0 ↔ a = 0) ∧ (Fp.legendre a = some 1 ↔ a ≠ 0 ∧ IsSquare a) ∧
      (Fp.legendre a = some (-1) ↔ ¬ IsSquare a) :=
  ⟨Fp.legendre_cases a, Fp.legendre_spec a⟩

/-- **C10** The derived predicates: `ct_quadratic_non_residue` is true exactly for non-squares and
`ct_quadratic_residue` exactly for squares (zero included). -/
theorem C10_residue (p : ℕ) [Fact p.Prime] [Fact (OddModulus p)] (a : Fp p) :
    (Fp.ctNonResidue a = true ↔ ¬ IsSquare a) ∧ (Fp.ctResidue a = true ↔ IsSquare a) := by
  have h := (Fp.legendre_spec a).2.2
  unfold Fp.ctNonResidue Fp.ctResidue
  constructor
  · rw [beq_iff_eq, h]
  · rw [bne_iff_ne, ne_eq, h, not_not]

/-- The three values occur in bn256's base field. -/
example : Fp.legendre (0 : Fp bnQ) = some 0 ∧ Fp.legendre (4 : Fp bnQ) = some 1 ∧
    Fp.legendre (Fp.mulGen bnQ 3) = some (-1) := by
  refine ⟨((C10_legendre bnQ 0).2.1).mpr rfl, ((C10_legendre bnQ 4).2.2.1).mpr ⟨?_, 2, by norm_num⟩,
    ((C10_legendre bnQ _).2.2.2).mpr C12_constants.1.generator_nonsquare⟩
  have h2 := Fp.two_ne_zero (p := bnQ)
  have : (4 : Fp bnQ) = 2 * 2 := by norm_num
  rw [this]
  exact mul_ne_zero h2 h2

/-- What the comment of `approximate` promises (src/ff_ext/jacobi.rs:251-262): with `n > 64` the bit
length of the larger number, the approximation of `v` is `(v div 2^(n-32)) * 2^32 + v mod 2^32`. -/
def C10_approximate_claim : Prop :=
  ∀ (L : ℕ) (x y : List ℕ), x.length = L → y.length = L → (∀ w ∈ x, w < 2 ^ 64) → (∀ w ∈ y, w < 2 ^ 64) →
    64 < max (Nat.size (val x)) (Nat.size (val y)) →
    ∃ b, approximate L x y =
      some (val x / 2 ^ (max (Nat.size (val x)) (Nat.size (val y)) - 32) * 2 ^ 32 + val x % 2 ^ 32, b, false)

/-- **The documented approximation is not what is computed**: for a shift above 32 the next word is
shifted by `z` instead of `64 - z`, so its bits are lost. With `x = 2^64 + 2^63`, `y = 1` the code
yields `2^63` instead of `2^63 + 2^62`. `C10_jacobi` shows that the returned symbol and termination
are not affected. -/
theorem C10_approximate_false : ¬ C10_approximate_claim := by
  intro h
  obtain ⟨b, hb⟩ := h 2 [2 ^ 63, 1] [1, 0] rfl rfl (by decide) (by decide) (by decide +kernel)
  have h1 : approximate 2 [2 ^ 63, 1] [1, 0] = some (2 ^ 63, 1, false) := by decide +kernel
  rw [h1] at hb
  have h2 : (2 ^ 63 : ℕ) = val [2 ^ 63, 1] / 2 ^ (max (Nat.size (val [2 ^ 63, 1])) (Nat.size (val [1, 0])) - 32) * 2 ^ 32
      + val [2 ^ 63, 1] % 2 ^ 32 :=
    (Prod.mk.inj (Option.some.inj hb)).1
  exact absurd h2 (by decide +kernel)

/-! ## C19: `legendre` of the quadratic extensions -/

/-- `legendre` of a quadratic extension. Models src/derive/field/tower.rs:87-91. -/
def legendre2 {p : ℕ} [Fact (OddModulus p)] [ExtField (Fp p)] (x : Quad (Fp p)) : Option ℤ :=
  Fp.legendre (Quad.norm x)

theorem norm_eq_zero_iff {F : Type} [Field F] [ExtField F] [LawfulExt F]
    (hns : ¬ IsSquare (nonRes : F)) (x : Quad F) : Quad.norm x = 0 ↔ x.c0 = 0 ∧ x.c1 = 0 := by
  rw [Quad.norm_eq]
  constructor
  · intro h
    by_cases h1 : x.c1 = 0
    · rw [h1] at h
      refine ⟨?_, h1⟩
      have : x.c0 * x.c0 = 0 := by linear_combination h
      exact mul_self_eq_zero.mp this
    · refine absurd ⟨x.c0 / x.c1, ?_⟩ hns
      field_simp
      linear_combination -h
  · rintro ⟨h0, h1⟩
    rw [h0, h1]; ring

theorem legendre2_spec {p : ℕ} [Fact p.Prime] [Fact (OddModulus p)] [Fp.SmallModulus p] [ExtField (Fp p)]
    [LawfulExt (Fp p)] [ExtField (Quad (Fp p))] [LawfulExt (Quad (Fp p))]
    (hns : ¬ IsSquare (nonRes : Fp p)) (hconj : ∀ x : Quad (Fp p), Quad.conjugate x = x ^ p)
    (x : Quad (Fp p)) :
    (legendre2 x = some 0 ∨ legendre2 x = some 1 ∨ legendre2 x = some (-1)) ∧
    (legendre2 x = some 0 ↔ x = 0) ∧ (legendre2 x = some 1 ↔ x ≠ 0 ∧ IsSquare x) ∧
      (legendre2 x = some (-1) ↔ ¬ IsSquare x) := by
  have hz : Quad.norm x = 0 ↔ x = 0 := by
    rw [norm_eq_zero_iff hns]
    constructor
    · rintro ⟨h0, h1⟩; exact Quad.ext h0 h1
    · rintro rfl; exact ⟨rfl, rfl⟩
  have hsq := square_iff_norm hns hconj x
  obtain ⟨l0, l1, l2, l3⟩ := C10_legendre p (Quad.norm x)
  refine ⟨l0, ?_, ?_, ?_⟩
  · rw [legendre2, l1, hz]
  · rw [legendre2, l2, hsq, ne_eq, hz]
  · rw [legendre2, l3, hsq]

/-- **C19** `legendre` of the shipped quadratic extensions (through the norm) always returns, and decides
squareness in the extension. -/
theorem C19_legendre :
    (∀ x : Bn256.Fq2, (legendre2 x = some 0 ∨ legendre2 x = some 1 ∨ legendre2 x = some (-1)) ∧
      (legendre2 x = some 0 ↔ x = 0) ∧ (legendre2 x = some 1 ↔ x ≠ 0 ∧ IsSquare x) ∧
      (legendre2 x = some (-1) ↔ ¬ IsSquare x)) ∧
    (∀ x : Bls12381.Fq2, (legendre2 x = some 0 ∨ legendre2 x = some 1 ∨ legendre2 x = some (-1)) ∧
      (legendre2 x = some 0 ↔ x = 0) ∧ (legendre2 x = some 1 ↔ x ≠ 0 ∧ IsSquare x) ∧
      (legendre2 x = some (-1) ↔ ¬ IsSquare x)) ∧
    (∀ x : Pluto.Fp2, (legendre2 x = some 0 ∨ legendre2 x = some 1 ∨ legendre2 x = some (-1)) ∧
      (legendre2 x = some 0 ↔ x = 0) ∧ (legendre2 x = some 1 ↔ x ≠ 0 ∧ IsSquare x) ∧
      (legendre2 x = some (-1) ↔ ¬ IsSquare x)) :=
  ⟨legendre2_spec Bn256.not_square_base Bn256.conj_eq, legendre2_spec Bls12381.not_square_base Bls12381.conj_eq,
    legendre2_spec Pluto.not_square_base Pluto.conj_eq⟩

/-- Non-squares exist: the non-residue defining `Fq6` over bn256's `Fq2`. -/
example : legendre2 (nonRes : Bn256.Fq2) = some (-1) :=
  ((C19_legendre.1 _).2.2.2).mpr Bn256.not_square_2

end Halo2.Props
