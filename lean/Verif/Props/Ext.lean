import Verif.Ext.Adjoin
import Verif.Ext.Bn256
import Verif.Ext.Bls12381
import Verif.Ext.Pluto

/-!
# C13 - C18: the extension fields

The generic theorems are over an arbitrary commutative ring `F` (or field) with lawful methods
(`LawfulExt`: `square`, `double`, `mul_by_nonresidue`, `invert` of the base mean what their names
say); the instances for the shipped towers are in `Verif.Ext.{Bn256,Bls12381,Pluto}`.
-/

set_option linter.unusedSectionVars false

namespace Halo2.Props

open Halo2 Halo2.Ext ExtField Polynomial

/-! ## C13: quadratic extensions -/

section Quad
variable {F : Type} [CommRing F] [ExtField F] [LawfulExt F]

/-- **C13** The coefficient map `a + b u` is a bijection of `QuadExtField<F>` with
`F[X]/(X² - NON_RESIDUE)`, and the code's operations are the operations of that ring. -/
theorem C13_quotient_ring [Nontrivial F] :
    ∃ φ : Quad F → AdjoinRoot (X ^ 2 - C (nonRes : F)),
      Function.Bijective φ ∧
      (∀ x, φ x = AdjoinRoot.of _ x.c0 + AdjoinRoot.of _ x.c1 * AdjoinRoot.root _) ∧
      φ Quad.zero = 0 ∧ φ Quad.one = 1 ∧
      (∀ x y, φ (Quad.add x y) = φ x + φ y) ∧ (∀ x y, φ (Quad.sub x y) = φ x - φ y) ∧
      (∀ x, φ (Quad.neg x) = -φ x) ∧ (∀ x, φ (Quad.double x) = φ x + φ x) ∧
      (∀ x y, φ (Quad.mul x y) = φ x * φ y) ∧ (∀ x, φ (Quad.square x) = φ x ^ 2) ∧
      (∀ x, φ (Quad.conjugate x) = AdjoinRoot.of _ x.c0 - AdjoinRoot.of _ x.c1 * AdjoinRoot.root _) := quad_ring_aux

/-- **C13** The complex squaring shortcut of bn256 and bls12381 (`u² = -1`) is squaring. -/
theorem C13_square_override (h : (nonRes : F) = -1) (x : Quad F) :
    Quad.squareComplex x = Quad.mul x x := Quad.squareComplex_eq h x

/-- **C13** `norm` is `a² - NON_RESIDUE b²`, the product with the conjugate, and multiplicative. -/
theorem C13_norm (x y : Quad F) :
    Quad.norm x = x.c0 ^ 2 - nonRes * x.c1 ^ 2 ∧
    Quad.mul x (Quad.conjugate x) = ⟨Quad.norm x, 0⟩ ∧
    Quad.norm (Quad.mul x y) = Quad.norm x * Quad.norm y :=
  ⟨by rw [Quad.norm_eq]; ring, Quad.mul_conjugate x, Quad.norm_mul x y⟩

/-- **C13** `invert` returns `Some(y)` exactly when `y` is the inverse. -/
theorem C13_invert_iff (x y : Quad F) : Quad.invert x = some y ↔ Quad.mul x y = Quad.one :=
  Quad.invert_iff x y

/-- **C13** When the non-residue is not a square of the base field, `invert` succeeds exactly off
zero. -/
theorem C13_invert_total {K : Type} [Field K] [ExtField K] [LawfulExt K]
    (h : ¬ IsSquare (nonRes : K)) (x : Quad K) :
    (x ≠ Quad.zero → ∃ y, Quad.invert x = some y ∧ Quad.mul x y = Quad.one) ∧
    Quad.invert (Quad.zero : Quad K) = none := by
  constructor
  · intro hx
    obtain ⟨y, hy⟩ := Quad.exists_inv h x hx
    exact ⟨y, (Quad.invert_iff x y).mpr hy, hy⟩
  · cases hc : Quad.invert (Quad.zero : Quad K) with
    | none => rfl
    | some y =>
      have h0 : (0 : Quad K) * y = 1 := (Quad.invert_iff 0 y).mp hc
      rw [zero_mul] at h0
      exact absurd h0 zero_ne_one

end Quad

/-- **C13** The quadratic fields and the twelfth degree fields of bn256, bls12381 and pluto satisfy
the hypotheses: the base methods are lawful (instances) and the non-residues are not squares. -/
theorem C13_towers :
    ¬ IsSquare (nonRes : Bn256.Fq) ∧ ¬ IsSquare (nonRes : Bn256.Fq6) ∧
    ¬ IsSquare (nonRes : Bls12381.Fq) ∧ ¬ IsSquare (nonRes : Bls12381.Fq6) ∧
    ¬ IsSquare (nonRes : Pluto.Fp1) ∧ ¬ IsSquare (nonRes : Pluto.Fp6) ∧
    (nonRes : Bn256.Fq) = -1 ∧ (nonRes : Bls12381.Fq) = -1 :=
  ⟨Bn256.not_square_base, Bn256.not_square_6, Bls12381.not_square_base, Bls12381.not_square_6,
    Pluto.not_square_base, Pluto.not_square_6,
    by change (0 - 1 : Bn256.Fq) = -1; ring, by change (0 - 1 : Bls12381.Fq) = -1; ring⟩

/-- A concrete case: `3 + 5u` is invertible in bn256's `Fq2`. -/
example : ∃ y, Quad.invert (⟨3, 5⟩ : Bn256.Fq2) = some y ∧ Quad.mul ⟨3, 5⟩ y = Quad.one := by
  refine (C13_invert_total C13_towers.1 _).1 fun h => ?_
  have h0 : ((3 : ℕ) : Bn256.Fq) = ((0 : ℕ) : Bn256.Fq) := by
    rw [Nat.cast_zero]; exact congrArg Quad.c0 h
  rw [Fp.natCast_eq_iff] at h0
  revert h0
  decide +kernel

/-! ## C14: cubic extensions -/

section Cubic
variable {F : Type} [CommRing F] [ExtField F] [LawfulExt F]

/-- **C14** The coefficient map `a + b v + c v²` is a bijection of `CubicExtField<F>` with
`F[X]/(X³ - NON_RESIDUE)`, and the code's operations are the operations of that ring. -/
theorem C14_quotient_ring [Nontrivial F] :
    ∃ φ : Cubic F → AdjoinRoot (X ^ 3 - C (nonRes : F)),
      Function.Bijective φ ∧
      (∀ x, φ x = AdjoinRoot.of _ x.c0 + AdjoinRoot.of _ x.c1 * AdjoinRoot.root _ +
        AdjoinRoot.of _ x.c2 * AdjoinRoot.root _ ^ 2) ∧
      φ Cubic.zero = 0 ∧ φ Cubic.one = 1 ∧
      (∀ x y, φ (Cubic.add x y) = φ x + φ y) ∧ (∀ x y, φ (Cubic.sub x y) = φ x - φ y) ∧
      (∀ x, φ (Cubic.neg x) = -φ x) ∧ (∀ x, φ (Cubic.double x) = φ x + φ x) ∧
      (∀ x y, φ (Cubic.mul x y) = φ x * φ y) ∧ (∀ x, φ (Cubic.square x) = φ x ^ 2) := cubic_ring_aux

/-- **C14** `invert` returns `Some(y)` exactly when `y` is the inverse. -/
theorem C14_invert_iff (x y : Cubic F) : Cubic.invert x = some y ↔ Cubic.mul x y = Cubic.one :=
  Cubic.invert_iff x y

/-- **C14** When the non-residue is not a cube, `invert` succeeds exactly off zero. -/
theorem C14_invert_total {K : Type} [Field K] [ExtField K] [LawfulExt K]
    (h : ∀ b : K, b ^ 3 ≠ nonRes) (x : Cubic K) :
    (x ≠ Cubic.zero → ∃ y, Cubic.invert x = some y ∧ Cubic.mul x y = Cubic.one) ∧
    Cubic.invert (Cubic.zero : Cubic K) = none := by
  constructor
  · intro hx
    obtain ⟨y, hy⟩ := Cubic.exists_inv h x hx
    exact ⟨y, (Cubic.invert_iff x y).mpr hy, hy⟩
  · cases hc : Cubic.invert (Cubic.zero : Cubic K) with
    | none => rfl
    | some y =>
      have h0 : (0 : Cubic K) * y = 1 := (Cubic.invert_iff 0 y).mp hc
      rw [zero_mul] at h0
      exact absurd h0 zero_ne_one

end Cubic

/-- **C14** The non-residues of the shipped sextic fields are not cubes. -/
theorem C14_towers :
    (∀ b : Bn256.Fq2, b ^ 3 ≠ nonRes) ∧ (∀ b : Bls12381.Fq2, b ^ 3 ≠ nonRes) ∧
    (∀ b : Pluto.Fp2, b ^ 3 ≠ nonRes) :=
  ⟨Bn256.not_cube_2, Bls12381.not_cube_2, Pluto.not_cube_2⟩

/-- A concrete case: `v` is invertible in pluto's `Fp6`. -/
example : ∃ y, Cubic.invert (Cubic.v : Pluto.Fp6) = some y ∧ Cubic.mul Cubic.v y = Cubic.one :=
  (C14_invert_total C14_towers.2.2 _).1 fun h => one_ne_zero (congrArg Cubic.c1 h)

/-! ## C15: sparse products -/

section Sparse
variable {F : Type} [CommRing F] [ExtField F] [LawfulExt F]

/-- **C15** `mul_by_1` and `mul_by_01` are the dense products with `c1 v` and `c0 + c1 v`. -/
theorem C15_cubic_sparse (x : Cubic F) (c0 c1 : F) :
    Cubic.mulBy1 x c1 = Cubic.mul x ⟨0, c1, 0⟩ ∧ Cubic.mulBy01 x c0 c1 = Cubic.mul x ⟨c0, c1, 0⟩ :=
  ⟨Cubic.mulBy1_eq x c1, Cubic.mulBy01_eq x c0 c1⟩

variable [ExtField (Cubic F)] [LawfulExt (Cubic F)]

/-- **C15** `mul_by_014` is the dense product with `(c0 + c1 v) + (c4 v) w`. -/
theorem C15_mul_by_014 (x : Quad (Cubic F)) (c0 c1 c4 : F) :
    Deg12.mulBy014 x c0 c1 c4 = Quad.mul x ⟨⟨c0, c1, 0⟩, ⟨0, c4, 0⟩⟩ := by
  have e : ∀ a b : Quad (Cubic F), Quad.mul a b = a * b := fun _ _ => rfl
  rw [e, Deg12.mulBy014]
  simp only [Cubic.mulBy1_eq, Cubic.mulBy01_eq]
  have hs : (⟨c0, c1 + c4, 0⟩ : Cubic F) = ⟨c0, c1, 0⟩ + ⟨0, c4, 0⟩ := by
    ext <;> simp
  rw [hs]
  generalize (⟨c0, c1, 0⟩ : Cubic F) = A
  generalize (⟨0, c4, 0⟩ : Cubic F) = B
  apply Quad.ext
  · rw [Quad.mul_c0, LawfulExt.mulNr_eq]; ring
  · rw [Quad.mul_c1]; ring

/-- **C15** `mul_by_034` is the dense product with `c0 + (c3 + c4 v) w`. -/
theorem C15_mul_by_034 (x : Quad (Cubic F)) (c0 c3 c4 : F) :
    Deg12.mulBy034 x c0 c3 c4 = Quad.mul x ⟨⟨c0, 0, 0⟩, ⟨c3, c4, 0⟩⟩ := by
  have e : ∀ a b : Quad (Cubic F), Quad.mul a b = a * b := fun _ _ => rfl
  rw [e, Deg12.mulBy034]
  simp only [Cubic.mulBy01_eq]
  have hs : (⟨c0 + c3, c4, 0⟩ : Cubic F) = ⟨c0, 0, 0⟩ + ⟨c3, c4, 0⟩ := by
    ext <;> simp
  have ht : (⟨x.c0.c0 * c0, x.c0.c1 * c0, x.c0.c2 * c0⟩ : Cubic F) = x.c0 * ⟨c0, 0, 0⟩ := by
    rw [mul_comm x.c0, Cubic.scalar_mul]
    ext <;> simp only [mul_comm]
  rw [hs, ht]
  generalize (⟨c0, 0, 0⟩ : Cubic F) = A
  generalize (⟨c3, c4, 0⟩ : Cubic F) = B
  apply Quad.ext
  · rw [Quad.mul_c0, LawfulExt.mulNr_eq]
  · rw [Quad.mul_c1]; ring

end Sparse

/-- The towers satisfy the hypotheses of C15. -/
example (x : Bls12381.Fq12) (c0 c1 c4 : Bls12381.Fq2) :
    Deg12.mulBy014 x c0 c1 c4 = x * ⟨⟨c0, c1, 0⟩, ⟨0, c4, 0⟩⟩ := C15_mul_by_014 x c0 c1 c4
example (x : Bn256.Fq12) (c0 c3 c4 : Bn256.Fq2) :
    Deg12.mulBy034 x c0 c3 c4 = x * ⟨⟨c0, 0, 0⟩, ⟨c3, c4, 0⟩⟩ := C15_mul_by_034 x c0 c3 c4

/-! ## C16: Frobenius maps -/

/-- **C16** bn256: with the shipped tables, `frobenius_map(i)` is `x ↦ x^(p^i)` on all levels. -/
theorem C16_bn256 (i : ℕ) :
    (∀ x : Bn256.Fq, frob i x = x ^ bnQ ^ i) ∧ (∀ x : Bn256.Fq2, frob i x = x ^ bnQ ^ i) ∧
    (∀ x : Bn256.Fq6, frob i x = x ^ bnQ ^ i) ∧ (∀ x : Bn256.Fq12, frob i x = x ^ bnQ ^ i) := by
  refine ⟨fun x => ?_, Bn256.frob_2 i, Bn256.frob_6 i, Bn256.frob_12 i⟩
  induction i with
  | zero => rw [pow_zero, pow_one]; rfl
  | succ i ih => rw [pow_succ, pow_mul, ← ih]; exact (Fp.pow_p x).symm

/-- **C16** bls12381. -/
theorem C16_bls12381 (i : ℕ) :
    (∀ x : Bls12381.Fq, frob i x = x ^ blsQ ^ i) ∧ (∀ x : Bls12381.Fq2, frob i x = x ^ blsQ ^ i) ∧
    (∀ x : Bls12381.Fq6, frob i x = x ^ blsQ ^ i) ∧ (∀ x : Bls12381.Fq12, frob i x = x ^ blsQ ^ i) := by
  refine ⟨fun x => ?_, Bls12381.frob_2 i, Bls12381.frob_6 i, Bls12381.frob_12 i⟩
  induction i with
  | zero => rw [pow_zero, pow_one]; rfl
  | succ i ih => rw [pow_succ, pow_mul, ← ih]; exact (Fp.pow_p x).symm

/-- **C16** pluto. -/
theorem C16_pluto (i : ℕ) :
    (∀ x : Pluto.Fp1, frob i x = x ^ plP ^ i) ∧ (∀ x : Pluto.Fp2, frob i x = x ^ plP ^ i) ∧
    (∀ x : Pluto.Fp6, frob i x = x ^ plP ^ i) ∧ (∀ x : Pluto.Fp12, frob i x = x ^ plP ^ i) := by
  refine ⟨fun x => ?_, Pluto.frob_2 i, Pluto.frob_6 i, Pluto.frob_12 i⟩
  induction i with
  | zero => rw [pow_zero, pow_one]; rfl
  | succ i ih => rw [pow_succ, pow_mul, ← ih]; exact (Fp.pow_p x).symm

/-- The map is not the identity: it conjugates `u`. -/
example : frob 3 (⟨0, 1⟩ : Bn256.Fq2) = ⟨0, -1⟩ := rfl

/-! ## C17: cyclotomic squaring -/

/-- **C17** On the cyclotomic subgroup (`x^(p^4-p^2+1) = 1`) of each twelfth degree field,
`cyclotomic_square` squares. -/
theorem C17_cyclotomic_square :
    (∀ x : Bn256.Fq12, x ^ (bnQ ^ 4 - bnQ ^ 2 + 1) = 1 → Deg12.cyclotomicSquare x = x ^ 2) ∧
    (∀ x : Bls12381.Fq12, x ^ (blsQ ^ 4 - blsQ ^ 2 + 1) = 1 → Deg12.cyclotomicSquare x = x ^ 2) ∧
    (∀ x : Pluto.Fp12, x ^ (plP ^ 4 - plP ^ 2 + 1) = 1 → Deg12.cyclotomicSquare x = x ^ 2) :=
  ⟨fun x h => by rw [Bn256.cyclotomicSquare_eq x h, pow_two],
    fun x h => by rw [Bls12381.cyclotomicSquare_eq x h, pow_two],
    fun x h => by rw [Pluto.cyclotomicSquare_eq x h, pow_two]⟩

/-- The subgroup restriction is needed: outside it the result is not the square. -/
example : Deg12.cyclotomicSquare (0 : Bn256.Fq12) = 0 ∧
    Deg12.cyclotomicSquare (⟨⟨2, 0, 0⟩, 0⟩ : Bn256.Fq12) ≠ ⟨⟨2, 0, 0⟩, 0⟩ ^ 2 := by
  constructor
  · decide +kernel
  · decide +kernel

end Halo2.Props
