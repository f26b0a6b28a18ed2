import Verif.Curve.Hom
import Mathlib.AlgebraicGeometry.EllipticCurve.Affine.Point

/-!
# Lines on a Weierstrass curve and the cocycle identity

`chord A B` is the equation of the line through the points `A` and `B` of a Weierstrass curve and
`vert A` the equation of the vertical line through `A`, both as elements of the coordinate ring.
The divisor of `chord A B / vert (A + B)` is `A + B - (A + B) - O`, which in the coordinate ring is
the identity of ideals `ideal_chord`.  From it, and from the leading coefficients of the norms, the
cocycle identity `chord_cocycle` follows up to a fourth root of unity.
-/

set_option linter.unusedSectionVars false
set_option linter.unusedSimpArgs false

open WeierstrassCurve WeierstrassCurve.Affine WeierstrassCurve.Affine.CoordinateRing Polynomial
open scoped Polynomial.Bivariate

namespace Halo2.Pairing

variable {K : Type} [Field K] [DecidableEq K] {W : Affine K}

/-- The ideal of a point of the curve: everything for the point at infinity. -/
noncomputable def ptIdeal : W.Point → Ideal W.CoordinateRing
  | .zero => ⊤
  | .some x y _ => XYIdeal W x (C y)

/-- The vertical line through a point. -/
noncomputable def vertR : W.Point → W.CoordinateRing
  | .zero => 1
  | .some x _ _ => XClass W x

/-- The line through two points. -/
noncomputable def chordR : W.Point → W.Point → W.CoordinateRing
  | .zero, B => vertR B
  | A, .zero => vertR A
  | .some x1 y1 _, .some x2 y2 _ =>
    if x1 = x2 ∧ y1 = W.negY x2 y2 then XClass W x1
    else YClass W (linePolynomial x1 y1 (W.slope x1 x2 y1 y2))

theorem chordR_zero_left (B : W.Point) : chordR 0 B = vertR B := by
  cases B <;> rfl

theorem chordR_zero_right (A : W.Point) : chordR A 0 = vertR A := by
  cases A <;> rfl

theorem chordR_some {x1 y1 x2 y2 : K} (h1 : W.Nonsingular x1 y1) (h2 : W.Nonsingular x2 y2) :
    chordR (.some x1 y1 h1) (.some x2 y2 h2) =
      if x1 = x2 ∧ y1 = W.negY x2 y2 then XClass W x1
      else YClass W (linePolynomial x1 y1 (W.slope x1 x2 y1 y2)) := rfl

theorem ptIdeal_zero : ptIdeal (0 : W.Point) = ⊤ := rfl

theorem ptIdeal_some {x y : K} (h : W.Nonsingular x y) :
    ptIdeal (.some x y h) = XYIdeal W x (C y) := rfl

theorem vertR_zero : vertR (0 : W.Point) = 1 := rfl

/-- A point and its negative together make up the vertical line. -/
theorem ptIdeal_neg_mul (A : W.Point) : ptIdeal (-A) * ptIdeal A = Ideal.span {vertR A} := by
  match A with
  | .zero =>
    change (⊤ : Ideal W.CoordinateRing) * ⊤ = Ideal.span {1}
    rw [Ideal.top_mul, Ideal.span_singleton_one]
  | .some x y h => exact XYIdeal_neg_mul h

/-- The divisor of the line through two points. -/
theorem ideal_chord (A B : W.Point) :
    Ideal.span {vertR (A + B)} * (ptIdeal A * ptIdeal B) =
      Ideal.span {chordR A B} * ptIdeal (A + B) := by
  match A, B with
  | .zero, B =>
    have e : (Point.zero : W.Point) = 0 := rfl
    rw [e, zero_add, chordR_zero_left, ptIdeal_zero, Ideal.top_mul]
  | .some x y h, .zero =>
    have e : (Point.zero : W.Point) = 0 := rfl
    rw [e, add_zero, chordR_zero_right, ptIdeal_zero, Ideal.mul_top]
  | .some x1 y1 h1, .some x2 y2 h2 =>
    rw [chordR_some]
    by_cases hxy : x1 = x2 ∧ y1 = W.negY x2 y2
    · rw [if_pos hxy, Point.add_of_Y_eq hxy.1 hxy.2, vertR_zero, ptIdeal_zero, Ideal.mul_top,
        Ideal.span_singleton_one, Ideal.top_mul]
      obtain ⟨rfl, rfl⟩ := hxy
      exact XYIdeal_neg_mul h2
    · rw [if_neg hxy, Point.add_some hxy]
      exact XYIdeal_mul_XYIdeal h1.1 h2.1 hxy

/-! ### Norms -/

/-- The norm of the element has leading coefficient `±1`. -/
def NormUnit (z : W.CoordinateRing) : Prop :=
  (Algebra.norm K[X] z).leadingCoeff ^ 2 = 1

theorem NormUnit.mul {z w : W.CoordinateRing} (hz : NormUnit z) (hw : NormUnit w) :
    NormUnit (z * w) := by
  unfold NormUnit at *
  rw [map_mul, leadingCoeff_mul, mul_pow, hz, hw, one_mul]

theorem NormUnit.one : NormUnit (1 : W.CoordinateRing) := by
  unfold NormUnit
  rw [map_one, leadingCoeff_one, one_pow]

theorem NormUnit.ne_zero {z : W.CoordinateRing} (hz : NormUnit z) : z ≠ 0 := by
  rintro rfl
  have e : (0 : W.CoordinateRing) = (0 : K[X]) • (1 : W.CoordinateRing) + (0 : K[X]) • mk W Y := by
    rw [zero_smul, zero_smul, add_zero]
  unfold NormUnit at hz
  rw [e, norm_smul_basis] at hz
  simp at hz

theorem normUnit_X (x : K) : NormUnit (XClass W x) := by
  have e : XClass W x = (X - C x : K[X]) • (1 : W.CoordinateRing) + (0 : K[X]) • mk W Y := by
    rw [CoordinateRing.smul, zero_smul, add_zero, mul_one]
    rfl
  unfold NormUnit
  rw [e, norm_smul_basis]
  have : (X - C x : K[X]) ^ 2 - (X - C x) * 0 * (C W.a₁ * X + C W.a₃) -
      0 ^ 2 * (X ^ 3 + C W.a₂ * X ^ 2 + C W.a₄ * X + C W.a₆) = (X - C x) ^ 2 := by ring
  rw [this, leadingCoeff_pow, leadingCoeff_X_sub_C, one_pow, one_pow]

theorem normUnit_Y (m c : K) : NormUnit (YClass W (C m * X + C c)) := by
  have e : YClass W (C m * X + C c) =
      (-(C m * X + C c) : K[X]) • (1 : W.CoordinateRing) + (1 : K[X]) • mk W Y := by
    rw [CoordinateRing.smul, one_smul, mul_one, YClass, map_sub, map_neg, map_neg]
    ring
  unfold NormUnit
  rw [e, norm_smul_basis]
  have : (-(C m * X + C c) : K[X]) ^ 2 - (-(C m * X + C c)) * 1 * (C W.a₁ * X + C W.a₃) -
      1 ^ 2 * (X ^ 3 + C W.a₂ * X ^ 2 + C W.a₄ * X + C W.a₆) =
      C (-1) * X ^ 3 + C (m ^ 2 + m * W.a₁ - W.a₂) * X ^ 2 +
        C (2 * m * c + m * W.a₃ + c * W.a₁ - W.a₄) * X + C (c ^ 2 + c * W.a₃ - W.a₆) := by
    simp only [map_ofNat, C_0, C_1, C_neg, C_add, C_sub, C_mul, C_pow]
    ring
  rw [this, leadingCoeff_cubic (by simp)]
  ring

theorem normUnit_line (x1 y1 l : K) : NormUnit (YClass W (linePolynomial x1 y1 l)) := by
  have : linePolynomial x1 y1 l = C l * X + C (y1 - l * x1) := by
    rw [linePolynomial]
    simp only [map_ofNat, C_0, C_1, C_neg, C_add, C_sub, C_mul, C_pow]
    ring
  rw [this]
  exact normUnit_Y _ _

theorem normUnit_vert (A : W.Point) : NormUnit (vertR A) := by
  match A with
  | .zero => exact NormUnit.one
  | .some x y h => exact normUnit_X x

theorem normUnit_chord (A B : W.Point) : NormUnit (chordR A B) := by
  match A, B with
  | .zero, B =>
    have e : (Point.zero : W.Point) = 0 := rfl
    rw [e, chordR_zero_left]
    exact normUnit_vert B
  | .some x y h, .zero => exact normUnit_X x
  | .some x1 y1 h1, .some x2 y2 h2 =>
    rw [chordR_some]
    split_ifs
    · exact normUnit_X _
    · exact normUnit_line _ _ _

/-- The units of the coordinate ring are the non-zero constants. -/
theorem isUnit_const {z : W.CoordinateRing} (hz : IsUnit z) :
    ∃ c : K, z = algebraMap K W.CoordinateRing c := by
  obtain ⟨p, q, rfl⟩ := exists_smul_basis_eq z
  have hn : IsUnit (Algebra.norm K[X] (p • (1 : W.CoordinateRing) + q • mk W Y)) :=
    hz.map (Algebra.norm K[X])
  have hd := degree_eq_zero_of_isUnit hn
  rw [degree_norm_smul_basis] at hd
  have hq : q = 0 := by
    by_contra hq
    have h1 : (2 • q.degree + 3 : WithBot ℕ) ≤ 0 := hd ▸ le_max_right _ _
    rw [degree_eq_natDegree hq] at h1
    have h2 : ((2 * q.natDegree + 3 : ℕ) : WithBot ℕ) ≤ ((0 : ℕ) : WithBot ℕ) := by
      refine le_trans (le_of_eq ?_) h1
      push_cast
      rw [nsmul_eq_mul]
      rfl
    have h3 := WithBot.coe_le_coe.mp h2
    have h4 : 2 * q.natDegree + 3 ≤ 0 := h3
    omega
  subst hq
  have hp : p.degree ≤ 0 := by
    by_cases hp0 : p = 0
    · rw [hp0]; simp
    have h1 : (2 • p.degree : WithBot ℕ) ≤ 0 := hd ▸ le_max_left _ _
    rw [degree_eq_natDegree hp0] at h1 ⊢
    have h2 : ((2 * p.natDegree : ℕ) : WithBot ℕ) ≤ ((0 : ℕ) : WithBot ℕ) := by
      refine le_trans (le_of_eq ?_) h1
      push_cast
      rw [nsmul_eq_mul]
      rfl
    have h4 : 2 * p.natDegree ≤ 0 := WithBot.coe_le_coe.mp h2
    have h5 : p.natDegree = 0 := by omega
    rw [h5]; rfl
  refine ⟨p.coeff 0, ?_⟩
  conv_lhs => rw [eq_C_of_degree_le_zero hp]
  rw [zero_smul, add_zero, CoordinateRing.smul, mul_one]
  rfl

theorem norm_const (c : K) :
    Algebra.norm K[X] (algebraMap K W.CoordinateRing c) = C (c ^ 2) := by
  have e : algebraMap K W.CoordinateRing c =
      (C c : K[X]) • (1 : W.CoordinateRing) + (0 : K[X]) • mk W Y := by
    rw [CoordinateRing.smul, zero_smul, add_zero, mul_one]
    rfl
  rw [e, norm_smul_basis]
  simp only [map_ofNat, C_0, C_1, C_neg, C_add, C_sub, C_mul, C_pow]
  ring

/-- Elements with the same divisor differ by a fourth root of unity if their norms have leading
coefficient `±1`. -/
theorem eq_mul_of_ideal {z w : W.CoordinateRing} (hz : NormUnit z) (hw : NormUnit w) (S : W.Point)
    (h : Ideal.span {z} * ptIdeal S = Ideal.span {w} * ptIdeal S) :
    ∃ c : K, c ^ 4 = 1 ∧ z = algebraMap K W.CoordinateRing c * w := by
  have h1 : Ideal.span {z} * (ptIdeal (-S) * ptIdeal S) =
      Ideal.span {w} * (ptIdeal (-S) * ptIdeal S) := by
    rw [mul_comm (ptIdeal (-S)), ← mul_assoc, ← mul_assoc, h]
  rw [ptIdeal_neg_mul, Ideal.span_singleton_mul_span_singleton,
    Ideal.span_singleton_mul_span_singleton, Ideal.span_singleton_eq_span_singleton] at h1
  have hv := (normUnit_vert S).ne_zero
  obtain ⟨u, hu⟩ := h1.symm
  have h2 : z = (u : W.CoordinateRing) * w := by
    apply mul_right_cancel₀ hv
    rw [← hu]; ring
  obtain ⟨c, hc⟩ := isUnit_const u.isUnit
  refine ⟨c, ?_, by rw [h2, hc]⟩
  have h3 := hz
  unfold NormUnit at h3 hw
  rw [h2, hc, map_mul, norm_const, leadingCoeff_mul, leadingCoeff_C, mul_pow, hw, mul_one] at h3
  rw [← h3]; ring

/-- **The cocycle identity** for lines, up to a fourth root of unity. -/
theorem chordR_cocycle (A B D : W.Point) : ∃ c : K, c ^ 4 = 1 ∧
    chordR A B * chordR (A + B) D * vertR (B + D) =
      algebraMap K W.CoordinateRing c * (chordR B D * chordR A (B + D) * vertR (A + B)) := by
  have hAB := ideal_chord A B
  have hABD := ideal_chord (A + B) D
  have hBD := ideal_chord B D
  have hABD' := ideal_chord A (B + D)
  have key : Ideal.span {chordR A B * chordR (A + B) D * vertR (B + D) * vertR (A + B + D)} *
        (ptIdeal (A + B + D)) =
      Ideal.span {chordR B D * chordR A (B + D) * vertR (A + B) * vertR (A + B + D)} *
        (ptIdeal (A + B + D)) := by
    rw [← add_assoc] at hABD'
    simp only [← Ideal.span_singleton_mul_span_singleton]
    generalize Ideal.span {vertR (A + B)} = vAB at *
    generalize Ideal.span {vertR (B + D)} = vBD at *
    generalize Ideal.span {vertR (A + B + D)} = vS at *
    generalize Ideal.span {chordR A B} = cAB at *
    generalize Ideal.span {chordR B D} = cBD at *
    generalize Ideal.span {chordR (A + B) D} = cABD at *
    generalize Ideal.span {chordR A (B + D)} = cABD' at *
    calc cAB * cABD * vBD * vS * ptIdeal (A + B + D)
        = cAB * vBD * vS * (cABD * ptIdeal (A + B + D)) := by ring
      _ = cAB * vBD * vS * (vS * (ptIdeal (A + B) * ptIdeal D)) := by rw [hABD]
      _ = (cAB * ptIdeal (A + B)) * vBD * vS * vS * ptIdeal D := by ring
      _ = (vAB * (ptIdeal A * ptIdeal B)) * vBD * vS * vS * ptIdeal D := by rw [hAB]
      _ = (vBD * (ptIdeal B * ptIdeal D)) * vAB * vS * vS * ptIdeal A := by ring
      _ = (cBD * ptIdeal (B + D)) * vAB * vS * vS * ptIdeal A := by rw [hBD]
      _ = cBD * vAB * vS * (vS * (ptIdeal A * ptIdeal (B + D))) := by ring
      _ = cBD * vAB * vS * (cABD' * ptIdeal (A + B + D)) := by rw [hABD']
      _ = cBD * cABD' * vAB * vS * ptIdeal (A + B + D) := by ring
  have n1 := (((normUnit_chord A B).mul (normUnit_chord (A + B) D)).mul
    (normUnit_vert (B + D))).mul (normUnit_vert (A + B + D))
  have n2 := (((normUnit_chord B D).mul (normUnit_chord A (B + D))).mul
    (normUnit_vert (A + B))).mul (normUnit_vert (A + B + D))
  obtain ⟨c, hc, e⟩ := eq_mul_of_ideal n1 n2 _ key
  refine ⟨c, hc, ?_⟩
  apply mul_right_cancel₀ (normUnit_vert (A + B + D)).ne_zero
  rw [e]; ring

theorem chordR_symm (A B : W.Point) : ∃ c : K, c ^ 4 = 1 ∧
    chordR A B = algebraMap K W.CoordinateRing c * chordR B A := by
  refine eq_mul_of_ideal (normUnit_chord A B) (normUnit_chord B A) (A + B) ?_
  rw [← ideal_chord, mul_comm (ptIdeal A), add_comm, ideal_chord]

/-! ### Evaluation -/

theorem polynomial_eval₂ {x y : K} (h : W.Equation x y) :
    W.polynomial.eval₂ (evalRingHom x) y = 0 := by
  have h' : W.polynomial.evalEval x y = 0 := h
  rw [← h', eval₂_evalRingHom]

/-- Evaluation of a function on the curve at a point of the curve. -/
noncomputable def ev {x y : K} (h : W.Equation x y) : W.CoordinateRing →+* K :=
  AdjoinRoot.lift (evalRingHom x) y (polynomial_eval₂ h)

theorem ev_const {x y : K} (h : W.Equation x y) (c : K) :
    ev h (algebraMap K W.CoordinateRing c) = c := by
  change AdjoinRoot.lift (evalRingHom x) y (polynomial_eval₂ h) (AdjoinRoot.mk _ (C (C c))) = c
  rw [AdjoinRoot.lift_mk]
  simp

theorem ev_X {x y : K} (h : W.Equation x y) (x1 : K) : ev h (XClass W x1) = x - x1 := by
  change AdjoinRoot.lift (evalRingHom x) y (polynomial_eval₂ h) (AdjoinRoot.mk _ _) = _
  rw [AdjoinRoot.lift_mk]
  simp

theorem ev_line {x y : K} (h : W.Equation x y) (x1 y1 l : K) :
    ev h (YClass W (linePolynomial x1 y1 l)) = y - y1 - l * (x - x1) := by
  change AdjoinRoot.lift (evalRingHom x) y (polynomial_eval₂ h) (AdjoinRoot.mk _ _) = _
  rw [AdjoinRoot.lift_mk]
  simp [linePolynomial]
  ring

/-- The value of the vertical line through a point. -/
def vert (x : K) : W.Point → K
  | .zero => 1
  | .some x1 _ _ => x - x1

/-- The value at `(x, y)` of the line through two points. -/
def chord (x y : K) : W.Point → W.Point → K
  | .zero, B => vert x B
  | A, .zero => vert x A
  | .some x1 y1 _, .some x2 y2 _ =>
    if x1 = x2 ∧ y1 = W.negY x2 y2 then x - x1
    else y - y1 - W.slope x1 x2 y1 y2 * (x - x1)

theorem chord_some (x y : K) {x1 y1 x2 y2 : K} (h1 : W.Nonsingular x1 y1)
    (h2 : W.Nonsingular x2 y2) :
    chord x y (.some x1 y1 h1) (.some x2 y2 h2) =
      if x1 = x2 ∧ y1 = W.negY x2 y2 then x - x1
      else y - y1 - W.slope x1 x2 y1 y2 * (x - x1) := rfl

theorem chord_zero_left (x y : K) (B : W.Point) : chord x y 0 B = vert x B := by
  cases B <;> rfl

theorem chord_zero_right (x y : K) (A : W.Point) : chord x y A 0 = vert x A := by
  cases A <;> rfl

theorem ev_vert {x y : K} (h : W.Equation x y) (A : W.Point) : ev h (vertR A) = vert x A := by
  match A with
  | .zero => exact map_one _
  | .some x1 y1 _ => exact ev_X h x1

theorem ev_chord {x y : K} (h : W.Equation x y) (A B : W.Point) :
    ev h (chordR A B) = chord x y A B := by
  match A, B with
  | .zero, B =>
    have e : (Point.zero : W.Point) = 0 := rfl
    rw [e, chordR_zero_left, ev_vert]
    cases B <;> rfl
  | .some x1 y1 h1, .zero => exact ev_X h x1
  | .some x1 y1 h1, .some x2 y2 h2 =>
    rw [chordR_some]
    rw [chord_some]
    split_ifs
    · exact ev_X h x1
    · exact ev_line h _ _ _

/-- **The cocycle identity** for the values of lines. -/
theorem chord_cocycle {x y : K} (h : W.Equation x y) (A B D : W.Point) : ∃ c : K, c ^ 4 = 1 ∧
    chord x y A B * chord x y (A + B) D * vert x (B + D) =
      c * (chord x y B D * chord x y A (B + D) * vert x (A + B)) := by
  obtain ⟨c, hc, e⟩ := chordR_cocycle A B D
  refine ⟨c, hc, ?_⟩
  have := congrArg (ev h) e
  simpa only [map_mul, ev_chord, ev_vert, ev_const] using this

theorem chord_symm {x y : K} (h : W.Equation x y) (A B : W.Point) : ∃ c : K, c ^ 4 = 1 ∧
    chord x y A B = c * chord x y B A := by
  obtain ⟨c, hc, e⟩ := chordR_symm A B
  refine ⟨c, hc, ?_⟩
  have := congrArg (ev h) e
  simpa only [map_mul, ev_chord, ev_vert, ev_const] using this

end Halo2.Pairing
