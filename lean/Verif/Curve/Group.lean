import Verif.Curve.Model
import Mathlib.AlgebraicGeometry.EllipticCurve.Affine.Point
import Mathlib.Tactic.FieldSimp
import Mathlib.Tactic.LinearCombination

/-!
# The curve arithmetic computes in the group of points

`PRep C P Q` says that the projective triple `P` stands for the point `Q` of the Weierstrass curve
`y² = x³ + a x + b` (Mathlib's group of nonsingular points), `ARep` the same for affine pairs.
-/

set_option linter.unusedSectionVars false

namespace Halo2.Curve

open WeierstrassCurve

/-- The base-field methods do what their names say. -/
class LawfulBase (F : Type) [Field F] [DecidableEq F] [BaseField F] : Prop where
  sqr_eq (x : F) : sqr x = x * x
  dbl_eq (x : F) : dbl x = x + x
  invert_eq (x : F) : invert x = if x = 0 then none else some x⁻¹
  isZero_iff (x : F) : isZero x = true ↔ x = 0

variable {F : Type} [Field F] [DecidableEq F] [BaseField F] [LawfulBase F]

/-- What the formulas need of the constants: odd characteristic, no rational point of order two, and the
shortcut of `mul_by_3b` only for `b = 3`. -/
structure Good (C : Params F) : Prop where
  two : (2 : F) ≠ 0
  noRoot : ∀ x : F, x * x * x + C.a * x + C.b ≠ 0
  bn : C.bnG1 = true → C.b = 3

/-- The Weierstrass curve `y² = x³ + a x + b`. -/
def W (C : Params F) : WeierstrassCurve.Affine F := ⟨0, 0, 0, C.a, C.b⟩

/-- The group of points of the curve. -/
abbrev Pt (C : Params F) : Type := (W C).Point

theorem equation_iff (C : Params F) (x y : F) :
    (W C).Equation x y ↔ y * y = x * x * x + C.a * x + C.b := by
  rw [Affine.equation_iff]
  simp only [W]
  constructor <;> intro h <;> linear_combination h

variable {C : Params F}

theorem y_ne_zero (hC : Good C) {x y : F} (h : (W C).Equation x y) : y ≠ 0 := by
  rintro rfl
  rw [equation_iff] at h
  exact hC.noRoot x (by linear_combination -h)

theorem nonsingular_of (hC : Good C) {x y : F} (h : (W C).Equation x y) : (W C).Nonsingular x y := by
  rw [Affine.nonsingular_iff]
  refine ⟨h, Or.inr ?_⟩
  simp only [W]
  intro hy
  have h2 : (2 : F) * y = 0 := by linear_combination hy
  rcases mul_eq_zero.mp h2 with h2 | h2
  · exact hC.two h2
  · exact y_ne_zero hC h h2

theorem negY_eq (x y : F) : (W C).negY x y = -y := by
  simp only [Affine.negY, W]
  ring

/-- `P` stands for the point `Q`: the point at infinity is `(0 : y : 0)` with `y ≠ 0`, any other point
has `z ≠ 0` and affine coordinates `x / z`, `y / z`. -/
def PRep (C : Params F) (P : Proj F) : Pt C → Prop
  | .zero => P.z = 0 ∧ P.x = 0 ∧ P.y ≠ 0
  | .some x y _ => P.z ≠ 0 ∧ P.x = x * P.z ∧ P.y = y * P.z

/-- The affine pair `P` stands for the point `Q`; the point at infinity is `(0, 0)`. -/
def ARep (C : Params F) (P : Aff F) : Pt C → Prop
  | .zero => P.x = 0 ∧ P.y = 0
  | .some x y _ => P.x = x ∧ P.y = y

theorem PRep.zero_iff {P : Proj F} : PRep C P (0 : Pt C) ↔ P.z = 0 ∧ P.x = 0 ∧ P.y ≠ 0 := Iff.rfl

theorem PRep.some_iff {P : Proj F} {x y : F} {h : (W C).Nonsingular x y} :
    PRep C P (.some x y h) ↔ P.z ≠ 0 ∧ P.x = x * P.z ∧ P.y = y * P.z := Iff.rfl

theorem ARep.zero_iff {P : Aff F} : ARep C P (0 : Pt C) ↔ P.x = 0 ∧ P.y = 0 := Iff.rfl

theorem ARep.some_iff {P : Aff F} {x y : F} {h : (W C).Nonsingular x y} :
    ARep C P (.some x y h) ↔ P.x = x ∧ P.y = y := Iff.rfl

/-- A valid triple: it stands for a point of the curve. -/
def Proj.Valid (C : Params F) (P : Proj F) : Prop := ∃ Q, PRep C P Q

/-- A valid pair. -/
def Aff.Valid (C : Params F) (P : Aff F) : Prop := ∃ Q, ARep C P Q

theorem PRep.unique {P : Proj F} {Q R : Pt C} (hQ : PRep C P Q) (hR : PRep C P R) : Q = R := by
  rcases Q with _ | ⟨x, y, h⟩ <;> rcases R with _ | ⟨x', y', h'⟩
  · rfl
  · exact absurd hQ.1 hR.1
  · exact absurd hR.1 hQ.1
  · obtain ⟨h1, h2, h3⟩ := hQ
    obtain ⟨_, h4, h5⟩ := hR
    have e1 : x = x' := mul_right_cancel₀ h1 (h2.symm.trans h4)
    have e2 : y = y' := mul_right_cancel₀ h1 (h3.symm.trans h5)
    subst e1 e2
    rfl

theorem ARep.unique (hC : Good C) {P : Aff F} {Q R : Pt C} (hQ : ARep C P Q) (hR : ARep C P R) : Q = R := by
  rcases Q with _ | ⟨x, y, h⟩ <;> rcases R with _ | ⟨x', y', h'⟩
  · rfl
  · exact absurd (hR.2.symm.trans hQ.2) (y_ne_zero hC h'.1)
  · exact absurd (hQ.2.symm.trans hR.2) (y_ne_zero hC h.1)
  · obtain ⟨h2, h3⟩ := hQ
    obtain ⟨h4, h5⟩ := hR
    have e1 : x = x' := h2.symm.trans h4
    have e2 : y = y' := h3.symm.trans h5
    subst e1 e2
    rfl

theorem prep_iff (hC : Good C) (P : Proj F) :
    P.Valid C ↔ (P.z = 0 ∧ P.x = 0 ∧ P.y ≠ 0) ∨
      (P.z ≠ 0 ∧ P.y * P.y * P.z = P.x * P.x * P.x + C.a * P.x * P.z * P.z + C.b * P.z * P.z * P.z) := by
  constructor
  · rintro ⟨Q, hQ⟩
    rcases Q with _ | ⟨x, y, h⟩
    · exact Or.inl hQ
    · obtain ⟨h1, h2, h3⟩ := hQ
      refine Or.inr ⟨h1, ?_⟩
      have he := (equation_iff C x y).mp h.1
      rw [h2, h3]
      linear_combination P.z * P.z * P.z * he
  · rintro (h | ⟨h1, h2⟩)
    · exact ⟨0, h⟩
    · have he : (W C).Equation (P.x / P.z) (P.y / P.z) := by
        rw [equation_iff]
        field_simp
        linear_combination h2
      exact ⟨.some _ _ (nonsingular_of hC he), h1, (div_mul_cancel₀ _ h1).symm, (div_mul_cancel₀ _ h1).symm⟩

theorem mul3b_eq (hC : Good C) (t : F) : mul3b C t = 3 * C.b * t := by
  rw [mul3b]
  split
  · next h =>
    rw [hC.bn h]
    simp only [LawfulBase.dbl_eq]
    ring
  · rw [const3b]
    ring

/-- The complete addition formulas of Renes, Costello and Batina (the polynomials of Algorithm 1). -/
def rcbX (a b : F) (x1 y1 z1 x2 y2 z2 : F) : F :=
  (x1 * y2 + x2 * y1) * (y1 * y2 - a * (x1 * z2 + x2 * z1) - 3 * b * (z1 * z2))
    - (y1 * z2 + y2 * z1) * (a * (x1 * x2) + 3 * b * (x1 * z2 + x2 * z1) - a * a * (z1 * z2))
def rcbY (a b : F) (x1 y1 z1 x2 y2 z2 : F) : F :=
  (y1 * y2 + a * (x1 * z2 + x2 * z1) + 3 * b * (z1 * z2)) * (y1 * y2 - a * (x1 * z2 + x2 * z1) - 3 * b * (z1 * z2))
    + (3 * (x1 * x2) + a * (z1 * z2)) * (a * (x1 * x2) + 3 * b * (x1 * z2 + x2 * z1) - a * a * (z1 * z2))
def rcbZ (a b : F) (x1 y1 z1 x2 y2 z2 : F) : F :=
  (y1 * z2 + y2 * z1) * (y1 * y2 + a * (x1 * z2 + x2 * z1) + 3 * b * (z1 * z2))
    + (x1 * y2 + x2 * y1) * (3 * (x1 * x2) + a * (z1 * z2))

theorem add_eq (hC : Good C) (p q : Proj F) :
    Proj.add C p q = ⟨rcbX C.a C.b p.x p.y p.z q.x q.y q.z, rcbY C.a C.b p.x p.y p.z q.x q.y q.z,
      rcbZ C.a C.b p.x p.y p.z q.x q.y q.z⟩ := by
  unfold Proj.add
  split
  · next h =>
    simp only [mul3b_eq hC, rcbX, rcbY, rcbZ, h]
    refine Proj.ext ?_ ?_ ?_ <;> dsimp only <;> ring
  · simp only [mul3b_eq hC, rcbX, rcbY, rcbZ]
    refine Proj.ext ?_ ?_ ?_ <;> dsimp only <;> ring

theorem addMixed_eq (hC : Good C) (p : Proj F) (q : Aff F) :
    Proj.addMixed C p q = if Aff.isIdentity q then p else
      ⟨rcbX C.a C.b p.x p.y p.z q.x q.y 1, rcbY C.a C.b p.x p.y p.z q.x q.y 1,
      rcbZ C.a C.b p.x p.y p.z q.x q.y 1⟩ := by
  unfold Proj.addMixed
  split
  · next h =>
    split
    · rfl
    · simp only [mul3b_eq hC, rcbX, rcbY, rcbZ, h]
      refine Proj.ext ?_ ?_ ?_ <;> dsimp only <;> ring
  · split
    · rfl
    · simp only [mul3b_eq hC, rcbX, rcbY, rcbZ]
      refine Proj.ext ?_ ?_ ?_ <;> dsimp only <;> ring

theorem isZero_eq (x : F) : isZero x = decide (x = 0) := by
  rw [Bool.eq_iff_iff, LawfulBase.isZero_iff, decide_eq_true_iff]

theorem double_eq (hC : Good C) (p : Proj F)
    (hp : p.y * p.y * p.z = p.x * p.x * p.x + C.a * p.x * p.z * p.z + C.b * p.z * p.z * p.z) :
    Proj.double C p = if p.z = 0 then Proj.identity else
      ⟨rcbX C.a C.b p.x p.y p.z p.x p.y p.z, rcbY C.a C.b p.x p.y p.z p.x p.y p.z,
        rcbZ C.a C.b p.x p.y p.z p.x p.y p.z⟩ := by
  unfold Proj.double
  simp only [Proj.isIdentity, LawfulBase.isZero_iff, LawfulBase.sqr_eq, mul3b_eq hC]
  split
  · next h =>
    split
    · rfl
    · simp only [rcbX, rcbY, rcbZ, h]
      rw [h] at hp
      refine Proj.ext ?_ ?_ ?_ <;> dsimp only
      · ring
      · linear_combination 18 * C.b * p.z * hp
      · linear_combination 6 * p.y * hp
  · split
    · rfl
    · simp only [rcbX, rcbY, rcbZ]
      refine Proj.ext ?_ ?_ ?_ <;> dsimp only
      · ring
      · ring
      · linear_combination 6 * p.y * hp

/-! ## The formulas on affine points -/

section Affine

variable {a b : F} {x1 y1 x2 y2 : F}

/-- `rcbZ` is, up to the cube of `x1 - x2`, the `y` coordinate of `P - Q`. -/
theorem rcbZ_eq (e1 : y1 * y1 = x1 * x1 * x1 + a * x1 + b) (e2 : y2 * y2 = x2 * x2 * x2 + a * x2 + b) :
    rcbZ a b x1 y1 1 x2 y2 1 =
    (y1 + y2) * ((y1 + y2) * (y1 + y2) - (2 * x1 + x2) * (x1 - x2) * (x1 - x2)) + y1 * (x1 - x2) * (x1 - x2) * (x1 - x2) := by
  simp only [rcbZ]
  linear_combination -(y1 + 2 * y2) * e1 - (2 * y1 + y2) * e2

theorem rcb_X_ne (e1 : y1 * y1 = x1 * x1 * x1 + a * x1 + b) (e2 : y2 * y2 = x2 * x2 * x2 + a * x2 + b)
    (hx : x1 ≠ x2) :
    rcbX a b x1 y1 1 x2 y2 1 = (((y1 - y2) / (x1 - x2)) ^ 2 - x1 - x2) * rcbZ a b x1 y1 1 x2 y2 1 := by
  have hd : x1 - x2 ≠ 0 := sub_ne_zero.mpr hx
  have hb : b = y1 * y1 - x1 * x1 * x1 - a * x1 := by linear_combination -e1
  have ha : a = ((y1 * y1 - y2 * y2) - (x1 * x1 * x1 - x2 * x2 * x2)) / (x1 - x2) := by
    rw [eq_div_iff hd]; linear_combination e2 - e1
  rw [hb]
  simp only [rcbX, rcbZ]
  rw [ha]
  field_simp
  ring

theorem rcb_Y_ne (e1 : y1 * y1 = x1 * x1 * x1 + a * x1 + b) (e2 : y2 * y2 = x2 * x2 * x2 + a * x2 + b)
    (hx : x1 ≠ x2) :
    rcbY a b x1 y1 1 x2 y2 1 = (-((y1 - y2) / (x1 - x2) * (((y1 - y2) / (x1 - x2)) ^ 2 - x1 - x2 - x1) + y1))
      * rcbZ a b x1 y1 1 x2 y2 1 := by
  have hd : x1 - x2 ≠ 0 := sub_ne_zero.mpr hx
  have hb : b = y1 * y1 - x1 * x1 * x1 - a * x1 := by linear_combination -e1
  have ha : a = ((y1 * y1 - y2 * y2) - (x1 * x1 * x1 - x2 * x2 * x2)) / (x1 - x2) := by
    rw [eq_div_iff hd]; linear_combination e2 - e1
  rw [hb]
  simp only [rcbY, rcbZ]
  rw [ha]
  field_simp
  ring

theorem rcbZ_ne_zero (hr : ∀ x : F, x * x * x + a * x + b ≠ 0)
    (e1 : y1 * y1 = x1 * x1 * x1 + a * x1 + b) (e2 : y2 * y2 = x2 * x2 * x2 + a * x2 + b)
    (hx : x1 ≠ x2) : rcbZ a b x1 y1 1 x2 y2 1 ≠ 0 := by
  intro h0
  rw [rcbZ_eq e1 e2] at h0
  have hd : x1 - x2 ≠ 0 := sub_ne_zero.mpr hx
  have hb : b = y1 * y1 - x1 * x1 * x1 - a * x1 := by linear_combination -e1
  have ha : a = ((y1 * y1 - y2 * y2) - (x1 * x1 * x1 - x2 * x2 * x2)) / (x1 - x2) := by
    rw [eq_div_iff hd]; linear_combination e2 - e1
  have hy : ((y1 + y2) / (x1 - x2)) * (((y1 + y2) / (x1 - x2)) ^ 2 - x1 - x2 - x1) + y1 = 0 := by
    field_simp
    linear_combination h0
  apply hr (((y1 + y2) / (x1 - x2)) ^ 2 - x1 - x2)
  generalize hl : (y1 + y2) / (x1 - x2) = l at hy ⊢
  rw [div_eq_iff hd] at hl
  have hy1 : y1 = -(l * (l ^ 2 - x1 - x2 - x1)) := by linear_combination hy
  have hy2 : y2 = l * (x1 - x2) - y1 := by linear_combination hl
  rw [hb, ha]
  field_simp
  rw [hy2, hy1]
  ring

/-- Doubling: `x1 = x2`, `y1 = y2`. -/
theorem rcb_dbl_Z (e1 : y1 * y1 = x1 * x1 * x1 + a * x1 + b) :
    rcbZ a b x1 y1 1 x1 y1 1 = 8 * y1 * y1 * y1 := by
  simp only [rcbZ]
  linear_combination -6 * y1 * e1

theorem rcb_dbl_X (h2 : (2 : F) ≠ 0) (hy : y1 ≠ 0) (e1 : y1 * y1 = x1 * x1 * x1 + a * x1 + b) :
    rcbX a b x1 y1 1 x1 y1 1 = (((3 * x1 ^ 2 + a) / (y1 + y1)) ^ 2 - x1 - x1) * (8 * y1 * y1 * y1) := by
  have hb : b = y1 * y1 - x1 * x1 * x1 - a * x1 := by linear_combination -e1
  rw [← two_mul, hb]
  simp only [rcbX]
  field_simp
  ring

theorem rcb_dbl_Y (h2 : (2 : F) ≠ 0) (hy : y1 ≠ 0) (e1 : y1 * y1 = x1 * x1 * x1 + a * x1 + b) :
    rcbY a b x1 y1 1 x1 y1 1 = (-((3 * x1 ^ 2 + a) / (y1 + y1) * (((3 * x1 ^ 2 + a) / (y1 + y1)) ^ 2 - x1 - x1 - x1) + y1))
      * (8 * y1 * y1 * y1) := by
  have hb : b = y1 * y1 - x1 * x1 * x1 - a * x1 := by linear_combination -e1
  rw [← two_mul, hb]
  simp only [rcbY]
  field_simp
  ring

/-- Opposite points: `x1 = x2`, `y2 = -y1`. -/
theorem rcb_opp_Y (h2 : (2 : F) ≠ 0) (hr : ∀ x : F, x * x * x + a * x + b ≠ 0) (hy : y1 ≠ 0)
    (e1 : y1 * y1 = x1 * x1 * x1 + a * x1 + b) :
    rcbY a b x1 y1 1 x1 (-y1) 1 ≠ 0 := by
  intro h0
  have hb : b = y1 * y1 - x1 * x1 * x1 - a * x1 := by linear_combination -e1
  apply hr (((3 * x1 ^ 2 + a) / (2 * y1)) ^ 2 - x1 - x1)
  simp only [rcbY] at h0
  have hY : (3 * x1 ^ 2 + a) / (2 * y1) * (((3 * x1 ^ 2 + a) / (2 * y1)) ^ 2 - x1 - x1 - x1) + y1 = 0 := by
    field_simp
    rw [hb] at h0
    linear_combination -h0
  generalize hl : (3 * x1 ^ 2 + a) / (2 * y1) = l at hY ⊢
  rw [div_eq_iff (mul_ne_zero h2 hy)] at hl
  have ha : a = l * (2 * y1) - 3 * x1 ^ 2 := by linear_combination hl
  have hy1 : y1 = -(l * (l ^ 2 - x1 - x1 - x1)) := by linear_combination hY
  rw [hb, ha, hy1]
  ring

end Affine

/-! ## Refinement of the group law -/

theorem rcbX_scale (a b x1 y1 z1 x2 y2 z2 : F) : rcbX a b (x1 * z1) (y1 * z1) z1 (x2 * z2) (y2 * z2) z2 =
    rcbX a b x1 y1 1 x2 y2 1 * (z1 * z1 * (z2 * z2)) := by simp only [rcbX]; ring
theorem rcbY_scale (a b x1 y1 z1 x2 y2 z2 : F) : rcbY a b (x1 * z1) (y1 * z1) z1 (x2 * z2) (y2 * z2) z2 =
    rcbY a b x1 y1 1 x2 y2 1 * (z1 * z1 * (z2 * z2)) := by simp only [rcbY]; ring
theorem rcbZ_scale (a b x1 y1 z1 x2 y2 z2 : F) : rcbZ a b (x1 * z1) (y1 * z1) z1 (x2 * z2) (y2 * z2) z2 =
    rcbZ a b x1 y1 1 x2 y2 1 * (z1 * z1 * (z2 * z2)) := by simp only [rcbZ]; ring

theorem rcb_spec (hC : Good C) {P Q : Proj F} {p q : Pt C} (hP : PRep C P p) (hQ : PRep C Q q) :
    PRep C ⟨rcbX C.a C.b P.x P.y P.z Q.x Q.y Q.z, rcbY C.a C.b P.x P.y P.z Q.x Q.y Q.z,
      rcbZ C.a C.b P.x P.y P.z Q.x Q.y Q.z⟩ (p + q) := by
  rcases p with _ | ⟨x1, y1, h1⟩
  · obtain ⟨a1, a2, a3⟩ := hP
    rcases q with _ | ⟨x2, y2, h2⟩
    · obtain ⟨b1, b2, b3⟩ := hQ
      change PRep C _ (0 + 0 : Pt C)
      rw [add_zero, PRep.zero_iff]
      simp only [rcbX, rcbY, rcbZ, a1, a2, b1, b2]
      refine ⟨by ring, by ring, ?_⟩
      have : P.y * Q.y * (P.y * Q.y) ≠ 0 := mul_ne_zero (mul_ne_zero a3 b3) (mul_ne_zero a3 b3)
      intro h0
      apply this
      linear_combination h0
    · obtain ⟨b1, b2, b3⟩ := hQ
      change PRep C _ (0 + .some x2 y2 h2 : Pt C)
      rw [zero_add, PRep.some_iff]
      have hy := y_ne_zero hC h2.1
      simp only [rcbX, rcbY, rcbZ, a1, a2, b2, b3]
      refine ⟨?_, by ring, by ring⟩
      have : P.y * P.y * (y2 * Q.z * Q.z) ≠ 0 := mul_ne_zero (mul_ne_zero a3 a3) (mul_ne_zero (mul_ne_zero hy b1) b1)
      intro h0
      apply this
      linear_combination h0
  · obtain ⟨a1, a2, a3⟩ := hP
    have hy := y_ne_zero hC h1.1
    rcases q with _ | ⟨x2, y2, h2⟩
    · obtain ⟨b1, b2, b3⟩ := hQ
      change PRep C _ (.some x1 y1 h1 + 0 : Pt C)
      rw [add_zero, PRep.some_iff]
      simp only [rcbX, rcbY, rcbZ, a3, a2, b1, b2]
      refine ⟨?_, by ring, by ring⟩
      have : Q.y * Q.y * (y1 * P.z * P.z) ≠ 0 := mul_ne_zero (mul_ne_zero b3 b3) (mul_ne_zero (mul_ne_zero hy a1) a1)
      intro h0
      apply this
      linear_combination h0
    · obtain ⟨b1, b2, b3⟩ := hQ
      have e1 := (equation_iff C x1 y1).mp h1.1
      have e2 := (equation_iff C x2 y2).mp h2.1
      have hk : P.z * P.z * (Q.z * Q.z) ≠ 0 := mul_ne_zero (mul_ne_zero a1 a1) (mul_ne_zero b1 b1)
      rw [a2, a3, b2, b3, rcbX_scale, rcbY_scale, rcbZ_scale]
      generalize P.z * P.z * (Q.z * Q.z) = k at hk
      by_cases hx : x1 = x2
      · subst hx
        by_cases hyy : y1 = -y2
        · rw [Affine.Point.add_of_Y_eq rfl (by rw [negY_eq]; exact hyy), PRep.zero_iff]
          have : y2 = -y1 := by rw [hyy, neg_neg]
          subst this
          refine ⟨?_, ?_, mul_ne_zero (rcb_opp_Y hC.two hC.noRoot hy e1) hk⟩
          · simp only [rcbZ]; ring
          · simp only [rcbX]; ring
        · have hys : y2 = y1 := by
            have : (y2 - y1) * (y1 + y2) = 0 := by linear_combination e2 - e1
            rcases mul_eq_zero.mp this with h | h
            · exact sub_eq_zero.mp h
            · exact absurd (eq_neg_of_add_eq_zero_left h) hyy
          subst hys
          have hny : y2 ≠ (W C).negY x1 y2 := by rw [negY_eq]; exact hyy
          rw [Affine.Point.add_some (by rintro ⟨_, h⟩; exact hny h), PRep.some_iff,
            Affine.slope_of_Y_ne rfl hny, rcb_dbl_Z e1, rcb_dbl_X hC.two hy e1, rcb_dbl_Y hC.two hy e1]
          simp only [Affine.addX, Affine.addY, Affine.negAddY, Affine.negY, W]
          have h8 : (8 : F) * y2 * y2 * y2 ≠ 0 := by
            have : (8 : F) = 2 * 2 * 2 := by norm_num
            rw [this]
            exact mul_ne_zero (mul_ne_zero (mul_ne_zero (mul_ne_zero (mul_ne_zero hC.two hC.two) hC.two) hy) hy) hy
          have e3 : y2 - (-y2 - 0 * x1 - 0) = y2 + y2 := by ring
          have e4 : 3 * x1 ^ 2 + 2 * 0 * x1 + C.a - 0 * y2 = 3 * x1 ^ 2 + C.a := by ring
          rw [e3, e4]
          refine ⟨mul_ne_zero h8 hk, by ring, by ring⟩
      · rw [Affine.Point.add_some (by rintro ⟨h, _⟩; exact hx h), PRep.some_iff,
          Affine.slope_of_X_ne hx, rcb_X_ne e1 e2 hx, rcb_Y_ne e1 e2 hx]
        simp only [Affine.addX, Affine.addY, Affine.negAddY, Affine.negY, W]
        refine ⟨mul_ne_zero (rcbZ_ne_zero hC.noRoot e1 e2 hx) hk, by ring, by ring⟩

theorem PRep.add (hC : Good C) {P Q : Proj F} {p q : Pt C} (hP : PRep C P p) (hQ : PRep C Q q) :
    PRep C (Proj.add C P Q) (p + q) := by
  rw [add_eq hC]
  exact rcb_spec hC hP hQ

theorem PRep.curveEq {P : Proj F} {p : Pt C} (hP : PRep C P p) :
    P.y * P.y * P.z = P.x * P.x * P.x + C.a * P.x * P.z * P.z + C.b * P.z * P.z * P.z := by
  rcases p with _ | ⟨x, y, h⟩
  · obtain ⟨h1, h2, h3⟩ := hP
    rw [h1, h2]
    ring
  · obtain ⟨h1, h2, h3⟩ := hP
    have he := (equation_iff C x y).mp h.1
    rw [h2, h3]
    linear_combination P.z * P.z * P.z * he

theorem PRep.identity : PRep C (Proj.identity : Proj F) 0 := ⟨rfl, rfl, one_ne_zero⟩

theorem PRep.z_eq_zero {P : Proj F} {p : Pt C} (hP : PRep C P p) : P.z = 0 ↔ p = 0 := by
  rcases p with _ | ⟨x, y, h⟩
  · exact ⟨fun _ => rfl, fun _ => hP.1⟩
  · exact ⟨fun h => absurd h hP.1, fun h => absurd h (Affine.Point.some_ne_zero _)⟩

theorem PRep.isIdentity {P : Proj F} {p : Pt C} (hP : PRep C P p) : P.isIdentity = true ↔ p = 0 := by
  rw [Proj.isIdentity, LawfulBase.isZero_iff, hP.z_eq_zero]

theorem PRep.double (hC : Good C) {P : Proj F} {p : Pt C} (hP : PRep C P p) :
    PRep C (Proj.double C P) (p + p) := by
  rw [double_eq hC P hP.curveEq]
  split
  · next h =>
    rw [hP.z_eq_zero] at h
    rw [h, add_zero]
    exact PRep.identity
  · exact rcb_spec hC hP hP

theorem PRep.neg {P : Proj F} {p : Pt C} (hP : PRep C P p) : PRep C (Proj.neg P) (-p) := by
  rcases p with _ | ⟨x, y, h⟩
  · obtain ⟨h1, h2, h3⟩ := hP
    exact ⟨h1, h2, neg_ne_zero.mpr h3⟩
  · obtain ⟨h1, h2, h3⟩ := hP
    rw [Affine.Point.neg_some, PRep.some_iff, negY_eq]
    simp only [Proj.neg]
    exact ⟨h1, h2, by rw [h3]; ring⟩

theorem PRep.sub (hC : Good C) {P Q : Proj F} {p q : Pt C} (hP : PRep C P p) (hQ : PRep C Q q) :
    PRep C (Proj.sub C P Q) (p - q) := by
  rw [sub_eq_add_neg, Proj.sub]
  exact hP.add hC hQ.neg

theorem ARep.isIdentity (hC : Good C) {P : Aff F} {p : Pt C} (hP : ARep C P p) : P.isIdentity = true ↔ p = 0 := by
  rw [Aff.isIdentity, Bool.and_eq_true, LawfulBase.isZero_iff, LawfulBase.isZero_iff]
  rcases p with _ | ⟨x, y, h⟩
  · exact ⟨fun _ => rfl, fun _ => hP⟩
  · exact ⟨fun hh => absurd (hP.2.symm.trans hh.2) (y_ne_zero hC h.1), fun h => absurd h (Affine.Point.some_ne_zero _)⟩

theorem ARep.toCurve (hC : Good C) {P : Aff F} {p : Pt C} (hP : ARep C P p) : PRep C (Aff.toCurve P) p := by
  rw [Aff.toCurve]
  split
  · next h =>
    rw [hP.isIdentity hC] at h
    rw [h]
    exact PRep.identity
  · next h =>
    rw [hP.isIdentity hC] at h
    rcases p with _ | ⟨x, y, h⟩
    · exact absurd rfl h
    · obtain ⟨h1, h2⟩ := hP
      exact ⟨one_ne_zero, by rw [h1, mul_one], by rw [h2, mul_one]⟩

theorem PRep.addMixed (hC : Good C) {P : Proj F} {Q : Aff F} {p q : Pt C} (hP : PRep C P p) (hQ : ARep C Q q) :
    PRep C (Proj.addMixed C P Q) (p + q) := by
  rw [addMixed_eq hC]
  have h2 := hQ.toCurve hC
  rw [Aff.toCurve] at h2
  split
  · next h =>
    rw [hQ.isIdentity hC] at h
    rw [h, add_zero]
    exact hP
  · next h =>
    rw [if_neg h] at h2
    exact rcb_spec hC hP h2

theorem ARep.neg {P : Aff F} {p : Pt C} (hP : ARep C P p) : ARep C (Aff.neg P) (-p) := by
  rcases p with _ | ⟨x, y, h⟩
  · obtain ⟨h1, h2⟩ := hP
    exact ⟨h1, by simp only [Aff.neg, h2, neg_zero]⟩
  · obtain ⟨h1, h2⟩ := hP
    rw [Affine.Point.neg_some, ARep.some_iff, negY_eq]
    simp only [Aff.neg]
    exact ⟨h1, by rw [h2]⟩

theorem PRep.subMixed (hC : Good C) {P : Proj F} {Q : Aff F} {p q : Pt C} (hP : PRep C P p) (hQ : ARep C Q q) :
    PRep C (Proj.subMixed C P Q) (p - q) := by
  rw [sub_eq_add_neg, Proj.subMixed]
  exact hP.addMixed hC hQ.neg

theorem ARep.identity : ARep C (Aff.identity : Aff F) 0 := ⟨rfl, rfl⟩

theorem invert_getD (x : F) : (invert x).getD 0 = x⁻¹ := by
  rw [LawfulBase.invert_eq]
  split
  · next h => rw [h, inv_zero]; rfl
  · rfl

theorem PRep.toAffine {P : Proj F} {p : Pt C} (hP : PRep C P p) : ARep C (Proj.toAffine P) p := by
  rw [Proj.toAffine, invert_getD]
  simp only [LawfulBase.isZero_iff, inv_eq_zero, hP.z_eq_zero]
  split
  · next h => rw [h]; exact ARep.identity
  · next h =>
    rcases p with _ | ⟨x, y, h⟩
    · exact absurd rfl h
    · obtain ⟨h1, h2, h3⟩ := hP
      rw [ARep.some_iff]
      dsimp only
      rw [h2, h3, mul_inv_cancel_right₀ h1, mul_inv_cancel_right₀ h1]
      exact ⟨rfl, rfl⟩

theorem PRep.ctEq {P Q : Proj F} {p q : Pt C} (hP : PRep C P p) (hQ : PRep C Q q) :
    Proj.ctEq P Q = true ↔ p = q := by
  have i1 := hP.isIdentity
  have i2 := hQ.isIdentity
  simp only [Proj.ctEq, Bool.or_eq_true, Bool.and_eq_true, Bool.not_eq_true', decide_eq_true_iff]
  rw [← Bool.not_eq_true, ← Bool.not_eq_true, i1, i2]
  rcases p with _ | ⟨x, y, h⟩ <;> rcases q with _ | ⟨x', y', h'⟩
  · exact ⟨fun _ => rfl, fun _ => Or.inl ⟨rfl, rfl⟩⟩
  · constructor
    · rintro (⟨_, h⟩ | ⟨⟨⟨h, _⟩, _⟩, _⟩)
      · exact h.symm
      · exact absurd rfl h
    · intro h; cases h
  · constructor
    · rintro (⟨h, _⟩ | ⟨⟨⟨_, h⟩, _⟩, _⟩)
      · exact h
      · exact absurd rfl h
    · intro h; cases h
  · obtain ⟨h1, h2, h3⟩ := hP
    obtain ⟨g1, g2, g3⟩ := hQ
    rw [Affine.Point.some.injEq]
    have hk := mul_ne_zero h1 g1
    constructor
    · rintro (⟨h, _⟩ | ⟨⟨_, hx⟩, hy⟩)
      · exact absurd h (Affine.Point.some_ne_zero _)
      · constructor
        · apply mul_right_cancel₀ hk
          rw [h2, g2] at hx
          linear_combination hx
        · apply mul_right_cancel₀ hk
          rw [h3, g3] at hy
          linear_combination hy
    · rintro ⟨rfl, rfl⟩
      refine Or.inr ⟨⟨⟨Affine.Point.some_ne_zero _, Affine.Point.some_ne_zero _⟩, ?_⟩, ?_⟩
      · rw [h2, g2]; ring
      · rw [h3, g3]; ring

theorem ARep.ext_iff (hC : Good C) {P Q : Aff F} {p q : Pt C} (hP : ARep C P p) (hQ : ARep C Q q) :
    P = Q ↔ p = q := by
  constructor
  · rintro rfl
    exact hP.unique hC hQ
  · rintro rfl
    rcases p with _ | ⟨x, y, h⟩
    · exact Aff.ext (hP.1.trans hQ.1.symm) (hP.2.trans hQ.2.symm)
    · exact Aff.ext (hP.1.trans hQ.1.symm) (hP.2.trans hQ.2.symm)

theorem Aff.eq_iff (P Q : Aff F) : Aff.eq P Q = true ↔ P = Q := by
  rw [Aff.eq, Bool.and_eq_true, decide_eq_true_iff, decide_eq_true_iff, Aff.ext_iff]

theorem ARep.ctEq (hC : Good C) {P Q : Aff F} {p q : Pt C} (hP : ARep C P p) (hQ : ARep C Q q) :
    Aff.ctEq P Q = true ↔ p = q := by
  have i1 := hP.isIdentity hC
  have i2 := hQ.isIdentity hC
  rw [← hP.ext_iff hC hQ]
  simp only [Aff.ctEq, Bool.or_eq_true, Bool.and_eq_true, Bool.not_eq_true', decide_eq_true_iff]
  rw [← Bool.not_eq_true, ← Bool.not_eq_true, i1, i2]
  constructor
  · rintro (⟨h1, h2⟩ | ⟨⟨_, h1⟩, h2⟩)
    · exact (hP.ext_iff hC hQ).mpr (h1.trans h2.symm)
    · exact Aff.ext h1 h2
  · rintro rfl
    have := hP.unique hC hQ
    subst this
    by_cases h : p = 0
    · exact Or.inl ⟨h, h⟩
    · exact Or.inr ⟨⟨⟨h, h⟩, rfl⟩, rfl⟩

theorem ARep.add (hC : Good C) {P Q : Aff F} {p q : Pt C} (hP : ARep C P p) (hQ : ARep C Q q) :
    PRep C (Aff.add C P Q) (p + q) := by
  rw [add_comm, Aff.add]
  exact (hQ.toCurve hC).add hC (hP.toCurve hC)

theorem ARep.exists (q : Pt C) : ∃ P, ARep C P q := by
  rcases q with _ | ⟨x, y, h⟩
  · exact ⟨⟨0, 0⟩, rfl, rfl⟩
  · exact ⟨⟨x, y⟩, rfl, rfl⟩

theorem Proj.isOnCurve_iff (P : Proj F) : Proj.isOnCurve C P = true ↔
    (P.z = 0 ∨ P.y * P.y * P.z = P.x * P.x * P.x + C.a * P.x * P.z * P.z + C.b * P.z * P.z * P.z) := by
  rw [Proj.isOnCurve]
  split
  · next h =>
    simp only [Bool.or_eq_true, decide_eq_true_iff, LawfulBase.isZero_iff, LawfulBase.sqr_eq, h]
    rw [or_comm]
    refine or_congr Iff.rfl ?_
    constructor <;> intro h <;> linear_combination h
  · simp only [Bool.or_eq_true, decide_eq_true_iff, LawfulBase.isZero_iff, LawfulBase.sqr_eq]
    rw [or_comm]
    refine or_congr Iff.rfl ?_
    constructor <;> intro h <;> linear_combination h

theorem Aff.isOnCurve_iff (P : Aff F) : Aff.isOnCurve C P = true ↔
    ((P.x = 0 ∧ P.y = 0) ∨ P.y * P.y = P.x * P.x * P.x + C.a * P.x + C.b) := by
  rw [Aff.isOnCurve]
  split
  · next h =>
    simp only [Bool.or_eq_true, decide_eq_true_iff, Aff.isIdentity, Bool.and_eq_true, LawfulBase.isZero_iff, LawfulBase.sqr_eq, h]
    rw [or_comm]
    refine or_congr Iff.rfl ?_
    constructor <;> intro h <;> linear_combination h
  · simp only [Bool.or_eq_true, decide_eq_true_iff, Aff.isIdentity, Bool.and_eq_true, LawfulBase.isZero_iff, LawfulBase.sqr_eq]
    rw [or_comm]
    refine or_congr Iff.rfl ?_
    constructor <;> intro h <;> linear_combination h

theorem Aff.valid_iff (hC : Good C) (P : Aff F) : P.Valid C ↔ Aff.isOnCurve C P = true := by
  rw [Aff.isOnCurve_iff]
  constructor
  · rintro ⟨q, hq⟩
    rcases q with _ | ⟨x, y, h⟩
    · exact Or.inl hq
    · obtain ⟨rfl, rfl⟩ := hq
      exact Or.inr ((equation_iff C _ _).mp h.1)
  · rintro (h | h)
    · exact ⟨0, h⟩
    · exact ⟨.some P.x P.y (nonsingular_of hC ((equation_iff C _ _).mpr h)), rfl, rfl⟩

end Halo2.Curve
