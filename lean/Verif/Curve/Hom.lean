import Mathlib.AlgebraicGeometry.EllipticCurve.Affine.Point
import Mathlib.Tactic.FieldSimp
import Mathlib.Tactic.LinearCombination

/-!
# Scaling maps between short Weierstrass curves

For a homomorphism `σ : F → K` of fields and `v² = u³`, the map `(x, y) ↦ (u σ(x), v σ(y))` is a homomorphism
from the points of `y² = x³ + a x + b` over `F` to those of `y² = x³ + u² σ(a) x + u³ σ(b)` over `K`. This
covers the endomorphism of the curves with `a = 0`, the Frobenius map, the inclusion of points under an
extension of the base field, the twists and the maps `psi` of the pairing curves.
-/

namespace Halo2.Curve

open WeierstrassCurve

variable {F K : Type} [Field F] [DecidableEq F] [Field K] [DecidableEq K]

/-- The curve `y² = x³ + a x + b`. -/
def short (a b : F) : Affine F := ⟨0, 0, 0, a, b⟩

theorem short_equation_iff (a b x y : F) : (short a b).Equation x y ↔ y * y = x * x * x + a * x + b := by
  rw [Affine.equation_iff]
  simp only [short]
  constructor <;> intro h <;> linear_combination h

theorem short_nonsingular_iff (a b x y : F) : (short a b).Nonsingular x y ↔
    y * y = x * x * x + a * x + b ∧ (3 * (x * x) + a ≠ 0 ∨ y + y ≠ 0) := by
  rw [Affine.nonsingular_iff, short_equation_iff]
  simp only [short]
  refine and_congr_right fun _ => or_congr (not_congr ?_) (not_congr ?_)
  · constructor <;> intro h <;> linear_combination -h
  · constructor <;> intro h <;> linear_combination h

theorem short_negY (a b x y : F) : (short a b).negY x y = -y := by
  simp only [Affine.negY, short]
  ring

theorem short_addX (a b x1 x2 l : F) : (short a b).addX x1 x2 l = l * l - x1 - x2 := by
  simp only [Affine.addX, short]
  ring

theorem short_addY (a b x1 x2 y1 l : F) : (short a b).addY x1 x2 y1 l = -(l * (l * l - x1 - x2 - x1) + y1) := by
  simp only [Affine.addY, Affine.negAddY, Affine.negY, Affine.addX, short]
  ring

/-- Conditions on the factors of a scaling map. -/
structure Scaling (σ : F →+* K) (u v : K) (a b : F) (a' b' : K) : Prop where
  u0 : u ≠ 0
  v0 : v ≠ 0
  uv : v * v = u * u * u
  ha : a' = u * u * σ a
  hb : b' = u * u * u * σ b

variable {σ : F →+* K} {u v : K} {a b : F} {a' b' : K}

theorem Scaling.nonsingular (h : Scaling σ u v a b a' b') {x y : F} (hp : (short a b).Nonsingular x y) :
    (short a' b').Nonsingular (u * σ x) (v * σ y) := by
  rw [short_nonsingular_iff] at hp ⊢
  obtain ⟨h1, h2⟩ := hp
  have e := congrArg σ h1
  simp only [map_mul, map_add] at e
  refine ⟨?_, h2.imp (fun h2 h3 => h2 ?_) (fun h2 h3 => h2 ?_)⟩
  · rw [h.ha, h.hb]
    linear_combination σ y * σ y * h.uv + u * u * u * e
  · apply (map_eq_zero σ).mp
    simp only [map_mul, map_add, map_ofNat]
    have h4 : u * u * (3 * (σ x * σ x) + σ a) = 0 := by rw [h.ha] at h3; linear_combination h3
    exact (mul_eq_zero.mp h4).resolve_left (mul_ne_zero h.u0 h.u0)
  · apply (map_eq_zero σ).mp
    rw [map_add]
    have h4 : v * (σ y + σ y) = 0 := by linear_combination h3
    exact (mul_eq_zero.mp h4).resolve_left h.v0

/-- The scaling map on points. -/
def Scaling.pt (h : Scaling σ u v a b a' b') : (short a b).Point → (short a' b').Point
  | .zero => 0
  | .some x y hp => .some (u * σ x) (v * σ y) (h.nonsingular hp)

@[simp] theorem Scaling.pt_zero (h : Scaling σ u v a b a' b') : h.pt 0 = 0 := rfl

theorem Scaling.pt_some (h : Scaling σ u v a b a' b') {x y : F} (hp : (short a b).Nonsingular x y) :
    h.pt (.some x y hp) = .some (u * σ x) (v * σ y) (h.nonsingular hp) := rfl

theorem point_ext {W : Affine F} {x y x' y' : F} {h : W.Nonsingular x y} {h' : W.Nonsingular x' y'}
    (hx : x = x') (hy : y = y') : (Affine.Point.some x y h : W.Point) = .some x' y' h' := by
  subst hx hy; rfl

theorem Scaling.slope (h : Scaling σ u v a b a' b') (x1 x2 y1 y2 : F)
    (hxy : ¬(x1 = x2 ∧ y1 = (short a b).negY x2 y2)) (e1 : (short a b).Equation x1 y1) (e2 : (short a b).Equation x2 y2) :
    (short a' b').slope (u * σ x1) (u * σ x2) (v * σ y1) (v * σ y2) = v / u * σ ((short a b).slope x1 x2 y1 y2) := by
  have hu := h.u0
  have hv := h.v0
  by_cases hx : x1 = x2
  · subst hx
    have hy : y1 ≠ (short a b).negY x1 y2 := fun h => hxy ⟨rfl, h⟩
    have hy' : v * σ y1 ≠ (short a' b').negY (u * σ x1) (v * σ y2) := by
      rw [short_negY] at hy ⊢
      intro h3
      apply hy
      apply σ.injective
      rw [map_neg]
      apply mul_left_cancel₀ hv
      linear_combination h3
    rw [Affine.slope_of_Y_ne rfl hy', Affine.slope_of_Y_ne rfl hy]
    rw [short_negY] at hy hy' ⊢
    rw [short_negY]
    have hys : y1 = y2 := by
      rw [short_equation_iff] at e1 e2
      have : (y1 - y2) * (y1 - -y2) = 0 := by linear_combination e1 - e2
      rcases mul_eq_zero.mp this with h | h
      · exact sub_eq_zero.mp h
      · exact absurd (sub_eq_zero.mp h) hy
    subst hys
    have h0 : y1 - -y1 ≠ 0 := sub_ne_zero.mpr hy
    have h1 : σ y1 - -σ y1 ≠ 0 := by
      rw [← map_neg, ← map_sub]
      exact (map_ne_zero σ).mpr h0
    have h2 : v * σ y1 - -(v * σ y1) ≠ 0 := sub_ne_zero.mpr hy'
    rw [map_div₀]
    simp only [short, map_sub, map_neg, map_add, map_mul, map_pow, map_ofNat, map_zero]
    rw [h.ha]
    rw [div_mul_div_comm, div_eq_div_iff h2 (mul_ne_zero hu h1)]
    linear_combination (-(σ y1 + σ y1) * (3 * σ x1 ^ 2 + σ a)) * h.uv
  · have hx' : u * σ x1 ≠ u * σ x2 := fun h3 => hx (σ.injective (mul_left_cancel₀ hu h3))
    rw [Affine.slope_of_X_ne hx', Affine.slope_of_X_ne hx]
    have h0 : σ x1 - σ x2 ≠ 0 := by
      rw [← map_sub]; exact (map_ne_zero σ).mpr (sub_ne_zero.mpr hx)
    rw [map_div₀, map_sub, map_sub, div_mul_div_comm, div_eq_div_iff (sub_ne_zero.mpr hx') (mul_ne_zero hu h0)]
    ring

/-- The scaling map is a homomorphism. -/
def Scaling.hom (h : Scaling σ u v a b a' b') : (short a b).Point →+ (short a' b').Point where
  toFun := h.pt
  map_zero' := rfl
  map_add' p q := by
    rcases p with _ | ⟨x1, y1, h1⟩
    · change h.pt (0 + q) = 0 + h.pt q
      rw [zero_add, zero_add]
    rcases q with _ | ⟨x2, y2, h2⟩
    · change h.pt (.some x1 y1 h1 + 0) = h.pt (.some x1 y1 h1) + 0
      rw [add_zero, add_zero]
    rw [h.pt_some, h.pt_some]
    by_cases hxy : x1 = x2 ∧ y1 = (short a b).negY x2 y2
    · have e1 : u * σ x1 = u * σ x2 := by rw [hxy.1]
      have e2 : v * σ y1 = (short a' b').negY (u * σ x2) (v * σ y2) := by
        rw [hxy.2, short_negY, short_negY, map_neg]
        ring
      rw [Affine.Point.add_of_Y_eq hxy.1 hxy.2, Affine.Point.add_of_Y_eq e1 e2]
      rfl
    · have hxy' : ¬(u * σ x1 = u * σ x2 ∧ v * σ y1 = (short a' b').negY (u * σ x2) (v * σ y2)) := by
        rintro ⟨e1, e2⟩
        refine hxy ⟨σ.injective (mul_left_cancel₀ h.u0 e1), ?_⟩
        rw [short_negY] at e2 ⊢
        apply σ.injective
        rw [map_neg]
        apply mul_left_cancel₀ h.v0
        linear_combination e2
      rw [Affine.Point.add_some hxy, Affine.Point.add_some hxy', h.pt_some]
      have hu := h.u0
      apply point_ext
      · rw [h.slope _ _ _ _ hxy h1.1 h2.1, short_addX, short_addX]
        generalize (short a b).slope x1 x2 y1 y2 = l
        simp only [map_sub, map_mul]
        field_simp
        linear_combination (-(σ l ^ 2)) * h.uv
      · rw [h.slope _ _ _ _ hxy h1.1 h2.1, short_addY, short_addY]
        generalize (short a b).slope x1 x2 y1 y2 = l
        simp only [map_sub, map_mul, map_neg, map_add]
        field_simp
        linear_combination (v * σ l ^ 3) * h.uv

@[simp] theorem Scaling.hom_apply (h : Scaling σ u v a b a' b') (p : (short a b).Point) : h.hom p = h.pt p := rfl

theorem Scaling.hom_some (h : Scaling σ u v a b a' b') {x y : F} (hp : (short a b).Nonsingular x y) :
    h.hom (.some x y hp) = .some (u * σ x) (v * σ y) (h.nonsingular hp) := rfl

theorem Scaling.hom_injective (h : Scaling σ u v a b a' b') : Function.Injective h.hom := by
  rw [injective_iff_map_eq_zero]
  rintro (_ | ⟨x, y, hp⟩) h0
  · rfl
  · exact absurd h0 (by rw [h.hom_some]; exact Affine.Point.some_ne_zero _)

end Halo2.Curve
