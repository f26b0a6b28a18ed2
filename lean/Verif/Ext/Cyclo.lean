import Verif.Ext.Ring
import Mathlib.Tactic.LinearCombination

/-!
# Cyclotomic squaring (src/derive/field/tower.rs:220-248)

With `w^6 = ξ` and `z` a primitive sixth root of unity, the `p^2`-power Frobenius multiplies the
coefficient of `w^i` by `z^i`; the identity `a^(p^4) a = a^(p^2)` of the cyclotomic subgroup turns
into six quadratic relations from which the squaring formulas follow.
-/

set_option linter.unusedSectionVars false

namespace Halo2.Ext.Deg12

open ExtField LawfulExt

variable {F : Type} [CommRing F] [ExtField F] [LawfulExt F] [ExtField (Cubic F)]

/-- Multiply the coefficient of `w^i` by the given constants (`w^2 = v`). -/
def scale (m1 m2 m3 m4 m5 : F) (x : Quad (Cubic F)) : Quad (Cubic F) :=
  ⟨⟨x.c0.c0, x.c0.c1 * m2, x.c0.c2 * m4⟩, ⟨x.c1.c0 * m1, x.c1.c1 * m3, x.c1.c2 * m5⟩⟩

variable [LawfulExt (Cubic F)]

/-- Coefficients of a product in the basis `1, w, ..., w^5`. -/
theorem mul_coeffs (hv : (nonRes : Cubic F) = Cubic.v) (x y : Quad (Cubic F)) :
    x * y = ⟨⟨x.c0.c0 * y.c0.c0 + nonRes * (x.c1.c0 * y.c1.c2 + x.c0.c1 * y.c0.c2 + x.c1.c1 * y.c1.c1
          + x.c0.c2 * y.c0.c1 + x.c1.c2 * y.c1.c0),
        x.c0.c0 * y.c0.c1 + x.c1.c0 * y.c1.c0 + x.c0.c1 * y.c0.c0
          + nonRes * (x.c1.c1 * y.c1.c2 + x.c0.c2 * y.c0.c2 + x.c1.c2 * y.c1.c1),
        x.c0.c0 * y.c0.c2 + x.c1.c0 * y.c1.c1 + x.c0.c1 * y.c0.c1 + x.c1.c1 * y.c1.c0
          + x.c0.c2 * y.c0.c0 + nonRes * (x.c1.c2 * y.c1.c2)⟩,
      ⟨x.c0.c0 * y.c1.c0 + x.c1.c0 * y.c0.c0 + nonRes * (x.c0.c1 * y.c1.c2 + x.c1.c1 * y.c0.c2
          + x.c0.c2 * y.c1.c1 + x.c1.c2 * y.c0.c1),
        x.c0.c0 * y.c1.c1 + x.c1.c0 * y.c0.c1 + x.c0.c1 * y.c1.c0 + x.c1.c1 * y.c0.c0
          + nonRes * (x.c0.c2 * y.c1.c2 + x.c1.c2 * y.c0.c2),
        x.c0.c0 * y.c1.c2 + x.c1.c0 * y.c0.c2 + x.c0.c1 * y.c1.c1 + x.c1.c1 * y.c0.c1
          + x.c0.c2 * y.c1.c0 + x.c1.c2 * y.c0.c0⟩⟩ := by
  have e0 : (x * y).c0 = x.c0 * y.c0 + Cubic.v * (x.c1 * y.c1) := by
    change x.c0 * y.c0 + mulNr (x.c1 * y.c1) = _
    rw [mulNr_eq, hv]
  have e1 : (x * y).c1 = x.c0 * y.c1 + x.c1 * y.c0 := by
    change (x.c0 + x.c1) * (y.c0 + y.c1) - (x.c0 * y.c0 + x.c1 * y.c1) = _
    ring
  have cm : ∀ a b : Cubic F, a * b = ⟨a.c0 * b.c0 + nonRes * (a.c1 * b.c2 + a.c2 * b.c1),
      a.c0 * b.c1 + a.c1 * b.c0 + nonRes * (a.c2 * b.c2), a.c0 * b.c2 + a.c1 * b.c1 + a.c2 * b.c0⟩ := by
    intro a b
    ext
    · change a.c0 * b.c0 + mulNr ((b.c1 + b.c2) * (a.c1 + a.c2) - (a.c2 * b.c2 + a.c1 * b.c1)) = _
      rw [mulNr_eq]; ring
    · change (b.c0 + b.c1) * (a.c0 + a.c1) - (a.c0 * b.c0 + a.c1 * b.c1) + mulNr (a.c2 * b.c2) = _
      rw [mulNr_eq]; ring
    · change (b.c0 + b.c2) * (a.c0 + a.c2) - (a.c0 * b.c0 - a.c1 * b.c1 + a.c2 * b.c2) = _
      ring
  have ca : ∀ a b : Cubic F, a + b = ⟨a.c0 + b.c0, a.c1 + b.c1, a.c2 + b.c2⟩ := fun _ _ => rfl
  have c0 : (Cubic.v : Cubic F).c0 = 0 := rfl
  have c1 : (Cubic.v : Cubic F).c1 = 1 := rfl
  have c2 : (Cubic.v : Cubic F).c2 = 0 := rfl
  apply Quad.ext
  · rw [e0, cm x.c0, cm x.c1, cm Cubic.v, ca, c0, c1, c2]
    ext <;> simp only <;> ring
  · rw [e1, cm x.c0, cm x.c1, ca]
    ext <;> simp only <;> ring

/-- The squaring formulas hold under the six relations. -/
theorem cyclotomicSquare_core (hv : (nonRes : Cubic F) = Cubic.v) (z : F) (hz : z * z + 1 = z)
    (x : Quad (Cubic F))
    (h : scale (z - 1) (-z) 1 (z - 1) (-z) x * x = scale z (z - 1) (-1) (-z) (1 - z) x) :
    cyclotomicSquare x = x * x := by
  rw [mul_coeffs hv] at h ⊢
  obtain ⟨⟨a0, a2, a4⟩, ⟨a1, a3, a5⟩⟩ := x
  rw [scale, scale] at h
  have e0 := congrArg (fun t => t.c0.c0) h
  have e1 := congrArg (fun t => t.c1.c0) h
  have e2 := congrArg (fun t => t.c0.c1) h
  have e3 := congrArg (fun t => t.c1.c1) h
  have e4 := congrArg (fun t => t.c0.c2) h
  have e5 := congrArg (fun t => t.c1.c2) h
  simp only at e0 e1 e2 e3 e4 e5
  clear h
  simp only [cyclotomicSquare, fp4Square, sqr_eq, dbl_eq, mulNr_eq]
  generalize (nonRes : F) = ξ at *
  apply Quad.ext
  · apply Cubic.ext
    · simp only
      linear_combination 2 * e0
    · simp only
      linear_combination 2 * (-z) * e2 + 2 * (a1 * a1 - a2 * a0 + ξ * a4 * a4 - ξ * a5 * a3 - a2) * hz
    · simp only
      linear_combination 2 * (z - 1) * e4 - 2 * (a1 * a3 - a2 * a2 + a4 * a0 - ξ * a5 * a5 + a4) * hz
  · apply Cubic.ext
    · simp only
      linear_combination -2 * (1 - z) * e1 - 2 * (a1 * a0 - ξ * a2 * a5 + ξ * a4 * a3 - ξ * a5 * a2 - a1) * hz
    · simp only
      linear_combination 2 * e3
    · simp only
      linear_combination -2 * z * e5 + 2 * (a1 * a4 - a2 * a3 + a4 * a1 - a5 * a0 + a5) * hz

/-- The `p^2`-power Frobenius is a scaling by powers of a sixth root of unity. -/
theorem frob12_two (t1 t2 t12 : List F) (z : F) (hz : z * z + 1 = z) (hf : ∀ a : F, frob 2 a = a)
    (hc : ∀ a : Cubic F, frob 2 a = Cubic.frob6 t1 t2 2 a) (h1 : t1.getD 2 0 = z * z)
    (h2 : t2.getD 2 0 = (z * z) ^ 2) (h3 : t12.getD 2 0 = z) (x : Quad (Cubic F)) :
    frob12 t12 2 x = scale z (z - 1) (-1) (-z) (1 - z) x := by
  have e1 : t1.getD (2 % 6) 0 = z * z := h1
  have e2 : t2.getD (2 % 6) 0 = (z * z) ^ 2 := h2
  have e3 : t12.getD (2 % 12) 0 = z := h3
  rw [frob12, hc, hc, Cubic.frob6, Cubic.frob6, scale, e1, e2, e3]
  simp only [hf]
  apply Quad.ext
  · apply Cubic.ext
    · rfl
    · simp only; linear_combination x.c0.c1 * hz
    · simp only; linear_combination x.c0.c2 * (z * z + z) * hz
  · apply Cubic.ext
    · rfl
    · simp only; linear_combination x.c1.c1 * (z + 1) * hz
    · simp only; linear_combination x.c1.c2 * (z ^ 3 + z ^ 2 - 1) * hz

/-- The `p^4`-power Frobenius. -/
theorem frob12_four (t1 t2 t12 : List F) (z : F) (hz : z * z + 1 = z) (hf : ∀ a : F, frob 4 a = a)
    (hc : ∀ a : Cubic F, frob 4 a = Cubic.frob6 t1 t2 4 a) (h1 : t1.getD 4 0 = z ^ 4)
    (h2 : t2.getD 4 0 = (z ^ 4) ^ 2) (h3 : t12.getD 4 0 = z * z) (x : Quad (Cubic F)) :
    frob12 t12 4 x = scale (z - 1) (-z) 1 (z - 1) (-z) x := by
  have e1 : t1.getD (4 % 6) 0 = z ^ 4 := h1
  have e2 : t2.getD (4 % 6) 0 = (z ^ 4) ^ 2 := h2
  have e3 : t12.getD (4 % 12) 0 = z * z := h3
  have z2 : z * z = z - 1 := by linear_combination hz
  have z4 : z ^ 4 = -z := by linear_combination (z * z + z) * hz
  rw [frob12, hc, hc, Cubic.frob6, Cubic.frob6, scale, e1, e2, e3, z4, z2]
  simp only [hf]
  apply Quad.ext
  · apply Cubic.ext
    · rfl
    · rfl
    · simp only; linear_combination x.c0.c2 * hz
  · apply Cubic.ext
    · rfl
    · simp only; linear_combination -x.c1.c1 * hz
    · simp only; linear_combination x.c1.c2 * z * hz

end Halo2.Ext.Deg12
