import Verif.Pairing.Twist
import Verif.Pairing.Inst

/-!
# The sparse elements are values of lines

Facts about the tower of the target field which the instances share.
-/

set_option linter.unusedSectionVars false

open Halo2.Curve Halo2.Ext ExtField

namespace Halo2.Pairing

section
variable {L : Type} [CommRing L] [ExtField L] [LawfulExt L] [ExtField (Quad L)]
  [LawfulExt (Quad L)] [ExtField (Halo2.Ext.Cubic (Quad L))] [LawfulExt (Halo2.Ext.Cubic (Quad L))]

/-- The quadratic field in the target field. -/
def sig : Quad L →+* Quad (Halo2.Ext.Cubic (Quad L)) := Quad.ofBase.comp Halo2.Ext.Cubic.ofBase

theorem U2 (hv : (nonRes : Halo2.Ext.Cubic (Quad L)) = Halo2.Ext.Cubic.v) :
    (Quad.U : Quad (Halo2.Ext.Cubic (Quad L))) ^ 2 = Quad.ofBase Halo2.Ext.Cubic.v := by
  rw [pow_two, Quad.U_sq, hv]

theorem U6 (hv : (nonRes : Halo2.Ext.Cubic (Quad L)) = Halo2.Ext.Cubic.v) :
    (Quad.U : Quad (Halo2.Ext.Cubic (Quad L))) ^ 6 = sig (nonRes : Quad L) := by
  have e : (Quad.U : Quad (Halo2.Ext.Cubic (Quad L))) ^ 6 = Quad.U ^ 2 * Quad.U ^ 2 * Quad.U ^ 2 := by ring
  rw [e, U2 hv, ← map_mul, ← map_mul, Halo2.Ext.Cubic.v_cube]
  rfl

theorem U2_out (hv : (nonRes : Halo2.Ext.Cubic (Quad L)) = Halo2.Ext.Cubic.v) [Nontrivial L] (t : Quad L) :
    (Quad.U : Quad (Halo2.Ext.Cubic (Quad L))) ^ 2 ≠ sig t := by
  rw [U2 hv]
  intro h
  have h1 : (1 : L) = 0 := congrArg (fun z : Quad (Halo2.Ext.Cubic (Quad L)) => z.c0.c1.c0) h
  exact one_ne_zero h1

theorem conj_sig (t : Quad L) : Quad.conjugate (sig t) = sig t := by
  apply Quad.ext
  · rfl
  · exact neg_zero

theorem conj_U2 (hv : (nonRes : Halo2.Ext.Cubic (Quad L)) = Halo2.Ext.Cubic.v) :
    Quad.conjugate ((Quad.U : Quad (Halo2.Ext.Cubic (Quad L))) ^ 2) = Quad.U ^ 2 := by
  rw [U2 hv]
  apply Quad.ext
  · rfl
  · exact neg_zero

theorem scaleBy_eq (c : Quad L) (k : L) : scaleBy c k = c * Quad.ofBase k := by
  apply Quad.ext
  · simp [scaleBy]
  · simp [scaleBy]

theorem ofBase_v_c (c : Quad L) : (Halo2.Ext.Cubic.ofBase c * Halo2.Ext.Cubic.v : Halo2.Ext.Cubic (Quad L)) = ⟨0, c, 0⟩ := by
  apply Halo2.Ext.Cubic.ext <;> simp [Halo2.Ext.Cubic.v]

theorem quad_eq (x y : Halo2.Ext.Cubic (Quad L)) :
    (⟨x, y⟩ : Quad (Halo2.Ext.Cubic (Quad L))) = Quad.ofBase x + Quad.ofBase y * Quad.U :=
  Quad.eq_ofBase ⟨x, y⟩

theorem cubic_eq (x y z : Quad L) :
    (⟨x, y, z⟩ : Halo2.Ext.Cubic (Quad L)) = Halo2.Ext.Cubic.ofBase x + Halo2.Ext.Cubic.ofBase y * Halo2.Ext.Cubic.v +
      Halo2.Ext.Cubic.ofBase z * (Halo2.Ext.Cubic.v * Halo2.Ext.Cubic.v) := Halo2.Ext.Cubic.eq_ofBase ⟨x, y, z⟩

theorem lineD (hv : (nonRes : Halo2.Ext.Cubic (Quad L)) = Halo2.Ext.Cubic.v) (co : Coeffs (Quad L)) (p : Aff L) :
    (⟨⟨scaleBy co.a p.y, 0, 0⟩, ⟨scaleBy co.b p.x, co.c, 0⟩⟩ : Quad (Halo2.Ext.Cubic (Quad L))) =
      sig co.a * sig (Quad.ofBase p.y) + sig co.b * sig (Quad.ofBase p.x) * Quad.U +
        sig co.c * Quad.U ^ 3 := by
  rw [quad_eq, cubic_eq, cubic_eq, scaleBy_eq, scaleBy_eq, show (Quad.U : Quad (Halo2.Ext.Cubic (Quad L))) ^ 3 =
    Quad.U ^ 2 * Quad.U by ring, U2 hv]
  simp only [sig, RingHom.comp_apply, map_add, map_mul, map_zero]
  ring

theorem lineM (hv : (nonRes : Halo2.Ext.Cubic (Quad L)) = Halo2.Ext.Cubic.v) (co : Coeffs (Quad L)) (p : Aff L) :
    (⟨⟨co.c, scaleBy co.b p.x, 0⟩, ⟨0, scaleBy co.a p.y, 0⟩⟩ : Quad (Halo2.Ext.Cubic (Quad L))) =
      sig co.a * sig (Quad.ofBase p.y) * Quad.U ^ 3 + sig co.b * sig (Quad.ofBase p.x) * Quad.U ^ 2 +
        sig co.c := by
  rw [quad_eq, cubic_eq, cubic_eq, scaleBy_eq, scaleBy_eq, show (Quad.U : Quad (Halo2.Ext.Cubic (Quad L))) ^ 3 =
    Quad.U ^ 2 * Quad.U by ring, U2 hv]
  simp only [sig, RingHom.comp_apply, map_add, map_mul, map_zero]
  ring
end

section
variable {L F K : Type} [Field F] [Field K] {σ : F →+* K} {N : ℕ}

theorem lineLawD {line : Coeffs F → Aff L → K} {w x y : K} {t : Aff L} (hw0 : w ≠ 0)
    (hw : w ^ N = 1) (h : ∀ c, line c t = σ c.a * y + σ c.b * x * w + σ c.c * w ^ 3) :
    LineLaw σ N line t ((w ^ 2)⁻¹ * x) ((w ^ 3)⁻¹ * y) := by
  refine ⟨w ^ 3, by rw [← pow_mul, mul_comm, pow_mul, hw, one_pow], fun c => ?_⟩
  rw [h]
  field_simp

theorem lineLawM {line : Coeffs F → Aff L → K} {w x y : K} {t : Aff L}
    (h : ∀ c, line c t = σ c.a * y * w ^ 3 + σ c.b * x * w ^ 2 + σ c.c) :
    LineLaw σ N line t (w ^ 2 * x) (w ^ 3 * y) := by
  refine ⟨1, one_pow N, fun c => ?_⟩
  rw [h]
  ring
end

/-- Elements fixed by a power of Frobenius are killed by multiples of that power less one. -/
theorem pow_eq_one_of {K : Type} [Field K] {z : K} (hz : z ≠ 0) {q N : ℕ} (hq : q ≠ 0)
    (h : z ^ q = z) (hN : (q - 1) ∣ N) : z ^ N = 1 := by
  have h2 : z ^ (q - 1) = 1 := by
    have e : q = (q - 1) + 1 := by omega
    rw [e, pow_succ] at h
    exact mul_right_cancel₀ hz (h.trans (one_mul _).symm)
  obtain ⟨k, hk⟩ := hN
  rw [hk, pow_mul, h2, one_pow]

/-- Products of values raised to a power. -/
theorem prod_pow_of {A B K : Type} [CommMonoid K] {N : ℕ} {f : A → K} {g : B → K} {ts : List A}
    {PQ : List B} (h : List.Forall₂ (fun t s => f t ^ N = g s) ts PQ) :
    (ts.map f).prod ^ N = (PQ.map g).prod := by
  induction h with
  | nil => exact one_pow N
  | cons h1 _ ih => rw [List.map_cons, List.map_cons, List.prod_cons, List.prod_cons, mul_pow, h1, ih]

end Halo2.Pairing
