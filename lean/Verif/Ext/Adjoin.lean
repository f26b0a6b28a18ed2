import Verif.Ext.Ring
import Mathlib.RingTheory.AdjoinRoot

/-!
# The extension types are the polynomial quotients `F[u]/(u^2 - β)` and `F[v]/(v^3 - ξ)`
-/

namespace Halo2.Ext

open ExtField LawfulExt Polynomial

variable {F : Type} [CommRing F] [ExtField F]

/-- `u^2 - β`, `β` the declared non-residue. -/
noncomputable def quadPoly (F : Type) [CommRing F] [ExtField F] : F[X] := X ^ 2 - C nonRes
/-- `v^3 - ξ`, `ξ` the declared non-residue. -/
noncomputable def cubicPoly (F : Type) [CommRing F] [ExtField F] : F[X] := X ^ 3 - C nonRes

/-- `c0 + c1 u` in the quotient. -/
noncomputable def quadEval (x : Quad F) : AdjoinRoot (quadPoly F) :=
  AdjoinRoot.of _ x.c0 + AdjoinRoot.of _ x.c1 * AdjoinRoot.root _

/-- `c0 + c1 v + c2 v^2` in the quotient. -/
noncomputable def cubicEval (x : Cubic F) : AdjoinRoot (cubicPoly F) :=
  AdjoinRoot.of _ x.c0 + AdjoinRoot.of _ x.c1 * AdjoinRoot.root _
    + AdjoinRoot.of _ x.c2 * AdjoinRoot.root _ ^ 2

theorem quad_root : AdjoinRoot.root (quadPoly F) ^ 2 = AdjoinRoot.of (quadPoly F) nonRes := by
  have h := AdjoinRoot.eval₂_root (quadPoly F)
  rw [quadPoly, eval₂_sub, eval₂_pow, eval₂_X, eval₂_C] at h
  exact sub_eq_zero.mp h

theorem cubic_root : AdjoinRoot.root (cubicPoly F) ^ 3 = AdjoinRoot.of (cubicPoly F) nonRes := by
  have h := AdjoinRoot.eval₂_root (cubicPoly F)
  rw [cubicPoly, eval₂_sub, eval₂_pow, eval₂_X, eval₂_C] at h
  exact sub_eq_zero.mp h

theorem quadPoly_monic : (quadPoly F).Monic := monic_X_pow_sub_C _ (by decide)
theorem cubicPoly_monic : (cubicPoly F).Monic := monic_X_pow_sub_C _ (by decide)
theorem quadPoly_natDegree [Nontrivial F] : (quadPoly F).natDegree = 2 := natDegree_X_pow_sub_C
theorem cubicPoly_natDegree [Nontrivial F] : (cubicPoly F).natDegree = 3 := natDegree_X_pow_sub_C

theorem quadEval_eq_mk (x : Quad F) :
    quadEval x = AdjoinRoot.mk (quadPoly F) (C x.c0 + C x.c1 * X) := by
  simp only [quadEval, map_add, map_mul]; rfl

theorem cubicEval_eq_mk (x : Cubic F) :
    cubicEval x = AdjoinRoot.mk (cubicPoly F) (C x.c0 + C x.c1 * X + C x.c2 * X ^ 2) := by
  simp only [cubicEval, map_add, map_mul, map_pow]; rfl

theorem mk_inj_of_degree {f g h : F[X]} (hf : f.Monic) (hg : g.degree < f.degree)
    (hh : h.degree < f.degree) (e : AdjoinRoot.mk f g = AdjoinRoot.mk f h) : g = h := by
  rw [AdjoinRoot.mk_eq_mk] at e
  by_contra hne
  exact hf.not_dvd_of_degree_lt (sub_ne_zero.mpr hne)
    (lt_of_le_of_lt (degree_sub_le _ _) (max_lt hg hh)) e

theorem quadEval_bijective [Nontrivial F] : Function.Bijective (quadEval : Quad F → _) := by
  have hdeg : (quadPoly F).degree = 2 := by
    rw [degree_eq_natDegree quadPoly_monic.ne_zero, quadPoly_natDegree]; rfl
  constructor
  · intro x y h
    rw [quadEval_eq_mk, quadEval_eq_mk] at h
    have hlt : ∀ z : Quad F, (C z.c0 + C z.c1 * X : F[X]).degree < (quadPoly F).degree := by
      intro z; rw [hdeg, add_comm]; exact degree_linear_lt
    have := mk_inj_of_degree quadPoly_monic (hlt x) (hlt y) h
    have h0 := congrArg (fun q => coeff q 0) this
    have h1 := congrArg (fun q => coeff q 1) this
    ext
    · simpa using h0
    · simpa using h1
  · intro z
    obtain ⟨g, rfl⟩ := AdjoinRoot.mk_surjective z
    set r := g %ₘ quadPoly F with hr
    have hrd : r.natDegree < 2 := by
      have := natDegree_modByMonic_lt g (quadPoly_monic (F := F))
        (by intro h; have := quadPoly_natDegree (F := F); rw [h, natDegree_one] at this; cases this)
      rwa [quadPoly_natDegree] at this
    refine ⟨⟨r.coeff 0, r.coeff 1⟩, ?_⟩
    rw [quadEval_eq_mk, AdjoinRoot.mk_eq_mk]
    have : (C (r.coeff 0) + C (r.coeff 1) * X : F[X]) = r := by
      conv_rhs => rw [r.as_sum_range' 2 hrd]
      rw [Finset.sum_range_succ, Finset.sum_range_one]
      simp [← C_mul_X_pow_eq_monomial]
    rw [this, hr]
    have e := modByMonic_add_div g (quadPoly F)
    exact ⟨-(g /ₘ quadPoly F), by linear_combination e⟩

theorem cubicEval_bijective [Nontrivial F] : Function.Bijective (cubicEval : Cubic F → _) := by
  have hdeg : (cubicPoly F).degree = 3 := by
    rw [degree_eq_natDegree cubicPoly_monic.ne_zero, cubicPoly_natDegree]; rfl
  constructor
  · intro x y h
    rw [cubicEval_eq_mk, cubicEval_eq_mk] at h
    have hlt : ∀ z : Cubic F,
        (C z.c0 + C z.c1 * X + C z.c2 * X ^ 2 : F[X]).degree < (cubicPoly F).degree := by
      intro z; rw [hdeg, show (C z.c0 + C z.c1 * X + C z.c2 * X ^ 2 : F[X])
        = C z.c2 * X ^ 2 + C z.c1 * X + C z.c0 by ring]; exact degree_quadratic_lt
    have := mk_inj_of_degree cubicPoly_monic (hlt x) (hlt y) h
    have h0 := congrArg (fun q => coeff q 0) this
    have h1 := congrArg (fun q => coeff q 1) this
    have h2 := congrArg (fun q => coeff q 2) this
    ext
    · simpa using h0
    · simpa [coeff_X_pow] using h1
    · simpa [coeff_X, coeff_C] using h2
  · intro z
    obtain ⟨g, rfl⟩ := AdjoinRoot.mk_surjective z
    set r := g %ₘ cubicPoly F with hr
    have hrd : r.natDegree < 3 := by
      have := natDegree_modByMonic_lt g (cubicPoly_monic (F := F))
        (by intro h; have := cubicPoly_natDegree (F := F); rw [h, natDegree_one] at this; cases this)
      rwa [cubicPoly_natDegree] at this
    refine ⟨⟨r.coeff 0, r.coeff 1, r.coeff 2⟩, ?_⟩
    rw [cubicEval_eq_mk, AdjoinRoot.mk_eq_mk]
    have : (C (r.coeff 0) + C (r.coeff 1) * X + C (r.coeff 2) * X ^ 2 : F[X]) = r := by
      conv_rhs => rw [r.as_sum_range' 3 hrd]
      rw [Finset.sum_range_succ, Finset.sum_range_succ, Finset.sum_range_one]
      simp [← C_mul_X_pow_eq_monomial]
    rw [this, hr]
    have e := modByMonic_add_div g (cubicPoly F)
    exact ⟨-(g /ₘ cubicPoly F), by linear_combination e⟩

theorem quadEval_mul [LawfulExt F] (x y : Quad F) : quadEval (x * y) = quadEval x * quadEval y := by
  simp only [quadEval, Quad.mul_c0, Quad.mul_c1, map_add, map_mul]
  linear_combination (-(AdjoinRoot.of (quadPoly F) x.c1 * AdjoinRoot.of (quadPoly F) y.c1)) *
    quad_root (F := F)

theorem cubicEval_mul [LawfulExt F] (x y : Cubic F) :
    cubicEval (x * y) = cubicEval x * cubicEval y := by
  simp only [cubicEval, Cubic.mul_c0, Cubic.mul_c1, Cubic.mul_c2, map_add, map_mul]
  linear_combination (-(AdjoinRoot.of (cubicPoly F) x.c1 * AdjoinRoot.of (cubicPoly F) y.c2
    + AdjoinRoot.of (cubicPoly F) x.c2 * AdjoinRoot.of (cubicPoly F) y.c1
    + AdjoinRoot.of (cubicPoly F) x.c2 * AdjoinRoot.of (cubicPoly F) y.c2 *
      AdjoinRoot.root (cubicPoly F))) * cubic_root (F := F)

section Rings
variable [LawfulExt F]

theorem quad_ring_aux [Nontrivial F] :
    ∃ φ : Quad F → AdjoinRoot (quadPoly F),
      Function.Bijective φ ∧
      (∀ x, φ x = AdjoinRoot.of _ x.c0 + AdjoinRoot.of _ x.c1 * AdjoinRoot.root _) ∧
      φ Quad.zero = 0 ∧ φ Quad.one = 1 ∧
      (∀ x y, φ (Quad.add x y) = φ x + φ y) ∧ (∀ x y, φ (Quad.sub x y) = φ x - φ y) ∧
      (∀ x, φ (Quad.neg x) = -φ x) ∧ (∀ x, φ (Quad.double x) = φ x + φ x) ∧
      (∀ x y, φ (Quad.mul x y) = φ x * φ y) ∧ (∀ x, φ (Quad.square x) = φ x ^ 2) ∧
      (∀ x, φ (Quad.conjugate x) = AdjoinRoot.of _ x.c0 - AdjoinRoot.of _ x.c1 * AdjoinRoot.root _) := by
  have hmul : ∀ x y : Quad F, quadEval (Quad.mul x y) = quadEval x * quadEval y := quadEval_mul
  have hadd : ∀ x y : Quad F, quadEval (Quad.add x y) = quadEval x + quadEval y := by
    intro x y
    change AdjoinRoot.of _ (x.c0 + y.c0) + AdjoinRoot.of _ (x.c1 + y.c1) * AdjoinRoot.root _ = _
    rw [map_add, map_add, quadEval, quadEval]; ring
  refine ⟨quadEval, quadEval_bijective, fun _ => rfl, ?_, ?_, hadd, ?_, ?_, ?_, hmul, ?_, ?_⟩
  · change AdjoinRoot.of _ 0 + AdjoinRoot.of _ 0 * AdjoinRoot.root _ = _
    rw [map_zero]; ring
  · change AdjoinRoot.of _ 1 + AdjoinRoot.of _ 0 * AdjoinRoot.root _ = _
    rw [map_zero, map_one]; ring
  · intro x y
    change AdjoinRoot.of _ (x.c0 - y.c0) + AdjoinRoot.of _ (x.c1 - y.c1) * AdjoinRoot.root _ = _
    rw [map_sub, map_sub, quadEval, quadEval]; ring
  · intro x
    change AdjoinRoot.of _ (-x.c0) + AdjoinRoot.of _ (-x.c1) * AdjoinRoot.root _ = _
    rw [map_neg, map_neg, quadEval]; ring
  · intro x
    rw [Quad.double_eq]; exact hadd x x
  · intro x
    rw [Quad.square_eq, sq (_ : AdjoinRoot _)]; exact hmul x x
  · intro x
    change AdjoinRoot.of _ x.c0 + AdjoinRoot.of _ (-x.c1) * AdjoinRoot.root _ = _
    rw [map_neg]; ring

theorem cubic_ring_aux [Nontrivial F] :
    ∃ φ : Cubic F → AdjoinRoot (cubicPoly F),
      Function.Bijective φ ∧
      (∀ x, φ x = AdjoinRoot.of _ x.c0 + AdjoinRoot.of _ x.c1 * AdjoinRoot.root _ +
        AdjoinRoot.of _ x.c2 * AdjoinRoot.root _ ^ 2) ∧
      φ Cubic.zero = 0 ∧ φ Cubic.one = 1 ∧
      (∀ x y, φ (Cubic.add x y) = φ x + φ y) ∧ (∀ x y, φ (Cubic.sub x y) = φ x - φ y) ∧
      (∀ x, φ (Cubic.neg x) = -φ x) ∧ (∀ x, φ (Cubic.double x) = φ x + φ x) ∧
      (∀ x y, φ (Cubic.mul x y) = φ x * φ y) ∧ (∀ x, φ (Cubic.square x) = φ x ^ 2) := by
  have hmul : ∀ x y : Cubic F, cubicEval (Cubic.mul x y) = cubicEval x * cubicEval y := cubicEval_mul
  have hadd : ∀ x y : Cubic F, cubicEval (Cubic.add x y) = cubicEval x + cubicEval y := by
    intro x y
    change AdjoinRoot.of _ (x.c0 + y.c0) + AdjoinRoot.of _ (x.c1 + y.c1) * AdjoinRoot.root _ +
      AdjoinRoot.of _ (x.c2 + y.c2) * AdjoinRoot.root _ ^ 2 = _
    rw [map_add, map_add, map_add, cubicEval, cubicEval]; ring
  refine ⟨cubicEval, cubicEval_bijective, fun _ => rfl, ?_, ?_, hadd, ?_, ?_, ?_, hmul, ?_⟩
  · change AdjoinRoot.of _ 0 + AdjoinRoot.of _ 0 * AdjoinRoot.root _ + AdjoinRoot.of _ 0 * AdjoinRoot.root _ ^ 2 = _
    rw [map_zero]; ring
  · change AdjoinRoot.of _ 1 + AdjoinRoot.of _ 0 * AdjoinRoot.root _ + AdjoinRoot.of _ 0 * AdjoinRoot.root _ ^ 2 = _
    rw [map_zero, map_one]; ring
  · intro x y
    change AdjoinRoot.of _ (x.c0 - y.c0) + AdjoinRoot.of _ (x.c1 - y.c1) * AdjoinRoot.root _ +
      AdjoinRoot.of _ (x.c2 - y.c2) * AdjoinRoot.root _ ^ 2 = _
    rw [map_sub, map_sub, map_sub, cubicEval, cubicEval]; ring
  · intro x
    change AdjoinRoot.of _ (-x.c0) + AdjoinRoot.of _ (-x.c1) * AdjoinRoot.root _ +
      AdjoinRoot.of _ (-x.c2) * AdjoinRoot.root _ ^ 2 = _
    rw [map_neg, map_neg, map_neg, cubicEval]; ring
  · intro x
    rw [Cubic.double_eq]; exact hadd x x
  · intro x
    rw [Cubic.square_eq, sq (_ : AdjoinRoot _)]; exact hmul x x

end Rings

end Halo2.Ext
