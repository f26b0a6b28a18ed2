import Verif.Curve.Group
import Verif.Field.Spec
import Mathlib.Data.List.Induction

/-!
# Scalar multiplication, sums, normalisation, Jacobian coordinates and the endomorphism
-/

set_option linter.unusedSectionVars false

namespace Halo2.Curve

open WeierstrassCurve Halo2.Field

variable {F : Type} [Field F] [DecidableEq F] [BaseField F] [LawfulBase F] {C : Params F}

/-! ## Scalar multiplication -/

/-- The number read from bits, most significant first. -/
def bitsVal (l : List Bool) : ℕ := l.foldl (fun n b => 2 * n + b.toNat) 0

theorem bitsVal_foldl (l : List Bool) (n : ℕ) :
    l.foldl (fun n b => 2 * n + b.toNat) n = 2 ^ l.length * n + bitsVal l := by
  induction l generalizing n with
  | nil => simp [bitsVal]
  | cons b l ih =>
    rw [bitsVal, List.foldl_cons, List.foldl_cons, ih, ih, List.length_cons]
    ring

theorem bitsVal_append (l m : List Bool) : bitsVal (l ++ m) = 2 ^ m.length * bitsVal l + bitsVal m := by
  rw [bitsVal, List.foldl_append, bitsVal_foldl]
  rfl

theorem byteBits : ∀ b < 256, bitsVal ((List.range 8).reverse.map fun i => ((b >>> i) &&& 1) == 1) = b := by
  decide +kernel

theorem bitsOf_length (repr : List ℕ) : (Proj.bitsOf repr).length = 8 * repr.length := by
  induction repr with
  | nil => rfl
  | cons b bs ih =>
    rw [Proj.bitsOf, List.reverse_cons, List.flatMap_append, List.length_append]
    rw [Proj.bitsOf] at ih
    rw [ih]
    simp
    ring

theorem bitsVal_bitsOf (repr : List ℕ) (h : IsBytes repr) : bitsVal (Proj.bitsOf repr) = leNat repr := by
  induction repr with
  | nil => rfl
  | cons b bs ih =>
    have hb : b < 256 := h b List.mem_cons_self
    have hbs : IsBytes bs := fun x hx => h x (List.mem_cons_of_mem _ hx)
    rw [Proj.bitsOf, List.reverse_cons, List.flatMap_append, bitsVal_append]
    have ih' := ih hbs
    rw [Proj.bitsOf] at ih'
    rw [ih', leNat]
    rw [List.flatMap_singleton, byteBits b hb, List.length_map, List.length_reverse, List.length_range]
    ring

/-- Double-and-add over a bit list, for any way `addP` of adding the fixed point. -/
theorem doubleAdd_spec (hC : Good C) (addP : Proj F → Proj F) (p : Pt C)
    (hadd : ∀ A a, PRep C A a → PRep C (addP A) (a + p)) (l : List Bool) (A : Proj F) (n : ℕ)
    (hA : PRep C A (n • p)) :
    PRep C (l.foldl (fun acc bit => let acc := Proj.double C acc
      if bit then addP acc else acc) A) ((l.foldl (fun n b => 2 * n + b.toNat) n) • p) := by
  induction l generalizing A n with
  | nil => exact hA
  | cons b l ih =>
    rw [List.foldl_cons, List.foldl_cons]
    apply ih
    have hd := hA.double hC
    rw [← add_smul, ← two_mul] at hd
    cases b
    · exact hd
    · have := hadd _ _ hd
      dsimp only
      rw [if_pos rfl]
      rw [show (2 * n + true.toNat) • p = (2 * n) • p + p by rw [Bool.toNat_true, add_smul, one_smul]]
      exact this

theorem PRep.mul (hC : Good C) {P : Proj F} {p : Pt C} (hP : PRep C P p) (repr : List ℕ) (hr : IsBytes repr) :
    PRep C (Proj.mul C P repr) (leNat repr • p) := by
  have h := doubleAdd_spec hC (fun A => Proj.add C A P) p (fun A a hA => hA.add hC hP) (Proj.bitsOf repr)
    Proj.identity 0 (by rw [zero_smul]; exact PRep.identity)
  rw [bitsVal_foldl, mul_zero, zero_add, bitsVal_bitsOf repr hr] at h
  exact h

theorem ARep.mul (hC : Good C) {P : Aff F} {p : Pt C} (hP : ARep C P p) (repr : List ℕ) (hr : IsBytes repr) :
    PRep C (Aff.mul C P repr) (leNat repr • p) := by
  have h := doubleAdd_spec hC (fun A => Proj.addMixed C A P) p (fun A a hA => hA.addMixed hC hP) (Proj.bitsOf repr)
    Proj.identity 0 (by rw [zero_smul]; exact PRep.identity)
  rw [bitsVal_foldl, mul_zero, zero_add, bitsVal_bitsOf repr hr] at h
  exact h

/-! ## Sums -/

theorem PRep.sum_aux (hC : Good C) {l : List (Proj F)} {m : List (Pt C)} (h : List.Forall₂ (PRep C) l m)
    (A : Proj F) (a : Pt C) (hA : PRep C A a) :
    PRep C (l.foldl (fun acc q => Proj.add C acc q) A) (a + m.sum) := by
  induction h generalizing A a with
  | nil => rw [List.sum_nil, add_zero]; exact hA
  | cons h1 _ ih =>
    rw [List.foldl_cons, List.sum_cons, ← add_assoc]
    exact ih _ _ (hA.add hC h1)

theorem PRep.sum (hC : Good C) {l : List (Proj F)} {m : List (Pt C)} (h : List.Forall₂ (PRep C) l m) :
    PRep C (Proj.sum C l) m.sum := by
  have := PRep.sum_aux hC h _ _ PRep.identity
  rw [zero_add] at this
  exact this

/-! ## Batch normalisation -/

/-- The factor a point contributes to the product. -/
def zfac (p : Proj F) : F := if p.z = 0 then 1 else p.z

theorem zfac_ne_zero (p : Proj F) : zfac p ≠ 0 := by
  rw [zfac]
  split
  · exact one_ne_zero
  · assumption

theorem zprod_ne_zero (ps : List (Proj F)) : (ps.map zfac).prod ≠ 0 := by
  apply List.prod_ne_zero
  intro h
  obtain ⟨q, _, hq⟩ := List.mem_map.mp h
  exact zfac_ne_zero q hq

theorem step_eq (p : Proj F) (acc : F) : (if Proj.isIdentity p then acc else acc * p.z) = acc * zfac p := by
  simp only [Proj.isIdentity, LawfulBase.isZero_iff, zfac]
  split
  · rw [mul_one]
  · rfl

theorem batchForward_spec (acc : F) (ps : List (Proj F)) :
    (Proj.batchForward acc ps).1.length = ps.length ∧
    (Proj.batchForward acc ps).2 = acc * (ps.map zfac).prod := by
  induction ps generalizing acc with
  | nil => exact ⟨rfl, by simp [Proj.batchForward]⟩
  | cons p ps ih =>
    rw [Proj.batchForward]
    dsimp only
    obtain ⟨h1, h2⟩ := ih (if Proj.isIdentity p then acc else acc * p.z)
    refine ⟨by rw [List.length_cons, List.length_cons, h1], ?_⟩
    rw [h2, step_eq, List.map_cons, List.prod_cons, mul_assoc]

theorem batchForward_append (acc : F) (ps : List (Proj F)) (p : Proj F) :
    (Proj.batchForward acc (ps ++ [p])).1 = (Proj.batchForward acc ps).1 ++ [(Proj.batchForward acc ps).2] := by
  induction ps generalizing acc with
  | nil => rfl
  | cons q ps ih =>
    rw [List.cons_append, Proj.batchForward, Proj.batchForward]
    dsimp only
    rw [ih, List.cons_append]

theorem toAffine_eq (p : Proj F) : Proj.toAffine p = if p.z = 0 then Aff.identity else ⟨p.x * p.z⁻¹, p.y * p.z⁻¹⟩ := by
  rw [Proj.toAffine, invert_getD]
  simp only [LawfulBase.isZero_iff, inv_eq_zero]

theorem batchBackward_spec (ps : List (Proj F)) :
    (Proj.batchBackward ((ps.map zfac).prod)⁻¹ (ps.zip (Proj.batchForward 1 ps).1).reverse).reverse
      = ps.map Proj.toAffine := by
  induction ps using List.reverseRecOn with
  | nil => rfl
  | append_singleton ps p ih =>
    rw [batchForward_append, List.zip_append (batchForward_spec 1 ps).1.symm, List.reverse_append,
      List.zip_cons_cons, List.zip_nil_left, List.reverse_singleton, List.singleton_append, Proj.batchBackward]
    rw [List.reverse_cons, List.map_append, List.map_singleton, List.prod_append, List.prod_singleton, step_eq]
    have hz := zfac_ne_zero p
    have hp := zprod_ne_zero ps
    rw [show ((ps.map zfac).prod * zfac p)⁻¹ * zfac p = ((ps.map zfac).prod)⁻¹ by field_simp, ih,
      List.map_append, List.map_singleton]
    congr 2
    rw [toAffine_eq]
    simp only [Proj.isIdentity, LawfulBase.isZero_iff]
    split
    · rfl
    · next h =>
      rw [(batchForward_spec 1 ps).2, one_mul, zfac, if_neg h]
      have : (ps.map zfac).prod * ((ps.map zfac).prod * p.z)⁻¹ = p.z⁻¹ := by field_simp
      rw [this]

theorem batchNormalize_eq (ps : List (Proj F)) (n : ℕ) :
    Proj.batchNormalize ps n = if ps.length = n then some (ps.map Proj.toAffine) else none := by
  rw [Proj.batchNormalize]
  by_cases h : ps.length = n
  · rw [if_neg (by simpa using h), if_pos h]
    dsimp only
    have hp := zprod_ne_zero ps
    rw [(batchForward_spec 1 ps).2, one_mul, LawfulBase.invert_eq, if_neg hp]
    dsimp only
    rw [batchBackward_spec]
  · rw [if_pos (by simpa using h), if_neg h]

/-! ## Jacobian coordinates -/

theorem newJacobian_eq (x y z : F) : Proj.newJacobian C x y z =
    if z = 0 ∨ y * y = x * x * x + C.a * x * (z * z * z * z) + C.b * (z * z * z * z * z * z) then
      some (if z = 0 then ⟨0, 1, 0⟩ else ⟨x / z, y / (z * z), z⟩) else none := by
  rw [Proj.newJacobian, invert_getD]
  simp only [Proj.isOnCurve_iff, LawfulBase.isZero_iff, LawfulBase.sqr_eq]
  by_cases hz : z = 0
  · subst hz
    simp
  · simp only [hz, false_or, if_false]
    have e : (y * (z⁻¹ * z⁻¹) * (y * (z⁻¹ * z⁻¹)) * z = x * z⁻¹ * (x * z⁻¹) * (x * z⁻¹) + C.a * (x * z⁻¹) * z * z + C.b * z * z * z)
      ↔ y * y = x * x * x + C.a * x * (z * z * z * z) + C.b * (z * z * z * z * z * z) := by
      field_simp
    simp only [e]
    rw [div_eq_mul_inv, div_eq_mul_inv, mul_inv]

/-! ## The endomorphism -/

theorem PRep.endo_some {zeta : F} {P : Proj F} {x y : F} {h : (W C).Nonsingular x y} {h' : (W C).Nonsingular (x * zeta) y}
    (hP : PRep C P (.some x y h)) : PRep C (Proj.endo zeta P) (.some (x * zeta) y h') := by
  obtain ⟨h1, h2, h3⟩ := hP
  exact ⟨h1, by simp only [Proj.endo, h2]; ring, h3⟩

theorem endo_nonsingular (hC : Good C) (ha : C.a = 0) {zeta : F} (hz : zeta * zeta * zeta = 1) {x y : F}
    (h : (W C).Nonsingular x y) : (W C).Nonsingular (x * zeta) y := by
  apply nonsingular_of hC
  have := (equation_iff C x y).mp h.1
  rw [equation_iff]
  rw [ha] at this ⊢
  linear_combination this - x * x * x * hz

/-- The map `(x, y) ↦ (ζ x, y)` on points. -/
def endoPt (hC : Good C) (ha : C.a = 0) (zeta : F) (hz : zeta * zeta * zeta = 1) : Pt C → Pt C
  | .zero => 0
  | .some x y h => .some (x * zeta) y (endo_nonsingular hC ha hz h)

theorem PRep.endo (hC : Good C) (ha : C.a = 0) {zeta : F} (hz : zeta * zeta * zeta = 1) {P : Proj F} {p : Pt C}
    (hP : PRep C P p) : PRep C (Proj.endo zeta P) (endoPt hC ha zeta hz p) := by
  rcases p with _ | ⟨x, y, h⟩
  · obtain ⟨h1, h2, h3⟩ := hP
    exact ⟨h1, by simp only [Proj.endo, h2, zero_mul], h3⟩
  · exact hP.endo_some

theorem add_endo (hC : Good C) (ha : C.a = 0) {zeta : F} (hz : zeta * zeta * zeta = 1) (P Q : Proj F) :
    Proj.add C (Proj.endo zeta P) (Proj.endo zeta Q) = Proj.endo zeta (Proj.add C P Q) := by
  rw [add_eq hC, add_eq hC]
  simp only [rcbX, rcbY, rcbZ, Proj.endo, ha]
  refine Proj.ext ?_ ?_ ?_ <;> dsimp only
  · ring
  · linear_combination (9 * C.b * (P.x * Q.x) * (P.x * Q.z + Q.x * P.z)) * hz
  · linear_combination (3 * (P.x * Q.y + Q.x * P.y) * (P.x * Q.x)) * hz

/-- The endomorphism as a homomorphism of the group of points. -/
def endoHom (hC : Good C) (ha : C.a = 0) (zeta : F) (hz : zeta * zeta * zeta = 1) : Pt C →+ Pt C where
  toFun := endoPt hC ha zeta hz
  map_zero' := rfl
  map_add' p q := by
    obtain ⟨A, hA⟩ := ARep.exists p
    obtain ⟨B, hB⟩ := ARep.exists q
    have hA' := hA.toCurve hC
    have hB' := hB.toCurve hC
    have h1 := (hA'.add hC hB').endo hC ha hz
    have h2 := (hA'.endo hC ha hz).add hC (hB'.endo hC ha hz)
    rw [add_endo hC ha hz] at h2
    exact h1.unique h2

theorem endo_relation (hC : Good C) (ha : C.a = 0) {zeta : F} (hz : zeta * zeta + zeta + 1 = 0)
    (hz3 : zeta * zeta * zeta = 1) (p : Pt C) :
    endoHom hC ha zeta hz3 (endoHom hC ha zeta hz3 p) + endoHom hC ha zeta hz3 p + p = 0 := by
  rcases p with _ | ⟨x, y, h⟩
  · change (0 + 0 + 0 : Pt C) = 0
    rw [add_zero, add_zero]
  · have e := (equation_iff C x y).mp h.1
    rw [ha] at e
    have hy := y_ne_zero hC h.1
    have h1 : PRep C (⟨x, y, 1⟩ : Proj F) (.some x y h) := ⟨one_ne_zero, (mul_one x).symm, (mul_one y).symm⟩
    have h2 : PRep C (⟨x * zeta, y, 1⟩ : Proj F) (endoHom hC ha zeta hz3 (.some x y h)) :=
      ⟨one_ne_zero, (mul_one _).symm, (mul_one y).symm⟩
    have h3 := rcb_spec hC h2 h1
    have eX : rcbX C.a C.b (x * zeta) y 1 x y 1 = x * zeta * zeta * (-(y * (y * y - 9 * C.b))) := by
      simp only [rcbX, ha]
      linear_combination x * y * (y * y - 9 * C.b) * hz
    have eY : rcbY C.a C.b (x * zeta) y 1 x y 1 = (-y) * (-(y * (y * y - 9 * C.b))) := by
      simp only [rcbY, ha]
      linear_combination 9 * C.b * e + 9 * C.b * x * x * x * hz
    have eZ : rcbZ C.a C.b (x * zeta) y 1 x y 1 = -(y * (y * y - 9 * C.b)) := by
      simp only [rcbZ, ha]
      linear_combination 3 * y * e + 3 * y * x * x * x * hz
    rw [eX, eY, eZ] at h3
    rw [add_assoc]
    generalize endoHom hC ha zeta hz3 (.some x y h) + .some x y h = s at h3
    have hs : s = -(endoHom hC ha zeta hz3 (endoHom hC ha zeta hz3 (.some x y h))) := by
      generalize -(y * (y * y - 9 * C.b)) = k at h3
      rcases s with _ | ⟨x', y', h'⟩
      · obtain ⟨k1, _, k3⟩ := h3
        dsimp only at k1 k3
        rw [k1, mul_zero] at k3
        exact absurd rfl k3
      · obtain ⟨k1, k2, k3⟩ := h3
        dsimp only at k1 k2 k3
        have ex := mul_right_cancel₀ k1 k2
        have ey := mul_right_cancel₀ k1 k3
        subst ex
        subst ey
        change _ = -(Affine.Point.some (x * zeta * zeta) y _ : Pt C)
        rw [Affine.Point.neg_some]
        congr 1
        rw [negY_eq]
    rw [hs, add_neg_cancel]

end Halo2.Curve
