import Verif.Props.Fft
import Verif.Props.Msm
import Verif.Props.Order
import Mathlib.Algebra.Polynomial.Div
import Mathlib.Algebra.Polynomial.Eval.Degree
import Mathlib.Algebra.Polynomial.Roots
import Mathlib.RingTheory.RootsOfUnity.PrimitiveRoots
import Mathlib.LinearAlgebra.Lagrange
import Mathlib.Tactic.ComputeDegree

/-!
# C75: polynomial arithmetic with the transform
-/

set_option linter.unusedSectionVars false

namespace Halo2.Props

open Halo2 Halo2.Field Halo2.Prime Halo2.Curve Halo2.Fft Halo2.Msm Polynomial

section Poly

variable {K : Type} [_root_.Field K]

/-- The first `n` coefficients, constant term first. -/
def coeffs (f : K[X]) (n : ℕ) : List K := (List.range n).map f.coeff

/-- The values at the first `n` powers of `omega`, times `s`. -/
noncomputable def values (f : K[X]) (s omega : K) (n : ℕ) : List K := (List.range n).map fun i => f.eval (s * omega ^ i)

/-- The inverse transform as users compute it: `best_fft` with the inverse root, then every entry divided by the size. -/
def invFft (checks : Bool) (threads : ℕ) (b : List K) (omegaInv : K) (N : ℕ) : Option (List K) :=
  (bestFft (fieldOps K) checks threads b omegaInv N).map fun c => c.map fun x => x * (2 ^ N)⁻¹

theorem two_pow_ne {omega : K} {N : ℕ} (hw : IsPrimitiveRoot omega (2 ^ N)) : (2 ^ N : K) ≠ 0 := by
  have := hw.neZero'
  have h := this.out
  push_cast at h
  exact h

/-- **C75** On the coefficients of a polynomial of degree below `2^N`, `best_fft` evaluates it at the powers of `omega`; on the
coefficients multiplied by the powers of `s`, at their multiples by `s`. -/
theorem C75_eval (N : ℕ) (hN : N < 64) (omega s : K) (hw : IsPrimitiveRoot omega (2 ^ N)) (checks : Bool) (threads : ℕ) (f : K[X])
    (hf : f.natDegree < 2 ^ N) :
    bestFft (fieldOps K) checks threads (coeffs f (2 ^ N)) omega N = some (values f 1 omega (2 ^ N)) ∧
    bestFft (fieldOps K) checks threads ((coeffs f (2 ^ N)).zipWith (fun c i => c * s ^ i) (List.range (2 ^ N))) omega N =
      some (values f s omega (2 ^ N)) := by
  have key : ∀ s : K, bestFft (fieldOps K) checks threads ((List.range (2 ^ N)).map fun j => f.coeff j * s ^ j) omega N =
      some (values f s omega (2 ^ N)) := by
    intro s
    rw [C33_fft N hN omega hw checks threads _ (by simp)]
    congr 1
    apply List.map_congr_left
    intro i _
    rw [eval_eq_sum_range' hf]
    refine Finset.sum_congr rfl fun j hj => ?_
    rw [List.getD_eq_getElem?_getD, List.getElem?_map, List.getElem?_range (Finset.mem_range.mp hj), Option.map_some,
      Option.getD_some, mul_pow, ← pow_mul, mul_assoc]
  constructor
  · have := key 1
    simp only [one_pow, mul_one] at this
    exact this
  · rw [coeffs, List.zipWith_map_left]
    have := key s
    rw [← this]
    congr 1
    apply List.ext_getElem?
    intro i
    by_cases hi : i < 2 ^ N
    · simp [List.getElem?_range hi]
    · simp [hi]

/-- The inverse transform undoes evaluation. -/
theorem invFft_values (N : ℕ) (hN : N < 64) (omega : K) (hw : IsPrimitiveRoot omega (2 ^ N)) (checks : Bool) (threads : ℕ) (f : K[X])
    (hf : f.natDegree < 2 ^ N) : invFft checks threads (values f 1 omega (2 ^ N)) omega⁻¹ N = some (coeffs f (2 ^ N)) := by
  have h0 : omega ≠ 0 := hw.ne_zero (Nat.pos_of_ne_zero (by positivity)).ne'
  have h := C33_inverse N hN omega omega⁻¹ hw (mul_inv_cancel₀ h0) checks threads threads (coeffs f (2 ^ N)) (by simp [coeffs])
  rw [(C75_eval N hN omega 1 hw checks threads f hf).1, Option.bind_some] at h
  rw [invFft, h, Option.map_some, List.map_map]
  congr 1
  conv_rhs => rw [← List.map_id (coeffs f (2 ^ N))]
  apply List.map_congr_left
  intro x _
  simp only [Function.comp, id]
  rw [mul_comm, ← mul_assoc, inv_mul_cancel₀ (two_pow_ne hw), one_mul]

/-- **C75** The inverse transform interpolates: for every vector of values there is exactly one polynomial of degree below `2^N`
with these values at the powers of `omega`, and the inverse transform of the values gives its coefficients. -/
theorem C75_interpolate (N : ℕ) (hN : N < 64) (omega : K) (hw : IsPrimitiveRoot omega (2 ^ N)) (checks : Bool)
    (threads : ℕ) (b : List K) (hb : b.length = 2 ^ N) :
    ∃ f : K[X], f.natDegree < 2 ^ N ∧ values f 1 omega (2 ^ N) = b ∧
      invFft checks threads b omega⁻¹ N = some (coeffs f (2 ^ N)) ∧
      ∀ g : K[X], g.natDegree < 2 ^ N → values g 1 omega (2 ^ N) = b → g = f := by
  have hn : 0 < 2 ^ N := Nat.pos_of_ne_zero (by positivity)
  have h0 : omega ≠ 0 := hw.ne_zero hn.ne'
  have hw' : IsPrimitiveRoot omega⁻¹ (2 ^ N) := hw.inv
  -- the candidate
  obtain ⟨c, hc⟩ : ∃ c, bestFft (fieldOps K) checks threads b omega⁻¹ N = some c := ⟨_, C33_fft N hN _ hw' checks threads b hb⟩
  have hcl : c.length = 2 ^ N := by
    rw [C33_fft N hN _ hw' checks threads b hb] at hc
    rw [← Option.some.inj hc]
    simp
  let f : K[X] := ∑ j ∈ Finset.range (2 ^ N), C (c.getD j 0 * (2 ^ N)⁻¹) * X ^ j
  have hcoeff : ∀ j < 2 ^ N, f.coeff j = c.getD j 0 * (2 ^ N)⁻¹ := by
    intro j hj
    simp only [f, finsetSum_coeff, coeff_C_mul_X_pow]
    rw [Finset.sum_eq_single j]
    · rw [if_pos rfl]
    · intro i _ hij; rw [if_neg (Ne.symm hij)]
    · intro h; exact absurd (Finset.mem_range.mpr hj) h
  have hdeg : f.natDegree < 2 ^ N := by
    rw [Nat.lt_iff_le_pred hn]
    refine natDegree_sum_le_of_forall_le _ _ fun j hj => (natDegree_C_mul_X_pow_le _ _).trans ?_
    have := Finset.mem_range.mp hj
    omega
  have hcf : coeffs f (2 ^ N) = c.map fun x => x * (2 ^ N)⁻¹ := by
    apply List.ext_getElem?
    intro i
    by_cases hi : i < 2 ^ N
    · rw [coeffs, List.getElem?_map, List.getElem?_range hi, Option.map_some, hcoeff i hi, List.getElem?_map,
        List.getD_eq_getElem?_getD, List.getElem?_eq_getElem (by omega)]
      rfl
    · rw [List.getElem?_eq_none (by simp [coeffs]; omega), List.getElem?_eq_none (by simp; omega)]
  have hval : values f 1 omega (2 ^ N) = b := by
    have h1 := (C75_eval N hN omega 1 hw checks threads f hdeg).1
    have h2 := C33_inverse N hN omega⁻¹ omega hw' (inv_mul_cancel₀ h0) checks threads threads b hb
    rw [hc, Option.bind_some, C33_fft N hN _ hw checks threads c hcl] at h2
    rw [hcf, C33_fft N hN _ hw checks threads _ (by simp [hcl])] at h1
    have h1 := Option.some.inj h1
    have h2 := Option.some.inj h2
    rw [← h1]
    have h3 := congrArg (List.map fun x => x * (2 ^ N : K)⁻¹) h2
    rw [List.map_map, List.map_map] at h3
    have e : (fun x : K => x * (2 ^ N)⁻¹) ∘ (fun x => 2 ^ N * x) = id := by
      funext x
      simp only [Function.comp, id]
      rw [mul_comm, ← mul_assoc, inv_mul_cancel₀ (two_pow_ne hw), one_mul]
    rw [e, List.map_id] at h3
    rw [← h3]
    apply List.map_congr_left
    intro i _
    simp only [Function.comp]
    rw [Finset.sum_mul]
    refine Finset.sum_congr rfl fun j hj => ?_
    rw [List.getD_eq_getElem?_getD, List.getElem?_map, List.getElem?_eq_getElem (by have := Finset.mem_range.mp hj; omega),
      List.getD_eq_getElem?_getD, List.getElem?_eq_getElem (by have := Finset.mem_range.mp hj; omega)]
    simp only [Option.map_some, Option.getD_some]
    ring
  refine ⟨f, hdeg, hval, by rw [invFft, hc, Option.map_some, hcf], ?_⟩
  intro g gd gv
  have gi := invFft_values N hN omega hw checks threads g gd
  rw [gv, invFft, hc, Option.map_some, ← hcf] at gi
  have gi := Option.some.inj gi
  ext i
  by_cases hi : i < 2 ^ N
  · have := congrArg (·[i]?) gi
    simp only [coeffs, List.getElem?_map, List.getElem?_range hi, Option.map_some, Option.some.injEq] at this
    exact this.symm
  · rw [coeff_eq_zero_of_natDegree_lt (by omega), coeff_eq_zero_of_natDegree_lt (by omega)]

/-- **C75** Transforming two polynomials, multiplying the values and transforming back gives the product modulo `X^(2^N) - 1`, and
the product itself when its degree is below `2^N`. -/
theorem C75_mul (N : ℕ) (hN : N < 64) (omega : K) (hw : IsPrimitiveRoot omega (2 ^ N)) (checks : Bool) (t1 t2 t3 : ℕ)
    (f g : K[X]) (hf : f.natDegree < 2 ^ N) (hg : g.natDegree < 2 ^ N) :
    (∃ a b, bestFft (fieldOps K) checks t1 (coeffs f (2 ^ N)) omega N = some a ∧
      bestFft (fieldOps K) checks t2 (coeffs g (2 ^ N)) omega N = some b ∧
      invFft checks t3 (List.zipWith (· * ·) a b) omega⁻¹ N = some (coeffs ((f * g) %ₘ (X ^ 2 ^ N - 1)) (2 ^ N))) ∧
    (f.natDegree + g.natDegree < 2 ^ N → (f * g) %ₘ (X ^ 2 ^ N - 1) = f * g) := by
  have hn : 0 < 2 ^ N := Nat.pos_of_ne_zero (by positivity)
  have hm : (X ^ 2 ^ N - 1 : K[X]).Monic := monic_X_pow_sub_C (1 : K) hn.ne'
  have hd : (X ^ 2 ^ N - 1 : K[X]).natDegree = 2 ^ N := natDegree_X_pow_sub_C (r := (1 : K))
  constructor
  · refine ⟨_, _, (C75_eval N hN omega 1 hw checks t1 f hf).1, (C75_eval N hN omega 1 hw checks t2 g hg).1, ?_⟩
    have hdeg : ((f * g) %ₘ (X ^ 2 ^ N - 1)).natDegree < 2 ^ N := by
      have := natDegree_modByMonic_lt (f * g) hm (by intro h; rw [h, natDegree_one] at hd; omega)
      rwa [hd] at this
    have hv : List.zipWith (· * ·) (values f 1 omega (2 ^ N)) (values g 1 omega (2 ^ N)) =
        values ((f * g) %ₘ (X ^ 2 ^ N - 1)) 1 omega (2 ^ N) := by
      rw [values, values, values, List.zipWith_map, List.zipWith_self]
      apply List.map_congr_left
      intro i _
      rw [one_mul, ← eval_mul]
      conv_lhs => rw [← modByMonic_add_div (f * g) (X ^ 2 ^ N - 1 : K[X])]
      have h1 : (omega ^ i) ^ 2 ^ N = 1 := by rw [← pow_mul, mul_comm, pow_mul, hw.pow_eq_one, one_pow]
      rw [eval_add, eval_mul, eval_sub, eval_pow, eval_X, eval_one, h1, sub_self, zero_mul, add_zero]
    rw [hv]
    exact invFft_values N hN omega hw checks t3 _ hdeg
  · intro h
    by_cases h0 : f * g = 0
    · rw [h0, zero_modByMonic]
    · rw [modByMonic_eq_self_iff hm, degree_eq_natDegree h0, degree_eq_natDegree hm.ne_zero, hd]
      have := natDegree_mul_le (p := f) (q := g)
      exact_mod_cast lt_of_le_of_lt this h

end Poly

section Points

variable {F : Type} [_root_.Field F] [DecidableEq F] [BaseField F] [LawfulBase F] {C : Params F}
variable {r : ℕ} [Fact r.Prime] [Fact (OddModulus r)] [Fp.SmallModulus r]

/-- Multiples of a point killed by `r` add up like scalars. -/
theorem sum_toNat_smul {p : Pt C} (hp : r • p = 0) (s : Finset ℕ) (k c : ℕ → Fp r) :
    ∑ j ∈ s, Fp.toNat (k j) • (Fp.toNat (c j) • p) = Fp.toNat (∑ j ∈ s, k j * c j) • p := by
  let _ := torsModule C r
  let x : Tors C r := ⟨p, hp⟩
  have e : ∀ k : Fp r, Fp.toNat k • p = ((k • x : Tors C r) : Pt C) := fun k => by
    have h2 : k • x = Fp.toNat k • x := tors_smul k x
    rw [h2, AddSubgroup.coe_nsmul]
  have e' : ∀ k c : Fp r, Fp.toNat k • (Fp.toNat c • p) = (((k * c) • x : Tors C r) : Pt C) := fun k c => by
    have h2 : k • (c • x) = Fp.toNat k • (c • x) := tors_smul k (c • x)
    rw [mul_smul, h2, AddSubgroup.coe_nsmul, ← e]
  rw [e, Finset.sum_smul, AddSubgroup.val_finsetSum]
  exact Finset.sum_congr rfl fun j _ => e' _ _

theorem killed {p : Pt C} (hp : r • p = 0) (k : ℕ) : r • (k • p) = 0 := by rw [smul_comm, hp, smul_zero]

/-- **C75** Over a curve: transforming the commitments `[c_j] G` to the coefficients of a polynomial gives the commitments
`[f(omega^i)] G` to its values. -/
theorem C75_commit (hC : Good C) (N : ℕ) (hN : N < 64) (omega : Fp r) (hw : IsPrimitiveRoot omega (2 ^ N)) (checks : Bool)
    (threads : ℕ) (p : Pt C) (hp : r • p = 0) (f : (Fp r)[X]) (hf : f.natDegree < 2 ^ N) (a : List (Proj F)) (ha : a.length = 2 ^ N)
    (hR : ∀ j < 2 ^ N, ∃ P, a[j]? = some P ∧ PRep C P (Fp.toNat (f.coeff j) • p)) :
    ∃ b, bestFft (curveOps C r) checks threads a omega N = some b ∧ b.length = 2 ^ N ∧
      ∀ i < 2 ^ N, ∃ P, b[i]? = some P ∧ PRep C P (Fp.toNat (f.eval (omega ^ i)) • p) := by
  obtain ⟨b, h1, h2, h3⟩ := C33_points hC N hN omega hw checks threads a (fun j => Fp.toNat (f.coeff j) • p) ha
    (fun _ _ => killed hp _) hR
  refine ⟨b, h1, h2, fun i hi => ?_⟩
  obtain ⟨P, e, h⟩ := h3 i hi
  refine ⟨P, e, ?_⟩
  rw [sum_toNat_smul hp] at h
  rw [eval_eq_sum_range' hf]
  have : ∑ j ∈ Finset.range (2 ^ N), omega ^ (i * j) * f.coeff j = ∑ j ∈ Finset.range (2 ^ N), f.coeff j * (omega ^ i) ^ j :=
    Finset.sum_congr rfl fun j _ => by rw [mul_comm, pow_mul]
  rw [← this]
  exact h

/-- The coefficients of the Lagrange basis at a group of roots of unity. -/
theorem basis_coeff {K : Type} [_root_.Field K] (N : ℕ) (hN : N < 64) (omega : K) (hw : IsPrimitiveRoot omega (2 ^ N)) (i : ℕ) (hi : i < 2 ^ N) :
    (Lagrange.basis (Finset.range (2 ^ N)) (fun k => omega ^ k) i).natDegree < 2 ^ N ∧
    ∀ j < 2 ^ N, (Lagrange.basis (Finset.range (2 ^ N)) (fun k => omega ^ k) i).coeff j = omega⁻¹ ^ (i * j) * (2 ^ N)⁻¹ := by
  have hinj : Set.InjOn (fun k => omega ^ k) (Finset.range (2 ^ N) : Set ℕ) := by
    intro k hk l hl h
    exact hw.pow_inj (Finset.mem_range.mp (Finset.mem_coe.mp hk)) (Finset.mem_range.mp (Finset.mem_coe.mp hl)) h
  have hi' := Finset.mem_range.mpr hi
  have hd : (Lagrange.basis (Finset.range (2 ^ N)) (fun k => omega ^ k) i).natDegree < 2 ^ N := by
    rw [Lagrange.natDegree_basis hinj hi', Finset.card_range]
    omega
  refine ⟨hd, fun j hj => ?_⟩
  have h := invFft_values N hN omega hw true 1 _ hd
  rw [invFft, C33_fft N hN _ hw.inv true 1 _ (by simp [values]), Option.map_some] at h
  have h := congrArg (·[j]?) (Option.some.inj h)
  simp only [coeffs, List.getElem?_map, List.getElem?_range hj, Option.map_some, Option.some.injEq] at h
  rw [← h, Finset.sum_eq_single i]
  · rw [values, List.getD_eq_getElem?_getD, List.getElem?_map, List.getElem?_range hi, Option.map_some, Option.getD_some, one_mul,
      Lagrange.eval_basis_self hinj hi', one_mul, mul_comm j i]
  · intro k hk hki
    have hk' := Finset.mem_range.mp hk
    rw [values, List.getD_eq_getElem?_getD, List.getElem?_map, List.getElem?_range hk', Option.map_some, Option.getD_some, one_mul,
      Lagrange.eval_basis_of_ne (v := fun k => omega ^ k) (Ne.symm hki) hk, zero_mul]
  · intro h; exact absurd hi' h

theorem forall₂_affine {n : ℕ} {a : List (Proj F)} {q : ℕ → Pt C} (ha : a.length = n)
    (h : ∀ i < n, ∃ P, a[i]? = some P ∧ PRep C P (q i)) :
    List.Forall₂ (ARep C) (a.map Proj.toAffine) ((List.range n).map q) := by
  rw [List.forall₂_iff_get]
  refine ⟨by simp [ha], fun i h1 h2 => ?_⟩
  have hi : i < n := by simpa using h2
  obtain ⟨P, e, hP⟩ := h i hi
  rw [List.getElem?_eq_getElem (by omega)] at e
  have e := Option.some.inj e
  simp only [List.get_eq_getElem, List.getElem_map, List.getElem_range, e]
  exact hP.toAffine

theorem msm_range {n : ℕ} (k : ℕ → Fp r) (q : ℕ → Pt C) :
    (List.zipWith (fun k p => Fp.toNat k • p) ((List.range n).map k) ((List.range n).map q)).sum = ∑ i ∈ Finset.range n, Fp.toNat (k i) • q i := by
  rw [List.zipWith_map, List.zipWith_self]
  induction n with
  | zero => rfl
  | succ n ih => rw [List.range_succ, List.map_append, List.sum_append, ih, Finset.sum_range_succ]; simp

/-- **C75** The inverse transform turns the powers `[tau^j] G` into the commitments `[L_i(tau)] G` to the Lagrange basis at the powers
of `omega`; with these the commitment to a polynomial is computed from its values. -/
theorem C75_lagrange (hC : Good C) (N : ℕ) (hN' : N < 32) (omega : Fp r) (hw : IsPrimitiveRoot omega (2 ^ N)) (checks : Bool)
    (threads : ℕ) (p : Pt C) (hp : r • p = 0) (tau : Fp r) (a : List (Proj F)) (ha : a.length = 2 ^ N)
    (hR : ∀ j < 2 ^ N, ∃ P, a[j]? = some P ∧ PRep C P (Fp.toNat (tau ^ j) • p)) :
    ∃ b l bases srs, bestFft (curveOps C r) checks threads a omega⁻¹ N = some b ∧
      l = b.map (fun P => Proj.mul C P (Fp.toRepr ((2 ^ N : Fp r)⁻¹))) ∧
      Proj.batchNormalize l (2 ^ N) = some bases ∧ Proj.batchNormalize a (2 ^ N) = some srs ∧
      (∀ i < 2 ^ N, ∃ P, l[i]? = some P ∧
        PRep C P (Fp.toNat ((Lagrange.basis (Finset.range (2 ^ N)) (fun k => omega ^ k) i).eval tau) • p)) ∧
      ∀ f : (Fp r)[X], f.natDegree < 2 ^ N → ∀ ln, LnCeilOk ln →
        ∃ R R', msmSerial C ln ((numBits r + 7) / 8) ((values f 1 omega (2 ^ N)).map Fp.toRepr) bases Proj.identity = some R ∧
          msmSerial C ln ((numBits r + 7) / 8) ((coeffs f (2 ^ N)).map Fp.toRepr) srs Proj.identity = some R' ∧
          PRep C R (Fp.toNat (f.eval tau) • p) ∧ PRep C R' (Fp.toNat (f.eval tau) • p) := by
  have hN : N < 64 := by omega
  obtain ⟨b, h1, h2, h3⟩ := C33_points hC N hN omega⁻¹ hw.inv checks threads a (fun j => Fp.toNat (tau ^ j) • p) ha
    (fun _ _ => killed hp _) hR
  have hl : ∀ i < 2 ^ N, ∃ P, (b.map (fun P => Proj.mul C P (Fp.toRepr ((2 ^ N : Fp r)⁻¹))))[i]? = some P ∧
        PRep C P (Fp.toNat ((Lagrange.basis (Finset.range (2 ^ N)) (fun k => omega ^ k) i).eval tau) • p) := by
    intro i hi
    obtain ⟨P, e, h⟩ := h3 i hi
    refine ⟨_, by rw [List.getElem?_map, e]; rfl, ?_⟩
    have h4 := (C23_mul (r := r) hC h ARep.identity ((2 ^ N : Fp r)⁻¹)).1
    have h5 := sum_toNat_smul hp {0} (fun _ => (2 ^ N : Fp r)⁻¹) (fun _ => ∑ j ∈ Finset.range (2 ^ N), omega⁻¹ ^ (i * j) * tau ^ j)
    rw [Finset.sum_singleton, Finset.sum_singleton, ← sum_toNat_smul hp] at h5
    rw [h5] at h4
    obtain ⟨bd, bc⟩ := basis_coeff N hN omega hw i hi
    rw [eval_eq_sum_range' bd]
    have : (2 ^ N : Fp r)⁻¹ * ∑ j ∈ Finset.range (2 ^ N), omega⁻¹ ^ (i * j) * tau ^ j =
      ∑ j ∈ Finset.range (2 ^ N), (Lagrange.basis (Finset.range (2 ^ N)) (fun k => omega ^ k) i).coeff j * tau ^ j := by
      rw [Finset.mul_sum]
      refine Finset.sum_congr rfl fun j hj => ?_
      rw [bc j (Finset.mem_range.mp hj)]
      ring
    rw [← this]
    exact h4
  have hlen : (b.map (fun P => Proj.mul C P (Fp.toRepr ((2 ^ N : Fp r)⁻¹)))).length = 2 ^ N := by rw [List.length_map, h2]
  have hbig : 2 ^ N < 2 ^ 32 := Nat.pow_lt_pow_right (by norm_num) hN'
  refine ⟨b, _, _, _, h1, rfl, by rw [C22_batch_normalize, if_pos hlen], by rw [C22_batch_normalize, if_pos ha], hl, ?_⟩
  intro f hf ln hln
  generalize (b.map (fun P => Proj.mul C P (Fp.toRepr ((2 ^ N : Fp r)⁻¹)))) = l at hl hlen
  have f1 := forall₂_affine (C := C) hlen hl
  have f2 := forall₂_affine (C := C) ha hR
  obtain ⟨R, e, hR1⟩ := C30_serial hC hln (values f 1 omega (2 ^ N)) f1 (by rw [List.length_map, hlen]; exact hbig)
  obtain ⟨R', e', hR1'⟩ := C30_serial hC hln (coeffs f (2 ^ N)) f2 (by rw [List.length_map, ha]; exact hbig)
  refine ⟨R, R', e, e', ?_, ?_⟩
  · rw [msmValue, values, msm_range] at hR1
    rw [sum_toNat_smul hp] at hR1
    have : ∑ i ∈ Finset.range (2 ^ N), f.eval (1 * omega ^ i) *
        (Lagrange.basis (Finset.range (2 ^ N)) (fun k => omega ^ k) i).eval tau = f.eval tau := by
      have hinj : Set.InjOn (fun k => omega ^ k) (Finset.range (2 ^ N) : Set ℕ) := by
        intro k hk l hl h
        exact hw.pow_inj (Finset.mem_range.mp (Finset.mem_coe.mp hk)) (Finset.mem_range.mp (Finset.mem_coe.mp hl)) h
      have hdeg : f.degree < (Finset.range (2 ^ N)).card := by
        rw [Finset.card_range]
        exact lt_of_le_of_lt degree_le_natDegree (by exact_mod_cast hf)
      conv_rhs => rw [Lagrange.eq_interpolate hinj hdeg, Lagrange.interpolate_apply, eval_finsetSum]
      refine Finset.sum_congr rfl fun i _ => ?_
      rw [eval_mul, eval_C, one_mul]
    rw [this] at hR1
    exact hR1
  · rw [msmValue, coeffs, msm_range, sum_toNat_smul hp, ← eval_eq_sum_range' hf] at hR1'
    exact hR1'

end Points

/-- The product of `1 + 2 X` and `3 + X` over bn256's scalar field, with transforms of size 4. -/
example : ∃ a b, bestFft (fieldOps (Fp bnR)) true 1 (coeffs (1 + C 2 * X) (2 ^ 2)) (Fp.rootOfUnity bnR 7 ^ 2 ^ (Fp.macroS bnR - 2)) 2 = some a ∧
    bestFft (fieldOps (Fp bnR)) true 1 (coeffs (C 3 + X) (2 ^ 2)) (Fp.rootOfUnity bnR 7 ^ 2 ^ (Fp.macroS bnR - 2)) 2 = some b ∧
    invFft true 1 (List.zipWith (· * ·) a b) (Fp.rootOfUnity bnR 7 ^ 2 ^ (Fp.macroS bnR - 2))⁻¹ 2 =
      some (coeffs ((1 + C 2 * X) * (C 3 + X)) (2 ^ 2)) := by
  have hf : (1 + C 2 * X : (Fp bnR)[X]).natDegree ≤ 1 := by compute_degree
  have hg : (C 3 + X : (Fp bnR)[X]).natDegree ≤ 1 := by compute_degree
  have h := C75_mul 2 (by decide) _ (C33_roots.2.1 2 (by decide +kernel)).1 true 1 1 1 (1 + C 2 * X : (Fp bnR)[X]) (C 3 + X)
    (by omega) (by omega)
  rw [h.2 (by omega)] at h
  exact h.1

/-- The powers `[tau^j] G` of the generator of bn256's G1 meet the hypotheses of `C75_lagrange`, for transforms of size `2^10`. -/
example (tau : Fp bnR) : ∃ (p : Pt Bn256.g1) (a : List (Proj (Fp bnQ))), p ≠ 0 ∧ bnR • p = 0 ∧ a.length = 2 ^ 10 ∧
    ∃ b, bestFft (curveOps Bn256.g1 bnR) true 4 a (Fp.rootOfUnity bnR 7 ^ 2 ^ (Fp.macroS bnR - 10))⁻¹ 10 = some b := by
  obtain ⟨_, g, hg, h0⟩ := C21_generators.1
  have hr : bnR • g = 0 := by
    obtain ⟨g', hg', ho, -⟩ := C44_orders.1.gen
    rw [ARep.unique Bn256.g1_good hg hg', ← ho]
    exact addOrderOf_nsmul_eq_zero g'
  refine ⟨g, (List.range (2 ^ 10)).map fun j => Proj.mul Bn256.g1 (Aff.toCurve Bn256.g1Gen) (Fp.toRepr (tau ^ j)), h0, hr, by simp, ?_⟩
  obtain ⟨b, -, -, -, h, -⟩ := C75_lagrange Bn256.g1_good 10 (by decide) _ (C33_roots.2.1 10 (by decide +kernel)).1 true 4 g hr tau
    ((List.range (2 ^ 10)).map fun j => Proj.mul Bn256.g1 (Aff.toCurve Bn256.g1Gen) (Fp.toRepr (tau ^ j))) (by simp)
    (fun j hj => ⟨_, by rw [List.getElem?_map, List.getElem?_range hj]; rfl,
      (C23_mul Bn256.g1_good (hg.toCurve Bn256.g1_good) ARep.identity (tau ^ j)).1⟩)
  exact ⟨b, h⟩

end Halo2.Props
