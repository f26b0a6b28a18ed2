import Verif.Props.Vanish
import Verif.Props.Ipa
import Verif.Props.Order

/-!
# Property C105: working with the values of a polynomial instead of its coefficients

What provers and verifiers do with polynomials given by their values on a domain: evaluation at a point outside the domain, the quotient of
an opening, and the commitment with a basis that was transformed by `best_fft` over the curve, as clients of the library. No such program
is in the repository; the functions below stand for the client.
-/

set_option linter.unusedSectionVars false

namespace Halo2.Props

open Halo2 Halo2.Field Halo2.Prime Halo2.Curve Halo2.Msm Halo2.Fft Polynomial

section Client

variable {p : ℕ} [Fact p.Prime] [Fact (OddModulus p)] [Fp.SmallModulus p]

/-- The value at `x` from the values in the rows: `(x^n - 1) / n * sum of rows[i] * omega^i / (x - omega^i)`, `none` when an inverse is
missing. -/
noncomputable def Domain.evalRows (d : Domain (Fp p)) (x : Fp p) (rows : List (Fp p)) : Option (Fp p) := do
  let is ← (List.range rows.length).mapM fun i => Fp.invert (x - d.omega ^ i)
  some ((List.zipWith (· * ·) rows (is.zipIdx.map fun t => t.1 * d.omega ^ t.2)).sum * (x ^ 2 ^ d.k - 1) * d.twoInv ^ d.k)

/-- The rows of the quotient of an opening at `z` with the value `y`. -/
noncomputable def Domain.openRows (d : Domain (Fp p)) (z y : Fp p) (rows : List (Fp p)) : Option (List (Fp p)) := do
  let is ← (List.range rows.length).mapM fun i => Fp.invert (d.omega ^ i - z)
  some (List.zipWith (fun v i => (v - y) * i) rows is)

/-- The basis for the rows from the basis for the coefficients: the inverse transform of the points, divided by the size. -/
noncomputable def Domain.rowBasis {F : Type} [_root_.Field F] [DecidableEq F] [BaseField F] (d : Domain (Fp p)) (C : Params F) (checks : Bool)
    (threads : ℕ) (a : List (Proj F)) : Option (List (Aff F)) := do
  let b ← bestFft (curveOps C p) checks threads a d.omegaInv d.k
  Proj.batchNormalize (b.map fun P => Proj.mul C P (Fp.toRepr (d.twoInv ^ d.k))) b.length

end Client

section Spec

variable {p : ℕ} [Fact p.Prime] [Fact (OddModulus p)] [Fp.SmallModulus p] {g z : ℕ}

/-- The Lagrange basis at the powers of a root of unity, at a point outside of them. -/
theorem basis_eval {K : Type} [_root_.Field K] (N : ℕ) (hN : N < 64) (omega : K) (hw : IsPrimitiveRoot omega (2 ^ N)) (x : K) (hx : x ^ 2 ^ N ≠ 1)
    (i : ℕ) (hi : i < 2 ^ N) : (Lagrange.basis (Finset.range (2 ^ N)) (fun k => omega ^ k) i).eval x =
      (x - omega ^ i)⁻¹ * omega ^ i * (x ^ 2 ^ N - 1) * (2 ^ N)⁻¹ := by
  obtain ⟨bd, bc⟩ := basis_coeff N hN omega hw i hi
  have hw0 : omega ≠ 0 := hw.ne_zero (by positivity)
  have hi0 : omega ^ i ≠ 0 := pow_ne_zero _ hw0
  have hxi : x - omega ^ i ≠ 0 := by
    intro e
    refine hx ?_
    rw [sub_eq_zero.mp e, ← pow_mul, mul_comm, pow_mul, hw.pow_eq_one, one_pow]
  have hne : x * (omega ^ i)⁻¹ ≠ 1 := by
    intro e
    rw [mul_inv_eq_one₀ hi0] at e
    exact hxi (sub_eq_zero.mpr e)
  have hs : ∑ j ∈ Finset.range (2 ^ N), (x * (omega ^ i)⁻¹) ^ j = (x ^ 2 ^ N - 1) * (omega ^ i * (x - omega ^ i)⁻¹) := by
    rw [geom_sum_eq hne, mul_pow, inv_pow, ← pow_mul omega, mul_comm i, pow_mul, hw.pow_eq_one, one_pow, inv_one, mul_one]
    rw [div_eq_mul_inv]
    congr 1
    rw [inv_eq_iff_eq_inv, mul_inv, inv_inv]
    field_simp
  rw [eval_eq_sum_range' bd]
  have e : ∑ j ∈ Finset.range (2 ^ N), (Lagrange.basis (Finset.range (2 ^ N)) (fun k => omega ^ k) i).coeff j * x ^ j =
      ∑ j ∈ Finset.range (2 ^ N), (x * (omega ^ i)⁻¹) ^ j * (2 ^ N)⁻¹ := by
    refine Finset.sum_congr rfl fun j hj => ?_
    rw [bc j (Finset.mem_range.mp hj), mul_pow, inv_pow, inv_pow, pow_mul]
    ring
  rw [e, ← Finset.sum_mul, hs]
  ring

/-- A polynomial by its values at the powers of a root of unity. -/
theorem eval_rows {K : Type} [_root_.Field K] (N : ℕ) (omega : K) (hw : IsPrimitiveRoot omega (2 ^ N)) (f : K[X]) (hf : f.natDegree < 2 ^ N)
    (x : K) : f.eval x =
      ∑ i ∈ Finset.range (2 ^ N), f.eval (omega ^ i) * (Lagrange.basis (Finset.range (2 ^ N)) (fun k => omega ^ k) i).eval x := by
  have hinj : Set.InjOn (fun k => omega ^ k) (Finset.range (2 ^ N) : Set ℕ) := by
    intro k hk l hl h
    exact hw.pow_inj (Finset.mem_range.mp (Finset.mem_coe.mp hk)) (Finset.mem_range.mp (Finset.mem_coe.mp hl)) h
  have hd : f.degree < (Finset.range (2 ^ N)).card := by
    rw [Finset.card_range]
    exact lt_of_le_of_lt degree_le_natDegree (by exact_mod_cast hf)
  conv_lhs => rw [Lagrange.eq_interpolate hinj hd]
  rw [Lagrange.interpolate_apply, eval_finsetSum]
  exact Finset.sum_congr rfl fun i _ => by rw [eval_mul, eval_C]

theorem mapM_invert (n : ℕ) (f : ℕ → Fp p) :
    (List.range n).mapM (fun i => Fp.invert (f i)) = if ∃ i < n, f i = 0 then none else some ((List.range n).map fun i => (f i)⁻¹) := by
  split_ifs with h
  · obtain ⟨i, hi, e⟩ := h
    have : ∀ l : List ℕ, i ∈ l → l.mapM (fun i => Fp.invert (f i)) = none := by
      intro l
      induction l with
      | nil => intro h; cases h
      | cons j l ih =>
        intro hm
        rw [List.mapM_cons]
        rcases List.mem_cons.mp hm with rfl | hm
        · rw [invert_eq, if_pos e]; rfl
        · rw [ih hm]
          cases Fp.invert (f j) <;> rfl
    exact this _ (List.mem_range.mpr hi)
  · refine mapM_some _ fun i hi => ?_
    rw [invert_eq, if_neg fun e => h ⟨i, List.mem_range.mp hi, e⟩]

/-- The powers of a primitive root are the roots of one. -/
theorem root_iff {N : ℕ} {omega : Fp p} (hw : IsPrimitiveRoot omega (2 ^ N)) (x : Fp p) : (∃ i < 2 ^ N, x - omega ^ i = 0) ↔ x ^ 2 ^ N = 1 := by
  constructor
  · rintro ⟨i, _, e⟩
    rw [sub_eq_zero.mp e, ← pow_mul, mul_comm, pow_mul, hw.pow_eq_one, one_pow]
  · intro h
    have : NeZero (2 ^ N) := ⟨by positivity⟩
    obtain ⟨i, hi, e⟩ := hw.eq_pow_of_pow_eq_one h
    exact ⟨i, hi, by rw [e, sub_self]⟩

theorem zip_sum {n : ℕ} (f h : ℕ → Fp p) :
    (List.zipWith (· * ·) ((List.range n).map f) ((List.range n).map h)).sum = ∑ i ∈ Finset.range n, f i * h i := by
  rw [List.zipWith_map, List.zipWith_self]
  induction n with
  | zero => rfl
  | succ n ih => rw [List.range_succ, List.map_append, List.sum_append, ih, Finset.sum_range_succ]; simp

theorem zipIdx_range (n : ℕ) (f : ℕ → Fp p) (w : Fp p) : ((List.range n).map f).zipIdx.map (fun t => t.1 * w ^ t.2) = (List.range n).map fun i => f i * w ^ i := by
  apply List.ext_getElem?
  intro i
  rw [List.getElem?_map, List.getElem?_zipIdx, List.getElem?_map, List.getElem?_map]
  by_cases hi : i < n
  · rw [List.getElem?_range hi]
    simp
  · rw [List.getElem?_eq_none (by simpa using hi)]
    simp

/-- **C105** Evaluation from the rows: it fails exactly at the points of the domain, and elsewhere gives the value of the polynomial whose
coefficients the inverse transform gives and whose values at the powers of a root of unity are the rows. -/
theorem C105_eval (hc : ConstsSpec p g z) {k ek : ℕ} (hk : k ≤ ek) (hS : ek ≤ Fp.macroS p) (h64 : ek < 64) (checks : Bool) (threads : ℕ)
    (rows : List (Fp p)) (hr : rows.length = 2 ^ k) :
    IsPrimitiveRoot (mkDomain p g z k ek).omega (2 ^ k) ∧
    ∃ a, (mkDomain p g z k ek).toCoeff checks threads rows = some a ∧ a.length = 2 ^ k ∧
      (∀ i < 2 ^ k, rows[i]? = some (evalList a ((mkDomain p g z k ek).omega ^ i))) ∧
      ∀ x, (mkDomain p g z k ek).evalRows x rows = if x ^ 2 ^ k = 1 then none else some (evalList a x) := by
  have h := mkDomain_ok hc hk hS h64
  have ek' : (mkDomain p g z k ek).k = k := rfl
  generalize mkDomain p g z k ek = d at h ek'
  subst ek'
  obtain ⟨f, f1, f2, f3⟩ := h.toCoeff checks threads rows hr
  refine ⟨h.root, _, f3, by rw [coeffs, List.length_map, List.length_range], fun i hi => ?_, fun x => ?_⟩
  · rw [evalList_coeffs _ _ f1, ← f2, values, List.getElem?_map, List.getElem?_range hi, Option.map_some, one_mul]
  rw [Domain.evalRows, hr, mapM_invert]
  by_cases hx : x ^ 2 ^ d.k = 1
  · rw [if_pos ((root_iff h.root x).mpr hx), if_pos hx]; rfl
  · rw [if_neg (fun e => hx ((root_iff h.root x).mp e)), if_neg hx, Option.bind_eq_bind, Option.bind_some, zipIdx_range, ← f2, values, zip_sum,
      evalList_coeffs _ _ f1, h.two_pow, eval_rows d.k d.omega h.root f f1 x, Finset.sum_mul, Finset.sum_mul]
    congr 1
    refine Finset.sum_congr rfl fun i hi => ?_
    rw [one_mul, basis_eval d.k (by have := h.le; have := h.lt; omega) d.omega h.root x hx i (Finset.mem_range.mp hi)]
    ring

/-- **C105** Openings from the rows: at a point outside the domain the rows of the quotient are found, and its polynomial times `X - z` is
the polynomial less `y` exactly when `y` is its value at `z`. -/
theorem C105_open (hc : ConstsSpec p g z) {k ek : ℕ} (hk : k ≤ ek) (hS : ek ≤ Fp.macroS p) (h64 : ek < 64) (checks : Bool) (threads : ℕ)
    (rows : List (Fp p)) (hr : rows.length = 2 ^ k) (u y : Fp p) :
    (u ^ 2 ^ k = 1 ↔ (mkDomain p g z k ek).openRows u y rows = none) ∧
    ∀ qs, (mkDomain p g z k ek).openRows u y rows = some qs → ∃ a q, (mkDomain p g z k ek).toCoeff checks threads rows = some a ∧
      (mkDomain p g z k ek).toCoeff checks threads qs = some q ∧ a.length = 2 ^ k ∧ q.length = 2 ^ k ∧
      ((∀ x, evalList q x * (x - u) = evalList a x - y) ↔ y = evalList a u) := by
  have h := mkDomain_ok hc hk hS h64
  have ek' : (mkDomain p g z k ek).k = k := rfl
  generalize mkDomain p g z k ek = d at h ek'
  subst ek'
  have hz : (∃ i < 2 ^ d.k, d.omega ^ i - u = 0) ↔ u ^ 2 ^ d.k = 1 := by
    rw [← root_iff h.root]
    simp only [sub_eq_zero, eq_comm]
  have hop : d.openRows u y rows = if u ^ 2 ^ d.k = 1 then none else
      some (List.zipWith (fun v i => (v - y) * i) rows ((List.range (2 ^ d.k)).map fun i => (d.omega ^ i - u)⁻¹)) := by
    rw [Domain.openRows, hr, mapM_invert]
    by_cases hx : u ^ 2 ^ d.k = 1
    · rw [if_pos (hz.mpr hx), if_pos hx]; rfl
    · rw [if_neg (fun e => hx (hz.mp e)), if_neg hx]; rfl
  rw [hop]
  by_cases hx : u ^ 2 ^ d.k = 1
  · rw [if_pos hx]
    exact ⟨⟨fun _ => rfl, fun _ => hx⟩, fun _ e => nomatch e⟩
  · rw [if_neg hx]
    refine ⟨⟨fun e => absurd e hx, (fun e => nomatch e)⟩, fun qs e => ?_⟩
    have e := Option.some.inj e
    subst e
    obtain ⟨f, f1, f2, f3⟩ := h.toCoeff checks threads rows hr
    obtain ⟨q, q1, q2, q3⟩ := h.toCoeff checks threads
      (List.zipWith (fun v i => (v - y) * i) rows ((List.range (2 ^ d.k)).map fun i => (d.omega ^ i - u)⁻¹)) (by simp [hr])
    refine ⟨_, _, f3, q3, by simp [coeffs], by simp [coeffs], ?_⟩
    have hq : ∀ i < 2 ^ d.k, q.eval (d.omega ^ i) = (f.eval (d.omega ^ i) - y) * (d.omega ^ i - u)⁻¹ := by
      intro i hi
      have e := congrArg (·[i]?) q2
      rw [← f2] at e
      simp only [values, List.getElem?_map, List.getElem?_range hi, Option.map_some, one_mul, List.zipWith_map, List.zipWith_self,
        Option.some.injEq] at e
      exact e
    constructor
    · intro hall
      have := hall u
      rw [sub_self, mul_zero] at this
      exact (sub_eq_zero.mp this.symm).symm
    · rw [evalList_coeffs _ _ f1]
      intro hy
      have hdiv : (X - C u) ∣ f - C y := by
        rw [dvd_iff_isRoot, IsRoot.def, eval_sub, eval_C, ← hy, sub_self]
      obtain ⟨q0, hq0⟩ := hdiv
      have hd0 : q0.natDegree < 2 ^ d.k := by
        by_cases h0 : q0 = 0
        · rw [h0, natDegree_zero]; positivity
        · have hm := natDegree_mul (X_sub_C_ne_zero u) h0
          rw [← hq0, natDegree_sub_C, natDegree_X_sub_C] at hm
          omega
      have hne : ∀ i < 2 ^ d.k, d.omega ^ i - u ≠ 0 := fun i hi e => hx (hz.mp ⟨i, hi, e⟩)
      have hqq : q = q0 := by
        refine eq_of_degree_sub_lt_of_eval_finset_eq ((Finset.range (2 ^ d.k)).image fun i => d.omega ^ i) ?_ ?_
        · rw [Finset.card_image_of_injOn fun a ha b hb e => h.root.pow_inj (Finset.mem_range.mp (Finset.mem_coe.mp ha))
            (Finset.mem_range.mp (Finset.mem_coe.mp hb)) e, Finset.card_range]
          refine lt_of_le_of_lt degree_le_natDegree ?_
          exact_mod_cast lt_of_le_of_lt (natDegree_sub_le _ _) (max_lt q1 hd0)
        · intro x hxm
          obtain ⟨i, hi, rfl⟩ := Finset.mem_image.mp hxm
          have hi := Finset.mem_range.mp hi
          rw [hq i hi, mul_inv_eq_iff_eq_mul₀ (hne i hi)]
          have e := congrArg (eval (d.omega ^ i)) hq0
          rw [eval_sub, eval_C, eval_mul, eval_sub, eval_X, eval_C] at e
          rw [e]; ring
      intro x
      have e := congrArg (eval x) hq0
      rw [eval_sub, eval_C, eval_mul, eval_sub, eval_X, eval_C] at e
      rw [evalList_coeffs _ _ f1, evalList_coeffs _ _ q1, hqq, e]
      ring

end Spec

section Points

variable {F : Type} [_root_.Field F] [DecidableEq F] [BaseField F] [LawfulBase F] {C : Params F}
variable {r : ℕ} [Fact r.Prime] [Fact (OddModulus r)] [Fp.SmallModulus r] {g z : ℕ}

/-- **C105** Commitments from the rows: for any points of the group, the multi-scalar product of the rows with the transformed points is
that of the coefficients with the points. -/
theorem C105_commit (hC : Good C) (hc : ConstsSpec r g z) {k ek : ℕ} (hk : k ≤ ek) (hS : ek ≤ Fp.macroS r) (h32 : ek < 32)
    (checks : Bool) (threads threads' : ℕ) {msm msm' : List (List ℕ) → List (Aff F) → Option (Proj F)} (hm : IsMsm C r msm) (hm' : IsMsm C r msm')
    (bases : List (Aff F)) (hb : bases.length = 2 ^ k) (hB : ∀ A ∈ bases, ∃ P : Pt C, ARep C A P ∧ r • P = 0) :
    ∃ lag, (mkDomain r g z k ek).rowBasis C checks threads (bases.map Aff.toCurve) = some lag ∧ lag.length = 2 ^ k ∧
      ∀ rows, rows.length = 2 ^ k → ∃ a R R', (mkDomain r g z k ek).toCoeff checks threads' rows = some a ∧
        msm (rows.map Fp.toRepr) lag = some R ∧ msm' (a.map Fp.toRepr) bases = some R' ∧ Proj.ctEq R R' = true := by
  have h := mkDomain_ok hc hk hS (by omega)
  have ek' : (mkDomain r g z k ek).k = k := rfl
  generalize mkDomain r g z k ek = d at h ek'
  subst ek'
  have hN : d.k < 64 := by have := h.le; have := h.lt; omega
  have hbig : 2 ^ d.k < 2 ^ 32 := Nat.pow_lt_pow_right (by norm_num) (by omega)
  have hpt : ∀ j : ℕ, ∃ P : Pt C, r • P = 0 ∧ ∀ A, bases[j]? = some A → ARep C A P := by
    intro j
    cases hj : bases[j]? with
    | none => exact ⟨0, smul_zero _, fun A e => nomatch e⟩
    | some A =>
      obtain ⟨P, h1, h2⟩ := hB A (List.mem_of_getElem? hj)
      exact ⟨P, h2, fun A' e => by rw [← Option.some.inj e]; exact h1⟩
  choose P hP0 hP using hpt
  have hbj : ∀ j < 2 ^ d.k, ∃ A, bases[j]? = some A ∧ ARep C A (P j) := by
    intro j hj
    have e : bases[j]? = some bases[j] := List.getElem?_eq_getElem (by omega)
    exact ⟨_, e, hP j _ e⟩
  obtain ⟨b, b1, b2, b3⟩ := C33_points hC d.k hN d.omega⁻¹ h.root.inv checks threads (bases.map Aff.toCurve) P (by rw [List.length_map, hb])
    (fun j _ => hP0 j) fun j hj => by
      obtain ⟨A, e, hA⟩ := hbj j hj
      exact ⟨_, by rw [List.getElem?_map, e]; rfl, hA.toCurve hC⟩
  let _ := torsModule C r
  let x : ℕ → Tors C r := fun j => ⟨P j, hP0 j⟩
  have hl : ∀ i < 2 ^ d.k, ∃ Q, (b.map fun P => Proj.mul C P (Fp.toRepr (d.twoInv ^ d.k)))[i]? = some Q ∧
      PRep C Q ((∑ j ∈ Finset.range (2 ^ d.k), (d.twoInv ^ d.k * d.omega⁻¹ ^ (i * j)) • x j : Tors C r) : Pt C) := by
    intro i hi
    obtain ⟨Q, e, hQ⟩ := b3 i hi
    refine ⟨_, by rw [List.getElem?_map, e]; rfl, ?_⟩
    have h4 := (C23_mul (r := r) hC hQ ARep.identity (d.twoInv ^ d.k)).1
    have e1 : ∑ j ∈ Finset.range (2 ^ d.k), Fp.toNat (d.omega⁻¹ ^ (i * j)) • P j =
        ((∑ j ∈ Finset.range (2 ^ d.k), d.omega⁻¹ ^ (i * j) • x j : Tors C r) : Pt C) := by
      rw [AddSubgroup.val_finsetSum]
      exact Finset.sum_congr rfl fun j _ => (coe_smul_tors (C := C) _ (x j)).symm
    rw [e1, ← coe_smul_tors, Finset.smul_sum] at h4
    have e2 : ∑ j ∈ Finset.range (2 ^ d.k), d.twoInv ^ d.k • d.omega⁻¹ ^ (i * j) • x j =
        ∑ j ∈ Finset.range (2 ^ d.k), (d.twoInv ^ d.k * d.omega⁻¹ ^ (i * j)) • x j := Finset.sum_congr rfl fun j _ => smul_smul _ _ _
    rw [e2] at h4
    exact h4
  have hlen : (b.map fun P => Proj.mul C P (Fp.toRepr (d.twoInv ^ d.k))).length = 2 ^ d.k := by rw [List.length_map, b2]
  refine ⟨(b.map fun P => Proj.mul C P (Fp.toRepr (d.twoInv ^ d.k))).map Proj.toAffine, ?_, by rw [List.length_map, hlen], fun rows hr => ?_⟩
  · rw [Domain.rowBasis, h.inv, b1, Option.bind_eq_bind, Option.bind_some, C22_batch_normalize, if_pos (by rw [List.length_map])]
  · obtain ⟨f, f1, f2, f3⟩ := h.toCoeff checks threads' rows hr
    have l1 := forall₂_affine (C := C) hlen hl
    have l2 : List.Forall₂ (ARep C) bases ((List.range (2 ^ d.k)).map P) := by
      rw [List.forall₂_iff_get]
      refine ⟨by simp [hb], fun i h1 h2 => ?_⟩
      simp only [List.get_eq_getElem, List.getElem_map, List.getElem_range]
      exact hP i _ (List.getElem?_eq_getElem h1)
    obtain ⟨R, r1, r2⟩ := hm rows _ _ (by rw [List.length_map, hlen, hr]) (by rw [List.length_map, hlen]; exact hbig) l1
    obtain ⟨R', r1', r2'⟩ := hm' (coeffs f (2 ^ d.k)) _ _ (by simp [coeffs, hb]) (by rw [hb]; exact hbig) l2
    refine ⟨_, R, R', f3, r1, r1', ?_⟩
    rw [PRep.ctEq r2 r2', ← f2, msmValue, msmValue, values, coeffs, msm_range, msm_range]
    have s1 : ∑ i ∈ Finset.range (2 ^ d.k), Fp.toNat (f.eval (1 * d.omega ^ i)) •
        ((∑ j ∈ Finset.range (2 ^ d.k), (d.twoInv ^ d.k * d.omega⁻¹ ^ (i * j)) • x j : Tors C r) : Pt C) =
        ((∑ i ∈ Finset.range (2 ^ d.k), f.eval (d.omega ^ i) • ∑ j ∈ Finset.range (2 ^ d.k), (d.twoInv ^ d.k * d.omega⁻¹ ^ (i * j)) • x j : Tors C r) : Pt C) := by
      rw [AddSubgroup.val_finsetSum]
      exact Finset.sum_congr rfl fun i _ => by rw [one_mul, coe_smul_tors]
    have s2 : ∑ j ∈ Finset.range (2 ^ d.k), Fp.toNat (f.coeff j) • P j = ((∑ j ∈ Finset.range (2 ^ d.k), f.coeff j • x j : Tors C r) : Pt C) := by
      rw [AddSubgroup.val_finsetSum]
      exact Finset.sum_congr rfl fun j _ => (coe_smul_tors (C := C) _ (x j)).symm
    rw [s1, s2]
    congr 1
    simp only [Finset.smul_sum, smul_smul]
    rw [Finset.sum_comm]
    refine Finset.sum_congr rfl fun j hj => ?_
    rw [← Finset.sum_smul]
    congr 1
    have hco : f.coeff j = (∑ i ∈ Finset.range (2 ^ d.k), Polynomial.C (f.eval (d.omega ^ i)) *
        Lagrange.basis (Finset.range (2 ^ d.k)) (fun k => d.omega ^ k) i).coeff j := by
      have hinj : Set.InjOn (fun k => d.omega ^ k) (Finset.range (2 ^ d.k) : Set ℕ) := by
        intro k hk l hl h'
        exact h.root.pow_inj (Finset.mem_range.mp (Finset.mem_coe.mp hk)) (Finset.mem_range.mp (Finset.mem_coe.mp hl)) h'
      have hd : f.degree < (Finset.range (2 ^ d.k)).card := by
        rw [Finset.card_range]
        exact lt_of_le_of_lt degree_le_natDegree (by exact_mod_cast f1)
      conv_lhs => rw [Lagrange.eq_interpolate hinj hd]
      rw [Lagrange.interpolate_apply]
    rw [hco, finsetSum_coeff]
    refine Finset.sum_congr rfl fun i hi => ?_
    rw [coeff_C_mul, (basis_coeff d.k hN d.omega h.root i (Finset.mem_range.mp hi)).2 j (Finset.mem_range.mp hj), h.two_pow]
    ring

end Points

/-- Two rows over bn256's scalar field: the value at 2 of the polynomial with the values 3 at 1 and 5 at -1 is found, that at 1 is not. -/
example : (mkDomain bnR 7 bnRZeta 1 1).evalRows 1 [3, 5] = none ∧ ∃ a, (mkDomain bnR 7 bnRZeta 1 1).toCoeff true 1 [3, 5] = some a ∧
    (mkDomain bnR 7 bnRZeta 1 1).evalRows 2 [3, 5] = some (evalList a 2) := by
  obtain ⟨-, a, h1, -, -, h2⟩ := C105_eval C12_constants.2.1 (k := 1) (ek := 1) le_rfl (by decide +kernel) (by decide) true 1 [3, 5] rfl
  refine ⟨by rw [h2, if_pos (by norm_num)], a, h1, ?_⟩
  rw [h2, if_neg]
  intro e
  have : (3 : Fp bnR) = 0 := by linear_combination e
  exact absurd this (by decide +kernel)

/-- The hypotheses on the points can be met: the generator of bn256 and the identity, with `msm_serial`. -/
example {ln : ℕ → ℕ} (hln : LnCeilOk ln) (rows : List (Fp bnR)) (hr : rows.length = 2 ^ 1) :
    ∃ lag a R R', (mkDomain bnR 7 bnRZeta 1 1).rowBasis Bn256.g1 true 4 ([Bn256.g1Gen, Aff.identity].map Aff.toCurve) = some lag ∧
      (mkDomain bnR 7 bnRZeta 1 1).toCoeff true 2 rows = some a ∧
      msmSerial Bn256.g1 ln ((numBits bnR + 7) / 8) (rows.map Fp.toRepr) lag Proj.identity = some R ∧
      msmSerial Bn256.g1 ln ((numBits bnR + 7) / 8) (a.map Fp.toRepr) [Bn256.g1Gen, Aff.identity] Proj.identity = some R' ∧
      Proj.ctEq R R' = true := by
  have hm := (C88_msm (r := bnR) Bn256.g1_good hln).1
  obtain ⟨lag, h1, -, h2⟩ := C105_commit Bn256.g1_good C12_constants.2.1 (k := 1) (ek := 1) le_rfl (by decide +kernel) (by decide) true 4 2 hm hm
    [Bn256.g1Gen, Aff.identity] rfl (by
      intro A hA
      rcases List.mem_cons.mp hA with rfl | hA
      · obtain ⟨G, hG, ho, -⟩ := C44_orders.1.gen
        exact ⟨G, hG, by rw [← ho]; exact addOrderOf_nsmul_eq_zero G⟩
      · rw [List.mem_singleton.mp hA]
        exact ⟨0, ARep.identity, smul_zero _⟩)
  obtain ⟨a, R, R', e1, e2, e3, e4⟩ := h2 rows hr
  exact ⟨lag, a, R, R', h1, e1, e2, e3, e4⟩

end Halo2.Props
