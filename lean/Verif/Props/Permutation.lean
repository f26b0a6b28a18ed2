import Verif.Props.Vanish
import Verif.Props.Generators

/-!
# C90: permutation arguments over the library

A client that proves that the cells of a table are equal along a permutation, as PLONK and halo2 do it: column `c` and row `r` carry the
label `DELTA^c omega^r`, and the product of the fractions `(v + beta label + gamma) / (v + beta label' + gamma)` over all cells is one,
`label'` being the label of the image of the cell.
-/

set_option linter.unusedSectionVars false

namespace Halo2.Props

open Halo2 Halo2.Field Halo2.Prime Halo2.Curve Polynomial

section Client

variable {p : ℕ} [Fact p.Prime] [Fact (OddModulus p)] [Fp.SmallModulus p]

/-- The label of a cell (column, row) of a table with `2^k` rows, by repeated multiplication. -/
noncomputable def label (p g k : ℕ) [Fact p.Prime] [Fact (OddModulus p)] [Fp.SmallModulus p] (c r : ℕ) : Fp p :=
  (fun x => ((fun x => x * x)^[Fp.macroS p - k] (Fp.rootOfUnity p g)) * x)^[r] ((fun x => Fp.delta p g * x)^[c] 1)

/-- The cells of a table, row by row. -/
def cells (m n : ℕ) : List (Fin m × Fin n) := (List.finRange n).flatMap fun r => (List.finRange m).map fun c => (c, r)

/-- One cell of the product: the running product, the value, the label and the label of the image. -/
noncomputable def permStep (beta gamma : Fp p) (acc v l l' : Fp p) : Option (Fp p) := do
  let i ← Fp.invert (v + beta * l' + gamma)
  some (acc * (v + beta * l + gamma) * i)

/-- The check of the verifier. -/
noncomputable def permCheck (p g k m : ℕ) [Fact p.Prime] [Fact (OddModulus p)] [Fp.SmallModulus p] (beta gamma : Fp p)
    (v : Fin m × Fin (2 ^ k) → Fp p) (sigma : Equiv.Perm (Fin m × Fin (2 ^ k))) : Option Bool := do
  let z ← (cells m (2 ^ k)).foldlM (fun acc x =>
    permStep beta gamma acc (v x) (label p g k x.1 x.2) (label p g k (sigma x).1 (sigma x).2)) 1
  some (decide (z = 1))

theorem label_eq (g k c r : ℕ) : label p g k c r = Fp.delta p g ^ c * Fp.rootOfUnity p g ^ (2 ^ (Fp.macroS p - k) * r) := by
  rw [label, mul_left_iterate, mul_left_iterate, iterate_square, pow_mul]
  dsimp only
  rw [mul_one, mul_comm]

/-- **C90** The labels of different cells are different, for as many columns as the order of `DELTA` allows. -/
theorem C90_labels {g k m : ℕ} (hg : GeneratorSpec p g) (hr : RootSpec p g) (hk : k ≤ Fp.macroS p) (hm : m ≤ orderOf (Fp.delta p g))
    (x y : Fin m × Fin (2 ^ k)) (h : label p g k x.1 x.2 = label p g k y.1 y.2) : x = y := by
  rw [label_eq, label_eq] at h
  have hpow : 2 ^ (Fp.macroS p - k) * 2 ^ k = 2 ^ Fp.macroS p := by rw [← pow_add, Nat.sub_add_cancel hk]
  have hpos : 0 < 2 ^ (Fp.macroS p - k) := Nat.pos_of_ne_zero (by positivity)
  have lt : ∀ z : Fin m × Fin (2 ^ k), 2 ^ (Fp.macroS p - k) * z.2.val < 2 ^ Fp.macroS p := fun z => by
    rw [← hpow]
    exact Nat.mul_lt_mul_of_pos_left z.2.isLt hpos
  have hroot0 : Fp.rootOfUnity p g ≠ 0 := fun e => by
    have := (hr (Fp.macroS p) le_rfl).2
    rw [Nat.sub_self, pow_zero, pow_one, e, zero_mul] at this
    exact zero_ne_one this
  have hd0 : Fp.delta p g ≠ 0 := fun e => by
    have h1 := pow_orderOf_eq_one (Fp.delta p g)
    have h2 := hg.delta_order.2
    rw [e] at h1 h2
    rw [zero_pow (by omega)] at h1
    exact zero_ne_one h1
  obtain ⟨e, -, hu⟩ := hg.cosets _ (mul_ne_zero (pow_ne_zero x.1.val hd0) (pow_ne_zero (2 ^ (Fp.macroS p - k) * x.2.val) hroot0))
  have h1 := hu (x.1.val, 2 ^ (Fp.macroS p - k) * x.2.val) ⟨lt_of_lt_of_le x.1.isLt hm, lt x, rfl⟩
  have h2 := hu (y.1.val, 2 ^ (Fp.macroS p - k) * y.2.val) ⟨lt_of_lt_of_le y.1.isLt hm, lt y, h.symm⟩
  obtain ⟨e1, e2⟩ := Prod.mk.inj (h1.trans h2.symm)
  exact Prod.ext (Fin.ext e1) (Fin.ext (Nat.eq_of_mul_eq_mul_left hpos e2))

theorem prod_cells {M : Type} [CommMonoid M] (m n : ℕ) (f : Fin m × Fin n → M) : ((cells m n).map f).prod = ∏ x, f x := by
  rw [Fintype.prod_prod_type_right, Fin.prod_univ_def, cells, List.map_flatMap]
  induction List.finRange n with
  | nil => rfl
  | cons r rs ih => rw [List.flatMap_cons, List.prod_append, ih, List.map_cons, List.prod_cons, Fin.prod_univ_def, List.map_map]; rfl

theorem mem_cells (m n : ℕ) (x : Fin m × Fin n) : x ∈ cells m n :=
  List.mem_flatMap.mpr ⟨x.2, List.mem_finRange _, List.mem_map.mpr ⟨x.1, List.mem_finRange _, rfl⟩⟩

theorem permFold {A : Type} (beta gamma : Fp p) (v l l' : A → Fp p) (L : List A) (acc : Fp p) :
    (∀ x ∈ L, v x + beta * l' x + gamma ≠ 0) →
      L.foldlM (fun acc x => permStep beta gamma acc (v x) (l x) (l' x)) acc =
        some (acc * (L.map fun x => v x + beta * l x + gamma).prod * ((L.map fun x => v x + beta * l' x + gamma).prod)⁻¹) := by
  induction L generalizing acc with
  | nil => intro _; simp
  | cons x L ih =>
    intro h
    rw [List.foldlM_cons, permStep, invert_eq, if_neg (h x List.mem_cons_self), Option.bind_eq_bind, Option.bind_some, Option.bind_some, ih _ fun y hy => h y (List.mem_cons_of_mem _ hy), List.map_cons, List.map_cons, List.prod_cons, List.prod_cons,
      mul_inv]
    congr 1
    ring

theorem permFold_none {A : Type} (beta gamma : Fp p) (v l l' : A → Fp p) (L : List A) (acc : Fp p) {x : A} (hx : x ∈ L)
    (h0 : v x + beta * l' x + gamma = 0) :
    L.foldlM (fun acc x => permStep beta gamma acc (v x) (l x) (l' x)) acc = none := by
  induction L generalizing acc with
  | nil => cases hx
  | cons y L ih =>
    rw [List.foldlM_cons]
    by_cases hy : v y + beta * l' y + gamma = 0
    · rw [permStep, invert_eq, if_pos hy]
      rfl
    · rcases List.mem_cons.mp hx with rfl | hx
      · exact absurd h0 hy
      · rw [permStep, invert_eq, if_neg hy, Option.bind_eq_bind, Option.bind_some, Option.bind_some, ih _ hx]

/-- What the check decides. -/
theorem permCheck_eq {g k m : ℕ} (beta gamma : Fp p) (v : Fin m × Fin (2 ^ k) → Fp p) (sigma : Equiv.Perm (Fin m × Fin (2 ^ k))) :
    ((∃ x, v x + beta * label p g k (sigma x).1 (sigma x).2 + gamma = 0) → permCheck p g k m beta gamma v sigma = none) ∧
    ((∀ x, v x + beta * label p g k (sigma x).1 (sigma x).2 + gamma ≠ 0) →
      permCheck p g k m beta gamma v sigma = some (decide
        (∏ x, (v x + beta * label p g k x.1 x.2 + gamma) = ∏ x, (v x + beta * label p g k (sigma x).1 (sigma x).2 + gamma)))) := by
  constructor
  · rintro ⟨x, hx⟩
    rw [permCheck, permFold_none beta gamma v (fun x => label p g k x.1 x.2) (fun x => label p g k (sigma x).1 (sigma x).2) _ 1
      (mem_cells m (2 ^ k) x) hx]
    rfl
  · intro h
    rw [permCheck, permFold beta gamma v (fun x => label p g k x.1 x.2) (fun x => label p g k (sigma x).1 (sigma x).2) _ 1
      (fun x _ => h x), Option.bind_eq_bind, Option.bind_some,
      prod_cells m (2 ^ k) fun x => v x + beta * label p g k x.1 x.2 + gamma,
      prod_cells m (2 ^ k) fun x => v x + beta * label p g k (sigma x).1 (sigma x).2 + gamma, one_mul]
    congr 1
    have h0 : ∏ x, (v x + beta * label p g k (sigma x).1 (sigma x).2 + gamma) ≠ 0 := Finset.prod_ne_zero_iff.mpr fun x _ => h x
    rw [Bool.eq_iff_iff, decide_eq_true_iff, decide_eq_true_iff, ← div_eq_mul_inv, div_eq_one_iff_eq h0]

/-- **C90** Completeness: if the values agree along the permutation, the check accepts, unless a denominator is zero; then it fails. -/
theorem C90_complete {g k m : ℕ} (beta gamma : Fp p) (v : Fin m × Fin (2 ^ k) → Fp p) (sigma : Equiv.Perm (Fin m × Fin (2 ^ k)))
    (hv : ∀ x, v (sigma x) = v x) :
    ((∃ x, v x + beta * label p g k x.1 x.2 + gamma = 0) → permCheck p g k m beta gamma v sigma = none) ∧
    ((∀ x, v x + beta * label p g k x.1 x.2 + gamma ≠ 0) → permCheck p g k m beta gamma v sigma = some true) := by
  have e : ∀ x, v x + beta * label p g k (sigma x).1 (sigma x).2 + gamma =
      v (sigma x) + beta * label p g k (sigma x).1 (sigma x).2 + gamma := fun x => by rw [hv]
  refine ⟨fun ⟨x, hx⟩ => (permCheck_eq beta gamma v sigma).1 ⟨sigma.symm x, ?_⟩, fun h => ?_⟩
  · rw [e, Equiv.apply_symm_apply]
    exact hx
  · rw [(permCheck_eq beta gamma v sigma).2 fun x => by rw [e]; exact h _]
    congr 1
    rw [decide_eq_true_iff, Finset.prod_congr rfl fun x _ => e x]
    exact (Equiv.prod_comp sigma fun x => v x + beta * label p g k x.1 x.2 + gamma).symm

/-- **C90** Soundness: if the values differ along the permutation in some cell, then for all but fewer than `m 2^k` values of `beta` the
check accepts for fewer than `m 2^k` values of `gamma` only. -/
theorem C90_sound {g k m : ℕ} (hg : GeneratorSpec p g) (hr : RootSpec p g) (hk : k ≤ Fp.macroS p) (hm : m ≤ orderOf (Fp.delta p g))
    (v : Fin m × Fin (2 ^ k) → Fp p) (sigma : Equiv.Perm (Fin m × Fin (2 ^ k))) (x0 : Fin m × Fin (2 ^ k)) (hv : v (sigma x0) ≠ v x0) :
    ∃ B : Finset (Fp p), B.card < m * 2 ^ k ∧ ∀ beta ∉ B, ∃ G : Finset (Fp p), G.card < m * 2 ^ k ∧ ∀ gamma ∉ G,
      permCheck p g k m beta gamma v sigma ≠ some true := by
  have hcard : Fintype.card (Fin m × Fin (2 ^ k)) = m * 2 ^ k := by rw [Fintype.card_prod, Fintype.card_fin, Fintype.card_fin]
  have hpos : 0 < m * 2 ^ k := hcard ▸ Fintype.card_pos_iff.mpr ⟨x0⟩
  let l : Fin m × Fin (2 ^ k) → Fp p := fun x => label p g k x.1 x.2
  have hl : Function.Injective l := fun x y h => C90_labels hg hr hk hm x y h
  refine ⟨(Finset.univ.erase x0).image fun x => (v x - v (sigma x0)) / (l (sigma x0) - l (sigma x)), ?_, fun beta hb => ?_⟩
  · refine lt_of_le_of_lt Finset.card_image_le ?_
    rw [Finset.card_erase_of_mem (Finset.mem_univ _), Finset.card_univ, hcard]
    omega
  · have hne : ∀ x, v (sigma x0) + beta * l (sigma x0) ≠ v x + beta * l (sigma x) := fun x e => by
      by_cases hx : x = x0
      · rw [hx] at e
        exact hv (add_right_cancel e)
      · have hl0 : l (sigma x0) - l (sigma x) ≠ 0 := sub_ne_zero.mpr fun e => hx (sigma.injective (hl e)).symm
        refine hb (Finset.mem_image.mpr ⟨x, Finset.mem_erase.mpr ⟨hx, Finset.mem_univ _⟩, ?_⟩)
        rw [div_eq_iff hl0]
        linear_combination -e
    let P : (Fp p)[X] := ∏ x, (X + C (v x + beta * l x))
    let Q : (Fp p)[X] := ∏ x, (X + C (v x + beta * l (sigma x)))
    have hPm : P.Monic := monic_prod_of_monic _ _ fun x _ => monic_X_add_C _
    have hQm : Q.Monic := monic_prod_of_monic _ _ fun x _ => monic_X_add_C _
    have hd : ∀ f : Fin m × Fin (2 ^ k) → Fp p, (∏ x, (X + C (f x)) : (Fp p)[X]).natDegree = m * 2 ^ k := fun f => by
      rw [natDegree_prod_of_monic _ _ fun x _ => monic_X_add_C _]
      simp only [natDegree_X_add_C, Finset.sum_const, Finset.card_univ, hcard, smul_eq_mul, mul_one]
    have hev : ∀ (f : Fin m × Fin (2 ^ k) → Fp p) (t : Fp p), (∏ x, (X + C (f x)) : (Fp p)[X]).eval t = ∏ x, (t + f x) := fun f t => by
      rw [eval_prod]
      simp only [eval_add, eval_X, eval_C]
    have hPQ : P - Q ≠ 0 := fun e => by
      have e := congrArg (eval (-(v (sigma x0) + beta * l (sigma x0)))) e
      have e1 : P.eval (-(v (sigma x0) + beta * l (sigma x0))) = 0 := by
        rw [hev]
        exact Finset.prod_eq_zero (Finset.mem_univ (sigma x0)) (neg_add_cancel _)
      rw [eval_sub, e1, zero_sub, eval_zero, neg_eq_zero, hev] at e
      obtain ⟨x, -, hx⟩ := Finset.prod_eq_zero_iff.mp e
      exact hne x (neg_add_eq_zero.mp hx)
    refine ⟨(P - Q).roots.toFinset, ?_, fun gamma hgm h => ?_⟩
    · refine lt_of_le_of_lt (Multiset.toFinset_card_le _) (lt_of_le_of_lt (card_roots' _) ?_)
      have h1 : (P - Q).degree < P.degree := degree_sub_lt_left (by
        rw [degree_eq_natDegree hPm.ne_zero, degree_eq_natDegree hQm.ne_zero, hd, hd]) hPm.ne_zero (by rw [hPm.leadingCoeff, hQm.leadingCoeff])
      have h2 := natDegree_lt_natDegree hPQ h1
      rwa [hd] at h2
    · refine hgm ?_
      rw [Multiset.mem_toFinset, mem_roots hPQ, IsRoot.def, eval_sub, hev, hev, sub_eq_zero]
      by_cases h0 : ∃ x, v x + beta * label p g k (sigma x).1 (sigma x).2 + gamma = 0
      · rw [(permCheck_eq beta gamma v sigma).1 h0] at h
        exact nomatch h
      · push Not at h0
        rw [(permCheck_eq beta gamma v sigma).2 h0, Option.some.injEq, decide_eq_true_iff] at h
        have e1 : ∀ x, gamma + (v x + beta * l x) = v x + beta * label p g k x.1 x.2 + gamma := fun x => by rw [add_comm]
        have e2 : ∀ x, gamma + (v x + beta * l (sigma x)) = v x + beta * label p g k (sigma x).1 (sigma x).2 + gamma := fun x => by
          rw [add_comm]
        rw [Finset.prod_congr rfl fun x _ => e1 x, Finset.prod_congr rfl fun x _ => e2 x, h]

end Client

/-- A table of three columns and four rows over bn256's scalar field, every value the number of its column, and the permutation that
exchanges two cells of the first two columns: it is rejected for all but eleven `beta` and then all but eleven `gamma`. -/
example : ∃ B : Finset (Fp bnR), B.card < 12 ∧ ∀ beta ∉ B, ∃ G : Finset (Fp bnR), G.card < 12 ∧ ∀ gamma ∉ G,
    permCheck bnR 7 2 3 beta gamma (fun x => ((x.1.val : ℕ) : Fp bnR)) (Equiv.swap (0, 1) (1, 2)) ≠ some true := by
  have hg := C57_generators.2.1
  refine C90_sound (k := 2) (m := 3) hg C33_roots.2.1 (by decide +kernel) ?_ _ _ (0, 1) ?_
  · by_contra h
    have h1 : 2 ^ Fp.macroS bnR * orderOf (Fp.delta bnR 7) ≤ 2 ^ Fp.macroS bnR * 2 := Nat.mul_le_mul_left _ (by omega)
    rw [hg.delta_order.1] at h1
    exact absurd h1 (by decide +kernel)
  · rw [Equiv.swap_apply_left]
    intro e
    rw [Fp.natCast_eq_iff] at e
    exact absurd e (by decide +kernel)

/-- Exchanging two cells of one column is accepted, whatever the challenges, if no denominator is zero. -/
example (beta gamma : Fp bnR) (h : ∀ x : Fin 3 × Fin (2 ^ 2), ((x.1.val : ℕ) : Fp bnR) + beta * label bnR 7 2 x.1 x.2 + gamma ≠ 0) :
    permCheck bnR 7 2 3 beta gamma (fun x => ((x.1.val : ℕ) : Fp bnR)) (Equiv.swap (0, 1) (0, 2)) = some true := by
  refine (C90_complete beta gamma _ _ fun x => ?_).2 h
  have : ∀ x : Fin 3 × Fin (2 ^ 2), (Equiv.swap ((0, 1) : Fin 3 × Fin (2 ^ 2)) (0, 2) x).1 = x.1 := by decide
  rw [this]

end Halo2.Props
