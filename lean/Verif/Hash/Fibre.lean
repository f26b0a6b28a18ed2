import Mathlib.Algebra.Polynomial.Roots
import Mathlib.Data.Set.Card
import Verif.Hash.MapLemmas
import Verif.Ext.ShRing

/-! How many field elements the maps to a curve send to one abscissa. Helper lemmas only. -/

namespace Halo2.Hash

open Polynomial Halo2.Ext

set_option linter.unusedSectionVars false

section Roots

variable {F : Type} [_root_.Field F]

/-- A set inside the roots of a nonzero polynomial of degree at most `n` has at most `n` elements. -/
theorem ncard_le_of_roots {P : F[X]} (h0 : P ≠ 0) {n : ℕ} (hn : P.natDegree ≤ n) {S : Set F} (hS : ∀ u ∈ S, P.eval u = 0) :
    S.ncard ≤ n := by
  classical
  have hsub : S ⊆ (P.roots.toFinset : Set F) := by
    intro u hu
    rw [Finset.mem_coe, Multiset.mem_toFinset, mem_roots h0]
    exact hS u hu
  calc S.ncard ≤ (P.roots.toFinset : Set F).ncard := Set.ncard_le_ncard hsub (Finset.finite_toSet _)
    _ = P.roots.toFinset.card := Set.ncard_coe_finset _
    _ ≤ P.roots.card := Multiset.toFinset_card_le _
    _ ≤ P.natDegree := card_roots' P
    _ ≤ n := hn

/-- The set of roots of a function with five coefficients, not all zero. -/
theorem ncard_quartic {c0 c1 c2 c3 c4 : F} (h : ¬ (c0 = 0 ∧ c1 = 0 ∧ c2 = 0 ∧ c3 = 0 ∧ c4 = 0)) {S : Set F}
    (hS : ∀ u ∈ S, c0 + c1 * u + c2 * u ^ 2 + c3 * u ^ 3 + c4 * u ^ 4 = 0) : S.ncard ≤ 4 := by
  have hc : ∀ n, (C c0 + C c1 * X + C c2 * X ^ 2 + C c3 * X ^ 3 + C c4 * X ^ 4 : F[X]).coeff n =
      (if n = 0 then c0 else 0) + (if n = 1 then c1 else 0) + (if n = 2 then c2 else 0) + (if n = 3 then c3 else 0) + (if n = 4 then c4 else 0) := by
    intro n
    rw [coeff_add, coeff_add, coeff_add, coeff_add, coeff_C, coeff_C_mul_X, coeff_C_mul_X_pow, coeff_C_mul_X_pow, coeff_C_mul_X_pow]
  refine ncard_le_of_roots (P := C c0 + C c1 * X + C c2 * X ^ 2 + C c3 * X ^ 3 + C c4 * X ^ 4) ?_ ?_ ?_
  · intro e
    apply h
    have := fun n => (hc n).symm.trans (congrArg (fun P => coeff P n) e)
    simp only [coeff_zero] at this
    have a0 := this 0
    have a1 := this 1
    have a2 := this 2
    have a3 := this 3
    have a4 := this 4
    simp at a0 a1 a2 a3 a4
    exact ⟨a0, a1, a2, a3, a4⟩
  · rw [natDegree_le_iff_coeff_eq_zero]
    intro n hn
    rw [hc, if_neg (by omega), if_neg (by omega), if_neg (by omega), if_neg (by omega), if_neg (by omega)]
    simp
  · intro u hu
    simp only [eval_add, eval_mul, eval_C, eval_X, eval_pow]
    exact hS u hu

theorem ncard_quadratic {c0 c1 c2 : F} (h : ¬ (c0 = 0 ∧ c1 = 0 ∧ c2 = 0)) {S : Set F}
    (hS : ∀ u ∈ S, c0 + c1 * u + c2 * u ^ 2 = 0) : S.ncard ≤ 2 := by
  have hc : ∀ n, (C c0 + C c1 * X + C c2 * X ^ 2 : F[X]).coeff n =
      (if n = 0 then c0 else 0) + (if n = 1 then c1 else 0) + (if n = 2 then c2 else 0) := by
    intro n
    rw [coeff_add, coeff_add, coeff_C, coeff_C_mul_X, coeff_C_mul_X_pow]
  refine ncard_le_of_roots (P := C c0 + C c1 * X + C c2 * X ^ 2) ?_ ?_ ?_
  · intro e
    apply h
    have := fun n => (hc n).symm.trans (congrArg (fun P => coeff P n) e)
    simp only [coeff_zero] at this
    have a0 := this 0
    have a1 := this 1
    have a2 := this 2
    simp at a0 a1 a2
    exact ⟨a0, a1, a2⟩
  · rw [natDegree_le_iff_coeff_eq_zero]
    intro n hn
    rw [hc, if_neg (by omega), if_neg (by omega), if_neg (by omega)]
    simp
  · intro u hu
    simp only [eval_add, eval_mul, eval_C, eval_X, eval_pow]
    exact hS u hu

theorem ncard_cubic {c0 c1 c2 c3 : F} (h : ¬ (c0 = 0 ∧ c1 = 0 ∧ c2 = 0 ∧ c3 = 0)) {S : Set F}
    (hS : ∀ u ∈ S, c0 + c1 * u + c2 * u ^ 2 + c3 * u ^ 3 = 0) : S.ncard ≤ 3 := by
  have hc : ∀ n, (C c0 + C c1 * X + C c2 * X ^ 2 + C c3 * X ^ 3 : F[X]).coeff n =
      (if n = 0 then c0 else 0) + (if n = 1 then c1 else 0) + (if n = 2 then c2 else 0) + (if n = 3 then c3 else 0) := by
    intro n
    rw [coeff_add, coeff_add, coeff_add, coeff_C, coeff_C_mul_X, coeff_C_mul_X_pow, coeff_C_mul_X_pow]
  refine ncard_le_of_roots (P := C c0 + C c1 * X + C c2 * X ^ 2 + C c3 * X ^ 3) ?_ ?_ ?_
  · intro e
    apply h
    have := fun n => (hc n).symm.trans (congrArg (fun P => coeff P n) e)
    simp only [coeff_zero] at this
    have a0 := this 0
    have a1 := this 1
    have a2 := this 2
    have a3 := this 3
    simp at a0 a1 a2 a3
    exact ⟨a0, a1, a2, a3⟩
  · rw [natDegree_le_iff_coeff_eq_zero]
    intro n hn
    rw [hc, if_neg (by omega), if_neg (by omega), if_neg (by omega), if_neg (by omega)]
    simp
  · intro u hu
    simp only [eval_add, eval_mul, eval_C, eval_X, eval_pow]
    exact hS u hu

/-- The polynomial with a list of coefficients, lowest first. -/
noncomputable def listPoly (l : List F) : F[X] := l.foldr (fun c acc => acc * X + C c) 0

theorem listPoly_cons (c : F) (l : List F) : listPoly (c :: l) = listPoly l * X + C c := rfl

theorem listPoly_eval (l : List F) (t : F) : (listPoly l).eval t = peval l t := by
  induction l with
  | nil => exact eval_zero
  | cons c l ih => rw [listPoly_cons, peval_cons, eval_add, eval_mul, eval_X, eval_C, ih]

theorem listPoly_coeff (l : List F) (n : ℕ) : (listPoly l).coeff n = l.getD n 0 := by
  induction l generalizing n with
  | nil => rfl
  | cons c l ih =>
    rw [listPoly_cons, coeff_add]
    cases n with
    | zero => simp
    | succ n => rw [coeff_mul_X, ih, coeff_C_succ, add_zero, List.getD_cons_succ]

/-- A rational function `N / D` with `deg D < deg N = n` takes each value at most `n` times. -/
theorem ncard_ratio {N D : List F} {n : ℕ} (hN : N.length = n + 1) (hn : N.getD n 0 ≠ 0) (hD : D.length ≤ n) (v : F) :
    {t | peval D t ≠ 0 ∧ peval N t / peval D t = v}.ncard ≤ n := by
  refine ncard_le_of_roots (P := listPoly N - C v * listPoly D) ?_ ?_ ?_
  · intro e
    apply hn
    have := congrArg (fun P => coeff P n) e
    simp only [coeff_sub, coeff_C_mul, listPoly_coeff, coeff_zero] at this
    rw [List.getD_eq_default D _ hD, mul_zero, sub_zero] at this
    exact this
  · rw [natDegree_le_iff_coeff_eq_zero]
    intro m hm
    rw [coeff_sub, coeff_C_mul, listPoly_coeff, listPoly_coeff, List.getD_eq_default _ _ (by omega), List.getD_eq_default _ _ (by omega), mul_zero,
      sub_zero]
  · rintro t ⟨h0, h⟩
    rw [eval_sub, eval_mul, eval_C, listPoly_eval, listPoly_eval, ← h, div_mul_cancel₀ _ h0, sub_self]

end Roots

section Maps

variable {F : Type} [_root_.Field F] [Finite F] [DecidableEq F]

/-- At most twelve field elements share an abscissa under the SVDW map. -/
theorem svdwX_fibre (h2 : (2 : F) ≠ 0) {a b z s : F} (hz : SvdwZ a b z) (hs : s ≠ 0) (x : F) : {u | SvdwX a b z s u x}.ncard ≤ 12 := by
  have hg := hz.ne
  have ht := hz.tne
  have h4 : (4 : F) ≠ 0 := by
    have : (4 : F) = 2 * 2 := by norm_num
    rw [this]
    exact mul_ne_zero h2 h2
  have hsub : {u | SvdwX a b z s u x} ⊆
      {u | 1 + 0 * u + 0 * u ^ 2 + 0 * u ^ 3 + -rhs a b z ^ 2 * u ^ 4 = 0} ∪
      ({u | (x + z / 2) + s * u + (x + z / 2) * rhs a b z * u ^ 2 = 0} ∪
      ({u | (x + z / 2) + -s * u + (x + z / 2) * rhs a b z * u ^ 2 = 0} ∪
      {u | ((x - z) * (3 * z ^ 2 + 4 * a) + 4 * rhs a b z) + 0 * u +
        (-2 * rhs a b z * ((x - z) * (3 * z ^ 2 + 4 * a)) + 8 * rhs a b z * rhs a b z) * u ^ 2 + 0 * u ^ 3 +
        (rhs a b z ^ 2 * ((x - z) * (3 * z ^ 2 + 4 * a)) + 4 * rhs a b z * rhs a b z ^ 2) * u ^ 4 = 0})) := by
    intro u hu
    rw [Set.mem_ofPred_eq] at hu
    unfold SvdwX at hu
    dsimp only at hu
    obtain ⟨k1, k2, k3⟩ := hu
    rw [Set.mem_union, Set.mem_union, Set.mem_union, Set.mem_ofPred_eq, Set.mem_ofPred_eq, Set.mem_ofPred_eq, Set.mem_ofPred_eq]
    by_cases e : (1 - u ^ 2 * rhs a b z) * (1 + u ^ 2 * rhs a b z) = 0
    · left
      linear_combination e
    right
    have e1 : 1 - u ^ 2 * rhs a b z ≠ 0 := left_ne_zero_of_mul e
    have e2 : 1 + u ^ 2 * rhs a b z ≠ 0 := right_ne_zero_of_mul e
    generalize rhs a b z = g at *
    by_cases q1 : IsSquare (rhs a b (-z / 2 - u * (1 - u ^ 2 * g) * ((1 - u ^ 2 * g) * (1 + u ^ 2 * g))⁻¹ * s))
    · left
      have := k1 q1
      rw [this]
      field_simp
      ring
    right
    by_cases q2 : IsSquare (rhs a b (-z / 2 + u * (1 - u ^ 2 * g) * ((1 - u ^ 2 * g) * (1 + u ^ 2 * g))⁻¹ * s))
    · left
      have := k2 q1 q2
      rw [this]
      field_simp
      ring
    right
    have hx := k3 q1 q2
    have hx' : (x - z) * (3 * z ^ 2 + 4 * a) * (1 - u ^ 2 * g) ^ 2 = -4 * g * (1 + u ^ 2 * g) ^ 2 := by
      have e3 : (1 + u ^ 2 * g) ^ 2 * ((1 - u ^ 2 * g) * (1 + u ^ 2 * g))⁻¹ = (1 + u ^ 2 * g) / (1 - u ^ 2 * g) := by
        field_simp
      rw [e3] at hx
      rw [hx]
      generalize 3 * z ^ 2 + 4 * a = m at *
      generalize 1 - u ^ 2 * g = v at *
      generalize 1 + u ^ 2 * g = w at *
      field_simp
      ring
    linear_combination hx'
  refine (Set.ncard_le_ncard hsub (Set.toFinite _)).trans ((Set.ncard_union_le _ _).trans ?_)
  have b1 : {u | 1 + 0 * u + 0 * u ^ 2 + 0 * u ^ 3 + -rhs a b z ^ 2 * u ^ 4 = 0}.ncard ≤ 4 :=
    ncard_quartic (fun h => one_ne_zero h.1) (fun u hu => hu)
  have b2 : {u | (x + z / 2) + s * u + (x + z / 2) * rhs a b z * u ^ 2 = 0}.ncard ≤ 2 :=
    ncard_quadratic (fun h => hs h.2.1) (fun u hu => hu)
  have b3 : {u | (x + z / 2) + -s * u + (x + z / 2) * rhs a b z * u ^ 2 = 0}.ncard ≤ 2 :=
    ncard_quadratic (fun h => hs (neg_eq_zero.mp h.2.1)) (fun u hu => hu)
  have b4 : {u | ((x - z) * (3 * z ^ 2 + 4 * a) + 4 * rhs a b z) + 0 * u +
        (-2 * rhs a b z * ((x - z) * (3 * z ^ 2 + 4 * a)) + 8 * rhs a b z * rhs a b z) * u ^ 2 + 0 * u ^ 3 +
        (rhs a b z ^ 2 * ((x - z) * (3 * z ^ 2 + 4 * a)) + 4 * rhs a b z * rhs a b z ^ 2) * u ^ 4 = 0}.ncard ≤ 4 := by
    refine ncard_quartic (fun h => ?_) (fun u hu => hu)
    obtain ⟨h1, -, h3, -, -⟩ := h
    have : 4 * (4 * (rhs a b z * rhs a b z)) = 0 := by linear_combination h3 + 2 * rhs a b z * h1
    exact mul_ne_zero h4 (mul_ne_zero h4 (mul_ne_zero hg hg)) this
  have b5 := (Set.ncard_union_le {u | (x + z / 2) + -s * u + (x + z / 2) * rhs a b z * u ^ 2 = 0}
    {u | ((x - z) * (3 * z ^ 2 + 4 * a) + 4 * rhs a b z) + 0 * u +
        (-2 * rhs a b z * ((x - z) * (3 * z ^ 2 + 4 * a)) + 8 * rhs a b z * rhs a b z) * u ^ 2 + 0 * u ^ 3 +
        (rhs a b z ^ 2 * ((x - z) * (3 * z ^ 2 + 4 * a)) + 4 * rhs a b z * rhs a b z ^ 2) * u ^ 4 = 0})
  refine (Nat.add_le_add b1 (Set.ncard_union_le _ _)).trans ?_
  omega

/-- At most eleven field elements share an abscissa under the simplified SWU map. -/
theorem sswuX_fibre {a b z : F} (hz : SswuZ a b z) (x : F) : {u | SswuX a b z u x}.ncard ≤ 11 := by
  have ha := hz.ane
  have hb := hz.bne
  have hz0 : z ≠ 0 := fun h => hz.zns (h ▸ ⟨0, by ring⟩)
  have hsub : {u | SswuX a b z u x} ⊆
      {u | 0 + 1 * u + 0 * u ^ 2 + z * u ^ 3 = 0} ∪
      ({u | b + 0 * u + (a * x + b) * z * u ^ 2 + 0 * u ^ 3 + (a * x + b) * z ^ 2 * u ^ 4 = 0} ∪
      {u | (a * x + b) + 0 * u + (a * x + b) * z * u ^ 2 + 0 * u ^ 3 + b * z ^ 2 * u ^ 4 = 0}) := by
    intro u hu
    rw [Set.mem_ofPred_eq] at hu
    unfold SswuX at hu
    dsimp only at hu
    obtain ⟨k1, k2⟩ := hu
    rw [Set.mem_union, Set.mem_union, Set.mem_ofPred_eq, Set.mem_ofPred_eq, Set.mem_ofPred_eq]
    by_cases e : z ^ 2 * u ^ 4 + z * u ^ 2 = 0
    · left
      have : (z * u) * (0 + 1 * u + 0 * u ^ 2 + z * u ^ 3) = 0 := by linear_combination e
      rcases mul_eq_zero.mp this with h | h
      · have hu : u = 0 := (mul_eq_zero.mp h).resolve_left hz0
        rw [hu]
        ring
      · exact h
    right
    rw [if_neg (inv_ne_zero e)] at k1 k2
    have hw : z * u ^ 2 + 1 ≠ 0 := by
      intro h
      apply e
      linear_combination z * u ^ 2 * h
    have hw0 : z * u ^ 2 ≠ 0 := by
      intro h
      apply e
      linear_combination (z * u ^ 2 + 1) * h
    have e' : z ^ 2 * u ^ 4 + z * u ^ 2 = (z * u ^ 2) * (z * u ^ 2 + 1) := by ring
    rw [e'] at k1 k2
    by_cases q : IsSquare (rhs a b (-b / a * (1 + (z * u ^ 2 * (z * u ^ 2 + 1))⁻¹)))
    · left
      have hx := k1 q
      have : (a * x + b) * ((z * u ^ 2) * (z * u ^ 2 + 1)) + b = 0 := by
        rw [hx]
        generalize z * u ^ 2 = w at *
        field_simp
        ring
      linear_combination this
    · right
      have hx := k2 q
      have : a * x * (z * u ^ 2 + 1) + b * ((z * u ^ 2) ^ 2 + z * u ^ 2 + 1) = 0 := by
        rw [hx]
        generalize z * u ^ 2 = w at *
        field_simp
        ring
      linear_combination this
  refine (Set.ncard_le_ncard hsub (Set.toFinite _)).trans ((Set.ncard_union_le _ _).trans ?_)
  have b1 : {u | 0 + 1 * u + 0 * u ^ 2 + z * u ^ 3 = 0}.ncard ≤ 3 :=
    ncard_cubic (fun h => one_ne_zero h.2.1) (fun u hu => hu)
  have b2 : {u | b + 0 * u + (a * x + b) * z * u ^ 2 + 0 * u ^ 3 + (a * x + b) * z ^ 2 * u ^ 4 = 0}.ncard ≤ 4 :=
    ncard_quartic (fun h => hb h.1) (fun u hu => hu)
  have b3 : {u | (a * x + b) + 0 * u + (a * x + b) * z * u ^ 2 + 0 * u ^ 3 + b * z ^ 2 * u ^ 4 = 0}.ncard ≤ 4 :=
    ncard_quartic (fun h => mul_ne_zero hb (pow_ne_zero 2 hz0) h.2.2.2.2) (fun u hu => hu)
  refine (Nat.add_le_add b1 (Set.ncard_union_le _ _)).trans ?_
  omega

end Maps

section Counting

variable {α β : Type} [Finite α] [Finite β]

theorem ncard_biUnion_le' (s : Finset β) (f : β → Set α) : (⋃ b ∈ s, f b).ncard ≤ ∑ b ∈ s, (f b).ncard := by
  classical
  induction s using Finset.induction_on with
  | empty => simp
  | insert b s hb ih =>
    rw [Finset.set_biUnion_insert, Finset.sum_insert hb]
    exact (Set.ncard_union_le _ _).trans (Nat.add_le_add_left ih _)

/-- If the images of `α` under `f` fall into classes of at most `N`, the fibre over a set `T` has at most `N · |T|` elements. -/
theorem ncard_fibre_le {R : α → β → Prop} {N : ℕ} (hN : ∀ b, {a | R a b}.ncard ≤ N) (T : Set β) :
    {a | ∃ b ∈ T, R a b}.ncard ≤ N * T.ncard := by
  classical
  have : {a | ∃ b ∈ T, R a b} = ⋃ b ∈ T.toFinite.toFinset, {a | R a b} := by
    ext a
    simp
  rw [this]
  calc (⋃ b ∈ T.toFinite.toFinset, {a | R a b}).ncard ≤ ∑ b ∈ T.toFinite.toFinset, {a | R a b}.ncard :=
        ncard_biUnion_le' _ _
    _ ≤ ∑ _b ∈ T.toFinite.toFinset, N := Finset.sum_le_sum fun b _ => hN b
    _ = N * T.ncard := by rw [Finset.sum_const, smul_eq_mul, Nat.mul_comm, Set.ncard_eq_toFinset_card T]

/-- A total relation with fibres of at most `N` elements reaches at least `|α| / N` values. -/
theorem card_le_of_fibre {R : α → β → Prop} {N : ℕ} (hN : ∀ b, {a | R a b}.ncard ≤ N) (ht : ∀ a, ∃ b, R a b) :
    Nat.card α ≤ N * {b | ∃ a, R a b}.ncard := by
  have h := ncard_fibre_le hN {b | ∃ a, R a b}
  have e : {a | ∃ b ∈ {b | ∃ a, R a b}, R a b} = Set.univ := by
    ext a
    obtain ⟨b, hb⟩ := ht a
    simp only [Set.mem_univ, iff_true]
    exact ⟨b, ⟨a, hb⟩, hb⟩
  rwa [e, Set.ncard_univ] at h

/-- The sums of two values: every total is reached by at most `N · |α|` pairs. -/
theorem ncard_sum_le {G : Type} [AddCommGroup G] {R : α → G → Prop} {N : ℕ} (hN : ∀ b, {a | R a b}.ncard ≤ N)
    (hu : ∀ a b c, R a b → R a c → b = c) (T : G) :
    {w : α × α | ∃ A B, R w.1 A ∧ R w.2 B ∧ A + B = T}.ncard ≤ N * Nat.card α := by
  classical
  have : {w : α × α | ∃ A B, R w.1 A ∧ R w.2 B ∧ A + B = T} ⊆
      ⋃ v ∈ (Set.univ : Set α).toFinite.toFinset, {w : α × α | w.2 = v ∧ ∃ A B, R w.1 A ∧ R v B ∧ A + B = T} := by
    intro w hw
    simp only [Set.mem_iUnion, Set.Finite.mem_toFinset]
    exact ⟨w.2, Set.mem_univ _, rfl, hw⟩
  refine (Set.ncard_le_ncard this (Set.toFinite _)).trans ((ncard_biUnion_le' _ _).trans ?_)
  have hb : ∀ v ∈ (Set.univ : Set α).toFinite.toFinset, {w : α × α | w.2 = v ∧ ∃ A B, R w.1 A ∧ R v B ∧ A + B = T}.ncard ≤ N := by
    intro v _
    by_cases hv : ∃ B, R v B
    · obtain ⟨B, hB⟩ := hv
      refine le_trans ?_ (hN (T - B))
      refine Set.ncard_le_ncard_of_injOn Prod.fst ?_ ?_ (Set.toFinite _)
      · rintro w ⟨-, A, B', hA, hB', e⟩
        rw [hu v B' B hB' hB] at e
        rw [Set.mem_ofPred_eq, ← e, add_sub_cancel_right]
        exact hA
      · rintro w ⟨hw, -⟩ w' ⟨hw', -⟩ e
        exact Prod.ext e (hw.trans hw'.symm)
    · have : {w : α × α | w.2 = v ∧ ∃ A B, R w.1 A ∧ R v B ∧ A + B = T} = ∅ := by
        ext w
        simp only [Set.mem_empty_iff_false, iff_false]
        rintro ⟨-, A, B, -, hB, -⟩
        exact hv ⟨B, hB⟩
      rw [this, Set.ncard_empty]
      exact Nat.zero_le _
  refine (Finset.sum_le_sum hb).trans ?_
  rw [Finset.sum_const, smul_eq_mul, Nat.mul_comm, ← Set.ncard_eq_toFinset_card, Set.ncard_univ]

end Counting

end Halo2.Hash
