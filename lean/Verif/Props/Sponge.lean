import Verif.Props.Rows
import Verif.Hash.MapOps
import Mathlib.RingTheory.IntegralDomain
import Mathlib.Algebra.Polynomial.Roots

/-!
# Property C106: permutations for arithmetic hash functions

What the hash functions of proof systems do with the elements of a field: powers by `pow_vartime`, a matrix of inverses of sums, and rounds
that add constants, raise all entries or one entry of the state to the power and multiply by the matrix, as clients of the library. No such
program is in the repository; the functions below stand for the client.
-/

set_option linter.unusedSectionVars false

namespace Halo2.Props

open Halo2 Halo2.Field Halo2.Prime Polynomial

section Client

variable {p : ℕ} [Fact p.Prime] [Fact (OddModulus p)] [Fp.SmallModulus p] {t : ℕ}

/-- The power of an element, `x.pow_vartime([alpha])`. -/
def sbox (alpha : ℕ) (x : Fp p) : Fp p := Ext.pow Fp.square x [alpha]

/-- The matrix of the inverses of `xs[i] + ys[j]`, `none` when an inverse is missing. -/
def cauchy (xs ys : Fin t → Fp p) : Option (Fin t → Fin t → Fp p) :=
  if h : ∀ i j, (Fp.invert (xs i + ys j)).isSome then some fun i j => (Fp.invert (xs i + ys j)).get (h i j) else none

/-- The state multiplied by the matrix. -/
def matMul (M : Fin t → Fin t → Fp p) (s : Fin t → Fp p) : Fin t → Fp p := fun i => (List.ofFn fun j => M i j * s j).sum

/-- A round: the constants, the power of all entries in a full round and of the first entry otherwise, the matrix. -/
def hashRound (alpha : ℕ) (M : Fin t → Fin t → Fp p) (full : Bool) (rc s : Fin t → Fp p) : Fin t → Fp p :=
  matMul M fun i => if full || i.val == 0 then sbox alpha (s i + rc i) else s i + rc i

/-- All rounds. -/
def permute (alpha : ℕ) (M : Fin t → Fin t → Fp p) (rounds : List (Bool × (Fin t → Fp p))) (s : Fin t → Fp p) : Fin t → Fp p :=
  rounds.foldl (fun s r => hashRound alpha M r.1 r.2 s) s

end Client

section Spec

variable {p : ℕ} [Fact p.Prime] [Fact (OddModulus p)] [Fp.SmallModulus p] {t : ℕ}

theorem powList_eq (x : Fp p) (e : List ℕ) (he : ∀ l ∈ e, l < 2 ^ 64) : Ext.pow Fp.square x e = x ^ Ext.limbsVal e :=
  Ext.pow_eq (Fp.square : Fp p → Fp p) Fp.square_eq x e he

theorem sbox_eq {alpha : ℕ} (ha : alpha < 2 ^ 64) (x : Fp p) : sbox alpha x = x ^ alpha := by
  rw [sbox, powList_eq x [alpha] (by simpa using ha)]
  simp [Ext.limbsVal]

theorem pred_gt : 1 < p - 1 := by
  have h := (inferInstance : Fact (OddModulus p)).out
  have := h.odd
  have := h.gt
  omega

/-- Fermat's theorem for exponents that are 1 modulo `p - 1`. -/
theorem pow_one_mod (x : Fp p) (m : ℕ) (h : m % (p - 1) = 1) : x ^ m = x := by
  have hm : m = (p - 1) * (m / (p - 1)) + 1 := by
    have := Nat.div_add_mod m (p - 1)
    omega
  by_cases hx : x = 0
  · rw [hx, zero_pow (by omega)]
  · rw [hm, pow_add, pow_mul, Fp.pow_pred x hx, one_pow, one_mul, pow_one]

/-- **C106** The power is a permutation of the field exactly when the exponent has no factor in common with `p - 1`, and then
`pow_vartime` with an inverse of the exponent modulo `p - 1` undoes it. -/
theorem C106_sbox {alpha : ℕ} (ha : alpha < 2 ^ 64) :
    (Function.Bijective (sbox alpha : Fp p → Fp p) ↔ Nat.Coprime alpha (p - 1)) ∧
    (∀ e : List ℕ, (∀ l ∈ e, l < 2 ^ 64) → alpha * Ext.limbsVal e % (p - 1) = 1 →
      ∀ x : Fp p, Ext.pow Fp.square (sbox alpha x) e = x ∧ sbox alpha (Ext.pow Fp.square x e) = x) := by
  have h1 : 1 < p - 1 := pred_gt
  refine ⟨⟨fun hb => ?_, fun hc => ?_⟩, fun e he h x => ?_⟩
  · by_contra hc
    let d := Nat.gcd alpha (p - 1)
    have hd1 : d ≠ 1 := hc
    have hdp : d ∣ p - 1 := Nat.gcd_dvd_right _ _
    have hda : d ∣ alpha := Nat.gcd_dvd_left _ _
    obtain ⟨k, hk⟩ := hdp
    obtain ⟨u, hu⟩ := IsCyclic.exists_ofOrder_eq_natCard (α := (Fp p)ˣ)
    have hcard : Nat.card (Fp p)ˣ = p - 1 := by
      rw [Nat.card_units, Curve.card_fp]
    have hk0 : k ≠ 0 := by
      rintro rfl
      omega
    have hu1 : (u ^ k) ^ alpha = 1 := by
      obtain ⟨m, hm⟩ := hda
      rw [hm, ← pow_mul, show k * (d * m) = (d * k) * m by ring, ← hk, pow_mul, ← hcard, ← hu, pow_orderOf_eq_one, one_pow]
    have hx : ((u ^ k : (Fp p)ˣ) : Fp p) = 1 := hb.1 (by
      rw [sbox_eq ha, sbox_eq ha, one_pow, ← Units.val_pow_eq_pow_val, hu1, Units.val_one])
    have hu2 : u ^ k = 1 := Units.ext hx
    have := orderOf_dvd_of_pow_eq_one hu2
    rw [hu, hcard, hk] at this
    have := Nat.le_of_dvd (Nat.pos_of_ne_zero hk0) this
    have hd0 : d ≠ 0 := by
      intro e
      rw [e] at hk
      omega
    have : 2 * k ≤ d * k := Nat.mul_le_mul_right k (by omega)
    omega
  · obtain ⟨m, hm⟩ := Nat.exists_mul_mod_eq_one_of_coprime hc h1
    rw [Function.bijective_iff_has_inverse]
    refine ⟨fun x => x ^ m, fun x => ?_, fun x => ?_⟩
    · dsimp only
      rw [sbox_eq ha, ← pow_mul, pow_one_mod x _ hm.2]
    · rw [sbox_eq ha, ← pow_mul, pow_one_mod x _ (by rw [mul_comm]; exact hm.2)]
  · rw [sbox_eq ha, sbox_eq ha, powList_eq _ e he, powList_eq _ e he, ← pow_mul, ← pow_mul, mul_comm (Ext.limbsVal e), pow_one_mod x _ h]
    exact ⟨rfl, rfl⟩

/-- **C106** The smallest odd exponents of the ten fields: which powers among 3, 5, 7, 11, 13, 17 and 19 are permutations. -/
theorem C106_fields :
    (∀ a ∈ [3, 5, 7, 11, 13, 17, 19], Function.Bijective (sbox a : Fp bnQ → Fp bnQ) ↔ a ∈ [5, 7, 11, 17, 19]) ∧
    (∀ a ∈ [3, 5, 7, 11, 13, 17, 19], Function.Bijective (sbox a : Fp bnR → Fp bnR) ↔ a ∈ [5, 7, 11, 17, 19]) ∧
    (∀ a ∈ [3, 5, 7, 11, 13, 17, 19], Function.Bijective (sbox a : Fp blsQ → Fp blsQ) ↔ a ∈ [5, 7, 13, 17, 19]) ∧
    (∀ a ∈ [3, 5, 7, 11, 13, 17, 19], Function.Bijective (sbox a : Fp blsR → Fp blsR) ↔ a ∈ [5, 7, 13, 17]) ∧
    (∀ a ∈ [3, 5, 7, 11, 13, 17, 19], Function.Bijective (sbox a : Fp plP → Fp plP) ↔ a ∈ [5, 7, 11, 13, 19]) ∧
    (∀ a ∈ [3, 5, 7, 11, 13, 17, 19], Function.Bijective (sbox a : Fp plQ → Fp plQ) ↔ a ∈ [5, 7, 11, 13, 17, 19]) ∧
    (∀ a ∈ [3, 5, 7, 11, 13, 17, 19], Function.Bijective (sbox a : Fp k1P → Fp k1P) ↔ a ∈ [5, 11, 13, 17, 19]) ∧
    (∀ a ∈ [3, 5, 7, 11, 13, 17, 19], Function.Bijective (sbox a : Fp k1N → Fp k1N) ↔ a ∈ [5, 7, 11, 13, 17, 19]) ∧
    (∀ a ∈ [3, 5, 7, 11, 13, 17, 19], Function.Bijective (sbox a : Fp r1P → Fp r1P) ↔ a ∈ [7, 11, 13, 19]) ∧
    (∀ a ∈ [3, 5, 7, 11, 13, 17, 19], Function.Bijective (sbox a : Fp r1N → Fp r1N) ↔ a ∈ [5, 7, 11, 13, 17, 19]) := by
  have hs : ∀ a ∈ [3, 5, 7, 11, 13, 17, 19], a < 2 ^ 64 := by decide
  refine ⟨fun a ha => (C106_sbox (hs a ha)).1.trans ?_, fun a ha => (C106_sbox (hs a ha)).1.trans ?_,
    fun a ha => (C106_sbox (hs a ha)).1.trans ?_, fun a ha => (C106_sbox (hs a ha)).1.trans ?_,
    fun a ha => (C106_sbox (hs a ha)).1.trans ?_, fun a ha => (C106_sbox (hs a ha)).1.trans ?_,
    fun a ha => (C106_sbox (hs a ha)).1.trans ?_, fun a ha => (C106_sbox (hs a ha)).1.trans ?_,
    fun a ha => (C106_sbox (hs a ha)).1.trans ?_, fun a ha => (C106_sbox (hs a ha)).1.trans ?_⟩
  all_goals
    revert a
    decide +kernel

theorem matMul_eq (M : Fin t → Fin t → Fp p) (s : Fin t → Fp p) (i : Fin t) : matMul M s i = ∑ j, M i j * s j := by
  rw [matMul, List.sum_ofFn]

theorem matMul_sub (M : Fin t → Fin t → Fp p) (s s' : Fin t → Fp p) (i : Fin t) :
    matMul M s i - matMul M s' i = ∑ j, M i j * (s j - s' j) := by
  rw [matMul_eq, matMul_eq, ← Finset.sum_sub_distrib]
  exact Finset.sum_congr rfl fun j _ => by ring

/-- **C106** What the rounds compute: for each round, the sums over the entries of the matrix times the power of the state plus the constants, where
in a partial round the power is taken of the first entry only. -/
theorem C106_rounds {alpha : ℕ} (ha : alpha < 2 ^ 64) (M : Fin t → Fin t → Fp p) (s : Fin t → Fp p) :
    permute alpha M [] s = s ∧
    (∀ rc rs, permute alpha M ((true, rc) :: rs) s = permute alpha M rs fun i => ∑ j, M i j * (s j + rc j) ^ alpha) ∧
    (∀ rc rs, permute alpha M ((false, rc) :: rs) s =
      permute alpha M rs fun i => ∑ j : Fin t, M i j * (if j.val = 0 then (s j + rc j) ^ alpha else s j + rc j)) := by
  refine ⟨rfl, fun rc rs => congrArg (permute alpha M rs) (funext fun i => ?_), fun rc rs => congrArg (permute alpha M rs) (funext fun i => ?_)⟩
  · dsimp only [hashRound]
    rw [matMul_eq]
    refine Finset.sum_congr rfl fun j _ => ?_
    rw [if_pos (by simp), sbox_eq ha]
  · dsimp only [hashRound]
    rw [matMul_eq]
    refine Finset.sum_congr rfl fun j _ => ?_
    simp only [Bool.false_or, beq_iff_eq, sbox_eq ha]

/-- The matrix exists exactly when no sum is zero. -/
theorem cauchy_iff (xs ys : Fin t → Fp p) (M : Fin t → Fin t → Fp p) :
    cauchy xs ys = some M ↔ ∀ i j, (xs i + ys j) * M i j = 1 := by
  constructor
  · intro h i j
    unfold cauchy at h
    split at h
    · next hs =>
      have := Option.some.inj h
      rw [← this, ← C09_invert_iff]
      exact (Option.some_get _).symm
    · simp at h
  · intro h
    have e : ∀ i j, Fp.invert (xs i + ys j) = some (M i j) := fun i j => (C09_invert_iff _ _ _).mpr (h i j)
    unfold cauchy
    rw [dif_pos (fun i j => by rw [e i j]; rfl)]
    refine congrArg some (funext fun i => funext fun j => ?_)
    simp only [e i j, Option.get_some]

/-- **C106** The matrix is found exactly when no sum of an `xs` and a `ys` is zero, and then each entry is the inverse of the sum. When the `xs`
are distinct and the `ys` are distinct, two different states and their products with the matrix together differ in more than `t` places. -/
theorem C106_matrix (xs ys : Fin t → Fp p) :
    ((∃ M, cauchy xs ys = some M) ↔ ∀ i j, xs i + ys j ≠ 0) ∧
    (∀ M, cauchy xs ys = some M → (∀ i j, (xs i + ys j) * M i j = 1) ∧
      (Function.Injective xs → Function.Injective ys → ∀ s s' : Fin t → Fp p, s ≠ s' →
        t < (Finset.univ.filter fun j => s j ≠ s' j).card + (Finset.univ.filter fun i => matMul M s i ≠ matMul M s' i).card)) := by
  refine ⟨⟨fun ⟨M, h⟩ i j e => ?_, fun h => ⟨fun i j => (xs i + ys j)⁻¹, (cauchy_iff _ _ _).mpr fun i j => mul_inv_cancel₀ (h i j)⟩⟩,
    fun M h => ⟨(cauchy_iff _ _ _).mp h, fun hx hy s s' hs => ?_⟩⟩
  · have := (cauchy_iff _ _ _).mp h i j
    rw [e, zero_mul] at this
    exact zero_ne_one this
  · have hM := (cauchy_iff _ _ _).mp h
    let J := Finset.univ.filter fun j => s j ≠ s' j
    let Z := Finset.univ.filter fun i => matMul M s i = matMul M s' i
    let P : (Fp p)[X] := ∑ j ∈ J, C (s j - s' j) * ∏ l ∈ J.erase j, (X + C (ys l))
    obtain ⟨j0, hj0⟩ : ∃ j, s j ≠ s' j := by
      by_contra hn
      push Not at hn
      exact hs (funext hn)
    have hj0 : j0 ∈ J := Finset.mem_filter.mpr ⟨Finset.mem_univ _, hj0⟩
    have hP : P ≠ 0 := by
      intro e
      have h0 : P.eval (-ys j0) = 0 := by rw [e, eval_zero]
      have h1 : P.eval (-ys j0) = (s j0 - s' j0) * ∏ l ∈ J.erase j0, (-ys j0 + ys l) := by
        simp only [P, eval_finsetSum, eval_mul, eval_C, eval_prod, eval_add, eval_X]
        refine Finset.sum_eq_single j0 (fun j _ hne => ?_) (fun hn => absurd hj0 hn)
        rw [Finset.prod_eq_zero (Finset.mem_erase.mpr ⟨hne.symm, hj0⟩) (by ring), mul_zero]
      rw [h1, mul_eq_zero, sub_eq_zero, Finset.prod_eq_zero_iff] at h0
      rcases h0 with h0 | ⟨l, hl, h0⟩
      · exact (Finset.mem_filter.mp hj0).2 h0
      · exact (Finset.mem_erase.mp hl).1 (hy (by linear_combination h0))
    have hdeg : P.natDegree ≤ J.card - 1 := by
      refine natDegree_sum_le_of_forall_le _ _ fun j hj => ?_
      refine (natDegree_C_mul_le _ _).trans ((natDegree_prod_le _ _).trans ?_)
      refine (Finset.sum_le_card_nsmul _ _ 1 fun l _ => (natDegree_X_add_C _).le).trans ?_
      rw [Finset.card_erase_of_mem hj, smul_eq_mul, mul_one]
    have hroot : Z.image xs ⊆ P.roots.toFinset := by
      intro x hxm
      obtain ⟨i, hi, rfl⟩ := Finset.mem_image.mp hxm
      rw [Multiset.mem_toFinset, mem_roots hP, IsRoot.def]
      have hz : ∑ j, M i j * (s j - s' j) = 0 := by
        rw [← matMul_sub, (Finset.mem_filter.mp hi).2, sub_self]
      have hz : ∑ j ∈ J, M i j * (s j - s' j) = 0 := by
        rw [← hz]
        refine Finset.sum_subset (Finset.subset_univ _) fun j _ hj => ?_
        have : s j = s' j := by
          by_contra hn
          exact hj (Finset.mem_filter.mpr ⟨Finset.mem_univ _, hn⟩)
        rw [this, sub_self, mul_zero]
      have e : P.eval (xs i) = (∑ j ∈ J, M i j * (s j - s' j)) * ∏ l ∈ J, (xs i + ys l) := by
        simp only [P, eval_finsetSum, eval_mul, eval_C, eval_prod, eval_add, eval_X]
        rw [Finset.sum_mul]
        refine Finset.sum_congr rfl fun j hj => ?_
        rw [← Finset.mul_prod_erase J _ hj]
        linear_combination (-(s j - s' j) * ∏ l ∈ J.erase j, (xs i + ys l)) * hM i j
      rw [e, hz, zero_mul]
    have hZ : Z.card ≤ J.card - 1 := by
      rw [← Finset.card_image_of_injective Z hx]
      exact (Finset.card_le_card hroot).trans ((Multiset.toFinset_card_le _).trans ((card_roots' P).trans hdeg))
    have hJ : 0 < J.card := Finset.card_pos.mpr ⟨j0, hj0⟩
    have hsum := Finset.card_filter_add_card_filter_not (s := (Finset.univ : Finset (Fin t))) (fun i => matMul M s i = matMul M s' i)
    rw [Finset.card_univ, Fintype.card_fin] at hsum
    change t < J.card + _
    change Z.card + (Finset.univ.filter fun i => matMul M s i ≠ matMul M s' i).card = t at hsum
    omega

theorem round_bijective {alpha : ℕ} (M : Fin t → Fin t → Fp p) (hb : Function.Injective (sbox alpha : Fp p → Fp p))
    (hM : Function.Injective (matMul M)) (full : Bool) (rc : Fin t → Fp p) : Function.Bijective (hashRound alpha M full rc) := by
  have hfin : Finite (Fp p) := Hash.finite_fp p
  refine Finite.injective_iff_bijective.mp fun s s' h => ?_
  have h := hM h
  funext i
  have := congrFun h i
  split at this
  · exact add_right_cancel (hb this)
  · exact add_right_cancel this

/-- **C106** With such a matrix and such an exponent every sequence of rounds is a permutation of the states: no two states collide and every state
is reached. A single round, full or partial, with another exponent is not. -/
theorem C106_permute {alpha : ℕ} (ha : alpha < 2 ^ 64) {xs ys : Fin t → Fp p} {M : Fin t → Fin t → Fp p} (hM : cauchy xs ys = some M)
    (hx : Function.Injective xs) (hy : Function.Injective ys) :
    (Nat.Coprime alpha (p - 1) → ∀ rounds, Function.Bijective (permute alpha M rounds)) ∧
    (¬ Nat.Coprime alpha (p - 1) → 0 < t → ∀ full rc, ¬ Function.Bijective (permute alpha M [(full, rc)])) := by
  have hmix : Function.Injective (matMul M) := fun s s' h => by
    by_contra hs
    have h1 := ((C106_matrix xs ys).2 M hM).2 hx hy s s' hs
    have h2 : (Finset.univ.filter fun i => matMul M s i ≠ matMul M s' i) = ∅ :=
      Finset.filter_false_of_mem fun i _ => by rw [h]; simp
    have h3 := Finset.card_le_univ (Finset.univ.filter fun j => s j ≠ s' j)
    rw [h2, Finset.card_empty] at h1
    rw [Fintype.card_fin] at h3
    omega
  constructor
  · intro hc rounds
    have hb := ((C106_sbox (p := p) ha).1.mpr hc).1
    induction rounds with
    | nil => exact Function.bijective_id
    | cons r rs ih => exact ih.comp (round_bijective M hb hmix r.1 r.2)
  · intro hc ht full rc hb
    apply hc
    rw [← (C106_sbox (p := p) ha).1]
    have hfin : Finite (Fp p) := Hash.finite_fp p
    refine Finite.injective_iff_bijective.mp fun a b hab => ?_
    have h := @hb.1 (fun i => (if i.val = 0 then a else 0) - rc i) (fun i => (if i.val = 0 then b else 0) - rc i) (by
      simp only [permute, List.foldl_cons, List.foldl_nil, hashRound]
      refine congrArg (matMul M) (funext fun i => ?_)
      by_cases hi : i.val = 0
      · simp only [hi, sub_add_cancel, hab, if_true, beq_self_eq_true, Bool.or_true]
      · simp only [hi, sub_add_cancel, if_false])
    have h := congrFun h ⟨0, ht⟩
    simpa using h

end Spec

/-- A permutation of states of three elements of bn256's scalar field with fifth powers, one full and one partial round. -/
example : ∃ M, cauchy (p := bnR) ![0, 1, 2] ![3, 4, 5] = some M ∧
    Function.Bijective (permute 5 M [(true, ![1, 2, 3]), (false, ![4, 5, 6])]) ∧
    ¬ Function.Bijective (permute 3 M [(false, ![1, 2, 3])]) := by
  have hx : Function.Injective (![0, 1, 2] : Fin 3 → Fp bnR) := by decide +kernel
  have hy : Function.Injective (![3, 4, 5] : Fin 3 → Fp bnR) := by decide +kernel
  obtain ⟨M, hM⟩ := (C106_matrix (p := bnR) ![0, 1, 2] ![3, 4, 5]).1.mpr (by decide +kernel)
  exact ⟨M, hM, (C106_permute (by decide) hM hx hy).1 (by decide +kernel) _, (C106_permute (by decide) hM hx hy).2 (by decide +kernel) (by decide) _ _⟩

/-- The inverse exponent for fifth powers over bn256's scalar field. -/
example (x : Fp bnR) : Ext.pow Fp.square (sbox 5 x) [0xcfe7f7a98ccccccd, 0x535cb9d394945a0d, 0x93736af8679aad17, 0x26b6a528b427b354] = x :=
  ((C106_sbox (by decide)).2 [0xcfe7f7a98ccccccd, 0x535cb9d394945a0d, 0x93736af8679aad17, 0x26b6a528b427b354] (by decide) (by decide +kernel) x).1

end Halo2.Props
