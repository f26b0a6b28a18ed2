import Verif.Props.Rows

/-!
# Property C107: folding the values of a polynomial

What tests for low degree and multilinear openings do: from the values of a polynomial on a domain, the values on the domain of half the size of
the combination of its even and its odd part with a challenge, as a client of the library. No such program is in the repository; the functions
below stand for the client.
-/

set_option linter.unusedSectionVars false

namespace Halo2.Props

open Halo2 Halo2.Field Halo2.Prime Halo2.Fft Polynomial

section Client

variable {p : ℕ} [Fact p.Prime] [Fact (OddModulus p)] [Fp.SmallModulus p]

/-- One folding of the rows with the challenge `beta`; `omegaInv` is the inverse of the root of unity of the domain. -/
noncomputable def foldRows (twoInv omegaInv beta : Fp p) (rows : List (Fp p)) : List (Fp p) :=
  (List.range (rows.length / 2)).map fun i =>
    (rows.getD i 0 + rows.getD (i + rows.length / 2) 0 + beta * ((rows.getD i 0 - rows.getD (i + rows.length / 2) 0) * omegaInv ^ i)) * twoInv

/-- A folding for each of the challenges, the root is squared each time. -/
noncomputable def foldAll (twoInv : Fp p) : Fp p → List (Fp p) → List (Fp p) → List (Fp p)
  | _, [], rows => rows
  | w, beta :: bs, rows => foldAll twoInv (w * w) bs (foldRows twoInv w beta rows)

end Client

section Spec

variable {p : ℕ} [Fact p.Prime] [Fact (OddModulus p)] [Fp.SmallModulus p] {g z : ℕ}

/-- The combination of the even and the odd coefficients. -/
def foldCoeffs {K : Type} [_root_.Field K] (beta : K) (a : List K) : List K :=
  (List.range (a.length / 2)).map fun j => a.getD (2 * j) 0 + beta * a.getD (2 * j + 1) 0

/-- The rows have a polynomial all of whose coefficients from `n` on are zero. -/
def LowDegree (d : Domain (Fp p)) (checks : Bool) (threads n : ℕ) (rows : List (Fp p)) : Prop :=
  ∃ a, d.toCoeff checks threads rows = some a ∧ ∀ j, n ≤ j → a.getD j 0 = 0

theorem sum_pairs {K : Type} [AddCommMonoid K] (F : ℕ → K) (n : ℕ) :
    ∑ m ∈ Finset.range (2 * n), F m = ∑ j ∈ Finset.range n, (F (2 * j) + F (2 * j + 1)) := by
  induction n with
  | zero => rfl
  | succ n ih =>
    rw [show 2 * (n + 1) = 2 * n + 1 + 1 by ring, Finset.sum_range_succ, Finset.sum_range_succ, ih, Finset.sum_range_succ, add_assoc]

theorem mkDomain_half {k ek ek' : ℕ} (hS : k + 1 ≤ Fp.macroS p) :
    (mkDomain p g z k ek').omega = (mkDomain p g z (k + 1) ek).omega * (mkDomain p g z (k + 1) ek).omega ∧
    (mkDomain p g z k ek').omegaInv = (mkDomain p g z (k + 1) ek).omegaInv * (mkDomain p g z (k + 1) ek).omegaInv ∧
    (mkDomain p g z k ek').twoInv = (mkDomain p g z (k + 1) ek).twoInv := by
  have e : Fp.macroS p - k = (Fp.macroS p - (k + 1)) + 1 := by omega
  refine ⟨?_, ?_, rfl⟩
  · simp only [mkDomain]
    rw [e, Function.iterate_succ_apply']
  · simp only [mkDomain]
    rw [e, Function.iterate_succ_apply']

theorem getD_coeffs {K : Type} [_root_.Field K] (f : K[X]) (n : ℕ) (hf : f.natDegree < n) (j : ℕ) : (coeffs f n).getD j 0 = f.coeff j := by
  rw [coeffs, List.getD_eq_getElem?_getD, List.getElem?_map]
  by_cases hj : j < n
  · rw [List.getElem?_range hj]; rfl
  · rw [List.getElem?_eq_none (by rw [List.length_range]; omega), coeff_eq_zero_of_natDegree_lt (by omega)]; rfl

/-- **C107** Folding the rows of a polynomial gives the rows, on the domain of half the size, of the polynomial whose coefficients combine the even
and the odd ones with the challenge. -/
theorem C107_fold (hc : ConstsSpec p g z) {k ek ek' : ℕ} (hk : k + 1 ≤ ek) (hS : ek ≤ Fp.macroS p) (h64 : ek < 64) (hk' : k ≤ ek')
    (hS' : ek' ≤ Fp.macroS p) (h64' : ek' < 64) (checks : Bool) (threads threads' : ℕ) (rows : List (Fp p)) (hr : rows.length = 2 ^ (k + 1))
    (beta : Fp p) :
    ∃ a, (mkDomain p g z (k + 1) ek).toCoeff checks threads rows = some a ∧ a.length = 2 ^ (k + 1) ∧
      (mkDomain p g z k ek').toCoeff checks threads'
        (foldRows (mkDomain p g z (k + 1) ek).twoInv (mkDomain p g z (k + 1) ek).omegaInv beta rows) = some (foldCoeffs beta a) := by
  obtain ⟨w1, -, -⟩ := mkDomain_half (p := p) (g := g) (z := z) (k := k) (ek := ek) (ek' := ek') (hk.trans hS)
  have h := mkDomain_ok hc hk hS h64
  have h' := mkDomain_ok hc hk' hS' h64'
  have e1 : (mkDomain p g z (k + 1) ek).k = k + 1 := rfl
  have e2 : (mkDomain p g z k ek').k = k := rfl
  generalize mkDomain p g z (k + 1) ek = d at *
  generalize mkDomain p g z k ek' = d' at *
  have hh : rows.length / 2 = 2 ^ k := by rw [hr, pow_succ, Nat.mul_div_cancel _ (by decide)]
  have hlen : (foldRows d.twoInv d.omegaInv beta rows).length = 2 ^ d'.k := by
    rw [foldRows, List.length_map, List.length_range, hh, e2]
  obtain ⟨f, f1, f2, f3⟩ := h.toCoeff checks threads rows (by rw [hr, e1])
  obtain ⟨q, q1, q2, q3⟩ := h'.toCoeff checks threads' _ hlen
  rw [e1] at f1 f2 f3
  rw [e2] at q1 q2 q3
  have hroot := h.root
  rw [e1] at hroot
  have hw0 : d.omega ≠ 0 := hroot.ne_zero (by positivity)
  have hneg : d.omega ^ 2 ^ k = -1 := by
    have hsq : (d.omega ^ 2 ^ k) ^ 2 = 1 := by rw [← pow_mul, ← pow_succ, hroot.pow_eq_one]
    rcases mul_self_eq_one_iff.mp ((sq (d.omega ^ 2 ^ k)).symm.trans hsq) with e | e
    · exact absurd e (hroot.pow_ne_one_of_pos_of_lt (by positivity) (Nat.pow_lt_pow_right (by decide) (by omega)))
    · exact e
  let P : (Fp p)[X] := ∑ j ∈ Finset.range (2 ^ k), C (f.coeff (2 * j) + beta * f.coeff (2 * j + 1)) * X ^ j
  have hPd : P.degree < (Finset.range (2 ^ k)).card := by
    rw [Finset.card_range]
    refine (degree_sum_le _ _).trans_lt ((Finset.sup_lt_iff (WithBot.bot_lt_coe _)).mpr fun j hj => ?_)
    exact (degree_C_mul_X_pow_le _ _).trans_lt (by exact_mod_cast Finset.mem_range.mp hj)
  have hPc : ∀ j < 2 ^ k, P.coeff j = f.coeff (2 * j) + beta * f.coeff (2 * j + 1) := by
    intro j hj
    simp only [P, finsetSum_coeff, coeff_C_mul, coeff_X_pow]
    rw [Finset.sum_eq_single j]
    · simp
    · intro b _ hb
      rw [if_neg (fun e => hb e.symm), mul_zero]
    · intro hn
      exact absurd (Finset.mem_range.mpr hj) hn
  have hrow : ∀ i < 2 ^ (k + 1), rows.getD i 0 = f.eval (d.omega ^ i) := by
    intro i hi
    rw [← f2, getD_values _ _ _ hi, one_mul]
  have hsplit : ∀ x : Fp p, f.eval x =
      (∑ j ∈ Finset.range (2 ^ k), f.coeff (2 * j) * (x * x) ^ j) + x * ∑ j ∈ Finset.range (2 ^ k), f.coeff (2 * j + 1) * (x * x) ^ j := by
    intro x
    rw [eval_eq_sum_range' f1, show 2 ^ (k + 1) = 2 * 2 ^ k by ring, sum_pairs, Finset.mul_sum, ← Finset.sum_add_distrib]
    refine Finset.sum_congr rfl fun j _ => ?_
    rw [pow_succ, pow_mul]
    ring
  have hval : ∀ i < 2 ^ k, q.eval (d'.omega ^ i) = P.eval (d'.omega ^ i) := by
    intro i hi
    have hq : (foldRows d.twoInv d.omegaInv beta rows).getD i 0 = q.eval (d'.omega ^ i) := by
      rw [← q2, getD_values _ _ _ hi, one_mul]
    rw [← hq, foldRows, hh, List.getD_eq_getElem?_getD, List.getElem?_map, List.getElem?_range hi, Option.map_some, Option.getD_some,
      hrow i (by rw [pow_succ]; omega), hrow (i + 2 ^ k) (by rw [pow_succ]; omega), pow_add, hneg, mul_neg_one, hsplit (d.omega ^ i),
      hsplit (-d.omega ^ i), neg_mul_neg, h.inv, inv_pow]
    have hP : P.eval (d'.omega ^ i) = (∑ j ∈ Finset.range (2 ^ k), f.coeff (2 * j) * (d.omega ^ i * d.omega ^ i) ^ j) +
        beta * ∑ j ∈ Finset.range (2 ^ k), f.coeff (2 * j + 1) * (d.omega ^ i * d.omega ^ i) ^ j := by
      simp only [P, eval_finsetSum, eval_mul, eval_C, eval_pow, eval_X]
      rw [Finset.mul_sum, ← Finset.sum_add_distrib, w1]
      refine Finset.sum_congr rfl fun j _ => ?_
      rw [mul_pow d.omega]
      ring
    rw [hP]
    generalize (∑ j ∈ Finset.range (2 ^ k), f.coeff (2 * j) * (d.omega ^ i * d.omega ^ i) ^ j) = E
    generalize (∑ j ∈ Finset.range (2 ^ k), f.coeff (2 * j + 1) * (d.omega ^ i * d.omega ^ i) ^ j) = O
    have hi0 : d.omega ^ i * (d.omega ^ i)⁻¹ = 1 := mul_inv_cancel₀ (pow_ne_zero _ hw0)
    have h2 := h.two
    linear_combination (E + beta * O) * h2 + (2 * beta * O * d.twoInv) * hi0
  have hroot' := h'.root
  rw [e2] at hroot'
  have hqP : q = P := Polynomial.eq_of_degrees_lt_of_eval_index_eq (Finset.range (2 ^ k)) (v := fun i => d'.omega ^ i)
    (fun a ha b hb e => hroot'.pow_inj (Finset.mem_range.mp (Finset.mem_coe.mp ha)) (Finset.mem_range.mp (Finset.mem_coe.mp hb)) e)
    (by rw [Finset.card_range]; exact lt_of_le_of_lt degree_le_natDegree (by exact_mod_cast q1)) hPd
    (fun i hi => hval i (Finset.mem_range.mp hi))
  refine ⟨_, f3, by rw [coeffs, List.length_map, List.length_range], ?_⟩
  rw [q3, foldCoeffs, show (coeffs f (2 ^ (k + 1))).length / 2 = 2 ^ k by
    rw [coeffs, List.length_map, List.length_range, pow_succ, Nat.mul_div_cancel _ (by decide)]]
  conv_lhs => rw [coeffs]
  refine congrArg some (List.map_congr_left fun j hj => ?_)
  rw [getD_coeffs _ _ f1, getD_coeffs _ _ f1, hqP, hPc j (List.mem_range.mp hj)]

theorem getD_foldCoeffs {K : Type} [_root_.Field K] (beta : K) (a : List K) {n : ℕ} (ha : a.length = 2 * n) (j : ℕ) :
    (foldCoeffs beta a).getD j 0 = a.getD (2 * j) 0 + beta * a.getD (2 * j + 1) 0 := by
  rw [foldCoeffs, ha, Nat.mul_div_cancel_left _ (by decide), List.getD_eq_getElem?_getD, List.getElem?_map]
  by_cases hj : j < n
  · rw [List.getElem?_range hj]; rfl
  · rw [List.getElem?_eq_none (by rw [List.length_range]; omega), List.getD_eq_default _ _ (by omega), List.getD_eq_default _ _ (by omega)]
    simp

/-- **C107** The test for low degree: when the rows have degree below `2 n` every folding has degree below `n`, and when two foldings with different
challenges have degree below `n` then the rows have degree below `2 n`. So for rows of larger degree at most one challenge is accepted. -/
theorem C107_degree (hc : ConstsSpec p g z) {k ek ek' : ℕ} (hk : k + 1 ≤ ek) (hS : ek ≤ Fp.macroS p) (h64 : ek < 64) (hk' : k ≤ ek')
    (hS' : ek' ≤ Fp.macroS p) (h64' : ek' < 64) (checks : Bool) (threads threads' n : ℕ) (rows : List (Fp p)) (hr : rows.length = 2 ^ (k + 1)) :
    (LowDegree (mkDomain p g z (k + 1) ek) checks threads (2 * n) rows → ∀ beta, LowDegree (mkDomain p g z k ek') checks threads' n
      (foldRows (mkDomain p g z (k + 1) ek).twoInv (mkDomain p g z (k + 1) ek).omegaInv beta rows)) ∧
    (¬ LowDegree (mkDomain p g z (k + 1) ek) checks threads (2 * n) rows → ∀ beta beta',
      LowDegree (mkDomain p g z k ek') checks threads' n
        (foldRows (mkDomain p g z (k + 1) ek).twoInv (mkDomain p g z (k + 1) ek).omegaInv beta rows) →
      LowDegree (mkDomain p g z k ek') checks threads' n
        (foldRows (mkDomain p g z (k + 1) ek).twoInv (mkDomain p g z (k + 1) ek).omegaInv beta' rows) → beta = beta') := by
  have hf := C107_fold hc hk hS h64 hk' hS' h64' checks threads threads' rows hr
  constructor
  · rintro ⟨a, ha, h0⟩ beta
    obtain ⟨a', ha', hl, hb⟩ := hf beta
    obtain rfl := Option.some.inj (ha.symm.trans ha')
    refine ⟨_, hb, fun j hj => ?_⟩
    rw [getD_foldCoeffs beta a (n := 2 ^ k) (by rw [hl]; ring), h0 _ (by omega), h0 _ (by omega)]
    simp
  · intro hn beta beta' ⟨b, hb, hb0⟩ ⟨b', hb', hb0'⟩
    by_contra hne
    obtain ⟨a, ha, hl, hfb⟩ := hf beta
    obtain ⟨a', ha', -, hfb'⟩ := hf beta'
    obtain rfl := Option.some.inj (ha.symm.trans ha')
    obtain rfl := Option.some.inj (hb.symm.trans hfb)
    obtain rfl := Option.some.inj (hb'.symm.trans hfb')
    have hl2 : a.length = 2 * 2 ^ k := by rw [hl]; ring
    refine hn ⟨a, ha, fun m hm => ?_⟩
    have h1 := hb0 (m / 2) (by omega)
    have h2 := hb0' (m / 2) (by omega)
    rw [getD_foldCoeffs _ a hl2] at h1 h2
    have h3 : a.getD (2 * (m / 2) + 1) 0 = 0 := by
      have : (beta - beta') * a.getD (2 * (m / 2) + 1) 0 = 0 := by linear_combination h1 - h2
      rcases mul_eq_zero.mp this with e | e
      · exact absurd (sub_eq_zero.mp e) hne
      · exact e
    have h4 : a.getD (2 * (m / 2)) 0 = 0 := by rw [h3, mul_zero, add_zero] at h1; exact h1
    rcases Nat.mod_two_eq_zero_or_one m with e | e
    · rwa [show 2 * (m / 2) = m by omega] at h4
    · rwa [show 2 * (m / 2) + 1 = m by omega] at h3

/-- **C107** Folding all the way: with as many challenges as the domain has doublings a single value remains, the multilinear polynomial with the
coefficients of the rows at the challenges. -/
theorem C107_all (hc : ConstsSpec p g z) (checks : Bool) (threads : ℕ) : ∀ (bs : List (Fp p)) (ek : ℕ), bs.length ≤ ek → ek ≤ Fp.macroS p → ek < 64 →
    ∀ rows : List (Fp p), rows.length = 2 ^ bs.length → ∃ a, (mkDomain p g z bs.length ek).toCoeff checks threads rows = some a ∧
      foldAll (mkDomain p g z bs.length ek).twoInv (mkDomain p g z bs.length ek).omegaInv bs rows =
        [∑ j ∈ Finset.range (2 ^ bs.length), a.getD j 0 * ∏ i ∈ Finset.range bs.length, if j.testBit i then bs.getD i 0 else 1] := by
  intro bs
  induction bs with
  | nil =>
    intro ek h0 hS h64 rows hr
    have h := mkDomain_ok hc h0 hS h64
    obtain ⟨f, f1, f2, f3⟩ := h.toCoeff checks threads rows hr
    refine ⟨_, f3, ?_⟩
    have e : (mkDomain p g z ([] : List (Fp p)).length ek).k = 0 := rfl
    rw [e] at f1 f2 ⊢
    have hf : f = C (f.coeff 0) := eq_C_of_natDegree_eq_zero (by omega)
    rw [foldAll, ← f2]
    simp only [List.length_nil, pow_zero, Finset.range_one, Finset.sum_singleton, Finset.range_zero, Finset.prod_empty, mul_one]
    rw [pow_zero] at f1
    rw [getD_coeffs _ _ f1]
    conv_lhs => rw [hf]
    simp [values]
  | cons beta bs ih =>
    intro ek h0 hS h64 rows hr
    rw [List.length_cons] at h0 hr ⊢
    obtain ⟨a, ha, hl, hb⟩ := C107_fold hc h0 hS h64 (k := bs.length) (ek' := ek) (by omega) hS h64 checks threads threads rows hr beta
    obtain ⟨-, w2, w3⟩ := mkDomain_half (p := p) (g := g) (z := z) (k := bs.length) (ek := ek) (ek' := ek) (h0.trans hS)
    refine ⟨a, ha, ?_⟩
    obtain ⟨a', ha', hf⟩ := ih ek (by omega) hS h64
      (foldRows (mkDomain p g z (bs.length + 1) ek).twoInv (mkDomain p g z (bs.length + 1) ek).omegaInv beta rows) (by
        rw [foldRows, List.length_map, List.length_range, hr, pow_succ, Nat.mul_div_cancel _ (by decide)])
    obtain rfl := Option.some.inj (ha'.symm.trans hb)
    rw [w3] at hf
    rw [foldAll, ← w2, hf, show 2 ^ (bs.length + 1) = 2 * 2 ^ bs.length by ring, sum_pairs]
    congr 1
    refine Finset.sum_congr rfl fun j _ => ?_
    rw [getD_foldCoeffs beta a (n := 2 ^ bs.length) (by rw [hl]; ring), Finset.prod_range_succ', Finset.prod_range_succ']
    have t0 : ∀ i, (2 * j).testBit (i + 1) = j.testBit i := fun i => by rw [Nat.testBit_succ, Nat.mul_div_cancel_left _ (by decide)]
    have t1 : ∀ i, (2 * j + 1).testBit (i + 1) = j.testBit i := fun i => by rw [Nat.testBit_succ, show (2 * j + 1) / 2 = j by omega]
    have z0 : (2 * j).testBit 0 = false := by simp [Nat.testBit_zero]
    have z1 : (2 * j + 1).testBit 0 = true := by simp [Nat.testBit_zero]
    simp only [t0, t1, z0, z1, List.getD_cons_succ, List.getD_cons_zero, if_true]
    simp only [Bool.false_eq_true, if_false]
    ring

/-- A count over pairs when all but one of the first entries leave at most `c` second ones. -/
theorem count_pairs {A B : Type} [Finite A] [Finite B] (P : A → B → Prop) (c : ℕ) (bad : A → Prop) (h1 : ∀ a a', bad a → bad a' → a = a')
    (h : ∀ a, ¬ bad a → Nat.card {b // P a b} ≤ c) :
    Nat.card {x : A × B // P x.1 x.2} ≤ Nat.card A * c + Nat.card B := by
  classical
  have := Fintype.ofFinite A
  have := Fintype.ofFinite B
  let e : {x : A × B // P x.1 x.2} ≃ Σ a : A, {b // P a b} :=
    ⟨fun x => ⟨x.1.1, x.1.2, x.2⟩, fun y => ⟨(y.1, y.2.1), y.2.2⟩, fun _ => rfl, fun _ => rfl⟩
  rw [Nat.card_congr e, Nat.card_sigma, Nat.card_eq_fintype_card (α := A)]
  have hb : ∀ a, Nat.card {b // P a b} ≤ c + if bad a then Nat.card B else 0 := by
    intro a
    by_cases ha : bad a
    · rw [if_pos ha]
      exact (Nat.card_le_card_of_injective Subtype.val Subtype.val_injective).trans (by omega)
    · rw [if_neg ha]
      exact h a ha
  refine (Finset.sum_le_sum fun a _ => hb a).trans ?_
  rw [Finset.sum_add_distrib, Finset.sum_const, Finset.card_univ, smul_eq_mul, ← Finset.sum_filter, Finset.sum_const, smul_eq_mul]
  refine Nat.add_le_add_left ((Nat.mul_le_mul_right _ (Finset.card_le_one.mpr fun a ha b hb => ?_)).trans (one_mul _).le) _
  exact h1 a b (Finset.mem_filter.mp ha).2 (Finset.mem_filter.mp hb).2

/-- **C107** Several foldings: for rows whose degree is not below `2^m n`, at most `m p^(m-1)` of the `p^m` lists of `m` challenges give a folding
of degree below `n`. -/
theorem C107_sound (hc : ConstsSpec p g z) (checks : Bool) (threads n k ek : ℕ) (hS : ek ≤ Fp.macroS p) (h64 : ek < 64) : ∀ m : ℕ, k + m ≤ ek →
    ∀ rows : List (Fp p), rows.length = 2 ^ (k + m) → ¬ LowDegree (mkDomain p g z (k + m) ek) checks threads (2 ^ m * n) rows →
      Nat.card {bs : Fin m → Fp p // LowDegree (mkDomain p g z k ek) checks threads n
        (foldAll (mkDomain p g z (k + m) ek).twoInv (mkDomain p g z (k + m) ek).omegaInv (List.ofFn bs) rows)} ≤ m * p ^ (m - 1) := by
  have hfin : Finite (Fp p) := Finite.of_equiv _ (Fp.equiv p).toEquiv.symm
  have hcard : Nat.card (Fp p) = p := by rw [Nat.card_congr (Fp.equiv p).toEquiv, Nat.card_zmod]
  intro m
  induction m with
  | zero =>
    intro _ rows _ hl
    rw [pow_zero, one_mul, add_zero] at hl
    rw [zero_mul, Nat.le_zero, Nat.card_eq_zero]
    exact Or.inl ⟨fun x => hl (by simpa [foldAll] using x.2)⟩
  | succ m ih =>
    intro hk rows hr hl
    rw [← add_assoc] at hk hr hl
    obtain ⟨-, w2, w3⟩ := mkDomain_half (p := p) (g := g) (z := z) (k := k + m) (ek := ek) (ek' := ek) (hk.trans hS)
    obtain ⟨-, hd⟩ := C107_degree hc hk hS h64 (k := k + m) (ek' := ek) (by omega) hS h64 checks threads threads (2 ^ m * n) rows hr
    rw [← mul_assoc, ← pow_succ'] at hd
    have hcp := count_pairs (A := Fp p) (B := Fin m → Fp p)
      (fun b bs => LowDegree (mkDomain p g z k ek) checks threads n (foldAll (mkDomain p g z (k + m) ek).twoInv (mkDomain p g z (k + m) ek).omegaInv
        (List.ofFn bs) (foldRows (mkDomain p g z (k + m + 1) ek).twoInv (mkDomain p g z (k + m + 1) ek).omegaInv b rows)))
      (m * p ^ (m - 1))
      (fun b => LowDegree (mkDomain p g z (k + m) ek) checks threads (2 ^ m * n)
        (foldRows (mkDomain p g z (k + m + 1) ek).twoInv (mkDomain p g z (k + m + 1) ek).omegaInv b rows))
      (hd hl)
      (fun b hb => ih (by omega) _ (by
        rw [foldRows, List.length_map, List.length_range, hr, pow_succ, Nat.mul_div_cancel _ (by decide)]) hb)
    have e : {bs : Fin (m + 1) → Fp p // LowDegree (mkDomain p g z k ek) checks threads n
        (foldAll (mkDomain p g z (k + (m + 1)) ek).twoInv (mkDomain p g z (k + (m + 1)) ek).omegaInv (List.ofFn bs) rows)} ≃
        {x : Fp p × (Fin m → Fp p) // LowDegree (mkDomain p g z k ek) checks threads n
          (foldAll (mkDomain p g z (k + m) ek).twoInv (mkDomain p g z (k + m) ek).omegaInv (List.ofFn x.2)
            (foldRows (mkDomain p g z (k + m + 1) ek).twoInv (mkDomain p g z (k + m + 1) ek).omegaInv x.1 rows))} :=
      (Fin.consEquiv fun _ => Fp p).symm.subtypeEquiv fun bs => by
        rw [List.ofFn_succ, foldAll, w2, w3]
        rfl
    rw [Nat.card_congr e]
    refine hcp.trans ?_
    rw [hcard, Nat.card_fun, Nat.card_eq_fintype_card (α := Fin m), Fintype.card_fin, hcard, Nat.add_sub_cancel, Nat.add_mul, one_mul]
    refine Nat.add_le_add_right ?_ _
    cases m with
    | zero => simp
    | succ m => rw [Nat.add_sub_cancel, pow_succ]; exact (by ring : p * ((m + 1) * p ^ m) = (m + 1) * (p ^ m * p)).le

end Spec

/-- Four rows over bn256's scalar field folded with the challenges 5 and 7: one value remains, and it is the multilinear polynomial of the
coefficients. -/
example : ∃ a, (mkDomain bnR 7 bnRZeta 2 2).toCoeff true 4 [1, 2, 3, 4] = some a ∧
    foldAll (mkDomain bnR 7 bnRZeta 2 2).twoInv (mkDomain bnR 7 bnRZeta 2 2).omegaInv [5, 7] [1, 2, 3, 4] =
      [a.getD 0 0 + a.getD 1 0 * 5 + a.getD 2 0 * 7 + a.getD 3 0 * (5 * 7)] := by
  obtain ⟨a, h1, h2⟩ := C107_all C12_constants.2.1 true 4 [5, 7] 2 le_rfl (by decide +kernel) (by decide) [1, 2, 3, 4] rfl
  refine ⟨a, h1, h2.trans ?_⟩
  simp [Finset.sum_range_succ, Finset.prod_range_succ, Nat.testBit]

/-- Rows that are not zero, and then of two challenges one is rejected. -/
example : ¬ LowDegree (mkDomain bnR 7 bnRZeta 1 1) true 1 0 [1, 1] ∧
    ¬ (LowDegree (mkDomain bnR 7 bnRZeta 0 0) true 1 0 (foldRows (mkDomain bnR 7 bnRZeta 1 1).twoInv (mkDomain bnR 7 bnRZeta 1 1).omegaInv 5 [1, 1]) ∧
      LowDegree (mkDomain bnR 7 bnRZeta 0 0) true 1 0 (foldRows (mkDomain bnR 7 bnRZeta 1 1).twoInv (mkDomain bnR 7 bnRZeta 1 1).omegaInv 7 [1, 1])) := by
  have hl : ¬ LowDegree (mkDomain bnR 7 bnRZeta 1 1) true 1 (2 * 0) [1, 1] := by
    rintro ⟨a, ha, h0⟩
    obtain ⟨-, a', h1, -, h2, -⟩ := C105_eval C12_constants.2.1 (k := 1) (ek := 1) le_rfl (by decide +kernel) (by decide) true 1 [1, 1] rfl
    obtain rfl := Option.some.inj (ha.symm.trans h1)
    have h3 := h2 0 (by decide)
    rw [evalList, Finset.sum_eq_zero (fun j _ => by rw [h0 j (by omega), zero_mul])] at h3
    exact one_ne_zero (Option.some.inj h3)
  refine ⟨hl, fun ⟨h5, h7⟩ => ?_⟩
  have := (C107_degree C12_constants.2.1 (k := 0) (ek := 1) (ek' := 0) le_rfl (by decide +kernel) (by decide) le_rfl (by decide +kernel) (by decide) true
    1 1 0 [1, 1] rfl).2 hl 5 7 h5 h7
  exact absurd this (by decide +kernel)

/-- The rows `[1, 1]` are not zero, so no more than one challenge folds them to zero. -/
example : Nat.card {bs : Fin 1 → Fp bnR // LowDegree (mkDomain bnR 7 bnRZeta 0 1) true 1 0
    (foldAll (mkDomain bnR 7 bnRZeta 1 1).twoInv (mkDomain bnR 7 bnRZeta 1 1).omegaInv (List.ofFn bs) [1, 1])} ≤ 1 := by
  have h := C107_sound C12_constants.2.1 true 1 0 0 1 (by decide +kernel) (by decide) 1 le_rfl [1, 1] rfl (by
    rintro ⟨a, ha, h0⟩
    obtain ⟨-, a', h1, -, h2, -⟩ := C105_eval C12_constants.2.1 (k := 1) (ek := 1) le_rfl (by decide +kernel) (by decide) true 1 [1, 1] rfl
    obtain rfl := Option.some.inj (ha.symm.trans h1)
    have h3 := h2 0 (by decide)
    rw [evalList, Finset.sum_eq_zero (fun j _ => by rw [h0 j (by omega), zero_mul])] at h3
    exact one_ne_zero (Option.some.inj h3))
  simpa using h

end Halo2.Props
