import Mathlib.Analysis.Complex.ExponentialBounds
import Verif.Props.MsmWrong

/-!
# The floating point logarithm of the window size: C29, C32

The model of `msm.rs` has a parameter for `(n as f64).ln().ceil() as usize`. Here it is related to the real
logarithm: any `ln` that is within `2^-40` of the real one has the same ceiling, because no integer between 32 and
`2^32` is that close to a power of `e`. (The spacing of `f64` below 32 is `2^-48`.)
-/

namespace Halo2.Props

open Halo2 Halo2.Field Halo2.Prime Halo2.Ext Halo2.Curve Halo2.Msm

/-- What is assumed of `f64::ln` on `u32` arguments from 32 on: an absolute error of at most `2^-40`. -/
def NearLog (l : ℕ → ℝ) : Prop := ∀ n : ℕ, 32 ≤ n → n < 2 ^ 32 → |l n - Real.log n| ≤ 1 / 2 ^ 40

/-- Powers of `e` between rationals. -/
theorem exp_bounds (k : ℕ) :
    (2.718281828459045235 : ℝ) ^ k ≤ Real.exp k ∧ Real.exp k ≤ (2.718281828459045236 : ℝ) ^ k := by
  have h := Real.exp_one_near_20
  rw [abs_le] at h
  rw [← Real.exp_one_pow]
  have h1 : (2.718281828459045235 : ℝ) ≤ Real.exp 1 := by
    have := h.1
    norm_num at this ⊢
    linarith
  have h2 : Real.exp 1 ≤ (2.718281828459045236 : ℝ) := by
    have := h.2
    norm_num at this ⊢
    linarith
  exact ⟨pow_le_pow_left₀ (by norm_num) h1 k, pow_le_pow_left₀ (Real.exp_pos 1).le h2 k⟩

/-- No integer `n` is near `e^k`: with `f` the integer part of `e^k`, the logarithms of `f` and `f + 1` are away from `k`. -/
theorem log_gap (k f : ℕ) (h1 : (f : ℝ) * (1 + 2 / 2 ^ 40) ≤ (2.718281828459045235 : ℝ) ^ k)
    (h2 : (2.718281828459045236 : ℝ) ^ k * (1 + 2 / 2 ^ 40) ≤ f + 1) (n : ℕ) (hn : 0 < n) :
    (n ≤ f → Real.log n + 1 / 2 ^ 40 ≤ k) ∧ (f < n → k + 1 / 2 ^ 40 < Real.log n) := by
  have he : Real.exp (1 / 2 ^ 40) < 1 + 2 / 2 ^ 40 := by
    have := Real.exp_bound_div_one_sub_of_interval' (x := 1 / 2 ^ 40) (by norm_num) (by norm_num)
    refine lt_of_lt_of_le this ?_
    norm_num
  obtain ⟨b1, b2⟩ := exp_bounds k
  have hpos : (0 : ℝ) < n := by exact_mod_cast hn
  constructor
  · intro h
    have hnf : (n : ℝ) ≤ f := by exact_mod_cast h
    rw [← Real.exp_le_exp, Real.exp_add, Real.exp_log hpos]
    calc (n : ℝ) * Real.exp (1 / 2 ^ 40) ≤ f * (1 + 2 / 2 ^ 40) :=
          mul_le_mul hnf he.le (Real.exp_pos _).le (by positivity)
      _ ≤ _ := h1.trans b1
  · intro h
    have hnf : (f : ℝ) + 1 ≤ n := by exact_mod_cast h
    rw [Real.lt_log_iff_exp_lt hpos, Real.exp_add]
    calc Real.exp k * Real.exp (1 / 2 ^ 40) < Real.exp k * (1 + 2 / 2 ^ 40) :=
          mul_lt_mul_of_pos_left he (Real.exp_pos _)
      _ ≤ (2.718281828459045236 : ℝ) ^ k * (1 + 2 / 2 ^ 40) := mul_le_mul_of_nonneg_right b2 (by norm_num)
      _ ≤ n := h2.trans hnf

/-- The integer part of `e^k` for `3 ≤ k ≤ 23`. -/
def expFloor (k : ℕ) : ℕ := [20, 54, 148, 403, 1096, 2980, 8103, 22026, 59874, 162754, 442413, 1202604, 3269017, 8886110,
  24154952, 65659969, 178482300, 485165195, 1318815734, 3584912846, 9744803446].getD (k - 3) 0

theorem log_gap_table (k : ℕ) (h1 : 3 ≤ k) (h2 : k ≤ 23) (n : ℕ) (hn : 0 < n) :
    (n ≤ expFloor k → Real.log n + 1 / 2 ^ 40 ≤ k) ∧ (expFloor k < n → k + 1 / 2 ^ 40 < Real.log n) := by
  apply log_gap k (expFloor k)
  · interval_cases k <;>
      simp only [expFloor, List.getD_cons_zero, List.getD_cons_succ, Nat.reduceSub] <;> norm_num
  · interval_cases k <;>
      simp only [expFloor, List.getD_cons_zero, List.getD_cons_succ, Nat.reduceSub] <;> norm_num
  · exact hn

/-- The ceiling of anything near the logarithm. -/
theorem ceil_near (n : ℕ) (h1 : 32 ≤ n) (h2 : n < 2 ^ 32) (y : ℝ) (hy : |y - Real.log n| ≤ 1 / 2 ^ 40) :
    4 ≤ ⌈y⌉₊ ∧ ⌈y⌉₊ ≤ 23 ∧ expFloor (⌈y⌉₊ - 1) < n ∧ n ≤ expFloor ⌈y⌉₊ := by
  have hex : ∃ i, n ≤ expFloor (i + 4) := ⟨19, h2.le.trans (by decide)⟩
  classical
  let i := Nat.find hex
  have hi : n ≤ expFloor (i + 4) := Nat.find_spec hex
  have hi2 : i ≤ 19 := Nat.find_min' hex (h2.le.trans (by decide))
  have hlo : expFloor (i + 3) < n := by
    rcases Nat.eq_zero_or_pos i with h | h
    · rw [h]; exact lt_of_lt_of_le (by decide) h1
    · have := Nat.find_min hex (m := i - 1) (by change i - 1 < i; omega)
      rw [show i - 1 + 4 = i + 3 by omega] at this
      omega
  have a := (log_gap_table (i + 4) (by omega) (by omega) n (by omega)).1 hi
  have b := (log_gap_table (i + 3) (by omega) (by omega) n (by omega)).2 hlo
  rw [abs_le] at hy
  have hc : ⌈y⌉₊ = i + 4 := by
    rw [Nat.ceil_eq_iff (by omega)]
    refine ⟨?_, by linarith [hy.2]⟩
    rw [show i + 4 - 1 = i + 3 by omega]
    linarith [hy.1]
  rw [hc]
  exact ⟨by omega, by omega, hlo, hi⟩

/-- **C29** The window size of the code, with the real logarithm. Whatever the rounding of `f64::ln`, as long as it is
within `2^-40`: the ceiling is that of the real logarithm, between 4 and 23, so the assumption `LnCeilOk` of the
theorems about `msm_serial`, `msm_parallel` and `msm_best` holds; and `msm_best` switches to batch additions
(windows of 10 bits or more) from exactly 8104 terms on. -/
theorem C29_ln {l : ℕ → ℝ} (hl : NearLog l) :
    LnCeilOk (fun n => ⌈l n⌉₊) ∧
    (∀ n : ℕ, n < 2 ^ 32 → windowSize (fun n => ⌈l n⌉₊) n =
      if n < 4 then 1 else if n < 32 then 3 else ⌈Real.log n⌉₊) ∧
    (∀ n : ℕ, n < 2 ^ 32 → (10 ≤ windowSize (fun n => ⌈l n⌉₊) n ↔ 8104 ≤ n)) := by
  have hmono : ∀ i j, 3 ≤ i → i ≤ j → j ≤ 23 → expFloor i ≤ expFloor j := by
    have : ∀ j < 24, ∀ i < 24, 3 ≤ i → i ≤ j → expFloor i ≤ expFloor j := by decide +kernel
    exact fun i j h1 h2 h3 => this j (by omega) i (by omega) h1 h2
  have hceil : ∀ n : ℕ, 32 ≤ n → n < 2 ^ 32 → ⌈l n⌉₊ = ⌈Real.log n⌉₊ := by
    intro n h1 h2
    obtain ⟨a1, a2, a3, a4⟩ := ceil_near n h1 h2 (l n) (hl n h1 h2)
    obtain ⟨b1, b2, b3, b4⟩ := ceil_near n h1 h2 (Real.log n) (by rw [sub_self, abs_zero]; positivity)
    rcases Nat.lt_trichotomy ⌈l n⌉₊ ⌈Real.log n⌉₊ with h | h | h
    · have := hmono ⌈l n⌉₊ (⌈Real.log n⌉₊ - 1) (by omega) (by omega) (by omega)
      omega
    · exact h
    · have := hmono ⌈Real.log n⌉₊ (⌈l n⌉₊ - 1) (by omega) (by omega) (by omega)
      omega
  refine ⟨fun n h1 h2 => ?_, fun n h2 => ?_, fun n h2 => ?_⟩
  · obtain ⟨a1, a2, -, -⟩ := ceil_near n h1 h2 (l n) (hl n h1 h2)
    exact ⟨(by omega : 1 ≤ ⌈l n⌉₊), (by omega : ⌈l n⌉₊ ≤ 24)⟩
  · rw [windowSize]
    split
    · rfl
    · split
      · rfl
      · rw [Nat.mod_eq_of_lt h2, hceil n (by omega) h2]
  · rw [windowSize]
    split
    · omega
    · split
      · omega
      · next h3 =>
        rw [Nat.mod_eq_of_lt h2]
        obtain ⟨a1, a2, a3, a4⟩ := ceil_near n (by omega) h2 (l n) (hl n (by omega) h2)
        have e9 : expFloor 9 = 8103 := by decide
        constructor
        · intro h
          have := hmono 9 (⌈l n⌉₊ - 1) (by omega) (by omega) (by omega)
          omega
        · intro h
          by_contra hc
          have := hmono ⌈l n⌉₊ 9 (by omega) (by omega) (by omega)
          omega

/-- The real logarithm itself is such an approximation, and so is one that errs by `2^-41` everywhere. -/
example : NearLog (fun n => Real.log n) ∧ NearLog (fun n => Real.log n - 1 / 2 ^ 41) := by
  refine ⟨fun n _ _ => ?_, fun n _ _ => ?_⟩
  · rw [sub_self, abs_zero]; positivity
  · rw [show Real.log n - 1 / 2 ^ 41 - Real.log n = -(1 / 2 ^ 41) by ring, abs_neg, abs_of_pos (by positivity)]
    norm_num

theorem ceil_8104 {l : ℕ → ℝ} (hl : NearLog l) : ⌈l 8104⌉₊ = 10 := by
  obtain ⟨a1, a2, a3, a4⟩ := ceil_near 8104 (by decide) (by decide) (l 8104) (hl 8104 (by decide) (by decide))
  have h10 : ∀ c < 24, 4 ≤ c → expFloor (c - 1) < 8104 → 8104 ≤ expFloor c → c = 10 := by decide +kernel
  exact h10 _ (by omega) a1 a3 a4

/-- **C32 is false**, with no assumption left but the accuracy of `f64::ln`: on secp256r1, and with an identity among the
bases on bn256 G1, `msm_best` panics on 8104 terms for every number of threads and every order of the tasks. -/
theorem C32_float_false {l : ℕ → ℝ} (hl : NearLog l) (threads : ℕ) (order1 order2 order3 : List ℕ)
    (h2 : order2.Perm (List.range (numBits r1N / 10 + 1))) (h3 : order3.Perm (List.range (numBits bnR / 10 + 1))) :
    (∃ (ks : List (Fp r1N)) (bases : List (Aff (Fp r1P))), ks.length = 8104 ∧ bases.length = 8104 ∧
      (∀ b ∈ bases, b = Secp256r1.cGen) ∧
      msmBest Secp256r1.c (fun n => ⌈l n⌉₊) (numBits r1N) threads order1 order2 (ks.map Fp.toRepr) bases = none) ∧
    (∃ (ks : List (Fp bnR)) (bases : List (Aff (Fp bnQ))), ks.length = 8104 ∧ bases.length = 8104 ∧
      (∀ b ∈ bases, b = Bn256.g1Gen ∨ b = Aff.identity) ∧
      msmBest Bn256.g1 (fun n => ⌈l n⌉₊) (numBits bnR) threads order1 order3 (ks.map Fp.toRepr) bases = none) := by
  have hc := ceil_8104 hl
  have hw : windowSize (fun n => ⌈l n⌉₊) 8104 = 10 := hc
  exact ⟨C32_a_false _ hc.ge (by omega) threads order1 order2 (by rw [hw]; exact h2),
    C32_identity_false _ hc.ge (by omega) threads order1 order3 (by rw [hw]; exact h3)⟩

/-- **C32 is false** on secp256r1 without a panic, again with no assumption but the accuracy of `f64::ln`: for every number of
threads and every order of the tasks, `msm_best` of 8104 terms with one and the same finite base `p` returns `-2 p`
where the product is `4 p`. -/
theorem C32_float_wrong {l : ℕ → ℝ} (hl : NearLog l) (threads : ℕ) (order1 order2 : List ℕ)
    (h2 : order2.Perm (List.range (numBits r1N / 10 + 1))) :
    ∃ (ks : List (Fp r1N)) (B : Aff (Fp r1P)) (p : Pt Secp256r1.c) (A : Proj (Fp r1P)), ks.length = 8104 ∧
      ARep Secp256r1.c B p ∧
      msmBest Secp256r1.c (fun n => ⌈l n⌉₊) (numBits r1N) threads order1 order2 (ks.map Fp.toRepr)
        (List.replicate 8104 B) = some A ∧
      PRep Secp256r1.c A (-(2 • p)) ∧ msmValue ks (List.replicate 8104 p) = 4 • p ∧ -((2 : ℕ) • p) ≠ (4 : ℕ) • p := by
  have hc := ceil_8104 hl
  have hw : windowSize (fun n => ⌈l n⌉₊) 8104 = 10 := hc
  obtain ⟨ks, B, p, q, A, hk, hB, _, e, hA, rfl, hv, hne⟩ :=
    C32_a_wrong (fun n => ⌈l n⌉₊) hc.ge (by omega) threads order1 order2 (by rw [hw]; exact h2)
  exact ⟨ks, B, p, A, hk, hB, e, hA, hv, by rwa [hv] at hne⟩

end Halo2.Props
