import Mathlib.Data.Int.ModEq
import Mathlib.Data.Int.GCD
import Mathlib.Logic.Function.Iterate
import Mathlib.Algebra.Order.Ring.Abs
import Mathlib.Tactic.Ring
import Mathlib.Tactic.LinearCombination
import Mathlib.Tactic.Linarith

/-!
# The Bernstein-Yang division step on integers: specification, gcd invariance, termination
-/

namespace Halo2.Inverse

/-- State of the division step iteration. -/
@[ext] structure DS where
  δ : ℤ
  f : ℤ
  g : ℤ

/-- The division step of Bernstein and Yang. -/
def divstep (s : DS) : DS :=
  if 0 < s.δ ∧ s.g % 2 = 1 then ⟨1 - s.δ, s.g, (s.g - s.f) / 2⟩
  else ⟨1 + s.δ, s.f, (s.g + s.g % 2 * s.f) / 2⟩

theorem divstep_even {s : DS} (h : s.g % 2 = 0) : divstep s = ⟨1 + s.δ, s.f, s.g / 2⟩ := by
  unfold divstep
  rw [if_neg (by omega), h]
  simp

theorem iter_zeros (j : ℕ) (δ f g : ℤ) : divstep^[j] ⟨δ, f, 2 ^ j * g⟩ = ⟨δ + j, f, g⟩ := by
  induction j generalizing δ with
  | zero => simp
  | succ j ih =>
    rw [Function.iterate_succ_apply, divstep_even (by simp only [pow_succ]; rw [mul_assoc, mul_comm, mul_assoc]; omega)]
    have : (2 : ℤ) ^ (j + 1) * g / 2 = 2 ^ j * g := by
      rw [pow_succ, mul_assoc, mul_comm (2 : ℤ) g, ← mul_assoc]; omega
    simp only [this, ih]
    push_cast
    ext <;> simp; ring

/-- `m` non-swapping steps at once. -/
theorem iter_cancel (m : ℕ) (δ f g h : ℤ) (w : ℕ) (hf : f % 2 = 1) (hw : w < 2 ^ m)
    (hm : (m : ℤ) ≤ 1 - δ) (hh : g + w * f = 2 ^ m * h) :
    divstep^[m] ⟨δ, f, g⟩ = ⟨δ + m, f, h⟩ := by
  induction m generalizing δ g w with
  | zero =>
    have : w = 0 := by simpa using hw
    subst this
    simp at hh
    simp [hh]
  | succ m ih =>
    push_cast at hm
    rw [Function.iterate_succ_apply]
    have e1 : (2 : ℤ) ^ (m + 1) * h = 2 * (2 ^ m * h) := by ring
    rw [e1] at hh
    generalize hq : (2 : ℤ) ^ m * h = q at hh
    have hd := Int.emod_two_eq_zero_or_one g
    have hwm : (w : ℤ) % 2 = g % 2 := by
      have hf' : f = 2 * (f / 2) + 1 := by omega
      have : (w : ℤ) * f = 2 * (w * (f / 2)) + w := by
        conv_lhs => rw [hf']
        ring
      rw [this] at hh
      omega
    have hstep : divstep ⟨δ, f, g⟩ = ⟨1 + δ, f, (g + g % 2 * f) / 2⟩ := by
      unfold divstep
      rw [if_neg (by simp only; omega)]
    rw [hstep]
    have hwd : (w : ℤ) = 2 * ((w / 2 : ℕ) : ℤ) + g % 2 := by
      rw [← hwm]; push_cast; omega
    have key : (g + g % 2 * f) / 2 + ((w / 2 : ℕ) : ℤ) * f = 2 ^ m * h := by
      rw [hq]
      rw [hwd] at hh
      generalize ((w / 2 : ℕ) : ℤ) = v at *
      have : g + g % 2 * f = 2 * (q - v * f) := by linear_combination hh
      rw [this, Int.mul_ediv_cancel_left _ (by decide)]
      ring
    have hw' : w / 2 < 2 ^ m := by
      rw [pow_succ] at hw; omega
    rw [ih (1 + δ) _ (w / 2) hw' (by omega) key]
    push_cast
    ext <;> simp; ring

theorem divstep_swap {δ f g : ℤ} (hδ : 0 < δ) (hf : f % 2 = 1) (hg : g % 2 = 1) :
    divstep ⟨δ, f, g⟩ = divstep ⟨-δ, g, -f⟩ := by
  unfold divstep
  rw [if_pos ⟨hδ, hg⟩, if_neg (by simp only; omega)]
  have : (-f) % 2 = 1 := by omega
  simp only [this]
  ext <;> simp <;> ring_nf

theorem divstep_odd {s : DS} (hf : s.f % 2 = 1) : (divstep s).f % 2 = 1 := by
  unfold divstep
  split
  · rename_i h; exact h.2
  · exact hf

theorem iter_odd {s : DS} (hf : s.f % 2 = 1) (n : ℕ) : (divstep^[n] s).f % 2 = 1 := by
  induction n with
  | zero => exact hf
  | succ n ih => rw [Function.iterate_succ_apply']; exact divstep_odd ih

theorem gcd_two_mul_odd {f h : ℤ} (hf : f % 2 = 1) : Int.gcd f (2 * h) = Int.gcd f h := by
  rw [mul_comm]
  apply Int.gcd_mul_left_right_of_gcd_eq_one
  rw [Int.gcd_comm]
  have : Int.gcd 2 f = 1 := by
    have e : Int.gcd 2 f = Nat.gcd 2 f.natAbs := rfl
    rw [e, Nat.gcd_rec]
    have : f.natAbs % 2 = 1 := by omega
    rw [this]
    rfl
  exact this

theorem divstep_gcd {s : DS} (hf : s.f % 2 = 1) :
    Int.gcd (divstep s).f (divstep s).g = Int.gcd s.f s.g := by
  unfold divstep
  split
  · rename_i h
    have e : s.g - s.f = 2 * ((s.g - s.f) / 2) := by omega
    rw [← gcd_two_mul_odd h.2, ← e, Int.gcd_comm]
    rw [Int.gcd_comm s.f]
    rw [show s.g - s.f = -s.f + s.g * 1 by ring]
    rw [Int.gcd_comm, Int.gcd_add_mul_left_right, Int.gcd_neg]
  · have e : s.g + s.g % 2 * s.f = 2 * ((s.g + s.g % 2 * s.f) / 2) := by
      rcases Int.emod_two_eq_zero_or_one s.g with h | h
      · rw [h]; simp; omega
      · rw [h]; simp; omega
    simp only
    rw [← gcd_two_mul_odd hf, ← e, Int.gcd_add_mul_right_right]

theorem iter_gcd {s : DS} (hf : s.f % 2 = 1) (n : ℕ) :
    Int.gcd (divstep^[n] s).f (divstep^[n] s).g = Int.gcd s.f s.g := by
  induction n with
  | zero => rfl
  | succ n ih => rw [Function.iterate_succ_apply', divstep_gcd (iter_odd hf n), ih]

theorem iter_g_zero {s : DS} (h : s.g = 0) (n : ℕ) : (divstep^[n] s).g = 0 := by
  induction n with
  | zero => exact h
  | succ n ih => rw [Function.iterate_succ_apply', divstep_even (by rw [ih]; rfl), ih]; rfl

theorem iter_delta (s : DS) (n : ℕ) : |(divstep^[n] s).δ| ≤ |s.δ| + n := by
  induction n with
  | zero => simp
  | succ n ih =>
    rw [Function.iterate_succ_apply']
    generalize divstep^[n] s = r at *
    push_cast
    unfold divstep
    rw [abs_le] at *
    split <;> simp only <;> constructor <;> omega

/-- Magnitudes never grow: `max(|f|,|g|)` is non-increasing. -/
theorem divstep_bound {s : DS} {M : ℤ} (hf : s.f % 2 = 1) (h1 : |s.f| ≤ M) (h2 : |s.g| ≤ M) :
    |(divstep s).f| ≤ M ∧ |(divstep s).g| ≤ M := by
  rw [abs_le] at h1 h2
  unfold divstep
  split
  · simp only [abs_le]; omega
  · rcases Int.emod_two_eq_zero_or_one s.g with h | h
    · simp only [h, abs_le]; omega
    · simp only [h, abs_le]; omega

theorem iter_bound {s : DS} {M : ℤ} (hf : s.f % 2 = 1) (h1 : |s.f| ≤ M) (h2 : |s.g| ≤ M) (n : ℕ) :
    |(divstep^[n] s).f| ≤ M ∧ |(divstep^[n] s).g| ≤ M := by
  induction n with
  | zero => exact ⟨h1, h2⟩
  | succ n ih =>
    rw [Function.iterate_succ_apply']
    exact divstep_bound (iter_odd hf n) ih.1 ih.2

/-! ## Termination -/

/-- The Lyapunov form that at least halves from one state with `δ = 1` to the next. -/
def Q (f g : ℤ) : ℤ := f * f - 2 * f * g + 4 * (g * g)

theorem exists_two_pow (g : ℤ) (hg : g ≠ 0) : ∃ (z : ℕ) (h : ℤ), g = 2 ^ z * h ∧ h % 2 = 1 := by
  have key : ∀ n : ℕ, ∀ g : ℤ, g ≠ 0 → g.natAbs ≤ n → ∃ (z : ℕ) (h : ℤ), g = 2 ^ z * h ∧ h % 2 = 1 := by
    intro n
    induction n with
    | zero => intro g hg h; omega
    | succ n ih =>
      intro g hg hn
      rcases Int.emod_two_eq_zero_or_one g with h | h
      · obtain ⟨z, k, e, ho⟩ := ih (g / 2) (by omega) (by omega)
        refine ⟨z + 1, k, ?_, ho⟩
        rw [pow_succ, mul_assoc, mul_comm (2 : ℤ) k, ← mul_assoc, ← e]; omega
      · exact ⟨0, g, by simp, h⟩
  exact key _ g hg le_rfl

/-- Existence of the cancelling multiplier. -/
theorem exists_cancel (m : ℕ) (f g : ℤ) (hf : f % 2 = 1) :
    ∃ (w : ℕ) (h : ℤ), w < 2 ^ m ∧ g + w * f = 2 ^ m * h := by
  induction m with
  | zero => exact ⟨0, g, by simp, by simp⟩
  | succ m ih =>
    obtain ⟨w, h, hw, e⟩ := ih
    rcases Int.emod_two_eq_zero_or_one h with h0 | h1
    · exact ⟨w, h / 2, by rw [pow_succ]; omega, by
        rw [e, pow_succ, mul_assoc]; congr 1; omega⟩
    · refine ⟨w + 2 ^ m, (h + f) / 2, by rw [pow_succ]; omega, ?_⟩
      push_cast
      have : (2 : ℤ) ^ (m + 1) * ((h + f) / 2) = 2 ^ m * (h + f) := by
        rw [pow_succ, mul_assoc]; congr 1; omega
      rw [this]
      linear_combination e

theorem Q_contract_aux (Z C f h g : ℤ) (hZ : 1 ≤ Z) (h1 : 1 ≤ C) (h2 : C ≤ 4 * Z - 1)
    (hg : 4 * Z * g = C * h - f) : 2 * Q h g ≤ Q f (Z * h) := by
  have hf : f = C * h - 4 * Z * g := by linear_combination hg
  subst hf
  have ha : 0 < 2 * Z ^ 2 - 1 := by nlinarith
  have hD : 0 ≤ 12 * Z ^ 4 - 20 * Z ^ 2 - 2 * C ^ 2 + 8 * Z * C + 3 := by
    have e1 : 0 ≤ (C - 1) * (4 * Z - 1 - C) := mul_nonneg (by omega) (by omega)
    have e2 : 0 ≤ 12 * Z ^ 4 - 20 * Z ^ 2 + 8 * Z + 1 := by
      obtain ⟨t, rfl⟩ : ∃ t, Z = t + 1 := ⟨Z - 1, by ring⟩
      have ht : 0 ≤ t := by omega
      have : 12 * (t + 1) ^ 4 - 20 * (t + 1) ^ 2 + 8 * (t + 1) + 1
          = 12 * t ^ 4 + 48 * t ^ 3 + 52 * t ^ 2 + 16 * t + 1 := by ring
      rw [this]
      positivity
    nlinarith
  have key : 2 * (2 * Z ^ 2 - 1) * (Q (C * h - 4 * Z * g) (Z * h) - 2 * Q h g)
      = (4 * (2 * Z ^ 2 - 1) * g + (2 * Z ^ 2 - 2 * Z * C + 1) * h) ^ 2
        + (12 * Z ^ 4 - 20 * Z ^ 2 - 2 * C ^ 2 + 8 * Z * C + 3) * h ^ 2 := by
    unfold Q; ring
  have hnn : 0 ≤ 2 * (2 * Z ^ 2 - 1) * (Q (C * h - 4 * Z * g) (Z * h) - 2 * Q h g) := by
    rw [key]
    exact add_nonneg (sq_nonneg _) (mul_nonneg hD (sq_nonneg _))
  have := nonneg_of_mul_nonneg_right hnn (by linarith)
  linarith

/-- From one state with `δ = 1` to the next: `f` stays odd and `Q` at least halves. -/
theorem macro_step (f g : ℤ) (hf : f % 2 = 1) (hg : g ≠ 0) :
    ∃ (z : ℕ) (f' g' : ℤ), divstep^[2 * z + 2] ⟨1, f, g⟩ = ⟨1, f', g'⟩ ∧ f' % 2 = 1 ∧
      2 * Q f' g' ≤ Q f g ∧ (2 : ℤ) ^ z ≤ |g| := by
  obtain ⟨z, h, rfl, ho⟩ := exists_two_pow g hg
  obtain ⟨w, g', hw, e⟩ := exists_cancel (z + 2) h (-f) ho
  have hodd : w % 2 = 1 := by
    have e2 : (2 : ℤ) ^ (z + 2) * g' = 2 * (2 ^ (z + 1) * g') := by ring
    rw [e2] at e
    have hh : h = 2 * (h / 2) + 1 := by omega
    have e3 : (w : ℤ) * h = 2 * (w * (h / 2)) + w := by
      conv_lhs => rw [hh]
      ring
    rw [e3] at e
    omega
  refine ⟨z, h, g', ?_, ho, ?_, ?_⟩
  · rw [show 2 * z + 2 = (z + 2) + z by ring, Function.iterate_add_apply, iter_zeros,
      Function.iterate_succ_apply, divstep_swap (by omega) hf ho, ← Function.iterate_succ_apply,
      iter_cancel (z + 2) _ h (-f) g' w ho hw (by push_cast; omega) e]
    ext <;> simp; omega
  · refine Q_contract_aux (2 ^ z) w f h g' (by exact_mod_cast Nat.one_le_two_pow) (by omega) ?_ ?_
    · have : ((w : ℤ)) < 2 ^ (z + 2) := by exact_mod_cast hw
      rw [pow_add] at this
      linarith
    · have : (2 : ℤ) ^ (z + 2) * g' = 4 * 2 ^ z * g' := by ring
      rw [← this, ← e]; ring
  · rw [abs_mul, abs_of_pos (by positivity : (0 : ℤ) < 2 ^ z)]
    have : 1 ≤ |h| := Int.one_le_abs (by omega)
    nlinarith [(by positivity : (0 : ℤ) < 2 ^ z)]

theorem Q_eq (f g : ℤ) : Q f g = (f - g) ^ 2 + 3 * g ^ 2 := by unfold Q; ring

/-- Explicit bound on the number of division steps from a state with `δ = 1`. -/
theorem terminates (B n : ℕ) (f g : ℤ) (hf : f % 2 = 1) (hQ : Q f g < 2 ^ n) (hn : n ≤ 2 * B + 2) :
    ∃ k ≤ n * (2 * B + 2), (divstep^[k] ⟨1, f, g⟩).g = 0 := by
  induction n generalizing f g with
  | zero =>
    refine ⟨0, by simp, ?_⟩
    simp only [Function.iterate_zero, id]
    rw [Q_eq] at hQ
    by_contra h
    have : 1 ≤ g ^ 2 := by have := sq_pos_of_ne_zero h; omega
    have := sq_nonneg (f - g)
    simp at hQ
    omega
  | succ n ih =>
    by_cases hg : g = 0
    · exact ⟨0, by simp, hg⟩
    · obtain ⟨z, f', g', e, ho, hQ', hz⟩ := macro_step f g hf hg
      have h1 : Q f' g' < 2 ^ n := by rw [pow_succ] at hQ; omega
      obtain ⟨k, hk, hkz⟩ := ih f' g' ho h1 (by omega)
      refine ⟨k + (2 * z + 2), ?_, ?_⟩
      · have hzB : z ≤ B := by
          by_contra hlt
          have h2 : (2 : ℤ) ^ (B + 1) ≤ 2 ^ z := pow_le_pow_right₀ (by decide) (by omega)
          have h3 : (2 : ℤ) ^ (B + 1) ≤ |g| := le_trans h2 hz
          have h4 : ((2 : ℤ) ^ (B + 1)) ^ 2 ≤ g ^ 2 := by
            rw [← sq_abs g]; exact pow_le_pow_left₀ (by positivity) h3 2
          rw [Q_eq] at hQ
          have h5 : (2 : ℤ) ^ (n + 1) ≤ 2 ^ (2 * B + 2) := pow_le_pow_right₀ (by decide) (by omega)
          have h6 : ((2 : ℤ) ^ (B + 1)) ^ 2 = 2 ^ (2 * B + 2) := by rw [← pow_mul]; congr 1; ring
          have := sq_nonneg (f - g)
          have h7 : (0 : ℤ) < 2 ^ (2 * B + 2) := by positivity
          omega
        have : (n + 1) * (2 * B + 2) = n * (2 * B + 2) + (2 * B + 2) := by ring
        omega
      · rw [Function.iterate_add_apply, e, hkz]

/-- `g` is zero after `(2B+5)^2` division steps for inputs below `2^B` in magnitude. -/
theorem terminates_bound (B : ℕ) (f g : ℤ) (hf : f % 2 = 1) (h1 : |f| ≤ 2 ^ B) (h2 : |g| ≤ 2 ^ B)
    (k : ℕ) (hk : (2 * B + 6) * (2 * B + 6) ≤ k) : (divstep^[k] ⟨1, f, g⟩).g = 0 := by
  have hQ : Q f g < 2 ^ (2 * B + 3) := by
    rw [Q_eq]
    have h3 : |f - g| ≤ 2 ^ B + 2 ^ B := le_trans (abs_sub _ _) (add_le_add h1 h2)
    have h4 : (f - g) ^ 2 ≤ (2 ^ B + 2 ^ B) ^ 2 := by
      rw [← sq_abs (f - g)]; exact pow_le_pow_left₀ (abs_nonneg _) h3 2
    have h5 : g ^ 2 ≤ (2 ^ B) ^ 2 := by
      rw [← sq_abs g]; exact pow_le_pow_left₀ (abs_nonneg _) h2 2
    have h6 : (2 : ℤ) ^ (2 * B + 3) = 8 * (2 ^ B) ^ 2 := by rw [← pow_mul, mul_comm B]; ring
    have h7 : (0 : ℤ) < (2 ^ B) ^ 2 := by positivity
    rw [h6]
    nlinarith
  obtain ⟨k0, hk0, hz⟩ := terminates (B + 1) (2 * B + 3) f g hf hQ (by omega)
  have : k = (k - k0) + k0 := by nlinarith [Nat.sub_add_cancel (show k0 ≤ k by nlinarith)]
  rw [this, Function.iterate_add_apply]
  exact iter_g_zero hz _

end Halo2.Inverse
