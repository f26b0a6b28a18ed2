import Verif.Inverse.FieldInv
import Verif.Trace.Invert

/-!
# How many division steps the inverter needs

From one state with `δ = 1` to the next, `2 e` division steps later, the form `Q` shrinks by the factor `(4/9)^e` or more. So
`2 k` steps suffice for a modulus below `(3/2)^k`.
-/

namespace Halo2.Inverse

open Halo2.Field

/-- The contraction for `e = 1`. -/
theorem Q_contract_one (C f h g : ℤ) (h1 : 1 ≤ C) (h2 : C ≤ 3) (ho : C % 2 = 1) (hg : 4 * g = C * h - f) :
    9 * Q h g ≤ 4 * Q f h := by
  have hf : f = C * h - 4 * g := by linear_combination hg
  subst hf
  have hC : C = 1 ∨ C = 3 := by omega
  rcases hC with rfl | rfl
  · have e : 28 * (4 * Q (1 * h - 4 * g) h - 9 * Q h g) = (28 * g + 9 * h) ^ 2 + 3 * h ^ 2 + 0 := by unfold Q; ring
    nlinarith [sq_nonneg (28 * g + 9 * h), sq_nonneg h]
  · have e : 28 * (4 * Q (3 * h - 4 * g) h - 9 * Q h g) = (28 * g - 23 * h) ^ 2 + 3 * h ^ 2 + 0 := by unfold Q; ring
    nlinarith [sq_nonneg (28 * g - 23 * h), sq_nonneg h]

/-- The contraction for all `e`, with `Z = 2^(e-1)`. -/
theorem Q_contract_three (Z C f h g : ℤ) (h1 : 0 ≤ C) (h2 : C ≤ 4 * Z) (hg : 4 * Z * g = C * h - f) :
    4 * Z ^ 2 * Q h g ≤ 3 * Q f (Z * h) := by
  have hf : f = C * h - 4 * Z * g := by linear_combination hg
  subst hf
  have e : 2 * (3 * Q (C * h - 4 * Z * g) (Z * h) - 4 * Z ^ 2 * Q h g) =
      (8 * Z * g + (4 * Z - 3 * C) * h) ^ 2 + 3 * (C * (4 * Z - C)) * h ^ 2 := by unfold Q; ring
  have h3 : 0 ≤ C * (4 * Z - C) := mul_nonneg h1 (by omega)
  have h4 : 0 ≤ 3 * (C * (4 * Z - C)) * h ^ 2 := mul_nonneg (by omega) (sq_nonneg h)
  have h5 := sq_nonneg (8 * Z * g + (4 * Z - 3 * C) * h)
  omega

theorem three_mul_nine (z : ℕ) : (3 : ℤ) * 9 ^ (z + 2) ≤ 16 ^ (z + 2) := by
  induction z with
  | zero => norm_num
  | succ z ih =>
    have e1 : (9 : ℤ) ^ (z + 1 + 2) = 9 ^ (z + 2) * 9 := by ring
    have e2 : (16 : ℤ) ^ (z + 1 + 2) = 16 ^ (z + 2) * 16 := by ring
    rw [e1, e2]
    have : (0 : ℤ) < 9 ^ (z + 2) := by positivity
    generalize (9 : ℤ) ^ (z + 2) = u at *
    generalize (16 : ℤ) ^ (z + 2) = v at *
    omega

/-- From one state with `δ = 1` to the next. -/
theorem macro_shrink (f g : ℤ) (hf : f % 2 = 1) (hg : g ≠ 0) :
    ∃ (z : ℕ) (f' g' : ℤ), divstep^[2 * (z + 1)] ⟨1, f, g⟩ = ⟨1, f', g'⟩ ∧ f' % 2 = 1 ∧
      9 ^ (z + 1) * Q f' g' ≤ 4 ^ (z + 1) * Q f g ∧ (2 : ℤ) ^ z ≤ |g| := by
  obtain ⟨z, h, rfl, ho⟩ := exists_two_pow g hg
  obtain ⟨w, g', hw, e⟩ := exists_cancel (z + 2) h (-f) ho
  have hodd : w % 2 = 1 := by
    have e2 : (2 : ℤ) ^ (z + 2) * g' = 2 * (2 ^ (z + 1) * g') := by ring
    rw [e2] at e
    have hh : h = 2 * (h / 2) + 1 := by omega
    have e3 : (w : ℤ) * h = 2 * (w * (h / 2)) + w := by
      conv_lhs => rw [hh]
      ring
    rw [e3] at e
    omega
  have hwz : ((w : ℤ)) < 4 * 2 ^ z := by
    have : ((w : ℤ)) < 2 ^ (z + 2) := by exact_mod_cast hw
    rw [pow_add] at this
    linarith
  have hg4 : 4 * 2 ^ z * g' = w * h - f := by
    have : (2 : ℤ) ^ (z + 2) * g' = 4 * 2 ^ z * g' := by ring
    rw [← this, ← e]; ring
  refine ⟨z, h, g', ?_, ho, ?_, ?_⟩
  · rw [show 2 * (z + 1) = (z + 2) + z by ring, Function.iterate_add_apply, iter_zeros,
      Function.iterate_succ_apply, divstep_swap (by omega) hf ho, ← Function.iterate_succ_apply,
      iter_cancel (z + 2) _ h (-f) g' w ho hw (by push_cast; omega) e]
    ext <;> simp; omega
  · cases z with
    | zero =>
      simp only [pow_zero, one_mul, mul_one, zero_add, pow_one] at *
      exact Q_contract_one w f h g' (by omega) (by omega) (by omega) hg4
    | succ z =>
      have hq := Q_contract_three (2 ^ (z + 1)) w f h g' (by omega) hwz.le hg4
      have h16 := three_mul_nine z
      have hQ0 : 0 ≤ Q h g' := by rw [Q_eq]; positivity
      have p4 : (4 : ℤ) ^ (z + 2) = 4 * (2 ^ (z + 1)) ^ 2 := by
        rw [← pow_mul, mul_comm (z + 1), pow_mul]; norm_num; ring
      have p16 : (16 : ℤ) ^ (z + 2) = 4 ^ (z + 2) * 4 ^ (z + 2) := by rw [← mul_pow]; norm_num
      rw [← p4] at hq
      have pos : (0 : ℤ) < 4 ^ (z + 2) := by positivity
      rw [show z + 1 + 1 = z + 2 by ring]
      generalize (4 : ℤ) ^ (z + 2) = u at *
      generalize Q f (2 ^ (z + 1) * h) = q at *
      generalize Q h g' = r at *
      generalize (9 : ℤ) ^ (z + 2) = t at *
      rw [p16] at h16
      have h1 : 3 * t * r ≤ u * u * r := mul_le_mul_of_nonneg_right h16 hQ0
      have h2 : u * (u * r) ≤ u * (3 * q) := mul_le_mul_of_nonneg_left hq pos.le
      linarith
  · rw [abs_mul, abs_of_pos (by positivity : (0 : ℤ) < 2 ^ z)]
    have : 1 ≤ |h| := Int.one_le_abs (by omega)
    nlinarith [(by positivity : (0 : ℤ) < 2 ^ z)]

/-- `2 k` division steps from a state with `δ = 1` and `Q < 3 (9/4)^k`. -/
theorem terminates_steps (k : ℕ) : ∀ f g : ℤ, f % 2 = 1 → 4 ^ k * Q f g < 3 * 9 ^ k → (divstep^[2 * k] ⟨1, f, g⟩).g = 0 := by
  induction k using Nat.strong_induction_on with
  | _ k ih =>
    intro f g hf hQ
    by_cases hg : g = 0
    · exact iter_g_zero hg _
    · obtain ⟨z, f', g', e, ho, hQ', hz⟩ := macro_shrink f g hf hg
      have h3 : 3 * g ^ 2 ≤ Q f g := by rw [Q_eq]; have := sq_nonneg (f - g); omega
      have hzk : z + 1 ≤ k := by
        by_contra hlt
        have h4 : ((2 : ℤ) ^ z) ^ 2 ≤ g ^ 2 := by
          rw [← sq_abs g]; exact pow_le_pow_left₀ (by positivity) hz 2
        have h5 : (4 : ℤ) ^ z = (2 ^ z) ^ 2 := by rw [← pow_mul, mul_comm z, pow_mul]; norm_num
        have h6 : (4 : ℤ) ^ k ≤ 4 ^ z := pow_le_pow_right₀ (by norm_num) (by omega)
        have h7 : (9 : ℤ) ^ k ≤ 16 ^ k := pow_le_pow_left₀ (by norm_num) (by norm_num) k
        have h8 : (16 : ℤ) ^ k = 4 ^ k * 4 ^ k := by rw [← mul_pow]; norm_num
        have pos : (0 : ℤ) < 4 ^ k := by positivity
        have h9 : 4 ^ k * (3 * 4 ^ k) ≤ 4 ^ k * Q f g := mul_le_mul_of_nonneg_left (by omega) pos.le
        generalize (4 : ℤ) ^ k = u at *
        linarith
      have hk : (4 : ℤ) ^ (k - (z + 1)) * Q f' g' < 3 * 9 ^ (k - (z + 1)) := by
        have p9 : (9 : ℤ) ^ k = 9 ^ (z + 1) * 9 ^ (k - (z + 1)) := by rw [← pow_add]; congr 1; omega
        have p4 : (4 : ℤ) ^ k = 4 ^ (z + 1) * 4 ^ (k - (z + 1)) := by rw [← pow_add]; congr 1; omega
        rw [p9, p4] at hQ
        have pos : (0 : ℤ) < 4 ^ (k - (z + 1)) := by positivity
        have pos9 : (0 : ℤ) < 9 ^ (z + 1) := by positivity
        generalize (4 : ℤ) ^ (k - (z + 1)) = u at *
        generalize (9 : ℤ) ^ (k - (z + 1)) = v at *
        generalize (4 : ℤ) ^ (z + 1) = a at *
        generalize (9 : ℤ) ^ (z + 1) = b at *
        have h1 : u * (b * Q f' g') ≤ u * (a * Q f g) := mul_le_mul_of_nonneg_left hQ' pos.le
        have h2 : b * (u * Q f' g') < b * (3 * v) := by linarith
        exact lt_of_mul_lt_mul_left h2 pos9.le
      have := ih (k - (z + 1)) (by omega) f' g' ho hk
      rw [show 2 * k = 2 * (k - (z + 1)) + 2 * (z + 1) by omega, Function.iterate_add_apply, e]
      exact this

/-- For a modulus of at most `(3/2)^k` the second number is zero after `2 k` division steps. -/
theorem steps_of_modulus {M : ℕ} (hM : M % 2 = 1) {k : ℕ} (hk : M * 2 ^ k ≤ 3 ^ k) {x : ℕ} (hx : x < M) :
    (divstep^[2 * k] ⟨1, M, (x : ℤ)⟩).g = 0 := by
  apply terminates_steps _ _ _ (by omega)
  have hk' : (M : ℤ) * 2 ^ k ≤ 3 ^ k := by exact_mod_cast hk
  have hx' : (x : ℤ) < M := by exact_mod_cast hx
  have h0 : (0 : ℤ) ≤ x := by positivity
  have h1 : Q M x < 3 * (M : ℤ) ^ 2 := by
    unfold Q
    nlinarith
  have h4 : (4 : ℤ) ^ k = (2 ^ k) ^ 2 := by rw [← pow_mul, mul_comm k, pow_mul]; norm_num
  have h9 : (9 : ℤ) ^ k = (3 ^ k) ^ 2 := by rw [← pow_mul, mul_comm k, pow_mul]; norm_num
  rw [h4, h9]
  have hp : (0 : ℤ) < (2 ^ k) ^ 2 := by positivity
  calc (2 ^ k) ^ 2 * Q M x < (2 ^ k) ^ 2 * (3 * (M : ℤ) ^ 2) := mul_lt_mul_of_pos_left h1 hp
    _ = 3 * ((M : ℤ) * 2 ^ k) ^ 2 := by ring
    _ ≤ 3 * (3 ^ k) ^ 2 := by
      have := pow_le_pow_left₀ (by positivity) hk' 2
      linarith

/-! ## The loop -/

/-- Number of rounds of the `while` loop of `invert`. -/
def loopRounds (v : Inverter) (L : ℕ) : ℕ → ℤ → List ℕ → List ℕ → List ℕ → List ℕ → ℕ
  | 0, _, _, _, _, _ => 0
  | fuel + 1, delta, f, g, d, e =>
    if g = cZero L then 0
    else
      let r := jump f g delta
      let fg' := fg f g r.2
      let de' := de v d e r.2
      loopRounds v L fuel r.1 fg'.1 fg'.2 de'.1 de'.2 + 1

/-- When the loop ends within `n` rounds, a larger allowance changes nothing. -/
theorem invertLoop_mono (v : Inverter) (L : ℕ) (n : ℕ) : ∀ (m : ℕ) (delta : ℤ) (f g d e : List ℕ) r, n ≤ m →
    invertLoop v L n delta f g d e = some r → invertLoop v L m delta f g d e = some r ∧
      loopRounds v L m delta f g d e ≤ n := by
  induction n with
  | zero =>
    intro m delta f g d e r _ h
    rw [invertLoop] at h
    split at h
    · rename_i hg
      cases m with
      | zero => rw [invertLoop, if_pos hg]; exact ⟨h, le_refl _⟩
      | succ m => rw [invertLoop, loopRounds, if_pos hg, if_pos hg]; exact ⟨h, le_refl _⟩
    · cases h
  | succ n ih =>
    intro m delta f g d e r hm h
    obtain ⟨m, rfl⟩ : ∃ m', m = m' + 1 := ⟨m - 1, by omega⟩
    rw [invertLoop] at h ⊢
    rw [loopRounds]
    by_cases hg : g = cZero L
    · rw [if_pos hg] at h ⊢
      rw [if_pos hg]
      exact ⟨h, Nat.zero_le _⟩
    · rw [if_neg hg] at h ⊢
      rw [if_neg hg]
      obtain ⟨h1, h2⟩ := ih m _ _ _ _ _ r (by omega) h
      exact ⟨h1, Nat.succ_le_succ h2⟩

/-- Number of rounds of the `while` loop in the inversion of a field element. -/
def fieldRounds (p : ℕ) (a : List ℕ) : ℕ :=
  let v := new (byConstant p) (modulusLimbs p) (R2 p)
  loopRounds v (byConstant p) (fuelBound p) 1 v.modulus (convert 64 62 (byConstant p) a) (cZero (byConstant p)) v.adjuster

end Halo2.Inverse
