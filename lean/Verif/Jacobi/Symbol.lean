import Verif.Jacobi.Model
import Verif.Inverse.Jump
import Mathlib.NumberTheory.LegendreSymbol.JacobiSymbol
import Mathlib.Data.Nat.Bitwise

/-!
# The modified Jacobi symbol `(x / |y|)` and the sign stored in the second-lowest bit of `t`
-/

namespace Halo2.Jacobi

open Halo2.Inverse (u64 i64 asU64 tz)

/-- The sign stored in `t`. -/
def sg (t : ℕ) : ℤ := if t.testBit 1 then -1 else 1

theorem sg_xor (x y : ℕ) : sg (x ^^^ y) = sg x * sg y := by
  unfold sg
  rw [Nat.testBit_xor]
  cases x.testBit 1 <;> cases y.testBit 1 <;> simp

theorem sg_zero : sg 0 = 1 := by simp [sg]

theorem sg_sq (t : ℕ) : sg t * sg t = 1 := by unfold sg; split <;> norm_num

theorem answer_eq (one : Bool) (t : ℕ) : answer one t = (if one then 1 else 0) * sg t := by
  unfold answer sg
  congr 1
  have : t &&& 2 = (t.testBit 1).toNat * 2 ^ 1 := by
    have := Nat.and_two_pow t 1
    simpa using this
  rw [this]
  cases t.testBit 1 <;> simp

/-- The modified Jacobi symbol. -/
def js (x y : ℤ) : ℤ := jacobiSym x y.natAbs

theorem bit1 (x : ℕ) : x.testBit 1 = decide (x / 2 % 2 = 1) := by
  rw [Nat.testBit_eq_decide_div_mod_eq]

theorem odd_natAbs {B : ℤ} (h : B % 2 = 1) : Odd B.natAbs := by
  rw [Nat.odd_iff]; omega

/-- The sign of the symbol of two. -/
theorem js_two {b : ℕ} {B : ℤ} (hB : B % 2 = 1) (hb : (8 : ℤ) ∣ b - B) :
    js 2 B = sg (b ^^^ b / 2) := by
  unfold js sg
  rw [jacobiSym.at_two (odd_natAbs hB), ZMod.χ₈_nat_eq_if_mod_eight, Nat.testBit_xor, bit1, bit1]
  have h2 : ¬ B.natAbs % 2 = 0 := by omega
  rw [if_neg h2]
  rcases (by omega : b % 8 = 1 ∨ b % 8 = 3 ∨ b % 8 = 5 ∨ b % 8 = 7) with h | h | h | h
  · have e1 : b / 2 % 2 = 0 := by omega
    have e2 : b / 2 / 2 % 2 = 0 := by omega
    have e3 : B.natAbs % 8 = 1 ∨ B.natAbs % 8 = 7 := by omega
    simp [e1, e2, e3]
  · have e1 : b / 2 % 2 = 1 := by omega
    have e2 : b / 2 / 2 % 2 = 0 := by omega
    have e3 : ¬ (B.natAbs % 8 = 1 ∨ B.natAbs % 8 = 7) := by omega
    simp [e1, e2, e3]
  · have e1 : b / 2 % 2 = 0 := by omega
    have e2 : b / 2 / 2 % 2 = 1 := by omega
    have e3 : ¬ (B.natAbs % 8 = 1 ∨ B.natAbs % 8 = 7) := by omega
    simp [e1, e2, e3]
  · have e1 : b / 2 % 2 = 1 := by omega
    have e2 : b / 2 / 2 % 2 = 1 := by omega
    have e3 : B.natAbs % 8 = 1 ∨ B.natAbs % 8 = 7 := by omega
    simp [e1, e2, e3]

theorem js_mul (x x' y : ℤ) : js (x * x') y = js x y * js x' y := jacobiSym.mul_left _ _ _

theorem sg_and_pow (x z : ℕ) : sg (x &&& (z * 2)) = sg x ^ z := by
  unfold sg
  rw [Nat.testBit_and]
  have h1 : (z * 2).testBit 1 = decide (z % 2 = 1) := by
    rw [bit1]; congr 2; omega
  rw [h1]
  rcases Nat.even_or_odd z with hz | hz
  · have : ¬ z % 2 = 1 := by have := Nat.even_iff.mp hz; omega
    simp only [this, decide_false, Bool.and_false, Bool.false_eq_true, if_false]
    split
    · rw [hz.neg_one_pow]
    · simp
  · have : z % 2 = 1 := Nat.odd_iff.mp hz
    simp only [this, decide_true, Bool.and_true]
    split
    · rw [hz.neg_one_pow]
    · simp

/-- A batch of halvings. -/
theorem js_half {b : ℕ} {B : ℤ} (A : ℤ) (z : ℕ) (hB : B % 2 = 1) (hb : (8 : ℤ) ∣ b - B) :
    js (2 ^ z * A) B = sg ((b ^^^ b / 2) &&& (z * 2)) * js A B := by
  rw [js_mul, sg_and_pow, ← js_two hB hb]
  congr 1
  exact jacobiSym.pow_left _ _ _

theorem js_sub (A B : ℤ) : js (A - B) B = js A B := by
  apply jacobiSym.mod_left'
  have h1 : ((B.natAbs : ℕ) : ℤ) ∣ B := Int.natAbs_dvd.mpr dvd_rfl
  obtain ⟨k, hk⟩ := h1
  generalize ((B.natAbs : ℕ) : ℤ) = N at *
  rw [hk, Int.sub_mul_emod_self_left]

theorem js_neg {b : ℕ} {B : ℤ} (A : ℤ) (hB : B % 2 = 1) (hpos : 0 < B) (hb : (4 : ℤ) ∣ b - B) :
    js (-A) B = sg b * js A B := by
  unfold js sg
  rw [jacobiSym.neg _ (odd_natAbs hB), ZMod.χ₄_nat_eq_if_mod_four, bit1]
  have h2 : ¬ B.natAbs % 2 = 0 := by omega
  rw [if_neg h2]
  rcases (by omega : b % 4 = 1 ∨ b % 4 = 3) with h | h
  · have e1 : b / 2 % 2 = 0 := by omega
    have e3 : B.natAbs % 4 = 1 := by omega
    simp [e1, e3]
  · have e1 : b / 2 % 2 = 1 := by omega
    have e3 : ¬ B.natAbs % 4 = 1 := by omega
    simp [e1, e3]

theorem js_zero {B : ℤ} (hB : 0 < B) : js 0 B = if B = 1 then 1 else 0 := by
  unfold js
  split
  · rename_i h; subst h; simp
  · rw [jacobiSym.zero_left]; omega

theorem js_abs_right (A B : ℤ) : js A (-B) = js A B := by unfold js; rw [Int.natAbs_neg]

/-- Reciprocity for positive arguments. -/
theorem js_swap_pos {a b : ℕ} {A B : ℤ} (hA : A % 2 = 1) (hB : B % 2 = 1) (pA : 0 < A) (pB : 0 < B)
    (ha : (4 : ℤ) ∣ a - A) (hb : (4 : ℤ) ∣ b - B) : js A B = sg (a &&& b) * js B A := by
  obtain ⟨x, rfl⟩ := Int.eq_ofNat_of_zero_le pA.le
  obtain ⟨y, rfl⟩ := Int.eq_ofNat_of_zero_le pB.le
  unfold js sg
  rw [Int.natAbs_natCast, Int.natAbs_natCast, Nat.testBit_and, bit1, bit1]
  have hx : x % 2 = 1 := by omega
  have hy : y % 2 = 1 := by omega
  rw [← jacobiSym.quadratic_reciprocity_if hx hy]
  have e1 : (a / 2 % 2 = 1) ↔ x % 4 = 3 := by omega
  have e2 : (b / 2 % 2 = 1) ↔ y % 4 = 3 := by omega
  simp only [e1, e2, Bool.and_eq_true, decide_eq_true_eq]
  split
  · simp
  · simp

/-- Reciprocity for the modified symbol: one of the two odd numbers is positive. -/
theorem js_swap {a b : ℕ} {A B : ℤ} (hA : A % 2 = 1) (hB : B % 2 = 1) (hpos : 0 < A ∨ 0 < B)
    (ha : (4 : ℤ) ∣ a - A) (hb : (4 : ℤ) ∣ b - B) : js A B = sg (a &&& b) * js B A := by
  rcases lt_or_ge 0 A with pA | nA
  · rcases lt_or_ge 0 B with pB | nB
    · exact js_swap_pos hA hB pA pB ha hb
    · -- `B < 0 < A`: `(A/|B|) = ± (|B|/A)`, `(B/A) = (-1/A) (|B|/A)`
      have hB' : (-B) % 2 = 1 := by omega
      have h1 := js_swap_pos (a := a) (b := (-B).toNat) hA hB' pA (by omega) ha ⟨0, by omega⟩
      have h2 := js_neg (b := a) (B := A) (-B) hA pA ha
      rw [js_abs_right] at h1
      rw [neg_neg] at h2
      rw [h1, h2, ← mul_assoc]
      congr 1
      unfold sg
      rw [Nat.testBit_and, Nat.testBit_and, bit1, bit1, bit1]
      have e : ((-B).toNat / 2 % 2 = 1) ↔ ¬ (b / 2 % 2 = 1) := by omega
      simp only [e]
      by_cases c1 : a / 2 % 2 = 1 <;> by_cases c2 : b / 2 % 2 = 1 <;> simp [c1, c2]
  · have pB : 0 < B := by omega
    have hA' : (-A) % 2 = 1 := by omega
    have h1 := js_swap_pos (a := (-A).toNat) (b := b) hA' hB (by omega) pB ⟨0, by omega⟩ hb
    have h2 := js_neg (b := b) (B := B) (-A) hB pB hb
    rw [js_abs_right] at h1
    rw [neg_neg] at h2
    rw [h2, h1, ← mul_assoc]
    congr 1
    unfold sg
    rw [Nat.testBit_and, Nat.testBit_and, bit1, bit1, bit1]
    have e : ((-A).toNat / 2 % 2 = 1) ↔ ¬ (a / 2 % 2 = 1) := by omega
    simp only [e]
    by_cases c1 : a / 2 % 2 = 1 <;> by_cases c2 : b / 2 % 2 = 1 <;> simp [c1, c2]

theorem tz_pos {n : ℕ} (h : n % 2 = 0) : 1 ≤ tz 64 n := by
  unfold tz; rw [if_pos h]; omega

/-- `jacobinary` computes the symbol times the sign in `t`. -/
theorem jacobinaryLoop_spec (fuel n d t : ℕ) (hd : d % 2 = 1) (hf : n * d < 2 ^ fuel)
    (hn : n < 2 ^ 64) (hd64 : d < 2 ^ 64) :
    jacobinaryLoop (fuel + 1) n d t = some (sg t * js n d) := by
  induction fuel generalizing n d t with
  | zero =>
    have : n = 0 := by
      rcases Nat.eq_zero_or_pos n with h | h
      · exact h
      · have := Nat.mul_pos h (by omega : 0 < d); omega
    subst this
    rw [jacobinaryLoop, if_pos rfl, answer_eq, Nat.cast_zero, js_zero (by omega)]
    congr 1
    by_cases h : d = 1 <;> simp [h]
  | succ fuel ih =>
    rw [jacobinaryLoop]
    by_cases h0 : n = 0
    · subst h0
      rw [if_pos rfl, answer_eq, Nat.cast_zero, js_zero (by omega)]
      congr 1
      by_cases h : d = 1 <;> simp [h]
    · rw [if_neg h0]
      by_cases h1 : n % 2 = 1
      · rw [if_pos h1]
        by_cases h2 : n < d
        · rw [if_pos h2, ih]
          · congr 1
            rw [sg_xor, sg_xor, mul_assoc, mul_assoc]
            congr 1
            have e1 : ((d : ℤ) - n) = 2 ^ 1 * (((d - n) / 2 : ℕ) : ℤ) := by omega
            have e2 := js_half (b := n) (B := n) (((d - n) / 2 : ℕ) : ℤ) 1 (by omega) ⟨0, by omega⟩
            rw [← e1, js_sub, sg_and_pow, pow_one] at e2
            rw [← e2]
            have e3 := js_swap (a := n) (b := d) (A := n) (B := d) (by omega) (by omega) (Or.inl (by omega)) ⟨0, by omega⟩ ⟨0, by omega⟩
            rw [e3, Nat.and_comm]
          · exact h1
          · have : (d - n) / 2 * n * 2 ≤ n * d := by
              calc (d - n) / 2 * n * 2 = ((d - n) / 2 * 2) * n := by ring
                _ ≤ d * n := Nat.mul_le_mul_right _ (by omega)
                _ = n * d := mul_comm _ _
            rw [pow_succ] at hf
            omega
          · omega
          · omega
        · rw [if_neg h2, ih]
          · congr 1
            rw [sg_xor, mul_assoc]
            congr 1
            have e1 : ((n : ℤ) - d) = 2 ^ 1 * (((n - d) / 2 : ℕ) : ℤ) := by omega
            have e2 := js_half (b := d) (B := d) (((n - d) / 2 : ℕ) : ℤ) 1 (by omega) ⟨0, by omega⟩
            rw [← e1, js_sub, sg_and_pow, pow_one] at e2
            rw [← e2]
          · exact hd
          · have : (n - d) / 2 * d * 2 ≤ n * d := by
              calc (n - d) / 2 * d * 2 = ((n - d) / 2 * 2) * d := by ring
                _ ≤ n * d := Nat.mul_le_mul_right _ (by omega)
            rw [pow_succ] at hf
            omega
          · omega
          · omega
      · rw [if_neg h1]
        obtain ⟨t1, t2, t3⟩ := Inverse.tz_spec 64 n
        have tp := tz_pos (n := n) (by omega)
        generalize tz 64 n = z at *
        obtain ⟨m, hm⟩ := t2
        have hdv : n / 2 ^ z = m := by rw [hm, Nat.mul_div_cancel_left _ (by positivity)]
        rw [hdv, ih]
        · congr 1
          rw [sg_xor, mul_assoc]
          congr 1
          rw [← js_half _ _ (by omega) ⟨0, by omega⟩, hm]
          push_cast
          rfl
        · exact hd
        · have h2 : 2 ≤ 2 ^ z := by
            calc 2 = 2 ^ 1 := rfl
              _ ≤ 2 ^ z := Nat.pow_le_pow_right (by decide) tp
          have : m * d * 2 ≤ n * d := by
            calc m * d * 2 = (2 * m) * d := by ring
              _ ≤ (2 ^ z * m) * d := Nat.mul_le_mul_right _ (Nat.mul_le_mul_right _ h2)
              _ = n * d := by rw [hm]
          rw [pow_succ] at hf
          omega
        · rw [← hdv]; exact lt_of_le_of_lt (Nat.div_le_self _ _) hn
        · exact hd64

theorem jacobinary_spec (n d t : ℕ) (hd : d % 2 = 1) (hn : n < 2 ^ 64) (hd64 : d < 2 ^ 64) :
    jacobinary n d t = some (sg t * js n d) := by
  unfold jacobinary
  apply jacobinaryLoop_spec 128 n d t hd _ hn hd64
  calc n * d < 2 ^ 64 * 2 ^ 64 := Nat.mul_lt_mul'' hn hd64
    _ = 2 ^ 128 := by norm_num

end Halo2.Jacobi
