import Verif.Jacobi.LInt

/-!
# C43: the wrapping signed integers `LInt<L>` of the Jacobi module
-/

namespace Halo2.Props

open Halo2 Halo2.Jacobi

/-- The number an `LInt<L>` stands for: the representative of its words, read as an unsigned number,
in `[-2^(64L-1), 2^(64L-1))` (`Int.bmod` is the balanced remainder of Lean's core library). -/
def sval (L : ℕ) (x : List ℕ) : ℤ := Int.bmod (val x) (2 ^ (64 * L))

/-- Reduction into the range of the type. -/
def wrap (L : ℕ) (v : ℤ) : ℤ := Int.bmod v (2 ^ (64 * L))

/-- A value of the type: `L` words of 64 bits. -/
def IsLInt (L : ℕ) (x : List ℕ) : Prop := x.length = L ∧ ∀ w ∈ x, w < 2 ^ 64

theorem IsLInt.isL {L : ℕ} {x : List ℕ} (h : IsLInt L x) : IsL L x := ⟨h.1, fun w hw => h.2 w hw⟩

theorem IsLInt.of {L : ℕ} {x : List ℕ} (h : IsL L x) : IsLInt L x := ⟨h.len, fun w hw => h.wf w hw⟩

theorem bmod_congr {a b : ℤ} {m : ℕ} (h : a ≡ b [ZMOD (m : ℤ)]) : Int.bmod a m = Int.bmod b m := by
  rw [← Int.emod_bmod a, ← Int.emod_bmod b, h]

theorem pow_cast (L : ℕ) : ((2 ^ (64 * L) : ℕ) : ℤ) = (W : ℤ) ^ L := by
  rw [WL_eq]; push_cast; rfl

theorem sval_modEq (L : ℕ) (x : List ℕ) : sval L x ≡ val x [ZMOD (W : ℤ) ^ L] := by
  rw [← pow_cast]
  exact Int.bmod_emod

theorem sval_of {L : ℕ} {x : List ℕ} {v : ℤ} (h : (val x : ℤ) ≡ v [ZMOD (W : ℤ) ^ L]) :
    sval L x = wrap L v := by
  rw [← pow_cast] at h
  exact bmod_congr h

theorem code_sval {L : ℕ} (hL : 0 < L) {x : List ℕ} (h : IsL L x) : Code L x (sval L x) := by
  have hp : ((2 ^ (64 * L) : ℕ) : ℤ) = 2 * 2 ^ (64 * L - 1) := by
    rw [pow_cast, two_pow_half hL]
  have h0 : (0 : ℤ) < 2 ^ (64 * L - 1) := by positivity
  have h1 := Int.le_bmod (x := (val x : ℤ)) (m := 2 ^ (64 * L)) (by positivity)
  have h2 := Int.bmod_lt (x := (val x : ℤ)) (m := 2 ^ (64 * L)) (by positivity)
  rw [hp] at h1 h2
  refine ⟨h, ?_, ?_, (sval_modEq L x).symm⟩
  · unfold sval; omega
  · unfold sval; omega

theorem sval_eq_of_code {L : ℕ} (hL : 0 < L) {x : List ℕ} {v : ℤ} (h : Code L x v) : sval L x = v :=
  (code_sval hL h.isL).functional hL h

/-- **C43** Addition, subtraction, negation, multiplication and multiplication by an `i64` are
the integer operations reduced into the range of the type, for every `L` and all operands. -/
theorem C43_arith (L : ℕ) (x y : List ℕ) (hx : IsLInt L x) (hy : IsLInt L y) (o : ℤ)
    (o1 : -2 ^ 63 ≤ o) (o2 : o < 2 ^ 63) :
    (IsLInt L (lAdd x y) ∧ sval L (lAdd x y) = wrap L (sval L x + sval L y)) ∧
    (IsLInt L (lSub x y) ∧ sval L (lSub x y) = wrap L (sval L x - sval L y)) ∧
    (IsLInt L (lNeg x) ∧ sval L (lNeg x) = wrap L (-sval L x)) ∧
    (IsLInt L (lMul x y) ∧ sval L (lMul x y) = wrap L (sval L x * sval L y)) ∧
    (IsLInt L (lMulI64 x o) ∧ sval L (lMulI64 x o) = wrap L (sval L x * o)) := by
  have ex := (sval_modEq L x).symm
  have ey := (sval_modEq L y).symm
  obtain ⟨a1, a2⟩ := lAdd_spec hx.isL hy.isL
  obtain ⟨s1, s2⟩ := lSub_spec hx.isL hy.isL
  obtain ⟨n1, n2⟩ := lNeg_spec hx.isL
  obtain ⟨m1, m2⟩ := lMul_spec hx.isL hy.isL
  obtain ⟨i1, i2⟩ := lMulI64_spec hx.isL o o1 o2
  refine ⟨⟨.of a1, sval_of (a2.trans (ex.add ey))⟩, ⟨.of s1, sval_of (s2.trans (ex.sub ey))⟩,
    ⟨.of n1, sval_of (n2.trans ex.neg)⟩, ⟨.of m1, sval_of (m2.trans (ex.mul ey))⟩,
    ⟨.of i1, sval_of ?_⟩⟩
  rw [mul_comm (sval L x)]
  exact i2.trans (ex.mul_left o)

/-- **C43** When the exact result fits the type nothing is lost: `wrap` is the identity on the range. -/
theorem C43_wrap (L : ℕ) (hL : 0 < L) (v : ℤ) (h1 : -2 ^ (64 * L - 1) ≤ v) (h2 : v < 2 ^ (64 * L - 1)) :
    wrap L v = v := by
  have hp : ((2 ^ (64 * L) : ℕ) : ℤ) = 2 * 2 ^ (64 * L - 1) := by
    rw [pow_cast, two_pow_half hL]
  apply Int.bmod_eq_of_le
  · rw [hp]; omega
  · rw [hp]; omega

/-- **C43** The right shift (by 1 to 63 bits, as documented) is division rounding towards minus infinity. -/
theorem C43_shr (L : ℕ) (hL : 0 < L) (x : List ℕ) (hx : IsLInt L x) (b : ℕ) (b1 : 1 ≤ b) (b2 : b ≤ 63) :
    IsLInt L (lShr x b) ∧ sval L (lShr x b) = Int.fdiv (sval L x) (2 ^ b) := by
  have h := lShr_floor hL (by omega : b ≤ 64) (code_sval hL hx.isL)
  refine ⟨.of h.isL, ?_⟩
  rw [sval_eq_of_code hL h, Int.fdiv_eq_ediv_of_nonneg _ (by positivity)]

/-- **C43** `is_negative` is the sign, equality of words is equality of numbers. -/
theorem C43_sign (L : ℕ) (hL : 0 < L) (x y : List ℕ) (hx : IsLInt L x) (hy : IsLInt L y) :
    (isNeg x = true ↔ sval L x < 0) ∧ (x = y ↔ sval L x = sval L y) := by
  have cx := code_sval hL hx.isL
  have cy := code_sval hL hy.isL
  constructor
  · rw [isNeg_spec hL cx, decide_eq_true_eq]
  · constructor
    · rintro rfl; rfl
    · intro h
      rw [← h] at cy
      exact cx.inj hL cy

/-- **C43** `new` pads the words of a number with zeros and panics exactly when there are too many;
`ZERO` and `ONE` are `0` and `1`. -/
theorem C43_new (L : ℕ) (hL : 0 < L) (d : List ℕ) (hd : ∀ w ∈ d, w < 2 ^ 64) :
    (lNew L d = none ↔ L < d.length) ∧
    (∀ x, lNew L d = some x → IsLInt L x ∧ val x = val d) ∧
    sval L (lZero L) = 0 ∧ sval L (lOne L) = 1 := by
  unfold lNew
  refine ⟨by split <;> simp <;> omega, ?_, sval_eq_of_code hL code_zero, sval_eq_of_code hL (code_one hL)⟩
  intro x hx
  split at hx
  · rename_i hl
    injection hx with hx
    subst hx
    refine ⟨⟨by simp; omega, ?_⟩, ?_⟩
    · intro w hw
      rcases List.mem_append.mp hw with hw | hw
      · exact hd w hw
      · rw [List.eq_of_mem_replicate hw]; norm_num
    · rw [val_append, val_replicate]; simp
  · cases hx

/-- `-3` times `2^64 + 5` in `LInt<2>`, and its shift by one bit: the operands meet the hypotheses. -/
example : IsLInt 2 [2 ^ 64 - 3, 2 ^ 64 - 1] ∧ sval 2 [2 ^ 64 - 3, 2 ^ 64 - 1] = -3 ∧
    sval 2 (lMul [2 ^ 64 - 3, 2 ^ 64 - 1] [5, 1]) = -3 * (2 ^ 64 + 5) ∧
    sval 2 (lShr [2 ^ 64 - 3, 2 ^ 64 - 1] 1) = -2 := by
  refine ⟨⟨rfl, by decide⟩, ?_, ?_, ?_⟩ <;> decide +kernel

end Halo2.Props
