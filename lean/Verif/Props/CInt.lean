import Verif.Inverse.CInt
import Verif.Props.LInt

/-!
# C95: the wrapping signed integers of the inverter
-/

namespace Halo2.Inverse

theorem subLoop_eq (x y : List ℕ) (c : ℕ) : subLoop x y c = addLoop x (y.map (· ^^^ MASK)) c := by
  induction x generalizing y c with
  | nil => cases y <;> rfl
  | cons a as ih =>
    cases y with
    | nil => rfl
    | cons b bs => rw [subLoop, List.map_cons, addLoop, ih]

theorem cSub_spec {L : ℕ} {x y : List ℕ} (hx : IsC L x) (hy : IsC L y) :
    IsC L (cSub x y) ∧ (uval 62 (cSub x y) : ℤ) ≡ uval 62 x - uval 62 y [ZMOD 2 ^ (62 * L)] := by
  obtain ⟨m1, m2⟩ := map_xor_mask y hy.wf
  rw [cSub, subLoop_eq]
  obtain ⟨h1, h2, k, h3⟩ := addLoop_spec x _ 1 hx.wf m1 (by rw [List.length_map, hx.len, hy.len]) le_rfl
  refine ⟨⟨by rw [h1, hx.len], h2⟩, ?_⟩
  rw [hx.len] at h3
  rw [hy.len] at m2
  have h4 : (uval 62 (addLoop x (y.map (· ^^^ MASK)) 1) : ℤ) + 2 ^ (62 * L) * k = uval 62 x + uval 62 (y.map (· ^^^ MASK)) + 1 := by
    exact_mod_cast h3
  have m3 : (uval 62 (y.map (· ^^^ MASK)) : ℤ) + uval 62 y + 1 = 2 ^ (62 * L) := by exact_mod_cast m2
  rw [Int.modEq_iff_dvd]
  exact ⟨(k : ℤ) - 1, by linear_combination -h4 - m3⟩

theorem mulRow_spec (x : ℕ) (acc ys : List ℕ) (c : ℕ) (hx : x < 2 ^ 62) (hc : c < 2 ^ 62) (ha : CWf 62 acc) (hy : CWf 62 ys)
    (hl : acc.length ≤ ys.length) :
    (mulRow x acc ys c).length = acc.length ∧ CWf 62 (mulRow x acc ys c) ∧
      (uval 62 (mulRow x acc ys c) : ℤ) ≡ uval 62 acc + x * uval 62 ys + c [ZMOD 2 ^ (62 * acc.length)] := by
  induction acc generalizing ys c with
  | nil =>
    refine ⟨by simp [mulRow], by simp [mulRow, CWf], ?_⟩
    simp only [List.length_nil, mul_zero, pow_zero]
    exact Int.modEq_one
  | cons a acc ih =>
    cases ys with
    | nil => simp at hl
    | cons y ys =>
      rw [CWf.cons] at ha hy
      rw [mulRow]
      have hb : x * y ≤ (2 ^ 62 - 1) * (2 ^ 62 - 1) := Nat.mul_le_mul (by omega) (by omega)
      have ha1 := ha.1
      generalize hs : a + c + x * y = s
      have hs2 : s < 2 ^ 62 * 2 ^ 62 := by omega
      have e1 : s % 2 ^ 128 = s := Nat.mod_eq_of_lt (by omega)
      have e2 : u64 (s / 2 ^ 62) = s / 2 ^ 62 := by unfold u64; omega
      rw [e1, e2]
      obtain ⟨h1, h2, h3⟩ := ih ys (s / 2 ^ 62) (by omega) ha.2 hy.2 (by simpa using hl)
      refine ⟨by rw [List.length_cons, List.length_cons, h1], by rw [CWf.cons]; exact ⟨Nat.mod_lt _ (by decide), h2⟩, ?_⟩
      rw [Int.modEq_iff_dvd] at h3 ⊢
      obtain ⟨k, hk⟩ := h3
      refine ⟨k, ?_⟩
      have h4 : ((s % 2 ^ 62 : ℕ) : ℤ) + 2 ^ 62 * ((s / 2 ^ 62 : ℕ) : ℤ) = s := by exact_mod_cast Nat.mod_add_div s (2 ^ 62)
      have h5 : (a : ℤ) + c + x * y = s := by exact_mod_cast hs
      generalize s % 2 ^ 62 = s0 at *
      generalize s / 2 ^ 62 = s1 at *
      simp only [uval, List.length_cons, Nat.mul_add, Nat.mul_one, pow_add]
      push_cast
      linear_combination (2 ^ 62 : ℤ) * hk - h4 + h5

theorem mulRows_spec (y xs acc : List ℕ) (hx : CWf 62 xs) (ha : CWf 62 acc) (hy : CWf 62 y)
    (hl : acc.length = xs.length) (hly : xs.length ≤ y.length) :
    (mulRows y xs acc).length = xs.length ∧ CWf 62 (mulRows y xs acc) ∧
      (uval 62 (mulRows y xs acc) : ℤ) ≡ uval 62 acc + uval 62 xs * uval 62 y [ZMOD 2 ^ (62 * xs.length)] := by
  induction xs generalizing acc with
  | nil =>
    refine ⟨by simp [mulRows], by simp [mulRows, CWf], ?_⟩
    simp only [List.length_nil, mul_zero, pow_zero]
    exact Int.modEq_one
  | cons x xs ih =>
    rw [CWf.cons] at hx
    rw [mulRows]
    obtain ⟨r1, r2, r3⟩ := mulRow_spec x acc y 0 hx.1 (by decide) ha hy (by omega)
    generalize mulRow x acc y 0 = r at *
    cases r with
    | nil => simp at r1; rw [← r1] at hl; simp at hl
    | cons r0 r =>
      rw [CWf.cons] at r2
      simp only [List.headD_cons, List.tail_cons]
      obtain ⟨h1, h2, h3⟩ := ih r hx.2 r2.2 (by simp at r1 hl; omega) (by simp at hly; omega)
      refine ⟨by rw [List.length_cons, List.length_cons, h1], by rw [CWf.cons]; exact ⟨r2.1, h2⟩, ?_⟩
      rw [hl] at r3
      rw [Int.modEq_iff_dvd] at h3 r3 ⊢
      obtain ⟨k, hk⟩ := h3
      obtain ⟨j, hj⟩ := r3
      refine ⟨k + j, ?_⟩
      simp only [uval, List.length_cons, Nat.mul_add, Nat.mul_one, pow_add] at hj ⊢
      push_cast at hj ⊢
      linear_combination (2 ^ 62 : ℤ) * hk + hj

theorem cMul_spec {L : ℕ} {x y : List ℕ} (hx : IsC L x) (hy : IsC L y) :
    IsC L (cMul x y) ∧ (uval 62 (cMul x y) : ℤ) ≡ uval 62 x * uval 62 y [ZMOD 2 ^ (62 * L)] := by
  obtain ⟨h1, h2, h3⟩ := mulRows_spec y x (List.replicate x.length 0) hx.wf
    (by intro c hc; rw [List.eq_of_mem_replicate hc]; decide) hy.wf (by simp) (by rw [hx.len, hy.len])
  refine ⟨⟨by rw [cMul, h1, hx.len], h2⟩, ?_⟩
  rw [uval_replicate_zero, hx.len] at h3
  rw [cMul, hx.len]
  simpa using h3

/-- `shift` rounds towards minus infinity. -/
theorem shift_floor {L : ℕ} (hL : 0 < L) {x : List ℕ} {v : ℤ} (h : Code L x v) : Code L (shift x) (v / 2 ^ 62) := by
  obtain ⟨l1, l2⟩ := lowest_spec hL h
  have hneg := isNeg_spec hL h
  obtain ⟨⟨hl, hw⟩, lo, hi, he⟩ := h
  cases x with
  | nil => simp at hl; omega
  | cons c r =>
    change c < 2 ^ 62 at l1
    change (2 : ℤ) ^ 62 ∣ (c : ℤ) - v at l2
    rw [CWf.cons] at hw
    cases r with
    | nil =>
      simp only [List.length_cons, List.length_nil] at hl
      subst hl
      rw [show 62 * (0 + 1) - 1 = 61 from rfl] at lo hi
      rw [shift, hneg]
      simp only [List.tail_cons, List.nil_append]
      by_cases hv : v < 0
      · have e : v / 2 ^ 62 = -1 := by omega
        rw [e]
        simpa [hv, cMinusOne] using (code_minusOne (L := 1))
      · have e : v / 2 ^ 62 = 0 := by omega
        rw [e]
        simpa [hv, cZero] using (code_zero (L := 1))
    | cons c' r =>
      have hs : shift (c :: c' :: r) = shift (0 :: c' :: r) := by
        simp only [shift, isNeg, List.tail_cons, List.getLastD_cons]
      have hvq : v = 2 ^ 62 * (v / 2 ^ 62) + c := by omega
      rw [hs]
      refine shift_spec hL (v := v - c) ⟨⟨hl, ?_⟩, ?_, ?_, ?_⟩ (by omega)
      · rw [CWf.cons]; exact ⟨by decide, hw.2⟩
      · obtain ⟨n, hn⟩ : ∃ n, 62 * L - 1 = n + 62 := ⟨62 * L - 1 - 62, by
          simp only [List.length_cons] at hl; omega⟩
        rw [hn, pow_add] at lo ⊢
        generalize (2 : ℤ) ^ n = m at *
        omega
      · omega
      · simp only [uval] at he ⊢
        rw [Int.modEq_iff_dvd] at he ⊢
        obtain ⟨k, hk⟩ := he
        refine ⟨k, ?_⟩
        push_cast at hk ⊢
        linear_combination hk

end Halo2.Inverse

namespace Halo2.Props

open Halo2 Halo2.Inverse

/-- The number that `L` chunks of 62 bits stand for. -/
def cval (L : ℕ) (x : List ℕ) : ℤ := Int.bmod (uval 62 x) (2 ^ (62 * L))

/-- Reduction into the range of the type. -/
def cwrap (L : ℕ) (v : ℤ) : ℤ := Int.bmod v (2 ^ (62 * L))

/-- A value of the type. -/
def IsCInt (L : ℕ) (x : List ℕ) : Prop := x.length = L ∧ ∀ w ∈ x, w < 2 ^ 62

theorem IsCInt.isC {L : ℕ} {x : List ℕ} (h : IsCInt L x) : IsC L x := ⟨h.1, fun w hw => h.2 w hw⟩

theorem IsCInt.of {L : ℕ} {x : List ℕ} (h : IsC L x) : IsCInt L x := ⟨h.len, fun w hw => h.wf w hw⟩

theorem cval_modEq (L : ℕ) (x : List ℕ) : cval L x ≡ uval 62 x [ZMOD 2 ^ (62 * L)] := by
  have : ((2 ^ (62 * L) : ℕ) : ℤ) = 2 ^ (62 * L) := by push_cast; rfl
  rw [← this]
  exact Int.bmod_emod

theorem cval_of {L : ℕ} {x : List ℕ} {v : ℤ} (h : (uval 62 x : ℤ) ≡ v [ZMOD 2 ^ (62 * L)]) : cval L x = cwrap L v := by
  have : ((2 ^ (62 * L) : ℕ) : ℤ) = 2 ^ (62 * L) := by push_cast; rfl
  rw [← this] at h
  exact bmod_congr h

theorem code_cval {L : ℕ} (hL : 0 < L) {x : List ℕ} (h : IsC L x) : Code L x (cval L x) := by
  have hp : ((2 ^ (62 * L) : ℕ) : ℤ) = 2 * 2 ^ (62 * L - 1) := by
    rw [← Inverse.two_pow_half hL]; push_cast; rfl
  have h0 : (0 : ℤ) < 2 ^ (62 * L - 1) := by positivity
  have h1 := Int.le_bmod (x := (uval 62 x : ℤ)) (m := 2 ^ (62 * L)) (by positivity)
  have h2 := Int.bmod_lt (x := (uval 62 x : ℤ)) (m := 2 ^ (62 * L)) (by positivity)
  rw [hp] at h1 h2
  refine ⟨h, ?_, ?_, (cval_modEq L x).symm⟩
  · unfold cval; omega
  · unfold cval; omega

theorem cval_eq_of_code {L : ℕ} (hL : 0 < L) {x : List ℕ} {v : ℤ} (h : Inverse.Code L x v) : cval L x = v :=
  (code_cval hL h.isC).functional hL h

/-- **C95** Addition, subtraction, negation, multiplication and multiplication by an `i64` other than `i64::MIN` are the integer
operations reduced into the range of the type, for every number of chunks. -/
theorem C95_arith (L : ℕ) (x y : List ℕ) (hx : IsCInt L x) (hy : IsCInt L y) (o : ℤ) (o1 : -2 ^ 63 < o) (o2 : o < 2 ^ 63) :
    (IsCInt L (cAdd x y) ∧ cval L (cAdd x y) = cwrap L (cval L x + cval L y)) ∧
    (IsCInt L (cSub x y) ∧ cval L (cSub x y) = cwrap L (cval L x - cval L y)) ∧
    (IsCInt L (cNeg x) ∧ cval L (cNeg x) = cwrap L (-cval L x)) ∧
    (IsCInt L (cMul x y) ∧ cval L (cMul x y) = cwrap L (cval L x * cval L y)) ∧
    (IsCInt L (cMulI64 x o) ∧ cval L (cMulI64 x o) = cwrap L (o * cval L x)) := by
  have ex := (cval_modEq L x).symm
  have ey := (cval_modEq L y).symm
  obtain ⟨a1, a2⟩ := cAdd_spec hx.isC hy.isC
  obtain ⟨s1, s2⟩ := cSub_spec hx.isC hy.isC
  obtain ⟨n1, n2⟩ := cNeg_spec hx.isC
  obtain ⟨m1, m2⟩ := cMul_spec hx.isC hy.isC
  obtain ⟨i1, i2⟩ := cMulI64_spec hx.isC o o1 o2
  exact ⟨⟨.of a1, cval_of (a2.trans (ex.add ey))⟩, ⟨.of s1, cval_of (s2.trans (ex.sub ey))⟩, ⟨.of n1, cval_of (n2.trans ex.neg)⟩,
    ⟨.of m1, cval_of (m2.trans (ex.mul ey))⟩, ⟨.of i1, cval_of (i2.trans (ex.mul_left o))⟩⟩

/-- **C95** The shift divides by `2^62`, rounding towards minus infinity; `is_negative` is the sign; equality of chunks is equality of
numbers; `lowest` is the number modulo `2^62`; the constants are `0`, `1` and `-1`. -/
theorem C95_sign (L : ℕ) (hL : 0 < L) (x y : List ℕ) (hx : IsCInt L x) (hy : IsCInt L y) :
    (IsCInt L (shift x) ∧ cval L (shift x) = Int.fdiv (cval L x) (2 ^ 62)) ∧ (Inverse.isNeg x = true ↔ cval L x < 0) ∧
    (x = y ↔ cval L x = cval L y) ∧ ((lowest x : ℤ) = cval L x % 2 ^ 62) ∧
    cval L (cZero L) = 0 ∧ cval L (cOne L) = 1 ∧ cval L (cMinusOne L) = -1 := by
  have cx := code_cval hL hx.isC
  have cy := code_cval hL hy.isC
  refine ⟨⟨.of (shift_floor hL cx).isC, ?_⟩, ?_, ⟨fun h => h ▸ rfl, fun h => ?_⟩, ?_, cval_eq_of_code hL code_zero,
    cval_eq_of_code hL (code_one hL), cval_eq_of_code hL code_minusOne⟩
  · rw [cval_eq_of_code hL (shift_floor hL cx), Int.fdiv_eq_ediv_of_nonneg _ (by positivity)]
  · rw [Inverse.isNeg_spec hL cx, decide_eq_true_eq]
  · rw [← h] at cy
    exact cx.inj cy
  · obtain ⟨l1, l2⟩ := lowest_spec hL cx
    omega

/-- **C95** Numbers within the range of the type are not changed by the reduction. -/
theorem C95_wrap (L : ℕ) (hL : 0 < L) (v : ℤ) (h1 : -2 ^ (62 * L - 1) ≤ v) (h2 : v < 2 ^ (62 * L - 1)) : cwrap L v = v := by
  have hp : ((2 ^ (62 * L) : ℕ) : ℤ) = 2 * 2 ^ (62 * L - 1) := by
    rw [← Inverse.two_pow_half hL]; push_cast; rfl
  apply Int.bmod_eq_of_le
  · rw [hp]; omega
  · rw [hp]; omega

/-- **C95** The factor `i64::MIN` is excluded for a reason: a release build negates it to itself and extends its sign, so that `1` times
`i64::MIN` comes out as another number. -/
theorem C95_min_false : cval 3 (cMulI64 (cOne 3) (-2 ^ 63)) ≠ cwrap 3 (-2 ^ 63 * cval 3 (cOne 3)) := by decide +kernel

/-- `-3` times `2^62 + 5` in two chunks, and the shift. -/
example : IsCInt 2 [2 ^ 62 - 3, 2 ^ 62 - 1] ∧ cval 2 [2 ^ 62 - 3, 2 ^ 62 - 1] = -3 ∧
    cval 2 (cMul [2 ^ 62 - 3, 2 ^ 62 - 1] [5, 1]) = -3 * (2 ^ 62 + 5) ∧ cval 2 (shift [2 ^ 62 - 3, 2 ^ 62 - 1]) = -1 ∧
    cval 2 (cMulI64 [5, 1] (-7)) = -7 * (2 ^ 62 + 5) := by
  refine ⟨⟨rfl, by decide⟩, ?_, ?_, ?_, ?_⟩ <;> decide +kernel

end Halo2.Props
