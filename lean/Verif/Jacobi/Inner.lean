import Verif.Jacobi.LInt
import Verif.Jacobi.Symbol

/-!
# The inner loop of `jacobi`

`A`, `B` are the values that `n`, `d` would have if they were updated exactly along with the
approximations `a`, `b`.
-/

namespace Halo2.Jacobi

open Halo2.Inverse (u64 i64 asU64 tz i64_id)

/-- The invariant linking the approximations and the update factors to the exact values; `J` is
the value the whole computation has to return. -/
structure Inv (n d J : ℤ) (s : Inner) (A B : ℤ) : Prop where
  i30 : s.i ≤ 30
  eA : 2 ^ (30 - s.i) * A = n * s.u0 + d * s.u1
  eB : 2 ^ (30 - s.i) * B = n * s.v0 + d * s.v1
  cu : |s.u0| + |s.u1| ≤ 2 ^ (30 - s.i)
  cv : |s.v0| + |s.v1| ≤ 2 ^ (30 - s.i)
  a64 : s.a < 2 ^ 64
  b64 : s.b < 2 ^ 64
  cA : (2 : ℤ) ^ (s.i + 2) ∣ s.a - A
  cB : (2 : ℤ) ^ (s.i + 2) ∣ s.b - B
  odd : B % 2 = 1
  pos : ∃ g h : ℤ, 0 ≤ g ∧ 0 ≤ h ∧ d = g * A + h * B
  sym : sg s.t * js A B = J

theorem pow_le_30 {k : ℕ} (h : k ≤ 30) : (2 : ℤ) ^ k ≤ 2 ^ 30 := pow_le_pow_right₀ (by norm_num) h

/-- The exact pair after a round. -/
theorem Inv.half {n d J : ℤ} {s : Inner} {A B : ℤ} (h : Inv n d J s A B) (hi : s.i ≠ 0)
    (ha : s.a % 2 = 0) : ∃ z A', 1 ≤ z ∧ z ≤ s.i ∧ A = 2 ^ z * A' ∧ s.halfStep.i = s.i - z ∧
      s.halfStep.a = s.a / 2 ^ z ∧ s.a = 2 ^ z * s.halfStep.a ∧ s.halfStep.b = s.b ∧ Inv n d J s.halfStep A' B := by
  obtain ⟨t1, t2, t3⟩ := Inverse.tz_spec 64 s.a
  have tp := tz_pos ha
  obtain ⟨z, hz⟩ : ∃ z, z = min s.i (tz 64 s.a) := ⟨_, rfl⟩
  have z1 : 1 ≤ z := by omega
  have z2 : z ≤ s.i := by omega
  have hdz : 2 ^ z ∣ s.a := (pow_dvd_pow 2 (by omega)).trans t2
  obtain ⟨m, hm⟩ := hdz
  have hdv : s.a / 2 ^ z = m := by rw [hm, Nat.mul_div_cancel_left _ (by positivity)]
  have hA : (2 : ℤ) ^ z ∣ A := by
    have h1 : (2 : ℤ) ^ z ∣ s.a - A := (pow_dvd_pow 2 (by omega)).trans h.cA
    have h2 : (2 : ℤ) ^ z ∣ s.a := by rw [hm]; push_cast; exact dvd_mul_right _ _
    have := dvd_sub h2 h1
    rwa [sub_sub_cancel] at this
  obtain ⟨A', hA'⟩ := hA
  have hi30 := h.i30
  have hzp : (2 : ℤ) ^ (30 - (s.i - z)) = 2 ^ z * 2 ^ (30 - s.i) := by
    rw [← pow_add]; congr 1; omega
  have hb30 := pow_le_30 (k := 30 - (s.i - z)) (by omega)
  have cv := h.cv
  have hv0 : |s.v0 * 2 ^ z| = 2 ^ z * |s.v0| := by
    rw [abs_mul, abs_of_pos (by positivity : (0 : ℤ) < 2 ^ z), mul_comm]
  have hv1 : |s.v1 * 2 ^ z| = 2 ^ z * |s.v1| := by
    rw [abs_mul, abs_of_pos (by positivity : (0 : ℤ) < 2 ^ z), mul_comm]
  have hsum : |s.v0 * 2 ^ z| + |s.v1 * 2 ^ z| ≤ 2 ^ (30 - (s.i - z)) := by
    rw [hv0, hv1, hzp, ← mul_add]
    exact mul_le_mul_of_nonneg_left cv (by positivity)
  have n0 := abs_nonneg (s.v0 * 2 ^ z)
  have n1 := abs_nonneg (s.v1 * 2 ^ z)
  have i0 : i64 (s.v0 * 2 ^ z) = s.v0 * 2 ^ z := by
    apply i64_id
    · have := neg_abs_le (s.v0 * 2 ^ z); omega
    · have := le_abs_self (s.v0 * 2 ^ z); omega
  have i1 : i64 (s.v1 * 2 ^ z) = s.v1 * 2 ^ z := by
    apply i64_id
    · have := neg_abs_le (s.v1 * 2 ^ z); omega
    · have := le_abs_self (s.v1 * 2 ^ z); omega
  have hst : s.halfStep = ⟨s.i - z, m, s.b, s.u0, s.u1, s.v0 * 2 ^ z, s.v1 * 2 ^ z,
      s.t ^^^ ((s.b ^^^ s.b / 2) &&& (z * 2))⟩ := by
    unfold Inner.halfStep
    dsimp only
    rw [← hz, i0, i1, hdv]
  refine ⟨z, A', z1, z2, hA', by rw [hst], by rw [hst, hdv], by rw [hst]; exact hm, by rw [hst], ?_⟩
  rw [hst]
  have hpow : (2 : ℤ) ^ (s.i + 2) = 2 ^ z * 2 ^ (s.i - z + 2) := by
    rw [← pow_add]; congr 1; omega
  refine ⟨by simp only; omega, ?_, ?_, ?_, hsum, ?_, h.b64, ?_, ?_, h.odd, ?_, ?_⟩
  · simp only
    rw [hzp, ← h.eA, hA']; ring
  · simp only
    rw [hzp]; linear_combination 2 ^ z * h.eB
  · simp only
    rw [hzp]
    have := h.cu
    have hp : (1 : ℤ) ≤ 2 ^ z := one_le_pow₀ (by norm_num)
    have h0 : (0 : ℤ) ≤ 2 ^ (30 - s.i) := by positivity
    nlinarith
  · simp only
    rw [← hdv]; exact lt_of_le_of_lt (Nat.div_le_self _ _) h.a64
  · simp only
    have h1 := h.cA
    rw [hm, hA', hpow] at h1
    push_cast at h1
    rw [← mul_sub] at h1
    exact (mul_dvd_mul_iff_left (by positivity)).mp h1
  · simp only
    exact (pow_dvd_pow 2 (by omega)).trans h.cB
  · obtain ⟨g, k, hg, hk, e⟩ := h.pos
    exact ⟨g * 2 ^ z, k, by positivity, hk, by rw [e, hA']; ring⟩
  · simp only
    have h8 : (8 : ℤ) ∣ s.b - B := by
      have : (2 : ℤ) ^ 3 ∣ s.b - B := (pow_dvd_pow 2 (by omega)).trans h.cB
      simpa using this
    rw [sg_xor, mul_assoc, ← js_half A' z h.odd h8, ← hA']
    exact h.sym

theorem Inv.parity {n d J : ℤ} {s : Inner} {A B : ℤ} (h : Inv n d J s A B) :
    A % 2 = (s.a : ℤ) % 2 := by
  have h2 : (2 : ℤ) ∣ s.a - A := by
    have : (2 : ℤ) ^ 1 ∣ s.a - A := (pow_dvd_pow 2 (by omega)).trans h.cA
    simpa using this
  omega

/-- `A` and `B` are not both negative (or zero). -/
theorem Inv.notboth {n d J : ℤ} {s : Inner} {A B : ℤ} (h : Inv n d J s A B) (hd : 0 < d) :
    0 < A ∨ 0 < B := by
  by_contra hc
  push Not at hc
  obtain ⟨g, k, hg, hk, e⟩ := h.pos
  have h1 : g * A ≤ 0 := mul_nonpos_of_nonneg_of_nonpos hg hc.1
  have h2 : k * B ≤ 0 := mul_nonpos_of_nonneg_of_nonpos hk hc.2
  omega

theorem Inv.swap {n d J : ℤ} {s : Inner} {A B : ℤ} (h : Inv n d J s A B) (hd : 0 < d)
    (ha : s.a % 2 = 1) : Inv n d J s.swap B A := by
  have hA : A % 2 = 1 := by have := h.parity; omega
  have four : ∀ x : ℤ, (2 : ℤ) ^ (s.i + 2) ∣ x → (4 : ℤ) ∣ x := by
    intro x hx
    have : (2 : ℤ) ^ 2 ∣ x := (pow_dvd_pow 2 (by omega)).trans hx
    simpa using this
  refine ⟨h.i30, h.eB, h.eA, h.cv, h.cu, h.b64, h.a64, h.cB, h.cA, hA, ?_, ?_⟩
  · obtain ⟨g, k, hg, hk, e⟩ := h.pos
    exact ⟨k, g, hk, hg, by rw [e]; ring⟩
  · have e := js_swap h.odd hA (h.notboth hd).symm (four _ h.cB) (four _ h.cA)
    change sg (s.t ^^^ (s.b &&& s.a)) * js B A = J
    rw [sg_xor, e, ← mul_assoc, mul_assoc (sg s.t), sg_sq, mul_one]
    exact h.sym

/-- The subtraction step. -/
theorem Inv.sub {n d J : ℤ} {s : Inner} {A B : ℤ} (h : Inv n d J s A B) (hi : s.i ≠ 0)
    (ha : s.a % 2 = 1) (hab : s.b ≤ s.a) : ∃ A', A - B = 2 * A' ∧ Inv n d J s.subStep A' B := by
  have hA : A % 2 = 1 := by have := h.parity; omega
  have hB := h.odd
  obtain ⟨A', hA'⟩ : ∃ A', A - B = 2 * A' := ⟨(A - B) / 2, by omega⟩
  have hbo : s.b % 2 = 1 := by
    have h2 : (2 : ℤ) ∣ s.b - B := by
      have : (2 : ℤ) ^ 1 ∣ s.b - B := (pow_dvd_pow 2 (by omega)).trans h.cB
      simpa using this
    omega
  have hi30 := h.i30
  have hzp : (2 : ℤ) ^ (30 - (s.i - 1)) = 2 * 2 ^ (30 - s.i) := by
    rw [← pow_succ']; congr 1; omega
  have hb30 := pow_le_30 (k := 30 - (s.i - 1)) (by omega)
  have cu := h.cu
  have cv := h.cv
  have s0 := abs_sub s.u0 s.v0
  have s1 := abs_sub s.u1 s.v1
  have d0 : |s.v0 * 2| = 2 * |s.v0| := by rw [abs_mul, mul_comm]; rfl
  have d1 : |s.v1 * 2| = 2 * |s.v1| := by rw [abs_mul, mul_comm]; rfl
  have p0 := abs_nonneg s.u0
  have p1 := abs_nonneg s.u1
  have p2 := abs_nonneg s.v0
  have p3 := abs_nonneg s.v1
  have q0 := abs_nonneg (s.u0 - s.v0)
  have q1 := abs_nonneg (s.u1 - s.v1)
  have i0 : i64 (s.u0 - s.v0) = s.u0 - s.v0 := by
    apply i64_id
    · have := neg_abs_le (s.u0 - s.v0); omega
    · have := le_abs_self (s.u0 - s.v0); omega
  have i1 : i64 (s.u1 - s.v1) = s.u1 - s.v1 := by
    apply i64_id
    · have := neg_abs_le (s.u1 - s.v1); omega
    · have := le_abs_self (s.u1 - s.v1); omega
  have i2 : i64 (s.v0 * 2) = s.v0 * 2 := by
    apply i64_id
    · have := neg_abs_le (s.v0 * 2); omega
    · have := le_abs_self (s.v0 * 2); omega
  have i3 : i64 (s.v1 * 2) = s.v1 * 2 := by
    apply i64_id
    · have := neg_abs_le (s.v1 * 2); omega
    · have := le_abs_self (s.v1 * 2); omega
  have hst : s.subStep = ⟨s.i - 1, (s.a - s.b) / 2, s.b, s.u0 - s.v0, s.u1 - s.v1, s.v0 * 2,
      s.v1 * 2, s.t ^^^ (s.b ^^^ s.b / 2)⟩ := by
    unfold Inner.subStep
    rw [i0, i1, i2, i3]
  refine ⟨A', hA', ?_⟩
  rw [hst]
  have hpow : (2 : ℤ) ^ (s.i + 2) = 2 * 2 ^ (s.i - 1 + 2) := by
    rw [← pow_succ']; congr 1; omega
  have hhalf : (s.a : ℤ) - s.b = 2 * (((s.a - s.b) / 2 : ℕ) : ℤ) := by omega
  refine ⟨by simp only; omega, ?_, ?_, ?_, ?_, ?_, h.b64, ?_, ?_, h.odd, ?_, ?_⟩
  · simp only
    rw [hzp]
    linear_combination h.eA - h.eB - 2 ^ (30 - s.i) * hA'
  · simp only
    rw [hzp]; linear_combination 2 * h.eB
  · simp only
    rw [hzp]; omega
  · simp only
    rw [hzp, d0, d1]; omega
  · simp only
    have := h.a64
    omega
  · simp only
    have h1 := dvd_sub h.cA h.cB
    have e : ((s.a : ℤ) - A) - (s.b - B) = 2 * ((((s.a - s.b) / 2 : ℕ) : ℤ) - A') := by
      linear_combination hhalf - hA'
    rw [e, hpow] at h1
    exact (mul_dvd_mul_iff_left (by norm_num)).mp h1
  · simp only
    exact (pow_dvd_pow 2 (by omega)).trans h.cB
  · obtain ⟨g, k, hg, hk, e⟩ := h.pos
    refine ⟨g * 2, k + g, by positivity, by positivity, ?_⟩
    rw [e]
    linear_combination g * hA'
  · simp only
    have h8 : (8 : ℤ) ∣ s.b - B := by
      have : (2 : ℤ) ^ 3 ∣ s.b - B := (pow_dvd_pow 2 (by omega)).trans h.cB
      simpa using this
    have e := js_half A' 1 h.odd h8
    rw [sg_and_pow, pow_one, pow_one, ← hA', js_sub] at e
    rw [sg_xor, mul_assoc, ← e]
    exact h.sym

/-! ## Progress

`m ≥ c ≥ 0` are the larger and the smaller of the two arguments. -/

/-- What is known about the exact pair after some rounds: both numbers are below `m`, or `m` is
still the denominator and the numerator is `c` or `c - m` divided by a power of two. -/
inductive Phase (m c : ℤ) (s : Inner) (A B : ℤ) : Prop
  | low (hA : |A| < m) (hB : |B| < m)
  | one (hB : B = m) (hA : 2 ^ (30 - s.i) * A = c) (hb : 2 ^ 63 ≤ s.b)
      (ha : 2 ^ (30 - s.i) * s.a < s.b + 2 ^ 32)
      (heq : s.i = 30 → s.b ≤ s.a → m < 2 * c) (hlt : s.i = 30 → s.a < s.b → c < m)
  | two (hB : B = m) (hA : 2 ^ (30 - s.i) * A = c - m) (hb : 2 ^ 63 ≤ s.b) (ha : s.a < 2 ^ 31)
      (hi : s.i < 30) (hcm : m < 2 * c)
  | top (hA : A = m) (hB : B = c) (hcm : c < m) (hi : s.i = 30)
      (ha : s.a < s.b → 2 ^ 63 ≤ s.a ∧ s.b < s.a + 2 ^ 32 ∧ m < 2 * c)

theorem low_sub {m A B A' : ℤ} (hA : |A| < m) (hB : |B| < m) (h : A - B = 2 * A') : |A'| < m := by
  have h1 := abs_lt.mp hA
  have h2 := abs_lt.mp hB
  exact abs_lt.mpr ⟨by omega, by omega⟩

theorem low_half {m A A' : ℤ} {z : ℕ} (hA : |A| < m) (h : A = 2 ^ z * A') : |A'| < m := by
  have hp : (1 : ℤ) ≤ 2 ^ z := one_le_pow₀ (by norm_num)
  rw [h, abs_mul, abs_of_pos (by positivity : (0 : ℤ) < 2 ^ z)] at hA
  have := abs_nonneg A'
  nlinarith

theorem two_pow_sub {i z : ℕ} (h : z ≤ i) (h2 : i ≤ 30) :
    (2 : ℤ) ^ (30 - (i - z)) = 2 ^ (30 - i) * 2 ^ z := by
  rw [← pow_add]; congr 1; omega

/-- A value that is `c` (or `m - c`) divided by at least two is below `m`. -/
theorem abs_lt_of_mul {m c A : ℤ} {k : ℕ} (hk : 1 ≤ k) (hm : 0 < m) (hc : |c| ≤ m)
    (h : 2 ^ k * A = c) : |A| < m := by
  have hp : (2 : ℤ) ≤ 2 ^ k := by
    calc (2 : ℤ) = 2 ^ 1 := by norm_num
      _ ≤ 2 ^ k := pow_le_pow_right₀ (by norm_num) hk
  rw [← h, abs_mul, abs_of_pos (by positivity : (0 : ℤ) < 2 ^ k)] at hc
  have := abs_nonneg A
  nlinarith

/-- One round of the inner loop keeps the invariant and makes progress. -/
theorem step_spec {n d J m c : ℤ} {s : Inner} {A B : ℤ} (h : Inv n d J s A B) (hd : 0 < d)
    (hi : s.i ≠ 0) (hm : 0 < m) (hc0 : 0 ≤ c) (hcm : c ≤ m) (hp : Phase m c s A B) :
    s.step.i < s.i ∧ ∃ A' B', Inv n d J s.step A' B' ∧ Phase m c s.step A' B' := by
  have hi30 := h.i30
  unfold Inner.step
  by_cases ha : s.a % 2 = 1
  · rw [if_pos ha]
    have hbo : s.b % 2 = 1 := by
      have h2 : (2 : ℤ) ∣ s.b - B := by
        have : (2 : ℤ) ^ 1 ∣ s.b - B := (pow_dvd_pow 2 (by omega)).trans h.cB
        simpa using this
      have := h.odd
      omega
    by_cases hlt : s.a < s.b
    · rw [if_pos hlt]
      have hsw := h.swap hd ha
      obtain ⟨A', hA', hinv⟩ := hsw.sub hi hbo (by exact hlt.le)
      refine ⟨by change s.i - 1 < s.i; omega, A', A, hinv, ?_⟩
      cases hp with
      | low hA hB => exact .low (low_sub hB hA hA') hA
      | one hB hA hb hab heq hlt' =>
        have hAm : |A| < m := by
          by_cases h30 : s.i = 30
          · rw [h30] at hA
            have := hlt' h30 hlt
            simp only [Nat.sub_self, pow_zero, one_mul] at hA
            rw [hA, abs_of_nonneg hc0]
            exact this
          · exact abs_lt_of_mul (by omega) hm (abs_le.mpr ⟨by omega, hcm⟩) hA
        have hA0 : 0 ≤ A := by
          by_contra hn
          have : (0 : ℤ) < 2 ^ (30 - s.i) := by positivity
          nlinarith
        refine .low (abs_lt.mpr ?_) hAm
        have := abs_lt.mp hAm
        subst hB
        constructor <;> omega
      | two hB hA hb ha' hi' hcm' =>
        have hAm : |A| < m := abs_lt_of_mul (by omega) hm (abs_le.mpr ⟨by omega, by omega⟩) hA
        refine .low (abs_lt.mpr ?_) hAm
        have := abs_lt.mp hAm
        subst hB
        constructor <;> omega
      | top hA hB hcm' hi' ha' =>
        obtain ⟨x1, x2, x3⟩ := ha' hlt
        refine .two hA ?_ x1 ?_ ?_ x3
        · change 2 ^ (30 - (s.i - 1)) * A' = c - m
          rw [hi', ← hA, ← hB]
          norm_num
          linarith
        · change (s.b - s.a) / 2 < 2 ^ 31
          omega
        · change s.i - 1 < 30
          omega
    · rw [if_neg hlt]
      obtain ⟨A', hA', hinv⟩ := h.sub hi ha (by omega)
      refine ⟨by change s.i - 1 < s.i; omega, A', B, hinv, ?_⟩
      cases hp with
      | low hA hB => exact .low (low_sub hA hB hA') hB
      | one hB hA hb hab heq hlt' =>
        by_cases h30 : s.i = 30
        · have := heq h30 (by omega)
          rw [h30] at hab hA
          simp only [Nat.sub_self, pow_zero, one_mul] at hab hA
          refine .two hB ?_ hb ?_ ?_ this
          · change 2 ^ (30 - (s.i - 1)) * A' = c - m
            rw [h30, ← hA, ← hB]
            norm_num
            linarith
          · change (s.a - s.b) / 2 < 2 ^ 31
            omega
          · change s.i - 1 < 30
            omega
        · exfalso
          have : 2 ≤ 2 ^ (30 - s.i) := by
            calc 2 = 2 ^ 1 := by norm_num
              _ ≤ 2 ^ (30 - s.i) := Nat.pow_le_pow_right (by norm_num) (by omega)
          have := Nat.mul_le_mul_right s.a this
          omega
      | two hB hA hb ha' hi' hcm' => omega
      | top hA hB hcm' hi' ha' =>
        refine .low (abs_lt.mpr ?_) (by rw [hB, abs_of_nonneg hc0]; exact hcm')
        constructor <;> omega
  · rw [if_neg ha]
    obtain ⟨z, A', z1, z2, hA', hi', ha1, ha2, hb', hinv⟩ := h.half hi (by omega)
    refine ⟨by rw [hi']; omega, A', B, hinv, ?_⟩
    have e := two_pow_sub z2 hi30
    cases hp with
    | low hA hB => exact .low (low_half hA hA') hB
    | one hB hA hb hab heq hlt' =>
      refine .one hB ?_ (by rw [hb']; exact hb) ?_ (by rw [hi']; omega) (by rw [hi']; omega)
      · rw [hi', e, mul_assoc, ← hA', hA]
      · rw [hb', hi']
        have e' : 2 ^ (30 - (s.i - z)) = 2 ^ (30 - s.i) * 2 ^ z := by
          rw [← pow_add]; congr 1; omega
        rw [e', mul_assoc, ← ha2]
        exact hab
    | two hB hA hb ha' hi'' hcm' =>
      refine .two hB ?_ (by rw [hb']; exact hb) ?_ (by rw [hi']; omega) hcm'
      · rw [hi', e, mul_assoc, ← hA', hA]
      · rw [ha1]; exact lt_of_le_of_lt (Nat.div_le_self _ _) ha'
    | top hA hB hcm' hi'' ha' =>
      refine .low ?_ (by rw [hB, abs_of_nonneg hc0]; exact hcm')
      exact abs_lt_of_mul z1 hm (abs_le.mpr ⟨by omega, le_refl m⟩) (hA'.symm.trans hA)

/-- The whole inner loop. -/
theorem innerLoop_spec {n d J m c : ℤ} (hd : 0 < d) (hm : 0 < m) (hc0 : 0 ≤ c) (hcm : c ≤ m)
    (fuel : ℕ) (s : Inner) (A B : ℤ) (hf : s.i ≤ fuel) (h : Inv n d J s A B)
    (hp : Phase m c s A B) : (innerLoop fuel s).i = 0 ∧
      ∃ A' B', Inv n d J (innerLoop fuel s) A' B' ∧ Phase m c (innerLoop fuel s) A' B' := by
  induction fuel generalizing s A B with
  | zero => exact ⟨by rw [innerLoop]; omega, A, B, h, hp⟩
  | succ fuel ih =>
    rw [innerLoop]
    by_cases hi : s.i = 0
    · rw [if_pos hi]; exact ⟨hi, A, B, h, hp⟩
    · rw [if_neg hi]
      obtain ⟨h1, A', B', h2, h3⟩ := step_spec h hd hi hm hc0 hcm hp
      exact ih s.step A' B' (by omega) h2 h3

end Halo2.Jacobi
