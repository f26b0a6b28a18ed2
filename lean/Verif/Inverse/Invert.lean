import Verif.Inverse.Convert
import Verif.Field.Lemmas

/-!
# The inverter terminates and returns the modular inverse times the adjuster
-/

namespace Halo2.Inverse

/-- The inverter is set up for the odd modulus `M` and the adjuster `A`. -/
structure Setup (L M : ℕ) (A : ℤ) (v : Inverter) : Prop where
  L2 : 2 ≤ L
  odd : M % 2 = 1
  small : M < 2 ^ (62 * L - 64)
  mod : Code L v.modulus M
  adj : Code L v.adjuster A
  adj0 : 0 ≤ A
  adj1 : A < M
  inv0 : 0 ≤ v.inverse
  inv1 : v.inverse < 2 ^ 62
  inv : (2 : ℤ) ^ 62 ∣ v.inverse * M - 1

theorem pow_room {L : ℕ} (hL : 2 ≤ L) : (2 : ℤ) ^ (62 * L - 1) = 2 ^ 63 * 2 ^ (62 * L - 64) := by
  rw [← pow_add]; congr 1; omega

/-- The linear combinations computed by `fg` and `de` fit. -/
theorem comb_spec {L : ℕ} {x y : List ℕ} {X Y : ℤ} (hx : Code L x X) (hy : Code L y Y)
    (a b : ℤ) (hab : |a| + |b| ≤ 2 ^ 62) :
    IsC L (cAdd (cMulI64 x a) (cMulI64 y b)) ∧
      (uval 62 (cAdd (cMulI64 x a) (cMulI64 y b)) : ℤ) ≡ a * X + b * Y [ZMOD 2 ^ (62 * L)] := by
  have ha := (le_of_add_abs hab).1
  have hb := (le_of_add_abs hab).2
  rw [abs_le] at ha hb
  obtain ⟨m1, m2⟩ := cMulI64_spec hx.isC a (by omega) (by omega)
  obtain ⟨n1, n2⟩ := cMulI64_spec hy.isC b (by omega) (by omega)
  obtain ⟨s1, s2⟩ := cAdd_spec m1 n1
  refine ⟨s1, s2.trans (Int.ModEq.add ?_ ?_)⟩
  · exact m2.trans (hx.eq.mul_left a)
  · exact n2.trans (hy.eq.mul_left b)

theorem comb_abs {a b X Y B M : ℤ} (hab : |a| + |b| ≤ B) (hX : |X| ≤ M) (hY : |Y| ≤ M) :
    |a * X + b * Y| ≤ B * M := by
  have h1 := abs_add_le (a * X) (b * Y)
  rw [abs_mul, abs_mul] at h1
  have h2 : |a| * |X| ≤ |a| * M := mul_le_mul_of_nonneg_left hX (abs_nonneg a)
  have h3 : |b| * |Y| ≤ |b| * M := mul_le_mul_of_nonneg_left hY (abs_nonneg b)
  have h4 : 0 ≤ M := le_trans (abs_nonneg X) hX
  have h5 : (|a| + |b|) * M ≤ B * M := mul_le_mul_of_nonneg_right hab h4
  linarith

/-- One row of `fg`. -/
theorem fgRow_spec {L : ℕ} {x y : List ℕ} {X Y M Z : ℤ} (hL : 2 ≤ L) (hM : M < 2 ^ (62 * L - 64))
    (hx : Code L x X) (hy : Code L y Y) (hX : |X| ≤ M) (hY : |Y| ≤ M) (a b : ℤ)
    (hab : |a| + |b| ≤ 2 ^ 62) (hZ : a * X + b * Y = 2 ^ 62 * Z) :
    Code L (shift (cAdd (cMulI64 x a) (cMulI64 y b))) Z := by
  obtain ⟨h1, h2⟩ := comb_spec hx hy a b hab
  refine shift_spec (by omega) (Code.of h1 h2 ?_) hZ
  have := comb_abs hab hX hY
  have h0 := abs_nonneg X
  rw [pow_room hL]
  generalize (2 : ℤ) ^ (62 * L - 64) = P at *
  omega

theorem i64_dvd (x : ℤ) : (2 : ℤ) ^ 62 ∣ i64 x - x := by
  have := i64_modEq' x (k := 62) (by decide)
  rw [Int.modEq_iff_dvd] at this
  obtain ⟨k, hk⟩ := this
  exact ⟨-k, by linear_combination -hk⟩

theorem emod_dvd (x n : ℤ) : n ∣ x % n - x := Int.dvd_sub_self_of_emod_eq rfl

theorem b2i_cases (b : Bool) : b2i b = 0 ∨ b2i b = 1 := by cases b <;> simp [b2i]

/-- The coefficient of the modulus in a row of `de`. -/
theorem deCoeff_spec {L M : ℕ} {A : ℤ} {v : Inverter} (h : Setup L M A v) {d e : List ℕ} {D E : ℤ}
    (hd : Code L d D) (he : Code L e E) (x y : ℤ) (hxy : |x| + |y| ≤ 2 ^ 62) :
    ∃ r, 0 ≤ r ∧ r < 2 ^ 62 ∧
      deCoeff v.inverse x y d e = x * b2i (D < 0) + y * b2i (E < 0) - r ∧
      (2 : ℤ) ^ 62 ∣ x * D + y * E + deCoeff v.inverse x y d e * M := by
  have hL : 0 < L := by have := h.L2; omega
  have hx := (le_of_add_abs hxy).1
  have hy := (le_of_add_abs hxy).2
  unfold deCoeff
  simp only
  rw [isNeg_spec hL hd, isNeg_spec hL he]
  obtain ⟨_, k1, hk1⟩ := lowest_spec hL hd
  obtain ⟨_, k2, hk2⟩ := lowest_spec hL he
  have hone : ∀ (z : ℤ) (b : Bool), |z| ≤ 2 ^ 62 → i64 (z * b2i b) = z * b2i b := by
    intro z b hz
    rw [abs_le] at hz
    rcases b2i_cases b with h1 | h1 <;> rw [h1] <;> exact i64_id (by omega) (by omega)
  have hmb : |x * b2i (D < 0) + y * b2i (E < 0)| ≤ 2 ^ 62 := by
    have := comb_abs hxy (X := b2i (D < 0)) (Y := b2i (E < 0)) (M := 1)
      (by rcases b2i_cases (D < 0) with h1 | h1 <;> rw [h1] <;> simp)
      (by rcases b2i_cases (E < 0) with h1 | h1 <;> rw [h1] <;> simp)
    simpa using this
  have hmd : i64 (i64 (x * b2i (D < 0)) + i64 (y * b2i (E < 0)))
      = x * b2i (D < 0) + y * b2i (E < 0) := by
    rw [hone x _ hx, hone y _ hy]
    have := abs_le.mp hmb
    exact i64_id (by omega) (by omega)
  rw [hmd]
  generalize x * b2i (D < 0) + y * b2i (E < 0) = md at *
  obtain ⟨q1, hq1⟩ := i64_dvd (x * (lowest d : ℤ))
  obtain ⟨q2, hq2⟩ := i64_dvd (y * (lowest e : ℤ))
  obtain ⟨q3, hq3⟩ := i64_dvd (i64 (x * (lowest d : ℤ)) + i64 (y * (lowest e : ℤ)))
  obtain ⟨q4, hq4⟩ := emod_dvd (i64 (i64 (x * (lowest d : ℤ)) + i64 (y * (lowest e : ℤ)))) (2 ^ 62)
  generalize i64 (i64 (x * (lowest d : ℤ)) + i64 (y * (lowest e : ℤ))) % 2 ^ 62 = cd at *
  generalize i64 (i64 (x * (lowest d : ℤ)) + i64 (y * (lowest e : ℤ))) = s3 at *
  generalize i64 (x * (lowest d : ℤ)) = s1 at *
  generalize i64 (y * (lowest e : ℤ)) = s2 at *
  obtain ⟨q5, hq5⟩ := i64_dvd (v.inverse * cd)
  obtain ⟨q6, hq6⟩ := i64_dvd (i64 (v.inverse * cd) + md)
  obtain ⟨q7, hq7⟩ := emod_dvd (i64 (i64 (v.inverse * cd) + md)) (2 ^ 62)
  have hr0 := Int.emod_nonneg (i64 (i64 (v.inverse * cd) + md)) (show (2 : ℤ) ^ 62 ≠ 0 by decide)
  have hr1 := Int.emod_lt_of_pos (i64 (i64 (v.inverse * cd) + md)) (show (0 : ℤ) < 2 ^ 62 by decide)
  generalize i64 (i64 (v.inverse * cd) + md) % 2 ^ 62 = r at *
  generalize i64 (i64 (v.inverse * cd) + md) = s5 at *
  generalize i64 (v.inverse * cd) = s4 at *
  have hc : i64 (md - r) = md - r := by
    rw [abs_le] at hmb
    exact i64_id (by omega) (by omega)
  rw [hc]
  refine ⟨r, hr0, hr1, rfl, ?_⟩
  obtain ⟨q8, hq8⟩ := h.inv
  have hcd : cd = x * D + y * E + 2 ^ 62 * (x * k1 + y * k2 + q1 + q2 + q3 + q4) := by
    linear_combination hq4 + hq3 + hq1 + hq2 + x * hk1 + y * hk2
  have hr : r = v.inverse * cd + md + 2 ^ 62 * (q5 + q6 + q7) := by
    linear_combination hq7 + hq6 + hq5
  refine ⟨-(q5 + q6 + q7) * M - cd * q8 - (x * k1 + y * k2 + q1 + q2 + q3 + q4), ?_⟩
  linear_combination -cd * hq8 - M * hr - hcd

/-- One row of `de` stays in `(-2M, M)` and divides by `2^62` modulo `M`. -/
theorem deRow_spec {L M : ℕ} {A : ℤ} {v : Inverter} (h : Setup L M A v) {d e : List ℕ} {D E : ℤ}
    (hd : Code L d D) (he : Code L e E) (d0 : -2 * M < D) (d1 : D < M) (e0 : -2 * M < E)
    (e1 : E < M) (x y : ℤ) (hxy : |x| + |y| ≤ 2 ^ 62) :
    ∃ D', Code L (deRow v x y d e) D' ∧ -2 * M < D' ∧ D' < M ∧
      (M : ℤ) ∣ 2 ^ 62 * D' - (x * D + y * E) := by
  obtain ⟨r, r0, r1, hc, Z, hZ⟩ := deCoeff_spec h hd he x y hxy
  have hMp : (0 : ℤ) < M := by have := h.odd; omega
  obtain ⟨c1, c2⟩ := comb_spec hd he x y hxy
  have hmb : |x * b2i (D < 0) + y * b2i (E < 0)| ≤ 2 ^ 62 := by
    have := comb_abs hxy (X := b2i (D < 0)) (Y := b2i (E < 0)) (M := 1)
      (by rcases b2i_cases (D < 0) with h1 | h1 <;> rw [h1] <;> simp)
      (by rcases b2i_cases (E < 0) with h1 | h1 <;> rw [h1] <;> simp)
    simpa using this
  have hb2 : |x * (D + b2i (D < 0) * M) + y * (E + b2i (E < 0) * M)| ≤ 2 ^ 62 * (M - 1) := by
    apply comb_abs hxy
    · rw [abs_le]
      by_cases hn : D < 0
      · simp only [hn, decide_true, b2i, if_true]; constructor <;> omega
      · simp only [hn, decide_false, b2i, Bool.false_eq_true, if_false]; constructor <;> omega
    · rw [abs_le]
      by_cases hn : E < 0
      · simp only [hn, decide_true, b2i, if_true]; constructor <;> omega
      · simp only [hn, decide_false, b2i, Bool.false_eq_true, if_false]; constructor <;> omega
  rw [abs_le] at hmb
  have hcb : -2 ^ 63 < deCoeff v.inverse x y d e ∧ deCoeff v.inverse x y d e < 2 ^ 63 := by
    rw [hc]; constructor <;> omega
  obtain ⟨m1, m2⟩ := cMulI64_spec h.mod.isC (deCoeff v.inverse x y d e) hcb.1 hcb.2
  obtain ⟨s1, s2⟩ := cAdd_spec c1 m1
  have hval : x * D + y * E + deCoeff v.inverse x y d e * M
      = (x * (D + b2i (D < 0) * M) + y * (E + b2i (E < 0) * M)) - r * M := by
    rw [hc]; ring
  have hrM : r * M ≤ (2 ^ 62 - 1) * M := mul_le_mul_of_nonneg_right (by omega) hMp.le
  have hrM0 : 0 ≤ r * M := by positivity
  rw [abs_le] at hb2
  have hsm : (M : ℤ) < 2 ^ (62 * L - 64) := by exact_mod_cast h.small
  refine ⟨Z, ?_, ?_, ?_, ?_⟩
  · refine shift_spec (by have := h.L2; omega) (Code.of s1 (v := x * D + y * E + deCoeff v.inverse x y d e * M) ?_ ?_) hZ
    · exact s2.trans (Int.ModEq.add c2 (m2.trans (h.mod.eq.mul_left _)))
    · rw [hval, pow_room h.L2, abs_lt]
      generalize x * (D + b2i (D < 0) * M) + y * (E + b2i (E < 0) * M) = T at *
      generalize (2 : ℤ) ^ (62 * L - 64) = P at *
      constructor <;> omega
  · rw [hval] at hZ
    generalize x * (D + b2i (D < 0) * M) + y * (E + b2i (E < 0) * M) = T at *
    omega
  · rw [hval] at hZ
    generalize x * (D + b2i (D < 0) * M) + y * (E + b2i (E < 0) * M) = T at *
    omega
  · exact ⟨deCoeff v.inverse x y d e, by linear_combination -hZ⟩

/-- Invariant of the main loop after `n` rounds. -/
structure LoopInv (L M : ℕ) (A X : ℤ) (n : ℕ) (δ : ℤ) (f g d e : List ℕ) (F G D E : ℤ) : Prop where
  iter : divstep^[62 * n] ⟨1, M, X⟩ = ⟨δ, F, G⟩
  cf : Code L f F
  cg : Code L g G
  cd : Code L d D
  ce : Code L e E
  d0 : -2 * M < D
  d1 : D < M
  e0 : -2 * M < E
  e1 : E < M
  dx : (M : ℤ) ∣ D * X - F * A
  ex : (M : ℤ) ∣ E * X - G * A

theorem dvd_of_two_pow {M : ℕ} (hM : M % 2 = 1) {z : ℤ} (h : (M : ℤ) ∣ 2 ^ 62 * z) : (M : ℤ) ∣ z := by
  have hcop : IsCoprime (M : ℤ) 2 := by
    refine ⟨1, -((M : ℤ) / 2), ?_⟩
    omega
  exact (hcop.pow_right).dvd_of_dvd_mul_left h

theorem LoopInv.step {L M : ℕ} {A X : ℤ} {v : Inverter} (h : Setup L M A v) (hX0 : 0 ≤ X) (hX1 : X < M)
    {n : ℕ} {δ : ℤ} {f g d e : List ℕ} {F G D E : ℤ} (hn : 62 * n + 1 ≤ 2 ^ 62)
    (I : LoopInv L M A X n δ f g d e F G D E) :
    ∃ F' G' D' E', LoopInv L M A X (n + 1) (jump f g δ).1 (fg f g (jump f g δ).2).1
      (fg f g (jump f g δ).2).2 (de v d e (jump f g δ).2).1 (de v d e (jump f g δ).2).2 F' G' D' E' := by
  have hL : 0 < L := by have := h.L2; omega
  have hMo : (M : ℤ) % 2 = 1 := by have := h.odd; omega
  have hdel := iter_delta ⟨1, M, X⟩ (62 * n)
  have hodd := iter_odd (s := ⟨1, M, X⟩) hMo (62 * n)
  have hbd := iter_bound (s := ⟨1, M, X⟩) (M := M) hMo (by simp)
    (by rw [abs_of_nonneg hX0]; exact hX1.le) (62 * n)
  rw [I.iter] at hdel hodd hbd
  simp only [abs_one] at hdel hodd hbd
  obtain ⟨l1, l2⟩ := lowest_spec hL I.cf
  obtain ⟨l3, l4⟩ := lowest_spec hL I.cg
  obtain ⟨F', G', J⟩ := jump_spec f g δ F G (le_trans hdel (by push_cast; omega)) hodd l1 l3 l2 l4
  generalize jump f g δ = r at *
  obtain ⟨D', cD, a1, a2, k1, hk1⟩ := deRow_spec h I.cd I.ce I.d0 I.d1 I.e0 I.e1 r.2.a r.2.b J.t0
  obtain ⟨E', cE, b1, b2, k2, hk2⟩ := deRow_spec h I.cd I.ce I.d0 I.d1 I.e0 I.e1 r.2.c r.2.d J.t1
  have hsm : (M : ℤ) < 2 ^ (62 * L - 64) := by exact_mod_cast h.small
  obtain ⟨k3, hk3⟩ := I.dx
  obtain ⟨k4, hk4⟩ := I.ex
  refine ⟨F', G', D', E', ?_, ?_, ?_, cD, cE, a1, a2, b1, b2, ?_, ?_⟩
  · rw [show 62 * (n + 1) = 62 + 62 * n by ring, Function.iterate_add_apply, I.iter, J.iter]
  · exact fgRow_spec h.L2 hsm I.cf I.cg hbd.1 hbd.2 _ _ J.t0 J.row0
  · exact fgRow_spec h.L2 hsm I.cf I.cg hbd.1 hbd.2 _ _ J.t1 J.row1
  · apply dvd_of_two_pow h.odd
    refine ⟨k1 * X + r.2.a * k3 + r.2.b * k4, ?_⟩
    linear_combination X * hk1 + r.2.a * hk3 + r.2.b * hk4 + A * J.row0
  · apply dvd_of_two_pow h.odd
    refine ⟨k2 * X + r.2.c * k3 + r.2.d * k4, ?_⟩
    linear_combination X * hk2 + r.2.c * hk3 + r.2.d * hk4 + A * J.row1

/-- What the main loop returns. -/
structure LoopPost (L M : ℕ) (A X : ℤ) (f d : List ℕ) (F D : ℤ) : Prop where
  cf : Code L f F
  cd : Code L d D
  d0 : -2 * M < D
  d1 : D < M
  dx : (M : ℤ) ∣ D * X - F * A
  gcd : F.natAbs = Int.gcd M X

theorem invertLoop_spec {L M : ℕ} {A X : ℤ} {v : Inverter} (h : Setup L M A v) (hX0 : 0 ≤ X)
    (hX1 : X < M) (fuel : ℕ) : ∀ {n : ℕ} {δ : ℤ} {f g d e : List ℕ} {F G D E : ℤ},
    62 * (n + fuel) + 1 ≤ 2 ^ 62 → (divstep^[62 * (n + fuel)] ⟨1, M, X⟩).g = 0 →
    LoopInv L M A X n δ f g d e F G D E →
    ∃ f' d' F' D', invertLoop v L fuel δ f g d e = some (f', d') ∧ LoopPost L M A X f' d' F' D' := by
  have hL : 0 < L := by have := h.L2; omega
  have hMo : (M : ℤ) % 2 = 1 := by have := h.odd; omega
  have fin : ∀ {n : ℕ} {δ : ℤ} {f g d e : List ℕ} {F G D E : ℤ}, g = cZero L →
      LoopInv L M A X n δ f g d e F G D E → LoopPost L M A X f d F D := by
    intro n δ f g d e F G D E hg I
    have hG : G = 0 := by
      have := I.cg
      rw [hg] at this
      exact this.functional hL code_zero
    refine ⟨I.cf, I.cd, I.d0, I.d1, I.dx, ?_⟩
    have := iter_gcd (s := ⟨1, M, X⟩) hMo (62 * n)
    rw [I.iter, hG] at this
    simpa using this
  induction fuel with
  | zero =>
    intro n δ f g d e F G D E _ hz I
    rw [Nat.add_zero, I.iter] at hz
    have hg : g = cZero L := by
      have := I.cg
      rw [show G = 0 from hz] at this
      exact this.inj code_zero
    exact ⟨f, d, F, D, by rw [invertLoop, if_pos hg], fin hg I⟩
  | succ k ih =>
    intro n δ f g d e F G D E hb hz I
    rw [invertLoop]
    split
    · rename_i hg
      exact ⟨f, d, F, D, rfl, fin hg I⟩
    · obtain ⟨F', G', D', E', I'⟩ := I.step h hX0 hX1 (by omega)
      exact ih (by omega) (by rw [show n + 1 + k = n + (k + 1) by ring]; exact hz) I'

/-- `norm` brings a value of `(-2M, M)` to `[0, M)`, negating it if asked to. -/
theorem norm_spec {L M : ℕ} {A : ℤ} {v : Inverter} (h : Setup L M A v) {d : List ℕ} {D : ℤ}
    (hd : Code L d D) (d0 : -2 * M < D) (d1 : D < M) (neg : Bool) :
    ∃ R, Code L (norm v d neg) R ∧ 0 ≤ R ∧ R < M ∧ (M : ℤ) ∣ R - (if neg then -D else D) := by
  have hL : 0 < L := by have := h.L2; omega
  have hsm : (M : ℤ) < 2 ^ (62 * L - 64) := by exact_mod_cast h.small
  have hadd : ∀ {x : List ℕ} {X : ℤ}, Code L x X → -2 * M < X → X < M →
      ∃ X', Code L (if isNeg x then cAdd x v.modulus else x) X' ∧ X' = if X < 0 then X + M else X := by
    intro x X hx h0 h1
    refine ⟨_, ?_, rfl⟩
    rw [isNeg_spec hL hx]
    by_cases hn : X < 0
    · simp only [hn, decide_true, if_true]
      obtain ⟨a, b⟩ := cAdd_spec hx.isC h.mod.isC
      refine Code.of a (b.trans (hx.eq.add h.mod.eq)) ?_
      rw [pow_room h.L2, abs_lt]
      generalize (2 : ℤ) ^ (62 * L - 64) = P at *
      constructor <;> omega
    · simp only [hn, decide_false, Bool.false_eq_true, if_false]
      exact hx
  have hneg : ∀ {x : List ℕ} {X : ℤ}, Code L x X → -M < X → X < M → Code L (cNeg x) (-X) := by
    intro x X hx h0 h1
    obtain ⟨a, b⟩ := cNeg_spec hx.isC
    refine Code.of a (b.trans hx.eq.neg) ?_
    rw [pow_room h.L2, abs_lt]
    generalize (2 : ℤ) ^ (62 * L - 64) = P at *
    constructor <;> omega
  unfold norm
  simp only
  obtain ⟨D1, c1, hD1⟩ := hadd hd d0 d1
  have r1 : -M < D1 ∧ D1 < M := by rw [hD1]; split <;> constructor <;> omega
  have m1 : (M : ℤ) ∣ D1 - D := by
    rw [hD1]; split
    · exact ⟨1, by ring⟩
    · exact ⟨0, by ring⟩
  generalize (if isNeg d then cAdd d v.modulus else d) = y at *
  cases neg with
  | true =>
    simp only [if_true]
    obtain ⟨D2, c2, hD2⟩ := hadd (hneg c1 r1.1 r1.2) (by omega) (by omega)
    refine ⟨D2, c2, ?_, ?_, ?_⟩
    · rw [hD2]; split <;> omega
    · rw [hD2]; split <;> omega
    · obtain ⟨k, hk⟩ := m1
      rw [hD2]; split
      · exact ⟨1 - k, by linear_combination -hk⟩
      · exact ⟨-k, by linear_combination -hk⟩
  | false =>
    simp only [Bool.false_eq_true, if_false]
    obtain ⟨D2, c2, hD2⟩ := hadd c1 (by omega) (by omega)
    refine ⟨D2, c2, ?_, ?_, ?_⟩
    · rw [hD2]; split <;> omega
    · rw [hD2]; split <;> omega
    · obtain ⟨k, hk⟩ := m1
      rw [hD2]; split
      · exact ⟨1 + k, by linear_combination hk⟩
      · exact ⟨k, by linear_combination hk⟩

/-- A non-negative code is the plain unsigned value. -/
theorem Code.uval_eq {L : ℕ} {x : List ℕ} {R : ℕ} (hL : 0 < L) (h : Code L x R) : uval 62 x = R := by
  have h1 := h.eq
  have b1 := uval_lt h.isC.wf
  rw [h.isC.len] at b1
  have hi := h.hi
  have b2 : (R : ℤ) < ((2 ^ (62 * L) : ℕ) : ℤ) := by
    push_cast
    rw [two_pow_half hL]
    have : (0 : ℤ) < 2 ^ (62 * L - 1) := by positivity
    linarith
  have b2' : R < 2 ^ (62 * L) := by exact_mod_cast b2
  have : (uval 62 x : ℤ) % ((2 ^ (62 * L) : ℕ) : ℤ) = R % ((2 ^ (62 * L) : ℕ) : ℤ) := by
    push_cast; exact h1
  have h3 : uval 62 x % 2 ^ (62 * L) = R % 2 ^ (62 * L) := by exact_mod_cast this
  rwa [Nat.mod_eq_of_lt b1, Nat.mod_eq_of_lt b2'] at h3

/-- A converted number below `2^(62L - 64)` is its own code. -/
theorem code_convert {L : ℕ} {x : List ℕ} {M : ℕ} (hL : 2 ≤ L) (hw : CWf 64 x)
    (hM : M < 2 ^ (62 * L - 64)) (hx : uval 64 x ≤ M) : Code L (convert 64 62 L x) (uval 64 x) := by
  obtain ⟨h1, h2, h3⟩ := convert_spec (I := 64) (O := 62) (S := L) (by decide) (by decide) (by decide) hw
  have hlt : uval 64 x < 2 ^ (62 * L - 64) := lt_of_le_of_lt hx hM
  have hlt2 : uval 64 x < 2 ^ (62 * L) :=
    lt_of_lt_of_le hlt (Nat.pow_le_pow_right (by decide) (by omega))
  rw [Nat.mod_eq_of_lt hlt2] at h3
  refine ⟨⟨h1, h2⟩, ?_, ?_, ?_⟩
  · have : (0 : ℤ) < 2 ^ (62 * L - 1) := by positivity
    have : (0 : ℤ) ≤ (uval 64 x : ℤ) := by positivity
    omega
  · have : uval 64 x < 2 ^ (62 * L - 1) :=
      lt_of_lt_of_le hlt (Nat.pow_le_pow_right (by decide) (by omega))
    exact_mod_cast this
  · rw [h3]

/-- `invert` for a set-up inverter. -/
theorem invert_spec {L M S : ℕ} {A : ℤ} {v : Inverter} (h : Setup L M A v) (hS : M < 2 ^ (64 * S))
    (fuel : ℕ) (value : List ℕ) (hw : CWf 64 value) (hX : uval 64 value < M)
    (hf : 62 * fuel + 1 ≤ 2 ^ 62)
    (hz : (divstep^[62 * fuel] ⟨1, M, (uval 64 value : ℤ)⟩).g = 0) :
    (Nat.gcd M (uval 64 value) ≠ 1 → invert v L S fuel value = .done none) ∧
    (Nat.gcd M (uval 64 value) = 1 → ∃ b, invert v L S fuel value = .done (some b) ∧
      b.length = S ∧ CWf 64 b ∧ uval 64 b < M ∧ (M : ℤ) ∣ uval 64 b * uval 64 value - A) := by
  have hL : 0 < L := by have := h.L2; omega
  have hX1 : ((uval 64 value : ℕ) : ℤ) < M := by exact_mod_cast hX
  have hX0 : (0 : ℤ) ≤ (uval 64 value : ℕ) := by positivity
  have cX := code_convert h.L2 hw h.small hX.le
  have I0 : LoopInv L M A (uval 64 value) 0 1 v.modulus (convert 64 62 L value) (cZero L)
      v.adjuster M (uval 64 value) 0 A :=
    ⟨rfl, h.mod, cX, code_zero, h.adj, by have := h.odd; omega, by have := h.odd; omega,
      by have := h.odd; have := h.adj0; omega, h.adj1, ⟨-A, by ring⟩, ⟨0, by ring⟩⟩
  obtain ⟨f, d, F, D, he, P⟩ := invertLoop_spec h hX0 hX1 fuel (by simpa using hf)
    (by simpa using hz) I0
  have hg : F.natAbs = Nat.gcd M (uval 64 value) := by
    rw [P.gcd, Int.gcd_natCast_natCast]
  unfold invert
  rw [he]
  simp only
  have one_iff : f = cOne L ↔ F = 1 := by
    constructor
    · intro hh; have := P.cf; rw [hh] at this; exact this.functional hL (code_one hL)
    · intro hh; have := P.cf; rw [hh] at this; exact this.inj (code_one hL)
  have mone_iff : f = cMinusOne L ↔ F = -1 := by
    constructor
    · intro hh; have := P.cf; rw [hh] at this; exact this.functional hL code_minusOne
    · intro hh; have := P.cf; rw [hh] at this; exact this.inj code_minusOne
  constructor
  · intro hne
    rw [if_pos]
    rw [← hg] at hne
    have h1 : ¬ F = 1 := by omega
    have h2 : ¬ F = -1 := by omega
    simp [one_iff, mone_iff, h1, h2]
  · intro heq
    rw [← hg] at heq
    have hF : F = 1 ∨ F = -1 := by omega
    rw [if_neg (by
      rcases hF with h1 | h1
      · simp [one_iff, h1]
      · simp [mone_iff, h1])]
    obtain ⟨R, cR, R0, R1, k, hk⟩ := norm_spec h P.cd P.d0 P.d1 (decide (f = cMinusOne L))
    obtain ⟨R', rfl⟩ := Int.eq_ofNat_of_zero_le R0
    obtain ⟨v1, v2, v3⟩ := convert_spec (I := 62) (O := 64) (S := S) (by decide) (by decide)
      (by decide) cR.isC.wf
    have hR1 : R' < M := by exact_mod_cast R1
    rw [cR.uval_eq hL, Nat.mod_eq_of_lt (lt_trans hR1 hS)] at v3
    refine ⟨_, rfl, v1, v2, by rw [v3]; exact hR1, ?_⟩
    rw [v3]
    obtain ⟨k2, hk2⟩ := P.dx
    rcases hF with h1 | h1
    · have h2 : ¬ f = cMinusOne L := by rw [mone_iff, h1]; decide
      simp only [h2, decide_false, Bool.false_eq_true, if_false] at hk
      rw [h1] at hk2
      exact ⟨k * uval 64 value + k2, by linear_combination (uval 64 value : ℤ) * hk + hk2⟩
    · have h2 : f = cMinusOne L := by rw [mone_iff, h1]
      simp only [h2, decide_true, if_true] at hk
      rw [h1] at hk2
      exact ⟨k * uval 64 value - k2, by linear_combination (uval 64 value : ℤ) * hk - hk2⟩

/-! ## The generated field -/

theorem uval_eq_val (x : List ℕ) : uval 64 x = val x := by
  induction x with
  | nil => rfl
  | cons c cs ih => rw [uval, val, ih]; rfl

theorem byConstantLoop_spec (p fuel : ℕ) : ∀ c, 2 ≤ c → p < 2 ^ (62 * (c + fuel) - 64) →
    2 ≤ byConstantLoop p fuel c ∧ p < 2 ^ (62 * byConstantLoop p fuel c - 64) := by
  induction fuel with
  | zero => intro c h1 h2; exact ⟨h1, h2⟩
  | succ n ih =>
    intro c h1 h2
    rw [byConstantLoop]
    split
    · rename_i h; exact ⟨h1, h⟩
    · exact ih (c + 1) (by omega) (by rw [show c + 1 + n = c + (n + 1) by ring]; exact h2)

theorem byConstant_spec (p : ℕ) : 2 ≤ byConstant p ∧ p < 2 ^ (62 * byConstant p - 64) := by
  apply byConstantLoop_spec _ _ _ le_rfl
  refine lt_of_lt_of_le (Nat.lt_size_self p) (Nat.pow_le_pow_right (by decide) ?_)
  unfold Field.numBits
  omega

open Halo2.Field in
theorem setup_of_field {p : ℕ} (hp : OddModulus p) :
    Setup (byConstant p) p (val (R2 p) : ℤ) (new (byConstant p) (modulusLimbs p) (R2 p)) := by
  obtain ⟨b1, b2⟩ := byConstant_spec p
  have hr := rep_R2 hp
  have hw : CWf 64 (modulusLimbs p) := modulusLimbs_wf p
  have hv : uval 64 (modulusLimbs p) = p := by rw [uval_eq_val, val_modulusLimbs]
  have hhead : (modulusLimbs p).headD 0 = p % 2 ^ 64 := modulusLimbs_head p
  obtain ⟨i0, i1, k, hk⟩ := inv_spec (v := p % 2 ^ 64) (by have := hp.odd; omega)
  refine ⟨b1, hp.odd, b2, ?_, ?_, by positivity, ?_, ?_, ?_, ?_⟩
  · have := code_convert (M := p) b1 hw b2 (by rw [hv])
    rw [hv] at this
    exact this
  · have := code_convert (M := p) (x := R2 p) b1 hr.elem.wf b2 (by rw [uval_eq_val]; exact hr.elem.lt.le)
    rw [uval_eq_val] at this
    exact this
  · exact_mod_cast hr.elem.lt
  · show 0 ≤ inv _
    rw [hhead]; exact i0
  · show inv _ < _
    rw [hhead]; exact i1
  · show _ ∣ inv _ * _ - _
    rw [hhead]
    refine ⟨k + inv (p % 2 ^ 64) * (4 * ((p / 2 ^ 64 : ℕ) : ℤ)), ?_⟩
    have h5 : (p : ℤ) = ((p % 2 ^ 64 : ℕ) : ℤ) + 2 ^ 64 * ((p / 2 ^ 64 : ℕ) : ℤ) := by
      exact_mod_cast (Nat.mod_add_div p (2 ^ 64)).symm
    generalize inv (p % 2 ^ 64) = z at *
    generalize ((p % 2 ^ 64 : ℕ) : ℤ) = lo at *
    generalize ((p / 2 ^ 64 : ℕ) : ℤ) = hi at *
    rw [h5]
    linear_combination hk

end Halo2.Inverse
