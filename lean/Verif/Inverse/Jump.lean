import Verif.Inverse.Model
import Verif.Inverse.Divstep

/-!
# `jump` performs 62 division steps
-/

namespace Halo2.Inverse

/-! ## Machine arithmetic -/

theorem i64_id {x : ℤ} (h1 : -2 ^ 63 ≤ x) (h2 : x < 2 ^ 63) : i64 x = x := by
  unfold i64; rw [Int.bmod_eq_of_le] <;> norm_num <;> omega

theorem i128_id {x : ℤ} (h1 : -2 ^ 127 ≤ x) (h2 : x < 2 ^ 127) : i128 x = x := by
  unfold i128; rw [Int.bmod_eq_of_le] <;> norm_num <;> omega

theorem i64_emod (x : ℤ) : i64 x % 2 ^ 64 = x % 2 ^ 64 := by
  unfold i64
  exact Int.bmod_emod

theorem i64_modEq (x : ℤ) : i64 x ≡ x [ZMOD 2 ^ 64] := i64_emod x

theorem i64_modEq' (x : ℤ) {k : ℕ} (hk : k ≤ 64) : i64 x ≡ x [ZMOD 2 ^ k] :=
  (i64_modEq x).of_dvd (pow_dvd_pow 2 hk)

theorem asU64_cast (x : ℤ) : (asU64 x : ℤ) = x % 2 ^ 64 := by
  unfold asU64
  rw [Int.toNat_of_nonneg (Int.emod_nonneg _ (by norm_num))]

/-! ## Trailing zeros -/

theorem tz_spec (w n : ℕ) : tz w n ≤ w ∧ 2 ^ tz w n ∣ n ∧ (tz w n < w → n / 2 ^ tz w n % 2 = 1) := by
  induction w generalizing n with
  | zero => simp [tz]
  | succ w ih =>
    unfold tz
    split
    · rename_i h
      obtain ⟨h1, h2, h3⟩ := ih (n / 2)
      refine ⟨by omega, ?_, fun hlt => ?_⟩
      · rw [pow_succ]
        have := Nat.mul_dvd_mul_left 2 h2
        rw [mul_comm]
        rwa [show 2 * (n / 2) = n by omega] at this
      · rw [pow_succ, mul_comm, ← Nat.div_div_eq_div_mul]
        exact h3 (by omega)
    · rename_i h
      exact ⟨by omega, by simp, fun _ => by simp; omega⟩

theorem zeros_spec (steps : ℕ) (g : ℤ) (hs : steps ≤ 62) (z : ℕ)
    (hz : z = min steps (tz 128 (g % 2 ^ 128).toNat)) :
    z ≤ steps ∧ (2 : ℤ) ^ z ∣ g ∧ (z < steps → g / 2 ^ z % 2 = 1) ∧
      (∀ m ≤ steps, (2 : ℤ) ^ m ∣ g → m ≤ z) := by
  obtain ⟨h1, h2, h3⟩ := tz_spec 128 (g % 2 ^ 128).toNat
  set n := (g % 2 ^ 128).toNat with hn
  have hnn : (n : ℤ) = g % 2 ^ 128 := Int.toNat_of_nonneg (Int.emod_nonneg _ (by norm_num))
  have hzs : z ≤ steps := by omega
  have hdvd : ∀ j ≤ 62, ((2 : ℤ) ^ j ∣ g ↔ 2 ^ j ∣ n) := by
    intro j hj
    rw [show ((2 ^ j ∣ n) ↔ ((2 : ℤ) ^ j ∣ (n : ℤ))) by exact_mod_cast Int.natCast_dvd_natCast.symm, hnn]
    rw [Int.dvd_iff_emod_eq_zero, Int.dvd_iff_emod_eq_zero,
      Int.emod_emod_of_dvd _ (pow_dvd_pow 2 (by omega : j ≤ 128))]
  have hd : (2 : ℤ) ^ z ∣ g := by
    rw [hdvd z (by omega)]
    exact dvd_trans (pow_dvd_pow 2 (by omega)) h2
  have hodd : z < steps → g / 2 ^ z % 2 = 1 := by
    intro hlt
    have hzt : z = tz 128 n := by omega
    have h4 := h3 (by omega)
    rw [← hzt] at h4
    obtain ⟨q, hq⟩ := hd
    rw [hq, Int.mul_ediv_cancel_left _ (by positivity)]
    rcases Int.emod_two_eq_zero_or_one q with hq0 | hq1
    · exfalso
      have : (2 : ℤ) ^ (z + 1) ∣ g := ⟨q / 2, by
        rw [hq, pow_succ, mul_assoc]; congr 1; omega⟩
      rw [hdvd (z + 1) (by omega)] at this
      obtain ⟨r, hr⟩ := this
      rw [hr, pow_succ, mul_assoc, Nat.mul_div_cancel_left _ (by positivity)] at h4
      omega
    · exact hq1
  refine ⟨hzs, hd, hodd, fun m hm hmd => ?_⟩
  by_contra hlt
  have h5 := hodd (by omega)
  obtain ⟨q, hq⟩ := hmd
  have : g / 2 ^ z = 2 ^ (m - z) * q := by
    rw [hq, show m = z + (m - z) by omega, pow_add, mul_assoc,
      Int.mul_ediv_cancel_left _ (by positivity)]
    simp
  rw [this, show m - z = (m - z - 1) + 1 by omega, pow_succ, mul_comm (2 ^ (m - z - 1) : ℤ) 2,
    mul_assoc] at h5
  omega

/-! ## The cancelling multiplier -/

theorem neg_inv_mod32 : ∀ r < 32, r % 2 = 1 → ((3 * r % 32) ^^^ 28) * r % 32 = 31 := by decide

theorem wOf_spec (m : ℕ) (f g : ℤ) (hm : m ≤ 5) (hf : f % 2 = 1) :
    wOf m f g < 2 ^ m ∧ (2 : ℤ) ^ m ∣ g + (wOf m f g : ℤ) * f := by
  set A : ℕ := asU64 (i64 (f * 3)) ^^^ 28 with hA
  have hw : wOf m f g = (i64 (i64 g * i64 (A : ℤ)) % 2 ^ 64).toNat % 2 ^ m := by
    rw [wOf, Nat.and_two_pow_sub_one_eq_mod]
  have hlt : wOf m f g < 2 ^ m := by rw [hw]; exact Nat.mod_lt _ (by positivity)
  refine ⟨hlt, ?_⟩
  -- `A * f ≡ -1 (mod 32)`
  have hAf : (2 : ℤ) ^ 5 ∣ A * f + 1 := by
    have e1 : A % 32 = ((asU64 (i64 (f * 3))) % 32) ^^^ 28 := by
      rw [hA, show (32 : ℕ) = 2 ^ 5 by norm_num, Nat.xor_mod_two_pow]
    have e2 : ((asU64 (i64 (f * 3)) : ℕ) : ℤ) % 32 = (f * 3) % 32 := by
      rw [asU64_cast, i64_emod]; omega
    set r := (f % 32).toNat with hr
    have hrr : (r : ℤ) = f % 32 := Int.toNat_of_nonneg (Int.emod_nonneg _ (by norm_num))
    have e3 : asU64 (i64 (f * 3)) % 32 = 3 * r % 32 := by omega
    have e4 := neg_inv_mod32 r (by omega) (by omega)
    rw [← e3, ← e1] at e4
    have e5 : ((A : ℤ) * f + 1) % 32 = 0 := by
      have h6 : (A : ℤ) * f ≡ (A % 32 : ℕ) * r [ZMOD 32] := by
        apply Int.ModEq.mul
        · push_cast; exact (Int.mod_modEq _ _).symm
        · rw [hrr]; exact (Int.mod_modEq _ _).symm
      have h7 : ((A % 32 : ℕ) : ℤ) * r ≡ 31 [ZMOD 32] := by
        have : (((A % 32) * r : ℕ) : ℤ) % 32 = 31 := by omega
        push_cast at this
        rw [Int.ModEq]
        push_cast
        rw [this]
      have h8 := (h6.trans h7).add_right 1
      exact h8
    exact Int.dvd_of_emod_eq_zero e5
  have hAf' : (2 : ℤ) ^ m ∣ A * f + 1 := dvd_trans (pow_dvd_pow 2 hm) hAf
  have hwm : (wOf m f g : ℤ) ≡ g * A [ZMOD 2 ^ m] := by
    rw [hw]
    push_cast
    rw [Int.toNat_of_nonneg (Int.emod_nonneg _ (by norm_num))]
    refine (Int.mod_modEq _ _).trans ?_
    have h1 : i64 (i64 g * i64 (A : ℤ)) % 2 ^ 64 ≡ g * A [ZMOD 2 ^ 64] :=
      (Int.mod_modEq _ _).trans ((i64_modEq _).trans ((i64_modEq _).mul (i64_modEq _)))
    exact h1.of_dvd (pow_dvd_pow 2 (by omega))
  have h2 : g + (wOf m f g : ℤ) * f ≡ g + g * A * f [ZMOD 2 ^ m] := (hwm.mul_right f).add_left g
  have h3 : (2 : ℤ) ^ m ∣ g + g * A * f := by
    have : g + g * A * f = g * (A * f + 1) := by ring
    rw [this]; exact Dvd.dvd.mul_left hAf' g
  exact (Int.modEq_zero_iff_dvd.mp (h2.trans (Int.modEq_zero_iff_dvd.mpr h3)))

/-! ## The loop of `jump` -/

/-- Loop invariant of `jump`: `k` division steps are done, the next `m` ones are prepared. -/
structure JInv (δ0 F G : ℤ) (k steps : ℕ) (δ f g : ℤ) (t : Mat) (m : ℕ) (Fk h : ℤ) : Prop where
  ks : k + steps = 62
  ms : m ≤ steps
  row0 : t.a * F + t.b * G = 2 ^ k * Fk
  row1 : t.c * F + t.d * G = 2 ^ k * (2 ^ m * h)
  iter : divstep^[k + m] ⟨δ0, F, G⟩ = ⟨δ + m, Fk, h⟩
  odd : Fk % 2 = 1
  fl : (2 : ℤ) ^ steps ∣ f - Fk
  gl : (2 : ℤ) ^ steps ∣ g - 2 ^ m * h
  fb : |f| ≤ 2 ^ 62
  gb : |g| ≤ 2 ^ m * 2 ^ 62
  t0 : |t.a| + |t.b| ≤ 2 ^ k
  t1 : |t.c| + |t.d| ≤ 2 ^ (k + m)

/-- What `jump` promises: 62 division steps, and the matrix realising them. -/
structure JPost (δ0 F G : ℤ) (r : ℤ × Mat) (F' G' : ℤ) : Prop where
  iter : divstep^[62] ⟨δ0, F, G⟩ = ⟨r.1, F', G'⟩
  row0 : r.2.a * F + r.2.b * G = 2 ^ 62 * F'
  row1 : r.2.c * F + r.2.d * G = 2 ^ 62 * G'
  t0 : |r.2.a| + |r.2.b| ≤ 2 ^ 62
  t1 : |r.2.c| + |r.2.d| ≤ 2 ^ 62

theorem pow62_mono {k : ℕ} (h : k ≤ 62) : (2 : ℤ) ^ k ≤ 2 ^ 62 := pow_le_pow_right₀ (by decide) h

/-- State after the "zeros" half of a round. -/
theorem JInv.zeros {δ0 F G : ℤ} {k steps : ℕ} {δ f g : ℤ} {t : Mat} {m : ℕ} {Fk h : ℤ}
    (I : JInv δ0 F G k steps δ f g t m Fk h) (hδ : |δ0| ≤ 2 ^ 62) {z : ℕ}
    (hz : z = min steps (tz 128 (g % 2 ^ 128).toNat)) :
    m ≤ z ∧ i64 (δ + z) = δ + z ∧ i64 (t.a * 2 ^ z) = t.a * 2 ^ z ∧ i64 (t.b * 2 ^ z) = t.b * 2 ^ z ∧
    (z < steps → g / 2 ^ z % 2 = 1) ∧
    ∃ h', JInv δ0 F G (k + z) (steps - z) (δ + z) f (g / 2 ^ z)
      ⟨t.a * 2 ^ z, t.b * 2 ^ z, t.c, t.d⟩ 0 Fk h' := by
  obtain ⟨z1, z2, z3, z4⟩ := zeros_spec steps g (by have := I.ks; omega) z hz
  have ks := I.ks
  have hmz : m ≤ z := by
    apply z4 m I.ms
    have h1 : (2 : ℤ) ^ m ∣ g - 2 ^ m * h := dvd_trans (pow_dvd_pow 2 I.ms) I.gl
    exact (Int.dvd_iff_dvd_of_dvd_sub h1).mpr (Dvd.intro _ rfl)
  have hGz : (2 : ℤ) ^ z ∣ 2 ^ m * h :=
    (Int.dvd_iff_dvd_of_dvd_sub (dvd_trans (pow_dvd_pow 2 z1) I.gl)).mp z2
  obtain ⟨h', hh'⟩ := hGz
  have hhh : h = 2 ^ (z - m) * h' := by
    have h1 : (2 : ℤ) ^ m * h = 2 ^ m * (2 ^ (z - m) * h') := by
      rw [hh', ← mul_assoc, ← pow_add, show m + (z - m) = z by omega]
    exact mul_left_cancel₀ (by positivity) h1
  have hiter : divstep^[k + z] ⟨δ0, F, G⟩ = ⟨δ + z, Fk, h'⟩ := by
    rw [show k + z = (z - m) + (k + m) by omega, Function.iterate_add_apply, I.iter, hhh, iter_zeros]
    ext <;> simp
    omega
  have hδb : |δ + z| ≤ 2 ^ 62 + 62 := by
    have := iter_delta ⟨δ0, F, G⟩ (k + z)
    rw [hiter] at this
    simp only at this
    have h2 : ((k + z : ℕ) : ℤ) ≤ 62 := by omega
    omega
  have ht0 : |t.a * 2 ^ z| + |t.b * 2 ^ z| ≤ 2 ^ (k + z) := by
    rw [abs_mul, abs_mul, abs_of_pos (by positivity : (0 : ℤ) < 2 ^ z), ← add_mul, pow_add]
    exact mul_le_mul_of_nonneg_right I.t0 (by positivity)
  have hp : (2 : ℤ) ^ (k + z) ≤ 2 ^ 62 := pow62_mono (by omega)
  obtain ⟨g1, hg1⟩ := z2
  have hgz : g / 2 ^ z = g1 := by rw [hg1, Int.mul_ediv_cancel_left _ (by positivity)]
  refine ⟨hmz, i64_id ?_ ?_, i64_id ?_ ?_, i64_id ?_ ?_, z3, h', ?_⟩
  · have := (abs_le.mp hδb).1; omega
  · have := (abs_le.mp hδb).2; omega
  · have := abs_nonneg (t.b * 2 ^ z); have := neg_abs_le (t.a * 2 ^ z); omega
  · have := abs_nonneg (t.b * 2 ^ z); have := le_abs_self (t.a * 2 ^ z); omega
  · have := abs_nonneg (t.a * 2 ^ z); have := neg_abs_le (t.b * 2 ^ z); omega
  · have := abs_nonneg (t.a * 2 ^ z); have := le_abs_self (t.b * 2 ^ z); omega
  · refine ⟨by omega, by omega, ?_, ?_, ?_, I.odd, ?_, ?_, I.fb, ?_, ht0, ?_⟩
    · simp only; rw [pow_add]; linear_combination (2 ^ z) * I.row0
    · simp only; rw [I.row1, hh', pow_add]; ring
    · rw [add_zero, hiter]; simp
    · exact dvd_trans (pow_dvd_pow 2 (by omega)) I.fl
    · have h1 := I.gl
      rw [hh', hg1, ← mul_sub, show steps = z + (steps - z) by omega, pow_add] at h1
      rw [hgz, pow_zero, one_mul]
      exact Int.dvd_of_mul_dvd_mul_left (by positivity) h1
    · rw [hgz, pow_zero, one_mul]
      have h1 := I.gb
      rw [hg1, abs_mul, abs_of_pos (by positivity : (0 : ℤ) < 2 ^ z)] at h1
      have h2 : (2 : ℤ) ^ m * 2 ^ 62 ≤ 2 ^ z * 2 ^ 62 :=
        mul_le_mul_of_nonneg_right (pow_le_pow_right₀ (by decide) hmz) (by positivity)
      exact le_of_mul_le_mul_left (le_trans h1 h2) (by positivity)
    · simp only
      exact le_trans I.t1 (pow_le_pow_right₀ (by decide) (by omega))

/-- The swap of a round. `I'` describes the swapped state except for the number of steps done,
which `divstep_swap` shows to agree after one more step. -/
structure JMid (δ0 F G : ℤ) (k steps : ℕ) (δ f g : ℤ) (t : Mat) (Fk Gk : ℤ) : Prop where
  ks : k + steps = 62
  pos : 0 < steps
  dle : δ ≤ 0
  dge : -(2 ^ 62 + 62) ≤ δ
  row0 : t.a * F + t.b * G = 2 ^ k * Fk
  row1 : t.c * F + t.d * G = 2 ^ k * Gk
  iter : divstep^[k + 1] ⟨δ0, F, G⟩ = divstep ⟨δ, Fk, Gk⟩
  odd : Fk % 2 = 1
  fl : (2 : ℤ) ^ steps ∣ f - Fk
  gl : (2 : ℤ) ^ steps ∣ g - Gk
  fb : |f| ≤ 2 ^ 62
  gb : |g| ≤ 2 ^ 62
  t0 : |t.a| + |t.b| ≤ 2 ^ k
  t1 : |t.c| + |t.d| ≤ 2 ^ k

theorem abs_bounds {x : ℤ} {k : ℕ} (h : |x| ≤ 2 ^ k) (hk : k ≤ 62) : -2 ^ 62 ≤ x ∧ x ≤ 2 ^ 62 := by
  have := pow62_mono hk
  exact abs_le.mp (le_trans h this)

theorem le_of_add_abs {x y B : ℤ} (h : |x| + |y| ≤ B) : |x| ≤ B ∧ |y| ≤ B :=
  ⟨by have := abs_nonneg y; omega, by have := abs_nonneg x; omega⟩

theorem JInv.mid {δ0 F G : ℤ} {k steps : ℕ} {δ f g : ℤ} {t : Mat} {Fk h : ℤ}
    (I : JInv δ0 F G k steps δ f g t 0 Fk h) (hδ : |δ0| ≤ 2 ^ 62) (hs : steps ≠ 0)
    (hg : g % 2 = 1) :
    ∃ Fk' Gk', JMid δ0 F G k steps (if decide (δ > 0) then i64 (-δ) else δ)
      (if decide (δ > 0) then i64 g else f) (if decide (δ > 0) then i64 (-f) else g)
      (if decide (δ > 0) then ⟨t.c, t.d, i64 (-t.a), i64 (-t.b)⟩ else t) Fk' Gk' := by
  have hiter := I.iter
  have ks := I.ks
  have hδb : |δ| ≤ 2 ^ 62 + 62 := by
    have := iter_delta ⟨δ0, F, G⟩ (k + 0)
    rw [hiter] at this
    simp only at this
    have h2 : ((k + 0 : ℕ) : ℤ) ≤ 62 := by omega
    push_cast at this h2
    simp only [add_zero] at this h2
    omega
  have hδ2 := abs_le.mp hδb
  have hgodd : h % 2 = 1 := by
    have h1 : (2 : ℤ) ∣ g - h := by
      have := I.gl
      rw [pow_zero, one_mul] at this
      exact dvd_trans (dvd_pow_self 2 hs) this
    omega
  have hgl := I.gl
  rw [pow_zero, one_mul] at hgl
  have hgb := I.gb
  rw [pow_zero, one_mul] at hgb
  have hg2 := abs_le.mp hgb
  have hf2 := abs_le.mp I.fb
  have hr1 := I.row1
  rw [pow_zero, one_mul] at hr1
  have ht1 := I.t1
  simp only [add_zero] at hiter ht1
  simp only [Nat.cast_zero, add_zero] at hiter
  by_cases hd : δ > 0
  · have e1 : i64 (-δ) = -δ := i64_id (by omega) (by omega)
    have e2 : i64 g = g := i64_id (by omega) (by omega)
    have e3 : i64 (-f) = -f := i64_id (by omega) (by omega)
    obtain ⟨ba, bb⟩ := le_of_add_abs I.t0
    have ba' := abs_bounds ba (by omega)
    have bb' := abs_bounds bb (by omega)
    have e4 : i64 (-t.a) = -t.a := i64_id (by omega) (by omega)
    have e5 : i64 (-t.b) = -t.b := i64_id (by omega) (by omega)
    simp only [hd, decide_true, if_true, e1, e2, e3, e4, e5]
    refine ⟨h, -Fk, ks, by omega, by omega, by omega, hr1, ?_, ?_, hgodd, hgl, ?_, hgb, ?_, ht1, ?_⟩
    · simp only; linear_combination -I.row0
    · rw [Function.iterate_succ_apply', hiter, divstep_swap hd I.odd hgodd]
    · have : -f - -Fk = -(f - Fk) := by ring
      rw [this]; exact (Int.dvd_neg).mpr I.fl
    · rw [abs_neg]; exact I.fb
    · simp only [abs_neg]; exact I.t0
  · simp only [hd, decide_false, Bool.false_eq_true, if_false]
    refine ⟨Fk, h, ks, by omega, by omega, by omega, I.row0, hr1, ?_, I.odd, I.fl, hgl, I.fb, hgb,
      I.t0, ht1⟩
    rw [Function.iterate_succ_apply', hiter]

theorem JMid.next {δ0 F G : ℤ} {k steps : ℕ} {δ f g : ℤ} {t : Mat} {Fk Gk : ℤ}
    (I : JMid δ0 F G k steps δ f g t Fk Gk) {w : ℕ} (hw : w = wOf (wBits steps δ) f g) :
    ∃ m h, 0 < m ∧ JInv δ0 F G k steps δ f (i128 (g + i128 ((w : ℤ) * f)))
      ⟨t.a, t.b, i64 (i64 (t.a * w) + t.c), i64 (i64 (t.b * w) + t.d)⟩ m Fk h := by
  have ks := I.ks
  have hpos := I.pos
  have hdle := I.dle
  have hdge := I.dge
  set m := wBits steps δ with hm
  have hi : i64 (1 - δ) = 1 - δ := i64_id (by omega) (by omega)
  have hmdef : (m : ℤ) = min (min (steps : ℤ) (1 - δ)) 5 := by
    rw [hm, wBits, hi, Int.toNat_of_nonneg]
    omega
  have hm0 : 0 < m := by omega
  have hm5 : m ≤ 5 := by omega
  have hms : m ≤ steps := by omega
  have hmd : (m : ℤ) ≤ 1 - δ := by omega
  have hfodd : f % 2 = 1 := by
    have h1 : (2 : ℤ) ∣ f - Fk := dvd_trans (dvd_pow_self 2 (by omega)) I.fl
    have := I.odd
    omega
  obtain ⟨w1, w2⟩ := wOf_spec m f g hm5 hfodd
  rw [← hw] at w1 w2
  have hw31 : (w : ℤ) ≤ 31 := by
    have : 2 ^ m ≤ 2 ^ 5 := Nat.pow_le_pow_right (by decide) hm5
    have h2 : w < 2 ^ 5 := lt_of_lt_of_le w1 this
    norm_num at h2
    omega
  have hf2 := abs_le.mp I.fb
  have hg2 := abs_le.mp I.gb
  have hw0 : (0 : ℤ) ≤ w := by omega
  have hwf1 : (w : ℤ) * f ≤ 31 * 2 ^ 62 := by nlinarith
  have hwf2 : -(31 * 2 ^ 62) ≤ (w : ℤ) * f := by nlinarith
  have e1 : i128 ((w : ℤ) * f) = w * f := i128_id (by omega) (by omega)
  have e2 : i128 (g + w * f) = g + w * f := i128_id (by omega) (by omega)
  have hGk : (2 : ℤ) ^ m ∣ Gk + w * Fk := by
    have h1 : (2 : ℤ) ^ m ∣ (g + w * f) - (Gk + w * Fk) := by
      have h2 : (g + w * f) - (Gk + w * Fk) = (g - Gk) + w * (f - Fk) := by ring
      rw [h2]
      exact dvd_add (dvd_trans (pow_dvd_pow 2 hms) I.gl)
        (Dvd.dvd.mul_left (dvd_trans (pow_dvd_pow 2 hms) I.fl) _)
    exact (Int.dvd_iff_dvd_of_dvd_sub h1).mp w2
  obtain ⟨h, hh⟩ := hGk
  have w1' : (w : ℤ) + 1 ≤ 2 ^ m := by exact_mod_cast w1
  have hk1 : (2 : ℤ) ^ (k + m) ≤ 2 ^ 62 := pow62_mono (by omega)
  -- bounds on the new second row
  have hrow : ∀ x y z u : ℤ, |x| + |y| ≤ 2 ^ k → |z| + |u| ≤ 2 ^ k →
      |x * w + z| + |y * w + u| ≤ 2 ^ (k + m) := by
    intro x y z u h1 h2
    have a1 : |x * w + z| ≤ |x| * w + |z| := by
      refine le_trans (abs_add_le _ _) ?_
      rw [abs_mul, abs_of_nonneg hw0]
    have a2 : |y * w + u| ≤ |y| * w + |u| := by
      refine le_trans (abs_add_le _ _) ?_
      rw [abs_mul, abs_of_nonneg hw0]
    have a3 : (|x| + |y|) * w ≤ 2 ^ k * w := mul_le_mul_of_nonneg_right h1 hw0
    have a4 : (2 : ℤ) ^ k * (w + 1) ≤ 2 ^ k * 2 ^ m := mul_le_mul_of_nonneg_left w1' (by positivity)
    rw [pow_add]
    linarith
  have hr := hrow _ _ _ _ I.t0 I.t1
  obtain ⟨b1, b2⟩ := le_of_add_abs (le_trans hr hk1)
  have hr' := hrow _ _ 0 0 I.t0 (by simp)
  simp only [add_zero] at hr'
  obtain ⟨b3, b4⟩ := le_of_add_abs (le_trans hr' hk1)
  have b1' := abs_le.mp b1
  have b2' := abs_le.mp b2
  have b3' := abs_le.mp b3
  have b4' := abs_le.mp b4
  have e3 : i64 (t.a * w) = t.a * w := i64_id (by omega) (by omega)
  have e4 : i64 (t.b * w) = t.b * w := i64_id (by omega) (by omega)
  have e5 : i64 (t.a * w + t.c) = t.a * w + t.c := i64_id (by omega) (by omega)
  have e6 : i64 (t.b * w + t.d) = t.b * w + t.d := i64_id (by omega) (by omega)
  refine ⟨m, h, hm0, ?_⟩
  rw [e1, e2, e3, e4, e5, e6]
  refine ⟨ks, hms, I.row0, ?_, ?_, I.odd, I.fl, ?_, I.fb, ?_, I.t0, hr⟩
  · simp only; rw [← hh]; linear_combination I.row1 + (w : ℤ) * I.row0
  · rw [show k + m = (m - 1) + (k + 1) by omega, Function.iterate_add_apply, I.iter,
      ← Function.iterate_succ_apply, show (m - 1).succ = m by omega]
    exact iter_cancel m δ Fk Gk h w I.odd w1 hmd hh
  · rw [← hh]
    have h2 : (g + w * f) - (Gk + w * Fk) = (g - Gk) + w * (f - Fk) := by ring
    rw [h2]
    exact dvd_add I.gl (Dvd.dvd.mul_left I.fl _)
  · refine le_trans (abs_add_le _ _) ?_
    rw [abs_mul, abs_of_nonneg hw0]
    have a1 : (w : ℤ) * |f| ≤ w * 2 ^ 62 := mul_le_mul_of_nonneg_left I.fb hw0
    have a2 := I.gb
    have a3 : ((w : ℤ) + 1) * 2 ^ 62 ≤ 2 ^ m * 2 ^ 62 := mul_le_mul_of_nonneg_right w1' (by positivity)
    linarith

theorem jumpLoop_spec (fuel : ℕ) : ∀ {δ0 F G : ℤ} {k steps : ℕ} {δ f g : ℤ} {t : Mat} {m : ℕ}
    {Fk h : ℤ}, JInv δ0 F G k steps δ f g t m Fk h → |δ0| ≤ 2 ^ 62 →
    (steps + 2 ≤ fuel ∨ (0 < m ∧ steps + 1 ≤ fuel)) →
    ∃ F' G', JPost δ0 F G (jumpLoop fuel steps δ f g t) F' G' := by
  induction fuel with
  | zero => intros; omega
  | succ fuel ih =>
    intro δ0 F G k steps δ f g t m Fk h I hδ hfuel
    obtain ⟨z, hz⟩ : ∃ z, z = min steps (tz 128 (g % 2 ^ 128).toNat) := ⟨_, rfl⟩
    obtain ⟨hmz, e1, e2, e3, hodd, h', I2⟩ := I.zeros hδ hz
    unfold jumpLoop
    simp only
    rw [← hz, e1, e2, e3]
    by_cases hs : steps - z = 0
    · rw [if_pos hs]
      have ks := I2.ks
      have hk : k + z = 62 := by omega
      refine ⟨Fk, h', ?_, ?_, ?_, ?_, ?_⟩
      · have := I2.iter
        rw [hk] at this
        simpa using this
      · have := I2.row0; rw [hk] at this; exact this
      · have := I2.row1; rw [hk] at this; simpa using this
      · have := I2.t0; rw [hk] at this; exact this
      · have := I2.t1; rw [hk] at this; simpa using this
    · rw [if_neg hs]
      obtain ⟨Fk', Gk', I3⟩ := I2.mid hδ hs (hodd (by omega))
      obtain ⟨m', h'', hm', I4⟩ := I3.next rfl
      exact ih I4 hδ (Or.inr ⟨hm', by omega⟩)

/-- `jump` performs 62 division steps on the full integers `F`, `G` although it only sees their
lowest 62 bits, and no machine operation in it overflows. -/
theorem jump_spec (f g : List ℕ) (δ F G : ℤ) (hδ : |δ| ≤ 2 ^ 62) (hF : F % 2 = 1)
    (hf : lowest f < 2 ^ 62) (hg : lowest g < 2 ^ 62)
    (hfF : (2 : ℤ) ^ 62 ∣ (lowest f : ℤ) - F) (hgG : (2 : ℤ) ^ 62 ∣ (lowest g : ℤ) - G) :
    ∃ F' G', JPost δ F G (jump f g δ) F' G' := by
  unfold jump
  apply jumpLoop_spec 64 (k := 0) (m := 0) (Fk := F) (h := G) _ hδ (Or.inl le_rfl)
  have h1 : ((lowest f : ℕ) : ℤ) ≤ 2 ^ 62 := by exact_mod_cast hf.le
  have h2 : ((lowest g : ℕ) : ℤ) ≤ 2 ^ 62 := by exact_mod_cast hg.le
  refine ⟨rfl, by omega, by simp, by simp, by simp, hF, hfF, by simpa using hgG, ?_, ?_, by simp, by simp⟩
  · rw [abs_of_nonneg (by omega)]; exact h1
  · rw [abs_of_nonneg (by omega), pow_zero, one_mul]; exact h2

end Halo2.Inverse
