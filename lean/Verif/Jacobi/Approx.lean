import Verif.Jacobi.LInt

/-!
# The approximations of the two numbers
-/

namespace Halo2.Jacobi

open Halo2.Inverse (u64 i64 asU64 tz)

theorem topIdx_some {x y : List ℕ} {k i : ℕ} (h : topIdx x y k = some i) :
    i ≤ k ∧ (x.getD i 0 ≠ 0 ∨ y.getD i 0 ≠ 0) ∧
      ∀ j, i < j → j ≤ k → x.getD j 0 = 0 ∧ y.getD j 0 = 0 := by
  induction k with
  | zero =>
    rw [topIdx] at h
    split at h
    · exact absurd h (by simp)
    · rename_i hc
      rw [Option.some.injEq] at h
      subst h
      exact ⟨le_refl _, by tauto, fun j h1 h2 => by omega⟩
  | succ k ih =>
    rw [topIdx] at h
    split at h
    · rename_i hc
      obtain ⟨h1, h2, h3⟩ := ih h
      refine ⟨by omega, h2, fun j hj hk => ?_⟩
      rcases (by omega : j = k + 1 ∨ j ≤ k) with rfl | hjk
      · exact hc
      · exact h3 j hj hjk
    · rename_i hc
      rw [Option.some.injEq] at h
      subst h
      exact ⟨le_refl _, by tauto, fun j h1 h2 => by omega⟩

theorem topIdx_none {x y : List ℕ} {k : ℕ} (h : topIdx x y k = none) : x.getD 0 0 = 0 ∧ y.getD 0 0 = 0 := by
  induction k with
  | zero =>
    rw [topIdx] at h
    split at h
    · rename_i hc; exact hc
    · exact absurd h (by simp)
  | succ k ih =>
    rw [topIdx] at h
    split at h
    · exact ih h
    · exact absurd h (by simp)

theorem val_zero_of (l : List ℕ) (h : ∀ j, l.getD j 0 = 0) : val l = 0 := by
  induction l with
  | nil => rfl
  | cons a as ih =>
    have h0 := h 0
    have := ih fun j => by have := h (j + 1); simpa using this
    simp at h0
    rw [val_cons, this, h0]; simp

/-- The value of a number whose words above index `i` vanish. -/
theorem val_top {x : List ℕ} {i : ℕ} (hx : Wf x) (hi : i < x.length)
    (h : ∀ j, i < j → x.getD j 0 = 0) :
    ∃ r, r < W ^ i ∧ val x = r + W ^ i * x.getD i 0 := by
  refine ⟨val (x.take i), ?_, ?_⟩
  · have := val_lt (x.take i) (hx.take i)
    rwa [List.length_take, min_eq_left hi.le] at this
  · have e : x = x.take i ++ (x.getD i 0 :: x.drop (i + 1)) := by
      have h1 : x.getD i 0 = x[i] := by simp [List.getD, hi]
      rw [h1, List.getElem_cons_drop, List.take_append_drop]
    have h2 : val (x.drop (i + 1)) = 0 := by
      apply val_zero_of
      intro j
      have := h (i + 1 + j) (by omega)
      simpa [List.getD, List.getElem?_drop] using this
    conv_lhs => rw [e]
    rw [val_append, val_cons, h2, List.length_take, min_eq_left hi.le]
    simp

theorem getD_lt {x : List ℕ} (hx : Wf x) (i : ℕ) : x.getD i 0 < W := by
  by_cases hi : i < x.length
  · have h1 : x.getD i 0 = x[i] := by simp [List.getD, hi]
    rw [h1]; exact hx _ (List.getElem_mem hi)
  · have h1 : x.getD i 0 = 0 := by simp [List.getD, hi]
    rw [h1]; decide

theorem lz_spec {t : ℕ} (h0 : t ≠ 0) (ht : t < W) : 2 ^ 63 ≤ t * 2 ^ lz t ∧ t * 2 ^ lz t < 2 ^ 64 := by
  have h1 : Nat.size t ≤ 64 := Nat.size_le.mpr ht
  have h2 : 0 < Nat.size t := Nat.size_pos.mpr (by omega)
  have h3 : 2 ^ (Nat.size t - 1) ≤ t := by
    rw [← Nat.lt_size]; omega
  have h4 : t < 2 ^ Nat.size t := Nat.lt_size_self t
  unfold lz
  constructor
  · calc 2 ^ 63 = 2 ^ (Nat.size t - 1) * 2 ^ (64 - Nat.size t) := by rw [← pow_add]; congr 1; omega
      _ ≤ _ := Nat.mul_le_mul_right _ h3
  · calc t * 2 ^ (64 - Nat.size t) < 2 ^ Nat.size t * 2 ^ (64 - Nat.size t) :=
        Nat.mul_lt_mul_of_pos_right h4 (by positivity)
      _ = 2 ^ 64 := by rw [← pow_add]; congr 1; omega

theorem lz_anti {s t : ℕ} (h : s ≤ t) : lz t ≤ lz s := by
  have := Nat.size_le_size h
  unfold lz; omega

theorem approx1_eq {x : List ℕ} {i z : ℕ} (hx : Wf x) (hz : x.getD i 0 * 2 ^ z < 2 ^ 64) :
    approx1 x i z = x.getD i 0 * 2 ^ z / 2 ^ 32 * 2 ^ 32 + x.getD 0 0 % 2 ^ 32 := by
  unfold approx1
  dsimp only
  have e1 : u64 (x.getD i 0 * 2 ^ z) = x.getD i 0 * 2 ^ z := Nat.mod_eq_of_lt hz
  rw [e1]
  generalize x.getD i 0 * 2 ^ z = h at *
  have e2 : (if z > 32 then h ||| x.getD (i - 1) 0 / 2 ^ z else h) / 2 ^ 32 = h / 2 ^ 32 := by
    split
    · rename_i hz32
      have hl := getD_lt hx (i - 1)
      have hlt : x.getD (i - 1) 0 / 2 ^ z < 2 ^ 32 := by
        rw [Nat.div_lt_iff_lt_mul (by positivity), ← pow_add]
        exact lt_of_lt_of_le hl (Nat.pow_le_pow_right (by decide) (by omega))
      rw [← Nat.shiftRight_eq_div_pow, Nat.shiftRight_or_distrib, Nat.shiftRight_eq_div_pow,
        Nat.shiftRight_eq_div_pow, Nat.div_eq_of_lt hlt, Nat.or_zero]
    · rfl
  rw [e2, Nat.or_comm, or_shl (Nat.mod_lt _ (by norm_num)), Nat.add_comm]

/-- How the approximations compare when `x ≤ y`. -/
structure Cmp (X Y a b : ℕ) : Prop where
  top : 2 ^ 63 ≤ b
  le : a < b + 2 ^ 32
  near : b ≤ a → Y < 2 * X
  wide : ∀ k, 2 ^ k ≤ X → Y < 2 ^ (k + 1) → 2 ^ 63 ≤ a

theorem cmp_of {X Y tx ty rx ry H j z lx ly : ℕ} (hH : H = 2 ^ j) (hX : X = rx + H * tx) (hY : Y = ry + H * ty)
    (hrx : rx < H) (hry : ry < H) (hXY : X ≤ Y) (hz1 : 2 ^ 63 ≤ ty * 2 ^ z)
    (hz2 : ty * 2 ^ z < 2 ^ 64) (hlx : lx < 2 ^ 32) (hly : ly < 2 ^ 32) :
    Cmp X Y (tx * 2 ^ z / 2 ^ 32 * 2 ^ 32 + lx) (ty * 2 ^ z / 2 ^ 32 * 2 ^ 32 + ly) := by
  have htt : tx ≤ ty := by
    by_contra hc
    have : H * (ty + 1) ≤ H * tx := Nat.mul_le_mul_left _ (by omega)
    rw [Nat.mul_add, mul_one] at this
    omega
  have hm : tx * 2 ^ z ≤ ty * 2 ^ z := Nat.mul_le_mul_right _ htt
  refine ⟨by omega, by omega, fun h => ?_, fun k hk hk1 => ?_⟩
  swap
  · have hz63 : z ≤ 63 := by
      by_contra hc
      have h64 : 2 ^ 64 ≤ 2 ^ z := Nat.pow_le_pow_right (by decide) (by omega)
      have hty : 1 ≤ ty := by
        rcases Nat.eq_zero_or_pos ty with h0 | h0
        · rw [h0, Nat.zero_mul] at hz1; omega
        · exact h0
      have := Nat.mul_le_mul_right (2 ^ z) hty
      omega
    have e63 : 2 ^ 63 = 2 ^ (63 - z) * 2 ^ z := by rw [← pow_add]; congr 1; omega
    have h1 : 2 ^ (63 - z) ≤ ty := Nat.le_of_mul_le_mul_right (by rw [← e63]; exact hz1) (by positivity)
    have h2 : 2 ^ (j + (63 - z)) ≤ Y := by
      rw [hY, hH, pow_add]
      exact le_trans (Nat.mul_le_mul_left _ h1) (Nat.le_add_left _ _)
    have h3 : j + (63 - z) < k + 1 := (Nat.pow_lt_pow_iff_right (by decide)).mp (lt_of_le_of_lt h2 hk1)
    have h4 : 2 ^ (j + (63 - z)) ≤ X := le_trans (Nat.pow_le_pow_right (by decide) (by omega)) hk
    have h5 : 2 ^ (63 - z) ≤ tx := by
      by_contra hc
      have h6 : H * (tx + 1) ≤ H * 2 ^ (63 - z) := Nat.mul_le_mul_left _ (by omega)
      rw [hH, ← pow_add, ← hH, Nat.mul_add, mul_one] at h6
      omega
    have h7 : 2 ^ 63 ≤ tx * 2 ^ z := by rw [e63]; exact Nat.mul_le_mul_right _ h5
    omega
  have h1 : 2 ^ 63 ≤ tx * 2 ^ z := by omega
  have h2 : ty < 2 * tx := by
    by_contra hc
    have : 2 * tx * 2 ^ z ≤ ty * 2 ^ z := Nat.mul_le_mul_right _ (by omega)
    rw [mul_assoc] at this
    omega
  have h3 : H * (ty + 1) ≤ H * (2 * tx) := Nat.mul_le_mul_left _ (by omega)
  have h4 : H * (2 * tx) = 2 * (H * tx) := by ring
  rw [h4, Nat.mul_add, mul_one] at h3
  omega

/-- What `approximate` returns. -/
inductive ApproxSpec (x y : List ℕ) : Option (ℕ × ℕ × Bool) → Prop
  | precise (hx : val x < 2 ^ 64) (hy : val y < 2 ^ 64) : ApproxSpec x y (some (val x, val y, true))
  | rough (a b : ℕ) (ha : a < 2 ^ 64) (hb : b < 2 ^ 64) (ca : (2 : ℤ) ^ 32 ∣ a - val x)
      (cb : (2 : ℤ) ^ 32 ∣ b - val y) (hxy : val x ≤ val y → Cmp (val x) (val y) a b)
      (hyx : val y ≤ val x → Cmp (val y) (val x) b a) (heq : val x = val y → a = b) :
      ApproxSpec x y (some (a, b, false))

theorem low_mod {x : List ℕ} : x.getD 0 0 % 2 ^ 32 = val x % 2 ^ 32 := by
  cases x with
  | nil => rfl
  | cons c cs =>
    rw [val_cons, W_eq]
    simp only [List.getD_cons_zero]
    omega

theorem approximate_spec {L : ℕ} {x y : List ℕ} (hL : 0 < L) (hx : IsL L x) (hy : IsL L y)
    (hodd : val y % 2 = 1) : ApproxSpec x y (approximate L x y) := by
  unfold approximate
  have hy0 : y.getD 0 0 ≠ 0 := by
    have := low_mod (x := y)
    intro h
    rw [h] at this
    omega
  cases ht : topIdx x y (L - 1) with
  | none => exact absurd (topIdx_none ht).2 hy0
  | some i =>
    obtain ⟨h1, h2, h3⟩ := topIdx_some ht
    have zx : ∀ j, i < j → x.getD j 0 = 0 := by
      intro j hj
      by_cases hjl : j ≤ L - 1
      · exact (h3 j hj hjl).1
      · have := hx.len; simp [List.getD, show x.length ≤ j by omega]
    have zy : ∀ j, i < j → y.getD j 0 = 0 := by
      intro j hj
      by_cases hjl : j ≤ L - 1
      · exact (h3 j hj hjl).2
      · have := hy.len; simp [List.getD, show y.length ≤ j by omega]
    obtain ⟨rx, hrx, hvx⟩ := val_top hx.wf (by have := hx.len; omega) zx
    obtain ⟨ry, hry, hvy⟩ := val_top hy.wf (by have := hy.len; omega) zy
    cases i with
    | zero =>
      dsimp only
      have e1 : x.getD 0 0 = val x := by
        simp only [pow_zero] at hrx hvx; omega
      have e2 : y.getD 0 0 = val y := by
        simp only [pow_zero] at hry hvy; omega
      have l1 := getD_lt hx.wf 0
      have l2 := getD_lt hy.wf 0
      rw [e1] at *
      rw [e2] at *
      exact .precise l1 l2
    | succ i =>
      dsimp only
      have l1 := getD_lt hx.wf (i + 1)
      have l2 := getD_lt hy.wf (i + 1)
      have low1 := low_mod (x := x)
      have low2 := low_mod (x := y)
      obtain ⟨z, hz⟩ : ∃ z, z = min (lz (x.getD (i + 1) 0)) (lz (y.getD (i + 1) 0)) := ⟨_, rfl⟩
      rw [← hz]
      have hXY : val x ≤ val y → x.getD (i + 1) 0 ≤ y.getD (i + 1) 0 := by
        intro h
        by_contra hc
        have : W ^ (i + 1) * (y.getD (i + 1) 0 + 1) ≤ W ^ (i + 1) * x.getD (i + 1) 0 :=
          Nat.mul_le_mul_left _ (by omega)
        rw [Nat.mul_add, mul_one] at this
        omega
      have hYX : val y ≤ val x → y.getD (i + 1) 0 ≤ x.getD (i + 1) 0 := by
        intro h
        by_contra hc
        have : W ^ (i + 1) * (x.getD (i + 1) 0 + 1) ≤ W ^ (i + 1) * y.getD (i + 1) 0 :=
          Nat.mul_le_mul_left _ (by omega)
        rw [Nat.mul_add, mul_one] at this
        omega
      have zb : x.getD (i + 1) 0 * 2 ^ z < 2 ^ 64 ∧ y.getD (i + 1) 0 * 2 ^ z < 2 ^ 64 ∧
          (x.getD (i + 1) 0 ≤ y.getD (i + 1) 0 → 2 ^ 63 ≤ y.getD (i + 1) 0 * 2 ^ z) ∧
          (y.getD (i + 1) 0 ≤ x.getD (i + 1) 0 → 2 ^ 63 ≤ x.getD (i + 1) 0 * 2 ^ z) := by
        generalize x.getD (i + 1) 0 = tx at *
        generalize y.getD (i + 1) 0 = ty at *
        rcases le_total tx ty with hle | hle
        · have hzz : z = lz ty := by have := lz_anti hle; omega
          obtain ⟨p1, p2⟩ := lz_spec (t := ty) (by omega) l2
          rw [← hzz] at p1 p2
          have hm : tx * 2 ^ z ≤ ty * 2 ^ z := Nat.mul_le_mul_right _ hle
          refine ⟨by omega, p2, fun _ => p1, fun h => ?_⟩
          have : tx = ty := by omega
          rw [this]; exact p1
        · have hzz : z = lz tx := by have := lz_anti hle; omega
          obtain ⟨p1, p2⟩ := lz_spec (t := tx) (by omega) l1
          rw [← hzz] at p1 p2
          have hm : ty * 2 ^ z ≤ tx * 2 ^ z := Nat.mul_le_mul_right _ hle
          refine ⟨p2, by omega, fun h => ?_, fun _ => p1⟩
          have : tx = ty := by omega
          rw [← this]; exact p1
      obtain ⟨b1, b2, b3, b4⟩ := zb
      rw [approx1_eq hx.wf b1, approx1_eq hy.wf b2]
      have m1 : x.getD 0 0 % 2 ^ 32 < 2 ^ 32 := Nat.mod_lt _ (by norm_num)
      have m2 : y.getD 0 0 % 2 ^ 32 < 2 ^ 32 := Nat.mod_lt _ (by norm_num)
      have hW : ∀ k, W ^ k = 2 ^ (64 * k) := fun k => by rw [W_eq, ← pow_mul]
      refine .rough _ _ (by omega) (by omega) (by omega) (by omega) ?_ ?_ ?_
      · intro h
        exact cmp_of (hW (i + 1)) hvx hvy hrx hry h (b3 (hXY h)) b2 m1 m2
      · intro h
        exact cmp_of (hW (i + 1)) hvy hvx hry hrx h (b4 (hYX h)) b1 m2 m1
      · intro h
        have := hXY h.le
        have := hYX h.ge
        have e : x.getD (i + 1) 0 = y.getD (i + 1) 0 := by omega
        rw [e, low1, low2, h]

end Halo2.Jacobi
