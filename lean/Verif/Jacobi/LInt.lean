import Verif.Jacobi.Model
import Verif.Inverse.CInt

/-!
# The wrapping arithmetic of `LInt<L>` on two's complement codes
-/

namespace Halo2.Jacobi

open Halo2.Inverse (u64 i64 asU64 tz i64_id asU64_cast)

theorem W_eq : W = 2 ^ 64 := rfl

theorem sum_spec {x y c : ℕ} (hx : x < W) (hy : y < W) (hc : c ≤ 1) :
    (sum x y c).1 < W ∧ (sum x y c).2 ≤ 1 ∧ (sum x y c).1 + W * (sum x y c).2 = x + y + c := by
  rw [W_eq] at *
  have e : sum x y c = (u64 (x + u64 (y + c)),
      if 2 ^ 64 ≤ y + c ∨ 2 ^ 64 ≤ x + u64 (y + c) then 1 else 0) := by
    unfold sum
    dsimp only
    congr 2
    apply propext
    by_cases h1 : 2 ^ 64 ≤ y + c <;> by_cases h2 : 2 ^ 64 ≤ x + u64 (y + c) <;> simp only [h1, h2] <;> simp
  rw [e]
  unfold u64
  dsimp only
  refine ⟨Nat.mod_lt _ (by norm_num), ?_, ?_⟩
  · split <;> omega
  · split <;> omega

theorem prodsum_spec {x y s c : ℕ} (hx : x < W) (hy : y < W) (hs : s < W) (hc : c < W) :
    (prodsum x y s c).1 < W ∧ (prodsum x y s c).2 < W ∧
      (prodsum x y s c).1 + W * (prodsum x y s c).2 = x * y + c + s := by
  rw [W_eq] at *
  unfold prodsum u64
  dsimp only
  have hb : x * y ≤ (2 ^ 64 - 1) * (2 ^ 64 - 1) := Nat.mul_le_mul (by omega) (by omega)
  generalize x * y = q at *
  refine ⟨Nat.mod_lt _ (by norm_num), Nat.mod_lt _ (by norm_num), ?_⟩
  omega

theorem addLoop_spec (x y : List ℕ) (c : ℕ) (hx : Wf x) (hy : Wf y) (hl : x.length = y.length)
    (hc : c ≤ 1) : (addLoop x y c).length = x.length ∧ Wf (addLoop x y c) ∧
      ∃ k, val (addLoop x y c) + W ^ x.length * k = val x + val y + c := by
  induction x generalizing y c with
  | nil =>
    cases y with
    | nil => exact ⟨rfl, by simp [addLoop], c, by simp [addLoop]⟩
    | cons => simp at hl
  | cons a as ih =>
    cases y with
    | nil => simp at hl
    | cons b bs =>
      rw [Wf_cons] at hx hy
      obtain ⟨s1, s2, s3⟩ := sum_spec hx.1 hy.1 hc
      rw [addLoop]
      generalize sum a b c = r at *
      obtain ⟨h1, h2, k, h3⟩ := ih bs r.2 hx.2 hy.2 (by simpa using hl) s2
      refine ⟨by rw [List.length_cons, List.length_cons, h1], by rw [Wf_cons]; exact ⟨s1, h2⟩, k, ?_⟩
      simp only [val_cons, List.length_cons, pow_succ]
      linear_combination s3 + W * h3

/-- An `LInt<L>`. -/
structure IsL (L : ℕ) (x : List ℕ) : Prop where
  len : x.length = L
  wf : Wf x

theorem lAdd_spec {L : ℕ} {x y : List ℕ} (hx : IsL L x) (hy : IsL L y) :
    IsL L (lAdd x y) ∧ (val (lAdd x y) : ℤ) ≡ val x + val y [ZMOD (W : ℤ) ^ L] := by
  obtain ⟨h1, h2, k, h3⟩ := addLoop_spec x y 0 hx.wf hy.wf (by rw [hx.len, hy.len]) (by decide)
  refine ⟨⟨by rw [lAdd, h1, hx.len], h2⟩, ?_⟩
  rw [hx.len] at h3
  have h4 : (val (lAdd x y) : ℤ) + (W : ℤ) ^ L * k = val x + val y := by
    unfold lAdd; exact_mod_cast h3
  rw [← h4]
  exact (Int.modEq_iff_dvd.mpr ⟨k, by ring⟩)

theorem not64_spec {x : ℕ} (h : x < W) : not64 x < W ∧ not64 x + x + 1 = W := by
  rw [W_eq] at *; unfold not64; omega

theorem map_not64 (x : List ℕ) (hx : Wf x) :
    Wf (x.map not64) ∧ val (x.map not64) + val x + 1 = W ^ x.length := by
  induction x with
  | nil => simp
  | cons a as ih =>
    rw [Wf_cons] at hx
    obtain ⟨h1, h2⟩ := ih hx.2
    obtain ⟨n1, n2⟩ := not64_spec hx.1
    rw [List.map_cons, Wf_cons]
    refine ⟨⟨n1, h1⟩, ?_⟩
    simp only [val_cons, List.length_cons, pow_succ]
    linear_combination n2 + W * h2

theorem lSub_spec {L : ℕ} {x y : List ℕ} (hx : IsL L x) (hy : IsL L y) :
    IsL L (lSub x y) ∧ (val (lSub x y) : ℤ) ≡ val x - val y [ZMOD (W : ℤ) ^ L] := by
  obtain ⟨m1, m2⟩ := map_not64 y hy.wf
  obtain ⟨h1, h2, k, h3⟩ := addLoop_spec x (y.map not64) 1 hx.wf m1 (by simp [hx.len, hy.len]) (by decide)
  refine ⟨⟨by rw [lSub, h1, hx.len], h2⟩, ?_⟩
  rw [hx.len] at h3
  rw [hy.len] at m2
  have h4 : (val (lSub x y) : ℤ) + (W : ℤ) ^ L * k = val x + val (y.map not64) + 1 := by
    unfold lSub; exact_mod_cast h3
  have m3 : (val (y.map not64) : ℤ) + val y + 1 = (W : ℤ) ^ L := by exact_mod_cast m2
  exact (Int.modEq_iff_dvd.mpr ⟨k - 1, by linear_combination -m3 - h4⟩)

theorem negLoop_spec (x : List ℕ) (c : ℕ) (hx : Wf x) (hc : c ≤ 1) :
    (negLoop x c).length = x.length ∧ Wf (negLoop x c) ∧
      ∃ k, val (negLoop x c) + W ^ x.length * k + val x + 1 = W ^ x.length + c := by
  induction x generalizing c with
  | nil => exact ⟨rfl, by simp [negLoop], c, by simp [negLoop]; ring⟩
  | cons a as ih =>
    rw [Wf_cons] at hx
    obtain ⟨n1, n2⟩ := not64_spec hx.1
    rw [negLoop]
    have hs : u64 (not64 a + c) < W ∧ (if 2 ^ 64 ≤ not64 a + c then 1 else 0) ≤ 1 ∧
        u64 (not64 a + c) + W * (if 2 ^ 64 ≤ not64 a + c then 1 else 0) = not64 a + c := by
      rw [W_eq] at *
      unfold u64
      refine ⟨Nat.mod_lt _ (by norm_num), by split <;> omega, by split <;> omega⟩
    generalize u64 (not64 a + c) = r at *
    generalize (if 2 ^ 64 ≤ not64 a + c then 1 else 0) = e at *
    obtain ⟨s1, s2, s3⟩ := hs
    obtain ⟨h1, h2, k, h3⟩ := ih e hx.2 s2
    refine ⟨by rw [List.length_cons, List.length_cons, h1], by rw [Wf_cons]; exact ⟨s1, h2⟩, k, ?_⟩
    simp only [val_cons, List.length_cons, pow_succ]
    linear_combination s3 + W * h3 + n2

theorem lNeg_spec {L : ℕ} {x : List ℕ} (hx : IsL L x) :
    IsL L (lNeg x) ∧ (val (lNeg x) : ℤ) ≡ -(val x : ℤ) [ZMOD (W : ℤ) ^ L] := by
  obtain ⟨h1, h2, k, h3⟩ := negLoop_spec x 1 hx.wf (by decide)
  refine ⟨⟨by rw [lNeg, h1, hx.len], h2⟩, ?_⟩
  rw [hx.len] at h3
  have h4 : (val (lNeg x) : ℤ) + (W : ℤ) ^ L * k + val x + 1 = (W : ℤ) ^ L + 1 := by
    unfold lNeg; exact_mod_cast h3
  exact (Int.modEq_iff_dvd.mpr ⟨(k : ℤ) - 1, by linear_combination -h4⟩)

theorem mulLoop_spec (o mask : ℕ) (x : List ℕ) (c : ℕ) (ho : o < W) (hc : c < W)
    (hx : Wf (x.map (· ^^^ mask))) :
    (mulLoop o mask x c).length = x.length ∧ Wf (mulLoop o mask x c) ∧
      ∃ k, val (mulLoop o mask x c) + W ^ x.length * k = val (x.map (· ^^^ mask)) * o + c := by
  induction x generalizing c with
  | nil => exact ⟨rfl, by simp [mulLoop], c, by simp [mulLoop]⟩
  | cons a as ih =>
    rw [List.map_cons, Wf_cons] at hx
    rw [mulLoop]
    obtain ⟨s1, s2, s3⟩ := prodsum_spec hx.1 ho (by decide : 0 < W) hc
    generalize prodsum (a ^^^ mask) o 0 c = r at *
    obtain ⟨h1, h2, k, h3⟩ := ih r.2 s2 hx.2
    refine ⟨by rw [List.length_cons, List.length_cons, h1], by rw [Wf_cons]; exact ⟨s1, h2⟩, k, ?_⟩
    simp only [val_cons, List.length_cons, pow_succ, List.map_cons]
    linear_combination s3 + W * h3

theorem xor_ones {x : ℕ} (h : x < W) : x ^^^ (2 ^ 64 - 1) = not64 x := by
  rw [W_eq] at h
  unfold not64
  apply Nat.eq_of_testBit_eq
  intro i
  rw [Nat.testBit_xor, Nat.testBit_two_pow_sub_one]
  have e : 2 ^ 64 - 1 - x = 2 ^ 64 - (x + 1) := by omega
  rw [e, Nat.testBit_two_pow_sub_succ h]
  by_cases hi : i < 64
  · simp [hi]
  · have : x.testBit i = false :=
      Nat.testBit_lt_two_pow (lt_of_lt_of_le h (Nat.pow_le_pow_right (by decide) (by omega)))
    simp [hi, this]

theorem map_xor_ones (x : List ℕ) (hx : Wf x) : x.map (· ^^^ (2 ^ 64 - 1)) = x.map not64 :=
  List.map_congr_left fun a ha => xor_ones (hx a ha)

theorem lMulI64_spec {L : ℕ} {x : List ℕ} (hx : IsL L x) (o : ℤ) (h1 : -2 ^ 63 ≤ o)
    (h2 : o < 2 ^ 63) :
    IsL L (lMulI64 x o) ∧ (val (lMulI64 x o) : ℤ) ≡ o * val x [ZMOD (W : ℤ) ^ L] := by
  have hW := W_eq
  unfold lMulI64
  split
  · rename_i hn
    have e2 : (asU64 (i64 (-o)) : ℤ) = -o := by
      rcases eq_or_lt_of_le h1 with rfl | h1
      · decide +kernel
      · rw [i64_id (by omega) (by omega), asU64_cast]; omega
    generalize asU64 (i64 (-o)) = n at *
    obtain ⟨m1, m2⟩ := map_not64 x hx.wf
    have hw : Wf (x.map (· ^^^ (2 ^ 64 - 1))) := by rw [map_xor_ones x hx.wf]; exact m1
    obtain ⟨l1, l2, k, l3⟩ := mulLoop_spec n (2 ^ 64 - 1) x n (by omega) (by omega) hw
    refine ⟨⟨by rw [l1, hx.len], l2⟩, ?_⟩
    rw [hx.len, map_xor_ones x hx.wf] at l3
    rw [hx.len] at m2
    generalize mulLoop n (2 ^ 64 - 1) x n = r at *
    have l4 : (val r : ℤ) + (W : ℤ) ^ L * k = val (x.map not64) * n + n := by
      exact_mod_cast l3
    have m3 : (val (x.map not64) : ℤ) + val x + 1 = (W : ℤ) ^ L := by exact_mod_cast m2
    rw [Int.modEq_iff_dvd]
    refine ⟨(k : ℤ) - n, ?_⟩
    have e3 : o = -(n : ℤ) := by omega
    rw [e3]
    linear_combination -l4 - n * m3
  · rename_i hn
    have e2 : (asU64 o : ℤ) = o := by rw [asU64_cast]; omega
    generalize asU64 o = n at *
    have hw : Wf (x.map (· ^^^ 0)) := by rw [Inverse.map_xor_zero]; exact hx.wf
    obtain ⟨l1, l2, k, l3⟩ := mulLoop_spec n 0 x 0 (by omega) (by decide) hw
    refine ⟨⟨by rw [l1, hx.len], l2⟩, ?_⟩
    rw [hx.len, Inverse.map_xor_zero] at l3
    have l4 : (val (mulLoop n 0 x 0) : ℤ) + (W : ℤ) ^ L * k = val x * n + 0 := by
      exact_mod_cast l3
    rw [Int.modEq_iff_dvd]
    refine ⟨(k : ℤ), ?_⟩
    rw [← e2]
    linear_combination -l4

theorem mulRow_spec (x : ℕ) (acc ys : List ℕ) (c : ℕ) (hx : x < W) (hc : c < W) (ha : Wf acc)
    (hy : Wf ys) (hl : acc.length ≤ ys.length) :
    (mulRow x acc ys c).length = acc.length ∧ Wf (mulRow x acc ys c) ∧
      (val (mulRow x acc ys c) : ℤ) ≡ val acc + x * val ys + c [ZMOD (W : ℤ) ^ acc.length] := by
  induction acc generalizing ys c with
  | nil =>
    refine ⟨by simp [mulRow], by simp [mulRow], ?_⟩
    simp only [List.length_nil, pow_zero]
    exact Int.modEq_one
  | cons a acc ih =>
    cases ys with
    | nil => simp at hl
    | cons y ys =>
      rw [Wf_cons] at ha hy
      rw [mulRow]
      obtain ⟨s1, s2, s3⟩ := prodsum_spec hx hy.1 ha.1 hc
      generalize prodsum x y a c = r at *
      obtain ⟨h1, h2, h3⟩ := ih ys r.2 s2 ha.2 hy.2 (by simpa using hl)
      refine ⟨by rw [List.length_cons, List.length_cons, h1], by rw [Wf_cons]; exact ⟨s1, h2⟩, ?_⟩
      rw [Int.modEq_iff_dvd] at h3 ⊢
      obtain ⟨k, hk⟩ := h3
      refine ⟨k, ?_⟩
      have s3' : (r.1 : ℤ) + W * r.2 = x * y + c + a := by exact_mod_cast s3
      simp only [val_cons, List.length_cons, pow_succ]
      push_cast
      linear_combination (W : ℤ) * hk - s3'

theorem mulRows_spec (y xs acc : List ℕ) (hx : Wf xs) (ha : Wf acc) (hy : Wf y)
    (hl : acc.length = xs.length) (hly : xs.length ≤ y.length) :
    (mulRows y xs acc).length = xs.length ∧ Wf (mulRows y xs acc) ∧
      (val (mulRows y xs acc) : ℤ) ≡ val acc + val xs * val y [ZMOD (W : ℤ) ^ xs.length] := by
  induction xs generalizing acc with
  | nil =>
    refine ⟨by simp [mulRows], by simp [mulRows], ?_⟩
    simp only [List.length_nil, pow_zero]
    exact Int.modEq_one
  | cons x xs ih =>
    rw [Wf_cons] at hx
    rw [mulRows]
    obtain ⟨r1, r2, r3⟩ := mulRow_spec x acc y 0 hx.1 (by decide) ha hy (by omega)
    generalize mulRow x acc y 0 = r at *
    cases r with
    | nil => simp at r1; rw [← r1] at hl; simp at hl
    | cons r0 r =>
      rw [Wf_cons] at r2
      simp only [List.headD_cons, List.tail_cons]
      obtain ⟨h1, h2, h3⟩ := ih r hx.2 r2.2 (by simp at r1 hl; omega) (by simp at hly; omega)
      refine ⟨by rw [List.length_cons, List.length_cons, h1], by rw [Wf_cons]; exact ⟨r2.1, h2⟩, ?_⟩
      rw [hl] at r3
      rw [Int.modEq_iff_dvd] at h3 r3 ⊢
      obtain ⟨k, hk⟩ := h3
      obtain ⟨j, hj⟩ := r3
      refine ⟨k + j, ?_⟩
      simp only [val_cons, List.length_cons, pow_succ] at hj ⊢
      push_cast at hj ⊢
      linear_combination (W : ℤ) * hk + hj

theorem lMul_spec {L : ℕ} {x y : List ℕ} (hx : IsL L x) (hy : IsL L y) :
    IsL L (lMul x y) ∧ (val (lMul x y) : ℤ) ≡ val x * val y [ZMOD (W : ℤ) ^ L] := by
  obtain ⟨h1, h2, h3⟩ := mulRows_spec y x (List.replicate x.length 0) hx.wf (Wf_replicate _) hy.wf
    (by simp) (by rw [hx.len, hy.len])
  refine ⟨⟨by rw [lMul, h1, hx.len], h2⟩, ?_⟩
  rw [val_replicate, hx.len] at h3
  rw [lMul, hx.len]
  simpa using h3

/-! ## Shifts -/

/-- Disjoint `or` is addition. -/
theorem or_shl {lo hi k : ℕ} (h : lo < 2 ^ k) : lo ||| hi * 2 ^ k = lo + hi * 2 ^ k := by
  rw [Nat.or_comm, Nat.mul_comm, ← Nat.two_pow_add_eq_or_of_lt h]; ring

theorem split64 {b : ℕ} (hb : b ≤ 64) : 2 ^ b * 2 ^ (64 - b) = W := by
  rw [W_eq, ← pow_add]; congr 1; omega

theorem div_lt_of {x b : ℕ} (hb : b ≤ 64) (hx : x < W) : x / 2 ^ b < 2 ^ (64 - b) := by
  rw [Nat.div_lt_iff_lt_mul (by positivity), mul_comm, split64 hb]; exact hx

theorem shl_wrap {y b : ℕ} (hb : b ≤ 64) : u64 (y * 2 ^ (64 - b)) = y % 2 ^ b * 2 ^ (64 - b) := by
  unfold u64
  have : 2 ^ 64 = 2 ^ b * 2 ^ (64 - b) := (split64 hb).symm
  rw [this, Nat.mul_mod_mul_right]

theorem shrLoop_spec {b : ℕ} (hb : b ≤ 64) (neg : Bool) (x : List ℕ) (hx : Wf x) (hne : x ≠ []) :
    (shrLoop b neg x).length = x.length ∧ Wf (shrLoop b neg x) ∧
      val (shrLoop b neg x) = val x / 2 ^ b +
        if neg then (2 ^ b - 1) * 2 ^ (64 - b) * W ^ (x.length - 1) else 0 := by
  induction x with
  | nil => exact absurd rfl hne
  | cons x r ih =>
    rw [Wf_cons] at hx
    have hlt := div_lt_of hb hx.1
    have hs := split64 hb
    cases r with
    | nil =>
      have e : u64 ((2 ^ 64 - 1) * 2 ^ (64 - b)) = (2 ^ b - 1) * 2 ^ (64 - b) := by
        rw [shl_wrap hb]
        congr 1
        have h1 : 2 ^ 64 = 2 ^ b * 2 ^ (64 - b) := hs.symm
        have h2 : 0 < 2 ^ b := by positivity
        have h3 : 0 < 2 ^ (64 - b) := by positivity
        have h4 : 2 ^ 64 - 1 = (2 ^ b - 1) + 2 ^ b * (2 ^ (64 - b) - 1) := by
          rw [h1, Nat.mul_sub, mul_one]
          have : 2 ^ b ≤ 2 ^ b * 2 ^ (64 - b) := Nat.le_mul_of_pos_right _ h3
          omega
        rw [h4, Nat.add_mul_mod_self_left, Nat.mod_eq_of_lt (by omega)]
      have h2 : 0 < 2 ^ b := by positivity
      cases neg with
      | false =>
        refine ⟨rfl, ?_, ?_⟩
        · rw [shrLoop]; simp only [Bool.false_eq_true, if_false, Wf_cons, Wf_nil, and_true]
          exact lt_of_le_of_lt (Nat.div_le_self _ _) hx.1
        · simp [shrLoop]
      | true =>
        simp only [shrLoop, if_true, e, or_shl hlt]
        refine ⟨rfl, ?_, ?_⟩
        · simp only [Wf_cons, Wf_nil, and_true]
          rw [← hs]
          have : (2 ^ b - 1) * 2 ^ (64 - b) + 2 ^ (64 - b) = 2 ^ b * 2 ^ (64 - b) := by
            rw [Nat.sub_mul, one_mul]
            exact Nat.sub_add_cancel (Nat.le_mul_of_pos_left _ h2)
          omega
        · simp
    | cons y r =>
      obtain ⟨h1, h2, h3⟩ := ih hx.2 (by simp)
      rw [shrLoop, shl_wrap hb, or_shl hlt]
      refine ⟨by simp [h1], ?_, ?_⟩
      · rw [Wf_cons]
        refine ⟨?_, h2⟩
        have h4 : y % 2 ^ b + 1 ≤ 2 ^ b := Nat.mod_lt _ (by positivity)
        have := Nat.mul_le_mul_right (2 ^ (64 - b)) h4
        rw [hs, add_mul, one_mul] at this
        omega
      · rw [val_cons, h3]
        have hm : val (y :: r) % 2 ^ b = y % 2 ^ b := by
          have : W = 2 ^ b * 2 ^ (64 - b) := hs.symm
          rw [val_cons, this, mul_assoc, Nat.add_mul_mod_self_left]
        rw [val_cons x]
        generalize val (y :: r) = V at *
        have hd : (x + W * V) / 2 ^ b = x / 2 ^ b + 2 ^ (64 - b) * V := by
          rw [← hs, mul_assoc, Nat.add_mul_div_left _ _ (by positivity)]
        rw [hd, ← hm]
        have h5 := Nat.mod_add_div V (2 ^ b)
        have h6 : 2 ^ (64 - b) * V = V % 2 ^ b * 2 ^ (64 - b) + W * (V / 2 ^ b) := by
          rw [← hs]
          conv_lhs => rw [← h5]
          ring
        rw [h6]
        cases neg with
        | false => simp; ring
        | true =>
          simp only [if_true, List.length_cons, Nat.add_sub_cancel, pow_succ]
          ring

/-! ## Signed values -/

/-- `x` is the two's complement code of the integer `v`. -/
structure Code (L : ℕ) (x : List ℕ) (v : ℤ) : Prop where
  isL : IsL L x
  lo : -2 ^ (64 * L - 1) ≤ v
  hi : v < 2 ^ (64 * L - 1)
  eq : (val x : ℤ) ≡ v [ZMOD (W : ℤ) ^ L]

theorem WL_eq (L : ℕ) : (W : ℤ) ^ L = 2 ^ (64 * L) := by
  rw [W_eq, pow_mul]; norm_num

theorem two_pow_half {L : ℕ} (hL : 0 < L) : (W : ℤ) ^ L = 2 * 2 ^ (64 * L - 1) := by
  rw [WL_eq, ← pow_succ']; congr 1; omega

/-- The two cases of a code. -/
theorem Code.cases {L : ℕ} (hL : 0 < L) {x : List ℕ} {v : ℤ} (h : Code L x v) :
    (0 ≤ v ∧ (val x : ℤ) = v) ∨ (v < 0 ∧ (val x : ℤ) = v + (W : ℤ) ^ L) := by
  have hq := h.eq
  rw [Int.modEq_iff_dvd] at hq
  obtain ⟨k, hk⟩ := hq
  have h1 := h.lo
  have h2 := h.hi
  have hb := val_lt x h.isL.wf
  rw [h.isL.len] at hb
  have hb' : (val x : ℤ) < (W : ℤ) ^ L := by exact_mod_cast hb
  rw [two_pow_half hL] at *
  have hp : (0 : ℤ) < 2 ^ (64 * L - 1) := by positivity
  have h0 : (0 : ℤ) ≤ val x := by positivity
  generalize (2 : ℤ) ^ (64 * L - 1) = P at *
  generalize (val x : ℤ) = u at *
  have k1 : k ≤ 0 := by
    by_contra hc
    have : 1 ≤ k := by omega
    nlinarith
  have k2 : -1 ≤ k := by
    by_contra hc
    have : k ≤ -2 := by omega
    nlinarith
  rcases (by omega : k = 0 ∨ k = -1) with rfl | rfl
  · left; constructor <;> linarith
  · right; constructor <;> linarith

theorem Code.of {L : ℕ} {x : List ℕ} {v : ℤ} (hx : IsL L x)
    (he : (val x : ℤ) ≡ v [ZMOD (W : ℤ) ^ L]) (h : |v| < 2 ^ (64 * L - 1)) : Code L x v :=
  ⟨hx, (abs_lt.mp h).1.le, (abs_lt.mp h).2, he⟩

theorem Code.functional {L : ℕ} (hL : 0 < L) {x : List ℕ} {v w : ℤ} (h1 : Code L x v)
    (h2 : Code L x w) : v = w := by
  have a1 := h1.lo; have a2 := h1.hi; have a3 := h2.lo; have a4 := h2.hi
  have hp : (0 : ℤ) < 2 ^ (64 * L - 1) := by positivity
  have c1 := h1.cases hL
  have c2 := h2.cases hL
  rw [two_pow_half hL] at *
  omega

theorem Code.inj {L : ℕ} (hL : 0 < L) {x y : List ℕ} {v : ℤ} (h1 : Code L x v) (h2 : Code L y v) : x = y := by
  apply val_inj h1.isL.wf h2.isL.wf (by rw [h1.isL.len, h2.isL.len])
  have c1 := h1.cases hL
  have c2 := h2.cases hL
  have : (val x : ℤ) = val y := by omega
  exact_mod_cast this

/-- `is_negative` is the sign. -/
theorem isNeg_spec {L : ℕ} (hL : 0 < L) {x : List ℕ} {v : ℤ} (h : Code L x v) :
    isNeg x = decide (v < 0) := by
  obtain ⟨xs, c, rfl, hxs⟩ := Inverse.snoc_of_pos hL h.isL.len
  have hw := h.isL.wf
  rw [Wf_append] at hw
  have hc : c < W := by simpa using hw.2
  have hu : val (xs ++ [c]) = val xs + W ^ (L - 1) * c := by
    rw [val_append, hxs]; simp
  have hlt := val_lt xs hw.1
  rw [hxs] at hlt
  have hneg : isNeg (xs ++ [c]) = decide (2 ^ 63 ≤ c) := by
    unfold isNeg
    simp only [List.getLastD_eq_getLast?, List.getLast?_append, List.getLast?_singleton,
      Option.some_or, Option.getD_some]
    congr 1
  rw [hneg]
  congr 1
  apply propext
  have hcs := h.cases hL
  have h1 := h.lo
  have h2 := h.hi
  have hp := W_eq
  have hP : (2 : ℤ) ^ (64 * L - 1) = 2 ^ 63 * (W : ℤ) ^ (L - 1) := by
    rw [WL_eq, ← pow_add]; congr 1; omega
  rw [two_pow_half hL] at hcs
  rw [hu] at hcs
  push_cast at hcs
  have hlt' : (val xs : ℤ) < (W : ℤ) ^ (L - 1) := by exact_mod_cast hlt
  have h0 : (0 : ℤ) ≤ val xs := by positivity
  have hpos : (0 : ℤ) < (W : ℤ) ^ (L - 1) := pow_pos (by rw [W_eq]; norm_num) _
  rw [hP] at h1 h2 hcs
  generalize (W : ℤ) ^ (L - 1) = P at *
  generalize (val xs : ℤ) = u at *
  constructor
  · intro hge
    by_contra hv
    have hge' : (2 : ℤ) ^ 63 ≤ c := by exact_mod_cast hge
    rcases hcs with ⟨_, hcs⟩ | ⟨hn, _⟩
    · nlinarith
    · omega
  · intro hv
    by_contra hge
    have hge' : (c : ℤ) + 1 ≤ 2 ^ 63 := by
      have : c + 1 ≤ 2 ^ 63 := by omega
      exact_mod_cast this
    rcases hcs with ⟨hn, _⟩ | ⟨_, hcs⟩
    · omega
    · nlinarith

/-- `>>` is the arithmetic shift: division by `2^b` rounding down. -/
theorem lShr_floor {L b : ℕ} (hL : 0 < L) (hb : b ≤ 64) {x : List ℕ} {v : ℤ} (h : Code L x v) :
    Code L (lShr x b) (v / 2 ^ b) := by
  have hn := isNeg_spec hL h
  have hne : x ≠ [] := by intro e; have := h.isL.len; rw [e] at this; simp at this; omega
  obtain ⟨h1, h2, h3⟩ := shrLoop_spec hb (isNeg x) x h.isL.wf hne
  have hc := h.cases hL
  have lo := h.lo
  have hi := h.hi
  have hpos : (0 : ℤ) < 2 ^ (64 * L - 1) := by positivity
  have hp2 : (1 : ℤ) ≤ 2 ^ b := one_le_pow₀ (by norm_num)
  have hp0 : (0 : ℤ) < 2 ^ b := by positivity
  have hs : ((2 : ℤ) ^ b - 1) * 2 ^ (64 - b) * (W : ℤ) ^ (L - 1) = (W : ℤ) ^ L - 2 ^ (64 - b) * (W : ℤ) ^ (L - 1) := by
    have e : (W : ℤ) ^ L = (2 ^ b * 2 ^ (64 - b)) * (W : ℤ) ^ (L - 1) := by
      have e1 : ((2 : ℤ) ^ b * 2 ^ (64 - b)) = W := by exact_mod_cast split64 hb
      rw [e1, ← pow_succ']; congr 1; omega
    rw [e]; ring
  refine ⟨⟨by rw [lShr, h1, h.isL.len], h2⟩, ?_, ?_, ?_⟩
  · rw [Int.le_ediv_iff_mul_le hp0]
    nlinarith
  · rw [Int.ediv_lt_iff_lt_mul hp0]
    nlinarith
  · unfold lShr
    rw [h3, hn, h.isL.len]
    rcases hc with ⟨c1, c2⟩ | ⟨c1, c2⟩
    · have : ¬ v < 0 := by omega
      simp only [this, decide_false, Bool.false_eq_true, if_false, add_zero]
      push_cast
      rw [c2]
    · simp only [c1, decide_true, if_true]
      push_cast
      rw [Nat.cast_sub (Nat.one_le_two_pow)]
      push_cast
      rw [c2, hs]
      have e : (W : ℤ) ^ L = (2 ^ (64 - b) * (W : ℤ) ^ (L - 1)) * 2 ^ b := by
        have e1 : ((2 : ℤ) ^ b * 2 ^ (64 - b)) = W := by exact_mod_cast split64 hb
        rw [mul_comm _ ((2 : ℤ) ^ b), ← mul_assoc, e1, ← pow_succ']; congr 1; omega
      have e2 : (v + (W : ℤ) ^ L) / 2 ^ b = v / 2 ^ b + 2 ^ (64 - b) * (W : ℤ) ^ (L - 1) := by
        conv_lhs => rw [e]
        rw [Int.add_mul_ediv_right _ _ hp0.ne']
      rw [e2, Int.modEq_iff_dvd]
      exact ⟨-1, by ring⟩

/-- `>>` divides an exact multiple by `2^b`. -/
theorem lShr_spec {L b : ℕ} (hL : 0 < L) (hb : b ≤ 64) {x : List ℕ} {v w : ℤ} (h : Code L x v)
    (hv : v = 2 ^ b * w) : Code L (lShr x b) w := by
  have := lShr_floor hL hb h
  rwa [hv, Int.mul_ediv_cancel_left _ (by positivity)] at this

theorem code_zero {L : ℕ} : Code L (lZero L) 0 :=
  ⟨⟨by simp [lZero], Wf_replicate L⟩, by simp, by positivity, by rw [lZero, val_replicate]; simp⟩

theorem code_one {L : ℕ} (hL : 0 < L) : Code L (lOne L) 1 := by
  refine ⟨⟨by simp [lOne]; omega, ?_⟩, ?_, ?_, ?_⟩
  · rw [lOne, Wf_cons]; exact ⟨by decide, Wf_replicate _⟩
  · have : (0 : ℤ) < 2 ^ (64 * L - 1) := by positivity
    omega
  · exact_mod_cast Nat.one_lt_two_pow (by omega)
  · rw [lOne, val_cons, val_replicate]; simp

/-- Negation of a code. -/
theorem Code.neg {L : ℕ} {x : List ℕ} {v : ℤ} (h : Code L x v) (hv : |v| < 2 ^ (64 * L - 1)) :
    Code L (lNeg x) (-v) := by
  obtain ⟨h1, h2⟩ := lNeg_spec h.isL
  exact Code.of h1 (h2.trans h.eq.neg) (by rw [abs_neg]; exact hv)

/-- A linear combination that does not overflow. -/
theorem comb_spec {L : ℕ} {x y : List ℕ} {X Y : ℤ} (hx : Code L x X) (hy : Code L y Y) {a b : ℤ}
    (ha : |a| < 2 ^ 63) (hb : |b| < 2 ^ 63) (h : |X * a + Y * b| < 2 ^ (64 * L - 1)) :
    Code L (lAdd (lMulI64 x a) (lMulI64 y b)) (X * a + Y * b) := by
  obtain ⟨m1, m2⟩ := lMulI64_spec hx.isL a (abs_lt.mp ha).1.le (abs_lt.mp ha).2
  obtain ⟨n1, n2⟩ := lMulI64_spec hy.isL b (abs_lt.mp hb).1.le (abs_lt.mp hb).2
  obtain ⟨s1, s2⟩ := lAdd_spec m1 n1
  refine Code.of s1 (s2.trans ?_) h
  have e1 := m2.trans (hx.eq.mul_left a)
  have e2 := n2.trans (hy.eq.mul_left b)
  rw [mul_comm X, mul_comm Y]
  exact e1.add e2

end Halo2.Jacobi
