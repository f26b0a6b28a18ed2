import Verif.Inverse.Jump

/-!
# Two's complement chunk arithmetic (`CInt<62, L>`) computes modulo `2^(62 L)`
-/

namespace Halo2.Inverse

/-- Unsigned value of a list of `B`-bit chunks. -/
def uval (B : ℕ) : List ℕ → ℕ
  | [] => 0
  | x :: xs => x + 2 ^ B * uval B xs

/-- All chunks have `B` bits. -/
def CWf (B : ℕ) (x : List ℕ) : Prop := ∀ c ∈ x, c < 2 ^ B

theorem CWf.cons {B c : ℕ} {x : List ℕ} : CWf B (c :: x) ↔ c < 2 ^ B ∧ CWf B x := by
  simp [CWf]

theorem uval_lt {B : ℕ} {x : List ℕ} (h : CWf B x) : uval B x < 2 ^ (B * x.length) := by
  induction x with
  | nil => simp [uval]
  | cons c cs ih =>
    rw [CWf.cons] at h
    have := ih h.2
    simp only [uval, List.length_cons, Nat.mul_add, Nat.mul_one, pow_add]
    have h3 : 2 ^ B * (uval B cs + 1) ≤ 2 ^ B * 2 ^ (B * cs.length) := Nat.mul_le_mul_left _ this
    rw [mul_comm (2 ^ (B * cs.length))]
    have := h.1
    linarith

theorem uval_inj {B : ℕ} {x y : List ℕ} (hx : CWf B x) (hy : CWf B y) (hl : x.length = y.length)
    (h : uval B x = uval B y) : x = y := by
  induction x generalizing y with
  | nil => cases y with
    | nil => rfl
    | cons => simp at hl
  | cons c cs ih =>
    cases y with
    | nil => simp at hl
    | cons d ds =>
      rw [CWf.cons] at hx hy
      simp only [uval] at h
      have h1 : c = d := by
        have := congrArg (· % 2 ^ B) h
        simpa [Nat.add_mul_mod_self_left, Nat.mod_eq_of_lt hx.1, Nat.mod_eq_of_lt hy.1] using this
      subst h1
      have h2 : uval B cs = uval B ds :=
        Nat.eq_of_mul_eq_mul_left (Nat.two_pow_pos B) (Nat.add_left_cancel h)
      rw [ih hx.2 hy.2 (by simpa using hl) h2]

theorem uval_append {B : ℕ} (x y : List ℕ) :
    uval B (x ++ y) = uval B x + 2 ^ (B * x.length) * uval B y := by
  induction x with
  | nil => simp [uval]
  | cons c cs ih =>
    simp only [List.cons_append, uval, ih, List.length_cons, Nat.mul_add, Nat.mul_one, pow_add]
    ring

theorem uval_replicate_zero (B n : ℕ) : uval B (List.replicate n 0) = 0 := by
  induction n with
  | zero => rfl
  | succ n ih => simp [List.replicate_succ, uval, ih]

theorem uval_replicate_mask (n : ℕ) : uval 62 (List.replicate n MASK) + 1 = 2 ^ (62 * n) := by
  induction n with
  | zero => rfl
  | succ n ih =>
    rw [List.replicate_succ, uval, Nat.mul_add, pow_add]
    unfold MASK at *
    generalize uval 62 (List.replicate n (2 ^ 62 - 1)) = u at *
    rw [← ih]
    omega

/-- A `CInt<62, L>`. -/
structure IsC (L : ℕ) (x : List ℕ) : Prop where
  len : x.length = L
  wf : CWf 62 x

theorem addLoop_spec (x y : List ℕ) (c : ℕ) (hx : CWf 62 x) (hy : CWf 62 y)
    (hl : x.length = y.length) (hc : c ≤ 1) :
    (addLoop x y c).length = x.length ∧ CWf 62 (addLoop x y c) ∧
      ∃ k, uval 62 (addLoop x y c) + 2 ^ (62 * x.length) * k = uval 62 x + uval 62 y + c := by
  induction x generalizing y c with
  | nil =>
    cases y with
    | nil => exact ⟨rfl, by simp [addLoop, CWf], c, by simp [addLoop, uval]⟩
    | cons => simp at hl
  | cons a as ih =>
    cases y with
    | nil => simp at hl
    | cons b bs =>
      rw [CWf.cons] at hx hy
      have e : u64 (u64 (a + b) + c) = a + b + c := by unfold u64; omega
      have hc' : (a + b + c) / 2 ^ 62 ≤ 1 := by omega
      obtain ⟨h1, h2, k, h3⟩ := ih bs ((a + b + c) / 2 ^ 62) hx.2 hy.2 (by simpa using hl) hc'
      rw [addLoop, e]
      refine ⟨by rw [List.length_cons, List.length_cons, h1], by rw [CWf.cons]; exact ⟨Nat.mod_lt _ (by decide), h2⟩, k, ?_⟩
      simp only [uval, List.length_cons, Nat.mul_add, Nat.mul_one, pow_add]
      have h4 := Nat.mod_add_div (a + b + c) (2 ^ 62)
      linear_combination h4 + 2 ^ 62 * h3

theorem cAdd_spec {L : ℕ} {x y : List ℕ} (hx : IsC L x) (hy : IsC L y) :
    IsC L (cAdd x y) ∧ (uval 62 (cAdd x y) : ℤ) ≡ uval 62 x + uval 62 y [ZMOD 2 ^ (62 * L)] := by
  obtain ⟨h1, h2, k, h3⟩ := addLoop_spec x y 0 hx.wf hy.wf (by rw [hx.len, hy.len]) (by decide)
  refine ⟨⟨by rw [cAdd, h1, hx.len], h2⟩, ?_⟩
  rw [hx.len] at h3
  have h4 : (uval 62 (cAdd x y) : ℤ) + 2 ^ (62 * L) * k = uval 62 x + uval 62 y := by
    unfold cAdd; exact_mod_cast h3
  rw [← h4]
  exact (Int.modEq_iff_dvd.mpr ⟨k, by ring⟩)

theorem xor_mask {x : ℕ} (h : x < 2 ^ 62) : x ^^^ MASK = 2 ^ 62 - 1 - x := by
  unfold MASK
  apply Nat.eq_of_testBit_eq
  intro i
  rw [Nat.testBit_xor, Nat.testBit_two_pow_sub_one]
  have e : 2 ^ 62 - 1 - x = 2 ^ 62 - (x + 1) := by omega
  rw [e, Nat.testBit_two_pow_sub_succ h]
  by_cases hi : i < 62
  · simp [hi]
  · have : x.testBit i = false := Nat.testBit_lt_two_pow (lt_of_lt_of_le h (Nat.pow_le_pow_right (by decide) (by omega)))
    simp [hi, this]

theorem negLoop_spec (x : List ℕ) (c : ℕ) (hx : CWf 62 x) (hc : c ≤ 1) :
    (negLoop x c).length = x.length ∧ CWf 62 (negLoop x c) ∧
      ∃ k, uval 62 (negLoop x c) + 2 ^ (62 * x.length) * k + uval 62 x + 1
        = 2 ^ (62 * x.length) + c := by
  induction x generalizing c with
  | nil => exact ⟨rfl, by simp [negLoop, CWf], c, by simp [negLoop, uval]; ring⟩
  | cons a as ih =>
    rw [CWf.cons] at hx
    have e : u64 ((a ^^^ MASK) + c) = 2 ^ 62 - 1 - a + c := by
      rw [xor_mask hx.1]; unfold u64; omega
    rw [negLoop, e]
    generalize hs : 2 ^ 62 - 1 - a + c = s
    have hs' : s + a + 1 = 2 ^ 62 + c := by have := hx.1; omega
    obtain ⟨h1, h2, k, h3⟩ := ih (s / 2 ^ 62) hx.2 (by omega)
    refine ⟨by rw [List.length_cons, List.length_cons, h1], by rw [CWf.cons]; exact ⟨Nat.mod_lt _ (by decide), h2⟩, k, ?_⟩
    simp only [uval, List.length_cons, Nat.mul_add, Nat.mul_one, pow_add]
    have h4 := Nat.mod_add_div s (2 ^ 62)
    linear_combination h4 + 2 ^ 62 * h3 + hs'

theorem cNeg_spec {L : ℕ} {x : List ℕ} (hx : IsC L x) :
    IsC L (cNeg x) ∧ (uval 62 (cNeg x) : ℤ) ≡ -(uval 62 x : ℤ) [ZMOD 2 ^ (62 * L)] := by
  obtain ⟨h1, h2, k, h3⟩ := negLoop_spec x 1 hx.wf (by decide)
  refine ⟨⟨by rw [cNeg, h1, hx.len], h2⟩, ?_⟩
  rw [hx.len] at h3
  have h4 : (uval 62 (cNeg x) : ℤ) + 2 ^ (62 * L) * k + uval 62 x + 1 = 2 ^ (62 * L) + 1 := by
    unfold cNeg; exact_mod_cast h3
  exact (Int.modEq_iff_dvd.mpr ⟨(k : ℤ) - 1, by linear_combination -h4⟩)

theorem mulLoop_spec (o mask : ℕ) (x : List ℕ) (c : ℕ) (ho : o ≤ 2 ^ 63) (hc : c ≤ 2 ^ 63)
    (hx : CWf 62 (x.map (· ^^^ mask))) :
    (mulLoop o mask x c).length = x.length ∧ CWf 62 (mulLoop o mask x c) ∧
      ∃ k, uval 62 (mulLoop o mask x c) + 2 ^ (62 * x.length) * k
        = uval 62 (x.map (· ^^^ mask)) * o + c := by
  induction x generalizing c with
  | nil => exact ⟨rfl, by simp [mulLoop, CWf], c, by simp [mulLoop, uval]⟩
  | cons a as ih =>
    rw [List.map_cons, CWf.cons] at hx
    have ha := hx.1
    rw [mulLoop]
    generalize ea : a ^^^ mask = a' at *
    have hb : a' * o ≤ (2 ^ 62 - 1) * 2 ^ 63 := Nat.mul_le_mul (by omega) ho
    generalize hs : c + a' * o = s
    have hs2 : s ≤ 2 ^ 63 * 2 ^ 62 := by omega
    have e1 : s % 2 ^ 128 = s := Nat.mod_eq_of_lt (by omega)
    have e2 : u64 (s / 2 ^ 62) = s / 2 ^ 62 := by unfold u64; omega
    rw [e1, e2]
    obtain ⟨h1, h2, k, h3⟩ := ih (s / 2 ^ 62) (by omega) hx.2
    refine ⟨by rw [List.length_cons, List.length_cons, h1], by rw [CWf.cons]; exact ⟨Nat.mod_lt _ (by decide), h2⟩, k, ?_⟩
    simp only [uval, List.length_cons, Nat.mul_add, Nat.mul_one, pow_add, List.map_cons]
    have h4 := Nat.mod_add_div s (2 ^ 62)
    rw [ea]
    linear_combination h4 + 2 ^ 62 * h3 - hs

theorem map_xor_mask (x : List ℕ) (hx : CWf 62 x) :
    CWf 62 (x.map (· ^^^ MASK)) ∧ uval 62 (x.map (· ^^^ MASK)) + uval 62 x + 1 = 2 ^ (62 * x.length) := by
  induction x with
  | nil => simp [CWf, uval]
  | cons a as ih =>
    rw [CWf.cons] at hx
    obtain ⟨h1, h2⟩ := ih hx.2
    have ha := hx.1
    rw [List.map_cons, CWf.cons, xor_mask ha]
    refine ⟨⟨by omega, h1⟩, ?_⟩
    simp only [uval, List.length_cons, Nat.mul_add, Nat.mul_one, pow_add]
    have h3 : (2 ^ 62 - 1 - a) + a + 1 = 2 ^ 62 := by omega
    linear_combination h3 + 2 ^ 62 * h2

theorem map_xor_zero (x : List ℕ) : x.map (· ^^^ 0) = x := by simp

theorem asU128_eq {x : ℤ} (h1 : 0 ≤ x) (h2 : x < 2 ^ 64) : asU128 x = asU64 x := by
  unfold asU128 asU64
  rw [Int.emod_eq_of_lt h1 (by omega), Int.emod_eq_of_lt h1 h2]

theorem cMulI64_spec {L : ℕ} {x : List ℕ} (hx : IsC L x) (o : ℤ) (h1 : -2 ^ 63 < o) (h2 : o < 2 ^ 63) :
    IsC L (cMulI64 x o) ∧ (uval 62 (cMulI64 x o) : ℤ) ≡ o * uval 62 x [ZMOD 2 ^ (62 * L)] := by
  unfold cMulI64
  split
  · rename_i hn
    have e : i64 (-o) = -o := i64_id (by omega) (by omega)
    have e2 : (asU64 (-o) : ℤ) = -o := by rw [asU64_cast]; omega
    rw [e, asU128_eq (by omega) (by omega)]
    generalize asU64 (-o) = n at *
    obtain ⟨m1, m2⟩ := map_xor_mask x hx.wf
    obtain ⟨l1, l2, k, l3⟩ := mulLoop_spec n MASK x n (by omega) (by omega) m1
    refine ⟨⟨by rw [l1, hx.len], l2⟩, ?_⟩
    rw [hx.len] at l3 m2
    have l4 : (uval 62 (mulLoop n MASK x n) : ℤ) + 2 ^ (62 * L) * k
        = uval 62 (x.map (· ^^^ MASK)) * n + n := by exact_mod_cast l3
    have m3 : (uval 62 (x.map (· ^^^ MASK)) : ℤ) + uval 62 x + 1 = 2 ^ (62 * L) := by
      exact_mod_cast m2
    rw [Int.modEq_iff_dvd]
    refine ⟨(k : ℤ) - n, ?_⟩
    have e3 : o = -(n : ℤ) := by omega
    rw [e3]
    linear_combination -l4 - n * m3
  · rename_i hn
    have e2 : (asU64 o : ℤ) = o := by rw [asU64_cast]; omega
    rw [asU128_eq (by omega) (by omega)]
    generalize asU64 o = n at *
    have hw : CWf 62 (x.map (· ^^^ 0)) := by rw [map_xor_zero]; exact hx.wf
    obtain ⟨l1, l2, k, l3⟩ := mulLoop_spec n 0 x 0 (by omega) (by omega) hw
    refine ⟨⟨by rw [l1, hx.len], l2⟩, ?_⟩
    rw [hx.len, map_xor_zero] at l3
    have l4 : (uval 62 (mulLoop n 0 x 0) : ℤ) + 2 ^ (62 * L) * k = uval 62 x * n + 0 := by
      exact_mod_cast l3
    rw [Int.modEq_iff_dvd]
    refine ⟨(k : ℤ), ?_⟩
    rw [← e2]
    linear_combination -l4

/-! ## Signed values -/

/-- `x` is the two's complement code of the integer `v`. -/
structure Code (L : ℕ) (x : List ℕ) (v : ℤ) : Prop where
  isC : IsC L x
  lo : -2 ^ (62 * L - 1) ≤ v
  hi : v < 2 ^ (62 * L - 1)
  eq : (uval 62 x : ℤ) ≡ v [ZMOD 2 ^ (62 * L)]

theorem two_pow_half {L : ℕ} (hL : 0 < L) : (2 : ℤ) ^ (62 * L) = 2 * 2 ^ (62 * L - 1) := by
  rw [← pow_succ']; congr 1; omega

theorem Code.functional {L : ℕ} (hL : 0 < L) {x : List ℕ} {v w : ℤ} (h1 : Code L x v)
    (h2 : Code L x w) : v = w := by
  have h := h1.eq.symm.trans h2.eq
  rw [Int.modEq_iff_dvd] at h
  obtain ⟨k, hk⟩ := h
  have a1 := h1.lo; have a2 := h1.hi; have a3 := h2.lo; have a4 := h2.hi
  rw [two_pow_half hL] at hk
  have hp : (0 : ℤ) < 2 ^ (62 * L - 1) := by positivity
  generalize (2 : ℤ) ^ (62 * L - 1) = P at *
  have : k = 0 := by
    by_contra hne
    rcases lt_or_gt_of_ne hne with h | h
    · have : k ≤ -1 := by omega
      nlinarith
    · have : 1 ≤ k := by omega
      nlinarith
  subst this
  omega

theorem Code.inj {L : ℕ} {x y : List ℕ} {v : ℤ} (h1 : Code L x v) (h2 : Code L y v) : x = y := by
  have h := h1.eq.trans h2.eq.symm
  apply uval_inj h1.isC.wf h2.isC.wf (by rw [h1.isC.len, h2.isC.len])
  have b1 := uval_lt h1.isC.wf
  have b2 := uval_lt h2.isC.wf
  rw [h1.isC.len] at b1
  rw [h2.isC.len] at b2
  have : (uval 62 x : ℤ) % ((2 ^ (62 * L) : ℕ) : ℤ) = uval 62 y % ((2 ^ (62 * L) : ℕ) : ℤ) := by
    push_cast; exact h
  have h3 : uval 62 x % 2 ^ (62 * L) = uval 62 y % 2 ^ (62 * L) := by exact_mod_cast this
  rwa [Nat.mod_eq_of_lt b1, Nat.mod_eq_of_lt b2] at h3

theorem snoc_of_pos {L : ℕ} (hL : 0 < L) {x : List ℕ} (hl : x.length = L) :
    ∃ xs c, x = xs ++ [c] ∧ xs.length = L - 1 := by
  have hne : x ≠ [] := by intro h; simp [h] at hl; omega
  exact ⟨x.dropLast, x.getLast hne, (List.dropLast_concat_getLast hne).symm, by simp [hl]⟩

/-- `is_negative` is the sign. -/
theorem isNeg_spec {L : ℕ} (hL : 0 < L) {x : List ℕ} {v : ℤ} (h : Code L x v) :
    isNeg x = decide (v < 0) := by
  obtain ⟨xs, c, rfl, hxs⟩ := snoc_of_pos hL h.isC.len
  have hw := h.isC.wf
  have hxw : CWf 62 xs := fun y hy => hw y (by simp [hy])
  have hc : c < 2 ^ 62 := hw c (by simp)
  have hu : uval 62 (xs ++ [c]) = uval 62 xs + 2 ^ (62 * (L - 1)) * c := by
    rw [uval_append, hxs]; simp [uval]
  have hlt := uval_lt hxw
  rw [hxs] at hlt
  have hP : (2 : ℕ) ^ (62 * L - 1) = 2 ^ (62 * (L - 1)) * 2 ^ 61 := by
    rw [← pow_add]; congr 1; omega
  have hPz : (2 : ℤ) ^ (62 * L - 1) = 2 ^ (62 * (L - 1)) * 2 ^ 61 := by
    rw [← pow_add]; congr 1; omega
  have hneg : isNeg (xs ++ [c]) = decide (2 ^ 61 ≤ c) := by
    unfold isNeg MASK
    simp only [List.getLastD_eq_getLast?, List.getLast?_append, List.getLast?_singleton,
      Option.some_or, Option.getD_some]
    congr 1
  rw [hneg]
  congr 1
  apply propext
  have hq := h.eq
  rw [hu, Int.modEq_iff_dvd] at hq
  obtain ⟨k, hk⟩ := hq
  push_cast at hk
  have h1 := h.lo
  have h2 := h.hi
  rw [two_pow_half hL] at hk
  rw [hPz] at hk h1 h2
  have hlt' : (uval 62 xs : ℤ) < 2 ^ (62 * (L - 1)) := by exact_mod_cast hlt
  have h0 : (0 : ℤ) ≤ uval 62 xs := by positivity
  have hp : (0 : ℤ) < 2 ^ (62 * (L - 1)) := by positivity
  have hc' : (c : ℤ) < 2 ^ 62 := by exact_mod_cast hc
  generalize (2 : ℤ) ^ (62 * (L - 1)) = P at *
  generalize (uval 62 xs : ℤ) = u at *
  -- `0 ≤ u + P c < 2^62 P`
  have b1 : u + P * c < P * 2 ^ 62 := by
    have : P * (c : ℤ) + P ≤ P * 2 ^ 62 := by nlinarith
    linarith
  have b0 : 0 ≤ u + P * c := by positivity
  constructor
  · intro hge
    by_contra hv
    have hge' : (2 : ℤ) ^ 61 ≤ c := by exact_mod_cast hge
    have : P * 2 ^ 61 ≤ u + P * c := by nlinarith
    have hk0 : k < 0 := by
      by_contra hk0
      have : 0 ≤ k := by omega
      nlinarith
    have : k ≤ -1 := by omega
    nlinarith
  · intro hv
    by_contra hge
    have hge' : (c : ℤ) + 1 ≤ 2 ^ 61 := by
      have : c + 1 ≤ 2 ^ 61 := by omega
      exact_mod_cast this
    have : u + P * c < P * 2 ^ 61 := by nlinarith
    have hk0 : k < 0 := by
      by_contra hk0
      have : 0 ≤ k := by omega
      nlinarith
    have : k ≤ -1 := by omega
    nlinarith

/-- The lowest chunk. -/
theorem lowest_spec {L : ℕ} (hL : 0 < L) {x : List ℕ} {v : ℤ} (h : Code L x v) :
    lowest x < 2 ^ 62 ∧ (2 : ℤ) ^ 62 ∣ (lowest x : ℤ) - v := by
  have hl := h.isC.len
  have hw := h.isC.wf
  have hq := h.eq
  cases x with
  | nil => simp at hl; omega
  | cons c cs =>
    rw [CWf.cons] at hw
    refine ⟨hw.1, ?_⟩
    simp only [lowest, List.headD_cons]
    have h1 : ((c + 2 ^ 62 * uval 62 cs : ℕ) : ℤ) ≡ v [ZMOD 2 ^ 62] :=
      hq.of_dvd (pow_dvd_pow 2 (by omega))
    rw [Int.modEq_iff_dvd] at h1
    obtain ⟨k, hk⟩ := h1
    push_cast at hk
    exact ⟨-k - uval 62 cs, by linear_combination -hk⟩

/-- `shift` divides an exact multiple by `2^62`. -/
theorem shift_spec {L : ℕ} (hL : 0 < L) {x : List ℕ} {v w : ℤ} (h : Code L x v) (hv : v = 2 ^ 62 * w) :
    Code L (shift x) w := by
  have hn := isNeg_spec hL h
  have hl := h.isC.len
  have hwf := h.isC.wf
  have hq := h.eq
  have h1 := h.lo
  have h2 := h.hi
  cases x with
  | nil => simp at hl; omega
  | cons c cs =>
    rw [CWf.cons] at hwf
    have hcs : cs.length = L - 1 := by simp at hl; omega
    unfold shift
    rw [hn, List.tail_cons]
    have hq0 := hq
    rw [Int.modEq_iff_dvd] at hq
    obtain ⟨k, hk⟩ := hq
    simp only [uval] at hk
    push_cast at hk
    have hP : (2 : ℤ) ^ (62 * L) = 2 ^ 62 * 2 ^ (62 * (L - 1)) := by rw [← pow_add]; congr 1; omega
    have hcd : c = 0 := by
      have : (2 : ℤ) ^ 62 ∣ c := ⟨w - uval 62 cs - 2 ^ (62 * (L - 1)) * k, by
        rw [hP] at hk; linear_combination hv - hk⟩
      have h3 : 2 ^ 62 ∣ c := by exact_mod_cast this
      exact Nat.eq_zero_of_dvd_of_lt h3 hwf.1
    subst hcd
    have hw : w = uval 62 cs + 2 ^ (62 * (L - 1)) * k := by
      have : (2 : ℤ) ^ 62 * w = 2 ^ 62 * (uval 62 cs + 2 ^ (62 * (L - 1)) * k) := by
        rw [hP] at hk
        push_cast at hk
        linear_combination hk - hv
      exact mul_left_cancel₀ (by positivity) this
    have hlt := uval_lt hwf.2
    rw [hcs] at hlt
    have hlt' : (uval 62 cs : ℤ) < 2 ^ (62 * (L - 1)) := by exact_mod_cast hlt
    have hpp : (0 : ℤ) < 2 ^ (62 * L - 1) := by positivity
    refine ⟨⟨by simp [hcs]; omega, ?_⟩, ?_, ?_, ?_⟩
    · intro y hy
      rw [List.mem_append, List.mem_singleton] at hy
      rcases hy with hy | rfl
      · exact hwf.2 y hy
      · unfold MASK; split <;> norm_num
    · rw [hv] at h1
      generalize (2 : ℤ) ^ (62 * L - 1) = P at *
      omega
    · rw [hv] at h2
      generalize (2 : ℤ) ^ (62 * L - 1) = P at *
      omega
    · rw [uval_append, hcs]
      simp only [uval, mul_zero, add_zero]
      have hPh : (2 : ℤ) ^ (62 * L - 1) = 2 ^ 61 * 2 ^ (62 * (L - 1)) := by
        rw [← pow_add]; congr 1; omega
      rw [hv, hPh] at h1 h2
      have h0 : (0 : ℤ) ≤ uval 62 cs := by positivity
      have hp : (0 : ℤ) < 2 ^ (62 * (L - 1)) := by positivity
      rw [hP, Int.modEq_iff_dvd]
      push_cast
      generalize (2 : ℤ) ^ (62 * (L - 1)) = Q at *
      generalize (uval 62 cs : ℤ) = u at *
      by_cases hneg : v < 0
      · have hwn : w < 0 := by omega
        simp only [hneg, decide_true, if_true]
        have hk1 : k = -1 := by
          have a1 : k < 0 := by
            by_contra hc
            have : 0 ≤ k := by omega
            nlinarith
          have a2 : -2 < k := by
            by_contra hc
            have : k ≤ -2 := by omega
            nlinarith
          omega
        subst hk1
        refine ⟨-1, ?_⟩
        rw [hw]
        unfold MASK
        push_cast
        ring
      · have hwn : 0 ≤ w := by omega
        simp only [hneg, decide_false, Bool.false_eq_true, if_false]
        have hk1 : k = 0 := by
          have a1 : -1 < k := by
            by_contra hc
            have : k ≤ -1 := by omega
            nlinarith
          have a2 : k < 1 := by
            by_contra hc
            have : 1 ≤ k := by omega
            nlinarith
          omega
        subst hk1
        exact ⟨0, by rw [hw]; ring⟩

theorem code_zero {L : ℕ} : Code L (cZero L) 0 :=
  ⟨⟨by simp [cZero], by intro y hy; rw [cZero, List.mem_replicate] at hy; simp [hy.2]⟩,
    by simp, by positivity, by rw [cZero, uval_replicate_zero]; simp⟩

theorem code_one {L : ℕ} (hL : 0 < L) : Code L (cOne L) 1 := by
  refine ⟨⟨by simp [cOne]; omega, ?_⟩, ?_, ?_, ?_⟩
  · intro y hy
    rw [cOne, List.mem_cons, List.mem_replicate] at hy
    rcases hy with rfl | ⟨_, rfl⟩ <;> norm_num
  · have : (0 : ℤ) < 2 ^ (62 * L - 1) := by positivity
    omega
  · exact_mod_cast Nat.one_lt_two_pow (by omega)
  · rw [cOne, uval, uval_replicate_zero]; simp

theorem code_minusOne {L : ℕ} : Code L (cMinusOne L) (-1) := by
  refine ⟨⟨by simp [cMinusOne], ?_⟩, ?_, ?_, ?_⟩
  · intro y hy
    rw [cMinusOne, List.mem_replicate] at hy
    rw [hy.2]; decide
  · have : (0 : ℤ) < 2 ^ (62 * L - 1) := by positivity
    omega
  · have : (0 : ℤ) < 2 ^ (62 * L - 1) := by positivity
    omega
  · have h := uval_replicate_mask L
    have h' : (uval 62 (List.replicate L MASK) : ℤ) + 1 = 2 ^ (62 * L) := by exact_mod_cast h
    rw [cMinusOne, Int.modEq_iff_dvd]
    exact ⟨-1, by linear_combination -h'⟩

/-- Building a code from a congruence. -/
theorem Code.of {L : ℕ} {x : List ℕ} {v : ℤ} (hx : IsC L x)
    (he : (uval 62 x : ℤ) ≡ v [ZMOD 2 ^ (62 * L)]) (h : |v| < 2 ^ (62 * L - 1)) : Code L x v :=
  ⟨hx, (abs_lt.mp h).1.le, (abs_lt.mp h).2, he⟩

end Halo2.Inverse
