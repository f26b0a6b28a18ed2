import Verif.Jacobi.Main

/-!
# How many rounds `jacobi` takes

`H ≤ m < 2 H` is the power of two just below the larger argument `m`, `c` the smaller one. After a
round both numbers are below `H`, or the smaller one lost 29 bits.
-/

namespace Halo2.Jacobi

open Halo2.Inverse (u64 i64 asU64 tz)

/-- What is known about the exact pair after some rounds of the inner loop. -/
inductive Band (H m c : ℤ) (s : Inner) (A B : ℤ) : Prop
  | low (hA : |A| < H) (hB : |B| < H)
  | one (hB : B = m) (hA : 2 ^ (30 - s.i) * A = c) (hb : 2 ^ 63 ≤ s.b)
      (ha : 2 ^ (30 - s.i) * s.a < s.b + 2 ^ 32)
      (heq : s.i = 30 → s.b ≤ s.a → m < 2 * c) (hlt : s.i = 30 → s.a < s.b → c < m)
      (hw : s.i = 30 → H ≤ c → 2 ^ 63 ≤ s.a)
  | two (hB : B = m) (hA : 2 ^ (30 - s.i) * A = c - m) (hb : 2 ^ 63 ≤ s.b) (ha : s.a < 2 ^ 31)
      (hi : s.i < 30) (hcm : m < 2 * c)
  | even (x : ℤ) (hB : B = c) (hc : H ≤ c) (hA : 2 ^ (30 - s.i) * A = x) (hx0 : 0 ≤ x) (hx : x < 2 * H)
      (hi : s.i < 30) (hb : 2 ^ 63 ≤ s.b) (ha : s.a < 2 ^ 63)
  | late (hA : 4 * |A| < 5 * H) (hB : 2 * |B| < H) (hB' : 2 ^ (29 - s.i) * B = c - m) (hcm : m < 2 * c)
      (hi : s.i < 29) (hab : s.b ≤ s.a)
  | top (hA : A = m) (hB : B = c) (hcm : c < m) (hi : s.i = 30)
      (ha : s.a < s.b → 2 ^ 63 ≤ s.a ∧ s.b < s.a + 2 ^ 32 ∧ m < 2 * c)
      (hw : H ≤ c → 2 ^ 63 ≤ s.b)

/-- A number divided by at least two. -/
theorem two_abs_le {x A : ℤ} {k : ℕ} (hk : 1 ≤ k) (h : 2 ^ k * A = x) : 2 * |A| ≤ |x| := by
  have hp : (2 : ℤ) ≤ 2 ^ k := by
    calc (2 : ℤ) = 2 ^ 1 := by norm_num
      _ ≤ 2 ^ k := pow_le_pow_right₀ (by norm_num) hk
  rw [← h, abs_mul, abs_of_pos (by positivity : (0 : ℤ) < 2 ^ k)]
  exact mul_le_mul_of_nonneg_right hp (abs_nonneg A)

theorem nonneg_of_pow {x A : ℤ} {k : ℕ} (h : 2 ^ k * A = x) (hx : 0 ≤ x) : 0 ≤ A := by
  by_contra hn
  have : (0 : ℤ) < 2 ^ k := by positivity
  nlinarith

/-- One round of the inner loop. -/
theorem step_band {n d J H m c : ℤ} {s : Inner} {A B : ℤ} (h : Inv n d J s A B) (hd : 0 < d)
    (hi : s.i ≠ 0) (hH : 0 < H) (hHm : H ≤ m) (hmH : m < 2 * H) (hc0 : 0 ≤ c) (hcm : c ≤ m)
    (hp : Band H m c s A B) : ∃ A' B', Inv n d J s.step A' B' ∧ Band H m c s.step A' B' := by
  have hi30 := h.i30
  have ha64 := h.a64
  have hb64 := h.b64
  unfold Inner.step
  by_cases ha : s.a % 2 = 1
  · rw [if_pos ha]
    have hbo : s.b % 2 = 1 := by
      have h2 : (2 : ℤ) ∣ s.b - B := by
        have : (2 : ℤ) ^ 1 ∣ s.b - B := (pow_dvd_pow 2 (by omega)).trans h.cB
        simpa using this
      have := h.odd
      omega
    by_cases hlt : s.a < s.b
    · rw [if_pos hlt]
      have hsw := h.swap hd ha
      obtain ⟨A', hA', hinv⟩ := hsw.sub hi hbo (by exact hlt.le)
      refine ⟨A', A, hinv, ?_⟩
      cases hp with
      | low hA hB => exact .low (low_sub hB hA hA') hA
      | one hB hA hb hab heq hlt' hw =>
        by_cases h30 : s.i = 30
        · have hcm' := hlt' h30 hlt
          rw [h30] at hA
          simp only [Nat.sub_self, pow_zero, one_mul] at hA
          by_cases hcH : c < H
          · refine .low (abs_lt.mpr ?_) (by rw [hA, abs_of_nonneg hc0]; exact hcH)
            constructor <;> omega
          · refine .even (m - c) hA (by omega) ?_ (by omega) (by omega) ?_ (hw h30 (by omega)) ?_
            · change 2 ^ (30 - (s.i - 1)) * A' = m - c
              rw [h30, ← hA, ← hB]
              norm_num
              linarith
            · change s.i - 1 < 30
              omega
            · change (s.b - s.a) / 2 < 2 ^ 63
              omega
        · have h2 := two_abs_le (by omega) hA
          have h0 := nonneg_of_pow hA hc0
          rw [abs_of_nonneg hc0, abs_of_nonneg h0] at h2
          refine .low (abs_lt.mpr ?_) (by rw [abs_of_nonneg h0]; omega)
          constructor <;> omega
      | two hB hA hb ha' hi' hcm' =>
        have h2 := two_abs_le (by omega) hA
        have e1 : |c - m| = m - c := by rw [abs_of_nonpos (by omega)]; omega
        rw [e1] at h2
        have h3 := abs_le.mp (le_refl |A|)
        by_cases h1 : s.i = 30
        · omega
        refine .late ?_ (by omega) ?_ hcm' ?_ ?_
        · have : |A'| ≤ (m + |A|) / 2 := abs_le.mpr (by constructor <;> omega)
          omega
        · change 2 ^ (29 - (s.i - 1)) * A = c - m
          rw [← hA]
          congr 2
          omega
        · change s.i - 1 < 29
          omega
        · change s.a ≤ (s.b - s.a) / 2
          omega
      | even x hB hc hA hx0 hx hi' hb ha' =>
        have h2 := two_abs_le (by omega) hA
        have h0 := nonneg_of_pow hA hx0
        rw [abs_of_nonneg hx0, abs_of_nonneg h0] at h2
        refine .low (abs_lt.mpr ?_) (by rw [abs_of_nonneg h0]; omega)
        constructor <;> omega
      | late hA hB hB' hcm' hi' hab => omega
      | top hA hB hcm' hi' ha' hw =>
        obtain ⟨x1, x2, x3⟩ := ha' hlt
        refine .two hA ?_ x1 ?_ ?_ x3
        · change 2 ^ (30 - (s.i - 1)) * A' = c - m
          rw [hi', ← hA, ← hB]
          norm_num
          linarith
        · change (s.b - s.a) / 2 < 2 ^ 31
          omega
        · change s.i - 1 < 30
          omega
    · rw [if_neg hlt]
      obtain ⟨A', hA', hinv⟩ := h.sub hi ha (by omega)
      refine ⟨A', B, hinv, ?_⟩
      cases hp with
      | low hA hB => exact .low (low_sub hA hB hA') hB
      | one hB hA hb hab heq hlt' hw =>
        by_cases h30 : s.i = 30
        · have := heq h30 (by omega)
          rw [h30] at hab hA
          simp only [Nat.sub_self, pow_zero, one_mul] at hab hA
          refine .two hB ?_ hb ?_ ?_ this
          · change 2 ^ (30 - (s.i - 1)) * A' = c - m
            rw [h30, ← hA, ← hB]
            norm_num
            linarith
          · change (s.a - s.b) / 2 < 2 ^ 31
            omega
          · change s.i - 1 < 30
            omega
        · exfalso
          have : 2 ≤ 2 ^ (30 - s.i) := by
            calc 2 = 2 ^ 1 := by norm_num
              _ ≤ 2 ^ (30 - s.i) := Nat.pow_le_pow_right (by norm_num) (by omega)
          have := Nat.mul_le_mul_right s.a this
          omega
      | two hB hA hb ha' hi' hcm' => omega
      | even x hB hc hA hx0 hx hi' hb ha' => omega
      | late hA hB hB' hcm' hi' hab =>
        have h1 := abs_le.mp (le_refl |A|)
        have h2 := abs_le.mp (le_refl |B|)
        refine .low (abs_lt.mpr ?_) (by omega)
        constructor <;> omega
      | top hA hB hcm' hi' ha' hw =>
        by_cases hcH : c < H
        · refine .low (abs_lt.mpr ?_) (by rw [hB, abs_of_nonneg hc0]; exact hcH)
          constructor <;> omega
        · refine .even (m - c) hB (by omega) ?_ (by omega) (by omega) ?_ (hw (by omega)) ?_
          · change 2 ^ (30 - (s.i - 1)) * A' = m - c
            rw [hi', ← hA, ← hB]
            norm_num
            linarith
          · change s.i - 1 < 30
            omega
          · change (s.a - s.b) / 2 < 2 ^ 63
            omega
  · rw [if_neg ha]
    obtain ⟨z, A', z1, z2, hA', hi', ha1, ha2, hb', hinv⟩ := h.half hi (by omega)
    refine ⟨A', B, hinv, ?_⟩
    have e := two_pow_sub z2 hi30
    have hz := two_abs_le z1 hA'.symm
    cases hp with
    | low hA hB => exact .low (low_half hA hA') hB
    | one hB hA hb hab heq hlt' hw =>
      refine .one hB ?_ (by rw [hb']; exact hb) ?_ (by rw [hi']; omega) (by rw [hi']; omega)
        (by rw [hi']; omega)
      · rw [hi', e, mul_assoc, ← hA', hA]
      · rw [hb', hi']
        have e' : 2 ^ (30 - (s.i - z)) = 2 ^ (30 - s.i) * 2 ^ z := by
          rw [← pow_add]; congr 1; omega
        rw [e', mul_assoc, ← ha2]
        exact hab
    | two hB hA hb ha' hi'' hcm' =>
      refine .two hB ?_ (by rw [hb']; exact hb) ?_ (by rw [hi']; omega) hcm'
      · rw [hi', e, mul_assoc, ← hA', hA]
      · rw [ha1]; exact lt_of_le_of_lt (Nat.div_le_self _ _) ha'
    | even x hB hc hA hx0 hx hi'' hb ha' =>
      refine .even x hB hc ?_ hx0 hx (by rw [hi']; omega) (by rw [hb']; exact hb) ?_
      · rw [hi', e, mul_assoc, ← hA', hA]
      · rw [ha1]; exact lt_of_le_of_lt (Nat.div_le_self _ _) ha'
    | late hA hB hB' hcm' hi'' hab =>
      have := abs_nonneg B
      exact .low (by omega) (by omega)
    | top hA hB hcm' hi'' ha' hw =>
      have hAm : |A| = m := by rw [hA, abs_of_nonneg (by omega)]
      by_cases hcH : c < H
      · exact .low (by omega) (by rw [hB, abs_of_nonneg hc0]; exact hcH)
      · refine .even m hB (by omega) ?_ (by omega) hmH (by rw [hi']; omega) (by rw [hb']; exact hw (by omega)) ?_
        · rw [hi', e, mul_assoc, ← hA', hA, hi'']
          simp
        · have : 2 * (s.a / 2 ^ z) ≤ s.a := by
            have h2 : 2 ≤ 2 ^ z := by
              calc 2 = 2 ^ 1 := by norm_num
                _ ≤ 2 ^ z := Nat.pow_le_pow_right (by norm_num) z1
            exact le_trans (Nat.mul_le_mul_right _ h2) (Nat.mul_div_le _ _)
          rw [ha1]
          omega

/-- The whole inner loop. -/
theorem innerLoop_band {n d J H m c : ℤ} (hd : 0 < d) (hH : 0 < H) (hHm : H ≤ m) (hmH : m < 2 * H)
    (hc0 : 0 ≤ c) (hcm : c ≤ m) (fuel : ℕ) (s : Inner) (A B : ℤ) (h : Inv n d J s A B)
    (hp : Band H m c s A B) : ∃ A' B', Inv n d J (innerLoop fuel s) A' B' ∧ Band H m c (innerLoop fuel s) A' B' := by
  induction fuel generalizing s A B with
  | zero => exact ⟨A, B, h, hp⟩
  | succ fuel ih =>
    rw [innerLoop]
    by_cases hi : s.i = 0
    · rw [if_pos hi]; exact ⟨A, B, h, hp⟩
    · rw [if_neg hi]
      obtain ⟨A', B', h2, h3⟩ := step_band h hd hi hH hHm hmH hc0 hcm hp
      exact ih s.step A' B' h2 h3

/-- At the end of the inner loop. -/
theorem Band.final {H m c : ℤ} {s : Inner} {A B : ℤ} (h : Band H m c s A B) (hi : s.i = 0) (hHm : H ≤ m)
    (hmH : m < 2 * H) (hc0 : 0 ≤ c) (hcm : c ≤ m) :
    (|A| < H ∧ |B| < H) ∨ (|A| < 2 * H ∧ |B| < 2 * H ∧ 2 ^ 29 * min |A| |B| ≤ c) := by
  have h1 := abs_le.mp (le_refl |A|)
  have h2 := abs_le.mp (le_refl |B|)
  cases h with
  | low hA hB => exact .inl ⟨hA, hB⟩
  | one hB hA _ _ _ _ _ =>
    rw [hi] at hA
    simp only [Nat.sub_zero] at hA
    have h0 := nonneg_of_pow hA hc0
    rw [abs_of_nonneg h0, hB, abs_of_nonneg (by omega : (0 : ℤ) ≤ m)]
    omega
  | two hB hA _ _ _ hcm' =>
    rw [hi] at hA
    simp only [Nat.sub_zero] at hA
    rw [abs_of_nonpos (by omega : A ≤ 0), hB, abs_of_nonneg (by omega : (0 : ℤ) ≤ m)]
    omega
  | even x hB hc hA hx0 hx _ _ _ =>
    rw [hi] at hA
    simp only [Nat.sub_zero] at hA
    have h0 := nonneg_of_pow hA hx0
    rw [abs_of_nonneg h0, hB, abs_of_nonneg hc0]
    omega
  | late hA hB hB' hcm' _ _ =>
    rw [hi] at hB'
    simp only [Nat.sub_zero] at hB'
    rw [abs_of_nonpos (by omega : B ≤ 0)] at *
    omega
  | top _ _ _ hi' _ _ => omega

/-- The measure of the outer loop in bits. -/
def bitMeasure (n d : ℕ) : ℕ :=
  Nat.size (max n d) * (Nat.size (max n d) / 29 + 2) + (Nat.size (min n d) + 28) / 29

theorem bitMeasure_lt {m c X Y k : ℕ} (hm1 : 2 ^ k ≤ m) (hm2 : m < 2 ^ (k + 1)) (hX : X ≠ 0) (hY : Y ≠ 0)
    (h : (X < 2 ^ k ∧ Y < 2 ^ k) ∨ (X < 2 * 2 ^ k ∧ Y < 2 * 2 ^ k ∧ 2 ^ 29 * min X Y ≤ c)) :
    Nat.size (max X Y) * (Nat.size (max X Y) / 29 + 2) + (Nat.size (min X Y) + 28) / 29 <
      Nat.size m * (Nat.size m / 29 + 2) + (Nat.size c + 28) / 29 := by
  have hs : Nat.size m = k + 1 :=
    le_antisymm (Nat.size_le.mpr hm2) (Nat.lt_size.mpr hm1)
  rw [hs]
  rcases h with ⟨h1, h2⟩ | ⟨h1, h2, h3⟩
  · have s1 : Nat.size (max X Y) ≤ k := Nat.size_le.mpr (max_lt h1 h2)
    have s2 : Nat.size (min X Y) ≤ k := Nat.size_le.mpr (lt_of_le_of_lt (min_le_left _ _) h1)
    generalize Nat.size (max X Y) = p at *
    generalize Nat.size (min X Y) = q at *
    have s3 : p * (p / 29 + 2) ≤ k * ((k + 1) / 29 + 2) := Nat.mul_le_mul s1 (by omega)
    have s4 : (k + 1) * ((k + 1) / 29 + 2) = k * ((k + 1) / 29 + 2) + ((k + 1) / 29 + 2) := by ring
    omega
  · have e : 2 * 2 ^ k = 2 ^ (k + 1) := by ring
    have s1 : Nat.size (max X Y) ≤ k + 1 := Nat.size_le.mpr (by rw [← e]; exact max_lt h1 h2)
    have hmin : 1 ≤ min X Y := by omega
    have s2 : 29 + Nat.size (min X Y) ≤ Nat.size c := by
      have h5 : 2 ^ (Nat.size (min X Y) - 1) ≤ min X Y := by
        rw [← Nat.lt_size]
        have : 0 < Nat.size (min X Y) := Nat.size_pos.mpr hmin
        omega
      have h6 : 2 ^ (29 + (Nat.size (min X Y) - 1)) ≤ c := by
        rw [pow_add]
        exact le_trans (Nat.mul_le_mul_left _ h5) h3
      have h7 := Nat.lt_size.mpr h6
      have : 0 < Nat.size (min X Y) := Nat.size_pos.mpr hmin
      omega
    generalize Nat.size (max X Y) = p at *
    generalize Nat.size (min X Y) = q at *
    have s3 : p * (p / 29 + 2) ≤ (k + 1) * ((k + 1) / 29 + 2) := Nat.mul_le_mul s1 (by omega)
    omega

/-- Every round decreases the measure in bits. -/
theorem bits_decrease {L : ℕ} (hL : 0 < L) : Decreases L bitMeasure := by
  intro n d a b t h hap s hs A B rA rB hA0
  obtain ⟨m, hm⟩ : ∃ m, m = max (val n) (val d) := ⟨_, rfl⟩
  obtain ⟨c, hc⟩ : ∃ c, c = min (val n) (val d) := ⟨_, rfl⟩
  have hmb : m < 2 ^ (64 * L - 31) := by rw [hm]; exact max_lt h.nb h.db
  have hodd := h.odd
  have hcm : (c : ℤ) ≤ m := by omega
  have hdpos : (0 : ℤ) < val d := by omega
  obtain ⟨k, hk1, hk2⟩ : ∃ k, 2 ^ k ≤ m ∧ m < 2 ^ (k + 1) := by
    have : 0 < Nat.size m := Nat.size_pos.mpr (by omega)
    refine ⟨Nat.size m - 1, Nat.lt_size.mp (by omega), ?_⟩
    rw [Nat.sub_add_cancel this]
    exact Nat.lt_size_self m
  have hk1' : (2 ^ k : ℤ) ≤ m := by exact_mod_cast hk1
  have hk2' : (m : ℤ) < 2 * 2 ^ k := by
    have e : (2 : ℤ) * 2 ^ k = 2 ^ (k + 1) := by ring
    rw [e]; exact_mod_cast hk2
  have wide : ∀ x : ℕ, (2 ^ k : ℤ) ≤ (x : ℤ) → 2 ^ k ≤ x := fun x hx => by exact_mod_cast hx
  unfold bitMeasure
  rw [← hm, ← hc]
  cases hap with
  | rough _ _ ha hb ca cb hxy hyx heq =>
    have inv0 : Inv (val n) (val d) (sg t * js (val n) (val d)) ⟨30, a, b, 1, 0, 0, 1, t⟩ (val n) (val d) := by
      refine ⟨le_refl _, by simp, by simp, by simp, by simp, ha, hb, ca, cb, by omega, ?_, rfl⟩
      exact ⟨0, 1, le_refl _, by norm_num, by ring⟩
    have ph0 : Band (2 ^ k) (m : ℤ) c ⟨30, a, b, 1, 0, 0, 1, t⟩ (val n) (val d) := by
      rcases le_or_gt (val n) (val d) with hle | hgt
      · have hcmp := hxy hle
        have e1 : m = val d := by omega
        have e2 : c = val n := by omega
        refine .one (by rw [e1]) (by rw [e2]; simp) hcmp.top (by simpa using hcmp.le) ?_ ?_ ?_
        · intro _ hba
          have := hcmp.near hba
          rw [e1, e2]; exact_mod_cast this
        · intro _ hab
          have hab' : a < b := hab
          have : val n ≠ val d := fun h' => by have := heq h'; omega
          omega
        · intro _ hw
          exact hcmp.wide k (by rw [← e2]; exact wide c hw) (by rw [← e1]; exact hk2)
      · have hcmp := hyx hgt.le
        have e1 : m = val n := by omega
        have e2 : c = val d := by omega
        refine .top (by rw [e1]) (by rw [e2]) (by omega) rfl ?_ ?_
        · intro hab
          have hab' : a < b := hab
          have := hcmp.near hab'.le
          exact ⟨hcmp.top, hcmp.le, by rw [e1, e2]; exact_mod_cast this⟩
        · intro hw
          exact hcmp.wide k (by rw [← e2]; exact wide c hw) (by rw [← e1]; exact hk2)
    have hi0 : s.i = 0 := by
      rw [hs]
      obtain ⟨x, -⟩ := innerLoop_spec (J := sg t * js (val n) (val d)) hdpos (m := m) (c := c)
        (by omega) (by positivity) hcm 30 ⟨30, a, b, 1, 0, 0, 1, t⟩ _ _ (le_refl _) inv0
        (by
          cases ph0 with
          | low hA hB => exact .low (by omega) (by omega)
          | one h1 h2 h3 h4 h5 h6 h7 => exact .one h1 h2 h3 h4 h5 h6
          | two h1 h2 h3 h4 h5 h6 => exact .two h1 h2 h3 h4 h5 h6
          | even _ _ _ _ _ _ h7 _ _ => exact absurd h7 (lt_irrefl _)
          | late _ _ _ _ h7 _ => exact absurd h7 (by dsimp only; omega)
          | top h1 h2 h3 h4 h5 h6 => exact .top h1 h2 h3 h4 h5)
      exact x
    obtain ⟨A', B', inv, ph⟩ := innerLoop_band hdpos (by positivity) hk1' hk2' (by positivity) hcm 30 _ _ _ inv0 ph0
    rw [← hs] at inv ph
    have eA := inv.eA
    have eB := inv.eB
    have cu := inv.cu
    have cv := inv.cv
    rw [hi0] at eA eB cu cv
    have eA' := rA.functional hL (row_spec hL h (m := m) (by omega) (by omega) hmb cu eA).1
    have eB' := rB.functional hL (row_spec hL h (m := m) (by omega) (by omega) hmb cv eB).1
    subst eA' eB'
    have hB0 : B ≠ 0 := by have := inv.odd; omega
    have fin := ph.final hi0 hk1' hk2' (by positivity) hcm
    have key : ((2 ^ k : ℕ) : ℤ) = 2 ^ k := by push_cast; rfl
    refine bitMeasure_lt hk1 hk2 (by omega) (by omega) ?_
    rw [← key, Int.abs_eq_natAbs, Int.abs_eq_natAbs] at fin
    generalize 2 ^ k = P at fin ⊢
    omega

/-! ## The rounds of the loops -/

/-- The rounds of the inner loop. Follows src/ff_ext/jacobi.rs:362-392. -/
def innerRounds : ℕ → Inner → ℕ
  | 0, _ => 0
  | fuel + 1, s => if s.i = 0 then 0 else innerRounds fuel s.step + 1

/-- The rounds of the loop of `jacobinary`. Follows src/ff_ext/jacobi.rs:298-312. -/
def binaryRounds : ℕ → ℕ → ℕ → ℕ
  | 0, _, _ => 0
  | fuel + 1, n, d =>
    if n = 0 then 0
    else if n % 2 = 1 then
      if n < d then binaryRounds fuel ((d - n) / 2) n + 1 else binaryRounds fuel ((n - d) / 2) d + 1
    else binaryRounds fuel (n / 2 ^ tz 64 n) d + 1

/-- The rounds of the outer loop of `jacobi`, and of all loops together.
Follows src/ff_ext/jacobi.rs:343-415. -/
def loopRounds (L : ℕ) : ℕ → List ℕ → List ℕ → ℕ → ℕ × ℕ
  | 0, _, _, _ => (0, 0)
  | fuel + 1, n, d, t =>
    match approximate L n d with
    | none => (1, 1)
    | some (a, b, true) => (1, binaryRounds 129 a b + 1)
    | some (a, b, false) =>
      let s := innerLoop 30 ⟨30, a, b, 1, 0, 0, 1, t⟩
      let k := innerRounds 30 ⟨30, a, b, 1, 0, 0, 1, t⟩
      let n' := row n d s.u0 s.u1
      let d' := row n d s.v0 s.v1
      let r := if n' = lZero L then (0, 0)
        else if isNeg n' then loopRounds L fuel (lNeg n') d' (s.t ^^^ d'.headD 0)
        else if isNeg d' then loopRounds L fuel n' (lNeg d') s.t
        else loopRounds L fuel n' d' s.t
      (r.1 + 1, r.2 + k + 1)

/-- The rounds of `jacobi`. Follows src/ff_ext/jacobi.rs:331-416. -/
def rounds (L : ℕ) (n d : List ℕ) : ℕ × ℕ :=
  match lNew L n, lNew L d with
  | some n, some d => loopRounds L (2 ^ (128 * L)) n d 0
  | _, _ => (0, 0)

theorem innerRounds_le (fuel : ℕ) (s : Inner) : innerRounds fuel s ≤ fuel := by
  induction fuel generalizing s with
  | zero => exact le_refl _
  | succ fuel ih =>
    rw [innerRounds]
    split
    · exact Nat.zero_le _
    · exact Nat.succ_le_succ (ih _)

theorem binaryRounds_le (fuel n d : ℕ) : binaryRounds fuel n d ≤ fuel := by
  induction fuel generalizing n d with
  | zero => exact le_refl _
  | succ fuel ih =>
    rw [binaryRounds]
    split
    · exact Nat.zero_le _
    · split
      · split <;> exact Nat.succ_le_succ (ih _ _)
      · exact Nat.succ_le_succ (ih _ _)

/-- A loop that ends within an allowance ends in the same way with a larger one. -/
theorem jacobiLoop_mono (L f g : ℕ) (n d : List ℕ) (t : ℕ) {r : ℤ} (hfg : f ≤ g)
    (h : jacobiLoop L f n d t = some r) :
    jacobiLoop L g n d t = some r ∧ (loopRounds L g n d t).1 ≤ f ∧
      (loopRounds L g n d t).2 ≤ 31 * (loopRounds L g n d t).1 + 129 := by
  induction f generalizing g n d t with
  | zero => exact absurd h (by rw [jacobiLoop]; simp)
  | succ f ih =>
    obtain ⟨g, rfl⟩ : ∃ g', g = g' + 1 := ⟨g - 1, by omega⟩
    have hfg' : f ≤ g := by omega
    rw [jacobiLoop] at h ⊢
    rw [loopRounds]
    generalize approximate L n d = ap at *
    match ap, h with
    | some (a, b, true), h =>
      have := binaryRounds_le 129 a b
      refine ⟨h, ?_, ?_⟩ <;> dsimp only <;> omega
    | some (a, b, false), h =>
      dsimp only at h ⊢
      have hk := innerRounds_le 30 ⟨30, a, b, 1, 0, 0, 1, t⟩
      generalize innerRounds 30 ⟨30, a, b, 1, 0, 0, 1, t⟩ = k at *
      generalize innerLoop 30 ⟨30, a, b, 1, 0, 0, 1, t⟩ = s at *
      generalize row n d s.u0 s.u1 = n' at *
      generalize row n d s.v0 s.v1 = d' at *
      by_cases h1 : n' = lZero L
      · rw [if_pos h1] at h
        rw [if_pos h1, if_pos h1]
        exact ⟨h, by dsimp only; omega, by dsimp only; omega⟩
      · rw [if_neg h1] at h
        rw [if_neg h1, if_neg h1]
        by_cases h2 : isNeg n' = true
        · rw [if_pos h2] at h
          rw [if_pos h2, if_pos h2]
          obtain ⟨i1, i2, i3⟩ := ih g _ _ _ hfg' h
          exact ⟨i1, by omega, by omega⟩
        · rw [if_neg h2] at h
          rw [if_neg h2, if_neg h2]
          by_cases h3 : isNeg d' = true
          · rw [if_pos h3] at h
            rw [if_pos h3, if_pos h3]
            obtain ⟨i1, i2, i3⟩ := ih g _ _ _ hfg' h
            exact ⟨i1, by omega, by omega⟩
          · rw [if_neg h3] at h
            rw [if_neg h3, if_neg h3]
            obtain ⟨i1, i2, i3⟩ := ih g _ _ _ hfg' h
            exact ⟨i1, by omega, by omega⟩

theorem bitMeasure_le {n d b : ℕ} (hn : n < 2 ^ b) (hd : d < 2 ^ b) :
    bitMeasure n d ≤ b * (b / 29 + 2) + (b + 28) / 29 := by
  have h1 : Nat.size (max n d) ≤ b := Nat.size_le.mpr (max_lt hn hd)
  have h2 : Nat.size (min n d) ≤ b := Nat.size_le.mpr (lt_of_le_of_lt (min_le_left _ _) hn)
  unfold bitMeasure
  exact Nat.add_le_add (Nat.mul_le_mul h1 (by omega)) (by omega)

end Halo2.Jacobi
