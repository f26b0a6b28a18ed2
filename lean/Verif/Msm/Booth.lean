import Verif.Msm.Model
import Verif.Field.Bytes
import Mathlib.Data.Nat.Bitwise
import Mathlib.Tactic.Ring
import Mathlib.Tactic.Linarith
import Mathlib.Algebra.BigOperators.Group.Finset.Basic
import Mathlib.Algebra.BigOperators.Ring.Finset

/-!
# Booth recoding

`boothIndex w c el` is `E w - 2^c * E (w+1)` where `E i = (2 v / 2^(c i) + 1) / 2`.
-/

namespace Halo2.Msm

open Halo2.Field

theorem leNat_take (l : List ℕ) (hl : IsBytes l) (n : ℕ) : leNat (l.take n) = leNat l % 256 ^ n := by
  conv_rhs => rw [← List.take_append_drop n l, leNat_append]
  rcases Nat.le_total n l.length with h | h
  · rw [List.length_take_of_le h, Nat.add_mul_mod_self_left]
    have := leNat_lt (l.take n) (hl.take _)
    rw [List.length_take_of_le h] at this
    exact (Nat.mod_eq_of_lt this).symm
  · rw [List.drop_of_length_le h]
    have := leNat_lt l hl
    rw [List.take_of_length_le h]
    simp only [leNat, Nat.mul_zero, Nat.add_zero]
    exact (Nat.mod_eq_of_lt (lt_of_lt_of_le this (Nat.pow_le_pow_right (by decide) h))).symm

theorem leNat_drop (l : List ℕ) (hl : IsBytes l) (n : ℕ) : leNat (l.drop n) = leNat l / 256 ^ n := by
  conv_rhs => rw [← List.take_append_drop n l, leNat_append]
  rcases Nat.le_total n l.length with h | h
  · have h2 := leNat_lt (l.take n) (hl.take _)
    rw [List.length_take_of_le h] at h2 ⊢
    rw [Nat.add_mul_div_left _ _ (Nat.pow_pos (by decide)), Nat.div_eq_of_lt h2, Nat.zero_add]
  · rw [List.drop_of_length_le h, List.take_of_length_le h]
    have := leNat_lt l hl
    simp only [leNat, Nat.mul_zero, Nat.add_zero]
    exact (Nat.div_eq_of_lt (lt_of_lt_of_le this (Nat.pow_le_pow_right (by decide) h))).symm

/-- The last part of `boothIndex`, from the window of `c + 1` bits. -/
theorem booth_digit (c u : ℕ) (hc : c ≤ 31) (hu : u < 2 ^ (c + 1)) :
    (if (u &&& (1 <<< c)) == 0 then (((u + 1) >>> 1 : ℕ) : ℤ)
      else -(((2 ^ 32 - 1 - ((u + 1) >>> 1 - 1)) &&& (1 <<< c - 1) : ℕ) : ℤ))
    = if u < 2 ^ c then (((u + 1) / 2 : ℕ) : ℤ) else (((u + 1) / 2 : ℕ) : ℤ) - 2 ^ c := by
  have hs : (u + 1) >>> 1 = (u + 1) / 2 := by rw [Nat.shiftRight_eq_div_pow, pow_one]
  have h1 : (1 : ℕ) <<< c = 2 ^ c := by rw [Nat.shiftLeft_eq, one_mul]
  rw [hs, h1, Nat.and_two_pow, Nat.testBit_eq_decide_div_mod_eq, Nat.and_two_pow_sub_one_eq_mod]
  have hp : 0 < 2 ^ c := Nat.pow_pos (by decide)
  rw [pow_succ] at hu
  by_cases h : u < 2 ^ c
  · rw [if_pos h, Nat.div_eq_of_lt h]
    simp
  · rw [if_neg h]
    have hd : u / 2 ^ c = 1 := by
      apply Nat.div_eq_of_lt_le
      · omega
      · omega
    rw [hd]
    simp only [Nat.reduceMod, decide_true, Bool.toNat_true, one_mul, beq_iff_eq, hp.ne', if_false]
    have h32 : 2 ^ 32 = 2 ^ c * 2 ^ (32 - c) := by rw [← pow_add]; congr 1; omega
    have h33 : 0 < 2 ^ (32 - c) := Nat.pow_pos (by decide)
    obtain ⟨k, hk⟩ : ∃ k, 2 ^ (32 - c) = k + 1 := ⟨2 ^ (32 - c) - 1, by omega⟩
    have hAc : ((2 : ℤ) ^ c) = ((2 ^ c : ℕ) : ℤ) := by push_cast; rfl
    rw [h32, hk, hAc]
    generalize 2 ^ c = A at *
    have e : A * (k + 1) - 1 - ((u + 1) / 2 - 1) = (A - (u + 1) / 2) + A * k := by
      have : A * (k + 1) = A * k + A := by ring
      omega
    rw [e, Nat.add_mul_mod_self_left, Nat.mod_eq_of_lt (by omega)]
    omega

/-- The window of `c + 1` bits. -/
def window (v w c : ℕ) : ℕ := 2 * v / 2 ^ (w * c) % 2 ^ (c + 1)

theorem boothIndex_eq (w c : ℕ) (el : List ℕ) (hel : IsBytes el) (hc1 : 1 ≤ c) (hc : c ≤ 24) :
    boothIndex w c el = if window (leNat el) w c < 2 ^ c then (((window (leNat el) w c + 1) / 2 : ℕ) : ℤ)
      else (((window (leNat el) w c + 1) / 2 : ℕ) : ℤ) - 2 ^ c := by
  have key : ((if w = 0 then (ofLeBytes ((el.drop ((w * c - 1) / 8)).take 4) <<< 1) % 2 ^ 32
      else ofLeBytes ((el.drop ((w * c - 1) / 8)).take 4)) >>> ((w * c - 1) - (w * c - 1) / 8 * 8))
      &&& (1 <<< (c + 1) - 1) = window (leNat el) w c := by
    rw [ofLeBytes_eq, leNat_take _ (hel.drop _), leNat_drop _ hel, Nat.shiftLeft_eq 1, one_mul,
      Nat.and_two_pow_sub_one_eq_mod, Nat.shiftRight_eq_div_pow, Nat.shiftLeft_eq, window, pow_one]
    generalize leNat el = v
    have e256 : (256 : ℕ) ^ 4 = 2 ^ 32 := by norm_num
    rw [e256]
    split
    · next h =>
      subst h
      simp only [Nat.zero_mul, Nat.zero_sub, Nat.zero_div, pow_zero, Nat.div_one, Nat.sub_self]
      rw [Nat.mod_mod_of_dvd _ (pow_dvd_pow 2 (by omega : c + 1 ≤ 32)), Nat.mul_mod,
        Nat.mod_mod_of_dvd _ (pow_dvd_pow 2 (by omega : c + 1 ≤ 32)), ← Nat.mul_mod, Nat.mul_comm]
    · next h =>
      have hw : 1 ≤ w * c := Nat.mul_pos (Nat.pos_of_ne_zero h) hc1
      have hs : w * c = (w * c - 1) + 1 := by omega
      generalize w * c - 1 = s at hs
      rw [hs, pow_succ 2 s, Nat.mul_comm (2 ^ s) 2, Nat.mul_div_mul_left _ _ (by decide : 0 < 2)]
      have hk : s - s / 8 * 8 = s % 8 := by omega
      rw [hk]
      have e : (256 : ℕ) ^ (s / 8) = 2 ^ (8 * (s / 8)) := by rw [pow_mul]; norm_num
      rw [e]
      have hlt : s % 8 < 8 := Nat.mod_lt _ (by decide)
      have e3 : (2 : ℕ) ^ 32 = 2 ^ (s % 8) * 2 ^ (32 - s % 8) := by rw [← pow_add]; congr 1; omega
      rw [e3, Nat.mod_mul_right_div_self, Nat.mod_mod_of_dvd _ (pow_dvd_pow 2 (by omega : c + 1 ≤ 32 - s % 8)),
        Nat.div_div_eq_div_mul, ← pow_add]
      congr 3
      omega
  have hu : window (leNat el) w c < 2 ^ (c + 1) := Nat.mod_lt _ (Nat.pow_pos (by decide))
  rw [← booth_digit c _ (by omega) hu, ← key]
  rfl

/-- The remaining value at window `w`. -/
def rest (v w c : ℕ) : ℕ := (2 * v / 2 ^ (w * c) + 1) / 2

theorem booth_rest (w c : ℕ) (el : List ℕ) (hel : IsBytes el) (hc1 : 1 ≤ c) (hc : c ≤ 24) :
    boothIndex w c el = (rest (leNat el) w c : ℤ) - 2 ^ c * (rest (leNat el) (w + 1) c : ℤ) := by
  rw [boothIndex_eq w c el hel hc1 hc, window, rest, rest]
  generalize leNat el = v
  have e : 2 * v / 2 ^ ((w + 1) * c) = 2 * v / 2 ^ (w * c) / 2 ^ c := by
    rw [Nat.div_div_eq_div_mul, ← pow_add]; congr 2; ring
  rw [e]
  generalize 2 * v / 2 ^ (w * c) = x
  have hA : 0 < 2 ^ c := Nat.pow_pos (by decide)
  have hAc : ((2 : ℤ) ^ c) = ((2 ^ c : ℕ) : ℤ) := by push_cast; rfl
  rw [hAc, pow_succ]
  obtain ⟨B, hB⟩ : ∃ B, 2 ^ c = 2 * B := ⟨2 ^ (c - 1), by rw [← pow_succ']; congr 1; omega⟩
  generalize 2 ^ c = A at *
  have hx := Nat.div_add_mod x (A * 2)
  have hu := Nat.mod_lt x (by omega : 0 < A * 2)
  have hd : x / A / 2 = x / (A * 2) := Nat.div_div_eq_div_mul x A 2
  have hA2 := Nat.div_add_mod (x / A) 2
  have hA3 := Nat.div_add_mod x A
  have hm := Nat.mod_lt x hA
  generalize x % (A * 2) = u at *
  generalize x / (A * 2) = q at *
  generalize hy : x / A = y at *
  generalize x % A = r at *
  rw [hd] at hA2
  have hb : y % 2 < 2 := Nat.mod_lt _ (by decide)
  generalize y % 2 = b at *
  have hux : u = A * b + r := by
    have : A * y = A * 2 * q + A * b := by rw [← hA2]; ring
    omega
  have hE : (y + 1) / 2 = q + b := by omega
  rw [hE]
  have hAq : A * 2 * q = 2 * (A * q) := by ring
  push_cast
  have hcast : (A : ℤ) * ((q : ℤ) + b) = ((A * q + A * b : ℕ) : ℤ) := by push_cast; ring
  rw [hcast]
  have hb' : b = 0 ∨ b = 1 := by omega
  rcases hb' with rfl | rfl
  · rw [if_pos (by omega)]; omega
  · rw [if_neg (by omega)]; omega

theorem booth_bound (w c : ℕ) (el : List ℕ) (hel : IsBytes el) (hc1 : 1 ≤ c) (hc : c ≤ 24) :
    -(2 ^ (c - 1) : ℤ) ≤ boothIndex w c el ∧ boothIndex w c el ≤ 2 ^ (c - 1) := by
  rw [boothIndex_eq w c el hel hc1 hc]
  have hu : window (leNat el) w c < 2 ^ (c + 1) := Nat.mod_lt _ (Nat.pow_pos (by decide))
  generalize window (leNat el) w c = u at *
  obtain ⟨k, rfl⟩ : ∃ k, c = k + 1 := ⟨c - 1, by omega⟩
  have h1 : ((2 : ℤ) ^ (k + 1)) = 2 * ((2 ^ k : ℕ) : ℤ) := by push_cast; ring
  have h2 : ((2 : ℤ) ^ (k + 1 - 1)) = ((2 ^ k : ℕ) : ℤ) := by push_cast; rfl
  have h3 : 2 ^ (k + 1) = 2 * 2 ^ k := by ring
  have h4 : 2 ^ (k + 1 + 1) = 4 * 2 ^ k := by ring
  rw [h1, h2, h3]
  rw [h4] at hu
  have : 0 < 2 ^ k := Nat.pow_pos (by decide)
  generalize 2 ^ k = A at *
  split <;> omega

theorem booth_sum (n c : ℕ) (el : List ℕ) (hel : IsBytes el) (hc1 : 1 ≤ c) (hc : c ≤ 24) :
    ∑ i ∈ Finset.range n, boothIndex i c el * 2 ^ (c * i)
      = (leNat el : ℤ) - 2 ^ (c * n) * (rest (leNat el) n c : ℤ) := by
  induction n with
  | zero =>
    have : rest (leNat el) 0 c = leNat el := by rw [rest, Nat.zero_mul, pow_zero, Nat.div_one]; omega
    simp [this]
  | succ n ih =>
    rw [Finset.sum_range_succ, ih, booth_rest n c el hel hc1 hc, Nat.mul_succ, pow_add]
    ring

theorem rest_eq_zero (v n c : ℕ) (h : 2 * v < 2 ^ (c * n)) : rest v n c = 0 := by
  rw [rest, Nat.mul_comm n c, Nat.div_eq_of_lt h]

end Halo2.Msm
