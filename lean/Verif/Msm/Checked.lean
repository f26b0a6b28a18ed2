import Verif.Msm.Booth
import Verif.Inverse.Checked

/-!
# `get_booth_index` in a build with overflow checks
-/

namespace Halo2.Msm

open Halo2.Field Halo2.Checked

/-- Models src/msm.rs:13-53 (`get_booth_index`) with overflow checks. -/
def boothIndexC (windowIndex windowSize : ℕ) (el : List ℕ) : Option ℤ := do
  let prod ← fitsU 64 (windowIndex * windowSize)
  let skipBits := prod - 1
  let skipBytes := skipBits / 8
  let tmp := ofLeBytes ((el.drop skipBytes).take 4)
  let tmp := if windowIndex = 0 then (tmp <<< 1) % 2 ^ 32 else tmp
  let skipped ← fitsU 64 (skipBytes * 8)
  let sh ← subU skipBits skipped
  shiftOk 32 sh
  let tmp := tmp >>> sh
  let ws1 ← fitsU 64 (windowSize + 1)
  shiftOk 32 ws1
  let mask ← subU (1 <<< ws1 % 2 ^ 32) 1
  let tmp := tmp &&& mask
  shiftOk 32 windowSize
  let sign := tmp &&& (1 <<< windowSize % 2 ^ 32) == 0
  let tmp ← fitsU 32 (tmp + 1)
  let tmp := tmp >>> 1
  if sign then
    -- `as i32` of a `u32`
    some (if tmp < 2 ^ 31 then (tmp : ℤ) else (tmp : ℤ) - 2 ^ 32)
  else do
    let t ← subU tmp 1
    let m ← subU (1 <<< windowSize % 2 ^ 32) 1
    let x : ℕ := (2 ^ 32 - 1 - t) &&& m
    fitsI 32 (-(if x < 2 ^ 31 then (x : ℤ) else (x : ℤ) - 2 ^ 32))

theorem boothIndexC_ok (w c : ℕ) (el : List ℕ) (hc : c ≤ 30) (hw : w * c < 2 ^ 64) :
    boothIndexC w c el = some (boothIndex w c el) := by
  have p1 : (2 : ℕ) ^ (c + 1) ≤ 2 ^ 31 := Nat.pow_le_pow_right (by decide) (by omega)
  have p0 : (2 : ℕ) ^ c ≤ 2 ^ 30 := Nat.pow_le_pow_right (by decide) hc
  have q0 : 0 < (2 : ℕ) ^ c := Nat.pow_pos (by decide)
  have q1 : 0 < (2 : ℕ) ^ (c + 1) := Nat.pow_pos (by decide)
  have e1 : (1 : ℕ) <<< (c + 1) = 2 ^ (c + 1) := by rw [Nat.shiftLeft_eq, one_mul]
  have e0 : (1 : ℕ) <<< c = 2 ^ c := by rw [Nat.shiftLeft_eq, one_mul]
  unfold boothIndexC boothIndex
  rw [fitsU_some hw]
  simp only [Option.bind_eq_bind, Option.bind_some]
  rw [fitsU_some (by omega)]
  simp only [Option.bind_some]
  rw [subU_some (by omega)]
  simp only [Option.bind_some]
  rw [shiftOk_some (by omega)]
  simp only [Option.bind_some]
  rw [fitsU_some (by omega)]
  simp only [Option.bind_some]
  rw [shiftOk_some (by omega)]
  simp only [Option.bind_some]
  rw [e1, e0, Nat.mod_eq_of_lt (a := 2 ^ (c + 1)) (b := 2 ^ 32) (by omega),
    Nat.mod_eq_of_lt (a := 2 ^ c) (b := 2 ^ 32) (by omega), subU_some q1, subU_some q0, shiftOk_some (by omega)]
  simp only [Option.bind_some]
  generalize hT : (if w = 0 then ofLeBytes ((el.drop ((w * c - 1) / 8)).take 4) <<< 1 % 2 ^ 32
    else ofLeBytes ((el.drop ((w * c - 1) / 8)).take 4)) >>> (w * c - 1 - (w * c - 1) / 8 * 8) &&& (2 ^ (c + 1) - 1) = u
  have hu : u < 2 ^ (c + 1) := by
    rw [← hT, Nat.and_two_pow_sub_one_eq_mod]
    exact Nat.mod_lt _ q1
  clear hT
  rw [fitsU_some (by omega)]
  simp only [Option.bind_some]
  rw [Nat.shiftRight_eq_div_pow, pow_one, if_pos (show (u + 1) / 2 < 2 ^ 31 by omega)]
  by_cases hs : (u &&& 2 ^ c == 0) = true
  · rw [if_pos hs, if_pos hs]
  · rw [if_neg hs, if_neg hs]
    have hu1 : 1 ≤ u := by
      rcases Nat.eq_zero_or_pos u with h | h
      · exfalso; apply hs; rw [h, Nat.zero_and]; rfl
      · exact h
    rw [subU_some (by omega)]
    simp only [Option.bind_some]
    have hx : (2 ^ 32 - 1 - ((u + 1) / 2 - 1)) &&& (2 ^ c - 1) < 2 ^ c := by
      rw [Nat.and_two_pow_sub_one_eq_mod]
      exact Nat.mod_lt _ q0
    generalize (2 ^ 32 - 1 - ((u + 1) / 2 - 1)) &&& (2 ^ c - 1) = x at hx
    rw [if_pos (show x < 2 ^ 31 by omega)]
    exact if_pos ⟨by omega, by omega⟩

/-- From windows of 31 bits on the shift panics. -/
theorem boothIndexC_panic (w c : ℕ) (el : List ℕ) (hc : 31 ≤ c) : boothIndexC w c el = none := by
  have hn : shiftOk 32 (c + 1) = none := if_neg (by omega)
  unfold boothIndexC
  cases fitsU 64 (w * c) with
  | none => rfl
  | some x =>
    simp only [Option.bind_eq_bind, Option.bind_some]
    cases fitsU 64 ((x - 1) / 8 * 8) with
    | none => rfl
    | some y =>
      simp only [Option.bind_some]
      cases subU (x - 1) y with
      | none => rfl
      | some z =>
        simp only [Option.bind_some]
        cases shiftOk 32 z with
        | none => rfl
        | some u =>
          simp only [Option.bind_some]
          by_cases h : c + 1 < 2 ^ 64
          · rw [fitsU_some h, Option.bind_some, hn]; rfl
          · rw [show fitsU 64 (c + 1) = none from if_neg h]; rfl

end Halo2.Msm
