import Verif.Hash.Expand
import Mathlib.Tactic.Ring

namespace Halo2.Hash

open Halo2.Field Halo2.Ext

theorem i2osp_one (x : ℕ) : i2osp x 1 = [x % 256] := rfl

theorem i2osp_two (x : ℕ) : i2osp x 2 = [x / 256 % 256, x % 256] := rfl

theorem i2osp_zero (n : ℕ) : i2osp 0 n = List.replicate n 0 := by
  induction n with
  | zero => rfl
  | succ n ih => rw [i2osp, Nat.zero_div, ih, List.replicate_succ']

theorem os2ip_aux (b : List ℕ) (acc : ℕ) : b.foldl (fun acc x => acc * 256 + x) acc = acc * 256 ^ b.length + leNat b.reverse := by
  induction b generalizing acc with
  | nil => simp [leNat]
  | cons x b ih =>
    rw [List.foldl_cons, ih, List.reverse_cons, leNat_append, List.length_cons, List.length_reverse]
    have : leNat [x] = x := by simp [leNat]
    rw [this]
    ring

theorem os2ip_eq (b : List ℕ) : os2ip b = leNat b.reverse := by rw [os2ip, os2ip_aux, Nat.zero_mul, Nat.zero_add]

theorem isBytes_reverse {b : List ℕ} (h : IsBytes b) : IsBytes b.reverse := fun x hx => h x (List.mem_reverse.mp hx)

section

variable (D : Digest) (hD : D.Ok) (msg dst : List ℕ) (len : ℕ)

/-- The first `k` blocks. -/
def blocks (k : ℕ) : List ℕ := ((List.range k).map (xmdB D msg dst len)).flatten

include hD

theorem xmdB_length (i : ℕ) : (xmdB D msg dst len i).length = D.outputSize := by
  cases i <;> exact hD.length _

theorem xmdB_bytes (i : ℕ) : IsBytes (xmdB D msg dst len i) := by
  cases i <;> exact hD.bytes _

omit hD in
theorem blocks_succ (k : ℕ) : blocks D msg dst len (k + 1) = blocks D msg dst len k ++ xmdB D msg dst len k := by
  rw [blocks, blocks, List.range_succ, List.map_append, List.flatten_append]
  simp

theorem blocks_length (k : ℕ) : (blocks D msg dst len k).length = k * D.outputSize := by
  induction k with
  | zero => simp [blocks]
  | succ k ih => rw [blocks_succ, List.length_append, ih, xmdB_length D hD]; ring

theorem blocks_bytes (k : ℕ) : IsBytes (blocks D msg dst len k) := by
  induction k with
  | zero => intro x hx; simp [blocks] at hx
  | succ k ih => rw [blocks_succ]; exact ih.append (xmdB_bytes D hD msg dst len k)

theorem writeAt_block (k : ℕ) (hk : k * D.outputSize ≤ len) :
    writeAt (blocks D msg dst len k ++ List.replicate (len - k * D.outputSize) 0) (k * D.outputSize) (xmdB D msg dst len k) =
      (blocks D msg dst len (k + 1)).take len ++ List.replicate (len - (k + 1) * D.outputSize) 0 := by
  have hb := blocks_length D hD msg dst len k
  have hx := xmdB_length D hD msg dst len k
  have e1 : (blocks D msg dst len k ++ List.replicate (len - k * D.outputSize) 0).take (k * D.outputSize) = blocks D msg dst len k := by
    rw [List.take_left' hb]
  have e2 : (blocks D msg dst len k ++ List.replicate (len - k * D.outputSize) 0).length - k * D.outputSize = len - k * D.outputSize := by
    rw [List.length_append, hb, List.length_replicate]; omega
  have e3 : (blocks D msg dst len k ++ List.replicate (len - k * D.outputSize) 0).drop (k * D.outputSize + D.outputSize)
      = List.replicate (len - (k + 1) * D.outputSize) 0 := by
    rw [List.drop_append, List.drop_of_length_le (by omega), hb, List.nil_append, Nat.add_sub_cancel_left, List.drop_replicate,
      Nat.succ_mul]
    congr 1
    omega
  rw [writeAt, e1, e2, hx, e3, blocks_succ, List.take_append, hb]
  congr 2
  rw [List.take_of_length_le (by omega)]

theorem expand_loop (checks : Bool) (k : ℕ) (hk : k * D.outputSize ≤ len) (hk2 : k < 255) :
    (List.range' 1 k).foldlM (expandStep D checks (xmdB0 D msg dst len) (dstPrime dst))
      (List.replicate len 0, xmdB D msg dst len 0) =
    some (blocks D msg dst len k ++ List.replicate (len - k * D.outputSize) 0, xmdB D msg dst len k) := by
  induction k with
  | zero => simp [blocks]
  | succ k ih =>
    have h1 : k * D.outputSize ≤ len := le_trans (Nat.mul_le_mul_right _ (Nat.le_succ k)) hk
    rw [List.range'_concat, List.foldlM_append, ih h1 (by omega)]
    change List.foldlM (expandStep D checks (xmdB0 D msg dst len) (dstPrime dst)) (_, _) [1 + 1 * k] = _
    rw [List.foldlM_cons, expandStep]
    have hc : counter checks (1 + 1 * k) = some (k + 2) := by
      rw [counter, if_neg (by omega)]
      congr 1
      omega
    rw [hc]
    dsimp only
    rw [show (1 + 1 * k - 1) = k by omega, writeAt_block D hD msg dst len k h1,
      List.take_of_length_le (by rw [blocks_length D hD]; exact hk)]
    have hB : xmdB D msg dst len (k + 1) = D.H (List.zipWith (fun x y => x ^^^ y) (xmdB0 D msg dst len) (xmdB D msg dst len k)
        ++ [k + 2] ++ dstPrime dst) := by
      rw [xmdB, strxor, i2osp_one, Nat.mod_eq_of_lt (by omega)]
    rw [hB]
    rfl

end

theorem expandMessage_eq (D : Digest) (hD : D.Ok) (checks : Bool) (pre domain msg : List ℕ) (len : ℕ) (h0 : 1 ≤ len)
    (hell : xmdEll D len ≤ 255) (hlen : len ≤ 65535) :
    expandMessage D checks pre domain msg len = expandMessageXmd D msg (pre ++ domain) len := by
  have hpos := hD.pos
  rw [expandMessage, expandMessageXmd]
  by_cases hd : pre.length + domain.length < 256
  · rw [if_neg (by omega), if_neg (by rw [List.length_append]; omega)]
    dsimp only
    have hdst : pre ++ domain ++ [(domain.length + pre.length) % 256] = dstPrime (pre ++ domain) := by
      rw [dstPrime, i2osp_one, List.length_append, Nat.add_comm domain.length]
    have hb0 : D.H (List.replicate D.blockSize 0 ++ msg ++ [(len >>> 8) % 256, len % 256, 0] ++ dstPrime (pre ++ domain))
        = xmdB0 D msg (pre ++ domain) len := by
      rw [xmdB0, i2osp_zero, i2osp_two, i2osp_one, Nat.shiftRight_eq_div_pow]
      simp only [List.append_assoc, List.cons_append, List.nil_append]
    rw [hdst, hb0]
    have hb1 : D.H (xmdB0 D msg (pre ++ domain) len ++ [1] ++ dstPrime (pre ++ domain)) = xmdB D msg (pre ++ domain) len 0 := rfl
    rw [hb1]
    have hellE : (len + D.outputSize - 1) / D.outputSize = xmdEll D len := by
      rw [xmdEll, Nat.add_sub_assoc hpos]
    rw [hellE]
    have hell1 : 1 ≤ xmdEll D len := by
      rw [xmdEll]; exact Nat.div_pos (by omega) hpos
    have hmul : (xmdEll D len - 1) * D.outputSize < len ∧ len ≤ xmdEll D len * D.outputSize := by
      have h1 := Nat.div_add_mod (len + (D.outputSize - 1)) D.outputSize
      have h2 := Nat.mod_lt (len + (D.outputSize - 1)) hpos
      rw [← xmdEll] at h1
      have h3 : (xmdEll D len - 1) * D.outputSize + D.outputSize = D.outputSize * xmdEll D len := by
        rw [← Nat.succ_mul, Nat.succ_eq_add_one, Nat.sub_add_cancel hell1, Nat.mul_comm]
      rw [Nat.mul_comm (xmdEll D len) D.outputSize]
      omega
    rw [expand_loop D hD msg (pre ++ domain) len checks (xmdEll D len - 1) (by omega) (by omega)]
    dsimp only
    rw [if_neg (by omega), writeAt_block D hD msg (pre ++ domain) len _ (by omega), Nat.sub_add_cancel hell1,
      Nat.sub_eq_zero_of_le hmul.2, List.replicate_zero, List.append_nil]
    rfl
  · rw [if_pos hd, if_pos (by rw [List.length_append]; omega)]

theorem expandMessageXmd_spec (D : Digest) (hD : D.Ok) (msg dst : List ℕ) (len : ℕ) (hell : xmdEll D len ≤ 255)
    (hlen : len ≤ 65535) (hd : dst.length < 256) :
    ∃ out, expandMessageXmd D msg dst len = some out ∧ out.length = len ∧ IsBytes out := by
  rw [expandMessageXmd, if_neg (by omega)]
  refine ⟨_, rfl, ?_, ?_⟩
  · rw [List.length_take]
    have := blocks_length D hD msg dst len (xmdEll D len)
    rw [blocks] at this
    rw [this]
    apply Nat.min_eq_left
    have hpos := hD.pos
    have h1 := Nat.div_add_mod (len + (D.outputSize - 1)) D.outputSize
    have h2 := Nat.mod_lt (len + (D.outputSize - 1)) hpos
    rw [← xmdEll] at h1
    rw [Nat.mul_comm (xmdEll D len) D.outputSize]
    omega
  · exact (blocks_bytes D hD msg dst len _).take _

end Halo2.Hash
