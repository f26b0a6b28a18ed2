import Verif.Field.Bytes

/-!
# Bits of field elements, the table of small scalars, random elements

`src/derive/field/common.rs`, `src/bn256/fr.rs`, `derive/src/field/mod.rs`.
-/

namespace Halo2.Field

open Halo2

/-! ### Models -/

/-- One word of a `BitArray<_, Lsb0>` (bitvec): its `w` bits, least significant first. -/
def wordBits (w x : ℕ) : List Bool := (List.range w).map fun i => x.testBit i

/-- `ff::FieldBits::new`: the bits of the words in order. -/
def fieldBits (w : ℕ) (limbs : List ℕ) : List Bool := limbs.flatMap (wordBits w)

/-- `u64::from_le_bytes` / `u32::from_le_bytes` of consecutive chunks, `src/derive/field/common.rs:21-34`. -/
def chunksLe (step n : ℕ) (b : List ℕ) : List ℕ :=
  (List.range n).map fun off => ofLeBytes ((b.drop (off * step)).take step)

/-- `STEP`, `src/derive/field/common.rs:16-19`; `wide` says whether `target_pointer_width` is 64. -/
def bitsStep (wide : Bool) : ℕ := if wide then 8 else 4

/-- `to_le_bits`, `src/derive/field/common.rs:12-37`. -/
def toLeBits (wide : Bool) (p : ℕ) (a : List ℕ) : List Bool :=
  fieldBits (8 * bitsStep wide) (chunksLe (bitsStep wide) (numLimbs p * 8 / bitsStep wide) (toRepr p a))

/-- `big_to_limbs_32`, `derive/src/utils.rs:21-26`. -/
def bigToLimbs32 (e n : ℕ) : List ℕ := (List.range n).map fun i => (e / 2 ^ (32 * i)) % 2 ^ 32

/-- `char_le_bits`, `src/derive/field/common.rs:39-46`; the 32-bit limbs are `derive/src/field/mod.rs:112`. -/
def charLeBits (wide : Bool) (p : ℕ) : List Bool :=
  if wide then fieldBits 64 (modulusLimbs p) else fieldBits 32 (bigToLimbs32 p (numLimbs p * 2))

/-- `FR_TABLE` as written by `script/bn256.py` (run by `build.rs:8-20`): the limbs of `i R mod p` for `i < 2^16`. -/
def scalarTable (p : ℕ) : List (List ℕ) := (List.range 65536).map fun i => bigToLimbs (i * (2 ^ 256 % p) % p) 4

/-- `From<u64>` with the feature `bn256-table`, `src/bn256/fr.rs:27-36`. -/
def fromU64Table (p v : ℕ) : List ℕ :=
  if v < 65536 then (scalarTable p).getD v [] else mul p [v, 0, 0, 0] (R2 p)

/-- `random`, `derive/src/field/mod.rs:383-387`: the generator fills `2 * SIZE` bytes, given as the argument. -/
def randomWide (p : ℕ) (wide : List ℕ) : List ℕ := fromUniformBytes p wide

/-! ### Bits -/

/-- Words of `w` bits as one integer. -/
def wval (w : ℕ) : List ℕ → ℕ
  | [] => 0
  | x :: xs => x + 2 ^ w * wval w xs

theorem wordBits_length (w x : ℕ) : (wordBits w x).length = w := by simp [wordBits]

theorem fieldBits_eq (w : ℕ) (l : List ℕ) (h : ∀ x ∈ l, x < 2 ^ w) :
    fieldBits w l = (List.range (w * l.length)).map fun i => (wval w l).testBit i := by
  induction l with
  | nil => simp [fieldBits]
  | cons x xs ih =>
    have hx : x < 2 ^ w := h x (by simp)
    have ih := ih fun y hy => h y (by simp [hy])
    rw [fieldBits, List.flatMap_cons]
    rw [fieldBits] at ih
    rw [ih, List.length_cons, show w * (xs.length + 1) = w + w * xs.length by ring, List.range_add, List.map_append, List.map_map]
    congr 1
    · refine List.map_congr_left fun i hi => ?_
      rw [List.mem_range] at hi
      rw [wval, add_comm, Nat.testBit_two_pow_mul_add _ hx, if_pos hi]
    · refine List.map_congr_left fun i _ => ?_
      rw [Function.comp, wval, add_comm, Nat.testBit_two_pow_mul_add _ hx, if_neg (by omega), Nat.add_sub_cancel_left]

theorem chunksLe_succ (step n : ℕ) (b : List ℕ) :
    chunksLe step (n + 1) b = ofLeBytes (b.take step) :: chunksLe step n (b.drop step) := by
  simp only [chunksLe]
  rw [List.range_succ_eq_map, List.map_cons, List.map_map]
  simp only [zero_mul, List.drop_zero]
  congr 1
  apply List.map_congr_left
  intro i _
  simp only [Function.comp, Nat.succ_eq_add_one, List.drop_drop]
  rw [show step + i * step = (i + 1) * step by ring]

theorem chunksLe_spec (step n : ℕ) (b : List ℕ) (hl : b.length = step * n) (hb : IsBytes b) :
    (chunksLe step n b).length = n ∧ (∀ x ∈ chunksLe step n b, x < 2 ^ (8 * step)) ∧
      wval (8 * step) (chunksLe step n b) = leNat b := by
  induction n generalizing b with
  | zero =>
    have : b = [] := by simpa using hl
    subst this
    simp [chunksLe, leNat, wval]
  | succ n ih =>
    have hpow : (256 : ℕ) ^ step = 2 ^ (8 * step) := by rw [pow_mul]; norm_num
    obtain ⟨h1, h2, h3⟩ := ih (b.drop step) (by rw [List.length_drop, hl, Nat.mul_succ]; omega) (hb.drop step)
    rw [chunksLe_succ]
    have ht : (b.take step).length = step := by rw [List.length_take, hl, Nat.mul_succ]; omega
    refine ⟨by simp [h1], ?_, ?_⟩
    · intro x hx
      rcases List.mem_cons.mp hx with rfl | hx
      · have := leNat_lt _ (hb.take step)
        rw [ht, hpow] at this
        rwa [ofLeBytes_eq]
      · exact h2 x hx
    · rw [wval, h3, ofLeBytes_eq]
      conv_rhs => rw [← List.take_append_drop step b, leNat_append, ht, hpow]

theorem wval_digits (w e n : ℕ) : wval w ((List.range n).map fun i => (e / 2 ^ (w * i)) % 2 ^ w) = e % 2 ^ (w * n) := by
  induction n generalizing e with
  | zero => simp [wval, Nat.mod_one]
  | succ n ih =>
    rw [List.range_succ_eq_map, List.map_cons, List.map_map, wval]
    have : (List.range n).map ((fun i => (e / 2 ^ (w * i)) % 2 ^ w) ∘ Nat.succ) =
        (List.range n).map fun i => ((e / 2 ^ w) / 2 ^ (w * i)) % 2 ^ w := by
      refine List.map_congr_left fun i _ => ?_
      rw [Function.comp, Nat.div_div_eq_div_mul, ← pow_add, Nat.succ_eq_add_one, mul_add, mul_one, add_comm]
    rw [this, ih, mul_zero, pow_zero, Nat.div_one, mul_add, mul_one, add_comm (w * n) w, pow_add, Nat.mod_mul]

theorem toLeBits_eq {p : ℕ} (hp : OddModulus p) (wide : Bool) {a : List ℕ} {x : ZMod p} (ha : Rep p a x) :
    toLeBits wide p a = (List.range (64 * numLimbs p)).map fun i => x.val.testBit i := by
  obtain ⟨t1, t2, t3⟩ := toRepr_spec hp .LE ha
  have key : ∀ step n, 8 * numLimbs p = step * n → numLimbs p * 8 / step = n →
      fieldBits (8 * step) (chunksLe step (numLimbs p * 8 / step) (toRepr p a)) =
        (List.range (64 * numLimbs p)).map fun i => x.val.testBit i := by
    intro step n h1 h2
    rw [h2]
    obtain ⟨c1, c2, c3⟩ := chunksLe_spec step n (toRepr p a) (t1.trans h1) t2
    rw [fieldBits_eq _ _ c2, c1, c3, show 8 * step * n = 64 * numLimbs p by rw [mul_assoc, ← h1]; ring]
    have : leNat (toRepr p a) = x.val := t3
    rw [this]
  cases wide with
  | true => exact key 8 (numLimbs p) rfl (by omega)
  | false => exact key 4 (numLimbs p * 2) (by omega) (by omega)

theorem wval_64 (l : List ℕ) : wval 64 l = val l := by
  induction l with
  | nil => rfl
  | cons x xs ih => rw [wval, ih, val_cons]; rfl

theorem charLeBits_eq (wide : Bool) (p : ℕ) :
    charLeBits wide p = (List.range (64 * numLimbs p)).map fun i => p.testBit i := by
  cases wide with
  | true =>
    rw [charLeBits, if_pos rfl, fieldBits_eq _ _ (modulusLimbs_wf p), modulusLimbs_length, wval_64, val_modulusLimbs]
  | false =>
    have h := modulus_lt p
    rw [W_pow] at h
    have hw : wval 32 (bigToLimbs32 p (numLimbs p * 2)) = p := by
      rw [bigToLimbs32, wval_digits, show 32 * (numLimbs p * 2) = 64 * numLimbs p by ring, Nat.mod_eq_of_lt h]
    rw [charLeBits, if_neg (by simp), fieldBits_eq, hw, bigToLimbs32, List.length_map, List.length_range,
      show 32 * (numLimbs p * 2) = 64 * numLimbs p by ring]
    intro y hy
    rw [bigToLimbs32, List.mem_map] at hy
    obtain ⟨i, _, rfl⟩ := hy
    exact Nat.mod_lt _ (by positivity)

end Halo2.Field
