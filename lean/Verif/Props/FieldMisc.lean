import Verif.Field.Bits
import Verif.Props.FieldBytes
import Verif.Prime.Moduli
import Mathlib.Data.Int.CardIntervalMod
import Mathlib.Data.Set.Card

/-!
# C51, C53, C54: bits of elements, the table of small scalars, random elements
-/

namespace Halo2.Props

open Halo2 Halo2.Field Halo2.Prime

/-- The scalar field of bn256 has four limbs. -/
theorem bnR_limbs : numLimbs bnR = 4 := by
  have : numBits bnR = 254 := le_antisymm (Nat.size_le.mpr (by decide +kernel)) (Nat.lt_size.mpr (by decide +kernel))
  rw [numLimbs, this]

theorem bnR_oddModulus : OddModulus bnR := ⟨by decide +kernel, by decide +kernel⟩

/-! ## C51 -/

/-- **C51** `to_le_bits`, on targets with 64-bit and with 32-bit words: the `64 * NUM_LIMBS` bits of the canonical integer of
the element, least significant first. -/
theorem C51_to_le_bits (p : ℕ) (hp : OddModulus p) (wide : Bool) (a : List ℕ) (x : ZMod p) (ha : Rep p a x) :
    toLeBits wide p a = (List.range (64 * numLimbs p)).map fun i => x.val.testBit i := toLeBits_eq hp wide ha

/-- **C51** `char_le_bits`: the bits of the modulus. -/
theorem C51_char_le_bits (p : ℕ) (wide : Bool) :
    charLeBits wide p = (List.range (64 * numLimbs p)).map fun i => p.testBit i := charLeBits_eq wide p

/-- **C51** The bits determine the element. -/
theorem C51_injective (p : ℕ) (hp : OddModulus p) (wide wide' : Bool) (a b : List ℕ) (ha : IsElem p a) (hb : IsElem p b)
    (h : toLeBits wide p a = toLeBits wide' p b) : a = b := by
  have : NeZero p := ⟨by have := hp.gt; omega⟩
  obtain ⟨x, hx⟩ := Rep.exists_of_elem hp ha
  obtain ⟨y, hy⟩ := Rep.exists_of_elem hp hb
  rw [toLeBits_eq hp wide hx, toLeBits_eq hp wide' hy] at h
  have hlt : ∀ z : ZMod p, z.val < 2 ^ (64 * numLimbs p) := fun z => by
    rw [← W_pow]
    exact (ZMod.val_lt z).trans (modulus_lt p)
  have hv : x.val = y.val := by
    refine Nat.eq_of_testBit_eq fun i => ?_
    rcases Nat.lt_or_ge i (64 * numLimbs p) with hi | hi
    · have := congrArg (fun l => l[i]?) h
      simpa [hi] using this
    · rw [Nat.testBit_lt_two_pow (lt_of_lt_of_le (hlt x) (Nat.pow_le_pow_right (by decide) hi)),
        Nat.testBit_lt_two_pow (lt_of_lt_of_le (hlt y) (Nat.pow_le_pow_right (by decide) hi))]
  rw [ZMod.val_injective p hv] at hx
  exact hx.unique hy

/-- A case: the bits of `-1` in the scalar field of bn256 on a 32-bit target; bit 0 is clear, bit 28 is set. -/
example : (toLeBits false bnR (bigToLimbs (montBig bnR (bnR - 1)) (numLimbs bnR)))[0]? = some false ∧
    (charLeBits true bnR)[28]? = some true := by
  constructor
  · have hr : Rep bnR (bigToLimbs (montBig bnR (bnR - 1)) (numLimbs bnR)) ((bnR - 1 : ℕ) : ZMod bnR) := by
      obtain ⟨h1, h2⟩ := isElem_bigToLimbs bnR (montBig bnR (bnR - 1)) (Nat.mod_lt _ (by decide +kernel))
      refine ⟨h1, ?_⟩
      rw [h2, montBig, ZMod.natCast_mod, Nat.cast_mul, cast_r1Big]
    rw [C51_to_le_bits bnR bnR_oddModulus false _ _ hr, bnR_limbs, ZMod.val_natCast]
    decide +kernel
  · rw [C51_char_le_bits, bnR_limbs]
    decide +kernel

/-! ## C53 -/

/-- **C53** With the feature `bn256-table`, converting an integer to a scalar of bn256 gives, for every 64-bit integer, the
same limbs as without it. -/
theorem C53_table (v : ℕ) (hv : v < 2 ^ 64) : fromU64Table bnR v = fromU64 bnR v := by
  have hr := (C05_from_u64 bnR bnR_oddModulus v hv).1
  rw [fromU64Table]
  split
  · rename_i h
    have e : (scalarTable bnR).getD v [] = bigToLimbs (v * (2 ^ 256 % bnR) % bnR) 4 := by
      rw [scalarTable, List.getD_eq_getElem?_getD, List.getElem?_map, List.getElem?_range h]
      rfl
    rw [e]
    have h1 := isElem_bigToLimbs bnR (v * (2 ^ 256 % bnR) % bnR) (Nat.mod_lt _ (by decide +kernel))
    rw [bnR_limbs] at h1
    have hr' : Rep bnR (bigToLimbs (v * (2 ^ 256 % bnR) % bnR) 4) (v : ZMod bnR) := by
      refine ⟨h1.1, ?_⟩
      rw [h1.2, ZMod.natCast_mod, Nat.cast_mul, ZMod.natCast_mod, bnR_limbs, Nat.cast_pow]
      rfl
    exact hr'.unique hr
  · rw [fromU64, bnR_limbs]
    rfl

/-- Both branches occur. -/
example : fromU64Table bnR 65535 = fromU64 bnR 65535 ∧ fromU64Table bnR 65536 = fromU64 bnR 65536 :=
  ⟨C53_table _ (by decide), C53_table _ (by decide)⟩

/-! ## C54 -/

/-- **C54** `random` of a field: of the `N = 256^(2 SIZE)` equally likely outputs of the generator, `⌊N / p⌋` or `⌊N / p⌋ + 1`
give each element. -/
theorem C54_random_field (p : ℕ) (hp : OddModulus p) (x : ZMod p) :
    {b : List ℕ | b.length = 2 * (8 * numLimbs p) ∧ IsBytes b ∧ Rep p (randomWide p b) x}.ncard =
      256 ^ (2 * (8 * numLimbs p)) / p + if x.val < 256 ^ (2 * (8 * numLimbs p)) % p then 1 else 0 := by
  have : NeZero p := ⟨by have := hp.gt; omega⟩
  have hp0 : 0 < p := by have := hp.gt; omega
  generalize hL : 2 * (8 * numLimbs p) = L
  have hiff : ∀ b : List ℕ, b.length = L → IsBytes b → (Rep p (randomWide p b) x ↔ leNat b ≡ x.val [MOD p]) := by
    intro b h1 h2
    have hr := C05_from_uniform_bytes p hp b (by rw [h1, hL]) h2
    rw [← ZMod.natCast_eq_natCast_iff, ZMod.natCast_zmod_val]
    exact ⟨fun h => Rep.functional hp hr h, fun h => h ▸ hr⟩
  have hinj : Set.InjOn leNat {b : List ℕ | b.length = L ∧ IsBytes b ∧ Rep p (randomWide p b) x} :=
    fun a ha b hb h => leNat_inj ha.2.1 hb.2.1 (ha.1.trans hb.1.symm) h
  rw [← hinj.ncard_image]
  have himg : leNat '' {b : List ℕ | b.length = L ∧ IsBytes b ∧ Rep p (randomWide p b) x} =
      ((Finset.range (256 ^ L)).filter (· ≡ x.val [MOD p]) : Finset ℕ) := by
    ext n
    simp only [Set.mem_image, Set.mem_ofPred_eq, Finset.coe_filter, Finset.mem_range]
    constructor
    · rintro ⟨b, ⟨h1, h2, h3⟩, rfl⟩
      exact ⟨by rw [← h1]; exact leNat_lt b h2, (hiff b h1 h2).mp h3⟩
    · rintro ⟨h1, h2⟩
      have e : leNat ((List.range L).map fun j => (n / 256 ^ j) % 256) = n := by
        rw [leNat_digits, Nat.mod_eq_of_lt h1]
      have hl : ((List.range L).map fun j => (n / 256 ^ j) % 256).length = L := by simp
      have hb : IsBytes ((List.range L).map fun j => (n / 256 ^ j) % 256) := by
        intro y hy
        rw [List.mem_map] at hy
        obtain ⟨j, _, rfl⟩ := hy
        exact Nat.mod_lt _ (by decide)
      exact ⟨_, ⟨hl, hb, (hiff _ hl hb).mpr (by rw [e]; exact h2)⟩, e⟩
  rw [himg, Set.ncard_coe_finset, ← Nat.count_eq_card_filter_range, Nat.count_modEq_card _ hp0,
    Nat.mod_eq_of_lt (ZMod.val_lt x)]

/-- For the scalar field of bn256 every element has about `2^258` preimages. -/
example (x : ZMod bnR) : 2 ^ 258 < {b : List ℕ | b.length = 2 * (8 * numLimbs bnR) ∧ IsBytes b ∧ Rep bnR (randomWide bnR b) x}.ncard := by
  rw [C54_random_field bnR bnR_oddModulus x, bnR_limbs]
  exact lt_of_lt_of_le (by decide +kernel) (Nat.le_add_right _ _)

end Halo2.Props
