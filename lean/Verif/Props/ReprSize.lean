import Verif.Props.FieldBytes
import Verif.Prime.Moduli

/-!
# Property C04: the representation `to_repr` and `from_repr`, and its size
-/

namespace Halo2.Props

open Halo2 Halo2.Field Halo2.Prime

/-- **C04** `to_repr` writes the integer below `p` with the least significant byte first; `from_repr` refuses the strings of integers from `p` on
and returns an element exactly for its own `to_repr`. -/
theorem C04_repr (p : ℕ) (hp : OddModulus p) :
    (∀ a (x : ZMod p), Rep p a x → (toRepr p a).length = 8 * numLimbs p ∧ IsBytes (toRepr p a) ∧ leNat (toRepr p a) = x.val) ∧
    ∀ b : List ℕ, b.length = 8 * numLimbs p → IsBytes b →
      (fromRepr p b = none ↔ p ≤ leNat b) ∧ ∀ a, IsElem p a → (fromRepr p b = some a ↔ toRepr p a = b) := by
  refine ⟨fun a x ha => C04_encode p hp .LE a x ha, fun b hl hb => ⟨⟨fun h => ?_, (C04_decode p hp .LE b hl hb).1⟩, fun a ha => ⟨fun h => ?_, ?_⟩⟩⟩
  · by_contra hlt
    obtain ⟨a, h1, -⟩ := (C04_decode p hp .LE b hl hb).2 (by change leNat b < p; omega)
    rw [fromRepr, h1] at h
    cases h
  · exact (C04_unique p hp .LE b a hl hb h).2
  · rintro rfl
    exact C04_roundtrip p hp .LE a ha

/-- **C04** An element takes the least number of words of 64 bits that hold the modulus: 32 bytes for all fields but the base field of
bls12-381, with 48, and those of pluto and eris, with 56. -/
theorem C04_sizes :
    (∀ p n : ℕ, 0 < p → (numLimbs p ≤ n ↔ 0 < n ∧ p < 2 ^ (64 * n))) ∧
    ((∀ p ∈ [bnQ, bnR, blsR, k1P, k1N, r1P, r1N], 8 * numLimbs p = 32) ∧ 8 * numLimbs blsQ = 48 ∧ ∀ p ∈ [plP, plQ], 8 * numLimbs p = 56) := by
  refine ⟨fun p n hp => ?_, by decide +kernel, by decide +kernel, by decide +kernel⟩
  rw [← Nat.size_le]
  have := Nat.size_pos.mpr hp
  unfold numLimbs numBits
  omega

/-- One in the base field of secp256k1: a byte 1 and 31 zero bytes. -/
example : fromRepr k1p (1 :: List.replicate 31 0) = some (one k1p) :=
  (((C04_repr k1p k1p_odd).2 _ (by decide +kernel) (by unfold IsBytes; decide)).2 _ (rep_one k1p_odd).elem).mpr (by decide +kernel)

example : ¬ numLimbs (2 ^ 64) ≤ 1 := fun h => absurd ((C04_sizes.1 (2 ^ 64) 1 (by decide)).mp h).2 (by decide)

end Halo2.Props
