import Verif.Asm.Equiv
import Verif.Prime.Moduli

/-!
# C50: the x86-64 assembly of the `asm` feature computes the same field operations

For every odd modulus for which the macro emits the assembly, whatever the registers and flags hold before the block and
whatever the processor puts in the flags it leaves unspecified.
-/

namespace Halo2.Props

open Halo2 Halo2.Field Halo2.Prime

/-- Registers and flags holding junk. -/
def asmDirty : Asm.State := ⟨7, 1, 2 ^ 64 - 1, 3, 5, 2, 9, 8, 2 ^ 64 - 2, 6, 11, 1, 1, 1⟩

/-- **C50** On elements of the field every assembly function returns the limbs the portable function returns. -/
theorem C50_asm_agrees (p : ℕ) (hp : OddModulus p) (hasm : numLimbs p = 4 ∧ numBits p < 256) (junk : Asm.State → ℕ)
    (s : Asm.State) (a b : List ℕ) (ha : IsElem p a) (hb : IsElem p b) :
    Asm.add junk s (modulusLimbs p) a b = add p a b ∧
      Asm.double junk s (modulusLimbs p) a = double p a ∧
      Asm.sub junk s (modulusLimbs p) a b = sub p a b ∧
      Asm.neg junk s (modulusLimbs p) a = neg p a ∧
      Asm.mul junk s (modulusLimbs p) (inv64 p) a b = mul p a b ∧
      Asm.square junk s (modulusLimbs p) (inv64 p) a = square p a ∧
      Asm.fromMont junk s (modulusLimbs p) (inv64 p) a = Field.fromMont p a :=
  ⟨Asm.add_eq junk s hasm ha hb, Asm.double_eq junk s hasm ha, Asm.sub_eq junk s hasm ha hb, Asm.neg_eq junk s hasm ha,
    Asm.mul_eq junk s hp hasm ha hb, Asm.square_eq junk s hp hasm ha, Asm.fromMont_eq junk s hp hasm ha⟩

theorem bnR_odd' : OddModulus bnR := ⟨by decide +kernel, by decide +kernel⟩

theorem numBits_eq {p n : ℕ} (h1 : 2 ^ n ≤ p) (h2 : p < 2 ^ (n + 1)) : numBits p = n + 1 :=
  le_antisymm (Nat.size_le.mpr h2) (Nat.lt_size.mpr h1)

/-- **C50** The fields of the crate for which the macro emits the assembly: both fields of bn256 and the scalar field of
bls12-381; the other seven generated fields have 256 bits or more limbs. -/
theorem C50_asm_fields :
    (∀ p ∈ [bnQ, bnR, blsR], numLimbs p = 4 ∧ numBits p < 256) ∧
      ∀ p ∈ [blsQ, plP, plQ, k1P, k1N, r1P, r1N], ¬ (numLimbs p = 4 ∧ numBits p < 256) := by
  have e1 : numBits bnQ = 254 := numBits_eq (by decide +kernel) (by decide +kernel)
  have e2 : numBits bnR = 254 := numBits_eq (by decide +kernel) (by decide +kernel)
  have e3 : numBits blsR = 255 := numBits_eq (by decide +kernel) (by decide +kernel)
  have e4 : numBits blsQ = 381 := numBits_eq (by decide +kernel) (by decide +kernel)
  have e5 : numBits plP = 446 := numBits_eq (by decide +kernel) (by decide +kernel)
  have e6 : numBits plQ = 446 := numBits_eq (by decide +kernel) (by decide +kernel)
  have e7 : numBits k1P = 256 := numBits_eq (by decide +kernel) (by decide +kernel)
  have e8 : numBits k1N = 256 := numBits_eq (by decide +kernel) (by decide +kernel)
  have e9 : numBits r1P = 256 := numBits_eq (by decide +kernel) (by decide +kernel)
  have e10 : numBits r1N = 256 := numBits_eq (by decide +kernel) (by decide +kernel)
  constructor
  · intro p h
    simp only [List.mem_cons, List.not_mem_nil, or_false] at h
    rcases h with rfl | rfl | rfl <;> simp only [numLimbs, e1, e2, e3] <;> decide
  · intro p h
    simp only [List.mem_cons, List.not_mem_nil, or_false] at h
    rcases h with rfl | rfl | rfl | rfl | rfl | rfl | rfl <;> simp only [numLimbs, e4, e5, e6, e7, e8, e9, e10] <;> decide

/-- A case: multiplying the largest element of the scalar field of bn256 by itself, from a dirty state. -/
example : Asm.mul (fun _ => 1) asmDirty (modulusLimbs bnR) (inv64 bnR) (bigToLimbs (bnR - 1) (numLimbs bnR))
      (bigToLimbs (bnR - 1) (numLimbs bnR)) =
    mul bnR (bigToLimbs (bnR - 1) (numLimbs bnR)) (bigToLimbs (bnR - 1) (numLimbs bnR)) :=
  have h := (isElem_bigToLimbs bnR (bnR - 1) (by decide +kernel)).1
  (C50_asm_agrees bnR bnR_odd' (C50_asm_fields.1 _ (by simp)) _ _ _ _ h h).2.2.2.2.1

/-- **C50** The multiplication needs only its first factor reduced. -/
theorem C50_asm_mul_words (p : ℕ) (hp : OddModulus p) (hasm : numLimbs p = 4 ∧ numBits p < 256) (junk : Asm.State → ℕ)
    (s : Asm.State) (a b : List ℕ) (ha : IsElem p a) (hl : b.length = 4) (hb : ∀ x ∈ b, x < 2 ^ 64) :
    Asm.mul junk s (modulusLimbs p) (inv64 p) a b = mul p a b :=
  Asm.mul_eq_raw junk s hp hasm ha (by rw [hl, hasm.1]) hb

example : Asm.mul (fun _ => 1) asmDirty (modulusLimbs bnR) (inv64 bnR) (bigToLimbs (bnR - 1) (numLimbs bnR))
      [2 ^ 64 - 1, 2 ^ 64 - 1, 2 ^ 64 - 1, 2 ^ 64 - 1] =
    mul bnR (bigToLimbs (bnR - 1) (numLimbs bnR)) [2 ^ 64 - 1, 2 ^ 64 - 1, 2 ^ 64 - 1, 2 ^ 64 - 1] :=
  C50_asm_mul_words bnR bnR_odd' (C50_asm_fields.1 _ (by simp)) _ _ _ _ (isElem_bigToLimbs bnR (bnR - 1) (by decide +kernel)).1
    rfl (by decide)

/-- **C50** Leaving Montgomery form on arbitrary words (as a value read without a check can hold): the assembly has no final
subtraction, so it returns the modulus where the portable function returns zero, and agrees everywhere else. -/
theorem C50_asm_from_mont_words (p : ℕ) (hp : OddModulus p) (hasm : numLimbs p = 4 ∧ numBits p < 256) (junk : Asm.State → ℕ)
    (s : Asm.State) (a : List ℕ) (hl : a.length = 4) (ha : ∀ x ∈ a, x < 2 ^ 64) :
    Asm.fromMont junk s (modulusLimbs p) (inv64 p) a =
      if 0 < val a ∧ p ∣ val a then modulusLimbs p else Field.fromMont p a :=
  Asm.fromMont_eq_raw junk s hp hasm (by rw [hl, hasm.1]) ha

/-- The exception occurs: on the limbs of the modulus itself. -/
example : Asm.fromMont (fun _ => 0) asmDirty (modulusLimbs bnR) (inv64 bnR) (modulusLimbs bnR) = modulusLimbs bnR := by
  rw [C50_asm_from_mont_words bnR bnR_odd' (C50_asm_fields.1 _ (by simp)) _ _ _
    ((modulusLimbs_length bnR).trans (C50_asm_fields.1 bnR (by simp)).1) (modulusLimbs_wf bnR), val_modulusLimbs,
    if_pos ⟨by decide +kernel, dvd_rfl⟩]

/-- **C50** The condition of the macro is needed: for the base field of secp256k1, which has 256 bits, the assembly of `add`
would lose a carry. -/
theorem C50_asm_condition_needed :
    ∃ a b, IsElem k1P a ∧ IsElem k1P b ∧ Asm.add (fun _ => 0) asmDirty (modulusLimbs k1P) a b ≠ add k1P a b := by
  refine ⟨bigToLimbs (k1P - 1) 4, bigToLimbs (k1P - 1) 4, ?_, ?_, ?_⟩
  · have h4 : numLimbs k1P = 4 := by
      rw [numLimbs, numBits_eq (n := 255) (by decide +kernel) (by decide +kernel)]
    have := (isElem_bigToLimbs k1P (k1P - 1) (by decide +kernel)).1
    rwa [h4] at this
  · have h4 : numLimbs k1P = 4 := by
      rw [numLimbs, numBits_eq (n := 255) (by decide +kernel) (by decide +kernel)]
    have := (isElem_bigToLimbs k1P (k1P - 1) (by decide +kernel)).1
    rwa [h4] at this
  · have h4 : modulusLimbs k1P = bigToLimbs k1P 4 := by
      rw [modulusLimbs, numLimbs, numBits_eq (n := 255) (by decide +kernel) (by decide +kernel)]
    rw [add, h4]
    decide +kernel

end Halo2.Props
