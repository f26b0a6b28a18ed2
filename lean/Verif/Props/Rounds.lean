import Verif.Inverse.Rounds
import Verif.Prime.Moduli
import Verif.Props.Inverse

/-!
# Property C98: how long an inversion takes

`Inverse.fieldRounds p a` is the number of rounds of the `while` loop (of 62 division steps each) in the inversion of the element with the
limbs `a`, `(Trace.fieldInvertN p a).2` the number of rounds of the loops inside of `jump`, all together.
-/

namespace Halo2.Props

open Halo2 Halo2.Field Halo2.Inverse Halo2.Trace Halo2.Prime

theorem jumpLoopN_le (fuel steps : ℕ) (delta f g : ℤ) (t : Mat) : (jumpLoopN fuel steps delta f g t).2 ≤ fuel := by
  induction fuel generalizing steps delta f g t with
  | zero => exact le_refl _
  | succ n ih =>
    rw [jumpLoopN]
    dsimp only
    split
    · exact Nat.succ_le_succ (Nat.zero_le _)
    · exact Nat.succ_le_succ (ih _ _ _ _ _)

theorem jumpLoopN_pos (fuel steps : ℕ) (delta f g : ℤ) (t : Mat) : 1 ≤ (jumpLoopN (fuel + 1) steps delta f g t).2 := by
  rw [jumpLoopN]
  dsimp only
  split
  · exact le_refl _
  · exact Nat.succ_le_succ (Nat.zero_le _)

theorem invertLoopN_le (v : Inverter) (L fuel : ℕ) (delta : ℤ) (f g d e : List ℕ) :
    loopRounds v L fuel delta f g d e ≤ (invertLoopN v L fuel delta f g d e).2 ∧
    (invertLoopN v L fuel delta f g d e).2 ≤ 64 * loopRounds v L fuel delta f g d e := by
  induction fuel generalizing delta f g d e with
  | zero => exact ⟨le_refl _, le_refl _⟩
  | succ n ih =>
    rw [invertLoopN, loopRounds]
    by_cases hg : g = cZero L
    · rw [if_pos hg, if_pos hg]; exact ⟨le_refl _, le_refl _⟩
    · rw [if_neg hg, if_neg hg]
      dsimp only
      rw [show (jumpN f g delta).1 = jump f g delta from jumpLoopN_fst _ _ _ _ _ _]
      obtain ⟨h1, h2⟩ := ih (jump f g delta).1 (fg f g (jump f g delta).2).1 (fg f g (jump f g delta).2).2
        (de v d e (jump f g delta).2).1 (de v d e (jump f g delta).2).2
      have h3 : (jumpN f g delta).2 ≤ 64 := jumpLoopN_le _ _ _ _ _ _
      have h4 : 1 ≤ (jumpN f g delta).2 := jumpLoopN_pos _ _ _ _ _ _
      omega

/-- **C98** For every odd modulus `p ≤ (3/2)^k` and every element, the inversion ends within `n` rounds as soon as `31 n ≥ k`: it returns
the same with an allowance of `n` rounds as with any larger one, executes at most `n` rounds of its outer loop and at most `64 n` of
its inner loops. -/
theorem C98_rounds (p : ℕ) (hp : OddModulus p) (hs : numBits p ≤ 2 ^ 20) (k n : ℕ) (hk : p * 2 ^ k ≤ 3 ^ k) (hn : k ≤ 31 * n)
    (hb : n ≤ fuelBound p) (a : List ℕ) (ha : IsElem p a) :
    invert (new (byConstant p) (modulusLimbs p) (R2 p)) (byConstant p) (numLimbs p) n a = fieldInvert p a ∧
    fieldInvert p a ≠ .outOfFuel ∧
    fieldRounds p a ≤ n ∧ (fieldInvertN p a).2 ≤ 64 * n := by
  have h := setup_of_field hp
  have hv : uval 64 a = val a := uval_eq_val a
  have hX : val a < p := ha.lt
  have hX1 : ((val a : ℕ) : ℤ) < p := by exact_mod_cast hX
  have hX0 : (0 : ℤ) ≤ (val a : ℕ) := by positivity
  have cX := code_convert h.L2 ha.wf h.small (by rw [hv]; exact hX.le)
  rw [hv] at cX
  have I0 : LoopInv (byConstant p) p (val (R2 p)) (val a) 0 1 (new (byConstant p) (modulusLimbs p) (R2 p)).modulus
      (convert 64 62 (byConstant p) a) (cZero (byConstant p)) (new (byConstant p) (modulusLimbs p) (R2 p)).adjuster p (val a) 0
      (val (R2 p)) :=
    ⟨rfl, h.mod, cX, code_zero, h.adj, by have := h.odd; omega, by have := h.odd; omega,
      by have := h.odd; have := h.adj0; omega, h.adj1, ⟨-(val (R2 p)), by ring⟩, ⟨0, by ring⟩⟩
  have hz : (divstep^[62 * n] ⟨1, p, (val a : ℤ)⟩).g = 0 := by
    rw [show 62 * n = (62 * n - 2 * k) + 2 * k by omega, Function.iterate_add_apply]
    exact iter_g_zero (steps_of_modulus hp.odd hk hX) _
  have hfu := field_fuel hs
  obtain ⟨f, d, F, D, he, -⟩ := invertLoop_spec h hX0 hX1 n (by simp only [Nat.zero_add]; omega)
    (by simpa using hz) I0
  obtain ⟨h1, h2⟩ := invertLoop_mono _ _ n (fuelBound p) _ _ _ _ _ _ hb he
  have h3 : fieldRounds p a ≤ n := h2
  refine ⟨?_, ?_, h3, ?_⟩
  · rw [fieldInvert, invert, invert, he, h1]
  · rw [fieldInvert, invert, h1]
    dsimp only
    split <;> exact fun e => nomatch e
  · have h4 := (invertLoopN_le (new (byConstant p) (modulusLimbs p) (R2 p)) (byConstant p) (fuelBound p) 1
      (new (byConstant p) (modulusLimbs p) (R2 p)).modulus (convert 64 62 (byConstant p) a) (cZero (byConstant p))
      (new (byConstant p) (modulusLimbs p) (R2 p)).adjuster).2
    have h5 : (fieldInvertN p a).2 ≤ 64 * fieldRounds p a := h4
    omega

/-- `2^b ≤ (3/2)^k` for `k ≥ 12 b / 7`. -/
theorem two_pow_le_three (b k : ℕ) (h : 12 * b ≤ 7 * k) : 2 ^ b * 2 ^ k ≤ 3 ^ k := by
  have h1 : (2 ^ b * 2 ^ k) ^ 12 ≤ (3 ^ k) ^ 12 := by
    calc (2 ^ b * 2 ^ k) ^ 12 = 2 ^ (12 * b + 12 * k) := by rw [← pow_add, ← pow_mul]; congr 1; ring
      _ ≤ 2 ^ (19 * k) := Nat.pow_le_pow_right (by decide) (by omega)
      _ = (2 ^ 19) ^ k := by rw [pow_mul]
      _ ≤ (3 ^ 12) ^ k := Nat.pow_le_pow_left (by decide) k
      _ = (3 ^ k) ^ 12 := by rw [← pow_mul, ← pow_mul, mul_comm]
  exact (Nat.pow_le_pow_iff_left (by decide)).mp h1

/-- **C98** In terms of the length: for a modulus of `b` bits, `b / 18 + 2` rounds of 62 division steps suffice. -/
theorem C98_bits (p : ℕ) (hp : OddModulus p) (hs : numBits p ≤ 2 ^ 20) (a : List ℕ) (ha : IsElem p a) :
    fieldRounds p a ≤ numBits p / 18 + 2 ∧ (fieldInvertN p a).2 ≤ 64 * (numBits p / 18 + 2) := by
  have hb : p ≤ 2 ^ numBits p := (Nat.lt_size_self p).le
  obtain ⟨-, -, h1, h2⟩ := C98_rounds p hp hs ((12 * numBits p + 6) / 7) (numBits p / 18 + 2)
    (le_trans (Nat.mul_le_mul_right _ hb) (two_pow_le_three _ _ (by omega))) (by omega)
    (by unfold fuelBound; nlinarith [Nat.div_le_self (numBits p) 18]) a ha
  exact ⟨h1, h2⟩

/-- **C98** The fields of the library: 14 rounds for the two fields of bn256, 21 for the base field of bls12381, 25 for the fields of
pluto and eris and 15 for the others. -/
theorem C98_shipped :
    ∀ f ∈ [(bnQ, 14), (bnR, 14), (blsQ, 21), (blsR, 15), (plP, 25), (plQ, 25), (k1P, 15), (k1N, 15), (r1P, 15), (r1N, 15),
        (paP, 15), (paQ, 15)],
      ∀ a, IsElem f.1 a → fieldRounds f.1 a ≤ f.2 ∧ (fieldInvertN f.1 a).2 ≤ 64 * f.2 := by
  have key : ∀ (p n : ℕ), p % 2 = 1 → 1 < p → numBits p ≤ 2 ^ 20 → p * 2 ^ (31 * n) ≤ 3 ^ (31 * n) → n ≤ fuelBound p →
      ∀ a, IsElem p a → fieldRounds p a ≤ n ∧ (fieldInvertN p a).2 ≤ 64 * n := by
    intro p n h1 h2 h3 h4 h5 a ha
    exact (C98_rounds p ⟨h1, h2⟩ h3 (31 * n) n h4 (le_refl _) h5 a ha).2.2
  have all : ∀ f ∈ [(bnQ, 14), (bnR, 14), (blsQ, 21), (blsR, 15), (plP, 25), (plQ, 25), (k1P, 15), (k1N, 15), (r1P, 15), (r1N, 15),
        (paP, 15), (paQ, 15)], f.1 % 2 = 1 ∧ 1 < f.1 ∧ numBits f.1 ≤ 2 ^ 20 ∧ f.1 * 2 ^ (31 * f.2) ≤ 3 ^ (31 * f.2) ∧
          f.2 ≤ fuelBound f.1 := by
    decide +kernel
  intro f hf
  obtain ⟨h1, h2, h3, h4, h5⟩ := all f hf
  exact key _ _ h1 h2 h3 h4 h5

/-- The loops do run: nine rounds for the inverse of one in the base field of secp256k1, with 64 rounds of the inner loops. -/
example : fieldRounds k1P (Field.fromU64 k1P 1) = 9 ∧ (fieldInvertN k1P (Field.fromU64 k1P 1)).2 = 64 := by decide +kernel

end Halo2.Props
