import Verif.Jacobi.Rounds
import Verif.Jacobi.Field
import Verif.Jacobi.Checked
import Verif.Prime.Moduli

/-!
# Property C99: how long the decision whether an element is a square takes

`Jacobi.rounds L n d` is the number of rounds of the outer loop of `jacobi`, and the number of rounds of all its loops together.
-/

namespace Halo2.Props

open Halo2 Halo2.Field Halo2.Jacobi Halo2.Prime

/-- The allowance for arguments of `b` bits. -/
def jacobiAllowance (b : ℕ) : ℕ := b * (b / 29 + 2) + (b + 28) / 29 + 1

theorem allowance_le {L b : ℕ} (hL : 0 < L) (hb : b ≤ 64 * L - 31) : jacobiAllowance b ≤ 2 ^ (128 * L) := by
  have h1 : b < 2 ^ (64 * L - 31) := lt_of_le_of_lt hb Nat.lt_two_pow_self
  have h2 : jacobiAllowance b ≤ (b + 1) * (b + 4) := by
    unfold jacobiAllowance
    have h3 : b * (b / 29 + 2) ≤ b * (b + 2) := Nat.mul_le_mul_left _ (by omega)
    have h4 : (b + 1) * (b + 4) = b * (b + 2) + 3 * b + 4 := by ring
    omega
  have h5 : 8 ≤ 2 ^ (64 * L - 31) := by
    calc 8 = 2 ^ 3 := by norm_num
      _ ≤ 2 ^ (64 * L - 31) := Nat.pow_le_pow_right (by decide) (by omega)
  have e : 2 ^ (128 * L) = 2 ^ (64 * L - 31) * 2 ^ (64 * L - 31) * 2 ^ 62 := by
    rw [← pow_add, ← pow_add]; congr 1; omega
  rw [e]
  generalize 2 ^ (64 * L - 31) = P at *
  calc jacobiAllowance b ≤ (b + 1) * (b + 4) := h2
    _ ≤ P * (2 * P) := Nat.mul_le_mul (by omega) (by omega)
    _ = P * P * 2 := by ring
    _ ≤ P * P * 2 ^ 62 := Nat.mul_le_mul_left _ (by norm_num)

/-- **C99** For every pair of arguments of at most `b` bits that `jacobi` accepts, with an odd denominator, the outer loop ends within
`b (b / 29 + 2) + ⌈b / 29⌉ + 1` rounds: it returns the symbol with this allowance and with every larger one, also in a build with overflow
checks, the number of rounds executed is within the allowance, and every one of them costs at most 31 rounds of loops (129 more
for the last one). -/
theorem C99_rounds (L : ℕ) (hL : 0 < L) (n d : List ℕ) (hn : Wf n) (hd : Wf d) (ln : n.length ≤ L) (ld : d.length ≤ L) (b : ℕ)
    (hb : b ≤ 64 * L - 31) (nb : val n < 2 ^ b) (db : val d < 2 ^ b) (odd : val d % 2 = 1) :
    ∃ n' d', lNew L n = some n' ∧ lNew L d = some d' ∧
      (∀ fuel, jacobiAllowance b ≤ fuel → jacobiLoop L fuel n' d' 0 = some (jacobiSym (val n) (val d)) ∧
        jacobiLoopC L fuel n' d' 0 = some (jacobiSym (val n) (val d))) ∧
      jacobi L n d = some (jacobiSym (val n) (val d)) ∧
      (rounds L n d).1 ≤ jacobiAllowance b ∧ (rounds L n d).2 ≤ 31 * (rounds L n d).1 + 129 := by
  obtain ⟨n', en, hn', vn⟩ := lNew_spec ln hn
  obtain ⟨d', ed, hd', vd⟩ := lNew_spec ld hd
  have hp : 2 ^ b ≤ 2 ^ (64 * L - 31) := Nat.pow_le_pow_right (by decide) hb
  have hargs : Args L n' d' :=
    ⟨hn', hd', by rw [vn]; omega, by rw [vd]; omega, by rw [vd]; exact odd⟩
  have hm := bitMeasure_le nb db
  have hl : jacobiLoop L (jacobiAllowance b) n' d' 0 = some (jacobiSym (val n) (val d)) := by
    rw [jacobiLoop_measure hL (bits_decrease hL) _ n' d' 0 hargs, sg_zero, one_mul, vn, vd]
    · rfl
    · rw [vn, vd]; unfold jacobiAllowance; omega
  have hbig := jacobiLoop_mono L _ (2 ^ (128 * L)) n' d' 0 (allowance_le hL hb) hl
  have er : rounds L n d = loopRounds L (2 ^ (128 * L)) n' d' 0 := by
    unfold rounds
    rw [en, ed]
  refine ⟨n', d', en, ed, fun fuel hf => ?_, ?_, ?_, ?_⟩
  · have := (jacobiLoop_mono L _ fuel n' d' 0 hf hl).1
    exact ⟨this, (jacobiLoopC_ok hL fuel n' d' 0 hargs).trans this⟩
  · unfold jacobi
    rw [en, ed]
    exact hbig.1
  · rw [er]; exact hbig.2.1
  · rw [er]; exact hbig.2.2

/-- **C99** For every odd modulus of `b` bits: deciding whether an element is a square. -/
theorem C99_legendre (p : ℕ) (hp : OddModulus p) (a : List ℕ) (ha : IsElem p a) :
    (rounds (jacobiConst p) a (modulusLimbs p)).1 ≤ jacobiAllowance (numBits p) ∧
    (rounds (jacobiConst p) a (modulusLimbs p)).2 ≤ 31 * jacobiAllowance (numBits p) + 129 := by
  obtain ⟨h1, h2⟩ := jacobiConst_spec p
  have h3 : p < 2 ^ numBits p := Nat.lt_size_self p
  obtain ⟨-, -, -, -, -, -, h4, h5⟩ := C99_rounds (jacobiConst p) h1 a (modulusLimbs p) ha.wf (modulusLimbs_wf p)
    (by rw [ha.len]; exact numLimbs_le_jacobiConst p)
    (by rw [modulusLimbs_length]; exact numLimbs_le_jacobiConst p) (numBits p) (Nat.size_le.mpr h2)
    (lt_trans ha.lt h3) (by rw [val_modulusLimbs]; exact h3) (by rw [val_modulusLimbs]; exact hp.odd)
  exact ⟨h4, by omega⟩

/-- **C99** The fields of the library. -/
theorem C99_shipped :
    ∀ f ∈ [(bnQ, 2550), (bnR, 2550), (blsQ, 5730), (blsR, 2560), (plP, 7599), (plQ, 7599), (k1P, 2570), (k1N, 2570), (r1P, 2570),
        (r1N, 2570), (paP, 2560), (paQ, 2560)],
      ∀ a, IsElem f.1 a → (rounds (jacobiConst f.1) a (modulusLimbs f.1)).1 ≤ f.2 := by
  have all : ∀ f ∈ [(bnQ, 2550), (bnR, 2550), (blsQ, 5730), (blsR, 2560), (plP, 7599), (plQ, 7599), (k1P, 2570), (k1N, 2570), (r1P, 2570),
        (r1N, 2570), (paP, 2560), (paQ, 2560)], f.1 % 2 = 1 ∧ 1 < f.1 ∧ jacobiAllowance (numBits f.1) = f.2 := by
    decide +kernel
  intro f hf a ha
  obtain ⟨h1, h2, h3⟩ := all f hf
  rw [← h3]
  exact (C99_legendre f.1 ⟨h1, h2⟩ a ha).1

/-- The loops do run: eight rounds and 211 of all loops for an element of the base field of secp256k1, and eight also for two numbers of
only 130 bits, whose leading words give too little precision. -/
example : (rounds (jacobiConst k1P) (Field.fromU64 k1P 5) (modulusLimbs k1P)).1 = 8 ∧
    (rounds (jacobiConst k1P) (Field.fromU64 k1P 5) (modulusLimbs k1P)).2 = 211 ∧
    (rounds 3 [1, 0, 1] [3, 0, 2]).1 = 8 ∧ (rounds 3 [1, 0, 1] [3, 0, 2]).2 = 21 := by decide +kernel

end Halo2.Props
