import Verif.Field.Consts
import Verif.Prime.Moduli
import Mathlib.NumberTheory.LegendreSymbol.Basic
import Mathlib.Tactic.NormNum

/-!
# C11, C12: square roots and constants of the shipped prime fields
-/

namespace Halo2.Props

open Halo2 Halo2.Field Halo2.Prime

/-- Euler's criterion transported to `Fp p`. -/
theorem pow_half_of_not_square {p : ℕ} [hp : Fact p.Prime] [ho : Fact (OddModulus p)] (a : Fp p)
    (ha : ¬ IsSquare a) : a ^ ((p - 1) / 2) = -1 := by
  have hodd := ho.out.odd
  have hp2 : (p - 1) / 2 = p / 2 := by omega
  rw [hp2]
  apply (Fp.equiv p).injective
  rw [map_pow, map_neg, map_one]
  have ha0 : Fp.equiv p a ≠ 0 := by
    intro h
    rw [map_eq_zero_iff _ (Fp.equiv p).injective] at h
    exact ha (h ▸ ⟨0, by ring⟩)
  rcases ZMod.pow_div_two_eq_neg_one_or_one p ha0 with h | h
  · exfalso
    obtain ⟨y, hy⟩ := (ZMod.euler_criterion p ha0).mpr h
    apply ha
    refine ⟨(Fp.equiv p).symm y, (Fp.equiv p).injective ?_⟩
    rw [map_mul, RingEquiv.apply_symm_apply, hy]
  · exact h

/-! ## C12 -/

/-- **C12** For every odd modulus, the macro's `inv64` is `-p⁻¹ mod 2^64`. -/
theorem C12_inv64 (p : ℕ) (hp : p % 2 = 1) : inv64 p < 2 ^ 64 ∧ (inv64 p * p + 1) % 2 ^ 64 = 0 := by
  refine ⟨Nat.mod_lt _ (by decide), ?_⟩
  have h := inv64_isInv p hp
  rw [IsInv, val_modulusLimbs] at h
  exact h

/-- **C12** For every odd modulus, `R`, `R2`, `R3` are `2^(64n)`, its square and its cube mod `p`. -/
theorem C12_radix (p : ℕ) (hp : OddModulus p) :
    val (R p) = 2 ^ (64 * numLimbs p) % p ∧ val (R2 p) = (2 ^ (64 * numLimbs p)) ^ 2 % p ∧
    val (R3 p) = (2 ^ (64 * numLimbs p)) ^ 3 % p := by
  have hpos : 0 < p := by have := hp.gt; omega
  have e : numLimbs p * 64 = 64 * numLimbs p := Nat.mul_comm _ _
  have hm := fun x => (isElem_bigToLimbs p (x % p) (Nat.mod_lt _ hpos)).2
  refine ⟨?_, ?_, ?_⟩
  · rw [R, r1Big, hm, e]
  · rw [R2, r1Big, hm, e, ← Nat.mul_mod, pow_two]
  · rw [R3, r1Big, hm, e, Nat.mul_mod (_ * _), ← Nat.mul_mod (2 ^ (64 * numLimbs p)), Nat.mod_mod,
      ← Nat.mul_mod, pow_succ (2 ^ (64 * numLimbs p)) 2, pow_two]

/-- The claims about the constants of one field with modulus `p`, `mul_gen = g`, `zeta = z`. -/
structure ConstsSpec (p g z : ℕ) [Fact p.Prime] [Fact (OddModulus p)] : Prop where
  prime : p.Prime
  two_inv : Fp.twoInv p * 2 = 1
  generator : Fp.mulGen p g = (g : Fp p)
  generator_nonsquare : ¬ IsSquare (Fp.mulGen p g)
  split : ∃ t, t % 2 = 1 ∧ 2 ^ Fp.macroS p * t = p - 1 ∧ Fp.rootOfUnity p g = Fp.mulGen p g ^ t
  root_order : orderOf (Fp.rootOfUnity p g) = 2 ^ Fp.macroS p
  root_inv : Fp.rootOfUnity p g * Fp.rootOfUnityInv p g = 1
  delta : Fp.delta p g = Fp.mulGen p g ^ 2 ^ Fp.macroS p
  zeta : Fp.zeta p z = (z : Fp p)
  zeta_cube : Fp.zeta p z ^ 3 = 1
  zeta_ne_one : Fp.zeta p z ≠ 1

/-- **C12** For every odd prime below `2^512`, every non-square `g` configured as `mul_gen` and every non-trivial cube root of one `z` configured
as `zeta`, the constants that the macro computes are the ones meant. -/
theorem C12_any (p g z : ℕ) [hp : Fact p.Prime] [ho : Fact (OddModulus p)] (hsz : p < 2 ^ 512) (hg : ¬ IsSquare (g : Fp p))
    (hz3 : (z : Fp p) ^ 3 = 1) (hz1 : (z : Fp p) ≠ 1) : ConstsSpec p g z := by
  have hgpow : (g : Fp p) ^ ((p - 1) / 2) = -1 := pow_half_of_not_square _ hg
  obtain ⟨h1, h2, h3⟩ := Fp.macro_split (p := p) hsz
  have hS : 2 ^ Fp.macroS p < 2 ^ 512 := by
    refine lt_of_le_of_lt ?_ hsz
    refine le_trans (Nat.le_of_dvd ?_ ⟨_, h1.symm⟩) (Nat.sub_le _ _)
    have := ho.out.gt
    omega
  have hroot0 : Fp.rootOfUnity p g ≠ 0 := by
    intro h
    have := Fp.rootOfUnity_pow g hsz hgpow
    rw [h, zero_pow (Nat.pow_pos (by decide)).ne'] at this
    have h1 : (1 : Fp p) = 0 := by linear_combination this
    exact one_ne_zero h1
  refine ⟨hp.out, ?_, Fp.constElem_eq g, ?_, ⟨Fp.macroT p, h2, h1, ?_⟩, Fp.orderOf_rootOfUnity g hsz hgpow, ?_, ?_,
    Fp.constElem_eq z, ?_, ?_⟩
  · rw [mul_comm]; exact Fp.two_mul_twoInv hsz
  · rw [Fp.mulGen, Fp.constElem_eq]; exact hg
  · rw [Fp.rootOfUnity_eq g hsz, Fp.mulGen, Fp.constElem_eq]
  · have hr : Fp.rootOfUnity p g = ((Fp.modpow p g (Fp.macroT p) : ℕ) : Fp p) := Fp.constElem_eq _
    rw [Fp.rootOfUnityInv, Fp.constElem_eq, hr]
    exact Fp.modInv_mul _ (by rw [← hr]; exact hroot0) hsz
  · rw [Fp.delta, Fp.constElem_eq, Fp.natCast_modpow _ _ hS, Fp.mulGen, Fp.constElem_eq]
  · rw [Fp.zeta, Fp.constElem_eq]; exact hz3
  · rw [Fp.zeta, Fp.constElem_eq]; exact hz1

/-- Modulus 13, `mul_gen = 2`, `zeta = 3`. -/
example : ∃ (_ : Fact (13).Prime) (_ : Fact (OddModulus 13)), ¬ IsSquare ((2 : ℕ) : Fp 13) ∧ ((3 : ℕ) : Fp 13) ^ 3 = 1 ∧
    ((3 : ℕ) : Fp 13) ≠ 1 ∧ ConstsSpec 13 2 3 := by
  have hp : Fact (13).Prime := ⟨by decide⟩
  have ho : Fact (OddModulus 13) := ⟨⟨by decide, by decide⟩⟩
  have h1 := Fp.not_square_of (p := 13) 2 (by decide +kernel) (by decide +kernel)
  have h2 : ((3 : ℕ) : Fp 13) ^ 3 = 1 := by
    rw [← Nat.cast_pow]
    exact ((Fp.natCast_eq_iff (3 ^ 3) 1).mpr (by decide)).trans Nat.cast_one
  have h3 : ((3 : ℕ) : Fp 13) ≠ 1 := fun h => absurd ((Fp.natCast_eq_iff 3 1).mp (h.trans Nat.cast_one.symm)) (by decide)
  exact ⟨hp, ho, h1, h2, h3, C12_any 13 2 3 (by decide +kernel) h1 h2 h3⟩

/-- Reduction of the claims to kernel computations. -/
theorem constsSpec_of (p g z : ℕ) [hp : Fact p.Prime] [ho : Fact (OddModulus p)] (hsz : p < 2 ^ 512)
    (hg : powMod p g ((p - 1) / 2) + 1 = p) (hz3 : z ^ 3 % p = 1) (hz1 : z % p ≠ 1) : ConstsSpec p g z := by
  refine C12_any p g z hsz (Fp.not_square_of g hsz hg) ?_ ?_
  · rw [← Nat.cast_pow]
    have : ((z ^ 3 : ℕ) : Fp p) = ((1 : ℕ) : Fp p) := by
      rw [Fp.natCast_eq_iff, hz3, Nat.mod_eq_of_lt ho.out.gt]
    rw [this, Nat.cast_one]
  · intro h
    have : ((z : ℕ) : Fp p) = ((1 : ℕ) : Fp p) := by rw [h, Nat.cast_one]
    rw [Fp.natCast_eq_iff, Nat.mod_eq_of_lt ho.out.gt] at this
    exact hz1 this

/-- `zeta` of src/bn256/fq.rs:12. -/
@[irreducible] def bnQZeta : ℕ := 0x30644e72e131a0295e6dd9e7e0acccb0c28f069fbb966e3de4bd44e5607cfd48

/-- `zeta` of src/bn256/fr.rs:11. -/
@[irreducible] def bnRZeta : ℕ := 0x30644e72e131a029048b6e193fd84104cc37a73fec2bc5e9b8ca0b2d36636f23

/-- `zeta` of src/bls12381/fq.rs:11. -/
@[irreducible] def blsQZeta : ℕ := 0x1a0111ea397fe699ec02408663d4de85aa0d857d89759ad4897d29650fb85f9b409427eb4f49fffd8bfd00000000aaac

/-- `zeta` of src/bls12381/fr.rs:11. -/
@[irreducible] def blsRZeta : ℕ := 0xac45a4010001a40200000000ffffffff

/-- `zeta` of src/pluto_eris/fp.rs:12. -/
@[irreducible] def plPZeta : ℕ := 0x480000000000360001c950000d7ee0e4a803c956d01c903d720dc8ad8b38dffaf50c100004c37ffffffe

/-- `zeta` of src/pluto_eris/fq.rs:11. -/
@[irreducible] def plQZeta : ℕ := 0x9000000000006c000392a0001afee1c9500792ae3039253e641ba35817a29ffaf50be000032cfffffffe

/-- `zeta` of src/secp256k1/fp.rs:11. -/
@[irreducible] def k1PZeta : ℕ := 0x7ae96a2b657c07106e64479eac3434e99cf0497512f58995c1396c28719501ee

/-- `zeta` of src/secp256k1/fq.rs:11. -/
@[irreducible] def k1NZeta : ℕ := 0x5363ad4cc05c30e0a5261c028812645a122e22ea20816678df02967c1b23bd72

/-- `zeta` of src/secp256r1/fp.rs:11. -/
@[irreducible] def r1PZeta : ℕ := 0x4d6ea8928adb86cf62388a8e0ef623312e68c59bdef3e53fd964598eb819acce

/-- `zeta` of src/secp256r1/fq.rs:11. -/
@[irreducible] def r1NZeta : ℕ := 0x52891d43d946a0354e786d0777fd6aef9405335ce9c83e1d7cbf87ff12884e21

/-- **C12** The constants of the ten fields generated by the macro (modulus, `mul_gen` and `zeta` as
configured in the source). -/
theorem C12_constants :
    ConstsSpec bnQ 3 bnQZeta ∧
    ConstsSpec bnR 7 bnRZeta ∧
    ConstsSpec blsQ 2 blsQZeta ∧
    ConstsSpec blsR 7 blsRZeta ∧
    ConstsSpec plP 10 plPZeta ∧
    ConstsSpec plQ 7 plQZeta ∧
    ConstsSpec k1P 3 k1PZeta ∧
    ConstsSpec k1N 7 k1NZeta ∧
    ConstsSpec r1P 6 r1PZeta ∧
    ConstsSpec r1N 7 r1NZeta :=
  ⟨constsSpec_of _ _ _ (by decide +kernel) (by decide +kernel) (by decide +kernel) (by decide +kernel),
    constsSpec_of _ _ _ (by decide +kernel) (by decide +kernel) (by decide +kernel) (by decide +kernel),
    constsSpec_of _ _ _ (by decide +kernel) (by decide +kernel) (by decide +kernel) (by decide +kernel),
    constsSpec_of _ _ _ (by decide +kernel) (by decide +kernel) (by decide +kernel) (by decide +kernel),
    constsSpec_of _ _ _ (by decide +kernel) (by decide +kernel) (by decide +kernel) (by decide +kernel),
    constsSpec_of _ _ _ (by decide +kernel) (by decide +kernel) (by decide +kernel) (by decide +kernel),
    constsSpec_of _ _ _ (by decide +kernel) (by decide +kernel) (by decide +kernel) (by decide +kernel),
    constsSpec_of _ _ _ (by decide +kernel) (by decide +kernel) (by decide +kernel) (by decide +kernel),
    constsSpec_of _ _ _ (by decide +kernel) (by decide +kernel) (by decide +kernel) (by decide +kernel),
    constsSpec_of _ _ _ (by decide +kernel) (by decide +kernel) (by decide +kernel) (by decide +kernel)⟩

/-- The values are not degenerate: bn256's scalar field has two-adicity 28, bls12381's 32. -/
example : Fp.macroS bnR = 28 ∧ Fp.macroS blsR = 32 ∧ Fp.macroS k1P = 1 := by decide +kernel

/-! ## C11 -/

/-- **C11** For every prime `p = 3 (mod 4)` or `p = 1 (mod 16)` (the two cases the macro accepts) of
at most 512 bits and every non-square `g` configured as generator: `sqrt(a)` is `Some(r)` only with
`r² = a`, and it is `None` only if `a` is not a square. -/
theorem C11_sqrt (p g : ℕ) [Fact p.Prime] [Fact (OddModulus p)] [Fp.SmallModulus p] (hsz : p < 2 ^ 512)
    (hmod : p % 16 = 1 ∨ p % 4 = 3) (hg : ¬ IsSquare (g : Fp p)) (a : Fp p) :
    (∀ r, Fp.sqrt g a = some r → r * r = a) ∧ (Fp.sqrt g a = none ↔ ¬ IsSquare a) := by
  have hgp : (g : Fp p) ^ ((p - 1) / 2) = -1 := pow_half_of_not_square _ hg
  obtain ⟨h1, h2⟩ := Fp.sqrt_spec g hsz hmod hgp a
  refine ⟨h1, fun h hs => ?_, fun h => ?_⟩
  · obtain ⟨r, hr⟩ := h2 hs
    rw [h] at hr
    exact absurd hr (by simp)
  · cases hc : Fp.sqrt g a with
    | none => rfl
    | some r => exact absurd ⟨r, (h1 r hc).symm⟩ h

/-- **C11** for the ten shipped fields. -/
theorem C11_shipped :
    (∀ a : Fp bnQ, (∀ r, Fp.sqrt 3 a = some r → r * r = a) ∧ (Fp.sqrt 3 a = none ↔ ¬ IsSquare a)) ∧
    (∀ a : Fp bnR, (∀ r, Fp.sqrt 7 a = some r → r * r = a) ∧ (Fp.sqrt 7 a = none ↔ ¬ IsSquare a)) ∧
    (∀ a : Fp blsQ, (∀ r, Fp.sqrt 2 a = some r → r * r = a) ∧ (Fp.sqrt 2 a = none ↔ ¬ IsSquare a)) ∧
    (∀ a : Fp blsR, (∀ r, Fp.sqrt 7 a = some r → r * r = a) ∧ (Fp.sqrt 7 a = none ↔ ¬ IsSquare a)) ∧
    (∀ a : Fp plP, (∀ r, Fp.sqrt 10 a = some r → r * r = a) ∧ (Fp.sqrt 10 a = none ↔ ¬ IsSquare a)) ∧
    (∀ a : Fp plQ, (∀ r, Fp.sqrt 7 a = some r → r * r = a) ∧ (Fp.sqrt 7 a = none ↔ ¬ IsSquare a)) ∧
    (∀ a : Fp k1P, (∀ r, Fp.sqrt 3 a = some r → r * r = a) ∧ (Fp.sqrt 3 a = none ↔ ¬ IsSquare a)) ∧
    (∀ a : Fp k1N, (∀ r, Fp.sqrt 7 a = some r → r * r = a) ∧ (Fp.sqrt 7 a = none ↔ ¬ IsSquare a)) ∧
    (∀ a : Fp r1P, (∀ r, Fp.sqrt 6 a = some r → r * r = a) ∧ (Fp.sqrt 6 a = none ↔ ¬ IsSquare a)) ∧
    (∀ a : Fp r1N, (∀ r, Fp.sqrt 7 a = some r → r * r = a) ∧ (Fp.sqrt 7 a = none ↔ ¬ IsSquare a)) := by
  obtain ⟨c0, c1, c2, c3, c4, c5, c6, c7, c8, c9⟩ := C12_constants
  exact ⟨C11_sqrt bnQ 3 (by decide +kernel) (by decide +kernel) (c0.generator ▸ c0.generator_nonsquare),
    C11_sqrt bnR 7 (by decide +kernel) (by decide +kernel) (c1.generator ▸ c1.generator_nonsquare),
    C11_sqrt blsQ 2 (by decide +kernel) (by decide +kernel) (c2.generator ▸ c2.generator_nonsquare),
    C11_sqrt blsR 7 (by decide +kernel) (by decide +kernel) (c3.generator ▸ c3.generator_nonsquare),
    C11_sqrt plP 10 (by decide +kernel) (by decide +kernel) (c4.generator ▸ c4.generator_nonsquare),
    C11_sqrt plQ 7 (by decide +kernel) (by decide +kernel) (c5.generator ▸ c5.generator_nonsquare),
    C11_sqrt k1P 3 (by decide +kernel) (by decide +kernel) (c6.generator ▸ c6.generator_nonsquare),
    C11_sqrt k1N 7 (by decide +kernel) (by decide +kernel) (c7.generator ▸ c7.generator_nonsquare),
    C11_sqrt r1P 6 (by decide +kernel) (by decide +kernel) (c8.generator ▸ c8.generator_nonsquare),
    C11_sqrt r1N 7 (by decide +kernel) (by decide +kernel) (c9.generator ▸ c9.generator_nonsquare)⟩

/-- Both branches occur: `4` has a root in bn256's base field (`p = 3 mod 4`) and in pluto's
(`p = 1 mod 16`), and the generator has none. -/
example : (∃ r, Fp.sqrt 3 (4 : Fp bnQ) = some r) ∧ (∃ r, Fp.sqrt 10 (4 : Fp plP) = some r) ∧
    Fp.sqrt 10 (Fp.mulGen plP 10) = none := by
  obtain ⟨h0, -, -, -, h4, -⟩ := C11_shipped
  refine ⟨?_, ?_, ((h4 _).2).mpr C12_constants.2.2.2.2.1.generator_nonsquare⟩
  · cases hc : Fp.sqrt 3 (4 : Fp bnQ) with
    | some r => exact ⟨r, rfl⟩
    | none => exact absurd ⟨2, by norm_num⟩ ((h0 4).2.mp hc)
  · cases hc : Fp.sqrt 10 (4 : Fp plP) with
    | some r => exact ⟨r, rfl⟩
    | none => exact absurd ⟨2, by norm_num⟩ ((h4 4).2.mp hc)

end Halo2.Props
