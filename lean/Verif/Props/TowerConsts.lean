import Verif.Props.Ext2
import Verif.Props.Generators
import Verif.Props.Curve

/-!
# Property C58: the constants of the quadratic towers as implementations of `PrimeField`
-/

set_option linter.unusedSectionVars false

namespace Halo2

open Halo2.Field Halo2.Ext Halo2.Prime

namespace Tower2

variable (p g : ℕ) [Fact (OddModulus p)]

/-- `MULTIPLICATIVE_GENERATOR`, src/derive/field/tower.rs:97-100. -/
def mulGen : Quad (Fp p) := ⟨Fp.mulGen p g, 0⟩
/-- `NUM_BITS`, src/derive/field/tower.rs:101. -/
def numBits (p : ℕ) : ℕ := Field.numBits p
/-- `CAPACITY`, src/derive/field/tower.rs:102. -/
def capacity (p : ℕ) : ℕ := Field.numBits p
/-- `CAPACITY` of the base field: `NUM_BITS - 1`, derive/src/field/mod.rs:441. -/
def baseCapacity (p : ℕ) : ℕ := Field.numBits p - 1
/-- `S`, src/derive/field/tower.rs:103. -/
def twoAdicity (p : ℕ) : ℕ := Fp.macroS p
/-- `ROOT_OF_UNITY`, src/derive/field/tower.rs:107-110. -/
def rootOfUnity : Quad (Fp p) := ⟨Fp.rootOfUnity p g, 0⟩
/-- `ROOT_OF_UNITY_INV`, src/derive/field/tower.rs:111-114. -/
def rootOfUnityInv : Quad (Fp p) := ⟨Fp.rootOfUnityInv p g, 0⟩
/-- `DELTA`, src/derive/field/tower.rs:116-119. -/
def delta : Quad (Fp p) := ⟨Fp.delta p g, 0⟩
/-- `TWO_INV`, src/derive/field/tower.rs:121-124. -/
def twoInv : Quad (Fp p) := ⟨Fp.twoInv p, 0⟩

end Tower2

namespace Props

/-- What holds of the constants of one quadratic tower. -/
structure TowerConstsSpec (p g z : ℕ) [Fact p.Prime] [Fact (OddModulus p)] [ExtField (Fp p)] [LawfulExt (Fp p)] : Prop where
  two_inv : Tower2.twoInv p * 2 = 1
  root_order : orderOf (Tower2.rootOfUnity p g) = 2 ^ Tower2.twoAdicity p
  root_inv : Tower2.rootOfUnity p g * Tower2.rootOfUnityInv p g = 1
  delta : Tower2.delta p g = Tower2.mulGen p g ^ 2 ^ Tower2.twoAdicity p
  zeta_cube : zeta2 p z ^ 3 = 1
  zeta_ne_one : zeta2 p z ≠ 1
  /-- The powers of `MULTIPLICATIVE_GENERATOR` are the non-zero elements of the base field and nothing else. -/
  generates_base : ∀ x : Quad (Fp p), (∃ k, Tower2.mulGen p g ^ k = x) ↔ x.c1 = 0 ∧ x.c0 ≠ 0

/-- The full claim of the `PrimeField` interface about generator, two-adicity and capacity. -/
structure TowerPrimeFieldSpec (p g : ℕ) [Fact p.Prime] [Fact (OddModulus p)] [ExtField (Fp p)] [LawfulExt (Fp p)] : Prop where
  /-- `MULTIPLICATIVE_GENERATOR` generates the multiplicative group. -/
  generates : ∀ x : Quad (Fp p), x ≠ 0 → ∃ k, Tower2.mulGen p g ^ k = x
  /-- It is not a square. -/
  nonsquare : ¬ IsSquare (Tower2.mulGen p g)
  /-- `2^S` is the exact power of two dividing the order of the multiplicative group. -/
  adicity : ∃ t, t % 2 = 1 ∧ 2 ^ Tower2.twoAdicity p * t = p ^ 2 - 1
  /-- The integers below `2^CAPACITY` are different elements. -/
  capacity : ∀ m n : ℕ, m < 2 ^ Tower2.capacity p → n < 2 ^ Tower2.capacity p → (m : Quad (Fp p)) = n → m = n

section
variable {p g z : ℕ} [hp : Fact p.Prime] [ho : Fact (OddModulus p)] [Fp.SmallModulus p] [ExtField (Fp p)] [LawfulExt (Fp p)]

theorem towerConstsSpec_of (hC : ConstsSpec p g z) (hG : GeneratorSpec p g) : TowerConstsSpec p g z := by
  have hinj := Quad.ofBase_injective (F := Fp p)
  have e2 : (2 : Quad (Fp p)) = Quad.ofBase 2 := (map_ofNat Quad.ofBase 2).symm
  have hz : zeta2 p z = Quad.ofBase (Fp.zeta p z ^ 2) := by rw [pow_two]; rfl
  have hg : Tower2.mulGen p g = Quad.ofBase (Fp.mulGen p g) := rfl
  refine ⟨?_, ?_, ?_, ?_, ?_, ?_, fun x => ⟨?_, ?_⟩⟩
  · rw [e2, show Tower2.twoInv p = Quad.ofBase (Fp.twoInv p) from rfl, ← map_mul, hC.two_inv, map_one]
  · rw [show Tower2.rootOfUnity p g = Quad.ofBase (Fp.rootOfUnity p g) from rfl]
    exact (orderOf_injective (Quad.ofBase (F := Fp p)).toMonoidHom hinj _).trans hC.root_order
  · rw [show Tower2.rootOfUnity p g = Quad.ofBase (Fp.rootOfUnity p g) from rfl,
      show Tower2.rootOfUnityInv p g = Quad.ofBase (Fp.rootOfUnityInv p g) from rfl, ← map_mul, hC.root_inv, map_one]
  · rw [hg, show Tower2.delta p g = Quad.ofBase (Fp.delta p g) from rfl, ← map_pow, hC.delta]
    rfl
  · rw [hz, ← map_pow, ← pow_mul, show 2 * 3 = 3 * 2 from rfl, pow_mul, hC.zeta_cube, one_pow, map_one]
  · rw [hz]
    intro e
    have e1 : Fp.zeta p z ^ 2 = 1 := hinj (e.trans (map_one _).symm)
    have := hC.zeta_cube
    rw [pow_succ, e1, one_mul] at this
    exact hC.zeta_ne_one this
  · rintro ⟨k, rfl⟩
    rw [hg, ← map_pow]
    refine ⟨rfl, fun h => ?_⟩
    have h1 : Fp.mulGen p g ^ k = 0 := h
    have h2 := eq_zero_of_pow_eq_zero h1
    exact hC.generator_nonsquare (h2 ▸ ⟨0, by ring⟩)
  · rintro ⟨h1, h2⟩
    obtain ⟨k, ⟨-, hk⟩, -⟩ := hG.generates x.c0 h2
    refine ⟨k, ?_⟩
    rw [hg, ← map_pow, hk]
    exact Quad.ext rfl h1.symm

theorem tower_false_of (hC : ConstsSpec p g z) (hG : GeneratorSpec p g) (hsz : p < 2 ^ 512)
    (hsq : ∀ x : Quad (Fp p), IsSquare x ↔ IsSquare (Quad.norm x)) :
    (∀ k, Tower2.mulGen p g ^ k ≠ Quad.U) ∧ IsSquare (Tower2.mulGen p g) ∧ 2 ^ (Tower2.twoAdicity p + 1) ∣ p ^ 2 - 1 ∧
    (p < 2 ^ Tower2.capacity p ∧ ((p : ℕ) : Quad (Fp p)) = (0 : ℕ)) := by
  obtain ⟨h1, h2, h3⟩ := Fp.macro_split (p := p) hsz
  refine ⟨fun k hk => ?_, ?_, ?_, ?_, ?_⟩
  · exact one_ne_zero (((towerConstsSpec_of hC hG).generates_base _).mp ⟨k, hk⟩).1
  · rw [hsq]
    refine ⟨Fp.mulGen p g, ?_⟩
    have hn : Quad.norm (Tower2.mulGen p g) = _ := Quad.norm_eq _
    rw [hn]
    simp [Tower2.mulGen]
  · have e : p ^ 2 - 1 = (p + 1) * (p - 1) := by
      rw [← Nat.sq_sub_sq p 1, one_pow]
    obtain ⟨c, hc⟩ : ∃ c, p + 1 = 2 * c := ⟨(p + 1) / 2, by have := ho.out.odd; omega⟩
    rw [e, hc, ← h1]
    exact ⟨c * Fp.macroT p, by rw [Tower2.twoAdicity, pow_succ]; ring⟩
  · exact Nat.lt_size_self p
  · rw [CharP.cast_eq_zero (Quad (Fp p)) p, Nat.cast_zero]

theorem baseCapacity_of {m n : ℕ} (hm : m < 2 ^ Tower2.baseCapacity p) (hn : n < 2 ^ Tower2.baseCapacity p)
    (e : (m : Quad (Fp p)) = n) : m = n := by
  have hb : 2 ^ Tower2.baseCapacity p ≤ p := by
    have hpos : 0 < Nat.size p := Nat.size_pos.mpr hp.out.pos
    exact Nat.lt_size.mp (by rw [Tower2.baseCapacity, Field.numBits]; omega)
  rw [← map_natCast (Quad.ofBase (F := Fp p)), ← map_natCast (Quad.ofBase (F := Fp p))] at e
  have e1 := (Fp.natCast_eq_iff _ _).mp (Quad.ofBase_injective e)
  rwa [Nat.mod_eq_of_lt (lt_of_lt_of_le hm hb), Nat.mod_eq_of_lt (lt_of_lt_of_le hn hb)] at e1

end

/-- **C58** (partial: generator, two-adicity and capacity of the interface are those of the base field, see `C58_false`) In the
three quadratic towers `TWO_INV` is the inverse of 2, `ROOT_OF_UNITY` has order exactly `2^S` with inverse `ROOT_OF_UNITY_INV`,
`DELTA` is `MULTIPLICATIVE_GENERATOR^(2^S)`, `ZETA` is a cube root of one other than one, and the powers of
`MULTIPLICATIVE_GENERATOR` are the non-zero elements of the base field. -/
theorem C58_constants_partial :
    TowerConstsSpec bnQ 3 bnQZeta ∧ TowerConstsSpec blsQ 2 blsQZeta ∧ TowerConstsSpec plP 10 plPZeta := by
  obtain ⟨h1, -, h3, -, h5, -⟩ := C12_constants
  obtain ⟨g1, -, g3, -, g5, -⟩ := C57_generators
  exact ⟨towerConstsSpec_of h1 g1, towerConstsSpec_of h3 g3, towerConstsSpec_of h5 g5⟩

/-- **C58** Each of the four further claims of the interface fails for each of the towers: no power of
`MULTIPLICATIVE_GENERATOR` is the adjoined root `u`, it is a square, `2^(S+1)` divides the order of the multiplicative group, and
the integer `p < 2^CAPACITY` is the same element as the integer `0`. -/
theorem C58_false :
    (¬ TowerPrimeFieldSpec bnQ 3 ∧ ¬ TowerPrimeFieldSpec blsQ 2 ∧ ¬ TowerPrimeFieldSpec plP 10) ∧
    ((∀ k, Tower2.mulGen bnQ 3 ^ k ≠ Quad.U) ∧ IsSquare (Tower2.mulGen bnQ 3) ∧
      2 ^ (Tower2.twoAdicity bnQ + 1) ∣ bnQ ^ 2 - 1 ∧ bnQ < 2 ^ Tower2.capacity bnQ ∧ ((bnQ : ℕ) : Bn256.Fq2) = (0 : ℕ)) ∧
    ((∀ k, Tower2.mulGen blsQ 2 ^ k ≠ Quad.U) ∧ IsSquare (Tower2.mulGen blsQ 2) ∧
      2 ^ (Tower2.twoAdicity blsQ + 1) ∣ blsQ ^ 2 - 1 ∧ blsQ < 2 ^ Tower2.capacity blsQ ∧ ((blsQ : ℕ) : Bls12381.Fq2) = (0 : ℕ)) ∧
    ((∀ k, Tower2.mulGen plP 10 ^ k ≠ Quad.U) ∧ IsSquare (Tower2.mulGen plP 10) ∧
      2 ^ (Tower2.twoAdicity plP + 1) ∣ plP ^ 2 - 1 ∧ plP < 2 ^ Tower2.capacity plP ∧ ((plP : ℕ) : Pluto.Fp2) = (0 : ℕ)) := by
  obtain ⟨h1, -, h3, -, h5, -⟩ := C12_constants
  obtain ⟨g1, -, g3, -, g5, -⟩ := C57_generators
  obtain ⟨s1, s3, s5⟩ := C19_square_iff_norm
  have f1 := tower_false_of h1 g1 (by decide +kernel) s1
  have f3 := tower_false_of h3 g3 (by decide +kernel) s3
  have f5 := tower_false_of h5 g5 (by decide +kernel) s5
  exact ⟨⟨fun h => h.nonsquare f1.2.1, fun h => h.nonsquare f3.2.1, fun h => h.nonsquare f5.2.1⟩, f1, f3, f5⟩

/-- **C58** The capacity of the base field would be right: integers below `2^(NUM_BITS - 1)` are different elements. -/
theorem C58_base_capacity {m n : ℕ} :
    (m < 2 ^ Tower2.baseCapacity bnQ → n < 2 ^ Tower2.baseCapacity bnQ → (m : Bn256.Fq2) = n → m = n) ∧
    (m < 2 ^ Tower2.baseCapacity blsQ → n < 2 ^ Tower2.baseCapacity blsQ → (m : Bls12381.Fq2) = n → m = n) ∧
    (m < 2 ^ Tower2.baseCapacity plP → n < 2 ^ Tower2.baseCapacity plP → (m : Pluto.Fp2) = n → m = n) :=
  ⟨baseCapacity_of, baseCapacity_of, baseCapacity_of⟩

example : 2 ^ 252 + 7 < 2 ^ Tower2.baseCapacity bnQ ∧ 2 ^ 379 + 7 < 2 ^ Tower2.baseCapacity blsQ ∧
    2 ^ 444 + 7 < 2 ^ Tower2.baseCapacity plP := by decide +kernel

end Props

end Halo2
