import Verif.Field.Sqrt
import Mathlib.GroupTheory.OrderOfElement

/-!
# Constants and square roots of the generated fields (derive/src/field/mod.rs:161-213, 416-446)
-/

set_option linter.unusedSectionVars false

namespace Halo2.Fp

open Halo2.Field Halo2.Prime Halo2.Ext

/-! ## Model of the macro's computations -/

/-- `BigUint::modpow` of the `num-bigint` crate (external), modelled by square-and-multiply. -/
def modpow (p b e : ℕ) : ℕ := powMod p b e % p

/-- The loop `while t.is_even() { t >>= 1; s += 1 }`. Models derive/src/field/mod.rs:160-165. -/
def splitTwo : ℕ → ℕ → ℕ → ℕ × ℕ
  | 0, t, s => (s, t)
  | fuel + 1, t, s => if t % 2 = 0 then splitTwo fuel (t / 2) (s + 1) else (s, t)

/-- `s` and `t`. -/
def macroS (p : ℕ) : ℕ := (splitTwo 512 (p - 1) 0).1
def macroT (p : ℕ) : ℕ := (splitTwo 512 (p - 1) 0).2

/-- `mod_inv`. Models derive/src/utils.rs:33-35. -/
def modInv (e p : ℕ) : ℕ := modpow p e (p - 2)

/-- `two_inv`. Models derive/src/field/mod.rs:167. -/
def twoInvBig (p : ℕ) : ℕ := modInv 2 p

variable {p : ℕ} [hp : Fact (OddModulus p)]

/-- `to_token(&mont(&x))`: the constant `x` in Montgomery form. Models derive/src/field/mod.rs:123-124. -/
def constElem (p : ℕ) [Fact (OddModulus p)] (x : ℕ) : Fp p :=
  ofMont (bigToLimbs (montBig p x) (numLimbs p))

/-- `TWO_INV`. -/
def twoInv (p : ℕ) [Fact (OddModulus p)] : Fp p := constElem p (twoInvBig p)
/-- `MULTIPLICATIVE_GENERATOR` for the configured `mul_gen = g`. -/
def mulGen (p g : ℕ) [Fact (OddModulus p)] : Fp p := constElem p g
/-- `ROOT_OF_UNITY`. Models derive/src/field/mod.rs:196. -/
def rootOfUnity (p g : ℕ) [Fact (OddModulus p)] : Fp p := constElem p (modpow p g (macroT p))
/-- `ROOT_OF_UNITY_INV`. Models derive/src/field/mod.rs:197. -/
def rootOfUnityInv (p g : ℕ) [Fact (OddModulus p)] : Fp p := constElem p (modInv (modpow p g (macroT p)) p)
/-- `DELTA`. Models derive/src/field/mod.rs:200. -/
def delta (p g : ℕ) [Fact (OddModulus p)] : Fp p := constElem p (modpow p g (2 ^ macroS p))
/-- `ZETA` for the configured `zeta = z`. -/
def zeta (p z : ℕ) [Fact (OddModulus p)] : Fp p := constElem p z

/-- `sqrt`, as selected by the macro; for other moduli the macro panics at compile time (`none`
stands for that case). Models derive/src/field/mod.rs:169-195. -/
def sqrt (g : ℕ) (a : Fp p) : Option (Fp p) :=
  if p % 16 = 1 then
    Sqrt.tonelliShanks square (macroS p) (rootOfUnity p g)
      (bigToLimbs ((macroT p - 1) * twoInvBig p % p) (numLimbs p)) a
  else if p % 4 = 3 then
    Sqrt.sqrt34 square (bigToLimbs ((p + 1) / 4) (numLimbs p)) a
  else none

/-! ## Facts -/

theorem limbsVal_eq (l : List ℕ) : limbsVal l = val l := by
  induction l with
  | nil => rfl
  | cons x xs ih => rw [limbsVal, ih, val_cons, W]

theorem constElem_eq (x : ℕ) : constElem p x = (x : Fp p) := by
  have hpos : 0 < p := by have := hp.out.gt; omega
  obtain ⟨h1, h2⟩ := isElem_bigToLimbs p (montBig p x) (Nat.mod_lt _ hpos)
  have h3 := mont_eq (p := p) ⟨_, h1⟩
  rw [constElem, ofMont, dif_pos h1]
  obtain ⟨rinv, hr⟩ : ∃ b : Fp p, ((2 ^ (64 * numLimbs p) : ℕ) : Fp p) * b = 1 := by
    have hc : Nat.Coprime (2 ^ (64 * numLimbs p)) p := by
      apply Nat.Coprime.pow_left
      rw [Nat.coprime_two_left]
      exact Nat.odd_iff.mpr hp.out.odd
    refine ⟨(equiv p).symm (((2 ^ (64 * numLimbs p) : ℕ) : ZMod p)⁻¹), (equiv p).injective ?_⟩
    rw [map_mul, map_natCast, RingEquiv.apply_symm_apply, map_one]
    exact ZMod.coe_mul_inv_eq_one _ hc
  have h4 : ((val (bigToLimbs (montBig p x) (numLimbs p)) : ℕ) : Fp p) =
      (x : Fp p) * ((2 ^ (64 * numLimbs p) : ℕ) : Fp p) := by
    rw [h2, ← Nat.cast_mul, natCast_eq_iff, montBig, r1Big, Nat.mod_mod, Nat.mul_mod, Nat.mod_mod,
      ← Nat.mul_mod, Nat.mul_comm (numLimbs p) 64]
  have h5 := congrArg (· * rinv) (h3.trans h4)
  simp only [mul_assoc, hr, mul_one] at h5
  exact h5

theorem natCast_modpow (b e : ℕ) (he : e < 2 ^ 512) : ((modpow p b e : ℕ) : Fp p) = (b : Fp p) ^ e := by
  rw [modpow, natCast_pow b e he, natCast_eq_iff, Nat.mod_mod]

theorem splitTwo_spec (fuel t s : ℕ) (ht : 0 < t) (hf : t < 2 ^ fuel) :
    let r := splitTwo fuel t s
    s ≤ r.1 ∧ 2 ^ (r.1 - s) * r.2 = t ∧ r.2 % 2 = 1 := by
  induction fuel generalizing t s with
  | zero => simp at hf; omega
  | succ fuel ih =>
    simp only
    rw [splitTwo]
    split
    · rename_i h
      obtain ⟨h1, h2, h3⟩ := ih (t / 2) (s + 1) (by omega) (by rw [pow_succ] at hf; omega)
      refine ⟨by omega, ?_, h3⟩
      rw [show (splitTwo fuel (t / 2) (s + 1)).1 - s = (splitTwo fuel (t / 2) (s + 1)).1 - (s + 1) + 1 by omega,
        pow_succ, mul_right_comm, h2]
      omega
    · rename_i h
      exact ⟨le_refl _, by simp, by omega⟩

theorem macro_split (hsz : p < 2 ^ 512) : 2 ^ macroS p * macroT p = p - 1 ∧ macroT p % 2 = 1 ∧ 1 ≤ macroS p := by
  have hodd := hp.out.odd
  have hgt := hp.out.gt
  obtain ⟨-, h2, h3⟩ := splitTwo_spec 512 (p - 1) 0 (by omega) (lt_of_le_of_lt (Nat.sub_le _ _) hsz)
  rw [Nat.sub_zero] at h2
  refine ⟨h2, h3, ?_⟩
  change 1 ≤ (splitTwo 512 (p - 1) 0).1
  by_contra hc
  have h0 : (splitTwo 512 (p - 1) 0).1 = 0 := by
    generalize (splitTwo 512 (p - 1) 0).1 = y at hc ⊢
    omega
  rw [h0, pow_zero, one_mul] at h2
  rw [h2] at h3
  omega

section PrimeModulus
variable [hpr : Fact p.Prime]

theorem two_ne_zero' : (2 : Fp p) ≠ 0 := by
  intro h
  have h2 : (-1 : Fp p) = 1 := by linear_combination -h
  exact neg_one_ne_one h2

theorem modInv_mul (x : ℕ) (hx : (x : Fp p) ≠ 0) (hsz : p < 2 ^ 512) : (x : Fp p) * ((modInv x p : ℕ) : Fp p) = 1 := by
  rw [modInv, natCast_modpow _ _ (lt_of_le_of_lt (Nat.sub_le _ _) hsz), ← pow_succ']
  have : p - 2 + 1 = p - 1 := by have := hpr.out.two_le; omega
  rw [this, pow_pred _ hx]

theorem two_mul_twoInv (hsz : p < 2 ^ 512) : 2 * twoInv p = (1 : Fp p) := by
  rw [twoInv, constElem_eq, twoInvBig]
  have := modInv_mul (p := p) 2 (by rw [Nat.cast_ofNat]; exact two_ne_zero') hsz
  rwa [Nat.cast_ofNat] at this

/-- `(t - 1) * two_inv mod p` is `(t - 1) / 2`. -/
theorem tm1o2_eq (hsz : p < 2 ^ 512) : (macroT p - 1) * twoInvBig p % p = (macroT p - 1) / 2 := by
  obtain ⟨h1, h2, h3⟩ := macro_split hsz
  have hle : macroT p ≤ p - 1 := by
    rw [← h1]; exact Nat.le_mul_of_pos_left _ (Nat.pow_pos (by decide))
  have hgt := hp.out.gt
  have hc : (((macroT p - 1) * twoInvBig p : ℕ) : Fp p) = (((macroT p - 1) / 2 : ℕ) : Fp p) := by
    have e : macroT p - 1 = 2 * ((macroT p - 1) / 2) := by omega
    have h2i : (2 : Fp p) * ((twoInvBig p : ℕ) : Fp p) = 1 := by
      have := two_mul_twoInv (p := p) hsz
      rwa [twoInv, constElem_eq] at this
    rw [Nat.cast_mul]
    conv_lhs => rw [e]
    rw [Nat.cast_mul, Nat.cast_ofNat, mul_right_comm, h2i, one_mul]
  rw [natCast_eq_iff] at hc
  rw [hc, Nat.mod_eq_of_lt (by omega)]

theorem rootOfUnity_eq (g : ℕ) (hsz : p < 2 ^ 512) : rootOfUnity p g = (g : Fp p) ^ macroT p := by
  rw [rootOfUnity, constElem_eq, natCast_modpow]
  obtain ⟨h1, h2, h3⟩ := macro_split (p := p) hsz
  have hle : macroT p ≤ p - 1 := by
    rw [← h1]; exact Nat.le_mul_of_pos_left _ (Nat.pow_pos (by decide))
  exact lt_of_le_of_lt hle (lt_of_le_of_lt (Nat.sub_le _ _) hsz)

/-- For a configured non-square generator, the root of unity has exact order `2^S`. -/
theorem rootOfUnity_pow (g : ℕ) (hsz : p < 2 ^ 512) (hg : (g : Fp p) ^ ((p - 1) / 2) = -1) :
    rootOfUnity p g ^ 2 ^ (macroS p - 1) = -1 := by
  obtain ⟨h1, h2, h3⟩ := macro_split (p := p) hsz
  rw [rootOfUnity_eq g hsz, ← pow_mul, ← hg]
  congr 1
  obtain ⟨s, hs⟩ : ∃ s, macroS p = s + 1 := ⟨macroS p - 1, by omega⟩
  rw [← h1, hs, Nat.add_sub_cancel, pow_succ]
  have : 2 ^ s * 2 * macroT p = 2 * (macroT p * 2 ^ s) := by ring
  rw [this, Nat.mul_div_cancel_left _ (by decide)]

theorem orderOf_rootOfUnity (g : ℕ) (hsz : p < 2 ^ 512) (hg : (g : Fp p) ^ ((p - 1) / 2) = -1) :
    orderOf (rootOfUnity p g) = 2 ^ macroS p := by
  obtain ⟨h1, h2, h3⟩ := macro_split (p := p) hsz
  have h := rootOfUnity_pow g hsz hg
  obtain ⟨s, hs⟩ : ∃ s, macroS p = s + 1 := ⟨macroS p - 1, by omega⟩
  rw [hs, Nat.add_sub_cancel] at h
  rw [hs]
  have : Fact (Nat.Prime 2) := ⟨Nat.prime_two⟩
  apply orderOf_eq_prime_pow
  · rw [h]; exact neg_one_ne_one
  · rw [pow_succ, pow_mul, h]; ring

variable [SmallModulus p]

/-- **Prime field square root.** -/
theorem sqrt_spec (g : ℕ) (hsz : p < 2 ^ 512) (hmod : p % 16 = 1 ∨ p % 4 = 3)
    (hg : (g : Fp p) ^ ((p - 1) / 2) = -1) (a : Fp p) :
    (∀ r, sqrt g a = some r → r * r = a) ∧ (IsSquare a → ∃ r, sqrt g a = some r) := by
  obtain ⟨h1, h2, h3⟩ := macro_split (p := p) hsz
  have hgt := hp.out.gt
  rw [sqrt]
  have hwf : ∀ e n, ∀ x ∈ bigToLimbs e n, x < 2 ^ 64 := bigToLimbs_wf
  have hlt : ∀ e, e < p → limbsVal (bigToLimbs e (numLimbs p)) = e := fun e he => by
    rw [limbsVal_eq, val_bigToLimbs _ _ (lt_trans he (modulus_lt p))]
  split
  · have hle : macroT p ≤ p - 1 := by
      rw [← h1]; exact Nat.le_mul_of_pos_left _ (Nat.pow_pos (by decide))
    refine Sqrt.tonelliShanks_spec square_eq (macroS p) (macroT p) h3 h2 _ (rootOfUnity_pow g hsz hg)
      (fun x hx => by rw [h1]; exact pow_pred x hx) _ (hwf _ _) ?_ a
    rw [tm1o2_eq hsz]
    exact hlt _ (by omega)
  · rw [if_pos (by omega)]
    exact Sqrt.sqrt34_spec square_eq p (by omega) (fun x hx => pow_pred x hx) _ (hwf _ _) (hlt _ (by omega)) a

end PrimeModulus

end Halo2.Fp
