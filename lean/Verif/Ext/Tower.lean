import Verif.Ext.Adjoin
import Mathlib.Algebra.CharP.Lemmas
import Mathlib.Algebra.CharP.Algebra
import Mathlib.FieldTheory.KummerPolynomial

/-!
# Towers of extensions: embeddings, characteristic, fields, Frobenius
-/

set_option linter.unusedSectionVars false

namespace Halo2.Ext

open ExtField LawfulExt

variable {F : Type} [CommRing F] [ExtField F] [LawfulExt F]

namespace Quad

/-- The embedding of the base ring. -/
def ofBase : F →+* Quad F where
  toFun a := ⟨a, 0⟩
  map_one' := rfl
  map_zero' := rfl
  map_mul' a b := by ext <;> simp
  map_add' a b := by ext <;> simp

@[simp] theorem ofBase_c0 (a : F) : (ofBase a).c0 = a := rfl
@[simp] theorem ofBase_c1 (a : F) : (ofBase a).c1 = 0 := rfl

theorem ofBase_injective : Function.Injective (ofBase : F → Quad F) := fun _ _ h => congrArg Quad.c0 h

/-- The adjoined root. -/
def U : Quad F := ⟨0, 1⟩

theorem U_sq : (U : Quad F) * U = ofBase nonRes := by ext <;> simp [U]

theorem eq_ofBase (x : Quad F) : x = ofBase x.c0 + ofBase x.c1 * U := by ext <;> simp [U]

instance [Nontrivial F] : Nontrivial (Quad F) :=
  ⟨⟨0, 1, fun h => zero_ne_one (congrArg Quad.c0 h)⟩⟩

instance (p : ℕ) [CharP F p] : CharP (Quad F) p := charP_of_injective_ringHom ofBase_injective p

end Quad

namespace Cubic

/-- The embedding of the base ring. -/
def ofBase : F →+* Cubic F where
  toFun a := ⟨a, 0, 0⟩
  map_one' := rfl
  map_zero' := rfl
  map_mul' a b := by ext <;> simp
  map_add' a b := by ext <;> simp

@[simp] theorem ofBase_c0 (a : F) : (ofBase a).c0 = a := rfl
@[simp] theorem ofBase_c1 (a : F) : (ofBase a).c1 = 0 := rfl
@[simp] theorem ofBase_c2 (a : F) : (ofBase a).c2 = 0 := rfl

theorem ofBase_injective : Function.Injective (ofBase : F → Cubic F) := fun _ _ h => congrArg Cubic.c0 h

theorem v_sq : (v : Cubic F) * v = ⟨0, 0, 1⟩ := by ext <;> simp [v]
theorem v_cube : (v : Cubic F) * v * v = ofBase nonRes := by ext <;> simp [v]

theorem eq_ofBase (x : Cubic F) : x = ofBase x.c0 + ofBase x.c1 * v + ofBase x.c2 * (v * v) := by
  ext <;> simp [v]

instance [Nontrivial F] : Nontrivial (Cubic F) :=
  ⟨⟨0, 1, fun h => zero_ne_one (congrArg Cubic.c0 h)⟩⟩

instance (p : ℕ) [CharP F p] : CharP (Cubic F) p := charP_of_injective_ringHom ofBase_injective p

theorem nrm_v : nrm (v : Cubic F) = nonRes := by simp [nrm, v]

end Cubic

/-! ## Frobenius -/

theorem sub_one_div_mul {p d i : ℕ} (hd : d ∣ p - 1) : d * ((p ^ i - 1) / d) = p ^ i - 1 := by
  apply Nat.mul_div_cancel'
  exact dvd_trans hd (Nat.sub_one_dvd_pow_sub_one p i)

theorem pow_sub_one_succ {p d i : ℕ} (hp : 1 < p) (hd0 : 0 < d) (hd : d ∣ p - 1) :
    (p ^ (i + 1) - 1) / d = (p ^ i - 1) / d * p + (p - 1) / d := by
  apply Nat.eq_of_mul_eq_mul_left hd0
  rw [sub_one_div_mul hd, Nat.mul_add, ← Nat.mul_assoc, sub_one_div_mul hd,
    Nat.mul_div_cancel' hd, Nat.sub_mul, pow_succ, one_mul]
  have : p ≤ p ^ i * p := Nat.le_mul_of_pos_left p (Nat.pow_pos (by omega))
  omega

section Frob

variable {p : ℕ} [hp : Fact p.Prime] [CharP F p]

/-- `(x + y)^(p^i)` -/
theorem add_pow_pi {R : Type} [CommRing R] [CharP R p] (x y : R) (i : ℕ) :
    (x + y) ^ p ^ i = x ^ p ^ i + y ^ p ^ i := by
  have : ExpChar R p := ExpChar.prime hp.out
  exact add_pow_expChar_pow x y p i

/-- A root of `X^d - a` raised to the power `p^i`. -/
theorem root_pow {R : Type} [CommRing R] {r a : R} {d i : ℕ} (hd0 : 0 < d) (hd : d ∣ p - 1) (hr : r ^ d = a) :
    r ^ p ^ i = a ^ ((p ^ i - 1) / d) * r := by
  rw [← hr, ← pow_mul, sub_one_div_mul hd, ← pow_succ]
  congr 1
  have : 0 < p ^ i := Nat.pow_pos hp.out.pos
  omega

/-- The table entry recurrence. -/
theorem coeff_succ {R : Type} [CommRing R] (a : R) {d i : ℕ} (hd0 : 0 < d) (hd : d ∣ p - 1) :
    a ^ ((p ^ (i + 1) - 1) / d) = (a ^ ((p ^ i - 1) / d)) ^ p * a ^ ((p - 1) / d) := by
  rw [pow_sub_one_succ hp.out.one_lt hd0 hd, pow_add, pow_mul]

theorem neg_one_pow_pi {R : Type} [CommRing R] [CharP R p] (a : R) (ha : a ^ ((p - 1) / 2) = -1) (h2 : 2 ∣ p - 1)
    (i : ℕ) : a ^ ((p ^ i - 1) / 2) = if i % 2 = 0 then 1 else -1 := by
  have hodd : Odd p := by
    rw [Nat.odd_iff]
    have := hp.out.one_lt
    omega
  induction i with
  | zero => simp
  | succ i ih =>
    rw [coeff_succ a (by decide) h2, ih, ha]
    rcases Nat.mod_two_eq_zero_or_one i with h | h
    · rw [if_pos h, if_neg (by omega)]; simp
    · rw [if_neg (by omega), if_pos (by omega), hodd.neg_one_pow]; simp

/-- Frobenius of the quadratic extension of the prime field. -/
theorem Quad.frob2_eq (hF : ∀ a : F, a ^ p = a) (h2 : 2 ∣ p - 1) (hnr : (nonRes : F) ^ ((p - 1) / 2) = -1)
    (i : ℕ) (x : Quad F) : Quad.frob2 i x = x ^ p ^ i := by
  have hFi : ∀ a : F, a ^ p ^ i = a := by
    intro a
    induction i with
    | zero => simp
    | succ i ih => rw [pow_succ, pow_mul, ih, hF]
  conv_rhs => rw [Quad.eq_ofBase x]
  rw [add_pow_pi, mul_pow, ← map_pow, ← map_pow, hFi, hFi,
    root_pow (d := 2) (by decide) h2 (show (Quad.U : Quad F) ^ 2 = _ by rw [pow_two, Quad.U_sq]), ← map_pow,
    neg_one_pow_pi _ hnr h2]
  unfold Quad.frob2
  rcases Nat.mod_two_eq_zero_or_one i with h | h
  · rw [if_neg (by omega), if_pos h]
    ext <;> simp [Quad.U]
  · rw [if_pos (by omega), if_neg (by omega)]
    ext <;> simp [Quad.U, Quad.conjugate]

/-- Frobenius of the cubic extension, with the right table entries. -/
theorem Cubic.frob6_eq (t1 t2 : List F) (i : ℕ) (h3 : 3 ∣ p - 1) (hfrob : ∀ a : F, frob i a = a ^ p ^ i)
    (h1 : t1.getD (i % 6) 0 = (nonRes : F) ^ ((p ^ i - 1) / 3))
    (h2 : t2.getD (i % 6) 0 = ((nonRes : F) ^ ((p ^ i - 1) / 3)) ^ 2) (x : Cubic F) :
    Cubic.frob6 t1 t2 i x = x ^ p ^ i := by
  conv_rhs => rw [Cubic.eq_ofBase x]
  rw [add_pow_pi, add_pow_pi, mul_pow, mul_pow, mul_pow, ← map_pow, ← map_pow, ← map_pow,
    root_pow (d := 3) (by decide) h3 (show (Cubic.v : Cubic F) ^ 3 = _ by rw [pow_succ, pow_two, Cubic.v_cube]), ← map_pow]
  unfold Cubic.frob6
  simp only [hfrob, h1, h2]
  generalize (nonRes : F) ^ ((p ^ i - 1) / 3) = γ
  generalize x.c0 ^ p ^ i = a0
  generalize x.c1 ^ p ^ i = a1
  generalize x.c2 ^ p ^ i = a2
  ext <;> simp [Cubic.v] <;> ring

variable [ExtField (Cubic F)] [LawfulExt (Cubic F)]

/-- Frobenius of the quadratic extension of the cubic one (the twelfth degree field). -/
theorem Deg12.frob12_eq (hv : (nonRes : Cubic F) = Cubic.v) (t : List F) (i : ℕ) (h6 : 6 ∣ p - 1)
    (hfrob : ∀ a : Cubic F, frob i a = a ^ p ^ i)
    (h1 : t.getD (i % 12) 0 = (nonRes : F) ^ ((p ^ i - 1) / 6)) (x : Quad (Cubic F)) :
    Deg12.frob12 t i x = x ^ p ^ i := by
  have h2 : 2 ∣ p - 1 := dvd_trans (by decide) h6
  conv_rhs => rw [Quad.eq_ofBase x]
  rw [add_pow_pi, mul_pow, ← map_pow, ← map_pow,
    root_pow (d := 2) (by decide) h2 (show (Quad.U : Quad (Cubic F)) ^ 2 = _ by rw [pow_two, Quad.U_sq]), ← map_pow]
  have hv6 : (nonRes : Cubic F) ^ ((p ^ i - 1) / 2) = Cubic.ofBase ((nonRes : F) ^ ((p ^ i - 1) / 6)) := by
    rw [map_pow, ← Cubic.v_cube, hv, mul_assoc, ← pow_two, ← pow_succ', ← pow_mul]
    congr 1
    have e1 := sub_one_div_mul (i := i) h2
    have e2 := sub_one_div_mul (i := i) h6
    omega
  rw [hv6]
  unfold Deg12.frob12
  simp only [hfrob, h1]
  generalize (nonRes : F) ^ ((p ^ i - 1) / 6) = γ
  generalize x.c0 ^ p ^ i = a0
  generalize x.c1 ^ p ^ i = a1
  ext <;> simp [Quad.U]

end Frob

/-- A periodic table satisfying the recurrence holds the right powers. -/
theorem table_eq {R : Type} [CommRing R] {p : ℕ} [hp : Fact p.Prime] (a : R) (d n : ℕ) (hd0 : 0 < d) (hn : 0 < n)
    (hd : d ∣ p - 1) (t : List R) (h0 : t.getD 0 0 = 1)
    (hs : ∀ i < n, t.getD ((i + 1) % n) 0 = (t.getD i 0) ^ p * a ^ ((p - 1) / d)) (i : ℕ) :
    t.getD (i % n) 0 = a ^ ((p ^ i - 1) / d) := by
  induction i with
  | zero => simpa using h0
  | succ i ih =>
    rw [coeff_succ a hd0 hd, ← ih, ← hs (i % n) (Nat.mod_lt _ hn)]
    congr 1
    simp [Nat.add_mod]

/-! ## Fields -/

section Fields

variable {K : Type} [Field K] [ExtField K] [LawfulExt K]

/-- With a non-square `β` every non-zero element of `K[u]/(u^2-β)` has an inverse. -/
theorem Quad.exists_inv (h : ¬ IsSquare (nonRes : K)) (x : Quad K) (hx : x ≠ 0) : ∃ y, x * y = 1 := by
  have hn : norm x ≠ 0 := by
    rw [norm_eq]
    intro h0
    by_cases h1 : x.c1 = 0
    · rw [h1, mul_zero, mul_zero, sub_zero, mul_self_eq_zero] at h0
      exact hx (Quad.ext h0 h1)
    · apply h
      refine ⟨x.c0 / x.c1, ?_⟩
      field_simp
      linear_combination -h0
  refine ⟨conjugate x * ofBase (norm x)⁻¹, ?_⟩
  rw [← mul_assoc, mul_conjugate]
  ext <;> simp [hn]

/-- The field structure of `K[u]/(u^2-β)`; its inverse is the code's `invert`. -/
@[reducible] def Quad.fieldOf (h : ¬ IsSquare (nonRes : K)) : _root_.Field (Quad K) :=
  { Quad.instCommRing with
    inv := fun x => (Quad.invert x).getD 0
    exists_pair_ne := ⟨0, 1, zero_ne_one⟩
    mul_inv_cancel := fun x hx => by
      obtain ⟨y, hy⟩ := Quad.exists_inv h x hx
      change x * (Quad.invert x).getD 0 = 1
      rw [(Quad.invert_iff x y).mpr hy]
      exact hy
    inv_zero := by
      change (Quad.invert (0 : Quad K)).getD 0 = 0
      have : Quad.invert (0 : Quad K) = none := by
        cases hc : Quad.invert (0 : Quad K) with
        | none => rfl
        | some y => rw [Quad.invert_iff, zero_mul] at hc; exact absurd hc zero_ne_one
      rw [this]; rfl
    nnqsmul := _
    nnqsmul_def := fun _ _ => rfl
    qsmul := _
    qsmul_def := fun _ _ => rfl }

/-- With a non-cube `ξ` every non-zero element of `K[v]/(v^3-ξ)` has an inverse. -/
theorem Cubic.exists_inv (h : ∀ b : K, b ^ 3 ≠ nonRes) (x : Cubic K) (hx : x ≠ 0) : ∃ y, x * y = 1 := by
  have hirr : Irreducible (cubicPoly K) := X_pow_sub_C_irreducible_of_prime Nat.prime_three h
  have : Fact (Irreducible (cubicPoly K)) := ⟨hirr⟩
  have h0 : cubicEval (0 : Cubic K) = 0 := by simp [cubicEval]
  have h1 : cubicEval (1 : Cubic K) = 1 := by simp [cubicEval]
  have hne : cubicEval x ≠ 0 := fun hc => hx (cubicEval_bijective.1 (by rw [hc, h0]))
  obtain ⟨y, hy⟩ := cubicEval_bijective.2 (cubicEval x)⁻¹
  refine ⟨y, cubicEval_bijective.1 ?_⟩
  rw [cubicEval_mul, hy, h1, mul_inv_cancel₀ hne]

/-- The field structure of `K[v]/(v^3-ξ)`; its inverse is the code's `invert`. -/
@[reducible] def Cubic.fieldOf (h : ∀ b : K, b ^ 3 ≠ nonRes) : _root_.Field (Cubic K) :=
  { Cubic.instCommRing with
    inv := fun x => (Cubic.invert x).getD 0
    exists_pair_ne := ⟨0, 1, zero_ne_one⟩
    mul_inv_cancel := fun x hx => by
      obtain ⟨y, hy⟩ := Cubic.exists_inv h x hx
      change x * (Cubic.invert x).getD 0 = 1
      rw [(Cubic.invert_iff x y).mpr hy]
      exact hy
    inv_zero := by
      change (Cubic.invert (0 : Cubic K)).getD 0 = 0
      have : Cubic.invert (0 : Cubic K) = none := by
        cases hc : Cubic.invert (0 : Cubic K) with
        | none => rfl
        | some y => rw [Cubic.invert_iff, zero_mul] at hc; exact absurd hc zero_ne_one
      rw [this]; rfl
    nnqsmul := _
    nnqsmul_def := fun _ _ => rfl
    qsmul := _
    qsmul_def := fun _ _ => rfl }

/-- `ξ` is not a square / not a cube in the quadratic extension if its norm is not one below. -/
theorem Quad.not_square_of_norm {x : Quad K} (h : ¬ IsSquare (norm x)) : ¬ IsSquare x := by
  rintro ⟨y, rfl⟩
  exact h ⟨norm y, norm_mul y y⟩

theorem Quad.not_cube_of_norm {x : Quad K} (h : ∀ b, b ^ 3 ≠ norm x) : ∀ b, b ^ 3 ≠ x := by
  rintro b rfl
  apply h (norm b)
  rw [pow_succ, pow_two, pow_succ, pow_two, norm_mul, norm_mul]

/-- `v` is not a square in the cubic extension if `ξ` is not one below. -/
theorem Cubic.v_not_square (h : ¬ IsSquare (nonRes : K)) : ¬ IsSquare (Cubic.v : Cubic K) := by
  rintro ⟨y, hy⟩
  apply h
  refine ⟨nrm y, ?_⟩
  rw [← nrm_mul, ← hy, nrm_v]

end Fields

end Halo2.Ext
