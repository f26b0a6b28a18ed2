import Verif.Hash.Iso
import Verif.Curve.SerdeSign
import Verif.Props.Legendre
import Mathlib.NumberTheory.LegendreSymbol.QuadraticChar.Basic

/-!
# The field methods of the maps, and checks of the suites' constants
-/

set_option linter.unusedSectionVars false

namespace Halo2.Hash

open Halo2.Field Halo2.Prime Halo2.Ext Halo2.Curve

/-- In a finite field the product of two non-squares is a square. -/
theorem nonsquare_mul {F : Type} [Field F] [Finite F] (x y : F) (hx : ¬ IsSquare x) (hy : ¬ IsSquare y) : IsSquare (x * y) := by
  classical
  have : Fintype F := Fintype.ofFinite F
  have hx0 : x ≠ 0 := by rintro rfl; exact hx ⟨0, by ring⟩
  have hy0 : y ≠ 0 := by rintro rfl; exact hy ⟨0, by ring⟩
  rw [← quadraticChar_one_iff_isSquare (mul_ne_zero hx0 hy0), map_mul, quadraticChar_neg_one_iff_not_isSquare.mpr hx,
    quadraticChar_neg_one_iff_not_isSquare.mpr hy]
  norm_num

instance finite_fp (p : ℕ) [Fact (OddModulus p)] [Fact p.Prime] : Finite (Fp p) :=
  Finite.of_equiv _ (Fp.equiv p).toEquiv.symm

instance finite_quad (F : Type) [Finite F] : Finite (Quad F) :=
  Finite.of_injective (fun x : Quad F => (x.c0, x.c1)) (fun x y h => by
    obtain ⟨h0, h1⟩ := Prod.mk.inj h
    exact Quad.ext h0 h1)

section Prime

variable (p g : ℕ) [Fact (OddModulus p)]

/-- The methods of a generated prime field: `sqrt` and `TWO_INV` (derive/src/field/mod.rs), `is_odd`
(src/ff_ext/mod.rs, src/derive/curve.rs) and `ct_quadratic_non_residue` (src/ff_ext/mod.rs:11-13). -/
def fpOps : HashOps (Fp p) where
  sqrt := Fp.sqrt g
  isOdd := Fp.isOdd
  nonResidue := Fp.ctNonResidue
  twoInv := Fp.twoInv p

theorem fpOps_ok [Fact p.Prime] [Fp.SmallModulus p] (hsz : p < 2 ^ 512)
    (h : ∀ a : Fp p, (∀ r, Fp.sqrt g a = some r → r * r = a) ∧ (Fp.sqrt g a = none ↔ ¬ IsSquare a)) : (fpOps p g).Ok where
  sqrt_some x r := (h x).1 r
  sqrt_none x := (h x).2.mp
  nonResidue x := (Props.C10_residue p x).1
  twoInv := Fp.two_mul_twoInv hsz
  nonsquare_mul := nonsquare_mul

end Prime

section Tower

variable (p : ℕ) [Fact (OddModulus p)] [ExtField (Fp p)]

/-- The methods of a quadratic extension: `TWO_INV` is src/derive/field/tower.rs:121-124, `legendre`
src/derive/field/tower.rs:87-91. -/
def tower2Ops (sqrt : Quad (Fp p) → Option (Quad (Fp p))) : HashOps (Quad (Fp p)) where
  sqrt := sqrt
  isOdd := Tower2.isOdd
  nonResidue x := Props.legendre2 x == some (-1)
  twoInv := ⟨Fp.twoInv p, 0⟩

theorem tower2Ops_twoInv {p : ℕ} [Fact (OddModulus p)] [ExtField (Fp p)] [LawfulExt (Fp p)] (h : 2 * Fp.twoInv p = 1) :
    (2 : Quad (Fp p)) * ⟨Fp.twoInv p, 0⟩ = 1 := by
  rw [two_mul]
  ext
  · change Fp.twoInv p + Fp.twoInv p = 1
    rw [← two_mul, h]
  · change (0 : Fp p) + 0 = 0
    rw [add_zero]

end Tower

/-! ## Checks of constants on shadows -/

section Checks

variable {R F : Type} [Field F] (S : Sh R F)

/-- `1` is admissible for the SVDW map on `y² = x³ + b`: `r1` is a root of `-3 (1 + b)`, `r2` one of
`1 + b`. -/
def svdwCheck (b r1 r2 : R) : Bool :=
  let g := S.add S.one b
  let three := S.add S.one (S.add S.one S.one)
  (!S.eq g S.zero) && (!S.eq three S.zero) && S.eq (S.add (S.mul r1 r1) (S.mul g three)) S.zero && S.eq (S.mul r2 r2) g

theorem svdwZ_of {b r1 r2 : R} (h : svdwCheck S b r1 r2 = true) : SvdwZ 0 (S.φ b) 1 := by
  unfold svdwCheck at h
  dsimp only at h
  rw [Bool.and_eq_true, Bool.and_eq_true, Bool.and_eq_true, Bool.not_eq_true', Bool.not_eq_true', S.eq_iff, S.eq_iff] at h
  obtain ⟨⟨⟨h1, h2⟩, h3⟩, h4⟩ := h
  have h1' : ¬ S.φ (S.add S.one b) = S.φ S.zero := by rw [← S.eq_iff, h1]; decide
  have h2' : ¬ S.φ (S.add S.one (S.add S.one S.one)) = S.φ S.zero := by rw [← S.eq_iff, h2]; decide
  simp only [S.φ_add, S.φ_mul, S.φ_one, S.φ_zero] at h1' h2' h3 h4
  refine ⟨?_, ?_, ⟨S.φ r1, ?_⟩, Or.inl ⟨S.φ r2, ?_⟩⟩
  · intro h
    apply h1'
    unfold rhs at h
    linear_combination h
  · intro h
    apply h2'
    linear_combination h
  · unfold rhs
    linear_combination -h3
  · unfold rhs
    linear_combination -h4

/-- `A`, `B`, `Z` are admissible for the SSWU map except for `Z` being a non-square: `e = B / (Z A)`, and `r` is
a root of the right-hand side there. -/
def sswuCheck (a b z e r : R) : Bool :=
  (!S.eq a S.zero) && (!S.eq b S.zero) && S.eq (S.mul e (S.mul z a)) b &&
    S.eq (S.mul r r) (S.add (S.add (S.mul (S.mul e e) e) (S.mul a e)) b)

theorem sswuZ_of {a b z e r : R} (h : sswuCheck S a b z e r = true) (hz : ¬ IsSquare (S.φ z)) :
    SswuZ (S.φ a) (S.φ b) (S.φ z) := by
  unfold sswuCheck at h
  rw [Bool.and_eq_true, Bool.and_eq_true, Bool.and_eq_true, Bool.not_eq_true', Bool.not_eq_true', S.eq_iff, S.eq_iff] at h
  obtain ⟨⟨⟨h1, h2⟩, h3⟩, h4⟩ := h
  have h1' : ¬ S.φ a = S.φ S.zero := by rw [← S.eq_iff, h1]; decide
  have h2' : ¬ S.φ b = S.φ S.zero := by rw [← S.eq_iff, h2]; decide
  simp only [S.φ_add, S.φ_mul, S.φ_zero] at h1' h2' h3 h4
  have hz0 : S.φ z ≠ 0 := by intro h; rw [h] at hz; exact hz ⟨0, by ring⟩
  refine ⟨h1', h2', hz, ⟨S.φ r, ?_⟩⟩
  have he : S.φ b / (S.φ z * S.φ a) = S.φ e := by
    rw [div_eq_iff (mul_ne_zero hz0 h1'), h3]
  rw [he]
  unfold rhs
  linear_combination -h4

/-- The polynomial `c (x - r₁)^k (x - r₂)^k …`. -/
def rootPoly (c : R) (rs : List R) (k : ℕ) : List R :=
  rs.foldl (fun acc r => (List.range k).foldl (fun acc _ => S.pmul acc [S.sub S.zero r, S.one]) acc) [c]

theorem peval_rootPoly (c : R) (rs : List R) (k : ℕ) (t : F) :
    peval ((rootPoly S c rs k).map S.φ) t = S.φ c * (rs.map fun r => (t - S.φ r) ^ k).prod := by
  have aux : ∀ (n : ℕ) (acc : List R) (r : R),
      peval (((List.range n).foldl (fun acc _ => S.pmul acc [S.sub S.zero r, S.one]) acc).map S.φ) t =
        peval (acc.map S.φ) t * (t - S.φ r) ^ n := by
    intro n acc r
    induction n with
    | zero => simp
    | succ n ih =>
      rw [List.range_succ, List.foldl_append, List.foldl_cons, List.foldl_nil, S.peval_pmul, ih]
      simp only [List.map_cons, List.map_nil, peval_cons, peval_nil, S.φ_sub, S.φ_zero, S.φ_one]
      ring
  have aux2 : ∀ (acc : List R), peval ((rs.foldl (fun acc r => (List.range k).foldl (fun acc _ =>
      S.pmul acc [S.sub S.zero r, S.one]) acc) acc).map S.φ) t =
        peval (acc.map S.φ) t * (rs.map fun r => (t - S.φ r) ^ k).prod := by
    induction rs with
    | nil => intro acc; simp
    | cons r rs ih =>
      intro acc
      rw [List.foldl_cons, ih, aux, List.map_cons, List.prod_cons]
      ring
  rw [rootPoly, aux2]
  simp

/-- A polynomial that is a product of linear factors vanishes exactly at their roots. -/
theorem peval_zero_iff {c : R} {rs l : List R} {k : ℕ} (hk : k ≠ 0) (hc : S.eq c S.zero = false)
    (h : S.peq l (rootPoly S c rs k) = true) (t : F) :
    peval (l.map S.φ) t = 0 ↔ ∃ r ∈ rs, t = S.φ r := by
  have hc' : S.φ c ≠ 0 := by
    intro h0
    have := (S.eq_iff c S.zero).mpr (by rw [h0, S.φ_zero])
    rw [hc] at this; cases this
  rw [S.peval_of_peq _ _ h, peval_rootPoly, mul_eq_zero, List.prod_eq_zero_iff]
  simp only [hc', false_or, List.mem_map]
  constructor
  · rintro ⟨r, hr, e⟩
    exact ⟨r, hr, sub_eq_zero.mp (pow_eq_zero_iff hk |>.mp e)⟩
  · rintro ⟨r, hr, rfl⟩
    exact ⟨r, hr, by rw [sub_self, zero_pow hk]⟩

end Checks

end Halo2.Hash
