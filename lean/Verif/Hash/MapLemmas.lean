import Verif.Hash.Map
import Verif.Curve.Scalar

/-!
# The maps to the curve: specifications of RFC 9380 and proofs
-/

set_option linter.unusedSectionVars false

namespace Halo2.Hash

open Halo2.Curve

variable {F : Type} [Field F] [DecidableEq F] [BaseField F] [LawfulBase F]

/-- What the maps need of the field methods. The last condition holds in every finite field. -/
structure HashOps.Ok (O : HashOps F) : Prop where
  sqrt_some : ∀ x r, O.sqrt x = some r → r * r = x
  sqrt_none : ∀ x, O.sqrt x = none → ¬ IsSquare x
  nonResidue : ∀ x, O.nonResidue x = true ↔ ¬ IsSquare x
  twoInv : 2 * O.twoInv = 1
  nonsquare_mul : ∀ x y : F, ¬ IsSquare x → ¬ IsSquare y → IsSquare (x * y)

/-- The right-hand side of the curve equation. -/
def rhs (a b x : F) : F := x ^ 3 + a * x + b

/-- The precomputed root of RFC 9380, 6.6.1: a square root of `-g(Z) (3 Z² + 4 A)` with sign `0`. -/
def SvdwRoot (a b z : F) (sgn0 : F → Bool) (s : F) : Prop :=
  s ^ 2 = -rhs a b z * (3 * z ^ 2 + 4 * a) ∧ sgn0 s = false

/-- The abscissa chosen by the Shallue-van de Woestijne map of RFC 9380, section 6.6.1, steps 1-14; `s` is the
precomputed root of step 5. Inversion maps `0` to `0`. -/
def SvdwX (a b z s u x : F) : Prop :=
  let tv1 := u ^ 2 * rhs a b z
  let tv3 := ((1 - tv1) * (1 + tv1))⁻¹
  let tv5 := u * (1 - tv1) * tv3 * s
  let tv6 := -4 * rhs a b z / (3 * z ^ 2 + 4 * a)
  let x1 := -z / 2 - tv5
  let x2 := -z / 2 + tv5
  let x3 := z + tv6 * ((1 + tv1) ^ 2 * tv3) ^ 2
  (IsSquare (rhs a b x1) → x = x1) ∧
  (¬ IsSquare (rhs a b x1) → IsSquare (rhs a b x2) → x = x2) ∧
  (¬ IsSquare (rhs a b x1) → ¬ IsSquare (rhs a b x2) → x = x3)

/-- The conditions RFC 9380 puts on `Z`. -/
structure SvdwZ (a b z : F) : Prop where
  ne : rhs a b z ≠ 0
  tne : 3 * z ^ 2 + 4 * a ≠ 0
  square : IsSquare (-rhs a b z * (3 * z ^ 2 + 4 * a))
  one : IsSquare (rhs a b z) ∨ IsSquare (rhs a b (-z / 2))

/-- The identity behind the map: with `h = 3 Z²/4 + A + w²` the values at `-Z/2 ± w` and at `Z - g(Z)/h`
multiply to `-h³ g(x3)² / g(Z)`. -/
theorem svdw_identity {a b z w h x3 : F} (h2 : (2 : F) ≠ 0) (hh : 4 * h = 3 * z ^ 2 + 4 * a + 4 * w ^ 2)
    (hx : h * (x3 - z) = -rhs a b z) :
    h ^ 3 * rhs a b x3 = -rhs a b z * (rhs a b (-z / 2 - w) * rhs a b (-z / 2 + w)) := by
  have ea : a = h - 3 * z ^ 2 / 4 - w ^ 2 := by
    have h4 : (4 : F) ≠ 0 := by
      have : (4 : F) = 2 * 2 := by norm_num
      rw [this]; exact mul_ne_zero h2 h2
    field_simp
    linear_combination -hh
  have eb : b = -(h * (x3 - z)) - z ^ 3 - a * z := by
    unfold rhs at hx
    linear_combination hx
  rw [eb, ea]
  unfold rhs
  have h4 : (4 : F) ≠ 0 := by
    have : (4 : F) = 2 * 2 := by norm_num
    rw [this]; exact mul_ne_zero h2 h2
  field_simp
  ring

/-- One of the three candidates lies on the curve. -/
theorem svdw_square {O : HashOps F} (hO : O.Ok) (h2 : (2 : F) ≠ 0) {a b z s u x : F} (hz : SvdwZ a b z)
    (hs : s ^ 2 = -rhs a b z * (3 * z ^ 2 + 4 * a)) (hx : SvdwX a b z s u x) : IsSquare (rhs a b x) := by
  obtain ⟨k1, k2, k3⟩ := hx
  set g := rhs a b z with hg
  set t := u ^ 2 * g with ht
  set T := 3 * z ^ 2 + 4 * a with hT
  by_cases q1 : IsSquare (rhs a b (-z / 2 - u * (1 - t) * ((1 - t) * (1 + t))⁻¹ * s))
  · rw [k1 q1]; exact q1
  by_cases q2 : IsSquare (rhs a b (-z / 2 + u * (1 - t) * ((1 - t) * (1 + t))⁻¹ * s))
  · rw [k2 q1 q2]; exact q2
  rw [k3 q1 q2]
  by_cases h0 : (1 - t) * (1 + t) = 0
  · rw [h0, inv_zero] at q1 ⊢
    simp only [mul_zero, zero_mul, sub_zero] at q1
    rcases hz.one with hq | hq
    · simpa using hq
    · exact absurd hq q1
  · have hm : 1 - t ≠ 0 := left_ne_zero_of_mul h0
    have hp : 1 + t ≠ 0 := right_ne_zero_of_mul h0
    have h4 : (4 : F) ≠ 0 := by
      have : (4 : F) = 2 * 2 := by norm_num
      rw [this]; exact mul_ne_zero h2 h2
    have hTn := hz.tne
    have hgn := hz.ne
    rw [← hT] at hTn
    rw [← hg] at hgn
    set w := u * (1 - t) * ((1 - t) * (1 + t))⁻¹ * s with hw
    set x3 := z + -4 * g / T * ((1 + t) ^ 2 * ((1 - t) * (1 + t))⁻¹) ^ 2 with hx3
    have ew : w = u * s / (1 + t) := by rw [hw]; field_simp
    have ew2 : w ^ 2 = -(t * T) / (1 + t) ^ 2 := by
      rw [ew, div_pow, mul_pow, hs, ht]
      ring
    have ex3 : x3 - z = -4 * g * (1 + t) ^ 2 / (T * (1 - t) ^ 2) := by
      rw [hx3]; field_simp; ring
    have hid := svdw_identity (a := a) (b := b) (z := z) (w := w) (h := T * (1 - t) ^ 2 / (4 * (1 + t) ^ 2)) (x3 := x3) h2
      (by rw [← hT, ew2]; field_simp; ring)
      (by rw [ex3, ← hg]; field_simp)
    rw [← hg] at hid
    obtain ⟨m, hmm⟩ := hO.nonsquare_mul _ _ q1 q2
    rw [hmm] at hid
    set h := T * (1 - t) ^ 2 / (4 * (1 + t) ^ 2) with hh
    have hhn : h ≠ 0 := by
      rw [hh]
      exact div_ne_zero (mul_ne_zero hTn (pow_ne_zero _ hm)) (mul_ne_zero h4 (pow_ne_zero _ hp))
    -- `-g h` is a square
    have hgh : -g * h = (s * (1 - t) / (2 * (1 + t))) ^ 2 := by
      rw [hh, div_pow, mul_pow, hs]
      field_simp
      ring
    refine ⟨s * (1 - t) / (2 * (1 + t)) * m / h ^ 2, ?_⟩
    have : rhs a b x3 = -g * h * m ^ 2 / h ^ 4 := by
      field_simp
      linear_combination hid
    rw [this, hgh]
    field_simp


theorem svdwG_eq (C : Params F) (x : F) : svdwG C x = rhs C.a C.b x := by
  unfold svdwG rhs
  rw [LawfulBase.sqr_eq]
  ring

theorem square_of_sq {x r : F} (h : r * r = x) : IsSquare x := ⟨r, h.symm⟩

theorem sqrt_of_square {O : HashOps F} (hO : O.Ok) {x : F} (h : IsSquare x) : ∃ r, O.sqrt x = some r ∧ r * r = x := by
  cases e : O.sqrt x with
  | none => exact absurd h (hO.sqrt_none x e)
  | some r => exact ⟨r, rfl, hO.sqrt_some x r e⟩

theorem getD_inv (x : F) : (invert x).getD 0 = x⁻¹ := by
  rw [LawfulBase.invert_eq]
  split
  · next h => rw [h, inv_zero]; rfl
  · rfl

theorem twoInv_eq {O : HashOps F} (hO : O.Ok) (h2 : (2 : F) ≠ 0) (z : F) : -z * O.twoInv = -z / 2 := by
  field_simp
  linear_combination -z * hO.twoInv

/-- The sign of the selected root. -/
theorem select_sign (sg : F → Bool) (r : F) (v : Bool) :
    sg (if v == sg r then r else -r) = v ∨
      sg (-(if v == sg r then r else -r)) = sg (if v == sg r then r else -r) := by
  by_cases h : v = sg r
  · left; simp [h]
  · have hb : (v == sg r) = false := by simpa using h
    rw [hb]
    simp only [Bool.false_eq_true, if_false, neg_neg]
    by_cases h' : sg (-r) = v
    · left; exact h'
    · right
      revert h h'
      cases sg r <;> cases sg (-r) <;> cases v <;> simp

theorem select_sq (r : F) (c : Bool) : (if c then r else -r) ^ 2 = r * r := by
  cases c <;> simp [sq]

theorem svdwConstants_spec {C : Params F} {O : HashOps F} (hO : O.Ok) (h2 : (2 : F) ≠ 0) {z : F}
    (hz : SvdwZ C.a C.b z) : ∃ s, svdwConstants C O z =
      some ⟨rhs C.a C.b z, -z / 2, s, -4 * rhs C.a C.b z / (3 * z ^ 2 + 4 * C.a)⟩ ∧
      s ^ 2 = -rhs C.a C.b z * (3 * z ^ 2 + 4 * C.a) ∧ (O.isOdd s = false ∨ O.isOdd (-s) = O.isOdd s) := by
  have e1 : (1 + 1 + 1 : F) * sqr z + (1 + 1 + 1 + 1) * C.a = 3 * z ^ 2 + 4 * C.a := by
    rw [LawfulBase.sqr_eq]; ring
  have e2 : (sqr z + C.a) * z + C.b = rhs C.a C.b z := by
    rw [LawfulBase.sqr_eq]; unfold rhs; ring
  obtain ⟨r, hr, hrr⟩ := sqrt_of_square hO hz.square
  unfold svdwConstants
  dsimp only
  rw [e1, e2, hr]
  dsimp only
  rw [LawfulBase.invert_eq, if_neg hz.tne]
  dsimp only
  rw [twoInv_eq hO h2]
  refine ⟨if O.isOdd r then -r else r, ?_, ?_, ?_⟩
  · congr 2
    rw [div_eq_mul_inv]
    norm_num
  · rw [← hrr]
    split <;> ring
  · cases e : O.isOdd r with
    | false => left; simpa using e
    | true =>
      simp only [if_true, neg_neg]
      cases e' : O.isOdd (-r) with
      | false => left; rfl
      | true => right; exact e

theorem svdwX_spec {C : Params F} {O : HashOps F} (hO : O.Ok) (z s u : F) :
    SvdwX C.a C.b z s u
      (svdwX C O ⟨rhs C.a C.b z, -z / 2, s, -4 * rhs C.a C.b z / (3 * z ^ 2 + 4 * C.a)⟩ z u) := by
  unfold svdwX SvdwX
  dsimp only
  simp only [svdwG_eq, getD_inv, LawfulBase.sqr_eq]
  have et : u * u * rhs C.a C.b z = u ^ 2 * rhs C.a C.b z := by ring
  rw [et]
  generalize u ^ 2 * rhs C.a C.b z = t
  generalize -4 * rhs C.a C.b z / (3 * z ^ 2 + 4 * C.a) = c4
  generalize ((1 - t) * (1 + t))⁻¹ = i
  generalize -z / 2 - u * (1 - t) * i * s = x1
  generalize -z / 2 + u * (1 - t) * i * s = x2
  have n1 := hO.nonResidue (rhs C.a C.b x1)
  have n2 := hO.nonResidue (rhs C.a C.b x2)
  refine ⟨fun h => ?_, fun h h' => ?_, fun h h' => ?_⟩
  · have : O.nonResidue (rhs C.a C.b x1) = false := by
      rw [← Bool.not_eq_true, n1]; exact not_not.mpr h
    simp [this]
  · have a1 : O.nonResidue (rhs C.a C.b x1) = true := n1.mpr h
    have a2 : O.nonResidue (rhs C.a C.b x2) = false := by
      rw [← Bool.not_eq_true, n2]; exact not_not.mpr h'
    simp [a1, a2]
  · have a1 : O.nonResidue (rhs C.a C.b x1) = true := n1.mpr h
    have a2 : O.nonResidue (rhs C.a C.b x2) = true := n2.mpr h'
    simp [a1, a2]
    ring

theorem newJacobian_one {C : Params F} {x y : F} (h : y ^ 2 = rhs C.a C.b x) :
    Proj.newJacobian C x y 1 = some ⟨x, y, 1⟩ := by
  rw [newJacobian_eq, if_pos, if_neg one_ne_zero]
  · simp
  · right
    unfold rhs at h
    linear_combination h

theorem svdwMap_spec {C : Params F} {O : HashOps F} (hO : O.Ok) (hC : Good C) {z s : F} (hz : SvdwZ C.a C.b z)
    (hs : s ^ 2 = -rhs C.a C.b z * (3 * z ^ 2 + 4 * C.a)) (u : F) : ∃ x y,
      svdwMap C O ⟨rhs C.a C.b z, -z / 2, s, -4 * rhs C.a C.b z / (3 * z ^ 2 + 4 * C.a)⟩ z u = some ⟨x, y, 1⟩ ∧
      SvdwX C.a C.b z s u x ∧ y ^ 2 = rhs C.a C.b x ∧ (O.isOdd y = O.isOdd u ∨ O.isOdd (-y) = O.isOdd y) := by
  have hx := svdwX_spec (C := C) hO z s u
  have hsq := svdw_square hO hC.two hz hs hx
  unfold svdwMap
  dsimp only
  generalize svdwX C O ⟨rhs C.a C.b z, -z / 2, s, -4 * rhs C.a C.b z / (3 * z ^ 2 + 4 * C.a)⟩ z u = x at *
  rw [svdwG_eq]
  obtain ⟨r, hr, hrr⟩ := sqrt_of_square hO hsq
  rw [hr]
  dsimp only
  have hy : (if (O.isOdd u == O.isOdd r) = true then r else -r) ^ 2 = rhs C.a C.b x := by
    rw [select_sq, hrr]
  exact ⟨x, _, newJacobian_one hy, hx, hy, select_sign O.isOdd r (O.isOdd u)⟩

/-! ## The simplified SWU map -/

/-- The abscissa chosen by the simplified SWU map of RFC 9380, section 6.6.2, steps 1-8. Inversion maps `0` to `0`. -/
def SswuX (a b z u x : F) : Prop :=
  let tv1 := (z ^ 2 * u ^ 4 + z * u ^ 2)⁻¹
  let x1 := if tv1 = 0 then b / (z * a) else -b / a * (1 + tv1)
  (IsSquare (rhs a b x1) → x = x1) ∧ (¬ IsSquare (rhs a b x1) → x = z * u ^ 2 * x1)

/-- The conditions RFC 9380 puts on `A`, `B` and `Z` (the one on irreducibility is not needed). -/
structure SswuZ (a b z : F) : Prop where
  ane : a ≠ 0
  bne : b ≠ 0
  zns : ¬ IsSquare z
  exc : IsSquare (rhs a b (b / (z * a)))

theorem sqrtRatio_spec {O : HashOps F} (hO : O.Ok) {num div z : F} (hd : div ≠ 0) (hz : ¬ IsSquare z) :
    ∃ q r, sqrtRatio O num div z = some (q, r) ∧ (q = true ↔ IsSquare (num / div)) ∧
      (q = true → r * r = num / div) ∧ (q = false → r * r = z * (num / div)) := by
  have ea : (invert div).getD 0 * num = num / div := by
    rw [getD_inv]; field_simp
  have hdz : isZero div = false := by
    rw [← Bool.not_eq_true, LawfulBase.isZero_iff]; exact hd
  unfold sqrtRatio
  dsimp only
  rw [ea, hdz]
  set a := num / div with hadef
  have hnum : isZero num = decide (a = 0) := by
    rw [isZero_eq]
    congr 1
    rw [hadef, div_eq_zero_iff]
    simp [hd]
  rw [hnum]
  cases e1 : O.sqrt a with
  | some r =>
    have hr := hO.sqrt_some a r e1
    have hc : ((decide (a = 0) || false) || xor (Option.some r).isSome (O.sqrt (a * z)).isSome) = true := by
      by_cases h0 : a = 0
      · simp [h0]
      · cases e2 : O.sqrt (a * z) with
        | none => simp
        | some t =>
          exfalso
          have ht := hO.sqrt_some _ t e2
          have hr0 : r ≠ 0 := by rintro rfl; exact h0 (by rw [← hr]; ring)
          apply hz
          refine ⟨t / r, ?_⟩
          field_simp
          rw [← hr] at ht
          linear_combination -ht
    rw [if_pos hc]
    refine ⟨true, r, by simp, ⟨fun _ => ⟨r, hr.symm⟩, fun _ => rfl⟩, fun _ => hr, fun h => by cases h⟩
  | none =>
    have hn := hO.sqrt_none a e1
    have h0 : a ≠ 0 := by
      intro h0; apply hn; rw [h0]; exact ⟨0, by ring⟩
    obtain ⟨t, ht, htt⟩ := sqrt_of_square hO (hO.nonsquare_mul _ _ hn hz)
    rw [ht]
    refine ⟨false, t, by simp, ⟨fun h => (by cases h), fun h => absurd h hn⟩, fun h => (by cases h), fun _ => ?_⟩
    rw [htt]; ring

theorem sswu_x2 {a b w x1 : F} (h : a * x1 * (w * (1 + w)) = -b * (1 + w + w ^ 2)) :
    rhs a b (w * x1) = w ^ 3 * rhs a b x1 := by
  unfold rhs
  linear_combination (1 - w) * h

theorem sswuMap_spec {O : HashOps F} (hO : O.Ok) {a b z : F} (hz : SswuZ a b z) (u : F) : ∃ X Y Z,
    sswuMap O a b z u = some (X, Y, Z) ∧ Z ≠ 0 ∧ SswuX a b z u (X / Z) ∧ (Y / Z) ^ 2 = rhs a b (X / Z) ∧
      (O.isOdd (Y / Z) = O.isOdd u ∨ O.isOdd (-(Y / Z)) = O.isOdd (Y / Z)) := by
  have ha := hz.ane
  have hz0 : z ≠ 0 := by rintro rfl; exact hz.zns ⟨0, by ring⟩
  unfold sswuMap SswuX
  dsimp only
  simp only [LawfulBase.sqr_eq]
  set w := z * (u * u) with hw
  have ew : z * u ^ 2 = w := by rw [hw]; ring
  have ew2 : z ^ 2 * u ^ 4 + z * u ^ 2 = w * w + w := by rw [hw]; ring
  rw [ew2, ew]
  set t4 := a * (if w * w + w = 0 then z else -(w * w + w)) with ht4
  set t3 := b * (w * w + w + 1) with ht3
  have h4 : t4 ≠ 0 := by
    rw [ht4]
    refine mul_ne_zero ha ?_
    split
    · exact hz0
    · next h => exact neg_ne_zero.mpr h
  set x1 := if (w * w + w)⁻¹ = 0 then b / (z * a) else -b / a * (1 + (w * w + w)⁻¹) with hx1
  have ex1 : t3 / t4 = x1 := by
    rw [hx1, ht4, ht3]
    by_cases h : w * w + w = 0
    · rw [if_pos h, h, inv_zero, if_pos rfl]
      field_simp
      ring
    · rw [if_neg h, if_neg (inv_ne_zero h)]
      generalize w * w + w = m at h ⊢
      field_simp
  have hnum : ((t3 * t3 + a * (t4 * t4)) * t3 + b * (t4 * t4 * t4)) / (t4 * t4 * t4) = rhs a b x1 := by
    rw [← ex1]
    unfold rhs
    field_simp
  have hdiv : t4 * t4 * t4 ≠ 0 := mul_ne_zero (mul_ne_zero h4 h4) h4
  obtain ⟨q, r, hq, q1, q2, q3⟩ := sqrtRatio_spec hO (num := (t3 * t3 + a * (t4 * t4)) * t3 + b * (t4 * t4 * t4)) hdiv hz.zns
  rw [hq]
  dsimp only
  rw [hnum] at q1 q2 q3
  refine ⟨_, _, _, rfl, h4, ?_⟩
  rw [mul_div_assoc, div_self h4, mul_one]
  cases q with
  | true =>
    have hs : IsSquare (rhs a b x1) := q1.mp rfl
    simp only [if_true]
    rw [ex1]
    exact ⟨⟨fun _ => rfl, fun h => absurd hs h⟩, by rw [select_sq, q2 rfl], select_sign O.isOdd _ _⟩
  | false =>
    have hs : ¬ IsSquare (rhs a b x1) := fun h => absurd (q1.mpr h) (by decide)
    have hne : w * w + w ≠ 0 := by
      intro h
      apply hs
      rw [hx1, h, inv_zero, if_pos rfl]
      exact hz.exc
    have hxx : w * t3 / t4 = w * x1 := by rw [mul_div_assoc, ex1]
    simp only [Bool.false_eq_true, if_false]
    rw [hxx]
    refine ⟨⟨fun h => absurd h hs, fun _ => rfl⟩, ?_, select_sign O.isOdd _ _⟩
    rw [select_sq, sswu_x2]
    · have := q3 rfl
      rw [hw]
      linear_combination (z * (u * u) * u) ^ 2 * this
    · rw [hx1, if_neg (inv_ne_zero hne), show w * (1 + w) = w * w + w by ring,
        show 1 + w + w ^ 2 = 1 + (w * w + w) by ring]
      generalize w * w + w = m at hne ⊢
      field_simp
      ring

end Halo2.Hash
