import Verif.Pairing.Divisor
import Verif.Pairing.Extension

/-!
# The cocycle of line values and its bimultiplicativity

For a point `P = (x, y)` of `y² = x³ + a x + b` over the big field and points `A`, `B` over the
small field, `γ_P(A, B) = chord x y A B ^ N`.  It is a symmetric cocycle when the power `N` kills
the values of vertical lines; `γ_{P₁ + P₂}` and `γ_{P₁} γ_{P₂}` differ by a coboundary because of
the reciprocity of lines.
-/

set_option linter.unusedSectionVars false
set_option linter.unusedSimpArgs false

open WeierstrassCurve WeierstrassCurve.Affine Polynomial
open Halo2.Curve

namespace Halo2.Pairing

section
variable {F K : Type} [Field F] [DecidableEq F] [Field K] [DecidableEq K]

/-! ### Lines under scalings -/

theorem vert_scaling {σ : F →+* K} {u v : K} {a b : F} {a' b' : K} (h : Scaling σ u v a b a' b')
    (x : F) (A : (short a b).Point) : ∃ f : K, (f = 1 ∨ f = u ∨ f = v) ∧
      vert (u * σ x) (h.hom A) = f * σ (vert x A) := by
  match A with
  | .zero => exact ⟨1, Or.inl rfl, by rw [one_mul]; exact (map_one σ).symm⟩
  | .some x1 y1 h1 =>
    refine ⟨u, Or.inr (Or.inl rfl), ?_⟩
    rw [h.hom_some]
    change u * σ x - u * σ x1 = u * σ (x - x1)
    rw [map_sub, mul_sub]

theorem chord_scaling {σ : F →+* K} {u v : K} {a b : F} {a' b' : K} (h : Scaling σ u v a b a' b')
    (x y : F) (A B : (short a b).Point) : ∃ f : K, (f = 1 ∨ f = u ∨ f = v) ∧
      chord (u * σ x) (v * σ y) (h.hom A) (h.hom B) = f * σ (chord x y A B) := by
  have e : (Point.zero : (short a b).Point) = 0 := rfl
  match A, B with
  | .zero, B =>
    rw [e, map_zero, chord_zero_left, chord_zero_left]
    exact vert_scaling h x B
  | .some x1 y1 h1, .zero =>
    rw [e, map_zero, chord_zero_right, chord_zero_right]
    exact vert_scaling h x _
  | .some x1 y1 h1, .some x2 y2 h2 =>
    rw [h.hom_some, h.hom_some, chord_some, chord_some]
    by_cases hxy : x1 = x2 ∧ y1 = (short a b).negY x2 y2
    · have e1 : u * σ x1 = u * σ x2 := by rw [hxy.1]
      have e2 : v * σ y1 = (short a' b').negY (u * σ x2) (v * σ y2) := by
        rw [hxy.2, short_negY, short_negY, map_neg]
        ring
      rw [if_pos ⟨e1, e2⟩, if_pos hxy]
      refine ⟨u, Or.inr (Or.inl rfl), ?_⟩
      rw [map_sub, mul_sub]
    · have hxy' : ¬(u * σ x1 = u * σ x2 ∧ v * σ y1 = (short a' b').negY (u * σ x2) (v * σ y2)) := by
        rintro ⟨e1, e2⟩
        refine hxy ⟨σ.injective (mul_left_cancel₀ h.u0 e1), ?_⟩
        rw [short_negY] at e2 ⊢
        apply σ.injective
        rw [map_neg]
        apply mul_left_cancel₀ h.v0
        linear_combination e2
      rw [if_neg hxy', if_neg hxy]
      refine ⟨v, Or.inr (Or.inr rfl), ?_⟩
      rw [h.slope _ _ _ _ hxy h1.1 h2.1]
      have hu := h.u0
      simp only [map_sub, map_mul]
      field_simp
end

section
variable {K : Type} [Field K] [DecidableEq K] {a b : K}

/-! ### Vieta -/

/-- Everything about the line through two points with non-zero sum. -/
structure LineData (A B : (short a b).Point) (l m x1 x2 x3 : K) : Prop where
  hA : ∃ h, A = .some x1 (l * x1 + m) h
  hB : ∃ h, B = .some x2 (l * x2 + m) h
  hS : ∃ h, A + B = .some x3 (-(l * x3 + m)) h
  s1 : x1 + x2 + x3 = l * l
  s2 : x1 * x2 + x1 * x3 + x2 * x3 = a - 2 * l * m
  s3 : x1 * x2 * x3 = m * m - b
  hc : ∀ x y, chord x y A B = y - (l * x + m)

theorem line_data {A B : (short a b).Point} (hA : A ≠ 0) (hB : B ≠ 0) (hS : A + B ≠ 0) :
    ∃ l m x1 x2 x3, LineData A B l m x1 x2 x3 := by
  match A, B with
  | .zero, B => exact absurd rfl hA
  | .some x1 y1 h1, .zero => exact absurd rfl hB
  | .some x1 y1 h1, .some x2 y2 h2 =>
    by_cases hxy : x1 = x2 ∧ y1 = (short a b).negY x2 y2
    · exact absurd (Point.add_of_Y_eq hxy.1 hxy.2) hS
    · have hp := addPolynomial_slope h1.1 h2.1 hxy
      rw [addPolynomial_eq, neg_inj, Cubic.prod_X_sub_C_eq, Cubic.toPoly_injective] at hp
      obtain ⟨hns, hadd⟩ : ∃ h, (Point.some x1 y1 h1 : (short a b).Point) + .some x2 y2 h2 =
          .some ((short a b).addX x1 x2 ((short a b).slope x1 x2 y1 y2))
            ((short a b).addY x1 x2 y1 ((short a b).slope x1 x2 y1 y2)) h := ⟨_, Point.add_some hxy⟩
      have hchord : ∀ x y, chord x y (.some x1 y1 h1) (.some x2 y2 h2) =
          y - y1 - (short a b).slope x1 x2 y1 y2 * (x - x1) := fun x y => by
        rw [chord_some, if_neg hxy]
      have hy2 : y2 = (short a b).slope x1 x2 y1 y2 * (x2 - x1) + y1 := by
        by_cases hx : x1 = x2
        · have hy : y1 ≠ (short a b).negY x2 y2 := fun h => hxy ⟨hx, h⟩
          have := Y_eq_of_Y_ne h1.1 h2.1 hx hy
          rw [this, hx, sub_self, mul_zero, zero_add]
        · rw [slope_of_X_ne hx]
          have : x1 - x2 ≠ 0 := sub_ne_zero.mpr hx
          field_simp
          ring
      have hx3 := short_addX a b x1 x2 ((short a b).slope x1 x2 y1 y2)
      have hy3 := short_addY a b x1 x2 y1 ((short a b).slope x1 x2 y1 y2)
      generalize hl : (short a b).slope x1 x2 y1 y2 = l at *
      generalize hax : (short a b).addX x1 x2 l = x3 at *
      generalize hay : (short a b).addY x1 x2 y1 l = y3 at *
      have hp2 := congrArg Cubic.c hp
      have hp3 := congrArg Cubic.d hp
      simp only [short] at hp2 hp3
      have ey1 : y1 = l * x1 + (y1 - l * x1) := by ring
      have ey2 : y2 = l * x2 + (y1 - l * x1) := by rw [hy2]; ring
      have ey3 : y3 = -(l * x3 + (y1 - l * x1)) := by rw [hy3, hx3]; ring
      refine ⟨l, y1 - l * x1, x1, x2, x3, ⟨?_, ?_, ?_, ?_, ?_, ?_, ?_⟩⟩
      · exact ⟨ey1 ▸ h1, point_ext rfl ey1⟩
      · exact ⟨ey2 ▸ h2, point_ext rfl ey2⟩
      · rw [hadd]
        exact ⟨ey3 ▸ hns, point_ext rfl ey3⟩
      · rw [hx3]; ring
      · linear_combination -hp2
      · linear_combination hp3
      · intro x y
        rw [hchord]; ring

/-- The value of a line at a point and at its negative. -/
theorem chord_neg {x y : K} (h : (short a b).Equation x y) (A B : (short a b).Point) :
    ∃ s : K, s ^ 2 = 1 ∧
      chord x y A B * chord x (-y) A B = s * (vert x A * vert x B * vert x (A + B)) := by
  by_cases hA : A = 0
  · subst hA
    refine ⟨1, one_pow 2, ?_⟩
    rw [chord_zero_left, chord_zero_left, zero_add]
    change _ = 1 * (1 * vert x B * vert x B)
    ring
  by_cases hB : B = 0
  · subst hB
    refine ⟨1, one_pow 2, ?_⟩
    rw [chord_zero_right, chord_zero_right, add_zero]
    change _ = 1 * (vert x A * 1 * vert x A)
    ring
  by_cases hS : A + B = 0
  · refine ⟨1, one_pow 2, ?_⟩
    rw [hS]
    obtain rfl : B = -A := (neg_eq_of_add_eq_zero_right hS).symm
    match A, hA with
    | .some x1 y1 h1, _ =>
      rw [Point.neg_some, chord_some, chord_some, if_pos, if_pos]
      · change _ = 1 * ((x - x1) * (x - x1) * 1)
        ring
      all_goals exact ⟨rfl, by rw [negY_negY]⟩
  · obtain ⟨l, m, x1, x2, x3, d⟩ := line_data hA hB hS
    refine ⟨-1, by ring, ?_⟩
    rw [d.hc, d.hc]
    obtain ⟨⟨_, e1⟩, ⟨_, e2⟩, ⟨_, e3⟩⟩ := And.intro d.hA (And.intro d.hB d.hS)
    rw [e3, e1, e2]
    change _ = -1 * ((x - x1) * (x - x2) * (x - x3))
    rw [short_equation_iff] at h
    linear_combination (-1 : K) * h - x ^ 2 * d.s1 + x * d.s2 - d.s3

/-- **Reciprocity of lines**: the product of the values of one line at the three points of another
is up to sign the product of the values of the second line at the three points of the first. -/
theorem reciprocity {A B P Q : (short a b).Point} {l m x1 x2 x3 l' m' p1 p2 p3 : K}
    (d : LineData A B l m x1 x2 x3) (d' : LineData P Q l' m' p1 p2 p3) :
    chord p1 (l' * p1 + m') A B * chord p2 (l' * p2 + m') A B * chord p3 (l' * p3 + m') A B =
      -(chord x1 (l * x1 + m) P Q * chord x2 (l * x2 + m) P Q * chord x3 (l * x3 + m) P Q) := by
  simp only [d.hc, d'.hc]
  have h1 := d.s1
  have h2 := d.s2
  have h3 := d.s3
  have k1 := d'.s1
  have k2 := d'.s2
  have k3 := d'.s3
  linear_combination (l' - l) ^ 3 * (k3 - h3) + (l' - l) ^ 2 * (m' - m) * (k2 - h2) +
    (l' - l) * (m' - m) ^ 2 * (k1 - h1)
end

/-! ### The cocycle -/

section
variable {F K : Type} [Field F] [DecidableEq F] [Field K] [DecidableEq K]

/-- The setting: the small field `F` in the big field `K`, the power `N` which ends the
computation, the order `r` of its values, and the twisted Frobenius `ψ` of the curve
`y² = x³ + a x + b` over `F`. -/
structure Setting (σ : F →+* K) (a b : F) (N r p : ℕ) (τ : F →+* F) (u v : F) : Prop where
  N0 : N ≠ 0
  four : 4 ∣ N
  card : ∀ z : K, z ≠ 0 → z ^ (N * r) = 1
  kill : ∀ c : F, c ≠ 0 → σ c ^ N = 1
  frob : ∃ fr : K →+* K, ∀ z, fr z = z ^ p
  hτ : ∀ z, σ (τ z) = σ z ^ p
  psi : Scaling τ u v a b a b

/-- The points at which lines are evaluated: the power `N` kills vertical lines, and the point is
fixed by the twisted Frobenius. -/
structure EvPt (σ : F →+* K) (a b : F) (N p : ℕ) (u v : F) (x y : K) : Prop where
  eqn : (short (σ a) (σ b)).Equation x y
  vert : ∀ t s : F, (short a b).Nonsingular t s → (x - σ t) ^ N = 1
  fx : σ u * x ^ p = x
  fy : σ v * y ^ p = y

/-- The inclusion of points. -/
theorem baseScaling (σ : F →+* K) (a b : F) : Scaling σ 1 1 a b (σ a) (σ b) :=
  ⟨one_ne_zero, one_ne_zero, by ring, by ring, by ring⟩

/-- The inclusion of the points over the small field in the points over the big one. -/
def base (σ : F →+* K) (a b : F) : (short a b).Point →+ (short (σ a) (σ b)).Point :=
  (baseScaling σ a b).hom

theorem base_some (σ : F →+* K) (a b : F) {x y : F} (h : (short a b).Nonsingular x y) :
    ∃ h', base σ a b (.some x y h) = .some (σ x) (σ y) h' := by
  have e1 : 1 * σ x = σ x := one_mul _
  have e2 : 1 * σ y = σ y := one_mul _
  have h' := (baseScaling σ a b).nonsingular h
  have h'' : (short (σ a) (σ b)).Nonsingular (σ x) (σ y) := by rwa [e1, e2] at h'
  exact ⟨h'', point_ext e1 e2⟩

variable {σ : F →+* K} {a b : F} {N r p : ℕ} {τ : F →+* F} {u v : F}

theorem base_zero_iff (A : (short a b).Point) : base σ a b A = 0 ↔ A = 0 :=
  ⟨fun h => (baseScaling σ a b).hom_injective (by rw [map_zero]; exact h), fun h => by
    rw [h, map_zero]⟩

theorem EvPt.vert_pow {x y : K} (e : EvPt σ a b N p u v x y) (A : (short a b).Point) :
    Halo2.Pairing.vert x (base σ a b A) ^ N = 1 := by
  match A with
  | .zero => exact one_pow N
  | .some x1 y1 h1 =>
    obtain ⟨h', e1⟩ := base_some σ a b h1
    rw [e1]
    exact e.vert x1 y1 h1

theorem EvPt.neg {x y : K} (e : EvPt σ a b N p u v x y) (hodd : Odd p) :
    EvPt σ a b N p u v x (-y) := by
  refine ⟨?_, e.vert, e.fx, ?_⟩
  · have := e.eqn
    rw [short_equation_iff] at this ⊢
    linear_combination this
  · rw [hodd.neg_pow, mul_neg, e.fy]

theorem pow_ne {z : K} (hN : N ≠ 0) (h : z ^ N = 1) : z ≠ 0 := by
  rintro rfl
  rw [zero_pow hN] at h
  exact zero_ne_one h

theorem root_pow_N {c : K} (h4 : 4 ∣ N) (hc : c ^ 4 = 1) : c ^ N = 1 := by
  obtain ⟨k, rfl⟩ := h4
  rw [pow_mul, hc, one_pow]

theorem sign_pow_N {c : K} (h4 : 4 ∣ N) (hc : c ^ 2 = 1) : c ^ N = 1 :=
  root_pow_N h4 (by rw [show 4 = 2 * 2 from rfl, pow_mul, hc, one_pow])

/-- The values of a line at a point and its negative are inverse to each other. -/
theorem EvPt.chord_neg_pow (S : Setting σ a b N r p τ u v) {x y : K} (e : EvPt σ a b N p u v x y)
    (A B : (short a b).Point) :
    chord x y (base σ a b A) (base σ a b B) ^ N * chord x (-y) (base σ a b A) (base σ a b B) ^ N
      = 1 := by
  obtain ⟨s, hs, h⟩ := chord_neg e.eqn (base σ a b A) (base σ a b B)
  rw [← mul_pow, h, mul_pow, mul_pow, mul_pow, sign_pow_N S.four hs, e.vert_pow, e.vert_pow,
    ← map_add, e.vert_pow]
  simp only [mul_one]

theorem EvPt.chord_ne (S : Setting σ a b N r p τ u v) {x y : K} (e : EvPt σ a b N p u v x y)
    (A B : (short a b).Point) : chord x y (base σ a b A) (base σ a b B) ≠ 0 := by
  intro h
  have := e.chord_neg_pow S A B
  rw [h, zero_pow S.N0, zero_mul] at this
  exact zero_ne_one this

theorem EvPt.degenerate {x y : K} (e : EvPt σ a b N p u v x y) (A B : (short a b).Point)
    (h : A = 0 ∨ B = 0 ∨ A + B = 0) : chord x y (base σ a b A) (base σ a b B) ^ N = 1 := by
  rcases h with rfl | rfl | h
  · rw [map_zero, chord_zero_left, e.vert_pow]
  · rw [map_zero, chord_zero_right, e.vert_pow]
  · obtain rfl : B = -A := (neg_eq_of_add_eq_zero_right h).symm
    match A with
    | .zero => exact one_pow N
    | .some x1 y1 h1 =>
      obtain ⟨h', e1⟩ := base_some σ a b h1
      rw [map_neg, e1, Point.neg_some, chord_some, if_pos ⟨rfl, by rw [negY_negY]⟩]
      exact e.vert x1 y1 h1

/-- The twisted Frobenius on points. -/
def Setting.ψ (S : Setting σ a b N r p τ u v) : (short a b).Point →+ (short a b).Point := S.psi.hom

/-- The twisted Frobenius over the big field. -/
theorem Setting.psiK (S : Setting σ a b N r p τ u v) (fr : K →+* K) (hfr : ∀ z, fr z = z ^ p) :
    Scaling fr (σ u) (σ v) (σ a) (σ b) (σ a) (σ b) := by
  refine ⟨(map_ne_zero σ).mpr S.psi.u0, (map_ne_zero σ).mpr S.psi.v0, ?_, ?_, ?_⟩
  · rw [← map_mul, S.psi.uv, map_mul, map_mul]
  · rw [hfr, ← S.hτ, ← map_mul, ← map_mul, ← S.psi.ha]
  · rw [hfr, ← S.hτ, ← map_mul, ← map_mul, ← map_mul, ← S.psi.hb]

theorem Setting.base_psi (S : Setting σ a b N r p τ u v) (fr : K →+* K) (hfr : ∀ z, fr z = z ^ p)
    (A : (short a b).Point) : base σ a b (S.ψ A) = (S.psiK fr hfr).hom (base σ a b A) := by
  match A with
  | .zero => rfl
  | .some x y h =>
    obtain ⟨h1, e1⟩ := base_some σ a b h
    obtain ⟨h2, e2⟩ := base_some σ a b (S.psi.nonsingular h)
    have e0 : S.ψ (.some x y h) = .some (u * τ x) (v * τ y) (S.psi.nonsingular h) := rfl
    rw [e0, e2, e1, Scaling.hom_some]
    apply point_ext
    · rw [map_mul, S.hτ, hfr]
    · rw [map_mul, S.hτ, hfr]

theorem Setting.factor (S : Setting σ a b N r p τ u v) {f : K}
    (hf : f = 1 ∨ f = σ u ∨ f = σ v) : f ^ N = 1 := by
  rcases hf with rfl | rfl | rfl
  · exact one_pow N
  · exact S.kill u S.psi.u0
  · exact S.kill v S.psi.v0

/-- The cocycle of an evaluation point. -/
noncomputable def gamma (S : Setting σ a b N r p τ u v) {x y : K} (e : EvPt σ a b N p u v x y) :
    FrobCocycle (short a b).Point Kˣ p S.ψ where
  f A B := Units.mk0 _ (e.chord_ne S A B) ^ N
  symm A B := by
    ext
    simp only [Units.val_pow_eq_pow_val, Units.val_mk0]
    obtain ⟨c, hc, h⟩ := chord_symm e.eqn (base σ a b A) (base σ a b B)
    rw [h, mul_pow, root_pow_N S.four hc, one_mul]
  zero A := by
    ext
    simp only [Units.val_pow_eq_pow_val, Units.val_mk0, Units.val_one]
    exact e.degenerate 0 A (Or.inl rfl)
  neg A := by
    ext
    simp only [Units.val_pow_eq_pow_val, Units.val_mk0, Units.val_one]
    exact e.degenerate A (-A) (Or.inr (Or.inr (add_neg_cancel A)))
  assoc A B D := by
    ext
    simp only [Units.val_mul, Units.val_pow_eq_pow_val, Units.val_mk0]
    obtain ⟨c, hc, h⟩ := chord_cocycle e.eqn (base σ a b A) (base σ a b B) (base σ a b D)
    have h2 := congrArg (· ^ N) h
    simp only [mul_pow, ← map_add, e.vert_pow, root_pow_N S.four hc, mul_one, one_mul] at h2
    exact h2
  frob A B := by
    ext
    simp only [Units.val_pow_eq_pow_val, Units.val_mk0]
    obtain ⟨fr, hfr⟩ := S.frob
    obtain ⟨f, hf, h⟩ := chord_scaling (S.psiK fr hfr) x y (base σ a b A) (base σ a b B)
    rw [hfr x, hfr y, e.fx, e.fy, ← S.base_psi fr hfr, ← S.base_psi fr hfr, hfr] at h
    rw [h, mul_pow, S.factor hf, one_mul, ← pow_mul, ← pow_mul, mul_comm]

theorem gamma_val (S : Setting σ a b N r p τ u v) {x y : K} (e : EvPt σ a b N p u v x y)
    (A B : (short a b).Point) :
    (((gamma S e).f A B : Kˣ) : K) = chord x y (base σ a b A) (base σ a b B) ^ N := by
  change ((Units.mk0 _ (e.chord_ne S A B) ^ N : Kˣ) : K) = _
  rw [Units.val_pow_eq_pow_val, Units.val_mk0]

theorem gamma_pow_r (S : Setting σ a b N r p τ u v) {x y : K} (e : EvPt σ a b N p u v x y)
    (A B : (short a b).Point) : (gamma S e).f A B ^ r = 1 := by
  ext
  rw [Units.val_pow_eq_pow_val, gamma_val, ← pow_mul, Units.val_one]
  exact S.card _ (e.chord_ne S A B)

/-- The trivial cocycle. -/
def trivialCocycle (S : Setting σ a b N r p τ u v) :
    FrobCocycle (short a b).Point Kˣ p S.ψ where
  f _ _ := 1
  symm _ _ := rfl
  zero _ := rfl
  neg _ := rfl
  assoc _ _ _ := rfl
  frob _ _ := (one_pow p).symm

theorem zpow_of_dvd {G : Type} [Group G] {g : G} {r : ℕ} {n : ℤ} (h : g ^ r = 1)
    (hd : (r : ℤ) ∣ n) : g ^ n = 1 := by
  obtain ⟨k, rfl⟩ := hd
  rw [zpow_mul, zpow_natCast, h, one_zpow]

/-- The trivial cocycle gives the value one. -/
theorem trivial_ate (S : Setting σ a b N r p τ u v) {cs : List ℤ} {A : (short a b).Point}
    (hA : thetaA S.ψ cs A = 0) : (trivialCocycle S).ate cs A = 1 := by
  have := FrobCocycle.ate_mul (trivialCocycle S) (trivialCocycle S) (trivialCocycle S)
    (fun _ => 1) (fun _ _ => by simp [trivialCocycle]) (fun _ => (one_pow p).symm) cs hA
    (one_zpow _)
  exact (mul_eq_left.mp this.symm)

/-- **Additivity in the point over the small field.** -/
theorem gamma_add (S : Setting σ a b N r p τ u v) {x y : K} (e : EvPt σ a b N p u v x y)
    {cs : List ℤ} (hr : (r : ℤ) ∣ horner p cs) {A B : (short a b).Point}
    (hA : thetaA S.ψ cs A = 0) (hB : thetaA S.ψ cs B = 0) :
    (gamma S e).ate cs (A + B) = (gamma S e).ate cs A * (gamma S e).ate cs B :=
  (gamma S e).ate_add cs hA hB (zpow_of_dvd (gamma_pow_r S e A B) hr)

/-- The value at the negative of the evaluation point. -/
theorem gamma_neg (S : Setting σ a b N r p τ u v) {x y : K} (e : EvPt σ a b N p u v x y)
    (e' : EvPt σ a b N p u v x (-y)) {cs : List ℤ} {A : (short a b).Point}
    (hA : thetaA S.ψ cs A = 0) :
    1 = (gamma S e).ate cs A * (gamma S e').ate cs A := by
  rw [← trivial_ate S hA]
  refine FrobCocycle.ate_mul _ _ _ (fun _ => 1) (fun A B => ?_) (fun _ => (one_pow p).symm) cs hA
    (one_zpow _)
  ext
  simp only [trivialCocycle, inv_one, mul_one, Units.val_mul, gamma_val, Units.val_one]
  exact e.chord_neg_pow S A B

/-- The value of a line over the big field at a point over the small field. -/
noncomputable def kappa (σ : F →+* K) (a b : F) (N : ℕ) (P Q : (short (σ a) (σ b)).Point) :
    (short a b).Point → K
  | .zero => 1
  | .some x y _ => chord (σ x) (σ y) P Q ^ N

theorem kappa_some (P Q : (short (σ a) (σ b)).Point) {x y : F} (h : (short a b).Nonsingular x y) :
    kappa σ a b N P Q (.some x y h) = chord (σ x) (σ y) P Q ^ N := rfl

theorem kappa_zero (P Q : (short (σ a) (σ b)).Point) : kappa σ a b N P Q 0 = 1 := rfl

/-- A point at which lines are evaluated. -/
def EvPoint (σ : F →+* K) (a b : F) (N p : ℕ) (u v : F) (P : (short (σ a) (σ b)).Point) : Prop :=
  ∃ x y h, P = .some x y h ∧ EvPt σ a b N p u v x y

theorem EvPoint.vert_pow (S : Setting σ a b N r p τ u v) {P : (short (σ a) (σ b)).Point}
    (h : EvPoint σ a b N p u v P) {t s : F} (hts : (short a b).Nonsingular t s) : Halo2.Pairing.vert (σ t) P ^ N = 1 := by
  obtain ⟨x, y, h, rfl, e⟩ := h
  change (σ t - x) ^ N = 1
  rw [← neg_sub, neg_pow, e.vert t s hts, mul_one]
  exact sign_pow_N S.four (by ring)

theorem kappa_neg (S : Setting σ a b N r p τ u v) {P Q : (short (σ a) (σ b)).Point}
    (hP : EvPoint σ a b N p u v P) (hQ : EvPoint σ a b N p u v Q)
    (hR : EvPoint σ a b N p u v (P + Q)) (A : (short a b).Point) :
    kappa σ a b N P Q A * kappa σ a b N P Q (-A) = 1 := by
  match A with
  | .zero => exact mul_one 1
  | .some x y h =>
    rw [Point.neg_some, kappa_some, kappa_some, short_negY, map_neg]
    have he : (short (σ a) (σ b)).Equation (σ x) (σ y) := by
      obtain ⟨h', -⟩ := base_some σ a b h
      exact h'.1
    obtain ⟨s, hs, e⟩ := chord_neg he P Q
    rw [← mul_pow, e, mul_pow, mul_pow, mul_pow, sign_pow_N S.four hs, hP.vert_pow S h,
      hQ.vert_pow S h, hR.vert_pow S h]
    simp only [mul_one]

theorem kappa_ne (S : Setting σ a b N r p τ u v) {P Q : (short (σ a) (σ b)).Point}
    (hP : EvPoint σ a b N p u v P) (hQ : EvPoint σ a b N p u v Q)
    (hR : EvPoint σ a b N p u v (P + Q)) (A : (short a b).Point) :
    kappa σ a b N P Q A ≠ 0 := by
  intro h
  have := kappa_neg S hP hQ hR A
  rw [h, zero_mul] at this
  exact zero_ne_one this

theorem kappa_pow_r (S : Setting σ a b N r p τ u v) {P Q : (short (σ a) (σ b)).Point}
    (hP : EvPoint σ a b N p u v P) (hQ : EvPoint σ a b N p u v Q)
    (hR : EvPoint σ a b N p u v (P + Q)) (A : (short a b).Point) :
    kappa σ a b N P Q A ^ r = 1 := by
  match A with
  | .zero => exact one_pow r
  | .some x y h =>
    have h0 := kappa_ne S hP hQ hR (.some x y h)
    rw [kappa_some] at h0 ⊢
    rw [← pow_mul]
    refine S.card _ fun h1 => h0 ?_
    rw [h1, zero_pow S.N0]

theorem EvPoint.fixed (S : Setting σ a b N r p τ u v) {P : (short (σ a) (σ b)).Point}
    (h : EvPoint σ a b N p u v P) (fr : K →+* K) (hfr : ∀ z, fr z = z ^ p) :
    (S.psiK fr hfr).hom P = P := by
  obtain ⟨x, y, h, rfl, e⟩ := h
  rw [Scaling.hom_some]
  apply point_ext
  · rw [hfr, e.fx]
  · rw [hfr, e.fy]

theorem kappa_psi (S : Setting σ a b N r p τ u v) {P Q : (short (σ a) (σ b)).Point}
    (hP : EvPoint σ a b N p u v P) (hQ : EvPoint σ a b N p u v Q) (A : (short a b).Point) :
    kappa σ a b N P Q (S.ψ A) = kappa σ a b N P Q A ^ p := by
  match A with
  | .zero => exact (one_pow p).symm
  | .some x y h =>
    have e0 : S.ψ (.some x y h) = .some (u * τ x) (v * τ y) (S.psi.nonsingular h) := rfl
    rw [e0, kappa_some, kappa_some]
    obtain ⟨fr, hfr⟩ := S.frob
    obtain ⟨f, hf, e⟩ := chord_scaling (S.psiK fr hfr) (σ x) (σ y) P Q
    rw [hP.fixed S fr hfr, hQ.fixed S fr hfr, hfr, hfr, hfr, ← S.hτ, ← S.hτ, ← map_mul,
      ← map_mul] at e
    rw [e, mul_pow, S.factor hf, one_mul, ← pow_mul, ← pow_mul, mul_comm]

/-- The coboundary of the values of a line. -/
theorem kappa_cob (S : Setting σ a b N r p τ u v) {P Q R : K × K}
    {hP : (short (σ a) (σ b)).Nonsingular P.1 P.2} {hQ : (short (σ a) (σ b)).Nonsingular Q.1 Q.2}
    {hR : (short (σ a) (σ b)).Nonsingular R.1 R.2}
    (eP : EvPt σ a b N p u v P.1 P.2) (eQ : EvPt σ a b N p u v Q.1 Q.2)
    (eR : EvPt σ a b N p u v R.1 R.2)
    (hadd : (Point.some P.1 P.2 hP : (short (σ a) (σ b)).Point) + .some Q.1 Q.2 hQ =
      .some R.1 R.2 hR) (A B : (short a b).Point) :
    chord P.1 P.2 (base σ a b A) (base σ a b B) ^ N *
        chord Q.1 Q.2 (base σ a b A) (base σ a b B) ^ N *
        chord R.1 (-R.2) (base σ a b A) (base σ a b B) ^ N *
        kappa σ a b N (.some P.1 P.2 hP) (.some Q.1 Q.2 hQ) (A + B) =
      kappa σ a b N (.some P.1 P.2 hP) (.some Q.1 Q.2 hQ) A *
        kappa σ a b N (.some P.1 P.2 hP) (.some Q.1 Q.2 hQ) B := by
  have vP : EvPoint σ a b N p u v (.some P.1 P.2 hP) := ⟨_, _, _, rfl, eP⟩
  have vQ : EvPoint σ a b N p u v (.some Q.1 Q.2 hQ) := ⟨_, _, _, rfl, eQ⟩
  have vR : EvPoint σ a b N p u v (.some P.1 P.2 hP + .some Q.1 Q.2 hQ) :=
    ⟨_, _, _, hadd, eR⟩
  have hRn : chord R.1 (-R.2) (base σ a b A) (base σ a b B) ^ N *
      chord R.1 R.2 (base σ a b A) (base σ a b B) ^ N = 1 := by
    rw [mul_comm]; exact eR.chord_neg_pow S A B
  by_cases hdeg : A = 0 ∨ B = 0 ∨ A + B = 0
  · rw [eR.degenerate A B hdeg, mul_one] at hRn
    rw [eP.degenerate A B hdeg, eQ.degenerate A B hdeg, hRn, one_mul, one_mul, one_mul]
    rcases hdeg with rfl | rfl | h
    · rw [zero_add, kappa_zero, one_mul]
    · rw [add_zero, kappa_zero, mul_one]
    · obtain rfl : B = -A := (neg_eq_of_add_eq_zero_right h).symm
      rw [h, kappa_zero, kappa_neg S vP vQ vR]
  · push Not at hdeg
    obtain ⟨hA, hB, hS⟩ := hdeg
    have hbS : base σ a b A + base σ a b B ≠ 0 := by
      rw [← map_add]; exact fun h => hS ((base_zero_iff _).mp h)
    obtain ⟨l, m, x1, x2, x3, d⟩ := line_data (fun h => hA ((base_zero_iff _).mp h))
      (fun h => hB ((base_zero_iff _).mp h)) hbS
    have hPQ : (Point.some P.1 P.2 hP : (short (σ a) (σ b)).Point) + .some Q.1 Q.2 hQ ≠ 0 := by
      rw [hadd]; exact Point.some_ne_zero _
    obtain ⟨l', m', p1, p2, p3, d'⟩ := line_data (Point.some_ne_zero hP) (Point.some_ne_zero hQ)
      hPQ
    have hrcp := reciprocity d d'
    obtain ⟨_, i1⟩ := d'.hA
    obtain ⟨_, i2⟩ := d'.hB
    obtain ⟨_, i3⟩ := d'.hS
    rw [hadd] at i3
    obtain ⟨j1, k1⟩ := Point.some.inj i1
    obtain ⟨j2, k2⟩ := Point.some.inj i2
    obtain ⟨j3, k3⟩ := Point.some.inj i3
    have k3' : -R.2 = l' * p3 + m' := by rw [k3, neg_neg]
    rw [← k1, ← k2, ← k3', ← j1, ← j2, ← j3] at hrcp
    obtain ⟨_, n1⟩ := d.hA
    obtain ⟨_, n2⟩ := d.hB
    obtain ⟨_, n3⟩ := d.hS
    rw [← map_add] at n3
    have hk : kappa σ a b N (.some P.1 P.2 hP) (.some Q.1 Q.2 hQ) A =
        chord x1 (l * x1 + m) (.some P.1 P.2 hP) (.some Q.1 Q.2 hQ) ^ N := by
      match A, hA, n1 with
      | .some x y h, _, n1 =>
        obtain ⟨h', e⟩ := base_some σ a b h
        rw [e] at n1
        obtain ⟨o1, o2⟩ := Point.some.inj n1
        rw [kappa_some, o2, o1]
    have hk2 : kappa σ a b N (.some P.1 P.2 hP) (.some Q.1 Q.2 hQ) B =
        chord x2 (l * x2 + m) (.some P.1 P.2 hP) (.some Q.1 Q.2 hQ) ^ N := by
      match B, hB, n2 with
      | .some x y h, _, n1 =>
        obtain ⟨h', e⟩ := base_some σ a b h
        rw [e] at n1
        obtain ⟨o1, o2⟩ := Point.some.inj n1
        rw [kappa_some, o2, o1]
    have hk3 : kappa σ a b N (.some P.1 P.2 hP) (.some Q.1 Q.2 hQ) (-(A + B)) =
        chord x3 (l * x3 + m) (.some P.1 P.2 hP) (.some Q.1 Q.2 hQ) ^ N := by
      generalize A + B = T at *
      match T, hS, n3 with
      | .some x y h, _, n1 =>
        obtain ⟨h', e⟩ := base_some σ a b h
        rw [e] at n1
        obtain ⟨o1, o2⟩ := Point.some.inj n1
        rw [Point.neg_some, kappa_some, short_negY, map_neg, o2, o1, neg_neg]
    have hrec := congrArg (· ^ N) hrcp
    simp only [neg_pow (_ * _), mul_pow] at hrec
    rw [sign_pow_N S.four (c := (-1 : K)) (by ring), one_mul, ← hk, ← hk2, ← hk3] at hrec
    have hneg := kappa_neg S vP vQ vR (A + B)
    rw [hrec, mul_assoc _ (kappa _ _ _ _ _ _ (-(A + B))), mul_comm (kappa _ _ _ _ _ _ (-(A + B))), hneg,
      mul_one]

/-- **Additivity in the evaluation point.** -/
theorem gamma_mul (S : Setting σ a b N r p τ u v) {P Q R : K × K}
    {hP : (short (σ a) (σ b)).Nonsingular P.1 P.2} {hQ : (short (σ a) (σ b)).Nonsingular Q.1 Q.2}
    {hR : (short (σ a) (σ b)).Nonsingular R.1 R.2}
    (eP : EvPt σ a b N p u v P.1 P.2) (eQ : EvPt σ a b N p u v Q.1 Q.2)
    (eR : EvPt σ a b N p u v R.1 R.2)
    (hadd : (Point.some P.1 P.2 hP : (short (σ a) (σ b)).Point) + .some Q.1 Q.2 hQ =
      .some R.1 R.2 hR) {cs : List ℤ} (hr : (r : ℤ) ∣ horner p cs) {A : (short a b).Point}
    (hA : thetaA S.ψ cs A = 0) :
    (gamma S eR).ate cs A = (gamma S eP).ate cs A * (gamma S eQ).ate cs A := by
  have vP : EvPoint σ a b N p u v (.some P.1 P.2 hP) := ⟨_, _, _, rfl, eP⟩
  have vQ : EvPoint σ a b N p u v (.some Q.1 Q.2 hQ) := ⟨_, _, _, rfl, eQ⟩
  have vR : EvPoint σ a b N p u v (.some P.1 P.2 hP + .some Q.1 Q.2 hQ) :=
    ⟨_, _, _, hadd, eR⟩
  have hne := kappa_ne S vP vQ vR
  refine FrobCocycle.ate_mul _ _ _ (fun A => Units.mk0 _ (hne A)) (fun A B => ?_) (fun A => ?_) cs
    hA (zpow_of_dvd (r := r) ?_ hr)
  · ext
    simp only [Units.val_mul, Units.val_inv_eq_inv_val, gamma_val, Units.val_mk0]
    rw [← kappa_cob S eP eQ eR hadd A B]
    congr 2
    exact (eq_inv_of_mul_eq_one_right (eR.chord_neg_pow S A B)).symm
  · ext
    simp only [Units.val_pow_eq_pow_val, Units.val_mk0]
    exact kappa_psi S vP vQ A
  · ext
    simp only [Units.val_pow_eq_pow_val, Units.val_mk0, Units.val_one]
    exact kappa_pow_r S vP vQ vR A
end

end Halo2.Pairing
