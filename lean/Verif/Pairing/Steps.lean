import Verif.Pairing.Gamma
import Verif.Pairing.Miller
import Verif.Ext.Ring

/-!
# The steps of the Miller loop

The doubling and addition steps compute, in Jacobian coordinates, the sum of the points, and the
coefficients of the line through them up to a factor of the small field.  The state of the loop
therefore follows the multiplication of the extension of `Verif.Pairing.Extension`.
-/

set_option linter.unusedSectionVars false
set_option linter.unusedSimpArgs false

open WeierstrassCurve WeierstrassCurve.Affine
open Halo2.Curve Halo2.Ext

namespace Halo2.Pairing

section
variable {F : Type} [Field F] [DecidableEq F] {a b : F}

/-- The Jacobian coordinates `r` stand for the finite point `T`. -/
def JRep (a b : F) (r : Proj F) (T : (short a b).Point) : Prop :=
  ∃ x y h, T = .some x y h ∧ r.z ≠ 0 ∧ r.x = x * r.z ^ 2 ∧ r.y = y * r.z ^ 3

/-- The affine coordinates `q` stand for the finite point `B`. -/
def FRep (a b : F) (q : Aff F) (B : (short a b).Point) : Prop :=
  ∃ h, B = .some q.x q.y h

theorem JRep.ne_zero {r : Proj F} {T : (short a b).Point} (h : JRep a b r T) : T ≠ 0 := by
  obtain ⟨x, y, hn, rfl, -⟩ := h
  exact Point.some_ne_zero hn

variable [ExtField F]

theorem dblStep_eq (hs : ∀ x : F, ExtField.sqr x = x * x) (r : Proj F) :
    dblStep r = (⟨4 * (r.y * r.z ^ 3), -(6 * (r.x ^ 2 * r.z ^ 2)), 6 * r.x ^ 3 - 4 * r.y ^ 2⟩,
      ⟨9 * r.x ^ 4 - 8 * (r.x * r.y ^ 2),
        (12 * (r.x * r.y ^ 2) - 9 * r.x ^ 4) * (3 * r.x ^ 2) - 8 * r.y ^ 4, 2 * (r.y * r.z)⟩) := by
  unfold dblStep
  dsimp only
  simp only [hs]
  refine Prod.ext ?_ ?_
  · dsimp only
    congr 1 <;> ring
  · dsimp only
    congr 1 <;> ring

theorem addStep_eq (hs : ∀ x : F, ExtField.sqr x = x * x) (r : Proj F) (q : Aff F) :
    addStep r q =
      (⟨4 * (r.z * (r.z ^ 2 * q.x - r.x)), -(4 * (q.y * r.z ^ 3 - r.y)),
          4 * ((q.y * r.z ^ 3 - r.y) * q.x) - 4 * (q.y * (r.z * (r.z ^ 2 * q.x - r.x)))⟩,
        ⟨4 * (q.y * r.z ^ 3 - r.y) ^ 2 - 4 * (r.z ^ 2 * q.x - r.x) ^ 3 -
            8 * (r.z ^ 2 * q.x - r.x) ^ 2 * r.x,
          (12 * (r.z ^ 2 * q.x - r.x) ^ 2 * r.x - 4 * (q.y * r.z ^ 3 - r.y) ^ 2 +
              4 * (r.z ^ 2 * q.x - r.x) ^ 3) * (2 * (q.y * r.z ^ 3 - r.y)) -
            8 * (r.y * (r.z ^ 2 * q.x - r.x) ^ 3),
          2 * (r.z * (r.z ^ 2 * q.x - r.x))⟩) := by
  unfold addStep
  dsimp only
  simp only [hs]
  refine Prod.ext ?_ ?_
  · dsimp only
    congr 1 <;> ring
  · dsimp only
    congr 1 <;> ring

/-- The coefficients of a line, up to a factor. -/
structure CoeffRep (c : Coeffs F) (l m k : F) : Prop where
  k0 : k ≠ 0
  ha : c.a = k
  hb : c.b = -(k * l)
  hc : c.c = -(k * m)

theorem dblStep_rep (hs : ∀ x : F, ExtField.sqr x = x * x) (h2 : (2 : F) ≠ 0) (ha : a = 0)
    {r : Proj F} {x y : F} (h : (short a b).Nonsingular x y) (hz : r.z ≠ 0)
    (hx : r.x = x * r.z ^ 2) (hy : r.y = y * r.z ^ 3)
    (h0 : (Point.some x y h : (short a b).Point) + .some x y h ≠ 0) :
    JRep a b (dblStep r).2 (.some x y h + .some x y h) ∧
      ∃ k, CoeffRep (dblStep r).1 ((short a b).slope x x y y) (y - (short a b).slope x x y y * x)
        k := by
  have hxy : ¬(x = x ∧ y = (short a b).negY x y) := fun hc => h0 (Point.add_of_Y_eq hc.1 hc.2)
  have hne : y ≠ (short a b).negY x y := fun hc => hxy ⟨rfl, hc⟩
  have hl : (short a b).slope x x y y = 3 * x ^ 2 / (2 * y) := by
    rw [slope_of_Y_ne rfl hne, short_negY]
    simp only [short, ha]
    congr 1 <;> ring
  have hy0 : y ≠ 0 := by
    intro hc
    rw [short_negY, hc, neg_zero] at hne
    exact hne rfl
  rw [Point.add_some hxy, dblStep_eq hs]
  have hX := short_addX a b x x ((short a b).slope x x y y)
  have hY := short_addY a b x x y ((short a b).slope x x y y)
  constructor
  · refine ⟨_, _, _, rfl, ?_, ?_, ?_⟩
    · dsimp only
      rw [hy]
      exact mul_ne_zero h2 (mul_ne_zero (mul_ne_zero hy0 (pow_ne_zero _ hz)) hz)
    · dsimp only
      rw [hX, hl, hx, hy]
      field_simp
      ring
    · dsimp only
      rw [hY, hl, hx, hy]
      field_simp
      ring
  · refine ⟨4 * (r.y * r.z ^ 3), ?_, rfl, ?_, ?_⟩
    · rw [hy, show (4 : F) = 2 * 2 by norm_num]
      exact mul_ne_zero (mul_ne_zero h2 h2)
        (mul_ne_zero (mul_ne_zero hy0 (pow_ne_zero _ hz)) (pow_ne_zero _ hz))
    · dsimp only
      rw [hl, hx, hy]
      field_simp
      ring
    · dsimp only
      rw [hl, hx, hy]
      field_simp
      ring

theorem addStep_rep (hs : ∀ x : F, ExtField.sqr x = x * x) (h2 : (2 : F) ≠ 0)
    {r : Proj F} {q : Aff F} {x y : F} (h : (short a b).Nonsingular x y)
    (hq : (short a b).Nonsingular q.x q.y) (hz : r.z ≠ 0)
    (hx : r.x = x * r.z ^ 2) (hy : r.y = y * r.z ^ 3) (hne : x ≠ q.x) :
    JRep a b (addStep r q).2 (.some x y h + .some q.x q.y hq) ∧
      ∃ k, CoeffRep (addStep r q).1 ((short a b).slope x q.x y q.y)
        (y - (short a b).slope x q.x y q.y * x) k := by
  have hxy : ¬(x = q.x ∧ y = (short a b).negY q.x q.y) := fun hc => hne hc.1
  have hl : (short a b).slope x q.x y q.y = (y - q.y) / (x - q.x) := slope_of_X_ne hne
  have hd : x - q.x ≠ 0 := sub_ne_zero.mpr hne
  rw [Point.add_some hxy, addStep_eq hs]
  have hX := short_addX a b x q.x ((short a b).slope x q.x y q.y)
  have hY := short_addY a b x q.x y ((short a b).slope x q.x y q.y)
  have hH : r.z ^ 2 * q.x - r.x = -(r.z ^ 2 * (x - q.x)) := by rw [hx]; ring
  have hH0 : r.z ^ 2 * q.x - r.x ≠ 0 := by
    rw [hH]; exact neg_ne_zero.mpr (mul_ne_zero (pow_ne_zero _ hz) hd)
  constructor
  · refine ⟨_, _, _, rfl, ?_, ?_, ?_⟩
    · exact mul_ne_zero h2 (mul_ne_zero hz hH0)
    · dsimp only
      rw [hX, hl, hH, hx, hy]
      field_simp
      ring
    · dsimp only
      rw [hY, hl, hH, hx, hy]
      field_simp
      ring
  · refine ⟨4 * (r.z * (r.z ^ 2 * q.x - r.x)), ?_, rfl, ?_, ?_⟩
    · rw [show (4 : F) = 2 * 2 by norm_num]
      exact mul_ne_zero (mul_ne_zero h2 h2) (mul_ne_zero hz hH0)
    · dsimp only
      rw [hl, hH, hy]
      field_simp
      ring
    · dsimp only
      rw [hl, hH, hy]
      field_simp
      ring
end

section
variable {F K : Type} [Field F] [DecidableEq F] [Field K] [DecidableEq K] [ExtField F]
variable {σ : F →+* K} {a b : F} {N r p : ℕ} {τ : F →+* F} {u v : F}

/-- The line through points over the small field. -/
theorem chord_base {x1 y1 x2 y2 : F} (h1 : (short a b).Nonsingular x1 y1)
    (h2 : (short a b).Nonsingular x2 y2) (hxy : ¬(x1 = x2 ∧ y1 = (short a b).negY x2 y2))
    (x y : K) : chord x y (base σ a b (.some x1 y1 h1)) (base σ a b (.some x2 y2 h2)) =
      y - σ ((short a b).slope x1 x2 y1 y2) * x -
        σ (y1 - (short a b).slope x1 x2 y1 y2 * x1) := by
  have hs := (baseScaling σ a b).slope x1 x2 y1 y2 hxy h1.1 h2.1
  have hxy' : ¬(1 * σ x1 = 1 * σ x2 ∧
      1 * σ y1 = (short (σ a) (σ b)).negY (1 * σ x2) (1 * σ y2)) := by
    rintro ⟨e1, e2⟩
    rw [one_mul, one_mul] at e1
    refine hxy ⟨σ.injective e1, ?_⟩
    rw [short_negY] at e2 ⊢
    apply σ.injective
    rw [map_neg]
    linear_combination e2
  change chord x y (Point.some (1 * σ x1) (1 * σ y1) _) (Point.some (1 * σ x2) (1 * σ y2) _) = _
  rw [chord_some, if_neg hxy', hs, div_one, map_sub, map_mul]
  ring

/-- How the sparse element of `ell` evaluates a line: up to a factor killed by the power `N`. -/
def LineLaw {P : Type} (σ : F →+* K) (N : ℕ) (line : Coeffs F → Aff P → K) (t : Aff P) (x y : K) :
    Prop :=
  ∃ ω : K, ω ^ N = 1 ∧ ∀ c, line c t = ω * (σ c.a * y + σ c.b * x + σ c.c)

theorem line_pow (S : Setting σ a b N r p τ u v) {P : Type} {line : Coeffs F → Aff P → K}
    {t : Aff P} {x y : K} (L : LineLaw σ N line t x y) {c : Coeffs F} {l m k : F}
    (hc : CoeffRep c l m k) : line c t ^ N = (y - σ l * x - σ m) ^ N := by
  obtain ⟨ω, hω, h⟩ := L
  have e : line c t = ω * (σ k * (y - σ l * x - σ m)) := by
    rw [h, hc.ha, hc.hb, hc.hc, map_neg, map_neg, map_mul, map_mul]
    ring
  rw [e, mul_pow, mul_pow, hω, S.kill k hc.k0, one_mul, one_mul]

/-- The state of the loop stands for an element of the extension. -/
def StRep {γ : Cocycle (short a b).Point Kˣ} (N : ℕ) (s : K × Proj F) (e : Ext γ) : Prop :=
  s.1 ^ N = (e.m : K) ∧ JRep a b s.2 e.a

variable {P : Type} {line : Coeffs F → Aff P → K}

theorem StRep.ne_zero {γ : Cocycle (short a b).Point Kˣ} {s : K × Proj F} {e : Ext γ}
    (hN : N ≠ 0) (h : StRep N s e) : s.1 ≠ 0 := by
  intro h0
  have := h.1
  rw [h0, zero_pow hN] at this
  exact Units.ne_zero e.m this.symm

/-- Squaring and doubling. -/
theorem StRep.dbl (S : Setting σ a b N r p τ u v) (hs : ∀ x : F, ExtField.sqr x = x * x)
    (h2 : (2 : F) ≠ 0) (ha : a = 0) {x y : K} (ev : EvPt σ a b N p u v x y) {t : Aff P × Aff F}
    (L : LineLaw σ N line t.1 x y) {s : K × Proj F} {e : Ext (gamma S ev).toCocycle}
    (h : StRep N s e) (h0 : e.a + e.a ≠ 0) :
    StRep N (dblOne line t (s.1 * s.1, s.2)) (e * e) := by
  obtain ⟨hm, X, Y, hn, hT, hz, hx, hy⟩ := h
  have hT2 : (Point.some X Y hn : (short a b).Point) + .some X Y hn ≠ 0 := by rwa [← hT]
  obtain ⟨hj, k, hk⟩ := dblStep_rep hs h2 ha hn hz hx hy hT2
  refine ⟨?_, ?_⟩
  · rw [Ext.mul_m, Units.val_mul, Units.val_mul, gamma_val, hT,
      chord_base hn hn (fun hc => hT2 (Point.add_of_Y_eq hc.1 hc.2))]
    change (s.1 * s.1 * line (dblStep s.2).1 t.1) ^ N = _
    rw [mul_pow, mul_pow, line_pow S L hk, hm]
  · rw [Ext.mul_a, hT]
    exact hj

/-- Addition of a point. -/
theorem StRep.add (S : Setting σ a b N r p τ u v) (hs : ∀ x : F, ExtField.sqr x = x * x)
    (h2 : (2 : F) ≠ 0) {x y : K} (ev : EvPt σ a b N p u v x y) {t : Aff P × Aff F}
    (L : LineLaw σ N line t.1 x y) {s : K × Proj F} {e : Ext (gamma S ev).toCocycle}
    (h : StRep N s e) {g : Aff F → Aff F} {B : (short a b).Point} (hB : FRep a b (g t.2) B)
    (h0 : e.a ≠ B) (h1 : e.a ≠ -B) :
    StRep N (addOne line g t s) (e * Ext.s _ B) := by
  obtain ⟨hm, X, Y, hn, hT, hz, hx, hy⟩ := h
  obtain ⟨hq, hB⟩ := hB
  have hne : X ≠ (g t.2).x := by
    intro hc
    rw [hT, hB] at h0 h1
    rcases Point.X_eq_iff.mp hc with h3 | h3
    · exact h0 h3
    · exact h1 h3
  obtain ⟨hj, k, hk⟩ := addStep_rep (q := g t.2) hs h2 hn hq hz hx hy hne
  refine ⟨?_, ?_⟩
  · rw [Ext.mul_m, Units.val_mul, Units.val_mul, gamma_val]
    change (s.1 * line (addStep s.2 (g t.2)).1 t.1) ^ N =
      (e.m : K) * ((1 : Kˣ) : K) * chord x y (base σ a b e.a) (base σ a b B) ^ N
    rw [hT, hB, chord_base hn hq (fun hc => hne hc.1), mul_pow, line_pow S L hk, hm, Units.val_one,
      mul_one]
  · rw [Ext.mul_a]
    change JRep a b _ (e.a + B)
    rw [hT, hB]
    exact hj

omit [ExtField F] in
theorem FRep.neg [BaseField F] {q : Aff F} {B : (short a b).Point} (h : FRep a b q B)
    : FRep a b q.neg (-B) := by
  obtain ⟨hq, hB⟩ := h
  have e : (short a b).negY q.x q.y = -q.y := short_negY a b q.x q.y
  have hn := (nonsingular_neg q.x q.y).mpr hq
  rw [e] at hn
  exact ⟨hn, by rw [hB, Point.neg_some]; exact point_ext rfl e⟩

/-! ### The loop -/

/-- The value of a digit as the loop reads it. -/
def digit (d : ℤ) : ℤ := if d = 1 then 1 else if d = -1 then -1 else 0

/-- The multiple reached from `k` after reading the digits. -/
def chainVal : ℤ → List ℤ → ℤ
  | k, [] => k
  | k, d :: ds => chainVal (2 * k + digit d) ds

/-- No step of the loop meets equal or opposite points, or the point at infinity. -/
def chainOk (r : ℕ) : ℤ → List ℤ → Bool
  | _, [] => true
  | k, d :: ds =>
    (2 * k) % r != 0 && (digit d == 0 || ((2 * k - 1) % r != 0 && (2 * k + 1) % r != 0)) &&
      chainOk r (2 * k + digit d) ds

theorem smul_ne {A : Type} [AddCommGroup A] {Q : A} {r : ℕ} (hQ : addOrderOf Q = r) {k : ℤ}
    (hk : k % r ≠ 0) : k • Q ≠ 0 := by
  intro h
  rw [← addOrderOf_dvd_iff_zsmul_eq_zero, hQ] at h
  exact hk (Int.emod_eq_zero_of_dvd h)

variable [CommRing P] [BaseField P] [BaseField F]

/-- The loop computes a power of the state of the point. -/
theorem StRep.loop (S : Setting σ a b N r p τ u v) (hs : ∀ x : F, ExtField.sqr x = x * x)
    (h2 : (2 : F) ≠ 0) (ha : a = 0) {x y : K} (ev : EvPt σ a b N p u v x y) {t : Aff P × Aff F}
    (L : LineLaw σ N line t.1 x y) {Q : (short a b).Point} (hQ : FRep a b t.2 Q)
    (hord : addOrderOf Q = r) {D : Type} (dig : D → ℤ) (rd : K × Proj F → D × ℕ → K × Proj F)
    (hrd : ∀ s d i, rd s (d, i) = nafRoundOne line t s (dig d, i)) (ds : List D) :
    ∀ (n : ℕ) (k : ℤ) (s : K × Proj F), (n = 0 → s.1 = 1) →
      StRep N s (Ext.s (gamma S ev).toCocycle Q ^ k) → chainOk r k (ds.map dig) = true →
      StRep N ((ds.zipIdx n).foldl rd s)
        (Ext.s (gamma S ev).toCocycle Q ^ chainVal k (ds.map dig)) := by
  induction ds with
  | nil => intro n k s _ h _; exact h
  | cons d ds ih =>
    intro n k s hn h hok
    rw [List.map_cons, chainOk, Bool.and_eq_true, Bool.and_eq_true] at hok
    obtain ⟨⟨hok1, hok2⟩, hok3⟩ := hok
    rw [List.zipIdx_cons, List.foldl_cons, List.map_cons, chainVal]
    refine ih (n + 1) _ _ (fun hc => absurd hc (Nat.succ_ne_zero n)) ?_ hok3
    rw [hrd]
    have es : (if n ≠ 0 then (s.1 * s.1, s.2) else s) = (s.1 * s.1, s.2) := by
      split
      · rfl
      · rename_i hc
        have h1 := hn (not_not.mp hc)
        rw [h1, mul_one]
        exact Prod.ext h1 rfl
    have hka : ∀ j : ℤ, (Ext.s (gamma S ev).toCocycle Q ^ j).a = j • Q := fun j =>
      Ext.zpow_a _ j
    have hd : StRep N (dblOne line t (s.1 * s.1, s.2))
        (Ext.s (gamma S ev).toCocycle Q ^ (2 * k)) := by
      rw [two_mul, zpow_add]
      refine h.dbl S hs h2 ha ev L ?_
      rw [hka, ← add_smul, ← two_mul]
      exact smul_ne hord (bne_iff_ne.mp hok1)
    unfold nafRoundOne
    dsimp only
    rw [es]
    by_cases h1 : dig d = 1
    · have hdig : digit (dig d) = 1 := by rw [digit, if_pos h1]
      rw [if_pos h1, hdig, zpow_add, zpow_one]
      rw [hdig] at hok2
      have hok2' : ((2 * k - 1) % r != 0 && (2 * k + 1) % r != 0) = true := hok2
      rw [Bool.and_eq_true] at hok2'
      refine hd.add S hs h2 ev L hQ ?_ ?_
      · intro hc
        rw [hka] at hc
        refine smul_ne hord (bne_iff_ne.mp hok2'.1) ?_
        rw [sub_smul, one_smul, hc, sub_self]
      · intro hc
        rw [hka] at hc
        refine smul_ne hord (bne_iff_ne.mp hok2'.2) ?_
        rw [add_smul, one_smul, hc, neg_add_cancel]
    rw [if_neg h1]
    by_cases h3 : dig d = -1
    · have hdig : digit (dig d) = -1 := by rw [digit, if_neg h1, if_pos h3]
      rw [if_pos h3, hdig, zpow_add, zpow_neg, zpow_one, ← Ext.s_neg]
      rw [hdig] at hok2
      have hok2' : ((2 * k - 1) % r != 0 && (2 * k + 1) % r != 0) = true := hok2
      rw [Bool.and_eq_true] at hok2'
      refine hd.add S hs h2 ev L hQ.neg ?_ ?_
      · intro hc
        rw [hka] at hc
        refine smul_ne hord (bne_iff_ne.mp hok2'.2) ?_
        rw [add_smul, one_smul, hc, neg_add_cancel]
      · intro hc
        rw [hka, neg_neg] at hc
        refine smul_ne hord (bne_iff_ne.mp hok2'.1) ?_
        rw [sub_smul, one_smul, hc, sub_self]
    · have hdig : digit (dig d) = 0 := by rw [digit, if_neg h1, if_neg h3]
      rw [if_neg h3, hdig, add_zero]
      exact hd

/-- The state at the beginning of the loop. -/
theorem StRep.init (S : Setting σ a b N r p τ u v) {x y : K} (ev : EvPt σ a b N p u v x y)
    {q : Aff F} {Q : (short a b).Point} (hQ : FRep a b q Q) (hz : q.toCurve = ⟨q.x, q.y, 1⟩) :
    StRep N ((1 : K), q.toCurve) (Ext.s (gamma S ev).toCocycle Q ^ (1 : ℤ)) := by
  rw [zpow_one]
  refine ⟨one_pow N, ?_⟩
  obtain ⟨hq, hQ⟩ := hQ
  rw [hz]
  exact ⟨q.x, q.y, hq, hQ, one_ne_zero, by simp, by simp⟩

/-! ### The end of the loop -/

theorem Ext.m_of_mul_s {A M : Type} [AddCommGroup A] [CommGroup M] {γ : Cocycle A M} {X : Ext γ}
    {B : A} (h : (X * Ext.s γ B).a = 0) : (X * Ext.s γ B).m = X.m := by
  rw [Ext.mul_a] at h
  have hX : X.a = -B := eq_neg_of_add_eq_zero_left h
  rw [Ext.mul_m, hX, γ.symm]
  change X.m * 1 * γ.f B (-B) = X.m
  rw [γ.neg, mul_one, mul_one]

theorem Psi_s (S : Setting σ a b N r p τ u v) {x y : K} (ev : EvPt σ a b N p u v x y)
    (Q : (short a b).Point) :
    (gamma S ev).Psi (Ext.s _ Q) = Ext.s _ (S.ψ Q) := Ext.map_s _ _ _ Q

/-- The value of the loop with the two additional steps. -/
theorem nafOne_rep (S : Setting σ a b N r p τ u v) (hs : ∀ x : F, ExtField.sqr x = x * x)
    (h2 : (2 : F) ≠ 0) (ha : a = 0) {x y : K} (ev : EvPt σ a b N p u v x y) {t : Aff P × Aff F}
    (L : LineLaw σ N line t.1 x y) {Q : (short a b).Point} (hQ : FRep a b t.2 Q)
    (hz : t.2.toCurve = ⟨t.2.x, t.2.y, 1⟩) (hord : addOrderOf Q = r) {naf : List ℤ} {m : ℤ}
    (hok : chainOk r 1 (naf.reverse.drop 1) = true) (hm : chainVal 1 (naf.reverse.drop 1) = m)
    {g1 g2 : Aff F → Aff F} {ε : ℤ} (hε : ε = 1 ∨ ε = -1)
    (hg1 : FRep a b (g1 t.2) (ε • S.ψ Q)) (hg2 : FRep a b (g2 t.2) (-(ε • S.ψ (S.ψ Q))))
    {lam : ℤ} (hlam : S.ψ Q = lam • Q)
    (c1 : (m - lam) % r ≠ 0) (c2 : (m + lam) % r ≠ 0)
    (c3 : (m + ε * lam - lam * lam) % r ≠ 0) (c4 : (m + ε * lam + lam * lam) % r ≠ 0)
    (hA : thetaA S.ψ [m, ε, -ε, ε] Q = 0) :
    nafOne line naf g1 g2 t ^ N = ((gamma S ev).ate [m, ε, -ε, ε] Q : Kˣ) := by
  have hka : ∀ j : ℤ, (Ext.s (gamma S ev).toCocycle Q ^ j).a = j • Q := fun j => Ext.zpow_a _ j
  have hpp : S.ψ (S.ψ Q) = (lam * lam) • Q := by
    rw [hlam, map_zsmul, hlam, smul_smul]
  have h0 := StRep.loop S hs h2 ha ev L hQ hord id (nafRoundOne line t) (fun _ _ _ => rfl)
    (naf.reverse.drop 1) 0 1 _ (fun _ => rfl) (StRep.init S ev hQ hz) (by rw [List.map_id]; exact hok)
  rw [List.map_id, hm] at h0
  have h1 := h0.add S hs h2 ev L hg1
    (by
      rw [hka, hlam, smul_smul]
      intro hc
      rcases hε with rfl | rfl
      · refine smul_ne hord c1 ?_
        rw [sub_smul, hc, one_mul, sub_self]
      · refine smul_ne hord c2 ?_
        rw [add_smul, hc, ← add_smul]
        simp)
    (by
      rw [hka, hlam, smul_smul]
      intro hc
      rcases hε with rfl | rfl
      · refine smul_ne hord c2 ?_
        rw [add_smul, hc, one_mul, neg_add_cancel]
      · refine smul_ne hord c1 ?_
        rw [sub_smul, hc, ← neg_smul, ← sub_smul]
        simp)
  have ha1 : (Ext.s (gamma S ev).toCocycle Q ^ m * Ext.s _ (ε • S.ψ Q)).a = (m + ε * lam) • Q := by
    rw [Ext.mul_a, hka, add_smul]
    change m • Q + ε • S.ψ Q = _
    rw [hlam, smul_smul]
  have h3 := h1.add S hs h2 ev L hg2
    (by
      rw [ha1, hpp, smul_smul]
      intro hc
      rcases hε with rfl | rfl
      · refine smul_ne hord c4 ?_
        rw [add_smul _ (lam * lam), hc, one_mul, neg_add_cancel]
      · refine smul_ne hord c3 ?_
        rw [sub_smul, hc, ← neg_smul, ← sub_smul]
        simp)
    (by
      rw [ha1, hpp, smul_smul, neg_neg]
      intro hc
      rcases hε with rfl | rfl
      · refine smul_ne hord c3 ?_
        rw [sub_smul, hc, one_mul, sub_self]
      · refine smul_ne hord c4 ?_
        rw [add_smul _ (lam * lam), hc, ← add_smul]
        simp)
  have e : theta (gamma S ev).Psi [m, ε, -ε, ε] (Ext.s _ Q) =
      Ext.s (gamma S ev).toCocycle Q ^ m * Ext.s _ (ε • S.ψ Q) *
        Ext.s _ (-(ε • S.ψ (S.ψ Q))) * Ext.s _ (ε • S.ψ (S.ψ (S.ψ Q))) := by
    simp only [theta, Psi_s, mul_one]
    rcases hε with rfl | rfl
    · simp only [one_smul, zpow_one, zpow_neg, Ext.s_neg, mul_assoc]
    · simp only [neg_smul, one_smul, neg_neg, zpow_one, zpow_neg, Ext.s_neg, mul_assoc, inv_inv]
  have ea := theta_a (gamma S ev).Psi S.ψ (fun _ => rfl) [m, ε, -ε, ε] (Ext.s _ Q)
  have ea' : (theta (gamma S ev).Psi [m, ε, -ε, ε] (Ext.s _ Q)).a = 0 := ea.trans hA
  rw [e] at ea'
  have em := Ext.m_of_mul_s ea'
  rw [FrobCocycle.ate, e, em]
  exact h3.1

/-- The value of the loop of bls12-381. -/
theorem bitOne_rep (S : Setting σ a b N r p τ u v) (hs : ∀ x : F, ExtField.sqr x = x * x)
    (h2 : (2 : F) ≠ 0) (ha : a = 0) {x y : K} (ev : EvPt σ a b N p u v x y) {t : Aff P × Aff F}
    (L : LineLaw σ N line t.1 x y) {Q : (short a b).Point} (hQ : FRep a b t.2 Q)
    (hz : t.2.toCurve = ⟨t.2.x, t.2.y, 1⟩) (hord : addOrderOf Q = r) {bits : List ℕ} {m : ℤ}
    (hok : chainOk r 1 (((bits.map fun b => b == 1).drop 1).map fun b => if b then 1 else 0) = true)
    (hm : chainVal 1 (((bits.map fun b => b == 1).drop 1).map fun b => if b then 1 else 0) = m)
    (hA : thetaA S.ψ [m, 1] Q = 0) :
    bitOne line bits t ^ N = ((gamma S ev).ate [m, 1] Q : Kˣ) := by
  have h0 := StRep.loop S hs h2 ha ev L hQ hord (fun b : Bool => if b then (1 : ℤ) else 0)
    (bitRoundOne line t) (fun s d i => by
      unfold bitRoundOne nafRoundOne
      cases d
      · rfl
      · rfl) ((bits.map fun b => b == 1).drop 1) 0 1 _ (fun _ => rfl) (StRep.init S ev hQ hz) hok
  rw [hm] at h0
  have e : theta (gamma S ev).Psi [m, 1] (Ext.s _ Q) =
      Ext.s (gamma S ev).toCocycle Q ^ m * Ext.s _ (S.ψ Q) := by
    simp only [theta, Psi_s, mul_one, zpow_one]
  have ea := theta_a (gamma S ev).Psi S.ψ (fun _ => rfl) [m, 1] (Ext.s _ Q)
  have ea' : (theta (gamma S ev).Psi [m, 1] (Ext.s _ Q)).a = 0 := ea.trans hA
  rw [e] at ea'
  have em := Ext.m_of_mul_s ea'
  rw [FrobCocycle.ate, e, em]
  exact h0.1
end

end Halo2.Pairing
