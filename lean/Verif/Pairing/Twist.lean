import Verif.Pairing.Steps
import Verif.Curve.Group

/-!
# The pairing as a map on points

The evaluation points of the lines come from the points of the curve over the prime field by the
twisting isomorphism.  The value of the pairing is additive in both arguments.
-/

set_option linter.unusedSectionVars false

open WeierstrassCurve WeierstrassCurve.Affine
open Halo2.Curve Halo2.Ext

namespace Halo2.Pairing

section
variable {L F K : Type} [Field L] [DecidableEq L] [Field F] [DecidableEq F] [Field K]
  [DecidableEq K]

/-- A point with first coordinate zero on `y² = x³ + b` has order three. -/
theorem three_smul_of_x {b : L} {y : L} (h : (short 0 b).Nonsingular 0 y) :
    (3 : ℕ) • (Point.some 0 y h : (short 0 b).Point) = 0 := by
  rw [show (3 : ℕ) = 1 + 1 + 1 from rfl, add_smul, add_smul, one_smul]
  by_cases hy : y = (short 0 b).negY 0 y
  · exfalso
    rw [short_negY] at hy
    rw [short_nonsingular_iff] at h
    obtain ⟨-, h⟩ := h
    rcases h with h | h
    · exact h (by ring)
    · exact h (by linear_combination hy)
  have hxy : ¬((0 : L) = 0 ∧ y = (short 0 b).negY 0 y) := fun hc => hy hc.2
  have hl : (short 0 b).slope 0 0 y y = 0 := by
    rw [slope_of_Y_ne rfl hy]
    simp [short]
  rw [Point.add_some hxy, ← eq_neg_iff_add_eq_zero, Point.neg_some]
  refine point_ext ?_ ?_
  · rw [hl, short_addX]; ring
  · rw [hl, short_addY, short_negY]; ring

/-- The twisting isomorphism and the facts about it the pairing needs. -/
structure Twist (ι : L →+* F) (σ : F →+* K) (a1 b1 : L) (a b : F) (N r p : ℕ) (u v : F)
    (w2 w3 : K) :
    Prop where
  a1z : a1 = 0
  sc : Scaling (σ.comp ι) w2 w3 a1 b1 (σ a) (σ b)
  fixL : ∀ x : L, x ^ p = x
  fx : σ u * w2 ^ p = w2
  fy : σ v * w3 ^ p = w3
  vert : ∀ (x : L) (t : F), x ≠ 0 → (w2 * σ (ι x) - σ t) ^ N = 1
  r3 : ¬ r ∣ 3
  rp : r.Prime

variable {ι : L →+* F} {σ : F →+* K} {a1 b1 : L} {a b : F} {N r p : ℕ} {τ : F →+* F} {u v : F}
  {w2 w3 : K}

/-- The points of the curve at which the lines through points of the twist do not vanish: those with `x ≠ 0`, and all if no point of the
twist has first coordinate zero. -/
def FineX (a b : F) (x : L) : Prop := x ≠ 0 ∨ ∀ s, ¬ (short a b).Nonsingular 0 s

/-- The same for points. -/
def Fine (a b : F) (P : (short a1 b1).Point) : Prop := ∀ x y h, P = .some x y h → FineX a b x

theorem Twist.ev (S : Setting σ a b N r p τ u v) (T : Twist ι σ a1 b1 a b N r p u v w2 w3) {x y : L}
    (h : (short a1 b1).Nonsingular x y) (hx : FineX a b x) :
    EvPt σ a b N p u v (w2 * σ (ι x)) (w3 * σ (ι y)) where
  eqn := (T.sc.nonsingular h).1
  vert t s ht := by
    by_cases h0 : x = 0
    · have ht0 : t ≠ 0 := by
        rintro rfl
        rcases hx with hx | hx
        · exact hx h0
        · exact hx s ht
      rw [h0, map_zero, map_zero, mul_zero, zero_sub, ← map_neg]
      exact S.kill _ (neg_ne_zero.mpr ht0)
    · exact T.vert x t h0
  fx := by rw [mul_pow, ← map_pow, ← map_pow, T.fixL, ← mul_assoc, T.fx]
  fy := by rw [mul_pow, ← map_pow, ← map_pow, T.fixL, ← mul_assoc, T.fy]

/-- The value at a point of the curve over the prime field. -/
noncomputable def ateAt (S : Setting σ a b N r p τ u v) (T : Twist ι σ a1 b1 a b N r p u v w2 w3)
    (cs : List ℤ) : (short a1 b1).Point → (short a b).Point → Kˣ
  | .zero, _ => 1
  | .some x _ h, Q => open Classical in if hx : FineX a b x then (gamma S (T.ev S h hx)).ate cs Q else 1

theorem ateAt_zero (S : Setting σ a b N r p τ u v) (T : Twist ι σ a1 b1 a b N r p u v w2 w3)
    (cs : List ℤ) (Q : (short a b).Point) : ateAt S T cs 0 Q = 1 := rfl

theorem ateAt_some (S : Setting σ a b N r p τ u v) (T : Twist ι σ a1 b1 a b N r p u v w2 w3)
    (cs : List ℤ) {x y : L} (h : (short a1 b1).Nonsingular x y) (hx : FineX a b x)
    (Q : (short a b).Point) :
    ateAt S T cs (.some x y h) Q = (gamma S (T.ev S h hx)).ate cs Q := by
  rw [ateAt, dif_pos hx]

theorem Twist.x_ne (T : Twist ι σ a1 b1 a b N r p u v w2 w3) {x y : L}
    (h : (short a1 b1).Nonsingular x y) (hr : r • (Point.some x y h : (short a1 b1).Point) = 0) :
    x ≠ 0 := by
  have ha := T.a1z
  subst ha
  rintro rfl
  have h3 := three_smul_of_x h
  have h1 := addOrderOf_dvd_of_nsmul_eq_zero h3
  have h2 := addOrderOf_dvd_of_nsmul_eq_zero hr
  rcases (Nat.dvd_prime T.rp).mp h2 with h4 | h4
  · exact Point.some_ne_zero h (AddMonoid.addOrderOf_eq_one_iff.mp h4)
  · rw [h4] at h1
    exact T.r3 h1

theorem Twist.fine (T : Twist ι σ a1 b1 a b N r p u v w2 w3) {P : (short a1 b1).Point} (hr : r • P = 0) : Fine a b P :=
  fun x y h e => Or.inl (T.x_ne h (by rw [← e]; exact hr))

variable (S : Setting σ a b N r p τ u v) (T : Twist ι σ a1 b1 a b N r p u v w2 w3)

/-- **Additivity in the second argument.** -/
theorem ateAt_add_right {cs : List ℤ} (hr : (r : ℤ) ∣ horner p cs) (P : (short a1 b1).Point)
    {A B : (short a b).Point} (hA : thetaA S.ψ cs A = 0) (hB : thetaA S.ψ cs B = 0) :
    ateAt S T cs P (A + B) = ateAt S T cs P A * ateAt S T cs P B := by
  match P with
  | .zero => exact (mul_one 1).symm
  | .some x y h =>
    by_cases hx : FineX a b x
    · rw [ateAt_some S T cs h hx, ateAt_some S T cs h hx, ateAt_some S T cs h hx]
      exact gamma_add S _ hr hA hB
    · simp only [ateAt, dif_neg hx, mul_one]

theorem thetaA_zero (ψ : (short a b).Point →+ (short a b).Point) (cs : List ℤ) :
    thetaA ψ cs (0 : (short a b).Point) = 0 := by
  induction cs with
  | nil => rfl
  | cons c cs ih => rw [thetaA, map_zero, ih, smul_zero, add_zero]

theorem ateAt_zero_right {cs : List ℤ} (hr : (r : ℤ) ∣ horner p cs) (P : (short a1 b1).Point) :
    ateAt S T cs P 0 = 1 := by
  have h := ateAt_add_right S T hr P (thetaA_zero S.ψ cs) (thetaA_zero S.ψ cs)
  rw [add_zero] at h
  exact mul_eq_left.mp h.symm

/-- **Additivity in the first argument.** -/
theorem ateAt_add_left' {cs : List ℤ} (hr : (r : ℤ) ∣ horner p cs) (P Q : (short a1 b1).Point)
    (hP : Fine a b P) (hQ : Fine a b Q) (hPQ : Fine a b (P + Q)) {A : (short a b).Point} (hA : thetaA S.ψ cs A = 0) :
    ateAt S T cs (P + Q) A = ateAt S T cs P A * ateAt S T cs Q A := by
  by_cases hP0 : P = 0
  · rw [hP0, zero_add, ateAt_zero, one_mul]
  by_cases hQ0 : Q = 0
  · rw [hQ0, add_zero, ateAt_zero, mul_one]
  obtain ⟨xP, yP, nP, rfl⟩ : ∃ x y h, P = .some x y h := by
    match P, hP0 with
    | .zero, h => exact absurd rfl h
    | .some x y h, _ => exact ⟨x, y, h, rfl⟩
  obtain ⟨xQ, yQ, nQ, rfl⟩ : ∃ x y h, Q = .some x y h := by
    match Q, hQ0 with
    | .zero, h => exact absurd rfl h
    | .some x y h, _ => exact ⟨x, y, h, rfl⟩
  have hxP := hP _ _ nP rfl
  have hxQ := hQ _ _ nQ rfl
  rw [ateAt_some S T cs nP hxP, ateAt_some S T cs nQ hxQ]
  by_cases h0 : (Point.some xP yP nP : (short a1 b1).Point) + .some xQ yQ nQ = 0
  · rw [h0, ateAt_zero]
    have hn := eq_neg_of_add_eq_zero_right h0
    rw [Point.neg_some] at hn
    obtain ⟨e1, e2⟩ := (Point.some.injEq ..).mp hn
    rw [short_negY] at e2
    have e2' : w3 * σ (ι yQ) = -(w3 * σ (ι yP)) := by rw [e2, map_neg, map_neg, mul_neg]
    have e1' : w2 * σ (ι xQ) = w2 * σ (ι xP) := by rw [e1]
    have key : ∀ (X Y : K) (e : EvPt σ a b N p u v X Y), X = w2 * σ (ι xP) →
        Y = -(w3 * σ (ι yP)) →
        1 = (gamma S (T.ev S nP hxP)).ate cs A * (gamma S e).ate cs A := by
      intro X Y e hX hY
      subst hX
      subst hY
      exact gamma_neg S (T.ev S nP hxP) e hA
    exact key _ _ (T.ev S nQ hxQ) e1' e2'
  · obtain ⟨xR, yR, nR, hR⟩ : ∃ x y h, (Point.some xP yP nP : (short a1 b1).Point) + .some xQ yQ nQ =
        .some x y h := by
      generalize (Point.some xP yP nP : (short a1 b1).Point) + .some xQ yQ nQ = R at h0
      match R, h0 with
      | .zero, h => exact absurd rfl h
      | .some x y h, _ => exact ⟨x, y, h, rfl⟩
    rw [hR] at hPQ ⊢
    have hxR := hPQ _ _ nR rfl
    rw [ateAt_some S T cs nR hxR]
    have hadd := congrArg T.sc.hom hR
    rw [map_add] at hadd
    exact gamma_mul S (P := (_, _)) (Q := (_, _)) (R := (_, _)) (T.ev S nP hxP) (T.ev S nQ hxQ)
      (T.ev S nR hxR) (hP := T.sc.nonsingular nP) (hQ := T.sc.nonsingular nQ)
      (hR := T.sc.nonsingular nR) hadd hr hA

theorem ateAt_add_left {cs : List ℤ} (hr : (r : ℤ) ∣ horner p cs) (P Q : (short a1 b1).Point)
    (hP : r • P = 0) (hQ : r • Q = 0) {A : (short a b).Point} (hA : thetaA S.ψ cs A = 0) :
    ateAt S T cs (P + Q) A = ateAt S T cs P A * ateAt S T cs Q A :=
  ateAt_add_left' S T hr P Q (T.fine hP) (T.fine hQ) (T.fine (by rw [smul_add, hP, hQ, add_zero])) hA

theorem ateAt_nsmul_left {cs : List ℤ} (hr : (r : ℤ) ∣ horner p cs) (P : (short a1 b1).Point)
    (hP : r • P = 0) {A : (short a b).Point} (hA : thetaA S.ψ cs A = 0) (n : ℕ) :
    ateAt S T cs (n • P) A = ateAt S T cs P A ^ n := by
  induction n with
  | zero => rw [zero_smul, pow_zero, ateAt_zero]
  | succ n ih =>
    rw [add_smul, one_smul, ateAt_add_left S T hr _ _ _ hP hA, ih, pow_succ]
    rw [smul_comm, hP, smul_zero]

theorem thetaA_add (ψ : (short a b).Point →+ (short a b).Point) (cs : List ℤ)
    (A B : (short a b).Point) : thetaA ψ cs (A + B) = thetaA ψ cs A + thetaA ψ cs B := by
  induction cs generalizing A B with
  | nil => exact (add_zero 0).symm
  | cons c cs ih =>
    rw [thetaA, thetaA, thetaA, map_add, ih, smul_add]
    abel

theorem ateAt_nsmul_right {cs : List ℤ} (hr : (r : ℤ) ∣ horner p cs) (P : (short a1 b1).Point)
    {A : (short a b).Point} (hA : thetaA S.ψ cs A = 0) (n : ℕ) :
    ateAt S T cs P (n • A) = ateAt S T cs P A ^ n := by
  have h : ∀ n : ℕ, thetaA S.ψ cs (n • A) = 0 ∧ ateAt S T cs P (n • A) = ateAt S T cs P A ^ n := by
    intro n
    induction n with
    | zero => rw [zero_smul, pow_zero]; exact ⟨thetaA_zero _ _, ateAt_zero_right S T hr P⟩
    | succ n ih =>
      rw [add_smul, one_smul, thetaA_add, ih.1, hA, ateAt_add_right S T hr P ih.1 hA, ih.2, pow_succ]
      exact ⟨add_zero 0, rfl⟩
  exact (h n).2

/-- Vertical lines are killed. -/
theorem vert_of (w2 : K) {m : ℕ} (frob : ∃ fr : K →+* K, ∀ z, fr z = z ^ p) (hm : (p ^ m - 1) ∣ N)
    (hp : 1 < p) (hw : w2 ^ p ^ m = w2) (ht : ∀ t : F, σ t ^ p ^ m = σ t)
    (hout : ∀ t : F, w2 ≠ σ t) (c : F) (t : F) (hc : c ≠ 0) : (w2 * σ c - σ t) ^ N = 1 := by
  obtain ⟨fr, hfr⟩ := frob
  have hi : ∀ i, ∃ g : K →+* K, ∀ z, g z = z ^ p ^ i := by
    intro i
    induction i with
    | zero => exact ⟨RingHom.id K, fun z => by rw [pow_zero, pow_one]; rfl⟩
    | succ i ih =>
      obtain ⟨g, hg⟩ := ih
      exact ⟨fr.comp g, fun z => by rw [RingHom.comp_apply, hg, hfr, ← pow_mul, ← pow_succ]⟩
  obtain ⟨g, hg⟩ := hi m
  have hc0 : σ c ≠ 0 := (map_ne_zero σ).mpr hc
  have h0 : w2 * σ c - σ t ≠ 0 := by
    intro h
    refine hout (t / c) ?_
    rw [map_div₀, eq_div_iff hc0]
    exact sub_eq_zero.mp h
  have h1 : (w2 * σ c - σ t) ^ p ^ m = w2 * σ c - σ t := by
    rw [← hg, map_sub, map_mul, hg, hg, hg, hw, ht, ht]
  have h2 : (w2 * σ c - σ t) ^ (p ^ m - 1) = 1 := by
    have e : p ^ m = (p ^ m - 1) + 1 := by
      have := Nat.pow_pos (n := m) (show 0 < p by omega)
      omega
    rw [e, pow_succ] at h1
    exact mul_right_cancel₀ h0 (h1.trans (one_mul _).symm)
  obtain ⟨k, hk⟩ := hm
  rw [hk, pow_mul, h2, one_pow]

/-- The twist of the curves of which the second has the smaller constant. -/
theorem twistD {w : K} {f ξ : F} (hw0 : w ≠ 0) (hw : w ^ p = σ f * w) (hu : u = f * f)
    (hv : v = f * f * f) (h6 : w ^ 6 = σ ξ) (ha1 : a1 = 0) (ha : a = 0) (hb : b * ξ = ι b1)
    (fixL : ∀ x : L, x ^ p = x) (frob : ∃ fr : K →+* K, ∀ z, fr z = z ^ p) (h6N : (p ^ 6 - 1) ∣ N)
    (hp : 1 < p) (hw2 : (w ^ 2) ^ p ^ 6 = w ^ 2) (ht : ∀ t : F, σ t ^ p ^ 6 = σ t)
    (hout : ∀ t : F, w ^ 2 ≠ σ t) (r3 : ¬ r ∣ 3) (rp : r.Prime) :
    Twist ι σ a1 b1 a b N r p u v (w ^ 2)⁻¹ (w ^ 3)⁻¹ where
  a1z := ha1
  sc := {
    u0 := inv_ne_zero (pow_ne_zero _ hw0)
    v0 := inv_ne_zero (pow_ne_zero _ hw0)
    uv := by field_simp
    ha := by rw [ha, ha1, map_zero, map_zero, mul_zero]
    hb := by
      rw [RingHom.comp_apply, ← hb, map_mul, ← h6]
      field_simp }
  fixL := fixL
  fx := by
    have h1 : σ f * w ≠ 0 := by rw [← hw]; exact pow_ne_zero _ hw0
    have h2 : σ f ≠ 0 := left_ne_zero_of_mul h1
    rw [inv_pow, ← pow_mul, mul_comm 2 p, pow_mul, hw, hu, map_mul]
    field_simp
  fy := by
    have h1 : σ f * w ≠ 0 := by rw [← hw]; exact pow_ne_zero _ hw0
    have h2 : σ f ≠ 0 := left_ne_zero_of_mul h1
    rw [inv_pow, ← pow_mul, mul_comm 3 p, pow_mul, hw, hv, map_mul, map_mul]
    field_simp
  vert x t hx := by
    refine vert_of _ frob h6N hp ?_ ht ?_ (ι x) t ((map_ne_zero ι).mpr hx)
    · rw [inv_pow, hw2]
    · intro s hs
      refine hout s⁻¹ ?_
      rw [map_inv₀, ← hs, inv_inv]
  r3 := r3
  rp := rp

/-- The twist of the curves of which the second has the bigger constant. -/
theorem twistM {w : K} {f ξ : F} (hw0 : w ≠ 0) (hw : w ^ p = σ f * w) (hu : u * (f * f) = 1)
    (hv : v * (f * f * f) = 1) (h6 : w ^ 6 = σ ξ) (ha1 : a1 = 0) (ha : a = 0) (hb : b = ι b1 * ξ)
    (fixL : ∀ x : L, x ^ p = x) (frob : ∃ fr : K →+* K, ∀ z, fr z = z ^ p) (h6N : (p ^ 6 - 1) ∣ N)
    (hp : 1 < p) (hw2 : (w ^ 2) ^ p ^ 6 = w ^ 2) (ht : ∀ t : F, σ t ^ p ^ 6 = σ t)
    (hout : ∀ t : F, w ^ 2 ≠ σ t) (r3 : ¬ r ∣ 3) (rp : r.Prime) :
    Twist ι σ a1 b1 a b N r p u v (w ^ 2) (w ^ 3) where
  a1z := ha1
  sc := {
    u0 := pow_ne_zero _ hw0
    v0 := pow_ne_zero _ hw0
    uv := by ring
    ha := by rw [ha, ha1, map_zero, map_zero, mul_zero]
    hb := by
      rw [RingHom.comp_apply, hb, map_mul, ← h6]
      ring }
  fixL := fixL
  fx := by
    rw [← pow_mul, mul_comm 2 p, pow_mul, hw]
    have e := congrArg σ hu
    rw [map_mul, map_mul, map_one] at e
    linear_combination w ^ 2 * e
  fy := by
    rw [← pow_mul, mul_comm 3 p, pow_mul, hw]
    have e := congrArg σ hv
    rw [map_mul, map_mul, map_mul, map_one] at e
    linear_combination w ^ 3 * e
  vert x t hx := vert_of _ frob h6N hp hw2 ht hout (ι x) t ((map_ne_zero ι).mpr hx)
  r3 := r3
  rp := rp

theorem thetaA_eigen {ψ : (short a b).Point →+ (short a b).Point} {Q : (short a b).Point} {lam : ℤ}
    (h : ψ Q = lam • Q) (cs : List ℤ) : thetaA ψ cs Q = horner lam cs • Q := by
  have key : ∀ (cs : List ℤ) (k : ℤ), thetaA ψ cs (k • Q) = (k * horner lam cs) • Q := by
    intro cs
    induction cs with
    | nil => intro k; rw [horner, mul_zero, zero_smul]; rfl
    | cons c cs ih =>
      intro k
      rw [thetaA, map_zsmul, h, smul_smul, smul_smul, ih, horner, ← add_smul]
      congr 1
      ring
  have := key cs 1
  rwa [one_smul, one_mul] at this

theorem thetaA_of_dvd {ψ : (short a b).Point →+ (short a b).Point} {Q : (short a b).Point} {lam : ℤ}
    (h : ψ Q = lam • Q) {cs : List ℤ} (hd : (r : ℤ) ∣ horner lam cs) (hQ : r • Q = 0) :
    thetaA ψ cs Q = 0 := by
  rw [thetaA_eigen h]
  obtain ⟨k, hk⟩ := hd
  rw [hk, mul_comm, mul_smul, natCast_zsmul, hQ, smul_zero]
end

section
variable {L F K : Type} [Field L] [DecidableEq L] [BaseField L] [LawfulBase L] [Field F]
  [DecidableEq F] [BaseField F] [LawfulBase F] [ExtField F] [Field K] [DecidableEq K]
variable {C1 : Params L} {C2 : Params F}
variable {ι : L →+* F} {σ : F →+* K} {N r p : ℕ} {τ : F →+* F} {u v : F} {w2 w3 : K}
  {line : Coeffs F → Aff L → K}

omit [ExtField F] in
theorem FRep.of_rep {C : Params F} {q : Aff F} {Q : Pt C} (h : ARep C q Q) (h0 : Q ≠ 0) :
    FRep C.a C.b q Q := by
  match Q, h, h0 with
  | .zero, _, h0 => exact absurd rfl h0
  | .some x y hn, h, _ =>
    obtain ⟨rfl, rfl⟩ := h
    exact ⟨hn, rfl⟩

theorem isLive_iff (h1 : Good C1) (h2 : Good C2) {p : Aff L} {q : Aff F} {P : Pt C1} {Q : Pt C2}
    (hp : ARep C1 p P) (hq : ARep C2 q Q) : isLive (p, q) = true ↔ P ≠ 0 ∧ Q ≠ 0 := by
  rw [isLive, Bool.not_eq_true', Bool.or_eq_false_iff, ← Bool.not_eq_true, ← Bool.not_eq_true]
  dsimp only
  rw [hp.isIdentity h1, hq.isIdentity h2]

/-- The value of the loop for a pair, in terms of points. -/
theorem one_value' (h1 : Good C1) (h2 : Good C2) (S : Setting σ C2.a C2.b N r p τ u v)
    (T : Twist ι σ C1.a C1.b C2.a C2.b N r p u v w2 w3) {cs : List ℤ}
    (hr : (r : ℤ) ∣ horner p cs) {one : Aff L × Aff F → K} {t : Aff L × Aff F} {P : Pt C1}
    {Q : Pt C2} (hp : ARep C1 t.1 P) (hq : ARep C2 t.2 Q) (hP : Fine C2.a C2.b P) (hQ : r • Q = 0)
    (hone : ∀ ev : EvPt σ C2.a C2.b N p u v (w2 * σ (ι t.1.x)) (w3 * σ (ι t.1.y)),
      addOrderOf Q = r → t.2.toCurve = ⟨t.2.x, t.2.y, 1⟩ → FRep C2.a C2.b t.2 Q →
      one t ^ N = ((gamma S ev).ate cs Q : Kˣ)) :
    (if isLive t then one t else 1) ^ N = (ateAt S T cs P Q : Kˣ) := by
  have hl : isLive t = true ↔ P ≠ 0 ∧ Q ≠ 0 := isLive_iff h1 h2 hp hq
  by_cases hP0 : P = 0
  · rw [if_neg (by rw [hl]; exact fun h => h.1 hP0), one_pow, hP0]
    exact (congrArg Units.val (ateAt_zero S T cs Q)).symm
  by_cases hQ0 : Q = 0
  · rw [if_neg (by rw [hl]; exact fun h => h.2 hQ0), one_pow, hQ0]
    exact (congrArg Units.val (ateAt_zero_right S T hr P)).symm
  rw [if_pos (hl.mpr ⟨hP0, hQ0⟩)]
  obtain ⟨hn, hPe⟩ := FRep.of_rep hp hP0
  have hx := hP _ _ hn hPe
  have ho : addOrderOf Q = r := by
    rcases (Nat.dvd_prime T.rp).mp (addOrderOf_dvd_of_nsmul_eq_zero hQ) with h | h
    · exact absurd (AddMonoid.addOrderOf_eq_one_iff.mp h) hQ0
    · exact h
  have hz : t.2.toCurve = ⟨t.2.x, t.2.y, 1⟩ := by
    rw [Aff.toCurve, if_neg]
    rw [hq.isIdentity h2]
    exact hQ0
  rw [hone (T.ev S hn hx) ho hz (FRep.of_rep hq hQ0), hPe]
  exact congrArg Units.val (ateAt_some S T cs hn hx Q).symm

theorem one_value (h1 : Good C1) (h2 : Good C2) (S : Setting σ C2.a C2.b N r p τ u v)
    (T : Twist ι σ C1.a C1.b C2.a C2.b N r p u v w2 w3) {cs : List ℤ}
    (hr : (r : ℤ) ∣ horner p cs) {one : Aff L × Aff F → K} {t : Aff L × Aff F} {P : Pt C1}
    {Q : Pt C2} (hp : ARep C1 t.1 P) (hq : ARep C2 t.2 Q) (hP : r • P = 0) (hQ : r • Q = 0)
    (hone : ∀ ev : EvPt σ C2.a C2.b N p u v (w2 * σ (ι t.1.x)) (w3 * σ (ι t.1.y)),
      addOrderOf Q = r → t.2.toCurve = ⟨t.2.x, t.2.y, 1⟩ → FRep C2.a C2.b t.2 Q →
      one t ^ N = ((gamma S ev).ate cs Q : Kˣ)) :
    (if isLive t then one t else 1) ^ N = (ateAt S T cs P Q : Kˣ) :=
  one_value' h1 h2 S T hr hp hq (T.fine hP) hQ hone

end

end Halo2.Pairing
