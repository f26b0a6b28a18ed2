import Verif.Hash.MapLemmas
import Verif.Ext.ShRing

/-!
# The isogeny maps
-/

set_option linter.unusedSectionVars false

namespace Halo2.Hash

open Halo2.Curve Halo2.Ext

variable {F : Type} [Field F] [DecidableEq F] [BaseField F] [LawfulBase F]

theorem zpows_length (z : F) (n : ℕ) (c : F) : (zpows z n c).length = n := by
  induction n generalizing c with
  | zero => rfl
  | succ n ih => simp [zpows, ih]

/-- Horner's rule on the remaining coefficients. -/
theorem isoFold {z : F} (hz : z ≠ 0) (x : F) (r : List F) (n : ℕ) (c E : F) (hr : r.length ≤ n) (A : F) (hA : A * z = c * E) :
    (r.zip (zpows z n c)).foldl (fun acc e => acc * x + e.2 * e.1) A * z =
      c * z ^ r.length * r.foldl (fun E k => E * (x / z) + k) E := by
  induction r generalizing n c E A with
  | nil => simp [hA]
  | cons k r ih =>
    cases n with
    | zero => simp at hr
    | succ n =>
      simp only [zpows, List.zip_cons_cons, List.foldl_cons, List.length_cons]
      rw [ih n (c * z) (E * (x / z) + k) (by simpa using hr)]
      · rw [pow_succ]; ring
      · have : A = c * E / z := by field_simp; exact hA
        rw [this]
        field_simp

theorem isoPoly_eq {z : F} (hz : z ≠ 0) (x : F) (coeff : List F) (n : ℕ) (hn : coeff.length ≤ n + 1) (hc : coeff ≠ []) :
    isoPoly coeff (zpows z n z) x = z ^ (coeff.length - 1) * peval coeff (x / z) := by
  have hp : peval coeff (x / z) = coeff.reverse.foldl (fun E k => E * (x / z) + k) 0 := by
    rw [List.foldl_reverse]; rfl
  have hl : coeff.length = coeff.reverse.length := List.length_reverse.symm
  unfold isoPoly
  rw [hp, hl]
  rw [hl] at hn
  cases e : coeff.reverse with
  | nil => exact absurd (by simpa using e) hc
  | cons c r =>
    rw [e] at hn
    dsimp only
    have := isoFold hz x r n z c (by simpa using hn) c (mul_comm _ _)
    rw [List.foldl_cons, zero_mul, zero_add, List.length_cons, Nat.add_sub_cancel]
    apply mul_right_cancel₀ hz
    rw [this]
    ring

/-- The values of the four polynomials satisfy the identity that sends the curve `y² = x³ + a' x + b'` to the
curve `C`. -/
def IsoIdent (C : Params F) (a' b' : F) (T : IsoTable F) : Prop := ∀ t : F,
  peval T.ynum t ^ 2 * rhs a' b' t * peval T.xden t ^ 3 =
    (peval T.xnum t ^ 3 + C.a * peval T.xnum t * peval T.xden t ^ 2 + C.b * peval T.xden t ^ 3) * peval T.yden t ^ 2

/-- The shape of the image: a common factor times `(xn yd : s yn xd : xd yd)`. -/
def IsoOut (T : IsoTable F) (t s : F) (P : Proj F) : Prop := ∃ c, c ≠ 0 ∧
  P = ⟨c * (peval T.xnum t * peval T.yden t), c * (s * peval T.ynum t * peval T.xden t), c * (peval T.xden t * peval T.yden t)⟩

theorem isoMapWith_out (T : IsoTable F) (n : ℕ) (h0 : T.xnum.length = T.xden.length + 1) (h1 : T.ynum.length = T.yden.length)
    (hx : T.xden ≠ []) (hy : T.yden ≠ []) (hn1 : T.xnum.length ≤ n + 1) (hn2 : T.ynum.length ≤ n + 1)
    (x y : F) {z : F} (hz : z ≠ 0) : IsoOut T (x / z) (y / z) (isoMapWith T (zpows z n z) x y z) := by
  have l0 : T.xnum ≠ [] := by intro e; rw [e] at h0; simp at h0
  have l2 : T.ynum ≠ [] := by intro e; rw [e] at h1; exact hy (List.length_eq_zero_iff.mp h1.symm)
  unfold isoMapWith
  dsimp only
  rw [isoPoly_eq hz x T.xnum n hn1 l0, isoPoly_eq hz x T.xden n (by omega) hx, isoPoly_eq hz x T.ynum n hn2 l2,
    isoPoly_eq hz x T.yden n (by omega) hy, h0, h1]
  obtain ⟨i, hi⟩ : ∃ i, T.xden.length = i + 1 := ⟨T.xden.length - 1, by
    have := List.length_pos_iff.mpr hx; omega⟩
  rw [hi]
  generalize T.yden.length - 1 = j
  refine ⟨z ^ (i + 1) * z ^ (j + 1), mul_ne_zero (pow_ne_zero _ hz) (pow_ne_zero _ hz), ?_⟩
  simp only [Nat.add_sub_cancel]
  ext <;> simp only [pow_succ] <;> field_simp

/-- Away from the kernel the image is the point `(xn/xd, s yn/yd)` of `C`. -/
theorem iso_point {C : Params F} (hC : Good C) {a' b' : F} {T : IsoTable F} (hT : IsoIdent C a' b' T) {t s : F}
    (hs : s ^ 2 = rhs a' b' t) {P : Proj F} (hP : IsoOut T t s P) (hx : peval T.xden t ≠ 0) (hy : peval T.yden t ≠ 0) :
    ∃ h, PRep C P (.some (peval T.xnum t / peval T.xden t) (s * peval T.ynum t / peval T.yden t) h) := by
  obtain ⟨c, hc, rfl⟩ := hP
  have hid := hT t
  rw [← hs] at hid
  have he : (Curve.W C).Equation (peval T.xnum t / peval T.xden t) (s * peval T.ynum t / peval T.yden t) := by
    rw [equation_iff]
    field_simp
    linear_combination hid
  refine ⟨nonsingular_of hC he, ?_⟩
  rw [PRep.some_iff]
  refine ⟨mul_ne_zero hc (mul_ne_zero hx hy), ?_, ?_⟩
  · simp only; field_simp
  · simp only; field_simp

/-- On the kernel, where both denominators vanish, the image is the triple `(0, 0, 0)`. -/
theorem iso_kernel {T : IsoTable F} {t s : F} {P : Proj F} (hP : IsoOut T t s P) (hx : peval T.xden t = 0)
    (hy : peval T.yden t = 0) : P = ⟨0, 0, 0⟩ := by
  obtain ⟨c, hc, rfl⟩ := hP
  rw [hx, hy]
  simp

/-- The table of secp256k1 in the common form: the leading coefficients of the denominators are not
stored. -/
def k1Table (K : List (List F)) : IsoTable F where
  xnum := [kAt K 1 0, kAt K 1 1, kAt K 1 2, kAt K 1 3]
  xden := [kAt K 2 0, kAt K 2 1, 1]
  ynum := [kAt K 3 0, kAt K 3 1, kAt K 3 2, kAt K 3 3]
  yden := [kAt K 4 0, kAt K 4 1, kAt K 4 2, 1]

theorem isoMapK1_out (K : List (List F)) (x y : F) {z : F} (hz : z ≠ 0) :
    IsoOut (k1Table K) (x / z) (y / z) (isoMapK1 K x y z) := by
  refine ⟨z ^ 7, pow_ne_zero _ hz, ?_⟩
  unfold isoMapK1 k1Table
  simp only [LawfulBase.sqr_eq, peval_cons, peval_nil]
  ext <;> simp only <;> field_simp <;> ring

theorem isoMapG1_out (T : IsoTable F) (h0 : T.xnum.length = T.xden.length + 1) (h1 : T.ynum.length = T.yden.length)
    (hx : T.xden ≠ []) (hy : T.yden ≠ []) (hn1 : T.xnum.length ≤ 16) (hn2 : T.ynum.length ≤ 16)
    (x y : F) {z : F} (hz : z ≠ 0) : IsoOut T (x / z) (y / z) (isoMapG1 T x y z) :=
  isoMapWith_out T 15 h0 h1 hx hy hn1 hn2 x y hz

theorem isoMapG2_out (T : IsoTable F) (h0 : T.xnum.length = T.xden.length + 1) (h1 : T.ynum.length = T.yden.length)
    (hx : T.xden ≠ []) (hy : T.yden ≠ []) (hn1 : T.xnum.length ≤ 4) (hn2 : T.ynum.length ≤ 4)
    (x y : F) {z : F} (hz : z ≠ 0) : IsoOut T (x / z) (y / z) (isoMapG2 T x y z) := by
  have := isoMapWith_out T 3 h0 h1 hx hy hn1 hn2 x y hz
  unfold isoMapG2
  rw [LawfulBase.sqr_eq]
  exact this

/-- Checking the identity on shadows. -/
def isoCheck {R : Type} (S : Sh R F) (a b a' b' : R) (xn xd yn yd : List R) : Bool :=
  let g := [b', a', S.zero, S.one]
  let xd2 := S.pmul xd xd
  let xd3 := S.pmul xd2 xd
  let xn3 := S.pmul (S.pmul xn xn) xn
  S.peq (S.pmul (S.pmul (S.pmul yn yn) g) xd3)
    (S.pmul (S.padd (S.padd xn3 (S.pmul [a] (S.pmul xn xd2))) (S.pmul [b] xd3)) (S.pmul yd yd))

theorem isoIdent_of {R : Type} (S : Sh R F) {C : Params F} {a b a' b' : R} {xn xd yn yd : List R}
    (h : isoCheck S a b a' b' xn xd yn yd = true) (ha : C.a = S.φ a) (hb : C.b = S.φ b) :
    IsoIdent C (S.φ a') (S.φ b') ⟨xn.map S.φ, xd.map S.φ, yn.map S.φ, yd.map S.φ⟩ := by
  intro t
  have := S.peval_of_peq _ _ h t
  simp only [S.peval_pmul, S.peval_padd, List.map_cons, List.map_nil, peval_cons, peval_nil, S.φ_zero, S.φ_one] at this
  rw [ha, hb]
  unfold rhs
  dsimp only
  linear_combination this

end Halo2.Hash
