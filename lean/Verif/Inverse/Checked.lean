import Verif.Inverse.FieldInv

/-!
# The inverter and the limb primitives in a build with overflow checks

In a build with overflow checks (the default `dev` profile) `+`, `-`, `*` and unary `-` panic when
the mathematical result leaves the type, and `<<`, `>>` panic when the shift amount is not below the
width of the type. Casts with `as` and the `wrapping_*` methods behave as in a release build. The
functions below repeat the models of `Verif/Limb/Model.lean` and `Verif/Inverse/Model.lean` with
these checks, and with the bounds check of every slice access; `none` is a panic.
-/

namespace Halo2.Checked

/-- An unsigned `+` or `*` of width `w` with overflow check. -/
def fitsU (w x : ℕ) : Option ℕ := if x < 2 ^ w then some x else none
/-- A signed `+`, `-`, `*` or unary `-` of width `w` with overflow check. -/
def fitsI (w : ℕ) (x : ℤ) : Option ℤ :=
  if -2 ^ (w - 1) ≤ x ∧ x < 2 ^ (w - 1) then some x else none
/-- An unsigned `-` with overflow check. -/
def subU (x y : ℕ) : Option ℕ := if y ≤ x then some (x - y) else none
/-- The check of the amount `n` of a shift of a value of width `w`. -/
def shiftOk (w n : ℕ) : Option Unit := if n < w then some () else none
/-- A `debug_assert!`. -/
def debugAssert (b : Bool) : Option Unit := if b then some () else none

theorem fitsU_some {w x : ℕ} (h : x < 2 ^ w) : fitsU w x = some x := if_pos h
theorem subU_some {x y : ℕ} (h : y ≤ x) : subU x y = some (x - y) := if_pos h
theorem shiftOk_some {w n : ℕ} (h : n < w) : shiftOk w n = some () := if_pos h
theorem debugAssert_some {b : Bool} (h : b = true) : debugAssert b = some () := if_pos h
theorem fitsI64_some {x : ℤ} (h1 : -2 ^ 63 ≤ x) (h2 : x < 2 ^ 63) : fitsI 64 x = some x :=
  if_pos ⟨h1, h2⟩
theorem fitsI128_some {x : ℤ} (h1 : -2 ^ 127 ≤ x) (h2 : x < 2 ^ 127) : fitsI 128 x = some x :=
  if_pos ⟨h1, h2⟩

/-! ## The limb primitives -/

/-- `adc`. Models src/arithmetic.rs:22-25. -/
def adc (a b carry : ℕ) : Option (ℕ × ℕ) := do
  let s ← fitsU 128 (a + b)
  let ret ← fitsU 128 (s + carry)
  some (ret % 2 ^ 64, ret / 2 ^ 64 % 2 ^ 64)

/-- `sbb`. Models src/arithmetic.rs:29-32. -/
def sbb (a b borrow : ℕ) : Option (ℕ × ℕ) := do
  let s ← fitsU 128 (b + borrow / 2 ^ 63)
  some ((a + 2 ^ 128 - s) % 2 ^ 128 % 2 ^ 64, (a + 2 ^ 128 - s) % 2 ^ 128 / 2 ^ 64 % 2 ^ 64)

/-- `mac`. Models src/arithmetic.rs:36-39. -/
def mac (a b c carry : ℕ) : Option (ℕ × ℕ) := do
  let m ← fitsU 128 (b * c)
  let s ← fitsU 128 (a + m)
  let ret ← fitsU 128 (s + carry)
  some (ret % 2 ^ 64, ret / 2 ^ 64 % 2 ^ 64)

/-- `macx`. Models src/arithmetic.rs:43-46. -/
def macx (a b c : ℕ) : Option (ℕ × ℕ) := do
  let m ← fitsU 128 (b * c)
  let res ← fitsU 128 (a + m)
  some (res % 2 ^ 64, res / 2 ^ 64 % 2 ^ 64)

theorem adc_ok {a b c : ℕ} (ha : a < 2 ^ 64) (hb : b < 2 ^ 64) (hc : c < 2 ^ 64) :
    adc a b c = some (Halo2.adc a b c) := by
  unfold adc
  rw [fitsU_some (by omega)]
  simp only [Option.bind_eq_bind, Option.bind_some]
  rw [fitsU_some (by omega)]
  unfold Halo2.adc
  simp only [Option.bind_some, W, W2]
  rw [Nat.mod_eq_of_lt (a := a + b + c) (b := 2 ^ 128) (by omega)]

theorem sbb_ok {a b c : ℕ} (hb : b < 2 ^ 64) (hc : c < 2 ^ 64) :
    sbb a b c = some (Halo2.sbb a b c) := by
  unfold sbb
  have h : b + c / 2 ^ 63 < 2 ^ 128 := by omega
  rw [fitsU_some h]
  unfold Halo2.sbb
  simp only [Option.bind_eq_bind, Option.bind_some, W, W2]
  rw [Nat.mod_eq_of_lt h]

theorem mul_lt {b c : ℕ} (hb : b < 2 ^ 64) (hc : c < 2 ^ 64) :
    b * c ≤ (2 ^ 64 - 1) * (2 ^ 64 - 1) := Nat.mul_le_mul (by omega) (by omega)

theorem mac_ok {a b c d : ℕ} (ha : a < 2 ^ 64) (hb : b < 2 ^ 64) (hc : c < 2 ^ 64)
    (hd : d < 2 ^ 64) : mac a b c d = some (Halo2.mac a b c d) := by
  have hm := mul_lt hb hc
  unfold mac Halo2.mac
  generalize b * c = m at *
  rw [fitsU_some (by omega)]
  simp only [Option.bind_eq_bind, Option.bind_some]
  rw [fitsU_some (by omega)]
  simp only [Option.bind_some]
  rw [fitsU_some (by omega)]
  simp only [Option.bind_some, W, W2]
  rw [Nat.mod_eq_of_lt (a := a + m + d) (b := 2 ^ 128) (by omega)]

theorem macx_ok {a b c : ℕ} (ha : a < 2 ^ 64) (hb : b < 2 ^ 64) (hc : c < 2 ^ 64) :
    macx a b c = some (Halo2.macx a b c) := by
  have hm := mul_lt hb hc
  unfold macx Halo2.macx
  generalize b * c = m at *
  rw [fitsU_some (by omega)]
  simp only [Option.bind_eq_bind, Option.bind_some]
  rw [fitsU_some (by omega)]
  simp only [Option.bind_some, W, W2]
  rw [Nat.mod_eq_of_lt (a := a + m) (b := 2 ^ 128) (by omega)]

end Halo2.Checked

namespace Halo2.Inverse

open Halo2.Checked

/-! ## `CInt` -/

/-- The loop of `Add`. Models src/ff_ext/inverse.rs:58-66. -/
def addLoopC : List ℕ → List ℕ → ℕ → Option (List ℕ)
  | x :: xs, y :: ys, carry => do
    let s ← fitsU 64 (x + y)
    let sum ← fitsU 64 (s + carry)
    let r ← addLoopC xs ys (sum / 2 ^ 62)
    some (sum % 2 ^ 62 :: r)
  | _, _, _ => some []

/-- Models src/ff_ext/inverse.rs:58-66. -/
def cAddC (x y : List ℕ) : Option (List ℕ) := addLoopC x y 0

/-- The loop of `Neg`. Models src/ff_ext/inverse.rs:119-129. -/
def negLoopC : List ℕ → ℕ → Option (List ℕ)
  | x :: xs, carry => do
    let sum ← fitsU 64 ((x ^^^ MASK) + carry)
    let r ← negLoopC xs (sum / 2 ^ 62)
    some (sum % 2 ^ 62 :: r)
  | _, _ => some []

/-- Models src/ff_ext/inverse.rs:119-129. -/
def cNegC (x : List ℕ) : Option (List ℕ) := negLoopC x 1

/-- The loop of `Mul<i64>`. Models src/ff_ext/inverse.rs:192-196. -/
def mulLoopC (other mask : ℕ) : List ℕ → ℕ → Option (List ℕ)
  | x :: xs, carry => do
    let m ← fitsU 128 ((x ^^^ mask) * other)
    let sum ← fitsU 128 (carry + m)
    let r ← mulLoopC other mask xs (u64 (sum / 2 ^ 62))
    some (sum % 2 ^ 62 :: r)
  | _, _ => some []

/-- Models src/ff_ext/inverse.rs:171-199 (`Mul<i64> for &CInt`). -/
def cMulI64C (x : List ℕ) (other : ℤ) : Option (List ℕ) :=
  if other < 0 then do
    let o ← fitsI 64 (-other)
    mulLoopC (asU64 o) MASK x (asU64 o)
  else mulLoopC (asU64 other) 0 x 0

theorem addLoopC_ok (x y : List ℕ) (c : ℕ) (hx : CWf 62 x) (hy : CWf 62 y) (hc : c ≤ 1) :
    addLoopC x y c = some (addLoop x y c) := by
  induction x generalizing y c with
  | nil => cases y <;> rfl
  | cons a as ih =>
    cases y with
    | nil => rfl
    | cons b bs =>
      rw [CWf.cons] at hx hy
      have e : u64 (u64 (a + b) + c) = a + b + c := by unfold u64; omega
      rw [addLoopC, addLoop, e, fitsU_some (by omega)]
      simp only [Option.bind_eq_bind, Option.bind_some]
      rw [fitsU_some (by omega)]
      simp only [Option.bind_some]
      rw [ih bs _ hx.2 hy.2 (by omega)]
      rfl

theorem negLoopC_ok (x : List ℕ) (c : ℕ) (hx : CWf 62 x) (hc : c ≤ 1) :
    negLoopC x c = some (negLoop x c) := by
  induction x generalizing c with
  | nil => rfl
  | cons a as ih =>
    rw [CWf.cons] at hx
    have hs : (a ^^^ MASK) + c ≤ 2 ^ 62 := by rw [xor_mask hx.1]; omega
    have e : u64 ((a ^^^ MASK) + c) = (a ^^^ MASK) + c := by unfold u64; omega
    rw [negLoopC, negLoop, e, fitsU_some (by omega)]
    simp only [Option.bind_eq_bind, Option.bind_some]
    rw [ih _ hx.2 (by omega)]
    rfl

theorem mulLoopC_ok (o mask : ℕ) (x : List ℕ) (c : ℕ) (ho : o ≤ 2 ^ 63) (hc : c ≤ 2 ^ 63)
    (hx : CWf 62 (x.map (· ^^^ mask))) : mulLoopC o mask x c = some (mulLoop o mask x c) := by
  induction x generalizing c with
  | nil => rfl
  | cons a as ih =>
    rw [List.map_cons, CWf.cons] at hx
    have ha := hx.1
    rw [mulLoopC, mulLoop]
    generalize ea : a ^^^ mask = a' at *
    have hb : a' * o ≤ (2 ^ 62 - 1) * 2 ^ 63 := Nat.mul_le_mul (by omega) ho
    generalize a' * o = m at *
    rw [fitsU_some (by omega)]
    simp only [Option.bind_eq_bind, Option.bind_some]
    rw [fitsU_some (by omega)]
    simp only [Option.bind_some]
    rw [Nat.mod_eq_of_lt (a := c + m) (b := 2 ^ 128) (by omega), ih _ (by unfold u64; omega) hx.2]
    rfl

theorem cAddC_ok {L : ℕ} {x y : List ℕ} (hx : IsC L x) (hy : IsC L y) :
    cAddC x y = some (cAdd x y) := addLoopC_ok x y 0 hx.wf hy.wf (by decide)

theorem cNegC_ok {L : ℕ} {x : List ℕ} (hx : IsC L x) : cNegC x = some (cNeg x) :=
  negLoopC_ok x 1 hx.wf le_rfl

theorem cMulI64C_ok {L : ℕ} {x : List ℕ} (hx : IsC L x) (o : ℤ) (h1 : -2 ^ 63 < o)
    (h2 : o < 2 ^ 63) : cMulI64C x o = some (cMulI64 x o) := by
  unfold cMulI64C cMulI64
  split
  · rename_i hn
    have e : i64 (-o) = -o := i64_id (by omega) (by omega)
    have e2 : (asU64 (-o) : ℤ) = -o := by rw [asU64_cast]; omega
    rw [e, fitsI64_some (by omega) (by omega), asU128_eq (by omega) (by omega)]
    simp only [Option.bind_eq_bind, Option.bind_some]
    exact mulLoopC_ok _ MASK x _ (by omega) (by omega) (map_xor_mask x hx.wf).1
  · have e2 : (asU64 o : ℤ) = o := by rw [asU64_cast]; omega
    rw [asU128_eq (by omega) (by omega)]
    exact mulLoopC_ok _ 0 x 0 (by omega) (by omega) (by rw [map_xor_zero]; exact hx.wf)

/-! ## `jump` -/

/-- The swap of `jump`. Models src/ff_ext/inverse.rs:275-278. -/
def swapC (delta f g : ℤ) (t : Mat) : Option (ℤ × ℤ × ℤ × Mat) :=
  if delta > 0 then do
    let delta' ← fitsI 64 (-delta)
    let g' ← fitsI 64 (-f)
    let c ← fitsI 64 (-t.a)
    let d ← fitsI 64 (-t.b)
    some (delta', i64 g, g', ⟨t.c, t.d, c, d⟩)
  else some (delta, f, g, t)

/-- `w`. Models src/ff_ext/inverse.rs:283-284. The shift amount is an `i64`; a negative one
panics. -/
def wOfC (steps : ℕ) (delta f g : ℤ) : Option ℕ := do
  let s ← fitsI 64 (1 - delta)
  let n := min (min (steps : ℤ) s) 5
  if 0 ≤ n then some (wOf n.toNat f g) else none

/-- The second half of a round of `jump`. Models src/ff_ext/inverse.rs:283-287. -/
def cancelC (w : ℕ) (f g : ℤ) (t : Mat) : Option (ℤ × Mat) := do
  let x ← fitsI 64 (t.a * w)
  let x' ← fitsI 64 (x + t.c)
  let y ← fitsI 64 (t.b * w)
  let y' ← fitsI 64 (y + t.d)
  let m ← fitsI 128 ((w : ℤ) * f)
  let g' ← fitsI 128 (g + m)
  some (g', ⟨t.a, t.b, x', y'⟩)

/-- The loop of `jump`; `none` also when the fuel is exhausted. A `<<` that loses bits does not
panic. Models src/ff_ext/inverse.rs:267-288. -/
def jumpLoopC : ℕ → ℕ → ℤ → ℤ → ℤ → Mat → Option (ℤ × Mat)
  | 0, _, _, _, _, _ => none
  | fuel + 1, steps, delta, f, g, t => do
    let zeros := min steps (tz 128 (g % 2 ^ 128).toNat)
    let steps ← subU steps zeros
    let delta ← fitsI 64 (delta + zeros)
    shiftOk 128 zeros
    let g := g / 2 ^ zeros
    shiftOk 64 zeros
    let t : Mat := ⟨i64 (t.a * 2 ^ zeros), i64 (t.b * 2 ^ zeros), t.c, t.d⟩
    if steps = 0 then some (delta, t)
    else do
      let s ← swapC delta f g t
      let w ← wOfC steps s.1 s.2.1 s.2.2.1
      let r ← cancelC w s.2.1 s.2.2.1 s.2.2.2
      jumpLoopC fuel steps s.1 s.2.1 r.1 r.2

/-- Models src/ff_ext/inverse.rs:263-291 (`jump`). -/
def jumpC (f g : List ℕ) (delta : ℤ) : Option (ℤ × Mat) :=
  jumpLoopC 64 62 delta (lowest f) (lowest g) ⟨1, 0, 0, 1⟩

theorem JInv.delta_bound {δ0 F G : ℤ} {k steps : ℕ} {δ f g : ℤ} {t : Mat} {Fk h : ℤ}
    (I : JInv δ0 F G k steps δ f g t 0 Fk h) (hδ : |δ0| ≤ 2 ^ 62) : |δ| ≤ 2 ^ 62 + 62 := by
  have ks := I.ks
  have := iter_delta ⟨δ0, F, G⟩ (k + 0)
  rw [I.iter] at this
  simp only at this
  have h2 : ((k + 0 : ℕ) : ℤ) ≤ 62 := by omega
  push_cast at this h2
  simp only [add_zero] at this h2
  omega

theorem swapC_ok {δ0 F G : ℤ} {k steps : ℕ} {δ f g : ℤ} {t : Mat} {Fk h : ℤ}
    (I : JInv δ0 F G k steps δ f g t 0 Fk h) (hδ : |δ0| ≤ 2 ^ 62) :
    swapC δ f g t = some ((if decide (δ > 0) then i64 (-δ) else δ),
      (if decide (δ > 0) then i64 g else f), (if decide (δ > 0) then i64 (-f) else g),
      (if decide (δ > 0) then ⟨t.c, t.d, i64 (-t.a), i64 (-t.b)⟩ else t)) := by
  unfold swapC
  have hδ2 := abs_le.mp (I.delta_bound hδ)
  have hf2 := abs_le.mp I.fb
  have ks := I.ks
  by_cases hd : δ > 0
  · obtain ⟨ba, bb⟩ := le_of_add_abs I.t0
    have ba' := abs_bounds ba (by omega)
    have bb' := abs_bounds bb (by omega)
    simp only [hd, decide_true, if_true]
    rw [fitsI64_some (x := -δ) (by omega) (by omega), fitsI64_some (x := -f) (by omega) (by omega),
      fitsI64_some (x := -t.a) (by omega) (by omega), fitsI64_some (x := -t.b) (by omega) (by omega),
      i64_id (x := -δ) (by omega) (by omega), i64_id (x := -f) (by omega) (by omega),
      i64_id (x := -t.a) (by omega) (by omega), i64_id (x := -t.b) (by omega) (by omega)]
    rfl
  · simp only [hd, decide_false, Bool.false_eq_true, if_false]

theorem wOfC_ok {δ0 F G : ℤ} {k steps : ℕ} {δ f g : ℤ} {t : Mat} {Fk Gk : ℤ}
    (I : JMid δ0 F G k steps δ f g t Fk Gk) :
    wOfC steps δ f g = some (wOf (wBits steps δ) f g) := by
  have ks := I.ks
  have hpos := I.pos
  have hdle := I.dle
  have hdge := I.dge
  unfold wOfC wBits
  rw [fitsI64_some (by omega) (by omega), i64_id (x := 1 - δ) (by omega) (by omega)]
  simp only [Option.bind_eq_bind, Option.bind_some]
  rw [if_pos (by omega)]

theorem cancelC_ok {δ0 F G : ℤ} {k steps : ℕ} {δ f g : ℤ} {t : Mat} {Fk Gk : ℤ}
    (I : JMid δ0 F G k steps δ f g t Fk Gk) {w : ℕ} (hw : w = wOf (wBits steps δ) f g) :
    cancelC w f g t = some (i128 (g + i128 ((w : ℤ) * f)),
      ⟨t.a, t.b, i64 (i64 (t.a * w) + t.c), i64 (i64 (t.b * w) + t.d)⟩) := by
  have ks := I.ks
  have hpos := I.pos
  have hdle := I.dle
  have hdge := I.dge
  set m := wBits steps δ with hm
  have hi : i64 (1 - δ) = 1 - δ := i64_id (by omega) (by omega)
  have hmdef : (m : ℤ) = min (min (steps : ℤ) (1 - δ)) 5 := by
    rw [hm, wBits, hi, Int.toNat_of_nonneg]
    omega
  have hm5 : m ≤ 5 := by omega
  have hms : m ≤ steps := by omega
  have hfodd : f % 2 = 1 := by
    have h1 : (2 : ℤ) ∣ f - Fk := dvd_trans (dvd_pow_self 2 (by omega)) I.fl
    have := I.odd
    omega
  obtain ⟨w1, w2⟩ := wOf_spec m f g hm5 hfodd
  rw [← hw] at w1 w2
  have hw31 : (w : ℤ) ≤ 31 := by
    have : 2 ^ m ≤ 2 ^ 5 := Nat.pow_le_pow_right (by decide) hm5
    have h2 : w < 2 ^ 5 := lt_of_lt_of_le w1 this
    norm_num at h2
    omega
  have hf2 := abs_le.mp I.fb
  have hg2 := abs_le.mp I.gb
  have hw0 : (0 : ℤ) ≤ w := by omega
  have hwf1 : (w : ℤ) * f ≤ 31 * 2 ^ 62 := by nlinarith
  have hwf2 : -(31 * 2 ^ 62) ≤ (w : ℤ) * f := by nlinarith
  have w1' : (w : ℤ) + 1 ≤ 2 ^ m := by exact_mod_cast w1
  have hk1 : (2 : ℤ) ^ (k + m) ≤ 2 ^ 62 := pow62_mono (by omega)
  have hrow : ∀ x y z u : ℤ, |x| + |y| ≤ 2 ^ k → |z| + |u| ≤ 2 ^ k →
      |x * w + z| + |y * w + u| ≤ 2 ^ (k + m) := by
    intro x y z u h1 h2
    have a1 : |x * w + z| ≤ |x| * w + |z| := by
      refine le_trans (abs_add_le _ _) ?_
      rw [abs_mul, abs_of_nonneg hw0]
    have a2 : |y * w + u| ≤ |y| * w + |u| := by
      refine le_trans (abs_add_le _ _) ?_
      rw [abs_mul, abs_of_nonneg hw0]
    have a3 : (|x| + |y|) * w ≤ 2 ^ k * w := mul_le_mul_of_nonneg_right h1 hw0
    have a4 : (2 : ℤ) ^ k * (w + 1) ≤ 2 ^ k * 2 ^ m := mul_le_mul_of_nonneg_left w1' (by positivity)
    rw [pow_add]
    linarith
  obtain ⟨b1, b2⟩ := le_of_add_abs (le_trans (hrow _ _ _ _ I.t0 I.t1) hk1)
  have hr' := hrow _ _ 0 0 I.t0 (by simp)
  simp only [add_zero] at hr'
  obtain ⟨b3, b4⟩ := le_of_add_abs (le_trans hr' hk1)
  have b1' := abs_le.mp b1
  have b2' := abs_le.mp b2
  have b3' := abs_le.mp b3
  have b4' := abs_le.mp b4
  unfold cancelC
  generalize t.a * (w : ℤ) = x at *
  generalize t.b * (w : ℤ) = y at *
  generalize (w : ℤ) * f = z at *
  rw [i64_id (x := x) (by omega) (by omega), i64_id (x := y) (by omega) (by omega),
    i64_id (x := x + t.c) (by omega) (by omega), i64_id (x := y + t.d) (by omega) (by omega),
    i128_id (x := z) (by omega) (by omega), i128_id (x := g + z) (by omega) (by omega),
    fitsI64_some (x := x) (by omega) (by omega)]
  simp only [Option.bind_eq_bind, Option.bind_some]
  rw [fitsI64_some (x := x + t.c) (by omega) (by omega)]
  simp only [Option.bind_some]
  rw [fitsI64_some (x := y) (by omega) (by omega)]
  simp only [Option.bind_some]
  rw [fitsI64_some (x := y + t.d) (by omega) (by omega)]
  simp only [Option.bind_some]
  rw [fitsI128_some (x := z) (by omega) (by omega)]
  simp only [Option.bind_some]
  rw [fitsI128_some (x := g + z) (by omega) (by omega)]
  rfl

theorem jumpLoopC_ok (fuel : ℕ) : ∀ {δ0 F G : ℤ} {k steps : ℕ} {δ f g : ℤ} {t : Mat} {m : ℕ}
    {Fk h : ℤ}, JInv δ0 F G k steps δ f g t m Fk h → |δ0| ≤ 2 ^ 62 →
    (steps + 2 ≤ fuel ∨ (0 < m ∧ steps + 1 ≤ fuel)) →
    jumpLoopC fuel steps δ f g t = some (jumpLoop fuel steps δ f g t) := by
  induction fuel with
  | zero => intros; omega
  | succ fuel ih =>
    intro δ0 F G k steps δ f g t m Fk h I hδ hfuel
    obtain ⟨z, hz⟩ : ∃ z, z = min steps (tz 128 (g % 2 ^ 128).toNat) := ⟨_, rfl⟩
    obtain ⟨hmz, e1, e2, e3, hodd, h', I2⟩ := I.zeros hδ hz
    have hks := I.ks
    have hzs : z ≤ steps := by omega
    have hδ2 := abs_le.mp (I2.delta_bound hδ)
    unfold jumpLoopC jumpLoop
    simp only
    rw [← hz, e1, e2, e3, subU_some hzs]
    simp only [Option.bind_eq_bind, Option.bind_some]
    rw [fitsI64_some (by omega) (by omega), shiftOk_some (by omega)]
    simp only [Option.bind_some]
    rw [shiftOk_some (by omega)]
    simp only [Option.bind_some]
    by_cases hs : steps - z = 0
    · rw [if_pos hs, if_pos hs]
    · rw [if_neg hs, if_neg hs, swapC_ok I2 hδ]
      obtain ⟨Fk', Gk', I3⟩ := I2.mid hδ hs (hodd (by omega))
      obtain ⟨m', h'', hm', I4⟩ := I3.next rfl
      simp only [Option.bind_some]
      rw [wOfC_ok I3]
      simp only [Option.bind_some]
      rw [cancelC_ok I3 rfl]
      simp only [Option.bind_some]
      exact ih I4 hδ (Or.inr ⟨hm', by omega⟩)

theorem jumpC_ok (f g : List ℕ) (δ F G : ℤ) (hδ : |δ| ≤ 2 ^ 62) (hF : F % 2 = 1)
    (hf : lowest f < 2 ^ 62) (hg : lowest g < 2 ^ 62)
    (hfF : (2 : ℤ) ^ 62 ∣ (lowest f : ℤ) - F) (hgG : (2 : ℤ) ^ 62 ∣ (lowest g : ℤ) - G) :
    jumpC f g δ = some (jump f g δ) := by
  unfold jumpC jump
  apply jumpLoopC_ok 64 (δ0 := δ) (F := F) (G := G) (k := 0) (m := 0) (Fk := F) (h := G) _ hδ
    (Or.inl le_rfl)
  have h1 : ((lowest f : ℕ) : ℤ) ≤ 2 ^ 62 := by exact_mod_cast hf.le
  have h2 : ((lowest g : ℕ) : ℤ) ≤ 2 ^ 62 := by exact_mod_cast hg.le
  refine ⟨rfl, by omega, by simp, by simp, by simp, hF, hfF, by simpa using hgG, ?_, ?_, by simp, by simp⟩
  · rw [abs_of_nonneg (by omega)]; exact h1
  · rw [abs_of_nonneg (by omega), pow_zero, one_mul]; exact h2

/-! ## `fg`, `de`, `norm` -/

/-- One row of `fg`. Models src/ff_ext/inverse.rs:297-298. -/
def fgRowC (f g : List ℕ) (a b : ℤ) : Option (List ℕ) := do
  let x ← cMulI64C f a
  let y ← cMulI64C g b
  let s ← cAddC x y
  some (shift s)

/-- Models src/ff_ext/inverse.rs:295-300 (`fg`). -/
def fgC (f g : List ℕ) (t : Mat) : Option (List ℕ × List ℕ) := do
  let x ← fgRowC f g t.a t.b
  let y ← fgRowC f g t.c t.d
  some (x, y)

/-- The multiple of the modulus added to one row of `de`. Models src/ff_ext/inverse.rs:308-321. -/
def deCoeffC (inverse x y : ℤ) (d e : List ℕ) : Option ℤ := do
  let a ← fitsI 64 (x * b2i (isNeg d))
  let b ← fitsI 64 (y * b2i (isNeg e))
  let md ← fitsI 64 (a + b)
  let cd := i64 (i64 (x * (lowest d : ℤ)) + i64 (y * (lowest e : ℤ))) % 2 ^ 62
  fitsI 64 (md - i64 (i64 (inverse * cd) + md) % 2 ^ 62)

/-- One row of `de`. Models src/ff_ext/inverse.rs:308-326. -/
def deRowC (v : Inverter) (x y : ℤ) (d e : List ℕ) : Option (List ℕ) := do
  let c ← deCoeffC v.inverse x y d e
  let a ← cMulI64C d x
  let b ← cMulI64C e y
  let s ← cAddC a b
  let m ← cMulI64C v.modulus c
  let r ← cAddC s m
  some (shift r)

/-- Models src/ff_ext/inverse.rs:306-327 (`de`). -/
def deC (v : Inverter) (d e : List ℕ) (t : Mat) : Option (List ℕ × List ℕ) := do
  let x ← deRowC v t.a t.b d e
  let y ← deRowC v t.c t.d d e
  some (x, y)

/-- One conditional addition of the modulus in `norm`. -/
def addIfNegC (v : Inverter) (value : List ℕ) : Option (List ℕ) :=
  if isNeg value then cAddC value v.modulus else some value

/-- Models src/ff_ext/inverse.rs:332-346 (`norm`). -/
def normC (v : Inverter) (value : List ℕ) (negate : Bool) : Option (List ℕ) := do
  let value ← addIfNegC v value
  let value ← if negate then cNegC value else some value
  addIfNegC v value

theorem fgRowC_ok {L : ℕ} {x y : List ℕ} (hx : IsC L x) (hy : IsC L y) (a b : ℤ)
    (hab : |a| + |b| ≤ 2 ^ 62) :
    fgRowC x y a b = some (shift (cAdd (cMulI64 x a) (cMulI64 y b))) := by
  have ha := (le_of_add_abs hab).1
  have hb := (le_of_add_abs hab).2
  rw [abs_le] at ha hb
  obtain ⟨m1, m2⟩ := cMulI64_spec hx a (by omega) (by omega)
  obtain ⟨n1, n2⟩ := cMulI64_spec hy b (by omega) (by omega)
  unfold fgRowC
  rw [cMulI64C_ok hx a (by omega) (by omega), cMulI64C_ok hy b (by omega) (by omega)]
  simp only [Option.bind_eq_bind, Option.bind_some]
  rw [cAddC_ok m1 n1]
  rfl

theorem fgC_ok {L : ℕ} {x y : List ℕ} (hx : IsC L x) (hy : IsC L y) (t : Mat)
    (h0 : |t.a| + |t.b| ≤ 2 ^ 62) (h1 : |t.c| + |t.d| ≤ 2 ^ 62) : fgC x y t = some (fg x y t) := by
  unfold fgC
  rw [fgRowC_ok hx hy _ _ h0, fgRowC_ok hx hy _ _ h1]
  rfl

theorem deCoeffC_ok (inverse x y : ℤ) (d e : List ℕ) (hxy : |x| + |y| ≤ 2 ^ 62) :
    deCoeffC inverse x y d e = some (deCoeff inverse x y d e) ∧
      -2 ^ 63 < deCoeff inverse x y d e ∧ deCoeff inverse x y d e < 2 ^ 63 := by
  have hx := abs_le.mp (le_of_add_abs hxy).1
  have hy := abs_le.mp (le_of_add_abs hxy).2
  have hmb : |x * b2i (isNeg d) + y * b2i (isNeg e)| ≤ 2 ^ 62 := by
    have := comb_abs hxy (X := b2i (isNeg d)) (Y := b2i (isNeg e)) (M := 1)
      (by rcases b2i_cases (isNeg d) with h1 | h1 <;> rw [h1] <;> simp)
      (by rcases b2i_cases (isNeg e) with h1 | h1 <;> rw [h1] <;> simp)
    simpa using this
  have hone : ∀ (z : ℤ) (b : Bool), -2 ^ 62 ≤ z ∧ z ≤ 2 ^ 62 →
      -2 ^ 62 ≤ z * b2i b ∧ z * b2i b ≤ 2 ^ 62 := by
    intro z b hz
    rcases b2i_cases b with h1 | h1 <;> rw [h1] <;> omega
  have h1 := hone x (isNeg d) hx
  have h2 := hone y (isNeg e) hy
  have h3 := abs_le.mp hmb
  unfold deCoeffC deCoeff
  generalize x * b2i (isNeg d) = X at *
  generalize y * b2i (isNeg e) = Y at *
  generalize i64 (i64 (x * (lowest d : ℤ)) + i64 (y * (lowest e : ℤ))) % 2 ^ 62 = cd at *
  rw [i64_id (x := X) (by omega) (by omega), i64_id (x := Y) (by omega) (by omega),
    i64_id (x := X + Y) (by omega) (by omega), fitsI64_some (x := X) (by omega) (by omega),
    fitsI64_some (x := Y) (by omega) (by omega)]
  simp only [Option.bind_eq_bind, Option.bind_some]
  rw [fitsI64_some (x := X + Y) (by omega) (by omega)]
  simp only [Option.bind_some]
  generalize i64 (i64 (inverse * cd) + (X + Y)) = s at *
  have hr0 := Int.emod_nonneg s (show (2 : ℤ) ^ 62 ≠ 0 by decide)
  have hr1 := Int.emod_lt_of_pos s (show (0 : ℤ) < 2 ^ 62 by decide)
  generalize s % 2 ^ 62 = r at *
  rw [i64_id (x := X + Y - r) (by omega) (by omega), fitsI64_some (by omega) (by omega)]
  exact ⟨rfl, by omega, by omega⟩

theorem deRowC_ok {L : ℕ} {v : Inverter} (hv : IsC L v.modulus) {d e : List ℕ} (hd : IsC L d)
    (he : IsC L e) (x y : ℤ) (hxy : |x| + |y| ≤ 2 ^ 62) :
    deRowC v x y d e = some (deRow v x y d e) := by
  have hx := abs_le.mp (le_of_add_abs hxy).1
  have hy := abs_le.mp (le_of_add_abs hxy).2
  obtain ⟨c0, c1, c2⟩ := deCoeffC_ok v.inverse x y d e hxy
  obtain ⟨m1, -⟩ := cMulI64_spec hd x (by omega) (by omega)
  obtain ⟨n1, -⟩ := cMulI64_spec he y (by omega) (by omega)
  obtain ⟨s1, -⟩ := cAdd_spec m1 n1
  obtain ⟨k1, -⟩ := cMulI64_spec hv _ c1 c2
  unfold deRowC deRow
  rw [c0, cMulI64C_ok hd x (by omega) (by omega), cMulI64C_ok he y (by omega) (by omega)]
  simp only [Option.bind_eq_bind, Option.bind_some]
  rw [cAddC_ok m1 n1, cMulI64C_ok hv _ c1 c2]
  simp only [Option.bind_some]
  rw [cAddC_ok s1 k1]
  rfl

theorem deC_ok {L : ℕ} {v : Inverter} (hv : IsC L v.modulus) {d e : List ℕ} (hd : IsC L d)
    (he : IsC L e) (t : Mat) (h0 : |t.a| + |t.b| ≤ 2 ^ 62) (h1 : |t.c| + |t.d| ≤ 2 ^ 62) :
    deC v d e t = some (de v d e t) := by
  unfold deC
  rw [deRowC_ok hv hd he _ _ h0, deRowC_ok hv hd he _ _ h1]
  rfl

theorem addIfNegC_ok {L : ℕ} {v : Inverter} (hv : IsC L v.modulus) {d : List ℕ} (hd : IsC L d) :
    addIfNegC v d = some (if isNeg d then cAdd d v.modulus else d) ∧
      IsC L (if isNeg d then cAdd d v.modulus else d) := by
  unfold addIfNegC
  split
  · exact ⟨cAddC_ok hd hv, (cAdd_spec hd hv).1⟩
  · exact ⟨rfl, hd⟩

theorem normC_ok {L : ℕ} {v : Inverter} (hv : IsC L v.modulus) {d : List ℕ} (hd : IsC L d)
    (neg : Bool) : normC v d neg = some (norm v d neg) := by
  obtain ⟨a1, a2⟩ := addIfNegC_ok hv hd
  unfold normC norm
  rw [a1]
  simp only [Option.bind_eq_bind, Option.bind_some]
  generalize (if isNeg d then cAdd d v.modulus else d) = y at *
  cases neg with
  | true =>
    simp only [if_true]
    rw [cNegC_ok a2]
    simp only [Option.bind_some]
    exact (addIfNegC_ok hv (cNeg_spec a2).1).1
  | false =>
    simp only [Bool.false_eq_true, if_false]
    exact (addIfNegC_ok hv a2).1

/-! ## `convert` -/

/-- The first loop of `convert`, with bounds checks; `none` also when the fuel is exhausted.
Models src/ff_ext/inverse.rs:363-367. -/
def convertLoopC (I O total : ℕ) (input : List ℕ) : ℕ → ℕ → List ℕ → Option (List ℕ)
  | 0, _, _ => none
  | fuel + 1, bits, out =>
    if bits < total then do
      let x ← input[bits / I]?
      let y ← out[bits / O]?
      shiftOk 64 (bits % I)
      shiftOk 64 (bits % O)
      let a ← subU I (bits % I)
      let b ← subU O (bits % O)
      let bits' ← fitsU 64 (bits + min a b)
      convertLoopC I O total input fuel bits'
        (out.set (bits / O) (y ||| u64 (x / 2 ^ (bits % I) * 2 ^ (bits % O))))
    else some out

/-- Models src/ff_ext/inverse.rs:351-378 (`convert`). -/
def convertC (I O S : ℕ) (input : List ℕ) : Option (List ℕ) := do
  let n ← fitsU 64 (input.length * I)
  let m ← fitsU 64 (S * O)
  let total := min n m
  let out ← convertLoopC I O total input (total + 1) 0 (List.replicate S 0)
  let r ← subU 64 O
  shiftOk 64 r
  let filled ← fitsU 64 (total / O + if total % O > 0 then 1 else 0)
  if filled ≤ out.length then some (out.mapIdx fun k x => if k < filled then x % 2 ^ O else x)
  else none

theorem convertLoopC_ok {I O S : ℕ} {input : List ℕ} (hI : 0 < I) (hO : 0 < O) (hI64 : I ≤ 64)
    (hO64 : O ≤ 64) (hs : S * O < 2 ^ 63) (fuel : ℕ) : ∀ (bits : ℕ) (out : List ℕ), out.length = S →
    min (input.length * I) (S * O) + 1 ≤ fuel + bits →
    bits ≤ min (input.length * I) (S * O) →
    convertLoopC I O (min (input.length * I) (S * O)) input fuel bits out =
      some (convertLoop I O (min (input.length * I) (S * O)) input fuel bits out) := by
  induction fuel with
  | zero => intros; omega
  | succ n ih =>
    intro bits out hl hf hb
    rw [convertLoopC, convertLoop]
    split
    · rename_i hlt
      have h1 : bits < input.length * I := by omega
      have h2 : bits < S * O := by omega
      have k1 : bits / I < input.length := (Nat.div_lt_iff_lt_mul hI).mpr h1
      have k2 : bits / O < out.length := by rw [hl]; exact (Nat.div_lt_iff_lt_mul hO).mpr h2
      have m1 := Nat.mod_lt bits hI
      have m2 := Nat.mod_lt bits hO
      have b1 := boundary hI h1
      have b2 := boundary hO h2
      rw [List.getElem?_eq_getElem k1, List.getElem?_eq_getElem k2]
      simp only [Option.bind_eq_bind, Option.bind_some]
      rw [shiftOk_some (by omega)]
      simp only [Option.bind_some]
      rw [shiftOk_some (by omega)]
      simp only [Option.bind_some]
      rw [subU_some m1.le, subU_some m2.le]
      simp only [Option.bind_some]
      rw [fitsU_some (by omega)]
      simp only [Option.bind_some]
      have e : orAt out (bits / O) (u64 (input.getD (bits / I) 0 / 2 ^ (bits % I) * 2 ^ (bits % O)))
          = out.set (bits / O) (out[bits / O] ||| u64 (input[bits / I] / 2 ^ (bits % I) * 2 ^ (bits % O))) := by
        rw [orAt, List.getD_eq_getElem _ _ k1, List.getD_eq_getElem _ _ k2]
      rw [e]
      exact ih _ _ (by rw [List.length_set, hl]) (by omega) (by omega)
    · rfl

theorem convertC_ok {I O S : ℕ} {input : List ℕ} (hI : 0 < I) (hO : 0 < O) (hI64 : I ≤ 64)
    (hO64 : O ≤ 64) (hs : S * O < 2 ^ 63) (hi : input.length * I < 2 ^ 63) :
    convertC I O S input = some (convert I O S input) := by
  unfold convertC convert
  rw [fitsU_some (by omega), fitsU_some (by omega)]
  simp only [Option.bind_eq_bind, Option.bind_some]
  rw [convertLoopC_ok hI hO hI64 hO64 hs _ 0 _ (by simp) (by omega) (by omega)]
  simp only [Option.bind_some]
  rw [subU_some hO64]
  simp only [Option.bind_some]
  rw [shiftOk_some (by omega)]
  simp only [Option.bind_some]
  have ht : min (input.length * I) (S * O) / O + (if min (input.length * I) (S * O) % O > 0 then 1 else 0) ≤ S := by
    generalize hT : min (input.length * I) (S * O) = T
    have hle : T ≤ S * O := by omega
    have h1 := Nat.div_add_mod T O
    split
    · rename_i hpos
      have h2 : T / O < S := by
        rw [Nat.div_lt_iff_lt_mul hO]
        rcases Nat.lt_or_ge T (S * O) with h | h
        · exact h
        · have : T = S * O := by omega
          rw [this, Nat.mul_mod_left] at hpos
          omega
      omega
    · exact Nat.div_le_of_le_mul (by rw [mul_comm]; exact hle)
  have hS : S ≤ S * O := Nat.le_mul_of_pos_right S hO
  rw [fitsU_some (by omega)]
  simp only [Option.bind_some]
  rw [if_pos (by rw [length_convertLoop, List.length_replicate]; exact ht)]

/-! ## `invert` -/

/-- The loop of `invert`; `none` is a panic or the exhaustion of the fuel.
Models src/ff_ext/inverse.rs:410-414. -/
def invertLoopC (v : Inverter) (L : ℕ) :
    ℕ → ℤ → List ℕ → List ℕ → List ℕ → List ℕ → Option (List ℕ × List ℕ)
  | 0, _, f, g, d, _ => if g = cZero L then some (f, d) else none
  | fuel + 1, delta, f, g, d, e =>
    if g = cZero L then some (f, d)
    else do
      let r ← jumpC f g delta
      let fg' ← fgC f g r.2
      let de' ← deC v d e r.2
      invertLoopC v L fuel r.1 fg'.1 fg'.2 de'.1 de'.2

/-- Models src/ff_ext/inverse.rs:405-423 (`invert`); `none` is a panic or the exhaustion of the
fuel. -/
def invertC (v : Inverter) (L S fuel : ℕ) (value : List ℕ) : Option (Option (List ℕ)) := do
  let g ← convertC 64 62 L value
  let r ← invertLoopC v L fuel 1 v.modulus g (cZero L) v.adjuster
  let antiunit := decide (r.1 = cMinusOne L)
  if (!decide (r.1 = cOne L)) && !antiunit then some none
  else do
    let d ← normC v r.2 antiunit
    let b ← convertC 62 64 S d
    some (some b)

theorem invertLoopC_ok {L M : ℕ} {A X : ℤ} {v : Inverter} (h : Setup L M A v) (hX0 : 0 ≤ X)
    (hX1 : X < M) (fuel : ℕ) : ∀ {n : ℕ} {δ : ℤ} {f g d e : List ℕ} {F G D E : ℤ},
    62 * (n + fuel) + 1 ≤ 2 ^ 62 → LoopInv L M A X n δ f g d e F G D E →
    invertLoopC v L fuel δ f g d e = invertLoop v L fuel δ f g d e := by
  have hL : 0 < L := by have := h.L2; omega
  have hMo : (M : ℤ) % 2 = 1 := by have := h.odd; omega
  induction fuel with
  | zero => intros; rfl
  | succ k ih =>
    intro n δ f g d e F G D E hb I
    rw [invertLoop, invertLoopC]
    split
    · rfl
    · obtain ⟨F', G', D', E', I'⟩ := I.step h hX0 hX1 (by omega)
      have hdel := iter_delta ⟨1, M, X⟩ (62 * n)
      have hodd := iter_odd (s := ⟨1, M, X⟩) hMo (62 * n)
      rw [I.iter] at hdel hodd
      simp only [abs_one] at hdel hodd
      obtain ⟨l1, l2⟩ := lowest_spec hL I.cf
      obtain ⟨l3, l4⟩ := lowest_spec hL I.cg
      have hδ : |δ| ≤ 2 ^ 62 := le_trans hdel (by push_cast; omega)
      obtain ⟨F'', G'', J⟩ := jump_spec f g δ F G hδ hodd l1 l3 l2 l4
      rw [jumpC_ok f g δ F G hδ hodd l1 l3 l2 l4]
      simp only [Option.bind_eq_bind, Option.bind_some]
      rw [fgC_ok I.cf.isC I.cg.isC _ J.t0 J.t1]
      simp only [Option.bind_some]
      rw [deC_ok h.mod.isC I.cd.isC I.ce.isC _ J.t0 J.t1]
      simp only [Option.bind_some]
      exact ih (by omega) I'

/-- In a build with overflow checks `invert` of a set-up inverter does not panic, and returns the
same as in a release build. -/
theorem invertC_ok {L M S : ℕ} {A : ℤ} {v : Inverter} (h : Setup L M A v)
    (fuel : ℕ) (value : List ℕ) (hw : CWf 64 value) (hX : uval 64 value < M)
    (hf : 62 * fuel + 1 ≤ 2 ^ 62)
    (hz : (divstep^[62 * fuel] ⟨1, M, (uval 64 value : ℤ)⟩).g = 0)
    (hLs : L * 64 < 2 ^ 63) (hSs : S * 64 < 2 ^ 63) (hvs : value.length * 64 < 2 ^ 63) :
    ∃ r, invertC v L S fuel value = some r ∧ invert v L S fuel value = .done r := by
  have hX1 : ((uval 64 value : ℕ) : ℤ) < M := by exact_mod_cast hX
  have hX0 : (0 : ℤ) ≤ (uval 64 value : ℕ) := by positivity
  have cX := code_convert h.L2 hw h.small hX.le
  have I0 : LoopInv L M A (uval 64 value) 0 1 v.modulus (convert 64 62 L value) (cZero L)
      v.adjuster M (uval 64 value) 0 A :=
    ⟨rfl, h.mod, cX, code_zero, h.adj, by have := h.odd; omega, by have := h.odd; omega,
      by have := h.odd; have := h.adj0; omega, h.adj1, ⟨-A, by ring⟩, ⟨0, by ring⟩⟩
  obtain ⟨f, d, F, D, he, P⟩ := invertLoop_spec h hX0 hX1 fuel (by simpa using hf)
    (by simpa using hz) I0
  unfold invertC invert
  rw [convertC_ok (by decide) (by decide) (by decide) (by decide) (by omega) (by omega), he]
  simp only [Option.bind_eq_bind, Option.bind_some]
  rw [invertLoopC_ok h hX0 hX1 fuel (by simpa using hf) I0, he]
  simp only [Option.bind_some]
  split
  · exact ⟨_, rfl, rfl⟩
  · rw [normC_ok h.mod.isC P.cd.isC]
    simp only [Option.bind_some]
    have hn : (norm v d (decide (f = cMinusOne L))).length = L := by
      obtain ⟨R, c, -⟩ := norm_spec h P.cd P.d0 P.d1 (decide (f = cMinusOne L))
      exact c.isC.len
    rw [convertC_ok (by decide) (by decide) (by decide) (by decide) (by omega) (by rw [hn]; omega)]
    exact ⟨_, rfl, rfl⟩

end Halo2.Inverse

namespace Halo2.Inverse

open Halo2.Field Halo2.Checked

theorem byConstantLoop_le (p fuel : ℕ) : ∀ c, byConstantLoop p fuel c ≤ c + fuel := by
  induction fuel with
  | zero => intro c; exact le_rfl
  | succ n ih =>
    intro c
    rw [byConstantLoop]
    split
    · omega
    · have := ih (c + 1); omega

/-- `new`, with overflow and bounds checks. Models src/ff_ext/inverse.rs:395-401 and 385-392 (`inv` uses
wrapping operations only). -/
def newC (L : ℕ) (modulus adjuster : List ℕ) : Option Inverter := do
  let m ← convertC 64 62 L modulus
  let a ← convertC 64 62 L adjuster
  let m0 ← modulus[0]?
  some ⟨m, a, inv m0⟩

/-- `invert` of the generated field with overflow and bounds checks. Models derive/src/field/mod.rs:403-412. -/
def fieldInvertC (p : ℕ) (a : List ℕ) : Option (Option (List ℕ)) := do
  let v ← newC (byConstant p) (modulusLimbs p) (R2 p)
  invertC v (byConstant p) (numLimbs p) (fuelBound p) a

theorem fieldInvertC_ok {p : ℕ} (hp : OddModulus p) (hs : numBits p ≤ 2 ^ 20) {a : List ℕ} (ha : IsElem p a) :
    ∃ r, fieldInvertC p a = some r ∧ fieldInvert p a = .done r := by
  have hL : byConstant p ≤ 2 + (numBits p + 2) := byConstantLoop_le p _ 2
  have hn : numLimbs p ≤ numBits p + 1 := by unfold numLimbs; omega
  have l1 := modulusLimbs_length p
  have l2 : (R2 p).length = numLimbs p := (rep_R2 hp).elem.len
  have hpos : 0 < numLimbs p := by
    rcases Nat.eq_zero_or_pos (numLimbs p) with h | h
    · have h2 := modulus_lt p
      rw [h, pow_zero] at h2
      have := hp.gt
      omega
    · exact h
  have hnew : newC (byConstant p) (modulusLimbs p) (R2 p) = some (new (byConstant p) (modulusLimbs p) (R2 p)) := by
    unfold newC new
    rw [convertC_ok (by decide) (by decide) (by decide) (by decide) (by omega) (by rw [l1]; omega),
      convertC_ok (by decide) (by decide) (by decide) (by decide) (by omega) (by rw [l2]; omega)]
    simp only [Option.bind_eq_bind, Option.bind_some]
    generalize modulusLimbs p = l at l1
    cases l with
    | nil => simp only [List.length_nil] at l1; omega
    | cons x xs => rfl
  have hv : uval 64 a = val a := uval_eq_val a
  unfold fieldInvertC
  rw [hnew]
  simp only [Option.bind_eq_bind, Option.bind_some]
  exact invertC_ok (setup_of_field hp) (fuelBound p) a ha.wf (by rw [hv]; exact ha.lt) (field_fuel hs)
    (by rw [hv]; exact field_terminates hp _ ha.lt) (by omega) (by omega) (by rw [ha.len]; omega)

end Halo2.Inverse
