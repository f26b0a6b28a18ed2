import Verif.Jacobi.Field
import Verif.Inverse.Checked

/-!
# The Jacobi symbol in a build with overflow checks and debug assertions

The model of `Verif/Jacobi/Model.lean` with the overflow checks of `Verif/Inverse/Checked.lean`, the
bounds checks of the array accesses and the `debug_assert!`s of src/ff_ext/jacobi.rs; `none` is a
panic (or the exhaustion of the fuel, as before). The `overflowing_add`s of `sum` and `Neg` need no
check, so `lAdd` and `lNeg` are unchanged.
-/

namespace Halo2.Jacobi

open Halo2.Inverse (u64 i64 asU64 tz i64_id asU64_cast le_of_add_abs)
open Halo2.Checked (fitsU fitsI subU shiftOk debugAssert fitsU_some fitsI64_some subU_some
  shiftOk_some debugAssert_some)

/-- `prodsum`. Models src/ff_ext/jacobi.rs:54-57. -/
def prodsumC (first second summand carry : ℕ) : Option (ℕ × ℕ) := do
  let m ← fitsU 128 (first * second)
  let s ← fitsU 128 (m + carry)
  let all ← fitsU 128 (s + summand)
  some (u64 all, u64 (all / 2 ^ 64))

/-- The loop of `Mul<i64>`. Models src/ff_ext/jacobi.rs:223-225. -/
def mulLoopC (other mask : ℕ) : List ℕ → ℕ → Option (List ℕ)
  | x :: xs, carry => do
    let r ← prodsumC (x ^^^ mask) other 0 carry
    let rs ← mulLoopC other mask xs r.2
    some (r.1 :: rs)
  | _, _ => some []

/-- Models src/ff_ext/jacobi.rs:202-228 (`Mul<i64>`). -/
def lMulI64C (x : List ℕ) (other : ℤ) : Option (List ℕ) :=
  if other < 0 then do
    let o ← fitsI 64 (-other)
    mulLoopC (asU64 o) (2 ^ 64 - 1) x (asU64 o)
  else mulLoopC (asU64 other) 0 x 0

/-- Models src/ff_ext/jacobi.rs:71-86 (`Shr<u32>`). -/
def lShrC (x : List ℕ) (bits : ℕ) : Option (List ℕ) := do
  debugAssert (decide (bits > 0) && decide (bits < 64))
  let right ← subU 64 bits
  shiftOk 64 bits
  shiftOk 64 right
  let _ ← subU x.length 1
  some (lShr x bits)

/-- One of the two approximations. Models src/ff_ext/jacobi.rs:279-288. -/
def approx1C (x : List ℕ) (i z : ℕ) : Option ℕ := do
  let top ← x[i]?
  shiftOk 64 z
  let h := u64 (top * 2 ^ z)
  let h ← if z > 32 then do
      let j ← subU i 1
      let y ← x[j]?
      some (h ||| y / 2 ^ z)
    else some h
  let low ← x[0]?
  some (h / 2 ^ 32 * 2 ^ 32 ||| low % 2 ^ 32)

/-- Models src/ff_ext/jacobi.rs:263-289 (`approximate`). -/
def approximateC (L : ℕ) (x y : List ℕ) : Option (ℕ × ℕ × Bool) := do
  debugAssert (!(isNeg x || isNeg y))
  debugAssert (!(x == lZero L) || !(y == lZero L))
  let k ← subU L 1
  let i ← topIdx x y k
  if i = 0 then do
    let a ← x[0]?
    let b ← y[0]?
    some (a, b, true)
  else do
    let s ← x[i]?
    let t ← y[i]?
    let z := min (lz s) (lz t)
    let a ← approx1C x i z
    let b ← approx1C y i z
    some (a, b, false)

/-- The loop of `jacobinary`. Models src/ff_ext/jacobi.rs:298-312. -/
def jacobinaryLoopC : ℕ → ℕ → ℕ → ℕ → Option ℤ
  | 0, _, _, _ => none
  | fuel + 1, n, d, t =>
    if n = 0 then some (answer (d == 1) t)
    else if n % 2 = 1 then
      if n < d then do
        let m ← subU d n
        jacobinaryLoopC fuel (m / 2) n (t ^^^ (d &&& n) ^^^ (n ^^^ n / 2))
      else do
        let m ← subU n d
        jacobinaryLoopC fuel (m / 2) d (t ^^^ (d ^^^ d / 2))
    else do
      shiftOk 64 (tz 64 n)
      jacobinaryLoopC fuel (n / 2 ^ tz 64 n) d (t ^^^ ((d ^^^ d / 2) &&& (tz 64 n * 2)))

/-- Models src/ff_ext/jacobi.rs:296-313 (`jacobinary`). -/
def jacobinaryC (n d t : ℕ) : Option ℤ := do
  debugAssert (decide (d % 2 = 1))
  jacobinaryLoopC 129 n d t

/-- The subtraction step. Models src/ff_ext/jacobi.rs:376-381. -/
def Inner.subStepC (s : Inner) : Option Inner := do
  let a ← subU s.a s.b
  let u0 ← fitsI 64 (s.u0 - s.v0)
  let u1 ← fitsI 64 (s.u1 - s.v1)
  let i ← subU s.i 1
  some ⟨i, a / 2, s.b, u0, u1, i64 (s.v0 * 2), i64 (s.v1 * 2), s.t ^^^ (s.b ^^^ s.b / 2)⟩

/-- The halving step for an even `a`. Models src/ff_ext/jacobi.rs:382-391. -/
def Inner.halfStepC (s : Inner) : Option Inner := do
  let z := min s.i (tz 64 s.a)
  shiftOk 64 z
  let i ← subU s.i z
  some ⟨i, s.a / 2 ^ z, s.b, s.u0, s.u1, i64 (s.v0 * 2 ^ z), i64 (s.v1 * 2 ^ z),
    s.t ^^^ ((s.b ^^^ s.b / 2) &&& (z * 2))⟩

/-- One round of the inner loop. Models src/ff_ext/jacobi.rs:363-391. -/
def Inner.stepC (s : Inner) : Option Inner :=
  if s.a % 2 = 1 then (if s.a < s.b then s.swap else s).subStepC else s.halfStepC

/-- The inner loop. Models src/ff_ext/jacobi.rs:362-392. -/
def innerLoopC : ℕ → Inner → Option Inner
  | 0, s => some s
  | fuel + 1, s => if s.i = 0 then some s else do
    let s' ← s.stepC
    innerLoopC fuel s'

/-- The row `(&n * c0 + &d * c1) >> 30`. Models src/ff_ext/jacobi.rs:393. -/
def rowC (n d : List ℕ) (c0 c1 : ℤ) : Option (List ℕ) := do
  let x ← lMulI64C n c0
  let y ← lMulI64C d c1
  lShrC (lAdd x y) 30

/-- The outer loop of `jacobi`. Models src/ff_ext/jacobi.rs:343-415. -/
def jacobiLoopC (L : ℕ) : ℕ → List ℕ → List ℕ → ℕ → Option ℤ
  | 0, _, _, _ => none
  | fuel + 1, n, d, t => do
    let ap ← approximateC L n d
    if ap.2.2 then jacobinaryC ap.1 ap.2.1 t
    else do
      let s ← innerLoopC 30 ⟨30, ap.1, ap.2.1, 1, 0, 0, 1, t⟩
      let n' ← rowC n d s.u0 s.u1
      let d' ← rowC n d s.v0 s.v1
      if n' = lZero L then some (answer (d' == lOne L) s.t)
      else if isNeg n' then jacobiLoopC L fuel (lNeg n') d' (s.t ^^^ d'.headD 0)
      else if isNeg d' then jacobiLoopC L fuel n' (lNeg d') s.t
      else jacobiLoopC L fuel n' d' s.t

/-- Models src/ff_ext/jacobi.rs:331-416 (`jacobi`). -/
def jacobiC (L : ℕ) (n d : List ℕ) : Option ℤ := do
  let n ← lNew L n
  let d ← lNew L d
  let d0 ← d[0]?
  debugAssert (decide (d0 % 2 = 1))
  let k ← subU L 1
  let nt ← n[k]?
  let dt ← d[k]?
  debugAssert (decide (min (lz nt) (lz dt) ≥ 31))
  jacobiLoopC L (2 ^ (128 * L)) n d 0

/-! ## No check fails -/

theorem prodsumC_ok {x y s c : ℕ} (hx : x < W) (hy : y < W) (hs : s < W) (hc : c < W) :
    prodsumC x y s c = some (prodsum x y s c) := by
  rw [W_eq] at *
  have hm := Checked.mul_lt hx hy
  unfold prodsumC prodsum
  generalize x * y = m at *
  rw [fitsU_some (by omega)]
  simp only [Option.bind_eq_bind, Option.bind_some]
  rw [fitsU_some (by omega)]
  simp only [Option.bind_some]
  rw [fitsU_some (by omega)]
  simp only [Option.bind_some]
  rw [Nat.mod_eq_of_lt (a := m + c + s) (b := 2 ^ 128) (by omega)]

theorem mulLoopC_ok (o mask : ℕ) (x : List ℕ) (c : ℕ) (ho : o < W) (hc : c < W)
    (hx : Wf (x.map (· ^^^ mask))) : mulLoopC o mask x c = some (mulLoop o mask x c) := by
  induction x generalizing c with
  | nil => rfl
  | cons a as ih =>
    rw [List.map_cons, Wf_cons] at hx
    rw [mulLoopC, mulLoop, prodsumC_ok hx.1 ho (by rw [W_eq]; decide) hc]
    simp only [Option.bind_eq_bind, Option.bind_some]
    rw [ih _ _ hx.2]
    · rfl
    · unfold prodsum
      simp only
      rw [W_eq]
      exact Nat.mod_lt _ (by decide)

theorem lMulI64C_ok {x : List ℕ} (hx : Wf x) (o : ℤ) (h1 : -2 ^ 63 < o) (h2 : o < 2 ^ 63) :
    lMulI64C x o = some (lMulI64 x o) := by
  unfold lMulI64C lMulI64
  split
  · rename_i hn
    have e : i64 (-o) = -o := i64_id (by omega) (by omega)
    have e2 : (asU64 (-o) : ℤ) = -o := by rw [asU64_cast]; omega
    rw [e, fitsI64_some (by omega) (by omega)]
    simp only [Option.bind_eq_bind, Option.bind_some]
    apply mulLoopC_ok _ _ x _ (by rw [W_eq]; omega) (by rw [W_eq]; omega)
    rw [map_xor_ones x hx]
    exact (map_not64 x hx).1
  · have e2 : (asU64 o : ℤ) = o := by rw [asU64_cast]; omega
    apply mulLoopC_ok _ _ x _ (by rw [W_eq]; omega) (by rw [W_eq]; omega)
    simpa using hx

theorem length_mulLoop (o mask : ℕ) (x : List ℕ) (c : ℕ) : (mulLoop o mask x c).length = x.length := by
  induction x generalizing c with
  | nil => rfl
  | cons a as ih => rw [mulLoop, List.length_cons, List.length_cons, ih]

theorem length_lMulI64 (x : List ℕ) (o : ℤ) : (lMulI64 x o).length = x.length := by
  unfold lMulI64; split <;> exact length_mulLoop _ _ _ _

theorem length_addLoop (x y : List ℕ) (c : ℕ) :
    (addLoop x y c).length = min x.length y.length := by
  induction x generalizing y c with
  | nil => cases y <;> simp [addLoop]
  | cons a as ih =>
    cases y with
    | nil => simp [addLoop]
    | cons b bs => rw [addLoop, List.length_cons, ih]; simp only [List.length_cons]; omega

theorem rowC_ok {L : ℕ} (hL : 0 < L) {n d : List ℕ} (hn : IsL L n) (hd : IsL L d) (c0 c1 : ℤ)
    (hc : |c0| + |c1| ≤ 2 ^ 30) : rowC n d c0 c1 = some (row n d c0 c1) := by
  have h0 := abs_le.mp (le_of_add_abs hc).1
  have h1 := abs_le.mp (le_of_add_abs hc).2
  unfold rowC row
  rw [lMulI64C_ok hn.wf c0 (by omega) (by omega), lMulI64C_ok hd.wf c1 (by omega) (by omega)]
  simp only [Option.bind_eq_bind, Option.bind_some]
  unfold lShrC
  have hl : (lAdd (lMulI64 n c0) (lMulI64 d c1)).length = L := by
    rw [lAdd, length_addLoop, length_lMulI64, length_lMulI64, hn.len, hd.len, min_self]
  rw [hl, subU_some (by omega : 1 ≤ L)]
  rfl

theorem jacobinaryLoopC_ok (fuel n d t : ℕ) (hn : n < 2 ^ 64) :
    jacobinaryLoopC fuel n d t = jacobinaryLoop fuel n d t ∨ ¬ d < 2 ^ 64 := by
  induction fuel generalizing n d t with
  | zero => exact Or.inl rfl
  | succ fuel ih =>
    by_cases hd : d < 2 ^ 64
    · left
      rw [jacobinaryLoopC, jacobinaryLoop]
      split
      · rfl
      · rename_i h0
        split
        · split
          · rename_i h2
            rw [subU_some h2.le]
            simp only [Option.bind_eq_bind, Option.bind_some]
            rcases ih ((d - n) / 2) n _ (by omega) with h | h
            · exact h
            · exact absurd hn h
          · rename_i h2
            rw [subU_some (by omega)]
            simp only [Option.bind_eq_bind, Option.bind_some]
            rcases ih ((n - d) / 2) d _ (by omega) with h | h
            · exact h
            · exact absurd hd h
        · obtain ⟨t1, t2, t3⟩ := Inverse.tz_spec 64 n
          have ht : tz 64 n < 64 := by
            rcases Nat.lt_or_ge (tz 64 n) 64 with h | h
            · exact h
            · exfalso
              have e : tz 64 n = 64 := by omega
              rw [e] at t2
              have := Nat.le_of_dvd (by omega) t2
              omega
          rw [shiftOk_some ht]
          simp only [Option.bind_eq_bind, Option.bind_some]
          rcases ih (n / 2 ^ tz 64 n) d _ (lt_of_le_of_lt (Nat.div_le_self _ _) hn) with h | h
          · exact h
          · exact absurd hd h
    · exact Or.inr hd

theorem jacobinaryC_ok (n d t : ℕ) (hn : n < 2 ^ 64) (hd : d < 2 ^ 64) (ho : d % 2 = 1) :
    jacobinaryC n d t = jacobinary n d t := by
  unfold jacobinaryC jacobinary
  rw [debugAssert_some (by simpa using ho)]
  simp only [Option.bind_eq_bind, Option.bind_some]
  rcases jacobinaryLoopC_ok 129 n d t hn with h | h
  · exact h
  · exact absurd hd h

/-- The bounds on the variables of the inner loop. -/
structure Small (s : Inner) : Prop where
  i30 : s.i ≤ 30
  cu : |s.u0| + |s.u1| ≤ 2 ^ (30 - s.i)
  cv : |s.v0| + |s.v1| ≤ 2 ^ (30 - s.i)

theorem Small.swap {s : Inner} (h : Small s) : Small s.swap := ⟨h.i30, h.cv, h.cu⟩

theorem Small.sub {s : Inner} (h : Small s) (hi : s.i ≠ 0) (hab : s.b ≤ s.a) :
    s.subStepC = some s.subStep ∧ Small s.subStep := by
  have i30 := h.i30
  have cu := h.cu
  have cv := h.cv
  have e : (2 : ℤ) ^ (30 - (s.i - 1)) = 2 * 2 ^ (30 - s.i) := by
    rw [show 30 - (s.i - 1) = 30 - s.i + 1 by omega, pow_succ, mul_comm]
  have hb : (2 : ℤ) ^ (30 - s.i) ≤ 2 ^ 30 := pow_le_30 (by omega)
  have u0 := abs_le.mp (le_of_add_abs cu).1
  have u1 := abs_le.mp (le_of_add_abs cu).2
  have v0 := abs_le.mp (le_of_add_abs cv).1
  have v1 := abs_le.mp (le_of_add_abs cv).2
  unfold Inner.subStepC Inner.subStep
  have a0 := abs_sub s.u0 s.v0
  have a1 := abs_sub s.u1 s.v1
  rw [subU_some hab, subU_some (by omega), i64_id (x := s.u0 - s.v0) (by omega) (by omega),
    i64_id (x := s.u1 - s.v1) (by omega) (by omega), i64_id (x := s.v0 * 2) (by omega) (by omega),
    i64_id (x := s.v1 * 2) (by omega) (by omega), fitsI64_some (by omega) (by omega),
    fitsI64_some (by omega) (by omega)]
  refine ⟨rfl, by simp only; omega, ?_, ?_⟩
  · simp only
    rw [e]
    linarith
  · simp only
    rw [e, abs_mul, abs_mul, abs_of_pos (by norm_num : (0 : ℤ) < 2)]
    linarith

theorem Small.half {s : Inner} (h : Small s) :
    s.halfStepC = some s.halfStep ∧ Small s.halfStep := by
  have i30 := h.i30
  have cv := h.cv
  unfold Inner.halfStepC Inner.halfStep
  obtain ⟨z, hz⟩ : ∃ z, z = min s.i (tz 64 s.a) := ⟨_, rfl⟩
  simp only
  rw [← hz]
  have hzi : z ≤ s.i := by omega
  have e : (2 : ℤ) ^ (30 - (s.i - z)) = 2 ^ (30 - s.i) * 2 ^ z := by
    rw [← pow_add]; congr 1; omega
  have hb : (2 : ℤ) ^ (30 - (s.i - z)) ≤ 2 ^ 30 := pow_le_30 (by omega)
  have hs : |s.v0 * 2 ^ z| + |s.v1 * 2 ^ z| ≤ 2 ^ (30 - (s.i - z)) := by
    rw [e, abs_mul, abs_mul, abs_of_pos (by positivity : (0 : ℤ) < 2 ^ z), ← add_mul]
    exact mul_le_mul_of_nonneg_right cv (by positivity)
  have v0 := abs_le.mp (le_of_add_abs hs).1
  have v1 := abs_le.mp (le_of_add_abs hs).2
  rw [shiftOk_some (by omega), subU_some hzi]
  refine ⟨rfl, by simp only; omega, ?_, ?_⟩
  · simp only
    exact le_trans h.cu (pow_le_pow_right₀ (by norm_num) (by omega))
  · simp only
    rw [i64_id (x := s.v0 * 2 ^ z) (by omega) (by omega), i64_id (x := s.v1 * 2 ^ z) (by omega) (by omega)]
    exact hs

theorem Small.step {s : Inner} (h : Small s) (hi : s.i ≠ 0) : s.stepC = some s.step ∧ Small s.step := by
  unfold Inner.stepC Inner.step
  split
  · split
    · rename_i hlt
      exact h.swap.sub hi hlt.le
    · exact h.sub hi (by omega)
  · exact h.half

theorem innerLoopC_ok (fuel : ℕ) (s : Inner) (h : Small s) :
    innerLoopC fuel s = some (innerLoop fuel s) ∧ Small (innerLoop fuel s) := by
  induction fuel generalizing s with
  | zero => exact ⟨rfl, h⟩
  | succ fuel ih =>
    rw [innerLoopC, innerLoop]
    split
    · exact ⟨rfl, h⟩
    · rename_i hi
      obtain ⟨h1, h2⟩ := h.step hi
      rw [h1]
      simp only [Option.bind_eq_bind, Option.bind_some]
      exact ih _ h2

theorem lz_lt {t : ℕ} (h0 : t ≠ 0) : lz t < 64 := by
  have h := Nat.size_pos.mpr (Nat.pos_of_ne_zero h0)
  unfold lz
  omega

theorem approx1C_ok {x : List ℕ} {i z : ℕ} (hi : i < x.length) (hi0 : 0 < i) (hz : z < 64) :
    approx1C x i z = some (approx1 x i z) := by
  unfold approx1C approx1
  have h1 : i - 1 < x.length := by omega
  have h0 : 0 < x.length := by omega
  rw [List.getElem?_eq_getElem hi, List.getElem?_eq_getElem h0, shiftOk_some hz,
    List.getD_eq_getElem _ _ hi, List.getD_eq_getElem _ _ h1, List.getD_eq_getElem _ _ h0]
  simp only [Option.bind_eq_bind, Option.bind_some]
  split
  · rw [subU_some (by omega)]
    simp only [Option.bind_some]
    rw [List.getElem?_eq_getElem h1]
    rfl
  · rfl

theorem approximateC_ok {L : ℕ} (hL : 0 < L) {n d : List ℕ} (h : Args L n d) :
    approximateC L n d = approximate L n d := by
  unfold approximateC approximate
  have cn := code_of_small hL h.ln h.nb
  have cd := code_of_small hL h.ld h.db
  have nn : isNeg n = false := by
    rw [isNeg_spec hL cn]
    simp
  have nd : isNeg d = false := by
    rw [isNeg_spec hL cd]
    simp
  have hd0 : (d == lZero L) = false := by
    have : d ≠ lZero L := by
      intro e
      have ho := h.odd
      rw [e, lZero, val_replicate] at ho
      omega
    simpa using this
  have hd0' : d.getD 0 0 ≠ 0 := by
    have := low_mod (x := d)
    intro e
    rw [e] at this
    have := h.odd
    omega
  have d1 : debugAssert (!(isNeg n || isNeg d)) = some () := debugAssert_some (by rw [nn, nd]; rfl)
  have d2 : debugAssert (!(n == lZero L) || !(d == lZero L)) = some () :=
    debugAssert_some (by rw [hd0]; simp)
  rw [d1, d2]
  simp only [Option.bind_eq_bind, Option.bind_some]
  rw [subU_some (by omega)]
  simp only [Option.bind_some]
  cases ht : topIdx n d (L - 1) with
  | none => rfl
  | some i =>
    obtain ⟨h1, h2, h3⟩ := topIdx_some ht
    have ln := h.ln.len
    have ld := h.ld.len
    simp only [Option.bind_some]
    have k0 : 0 < n.length := by omega
    have k0' : 0 < d.length := by omega
    cases i with
    | zero =>
      rw [if_pos rfl, List.getElem?_eq_getElem k0, List.getElem?_eq_getElem k0',
        List.getD_eq_getElem _ _ k0, List.getD_eq_getElem _ _ k0']
      rfl
    | succ i =>
      have k1 : i + 1 < n.length := by omega
      have k2 : i + 1 < d.length := by omega
      have hz : min (lz (n.getD (i + 1) 0)) (lz (d.getD (i + 1) 0)) < 64 := by
        by_cases hx : n.getD (i + 1) 0 = 0
        · have hy : d.getD (i + 1) 0 ≠ 0 := by
            intro hy
            exact h2.elim (fun h => h hx) (fun h => h hy)
          have := lz_lt hy
          omega
        · have := lz_lt hx
          omega
      rw [if_neg (by omega), List.getElem?_eq_getElem k1, List.getElem?_eq_getElem k2]
      rw [List.getD_eq_getElem _ _ k1, List.getD_eq_getElem _ _ k2] at hz
      simp only [Option.bind_some]
      rw [approx1C_ok k1 (by omega) hz, approx1C_ok k2 (by omega) hz,
        List.getD_eq_getElem _ _ k1, List.getD_eq_getElem _ _ k2]
      rfl

/-- The arguments of the next round. -/
theorem next_args {L : ℕ} (hL : 0 < L) {n d : List ℕ} (h : Args L n d) {a b t : ℕ}
    (hap : ApproxSpec n d (some (a, b, false))) {s : Inner}
    (hs : s = innerLoop 30 ⟨30, a, b, 1, 0, 0, 1, t⟩) {n' d' : List ℕ}
    (hn' : n' = row n d s.u0 s.u1) (hd' : d' = row n d s.v0 s.v1) (hz : n' ≠ lZero L) :
    (isNeg n' = true → Args L (lNeg n') d') ∧
    (isNeg n' = false → isNeg d' = true → Args L n' (lNeg d')) ∧
    (isNeg n' = false → isNeg d' = false → Args L n' d') := by
  obtain ⟨A, B, rA, rB, oB, pos, sym, bA, bB, hmu⟩ := round_spec hL h hap hs
  rw [← hn'] at rA
  rw [← hd'] at rB
  have hp : (2 : ℤ) ^ (64 * L - 31) ≤ 2 ^ (64 * L - 1) := pow_le_pow_right₀ (by norm_num) (by omega)
  have nat31 : ∀ {x : List ℕ} {v : ℤ}, (val x : ℤ) = v → |v| < 2 ^ (64 * L - 31) → val x < 2 ^ (64 * L - 31) := by
    intro x v e hv
    have := (abs_lt.mp hv).2
    rw [← e] at this
    exact_mod_cast this
  have vpos : ∀ {x : List ℕ} {v : ℤ}, Code L x v → 0 ≤ v → (val x : ℤ) = v := by
    intro x v hx hv
    rcases hx.cases hL with ⟨_, e⟩ | ⟨hc, _⟩
    · exact e
    · omega
  have hA0 : A ≠ 0 := by
    intro hA
    subst hA
    exact hz (rA.inj hL code_zero)
  rw [isNeg_spec hL rA, isNeg_spec hL rB]
  simp only [decide_eq_true_eq, decide_eq_false_iff_not]
  refine ⟨fun nA => ?_, fun pA nB => ?_, fun pA pB => ?_⟩
  · have rN := rA.neg (by omega)
    have vN := vpos rN (by omega)
    have vD := vpos rB (by omega)
    exact ⟨rN.isL, rB.isL, nat31 vN (by rw [abs_neg]; exact bA), nat31 vD bB, by omega⟩
  · have rD := rB.neg (by omega)
    have vN := vpos rA (by omega)
    have vD := vpos rD (by omega)
    exact ⟨rA.isL, rD.isL, nat31 vN bA, nat31 vD (by rw [abs_neg]; exact bB), by omega⟩
  · have vN := vpos rA (by omega)
    have vD := vpos rB (by omega)
    exact ⟨rA.isL, rB.isL, nat31 vN bA, nat31 vD bB, by omega⟩

theorem jacobiLoopC_ok {L : ℕ} (hL : 0 < L) (fuel : ℕ) (n d : List ℕ) (t : ℕ) (h : Args L n d) :
    jacobiLoopC L fuel n d t = jacobiLoop L fuel n d t := by
  induction fuel generalizing n d t with
  | zero => rfl
  | succ fuel ih =>
    rw [jacobiLoopC, jacobiLoop, approximateC_ok hL h]
    have hap := approximate_spec hL h.ln h.ld h.odd
    generalize approximate L n d = ap at hap
    cases hap with
    | precise hx hy =>
      simp only [Option.bind_eq_bind, Option.bind_some, if_true]
      exact jacobinaryC_ok _ _ _ hx hy h.odd
    | rough a b ha hb ca cb hxy hyx heq =>
      have hap' : ApproxSpec n d (some (a, b, false)) := .rough a b ha hb ca cb hxy hyx heq
      simp only [Option.bind_eq_bind, Option.bind_some, Bool.false_eq_true, if_false]
      obtain ⟨h1, h2⟩ := innerLoopC_ok 30 ⟨30, a, b, 1, 0, 0, 1, t⟩ ⟨le_rfl, by simp, by simp⟩
      rw [h1]
      simp only [Option.bind_some]
      obtain ⟨s, hs⟩ : ∃ s, s = innerLoop 30 ⟨30, a, b, 1, 0, 0, 1, t⟩ := ⟨_, rfl⟩
      rw [← hs] at h2 ⊢
      have cu := le_trans h2.cu (pow_le_30 (k := 30 - s.i) (by omega))
      have cv := le_trans h2.cv (pow_le_30 (k := 30 - s.i) (by omega))
      rw [rowC_ok hL h.ln h.ld _ _ cu, rowC_ok hL h.ln h.ld _ _ cv]
      simp only [Option.bind_some]
      obtain ⟨n', hn'⟩ : ∃ n', n' = row n d s.u0 s.u1 := ⟨_, rfl⟩
      obtain ⟨d', hd'⟩ : ∃ d', d' = row n d s.v0 s.v1 := ⟨_, rfl⟩
      rw [← hn', ← hd']
      split
      · rfl
      · rename_i hz
        obtain ⟨g1, g2, g3⟩ := next_args hL h hap' hs hn' hd' hz
        split
        · rename_i hn
          exact ih _ _ _ (g1 hn)
        · rename_i hn
          rw [Bool.not_eq_true] at hn
          split
          · rename_i hd
            exact ih _ _ _ (g2 hn hd)
          · rename_i hd
            rw [Bool.not_eq_true] at hd
            exact ih _ _ _ (g3 hn hd)

/-- The top word of a number below `2^(64L - 31)` has 31 leading zeros. -/
theorem lz_top {L : ℕ} (hL : 0 < L) {x : List ℕ} (h : IsL L x) (hb : val x < 2 ^ (64 * L - 31))
    (hi : L - 1 < x.length) : 31 ≤ lz x[L - 1] := by
  have hw : W ^ (L - 1) * x[L - 1] ≤ val x := by
    have e : x = x.take (L - 1) ++ [x[L - 1]] := by
      have h1 := List.take_append_drop (L - 1) x
      have h2 : x.drop (L - 1) = [x[L - 1]] := by
        rw [List.drop_eq_getElem_cons hi]
        have : x.drop (L - 1 + 1) = [] := List.drop_eq_nil_of_le (by have := h.len; omega)
        rw [this]
      rw [← h2, h1]
    have e2 : val x = val (x.take (L - 1)) + W ^ (L - 1) * x[L - 1] := by
      conv_lhs => rw [e]
      rw [val_append, List.length_take, Nat.min_eq_left (by omega)]
      simp [val]
    omega
  have hlt : x[L - 1] < 2 ^ 33 := by
    by_contra hc
    have h1 : W ^ (L - 1) * 2 ^ 33 ≤ W ^ (L - 1) * x[L - 1] := Nat.mul_le_mul_left _ (by omega)
    have h2 : W ^ (L - 1) * 2 ^ 33 = 2 ^ (64 * L - 31) := by
      rw [W_eq, ← pow_mul, ← pow_add]; congr 1; omega
    omega
  have := Nat.size_le.mpr hlt
  unfold lz
  omega

/-- No check fails in `jacobi`. -/
theorem jacobiC_ok {L : ℕ} (hL : 0 < L) {n d : List ℕ} (hn : Wf n) (hd : Wf d)
    (ln : n.length ≤ L) (ld : d.length ≤ L) (nb : val n < 2 ^ (64 * L - 31))
    (db : val d < 2 ^ (64 * L - 31)) (odd : val d % 2 = 1) :
    jacobiC L n d = some (jacobiSym (val n) (val d)) := by
  rw [← jacobi_spec hL hn hd ln ld nb db odd]
  obtain ⟨n', en, hn', vn⟩ := lNew_spec ln hn
  obtain ⟨d', ed, hd', vd⟩ := lNew_spec ld hd
  unfold jacobiC jacobi
  rw [en, ed]
  simp only [Option.bind_eq_bind, Option.bind_some]
  have l1 := hn'.len
  have l2 := hd'.len
  have k0 : 0 < d'.length := by omega
  have k1 : L - 1 < n'.length := by omega
  have k2 : L - 1 < d'.length := by omega
  have nb' : val n' < 2 ^ (64 * L - 31) := by rw [vn]; exact nb
  have db' : val d' < 2 ^ (64 * L - 31) := by rw [vd]; exact db
  have hodd : d'[0] % 2 = 1 := by
    have := low_mod (x := d')
    rw [List.getD_eq_getElem _ _ k0] at this
    omega
  have z1 := lz_top hL hn' nb' k1
  have z2 := lz_top hL hd' db' k2
  rw [List.getElem?_eq_getElem k0]
  simp only [Option.bind_some]
  rw [debugAssert_some (by simpa using hodd), subU_some (by omega)]
  simp only [Option.bind_some]
  rw [List.getElem?_eq_getElem k1, List.getElem?_eq_getElem k2]
  simp only [Option.bind_some]
  rw [debugAssert_some (by simp only [ge_iff_le, decide_eq_true_eq]; omega)]
  simp only [Option.bind_some]
  exact jacobiLoopC_ok hL _ n' d' 0 ⟨hn', hd', nb', db', by rw [vd]; exact odd⟩

end Halo2.Jacobi
