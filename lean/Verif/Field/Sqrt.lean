import Verif.Field.FpField
import Verif.Ext.Ring

/-!
# Square roots in the prime fields

Model of the two bodies of `sqrt` the field macro emits (derive/src/field/mod.rs:170-193) and of the
`ff` crate's `helpers::sqrt_tonelli_shanks` (version 0.13; external code, modelled from its published
source), and their correctness.
-/

set_option linter.unusedSectionVars false

namespace Halo2.Sqrt

open Halo2.Ext

/-! ## Model -/

section Model
variable {F : Type} [Mul F] [One F] [DecidableEq F]

/-- State of the inner loop of `sqrt_tonelli_shanks`. -/
structure Inner (F : Type) where
  k : ℕ
  b2k : F
  jlt : Bool
  z : F

/-- One pass of `for j in 2..max_v`. -/
def innerStep (sqf : F → F) (v : ℕ) (s : Inner F) (j : ℕ) : Inner F :=
  let one := decide (s.b2k = 1)
  let squared := sqf (if one then s.z else s.b2k)
  let b2k := if one then s.b2k else squared
  let newZ := if one then squared else s.z
  let jlt := s.jlt && !decide (j = v)
  let k := if one then s.k else j
  let z := if jlt then newZ else s.z
  ⟨k, b2k, jlt, z⟩

/-- State of the outer loop. -/
structure Outer (F : Type) where
  v : ℕ
  x : F
  b : F
  z : F

/-- One pass of `for max_v in (1..=F::S).rev()`. -/
def outerStep (sqf : F → F) (s : Outer F) (maxV : ℕ) : Outer F :=
  let i := (List.range' 2 (maxV - 2)).foldl (innerStep sqf s.v) ⟨1, sqf s.b, true, s.z⟩
  let result := s.x * i.z
  let x := if s.b = 1 then s.x else result
  let z := sqf i.z
  let b := s.b * z
  ⟨i.k, x, b, z⟩

/-- `ff::helpers::sqrt_tonelli_shanks(f, tm1d2)` with `F::S = S`, `F::ROOT_OF_UNITY = root`. -/
def tonelliShanks (sqf : F → F) (S : ℕ) (root : F) (tm1d2 : List ℕ) (f : F) : Option F :=
  let w := pow sqf f tm1d2
  let x := w * f
  let b := x * w
  let r := ((List.range' 1 S).reverse).foldl (outerStep sqf) ⟨S, x, b, root⟩
  if r.x * r.x = f then some r.x else none

/-- The `p = 3 mod 4` body. Models derive/src/field/mod.rs:180-189. -/
def sqrt34 (sqf : F → F) (exp : List ℕ) (f : F) : Option F :=
  let t := pow sqf f exp
  if sqf t = f then some t else none

end Model

/-! ## Correctness -/

section Proof
variable {K : Type} [Field K] [DecidableEq K] {sqf : K → K}

/-- What the inner loop computes. `k0` is the least `k ≥ 1` with `b^(2^k) = 1`. -/
theorem inner_spec (hs : ∀ x, sqf x = x * x) (b z : K) (v k0 : ℕ) (hk0 : 1 ≤ k0) (hb : b ^ 2 ^ k0 = 1)
    (hmin : ∀ i, 1 ≤ i → i < k0 → b ^ 2 ^ i ≠ 1) (m : ℕ) :
    let r := (List.range' 2 m).foldl (innerStep sqf v) ⟨1, sqf b, true, z⟩
    r.k = min (m + 1) k0 ∧ r.b2k = b ^ 2 ^ min (m + 1) k0 ∧ (r.jlt = true ↔ ¬ (2 ≤ v ∧ v < m + 2)) ∧
    (2 ≤ v → r.z = z ^ 2 ^ (min (m + 1) (v - 1) - k0)) ∧ (∃ e, r.z = z ^ 2 ^ e) := by
  induction m with
  | zero =>
    simp only [List.range'_zero, List.foldl_nil]
    refine ⟨by omega, ?_, ?_, ?_, ⟨0, by simp⟩⟩
    · rw [hs, show min (0 + 1) k0 = 1 by omega]; ring
    · simp only [true_iff]; omega
    · intro hv
      rw [show min (0 + 1) (v - 1) - k0 = 0 by omega]; simp
  | succ m ih =>
    simp only at ih ⊢
    rw [List.range'_concat, List.foldl_append, List.foldl_cons, List.foldl_nil]
    generalize (List.range' 2 m).foldl (innerStep sqf v) ⟨1, sqf b, true, z⟩ = r at ih
    obtain ⟨h1, h2, h3, h4, e, h5⟩ := ih
    have hone : (r.b2k = 1) ↔ k0 < m + 2 := by
      rw [h2]
      by_cases h : k0 ≤ m + 1
      · rw [min_eq_right h]
        exact ⟨fun _ => by omega, fun _ => hb⟩
      · rw [min_eq_left (by omega)]
        exact ⟨fun hh => absurd hh (hmin _ (by omega) (by omega)), fun hh => by omega⟩
    have hj : (2 + 1 * m = v) ↔ v = m + 2 := by omega
    by_cases ho : k0 < m + 2
    · have hb1 : r.b2k = 1 := hone.mpr ho
      rw [innerStep]
      simp only [hb1, decide_true, if_true, hs]
      refine ⟨by omega, ?_, ?_, ?_, ?_⟩
      · rw [show min (m + 1 + 1) k0 = k0 by omega, hb]
      · rw [Bool.and_eq_true, h3, Bool.not_eq_true', decide_eq_false_iff_not, hj]; omega
      · intro hv
        have h4' := h4 hv
        by_cases hlt : v < m + 3
        · rw [if_neg (by
            rw [Bool.and_eq_true, h3, Bool.not_eq_true', decide_eq_false_iff_not, hj]; omega), h4']
          congr 2
          omega
        · rw [if_pos (by
            rw [Bool.and_eq_true, h3, Bool.not_eq_true', decide_eq_false_iff_not, hj]; omega), h4',
            ← pow_add]
          congr 1
          rw [show min (m + 1 + 1) (v - 1) - k0 = (min (m + 1) (v - 1) - k0) + 1 by omega, pow_succ]
          ring
      · split
        · exact ⟨e + 1, by rw [h5, pow_succ, pow_mul, pow_two]⟩
        · exact ⟨e, h5⟩
    · have hb1 : ¬ r.b2k = 1 := fun h => ho (hone.mp h)
      rw [innerStep]
      simp only [hb1, decide_false, Bool.false_eq_true, if_false, hs, ite_self]
      refine ⟨by omega, ?_, ?_, ?_, ⟨e, h5⟩⟩
      · rw [h2, ← pow_add, show min (m + 1 + 1) k0 = m + 2 by omega, show min (m + 1) k0 = m + 1 by omega]
        congr 1
        ring
      · rw [Bool.and_eq_true, h3, Bool.not_eq_true', decide_eq_false_iff_not, hj]; omega
      · intro hv
        rw [h4 hv]
        congr 2
        omega

/-- Loop invariant of the outer loop, for a square `f`, before the pass with `max_v = M`. -/
def Inv (f : K) (M : ℕ) (s : Outer K) : Prop :=
  (1 ≤ s.v ∧ s.v ≤ M ∧ s.x ^ 2 = f * s.b ∧ s.b ^ 2 ^ (s.v - 1) = 1 ∧ s.z ^ 2 ^ (s.v - 1) = -1) ∨
  (s.x ^ 2 = f ∧ s.z ^ 2 = 1 ∧ s.b ^ 2 = 1)

theorem exists_order (b : K) (n : ℕ) (h : b ^ 2 ^ n = 1) :
    ∃ k0, 1 ≤ k0 ∧ k0 ≤ max 1 n ∧ b ^ 2 ^ k0 = 1 ∧ ∀ i, 1 ≤ i → i < k0 → b ^ 2 ^ i ≠ 1 := by
  have hex : ∃ k, 1 ≤ k ∧ b ^ 2 ^ k = 1 := by
    refine ⟨max 1 n, by omega, ?_⟩
    obtain ⟨d, hd⟩ : ∃ d, max 1 n = n + d := ⟨max 1 n - n, by omega⟩
    rw [hd, pow_add, pow_mul, h, one_pow]
  classical
  refine ⟨Nat.find hex, (Nat.find_spec hex).1, ?_, (Nat.find_spec hex).2, ?_⟩
  · apply Nat.find_min' hex
    refine ⟨by omega, ?_⟩
    obtain ⟨d, hd⟩ : ∃ d, max 1 n = n + d := ⟨max 1 n - n, by omega⟩
    rw [hd, pow_add, pow_mul, h, one_pow]
  · intro i h1 h2 h3
    exact Nat.find_min hex h2 ⟨h1, h3⟩

theorem pow_two_pow_sq {a : K} (h : a ^ 2 = 1) (e : ℕ) : (a ^ 2 ^ e) ^ 2 = 1 := by
  rw [← pow_mul, mul_comm, pow_mul, h, one_pow]

theorem outer_inv (hs : ∀ x, sqf x = x * x) (f : K) (M : ℕ) (s : Outer K) (h : Inv f (M + 1) s) :
    Inv f M (outerStep sqf s (M + 1)) := by
  obtain ⟨v, x, b, z⟩ := s
  have hfin : ∀ (hx : x ^ 2 = f) (hz : z ^ 2 = 1) (hb : b ^ 2 = 1), Inv f M (outerStep sqf ⟨v, x, b, z⟩ (M + 1)) := by
    intro hx hz hb
    right
    obtain ⟨k0, hk1, -, hk2, hk3⟩ := exists_order b 1 (by rw [pow_one]; exact hb)
    have hi := inner_spec hs b z v k0 hk1 hk2 hk3 (M + 1 - 2)
    simp only at hi
    rw [outerStep]
    simp only
    generalize (List.range' 2 (M + 1 - 2)).foldl (innerStep sqf v) ⟨1, sqf b, true, z⟩ = r at hi
    obtain ⟨-, -, -, -, e, he⟩ := hi
    have hrz : r.z ^ 2 = 1 := by rw [he]; exact pow_two_pow_sq hz e
    refine ⟨?_, ?_, ?_⟩
    · split
      · exact hx
      · rw [mul_pow, hx, hrz, mul_one]
    · rw [hs, ← pow_two, hrz, one_pow]
    · rw [hs, ← pow_two, hrz, mul_one, hb]
  rcases h with ⟨hv1, hvM, hx, hb, hz⟩ | ⟨hx, hz, hb⟩
  · simp only at hv1 hvM hx hb hz
    by_cases hb1 : b = 1
    · -- finished already
      subst hb1
      rw [mul_one] at hx
      right
      obtain ⟨k0, hk1, hk4, hk2, hk3⟩ := exists_order (1 : K) 1 (one_pow _)
      have hi := inner_spec hs (1 : K) z v k0 hk1 hk2 hk3 (M + 1 - 2)
      simp only at hi
      rw [outerStep]
      simp only
      generalize (List.range' 2 (M + 1 - 2)).foldl (innerStep sqf v) ⟨1, sqf 1, true, z⟩ = r at hi
      obtain ⟨-, -, -, h4, e, he⟩ := hi
      have hrz : (r.z ^ 2) ^ 2 = 1 := by
        by_cases hv2 : 2 ≤ v
        · have e2 : (z ^ 2 ^ (v - 2)) ^ 2 = -1 := by
            rw [← pow_mul, ← pow_succ, show v - 2 + 1 = v - 1 by omega, hz]
          rw [h4 hv2, show min (M + 1 - 2 + 1) (v - 1) - k0 = v - 2 by omega, e2]
          ring
        · have : v = 1 := by omega
          subst this
          simp only [Nat.sub_self, pow_zero, pow_one] at hz
          rw [he, hz, pow_two_pow_sq (by ring) e, one_pow]
      rw [if_true, hs, ← pow_two, one_mul]
      exact ⟨hx, hrz, hrz⟩
    · -- a genuine step
      have hv2 : 2 ≤ v := by
        by_contra hc
        have : v = 1 := by omega
        subst this
        simp only [Nat.sub_self, pow_zero, pow_one] at hb
        exact hb1 hb
      left
      obtain ⟨k0, hk1, hk4, hk2, hk3⟩ := exists_order b (v - 1) hb
      have hkv : k0 ≤ v - 1 := by omega
      have hi := inner_spec hs b z v k0 hk1 hk2 hk3 (M + 1 - 2)
      simp only at hi
      rw [outerStep]
      simp only
      generalize (List.range' 2 (M + 1 - 2)).foldl (innerStep sqf v) ⟨1, sqf b, true, z⟩ = r at hi
      obtain ⟨h1, -, -, h4, -⟩ := hi
      have hk : r.k = k0 := by omega
      have hrz : r.z = z ^ 2 ^ (v - 1 - k0) := by
        rw [h4 hv2]; congr 2; omega
      have hrz2 : r.z * r.z = z ^ 2 ^ (v - k0) := by
        rw [hrz, ← pow_two, ← pow_mul, ← pow_succ]
        congr 2
        omega
      have hzk : (z ^ 2 ^ (v - k0)) ^ 2 ^ (k0 - 1) = -1 := by
        rw [← pow_mul, ← pow_add, show v - k0 + (k0 - 1) = v - 1 by omega, hz]
      have hbk : b ^ 2 ^ (k0 - 1) = -1 := by
        have hne : b ^ 2 ^ (k0 - 1) ≠ 1 := by
          by_cases hk01 : k0 = 1
          · subst hk01; simpa using hb1
          · exact hk3 _ (by omega) (by omega)
        have hsq : (b ^ 2 ^ (k0 - 1)) ^ 2 = 1 := by
          rw [← pow_mul, ← pow_succ, show k0 - 1 + 1 = k0 by omega, hk2]
        rcases sq_eq_one_iff.mp hsq with h | h
        · exact absurd h hne
        · exact h
      rw [if_neg hb1, hk, hs, hrz2]
      refine ⟨hk1, by omega, ?_, ?_, hzk⟩
      · rw [mul_pow, hx, pow_two r.z, hrz2]; ring
      · rw [mul_pow, hbk, hzk]; ring
  · exact hfin hx hz hb

theorem outer_fold (hs : ∀ x, sqf x = x * x) (f : K) (S : ℕ) (s : Outer K) (h : Inv f S s) :
    Inv f 0 ((List.range' 1 S).reverse.foldl (outerStep sqf) s) := by
  induction S generalizing s with
  | zero => exact h
  | succ S ih =>
    rw [List.range'_concat, List.reverse_append, List.reverse_singleton, List.singleton_append, List.foldl_cons]
    apply ih
    rw [show 1 + 1 * S = S + 1 by omega]
    exact outer_inv hs f S s h

theorem outer_fold_zero (l : List ℕ) (s : Outer K) (h : s.x = 0) :
    (l.foldl (outerStep sqf) s).x = 0 := by
  induction l generalizing s with
  | nil => exact h
  | cons m l ih =>
    rw [List.foldl_cons]
    apply ih
    rw [outerStep]
    simp only [h, zero_mul, ite_self]

/-- Tonelli-Shanks returns a root when there is one. -/
theorem tonelliShanks_spec (hs : ∀ x, sqf x = x * x) (S t : ℕ) (hS : 1 ≤ S) (ht : t % 2 = 1) (root : K)
    (hroot : root ^ 2 ^ (S - 1) = -1) (hcard : ∀ a : K, a ≠ 0 → a ^ (2 ^ S * t) = 1)
    (exp : List ℕ) (hexp : ∀ x ∈ exp, x < 2 ^ 64) (he : limbsVal exp = (t - 1) / 2) (f : K) :
    (∀ r, tonelliShanks sqf S root exp f = some r → r * r = f) ∧
    (IsSquare f → ∃ r, tonelliShanks sqf S root exp f = some r) := by
  constructor
  · intro r h
    rw [tonelliShanks] at h
    split at h
    · rename_i hh
      rw [← Option.some.inj h]; exact hh
    · exact absurd h (by simp)
  · rintro ⟨g, hg⟩
    rw [tonelliShanks]
    rw [pow_eq sqf hs f exp hexp, he]
    have key : (((List.range' 1 S).reverse).foldl (outerStep sqf)
        ⟨S, f ^ ((t - 1) / 2) * f, f ^ ((t - 1) / 2) * f * f ^ ((t - 1) / 2), root⟩).x ^ 2 = f := by
      by_cases h0 : g = 0
      · subst h0
        rw [mul_zero] at hg
        subst hg
        rw [outer_fold_zero _ _ (by simp)]
        ring
      · have hi := outer_fold hs f S ⟨S, f ^ ((t - 1) / 2) * f, f ^ ((t - 1) / 2) * f * f ^ ((t - 1) / 2), root⟩ (by
          left
          refine ⟨hS, le_refl _, ?_, ?_, hroot⟩
          · ring
          · have hb : f ^ ((t - 1) / 2) * f * f ^ ((t - 1) / 2) = f ^ t := by
              rw [← pow_succ, ← pow_add]; congr 1; omega
            change (f ^ ((t - 1) / 2) * f * f ^ ((t - 1) / 2)) ^ 2 ^ (S - 1) = 1
            rw [hb, hg, ← pow_two, ← pow_mul, ← pow_mul]
            have : 2 * (t * 2 ^ (S - 1)) = 2 ^ S * t := by
              obtain ⟨S', rfl⟩ : ∃ S', S = S' + 1 := ⟨S - 1, by omega⟩
              rw [Nat.add_sub_cancel, pow_succ]; ring
            rw [this]
            exact hcard g h0)
        rcases hi with ⟨h1, h2, -⟩ | ⟨h1, -, -⟩
        · omega
        · exact h1
    rw [← pow_two, key]
    exact ⟨_, if_pos rfl⟩

/-- The `p = 3 mod 4` root. -/
theorem sqrt34_spec (hs : ∀ x, sqf x = x * x) (p : ℕ) (hp : p % 4 = 3) (hcard : ∀ a : K, a ≠ 0 → a ^ (p - 1) = 1)
    (exp : List ℕ) (hexp : ∀ x ∈ exp, x < 2 ^ 64) (he : limbsVal exp = (p + 1) / 4) (f : K) :
    (∀ r, sqrt34 sqf exp f = some r → r * r = f) ∧ (IsSquare f → ∃ r, sqrt34 sqf exp f = some r) := by
  constructor
  · intro r h
    rw [sqrt34] at h
    split at h
    · rename_i hh
      rw [← Option.some.inj h, ← hs]; exact hh
    · exact absurd h (by simp)
  · rintro ⟨g, hg⟩
    rw [sqrt34]
    rw [pow_eq sqf hs f exp hexp, he]
    have key : sqf (f ^ ((p + 1) / 4)) = f := by
      rw [hs, hg]
      by_cases h0 : g = 0
      · subst h0
        rw [mul_zero, zero_pow (by omega), mul_zero]
      · have e : (g * g) ^ ((p + 1) / 4) * (g * g) ^ ((p + 1) / 4) = g ^ (p - 1) * (g * g) := by
          rw [← pow_two g, ← pow_mul, ← pow_add, ← pow_add]
          congr 1
          omega
        rw [e, hcard g h0, one_mul]
    rw [if_pos key]
    exact ⟨_, rfl⟩

end Proof

end Halo2.Sqrt
