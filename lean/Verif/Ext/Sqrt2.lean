import Verif.Ext.Tower
import Mathlib.Tactic.LinearCombination

/-!
# Square roots in quadratic extensions

Correctness of `sqrt_algo9` (`q = 3 mod 4`) and `sqrt_algo10` (`q = 1 mod 4`) over a finite field
with `q` elements, stated through `x^q`.
-/

set_option linter.unusedSectionVars false

namespace Halo2.Ext

open ExtField

section Sqrt2

variable {F : Type} [_root_.Field F] [DecidableEq F] [ExtField F] [LawfulExt F]
variable [ExtField (Quad F)] [LawfulExt (Quad F)] [IsDomain (Quad F)] {q : ℕ}

theorem Quad.conj_conj (x : Quad F) : Quad.conjugate (Quad.conjugate x) = x := by
  ext
  · rfl
  · change - -x.c1 = x.c1
    rw [neg_neg]

theorem Quad.conj_add (x y : Quad F) : Quad.conjugate (x + y) = Quad.conjugate x + Quad.conjugate y := by
  ext
  · rfl
  · change -(x.c1 + y.c1) = -x.c1 + -y.c1
    ring

theorem Quad.conj_one : Quad.conjugate (1 : Quad F) = 1 := by
  ext
  · rfl
  · change -(0 : F) = 0
    ring

theorem Quad.neg1_eq : (⟨0 - 1, 0⟩ : Quad F) = -1 := by
  ext
  · change (0 - 1 : F) = -1
    ring
  · change (0 : F) = -0
    ring

/-- `2 ≠ 0` makes `1 ≠ -1`. -/
theorem Quad.one_ne_neg_one (h2 : (2 : F) ≠ 0) : (1 : Quad F) ≠ -1 := by
  intro h
  have : (1 : F) = -1 := congrArg Quad.c0 h
  apply h2
  linear_combination this

variable (hconj : ∀ x : Quad F, Quad.conjugate x = x ^ q) (hq : 1 < q)
include hconj hq

theorem Quad.pow_sq_pred (x : Quad F) (hx : x ≠ 0) : x ^ (q ^ 2 - 1) = 1 := by
  have h : x ^ q ^ 2 = x := by
    rw [pow_two, pow_mul, ← hconj, ← hconj, Quad.conj_conj]
  have hpos : 0 < q ^ 2 := Nat.pow_pos (by omega)
  apply mul_right_cancel₀ hx
  rw [← pow_succ, Nat.sub_add_cancel hpos, h, one_mul]

theorem Quad.one_add_pow (x : Quad F) : (x + 1) ^ q = x ^ q + 1 := by
  rw [← hconj, ← hconj, Quad.conj_add, Quad.conj_one]

/-- A non-zero element whose `(q²-1)/2`-th power is `-1` is not a square. -/
theorem Quad.not_square_of_pow (h2 : (2 : F) ≠ 0) (hodd : q % 2 = 1) (x : Quad F)
    (h : x ^ ((q ^ 2 - 1) / 2) = -1) : ¬ IsSquare x := by
  rintro ⟨y, rfl⟩
  have hy : y ≠ 0 := by
    rintro rfl
    have hpos : 0 < (q ^ 2 - 1) / 2 := by
      have : 2 * 2 ≤ q * q := Nat.mul_le_mul hq hq
      rw [pow_two]; omega
    rw [mul_zero, zero_pow hpos.ne'] at h
    have := congrArg Quad.c0 h
    change (0 : F) = -1 at this
    exact one_ne_zero (by linear_combination this : (1 : F) = 0)
  have h1 := Quad.pow_sq_pred hconj hq y hy
  have hev : (q ^ 2 - 1) / 2 * 2 = q ^ 2 - 1 := by
    have : q ^ 2 % 2 = 1 := by rw [Nat.pow_mod, hodd]
    omega
  rw [← pow_two, ← pow_mul, mul_comm, hev, h1] at h
  exact Quad.one_ne_neg_one h2 h

/-- **`sqrt_algo9`** for `q = 3 mod 4` and `NON_RESIDUE = -1`. -/
theorem sqrtAlgo9_spec (hmod : q % 4 = 3) (h2 : (2 : F) ≠ 0) (hnr : (nonRes : F) = -1)
    (hfrob : ∀ x : Quad F, frob 1 x = Quad.conjugate x)
    (hz : ∀ x : Quad F, isZero x = true ↔ x = 0)
    (e1 e2 : List ℕ) (hb1 : ∀ x ∈ e1, x < 2 ^ 64) (hb2 : ∀ x ∈ e2, x < 2 ^ 64)
    (he1 : limbsVal e1 = (q - 3) / 4) (he2 : limbsVal e2 = (q - 1) / 2) (e : Quad F) :
    (∀ r, sqrtAlgo9 e e1 e2 = some r → r * r = e) ∧ (sqrtAlgo9 e e1 e2 = none → ¬ IsSquare e) := by
  obtain ⟨k, rfl⟩ : ∃ k, q = 4 * k + 3 := ⟨q / 4, by omega⟩
  have hk1 : (4 * k + 3 - 3) / 4 = k := by omega
  have hk2 : (4 * k + 3 - 1) / 2 = 2 * k + 1 := by omega
  rw [hk1] at he1
  rw [hk2] at he2
  unfold sqrtAlgo9
  by_cases he : e = 0
  · rw [if_pos ((hz e).mpr he), he]
    exact ⟨fun r hr => by rw [← Option.some.inj hr, mul_zero], fun h => by cases h⟩
  · rw [if_neg (fun h => he ((hz e).mp h))]
    rw [pow_eq _ LawfulExt.sqr_eq _ _ hb1, he1]
    dsimp only
    rw [LawfulExt.sqr_eq, pow_eq _ LawfulExt.sqr_eq _ _ hb2, he2, hfrob, hconj, Quad.neg1_eq]
    have ha : e ^ k * e ^ k * e = e ^ (2 * k + 1) := by ring
    rw [ha]
    have h0 : (e ^ (2 * k + 1)) ^ (4 * k + 3) * e ^ (2 * k + 1) = e ^ (((4 * k + 3) ^ 2 - 1) / 2) := by
      have : ((4 * k + 3) ^ 2 - 1) / 2 = (2 * k + 1) * (4 * k + 4) := by
        have : (4 * k + 3) ^ 2 = 2 * ((2 * k + 1) * (4 * k + 4)) + 1 := by ring
        omega
      rw [this]; ring
    by_cases hm : e ^ (((4 * k + 3) ^ 2 - 1) / 2) = -1
    · rw [if_pos (by rw [h0]; exact hm)]
      exact ⟨fun r hr => (by cases hr), fun _ => Quad.not_square_of_pow hconj hq h2 (by omega) e hm⟩
    · rw [if_neg (by rw [h0]; exact hm)]
      have hsq : e ^ (((4 * k + 3) ^ 2 - 1) / 2) = 1 := by
        have h1 := Quad.pow_sq_pred hconj hq e he
        have : (4 * k + 3) ^ 2 - 1 = (((4 * k + 3) ^ 2 - 1) / 2) * 2 := by
          have : (4 * k + 3) ^ 2 = 2 * ((2 * k + 1) * (4 * k + 4)) + 1 := by ring
          omega
        rw [this, pow_mul, pow_two] at h1
        exact (mul_self_eq_one_iff.mp h1).resolve_right hm
      have hal : (e ^ (2 * k + 1)) ^ (4 * k + 3) * e ^ (2 * k + 1) = 1 := by rw [h0, hsq]
      have hx0 : (e ^ k * e) * (e ^ k * e) = e ^ (2 * k + 1) * e := by ring
      generalize e ^ (2 * k + 1) = al at *
      by_cases hal1 : al = -1
      · rw [if_pos hal1]
        refine ⟨fun r hr => ?_, fun h => by cases h⟩
        rw [← Option.some.inj hr]
        have hU : (⟨0, 1⟩ : Quad F) * ⟨0, 1⟩ = -1 := by
          have h := Quad.U_sq (F := F)
          rw [hnr, map_neg, map_one] at h
          exact h
        rw [hal1] at hx0
        linear_combination (⟨0, 1⟩ * ⟨0, 1⟩ : Quad F) * hx0 - e * hU
      · rw [if_neg hal1]
        refine ⟨fun r hr => ?_, fun h => by cases h⟩
        rw [← Option.some.inj hr]
        have hne : al + 1 ≠ 0 := fun h => hal1 (eq_neg_of_add_eq_zero_left h)
        have hinv : (al + 1) ^ (4 * k + 2) * al = 1 := by
          have h := Quad.one_add_pow hconj hq al
          apply mul_right_cancel₀ hne
          calc (al + 1) ^ (4 * k + 2) * al * (al + 1) = (al + 1) ^ (4 * k + 3) * al := by ring
            _ = _ := by rw [h]; linear_combination hal
        have : (al + 1) ^ (2 * k + 1) * (al + 1) ^ (2 * k + 1) = (al + 1) ^ (4 * k + 2) := by ring
        linear_combination (al + 1) ^ (2 * k + 1) * (al + 1) ^ (2 * k + 1) * hx0 + al * e * this + e * hinv

/-- One unfolding of `sqrt_algo10` in terms of powers (`q = 4k + 1`). -/
theorem sqrtAlgo10_succ (k : ℕ) (hfrob : ∀ x : Quad F, frob 1 x = Quad.conjugate x)
    (e4 : List ℕ) (hb : ∀ x ∈ e4, x < 2 ^ 64) (he4 : limbsVal e4 = k)
    (bs : F → Option F) (pe pf : Quad F) (fuel : ℕ) (el : Quad F) :
    sqrtAlgo10 bs pe pf e4 (fuel + 1) el =
      if (el ^ k * el ^ k) ^ q * (el ^ k * el ^ k) = -1 then .ok none
      else if (el ^ k) ^ q * el ^ k = 1 then
        match bs (el ^ k * el ^ k * el).c0 with
        | none => .panic
        | some x0 => .ok (some ⟨((el ^ k) ^ q).c0 * x0, ((el ^ k) ^ q).c1 * x0⟩)
      else
        match sqrtAlgo10 bs pe pf e4 fuel (el ^ k * el ^ k * pf * el) with
        | .ok (some x0) => .ok (some ((el ^ k) ^ q * (x0 * pe)))
        | .ok none => .panic
        | .panic => .panic
        | .diverge => .diverge := by
  rw [sqrtAlgo10, pow_eq _ LawfulExt.sqr_eq _ _ hb, he4]
  dsimp only
  rw [LawfulExt.sqr_eq, hfrob, hfrob, hconj, hconj, Quad.neg1_eq]
  rfl

omit hq in
/-- Elements fixed by `x^q` come from the base field. -/
theorem Quad.c1_eq_zero (h2 : (2 : F) ≠ 0) (x : Quad F) (h : x ^ q = x) : x.c1 = 0 := by
  rw [← hconj] at h
  have : -x.c1 = x.c1 := congrArg Quad.c1 h
  have h2' : (2 : F) * x.c1 = 0 := by linear_combination -this
  exact (mul_eq_zero.mp h2').resolve_left h2

theorem sqrtAlgo10_zero (k : ℕ) (hk : q = 4 * k + 1) (hfrob : ∀ x : Quad F, frob 1 x = Quad.conjugate x)
    (e4 : List ℕ) (hb : ∀ x ∈ e4, x < 2 ^ 64) (he4 : limbsVal e4 = k)
    (bs : F → Option F) (pe pf : Quad F) (fuel : ℕ) :
    sqrtAlgo10 bs pe pf e4 fuel (0 : Quad F) = .diverge := by
  induction fuel with
  | zero => rfl
  | succ fuel ih =>
    rw [sqrtAlgo10_succ hconj hq k hfrob e4 hb he4]
    have hk0 : k ≠ 0 := by omega
    rw [zero_pow hk0, mul_zero, mul_zero, mul_zero, mul_zero, if_neg, if_neg, ih]
    · exact zero_ne_one
    · intro h
      exact one_ne_zero (neg_eq_zero.mp h.symm : (1 : Quad F) = 0)

variable (hF : ∀ a : F, a ^ q = a)
include hF

/-- **`sqrt_algo10`** for `q = 1 mod 4`, off zero: recursion depth two suffices, no panic. -/
theorem sqrtAlgo10_spec (k : ℕ) (hk : q = 4 * k + 1) (h2 : (2 : F) ≠ 0)
    (hfrob : ∀ x : Quad F, frob 1 x = Quad.conjugate x)
    (e4 : List ℕ) (hb : ∀ x ∈ e4, x < 2 ^ 64) (he4 : limbsVal e4 = k)
    (bs : F → Option F) (hbs1 : ∀ a r, bs a = some r → r * r = a)
    (hbs2 : ∀ a, a ^ (2 * k) = 1 → ∃ r, bs a = some r)
    (pe : Quad F) (f : F) (hef : pe * pe * Quad.ofBase f = 1) (hf : f ^ (2 * k) = -1)
    (fuel : ℕ) (el : Quad F) (hel : el ≠ 0) :
    ∃ r, sqrtAlgo10 bs pe (Quad.ofBase f) e4 (fuel + 2) el = .ok r ∧
      (∀ s, r = some s → s * s = el) ∧ (r = none → ¬ IsSquare el) := by
  have hscale : ∀ (x : Quad F) (c : F), (⟨x.c0 * c, x.c1 * c⟩ : Quad F) = x * Quad.ofBase c := by
    intro x c
    ext <;> simp
  have hof : ∀ x : Quad F, x ^ q = x → x = Quad.ofBase x.c0 := by
    intro x hx
    have := Quad.c1_eq_zero hconj h2 x hx
    ext
    · rfl
    · exact this
  have hofinj : ∀ a b : F, Quad.ofBase a = Quad.ofBase b → a = b := fun a b h => congrArg Quad.c0 h
  -- base case: elements with `b^(q+1) = 1`
  have hbase : ∀ (n : ℕ) (y : Quad F), y ≠ 0 → (y ^ k) ^ q * y ^ k = 1 →
      ∃ s, sqrtAlgo10 bs pe (Quad.ofBase f) e4 (n + 1) y = .ok (some s) ∧ s * s = y := by
    intro n y hy hb1
    rw [sqrtAlgo10_succ hconj hq k hfrob e4 hb he4]
    have hne : (y ^ k * y ^ k) ^ q * (y ^ k * y ^ k) ≠ -1 := by
      have : (y ^ k * y ^ k) ^ q * (y ^ k * y ^ k) = ((y ^ k) ^ q * y ^ k) * ((y ^ k) ^ q * y ^ k) := by ring
      rw [this, hb1, mul_one]
      exact Quad.one_ne_neg_one h2
    rw [if_neg hne, if_pos hb1]
    have hyq : (y ^ k * y ^ k * y) ^ q = y ^ k * y ^ k * y := by
      have hyk : y ^ k ≠ 0 := pow_ne_zero _ hy
      have hyk2 : y ^ k * y ^ k ≠ 0 := mul_ne_zero hyk hyk
      apply mul_left_cancel₀ hyk2
      calc y ^ k * y ^ k * (y ^ k * y ^ k * y) ^ q = ((y ^ k) ^ q * y ^ k) * ((y ^ k) ^ q * y ^ k) * y ^ q := by ring
        _ = y ^ q := by rw [hb1]; ring
        _ = _ := by rw [hk]; ring
    obtain ⟨c, hc⟩ : ∃ c, y ^ k * y ^ k * y = Quad.ofBase c := ⟨_, hof _ hyq⟩
    have hc1 : c ^ (2 * k) = 1 := by
      apply hofinj
      rw [map_pow, ← hc, map_one]
      rw [← hb1, hk]
      ring
    obtain ⟨x0, hx0⟩ := hbs2 c hc1
    have hcc : (y ^ k * y ^ k * y).c0 = c := by rw [hc]; rfl
    rw [hcc, hx0]
    refine ⟨_, rfl, ?_⟩
    have hx0' : Quad.ofBase x0 * Quad.ofBase x0 = y ^ k * y ^ k * y := by
      rw [hc, ← map_mul, hbs1 _ _ hx0]
    rw [hscale]
    linear_combination (y ^ k) ^ q * (y ^ k) ^ q * hx0' + ((y ^ k) ^ q * y ^ k + 1) * y * hb1
  rw [sqrtAlgo10_succ hconj hq k hfrob e4 hb he4]
  have hexp : (q ^ 2 - 1) / 2 = 2 * k * (q + 1) := by
    have : q ^ 2 = 2 * (2 * k * (q + 1)) + 1 := by rw [hk]; ring
    omega
  have h0 : (el ^ k * el ^ k) ^ q * (el ^ k * el ^ k) = el ^ ((q ^ 2 - 1) / 2) := by
    rw [hexp]; ring
  by_cases hm : el ^ ((q ^ 2 - 1) / 2) = -1
  · rw [if_pos (by rw [h0]; exact hm)]
    exact ⟨none, rfl, fun s hs => (by cases hs), fun _ => Quad.not_square_of_pow hconj hq h2 (by omega) el hm⟩
  · rw [if_neg (by rw [h0]; exact hm)]
    have hsq : ((el ^ k) ^ q * el ^ k) * ((el ^ k) ^ q * el ^ k) = 1 := by
      have h1 := Quad.pow_sq_pred hconj hq el hel
      have : q ^ 2 - 1 = ((q ^ 2 - 1) / 2) * 2 := by
        have : q ^ 2 = 2 * (2 * k * (q + 1)) + 1 := by rw [hk]; ring
        omega
      rw [this, pow_mul, pow_two] at h1
      have h1 := (mul_self_eq_one_iff.mp h1).resolve_right hm
      rw [← h1, ← h0]; ring
    by_cases hb1 : (el ^ k) ^ q * el ^ k = 1
    · rw [if_pos hb1]
      obtain ⟨s, hs, hs2⟩ := hbase fuel el hel hb1
      rw [sqrtAlgo10_succ hconj hq k hfrob e4 hb he4, if_neg (by rw [h0]; exact hm), if_pos hb1] at hs
      exact ⟨some s, hs, fun t ht => by rw [← Option.some.inj ht, hs2], fun h => by cases h⟩
    · rw [if_neg hb1]
      have hbm : (el ^ k) ^ q * el ^ k = -1 := (mul_self_eq_one_iff.mp hsq).resolve_left hb1
      have hyq : (el ^ k * el ^ k * el) ^ q = el ^ k * el ^ k * el := by
        have hyk : el ^ k ≠ 0 := pow_ne_zero _ hel
        have hyk2 : el ^ k * el ^ k ≠ 0 := mul_ne_zero hyk hyk
        apply mul_left_cancel₀ hyk2
        calc el ^ k * el ^ k * (el ^ k * el ^ k * el) ^ q
            = ((el ^ k) ^ q * el ^ k) * ((el ^ k) ^ q * el ^ k) * el ^ q := by ring
          _ = el ^ q := by rw [hsq]; ring
          _ = _ := by rw [hk]; ring
      have hf0 : f ≠ 0 := by
        rintro rfl
        have : 2 * k ≠ 0 := by omega
        rw [zero_pow this] at hf
        exact one_ne_zero (by linear_combination hf : (1 : F) = 0)
      have hfb : (Quad.ofBase f : Quad F) ^ (2 * k) = -1 := by rw [← map_pow, hf, map_neg, map_one]
      have hy0 : el ^ k * el ^ k * Quad.ofBase f * el ≠ 0 := by
        have : (Quad.ofBase f : Quad F) ≠ 0 := fun h => hf0 (hofinj f 0 (by rw [h, map_zero]))
        have hk0 : el ^ k ≠ 0 := pow_ne_zero _ hel
        exact mul_ne_zero (mul_ne_zero (mul_ne_zero hk0 hk0) this) hel
      have hfq : (Quad.ofBase f : Quad F) ^ q = Quad.ofBase f := by rw [← map_pow, hF]
      have hy1 : (el ^ k * el ^ k * Quad.ofBase f * el) ^ (2 * k) = 1 := by
        have e1 : (el ^ k * el ^ k * Quad.ofBase f * el) ^ (2 * k) = ((el ^ k) ^ (4 * k + 1) * el ^ k) * Quad.ofBase f ^ (2 * k) := by ring
        rw [e1, ← hk, hbm, hfb]; ring
      have hyqq : (el ^ k * el ^ k * Quad.ofBase f * el) ^ q = el ^ k * el ^ k * Quad.ofBase f * el := by
        calc (el ^ k * el ^ k * Quad.ofBase f * el) ^ q = (el ^ k * el ^ k * el) ^ q * Quad.ofBase f ^ q := by ring
          _ = _ := by rw [hyq, hfq]; ring
      obtain ⟨s, hs, hs2⟩ := hbase fuel _ hy0 (by
        rw [← pow_mul, mul_comm k q, pow_mul, hyqq, ← pow_add, ← two_mul]; exact hy1)
      rw [hs]
      refine ⟨_, rfl, fun t ht => ?_, fun h => by cases h⟩
      rw [← Option.some.inj ht]
      linear_combination (el ^ k) ^ q * (el ^ k) ^ q * pe * pe * hs2 + (el ^ k) ^ q * (el ^ k) ^ q * el ^ k * el ^ k * el * hef + el * hsq

end Sqrt2

end Halo2.Ext
