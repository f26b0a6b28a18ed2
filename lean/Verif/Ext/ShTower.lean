import Verif.Ext.ShRing
import Verif.Ext.Tower

/-!
# Shadows of towers

Shadows of quadratic and cubic extensions of a ring with a shadow.
-/

set_option linter.unusedSectionVars false

namespace Halo2.Ext

open ExtField LawfulExt

variable {R F : Type} [CommRing F] [ExtField F] [LawfulExt F]

/-- The shadow of a quadratic extension. -/
def shQuadOf (S : Sh R F) (n : R) (hn : (nonRes : F) = S.φ n) : Sh (R × R) (Quad F) where
  φ x := ⟨S.φ x.1, S.φ x.2⟩
  zero := (S.zero, S.zero)
  one := (S.one, S.zero)
  add x y := (S.add x.1 y.1, S.add x.2 y.2)
  sub x y := (S.sub x.1 y.1, S.sub x.2 y.2)
  mul x y := (S.add (S.mul x.1 y.1) (S.mul n (S.mul x.2 y.2)), S.add (S.mul x.1 y.2) (S.mul x.2 y.1))
  eq x y := S.eq x.1 y.1 && S.eq x.2 y.2
  φ_zero := by apply Quad.ext <;> exact S.φ_zero
  φ_one := by
    apply Quad.ext
    · exact S.φ_one
    · exact S.φ_zero
  φ_add x y := by apply Quad.ext <;> exact S.φ_add _ _
  φ_sub x y := by apply Quad.ext <;> exact S.φ_sub _ _
  φ_mul x y := by
    apply Quad.ext
    · simp only [S.φ_add, S.φ_mul, Quad.mul_c0, ← hn]
    · simp only [S.φ_add, S.φ_mul, Quad.mul_c1]
  eq_iff x y := by
    rw [Bool.and_eq_true, S.eq_iff, S.eq_iff]
    constructor
    · rintro ⟨h1, h2⟩
      exact Quad.ext h1 h2
    · intro h
      exact ⟨congrArg Quad.c0 h, congrArg Quad.c1 h⟩

/-- The shadow of a cubic extension. -/
def shCubicOf (S : Sh R F) (n : R) (hn : (nonRes : F) = S.φ n) : Sh (R × R × R) (Cubic F) where
  φ x := ⟨S.φ x.1, S.φ x.2.1, S.φ x.2.2⟩
  zero := (S.zero, S.zero, S.zero)
  one := (S.one, S.zero, S.zero)
  add x y := (S.add x.1 y.1, S.add x.2.1 y.2.1, S.add x.2.2 y.2.2)
  sub x y := (S.sub x.1 y.1, S.sub x.2.1 y.2.1, S.sub x.2.2 y.2.2)
  mul x y := (S.add (S.mul x.1 y.1) (S.mul n (S.add (S.mul x.2.1 y.2.2) (S.mul x.2.2 y.2.1))),
    S.add (S.add (S.mul x.1 y.2.1) (S.mul x.2.1 y.1)) (S.mul n (S.mul x.2.2 y.2.2)),
    S.add (S.add (S.mul x.1 y.2.2) (S.mul x.2.1 y.2.1)) (S.mul x.2.2 y.1))
  eq x y := S.eq x.1 y.1 && (S.eq x.2.1 y.2.1 && S.eq x.2.2 y.2.2)
  φ_zero := by apply Cubic.ext <;> exact S.φ_zero
  φ_one := by
    apply Cubic.ext
    · exact S.φ_one
    · exact S.φ_zero
    · exact S.φ_zero
  φ_add x y := by apply Cubic.ext <;> exact S.φ_add _ _
  φ_sub x y := by apply Cubic.ext <;> exact S.φ_sub _ _
  φ_mul x y := by
    apply Cubic.ext
    · simp only [S.φ_add, S.φ_mul, Cubic.mul_c0, ← hn]
    · simp only [S.φ_add, S.φ_mul, Cubic.mul_c1, ← hn]
    · simp only [S.φ_add, S.φ_mul, Cubic.mul_c2]
      try ring
  eq_iff x y := by
    rw [Bool.and_eq_true, Bool.and_eq_true, S.eq_iff, S.eq_iff, S.eq_iff]
    constructor
    · rintro ⟨h1, h2, h3⟩
      exact Cubic.ext h1 h2 h3
    · intro h
      exact ⟨congrArg Cubic.c0 h, congrArg Cubic.c1 h, congrArg Cubic.c2 h⟩

namespace Sh

variable (S : Sh R F)

def powGo : ℕ → ℕ → R → R → R
  | 0, _, _, acc => acc
  | f + 1, e, b, acc => powGo f (e / 2) (S.mul b b) (bif e % 2 == 1 then S.mul acc b else acc)

/-- Powers. -/
def pow (x : R) (e : ℕ) : R := S.powGo (e.log2 + 1) e x S.one

theorem powGo_spec (f : ℕ) : ∀ (e : ℕ) (b acc : R), e < 2 ^ f → S.φ (S.powGo f e b acc) = S.φ acc * S.φ b ^ e := by
  induction f with
  | zero =>
    intro e b acc he
    have : e = 0 := by simpa using he
    subst this
    rw [pow_zero, mul_one]
    rfl
  | succ f ih =>
    intro e b acc he
    rw [powGo, ih _ _ _ (by omega), S.φ_mul, ← pow_two, ← pow_mul]
    rcases Nat.mod_two_eq_zero_or_one e with h | h
    · rw [h]
      change S.φ acc * _ = _
      congr 2
      omega
    · rw [h]
      change S.φ (S.mul acc b) * _ = _
      rw [S.φ_mul, mul_assoc, ← pow_succ']
      congr 2
      omega

theorem pow_spec (x : R) (e : ℕ) : S.φ (S.pow x e) = S.φ x ^ e := by
  rw [pow, powGo_spec, S.φ_one, one_mul]
  exact Nat.lt_log2_self

end Sh

end Halo2.Ext
