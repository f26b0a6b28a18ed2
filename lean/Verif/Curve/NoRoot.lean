import Verif.Field.FpField
import Verif.Prime.Moduli
import Mathlib.Tactic.LinearCombination

/-!
# The cubic of secp256r1 has no root

A root `r` satisfies `r ^ p = r`. `X ^ p` modulo the cubic is computed with triples of naturals; that
`X ^ p - X` is invertible modulo the cubic contradicts the existence of a root.
-/

set_option linter.unusedSectionVars false

namespace Halo2.Curve.NoRoot

open Halo2.Field Halo2.Prime

variable {p : ℕ} [hp : Fact (OddModulus p)]

/-- Product of polynomials of degree at most two modulo `X³ = a' X + b'`. -/
def mul (p a' b' : ℕ) (x y : ℕ × ℕ × ℕ) : ℕ × ℕ × ℕ :=
  let c0 := x.1 * y.1
  let c1 := x.1 * y.2.1 + x.2.1 * y.1
  let c2 := x.1 * y.2.2 + x.2.1 * y.2.1 + x.2.2 * y.1
  let c3 := x.2.1 * y.2.2 + x.2.2 * y.2.1
  let c4 := x.2.2 * y.2.2
  ((c0 + b' * c3) % p, (c1 + a' * c3 + b' * c4) % p, (c2 + a' * c4) % p)

def powGo (p a' b' : ℕ) : ℕ → ℕ × ℕ × ℕ → ℕ → ℕ × ℕ × ℕ → ℕ × ℕ × ℕ
  | 0, _, _, acc => acc
  | fuel + 1, b, e, acc =>
    if e = 0 then acc
    else powGo p a' b' fuel (mul p a' b' b b) (e / 2) (if e % 2 = 1 then mul p a' b' acc b else acc)

/-- Value at `r`. -/
def ev (r : Fp p) (x : ℕ × ℕ × ℕ) : Fp p := (x.1 : Fp p) + (x.2.1 : Fp p) * r + (x.2.2 : Fp p) * (r * r)

theorem natCast_mod (m : ℕ) : ((m % p : ℕ) : Fp p) = (m : Fp p) := by
  rw [Fp.natCast_eq_iff, Nat.mod_mod]

theorem ev_mul {a' b' : ℕ} {r : Fp p} (hr : r * r * r = (a' : Fp p) * r + (b' : Fp p)) (x y : ℕ × ℕ × ℕ) :
    ev r (mul p a' b' x y) = ev r x * ev r y := by
  unfold ev mul
  dsimp only
  rw [natCast_mod, natCast_mod, natCast_mod]
  push_cast
  linear_combination (-((x.2.1 : Fp p) * y.2.2 + x.2.2 * y.2.1) - (x.2.2 : Fp p) * y.2.2 * r) * hr

theorem ev_powGo {a' b' : ℕ} {r : Fp p} (hr : r * r * r = (a' : Fp p) * r + (b' : Fp p)) (fuel : ℕ)
    (b : ℕ × ℕ × ℕ) (e : ℕ) (acc : ℕ × ℕ × ℕ) (he : e < 2 ^ fuel) :
    ev r (powGo p a' b' fuel b e acc) = ev r acc * ev r b ^ e := by
  induction fuel generalizing b e acc with
  | zero =>
    have : e = 0 := by simpa using he
    subst this
    simp [powGo]
  | succ fuel ih =>
    rw [powGo]
    by_cases h0 : e = 0
    · simp [h0]
    · rw [if_neg h0, ih _ _ _ (by rw [pow_succ] at he; omega), ev_mul hr]
      have hm := Nat.div_add_mod e 2
      rcases Nat.mod_two_eq_zero_or_one e with h | h
      · rw [if_neg (by omega)]
        conv_rhs => rw [← hm, h, add_zero, pow_mul, pow_two]
      · rw [if_pos h, ev_mul hr]
        conv_rhs => rw [← hm, h, pow_succ, pow_mul, pow_two]
        ring

/-- `u` inverts `X ^ p - X` modulo `X³ - a' X - b'`: no root. -/
theorem no_root [Fact p.Prime] {a' b' : ℕ} (hsz : p < 2 ^ 512) (u : ℕ × ℕ × ℕ)
    (hu : mul p a' b' u
      ((powGo p a' b' 512 (0, 1, 0) p (1, 0, 0)).1,
        (powGo p a' b' 512 (0, 1, 0) p (1, 0, 0)).2.1 + (p - 1),
        (powGo p a' b' 512 (0, 1, 0) p (1, 0, 0)).2.2) = (1, 0, 0))
    (r : Fp p) : r * r * r ≠ (a' : Fp p) * r + (b' : Fp p) := by
  intro hr
  have h1 := ev_powGo hr 512 (0, 1, 0) p (1, 0, 0) hsz
  have e1 : ev r (1, 0, 0) = 1 := by simp [ev]
  have e2 : ev r (0, 1, 0) = r := by simp [ev]
  rw [e1, e2, one_mul, Fp.pow_p] at h1
  have h2 := congrArg (ev r) hu
  rw [ev_mul hr, e1] at h2
  generalize powGo p a' b' 512 (0, 1, 0) p (1, 0, 0) = g at h1 h2
  have h3 : ev r (g.1, g.2.1 + (p - 1), g.2.2) = ev r g - r := by
    unfold ev
    dsimp only
    have : ((p - 1 : ℕ) : Fp p) = -1 := by
      have hpos : 1 ≤ p := by have := hp.out.gt; omega
      rw [Nat.cast_sub hpos, CharP.cast_eq_zero (Fp p) p, Nat.cast_one, zero_sub]
    rw [Nat.cast_add, this]
    ring
  rw [h3, h1, sub_self, mul_zero] at h2
  exact zero_ne_one h2

/-- Minus the coefficients of the secp256r1 cubic. -/
@[irreducible] def r1A' : ℕ := 3
@[irreducible] def r1B : ℕ := 0x5AC635D8AA3A93E7B3EBBD55769886BC651D06B0CC53B0F63BCE3C3E27D2604B
@[irreducible] def r1B' : ℕ := r1P - r1B

theorem r1_no_root (r : Fp r1P) : r * r * r ≠ (r1A' : Fp r1P) * r + (r1B' : Fp r1P) :=
  no_root (by decide +kernel)
    (0xa969487079f1744798bf0de6fded091b66e9d328eb0645fe5d979d1339b7f47f,
      0xa4a08891884100c13323460107a8d28eede4387fa3e6e9bfebec9f6d72d0b5cc,
      0x4cde11cf86cb876cd59cf0115813c55af0ecd3cda667d98bb9a347a56aa74a6d) (by decide +kernel) r

end Halo2.Curve.NoRoot
