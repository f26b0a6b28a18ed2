import Mathlib.GroupTheory.OrderOfElement
import Mathlib.Data.Nat.Prime.Basic

/-!
# Maps which are bilinear on the points of order dividing `r`
-/

namespace Halo2.Pairing

/-- Additivity in both arguments, on the points killed by `r`. -/
structure BilinOn {A B M : Type} [AddCommGroup A] [AddCommGroup B] [CommGroup M] (r : ℕ) (e : A → B → M) : Prop where
  add_left : ∀ P P' Q, r • P = 0 → r • P' = 0 → r • Q = 0 → e (P + P') Q = e P Q * e P' Q
  add_right : ∀ P Q Q', r • P = 0 → r • Q = 0 → r • Q' = 0 → e P (Q + Q') = e P Q * e P Q'

namespace BilinOn

variable {A B M : Type} [AddCommGroup A] [AddCommGroup B] [CommGroup M] {r : ℕ} {e : A → B → M}
  (h : BilinOn r e)
include h

theorem zero_left {Q : B} (hQ : r • Q = 0) : e 0 Q = 1 := by
  have := h.add_left 0 0 Q (smul_zero r) (smul_zero r) hQ
  rw [zero_add] at this
  exact left_eq_mul.mp this

theorem zero_right {P : A} (hP : r • P = 0) : e P 0 = 1 := by
  have := h.add_right P 0 0 hP (smul_zero r) (smul_zero r)
  rw [zero_add] at this
  exact left_eq_mul.mp this

theorem smul_left {P : A} {Q : B} (hP : r • P = 0) (hQ : r • Q = 0) (n : ℕ) : e (n • P) Q = e P Q ^ n := by
  induction n with
  | zero => rw [zero_smul, pow_zero, h.zero_left hQ]
  | succ n ih =>
    rw [succ_nsmul, h.add_left _ _ _ (by rw [smul_comm, hP, smul_zero]) hP hQ, ih, pow_succ]

theorem smul_right {P : A} {Q : B} (hP : r • P = 0) (hQ : r • Q = 0) (n : ℕ) : e P (n • Q) = e P Q ^ n := by
  induction n with
  | zero => rw [zero_smul, pow_zero, h.zero_right hP]
  | succ n ih =>
    rw [succ_nsmul, h.add_right _ _ _ hP (by rw [smul_comm, hQ, smul_zero]) hQ, ih, pow_succ]

theorem smul_smul {P : A} {Q : B} (hP : r • P = 0) (hQ : r • Q = 0) (m n : ℕ) :
    e (m • P) (n • Q) = e P Q ^ (m * n) := by
  rw [h.smul_left hP (by rw [smul_comm, hQ, smul_zero]), h.smul_right hP hQ, ← pow_mul, mul_comm]

theorem pow_r {P : A} {Q : B} (hP : r • P = 0) (hQ : r • Q = 0) : e P Q ^ r = 1 := by
  rw [← h.smul_left hP hQ, hP, h.zero_left hQ]

theorem neg_left {P : A} {Q : B} (hP : r • P = 0) (hQ : r • Q = 0) : e (-P) Q = (e P Q)⁻¹ := by
  have := h.add_left (-P) P Q (by rw [smul_neg, hP, neg_zero]) hP hQ
  rw [neg_add_cancel, h.zero_left hQ] at this
  exact eq_inv_of_mul_eq_one_left this.symm

theorem neg_right {P : A} {Q : B} (hP : r • P = 0) (hQ : r • Q = 0) : e P (-Q) = (e P Q)⁻¹ := by
  have := h.add_right P (-Q) Q hP (by rw [smul_neg, hQ, neg_zero]) hQ
  rw [neg_add_cancel, h.zero_right hP] at this
  exact eq_inv_of_mul_eq_one_left this.symm

/-- One value other than one settles all of them. -/
theorem nondeg (hr : r.Prime) {G : A} {H : B} (hG : r • G = 0) (hH : r • H = 0)
    (ht1 : ∀ P, r • P = 0 → ∃ n : ℕ, P = n • G) (ht2 : ∀ Q, r • Q = 0 → ∃ n : ℕ, Q = n • H)
    (hne : e G H ≠ 1) {P : A} {Q : B} (hP : r • P = 0) (hQ : r • Q = 0) :
    e P Q = 1 ↔ P = 0 ∨ Q = 0 := by
  constructor
  · obtain ⟨m, rfl⟩ := ht1 P hP
    obtain ⟨n, rfl⟩ := ht2 Q hQ
    rw [h.smul_smul hG hH]
    intro h1
    have ho : orderOf (e G H) = r := orderOf_eq_prime_iff (hp := ⟨hr⟩) |>.mpr ⟨h.pow_r hG hH, hne⟩
    have hd := orderOf_dvd_of_pow_eq_one h1
    rw [ho] at hd
    rcases hr.dvd_mul.mp hd with ⟨k, rfl⟩ | ⟨k, rfl⟩
    · exact Or.inl (by rw [mul_comm, mul_smul, hG, smul_zero])
    · exact Or.inr (by rw [mul_comm, mul_smul, hH, smul_zero])
  · rintro (rfl | rfl)
    · exact h.zero_left hQ
    · exact h.zero_right hP

end BilinOn

end Halo2.Pairing
