import Mathlib.RingTheory.RootsOfUnity.PrimitiveRoots
import Verif.Props.Bilinear

/-!
# The values of the pairings: C49
-/

set_option linter.unusedSectionVars false

namespace Halo2.Props

open Halo2 Halo2.Ext Halo2.Field Halo2.Prime Halo2.Curve Halo2.Pairing

section
variable {L F K : Type} [_root_.Field L] [DecidableEq L] [BaseField L] [LawfulBase L]
  [_root_.Field F] [DecidableEq F] [BaseField F] [LawfulBase F] [_root_.Field K]

/-- With one argument fixed, not the identity, the pairing is a bijection from the group of the other argument to the elements of the target field
whose `r`-th power is one. -/
structure PerfectClaim (C1 : Params L) (C2 : Params F) (r : ℕ) (pairing : Aff L → Aff F → Option K) : Prop where
  left_inj : ∀ p p' q, InGroup C1 r p → InGroup C1 r p' → InGroup C2 r q → q.isIdentity = false → pairing p q = pairing p' q → p = p'
  left_onto : ∀ q, InGroup C2 r q → q.isIdentity = false → ∀ z : K, z ^ r = 1 → ∃ p, InGroup C1 r p ∧ pairing p q = some z
  right_inj : ∀ p q q', InGroup C1 r p → InGroup C2 r q → InGroup C2 r q' → p.isIdentity = false → pairing p q = pairing p q' → q = q'
  right_onto : ∀ p, InGroup C1 r p → p.isIdentity = false → ∀ z : K, z ^ r = 1 → ∃ q, InGroup C2 r q ∧ pairing p q = some z

variable {C1 : Params L} {C2 : Params F} {r : ℕ} {pairing : Aff L → Aff F → Option K} {multi : List (Aff L × Aff F) → Option K}

theorem InGroup.add_aff (h1 : Good C1) {p p' : Aff L} (h : InGroup C1 r p) (h' : InGroup C1 r p') : InGroup C1 r (Aff.add C1 p p').toAffine := by
  obtain ⟨P, a, c⟩ := h
  obtain ⟨P', a', c'⟩ := h'
  exact ⟨_, (a.add h1 a').toAffine, by rw [smul_add, c, c', add_zero]⟩

theorem InGroup.neg_aff {p : Aff L} (h : InGroup C1 r p) : InGroup C1 r p.neg := by
  obtain ⟨P, a, c⟩ := h
  exact ⟨_, a.neg, by rw [smul_neg, c, neg_zero]⟩

theorem InGroup.id_aff : InGroup C1 r (Aff.identity : Aff L) := ⟨0, ARep.identity, smul_zero _⟩

theorem eq_of_sub_aff (h1 : Good C1) {p p' : Aff L} (h : InGroup C1 r p) (h' : InGroup C1 r p')
    (h0 : (Aff.add C1 p p'.neg).toAffine.isIdentity = true) : p = p' := by
  obtain ⟨P, a, c⟩ := h
  obtain ⟨P', a', c'⟩ := h'
  have := ((a.add h1 a'.neg).toAffine.isIdentity h1).mp h0
  rw [← sub_eq_add_neg, sub_eq_zero] at this
  exact (a.ext_iff h1 a').mpr this

theorem perfect_of (hr : r.Prime) (h1 : Good C1) (h2 : Good C2) (H : PairingClaim C1 C2 r pairing multi) {g1 : Aff L} {g2 : Aff F}
    (k1 : InGroup C1 r g1) (k2 : InGroup C2 r g2) (i1 : g1.isIdentity = false) (i2 : g2.isIdentity = false) :
    PerfectClaim C1 C2 r pairing := by
  have root : ∀ w : K, w ^ r = 1 → w ≠ 1 → ∀ z : K, z ^ r = 1 → ∃ i : ℕ, w ^ i = z := by
    intro w hw hw1 z hz
    have : Fact r.Prime := ⟨hr⟩
    have ho : orderOf w = r := orderOf_eq_prime hw hw1
    have hp : IsPrimitiveRoot w r := ho ▸ IsPrimitiveRoot.orderOf w
    have : NeZero r := ⟨hr.ne_zero⟩
    obtain ⟨i, -, e⟩ := hp.eq_pow_of_pow_eq_one hz
    exact ⟨i, e⟩
  refine ⟨?_, ?_, ?_, ?_⟩
  · intro p p' q a a' b hq e
    obtain ⟨z, hz, -⟩ := H.total p q a b
    obtain ⟨w, hw, hn, -⟩ := H.neg p' q z a' b (e ▸ hz)
    have := H.add_left p p'.neg q z w a a'.neg_aff b hz hn
    rw [mul_comm, hw] at this
    rcases (H.nondeg _ _ (a.add_aff h1 a'.neg_aff) b).mp this with h | h
    · exact eq_of_sub_aff h1 a a' h
    · rw [hq] at h; cases h
  · intro q b hq z hz
    obtain ⟨w, hw, hwr⟩ := H.total g1 q k1 b
    have hne : w ≠ 1 := by
      rintro rfl
      rcases (H.nondeg _ _ k1 b).mp hw with h | h
      · rw [i1] at h; cases h
      · rw [hq] at h; cases h
    obtain ⟨i, rfl⟩ := root w hwr hne z hz
    clear hz
    induction i with
    | zero =>
      refine ⟨Aff.identity, InGroup.id_aff, ?_⟩
      rw [pow_zero]
      exact (H.nondeg _ _ InGroup.id_aff b).mpr (Or.inl ((ARep.identity.isIdentity h1).mpr rfl))
    | succ i ih =>
      obtain ⟨p, hp, e⟩ := ih
      exact ⟨_, hp.add_aff h1 k1, by rw [pow_succ]; exact H.add_left _ _ _ _ _ hp k1 b e hw⟩
  · intro p q q' a b b' hp e
    obtain ⟨z, hz, -⟩ := H.total p q a b
    obtain ⟨w, hw, -, hn⟩ := H.neg p q' z a b' (e ▸ hz)
    have := H.add_right p q q'.neg z w a b b'.neg_aff hz hn
    rw [mul_comm, hw] at this
    rcases (H.nondeg _ _ a (b.add_aff h2 b'.neg_aff)).mp this with h | h
    · rw [hp] at h; cases h
    · exact eq_of_sub_aff h2 b b' h
  · intro p a hp z hz
    obtain ⟨w, hw, hwr⟩ := H.total p g2 a k2
    have hne : w ≠ 1 := by
      rintro rfl
      rcases (H.nondeg _ _ a k2).mp hw with h | h
      · rw [hp] at h; cases h
      · rw [i2] at h; cases h
    obtain ⟨i, rfl⟩ := root w hwr hne z hz
    clear hz
    induction i with
    | zero =>
      refine ⟨Aff.identity, InGroup.id_aff, ?_⟩
      rw [pow_zero]
      exact (H.nondeg _ _ a InGroup.id_aff).mpr (Or.inr ((ARep.identity.isIdentity h2).mpr rfl))
    | succ i ih =>
      obtain ⟨q, hq, e⟩ := ih
      exact ⟨_, hq.add_aff h2 k2, by rw [pow_succ]; exact H.add_right _ _ _ _ _ a hq k2 e hw⟩

end


/-- **C49** The pairings are perfect: for a fixed point other than the identity every element of the target group is the pairing with exactly
one point. -/
theorem C49_perfect : PerfectClaim Bn256.g1 Bn256.g2 bnR Bn256.pairing ∧ PerfectClaim Bls12381.g1 Bls12381.g2 blsR Bls12381.pairing ∧
    PerfectClaim Pluto.g1 Pluto.g2 plQ Pluto.pairing := by
  obtain ⟨⟨a1, a2, a3⟩, ⟨b1, b2, b3⟩, c1, c2, c3⟩ := C49_generators
  have key : ∀ {L F K : Type} [_root_.Field L] [DecidableEq L] [BaseField L] [LawfulBase L] [_root_.Field F] [DecidableEq F] [BaseField F]
      [LawfulBase F] [_root_.Field K] {C1 : Params L} {C2 : Params F} {r : ℕ} {pairing : Aff L → Aff F → Option K}
      {multi : List (Aff L × Aff F) → Option K} {g1 : Aff L} {g2 : Aff F}, r.Prime → Good C1 → Good C2 → PairingClaim C1 C2 r pairing multi →
      InGroup C1 r g1 → InGroup C2 r g2 → pairing g1 g2 ≠ some 1 → PerfectClaim C1 C2 r pairing := by
    intro L F K _ _ _ _ _ _ _ _ _ C1 C2 r pairing multi g1 g2 hr h1 h2 H k1 k2 hne
    refine perfect_of hr h1 h2 H k1 k2 (Bool.eq_false_iff.mpr fun h => ?_) (Bool.eq_false_iff.mpr fun h => ?_)
    · exact hne ((H.nondeg _ _ k1 k2).mpr (Or.inl h))
    · exact hne ((H.nondeg _ _ k1 k2).mpr (Or.inr h))
  exact ⟨key bnR_prime Bn256.g1_good Bn256.g2_good C49_bn256 a1 a2 a3, key blsR_prime Bls12381.g1_good Bls12381.g2_good C49_bls12381 b1 b2 b3,
    key plQ_prime Pluto.g1_good Pluto.g2_good C49_pluto c1 c2 c3⟩

end Halo2.Props
