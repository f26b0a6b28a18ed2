import Verif.Props.Bilinear
import Verif.Props.Curve
import Mathlib.GroupTheory.OrderOfElement

/-!
# Property C64: the equations that verifiers check with pairings
-/

set_option linter.unusedSectionVars false

namespace Halo2.Props

open Halo2 Halo2.Ext Halo2.Field Halo2.Prime Halo2.Curve Halo2.Pairing

section Check
variable {L F K : Type} [_root_.Field L] [DecidableEq L] [BaseField L] [LawfulBase L]
  [_root_.Field F] [DecidableEq F] [BaseField F] [LawfulBase F] [CommMonoid K]

/-- What C64 says about `pairing`, about `multi_miller_loop` followed by `final_exponentiation`, and about points `g`, `h`
(the generators); scalars are elements of the scalar field. -/
structure CheckClaim (C1 : Params L) (C2 : Params F) (r : ℕ) [Fact (OddModulus r)] (g : Aff L) (h : Aff F)
    (pairing : Aff L → Aff F → Option K) (multi : List (Aff L × Aff F) → Option K) : Prop where
  /-- the pairing of the generators has exact order `r` -/
  order : ∃ z, pairing g h = some z ∧ orderOf z = r
  /-- the product of the pairings of `aᵢ g` and `bᵢ h` is one if and only if `Σ aᵢ bᵢ = 0` in the scalar field -/
  product : ∀ l : List (Fp r × Fp r),
    multi (l.map fun t => ((Aff.mul C1 g (Fp.toRepr t.1)).toAffine, (Aff.mul C2 h (Fp.toRepr t.2)).toAffine)) = some 1 ↔
      (l.map fun t => t.1 * t.2).sum = 0
  /-- two pairings are equal if and only if the product of the first with the second, negated, is one -/
  balance : ∀ p q p' q', InGroup C1 r p → InGroup C2 r q → InGroup C1 r p' → InGroup C2 r q' →
    (multi [(p, q), (p'.neg, q')] = some 1 ↔ pairing p q = pairing p' q')
  /-- the first point is determined by the value -/
  left_inj : ∀ p p' q, InGroup C1 r p → InGroup C1 r p' → InGroup C2 r q → q.isIdentity = false →
    (pairing p q = pairing p' q ↔ Aff.eq p p' = true)
  /-- the second point is determined by the value -/
  right_inj : ∀ p q q', InGroup C1 r p → InGroup C2 r q → InGroup C2 r q' → p.isIdentity = false →
    (pairing p q = pairing p q' ↔ Aff.eq q q' = true)
  /-- `s` is the multiple `k m` of `m` (a signature of `m` under the key `k`) if and only if its pairing with the generator is
  the pairing of `m` with `k h` (the public key) -/
  signature : ∀ (s m : Aff L) (k : Fp r), InGroup C1 r s → InGroup C1 r m →
    (pairing s h = pairing m (Aff.mul C2 h (Fp.toRepr k)).toAffine ↔ Aff.eq s (Aff.mul C1 m (Fp.toRepr k)).toAffine = true)

variable {C1 : Params L} {C2 : Params F} {r : ℕ} {pairing : Aff L → Aff F → Option K}
  {multi : List (Aff L × Aff F) → Option K}

theorem InGroup.neg {C : Params L} {p : Aff L} (h : InGroup C r p) : InGroup C r p.neg := by
  obtain ⟨P, a, b⟩ := h
  exact ⟨-P, a.neg, by rw [smul_neg, b, neg_zero]⟩

theorem InGroup.mul {C : Params L} (hC : Good C) {p : Aff L} (h : InGroup C r p) [Fact (OddModulus r)] (k : Fp r) :
    InGroup C r (Aff.mul C p (Fp.toRepr k)).toAffine := by
  obtain ⟨P, a, b⟩ := h
  exact ⟨Fp.toNat k • P, (C23_mul hC PRep.identity a k).2.toAffine, by rw [smul_comm, b, smul_zero]⟩

theorem eq_of_sub {C : Params L} (hC : Good C) {p p' : Aff L} (h : InGroup C r p) (h' : InGroup C r p')
    (hi : (Aff.add C p p'.neg).toAffine.isIdentity = true) : Aff.eq p p' = true := by
  obtain ⟨P, a, -⟩ := h
  obtain ⟨P', a', -⟩ := h'
  rw [(a.add hC a'.neg).toAffine.isIdentity hC] at hi
  rw [(Aff.eq_iff p p').trans (a.ext_iff hC a')]
  rw [← sub_eq_add_neg, sub_eq_zero] at hi
  exact hi

theorem checkClaim_of (h1 : Good C1) (h2 : Good C2) (hr : r.Prime) [Fact (OddModulus r)] (hc : PairingClaim C1 C2 r pairing multi)
    {g : Aff L} {h : Aff F} (hg : InGroup C1 r g) (hh : InGroup C2 r h) (hne : pairing g h ≠ some 1) :
    CheckClaim C1 C2 r g h pairing multi := by
  have hi : ∀ q : Aff F, q.isIdentity = false → ∀ {b : Prop}, b ∨ q.isIdentity = true → b := by
    intro q hq b hb
    rcases hb with hb | hb
    · exact hb
    · rw [hq] at hb; cases hb
  have hi' : ∀ q : Aff L, q.isIdentity = false → ∀ {b : Prop}, q.isIdentity = true ∨ b → b := by
    intro q hq b hb
    rcases hb with hb | hb
    · rw [hq] at hb; cases hb
    · exact hb
  have left : ∀ p p' q, InGroup C1 r p → InGroup C1 r p' → InGroup C2 r q → q.isIdentity = false →
      (pairing p q = pairing p' q ↔ Aff.eq p p' = true) := by
    intro p p' q hp hp' hq hq0
    constructor
    · intro e
      obtain ⟨z, hz, -⟩ := hc.total p q hp hq
      obtain ⟨w, hw, hw1, -⟩ := hc.neg p' q z hp' hq (e ▸ hz)
      have e1 := hc.add_left p p'.neg q z w hp hp'.neg hq hz hw1
      rw [mul_comm, hw, hc.nondeg _ _ ?_ hq] at e1
      · exact eq_of_sub h1 hp hp' (hi q hq0 e1)
      · obtain ⟨P, a, b⟩ := hp
        obtain ⟨P', a', b'⟩ := hp'
        exact ⟨P + -P', (a.add h1 a'.neg).toAffine, by rw [smul_add, smul_neg, b, b', neg_zero, add_zero]⟩
    · intro e
      rw [(Aff.eq_iff p p').mp e]
  have right : ∀ p q q', InGroup C1 r p → InGroup C2 r q → InGroup C2 r q' → p.isIdentity = false →
      (pairing p q = pairing p q' ↔ Aff.eq q q' = true) := by
    intro p q q' hp hq hq' hp0
    constructor
    · intro e
      obtain ⟨z, hz, -⟩ := hc.total p q hp hq
      obtain ⟨w, hw, -, hw1⟩ := hc.neg p q' z hp hq' (e ▸ hz)
      have e1 := hc.add_right p q q'.neg z w hp hq hq'.neg hz hw1
      rw [mul_comm, hw, hc.nondeg _ _ hp ?_] at e1
      · exact eq_of_sub h2 hq hq' (hi' p hp0 e1)
      · obtain ⟨P, a, b⟩ := hq
        obtain ⟨P', a', b'⟩ := hq'
        exact ⟨P + -P', (a.add h2 a'.neg).toAffine, by rw [smul_add, smul_neg, b, b', neg_zero, add_zero]⟩
    · intro e
      rw [(Aff.eq_iff q q').mp e]
  obtain ⟨z, hz, hzr⟩ := hc.total g h hg hh
  have hz1 : z ≠ 1 := by
    rintro rfl
    exact hne hz
  have ho : orderOf z = r := (orderOf_eq_prime_iff (hp := ⟨hr⟩)).mpr ⟨hzr, hz1⟩
  have hb : ∀ k : Fp r, IsBytes (Fp.toRepr k) ∧ leNat (Fp.toRepr k) = Fp.toNat k := fun k =>
    ⟨(Fp.toBytes_spec .LE k).2.1, (Fp.toBytes_spec .LE k).2.2⟩
  refine ⟨⟨z, hz, ho⟩, ?_, ?_, left, right, ?_⟩
  · intro l
    have e : multi (l.map fun t => ((Aff.mul C1 g (Fp.toRepr t.1)).toAffine, (Aff.mul C2 h (Fp.toRepr t.2)).toAffine)) =
        some ((l.map fun t => z ^ (Fp.toNat t.1 * Fp.toNat t.2)).prod) := by
      apply hc.multi
      induction l with
      | nil => exact .nil
      | cons t l ih =>
        refine .cons ⟨hg.mul h1 _, hh.mul h2 _, ?_⟩ ih
        have := hc.mul g h z _ _ hg hh (hb t.1).1 (hb t.2).1 hz
        rw [(hb t.1).2, (hb t.2).2] at this
        exact this
    have e2 : ∀ l : List (Fp r × Fp r), (l.map fun t => z ^ (Fp.toNat t.1 * Fp.toNat t.2)).prod =
        z ^ (l.map fun t => Fp.toNat t.1 * Fp.toNat t.2).sum := by
      intro l
      induction l with
      | nil => rw [List.map_nil, List.map_nil, List.prod_nil, List.sum_nil, pow_zero]
      | cons t l ih => rw [List.map_cons, List.map_cons, List.prod_cons, List.sum_cons, pow_add, ih]
    have e3 : ∀ l : List (Fp r × Fp r), (((l.map fun t => Fp.toNat t.1 * Fp.toNat t.2).sum : ℕ) : Fp r) =
        (l.map fun t => t.1 * t.2).sum := by
      intro l
      induction l with
      | nil => rw [List.map_nil, List.map_nil, List.sum_nil, List.sum_nil, Nat.cast_zero]
      | cons t l ih =>
        rw [List.map_cons, List.map_cons, List.sum_cons, List.sum_cons, Nat.cast_add, Nat.cast_mul, Fp.natCast_toNat,
          Fp.natCast_toNat, ih]
    rw [e, e2, Option.some.injEq, ← orderOf_dvd_iff_pow_eq_one, ho, ← e3, CharP.cast_eq_zero_iff (Fp r) r]
  · intro p q p' q' hp hq hp' hq'
    obtain ⟨x, hx, -⟩ := hc.total p q hp hq
    obtain ⟨y, hy, -⟩ := hc.total p' q' hp' hq'
    obtain ⟨w, hw, hw1, -⟩ := hc.neg p' q' y hp' hq' hy
    rw [hc.multi [(p, q), (p'.neg, q')] [x, w] (.cons ⟨hp, hq, hx⟩ (.cons ⟨hp'.neg, hq', hw1⟩ .nil)), hx, hy,
      List.prod_cons, List.prod_singleton, Option.some.injEq, Option.some.injEq]
    constructor
    · intro e
      calc x = x * (w * y) := by rw [hw, mul_one]
        _ = (x * w) * y := by rw [mul_assoc]
        _ = y := by rw [e, one_mul]
    · intro e
      rw [e, mul_comm, hw]
  · intro s m k hs hm
    have hh0 : h.isIdentity = false := by
      rw [← Bool.not_eq_true]
      intro h0
      exact hne ((hc.nondeg g h hg hh).mpr (.inr h0))
    rw [← left s _ h hs (hm.mul h1 k) hh hh0]
    suffices e : pairing m (Aff.mul C2 h (Fp.toRepr k)).toAffine = pairing (Aff.mul C1 m (Fp.toRepr k)).toAffine h by rw [e]
    obtain ⟨x, hx, -⟩ := hc.total m h hm hh
    have hone : (Fp.toNat (1 : Fp r)) = 1 := by
      rw [← Nat.cast_one, Fp.toNat_natCast, Nat.mod_eq_of_lt hr.one_lt]
    have a1 := hc.mul m h x _ _ hm hh (hb 1).1 (hb k).1 hx
    have a2 := hc.mul m h x _ _ hm hh (hb k).1 (hb 1).1 hx
    rw [(hb 1).2, (hb k).2, hone] at a1 a2
    have u1 : (Aff.mul C1 m (Fp.toRepr (1 : Fp r))).toAffine = m := by
      obtain ⟨P, a, -⟩ := hm
      have := (C23_mul h1 PRep.identity a (1 : Fp r)).2.toAffine
      rw [hone, one_smul] at this
      exact (this.ext_iff h1 a).mpr rfl
    have u2 : (Aff.mul C2 h (Fp.toRepr (1 : Fp r))).toAffine = h := by
      obtain ⟨P, a, -⟩ := hh
      have := (C23_mul h2 PRep.identity a (1 : Fp r)).2.toAffine
      rw [hone, one_smul] at this
      exact (this.ext_iff h2 a).mpr rfl
    rw [u1] at a1
    rw [u2] at a2
    rw [a1, a2, one_mul, mul_one]

end Check

/-- **C64** bn256. -/
theorem C64_bn256 : CheckClaim Bn256.g1 Bn256.g2 bnR Bn256.g1Gen Bn256.g2Gen Bn256.pairing
    (fun ts => Bn256.finalExp (Bn256.multiMillerLoop ts)) :=
  checkClaim_of Bn256.g1_good Bn256.g2_good bnR_prime C49_bn256 C49_generators.1.1 C49_generators.1.2.1 C49_generators.1.2.2

/-- **C64** bls12381. -/
theorem C64_bls12381 : CheckClaim Bls12381.g1 Bls12381.g2 blsR Bls12381.g1Gen Bls12381.g2Gen Bls12381.pairing
    (fun ts => Bls12381.finalExp (Bls12381.multiMillerLoop ts)) :=
  checkClaim_of Bls12381.g1_good Bls12381.g2_good blsR_prime C49_bls12381 C49_generators.2.1.1 C49_generators.2.1.2.1
    C49_generators.2.1.2.2

/-- **C64** pluto. -/
theorem C64_pluto : CheckClaim Pluto.g1 Pluto.g2 plQ Pluto.g1Gen Pluto.g2Gen Pluto.pairing
    (fun ts => Pluto.finalExp (Pluto.multiMillerLoop ts)) :=
  checkClaim_of Pluto.g1_good Pluto.g2_good plQ_prime C49_pluto C49_generators.2.2.1 C49_generators.2.2.2.1 C49_generators.2.2.2.2

/-- A product of two pairings that is one, and one that is not: `3·5 + 15·(-1) = 0`, `3·5 + 14·(-1) ≠ 0`. -/
example :
    Bn256.finalExp (Bn256.multiMillerLoop ([((3 : Fp bnR), (5 : Fp bnR)), (15, -1)].map fun t =>
      ((Aff.mul Bn256.g1 Bn256.g1Gen (Fp.toRepr t.1)).toAffine, (Aff.mul Bn256.g2 Bn256.g2Gen (Fp.toRepr t.2)).toAffine))) = some 1 ∧
    Bn256.finalExp (Bn256.multiMillerLoop ([((3 : Fp bnR), (5 : Fp bnR)), (14, -1)].map fun t =>
      ((Aff.mul Bn256.g1 Bn256.g1Gen (Fp.toRepr t.1)).toAffine, (Aff.mul Bn256.g2 Bn256.g2Gen (Fp.toRepr t.2)).toAffine))) ≠ some 1 := by
  constructor
  · rw [C64_bn256.product]
    simp only [List.map_cons, List.map_nil, List.sum_cons, List.sum_nil]
    ring
  · intro h
    rw [C64_bn256.product] at h
    simp only [List.map_cons, List.map_nil, List.sum_cons, List.sum_nil] at h
    have e : (3 : Fp bnR) * 5 + (14 * -1 + 0) = 1 := by ring
    rw [e] at h
    have : ((1 : ℕ) : Fp bnR) = ((0 : ℕ) : Fp bnR) := by rw [Nat.cast_one, h, Nat.cast_zero]
    exact absurd ((Fp.natCast_eq_iff _ _).mp this) (by decide +kernel)

end Halo2.Props
