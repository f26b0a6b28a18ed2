import Verif.Pairing.NondegBn
import Verif.Pairing.NondegBls
import Verif.Pairing.NondegPluto
import Verif.Curve.Scalar

/-!
# C49: the pairings are bilinear and not degenerate

The groups are those of points of order dividing `r` of the two curves; the values are elements of the target field, on which
`Gt` adds by multiplication (C39).
-/

set_option linter.unusedSectionVars false

namespace Halo2.Props

open Halo2 Halo2.Ext Halo2.Field Halo2.Prime Halo2.Curve Halo2.Pairing

section Claim
variable {L F K : Type} [_root_.Field L] [DecidableEq L] [BaseField L] [LawfulBase L]
  [_root_.Field F] [DecidableEq F] [BaseField F] [LawfulBase F] [CommMonoid K]

/-- The affine point is the identity or on the curve, and `r` times it is the identity. -/
def InGroup (C : Params L) (r : ℕ) (p : Aff L) : Prop := ∃ P : Pt C, ARep C p P ∧ r • P = 0

/-- What C49 says about `pairing` and about `multi_miller_loop` followed by `final_exponentiation`, where `none` stands for a
panic. -/
structure PairingClaim (C1 : Params L) (C2 : Params F) (r : ℕ) (pairing : Aff L → Aff F → Option K)
    (multi : List (Aff L × Aff F) → Option K) : Prop where
  /-- no panic, and the value is in the group of order `r` -/
  total : ∀ p q, InGroup C1 r p → InGroup C2 r q → ∃ z, pairing p q = some z ∧ z ^ r = 1
  /-- additive in the first argument -/
  add_left : ∀ p p' q z z', InGroup C1 r p → InGroup C1 r p' → InGroup C2 r q →
    pairing p q = some z → pairing p' q = some z' → pairing (Aff.add C1 p p').toAffine q = some (z * z')
  /-- additive in the second argument -/
  add_right : ∀ p q q' z z', InGroup C1 r p → InGroup C2 r q → InGroup C2 r q' →
    pairing p q = some z → pairing p q' = some z' → pairing p (Aff.add C2 q q').toAffine = some (z * z')
  /-- scalars go to the exponent -/
  mul : ∀ p q z (a b : List ℕ), InGroup C1 r p → InGroup C2 r q → IsBytes a → IsBytes b → pairing p q = some z →
    pairing (Aff.mul C1 p a).toAffine (Aff.mul C2 q b).toAffine = some (z ^ (leNat a * leNat b))
  /-- negation of either argument inverts the value -/
  neg : ∀ p q z, InGroup C1 r p → InGroup C2 r q → pairing p q = some z →
    ∃ w, w * z = 1 ∧ pairing p.neg q = some w ∧ pairing p q.neg = some w
  /-- the value is one only if one of the points is the identity -/
  nondeg : ∀ p q, InGroup C1 r p → InGroup C2 r q →
    (pairing p q = some 1 ↔ p.isIdentity = true ∨ q.isIdentity = true)
  /-- lists of pairs give the product of the pairings -/
  multi : ∀ ts zs, List.Forall₂ (fun t z => InGroup C1 r t.1 ∧ InGroup C2 r t.2 ∧ pairing t.1 t.2 = some z) ts zs →
    multi ts = some zs.prod

end Claim

section Of
variable {L F K : Type} [_root_.Field L] [DecidableEq L] [BaseField L] [LawfulBase L]
  [_root_.Field F] [DecidableEq F] [BaseField F] [LawfulBase F] [CommMonoid K]
  {C1 : Params L} {C2 : Params F} {r : ℕ} {pairing : Aff L → Aff F → Option K}
  {multi : List (Aff L × Aff F) → Option K}

theorem pairingClaim_of (h1 : Good C1) (h2 : Good C2) (e : Pt C1 → Pt C2 → Kˣ) (hb : BilinOn r e)
    (hn : ∀ P Q, r • P = 0 → r • Q = 0 → (e P Q = 1 ↔ P = 0 ∨ Q = 0))
    (hm : ∀ ts PQ, List.Forall₂ (fun (t : Aff L × Aff F) (s : Pt C1 × Pt C2) => ARep C1 t.1 s.1 ∧ ARep C2 t.2 s.2 ∧
      r • s.1 = 0 ∧ r • s.2 = 0) ts PQ → multi ts = some ((PQ.map fun s => (e s.1 s.2 : K)).prod))
    (hp : ∀ p q, pairing p q = multi [(p, q)]) : PairingClaim C1 C2 r pairing multi := by
  have key : ∀ {p q P Q}, ARep C1 p P → ARep C2 q Q → r • P = 0 → r • Q = 0 → pairing p q = some (e P Q : K) := by
    intro p q P Q a b c d
    rw [hp, hm [(p, q)] [(P, Q)] (.cons ⟨a, b, c, d⟩ .nil)]
    simp only [List.map_cons, List.map_nil, List.prod_singleton]
  have ks : ∀ {A : Type} [AddCommGroup A] {P : A} (n : ℕ), r • P = 0 → r • n • P = 0 := by
    intro A _ P n h
    rw [smul_comm, h, smul_zero]
  have ka : ∀ {A : Type} [AddCommGroup A] {P P' : A}, r • P = 0 → r • P' = 0 → r • (P + P') = 0 := by
    intro A _ P P' h h'
    rw [smul_add, h, h', add_zero]
  have kn : ∀ {A : Type} [AddCommGroup A] {P : A}, r • P = 0 → r • (-P) = 0 := by
    intro A _ P h
    rw [smul_neg, h, neg_zero]
  refine ⟨?_, ?_, ?_, ?_, ?_, ?_, ?_⟩
  · rintro p q ⟨P, a, c⟩ ⟨Q, b, d⟩
    refine ⟨_, key a b c d, ?_⟩
    rw [← Units.val_pow_eq_pow_val, hb.pow_r c d, Units.val_one]
  · rintro p p' q z z' ⟨P, a, c⟩ ⟨P', a', c'⟩ ⟨Q, b, d⟩ hz hz'
    rw [key a b c d] at hz
    rw [key a' b c' d] at hz'
    rw [key (a.add h1 a').toAffine b (ka c c') d, hb.add_left _ _ _ c c' d, Units.val_mul, Option.some.inj hz,
      Option.some.inj hz']
  · rintro p q q' z z' ⟨P, a, c⟩ ⟨Q, b, d⟩ ⟨Q', b', d'⟩ hz hz'
    rw [key a b c d] at hz
    rw [key a b' c d'] at hz'
    rw [key a (b.add h2 b').toAffine c (ka d d'), hb.add_right _ _ _ c d d', Units.val_mul, Option.some.inj hz,
      Option.some.inj hz']
  · rintro p q z x y ⟨P, a, c⟩ ⟨Q, b, d⟩ hx hy hz
    rw [key a b c d] at hz
    rw [key (a.mul h1 x hx).toAffine (b.mul h2 y hy).toAffine (ks _ c) (ks _ d), hb.smul_smul c d,
      Units.val_pow_eq_pow_val, Option.some.inj hz]
  · rintro p q z ⟨P, a, c⟩ ⟨Q, b, d⟩ hz
    rw [key a b c d] at hz
    refine ⟨((e P Q)⁻¹ : Kˣ), ?_, ?_, ?_⟩
    · rw [← Option.some.inj hz, Units.inv_mul]
    · rw [key a.neg b (kn c) d, hb.neg_left c d]
    · rw [key a b.neg c (kn d), hb.neg_right c d]
  · rintro p q ⟨P, a, c⟩ ⟨Q, b, d⟩
    rw [key a b c d, a.isIdentity h1, b.isIdentity h2, ← hn P Q c d, Option.some.injEq, Units.val_eq_one]
  · intro ts zs h
    have : ∃ PQ : List (Pt C1 × Pt C2), List.Forall₂ (fun (t : Aff L × Aff F) (s : Pt C1 × Pt C2) =>
        ARep C1 t.1 s.1 ∧ ARep C2 t.2 s.2 ∧ r • s.1 = 0 ∧ r • s.2 = 0) ts PQ ∧
        (PQ.map fun s => (e s.1 s.2 : K)) = zs := by
      induction h with
      | nil => exact ⟨[], .nil, rfl⟩
      | cons h _ ih =>
        obtain ⟨⟨P, a, c⟩, ⟨Q, b, d⟩, hz⟩ := h
        obtain ⟨PQ, h3, h4⟩ := ih
        rw [key a b c d] at hz
        exact ⟨(P, Q) :: PQ, .cons ⟨a, b, c, d⟩ h3, by rw [List.map_cons, h4, Option.some.inj hz]⟩
    obtain ⟨PQ, h3, h4⟩ := this
    rw [hm ts PQ h3, h4]

end Of

/-- **C49** bn256: `pairing` and `multi_miller_loop` with `final_exponentiation`. -/
theorem C49_bn256 : PairingClaim Bn256.g1 Bn256.g2 bnR Bn256.pairing
    (fun ts => Bn256.finalExp (Bn256.multiMillerLoop ts)) :=
  pairingClaim_of Bn256.g1_good Bn256.g2_good Bn256.e Bn256.bilin (fun _ _ => Bn256.nondeg)
    (fun _ _ h => Bn256.multi_eq h) fun _ _ => rfl

/-- **C49** bls12381. -/
theorem C49_bls12381 : PairingClaim Bls12381.g1 Bls12381.g2 blsR Bls12381.pairing
    (fun ts => Bls12381.finalExp (Bls12381.multiMillerLoop ts)) :=
  pairingClaim_of Bls12381.g1_good Bls12381.g2_good Bls12381.e Bls12381.bilin (fun _ _ => Bls12381.nondeg)
    (fun _ _ h => Bls12381.multi_eq h) fun _ _ => rfl

/-- **C49** pluto. -/
theorem C49_pluto : PairingClaim Pluto.g1 Pluto.g2 plQ Pluto.pairing
    (fun ts => Pluto.finalExp (Pluto.multiMillerLoop ts)) :=
  pairingClaim_of Pluto.g1_good Pluto.g2_good Pluto.e Pluto.bilin (fun _ _ => Pluto.nondeg)
    (fun _ _ h => Pluto.multi_eq h) fun _ _ => rfl

/-- The generators are in the groups and are not the identity. -/
theorem C49_generators :
    (InGroup Bn256.g1 bnR Bn256.g1Gen ∧ InGroup Bn256.g2 bnR Bn256.g2Gen ∧ Bn256.pairing Bn256.g1Gen Bn256.g2Gen ≠ some 1) ∧
    (InGroup Bls12381.g1 blsR Bls12381.g1Gen ∧ InGroup Bls12381.g2 blsR Bls12381.g2Gen ∧
      Bls12381.pairing Bls12381.g1Gen Bls12381.g2Gen ≠ some 1) ∧
    (InGroup Pluto.g1 plQ Pluto.g1Gen ∧ InGroup Pluto.g2 plQ Pluto.g2Gen ∧ Pluto.pairing Pluto.g1Gen Pluto.g2Gen ≠ some 1) := by
  have a1 : InGroup Bn256.g1 bnR Bn256.g1Gen := ⟨_, Bn256.g1Gen_rep, Bn256.g1Pt_r⟩
  have a2 : InGroup Bn256.g2 bnR Bn256.g2Gen := ⟨_, Bn256.g2Gen_rep, Bn256.g2Pt_r⟩
  have b1 : InGroup Bls12381.g1 blsR Bls12381.g1Gen := ⟨_, Bls12381.g1Gen_rep, Bls12381.g1Pt_r⟩
  have b2 : InGroup Bls12381.g2 blsR Bls12381.g2Gen := ⟨_, Bls12381.g2Gen_rep, Bls12381.g2Pt_r⟩
  have c1 : InGroup Pluto.g1 plQ Pluto.g1Gen := ⟨_, Pluto.g1Gen_rep, Pluto.g1Pt_r⟩
  have c2 : InGroup Pluto.g2 plQ Pluto.g2Gen := ⟨_, Pluto.g2Gen_rep, Pluto.g2Pt_r⟩
  refine ⟨⟨a1, a2, fun h => ?_⟩, ⟨b1, b2, fun h => ?_⟩, c1, c2, fun h => ?_⟩
  · rcases (C49_bn256.nondeg _ _ a1 a2).mp h with h | h
    · exact Bn256.g1Pt_ne ((Bn256.g1Gen_rep.isIdentity Bn256.g1_good).mp h)
    · exact Bn256.g2Pt_ne ((Bn256.g2Gen_rep.isIdentity Bn256.g2_good).mp h)
  · rcases (C49_bls12381.nondeg _ _ b1 b2).mp h with h | h
    · exact Bls12381.g1Pt_ne ((Bls12381.g1Gen_rep.isIdentity Bls12381.g1_good).mp h)
    · exact Bls12381.g2Pt_ne ((Bls12381.g2Gen_rep.isIdentity Bls12381.g2_good).mp h)
  · rcases (C49_pluto.nondeg _ _ c1 c2).mp h with h | h
    · exact Pluto.g1Pt_ne ((Pluto.g1Gen_rep.isIdentity Pluto.g1_good).mp h)
    · exact Pluto.g2Pt_ne ((Pluto.g2Gen_rep.isIdentity Pluto.g2_good).mp h)

/-- The check used by verifiers: `e(a P, Q) e(-P, a Q) = 1`. -/
example (p : Aff Bn256.Fq) (q : Aff Bn256.Fq2) (a : List ℕ) (hp : InGroup Bn256.g1 bnR p) (hq : InGroup Bn256.g2 bnR q)
    (ha : IsBytes a) (z : Bn256.Fq12) (hz : Bn256.pairing p q = some z) :
    Bn256.pairing (Aff.mul Bn256.g1 p a).toAffine (Aff.mul Bn256.g2 q [1]).toAffine =
      Bn256.pairing (Aff.mul Bn256.g1 p [1]).toAffine (Aff.mul Bn256.g2 q a).toAffine := by
  have h1 : IsBytes [1] := by intro b hb; rw [List.mem_singleton.mp hb]; decide
  rw [C49_bn256.mul p q z a [1] hp hq ha h1 hz, C49_bn256.mul p q z [1] a hp hq h1 ha hz, Nat.mul_comm]

end Halo2.Props
