import Verif.Curve.Inst
import Verif.Props.Consts
import Verif.Field.FpBytes

/-!
# Curve arithmetic: C21, C22, C23, C25

`Pt C` is Mathlib's group of points of `y² = x³ + a x + b`; `PRep C P p` says the projective triple `P`
the code stores stands for the point `p`, `ARep C A p` the same for an affine pair.
-/

set_option linter.unusedSectionVars false

namespace Halo2.Props

open Halo2 Halo2.Field Halo2.Prime Halo2.Ext Halo2.Curve

variable {F : Type} [Field F] [DecidableEq F] [BaseField F] [LawfulBase F] {C : Params F}

/-! ## C21 -/

/-- **C21** The group operations of the library on any representations of any points (equal, opposite
or the identity, in any position) give a representation of the group sum, difference, double and
opposite. `Good C` is: odd characteristic, no rational point of order two, and `b = 3` if the curve is
treated as bn256's G1. -/
theorem C21_group_law (hC : Good C) {P Q : Proj F} {A B : Aff F} {p q a b : Pt C} (hP : PRep C P p)
    (hQ : PRep C Q q) (hA : ARep C A a) (hB : ARep C B b) :
    PRep C (Proj.add C P Q) (p + q) ∧ PRep C (Proj.double C P) (p + p) ∧ PRep C (Proj.neg P) (-p) ∧
    PRep C (Proj.sub C P Q) (p - q) ∧
    PRep C (Proj.addMixed C P A) (p + a) ∧ PRep C (Proj.subMixed C P A) (p - a) ∧
    PRep C (Aff.addProj C A P) (a + p) ∧ PRep C (Aff.subProj C A P) (a - p) ∧
    PRep C (Aff.add C A B) (a + b) ∧ PRep C (Aff.sub C A B) (a - b) ∧
    ARep C (Aff.neg A) (-a) ∧ PRep C (Proj.identity : Proj F) 0 ∧ ARep C (Aff.identity : Aff F) 0 := by
  refine ⟨hP.add hC hQ, hP.double hC, hP.neg, hP.sub hC hQ, hP.addMixed hC hA, hP.subMixed hC hA, ?_, ?_,
    hA.add hC hB, ?_, hA.neg, .identity, .identity⟩
  · rw [add_comm]; exact hP.addMixed hC hA
  · rw [sub_eq_add_neg, add_comm]; exact hP.neg.addMixed hC hA
  · rw [sub_eq_add_neg]; exact hA.add hC hB.neg

/-- **C21** A triple that stands for a point satisfies the homogeneous curve equation, passes
`is_on_curve`, is never `(0,0,0)` and stands for one point only. Conversely every triple on the curve
with `z ≠ 0`, and every `(0, y, 0)` with `y ≠ 0`, stands for a point. -/
theorem C21_valid (hC : Good C) (P : Proj F) :
    (∀ p, PRep C P p → Proj.isOnCurve C P = true ∧
      P.y * P.y * P.z = P.x * P.x * P.x + C.a * P.x * P.z * P.z + C.b * P.z * P.z * P.z ∧
      P ≠ ⟨0, 0, 0⟩ ∧ ∀ q, PRep C P q → p = q) ∧
    (P.z ≠ 0 ∧ Proj.isOnCurve C P = true ∨ P.z = 0 ∧ P.x = 0 ∧ P.y ≠ 0 → ∃ p, PRep C P p) := by
  constructor
  · intro p hP
    refine ⟨(Proj.isOnCurve_iff P).mpr (Or.inr hP.curveEq), hP.curveEq, ?_, fun q hq => hP.unique hq⟩
    rintro rfl
    rcases (prep_iff hC _).mp ⟨p, hP⟩ with h | h
    · exact h.2.2 rfl
    · exact h.1 rfl
  · rintro (⟨h1, h2⟩ | h)
    · exact (prep_iff hC P).mpr (Or.inr ⟨h1, ((Proj.isOnCurve_iff P).mp h2).resolve_left h1⟩)
    · exact (prep_iff hC P).mpr (Or.inl h)

/-- **C21** The hypothesis `Good` holds for all eleven shipped curves. -/
theorem C21_shipped :
    Good Bn256.g1 ∧ Good Bn256.g2 ∧ Good Grumpkin.g1 ∧ Good Bls12381.g1 ∧ Good Bls12381.g2 ∧
    Good Pluto.g1 ∧ Good Pluto.eris ∧ Good Pluto.g2 ∧ Good Secp256k1.c ∧ Good Secq256k1.c ∧ Good Secp256r1.c :=
  ⟨Bn256.g1_good, Bn256.g2_good, Grumpkin.g1_good, Bls12381.g1_good, Bls12381.g2_good, Pluto.g1_good,
    Pluto.eris_good, Pluto.g2_good, Secp256k1.c_good, Secq256k1.c_good, Secp256r1.c_good⟩

/-- What is claimed of a generator: it is on the curve and not the identity. -/
def GenSpec (C : Params F) (G : Aff F) : Prop := Aff.isOnCurve C G = true ∧ ∃ g : Pt C, ARep C G g ∧ g ≠ 0

theorem genSpec_of (hC : Good C) {G : Aff F} (h : (Curve.W C).Equation G.x G.y) : GenSpec C G :=
  ⟨(Aff.isOnCurve_iff G).mpr (Or.inr ((equation_iff C _ _).mp h)),
    .some G.x G.y (nonsingular_of hC h), ⟨rfl, rfl⟩, WeierstrassCurve.Affine.Point.some_ne_zero _⟩

/-- **C21** The shipped generators are points of their curves other than the identity. -/
theorem C21_generators :
    GenSpec Bn256.g1 Bn256.g1Gen ∧ GenSpec Bn256.g2 Bn256.g2Gen ∧ GenSpec Grumpkin.g1 Grumpkin.g1Gen ∧
    GenSpec Bls12381.g1 Bls12381.g1Gen ∧ GenSpec Bls12381.g2 Bls12381.g2Gen ∧
    GenSpec Pluto.g1 Pluto.g1Gen ∧ GenSpec Pluto.eris Pluto.erisGen ∧ GenSpec Pluto.g2 Pluto.g2Gen ∧
    GenSpec Secp256k1.c Secp256k1.cGen ∧ GenSpec Secq256k1.c Secq256k1.cGen ∧ GenSpec Secp256r1.c Secp256r1.cGen :=
  ⟨genSpec_of Bn256.g1_good Bn256.g1Gen_equation, genSpec_of Bn256.g2_good Bn256.g2Gen_equation,
    genSpec_of Grumpkin.g1_good Grumpkin.g1Gen_equation, genSpec_of Bls12381.g1_good Bls12381.g1Gen_equation,
    genSpec_of Bls12381.g2_good Bls12381.g2Gen_equation, genSpec_of Pluto.g1_good Pluto.g1Gen_equation,
    genSpec_of Pluto.eris_good Pluto.erisGen_equation, genSpec_of Pluto.g2_good Pluto.g2Gen_equation,
    genSpec_of Secp256k1.c_good Secp256k1.cGen_equation, genSpec_of Secq256k1.c_good Secq256k1.cGen_equation,
    genSpec_of Secp256r1.c_good Secp256r1.cGen_equation⟩

/-- The hypotheses of C21 are met by the generator of secp256r1 (general `a`) and its double. -/
example : ∃ p : Pt Secp256r1.c, PRep Secp256r1.c (Proj.add Secp256r1.c (Aff.toCurve Secp256r1.cGen)
    (Proj.double Secp256r1.c (Aff.toCurve Secp256r1.cGen))) (p + (p + p)) ∧ p ≠ 0 := by
  obtain ⟨_, g, hg, h0⟩ := C21_generators.2.2.2.2.2.2.2.2.2.2
  have := hg.toCurve Secp256r1.c_good
  exact ⟨g, this.add Secp256r1.c_good (this.double Secp256r1.c_good), h0⟩

/-! ## C22 -/

/-- **C22** `==` on projective and affine points decides equality of the represented points,
`is_identity` decides being the identity. -/
theorem C22_eq (hC : Good C) {P Q : Proj F} {A B : Aff F} {p q a b : Pt C} (hP : PRep C P p) (hQ : PRep C Q q)
    (hA : ARep C A a) (hB : ARep C B b) :
    (Proj.ctEq P Q = true ↔ p = q) ∧ (Aff.ctEq A B = true ↔ a = b) ∧ (Aff.eq A B = true ↔ a = b) ∧
    (Proj.isIdentity P = true ↔ p = 0) ∧ (Aff.isIdentity A = true ↔ a = 0) :=
  ⟨hP.ctEq hQ, hA.ctEq hC hB, (Aff.eq_iff A B).trans (hA.ext_iff hC hB), hP.isIdentity, hA.isIdentity hC⟩

/-- **C22** `to_affine` and `to_curve` keep the represented point, and converting an affine point to
projective coordinates and back is the identity function. -/
theorem C22_toAffine (hC : Good C) {P : Proj F} {A : Aff F} {p a : Pt C} (hP : PRep C P p) (hA : ARep C A a) :
    ARep C (Proj.toAffine P) p ∧ PRep C (Aff.toCurve A) a ∧ Proj.toAffine (Aff.toCurve A) = A :=
  ⟨hP.toAffine, hA.toCurve hC, ((hA.toCurve hC).toAffine.ext_iff hC hA).mpr rfl⟩

/-- **C22** `batch_normalize` panics exactly when the lengths differ; otherwise it computes
`to_affine` of every entry, for every slice of arbitrary triples (identities anywhere, even triples
not on the curve). -/
theorem C22_batch_normalize (ps : List (Proj F)) (n : ℕ) :
    Proj.batchNormalize ps n = if ps.length = n then some (ps.map Proj.toAffine) else none :=
  batchNormalize_eq ps n

/-- **C22** `new_jacobian(x, y, z)` accepts exactly the Jacobian coordinates of curve points: for `z ≠ 0`
those with `y² = x³ + a x z⁴ + b z⁶`, which give the affine point `(x/z², y/z³)`; every `z = 0` gives the
identity. -/
theorem C22_new_jacobian (hC : Good C) (x y z : F) :
    (z = 0 → Proj.newJacobian C x y z = some Proj.identity) ∧
    (z ≠ 0 → ∀ P, Proj.newJacobian C x y z = some P ↔
      y ^ 2 = x ^ 3 + C.a * x * z ^ 4 + C.b * z ^ 6 ∧ P = ⟨x / z, y / z ^ 2, z⟩) ∧
    (∀ P, Proj.newJacobian C x y z = some P → ∃ p, PRep C P p ∧ (z ≠ 0 → ∃ h, p = .some (x / z ^ 2) (y / z ^ 3) h)) := by
  have e : (y * y = x * x * x + C.a * x * (z * z * z * z) + C.b * (z * z * z * z * z * z)) ↔
      y ^ 2 = x ^ 3 + C.a * x * z ^ 4 + C.b * z ^ 6 := by
    constructor <;> intro h <;> linear_combination h
  have h2 : z ≠ 0 → ∀ P, Proj.newJacobian C x y z = some P ↔
      y ^ 2 = x ^ 3 + C.a * x * z ^ 4 + C.b * z ^ 6 ∧ P = ⟨x / z, y / z ^ 2, z⟩ := by
    intro hz P
    rw [newJacobian_eq]
    simp only [hz, false_or, if_false, e]
    simp only [← pow_two]
    split
    · next h => simp only [Option.some.injEq, h, true_and]; exact eq_comm
    · next h => simp only [h, false_and, reduceCtorEq]
  have h1 : z = 0 → Proj.newJacobian C x y z = some Proj.identity := by
    intro hz
    rw [newJacobian_eq]
    simp only [hz, true_or, if_true, Proj.identity]
  refine ⟨h1, h2, ?_⟩
  intro P hP
  by_cases hz : z = 0
  · rw [h1 hz, Option.some.injEq] at hP
    subst hP
    exact ⟨0, .identity, fun h => absurd hz h⟩
  · obtain ⟨he, rfl⟩ := (h2 hz P).mp hP
    have hq : (Curve.W C).Equation (x / z ^ 2) (y / z ^ 3) := by
      rw [equation_iff]
      field_simp
      linear_combination he
    refine ⟨.some _ _ (nonsingular_of hC hq), ⟨hz, ?_, ?_⟩, fun _ => ⟨_, rfl⟩⟩
    · field_simp
    · field_simp

/-- **C22** `jacobian_coordinates` followed by `new_jacobian` gives back a representation of the same
point. -/
theorem C22_jacobian_round_trip (hC : Good C) {P : Proj F} {p : Pt C} (hP : PRep C P p) :
    ∃ Q, Proj.newJacobian C (Proj.jacobianCoordinates P).1 (Proj.jacobianCoordinates P).2.1
      (Proj.jacobianCoordinates P).2.2 = some Q ∧ PRep C Q p := by
  simp only [Proj.jacobianCoordinates]
  by_cases hz : P.z = 0
  · refine ⟨_, (C22_new_jacobian hC _ _ _).1 hz, ?_⟩
    rw [hP.z_eq_zero.mp hz]
    exact .identity
  · refine ⟨_, ((C22_new_jacobian hC _ _ _).2.1 hz _).mpr ⟨?_, rfl⟩, ?_⟩
    · rw [LawfulBase.sqr_eq]
      linear_combination P.z ^ 3 * hP.curveEq
    · rw [LawfulBase.sqr_eq, mul_div_cancel_right₀ _ hz, pow_two, mul_div_cancel_right₀ _ (mul_ne_zero hz hz)]
      exact hP

/-- C22 with an identity in the middle of the slice. -/
example : Proj.batchNormalize [Aff.toCurve Secp256k1.cGen, ⟨0, 5, 0⟩, Proj.double Secp256k1.c (Aff.toCurve Secp256k1.cGen)] 3 =
    some [Secp256k1.cGen, ⟨0, 0⟩, Proj.toAffine (Proj.double Secp256k1.c (Aff.toCurve Secp256k1.cGen))] := by
  obtain ⟨_, g, hg, h0⟩ := C21_generators.2.2.2.2.2.2.2.2.1
  rw [C22_batch_normalize, if_pos (by rfl)]
  simp only [List.map, (C22_toAffine Secp256k1.c_good (hg.toCurve Secp256k1.c_good) hg).2.2]
  rw [toAffine_eq ⟨0, 5, 0⟩, if_pos rfl]
  rfl

/-! ## C23 -/

/-- **C23** Scalar multiplication, for projective and affine points: the loop over the bytes `repr` of
`k.to_repr()` computes the multiple by the little-endian number they encode. -/
theorem C23_mul_bytes (hC : Good C) {P : Proj F} {A : Aff F} {p a : Pt C} (hP : PRep C P p) (hA : ARep C A a)
    (repr : List ℕ) (hr : IsBytes repr) :
    PRep C (Proj.mul C P repr) (leNat repr • p) ∧ PRep C (Aff.mul C A repr) (leNat repr • a) :=
  ⟨hP.mul hC repr hr, hA.mul hC repr hr⟩

/-- **C23** With the scalar field's own encoding: `P * k` is the `k`-fold sum, for every scalar `k` of
every prime field `Fp r` of the library. -/
theorem C23_mul (hC : Good C) {r : ℕ} [Fact (OddModulus r)] {P : Proj F} {A : Aff F} {p a : Pt C} (hP : PRep C P p)
    (hA : ARep C A a) (k : Fp r) :
    PRep C (Proj.mul C P (Fp.toRepr k)) (Fp.toNat k • p) ∧ PRep C (Aff.mul C A (Fp.toRepr k)) (Fp.toNat k • a) := by
  obtain ⟨_, h2, h3⟩ := Fp.toBytes_spec .LE k
  have h4 : leNat (Fp.toRepr k) = Fp.toNat k := h3
  rw [← h4]
  exact C23_mul_bytes hC hP hA _ h2

/-- **C23** The sum of a slice of points. -/
theorem C23_sum (hC : Good C) {l : List (Proj F)} {m : List (Pt C)} (h : List.Forall₂ (PRep C) l m) :
    PRep C (Proj.sum C l) m.sum := PRep.sum hC h

/-! ## C25 -/

theorem cube_root {z : F} (h3 : z ^ 3 = 1) (h1 : z ≠ 1) : z * z + z + 1 = 0 := by
  have h : (z - 1) * (z * z + z + 1) = 0 := by linear_combination h3
  exact (mul_eq_zero.mp h).resolve_left (sub_ne_zero.mpr h1)

/-- **C25** On a curve with `a = 0`, for a primitive cube root of unity `zeta`, `endo` is an endomorphism
`phi` of the group of points: the code's `endo` applied to a representation of `p` represents `phi p`,
`phi` is additive, sends `(x, y)` to `(zeta x, y)` and satisfies `phi² + phi + 1 = 0`. -/
theorem C25_endo (hC : Good C) (ha : C.a = 0) {zeta : F} (h3 : zeta ^ 3 = 1) (h1 : zeta ≠ 1) :
    ∃ phi : Pt C →+ Pt C,
      (∀ P p, PRep C P p → PRep C (Proj.endo zeta P) (phi p)) ∧
      (∀ x y h, ∃ h', phi (.some x y h) = .some (x * zeta) y h') ∧
      (∀ p, phi (phi p) + phi p + p = 0) := by
  have hz3 : zeta * zeta * zeta = 1 := by rw [← h3]; ring
  exact ⟨endoHom hC ha zeta hz3, fun P p hP => hP.endo hC ha hz3, fun x y h => ⟨_, rfl⟩,
    endo_relation hC ha (cube_root h3 h1) hz3⟩

/-- Models src/derive/field/tower.rs:80-85 (`ZETA` of a quadratic extension). -/
def zeta2 (p z : ℕ) [Fact (OddModulus p)] : Quad (Fp p) := ⟨Fp.zeta p z * Fp.zeta p z, 0⟩

/-- The claim of C25 for one curve and one constant. -/
def EndoSpec (C : Params F) (zeta : F) : Prop :=
  ∃ phi : Pt C →+ Pt C, (∀ P p, PRep C P p → PRep C (Proj.endo zeta P) (phi p)) ∧
    (∀ x y h, ∃ h', phi (.some x y h) = .some (x * zeta) y h') ∧ (∀ p, phi (phi p) + phi p + p = 0)

theorem zeta2_cube {p z : ℕ} [Fact (OddModulus p)] [ExtField (Fp p)] [LawfulExt (Fp p)]
    (h : Fp.zeta p z ^ 3 = 1) : zeta2 p z ^ 3 = 1 := by
  have e : zeta2 p z * zeta2 p z * zeta2 p z = 1 := by
    ext
    · have e1 : ((1 : Quad (Fp p))).c0 = 1 := rfl
      rw [Quad.mul_c0, Quad.mul_c0, Quad.mul_c1, e1]
      simp only [zeta2]
      linear_combination (Fp.zeta p z ^ 3 + 1) * h
    · have e1 : ((1 : Quad (Fp p))).c1 = 0 := rfl
      rw [Quad.mul_c1, Quad.mul_c0, Quad.mul_c1, e1]
      simp only [zeta2]
      ring
  rw [← e]; ring

theorem zeta2_ne_one {p z : ℕ} [Fact (OddModulus p)] [Fact p.Prime] [Fp.SmallModulus p] [ExtField (Fp p)]
    (h : Fp.zeta p z ^ 3 = 1) (h1 : Fp.zeta p z ≠ 1) : zeta2 p z ≠ 1 := by
  intro h0
  have h2 : Fp.zeta p z * Fp.zeta p z = 1 := congrArg Quad.c0 h0
  apply h1
  linear_combination h - Fp.zeta p z * h2

/-- **C25** for the shipped curves with `a = 0`. -/
theorem C25_shipped :
    EndoSpec Bn256.g1 (Fp.zeta bnQ bnQZeta) ∧
    EndoSpec Grumpkin.g1 (Fp.zeta bnR bnRZeta) ∧
    EndoSpec Bls12381.g1 (Fp.zeta blsQ blsQZeta) ∧
    EndoSpec Pluto.g1 (Fp.zeta plP plPZeta) ∧
    EndoSpec Pluto.eris (Fp.zeta plQ plQZeta) ∧
    EndoSpec Secp256k1.c (Fp.zeta k1P k1PZeta) ∧
    EndoSpec Secq256k1.c (Fp.zeta k1N k1NZeta) ∧
    EndoSpec Bn256.g2 (zeta2 bnQ bnQZeta) ∧
    EndoSpec Bls12381.g2 (zeta2 blsQ blsQZeta) ∧
    EndoSpec Pluto.g2 (zeta2 plP plPZeta) := by
  obtain ⟨c0, c1, c2, c3, c4, c5, c6, c7, _, _⟩ := C12_constants
  exact ⟨C25_endo Bn256.g1_good Bn256.g1_a c0.zeta_cube c0.zeta_ne_one,
    C25_endo Grumpkin.g1_good Grumpkin.g1_a c1.zeta_cube c1.zeta_ne_one,
    C25_endo Bls12381.g1_good Bls12381.g1_a c2.zeta_cube c2.zeta_ne_one,
    C25_endo Pluto.g1_good Pluto.g1_a c4.zeta_cube c4.zeta_ne_one,
    C25_endo Pluto.eris_good Pluto.eris_a c5.zeta_cube c5.zeta_ne_one,
    C25_endo Secp256k1.c_good Secp256k1.c_a c6.zeta_cube c6.zeta_ne_one,
    C25_endo Secq256k1.c_good Secq256k1.c_a c7.zeta_cube c7.zeta_ne_one,
    C25_endo Bn256.g2_good Bn256.g2_a (zeta2_cube c0.zeta_cube) (zeta2_ne_one c0.zeta_cube c0.zeta_ne_one),
    C25_endo Bls12381.g2_good Bls12381.g2_a (zeta2_cube c2.zeta_cube) (zeta2_ne_one c2.zeta_cube c2.zeta_ne_one),
    C25_endo Pluto.g2_good Pluto.g2_a (zeta2_cube c4.zeta_cube) (zeta2_ne_one c4.zeta_cube c4.zeta_ne_one)⟩

/-- The endomorphism moves the generator of bn256's G1: it is not the identity map. -/
example : ∃ g, PRep Bn256.g1 ⟨Bn256.g1Gen.x, Bn256.g1Gen.y, 1⟩ g ∧
    Proj.endo (Fp.zeta bnQ bnQZeta) ⟨Bn256.g1Gen.x, Bn256.g1Gen.y, 1⟩ ≠ ⟨Bn256.g1Gen.x, Bn256.g1Gen.y, 1⟩ := by
  refine ⟨.some _ _ (nonsingular_of Bn256.g1_good Bn256.g1Gen_equation), ⟨one_ne_zero, (mul_one _).symm, (mul_one _).symm⟩, ?_⟩
  intro h
  have h1 : (1 : Fp bnQ) * Fp.zeta bnQ bnQZeta = 1 := congrArg Proj.x h
  rw [one_mul] at h1
  exact C12_constants.1.zeta_ne_one h1

end Halo2.Props
