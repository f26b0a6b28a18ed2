import Verif.Hash.MapInst
import Verif.Props.Hash

/-!
# Hashing to the curves: C35, C36, C37
-/

set_option linter.unusedSectionVars false

namespace Halo2.Props

open Halo2 Halo2.Prime Halo2.Ext Halo2.Curve Halo2.Hash Halo2.Field

section Generic

variable {F : Type} [_root_.Field F] [DecidableEq F] [BaseField F] [LawfulBase F]

/-- The image of `u` under the Shallue-van de Woestijne map of RFC 9380, section 6.6.1, for a root `s` of step 5: the
abscissa is the RFC's, the ordinate is related to `u` by `sgn`. -/
def SvdwPt (C : Params F) (z s : F) (sgn : F → F → Prop) (u : F) (A : Pt C) : Prop :=
  ∃ x y h, A = .some x y h ∧ SvdwX C.a C.b z s u x ∧ sgn u y

/-- The constant of step 5: a square root of `-g(Z) (3 Z² + 4 A)`, the one that `even` describes. -/
def SvdwRoot (C : Params F) (z : F) (even : F → Prop) (s : F) : Prop :=
  s ^ 2 = -rhs C.a C.b z * (3 * z ^ 2 + 4 * C.a) ∧ even s

/-- The map `map` is the SVDW map. -/
def IsSvdw (C : Params F) (z : F) (even : F → Prop) (sgn : F → F → Prop) (map : F → Option (Proj F)) : Prop :=
  ∃ s, s ^ 2 = -rhs C.a C.b z * (3 * z ^ 2 + 4 * C.a) ∧ even s ∧
    ∀ u, ∃ P A, map u = some P ∧ PRep C P A ∧ SvdwPt C z s sgn u A

/-- **C35** For every field, curve without points of order two and admissible `Z`: the map never panics and
its image is the point of RFC 9380, also for the exceptional `u`; the sign of `y` is that of `u` unless the sign
function does not tell `y` from `-y`. -/
theorem C35_svdw {C : Params F} {O : HashOps F} (hO : O.Ok) (hC : Good C) {z : F} (hz : SvdwZ C.a C.b z) :
    IsSvdw C z (fun s => O.isOdd s = false ∨ O.isOdd (-s) = O.isOdd s)
      (fun u y => O.isOdd y = O.isOdd u ∨ O.isOdd (-y) = O.isOdd y) (svdwSuite C O z) := by
  obtain ⟨s, e, hs, ev⟩ := svdwConstants_spec hO hC.two hz
  refine ⟨s, hs, ev, fun u => ?_⟩
  obtain ⟨x, y, em, hx, hy, hg⟩ := svdwMap_spec hO hC hz hs u
  have he : (Curve.W C).Equation x y := by
    rw [equation_iff]
    unfold rhs at hy
    linear_combination hy
  have hn := nonsingular_of hC he
  refine ⟨⟨x, y, 1⟩, .some x y hn, ?_, ?_, x, y, hn, rfl, hx, hg⟩
  · unfold svdwSuite
    rw [e]
    exact em
  · rw [PRep.some_iff]
    exact ⟨one_ne_zero, (mul_one _).symm, (mul_one _).symm⟩

/-- The image of `u` under the simplified SWU map of RFC 9380, section 6.6.2. -/
def SswuPt (a b z : F) (sgn : F → F → Prop) (u t s : F) : Prop :=
  SswuX a b z u t ∧ s ^ 2 = rhs a b t ∧ sgn u s

/-- **C36** For every field and admissible `A`, `B`, `Z`: the map never panics and its image, read as
homogeneous coordinates, is the point of RFC 9380 on `y² = x³ + A x + B`, also for the exceptional `u`. -/
theorem C36_sswu {O : HashOps F} (hO : O.Ok) {a b z : F} (hz : SswuZ a b z) (u : F) :
    ∃ X Y Z, sswuMap O a b z u = some (X, Y, Z) ∧ Z ≠ 0 ∧
      SswuPt a b z (fun u y => O.isOdd y = O.isOdd u ∨ O.isOdd (-y) = O.isOdd y) u (X / Z) (Y / Z) := by
  obtain ⟨X, Y, Z, e, hZ, hx, hy, hg⟩ := sswuMap_spec hO hz u
  exact ⟨X, Y, Z, e, hZ, hx, hy, hg⟩

/-- The image of a point `(t, s)` under the rational map given by a table. -/
def IsoPt (C : Params F) (T : IsoTable F) (t s : F) (A : Pt C) : Prop :=
  ∃ h, A = .some (peval T.xnum t / peval T.xden t) (s * peval T.ynum t / peval T.yden t) h

/-- A suite's map is the SSWU map followed by a rational map. -/
def IsSswuIso (C : Params F) (T : IsoTable F) (a b z : F) (sgn : F → F → Prop) (map : F → Option (Proj F)) : Prop :=
  ∀ u, ∃ P A t s, map u = some P ∧ PRep C P A ∧ SswuPt a b z sgn u t s ∧ IsoPt C T t s A

theorem sswuIso_spec {C : Params F} (hC : Good C) {O : HashOps F} (hO : O.Ok) {T : IsoTable F} {a b z : F} (hz : SswuZ a b z)
    (hT : IsoIdent C a b T) {iso : F → F → F → Proj F}
    (hiso : ∀ x y z : F, z ≠ 0 → IsoOut T (x / z) (y / z) (iso x y z)) (u : F) : ∃ P t s,
      sswuSuite O a b z iso u = some P ∧
      SswuPt a b z (fun u y => O.isOdd y = O.isOdd u ∨ O.isOdd (-y) = O.isOdd y) u t s ∧
      (peval T.xden t ≠ 0 → peval T.yden t ≠ 0 → s ≠ 0 ∧ ∃ A, PRep C P A ∧ IsoPt C T t s A) ∧
      (peval T.xden t = 0 → peval T.yden t = 0 → P = ⟨0, 0, 0⟩) := by
  obtain ⟨X, Y, Z, e, hZ, hs⟩ := C36_sswu hO hz u
  refine ⟨iso X Y Z, X / Z, Y / Z, ?_, hs, ?_, ?_⟩
  · unfold sswuSuite
    rw [e]
  · intro hx hy
    obtain ⟨h, hP⟩ := iso_point hC hT hs.2.1 (hiso X Y Z hZ) hx hy
    refine ⟨?_, .some _ _ h, hP, h, rfl⟩
    intro h0
    have hid := hT (X / Z)
    rw [← hs.2.1, h0] at hid
    apply hC.noRoot (peval T.xnum (X / Z) / peval T.xden (X / Z))
    field_simp
    rcases mul_eq_zero.mp (show (peval T.xnum (X / Z) ^ 3 + C.a * peval T.xnum (X / Z) * peval T.xden (X / Z) ^ 2 +
        C.b * peval T.xden (X / Z) ^ 3) * peval T.yden (X / Z) ^ 2 = 0 by rw [← hid]; ring) with h1 | h1
    · linear_combination h1
    · exact absurd h1 (pow_ne_zero _ hy)
  · intro hx hy
    exact iso_kernel (hiso X Y Z hZ) hx hy

/-- Two images are added by `hash_to_curve`. -/
theorem hashToCurve_spec {C : Params F} (hC : Good C) {D : Digest} {checks : Bool} {fu : List ℕ → F} {L : ℕ}
    {map : F → Option (Proj F)} {pre domain msg : List ℕ} {u : F × F} (hu : hashToField D checks fu L pre domain msg = some u)
    {P Q : Proj F} {A B : Pt C} (h1 : map u.1 = some P) (hA : PRep C P A) (h2 : map u.2 = some Q) (hB : PRep C Q B) :
    ∃ R, hashToCurve C D checks fu L map pre domain msg = some R ∧ PRep C R (A + B) := by
  refine ⟨Proj.add C P Q, ?_, hA.add hC hB⟩
  unfold hashToCurve
  rw [hu]
  dsimp only
  rw [h1, h2]

end Generic

section Prime

variable {p : ℕ} [Fact (OddModulus p)] [Fact p.Prime] [Fp.SmallModulus p]

/-- `sgn0(u) = sgn0(y)` for a prime field (RFC 9380, section 4.1): the parities are the same. -/
def SameSign (u y : Fp p) : Prop := y.toNat % 2 = u.toNat % 2

theorem sameSign_of {u y : Fp p} (h0 : y ≠ 0) (h : Fp.isOdd y = Fp.isOdd u ∨ Fp.isOdd (-y) = Fp.isOdd y) : SameSign u y := by
  rcases h with h | h
  · rw [Fp.isOdd_eq, Fp.isOdd_eq, decide_eq_decide] at h
    unfold SameSign
    omega
  · exact absurd h (Fp.isOdd_neg y h0)

/-- **C35** over a prime field the sign is exactly the RFC's, both of the precomputed root and of `y`. -/
theorem C35_prime {C : Params (Fp p)} {g : ℕ} (hO : (fpOps p g).Ok) (hC : Good C) {z : Fp p} (hz : SvdwZ C.a C.b z) :
    IsSvdw C z (fun s => s.toNat % 2 = 0) SameSign (svdwSuite C (fpOps p g) z) := by
  obtain ⟨s, hs, ev, hm⟩ := C35_svdw hO hC hz
  refine ⟨s, hs, ?_, fun u => ?_⟩
  · have hs0 : s ≠ 0 := by
      rintro rfl
      exact mul_ne_zero (neg_ne_zero.mpr hz.ne) hz.tne (by rw [← hs]; ring)
    rcases ev with h | h
    · have h' : Fp.isOdd s = false := h
      rw [Fp.isOdd_eq, decide_eq_false_iff_not] at h'
      have := Nat.mod_two_eq_zero_or_one s.toNat
      omega
    · exact absurd h (Fp.isOdd_neg s hs0)
  · obtain ⟨P, A, e, hP, x, y, h, rfl, hx, hg⟩ := hm u
    exact ⟨P, _, e, hP, x, y, h, rfl, hx, sameSign_of (y_ne_zero hC h.1) hg⟩

/-- **C35** The point is determined by the RFC's description. -/
theorem C35_unique {C : Params (Fp p)} {z s u : Fp p} {A B : Pt C} (hA : SvdwPt C z s SameSign u A)
    (hB : SvdwPt C z s SameSign u B) : A = B := by
  obtain ⟨x, y, h, rfl, ⟨a1, a2, a3⟩, hg⟩ := hA
  obtain ⟨x', y', h', rfl, ⟨b1, b2, b3⟩, hg'⟩ := hB
  have ex : x = x' := by
    by_cases q1 : IsSquare (rhs C.a C.b (-z / 2 - u * (1 - u ^ 2 * rhs C.a C.b z) *
        ((1 - u ^ 2 * rhs C.a C.b z) * (1 + u ^ 2 * rhs C.a C.b z))⁻¹ * s))
    · rw [a1 q1, b1 q1]
    · by_cases q2 : IsSquare (rhs C.a C.b (-z / 2 + u * (1 - u ^ 2 * rhs C.a C.b z) *
          ((1 - u ^ 2 * rhs C.a C.b z) * (1 + u ^ 2 * rhs C.a C.b z))⁻¹ * s))
      · rw [a2 q1 q2, b2 q1 q2]
      · rw [a3 q1 q2, b3 q1 q2]
  subst ex
  have e1 := (equation_iff _ _ _).mp h.1
  have e2 := (equation_iff _ _ _).mp h'.1
  have ey : y = y' := by
    have : (y - y') * (y + y') = 0 := by linear_combination e1 - e2
    rcases mul_eq_zero.mp this with h0 | h0
    · exact sub_eq_zero.mp h0
    · have hn : y = -y' := eq_neg_of_add_eq_zero_left h0
      by_cases hz : y' = 0
      · rw [hn, hz, neg_zero]
      · exfalso
        apply Fp.isOdd_neg y' hz
        rw [← hn, Fp.isOdd_eq, Fp.isOdd_eq, decide_eq_decide]
        unfold SameSign at hg hg'
        omega
  subst ey
  rfl

/-- The claim for a prime-field suite: `hash_to_curve` panics exactly for tags of 256 bytes and more, and otherwise
returns the sum, in the group of the curve, of the points that `pt` describes for the RFC's two field elements. -/
def HashesTo (C : Params (Fp p)) (D : Digest) (L : ℕ) (map : Fp p → Option (Proj (Fp p))) (pt : Fp p → Pt C → Prop) : Prop :=
  ∀ (checks : Bool) (pre domain msg : List ℕ),
    (256 ≤ pre.length + domain.length → hashToCurve C D checks Fp.fromUniform L map pre domain msg = none) ∧
    (pre.length + domain.length < 256 → ∃ n0 n1 R A B,
      hashToFieldRfc D L msg (pre ++ domain) = some (n0, n1) ∧ pt ((n0 : ℕ) : Fp p) A ∧ pt ((n1 : ℕ) : Fp p) B ∧
      hashToCurve C D checks Fp.fromUniform L map pre domain msg = some R ∧ PRep C R (A + B))

theorem hashesTo_of {C : Params (Fp p)} (hC : Good C) {D : Digest} (hD : D.Ok) {L : ℕ} (hL1 : 1 ≤ L) (hL : L ≤ 2 * (8 * numLimbs p))
    (hell : xmdEll D (L * 2) ≤ 255) (hlen : L * 2 ≤ 65535) {map : Fp p → Option (Proj (Fp p))} {pt : Fp p → Pt C → Prop}
    (hm : ∀ u, ∃ P A, map u = some P ∧ PRep C P A ∧ pt u A) : HashesTo C D L map pt := by
  intro checks pre domain msg
  have hf := C34_field (p := p) D hD checks L hL1 hL hell hlen pre domain msg
  constructor
  · intro ht
    have : hashToFieldRfc D L msg (pre ++ domain) = none := by
      rw [hashToFieldRfc, expandMessageXmd, if_pos (by rw [List.length_append]; omega)]
      rfl
    rw [this] at hf
    unfold hashToCurve
    rw [hf]
    rfl
  · intro ht
    obtain ⟨out, e, _, _⟩ := expandMessageXmd_spec D hD msg (pre ++ domain) (2 * L) (by rwa [Nat.mul_comm]) (by omega)
      (by rwa [List.length_append])
    have hr : ∃ n0 n1, hashToFieldRfc D L msg (pre ++ domain) = some (n0, n1) := by
      rw [hashToFieldRfc, e]
      exact ⟨_, _, rfl⟩
    obtain ⟨n0, n1, hr⟩ := hr
    rw [hr] at hf
    obtain ⟨P, A, h1, hA, pA⟩ := hm ((n0 : ℕ) : Fp p)
    obtain ⟨Q, B, h2, hB, pB⟩ := hm ((n1 : ℕ) : Fp p)
    obtain ⟨R, hR, hS⟩ := hashToCurve_spec hC hf h1 hA h2 hB
    exact ⟨n0, n1, R, A, B, hr, pA, pB, hR, hS⟩

end Prime

section Tower

variable {p : ℕ} [Fact (OddModulus p)] [Fact p.Prime] [Fp.SmallModulus p] [ExtField (Fp p)]

/-- `sgn0` of RFC 9380, section 4.1, for `m = 2`. -/
noncomputable def sgn0 (x : Quad (Fp p)) : Bool :=
  decide (x.c0.toNat % 2 = 1) || (decide (x.c0.toNat = 0) && decide (x.c1.toNat % 2 = 1))

/-- What the code guarantees: the parities of the first coordinates agree, or that of `y` is zero. -/
def SameSign2 (u y : Quad (Fp p)) : Prop := y.c0.toNat % 2 = u.c0.toNat % 2 ∨ y.c0 = 0

theorem sameSign2_of {u y : Quad (Fp p)} (h : Tower2.isOdd y = Tower2.isOdd u ∨ Tower2.isOdd (-y) = Tower2.isOdd y) : SameSign2 u y := by
  rcases h with h | h
  · left
    rw [Tower2.isOdd_eq, Tower2.isOdd_eq, Fp.isOdd_eq, Fp.isOdd_eq, decide_eq_decide] at h
    omega
  · right
    exact (Tower2.isOdd_neg y).mp h

/-- Where neither first coordinate is zero this is equality of the RFC's signs. -/
theorem sgn0_of {u y : Quad (Fp p)} (h : SameSign2 u y) (hu : u.c0 ≠ 0) (hy : y.c0 ≠ 0) : sgn0 y = sgn0 u := by
  have h0 : ∀ a : Fp p, a ≠ 0 → a.toNat ≠ 0 := by
    intro a ha hn
    apply ha
    rw [← Fp.natCast_toNat a, hn, Nat.cast_zero]
  have hp := h.resolve_right hy
  simp [sgn0, h0 _ hu, h0 _ hy, hp]

/-- Where the first coordinate of `y` is not zero, the RFC's signs agree exactly when that of `u` is not zero either or the second
coordinate of `u` is even. -/
theorem sgn0_iff {u y : Quad (Fp p)} (h : SameSign2 u y) (hy : y.c0 ≠ 0) : sgn0 y = sgn0 u ↔ u.c0 ≠ 0 ∨ u.c1.toNat % 2 = 0 := by
  by_cases hu : u.c0 = 0
  · have h1 : y.c0.toNat % 2 = 0 := by
      rw [h.resolve_right hy, hu, Fp.toNat_zero]
    have h2 : y.c0.toNat ≠ 0 := by
      intro hn
      apply hy
      rw [← Fp.natCast_toNat y.c0, hn, Nat.cast_zero]
    simp [sgn0, h1, h2, hu, Fp.toNat_zero]
  · exact ⟨fun _ => Or.inl hu, fun _ => sgn0_of h hu hy⟩

/-- The claim for a suite over a quadratic extension, `L` bytes per coefficient. -/
def HashesTo2 [_root_.Field (Quad (Fp p))] [DecidableEq (Quad (Fp p))] [BaseField (Quad (Fp p))]
    (C : Params (Quad (Fp p))) (D : Digest) (L : ℕ) (map : Quad (Fp p) → Option (Proj (Quad (Fp p))))
    (pt : Quad (Fp p) → Pt C → Prop) : Prop :=
  ∀ (checks : Bool) (pre domain msg : List ℕ),
    (256 ≤ pre.length + domain.length → hashToCurve C D checks Tower2.fromUniform (L * 2) map pre domain msg = none) ∧
    (pre.length + domain.length < 256 → ∃ n0 n1 R A B,
      hashToField2Rfc D L msg (pre ++ domain) = some (n0, n1) ∧ pt ⟨((n0.1 : ℕ) : Fp p), ((n0.2 : ℕ) : Fp p)⟩ A ∧
      pt ⟨((n1.1 : ℕ) : Fp p), ((n1.2 : ℕ) : Fp p)⟩ B ∧
      hashToCurve C D checks Tower2.fromUniform (L * 2) map pre domain msg = some R ∧ PRep C R (A + B))

theorem hashesTo2_of [_root_.Field (Quad (Fp p))] [DecidableEq (Quad (Fp p))] [BaseField (Quad (Fp p))] [LawfulBase (Quad (Fp p))]
    {C : Params (Quad (Fp p))} (hC : Good C) {D : Digest} (hD : D.Ok) {L : ℕ} (hL1 : 1 ≤ L)
    (hL : L ≤ 2 * (8 * numLimbs p)) (hell : xmdEll D (L * 2 * 2) ≤ 255) (hlen : L * 2 * 2 ≤ 65535)
    {map : Quad (Fp p) → Option (Proj (Quad (Fp p)))} {pt : Quad (Fp p) → Pt C → Prop}
    (hm : ∀ u, ∃ P A, map u = some P ∧ PRep C P A ∧ pt u A) : HashesTo2 C D L map pt := by
  intro checks pre domain msg
  have hf := C34_field2 (p := p) D hD checks L hL1 hL hell hlen pre domain msg
  constructor
  · intro ht
    have : hashToField2Rfc D L msg (pre ++ domain) = none := by
      rw [hashToField2Rfc, expandMessageXmd, if_pos (by rw [List.length_append]; omega)]
      rfl
    rw [this] at hf
    unfold hashToCurve
    rw [hf]
    rfl
  · intro ht
    obtain ⟨out, e, _, _⟩ := expandMessageXmd_spec D hD msg (pre ++ domain) (2 * 2 * L)
      (by rw [show 2 * 2 * L = L * 2 * 2 by ring]; exact hell) (by omega) (by rwa [List.length_append])
    have hr : ∃ n0 n1, hashToField2Rfc D L msg (pre ++ domain) = some (n0, n1) := by
      rw [hashToField2Rfc, e]
      exact ⟨_, _, rfl⟩
    obtain ⟨n0, n1, hr⟩ := hr
    rw [hr] at hf
    obtain ⟨P, A, h1, hA, pA⟩ := hm ⟨((n0.1 : ℕ) : Fp p), ((n0.2 : ℕ) : Fp p)⟩
    obtain ⟨Q, B, h2, hB, pB⟩ := hm ⟨((n1.1 : ℕ) : Fp p), ((n1.2 : ℕ) : Fp p)⟩
    obtain ⟨R, hR, hS⟩ := hashToCurve_spec hC hf h1 hA h2 hB
    exact ⟨n0, n1, R, A, B, hr, pA, pB, hR, hS⟩

end Tower

/-! ## C35: the suites with the SVDW map -/

/-- **C35** The maps of bn256 G1, grumpkin, pluto, eris and secq256k1 are the RFC's, sign included. -/
theorem C35_shipped :
    IsSvdw Bn256.g1 1 (fun s => s.toNat % 2 = 0) SameSign (svdwSuite Bn256.g1 (fpOps bnQ 3) 1) ∧
    IsSvdw Grumpkin.g1 1 (fun s => s.toNat % 2 = 0) SameSign (svdwSuite Grumpkin.g1 (fpOps bnR 7) 1) ∧
    IsSvdw Pluto.g1 1 (fun s => s.toNat % 2 = 0) SameSign (svdwSuite Pluto.g1 (fpOps plP 10) 1) ∧
    IsSvdw Pluto.eris 1 (fun s => s.toNat % 2 = 0) SameSign (svdwSuite Pluto.eris (fpOps plQ 7) 1) ∧
    IsSvdw Secq256k1.c 1 (fun s => s.toNat % 2 = 0) SameSign (svdwSuite Secq256k1.c (fpOps k1N 7) 1) :=
  ⟨C35_prime bnQ_ok Bn256.g1_good Bn256.g1_svdwZ, C35_prime bnR_ok Grumpkin.g1_good Grumpkin.g1_svdwZ,
    C35_prime plP_ok Pluto.g1_good Pluto.g1_svdwZ, C35_prime plQ_ok Pluto.eris_good Pluto.eris_svdwZ,
    C35_prime k1N_ok Secq256k1.c_good Secq256k1.c_svdwZ⟩

/-- **C35** The map of bn256 G2 never panics and has the RFC's abscissa; its sign is that of the first
coordinates only. The equality of the RFC's signs fails, see `C35_g2_sgn0_false`. -/
theorem C35_g2_partial : IsSvdw Bn256.g2 1 (fun s => SameSign2 (0 : Bn256.Fq2) s) SameSign2 (svdwSuite Bn256.g2 Bn256.ops2 1) := by
  obtain ⟨s, hs, ev, hm⟩ := C35_svdw Bn256.ops2_ok Bn256.g2_good Bn256.g2_svdwZ
  refine ⟨s, hs, ?_, fun u => ?_⟩
  · apply sameSign2_of
    rcases ev with h | h
    · left
      have e : Tower2.isOdd (0 : Bn256.Fq2) = false := by
        rw [Tower2.isOdd_eq]
        change Fp.isOdd (0 : Fp bnQ) = false
        rw [Fp.isOdd_eq, Fp.toNat_zero]
        rfl
      rw [e]
      exact h
    · exact Or.inr h
  · obtain ⟨P, A, e, hP, x, y, h, rfl, hx, hg⟩ := hm u
    exact ⟨P, _, e, hP, x, y, h, rfl, hx, sameSign2_of hg⟩

/-- **C35** `hash_to_curve` of the SVDW suites, for every 32-byte hash function: the sum of the RFC's two points. -/
theorem C35_hash (D : Digest) (hD : D.Ok) (h32 : D.outputSize = 32) :
    (∃ s, SvdwRoot Bn256.g1 1 (fun s => s.toNat % 2 = 0) s ∧
      HashesTo Bn256.g1 D 48 (svdwSuite Bn256.g1 (fpOps bnQ 3) 1) (SvdwPt Bn256.g1 1 s SameSign)) ∧
    (∃ s, SvdwRoot Grumpkin.g1 1 (fun s => s.toNat % 2 = 0) s ∧
      HashesTo Grumpkin.g1 D 48 (svdwSuite Grumpkin.g1 (fpOps bnR 7) 1) (SvdwPt Grumpkin.g1 1 s SameSign)) ∧
    (∃ s, SvdwRoot Pluto.g1 1 (fun s => s.toNat % 2 = 0) s ∧
      HashesTo Pluto.g1 D 72 (svdwSuite Pluto.g1 (fpOps plP 10) 1) (SvdwPt Pluto.g1 1 s SameSign)) ∧
    (∃ s, SvdwRoot Pluto.eris 1 (fun s => s.toNat % 2 = 0) s ∧
      HashesTo Pluto.eris D 72 (svdwSuite Pluto.eris (fpOps plQ 7) 1) (SvdwPt Pluto.eris 1 s SameSign)) ∧
    (∃ s, SvdwRoot Secq256k1.c 1 (fun s => s.toNat % 2 = 0) s ∧
      HashesTo Secq256k1.c D 48 (svdwSuite Secq256k1.c (fpOps k1N 7) 1) (SvdwPt Secq256k1.c 1 s SameSign)) ∧
    (∃ s, SvdwRoot Bn256.g2 1 (fun s => SameSign2 (0 : Bn256.Fq2) s) s ∧
      HashesTo2 Bn256.g2 D 48 (svdwSuite Bn256.g2 Bn256.ops2 1) (SvdwPt Bn256.g2 1 s SameSign2)) := by
  have x1 : xmdEll D (48 * 2) ≤ 255 := by rw [xmdEll, h32]; decide
  have x2 : xmdEll D (72 * 2) ≤ 255 := by rw [xmdEll, h32]; decide
  have x3 : xmdEll D (48 * 2 * 2) ≤ 255 := by rw [xmdEll, h32]; decide
  obtain ⟨⟨s1, q1, e1, m1⟩, ⟨s2, q2, e2, m2⟩, ⟨s3, q3, e3, m3⟩, ⟨s4, q4, e4, m4⟩, ⟨s5, q5, e5, m5⟩⟩ := C35_shipped
  obtain ⟨s6, q6, e6, m6⟩ := C35_g2_partial
  exact ⟨⟨s1, ⟨q1, e1⟩, hashesTo_of Bn256.g1_good hD (by decide) (by decide +kernel) x1 (by decide) m1⟩,
    ⟨s2, ⟨q2, e2⟩, hashesTo_of Grumpkin.g1_good hD (by decide) (by decide +kernel) x1 (by decide) m2⟩,
    ⟨s3, ⟨q3, e3⟩, hashesTo_of Pluto.g1_good hD (by decide) (by decide +kernel) x2 (by decide) m3⟩,
    ⟨s4, ⟨q4, e4⟩, hashesTo_of Pluto.eris_good hD (by decide) (by decide +kernel) x2 (by decide) m4⟩,
    ⟨s5, ⟨q5, e5⟩, hashesTo_of Secq256k1.c_good hD (by decide) (by decide +kernel) x1 (by decide) m5⟩,
    ⟨s6, ⟨q6, e6⟩, hashesTo2_of Bn256.g2_good hD (by decide) (by decide +kernel) x3 (by decide) m6⟩⟩

/-- The hypotheses of the generic theorem hold for a curve with cofactor one and an exceptional `u`: on
bn256 G1, `g(1) = 4`, so for `u = 1/2` one has `1 - u² g(Z) = 0`. -/
example : (∃ P, svdwSuite Bn256.g1 (fpOps bnQ 3) 1 (Fp.twoInv bnQ) = some P ∧ Proj.Valid Bn256.g1 P) ∧
    1 - Fp.twoInv bnQ ^ 2 * rhs Bn256.g1.a Bn256.g1.b 1 = 0 := by
  obtain ⟨s, _, _, hm⟩ := C35_shipped.1
  obtain ⟨P, A, e, hA, _⟩ := hm (Fp.twoInv bnQ)
  refine ⟨⟨P, e, A, hA⟩, ?_⟩
  have h2 : 2 * Fp.twoInv bnQ = 1 := Fp.two_mul_twoInv (by decide +kernel)
  have hb : Bn256.g1.b = 3 := by
    rw [Bn256.g1BVal_eq, show Bn256.g1BVal = 3 by decide +kernel]
    rfl
  rw [Bn256.g1_a, hb, rhs]
  linear_combination (-1 - 2 * Fp.twoInv bnQ) * h2

/-- A square root with vanishing first coordinate has a square in the prime field. -/
theorem c1_zero_of {F : Type} [CommRing F] [ExtField F] [LawfulExt F] {y r : Quad F} (h : y * y = r) (h0 : y.c0 = 0) : r.c1 = 0 := by
  rw [← h, Quad.mul_c1, h0]
  ring

/-- The full claim for bn256 G2: the RFC's signs agree. -/
def C35_g2_sgn0_claim : Prop :=
  ∀ u : Bn256.Fq2, ∃ x y, svdwSuite Bn256.g2 Bn256.ops2 1 u = some ⟨x, y, 1⟩ ∧ sgn0 y = sgn0 u

theorem odd_u (p : ℕ) [hp : Fact (OddModulus p)] [Fact p.Prime] [Fp.SmallModulus p] [ExtField (Fp p)] : sgn0 (⟨0, 1⟩ : Quad (Fp p)) = true := by
  have h1 : (1 : Fp p).toNat = 1 := by
    have := hp.out.gt
    rw [← Nat.cast_one, Fp.toNat_natCast, Nat.mod_eq_of_lt (by omega)]
  simp [sgn0, Fp.toNat_zero, h1]

/-- If the code's rule holds for `u = (0, 1)` and `y` has a non-zero first coordinate, the RFC's signs differ. -/
theorem sgn0_ne {p : ℕ} [Fact (OddModulus p)] [Fact p.Prime] [Fp.SmallModulus p] [ExtField (Fp p)] {y : Quad (Fp p)}
    (h : SameSign2 ⟨0, 1⟩ y) (hy : y.c0 ≠ 0) : sgn0 y ≠ sgn0 (⟨0, 1⟩ : Quad (Fp p)) := by
  rw [odd_u]
  have h1 : y.c0.toNat % 2 = 0 := by
    have := h.resolve_right hy
    rw [this]
    change (0 : Fp p).toNat % 2 = 0
    rw [Fp.toNat_zero]
  have h2 : y.c0.toNat ≠ 0 := by
    intro hn
    apply hy
    rw [← Fp.natCast_toNat y.c0, hn, Nat.cast_zero]
  simp [sgn0, h1, h2]

/-- **C35** Which signs of the bn256 G2 map are the RFC's: for all values with a non-zero first coordinate of `y`, exactly those with a
non-zero first or an even second coordinate of `u`. -/
theorem C35_g2_sign_partial (u : Bn256.Fq2) : ∃ P x y h, svdwSuite Bn256.g2 Bn256.ops2 1 u = some P ∧
    PRep Bn256.g2 P (.some x y h) ∧ (y.c0 ≠ 0 → (sgn0 y = sgn0 u ↔ u.c0 ≠ 0 ∨ u.c1.toNat % 2 = 0)) := by
  obtain ⟨s, hs, _, hm⟩ := C35_g2_partial
  obtain ⟨P, A, e, hP, x, y, hn, rfl, hx, hg⟩ := hm u
  exact ⟨P, x, y, hn, e, hP, sgn0_iff hg⟩

/-- **The sign of the bn256 G2 map is not the RFC's**: for `u = (0, 1)`, whose RFC sign is 1, the code
returns a `y` with sign 0, because it looks at the parity of the first coordinate only. -/
theorem C35_g2_sgn0_false : ¬ C35_g2_sgn0_claim := by
  intro hclaim
  obtain ⟨x, y, e, hsg⟩ := hclaim ⟨0, 1⟩
  obtain ⟨s, hs, _, hm⟩ := C35_g2_partial
  obtain ⟨P, A, e', hP, x', y', hn, rfl, hx, hg⟩ := hm ⟨0, 1⟩
  rw [e] at e'
  have hPe : (⟨x, y, 1⟩ : Proj Bn256.Fq2) = P := Option.some.inj e'
  rw [← hPe, PRep.some_iff] at hP
  obtain ⟨_, hx1, hy1⟩ := hP
  rw [mul_one] at hx1 hy1
  simp only at hx1 hy1
  subst hx1 hy1
  refine sgn0_ne hg ?_ hsg
  intro hy0
  have he := (equation_iff _ _ _).mp hn.1
  have hc := c1_zero_of he hy0
  let S : Sh (ℕ × ℕ) Bn256.Fq2 := shQuad bnQ Bn256.beta Bn256.nonRes_base
  have hbS : Bn256.g2.b = S.φ Bn256.g2BVal := Bn256.g2BVal_eq
  have hrhs : ∀ v : ℕ × ℕ, (S.mul (S.mul v v) v).2 % bnQ ≠ (bnQ - Bn256.g2BVal.2 % bnQ) % bnQ → x ≠ S.φ v := by
    intro v hv hxv
    apply hv
    rw [Bn256.g2_a, zero_mul, add_zero, hxv, ← S.φ_mul, ← S.φ_mul, hbS] at hc
    have hc' : (((S.mul (S.mul v v) v).2 : ℕ) : Fp bnQ) + ((Bn256.g2BVal.2 : ℕ) : Fp bnQ) = 0 := hc
    have hl : Bn256.g2BVal.2 % bnQ ≤ bnQ := by decide +kernel
    rw [← Fp.natCast_eq_iff, ← cast_mod' (bnQ - Bn256.g2BVal.2 % bnQ), cast_mod', Nat.cast_sub hl, CharP.cast_eq_zero (Fp bnQ) bnQ, cast_mod']
    linear_combination hc'
  have n1 := hrhs (0x2aeb837ddb7962c3af36d8d1720e7b837711c92221173172bb379565ae3c4e12, 0x2d5d7be747cdb0e734dab9d3b2bbbe964c74ba33cb316909c01743c3a6527954) (by decide +kernel)
  have n2 := hrhs (0x578caf505b83d6609196ce50f72dcda206fa16f475a991a80e8f6b12a40af34, 0x306d28b9963ef4283758be2cec599c74b0cb05d9d4061837c094853322a83f3) (by decide +kernel)
  have n3 := hrhs (0xfee5209962707a72369d4dc25a650b4de6bd3b88f1d30d559fe5874e46a2409, 0x265644675a3170c998ea9700ba1538118673f7089424a477c4029d73d2ed097a) (by decide +kernel)
  -- the three candidates
  let u : Bn256.Fq2 := ⟨0, 1⟩
  have hu2 : u ^ 2 = -1 := by
    have : u = S.φ (0, 1) := by
      ext
      · exact Nat.cast_zero.symm
      · exact Nat.cast_one.symm
    rw [this, sq, ← S.φ_mul, eq_neg_iff_add_eq_zero, ← S.φ_one, ← S.φ_add, ← S.φ_zero, ← S.eq_iff]
    decide +kernel
  have hg1 : rhs Bn256.g2.a Bn256.g2.b 1 = S.φ (S.add S.one Bn256.g2BVal) := by
    rw [S.φ_add, S.φ_one, ← hbS, Bn256.g2_a, rhs]
    ring
  have ht : u ^ 2 * rhs Bn256.g2.a Bn256.g2.b 1 = S.φ (S.sub S.zero (S.add S.one Bn256.g2BVal)) := by
    rw [hu2, hg1, S.φ_sub, S.φ_zero]
    ring
  have hinv : ((1 - u ^ 2 * rhs Bn256.g2.a Bn256.g2.b 1) * (1 + u ^ 2 * rhs Bn256.g2.a Bn256.g2.b 1))⁻¹ = S.φ (0x219a379fbc02d1965a973c7d00c1f0d8dcd58cbb42c585beb0f134fa94064043, 0x1625daa6ddf5278da10f7416bdab2fbad8cded7748bb1437d1b0ef004aeb8abd) := by
    rw [ht]
    apply inv_eq_of_mul_eq_one_right
    rw [← S.φ_one, ← S.φ_sub, ← S.φ_add, ← S.φ_mul, ← S.φ_mul, ← S.eq_iff]
    decide +kernel
  have h2 : (2 : Bn256.Fq2) ≠ 0 := Bn256.g2_good.two
  have hhalf : -(1 : Bn256.Fq2) / 2 = S.φ (0x183227397098d014dc2822db40c0ac2ecbc0b548b438e5469e10460b6c3e7ea3, 0x0) := by
    rw [div_eq_iff h2, ← one_add_one_eq_two, ← S.φ_one, ← S.φ_add, ← S.φ_mul, ← sub_eq_zero, sub_eq_add_neg, ← neg_add, neg_eq_zero,
      ← S.φ_add, ← S.φ_zero, ← S.eq_iff]
    decide +kernel
  have hu : u = S.φ (0, 1) := by
    ext
    · exact Nat.cast_zero.symm
    · exact Nat.cast_one.symm
  have hsr : s = S.φ (0x29fd332ab7260112b801fa95b21af64e2e6da55f90a3e510fcbe57377b5ca1ec, 0x303d1eff1426764bf8408aee24ba0b865e76f77b1267a846b1e9154d01565034) ∨ s = -S.φ (0x29fd332ab7260112b801fa95b21af64e2e6da55f90a3e510fcbe57377b5ca1ec, 0x303d1eff1426764bf8408aee24ba0b865e76f77b1267a846b1e9154d01565034) := by
    apply sq_eq_sq_iff_eq_or_eq_neg.mp
    rw [hs, hg1, Bn256.g2_a]
    have : (3 : Bn256.Fq2) = S.φ (S.add S.one (S.add S.one S.one)) := by
      rw [S.φ_add, S.φ_add, S.φ_one]
      norm_num
    rw [one_pow, mul_one, mul_zero, add_zero, this, sq, ← S.φ_mul, neg_mul, ← S.φ_mul, neg_eq_iff_add_eq_zero, ← S.φ_add, ← S.φ_zero, ← S.eq_iff]
    decide +kernel
  have htv : u * (1 - u ^ 2 * rhs Bn256.g2.a Bn256.g2.b 1) *
      ((1 - u ^ 2 * rhs Bn256.g2.a Bn256.g2.b 1) * (1 + u ^ 2 * rhs Bn256.g2.a Bn256.g2.b 1))⁻¹ =
      S.φ (S.mul (S.mul (0, 1) (S.sub S.one (S.sub S.zero (S.add S.one Bn256.g2BVal)))) (0x219a379fbc02d1965a973c7d00c1f0d8dcd58cbb42c585beb0f134fa94064043, 0x1625daa6ddf5278da10f7416bdab2fbad8cded7748bb1437d1b0ef004aeb8abd)) := by
    rw [hinv, ht, S.φ_mul, S.φ_mul, S.φ_sub S.one, S.φ_one, ← hu]
  have hx3 : (1 : Bn256.Fq2) + -4 * rhs Bn256.g2.a Bn256.g2.b 1 / (3 * 1 ^ 2 + 4 * Bn256.g2.a) *
      ((1 + u ^ 2 * rhs Bn256.g2.a Bn256.g2.b 1) ^ 2 *
        ((1 - u ^ 2 * rhs Bn256.g2.a Bn256.g2.b 1) * (1 + u ^ 2 * rhs Bn256.g2.a Bn256.g2.b 1))⁻¹) ^ 2 = S.φ (0xfee5209962707a72369d4dc25a650b4de6bd3b88f1d30d559fe5874e46a2409, 0x265644675a3170c998ea9700ba1538118673f7089424a477c4029d73d2ed097a) := by
    have hc4 : -4 * rhs Bn256.g2.a Bn256.g2.b 1 / (3 * 1 ^ 2 + 4 * Bn256.g2.a) = S.φ (0x17365bbe63b1d2078632fe0eb2ac5a41b4e6a9c08b98676721010b008d4eaf99, 0xf57ffe5fc79e19cd689d7aa4209cad8fe164d7f4694786b388732a995d03755) := by
      rw [div_eq_iff Bn256.g2_svdwZ.tne, hg1, Bn256.g2_a, ← sub_eq_zero]
      have h3 : (3 : Bn256.Fq2) = S.φ (S.add S.one (S.add S.one S.one)) := by
        rw [S.φ_add, S.φ_add, S.φ_one]
        norm_num
      have h4 : (4 : Bn256.Fq2) = S.φ (S.add (S.add S.one S.one) (S.add S.one S.one)) := by
        rw [S.φ_add, S.φ_add, S.φ_one]
        norm_num
      rw [one_pow, mul_one, mul_zero, add_zero, h3, h4, neg_mul, ← S.φ_mul, ← S.φ_mul, sub_eq_add_neg, ← neg_add, neg_eq_zero, ← S.φ_add,
        ← S.φ_zero, ← S.eq_iff]
      decide +kernel
    rw [hc4, hinv, ht, sq, sq, ← S.φ_one, ← S.φ_add, ← S.φ_mul, ← S.φ_mul, ← S.φ_mul, ← S.φ_mul, ← S.φ_add, ← S.eq_iff]
    decide +kernel
  obtain ⟨k1, k2, k3⟩ := hx
  change (IsSquare (rhs Bn256.g2.a Bn256.g2.b (-1 / 2 - u * (1 - u ^ 2 * rhs Bn256.g2.a Bn256.g2.b 1) *
      ((1 - u ^ 2 * rhs Bn256.g2.a Bn256.g2.b 1) * (1 + u ^ 2 * rhs Bn256.g2.a Bn256.g2.b 1))⁻¹ * s)) →
    x = -1 / 2 - u * (1 - u ^ 2 * rhs Bn256.g2.a Bn256.g2.b 1) *
      ((1 - u ^ 2 * rhs Bn256.g2.a Bn256.g2.b 1) * (1 + u ^ 2 * rhs Bn256.g2.a Bn256.g2.b 1))⁻¹ * s) at k1
  change (_ → IsSquare (rhs Bn256.g2.a Bn256.g2.b (-1 / 2 + u * (1 - u ^ 2 * rhs Bn256.g2.a Bn256.g2.b 1) *
      ((1 - u ^ 2 * rhs Bn256.g2.a Bn256.g2.b 1) * (1 + u ^ 2 * rhs Bn256.g2.a Bn256.g2.b 1))⁻¹ * s)) →
    x = -1 / 2 + u * (1 - u ^ 2 * rhs Bn256.g2.a Bn256.g2.b 1) *
      ((1 - u ^ 2 * rhs Bn256.g2.a Bn256.g2.b 1) * (1 + u ^ 2 * rhs Bn256.g2.a Bn256.g2.b 1))⁻¹ * s) at k2
  have c1 : ∀ r : ℕ × ℕ, -(1 : Bn256.Fq2) / 2 - u * (1 - u ^ 2 * rhs Bn256.g2.a Bn256.g2.b 1) *
      ((1 - u ^ 2 * rhs Bn256.g2.a Bn256.g2.b 1) * (1 + u ^ 2 * rhs Bn256.g2.a Bn256.g2.b 1))⁻¹ * S.φ r =
      S.φ (S.sub (0x183227397098d014dc2822db40c0ac2ecbc0b548b438e5469e10460b6c3e7ea3, 0x0) (S.mul (S.mul (S.mul (0, 1) (S.sub S.one (S.sub S.zero (S.add S.one Bn256.g2BVal)))) (0x219a379fbc02d1965a973c7d00c1f0d8dcd58cbb42c585beb0f134fa94064043, 0x1625daa6ddf5278da10f7416bdab2fbad8cded7748bb1437d1b0ef004aeb8abd)) r)) := by
    intro r
    rw [htv, hhalf, S.φ_sub, S.φ_mul _ r]
  have c2 : ∀ r : ℕ × ℕ, -(1 : Bn256.Fq2) / 2 + u * (1 - u ^ 2 * rhs Bn256.g2.a Bn256.g2.b 1) *
      ((1 - u ^ 2 * rhs Bn256.g2.a Bn256.g2.b 1) * (1 + u ^ 2 * rhs Bn256.g2.a Bn256.g2.b 1))⁻¹ * S.φ r =
      S.φ (S.add (0x183227397098d014dc2822db40c0ac2ecbc0b548b438e5469e10460b6c3e7ea3, 0x0) (S.mul (S.mul (S.mul (0, 1) (S.sub S.one (S.sub S.zero (S.add S.one Bn256.g2BVal)))) (0x219a379fbc02d1965a973c7d00c1f0d8dcd58cbb42c585beb0f134fa94064043, 0x1625daa6ddf5278da10f7416bdab2fbad8cded7748bb1437d1b0ef004aeb8abd)) r)) := by
    intro r
    rw [htv, hhalf, S.φ_add, S.φ_mul _ r]
  have d1 := (S.eq_iff _ _).mp (show S.eq (S.sub (0x183227397098d014dc2822db40c0ac2ecbc0b548b438e5469e10460b6c3e7ea3, 0x0) (S.mul (S.mul (S.mul (0, 1) (S.sub S.one (S.sub S.zero (S.add S.one Bn256.g2BVal)))) (0x219a379fbc02d1965a973c7d00c1f0d8dcd58cbb42c585beb0f134fa94064043, 0x1625daa6ddf5278da10f7416bdab2fbad8cded7748bb1437d1b0ef004aeb8abd)) (0x29fd332ab7260112b801fa95b21af64e2e6da55f90a3e510fcbe57377b5ca1ec, 0x303d1eff1426764bf8408aee24ba0b865e76f77b1267a846b1e9154d01565034)))
    (0x2aeb837ddb7962c3af36d8d1720e7b837711c92221173172bb379565ae3c4e12, 0x2d5d7be747cdb0e734dab9d3b2bbbe964c74ba33cb316909c01743c3a6527954) = true by decide +kernel)
  have d2 := (S.eq_iff _ _).mp (show S.eq (S.add (0x183227397098d014dc2822db40c0ac2ecbc0b548b438e5469e10460b6c3e7ea3, 0x0) (S.mul (S.mul (S.mul (0, 1) (S.sub S.one (S.sub S.zero (S.add S.one Bn256.g2BVal)))) (0x219a379fbc02d1965a973c7d00c1f0d8dcd58cbb42c585beb0f134fa94064043, 0x1625daa6ddf5278da10f7416bdab2fbad8cded7748bb1437d1b0ef004aeb8abd)) (0x29fd332ab7260112b801fa95b21af64e2e6da55f90a3e510fcbe57377b5ca1ec, 0x303d1eff1426764bf8408aee24ba0b865e76f77b1267a846b1e9154d01565034)))
    (0x578caf505b83d6609196ce50f72dcda206fa16f475a991a80e8f6b12a40af34, 0x306d28b9963ef4283758be2cec599c74b0cb05d9d4061837c094853322a83f3) = true by decide +kernel)
  by_cases q1 : IsSquare (rhs Bn256.g2.a Bn256.g2.b (-1 / 2 - u * (1 - u ^ 2 * rhs Bn256.g2.a Bn256.g2.b 1) *
      ((1 - u ^ 2 * rhs Bn256.g2.a Bn256.g2.b 1) * (1 + u ^ 2 * rhs Bn256.g2.a Bn256.g2.b 1))⁻¹ * s))
  · have := k1 q1
    rcases hsr with hsr | hsr
    · rw [hsr, c1, d1] at this; exact n1 this
    · rw [hsr, mul_neg, sub_neg_eq_add, c2, d2] at this; exact n2 this
  · by_cases q2 : IsSquare (rhs Bn256.g2.a Bn256.g2.b (-1 / 2 + u * (1 - u ^ 2 * rhs Bn256.g2.a Bn256.g2.b 1) *
      ((1 - u ^ 2 * rhs Bn256.g2.a Bn256.g2.b 1) * (1 + u ^ 2 * rhs Bn256.g2.a Bn256.g2.b 1))⁻¹ * s))
    · have := k2 q1 q2
      rcases hsr with hsr | hsr
      · rw [hsr, c2, d2] at this; exact n2 this
      · rw [hsr, mul_neg, ← sub_eq_add_neg, c1, d1] at this; exact n1 this
    · exact n3 ((k3 q1 q2).trans hx3)

/-! ## C36, C37: the suites with the SSWU map -/

/-- The isogeny maps never see a point of order two: a point of the isogenous curve has `y ≠ 0`. -/
theorem ne_zero_of_nonsquare {F : Type} [_root_.Field F] {y r : F} (h : y ^ 2 = r) (hr : ¬ IsSquare r) : False :=
  hr ⟨y, by rw [← h, sq]⟩

/-- **C37** `iso_map` of secp256k1: every affine point of the 3-isogenous curve, in any homogeneous coordinates, goes to the
point of secp256k1 that the RFC's rational map gives; the denominators vanish at no point of the curve. -/
theorem C37_k1 (x y z : Fp k1P) (hz : z ≠ 0) (h : (y / z) ^ 2 = rhs Secp256k1.isoA Secp256k1.isoB (x / z)) :
    ∃ A, PRep Secp256k1.c (isoMapK1 Secp256k1.kTab x y z) A ∧ IsoPt Secp256k1.c (k1Table Secp256k1.kTab) (x / z) (y / z) A := by
  have hk : x / z ≠ (Secp256k1.kernelX : ℕ) := by
    intro e
    rw [e] at h
    exact ne_zero_of_nonsquare h Secp256k1.kernelX_nonsquare
  obtain ⟨hn, hP⟩ := iso_point Secp256k1.c_good Secp256k1.c_isoIdent h (isoMapK1_out Secp256k1.kTab x y hz)
    (fun e => hk ((Secp256k1.c_den _).1.mp e)) (fun e => hk ((Secp256k1.c_den _).2.mp e))
  exact ⟨_, hP, hn, rfl⟩

/-- **C37** `iso_map` of bls12381 G2, likewise. -/
theorem C37_g2 (x y z : Bls12381.Fq2) (hz : z ≠ 0) (h : (y / z) ^ 2 = rhs Bls12381.g2IsoA Bls12381.g2IsoB (x / z)) :
    ∃ A, PRep Bls12381.g2 (isoMapG2 Bls12381.g2Iso x y z) A ∧ IsoPt Bls12381.g2 Bls12381.g2Iso (x / z) (y / z) A := by
  have hk : x / z ≠ Bls12381.sh2.φ Bls12381.g2KernelX := by
    intro e
    rw [e] at h
    exact ne_zero_of_nonsquare h Bls12381.g2KernelX_nonsquare
  obtain ⟨hn, hP⟩ := iso_point Bls12381.g2_good Bls12381.g2_isoIdent h
    (isoMapG2_out Bls12381.g2Iso (by decide) (by decide) (by simp [Bls12381.g2Iso]) (by simp [Bls12381.g2Iso]) (by decide) (by decide) x y hz)
    (fun e => hk ((Bls12381.g2_den _).1.mp e)) (fun e => hk ((Bls12381.g2_den _).2.mp e))
  exact ⟨_, hP, hn, rfl⟩

theorem g1Iso_out (x y z : Bls12381.Fq) (hz : z ≠ 0) :
    IsoOut Bls12381.g1Iso (x / z) (y / z) (isoMapG1 Bls12381.g1Iso x y z) :=
  isoMapG1_out Bls12381.g1Iso (by simp [Bls12381.g1Iso, Bls12381.iso11Xnum, Bls12381.iso11Xden])
    (by simp [Bls12381.g1Iso, Bls12381.iso11Ynum, Bls12381.iso11Yden]) (by simp [Bls12381.g1Iso, Bls12381.iso11Xden])
    (by simp [Bls12381.g1Iso, Bls12381.iso11Yden]) (by simp [Bls12381.g1Iso, Bls12381.iso11Xnum])
    (by simp [Bls12381.g1Iso, Bls12381.iso11Ynum]) x y hz

/-- **C37** `iso_map` of bls12381 G1, for the points outside of the kernel of the 11-isogeny, i.e. off the five abscissas
of `g1KernelX`. On the kernel the claim fails, see `C37_g1_false`. -/
theorem C37_g1_partial (x y z : Bls12381.Fq) (hz : z ≠ 0) (h : (y / z) ^ 2 = rhs Bls12381.g1IsoA Bls12381.g1IsoB (x / z))
    (hk : ∀ r ∈ Bls12381.g1KernelX, x / z ≠ (r : ℕ)) :
    ∃ A, PRep Bls12381.g1 (isoMapG1 Bls12381.g1Iso x y z) A ∧ IsoPt Bls12381.g1 Bls12381.g1Iso (x / z) (y / z) A := by
  have hk' : ¬ ∃ r ∈ Bls12381.g1KernelX, x / z = (r : ℕ) := fun ⟨r, hr, e⟩ => hk r hr e
  obtain ⟨hn, hP⟩ := iso_point Bls12381.g1_good Bls12381.g1_isoIdent h (g1Iso_out x y z hz)
    (fun e => hk' ((Bls12381.g1_den _).1.mp e)) (fun e => hk' ((Bls12381.g1_den _).2.mp e))
  exact ⟨_, hP, hn, rfl⟩

/-- **C37** On the kernel the result of bls12381 G1's `iso_map` is always `(0, 0, 0)`. -/
theorem C37_g1_kernel (x y z : Bls12381.Fq) (hz : z ≠ 0) (r : ℕ) (hr : r ∈ Bls12381.g1KernelX) (e : x / z = (r : ℕ)) :
    isoMapG1 Bls12381.g1Iso x y z = ⟨0, 0, 0⟩ :=
  iso_kernel (g1Iso_out x y z hz) ((Bls12381.g1_den _).1.mpr ⟨r, hr, e⟩) ((Bls12381.g1_den _).2.mpr ⟨r, hr, e⟩)

/-- The full claim for bls12381 G1: the image of every affine point of the isogenous curve is a point of G1's curve
(the RFC maps the kernel to the identity). -/
def C37_g1_claim : Prop :=
  ∀ x y z : Bls12381.Fq, z ≠ 0 → (y / z) ^ 2 = rhs Bls12381.g1IsoA Bls12381.g1IsoB (x / z) →
    Proj.Valid Bls12381.g1 (isoMapG1 Bls12381.g1Iso x y z)

theorem not_valid_zero {F : Type} [_root_.Field F] [DecidableEq F] [BaseField F] {C : Params F} : ¬ Proj.Valid C ⟨0, 0, 0⟩ := by
  rintro ⟨_ | ⟨x, y, h⟩, hP⟩
  · exact hP.2.2 rfl
  · exact hP.1 rfl

/-- A rational point of the kernel. -/
theorem kernel_point : ((0x59e4a8d101f0c51d351b3877c5197f07d08511978f9492dacd907f783f756008f967f1556f49e19032b4ecc3f415b40 : ℕ) : Bls12381.Fq) ^ 2 = rhs Bls12381.g1IsoA Bls12381.g1IsoB ((0xd7f2d0d03ae035321eed4c1479d13251abf0e9a96479623eb5380b575e319851fb5e5a8b43b9c1a46880f54bf2b2f7c : ℕ) : Bls12381.Fq) := by
  rw [Bls12381.g1IsoAVal_eq, Bls12381.g1IsoBVal_eq, rhs, ← Nat.cast_pow, ← Nat.cast_pow, ← Nat.cast_mul, ← Nat.cast_add, ← Nat.cast_add,
    Fp.natCast_eq_iff]
  decide +kernel

/-- **The 11-isogeny of bls12381 G1 is not total**: the kernel has rational points, and their image
`(0, 0, 0)` is not a valid triple. -/
theorem C37_g1_false : ¬ C37_g1_claim := by
  intro h
  have h1 := h ((0xd7f2d0d03ae035321eed4c1479d13251abf0e9a96479623eb5380b575e319851fb5e5a8b43b9c1a46880f54bf2b2f7c : ℕ) : Bls12381.Fq) ((0x59e4a8d101f0c51d351b3877c5197f07d08511978f9492dacd907f783f756008f967f1556f49e19032b4ecc3f415b40 : ℕ) : Bls12381.Fq) 1 one_ne_zero (by rw [div_one, div_one]; exact kernel_point)
  rw [C37_g1_kernel _ _ _ one_ne_zero 0xd7f2d0d03ae035321eed4c1479d13251abf0e9a96479623eb5380b575e319851fb5e5a8b43b9c1a46880f54bf2b2f7c (by decide +kernel) (div_one _)] at h1
  exact not_valid_zero h1

/-- The map of the suite of bls12381 G1. -/
def g1Map : Bls12381.Fq → Option (Proj Bls12381.Fq) :=
  sswuSuite (fpOps blsQ 2) Bls12381.g1IsoA Bls12381.g1IsoB Bls12381.g1SswuZ (isoMapG1 Bls12381.g1Iso)

/-- The map of the suite of bls12381 G2. -/
def g2Map : Bls12381.Fq2 → Option (Proj Bls12381.Fq2) :=
  sswuSuite Bls12381.ops2 Bls12381.g2IsoA Bls12381.g2IsoB Bls12381.g2SswuZ (isoMapG2 Bls12381.g2Iso)

/-- The map of the suite of secp256k1. -/
def k1Map : Fp k1P → Option (Proj (Fp k1P)) :=
  sswuSuite (fpOps k1P 3) Secp256k1.isoA Secp256k1.isoB Secp256k1.sswuZ (isoMapK1 Secp256k1.kTab)

/-- The map of the suite of secp256r1; the coordinates are used as they are, src/secp256r1/curve.rs:92. -/
def r1Map : Fp r1P → Option (Proj (Fp r1P)) :=
  sswuSuite (fpOps r1P 6) Secp256r1.c.a Secp256r1.c.b Secp256r1.sswuZ (fun x y z => ⟨x, y, z⟩)

/-- **C37** The map of secp256k1's suite is the RFC's: SSWU on the isogenous curve, sign included, and then the
isogeny; it never panics and always yields a point. -/
theorem C37_k1_suite : IsSswuIso Secp256k1.c (k1Table Secp256k1.kTab) Secp256k1.isoA Secp256k1.isoB Secp256k1.sswuZ SameSign k1Map := by
  intro u
  obtain ⟨P, t, s, e, ⟨hx, hy, hg⟩, hA, -⟩ := sswuIso_spec Secp256k1.c_good k1P_ok Secp256k1.c_sswuZ Secp256k1.c_isoIdent
    (iso := isoMapK1 Secp256k1.kTab) (fun x y z hz => isoMapK1_out Secp256k1.kTab x y hz) u
  have hk : t ≠ (Secp256k1.kernelX : ℕ) := by
    intro e
    rw [e] at hy
    exact ne_zero_of_nonsquare hy Secp256k1.kernelX_nonsquare
  obtain ⟨hs, A, hP, hI⟩ := hA (fun e => hk ((Secp256k1.c_den _).1.mp e)) (fun e => hk ((Secp256k1.c_den _).2.mp e))
  exact ⟨P, A, t, s, e, hP, ⟨hx, hy, sameSign_of hs hg⟩, hI⟩

/-- **C37** The map of bls12381 G2's suite, with the code's sign rule. -/
theorem C37_g2_suite : IsSswuIso Bls12381.g2 Bls12381.g2Iso Bls12381.g2IsoA Bls12381.g2IsoB Bls12381.g2SswuZ SameSign2 g2Map := by
  intro u
  obtain ⟨P, t, s, e, ⟨hx, hy, hg⟩, hA, -⟩ := sswuIso_spec Bls12381.g2_good Bls12381.ops2_ok Bls12381.g2_sswuZ Bls12381.g2_isoIdent
    (iso := isoMapG2 Bls12381.g2Iso) (fun x y z hz => isoMapG2_out Bls12381.g2Iso (by decide) (by decide) (by simp [Bls12381.g2Iso])
      (by simp [Bls12381.g2Iso]) (by decide) (by decide) x y hz) u
  have hk : t ≠ Bls12381.sh2.φ Bls12381.g2KernelX := by
    intro e
    rw [e] at hy
    exact ne_zero_of_nonsquare hy Bls12381.g2KernelX_nonsquare
  obtain ⟨-, A, hP, hI⟩ := hA (fun e => hk ((Bls12381.g2_den _).1.mp e)) (fun e => hk ((Bls12381.g2_den _).2.mp e))
  exact ⟨P, A, t, s, e, hP, ⟨hx, hy, sameSign2_of hg⟩, hI⟩

/-- **C37** The map of bls12381 G1's suite: always returns; SSWU is the RFC's including the sign; outside of the kernel the image is the
RFC's point, on the kernel it is `(0, 0, 0)`. -/
theorem C37_g1_suite_partial (u : Bls12381.Fq) : ∃ P t s, g1Map u = some P ∧
    SswuPt Bls12381.g1IsoA Bls12381.g1IsoB Bls12381.g1SswuZ SameSign u t s ∧
    ((∀ r ∈ Bls12381.g1KernelX, t ≠ (r : ℕ)) → ∃ A, PRep Bls12381.g1 P A ∧ IsoPt Bls12381.g1 Bls12381.g1Iso t s A) ∧
    ((∃ r ∈ Bls12381.g1KernelX, t = (r : ℕ)) → P = ⟨0, 0, 0⟩) := by
  obtain ⟨P, t, s, e, ⟨hx, hy, hg⟩, hA, hB⟩ := sswuIso_spec Bls12381.g1_good blsQ_ok Bls12381.g1_sswuZ Bls12381.g1_isoIdent
    (iso := isoMapG1 Bls12381.g1Iso) g1Iso_out u
  have hs : s ≠ 0 := by
    by_cases hk : ∃ r ∈ Bls12381.g1KernelX, t = (r : ℕ)
    · obtain ⟨r, hr, ht⟩ := hk
      rintro rfl
      rw [ht, Bls12381.g1IsoAVal_eq, Bls12381.g1IsoBVal_eq, rhs, ← Nat.cast_pow, ← Nat.cast_mul, ← Nat.cast_add, ← Nat.cast_add,
        zero_pow (by decide), ← Nat.cast_zero, Fp.natCast_eq_iff, Nat.zero_mod] at hy
      have : ∀ r ∈ Bls12381.g1KernelX, ¬ 0 = (r ^ 3 + Bls12381.g1IsoAVal * r + Bls12381.g1IsoBVal) % blsQ := by decide +kernel
      exact this r hr hy
    · exact (hA (fun e => hk ((Bls12381.g1_den _).1.mp e)) (fun e => hk ((Bls12381.g1_den _).2.mp e))).1
  refine ⟨P, t, s, e, ⟨hx, hy, sameSign_of hs hg⟩, fun hk => ?_, fun hk => ?_⟩
  · have hk' : ¬ ∃ r ∈ Bls12381.g1KernelX, t = (r : ℕ) := fun ⟨r, hr, e⟩ => hk r hr e
    exact (hA (fun e => hk' ((Bls12381.g1_den _).1.mp e)) (fun e => hk' ((Bls12381.g1_den _).2.mp e))).2
  · exact hB ((Bls12381.g1_den _).1.mpr hk) ((Bls12381.g1_den _).2.mpr hk)

/-- **The kernel is reached by hashing**: for the field element below, the map of bls12381 G1's suite returns the
invalid triple `(0, 0, 0)`. -/
theorem C37_g1_reached : g1Map ((0x146850b3bdc2495ed73bb803dfaa951a88abff0acb5c7aeac52b48f3c808e87ce3885b98ce916e17caef21a6cbc6b598 : ℕ) : Bls12381.Fq) = some ⟨0, 0, 0⟩ := by
  obtain ⟨P, t, s, e, ⟨hx, -, -⟩, -, hB⟩ := C37_g1_suite_partial ((0x146850b3bdc2495ed73bb803dfaa951a88abff0acb5c7aeac52b48f3c808e87ce3885b98ce916e17caef21a6cbc6b598 : ℕ) : Bls12381.Fq)
  have ha := Bls12381.g1_sswuZ.ane
  rw [e, hB]
  refine ⟨0xd7f2d0d03ae035321eed4c1479d13251abf0e9a96479623eb5380b575e319851fb5e5a8b43b9c1a46880f54bf2b2f7c, by decide +kernel, ?_⟩
  have hm : Bls12381.g1SswuZ ^ 2 * ((0x146850b3bdc2495ed73bb803dfaa951a88abff0acb5c7aeac52b48f3c808e87ce3885b98ce916e17caef21a6cbc6b598 : ℕ) : Bls12381.Fq) ^ 4 + Bls12381.g1SswuZ * ((0x146850b3bdc2495ed73bb803dfaa951a88abff0acb5c7aeac52b48f3c808e87ce3885b98ce916e17caef21a6cbc6b598 : ℕ) : Bls12381.Fq) ^ 2 ≠ 0 := by
    rw [Bls12381.g1SswuZVal_eq, ← Nat.cast_pow, ← Nat.cast_pow, ← Nat.cast_pow, ← Nat.cast_mul, ← Nat.cast_mul, ← Nat.cast_add, ne_eq, ← Nat.cast_zero,
      Fp.natCast_eq_iff]
    decide +kernel
  have h1 : -Bls12381.g1IsoB / Bls12381.g1IsoA * (1 + (Bls12381.g1SswuZ ^ 2 * ((0x146850b3bdc2495ed73bb803dfaa951a88abff0acb5c7aeac52b48f3c808e87ce3885b98ce916e17caef21a6cbc6b598 : ℕ) : Bls12381.Fq) ^ 4 +
      Bls12381.g1SswuZ * ((0x146850b3bdc2495ed73bb803dfaa951a88abff0acb5c7aeac52b48f3c808e87ce3885b98ce916e17caef21a6cbc6b598 : ℕ) : Bls12381.Fq) ^ 2)⁻¹) = ((0xd7f2d0d03ae035321eed4c1479d13251abf0e9a96479623eb5380b575e319851fb5e5a8b43b9c1a46880f54bf2b2f7c : ℕ) : Bls12381.Fq) := by
    have hk : ((0xd7f2d0d03ae035321eed4c1479d13251abf0e9a96479623eb5380b575e319851fb5e5a8b43b9c1a46880f54bf2b2f7c : ℕ) : Bls12381.Fq) * Bls12381.g1IsoA * (Bls12381.g1SswuZ ^ 2 * ((0x146850b3bdc2495ed73bb803dfaa951a88abff0acb5c7aeac52b48f3c808e87ce3885b98ce916e17caef21a6cbc6b598 : ℕ) : Bls12381.Fq) ^ 4 +
        Bls12381.g1SswuZ * ((0x146850b3bdc2495ed73bb803dfaa951a88abff0acb5c7aeac52b48f3c808e87ce3885b98ce916e17caef21a6cbc6b598 : ℕ) : Bls12381.Fq) ^ 2) + Bls12381.g1IsoB * (Bls12381.g1SswuZ ^ 2 * ((0x146850b3bdc2495ed73bb803dfaa951a88abff0acb5c7aeac52b48f3c808e87ce3885b98ce916e17caef21a6cbc6b598 : ℕ) : Bls12381.Fq) ^ 4 +
        Bls12381.g1SswuZ * ((0x146850b3bdc2495ed73bb803dfaa951a88abff0acb5c7aeac52b48f3c808e87ce3885b98ce916e17caef21a6cbc6b598 : ℕ) : Bls12381.Fq) ^ 2 + 1) = 0 := by
      rw [Bls12381.g1SswuZVal_eq, Bls12381.g1IsoAVal_eq, Bls12381.g1IsoBVal_eq, ← Nat.cast_pow, ← Nat.cast_pow, ← Nat.cast_pow, ← Nat.cast_mul,
        ← Nat.cast_mul, ← Nat.cast_mul, ← Nat.cast_add, ← Nat.cast_mul, ← Nat.cast_one, ← Nat.cast_add, ← Nat.cast_mul, ← Nat.cast_add,
        ← Nat.cast_zero, Fp.natCast_eq_iff]
      decide +kernel
    generalize Bls12381.g1SswuZ ^ 2 * ((0x146850b3bdc2495ed73bb803dfaa951a88abff0acb5c7aeac52b48f3c808e87ce3885b98ce916e17caef21a6cbc6b598 : ℕ) : Bls12381.Fq) ^ 4 + Bls12381.g1SswuZ * ((0x146850b3bdc2495ed73bb803dfaa951a88abff0acb5c7aeac52b48f3c808e87ce3885b98ce916e17caef21a6cbc6b598 : ℕ) : Bls12381.Fq) ^ 2 = m at hm hk ⊢
    generalize ((0xd7f2d0d03ae035321eed4c1479d13251abf0e9a96479623eb5380b575e319851fb5e5a8b43b9c1a46880f54bf2b2f7c : ℕ) : Bls12381.Fq) = k at hk ⊢
    field_simp
    linear_combination -hk
  obtain ⟨k1, -⟩ := hx
  rw [if_neg (inv_ne_zero hm), h1] at k1
  exact k1 ⟨((0x59e4a8d101f0c51d351b3877c5197f07d08511978f9492dacd907f783f756008f967f1556f49e19032b4ecc3f415b40 : ℕ) : Bls12381.Fq), by rw [← sq]; exact kernel_point.symm⟩

/-- **C37** The invalid triple absorbs: whenever one of the two maps of a hash hits the kernel, the other is lost and the
result of `hash_to_curve` is `(0, 0, 0)`. -/
theorem C37_absorb (Q : Proj Bls12381.Fq) : Proj.add Bls12381.g1 ⟨0, 0, 0⟩ Q = ⟨0, 0, 0⟩ ∧ Proj.add Bls12381.g1 Q ⟨0, 0, 0⟩ = ⟨0, 0, 0⟩ := by
  rw [add_eq Bls12381.g1_good, add_eq Bls12381.g1_good]
  simp [rcbX, rcbY, rcbZ]

/-- **C36** The map of secp256r1's suite is the RFC's, sign included; it never panics and always yields a point. -/
theorem C36_r1_suite (u : Fp r1P) : ∃ P A, r1Map u = some P ∧ PRep Secp256r1.c P A ∧ ∃ t s h, A = .some t s h ∧
    SswuPt Secp256r1.c.a Secp256r1.c.b Secp256r1.sswuZ SameSign u t s := by
  obtain ⟨X, Y, Z, e, hZ, hx, hy, hg⟩ := C36_sswu r1P_ok Secp256r1.c_sswuZ u
  have he : (Curve.W Secp256r1.c).Equation (X / Z) (Y / Z) := by
    rw [equation_iff]
    unfold rhs at hy
    linear_combination hy
  have hn := nonsingular_of Secp256r1.c_good he
  refine ⟨⟨X, Y, Z⟩, .some _ _ hn, ?_, ?_, _, _, hn, rfl, hx, hy, sameSign_of (y_ne_zero Secp256r1.c_good he) hg⟩
  · unfold r1Map sswuSuite
    rw [e]
  · rw [PRep.some_iff]
    exact ⟨hZ, (div_mul_cancel₀ _ hZ).symm, (div_mul_cancel₀ _ hZ).symm⟩

/-- **C36** `hash_to_curve` of secp256r1, secp256k1 and bls12381 G2 (before its cofactor is cleared), for every 32-byte hash function. -/
theorem C36_hash (D : Digest) (hD : D.Ok) (h32 : D.outputSize = 32) :
    HashesTo Secp256r1.c D 48 r1Map (fun u A => ∃ t s h, A = .some t s h ∧
      SswuPt Secp256r1.c.a Secp256r1.c.b Secp256r1.sswuZ SameSign u t s) ∧
    HashesTo Secp256k1.c D 48 k1Map (fun u A => ∃ t s,
      SswuPt Secp256k1.isoA Secp256k1.isoB Secp256k1.sswuZ SameSign u t s ∧ IsoPt Secp256k1.c (k1Table Secp256k1.kTab) t s A) ∧
    HashesTo2 Bls12381.g2 D 64 g2Map (fun u A => ∃ t s,
      SswuPt Bls12381.g2IsoA Bls12381.g2IsoB Bls12381.g2SswuZ SameSign2 u t s ∧ IsoPt Bls12381.g2 Bls12381.g2Iso t s A) := by
  have x1 : xmdEll D (48 * 2) ≤ 255 := by rw [xmdEll, h32]; decide
  have x3 : xmdEll D (64 * 2 * 2) ≤ 255 := by rw [xmdEll, h32]; decide
  refine ⟨hashesTo_of Secp256r1.c_good hD (by decide) (by decide +kernel) x1 (by decide) C36_r1_suite,
    hashesTo_of Secp256k1.c_good hD (by decide) (by decide +kernel) x1 (by decide) (fun u => ?_),
    hashesTo2_of Bls12381.g2_good hD (by decide) (by decide +kernel) x3 (by decide) (fun u => ?_)⟩
  · obtain ⟨P, A, t, s, e, hP, h1, h2⟩ := C37_k1_suite u
    exact ⟨P, A, e, hP, t, s, h1, h2⟩
  · obtain ⟨P, A, t, s, e, hP, h1, h2⟩ := C37_g2_suite u
    exact ⟨P, A, e, hP, t, s, h1, h2⟩

/-- The full claim for the sign of the SSWU map of bls12381 G2. -/
def C36_g2_sgn0_claim : Prop :=
  ∀ u : Bls12381.Fq2, ∃ X Y Z, sswuMap Bls12381.ops2 Bls12381.g2IsoA Bls12381.g2IsoB Bls12381.g2SswuZ u = some (X, Y, Z) ∧
    sgn0 (Y / Z) = sgn0 u

/-- **C36** Which signs of the SSWU map of bls12381 G2 are the RFC's: for all values with a non-zero first coordinate of the ordinate,
exactly those with a non-zero first or an even second coordinate of `u`. -/
theorem C36_g2_sign_partial (u : Bls12381.Fq2) : ∃ X Y Z,
    sswuMap Bls12381.ops2 Bls12381.g2IsoA Bls12381.g2IsoB Bls12381.g2SswuZ u = some (X, Y, Z) ∧ Z ≠ 0 ∧
    ((Y / Z).c0 ≠ 0 → (sgn0 (Y / Z) = sgn0 u ↔ u.c0 ≠ 0 ∨ u.c1.toNat % 2 = 0)) := by
  obtain ⟨X, Y, Z, e, hZ, hx, hy, hg⟩ := C36_sswu Bls12381.ops2_ok Bls12381.g2_sswuZ u
  exact ⟨X, Y, Z, e, hZ, sgn0_iff (sameSign2_of hg)⟩

/-- **The sign of the SSWU map of bls12381 G2 is not the RFC's**: for `u = (0, 1)`, whose sign is 1, the ordinate has sign 0. -/
theorem C36_g2_sgn0_false : ¬ C36_g2_sgn0_claim := by
  intro hclaim
  obtain ⟨X, Y, Z, e, hsg⟩ := hclaim ⟨0, 1⟩
  obtain ⟨X', Y', Z', e', hZ, hx, hy, hg⟩ := C36_sswu Bls12381.ops2_ok Bls12381.g2_sswuZ ⟨0, 1⟩
  rw [e] at e'
  obtain ⟨rfl, h2⟩ := Prod.mk.inj (Option.some.inj e')
  obtain ⟨rfl, rfl⟩ := Prod.mk.inj h2
  refine sgn0_ne (sameSign2_of hg) ?_ hsg
  intro hy0
  rw [sq] at hy
  have hc := c1_zero_of hy hy0
  generalize X / Z = x at *
  let S : Sh (ℕ × ℕ) Bls12381.Fq2 := Bls12381.sh2
  have hrhs : ∀ v : ℕ × ℕ, (S.add (S.add (S.mul (S.mul v v) v) (S.mul Bls12381.g2IsoAVal v)) Bls12381.g2IsoBVal).2 % blsQ ≠ 0 → x ≠ S.φ v := by
    intro v hv hxv
    apply hv
    have e : rhs Bls12381.g2IsoA Bls12381.g2IsoB x =
        S.φ (S.add (S.add (S.mul (S.mul v v) v) (S.mul Bls12381.g2IsoAVal v)) Bls12381.g2IsoBVal) := by
      rw [hxv, Bls12381.g2IsoAVal_eq, Bls12381.g2IsoBVal_eq, rhs, S.φ_add, S.φ_add, S.φ_mul, S.φ_mul, S.φ_mul]
      ring
    rw [e] at hc
    have hc' : (((S.add (S.add (S.mul (S.mul v v) v) (S.mul Bls12381.g2IsoAVal v)) Bls12381.g2IsoBVal).2 : ℕ) : Fp blsQ) = ((0 : ℕ) : Fp blsQ) := by
      rw [Nat.cast_zero]; exact hc
    rw [Fp.natCast_eq_iff] at hc'
    rw [hc', Nat.zero_mod]
  have n1 := hrhs (0x83c12791abdd5d2fe2f284f0cc6e5aa9b8c2d3f6f3f792302cf75e62bfc4df1d6834443da498888725d8cccccccb1c3, 0x101f6225b3027f9d1a16442433f6993ddd02486c079f4e2efd6b11f3284eff01ea0e7ae0782ef5c263f523d70a3d3bc1) (by decide +kernel)
  have n2 := hrhs (0x58c2cc82792c08e2480c79e59732175a161212d6dfa4170833d9d92fa99ce1c2f80da73c641b4e80c5f5c28f5c27c5, 0xe79c4da4742ee72e74008e131686b4ef11972928af902c19674c72b85e955d18bf43a061953740d8048d47ae1477e9a) (by decide +kernel)
  have ha := Bls12381.g2_sswuZ.ane
  let u : Bls12381.Fq2 := ⟨0, 1⟩
  have hu2 : u ^ 2 = -1 := by
    have : u = S.φ (0, 1) := by
      ext
      · exact Nat.cast_zero.symm
      · exact Nat.cast_one.symm
    rw [this, sq, ← S.φ_mul, eq_neg_iff_add_eq_zero, ← S.φ_one, ← S.φ_add, ← S.φ_zero, ← S.eq_iff]
    decide +kernel
  have hzS : Bls12381.g2SswuZ = S.φ Bls12381.g2SswuZVal := Bls12381.g2SswuZVal_eq
  have hm : Bls12381.g2SswuZ ^ 2 * u ^ 4 + Bls12381.g2SswuZ * u ^ 2 =
      S.φ (S.sub (S.mul Bls12381.g2SswuZVal Bls12381.g2SswuZVal) Bls12381.g2SswuZVal) := by
    rw [show u ^ 4 = u ^ 2 * u ^ 2 by ring, hu2, hzS, S.φ_sub, S.φ_mul]
    ring
  have hm0 : Bls12381.g2SswuZ ^ 2 * u ^ 4 + Bls12381.g2SswuZ * u ^ 2 ≠ 0 := by
    rw [hm, ← S.φ_zero, ne_eq, ← S.eq_iff]
    decide +kernel
  have h1 : -Bls12381.g2IsoB / Bls12381.g2IsoA * (1 + (Bls12381.g2SswuZ ^ 2 * u ^ 4 + Bls12381.g2SswuZ * u ^ 2)⁻¹) = S.φ (0x83c12791abdd5d2fe2f284f0cc6e5aa9b8c2d3f6f3f792302cf75e62bfc4df1d6834443da498888725d8cccccccb1c3, 0x101f6225b3027f9d1a16442433f6993ddd02486c079f4e2efd6b11f3284eff01ea0e7ae0782ef5c263f523d70a3d3bc1) := by
    have hk : S.φ (0x83c12791abdd5d2fe2f284f0cc6e5aa9b8c2d3f6f3f792302cf75e62bfc4df1d6834443da498888725d8cccccccb1c3, 0x101f6225b3027f9d1a16442433f6993ddd02486c079f4e2efd6b11f3284eff01ea0e7ae0782ef5c263f523d70a3d3bc1) * Bls12381.g2IsoA * (Bls12381.g2SswuZ ^ 2 * u ^ 4 + Bls12381.g2SswuZ * u ^ 2) +
        Bls12381.g2IsoB * (Bls12381.g2SswuZ ^ 2 * u ^ 4 + Bls12381.g2SswuZ * u ^ 2 + 1) = 0 := by
      have haS : Bls12381.g2IsoA = S.φ Bls12381.g2IsoAVal := Bls12381.g2IsoAVal_eq
      have hbS : Bls12381.g2IsoB = S.φ Bls12381.g2IsoBVal := Bls12381.g2IsoBVal_eq
      rw [hm, haS, hbS, ← S.φ_mul, ← S.φ_mul, ← S.φ_one, ← S.φ_add, ← S.φ_mul, ← S.φ_add, ← S.φ_zero, ← S.eq_iff]
      decide +kernel
    generalize Bls12381.g2SswuZ ^ 2 * u ^ 4 + Bls12381.g2SswuZ * u ^ 2 = m at hm0 hk ⊢
    generalize S.φ (0x83c12791abdd5d2fe2f284f0cc6e5aa9b8c2d3f6f3f792302cf75e62bfc4df1d6834443da498888725d8cccccccb1c3, 0x101f6225b3027f9d1a16442433f6993ddd02486c079f4e2efd6b11f3284eff01ea0e7ae0782ef5c263f523d70a3d3bc1) = k at hk ⊢
    field_simp
    linear_combination -hk
  have h2 : Bls12381.g2SswuZ * u ^ 2 * S.φ (0x83c12791abdd5d2fe2f284f0cc6e5aa9b8c2d3f6f3f792302cf75e62bfc4df1d6834443da498888725d8cccccccb1c3, 0x101f6225b3027f9d1a16442433f6993ddd02486c079f4e2efd6b11f3284eff01ea0e7ae0782ef5c263f523d70a3d3bc1) = S.φ (0x58c2cc82792c08e2480c79e59732175a161212d6dfa4170833d9d92fa99ce1c2f80da73c641b4e80c5f5c28f5c27c5, 0xe79c4da4742ee72e74008e131686b4ef11972928af902c19674c72b85e955d18bf43a061953740d8048d47ae1477e9a) := by
    rw [hu2, hzS, mul_neg, mul_one, neg_mul, neg_eq_iff_add_eq_zero, ← S.φ_mul, ← S.φ_add, ← S.φ_zero, ← S.eq_iff]
    decide +kernel
  obtain ⟨k1, k2⟩ := hx
  change IsSquare (rhs _ _ (if (Bls12381.g2SswuZ ^ 2 * u ^ 4 + Bls12381.g2SswuZ * u ^ 2)⁻¹ = 0 then _ else -Bls12381.g2IsoB / Bls12381.g2IsoA *
    (1 + (Bls12381.g2SswuZ ^ 2 * u ^ 4 + Bls12381.g2SswuZ * u ^ 2)⁻¹))) → x = (if (Bls12381.g2SswuZ ^ 2 * u ^ 4 + Bls12381.g2SswuZ * u ^ 2)⁻¹ = 0 then _ else
    -Bls12381.g2IsoB / Bls12381.g2IsoA * (1 + (Bls12381.g2SswuZ ^ 2 * u ^ 4 + Bls12381.g2SswuZ * u ^ 2)⁻¹)) at k1
  change ¬ IsSquare (rhs _ _ (if (Bls12381.g2SswuZ ^ 2 * u ^ 4 + Bls12381.g2SswuZ * u ^ 2)⁻¹ = 0 then _ else -Bls12381.g2IsoB / Bls12381.g2IsoA *
    (1 + (Bls12381.g2SswuZ ^ 2 * u ^ 4 + Bls12381.g2SswuZ * u ^ 2)⁻¹))) → x = Bls12381.g2SswuZ * u ^ 2 * (if (Bls12381.g2SswuZ ^ 2 * u ^ 4 + Bls12381.g2SswuZ * u ^ 2)⁻¹ = 0 then _ else
    -Bls12381.g2IsoB / Bls12381.g2IsoA * (1 + (Bls12381.g2SswuZ ^ 2 * u ^ 4 + Bls12381.g2SswuZ * u ^ 2)⁻¹)) at k2
  rw [if_neg (inv_ne_zero hm0), h1] at k1 k2
  by_cases q : IsSquare (rhs Bls12381.g2IsoA Bls12381.g2IsoB (S.φ (0x83c12791abdd5d2fe2f284f0cc6e5aa9b8c2d3f6f3f792302cf75e62bfc4df1d6834443da498888725d8cccccccb1c3, 0x101f6225b3027f9d1a16442433f6993ddd02486c079f4e2efd6b11f3284eff01ea0e7ae0782ef5c263f523d70a3d3bc1)))
  · exact n1 (k1 q)
  · exact n2 ((k2 q).trans h2)

/-- The maps of the suites at a concrete, exceptional input: `u = 0`. -/
example : (∃ P, k1Map 0 = some P ∧ Proj.Valid Secp256k1.c P) ∧ (∃ P, r1Map 0 = some P ∧ Proj.Valid Secp256r1.c P) ∧
    (∃ P, g2Map 0 = some P ∧ Proj.Valid Bls12381.g2 P) := by
  refine ⟨?_, ?_, ?_⟩
  · obtain ⟨P, A, _, _, e, hP, _⟩ := C37_k1_suite 0
    exact ⟨P, e, A, hP⟩
  · obtain ⟨P, A, e, hP, _⟩ := C36_r1_suite 0
    exact ⟨P, e, A, hP⟩
  · obtain ⟨P, A, _, _, e, hP, _⟩ := C37_g2_suite 0
    exact ⟨P, e, A, hP⟩

/-- A hash function to which `C36_hash` applies. -/
example : ∃ D : Digest, D.Ok ∧ D.outputSize = 32 :=
  ⟨⟨fun m => List.replicate 32 (m.length % 256), 32, 64⟩, ⟨fun _ => List.length_replicate,
    fun _ b hb => by rw [List.eq_of_mem_replicate hb]; exact Nat.mod_lt _ (by decide), by decide⟩, rfl⟩

end Halo2.Props
