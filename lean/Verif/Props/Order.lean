import Verif.Curve.OrderInst
import Verif.Props.Curve
import Verif.Props.Glv

/-!
# The orders of the groups: C44, C45, C46
-/

set_option linter.unusedSectionVars false
set_option maxRecDepth 100000

namespace Halo2.Props

open Halo2 Halo2.Prime Halo2.Ext Halo2.Curve Halo2.Field Halo2.Glv

section Generic

variable {F : Type} [_root_.Field F] [DecidableEq F] [BaseField F] [LawfulBase F] {C : Params F}

/-- The group of points has `h * r` elements, `r` is a prime that does not divide `h`, `G` is a point of order `r`, and
the points killed by `r` are exactly the multiples of `G`. -/
structure OrderSpec (C : Params F) (G : Aff F) (h r : ℕ) : Prop where
  card : Nat.card (Pt C) = h * r
  prime : r.Prime
  coprime : ¬ r ∣ h
  gen : ∃ g, ARep C G g ∧ addOrderOf g = r ∧ ∀ p : Pt C, r • p = 0 ↔ ∃ k < r, p = k • g

theorem orderSpec_of [Finite (Pt C)] {G : Aff F} {g : Pt C} {h r : ℕ} (hr : r.Prime) (hg : addOrderOf g = r) (hG : ARep C G g)
    (hc : Nat.card (Pt C) = h * r) (hh : ¬ r ∣ h) : OrderSpec C G h r := by
  refine ⟨hc, hr, hh, g, hG, hg, fun p => ?_⟩
  rw [torsion_iff hr _ hg]
  · constructor
    · exact mem_zmultiples_lt hr.pos hg
    · rintro ⟨k, _, rfl⟩
      exact ⟨k, natCast_zsmul _ _⟩
  · rw [hc]
    intro hd
    apply hh
    rw [sq] at hd
    exact Nat.dvd_of_mul_dvd_mul_right hr.pos hd

/-- With cofactor one every point is killed by the order. -/
theorem OrderSpec.kill [Finite (Pt C)] {G : Aff F} {r : ℕ} (s : OrderSpec C G 1 r) (p : Pt C) : r • p = 0 := by
  have h := card_nsmul_eq_zero' (x := p)
  rwa [s.card, one_mul] at h

/-- Equal residues give equal multiples of a point killed by `r`. -/
theorem smul_congr {A : Type} [AddCommGroup A] {r : ℕ} [Fact (OddModulus r)] {p : A} (hr : r • p = 0) {m n : ℕ}
    (h : ((m : ℕ) : Fp r) = ((n : ℕ) : Fp r)) : m • p = n • p := by
  rw [Fp.natCast_eq_iff] at h
  rw [← Nat.div_add_mod m r, ← Nat.div_add_mod n r, h, add_smul, add_smul, mul_comm r, mul_comm r, mul_smul, mul_smul, hr,
    smul_zero, smul_zero]

theorem mul_rep (hC : Good C) {r : ℕ} [Fact (OddModulus r)] {P : Proj F} {p : Pt C} (hP : PRep C P p) (k : Fp r) :
    PRep C (Proj.mul C P (Fp.toRepr k)) (Fp.toNat k • p) := (C23_mul hC hP ARep.identity k).1

/-- The scalars of the field with `r` elements act on `P` as on an element of a vector space. -/
structure ScalarSpec (C : Params F) (r : ℕ) [Fact (OddModulus r)] (P : Proj F) : Prop where
  add : ∀ s t : Fp r, Proj.ctEq (Proj.mul C P (Fp.toRepr (s + t)))
    (Proj.add C (Proj.mul C P (Fp.toRepr s)) (Proj.mul C P (Fp.toRepr t))) = true
  mul : ∀ s t : Fp r, Proj.ctEq (Proj.mul C P (Fp.toRepr (s * t)))
    (Proj.mul C (Proj.mul C P (Fp.toRepr t)) (Fp.toRepr s)) = true
  neg : ∀ s : Fp r, Proj.ctEq (Proj.mul C P (Fp.toRepr (-s))) (Proj.neg (Proj.mul C P (Fp.toRepr s))) = true
  one : Proj.ctEq (Proj.mul C P (Fp.toRepr (1 : Fp r))) P = true
  zero : Proj.isIdentity (Proj.mul C P (Fp.toRepr (0 : Fp r))) = true
  faithful : Proj.isIdentity P = false → ∀ s t : Fp r,
    Proj.ctEq (Proj.mul C P (Fp.toRepr s)) (Proj.mul C P (Fp.toRepr t)) = true → s = t

/-- **C45** For every curve, prime `r` and point killed by `r`. -/
theorem C45_scalars (hC : Good C) {r : ℕ} [Fact (OddModulus r)] (hpr : r.Prime) {P : Proj F} {p : Pt C} (hP : PRep C P p)
    (hr : r • p = 0) : ScalarSpec C r P where
  add s t := by
    rw [PRep.ctEq (mul_rep hC hP _) ((mul_rep hC hP s).add hC (mul_rep hC hP t)), ← add_smul]
    apply smul_congr hr
    rw [Fp.natCast_toNat, Nat.cast_add, Fp.natCast_toNat, Fp.natCast_toNat]
  mul s t := by
    rw [PRep.ctEq (mul_rep hC hP _) (mul_rep hC (mul_rep hC hP t) s), smul_smul]
    apply smul_congr hr
    rw [Fp.natCast_toNat, Nat.cast_mul, Fp.natCast_toNat, Fp.natCast_toNat]
  neg s := by
    rw [PRep.ctEq (mul_rep hC hP _) (mul_rep hC hP s).neg, eq_neg_iff_add_eq_zero, ← add_smul, ← zero_smul ℕ p]
    apply smul_congr hr
    rw [Nat.cast_add, Fp.natCast_toNat, Fp.natCast_toNat, Nat.cast_zero, neg_add_cancel]
  one := by
    rw [PRep.ctEq (mul_rep hC hP _) hP]
    conv_rhs => rw [← one_smul ℕ p]
    apply smul_congr hr
    rw [Fp.natCast_toNat, Nat.cast_one]
  zero := by
    rw [(mul_rep hC hP _).isIdentity, ← zero_smul ℕ p]
    apply smul_congr hr
    rw [Fp.natCast_toNat, Nat.cast_zero]
  faithful hn s t h := by
    have hp0 : p ≠ 0 := by
      intro h0
      rw [hP.isIdentity.mpr h0] at hn
      exact absurd hn (by decide)
    have : Fact r.Prime := ⟨hpr⟩
    have ho : addOrderOf p = r := addOrderOf_eq_prime hr hp0
    rw [PRep.ctEq (mul_rep hC hP s) (mul_rep hC hP t), nsmul_eq_nsmul_iff_modEq, ho] at h
    rw [← Fp.natCast_toNat s, ← Fp.natCast_toNat t, Fp.natCast_eq_iff]
    exact h

/-- On `P` the endomorphism with constant `zeta` is the multiplication by the scalar `lam`. -/
def EigenSpec (C : Params F) {r : ℕ} [Fact (OddModulus r)] (zeta : F) (lam : Fp r) (P : Proj F) : Prop :=
  Proj.ctEq (Proj.endo zeta P) (Proj.mul C P (Fp.toRepr lam)) = true

theorem eigen_of {R : Type} {S : Sh R F} {op : Proj R → Proj R → Proj R} (hC : Good C) (hop : IsAdd S C op) [Finite (Pt C)] (ha : C.a = 0)
    {r : ℕ} [Fact (OddModulus r)] (hpr : r.Prime) (hN : ¬ r ^ 2 ∣ Nat.card (Pt C)) {zeta : F} {zv : R} (hz : zeta = S.φ zv)
    (h3 : zeta ^ 3 = 1) {g : Pt C} (hg : addOrderOf g = r) {x y : R} (hG : PRep C (shProj S ⟨x, y, S.one⟩) g) {lam : Fp r} {lv : ℕ}
    (hl : lam = (lv : ℕ)) (hc : ptEq S (shEndo S zv ⟨x, y, S.one⟩) (smul S op lv ⟨x, y, S.one⟩) = true) {P : Proj F} {p : Pt C}
    (hP : PRep C P p) (hr : r • p = 0) : EigenSpec C zeta lam P := by
  have hz3 : zeta * zeta * zeta = 1 := by rw [← h3]; ring
  have e : endoHom hC ha zeta hz3 g = (lv • AddMonoidHom.id (Pt C)) g :=
    (ptEq_iff (shEndo_rep hC ha hz hz3 hG) (smul_rep hC hop lv hG)).mp hc
  have hp := (torsion_iff hpr hN hg p).mp hr
  have h := hom_eq_of_zmultiples e hp
  rw [EigenSpec, PRep.ctEq (hP.endo hC ha hz3) (mul_rep hC hP lam)]
  refine h.trans ?_
  change lv • p = lam.toNat • p
  apply smul_congr hr
  rw [Fp.natCast_toNat, hl]

/-- Multiplication by a scalar, split with the endomorphism: `k P = k1 P - k2 endo(P)` for the signed halves of the
decomposition, both below `2^128`. -/
def GlvSpec (C : Params F) {r : ℕ} [Fact (OddModulus r)] (params : EndoParams) (zeta : F) (lam : Fp r) (P : Proj F) : Prop :=
  ∃ p q : Pt C, PRep C P p ∧ PRep C (Proj.endo zeta P) q ∧ ∀ k : Fp r, ∀ k1 n1 k2 n2, decompose params lam k = (k1, n1, k2, n2) →
    k1 < 2 ^ 128 ∧ k2 < 2 ^ 128 ∧
    PRep C (Proj.mul C P (Fp.toRepr k)) ((if n1 then -(k1 • p) else k1 • p) - (if n2 then -(k2 • q) else k2 • q))

theorem glv_of (hC : Good C) (ha : C.a = 0) {r : ℕ} [Fact (OddModulus r)] {params : EndoParams} {zeta : F} {lam : Fp r}
    (h3 : zeta ^ 3 = 1) (hs : Spec params lam) {P : Proj F} {p : Pt C} (hP : PRep C P p) (hr : r • p = 0)
    (he : EigenSpec C zeta lam P) : GlvSpec C params zeta lam P := by
  have hz3 : zeta * zeta * zeta = 1 := by rw [← h3]; ring
  have hq := hP.endo hC ha hz3
  rw [EigenSpec, PRep.ctEq hq (mul_rep hC hP lam)] at he
  refine ⟨p, _, hP, hq, fun k k1 n1 k2 n2 hd => ?_⟩
  have h := C24_points params lam hs (fun x => endoHom hC ha zeta hz3 x) p hr he k
  have hb := hs k
  have sg : ∀ (b : Bool) (n : ℕ) (x : Pt C), signed b n • x = if b then -(n • x) else n • x := by
    intro b n x
    cases b
    · rw [signed, if_neg (by decide), if_neg (by decide), natCast_zsmul]
    · rw [signed, if_pos rfl, if_pos rfl, neg_smul, natCast_zsmul]
  rw [hd] at h hb
  refine ⟨hb.1, hb.2.1, ?_⟩
  rw [← sg, ← sg]
  have hm := mul_rep hC hP k
  rw [h] at hm
  exact hm

end Generic

/-! ## C44 -/

/-- **C44** The orders of the eleven groups and of their generators. -/
theorem C44_orders :
    OrderSpec Bn256.g1 Bn256.g1Gen 1 bnR ∧
    OrderSpec Grumpkin.g1 Grumpkin.g1Gen 1 bnQ ∧
    OrderSpec Pluto.g1 Pluto.g1Gen 1 plQ ∧
    OrderSpec Pluto.eris Pluto.erisGen 1 plP ∧
    OrderSpec Secp256k1.c Secp256k1.cGen 1 k1N ∧
    OrderSpec Secq256k1.c Secq256k1.cGen 1 k1P ∧
    OrderSpec Secp256r1.c Secp256r1.cGen 1 r1N ∧
    OrderSpec Bn256.g2 Bn256.g2Gen 21888242871839275222246405745257275088844257914179612981679871602714643921549 bnR ∧
    OrderSpec Pluto.g2 Pluto.g2Gen 102211695604070082112571065507755096754575920209623522239390234855500789814276296758597959633551254826373265657863299916084618666704897 plQ ∧
    OrderSpec Bls12381.g1 Bls12381.g1Gen 76329603384216526031706109802092473003 blsR ∧
    OrderSpec Bls12381.g2 Bls12381.g2Gen 305502333931268344200999753193121504214466019254188142667664032982267604182971884026507427359259977847832272839041616661285803823378372096355777062779109 blsR :=
  ⟨orderSpec_of bnR_prime Bn256.g1Pt_order ⟨rfl, rfl⟩ (by rw [one_mul]; exact Bn256.g1_order.1) (by decide +kernel),
    orderSpec_of bnQ_prime Grumpkin.g1Pt_order ⟨rfl, rfl⟩ (by rw [one_mul]; exact Grumpkin.g1_order.1) (by decide +kernel),
    orderSpec_of plQ_prime Pluto.g1Pt_order ⟨rfl, rfl⟩ (by rw [one_mul]; exact Pluto.g1_order.1) (by decide +kernel),
    orderSpec_of plP_prime Pluto.erisPt_order ⟨rfl, rfl⟩ (by rw [one_mul]; exact Pluto.eris_order.1) (by decide +kernel),
    orderSpec_of k1N_prime Secp256k1.cPt_order ⟨rfl, rfl⟩ (by rw [one_mul]; exact Secp256k1.c_order.1) (by decide +kernel),
    orderSpec_of k1P_prime Secq256k1.cPt_order ⟨rfl, rfl⟩ (by rw [one_mul]; exact Secq256k1.c_order.1) (by decide +kernel),
    orderSpec_of r1N_prime Secp256r1.cPt_order ⟨rfl, rfl⟩ (by rw [one_mul]; exact Secp256r1.c_order.1) (by decide +kernel),
    orderSpec_of bnR_prime Bn256.g2Pt_order ⟨rfl, rfl⟩ (Bn256.g2_order.1.trans (by decide +kernel)) (by decide +kernel),
    orderSpec_of plQ_prime Pluto.g2Pt_order ⟨rfl, rfl⟩ (Pluto.g2_order.1.trans (by decide +kernel)) (by decide +kernel),
    orderSpec_of blsR_prime Bls12381.g1Pt_order ⟨rfl, rfl⟩ (Bls12381.g1_order.1.trans (by decide +kernel)) (by decide +kernel),
    orderSpec_of blsR_prime Bls12381.g2Pt_order ⟨rfl, rfl⟩ (Bls12381.g2_order.1.trans (by decide +kernel)) (by decide +kernel)⟩

/-- **C44** On the seven curves with cofactor one every point is a multiple of the generator by a number below `r`. -/
theorem C44_generates :
    (∃ g, ARep Bn256.g1 Bn256.g1Gen g ∧ ∀ p : Pt Bn256.g1, ∃ k < bnR, p = k • g) ∧
    (∃ g, ARep Grumpkin.g1 Grumpkin.g1Gen g ∧ ∀ p : Pt Grumpkin.g1, ∃ k < bnQ, p = k • g) ∧
    (∃ g, ARep Pluto.g1 Pluto.g1Gen g ∧ ∀ p : Pt Pluto.g1, ∃ k < plQ, p = k • g) ∧
    (∃ g, ARep Pluto.eris Pluto.erisGen g ∧ ∀ p : Pt Pluto.eris, ∃ k < plP, p = k • g) ∧
    (∃ g, ARep Secp256k1.c Secp256k1.cGen g ∧ ∀ p : Pt Secp256k1.c, ∃ k < k1N, p = k • g) ∧
    (∃ g, ARep Secq256k1.c Secq256k1.cGen g ∧ ∀ p : Pt Secq256k1.c, ∃ k < k1P, p = k • g) ∧
    (∃ g, ARep Secp256r1.c Secp256r1.cGen g ∧ ∀ p : Pt Secp256r1.c, ∃ k < r1N, p = k • g) := by
  obtain ⟨o0, o1, o2, o3, o4, o5, o6, _⟩ := C44_orders
  have key {F : Type} [_root_.Field F] [DecidableEq F] [BaseField F] [LawfulBase F] {C : Params F} [Finite (Pt C)] {G : Aff F} {r : ℕ}
      (s : OrderSpec C G 1 r) : ∃ g, ARep C G g ∧ ∀ p : Pt C, ∃ k < r, p = k • g := by
    obtain ⟨g, hg, _, h⟩ := s.gen
    exact ⟨g, hg, fun p => (h p).mp (s.kill p)⟩
  exact ⟨key o0, key o1, key o2, key o3, key o4, key o5, key o6⟩

/-- **C44** A multiplication by the order gives the identity, for every point of the curves with cofactor one and for
every encoding of the order. -/
theorem C44_kill (e : List ℕ) (he : IsBytes e) :
    (leNat e = bnR → ∀ P, Proj.Valid Bn256.g1 P → Proj.isIdentity (Proj.mul Bn256.g1 P e) = true) ∧
    (leNat e = bnQ → ∀ P, Proj.Valid Grumpkin.g1 P → Proj.isIdentity (Proj.mul Grumpkin.g1 P e) = true) ∧
    (leNat e = plQ → ∀ P, Proj.Valid Pluto.g1 P → Proj.isIdentity (Proj.mul Pluto.g1 P e) = true) ∧
    (leNat e = plP → ∀ P, Proj.Valid Pluto.eris P → Proj.isIdentity (Proj.mul Pluto.eris P e) = true) ∧
    (leNat e = k1N → ∀ P, Proj.Valid Secp256k1.c P → Proj.isIdentity (Proj.mul Secp256k1.c P e) = true) ∧
    (leNat e = k1P → ∀ P, Proj.Valid Secq256k1.c P → Proj.isIdentity (Proj.mul Secq256k1.c P e) = true) ∧
    (leNat e = r1N → ∀ P, Proj.Valid Secp256r1.c P → Proj.isIdentity (Proj.mul Secp256r1.c P e) = true) := by
  obtain ⟨o0, o1, o2, o3, o4, o5, o6, _⟩ := C44_orders
  have key {F : Type} [_root_.Field F] [DecidableEq F] [BaseField F] [LawfulBase F] {C : Params F} (hC : Good C) [Finite (Pt C)] {G : Aff F}
      {r : ℕ} (s : OrderSpec C G 1 r) (h : leNat e = r) (P : Proj F) (hP : Proj.Valid C P) : Proj.isIdentity (Proj.mul C P e) = true := by
    obtain ⟨p, hp⟩ := hP
    rw [(hp.mul hC e he).isIdentity, h]
    exact s.kill p
  exact ⟨key Bn256.g1_good o0, key Grumpkin.g1_good o1, key Pluto.g1_good o2, key Pluto.eris_good o3, key Secp256k1.c_good o4, key Secq256k1.c_good o5, key Secp256r1.c_good o6⟩

/-- The generators are points other than the identity. -/
example : ∃ g, ARep Bls12381.g2 Bls12381.g2Gen g ∧ g ≠ 0 ∧ blsR • g = 0 := by
  obtain ⟨g, h1, h2, _⟩ := C44_orders.2.2.2.2.2.2.2.2.2.2.gen
  refine ⟨g, h1, ?_, by rw [← h2, addOrderOf_nsmul_eq_zero]⟩
  rintro rfl
  rw [addOrderOf_zero] at h2
  exact absurd h2 (by decide +kernel)

/-! ## C45 -/

/-- **C45** Every valid point of the curves with cofactor one. -/
theorem C45_prime_order :
    (∀ P, Proj.Valid Bn256.g1 P → ScalarSpec Bn256.g1 bnR P) ∧
    (∀ P, Proj.Valid Grumpkin.g1 P → ScalarSpec Grumpkin.g1 bnQ P) ∧
    (∀ P, Proj.Valid Pluto.g1 P → ScalarSpec Pluto.g1 plQ P) ∧
    (∀ P, Proj.Valid Pluto.eris P → ScalarSpec Pluto.eris plP P) ∧
    (∀ P, Proj.Valid Secp256k1.c P → ScalarSpec Secp256k1.c k1N P) ∧
    (∀ P, Proj.Valid Secq256k1.c P → ScalarSpec Secq256k1.c k1P P) ∧
    (∀ P, Proj.Valid Secp256r1.c P → ScalarSpec Secp256r1.c r1N P) := by
  obtain ⟨o0, o1, o2, o3, o4, o5, o6, _⟩ := C44_orders
  exact ⟨fun P ⟨p, hp⟩ => C45_scalars Bn256.g1_good bnR_prime hp (o0.kill p),
    fun P ⟨p, hp⟩ => C45_scalars Grumpkin.g1_good bnQ_prime hp (o1.kill p),
    fun P ⟨p, hp⟩ => C45_scalars Pluto.g1_good plQ_prime hp (o2.kill p),
    fun P ⟨p, hp⟩ => C45_scalars Pluto.eris_good plP_prime hp (o3.kill p),
    fun P ⟨p, hp⟩ => C45_scalars Secp256k1.c_good k1N_prime hp (o4.kill p),
    fun P ⟨p, hp⟩ => C45_scalars Secq256k1.c_good k1P_prime hp (o5.kill p),
    fun P ⟨p, hp⟩ => C45_scalars Secp256r1.c_good r1N_prime hp (o6.kill p)⟩

/-- **C45** Every point of the subgroup of order `r` of the other four. -/
theorem C45_subgroup :
    (∀ P p, PRep Bn256.g2 P p → bnR • p = 0 → ScalarSpec Bn256.g2 bnR P) ∧
    (∀ P p, PRep Pluto.g2 P p → plQ • p = 0 → ScalarSpec Pluto.g2 plQ P) ∧
    (∀ P p, PRep Bls12381.g1 P p → blsR • p = 0 → ScalarSpec Bls12381.g1 blsR P) ∧
    (∀ P p, PRep Bls12381.g2 P p → blsR • p = 0 → ScalarSpec Bls12381.g2 blsR P) :=
  ⟨fun _ _ hp hr => C45_scalars Bn256.g2_good bnR_prime hp hr,
    fun _ _ hp hr => C45_scalars Pluto.g2_good plQ_prime hp hr,
    fun _ _ hp hr => C45_scalars Bls12381.g1_good blsR_prime hp hr,
    fun _ _ hp hr => C45_scalars Bls12381.g2_good blsR_prime hp hr⟩

/-- The action on the generator of bls12381's G2 is faithful. -/
example (s t : Fp blsR) (h : s ≠ t) : ∃ P p, PRep Bls12381.g2 P p ∧ blsR • p = 0 ∧ ScalarSpec Bls12381.g2 blsR P ∧
    Proj.ctEq (Proj.mul Bls12381.g2 P (Fp.toRepr s)) (Proj.mul Bls12381.g2 P (Fp.toRepr t)) ≠ true := by
  have hk : blsR • Bls12381.g2Pt = 0 := by rw [← Bls12381.g2Pt_order, addOrderOf_nsmul_eq_zero]
  have hs := C45_subgroup.2.2.2 _ _ Bls12381.g2Pt_rep hk
  refine ⟨_, _, Bls12381.g2Pt_rep, hk, hs, fun he => h (hs.faithful ?_ s t he)⟩
  rw [← Bool.not_eq_true, Bls12381.g2Pt_rep.isIdentity]
  intro h0
  have ho := Bls12381.g2Pt_order
  rw [h0, addOrderOf_zero] at ho
  exact absurd ho (by decide +kernel)

/-! ## C46 -/

theorem zeta2_cast {p : ℕ} [Fact (OddModulus p)] [ExtField (Fp p)] (z : ℕ) :
    zeta2 p z = ⟨((z * z : ℕ) : Fp p), ((0 : ℕ) : Fp p)⟩ := by
  rw [zeta2, Fp.zeta, Fp.constElem_eq, Nat.cast_mul, Nat.cast_zero]

theorem eigen_Bn256_g1 {P : Proj (Fp bnQ)} {p : Pt Bn256.g1} (hP : PRep Bn256.g1 P p) (hr : bnR • p = 0) :
    EigenSpec Bn256.g1 (Fp.zeta bnQ bnQZeta) (Fp.zeta bnR bnRZeta) P :=
  eigen_of Bn256.g1_good Bn256.g1Op_isAdd Bn256.g1_a bnR_prime (by rw [Bn256.g1_order.1]; decide +kernel) (Fp.constElem_eq bnQZeta)
    C12_constants.1.zeta_cube Bn256.g1Pt_order Bn256.g1Pt_rep (Fp.constElem_eq bnRZeta) (by decide +kernel) hP hr

theorem eigen_Grumpkin_g1 {P : Proj (Fp bnR)} {p : Pt Grumpkin.g1} (hP : PRep Grumpkin.g1 P p) (hr : bnQ • p = 0) :
    EigenSpec Grumpkin.g1 (Fp.zeta bnR bnRZeta) (Fp.zeta bnQ bnQZeta) P :=
  eigen_of Grumpkin.g1_good Grumpkin.g1Op_isAdd Grumpkin.g1_a bnQ_prime (by rw [Grumpkin.g1_order.1]; decide +kernel) (Fp.constElem_eq bnRZeta)
    C12_constants.2.1.zeta_cube Grumpkin.g1Pt_order Grumpkin.g1Pt_rep (Fp.constElem_eq bnQZeta) (by decide +kernel) hP hr

theorem eigen_Pluto_g1 {P : Proj (Fp plP)} {p : Pt Pluto.g1} (hP : PRep Pluto.g1 P p) (hr : plQ • p = 0) :
    EigenSpec Pluto.g1 (Fp.zeta plP plPZeta) (Fp.zeta plQ plQZeta) P :=
  eigen_of Pluto.g1_good Pluto.g1Op_isAdd Pluto.g1_a plQ_prime (by rw [Pluto.g1_order.1]; decide +kernel) (Fp.constElem_eq plPZeta)
    C12_constants.2.2.2.2.1.zeta_cube Pluto.g1Pt_order Pluto.g1Pt_rep (Fp.constElem_eq plQZeta) (by decide +kernel) hP hr

theorem eigen_Pluto_eris {P : Proj (Fp plQ)} {p : Pt Pluto.eris} (hP : PRep Pluto.eris P p) (hr : plP • p = 0) :
    EigenSpec Pluto.eris (Fp.zeta plQ plQZeta) (Fp.zeta plP plPZeta) P :=
  eigen_of Pluto.eris_good Pluto.erisOp_isAdd Pluto.eris_a plP_prime (by rw [Pluto.eris_order.1]; decide +kernel) (Fp.constElem_eq plQZeta)
    C12_constants.2.2.2.2.2.1.zeta_cube Pluto.erisPt_order Pluto.erisPt_rep (Fp.constElem_eq plPZeta) (by decide +kernel) hP hr

theorem eigen_Secp256k1_c {P : Proj (Fp k1P)} {p : Pt Secp256k1.c} (hP : PRep Secp256k1.c P p) (hr : k1N • p = 0) :
    EigenSpec Secp256k1.c (Fp.zeta k1P k1PZeta) (Fp.zeta k1N k1NZeta) P :=
  eigen_of Secp256k1.c_good Secp256k1.cOp_isAdd Secp256k1.c_a k1N_prime (by rw [Secp256k1.c_order.1]; decide +kernel) (Fp.constElem_eq k1PZeta)
    C12_constants.2.2.2.2.2.2.1.zeta_cube Secp256k1.cPt_order Secp256k1.cPt_rep (Fp.constElem_eq k1NZeta) (by decide +kernel) hP hr

theorem eigen_Secq256k1_c {P : Proj (Fp k1N)} {p : Pt Secq256k1.c} (hP : PRep Secq256k1.c P p) (hr : k1P • p = 0) :
    EigenSpec Secq256k1.c (Fp.zeta k1N k1NZeta) (Fp.zeta k1P k1PZeta) P :=
  eigen_of Secq256k1.c_good Secq256k1.cOp_isAdd Secq256k1.c_a k1P_prime (by rw [Secq256k1.c_order.1]; decide +kernel) (Fp.constElem_eq k1NZeta)
    C12_constants.2.2.2.2.2.2.2.1.zeta_cube Secq256k1.cPt_order Secq256k1.cPt_rep (Fp.constElem_eq k1PZeta) (by decide +kernel) hP hr

theorem eigen_Bls12381_g1 {P : Proj (Fp blsQ)} {p : Pt Bls12381.g1} (hP : PRep Bls12381.g1 P p) (hr : blsR • p = 0) :
    EigenSpec Bls12381.g1 (Fp.zeta blsQ blsQZeta) (Fp.zeta blsR blsRZeta) P :=
  eigen_of Bls12381.g1_good Bls12381.g1Op_isAdd Bls12381.g1_a blsR_prime (by rw [Bls12381.g1_order.1]; decide +kernel) (Fp.constElem_eq blsQZeta)
    C12_constants.2.2.1.zeta_cube Bls12381.g1Pt_order Bls12381.g1Pt_rep (Fp.constElem_eq blsRZeta) (by decide +kernel) hP hr

theorem eigen_Bn256_g2 {P : Proj Bn256.Fq2} {p : Pt Bn256.g2} (hP : PRep Bn256.g2 P p) (hr : bnR • p = 0) :
    EigenSpec Bn256.g2 (zeta2 bnQ bnQZeta) (Fp.zeta bnR bnRZeta) P :=
  eigen_of (zv := (bnQZeta * bnQZeta, 0)) Bn256.g2_good Bn256.g2Op_isAdd Bn256.g2_a bnR_prime (by rw [Bn256.g2_order.1]; decide +kernel) (zeta2_cast bnQZeta)
    (zeta2_cube C12_constants.1.zeta_cube) Bn256.g2Pt_order Bn256.g2Pt_rep (Fp.constElem_eq bnRZeta) (by decide +kernel) hP hr

theorem eigen_Pluto_g2 {P : Proj Pluto.Fp2} {p : Pt Pluto.g2} (hP : PRep Pluto.g2 P p) (hr : plQ • p = 0) :
    EigenSpec Pluto.g2 (zeta2 plP plPZeta) (Fp.zeta plQ plQZeta) P :=
  eigen_of (zv := (plPZeta * plPZeta, 0)) Pluto.g2_good Pluto.g2Op_isAdd Pluto.g2_a plQ_prime (by rw [Pluto.g2_order.1]; decide +kernel) (zeta2_cast plPZeta)
    (zeta2_cube C12_constants.2.2.2.2.1.zeta_cube) Pluto.g2Pt_order Pluto.g2Pt_rep (Fp.constElem_eq plQZeta) (by decide +kernel) hP hr

theorem eigen_Bls12381_g2 {P : Proj Bls12381.Fq2} {p : Pt Bls12381.g2} (hP : PRep Bls12381.g2 P p) (hr : blsR • p = 0) :
    EigenSpec Bls12381.g2 (zeta2 blsQ blsQZeta) (Fp.zeta blsR blsRZeta) P :=
  eigen_of (zv := (blsQZeta * blsQZeta, 0)) Bls12381.g2_good Bls12381.g2Op_isAdd Bls12381.g2_a blsR_prime (by rw [Bls12381.g2_order.1]; decide +kernel) (zeta2_cast blsQZeta)
    (zeta2_cube C12_constants.2.2.1.zeta_cube) Bls12381.g2Pt_order Bls12381.g2Pt_rep (Fp.constElem_eq blsRZeta) (by decide +kernel) hP hr

/-- **C46** On the six curves with `a = 0` and cofactor one, `endo(P) = P * ZETA` for every point. -/
theorem C46_prime_order :
    (∀ P, Proj.Valid Bn256.g1 P → EigenSpec Bn256.g1 (Fp.zeta bnQ bnQZeta) (Fp.zeta bnR bnRZeta) P) ∧
    (∀ P, Proj.Valid Grumpkin.g1 P → EigenSpec Grumpkin.g1 (Fp.zeta bnR bnRZeta) (Fp.zeta bnQ bnQZeta) P) ∧
    (∀ P, Proj.Valid Pluto.g1 P → EigenSpec Pluto.g1 (Fp.zeta plP plPZeta) (Fp.zeta plQ plQZeta) P) ∧
    (∀ P, Proj.Valid Pluto.eris P → EigenSpec Pluto.eris (Fp.zeta plQ plQZeta) (Fp.zeta plP plPZeta) P) ∧
    (∀ P, Proj.Valid Secp256k1.c P → EigenSpec Secp256k1.c (Fp.zeta k1P k1PZeta) (Fp.zeta k1N k1NZeta) P) ∧
    (∀ P, Proj.Valid Secq256k1.c P → EigenSpec Secq256k1.c (Fp.zeta k1N k1NZeta) (Fp.zeta k1P k1PZeta) P) := by
  obtain ⟨o0, o1, o2, o3, o4, o5, _⟩ := C44_orders
  exact ⟨fun P ⟨p, hp⟩ => eigen_Bn256_g1 hp (o0.kill p),
    fun P ⟨p, hp⟩ => eigen_Grumpkin_g1 hp (o1.kill p),
    fun P ⟨p, hp⟩ => eigen_Pluto_g1 hp (o2.kill p),
    fun P ⟨p, hp⟩ => eigen_Pluto_eris hp (o3.kill p),
    fun P ⟨p, hp⟩ => eigen_Secp256k1_c hp (o4.kill p),
    fun P ⟨p, hp⟩ => eigen_Secq256k1_c hp (o5.kill p)⟩

/-- **C46** On the other four `endo(P) = P * ZETA` for every point of the subgroup of order `r`. -/
theorem C46_subgroup :
    (∀ P p, PRep Bn256.g2 P p → bnR • p = 0 → EigenSpec Bn256.g2 (zeta2 bnQ bnQZeta) (Fp.zeta bnR bnRZeta) P) ∧
    (∀ P p, PRep Pluto.g2 P p → plQ • p = 0 → EigenSpec Pluto.g2 (zeta2 plP plPZeta) (Fp.zeta plQ plQZeta) P) ∧
    (∀ P p, PRep Bls12381.g1 P p → blsR • p = 0 → EigenSpec Bls12381.g1 (Fp.zeta blsQ blsQZeta) (Fp.zeta blsR blsRZeta) P) ∧
    (∀ P p, PRep Bls12381.g2 P p → blsR • p = 0 → EigenSpec Bls12381.g2 (zeta2 blsQ blsQZeta) (Fp.zeta blsR blsRZeta) P) :=
  ⟨fun _ _ hp hr => eigen_Bn256_g2 hp hr,
    fun _ _ hp hr => eigen_Pluto_g2 hp hr,
    fun _ _ hp hr => eigen_Bls12381_g1 hp hr,
    fun _ _ hp hr => eigen_Bls12381_g2 hp hr⟩

/-- **C46** The decomposition of scalars computes multiples of points: bn256 G1, grumpkin, and the subgroups of order `r` of bls12381. -/
theorem C46_glv :
    (∀ P, Proj.Valid Bn256.g1 P → GlvSpec Bn256.g1 paramsBn (Fp.zeta bnQ bnQZeta) (Fp.zeta bnR bnRZeta) P) ∧
    (∀ P, Proj.Valid Grumpkin.g1 P → GlvSpec Grumpkin.g1 paramsGrumpkin (Fp.zeta bnR bnRZeta) (Fp.zeta bnQ bnQZeta) P) ∧
    (∀ P p, PRep Bls12381.g1 P p → blsR • p = 0 →
      GlvSpec Bls12381.g1 paramsBls (Fp.zeta blsQ blsQZeta) (Fp.zeta blsR blsRZeta) P) ∧
    (∀ P p, PRep Bls12381.g2 P p → blsR • p = 0 →
      GlvSpec Bls12381.g2 paramsBls (zeta2 blsQ blsQZeta) (Fp.zeta blsR blsRZeta) P) := by
  obtain ⟨o0, o1, _⟩ := C44_orders
  obtain ⟨c0, c1, c2, _⟩ := C12_constants
  exact ⟨fun P ⟨p, hp⟩ => glv_of Bn256.g1_good Bn256.g1_a c0.zeta_cube C24_decompose.1 hp (o0.kill p) (eigen_Bn256_g1 hp (o0.kill p)),
    fun P ⟨p, hp⟩ => glv_of Grumpkin.g1_good Grumpkin.g1_a c1.zeta_cube C24_decompose.2.1 hp (o1.kill p) (eigen_Grumpkin_g1 hp (o1.kill p)),
    fun P p hp hr => glv_of Bls12381.g1_good Bls12381.g1_a c2.zeta_cube C24_decompose.2.2.1 hp hr (eigen_Bls12381_g1 hp hr),
    fun P p hp hr => glv_of Bls12381.g2_good Bls12381.g2_a (zeta2_cube c2.zeta_cube) C24_decompose.2.2.1 hp hr (eigen_Bls12381_g2 hp hr)⟩

/-- Outside of the subgroup the claim is false, so that the hypothesis of `C46_subgroup` is needed: on bls12381's G1 the
endomorphism and the multiplication by `ZETA` differ at a point of order `3 * 11 * ... * r`. -/
theorem C46_outside : ∃ P, Proj.Valid Bls12381.g1 P ∧ ¬ EigenSpec Bls12381.g1 (Fp.zeta blsQ blsQZeta) (Fp.zeta blsR blsRZeta) P := by
  refine ⟨_, ⟨_, Bls12381.g1Wit_rep⟩, ?_⟩
  have h3 : Fp.zeta blsQ blsQZeta ^ 3 = 1 := C12_constants.2.2.1.zeta_cube
  have hz3 : Fp.zeta blsQ blsQZeta * Fp.zeta blsQ blsQZeta * Fp.zeta blsQ blsQZeta = 1 := by rw [← h3]; ring
  have hv : (Fp.zeta blsR blsRZeta).toNat = blsRZeta := by
    rw [Fp.zeta, Fp.constElem_eq, Fp.toNat_natCast]
    decide +kernel
  rw [EigenSpec, PRep.ctEq (Bls12381.g1Wit_rep.endo Bls12381.g1_good Bls12381.g1_a hz3) (mul_rep Bls12381.g1_good Bls12381.g1Wit_rep _), hv]
  have h := ptEq_iff (shEndo_rep Bls12381.g1_good Bls12381.g1_a (Fp.constElem_eq blsQZeta) hz3 Bls12381.g1Wit_rep)
    (smul_rep Bls12381.g1_good Bls12381.g1Op_isAdd blsRZeta Bls12381.g1Wit_rep)
  intro he
  have hf := h.mpr he
  revert hf
  decide +kernel

end Halo2.Props
