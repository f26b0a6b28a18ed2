import Verif.Curve.OrderInst
import Verif.Pairing.Inst

/-!
# Cofactor clearing and subgroup tests

Models the `CofactorGroup` implementations of the curves, and shows that they are multiplications by fixed
numbers and tests for the subgroup of order `r`.
-/

set_option linter.unusedSectionVars false
set_option maxRecDepth 100000

namespace Halo2.Ext.Quad

variable {F : Type} [CommRing F] [ExtField F] [LawfulExt F]

/-- Conjugation as a homomorphism. -/
def conjHom : Quad F →+* Quad F where
  toFun := conjugate
  map_one' := by
    ext
    · rfl
    · exact neg_zero
  map_zero' := by
    ext
    · rfl
    · exact neg_zero
  map_add' x y := by
    ext
    · rfl
    · change -(x.c1 + y.c1) = -x.c1 + -y.c1
      ring
  map_mul' x y := by
    ext <;> simp only [mul_c0, mul_c1, conjugate] <;> ring

theorem conjHom_apply (x : Quad F) : conjHom x = conjugate x := rfl

end Halo2.Ext.Quad

namespace Halo2.Curve

open WeierstrassCurve Halo2.Ext Halo2.Field

namespace Cofactor

section Model

variable {F : Type} [CommRing F] [DecidableEq F] [BaseField F] (C : Params F)

/-- `clear_cofactor` of the curves with cofactor one. Models src/bn256/curve.rs:151-153, src/grumpkin/curve.rs:71-73,
src/pluto_eris/curve.rs:105-107 and 136-138, src/secp256k1/curve.rs:22-24, src/secq256k1/curve.rs:53-55,
src/secp256r1/curve.rs:17-19. -/
def trivialClear (P : Proj F) : Proj F := P

/-- `into_subgroup` of the curves with cofactor one and of both bls12381 groups. Models src/bn256/curve.rs:155-157,
src/bls12381/g1.rs:53-55, src/bls12381/g2.rs:125-127, src/pluto_eris/curve.rs:109-111 and 140-142. -/
def trivialInto (P : Proj F) : Option (Proj F) := some P

/-- `is_torsion_free` of the curves with cofactor one. Models src/bn256/curve.rs:159-161,
src/pluto_eris/curve.rs:113-115 and 144-146. -/
def trivialFree (_ : Proj F) : Bool := true

/-- One round of `mul_by_x`. -/
def mulByXStep (P acc : Proj F) (ib : ℕ × ℕ) : Proj F :=
  let acc := if ib.2 ≠ 0 then Proj.double C acc else acc
  if ib.1 = 1 then Proj.add C acc P else acc

/-- Models src/bls12381/g1.rs:84-91 and src/bls12381/g2.rs:144-151 (`mul_by_x`). -/
def mulByX (bits : List ℕ) (P : Proj F) : Proj F :=
  Proj.neg (bits.zipIdx.foldl (mulByXStep C P) Proj.identity)

/-- Models src/bn256/curve.rs:164-174 (`exp_by_x`), without its `println!`. -/
def expByX (x : ℕ) (P : Proj F) : Proj F :=
  (List.range 62).reverse.foldl
    (fun acc i =>
      let acc := Proj.double C acc
      if (x >>> i) &&& 1 = 1 then Proj.add C acc P else acc)
    P

/-- Double-and-add over big-endian bytes without the topmost bit. Models src/pluto_eris/curve.rs:192-201 and 218-228. -/
def mulBytes (e : List ℕ) (P : Proj F) : Proj F :=
  ((e.flatMap fun byte => (List.range 8).reverse.map fun i => ((byte >>> i) &&& 1) == 1).drop 1).foldl
    (fun acc bit =>
      let acc := Proj.double C acc
      if bit then Proj.add C acc P else acc)
    Proj.identity

end Model

variable {F : Type} [Field F] [DecidableEq F] [BaseField F] [LawfulBase F] {C : Params F}

theorem mulByX_fold (hC : Good C) {P : Proj F} {p : Pt C} (hP : PRep C P p) (l : List ℕ) : ∀ (i n : ℕ) (A : Proj F),
    (i = 0 → n = 0) → PRep C A (n • p) → PRep C ((l.zipIdx i).foldl (mulByXStep C P) A)
      (((l.map fun b => decide (b = 1)).foldl (fun n b => 2 * n + b.toNat) n) • p) := by
  induction l with
  | nil => intro i n A _ hA; exact hA
  | cons b l ih =>
    intro i n A hi hA
    rw [List.zipIdx_cons, List.foldl_cons, List.map_cons, List.foldl_cons]
    apply ih (i + 1) _ _ (fun h => absurd h (by omega))
    have hd : PRep C (if i ≠ 0 then Proj.double C A else A) ((2 * n) • p) := by
      by_cases h0 : i = 0
      · rw [if_neg (not_not.mpr h0), hi h0, mul_zero]
        rw [hi h0] at hA
        exact hA
      · rw [if_pos h0, two_mul, add_smul]
        exact hA.double hC
    rw [mulByXStep]
    by_cases hb : b = 1
    · simp only [hb, if_true, decide_true, Bool.toNat_true]
      rw [add_smul, one_smul]
      exact hd.add hC hP
    · simp only [hb, if_false, decide_false, Bool.toNat_false, add_zero]
      exact hd

theorem mulByX_rep (hC : Good C) {P : Proj F} {p : Pt C} (hP : PRep C P p) (bits : List ℕ) :
    PRep C (mulByX C bits P) (-(bitsVal (bits.map fun b => decide (b = 1)) • p)) := by
  refine PRep.neg (mulByX_fold hC hP bits 0 0 _ (fun _ => rfl) ?_)
  rw [zero_smul]
  exact PRep.identity

theorem expByX_rep (hC : Good C) {P : Proj F} {p : Pt C} (hP : PRep C P p) (x : ℕ) :
    PRep C (expByX C x P) ((2 ^ 62 + bitsVal ((List.range 62).reverse.map fun i => decide ((x >>> i) &&& 1 = 1))) • p) := by
  have h := doubleAdd_spec hC (fun A => Proj.add C A P) p (fun A a hA => hA.add hC hP)
    ((List.range 62).reverse.map fun i => decide ((x >>> i) &&& 1 = 1)) P 1 (by rw [one_smul]; exact hP)
  rw [bitsVal_foldl, List.foldl_map, List.length_map, List.length_reverse, List.length_range, mul_one] at h
  simp only [decide_eq_true_eq] at h
  exact h

theorem mulBytes_rep (hC : Good C) {P : Proj F} {p : Pt C} (hP : PRep C P p) (e : List ℕ) :
    PRep C (mulBytes C e P) (bitsVal ((e.flatMap fun byte => (List.range 8).reverse.map fun i =>
      ((byte >>> i) &&& 1) == 1).drop 1) • p) := by
  have h := doubleAdd_spec hC (fun A => Proj.add C A P) p (fun A a hA => hA.add hC hP)
    ((e.flatMap fun byte => (List.range 8).reverse.map fun i => ((byte >>> i) &&& 1) == 1).drop 1) Proj.identity 0
    (by rw [zero_smul]; exact PRep.identity)
  rw [bitsVal_foldl, mul_zero, zero_add] at h
  exact h

end Cofactor

end Halo2.Curve

namespace Halo2

open Halo2.Field Halo2.Prime Halo2.Ext Halo2.Curve Halo2.Curve.Cofactor Halo2.Ext.Shadow

/-! ## bn256 G2 -/

namespace Bn256

/-- Models src/bn256/curve.rs:177-190 (`u`). -/
def psiU : Fq2 := rawPair ([0x99e39557176f553d, 0xb78cc310c2c3330c, 0x4c0bec3cf559b143, 0x2fb347984f7911f7],
  [0x1665d51c640fcba2, 0x32ae2a1d0b7c9dce, 0x4ba4cc8bd75a0794, 0x16c9e55061ebae20])

/-- Models src/bn256/curve.rs:192-205 (`v`). -/
def psiV : Fq2 := rawPair ([0xdc54014671a0135a, 0xdbaae0eda9c95998, 0xdc5ec698b6e2f9b9, 0x063cf305489af5dc],
  [0x82d37f632623b0e3, 0x21807dc98fa25bd2, 0x0704b5a7ec796f2b, 0x07c03cbcac41049a])

/-- Models src/bn256/curve.rs:176-215 (`psi`). -/
def psi (P : Proj Fq2) : Proj Fq2 :=
  ⟨Quad.conjugate P.x * psiU, Quad.conjugate P.y * psiV, Quad.conjugate P.z⟩

/-- Models src/bn256/curve.rs:220-226 (`clear_cofactor`). -/
def g2ClearCofactor (P : Proj Fq2) : Proj Fq2 :=
  let u0 := expByX g2 bnX P
  let u1 := psi (Proj.add g2 (Proj.double g2 u0) u0)
  let u2 := psi (psi u0)
  let u3 := psi (psi (psi P))
  Proj.add g2 (Proj.add g2 (Proj.add g2 u0 u1) u2) u3

/-- Models src/bn256/curve.rs:228-230 (`into_subgroup`, which is `unimplemented!()`); the outer `none` stands for
the panic. -/
def g2IntoSubgroup (_ : Proj Fq2) : Option (Option (Proj Fq2)) := none

/-- Models src/bn256/curve.rs:232-238 (`is_torsion_free`). -/
def g2TorsionFree (P : Proj Fq2) : Bool :=
  let u := expByX g2 bnX P
  let pu := psi u
  let ppu := psi pu
  let pppu := psi ppu
  Proj.isIdentity (Proj.sub g2 (Proj.add g2 (Proj.add g2 (Proj.add g2 ppu pu) u) P) (Proj.double g2 pppu))

@[irreducible] def psiUVal : ℕ × ℕ := (0x2fb347984f7911f74c0bec3cf559b143b78cc310c2c3330c99e39557176f553d,
  0x16c9e55061ebae204ba4cc8bd75a079432ae2a1d0b7c9dce1665d51c640fcba2)

@[irreducible] def psiVVal : ℕ × ℕ := (0x063cf305489af5dcdc5ec698b6e2f9b9dbaae0eda9c95998dc54014671a0135a,
  0x07c03cbcac41049a0704b5a7ec796f2b21807dc98fa25bd282d37f632623b0e3)

theorem psiU_eq : psiU = g2Sh.φ psiUVal := (rawPair_eq _ (by decide +kernel)).trans (cast_eq_of _ _ (by decide +kernel) (by decide +kernel))

theorem psiV_eq : psiV = g2Sh.φ psiVVal := (rawPair_eq _ (by decide +kernel)).trans (cast_eq_of _ _ (by decide +kernel) (by decide +kernel))

theorem ne_zero_of_sh {x : ℕ × ℕ} (h : g2Sh.eq x g2Sh.zero = false) : g2Sh.φ x ≠ 0 := by
  intro h0
  rw [← g2Sh.φ_zero, ← g2Sh.eq_iff, h] at h0
  exact Bool.false_ne_true h0

theorem psi_scaling : Scaling (Quad.conjHom : Fq2 →+* Fq2) psiU psiV g2.a g2.b g2.a g2.b where
  u0 := by rw [psiU_eq]; exact ne_zero_of_sh (by decide +kernel)
  v0 := by rw [psiV_eq]; exact ne_zero_of_sh (by decide +kernel)
  uv := by
    rw [psiU_eq, psiV_eq, ← g2Sh.φ_mul, ← g2Sh.φ_mul, ← g2Sh.φ_mul, ← g2Sh.eq_iff]
    decide +kernel
  ha := by rw [g2_a, map_zero, mul_zero]
  hb := by
    rw [psiU_eq, g2BVal_eq, Quad.conjHom_apply, ← cast_conj]
    change g2Sh.φ _ = g2Sh.φ _ * g2Sh.φ _ * g2Sh.φ _ * g2Sh.φ _
    rw [← g2Sh.φ_mul, ← g2Sh.φ_mul, ← g2Sh.φ_mul, ← g2Sh.eq_iff]
    decide +kernel

/-- The map `psi` on points. -/
noncomputable def psiHom : Pt g2 →+ Pt g2 := psi_scaling.hom

theorem psi_rep {P : Proj Fq2} {p : Pt g2} (hP : PRep g2 P p) : PRep g2 (psi P) (psiHom p) := psi_scaling.rep hP

theorem psi_sh {P : Proj (ℕ × ℕ)} {p : Pt g2} (hP : PRep g2 (shProj g2Sh P) p) :
    PRep g2 (shProj g2Sh (shScale g2Sh (conj bnQ) psiUVal psiVVal P)) (psiHom p) :=
  shScale_rep psi_scaling (fun x => cast_conj x) psiU_eq psiV_eq hP

/-- The eigenvalue of `psi`. -/
@[irreducible] def psiLam : ℕ := 0x57d0fa1e08ad95dbd3d02ac59d97c67e5665db452744eb5e7039e622aab300328fe0afaa9015425f88bee43e285a6b8c3481c163bc54cf1a6b2de9f8cf76753

theorem psi_eq (p : Pt g2) : psiHom p = psiLam • p := by
  have h : psiHom g2Wit = (psiLam • AddMonoidHom.id (Pt g2)) g2Wit := by
    refine (ptEq_iff (psi_sh g2Wit_rep) (smul_rep g2_good g2Op_isAdd psiLam g2Wit_rep)).mp ?_
    decide +kernel
  have hp : p ∈ AddSubgroup.zmultiples g2Wit := by rw [g2_order.2]; trivial
  exact hom_eq_of_zmultiples h hp

theorem exp_rep {P : Proj Fq2} {p : Pt g2} (hP : PRep g2 P p) : PRep g2 (expByX g2 bnX P) (bnX • p) := by
  have h := expByX_rep g2_good hP bnX
  rwa [show 2 ^ 62 + Curve.bitsVal ((List.range 62).reverse.map fun i => decide ((bnX >>> i) &&& 1 = 1)) = bnX by
    decide +kernel] at h

/-- The factor of `clear_cofactor`. -/
def g2ClearFactor : ℕ := bnX + psiLam * (3 * bnX) + psiLam * (psiLam * bnX) + psiLam * (psiLam * psiLam)

theorem g2Clear_rep {P : Proj Fq2} {p : Pt g2} (hP : PRep g2 P p) : PRep g2 (g2ClearCofactor P) (g2ClearFactor • p) := by
  have h0 := exp_rep hP
  have h1 := psi_rep ((h0.double g2_good).add g2_good h0)
  have h2 := psi_rep (psi_rep h0)
  have h3 := psi_rep (psi_rep (psi_rep hP))
  have h := ((h0.add g2_good h1).add g2_good h2).add g2_good h3
  have e : bnX • p + psiHom (bnX • p + bnX • p + bnX • p) + psiHom (psiHom (bnX • p)) + psiHom (psiHom (psiHom p)) =
      g2ClearFactor • p := by
    simp only [psi_eq, g2ClearFactor]
    generalize bnX = x
    generalize psiLam = l
    simp only [← add_smul, smul_smul]
    congr 1
    ring
  rw [← e]
  exact h

/-- The factor of the subgroup test. -/
def g2TestFactor : ℤ := (psiLam * (psiLam * bnX) + psiLam * bnX + bnX + 1 : ℕ) - (2 * (psiLam * (psiLam * (psiLam * bnX))) : ℕ)

theorem g2Free_iff {P : Proj Fq2} {p : Pt g2} (hP : PRep g2 P p) : g2TorsionFree P = true ↔ g2TestFactor • p = 0 := by
  have h0 := exp_rep hP
  have h1 := psi_rep h0
  have h2 := psi_rep h1
  have h3 := psi_rep h2
  have h := (((h2.add g2_good h1).add g2_good h0).add g2_good hP).sub g2_good (h3.double g2_good)
  rw [g2TorsionFree, h.isIdentity]
  have e : psiHom (psiHom (bnX • p)) + psiHom (bnX • p) + bnX • p + p -
      (psiHom (psiHom (psiHom (bnX • p))) + psiHom (psiHom (psiHom (bnX • p)))) = g2TestFactor • p := by
    simp only [psi_eq, g2TestFactor]
    generalize bnX = x
    generalize psiLam = l
    simp only [smul_smul, sub_smul, natCast_zsmul, add_smul, one_smul, two_mul]
  rw [e]

theorem g2_card_smul (p : Pt g2) : (g2Cof * bnR) • p = 0 := by
  rw [← g2_order.1]
  exact card_nsmul_eq_zero'

theorem g2Test_iff (p : Pt g2) : g2TestFactor • p = 0 ↔ bnR • p = 0 := by
  rw [← addOrderOf_dvd_iff_zsmul_eq_zero, ← addOrderOf_dvd_iff_nsmul_eq_zero]
  constructor
  · intro h
    have h1 := addOrderOf_dvd_of_nsmul_eq_zero (g2_card_smul p)
    have h2 : Int.gcd g2TestFactor ((g2Cof * bnR : ℕ) : ℤ) = bnR := by decide +kernel
    rw [← h2]
    have h3 := Int.dvd_coe_gcd h (Int.natCast_dvd_natCast.mpr h1)
    exact_mod_cast h3
  · intro h
    exact (Int.natCast_dvd_natCast.mpr h).trans (by decide +kernel)

end Bn256

/-! ## pluto G2 (triton) -/

namespace Pluto

/-- Models src/pluto_eris/curve.rs:183-190 (the cofactor `2 p - q`). -/
def g2CofBytes : List ℕ := [
  0x24, 0x00, 0x00, 0x00, 0x00, 0x00, 0x24, 0x00, 0x01, 0x30, 0xe0, 0x00, 0x0d, 0x7f,
  0x70, 0xe4, 0xa8, 0x03, 0xca, 0x76, 0xf4, 0x39, 0x26, 0x6f, 0x44, 0x3f, 0x9a, 0x5d,
  0x3a, 0x8a, 0x6c, 0x7b, 0xe4, 0xa7, 0xd5, 0xfe, 0x91, 0x44, 0x7f, 0xd6, 0xa8, 0xa7,
  0xe9, 0x28, 0xa0, 0x08, 0x67, 0x97, 0x1f, 0xff, 0xfc, 0xd3, 0x00, 0x00, 0x00, 0x01]

/-- Models src/pluto_eris/curve.rs:210-216 (the group order `q`). -/
def g2OrdBytes : List ℕ := [
  0x24, 0x00, 0x00, 0x00, 0x00, 0x00, 0x24, 0x00, 0x01, 0x30, 0xe0, 0x00, 0x0d, 0x7f,
  0x70, 0xe4, 0xa8, 0x03, 0xca, 0x76, 0xf4, 0x39, 0x26, 0x6f, 0x44, 0x3f, 0x9a, 0x5c,
  0x7a, 0x8a, 0x6c, 0x7b, 0xe4, 0xa7, 0x75, 0xfe, 0x8e, 0x17, 0x7f, 0xd6, 0x9c, 0xa7,
  0xe8, 0x5d, 0x60, 0x05, 0x0a, 0xf4, 0x1f, 0xff, 0xfc, 0xd3, 0x00, 0x00, 0x00, 0x01]

/-- Models src/pluto_eris/curve.rs:181-202 (`clear_cofactor`). -/
def g2ClearCofactor (P : Proj Fp2) : Proj Fp2 := mulBytes g2 g2CofBytes P

/-- Models src/pluto_eris/curve.rs:204-207 (`into_subgroup`). -/
def g2IntoSubgroup (P : Proj Fp2) : Option (Proj Fp2) := some (g2ClearCofactor P)

/-- Models src/pluto_eris/curve.rs:209-229 (`is_torsion_free`). -/
def g2TorsionFree (P : Proj Fp2) : Bool := Proj.isIdentity (mulBytes g2 g2OrdBytes P)

theorem g2Clear_rep {P : Proj Fp2} {p : Pt g2} (hP : PRep g2 P p) : PRep g2 (g2ClearCofactor P) (g2Cof • p) := by
  have h := mulBytes_rep g2_good hP g2CofBytes
  rwa [show Curve.bitsVal _ = g2Cof by decide +kernel] at h

theorem g2Free_iff {P : Proj Fp2} {p : Pt g2} (hP : PRep g2 P p) : g2TorsionFree P = true ↔ plQ • p = 0 := by
  have h := mulBytes_rep g2_good hP g2OrdBytes
  rw [show Curve.bitsVal _ = plQ by decide +kernel] at h
  rw [g2TorsionFree, h.isIdentity]

theorem g2_card_smul (p : Pt g2) : (g2Cof * plQ) • p = 0 := by
  rw [← g2_order.1]
  exact card_nsmul_eq_zero'

end Pluto

/-! ## bls12381 -/

namespace Bls12381

/-- Models src/bls12381/g1.rs:49-51 (`clear_cofactor`). -/
def g1ClearCofactor (P : Proj Fq) : Proj Fq := Proj.sub g1 P (mulByX g1 blsX P)

/-- Models src/bls12381/g1.rs:57-59 (`is_torsion_free`); `zeta` is `Fq::ZETA`, see src/derive/curve.rs (`endo`). -/
def g1TorsionFree (zeta : Fq) (P : Proj Fq) : Bool :=
  Proj.ctEq (Proj.endo zeta (Proj.neg (mulByX g1 blsX (mulByX g1 blsX P)))) P

/-- Models src/bls12381/g2.rs:155-165 (`psi_coeff_x`). -/
def psiCoeffX : Fq2 := ⟨0, Fp.ofMont [0x890dc9e4867545c3, 0x2af322533285a5d5, 0x50880866309b7e2c, 0xa20d1b8c7e881024,
  0x14e4f04fe2db9068, 0x14e56d3f1564853a]⟩

/-- Models src/bls12381/g2.rs:167-184 (`psi_coeff_y`). -/
def psiCoeffY : Fq2 := montPair (
  [0x3e2f585da55c9ad1, 0x4294213d86c18183, 0x382844c88b623732, 0x92ad2afd19103e18, 0x1d794e4fac7cf0b9, 0x0bd592fc7d825ec8],
  [0x7bcfa7a25aa30fda, 0xdc17dec12a927e7c, 0x2f088dd86b4ebef1, 0xd1ca2087da74d4a7, 0x2da2596696cebc1d, 0x0e2b7eedbbfd87d2])

/-- Models src/bls12381/g2.rs:205-215 (`psi2_coeff_x`). -/
def psi2CoeffX : Fq2 := ⟨Fp.ofMont [0xcd03c9e48671f071, 0x5dab22461fcda5d2, 0x587042afd3851b95, 0x8eb60ebe01bacb9e,
  0x03f97d6e83d050d2, 0x18f0206554638741], 0⟩

/-- Models src/bls12381/g2.rs:153-201 (`psi`). -/
def psi (P : Proj Fq2) : Proj Fq2 :=
  ⟨Quad.frob2 1 P.x * psiCoeffX, Quad.frob2 1 P.y * psiCoeffY, Quad.frob2 1 P.z⟩

/-- Models src/bls12381/g2.rs:203-225 (`psi2`). -/
def psi2 (P : Proj Fq2) : Proj Fq2 := ⟨P.x * psi2CoeffX, -P.y, P.z⟩

/-- Models src/bls12381/g2.rs:114-123 (`clear_cofactor`). -/
def g2ClearCofactor (P : Proj Fq2) : Proj Fq2 :=
  let t1 := mulByX g2 blsX P
  let t2 := psi P
  Proj.sub g2 (Proj.sub g2 (Proj.sub g2
    (Proj.add g2 (psi2 (Proj.double g2 P)) (mulByX g2 blsX (Proj.add g2 t1 t2))) t1) t2) P

/-- Models src/bls12381/g2.rs:132-138 (`is_torsion_free`). -/
def g2TorsionFree (P : Proj Fq2) : Bool := Proj.ctEq (psi P) (mulByX g2 blsX P)

theorem g1MulX_rep {P : Proj Fq} {p : Pt g1} (hP : PRep g1 P p) : PRep g1 (mulByX g1 blsX P) (-(blsXAbs • p)) := by
  have h := mulByX_rep g1_good hP blsX
  rwa [blsX_bits] at h

theorem g2MulX_rep {P : Proj Fq2} {p : Pt g2} (hP : PRep g2 P p) : PRep g2 (mulByX g2 blsX P) (-(blsXAbs • p)) := by
  have h := mulByX_rep g2_good hP blsX
  rwa [blsX_bits] at h

/-! ### G1 -/

theorem g1_exponent (p : Pt g1) : g1Primes.prod • p = 0 := by
  have hw : g1Primes.prod • g1Wit = 0 := by rw [← g1Wit_order, addOrderOf_nsmul_eq_zero]
  have h := hom_ext_gen (f := g1Primes.prod • AddMonoidHom.id (Pt g1)) (g := 0) g1_order.2
    hw (by
      change g1Primes.prod • g1Phi g1Wit = 0
      rw [← map_nsmul, hw, map_zero])
  exact DFunLike.congr_fun h p

theorem g1Clear_rep {P : Proj Fq} {p : Pt g1} (hP : PRep g1 P p) : PRep g1 (g1ClearCofactor P) ((blsXAbs + 1) • p) := by
  have h := hP.sub g1_good (g1MulX_rep hP)
  rwa [sub_neg_eq_add, ← succ_nsmul'] at h

theorem g1Clear_zero (p : Pt g1) : blsR • (blsXAbs + 1) • p = 0 := by
  rw [smul_smul]
  exact smul_eq_zero_of_dvd (g1_exponent p) (by decide +kernel)

/-- The endomorphism with a given constant. -/
theorem g1Free_iff (zeta : Fq) (hz3 : zeta * zeta * zeta = 1) {P : Proj Fq} {p : Pt g1}
    (hP : PRep g1 P p) :
    g1TorsionFree zeta P = true ↔ endoHom g1_good g1_a zeta hz3 (-((blsXAbs * blsXAbs) • p)) = p := by
  have h := ((g1MulX_rep (g1MulX_rep hP)).neg).endo g1_good g1_a hz3
  rw [smul_neg, neg_neg, smul_smul] at h
  rw [g1TorsionFree, PRep.ctEq h hP]
  rfl

theorem g1Test_iff (zeta : Fq) (zv : ℕ) (hz : zeta = g1Sh.φ zv) (hz2 : zeta * zeta + zeta + 1 = 0) (hz3 : zeta * zeta * zeta = 1)
    (hgen : ptEq g1Sh (shEndo g1Sh zv (shNeg g1Sh (smul g1Sh g1Op (blsXAbs * blsXAbs) ⟨g1XVal, g1YVal, g1Sh.one⟩)))
      ⟨g1XVal, g1YVal, g1Sh.one⟩ = true) (p : Pt g1) :
    endoHom g1_good g1_a zeta hz3 (-((blsXAbs * blsXAbs) • p)) = p ↔ blsR • p = 0 := by
  have hrel := endo_relation g1_good g1_a hz2 hz3
  have hg : endoHom g1_good g1_a zeta hz3 (-((blsXAbs * blsXAbs) • g1Pt)) = g1Pt :=
    (ptEq_iff (shEndo_rep g1_good g1_a hz hz3 (shNeg_rep (smul_rep g1_good g1Op_isAdd _ g1Pt_rep))) g1Pt_rep).mp hgen
  generalize endoHom g1_good g1_a zeta hz3 = phi at hrel hg ⊢
  constructor
  · intro h
    rw [map_neg, map_nsmul] at h
    have h1 : (blsXAbs * blsXAbs) • phi p = -p := by rw [← h, neg_neg, h]
    have h2 : (blsXAbs * blsXAbs) • phi (phi p) = -phi p := by rw [← map_nsmul, h1, map_neg]
    have h3 : (blsXAbs * blsXAbs * (blsXAbs * blsXAbs)) • phi (phi p) = p := by
      rw [mul_smul, h2, smul_neg, h1, neg_neg]
    have h4 := congrArg ((blsXAbs * blsXAbs * (blsXAbs * blsXAbs)) • ·) (hrel p)
    simp only [smul_add, smul_zero, h3] at h4
    rw [mul_smul _ _ (phi p), h1, smul_neg] at h4
    have h5 : (blsXAbs * blsXAbs * (blsXAbs * blsXAbs)) • p + p = (blsXAbs * blsXAbs) • p := by
      rw [← sub_eq_zero, ← h4]; abel
    have h6 : blsXAbs * blsXAbs * (blsXAbs * blsXAbs) + 1 = blsXAbs * blsXAbs + blsR := by decide +kernel
    have h7 : (blsXAbs * blsXAbs + blsR) • p = (blsXAbs * blsXAbs) • p := by rw [← h6, add_smul, one_smul, h5]
    rw [add_smul] at h7
    exact left_eq_add.mp h7.symm
  · intro h
    rw [torsion_iff blsR_prime (by rw [g1_order.1]; decide +kernel) g1Pt_order] at h
    exact hom_eq_of_zmultiples (f := phi.comp (-((blsXAbs * blsXAbs) • AddMonoidHom.id _))) (g := AddMonoidHom.id _) hg h

/-! ### G2 -/

@[irreducible] def psiXVal : ℕ × ℕ := (0x0,
  0x1a0111ea397fe699ec02408663d4de85aa0d857d89759ad4897d29650fb85f9b409427eb4f49fffd8bfd00000000aaad)

@[irreducible] def psiYVal : ℕ × ℕ := (0x135203e60180a68ee2e9c448d77a2cd91c3dedd930b1cf60ef396489f61eb45e304466cf3e67fa0af1ee7b04121bdea2,
  0x6af0e0437ff400b6831e36d6bd17ffe48395dabc2d3435e77f76e17009241c5ee67992f72ec05f4c81084fbede3cc09)

@[irreducible] def psi2XVal : ℕ × ℕ := (0x1a0111ea397fe699ec02408663d4de85aa0d857d89759ad4897d29650fb85f9b409427eb4f49fffd8bfd00000000aaac,
  0x0)

/-- The inverse of `2^384`. -/
@[irreducible] def rInv : ℕ := 0x14fec701e8fb0ce9ed5e64273c4f538b1797ab1458a88de9343ea97914956dc87fe11274d898fafbf4d38259380b4820

theorem psiX_eq : psiCoeffX = g2Sh.φ psiXVal := by
  ext
  · change (0 : Fq) = ((psiXVal.1 : ℕ) : Fq)
    rw [show psiXVal.1 = 0 by decide +kernel, Nat.cast_zero]
  · exact (Fp.ofMont_eq _ (by decide +kernel) rInv (by decide +kernel)).trans ((Fp.natCast_eq_iff _ _).mpr (by decide +kernel))

theorem psiY_eq : psiCoeffY = g2Sh.φ psiYVal :=
  (montPair_eq _ (by decide +kernel) rInv (by decide +kernel)).trans (cast_eq_of _ _ (by decide +kernel) (by decide +kernel))

theorem psi2X_eq : psi2CoeffX = g2Sh.φ psi2XVal := by
  ext
  · exact (Fp.ofMont_eq _ (by decide +kernel) rInv (by decide +kernel)).trans ((Fp.natCast_eq_iff _ _).mpr (by decide +kernel))
  · change (0 : Fq) = ((psi2XVal.2 : ℕ) : Fq)
    rw [show psi2XVal.2 = 0 by decide +kernel, Nat.cast_zero]

theorem ne_zero_of_sh {x : ℕ × ℕ} (h : g2Sh.eq x g2Sh.zero = false) : g2Sh.φ x ≠ 0 := by
  intro h0
  rw [← g2Sh.φ_zero, ← g2Sh.eq_iff, h] at h0
  exact Bool.false_ne_true h0

theorem psi_scaling : Scaling (Quad.conjHom : Fq2 →+* Fq2) psiCoeffX psiCoeffY g2.a g2.b g2.a g2.b where
  u0 := by rw [psiX_eq]; exact ne_zero_of_sh (by decide +kernel)
  v0 := by rw [psiY_eq]; exact ne_zero_of_sh (by decide +kernel)
  uv := by
    rw [psiX_eq, psiY_eq, ← g2Sh.φ_mul, ← g2Sh.φ_mul, ← g2Sh.φ_mul, ← g2Sh.eq_iff]
    decide +kernel
  ha := by rw [g2_a, map_zero, mul_zero]
  hb := by
    rw [psiX_eq, g2BVal_eq, Quad.conjHom_apply, ← cast_conj]
    change g2Sh.φ _ = g2Sh.φ _ * g2Sh.φ _ * g2Sh.φ _ * g2Sh.φ _
    rw [← g2Sh.φ_mul, ← g2Sh.φ_mul, ← g2Sh.φ_mul, ← g2Sh.eq_iff]
    decide +kernel

theorem psi2_scaling : Scaling (RingHom.id Fq2) psi2CoeffX (-1) g2.a g2.b g2.a g2.b where
  u0 := by rw [psi2X_eq]; exact ne_zero_of_sh (by decide +kernel)
  v0 := neg_ne_zero.mpr one_ne_zero
  uv := by
    rw [neg_mul_neg, one_mul, psi2X_eq, ← g2Sh.φ_one, ← g2Sh.φ_mul, ← g2Sh.φ_mul, ← g2Sh.eq_iff]
    decide +kernel
  ha := by rw [g2_a, map_zero, mul_zero]
  hb := by
    rw [psi2X_eq, g2BVal_eq, RingHom.id_apply]
    change g2Sh.φ _ = g2Sh.φ _ * g2Sh.φ _ * g2Sh.φ _ * g2Sh.φ _
    rw [← g2Sh.φ_mul, ← g2Sh.φ_mul, ← g2Sh.φ_mul, ← g2Sh.eq_iff]
    decide +kernel

/-- The map `psi` on points. -/
noncomputable def psiHom : Pt g2 →+ Pt g2 := psi_scaling.hom

/-- The map `psi2` on points. -/
noncomputable def psi2Hom : Pt g2 →+ Pt g2 := psi2_scaling.hom

theorem psi_rep {P : Proj Fq2} {p : Pt g2} (hP : PRep g2 P p) : PRep g2 (psi P) (psiHom p) := psi_scaling.rep hP

theorem psi2_rep {P : Proj Fq2} {p : Pt g2} (hP : PRep g2 P p) : PRep g2 (psi2 P) (psi2Hom p) := by
  have h := psi2_scaling.rep hP
  simp only [RingHom.id_apply, mul_neg, mul_one] at h
  exact h

theorem psi_sh {P : Proj (ℕ × ℕ)} {p : Pt g2} (hP : PRep g2 (shProj g2Sh P) p) :
    PRep g2 (shProj g2Sh (shScale g2Sh (conj blsQ) psiXVal psiYVal P)) (psiHom p) :=
  shScale_rep psi_scaling (fun x => cast_conj x) psiX_eq psiY_eq hP

theorem psi2_sh {P : Proj (ℕ × ℕ)} {p : Pt g2} (hP : PRep g2 (shProj g2Sh P) p) :
    PRep g2 (shProj g2Sh (shScale g2Sh id psi2XVal (g2Sh.sub g2Sh.zero g2Sh.one) P)) (psi2Hom p) :=
  shScale_rep psi2_scaling (fun x => rfl) psi2X_eq (by rw [g2Sh.φ_sub, g2Sh.φ_zero, g2Sh.φ_one, zero_sub]) hP

theorem g2_exponent (p : Pt g2) : g2Primes.prod • p = 0 := by
  have hw : g2Primes.prod • g2Wit = 0 := by rw [← g2Wit_order, addOrderOf_nsmul_eq_zero]
  have h := hom_ext_gen (f := g2Primes.prod • AddMonoidHom.id (Pt g2)) (g := 0) g2_order.2
    hw (by
      change g2Primes.prod • g2Phi g2Wit = 0
      rw [← map_nsmul, hw, map_zero])
  exact DFunLike.congr_fun h p

/-- The shadow of `psi`. -/
noncomputable def shPsi (P : Proj (ℕ × ℕ)) : Proj (ℕ × ℕ) := shScale g2Sh (conj blsQ) psiXVal psiYVal P

/-- The shadow of `psi2`. -/
noncomputable def shPsi2 (P : Proj (ℕ × ℕ)) : Proj (ℕ × ℕ) := shScale g2Sh id psi2XVal (g2Sh.sub g2Sh.zero g2Sh.one) P

/-- The shadows of the two generators. -/
noncomputable def shWit : Proj (ℕ × ℕ) := ⟨g2WitX, g2WitY, g2Sh.one⟩

noncomputable def shWit' : Proj (ℕ × ℕ) := shEndo g2Sh g2Zeta shWit

/-- The characteristic equation of `psi`: the trace is `1 - |x|`. -/
theorem psi_char (p : Pt g2) : psiHom (psiHom p) + blsXAbs • psiHom p + blsQ • p = psiHom p := by
  have key {P : Proj (ℕ × ℕ)} {p : Pt g2} (hP : PRep g2 (shProj g2Sh P) p)
      (h : ptEq g2Sh (g2Op (g2Op (shPsi (shPsi P)) (smul g2Sh g2Op blsXAbs (shPsi P))) (smul g2Sh g2Op blsQ P)) (shPsi P) = true) :
      psiHom (psiHom p) + blsXAbs • psiHom p + blsQ • p = psiHom p :=
    (ptEq_iff (sadd_rep g2_good g2Op_isAdd (sadd_rep g2_good g2Op_isAdd (psi_sh (psi_sh hP))
      (smul_rep g2_good g2Op_isAdd _ (psi_sh hP))) (smul_rep g2_good g2Op_isAdd _ hP)) (psi_sh hP)).mp h
  have h := hom_ext_gen (f := psiHom.comp psiHom + blsXAbs • psiHom + blsQ • AddMonoidHom.id (Pt g2)) (g := psiHom) g2_order.2
    (key g2Wit_rep (by decide +kernel)) (key (g2Phi_rep g2Wit_rep) (by decide +kernel))
  exact DFunLike.congr_fun h p

theorem psi_gen : psiHom g2Pt = -(blsXAbs • g2Pt) := by
  refine (ptEq_iff (psi_sh g2Pt_rep) (shNeg_rep (smul_rep g2_good g2Op_isAdd blsXAbs g2Pt_rep))).mp ?_
  decide +kernel

theorem g2Free_iff {P : Proj Fq2} {p : Pt g2} (hP : PRep g2 P p) : g2TorsionFree P = true ↔ psiHom p = -(blsXAbs • p) := by
  rw [g2TorsionFree, PRep.ctEq (psi_rep hP) (g2MulX_rep hP)]

theorem g2Test_iff (p : Pt g2) : psiHom p = -(blsXAbs • p) ↔ blsR • p = 0 := by
  constructor
  · intro h
    have h1 := psi_char p
    rw [h, map_neg, map_nsmul, h, smul_neg, neg_neg, add_neg_cancel, zero_add] at h1
    have h2 : (blsQ + blsXAbs) • p = 0 := by rw [add_smul, h1, neg_add_cancel]
    have h3 := smul_gcd h2 (g2_exponent p)
    rwa [show Nat.gcd (blsQ + blsXAbs) g2Primes.prod = blsR by decide +kernel] at h3
  · intro h
    rw [torsion_iff blsR_prime (by rw [g2_order.1]; decide +kernel) g2Pt_order] at h
    exact hom_eq_of_zmultiples (f := psiHom) (g := -(blsXAbs • AddMonoidHom.id _)) psi_gen h

/-- The factor of `clear_cofactor`, `3 (x² - 1) h`. -/
@[irreducible] def g2ClearFactor : ℕ := 3 * (blsXAbs * blsXAbs - 1) * g2Cof

/-- `clear_cofactor` on points. -/
noncomputable def clearHom : Pt g2 →+ Pt g2 :=
  psi2Hom.comp (AddMonoidHom.id _ + AddMonoidHom.id _) +
    -(blsXAbs • (-(blsXAbs • AddMonoidHom.id _) + psiHom)) - -(blsXAbs • AddMonoidHom.id _) - psiHom - AddMonoidHom.id _

theorem g2Clear_hom {P : Proj Fq2} {p : Pt g2} (hP : PRep g2 P p) : PRep g2 (g2ClearCofactor P) (clearHom p) := by
  have h1 := g2MulX_rep hP
  have h2 := psi_rep hP
  exact (((((psi2_rep (hP.double g2_good)).add g2_good (g2MulX_rep (h1.add g2_good h2))).sub g2_good h1).sub g2_good h2).sub
    g2_good hP)

/-- The shadow of `clear_cofactor`. -/
noncomputable def shClear (P : Proj (ℕ × ℕ)) : Proj (ℕ × ℕ) :=
  let t1 := shNeg g2Sh (smul g2Sh g2Op blsXAbs P)
  let t2 := shPsi P
  g2Op (g2Op (g2Op (g2Op (shPsi2 (g2Op P P)) (shNeg g2Sh (smul g2Sh g2Op blsXAbs (g2Op t1 t2)))) (shNeg g2Sh t1)) (shNeg g2Sh t2))
    (shNeg g2Sh P)

theorem shClear_rep {P : Proj (ℕ × ℕ)} {p : Pt g2} (hP : PRep g2 (shProj g2Sh P) p) :
    PRep g2 (shProj g2Sh (shClear P)) (clearHom p) := by
  have h1 := shNeg_rep (smul_rep g2_good g2Op_isAdd blsXAbs hP)
  have h2 := psi_sh hP
  have h := sadd_rep g2_good g2Op_isAdd (sadd_rep g2_good g2Op_isAdd (sadd_rep g2_good g2Op_isAdd (sadd_rep g2_good g2Op_isAdd
    (psi2_sh (sadd_rep g2_good g2Op_isAdd hP hP))
    (shNeg_rep (smul_rep g2_good g2Op_isAdd blsXAbs (sadd_rep g2_good g2Op_isAdd h1 h2)))) (shNeg_rep h1)) (shNeg_rep h2)) (shNeg_rep hP)
  rw [← sub_eq_add_neg, ← sub_eq_add_neg, ← sub_eq_add_neg] at h
  exact h

theorem clearHom_eq (p : Pt g2) : clearHom p = g2ClearFactor • p := by
  have key {P : Proj (ℕ × ℕ)} {p : Pt g2} (hP : PRep g2 (shProj g2Sh P) p)
      (h : ptEq g2Sh (shClear P) (smul g2Sh g2Op g2ClearFactor P) = true) : clearHom p = g2ClearFactor • p :=
    (ptEq_iff (shClear_rep hP) (smul_rep g2_good g2Op_isAdd _ hP)).mp h
  have h := hom_ext_gen (f := clearHom) (g := g2ClearFactor • AddMonoidHom.id (Pt g2)) g2_order.2
    (key g2Wit_rep (by decide +kernel)) (key (g2Phi_rep g2Wit_rep) (by decide +kernel))
  exact DFunLike.congr_fun h p

theorem g2Clear_rep {P : Proj Fq2} {p : Pt g2} (hP : PRep g2 P p) : PRep g2 (g2ClearCofactor P) (g2ClearFactor • p) := by
  rw [← clearHom_eq]
  exact g2Clear_hom hP

theorem g2Clear_zero (p : Pt g2) : blsR • g2ClearFactor • p = 0 := by
  rw [smul_smul]
  exact smul_eq_zero_of_dvd (g2_exponent p) (by decide +kernel)

end Bls12381

end Halo2
