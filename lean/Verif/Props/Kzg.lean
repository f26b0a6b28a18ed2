import Verif.Props.FftPoly
import Verif.Props.PairingCheck

/-!
# Property C78: polynomial commitments with the library

The scheme of Kate, Zaverucha and Goldberg as a client of the library's interface: the setup multiplies the generator by the powers of a
secret and normalizes, `msm_serial` commits, and `multi_miller_loop` with `final_exponentiation` verifies an opening.
-/

set_option linter.unusedSectionVars false

namespace Halo2.Props

open Halo2 Halo2.Field Halo2.Prime Halo2.Curve Halo2.Msm Halo2.Pairing Polynomial

section Scheme

variable {L F K : Type} [_root_.Field L] [DecidableEq L] [BaseField L] [LawfulBase L]
  [_root_.Field F] [DecidableEq F] [BaseField F] [LawfulBase F] [CommMonoid K]
variable {r : ℕ} [Fact r.Prime] [Fact (OddModulus r)] [Fp.SmallModulus r]

/-- The setup: `[tau^j] G` for `j < n`, as affine points. -/
noncomputable def kzgSetup (C1 : Params L) (g : Aff L) (tau : Fp r) (n : ℕ) : Option (List (Aff L)) :=
  Proj.batchNormalize ((List.range n).map fun j => Aff.mul C1 g (Fp.toRepr (tau ^ j))) n

/-- The commitment to a polynomial with the coefficients `cs`. -/
def kzgCommit (C1 : Params L) (ln : ℕ → ℕ) (srs : List (Aff L)) (cs : List (Fp r)) : Option (Proj L) :=
  msmSerial C1 ln ((numBits r + 7) / 8) (cs.map Fp.toRepr) srs Proj.identity

/-- The two pairs whose product of pairings should be one: `(W, [tau] H)` and `(C - [y] G + [z] W, -H)`. -/
def kzgPairs (C1 : Params L) (g : Aff L) (h tauH : Aff F) (c : Proj L) (z y : Fp r) (w : Proj L) : List (Aff L × Aff F) :=
  [(w.toAffine, tauH),
   ((Proj.add C1 (Proj.sub C1 c (Aff.mul C1 g (Fp.toRepr y))) (Proj.mul C1 w (Fp.toRepr z))).toAffine, h.neg)]

/-- What C78 says; `multi` is `multi_miller_loop` followed by `final_exponentiation`. -/
structure KzgClaim (C1 : Params L) (C2 : Params F) (r : ℕ) [Fact r.Prime] [Fact (OddModulus r)] [Fp.SmallModulus r] (g : Aff L) (h : Aff F)
    (multi : List (Aff L × Aff F) → Option K) : Prop where
  /-- For every polynomial, secret and point: setup and commitments succeed, and with the commitment to the quotient by `X - z` the
  verifier accepts the value at `z` and no other value. -/
  opens (ln : ℕ → ℕ) (hln : LnCeilOk ln) (tau z : Fp r) (n : ℕ) (hn : n < 2 ^ 32) (f : (Fp r)[X]) (hf : f.natDegree < n) :
    ∃ srs c w, kzgSetup C1 g tau n = some srs ∧ kzgCommit C1 ln srs (coeffs f n) = some c ∧
      kzgCommit C1 ln srs (coeffs (f /ₘ (X - C z)) n) = some w ∧
      ∀ y, multi (kzgPairs C1 g h (Aff.mul C2 h (Fp.toRepr tau)).toAffine c z y w) = some 1 ↔ y = f.eval z
  /-- For any points `c = [a] G` and `w = [b] G` (in any coordinates), from whatever prover: the verifier accepts exactly when
  `a - y = b (tau - z)`. -/
  exact (tau z y a b : Fp r) (c w : Proj L) (hc : Proj.ctEq c (Aff.mul C1 g (Fp.toRepr a)) = true) (hcv : ∃ P, PRep C1 c P)
    (hw : Proj.ctEq w (Aff.mul C1 g (Fp.toRepr b)) = true) (hwv : ∃ P, PRep C1 w P) :
    multi (kzgPairs C1 g h (Aff.mul C2 h (Fp.toRepr tau)).toAffine c z y w) = some 1 ↔ a - y = b * (tau - z)

theorem comb_toNat {C : Params L} {p : Pt C} (hp : r • p = 0) (a y z b : Fp r) :
    Fp.toNat a • p - Fp.toNat y • p + Fp.toNat z • (Fp.toNat b • p) = Fp.toNat (a - y + z * b) • p := by
  let _ := torsModule C r
  let x : Tors C r := ⟨p, hp⟩
  have e : ∀ k : Fp r, Fp.toNat k • p = ((k • x : Tors C r) : Pt C) := fun k => by
    have h2 : k • x = Fp.toNat k • x := tors_smul k x
    rw [h2, AddSubgroup.coe_nsmul]
  have e' : Fp.toNat z • (Fp.toNat b • p) = (((z * b) • x : Tors C r) : Pt C) := by
    have h2 : z • (b • x) = Fp.toNat z • (b • x) := tors_smul z (b • x)
    rw [mul_smul, h2, AddSubgroup.coe_nsmul, ← e]
  rw [e', e, e, e, add_smul, sub_smul, AddSubgroup.coe_add, AddSubgroup.coe_sub]

theorem neg_one_toNat {C : Params F} {p : Pt C} (hp : r • p = 0) : Fp.toNat (-1 : Fp r) • p = -p := by
  have h := comb_toNat hp 0 1 0 (0 : Fp r)
  have h0 : Fp.toNat (0 : Fp r) = 0 := by rw [← Nat.cast_zero, Fp.toNat_natCast, Nat.zero_mod]
  have h1 : Fp.toNat (1 : Fp r) = 1 := by
    rw [← Nat.cast_one, Fp.toNat_natCast, Nat.mod_eq_of_lt (Fact.out : r.Prime).one_lt]
  rw [h0, h1, zero_smul, zero_smul, one_smul, zero_sub, add_zero, zero_mul, add_zero, zero_sub] at h
  exact h.symm

theorem kzg_exact {C1 : Params L} {C2 : Params F} (h1 : Good C1) (h2 : Good C2) {g : Aff L} {h : Aff F}
    {pairing : Aff L → Aff F → Option K} {multi : List (Aff L × Aff F) → Option K} (hc : CheckClaim C1 C2 r g h pairing multi)
    {G : Pt C1} {H : Pt C2} (hG : ARep C1 g G) (hGr : r • G = 0) (hH : ARep C2 h H) (hHr : r • H = 0) (tau z y a b : Fp r)
    {c w : Proj L} (ha : PRep C1 c (Fp.toNat a • G)) (hb : PRep C1 w (Fp.toNat b • G)) :
    multi (kzgPairs C1 g h (Aff.mul C2 h (Fp.toRepr tau)).toAffine c z y w) = some 1 ↔ a - y = b * (tau - z) := by
  have hy := (C23_mul h1 PRep.identity hG y).2
  have hz := (C23_mul h1 hb hG z).1
  have hs := ((ha.sub h1 hy).add h1 hz).toAffine
  rw [comb_toNat hGr] at hs
  have hs' := (C23_mul h1 PRep.identity hG (a - y + z * b)).2.toAffine
  have hw' := (C23_mul h1 PRep.identity hG b).2.toAffine
  have hn' := (C23_mul h2 PRep.identity hH (-1 : Fp r)).2.toAffine
  rw [neg_one_toNat hHr] at hn'
  have e1 := (hs.ext_iff h1 hs').mpr rfl
  have e2 := (hb.toAffine.ext_iff h1 hw').mpr rfl
  have e3 := (hH.neg.ext_iff h2 hn').mpr rfl
  have hp := hc.product [(b, tau), (a - y + z * b, -1)]
  simp only [List.map_cons, List.map_nil, List.sum_cons, List.sum_nil] at hp
  rw [kzgPairs, e1, e2, e3, hp]
  constructor
  · intro h
    linear_combination -h
  · intro h
    linear_combination -h

theorem kzgClaim_of {C1 : Params L} {C2 : Params F} (h1 : Good C1) (h2 : Good C2) {g : Aff L} {h : Aff F}
    {pairing : Aff L → Aff F → Option K} {multi : List (Aff L × Aff F) → Option K} (hc : CheckClaim C1 C2 r g h pairing multi)
    (hg : InGroup C1 r g) (hh : InGroup C2 r h) : KzgClaim C1 C2 r g h multi := by
  obtain ⟨G, hG, hGr⟩ := hg
  obtain ⟨H, hH, hHr⟩ := hh
  refine ⟨fun ln hln tau z n hn f hf => ?_, fun tau z y a b c w hcq hcv hwq hwv => ?_⟩
  · have hR : ∀ j < n, ∃ P, ((List.range n).map fun j => Aff.mul C1 g (Fp.toRepr (tau ^ j)))[j]? = some P ∧
        PRep C1 P (Fp.toNat (tau ^ j) • G) := fun j hj =>
      ⟨_, by rw [List.getElem?_map, List.getElem?_range hj]; rfl, (C23_mul h1 PRep.identity hG (tau ^ j)).2⟩
    have hlen : ((List.range n).map fun j => Aff.mul C1 g (Fp.toRepr (tau ^ j))).length = n := by rw [List.length_map, List.length_range]
    have f2 := forall₂_affine (C := C1) hlen hR
    have com (f : (Fp r)[X]) (hf : f.natDegree < n) : ∃ c, kzgCommit C1 ln
        (((List.range n).map fun j => Aff.mul C1 g (Fp.toRepr (tau ^ j))).map Proj.toAffine) (coeffs f n) = some c ∧
        PRep C1 c (Fp.toNat (f.eval tau) • G) := by
      obtain ⟨R, e, hR1⟩ := C30_serial h1 hln (coeffs f n) f2 (by rw [List.length_map, hlen]; exact hn)
      rw [msmValue, coeffs, msm_range, sum_toNat_smul hGr, ← eval_eq_sum_range' hf] at hR1
      exact ⟨R, e, hR1⟩
    have hq : (f /ₘ (X - C z)).natDegree < n := by
      rw [natDegree_divByMonic f (monic_X_sub_C z)]
      omega
    obtain ⟨c, ec, hc'⟩ := com f hf
    obtain ⟨w, ew, hw'⟩ := com _ hq
    refine ⟨_, c, w, by rw [kzgSetup, C22_batch_normalize, if_pos hlen], ec, ew, fun y => ?_⟩
    rw [kzg_exact h1 h2 hc hG hGr hH hHr tau z y _ _ hc' hw']
    have hd := congrArg (eval tau) (modByMonic_add_div f (X - C z))
    rw [modByMonic_X_sub_C_eq_C_eval, eval_add, eval_C, eval_mul, eval_sub, eval_X, eval_C] at hd
    constructor
    · intro h
      linear_combination -hd - h
    · rintro rfl
      linear_combination -hd
  · obtain ⟨P, hP⟩ := hcv
    obtain ⟨Q, hQ⟩ := hwv
    have ea := (C22_eq h1 hP (C23_mul h1 PRep.identity hG a).2 ARep.identity ARep.identity).1.mp hcq
    have eb := (C22_eq h1 hQ (C23_mul h1 PRep.identity hG b).2 ARep.identity ARep.identity).1.mp hwq
    exact kzg_exact h1 h2 hc hG hGr hH hHr tau z y a b (ea ▸ hP) (eb ▸ hQ)

end Scheme

/-- **C78** bn256. -/
theorem C78_bn256 : KzgClaim Bn256.g1 Bn256.g2 bnR Bn256.g1Gen Bn256.g2Gen (fun ts => Bn256.finalExp (Bn256.multiMillerLoop ts)) :=
  kzgClaim_of Bn256.g1_good Bn256.g2_good C64_bn256 C49_generators.1.1 C49_generators.1.2.1

/-- **C78** bls12381. -/
theorem C78_bls12381 : KzgClaim Bls12381.g1 Bls12381.g2 blsR Bls12381.g1Gen Bls12381.g2Gen
    (fun ts => Bls12381.finalExp (Bls12381.multiMillerLoop ts)) :=
  kzgClaim_of Bls12381.g1_good Bls12381.g2_good C64_bls12381 C49_generators.2.1.1 C49_generators.2.1.2.1

/-- **C78** pluto. -/
theorem C78_pluto : KzgClaim Pluto.g1 Pluto.g2 plQ Pluto.g1Gen Pluto.g2Gen (fun ts => Pluto.finalExp (Pluto.multiMillerLoop ts)) :=
  kzgClaim_of Pluto.g1_good Pluto.g2_good C64_pluto C49_generators.2.2.1 C49_generators.2.2.2.1

/-- Opening the polynomial `X` with a setup of size two. -/
example (tau z : Fp bnR) : ∃ srs c w, kzgSetup Bn256.g1 Bn256.g1Gen tau 2 = some srs ∧
    kzgCommit Bn256.g1 (fun _ => 4) srs (coeffs (X : (Fp bnR)[X]) 2) = some c ∧
    kzgCommit Bn256.g1 (fun _ => 4) srs (coeffs ((X : (Fp bnR)[X]) /ₘ (X - C z)) 2) = some w ∧
    ∀ y, Bn256.finalExp (Bn256.multiMillerLoop (kzgPairs Bn256.g1 Bn256.g1Gen Bn256.g2Gen
      (Aff.mul Bn256.g2 Bn256.g2Gen (Fp.toRepr tau)).toAffine c z y w)) = some 1 ↔ y = (X : (Fp bnR)[X]).eval z :=
  C78_bn256.opens _ (fun _ _ _ => ⟨by norm_num, by norm_num⟩) tau z 2 (by norm_num) X (by rw [natDegree_X]; norm_num)

end Halo2.Props
