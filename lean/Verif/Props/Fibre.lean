import Verif.Hash.Fibre
import Verif.Curve.OrderInst
import Verif.Props.HashCurve

/-!
# The maps to the curves spread their inputs: C68
-/

set_option linter.unusedSectionVars false

namespace Halo2.Props

open Halo2 Halo2.Prime Halo2.Ext Halo2.Curve Halo2.Hash Halo2.Field

section Generic

variable {F : Type} [_root_.Field F] [DecidableEq F] [BaseField F] [LawfulBase F] [Finite F]

/-- What a bound `N` on the fibres means for a suite: no point is the image of more than `N` field elements, at least `q / N` points are
images, and no point is the sum of the two images for more than `N · q` of the `q²` pairs of field elements (`hash_to_curve` adds the
images of a pair). -/
structure Spread (C : Params F) (map : F → Option (Proj F)) (N : ℕ) : Prop where
  fibre : ∀ Q : Pt C, {u | ∃ P, map u = some P ∧ PRep C P Q}.ncard ≤ N
  image : Nat.card F ≤ N * {Q : Pt C | ∃ u P, map u = some P ∧ PRep C P Q}.ncard
  sum : ∀ T : Pt C, {w : F × F | ∃ P Q, map w.1 = some P ∧ map w.2 = some Q ∧ PRep C (Proj.add C P Q) T}.ncard ≤ N * Nat.card F

theorem Spread.of {C : Params F} (hC : Good C) {map : F → Option (Proj F)} {N : ℕ} (ht : ∀ u, ∃ P A, map u = some P ∧ PRep C P A)
    (hf : ∀ Q : Pt C, {u | ∃ P, map u = some P ∧ PRep C P Q}.ncard ≤ N) : Spread C map N := by
  have : Finite (Pt C) := (pt_card_le C).1
  refine ⟨hf, ?_, fun T => ?_⟩
  · refine card_le_of_fibre hf fun u => ?_
    obtain ⟨P, A, e, hP⟩ := ht u
    exact ⟨A, P, e, hP⟩
  · refine le_trans (Set.ncard_le_ncard ?_ (Set.toFinite _)) (ncard_sum_le (R := fun u (Q : Pt C) => ∃ P, map u = some P ∧ PRep C P Q) hf ?_ T)
    · rintro w ⟨P, Q, h1, h2, hT⟩
      obtain ⟨P', A, e1, hA⟩ := ht w.1
      obtain ⟨Q', B, e2, hB⟩ := ht w.2
      obtain rfl := Option.some.inj (h1.symm.trans e1)
      obtain rfl := Option.some.inj (h2.symm.trans e2)
      exact ⟨A, B, ⟨P, e1, hA⟩, ⟨Q, e2, hB⟩, (hA.add hC hB).unique hT⟩
    · rintro u A B ⟨P, e, hP⟩ ⟨Q, e', hQ⟩
      obtain rfl := Option.some.inj (e.symm.trans e')
      exact hP.unique hQ

/-- **C68** For every finite field, curve without points of order two and admissible `Z`: the SVDW map sends at most twelve field
elements to one point. -/
theorem C68_svdw {C : Params F} (hC : Good C) {z : F} (hz : SvdwZ C.a C.b z) {even : F → Prop} {sgn : F → F → Prop}
    {map : F → Option (Proj F)} (hm : IsSvdw C z even sgn map) : Spread C map 12 := by
  obtain ⟨s, hs, -, hm⟩ := hm
  have hs0 : s ≠ 0 := by
    rintro rfl
    rw [zero_pow (by decide)] at hs
    exact mul_ne_zero (neg_ne_zero.mpr hz.ne) hz.tne hs.symm
  refine Spread.of hC (fun u => ?_) (fun Q => ?_)
  · obtain ⟨P, A, e, hP, -⟩ := hm u
    exact ⟨P, A, e, hP⟩
  · have key : ∀ u, (∃ P, map u = some P ∧ PRep C P Q) → SvdwPt C z s sgn u Q := by
      rintro u ⟨P, e, hP⟩
      obtain ⟨P', A, e', hP', hA⟩ := hm u
      obtain rfl := Option.some.inj (e.symm.trans e')
      rw [hP.unique hP']
      exact hA
    by_cases hQ : ∃ x y h, Q = .some x y h
    · obtain ⟨x, y, h, rfl⟩ := hQ
      refine (Set.ncard_le_ncard ?_ (Set.toFinite _)).trans (svdwX_fibre hC.two hz hs0 x)
      intro u hu
      obtain ⟨x', y', h', e, hx, -⟩ := key u hu
      obtain ⟨rfl, -⟩ := (WeierstrassCurve.Affine.Point.some.injEq _ _ _ _ _ _).mp e
      exact hx
    · have : {u | ∃ P, map u = some P ∧ PRep C P Q} = ∅ := by
        ext u
        simp only [Set.mem_empty_iff_false, iff_false]
        intro hu
        obtain ⟨x, y, h, e, -⟩ := key u hu
        exact hQ ⟨x, y, h, e⟩
      rw [this, Set.ncard_empty]
      exact Nat.zero_le _

/-- At most `11 n` field elements have an SSWU abscissa in a set of at most `n`. -/
theorem sswu_set {a b z : F} (hz : SswuZ a b z) {S : Set F} {n : ℕ} (hS : S.ncard ≤ n) : {u | ∃ t ∈ S, SswuX a b z u t}.ncard ≤ 11 * n :=
  (ncard_fibre_le (R := fun u t => SswuX a b z u t) (fun t => sswuX_fibre hz t) S).trans (Nat.mul_le_mul_left _ hS)

/-- **C68** SSWU followed by a rational map whose abscissa has degree `n`: at most `11 n` field elements go to one point. -/
theorem C68_sswu_iso {C : Params F} {T : IsoTable F} {a b z : F} (hz : SswuZ a b z) {sgn : F → F → Prop} {n : ℕ} (hN : T.xnum.length = n + 1)
    (hn : T.xnum.getD n 0 ≠ 0) (hD : T.xden.length ≤ n) (Q : Pt C) :
    {u | ∃ t s, SswuPt a b z sgn u t s ∧ peval T.xden t ≠ 0 ∧ IsoPt C T t s Q}.ncard ≤ 11 * n := by
  by_cases hQ : ∃ x y h, Q = .some x y h
  · obtain ⟨x, y, h, rfl⟩ := hQ
    refine (Set.ncard_le_ncard ?_ (Set.toFinite _)).trans (sswu_set hz (ncard_ratio hN hn hD x))
    rintro u ⟨t, s, ⟨hx, -, -⟩, hd, h', e⟩
    obtain ⟨rfl, -⟩ := (WeierstrassCurve.Affine.Point.some.injEq _ _ _ _ _ _).mp e
    exact ⟨t, ⟨hd, rfl⟩, hx⟩
  · have : {u | ∃ t s, SswuPt a b z sgn u t s ∧ peval T.xden t ≠ 0 ∧ IsoPt C T t s Q} = ∅ := by
      ext u
      simp only [Set.mem_empty_iff_false, iff_false]
      rintro ⟨t, s, -, -, h', e⟩
      exact hQ ⟨_, _, h', e⟩
    rw [this, Set.ncard_empty]
    exact Nat.zero_le _

end Generic

/-- **C68** The SVDW suites. -/
theorem C68_shipped_svdw :
    Spread Bn256.g1 (svdwSuite Bn256.g1 (fpOps bnQ 3) 1) 12 ∧
    Spread Grumpkin.g1 (svdwSuite Grumpkin.g1 (fpOps bnR 7) 1) 12 ∧
    Spread Pluto.g1 (svdwSuite Pluto.g1 (fpOps plP 10) 1) 12 ∧
    Spread Pluto.eris (svdwSuite Pluto.eris (fpOps plQ 7) 1) 12 ∧
    Spread Secq256k1.c (svdwSuite Secq256k1.c (fpOps k1N 7) 1) 12 ∧
    Spread Bn256.g2 (svdwSuite Bn256.g2 Bn256.ops2 1) 12 := by
  obtain ⟨m1, m2, m3, m4, m5⟩ := C35_shipped
  exact ⟨C68_svdw Bn256.g1_good Bn256.g1_svdwZ m1, C68_svdw Grumpkin.g1_good Grumpkin.g1_svdwZ m2, C68_svdw Pluto.g1_good Pluto.g1_svdwZ m3,
    C68_svdw Pluto.eris_good Pluto.eris_svdwZ m4, C68_svdw Secq256k1.c_good Secq256k1.c_svdwZ m5,
    C68_svdw Bn256.g2_good Bn256.g2_svdwZ C35_g2_partial⟩

/-- **C68** secp256r1: at most eleven. -/
theorem C68_r1 : Spread Secp256r1.c r1Map 11 := by
  refine Spread.of Secp256r1.c_good (fun u => ?_) (fun Q => ?_)
  · obtain ⟨P, A, e, hP, -⟩ := C36_r1_suite u
    exact ⟨P, A, e, hP⟩
  · have key : ∀ u, (∃ P, r1Map u = some P ∧ PRep Secp256r1.c P Q) → ∃ t s h, Q = .some t s h ∧
        SswuX Secp256r1.c.a Secp256r1.c.b Secp256r1.sswuZ u t := by
      rintro u ⟨P, e, hP⟩
      obtain ⟨P', A, e', hP', t, s, h, hA, hx, -⟩ := C36_r1_suite u
      obtain rfl := Option.some.inj (e.symm.trans e')
      rw [hP.unique hP']
      exact ⟨t, s, h, hA, hx⟩
    by_cases hQ : ∃ x y h, Q = .some x y h
    · obtain ⟨x, y, h, rfl⟩ := hQ
      refine (Set.ncard_le_ncard ?_ (Set.toFinite _)).trans (sswuX_fibre Secp256r1.c_sswuZ x)
      intro u hu
      obtain ⟨x', y', h', e, hx⟩ := key u hu
      obtain ⟨rfl, -⟩ := (WeierstrassCurve.Affine.Point.some.injEq _ _ _ _ _ _).mp e
      exact hx
    · have : {u | ∃ P, r1Map u = some P ∧ PRep Secp256r1.c P Q} = ∅ := by
        ext u
        simp only [Set.mem_empty_iff_false, iff_false]
        intro hu
        obtain ⟨x, y, h, e, -⟩ := key u hu
        exact hQ ⟨x, y, h, e⟩
      rw [this, Set.ncard_empty]
      exact Nat.zero_le _

theorem k1_lead : (k1Table Secp256k1.kTab).xnum.getD 3 0 ≠ 0 := by
  change (Fp.ofRaw _ : Fp k1P) ≠ 0
  rw [Fp.ofRaw_eq _ (by decide +kernel), ne_eq, ← Nat.cast_zero, Fp.natCast_eq_iff]
  decide +kernel

theorem g1_lead : Bls12381.g1Iso.xnum.getD 11 0 ≠ 0 := by
  change (Fp.ofRaw _ : Fp blsQ) ≠ 0
  rw [Fp.ofRaw_eq _ (by decide +kernel), ne_eq, ← Nat.cast_zero, Fp.natCast_eq_iff]
  decide +kernel

/-- **C68** secp256k1: at most 33, eleven for each of the three points that the isogeny identifies. -/
theorem C68_k1 : Spread Secp256k1.c k1Map 33 := by
  refine Spread.of Secp256k1.c_good (fun u => ?_) (fun Q => ?_)
  · obtain ⟨P, A, t, s, e, hP, -⟩ := C37_k1_suite u
    exact ⟨P, A, e, hP⟩
  · refine (Set.ncard_le_ncard ?_ (Set.toFinite _)).trans (C68_sswu_iso (T := k1Table Secp256k1.kTab) (sgn := SameSign) Secp256k1.c_sswuZ (n := 3) rfl k1_lead (by decide) Q)
    rintro u ⟨P, e, hP⟩
    obtain ⟨P', A, t, s, e', hP', hS, hI⟩ := C37_k1_suite u
    obtain rfl := Option.some.inj (e.symm.trans e')
    rw [hP.unique hP']
    refine ⟨t, s, hS, fun hd => ?_, hI⟩
    have hy := hS.2.1
    rw [(Secp256k1.c_den _).1.mp hd] at hy
    exact ne_zero_of_nonsquare hy Secp256k1.kernelX_nonsquare

theorem g2_lead : Bls12381.g2Iso.xnum.getD 3 0 ≠ 0 := by
  rw [Bls12381.g2Iso_eq]
  change Bls12381.sh2.φ ((Bls12381.iso3Xnum.map Bls12381.mont2).getD 3 (0, 0)) ≠ 0
  rw [ne_eq, ← Bls12381.sh2.φ_zero, ← Bls12381.sh2.eq_iff]
  decide +kernel

/-- **C68** bls12381 G2: at most 33, before the cofactor is cleared. -/
theorem C68_bls_g2 : Spread Bls12381.g2 g2Map 33 := by
  refine Spread.of Bls12381.g2_good (fun u => ?_) (fun Q => ?_)
  · obtain ⟨P, A, t, s, e, hP, -⟩ := C37_g2_suite u
    exact ⟨P, A, e, hP⟩
  · refine (Set.ncard_le_ncard ?_ (Set.toFinite _)).trans (C68_sswu_iso (T := Bls12381.g2Iso) (sgn := SameSign2) Bls12381.g2_sswuZ (n := 3) rfl g2_lead (by decide) Q)
    rintro u ⟨P, e, hP⟩
    obtain ⟨P', A, t, s, e', hP', hS, hI⟩ := C37_g2_suite u
    obtain rfl := Option.some.inj (e.symm.trans e')
    rw [hP.unique hP']
    refine ⟨t, s, hS, fun hd => ?_, hI⟩
    have hy := hS.2.1
    rw [(Bls12381.g2_den _).1.mp hd] at hy
    exact ne_zero_of_nonsquare hy Bls12381.g2KernelX_nonsquare

/-- **C68** bls12381 G1, before the cofactor is cleared: at most 121 field elements go to one point, and at most 55 to the invalid
triple `(0, 0, 0)` (see `C37_g1_false`). -/
theorem C68_bls_g1 :
    (∀ Q : Pt Bls12381.g1, {u | ∃ P, g1Map u = some P ∧ PRep Bls12381.g1 P Q}.ncard ≤ 121) ∧
    {u | g1Map u = some ⟨0, 0, 0⟩}.ncard ≤ 55 ∧
    ∀ u, g1Map u = some ⟨0, 0, 0⟩ ∨ ∃ P A, g1Map u = some P ∧ PRep Bls12381.g1 P A := by
  have key : ∀ u P, g1Map u = some P → Proj.Valid Bls12381.g1 P → ∃ t s A,
      SswuPt Bls12381.g1IsoA Bls12381.g1IsoB Bls12381.g1SswuZ SameSign u t s ∧ peval Bls12381.g1Iso.xden t ≠ 0 ∧
      PRep Bls12381.g1 P A ∧ IsoPt Bls12381.g1 Bls12381.g1Iso t s A := by
    intro u P e hV
    obtain ⟨P', t, s, e', hS, h1, h2⟩ := C37_g1_suite_partial u
    obtain rfl := Option.some.inj (e.symm.trans e')
    by_cases hk : ∃ r ∈ Bls12381.g1KernelX, t = (r : ℕ)
    · rw [h2 hk] at hV
      exact absurd hV not_valid_zero
    · obtain ⟨A, hA, hI⟩ := h1 fun r hr e => hk ⟨r, hr, e⟩
      exact ⟨t, s, A, hS, fun hd => hk ((Bls12381.g1_den _).1.mp hd), hA, hI⟩
  refine ⟨fun Q => ?_, ?_, fun u => ?_⟩
  · refine (Set.ncard_le_ncard ?_ (Set.toFinite _)).trans (C68_sswu_iso (T := Bls12381.g1Iso) (sgn := SameSign) Bls12381.g1_sswuZ (n := 11) (by decide) g1_lead (by decide) Q)
    rintro u ⟨P, e, hP⟩
    obtain ⟨t, s, A, hS, hd, hA, hI⟩ := key u P e ⟨Q, hP⟩
    rw [hP.unique hA]
    exact ⟨t, s, hS, hd, hI⟩
  · have hc : {t : Bls12381.Fq | ∃ r ∈ Bls12381.g1KernelX, t = (r : ℕ)}.ncard ≤ 5 := by
      have : {t : Bls12381.Fq | ∃ r ∈ Bls12381.g1KernelX, t = (r : ℕ)} = ((Bls12381.g1KernelX.map fun r => ((r : ℕ) : Bls12381.Fq)).toFinset : Set Bls12381.Fq) := by
        ext t
        simp only [List.coe_toFinset, List.mem_map, Set.mem_ofPred_eq, eq_comm]
      rw [this, Set.ncard_coe_finset]
      refine (List.toFinset_card_le _).trans ?_
      rw [List.length_map]
      decide
    refine (Set.ncard_le_ncard ?_ (Set.toFinite _)).trans (sswu_set Bls12381.g1_sswuZ hc)
    intro u hu
    obtain ⟨P', t, s, e', hS, h1, h2⟩ := C37_g1_suite_partial u
    obtain rfl := Option.some.inj ((show g1Map u = _ from hu).symm.trans e')
    by_cases hk : ∃ r ∈ Bls12381.g1KernelX, t = (r : ℕ)
    · exact ⟨t, hk, hS.1⟩
    · obtain ⟨A, hA, -⟩ := h1 fun r hr e => hk ⟨r, hr, e⟩
      exact absurd ⟨A, hA⟩ not_valid_zero
  · obtain ⟨P, t, s, e, -, h1, h2⟩ := C37_g1_suite_partial u
    by_cases hk : ∃ r ∈ Bls12381.g1KernelX, t = (r : ℕ)
    · left
      rw [e, h2 hk]
    · right
      obtain ⟨A, hA, -⟩ := h1 fun r hr e => hk ⟨r, hr, e⟩
      exact ⟨P, A, e, hA⟩

/-- For secp256r1 the bound says: more than a twelfth of a `256`-bit number of points are images. -/
example : 2 ^ 252 ≤ {Q : Pt Secp256r1.c | ∃ u P, r1Map u = some P ∧ PRep Secp256r1.c P Q}.ncard := by
  have h := C68_r1.image
  rw [card_fp] at h
  have : 11 * 2 ^ 252 ≤ r1P := by decide +kernel
  omega

end Halo2.Props
