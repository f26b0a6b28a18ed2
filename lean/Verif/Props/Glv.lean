import Verif.Glv.Lemmas
import Verif.Props.Consts

/-!
# Scalar decomposition: C24
-/

namespace Halo2.Props

open Halo2 Halo2.Field Halo2.Prime Halo2.Glv

theorem spec_paramsBn : Spec paramsBn (Fp.zeta bnR bnRZeta) := by
  rw [Fp.zeta, Fp.constElem_eq]
  exact decompose_spec paramsBn bnRZeta (by decide +kernel) (by decide +kernel)
    (0x6f4d8248eeb859fc8211bbeb7d4f1128) (-0x89d3256894d213e3) 0x14ee37d3e52329dff71dfeba0ae59e71b67a59f4814d4d8424652cc2a81f4c29 0x3e59388fe18f17e5fec7030d27930cfbd5e82c8464741165001b1ef4f009a9b (by decide +kernel)

theorem spec_paramsGrumpkin : Spec paramsGrumpkin (Fp.zeta bnQ bnQZeta) := by
  rw [Fp.zeta, Fp.constElem_eq]
  exact decompose_spec paramsGrumpkin bnQZeta (by decide +kernel) (by decide +kernel)
    (0x6f4d8248eeb859fc8211bbeb7d4f1129) (-0x89d3256894d213e2) 0x6e3c0124b1b4aaf53aef83530ba011d7d8add758ea26e9db7f14de1353f96c2 0x263f6a3a4542b279eece758d3d339a2bfec70c6aeb66eda7d6f738c70ff7ffa7 (by decide +kernel)

theorem spec_paramsBls : Spec paramsBls (Fp.zeta blsR blsRZeta) := by
  rw [Fp.zeta, Fp.constElem_eq]
  exact decompose_spec paramsBls blsRZeta (by decide +kernel) (by decide +kernel)
    (0xac45a4010001a40200000000ffffffff) (-0x1) 0x1824b159acc5056f998c4fefecbc4ff55884b7fa0003480200000001fffffffe 0x19a41e8f93f4d35b5b7d9ee0ba21f19c5521756b9d6de87592d9090d093011d0 (by decide +kernel)

theorem spec_paramsEq : Spec paramsEq ((zetaPaP : ℕ) : Fp paP) := by
  exact decompose_spec paramsEq zetaPaP (by decide +kernel) (by decide +kernel)
    (0x49e69d1640f049157fcae1c700000000) (-0x49e69d1640a899538cb1279300000001) 0x186bf7a9a173055e2105053092fe66a0bfe04099c465e30301b3ceecfffffffd 0x30d7ef5342bfa649a10763588a5b8558e8fd476ce96462dc9bb578bdfffffffe (by decide +kernel)

theorem spec_paramsEp : Spec paramsEp ((zetaPaQ : ℕ) : Fp paQ) := by
  exact decompose_spec paramsEp zetaPaQ (by decide +kernel) (by decide +kernel)
    (0x49e69d1640f049157fcae1c700000001) (-0x49e69d1640a899538cb1279300000000) 0x186bf7a9a1203e9552a568b65c85c76d0e0a5d03258217c359824cd500000001 0x30d7ef53421a18b80447da18446bf0a4cedde66ce9b7da38b5820455fffffffe (by decide +kernel)

/-- **C24** For every scalar `k`, both halves returned by `decompose_scalar` fit in 128 bits, and with the returned signs
`k = ±k1 - ZETA * (±k2)`; for bn256 G1, grumpkin, bls12381 (G1 and G2), vesta and pallas. -/
theorem C24_decompose :
    Spec paramsBn (Fp.zeta bnR bnRZeta) ∧
    Spec paramsGrumpkin (Fp.zeta bnQ bnQZeta) ∧
    Spec paramsBls (Fp.zeta blsR blsRZeta) ∧
    Spec paramsEq ((zetaPaP : ℕ) : Fp paP) ∧
    Spec paramsEp ((zetaPaQ : ℕ) : Fp paQ) :=
  ⟨spec_paramsBn, spec_paramsGrumpkin, spec_paramsBls, spec_paramsEq, spec_paramsEp⟩

/-- `Spec` spelled out. -/
theorem C24_spec_iff {p : ℕ} [Fact (OddModulus p)] (params : EndoParams) (zeta : Fp p) : Spec params zeta ↔
    ∀ k : Fp p, ∀ k1 n1 k2 n2, decompose params zeta k = (k1, n1, k2, n2) →
      k1 < 2 ^ 128 ∧ k2 < 2 ^ 128 ∧
      k = (if n1 then -((k1 : ℕ) : Fp p) else ((k1 : ℕ) : Fp p)) - zeta * (if n2 then -((k2 : ℕ) : Fp p) else ((k2 : ℕ) : Fp p)) := by
  have hs : ∀ (b : Bool) (n : ℕ), ((signed b n : ℤ) : Fp p) = if b then -((n : ℕ) : Fp p) else ((n : ℕ) : Fp p) := by
    intro b n
    cases b
    · rw [signed, if_neg (by decide), if_neg (by decide), Int.cast_natCast]
    · rw [signed, if_pos rfl, if_pos rfl, Int.cast_neg, Int.cast_natCast]
  constructor
  · intro h k k1 n1 k2 n2 he
    have := h k
    rw [he] at this
    rw [← hs, ← hs]
    exact this
  · intro h k
    have := h k _ _ _ _ rfl
    rw [← hs, ← hs] at this
    exact this

/-- **C24** Used on points: in a group where `P` is killed by the scalar modulus and the endomorphism multiplies `P` by `ZETA`,
`[k]P = ±[k1]P - (±[k2]φ(P))`. -/
theorem C24_points {G : Type} [AddCommGroup G] {p : ℕ} [Fact (OddModulus p)] (params : EndoParams) (zeta : Fp p)
    (h : Spec params zeta) (φ : G → G) (P : G) (hP : p • P = 0) (hφ : φ P = zeta.toNat • P) (k : Fp p) :
    k.toNat • P = signed (decompose params zeta k).2.1 (decompose params zeta k).1 • P -
      signed (decompose params zeta k).2.2.2 (decompose params zeta k).2.2.1 • φ P := by
  obtain ⟨_, _, h3⟩ := h k
  generalize signed (decompose params zeta k).2.1 (decompose params zeta k).1 = s1 at *
  generalize signed (decompose params zeta k).2.2.2 (decompose params zeta k).2.2.1 = s2 at *
  have e : (((k.toNat : ℤ) - (s1 - zeta.toNat * s2) : ℤ) : Fp p) = 0 := by
    push_cast
    rw [Fp.natCast_toNat, Fp.natCast_toNat]
    linear_combination h3
  rw [CharP.intCast_eq_zero_iff (Fp p) p] at e
  obtain ⟨c, hc⟩ := e
  have : ((k.toNat : ℤ) - (s1 - zeta.toNat * s2)) • P = 0 := by
    rw [hc, mul_comm, mul_smul, natCast_zsmul, hP, smul_zero]
  rw [sub_smul, sub_smul, sub_eq_zero, natCast_zsmul, mul_comm, mul_smul, natCast_zsmul, ← hφ] at this
  exact this

/-- The decomposition of `-1` in bn256's scalar field, computed by the model. -/
example : (Fp.toNat (-1 : Fp bnR) = bnR - 1) ∧ (decompose paramsBn (Fp.zeta bnR bnRZeta) (-1)).1 < 2 ^ 128 :=
  ⟨by rw [Fp.toNat_neg _ (by rw [← Nat.cast_one, ← Nat.cast_zero, Ne, Fp.natCast_eq_iff]; decide +kernel),
      ← Nat.cast_one, Fp.toNat_natCast]; decide +kernel, (C24_decompose.1 (-1)).1⟩

end Halo2.Props
