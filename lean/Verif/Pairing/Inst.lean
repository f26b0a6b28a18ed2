import Verif.Pairing.Final
import Verif.Pairing.Miller
import Verif.Curve.Inst
import Verif.Ext.Cyclo
import Verif.Props.Ext

/-!
# The three pairing engines

The constants of the engines, and the facts about the target fields they use.
-/

set_option linter.unusedSectionVars false

namespace Halo2.Ext.Deg12

open ExtField

variable {F : Type} [CommRing F] [ExtField F] [LawfulExt F] [ExtField (Cubic F)]

/-- The `p^6`-power Frobenius is the conjugation. -/
theorem frob12_six (t1 t2 t12 : List F) (hf : ∀ a : F, frob 6 a = a)
    (hc : ∀ a : Cubic F, frob 6 a = Cubic.frob6 t1 t2 6 a) (h1 : t1.getD (6 % 6) 0 = 1)
    (h2 : t2.getD (6 % 6) 0 = 1) (h3 : t12.getD (6 % 12) 0 = -1) (x : Quad (Cubic F)) :
    frob12 t12 6 x = Quad.conjugate x := by
  rw [frob12, hc, hc, Cubic.frob6, Cubic.frob6, h1, h2, h3]
  simp only [hf]
  apply Quad.ext
  · apply Cubic.ext
    · rfl
    · change x.c0.c1 * 1 = x.c0.c1; ring
    · change x.c0.c2 * 1 = x.c0.c2; ring
  · apply Cubic.ext
    · change x.c1.c0 * -1 = -x.c1.c0; ring
    · change x.c1.c1 * 1 * -1 = -x.c1.c1; ring
    · change x.c1.c2 * 1 * -1 = -x.c1.c2; ring

end Halo2.Ext.Deg12

namespace Halo2

open Halo2.Field Halo2.Prime Halo2.Ext Halo2.Ext.Shadow Halo2.Curve Halo2.Pairing

/-! ## Bn256 -/

namespace Bn256

/-- Models src/bn256/mod.rs:17 (`BN_X`). -/
def bnX : ℕ := 4965661367192848881

/-- Models src/bn256/mod.rs:20-24 (`SIX_U_PLUS_2_NAF`). -/
def sixUPlus2Naf : List ℤ := [
  0, 0, 0, 1, 0, 1, 0, -1, 0, 0, 1, -1, 0, 0, 1, 0, 0, 1, 1, 0, -1, 0, 0, 1, 0, -1, 0, 0, 0, 0,
  1, 1, 1, 0, 0, -1, 0, 0, 1, 0, 0, 0, 0, 0, -1, 0, 0, 1, 1, 0, 0, -1, 0, 0, 0, 1, 1, 0, -1, 0,
  0, 1, 0, 1, 1]

/-- Models src/bn256/engine.rs:165-178 (`XI_TO_Q_MINUS_1_OVER_2`). -/
def xiHalfRaw : List ℕ × List ℕ := (
  [0xe4bbdd0c2936b629, 0xbb30f162e133bacb, 0x31a9d1b6f9645366, 0x253570bea500f8dd],
  [0xa1d77ce45ffe77c7, 0x07affd117826d1db, 0x6d16bd27bb7edc6b, 0x2c87200285defecc])

/-- The constant as an element of the field. -/
def xiHalf : Fq2 := montPair xiHalfRaw

/-- The point `q1`. Models src/bn256/engine.rs:181-185. -/
def q1 (q : Aff Fq2) : Aff Fq2 := ⟨Quad.conjugate q.x * frob6C1.getD 1 0, Quad.conjugate q.y * xiHalf⟩

/-- The point `minusq2`. Models src/bn256/engine.rs:190-191. -/
def minusq2 (q : Aff Fq2) : Aff Fq2 := ⟨q.x * frob6C1.getD 2 0, q.y⟩

/-- The operations of `Fq12` used by the Miller loop. -/
def millerOps : MillerOps Fq Fq2 Fq12 := ⟨1, ExtField.sqr, ell034⟩

/-- Models src/bn256/engine.rs:129-196 (`multi_miller_loop`). -/
def multiMillerLoop (terms : List (Aff Fq × Aff Fq2)) : Fq12 := nafMiller millerOps sixUPlus2Naf q1 minusq2 terms

/-- The operations of `Fq12` used by the final exponentiation. -/
def finalOps : FinalOps Fq12 := ⟨Quad.conjugate, ExtField.frob, Deg12.cyclotomicSquare, ExtField.invert⟩

/-- Models src/bn256/engine.rs:26-126 (`final_exponentiation`); `none` is the panic of `unwrap`. -/
def finalExp (f : Fq12) : Option Fq12 := bnFinalExp finalOps bnX f

/-- Models src/derive/pairing.rs:24-26 (`pairing`). -/
def pairing (p : Aff Fq) (q : Aff Fq2) : Option Fq12 := finalExp (multiMillerLoop [(p, q)])

theorem conj_12 (x : Fq12) : Quad.conjugate x = x ^ bnQ ^ 6 := by
  rw [← frob_12]
  refine (Deg12.frob12_six frob6C1 frob6C2 frob12C1 (fun _ => rfl) (fun _ => rfl) ?_ ?_ ?_ x).symm
  · rw [frob6C1_eq, getD_map _ _ (by decide +kernel), ← cast_one]
    exact cast_eq_of _ _ (by decide +kernel) (by decide +kernel)
  · rw [frob6C2_eq, getD_map _ _ (by decide +kernel), ← cast_one]
    exact cast_eq_of _ _ (by decide +kernel) (by decide +kernel)
  · rw [frob12C1_eq, getD_map _ _ (by decide +kernel), eq_neg_iff_add_eq_zero, ← cast_one, cast_add]
    exact (cast_eq_of _ (0, 0) (by decide +kernel) (by decide +kernel)).trans (by ext <;> exact Nat.cast_zero)

theorem pow_card_12 (x : Fq12) : x ^ bnQ ^ 12 = x := by
  have e : bnQ ^ 12 = bnQ ^ 6 * bnQ ^ 6 := by rw [← pow_add]
  rw [e, pow_mul, ← conj_12, ← conj_12]
  apply Quad.ext
  · rfl
  · exact neg_neg _

theorem finalLaws : FinalLaws finalOps bnQ where
  conj_eq := conj_12
  frob_eq := frob_12
  cyc_eq x h := cyclotomicSquare_eq x h
  invert_iff := LawfulExt.invert_iff
  card x hx := by
    have h := pow_card_12 x
    have e : bnQ ^ 12 = (bnQ ^ 12 - 1) + 1 := by decide +kernel
    rw [e, pow_succ] at h
    exact mul_right_cancel₀ hx (h.trans (one_mul x).symm)

/-- The bits `exp_by_x` reads are those of `BN_X`. -/
theorem bnX_bits : Curve.bitsVal ((List.range 64).reverse.map fun i => decide ((bnX >>> i) &&& 1 = 1)) = bnX := by
  decide +kernel

theorem exp_ok : phi12 bnQ % bnR = 0 ∧ bnExp bnQ bnX % phi12 bnQ = 1 * (phi12 bnQ / bnR) % phi12 bnQ := by
  decide +kernel

theorem finalExp_eq (f : Fq12) (hf : f ≠ 0) : finalExp f = some (f ^ ((bnQ ^ 12 - 1) / bnR)) := by
  have hi : finalOps.invert f = some f⁻¹ := (finalLaws.invert_iff _ _).mpr (mul_inv_cancel₀ hf)
  obtain ⟨h1, h2⟩ := easy_part finalLaws (by decide +kernel) (mul_inv_cancel₀ hf)
  rw [finalExp, bnFinalExp, hi, Option.map_some, finalLaws.conj_eq,
    bnChain_pow finalLaws _ bnX _ _ _ h1 h2 (fun k => finalLaws.expLoop_pow h2 bnX 64 bnX_bits k),
    pow_hard (by decide +kernel) (by decide +kernel) h2 exp_ok.1 exp_ok.2, one_mul]

theorem finalExp_zero : finalExp 0 = none := by
  have h : finalOps.invert 0 = none := by
    cases h : finalOps.invert 0 with
    | none => rfl
    | some y => exact absurd ((finalLaws.invert_iff _ _).mp h) (by rw [zero_mul]; exact zero_ne_one)
  unfold finalExp bnFinalExp
  rw [h]
  rfl

/-- The sparse element `ell` multiplies by. -/
def lineAt (c : Coeffs Fq2) (p : Aff Fq) : Fq12 := ⟨⟨scaleBy c.a p.y, 0, 0⟩, ⟨scaleBy c.b p.x, c.c, 0⟩⟩

theorem millerLaws : MillerLaws millerOps lineAt where
  one_eq := rfl
  square_eq f := LawfulExt.sqr_eq f
  ell_eq f _ _ := Props.C15_mul_by_034 f _ _ _

end Bn256

/-! ## Bls12381 -/

namespace Bls12381

/-- Models src/bls12381/mod.rs:19-22 (`BLS_X`). -/
def blsX : List ℕ := [
  1, 1, 0, 1, 0, 0, 1, 0, 0, 0, 0, 0, 0, 0, 0, 1, 0, 0, 0, 0, 0, 0, 0, 0, 0, 0, 0, 0, 0, 0, 0, 0,
  0, 0, 0, 0, 0, 0, 0, 0, 0, 0, 0, 0, 0, 0, 0, 1, 0, 0, 0, 0, 0, 0, 0, 0, 0, 0, 0, 0, 0, 0, 0, 0]

/-- The operations of `Fq12` used by the Miller loop. -/
def millerOps : MillerOps Fq Fq2 Fq12 := ⟨1, ExtField.sqr, ell014⟩

/-- Models src/bls12381/engine.rs:72-105 (`multi_miller_loop`). -/
def multiMillerLoop (terms : List (Aff Fq × Aff Fq2)) : Fq12 := bitMiller millerOps Quad.conjugate blsX terms

/-- The operations of `Fq12` used by the final exponentiation. -/
def finalOps : FinalOps Fq12 := ⟨Quad.conjugate, ExtField.frob, Deg12.cyclotomicSquare, ExtField.invert⟩

/-- Models src/bls12381/engine.rs:24-69 (`final_exponentiation`); `none` is the panic of `unwrap`. -/
def finalExp (f : Fq12) : Option Fq12 := blsFinalExp finalOps blsX f

/-- Models src/derive/pairing.rs:24-26 (`pairing`). -/
def pairing (p : Aff Fq) (q : Aff Fq2) : Option Fq12 := finalExp (multiMillerLoop [(p, q)])

theorem conj_12 (x : Fq12) : Quad.conjugate x = x ^ blsQ ^ 6 := by
  rw [← frob_12]
  refine (Deg12.frob12_six frob6C1 frob6C2 frob12C1 (fun _ => rfl) (fun _ => rfl) ?_ ?_ ?_ x).symm
  · rw [frob6C1_eq, getD_map _ _ (by decide +kernel), ← cast_one]
    exact cast_eq_of _ _ (by decide +kernel) (by decide +kernel)
  · rw [frob6C2_eq, getD_map _ _ (by decide +kernel), ← cast_one]
    exact cast_eq_of _ _ (by decide +kernel) (by decide +kernel)
  · rw [frob12C1_eq, getD_map _ _ (by decide +kernel), eq_neg_iff_add_eq_zero, ← cast_one, cast_add]
    exact (cast_eq_of _ (0, 0) (by decide +kernel) (by decide +kernel)).trans (by ext <;> exact Nat.cast_zero)

theorem pow_card_12 (x : Fq12) : x ^ blsQ ^ 12 = x := by
  have e : blsQ ^ 12 = blsQ ^ 6 * blsQ ^ 6 := by rw [← pow_add]
  rw [e, pow_mul, ← conj_12, ← conj_12]
  apply Quad.ext
  · rfl
  · exact neg_neg _

theorem finalLaws : FinalLaws finalOps blsQ where
  conj_eq := conj_12
  frob_eq := frob_12
  cyc_eq x h := cyclotomicSquare_eq x h
  invert_iff := LawfulExt.invert_iff
  card x hx := by
    have h := pow_card_12 x
    have e : blsQ ^ 12 = (blsQ ^ 12 - 1) + 1 := by decide +kernel
    rw [e, pow_succ] at h
    exact mul_right_cancel₀ hx (h.trans (one_mul x).symm)

/-- The absolute value of the parameter. -/
def blsXAbs : ℕ := 0xd201000000010000

theorem blsX_bits : Curve.bitsVal (blsX.map fun b => decide (b = 1)) = blsXAbs := by decide +kernel

theorem exp_ok : phi12 blsQ % blsR = 0 ∧
    blsExp blsQ (blsXAbs * blsQ ^ 6) % phi12 blsQ = 3 * (phi12 blsQ / blsR) % phi12 blsQ := by
  decide +kernel

theorem finalExp_eq (f : Fq12) (hf : f ≠ 0) : finalExp f = some (f ^ (3 * ((blsQ ^ 12 - 1) / blsR))) := by
  have hi : finalOps.invert f = some f⁻¹ := (finalLaws.invert_iff _ _).mpr (mul_inv_cancel₀ hf)
  obtain ⟨h1, h2⟩ := easy_part finalLaws (by decide +kernel) (mul_inv_cancel₀ hf)
  rw [finalExp, blsFinalExp, hi, Option.map_some, finalLaws.frob_eq,
    blsChain_pow finalLaws _ (blsXAbs * blsQ ^ 6) _ _ _ h1 h2 (fun k => finalLaws.blsExpByX_pow h2 blsX blsXAbs blsX_bits k),
    pow_hard (by decide +kernel) (by decide +kernel) h2 exp_ok.1 exp_ok.2]

theorem finalExp_zero : finalExp 0 = none := by
  have h : finalOps.invert 0 = none := by
    cases h : finalOps.invert 0 with
    | none => rfl
    | some y => exact absurd ((finalLaws.invert_iff _ _).mp h) (by rw [zero_mul]; exact zero_ne_one)
  unfold finalExp blsFinalExp
  rw [h]
  rfl

/-- The sparse element `ell` multiplies by. -/
def lineAt (c : Coeffs Fq2) (p : Aff Fq) : Fq12 := ⟨⟨c.c, scaleBy c.b p.x, 0⟩, ⟨0, scaleBy c.a p.y, 0⟩⟩

theorem millerLaws : MillerLaws millerOps lineAt where
  one_eq := rfl
  square_eq f := LawfulExt.sqr_eq f
  ell_eq f _ _ := Props.C15_mul_by_014 f _ _ _

end Bls12381

/-! ## Pluto -/

namespace Pluto

/-- Models src/pluto_eris/engine.rs:25 (`NEG_PLUTO_U`). -/
def negPlutoU : ℕ := 0x4000000000001000008780000000

/-- Models src/pluto_eris/engine.rs:27-32 (`NEG_SIX_U_PLUS_2_NAF`). -/
def negSixUPlus2Naf : List ℤ := [
  0, -1, 0, 0, 0, 0, 0, 0, 0, 0, 0, 0, 0, 0, 0, 0, 0, 0, 0, 0, 0, 0, 0, 0, 0, 0, 0, 0, 0, 0, 0,
  0, 1, 0, -1, 0, -1, 0, 1, 0, -1, 0, 1, 0, 0, 0, 0, 0, 0, 0, 0, 0, 0, 0, 0, 0, 0, 0, 0, 0, 0,
  -1, 0, 1, 0, 0, 0, 0, 0, 0, 0, 0, 0, 0, 0, 0, 0, 0, 0, 0, 0, 0, 0, 0, 0, 0, 0, 0, 0, 0, 0, 0,
  0, 0, 0, 0, 0, 0, 0, 0, 0, 0, 0, 0, 0, 0, 0, 0, 0, 0, 0, -1, 0, 1]

/-- Models src/pluto_eris/engine.rs:74-94 (`XI_TO_P_MINUS_1_OVER_2`). -/
def xiHalfRaw : List ℕ × List ℕ := (
  [0x54cf5ad1c0926216, 0x186c1f3ce4a46d4e, 0x9c23800ce9c9452f, 0x50e0d09ff6d6c08b, 0x7cf421e4d46f6666,
    0x678664ba4b6d8343, 0x21cc26d5de0f80f4],
  [0xc0505f4c260e91f4, 0xe7bbd15f10723657, 0xb4b3e0c35358097e, 0x87c56f42a558750d, 0x4b7211d23f34f0ae,
    0xf6839d29e2f0d250, 0x16ebe8b2e12a1106])

/-- The constant as an element of the field. -/
def xiHalf : Fp2 := rawPair xiHalfRaw

/-- The point `q1`. Models src/pluto_eris/engine.rs:97-101. -/
def q1 (q : Aff Fp2) : Aff Fp2 := ⟨Quad.conjugate q.x * frob6C1.getD 1 0, Quad.conjugate q.y * xiHalf⟩

/-- The point `minusq2`. Models src/pluto_eris/engine.rs:106-107. -/
def minusq2 (q : Aff Fp2) : Aff Fp2 := ⟨q.x * frob6C1.getD 2 0, q.y⟩

/-- The operations of `Fp12` used by the Miller loop. -/
def millerOps : MillerOps Fp1 Fp2 Fp12 := ⟨1, ExtField.sqr, ell034⟩

/-- Models src/pluto_eris/engine.rs:37-112 (`multi_miller_loop`); here the points added at the end are negated. -/
def multiMillerLoop (terms : List (Aff Fp1 × Aff Fp2)) : Fp12 :=
  nafMiller millerOps negSixUPlus2Naf (fun q => (q1 q).neg) (fun q => (minusq2 q).neg) terms

/-- The operations of `Fp12` used by the final exponentiation. -/
def finalOps : FinalOps Fp12 := ⟨Quad.conjugate, ExtField.frob, Deg12.cyclotomicSquare, ExtField.invert⟩

/-- Models src/pluto_eris/engine.rs:117-217 (`final_exponentiation`); `none` is the panic of `unwrap`. -/
def finalExp (f : Fp12) : Option Fp12 := plutoFinalExp finalOps negPlutoU f

/-- Models src/derive/pairing.rs:24-26 (`pairing`). -/
def pairing (p : Aff Fp1) (q : Aff Fp2) : Option Fp12 := finalExp (multiMillerLoop [(p, q)])

theorem conj_12 (x : Fp12) : Quad.conjugate x = x ^ plP ^ 6 := by
  rw [← frob_12]
  refine (Deg12.frob12_six frob6C1 frob6C2 frob12C1 (fun _ => rfl) (fun _ => rfl) ?_ ?_ ?_ x).symm
  · rw [frob6C1_eq, getD_map _ _ (by decide +kernel), ← cast_one]
    exact cast_eq_of _ _ (by decide +kernel) (by decide +kernel)
  · rw [frob6C2_eq, getD_map _ _ (by decide +kernel), ← cast_one]
    exact cast_eq_of _ _ (by decide +kernel) (by decide +kernel)
  · rw [frob12C1_eq, getD_map _ _ (by decide +kernel), eq_neg_iff_add_eq_zero, ← cast_one, cast_add]
    exact (cast_eq_of _ (0, 0) (by decide +kernel) (by decide +kernel)).trans (by ext <;> exact Nat.cast_zero)

theorem pow_card_12 (x : Fp12) : x ^ plP ^ 12 = x := by
  have e : plP ^ 12 = plP ^ 6 * plP ^ 6 := by rw [← pow_add]
  rw [e, pow_mul, ← conj_12, ← conj_12]
  apply Quad.ext
  · rfl
  · exact neg_neg _

theorem finalLaws : FinalLaws finalOps plP where
  conj_eq := conj_12
  frob_eq := frob_12
  cyc_eq x h := cyclotomicSquare_eq x h
  invert_iff := LawfulExt.invert_iff
  card x hx := by
    have h := pow_card_12 x
    have e : plP ^ 12 = (plP ^ 12 - 1) + 1 := by decide +kernel
    rw [e, pow_succ] at h
    exact mul_right_cancel₀ hx (h.trans (one_mul x).symm)

/-- The bits `exp_by_x` reads are those of `NEG_PLUTO_U`. -/
theorem negPlutoU_bits :
    Curve.bitsVal ((List.range 111).reverse.map fun i => decide ((negPlutoU >>> i) &&& 1 = 1)) = negPlutoU := by
  decide +kernel

theorem exp_ok : phi12 plP % plQ = 0 ∧
    bnExp plP (negPlutoU * plP ^ 6) % phi12 plP = 1 * (phi12 plP / plQ) % phi12 plP := by
  decide +kernel

theorem finalExp_eq (f : Fp12) (hf : f ≠ 0) : finalExp f = some (f ^ ((plP ^ 12 - 1) / plQ)) := by
  have hi : finalOps.invert f = some f⁻¹ := (finalLaws.invert_iff _ _).mpr (mul_inv_cancel₀ hf)
  obtain ⟨h1, h2⟩ := easy_part finalLaws (by decide +kernel) (mul_inv_cancel₀ hf)
  rw [finalExp, plutoFinalExp, hi, Option.map_some, finalLaws.conj_eq,
    bnChain_pow finalLaws _ (negPlutoU * plP ^ 6) _ _ _ h1 h2 (fun k => by
      rw [finalLaws.expLoop_pow h2 negPlutoU 111 negPlutoU_bits k, finalLaws.conj_pow, mul_assoc]),
    pow_hard (by decide +kernel) (by decide +kernel) h2 exp_ok.1 exp_ok.2, one_mul]

theorem finalExp_zero : finalExp 0 = none := by
  have h : finalOps.invert 0 = none := by
    cases h : finalOps.invert 0 with
    | none => rfl
    | some y => exact absurd ((finalLaws.invert_iff _ _).mp h) (by rw [zero_mul]; exact zero_ne_one)
  unfold finalExp plutoFinalExp
  rw [h]
  rfl

/-- The sparse element `ell` multiplies by. -/
def lineAt (c : Coeffs Fp2) (p : Aff Fp1) : Fp12 := ⟨⟨scaleBy c.a p.y, 0, 0⟩, ⟨scaleBy c.b p.x, c.c, 0⟩⟩

theorem millerLaws : MillerLaws millerOps lineAt where
  one_eq := rfl
  square_eq f := LawfulExt.sqr_eq f
  ell_eq f _ _ := Props.C15_mul_by_034 f _ _ _

end Pluto

end Halo2
