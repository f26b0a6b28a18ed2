import Verif.Ext.Shadow
import Verif.Ext.Cyclo
import Verif.Prime.Moduli

/-!
# The extension tower of src/bn256

Concrete parameters, Frobenius tables and the facts about them: every level is a field, its
`ExtField` methods are lawful, and `frobenius_map` is the power map.
The tables are transcribed from the source by a script.
-/

namespace Halo2.Bn256

open Halo2.Field Halo2.Prime Halo2.Ext Halo2.Ext.Shadow

abbrev Fq : Type := Fp bnQ

/-- Models src/bn256/fq.rs:27-34; `square`, `double`, `invert` are the generated field's methods,
`is_zero` is `ff::Field::is_zero` (comparison with `ZERO`). -/
instance : ExtField Fq where
  sqr := Fp.square
  dbl := Fp.double
  invert := Fp.invert
  isZero x := decide (x = 0)
  nonRes := 0 - 1
  mulNr x := -x
  frob _ x := x

/-- The quadratic non-residue as a natural number. -/
@[irreducible] def beta : ℕ := bnQ - 1

theorem nonRes_base : (ExtField.nonRes : Fq) = (beta : Fq) := by
  change (0 - 1 : Fp bnQ) = ((beta : ℕ) : Fp bnQ)
  have h : ((beta + 1 : ℕ) : Fp bnQ) = ((0 : ℕ) : Fp bnQ) := by
    rw [Fp.natCast_eq_iff]; decide +kernel
  rw [Nat.cast_add, Nat.cast_one, Nat.cast_zero] at h
  linear_combination -h

instance : LawfulExt Fq where
  sqr_eq x := Fp.square_eq x
  dbl_eq x := Fp.double_eq x
  mulNr_eq x := by
    change -x = (0 - 1) * x
    ring
  invert_iff x y := Fp.invert_iff x y

theorem not_square_base : ¬ IsSquare (ExtField.nonRes : Fq) := by
  rw [nonRes_base]
  exact Fp.not_square_of beta (by decide +kernel) (by decide +kernel)

abbrev Fq2 : Type := Quad Fq

/-- Models src/bn256/fq2.rs:17-65. -/
instance instExt2 : ExtField Fq2 where
  sqr := Quad.squareComplex
  dbl := Quad.double
  invert := Quad.invert
  isZero := Quad.isZero
  nonRes := ⟨Fp.ofRaw [9, 0, 0, 0], 1⟩
  mulNr x := let t := Quad.double (Quad.double (Quad.double x)); ⟨t.c0 + x.c0 - x.c1, t.c1 + x.c0 + x.c1⟩
  frob := Quad.frob2

/-- The cubic (and quadratic) non-residue of `Fq2`. -/
@[irreducible] def xi : ℕ × ℕ := (9, 1)

theorem nonRes_2 : (ExtField.nonRes : Fq2) = cast bnQ xi := by
  ext
  · change (Fp.ofRaw [9, 0, 0, 0] : Fq) = ((xi.1 : ℕ) : Fq)
    rw [Fp.ofRaw_eq _ (by decide +kernel)]
    congr 1
    decide +kernel
  · change (1 : Fq) = ((xi.2 : ℕ) : Fq)
    rw [show xi.2 = 1 by decide +kernel, Nat.cast_one]

instance : LawfulExt Fq2 where
  sqr_eq x := (Quad.squareComplex_eq (by change (0 - 1 : Fq) = -1; ring) x)
  dbl_eq x := Quad.double_eq x
  mulNr_eq x := by
    rw [nonRes_2]
    have h1 : (cast bnQ xi).c0 = (9 : Fq) := by
      change ((xi.1 : ℕ) : Fq) = 9
      rw [show xi.1 = 9 by decide +kernel]; rfl
    have h2 : (cast bnQ xi).c1 = (1 : Fq) := by
      change ((xi.2 : ℕ) : Fq) = 1
      rw [show xi.2 = 1 by decide +kernel, Nat.cast_one]
    have hd : ∀ a : Fq, ExtField.dbl a = a + a := LawfulExt.dbl_eq
    have hn : ∀ a : Fq, ExtField.mulNr a = -a := fun a => rfl
    ext
    · change ExtField.dbl (ExtField.dbl (ExtField.dbl x.c0)) + x.c0 - x.c1 = (cast bnQ xi).c0 * x.c0 + ExtField.mulNr ((cast bnQ xi).c1 * x.c1)
      rw [hd, hd, hd, hn, h1, h2]; ring
    · change ExtField.dbl (ExtField.dbl (ExtField.dbl x.c1)) + x.c0 + x.c1 =
        ((cast bnQ xi).c0 + (cast bnQ xi).c1) * (x.c0 + x.c1) - ((cast bnQ xi).c0 * x.c0 + (cast bnQ xi).c1 * x.c1)
      rw [hd, hd, hd, h1, h2]; ring
  invert_iff x y := Quad.invert_iff x y

noncomputable instance instField2 : _root_.Field Fq2 := Quad.fieldOf not_square_base

/-- The norm of the non-residue. -/
@[irreducible] def xiNorm : ℕ := 82

theorem norm_xi : Quad.norm (ExtField.nonRes : Fq2) = (xiNorm : Fq) := by
  rw [Quad.norm_eq, nonRes_base, nonRes_2]
  change ((xi.1 : ℕ) : Fq) * ((xi.1 : ℕ) : Fq) - (beta : Fq) * (((xi.2 : ℕ) : Fq) * ((xi.2 : ℕ) : Fq)) = _
  rw [sub_eq_iff_eq_add, ← Nat.cast_mul, ← Nat.cast_mul, ← Nat.cast_mul, ← Nat.cast_add, Fp.natCast_eq_iff]
  decide +kernel

theorem not_square_2 : ¬ IsSquare (ExtField.nonRes : Fq2) := by
  apply Quad.not_square_of_norm
  rw [norm_xi]
  exact Fp.not_square_of xiNorm (by decide +kernel) (by decide +kernel)

theorem not_cube_2 : ∀ b : Fq2, b ^ 3 ≠ ExtField.nonRes := by
  apply Quad.not_cube_of_norm
  rw [norm_xi]
  exact Fp.not_cube_of xiNorm (by decide +kernel) (by decide +kernel) (by decide +kernel) (by decide +kernel)

/-- Models src/bn256/fq6.rs:46-124 (`FROBENIUS_COEFF_FQ6_C1`). -/
def frob6C1Raw : List (List ℕ × List ℕ) := [
  ([0xd35d438dc58f0d9d, 0x0a78eb28f5c70b3d, 0x666ea36f7879462c, 0x0e0a77c19a07df2f],
   [0, 0, 0, 0]),
  ([0xb5773b104563ab30, 0x347f91c8a9aa6454, 0x7a007127242e0991, 0x1956bcd8118214ec],
   [0x6e849f1ea0aa4757, 0xaa1c7b6d89f89141, 0xb6e713cdfae0ca3a, 0x26694fbb4e82ebc3]),
  ([0x3350c88e13e80b9c, 0x7dce557cdb5e56b9, 0x6001b4b8b615564a, 0x2682e617020217e0],
   [0, 0, 0, 0]),
  ([0xc9af22f716ad6bad, 0xb311782a4aa662b2, 0x19eeaf64e248c7f4, 0x20273e77e3439f82],
   [0xacc02860f7ce93ac, 0x3933d5817ba76b4c, 0x69e6188b446c8467, 0x0a46036d4417cc55]),
  ([0x71930c11d782e155, 0xa6bb947cffbe3323, 0xaa303344d4741444, 0x2c3b3f0d26594943],
   [0, 0, 0, 0]),
  ([0xf91aba2654e8e3b1, 0x4771cb2fdc92ce12, 0xdcb16ae0fc8bdf35, 0x274aa195cd9d8be4],
   [0x5cfc50ae18811f8b, 0x4bb28433cb43988c, 0x4fd35f13c3b56219, 0x301949bd2fc8883a])]

/-- Models src/bn256/fq6.rs:126-202 (`FROBENIUS_COEFF_FQ6_C2`). -/
def frob6C2Raw : List (List ℕ × List ℕ) := [
  ([0xd35d438dc58f0d9d, 0x0a78eb28f5c70b3d, 0x666ea36f7879462c, 0x0e0a77c19a07df2f],
   [0, 0, 0, 0]),
  ([0x7361d77f843abe92, 0xa5bb2bd3273411fb, 0x9c941f314b3e2399, 0x15df9cddbb9fd3ec],
   [0x5dddfd154bd8c949, 0x62cb29a5a4445b60, 0x37bc870a0c7dd2b9, 0x24830a9d3171f0fd]),
  ([0x71930c11d782e155, 0xa6bb947cffbe3323, 0xaa303344d4741444, 0x2c3b3f0d26594943],
   [0, 0, 0, 0]),
  ([0x448a93a57b6762df, 0xbfd62df528fdeadf, 0xd858f5d00e9bd47a, 0x06b03d4d3476ec58],
   [0x2b19daf4bcc936d1, 0xa1a54e7a56f4299f, 0xb533eee05adeaef1, 0x170c812b84dda0b2]),
  ([0x3350c88e13e80b9c, 0x7dce557cdb5e56b9, 0x6001b4b8b615564a, 0x2682e617020217e0],
   [0, 0, 0, 0]),
  ([0x843420f1d8dadbd6, 0x31f010c9183fcdb2, 0x436330b527a76049, 0x13d47447f11adfe4],
   [0xef494023a857fa74, 0x2a925d02d5ab101a, 0x83b015829ba62f10, 0x2539111d0c13aea3])]

/-- Models src/bn256/fq12.rs:42-194 (`FROBENIUS_COEFF_FQ12_C1`). -/
def frob12C1Raw : List (List ℕ × List ℕ) := [
  ([0xd35d438dc58f0d9d, 0x0a78eb28f5c70b3d, 0x666ea36f7879462c, 0x0e0a77c19a07df2f],
   [0, 0, 0, 0]),
  ([0xaf9ba69633144907, 0xca6b1d7387afb78a, 0x11bded5ef08a2087, 0x02f34d751a1f3a7c],
   [0xa222ae234c492d72, 0xd00f02a4565de15b, 0xdc2ff3a253dfc926, 0x10a75716b3899551]),
  ([0xca8d800500fa1bf2, 0xf0c5d61468b39769, 0x0e201271ad0d4418, 0x04290f65bad856e6],
   [0, 0, 0, 0]),
  ([0x365316184e46d97d, 0x0af7129ed4c96d9f, 0x659da72fca1009b5, 0x08116d8983a20d23],
   [0xb1df4af7c39c1939, 0x3d9f02878a73bf7f, 0x9b2220928caf0ae0, 0x26684515eff054a6]),
  ([0x3350c88e13e80b9c, 0x7dce557cdb5e56b9, 0x6001b4b8b615564a, 0x2682e617020217e0],
   [0, 0, 0, 0]),
  ([0x86b76f821b329076, 0x408bf52b4d19b614, 0x53dfb9d0d985e92d, 0x051e20146982d2a7],
   [0x0fbc9cd47752ebc7, 0x6d8fffe33415de24, 0xbef22cf038cf41b9, 0x15c0edff3c66bf54]),
  ([0x68c3488912edefaa, 0x8d087f6872aabf4f, 0x51e1a24709081231, 0x2259d6b14729c0fa],
   [0, 0, 0, 0]),
  ([0x8c84e580a568b440, 0xcd164d1de0c21302, 0xa692585790f737d5, 0x2d7100fdc71265ad],
   [0x99fdddf38c33cfd5, 0xc77267ed1213e931, 0xdc2052142da18f36, 0x1fbcf75c2da80ad7]),
  ([0x71930c11d782e155, 0xa6bb947cffbe3323, 0xaa303344d4741444, 0x2c3b3f0d26594943],
   [0, 0, 0, 0]),
  ([0x05cd75fe8a3623ca, 0x8c8a57f293a85cee, 0x52b29e86b7714ea8, 0x2852e0e95d8f9306],
   [0x8a41411f14e0e40e, 0x59e26809ddfe0b0d, 0x1d2e2523f4d24d7d, 0x09fc095cf1414b83]),
  ([0x08cfc388c494f1ab, 0x19b315148d1373d4, 0x584e90fdcb6c0213, 0x09e1685bdf2f8849],
   [0, 0, 0, 0]),
  ([0xb5691c94bd4a6cd1, 0x56f575661b581478, 0x64708be5a7fb6f30, 0x2b462e5e77aecd82],
   [0x2c63ef42612a1180, 0x29f16aae345bec69, 0xf95e18c648b216a4, 0x1aa36073a4cae0d4])]

/-- The table as elements of the field. -/
def frob6C1 : List Fq2 := frob6C1Raw.map montPair

/-- The table as elements of the field. -/
def frob6C2 : List Fq2 := frob6C2Raw.map montPair

/-- The table as elements of the field. -/
def frob12C1 : List Fq2 := frob12C1Raw.map montPair

/-- `R⁻¹`. -/
@[irreducible] def bnQRinv : ℕ := 0x2e67157159e5c639cf63e9cfb74492d9eb2022850278edf8ed84884a014afa37

theorem bnQRinv_spec : 2 ^ (64 * numLimbs bnQ) * bnQRinv % bnQ = 1 := by decide +kernel

/-- The values of a table. -/
def shadow (t : List (List ℕ × List ℕ)) : List (ℕ × ℕ) :=
  t.map fun x => (val x.1 * bnQRinv % bnQ, val x.2 * bnQRinv % bnQ)

theorem shadow_eq (t : List (List ℕ × List ℕ)) (h : ∀ x ∈ t, IsElem bnQ x.1 ∧ IsElem bnQ x.2) :
    (t.map montPair : List Fq2) = (shadow t).map (cast bnQ) := by
  rw [shadow, List.map_map]
  exact List.map_congr_left fun x hx => montPair_eq x (h x hx) _ bnQRinv_spec

theorem frob6C1_eq : frob6C1 = (shadow frob6C1Raw).map (cast bnQ) := shadow_eq _ (by decide +kernel)
theorem frob6C2_eq : frob6C2 = (shadow frob6C2Raw).map (cast bnQ) := shadow_eq _ (by decide +kernel)
theorem frob12C1_eq : frob12C1 = (shadow frob12C1Raw).map (cast bnQ) := shadow_eq _ (by decide +kernel)

theorem dvd6 : 6 ∣ bnQ - 1 := by decide +kernel

theorem nonRes_pow : (ExtField.nonRes : Fq) ^ ((bnQ - 1) / 2) = -1 := by
  rw [nonRes_base, Fp.natCast_pow _ _ (by decide +kernel)]
  have h : ((powMod bnQ beta ((bnQ - 1) / 2) + 1 : ℕ) : Fq) = ((0 : ℕ) : Fq) := by
    rw [Fp.natCast_eq_iff]; decide +kernel
  rw [Nat.cast_add, Nat.cast_one, Nat.cast_zero] at h
  exact eq_neg_of_add_eq_zero_left h

theorem frob_2 (i : ℕ) (x : Fq2) : Quad.frob2 i x = x ^ bnQ ^ i :=
  Quad.frob2_eq Fp.pow_p (dvd_trans (by decide) dvd6) nonRes_pow i x

theorem conj_eq (x : Fq2) : Quad.conjugate x = x ^ bnQ := by
  have := frob_2 1 x
  rw [pow_one] at this
  rw [← this]; rfl

theorem frob6C1_spec (i : ℕ) : frob6C1.getD (i % 6) 0 = (ExtField.nonRes : Fq2) ^ ((bnQ ^ i - 1) / 3) := by
  rw [frob6C1_eq, nonRes_2]
  exact table_spec nonRes_base (by decide) (by decide) (dvd_trans (by decide) dvd6) conj_eq _ xi
    (Shadow.pow bnQ beta xi ((bnQ - 1) / 3)) rfl (by decide +kernel) (by decide +kernel) i

theorem frob12C1_spec (i : ℕ) : frob12C1.getD (i % 12) 0 = (ExtField.nonRes : Fq2) ^ ((bnQ ^ i - 1) / 6) := by
  rw [frob12C1_eq, nonRes_2]
  exact table_spec nonRes_base (by decide) (by decide) dvd6 conj_eq _ xi
    (Shadow.pow bnQ beta xi ((bnQ - 1) / 6)) rfl (by decide +kernel) (by decide +kernel) i

theorem frob6C2_spec (i : ℕ) :
    frob6C2.getD (i % 6) 0 = ((ExtField.nonRes : Fq2) ^ ((bnQ ^ i - 1) / 3)) ^ 2 := by
  rw [← frob6C1_spec, frob6C1_eq, frob6C2_eq]
  have hi : i % 6 < 6 := Nat.mod_lt _ (by decide)
  rw [getD_map _ _ (lt_of_lt_of_eq hi (by decide +kernel)), getD_map _ _ (lt_of_lt_of_eq hi (by decide +kernel)),
    pow_two, ← cast_mul nonRes_base]
  have h : ∀ j < 6, (shadow frob6C2Raw).getD j (0, 0) = Shadow.mul bnQ beta ((shadow frob6C1Raw).getD j (0, 0))
      ((shadow frob6C1Raw).getD j (0, 0)) := by decide +kernel
  rw [h _ hi]

abbrev Fq6 : Type := Cubic Fq2

/-- Models src/bn256/fq6.rs:19-44. -/
instance instExt6 : ExtField Fq6 where
  sqr := Cubic.square
  dbl := Cubic.double
  invert := Cubic.invert
  isZero := Cubic.isZero
  nonRes := Cubic.v
  mulNr := Cubic.mulV
  frob := Cubic.frob6 frob6C1 frob6C2

instance : LawfulExt Fq6 where
  sqr_eq x := Cubic.square_eq x
  dbl_eq x := Cubic.double_eq x
  mulNr_eq x := Cubic.mulV_eq x
  invert_iff x y := Cubic.invert_iff x y

noncomputable instance instField6 : _root_.Field Fq6 := Cubic.fieldOf not_cube_2

theorem not_square_6 : ¬ IsSquare (ExtField.nonRes : Fq6) := Cubic.v_not_square not_square_2

theorem frob_6 (i : ℕ) (x : Fq6) : ExtField.frob i x = x ^ bnQ ^ i :=
  Cubic.frob6_eq frob6C1 frob6C2 i (dvd_trans (by decide) dvd6) (fun a => frob_2 i a) (frob6C1_spec i) (frob6C2_spec i) x

abbrev Fq12 : Type := Quad Fq6

/-- Models src/bn256/fq12.rs:15-33 (`NON_RESIDUE` is zero there, "no needs"). -/
instance instExt12 : ExtField Fq12 where
  sqr := Quad.square
  dbl := Quad.double
  invert := Quad.invert
  isZero := Quad.isZero
  nonRes := 0
  mulNr := mulNrDefault 0
  frob := Deg12.frob12 frob12C1

instance : LawfulExt Fq12 where
  sqr_eq x := Quad.square_eq x
  dbl_eq x := Quad.double_eq x
  mulNr_eq _ := rfl
  invert_iff x y := Quad.invert_iff x y

noncomputable instance instField12 : _root_.Field Fq12 := Quad.fieldOf not_square_6

theorem frob_12 (i : ℕ) (x : Fq12) : ExtField.frob i x = x ^ bnQ ^ i :=
  Deg12.frob12_eq rfl frob12C1 i dvd6 (fun a => frob_6 i a) (frob12C1_spec i) x

/-! ## Cyclotomic squaring -/

/-- The sixth root of unity of the `p^2`-power Frobenius. -/
def z6 : Fq2 := frob12C1.getD 2 0

theorem z6_spec : z6 * z6 + 1 = z6 := by
  rw [z6, frob12C1_eq, getD_map _ _ (by decide +kernel), ← cast_mul nonRes_base, ← cast_one, cast_add]
  exact cast_eq_of _ _ (by decide +kernel) (by decide +kernel)

theorem z6_eq : z6 = (ExtField.nonRes : Fq2) ^ ((bnQ ^ 2 - 1) / 6) := frob12C1_spec 2

theorem sixth_four (a : Fq2) : a ^ ((bnQ ^ 4 - 1) / 6) = a ^ ((bnQ ^ 2 - 1) / 6) * a ^ ((bnQ ^ 2 - 1) / 6) := by
  have e : (bnQ ^ 4 - 1) / 6 = (bnQ ^ 2 - 1) / 6 * bnQ ^ 2 + (bnQ ^ 2 - 1) / 6 := by decide +kernel
  rw [e, pow_add, pow_mul, ← frob_2 2]
  rfl

theorem third_eq (a : Fq2) (i : ℕ) (hi : 6 ∣ bnQ ^ i - 1) : a ^ ((bnQ ^ i - 1) / 3) = (a ^ ((bnQ ^ i - 1) / 6)) ^ 2 := by
  rw [← pow_mul]
  congr 1
  omega

theorem scale_two (x : Fq12) : x ^ bnQ ^ 2 = Deg12.scale z6 (z6 - 1) (-1) (-z6) (1 - z6) x := by
  rw [← frob_12]
  have h := third_eq ExtField.nonRes 2 (by decide +kernel)
  rw [← z6_eq] at h
  refine Deg12.frob12_two frob6C1 frob6C2 frob12C1 z6 z6_spec (fun _ => rfl) (fun _ => rfl) ?_ ?_ rfl x
  · rw [← pow_two, ← h]; exact frob6C1_spec 2
  · rw [← pow_two, ← h]; exact frob6C2_spec 2

theorem scale_four (x : Fq12) : x ^ bnQ ^ 4 = Deg12.scale (z6 - 1) (-z6) 1 (z6 - 1) (-z6) x := by
  rw [← frob_12]
  have h := third_eq ExtField.nonRes 4 (by decide +kernel)
  rw [sixth_four, ← z6_eq] at h
  have h4 : (z6 * z6) ^ 2 = z6 ^ 4 := by ring
  refine Deg12.frob12_four frob6C1 frob6C2 frob12C1 z6 z6_spec (fun _ => rfl) (fun _ => rfl) ?_ ?_ ?_ x
  · rw [← h4, ← h]; exact frob6C1_spec 4
  · rw [← h4, ← h]; exact frob6C2_spec 4
  · rw [z6_eq, ← sixth_four]; exact frob12C1_spec 4

theorem cyclotomicSquare_eq (x : Fq12) (h : x ^ (bnQ ^ 4 - bnQ ^ 2 + 1) = 1) : Deg12.cyclotomicSquare x = x * x := by
  apply Deg12.cyclotomicSquare_core rfl z6 z6_spec
  rw [← scale_four, ← scale_two]
  have e : bnQ ^ 4 + 1 = bnQ ^ 2 + (bnQ ^ 4 - bnQ ^ 2 + 1) := by decide +kernel
  rw [← pow_succ, e, pow_add, h, mul_one]

end Halo2.Bn256
