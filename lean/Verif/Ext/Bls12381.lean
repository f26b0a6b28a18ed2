import Verif.Ext.Shadow
import Verif.Ext.Cyclo
import Verif.Prime.Moduli

/-!
# The extension tower of src/bls12381

Concrete parameters, Frobenius tables and the facts about them: every level is a field, its
`ExtField` methods are lawful, and `frobenius_map` is the power map.
The tables are transcribed from the source by a script.
-/

namespace Halo2.Bls12381

open Halo2.Field Halo2.Prime Halo2.Ext Halo2.Ext.Shadow

abbrev Fq : Type := Fp blsQ

/-- Models src/bls12381/fq.rs:28-35; `square`, `double`, `invert` are the generated field's methods,
`is_zero` is `ff::Field::is_zero` (comparison with `ZERO`). -/
instance : ExtField Fq where
  sqr := Fp.square
  dbl := Fp.double
  invert := Fp.invert
  isZero x := decide (x = 0)
  nonRes := 0 - 1
  mulNr x := -x
  frob _ x := x

/-- The quadratic non-residue as a natural number. -/
@[irreducible] def beta : ℕ := blsQ - 1

theorem nonRes_base : (ExtField.nonRes : Fq) = (beta : Fq) := by
  change (0 - 1 : Fp blsQ) = ((beta : ℕ) : Fp blsQ)
  have h : ((beta + 1 : ℕ) : Fp blsQ) = ((0 : ℕ) : Fp blsQ) := by
    rw [Fp.natCast_eq_iff]; decide +kernel
  rw [Nat.cast_add, Nat.cast_one, Nat.cast_zero] at h
  linear_combination -h

instance : LawfulExt Fq where
  sqr_eq x := Fp.square_eq x
  dbl_eq x := Fp.double_eq x
  mulNr_eq x := by
    change -x = (0 - 1) * x
    ring
  invert_iff x y := Fp.invert_iff x y

theorem not_square_base : ¬ IsSquare (ExtField.nonRes : Fq) := by
  rw [nonRes_base]
  exact Fp.not_square_of beta (by decide +kernel) (by decide +kernel)

abbrev Fq2 : Type := Quad Fq

/-- Models src/bls12381/fq2.rs:17-62. -/
instance instExt2 : ExtField Fq2 where
  sqr := Quad.squareComplex
  dbl := Quad.double
  invert := Quad.invert
  isZero := Quad.isZero
  nonRes := ⟨1, 1⟩
  mulNr x := ⟨x.c0 - x.c1, x.c0 + x.c1⟩
  frob := Quad.frob2

/-- The cubic (and quadratic) non-residue of `Fq2`. -/
@[irreducible] def xi : ℕ × ℕ := (1, 1)

theorem nonRes_2 : (ExtField.nonRes : Fq2) = cast blsQ xi := by
  ext
  · change (1 : Fq) = ((xi.1 : ℕ) : Fq)
    rw [show xi.1 = 1 by decide +kernel, Nat.cast_one]
  · change (1 : Fq) = ((xi.2 : ℕ) : Fq)
    rw [show xi.2 = 1 by decide +kernel, Nat.cast_one]

instance : LawfulExt Fq2 where
  sqr_eq x := (Quad.squareComplex_eq (by change (0 - 1 : Fq) = -1; ring) x)
  dbl_eq x := Quad.double_eq x
  mulNr_eq x := by
    have hn : ∀ a : Fq, ExtField.mulNr a = -a := fun a => rfl
    ext
    · change x.c0 - x.c1 = 1 * x.c0 + ExtField.mulNr (1 * x.c1)
      rw [hn]; ring
    · change x.c0 + x.c1 = (1 + 1) * (x.c0 + x.c1) - (1 * x.c0 + 1 * x.c1)
      ring
  invert_iff x y := Quad.invert_iff x y

noncomputable instance instField2 : _root_.Field Fq2 := Quad.fieldOf not_square_base

/-- The norm of the non-residue. -/
@[irreducible] def xiNorm : ℕ := 2

theorem norm_xi : Quad.norm (ExtField.nonRes : Fq2) = (xiNorm : Fq) := by
  rw [Quad.norm_eq, nonRes_base, nonRes_2]
  change ((xi.1 : ℕ) : Fq) * ((xi.1 : ℕ) : Fq) - (beta : Fq) * (((xi.2 : ℕ) : Fq) * ((xi.2 : ℕ) : Fq)) = _
  rw [sub_eq_iff_eq_add, ← Nat.cast_mul, ← Nat.cast_mul, ← Nat.cast_mul, ← Nat.cast_add, Fp.natCast_eq_iff]
  decide +kernel

theorem not_square_2 : ¬ IsSquare (ExtField.nonRes : Fq2) := by
  apply Quad.not_square_of_norm
  rw [norm_xi]
  exact Fp.not_square_of xiNorm (by decide +kernel) (by decide +kernel)

theorem not_cube_2 : ∀ b : Fq2, b ^ 3 ≠ ExtField.nonRes := by
  apply Quad.not_cube_of_norm
  rw [norm_xi]
  exact Fp.not_cube_of xiNorm (by decide +kernel) (by decide +kernel) (by decide +kernel) (by decide +kernel)

/-- Models src/bls12381/fq6.rs:42-157 (`FROBENIUS_COEFF_FQ6_C1`). -/
def frob6C1Raw : List (List ℕ × List ℕ) := [
  ([0x760900000002fffd, 0xebf4000bc40c0002, 0x5f48985753c758ba, 0x77ce585370525745, 0x5c071a97a256ec6d, 0x15f65ec3fa80e493],
   [0, 0, 0, 0, 0, 0]),
  ([0, 0, 0, 0, 0, 0],
   [0xcd03c9e48671f071, 0x5dab22461fcda5d2, 0x587042afd3851b95, 0x8eb60ebe01bacb9e, 0x03f97d6e83d050d2, 0x18f0206554638741]),
  ([0x30f1361b798a64e8, 0xf3b8ddab7ece5a2a, 0x16a8ca3ac61577f7, 0xc26a2ff874fd029b, 0x3636b76660701c6e, 0x051ba4ab241b6160],
   [0, 0, 0, 0, 0, 0]),
  ([0, 0, 0, 0, 0, 0],
   [0x760900000002fffd, 0xebf4000bc40c0002, 0x5f48985753c758ba, 0x77ce585370525745, 0x5c071a97a256ec6d, 0x15f65ec3fa80e493]),
  ([0xcd03c9e48671f071, 0x5dab22461fcda5d2, 0x587042afd3851b95, 0x8eb60ebe01bacb9e, 0x03f97d6e83d050d2, 0x18f0206554638741],
   [0, 0, 0, 0, 0, 0]),
  ([0, 0, 0, 0, 0, 0],
   [0x30f1361b798a64e8, 0xf3b8ddab7ece5a2a, 0x16a8ca3ac61577f7, 0xc26a2ff874fd029b, 0x3636b76660701c6e, 0x051ba4ab241b6160])]

/-- Models src/bls12381/fq6.rs:160-275 (`FROBENIUS_COEFF_FQ6_C2`). -/
def frob6C2Raw : List (List ℕ × List ℕ) := [
  ([0x760900000002fffd, 0xebf4000bc40c0002, 0x5f48985753c758ba, 0x77ce585370525745, 0x5c071a97a256ec6d, 0x15f65ec3fa80e493],
   [0, 0, 0, 0, 0, 0]),
  ([0x890dc9e4867545c3, 0x2af322533285a5d5, 0x50880866309b7e2c, 0xa20d1b8c7e881024, 0x14e4f04fe2db9068, 0x14e56d3f1564853a],
   [0, 0, 0, 0, 0, 0]),
  ([0xcd03c9e48671f071, 0x5dab22461fcda5d2, 0x587042afd3851b95, 0x8eb60ebe01bacb9e, 0x03f97d6e83d050d2, 0x18f0206554638741],
   [0, 0, 0, 0, 0, 0]),
  ([0x43f5fffffffcaaae, 0x32b7fff2ed47fffd, 0x07e83a49a2e99d69, 0xeca8f3318332bb7a, 0xef148d1ea0f4c069, 0x040ab3263eff0206],
   [0, 0, 0, 0, 0, 0]),
  ([0x30f1361b798a64e8, 0xf3b8ddab7ece5a2a, 0x16a8ca3ac61577f7, 0xc26a2ff874fd029b, 0x3636b76660701c6e, 0x051ba4ab241b6160],
   [0, 0, 0, 0, 0, 0]),
  ([0xecfb361b798dba3a, 0xc100ddb891865a2c, 0x0ec08ff1232bda8e, 0xd5c13cc6f1ca4721, 0x47222a47bf7b5c04, 0x0110f184e51c5f59],
   [0, 0, 0, 0, 0, 0])]

/-- Models src/bls12381/fq12.rs:37-267 (`FROBENIUS_COEFF_FQ12_C1`). -/
def frob12C1Raw : List (List ℕ × List ℕ) := [
  ([0x760900000002fffd, 0xebf4000bc40c0002, 0x5f48985753c758ba, 0x77ce585370525745, 0x5c071a97a256ec6d, 0x15f65ec3fa80e493],
   [0, 0, 0, 0, 0, 0]),
  ([0x07089552b319d465, 0xc6695f92b50a8313, 0x97e83cccd117228f, 0xa35baecab2dc29ee, 0x1ce393ea5daace4d, 0x08f2220fb0fb66eb],
   [0xb2f66aad4ce5d646, 0x5842a06bfc497cec, 0xcf4895d42599d394, 0xc11b9cba40a8e8d0, 0x2e3813cbe5a0de89, 0x110eefda88847faf]),
  ([0xecfb361b798dba3a, 0xc100ddb891865a2c, 0x0ec08ff1232bda8e, 0xd5c13cc6f1ca4721, 0x47222a47bf7b5c04, 0x0110f184e51c5f59],
   [0, 0, 0, 0, 0, 0]),
  ([0x3e2f585da55c9ad1, 0x4294213d86c18183, 0x382844c88b623732, 0x92ad2afd19103e18, 0x1d794e4fac7cf0b9, 0x0bd592fc7d825ec8],
   [0x7bcfa7a25aa30fda, 0xdc17dec12a927e7c, 0x2f088dd86b4ebef1, 0xd1ca2087da74d4a7, 0x2da2596696cebc1d, 0x0e2b7eedbbfd87d2]),
  ([0x30f1361b798a64e8, 0xf3b8ddab7ece5a2a, 0x16a8ca3ac61577f7, 0xc26a2ff874fd029b, 0x3636b76660701c6e, 0x051ba4ab241b6160],
   [0, 0, 0, 0, 0, 0]),
  ([0x3726c30af242c66c, 0x7c2ac1aad1b6fe70, 0xa04007fbba4b14a2, 0xef517c3266341429, 0x0095ba654ed2226b, 0x02e370eccc86f7dd],
   [0x82d83cf50dbce43f, 0xa2813e53df9d018f, 0xc6f0caa53c65e181, 0x7525cf528d50fe95, 0x4a85ed50f4798a6b, 0x171da0fd6cf8eebd]),
  ([0x43f5fffffffcaaae, 0x32b7fff2ed47fffd, 0x07e83a49a2e99d69, 0xeca8f3318332bb7a, 0xef148d1ea0f4c069, 0x040ab3263eff0206],
   [0, 0, 0, 0, 0, 0]),
  ([0xb2f66aad4ce5d646, 0x5842a06bfc497cec, 0xcf4895d42599d394, 0xc11b9cba40a8e8d0, 0x2e3813cbe5a0de89, 0x110eefda88847faf],
   [0x07089552b319d465, 0xc6695f92b50a8313, 0x97e83cccd117228f, 0xa35baecab2dc29ee, 0x1ce393ea5daace4d, 0x08f2220fb0fb66eb]),
  ([0xcd03c9e48671f071, 0x5dab22461fcda5d2, 0x587042afd3851b95, 0x8eb60ebe01bacb9e, 0x03f97d6e83d050d2, 0x18f0206554638741],
   [0, 0, 0, 0, 0, 0]),
  ([0x7bcfa7a25aa30fda, 0xdc17dec12a927e7c, 0x2f088dd86b4ebef1, 0xd1ca2087da74d4a7, 0x2da2596696cebc1d, 0x0e2b7eedbbfd87d2],
   [0x3e2f585da55c9ad1, 0x4294213d86c18183, 0x382844c88b623732, 0x92ad2afd19103e18, 0x1d794e4fac7cf0b9, 0x0bd592fc7d825ec8]),
  ([0x890dc9e4867545c3, 0x2af322533285a5d5, 0x50880866309b7e2c, 0xa20d1b8c7e881024, 0x14e4f04fe2db9068, 0x14e56d3f1564853a],
   [0, 0, 0, 0, 0, 0]),
  ([0x82d83cf50dbce43f, 0xa2813e53df9d018f, 0xc6f0caa53c65e181, 0x7525cf528d50fe95, 0x4a85ed50f4798a6b, 0x171da0fd6cf8eebd],
   [0x3726c30af242c66c, 0x7c2ac1aad1b6fe70, 0xa04007fbba4b14a2, 0xef517c3266341429, 0x0095ba654ed2226b, 0x02e370eccc86f7dd])]

/-- The table as elements of the field. -/
def frob6C1 : List Fq2 := frob6C1Raw.map montPair

/-- The table as elements of the field. -/
def frob6C2 : List Fq2 := frob6C2Raw.map montPair

/-- The table as elements of the field. -/
def frob12C1 : List Fq2 := frob12C1Raw.map montPair

/-- `R⁻¹`. -/
@[irreducible] def blsQRinv : ℕ := 0x14fec701e8fb0ce9ed5e64273c4f538b1797ab1458a88de9343ea97914956dc87fe11274d898fafbf4d38259380b4820

theorem blsQRinv_spec : 2 ^ (64 * numLimbs blsQ) * blsQRinv % blsQ = 1 := by decide +kernel

/-- The values of a table. -/
def shadow (t : List (List ℕ × List ℕ)) : List (ℕ × ℕ) :=
  t.map fun x => (val x.1 * blsQRinv % blsQ, val x.2 * blsQRinv % blsQ)

theorem shadow_eq (t : List (List ℕ × List ℕ)) (h : ∀ x ∈ t, IsElem blsQ x.1 ∧ IsElem blsQ x.2) :
    (t.map montPair : List Fq2) = (shadow t).map (cast blsQ) := by
  rw [shadow, List.map_map]
  exact List.map_congr_left fun x hx => montPair_eq x (h x hx) _ blsQRinv_spec

theorem frob6C1_eq : frob6C1 = (shadow frob6C1Raw).map (cast blsQ) := shadow_eq _ (by decide +kernel)
theorem frob6C2_eq : frob6C2 = (shadow frob6C2Raw).map (cast blsQ) := shadow_eq _ (by decide +kernel)
theorem frob12C1_eq : frob12C1 = (shadow frob12C1Raw).map (cast blsQ) := shadow_eq _ (by decide +kernel)

theorem dvd6 : 6 ∣ blsQ - 1 := by decide +kernel

theorem nonRes_pow : (ExtField.nonRes : Fq) ^ ((blsQ - 1) / 2) = -1 := by
  rw [nonRes_base, Fp.natCast_pow _ _ (by decide +kernel)]
  have h : ((powMod blsQ beta ((blsQ - 1) / 2) + 1 : ℕ) : Fq) = ((0 : ℕ) : Fq) := by
    rw [Fp.natCast_eq_iff]; decide +kernel
  rw [Nat.cast_add, Nat.cast_one, Nat.cast_zero] at h
  exact eq_neg_of_add_eq_zero_left h

theorem frob_2 (i : ℕ) (x : Fq2) : Quad.frob2 i x = x ^ blsQ ^ i :=
  Quad.frob2_eq Fp.pow_p (dvd_trans (by decide) dvd6) nonRes_pow i x

theorem conj_eq (x : Fq2) : Quad.conjugate x = x ^ blsQ := by
  have := frob_2 1 x
  rw [pow_one] at this
  rw [← this]; rfl

theorem frob6C1_spec (i : ℕ) : frob6C1.getD (i % 6) 0 = (ExtField.nonRes : Fq2) ^ ((blsQ ^ i - 1) / 3) := by
  rw [frob6C1_eq, nonRes_2]
  exact table_spec nonRes_base (by decide) (by decide) (dvd_trans (by decide) dvd6) conj_eq _ xi
    (Shadow.pow blsQ beta xi ((blsQ - 1) / 3)) rfl (by decide +kernel) (by decide +kernel) i

theorem frob12C1_spec (i : ℕ) : frob12C1.getD (i % 12) 0 = (ExtField.nonRes : Fq2) ^ ((blsQ ^ i - 1) / 6) := by
  rw [frob12C1_eq, nonRes_2]
  exact table_spec nonRes_base (by decide) (by decide) dvd6 conj_eq _ xi
    (Shadow.pow blsQ beta xi ((blsQ - 1) / 6)) rfl (by decide +kernel) (by decide +kernel) i

theorem frob6C2_spec (i : ℕ) :
    frob6C2.getD (i % 6) 0 = ((ExtField.nonRes : Fq2) ^ ((blsQ ^ i - 1) / 3)) ^ 2 := by
  rw [← frob6C1_spec, frob6C1_eq, frob6C2_eq]
  have hi : i % 6 < 6 := Nat.mod_lt _ (by decide)
  rw [getD_map _ _ (lt_of_lt_of_eq hi (by decide +kernel)), getD_map _ _ (lt_of_lt_of_eq hi (by decide +kernel)),
    pow_two, ← cast_mul nonRes_base]
  have h : ∀ j < 6, (shadow frob6C2Raw).getD j (0, 0) = Shadow.mul blsQ beta ((shadow frob6C1Raw).getD j (0, 0))
      ((shadow frob6C1Raw).getD j (0, 0)) := by decide +kernel
  rw [h _ hi]

abbrev Fq6 : Type := Cubic Fq2

/-- Models src/bls12381/fq6.rs:15-40. -/
instance instExt6 : ExtField Fq6 where
  sqr := Cubic.square
  dbl := Cubic.double
  invert := Cubic.invert
  isZero := Cubic.isZero
  nonRes := Cubic.v
  mulNr := Cubic.mulV
  frob := Cubic.frob6 frob6C1 frob6C2

instance : LawfulExt Fq6 where
  sqr_eq x := Cubic.square_eq x
  dbl_eq x := Cubic.double_eq x
  mulNr_eq x := Cubic.mulV_eq x
  invert_iff x y := Cubic.invert_iff x y

noncomputable instance instField6 : _root_.Field Fq6 := Cubic.fieldOf not_cube_2

theorem not_square_6 : ¬ IsSquare (ExtField.nonRes : Fq6) := Cubic.v_not_square not_square_2

theorem frob_6 (i : ℕ) (x : Fq6) : ExtField.frob i x = x ^ blsQ ^ i :=
  Cubic.frob6_eq frob6C1 frob6C2 i (dvd_trans (by decide) dvd6) (fun a => frob_2 i a) (frob6C1_spec i) (frob6C2_spec i) x

abbrev Fq12 : Type := Quad Fq6

/-- Models src/bls12381/fq12.rs:11-29 (`NON_RESIDUE` is zero there, "no needs"). -/
instance instExt12 : ExtField Fq12 where
  sqr := Quad.square
  dbl := Quad.double
  invert := Quad.invert
  isZero := Quad.isZero
  nonRes := 0
  mulNr := mulNrDefault 0
  frob := Deg12.frob12 frob12C1

instance : LawfulExt Fq12 where
  sqr_eq x := Quad.square_eq x
  dbl_eq x := Quad.double_eq x
  mulNr_eq _ := rfl
  invert_iff x y := Quad.invert_iff x y

noncomputable instance instField12 : _root_.Field Fq12 := Quad.fieldOf not_square_6

theorem frob_12 (i : ℕ) (x : Fq12) : ExtField.frob i x = x ^ blsQ ^ i :=
  Deg12.frob12_eq rfl frob12C1 i dvd6 (fun a => frob_6 i a) (frob12C1_spec i) x

/-! ## Cyclotomic squaring -/

/-- The sixth root of unity of the `p^2`-power Frobenius. -/
def z6 : Fq2 := frob12C1.getD 2 0

theorem z6_spec : z6 * z6 + 1 = z6 := by
  rw [z6, frob12C1_eq, getD_map _ _ (by decide +kernel), ← cast_mul nonRes_base, ← cast_one, cast_add]
  exact cast_eq_of _ _ (by decide +kernel) (by decide +kernel)

theorem z6_eq : z6 = (ExtField.nonRes : Fq2) ^ ((blsQ ^ 2 - 1) / 6) := frob12C1_spec 2

theorem sixth_four (a : Fq2) : a ^ ((blsQ ^ 4 - 1) / 6) = a ^ ((blsQ ^ 2 - 1) / 6) * a ^ ((blsQ ^ 2 - 1) / 6) := by
  have e : (blsQ ^ 4 - 1) / 6 = (blsQ ^ 2 - 1) / 6 * blsQ ^ 2 + (blsQ ^ 2 - 1) / 6 := by decide +kernel
  rw [e, pow_add, pow_mul, ← frob_2 2]
  rfl

theorem third_eq (a : Fq2) (i : ℕ) (hi : 6 ∣ blsQ ^ i - 1) : a ^ ((blsQ ^ i - 1) / 3) = (a ^ ((blsQ ^ i - 1) / 6)) ^ 2 := by
  rw [← pow_mul]
  congr 1
  omega

theorem scale_two (x : Fq12) : x ^ blsQ ^ 2 = Deg12.scale z6 (z6 - 1) (-1) (-z6) (1 - z6) x := by
  rw [← frob_12]
  have h := third_eq ExtField.nonRes 2 (by decide +kernel)
  rw [← z6_eq] at h
  refine Deg12.frob12_two frob6C1 frob6C2 frob12C1 z6 z6_spec (fun _ => rfl) (fun _ => rfl) ?_ ?_ rfl x
  · rw [← pow_two, ← h]; exact frob6C1_spec 2
  · rw [← pow_two, ← h]; exact frob6C2_spec 2

theorem scale_four (x : Fq12) : x ^ blsQ ^ 4 = Deg12.scale (z6 - 1) (-z6) 1 (z6 - 1) (-z6) x := by
  rw [← frob_12]
  have h := third_eq ExtField.nonRes 4 (by decide +kernel)
  rw [sixth_four, ← z6_eq] at h
  have h4 : (z6 * z6) ^ 2 = z6 ^ 4 := by ring
  refine Deg12.frob12_four frob6C1 frob6C2 frob12C1 z6 z6_spec (fun _ => rfl) (fun _ => rfl) ?_ ?_ ?_ x
  · rw [← h4, ← h]; exact frob6C1_spec 4
  · rw [← h4, ← h]; exact frob6C2_spec 4
  · rw [z6_eq, ← sixth_four]; exact frob12C1_spec 4

theorem cyclotomicSquare_eq (x : Fq12) (h : x ^ (blsQ ^ 4 - blsQ ^ 2 + 1) = 1) : Deg12.cyclotomicSquare x = x * x := by
  apply Deg12.cyclotomicSquare_core rfl z6 z6_spec
  rw [← scale_four, ← scale_two]
  have e : blsQ ^ 4 + 1 = blsQ ^ 2 + (blsQ ^ 4 - blsQ ^ 2 + 1) := by decide +kernel
  rw [← pow_succ, e, pow_add, h, mul_one]

end Halo2.Bls12381
