import Verif.Ext.Shadow
import Verif.Ext.Cyclo
import Verif.Prime.Moduli

/-!
# The extension tower of src/pluto_eris

Concrete parameters, Frobenius tables and the facts about them: every level is a field, its
`ExtField` methods are lawful, and `frobenius_map` is the power map.
The tables are transcribed from the source by a script.
-/

namespace Halo2.Pluto

open Halo2.Field Halo2.Prime Halo2.Ext Halo2.Ext.Shadow

abbrev Fp1 : Type := Fp plP

/-- Models src/pluto_eris/fp.rs:26-40; `square`, `double`, `invert` are the generated field's methods,
`is_zero` is `ff::Field::is_zero` (comparison with `ZERO`). -/
instance : ExtField Fp1 where
  sqr := Fp.square
  dbl := Fp.double
  invert := Fp.invert
  isZero x := decide (x = 0)
  nonRes := Fp.ofRaw [0x9ffffcd2fffffffc, 0xa2a7e8c30006b945, 0xe4a7a5fe8fadffd6, 0x443f9a5cda8a6c7b, 0xa803ca76f439266f, 0x0130e0000d7f70e4, 0x2400000000002400]
  mulNr x := -(Fp.double (Fp.double x) + x)
  frob _ x := x

/-- The quadratic non-residue as a natural number. -/
@[irreducible] def beta : ℕ := plP - 5

theorem nonRes_base : (ExtField.nonRes : Fp1) = (beta : Fp1) := by
  change (Fp.ofRaw _ : Fp1) = _
  rw [Fp.ofRaw_eq _ (by decide +kernel)]
  congr 1
  decide +kernel

instance : LawfulExt Fp1 where
  sqr_eq x := Fp.square_eq x
  dbl_eq x := Fp.double_eq x
  mulNr_eq x := by
    have hd : ∀ a : Fp1, Fp.double a = a + a := Fp.double_eq
    have h : ((beta + 5 : ℕ) : Fp1) = ((0 : ℕ) : Fp1) := by
      rw [Fp.natCast_eq_iff]; decide +kernel
    rw [Nat.cast_add, Nat.cast_zero] at h
    rw [nonRes_base]
    change -(Fp.double (Fp.double x) + x) = _
    rw [hd, hd]
    push_cast at h
    linear_combination (-x) * h
  invert_iff x y := Fp.invert_iff x y

theorem not_square_base : ¬ IsSquare (ExtField.nonRes : Fp1) := by
  rw [nonRes_base]
  exact Fp.not_square_of beta (by decide +kernel) (by decide +kernel)

abbrev Fp2 : Type := Quad Fp1

/-- Models src/pluto_eris/fp2.rs:19-77 (default `square_assign` and `mul_by_nonresidue`). -/
instance instExt2 : ExtField Fp2 where
  sqr := Quad.square
  dbl := Quad.double
  invert := Quad.invert
  isZero := Quad.isZero
  nonRes := ⟨Fp.ofRaw [0xddb6da4b5b6db6e8, 0x833bf7b35b701d98, 0x3f6072240ebe2483, 0x73cd928ee056022c, 0xce4a7f2a7bcb4495, 0xdbda9924971b3a9a, 0x0cdb6db6db6dc3b6],
    Fp.ofRaw [0xeb6db62d36db6db3, 0xb523fb0536dcde8e, 0x8c6d1148d5a5491b, 0x457b57ef5366ce1a, 0x489319197d79f5f3, 0xb71cc2492776bcc3, 0x07b6db6db6db756d]⟩
  mulNr x := mulNrDefault (⟨Fp.ofRaw [0xddb6da4b5b6db6e8, 0x833bf7b35b701d98, 0x3f6072240ebe2483, 0x73cd928ee056022c, 0xce4a7f2a7bcb4495, 0xdbda9924971b3a9a, 0x0cdb6db6db6dc3b6],
    Fp.ofRaw [0xeb6db62d36db6db3, 0xb523fb0536dcde8e, 0x8c6d1148d5a5491b, 0x457b57ef5366ce1a, 0x489319197d79f5f3, 0xb71cc2492776bcc3, 0x07b6db6db6db756d]⟩ : Quad Fp1) x
  frob := Quad.frob2

/-- The cubic (and quadratic) non-residue of `Fp2`. -/
@[irreducible] def xi : ℕ × ℕ := (0xcdb6db6db6dc3b6dbda9924971b3a9ace4a7f2a7bcb449573cd928ee056022c3f6072240ebe2483833bf7b35b701d98ddb6da4b5b6db6e8,
  0x7b6db6db6db756db71cc2492776bcc3489319197d79f5f3457b57ef5366ce1a8c6d1148d5a5491bb523fb0536dcde8eeb6db62d36db6db3)

theorem nonRes_2 : (ExtField.nonRes : Fp2) = cast plP xi := by
  ext
  · change (Fp.ofRaw _ : Fp1) = ((xi.1 : ℕ) : Fp1)
    rw [Fp.ofRaw_eq _ (by decide +kernel)]
    congr 1
    decide +kernel
  · change (Fp.ofRaw _ : Fp1) = ((xi.2 : ℕ) : Fp1)
    rw [Fp.ofRaw_eq _ (by decide +kernel)]
    congr 1
    decide +kernel

instance : LawfulExt Fp2 where
  sqr_eq x := Quad.square_eq x
  dbl_eq x := Quad.double_eq x
  mulNr_eq x := by
    rfl
  invert_iff x y := Quad.invert_iff x y

noncomputable instance instField2 : _root_.Field Fp2 := Quad.fieldOf not_square_base

/-- The norm of the non-residue. -/
@[irreducible] def xiNorm : ℕ := 0x1c4924924924ae924a141db6e608b4215f70b15d76bf307bfec4426d87239e61583a94b5ba08b6baed83edbdc929dab6b49246a5c9249332

theorem norm_xi : Quad.norm (ExtField.nonRes : Fp2) = (xiNorm : Fp1) := by
  rw [Quad.norm_eq, nonRes_base, nonRes_2]
  change ((xi.1 : ℕ) : Fp1) * ((xi.1 : ℕ) : Fp1) - (beta : Fp1) * (((xi.2 : ℕ) : Fp1) * ((xi.2 : ℕ) : Fp1)) = _
  rw [sub_eq_iff_eq_add, ← Nat.cast_mul, ← Nat.cast_mul, ← Nat.cast_mul, ← Nat.cast_add, Fp.natCast_eq_iff]
  decide +kernel

theorem not_square_2 : ¬ IsSquare (ExtField.nonRes : Fp2) := by
  apply Quad.not_square_of_norm
  rw [norm_xi]
  exact Fp.not_square_of xiNorm (by decide +kernel) (by decide +kernel)

theorem not_cube_2 : ∀ b : Fp2, b ^ 3 ≠ ExtField.nonRes := by
  apply Quad.not_cube_of_norm
  rw [norm_xi]
  exact Fp.not_cube_of xiNorm (by decide +kernel) (by decide +kernel) (by decide +kernel) (by decide +kernel)

/-- Models src/pluto_eris/fp6.rs:46-146 (`FROBENIUS_COEFF_FP6_C1`); `Fp2::ONE` is written `(from_raw(1), from_raw(0))`. -/
def frob6C1Raw : List (List ℕ × List ℕ) := [
  ([1, 0, 0, 0, 0, 0, 0],
   [0, 0, 0, 0, 0, 0, 0]),
  ([0xa001825382850d03, 0x52e787634eccc335, 0x041bc4bb14cc42dc, 0x6f93678bc921dcd5, 0xe3886170077a5098, 0x3bc0d351f4c70da1, 0x120de97f024c55bc],
   [0x2772fea378a9b322, 0x13be1b7cd3c9ea0e, 0x5efa1ddf46580804, 0xa1a7f5502b709196, 0x132461908eadbe3d, 0xd82becc2ef081b76, 0x2096f3f804d973af]),
  ([0x100004c37ffffffe, 0xc8ad8b38dffaf50c, 0xc956d01c903d720d, 0x50000d7ee0e4a803, 0x00000000360001c9, 0x0000000000004800, 0],
   [0, 0, 0, 0, 0, 0, 0]),
  ([0xa04518fa783eb497, 0x8b43b17b4c3ea938, 0x7cd52ae30d09b78a, 0x2913e38315a71c28, 0x833b798e78bd98c0, 0x2511749de232911d, 0x1f9cd069c59f50a7],
   [0x77240d4066e42ac5, 0x4a728fcb77b150ee, 0xe8faacb3479a973a, 0xc0aa2122aa7cb689, 0x3f4af36699fe6d74, 0xc26943f93dc9eab6, 0x23affd628747cbae]),
  ([0x8ffff80f80000002, 0xd9fa5d8a200bc439, 0x1b50d5e1ff708dc8, 0xf43f8cddf9a5c478, 0xa803ca76be3924a5, 0x0130e0000d7f28e4, 0x2400000000002400],
   [0, 0, 0, 0, 0, 0, 0]),
  ([0xffb95e58053c3e68, 0x672498a76502061c, 0x485e5c5efd860546, 0xefd7e9aad64bdffa, 0xe943b9ef683a6385, 0xa18f781044054309, 0x165546173814a19c],
   [0xa168edc22072221b, 0xe71f263db492378e, 0x815a816a9169606e, 0x262d1e46df2790d7, 0xfd983ff6bfc6212c, 0x67cc8f43ee2cdb9c, 0x03b90ea573df08a1])]

/-- Models src/pluto_eris/fp6.rs:149-249 (`FROBENIUS_COEFF_FP6_C2`); `Fp2::ONE` is written `(from_raw(1), from_raw(0))`. -/
def frob6C2Raw : List (List ℕ × List ℕ) := [
  ([1, 0, 0, 0, 0, 0, 0],
   [0, 0, 0, 0, 0, 0, 0]),
  ([0xb0a818e422737f7c, 0xd0ec132a7b38f09d, 0xc00e17ffb4a61950, 0x8c9549048e7b424c, 0xdc590efb038c8299, 0xc34610bac6bd22c4, 0x093733692ce3cdcf],
   [0x240ce398421dc7dc, 0x61c90b4940d9031c, 0xcdac3209d9df5460, 0x6f61d0bd35f39ebe, 0x26f29bd46039e303, 0xba3593aa6f3e6bf4, 0x12cb19daadc92882]),
  ([0x8ffff80f80000002, 0xd9fa5d8a200bc439, 0x1b50d5e1ff708dc8, 0xf43f8cddf9a5c478, 0xa803ca76be3924a5, 0x0130e0000d7f28e4, 0x2400000000002400],
   [0, 0, 0, 0, 0, 0, 0]),
  ([0x6885980d6c8d2186, 0x8f57e1c7a87f7555, 0x9aa5ace8b26b78d8, 0x1657aaf1e85b8229, 0xb2ce0cbc85b8561e, 0x5f7dd2f9f1405312, 0x085cc83a7eeba2ef],
   [0x2bca2a953ab51c9b, 0x0bbe8a0dd9ea1d31, 0x58d5ebe487e52368, 0xee0ea8b684b9400d, 0x7abc03d404620899, 0x6af75e8ec0dbd23e, 0x0da3357ee4e6a983]),
  ([0x100004c37ffffffe, 0xc8ad8b38dffaf50c, 0xc956d01c903d720d, 0x50000d7ee0e4a803, 0x00000000360001c9, 0x0000000000004800, 0],
   [0, 0, 0, 0, 0, 0, 0]),
  ([0x86d24be170ff5eff, 0x4263f3d0dc4e5352, 0x89f3e116289c6dad, 0xa152a66663b3a805, 0x18dcaebf6af44db7, 0xde6cfc4b5581fb0d, 0x126c045c5430b340],
   [0x5028eea5832d1b8a, 0x3520536be54398f8, 0xbe2588102de9880e, 0xe6cf20e91fdd8daf, 0x06552ace8f9d3ad1, 0xdc03edc6dd6532b2, 0x0391b0a66d5051f9])]

/-- Models src/pluto_eris/fp12.rs:42-253 (`FROBENIUS_COEFF_FP12_C1`); `Fp2::ONE` is written `(from_raw(1), from_raw(0))`. -/
def frob12C1Raw : List (List ℕ × List ℕ) := [
  ([1, 0, 0, 0, 0, 0, 0],
   [0, 0, 0, 0, 0, 0, 0]),
  ([0x2ee965dfef2303d3, 0x4e70648622c750f3, 0x1df055384b9e6cfd, 0x5d89c647b90de8f4, 0xd9892dedd51f3069, 0xdf0709dc343113cc, 0x03c3ad3da8b99cb1],
   [0xfa0be24ad758a5ff, 0x59f9373f4cf44e6a, 0x9f03876b2ddb1435, 0xf333d05254029488, 0xccb29838628f04b6, 0xaaa3b912182da22d, 0x149fd9ed2c7affe7]),
  ([0x100004c37fffffff, 0xc8ad8b38dffaf50c, 0xc956d01c903d720d, 0x50000d7ee0e4a803, 0x00000000360001c9, 0x0000000000004800, 0],
   [0, 0, 0, 0, 0, 0, 0]),
  ([0x28a3be71be4995ca, 0xf4af912a897f60a1, 0x89d390efef216fe4, 0xa5d8739325984fc8, 0xaf5ca1e56a2a81e6, 0x5764b80089c40010, 0x1baee9e044d94d20],
   [0x678f4479a1151232, 0x6f45d28e4ef1ecb9, 0x0b3c35a77291b29d, 0x07cd6b44b03ef113, 0xe65e47a7716bc8bc, 0x9b26f1795339413b, 0x20d4c11700e83282]),
  ([0x100004c37ffffffe, 0xc8ad8b38dffaf50c, 0xc956d01c903d720d, 0x50000d7ee0e4a803, 0x00000000360001c9, 0x0000000000004800, 0],
   [0, 0, 0, 0, 0, 0, 0]),
  ([0xf9ba5891cf2691f7, 0xa63f2ca466b80fad, 0x6be33bb7a38302e7, 0x484ead4b6c8a66d4, 0xd5d373f7950b517d, 0x785dae245592ec43, 0x17eb3ca29c1fb06e],
   [0x6d83622ec9bc6c33, 0x154c9b4f01fd9e4e, 0x6c38ae3c44b69e68, 0x14999af25c3c5c8a, 0x19abaf6f0edcc405, 0xf08338673b0b9f0e, 0x0c34e729d46d329a]),
  ([0x9ffffcd300000000, 0xa2a7e8c30006b945, 0xe4a7a5fe8fadffd6, 0x443f9a5cda8a6c7b, 0xa803ca76f439266f, 0x0130e0000d7f70e4, 0x2400000000002400],
   [0, 0, 0, 0, 0, 0, 0]),
  ([0x711696f310dcfc2e, 0x5437843cdd3f6852, 0xc6b750c6440f92d9, 0xe6b5d415217c8387, 0xce7a9c891f19f605, 0x2229d623d94e5d17, 0x203c52c25746874e],
   [0xa5f41a8828a75a02, 0x48aeb183b3126ada, 0x45a41e9361d2eba1, 0x510bca0a8687d7f3, 0xdb51323e91aa21b8, 0x568d26edf551ceb6, 0x0f602612d3852418]),
  ([0x8ffff80f80000002, 0xd9fa5d8a200bc439, 0x1b50d5e1ff708dc8, 0xf43f8cddf9a5c478, 0xa803ca76be3924a5, 0x0130e0000d7f28e4, 0x2400000000002400],
   [0, 0, 0, 0, 0, 0, 0]),
  ([0x775c3e6141b66a37, 0xadf85798768758a4, 0x5ad4150ea08c8ff1, 0x9e6726c9b4f21cb3, 0xf8a728918a0ea488, 0xa9cc27ff83bb70d3, 0x0851161fbb26d6df],
   [0x3870b8595eeaedcf, 0x33621634b114cc8c, 0xd96b70571d1c4d39, 0x3c722f182a4b7b68, 0xc1a582cf82cd5db3, 0x6609ee86ba462fa8, 0x032b3ee8ff17f17d]),
  ([0x8ffff80f80000003, 0xd9fa5d8a200bc439, 0x1b50d5e1ff708dc8, 0xf43f8cddf9a5c478, 0xa803ca76be3924a5, 0x0130e0000d7f28e4, 0x2400000000002400],
   [0, 0, 0, 0, 0, 0, 0]),
  ([0xa645a44130d96e0a, 0xfc68bc1e994ea997, 0x78c46a46ec2afcee, 0xfbf0ed116e0005a7, 0xd230567f5f2dd4f1, 0x88d331dbb7ec84a0, 0x0c14c35d63e07391],
   [0x327c9aa4364393ce, 0x8d5b4d73fe091af7, 0x786ef7c24af7616e, 0x2fa5ff6a7e4e0ff1, 0x8e581b07e55c626a, 0x10ada798d273d1d6, 0x17cb18d62b92f165])]

/-- The table as elements of the field. -/
def frob6C1 : List Fp2 := frob6C1Raw.map rawPair

/-- The table as elements of the field. -/
def frob6C2 : List Fp2 := frob6C2Raw.map rawPair

/-- The table as elements of the field. -/
def frob12C1 : List Fp2 := frob12C1Raw.map rawPair

/-- The values of a table. -/
def shadow (t : List (List ℕ × List ℕ)) : List (ℕ × ℕ) :=
  t.map fun x => (val x.1, val x.2)

theorem shadow_eq (t : List (List ℕ × List ℕ)) (h : ∀ x ∈ t, (x.1.length = numLimbs plP ∧ ∀ y ∈ x.1, y < 2 ^ 64) ∧
    (x.2.length = numLimbs plP ∧ ∀ y ∈ x.2, y < 2 ^ 64)) :
    (t.map rawPair : List Fp2) = (shadow t).map (cast plP) := by
  rw [shadow, List.map_map]
  exact List.map_congr_left fun x hx => rawPair_eq x (h x hx)

theorem frob6C1_eq : frob6C1 = (shadow frob6C1Raw).map (cast plP) := shadow_eq _ (by decide +kernel)
theorem frob6C2_eq : frob6C2 = (shadow frob6C2Raw).map (cast plP) := shadow_eq _ (by decide +kernel)
theorem frob12C1_eq : frob12C1 = (shadow frob12C1Raw).map (cast plP) := shadow_eq _ (by decide +kernel)

theorem dvd6 : 6 ∣ plP - 1 := by decide +kernel

theorem nonRes_pow : (ExtField.nonRes : Fp1) ^ ((plP - 1) / 2) = -1 := by
  rw [nonRes_base, Fp.natCast_pow _ _ (by decide +kernel)]
  have h : ((powMod plP beta ((plP - 1) / 2) + 1 : ℕ) : Fp1) = ((0 : ℕ) : Fp1) := by
    rw [Fp.natCast_eq_iff]; decide +kernel
  rw [Nat.cast_add, Nat.cast_one, Nat.cast_zero] at h
  exact eq_neg_of_add_eq_zero_left h

theorem frob_2 (i : ℕ) (x : Fp2) : Quad.frob2 i x = x ^ plP ^ i :=
  Quad.frob2_eq Fp.pow_p (dvd_trans (by decide) dvd6) nonRes_pow i x

theorem conj_eq (x : Fp2) : Quad.conjugate x = x ^ plP := by
  have := frob_2 1 x
  rw [pow_one] at this
  rw [← this]; rfl

theorem frob6C1_spec (i : ℕ) : frob6C1.getD (i % 6) 0 = (ExtField.nonRes : Fp2) ^ ((plP ^ i - 1) / 3) := by
  rw [frob6C1_eq, nonRes_2]
  exact table_spec nonRes_base (by decide) (by decide) (dvd_trans (by decide) dvd6) conj_eq _ xi
    (Shadow.pow plP beta xi ((plP - 1) / 3)) rfl (by decide +kernel) (by decide +kernel) i

theorem frob12C1_spec (i : ℕ) : frob12C1.getD (i % 12) 0 = (ExtField.nonRes : Fp2) ^ ((plP ^ i - 1) / 6) := by
  rw [frob12C1_eq, nonRes_2]
  exact table_spec nonRes_base (by decide) (by decide) dvd6 conj_eq _ xi
    (Shadow.pow plP beta xi ((plP - 1) / 6)) rfl (by decide +kernel) (by decide +kernel) i

theorem frob6C2_spec (i : ℕ) :
    frob6C2.getD (i % 6) 0 = ((ExtField.nonRes : Fp2) ^ ((plP ^ i - 1) / 3)) ^ 2 := by
  rw [← frob6C1_spec, frob6C1_eq, frob6C2_eq]
  have hi : i % 6 < 6 := Nat.mod_lt _ (by decide)
  rw [getD_map _ _ (lt_of_lt_of_eq hi (by decide +kernel)), getD_map _ _ (lt_of_lt_of_eq hi (by decide +kernel)),
    pow_two, ← cast_mul nonRes_base]
  have h : ∀ j < 6, (shadow frob6C2Raw).getD j (0, 0) = Shadow.mul plP beta ((shadow frob6C1Raw).getD j (0, 0))
      ((shadow frob6C1Raw).getD j (0, 0)) := by decide +kernel
  rw [h _ hi]

abbrev Fp6 : Type := Cubic Fp2

/-- Models src/pluto_eris/fp6.rs:18-43. -/
instance instExt6 : ExtField Fp6 where
  sqr := Cubic.square
  dbl := Cubic.double
  invert := Cubic.invert
  isZero := Cubic.isZero
  nonRes := Cubic.v
  mulNr := Cubic.mulV
  frob := Cubic.frob6 frob6C1 frob6C2

instance : LawfulExt Fp6 where
  sqr_eq x := Cubic.square_eq x
  dbl_eq x := Cubic.double_eq x
  mulNr_eq x := Cubic.mulV_eq x
  invert_iff x y := Cubic.invert_iff x y

noncomputable instance instField6 : _root_.Field Fp6 := Cubic.fieldOf not_cube_2

theorem not_square_6 : ¬ IsSquare (ExtField.nonRes : Fp6) := Cubic.v_not_square not_square_2

theorem frob_6 (i : ℕ) (x : Fp6) : ExtField.frob i x = x ^ plP ^ i :=
  Cubic.frob6_eq frob6C1 frob6C2 i (dvd_trans (by decide) dvd6) (fun a => frob_2 i a) (frob6C1_spec i) (frob6C2_spec i) x

abbrev Fp12 : Type := Quad Fp6

/-- Models src/pluto_eris/fp12.rs:15-33 (`NON_RESIDUE` is zero there, "no needs"). -/
instance instExt12 : ExtField Fp12 where
  sqr := Quad.square
  dbl := Quad.double
  invert := Quad.invert
  isZero := Quad.isZero
  nonRes := 0
  mulNr := mulNrDefault 0
  frob := Deg12.frob12 frob12C1

instance : LawfulExt Fp12 where
  sqr_eq x := Quad.square_eq x
  dbl_eq x := Quad.double_eq x
  mulNr_eq _ := rfl
  invert_iff x y := Quad.invert_iff x y

noncomputable instance instField12 : _root_.Field Fp12 := Quad.fieldOf not_square_6

theorem frob_12 (i : ℕ) (x : Fp12) : ExtField.frob i x = x ^ plP ^ i :=
  Deg12.frob12_eq rfl frob12C1 i dvd6 (fun a => frob_6 i a) (frob12C1_spec i) x

/-! ## Cyclotomic squaring -/

/-- The sixth root of unity of the `p^2`-power Frobenius. -/
def z6 : Fp2 := frob12C1.getD 2 0

theorem z6_spec : z6 * z6 + 1 = z6 := by
  rw [z6, frob12C1_eq, getD_map _ _ (by decide +kernel), ← cast_mul nonRes_base, ← cast_one, cast_add]
  exact cast_eq_of _ _ (by decide +kernel) (by decide +kernel)

theorem z6_eq : z6 = (ExtField.nonRes : Fp2) ^ ((plP ^ 2 - 1) / 6) := frob12C1_spec 2

theorem sixth_four (a : Fp2) : a ^ ((plP ^ 4 - 1) / 6) = a ^ ((plP ^ 2 - 1) / 6) * a ^ ((plP ^ 2 - 1) / 6) := by
  have e : (plP ^ 4 - 1) / 6 = (plP ^ 2 - 1) / 6 * plP ^ 2 + (plP ^ 2 - 1) / 6 := by decide +kernel
  rw [e, pow_add, pow_mul, ← frob_2 2]
  rfl

theorem third_eq (a : Fp2) (i : ℕ) (hi : 6 ∣ plP ^ i - 1) : a ^ ((plP ^ i - 1) / 3) = (a ^ ((plP ^ i - 1) / 6)) ^ 2 := by
  rw [← pow_mul]
  congr 1
  omega

theorem scale_two (x : Fp12) : x ^ plP ^ 2 = Deg12.scale z6 (z6 - 1) (-1) (-z6) (1 - z6) x := by
  rw [← frob_12]
  have h := third_eq ExtField.nonRes 2 (by decide +kernel)
  rw [← z6_eq] at h
  refine Deg12.frob12_two frob6C1 frob6C2 frob12C1 z6 z6_spec (fun _ => rfl) (fun _ => rfl) ?_ ?_ rfl x
  · rw [← pow_two, ← h]; exact frob6C1_spec 2
  · rw [← pow_two, ← h]; exact frob6C2_spec 2

theorem scale_four (x : Fp12) : x ^ plP ^ 4 = Deg12.scale (z6 - 1) (-z6) 1 (z6 - 1) (-z6) x := by
  rw [← frob_12]
  have h := third_eq ExtField.nonRes 4 (by decide +kernel)
  rw [sixth_four, ← z6_eq] at h
  have h4 : (z6 * z6) ^ 2 = z6 ^ 4 := by ring
  refine Deg12.frob12_four frob6C1 frob6C2 frob12C1 z6 z6_spec (fun _ => rfl) (fun _ => rfl) ?_ ?_ ?_ x
  · rw [← h4, ← h]; exact frob6C1_spec 4
  · rw [← h4, ← h]; exact frob6C2_spec 4
  · rw [z6_eq, ← sixth_four]; exact frob12C1_spec 4

theorem cyclotomicSquare_eq (x : Fp12) (h : x ^ (plP ^ 4 - plP ^ 2 + 1) = 1) : Deg12.cyclotomicSquare x = x * x := by
  apply Deg12.cyclotomicSquare_core rfl z6 z6_spec
  rw [← scale_four, ← scale_two]
  have e : plP ^ 4 + 1 = plP ^ 2 + (plP ^ 4 - plP ^ 2 + 1) := by decide +kernel
  rw [← pow_succ, e, pow_add, h, mul_one]

end Halo2.Pluto
