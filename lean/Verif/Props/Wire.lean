import Verif.Curve.Layout
import Verif.Props.Serde

/-!
# The wire format of points: C72
-/

set_option linter.unusedSectionVars false

namespace Halo2.Props

open Halo2 Halo2.Field Halo2.Prime Halo2.Ext Halo2.Curve Halo2.Hash

section
variable {F : Type} [_root_.Field F] [DecidableEq F] [BaseField F] [LawfulBase F]

/-- `1` for the point at infinity, whose affine coordinates are `(0, 0)`, and `0` otherwise. -/
def infBit (A : Aff F) : ℕ := if A.x = 0 ∧ A.y = 0 then 1 else 0

/-- The compressed form is `n` bytes, read as a little-endian integer: `x` (as the integer `num x`) with the
sign of `y` in the highest bit and the mark of the point at infinity in the next one. -/
def LayoutLE (K : Codec F) (C : Params F) (n : ℕ) (num sg : F → ℕ) : Prop :=
  ∀ A : Aff F, Aff.isOnCurve C A = true → ∃ b, K.encode C A = .ok b ∧ b.length = n ∧ IsBytes b ∧
    leNat b = num A.x + 2 ^ (8 * n - 1) * sg A.y + 2 ^ (8 * n - 2) * infBit A

/-- The compressed form is one byte of flags (128: sign of `y`, 64: infinity) followed by `n` bytes holding
`x` in little-endian order. -/
def LayoutExtra (K : Codec F) (C : Params F) (n : ℕ) (num sg : F → ℕ) : Prop :=
  ∀ A : Aff F, Aff.isOnCurve C A = true → ∃ t, K.encode C A = .ok ((128 * sg A.y + 64 * infBit A) :: t) ∧
    t.length = n ∧ IsBytes t ∧ leNat t = num A.x

/-- The compressed form is `n` bytes, read as a big-endian integer: `x` with the highest bit set, the mark of
the point at infinity in the next one and the sign of `y` in the third. -/
def LayoutBE (K : Codec F) (C : Params F) (n : ℕ) (num sg : F → ℕ) : Prop :=
  ∀ A : Aff F, Aff.isOnCurve C A = true → ∃ b, K.encode C A = .ok b ∧ b.length = n ∧ IsBytes b ∧
    Endian.nat .BE b = num A.x + 2 ^ (8 * n - 1) + 2 ^ (8 * n - 2) * infBit A + 2 ^ (8 * n - 3) * sg A.y

/-- The uncompressed form is `x` then `y`, each `n` bytes in the byte order `e`; for the point at infinity
both are zero. -/
def LayoutUnc (K : Codec F) (e : Endian) (n : ℕ) (num : F → ℕ) : Prop :=
  ∀ A : Aff F, ∃ bx bY, K.toUncompressed A = bx ++ bY ∧ bx.length = n ∧ bY.length = n ∧ IsBytes bx ∧ IsBytes bY ∧
    Endian.nat e bx = num A.x ∧ Endian.nat e bY = num A.y

/-- The raw forms are the little-endian images of the internal representation `mont` of the coordinates, in
the order `x, y` (affine) and `x, y, z` (projective). -/
def LayoutRaw (K : Codec F) (n : ℕ) (mont : F → ℕ) : Prop :=
  (∀ A : Aff F, ∃ bx bY, K.affToRaw A = bx ++ bY ∧ bx.length = n ∧ bY.length = n ∧ IsBytes bx ∧ IsBytes bY ∧
    leNat bx = mont A.x ∧ leNat bY = mont A.y) ∧
  (∀ P : Proj F, ∃ bx bY bz, K.projToRaw P = bx ++ bY ++ bz ∧ bx.length = n ∧ bY.length = n ∧ bz.length = n ∧
    IsBytes bx ∧ IsBytes bY ∧ IsBytes bz ∧ leNat bx = mont P.x ∧ leNat bY = mont P.y ∧ leNat bz = mont P.z)

theorem infBit_eq (A : Aff F) : A.isIdentity.toNat = infBit A := by
  rw [infBit]
  by_cases h : A.isIdentity = true
  · rw [h, if_pos]
    · rfl
    · rw [Codec.isIdentity_iff] at h
      rw [h]
      exact ⟨rfl, rfl⟩
  · rw [Bool.not_eq_true] at h
    rw [h, if_neg]
    · rfl
    · rintro ⟨hx, hy⟩
      have : A.isIdentity = true := (Codec.isIdentity_iff A).mpr (by cases A; cases hx; cases hy; rfl)
      rw [h] at this
      exact Bool.noConfusion this

theorem sign_eq (K : Codec F) (h0 : K.sgn 0 = false) (A : Aff F) : K.sign A = K.sgn A.y := by
  rw [Codec.sign]
  by_cases h : A.isIdentity = true
  · have h' := h
    rw [Codec.isIdentity_iff] at h'
    rw [h, h']
    change (K.sgn 0 && _) = K.sgn 0
    rw [h0]
    rfl
  · rw [Bool.not_eq_true] at h
    rw [h, Bool.not_false, Bool.and_true]

theorem pow_top (n : ℕ) (hn : 0 < n) : 256 ^ (n - 1) * 128 = 2 ^ (8 * n - 1) ∧ 256 ^ (n - 1) * 64 = 2 ^ (8 * n - 2) ∧
    256 ^ (n - 1) * 32 = 2 ^ (8 * n - 3) := by
  obtain ⟨m, rfl⟩ : ∃ m, n = m + 1 := ⟨n - 1, by omega⟩
  rw [Nat.add_sub_cancel, show (256 : ℕ) = 2 ^ 8 by norm_num, ← pow_mul, show (128 : ℕ) = 2 ^ 7 by norm_num,
    show (64 : ℕ) = 2 ^ 6 by norm_num, show (32 : ℕ) = 2 ^ 5 by norm_num, ← pow_add, ← pow_add, ← pow_add]
  refine ⟨?_, ?_, ?_⟩ <;> congr 1

theorem layoutLE_of {K : Codec F} {C : Params F} (hK : K.Lawful) (hc : K.config = .twoSpare) (he : K.endian = .LE) {n : ℕ}
    (hn : K.size = n) {num sg : F → ℕ} (hnum : ∀ x, leNat (K.toBytes x) = num x) (h0 : K.sgn 0 = false)
    (hsg : ∀ y, (K.sgn y).toNat = sg y) : LayoutLE K C n num sg := by
  subst hn
  intro A hA
  obtain ⟨b, h1, h2, h3, h4⟩ := Codec.encode_le hK hc he A hA
  refine ⟨b, h1, h2, h3, ?_⟩
  obtain ⟨e1, e2, _⟩ := pow_top K.size hK.size_pos
  rw [h4, hnum, sign_eq K h0, hsg, infBit_eq, ← e1, ← e2]
  ring

theorem layoutExtra_of {K : Codec F} {C : Params F} (hK : K.Lawful) (hc : K.config = .extra) {n : ℕ}
    (hn : K.size = n) {num sg : F → ℕ} (hnum : ∀ x, leNat (K.toBytes x) = num x) (h0 : K.sgn 0 = false)
    (hsg : ∀ y, (K.sgn y).toNat = sg y) : LayoutExtra K C n num sg := by
  subst hn
  intro A hA
  refine ⟨K.toBytes A.x, ?_, hK.length _, hK.isBytes _, hnum _⟩
  rw [Codec.encode_extra hK hc A hA, sign_eq K h0, hsg, infBit_eq]

theorem layoutBE_of {K : Codec F} {C : Params F} (hK : K.Lawful) (hc : K.config = .threeSpare) (he : K.endian = .BE) {n : ℕ}
    (hn : K.size = n) {num sg : F → ℕ} (hnum : ∀ x, Endian.nat .BE (K.toBytes x) = num x) (h0 : K.sgn 0 = false)
    (hsg : ∀ y, (K.sgn y).toNat = sg y) : LayoutBE K C n num sg := by
  subst hn
  intro A hA
  obtain ⟨b, h1, h2, h3, h4⟩ := Codec.encode_be hK hc he A hA
  refine ⟨b, h1, h2, h3, ?_⟩
  obtain ⟨e1, e2, e3⟩ := pow_top K.size hK.size_pos
  rw [h4, hnum, sign_eq K h0, hsg, infBit_eq, ← e1, ← e2, ← e3]
  ring

theorem layoutUnc_of {K : Codec F} (hK : K.Lawful) {e : Endian} {n : ℕ}
    (hn : K.size = n) {num : F → ℕ} (hnum : ∀ x, e.nat (K.toBytes x) = num x) : LayoutUnc K e n num := by
  subst hn
  intro A
  exact ⟨_, _, Codec.toUncompressed_eq A, hK.length _, hK.length _, hK.isBytes _, hK.isBytes _, hnum _, hnum _⟩

theorem layoutRaw_of {K : Codec F} (hK : K.Lawful) {n : ℕ}
    (hn : K.size = n) {mont : F → ℕ} (hm : ∀ x, leNat (K.toRaw x) = mont x) : LayoutRaw K n mont := by
  subst hn
  exact ⟨fun A => ⟨_, _, rfl, hK.raw_length _, hK.raw_length _, hK.raw_isBytes _, hK.raw_isBytes _, hm _, hm _⟩,
    fun P => ⟨_, _, _, (List.append_assoc _ _ _).symm, hK.raw_length _, hK.raw_length _, hK.raw_length _, hK.raw_isBytes _,
      hK.raw_isBytes _, hK.raw_isBytes _, hm _, hm _, hm _⟩⟩

end

section
variable {p : ℕ} [hp : Fact (OddModulus p)]

/-- The integer of an element. -/
noncomputable def num1 (x : Fp p) : ℕ := x.toNat
/-- The integer of `c0 + c1 u` in the little-endian layout of `n` bytes: `c0` in the low half. -/
noncomputable def num2 (n : ℕ) (x : Quad (Fp p)) : ℕ := x.c0.toNat + 2 ^ (4 * n) * x.c1.toNat
/-- The integer of `c0 + c1 u` in the big-endian layout of `n` bytes: `c0` comes first, so it is the high half. -/
noncomputable def num2BE (n : ℕ) (x : Quad (Fp p)) : ℕ := 2 ^ (4 * n) * x.c0.toNat + x.c1.toNat
/-- Parity. -/
noncomputable def par1 (y : Fp p) : ℕ := y.toNat % 2
/-- Parity of `c0`. -/
noncomputable def par2 (y : Quad (Fp p)) : ℕ := y.c0.toNat % 2
/-- In the upper half, `(p-1)/2` included. -/
noncomputable def upper1 (y : Fp p) : ℕ := if (p - 1) / 2 ≤ y.toNat then 1 else 0
/-- `c1` in the upper half, or `c1` zero and `c0` in the upper half; `(p-1)/2` included. -/
noncomputable def upper2 (y : Quad (Fp p)) : ℕ :=
  if (p - 1) / 2 ≤ y.c1.toNat ∨ (y.c1.toNat = 0 ∧ (p - 1) / 2 ≤ y.c0.toNat) then 1 else 0
/-- The Montgomery representative of an element held in `n` bytes. -/
noncomputable def mont1 (n : ℕ) (x : Fp p) : ℕ := x.toNat * 2 ^ (8 * n) % p
/-- The Montgomery representatives of the two components, `c0` in the low half. -/
noncomputable def mont2 (n : ℕ) (x : Quad (Fp p)) : ℕ :=
  x.c0.toNat * 2 ^ (4 * n) % p + 2 ^ (4 * n) * (x.c1.toNat * 2 ^ (4 * n) % p)

theorem isOdd_toNat (y : Fp p) : (Fp.isOdd y).toNat = par1 y := by
  rw [Fp.isOdd_eq, par1]
  rcases Nat.mod_two_eq_zero_or_one y.toNat with h | h <;> rw [h] <;> rfl

theorem isOdd2_toNat (y : Quad (Fp p)) : (Tower2.isOdd y).toNat = par2 y := by
  rw [Tower2.isOdd_eq, isOdd_toNat]; rfl

theorem decide_toNat (P : Prop) [Decidable P] : (decide P).toNat = if P then 1 else 0 := by
  by_cases h : P <;> simp [h]

theorem lexLargest_toNat (y : Fp p) : (Fp.lexLargest y).toNat = upper1 y := by
  rw [Fp.lexLargest_eq, decide_toNat]; rfl

theorem lexLargest2_toNat (y : Quad (Fp p)) : (Tower2.lexLargest y).toNat = upper2 y := by
  rw [upper2, ← decide_toNat]
  congr 1
  rw [Bool.eq_iff_iff, C20_lex_largest, decide_eq_true_iff]

theorem isOdd_zero : Fp.isOdd (0 : Fp p) = false := by rw [Fp.isOdd_eq, Fp.toNat_zero]; rfl
theorem isOdd2_zero : Tower2.isOdd (0 : Quad (Fp p)) = false := by rw [Tower2.isOdd_eq]; exact isOdd_zero
theorem lexLargest_zero (h : 0 < (p - 1) / 2) : Fp.lexLargest (0 : Fp p) = false := by
  rw [Fp.lexLargest_eq, Fp.toNat_zero, decide_eq_false_iff_not]; omega
theorem lexLargest2_zero (h : 0 < (p - 1) / 2) : Tower2.lexLargest (0 : Quad (Fp p)) = false := by
  rw [Tower2.lexLargest]
  change (Fp.lexLargest (0 : Fp p) || (_ && Fp.lexLargest (0 : Fp p))) = false
  rw [lexLargest_zero h, Bool.and_false]; rfl

theorem num2_eq (n : ℕ) (hn : 8 * n = 8 * (2 * Tower2.half p)) (x : Quad (Fp p)) : leNat (Tower2.toBytes .LE x) = num2 n x := by
  obtain ⟨a1, _, a3⟩ := Fp.toBytes_spec .LE x.c0
  obtain ⟨_, _, b3⟩ := Fp.toBytes_spec .LE x.c1
  have a3' : leNat (x.c0.toBytes .LE) = x.c0.toNat := a3
  have b3' : leNat (x.c1.toBytes .LE) = x.c1.toNat := b3
  rw [Tower2.toBytes, leNat_append', a1, a3', b3', num2, show (256 : ℕ) = 2 ^ 8 by norm_num, ← pow_mul]
  congr 3
  unfold Tower2.half at hn
  omega

theorem num2BE_eq (n : ℕ) (hn : 8 * n = 8 * (2 * Tower2.half p)) (x : Quad (Fp p)) :
    Endian.nat .BE (Tower2.toBytes .BE x) = num2BE n x := by
  obtain ⟨_, _, a3⟩ := Fp.toBytes_spec .BE x.c0
  obtain ⟨b1, _, b3⟩ := Fp.toBytes_spec .BE x.c1
  rw [Tower2.toBytes, beNat_append, b1, a3, b3, num2BE, show (256 : ℕ) = 2 ^ 8 by norm_num, ← pow_mul]
  congr 3
  unfold Tower2.half at hn
  omega

theorem val_limbs (x : Fp p) : val x.limbs = x.toNat * 2 ^ (64 * numLimbs p) % p := by
  have h := Fp.mont_eq x
  conv at h => lhs; rw [← Fp.natCast_toNat x]
  rw [← Nat.cast_mul] at h
  have h2 := (Fp.natCast_eq_iff _ _).mp h
  rw [h2, Nat.mod_eq_of_lt x.elem.lt]

theorem mont1_eq (n : ℕ) (hn : 8 * numLimbs p = n) (x : Fp p) : leNat x.toRawBytes = mont1 n x := by
  subst hn
  have h1 := (toBytesLE_spec x.limbs x.elem.wf).2.2
  have h2 : leNat x.toRawBytes = val x.limbs := h1
  rw [h2, val_limbs, mont1]
  congr 3
  omega

theorem mont2_eq (n : ℕ) (hn : 2 * Tower2.half p = n) (x : Quad (Fp p)) : leNat (Tower2.toRawBytes x) = mont2 n x := by
  have hraw : Tower2.toRawBytes x = x.c0.toRawBytes ++ x.c1.toRawBytes := by
    rw [Tower2.toRawBytes, List.flatMap_append]; rfl
  have e : 4 * n = 8 * (8 * numLimbs p) := by rw [← hn, Tower2.half]; omega
  rw [hraw, leNat_append', mont1_eq _ rfl, mont1_eq _ rfl, Fp.toRawBytes_length, mont2, mont1, mont1,
    show (256 : ℕ) = 2 ^ 8 by norm_num, ← pow_mul, e]

end

/-- **C72** The compressed forms of all shipped curves, bit by bit. -/
theorem C72_compressed :
    LayoutLE Bn256.g1Codec Bn256.g1 32 num1 par1 ∧
    LayoutLE Grumpkin.g1Codec Grumpkin.g1 32 num1 par1 ∧
    LayoutLE Pluto.g1Codec Pluto.g1 56 num1 par1 ∧
    LayoutLE Pluto.erisCodec Pluto.eris 56 num1 par1 ∧
    LayoutLE Bn256.g2Codec Bn256.g2 64 (num2 64) par2 ∧
    LayoutLE Pluto.g2Codec Pluto.g2 112 (num2 112) par2 ∧
    LayoutExtra Secp256k1.cCodec Secp256k1.c 32 num1 par1 ∧
    LayoutExtra Secq256k1.cCodec Secq256k1.c 32 num1 par1 ∧
    LayoutExtra Secp256r1.cCodec Secp256r1.c 32 num1 par1 ∧
    LayoutBE Bls12381.g1Codec Bls12381.g1 48 num1 upper1 ∧
    LayoutBE Bls12381.g2Codec Bls12381.g2 96 (num2BE 96) upper2 :=
  ⟨layoutLE_of Bn256.g1Codec_lawful rfl rfl (by decide +kernel) (fun x => (Fp.toBytes_spec .LE x).2.2) isOdd_zero isOdd_toNat,
   layoutLE_of Grumpkin.g1Codec_lawful rfl rfl (by decide +kernel) (fun x => (Fp.toBytes_spec .LE x).2.2) isOdd_zero isOdd_toNat,
   layoutLE_of Pluto.g1Codec_lawful rfl rfl (by decide +kernel) (fun x => (Fp.toBytes_spec .LE x).2.2) isOdd_zero isOdd_toNat,
   layoutLE_of Pluto.erisCodec_lawful rfl rfl (by decide +kernel) (fun x => (Fp.toBytes_spec .LE x).2.2) isOdd_zero isOdd_toNat,
   layoutLE_of Bn256.g2Codec_lawful rfl rfl (by decide +kernel) (num2_eq 64 (by decide +kernel)) isOdd2_zero isOdd2_toNat,
   layoutLE_of Pluto.g2Codec_lawful rfl rfl (by decide +kernel) (num2_eq 112 (by decide +kernel)) isOdd2_zero isOdd2_toNat,
   layoutExtra_of Secp256k1.cCodec_lawful rfl (by decide +kernel) (fun x => (Fp.toBytes_spec .LE x).2.2) isOdd_zero isOdd_toNat,
   layoutExtra_of Secq256k1.cCodec_lawful rfl (by decide +kernel) (fun x => (Fp.toBytes_spec .LE x).2.2) isOdd_zero isOdd_toNat,
   layoutExtra_of Secp256r1.cCodec_lawful rfl (by decide +kernel) (fun x => (Fp.toBytes_spec .LE x).2.2) isOdd_zero isOdd_toNat,
   layoutBE_of Bls12381.g1Codec_lawful rfl rfl (by decide +kernel) (fun x => (Fp.toBytes_spec .BE x).2.2)
    (lexLargest_zero (by decide +kernel)) lexLargest_toNat,
   layoutBE_of Bls12381.g2Codec_lawful rfl rfl (by decide +kernel) (num2BE_eq 96 (by decide +kernel))
    (lexLargest2_zero (by decide +kernel)) lexLargest2_toNat⟩

/-- **C72** The uncompressed forms of all shipped curves. -/
theorem C72_uncompressed :
    LayoutUnc Bn256.g1Codec .LE 32 num1 ∧ LayoutUnc Grumpkin.g1Codec .LE 32 num1 ∧
    LayoutUnc Pluto.g1Codec .LE 56 num1 ∧ LayoutUnc Pluto.erisCodec .LE 56 num1 ∧
    LayoutUnc Bn256.g2Codec .LE 64 (num2 64) ∧ LayoutUnc Pluto.g2Codec .LE 112 (num2 112) ∧
    LayoutUnc Secp256k1.cCodec .LE 32 num1 ∧ LayoutUnc Secq256k1.cCodec .LE 32 num1 ∧
    LayoutUnc Secp256r1.cCodec .LE 32 num1 ∧
    LayoutUnc Bls12381.g1Codec .BE 48 num1 ∧ LayoutUnc Bls12381.g2Codec .BE 96 (num2BE 96) :=
  ⟨layoutUnc_of Bn256.g1Codec_lawful (by decide +kernel) (fun x => (Fp.toBytes_spec .LE x).2.2),
   layoutUnc_of Grumpkin.g1Codec_lawful (by decide +kernel) (fun x => (Fp.toBytes_spec .LE x).2.2),
   layoutUnc_of Pluto.g1Codec_lawful (by decide +kernel) (fun x => (Fp.toBytes_spec .LE x).2.2),
   layoutUnc_of Pluto.erisCodec_lawful (by decide +kernel) (fun x => (Fp.toBytes_spec .LE x).2.2),
   layoutUnc_of Bn256.g2Codec_lawful (by decide +kernel) (num2_eq 64 (by decide +kernel)),
   layoutUnc_of Pluto.g2Codec_lawful (by decide +kernel) (num2_eq 112 (by decide +kernel)),
   layoutUnc_of Secp256k1.cCodec_lawful (by decide +kernel) (fun x => (Fp.toBytes_spec .LE x).2.2),
   layoutUnc_of Secq256k1.cCodec_lawful (by decide +kernel) (fun x => (Fp.toBytes_spec .LE x).2.2),
   layoutUnc_of Secp256r1.cCodec_lawful (by decide +kernel) (fun x => (Fp.toBytes_spec .LE x).2.2),
   layoutUnc_of Bls12381.g1Codec_lawful (by decide +kernel) (fun x => (Fp.toBytes_spec .BE x).2.2),
   layoutUnc_of Bls12381.g2Codec_lawful (by decide +kernel) (num2BE_eq 96 (by decide +kernel))⟩

/-- **C72** The raw forms of all shipped curves. -/
theorem C72_raw :
    LayoutRaw Bn256.g1Codec 32 (mont1 32) ∧ LayoutRaw Grumpkin.g1Codec 32 (mont1 32) ∧
    LayoutRaw Pluto.g1Codec 56 (mont1 56) ∧ LayoutRaw Pluto.erisCodec 56 (mont1 56) ∧
    LayoutRaw Bn256.g2Codec 64 (mont2 64) ∧ LayoutRaw Pluto.g2Codec 112 (mont2 112) ∧
    LayoutRaw Secp256k1.cCodec 32 (mont1 32) ∧ LayoutRaw Secq256k1.cCodec 32 (mont1 32) ∧
    LayoutRaw Secp256r1.cCodec 32 (mont1 32) ∧
    LayoutRaw Bls12381.g1Codec 48 (mont1 48) ∧ LayoutRaw Bls12381.g2Codec 96 (mont2 96) :=
  ⟨layoutRaw_of Bn256.g1Codec_lawful (by decide +kernel) (mont1_eq 32 (by decide +kernel)),
   layoutRaw_of Grumpkin.g1Codec_lawful (by decide +kernel) (mont1_eq 32 (by decide +kernel)),
   layoutRaw_of Pluto.g1Codec_lawful (by decide +kernel) (mont1_eq 56 (by decide +kernel)),
   layoutRaw_of Pluto.erisCodec_lawful (by decide +kernel) (mont1_eq 56 (by decide +kernel)),
   layoutRaw_of Bn256.g2Codec_lawful (by decide +kernel) (mont2_eq 64 (by decide +kernel)),
   layoutRaw_of Pluto.g2Codec_lawful (by decide +kernel) (mont2_eq 112 (by decide +kernel)),
   layoutRaw_of Secp256k1.cCodec_lawful (by decide +kernel) (mont1_eq 32 (by decide +kernel)),
   layoutRaw_of Secq256k1.cCodec_lawful (by decide +kernel) (mont1_eq 32 (by decide +kernel)),
   layoutRaw_of Secp256r1.cCodec_lawful (by decide +kernel) (mont1_eq 32 (by decide +kernel)),
   layoutRaw_of Bls12381.g1Codec_lawful (by decide +kernel) (mont1_eq 48 (by decide +kernel)),
   layoutRaw_of Bls12381.g2Codec_lawful (by decide +kernel) (mont2_eq 96 (by decide +kernel))⟩

/-! ## Comparison with published formats -/

/-- Sets bits in the first byte of a string. -/
def orFirst (m : ℕ) : List ℕ → List ℕ
  | [] => []
  | b :: t => (b ||| m) :: t

/-- `sign_GF_p` of draft-irtf-cfrg-pairing-friendly-curves-11, appendix C. -/
noncomputable def ietfSign1 (y : Fp blsQ) : ℕ := if (blsQ - 1) / 2 < y.toNat then 1 else 0
/-- `sign_GF_p^2`, ibid. -/
noncomputable def ietfSign2 (y : Quad (Fp blsQ)) : ℕ :=
  if y.c1.toNat = 0 then ietfSign1 y.c0 else ietfSign1 y.c1
/-- The compressed form of a point of BLS12-381's G1 in that draft (the format of ZCash). -/
noncomputable def ietfG1 (A : Aff (Fp blsQ)) : List ℕ :=
  orFirst (2 ^ 7 + 2 ^ 6 * infBit A + 2 ^ 5 * ietfSign1 A.y) (i2osp A.x.toNat 48)
/-- The uncompressed form in that draft. -/
noncomputable def ietfG1Unc (A : Aff (Fp blsQ)) : List ℕ :=
  orFirst (2 ^ 6 * infBit A) (i2osp A.x.toNat 48 ++ i2osp A.y.toNat 48)
/-- The compressed form of a point of G2: `c1` comes before `c0`. -/
noncomputable def ietfG2 (A : Aff Bls12381.Fq2) : List ℕ :=
  orFirst (2 ^ 7 + 2 ^ 6 * infBit A + 2 ^ 5 * ietfSign2 A.y) (i2osp A.x.c1.toNat 48 ++ i2osp A.x.c0.toNat 48)

theorem blsQ_lt : blsQ < 256 ^ 48 := by decide +kernel

theorem toBytes_i2osp (x : Fp blsQ) : Fp.toBytes .BE x = i2osp x.toNat 48 := by
  obtain ⟨h1, h2, h3⟩ := Fp.toBytes_spec .BE x
  refine beNat_inj ?_ h2 (i2osp_bytes _ _) ?_
  · rw [h1, i2osp_len]; decide +kernel
  · rw [h3, beNat_i2osp _ _ (lt_trans (Fp.toNat_lt x) blsQ_lt)]

theorem upper1_eq {A : Aff (Fp blsQ)} (hA : Aff.isOnCurve Bls12381.g1 A = true) : upper1 A.y = ietfSign1 A.y := by
  rw [upper1, ietfSign1]
  by_cases h : A.y.toNat = (blsQ - 1) / 2
  · exfalso
    have hq : (blsQ - 1) / 2 * 2 + 1 = blsQ ∧ 0 < (blsQ - 1) / 2 := by decide +kernel
    have hy : A.y ≠ 0 := fun e => by rw [e, Fp.toNat_zero] at h; omega
    have hid : A ≠ Aff.identity := fun e => hy (by rw [e]; rfl)
    refine Bls12381.g1_sign_sep hA hid ?_
    rw [Fp.lexLargest_eq, Fp.lexLargest_eq, Fp.toNat_neg _ hy, h]
    rw [decide_eq_true (by omega), decide_eq_true (le_refl _)]
  · congr 1
    exact propext ⟨fun e => lt_of_le_of_ne e (Ne.symm h), le_of_lt⟩

theorem or_flags : ∀ c < 32, ∀ i s : Bool, c ||| (2 ^ 7 + 2 ^ 6 * i.toNat + 2 ^ 5 * s.toNat) =
    FlagConfig.threeSpare.setAll i s c := by decide +kernel

theorem set_zero_eq {l : List ℕ} (hl : 0 < l.length) (m v : ℕ) (h : v = l.getD 0 0 ||| m) : l.set 0 v = orFirst m l := by
  cases l with
  | nil => simp at hl
  | cons b t => rw [List.getD_cons_zero] at h; rw [h]; rfl

/-- **C72** On bls12381's G1 the compressed form is that of the IETF draft (and of ZCash), for every point;
the uncompressed form is too, for every point other than the one at infinity. -/
theorem C72_ietf_g1 (A : Aff (Fp blsQ)) (hA : Aff.isOnCurve Bls12381.g1 A = true) :
    Bls12381.g1Codec.encode Bls12381.g1 A = .ok (ietfG1 A) ∧
    (infBit A = 0 → Bls12381.g1Codec.toUncompressed A = ietfG1Unc A) := by
  have hK := Bls12381.g1Codec_lawful
  constructor
  · refine (Codec.encode_eq hK A hA).trans (congrArg Outcome.ok ?_)
    have hi : Bls12381.g1Codec.idx = 0 := rfl
    have hb : Bls12381.g1Codec.base A.x = i2osp A.x.toNat 48 := toBytes_i2osp A.x
    have hf := Codec.base_flag hK A.x
    rw [hi, hb] at hf ⊢
    rw [ietfG1]
    refine set_zero_eq (by rw [i2osp_len]; norm_num) _ _ ?_
    have := or_flags _ hf A.isIdentity (Bls12381.g1Codec.sign A)
    rw [sign_eq _ (lexLargest_zero (by decide +kernel)), infBit_eq] at this
    rw [sign_eq _ (lexLargest_zero (by decide +kernel))]
    have h2 : (Bls12381.g1Codec.sgn A.y).toNat = ietfSign1 A.y := (lexLargest_toNat A.y).trans (upper1_eq hA)
    rw [h2] at this
    exact this.symm
  · intro h
    rw [ietfG1Unc, h, Codec.toUncompressed_eq]
    change Fp.toBytes .BE A.x ++ Fp.toBytes .BE A.y = _
    rw [toBytes_i2osp, toBytes_i2osp]
    have : ∀ l, orFirst (2 ^ 6 * 0) l = l := by
      intro l
      cases l with
      | nil => rfl
      | cons b t => change (b ||| 0) :: t = _; rw [Nat.or_zero]
    rw [this]

theorem beNat_orFirst (m : ℕ) (l r : List ℕ) (hl : 0 < l.length) :
    ∃ k, Endian.nat .BE (orFirst m (l ++ r)) = 256 ^ r.length * k + Endian.nat .BE r := by
  cases l with
  | nil => simp at hl
  | cons b t => exact ⟨Endian.nat .BE ((b ||| m) :: t), beNat_append ((b ||| m) :: t) r⟩

theorem top_split (c0 c1 i s : ℕ) : 2 ^ (4 * 96) * c0 + c1 + 2 ^ (8 * 96 - 1) + 2 ^ (8 * 96 - 2) * i + 2 ^ (8 * 96 - 3) * s =
    256 ^ 48 * (c0 + 2 ^ 383 + 2 ^ 382 * i + 2 ^ 381 * s) + c1 := by
  have e0 : (256 : ℕ) ^ 48 = 2 ^ 384 := by decide +kernel
  rw [e0, show 4 * 96 = 384 from rfl, show 8 * 96 - 1 = 384 + 383 from rfl, show 8 * 96 - 2 = 384 + 382 from rfl,
    show 8 * 96 - 3 = 384 + 381 from rfl, pow_add, pow_add, pow_add]
  generalize (2 : ℕ) ^ 384 = M
  ring

theorem split_inj {m a b c d : ℕ} (hb : b < m) (hd : d < m) (h : m * a + b = m * c + d) : b = d := by
  have := congrArg (· % m) h
  simpa [Nat.mul_add_mod, Nat.mod_eq_of_lt hb, Nat.mod_eq_of_lt hd] using this

/-- **C72 (false part)** The uncompressed form of the point at infinity of bls12381's G1 is not the draft's (no
bit marks it), and the forms of G2 put `c0` before `c1`, so they are not the draft's either. -/
theorem C72_ietf_false :
    Bls12381.g1Codec.toUncompressed Aff.identity ≠ ietfG1Unc Aff.identity ∧
    (∀ A : Aff Bls12381.Fq2, Aff.isOnCurve Bls12381.g2 A = true → A.x.c0 ≠ A.x.c1 →
      Bls12381.g2Codec.encode Bls12381.g2 A ≠ .ok (ietfG2 A)) ∧
    (∃ A : Aff Bls12381.Fq2, Aff.isOnCurve Bls12381.g2 A = true ∧ A.x.c0 ≠ A.x.c1) := by
  refine ⟨?_, ?_, Bls12381.g2Gen, C21_generators.2.2.2.2.1.1, ?_⟩
  · rw [Codec.toUncompressed_eq, ietfG1Unc]
    change Fp.toBytes .BE (0 : Fp blsQ) ++ Fp.toBytes .BE (0 : Fp blsQ) ≠ _
    rw [toBytes_i2osp]
    have h1 : infBit (Aff.identity : Aff (Fp blsQ)) = 1 := if_pos ⟨rfl, rfl⟩
    have h2 : (Aff.identity : Aff (Fp blsQ)).x.toNat = 0 := Fp.toNat_zero
    have h3 : (Aff.identity : Aff (Fp blsQ)).y.toNat = 0 := Fp.toNat_zero
    rw [h1, h2, h3, Fp.toNat_zero]
    decide +kernel
  · intro A hA hne h
    obtain ⟨b, h1, h2, h3, h4⟩ := C72_compressed.2.2.2.2.2.2.2.2.2.2 A hA
    rw [h] at h1
    have hb : b = ietfG2 A := (Outcome.ok.inj h1).symm
    have t1 := beNat_orFirst (2 ^ 7 + 2 ^ 6 * infBit A + 2 ^ 5 * ietfSign2 A.y) (i2osp A.x.c1.toNat 48) (i2osp A.x.c0.toNat 48)
      (by rw [i2osp_len]; norm_num)
    obtain ⟨k, t1⟩ := t1
    rw [i2osp_len, beNat_i2osp _ _ (lt_trans (Fp.toNat_lt _) blsQ_lt)] at t1
    have t2 : Endian.nat .BE b = 256 ^ 48 * k + A.x.c0.toNat := by rw [hb]; exact t1
    rw [h4, num2BE, top_split] at t2
    apply hne
    apply Fp.toNat_inj
    exact (split_inj (lt_trans (Fp.toNat_lt _) blsQ_lt) (lt_trans (Fp.toNat_lt _) blsQ_lt) t2).symm
  · intro h
    have hx := Bls12381.g2XVal_eq
    have h0 : Bls12381.g2Gen.x.c0 = ((Bls12381.g2XVal.1 : ℕ) : Fp blsQ) := congrArg Quad.c0 hx
    have h1 : Bls12381.g2Gen.x.c1 = ((Bls12381.g2XVal.2 : ℕ) : Fp blsQ) := congrArg Quad.c1 hx
    rw [h0, h1, Fp.natCast_eq_iff] at h
    exact absurd h (by decide +kernel)

/-- The compressed form of SEC 1, section 2.3.3, of a point over a field of 32 bytes. -/
noncomputable def sec1 {p : ℕ} [Fact (OddModulus p)] [Fact p.Prime] [Fp.SmallModulus p] (A : Aff (Fp p)) : List ℕ :=
  if A.x = 0 ∧ A.y = 0 then [0] else (2 + A.y.toNat % 2) :: i2osp A.x.toNat 32

theorem sec1_ne {p : ℕ} [Fact (OddModulus p)] [Fact p.Prime] [Fp.SmallModulus p] {K : Codec (Fp p)} {C : Params (Fp p)}
    (h : LayoutExtra K C 32 num1 par1) (A : Aff (Fp p)) (hA : Aff.isOnCurve C A = true) : K.encode C A ≠ .ok (sec1 A) := by
  intro he
  obtain ⟨t, h1, h2, _⟩ := h A hA
  rw [he] at h1
  have h3 := Outcome.ok.inj h1
  rw [sec1] at h3
  split at h3
  · have h4 := (List.cons.inj h3).2
    rw [← h4] at h2
    exact absurd h2 (by decide)
  · have h4 := (List.cons.inj h3).1
    have : infBit A = 0 ∨ infBit A = 1 := by rw [infBit]; split <;> simp
    have : par1 A.y < 2 := Nat.mod_lt _ (by norm_num)
    have : A.y.toNat % 2 < 2 := Nat.mod_lt _ (by norm_num)
    omega

/-- **C72 (false part)** No point of secp256k1 or secp256r1 has the compressed form of SEC 1. -/
theorem C72_sec1_false :
    (∀ A, Aff.isOnCurve Secp256k1.c A = true → Secp256k1.cCodec.encode Secp256k1.c A ≠ .ok (sec1 A)) ∧
    (∀ A, Aff.isOnCurve Secp256r1.c A = true → Secp256r1.cCodec.encode Secp256r1.c A ≠ .ok (sec1 A)) :=
  ⟨sec1_ne C72_compressed.2.2.2.2.2.2.1, sec1_ne C72_compressed.2.2.2.2.2.2.2.2.1⟩

/-- C72 for the generators. -/
example : Bls12381.g1Codec.encode Bls12381.g1 Bls12381.g1Gen = .ok (ietfG1 Bls12381.g1Gen) ∧
    Secp256k1.cCodec.encode Secp256k1.c Secp256k1.cGen ≠ .ok (sec1 Secp256k1.cGen) :=
  ⟨(C72_ietf_g1 _ C21_generators.2.2.2.1.1).1, C72_sec1_false.1 _ C21_generators.2.2.2.2.2.2.2.2.1.1⟩

end Halo2.Props
