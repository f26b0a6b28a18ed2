import Verif.Curve.SerdeLemmas
import Verif.Curve.Inst
import Verif.Props.Ext2

/-!
# The point encodings of the shipped curves
-/

set_option linter.unusedSectionVars false

namespace Halo2

open Halo2.Field Halo2.Prime Halo2.Ext Halo2.Curve

/-! ## Uncompressed and raw forms -/

namespace Curve.Codec

variable {F : Type} [_root_.Field F] [DecidableEq F] [BaseField F] [LawfulBase F] {K : Codec F} {C : Params F}

theorem toUncompressed_eq (A : Aff F) : K.toUncompressed A = K.toBytes A.x ++ K.toBytes A.y := by
  rw [toUncompressed]
  split
  · next h =>
    rw [isIdentity_iff] at h
    rw [h]
    rfl
  · rfl

theorem fromUncompressed_iff (hK : K.Lawful) (b : List ℕ) (hl : b.length = 2 * K.size) (hb : IsBytes b) (P : Aff F) :
    (K.fromUncompressedUnchecked b = .ok (some P) ↔ b = K.toUncompressed P) ∧
    (K.fromUncompressed C b = .ok (some P) ↔ Aff.isOnCurve C P = true ∧ b = K.toUncompressed P) := by
  have hl1 : (b.take K.size).length = K.size := by rw [List.length_take, hl]; omega
  have hl2 : ((b.drop K.size).take K.size).length = K.size := by
    rw [List.length_take, List.length_drop, hl]; omega
  have hd : (b.drop K.size).take K.size = b.drop K.size :=
    List.take_of_length_le (by rw [List.length_drop, hl]; omega)
  have i1 := hK.fromBytes_iff _ hl1 (hb.take _)
  have i2 := hK.fromBytes_iff _ hl2 ((hb.drop _).take _)
  have hsplit := List.take_append_drop K.size b
  have hpt : ∀ x y : F, (if isZero x && isZero y then some Aff.identity else some (⟨x, y⟩ : Aff F)) = some ⟨x, y⟩ := by
    intro x y
    split
    · next h =>
      rw [Bool.and_eq_true, LawfulBase.isZero_iff, LawfulBase.isZero_iff] at h
      rw [h.1, h.2]
      rfl
    · rfl
  have key : K.fromUncompressedUnchecked b = .ok (some P) ↔ b = K.toUncompressed P := by
    rw [toUncompressed_eq]
    constructor
    · intro h
      unfold fromUncompressedUnchecked at h
      generalize hx : K.fromBytes (b.take K.size) = ox at h
      generalize hy : K.fromBytes ((b.drop K.size).take K.size) = oy at h
      rcases ox with (_ | x) | _
      · rcases oy with (_ | y) | _ <;> simp at h
      · rcases oy with (_ | y) | _
        · simp at h
        · simp only [Option.bind_some, hpt, Outcome.ok.injEq, Option.some.injEq] at h
          subst h
          rw [i1] at hx
          rw [i2, hd] at hy
          rw [← hsplit, hx, hy]
        · simp at h
      · simp at h
    · intro h
      have e1 : b.take K.size = K.toBytes P.x := by
        rw [h, ← hK.length P.x, List.take_left]
      have e2 : (b.drop K.size).take K.size = K.toBytes P.y := by
        rw [hd, h, ← hK.length P.x, List.drop_left]
      rw [fromUncompressedUnchecked, (i1 _).mpr e1, (i2 _).mpr e2]
      simp only [Option.bind_some, hpt]
  refine ⟨key, ?_⟩
  rw [fromUncompressed, ← key]
  rcases K.fromUncompressedUnchecked b with (_ | q) | _
  · simp
  · simp only [Option.bind_some, Outcome.ok.injEq, Option.some.injEq]
    constructor
    · intro h
      split at h
      · next hq => cases h; exact ⟨hq, rfl⟩
      · cases h
    · rintro ⟨h, rfl⟩
      rw [if_pos h]
  · simp

theorem toUncompressed_length (hK : K.Lawful) (A : Aff F) :
    (K.toUncompressed A).length = 2 * K.size ∧ IsBytes (K.toUncompressed A) := by
  rw [toUncompressed_eq, List.length_append, hK.length, hK.length]
  exact ⟨by omega, (hK.isBytes _).append (hK.isBytes _)⟩

theorem affFromRaw_iff (hK : K.Lawful) (b : List ℕ) (hb : IsBytes b) (P : Aff F) :
    K.affFromRaw C b = some P ↔ Aff.isOnCurve C P = true ∧ b = K.affToRaw P := by
  have i1 := hK.fromRaw_iff _ (hb.take K.size)
  have i2 := hK.fromRaw_iff _ ((hb.drop K.size).take K.size)
  rw [affFromRaw]
  constructor
  · intro h
    split at h
    · cases h
    · next hlen =>
      split at h
      · next x y hx hy =>
        rw [i1] at hx
        rw [i2] at hy
        split at h
        · next ho =>
          cases h
          refine ⟨ho, ?_⟩
          rw [affToRaw, ← hx, ← hy, List.take_of_length_le (l := b.drop _), List.take_append_drop]
          rw [List.length_drop]; omega
        · cases h
      · cases h
  · rintro ⟨ho, h⟩
    have e1 : b.take K.size = K.toRaw P.x := by rw [h, affToRaw, ← hK.raw_length P.x, List.take_left]
    have e2 : (b.drop K.size).take K.size = K.toRaw P.y := by
      rw [h, affToRaw]
      conv_lhs => rw [← hK.raw_length P.x, List.drop_left]
      exact List.take_of_length_le (by rw [hK.raw_length, hK.raw_length])
    have e3 : b.length = 2 * K.size := by rw [h, affToRaw, List.length_append, hK.raw_length, hK.raw_length]; omega
    rw [if_neg (not_not.mpr e3), (i1 _).mpr e1, (i2 _).mpr e2]
    exact if_pos ho

theorem affReadRaw_iff (hK : K.Lawful) (s : List ℕ) (hs : IsBytes s) (P : Aff F) (rest : List ℕ) :
    K.affReadRaw s = some (P, rest) ↔ s = K.affToRaw P ++ rest := by
  rw [affReadRaw, affToRaw]
  constructor
  · intro h
    split at h
    · cases h
    · next x t hx =>
      rw [hK.readRaw_iff _ hs] at hx
      have ht : IsBytes t := fun y hy => hs y (by rw [hx]; exact List.mem_append_right _ hy)
      split at h
      · cases h
      · next y t' hy =>
        rw [hK.readRaw_iff _ ht] at hy
        cases h
        rw [hx, hy, List.append_assoc]
  · rintro rfl
    rw [List.append_assoc] at hs ⊢
    have ht : IsBytes (K.toRaw P.y ++ rest) := fun y hy => hs y (List.mem_append_right _ hy)
    rw [(hK.readRaw_iff _ hs P.x _).mpr rfl]
    simp only
    rw [(hK.readRaw_iff _ ht P.y _).mpr rfl]

theorem projReadRaw_iff (hK : K.Lawful) (s : List ℕ) (hs : IsBytes s) (P : Proj F) (rest : List ℕ) :
    K.projReadRaw s = some (P, rest) ↔ s = K.projToRaw P ++ rest := by
  rw [projReadRaw, projToRaw]
  constructor
  · intro h
    split at h
    · cases h
    · next x t hx =>
      rw [hK.readRaw_iff _ hs] at hx
      have ht : IsBytes t := fun y hy => hs y (by rw [hx]; exact List.mem_append_right _ hy)
      split at h
      · cases h
      · next y t' hy =>
        rw [hK.readRaw_iff _ ht] at hy
        have ht' : IsBytes t' := fun y hy' => ht y (by rw [hy]; exact List.mem_append_right _ hy')
        split at h
        · cases h
        · next z t'' hz =>
          rw [hK.readRaw_iff _ ht'] at hz
          cases h
          rw [hx, hy, hz, List.append_assoc, List.append_assoc]
  · rintro rfl
    rw [List.append_assoc, List.append_assoc] at hs ⊢
    have ht : IsBytes (K.toRaw P.y ++ (K.toRaw P.z ++ rest)) := fun y hy => hs y (List.mem_append_right _ hy)
    have ht' : IsBytes (K.toRaw P.z ++ rest) := fun y hy => ht y (List.mem_append_right _ hy)
    rw [(hK.readRaw_iff _ hs P.x _).mpr rfl]
    simp only
    rw [(hK.readRaw_iff _ ht P.y _).mpr rfl]
    simp only
    rw [(hK.readRaw_iff _ ht' P.z _).mpr rfl]

theorem projFromRaw_iff (hK : K.Lawful) (b : List ℕ) (hb : IsBytes b) (P : Proj F) :
    K.projFromRaw C b = some P ↔ Proj.isOnCurve C P = true ∧ b = K.projToRaw P := by
  have i1 := hK.fromRaw_iff _ (hb.take K.size)
  have i2 := hK.fromRaw_iff _ ((hb.drop K.size).take K.size)
  have i3 := hK.fromRaw_iff _ ((hb.drop (2 * K.size)).take K.size)
  rw [projFromRaw]
  constructor
  · intro h
    split at h
    · cases h
    · next hlen =>
      split at h
      · next x y z hx hy hz =>
        rw [i1] at hx
        rw [i2] at hy
        rw [i3] at hz
        split at h
        · next ho =>
          cases h
          refine ⟨ho, ?_⟩
          have e : b.drop (2 * K.size) = (b.drop K.size).drop K.size := by rw [List.drop_drop]; congr 1; omega
          rw [projToRaw, ← hx, ← hy, ← hz, List.take_of_length_le (l := b.drop (2 * K.size)), e, List.take_append_drop,
            List.take_append_drop]
          rw [List.length_drop]; omega
        · cases h
      · cases h
  · rintro ⟨ho, h⟩
    have hx := hK.raw_length P.x
    have hy := hK.raw_length P.y
    have hz := hK.raw_length P.z
    have e1 : b.take K.size = K.toRaw P.x := by rw [h, projToRaw, ← hx, List.take_left]
    have d1 : b.drop K.size = K.toRaw P.y ++ K.toRaw P.z := by rw [h, projToRaw, ← hx, List.drop_left]
    have e2 : (b.drop K.size).take K.size = K.toRaw P.y := by rw [d1, ← hy, List.take_left]
    have e3 : (b.drop (2 * K.size)).take K.size = K.toRaw P.z := by
      have e : b.drop (2 * K.size) = (b.drop K.size).drop K.size := by rw [List.drop_drop]; congr 1; omega
      rw [e, d1]
      have : (K.toRaw P.y ++ K.toRaw P.z).drop K.size = K.toRaw P.z := by rw [← hy, List.drop_left]
      rw [this]
      exact List.take_of_length_le (by rw [hz])
    have e4 : b.length = 3 * K.size := by
      rw [h, projToRaw, List.length_append, List.length_append, hx, hy, hz]; omega
    rw [if_neg (not_not.mpr e4), (i1 _).mpr e1, (i2 _).mpr e2, (i3 _).mpr e3]
    exact if_pos ho

end Curve.Codec

/-! ## Prime fields -/

theorem leNat_last (l : List ℕ) (h : 0 < l.length) : 256 ^ (l.length - 1) * l.getD (l.length - 1) 0 ≤ leNat l := by
  induction l with
  | nil => simp at h
  | cons a t ih =>
    rw [leNat]
    cases t with
    | nil => simp [leNat]
    | cons b t =>
      have := ih (by simp)
      simp only [List.length_cons, Nat.add_sub_cancel] at this ⊢
      rw [List.getD_cons_succ, pow_succ]
      calc 256 ^ t.length * 256 * (b :: t).getD t.length 0 = 256 * (256 ^ t.length * (b :: t).getD t.length 0) := by ring
        _ ≤ 256 * leNat (b :: t) := Nat.mul_le_mul_left _ this
        _ ≤ _ := by omega

/-- The index of the most significant byte. -/
def topIdx : Endian → ℕ → ℕ
  | .LE, n => n - 1
  | .BE, _ => 0

/-- The most significant byte of an encoding, in either byte order. -/
theorem top_byte (e : Endian) (l : List ℕ) (h : 0 < l.length) (n k : ℕ) (hn : e.nat l < n) (hk : n ≤ k * 256 ^ (l.length - 1)) :
    l.getD (topIdx e l.length) 0 < k := by
  have key : ∀ m : List ℕ, m.length = l.length → leNat m < n → m.getD (m.length - 1) 0 < k := by
    intro m hm hlt
    have := leNat_last m (by rw [hm]; exact h)
    rw [hm] at this ⊢
    have h2 : 256 ^ (l.length - 1) * m.getD (l.length - 1) 0 < 256 ^ (l.length - 1) * k := by
      rw [Nat.mul_comm _ k]; omega
    exact Nat.lt_of_mul_lt_mul_left h2
  cases e with
  | LE => exact key l rfl hn
  | BE =>
    have := key l.reverse List.length_reverse hn
    rw [List.length_reverse, List.getD_eq_getElem?_getD, List.getElem?_reverse (by omega)] at this
    rw [List.getD_eq_getElem?_getD]
    have e : l.length - 1 - (l.length - 1) = 0 := by omega
    rw [e] at this
    exact this

/-- The encoding of a curve over the prime field `Fp p` with generator `g`. -/
def Fp.codec (p g : ℕ) [Fact (OddModulus p)] (e : Endian) (cfg : FlagConfig) (sgn : Fp p → Bool) : Codec (Fp p) where
  size := 8 * numLimbs p
  endian := e
  config := cfg
  toBytes := Fp.toBytes e
  fromBytes b := .ok (Fp.fromBytes e (b.take (8 * numLimbs p)))
  sgn := sgn
  sqrt a := .ok (Fp.sqrt g a)
  toRaw := Fp.toRawBytes
  fromRaw := Fp.fromRawBytes
  readRaw := Fp.readRaw

theorem Fp.codec_lawful {p g : ℕ} [Fact (OddModulus p)] [Fact p.Prime] [Fp.SmallModulus p] (e : Endian) (cfg : FlagConfig)
    (sgn : Fp p → Bool) (hn : 0 < numLimbs p) (hb : cfg = .extra ∨ p ≤ cfg.bound * 256 ^ (8 * numLimbs p - 1))
    (hs : ∀ a : Fp p, (∀ r, Fp.sqrt g a = some r → r * r = a) ∧ (Fp.sqrt g a = none ↔ ¬ IsSquare a)) :
    (Fp.codec p g e cfg sgn).Lawful where
  size_pos := by change 0 < 8 * numLimbs p; omega
  length a := (Fp.toBytes_spec e a).1
  isBytes a := (Fp.toBytes_spec e a).2.1
  fromBytes_iff b hl hb a := by
    change Outcome.ok (Fp.fromBytes e (b.take (8 * numLimbs p))) = _ ↔ _
    rw [List.take_of_length_le (by rw [hl]; exact le_refl _), Outcome.ok.injEq]
    exact Fp.fromBytes_some e b hl hb a
  spare a hc := by
    replace hb := hb.resolve_left hc
    obtain ⟨h1, h2, h3⟩ := Fp.toBytes_spec e a
    have := top_byte e (Fp.toBytes e a) (by rw [h1]; omega) p cfg.bound (by rw [h3]; exact Fp.toNat_lt a) (by rw [h1]; exact hb)
    change (Fp.toBytes e a).getD ((Fp.codec p g e cfg sgn).flagIdx (Fp.toBytes e a)) 0 < cfg.bound
    have hi : (Fp.codec p g e cfg sgn).flagIdx (Fp.toBytes e a) = topIdx e (Fp.toBytes e a).length := by
      change cfg ≠ .extra at hc
      unfold Codec.flagIdx
      change (match cfg with | .extra => 0 | _ => match e with | .LE => (Fp.toBytes e a).length - 1 | .BE => 0) = _
      clear hb this
      cases cfg
      · exact absurd rfl hc
      · cases e <;> rfl
      · cases e <;> rfl
    rw [hi]
    exact this
  sqrt a _ := ⟨_, rfl, (hs a).1, fun h => (hs a).2.mp h⟩
  raw_length := Fp.toRawBytes_length
  raw_isBytes := Fp.toRawBytes_isBytes
  fromRaw_iff := Fp.fromRawBytes_iff
  readRaw_iff := Fp.readRaw_iff

/-- What is asked of a square root function: right on non-zero arguments. -/
def SqrtSpec {F : Type} [_root_.Field F] (sqrt : F → Outcome (Option F)) : Prop :=
  ∀ a, a ≠ 0 → ∃ r, sqrt a = .ok r ∧ (∀ s, r = some s → s * s = a) ∧ (r = none → ¬ IsSquare a)

/-- The encoding of a curve over the quadratic extension of `Fp p`. -/
def Tower2.codec (p : ℕ) [Fact (OddModulus p)] (e : Endian) (cfg : FlagConfig) (sgn : Quad (Fp p) → Bool)
    (sqrt : Quad (Fp p) → Outcome (Option (Quad (Fp p)))) : Codec (Quad (Fp p)) where
  size := 2 * Tower2.half p
  endian := e
  config := cfg
  toBytes := Tower2.toBytes e
  fromBytes b := Tower2.fromBytes e (b.take (2 * Tower2.half p))
  sgn := sgn
  sqrt := sqrt
  toRaw := Tower2.toRawBytes
  fromRaw := Tower2.fromRawBytes
  readRaw := Tower2.readRaw

theorem Tower2.codec_lawful {p : ℕ} [Fact (OddModulus p)] [_root_.Field (Quad (Fp p))] [DecidableEq (Quad (Fp p))]
    [BaseField (Quad (Fp p))] [LawfulBase (Quad (Fp p))] (e : Endian) (cfg : FlagConfig)
    (sgn : Quad (Fp p) → Bool) (sqrt : Quad (Fp p) → Outcome (Option (Quad (Fp p))))
    (hn : 0 < numLimbs p) (hb : cfg = .extra ∨ p ≤ cfg.bound * 256 ^ (8 * numLimbs p - 1))
    (hs : SqrtSpec sqrt) :
    (Tower2.codec p e cfg sgn sqrt).Lawful where
  size_pos := by change 0 < 2 * (8 * numLimbs p); omega
  length a := (Props.C20_encode p e a).1
  isBytes a := (Props.C20_encode p e a).2.1
  fromBytes_iff b hl hb a := by
    change Tower2.fromBytes e (b.take (2 * Tower2.half p)) = _ ↔ _
    rw [List.take_of_length_le (by rw [hl]; exact le_refl _)]
    exact (Props.C20_decode_exact p e b hl hb a).1
  spare a hc := by
    replace hb := hb.resolve_left hc
    obtain ⟨h1, h2, h3⟩ := Fp.toBytes_spec e a.c0
    obtain ⟨k1, k2, k3⟩ := Fp.toBytes_spec e a.c1
    have t0 := top_byte e (Fp.toBytes e a.c0) (by rw [h1]; omega) p cfg.bound (by rw [h3]; exact Fp.toNat_lt _) (by rw [h1]; exact hb)
    have t1 := top_byte e (Fp.toBytes e a.c1) (by rw [k1]; omega) p cfg.bound (by rw [k3]; exact Fp.toNat_lt _) (by rw [k1]; exact hb)
    change (Tower2.toBytes e a).getD ((Tower2.codec p e cfg sgn sqrt).flagIdx (Tower2.toBytes e a)) 0 < cfg.bound
    have hi : (Tower2.codec p e cfg sgn sqrt).flagIdx (Tower2.toBytes e a) =
        topIdx e (Tower2.toBytes e a).length := by
      change cfg ≠ .extra at hc
      unfold Codec.flagIdx
      change (match cfg with | .extra => 0 | _ => match e with | .LE => (Tower2.toBytes e a).length - 1 | .BE => 0) = _
      cases cfg
      · exact absurd rfl hc
      · cases e <;> rfl
      · cases e <;> rfl
    rw [hi, Tower2.toBytes]
    cases e with
    | LE =>
      simp only [topIdx] at t1 ⊢
      rw [List.length_append, List.getD_eq_getElem?_getD, List.getElem?_append_right (by omega)]
      rw [List.getD_eq_getElem?_getD] at t1
      rw [show (Fp.toBytes Endian.LE a.c0).length + (Fp.toBytes Endian.LE a.c1).length - 1 - (Fp.toBytes Endian.LE a.c0).length
        = (Fp.toBytes Endian.LE a.c1).length - 1 by omega]
      exact t1
    | BE =>
      simp only [topIdx] at t0 ⊢
      rw [List.getD_eq_getElem?_getD, List.getElem?_append_left (by omega)]
      rw [List.getD_eq_getElem?_getD] at t0
      exact t0
  sqrt := hs
  raw_length a := by
    change (Tower2.toRawBytes a).length = 2 * Tower2.half p
    have hraw : Tower2.toRawBytes a = a.c0.toRawBytes ++ a.c1.toRawBytes := by
      rw [Tower2.toRawBytes, List.flatMap_append]; rfl
    rw [hraw, List.length_append, Fp.toRawBytes_length, Fp.toRawBytes_length, Tower2.half]
    omega
  raw_isBytes a := by
    change IsBytes (Tower2.toRawBytes a)
    have hraw : Tower2.toRawBytes a = a.c0.toRawBytes ++ a.c1.toRawBytes := by
      rw [Tower2.toRawBytes, List.flatMap_append]; rfl
    rw [hraw]
    exact (Fp.toRawBytes_isBytes _).append (Fp.toRawBytes_isBytes _)
  fromRaw_iff b hb a := (Props.C20_raw_exact p b [] hb a).1
  readRaw_iff b hb a rest := (Props.C20_raw_exact p b rest hb a).2.1

/-! ## The shipped curves -/

namespace Bn256
/-- src/bn256/curve.rs:38-51. -/
def g1Codec : Codec (Fp bnQ) := Fp.codec bnQ 3 .LE .twoSpare Fp.isOdd
theorem g1Codec_lawful : g1Codec.Lawful :=
  Fp.codec_lawful _ _ _ (by decide +kernel) (Or.inr (by decide +kernel)) Props.C11_shipped.1
end Bn256

namespace Grumpkin
/-- src/grumpkin/curve.rs:23-36. -/
def g1Codec : Codec (Fp bnR) := Fp.codec bnR 7 .LE .twoSpare Fp.isOdd
theorem g1Codec_lawful : g1Codec.Lawful :=
  Fp.codec_lawful _ _ _ (by decide +kernel) (Or.inr (by decide +kernel)) Props.C11_shipped.2.1
end Grumpkin

namespace Bls12381
/-- src/bls12381/g1.rs:19-44. -/
def g1Codec : Codec (Fp blsQ) := Fp.codec blsQ 2 .BE .threeSpare Fp.lexLargest
theorem g1Codec_lawful : g1Codec.Lawful :=
  Fp.codec_lawful _ _ _ (by decide +kernel) (Or.inr (by decide +kernel)) Props.C11_shipped.2.2.1
end Bls12381

namespace Pluto
/-- src/pluto_eris/curve.rs:118-131. -/
def g1Codec : Codec (Fp plP) := Fp.codec plP 10 .LE .twoSpare Fp.isOdd
theorem g1Codec_lawful : g1Codec.Lawful :=
  Fp.codec_lawful _ _ _ (by decide +kernel) (Or.inr (by decide +kernel)) Props.C11_shipped.2.2.2.2.1
end Pluto

namespace Pluto
/-- src/pluto_eris/curve.rs:163-176. -/
def erisCodec : Codec (Fp plQ) := Fp.codec plQ 7 .LE .twoSpare Fp.isOdd
theorem erisCodec_lawful : erisCodec.Lawful :=
  Fp.codec_lawful _ _ _ (by decide +kernel) (Or.inr (by decide +kernel)) Props.C11_shipped.2.2.2.2.2.1
end Pluto

namespace Secp256k1
/-- src/secp256k1/curve.rs:52-65. -/
def cCodec : Codec (Fp k1P) := Fp.codec k1P 3 .LE .extra Fp.isOdd
theorem cCodec_lawful : cCodec.Lawful :=
  Fp.codec_lawful _ _ _ (by decide +kernel) (Or.inl rfl) Props.C11_shipped.2.2.2.2.2.2.1
end Secp256k1

namespace Secq256k1
/-- src/secq256k1/curve.rs:35-48. -/
def cCodec : Codec (Fp k1N) := Fp.codec k1N 7 .LE .extra Fp.isOdd
theorem cCodec_lawful : cCodec.Lawful :=
  Fp.codec_lawful _ _ _ (by decide +kernel) (Or.inl rfl) Props.C11_shipped.2.2.2.2.2.2.2.1
end Secq256k1

namespace Secp256r1
/-- src/secp256r1/curve.rs:63-76. -/
def cCodec : Codec (Fp r1P) := Fp.codec r1P 6 .LE .extra Fp.isOdd
theorem cCodec_lawful : cCodec.Lawful :=
  Fp.codec_lawful _ _ _ (by decide +kernel) (Or.inl rfl) Props.C11_shipped.2.2.2.2.2.2.2.2.1
end Secp256r1

namespace Bn256
/-- src/bn256/curve.rs:53-66. -/
def g2Codec : Codec Fq2 := Tower2.codec bnQ .LE .twoSpare Tower2.isOdd (fun x => .ok (sqrt2 x))
theorem sqrtSpec2 : SqrtSpec (F := Fq2) (fun x => .ok (sqrt2 x)) :=
  fun a _ => ⟨_, rfl, (sqrt2_spec a).1, (sqrt2_spec a).2⟩
theorem g2Codec_lawful : g2Codec.Lawful :=
  Tower2.codec_lawful _ _ _ _ (by decide +kernel) (Or.inr (by decide +kernel)) sqrtSpec2
end Bn256

namespace Bls12381
/-- src/bls12381/g2.rs:67-105. -/
def g2Codec : Codec Fq2 := Tower2.codec blsQ .BE .threeSpare Tower2.lexLargest (fun x => .ok (sqrt2 x))
theorem sqrtSpec2 : SqrtSpec (F := Fq2) (fun x => .ok (sqrt2 x)) :=
  fun a _ => ⟨_, rfl, (sqrt2_spec a).1, (sqrt2_spec a).2⟩
theorem g2Codec_lawful : g2Codec.Lawful :=
  Tower2.codec_lawful _ _ _ _ (by decide +kernel) (Or.inr (by decide +kernel)) sqrtSpec2
end Bls12381

namespace Pluto
/-- `Fp2::sqrt`; recursion deeper than two does not occur for non-zero arguments, and no argument of a
decoder is zero. -/
def sqrtOut (x : Fp2) : Outcome (Option Fp2) :=
  match sqrt2 (0 + 2) x with
  | .ok r => .ok r
  | _ => .panic

/-- src/pluto_eris/curve.rs:257-270. -/
def g2Codec : Codec Fp2 := Tower2.codec plP .LE .twoSpare Tower2.isOdd (sqrtOut)
theorem sqrtSpec2 : SqrtSpec (F := Fp2) (sqrtOut) :=
  fun a ha => by
    obtain ⟨r, h1, h2, h3⟩ := sqrt2_spec 0 a ha
    exact ⟨r, by rw [sqrtOut, h1], h2, h3⟩
theorem g2Codec_lawful : g2Codec.Lawful :=
  Tower2.codec_lawful _ _ _ _ (by decide +kernel) (Or.inr (by decide +kernel)) sqrtSpec2
end Pluto

end Halo2
