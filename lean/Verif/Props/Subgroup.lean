import Verif.Props.Serde
import Verif.Props.Cofactor

/-!
# Property C59: which points the checked decoders accept
-/

set_option linter.unusedSectionVars false
set_option maxRecDepth 100000

namespace Halo2.Props

open Halo2 Halo2.Field Halo2.Ext Halo2.Curve Halo2.Prime

variable {F : Type} [Field F] [DecidableEq F] [BaseField F] [LawfulBase F]

/-- The three checked decoders of affine points: `from_bytes`, `from_uncompressed`, `from_raw_bytes`. -/
inductive Decoder where
  | compressed
  | uncompressed
  | raw

/-- The decoder accepts the byte string and returns the point. -/
def Decoder.Accepts (d : Decoder) (K : Codec F) (C : Params F) (b : List ℕ) (A : Aff F) : Prop :=
  match d with
  | .compressed => b.length = K.compressedSize ∧ IsBytes b ∧ K.decode C b = .ok (some A)
  | .uncompressed => b.length = 2 * K.size ∧ IsBytes b ∧ K.fromUncompressed C b = .ok (some A)
  | .raw => IsBytes b ∧ K.affFromRaw C b = some A

/-- The full claim for one curve: whatever a decoder returns is in the subgroup of order `r`. -/
def DecodesSubgroup (K : Codec F) (C : Params F) (r : ℕ) : Prop :=
  ∀ (d : Decoder) b A, d.Accepts K C b A → ∃ p : Pt C, ARep C A p ∧ r • p = 0

theorem Decoder.onCurve {K : Codec F} {C : Params F} (hK : K.Lawful) (hC : Good C) (d : Decoder) {b : List ℕ} {A : Aff F}
    (h : d.Accepts K C b A) : ∃ p : Pt C, ARep C A p := by
  apply (Aff.valid_iff hC A).mpr
  cases d with
  | compressed => exact (Codec.decode_sound hK hC b h.1 h.2.1 A h.2.2).1
  | uncompressed => exact ((Codec.fromUncompressed_iff hK b h.1 h.2.1 A).2.mp h.2.2).1
  | raw => exact ((Codec.affFromRaw_iff hK b h.1 A).mp h.2).1

theorem decodesSubgroup_of {K : Codec F} {C : Params F} {G : Aff F} {r : ℕ} [Finite (Pt C)] (hK : K.Lawful) (hC : Good C)
    (o : OrderSpec C G 1 r) : DecodesSubgroup K C r := fun d _ _ h => by
  obtain ⟨p, hp⟩ := d.onCurve hK hC h
  exact ⟨p, hp, o.kill p⟩

/-- A point of the curve that round-trips in compressed form is accepted by all three decoders. -/
theorem accepts_all {K : Codec F} {C : Params F} (hK : K.Lawful) {A : Aff F} (hA : Aff.isOnCurve C A = true)
    (hR : RoundTripAt K C A) (d : Decoder) : ∃ b, d.Accepts K C b A := by
  cases d with
  | compressed =>
    obtain ⟨b, -, h2, h3, h4⟩ := hR
    exact ⟨b, h2, h3, h4⟩
  | uncompressed =>
    obtain ⟨-, h2, h3, h4⟩ := C28_uncompressed (C := C) hK A
    exact ⟨_, h2, h3, h4 hA⟩
  | raw =>
    have hb : IsBytes (K.affToRaw A) := (hK.raw_isBytes _).append (hK.raw_isBytes _)
    exact ⟨_, hb, (Codec.affFromRaw_iff hK _ hb A).mpr ⟨hA, rfl⟩⟩

/-- The full claim fails through every one of the decoders. -/
def DecodesOutside (K : Codec F) (C : Params F) (r : ℕ) : Prop :=
  ∀ d : Decoder, ∃ b A, d.Accepts K C b A ∧ ∀ p : Pt C, ARep C A p → r • p ≠ 0

theorem decodesOutside_of {K : Codec F} {C : Params F} {r : ℕ} (hK : K.Lawful) (hC : Good C) {A : Aff F} {p : Pt C}
    (hp : ARep C A p) (hr : r • p ≠ 0) (hR : Aff.isOnCurve C A = true → RoundTripAt K C A) : DecodesOutside K C r := fun d => by
  have hA := (Aff.valid_iff hC A).mp ⟨p, hp⟩
  obtain ⟨b, hb⟩ := accepts_all hK hA (hR hA) d
  exact ⟨b, A, hb, fun q hq => by rw [ARep.unique hC hq hp]; exact hr⟩

/-- **C59** On the seven curves of prime order every point that `from_bytes`, `from_uncompressed` or `from_raw_bytes` returns is in the
group of prime order that the scalar field belongs to. -/
theorem C59_prime_order :
    DecodesSubgroup Bn256.g1Codec Bn256.g1 bnR ∧ DecodesSubgroup Grumpkin.g1Codec Grumpkin.g1 bnQ ∧
    DecodesSubgroup Pluto.g1Codec Pluto.g1 plQ ∧ DecodesSubgroup Pluto.erisCodec Pluto.eris plP ∧
    DecodesSubgroup Secp256k1.cCodec Secp256k1.c k1N ∧ DecodesSubgroup Secq256k1.cCodec Secq256k1.c k1P ∧
    DecodesSubgroup Secp256r1.cCodec Secp256r1.c r1N := by
  obtain ⟨o0, o1, o2, o3, o4, o5, o6, _⟩ := C44_orders
  exact ⟨decodesSubgroup_of Bn256.g1Codec_lawful Bn256.g1_good o0, decodesSubgroup_of Grumpkin.g1Codec_lawful Grumpkin.g1_good o1,
    decodesSubgroup_of Pluto.g1Codec_lawful Pluto.g1_good o2, decodesSubgroup_of Pluto.erisCodec_lawful Pluto.eris_good o3,
    decodesSubgroup_of Secp256k1.cCodec_lawful Secp256k1.c_good o4, decodesSubgroup_of Secq256k1.cCodec_lawful Secq256k1.c_good o5,
    decodesSubgroup_of Secp256r1.cCodec_lawful Secp256r1.c_good o6⟩

/-- **C59** On the four curves with a larger cofactor each of the decoders accepts points outside of the subgroup. -/
theorem C59_false :
    DecodesOutside Bn256.g2Codec Bn256.g2 bnR ∧ DecodesOutside Pluto.g2Codec Pluto.g2 plQ ∧
    DecodesOutside Bls12381.g1Codec Bls12381.g1 blsR ∧ DecodesOutside Bls12381.g2Codec Bls12381.g2 blsR := by
  have w0 := wit_ne (r := bnR) Bn256.g2Wit_order (by decide +kernel)
  have w1 := wit_ne (r := plQ) Pluto.g2Wit_order (by decide +kernel)
  have w2 := wit_ne (r := blsR) Bls12381.g1Wit_order (by decide +kernel)
  have w3 := wit_ne (r := blsR) Bls12381.g2Wit_order (by decide +kernel)
  obtain ⟨-, r2, r0, r1, r3, -⟩ := C26_others_partial
  refine ⟨decodesOutside_of (p := Bn256.g2Wit) (A := ⟨Bn256.g2Sh.φ Bn256.g2WitX, Bn256.g2Sh.φ Bn256.g2WitY⟩) Bn256.g2Codec_lawful Bn256.g2_good ⟨rfl, rfl⟩ w0
      fun hA => r0 _ hA ?_,
    decodesOutside_of (p := Pluto.g2Wit) (A := ⟨Pluto.g2Sh.φ Pluto.g2WitX, Pluto.g2Sh.φ Pluto.g2WitY⟩) Pluto.g2Codec_lawful Pluto.g2_good ⟨rfl, rfl⟩ w1
      fun hA => r1 _ hA ?_,
    decodesOutside_of (p := Bls12381.g1Wit) (A := ⟨Bls12381.g1Sh.φ Bls12381.g1WitX, Bls12381.g1Sh.φ Bls12381.g1WitY⟩) Bls12381.g1Codec_lawful
      Bls12381.g1_good ⟨rfl, rfl⟩ w2 fun hA => r2 _ hA ?_,
    decodesOutside_of (p := Bls12381.g2Wit) (A := ⟨Bls12381.g2Sh.φ Bls12381.g2WitX, Bls12381.g2Sh.φ Bls12381.g2WitY⟩) Bls12381.g2Codec_lawful
      Bls12381.g2_good ⟨rfl, rfl⟩ w3 fun hA => r3 _ hA ?_ ?_⟩
  · change ((Bn256.g2WitY.1 : ℕ) : Fp bnQ) ≠ 0
    rw [← Nat.cast_zero, Ne, Fp.natCast_eq_iff]
    decide +kernel
  · change ((Pluto.g2WitY.1 : ℕ) : Fp plP) ≠ 0
    rw [← Nat.cast_zero, Ne, Fp.natCast_eq_iff]
    decide +kernel
  · change ((Bls12381.g1WitX : ℕ) : Fp blsQ) ≠ 0
    rw [← Nat.cast_zero, Ne, Fp.natCast_eq_iff]
    decide +kernel
  · change 2 * ((Bls12381.g2WitY.2 : ℕ) : Fp blsQ) * (2 * ((Bls12381.g2WitY.2 : ℕ) : Fp blsQ)) ≠ 1
    have e : 2 * ((Bls12381.g2WitY.2 : ℕ) : Fp blsQ) * (2 * ((Bls12381.g2WitY.2 : ℕ) : Fp blsQ)) =
        ((2 * Bls12381.g2WitY.2 * (2 * Bls12381.g2WitY.2) : ℕ) : Fp blsQ) := by push_cast; ring
    rw [e]
    intro h
    have := (Fp.natCast_eq_iff _ _).mp (h.trans Nat.cast_one.symm)
    revert this
    decide +kernel
  · intro h
    have h' : ((Bls12381.g2WitY.2 : ℕ) : Fp blsQ) = 0 := h
    have := (Fp.natCast_eq_iff _ _).mp (h'.trans Nat.cast_zero.symm)
    revert this
    decide +kernel

/-- What is left on those four curves: an accepted point is on the curve, and `is_torsion_free` decides whether it is in the subgroup. -/
def DecodesTested (K : Codec F) (C : Params F) (r : ℕ) (free : Proj F → Bool) : Prop :=
  ∀ (d : Decoder) b A, d.Accepts K C b A → ∃ p : Pt C, ARep C A p ∧ (free (Aff.toCurve A) = true ↔ r • p = 0)

theorem decodesTested_of {K : Codec F} {C : Params F} {r : ℕ} {free : Proj F → Bool} (hK : K.Lawful) (hC : Good C)
    (hf : FreeSpec C r free) : DecodesTested K C r free := fun d _ _ h => by
  obtain ⟨p, hp⟩ := d.onCurve hK hC h
  exact ⟨p, hp, hf _ _ (hp.toCurve hC)⟩

/-- **C59** (partial: on the four curves with a larger cofactor the decoders do not test the subgroup, see `C59_false`) An accepted point is on
the curve and the caller's `is_torsion_free` tells exactly whether it is in the subgroup. -/
theorem C59_tested_partial :
    DecodesTested Bn256.g2Codec Bn256.g2 bnR Bn256.g2TorsionFree ∧ DecodesTested Pluto.g2Codec Pluto.g2 plQ Pluto.g2TorsionFree ∧
    DecodesTested Bls12381.g1Codec Bls12381.g1 blsR (Bls12381.g1TorsionFree (Fp.zeta blsQ blsQZeta)) ∧
    DecodesTested Bls12381.g2Codec Bls12381.g2 blsR Bls12381.g2TorsionFree := by
  obtain ⟨f0, f1, f2, f3⟩ := C41_free
  exact ⟨decodesTested_of Bn256.g2Codec_lawful Bn256.g2_good f0, decodesTested_of Pluto.g2Codec_lawful Pluto.g2_good f1,
    decodesTested_of Bls12381.g1Codec_lawful Bls12381.g1_good f2, decodesTested_of Bls12381.g2Codec_lawful Bls12381.g2_good f3⟩

/-- The generators are accepted by all decoders. -/
example (d : Decoder) : (∃ b, d.Accepts Bn256.g1Codec Bn256.g1 b Bn256.g1Gen) := by
  obtain ⟨o0, -⟩ := C44_orders
  obtain ⟨g, hg, -⟩ := o0.gen
  have hA := (Aff.valid_iff Bn256.g1_good _).mp ⟨g, hg⟩
  exact accepts_all Bn256.g1Codec_lawful hA (C26_full.1.1 _ hA) d

end Halo2.Props
