import Verif.Curve.Unchecked
import Verif.Props.Serde

/-!
# Property C60: the unchecked raw readers of points
-/

set_option linter.unusedSectionVars false
set_option maxRecDepth 100000

namespace Halo2.Props

open Halo2 Halo2.Field Halo2.Ext Halo2.Curve Halo2.Prime

variable {F : Type} [Field F] [DecidableEq F] [BaseField F] [LawfulBase F] {L : Type}

/-- The claims for one curve. -/
structure UncheckedSpec (K : Codec F) (C : Params F) (U : RawReader F L) : Prop where
  /-- Different elements are stored differently, so that equal stored forms mean equal points. -/
  stored_inj : Function.Injective U.stored
  /-- The unchecked readers restore what the writers wrote, for every pair and triple, on the curve or not. -/
  aff (A : Aff F) : U.affFromRaw (K.affToRaw A) = (U.stored A.x, U.stored A.y)
  proj (P : Proj F) : U.projFromRaw (K.projToRaw P) = (U.stored P.x, U.stored P.y, U.stored P.z)
  /-- Where a checked reader succeeds the unchecked one returns the same point. -/
  aff_agrees (b : List ℕ) (hb : IsBytes b) (A : Aff F) (h : K.affFromRaw C b = some A) :
    U.affFromRaw b = (U.stored A.x, U.stored A.y)
  proj_agrees (b : List ℕ) (hb : IsBytes b) (P : Proj F) (h : K.projFromRaw C b = some P) :
    U.projFromRaw b = (U.stored P.x, U.stored P.y, U.stored P.z)
  /-- The same for streams, including what is left of the stream. -/
  aff_read (s rest : List ℕ) (hs : IsBytes s) (A : Aff F) (h : K.affReadRaw s = some (A, rest)) :
    U.affReadRaw s = some ((U.stored A.x, U.stored A.y), rest)
  proj_read (s rest : List ℕ) (hs : IsBytes s) (P : Proj F) (h : K.projReadRaw s = some (P, rest)) :
    U.projReadRaw s = some ((U.stored P.x, U.stored P.y, U.stored P.z), rest)
  /-- The stream readers panic exactly on short streams. -/
  aff_panic (s : List ℕ) : U.affReadRaw s = none ↔ s.length < 2 * K.size
  proj_panic (s : List ℕ) : U.projReadRaw s = none ↔ s.length < 3 * K.size
  /-- Every string of the right length is read, and nothing of it is lost. -/
  aff_lossless (b : List ℕ) (hl : b.length = 2 * K.size) (hb : IsBytes b) :
    U.bytes (U.affFromRaw b).1 ++ U.bytes (U.affFromRaw b).2 = b
  proj_lossless (b : List ℕ) (hl : b.length = 3 * K.size) (hb : IsBytes b) :
    U.bytes (U.projFromRaw b).1 ++ (U.bytes (U.projFromRaw b).2.1 ++ U.bytes (U.projFromRaw b).2.2) = b

theorem uncheckedSpec_of {K : Codec F} {C : Params F} {U : RawReader F L} (hK : K.Lawful) (hU : U.Lawful) (hs : K.size = U.size)
    (ht : ∀ a, K.toRaw a = U.bytes (U.stored a)) : UncheckedSpec K C U := by
  have hlen (a : F) : (K.toRaw a).length = U.size := by rw [ht]; exact hU.length a
  have hst (a : F) : U.fromRaw (K.toRaw a) = U.stored a := by rw [ht]; exact hU.stored_bytes a
  have haff (A : Aff F) : U.affFromRaw (K.affToRaw A) = (U.stored A.x, U.stored A.y) := by
    rw [RawReader.affFromRaw, Codec.affToRaw, List.drop_zero, List.take_left' (hlen _), List.drop_left' (hlen _),
      List.take_of_length_le (le_of_eq (hlen _)), hst, hst]
  have hproj (P : Proj F) : U.projFromRaw (K.projToRaw P) = (U.stored P.x, U.stored P.y, U.stored P.z) := by
    rw [RawReader.projFromRaw, Codec.projToRaw, zero_mul, one_mul, two_mul, ← List.drop_drop, List.drop_zero, List.take_left' (hlen _),
      List.drop_left' (hlen _), List.take_left' (hlen _), List.drop_left' (hlen _), List.take_of_length_le (le_of_eq (hlen _)),
      hst, hst, hst]
  have hone (a : F) (rest : List ℕ) : U.readRaw (K.toRaw a ++ rest) = some (U.stored a, rest) := by
    rw [hU.read, if_neg (by rw [List.length_append, hlen]; omega), List.take_left' (hlen _), List.drop_left' (hlen _), hst]
  refine ⟨hU.stored_inj, haff, hproj, fun b hb A h => ?_, fun b hb P h => ?_, fun s rest hs A h => ?_, fun s rest hs P h => ?_,
    fun s => ?_, fun s => ?_, fun b hl hb => ?_, fun b hl hb => ?_⟩
  · rw [((Codec.affFromRaw_iff hK b hb A).mp h).2]; exact haff A
  · rw [((Codec.projFromRaw_iff hK b hb P).mp h).2]; exact hproj P
  · rw [(Codec.affReadRaw_iff hK s hs A rest).mp h, Codec.affToRaw, List.append_assoc, RawReader.affReadRaw, hone]
    simp only [hone]
  · rw [(Codec.projReadRaw_iff hK s hs P rest).mp h, Codec.projToRaw, List.append_assoc, List.append_assoc, RawReader.projReadRaw, hone]
    simp only [hone]
  · rw [RawReader.affReadRaw, hU.read, hs]
    by_cases h1 : s.length < U.size
    · rw [if_pos h1]
      simp only [true_iff]
      omega
    · rw [if_neg h1]
      simp only
      rw [hU.read, List.length_drop]
      by_cases h2 : s.length - U.size < U.size
      · rw [if_pos h2]
        simp only [true_iff]
        omega
      · rw [if_neg h2]
        simp only [reduceCtorEq, false_iff]
        omega
  · rw [RawReader.projReadRaw, hU.read, hs]
    by_cases h1 : s.length < U.size
    · rw [if_pos h1]
      simp only [true_iff]
      omega
    · rw [if_neg h1]
      simp only
      rw [hU.read, List.length_drop]
      by_cases h2 : s.length - U.size < U.size
      · rw [if_pos h2]
        simp only [true_iff]
        omega
      · rw [if_neg h2]
        simp only
        rw [hU.read, List.length_drop, List.length_drop]
        by_cases h3 : s.length - U.size - U.size < U.size
        · rw [if_pos h3]
          simp only [true_iff]
          omega
        · rw [if_neg h3]
          simp only [reduceCtorEq, false_iff]
          omega
  · rw [hs] at hl
    rw [RawReader.affFromRaw, hU.bytes_from _ (by rw [List.length_take, List.length_drop]; omega) ((hb.drop _).take _),
      hU.bytes_from _ (by rw [List.length_take, List.length_drop]; omega) ((hb.drop _).take _), List.drop_zero,
      List.take_of_length_le (l := b.drop _) (by rw [List.length_drop]; omega), List.take_append_drop]
  · rw [hs] at hl
    rw [RawReader.projFromRaw, hU.bytes_from _ (by rw [List.length_take, List.length_drop]; omega) ((hb.drop _).take _),
      hU.bytes_from _ (by rw [List.length_take, List.length_drop]; omega) ((hb.drop _).take _),
      hU.bytes_from _ (by rw [List.length_take, List.length_drop]; omega) ((hb.drop _).take _), zero_mul, one_mul, List.drop_zero,
      List.take_of_length_le (l := b.drop (2 * _)) (by rw [List.length_drop]; omega), two_mul, ← List.drop_drop,
      List.take_append_drop, List.take_append_drop]

/-- **C60** The unchecked raw readers of points (`from_raw_bytes_unchecked`, `read_raw_unchecked`; affine and projective) of all
shipped curves. -/
theorem C60_unchecked :
    UncheckedSpec Bn256.g1Codec Bn256.g1 (.fp bnQ) ∧ UncheckedSpec Bn256.g2Codec Bn256.g2 (.tower bnQ) ∧
    UncheckedSpec Grumpkin.g1Codec Grumpkin.g1 (.fp bnR) ∧ UncheckedSpec Bls12381.g1Codec Bls12381.g1 (.fp blsQ) ∧
    UncheckedSpec Bls12381.g2Codec Bls12381.g2 (.tower blsQ) ∧ UncheckedSpec Pluto.g1Codec Pluto.g1 (.fp plP) ∧
    UncheckedSpec Pluto.erisCodec Pluto.eris (.fp plQ) ∧ UncheckedSpec Pluto.g2Codec Pluto.g2 (.tower plP) ∧
    UncheckedSpec Secp256k1.cCodec Secp256k1.c (.fp k1P) ∧ UncheckedSpec Secq256k1.cCodec Secq256k1.c (.fp k1N) ∧
    UncheckedSpec Secp256r1.cCodec Secp256r1.c (.fp r1P) := by
  obtain ⟨h0, h1, h2, h3, h4, h5, h6, h7, h8, h9, h10⟩ := C28_shipped
  exact ⟨uncheckedSpec_of h0 (RawReader.fp_lawful _) rfl fun _ => rfl, uncheckedSpec_of h1 (RawReader.tower_lawful _) rfl fun _ => rfl,
    uncheckedSpec_of h2 (RawReader.fp_lawful _) rfl fun _ => rfl, uncheckedSpec_of h3 (RawReader.fp_lawful _) rfl fun _ => rfl,
    uncheckedSpec_of h4 (RawReader.tower_lawful _) rfl fun _ => rfl, uncheckedSpec_of h5 (RawReader.fp_lawful _) rfl fun _ => rfl,
    uncheckedSpec_of h6 (RawReader.fp_lawful _) rfl fun _ => rfl, uncheckedSpec_of h7 (RawReader.tower_lawful _) rfl fun _ => rfl,
    uncheckedSpec_of h8 (RawReader.fp_lawful _) rfl fun _ => rfl, uncheckedSpec_of h9 (RawReader.fp_lawful _) rfl fun _ => rfl,
    uncheckedSpec_of h10 (RawReader.fp_lawful _) rfl fun _ => rfl⟩

end Halo2.Props
