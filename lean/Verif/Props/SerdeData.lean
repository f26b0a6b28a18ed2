import Verif.Field.SerdeData
import Verif.Props.Serde

/-!
# C52, C55: serde
-/

set_option linter.unusedSectionVars false

namespace Halo2.Props

open Halo2 Halo2.Field Halo2.Prime Halo2.Ext Halo2.Curve

/-! ## C52 -/

section
variable {p : ℕ} [Fact (OddModulus p)]

/-- **C52** The serialization of an element: the hexadecimal digits, or the tuple, of the little-endian bytes of its canonical integer. -/
theorem C52_serialize (f : Format) (a : Fp p) :
    ∃ b, b.length = 8 * numLimbs p ∧ IsBytes b ∧ leNat b = a.toNat ∧
      Fp.ser f a = if f.human then .str (hexEncode b) else .tuple (b.map .u8) :=
  ⟨a.toRepr, (Fp.toBytes_spec .LE a).1, (Fp.toBytes_spec .LE a).2.1, (Fp.toBytes_spec .LE a).2.2, rfl⟩

/-- **C52** Deserializing accepts exactly the serializations, up to the case of hexadecimal letters, and returns the element. -/
theorem C52_deserialize (f : Format) (d : Data) (a : Fp p) : Fp.de f d = some a ↔ d.lower = Fp.ser f a := Fp.de_iff f d a

/-- **C52** Round trip, and two elements with the same serialization are equal. -/
theorem C52_round_trip (f : Format) (a b : Fp p) : Fp.de f (Fp.ser f a) = some a ∧ (Fp.ser f a = Fp.ser f b → a = b) :=
  ⟨(Fp.de_iff f _ a).mpr (Fp.ser_lower f a), Fp.ser_inj f a b⟩

/-- **C52** Out of range integers, wrong lengths, other characters and other shapes are errors. -/
theorem C52_rejects (f : Format) (d : Data) :
    (Fp.de f d : Option (Fp p)) = none ↔
      ¬ ∃ b, b.length = 8 * numLimbs p ∧ IsBytes b ∧ leNat b < p ∧
        d.lower = if f.human then .str (hexEncode b) else .tuple (b.map .u8) := by
  constructor
  · rintro h ⟨b, h1, h2, h3, h4⟩
    have hv := Fp.fromBytes_val (p := p) .LE b h1 h2 h3
    rw [Fp.fromBytes_some .LE b h1 h2] at hv
    have := (Fp.de_iff f d ((leNat b : ℕ) : Fp p)).mpr (by
      rw [h4, Fp.ser]
      have e : ((leNat b : ℕ) : Fp p).toRepr = b := hv.symm
      rw [e, serBytes])
    rw [h] at this
    cases this
  · intro h
    cases hd : (Fp.de f d : Option (Fp p)) with
    | none => rfl
    | some a =>
      obtain ⟨b, h1, h2, h3, h4⟩ := C52_serialize f a
      exact absurd ⟨b, h1, h2, by rw [h3]; exact Fp.toNat_lt a, by rw [← h4]; exact (Fp.de_iff f d a).mp hd⟩ h

/-- **C52** Elements of a quadratic extension round-trip, in formats with and without field names. -/
theorem C52_quad_round_trip (f : Format) (x : Quad (Fp p)) : Tower2.de f (Tower2.ser f x) = some x := by
  have h : deStruct2 (Tower2.ser f x) = some (Fp.ser f x.c0, Fp.ser f x.c1) := by
    obtain ⟨hu, ky⟩ := f
    cases ky <;> rfl
  rw [Tower2.de, h]
  simp only [(C52_round_trip f x.c0 x.c0).1, (C52_round_trip f x.c1 x.c1).1]

/-- **C52** A struct that deserializes holds exactly one `c0` and one `c1`, both valid; or is the sequence of the two. -/
theorem C52_quad_deserialize (f : Format) (d : Data) (x : Quad (Fp p)) :
    Tower2.de f d = some x ↔ ∃ a b, a.lower = Fp.ser f x.c0 ∧ b.lower = Fp.ser f x.c1 ∧
      (d = .tuple [a, b] ∨ ∃ l, d = .map l ∧ l.filter (fun e => e.1 == [99, 48]) = [([99, 48], a)] ∧
        l.filter (fun e => e.1 == [99, 49]) = [([99, 49], b)]) := by
  have hone : ∀ (k : List ℕ) (l : List (List ℕ × Data)) (a : Data), onlyAt k l = some a ↔ l.filter (fun e => e.1 == k) = [(k, a)] := by
    intro k l a
    rw [onlyAt]
    constructor
    · intro h
      split at h
      · rename_i e he
        have hm : e ∈ l.filter (fun e => e.1 == k) := by rw [he]; exact List.mem_singleton_self _
        have hk := (List.mem_filter.mp hm).2
        rw [beq_iff_eq] at hk
        cases h
        rw [he, ← hk]
      · cases h
    · intro h
      rw [h]
  have hst : ∀ a b : Data, deStruct2 d = some (a, b) ↔
      (d = .tuple [a, b] ∨ ∃ l, d = .map l ∧ l.filter (fun e => e.1 == [99, 48]) = [([99, 48], a)] ∧
        l.filter (fun e => e.1 == [99, 49]) = [([99, 49], b)]) := by
    intro a b
    constructor
    · intro h
      rw [deStruct2.eq_def] at h
      split at h
      · rename_i l
        split at h
        · rename_i a' b' ha hb
          cases h
          exact Or.inr ⟨l, rfl, (hone _ _ _).mp ha, (hone _ _ _).mp hb⟩
        · cases h
      · cases h
        exact Or.inl rfl
      · cases h
    · rintro (rfl | ⟨l, rfl, ha, hb⟩)
      · rfl
      · have ha := (hone c0Name l a).mpr ha
        have hb := (hone c1Name l b).mpr hb
        simp only [deStruct2, ha, hb]
  constructor
  · intro h
    rw [Tower2.de] at h
    split at h
    · cases h
    · rename_i a b hab
      split at h
      · rename_i c0 c1 h0 h1
        cases h
        exact ⟨a, b, (Fp.de_iff f a c0).mp h0, (Fp.de_iff f b c1).mp h1, (hst a b).mp hab⟩
      · cases h
  · rintro ⟨a, b, h0, h1, hab⟩
    rw [Tower2.de, (hst a b).mpr hab]
    simp only [(Fp.de_iff f a x.c0).mpr h0, (Fp.de_iff f b x.c1).mpr h1]

end

/-- **C52** The byte arrays `Repr`. -/
theorem C52_repr (N : ℕ) (d : Data) (b : List ℕ) : deRepr N d = some b ↔ b.length = N ∧ IsBytes b ∧ d = serRepr b := by
  rw [deRepr.eq_def, serRepr]
  constructor
  · intro h
    split at h
    · rename_i l
      split at h
      · rename_i hl
        obtain ⟨h1, h2⟩ := (tupleBytes_iff l b).mp h
        exact ⟨by rw [← hl, h2, List.length_map], h1, by rw [h2]⟩
      · cases h
    · cases h
  · rintro ⟨h0, h1, rfl⟩
    simp only [List.length_map, h0, if_true]
    exact (tupleBytes_iff _ b).mpr ⟨h1, rfl⟩

/-- The string with upper-case digits `"0A00…"` is read as ten in the base field of bn256; its serialization is `"0a00…"`. -/
example : Fp.de ⟨true, true⟩ (.str ([48, 65] ++ List.replicate 62 48)) = some ((10 : ℕ) : Fp bnQ) := by
  have hl : numLimbs bnQ = 4 := by
    have : numBits bnQ = 254 := le_antisymm (Nat.size_le.mpr (by decide +kernel)) (Nat.lt_size.mpr (by decide +kernel))
    rw [numLimbs, this]
  have h10 : (((10 : ℕ) : Fp bnQ)).toNat = 10 := by rw [Fp.toNat_natCast]; decide +kernel
  rw [C52_deserialize]
  obtain ⟨b, h1, h2, h3, h4⟩ := C52_serialize ⟨true, true⟩ ((10 : ℕ) : Fp bnQ)
  have hb : b = 10 :: List.replicate 31 0 := by
    refine leNat_inj h2 (fun t ht => by revert t; decide) (by rw [h1, hl]; decide) (by rw [h3, h10]; decide)
  rw [h4, hb, if_pos rfl, Data.lower]
  exact congrArg Data.str (by decide)

/-! ## C55 -/

section
variable {F : Type} [_root_.Field F] [DecidableEq F] [BaseField F] [LawfulBase F] {K : Codec F} {C : Params F}

/-- One affine point survives serialization in every format. -/
def SerdeAt (K : Codec F) (C : Params F) (A : Aff F) : Prop :=
  ∀ f, ∃ d, K.ser C f A = .ok d ∧ K.de C f d = .ok (some A)

/-- **C55**, round trip for one curve: affine points survive serialization in every format, and projective points survive as points. -/
def SerdeRound (K : Codec F) (C : Params F) : Prop :=
  (∀ A, Aff.isOnCurve C A = true → SerdeAt K C A) ∧
  ∀ f P (p : Pt C), PRep C P p → ∃ d Q, K.serProj C f P = .ok d ∧ K.deProj C f d = .ok (some Q) ∧ PRep C Q p

/-- **C55**, rejection for one curve: without panicking, deserializing any value fails, or gives a point of the curve whose serialization is
that value up to the case of hexadecimal letters. -/
def SerdeSound (K : Codec F) (C : Params F) : Prop :=
  ∀ f d, K.de C f d = .ok none ∨ ∃ P, K.de C f d = .ok (some P) ∧ Aff.isOnCurve C P = true ∧ K.ser C f P = .ok d.lower

/-- **C55** A point that survives `to_bytes` and `from_bytes` survives serde; C26 says which points these are. What is missing from the full
claim is what is missing there. -/
theorem C55_round_trip_partial (A : Aff F) (h : RoundTripAt K C A) : SerdeAt K C A := by
  obtain ⟨b, h1, h2, h3, h4⟩ := h
  intro f
  refine ⟨serBytes f b, by rw [Codec.ser, h1], ?_⟩
  rw [Codec.de, (deBytes_iff f _ _ b).mpr ⟨h2, h3, serBytes_lower f b h3⟩]
  exact h4

theorem serdeRound_of (hC : Good C) (h : ∀ A, Aff.isOnCurve C A = true → RoundTripAt K C A) : SerdeRound K C := by
  refine ⟨fun A hA => C55_round_trip_partial A (h A hA), fun f P p hP => ?_⟩
  have hA := hP.toAffine
  obtain ⟨b, h1, h2, h3, h4⟩ := h P.toAffine ((Aff.valid_iff hC _).mp ⟨p, hA⟩)
  refine ⟨serBytes f b, Aff.toCurve P.toAffine, by rw [Codec.serProj, Codec.encodeProj, h1], ?_, hA.toCurve hC⟩
  rw [Codec.deProj, (deBytes_iff f _ _ b).mpr ⟨h2, h3, serBytes_lower f b h3⟩]
  simp only [Codec.decodeProj, h4, Option.map_some]

theorem serdeSound_of (h : DecodeSound K C) : SerdeSound K C := by
  intro f d
  rw [Codec.de]
  cases hd : deBytes f K.compressedSize d with
  | none => exact Or.inl rfl
  | some b =>
    obtain ⟨h1, h2, h3⟩ := (deBytes_iff f _ d b).mp hd
    rcases h b h1 h2 with h4 | ⟨P, h4, h5, h6⟩
    · exact Or.inl h4
    · exact Or.inr ⟨P, h4, h5, by rw [Codec.ser, h6, h3]⟩

end

/-- **C55** The round trip holds for bn256 G1, grumpkin, pluto, eris, secp256k1 and secq256k1. -/
theorem C55_round_trip :
    SerdeRound Bn256.g1Codec Bn256.g1 ∧ SerdeRound Grumpkin.g1Codec Grumpkin.g1 ∧ SerdeRound Pluto.g1Codec Pluto.g1 ∧
    SerdeRound Pluto.erisCodec Pluto.eris ∧ SerdeRound Secp256k1.cCodec Secp256k1.c ∧ SerdeRound Secq256k1.cCodec Secq256k1.c :=
  ⟨serdeRound_of Bn256.g1_good C26_full.1.1, serdeRound_of Grumpkin.g1_good C26_full.2.1.1,
    serdeRound_of Pluto.g1_good C26_full.2.2.1.1, serdeRound_of Pluto.eris_good C26_full.2.2.2.1.1,
    serdeRound_of Secp256k1.c_good C26_full.2.2.2.2.1.1, serdeRound_of Secq256k1.c_good C26_full.2.2.2.2.2.1⟩

/-- **C55** The rejection claim holds for all eight curves over prime fields. -/
theorem C55_sound :
    SerdeSound Bn256.g1Codec Bn256.g1 ∧ SerdeSound Grumpkin.g1Codec Grumpkin.g1 ∧ SerdeSound Bls12381.g1Codec Bls12381.g1 ∧
    SerdeSound Pluto.g1Codec Pluto.g1 ∧ SerdeSound Pluto.erisCodec Pluto.eris ∧ SerdeSound Secp256k1.cCodec Secp256k1.c ∧
    SerdeSound Secq256k1.cCodec Secq256k1.c ∧ SerdeSound Secp256r1.cCodec Secp256r1.c := by
  obtain ⟨h1, h2, h3, h4, h5, h6, h7, h8⟩ := C27_full
  exact ⟨serdeSound_of h1, serdeSound_of h2, serdeSound_of h3, serdeSound_of h4, serdeSound_of h5, serdeSound_of h6,
    serdeSound_of h7, serdeSound_of h8⟩

/-- **C55** is false for the three curves over quadratic extensions: in every format there is a value, for the human-readable ones the string
of all `f`, whose deserialization panics. -/
theorem C55_panics_false (f : Format) :
    Bn256.g2Codec.de Bn256.g2 f (serBytes f (List.replicate 64 255)) = .panic ∧
    Pluto.g2Codec.de Pluto.g2 f (serBytes f (List.replicate 112 255)) = .panic ∧
    Bls12381.g2Codec.de Bls12381.g2 f (serBytes f (List.replicate 96 255)) = .panic := by
  have hb : ∀ n, IsBytes (List.replicate n 255) := fun n t ht => by
    rw [List.eq_of_mem_replicate ht]
    decide
  have key : ∀ (N n : ℕ), N = n → deBytes f N (serBytes f (List.replicate n 255)) = some (List.replicate n 255) := fun N n h =>
    (deBytes_iff f N _ _).mpr ⟨by rw [List.length_replicate, h], hb n, serBytes_lower f _ (hb n)⟩
  obtain ⟨h1, h2, h3⟩ := C27_total_false
  refine ⟨?_, ?_, ?_⟩
  · rw [Codec.de, key _ 64 (by decide +kernel)]
    exact h1
  · rw [Codec.de, key _ 112 (by decide +kernel)]
    exact h2
  · rw [Codec.de, key _ 96 (by decide +kernel)]
    exact h3

/-- The generator of bn256 G1 is a point of the curve, so C55 applies to it. -/
example : SerdeAt Bn256.g1Codec Bn256.g1 Bn256.g1Gen := C55_round_trip.1.1 _ C21_generators.1.1

end Halo2.Props
