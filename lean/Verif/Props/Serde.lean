import Verif.Curve.SerdeSign
import Verif.Props.Curve

/-!
# Point encodings: C26, C27, C28
-/

set_option linter.unusedSectionVars false

namespace Halo2.Props

open Halo2 Halo2.Field Halo2.Prime Halo2.Ext Halo2.Curve

variable {F : Type} [Field F] [DecidableEq F] [BaseField F] [LawfulBase F] {K : Codec F} {C : Params F}

/-! ## C26 -/

/-- The round trip of one affine point through `to_bytes` and `from_bytes`: the encoding succeeds, has the fixed length, and
decodes to the same point. -/
def RoundTripAt (K : Codec F) (C : Params F) (A : Aff F) : Prop :=
  ∃ b, K.encode C A = .ok b ∧ b.length = K.compressedSize ∧ IsBytes b ∧ K.decode C b = .ok (some A)

/-- **C26**, full claim for one curve: every affine curve point round-trips, and every projective
representation of a curve point round-trips up to equality of points. -/
def RoundTrip (K : Codec F) (C : Params F) : Prop :=
  (∀ A, Aff.isOnCurve C A = true → RoundTripAt K C A) ∧
  ∀ P (p : Pt C), PRep C P p → ∃ b Q, K.encodeProj C P = .ok b ∧ K.decodeProj C b = .ok (some Q) ∧ PRep C Q p

theorem roundTrip_of (hC : Good C) (h : ∀ A, Aff.isOnCurve C A = true → RoundTripAt K C A) : RoundTrip K C := by
  refine ⟨h, ?_⟩
  intro P p hP
  have hA := hP.toAffine
  obtain ⟨b, h1, _, _, h2⟩ := h P.toAffine ((Aff.valid_iff hC _).mp ⟨p, hA⟩)
  refine ⟨b, Aff.toCurve P.toAffine, h1, ?_, hA.toCurve hC⟩
  rw [Codec.decodeProj, h2]
  rfl

/-- **C26**, for every curve and layout: exactly the points that the format can tell apart round-trip. What is missing from the full
claim: points with `x = 0` other than the identity, and points whose `y` and `-y` have the same sign; both are shown below to fail. -/
theorem C26_round_trip_partial (hK : K.Lawful) (hC : Good C) (A : Aff F) (hA : Aff.isOnCurve C A = true) :
    (RoundTripAt K C A ∧ RoundTripAt K C (Aff.neg A)) ↔
      A = Aff.identity ∨ (A.x ≠ 0 ∧ K.sgn (-A.y) ≠ K.sgn A.y) := by
  constructor
  · rintro ⟨⟨b, h1, hl, hb, h2⟩, ⟨b', h1', _, _, h2'⟩⟩
    by_cases hid : A = Aff.identity
    · exact Or.inl hid
    right
    refine ⟨fun hx => Codec.decode_encode_zero hK hC A hA hid hx b h1 A h2, fun hs => ?_⟩
    obtain ⟨e1, e2⟩ := Codec.encode_ambiguous hK hC A hA hid hs
    rw [e1, h1', Outcome.ok.injEq] at h1
    rw [← h1, h2', Outcome.ok.injEq, Option.some.injEq] at h2
    exact e2 h2.symm
  · intro h
    have key : ∀ B, Aff.isOnCurve C B = true → (B = Aff.identity ∨ B.x ≠ 0 ∧ K.sgn (-B.y) ≠ K.sgn B.y) → RoundTripAt K C B := by
      intro B hB h
      obtain ⟨b, h1, h2⟩ := Codec.decode_encode hK hC B hB h
      obtain ⟨h3, h4⟩ := Codec.encode_length hK B hB b h1
      exact ⟨b, h1, h3, h4, h2⟩
    refine ⟨key A hA h, key _ ?_ ?_⟩
    · rw [Aff.isOnCurve_iff] at hA ⊢
      rcases hA with h | h
      · exact Or.inl ⟨h.1, by rw [Aff.neg, h.2, neg_zero]⟩
      · exact Or.inr (by simp only [Aff.neg]; rw [neg_mul_neg]; exact h)
    · rcases h with rfl | h
      · exact Or.inl (Aff.ext rfl (neg_zero))
      · refine Or.inr ⟨h.1, ?_⟩
        simp only [Aff.neg]
        rw [neg_neg]
        exact h.2.symm

theorem roundTrip_at (hK : K.Lawful) (hC : Good C) (A : Aff F) (hA : Aff.isOnCurve C A = true)
    (h : A ≠ Aff.identity → A.x ≠ 0 ∧ K.sgn (-A.y) ≠ K.sgn A.y) : RoundTripAt K C A :=
  ((C26_round_trip_partial hK hC A hA).mpr (by
    by_cases hid : A = Aff.identity
    · exact Or.inl hid
    · exact Or.inr (h hid))).1

theorem roundTrip_isOdd {p : ℕ} [Fact (OddModulus p)] [Fact p.Prime] [Fp.SmallModulus p] {K : Codec (Fp p)} {C : Params (Fp p)}
    (hK : K.Lawful) (hs : K.sgn = Fp.isOdd) (hC : Good C) (hb : ¬ IsSquare C.b) : RoundTrip K C :=
  roundTrip_of hC fun A hA => roundTrip_at hK hC A hA fun hid =>
    ⟨x_ne_zero hb hA hid, by rw [hs]; exact Fp.isOdd_neg _ (Codec.nonid hC hA hid).2.2⟩

/-- **C26** The full claim holds for bn256 G1, grumpkin, pluto, eris, secp256k1 and secq256k1. -/
theorem C26_full :
    RoundTrip Bn256.g1Codec Bn256.g1 ∧ RoundTrip Grumpkin.g1Codec Grumpkin.g1 ∧ RoundTrip Pluto.g1Codec Pluto.g1 ∧
    RoundTrip Pluto.erisCodec Pluto.eris ∧ RoundTrip Secp256k1.cCodec Secp256k1.c ∧ RoundTrip Secq256k1.cCodec Secq256k1.c :=
  ⟨roundTrip_isOdd Bn256.g1Codec_lawful rfl Bn256.g1_good Bn256.g1_b_nonsquare,
    roundTrip_isOdd Grumpkin.g1Codec_lawful rfl Grumpkin.g1_good Grumpkin.g1_b_nonsquare,
    roundTrip_isOdd Pluto.g1Codec_lawful rfl Pluto.g1_good Pluto.g1_b_nonsquare,
    roundTrip_isOdd Pluto.erisCodec_lawful rfl Pluto.eris_good Pluto.eris_b_nonsquare,
    roundTrip_isOdd Secp256k1.cCodec_lawful rfl Secp256k1.c_good Secp256k1.c_b_nonsquare,
    roundTrip_isOdd Secq256k1.cCodec_lawful rfl Secq256k1.c_good Secq256k1.c_b_nonsquare⟩

/-- The generator of bn256 G1, which is not the identity, and its triple meet the hypotheses of C26. -/
example : RoundTripAt Bn256.g1Codec Bn256.g1 Bn256.g1Gen ∧
    RoundTripAt Bn256.g1Codec Bn256.g1 (Proj.toAffine (Proj.add Bn256.g1 (Aff.toCurve Bn256.g1Gen)
      (Proj.double Bn256.g1 (Aff.toCurve Bn256.g1Gen)))) := by
  obtain ⟨h, g, hg, _⟩ := C21_generators.1
  have h1 := hg.toCurve Bn256.g1_good
  exact ⟨C26_full.1.1 _ h, C26_full.1.1 _ ((Aff.valid_iff Bn256.g1_good _).mp
    ⟨_, (h1.add Bn256.g1_good (h1.double Bn256.g1_good)).toAffine⟩)⟩

/-- **C26** for the curves where the full claim fails: the affine points that do round-trip. Missing: `x = 0` on secp256r1 and
bls12381 G1; `y.c0 = 0` on bn256 G2 and on pluto's G2; `y.c1 = (q ± 1)/2`, or `y.c1 = 0` and `y.c0 = (q ± 1)/2`, on bls12381 G2. -/
theorem C26_others_partial :
    (∀ A, Aff.isOnCurve Secp256r1.c A = true → A.x ≠ 0 → RoundTripAt Secp256r1.cCodec Secp256r1.c A) ∧
    (∀ A, Aff.isOnCurve Bls12381.g1 A = true → A.x ≠ 0 → RoundTripAt Bls12381.g1Codec Bls12381.g1 A) ∧
    (∀ A, Aff.isOnCurve Bn256.g2 A = true → A.y.c0 ≠ 0 → RoundTripAt Bn256.g2Codec Bn256.g2 A) ∧
    (∀ A, Aff.isOnCurve Pluto.g2 A = true → A.y.c0 ≠ 0 → RoundTripAt Pluto.g2Codec Pluto.g2 A) ∧
    (∀ A, Aff.isOnCurve Bls12381.g2 A = true → 2 * A.y.c1 * (2 * A.y.c1) ≠ 1 →
      (A.y.c1 = 0 → 2 * A.y.c0 * (2 * A.y.c0) ≠ 1) → RoundTripAt Bls12381.g2Codec Bls12381.g2 A) ∧
    RoundTripAt Secp256r1.cCodec Secp256r1.c Aff.identity ∧ RoundTripAt Bls12381.g1Codec Bls12381.g1 Aff.identity ∧
    RoundTripAt Bn256.g2Codec Bn256.g2 Aff.identity ∧ RoundTripAt Pluto.g2Codec Pluto.g2 Aff.identity ∧
    RoundTripAt Bls12381.g2Codec Bls12381.g2 Aff.identity := by
  refine ⟨?_, ?_, ?_, ?_, ?_, ?_, ?_, ?_, ?_, ?_⟩
  · intro A hA hx
    exact roundTrip_at Secp256r1.cCodec_lawful Secp256r1.c_good A hA fun hid =>
      ⟨hx, Fp.isOdd_neg _ (Codec.nonid Secp256r1.c_good hA hid).2.2⟩
  · intro A hA hx
    exact roundTrip_at Bls12381.g1Codec_lawful Bls12381.g1_good A hA fun hid => ⟨hx, Bls12381.g1_sign_sep hA hid⟩
  · intro A hA hy
    exact roundTrip_at Bn256.g2Codec_lawful Bn256.g2_good A hA fun hid =>
      ⟨x_ne_zero Bn256.g2_b_nonsquare hA hid, mt (Tower2.isOdd_neg A.y).mp hy⟩
  · intro A hA hy
    exact roundTrip_at Pluto.g2Codec_lawful Pluto.g2_good A hA fun hid =>
      ⟨x_ne_zero Pluto.g2_b_nonsquare hA hid, mt (Tower2.isOdd_neg A.y).mp hy⟩
  · intro A hA h1 h2
    exact roundTrip_at Bls12381.g2Codec_lawful Bls12381.g2_good A hA fun hid =>
      ⟨x_ne_zero Bls12381.g2_b_nonsquare hA hid,
        mt (Tower2.lexLargest_neg A.y (Codec.nonid Bls12381.g2_good hA hid).2.2).mp
          (fun h => h.elim h1 (fun h => h2 h.1 h.2))⟩
  · exact roundTrip_at Secp256r1.cCodec_lawful Secp256r1.c_good _ ((Aff.isOnCurve_iff _).mpr (Or.inl ⟨rfl, rfl⟩)) (fun h => absurd rfl h)
  · exact roundTrip_at Bls12381.g1Codec_lawful Bls12381.g1_good _ ((Aff.isOnCurve_iff _).mpr (Or.inl ⟨rfl, rfl⟩)) (fun h => absurd rfl h)
  · exact roundTrip_at Bn256.g2Codec_lawful Bn256.g2_good _ ((Aff.isOnCurve_iff _).mpr (Or.inl ⟨rfl, rfl⟩)) (fun h => absurd rfl h)
  · exact roundTrip_at Pluto.g2Codec_lawful Pluto.g2_good _ ((Aff.isOnCurve_iff _).mpr (Or.inl ⟨rfl, rfl⟩)) (fun h => absurd rfl h)
  · exact roundTrip_at Bls12381.g2Codec_lawful Bls12381.g2_good _ ((Aff.isOnCurve_iff _).mpr (Or.inl ⟨rfl, rfl⟩)) (fun h => absurd rfl h)

/-! ### Points that do not round-trip -/

@[irreducible] def r1ZeroY : ℕ := 0x66485c780e2f83d72433bd5d84a06bb6541c2af31dae871728bf856a174f93f4

/-- A point of secp256r1 with `x = 0`. -/
noncomputable def r1Zero : Aff (Fp r1P) := ⟨0, ((r1ZeroY : ℕ) : Fp r1P)⟩

theorem r1Zero_on : Aff.isOnCurve Secp256r1.c r1Zero = true := by
  rw [Aff.isOnCurve_iff, Secp256r1.cBVal_eq]
  right
  change ((r1ZeroY : ℕ) : Fp r1P) * ((r1ZeroY : ℕ) : Fp r1P) = 0 * 0 * 0 + _ * 0 + _
  rw [mul_zero, mul_zero, zero_add, zero_add, ← Nat.cast_mul, Fp.natCast_eq_iff]
  decide +kernel

theorem r1Zero_ne : r1Zero ≠ Aff.identity := by
  intro h
  have : ((r1ZeroY : ℕ) : Fp r1P) = ((0 : ℕ) : Fp r1P) := (congrArg Aff.y h).trans Nat.cast_zero.symm
  rw [Fp.natCast_eq_iff] at this
  exact absurd this (by decide +kernel)

/-- The point `(0, 2)` of bls12381 G1. -/
noncomputable def blsZero : Aff Bls12381.Fq := ⟨0, 2⟩

theorem blsZero_on : Aff.isOnCurve Bls12381.g1 blsZero = true := by
  rw [Aff.isOnCurve_iff, Bls12381.g1BVal_eq, show Bls12381.g1BVal = 4 by decide +kernel]
  right
  change (2 : Fp blsQ) * 2 = 0 * 0 * 0 + _ * 0 + (4 : Fp blsQ)
  ring

theorem blsZero_ne : blsZero ≠ Aff.identity := by
  intro h
  exact Fp.two_ne_zero (p := blsQ) (congrArg Aff.y h)

@[irreducible] def bnG2X : ℕ × ℕ := (0xa0d4094608728f1b8f623b4cdf0ccb597eb4eb88cdc572e1dcc383891b6e830, 0x1162dbbba03b247009eeb574e73a5c682869a85a205124f4e630b6cab40a5efc)
@[irreducible] def bnG2Y : ℕ × ℕ := (0, 2)

/-- A point of bn256 G2 whose `y` and `-y` have the same sign. -/
def bnG2Amb : Aff (Quad (Fp bnQ)) := ⟨Shadow.cast bnQ bnG2X, Shadow.cast bnQ bnG2Y⟩

theorem bnG2Amb_on : Aff.isOnCurve Bn256.g2 bnG2Amb = true := by
  rw [Aff.isOnCurve_iff, Bn256.g2BVal_eq]
  right
  change Shadow.cast bnQ bnG2Y * Shadow.cast bnQ bnG2Y = Shadow.cast bnQ bnG2X * Shadow.cast bnQ bnG2X * Shadow.cast bnQ bnG2X + 0 * _ + _
  rw [zero_mul, add_zero, ← Shadow.cast_mul Bn256.nonRes_base, ← Shadow.cast_mul Bn256.nonRes_base,
    ← Shadow.cast_mul Bn256.nonRes_base, Shadow.cast_add, Shadow.cast_eq_iff]
  decide +kernel

theorem bnG2Amb_x : bnG2Amb.x ≠ 0 := by
  intro h
  have : ((bnG2X.1 : ℕ) : Fp bnQ) = ((0 : ℕ) : Fp bnQ) := (congrArg Quad.c0 h).trans Nat.cast_zero.symm
  rw [Fp.natCast_eq_iff] at this
  exact absurd this (by decide +kernel)

theorem bnG2Amb_ne : bnG2Amb ≠ Aff.identity := fun h => bnG2Amb_x (congrArg Aff.x h)

theorem bnG2Amb_sgn : Tower2.isOdd (-bnG2Amb.y) = Tower2.isOdd bnG2Amb.y := by
  rw [Tower2.isOdd_neg]
  change ((bnG2Y.1 : ℕ) : Fp bnQ) = 0
  rw [show bnG2Y.1 = 0 by decide +kernel, Nat.cast_zero]

@[irreducible] def plG2X : ℕ × ℕ := (0x93dea5a1d6f5cc06041bb25a76ce5c1d9e465ceace8109284ecbf34a852b1c0ce95744be1af94f8bb8addff1d177ee807c8d7e3a027f02e, 0x10f071172e9fb6d9fdc4303af924c8ea40dfbaf9928ecc7e7d2da369bb3b3f5b00fd9f35de210abe572eb0b2bc077c98adf0e2c109d5eaae)
@[irreducible] def plG2Y : ℕ × ℕ := (0, 2)

/-- A point of pluto's G2 whose `y` and `-y` have the same sign. -/
def plG2Amb : Aff (Quad (Fp plP)) := ⟨Shadow.cast plP plG2X, Shadow.cast plP plG2Y⟩

theorem plG2Amb_on : Aff.isOnCurve Pluto.g2 plG2Amb = true := by
  rw [Aff.isOnCurve_iff, Pluto.g2BVal_eq]
  right
  change Shadow.cast plP plG2Y * Shadow.cast plP plG2Y = Shadow.cast plP plG2X * Shadow.cast plP plG2X * Shadow.cast plP plG2X + 0 * _ + _
  rw [zero_mul, add_zero, ← Shadow.cast_mul Pluto.nonRes_base, ← Shadow.cast_mul Pluto.nonRes_base,
    ← Shadow.cast_mul Pluto.nonRes_base, Shadow.cast_add, Shadow.cast_eq_iff]
  decide +kernel

theorem plG2Amb_x : plG2Amb.x ≠ 0 := by
  intro h
  have : ((plG2X.1 : ℕ) : Fp plP) = ((0 : ℕ) : Fp plP) := (congrArg Quad.c0 h).trans Nat.cast_zero.symm
  rw [Fp.natCast_eq_iff] at this
  exact absurd this (by decide +kernel)

theorem plG2Amb_ne : plG2Amb ≠ Aff.identity := fun h => plG2Amb_x (congrArg Aff.x h)

theorem plG2Amb_sgn : Tower2.isOdd (-plG2Amb.y) = Tower2.isOdd plG2Amb.y := by
  rw [Tower2.isOdd_neg]
  change ((plG2Y.1 : ℕ) : Fp plP) = 0
  rw [show plG2Y.1 = 0 by decide +kernel, Nat.cast_zero]

@[irreducible] def blsG2X : ℕ × ℕ := (0x6187548c7d4c1aa137bd575e79d98082d12ba9d8279104602751e895a4fe6b9993653a4a8acccc6a746fc6e6e9e33da, 0xc459bf71689a1ddd357dc00f20e5579aabf3bc666a045223bc5a1b6a4d4076bdd5fb0db53ef7d39a01e3174ea7e512d)
@[irreducible] def blsG2Y : ℕ × ℕ := (4, (blsQ - 1) / 2)

/-- A point of bls12381 G2 whose `y` and `-y` have the same sign. -/
def blsG2Amb : Aff (Quad (Fp blsQ)) := ⟨Shadow.cast blsQ blsG2X, Shadow.cast blsQ blsG2Y⟩

theorem blsG2Amb_on : Aff.isOnCurve Bls12381.g2 blsG2Amb = true := by
  rw [Aff.isOnCurve_iff, Bls12381.g2BVal_eq]
  right
  change Shadow.cast blsQ blsG2Y * Shadow.cast blsQ blsG2Y = Shadow.cast blsQ blsG2X * Shadow.cast blsQ blsG2X * Shadow.cast blsQ blsG2X + 0 * _ + _
  rw [zero_mul, add_zero, ← Shadow.cast_mul Bls12381.nonRes_base, ← Shadow.cast_mul Bls12381.nonRes_base,
    ← Shadow.cast_mul Bls12381.nonRes_base, Shadow.cast_add, Shadow.cast_eq_iff]
  decide +kernel

theorem blsG2Amb_x : blsG2Amb.x ≠ 0 := by
  intro h
  have : ((blsG2X.1 : ℕ) : Fp blsQ) = ((0 : ℕ) : Fp blsQ) := (congrArg Quad.c0 h).trans Nat.cast_zero.symm
  rw [Fp.natCast_eq_iff] at this
  exact absurd this (by decide +kernel)

theorem blsG2Amb_ne : blsG2Amb ≠ Aff.identity := fun h => blsG2Amb_x (congrArg Aff.x h)

theorem blsG2Amb_sgn : Tower2.lexLargest (-blsG2Amb.y) = Tower2.lexLargest blsG2Amb.y := by
  rw [Tower2.lexLargest_neg _ (Codec.nonid Bls12381.g2_good blsG2Amb_on blsG2Amb_ne).2.2]
  left
  change 2 * ((blsG2Y.2 : ℕ) : Fp blsQ) * (2 * ((blsG2Y.2 : ℕ) : Fp blsQ)) = 1
  have h2 : (2 : Fp blsQ) = ((2 : ℕ) : Fp blsQ) := rfl
  rw [h2, ← Nat.cast_mul, ← Nat.cast_mul, ← Nat.cast_one, Fp.natCast_eq_iff]
  decide +kernel

theorem not_roundTrip_zero (hK : K.Lawful) (hC : Good C) {A : Aff F} (hA : Aff.isOnCurve C A = true) (hid : A ≠ Aff.identity)
    (hx : A.x = 0) : ¬ RoundTrip K C := by
  rintro ⟨h, _⟩
  obtain ⟨b, h1, _, _, h2⟩ := h A hA
  exact Codec.decode_encode_zero hK hC A hA hid hx b h1 A h2

theorem not_roundTrip_amb (hK : K.Lawful) (hC : Good C) {A : Aff F} (hA : Aff.isOnCurve C A = true) (hid : A ≠ Aff.identity)
    (hs : K.sgn (-A.y) = K.sgn A.y) : ¬ RoundTrip K C := by
  rintro ⟨h, _⟩
  have hA' : Aff.isOnCurve C (Aff.neg A) = true := by
    rw [Aff.isOnCurve_iff] at hA ⊢
    rcases hA with h | h
    · exact Or.inl ⟨h.1, by rw [Aff.neg, h.2, neg_zero]⟩
    · exact Or.inr (by simp only [Aff.neg]; rw [neg_mul_neg]; exact h)
  rcases (C26_round_trip_partial hK hC A hA).mp ⟨h A hA, h _ hA'⟩ with h0 | h0
  · exact hid h0
  · exact h0.2 hs

/-- **C26** is false for secp256r1 (the points with `x = 0`), bls12381 G1 (the points `(0, ±2)`), bn256 G2 and pluto's G2 (points with
`y.c0 = 0`) and bls12381 G2 (points with `y.c1 = (q ± 1)/2`). -/
theorem C26_false :
    ¬ RoundTrip Secp256r1.cCodec Secp256r1.c ∧ ¬ RoundTrip Bls12381.g1Codec Bls12381.g1 ∧
    ¬ RoundTrip Bn256.g2Codec Bn256.g2 ∧ ¬ RoundTrip Pluto.g2Codec Pluto.g2 ∧ ¬ RoundTrip Bls12381.g2Codec Bls12381.g2 :=
  ⟨not_roundTrip_zero Secp256r1.cCodec_lawful Secp256r1.c_good r1Zero_on r1Zero_ne rfl,
    not_roundTrip_zero Bls12381.g1Codec_lawful Bls12381.g1_good blsZero_on blsZero_ne rfl,
    not_roundTrip_amb Bn256.g2Codec_lawful Bn256.g2_good bnG2Amb_on bnG2Amb_ne bnG2Amb_sgn,
    not_roundTrip_amb Pluto.g2Codec_lawful Pluto.g2_good plG2Amb_on plG2Amb_ne plG2Amb_sgn,
    not_roundTrip_amb Bls12381.g2Codec_lawful Bls12381.g2_good blsG2Amb_on blsG2Amb_ne blsG2Amb_sgn⟩

/-! ## C27 -/

/-- **C27**, full claim for one curve: decoding any string of the right length returns, without panicking, nothing or a point of the curve
of which the string is the encoding. -/
def DecodeSound (K : Codec F) (C : Params F) : Prop :=
  ∀ b, b.length = K.compressedSize → IsBytes b →
    K.decode C b = .ok none ∨ ∃ P, K.decode C b = .ok (some P) ∧ Aff.isOnCurve C P = true ∧ K.encode C P = .ok b

/-- **C27** for every curve and layout: a decoded point is on the curve; the string is its encoding unless the sign rule does not separate
`y` from `-y`; no two strings decode to the same separated point. What is missing: the excepted points, and panics of the coordinate decoder. -/
theorem C27_decode_partial (hK : K.Lawful) (hC : Good C) (b : List ℕ) (hl : b.length = K.compressedSize) (hb : IsBytes b)
    (P : Aff F) (h : K.decode C b = .ok (some P)) :
    Aff.isOnCurve C P = true ∧ (P = Aff.identity ∨ P.x ≠ 0) ∧
    (P = Aff.identity ∨ K.sgn (-P.y) ≠ K.sgn P.y →
      K.encode C P = .ok b ∧ ∀ b', b'.length = K.compressedSize → IsBytes b' → K.decode C b' = .ok (some P) → b' = b) := by
  obtain ⟨h1, h2, h3⟩ := Codec.decode_sound hK hC b hl hb P h
  refine ⟨h1, h2, fun hs => ⟨h3 hs, fun b' hl' hb' h' => ?_⟩⟩
  have h4 := (Codec.decode_sound hK hC b' hl' hb' P h').2.2 hs
  rw [h3 hs, Outcome.ok.injEq] at h4
  exact h4.symm

theorem decodeSound_of (hK : K.Lawful) (hC : Good C) (hp : ∀ b, K.fromBytes b ≠ .panic)
    (hs : ∀ A, Aff.isOnCurve C A = true → A ≠ Aff.identity → K.sgn (-A.y) ≠ K.sgn A.y) : DecodeSound K C := by
  intro b hl hb
  cases hd : K.decode C b with
  | panic => exact absurd hd (Codec.decode_panic hK hC hp b hl hb)
  | ok r =>
    cases r with
    | none => exact Or.inl rfl
    | some P =>
      obtain ⟨h1, _, h3⟩ := Codec.decode_sound hK hC b hl hb P hd
      refine Or.inr ⟨P, rfl, h1, h3 ?_⟩
      by_cases hid : P = Aff.identity
      · exact Or.inl hid
      · exact Or.inr (hs P h1 hid)

theorem decodeSound_isOdd {p : ℕ} [Fact (OddModulus p)] [Fact p.Prime] [Fp.SmallModulus p] {K : Codec (Fp p)} {C : Params (Fp p)}
    (hK : K.Lawful) (hs : K.sgn = Fp.isOdd) (hp : ∀ b, K.fromBytes b ≠ .panic) (hC : Good C) : DecodeSound K C :=
  decodeSound_of hK hC hp fun A hA hid => by
    rw [hs]; exact Fp.isOdd_neg _ (Codec.nonid hC hA hid).2.2

/-- **C27** The full claim holds for all eight curves over prime fields. -/
theorem C27_full :
    DecodeSound Bn256.g1Codec Bn256.g1 ∧ DecodeSound Grumpkin.g1Codec Grumpkin.g1 ∧ DecodeSound Bls12381.g1Codec Bls12381.g1 ∧
    DecodeSound Pluto.g1Codec Pluto.g1 ∧ DecodeSound Pluto.erisCodec Pluto.eris ∧ DecodeSound Secp256k1.cCodec Secp256k1.c ∧
    DecodeSound Secq256k1.cCodec Secq256k1.c ∧ DecodeSound Secp256r1.cCodec Secp256r1.c :=
  ⟨decodeSound_isOdd Bn256.g1Codec_lawful rfl (fun _ h => by cases h) Bn256.g1_good,
    decodeSound_isOdd Grumpkin.g1Codec_lawful rfl (fun _ h => by cases h) Grumpkin.g1_good,
    decodeSound_of Bls12381.g1Codec_lawful Bls12381.g1_good (fun _ h => by cases h) (fun _ hA hid => Bls12381.g1_sign_sep hA hid),
    decodeSound_isOdd Pluto.g1Codec_lawful rfl (fun _ h => by cases h) Pluto.g1_good,
    decodeSound_isOdd Pluto.erisCodec_lawful rfl (fun _ h => by cases h) Pluto.eris_good,
    decodeSound_isOdd Secp256k1.cCodec_lawful rfl (fun _ h => by cases h) Secp256k1.c_good,
    decodeSound_isOdd Secq256k1.cCodec_lawful rfl (fun _ h => by cases h) Secq256k1.c_good,
    decodeSound_isOdd Secp256r1.cCodec_lawful rfl (fun _ h => by cases h) Secp256r1.c_good⟩

/-- A string that decodes: C27 is not vacuous. -/
example : ∃ b P, b.length = Bls12381.g1Codec.compressedSize ∧ IsBytes b ∧ Bls12381.g1Codec.decode Bls12381.g1 b = .ok (some P) ∧
    P ≠ Aff.identity := by
  have hne : Bls12381.g1Gen.x ≠ 0 := by
    rw [Bls12381.g1XVal_eq, ← Nat.cast_zero, Ne, Fp.natCast_eq_iff]
    decide +kernel
  obtain ⟨b, _, h2, h3, h4⟩ := C26_others_partial.2.1 _ C21_generators.2.2.2.1.1 hne
  exact ⟨b, _, h2, h3, h4, fun h => hne (congrArg Aff.x h)⟩

/-- **C27** is false for the three curves over quadratic extensions: some strings decode to a point that has another encoding. -/
theorem C27_malleable_false :
    (∃ b P, b.length = Bn256.g2Codec.compressedSize ∧ IsBytes b ∧ Bn256.g2Codec.decode Bn256.g2 b = .ok (some P) ∧
      Bn256.g2Codec.encode Bn256.g2 P ≠ .ok b) ∧
    (∃ b P, b.length = Pluto.g2Codec.compressedSize ∧ IsBytes b ∧ Pluto.g2Codec.decode Pluto.g2 b = .ok (some P) ∧
      Pluto.g2Codec.encode Pluto.g2 P ≠ .ok b) ∧
    (∃ b P, b.length = Bls12381.g2Codec.compressedSize ∧ IsBytes b ∧ Bls12381.g2Codec.decode Bls12381.g2 b = .ok (some P) ∧
      Bls12381.g2Codec.encode Bls12381.g2 P ≠ .ok b) :=
  ⟨Codec.decode_malleable Bn256.g2Codec_lawful Bn256.g2_good _ bnG2Amb_on bnG2Amb_ne bnG2Amb_x bnG2Amb_sgn,
    Codec.decode_malleable Pluto.g2Codec_lawful Pluto.g2_good _ plG2Amb_on plG2Amb_ne plG2Amb_x plG2Amb_sgn,
    Codec.decode_malleable Bls12381.g2Codec_lawful Bls12381.g2_good _ blsG2Amb_on blsG2Amb_ne blsG2Amb_x blsG2Amb_sgn⟩

theorem leNat_replicate_255 (n : ℕ) : leNat (List.replicate n 255) + 1 = 256 ^ n := by
  induction n with
  | zero => rfl
  | succ n ih => rw [List.replicate_succ, leNat, pow_succ]; omega

theorem tower2_big (p : ℕ) : p ≤ leNat (List.replicate (Tower2.half p) 255) := by
  have hval := leNat_replicate_255 (Tower2.half p)
  have hlt := modulus_lt p
  have e : W ^ numLimbs p = 256 ^ Tower2.half p := by
    rw [Tower2.half, pow_mul]; rfl
  rw [e] at hlt
  exact Nat.le_of_lt_succ (lt_of_lt_of_eq hlt hval.symm)

/-- All bytes set: the coordinate outside the flag byte is not canonical. -/
theorem tower2_decode_panics {p : ℕ} [Fact (OddModulus p)] [Field (Quad (Fp p))] [DecidableEq (Quad (Fp p))]
    [BaseField (Quad (Fp p))] [LawfulBase (Quad (Fp p))] {C : Params (Quad (Fp p))} (e : Endian) (cfg : FlagConfig)
    (hc : cfg.hasExtra = false) (sgn : Quad (Fp p) → Bool) (sqrt : Quad (Fp p) → Outcome (Option (Quad (Fp p))))
    (hK : (Tower2.codec p e cfg sgn sqrt).Lawful) :
    (Tower2.codec p e cfg sgn sqrt).decode C (List.replicate (2 * Tower2.half p) 255) = .panic := by
  have hcs : (Tower2.codec p e cfg sgn sqrt).compressedSize = 2 * Tower2.half p := by
    rw [Codec.compressedSize]
    change 2 * Tower2.half p + (if cfg.hasExtra then 1 else 0) = _
    rw [hc]; rfl
  have hpos : 0 < Tower2.half p := by
    have := hK.size_pos
    change 0 < 2 * Tower2.half p at this
    omega
  have hl : (List.replicate (2 * Tower2.half p) 255).length = 2 * Tower2.half p := List.length_replicate
  have hb : IsBytes (List.replicate (2 * Tower2.half p) 255) := by
    intro x hx; rw [List.mem_replicate] at hx; omega
  have hbig := tower2_big p
  apply Codec.decode_panics hK _ (by rw [hl, hcs]) hb
  have hcf : (Tower2.codec p e cfg sgn sqrt).config.hasExtra = false := hc
  rw [hcf, if_neg (by decide)]
  generalize hv : (Tower2.codec p e cfg sgn sqrt).config.clear
    ((List.replicate (2 * Tower2.half p) 255).getD (Tower2.codec p e cfg sgn sqrt).idx 0) = v
  have hv256 : v < 256 := by
    rw [← hv]; exact (get_set _ _ (getD_lt hb _)).1
  have hsl : ((List.replicate (2 * Tower2.half p) 255).set (Tower2.codec p e cfg sgn sqrt).idx v).length = 2 * Tower2.half p := by
    rw [List.length_set, hl]
  have hfb : ∀ l, (Tower2.codec p e cfg sgn sqrt).fromBytes l = Tower2.fromBytes e (l.take (2 * Tower2.half p)) := fun _ => rfl
  rw [hfb, List.take_of_length_le (by rw [hsl]), (C20_panic_iff_partial p e _ hsl (isBytes_set hb _ _ hv256)).1]
  have hidx : (Tower2.codec p e cfg sgn sqrt).idx = topIdx e (2 * Tower2.half p) := by
    rw [← Codec.flagIdx_eq _ _ (hl.trans hcs.symm)]
    unfold Codec.flagIdx
    change (match cfg with | .extra => 0 | _ => match e with | .LE => (List.replicate (2 * Tower2.half p) 255).length - 1 | .BE => 0) = _
    rw [hl]
    clear hv hv256 hsl hK hcs
    cases cfg
    · simp [FlagConfig.hasExtra] at hc
    · cases e <;> rfl
    · cases e <;> rfl
  rw [hidx]
  cases e with
  | LE =>
    left
    simp only [topIdx]
    rw [List.take_set_of_le (by omega), List.take_replicate, show min (Tower2.half p) (2 * Tower2.half p) = Tower2.half p by omega]
    exact hbig
  | BE =>
    right
    simp only [topIdx]
    rw [List.drop_set_of_lt (by omega), List.drop_replicate, show 2 * Tower2.half p - Tower2.half p = Tower2.half p by omega,
      Endian.nat, List.reverse_replicate]
    exact hbig

/-- **C27** is false in a second way for the curves over quadratic extensions: decoding the string of all ones panics instead of
returning nothing (`from_repr` of the extension field unwraps). -/
theorem C27_total_false :
    Bn256.g2Codec.decode Bn256.g2 (List.replicate 64 255) = .panic ∧
    Pluto.g2Codec.decode Pluto.g2 (List.replicate 112 255) = .panic ∧
    Bls12381.g2Codec.decode Bls12381.g2 (List.replicate 96 255) = .panic := by
  have h1 : 2 * Tower2.half bnQ = 64 := by decide +kernel
  have h2 : 2 * Tower2.half plP = 112 := by decide +kernel
  have h3 : 2 * Tower2.half blsQ = 96 := by decide +kernel
  rw [← h1, ← h2, ← h3]
  exact ⟨tower2_decode_panics _ _ rfl _ _ Bn256.g2Codec_lawful, tower2_decode_panics _ _ rfl _ _ Pluto.g2Codec_lawful,
    tower2_decode_panics _ _ rfl _ _ Bls12381.g2Codec_lawful⟩

/-! ## C28 -/

/-- **C28** Uncompressed decoding accepts exactly the encodings of curve points; hence the round trip. -/
theorem C28_uncompressed (hK : K.Lawful) (P : Aff F) :
    (∀ b, b.length = 2 * K.size → IsBytes b →
      ((K.fromUncompressedUnchecked b = .ok (some P) ↔ b = K.toUncompressed P) ∧
       (K.fromUncompressed C b = .ok (some P) ↔ Aff.isOnCurve C P = true ∧ b = K.toUncompressed P))) ∧
    (K.toUncompressed P).length = 2 * K.size ∧ IsBytes (K.toUncompressed P) ∧
    (Aff.isOnCurve C P = true → K.fromUncompressed C (K.toUncompressed P) = .ok (some P)) := by
  obtain ⟨hl, hb⟩ := Codec.toUncompressed_length hK P
  exact ⟨fun b h1 h2 => Codec.fromUncompressed_iff hK b h1 h2 P, hl, hb,
    fun h => (Codec.fromUncompressed_iff hK _ hl hb P).2.mpr ⟨h, rfl⟩⟩

/-- **C28** Raw forms: `from_raw_bytes` of the affine type accepts exactly the raw bytes of points of the curve, and `from_raw_bytes`
of the projective type exactly the raw bytes of triples that pass `is_on_curve`; `read_raw` reads back exactly what `write_raw` wrote.
Missing from the full claim: the curve check in `read_raw`, and the exclusion of `(x, y, 0)` from projective triples; see
`C28_raw_false`. -/
theorem C28_raw_partial (hK : K.Lawful) (A : Aff F) (P : Proj F) (b rest : List ℕ) (hb : IsBytes b) :
    (K.affFromRaw C b = some A ↔ Aff.isOnCurve C A = true ∧ b = K.affToRaw A) ∧
    (K.projFromRaw C b = some P ↔ Proj.isOnCurve C P = true ∧ b = K.projToRaw P) ∧
    (K.affReadRaw b = some (A, rest) ↔ b = K.affToRaw A ++ rest) ∧
    (K.projReadRaw b = some (P, rest) ↔ b = K.projToRaw P ++ rest) :=
  ⟨Codec.affFromRaw_iff hK b hb A, Codec.projFromRaw_iff hK b hb P, Codec.affReadRaw_iff hK b hb A rest,
    Codec.projReadRaw_iff hK b hb P rest⟩

/-- **C28** A triple with `z ≠ 0` accepted by `from_raw_bytes` stands for a point of the curve, and every representation of a point
round-trips. -/
theorem C28_raw_valid_partial (hK : K.Lawful) (hC : Good C) (b : List ℕ) (hb : IsBytes b) (P : Proj F) :
    (K.projFromRaw C b = some P → P.z ≠ 0 → ∃ p, PRep C P p) ∧
    (∀ p, PRep C P p → K.projFromRaw C (K.projToRaw P) = some P) := by
  constructor
  · intro h hz
    have h1 := ((Codec.projFromRaw_iff hK b hb P).mp h).1
    rw [Proj.isOnCurve_iff] at h1
    exact (prep_iff hC P).mpr (Or.inr ⟨hz, h1.resolve_left hz⟩)
  · intro p hP
    have hbb : IsBytes (K.projToRaw P) := (hK.raw_isBytes _).append ((hK.raw_isBytes _).append (hK.raw_isBytes _))
    rw [Codec.projFromRaw_iff hK _ hbb P]
    refine ⟨?_, rfl⟩
    rw [Proj.isOnCurve_iff]
    rcases (prep_iff hC P).mp ⟨p, hP⟩ with h | h
    · exact Or.inl h.1
    · exact Or.inr h.2

/-- **C28** is false in two ways, on every curve: `read_raw` returns pairs that are not on the curve, and
projective `from_raw_bytes` returns `(0, 0, 0)`, which stands for no point. -/
theorem C28_raw_false (hK : K.Lawful) (hC : Good C) :
    (∃ s A rest, IsBytes s ∧ K.affReadRaw s = some (A, rest) ∧ Aff.isOnCurve C A = false) ∧
    (∃ s P rest, IsBytes s ∧ K.projReadRaw s = some (P, rest) ∧ Proj.isOnCurve C P = false) ∧
    (∃ b P, IsBytes b ∧ K.projFromRaw C b = some P ∧ ¬ ∃ p, PRep C P p) := by
  have hoff : Aff.isOnCurve C (⟨1, 0⟩ : Aff F) = false := by
    rw [← Bool.not_eq_true, Aff.isOnCurve_iff]
    rintro (⟨h, _⟩ | h)
    · exact one_ne_zero h
    · exact hC.noRoot 1 (by linear_combination -h)
  have ha : ∀ A, IsBytes (K.affToRaw A) := fun A => (hK.raw_isBytes _).append (hK.raw_isBytes _)
  have hp : ∀ A, IsBytes (K.projToRaw A) := fun A => (hK.raw_isBytes _).append ((hK.raw_isBytes _).append (hK.raw_isBytes _))
  refine ⟨⟨K.affToRaw ⟨1, 0⟩, _, [], ?_, ?_, hoff⟩, ⟨K.projToRaw ⟨1, 0, 1⟩, ⟨1, 0, 1⟩, [], ?_, ?_, ?_⟩, ⟨K.projToRaw ⟨0, 0, 0⟩, ⟨0, 0, 0⟩, ?_, ?_, ?_⟩⟩
  · exact (hK.raw_isBytes _).append (hK.raw_isBytes _)
  · rw [Codec.affReadRaw_iff hK _ (ha _), List.append_nil]
  · exact (hK.raw_isBytes _).append ((hK.raw_isBytes _).append (hK.raw_isBytes _))
  · rw [Codec.projReadRaw_iff hK _ (hp _), List.append_nil]
  · rw [← Bool.not_eq_true, Proj.isOnCurve_iff]
    rintro (h | h)
    · exact one_ne_zero h
    · exact hC.noRoot 1 (by linear_combination -h)
  · exact (hK.raw_isBytes _).append ((hK.raw_isBytes _).append (hK.raw_isBytes _))
  · rw [Codec.projFromRaw_iff hK _ (hp _)]
    exact ⟨(Proj.isOnCurve_iff _).mpr (Or.inl rfl), rfl⟩
  · rintro ⟨p, hp'⟩
    rcases (prep_iff hC _).mp ⟨p, hp'⟩ with h | h
    · exact h.2.2 rfl
    · exact h.1 rfl

/-- The encodings of all shipped curves are lawful, so C26, C27 and C28 apply to them. -/
theorem C28_shipped :
    Bn256.g1Codec.Lawful ∧ Bn256.g2Codec.Lawful ∧ Grumpkin.g1Codec.Lawful ∧ Bls12381.g1Codec.Lawful ∧ Bls12381.g2Codec.Lawful ∧
    Pluto.g1Codec.Lawful ∧ Pluto.erisCodec.Lawful ∧ Pluto.g2Codec.Lawful ∧ Secp256k1.cCodec.Lawful ∧ Secq256k1.cCodec.Lawful ∧
    Secp256r1.cCodec.Lawful :=
  ⟨Bn256.g1Codec_lawful, Bn256.g2Codec_lawful, Grumpkin.g1Codec_lawful, Bls12381.g1Codec_lawful, Bls12381.g2Codec_lawful,
    Pluto.g1Codec_lawful, Pluto.erisCodec_lawful, Pluto.g2Codec_lawful, Secp256k1.cCodec_lawful, Secq256k1.cCodec_lawful,
    Secp256r1.cCodec_lawful⟩

/-- C28 for the generator of bls12381 G2. -/
example : Bls12381.g2Codec.fromUncompressed Bls12381.g2 (Bls12381.g2Codec.toUncompressed Bls12381.g2Gen) = .ok (some Bls12381.g2Gen) :=
  (C28_uncompressed Bls12381.g2Codec_lawful _).2.2.2 C21_generators.2.2.2.2.1.1

end Halo2.Props
