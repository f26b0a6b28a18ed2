import Verif.Ext.Sqrt2Inst
import Verif.Field.FpBytes
import Mathlib.FieldTheory.Finite.Basic

/-!
# C18 - C20: `is_zero`, square roots and encodings of extension field elements
-/

set_option linter.unusedSectionVars false

namespace Halo2.Props

open Halo2 Halo2.Ext Halo2.Field Halo2.Prime ExtField

/-! ## C18: `is_zero` -/

section IsZero
variable {F : Type} [CommRing F] [ExtField F]

/-- **C18** For quadratic extensions `is_zero` answers `true` exactly on zero, if the base does. -/
theorem C18_quad (hz : ∀ x : F, isZero x = true ↔ x = 0) (x : Quad F) : Quad.isZero x = true ↔ x = 0 :=
  Quad.isZero_iff hz x

/-- The claim for cubic extensions. -/
def C18_claim (F : Type) [CommRing F] [ExtField F] : Prop := ∀ x : Cubic F, Cubic.isZero x = true ↔ x = 0

/-- **C18 is false of the code** for every cubic extension (over a base whose own `is_zero` is
right): `v²` is reported zero. -/
theorem C18_false [Nontrivial F] (hz : ∀ x : F, isZero x = true ↔ x = 0) : ¬ C18_claim F := by
  intro h
  have h1 : Cubic.isZero (⟨0, 0, 1⟩ : Cubic F) = true := by
    rw [Cubic.isZero, Bool.and_eq_true, hz]
    exact ⟨rfl, rfl⟩
  have h2 := congrArg Cubic.c2 ((h _).mp h1)
  exact one_ne_zero h2

/-- **C18** what does hold for cubic extensions: the answer is `true` exactly when the first two
coefficients vanish; it is right whenever the third one does too. Missing: elements `c2 v²`. -/
theorem C18_cubic_partial (hz : ∀ x : F, isZero x = true ↔ x = 0) (x : Cubic F) :
    (Cubic.isZero x = true ↔ x.c0 = 0 ∧ x.c1 = 0) ∧ (x.c2 = 0 → (Cubic.isZero x = true ↔ x = 0)) ∧
    (x = 0 → Cubic.isZero x = true) := by
  have h : Cubic.isZero x = true ↔ x.c0 = 0 ∧ x.c1 = 0 := by
    rw [Cubic.isZero, Bool.and_eq_true, hz, hz]
  refine ⟨h, fun h2 => ?_, ?_⟩
  · rw [h, Cubic.ext_iff]
    exact ⟨fun ⟨a, b⟩ => ⟨a, b, h2⟩, fun ⟨a, b, _⟩ => ⟨a, b⟩⟩
  · rintro rfl
    exact h.mpr ⟨rfl, rfl⟩

end IsZero

/-- **C18** The shipped towers: degree two is right, degrees six and twelve report a non-zero
element as zero. -/
theorem C18_towers_false :
    (∀ x : Bn256.Fq2, isZero x = true ↔ x = 0) ∧ (∃ x : Bn256.Fq6, x ≠ 0 ∧ isZero x = true) ∧
      (∃ x : Bn256.Fq12, x ≠ 0 ∧ isZero x = true) ∧
    (∀ x : Bls12381.Fq2, isZero x = true ↔ x = 0) ∧ (∃ x : Bls12381.Fq6, x ≠ 0 ∧ isZero x = true) ∧
      (∃ x : Bls12381.Fq12, x ≠ 0 ∧ isZero x = true) ∧
    (∀ x : Pluto.Fp2, isZero x = true ↔ x = 0) ∧ (∃ x : Pluto.Fp6, x ≠ 0 ∧ isZero x = true) ∧
      (∃ x : Pluto.Fp12, x ≠ 0 ∧ isZero x = true) := by
  have key : ∀ {F : Type} [CommRing F] [ExtField F] [Nontrivial F], (∀ x : F, isZero x = true ↔ x = 0) →
      (∃ x : Cubic F, x ≠ 0 ∧ Cubic.isZero x = true) ∧
      ∃ x : Quad (Cubic F), x.c0 ≠ 0 ∧ (Cubic.isZero x.c0 && Cubic.isZero x.c1) = true := by
    intro F _ _ _ hz
    have h1 : Cubic.isZero (⟨0, 0, 1⟩ : Cubic F) = true := by
      rw [Cubic.isZero, Bool.and_eq_true, hz]
      exact ⟨rfl, rfl⟩
    have h0 : Cubic.isZero (0 : Cubic F) = true := ((C18_cubic_partial hz 0).2.2 rfl)
    refine ⟨⟨⟨0, 0, 1⟩, fun h => one_ne_zero (congrArg Cubic.c2 h), h1⟩, ⟨⟨0, 0, 1⟩, 0⟩, fun h => ?_, ?_⟩
    · exact one_ne_zero (congrArg Cubic.c2 h)
    · rw [Bool.and_eq_true]
      exact ⟨h1, h0⟩
  have b1 := Quad.isZero_iff Bn256.isZero_base
  have b2 := Quad.isZero_iff Bls12381.isZero_base
  have b3 := Quad.isZero_iff Pluto.isZero_base
  obtain ⟨x1, n1, z1⟩ := (key b1).2
  obtain ⟨x2, n2, z2⟩ := (key b2).2
  obtain ⟨x3, n3, z3⟩ := (key b3).2
  exact ⟨b1, (key b1).1, ⟨x1, fun h => n1 (congrArg Quad.c0 h), z1⟩, b2, (key b2).1,
    ⟨x2, fun h => n2 (congrArg Quad.c0 h), z2⟩, b3, (key b3).1, ⟨x3, fun h => n3 (congrArg Quad.c0 h), z3⟩⟩

/-! ## C19: square roots in quadratic extensions -/

/-- **C19** bn256 `Fq2::sqrt`: `Some(r)` only with `r² = x`, `None` exactly for non-squares. -/
theorem C19_sqrt_bn256 (x : Bn256.Fq2) :
    (∀ r, Bn256.sqrt2 x = some r → r * r = x) ∧ (Bn256.sqrt2 x = none ↔ ¬ IsSquare x) := by
  obtain ⟨h1, h2⟩ := Bn256.sqrt2_spec x
  refine ⟨h1, h2, fun h => ?_⟩
  cases hc : Bn256.sqrt2 x with
  | none => rfl
  | some r => exact absurd ⟨r, (h1 r hc).symm⟩ h

/-- **C19** bls12381 `Fq2::sqrt`. -/
theorem C19_sqrt_bls12381 (x : Bls12381.Fq2) :
    (∀ r, Bls12381.sqrt2 x = some r → r * r = x) ∧ (Bls12381.sqrt2 x = none ↔ ¬ IsSquare x) := by
  obtain ⟨h1, h2⟩ := Bls12381.sqrt2_spec x
  refine ⟨h1, h2, fun h => ?_⟩
  cases hc : Bls12381.sqrt2 x with
  | none => rfl
  | some r => exact absurd ⟨r, (h1 r hc).symm⟩ h

/-- The claim for pluto: `Fp2::sqrt` terminates without panic on every input (some recursion depth
suffices), and answers as above. -/
def C19_pluto_claim : Prop := ∀ x : Pluto.Fp2, ∃ fuel r, Pluto.sqrt2 fuel x = .ok r ∧
    (∀ s, r = some s → s * s = x) ∧ (r = none ↔ ¬ IsSquare x)

/-- **C19 is false of the code** for pluto's `Fp2`: on zero no recursion depth is enough. -/
theorem C19_pluto_false : ¬ C19_pluto_claim := by
  intro h
  obtain ⟨fuel, r, h1, _⟩ := h 0
  rw [Pluto.sqrt2_zero] at h1
  cases h1

/-- **C19** pluto's `Fp2::sqrt` on every other input: depth two suffices, no `unwrap` panics, and the
answer is right. Missing from the full claim: the input zero, where the code recurses for ever. -/
theorem C19_sqrt_pluto_partial (fuel : ℕ) (x : Pluto.Fp2) (hx : x ≠ 0) :
    ∃ r, Pluto.sqrt2 (fuel + 2) x = .ok r ∧ (∀ s, r = some s → s * s = x) ∧ (r = none ↔ ¬ IsSquare x) := by
  obtain ⟨r, h1, h2, h3⟩ := Pluto.sqrt2_spec fuel x hx
  refine ⟨r, h1, h2, h3, fun h => ?_⟩
  cases r with
  | none => rfl
  | some s => exact absurd ⟨s, (h2 s rfl).symm⟩ h

/-- All three functions find a root of `4`, and bn256's rejects the non-residue `9 + u`. -/
example : (∃ r, Bn256.sqrt2 4 = some r) ∧ (∃ r, Bls12381.sqrt2 4 = some r) ∧
    (∃ r, Pluto.sqrt2 2 4 = .ok (some r)) ∧ Bn256.sqrt2 nonRes = none := by
  refine ⟨?_, ?_, ?_, (C19_sqrt_bn256 _).2.mpr Bn256.not_square_2⟩
  · cases hc : Bn256.sqrt2 4 with
    | some r => exact ⟨r, rfl⟩
    | none => exact absurd ⟨2, by norm_num⟩ ((C19_sqrt_bn256 4).2.mp hc)
  · cases hc : Bls12381.sqrt2 4 with
    | some r => exact ⟨r, rfl⟩
    | none => exact absurd ⟨2, by norm_num⟩ ((C19_sqrt_bls12381 4).2.mp hc)
  · have h4 : (4 : Pluto.Fp2) ≠ 0 := by
      have h2 : (2 : Pluto.Fp2) ≠ 0 := fun h => Fp.two_ne_zero (p := plP) (congrArg Quad.c0 h)
      have e : (4 : Pluto.Fp2) = 2 * 2 := by norm_num
      rw [e]
      exact mul_ne_zero h2 h2
    obtain ⟨r, h1, _, h3⟩ := C19_sqrt_pluto_partial 0 4 h4
    cases r with
    | some s => exact ⟨s, h1⟩
    | none => exact absurd ⟨2, by norm_num⟩ (h3.mp rfl)

theorem square_iff_norm_pow {F : Type} [Field F] [DecidableEq F] [ExtField F] [LawfulExt F] [ExtField (Quad F)]
    [LawfulExt (Quad F)] [IsDomain (Quad F)] (q : ℕ) (hq : 1 < q) (hodd : q % 2 = 1)
    (hconj : ∀ x : Quad F, Quad.conjugate x = x ^ q)
    (heuler : ∀ x : Quad F, x ^ ((q ^ 2 - 1) / 2) = 1 → IsSquare x)
    (x : Quad F) (hx : x ≠ 0) : IsSquare x ↔ (Quad.norm x) ^ ((q - 1) / 2) = 1 := by
  have hn : x * x ^ q = Quad.ofBase (Quad.norm x) := by
    rw [← hconj]
    exact Quad.mul_conjugate x
  have he : (q ^ 2 - 1) / 2 = (q + 1) * ((q - 1) / 2) := by
    obtain ⟨k, rfl⟩ : ∃ k, q = 2 * k + 1 := ⟨q / 2, by omega⟩
    have e1 : (2 * k + 1 - 1) / 2 = k := by omega
    have e2 : (2 * k + 1) ^ 2 = 2 * ((2 * k + 1 + 1) * k) + 1 := by ring
    rw [e1]; omega
  have hpow : x ^ ((q ^ 2 - 1) / 2) = Quad.ofBase (Quad.norm x ^ ((q - 1) / 2)) := by
    rw [he, pow_mul, pow_succ', hn, map_pow]
  constructor
  · rintro ⟨y, rfl⟩
    have hy : y ≠ 0 := fun h => hx (by rw [h, mul_zero])
    have h1 := Quad.pow_sq_pred hconj hq y hy
    have hev : (q ^ 2 - 1) / 2 * 2 = q ^ 2 - 1 := by
      have : q ^ 2 % 2 = 1 := by rw [Nat.pow_mod, hodd]
      omega
    rw [← pow_two, ← pow_mul, mul_comm 2, hev, h1] at hpow
    rw [← pow_two]
    exact (congrArg Quad.c0 hpow).symm
  · intro h
    apply heuler
    rw [hpow, h, map_one]

theorem square_iff_norm {p : ℕ} [hp : Fact p.Prime] [ho : Fact (OddModulus p)] [Fp.SmallModulus p] [ExtField (Fp p)]
    [LawfulExt (Fp p)] [ExtField (Quad (Fp p))] [LawfulExt (Quad (Fp p))]
    (hns : ¬ IsSquare (nonRes : Fp p)) (hconj : ∀ x : Quad (Fp p), Quad.conjugate x = x ^ p)
    (x : Quad (Fp p)) : IsSquare x ↔ IsSquare (Quad.norm x) := by
  let fld : Field (Quad (Fp p)) := Quad.fieldOf hns
  have hdom : IsDomain (Quad (Fp p)) := fld.isDomain
  have hgt := ho.out.gt
  have hodd := ho.out.odd
  by_cases hx : x = 0
  · subst hx
    exact ⟨fun _ => ⟨0, by rw [Quad.norm_eq]; change (0 : Fp p) * 0 - _ * (0 * 0) = _; ring⟩, fun _ => ⟨0, by ring⟩⟩
  · let e : Quad (Fp p) ≃ ZMod p × ZMod p :=
      { toFun := fun x => (Fp.equiv p x.c0, Fp.equiv p x.c1)
        invFun := fun y => ⟨(Fp.equiv p).symm y.1, (Fp.equiv p).symm y.2⟩
        left_inv := fun x => by simp
        right_inv := fun y => by simp }
    have : NeZero p := ⟨by omega⟩
    let _ : Fintype (Quad (Fp p)) := Fintype.ofEquiv _ e.symm
    have hcard : Fintype.card (Quad (Fp p)) = p ^ 2 := by
      rw [Fintype.card_congr e, Fintype.card_prod, ZMod.card, pow_two]
    have hchar : ringChar (Quad (Fp p)) ≠ 2 := by
      intro h
      have h2 : (2 : Quad (Fp p)) = 0 := by
        have := ringChar.Nat.cast_ringChar (R := Quad (Fp p))
        rw [h] at this
        exact this
      exact Fp.two_ne_zero (p := p) (congrArg Quad.c0 h2)
    have hp2 : p ^ 2 / 2 = (p ^ 2 - 1) / 2 := by
      have : p ^ 2 % 2 = 1 := by rw [Nat.pow_mod, hodd]
      omega
    rw [square_iff_norm_pow p hgt hodd hconj (fun y hy => ?_) x hx]
    · have hn0 : Quad.norm x ≠ 0 := by
        intro h
        have h1 : x * Quad.conjugate x = 0 := by
          have := Quad.mul_conjugate x
          rw [h] at this
          exact this
        rcases mul_eq_zero.mp h1 with h | h
        · exact hx h
        · rw [hconj] at h
          exact hx (eq_zero_of_pow_eq_zero h)
      constructor
      · intro h
        by_contra hc
        rw [pow_half_of_not_square _ hc] at h
        exact Fp.two_ne_zero (p := p) (by linear_combination -h)
      · rintro ⟨y, hy⟩
        have hy0 : y ≠ 0 := fun h => hn0 (by rw [hy, h, mul_zero])
        rw [hy, ← pow_two, ← pow_mul, show 2 * ((p - 1) / 2) = p - 1 by omega]
        exact Fp.pow_pred y hy0
    · by_cases hy0 : y = 0
      · exact ⟨0, by rw [hy0, mul_zero]⟩
      · rw [← hp2, ← hcard] at hy
        exact (FiniteField.isSquare_iff hchar hy0).mpr hy

/-- **C19** Squareness in the shipped quadratic extensions is squareness of the norm in the base field,
which is what `legendre` of the extension computes (`self.norm().legendre()`). -/
theorem C19_square_iff_norm :
    (∀ x : Bn256.Fq2, IsSquare x ↔ IsSquare (Quad.norm x)) ∧
    (∀ x : Bls12381.Fq2, IsSquare x ↔ IsSquare (Quad.norm x)) ∧
    (∀ x : Pluto.Fp2, IsSquare x ↔ IsSquare (Quad.norm x)) :=
  ⟨square_iff_norm Bn256.not_square_base Bn256.conj_eq, square_iff_norm Bls12381.not_square_base Bls12381.conj_eq,
    square_iff_norm Pluto.not_square_base Pluto.conj_eq⟩

/-! ## C20: encodings of quadratic extension elements -/

section C20
variable (p : ℕ) [hp : Fact (OddModulus p)]

/-- **C20** `to_bytes`/`to_repr` have length `2 SIZE`, are bytes, and are `c0` followed by `c1`. -/
theorem C20_encode (e : Endian) (x : Quad (Fp p)) :
    (Tower2.toBytes e x).length = 2 * Tower2.half p ∧ IsBytes (Tower2.toBytes e x) ∧
    e.nat ((Tower2.toBytes e x).take (Tower2.half p)) = x.c0.toNat ∧
    e.nat ((Tower2.toBytes e x).drop (Tower2.half p)) = x.c1.toNat ∧
    Tower2.toRepr x = Tower2.toBytes .LE x := by
  obtain ⟨a1, a2, a3⟩ := Fp.toBytes_spec e x.c0
  obtain ⟨b1, b2, b3⟩ := Fp.toBytes_spec e x.c1
  have ha : (x.c0.toBytes e).length = Tower2.half p := a1
  refine ⟨?_, a2.append b2, ?_, ?_, rfl⟩
  · rw [Tower2.toBytes, List.length_append, a1, b1, Tower2.half]; ring
  · rw [Tower2.toBytes, ← ha, List.take_left]; exact a3
  · rw [Tower2.toBytes, ← ha, List.drop_left]; exact b3

/-- **C20** decoding returns `x` exactly on the encoding of `x`; hence the round trip and the
uniqueness of encodings. -/
theorem C20_decode_exact (e : Endian) (b : List ℕ) (hl : b.length = 2 * Tower2.half p) (hb : IsBytes b)
    (x : Quad (Fp p)) :
    (Tower2.fromBytes e b = .ok (some x) ↔ b = Tower2.toBytes e x) ∧
    (Tower2.fromRepr b = .ok (some x) ↔ b = Tower2.toRepr x) := by
  have hl1 : (b.take (Tower2.half p)).length = 8 * numLimbs p := by
    rw [List.length_take, hl, Tower2.half]; omega
  have hl2 : (b.drop (Tower2.half p)).length = 8 * numLimbs p := by
    rw [List.length_drop, hl, Tower2.half]; omega
  have key : ∀ e, (Tower2.fromBytes e b = .ok (some x) ↔ b = Tower2.toBytes e x) := by
    intro e
    have k1 := fun a => Fp.fromBytes_some (p := p) e _ hl1 (hb.take _) a
    have k2 := fun a => Fp.fromBytes_some (p := p) e _ hl2 (hb.drop _) a
    have hsplit := List.take_append_drop (Tower2.half p) b
    constructor
    · intro h
      unfold Tower2.fromBytes Tower2.unwrapPair at h
      split at h
      · next a c h1 h2 =>
        rw [k1] at h1
        rw [k2] at h2
        cases h
        rw [Tower2.toBytes, ← h1, ← h2, hsplit]
      · cases h
    · intro h
      have ha := (Fp.toBytes_spec e x.c0).1
      have e1 : b.take (Tower2.half p) = x.c0.toBytes e := by
        rw [h, Tower2.toBytes, show Tower2.half p = (x.c0.toBytes e).length from ha.symm, List.take_left]
      have e2 : b.drop (Tower2.half p) = x.c1.toBytes e := by
        rw [h, Tower2.toBytes, show Tower2.half p = (x.c0.toBytes e).length from ha.symm, List.drop_left]
      rw [Tower2.fromBytes, (k1 _).mpr e1, (k2 _).mpr e2]
      rfl
  exact ⟨key e, key .LE⟩

/-- The claim that decoding never panics: malformed input yields `None`. -/
def C20_total_claim : Prop := ∀ (e : Endian) (b : List ℕ), b.length = 2 * Tower2.half p → IsBytes b →
  ∃ r, (Tower2.fromBytes e b : Outcome (Option (Quad (Fp p)))) = .ok r

/-- **C20** decoding panics exactly when one of the two halves is not canonical (it never returns
`None`); the same for `from_repr`. -/
theorem C20_panic_iff_partial (e : Endian) (b : List ℕ) (hl : b.length = 2 * Tower2.half p) (hb : IsBytes b) :
    ((Tower2.fromBytes e b : Outcome (Option (Quad (Fp p)))) = .panic ↔
      p ≤ e.nat (b.take (Tower2.half p)) ∨ p ≤ e.nat (b.drop (Tower2.half p))) ∧
    (Tower2.fromBytes e b : Outcome (Option (Quad (Fp p)))) ≠ .ok none ∧
    ((Tower2.fromRepr b : Outcome (Option (Quad (Fp p)))) = .panic ↔
      p ≤ leNat (b.take (Tower2.half p)) ∨ p ≤ leNat (b.drop (Tower2.half p))) := by
  have hl1 : (b.take (Tower2.half p)).length = 8 * numLimbs p := by
    rw [List.length_take, hl, Tower2.half]; omega
  have hl2 : (b.drop (Tower2.half p)).length = 8 * numLimbs p := by
    rw [List.length_drop, hl, Tower2.half]; omega
  have key : ∀ e, ((Tower2.fromBytes e b : Outcome (Option (Quad (Fp p)))) = .panic ↔
      p ≤ e.nat (b.take (Tower2.half p)) ∨ p ≤ e.nat (b.drop (Tower2.half p))) := by
    intro e
    rw [← Fp.fromBytes_none e _ hl1 (hb.take _), ← Fp.fromBytes_none e _ hl2 (hb.drop _), Tower2.fromBytes]
    cases (Fp.fromBytes e (b.take (Tower2.half p)) : Option (Fp p)) <;>
      cases (Fp.fromBytes e (b.drop (Tower2.half p)) : Option (Fp p)) <;> simp [Tower2.unwrapPair]
  refine ⟨key e, ?_, key .LE⟩
  unfold Tower2.fromBytes Tower2.unwrapPair
  split <;> simp

/-- **C20 is false of the code**: for every modulus the all-ones string makes decoding panic. -/
theorem C20_total_false : ¬ C20_total_claim p := by
  intro h
  have hl : (List.replicate (2 * Tower2.half p) 255).length = 2 * Tower2.half p := List.length_replicate
  have hb : IsBytes (List.replicate (2 * Tower2.half p) 255) := by
    intro x hx; rw [List.mem_replicate] at hx; omega
  obtain ⟨r, hr⟩ := h .LE _ hl hb
  have h2 := (C20_panic_iff_partial p .LE _ hl hb).1.mpr (Or.inl (by
    have hval : ∀ n, leNat (List.replicate n 255) + 1 = 256 ^ n := by
      intro n
      induction n with
      | zero => rfl
      | succ n ih => rw [List.replicate_succ, leNat, pow_succ]; omega
    rw [Endian.nat, List.take_replicate, show min (Tower2.half p) (2 * Tower2.half p) = Tower2.half p by omega]
    have h1 := hval (Tower2.half p)
    have h3 := modulus_lt p
    have h4 : (256 : ℕ) ^ Tower2.half p = W ^ numLimbs p := by
      rw [Tower2.half, pow_mul]; rfl
    omega))
  rw [hr] at h2
  cases h2

/-- **C20** `cmp` is the lexicographic order on `(c1, c0)` of the canonical integers, and `is_odd` is
the parity of `c0`. -/
theorem C20_order (x y : Quad (Fp p)) :
    Tower2.cmp x y = (compare x.c1.toNat y.c1.toNat).then (compare x.c0.toNat y.c0.toNat) ∧
    (Tower2.cmp x y = .eq ↔ x = y) ∧ Tower2.isOdd x = decide (x.c0.toNat % 2 = 1) := by
  have h1 : Tower2.cmp x y = (compare x.c1.toNat y.c1.toNat).then (compare x.c0.toNat y.c0.toNat) := by
    rw [Tower2.cmp, Fp.cmp_eq, Fp.cmp_eq]
    cases compare x.c1.toNat y.c1.toNat <;> rfl
  refine ⟨h1, ?_, ?_⟩
  · rw [h1, Ordering.then_eq_eq, Nat.compare_eq_eq, Nat.compare_eq_eq, Quad.ext_iff]
    exact ⟨fun ⟨a, b⟩ => ⟨Fp.toNat_inj b, Fp.toNat_inj a⟩, fun ⟨a, b⟩ => ⟨by rw [b], by rw [a]⟩⟩
  · rw [← Fp.isOdd_eq]
    have hpos : 0 < (x.c0.toRepr).length := by
      have := (Fp.toBytes_spec .LE x.c0).1
      have h2 := numLimbs_pos p
      change 0 < (x.c0.toBytes .LE).length
      omega
    have hcons : ∃ c t, x.c0.toRepr = c :: t := by
      cases hc : x.c0.toRepr with
      | nil => rw [hc] at hpos; exact absurd hpos (by simp)
      | cons c t => exact ⟨c, t, rfl⟩
    obtain ⟨c, t, hc⟩ := hcons
    change ((x.c0.toRepr ++ x.c1.toRepr).headD 0 &&& 1 == 1) = ((x.c0.toRepr).headD 0 &&& 1 == 1)
    rw [hc]
    rfl

/-- **C20** `lexicographically_largest` of the extension in terms of the integers. It inherits the
prime field's defect (C08): it answers `true` on `[(p-1)/2, p)`. -/
theorem C20_lex_largest (x : Quad (Fp p)) :
    Tower2.lexLargest x = true ↔
      (p - 1) / 2 ≤ x.c1.toNat ∨ (x.c1.toNat = 0 ∧ (p - 1) / 2 ≤ x.c0.toNat) := by
  rw [Tower2.lexLargest, Bool.or_eq_true, Bool.and_eq_true, Fp.lexLargest_eq, Fp.lexLargest_eq, decide_eq_true_iff,
    decide_eq_true_iff, decide_eq_true_iff, Fp.toNat_eq_zero]

/-- **C07** in quadratic extensions `cmp` is a total order, lexicographic with `c1` first in the canonical
integers of the coefficients, and consistent with equality. -/
theorem C07_quad_order (x y : Quad (Fp p)) :
    (Tower2.cmp x y = .lt ↔ x.c1.toNat < y.c1.toNat ∨ x.c1.toNat = y.c1.toNat ∧ x.c0.toNat < y.c0.toNat) ∧
    (Tower2.cmp x y = .eq ↔ x = y) ∧
    (Tower2.cmp x y = .gt ↔ Tower2.cmp y x = .lt) := by
  have h : ∀ x y : Quad (Fp p), Tower2.cmp x y = .lt ↔
      x.c1.toNat < y.c1.toNat ∨ x.c1.toNat = y.c1.toNat ∧ x.c0.toNat < y.c0.toNat := by
    intro x y
    rw [(C20_order p x y).1, Ordering.then_eq_lt, Nat.compare_eq_lt, Nat.compare_eq_eq, Nat.compare_eq_lt]
  refine ⟨h x y, (C20_order p x y).2.1, ?_⟩
  rw [h y x, (C20_order p x y).1, Ordering.then_eq_gt, Nat.compare_eq_gt, Nat.compare_eq_eq, Nat.compare_eq_gt]
  exact or_congr Iff.rfl (and_congr eq_comm Iff.rfl)

/-- The integer of a negation. -/
theorem toNat_neg_ite (x : Fp p) : (-x).toNat = if x.toNat = 0 then 0 else p - x.toNat := by
  split
  · next h => rw [(Fp.toNat_eq_zero x).mp h, neg_zero, Fp.toNat_zero]
  · next h => exact Fp.toNat_neg x fun e => h ((Fp.toNat_eq_zero x).mpr e)

/-- The full-strength claim of C08 for quadratic extensions: true iff the element exceeds its negation. -/
def C08_quad_claim : Prop :=
  ∀ x : Quad (Fp p), Tower2.lexLargest x = true ↔ Tower2.cmp (-x) x = .lt

/-- **C08** in quadratic extensions `lexicographically_largest` is right except where the coefficient that
decides (`c1`, or `c0` when `c1 = 0`) is `(p-1)/2`. Missing from the full claim: exactly those elements,
for which the method answers `true` both for the element and for its negation. -/
theorem C08_quad_partial (x : Quad (Fp p)) :
    ((Tower2.lexLargest x = true ↔ Tower2.cmp (-x) x = .lt) ↔
      ¬ (x.c1.toNat = (p - 1) / 2 ∨ x.c1.toNat = 0 ∧ x.c0.toNat = (p - 1) / 2)) ∧
    (x.c1.toNat = (p - 1) / 2 ∨ x.c1.toNat = 0 ∧ x.c0.toNat = (p - 1) / 2 →
      Tower2.lexLargest x = true ∧ Tower2.lexLargest (-x) = true) := by
  rw [(C07_quad_order p (-x) x).1, C20_lex_largest, C20_lex_largest]
  simp only [Quad.neg_c0, Quad.neg_c1, toNat_neg_ite]
  have h0 := Fp.toNat_lt x.c0
  have h1 := Fp.toNat_lt x.c1
  have h2 := hp.out.odd
  have h3 := hp.out.gt
  generalize x.c0.toNat = a at *
  generalize x.c1.toNat = b at *
  split <;> split <;> omega

/-- **C08** false of the code in quadratic extensions as well. -/
theorem C08_quad_false : ¬ C08_quad_claim p := by
  intro h
  refine ((C08_quad_partial p (⟨0, (((p - 1) / 2 : ℕ) : Fp p)⟩ : Quad (Fp p))).1.mp (h _)) (Or.inl ?_)
  have h2 := hp.out.odd
  have h3 := hp.out.gt
  rw [Fp.toNat_natCast, Nat.mod_eq_of_lt]
  omega

/-- **C20** `from_uniform_bytes` reduces the second half into `c0` and the first half into `c1`;
`From<u64>` embeds the integer. -/
theorem C20_uniform (b : List ℕ) (hl : b.length ≤ 4 * Tower2.half p) (hev : b.length % 2 = 0) (hb : IsBytes b) (v : ℕ)
    (hv : v < 2 ^ 64) :
    (Tower2.fromUniform b : Quad (Fp p)) =
      ⟨((leNat (b.drop (b.length / 2)) : ℕ) : Fp p), ((leNat (b.take (b.length / 2)) : ℕ) : Fp p)⟩ ∧
    (Tower2.fromU64 v : Quad (Fp p)) = ⟨(v : Fp p), 0⟩ := by
  rw [Tower2.fromUniform, Tower2.fromU64, Fp.fromU64_eq v hv, Fp.fromUniform_eq, Fp.fromUniform_eq]
  · exact ⟨rfl, rfl⟩
  · rw [List.length_take]; unfold Tower2.half at hl; omega
  · exact hb.take _
  · rw [List.length_drop]; unfold Tower2.half at hl; omega
  · exact hb.drop _

/-- **C20** raw forms: `from_raw_bytes` and `read_raw` accept exactly the raw encoding, without
panicking. -/
theorem C20_raw_exact (b rest : List ℕ) (hb : IsBytes b) (x : Quad (Fp p)) :
    (Tower2.fromRawBytes b = some x ↔ b = Tower2.toRawBytes x) ∧
    (Tower2.readRaw b = some (x, rest) ↔ b = Tower2.toRawBytes x ++ rest) ∧
    Tower2.writeRaw x b = b ++ Tower2.toRawBytes x := by
  have hraw : Tower2.toRawBytes x = x.c0.toRawBytes ++ x.c1.toRawBytes := by
    rw [Tower2.toRawBytes, List.flatMap_append]; rfl
  have l0 := Fp.toRawBytes_length x.c0
  have l1 := Fp.toRawBytes_length x.c1
  refine ⟨?_, ?_, ?_⟩
  · rw [hraw]
    constructor
    · intro h
      rw [Tower2.fromRawBytes] at h
      split at h
      · cases h
      · next hlen =>
        split at h
        · next a c h1 h2 =>
          cases h
          rw [Fp.fromRawBytes_iff _ (hb.take _)] at h1
          rw [Fp.fromRawBytes_iff _ ((hb.drop _).take _)] at h2
          change b = a.toRawBytes ++ c.toRawBytes
          rw [← h1, ← h2, List.take_of_length_le (l := b.drop _), List.take_append_drop]
          rw [List.length_drop]; omega
        · cases h
    · rintro rfl
      have hlen : (x.c0.toRawBytes ++ x.c1.toRawBytes).length = Tower2.half p * 2 := by
        rw [List.length_append, l0, l1, Tower2.half]; ring
      rw [Tower2.fromRawBytes, if_neg (by rw [hlen]; simp)]
      have e1 : (x.c0.toRawBytes ++ x.c1.toRawBytes).take (Tower2.half p) = x.c0.toRawBytes := by
        rw [show Tower2.half p = (x.c0.toRawBytes).length from l0.symm, List.take_left]
      have e2 : ((x.c0.toRawBytes ++ x.c1.toRawBytes).drop (Tower2.half p)).take (Tower2.half p) = x.c1.toRawBytes := by
        rw [show Tower2.half p = (x.c0.toRawBytes).length from l0.symm, List.drop_left, List.take_of_length_le (by rw [l0, l1])]
      rw [e1, e2, (Fp.fromRawBytes_iff _ (Fp.toRawBytes_isBytes _) x.c0).mpr rfl,
        (Fp.fromRawBytes_iff _ (Fp.toRawBytes_isBytes _) x.c1).mpr rfl]
  · rw [hraw, Tower2.readRaw]
    constructor
    · intro h
      split at h
      · cases h
      · next c0 s h1 =>
        rw [Fp.readRaw_iff _ hb] at h1
        have hs : IsBytes s := fun y hy => hb y (by rw [h1]; exact List.mem_append_right _ hy)
        split at h
        · cases h
        · next c1 s' h2 =>
          rw [Fp.readRaw_iff _ hs] at h2
          cases h
          rw [h1, h2, List.append_assoc]
    · rintro rfl
      rw [List.append_assoc] at hb ⊢
      have hs : IsBytes (x.c1.toRawBytes ++ rest) := fun y hy => hb y (List.mem_append_right _ hy)
      rw [(Fp.readRaw_iff _ hb x.c0 _).mpr rfl]
      simp only
      rw [(Fp.readRaw_iff _ hs x.c1 _).mpr rfl]
  · rw [Tower2.writeRaw, Fp.writeRaw_eq, Fp.writeRaw_eq, hraw, List.append_assoc]

end C20

/-- A concrete round trip (bls12381, big endian), and a concrete panic. -/
example : Tower2.fromBytes .BE (Tower2.toBytes .BE (nonRes : Bls12381.Fq2)) = .ok (some (nonRes : Bls12381.Fq2)) := by
  obtain ⟨h1, h2, _⟩ := C20_encode blsQ .BE (nonRes : Bls12381.Fq2)
  exact (C20_decode_exact blsQ .BE _ h1 h2 _).1.mpr rfl
example : (Tower2.fromBytes .LE (List.replicate 64 255) : Outcome (Option Bn256.Fq2)) = .panic :=
  (C20_panic_iff_partial bnQ .LE _ (by decide +kernel)
    (fun x hx => by rw [List.mem_replicate] at hx; omega)).1.mpr (Or.inl (by decide +kernel))

end Halo2.Props
