import Verif.Pairing.Random
import Verif.Props.Pairing

/-!
# C54 (extension fields) and C56: random elements
-/

namespace Halo2.Props

open Halo2 Halo2.Field Halo2.Prime Halo2.Ext

/-! ## C54 -/

/-- **C54** `random` of a quadratic extension reads the bytes of two elements, first `c0`, and the number of outputs of the generator that give
an element is the product for its coordinates. -/
theorem C54_random_quad (p : ℕ) [Fact (OddModulus p)] : Draws (Quad.random (Fp.random (p := p))) (2 * (2 * (8 * numLimbs p)))
    fun x => fpCount x.c0 * fpCount x.c1 := draws_fp.quad

/-- **C54** `random` of a sextic extension. -/
theorem C54_random_cubic (p : ℕ) [Fact (OddModulus p)] : Draws (Halo2.Ext.Cubic.random (Quad.random (Fp.random (p := p)))) (3 * (2 * (2 * (8 * numLimbs p))))
    fun x => (fpCount x.c0.c0 * fpCount x.c0.c1) * ((fpCount x.c1.c0 * fpCount x.c1.c1) * (fpCount x.c2.c0 * fpCount x.c2.c1)) :=
  draws_fp.quad.cubic

/-- **C54** `random` of the extension of degree twelve. -/
theorem C54_random_12 (p : ℕ) [Fact (OddModulus p)] : Draws (random12 p) (2 * (3 * (2 * (2 * (8 * numLimbs p))))) count12 := draws12 p

/-- The coordinates of a draw from concrete bytes: the first 64 bytes give `c0`. -/
example (s t : List ℕ) (hs : s.length = 64) (h1 : numLimbs bnQ = 4) :
    (Quad.random (Fp.random (p := bnQ)) (s ++ t)).1 = ⟨(Fp.random s).1, (Fp.random t).1⟩ := by
  have hr := (draws_fp (p := bnQ)).reads
  rw [h1] at hr
  rw [Quad.random, hr s t hs]

/-! ## C56 -/

/-- **C56** for one engine with target field `Quad (Halo2.Ext.Cubic (Quad (Fp p)))`: `Gt::random` panics exactly if the drawn field element is zero;
otherwise the result has order dividing `r`; zero is drawn by the stated number out of the `256^(24 SIZE)` outputs of the generator; and the
final exponentiation sends exactly `(p^12 - 1) / r` elements to each element of order dividing `r`. -/
structure GtRandomClaim (p r : ℕ) [Fact (OddModulus p)] [_root_.Field (Quad (Halo2.Ext.Cubic (Quad (Fp p))))]
    (finalExp : Quad (Halo2.Ext.Cubic (Quad (Fp p))) → Option (Quad (Halo2.Ext.Cubic (Quad (Fp p))))) : Prop where
  panics : ∀ s, gtRandom (random12 p) finalExp s = none ↔ (random12 p s).1 = 0
  order : ∀ s g, gtRandom (random12 p) finalExp s = some g → g ^ r = 1
  rare : {s : List ℕ | s.length = 2 * (3 * (2 * (2 * (8 * numLimbs p)))) ∧ IsBytes s ∧ gtRandom (random12 p) finalExp s = none}.ncard =
    (256 ^ (2 * (8 * numLimbs p)) / p + 1) ^ 12
  uniform : ∀ g, g ^ r = 1 → {f | finalExp f = some g}.ncard = (p ^ 12 - 1) / r

theorem gtRandomClaim_of (p r k : ℕ) [Fact (OddModulus p)] [inst : _root_.Field (Quad (Halo2.Ext.Cubic (Quad (Fp p))))]
    (hz : (inst.toZero.zero : Quad (Halo2.Ext.Cubic (Quad (Fp p)))) = ⟨⟨⟨0, 0⟩, ⟨0, 0⟩, ⟨0, 0⟩⟩, ⟨⟨0, 0⟩, ⟨0, 0⟩, ⟨0, 0⟩⟩⟩)
    (finalExp : Quad (Halo2.Ext.Cubic (Quad (Fp p))) → Option (Quad (Halo2.Ext.Cubic (Quad (Fp p))))) (h0 : finalExp 0 = none)
    (h1 : ∀ f, f ≠ 0 → finalExp f = some (f ^ (k * ((p ^ 12 - 1) / r)))) (h2 : ∀ f g, finalExp f = some g → g ^ r = 1)
    (hr : r ∣ p ^ 12 - 1) (hr0 : 0 < r) (hk : Nat.Coprime k r) (hN : 256 ^ (2 * (8 * numLimbs p)) % p ≠ 0) :
    GtRandomClaim p r finalExp := by
  have hp0 : p ≠ 0 := by have := (Fact.out : OddModulus p).gt; omega
  have hpan : ∀ s, gtRandom (random12 p) finalExp s = none ↔ (random12 p s).1 = 0 := by
    intro s
    rw [gtRandom]
    constructor
    · intro h
      by_contra hne
      rw [h1 _ hne] at h
      cases h
    · intro h
      rw [h, h0]
  refine ⟨hpan, fun s g h => h2 _ g h, ?_, fun g hg => ?_⟩
  · simp only [hpan]
    rw [(draws12 p).count 0]
    have h3 : fpCount (0 : Fp p) = 256 ^ (2 * (8 * numLimbs p)) / p + 1 := by
      rw [fpCount, Fp.toNat_zero, if_pos (Nat.pos_of_ne_zero hN)]
    have h4 : (0 : Quad (Halo2.Ext.Cubic (Quad (Fp p)))) = ⟨⟨⟨0, 0⟩, ⟨0, 0⟩, ⟨0, 0⟩⟩, ⟨⟨0, 0⟩, ⟨0, 0⟩, ⟨0, 0⟩⟩⟩ := hz
    rw [h4, count12]
    simp only [h3]
    ring
  · have hfin : Finite (Quad (Halo2.Ext.Cubic (Quad (Fp p)))) := Nat.finite_of_card_ne_zero (by rw [card12]; exact pow_ne_zero _ hp0)
    rw [← pow_equidistributed r ((p ^ 12 - 1) / r) k (by rw [card12, Nat.div_mul_cancel hr]) hk hr0 g hg]
    congr 1
    ext f
    constructor
    · intro h
      have h : finalExp f = some g := h
      have hf : f ≠ 0 := by
        rintro rfl
        rw [h0] at h
        cases h
      rw [h1 f hf] at h
      exact ⟨hf, Option.some.inj h⟩
    · rintro ⟨hf, h⟩
      change finalExp f = some g
      rw [h1 f hf, h]

/-- **C56** bn256. -/
theorem C56_bn256 : GtRandomClaim bnQ bnR Bn256.finalExp :=
  gtRandomClaim_of bnQ bnR 1 rfl _ C40_bn256.1 (fun f hf => by rw [one_mul]; exact C40_bn256.2.1 f hf) C40_bn256.2.2.1 C40_bn256.2.2.2.1
    (by decide +kernel) C40_bn256.2.2.2.2 (by decide +kernel)

/-- **C56** bls12381. -/
theorem C56_bls12381 : GtRandomClaim blsQ blsR Bls12381.finalExp :=
  gtRandomClaim_of blsQ blsR 3 rfl _ C40_bls12381.1 C40_bls12381.2.1 C40_bls12381.2.2.1 C40_bls12381.2.2.2.1
    (by decide +kernel) C40_bls12381.2.2.2.2 (by decide +kernel)

/-- **C56** pluto. -/
theorem C56_pluto : GtRandomClaim plP plQ Pluto.finalExp :=
  gtRandomClaim_of plP plQ 1 rfl _ C40_pluto.1 (fun f hf => by rw [one_mul]; exact C40_pluto.2.1 f hf) C40_pluto.2.2.1 C40_pluto.2.2.2.1
    (by decide +kernel) C40_pluto.2.2.2.2 (by decide +kernel)

/-- The identity of bn256's `Gt` is reached from `(p^12-1)/r` elements. -/
example : {f | Bn256.finalExp f = some 1}.ncard = (bnQ ^ 12 - 1) / bnR := C56_bn256.uniform 1 (one_pow _)

end Halo2.Props
