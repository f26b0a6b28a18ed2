import Verif.Inverse.Checked
import Verif.Jacobi.Checked
import Verif.Jacobi.Field
import Verif.Msm.Checked
import Verif.Msm.Best
import Verif.Msm.CheckedSerial
import Verif.Fft.Checked
import Verif.Props.Msm
import Verif.Props.Fft
import Verif.Props.FieldArith

/-!
# Property C67: builds with overflow checks

In a build with overflow checks and debug assertions a `+`, `-`, `*` or unary `-` that leaves its type, a
shift by the width or more, and a failed `debug_assert!` panic. The functions ending in `C` (and those of
the namespace `Halo2.Checked`) contain these checks; `none` is a panic.
-/

namespace Halo2.Props

open Halo2 Halo2.Field Halo2.Prime Halo2.Inverse Halo2.Jacobi Halo2.Msm Halo2.Curve

/-- **C67** The four operations on limbs from which the generated field arithmetic is built never overflow, whatever
the limbs, carries and borrows are; the results are those of the model without checks. -/
theorem C67_limbs (a b c d : ℕ) (ha : a < 2 ^ 64) (hb : b < 2 ^ 64) (hc : c < 2 ^ 64) (hd : d < 2 ^ 64) :
    Checked.adc a b c = some (adc a b c) ∧ Checked.sbb a b c = some (sbb a b c) ∧
    Checked.mac a b c d = some (mac a b c d) ∧ Checked.macx a b c = some (macx a b c) :=
  ⟨Checked.adc_ok ha hb hc, Checked.sbb_ok hb hc, Checked.mac_ok ha hb hc hd, Checked.macx_ok ha hb hc⟩

/-- The largest limbs. -/
example : Checked.mac (2 ^ 64 - 1) (2 ^ 64 - 1) (2 ^ 64 - 1) (2 ^ 64 - 1) = some (mac (2 ^ 64 - 1) (2 ^ 64 - 1) (2 ^ 64 - 1) (2 ^ 64 - 1)) :=
  (C67_limbs _ _ _ _ (by decide) (by decide) (by decide) (by decide)).2.2.1

/-- **C67** The inversion of a field element overflows nowhere and reads and writes within bounds, for every odd
modulus of at most `2^20` bits and every element, and gives what the model without checks gives. -/
theorem C67_invert (p : ℕ) (hp : OddModulus p) (hs : numBits p ≤ 2 ^ 20) (a : List ℕ) (ha : IsElem p a) :
    ∃ r, fieldInvertC p a = some r ∧ fieldInvert p a = .done r := fieldInvertC_ok hp hs ha

example : ∃ r, fieldInvertC k1p (Field.one k1p) = some r ∧ fieldInvert k1p (Field.one k1p) = .done r :=
  C67_invert k1p k1p_odd (by decide +kernel) _ (rep_one k1p_odd).elem

/-- **C67** The Jacobi symbol computation overflows nowhere, stays within bounds and meets its debug assertions, for
all numbers `n` and odd `d` of at most `L` words and fewer than `64 L - 31` bits (the range for which it is
documented). -/
theorem C67_jacobi (L : ℕ) (hL : 0 < L) (n d : List ℕ) (hn : Wf n) (hd : Wf d) (ln : n.length ≤ L)
    (ld : d.length ≤ L) (nb : val n < 2 ^ (64 * L - 31)) (db : val d < 2 ^ (64 * L - 31)) (odd : val d % 2 = 1) :
    jacobiC L n d = some (jacobiSym (val n) (val d)) := jacobiC_ok hL hn hd ln ld nb db odd

example : jacobiC 1 [2] [7] = some (jacobiSym (val [2]) (val [7])) :=
  C67_jacobi 1 (by decide) [2] [7] (by intro x hx; rw [List.mem_singleton] at hx; subst hx; decide)
    (by intro x hx; rw [List.mem_singleton] at hx; subst hx; decide) (by decide) (by decide) (by decide) (by decide) (by decide)

/-- **C67** The shift inside this computation panics exactly for amounts that are zero or at least the width of a word, and for
numbers without words. -/
theorem C67_shift (x : List ℕ) (bits : ℕ) :
    lShrC x bits = if 0 < bits ∧ bits < 64 ∧ x ≠ [] then some (lShr x bits) else none := by
  rcases Nat.eq_zero_or_pos bits with h | h
  · subst h; rfl
  by_cases h2 : bits < 64
  · cases x with
    | nil =>
      rw [if_neg (by simp)]
      unfold lShrC
      rw [Checked.debugAssert_some (by simp [h, h2]), Checked.subU_some (by omega), Checked.shiftOk_some h2]
      simp only [Option.bind_eq_bind, Option.bind_some]
      rw [Checked.shiftOk_some (by omega)]
      rfl
    | cons y ys =>
      rw [if_pos ⟨h, h2, by simp⟩]
      unfold lShrC
      rw [Checked.debugAssert_some (by simp [h, h2]), Checked.subU_some (by omega), Checked.shiftOk_some h2,
        Checked.subU_some (by simp)]
      simp only [Option.bind_eq_bind, Option.bind_some]
      rw [Checked.shiftOk_some (by omega)]
      rfl
  · rw [if_neg (by omega)]
    unfold lShrC Checked.debugAssert
    rw [if_neg (by simp; omega)]
    rfl

/-- **C67** So the Legendre symbol of every element of every prime field of the library is computed without a panic. -/
theorem C67_legendre (p : ℕ) [Fact (OddModulus p)] (a : Fp p) :
    jacobiC (jacobiConst p) a.limbs (modulusLimbs p) = Fp.legendre a := by
  obtain ⟨h1, h2⟩ := jacobiConst_spec p
  have hodd : val (modulusLimbs p) % 2 = 1 := by rw [val_modulusLimbs]; exact (Fact.out : OddModulus p).odd
  rw [Fp.legendre_eq, jacobiC_ok h1 a.elem.wf (modulusLimbs_wf p)
    (by rw [a.elem.len]; exact numLimbs_le_jacobiConst p)
    (by rw [modulusLimbs_length]; exact numLimbs_le_jacobiConst p)
    (lt_trans a.elem.lt h2) (by rw [val_modulusLimbs]; exact h2) hodd, val_modulusLimbs]

/-- **C67** The signed digit of a multi-scalar multiplication overflows nowhere for the window sizes that occur
(up to 30 bits; the code asks for at most 24 for fewer than `2^32` terms), and always panics for larger ones. -/
theorem C67_booth (w c : ℕ) (el : List ℕ) (hw : w * c < 2 ^ 64) :
    (c ≤ 30 → boothIndexC w c el = some (boothIndex w c el)) ∧ (31 ≤ c → boothIndexC w c el = none) :=
  ⟨fun h => boothIndexC_ok w c el h hw, boothIndexC_panic w c el⟩

example : boothIndexC 3 5 [0xff, 0x70, 0x13] = some (boothIndex 3 5 [0xff, 0x70, 0x13]) :=
  (C67_booth 3 5 _ (by decide)).1 (by decide)

/-- **C67** ... with the window size of `msm_serial` and `msm_best`. -/
theorem C67_booth_window {ln : ℕ → ℕ} (hln : LnCeilOk ln) (terms w : ℕ) (hn : terms < 2 ^ 32) (hw : w < 2 ^ 59)
    (el : List ℕ) :
    boothIndexC w (windowSize ln terms) el = some (boothIndex w (windowSize ln terms) el) := by
  obtain ⟨h1, h2⟩ := windowSize_ok hln terms hn
  refine boothIndexC_ok w _ el (by omega) ?_
  calc w * windowSize ln terms ≤ w * 24 := Nat.mul_le_mul_left _ h2
    _ < 2 ^ 64 := by omega

/-- **C67** Multi-scalar multiplication of fewer than `2^32` terms: no index, length or shift overflows, so the builds with and without
checks agree, on `msm_serial`, `msm_parallel` and `msm_best`, for all threads and all orders of the tasks. -/
theorem C67_msm {F : Type} [CommRing F] [DecidableEq F] [BaseField F] (C : Params F) {ln : ℕ → ℕ} (hln : LnCeilOk ln) (r : ℕ)
    (hr : numBits r < 2 ^ 32) (threads : ℕ) (order1 order2 : List ℕ) (ks : List (List ℕ)) (bases : List (Aff F)) (acc : Proj F)
    (hlen : bases.length < 2 ^ 32) (ho2 : order2.Perm (List.range (numBits r / windowSize ln bases.length + 1))) :
    msmSerialC C ln ((numBits r + 7) / 8) ks bases acc = msmSerial C ln ((numBits r + 7) / 8) ks bases acc ∧
    msmParallelC C ln ((numBits r + 7) / 8) threads order1 ks bases = msmParallel C ln ((numBits r + 7) / 8) threads order1 ks bases ∧
    msmBestC C ln (numBits r) threads order1 order2 ks bases = msmBest C ln (numBits r) threads order1 order2 ks bases :=
  ⟨msmSerialC_eq C hln _ (by omega) ks bases hlen acc, msmParallelC_eq C hln _ (by omega) threads order1 ks bases hlen,
    msmBestC_eq C hln _ (by omega) threads order1 order2 ks bases hlen fun i hi => by
      have := List.mem_range.mp (ho2.mem_iff.mp hi)
      omega⟩

/-- **C67** So in a build with overflow checks `msm_serial` returns the multi-scalar product. -/
theorem C67_msm_serial {F : Type} [Field F] [DecidableEq F] [BaseField F] [LawfulBase F] {C : Params F} {r : ℕ} [Fact (OddModulus r)]
    [Fact r.Prime] [Fp.SmallModulus r] (hr : numBits r < 2 ^ 32) (hC : Good C) {ln : ℕ → ℕ} (hln : LnCeilOk ln) (ks : List (Fp r))
    {bases : List (Aff F)} {ps : List (Pt C)} (h : List.Forall₂ (ARep C) bases ps) (hlen : bases.length < 2 ^ 32) :
    ∃ R, msmSerialC C ln ((numBits r + 7) / 8) (ks.map Fp.toRepr) bases Proj.identity = some R ∧ PRep C R (msmValue ks ps) := by
  rw [msmSerialC_eq C hln _ (by omega) _ bases hlen]
  exact C30_serial hC hln ks h hlen

/-- **C67** The transform of a vector of fewer than `2^63` elements (no slice of elements of more than one byte is longer): no index or
chunk size overflows. -/
theorem C67_fft {K G : Type} [CommRing K] (ops : Fft.Ops K G) (threads : ℕ) (a : List G) (omega : K) (logN : ℕ) (ha : a.length < 2 ^ 63) :
    Fft.bestFftC ops threads a omega logN = Fft.bestFft ops true threads a omega logN :=
  Fft.bestFftC_eq ops threads a omega logN ha

/-- **C67** So in a build with overflow checks `best_fft` returns the transform. -/
theorem C67_fft_value {K : Type} [Field K] (N : ℕ) (hN : N < 63) (omega : K) (hw : IsPrimitiveRoot omega (2 ^ N)) (threads : ℕ) (a : List K)
    (ha : a.length = 2 ^ N) :
    Fft.bestFftC (fieldOps K) threads a omega N =
      some ((List.range (2 ^ N)).map (fun i => ∑ j ∈ Finset.range (2 ^ N), a.getD j 0 * omega ^ (i * j))) := by
  rw [C67_fft _ _ _ _ _ (by rw [ha]; exact Nat.pow_lt_pow_right (by decide) hN)]
  exact C33_fft N (by omega) omega hw true threads a ha

/-- Four elements and a root of unity of order four modulo 5; two terms on bn256. -/
example : ([1, 2, 3, 4] : List (ZMod 5)).length < 2 ^ 63 ∧ ([1, 2, 3, 4] : List (ZMod 5)).length = 2 ^ 2 ∧ numBits bnR < 2 ^ 32 ∧
    [Bn256.g1Gen, Bn256.g1Gen].length < 2 ^ 32 :=
  ⟨by decide, by decide, by decide +kernel, (by decide : 2 < 2 ^ 32)⟩

end Halo2.Props
