import Verif.Curve.RandomBytes
import Verif.Props.RandomUniform

/-!
# Random points from the bytes of the generator: C69
-/

set_option linter.unusedSectionVars false

namespace Halo2.Props

open Halo2 Halo2.Prime Halo2.Ext Halo2.Curve Halo2.Hash Halo2.Field Halo2.Curve.Cofactor Halo2.Pairing

/-- The outputs of the generator for one round: the `L` bytes of the abscissa and a `u32`. -/
def IsRound (L : ℕ) (d : List ℕ × ℕ) : Prop := d.1.length = L ∧ IsBytes d.1 ∧ d.2 < 2 ^ 32

/-- Among the outputs of the generator for `n` rounds, the number of those for which `random` returns the point `q` is, up to the factor
`(hi / lo)^n`, `K n` times the share of `q`, which is the same for all points of the subgroup but the identity. -/
def BytesSpec {F : Type} [_root_.Field F] [DecidableEq F] [BaseField F] [LawfulBase F] (C : Params F) (h r : ℕ)
    (draw : List ℕ → F × List ℕ) (L lo hi : ℕ) (sqrt : F → Option F) (clear : Proj F → Proj F) : Prop :=
  ∃ K : ℕ → ℕ, K 0 = 0 ∧ (∀ n, K (n + 1) = (2 * Nat.card F) ^ n + (2 * Nat.card F + 1 - h * r) * K n) ∧
    ∀ lowBit n (q : Pt C),
      (lo * 2 ^ 31) ^ n * (K n * share h r q) ≤
        {l : List (List ℕ × ℕ) | l.length = n ∧ (∀ d ∈ l, IsRound L d) ∧ ∃ A, randomRng C draw sqrt lowBit clear l = some A ∧ ARep C A q}.ncard ∧
      {l : List (List ℕ × ℕ) | l.length = n ∧ (∀ d ∈ l, IsRound L d) ∧ ∃ A, randomRng C draw sqrt lowBit clear l = some A ∧ ARep C A q}.ncard ≤
        (hi * 2 ^ 31) ^ n * (K n * share h r q)

theorem isBytes_finite (L : ℕ) : {b : List ℕ | b.length = L ∧ IsBytes b}.Finite := by
  refine ((List.finite_length_eq (Fin 256) L).image (List.map Fin.val)).subset ?_
  rintro b ⟨h1, h2⟩
  refine ⟨b.attach.map fun x => ⟨x.1, h2 x.1 x.2⟩, ?_, ?_⟩
  · rw [Set.mem_ofPred_eq, List.length_map, List.length_attach, h1]
  · rw [List.map_map]
    exact List.attach_map_subtype_val b

theorem ncard_bit (b : Bool) : {w : ℕ | w < 2 ^ 32 ∧ decide (w % 2 = 1) = b}.ncard = 2 ^ 31 := by
  have h : {w : ℕ | w < 2 ^ 32 ∧ decide (w % 2 = 1) = b} = (fun k => 2 * k + b.toNat) '' ((Finset.range (2 ^ 31) : Finset ℕ) : Set ℕ) := by
    ext w
    simp only [Set.mem_ofPred_eq, Set.mem_image, Finset.coe_range, Set.mem_Iio]
    constructor
    · rintro ⟨h1, h2⟩
      refine ⟨w / 2, by omega, ?_⟩
      cases b
      · have := of_decide_eq_false h2
        change 2 * (w / 2) + 0 = w
        omega
      · have := of_decide_eq_true h2
        change 2 * (w / 2) + 1 = w
        omega
    · rintro ⟨k, h1, rfl⟩
      cases b
      · exact ⟨by change 2 * k + 0 < _; omega, decide_eq_false (by change ¬ (2 * k + 0) % 2 = 1; omega)⟩
      · exact ⟨by change 2 * k + 1 < _; omega, decide_eq_true (by change (2 * k + 1) % 2 = 1; omega)⟩
  rw [h, Set.ncard_image_of_injective, Set.ncard_coe_finset, Finset.card_range]
  intro a b' hab
  have : 2 * a + b.toNat = 2 * b' + b.toNat := hab
  omega

theorem bytesSpec_of {F : Type} [_root_.Field F] [DecidableEq F] [BaseField F] [LawfulBase F] [Finite F] {C : Params F} {h r : ℕ}
    {draw : List ℕ → F × List ℕ} {L lo hi : ℕ} {c : F → ℕ} {sqrt : F → Option F} {clear : Proj F → Proj F}
    (hU : UniformSpec C h r sqrt clear) (hD : Draws draw L c) (hc : ∀ x, lo ≤ c x ∧ c x ≤ hi) :
    BytesSpec C h r draw L lo hi sqrt clear := by
  obtain ⟨-, K, k0, k1, hK⟩ := hU
  refine ⟨K, k0, k1, fun lowBit n q => ?_⟩
  rw [← hK lowBit n q]
  have hS : {d : List ℕ × ℕ | IsRound L d}.Finite := by
    refine ((isBytes_finite L).prod (Set.finite_lt_nat (2 ^ 32))).subset ?_
    rintro ⟨b, w⟩ ⟨h1, h2, h3⟩
    exact ⟨⟨h1, h2⟩, h3⟩
  have hfib : ∀ v : F × Bool, {d ∈ {d : List ℕ × ℕ | IsRound L d} | ((draw d.1).1, decide (d.2 % 2 = 1)) = v}.ncard = c v.1 * 2 ^ 31 := by
    rintro ⟨x, b⟩
    rw [← hD.count x, ← ncard_bit b, ← Set.ncard_prod]
    congr 1
    ext ⟨s, w⟩
    simp only [Set.mem_ofPred_eq, Set.mem_prod, IsRound, Prod.mk.injEq]
    tauto
  have key := ncard_map_between {d : List ℕ × ℕ | IsRound L d} hS (fun d => ((draw d.1).1, decide (d.2 % 2 = 1)))
    (lo * 2 ^ 31) (hi * 2 ^ 31)
    (fun v => by rw [hfib v]; exact ⟨Nat.mul_le_mul_right _ (hc v.1).1, Nat.mul_le_mul_right _ (hc v.1).2⟩) n
    {l : List (F × Bool) | l.length = n ∧ ∃ A, random C sqrt lowBit clear l = some A ∧ ARep C A q} (fun l hl => hl.1)
  have e : {l : List (List ℕ × ℕ) | l.length = n ∧ (∀ d ∈ l, IsRound L d) ∧ ∃ A, randomRng C draw sqrt lowBit clear l = some A ∧ ARep C A q} =
      {l' : List (List ℕ × ℕ) | (∀ x ∈ l', x ∈ {d : List ℕ × ℕ | IsRound L d}) ∧ l'.map (fun d => ((draw d.1).1, decide (d.2 % 2 = 1))) ∈
        {l : List (F × Bool) | l.length = n ∧ ∃ A, random C sqrt lowBit clear l = some A ∧ ARep C A q}} := by
    ext l
    simp only [Set.mem_ofPred_eq, List.length_map, randomRng_eq]
    tauto
  rw [e]
  exact key

theorem fpCount_between {p : ℕ} [Fact (OddModulus p)] (x : Fp p) :
    256 ^ (2 * (8 * numLimbs p)) / p ≤ fpCount x ∧ fpCount x ≤ 256 ^ (2 * (8 * numLimbs p)) / p + 1 := by
  rw [fpCount]
  generalize 256 ^ (2 * (8 * numLimbs p)) / p = d
  split <;> omega

theorem bytesSpec_fp {p : ℕ} [Fact (OddModulus p)] [_root_.Field (Fp p)] [DecidableEq (Fp p)] [BaseField (Fp p)] [LawfulBase (Fp p)] [Finite (Fp p)]
    {C : Params (Fp p)} {h r L : ℕ} {sqrt : Fp p → Option (Fp p)} {clear : Proj (Fp p) → Proj (Fp p)} (hU : UniformSpec C h r sqrt clear)
    (hL : 2 * (8 * numLimbs p) = L) : BytesSpec C h r Fp.random L (256 ^ L / p) (256 ^ L / p + 1) sqrt clear := by
  subst hL
  exact bytesSpec_of hU draws_fp fpCount_between

theorem bytesSpec_quad {p : ℕ} [Fact (OddModulus p)] [_root_.Field (Quad (Fp p))] [DecidableEq (Quad (Fp p))] [BaseField (Quad (Fp p))]
    [LawfulBase (Quad (Fp p))] [Finite (Quad (Fp p))] {C : Params (Quad (Fp p))} {h r L : ℕ} {sqrt : Quad (Fp p) → Option (Quad (Fp p))}
    {clear : Proj (Quad (Fp p)) → Proj (Quad (Fp p))} (hU : UniformSpec C h r sqrt clear) (hL : 2 * (8 * numLimbs p) = L) :
    BytesSpec C h r (Quad.random Fp.random) (2 * L) ((256 ^ L / p) ^ 2) ((256 ^ L / p + 1) ^ 2) sqrt clear := by
  subst hL
  refine bytesSpec_of hU draws_fp.quad fun x => ?_
  rw [pow_two, pow_two]
  exact ⟨Nat.mul_le_mul (fpCount_between _).1 (fpCount_between _).1, Nat.mul_le_mul (fpCount_between _).2 (fpCount_between _).2⟩

/-- **C69** with the outputs of the generator: every round uses `2 SIZE` bytes for each coefficient of the abscissa and one `u32`; the
numbers of outputs that lead to any two points of the subgroup other than the identity differ at most by the factor `(1 + p / 256^(2 SIZE))^n`
after `n` rounds (squared for `G2`). -/
theorem C69_bytes :
    BytesSpec Bn256.g1 1 bnR Fp.random 64 (256 ^ 64 / bnQ) (256 ^ 64 / bnQ + 1) (Fp.sqrt 3) trivialClear ∧
    BytesSpec Grumpkin.g1 1 bnQ Fp.random 64 (256 ^ 64 / bnR) (256 ^ 64 / bnR + 1) (Fp.sqrt 7) trivialClear ∧
    BytesSpec Pluto.g1 1 plQ Fp.random 112 (256 ^ 112 / plP) (256 ^ 112 / plP + 1) (Fp.sqrt 10) trivialClear ∧
    BytesSpec Pluto.eris 1 plP Fp.random 112 (256 ^ 112 / plQ) (256 ^ 112 / plQ + 1) (Fp.sqrt 7) trivialClear ∧
    BytesSpec Secp256k1.c 1 k1N Fp.random 64 (256 ^ 64 / k1P) (256 ^ 64 / k1P + 1) (Fp.sqrt 3) trivialClear ∧
    BytesSpec Secq256k1.c 1 k1P Fp.random 64 (256 ^ 64 / k1N) (256 ^ 64 / k1N + 1) (Fp.sqrt 7) trivialClear ∧
    BytesSpec Secp256r1.c 1 r1N Fp.random 64 (256 ^ 64 / r1P) (256 ^ 64 / r1P + 1) (Fp.sqrt 6) trivialClear ∧
    BytesSpec Bn256.g2 21888242871839275222246405745257275088844257914179612981679871602714643921549 bnR (Quad.random Fp.random)
      (2 * 64) ((256 ^ 64 / bnQ) ^ 2) ((256 ^ 64 / bnQ + 1) ^ 2) Bn256.sqrt2 Bn256.g2ClearCofactor ∧
    BytesSpec Pluto.g2 102211695604070082112571065507755096754575920209623522239390234855500789814276296758597959633551254826373265657863299916084618666704897
      plQ (Quad.random Fp.random) (2 * 112) ((256 ^ 112 / plP) ^ 2) ((256 ^ 112 / plP + 1) ^ 2) plutoSqrt Pluto.g2ClearCofactor ∧
    BytesSpec Bls12381.g1 76329603384216526031706109802092473003 blsR Fp.random 96 (256 ^ 96 / blsQ) (256 ^ 96 / blsQ + 1)
      (Fp.sqrt 2) Bls12381.g1ClearCofactor ∧
    BytesSpec Bls12381.g2 305502333931268344200999753193121504214466019254188142667664032982267604182971884026507427359259977847832272839041616661285803823378372096355777062779109
      blsR (Quad.random Fp.random) (2 * 96) ((256 ^ 96 / blsQ) ^ 2) ((256 ^ 96 / blsQ + 1) ^ 2) Bls12381.sqrt2 Bls12381.g2ClearCofactor := by
  obtain ⟨u0, u1, u2, u3, u4, u5, u6, u7, u8, u9, u10⟩ := C69_random
  exact ⟨bytesSpec_fp u0 (by decide +kernel), bytesSpec_fp u1 (by decide +kernel), bytesSpec_fp u2 (by decide +kernel),
    bytesSpec_fp u3 (by decide +kernel), bytesSpec_fp u4 (by decide +kernel), bytesSpec_fp u5 (by decide +kernel),
    bytesSpec_fp u6 (by decide +kernel), bytesSpec_quad u7 (by decide +kernel), bytesSpec_quad u8 (by decide +kernel),
    bytesSpec_fp u9 (by decide +kernel), bytesSpec_quad u10 (by decide +kernel)⟩

/-- The first round alone, on a curve of prime order. -/
theorem BytesSpec.once {F : Type} [_root_.Field F] [DecidableEq F] [BaseField F] [LawfulBase F] {C : Params F} {r : ℕ}
    {draw : List ℕ → F × List ℕ} {L lo hi : ℕ} {sqrt : F → Option F} {clear : Proj F → Proj F}
    (hB : BytesSpec C 1 r draw L lo hi sqrt clear) (lowBit : F → Bool) (q : Pt C) (hq : r • q = 0) (h0 : q ≠ 0) :
    lo * 2 ^ 31 ≤ {l : List (List ℕ × ℕ) | l.length = 1 ∧ (∀ d ∈ l, IsRound L d) ∧
      ∃ A, randomRng C draw sqrt lowBit clear l = some A ∧ ARep C A q}.ncard := by
  obtain ⟨K, k0, k1, h⟩ := hB
  refine le_trans (le_of_eq ?_) (h lowBit 1 q).1
  have e : K 1 = 1 := by rw [k1 0, k0, pow_zero, mul_zero, add_zero]
  rw [e, share_one q hq, if_neg h0, pow_one, mul_one, mul_one]

/-- One round on bn256 G1: the generator comes from at least `⌊2^512 / q⌋ 2^31` of the `2^544` outputs. -/
example (lowBit : Fp bnQ → Bool) : ∃ g : Pt Bn256.g1, ARep Bn256.g1 Bn256.g1Gen g ∧ (256 ^ 64 / bnQ * 2 ^ 31) ≤
    {l : List (List ℕ × ℕ) | l.length = 1 ∧ (∀ d ∈ l, IsRound 64 d) ∧
      ∃ A, randomRng Bn256.g1 Fp.random (Fp.sqrt 3) lowBit trivialClear l = some A ∧ ARep Bn256.g1 A g}.ncard := by
  obtain ⟨g, hG, ho, -⟩ := C44_orders.1.gen
  refine ⟨g, hG, C69_bytes.1.once lowBit g ?_ ?_⟩
  · rw [← ho, addOrderOf_nsmul_eq_zero]
  · rintro rfl
    rw [addOrderOf_zero] at ho
    exact absurd ho.symm bnR_prime.one_lt.ne'

end Halo2.Props
