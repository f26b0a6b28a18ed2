import Verif.Props.Hash
import Verif.Props.FieldMisc

/-!
# Property C65: elements made from uniform bytes are close to uniform
-/

set_option linter.unusedSectionVars false

namespace Halo2.Props

open Halo2 Halo2.Field Halo2.Prime Halo2.Ext Halo2.Hash

variable {p : ℕ} [hp : Fact (OddModulus p)]

theorem ncard_residue (hp0 : 0 < p) (L : ℕ) (P : List ℕ → Prop) (x : ℕ) (hx : x < p)
    (hP : ∀ b : List ℕ, b.length = L → IsBytes b → (P b ↔ leNat b ≡ x [MOD p])) :
    {b : List ℕ | b.length = L ∧ IsBytes b ∧ P b}.ncard = 256 ^ L / p + if x < 256 ^ L % p then 1 else 0 := by
  have hinj : Set.InjOn leNat {b : List ℕ | b.length = L ∧ IsBytes b ∧ P b} :=
    fun a ha b hb h => leNat_inj ha.2.1 hb.2.1 (ha.1.trans hb.1.symm) h
  rw [← hinj.ncard_image]
  have himg : leNat '' {b : List ℕ | b.length = L ∧ IsBytes b ∧ P b} =
      ((Finset.range (256 ^ L)).filter (· ≡ x [MOD p]) : Finset ℕ) := by
    ext n
    simp only [Set.mem_image, Set.mem_ofPred_eq, Finset.coe_filter, Finset.mem_range]
    constructor
    · rintro ⟨b, ⟨h1, h2, h3⟩, rfl⟩
      exact ⟨by rw [← h1]; exact leNat_lt b h2, (hP b h1 h2).mp h3⟩
    · rintro ⟨h1, h2⟩
      have e : leNat ((List.range L).map fun j => (n / 256 ^ j) % 256) = n := by
        rw [leNat_digits, Nat.mod_eq_of_lt h1]
      have hl : ((List.range L).map fun j => (n / 256 ^ j) % 256).length = L := by simp
      have hb : IsBytes ((List.range L).map fun j => (n / 256 ^ j) % 256) := by
        intro y hy
        rw [List.mem_map] at hy
        obtain ⟨j, _, rfl⟩ := hy
        exact Nat.mod_lt _ (by decide)
      exact ⟨_, ⟨hl, hb, (hP _ hl hb).mpr (by rw [e]; exact h2)⟩, e⟩
  rw [himg, Set.ncard_coe_finset, ← Nat.count_eq_card_filter_range, Nat.count_modEq_card _ hp0, Nat.mod_eq_of_lt hx]

/-- The number of strings of `L` bytes that give `x`. -/
noncomputable def uniformCount (L : ℕ) (x : Fp p) : ℕ := {b : List ℕ | b.length = L ∧ IsBytes b ∧ (Fp.fromUniform b : Fp p) = x}.ncard

/-- **C65** Of the `N = 256^L` strings of `L` bytes, `⌊N / p⌋` or `⌊N / p⌋ + 1` give each element; which of the two depends on whether the integer
of the element is below `N mod p`. -/
theorem C65_count (L : ℕ) (hL : L ≤ 2 * (8 * numLimbs p)) (x : Fp p) :
    uniformCount L x = 256 ^ L / p + if Fp.toNat x < 256 ^ L % p then 1 else 0 := by
  have hp0 : 0 < p := by have := hp.out.gt; omega
  refine ncard_residue hp0 L _ (Fp.toNat x) (Fp.toNat_lt x) fun b h1 h2 => ?_
  rw [Fp.fromUniform_eq b (by omega) h2]
  constructor
  · intro h
    rw [← h, Fp.toNat_natCast]
    exact (Nat.mod_modEq _ _).symm
  · intro h
    rw [← Fp.natCast_toNat x]
    exact (Fp.natCast_eq_iff _ _).mpr h

/-- **C65** If `2^128 p ≤ 256^L`, the probability of each element differs from `1/p` by less than `2^(-128)/p`. -/
theorem C65_bias (L : ℕ) (hL : L ≤ 2 * (8 * numLimbs p)) (hN : 2 ^ 128 * p ≤ 256 ^ L) (x : Fp p) :
    2 ^ 128 * |(uniformCount L x * p - 256 ^ L : ℤ)| < 256 ^ L := by
  have hp0 : 0 < p := by have := hp.out.gt; omega
  rw [C65_count L hL x]
  generalize hn : 256 ^ L = N at hN ⊢
  have hn' : (256 : ℤ) ^ L = (N : ℤ) := by rw [← hn]; push_cast; rfl
  rw [hn']
  have hd := Nat.div_add_mod N p
  have hm := Nat.mod_lt N hp0
  have key : |(((N / p + if Fp.toNat x < N % p then 1 else 0 : ℕ) : ℤ) * p - N : ℤ)| < p := by
    rw [abs_lt]
    generalize N / p = d at hd ⊢
    generalize N % p = m at hd hm ⊢
    have hd' : (p : ℤ) * d + m = N := by exact_mod_cast hd
    have hm' : (m : ℤ) < p := by exact_mod_cast hm
    have h0 : (0 : ℤ) ≤ m := Int.natCast_nonneg m
    split_ifs with h
    · have : (0 : ℤ) < m := by
        have : 0 < m := by omega
        exact_mod_cast this
      push_cast
      constructor
      · linarith [mul_comm (d : ℤ) p, add_mul (d : ℤ) 1 p]
      · linarith [mul_comm (d : ℤ) p, add_mul (d : ℤ) 1 p]
    · push_cast
      constructor
      · linarith [mul_comm (d : ℤ) p, add_mul (d : ℤ) 0 p]
      · linarith [mul_comm (d : ℤ) p, add_mul (d : ℤ) 0 p]
  have hN' : (2 : ℤ) ^ 128 * p ≤ N := by exact_mod_cast hN
  calc (2 : ℤ) ^ 128 * _ < 2 ^ 128 * p := mul_lt_mul_of_pos_left key (by norm_num)
    _ ≤ N := hN'

/-- **C65** The condition holds for the parameters of all suites of `hash_to_curve`, so the elements they map are within `2^(-128)` of uniform if the
expanded message is uniform. -/
theorem C65_suites :
    ∀ s ∈ [(bnQ, 48), (bnR, 48), (blsQ, 64), (plP, 72), (plQ, 72), (k1P, 48), (k1N, 48), (r1P, 48)],
      s.2 ≤ 2 * (8 * numLimbs s.1) ∧ 2 ^ 128 * s.1 ≤ 256 ^ s.2 := by
  decide +kernel

theorem ncard_pairs {α β : Type} (A : Set α) (B : Set β) : {q : α × β | q.1 ∈ A ∧ q.2 ∈ B}.ncard = A.ncard * B.ncard := by
  rw [← Set.ncard_prod]
  rfl

/-- **C65** A quadratic extension: the number of pairs of strings of `L` bytes that give `x` is the product of the counts of its coordinates. -/
theorem C65_quad (L : ℕ) (x : Quad (Fp p)) :
    {q : List ℕ × List ℕ | (q.1.length = L ∧ IsBytes q.1) ∧ (q.2.length = L ∧ IsBytes q.2) ∧
      (Tower2.fromUniform (q.1 ++ q.2) : Quad (Fp p)) = x}.ncard = uniformCount L x.c1 * uniformCount L x.c0 := by
  rw [uniformCount, uniformCount, ← ncard_pairs]
  congr 1
  ext q
  simp only [Set.mem_ofPred_eq]
  have e (h1 : q.1.length = L) (h2 : q.2.length = L) :
      (Tower2.fromUniform (q.1 ++ q.2) : Quad (Fp p)) = ⟨Fp.fromUniform q.2, Fp.fromUniform q.1⟩ := by
    have hl : (q.1 ++ q.2).length / 2 = q.1.length := by rw [List.length_append]; omega
    rw [Tower2.fromUniform, hl, List.drop_left, List.take_left]
  constructor
  · rintro ⟨⟨h1, h2⟩, ⟨h3, h4⟩, h5⟩
    rw [e h1 h3] at h5
    obtain ⟨x0, x1⟩ := x
    obtain ⟨h6, h7⟩ := Quad.mk.inj h5
    exact ⟨⟨h1, h2, h7⟩, h3, h4, h6⟩
  · rintro ⟨⟨h1, h2, h5⟩, h3, h4, h6⟩
    refine ⟨⟨h1, h2⟩, ⟨h3, h4⟩, ?_⟩
    rw [e h1 h3, h5, h6]

/-- The hypotheses hold for the base field of bn256 with 48 bytes; both counts occur there. -/
example : 48 ≤ 2 * (8 * numLimbs bnQ) ∧ 2 ^ 128 * bnQ ≤ 256 ^ 48 ∧ (0 < 256 ^ 48 % bnQ ∧ ¬ bnQ - 1 < 256 ^ 48 % bnQ) := by
  decide +kernel

end Halo2.Props
