import Verif.Glv.Model
import Verif.Field.FpField
import Mathlib.Tactic.Linarith
import Mathlib.Tactic.LinearCombination
import Mathlib.Algebra.Order.Ring.Abs

/-!
# Correctness of the scalar decomposition
-/

set_option linter.unusedSectionVars false

namespace Halo2.Glv

open Halo2 Halo2.Field

instance (l : List ℕ) : Decidable (Wf l) := inferInstanceAs (Decidable (∀ x ∈ l, x < W))

theorem macx_carry (a b c : ℕ) : macx a b c = mac 0 b c a := by
  rw [macx_eq_mac]
  unfold mac
  rw [add_zero, zero_add, add_comm]

theorem mul512_eq (a0 a1 a2 a3 b0 b1 b2 b3 : ℕ) :
    mul512 [a0, a1, a2, a3] [b0, b1, b2, b3] = mulWide [a0, a1, a2, a3] [b0, b1, b2, b3] := by
  simp only [mul512, mulWide, mulRows, macRow, List.getD_cons_zero, List.getD_cons_succ, List.length_cons, List.length_nil,
    List.replicate, List.take_succ_cons, List.take_zero, List.drop_succ_cons, List.drop_zero, List.cons_append,
    List.nil_append]
  rw [macx_carry (macx 0 a0 b0).2, macx_carry 0 a0 b0]
  rw [macx_carry (mac 0 a0 b1 _).2, macx_carry (mac 0 a0 b2 _).2]
  simp only [macx_eq_mac]

theorem mul512_spec (a b : List ℕ) (ha : a.length = 4) (hb : b.length = 4) (wa : Wf a) (wb : Wf b) :
    (mul512 a b).length = 8 ∧ Wf (mul512 a b) ∧ val (mul512 a b) = val a * val b := by
  match a, ha, b, hb with
  | [a0, a1, a2, a3], _, [b0, b1, b2, b3], _ =>
    rw [mul512_eq]
    exact mulWide_spec _ _ wa wb (Nat.succ_pos _)

/-- The low and the high half of a product. -/
theorem mul512_halves (a b : List ℕ) (ha : a.length = 4) (hb : b.length = 4) (wa : Wf a) (wb : Wf b) :
    (((mul512 a b).drop 4).length = 4 ∧ Wf ((mul512 a b).drop 4) ∧ val ((mul512 a b).drop 4) = val a * val b / 2 ^ 256) ∧
    (((mul512 a b).take 4).length = 4 ∧ Wf ((mul512 a b).take 4) ∧ val ((mul512 a b).take 4) = val a * val b % 2 ^ 256) := by
  obtain ⟨h1, h2, h3⟩ := mul512_spec a b ha hb wa wb
  have l1 : ((mul512 a b).take 4).length = 4 := by rw [List.length_take, h1]; rfl
  have l2 : ((mul512 a b).drop 4).length = 4 := by rw [List.length_drop, h1]
  have hsplit := val_append ((mul512 a b).take 4) ((mul512 a b).drop 4)
  have hlt := val_lt _ (h2.take 4)
  rw [l1] at hlt hsplit
  rw [List.take_append_drop, h3] at hsplit
  have hW : W ^ 4 = 2 ^ 256 := by decide +kernel
  rw [hW] at hlt hsplit
  generalize val a * val b = n at *
  refine ⟨⟨l2, h2.drop 4, ?_⟩, ⟨l1, h2.take 4, ?_⟩⟩ <;> omega

variable {p : ℕ} [hp : Fact (OddModulus p)]

theorem toLimbs_spec (h4 : numLimbs p = 4) (e : Fp p) :
    (toLimbs e).length = 4 ∧ Wf (toLimbs e) ∧ val (toLimbs e) = e.toNat := by
  obtain ⟨h1, h2, h3⟩ := Fp.toBytes_spec .LE e
  rw [h4] at h1
  have := fromBytesLE_spec 4 (e.toBytes .LE) h1 h2
  have e1 : toLimbs e = Endian.LE.fromBytes 4 (e.toBytes .LE) := rfl
  rw [e1]
  exact ⟨this.1, this.2.1, this.2.2.trans h3⟩

theorem isNeg_eq (h4 : numLimbs p = 4) (e : Fp p) : isNeg e = decide (2 ^ 192 ≤ e.toNat) := by
  obtain ⟨h1, h2, h3⟩ := toLimbs_spec h4 e
  have e1 : isNeg e = (((sbbChain [0xffffffffffffffff, 0xffffffffffffffff, 0xffffffffffffffff, 0] (toLimbs e) 0).2 &&& 1) != 0) := by
    unfold isNeg
    generalize toLimbs e = l at h1
    match l, h1 with
    | [l0, l1, l2, l3], _ => rfl
  have hw : Wf [0xffffffffffffffff, 0xffffffffffffffff, 0xffffffffffffffff, 0] := by decide
  obtain ⟨s1, s2, s3, s4⟩ := sbbChain_spec _ (toLimbs e) 0 (by rw [h1]; rfl) hw h2 IsBorrow.zero
  have hv := val_lt _ s2
  rw [s1] at hv
  have hm : val [0xffffffffffffffff, 0xffffffffffffffff, 0xffffffffffffffff, 0] = 2 ^ 192 - 1 := by decide +kernel
  have hW : W ^ [0xffffffffffffffff, 0xffffffffffffffff, 0xffffffffffffffff, 0].length = 2 ^ 256 := by decide +kernel
  rw [e1, ← h3]
  rw [hm, hW] at s4
  rw [hW] at hv
  have hl := val_lt _ h2
  rw [h1, show W ^ 4 = 2 ^ 256 by decide +kernel] at hl
  generalize sbbChain [0xffffffffffffffff, 0xffffffffffffffff, 0xffffffffffffffff, 0] (toLimbs e) 0 = s at *
  generalize val (toLimbs e) = n at *
  generalize val s.1 = m at *
  rcases s3 with h | h
  · rw [h] at s4 ⊢
    rw [bw_zero] at s4
    have : ¬ 2 ^ 192 ≤ n := by omega
    rw [decide_eq_false this]
    rfl
  · rw [h] at s4 ⊢
    rw [bw_ones, bw_zero] at s4
    have : 2 ^ 192 ≤ n := by omega
    rw [decide_eq_true this]
    decide

theorem getLower128_eq (h4 : numLimbs p = 4) (e : Fp p) : getLower128 e = e.toNat % 2 ^ 128 := by
  obtain ⟨h1, h2, h3⟩ := toLimbs_spec h4 e
  rw [← h3, getLower128]
  generalize toLimbs e = l at *
  match l, h1 with
  | [l0, l1, l2, l3], _ =>
    simp only [List.getD_cons_zero, List.getD_cons_succ, val_cons, val_nil]
    have w0 : l0 < 2 ^ 64 := h2 l0 (by simp)
    have w1 : l1 < 2 ^ 64 := h2 l1 (by simp)
    rw [Nat.or_comm, ← Nat.shiftLeft_add_eq_or_of_lt w0, Nat.shiftLeft_eq]
    have : W = 2 ^ 64 := rfl
    rw [this]
    omega

/-- An element given by a small integer. -/
theorem small_spec (h4 : numLimbs p = 4) (hbig : 2 ^ 193 ≤ p) (x : Fp p) (K : ℤ) (hx : x = (K : Fp p)) (hK : |K| < 2 ^ 128) :
    isNeg x = decide (K < 0) ∧ (getLower128 (if isNeg x then -x else x) : ℤ) = |K| := by
  have hpos : ∀ n : ℕ, n < 2 ^ 128 → ((n : ℕ) : Fp p).toNat = n := by
    intro n hn
    rw [Fp.toNat_natCast, Nat.mod_eq_of_lt (by omega)]
  rw [isNeg_eq h4]
  by_cases hneg : K < 0
  · obtain ⟨n, rfl⟩ : ∃ n : ℕ, K = -(n : ℤ) := ⟨K.natAbs, by omega⟩
    rw [abs_neg, Nat.abs_cast] at hK ⊢
    have hn : n < 2 ^ 128 := by exact_mod_cast hK
    rw [Int.cast_neg, Int.cast_natCast] at hx
    have hn0 : ((n : ℕ) : Fp p) ≠ 0 := by
      intro h
      have := hpos n hn
      rw [h, Fp.toNat_zero] at this
      omega
    have ht : x.toNat = p - n := by rw [hx, Fp.toNat_neg _ hn0, hpos n hn]
    have hge : 2 ^ 192 ≤ x.toNat := by omega
    rw [decide_eq_true hge, decide_eq_true hneg, if_pos rfl, getLower128_eq h4, hx, neg_neg, hpos n hn, Nat.mod_eq_of_lt hn]
    exact ⟨rfl, rfl⟩
  · obtain ⟨n, rfl⟩ : ∃ n : ℕ, K = (n : ℤ) := ⟨K.natAbs, by omega⟩
    rw [Nat.abs_cast] at hK ⊢
    have hn : n < 2 ^ 128 := by exact_mod_cast hK
    rw [Int.cast_natCast] at hx
    have ht : x.toNat = n := by rw [hx, hpos n hn]
    have hge : ¬ 2 ^ 192 ≤ x.toNat := by omega
    rw [decide_eq_false hge, decide_eq_false hneg, if_neg (by decide), getLower128_eq h4, ht, Nat.mod_eq_of_lt hn]
    exact ⟨rfl, rfl⟩

/-- The lattice condition on the parameters for the modulus `n` and the cube root `z`: `a1`, `a2` complete `b1`, `b2` to a
basis of determinant `n`, `D1`, `D2` bound the rounding of the `gamma`s. -/
structure ParamsOk (n z γ1 γ2 b1 b2 : ℕ) (a1 a2 : ℤ) (D1 D2 : ℕ) : Prop where
  det : a1 * b2 - a2 * b1 = n
  mod1 : ((b1 : ℤ) * z - a1) % n = 0
  mod2 : ((b2 : ℤ) * z - a2) % n = 0
  round1 : |(b1 : ℤ) * 2 ^ 256 - n * γ1| ≤ (D1 : ℤ)
  round2 : |(b2 : ℤ) * 2 ^ 256 - n * γ2| ≤ (D2 : ℤ)
  boundA : |a1| * (2 ^ 256 + D2) + |a2| * (2 ^ 256 + D1) < 2 ^ 128 * 2 ^ 256
  boundB : (b1 : ℤ) * (2 ^ 256 + D2) + (b2 : ℤ) * (2 ^ 256 + D1) < 2 ^ 128 * 2 ^ 256
  fit1 : γ2 * b1 < 2 ^ 256
  fit2 : γ1 * b2 < 2 ^ 256
  big : 2 ^ 193 ≤ n
  small : n < 2 ^ 256

instance (n z γ1 γ2 b1 b2 : ℕ) (a1 a2 : ℤ) (D1 D2 : ℕ) : Decidable (ParamsOk n z γ1 γ2 b1 b2 a1 a2 D1 D2) :=
  decidable_of_iff
    ((a1 * b2 - a2 * b1 = n ∧ ((b1 : ℤ) * z - a1) % n = 0 ∧ ((b2 : ℤ) * z - a2) % n = 0 ∧
      |(b1 : ℤ) * 2 ^ 256 - n * γ1| ≤ (D1 : ℤ)) ∧ (|(b2 : ℤ) * 2 ^ 256 - n * γ2| ≤ (D2 : ℤ) ∧
      |a1| * (2 ^ 256 + D2) + |a2| * (2 ^ 256 + D1) < 2 ^ 128 * 2 ^ 256 ∧
      (b1 : ℤ) * (2 ^ 256 + D2) + (b2 : ℤ) * (2 ^ 256 + D1) < 2 ^ 128 * 2 ^ 256) ∧
      γ2 * b1 < 2 ^ 256 ∧ γ1 * b2 < 2 ^ 256 ∧ 2 ^ 193 ≤ n ∧ n < 2 ^ 256)
    ⟨fun ⟨⟨h1, h2, h3, h4⟩, ⟨h5, h6, h7⟩, h8, h9, h10, h11⟩ => ⟨h1, h2, h3, h4, h5, h6, h7, h8, h9, h10, h11⟩,
     fun ⟨h1, h2, h3, h4, h5, h6, h7, h8, h9, h10, h11⟩ => ⟨⟨h1, h2, h3, h4⟩, ⟨h5, h6, h7⟩, h8, h9, h10, h11⟩⟩

/-- Rounding error of one coefficient, scaled by `n * T`. -/
theorem round_err (n γ b k T D : ℕ) (hk : k < n) (hT : 0 < T) (h : |(b : ℤ) * T - n * γ| ≤ D) :
    |(k : ℤ) * b * T - n * T * ((γ * k / T : ℕ) : ℤ)| ≤ n * (T + D) := by
  have hdiv := Nat.div_add_mod (γ * k) T
  have hmod := Nat.mod_lt (γ * k) hT
  generalize γ * k / T = c at *
  generalize γ * k % T = r at *
  have e : (k : ℤ) * b * T - n * T * (c : ℤ) = k * ((b : ℤ) * T - n * γ) + n * r := by
    have : (T : ℤ) * c + r = γ * k := by exact_mod_cast hdiv
    linear_combination -(n : ℤ) * this
  rw [e]
  calc |(k : ℤ) * ((b : ℤ) * T - n * γ) + n * r| ≤ |(k : ℤ) * ((b : ℤ) * T - n * γ)| + |(n : ℤ) * r| := abs_add_le _ _
    _ = k * |(b : ℤ) * T - n * γ| + n * r := by
        rw [abs_mul, Nat.abs_cast, abs_of_nonneg (a := (n : ℤ) * r) (by positivity)]
    _ ≤ n * D + n * T := by
        have hk' : (k : ℤ) ≤ n := by exact_mod_cast hk.le
        have hr' : (r : ℤ) ≤ T := by exact_mod_cast hmod.le
        have h1 : (k : ℤ) * |(b : ℤ) * T - n * γ| ≤ n * D := mul_le_mul hk' h (abs_nonneg _) (by positivity)
        have h2 : (n : ℤ) * r ≤ n * T := mul_le_mul_of_nonneg_left hr' (by positivity)
        linarith
    _ = _ := by ring

/-- Both halves are small. -/
theorem halves_small (n γ1 γ2 b1 b2 k T B : ℕ) (a1 a2 : ℤ) (D1 D2 : ℕ) (hk : k < n) (hT : 0 < T)
    (det : a1 * b2 - a2 * b1 = n) (round1 : |(b1 : ℤ) * T - n * γ1| ≤ D1) (round2 : |(b2 : ℤ) * T - n * γ2| ≤ D2)
    (boundA : |a1| * (T + D2) + |a2| * (T + D1) < B * T)
    (boundB : (b1 : ℤ) * (T + D2) + (b2 : ℤ) * (T + D1) < B * T) :
    |(k : ℤ) + ((γ1 * k / T : ℕ) : ℤ) * a2 - ((γ2 * k / T : ℕ) : ℤ) * a1| < B ∧
    |((γ1 * k / T : ℕ) : ℤ) * b2 - ((γ2 * k / T : ℕ) : ℤ) * b1| < B := by
  have e1 := round_err n γ2 b2 k T D2 hk hT round2
  have e2 := round_err n γ1 b1 k T D1 hk hT round1
  generalize ((γ2 * k / T : ℕ) : ℤ) = c1 at *
  generalize ((γ1 * k / T : ℕ) : ℤ) = c2 at *
  have hn : (0 : ℤ) < n := by exact_mod_cast (lt_of_le_of_lt (Nat.zero_le k) hk)
  have hTz : (0 : ℤ) < T := by exact_mod_cast hT
  have hnT : (0 : ℤ) < n * T := mul_pos hn hTz
  constructor
  · have e : (n : ℤ) * T * ((k : ℤ) + c2 * a2 - c1 * a1) =
        a1 * (k * b2 * T - n * T * c1) - a2 * (k * b1 * T - n * T * c2) := by
      linear_combination -(k * T : ℤ) * det
    have h : (n : ℤ) * T * |(k : ℤ) + c2 * a2 - c1 * a1| ≤ n * (|a1| * (T + D2) + |a2| * (T + D1)) := by
      calc (n : ℤ) * T * |(k : ℤ) + c2 * a2 - c1 * a1| = |(n : ℤ) * T * ((k : ℤ) + c2 * a2 - c1 * a1)| := by
            rw [abs_mul, abs_of_pos hnT]
        _ = |a1 * (k * b2 * T - n * T * c1) - a2 * (k * b1 * T - n * T * c2)| := by rw [e]
        _ ≤ |a1 * (k * b2 * T - n * T * c1)| + |a2 * (k * b1 * T - n * T * c2)| := abs_sub _ _
        _ = |a1| * |k * b2 * T - n * T * c1| + |a2| * |k * b1 * T - n * T * c2| := by rw [abs_mul, abs_mul]
        _ ≤ |a1| * (n * (T + D2)) + |a2| * (n * (T + D1)) :=
            add_le_add (mul_le_mul_of_nonneg_left e1 (abs_nonneg _)) (mul_le_mul_of_nonneg_left e2 (abs_nonneg _))
        _ = _ := by ring
    have h2 : (n : ℤ) * T * |(k : ℤ) + c2 * a2 - c1 * a1| < n * T * B := by
      calc _ ≤ _ := h
        _ < n * (B * T) := mul_lt_mul_of_pos_left boundA hn
        _ = _ := by ring
    exact lt_of_mul_lt_mul_left h2 hnT.le
  · have e : (n : ℤ) * T * (c2 * b2 - c1 * b1) =
        b1 * (k * b2 * T - n * T * c1) - b2 * (k * b1 * T - n * T * c2) := by ring
    have h : (n : ℤ) * T * |c2 * b2 - c1 * b1| ≤ n * ((b1 : ℤ) * (T + D2) + (b2 : ℤ) * (T + D1)) := by
      calc (n : ℤ) * T * |c2 * b2 - c1 * b1| = |(n : ℤ) * T * (c2 * b2 - c1 * b1)| := by
            rw [abs_mul, abs_of_pos hnT]
        _ = |(b1 : ℤ) * (k * b2 * T - n * T * c1) - b2 * (k * b1 * T - n * T * c2)| := by rw [e]
        _ ≤ |(b1 : ℤ) * (k * b2 * T - n * T * c1)| + |(b2 : ℤ) * (k * b1 * T - n * T * c2)| := abs_sub _ _
        _ = (b1 : ℤ) * |k * b2 * T - n * T * c1| + (b2 : ℤ) * |k * b1 * T - n * T * c2| := by
            rw [abs_mul, abs_mul, Nat.abs_cast, Nat.abs_cast]
        _ ≤ (b1 : ℤ) * (n * (T + D2)) + (b2 : ℤ) * (n * (T + D1)) :=
            add_le_add (mul_le_mul_of_nonneg_left e1 (by positivity)) (mul_le_mul_of_nonneg_left e2 (by positivity))
        _ = _ := by ring
    have h2 : (n : ℤ) * T * |c2 * b2 - c1 * b1| < n * T * B := by
      calc _ ≤ _ := h
        _ < n * (B * T) := mul_lt_mul_of_pos_left boundB hn
        _ = _ := by ring
    exact lt_of_mul_lt_mul_left h2 hnT.le

/-- The signed value of a half. -/
def signed (neg : Bool) (n : ℕ) : ℤ := if neg then -(n : ℤ) else n

theorem cast_eq_of_mod (a b : ℤ) (h : (a - b) % p = 0) : (a : Fp p) = (b : Fp p) := by
  obtain ⟨c, hc⟩ := Int.dvd_of_emod_eq_zero h
  have : ((a - b : ℤ) : Fp p) = ((p * c : ℤ) : Fp p) := by rw [hc]
  rw [Int.cast_sub, Int.cast_mul, Int.cast_natCast, CharP.cast_eq_zero (Fp p) p, zero_mul, sub_eq_zero] at this
  exact this

/-- What is claimed of a decomposition. -/
def Spec (params : EndoParams) (zeta : Fp p) : Prop :=
  ∀ k : Fp p, (decompose params zeta k).1 < 2 ^ 128 ∧ (decompose params zeta k).2.2.1 < 2 ^ 128 ∧
    k = ((signed (decompose params zeta k).2.1 (decompose params zeta k).1 : ℤ) : Fp p)
      - zeta * ((signed (decompose params zeta k).2.2.2 (decompose params zeta k).2.2.1 : ℤ) : Fp p)

theorem decompose_spec (params : EndoParams) (z : ℕ) (h4 : numLimbs p = 4)
    (hl : (params.gamma1.length = 4 ∧ params.gamma2.length = 4 ∧ params.b1.length = 4 ∧ params.b2.length = 4) ∧
      Wf params.gamma1 ∧ Wf params.gamma2 ∧ Wf params.b1 ∧ Wf params.b2)
    (a1 a2 : ℤ) (D1 D2 : ℕ)
    (h : ParamsOk p z (val params.gamma1) (val params.gamma2) (val params.b1) (val params.b2) a1 a2 D1 D2) :
    Spec params (z : Fp p) := by
  intro k
  obtain ⟨⟨lg1, lg2, lb1, lb2⟩, wg1, wg2, wb1, wb2⟩ := hl
  obtain ⟨k1, k2, k3⟩ := toLimbs_spec h4 k
  have hk := Fp.toNat_lt k
  obtain ⟨⟨c1l, c1w, c1v⟩, _⟩ := mul512_halves params.gamma2 (toLimbs k) lg2 k1 wg2 k2
  obtain ⟨⟨c2l, c2w, c2v⟩, _⟩ := mul512_halves params.gamma1 (toLimbs k) lg1 k1 wg1 k2
  obtain ⟨_, q1l, q1w, q1v⟩ := mul512_halves ((mul512 params.gamma2 (toLimbs k)).drop 4) params.b1 c1l lb1 c1w wb1
  obtain ⟨_, q2l, q2w, q2v⟩ := mul512_halves ((mul512 params.gamma1 (toLimbs k)).drop 4) params.b2 c2l lb2 c2w wb2
  have r1 := Fp.ofRaw_eq (p := p) _ ⟨q1l.trans h4.symm, q1w⟩
  have r2 := Fp.ofRaw_eq (p := p) _ ⟨q2l.trans h4.symm, q2w⟩
  rw [q1v, c1v, k3] at r1
  rw [q2v, c2v, k3] at r2
  have hsm := halves_small p (val params.gamma1) (val params.gamma2) (val params.b1) (val params.b2) k.toNat (2 ^ 256) (2 ^ 128)
    a1 a2 D1 D2 hk (by positivity) h.det (by exact_mod_cast h.round1) (by exact_mod_cast h.round2)
    (by exact_mod_cast h.boundA) (by exact_mod_cast h.boundB)
  have hle : ∀ γ : ℕ, γ * k.toNat / 2 ^ 256 ≤ γ := by
    intro γ
    apply Nat.div_le_of_le_mul
    rw [Nat.mul_comm]
    exact Nat.mul_le_mul_right _ (hk.le.trans h.small.le)
  have f1 := lt_of_le_of_lt (Nat.mul_le_mul_right (val params.b1) (hle (val params.gamma2))) h.fit1
  have f2 := lt_of_le_of_lt (Nat.mul_le_mul_right (val params.b2) (hle (val params.gamma1))) h.fit2
  rw [Nat.mod_eq_of_lt f1] at r1
  rw [Nat.mod_eq_of_lt f2] at r2
  have hb := h.big
  have m1 := cast_eq_of_mod (p := p) _ _ h.mod1
  have m2 := cast_eq_of_mod (p := p) _ _ h.mod2
  rw [Int.cast_mul, Int.cast_natCast, Int.cast_natCast] at m1 m2
  have hkk : k = ((k.toNat : ℤ) : Fp p) := by rw [Int.cast_natCast, Fp.natCast_toNat]
  unfold decompose
  dsimp only
  rw [r1, r2]
  clear r1 r2 q1v q2v c1v c2v q1l q2l q1w q2w c1l c2l c1w c2w k1 k2 k3 f1 f2 hle h
  generalize val params.gamma2 * k.toNat / 2 ^ 256 = c1 at *
  generalize val params.gamma1 * k.toNat / 2 ^ 256 = c2 at *
  generalize val params.b1 = b1 at *
  generalize val params.b2 = b2 at *
  have hK2 : ((c2 * b2 : ℕ) : Fp p) - ((c1 * b1 : ℕ) : Fp p) = (((c2 : ℤ) * b2 - c1 * b1 : ℤ) : Fp p) := by
    push_cast; ring
  have hK1 : k + (((c2 * b2 : ℕ) : Fp p) - ((c1 * b1 : ℕ) : Fp p)) * (z : Fp p) =
      (((k.toNat : ℤ) + c2 * a2 - c1 * a1 : ℤ) : Fp p) := by
    conv_lhs => rw [hkk]
    push_cast
    linear_combination (c2 : Fp p) * m2 - (c1 : Fp p) * m1
  obtain ⟨s1, s2⟩ := small_spec h4 hb _ _ hK1 hsm.1
  obtain ⟨t1, t2⟩ := small_spec h4 hb _ _ hK2 hsm.2
  have hsig : ∀ K : ℤ, ∀ n : ℕ, (n : ℤ) = |K| → signed (decide (K < 0)) n = K := by
    intro K n hn
    rw [signed, hn]
    by_cases h0 : K < 0
    · rw [decide_eq_true h0, if_pos rfl, abs_of_neg h0, neg_neg]
    · rw [decide_eq_false h0, if_neg (by decide), abs_of_nonneg (not_lt.mp h0)]
  refine ⟨?_, ?_, ?_⟩
  · have : ((getLower128 _ : ℕ) : ℤ) < 2 ^ 128 := lt_of_eq_of_lt s2 hsm.1
    exact_mod_cast this
  · have : ((getLower128 _ : ℕ) : ℤ) < 2 ^ 128 := lt_of_eq_of_lt t2 hsm.2
    exact_mod_cast this
  · have e1 := hsig _ _ s2
    have e2 := hsig _ _ t2
    rw [← s1] at e1
    rw [← t1] at e2
    rw [e1, e2, ← hK1, ← hK2]
    ring

end Halo2.Glv
