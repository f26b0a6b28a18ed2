import Verif.Trace.Curve
import Verif.Curve.Scalar
import Verif.Field.FpBytes

/-!
# The trace of a scalar multiplication and the leading zero bits of the scalar
-/

set_option linter.unusedSectionVars false

namespace Halo2.Trace

open Halo2 Halo2.Field Halo2.Curve T

/-! ### The multiples the accumulator runs through -/

/-- The numbers read from the prefixes of the bits, without the last one. -/
def prefs : List Bool → ℕ → List ℕ
  | [], _ => []
  | b :: bs, n => n :: prefs bs (2 * n + b.toNat)

theorem prefs_length (l : List Bool) (n : ℕ) : (prefs l n).length = l.length := by
  induction l generalizing n with
  | nil => rfl
  | cons b l ih => rw [prefs, List.length_cons, List.length_cons, ih]

theorem prefs_le (l : List Bool) (n : ℕ) :
    n ≤ l.foldl (fun n b => 2 * n + b.toNat) n ∧ ∀ m ∈ prefs l n, m ≤ l.foldl (fun n b => 2 * n + b.toNat) n := by
  induction l generalizing n with
  | nil => exact ⟨le_rfl, fun m hm => nomatch hm⟩
  | cons b l ih =>
    rw [List.foldl_cons]
    obtain ⟨h1, h2⟩ := ih (2 * n + b.toNat)
    have h3 : n ≤ l.foldl (fun n b => 2 * n + b.toNat) (2 * n + b.toNat) := by omega
    refine ⟨h3, fun m hm => ?_⟩
    rw [prefs] at hm
    rcases List.mem_cons.mp hm with rfl | hm
    · exact h3
    · exact h2 m hm

theorem count_pos (l : List Bool) (n : ℕ) (hn : n ≠ 0) : (prefs l n).count 0 = 0 := by
  induction l generalizing n with
  | nil => rfl
  | cons b l ih =>
    rw [prefs, List.count_cons_of_ne hn]
    exact ih _ (by omega)

theorem bitsVal_cons (b : Bool) (l : List Bool) : bitsVal (b :: l) = 2 ^ l.length * b.toNat + bitsVal l := by
  rw [bitsVal, List.foldl_cons, bitsVal_foldl]
  rw [mul_zero, zero_add]

theorem bitsVal_lt (l : List Bool) : bitsVal l < 2 ^ l.length := by
  induction l with
  | nil => exact Nat.one_pos
  | cons b l ih =>
    rw [bitsVal_cons, List.length_cons, pow_succ]
    have : b.toNat ≤ 1 := Bool.toNat_le b
    nlinarith [Nat.zero_le (2 ^ l.length)]

theorem bitsVal_inj {l m : List Bool} (hl : l.length = m.length) (h : bitsVal l = bitsVal m) : l = m := by
  induction l generalizing m with
  | nil => exact (List.length_eq_zero_iff.mp hl.symm).symm
  | cons b l ih =>
    cases m with
    | nil => exact absurd hl (by simp)
    | cons c m =>
      have hl' : l.length = m.length := by simpa using hl
      rw [bitsVal_cons, bitsVal_cons, ← hl'] at h
      have h1 := bitsVal_lt l
      have h2 := bitsVal_lt m
      rw [← hl'] at h2
      have hbc : b = c := by
        cases b <;> cases c <;> simp only [Bool.toNat_false, Bool.toNat_true] at h ⊢ <;> omega
      subst hbc
      rw [ih hl' (by omega)]

theorem bitsVal_zeros (k : ℕ) (l : List Bool) : bitsVal (List.replicate k false ++ l) = bitsVal l := by
  induction k with
  | zero => rfl
  | succ k ih => rw [List.replicate_succ, List.cons_append, bitsVal_cons, ih]; simp

/-- The prefixes that are zero: one for each leading zero bit, and the empty one. -/
theorem count_prefs (l : List Bool) (h : bitsVal l ≠ 0) :
    (prefs l 0).count 0 + Nat.size (bitsVal l) = l.length + 1 := by
  induction l with
  | nil => exact absurd rfl h
  | cons b l ih =>
    rw [prefs, List.count_cons_self, List.length_cons]
    cases b with
    | false =>
      have e : bitsVal (false :: l) = bitsVal l := by rw [bitsVal_cons]; simp
      rw [e] at h ⊢
      have h1 := ih h
      have e2 : 2 * 0 + Bool.toNat false = 0 := rfl
      rw [e2]
      omega
    | true =>
      have h1 : bitsVal (true :: l) < 2 ^ (l.length + 1) := bitsVal_lt (true :: l)
      have h2 : 2 ^ l.length ≤ bitsVal (true :: l) := by
        rw [bitsVal_cons]
        simp
      have h3 : Nat.size (bitsVal (true :: l)) = l.length + 1 :=
        le_antisymm (Nat.size_le.mpr h1) (Nat.lt_size.mpr h2)
      rw [h3, count_pos _ _ (by simp)]
      omega

section

variable {F : Type} [_root_.Field F] [DecidableEq F] [BaseField F] [LawfulBase F] {C : Params F}

theorem accs_rep (hC : Good C) (addP : Proj F → Proj F) (p : Pt C)
    (hadd : ∀ A a, PRep C A a → PRep C (addP A) (a + p)) (l : List Bool) (A : Proj F) (n : ℕ)
    (hA : PRep C A (n • p)) :
    List.Forall₂ (fun A n => PRep C A (n • p)) (accs C addP l A) (prefs l n) := by
  induction l generalizing A n with
  | nil => exact List.Forall₂.nil
  | cons b l ih =>
    rw [accs, prefs]
    refine List.Forall₂.cons hA (ih _ _ ?_)
    have hd := hA.double hC
    rw [← add_smul, ← two_mul] at hd
    cases b
    · exact hd
    · have := hadd _ _ hd
      rw [show Bool.toNat true = 1 from rfl, add_smul, one_smul]
      exact this

theorem accs_length (addP : Proj F → Proj F) (l : List Bool) (A : Proj F) : (accs C addP l A).length = l.length := by
  induction l generalizing A with
  | nil => rfl
  | cons b l ih => rw [accs, List.length_cons, List.length_cons, ih]

/-- The number of accumulators at infinity is the number of prefixes that are zero. -/
theorem countP_accs {p : Pt C} {r : ℕ} (hr : r.Prime) (hp : p ≠ 0) (hrp : r • p = 0) {as : List (Proj F)} {ns : List ℕ}
    (h : List.Forall₂ (fun A n => PRep C A (n • p)) as ns) (hns : ∀ n ∈ ns, n < r) :
    as.countP (fun A => decide (A.z = 0)) = ns.count 0 := by
  have ho : addOrderOf p = r := by
    have := Fact.mk hr
    exact addOrderOf_eq_prime hrp hp
  induction h with
  | nil => rfl
  | @cons A n as ns hA hs ih =>
    have ih' := ih fun m hm => hns m (List.mem_cons_of_mem _ hm)
    have hz : A.z = 0 ↔ n = 0 := by
      rw [hA.z_eq_zero]
      constructor
      · intro h0
        have h1 : r ∣ n := ho ▸ addOrderOf_dvd_of_nsmul_eq_zero h0
        have h2 := hns n List.mem_cons_self
        exact Nat.eq_zero_of_dvd_of_lt h1 h2
      · rintro rfl
        exact zero_smul ℕ p
    by_cases hn : n = 0
    · rw [List.countP_cons_of_pos (by simpa using hz.mpr hn), hn, List.count_cons_self, ih']
    · rw [List.countP_cons_of_neg (by simpa using fun h => hn (hz.mp h)), List.count_cons_of_ne hn, ih']

end

/-- The length of a trace made of parts that are long for some members and short for the others. -/
theorem flatMap_length {α β : Type} (l : List α) (f : α → List β) (z : α → Bool) (a b : ℕ)
    (h0 : ∀ x ∈ l, z x = true → (f x).length = b + a) (h1 : ∀ x ∈ l, z x = false → b ≤ (f x).length) :
    l.length * b + l.countP z * a ≤ (l.flatMap f).length ∧
      ((∀ x ∈ l, z x = false → (f x).length = b) → (l.flatMap f).length = l.length * b + l.countP z * a) := by
  induction l with
  | nil => exact ⟨by simp, fun _ => by simp⟩
  | cons x l ih =>
    obtain ⟨i1, i2⟩ := ih (fun y hy => h0 y (List.mem_cons_of_mem _ hy)) (fun y hy => h1 y (List.mem_cons_of_mem _ hy))
    rw [List.flatMap_cons, List.length_append, List.length_cons]
    cases hz : z x with
    | true =>
      have e := h0 x List.mem_cons_self hz
      rw [List.countP_cons_of_pos hz, e]
      constructor
      · nlinarith
      · intro h
        have := i2 fun y hy => h y (List.mem_cons_of_mem _ hy)
        rw [this]
        ring
    | false =>
      have e := h1 x List.mem_cons_self hz
      rw [List.countP_cons_of_neg (by simp [hz])]
      constructor
      · nlinarith
      · intro h
        have := i2 fun y hy => h y (List.mem_cons_of_mem _ hy)
        rw [this, h x List.mem_cons_self hz]
        ring

section Prime

variable {p : ℕ} [hp : Fact (OddModulus p)]

theorem agree_self (l : List ℕ) : agree l l = l.length := by
  induction l with
  | nil => rfl
  | cons x l ih => rw [agree, if_pos rfl, ih, List.length_cons]

theorem isZero_tr_zero : ((fpOps p).isZero 0).tr.length = numLimbs p := by
  have h : agree (Field.zero p) (Field.zero p) = numLimbs p := by
    rw [agree_self, ← zero_limbs, limbs_length]
  rw [fpOps_isZero, List.length_replicate, zero_limbs, h]
  omega

theorem isZero_tr_pos (a : Fp p) : 1 ≤ ((fpOps p).isZero a).tr.length := by
  rw [fpOps_isZero, List.length_replicate]
  have : 0 < numLimbs p := Nat.succ_pos _
  omega

theorem isZero_tr_one {a : Fp p} (h : a.limbs.headD 0 ≠ 0) : ((fpOps p).isZero a).tr.length = 1 := by
  rw [fpOps_isZero, List.length_replicate]
  have hn : 0 < numLimbs p := Nat.succ_pos _
  have : agree a.limbs (Field.zero p) = 0 := by
    rw [Field.zero]
    cases ha : a.limbs with
    | nil => rfl
    | cons x xs =>
      obtain ⟨k, hk⟩ : ∃ k, numLimbs p = k + 1 := ⟨numLimbs p - 1, by omega⟩
      rw [hk, List.replicate_succ, agree, if_neg]
      rw [ha] at h
      exact h
  rw [this]
  omega

end Prime

end Halo2.Trace
