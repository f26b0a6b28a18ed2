import Verif.Inverse.CInt
import Mathlib.Data.List.GetD

/-!
# `convert` regroups bits, `inv` inverts modulo `2^62`
-/

namespace Halo2.Inverse

theorem testBit_uval {B : ℕ} (hB : 0 < B) {x : List ℕ} (hx : CWf B x) (i : ℕ) :
    (uval B x).testBit i = (x.getD (i / B) 0).testBit (i % B) := by
  induction x generalizing i with
  | nil => simp [uval]
  | cons c cs ih =>
    rw [CWf.cons] at hx
    rw [uval, add_comm, Nat.testBit_two_pow_mul_add _ hx.1]
    split
    · rename_i h
      rw [Nat.div_eq_of_lt h, Nat.mod_eq_of_lt h]
      rfl
    · rename_i h
      rw [ih hx.2]
      have e : i = (i - B) + B := by omega
      have e1 : i / B = (i - B) / B + 1 := by
        conv_lhs => rw [e]
        rw [Nat.add_div_right _ hB]
      have e2 : i % B = (i - B) % B := by
        conv_lhs => rw [e]
        rw [Nat.add_mod_right]
      rw [e1, e2, List.getD_cons_succ]

theorem length_orAt (out : List ℕ) (k x : ℕ) : (orAt out k x).length = out.length := by
  simp [orAt]

theorem getD_orAt {out : List ℕ} {k : ℕ} (x : ℕ) (hk : k < out.length) (j : ℕ) :
    (orAt out k x).getD j 0 = if j = k then out.getD k 0 ||| x else out.getD j 0 := by
  unfold orAt
  by_cases h : j = k
  · subst h
    simp [List.getD_eq_getElem?_getD, hk]
  · rw [if_neg h]
    simp only [List.getD_eq_getElem?_getD]
    rw [List.getElem?_set_ne (by omega)]

theorem length_convertLoop (I O total : ℕ) (input : List ℕ) (fuel bits : ℕ) (out : List ℕ) :
    (convertLoop I O total input fuel bits out).length = out.length := by
  induction fuel generalizing bits out with
  | zero => rfl
  | succ n ih =>
    rw [convertLoop]
    split
    · rw [ih, length_orAt]
    · rfl

/-- Invariant of the loop of `convert`. -/
structure CvInv (I O S : ℕ) (input : List ℕ) (bits : ℕ) (out : List ℕ) : Prop where
  len : out.length = S
  bit : ∀ k < S, ∀ j < O, (out.getD k 0).testBit j =
    (decide (k * O + j < bits) && (input.getD ((k * O + j) / I) 0).testBit ((k * O + j) % I))
  zero : ∀ k, bits ≤ k * O → out.getD k 0 = 0

theorem boundary {I bits : ℕ} (hI : 0 < I) {n : ℕ} (h : bits < n * I) : bits + (I - bits % I) ≤ n * I := by
  have h1 := Nat.div_add_mod bits I
  have h2 : bits / I < n := (Nat.div_lt_iff_lt_mul hI).mpr h
  have h3 : (bits / I + 1) * I ≤ n * I := Nat.mul_le_mul_right I h2
  have h4 := Nat.mod_lt bits hI
  have h5 : (bits / I + 1) * I = I * (bits / I) + I := by ring
  omega

theorem CvInv.step {I O S : ℕ} {input : List ℕ} {bits : ℕ} {out : List ℕ}
    (hI : 0 < I) (hO : 0 < O) (hO64 : O ≤ 64) (hw : CWf I input) (hb : bits < S * O)
    (h : CvInv I O S input bits out) :
    CvInv I O S input (bits + min (I - bits % I) (O - bits % O))
      (orAt out (bits / O) (u64 (input.getD (bits / I) 0 / 2 ^ (bits % I) * 2 ^ (bits % O)))) := by
  have hkS : bits / O < S := (Nat.div_lt_iff_lt_mul hO).mpr hb
  have hlt : bits / O < out.length := by rw [h.len]; exact hkS
  have hr := Nat.mod_lt bits hI
  have hs := Nat.mod_lt bits hO
  have hd1 := Nat.div_add_mod bits I
  have hd2 := Nat.div_add_mod bits O
  refine ⟨by rw [length_orAt, h.len], ?_, ?_⟩
  · intro k hk j hj
    rw [getD_orAt _ hlt]
    split
    · rename_i hkk
      subst hkk
      rw [Nat.testBit_or, h.bit _ hk j hj]
      unfold u64
      rw [Nat.testBit_mod_two_pow, Nat.testBit_mul_two_pow, Nat.testBit_div_two_pow]
      have hj64 : j < 64 := by omega
      rw [mul_comm (bits / O) O]
      by_cases hlo : j < bits % O
      · have e1 : O * (bits / O) + j < bits := by omega
        have e2 : O * (bits / O) + j < bits + min (I - bits % I) (O - bits % O) := by omega
        have e3 : ¬ bits % O ≤ j := by omega
        simp [e1, e2, e3]
      · have e1 : ¬ O * (bits / O) + j < bits := by omega
        have e3 : bits % O ≤ j := by omega
        obtain ⟨t, rfl⟩ := Nat.exists_eq_add_of_le e3
        have e4 : O * (bits / O) + (bits % O + t) = I * (bits / I) + (bits % I + t) := by omega
        have e5 : bits % O + t - bits % O + bits % I = bits % I + t := by omega
        rw [e5]
        by_cases hhi : bits % I + t < I
        · have e2 : O * (bits / O) + (bits % O + t) < bits + min (I - bits % I) (O - bits % O) := by
            omega
          have e6 : (O * (bits / O) + (bits % O + t)) / I = bits / I := by
            rw [e4, Nat.mul_add_div hI, Nat.div_eq_of_lt hhi, Nat.add_zero]
          have e7 : (O * (bits / O) + (bits % O + t)) % I = bits % I + t := by
            rw [e4, Nat.mul_add_mod, Nat.mod_eq_of_lt hhi]
          rw [e6, e7]
          simp [e1, e2, hj64]
        · have e2 : ¬ O * (bits / O) + (bits % O + t) < bits + min (I - bits % I) (O - bits % O) := by
            omega
          have hc : input.getD (bits / I) 0 < 2 ^ I := by
            rw [List.getD_eq_getElem?_getD]
            cases hg : input[bits / I]? with
            | none => simp
            | some c => exact hw c (List.mem_of_getElem? hg)
          have e8 : (input.getD (bits / I) 0).testBit (bits % I + t) = false :=
            Nat.testBit_lt_two_pow (lt_of_lt_of_le hc (Nat.pow_le_pow_right (by decide) (by omega)))
          rw [e8]
          simp [e1, e2]
    · rename_i hkk
      rw [h.bit k hk j hj]
      congr 2
      apply propext
      rcases lt_or_gt_of_ne hkk with hc | hc
      · have : (k + 1) * O ≤ bits / O * O := Nat.mul_le_mul_right O hc
        have e : (k + 1) * O = k * O + O := by ring
        have e' : bits / O * O = O * (bits / O) := by ring
        omega
      · have : (bits / O + 1) * O ≤ k * O := Nat.mul_le_mul_right O hc
        have e : (bits / O + 1) * O = O * (bits / O) + O := by ring
        omega
  · intro k hk
    rw [getD_orAt _ hlt]
    have hz := h.zero k (by omega)
    split
    · rename_i hkk
      subst hkk
      exfalso
      have e' : bits / O * O = O * (bits / O) := by ring
      omega
    · exact hz

theorem convertLoop_inv {I O S : ℕ} {input : List ℕ} (hI : 0 < I) (hO : 0 < O) (hO64 : O ≤ 64)
    (hw : CWf I input) (fuel : ℕ) : ∀ (bits : ℕ) (out : List ℕ),
    bits ≤ min (input.length * I) (S * O) → min (input.length * I) (S * O) < bits + fuel →
    CvInv I O S input bits out →
    CvInv I O S input (min (input.length * I) (S * O))
      (convertLoop I O (min (input.length * I) (S * O)) input fuel bits out) := by
  induction fuel with
  | zero => intro bits out h1 h2; omega
  | succ n ih =>
    intro bits out h1 h2 h
    rw [convertLoop]
    split
    · rename_i hlt
      have b1 := boundary hI (show bits < input.length * I by omega)
      have b2 := boundary hO (show bits < S * O by omega)
      have hr := Nat.mod_lt bits hI
      have hs := Nat.mod_lt bits hO
      exact ih _ _ (by omega) (by omega) (h.step hI hO hO64 hw (by omega))
    · rename_i hge
      have : bits = min (input.length * I) (S * O) := by omega
      rw [← this]
      exact h

/-- `convert` keeps the value modulo the width of the output. -/
theorem convert_spec {I O S : ℕ} {input : List ℕ} (hI : 0 < I) (hO : 0 < O) (hO64 : O ≤ 64)
    (hw : CWf I input) :
    (convert I O S input).length = S ∧ CWf O (convert I O S input) ∧
      uval O (convert I O S input) = uval I input % 2 ^ (O * S) := by
  unfold convert
  simp only
  generalize ht : min (input.length * I) (S * O) = total
  have hinv : CvInv I O S input total
      (convertLoop I O total input (total + 1) 0 (List.replicate S 0)) := by
    rw [← ht]
    apply convertLoop_inv hI hO hO64 hw _ _ _ (by omega) (by omega)
    refine ⟨by simp, ?_, ?_⟩
    · intro k hk j hj
      simp [List.getD_eq_getElem?_getD, hk]
    · intro k _
      simp only [List.getD_eq_getElem?_getD, List.getElem?_replicate]
      split <;> rfl
  generalize convertLoop I O total input (total + 1) 0 (List.replicate S 0) = out at *
  generalize hf : (total / O + if total % O > 0 then 1 else 0) = filled
  have hfill : total ≤ filled * O := by
    have h1 := Nat.div_add_mod total O
    have h2 : filled * O = O * (total / O) + (if total % O > 0 then 1 else 0) * O := by
      rw [← hf]; ring
    have h3 := Nat.mod_lt total hO
    rw [h2]
    split
    · omega
    · omega
  have hlen : (out.mapIdx fun k x => if k < filled then x % 2 ^ O else x).length = S := by
    simp [hinv.len]
  have hget : ∀ k, (out.mapIdx fun k x => if k < filled then x % 2 ^ O else x).getD k 0
      = out.getD k 0 % 2 ^ O := by
    intro k
    rw [List.getD_eq_getElem?_getD, List.getElem?_mapIdx]
    by_cases hk : k < filled
    · rw [List.getD_eq_getElem?_getD]
      cases out[k]? <;> simp [hk]
    · have hz := hinv.zero k (le_trans hfill (Nat.mul_le_mul_right O (by omega)))
      rw [hz]
      rw [List.getD_eq_getElem?_getD] at hz
      cases h : out[k]? with
      | none => simp
      | some c => rw [h] at hz; simp at hz; simp [hz]
  generalize (out.mapIdx fun k x => if k < filled then x % 2 ^ O else x) = res at *
  have hwf : CWf O res := by
    intro c hc
    obtain ⟨k, hk⟩ := List.getElem?_of_mem hc
    have := hget k
    rw [List.getD_eq_getElem?_getD, hk] at this
    simp only [Option.getD_some] at this
    rw [this]
    exact Nat.mod_lt _ (Nat.two_pow_pos O)
  refine ⟨hlen, hwf, ?_⟩
  apply Nat.eq_of_testBit_eq
  intro i
  rw [testBit_uval hO hwf, hget, Nat.testBit_mod_two_pow, Nat.testBit_mod_two_pow,
    testBit_uval hI hw]
  have hm := Nat.mod_lt i hO
  simp only [hm, decide_true, Bool.true_and]
  have hi := Nat.div_add_mod i O
  by_cases hiS : i < O * S
  · have hk : i / O < S := Nat.div_lt_of_lt_mul hiS
    rw [hinv.bit _ hk _ hm]
    rw [mul_comm (i / O) O, hi]
    simp only [hiS, decide_true, Bool.true_and]
    by_cases hit : i < total
    · simp [hit]
    · have : input.length * I ≤ i := by
        have : S * O = O * S := mul_comm _ _
        omega
      have h2 : input.length ≤ i / I := (Nat.le_div_iff_mul_le hI).mpr this
      rw [List.getD_eq_default _ _ h2]
      simp
  · have : total ≤ i / O * O := by
      have h1 : S ≤ i / O := (Nat.le_div_iff_mul_le hO).mpr (by rw [mul_comm]; omega)
      have := Nat.mul_le_mul_right O h1
      omega
    rw [hinv.zero _ this]
    simp [hiS]

/-! ## `inv` -/

theorem inv_mod32 : ∀ r < 32, r % 2 = 1 → ((3 * r % 32) ^^^ 2) * r % 32 = 1 := by decide

theorem xor2_mod (x : ℕ) : (x ^^^ 2) % 32 = (x % 32) ^^^ 2 := by
  have := Nat.xor_mod_two_pow (a := x) (b := 2) (n := 5)
  simpa using this

/-- State of the Newton iteration. -/
def NewtonInv (v e : ℕ) (xy : ℕ × ℕ) : Prop :=
  (2 : ℤ) ^ 64 ∣ (xy.1 : ℤ) * v - (1 - xy.2) ∧ (2 : ℤ) ^ e ∣ xy.2

theorem u64_cast (x : ℕ) : (2 : ℤ) ^ 64 ∣ (u64 x : ℤ) - x := by
  unfold u64
  push_cast
  exact (Int.dvd_sub_self_of_emod_eq rfl)

theorem invStep_spec {v e : ℕ} {xy : ℕ × ℕ} (he : e ≤ 32) (h : NewtonInv v e xy) :
    NewtonInv v (2 * e) (invStep xy) := by
  obtain ⟨⟨a, ha⟩, ⟨b, hb⟩⟩ := h
  obtain ⟨c, hc⟩ := u64_cast (xy.2 + 1)
  obtain ⟨d, hd⟩ := u64_cast (xy.1 * u64 (xy.2 + 1))
  obtain ⟨f, hf⟩ := u64_cast (xy.2 * xy.2)
  unfold NewtonInv invStep
  simp only
  generalize u64 (xy.1 * u64 (xy.2 + 1)) = X at *
  generalize u64 (xy.2 + 1) = Y1 at *
  generalize u64 (xy.2 * xy.2) = Y at *
  push_cast at *
  refine ⟨⟨d * v + a * Y1 + (1 - (xy.2 : ℤ)) * c + f, ?_⟩, ?_⟩
  · linear_combination v * hd + Y1 * ha + (1 - (xy.2 : ℤ)) * hc + hf
  · have e1 : (Y : ℤ) = 2 ^ (2 * e) * (b * b + 2 ^ (64 - 2 * e) * f) := by
      have e2 : (2 : ℤ) ^ (2 * e) * 2 ^ (64 - 2 * e) = 2 ^ 64 := by rw [← pow_add]; congr 1; omega
      have e3 : (2 : ℤ) ^ (2 * e) = 2 ^ e * 2 ^ e := by rw [two_mul, pow_add]
      have e4 : (Y : ℤ) = xy.2 * xy.2 + 2 ^ 64 * f := by linear_combination hf
      rw [e4, mul_add, ← mul_assoc (2 ^ (2 * e)) (2 ^ (64 - 2 * e)), e2, e3, hb]
      ring
    exact ⟨_, e1⟩

theorem inv_spec {v : ℕ} (hv : v % 2 = 1) :
    0 ≤ inv v ∧ inv v < 2 ^ 62 ∧ (2 : ℤ) ^ 62 ∣ inv v * v - 1 := by
  unfold inv
  simp only
  generalize hx : u64 (v * 3) ^^^ 2 = x
  have h0 : NewtonInv v 5 (x, u64 (1 + (2 ^ 64 - u64 (x * v)))) := by
    have hx32 : x * v % 32 = 1 := by
      have h1 : x % 32 = (3 * (v % 32) % 32) ^^^ 2 := by
        rw [← hx, xor2_mod]; congr 1; unfold u64; omega
      rw [Nat.mul_mod, h1, ← inv_mod32 (v % 32) (by omega) (by omega)]
    have hu : u64 (x * v) ≤ 2 ^ 64 := by unfold u64; omega
    obtain ⟨c, hc⟩ := u64_cast (1 + (2 ^ 64 - u64 (x * v)))
    obtain ⟨d, hd⟩ := u64_cast (x * v)
    unfold NewtonInv
    simp only
    generalize hY : u64 (1 + (2 ^ 64 - u64 (x * v))) = Y at *
    generalize u64 (x * v) = U at *
    have hcast : ((1 + (2 ^ 64 - U) : ℕ) : ℤ) = 1 + (2 ^ 64 - U) := by
      rw [Nat.cast_add, Nat.cast_sub hu]; push_cast; rfl
    rw [hcast] at hc
    push_cast at hd
    have hA : (x : ℤ) * v - (1 - Y) = 2 ^ 64 * (c + 1 - d) := by linear_combination hc - hd
    refine ⟨⟨_, hA⟩, ?_⟩
    have h3 : ((x * v : ℕ) : ℤ) % 32 = 1 := by exact_mod_cast hx32
    push_cast at h3
    norm_num
    omega
  have h3 := invStep_spec (by decide) (invStep_spec (by decide) (invStep_spec (e := 5) (by decide) h0))
  generalize invStep (invStep (invStep (x, u64 (1 + (2 ^ 64 - u64 (x * v)))))) = xy at *
  have h4 : NewtonInv v 32 xy := ⟨h3.1, dvd_trans (pow_dvd_pow 2 (by decide)) h3.2⟩
  have h5 := invStep_spec (le_refl _) h4
  obtain ⟨⟨a, ha⟩, ⟨b, hb⟩⟩ := h5
  unfold invStep at ha hb
  simp only at ha hb
  generalize u64 (xy.1 * u64 (xy.2 + 1)) = X at *
  generalize u64 (xy.2 * xy.2) = Y at *
  refine ⟨by positivity, by push_cast; omega, ?_⟩
  have e : ((X % 2 ^ 62 : ℕ) : ℤ) = X - 2 ^ 62 * (X / 2 ^ 62) := by push_cast; omega
  rw [e]
  refine ⟨4 * a - 4 * b - v * (X / 2 ^ 62), ?_⟩
  have hb' : (Y : ℤ) = 2 ^ 64 * b := hb
  linear_combination ha - hb'

end Halo2.Inverse
