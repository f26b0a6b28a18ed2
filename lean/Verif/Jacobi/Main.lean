import Verif.Jacobi.Inner
import Verif.Jacobi.Approx

/-!
# `jacobi` terminates and returns the Jacobi symbol
-/

namespace Halo2.Jacobi

open Halo2.Inverse (u64 i64 asU64 tz)

/-- The arguments of a round of the outer loop. -/
structure Args (L : ℕ) (n d : List ℕ) : Prop where
  ln : IsL L n
  ld : IsL L d
  nb : val n < 2 ^ (64 * L - 31)
  db : val d < 2 ^ (64 * L - 31)
  odd : val d % 2 = 1

theorem code_of_small {L : ℕ} (hL : 0 < L) {x : List ℕ} (h : IsL L x) (hb : val x < 2 ^ (64 * L - 31)) :
    Code L x (val x) := by
  refine Code.of h (Int.ModEq.refl _) ?_
  rw [abs_of_nonneg (by positivity)]
  have : val x < 2 ^ (64 * L - 1) := lt_of_lt_of_le hb (Nat.pow_le_pow_right (by decide) (by omega))
  exact_mod_cast this

/-- A row of the update. -/
theorem row_spec {L : ℕ} (hL : 0 < L) {n d : List ℕ} (h : Args L n d) {m : ℕ} (hn : val n ≤ m)
    (hd : val d ≤ m) (hm : m < 2 ^ (64 * L - 31)) {c0 c1 A : ℤ} (hc : |c0| + |c1| ≤ 2 ^ 30)
    (e : 2 ^ 30 * A = val n * c0 + val d * c1) : Code L (row n d c0 c1) A ∧ |A| ≤ m := by
  have hn' : (val n : ℤ) ≤ m := by exact_mod_cast hn
  have hd' : (val d : ℤ) ≤ m := by exact_mod_cast hd
  have p0 := abs_nonneg c0
  have p1 := abs_nonneg c1
  have hab : |(val n : ℤ) * c0 + val d * c1| ≤ m * 2 ^ 30 := by
    have h1 := abs_add_le ((val n : ℤ) * c0) (val d * c1)
    rw [abs_mul, abs_mul, abs_of_nonneg (by positivity : (0 : ℤ) ≤ val n),
      abs_of_nonneg (by positivity : (0 : ℤ) ≤ val d)] at h1
    have h2 : (val n : ℤ) * |c0| ≤ m * |c0| := mul_le_mul_of_nonneg_right hn' p0
    have h3 : (val d : ℤ) * |c1| ≤ m * |c1| := mul_le_mul_of_nonneg_right hd' p1
    have h4 : (m : ℤ) * (|c0| + |c1|) ≤ m * 2 ^ 30 := mul_le_mul_of_nonneg_left hc (by positivity)
    rw [mul_add] at h4
    linarith
  have hm' : (m : ℤ) < 2 ^ (64 * L - 31) := by exact_mod_cast hm
  have hp : (2 : ℤ) ^ (64 * L - 1) = 2 ^ (64 * L - 31) * 2 ^ 30 := by
    rw [← pow_add]; congr 1; omega
  have c := comb_spec (code_of_small hL h.ln h.nb) (code_of_small hL h.ld h.db) (a := c0) (b := c1)
    (by omega) (by omega) (by rw [hp]; generalize (2 : ℤ) ^ (64 * L - 31) = P at *; linarith)
  refine ⟨lShr_spec hL (by norm_num) c e.symm, ?_⟩
  rw [← e, abs_mul, abs_of_pos (by positivity : (0 : ℤ) < 2 ^ 30)] at hab
  linarith

/-- The measure of the outer loop. -/
def mu (L : ℕ) (n d : List ℕ) : ℕ := 2 ^ (64 * L) * max (val n) (val d) + min (val n) (val d)

theorem headD_spec {x : List ℕ} {L : ℕ} {v : ℤ} (hL : 0 < L) (h : Code L x v) :
    (4 : ℤ) ∣ (x.headD 0 : ℕ) - v := by
  have hq := h.eq
  have h1 : (val x : ℤ) ≡ v [ZMOD 4] := by
    refine hq.of_dvd ?_
    rw [WL_eq]
    have : (2 : ℤ) ^ 2 ∣ 2 ^ (64 * L) := pow_dvd_pow 2 (by omega)
    simpa using this
  rw [Int.modEq_iff_dvd] at h1
  cases x with
  | nil => have := h.isL.len; simp at this; omega
  | cons c cs =>
    rw [val_cons, W_eq] at h1
    simp only [List.headD_cons]
    push_cast at h1
    omega

theorem mu_lt {L m c X Y : ℕ} (h : (X < m ∧ Y < m) ∨ (max X Y = m ∧ min X Y < c))
    (_hc : c ≤ m) (hm : m < 2 ^ (64 * L - 31)) :
    2 ^ (64 * L) * max X Y + min X Y < 2 ^ (64 * L) * m + c := by
  rcases h with ⟨h1, h2⟩ | ⟨h1, h2⟩
  · have hlt : m < 2 ^ (64 * L) := lt_of_lt_of_le hm (Nat.pow_le_pow_right (by decide) (by omega))
    have h3 : max X Y + 1 ≤ m := by omega
    have := Nat.mul_le_mul_left (2 ^ (64 * L)) h3
    rw [Nat.mul_add, mul_one] at this
    omega
  · rw [h1]; omega

/-- One round: the returned pair represents exact values with the same symbol and a smaller
measure. -/
theorem round_spec {L : ℕ} (hL : 0 < L) {n d : List ℕ} (h : Args L n d) {a b t : ℕ}
    (hap : ApproxSpec n d (some (a, b, false))) {s : Inner}
    (hs : s = innerLoop 30 ⟨30, a, b, 1, 0, 0, 1, t⟩) :
    ∃ A B : ℤ, Code L (row n d s.u0 s.u1) A ∧ Code L (row n d s.v0 s.v1) B ∧ B % 2 = 1 ∧
      (0 < A ∨ 0 < B) ∧ sg s.t * js A B = sg t * js (val n) (val d) ∧
      |A| < 2 ^ (64 * L - 31) ∧ |B| < 2 ^ (64 * L - 31) ∧
      (A ≠ 0 → 2 ^ (64 * L) * max A.natAbs B.natAbs + min A.natAbs B.natAbs < mu L n d) := by
  obtain ⟨m, hm⟩ : ∃ m, m = max (val n) (val d) := ⟨_, rfl⟩
  obtain ⟨c, hc⟩ : ∃ c, c = min (val n) (val d) := ⟨_, rfl⟩
  have hmb : m < 2 ^ (64 * L - 31) := by rw [hm]; exact max_lt h.nb h.db
  have hodd := h.odd
  have hm0 : (0 : ℤ) < m := by omega
  have hcm : (c : ℤ) ≤ m := by omega
  have hdpos : (0 : ℤ) < val d := by omega
  cases hap with
  | rough _ _ ha hb ca cb hxy hyx heq =>
    have inv0 : Inv (val n) (val d) (sg t * js (val n) (val d)) ⟨30, a, b, 1, 0, 0, 1, t⟩ (val n) (val d) := by
      refine ⟨le_refl _, by simp, by simp, by simp, by simp, ha, hb, ca, cb, by omega, ?_, rfl⟩
      exact ⟨0, 1, le_refl _, by norm_num, by ring⟩
    have ph0 : Phase (m : ℤ) c ⟨30, a, b, 1, 0, 0, 1, t⟩ (val n) (val d) := by
      rcases le_or_gt (val n) (val d) with hle | hgt
      · have hcmp := hxy hle
        have e1 : m = val d := by omega
        have e2 : c = val n := by omega
        refine .one (by rw [e1]) (by rw [e2]; simp) hcmp.top (by simpa using hcmp.le) ?_ ?_
        · intro _ hba
          have := hcmp.near hba
          rw [e1, e2]; exact_mod_cast this
        · intro _ hab
          have hab' : a < b := hab
          have : val n ≠ val d := fun h' => by have := heq h'; omega
          omega
      · have hcmp := hyx hgt.le
        have e1 : m = val n := by omega
        have e2 : c = val d := by omega
        refine .top (by rw [e1]) (by rw [e2]) (by omega) rfl ?_
        intro hab
        have hab' : a < b := hab
        have := hcmp.near hab'.le
        exact ⟨hcmp.top, hcmp.le, by rw [e1, e2]; exact_mod_cast this⟩
    obtain ⟨i0, A, B, inv, ph⟩ := innerLoop_spec hdpos hm0 (by positivity) hcm 30 _ _ _ (le_refl _) inv0 ph0
    rw [← hs] at i0 inv ph
    have eA := inv.eA
    have eB := inv.eB
    have cu := inv.cu
    have cv := inv.cv
    rw [i0] at eA eB cu cv
    obtain ⟨rA, bA⟩ := row_spec hL h (m := m) (by omega) (by omega) hmb cu eA
    obtain ⟨rB, bB⟩ := row_spec hL h (m := m) (by omega) (by omega) hmb cv eB
    have hmz : (m : ℤ) < 2 ^ (64 * L - 31) := by exact_mod_cast hmb
    refine ⟨A, B, rA, rB, inv.odd, inv.notboth hdpos, inv.sym, by omega, by omega, ?_⟩
    intro hA0
    unfold mu
    rw [← hm, ← hc]
    apply mu_lt _ (by omega) hmb
    cases ph with
    | low hA hB =>
      left
      rw [abs_lt] at hA hB
      omega
    | one hB hA _ _ _ _ =>
      right
      rw [i0] at hA
      simp only [Nat.sub_zero] at hA
      omega
    | two hB hA _ _ _ hcm' =>
      right
      rw [i0] at hA
      simp only [Nat.sub_zero] at hA
      omega
    | top _ _ _ hi _ => omega

/-- A measure of the two arguments that every round decreases. -/
def Decreases (L : ℕ) (M : ℕ → ℕ → ℕ) : Prop :=
  ∀ (n d : List ℕ) (a b t : ℕ), Args L n d → ApproxSpec n d (some (a, b, false)) → ∀ s : Inner,
    s = innerLoop 30 ⟨30, a, b, 1, 0, 0, 1, t⟩ → ∀ A B : ℤ, Code L (row n d s.u0 s.u1) A →
      Code L (row n d s.v0 s.v1) B → A ≠ 0 → M A.natAbs B.natAbs < M (val n) (val d)

/-- The loop returns the symbol within as many rounds as a decreasing measure has values. -/
theorem jacobiLoop_measure {L : ℕ} (hL : 0 < L) {M : ℕ → ℕ → ℕ} (hM : Decreases L M) (fuel : ℕ) (n d : List ℕ)
    (t : ℕ) (h : Args L n d) (hf : M (val n) (val d) < fuel) :
    jacobiLoop L fuel n d t = some (sg t * js (val n) (val d)) := by
  induction fuel generalizing n d t with
  | zero => omega
  | succ fuel ih =>
    rw [jacobiLoop]
    have hap := approximate_spec hL h.ln h.ld h.odd
    generalize approximate L n d = ap at hap
    cases hap with
    | precise hx hy =>
      dsimp only
      exact jacobinary_spec _ _ _ h.odd hx hy
    | rough a b ha hb ca cb hxy hyx heq =>
      dsimp only
      obtain ⟨s, hs⟩ : ∃ s, s = innerLoop 30 ⟨30, a, b, 1, 0, 0, 1, t⟩ := ⟨_, rfl⟩
      rw [← hs]
      obtain ⟨A, B, rA, rB, oB, pos, sym, bA, bB, -⟩ :=
        round_spec hL h (.rough a b ha hb ca cb hxy hyx heq) hs
      have hmu := hM n d a b t h (.rough a b ha hb ca cb hxy hyx heq) s hs A B rA rB
      generalize row n d s.u0 s.u1 = n' at *
      generalize row n d s.v0 s.v1 = d' at *
      have hp : (2 : ℤ) ^ (64 * L - 31) ≤ 2 ^ (64 * L - 1) := pow_le_pow_right₀ (by norm_num) (by omega)
      have nat31 : ∀ {x : List ℕ} {v : ℤ}, (val x : ℤ) = v → |v| < 2 ^ (64 * L - 31) → val x < 2 ^ (64 * L - 31) := by
        intro x v e hv
        have := (abs_lt.mp hv).2
        rw [← e] at this
        exact_mod_cast this
      by_cases hz : n' = lZero L
      · rw [if_pos hz]
        have hA : A = 0 := by
          rw [hz] at rA
          exact rA.functional hL code_zero
        subst hA
        have hB : 0 < B := by omega
        have e : (d' == lOne L) = decide (B = 1) := by
          by_cases hB1 : B = 1
          · subst hB1
            have : d' = lOne L := rB.inj hL (code_one hL)
            simp [this]
          · have : d' ≠ lOne L := by
              intro he
              rw [he] at rB
              exact hB1 (rB.functional hL (code_one hL))
            simp [this, hB1]
        rw [answer_eq, e, ← sym, js_zero hB]
        congr 1
        by_cases hB1 : B = 1 <;> simp [hB1]
      · rw [if_neg hz]
        have hA0 : A ≠ 0 := by
          intro hA
          subst hA
          exact hz (rA.inj hL code_zero)
        have hmu' := hmu hA0
        rw [isNeg_spec hL rA, isNeg_spec hL rB]
        by_cases nA : A < 0
        · have hB : 0 < B := by omega
          simp only [nA, decide_true, if_true]
          have rN := rA.neg (by omega)
          have vN : (val (lNeg n') : ℤ) = -A := by
            rcases rN.cases hL with ⟨_, e⟩ | ⟨hc, _⟩
            · exact e
            · omega
          have vD : (val d' : ℤ) = B := by
            rcases rB.cases hL with ⟨_, e⟩ | ⟨hc, _⟩
            · exact e
            · omega
          have hargs : Args L (lNeg n') d' :=
            ⟨rN.isL, rB.isL, nat31 vN (by rw [abs_neg]; exact bA), nat31 vD bB, by omega⟩
          rw [ih _ _ _ hargs]
          · rw [vN, vD, sg_xor, ← sym]
            congr 1
            have := js_neg (b := d'.headD 0) (-A) oB hB (headD_spec hL rB)
            rw [neg_neg] at this
            rw [this]; ring
          · have e1 : val (lNeg n') = A.natAbs := by omega
            have e2 : val d' = B.natAbs := by omega
            rw [e1, e2]; omega
        · have pA : 0 < A := by omega
          simp only [nA, decide_false, Bool.false_eq_true, if_false]
          have vN : (val n' : ℤ) = A := by
            rcases rA.cases hL with ⟨_, e⟩ | ⟨hc, _⟩
            · exact e
            · omega
          by_cases nB : B < 0
          · simp only [nB, decide_true, if_true]
            have rD := rB.neg (by omega)
            have vD : (val (lNeg d') : ℤ) = -B := by
              rcases rD.cases hL with ⟨_, e⟩ | ⟨hc, _⟩
              · exact e
              · omega
            have hargs : Args L n' (lNeg d') :=
              ⟨rA.isL, rD.isL, nat31 vN bA, nat31 vD (by rw [abs_neg]; exact bB), by omega⟩
            rw [ih _ _ _ hargs]
            · rw [vN, vD, js_abs_right, sym]
            · have e1 : val n' = A.natAbs := by omega
              have e2 : val (lNeg d') = B.natAbs := by omega
              rw [e1, e2]; omega
          · simp only [nB, decide_false, Bool.false_eq_true, if_false]
            have vD : (val d' : ℤ) = B := by
              rcases rB.cases hL with ⟨_, e⟩ | ⟨hc, _⟩
              · exact e
              · omega
            have hargs : Args L n' d' := ⟨rA.isL, rB.isL, nat31 vN bA, nat31 vD bB, by omega⟩
            rw [ih _ _ _ hargs]
            · rw [vN, vD, sym]
            · have e1 : val n' = A.natAbs := by omega
              have e2 : val d' = B.natAbs := by omega
              rw [e1, e2]; omega

theorem mu_decreases {L : ℕ} (hL : 0 < L) :
    Decreases L fun n d => 2 ^ (64 * L) * max n d + min n d := by
  intro n d a b t h hap s hs A B rA rB hA0
  obtain ⟨A', B', rA', rB', -, -, -, -, -, hmu⟩ := round_spec hL h hap hs
  have eA := rA.functional hL rA'
  have eB := rB.functional hL rB'
  subst eA eB
  exact hmu hA0

theorem jacobiLoop_spec {L : ℕ} (hL : 0 < L) (fuel : ℕ) (n d : List ℕ) (t : ℕ) (h : Args L n d)
    (hf : mu L n d < fuel) : jacobiLoop L fuel n d t = some (sg t * js (val n) (val d)) :=
  jacobiLoop_measure hL (mu_decreases hL) fuel n d t h hf

theorem lNew_spec {L : ℕ} {x : List ℕ} (hl : x.length ≤ L) (hx : Wf x) :
    ∃ y, lNew L x = some y ∧ IsL L y ∧ val y = val x := by
  refine ⟨x ++ List.replicate (L - x.length) 0, by rw [lNew, if_pos hl], ⟨by simp; omega, ?_⟩, ?_⟩
  · rw [Wf_append]; exact ⟨hx, Wf_replicate _⟩
  · rw [val_append, val_replicate]; simp

/-- `jacobi` returns the Jacobi symbol of its arguments. -/
theorem jacobi_spec {L : ℕ} (hL : 0 < L) {n d : List ℕ} (hn : Wf n) (hd : Wf d)
    (ln : n.length ≤ L) (ld : d.length ≤ L) (nb : val n < 2 ^ (64 * L - 31))
    (db : val d < 2 ^ (64 * L - 31)) (odd : val d % 2 = 1) :
    jacobi L n d = some (jacobiSym (val n) (val d)) := by
  obtain ⟨n', en, hn', vn⟩ := lNew_spec ln hn
  obtain ⟨d', ed, hd', vd⟩ := lNew_spec ld hd
  unfold jacobi
  rw [en, ed]
  dsimp only
  rw [jacobiLoop_spec hL _ n' d' 0 ⟨hn', hd', by rw [vn]; exact nb, by rw [vd]; exact db, by rw [vd]; exact odd⟩,
    sg_zero, one_mul, vn, vd]
  · rfl
  · unfold mu
    rw [vn, vd]
    have e : 2 ^ (128 * L) = 2 ^ (64 * L) * 2 ^ (64 * L) := by rw [← pow_add]; congr 1; omega
    have h1 : max (val n) (val d) + 1 ≤ 2 ^ (64 * L) := by
      have := max_lt nb db
      exact lt_of_lt_of_le this (Nat.pow_le_pow_right (by decide) (by omega))
    have h2 := Nat.mul_le_mul_left (2 ^ (64 * L)) h1
    rw [Nat.mul_add, mul_one] at h2
    rw [e]
    omega

end Halo2.Jacobi
