import Verif.Fft.Model
import Verif.Inverse.Checked

/-!
# `best_fft` in a build with overflow checks

The functions of `Verif/Fft/Model.lean` with the checks of every `+`, `*` and `<<` on `usize`; `none` is a panic (or a recursion
without end). A left shift checks only its amount.
-/

set_option linter.unusedSectionVars false

namespace Halo2.Fft

open Halo2.Msm Halo2.Checked

variable {K G : Type} [CommRing K] (ops : Ops K G)

/-- Models src/fft.rs:76-85 and 118-127 with overflow checks. -/
def bfLoopC (tw : List K) (tc : ℕ) : ℕ → List G → List G → Option (List G × List G)
  | i, a :: left, b :: right => do
    let i1 ← fitsU 64 (i + 1)
    let j ← fitsU 64 (i1 * tc)
    let w ← tw[j]?
    let t := ops.smul b w
    let r ← bfLoopC tw tc i1 left right
    some (ops.add a t :: r.1, ops.sub a t :: r.2)
  | _, left, right => some (left, right)

/-- Models src/fft.rs:66-85 and 107-127 with overflow checks. -/
def butterflyC (tw : List K) (tc : ℕ) (left right : List G) : Option (List G) :=
  match left, right with
  | a :: left, b :: right => do
    let r ← bfLoopC ops tw tc 0 left right
    some ((ops.add a b :: r.1) ++ (ops.sub a b :: r.2))
  | _, _ => none

/-- Models src/fft.rs:96-133 (`recursive_butterfly_arithmetic`) with overflow checks. -/
def recBfC (tw : List K) : ℕ → List G → ℕ → ℕ → Option (List G)
  | 0, _, _, _ => none
  | fuel + 1, a, n, tc =>
    if n = 2 then pairStep ops a
    else if a.length < n / 2 then none
    else do
      let tc2 ← fitsU 64 (tc * 2)
      let left ← recBfC tw fuel (a.take (n / 2)) (n / 2) tc2
      let right ← recBfC tw fuel (a.drop (n / 2)) (n / 2) tc2
      butterflyC ops tw tc left right

/-- Models src/fft.rs:65-86 with overflow checks. -/
def chunkStepC (tw : List K) (chunk tc : ℕ) (coeffs : List G) : Option (List G) :=
  if coeffs.length < chunk / 2 then none
  else butterflyC ops tw tc (coeffs.take (chunk / 2)) (coeffs.drop (chunk / 2))

/-- Models src/fft.rs:64-89 with overflow checks. -/
def roundStepC (tw : List K) (s : List G × ℕ × ℕ) : Option (List G × ℕ × ℕ) := do
  let cs ← (chunks s.2.1 s.1).mapM (chunkStepC ops tw s.2.1 s.2.2)
  let chunk ← fitsU 64 (s.2.1 * 2)
  some (cs.flatten, chunk, s.2.2 / 2)

/-- Models src/fft.rs:30-93 (`best_fft`) with overflow checks. -/
def bestFftC (threads : ℕ) (a : List G) (omega : K) (logN : ℕ) : Option (List G) := do
  shiftOk 64 logN
  if a.length ≠ 1 <<< logN then none
  else
    let a ← (List.range a.length).foldlM (reorderStep logN) a
    let tw := twiddles omega (a.length / 2)
    if logN ≤ Nat.log2 threads then
      let s ← (List.range logN).foldlM (fun s _ => roundStepC ops tw s) (a, 2, a.length / 2)
      some s.1
    else recBfC ops tw a.length a a.length 1

theorem bfLoopC_eq (tw : List K) (htw : tw.length ≤ 2 ^ 64) (tc i : ℕ) (left right : List G) (hi : i + left.length < 2 ^ 64) :
    bfLoopC ops tw tc i left right = bfLoop ops tw tc i left right := by
  induction left generalizing i right with
  | nil => rw [bfLoopC, bfLoop] <;> exact fun _ _ _ _ h => nomatch h
  | cons a left ih =>
    cases right with
    | nil => rw [bfLoopC, bfLoop] <;> exact fun _ _ _ _ _ h => nomatch h
    | cons b right =>
      rw [List.length_cons] at hi
      rw [bfLoopC, bfLoop, fitsU_some (by omega)]
      simp only [Option.bind_eq_bind, Option.bind_some]
      by_cases hj : (i + 1) * tc < 2 ^ 64
      · rw [fitsU_some hj, ih (i + 1) right (by omega)]
        simp only [Option.bind_some]
        cases tw[(i + 1) * tc]? with
        | none => rfl
        | some w =>
          simp only [Option.bind_some]
          cases bfLoop ops tw tc (i + 1) left right <;> rfl
      · rw [fitsU, if_neg hj, List.getElem?_eq_none (htw.trans (not_lt.mp hj))]
        rfl

theorem butterflyC_eq (tw : List K) (htw : tw.length ≤ 2 ^ 64) (tc : ℕ) (left right : List G) (hl : left.length ≤ 2 ^ 64) :
    butterflyC ops tw tc left right = butterfly ops tw tc left right := by
  cases left with
  | nil => rfl
  | cons a left =>
    cases right with
    | nil => rfl
    | cons b right =>
      rw [List.length_cons] at hl
      rw [butterflyC, butterfly, bfLoopC_eq ops tw htw tc 0 left right (by omega)]
      cases bfLoop ops tw tc 0 left right <;> rfl

theorem bfLoop_length (tw : List K) (tc i : ℕ) (left right : List G) (r : List G × List G) (h : bfLoop ops tw tc i left right = some r) :
    r.1.length = left.length ∧ r.2.length = right.length := by
  induction left generalizing i right r with
  | nil =>
    rw [bfLoop] at h
    · rw [← Option.some.inj h]; exact ⟨rfl, rfl⟩
    · exact fun _ _ _ _ h => nomatch h
  | cons a left ih =>
    cases right with
    | nil =>
      rw [bfLoop] at h
      · rw [← Option.some.inj h]; exact ⟨rfl, rfl⟩
      · exact fun _ _ _ _ _ h => nomatch h
    | cons b right =>
      rw [bfLoop] at h
      cases hw : tw[(i + 1) * tc]? with
      | none => rw [hw] at h; cases h
      | some w =>
        rw [hw] at h
        dsimp only at h
        cases hr : bfLoop ops tw tc (i + 1) left right with
        | none => rw [hr] at h; cases h
        | some r' =>
          rw [hr] at h
          obtain ⟨h1, h2⟩ := ih (i + 1) right r' hr
          rw [← Option.some.inj h]
          exact ⟨congrArg (· + 1) h1, congrArg (· + 1) h2⟩

theorem butterfly_length (tw : List K) (tc : ℕ) (left right r : List G) (h : butterfly ops tw tc left right = some r) :
    r.length = left.length + right.length := by
  cases left with
  | nil => cases h
  | cons a left =>
    cases right with
    | nil => cases h
    | cons b right =>
      rw [butterfly] at h
      cases hr : bfLoop ops tw tc 0 left right with
      | none => rw [hr] at h; cases h
      | some r' =>
        rw [hr] at h
        obtain ⟨h1, h2⟩ := bfLoop_length ops tw tc 0 left right r' hr
        rw [← Option.some.inj h]
        simp only [List.length_append, List.length_cons]
        omega

theorem recBf_length (tw : List K) (fuel : ℕ) (a : List G) (n tc : ℕ) (r : List G) (h : recBf ops tw fuel a n tc = some r) :
    r.length = a.length := by
  induction fuel generalizing a n tc r with
  | zero => cases h
  | succ fuel ih =>
    rw [recBf] at h
    split at h
    · match a, h with
      | a0 :: a1 :: rest, h => rw [pairStep] at h; rw [← Option.some.inj h]; rfl
    · split at h
      · cases h
      · split at h
        · rename_i h1 h2
          have l1 := ih _ _ _ _ h1
          have l2 := ih _ _ _ _ h2
          rw [butterfly_length ops tw tc _ _ r h, l1, l2, List.length_take, List.length_drop]
          omega
        · cases h

/-- For `n ≤ 1` the recursion does not end. -/
theorem recBf_small (tw : List K) (fuel : ℕ) (a : List G) (n tc : ℕ) (hn : n ≤ 1) : recBf ops tw fuel a n tc = none := by
  induction fuel generalizing a n tc with
  | zero => rfl
  | succ fuel ih =>
    rw [recBf, if_neg (by omega)]
    split
    · rfl
    · rw [ih _ _ _ (by omega)]

theorem recBfC_small (tw : List K) (fuel : ℕ) (a : List G) (n tc : ℕ) (hn : n ≤ 1) : recBfC ops tw fuel a n tc = none := by
  induction fuel generalizing a n tc with
  | zero => rfl
  | succ fuel ih =>
    rw [recBfC, if_neg (by omega)]
    split
    · rfl
    · cases fitsU 64 (tc * 2) with
      | none => rfl
      | some t => simp only [Option.bind_eq_bind, Option.bind_some]; rw [ih _ _ _ (by omega)]; rfl

theorem recBfC_eq (tw : List K) (htw : tw.length ≤ 2 ^ 64) (fuel : ℕ) (a : List G) (n tc : ℕ) (ha : a.length ≤ 2 ^ 64) (hn : n * tc < 2 ^ 64) :
    recBfC ops tw fuel a n tc = recBf ops tw fuel a n tc := by
  induction fuel generalizing a n tc with
  | zero => rfl
  | succ fuel ih =>
    by_cases h1 : n ≤ 1
    · rw [recBf_small ops tw _ a n tc h1, recBfC_small ops tw _ a n tc h1]
    rw [recBfC, recBf]
    by_cases h2 : n = 2
    · rw [if_pos h2, if_pos h2]
    rw [if_neg h2, if_neg h2]
    by_cases h3 : a.length < n / 2
    · rw [if_pos h3, if_pos h3]
    rw [if_neg h3, if_neg h3]
    have ht : tc * 2 ≤ n * tc := by rw [mul_comm n]; exact Nat.mul_le_mul_left _ (by omega)
    have hh : n / 2 * (tc * 2) ≤ n * tc := by
      calc n / 2 * (tc * 2) = (n / 2 * 2) * tc := by ring
        _ ≤ n * tc := Nat.mul_le_mul_right _ (Nat.div_mul_le_self n 2)
    rw [fitsU_some (by omega)]
    simp only [Option.bind_eq_bind, Option.bind_some]
    rw [ih _ _ _ (by rw [List.length_take]; omega) (by omega), ih _ _ _ (by rw [List.length_drop]; omega) (by omega)]
    cases e1 : recBf ops tw fuel (a.take (n / 2)) (n / 2) (tc * 2) with
    | none => rfl
    | some left =>
      cases e2 : recBf ops tw fuel (a.drop (n / 2)) (n / 2) (tc * 2) with
      | none => rfl
      | some right =>
        have := recBf_length ops tw _ _ _ _ _ e1
        rw [List.length_take] at this
        exact butterflyC_eq ops tw htw tc left right (by omega)

theorem roundStepC_eq (tw : List K) (htw : tw.length ≤ 2 ^ 64) (s : List G × ℕ × ℕ) (hc : s.2.1 * 2 < 2 ^ 64) :
    roundStepC ops tw s = roundStep ops tw s := by
  have hstep : chunkStepC ops tw s.2.1 s.2.2 = chunkStep ops tw s.2.1 s.2.2 := by
    funext cs
    rw [chunkStepC, chunkStep, butterflyC_eq ops tw htw _ _ _ (by rw [List.length_take]; omega)]
  rw [roundStepC, roundStep, hstep, fitsU_some hc]
  simp only [Option.bind_eq_bind, Option.bind_some]
  cases (chunks s.2.1 s.1).mapM (chunkStep ops tw s.2.1 s.2.2) <;> rfl

theorem rounds_eq (tw : List K) (htw : tw.length ≤ 2 ^ 64) (l : List ℕ) (s : List G × ℕ × ℕ) (hc : s.2.1 * 2 ^ l.length < 2 ^ 64) :
    l.foldlM (fun s _ => roundStepC ops tw s) s = l.foldlM (fun s _ => roundStep ops tw s) s := by
  induction l generalizing s with
  | nil => rfl
  | cons x l ih =>
    rw [List.length_cons, pow_succ] at hc
    have hp : 1 ≤ 2 ^ l.length := Nat.one_le_two_pow
    have hc1 : s.2.1 * 2 < 2 ^ 64 := lt_of_le_of_lt (Nat.mul_le_mul_left _ (by omega)) hc
    rw [List.foldlM_cons, List.foldlM_cons, roundStepC_eq ops tw htw s hc1]
    cases e : roundStep ops tw s with
    | none => rfl
    | some s' =>
      refine ih s' ?_
      have : s'.2.1 = s.2.1 * 2 := by
        rw [roundStep] at e
        split at e
        · cases e
        · rw [← Option.some.inj e]
      rw [this]
      calc s.2.1 * 2 * 2 ^ l.length = s.2.1 * (2 ^ l.length * 2) := by ring
        _ < 2 ^ 64 := hc

theorem twiddles_length (omega : K) (m : ℕ) : (twiddles omega m).length = m := by
  have h : ∀ (l : List ℕ) (s : List K × K),
      (l.foldl (fun (s : List K × K) _ => (s.1 ++ [s.2], s.2 * omega)) s).1.length = s.1.length + l.length := by
    intro l
    induction l with
    | nil => intro s; rfl
    | cons x l ih => intro s; rw [List.foldl_cons, ih, List.length_append, List.length_cons, List.length_cons, List.length_nil]; omega
  rw [twiddles, h, List.length_range, List.length_nil, zero_add]

theorem reorder_length (logN : ℕ) (l : List ℕ) (a b : List G) (h : l.foldlM (reorderStep logN) a = some b) : b.length = a.length := by
  induction l generalizing a with
  | nil => rw [← Option.some.inj h]
  | cons k l ih =>
    rw [List.foldlM_cons] at h
    cases e : reorderStep logN a k with
    | none => rw [e] at h; cases h
    | some a' =>
      rw [e] at h
      rw [ih a' h]
      rw [reorderStep] at e
      split at e
      · rw [swap] at e
        split at e
        · rw [← Option.some.inj e, List.length_set, List.length_set]
        · cases e
      · rw [← Option.some.inj e]

theorem bestFftC_eq (threads : ℕ) (a : List G) (omega : K) (logN : ℕ) (ha : a.length < 2 ^ 63) :
    bestFftC ops threads a omega logN = bestFft ops true threads a omega logN := by
  rw [bestFftC, bestFft]
  by_cases h64 : 64 ≤ logN
  · have hd : (true && decide (64 ≤ logN)) = true := by rw [decide_eq_true h64]; rfl
    rw [if_pos hd, shiftOk, if_neg (show ¬ logN < 64 by omega)]
    rfl
  have hd : ¬ (true && decide (64 ≤ logN)) = true := by rw [decide_eq_false h64]; exact Bool.false_ne_true
  rw [if_neg hd, shiftOk_some (by omega), Nat.mod_eq_of_lt (by omega)]
  simp only [Option.bind_eq_bind, Option.bind_some]
  by_cases hl : a.length ≠ 1 <<< logN
  · rw [if_pos hl, if_pos hl]
  rw [if_neg hl, if_neg hl]
  cases e : (List.range a.length).foldlM (reorderStep logN) a with
  | none => rfl
  | some b =>
    have hb := reorder_length logN _ a b e
    have htw : (twiddles omega (b.length / 2)).length ≤ 2 ^ 64 := by rw [twiddles_length]; omega
    have hl2 : b.length = 2 ^ logN := by rw [hb, not_not.mp hl, Nat.shiftLeft_eq, one_mul]
    simp only [Option.bind_some]
    by_cases ht : logN ≤ Nat.log2 threads
    · rw [if_pos ht, if_pos ht, rounds_eq ops _ htw]
      · cases (List.range logN).foldlM (fun s _ => roundStep ops (twiddles omega (b.length / 2)) s) (b, 2, b.length / 2) <;> rfl
      · rw [List.length_range]
        change 2 * 2 ^ logN < 2 ^ 64
        omega
    · rw [if_neg ht, if_neg ht]
      exact recBfC_eq ops _ htw _ _ _ _ (by omega) (by omega)

end Halo2.Fft
