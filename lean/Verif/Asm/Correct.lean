import Verif.Asm.Mul

/-!
# The assembly functions compute the field operations
-/

namespace Halo2.Asm

open Halo2

variable {m0 m1 m2 m3 a0 a1 a2 a3 b0 b1 b2 b3 inv : ℕ} {junk : State → ℕ}

theorem val4 (x0 x1 x2 x3 : ℕ) : val [x0, x1, x2, x3] = quad x0 x1 x2 x3 := rfl

theorem wf4 {x0 x1 x2 x3 : ℕ} : Wf [x0, x1, x2, x3] ↔ x0 < W ∧ x1 < W ∧ x2 < W ∧ x3 < W := by
  simp only [Wf_cons, Wf_nil, and_true]

theorem exists4 {l : List ℕ} (h : l.length = 4) : ∃ x0 x1 x2 x3, l = [x0, x1, x2, x3] := by
  match l, h with
  | [x0, x1, x2, x3], _ => exact ⟨x0, x1, x2, x3, rfl⟩

/-! ### Multiplication -/

theorem row_bound {t A b M : ℕ} (ht : t < 2 * M) (hA : A < M) (hb : b < W) : t + A * b < (W + 1) * M := by
  have h1 : A * b ≤ M * (W - 1) := Nat.mul_le_mul hA.le (by omega)
  have h2 : M * (W - 1) + M = M * W := by rw [← Nat.mul_succ]; rfl
  have h3 : (W + 1) * M = M * W + M := by ring
  omega

theorem row_carry {T q x c M : ℕ} (e : q + W ^ 4 * x + W ^ 5 * c = T) (hT : T < (W + 1) * M) (hM : 2 * M < W ^ 4) : c = 0 := by
  have h1 : (W + 1) * M < W ^ 5 := by
    have : (W + 1) * M ≤ W * (2 * M) := by
      have : 1 * M ≤ W * M := Nat.mul_le_mul_right _ (by decide)
      nlinarith
    calc (W + 1) * M ≤ W * (2 * M) := this
      _ < W * W ^ 4 := Nat.mul_lt_mul_of_pos_left hM W_pos
      _ = W ^ 5 := by ring
  have h2 : W ^ 5 * c < W ^ 5 * 1 := by omega
  have := Nat.lt_of_mul_lt_mul_left h2
  omega

theorem red_carry {T q c k M : ℕ} (e : T + k * M = W * (q + W ^ 4 * c)) (hT : T < (W + 1) * M) (hk : k < W)
    (hM : 2 * M < W ^ 4) : c = 0 ∧ q < 2 * M := by
  have h0 : k * M + M ≤ W * M := by rw [← Nat.succ_mul]; exact Nat.mul_le_mul_right _ hk
  have h1 : W * (q + W ^ 4 * c) < W * (2 * M) := by
    rw [← e]
    have : (W + 1) * M = W * M + M := by ring
    have : W * (2 * M) = W * M + W * M := by ring
    omega
  have h2 := Nat.lt_of_mul_lt_mul_left h1
  have h3 : W ^ 4 * c < W ^ 4 * 1 := by omega
  have := Nat.lt_of_mul_lt_mul_left h3
  have hc : c = 0 := by omega
  subst hc
  exact ⟨rfl, by omega⟩

set_option maxRecDepth 10000 in
theorem mulProg_eq : mulProg = row0 ++ (red ++ (row 1 ++ (red ++ (row 2 ++ (red ++ (row 3 ++ (red ++ fin))))))) := rfl

theorem mul_spec (hm : Wf [m0, m1, m2, m3]) (hinv : IsInv [m0, m1, m2, m3] inv)
    (hM : 2 * val [m0, m1, m2, m3] < W ^ 4) (ha : Canon [m0, m1, m2, m3] [a0, a1, a2, a3]) (hb : Wf [b0, b1, b2, b3])
    (s : State) :
    let r := mul junk s [m0, m1, m2, m3] inv [a0, a1, a2, a3] [b0, b1, b2, b3]
    Canon [m0, m1, m2, m3] r ∧
      W ^ 4 * val r ≡ val [a0, a1, a2, a3] * val [b0, b1, b2, b3] [MOD val [m0, m1, m2, m3]] := by
  obtain ⟨hm0, hm1, hm2, hm3⟩ := wf4.mp hm
  obtain ⟨ha0, ha1, ha2, ha3⟩ := wf4.mp ha.wf
  obtain ⟨hb0, hb1, hb2, hb3⟩ := wf4.mp hb
  have hA := ha.lt
  rw [val4, val4] at hA
  rw [val4] at hM
  simp only [mul, mulProg_eq, run_append]
  have key : ∀ {P : State → Prop} (X : State), P X → ∃ Y, Y = X ∧ P Y := fun X h => ⟨X, rfl, h⟩
  obtain ⟨s1, es1, h1⟩ := key _ (row0_spec (b1 := b1) (b2 := b2) (b3 := b3) (inv := inv) (junk := junk) ha0 ha1 ha2 ha3 hb0 s
    [m0, m1, m2, m3])
  rw [← es1]
  obtain ⟨d11, d12, d13, d14, d15, c1, e1⟩ := h1
  have t1 : quad a0 a1 a2 a3 * b0 < (W + 1) * quad m0 m1 m2 m3 := by
    have := row_bound (t := 0) (by omega) hA hb0
    rwa [Nat.zero_add] at this
  have z1 := row_carry e1 t1 hM
  subst z1
  rw [mul_zero, add_zero] at e1
  rw [← e1] at t1
  obtain ⟨s2, es2, h2⟩ := key _ (red_spec (junk := junk) hm0 hm1 hm2 hm3 hinv s1 d11 d12 d13 d14 d15
    [a0, a1, a2, a3] [b0, b1, b2, b3])
  rw [← es2]
  obtain ⟨d21, d22, d23, d24, k2, hk2, c2, e2⟩ := h2
  obtain ⟨z2, l2⟩ := red_carry e2 t1 hk2 hM
  subst z2
  rw [e1, mul_zero, add_zero] at e2
  obtain ⟨s3, es3, h3⟩ := key _ (row_spec (inv := inv) (junk := junk) ha0 ha1 ha2 ha3 [b0, b1, b2, b3] 1 hb1 s2 d21 d22 d23 d24
    [m0, m1, m2, m3])
  rw [← es3]
  obtain ⟨d31, d32, d33, d34, d35, c3, e3⟩ := h3
  rw [getD4_1] at e3
  have t3 : quad s2.r11 s2.r13 s2.rax s2.r14 + quad a0 a1 a2 a3 * b1 < (W + 1) * quad m0 m1 m2 m3 := by
    exact row_bound l2 hA hb1
  have z3 := row_carry e3 t3 hM
  subst z3
  rw [mul_zero, add_zero] at e3
  rw [← e3] at t3
  obtain ⟨s4, es4, h4⟩ := key _ (red_spec (junk := junk) hm0 hm1 hm2 hm3 hinv s3 d31 d32 d33 d34 d35
    [a0, a1, a2, a3] [b0, b1, b2, b3])
  rw [← es4]
  obtain ⟨d41, d42, d43, d44, k4, hk4, c4, e4⟩ := h4
  obtain ⟨z4, l4⟩ := red_carry e4 t3 hk4 hM
  subst z4
  rw [e3, mul_zero, add_zero] at e4
  obtain ⟨s5, es5, h5⟩ := key _ (row_spec (inv := inv) (junk := junk) ha0 ha1 ha2 ha3 [b0, b1, b2, b3] 2 hb2 s4 d41 d42 d43 d44
    [m0, m1, m2, m3])
  rw [← es5]
  obtain ⟨d51, d52, d53, d54, d55, c5, e5⟩ := h5
  rw [getD4_2] at e5
  have t5 : quad s4.r11 s4.r13 s4.rax s4.r14 + quad a0 a1 a2 a3 * b2 < (W + 1) * quad m0 m1 m2 m3 := by
    exact row_bound l4 hA hb2
  have z5 := row_carry e5 t5 hM
  subst z5
  rw [mul_zero, add_zero] at e5
  rw [← e5] at t5
  obtain ⟨s6, es6, h6⟩ := key _ (red_spec (junk := junk) hm0 hm1 hm2 hm3 hinv s5 d51 d52 d53 d54 d55
    [a0, a1, a2, a3] [b0, b1, b2, b3])
  rw [← es6]
  obtain ⟨d61, d62, d63, d64, k6, hk6, c6, e6⟩ := h6
  obtain ⟨z6, l6⟩ := red_carry e6 t5 hk6 hM
  subst z6
  rw [e5, mul_zero, add_zero] at e6
  obtain ⟨s7, es7, h7⟩ := key _ (row_spec (inv := inv) (junk := junk) ha0 ha1 ha2 ha3 [b0, b1, b2, b3] 3 hb3 s6 d61 d62 d63 d64
    [m0, m1, m2, m3])
  rw [← es7]
  obtain ⟨d71, d72, d73, d74, d75, c7, e7⟩ := h7
  rw [getD4_3] at e7
  have t7 : quad s6.r11 s6.r13 s6.rax s6.r14 + quad a0 a1 a2 a3 * b3 < (W + 1) * quad m0 m1 m2 m3 := by
    exact row_bound l6 hA hb3
  have z7 := row_carry e7 t7 hM
  subst z7
  rw [mul_zero, add_zero] at e7
  rw [← e7] at t7
  obtain ⟨s8, es8, h8⟩ := key _ (red_spec (junk := junk) hm0 hm1 hm2 hm3 hinv s7 d71 d72 d73 d74 d75
    [a0, a1, a2, a3] [b0, b1, b2, b3])
  rw [← es8]
  obtain ⟨d81, d82, d83, d84, k8, hk8, c8, e8⟩ := h8
  obtain ⟨z8, l8⟩ := red_carry e8 t7 hk8 hM
  subst z8
  rw [e7, mul_zero, add_zero] at e8
  obtain ⟨s9, es9, h9⟩ := key _ (fin_spec (inv := inv) (junk := junk) hm0 hm1 hm2 hm3 s8 d81 d82 d83 d84
    [a0, a1, a2, a3] [b0, b1, b2, b3])
  rw [← es9]
  obtain ⟨d91, d92, d93, d94, h9⟩ := h9
  have hfin : W ^ 4 * quad s8.r11 s8.r13 s8.rax s8.r14 =
      quad a0 a1 a2 a3 * quad b0 b1 b2 b3 + (k2 + W * k4 + W ^ 2 * k6 + W ^ 3 * k8) * quad m0 m1 m2 m3 := by
    have hB : quad b0 b1 b2 b3 = b0 + W * b1 + W ^ 2 * b2 + W ^ 3 * b3 := by rw [quad]; ring
    rw [hB]
    linear_combination -e2 - W * e4 - W ^ 2 * e6 - W ^ 3 * e8
  have hmod : W ^ 4 * quad s8.r11 s8.r13 s8.rax s8.r14 ≡ quad a0 a1 a2 a3 * quad b0 b1 b2 b3 [MOD quad m0 m1 m2 m3] := by
    rw [hfin]
    exact ((Nat.modEq_iff_dvd' (by omega)).mpr (by simp)).symm
  refine ⟨⟨rfl, wf4.mpr ⟨d91, d92, d93, d94⟩, ?_⟩, ?_⟩
  · rw [val4, val4]
    rcases h9 with ⟨e, h⟩ | e <;> omega
  · rw [val4, val4, val4, val4]
    rcases h9 with ⟨e, h⟩ | e
    · rw [e]; exact hmod
    · refine Nat.ModEq.trans ?_ hmod
      rw [← e, mul_add]
      exact (Nat.modEq_iff_dvd' (by omega)).mpr (by simp)

/-! ### Leaving Montgomery form -/

theorem fm_carry {T q c k M : ℕ} (e : T + k * M = W * (q + W ^ 4 * c)) (hT : T < W ^ 4) (hk : k < W)
    (hM : 2 * M < W ^ 4) : c = 0 := by
  have h0 : k * M ≤ W * M := Nat.mul_le_mul_right _ hk.le
  have h1 : W * (q + W ^ 4 * c) < W * (W ^ 3 + M) := by
    rw [← e]
    have : W * (W ^ 3 + M) = W ^ 4 + W * M := by ring
    omega
  have h2 := Nat.lt_of_mul_lt_mul_left h1
  have h3 : W ^ 3 + W ^ 3 ≤ W ^ 4 := by decide
  have h4 : W ^ 4 * c < W ^ 4 * 1 := by omega
  have := Nat.lt_of_mul_lt_mul_left h4
  omega

/-- derive/src/field/asm/limb4.rs:77-82. -/
def fmInit : List Instr :=
  [.mov .r8 (.mem .a 0), .mov .r9 (.mem .a 1), .mov .r10 (.mem .a 2), .mov .r11 (.mem .a 3), .mov .r15 .inv, .xor .r12
   (.reg .r12)]

theorem fromMontProg_eq : fromMontProg = fmInit ++ (fm0 ++ (fm1 ++ (fm2 ++ fm3))) := rfl

theorem fromMont_raw (hm : Wf [m0, m1, m2, m3]) (hinv : IsInv [m0, m1, m2, m3] inv) (hi : inv < W)
    (hM : 2 * val [m0, m1, m2, m3] < W ^ 4) (ha : Wf [a0, a1, a2, a3]) (s : State) :
    let r := fromMont junk s [m0, m1, m2, m3] inv [a0, a1, a2, a3]
    r.length = 4 ∧ Wf r ∧ ∃ k < W ^ 4, W ^ 4 * val r = val [a0, a1, a2, a3] + k * val [m0, m1, m2, m3] := by
  obtain ⟨hm0, hm1, hm2, hm3⟩ := wf4.mp hm
  obtain ⟨ha0, ha1, ha2, ha3⟩ := wf4.mp ha
  rw [val4] at hM
  simp only [fromMont, fromMontProg_eq, run_append]
  have key : ∀ {P : State → Prop} (X : State), P X → ∃ Y, Y = X ∧ P Y := fun X h => ⟨X, rfl, h⟩
  have h0 : ∃ t : State, t = run (env [m0, m1, m2, m3] [a0, a1, a2, a3] [] inv junk) fmInit s ∧ t.r8 = a0 ∧ t.r9 = a1 ∧
      t.r10 = a2 ∧ t.r11 = a3 ∧ t.r12 = 0 ∧ t.r15 = inv ∧ t.cf = 0 ∧ t.of = 0 :=
    ⟨_, rfl, rfl, rfl, rfl, rfl, Nat.xor_self _, rfl, rfl, rfl⟩
  obtain ⟨s0, es0, f1, f2, f3, f4, g05, g06, g07, g08⟩ := h0
  have g01 : s0.r8 < W := by rw [f1]; exact ha0
  have g02 : s0.r9 < W := by rw [f2]; exact ha1
  have g03 : s0.r10 < W := by rw [f3]; exact ha2
  have g04 : s0.r11 < W := by rw [f4]; exact ha3
  rw [← es0]
  obtain ⟨s1, es1, h1⟩ := key _ (fm0_spec (junk := junk) hm0 hm1 hm2 hm3 hinv hi s0 g01 g02 g03 g04 g05 g06 g07 g08
    [a0, a1, a2, a3] [])
  rw [← es1]
  obtain ⟨g12, g13, g14, g11, g15, g16, x1, y1, k1, hk1, e1⟩ := h1
  have z1 := fm_carry e1 (quad_lt g01 g02 g03 g04) hk1 hM
  have g17 : s1.cf = 0 := by omega
  have g18 : s1.of = 0 := by omega
  rw [z1, mul_zero, add_zero] at e1
  obtain ⟨s2, es2, h2⟩ := key _ (fm1_spec (junk := junk) hm0 hm1 hm2 hm3 hinv hi s1 g11 g12 g13 g14 g15 g16 g17 g18
    [a0, a1, a2, a3] [])
  rw [← es2]
  obtain ⟨g23, g24, g21, g22, g25, g26, x2, y2, k2, hk2, e2⟩ := h2
  have z2 := fm_carry e2 (quad_lt g12 g13 g14 g11) hk2 hM
  have g27 : s2.cf = 0 := by omega
  have g28 : s2.of = 0 := by omega
  rw [z2, mul_zero, add_zero] at e2
  obtain ⟨s3, es3, h3⟩ := key _ (fm2_spec (junk := junk) hm0 hm1 hm2 hm3 hinv hi s2 g21 g22 g23 g24 g25 g26 g27 g28
    [a0, a1, a2, a3] [])
  rw [← es3]
  obtain ⟨g34, g31, g32, g33, g35, g36, x3, y3, k3, hk3, e3⟩ := h3
  have z3 := fm_carry e3 (quad_lt g23 g24 g21 g22) hk3 hM
  have g37 : s3.cf = 0 := by omega
  have g38 : s3.of = 0 := by omega
  rw [z3, mul_zero, add_zero] at e3
  obtain ⟨s4, es4, h4⟩ := key _ (fm3_spec (junk := junk) hm0 hm1 hm2 hm3 hinv hi s3 g31 g32 g33 g34 g35 g36 g37 g38
    [a0, a1, a2, a3] [])
  rw [← es4]
  obtain ⟨g41, g42, g43, g44, g45, g46, x4, y4, k4, hk4, e4⟩ := h4
  have z4 := fm_carry e4 (quad_lt g34 g31 g32 g33) hk4 hM
  have g47 : s4.cf = 0 := by omega
  have g48 : s4.of = 0 := by omega
  rw [z4, mul_zero, add_zero] at e4
  refine ⟨rfl, wf4.mpr ⟨g41, g42, g43, g44⟩, k1 + W * k2 + W ^ 2 * k3 + W ^ 3 * k4, ?_, ?_⟩
  · have := quad_lt hk1 hk2 hk3 hk4
    rw [quad] at this
    calc _ = k1 + W * (k2 + W * (k3 + W * k4)) := by ring
      _ < _ := this
  · rw [val4, val4, val4]
    rw [f1, f2, f3, f4] at e1
    linear_combination -e1 - W * e2 - W ^ 2 * e3 - W ^ 3 * e4

/-- On canonical elements `from_mont` divides by `R`. -/
theorem fromMont_spec (hm : Wf [m0, m1, m2, m3]) (hinv : IsInv [m0, m1, m2, m3] inv) (hi : inv < W)
    (hM : 2 * val [m0, m1, m2, m3] < W ^ 4) (ha : Canon [m0, m1, m2, m3] [a0, a1, a2, a3]) (s : State) :
    let r := fromMont junk s [m0, m1, m2, m3] inv [a0, a1, a2, a3]
    Canon [m0, m1, m2, m3] r ∧ W ^ 4 * val r ≡ val [a0, a1, a2, a3] [MOD val [m0, m1, m2, m3]] := by
  obtain ⟨h1, h2, k, hk, e⟩ := fromMont_raw (junk := junk) hm hinv hi hM ha.wf s
  have hlt := ha.lt
  refine ⟨⟨h1, h2, ?_⟩, ?_⟩
  · have h3 : k * val [m0, m1, m2, m3] + val [m0, m1, m2, m3] ≤ W ^ 4 * val [m0, m1, m2, m3] := by
      rw [← Nat.succ_mul]; exact Nat.mul_le_mul_right _ hk
    refine Nat.lt_of_mul_lt_mul_left (a := W ^ 4) ?_
    rw [e]
    omega
  · rw [e]
    exact ((Nat.modEq_iff_dvd' (by omega)).mpr (by simp)).symm

/-! ### Addition, doubling, subtraction, negation -/

/-- The result of an addition before and after the conditional subtraction. -/
def AddPost (T M : ℕ) (s : State) : Prop :=
  s.r12 < W ∧ s.r13 < W ∧ s.r14 < W ∧ s.r15 < W ∧
    ((quad s.r12 s.r13 s.r14 s.r15 = T ∧ T < M) ∨ quad s.r12 s.r13 s.r14 s.r15 + M = T)

theorem add_post (hm : Wf [m0, m1, m2, m3]) (ha : Wf [a0, a1, a2, a3]) (hb : Wf [b0, b1, b2, b3])
    (h : quad a0 a1 a2 a3 + quad b0 b1 b2 b3 < W ^ 4) (s : State) :
    AddPost (quad a0 a1 a2 a3 + quad b0 b1 b2 b3) (quad m0 m1 m2 m3)
      (run (env [m0, m1, m2, m3] [a0, a1, a2, a3] [b0, b1, b2, b3] 0 junk) addProg s) := by
  obtain ⟨hm0, hm1, hm2, hm3⟩ := wf4.mp hm
  obtain ⟨ha0, ha1, ha2, ha3⟩ := wf4.mp ha
  obtain ⟨hb0, hb1, hb2, hb3⟩ := wf4.mp hb
  rw [addProg]
  refine exec_mov ?_
  asm_simp
  refine exec_mov ?_
  asm_simp
  refine exec_mov ?_
  asm_simp
  refine exec_mov ?_
  asm_simp
  refine exec_add (by asm_side) (by asm_side) fun v4 c4 o4 z4 hv4 hc4 e4 => ?_
  asm_simp at e4 ⊢
  refine exec_adc (by asm_side) (by asm_side) (by asm_side) fun v5 c5 o5 z5 hv5 hc5 e5 => ?_
  asm_simp at e5 ⊢
  refine exec_adc (by asm_side) (by asm_side) (by asm_side) fun v6 c6 o6 z6 hv6 hc6 e6 => ?_
  asm_simp at e6 ⊢
  refine exec_adc (by asm_side) (by asm_side) (by asm_side) fun v7 c7 o7 z7 hv7 hc7 e7 => ?_
  asm_simp at e7 ⊢
  refine exec_mov ?_
  asm_simp
  refine exec_mov ?_
  asm_simp
  refine exec_mov ?_
  asm_simp
  refine exec_mov ?_
  asm_simp
  refine exec_sub (by asm_side) (by asm_side) fun v12 c12 o12 z12 hv12 hc12 e12 => ?_
  asm_simp at e12 ⊢
  refine exec_sbb (by asm_side) (by asm_side) (by asm_side) fun v13 c13 o13 z13 hv13 hc13 e13 => ?_
  asm_simp at e13 ⊢
  refine exec_sbb (by asm_side) (by asm_side) (by asm_side) fun v14 c14 o14 z14 hv14 hc14 e14 => ?_
  asm_simp at e14 ⊢
  refine exec_sbb (by asm_side) (by asm_side) (by asm_side) fun v15 c15 o15 z15 hv15 hc15 e15 => ?_
  asm_simp at e15 ⊢
  refine exec_cmovc ?_
  asm_simp
  refine exec_cmovc ?_
  asm_simp
  refine exec_cmovc ?_
  asm_simp
  refine exec_cmovc ?_
  asm_simp
  have q1 : quad a0 a1 a2 a3 + quad b0 b1 b2 b3 = quad v4 v5 v6 v7 + W ^ 4 * c7 := by
    simp only [quad]
    linear_combination e4 + W * e5 + W ^ 2 * e6 + W ^ 3 * e7
  have q2 : quad v4 v5 v6 v7 + W ^ 4 * c15 = quad v12 v13 v14 v15 + quad m0 m1 m2 m3 := by
    simp only [quad]
    linear_combination e12 + W * e13 + W ^ 2 * e14 + W ^ 3 * e15
  have z : c7 = 0 := by
    rcases Nat.le_one_iff_eq_zero_or_eq_one.mp hc7 with h | h
    · exact h
    · rw [h] at q1
      omega
  rw [z, mul_zero, add_zero] at q1
  rw [q1, run]
  rcases Nat.le_one_iff_eq_zero_or_eq_one.mp hc15 with h | h
  · subst h
    simp only [Nat.zero_ne_one, if_false]
    exact ⟨hv12, hv13, hv14, hv15, Or.inr (by rw [← q2, mul_zero, add_zero])⟩
  · subst h
    simp only [if_true]
    refine ⟨hv4, hv5, hv6, hv7, Or.inl ⟨rfl, ?_⟩⟩
    have := quad_lt hv12 hv13 hv14 hv15
    omega

theorem double_post (hm : Wf [m0, m1, m2, m3]) (ha : Wf [a0, a1, a2, a3]) (h : quad a0 a1 a2 a3 + quad a0 a1 a2 a3 < W ^ 4) (s : State) :
    AddPost (quad a0 a1 a2 a3 + quad a0 a1 a2 a3) (quad m0 m1 m2 m3)
      (run (env [m0, m1, m2, m3] [a0, a1, a2, a3] [] 0 junk) doubleProg s) := by
  obtain ⟨hm0, hm1, hm2, hm3⟩ := wf4.mp hm
  obtain ⟨ha0, ha1, ha2, ha3⟩ := wf4.mp ha
  rw [doubleProg]
  refine exec_mov ?_
  asm_simp
  refine exec_mov ?_
  asm_simp
  refine exec_mov ?_
  asm_simp
  refine exec_mov ?_
  asm_simp
  refine exec_add (by asm_side) (by asm_side) fun v4 c4 o4 z4 hv4 hc4 e4 => ?_
  asm_simp at e4 ⊢
  refine exec_adc (by asm_side) (by asm_side) (by asm_side) fun v5 c5 o5 z5 hv5 hc5 e5 => ?_
  asm_simp at e5 ⊢
  refine exec_adc (by asm_side) (by asm_side) (by asm_side) fun v6 c6 o6 z6 hv6 hc6 e6 => ?_
  asm_simp at e6 ⊢
  refine exec_adc (by asm_side) (by asm_side) (by asm_side) fun v7 c7 o7 z7 hv7 hc7 e7 => ?_
  asm_simp at e7 ⊢
  refine exec_mov ?_
  asm_simp
  refine exec_mov ?_
  asm_simp
  refine exec_mov ?_
  asm_simp
  refine exec_mov ?_
  asm_simp
  refine exec_sub (by asm_side) (by asm_side) fun v12 c12 o12 z12 hv12 hc12 e12 => ?_
  asm_simp at e12 ⊢
  refine exec_sbb (by asm_side) (by asm_side) (by asm_side) fun v13 c13 o13 z13 hv13 hc13 e13 => ?_
  asm_simp at e13 ⊢
  refine exec_sbb (by asm_side) (by asm_side) (by asm_side) fun v14 c14 o14 z14 hv14 hc14 e14 => ?_
  asm_simp at e14 ⊢
  refine exec_sbb (by asm_side) (by asm_side) (by asm_side) fun v15 c15 o15 z15 hv15 hc15 e15 => ?_
  asm_simp at e15 ⊢
  refine exec_cmovc ?_
  asm_simp
  refine exec_cmovc ?_
  asm_simp
  refine exec_cmovc ?_
  asm_simp
  refine exec_cmovc ?_
  asm_simp
  have q1 : quad a0 a1 a2 a3 + quad a0 a1 a2 a3 = quad v4 v5 v6 v7 + W ^ 4 * c7 := by
    simp only [quad]
    linear_combination e4 + W * e5 + W ^ 2 * e6 + W ^ 3 * e7
  have q2 : quad v4 v5 v6 v7 + W ^ 4 * c15 = quad v12 v13 v14 v15 + quad m0 m1 m2 m3 := by
    simp only [quad]
    linear_combination e12 + W * e13 + W ^ 2 * e14 + W ^ 3 * e15
  have z : c7 = 0 := by
    rcases Nat.le_one_iff_eq_zero_or_eq_one.mp hc7 with h | h
    · exact h
    · rw [h] at q1
      omega
  rw [z, mul_zero, add_zero] at q1
  rw [q1, run]
  rcases Nat.le_one_iff_eq_zero_or_eq_one.mp hc15 with h | h
  · subst h
    simp only [Nat.zero_ne_one, if_false]
    exact ⟨hv12, hv13, hv14, hv15, Or.inr (by rw [← q2, mul_zero, add_zero])⟩
  · subst h
    simp only [if_true]
    refine ⟨hv4, hv5, hv6, hv7, Or.inl ⟨rfl, ?_⟩⟩
    have := quad_lt hv12 hv13 hv14 hv15
    omega

theorem and_mask {x c : ℕ} (hx : x < W) (hc : c ≤ 1) : x &&& ((W - 1) * c) = x * c := by
  rcases Nat.le_one_iff_eq_zero_or_eq_one.mp hc with h | h
  · rw [h, mul_zero, mul_zero, Nat.and_zero]
  · rw [h, mul_one, mul_one, and_ones hx]

theorem mul_bit_lt {x c : ℕ} (hx : x < W) (hc : c ≤ 1) : x * c < W := by
  have := Nat.mul_le_mul_left x hc
  omega

/-- The result of a subtraction. -/
def SubPost (A B M : ℕ) (s : State) : Prop :=
  s.r12 < W ∧ s.r13 < W ∧ s.r14 < W ∧ s.r15 < W ∧
    (quad s.r12 s.r13 s.r14 s.r15 + B = A ∨ (A < B ∧ quad s.r12 s.r13 s.r14 s.r15 + B = A + M))

theorem sub_post (hm : Wf [m0, m1, m2, m3]) (ha : Wf [a0, a1, a2, a3]) (hb : Wf [b0, b1, b2, b3])
    (h : quad b0 b1 b2 b3 ≤ quad m0 m1 m2 m3) (s : State) :
    SubPost (quad a0 a1 a2 a3) (quad b0 b1 b2 b3) (quad m0 m1 m2 m3)
      (run (env [m0, m1, m2, m3] [a0, a1, a2, a3] [b0, b1, b2, b3] 0 junk) subProg s) := by
  obtain ⟨hm0, hm1, hm2, hm3⟩ := wf4.mp hm
  obtain ⟨ha0, ha1, ha2, ha3⟩ := wf4.mp ha
  obtain ⟨hb0, hb1, hb2, hb3⟩ := wf4.mp hb
  rw [subProg]
  refine exec_mov ?_
  asm_simp
  refine exec_mov ?_
  asm_simp
  refine exec_mov ?_
  asm_simp
  refine exec_mov ?_
  asm_simp
  refine exec_mov ?_
  asm_simp
  refine exec_mov ?_
  asm_simp
  refine exec_mov ?_
  asm_simp
  refine exec_mov ?_
  asm_simp
  refine exec_sub (by asm_side) (by asm_side) fun v8 c8 o8 z8 hv8 hc8 e8 => ?_
  asm_simp at e8 ⊢
  refine exec_sbb (by asm_side) (by asm_side) (by asm_side) fun v9 c9 o9 z9 hv9 hc9 e9 => ?_
  asm_simp at e9 ⊢
  refine exec_sbb (by asm_side) (by asm_side) (by asm_side) fun v10 c10 o10 z10 hv10 hc10 e10 => ?_
  asm_simp at e10 ⊢
  refine exec_sbb (by asm_side) (by asm_side) (by asm_side) fun v11 c11 o11 z11 hv11 hc11 e11 => ?_
  asm_simp at e11 ⊢
  refine exec_sbb_self (by asm_side) fun o12 z12 => ?_
  asm_simp
  have n0 := mul_bit_lt hm0 hc11
  have n1 := mul_bit_lt hm1 hc11
  have n2 := mul_bit_lt hm2 hc11
  have n3 := mul_bit_lt hm3 hc11
  refine exec_and fun z13 => ?_
  asm_simp
  refine exec_and fun z14 => ?_
  asm_simp
  refine exec_and fun z15 => ?_
  asm_simp
  refine exec_and fun z16 => ?_
  asm_simp
  rw [and_mask hm0 hc11, and_mask hm1 hc11, and_mask hm2 hc11, and_mask hm3 hc11]
  refine exec_add (by asm_side) (by asm_side) fun v17 c17 o17 z17 hv17 hc17 e17 => ?_
  asm_simp at e17 ⊢
  refine exec_adc (by asm_side) (by asm_side) (by asm_side) fun v18 c18 o18 z18 hv18 hc18 e18 => ?_
  asm_simp at e18 ⊢
  refine exec_adc (by asm_side) (by asm_side) (by asm_side) fun v19 c19 o19 z19 hv19 hc19 e19 => ?_
  asm_simp at e19 ⊢
  refine exec_adc (by asm_side) (by asm_side) (by asm_side) fun v20 c20 o20 z20 hv20 hc20 e20 => ?_
  asm_simp at e20 ⊢
  have q1 : quad a0 a1 a2 a3 + W ^ 4 * c11 = quad v8 v9 v10 v11 + quad b0 b1 b2 b3 := by
    simp only [quad]
    linear_combination e8 + W * e9 + W ^ 2 * e10 + W ^ 3 * e11
  have q2 : quad m0 m1 m2 m3 * c11 + quad v8 v9 v10 v11 = quad v17 v18 v19 v20 + W ^ 4 * c20 := by
    simp only [quad]
    linear_combination e17 + W * e18 + W ^ 2 * e19 + W ^ 3 * e20
  rw [run]
  refine ⟨hv17, hv18, hv19, hv20, ?_⟩
  dsimp only
  have l1 := quad_lt hv8 hv9 hv10 hv11
  have l2 := quad_lt hv17 hv18 hv19 hv20
  have l3 := quad_lt ha0 ha1 ha2 ha3
  have l4 := quad_lt hm0 hm1 hm2 hm3
  generalize quad v8 v9 v10 v11 = D at *
  generalize quad v17 v18 v19 v20 = E at *
  generalize quad a0 a1 a2 a3 = A at *
  generalize quad b0 b1 b2 b3 = B at *
  generalize quad m0 m1 m2 m3 = M at *
  generalize W ^ 4 = R at *
  rcases Nat.le_one_iff_eq_zero_or_eq_one.mp hc11 with h1 | h1 <;>
    rcases Nat.le_one_iff_eq_zero_or_eq_one.mp hc20 with h2 | h2 <;> rw [h1] at q1 q2 <;> rw [h2] at q2 <;>
    simp only [mul_zero, mul_one, add_zero, zero_add] at q1 q2 <;> omega

theorem or4_eq_zero {x0 x1 x2 x3 : ℕ} : (x0 ||| x1) ||| (x2 ||| x3) = 0 ↔ quad x0 x1 x2 x3 = 0 := by
  rw [quad]
  simp only [Nat.or_eq_zero_iff, Nat.add_eq_zero_iff, Nat.mul_eq_zero, W_pos.ne', false_or]
  tauto

/-- The result of a negation. -/
def NegPost (A M : ℕ) (s : State) : Prop :=
  s.r8 < W ∧ s.r9 < W ∧ s.r10 < W ∧ s.r11 < W ∧
    ((A = 0 ∧ quad s.r8 s.r9 s.r10 s.r11 = 0) ∨ (A ≠ 0 ∧ quad s.r8 s.r9 s.r10 s.r11 + A = M))

theorem neg_post (hm : Wf [m0, m1, m2, m3]) (ha : Wf [a0, a1, a2, a3]) (h : quad a0 a1 a2 a3 ≤ quad m0 m1 m2 m3) (s : State) :
    NegPost (quad a0 a1 a2 a3) (quad m0 m1 m2 m3)
      (run (env [m0, m1, m2, m3] [a0, a1, a2, a3] [] 0 junk) negProg s) := by
  obtain ⟨hm0, hm1, hm2, hm3⟩ := wf4.mp hm
  obtain ⟨ha0, ha1, ha2, ha3⟩ := wf4.mp ha
  have hor : (a0 ||| a1) ||| (a2 ||| a3) < W := Nat.or_lt_two_pow (Nat.or_lt_two_pow ha0 ha1) (Nat.or_lt_two_pow ha2 ha3)
  rw [negProg]
  refine exec_mov ?_
  asm_simp
  refine exec_mov ?_
  asm_simp
  refine exec_mov ?_
  asm_simp
  refine exec_mov ?_
  asm_simp
  refine exec_sub (by asm_side) (by asm_side) fun v4 c4 o4 z4 hv4 hc4 e4 => ?_
  asm_simp at e4 ⊢
  refine exec_sbb (by asm_side) (by asm_side) (by asm_side) fun v5 c5 o5 z5 hv5 hc5 e5 => ?_
  asm_simp at e5 ⊢
  refine exec_sbb (by asm_side) (by asm_side) (by asm_side) fun v6 c6 o6 z6 hv6 hc6 e6 => ?_
  asm_simp at e6 ⊢
  refine exec_sbb (by asm_side) (by asm_side) (by asm_side) fun v7 c7 o7 z7 hv7 hc7 e7 => ?_
  asm_simp at e7 ⊢
  refine exec_mov ?_
  asm_simp
  refine exec_mov ?_
  asm_simp
  refine exec_mov ?_
  asm_simp
  refine exec_mov ?_
  asm_simp
  refine exec_or fun z12 => ?_
  asm_simp
  refine exec_or fun z13 => ?_
  asm_simp
  refine exec_or fun z14 => ?_
  asm_simp
  refine exec_mov ?_
  asm_simp
  refine exec_cmp (by asm_side) rfl fun c16 o16 => ?_
  asm_simp
  refine exec_cmove ?_
  asm_simp
  refine exec_and fun z18 => ?_
  asm_simp
  refine exec_and fun z19 => ?_
  asm_simp
  refine exec_and fun z20 => ?_
  asm_simp
  refine exec_and fun z21 => ?_
  asm_simp
  have q1 : quad m0 m1 m2 m3 + W ^ 4 * c7 = quad v4 v5 v6 v7 + quad a0 a1 a2 a3 := by
    simp only [quad]
    linear_combination e4 + W * e5 + W ^ 2 * e6 + W ^ 3 * e7
  have l1 := quad_lt hv4 hv5 hv6 hv7
  rw [run]
  by_cases hz : (a0 ||| a1) ||| (a2 ||| a3) = 0
  · simp only [isz, hz, if_true, Nat.and_zero]
    exact ⟨W_pos, W_pos, W_pos, W_pos, Or.inl ⟨or4_eq_zero.mp hz, rfl⟩⟩
  · have e : (0xffffffffffffffff : ℕ) = W - 1 := by decide
    simp only [isz, hz, if_false, Nat.zero_ne_one, e, and_ones hv4, and_ones hv5, and_ones hv6, and_ones hv7]
    refine ⟨hv4, hv5, hv6, hv7, Or.inr ⟨fun h => hz (or4_eq_zero.mpr h), ?_⟩⟩
    dsimp only
    rcases Nat.le_one_iff_eq_zero_or_eq_one.mp hc7 with h1 | h1
    · rw [h1, mul_zero, add_zero] at q1
      exact q1.symm
    · rw [h1, mul_one] at q1
      omega

end Halo2.Asm
