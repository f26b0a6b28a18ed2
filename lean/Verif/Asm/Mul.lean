import Verif.Asm.Exec
import Verif.Asm.Programs
import Verif.Limb.Lemmas

/-!
# The parts of the assembly multiplication and of `from_mont`
-/

namespace Halo2.Asm

open Halo2

theorem W_pos : 0 < W := by decide

theorem getD4_0 (x0 x1 x2 x3 : ℕ) : [x0, x1, x2, x3].getD 0 0 = x0 := rfl
theorem getD4_1 (x0 x1 x2 x3 : ℕ) : [x0, x1, x2, x3].getD 1 0 = x1 := rfl
theorem getD4_2 (x0 x1 x2 x3 : ℕ) : [x0, x1, x2, x3].getD 2 0 = x2 := rfl
theorem getD4_3 (x0 x1 x2 x3 : ℕ) : [x0, x1, x2, x3].getD 3 0 = x3 := rfl

syntax "asm_simp" (Lean.Parser.Tactic.location)? : tactic
macro_rules
  | `(tactic| asm_simp $[$l:location]?) => `(tactic| dsimp only [State.set, State.get, State.flags, Env.src, Env.ptr, env,
      getD4_0, getD4_1, getD4_2, getD4_3] $[$l:location]?)

macro "asm_side" : tactic => `(tactic| ((try asm_simp); first | assumption | exact W_pos | exact Nat.zero_le _))

/-- Four words. -/
def quad (x0 x1 x2 x3 : ℕ) : ℕ := x0 + W * (x1 + W * (x2 + W * x3))

variable {m0 m1 m2 m3 a0 a1 a2 a3 b0 b1 b2 b3 inv : ℕ} {junk : State → ℕ}

theorem quad_lt (h0 : a0 < W) (h1 : a1 < W) (h2 : a2 < W) (h3 : a3 < W) : quad a0 a1 a2 a3 < W ^ 4 := by
  rw [quad, W] at *
  omega

/-- The low word vanishes after adding the chosen multiple of the modulus. -/
theorem low_zero (hinv : IsInv [m0, m1, m2, m3] inv) {x k lo hi v c : ℕ} (hk : k = x * inv % W) (e : k * m0 = lo + W * hi)
    (e' : lo + x = v + W * c) (hv : v < W) : v = 0 := by
  have h1 : (x + k * m0) % W = 0 := by
    have := mont_low hinv x
    rw [← hk] at this
    have e : x + k * val [m0, m1, m2, m3] = (x + k * m0) + W * (k * (m1 + W * (m2 + W * m3))) := by
      simp only [val_cons, val_nil]
      ring
    rw [e, Nat.add_mul_mod_self_left] at this
    exact this
  have e2 : x + k * m0 = v + W * (c + hi) := by rw [e, mul_add]; omega
  rw [e2, Nat.add_mul_mod_self_left, Nat.mod_eq_of_lt hv] at h1
  exact h1

/-! ### The first row -/

/-- derive/src/field/asm/limb4.rs:236-245. -/
def row0 : List Instr :=
  [.mov .rdx (.mem .b 0), .mulx .r13 .r11 (.mem .a 0), .mulx .rax .r15 (.mem .a 1), .add .r13 (.reg .r15), .mulx .r14
   .r15 (.mem .a 2), .adc .rax (.reg .r15), .mulx .r12 .r15 (.mem .a 3), .adc .r14 (.reg .r15), .adc .r12 (.imm 0)]

/-- The words of `t + a b`. -/
def RowPost (T : ℕ) (s : State) : Prop :=
  s.r11 < W ∧ s.r13 < W ∧ s.rax < W ∧ s.r14 < W ∧ s.r12 < W ∧
    ∃ c, quad s.r11 s.r13 s.rax s.r14 + W ^ 4 * s.r12 + W ^ 5 * c = T

theorem row0_spec (ha0 : a0 < W) (ha1 : a1 < W) (ha2 : a2 < W) (ha3 : a3 < W) (hb0 : b0 < W) (s : State) (m : List ℕ) :
    RowPost (quad a0 a1 a2 a3 * b0) (run (env m [a0, a1, a2, a3] [b0, b1, b2, b3] inv junk) row0 s) := by
  rw [row0]
  refine exec_mov ?_
  asm_simp
  refine exec_mulx (by asm_side) (by asm_side) fun u1 v1 hu1 hv1 e1 => ?_
  asm_simp at e1 ⊢
  refine exec_mulx (by asm_side) (by asm_side) fun u2 v2 hu2 hv2 e2 => ?_
  asm_simp at e2 ⊢
  refine exec_add (by asm_side) (by asm_side) fun v3 c3 o3 z3 hv3 hc3 e3 => ?_
  asm_simp at e3 ⊢
  refine exec_mulx (by asm_side) (by asm_side) fun u4 v4 hu4 hv4 e4 => ?_
  asm_simp at e4 ⊢
  refine exec_adc (by asm_side) (by asm_side) (by asm_side) fun v5 c5 o5 z5 hv5 hc5 e5 => ?_
  asm_simp at e5 ⊢
  refine exec_mulx (by asm_side) (by asm_side) fun u6 v6 hu6 hv6 e6 => ?_
  asm_simp at e6 ⊢
  refine exec_adc (by asm_side) (by asm_side) (by asm_side) fun v7 c7 o7 z7 hv7 hc7 e7 => ?_
  asm_simp at e7 ⊢
  refine exec_adc (by asm_side) (by asm_side) (by asm_side) fun v8 c8 o8 z8 hv8 hc8 e8 => ?_
  asm_simp at e8 ⊢
  refine ⟨by asm_side, by asm_side, by asm_side, by asm_side, by asm_side, c8, ?_⟩
  rw [quad, quad, run]
  dsimp only
  linear_combination -e1 - W * e2 - W ^ 2 * e4 - W ^ 3 * e6 - W * e3 - W ^ 2 * e5 - W ^ 3 * e7 - W ^ 4 * e8

/-! ### A reduction -/

/-- derive/src/field/asm/limb4.rs:249-270, 293-314, 337-358, 381-402. -/
def red : List Instr :=
  [.mov .rdx (.reg .r11), .imul .rdx .inv, .xor .r15 (.reg .r15), .mulx .r15 .r10 (.mem .m 0), .adcx .r10 (.reg .r11),
   .mov .r11 (.reg .r15), .mov .r10 (.imm 0), .adcx .r11 (.reg .r13), .mulx .r13 .r15 (.mem .m 1), .adox .r11 (.reg
   .r15), .adcx .r13 (.reg .rax), .mulx .rax .r15 (.mem .m 2), .adox .r13 (.reg .r15), .adcx .rax (.reg .r14), .mulx .r14
   .r15 (.mem .m 3), .adox .rax (.reg .r15), .adcx .r10 (.reg .r12), .adox .r14 (.reg .r10)]

/-- Adding a multiple of the modulus and dividing by `2^64`. -/
def RedPost (T M : ℕ) (s : State) : Prop :=
  s.r11 < W ∧ s.r13 < W ∧ s.rax < W ∧ s.r14 < W ∧
    ∃ k < W, ∃ c, T + k * M = W * (quad s.r11 s.r13 s.rax s.r14 + W ^ 4 * c)

theorem red_spec (hm0 : m0 < W) (hm1 : m1 < W) (hm2 : m2 < W) (hm3 : m3 < W) (hinv : IsInv [m0, m1, m2, m3] inv)
    (s : State) (h11 : s.r11 < W) (h13 : s.r13 < W) (hax : s.rax < W) (h14 : s.r14 < W) (h12 : s.r12 < W)
    (a b : List ℕ) :
    RedPost (quad s.r11 s.r13 s.rax s.r14 + W ^ 4 * s.r12) (quad m0 m1 m2 m3)
      (run (env [m0, m1, m2, m3] a b inv junk) red s) := by
  obtain ⟨rax, rcx, rdx, r8, r9, r10, r11, r12, r13, r14, r15, cf, of, zf⟩ := s
  dsimp only at h11 h13 hax h14 h12 ⊢
  rw [red]
  refine exec_mov ?_
  asm_simp
  refine exec_imul fun v1 c1 o1 z1 hv1 e1 => ?_
  asm_simp at e1 ⊢
  refine exec_xor_self fun z2 => ?_
  asm_simp
  refine exec_mulx (by asm_side) (by asm_side) fun u3 v3 hu3 hv3 e3 => ?_
  asm_simp at e3 ⊢
  refine exec_adcx (by asm_side) (by asm_side) (by asm_side) fun v4 c4 hv4 hc4 e4 => ?_
  asm_simp at e4 ⊢
  refine exec_mov ?_
  asm_simp
  refine exec_mov ?_
  asm_simp
  refine exec_adcx (by asm_side) (by asm_side) (by asm_side) fun v7 c7 hv7 hc7 e7 => ?_
  asm_simp at e7 ⊢
  refine exec_mulx (by asm_side) (by asm_side) fun u8 v8 hu8 hv8 e8 => ?_
  asm_simp at e8 ⊢
  refine exec_adox (by asm_side) (by asm_side) (by asm_side) fun v9 c9 hv9 hc9 e9 => ?_
  asm_simp at e9 ⊢
  refine exec_adcx (by asm_side) (by asm_side) (by asm_side) fun v10 c10 hv10 hc10 e10 => ?_
  asm_simp at e10 ⊢
  refine exec_mulx (by asm_side) (by asm_side) fun u11 v11 hu11 hv11 e11 => ?_
  asm_simp at e11 ⊢
  refine exec_adox (by asm_side) (by asm_side) (by asm_side) fun v12 c12 hv12 hc12 e12 => ?_
  asm_simp at e12 ⊢
  refine exec_adcx (by asm_side) (by asm_side) (by asm_side) fun v13 c13 hv13 hc13 e13 => ?_
  asm_simp at e13 ⊢
  refine exec_mulx (by asm_side) (by asm_side) fun u14 v14 hu14 hv14 e14 => ?_
  asm_simp at e14 ⊢
  refine exec_adox (by asm_side) (by asm_side) (by asm_side) fun v15 c15 hv15 hc15 e15 => ?_
  asm_simp at e15 ⊢
  refine exec_adcx (by asm_side) (by asm_side) (by asm_side) fun v16 c16 hv16 hc16 e16 => ?_
  asm_simp at e16 ⊢
  refine exec_adox (by asm_side) (by asm_side) (by asm_side) fun v17 c17 hv17 hc17 e17 => ?_
  asm_simp at e17 ⊢
  have hz : v4 = 0 := low_zero hinv e1 e3 e4 hv4
  refine ⟨by asm_side, by asm_side, by asm_side, by asm_side, v1, hv1, c16 + c17, ?_⟩
  rw [quad, quad, quad, run]
  dsimp only
  linear_combination hz + e3 + e4 + W * (e7 + e8 + e9) + W ^ 2 * (e10 + e11 + e12) + W ^ 3 * (e13 + e14 + e15) +
    W ^ 4 * (e16 + e17)

/-! ### The other rows -/

/-- derive/src/field/asm/limb4.rs:273-289, 317-333, 361-377. -/
def row (i : ℕ) : List Instr :=
  [.mov .rdx (.mem .b i), .xor .r12 (.reg .r12), .mulx .r12 .r15 (.mem .a 0), .adox .r11 (.reg .r15), .adcx .r13 (.reg
   .r12), .mulx .r12 .r15 (.mem .a 1), .adox .r13 (.reg .r15), .adcx .rax (.reg .r12), .mulx .r12 .r15 (.mem .a 2), .adox
   .rax (.reg .r15), .adcx .r14 (.reg .r12), .mulx .r12 .r15 (.mem .a 3), .adox .r14 (.reg .r15), .mov .rdx (.imm 0),
   .adcx .r12 (.reg .rdx), .adox .r12 (.reg .rdx)]

theorem row_spec (ha0 : a0 < W) (ha1 : a1 < W) (ha2 : a2 < W) (ha3 : a3 < W) (b : List ℕ) (i : ℕ) (hb : b.getD i 0 < W)
    (s : State) (h11 : s.r11 < W) (h13 : s.r13 < W) (hax : s.rax < W) (h14 : s.r14 < W) (m : List ℕ) :
    RowPost (quad s.r11 s.r13 s.rax s.r14 + quad a0 a1 a2 a3 * b.getD i 0)
      (run (env m [a0, a1, a2, a3] b inv junk) (row i) s) := by
  obtain ⟨rax, rcx, rdx, r8, r9, r10, r11, r12, r13, r14, r15, cf, of, zf⟩ := s
  dsimp only at h11 h13 hax h14 ⊢
  rw [row]
  refine exec_mov ?_
  asm_simp
  refine exec_xor_self fun z1 => ?_
  asm_simp
  refine exec_mulx (by asm_side) (by asm_side) fun u2 v2 hu2 hv2 e2 => ?_
  asm_simp at e2 ⊢
  refine exec_adox (by asm_side) (by asm_side) (by asm_side) fun v3 c3 hv3 hc3 e3 => ?_
  asm_simp at e3 ⊢
  refine exec_adcx (by asm_side) (by asm_side) (by asm_side) fun v4 c4 hv4 hc4 e4 => ?_
  asm_simp at e4 ⊢
  refine exec_mulx (by asm_side) (by asm_side) fun u5 v5 hu5 hv5 e5 => ?_
  asm_simp at e5 ⊢
  refine exec_adox (by asm_side) (by asm_side) (by asm_side) fun v6 c6 hv6 hc6 e6 => ?_
  asm_simp at e6 ⊢
  refine exec_adcx (by asm_side) (by asm_side) (by asm_side) fun v7 c7 hv7 hc7 e7 => ?_
  asm_simp at e7 ⊢
  refine exec_mulx (by asm_side) (by asm_side) fun u8 v8 hu8 hv8 e8 => ?_
  asm_simp at e8 ⊢
  refine exec_adox (by asm_side) (by asm_side) (by asm_side) fun v9 c9 hv9 hc9 e9 => ?_
  asm_simp at e9 ⊢
  refine exec_adcx (by asm_side) (by asm_side) (by asm_side) fun v10 c10 hv10 hc10 e10 => ?_
  asm_simp at e10 ⊢
  refine exec_mulx (by asm_side) (by asm_side) fun u11 v11 hu11 hv11 e11 => ?_
  asm_simp at e11 ⊢
  refine exec_adox (by asm_side) (by asm_side) (by asm_side) fun v12 c12 hv12 hc12 e12 => ?_
  asm_simp at e12 ⊢
  refine exec_mov ?_
  asm_simp
  refine exec_adcx (by asm_side) (by asm_side) (by asm_side) fun v14 c14 hv14 hc14 e14 => ?_
  asm_simp at e14 ⊢
  refine exec_adox (by asm_side) (by asm_side) (by asm_side) fun v15 c15 hv15 hc15 e15 => ?_
  asm_simp at e15 ⊢
  refine ⟨by asm_side, by asm_side, by asm_side, by asm_side, by asm_side, c14 + c15, ?_⟩
  rw [quad, quad, quad, run]
  dsimp only
  linear_combination -e2 - e3 - W * (e4 + e5 + e6) - W ^ 2 * (e7 + e8 + e9) - W ^ 3 * (e10 + e11 + e12) -
    W ^ 4 * (e14 + e15)

/-! ### The final subtraction -/

/-- derive/src/field/asm/limb4.rs:405-417. -/
def fin : List Instr :=
  [.mov .r12 (.reg .r11), .sub .r12 (.mem .m 0), .mov .r10 (.reg .r13), .sbb .r10 (.mem .m 1), .mov .rdx (.reg .rax),
   .sbb .rdx (.mem .m 2), .mov .r15 (.reg .r14), .sbb .r15 (.mem .m 3), .cmovnc .r11 (.reg .r12), .cmovnc .r13 (.reg
   .r10), .cmovnc .rax (.reg .rdx), .cmovnc .r14 (.reg .r15)]

/-- Subtract the modulus unless that borrows. -/
def FinPost (T M : ℕ) (s : State) : Prop :=
  s.r11 < W ∧ s.r13 < W ∧ s.rax < W ∧ s.r14 < W ∧
    ((quad s.r11 s.r13 s.rax s.r14 = T ∧ T < M) ∨ quad s.r11 s.r13 s.rax s.r14 + M = T)

theorem fin_spec (hm0 : m0 < W) (hm1 : m1 < W) (hm2 : m2 < W) (hm3 : m3 < W)
    (s : State) (h11 : s.r11 < W) (h13 : s.r13 < W) (hax : s.rax < W) (h14 : s.r14 < W) (a b : List ℕ) :
    FinPost (quad s.r11 s.r13 s.rax s.r14) (quad m0 m1 m2 m3) (run (env [m0, m1, m2, m3] a b inv junk) fin s) := by
  obtain ⟨rax, rcx, rdx, r8, r9, r10, r11, r12, r13, r14, r15, cf, of, zf⟩ := s
  dsimp only at h11 h13 hax h14 ⊢
  rw [fin]
  refine exec_mov ?_
  asm_simp
  refine exec_sub (by asm_side) (by asm_side) fun v1 c1 o1 z1 hv1 hc1 e1 => ?_
  asm_simp at e1 ⊢
  refine exec_mov ?_
  asm_simp
  refine exec_sbb (by asm_side) (by asm_side) (by asm_side) fun v3 c3 o3 z3 hv3 hc3 e3 => ?_
  asm_simp at e3 ⊢
  refine exec_mov ?_
  asm_simp
  refine exec_sbb (by asm_side) (by asm_side) (by asm_side) fun v5 c5 o5 z5 hv5 hc5 e5 => ?_
  asm_simp at e5 ⊢
  refine exec_mov ?_
  asm_simp
  refine exec_sbb (by asm_side) (by asm_side) (by asm_side) fun v7 c7 o7 z7 hv7 hc7 e7 => ?_
  asm_simp at e7 ⊢
  refine exec_cmovnc ?_
  asm_simp
  refine exec_cmovnc ?_
  asm_simp
  refine exec_cmovnc ?_
  asm_simp
  refine exec_cmovnc ?_
  asm_simp
  have hq : quad r11 r13 rax r14 + W ^ 4 * c7 = quad v1 v3 v5 v7 + quad m0 m1 m2 m3 := by
    rw [quad, quad, quad]
    linear_combination e1 + W * e3 + W ^ 2 * e5 + W ^ 3 * e7
  rw [run]
  rcases Nat.le_one_iff_eq_zero_or_eq_one.mp hc7 with h | h
  · subst h
    simp only [if_true]
    exact ⟨hv1, hv3, hv5, hv7, Or.inr (by rw [← hq, mul_zero, add_zero])⟩
  · subst h
    simp only [Nat.one_ne_zero, if_false]
    refine ⟨h11, h13, hax, h14, Or.inl ⟨rfl, ?_⟩⟩
    have := quad_lt hv1 hv3 hv5 hv7
    omega

/-! ### Leaving Montgomery form -/

/-- derive/src/field/asm/limb4.rs:85-104. -/
def fm0 : List Instr :=
  [.mov .rdx (.reg .r8), .mulx .rcx .rdx (.reg .r15), .mulx .rcx .rax (.mem .m 0), .adox .r8 (.reg .rax), .adcx .r9 (.reg
   .rcx), .mulx .rcx .rax (.mem .m 1), .adox .r9 (.reg .rax), .adcx .r10 (.reg .rcx), .mulx .rcx .rax (.mem .m 2), .adox
   .r10 (.reg .rax), .adcx .r11 (.reg .rcx), .mulx .rcx .rax (.mem .m 3), .adox .r11 (.reg .rax), .adcx .r8 (.reg .rcx),
   .adox .r8 (.reg .r12)]

def Fm0Post (T M inv : ℕ) (s : State) : Prop :=
  s.r9 < W ∧ s.r10 < W ∧ s.r11 < W ∧ s.r8 < W ∧ s.r12 = 0 ∧ s.r15 = inv ∧ s.cf ≤ 1 ∧ s.of ≤ 1 ∧
    ∃ k < W, T + k * M = W * (quad s.r9 s.r10 s.r11 s.r8 + W ^ 4 * (s.cf + s.of))

theorem fm0_spec (hm0 : m0 < W) (hm1 : m1 < W) (hm2 : m2 < W) (hm3 : m3 < W) (hinv : IsInv [m0, m1, m2, m3] inv)
    (hi : inv < W) (s : State) (h8 : s.r8 < W) (h9 : s.r9 < W) (h10 : s.r10 < W) (h11 : s.r11 < W) (h12 : s.r12 = 0)
    (h15 : s.r15 = inv) (hcf : s.cf = 0) (hof : s.of = 0) (a b : List ℕ) :
    Fm0Post (quad s.r8 s.r9 s.r10 s.r11) (quad m0 m1 m2 m3) inv (run (env [m0, m1, m2, m3] a b inv junk) fm0 s) := by
  obtain ⟨rax, rcx, rdx, r8, r9, r10, r11, r12, r13, r14, r15, cf, of, zf⟩ := s
  dsimp only at h8 h9 h10 h11 h12 h15 hcf hof ⊢
  subst h12 h15 hcf hof
  rw [fm0]
  refine exec_mov ?_
  asm_simp
  refine exec_mulx (by asm_side) (by asm_side) fun u1 v1 hu1 hv1 e1 => ?_
  asm_simp at e1 ⊢
  refine exec_mulx (by asm_side) (by asm_side) fun u2 v2 hu2 hv2 e2 => ?_
  asm_simp at e2 ⊢
  refine exec_adox (by asm_side) (by asm_side) (by asm_side) fun v3 c3 hv3 hc3 e3 => ?_
  asm_simp at e3 ⊢
  refine exec_adcx (by asm_side) (by asm_side) (by asm_side) fun v4 c4 hv4 hc4 e4 => ?_
  asm_simp at e4 ⊢
  refine exec_mulx (by asm_side) (by asm_side) fun u5 v5 hu5 hv5 e5 => ?_
  asm_simp at e5 ⊢
  refine exec_adox (by asm_side) (by asm_side) (by asm_side) fun v6 c6 hv6 hc6 e6 => ?_
  asm_simp at e6 ⊢
  refine exec_adcx (by asm_side) (by asm_side) (by asm_side) fun v7 c7 hv7 hc7 e7 => ?_
  asm_simp at e7 ⊢
  refine exec_mulx (by asm_side) (by asm_side) fun u8 v8 hu8 hv8 e8 => ?_
  asm_simp at e8 ⊢
  refine exec_adox (by asm_side) (by asm_side) (by asm_side) fun v9 c9 hv9 hc9 e9 => ?_
  asm_simp at e9 ⊢
  refine exec_adcx (by asm_side) (by asm_side) (by asm_side) fun v10 c10 hv10 hc10 e10 => ?_
  asm_simp at e10 ⊢
  refine exec_mulx (by asm_side) (by asm_side) fun u11 v11 hu11 hv11 e11 => ?_
  asm_simp at e11 ⊢
  refine exec_adox (by asm_side) (by asm_side) (by asm_side) fun v12 c12 hv12 hc12 e12 => ?_
  asm_simp at e12 ⊢
  refine exec_adcx (by asm_side) (by asm_side) (by asm_side) fun v13 c13 hv13 hc13 e13 => ?_
  asm_simp at e13 ⊢
  refine exec_adox (by asm_side) (by asm_side) (by asm_side) fun v14 c14 hv14 hc14 e14 => ?_
  asm_simp at e14 ⊢
  have hz : v3 = 0 := by
    refine low_zero hinv (k := v1) (x := r8) ?_ e2 (v := v3) (c := c3) (by rw [← e3]; ring) hv3
    rw [e1, Nat.add_mul_mod_self_left, Nat.mod_eq_of_lt hv1]
  refine ⟨by asm_side, by asm_side, by asm_side, by asm_side, rfl, rfl, by asm_side, by asm_side, v1, hv1, ?_⟩
  rw [quad, quad, quad, run]
  dsimp only
  linear_combination hz - W ^ 4 * hz + e2 + e3 + W * (e4 + e5 + e6) + W ^ 2 * (e7 + e8 + e9) +
    W ^ 3 * (e10 + e11 + e12) + W ^ 4 * (e13 + e14)

/-- derive/src/field/asm/limb4.rs:107-127. -/
def fm1 : List Instr :=
  [.mov .rdx (.reg .r9), .mulx .rcx .rdx (.reg .r15), .mulx .rcx .rax (.mem .m 0), .adox .r9 (.reg .rax), .adcx .r10
   (.reg .rcx), .mulx .rcx .rax (.mem .m 1), .adox .r10 (.reg .rax), .adcx .r11 (.reg .rcx), .mulx .rcx .rax (.mem .m 2),
   .adox .r11 (.reg .rax), .adcx .r8 (.reg .rcx), .mulx .rcx .rax (.mem .m 3), .adox .r8 (.reg .rax), .adcx .r9 (.reg
   .rcx), .adox .r9 (.reg .r12)]

def Fm1Post (T M inv : ℕ) (s : State) : Prop :=
  s.r10 < W ∧ s.r11 < W ∧ s.r8 < W ∧ s.r9 < W ∧ s.r12 = 0 ∧ s.r15 = inv ∧ s.cf ≤ 1 ∧ s.of ≤ 1 ∧
    ∃ k < W, T + k * M = W * (quad s.r10 s.r11 s.r8 s.r9 + W ^ 4 * (s.cf + s.of))

theorem fm1_spec (hm0 : m0 < W) (hm1 : m1 < W) (hm2 : m2 < W) (hm3 : m3 < W) (hinv : IsInv [m0, m1, m2, m3] inv)
    (hi : inv < W) (s : State) (h8 : s.r8 < W) (h9 : s.r9 < W) (h10 : s.r10 < W) (h11 : s.r11 < W) (h12 : s.r12 = 0)
    (h15 : s.r15 = inv) (hcf : s.cf = 0) (hof : s.of = 0) (a b : List ℕ) :
    Fm1Post (quad s.r9 s.r10 s.r11 s.r8) (quad m0 m1 m2 m3) inv (run (env [m0, m1, m2, m3] a b inv junk) fm1 s) := by
  obtain ⟨rax, rcx, rdx, r8, r9, r10, r11, r12, r13, r14, r15, cf, of, zf⟩ := s
  dsimp only at h8 h9 h10 h11 h12 h15 hcf hof ⊢
  subst h12 h15 hcf hof
  rw [fm1]
  refine exec_mov ?_
  asm_simp
  refine exec_mulx (by asm_side) (by asm_side) fun u1 v1 hu1 hv1 e1 => ?_
  asm_simp at e1 ⊢
  refine exec_mulx (by asm_side) (by asm_side) fun u2 v2 hu2 hv2 e2 => ?_
  asm_simp at e2 ⊢
  refine exec_adox (by asm_side) (by asm_side) (by asm_side) fun v3 c3 hv3 hc3 e3 => ?_
  asm_simp at e3 ⊢
  refine exec_adcx (by asm_side) (by asm_side) (by asm_side) fun v4 c4 hv4 hc4 e4 => ?_
  asm_simp at e4 ⊢
  refine exec_mulx (by asm_side) (by asm_side) fun u5 v5 hu5 hv5 e5 => ?_
  asm_simp at e5 ⊢
  refine exec_adox (by asm_side) (by asm_side) (by asm_side) fun v6 c6 hv6 hc6 e6 => ?_
  asm_simp at e6 ⊢
  refine exec_adcx (by asm_side) (by asm_side) (by asm_side) fun v7 c7 hv7 hc7 e7 => ?_
  asm_simp at e7 ⊢
  refine exec_mulx (by asm_side) (by asm_side) fun u8 v8 hu8 hv8 e8 => ?_
  asm_simp at e8 ⊢
  refine exec_adox (by asm_side) (by asm_side) (by asm_side) fun v9 c9 hv9 hc9 e9 => ?_
  asm_simp at e9 ⊢
  refine exec_adcx (by asm_side) (by asm_side) (by asm_side) fun v10 c10 hv10 hc10 e10 => ?_
  asm_simp at e10 ⊢
  refine exec_mulx (by asm_side) (by asm_side) fun u11 v11 hu11 hv11 e11 => ?_
  asm_simp at e11 ⊢
  refine exec_adox (by asm_side) (by asm_side) (by asm_side) fun v12 c12 hv12 hc12 e12 => ?_
  asm_simp at e12 ⊢
  refine exec_adcx (by asm_side) (by asm_side) (by asm_side) fun v13 c13 hv13 hc13 e13 => ?_
  asm_simp at e13 ⊢
  refine exec_adox (by asm_side) (by asm_side) (by asm_side) fun v14 c14 hv14 hc14 e14 => ?_
  asm_simp at e14 ⊢
  have hz : v3 = 0 := by
    refine low_zero hinv (k := v1) (x := r9) ?_ e2 (v := v3) (c := c3) (by rw [← e3]; ring) hv3
    rw [e1, Nat.add_mul_mod_self_left, Nat.mod_eq_of_lt hv1]
  refine ⟨by asm_side, by asm_side, by asm_side, by asm_side, rfl, rfl, by asm_side, by asm_side, v1, hv1, ?_⟩
  rw [quad, quad, quad, run]
  dsimp only
  linear_combination hz - W ^ 4 * hz + e2 + e3 + W * (e4 + e5 + e6) + W ^ 2 * (e7 + e8 + e9) +
    W ^ 3 * (e10 + e11 + e12) + W ^ 4 * (e13 + e14)

/-- derive/src/field/asm/limb4.rs:130-152. -/
def fm2 : List Instr :=
  [.mov .rdx (.reg .r10), .mulx .rcx .rdx (.reg .r15), .mulx .rcx .rax (.mem .m 0), .adox .r10 (.reg .rax), .adcx .r11
   (.reg .rcx), .mulx .rcx .rax (.mem .m 1), .adox .r11 (.reg .rax), .adcx .r8 (.reg .rcx), .mulx .rcx .rax (.mem .m 2),
   .adox .r8 (.reg .rax), .adcx .r9 (.reg .rcx), .mulx .rcx .rax (.mem .m 3), .adox .r9 (.reg .rax), .adcx .r10 (.reg
   .rcx), .adox .r10 (.reg .r12)]

def Fm2Post (T M inv : ℕ) (s : State) : Prop :=
  s.r11 < W ∧ s.r8 < W ∧ s.r9 < W ∧ s.r10 < W ∧ s.r12 = 0 ∧ s.r15 = inv ∧ s.cf ≤ 1 ∧ s.of ≤ 1 ∧
    ∃ k < W, T + k * M = W * (quad s.r11 s.r8 s.r9 s.r10 + W ^ 4 * (s.cf + s.of))

theorem fm2_spec (hm0 : m0 < W) (hm1 : m1 < W) (hm2 : m2 < W) (hm3 : m3 < W) (hinv : IsInv [m0, m1, m2, m3] inv)
    (hi : inv < W) (s : State) (h8 : s.r8 < W) (h9 : s.r9 < W) (h10 : s.r10 < W) (h11 : s.r11 < W) (h12 : s.r12 = 0)
    (h15 : s.r15 = inv) (hcf : s.cf = 0) (hof : s.of = 0) (a b : List ℕ) :
    Fm2Post (quad s.r10 s.r11 s.r8 s.r9) (quad m0 m1 m2 m3) inv (run (env [m0, m1, m2, m3] a b inv junk) fm2 s) := by
  obtain ⟨rax, rcx, rdx, r8, r9, r10, r11, r12, r13, r14, r15, cf, of, zf⟩ := s
  dsimp only at h8 h9 h10 h11 h12 h15 hcf hof ⊢
  subst h12 h15 hcf hof
  rw [fm2]
  refine exec_mov ?_
  asm_simp
  refine exec_mulx (by asm_side) (by asm_side) fun u1 v1 hu1 hv1 e1 => ?_
  asm_simp at e1 ⊢
  refine exec_mulx (by asm_side) (by asm_side) fun u2 v2 hu2 hv2 e2 => ?_
  asm_simp at e2 ⊢
  refine exec_adox (by asm_side) (by asm_side) (by asm_side) fun v3 c3 hv3 hc3 e3 => ?_
  asm_simp at e3 ⊢
  refine exec_adcx (by asm_side) (by asm_side) (by asm_side) fun v4 c4 hv4 hc4 e4 => ?_
  asm_simp at e4 ⊢
  refine exec_mulx (by asm_side) (by asm_side) fun u5 v5 hu5 hv5 e5 => ?_
  asm_simp at e5 ⊢
  refine exec_adox (by asm_side) (by asm_side) (by asm_side) fun v6 c6 hv6 hc6 e6 => ?_
  asm_simp at e6 ⊢
  refine exec_adcx (by asm_side) (by asm_side) (by asm_side) fun v7 c7 hv7 hc7 e7 => ?_
  asm_simp at e7 ⊢
  refine exec_mulx (by asm_side) (by asm_side) fun u8 v8 hu8 hv8 e8 => ?_
  asm_simp at e8 ⊢
  refine exec_adox (by asm_side) (by asm_side) (by asm_side) fun v9 c9 hv9 hc9 e9 => ?_
  asm_simp at e9 ⊢
  refine exec_adcx (by asm_side) (by asm_side) (by asm_side) fun v10 c10 hv10 hc10 e10 => ?_
  asm_simp at e10 ⊢
  refine exec_mulx (by asm_side) (by asm_side) fun u11 v11 hu11 hv11 e11 => ?_
  asm_simp at e11 ⊢
  refine exec_adox (by asm_side) (by asm_side) (by asm_side) fun v12 c12 hv12 hc12 e12 => ?_
  asm_simp at e12 ⊢
  refine exec_adcx (by asm_side) (by asm_side) (by asm_side) fun v13 c13 hv13 hc13 e13 => ?_
  asm_simp at e13 ⊢
  refine exec_adox (by asm_side) (by asm_side) (by asm_side) fun v14 c14 hv14 hc14 e14 => ?_
  asm_simp at e14 ⊢
  have hz : v3 = 0 := by
    refine low_zero hinv (k := v1) (x := r10) ?_ e2 (v := v3) (c := c3) (by rw [← e3]; ring) hv3
    rw [e1, Nat.add_mul_mod_self_left, Nat.mod_eq_of_lt hv1]
  refine ⟨by asm_side, by asm_side, by asm_side, by asm_side, rfl, rfl, by asm_side, by asm_side, v1, hv1, ?_⟩
  rw [quad, quad, quad, run]
  dsimp only
  linear_combination hz - W ^ 4 * hz + e2 + e3 + W * (e4 + e5 + e6) + W ^ 2 * (e7 + e8 + e9) +
    W ^ 3 * (e10 + e11 + e12) + W ^ 4 * (e13 + e14)

/-- derive/src/field/asm/limb4.rs:155-173. -/
def fm3 : List Instr :=
  [.mov .rdx (.reg .r11), .mulx .rcx .rdx (.reg .r15), .mulx .rcx .rax (.mem .m 0), .adox .r11 (.reg .rax), .adcx .r8
   (.reg .rcx), .mulx .rcx .rax (.mem .m 1), .adox .r8 (.reg .rax), .adcx .r9 (.reg .rcx), .mulx .rcx .rax (.mem .m 2),
   .adox .r9 (.reg .rax), .adcx .r10 (.reg .rcx), .mulx .rcx .rax (.mem .m 3), .adox .r10 (.reg .rax), .adcx .r11 (.reg
   .rcx), .adox .r11 (.reg .r12)]

def Fm3Post (T M inv : ℕ) (s : State) : Prop :=
  s.r8 < W ∧ s.r9 < W ∧ s.r10 < W ∧ s.r11 < W ∧ s.r12 = 0 ∧ s.r15 = inv ∧ s.cf ≤ 1 ∧ s.of ≤ 1 ∧
    ∃ k < W, T + k * M = W * (quad s.r8 s.r9 s.r10 s.r11 + W ^ 4 * (s.cf + s.of))

theorem fm3_spec (hm0 : m0 < W) (hm1 : m1 < W) (hm2 : m2 < W) (hm3 : m3 < W) (hinv : IsInv [m0, m1, m2, m3] inv)
    (hi : inv < W) (s : State) (h8 : s.r8 < W) (h9 : s.r9 < W) (h10 : s.r10 < W) (h11 : s.r11 < W) (h12 : s.r12 = 0)
    (h15 : s.r15 = inv) (hcf : s.cf = 0) (hof : s.of = 0) (a b : List ℕ) :
    Fm3Post (quad s.r11 s.r8 s.r9 s.r10) (quad m0 m1 m2 m3) inv (run (env [m0, m1, m2, m3] a b inv junk) fm3 s) := by
  obtain ⟨rax, rcx, rdx, r8, r9, r10, r11, r12, r13, r14, r15, cf, of, zf⟩ := s
  dsimp only at h8 h9 h10 h11 h12 h15 hcf hof ⊢
  subst h12 h15 hcf hof
  rw [fm3]
  refine exec_mov ?_
  asm_simp
  refine exec_mulx (by asm_side) (by asm_side) fun u1 v1 hu1 hv1 e1 => ?_
  asm_simp at e1 ⊢
  refine exec_mulx (by asm_side) (by asm_side) fun u2 v2 hu2 hv2 e2 => ?_
  asm_simp at e2 ⊢
  refine exec_adox (by asm_side) (by asm_side) (by asm_side) fun v3 c3 hv3 hc3 e3 => ?_
  asm_simp at e3 ⊢
  refine exec_adcx (by asm_side) (by asm_side) (by asm_side) fun v4 c4 hv4 hc4 e4 => ?_
  asm_simp at e4 ⊢
  refine exec_mulx (by asm_side) (by asm_side) fun u5 v5 hu5 hv5 e5 => ?_
  asm_simp at e5 ⊢
  refine exec_adox (by asm_side) (by asm_side) (by asm_side) fun v6 c6 hv6 hc6 e6 => ?_
  asm_simp at e6 ⊢
  refine exec_adcx (by asm_side) (by asm_side) (by asm_side) fun v7 c7 hv7 hc7 e7 => ?_
  asm_simp at e7 ⊢
  refine exec_mulx (by asm_side) (by asm_side) fun u8 v8 hu8 hv8 e8 => ?_
  asm_simp at e8 ⊢
  refine exec_adox (by asm_side) (by asm_side) (by asm_side) fun v9 c9 hv9 hc9 e9 => ?_
  asm_simp at e9 ⊢
  refine exec_adcx (by asm_side) (by asm_side) (by asm_side) fun v10 c10 hv10 hc10 e10 => ?_
  asm_simp at e10 ⊢
  refine exec_mulx (by asm_side) (by asm_side) fun u11 v11 hu11 hv11 e11 => ?_
  asm_simp at e11 ⊢
  refine exec_adox (by asm_side) (by asm_side) (by asm_side) fun v12 c12 hv12 hc12 e12 => ?_
  asm_simp at e12 ⊢
  refine exec_adcx (by asm_side) (by asm_side) (by asm_side) fun v13 c13 hv13 hc13 e13 => ?_
  asm_simp at e13 ⊢
  refine exec_adox (by asm_side) (by asm_side) (by asm_side) fun v14 c14 hv14 hc14 e14 => ?_
  asm_simp at e14 ⊢
  have hz : v3 = 0 := by
    refine low_zero hinv (k := v1) (x := r11) ?_ e2 (v := v3) (c := c3) (by rw [← e3]; ring) hv3
    rw [e1, Nat.add_mul_mod_self_left, Nat.mod_eq_of_lt hv1]
  refine ⟨by asm_side, by asm_side, by asm_side, by asm_side, rfl, rfl, by asm_side, by asm_side, v1, hv1, ?_⟩
  rw [quad, quad, quad, run]
  dsimp only
  linear_combination hz - W ^ 4 * hz + e2 + e3 + W * (e4 + e5 + e6) + W ^ 2 * (e7 + e8 + e9) +
    W ^ 3 * (e10 + e11 + e12) + W ^ 4 * (e13 + e14)

end Halo2.Asm
