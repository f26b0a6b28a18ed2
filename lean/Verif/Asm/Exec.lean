import Verif.Asm.Machine
import Mathlib.Tactic.Ring

/-!
# Rules for executing one instruction
-/

namespace Halo2.Asm

open Halo2

variable {E : Env} {Q : State → Prop} {s : State} {is : List Instr}

theorem exec_mov {d : Reg} {x : Src} (h : Q (run E is (s.set d (E.src s x)))) : Q (run E (.mov d x :: is) s) := h

theorem exec_add {d : Reg} {x : Src} (hd : s.get d < W) (hx : E.src s x < W)
    (h : ∀ v c o z, v < W → c ≤ 1 → s.get d + E.src s x = v + W * c → Q (run E is ((s.set d v).flags c o z))) :
    Q (run E (.add d x :: is) s) := by
  refine h _ _ _ _ (Nat.mod_lt _ (by decide)) ?_ (Nat.mod_add_div _ _).symm
  rw [W] at *
  omega

theorem exec_adc {d : Reg} {x : Src} (hd : s.get d < W) (hx : E.src s x < W) (hc : s.cf ≤ 1)
    (h : ∀ v c o z, v < W → c ≤ 1 → s.get d + E.src s x + s.cf = v + W * c → Q (run E is ((s.set d v).flags c o z))) :
    Q (run E (.adc d x :: is) s) := by
  refine h _ _ _ _ (Nat.mod_lt _ (by decide)) ?_ (Nat.mod_add_div _ _).symm
  rw [W] at *
  omega

theorem exec_sub {d : Reg} {x : Src} (hd : s.get d < W) (hx : E.src s x < W)
    (h : ∀ v c o z, v < W → c ≤ 1 → s.get d + W * c = v + E.src s x → Q (run E is ((s.set d v).flags c o z))) :
    Q (run E (.sub d x :: is) s) := by
  refine h _ _ _ _ (Nat.mod_lt _ (by decide)) (Nat.sub_le _ _) ?_
  rw [W] at *
  omega

theorem exec_sbb {d : Reg} {x : Src} (hd : s.get d < W) (hx : E.src s x < W) (hc : s.cf ≤ 1)
    (h : ∀ v c o z, v < W → c ≤ 1 → s.get d + W * c = v + E.src s x + s.cf → Q (run E is ((s.set d v).flags c o z))) :
    Q (run E (.sbb d x :: is) s) := by
  refine h _ _ _ _ (Nat.mod_lt _ (by decide)) (Nat.sub_le _ _) ?_
  rw [W] at *
  omega

/-- `sbb r, r` spreads the carry flag. -/
theorem exec_sbb_self {d : Reg} (hc : s.cf ≤ 1)
    (h : ∀ o z, Q (run E is ((s.set d ((W - 1) * s.cf)).flags s.cf o z))) :
    Q (run E (.sbb d (.reg d) :: is) s) := by
  change Q (run E is ((s.set d ((s.get d + W - s.get d - s.cf) % W)).flags (1 - (s.get d + W - s.get d - s.cf) / W) (E.bit s)
    (isz ((s.get d + W - s.get d - s.cf) % W))))
  have h1 : (s.get d + W - s.get d - s.cf) % W = (W - 1) * s.cf := by
    rw [W]
    rcases Nat.le_one_iff_eq_zero_or_eq_one.mp hc with h | h <;> rw [h] <;> omega
  have h2 : 1 - (s.get d + W - s.get d - s.cf) / W = s.cf := by
    rw [W]
    rcases Nat.le_one_iff_eq_zero_or_eq_one.mp hc with h | h <;> rw [h] <;> omega
  rw [h1, h2]
  exact h _ _

theorem exec_adcx {d : Reg} {x : Src} (hd : s.get d < W) (hx : E.src s x < W) (hc : s.cf ≤ 1)
    (h : ∀ v c, v < W → c ≤ 1 → s.get d + E.src s x + s.cf = v + W * c → Q (run E is ((s.set d v).flags c s.of s.zf))) :
    Q (run E (.adcx d x :: is) s) := by
  refine h _ _ (Nat.mod_lt _ (by decide)) ?_ (Nat.mod_add_div _ _).symm
  rw [W] at *
  omega

theorem exec_adox {d : Reg} {x : Src} (hd : s.get d < W) (hx : E.src s x < W) (hc : s.of ≤ 1)
    (h : ∀ v c, v < W → c ≤ 1 → s.get d + E.src s x + s.of = v + W * c → Q (run E is ((s.set d v).flags s.cf c s.zf))) :
    Q (run E (.adox d x :: is) s) := by
  refine h _ _ (Nat.mod_lt _ (by decide)) ?_ (Nat.mod_add_div _ _).symm
  rw [W] at *
  omega

theorem exec_mulx {hi lo : Reg} {x : Src} (hd : s.rdx < W) (hx : E.src s x < W)
    (h : ∀ u v, u < W → v < W → s.rdx * E.src s x = v + W * u → Q (run E is ((s.set lo v).set hi u))) :
    Q (run E (.mulx hi lo x :: is) s) := by
  refine h _ _ ?_ (Nat.mod_lt _ (by decide)) (Nat.mod_add_div _ _).symm
  exact Nat.div_lt_of_lt_mul (Nat.mul_lt_mul'' hd hx)

theorem exec_imul {d : Reg} {x : Src}
    (h : ∀ v c o z, v < W → v = s.get d * E.src s x % W → Q (run E is ((s.set d v).flags c o z))) :
    Q (run E (.imul d x :: is) s) := h _ _ _ _ (Nat.mod_lt _ (by decide)) rfl

theorem exec_xor_self {d : Reg} (h : ∀ z, Q (run E is ((s.set d 0).flags 0 0 z))) : Q (run E (.xor d (.reg d) :: is) s) := by
  have := h (isz (s.get d ^^^ s.get d))
  change Q (run E is ((s.set d (s.get d ^^^ s.get d)).flags 0 0 (isz (s.get d ^^^ s.get d))))
  rw [Nat.xor_self] at this ⊢
  exact this

theorem exec_and {d : Reg} {x : Src} (h : ∀ z, Q (run E is ((s.set d (s.get d &&& E.src s x)).flags 0 0 z))) :
    Q (run E (.and d x :: is) s) := h _

theorem exec_or {d : Reg} {x : Src} (h : ∀ z, Q (run E is ((s.set d (s.get d ||| E.src s x)).flags 0 0 z))) :
    Q (run E (.or d x :: is) s) := h _

/-- `cmp r, 0` sets the zero flag. -/
theorem exec_cmp {d : Reg} {x : Src} (hd : s.get d < W) (hx : E.src s x = 0)
    (h : ∀ c o, Q (run E is (s.flags c o (isz (s.get d))))) :
    Q (run E (.cmp d x :: is) s) := by
  have e : (s.get d + W - E.src s x) % W = s.get d := by
    rw [hx, Nat.sub_zero, Nat.add_mod_right, Nat.mod_eq_of_lt hd]
  have e2 : step E s (.cmp d x) = s.flags (1 - (s.get d + W - E.src s x) / W) (E.bit s) (isz ((s.get d + W - E.src s x) % W)) := rfl
  rw [run, e2, e]
  exact h _ _

theorem exec_cmovc {d : Reg} {x : Src}
    (h : Q (run E is (s.set d (if s.cf = 1 then E.src s x else s.get d)))) : Q (run E (.cmovc d x :: is) s) := by
  change Q (run E is (if s.cf = 1 then s.set d (E.src s x) else s))
  by_cases hh : s.cf = 1
  · rw [if_pos hh] at h ⊢
    exact h
  · rw [if_neg hh] at h ⊢
    have : s.set d (s.get d) = s := by cases d <;> rfl
    rwa [this] at h

theorem exec_cmovnc {d : Reg} {x : Src}
    (h : Q (run E is (s.set d (if s.cf = 0 then E.src s x else s.get d)))) : Q (run E (.cmovnc d x :: is) s) := by
  change Q (run E is (if s.cf = 0 then s.set d (E.src s x) else s))
  by_cases hh : s.cf = 0
  · rw [if_pos hh] at h ⊢
    exact h
  · rw [if_neg hh] at h ⊢
    have : s.set d (s.get d) = s := by cases d <;> rfl
    rwa [this] at h

theorem exec_cmove {d : Reg} {x : Src}
    (h : Q (run E is (s.set d (if s.zf = 1 then E.src s x else s.get d)))) : Q (run E (.cmove d x :: is) s) := by
  change Q (run E is (if s.zf = 1 then s.set d (E.src s x) else s))
  by_cases hh : s.zf = 1
  · rw [if_pos hh] at h ⊢
    exact h
  · rw [if_neg hh] at h ⊢
    have : s.set d (s.get d) = s := by cases d <;> rfl
    rwa [this] at h

end Halo2.Asm
