import Verif.Asm.Programs

/-!
# The operands of the `asm!` blocks and what they promise to the compiler

Each block lists its inputs and the registers it writes, with `options(pure, readonly, nostack)`. The compiler relies on the list: a register
that is written but not listed, or an output that depends on what a register held before, would be undefined behaviour.
-/

namespace Halo2.Asm

open Halo2

deriving instance DecidableEq for Reg, Ptr

/-- The operands of a block. -/
structure Operands where
  /-- The pointers handed in with `in(reg)`. -/
  ptrs : List Ptr
  /-- Is `inv` handed in? -/
  inv : Bool
  /-- The outputs with a name, `r0` to `r3` in this order. -/
  outs : List Reg
  /-- The outputs that are thrown away, `out("…") _`. -/
  scratch : List Reg

/-- A block: instructions and operands. -/
structure Block where
  prog : List Instr
  ops : Operands

/-- derive/src/field/asm/limb4.rs:15-57. -/
def doubleBlock : Block := ⟨doubleProg, [.m, .a], false, [.r12, .r13, .r14, .r15], [.r8, .r9, .r10, .r11]⟩

/-- derive/src/field/asm/limb4.rs:76-194. -/
def fromMontBlock : Block :=
  ⟨fromMontProg, [.a, .m], true, [.r8, .r9, .r10, .r11], [.rax, .rcx, .rdx, .r12, .r13, .r14, .r15]⟩

/-- derive/src/field/asm/limb4.rs:207-432. -/
def mulBlock : Block := ⟨mulProg, [.m, .a, .b], true, [.r11, .r13, .rax, .r14], [.rdx, .r10, .r12, .r15]⟩

/-- derive/src/field/asm/limb4.rs:446-493. -/
def subBlock : Block := ⟨subProg, [.m, .a, .b], false, [.r12, .r13, .r14, .r15], [.rax, .r8, .r9, .r10, .r11]⟩

/-- derive/src/field/asm/limb4.rs:506-549. -/
def addBlock : Block := ⟨addProg, [.m, .a, .b], false, [.r12, .r13, .r14, .r15], [.r8, .r9, .r10, .r11]⟩

/-- derive/src/field/asm/limb4.rs:562-603. -/
def negBlock : Block := ⟨negProg, [.a, .m], false, [.r8, .r9, .r10, .r11], [.r12, .r13, .r14, .r15]⟩

/-- The six blocks of the file. -/
def blocks : List Block := [doubleBlock, fromMontBlock, mulBlock, subBlock, addBlock, negBlock]

/-- The source operand of an instruction. -/
def Instr.source : Instr → Src
  | .mov _ x | .add _ x | .adc _ x | .sub _ x | .sbb _ x | .adcx _ x | .adox _ x | .mulx _ _ x | .imul _ x | .xor _ x | .and _ x
  | .or _ x | .cmp _ x | .cmovc _ x | .cmovnc _ x | .cmove _ x => x

/-- The registers an instruction writes. -/
def Instr.writes : Instr → List Reg
  | .mov d _ | .add d _ | .adc d _ | .sub d _ | .sbb d _ | .adcx d _ | .adox d _ | .imul d _ | .xor d _ | .and d _ | .or d _
  | .cmovc d _ | .cmovnc d _ | .cmove d _ => [d]
  | .mulx hi lo _ => [hi, lo]
  | .cmp _ _ => []

/-- The words of memory a program reads, in order. -/
def reads (is : List Instr) : List (Ptr × ℕ) := is.filterMap fun i => match i.source with
  | .mem p n => some (p, n)
  | _ => none

/-! ### Registers that are not written -/

theorem get_set (s : State) (r r' : Reg) (v : ℕ) : (s.set r v).get r' = if r = r' then v else s.get r' := by
  cases r <;> cases r' <;> rfl

theorem get_flags (s : State) (c o z : ℕ) (r : Reg) : (s.flags c o z).get r = s.get r := by cases r <;> rfl

theorem set_cf (s : State) (r : Reg) (v : ℕ) : (s.set r v).cf = s.cf := by cases r <;> rfl
theorem set_of (s : State) (r : Reg) (v : ℕ) : (s.set r v).of = s.of := by cases r <;> rfl
theorem set_zf (s : State) (r : Reg) (v : ℕ) : (s.set r v).zf = s.zf := by cases r <;> rfl
theorem set_get (s : State) (r : Reg) : s.set r (s.get r) = s := by cases r <;> rfl

theorem step_get (E : Env) (s : State) (i : Instr) (r : Reg) (h : r ∉ i.writes) : (step E s i).get r = s.get r := by
  cases i <;> simp only [Instr.writes, List.mem_cons, List.not_mem_nil, or_false, not_or] at h <;>
    simp only [step, get_flags, get_set] <;> first
    | rw [if_neg (Ne.symm h)]
    | rw [if_neg (Ne.symm h.1), if_neg (Ne.symm h.2)]
    | (split
       · rw [get_set, if_neg (Ne.symm h)]
       · rfl)

theorem run_get (E : Env) (r : Reg) (is : List Instr) (h : ∀ i ∈ is, r ∉ i.writes) (s : State) : (run E is s).get r = s.get r := by
  induction is generalizing s with
  | nil => rfl
  | cons i is ih =>
    rw [run, ih (fun j hj => h j (List.mem_cons_of_mem _ hj)), step_get E s i r (h i List.mem_cons_self)]

/-! ### What is determined by the inputs -/

/-- Registers and flags whose content is determined by the inputs. -/
structure Known where
  regs : List Reg
  cf : Bool
  of : Bool
  zf : Bool

namespace Known

def put (k : Known) (d : Reg) (t : Bool) : Known :=
  { k with regs := if t then d :: k.regs else k.regs.filter fun r => decide (r ≠ d) }

def flags (k : Known) (c o z : Bool) : Known := { k with cf := c, of := o, zf := z }

/-- Is the value of a source operand determined? -/
def src (ops : Operands) (k : Known) : Src → Bool
  | .reg r => k.regs.contains r
  | .mem p i => ops.ptrs.contains p && decide (i < 4)
  | .imm _ => true
  | .inv => ops.inv

/-- One instruction; `xor` and `sbb` of a register with itself do not depend on what the register holds. -/
def step (ops : Operands) (k : Known) : Instr → Known
  | .mov d x => k.put d (src ops k x)
  | .add d x | .sub d x =>
    let t := k.regs.contains d && src ops k x
    (k.put d t).flags t false t
  | .sbb d (.reg r) =>
    let t := (decide (r = d) || k.regs.contains d && k.regs.contains r) && k.cf
    (k.put d t).flags t false t
  | .adc d x | .sbb d x =>
    let t := k.regs.contains d && src ops k x && k.cf
    (k.put d t).flags t false t
  | .adcx d x =>
    let t := k.regs.contains d && src ops k x && k.cf
    (k.put d t).flags t k.of k.zf
  | .adox d x =>
    let t := k.regs.contains d && src ops k x && k.of
    (k.put d t).flags k.cf t k.zf
  | .mulx hi lo x =>
    let t := k.regs.contains .rdx && src ops k x
    (k.put lo t).put hi t
  | .imul d x => (k.put d (k.regs.contains d && src ops k x)).flags false false false
  | .xor d (.reg r) =>
    let t := decide (r = d) || k.regs.contains d && k.regs.contains r
    (k.put d t).flags true true t
  | .xor d x | .and d x | .or d x =>
    let t := k.regs.contains d && src ops k x
    (k.put d t).flags true true t
  | .cmp d x =>
    let t := k.regs.contains d && src ops k x
    k.flags t false t
  | .cmovc d x | .cmovnc d x => k.put d (k.regs.contains d && src ops k x && k.cf)
  | .cmove d x => k.put d (k.regs.contains d && src ops k x && k.zf)

/-- Evaluate a condition before it is passed on. -/
def force {α : Type} (b : Bool) (f : Bool → α) : α := match b with
  | true => f true
  | false => f false

/-- The registers of a list without repetition, evaluated. -/
def forceRegs {α : Type} (l : List Reg) : List Reg → List Reg → (List Reg → α) → α
  | [], acc, f => f acc
  | r :: rs, acc, f => match l.contains r with
    | true => forceRegs l rs (r :: acc) f
    | false => forceRegs l rs acc f

def allRegs : List Reg := [.rax, .rcx, .rdx, .r8, .r9, .r10, .r11, .r12, .r13, .r14, .r15]

/-- The instructions one after the other, each evaluated before the next. -/
def run (ops : Operands) : Known → List Instr → Known
  | k, [] => k
  | k, i :: is =>
    let k' := step ops k i
    forceRegs k'.regs allRegs [] fun r => force k'.cf fun c => force k'.of fun o => force k'.zf fun z => run ops ⟨r, c, o, z⟩ is

theorem force_eq {α : Type} (b : Bool) (f : Bool → α) : force b f = f b := by cases b <;> rfl

theorem forceRegs_eq {α : Type} (l rs acc : List Reg) (f : List Reg → α) (h : ∀ r ∈ acc, r ∈ l) :
    ∃ m, (∀ r ∈ m, r ∈ l) ∧ forceRegs l rs acc f = f m := by
  induction rs generalizing acc with
  | nil => exact ⟨acc, h, rfl⟩
  | cons r rs ih =>
    rw [forceRegs]
    cases hc : l.contains r with
    | true => exact ih (r :: acc) fun x hx => (List.mem_cons.mp hx).elim (fun e => e ▸ List.contains_iff_mem.mp hc) (h x)
    | false => exact ih acc h

/-- Nothing is known before the block. -/
def start : Known := ⟨[], false, false, false⟩

end Known

/-- Two environments with the same inputs: the first four words behind each pointer handed in, and `inv` if it is. -/
def SameInputs (ops : Operands) (E E' : Env) : Prop :=
  (∀ p ∈ ops.ptrs, ∀ i < 4, (E.ptr p).getD i 0 = (E'.ptr p).getD i 0) ∧ (ops.inv = true → E.inv = E'.inv)

/-- Two states agree on what is known. -/
def Agree (k : Known) (s s' : State) : Prop :=
  (∀ r ∈ k.regs, s.get r = s'.get r) ∧ (k.cf = true → s.cf = s'.cf) ∧ (k.of = true → s.of = s'.of) ∧ (k.zf = true → s.zf = s'.zf)

theorem Agree.get {k : Known} {s s' : State} (h : Agree k s s') {r : Reg} (hr : k.regs.contains r = true) : s.get r = s'.get r :=
  h.1 r (List.contains_iff_mem.mp hr)

theorem Agree.put {k : Known} {s s' : State} (h : Agree k s s') (d : Reg) {t : Bool} {v v' : ℕ} (hv : t = true → v = v') :
    Agree (k.put d t) (s.set d v) (s'.set d v') := by
  refine ⟨fun r hr => ?_, ?_, ?_, ?_⟩
  · rw [get_set, get_set]
    split
    · next e =>
      cases t with
      | true => exact hv rfl
      | false => simp [Known.put, e] at hr
    · next e =>
      refine h.1 r ?_
      cases t with
      | true => exact (List.mem_cons.mp hr).resolve_left (Ne.symm e)
      | false => exact (List.mem_filter.mp hr).1
  · rw [set_cf, set_cf]; exact h.2.1
  · rw [set_of, set_of]; exact h.2.2.1
  · rw [set_zf, set_zf]; exact h.2.2.2

theorem Agree.flags {k : Known} {s s' : State} (h : Agree k s s') {c o z : Bool} {a b d a' b' d' : ℕ} (h1 : c = true → a = a')
    (h2 : o = true → b = b') (h3 : z = true → d = d') : Agree (k.flags c o z) (s.flags a b d) (s'.flags a' b' d') :=
  ⟨fun r hr => by rw [get_flags, get_flags]; exact h.1 r hr, h1, h2, h3⟩

theorem src_eq {ops : Operands} {E E' : Env} (hE : SameInputs ops E E') {k : Known} {s s' : State} (h : Agree k s s') {x : Src}
    (hx : Known.src ops k x = true) : E.src s x = E'.src s' x := by
  cases x with
  | reg r => exact h.get hx
  | mem p i =>
    rw [Known.src, Bool.and_eq_true, decide_eq_true_iff] at hx
    exact hE.1 p (List.contains_iff_mem.mp hx.1) i hx.2
  | imm n => rfl
  | inv => exact hE.2 hx

theorem if_set (c : Prop) [Decidable c] (s : State) (d : Reg) (v : ℕ) :
    (if c then s.set d v else s) = s.set d (if c then v else s.get d) := by
  split
  · rfl
  · exact (set_get s d).symm

theorem agree_step {ops : Operands} {E E' : Env} (hE : SameInputs ops E E') {k : Known} {s s' : State} (h : Agree k s s') (i : Instr) :
    Agree (k.step ops i) (step E s i) (step E' s' i) := by
  have two : ∀ {d x}, (k.regs.contains d && Known.src ops k x) = true → s.get d = s'.get d ∧ E.src s x = E'.src s' x := fun {d x} e => by
    rw [Bool.and_eq_true] at e
    exact ⟨h.get e.1, src_eq hE h e.2⟩
  have three : ∀ {d x b} {v v' : ℕ}, (b = true → v = v') → (k.regs.contains d && Known.src ops k x && b) = true →
      s.get d = s'.get d ∧ E.src s x = E'.src s' x ∧ v = v' := fun {d x b v v'} hb e => by
    rw [Bool.and_eq_true] at e
    exact ⟨(two e.1).1, (two e.1).2, hb e.2⟩
  cases i with
  | mov d x => exact h.put d fun e => src_eq hE h e
  | add d x =>
    refine (h.put d fun e => ?_).flags (fun e => ?_) (fun e => nomatch e) fun e => ?_ <;> rw [(two e).1, (two e).2]
  | sub d x =>
    refine (h.put d fun e => ?_).flags (fun e => ?_) (fun e => nomatch e) fun e => ?_ <;> rw [(two e).1, (two e).2]
  | adc d x =>
    refine (h.put d fun e => ?_).flags (fun e => ?_) (fun e => nomatch e) fun e => ?_ <;>
      rw [(three h.2.1 e).1, (three h.2.1 e).2.1, (three h.2.1 e).2.2]
  | sbb d x =>
    cases x with
    | reg r =>
      have key : ((decide (r = d) || k.regs.contains d && k.regs.contains r) && k.cf) = true →
          s.get d + W - s.get r - s.cf = s'.get d + W - s'.get r - s'.cf := fun e => by
        rw [Bool.and_eq_true, Bool.or_eq_true, decide_eq_true_iff, Bool.and_eq_true] at e
        rw [h.2.1 e.2]
        rcases e.1 with rfl | ⟨e1, e2⟩
        · rw [Nat.add_sub_cancel_left, Nat.add_sub_cancel_left]
        · rw [h.get e1, h.get e2]
      exact (h.put d fun e => congrArg (· % W) (key e)).flags (fun e => congrArg (fun t => 1 - t / W) (key e)) (fun e => nomatch e)
        fun e => congrArg (fun t => isz (t % W)) (key e)
    | mem p n =>
      refine (h.put d fun e => ?_).flags (fun e => ?_) (fun e => nomatch e) fun e => ?_ <;>
        rw [(three h.2.1 e).1, (three h.2.1 e).2.1, (three h.2.1 e).2.2]
    | imm n =>
      refine (h.put d fun e => ?_).flags (fun e => ?_) (fun e => nomatch e) fun e => ?_ <;>
        rw [(three h.2.1 e).1, (three h.2.1 e).2.1, (three h.2.1 e).2.2]
    | inv =>
      refine (h.put d fun e => ?_).flags (fun e => ?_) (fun e => nomatch e) fun e => ?_ <;>
        rw [(three h.2.1 e).1, (three h.2.1 e).2.1, (three h.2.1 e).2.2]
  | adcx d x =>
    refine (h.put d fun e => ?_).flags (fun e => ?_) h.2.2.1 h.2.2.2 <;>
      rw [(three h.2.1 e).1, (three h.2.1 e).2.1, (three h.2.1 e).2.2]
  | adox d x =>
    refine (h.put d fun e => ?_).flags h.2.1 (fun e => ?_) h.2.2.2 <;>
      rw [(three h.2.2.1 e).1, (three h.2.2.1 e).2.1, (three h.2.2.1 e).2.2]
  | mulx hi lo x =>
    refine (h.put lo fun e => ?_).put hi fun e => ?_ <;>
    · have e1 : s.rdx = s'.rdx := (two (d := .rdx) e).1
      rw [e1, (two e).2]
  | imul d x =>
    refine (h.put d fun e => ?_).flags (fun e => nomatch e) (fun e => nomatch e) fun e => nomatch e
    rw [(two e).1, (two e).2]
  | xor d x =>
    cases x with
    | reg r =>
      have key : (decide (r = d) || k.regs.contains d && k.regs.contains r) = true → s.get d ^^^ s.get r = s'.get d ^^^ s'.get r :=
        fun e => by
          rw [Bool.or_eq_true, decide_eq_true_iff, Bool.and_eq_true] at e
          rcases e with rfl | ⟨e1, e2⟩
          · rw [Nat.xor_self, Nat.xor_self]
          · rw [h.get e1, h.get e2]
      exact (h.put d key).flags (fun _ => rfl) (fun _ => rfl) fun e => congrArg isz (key e)
    | mem p n => refine (h.put d fun e => ?_).flags (fun _ => rfl) (fun _ => rfl) fun e => ?_ <;> rw [(two e).1, (two e).2]
    | imm n => refine (h.put d fun e => ?_).flags (fun _ => rfl) (fun _ => rfl) fun e => ?_ <;> rw [(two e).1, (two e).2]
    | inv => refine (h.put d fun e => ?_).flags (fun _ => rfl) (fun _ => rfl) fun e => ?_ <;> rw [(two e).1, (two e).2]
  | and d x => refine (h.put d fun e => ?_).flags (fun _ => rfl) (fun _ => rfl) fun e => ?_ <;> rw [(two e).1, (two e).2]
  | or d x => refine (h.put d fun e => ?_).flags (fun _ => rfl) (fun _ => rfl) fun e => ?_ <;> rw [(two e).1, (two e).2]
  | cmp d x => refine h.flags (fun e => ?_) (fun e => nomatch e) fun e => ?_ <;> rw [(two e).1, (two e).2]
  | cmovc d x =>
    simp only [step, if_set]
    refine h.put d fun e => ?_
    rw [(three h.2.1 e).1, (three h.2.1 e).2.1, (three h.2.1 e).2.2]
  | cmovnc d x =>
    simp only [step, if_set]
    refine h.put d fun e => ?_
    rw [(three h.2.1 e).1, (three h.2.1 e).2.1, (three h.2.1 e).2.2]
  | cmove d x =>
    simp only [step, if_set]
    refine h.put d fun e => ?_
    rw [(three h.2.2.2 e).1, (three h.2.2.2 e).2.1, (three h.2.2.2 e).2.2]

theorem agree_run {ops : Operands} {E E' : Env} (hE : SameInputs ops E E') (is : List Instr) {k : Known} {s s' : State} (h : Agree k s s') :
    Agree (k.run ops is) (run E is s) (run E' is s') := by
  induction is generalizing k s s' with
  | nil => exact h
  | cons i is ih =>
    obtain ⟨m, hm, e⟩ := Known.forceRegs_eq (k.step ops i).regs Known.allRegs [] (fun r => Known.force (k.step ops i).cf fun c =>
      Known.force (k.step ops i).of fun o => Known.force (k.step ops i).zf fun z => Known.run ops ⟨r, c, o, z⟩ is) fun r hr => nomatch hr
    rw [Known.run]
    rw [e, Known.force_eq, Known.force_eq, Known.force_eq]
    obtain ⟨h1, h2⟩ := agree_step hE h i
    exact ih ⟨fun r hr => h1 r (hm r hr), h2⟩

/-! ### Registers hold words, flags hold bits -/

/-- Registers below `2^64`, flags zero or one. -/
def Words (s : State) : Prop := (∀ r, s.get r < 2 ^ 64) ∧ s.cf ≤ 1 ∧ s.of ≤ 1 ∧ s.zf ≤ 1

/-- The inputs are words. -/
def InputWords (E : Env) : Prop := (∀ p, ∀ x ∈ E.ptr p, x < 2 ^ 64) ∧ E.inv < 2 ^ 64

/-- Immediate operands are words. -/
def Instr.ImmOk (i : Instr) : Prop := match i.source with
  | .imm n => n < 2 ^ 64
  | _ => True

theorem Words.set {s : State} (h : Words s) (d : Reg) {v : ℕ} (hv : v < 2 ^ 64) : Words (s.set d v) := by
  refine ⟨fun r => ?_, ?_, ?_, ?_⟩
  · rw [get_set]
    split
    · exact hv
    · exact h.1 r
  · rw [set_cf]; exact h.2.1
  · rw [set_of]; exact h.2.2.1
  · rw [set_zf]; exact h.2.2.2

theorem Words.flags {s : State} (h : Words s) {c o z : ℕ} (h1 : c ≤ 1) (h2 : o ≤ 1) (h3 : z ≤ 1) : Words (s.flags c o z) :=
  ⟨fun r => by rw [get_flags]; exact h.1 r, h1, h2, h3⟩

theorem isz_le (v : ℕ) : isz v ≤ 1 := by rw [isz]; split <;> omega

theorem Env.bit_le (E : Env) (s : State) : E.bit s ≤ 1 := by rw [Env.bit]; omega

theorem words_step {E : Env} (hE : InputWords E) {s : State} (h : Words s) (i : Instr) (hi : i.ImmOk) : Words (step E s i) := by
  have hx : ∀ x, i.source = x → E.src s x < 2 ^ 64 := fun x e => by
    cases x with
    | reg r => exact h.1 r
    | mem p n =>
      change (E.ptr p).getD n 0 < 2 ^ 64
      rw [List.getD_eq_getElem?_getD]
      cases hc : (E.ptr p)[n]? with
      | none => exact Nat.two_pow_pos 64
      | some v => exact hE.1 p v (List.mem_of_getElem? hc)
    | imm n => rw [Instr.ImmOk, e] at hi; exact hi
    | inv => exact hE.2
  have hW : W = 2 ^ 64 := rfl
  have hm : ∀ t, t % W < 2 ^ 64 := fun t => Nat.mod_lt _ (Nat.two_pow_pos 64)
  have hadd : ∀ {a b c : ℕ}, a < 2 ^ 64 → b < 2 ^ 64 → c ≤ 1 → (a + b + c) / W ≤ 1 := fun {a b c} _ _ _ => by rw [hW]; omega
  have hsub : ∀ t, 1 - t / W ≤ 1 := fun t => Nat.sub_le 1 _
  have hb := E.bit_le s
  cases i with
  | mov d x => exact h.set d (hx x rfl)
  | add d x => exact (h.set d (hm _)).flags (hadd (h.1 d) (hx x rfl) (Nat.zero_le 1)) hb (isz_le _)
  | adc d x => exact (h.set d (hm _)).flags (hadd (h.1 d) (hx x rfl) h.2.1) hb (isz_le _)
  | sub d x => exact (h.set d (hm _)).flags (hsub _) hb (isz_le _)
  | sbb d x => exact (h.set d (hm _)).flags (hsub _) hb (isz_le _)
  | adcx d x => exact (h.set d (hm _)).flags (hadd (h.1 d) (hx x rfl) h.2.1) h.2.2.1 h.2.2.2
  | adox d x => exact (h.set d (hm _)).flags h.2.1 (hadd (h.1 d) (hx x rfl) h.2.2.1) h.2.2.2
  | mulx dh lo x =>
    refine (h.set lo (hm _)).set dh ?_
    rw [hW, Nat.div_lt_iff_lt_mul (Nat.two_pow_pos 64)]
    exact Nat.mul_lt_mul'' (h.1 .rdx) (hx x rfl)
  | imul d x => exact (h.set d (hm _)).flags hb hb hb
  | xor d x => exact (h.set d (Nat.xor_lt_two_pow (h.1 d) (hx x rfl))).flags (Nat.zero_le 1) (Nat.zero_le 1) (isz_le _)
  | and d x => exact (h.set d (Nat.and_lt_two_pow _ (hx x rfl))).flags (Nat.zero_le 1) (Nat.zero_le 1) (isz_le _)
  | or d x => exact (h.set d (Nat.or_lt_two_pow (h.1 d) (hx x rfl))).flags (Nat.zero_le 1) (Nat.zero_le 1) (isz_le _)
  | cmp d x => exact h.flags (hsub _) hb (isz_le _)
  | cmovc d x =>
    rw [step]
    split
    · exact h.set d (hx x rfl)
    · exact h
  | cmovnc d x =>
    rw [step]
    split
    · exact h.set d (hx x rfl)
    · exact h
  | cmove d x =>
    rw [step]
    split
    · exact h.set d (hx x rfl)
    · exact h

theorem words_run {E : Env} (hE : InputWords E) (is : List Instr) (hi : ∀ i ∈ is, i.ImmOk) {s : State} (h : Words s) : Words (run E is s) := by
  induction is generalizing s with
  | nil => exact h
  | cons i is ih => exact ih (fun j hj => hi j (List.mem_cons_of_mem _ hj)) (words_step hE h i (hi i List.mem_cons_self))

end Halo2.Asm
