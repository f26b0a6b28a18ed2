import Verif.Asm.Contract
import Verif.Props.Asm

/-!
# C97: the assembly blocks keep what their operands promise

The compiler knows only the operands of an `asm!` block: it keeps its own values in the registers that are not listed, may leave out or merge
blocks marked `pure`, and assumes that only the arrays behind the pointers are read.
-/

namespace Halo2.Props

open Halo2 Halo2.Asm

theorem mem_blocks : doubleBlock ∈ blocks ∧ fromMontBlock ∈ blocks ∧ mulBlock ∈ blocks ∧ subBlock ∈ blocks ∧ addBlock ∈ blocks ∧ negBlock ∈ blocks :=
  ⟨.head _, .tail _ (.head _), .tail _ (.tail _ (.head _)), .tail _ (.tail _ (.tail _ (.head _))), .tail _ (.tail _ (.tail _ (.tail _ (.head _)))), .tail _ (.tail _ (.tail _ (.tail _ (.tail _ (.head _)))))⟩

/-- **C97** A register that is not listed as an output holds after the block what it held before, whatever the inputs. -/
theorem C97_registers (B : Block) (hB : B ∈ blocks) (E : Env) (s : State) (r : Reg) (h1 : r ∉ B.ops.outs) (h2 : r ∉ B.ops.scratch) :
    (run E B.prog s).get r = s.get r := by
  have key : ∀ B ∈ blocks, ∀ i ∈ B.prog, ∀ r ∈ i.writes, r ∈ B.ops.outs ++ B.ops.scratch := by decide +kernel
  refine run_get E r B.prog (fun i hi hr => ?_) s
  rcases List.mem_append.mp (key B hB i hi r hr) with h | h
  · exact h1 h
  · exact h2 h

/-- **C97** The outputs are a function of the inputs: of the first four words behind the pointers that are handed in and of `inv` where it is.
They depend neither on what registers and flags held before nor on the flags that the processor leaves undefined, on any words. -/
theorem C97_pure (B : Block) (hB : B ∈ blocks) (E E' : Env) (h : SameInputs B.ops E E') (s s' : State) :
    B.ops.outs.map (run E B.prog s).get = B.ops.outs.map (run E' B.prog s').get := by
  have key : ∀ B ∈ blocks, ∀ r ∈ B.ops.outs, r ∈ (Known.start.run B.ops B.prog).regs := by decide +kernel
  have h0 : Agree Known.start s s' :=
    ⟨fun r hr => absurd hr List.not_mem_nil, fun e => Bool.noConfusion e, fun e => Bool.noConfusion e, fun e => Bool.noConfusion e⟩
  exact List.map_congr_left fun r hr => (agree_run h B.prog h0).1 r (key B hB r hr)

/-- **C97** Every word that a block reads lies in one of the arrays it was handed, which have four words. (No instruction writes to memory,
uses the stack or jumps.) -/
theorem C97_memory (B : Block) (hB : B ∈ blocks) (p : Ptr) (i : ℕ) (h : (p, i) ∈ reads B.prog) : p ∈ B.ops.ptrs ∧ i < 4 := by
  have key : ∀ B ∈ blocks, ∀ x ∈ reads B.prog, x.1 ∈ B.ops.ptrs ∧ x.2 < 4 := by decide +kernel
  exact key B hB (p, i) h

/-- **C97** The four outputs are different registers, no register is listed twice, and all of them hold words afterwards. -/
theorem C97_words (B : Block) (hB : B ∈ blocks) :
    B.ops.outs.length = 4 ∧ (B.ops.outs ++ B.ops.scratch).Nodup ∧
    ∀ (E : Env) (s : State), InputWords E → Words s → Words (run E B.prog s) := by
  have k1 : ∀ B ∈ blocks, B.ops.outs.length = 4 ∧ (B.ops.outs ++ B.ops.scratch).Nodup := by decide +kernel
  have k2 : ∀ B ∈ blocks, ∀ i ∈ B.prog, (match i.source with | .imm n => decide (n < 2 ^ 64) | _ => true) = true := by decide +kernel
  refine ⟨(k1 B hB).1, (k1 B hB).2, fun E s hE hs => words_run hE B.prog (fun i hi => ?_) hs⟩
  have h := k2 B hB i hi
  rw [Instr.ImmOk]
  split
  · next n e => rw [e] at h; exact decide_eq_true_iff.mp h
  · trivial

theorem get_rax (t : State) : t.get .rax = t.rax := rfl
theorem get_r8 (t : State) : t.get .r8 = t.r8 := rfl
theorem get_r9 (t : State) : t.get .r9 = t.r9 := rfl
theorem get_r10 (t : State) : t.get .r10 = t.r10 := rfl
theorem get_r11 (t : State) : t.get .r11 = t.r11 := rfl
theorem get_r12 (t : State) : t.get .r12 = t.r12 := rfl
theorem get_r13 (t : State) : t.get .r13 = t.r13 := rfl
theorem get_r14 (t : State) : t.get .r14 = t.r14 := rfl
theorem get_r15 (t : State) : t.get .r15 = t.r15 := rfl

theorem add_outs (junk : State → ℕ) (s : State) (m a b : List ℕ) :
    Asm.add junk s m a b = addBlock.ops.outs.map (run (env m a b 0 junk) addBlock.prog s).get := by
  have h1 : addBlock.prog = addProg := rfl
  have h2 : addBlock.ops.outs = [.r12, .r13, .r14, .r15] := rfl
  rw [h1, h2, Asm.add, List.map_cons, List.map_cons, List.map_cons, List.map_cons, List.map_nil, get_r12, get_r13, get_r14, get_r15]

theorem double_outs (junk : State → ℕ) (s : State) (m a : List ℕ) :
    Asm.double junk s m a = doubleBlock.ops.outs.map (run (env m a [] 0 junk) doubleBlock.prog s).get := by
  have h1 : doubleBlock.prog = doubleProg := rfl
  have h2 : doubleBlock.ops.outs = [.r12, .r13, .r14, .r15] := rfl
  rw [h1, h2, Asm.double, List.map_cons, List.map_cons, List.map_cons, List.map_cons, List.map_nil, get_r12, get_r13, get_r14, get_r15]

theorem sub_outs (junk : State → ℕ) (s : State) (m a b : List ℕ) :
    Asm.sub junk s m a b = subBlock.ops.outs.map (run (env m a b 0 junk) subBlock.prog s).get := by
  have h1 : subBlock.prog = subProg := rfl
  have h2 : subBlock.ops.outs = [.r12, .r13, .r14, .r15] := rfl
  rw [h1, h2, Asm.sub, List.map_cons, List.map_cons, List.map_cons, List.map_cons, List.map_nil, get_r12, get_r13, get_r14, get_r15]

theorem neg_outs (junk : State → ℕ) (s : State) (m a : List ℕ) :
    Asm.neg junk s m a = negBlock.ops.outs.map (run (env m a [] 0 junk) negBlock.prog s).get := by
  have h1 : negBlock.prog = negProg := rfl
  have h2 : negBlock.ops.outs = [.r8, .r9, .r10, .r11] := rfl
  rw [h1, h2, Asm.neg, List.map_cons, List.map_cons, List.map_cons, List.map_cons, List.map_nil, get_r8, get_r9, get_r10, get_r11]

theorem mul_outs (junk : State → ℕ) (s : State) (m a b : List ℕ) (inv : ℕ) :
    Asm.mul junk s m inv a b = mulBlock.ops.outs.map (run (env m a b inv junk) mulBlock.prog s).get := by
  have h1 : mulBlock.prog = mulProg := rfl
  have h2 : mulBlock.ops.outs = [.r11, .r13, .rax, .r14] := rfl
  rw [h1, h2, Asm.mul, List.map_cons, List.map_cons, List.map_cons, List.map_cons, List.map_nil, get_r11, get_r13, get_rax, get_r14]

theorem fromMont_outs (junk : State → ℕ) (s : State) (m a : List ℕ) (inv : ℕ) :
    Asm.fromMont junk s m inv a = fromMontBlock.ops.outs.map (run (env m a [] inv junk) fromMontBlock.prog s).get := by
  have h1 : fromMontBlock.prog = fromMontProg := rfl
  have h2 : fromMontBlock.ops.outs = [.r8, .r9, .r10, .r11] := rfl
  rw [h1, h2, Asm.fromMont, List.map_cons, List.map_cons, List.map_cons, List.map_cons, List.map_nil, get_r8, get_r9, get_r10, get_r11]

/-- **C97** The functions around the blocks return the four outputs in the order `r0` to `r3`, so what they return is determined by the operands,
for arbitrary words and not only for elements of the field. -/
theorem C97_functions (junk junk' : State → ℕ) (s s' : State) (m a b : List ℕ) (inv : ℕ) :
    (Asm.add junk s m a b = addBlock.ops.outs.map (run (env m a b 0 junk) addBlock.prog s).get ∧
      Asm.add junk s m a b = Asm.add junk' s' m a b) ∧
    (Asm.double junk s m a = doubleBlock.ops.outs.map (run (env m a [] 0 junk) doubleBlock.prog s).get ∧
      Asm.double junk s m a = Asm.double junk' s' m a) ∧
    (Asm.sub junk s m a b = subBlock.ops.outs.map (run (env m a b 0 junk) subBlock.prog s).get ∧
      Asm.sub junk s m a b = Asm.sub junk' s' m a b) ∧
    (Asm.neg junk s m a = negBlock.ops.outs.map (run (env m a [] 0 junk) negBlock.prog s).get ∧
      Asm.neg junk s m a = Asm.neg junk' s' m a) ∧
    (Asm.mul junk s m inv a b = mulBlock.ops.outs.map (run (env m a b inv junk) mulBlock.prog s).get ∧
      Asm.mul junk s m inv a b = Asm.mul junk' s' m inv a b) ∧
    (Asm.square junk s m inv a = mulBlock.ops.outs.map (run (env m a a inv junk) mulBlock.prog s).get ∧
      Asm.square junk s m inv a = Asm.square junk' s' m inv a) ∧
    (Asm.fromMont junk s m inv a = fromMontBlock.ops.outs.map (run (env m a [] inv junk) fromMontBlock.prog s).get ∧
      Asm.fromMont junk s m inv a = Asm.fromMont junk' s' m inv a) := by
  have same : ∀ (ops : Operands) (m a b : List ℕ) (inv : ℕ), SameInputs ops (env m a b inv junk) (env m a b inv junk') :=
    fun ops m a b inv => ⟨fun p _ i _ => by cases p <;> rfl, fun _ => rfl⟩
  rw [square, square, mul_outs junk s m a a, mul_outs junk' s' m a a, add_outs junk, add_outs junk', double_outs junk,
    double_outs junk', sub_outs junk, sub_outs junk', neg_outs junk, neg_outs junk', mul_outs junk s m a b,
    mul_outs junk' s' m a b, fromMont_outs junk, fromMont_outs junk']
  exact ⟨⟨rfl, C97_pure addBlock mem_blocks.2.2.2.2.1 _ _ (same _ m a b 0) s s'⟩,
    ⟨rfl, C97_pure doubleBlock mem_blocks.1 _ _ (same _ m a [] 0) s s'⟩,
    ⟨rfl, C97_pure subBlock mem_blocks.2.2.2.1 _ _ (same _ m a b 0) s s'⟩,
    ⟨rfl, C97_pure negBlock mem_blocks.2.2.2.2.2 _ _ (same _ m a [] 0) s s'⟩,
    ⟨rfl, C97_pure mulBlock mem_blocks.2.2.1 _ _ (same _ m a b inv) s s'⟩,
    ⟨rfl, C97_pure mulBlock mem_blocks.2.2.1 _ _ (same _ m a a inv) s s'⟩,
    ⟨rfl, C97_pure fromMontBlock mem_blocks.2.1 _ _ (same _ m a [] inv) s s'⟩⟩

/-- The compiler may keep a pointer in `rcx` across the multiplication, which uses all other registers but `r8` and `r9`. -/
example (E : Env) (s : State) : (run E mulBlock.prog s).get .rcx = s.get .rcx :=
  C97_registers mulBlock mem_blocks.2.2.1 E s .rcx (by decide) (by decide)

/-- The hypothesis is needed: `double` changes `r8`, which is listed. -/
example : (run (env [1, 0, 0, 0] [5, 0, 0, 0] [] 0 fun _ => 0) doubleBlock.prog asmDirty).get .r8 ≠ asmDirty.get .r8 := by decide +kernel

/-- Four words that are not an element of the field, behind arrays that differ from the fifth word on, are the same inputs. -/
theorem sameInputs_tail (junk junk' : State → ℕ) (x y : ℕ) : SameInputs mulBlock.ops
    (env [3, 0, 0, 2 ^ 62] [2 ^ 64 - 1, 2 ^ 64 - 1, 2 ^ 64 - 1, 2 ^ 64 - 1, x] [7, 7, 7, 7] 5 junk)
    (env [3, 0, 0, 2 ^ 62] [2 ^ 64 - 1, 2 ^ 64 - 1, 2 ^ 64 - 1, 2 ^ 64 - 1, y] [7, 7, 7, 7] 5 junk') := by
  refine ⟨fun p _ i hi => ?_, fun _ => rfl⟩
  cases p
  · obtain rfl | rfl | rfl | rfl : i = 0 ∨ i = 1 ∨ i = 2 ∨ i = 3 := by omega
    all_goals rfl
  · rfl
  · rfl

/-- So the multiplication gives the same result on them. -/
example (junk junk' : State → ℕ) (s s' : State) (x y : ℕ) := C97_pure mulBlock mem_blocks.2.2.1 _ _ (sameInputs_tail junk junk' x y) s s'

end Halo2.Props
