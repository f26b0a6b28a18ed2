import Verif.Asm.Machine

/-!
# The assembly programs of derive/src/field/asm/limb4.rs

One list of instructions per `asm!` block, in the order of the source, and the functions around the blocks.
-/

namespace Halo2.Asm

open Halo2

/-- The block of `double`, derive/src/field/asm/limb4.rs:17-44. -/
def doubleProg : List Instr :=
  [.mov .r8 (.mem .a 0), .mov .r9 (.mem .a 1), .mov .r10 (.mem .a 2), .mov .r11 (.mem .a 3), .add .r8 (.reg .r8), .adc
   .r9 (.reg .r9), .adc .r10 (.reg .r10), .adc .r11 (.reg .r11), .mov .r12 (.reg .r8), .mov .r13 (.reg .r9), .mov .r14
   (.reg .r10), .mov .r15 (.reg .r11), .sub .r12 (.mem .m 0), .sbb .r13 (.mem .m 1), .sbb .r14 (.mem .m 2), .sbb .r15
   (.mem .m 3), .cmovc .r12 (.reg .r8), .cmovc .r13 (.reg .r9), .cmovc .r14 (.reg .r10), .cmovc .r15 (.reg .r11)]

/-- The block of `from_mont`, derive/src/field/asm/limb4.rs:77-173. -/
def fromMontProg : List Instr :=
  [.mov .r8 (.mem .a 0), .mov .r9 (.mem .a 1), .mov .r10 (.mem .a 2), .mov .r11 (.mem .a 3), .mov .r15 .inv, .xor .r12
   (.reg .r12), .mov .rdx (.reg .r8), .mulx .rcx .rdx (.reg .r15), .mulx .rcx .rax (.mem .m 0), .adox .r8 (.reg .rax),
   .adcx .r9 (.reg .rcx), .mulx .rcx .rax (.mem .m 1), .adox .r9 (.reg .rax), .adcx .r10 (.reg .rcx), .mulx .rcx .rax
   (.mem .m 2), .adox .r10 (.reg .rax), .adcx .r11 (.reg .rcx), .mulx .rcx .rax (.mem .m 3), .adox .r11 (.reg .rax),
   .adcx .r8 (.reg .rcx), .adox .r8 (.reg .r12), .mov .rdx (.reg .r9), .mulx .rcx .rdx (.reg .r15), .mulx .rcx .rax (.mem
   .m 0), .adox .r9 (.reg .rax), .adcx .r10 (.reg .rcx), .mulx .rcx .rax (.mem .m 1), .adox .r10 (.reg .rax), .adcx .r11
   (.reg .rcx), .mulx .rcx .rax (.mem .m 2), .adox .r11 (.reg .rax), .adcx .r8 (.reg .rcx), .mulx .rcx .rax (.mem .m 3),
   .adox .r8 (.reg .rax), .adcx .r9 (.reg .rcx), .adox .r9 (.reg .r12), .mov .rdx (.reg .r10), .mulx .rcx .rdx (.reg
   .r15), .mulx .rcx .rax (.mem .m 0), .adox .r10 (.reg .rax), .adcx .r11 (.reg .rcx), .mulx .rcx .rax (.mem .m 1), .adox
   .r11 (.reg .rax), .adcx .r8 (.reg .rcx), .mulx .rcx .rax (.mem .m 2), .adox .r8 (.reg .rax), .adcx .r9 (.reg .rcx),
   .mulx .rcx .rax (.mem .m 3), .adox .r9 (.reg .rax), .adcx .r10 (.reg .rcx), .adox .r10 (.reg .r12), .mov .rdx (.reg
   .r11), .mulx .rcx .rdx (.reg .r15), .mulx .rcx .rax (.mem .m 0), .adox .r11 (.reg .rax), .adcx .r8 (.reg .rcx), .mulx
   .rcx .rax (.mem .m 1), .adox .r8 (.reg .rax), .adcx .r9 (.reg .rcx), .mulx .rcx .rax (.mem .m 2), .adox .r9 (.reg
   .rax), .adcx .r10 (.reg .rcx), .mulx .rcx .rax (.mem .m 3), .adox .r10 (.reg .rax), .adcx .r11 (.reg .rcx), .adox .r11
   (.reg .r12)]

/-- The block of `mul`, derive/src/field/asm/limb4.rs:236-417. -/
def mulProg : List Instr :=
  [.mov .rdx (.mem .b 0), .mulx .r13 .r11 (.mem .a 0), .mulx .rax .r15 (.mem .a 1), .add .r13 (.reg .r15), .mulx .r14
   .r15 (.mem .a 2), .adc .rax (.reg .r15), .mulx .r12 .r15 (.mem .a 3), .adc .r14 (.reg .r15), .adc .r12 (.imm 0), .mov
   .rdx (.reg .r11), .imul .rdx .inv, .xor .r15 (.reg .r15), .mulx .r15 .r10 (.mem .m 0), .adcx .r10 (.reg .r11), .mov
   .r11 (.reg .r15), .mov .r10 (.imm 0), .adcx .r11 (.reg .r13), .mulx .r13 .r15 (.mem .m 1), .adox .r11 (.reg .r15),
   .adcx .r13 (.reg .rax), .mulx .rax .r15 (.mem .m 2), .adox .r13 (.reg .r15), .adcx .rax (.reg .r14), .mulx .r14 .r15
   (.mem .m 3), .adox .rax (.reg .r15), .adcx .r10 (.reg .r12), .adox .r14 (.reg .r10), .mov .rdx (.mem .b 1), .xor .r12
   (.reg .r12), .mulx .r12 .r15 (.mem .a 0), .adox .r11 (.reg .r15), .adcx .r13 (.reg .r12), .mulx .r12 .r15 (.mem .a 1),
   .adox .r13 (.reg .r15), .adcx .rax (.reg .r12), .mulx .r12 .r15 (.mem .a 2), .adox .rax (.reg .r15), .adcx .r14 (.reg
   .r12), .mulx .r12 .r15 (.mem .a 3), .adox .r14 (.reg .r15), .mov .rdx (.imm 0), .adcx .r12 (.reg .rdx), .adox .r12
   (.reg .rdx), .mov .rdx (.reg .r11), .imul .rdx .inv, .xor .r15 (.reg .r15), .mulx .r15 .r10 (.mem .m 0), .adcx .r10
   (.reg .r11), .mov .r11 (.reg .r15), .mov .r10 (.imm 0), .adcx .r11 (.reg .r13), .mulx .r13 .r15 (.mem .m 1), .adox
   .r11 (.reg .r15), .adcx .r13 (.reg .rax), .mulx .rax .r15 (.mem .m 2), .adox .r13 (.reg .r15), .adcx .rax (.reg .r14),
   .mulx .r14 .r15 (.mem .m 3), .adox .rax (.reg .r15), .adcx .r10 (.reg .r12), .adox .r14 (.reg .r10), .mov .rdx (.mem
   .b 2), .xor .r12 (.reg .r12), .mulx .r12 .r15 (.mem .a 0), .adox .r11 (.reg .r15), .adcx .r13 (.reg .r12), .mulx .r12
   .r15 (.mem .a 1), .adox .r13 (.reg .r15), .adcx .rax (.reg .r12), .mulx .r12 .r15 (.mem .a 2), .adox .rax (.reg .r15),
   .adcx .r14 (.reg .r12), .mulx .r12 .r15 (.mem .a 3), .adox .r14 (.reg .r15), .mov .rdx (.imm 0), .adcx .r12 (.reg
   .rdx), .adox .r12 (.reg .rdx), .mov .rdx (.reg .r11), .imul .rdx .inv, .xor .r15 (.reg .r15), .mulx .r15 .r10 (.mem .m
   0), .adcx .r10 (.reg .r11), .mov .r11 (.reg .r15), .mov .r10 (.imm 0), .adcx .r11 (.reg .r13), .mulx .r13 .r15 (.mem
   .m 1), .adox .r11 (.reg .r15), .adcx .r13 (.reg .rax), .mulx .rax .r15 (.mem .m 2), .adox .r13 (.reg .r15), .adcx .rax
   (.reg .r14), .mulx .r14 .r15 (.mem .m 3), .adox .rax (.reg .r15), .adcx .r10 (.reg .r12), .adox .r14 (.reg .r10), .mov
   .rdx (.mem .b 3), .xor .r12 (.reg .r12), .mulx .r12 .r15 (.mem .a 0), .adox .r11 (.reg .r15), .adcx .r13 (.reg .r12),
   .mulx .r12 .r15 (.mem .a 1), .adox .r13 (.reg .r15), .adcx .rax (.reg .r12), .mulx .r12 .r15 (.mem .a 2), .adox .rax
   (.reg .r15), .adcx .r14 (.reg .r12), .mulx .r12 .r15 (.mem .a 3), .adox .r14 (.reg .r15), .mov .rdx (.imm 0), .adcx
   .r12 (.reg .rdx), .adox .r12 (.reg .rdx), .mov .rdx (.reg .r11), .imul .rdx .inv, .xor .r15 (.reg .r15), .mulx .r15
   .r10 (.mem .m 0), .adcx .r10 (.reg .r11), .mov .r11 (.reg .r15), .mov .r10 (.imm 0), .adcx .r11 (.reg .r13), .mulx
   .r13 .r15 (.mem .m 1), .adox .r11 (.reg .r15), .adcx .r13 (.reg .rax), .mulx .rax .r15 (.mem .m 2), .adox .r13 (.reg
   .r15), .adcx .rax (.reg .r14), .mulx .r14 .r15 (.mem .m 3), .adox .rax (.reg .r15), .adcx .r10 (.reg .r12), .adox .r14
   (.reg .r10), .mov .r12 (.reg .r11), .sub .r12 (.mem .m 0), .mov .r10 (.reg .r13), .sbb .r10 (.mem .m 1), .mov .rdx
   (.reg .rax), .sbb .rdx (.mem .m 2), .mov .r15 (.reg .r14), .sbb .r15 (.mem .m 3), .cmovnc .r11 (.reg .r12), .cmovnc
   .r13 (.reg .r10), .cmovnc .rax (.reg .rdx), .cmovnc .r14 (.reg .r15)]

/-- The block of `sub`, derive/src/field/asm/limb4.rs:448-478. -/
def subProg : List Instr :=
  [.mov .r12 (.mem .m 0), .mov .r13 (.mem .m 1), .mov .r14 (.mem .m 2), .mov .r15 (.mem .m 3), .mov .r8 (.mem .a 0), .mov
   .r9 (.mem .a 1), .mov .r10 (.mem .a 2), .mov .r11 (.mem .a 3), .sub .r8 (.mem .b 0), .sbb .r9 (.mem .b 1), .sbb .r10
   (.mem .b 2), .sbb .r11 (.mem .b 3), .sbb .rax (.reg .rax), .and .r12 (.reg .rax), .and .r13 (.reg .rax), .and .r14
   (.reg .rax), .and .r15 (.reg .rax), .add .r12 (.reg .r8), .adc .r13 (.reg .r9), .adc .r14 (.reg .r10), .adc .r15 (.reg
   .r11)]

/-- The block of `add`, derive/src/field/asm/limb4.rs:508-535. -/
def addProg : List Instr :=
  [.mov .r8 (.mem .a 0), .mov .r9 (.mem .a 1), .mov .r10 (.mem .a 2), .mov .r11 (.mem .a 3), .add .r8 (.mem .b 0), .adc
   .r9 (.mem .b 1), .adc .r10 (.mem .b 2), .adc .r11 (.mem .b 3), .mov .r12 (.reg .r8), .mov .r13 (.reg .r9), .mov .r14
   (.reg .r10), .mov .r15 (.reg .r11), .sub .r12 (.mem .m 0), .sbb .r13 (.mem .m 1), .sbb .r14 (.mem .m 2), .sbb .r15
   (.mem .m 3), .cmovc .r12 (.reg .r8), .cmovc .r13 (.reg .r9), .cmovc .r14 (.reg .r10), .cmovc .r15 (.reg .r11)]

/-- The block of `neg`, derive/src/field/asm/limb4.rs:564-590. -/
def negProg : List Instr :=
  [.mov .r8 (.mem .m 0), .mov .r9 (.mem .m 1), .mov .r10 (.mem .m 2), .mov .r11 (.mem .m 3), .sub .r8 (.mem .a 0), .sbb
   .r9 (.mem .a 1), .sbb .r10 (.mem .a 2), .sbb .r11 (.mem .a 3), .mov .r12 (.mem .a 0), .mov .r13 (.mem .a 1), .mov .r14
   (.mem .a 2), .mov .r15 (.mem .a 3), .or .r12 (.reg .r13), .or .r14 (.reg .r15), .or .r12 (.reg .r14), .mov .r13 (.imm
   0xffffffffffffffff), .cmp .r12 (.imm 0x0000000000000000), .cmove .r13 (.reg .r12), .and .r8 (.reg .r13), .and .r9
   (.reg .r13), .and .r10 (.reg .r13), .and .r11 (.reg .r13)]

/-- The environment of a block: the arrays it points to, the constant `inv` (derive/src/field/mod.rs:134-139), and the flags
the manual leaves open. -/
def env (m a b : List ℕ) (inv : ℕ) (junk : State → ℕ) : Env := ⟨a, b, m, inv, junk⟩

/-- `double`, derive/src/field/asm/limb4.rs:9-60; `s` is the state of the processor before. -/
def double (junk : State → ℕ) (s : State) (m a : List ℕ) : List ℕ :=
  let t := run (env m a [] 0 junk) doubleProg s
  [t.r12, t.r13, t.r14, t.r15]

/-- `from_mont`, derive/src/field/asm/limb4.rs:69-197. -/
def fromMont (junk : State → ℕ) (s : State) (m : List ℕ) (inv : ℕ) (a : List ℕ) : List ℕ :=
  let t := run (env m a [] inv junk) fromMontProg s
  [t.r8, t.r9, t.r10, t.r11]

/-- `mul`, derive/src/field/asm/limb4.rs:201-436. -/
def mul (junk : State → ℕ) (s : State) (m : List ℕ) (inv : ℕ) (a b : List ℕ) : List ℕ :=
  let t := run (env m a b inv junk) mulProg s
  [t.r11, t.r13, t.rax, t.r14]

/-- `square`, derive/src/field/asm/limb4.rs:64-66. -/
def square (junk : State → ℕ) (s : State) (m : List ℕ) (inv : ℕ) (a : List ℕ) : List ℕ := mul junk s m inv a a

/-- `sub`, derive/src/field/asm/limb4.rs:440-496. -/
def sub (junk : State → ℕ) (s : State) (m a b : List ℕ) : List ℕ :=
  let t := run (env m a b 0 junk) subProg s
  [t.r12, t.r13, t.r14, t.r15]

/-- `add`, derive/src/field/asm/limb4.rs:500-552. -/
def add (junk : State → ℕ) (s : State) (m a b : List ℕ) : List ℕ :=
  let t := run (env m a b 0 junk) addProg s
  [t.r12, t.r13, t.r14, t.r15]

/-- `neg`, derive/src/field/asm/limb4.rs:556-606. -/
def neg (junk : State → ℕ) (s : State) (m a : List ℕ) : List ℕ :=
  let t := run (env m a [] 0 junk) negProg s
  [t.r8, t.r9, t.r10, t.r11]

end Halo2.Asm
