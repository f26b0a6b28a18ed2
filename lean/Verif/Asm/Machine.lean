import Verif.Limb.Model

/-!
# A machine for the assembly of the `asm` feature

The instructions of x86-64 which derive/src/field/asm/limb4.rs uses, on 64-bit registers.  Registers hold naturals below
`2^64`, flags are `0` or `1`.

Where an instruction leaves a flag undefined, and for the overflow flag after `add`, `adc`, `sub`, `sbb`, `cmp` and `imul`
and the carry flag after `imul`, the flag is taken from an arbitrary function `junk` of the state before: the theorems hold
whatever the processor puts there.
-/

namespace Halo2.Asm

open Halo2

/-- The registers named in the programs. -/
inductive Reg
  | rax | rcx | rdx | r8 | r9 | r10 | r11 | r12 | r13 | r14 | r15

/-- The arrays the programs read: `self`, `rhs`, `MODULUS_LIMBS`. -/
inductive Ptr
  | a | b | m

/-- Source operands: a register, `qword ptr [{ptr} + 8 i]`, an immediate, or the register `{inv}`. -/
inductive Src
  | reg (r : Reg)
  | mem (p : Ptr) (i : ℕ)
  | imm (n : ℕ)
  | inv

inductive Instr
  | mov (d : Reg) (s : Src)
  | add (d : Reg) (s : Src)
  | adc (d : Reg) (s : Src)
  | sub (d : Reg) (s : Src)
  | sbb (d : Reg) (s : Src)
  | adcx (d : Reg) (s : Src)
  | adox (d : Reg) (s : Src)
  | mulx (hi lo : Reg) (s : Src)
  | imul (d : Reg) (s : Src)
  | xor (d : Reg) (s : Src)
  | and (d : Reg) (s : Src)
  | or (d : Reg) (s : Src)
  | cmp (d : Reg) (s : Src)
  | cmovc (d : Reg) (s : Src)
  | cmovnc (d : Reg) (s : Src)
  | cmove (d : Reg) (s : Src)

/-- Registers and flags. -/
structure State where
  rax : ℕ
  rcx : ℕ
  rdx : ℕ
  r8 : ℕ
  r9 : ℕ
  r10 : ℕ
  r11 : ℕ
  r12 : ℕ
  r13 : ℕ
  r14 : ℕ
  r15 : ℕ
  cf : ℕ
  of : ℕ
  zf : ℕ

namespace State

def get (s : State) : Reg → ℕ
  | .rax => s.rax
  | .rcx => s.rcx
  | .rdx => s.rdx
  | .r8 => s.r8
  | .r9 => s.r9
  | .r10 => s.r10
  | .r11 => s.r11
  | .r12 => s.r12
  | .r13 => s.r13
  | .r14 => s.r14
  | .r15 => s.r15

def set (s : State) (r : Reg) (v : ℕ) : State :=
  match r with
  | .rax => { s with rax := v }
  | .rcx => { s with rcx := v }
  | .rdx => { s with rdx := v }
  | .r8 => { s with r8 := v }
  | .r9 => { s with r9 := v }
  | .r10 => { s with r10 := v }
  | .r11 => { s with r11 := v }
  | .r12 => { s with r12 := v }
  | .r13 => { s with r13 := v }
  | .r14 => { s with r14 := v }
  | .r15 => { s with r15 := v }

def flags (s : State) (c o z : ℕ) : State := { s with cf := c, of := o, zf := z }

end State

/-- What the programs do not change: the arrays behind the pointers, the constant `inv`, and the unspecified flags. -/
structure Env where
  a : List ℕ
  b : List ℕ
  m : List ℕ
  inv : ℕ
  junk : State → ℕ

namespace Env

def ptr (E : Env) : Ptr → List ℕ
  | .a => E.a
  | .b => E.b
  | .m => E.m

def src (E : Env) (s : State) : Src → ℕ
  | .reg r => s.get r
  | .mem p i => (E.ptr p).getD i 0
  | .imm n => n
  | .inv => E.inv

def bit (E : Env) (s : State) : ℕ := E.junk s % 2

end Env

/-- The zero flag of a result. -/
def isz (v : ℕ) : ℕ := if v = 0 then 1 else 0

/-- One instruction. -/
def step (E : Env) (s : State) : Instr → State
  | .mov d x => s.set d (E.src s x)
  | .add d x =>
    let t := s.get d + E.src s x
    (s.set d (t % W)).flags (t / W) (E.bit s) (isz (t % W))
  | .adc d x =>
    let t := s.get d + E.src s x + s.cf
    (s.set d (t % W)).flags (t / W) (E.bit s) (isz (t % W))
  | .sub d x =>
    let t := s.get d + W - E.src s x
    (s.set d (t % W)).flags (1 - t / W) (E.bit s) (isz (t % W))
  | .sbb d x =>
    let t := s.get d + W - E.src s x - s.cf
    (s.set d (t % W)).flags (1 - t / W) (E.bit s) (isz (t % W))
  | .adcx d x =>
    let t := s.get d + E.src s x + s.cf
    (s.set d (t % W)).flags (t / W) s.of s.zf
  | .adox d x =>
    let t := s.get d + E.src s x + s.of
    (s.set d (t % W)).flags s.cf (t / W) s.zf
  | .mulx hi lo x =>
    let t := s.rdx * E.src s x
    (s.set lo (t % W)).set hi (t / W)
  | .imul d x => (s.set d (s.get d * E.src s x % W)).flags (E.bit s) (E.bit s) (E.bit s)
  | .xor d x => (s.set d (s.get d ^^^ E.src s x)).flags 0 0 (isz (s.get d ^^^ E.src s x))
  | .and d x => (s.set d (s.get d &&& E.src s x)).flags 0 0 (isz (s.get d &&& E.src s x))
  | .or d x => (s.set d (s.get d ||| E.src s x)).flags 0 0 (isz (s.get d ||| E.src s x))
  | .cmp d x =>
    let t := s.get d + W - E.src s x
    s.flags (1 - t / W) (E.bit s) (isz (t % W))
  | .cmovc d x => if s.cf = 1 then s.set d (E.src s x) else s
  | .cmovnc d x => if s.cf = 0 then s.set d (E.src s x) else s
  | .cmove d x => if s.zf = 1 then s.set d (E.src s x) else s

/-- A program without jumps. -/
def run (E : Env) : List Instr → State → State
  | [], s => s
  | i :: is, s => run E is (step E s i)

theorem run_append (E : Env) (p q : List Instr) (s : State) : run E (p ++ q) s = run E q (run E p s) := by
  induction p generalizing s with
  | nil => rfl
  | cons i p ih => exact ih _

end Halo2.Asm
