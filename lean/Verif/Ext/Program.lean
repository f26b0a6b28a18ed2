import Verif.Ext.Tower
import Verif.Curve.Program

/-!
# Programs that use a tower of extension fields

A language of client code with registers for the elements of the four fields of a tower (degrees 1, 2, 6 and 12 over the
prime field), the operations of the library on them, the passage between the fields by way of the public coordinates,
branching and loops on comparisons, and output of bits. It stands for arbitrary safe code that handles field elements
only through the interface.

Left out: `is_zero` of the cubic extensions (it does not look at `c2`, see C18), `cyclotomic_square` (right only in the
cyclotomic subgroup), and the byte forms.
-/

namespace Halo2.Ext.TowerProg

open Halo2 Halo2.Ext Halo2.Program

/-- The fields of the tower, by degree. -/
inductive Lv where
  | one | two | six | twelve
deriving DecidableEq

/-- The degree over the prime field. -/
def Lv.deg : Lv → ℕ
  | .one => 1 | .two => 2 | .six => 6 | .twelve => 12

/-- The type of the elements. Models the nesting of src/bn256/{fq2,fq6,fq12}.rs, src/bls12381/{fq2,fq6,fq12}.rs and
src/pluto_eris/{fp2,fp6,fp12}.rs. -/
abbrev Ty (F : Type) : Lv → Type
  | .one => F
  | .two => Quad F
  | .six => Cubic (Quad F)
  | .twelve => Quad (Cubic (Quad F))

/-- The functions every field of the tower offers. -/
structure LOps (T : Type) where
  zero : T
  one : T
  add : T → T → T
  sub : T → T → T
  mul : T → T → T
  neg : T → T
  dbl : T → T
  sqr : T → T
  invert : T → Option T
  frob : ℕ → T → T
  pow : T → List ℕ → T
  sum : List T → T
  product : List T → T
  eq : T → T → Bool

/-- The functions of the model: the operators of the ring (for the extensions `Quad.add`, `Cubic.mul` and so on), the methods
of `ExtField`, `pow` of the `ff` crate, and `Sum`, `Product` of src/derive/mod.rs:219-233 and derive/src/field/mod.rs:275-285. -/
@[reducible] def LOps.of (T : Type) [CommRing T] [ExtField T] [DecidableEq T] : LOps T where
  zero := 0
  one := 1
  add := (· + ·)
  sub := (· - ·)
  mul := (· * ·)
  neg := fun x => -x
  dbl := ExtField.dbl
  sqr := ExtField.sqr
  invert := ExtField.invert
  frob := ExtField.frob
  pow := Ext.pow ExtField.sqr
  sum l := l.foldl (fun acc item => acc + item) 0
  product l := l.foldl (fun acc item => acc * item) 1
  eq x y := decide (x = y)

/-- One call; the first register receives the result. -/
inductive TOp where
  | const (d n : ℕ) | zero (l : Lv) (d : ℕ) | one (l : Lv) (d : ℕ)
  | add (l : Lv) (d a b : ℕ) | sub (l : Lv) (d a b : ℕ) | mul (l : Lv) (d a b : ℕ) | neg (l : Lv) (d a : ℕ)
  | double (l : Lv) (d a : ℕ) | square (l : Lv) (d a : ℕ) | invert (l : Lv) (d f a : ℕ) | frob (l : Lv) (i d a : ℕ)
  | pow (l : Lv) (d a : ℕ) (e : List ℕ) | sum (l : Lv) (d : ℕ) (as : List ℕ) | product (l : Lv) (d : ℕ) (as : List ℕ)
  | nr1 (d a : ℕ) | nr2 (d a : ℕ) | nr6 (d a : ℕ)
  | conj2 (d a : ℕ) | conj12 (d a : ℕ) | norm2 (d a : ℕ) | norm12 (d a : ℕ)
  | mk2 (d a b : ℕ) | mk6 (d a b c : ℕ) | mk12 (d a b : ℕ)
  | co2 (k : Fin 2) (d a : ℕ) | co6 (k : Fin 3) (d a : ℕ) | co12 (k : Fin 2) (d a : ℕ)
  | by01 (d a b c : ℕ) | by1 (d a b : ℕ) | by014 (d a b c e : ℕ) | by034 (d a b c e : ℕ)

/-- A call of `sqrt` of the quadratic extension (src/ff_ext/quadratic.rs:300-313): the root to the register `d`, whether there is
one to the flag `f`. -/
structure SqrtCall where
  d : ℕ
  f : ℕ
  a : ℕ

/-- A comparison. -/
inductive TTest where
  | eq (l : Lv) (a b : ℕ) | flag (f : ℕ)

/-- The registers and the bits put out so far (latest first). -/
structure TSt (F : Type) where
  r1 : ℕ → F
  r2 : ℕ → Quad F
  r6 : ℕ → Cubic (Quad F)
  r12 : ℕ → Quad (Cubic (Quad F))
  fl : ℕ → Bool
  out : List Bool

namespace TSt

variable {F : Type}

/-- Reading a register. -/
def reg (s : TSt F) : (l : Lv) → ℕ → Ty F l
  | .one => s.r1 | .two => s.r2 | .six => s.r6 | .twelve => s.r12

/-- Writing a register. -/
def write (s : TSt F) : (l : Lv) → ℕ → Ty F l → TSt F
  | .one, d, v => { s with r1 := Program.set s.r1 d v }
  | .two, d, v => { s with r2 := Program.set s.r2 d v }
  | .six, d, v => { s with r6 := Program.set s.r6 d v }
  | .twelve, d, v => { s with r12 := Program.set s.r12 d v }

end TSt

section Step

variable {F : Type} [CommRing F] [DecidableEq F] [ExtField F] [LawfulExt F] [ExtField (Quad F)] [LawfulExt (Quad F)]
  [ExtField (Cubic (Quad F))] [LawfulExt (Cubic (Quad F))] [ExtField (Quad (Cubic (Quad F)))]

/-- The functions of the field of each degree. -/
def lops : (l : Lv) → LOps (Ty F l)
  | .one => LOps.of F
  | .two => LOps.of (Quad F)
  | .six => LOps.of (Cubic (Quad F))
  | .twelve => LOps.of (Quad (Cubic (Quad F)))

/-- The coordinates of a pair. -/
def quadCo {A : Type} (x : Quad A) : Fin 2 → A
  | 0 => x.c0 | 1 => x.c1

/-- The coordinates of a triple. -/
def cubicCo {A : Type} (x : Cubic A) : Fin 3 → A
  | 0 => x.c0 | 1 => x.c1 | 2 => x.c2

/-- One call, with the functions of the model. `fromU64` is `From<u64>` of the prime field. Where there is no inverse,
zero is written (`unwrap_or(ZERO)`). -/
def tstep (fromU64 : ℕ → F) (s : TSt F) : TOp → TSt F
  | .const d n => s.write .one d (fromU64 n)
  | .zero l d => s.write l d (lops l).zero
  | .one l d => s.write l d (lops l).one
  | .add l d a b => s.write l d ((lops l).add (s.reg l a) (s.reg l b))
  | .sub l d a b => s.write l d ((lops l).sub (s.reg l a) (s.reg l b))
  | .mul l d a b => s.write l d ((lops l).mul (s.reg l a) (s.reg l b))
  | .neg l d a => s.write l d ((lops l).neg (s.reg l a))
  | .double l d a => s.write l d ((lops l).dbl (s.reg l a))
  | .square l d a => s.write l d ((lops l).sqr (s.reg l a))
  | .invert l d f a =>
    let o := (lops l).invert (s.reg l a)
    let s' := s.write l d (o.getD (lops l).zero)
    { s' with fl := Program.set s'.fl f o.isSome }
  | .frob l i d a => s.write l d ((lops l).frob i (s.reg l a))
  | .pow l d a e => s.write l d ((lops l).pow (s.reg l a) e)
  | .sum l d as => s.write l d ((lops l).sum (as.map (s.reg l)))
  | .product l d as => s.write l d ((lops l).product (as.map (s.reg l)))
  | .nr1 d a => s.write .one d (ExtField.mulNr (s.r1 a))
  | .nr2 d a => s.write .two d (ExtField.mulNr (s.r2 a))
  | .nr6 d a => s.write .six d (ExtField.mulNr (s.r6 a))
  | .conj2 d a => s.write .two d (Quad.conjugate (s.r2 a))
  | .conj12 d a => s.write .twelve d (Quad.conjugate (s.r12 a))
  | .norm2 d a => s.write .one d (Quad.norm (s.r2 a))
  | .norm12 d a => s.write .six d (Quad.norm (s.r12 a))
  | .mk2 d a b => s.write .two d ⟨s.r1 a, s.r1 b⟩
  | .mk6 d a b c => s.write .six d ⟨s.r2 a, s.r2 b, s.r2 c⟩
  | .mk12 d a b => s.write .twelve d ⟨s.r6 a, s.r6 b⟩
  | .co2 k d a => s.write .one d (quadCo (s.r2 a) k)
  | .co6 k d a => s.write .two d (cubicCo (s.r6 a) k)
  | .co12 k d a => s.write .six d (quadCo (s.r12 a) k)
  | .by01 d a b c => s.write .six d (Cubic.mulBy01 (s.r6 a) (s.r2 b) (s.r2 c))
  | .by1 d a b => s.write .six d (Cubic.mulBy1 (s.r6 a) (s.r2 b))
  | .by014 d a b c e => s.write .twelve d (Deg12.mulBy014 (s.r12 a) (s.r2 b) (s.r2 c) (s.r2 e))
  | .by034 d a b c e => s.write .twelve d (Deg12.mulBy034 (s.r12 a) (s.r2 b) (s.r2 c) (s.r2 e))

/-- The calls, with the functions of the model. Where there is no square root, zero is written; a recursion without end is the
same as a panic (the stack overflows). -/
def xstep (fromU64 : ℕ → F) (sqrt : Quad F → SqrtResult (Quad F)) (s : TSt F) : TOp ⊕ SqrtCall → Outcome (TSt F)
  | .inl o => .ok (tstep fromU64 s o)
  | .inr c =>
    match sqrt (s.r2 c.a) with
    | .ok r =>
      let s' := s.write .two c.d (r.getD 0)
      .ok { s' with fl := Program.set s'.fl c.f r.isSome }
    | _ => .panic

/-- A comparison, with the functions of the model. -/
def ttest (s : TSt F) : TTest → Bool
  | .eq l a b => (lops l).eq (s.reg l a) (s.reg l b)
  | .flag f => s.fl f

/-- The result of a comparison is put out. -/
def temit (s : TSt F) (b : Bool) : TSt F := { s with out := b :: s.out }

/-- Running a program on the tower. -/
def trun (fromU64 : ℕ → F) (sqrt : Quad F → SqrtResult (Quad F)) (n : ℕ) (p : Prog (TOp ⊕ SqrtCall) TTest) (s : TSt F) :
    Option (Outcome (TSt F)) :=
  run (xstep fromU64 sqrt) ttest temit n p s

end Step

/-! ## The same programs in one field -/

/-- A basis of the field with `p^12` elements over its subfields: the generators and the coordinates; and a choice of square roots
in the subfield of degree 2. -/
structure Frame (K : Type) where
  u : K
  v : K
  w : K
  co2 : Fin 2 → K → K
  co6 : Fin 3 → K → K
  co12 : Fin 2 → K → K
  sq : K → Option K

/-- What makes a frame right: the generators satisfy the defining equations of the tower, and the coordinates of an element of
a subfield lie in the next smaller one and give the element back; a square root is chosen where there is one. -/
structure Frame.Ok {K : Type} [_root_.Field K] (p : ℕ) (β : ℤ) (ξ0 ξ1 : ℕ) (B : Frame K) : Prop where
  u_sq : B.u ^ 2 = (β : K)
  v_cube : B.v ^ 3 = (ξ0 : K) + (ξ1 : K) * B.u
  w_sq : B.w ^ 2 = B.v
  co2_eq : ∀ x : K, x ^ p ^ 2 = x → x = B.co2 0 x + B.co2 1 x * B.u
  co2_mem : ∀ (k : Fin 2) (x : K), x ^ p ^ 2 = x → B.co2 k x ^ p = B.co2 k x
  co6_eq : ∀ x : K, x ^ p ^ 6 = x → x = B.co6 0 x + B.co6 1 x * B.v + B.co6 2 x * B.v ^ 2
  co6_mem : ∀ (k : Fin 3) (x : K), x ^ p ^ 6 = x → B.co6 k x ^ p ^ 2 = B.co6 k x
  co12_eq : ∀ x : K, x = B.co12 0 x + B.co12 1 x * B.w
  co12_mem : ∀ (k : Fin 2) (x : K), B.co12 k x ^ p ^ 6 = B.co12 k x
  sq_some : ∀ x y : K, x ^ p ^ 2 = x → B.sq x = some y → y ^ 2 = x ∧ y ^ p ^ 2 = y
  sq_none : ∀ x : K, x ^ p ^ 2 = x → (B.sq x = none ↔ ¬ ∃ y : K, y ^ p ^ 2 = y ∧ y ^ 2 = x)

/-- Registers that hold elements of one field `K`. -/
structure ASt (K : Type) where
  reg : Lv → ℕ → K
  fl : ℕ → Bool
  out : List Bool

/-- Writing a register. -/
def ASt.write {K : Type} (t : ASt K) (l : Lv) (d : ℕ) (x : K) : ASt K :=
  { t with reg := fun l' i => if l' = l ∧ i = d then x else t.reg l' i }

section Abstract

variable {K : Type} [_root_.Field K] [DecidableEq K]

/-- One call, as arithmetic of the field `K`. -/
noncomputable def astep (p : ℕ) (B : Frame K) (t : ASt K) : TOp → ASt K
  | .const d n => t.write .one d n
  | .zero l d => t.write l d 0
  | .one l d => t.write l d 1
  | .add l d a b => t.write l d (t.reg l a + t.reg l b)
  | .sub l d a b => t.write l d (t.reg l a - t.reg l b)
  | .mul l d a b => t.write l d (t.reg l a * t.reg l b)
  | .neg l d a => t.write l d (-t.reg l a)
  | .double l d a => t.write l d (2 * t.reg l a)
  | .square l d a => t.write l d (t.reg l a ^ 2)
  | .invert l d f a =>
    { t.write l d (t.reg l a)⁻¹ with fl := Program.set t.fl f (decide (t.reg l a ≠ 0)) }
  | .frob l i d a => t.write l d (t.reg l a ^ p ^ i)
  | .pow l d a e => t.write l d (t.reg l a ^ limbsVal e)
  | .sum l d as => t.write l d (as.map (t.reg l)).sum
  | .product l d as => t.write l d (as.map (t.reg l)).prod
  | .nr1 d a => t.write .one d (B.u ^ 2 * t.reg .one a)
  | .nr2 d a => t.write .two d (B.v ^ 3 * t.reg .two a)
  | .nr6 d a => t.write .six d (B.w ^ 2 * t.reg .six a)
  | .conj2 d a => t.write .two d (t.reg .two a ^ p)
  | .conj12 d a => t.write .twelve d (t.reg .twelve a ^ p ^ 6)
  | .norm2 d a => t.write .one d (t.reg .two a * t.reg .two a ^ p)
  | .norm12 d a => t.write .six d (t.reg .twelve a * t.reg .twelve a ^ p ^ 6)
  | .mk2 d a b => t.write .two d (t.reg .one a + t.reg .one b * B.u)
  | .mk6 d a b c => t.write .six d (t.reg .two a + t.reg .two b * B.v + t.reg .two c * B.v ^ 2)
  | .mk12 d a b => t.write .twelve d (t.reg .six a + t.reg .six b * B.w)
  | .co2 k d a => t.write .one d (B.co2 k (t.reg .two a))
  | .co6 k d a => t.write .two d (B.co6 k (t.reg .six a))
  | .co12 k d a => t.write .six d (B.co12 k (t.reg .twelve a))
  | .by01 d a b c => t.write .six d (t.reg .six a * (t.reg .two b + t.reg .two c * B.v))
  | .by1 d a b => t.write .six d (t.reg .six a * (t.reg .two b * B.v))
  | .by014 d a b c e => t.write .twelve d (t.reg .twelve a * (t.reg .two b + t.reg .two c * B.v + t.reg .two e * B.v * B.w))
  | .by034 d a b c e => t.write .twelve d (t.reg .twelve a * (t.reg .two b + (t.reg .two c + t.reg .two e * B.v) * B.w))

/-- The calls, as arithmetic of the field `K`; `total` says whether the square root of zero is returned. -/
noncomputable def axstep (p : ℕ) (B : Frame K) (total : Bool) (t : ASt K) : TOp ⊕ SqrtCall → Outcome (ASt K)
  | .inl o => .ok (astep p B t o)
  | .inr c =>
    if total = false ∧ t.reg .two c.a = 0 then .panic
    else .ok { t.write .two c.d ((B.sq (t.reg .two c.a)).getD 0) with fl := Program.set t.fl c.f (B.sq (t.reg .two c.a)).isSome }

/-- A comparison of elements of `K`. -/
def atest (t : ASt K) : TTest → Bool
  | .eq l a b => decide (t.reg l a = t.reg l b)
  | .flag f => t.fl f

/-- The result of a comparison is put out. -/
def aemit (t : ASt K) (b : Bool) : ASt K := { t with out := b :: t.out }

/-- Running a program in the field `K`. -/
noncomputable def arun (p : ℕ) (B : Frame K) (total : Bool) (n : ℕ) (q : Prog (TOp ⊕ SqrtCall) TTest) (t : ASt K) :
    Option (Outcome (ASt K)) :=
  run (axstep p B total) atest aemit n q t

end Abstract

end Halo2.Ext.TowerProg
