import Verif.Trace.Limb
import Verif.Curve.Inst

/-!
# Which word operations the curve functions execute

The traced versions of the functions of `src/derive/curve.rs` and of the quadratic extensions, over any base field given
by its traced operations. The test `$constant_a == $base::ZERO` and the value `3b` concern constants of the curve and have no
event.
-/

set_option linter.unusedSectionVars false

namespace Halo2.Trace

open Halo2 Halo2.Field Halo2.Ext Halo2.Curve T

/-- The traced operations of a field. -/
structure Ops (F : Type) where
  add : F → F → T F
  sub : F → F → T F
  mul : F → F → T F
  sqr : F → T F
  dbl : F → T F
  neg : F → T F
  sel : F → F → Bool → T F
  isZero : F → T Bool
  eq : F → F → T Bool

/-- The operations compute what the field computes, and all but the comparisons leave the same trace on all inputs. -/
structure Steady {F : Type} [CommRing F] [DecidableEq F] [BaseField F] (o : Ops F) : Prop where
  add : ∃ t, ∀ a b, o.add a b = ⟨a + b, t⟩
  sub : ∃ t, ∀ a b, o.sub a b = ⟨a - b, t⟩
  mul : ∃ t, ∀ a b, o.mul a b = ⟨a * b, t⟩
  sqr : ∃ t, ∀ a, o.sqr a = ⟨BaseField.sqr a, t⟩
  dbl : ∃ t, ∀ a, o.dbl a = ⟨BaseField.dbl a, t⟩
  neg : ∃ t, ∀ a, o.neg a = ⟨-a, t⟩
  sel : ∃ t, ∀ a b c, o.sel a b c = ⟨if c then b else a, t⟩
  isZero : ∀ a, (o.isZero a).val = BaseField.isZero a
  eq : ∀ a b, (o.eq a b).val = decide (a = b)

/-! ### Prime fields -/

/-- Apply a function to the value. -/
def T.map {α β : Type} (f : α → β) (x : T α) : T β := ⟨f x.val, x.tr⟩

section Prime

variable (p : ℕ) [hp : Fact (OddModulus p)]

/-- The functions of the generated field, `derive/src/field/arith.rs` and `derive/src/field/mod.rs`; `is_zero` is the
provided method `self.ct_eq(&Self::ZERO)` of the crate `ff`. -/
def fpOps : Ops (Fp p) where
  add a b := (fAddT (modulusLimbs p) a.limbs b.limbs).map Fp.ofMont
  sub a b := (fSubT (modulusLimbs p) a.limbs b.limbs).map Fp.ofMont
  mul a b := (fMulT (modulusLimbs p) (inv64 p) a.limbs b.limbs).map Fp.ofMont
  sqr a := (fSquareT (modulusLimbs p) (inv64 p) a.limbs).map Fp.ofMont
  dbl a := (fAddT (modulusLimbs p) a.limbs a.limbs).map Fp.ofMont
  neg a := (fNegT (modulusLimbs p) a.limbs).map Fp.ofMont
  sel a b c := (selectT a.limbs b.limbs c (List.range (numLimbs p))).map Fp.ofMont
  isZero a := ctEqT a.limbs (Field.zero p)
  eq a b := ctEqT a.limbs b.limbs

/-- `to_repr`, `derive/src/field/mod.rs:470-476`; splitting words into bytes has no event. -/
def toReprT (a : Fp p) : T (List ℕ) := (fromMontT (modulusLimbs p) (inv64 p) a.limbs).map Endian.LE.toBytes

variable {p}

theorem limbs_length (a : Fp p) : a.limbs.length = numLimbs p := a.elem.len

end Prime

/-! ### Quadratic extensions -/

section Quad

variable {F : Type} (o : Ops F) (nr : F → T F)

/-- Models src/ff_ext/quadratic.rs:152-157. -/
def quadMulT (x y : Quad F) : T (Quad F) := do
  let v0 ← o.mul x.c0 y.c0
  let v1 ← o.mul x.c1 y.c1
  let s ← o.add x.c0 x.c1
  let s' ← o.add y.c0 y.c1
  let m ← o.mul s s'
  let v ← o.add v0 v1
  let c1 ← o.sub m v
  let n ← nr v1
  let c0 ← o.add v0 n
  pure ⟨c0, c1⟩

/-- Models src/ff_ext/quadratic.rs:159-165. -/
def quadSquareT (x : Quad F) : T (Quad F) := do
  let ab ← o.mul x.c0 x.c1
  let c0c1 ← o.add x.c0 x.c1
  let n ← nr x.c1
  let s ← o.add n x.c0
  let m ← o.mul s c0c1
  let c0 ← o.sub m ab
  let c1 ← o.dbl ab
  let n ← nr ab
  let c0 ← o.sub c0 n
  pure ⟨c0, c1⟩

/-- Models src/bn256/fq2.rs:34-40 and src/bls12381/fq2.rs:38-44. -/
def squareComplexT (x : Quad F) : T (Quad F) := do
  let a ← o.add x.c0 x.c1
  let b ← o.sub x.c0 x.c1
  let c ← o.dbl x.c0
  let c0 ← o.mul a b
  let c1 ← o.mul c x.c1
  pure ⟨c0, c1⟩

/-- The functions of `src/ff_ext/quadratic.rs` over a base field; `nr` is `mul_by_nonresidue` and `sq` the squaring of the
extension. -/
def quadOps (sq : Quad F → T (Quad F)) : Ops (Quad F) where
  add x y := do
    let c0 ← o.add x.c0 y.c0
    let c1 ← o.add x.c1 y.c1
    pure ⟨c0, c1⟩
  sub x y := do
    let c0 ← o.sub x.c0 y.c0
    let c1 ← o.sub x.c1 y.c1
    pure ⟨c0, c1⟩
  mul := quadMulT o nr
  sqr := sq
  dbl x := do
    let c0 ← o.dbl x.c0
    let c1 ← o.dbl x.c1
    pure ⟨c0, c1⟩
  neg x := do
    let c0 ← o.neg x.c0
    let c1 ← o.neg x.c1
    pure ⟨c0, c1⟩
  sel x y c := do
    let c0 ← o.sel x.c0 y.c0 c
    let c1 ← o.sel x.c1 y.c1 c
    pure ⟨c0, c1⟩
  isZero x := do
    let a ← o.isZero x.c0
    let b ← o.isZero x.c1
    op .bit (a && b)
  eq x y := do
    let a ← o.eq x.c0 y.c0
    let b ← o.eq x.c1 y.c1
    op .bit (a && b)

end Quad

/-! ### Points -/

section Points

variable {F : Type} [CommRing F] [DecidableEq F] (o : Ops F) (C : Params F)

/-- Models src/derive/curve.rs:286-292 (`mul_by_3b`). -/
def mul3bT (t : F) : T F :=
  if C.bnG1 then do
    let a ← o.dbl t
    let a ← o.dbl a
    let a ← o.dbl a
    o.add a t
  else o.mul t (const3b C)

/-- Models src/derive/curve.rs:383-389 (`conditional_select`). -/
def selT (p q : Proj F) (c : Bool) : T (Proj F) := do
  let x ← o.sel p.x q.x c
  let y ← o.sel p.y q.y c
  let z ← o.sel p.z q.z c
  pure ⟨x, y, z⟩

/-- Models src/derive/curve.rs:853-863 (`neg`). -/
def negT (p : Proj F) : T (Proj F) := do
  let y ← o.neg p.y
  pure ⟨p.x, y, p.z⟩

/-- Models src/derive/curve.rs:526-592 (`double`), up to the value `tmp`. -/
def doubleTmpT (p : Proj F) : T (Proj F) :=
  if C.a = 0 then do
    let t0 ← o.sqr p.y
    let z3 ← o.add t0 t0
    let z3 ← o.add z3 z3
    let z3 ← o.add z3 z3
    let t1 ← o.mul p.y p.z
    let t2 ← o.sqr p.z
    let t2 ← mul3bT o C t2
    let x3 ← o.mul t2 z3
    let y3 ← o.add t0 t2
    let z3 ← o.mul t1 z3
    let t1 ← o.add t2 t2
    let t2 ← o.add t1 t2
    let t0 ← o.sub t0 t2
    let y3 ← o.mul t0 y3
    let y3 ← o.add x3 y3
    let t1 ← o.mul p.x p.y
    let x3 ← o.mul t0 t1
    let x3 ← o.add x3 x3
    pure ⟨x3, y3, z3⟩
  else do
    let t0 ← o.sqr p.x
    let t1 ← o.sqr p.y
    let t2 ← o.sqr p.z
    let t3 ← o.mul p.x p.y
    let t3 ← o.add t3 t3
    let z3 ← o.mul p.x p.z
    let z3 ← o.add z3 z3
    let x3 ← o.mul C.a z3
    let y3 ← mul3bT o C t2
    let y3 ← o.add x3 y3
    let x3 ← o.sub t1 y3
    let y3 ← o.add t1 y3
    let y3 ← o.mul x3 y3
    let x3 ← o.mul t3 x3
    let z3 ← mul3bT o C z3
    let t2 ← o.mul C.a t2
    let t3 ← o.sub t0 t2
    let t3 ← o.mul C.a t3
    let t3 ← o.add t3 z3
    let z3 ← o.add t0 t0
    let t0 ← o.add z3 t0
    let t0 ← o.add t0 t2
    let t0 ← o.mul t0 t3
    let y3 ← o.add y3 t0
    let t2 ← o.mul p.y p.z
    let t2 ← o.add t2 t2
    let t0 ← o.mul t2 t3
    let x3 ← o.sub x3 t0
    let z3 ← o.mul t2 t1
    let z3 ← o.add z3 z3
    let z3 ← o.add z3 z3
    pure ⟨x3, y3, z3⟩

/-- Models src/derive/curve.rs:526-597 (`double`). -/
def doubleT (p : Proj F) : T (Proj F) := do
  let tmp ← doubleTmpT o C p
  let c ← o.isZero p.z
  selT o tmp Proj.identity c

/-- Models src/derive/curve.rs:885-980 (`add`, projective + projective). -/
def addT (p q : Proj F) : T (Proj F) :=
  if C.a = 0 then do
    let t0 ← o.mul p.x q.x
    let t1 ← o.mul p.y q.y
    let t2 ← o.mul p.z q.z
    let t3 ← o.add p.x p.y
    let t4 ← o.add q.x q.y
    let t3 ← o.mul t3 t4
    let t4 ← o.add t0 t1
    let t3 ← o.sub t3 t4
    let t4 ← o.add p.y p.z
    let x3 ← o.add q.y q.z
    let t4 ← o.mul t4 x3
    let x3 ← o.add t1 t2
    let t4 ← o.sub t4 x3
    let x3 ← o.add p.x p.z
    let y3 ← o.add q.x q.z
    let x3 ← o.mul x3 y3
    let y3 ← o.add t0 t2
    let y3 ← o.sub x3 y3
    let x3 ← o.add t0 t0
    let t0 ← o.add x3 t0
    let t2 ← mul3bT o C t2
    let z3 ← o.add t1 t2
    let t1 ← o.sub t1 t2
    let y3 ← mul3bT o C y3
    let x3 ← o.mul t4 y3
    let t2 ← o.mul t3 t1
    let x3 ← o.sub t2 x3
    let y3 ← o.mul y3 t0
    let t1 ← o.mul t1 z3
    let y3 ← o.add t1 y3
    let t0 ← o.mul t0 t3
    let z3 ← o.mul z3 t4
    let z3 ← o.add z3 t0
    pure ⟨x3, y3, z3⟩
  else do
    let t0 ← o.mul p.x q.x
    let t1 ← o.mul p.y q.y
    let t2 ← o.mul p.z q.z
    let t3 ← o.add p.x p.y
    let t4 ← o.add q.x q.y
    let t3 ← o.mul t3 t4
    let t4 ← o.add t0 t1
    let t3 ← o.sub t3 t4
    let t4 ← o.add p.x p.z
    let t5 ← o.add q.x q.z
    let t4 ← o.mul t4 t5
    let t5 ← o.add t0 t2
    let t4 ← o.sub t4 t5
    let t5 ← o.add p.y p.z
    let x3 ← o.add q.y q.z
    let t5 ← o.mul t5 x3
    let x3 ← o.add t1 t2
    let t5 ← o.sub t5 x3
    let z3 ← o.mul C.a t4
    let x3 ← mul3bT o C t2
    let z3 ← o.add x3 z3
    let x3 ← o.sub t1 z3
    let z3 ← o.add t1 z3
    let y3 ← o.mul x3 z3
    let t1 ← o.add t0 t0
    let t1 ← o.add t1 t0
    let t2 ← o.mul C.a t2
    let t4 ← mul3bT o C t4
    let t1 ← o.add t1 t2
    let t2 ← o.sub t0 t2
    let t2 ← o.mul C.a t2
    let t4 ← o.add t4 t2
    let t0 ← o.mul t1 t4
    let y3 ← o.add y3 t0
    let t0 ← o.mul t5 t4
    let x3 ← o.mul t3 x3
    let x3 ← o.sub x3 t0
    let t0 ← o.mul t3 t1
    let z3 ← o.mul t5 z3
    let z3 ← o.add z3 t0
    pure ⟨x3, y3, z3⟩

/-- Models src/derive/curve.rs:772-774 (`is_identity` of affine points). -/
def affIsIdentityT (q : Aff F) : T Bool := do
  let a ← o.isZero q.x
  let b ← o.isZero q.y
  op .bit (a && b)

/-- Models src/derive/curve.rs:982-1063 (`add`, projective + affine), up to the value `tmp`. -/
def addMixedTmpT (p : Proj F) (q : Aff F) : T (Proj F) :=
  if C.a = 0 then do
    let t0 ← o.mul p.x q.x
    let t1 ← o.mul p.y q.y
    let t3 ← o.add q.x q.y
    let t4 ← o.add p.x p.y
    let t3 ← o.mul t3 t4
    let t4 ← o.add t0 t1
    let t3 ← o.sub t3 t4
    let t4 ← o.mul q.y p.z
    let t4 ← o.add t4 p.y
    let y3 ← o.mul q.x p.z
    let y3 ← o.add y3 p.x
    let x3 ← o.add t0 t0
    let t0 ← o.add x3 t0
    let t2 ← mul3bT o C p.z
    let z3 ← o.add t1 t2
    let t1 ← o.sub t1 t2
    let y3 ← mul3bT o C y3
    let x3 ← o.mul t4 y3
    let t2 ← o.mul t3 t1
    let x3 ← o.sub t2 x3
    let y3 ← o.mul y3 t0
    let t1 ← o.mul t1 z3
    let y3 ← o.add t1 y3
    let t0 ← o.mul t0 t3
    let z3 ← o.mul z3 t4
    let z3 ← o.add z3 t0
    pure ⟨x3, y3, z3⟩
  else do
    let t0 ← o.mul p.x q.x
    let t1 ← o.mul p.y q.y
    let t3 ← o.add q.x q.y
    let t4 ← o.add p.x p.y
    let t3 ← o.mul t3 t4
    let t4 ← o.add t0 t1
    let t3 ← o.sub t3 t4
    let t4 ← o.mul q.x p.z
    let t4 ← o.add t4 p.x
    let t5 ← o.mul q.y p.z
    let t5 ← o.add t5 p.y
    let z3 ← o.mul C.a t4
    let x3 ← mul3bT o C p.z
    let z3 ← o.add x3 z3
    let x3 ← o.sub t1 z3
    let z3 ← o.add t1 z3
    let y3 ← o.mul x3 z3
    let t1 ← o.add t0 t0
    let t1 ← o.add t1 t0
    let t2 ← o.mul C.a p.z
    let t4 ← mul3bT o C t4
    let t1 ← o.add t1 t2
    let t2 ← o.sub t0 t2
    let t2 ← o.mul C.a t2
    let t4 ← o.add t4 t2
    let t0 ← o.mul t1 t4
    let y3 ← o.add y3 t0
    let t0 ← o.mul t5 t4
    let x3 ← o.mul t3 x3
    let x3 ← o.sub x3 t0
    let t0 ← o.mul t3 t1
    let z3 ← o.mul t5 z3
    let z3 ← o.add z3 t0
    pure ⟨x3, y3, z3⟩

/-- Models src/derive/curve.rs:982-1068 (`add`, projective + affine). -/
def addMixedT (p : Proj F) (q : Aff F) : T (Proj F) := do
  let tmp ← addMixedTmpT o C p q
  let c ← affIsIdentityT o q
  selT o tmp p c

/-- Models src/derive/curve.rs:361-378 (`ct_eq`); the operators on `Choice` are bit operations. -/
def ctEqPT (p q : Proj F) : T Bool := do
  let x1 ← o.mul p.x q.z
  let y1 ← o.mul p.y q.z
  let x2 ← o.mul q.x p.z
  let y2 ← o.mul q.y p.z
  let pz ← o.isZero p.z
  let qz ← o.isZero q.z
  let both ← op .bit (pz && qz)
  let np ← op .bit (!pz)
  let nq ← op .bit (!qz)
  let n ← op .bit (np && nq)
  let ex ← o.eq x1 x2
  let n ← op .bit (n && ex)
  let ey ← o.eq y1 y2
  let n ← op .bit (n && ey)
  op .bit (both || n)

/-- The loop of `Mul<&Scalar> for &$name`, src/derive/curve.rs:1095-1107: extracting the bit is one operation. -/
def mulLoopT (p : Proj F) : List Bool → Proj F → T (Proj F)
  | [], acc => pure acc
  | b :: bs, acc => do
    let bit ← op .bit b
    let acc ← doubleT o C acc
    let s ← addT o C acc p
    let acc ← selT o acc s bit
    mulLoopT p bs acc

/-- The loop of `Mul<&Scalar> for &$name_affine`, src/derive/curve.rs:1175-1184. -/
def mulMixedLoopT (p : Aff F) : List Bool → Proj F → T (Proj F)
  | [], acc => pure acc
  | b :: bs, acc => do
    let bit ← op .bit b
    let acc ← doubleT o C acc
    let s ← addMixedT o C acc p
    let acc ← selT o acc s bit
    mulMixedLoopT p bs acc

/-- Models src/derive/curve.rs:1094-1110 (`Mul<&Scalar> for &$name`) with a scalar of the prime field `r`. -/
def mulT {r : ℕ} [Fact (OddModulus r)] (p : Proj F) (s : Fp r) : T (Proj F) := do
  let repr ← toReprT r s
  mulLoopT o C p (Proj.bitsOf repr) Proj.identity

/-- Models src/derive/curve.rs:1168-1187 (`Mul<&Scalar> for &$name_affine`). -/
def mulMixedT {r : ℕ} [Fact (OddModulus r)] (p : Aff F) (s : Fp r) : T (Proj F) := do
  let repr ← toReprT r s
  mulMixedLoopT o C p (Proj.bitsOf repr) Proj.identity

end Points

/-! ### Constant traces -/

section Const

variable {F : Type} [CommRing F] [DecidableEq F] [BaseField F] {o : Ops F} (ho : Steady o) {C : Params F}

theorem bind_mk {α β : Type} (v : α) (t : List Ev) (f : α → T β) :
    ((⟨v, t⟩ : T α) >>= f) = ⟨(f v).val, t ++ (f v).tr⟩ := rfl

theorem pure_mk {α : Type} (v : α) : (pure v : T α) = ⟨v, []⟩ := rfl

include ho

theorem mul3bT_eq : ∃ t, ∀ a, mul3bT o C a = ⟨mul3b C a, t⟩ := by
  obtain ⟨_, hadd⟩ := ho.add
  obtain ⟨_, hmul⟩ := ho.mul
  obtain ⟨_, hdbl⟩ := ho.dbl
  refine ⟨(mul3bT o C 0).tr, fun a => ?_⟩
  by_cases hb : C.bnG1 = true
  · simp only [mul3bT, mul3b, if_pos hb, hdbl, hadd, bind_mk]
  · simp only [mul3bT, mul3b, if_neg hb, hmul]

theorem selT_eq : ∃ t, ∀ p q c, selT o p q c = ⟨if c then q else p, t⟩ := by
  obtain ⟨_, hsel⟩ := ho.sel
  refine ⟨(selT o Proj.identity Proj.identity true).tr, fun p q c => ?_⟩
  simp only [selT, hsel, bind_mk, pure_mk]
  cases c <;> rfl

theorem negT_eq : ∃ t, ∀ p, negT o p = ⟨Proj.neg p, t⟩ := by
  obtain ⟨_, hneg⟩ := ho.neg
  exact ⟨_, fun p => bind_eq (hneg _) rfl⟩

theorem addT_eq : ∃ t, ∀ p q, addT o C p q = ⟨Proj.add C p q, t⟩ := by
  obtain ⟨_, hadd⟩ := ho.add
  obtain ⟨_, hmul⟩ := ho.mul
  obtain ⟨_, hsub⟩ := ho.sub
  obtain ⟨_, h3b⟩ := mul3bT_eq ho (C := C)
  refine ⟨(addT o C Proj.identity Proj.identity).tr, fun p q => ?_⟩
  by_cases ha : C.a = 0
  · simp only [addT, Proj.add, if_pos ha, hadd, hmul, hsub, h3b, bind_mk, pure_mk]
  · simp only [addT, Proj.add, if_neg ha, hadd, hmul, hsub, h3b, bind_mk, pure_mk]

/-- Doubling: a constant trace except for the test whether `z` is zero. -/
theorem doubleT_eq : ∃ t u, ∀ p, doubleT o C p = ⟨Proj.double C p, t ++ ((o.isZero p.z).tr ++ u)⟩ := by
  obtain ⟨_, hadd⟩ := ho.add
  obtain ⟨_, hmul⟩ := ho.mul
  obtain ⟨_, hsub⟩ := ho.sub
  obtain ⟨_, hsqr⟩ := ho.sqr
  obtain ⟨_, h3b⟩ := mul3bT_eq ho (C := C)
  obtain ⟨u, hs⟩ := selT_eq ho
  refine ⟨(doubleTmpT o C Proj.identity).tr, u, fun p => ?_⟩
  have hz : o.isZero p.z = ⟨isZero p.z, (o.isZero p.z).tr⟩ := by rw [← ho.isZero]
  generalize (o.isZero p.z).tr = e at hz
  by_cases ha : C.a = 0
  · simp only [doubleT, doubleTmpT, Proj.double, Proj.isIdentity, if_pos ha, hadd, hmul, hsub, hsqr, h3b, bind_mk, hs,
      pure_mk, hz]
    rfl
  · simp only [doubleT, doubleTmpT, Proj.double, Proj.isIdentity, if_neg ha, hadd, hmul, hsub, hsqr, h3b, bind_mk, hs,
      pure_mk, hz]
    rfl

theorem affIsIdentityT_eq (q : Aff F) : affIsIdentityT o q =
    ⟨Aff.isIdentity q, (o.isZero q.x).tr ++ ((o.isZero q.y).tr ++ [Ev.bit])⟩ := by
  refine bind_eq (v := isZero q.x) (by rw [← ho.isZero]) (bind_eq (v := isZero q.y) (by rw [← ho.isZero]) rfl)

/-- Mixed addition: a constant trace except for the tests on the affine point. -/
theorem addMixedT_eq : ∃ t u, ∀ p q, addMixedT o C p q =
    ⟨Proj.addMixed C p q, t ++ ((o.isZero q.x).tr ++ ((o.isZero q.y).tr ++ u))⟩ := by
  obtain ⟨_, hadd⟩ := ho.add
  obtain ⟨_, hmul⟩ := ho.mul
  obtain ⟨_, hsub⟩ := ho.sub
  obtain ⟨_, h3b⟩ := mul3bT_eq ho (C := C)
  obtain ⟨u, hs⟩ := selT_eq ho
  refine ⟨(addMixedTmpT o C Proj.identity Aff.identity).tr, [Ev.bit] ++ u, fun p q => ?_⟩
  by_cases ha : C.a = 0
  · simp only [addMixedT, addMixedTmpT, Proj.addMixed, affIsIdentityT_eq ho, if_pos ha, hadd, hmul, hsub, h3b, bind_mk, hs,
      pure_mk, List.append_assoc]
  · simp only [addMixedT, addMixedTmpT, Proj.addMixed, affIsIdentityT_eq ho, if_neg ha, hadd, hmul, hsub, h3b, bind_mk, hs,
      pure_mk, List.append_assoc]

/-- Equality of projective points: a constant trace except for the comparisons. -/
theorem ctEqPT_eq : ∃ t u v, ∀ p q, ctEqPT o p q = ⟨Proj.ctEq p q, t ++ ((o.isZero p.z).tr ++ ((o.isZero q.z).tr ++ (u ++
    ((o.eq (p.x * q.z) (q.x * p.z)).tr ++ (v ++ ((o.eq (p.y * q.z) (q.y * p.z)).tr ++ [.bit, .bit]))))))⟩ := by
  obtain ⟨tm, hmul⟩ := ho.mul
  refine ⟨tm ++ (tm ++ (tm ++ tm)), [.bit, .bit, .bit, .bit], [.bit], fun p q => ?_⟩
  have hz (a : F) : o.isZero a = ⟨isZero a, (o.isZero a).tr⟩ := by rw [← ho.isZero]
  have he (a b : F) : o.eq a b = ⟨decide (a = b), (o.eq a b).tr⟩ := by rw [← ho.eq]
  rw [ctEqPT]
  refine (bind_eq (hmul _ _) (bind_eq (hmul _ _) (bind_eq (hmul _ _) (bind_eq (hmul _ _) (bind_eq (hz _) (bind_eq (hz _)
    (bind_eq rfl (bind_eq rfl (bind_eq rfl (bind_eq rfl (bind_eq (he _ _) (bind_eq rfl (bind_eq (he _ _)
    (bind_eq rfl rfl)))))))))))))).trans ?_
  simp only [Proj.ctEq, Proj.isIdentity, List.append_assoc, List.cons_append, List.nil_append]
  rfl

/-- The accumulators the loop doubles, in order. -/
def accs (C : Params F) (addP : Proj F → Proj F) : List Bool → Proj F → List (Proj F)
  | [], _ => []
  | b :: bs, acc => acc :: accs C addP bs (let d := Proj.double C acc
      if b then addP d else d)

theorem mulLoopT_eq : ∃ t u, ∀ p bits acc, mulLoopT o C p bits acc =
    ⟨bits.foldl (fun acc bit => let acc := Proj.double C acc
        if bit then Proj.add C acc p else acc) acc,
      (accs C (fun A => Proj.add C A p) bits acc).flatMap fun A => t ++ ((o.isZero A.z).tr ++ u)⟩ := by
  obtain ⟨t, u, hd⟩ := doubleT_eq ho (C := C)
  obtain ⟨ta, ha⟩ := addT_eq ho (C := C)
  obtain ⟨ts, hs⟩ := selT_eq ho
  refine ⟨[.bit] ++ t, u ++ (ta ++ ts), fun p bits => ?_⟩
  induction bits with
  | nil => intro acc; rfl
  | cons b bs ih =>
    intro acc
    rw [mulLoopT]
    refine (bind_eq rfl (bind_eq (hd _) (bind_eq (ha _ _) (bind_eq (hs _ _ _) (ih _))))).trans ?_
    simp only [List.foldl_cons, accs, List.flatMap_cons, List.append_assoc]
    rfl

theorem mulMixedLoopT_eq : ∃ t u v, ∀ p bits acc, mulMixedLoopT o C p bits acc =
    ⟨bits.foldl (fun acc bit => let acc := Proj.double C acc
        if bit then Proj.addMixed C acc p else acc) acc,
      (accs C (fun A => Proj.addMixed C A p) bits acc).flatMap fun A =>
        t ++ ((o.isZero A.z).tr ++ (u ++ ((o.isZero p.x).tr ++ ((o.isZero p.y).tr ++ v))))⟩ := by
  obtain ⟨t, u, hd⟩ := doubleT_eq ho (C := C)
  obtain ⟨ta, ua, ha⟩ := addMixedT_eq ho (C := C)
  obtain ⟨ts, hs⟩ := selT_eq ho
  refine ⟨[.bit] ++ t, u ++ ta, ua ++ ts, fun p bits => ?_⟩
  induction bits with
  | nil => intro acc; rfl
  | cons b bs ih =>
    intro acc
    rw [mulMixedLoopT]
    refine (bind_eq rfl (bind_eq (hd _) (bind_eq (ha _ _) (bind_eq (hs _ _ _) (ih _))))).trans ?_
    simp only [List.foldl_cons, accs, List.flatMap_cons, List.append_assoc]
    rfl

end Const

/-! ### Prime fields and quadratic extensions -/

section Inst

variable {p : ℕ} [hp : Fact (OddModulus p)]

theorem modulusLimbs_length : (modulusLimbs p).length = numLimbs p := by
  rw [modulusLimbs, bigToLimbs, List.length_map, List.length_range]

theorem fpOps_add (a b : Fp p) : (fpOps p).add a b = ⟨a + b, addTrace (numLimbs p)⟩ := by
  refine T.ext ?_ (fAddT_tr modulusLimbs_length (limbs_length a) (limbs_length b))
  show Fp.ofMont (fAddT _ _ _).val = Fp.add a b
  rw [fAddT_val, ← Fp.ofMont_limbs (Fp.add a b), Fp.add]
  rfl

theorem fpOps_sub (a b : Fp p) : (fpOps p).sub a b = ⟨a - b, subTrace (numLimbs p)⟩ := by
  refine T.ext ?_ (fSubT_tr modulusLimbs_length (limbs_length a) (limbs_length b))
  show Fp.ofMont (fSubT _ _ _).val = Fp.sub a b
  rw [fSubT_val, ← Fp.ofMont_limbs (Fp.sub a b), Fp.sub]
  rfl

theorem fpOps_mul (a b : Fp p) : (fpOps p).mul a b = ⟨a * b, mulTrace (numLimbs p)⟩ := by
  refine T.ext ?_ (fMulT_tr (Nat.succ_pos _) modulusLimbs_length (limbs_length a) (limbs_length b))
  show Fp.ofMont (fMulT _ _ _ _).val = Fp.mul a b
  rw [fMulT_val, ← Fp.ofMont_limbs (Fp.mul a b), Fp.mul]
  rfl

theorem fpOps_sqr (a : Fp p) : (fpOps p).sqr a = ⟨Fp.square a, squareTrace (numLimbs p)⟩ := by
  refine T.ext ?_ (fSquareT_tr (Nat.succ_pos _) modulusLimbs_length (limbs_length a))
  show Fp.ofMont (fSquareT _ _ _).val = Fp.square a
  rw [fSquareT_val, ← Fp.ofMont_limbs (Fp.square a), Fp.square]
  rfl

theorem fpOps_dbl (a : Fp p) : (fpOps p).dbl a = ⟨Fp.double a, addTrace (numLimbs p)⟩ := by
  refine T.ext ?_ (fAddT_tr modulusLimbs_length (limbs_length a) (limbs_length a))
  show Fp.ofMont (fAddT _ _ _).val = Fp.double a
  rw [fAddT_val, ← Fp.ofMont_limbs (Fp.double a), Fp.double]
  rfl

theorem fpOps_neg (a : Fp p) : (fpOps p).neg a = ⟨-a, negTrace (numLimbs p)⟩ := by
  refine T.ext ?_ (fNegT_tr modulusLimbs_length (limbs_length a))
  show Fp.ofMont (fNegT _ _).val = Fp.neg a
  rw [fNegT_val, ← Fp.ofMont_limbs (Fp.neg a), Fp.neg]
  rfl

theorem fpOps_sel (a b : Fp p) (c : Bool) :
    (fpOps p).sel a b c = ⟨if c then b else a, List.replicate (numLimbs p) .sel⟩ := by
  refine T.ext ?_ ?_
  · show Fp.ofMont (selectT _ _ _ _).val = _
    rw [selectT_val]
    exact Fp.select_spec a b c
  · show (selectT _ _ _ _).tr = _
    rw [selectT_tr, List.length_range]

theorem fpOps_eq (a b : Fp p) : (fpOps p).eq a b =
    ⟨decide (a = b), List.replicate (min (numLimbs p) (agree a.limbs b.limbs + 1)) .cmp⟩ := by
  refine T.ext ?_ (ctEqT_tr (limbs_length a) (limbs_length b))
  show (ctEqT _ _).val = _
  rw [ctEqT_val]
  exact Bool.eq_iff_iff.mpr ((Fp.ctEq_spec a b).trans decide_eq_true_iff.symm)

theorem zero_limbs : (0 : Fp p).limbs = Field.zero p := by
  show (Fp.zero : Fp p).limbs = _
  rw [Fp.zero]

theorem fpOps_isZero (a : Fp p) : (fpOps p).isZero a =
    ⟨decide (a = 0), List.replicate (min (numLimbs p) (agree a.limbs (Field.zero p) + 1)) .cmp⟩ := by
  have h := fpOps_eq a 0
  rw [zero_limbs] at h
  refine Eq.trans ?_ h
  show ctEqT _ _ = ctEqT _ _
  rw [zero_limbs]

theorem toReprT_eq (a : Fp p) : toReprT p a = ⟨Field.toRepr p a.limbs, fromMontTrace (numLimbs p)⟩ := by
  refine T.ext ?_ (fromMontT_tr (Nat.succ_pos _) modulusLimbs_length (limbs_length a))
  show Endian.LE.toBytes (fromMontT _ _ _).val = _
  rw [fromMontT_val]
  rfl

theorem steady_fp : Steady (fpOps p) where
  add := ⟨_, fpOps_add⟩
  sub := ⟨_, fpOps_sub⟩
  mul := ⟨_, fpOps_mul⟩
  sqr := ⟨_, fpOps_sqr⟩
  dbl := ⟨_, fpOps_dbl⟩
  neg := ⟨_, fpOps_neg⟩
  sel := ⟨_, fpOps_sel⟩
  isZero a := by rw [fpOps_isZero]; rfl
  eq a b := by rw [fpOps_eq]

end Inst

section QuadInst

variable {F : Type} [CommRing F] [DecidableEq F] [BaseField F] [ExtField F] {o : Ops F} (ho : Steady o) {nr : F → T F}
  (hnr : ∃ t, ∀ a, nr a = ⟨ExtField.mulNr a, t⟩) (hd : ∀ a : F, BaseField.dbl a = ExtField.dbl a)

include ho hnr in
theorem quadMulT_eq : ∃ t, ∀ a b, quadMulT o nr a b = ⟨Quad.mul a b, t⟩ := by
  obtain ⟨_, hadd⟩ := ho.add
  obtain ⟨_, hmul⟩ := ho.mul
  obtain ⟨_, hsub⟩ := ho.sub
  obtain ⟨_, hnr⟩ := hnr
  refine ⟨(quadMulT o nr ⟨0, 0⟩ ⟨0, 0⟩).tr, fun a b => ?_⟩
  simp only [quadMulT, Quad.mul, hadd, hmul, hsub, hnr, bind_mk, pure_mk]

include ho hnr hd in
theorem quadSquareT_eq : ∃ t, ∀ a, quadSquareT o nr a = ⟨Quad.square a, t⟩ := by
  obtain ⟨_, hadd⟩ := ho.add
  obtain ⟨_, hmul⟩ := ho.mul
  obtain ⟨_, hsub⟩ := ho.sub
  obtain ⟨_, hdbl⟩ := ho.dbl
  obtain ⟨_, hnr⟩ := hnr
  refine ⟨(quadSquareT o nr ⟨0, 0⟩).tr, fun a => ?_⟩
  simp only [quadSquareT, Quad.square, hadd, hmul, hsub, hdbl, hd, hnr, bind_mk, pure_mk]

include ho hd in
theorem squareComplexT_eq : ∃ t, ∀ a, squareComplexT o a = ⟨Quad.squareComplex a, t⟩ := by
  obtain ⟨_, hadd⟩ := ho.add
  obtain ⟨_, hmul⟩ := ho.mul
  obtain ⟨_, hsub⟩ := ho.sub
  obtain ⟨_, hdbl⟩ := ho.dbl
  refine ⟨(squareComplexT o ⟨0, 0⟩).tr, fun a => ?_⟩
  simp only [squareComplexT, Quad.squareComplex, hadd, hmul, hsub, hdbl, hd, bind_mk, pure_mk]

include ho hnr hd in
/-- A quadratic extension of a steady field is steady. -/
theorem steady_quad [LawfulExt F] [BaseField (Quad F)] {sq : Quad F → T (Quad F)}
    (hdbl' : ∀ a : Quad F, BaseField.dbl a = Quad.double a) (hsq : ∃ t, ∀ a, sq a = ⟨BaseField.sqr a, t⟩)
    (hz' : ∀ a : Quad F, BaseField.isZero a = (BaseField.isZero a.c0 && BaseField.isZero a.c1)) :
    Steady (quadOps o nr sq) := by
  obtain ⟨_, hadd⟩ := ho.add
  obtain ⟨_, hsub⟩ := ho.sub
  obtain ⟨_, hdbl⟩ := ho.dbl
  obtain ⟨_, hneg⟩ := ho.neg
  obtain ⟨_, hsel⟩ := ho.sel
  obtain ⟨tm, hm⟩ := quadMulT_eq ho hnr
  refine ⟨⟨_, fun a b => bind_eq (hadd _ _) (bind_eq (hadd _ _) rfl)⟩,
    ⟨_, fun a b => bind_eq (hsub _ _) (bind_eq (hsub _ _) rfl)⟩,
    ⟨tm, hm⟩, hsq,
    ⟨_, fun a => (bind_eq (hdbl _) (bind_eq (hdbl _) rfl)).trans (congrArg (T.mk · _) ?_)⟩,
    ⟨_, fun a => bind_eq (hneg _) (bind_eq (hneg _) rfl)⟩,
    ⟨_, fun a b c => (bind_eq (hsel _ _ _) (bind_eq (hsel _ _ _) rfl)).trans (congrArg (T.mk · _) ?_)⟩,
    fun a => ?_, fun a b => ?_⟩
  · rw [hdbl', hd, hd]; rfl
  · cases c <;> rfl
  · rw [hz', ← ho.isZero, ← ho.isZero]; rfl
  · show ((o.eq _ _).val && (o.eq _ _).val) = _
    rw [ho.eq, ho.eq, ← Bool.decide_and]
    exact decide_eq_decide.mpr Quad.ext_iff.symm

end QuadInst

end Halo2.Trace
