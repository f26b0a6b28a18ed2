import Verif.Curve.Program
import Verif.Pairing.Model
import Verif.Ext.Select

/-!
# Programs that use a pairing engine

As in `Verif/Curve/Program.lean`, with registers for points of both groups and of the target group.
-/

namespace Halo2.Program

open Halo2 Halo2.Field Halo2.Ext Halo2.Curve Halo2.Msm Halo2.Pairing

/-- The functions of an engine: `pairing`, `multi_miller_loop` followed by `final_exponentiation`, and the operations of the
field that `Gt` uses (src/derive/pairing.rs:11-269). -/
structure Engine (L F T : Type) where
  pairing : Aff L → Aff F → Option T
  multi : List (Aff L × Aff F) → Option T
  square : T → T
  conj : T → T
  ctEq : T → T → Bool

/-- One call: scalars and the first group, the second group, the engine, the target group. -/
inductive POp (L F : Type) where
  | g1 (o : Op L) | g2 (o : Op F)
  | pairing (d a b : ℕ) | multi (d : ℕ) (l : List (ℕ × ℕ))
  | tIdentity (d : ℕ) | tAdd (d a b : ℕ) | tSub (d a b : ℕ) | tNeg (d a : ℕ) | tDouble (d a : ℕ) | tMul (d a k : ℕ)
  | tSum (d : ℕ) (l : List ℕ)

/-- A comparison. -/
inductive PTest where
  | g1 (t : Test) | g2 (t : Test) | eqT (a b : ℕ) | idT (a : ℕ)

/-- The registers and the output so far. -/
structure PSt (L F T : Type) (r : ℕ) where
  sc : ℕ → Fp r
  p1 : ℕ → Proj L
  a1 : ℕ → Aff L
  p2 : ℕ → Proj F
  a2 : ℕ → Aff F
  gt : ℕ → T
  out : List Out

variable {L F T : Type} [CommRing L] [DecidableEq L] [BaseField L] [CommRing F] [DecidableEq F] [BaseField F]
  [Mul T] [One T] {r : ℕ} [Fact (OddModulus r)]

/-- The registers of the first group. -/
def PSt.left (s : PSt L F T r) : St L r := ⟨s.sc, s.p1, s.a1, s.out⟩

/-- The registers of the second group. -/
def PSt.right (s : PSt L F T r) : St F r := ⟨s.sc, s.p2, s.a2, s.out⟩

/-- The result of a call that may panic. -/
def orPanic {A B : Type} (o : Option A) (f : A → B) : Outcome B :=
  match o with
  | none => .panic
  | some x => .ok (f x)

/-- One call, with the functions of the model. -/
def pstep (E : Engine L F T) (K1 : Codec L) (K2 : Codec F) (C1 : Params L) (C2 : Params F) (ln : ℕ → ℕ) (nb : ℕ)
    (s : PSt L F T r) : POp L F → Outcome (PSt L F T r)
  | .g1 o =>
    match step K1 C1 ln nb s.left o with
    | .ok u => .ok { s with sc := u.sc, p1 := u.pj, a1 := u.af, out := u.out }
    | .panic => .panic
  | .g2 o =>
    match step K2 C2 ln nb s.right o with
    | .ok u => .ok { s with sc := u.sc, p2 := u.pj, a2 := u.af, out := u.out }
    | .panic => .panic
  | .pairing d a b => orPanic (E.pairing (s.a1 a) (s.a2 b)) fun z => { s with gt := set s.gt d z }
  | .multi d l => orPanic (E.multi (l.map fun t => (s.a1 t.1, s.a2 t.2))) fun z => { s with gt := set s.gt d z }
  | .tIdentity d => .ok { s with gt := set s.gt d gtIdentity }
  | .tAdd d a b => .ok { s with gt := set s.gt d (gtAdd (s.gt a) (s.gt b)) }
  | .tSub d a b => .ok { s with gt := set s.gt d (gtSub E.conj (s.gt a) (s.gt b)) }
  | .tNeg d a => .ok { s with gt := set s.gt d (gtNeg E.conj (s.gt a)) }
  | .tDouble d a => .ok { s with gt := set s.gt d (gtDouble E.square (s.gt a)) }
  | .tMul d a k => .ok { s with gt := set s.gt d (gtMul E.square (s.gt a) (Fp.toRepr (s.sc k))) }
  | .tSum d l => .ok { s with gt := set s.gt d (gtSum (l.map s.gt)) }

/-- A comparison; `is_identity` of `Gt` is `ct_eq` with the identity (src/derive/pairing.rs:259-261). -/
def ptest (E : Engine L F T) (s : PSt L F T r) : PTest → Bool
  | .g1 t => test s.left t
  | .g2 t => test s.right t
  | .eqT a b => gtCtEq E.ctEq (s.gt a) (s.gt b)
  | .idT a => gtCtEq E.ctEq (s.gt a) gtIdentity

/-- The result of a comparison is put out. -/
def pemit (s : PSt L F T r) (b : Bool) : PSt L F T r := { s with out := .bit b :: s.out }

end Halo2.Program
