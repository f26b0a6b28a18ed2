import Verif.Curve.Program

/-!
# Programs that also handle encodings

As in `Verif/Curve/Program.lean`, with registers for byte strings: points and scalars are written to them and read back, and byte strings
are compared. It stands for client code that exchanges points and scalars with others or stores them.
-/

namespace Halo2.Program

open Halo2 Halo2.Field Halo2.Ext Halo2.Curve Halo2.Msm

/-- One call: an operation on points and scalars, a constant string, or a conversion. -/
inductive WOp (F : Type) where
  | base (o : Op F) | bConst (d : ℕ) (b : List ℕ)
  | enc (d a : ℕ) | encU (d a : ℕ) | encS (d a : ℕ)
  | dec (d a : ℕ) | decU (d a : ℕ) | decS (d a : ℕ)

/-- A comparison, or the question whether a string decodes. -/
inductive WTest where
  | base (t : Test) | eqB (a b : ℕ) | isC (a : ℕ) | isU (a : ℕ) | isS (a : ℕ)

/-- The registers. -/
structure WSt (F : Type) (r : ℕ) where
  st : St F r
  bs : ℕ → List ℕ

variable {F : Type} [CommRing F] [DecidableEq F] [BaseField F] {r : ℕ} [Fact (OddModulus r)]

/-- `from_bytes` (src/derive/curve.rs:110-112) on a slice that is first converted to the array it wants; the conversion fails on any
other length. -/
def wireC (K : Codec F) (C : Params F) (b : List ℕ) : Outcome (Option (Aff F)) :=
  if b.length = K.compressedSize then K.decode C b else .ok none

/-- `from_uncompressed` (src/derive/curve.rs:142-144) on a slice, likewise. -/
def wireU (K : Codec F) (C : Params F) (b : List ℕ) : Outcome (Option (Aff F)) :=
  if b.length = 2 * K.size then K.fromUncompressed C b else .ok none

/-- `from_repr` (derive/src/field/mod.rs:464-468) on a slice, likewise. -/
def wireS (r : ℕ) [Fact (OddModulus r)] (b : List ℕ) : Option (Fp r) :=
  if b.length = 8 * numLimbs r then Fp.fromRepr b else none

/-- The value of an outcome, if there is one. -/
def outcome {A B : Type} (o : Outcome A) (f : A → B) : Outcome B :=
  match o with
  | .panic => .panic
  | .ok x => .ok (f x)

/-- One call, with the functions of the model. Where decoding fails the identity or zero is written. -/
def wstep (K : Codec F) (C : Params F) (ln : ℕ → ℕ) (nb : ℕ) (s : WSt F r) : WOp F → Outcome (WSt F r)
  | .base o => outcome (step K C ln nb s.st o) fun st => { s with st := st }
  | .bConst d b => .ok { s with bs := set s.bs d b }
  | .enc d a => outcome (K.encode C (s.st.af a)) fun b => { s with bs := set s.bs d b }
  | .encU d a => .ok { s with bs := set s.bs d (K.toUncompressed (s.st.af a)) }
  | .encS d a => .ok { s with bs := set s.bs d (Fp.toRepr (s.st.sc a)) }
  | .dec d a => outcome (wireC K C (s.bs a)) fun o => { s with st := { s.st with af := set s.st.af d (o.getD Aff.identity) } }
  | .decU d a => outcome (wireU K C (s.bs a)) fun o => { s with st := { s.st with af := set s.st.af d (o.getD Aff.identity) } }
  | .decS d a => .ok { s with st := { s.st with sc := set s.st.sc d ((wireS r (s.bs a)).getD 0) } }

/-- A comparison, with the functions of the model. -/
def wtest (K : Codec F) (C : Params F) (s : WSt F r) : WTest → Bool
  | .base t => test s.st t
  | .eqB a b => decide (s.bs a = s.bs b)
  | .isC a =>
    match wireC K C (s.bs a) with
    | .ok (some _) => true
    | _ => false
  | .isU a =>
    match wireU K C (s.bs a) with
    | .ok (some _) => true
    | _ => false
  | .isS a => (wireS r (s.bs a)).isSome

/-- The result of a comparison is put out. -/
def wemit (s : WSt F r) (b : Bool) : WSt F r := { s with st := emit s.st b }

end Halo2.Program
