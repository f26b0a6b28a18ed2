import Verif.Msm.Model
import Verif.Curve.Inst
import Verif.Curve.Serde

/-!
# Programs that use the curve interface

A small language of client code: registers for scalars, projective and affine points, the operations of the library
on them, branching and loops on the results of comparisons, and output of bytes. It stands for arbitrary safe code
that handles points and scalars only through the interface.
-/

namespace Halo2.Program

open Halo2 Halo2.Field Halo2.Ext Halo2.Curve Halo2.Msm

/-- One call of the interface; the first argument is the register that receives the result. -/
inductive Op (F : Type) where
  | sConst (d n : ℕ) | sAdd (d a b : ℕ) | sSub (d a b : ℕ) | sMul (d a b : ℕ) | sNeg (d a : ℕ)
  | sDouble (d a : ℕ) | sSquare (d a : ℕ) | sInvert (d a : ℕ)
  | pIdentity (d : ℕ) | pAdd (d a b : ℕ) | pSub (d a b : ℕ) | pNeg (d a : ℕ) | pDouble (d a : ℕ) | pMul (d a k : ℕ)
  | pAddMixed (d a b : ℕ) | pSubMixed (d a b : ℕ) | pSum (d : ℕ) (l : List ℕ) | pFromAffine (d a : ℕ)
  | aIdentity (d : ℕ) | aFromXY (d : ℕ) (x y : F) | aNeg (d a : ℕ) | aFromProj (d a : ℕ) | aMul (d a k : ℕ) | aAdd (d a b : ℕ) | aSub (d a b : ℕ)
  | aAddProj (d a b : ℕ) | aSubProj (d a b : ℕ) | batch (ds l : List ℕ) | msm (d : ℕ) (ks l : List ℕ)
  | outCompressed (a : ℕ) | outUncompressed (a : ℕ) | outScalar (a : ℕ)

/-- A comparison. -/
inductive Test where
  | eqS (a b : ℕ) | eqP (a b : ℕ) | eqA (a b : ℕ) | idP (a : ℕ) | idA (a : ℕ)

/-- Client code over a set `O` of calls and a set `T` of comparisons. -/
inductive Prog (O T : Type) where
  | op (o : O) | seq (p q : Prog O T) | ite (t : T) (p q : Prog O T) | loop (t : T) (p : Prog O T) | out (t : T)

/-- What a program puts out. -/
inductive Out where
  | bit (b : Bool) | bytes (o : Outcome (List ℕ))

/-- The registers and the output so far (latest first). -/
structure St (F : Type) (r : ℕ) where
  sc : ℕ → Fp r
  pj : ℕ → Proj F
  af : ℕ → Aff F
  out : List Out

variable {F : Type} [CommRing F] [DecidableEq F] [BaseField F] {r : ℕ} [Fact (OddModulus r)]

/-- Writing a register. -/
def set {α : Type} (f : ℕ → α) (d : ℕ) (v : α) : ℕ → α := fun i => if i = d then v else f i

/-- Writing several registers, from left to right. -/
def setAll {α : Type} (f : ℕ → α) : List ℕ → List α → ℕ → α
  | d :: ds, v :: vs => setAll (set f d v) ds vs
  | _, _ => f

/-- One call, with the functions of the model. -/
def step (K : Codec F) (C : Params F) (ln : ℕ → ℕ) (nb : ℕ) (s : St F r) : Op F → Outcome (St F r)
  | .sConst d n => .ok { s with sc := set s.sc d (Fp.fromU64 n) }
  | .sAdd d a b => .ok { s with sc := set s.sc d (Fp.add (s.sc a) (s.sc b)) }
  | .sSub d a b => .ok { s with sc := set s.sc d (Fp.sub (s.sc a) (s.sc b)) }
  | .sMul d a b => .ok { s with sc := set s.sc d (Fp.mul (s.sc a) (s.sc b)) }
  | .sNeg d a => .ok { s with sc := set s.sc d (Fp.neg (s.sc a)) }
  | .sDouble d a => .ok { s with sc := set s.sc d (Fp.double (s.sc a)) }
  | .sSquare d a => .ok { s with sc := set s.sc d (Fp.square (s.sc a)) }
  | .sInvert d a => .ok { s with sc := set s.sc d ((Fp.invert (s.sc a)).getD 0) }
  | .pIdentity d => .ok { s with pj := set s.pj d Proj.identity }
  | .pAdd d a b => .ok { s with pj := set s.pj d (Proj.add C (s.pj a) (s.pj b)) }
  | .pSub d a b => .ok { s with pj := set s.pj d (Proj.sub C (s.pj a) (s.pj b)) }
  | .pNeg d a => .ok { s with pj := set s.pj d (Proj.neg (s.pj a)) }
  | .pDouble d a => .ok { s with pj := set s.pj d (Proj.double C (s.pj a)) }
  | .pMul d a k => .ok { s with pj := set s.pj d (Proj.mul C (s.pj a) (Fp.toRepr (s.sc k))) }
  | .pAddMixed d a b => .ok { s with pj := set s.pj d (Proj.addMixed C (s.pj a) (s.af b)) }
  | .pSubMixed d a b => .ok { s with pj := set s.pj d (Proj.subMixed C (s.pj a) (s.af b)) }
  | .pSum d l => .ok { s with pj := set s.pj d (Proj.sum C (l.map s.pj)) }
  | .pFromAffine d a => .ok { s with pj := set s.pj d (Aff.toCurve (s.af a)) }
  | .aIdentity d => .ok { s with af := set s.af d Aff.identity }
  | .aFromXY d x y => .ok { s with af := set s.af d ((Aff.fromXY C x y).getD Aff.identity) }
  | .aNeg d a => .ok { s with af := set s.af d (Aff.neg (s.af a)) }
  | .aFromProj d a => .ok { s with af := set s.af d (Proj.toAffine (s.pj a)) }
  | .aMul d a k => .ok { s with pj := set s.pj d (Aff.mul C (s.af a) (Fp.toRepr (s.sc k))) }
  | .aAdd d a b => .ok { s with pj := set s.pj d (Aff.add C (s.af a) (s.af b)) }
  | .aSub d a b => .ok { s with pj := set s.pj d (Aff.sub C (s.af a) (s.af b)) }
  | .aAddProj d a b => .ok { s with pj := set s.pj d (Aff.addProj C (s.af a) (s.pj b)) }
  | .aSubProj d a b => .ok { s with pj := set s.pj d (Aff.subProj C (s.af a) (s.pj b)) }
  | .batch ds l =>
    match Proj.batchNormalize (l.map s.pj) l.length with
    | none => .panic
    | some as => .ok { s with af := setAll s.af ds as }
  | .msm d ks l =>
    match msmSerial C ln nb ((ks.map s.sc).map Fp.toRepr) (l.map s.af) Proj.identity with
    | none => .panic
    | some P => .ok { s with pj := set s.pj d P }
  | .outCompressed a => .ok { s with out := .bytes (K.encode C (s.af a)) :: s.out }
  | .outUncompressed a => .ok { s with out := .bytes (.ok (K.toUncompressed (s.af a))) :: s.out }
  | .outScalar a => .ok { s with out := .bytes (.ok (Fp.toRepr (s.sc a))) :: s.out }

/-- A comparison, with the functions of the model. -/
def test (s : St F r) : Test → Bool
  | .eqS a b => decide (s.sc a = s.sc b)
  | .eqP a b => Proj.ctEq (s.pj a) (s.pj b)
  | .eqA a b => Aff.ctEq (s.af a) (s.af b)
  | .idP a => Proj.isIdentity (s.pj a)
  | .idA a => Aff.isIdentity (s.af a)

/-- The result of a comparison is put out. -/
def emit (s : St F r) (b : Bool) : St F r := { s with out := .bit b :: s.out }

omit [CommRing F] [DecidableEq F] [BaseField F] [Fact (OddModulus r)]

/-- Running a program for at most `fuel` nested steps; `none` if that is not enough. `step` runs a call, `test` a
comparison, `emit` puts out the result of one. -/
def run {S O T : Type} (step : S → O → Outcome S) (test : S → T → Bool) (emit : S → Bool → S) :
    ℕ → Prog O T → S → Option (Outcome S)
  | 0, _, _ => none
  | _ + 1, .op o, s => some (step s o)
  | n + 1, .seq p q, s =>
    match run step test emit n p s with
    | some (.ok s) => run step test emit n q s
    | r => r
  | n + 1, .ite t p q, s => if test s t then run step test emit n p s else run step test emit n q s
  | n + 1, .loop t p, s =>
    if test s t then
      match run step test emit n p s with
      | some (.ok s) => run step test emit n (.loop t p) s
      | r => r
    else some (.ok s)
  | _ + 1, .out t, s => some (.ok (emit s (test s t)))

/-- The same for calls that cannot fail. -/
def pureRun {S O T : Type} (step : S → O → S) (test : S → T → Bool) (emit : S → Bool → S) :
    ℕ → Prog O T → S → Option S
  | 0, _, _ => none
  | _ + 1, .op o, s => some (step s o)
  | n + 1, .seq p q, s => (pureRun step test emit n p s).bind (pureRun step test emit n q)
  | n + 1, .ite t p q, s => if test s t then pureRun step test emit n p s else pureRun step test emit n q s
  | n + 1, .loop t p, s =>
    if test s t then (pureRun step test emit n p s).bind (pureRun step test emit n (.loop t p)) else some s
  | _ + 1, .out t, s => some (emit s (test s t))

/-- All calls of a program satisfy `P`. -/
def Prog.All {O T : Type} (P : O → Prop) : Prog O T → Prop
  | .op o => P o
  | .seq p q => p.All P ∧ q.All P
  | .ite _ p q => p.All P ∧ q.All P
  | .loop _ p => p.All P
  | .out _ => True

/-- If single calls and comparisons keep the relation `R`, so do programs. -/
theorem run_sim {S S' O T : Type} {step : S → O → Outcome S} {test : S → T → Bool} {emit : S → Bool → S}
    {step' : S' → O → S'} {test' : S' → T → Bool} {emit' : S' → Bool → S'} {R : S → S' → Prop} {P : O → Prop}
    (h1 : ∀ s t o, R s t → P o → ∃ s', step s o = .ok s' ∧ R s' (step' t o)) (h2 : ∀ s t c, R s t → test s c = test' t c)
    (h3 : ∀ s t b, R s t → R (emit s b) (emit' t b)) (p : Prog O T) (hp : p.All P) (n : ℕ) {s : S} {t : S'} (h : R s t) :
    (pureRun step' test' emit' n p t = none → run step test emit n p s = none) ∧
    (∀ t', pureRun step' test' emit' n p t = some t' → ∃ s', run step test emit n p s = some (.ok s') ∧ R s' t') := by
  induction n generalizing p s t with
  | zero => exact ⟨fun _ => rfl, fun t' e => nomatch e⟩
  | succ n ih =>
    cases p with
    | op o =>
      refine ⟨(fun e => nomatch e), fun t' e => ?_⟩
      obtain ⟨s', e1, h1⟩ := h1 _ _ o h hp
      obtain rfl := Option.some.inj e
      exact ⟨s', by rw [run, e1], h1⟩
    | out c =>
      refine ⟨(fun e => nomatch e), fun t' e => ?_⟩
      obtain rfl := Option.some.inj e
      exact ⟨_, rfl, by rw [h2 _ _ c h]; exact h3 _ _ _ h⟩
    | seq p q =>
      have i1 := ih p hp.1 h
      rw [run, pureRun]
      cases e : pureRun step' test' emit' n p t with
      | none => exact ⟨fun _ => by rw [i1.1 e], fun t' e => nomatch e⟩
      | some t1 =>
        obtain ⟨s1, e1, h1⟩ := i1.2 t1 e
        rw [e1]
        exact ih q hp.2 h1
    | ite c p q =>
      rw [run, pureRun, h2 _ _ c h]
      split
      · exact ih p hp.1 h
      · exact ih q hp.2 h
    | loop c p =>
      rw [run, pureRun, h2 _ _ c h]
      split
      · have i1 := ih p hp h
        cases e : pureRun step' test' emit' n p t with
        | none => exact ⟨fun _ => by rw [i1.1 e], fun t' e => nomatch e⟩
        | some t1 =>
          obtain ⟨s1, e1, h1⟩ := i1.2 t1 e
          rw [e1]
          exact ih (.loop c p) hp h1
      · refine ⟨(fun e => nomatch e), fun t' e => ?_⟩
        obtain rfl := Option.some.inj e
        exact ⟨s, rfl, h⟩

end Halo2.Program
