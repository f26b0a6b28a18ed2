import Verif.Pairing.Program
import Verif.Curve.WireProgram

/-!
# Programs over a pairing engine that read points from others

As in `Verif/Pairing/Program.lean`, with registers for byte strings and flags. A string is decoded and the point is accepted only if
`is_torsion_free` says so, as a verifier has to do; the flag says whether it was accepted. It stands for client code such as the verifier
of a signature or of a proof.
-/

namespace Halo2.Program

open Halo2 Halo2.Field Halo2.Ext Halo2.Curve Halo2.Msm Halo2.Pairing

/-- The three forms of a point. -/
inductive WForm where
  | comp | unc | raw

/-- One call: an operation of the engine, a constant string, or a conversion. -/
inductive VOp (L F : Type) where
  | base (o : POp L F) | bConst (d : ℕ) (b : List ℕ)
  | enc1 (f : WForm) (d a : ℕ) | enc2 (f : WForm) (d a : ℕ) | encS (d a : ℕ)
  | dec1 (f : WForm) (d a : ℕ) | dec2 (f : WForm) (d a : ℕ) | decS (d a : ℕ)

/-- A comparison, or a look at a flag. -/
inductive VTest where
  | base (t : PTest) | eqB (a b : ℕ) | flag (a : ℕ)

/-- The registers. -/
structure VSt (L F T : Type) (r : ℕ) where
  st : PSt L F T r
  bs : ℕ → List ℕ
  fl : ℕ → Bool

section

variable {F : Type} [CommRing F] [DecidableEq F] [BaseField F]

/-- `to_bytes`, `to_uncompressed`, `to_raw_bytes` (src/derive/curve.rs:118-120, 169-181, 736-740). -/
def toWire (K : Codec F) (C : Params F) (A : Aff F) : WForm → Outcome (List ℕ)
  | .comp => K.encode C A
  | .unc => .ok (K.toUncompressed A)
  | .raw => .ok (K.affToRaw A)

/-- `from_bytes`, `from_uncompressed` on a slice that is first converted to the array it wants, `from_raw_bytes`
(src/derive/curve.rs:110-112, 142-144, 725-735). -/
def ofWire (K : Codec F) (C : Params F) (b : List ℕ) : WForm → Outcome (Option (Aff F))
  | .comp => wireC K C b
  | .unc => wireU K C b
  | .raw => .ok (K.affFromRaw C b)

/-- The decoded point, if it passes `is_torsion_free`. -/
def ofWireFree (free : Proj F → Bool) (K : Codec F) (C : Params F) (f : WForm) (b : List ℕ) : Outcome (Option (Aff F)) :=
  outcome (ofWire K C b f) fun o => o.bind fun A => if free A.toCurve then some A else none

end

variable {L F T : Type} [CommRing L] [DecidableEq L] [BaseField L] [CommRing F] [DecidableEq F] [BaseField F]
  [Mul T] [One T] {r : ℕ} [Fact (OddModulus r)]

/-- One call, with the functions of the model. Where nothing is accepted the identity or zero is written. -/
def vstep (E : Engine L F T) (K1 : Codec L) (K2 : Codec F) (C1 : Params L) (C2 : Params F) (free1 : Proj L → Bool) (free2 : Proj F → Bool)
    (ln : ℕ → ℕ) (nb : ℕ) (s : VSt L F T r) : VOp L F → Outcome (VSt L F T r)
  | .base o => outcome (pstep E K1 K2 C1 C2 ln nb s.st o) fun st => { s with st := st }
  | .bConst d b => .ok { s with bs := set s.bs d b }
  | .enc1 f d a => outcome (toWire K1 C1 (s.st.a1 a) f) fun b => { s with bs := set s.bs d b }
  | .enc2 f d a => outcome (toWire K2 C2 (s.st.a2 a) f) fun b => { s with bs := set s.bs d b }
  | .encS d a => .ok { s with bs := set s.bs d (Fp.toRepr (s.st.sc a)) }
  | .dec1 f d a => outcome (ofWireFree free1 K1 C1 f (s.bs a)) fun o =>
      { s with st := { s.st with a1 := set s.st.a1 d (o.getD Aff.identity) }, fl := set s.fl d o.isSome }
  | .dec2 f d a => outcome (ofWireFree free2 K2 C2 f (s.bs a)) fun o =>
      { s with st := { s.st with a2 := set s.st.a2 d (o.getD Aff.identity) }, fl := set s.fl d o.isSome }
  | .decS d a => .ok { s with st := { s.st with sc := set s.st.sc d ((wireS r (s.bs a)).getD 0) }, fl := set s.fl d (wireS r (s.bs a)).isSome }

/-- A comparison. -/
def vtest (E : Engine L F T) (s : VSt L F T r) : VTest → Bool
  | .base t => ptest E s.st t
  | .eqB a b => decide (s.bs a = s.bs b)
  | .flag a => s.fl a

/-- The result of a comparison is put out. -/
def vemit (s : VSt L F T r) (b : Bool) : VSt L F T r := { s with st := pemit s.st b }

/-- Two results agree: both runs are unfinished, both panic, or both end, in states related by `R`. -/
def OutRel {S S' : Type} (R : S → S' → Prop) : Option (Outcome S) → Option (Outcome S') → Prop
  | none, none => True
  | some .panic, some .panic => True
  | some (.ok s), some (.ok t) => R s t
  | _, _ => False

/-- If single calls and comparisons keep the relation `R` and panic together, so do programs. -/
theorem run_rel {S S' O U : Type} {step : S → O → Outcome S} {test : S → U → Bool} {emit : S → Bool → S}
    {step' : S' → O → Outcome S'} {test' : S' → U → Bool} {emit' : S' → Bool → S'} {R : S → S' → Prop} {P : O → Prop}
    (h1 : ∀ s t o, R s t → P o → OutRel R (some (step s o)) (some (step' t o))) (h2 : ∀ s t c, R s t → test s c = test' t c)
    (h3 : ∀ s t b, R s t → R (emit s b) (emit' t b)) (p : Prog O U) (hp : p.All P) (n : ℕ) {s : S} {t : S'} (h : R s t) :
    OutRel R (run step test emit n p s) (run step' test' emit' n p t) := by
  have cont : ∀ (x : Option (Outcome S)) (y : Option (Outcome S')) (k : S → Option (Outcome S)) (k' : S' → Option (Outcome S')),
      OutRel R x y → (∀ s t, R s t → OutRel R (k s) (k' t)) →
      OutRel R (match x with | some (.ok s) => k s | r => r) (match y with | some (.ok s) => k' s | r => r) := by
    intro x y k k' hxy hk
    rcases x with _ | _ | s <;> rcases y with _ | _ | t <;> first | exact hk _ _ hxy | exact hxy | exact hxy.elim
  induction n generalizing p s t with
  | zero => exact trivial
  | succ n ih =>
    cases p with
    | op o => exact h1 _ _ o h hp
    | out c =>
      rw [run, run, h2 _ _ c h]
      exact h3 _ _ _ h
    | seq p q =>
      rw [run, run]
      exact cont _ _ _ _ (ih p hp.1 h) fun _ _ h => ih q hp.2 h
    | ite c p q =>
      rw [run, run, h2 _ _ c h]
      split
      · exact ih p hp.1 h
      · exact ih q hp.2 h
    | loop c p =>
      rw [run, run, h2 _ _ c h]
      split
      · exact cont _ _ _ _ (ih p hp h) fun _ _ h => ih (.loop c p) hp h
      · exact h

end Halo2.Program
