import Verif.Inverse.Model

/-!
# How many rounds an inversion takes

The loops of `src/ff_ext/inverse.rs` with a counter of the rounds of the inner loop of `jump`.
-/

namespace Halo2.Trace

open Halo2 Halo2.Inverse

/-- Models src/ff_ext/inverse.rs:267-288, counting the rounds. -/
def jumpLoopN : ℕ → ℕ → ℤ → ℤ → ℤ → Mat → (ℤ × Mat) × ℕ
  | 0, _, delta, _, _, t => ((delta, t), 0)
  | fuel + 1, steps, delta, f, g, t =>
    let zeros := min steps (tz 128 (g % 2 ^ 128).toNat)
    let steps := steps - zeros
    let delta := i64 (delta + zeros)
    let g := g / 2 ^ zeros
    let t : Mat := ⟨i64 (t.a * 2 ^ zeros), i64 (t.b * 2 ^ zeros), t.c, t.d⟩
    if steps = 0 then ((delta, t), 1)
    else
      let swap := decide (delta > 0)
      let delta' := if swap then i64 (-delta) else delta
      let f' := if swap then i64 g else f
      let g' := if swap then i64 (-f) else g
      let t' : Mat := if swap then ⟨t.c, t.d, i64 (-t.a), i64 (-t.b)⟩ else t
      let w := wOf (wBits steps delta') f' g'
      let t'' : Mat := ⟨t'.a, t'.b, i64 (i64 (t'.a * w) + t'.c), i64 (i64 (t'.b * w) + t'.d)⟩
      let g'' := i128 (g' + i128 ((w : ℤ) * f'))
      let r := jumpLoopN fuel steps delta' f' g'' t''
      (r.1, r.2 + 1)

/-- Models src/ff_ext/inverse.rs:263-291 (`jump`), counting the rounds. -/
def jumpN (f g : List ℕ) (delta : ℤ) : (ℤ × Mat) × ℕ := jumpLoopN 64 62 delta (lowest f) (lowest g) ⟨1, 0, 0, 1⟩

/-- Models src/ff_ext/inverse.rs:410-414, counting the rounds. -/
def invertLoopN (v : Inverter) (L : ℕ) :
    ℕ → ℤ → List ℕ → List ℕ → List ℕ → List ℕ → Option (List ℕ × List ℕ) × ℕ
  | 0, _, f, g, d, _ => (if g = cZero L then some (f, d) else none, 0)
  | fuel + 1, delta, f, g, d, e =>
    if g = cZero L then (some (f, d), 0)
    else
      let r := jumpN f g delta
      let fg' := fg f g r.1.2
      let de' := de v d e r.1.2
      let s := invertLoopN v L fuel r.1.1 fg'.1 fg'.2 de'.1 de'.2
      (s.1, r.2 + s.2)

/-- Models src/ff_ext/inverse.rs:405-423 (`invert`), counting the rounds. -/
def invertN (v : Inverter) (L S fuel : ℕ) (value : List ℕ) : Outcome × ℕ :=
  let r := invertLoopN v L fuel 1 v.modulus (convert 64 62 L value) (cZero L) v.adjuster
  (match r.1 with
    | none => .outOfFuel
    | some (f, d) =>
      let antiunit := decide (f = cMinusOne L)
      if (!decide (f = cOne L)) && !antiunit then .done none
      else .done (some (convert 62 64 S (norm v d antiunit))), r.2)

/-- Models derive/src/field/mod.rs:403-412 (`invert` of the generated field), counting the rounds. -/
def fieldInvertN (p : ℕ) (a : List ℕ) : Outcome × ℕ :=
  invertN (new (byConstant p) (Field.modulusLimbs p) (Field.R2 p)) (byConstant p) (Field.numLimbs p) (fuelBound p) a

theorem jumpLoopN_fst (fuel steps : ℕ) (delta f g : ℤ) (t : Mat) :
    (jumpLoopN fuel steps delta f g t).1 = jumpLoop fuel steps delta f g t := by
  induction fuel generalizing steps delta f g t with
  | zero => rfl
  | succ n ih =>
    rw [jumpLoopN, jumpLoop]
    dsimp only
    split
    · rfl
    · exact ih _ _ _ _ _

theorem invertLoopN_fst (v : Inverter) (L fuel : ℕ) (delta : ℤ) (f g d e : List ℕ) :
    (invertLoopN v L fuel delta f g d e).1 = invertLoop v L fuel delta f g d e := by
  induction fuel generalizing delta f g d e with
  | zero => rfl
  | succ n ih =>
    rw [invertLoopN, invertLoop]
    split
    · rfl
    · dsimp only
      rw [ih, jumpN, jumpLoopN_fst]
      rfl

theorem fieldInvertN_fst (p : ℕ) (a : List ℕ) : (fieldInvertN p a).1 = fieldInvert p a := by
  rw [fieldInvertN, fieldInvert, invertN, Inverse.invert]
  dsimp only
  rw [invertLoopN_fst]
  generalize invertLoop _ _ _ _ _ _ _ _ = r
  cases r <;> rfl

end Halo2.Trace
