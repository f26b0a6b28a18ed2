import Verif.Pairing.Model
import Mathlib.Algebra.BigOperators.Group.List.Basic

/-!
# The multi-Miller loop is a product over the pairs
-/

set_option linter.unusedSectionVars false

namespace Halo2.Pairing

open Halo2.Curve Halo2.Ext

variable {F K T : Type} [CommRing K] [ExtField K] [CommMonoid T]

/-- What the loop needs of the operations of the target field. -/
structure MillerLaws (ops : MillerOps F K T) (line : Coeffs K → Aff F → T) : Prop where
  one_eq : ops.one = 1
  square_eq : ∀ f, ops.square f = f * f
  ell_eq : ∀ f c p, ops.ell f c p = f * line c p

section
variable (line : Coeffs K → Aff F → T)

/-- One doubling step for a single pair. -/
def dblOne (t : Aff F × Aff K) (s : T × Proj K) : T × Proj K := (s.1 * line (dblStep s.2).1 t.1, (dblStep s.2).2)

/-- One addition step for a single pair. -/
def addOne (g : Aff K → Aff K) (t : Aff F × Aff K) (s : T × Proj K) : T × Proj K :=
  (s.1 * line (addStep s.2 (g t.2)).1 t.1, (addStep s.2 (g t.2)).2)

end

variable {ops : MillerOps F K T} {line : Coeffs K → Aff F → T}

/-- The state of the loop made of the states of the pairs. -/
def joinState (terms : List (Aff F × Aff K)) (S : Aff F × Aff K → T × Proj K) : T × List (Proj K) :=
  ((terms.map fun t => (S t).1).prod, terms.map fun t => (S t).2)

theorem doubleAll_aux (L : MillerLaws ops line) (terms : List (Aff F × Aff K)) (R : Aff F × Aff K → Proj K) (f : T) :
    doubleAll ops f terms (terms.map R) =
      (f * (terms.map fun t => line (dblStep (R t)).1 t.1).prod, terms.map fun t => (dblStep (R t)).2) := by
  induction terms generalizing f with
  | nil => simp [doubleAll]
  | cons t ts ih =>
    rw [List.map_cons, doubleAll]
    rw [ih, L.ell_eq, List.map_cons, List.map_cons, List.prod_cons, mul_assoc]

theorem addAll_aux (L : MillerLaws ops line) (g : Aff K → Aff K) (terms : List (Aff F × Aff K)) (R : Aff F × Aff K → Proj K)
    (f : T) : addAll ops g f terms (terms.map R) =
      (f * (terms.map fun t => line (addStep (R t) (g t.2)).1 t.1).prod, terms.map fun t => (addStep (R t) (g t.2)).2) := by
  induction terms generalizing f with
  | nil => simp [addAll]
  | cons t ts ih =>
    rw [List.map_cons, addAll]
    rw [ih, L.ell_eq, List.map_cons, List.map_cons, List.prod_cons, mul_assoc]

theorem doubleAll_join (L : MillerLaws ops line) (terms : List (Aff F × Aff K)) (S : Aff F × Aff K → T × Proj K) :
    doubleAll ops (joinState terms S).1 terms (joinState terms S).2 = joinState terms fun t => dblOne line t (S t) := by
  rw [joinState, doubleAll_aux L, joinState, ← List.prod_map_mul]
  rfl

theorem addAll_join (L : MillerLaws ops line) (g : Aff K → Aff K) (terms : List (Aff F × Aff K))
    (S : Aff F × Aff K → T × Proj K) :
    addAll ops g (joinState terms S).1 terms (joinState terms S).2 = joinState terms fun t => addOne line g t (S t) := by
  rw [joinState, addAll_aux L, joinState, ← List.prod_map_mul]
  rfl

theorem square_join (L : MillerLaws ops line) (terms : List (Aff F × Aff K)) (S : Aff F × Aff K → T × Proj K) :
    (ops.square (joinState terms S).1, (joinState terms S).2) = joinState terms fun t => ((S t).1 * (S t).1, (S t).2) := by
  rw [L.square_eq, joinState, joinState, ← List.prod_map_mul]

section
variable (line)

/-- One round for a single pair and a signed digit; the squaring of the first round is that of one. -/
def nafRoundOne [CommRing F] [BaseField F] [BaseField K] (t : Aff F × Aff K) (s : T × Proj K) (ix : ℤ × ℕ) : T × Proj K :=
  let s := if ix.2 ≠ 0 then (s.1 * s.1, s.2) else s
  let s := dblOne line t s
  if ix.1 = 1 then addOne line id t s else if ix.1 = -1 then addOne line Aff.neg t s else s

/-- One round for a single pair and a bit. -/
def bitRoundOne (t : Aff F × Aff K) (s : T × Proj K) (ix : Bool × ℕ) : T × Proj K :=
  let s := if ix.2 ≠ 0 then (s.1 * s.1, s.2) else s
  let s := dblOne line t s
  if ix.1 then addOne line id t s else s

end

variable [CommRing F] [BaseField F] [BaseField K]

theorem nafRound_join (L : MillerLaws ops line) (terms : List (Aff F × Aff K)) (S : Aff F × Aff K → T × Proj K) (ix : ℤ × ℕ) :
    nafRound ops terms (joinState terms S) ix = joinState terms fun t => nafRoundOne line t (S t) ix := by
  unfold nafRound nafRoundOne
  dsimp only
  have e : doubleAll ops (if ix.2 ≠ 0 then ops.square (joinState terms S).1 else (joinState terms S).1) terms (joinState terms S).2
      = joinState terms fun t => dblOne line t (if ix.2 ≠ 0 then ((S t).1 * (S t).1, (S t).2) else S t) := by
    split
    · have h := square_join L terms S
      have h1 := congrArg Prod.fst h
      have h2 := congrArg Prod.snd h
      dsimp only at h1 h2
      rw [h1, h2, doubleAll_join L]
    · rw [doubleAll_join L]
  rw [e, addAll_join L, addAll_join L]
  split
  · rfl
  · split <;> rfl

theorem bitRound_join (L : MillerLaws ops line) (terms : List (Aff F × Aff K)) (S : Aff F × Aff K → T × Proj K) (ix : Bool × ℕ) :
    bitRound ops terms (joinState terms S) ix = joinState terms fun t => bitRoundOne line t (S t) ix := by
  unfold bitRound bitRoundOne
  dsimp only
  have e : doubleAll ops (if ix.2 ≠ 0 then ops.square (joinState terms S).1 else (joinState terms S).1) terms (joinState terms S).2
      = joinState terms fun t => dblOne line t (if ix.2 ≠ 0 then ((S t).1 * (S t).1, (S t).2) else S t) := by
    split
    · have h := square_join L terms S
      have h1 := congrArg Prod.fst h
      have h2 := congrArg Prod.snd h
      dsimp only at h1 h2
      rw [h1, h2, doubleAll_join L]
    · rw [doubleAll_join L]
  rw [e, addAll_join L]
  split <;> rfl

theorem foldl_join {D : Type} (terms : List (Aff F × Aff K)) (round : T × List (Proj K) → D → T × List (Proj K))
    (one : Aff F × Aff K → T × Proj K → D → T × Proj K)
    (h : ∀ S d, round (joinState terms S) d = joinState terms fun t => one t (S t) d) (ds : List D)
    (S : Aff F × Aff K → T × Proj K) :
    ds.foldl round (joinState terms S) = joinState terms fun t => ds.foldl (one t) (S t) := by
  induction ds generalizing S with
  | nil => rfl
  | cons d ds ih => rw [List.foldl_cons, h, ih]; rfl

section
variable (line)

/-- The Miller value of a single pair, signed digits. -/
def nafOne (naf : List ℤ) (g1 g2 : Aff K → Aff K) (t : Aff F × Aff K) : T :=
  (addOne line g2 t (addOne line g1 t
    (((naf.reverse.drop 1).zipIdx).foldl (nafRoundOne line t) (1, t.2.toCurve)))).1

/-- The Miller value of a single pair, bits (before the final conjugation). -/
def bitOne (bits : List ℕ) (t : Aff F × Aff K) : T :=
  ((((bits.map fun b => b == 1).drop 1).zipIdx).foldl (bitRoundOne line t) (1, t.2.toCurve)).1

end

theorem init_join (L : MillerLaws ops line) (terms : List (Aff F × Aff K)) :
    (ops.one, terms.map fun t => t.2.toCurve) = joinState terms fun t => ((1 : T), t.2.toCurve) := by
  rw [L.one_eq, joinState]
  simp

theorem nafMiller_eq (L : MillerLaws ops line) (naf : List ℤ) (g1 g2 : Aff K → Aff K) (terms : List (Aff F × Aff K)) :
    nafMiller ops naf g1 g2 terms = ((liveTerms terms).map (nafOne line naf g1 g2)).prod := by
  unfold nafMiller
  dsimp only
  rw [init_join L, foldl_join _ _ _ (nafRound_join L (liveTerms terms)), addAll_join L, addAll_join L]
  rfl

theorem bitMiller_eq (L : MillerLaws ops line) (conj : T → T) (bits : List ℕ) (terms : List (Aff F × Aff K)) :
    bitMiller ops conj bits terms = conj ((liveTerms terms).map (bitOne line bits)).prod := by
  unfold bitMiller
  dsimp only
  rw [init_join L, foldl_join _ _ _ (bitRound_join L (liveTerms terms))]
  rfl

/-- Whether a pair is skipped. -/
def isLive (t : Aff F × Aff K) : Bool := !(t.1.isIdentity || t.2.isIdentity)

theorem prod_live (g : Aff F × Aff K → T) (terms : List (Aff F × Aff K)) :
    ((liveTerms terms).map g).prod = (terms.map fun t => if isLive t then g t else 1).prod := by
  induction terms with
  | nil => rfl
  | cons t ts ih =>
    rw [List.map_cons, List.prod_cons, ← ih, liveTerms, List.filter_cons]
    change (List.map g (if isLive t = true then _ else _)).prod = _
    split
    · rw [List.map_cons, List.prod_cons]; rfl
    · rw [one_mul]; rfl

end Halo2.Pairing
