import Verif.Curve.SerdeLemmas

/-!
# Random points
-/

set_option linter.unusedSectionVars false

namespace Halo2.Curve

section Model

variable {F : Type} [CommRing F] [DecidableEq F] [BaseField F] (C : Params F)

/-- Models src/derive/curve.rs:314-336 (`random` of the affine type). The source of randomness is the list of the values
it yields: an abscissa and the bit `ysign` for every round of the loop; `none` stands for a loop that goes on. `sqrt` is
the base field's, `lowBit` is `y.to_repr()[0] & 1`, `clear` is `clear_cofactor`. -/
def random (sqrt : F → Option F) (lowBit : F → Bool) (clear : Proj F → Proj F) : List (F × Bool) → Option (Aff F)
  | [] => none
  | (x, ysign) :: rest =>
    match sqrt (y2 C x) with
    | none => random sqrt lowBit clear rest
    | some y =>
      let y := if (ysign ^^ lowBit y) == false then y else -y
      some (Proj.toAffine (clear (Aff.toCurve ⟨x, y⟩)))

end Model

variable {F : Type} [Field F] [DecidableEq F] [BaseField F] [LawfulBase F] {C : Params F}

theorem random_spec (hC : Good C) {sqrt : F → Option F} (hs : ∀ x y, sqrt x = some y → y * y = x) (lowBit : F → Bool)
    {clear : Proj F → Proj F} {k : ℕ} (hk : ∀ P (p : Pt C), PRep C P p → PRep C (clear P) (k • p)) :
    ∀ draws : List (F × Bool), ∀ A, random C sqrt lowBit clear draws = some A → ∃ p : Pt C, ARep C A (k • p)
  | [], A, h => by simp [random] at h
  | (x, ysign) :: rest, A, h => by
    rw [random] at h
    cases e : sqrt (y2 C x) with
    | none =>
      rw [e] at h
      exact random_spec hC hs lowBit hk rest A h
    | some y =>
      rw [e] at h
      have hA := Option.some.inj h
      have hy : y * y = x * x * x + C.a * x + C.b := by rw [← Codec.y2_eq]; exact hs _ _ e
      generalize hy' : (if (ysign ^^ lowBit y) == false then y else -y) = y' at hA
      have hy2 : y' * y' = x * x * x + C.a * x + C.b := by
        rw [← hy', ← hy]
        split
        · rfl
        · ring
      have hn := nonsingular_of hC ((equation_iff C x y').mpr hy2)
      have hr : ARep C ⟨x, y'⟩ (.some x y' hn) := ⟨rfl, rfl⟩
      refine ⟨.some x y' hn, ?_⟩
      rw [← hA]
      exact (hk _ _ (hr.toCurve hC)).toAffine

theorem random_none {sqrt : F → Option F} (hs : ∀ x, sqrt x = none → ¬ IsSquare x) (lowBit : F → Bool)
    (clear : Proj F → Proj F) : ∀ draws : List (F × Bool), random C sqrt lowBit clear draws = none →
      ∀ d ∈ draws, ¬ ∃ y, y * y = d.1 * d.1 * d.1 + C.a * d.1 + C.b
  | [], _, d, hd => by simp at hd
  | (x, ysign) :: rest, h, d, hd => by
    rw [random] at h
    cases e : sqrt (y2 C x) with
    | none =>
      rw [e] at h
      rcases List.mem_cons.mp hd with rfl | hd
      · rintro ⟨y, hy⟩
        exact hs _ e ⟨y, by rw [Codec.y2_eq, hy]⟩
      · exact random_none hs lowBit clear rest h d hd
    | some y =>
      rw [e] at h
      exact absurd h (by simp)

end Halo2.Curve
