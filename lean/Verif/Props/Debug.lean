import Verif.Field.Debug
import Verif.Curve.Inst
import Verif.Prime.Moduli
import Verif.Props.Curve

/-!
# Property C66: the `Debug` output
-/

set_option linter.unusedSectionVars false

namespace Halo2.Props

open Halo2 Halo2.Field Halo2.Prime Halo2.Ext Halo2.Curve

/-- **C66** The `Debug` text of a field element is `0x` and the hexadecimal digits of its canonical integer, most significant first, padded to the
size of the field; so it determines the element. -/
theorem C66_field (p : ℕ) [Fact (OddModulus p)] (a : Fp p) :
    ∃ s, Fp.debug a = text "0x" ++ s ∧ s.length = 2 * (8 * numLimbs p) ∧ hexNat s = some (Fp.toNat a) := by
  obtain ⟨h1, h2, h3⟩ := Fp.toBytes_spec .LE a
  have h1 : (Fp.toRepr a).length = 8 * numLimbs p := h1
  have h2 : IsBytes (Fp.toRepr a) := h2
  have h3 : leNat (Fp.toRepr a) = Fp.toNat a := h3
  refine ⟨_, rfl, ?_, ?_⟩
  · rw [hexEncode_length, List.length_reverse, h1]
  · rw [hexNat_encode_reverse _ h2, h3]

/-- **C66** The texts of the elements of a field have one length and are different; likewise for the towers. -/
theorem C66_injective (p : ℕ) [Fact (OddModulus p)] :
    Prints (Fp.debug (p := p)) (2 + 2 * (8 * numLimbs p)) ∧
    (∃ n, Prints (Quad.debug (Fp.debug (p := p))) n) ∧
    (∃ n, Prints (Cubic.debug (Quad.debug (Fp.debug (p := p)))) n) ∧
    (∃ n, Prints (Quad.debug (Cubic.debug (Quad.debug (Fp.debug (p := p))))) n) := by
  have h : Prints (Fp.debug (p := p)) (2 + 2 * (8 * numLimbs p)) := by
    constructor
    · intro a
      obtain ⟨s, e, h1, -⟩ := C66_field p a
      rw [e, List.length_append, h1, show (text "0x").length = 2 by decide]
    · intro a b e
      obtain ⟨s, ea, -, h1⟩ := C66_field p a
      obtain ⟨t, eb, -, h2⟩ := C66_field p b
      rw [ea, eb] at e
      rw [List.append_cancel_left e, h2] at h1
      exact (Fp.toNat_inj (Option.some.inj h1)).symm
  exact ⟨h, ⟨_, h.quad⟩, ⟨_, h.quad.cubic⟩, ⟨_, h.quad.cubic.quad⟩⟩

/-- **C66** The text of an affine point is `Infinity` exactly for the identity, and determines the point. -/
theorem C66_points {F : Type} [_root_.Field F] [DecidableEq F] [BaseField F] [LawfulBase F] {dbg : F → List ℕ} {n : ℕ} (h : Prints dbg n)
    (P Q : Aff F) :
    (Aff.debug dbg P = text "Infinity" ↔ P.isIdentity = true) ∧ (Aff.debug dbg P = Aff.debug dbg Q ↔ P = Q) := by
  have h1 : ∀ R : Aff F, R.isIdentity = true → Aff.debug dbg R = text "Infinity" := fun R hR => by rw [Aff.debug, if_pos hR]
  have h2 : ∀ R : Aff F, ¬ R.isIdentity = true → Aff.debug dbg R = text "(" ++ (dbg R.x ++ (text ", " ++ (dbg R.y ++ text ")"))) :=
    fun R hR => by rw [Aff.debug, if_neg hR]
  have h3 : ∀ s, text "(" ++ s ≠ text "Infinity" := by
    intro s e
    have := congrArg List.head? e
    rw [show text "(" = [40] by decide, show text "Infinity" = 73 :: text "nfinity" by decide] at this
    simp only [List.cons_append, List.head?_cons, Option.some.injEq] at this
    omega
  have hid : ∀ R : Aff F, R.isIdentity = true → R = ⟨0, 0⟩ := by
    intro R hR
    rw [Aff.isIdentity, Bool.and_eq_true, LawfulBase.isZero_iff, LawfulBase.isZero_iff] at hR
    obtain ⟨x, y⟩ := R
    obtain ⟨h0, h1⟩ := hR
    have h0 : x = 0 := h0
    have h1 : y = 0 := h1
    rw [h0, h1]
  refine ⟨⟨fun e => ?_, h1 P⟩, ⟨fun e => ?_, fun e => by rw [e]⟩⟩
  · by_contra hP
    rw [h2 P hP] at e
    exact h3 _ e
  · by_cases hP : P.isIdentity = true
    · by_cases hQ : Q.isIdentity = true
      · rw [hid P hP, hid Q hQ]
      · rw [h1 P hP, h2 Q hQ] at e
        exact absurd e.symm (h3 _)
    · by_cases hQ : Q.isIdentity = true
      · rw [h2 P hP, h1 Q hQ] at e
        exact absurd e (h3 _)
      · rw [h2 P hP, h2 Q hQ] at e
        obtain ⟨e2, e3⟩ := List.append_inj (List.append_cancel_left e) (by rw [h.length, h.length])
        obtain ⟨e4, -⟩ := List.append_inj (List.append_cancel_left e3) (by rw [h.length, h.length])
        obtain ⟨x, y⟩ := P
        obtain ⟨x', y'⟩ := Q
        have hx : x = x' := h.inj _ _ e2
        have hy : y = y' := h.inj _ _ e4
        rw [hx, hy]

/-- **C66** The text of a projective point determines its three coordinates, so also the point. The text of an element of the target group
determines the element. -/
theorem C66_triples {F : Type} {dbg : F → List ℕ} {n : ℕ} (h : Prints dbg n) (name : String) :
    (∀ P Q : Proj F, Proj.debug name dbg P = Proj.debug name dbg Q ↔ P = Q) ∧ (∀ a b : F, gtDebug dbg a = gtDebug dbg b ↔ a = b) := by
  refine ⟨fun P Q => ⟨fun e => ?_, fun e => by rw [e]⟩, fun a b => ⟨fun e => ?_, fun e => by rw [e]⟩⟩
  · obtain ⟨e2, e3⟩ := List.append_inj (List.append_cancel_left (List.append_cancel_left e)) (by rw [h.length, h.length])
    obtain ⟨e4, e5⟩ := List.append_inj (List.append_cancel_left e3) (by rw [h.length, h.length])
    obtain ⟨e6, -⟩ := List.append_inj (List.append_cancel_left e5) (by rw [h.length, h.length])
    exact Proj.ext (h.inj _ _ e2) (h.inj _ _ e4) (h.inj _ _ e6)
  · exact h.inj _ _ (List.append_inj (List.append_cancel_left e) (by rw [h.length, h.length])).1

/-- **C66** For projective points the converse fails: every point has two representations that are equal by `==` and print differently; so
texts of projective points cannot be compared in place of the points. -/
theorem C66_triples_false {F : Type} [_root_.Field F] [DecidableEq F] [BaseField F] [LawfulBase F] {C : Params F} (hC : Good C)
    {dbg : F → List ℕ} {n : ℕ} (h : Prints dbg n) (name : String) (P : Proj F) (p : Pt C) (hP : PRep C P p) :
    ∃ Q, PRep C Q p ∧ Proj.ctEq P Q = true ∧ Proj.debug name dbg P ≠ Proj.debug name dbg Q := by
  have h2 : (2 : F) ≠ 0 := hC.two
  have key : ∀ a : F, a = -a → a = 0 := fun a e => by
    have : 2 * a = 0 := by linear_combination e
    exact (mul_eq_zero.mp this).resolve_left h2
  have hQ : PRep C ⟨-P.x, -P.y, -P.z⟩ p := by
    rcases p with _ | ⟨x, y, hxy⟩
    · obtain ⟨h1, h2, h3⟩ := PRep.zero_iff.mp hP
      exact PRep.zero_iff.mpr ⟨by rw [h1, neg_zero], by rw [h2, neg_zero], neg_ne_zero.mpr h3⟩
    · obtain ⟨h1, h2, h3⟩ := PRep.some_iff.mp hP
      exact PRep.some_iff.mpr ⟨neg_ne_zero.mpr h1, by rw [h2, mul_neg], by rw [h3, mul_neg]⟩
  refine ⟨⟨-P.x, -P.y, -P.z⟩, hQ, (hP.ctEq hQ).mpr rfl, fun e => ?_⟩
  have e := ((C66_triples h name).1 _ _).mp e
  have ey : P.y = -P.y := congrArg Proj.y e
  have ez : P.z = -P.z := congrArg Proj.z e
  have hz : p = 0 := hP.z_eq_zero.mp (key _ ez)
  rw [hz] at hP
  exact (PRep.zero_iff.mp hP).2.2 (key _ ey)

/-- **C66** What a field element gives to a hasher determines the element, and equal elements give the same: `Hash` agrees with `==`. -/
theorem C66_hash (p : ℕ) [Fact (OddModulus p)] (a b : Fp p) :
    (Fp.hashWords a = Fp.hashWords b ↔ a = b) ∧ (Fp.hashWords a = Fp.hashWords b ↔ a.toNat = b.toNat) := by
  have h : Fp.hashWords a = Fp.hashWords b ↔ a = b :=
    ⟨fun e => by
      obtain ⟨l, hl⟩ := a
      obtain ⟨m, hm⟩ := b
      have e : l = m := List.tail_eq_of_cons_eq e
      subst e
      rfl, fun e => by rw [e]⟩
  exact ⟨h, h.trans ⟨fun e => by rw [e], Fp.toNat_inj⟩⟩

/-- The hypotheses are met by the generator of bn256 G1. -/
example : ∃ P p, PRep Bn256.g1 P p ∧ p ≠ 0 ∧ ∃ Q, Proj.ctEq P Q = true ∧ Proj.debug "G1" Fp.debug P ≠ Proj.debug "G1" Fp.debug Q := by
  obtain ⟨g, hg, h0⟩ := C21_generators.1.2
  obtain ⟨Q, _, h⟩ := C66_triples_false Bn256.g1_good (C66_injective bnQ).1 "G1" _ _ (hg.toCurve Bn256.g1_good)
  exact ⟨_, g, hg.toCurve Bn256.g1_good, h0, Q, h⟩

/-- The element 255 of the base field of bn256: 62 zeros and `ff`. -/
example : Fp.debug ((255 : ℕ) : Fp bnQ) = text "0x00000000000000000000000000000000000000000000000000000000000000ff" := by
  obtain ⟨s, e, hl, hn⟩ := C66_field bnQ ((255 : ℕ) : Fp bnQ)
  have h : Fp.toRepr ((255 : ℕ) : Fp bnQ) = 255 :: List.replicate 31 0 := by
    obtain ⟨h1, h2, h3⟩ := Fp.toBytes_spec .LE ((255 : ℕ) : Fp bnQ)
    refine leNat_inj h2 ?_ (h1.trans (by decide +kernel)) (h3.trans ?_)
    · intro x hx
      fin_cases hx <;> decide
    · rw [Fp.toNat_natCast, Nat.mod_eq_of_lt (by decide +kernel)]
      decide +kernel
  rw [Fp.debug, h]
  decide +kernel

/-- The texts of the points of bn256 G1 are of this kind. -/
example (P Q : Aff (Fp bnQ)) : Aff.debug Fp.debug P = Aff.debug Fp.debug Q ↔ P = Q := (C66_points (C66_injective bnQ).1 P Q).2

end Halo2.Props
