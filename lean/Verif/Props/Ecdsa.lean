import Verif.Curve.Coordinates
import Verif.Props.Order
import Verif.Props.Fft
import Verif.Props.Inverse

/-!
# Properties C79 and C80: coordinates of points, and ECDSA as a client of the library
-/

set_option linter.unusedSectionVars false

namespace Halo2.Props

open Halo2 Halo2.Field Halo2.Prime Halo2.Curve

section Coordinates

variable {F : Type} [_root_.Field F] [DecidableEq F] [BaseField F] [LawfulBase F] {C : Params F}

theorem fromXY_iff (x y : F) (A : Aff F) :
    Aff.fromXY C x y = some A ↔ A = ⟨x, y⟩ ∧ (x = 0 ∧ y = 0 ∨ y ^ 2 = x ^ 3 + C.a * x + C.b) := by
  have h := Aff.isOnCurve_iff (C := C) ⟨x, y⟩
  have e : y * y = x * x * x + C.a * x + C.b ↔ y ^ 2 = x ^ 3 + C.a * x + C.b := by
    constructor <;> intro h <;> linear_combination h
  rw [e] at h
  rw [Aff.fromXY, ← h]
  by_cases hb : Aff.isOnCurve C ⟨x, y⟩ = true
  · rw [if_pos hb]
    exact ⟨fun e => ⟨(Option.some.inj e).symm, hb⟩, fun e => by rw [e.1]⟩
  · rw [if_neg hb]
    exact ⟨(fun e => nomatch e), fun e => absurd e.2 hb⟩

/-- **C79** `from_xy` accepts exactly the solutions of the curve equation and `(0, 0)`, which stands for the identity; the coordinates
are stored as given, and the result stands for the point with these coordinates. -/
theorem C79_from_xy (hC : Good C) (x y : F) (A : Aff F) :
    (Aff.fromXY C x y = some A ↔ A = ⟨x, y⟩ ∧ (x = 0 ∧ y = 0 ∨ y ^ 2 = x ^ 3 + C.a * x + C.b)) ∧
    (Aff.fromXY C x y = some A → (x = 0 ∧ y = 0 ∧ ARep C A 0) ∨ ∃ h, ARep C A (.some x y h)) := by
  refine ⟨fromXY_iff x y A, fun h => ?_⟩
  obtain ⟨rfl, e⟩ := (fromXY_iff x y A).mp h
  have hv : Aff.Valid C ⟨x, y⟩ := (Aff.valid_iff hC _).mpr (by
    rw [Aff.isOnCurve_iff]
    rcases e with e | e
    · exact Or.inl e
    · exact Or.inr (by linear_combination e))
  obtain ⟨q, hq⟩ := hv
  rcases q with _ | ⟨x', y', h'⟩
  · exact Or.inl ⟨hq.1, hq.2, hq⟩
  · obtain ⟨rfl, rfl⟩ := hq
    exact Or.inr ⟨h', rfl, rfl⟩

/-- **C79** `coordinates` of a pair is itself exactly when it satisfies the curve equation or is `(0, 0)`; in particular it gives the
coordinates of every point other than the identity, and `from_xy` of them is the point. Missing from the documented behaviour: the
identity, which should give `None` (`C79_identity_false`). -/
theorem C79_coordinates_partial (A : Aff F) :
    (∀ x y, Aff.coordinates C A = some (x, y) ↔ A = ⟨x, y⟩ ∧ (x = 0 ∧ y = 0 ∨ y ^ 2 = x ^ 3 + C.a * x + C.b)) ∧
    (∀ x y h, ARep C A (.some x y h) → Aff.coordinates C A = some (x, y)) ∧
    (∀ c, Aff.coordinates C A = some c → Aff.fromXY C c.1 c.2 = some A) := by
  have key (x y : F) : Aff.coordinates C A = some (x, y) ↔ A = ⟨x, y⟩ ∧ (x = 0 ∧ y = 0 ∨ y ^ 2 = x ^ 3 + C.a * x + C.b) := by
    obtain ⟨ax, ay⟩ := A
    rw [Aff.coordinates, Option.map_eq_some_iff]
    constructor
    · rintro ⟨B, h1, h2⟩
      injection h2 with e1 e2
      simp only at e1 e2
      subst e1 e2
      exact ⟨rfl, ((fromXY_iff _ _ _).mp h1).2⟩
    · rintro ⟨h1, h2⟩
      injection h1 with e1 e2
      subst e1 e2
      exact ⟨_, (fromXY_iff _ _ _).mpr ⟨rfl, h2⟩, rfl⟩
  refine ⟨key, fun x y h hA => ?_, fun c h => ?_⟩
  · obtain ⟨rfl, rfl⟩ := hA
    refine (key _ _).mpr ⟨rfl, Or.inr ?_⟩
    linear_combination (equation_iff C _ _).mp h.1
  · obtain ⟨h1, h2⟩ := (key c.1 c.2).mp h
    exact (fromXY_iff _ _ _).mpr ⟨h1, h2⟩

/-- The documented behaviour (`CurveAffine::coordinates`: "Returns None if this is the identity"). -/
def CoordinatesClaim (C : Params F) : Prop := ∀ A p, ARep C A p → (Aff.coordinates C A = none ↔ p = 0)

/-- **C79 is false of the code** on every curve: the identity has the coordinates `(0, 0)`. -/
theorem C79_identity_false : Aff.coordinates C (Aff.identity : Aff F) = some (0, 0) ∧ ¬ CoordinatesClaim C := by
  have h : Aff.coordinates C (Aff.identity : Aff F) = some (0, 0) := ((C79_coordinates_partial Aff.identity).1 0 0).mpr ⟨rfl, Or.inl ⟨rfl, rfl⟩⟩
  refine ⟨h, fun hc => ?_⟩
  have := (hc Aff.identity 0 ARep.identity).mpr rfl
  rw [h] at this
  cases this

/-- On secp256r1. -/
example : ¬ CoordinatesClaim Secp256r1.c := C79_identity_false.2

/-- The coordinates of the generator of secp256k1. -/
example : Aff.coordinates Secp256k1.c Secp256k1.cGen = some (Secp256k1.cGen.x, Secp256k1.cGen.y) := by
  obtain ⟨p, hp, _⟩ := C44_orders.2.2.2.2.1.gen
  rcases p with _ | ⟨x, y, h⟩
  · rw [show Secp256k1.cGen = Aff.identity from (hp.ext_iff Secp256k1.c_good ARep.identity).mpr rfl]
    exact C79_identity_false.1
  · rw [(C79_coordinates_partial _).2.1 x y h hp, hp.1, hp.2]

end Coordinates

section Ecdsa

variable {q n : ℕ} [Fact q.Prime] [Fact (OddModulus q)] [Fp.SmallModulus q] [Fact n.Prime] [Fact (OddModulus n)] [Fp.SmallModulus n]

/-- Models src/tests/curve.rs:468-474 (`mod_n`): the abscissa as a scalar. The arrays have 32 and 64 bytes there. -/
def modN (x : Fp q) : Fp n := Fp.fromUniform (Fp.toRepr x ++ List.replicate 32 0)

/-- Models src/tests/curve.rs:487-501: sign the hash `m` with the key `sk` and the nonce `k`. `none` is a panic of `unwrap`. -/
noncomputable def ecdsaSign (C : Params (Fp q)) (g : Proj (Fp q)) (sk m k : Fp n) : Option (Fp n × Fp n) :=
  match Fp.invert k with
  | none => none
  | some kInv =>
    match Aff.coordinates C (Proj.mul C g (Fp.toRepr k)).toAffine with
    | none => none
    | some co => some (modN co.1, kInv * (m + modN co.1 * sk))

/-- Models src/tests/curve.rs:503-517: the verification. `none` is a panic of `unwrap`. -/
noncomputable def ecdsaVerify (C : Params (Fp q)) (g : Proj (Fp q)) (pk : Aff (Fp q)) (m r s : Fp n) : Option Bool :=
  match Fp.invert s with
  | none => none
  | some sInv =>
    match Aff.coordinates C
      (Proj.add C (Proj.mul C g (Fp.toRepr (m * sInv))) (Aff.mul C pk (Fp.toRepr (r * sInv)))).toAffine with
    | none => none
    | some co => some (decide (r = modN co.1))

/-- What C80 says of a curve with the generator `g` of prime order `n`. -/
structure EcdsaClaim (C : Params (Fp q)) (g : Proj (Fp q)) (n : ℕ) [Fact n.Prime] [Fact (OddModulus n)] [Fp.SmallModulus n] : Prop where
  /-- Signing panics only for the nonce zero. -/
  signs (sk m k : Fp n) : ecdsaSign C g sk m k = none ↔ k = 0
  /-- Every point of the curve is the public key of exactly one secret key. -/
  keys (pk : Aff (Fp q)) (h : Aff.isOnCurve C pk = true) : ∃! sk : Fp n, pk = (Proj.mul C g (Fp.toRepr sk)).toAffine
  /-- The verifier panics exactly for `s = 0`. -/
  panics (pk : Aff (Fp q)) (h : Aff.isOnCurve C pk = true) (m r s : Fp n) : ecdsaVerify C g pk m r s = none ↔ s = 0
  /-- A signature made with any key and nonce verifies, unless `s = 0`. -/
  complete (sk m k r s : Fp n) (hs : ecdsaSign C g sk m k = some (r, s)) (h0 : s ≠ 0) :
    ecdsaVerify C g (Proj.mul C g (Fp.toRepr sk)).toAffine m r s = some true
  /-- The verifier accepts exactly the signatures that the holder of the key can make with some nonce, and those with `r = 0` for the
  hash 0. -/
  exact (sk m r s : Fp n) : ecdsaVerify C g (Proj.mul C g (Fp.toRepr sk)).toAffine m r s = some true ↔
    s ≠ 0 ∧ ((∃ k, ecdsaSign C g sk m k = some (r, s)) ∨ r = 0 ∧ m = 0)
  /-- `(r, -s)` verifies whenever `(r, s)` does. -/
  malleable (pk : Aff (Fp q)) (h : Aff.isOnCurve C pk = true) (m r s : Fp n) :
    ecdsaVerify C g pk m r (-s) = ecdsaVerify C g pk m r s

theorem modN_eq (hl : numLimbs q = 4) (hn : numLimbs n = 4) (x : Fp q) : (modN x : Fp n) = ((Fp.toNat x : ℕ) : Fp n) := by
  obtain ⟨h1, h2, h3⟩ := Fp.toBytes_spec .LE x
  rw [hl] at h1
  have hb : IsBytes (List.replicate 32 0) := fun b hb => by rw [List.eq_of_mem_replicate hb]; decide
  show Fp.fromUniform (Fp.toBytes .LE x ++ List.replicate 32 0) = _
  rw [Fp.fromUniform_eq _ (by rw [List.length_append, List.length_replicate, hn, h1])
    (fun b hb' => (List.mem_append.mp hb').elim (h2 b) (hb b)), leNat_append, leNat_replicate, Nat.mul_zero, Nat.add_zero]
  exact congrArg _ h3

theorem lin_toNat {C : Params (Fp q)} {p : Pt C} (hp : n • p = 0) (a b c : Fp n) :
    Fp.toNat a • p + Fp.toNat b • (Fp.toNat c • p) = Fp.toNat (a + b * c) • p := by
  let _ := torsModule C n
  let x : Tors C n := ⟨p, hp⟩
  have e : ∀ k : Fp n, Fp.toNat k • p = ((k • x : Tors C n) : Pt C) := fun k => by
    have h2 : k • x = Fp.toNat k • x := tors_smul k x
    rw [h2, AddSubgroup.coe_nsmul]
  have e' : Fp.toNat b • (Fp.toNat c • p) = (((b * c) • x : Tors C n) : Pt C) := by
    have h2 : b • (c • x) = Fp.toNat b • (c • x) := tors_smul b (c • x)
    rw [mul_smul, h2, AddSubgroup.coe_nsmul, ← e]
  rw [e', e, e, add_smul, AddSubgroup.coe_add]

theorem neg_toNat {C : Params (Fp q)} {p : Pt C} (hp : n • p = 0) (a : Fp n) : Fp.toNat (-a) • p = -(Fp.toNat a • p) := by
  have h := lin_toNat hp (-a) 1 a
  have h0 : Fp.toNat (0 : Fp n) = 0 := by rw [← Nat.cast_zero, Fp.toNat_natCast, Nat.zero_mod]
  have h1 : Fp.toNat (1 : Fp n) = 1 := by
    rw [← Nat.cast_one, Fp.toNat_natCast, Nat.mod_eq_of_lt (Fact.out : n.Prime).one_lt]
  rw [h1, one_smul, one_mul, neg_add_cancel, h0, zero_smul] at h
  exact eq_neg_of_add_eq_zero_left h

theorem invert_eq (a : Fp n) : Fp.invert a = if a = 0 then none else some a⁻¹ := by
  by_cases h : a = 0
  · rw [if_pos h]
    cases e : Fp.invert a with
    | none => rfl
    | some b =>
      rw [C09_invert_iff, h, zero_mul] at e
      exact absurd e zero_ne_one
  · rw [if_neg h, C09_invert_iff, mul_inv_cancel₀ h]

theorem coordinates_rep {C : Params (Fp q)} (hC : Good C) {A : Aff (Fp q)} {p : Pt C} (hA : ARep C A p) :
    Aff.coordinates C A = some (A.x, A.y) := by
  rcases p with _ | ⟨x, y, h⟩
  · rw [show A = Aff.identity from (hA.ext_iff hC ARep.identity).mpr rfl]
    exact C79_identity_false.1
  · rw [(C79_coordinates_partial _).2.1 x y h hA, hA.1, hA.2]

theorem ecdsaClaim_of {C : Params (Fp q)} [Finite (Pt C)] (hC : Good C) {G : Aff (Fp q)} (o : OrderSpec C G 1 n) (hl : numLimbs q = 4)
    (hn : numLimbs n = 4) : EcdsaClaim C (Aff.toCurve G) n := by
  obtain ⟨g, hG, hord, hgen⟩ := o.gen
  have hkill := o.kill
  have hg := hG.toCurve hC
  have h0n : Fp.toNat (0 : Fp n) = 0 := by rw [← Nat.cast_zero, Fp.toNat_natCast, Nat.zero_mod]
  have hmul (k : Fp n) : ARep C (Proj.mul C (Aff.toCurve G) (Fp.toRepr k)).toAffine (Fp.toNat k • g) :=
    (C23_mul hC hg hG k).1.toAffine
  have inj (a b : Fp n) (h : Fp.toNat a • g = Fp.toNat b • g) : a = b := by
    rw [nsmul_eq_nsmul_iff_modEq, hord] at h
    have e := Nat.ModEq.eq_of_lt_of_lt h (Fp.toNat_lt a) (Fp.toNat_lt b)
    exact Fp.toNat_inj e
  have keys (pk : Aff (Fp q)) (h : Aff.isOnCurve C pk = true) :
      ∃! sk : Fp n, pk = (Proj.mul C (Aff.toCurve G) (Fp.toRepr sk)).toAffine := by
    obtain ⟨p, hp⟩ := (Aff.valid_iff hC pk).mpr h
    obtain ⟨k, hk, e⟩ := (hgen p).mp (hkill p)
    have ek : Fp.toNat ((k : ℕ) : Fp n) = k := by rw [Fp.toNat_natCast, Nat.mod_eq_of_lt hk]
    refine ⟨(k : Fp n), (hp.ext_iff hC (hmul _)).mpr (by rw [ek, e]), fun k' hk' => inj _ _ ?_⟩
    rw [ek, ← e]
    exact ((hp.ext_iff hC (hmul _)).mp hk').symm
  have sign (sk m k : Fp n) : ecdsaSign C (Aff.toCurve G) sk m k = if k = 0 then none else
      some (modN (Proj.mul C (Aff.toCurve G) (Fp.toRepr k)).toAffine.x,
        k⁻¹ * (m + modN (Proj.mul C (Aff.toCurve G) (Fp.toRepr k)).toAffine.x * sk)) := by
    rw [ecdsaSign, invert_eq, coordinates_rep hC (hmul k)]
    by_cases h : k = 0
    · rw [if_pos h, if_pos h]
    · rw [if_neg h, if_neg h]
  have verify (sk m r s : Fp n) : ecdsaVerify C (Aff.toCurve G) (Proj.mul C (Aff.toCurve G) (Fp.toRepr sk)).toAffine m r s =
      if s = 0 then none else some (decide (r = modN
        (Proj.mul C (Aff.toCurve G) (Fp.toRepr ((m + r * sk) * s⁻¹))).toAffine.x)) := by
    rw [ecdsaVerify, invert_eq]
    by_cases h : s = 0
    · rw [if_pos h, if_pos h]
    · rw [if_neg h, if_neg h]
      have e := ((C23_mul hC hg hG (m * s⁻¹)).1.add hC (C23_mul hC PRep.identity (hmul sk) (r * s⁻¹)).2).toAffine
      rw [lin_toNat (hkill g), show m * s⁻¹ + r * s⁻¹ * sk = (m + r * sk) * s⁻¹ by ring] at e
      have e2 := (e.ext_iff hC (hmul _)).mpr rfl
      dsimp only
      rw [e2, coordinates_rep hC (hmul _)]
  have exact' (sk m r s : Fp n) : ecdsaVerify C (Aff.toCurve G) (Proj.mul C (Aff.toCurve G) (Fp.toRepr sk)).toAffine m r s = some true ↔
      s ≠ 0 ∧ ((∃ k, ecdsaSign C (Aff.toCurve G) sk m k = some (r, s)) ∨ r = 0 ∧ m = 0) := by
    rw [verify]
    by_cases h : s = 0
    · rw [if_pos h]
      exact ⟨(fun e => nomatch e), fun e => absurd h e.1⟩
    rw [if_neg h, Option.some_inj, decide_eq_true_iff]
    have m0 : (modN (Proj.mul C (Aff.toCurve G) (Fp.toRepr (0 : Fp n))).toAffine.x : Fp n) = 0 := by
      have e := hmul 0
      rw [h0n, zero_smul] at e
      rw [(e.ext_iff hC ARep.identity).mpr rfl, modN_eq hl hn]
      show ((Fp.toNat (0 : Fp q) : ℕ) : Fp n) = 0
      rw [← Nat.cast_zero (R := Fp q), Fp.toNat_natCast, Nat.zero_mod, Nat.cast_zero]
    constructor
    · intro hr
      refine ⟨h, ?_⟩
      by_cases hk : (m + r * sk) * s⁻¹ = 0
      · right
        rw [hk, m0] at hr
        refine ⟨hr, ?_⟩
        rw [hr, zero_mul, add_zero] at hk
        exact (mul_eq_zero.mp hk).resolve_right (inv_ne_zero h)
      · left
        refine ⟨(m + r * sk) * s⁻¹, ?_⟩
        rw [sign, if_neg hk, ← hr]
        have hm : m + r * sk ≠ 0 := fun e => hk (by rw [e, zero_mul])
        rw [mul_inv, inv_inv, mul_right_comm, inv_mul_cancel₀ hm, one_mul]
    · rintro ⟨_, ⟨k, hk⟩ | ⟨rfl, rfl⟩⟩
      · rw [sign] at hk
        by_cases h0 : k = 0
        · rw [if_pos h0] at hk; cases hk
        rw [if_neg h0] at hk
        obtain ⟨e1, e2⟩ := Prod.mk.inj (Option.some.inj hk)
        rw [e1] at e2
        have hm : m + r * sk = k * s := by rw [← e2, mul_inv_cancel_left₀ h0]
        rw [hm, mul_assoc, mul_inv_cancel₀ h, mul_one]
        exact e1.symm
      · rw [zero_mul, add_zero, zero_mul, m0]
  refine ⟨fun sk m k => ?_, keys, fun pk h m r s => ?_, fun sk m k r s hs h0 => ?_, exact', fun pk h m r s => ?_⟩
  · rw [sign]
    by_cases h : k = 0
    · rw [if_pos h]; exact ⟨fun _ => h, fun _ => rfl⟩
    · rw [if_neg h]; exact ⟨(fun e => nomatch e), fun e => absurd e h⟩
  · obtain ⟨sk, rfl, _⟩ := keys pk h
    rw [verify]
    by_cases h : s = 0
    · rw [if_pos h]; exact ⟨fun _ => h, fun _ => rfl⟩
    · rw [if_neg h]; exact ⟨(fun e => nomatch e), fun e => absurd e h⟩
  · exact (exact' sk m r s).mpr ⟨h0, Or.inl ⟨k, hs⟩⟩
  · obtain ⟨sk, rfl, _⟩ := keys pk h
    rw [verify, verify]
    by_cases h : s = 0
    · rw [if_pos h, if_pos (by rw [h, neg_zero])]
    · rw [if_neg h, if_neg (neg_ne_zero.mpr h)]
      have e := hmul ((m + r * sk) * (-s)⁻¹)
      rw [inv_neg, mul_neg, neg_toNat (hkill g)] at e
      rw [inv_neg, mul_neg, (e.ext_iff hC (hmul ((m + r * sk) * s⁻¹)).neg).mpr rfl]
      rfl

end Ecdsa

/-- **C80** secp256k1. -/
theorem C80_secp256k1 : EcdsaClaim Secp256k1.c (Aff.toCurve Secp256k1.cGen) k1N :=
  ecdsaClaim_of Secp256k1.c_good C44_orders.2.2.2.2.1 (by decide +kernel) (by decide +kernel)

/-- **C80** secp256r1. -/
theorem C80_secp256r1 : EcdsaClaim Secp256r1.c (Aff.toCurve Secp256r1.cGen) r1N :=
  ecdsaClaim_of Secp256r1.c_good C44_orders.2.2.2.2.2.2.1 (by decide +kernel) (by decide +kernel)

end Halo2.Props
