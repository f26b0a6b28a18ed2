import Verif.Trace.Scalar
import Verif.Trace.Invert
import Verif.Props.Order

/-!
# C76: which word operations are executed

The traced functions of `Verif/Trace` return, beside the value of the function, the sequence of word operations it executes.
The theorems say on what that sequence depends.
-/

set_option linter.unusedSectionVars false

namespace Halo2.Props

open Halo2 Halo2.Field Halo2.Ext Halo2.Curve Halo2.Prime Halo2.Trace Halo2.Trace.T

/-! ## Field elements -/

section Prime

variable (p : ℕ) [hp : Fact (OddModulus p)]

/-- **C76** The operations of every prime field, except the comparisons: the operands do not influence which operations are
executed, and the traced functions compute the values of the field operations. -/
theorem C76_field :
    (∃ t, ∀ a b : Fp p, (fpOps p).add a b = ⟨a + b, t⟩) ∧ (∃ t, ∀ a b : Fp p, (fpOps p).sub a b = ⟨a - b, t⟩) ∧
    (∃ t, ∀ a b : Fp p, (fpOps p).mul a b = ⟨a * b, t⟩) ∧ (∃ t, ∀ a : Fp p, (fpOps p).sqr a = ⟨a * a, t⟩) ∧
    (∃ t, ∀ a : Fp p, (fpOps p).dbl a = ⟨a + a, t⟩) ∧ (∃ t, ∀ a : Fp p, (fpOps p).neg a = ⟨-a, t⟩) ∧
    (∃ t, ∀ (a b : Fp p) (c : Bool), (fpOps p).sel a b c = ⟨if c then b else a, t⟩) ∧
    (∃ t, ∀ a : Fp p, toReprT p a = ⟨Fp.toRepr a, t⟩) :=
  ⟨⟨_, fpOps_add⟩, ⟨_, fpOps_sub⟩, ⟨_, fpOps_mul⟩, ⟨_, fun a => by rw [fpOps_sqr, Fp.square_eq]⟩,
    ⟨_, fun a => by rw [fpOps_dbl, Fp.double_eq]⟩, ⟨_, fpOps_neg⟩, ⟨_, fpOps_sel⟩, ⟨_, toReprT_eq⟩⟩

/-- **C76** How many words a multiplication multiplies: `2 n² + n` for `n` limbs. -/
theorem C76_mul_count (a b : Fp p) :
    ((fpOps p).mul a b).tr.countP (fun e => decide (e = .mac) || decide (e = .mul)) =
      2 * numLimbs p * numLimbs p + numLimbs p := by
  have hr (n i : ℕ) : (roundsTrace n i).countP (fun e => decide (e = .mac) || decide (e = .mul)) = i * n + i := by
    induction i with
    | zero => rw [roundsTrace]; simp
    | succ i ih =>
      rw [roundsTrace, List.countP_cons, List.countP_append, List.countP_cons, ih, List.countP_replicate]
      simp
      ring
  rw [fpOps_mul, mulTrace, montTrace]
  simp only [List.countP_append, List.countP_cons, List.countP_replicate, hr]
  simp
  ring

/-- **C76** Comparison: the words compared are those up to the first difference. -/
theorem C76_eq (a b : Fp p) :
    (fpOps p).eq a b = ⟨decide (a = b), List.replicate (min (numLimbs p) (agree a.limbs b.limbs + 1)) .cmp⟩ ∧
    (fpOps p).isZero a = (fpOps p).eq a 0 := by
  refine ⟨fpOps_eq a b, ?_⟩
  show ctEqT _ _ = ctEqT _ _
  rw [zero_limbs]

/-- **C76** Comparison and the test for zero do not execute the same operations on all inputs, for any field of two limbs or
more. -/
theorem C76_eq_false (h2 : 2 ≤ numLimbs p) :
    (¬ ∃ t, ∀ a b : Fp p, ((fpOps p).eq a b).tr = t) ∧ ¬ ∃ t, ∀ a : Fp p, ((fpOps p).isZero a).tr = t := by
  have key : ¬ ∃ t, ∀ a : Fp p, ((fpOps p).isZero a).tr = t := by
    rintro ⟨t, ht⟩
    have he : IsElem p (1 :: List.replicate (numLimbs p - 1) 0) := by
      refine ⟨by rw [List.length_cons, List.length_replicate]; omega, ?_, ?_⟩
      · intro x hx
        rcases List.mem_cons.mp hx with rfl | hx
        · decide
        · rw [(List.mem_replicate.mp hx).2]; decide
      · have h0 : val (List.replicate (numLimbs p - 1) 0) = 0 := by
          generalize numLimbs p - 1 = k
          induction k with
          | zero => rfl
          | succ k ih => rw [List.replicate_succ, val, ih]; rfl
        rw [val, h0]
        have := hp.out.gt
        omega
    have h1 := ht (Fp.ofMont (1 :: List.replicate (numLimbs p - 1) 0))
    have h3 := isZero_tr_one (p := p) (a := Fp.ofMont (1 :: List.replicate (numLimbs p - 1) 0))
      (by rw [Fp.limbs_ofMont he]; exact one_ne_zero)
    have h4 := isZero_tr_zero (p := p)
    rw [h1] at h3
    rw [ht 0] at h4
    omega
  refine ⟨?_, key⟩
  rintro ⟨t, ht⟩
  exact key ⟨t, fun a => by rw [(C76_eq p a 0).2]; exact ht a 0⟩

end Prime

example : 2 ≤ numLimbs bnQ := by decide +kernel

/-! ## Base fields -/

/-- Multiplication by the quadratic non-residue of Pluto, src/pluto_eris/fp.rs:36-38. -/
def plutoNrT (a : Fp plP) : T (Fp plP) := do
  let b ← (fpOps plP).dbl a
  let b ← (fpOps plP).dbl b
  let b ← (fpOps plP).add b a
  (fpOps plP).neg b

/-- **C76** The base fields of all curves: the prime fields, and the quadratic extensions of BN254, BLS12-381 and Pluto. -/
theorem C76_base :
    (∀ (p : ℕ) [Fact (OddModulus p)], Steady (fpOps p)) ∧
    Steady (F := Bn256.Fq2) (quadOps (fpOps bnQ) (fpOps bnQ).neg (squareComplexT (fpOps bnQ))) ∧
    Steady (F := Bls12381.Fq2) (quadOps (fpOps blsQ) (fpOps blsQ).neg (squareComplexT (fpOps blsQ))) ∧
    Steady (F := Pluto.Fp2) (quadOps (fpOps plP) plutoNrT (quadSquareT (fpOps plP) plutoNrT)) := by
  refine ⟨fun p _ => steady_fp, ?_, ?_, ?_⟩
  · exact steady_quad steady_fp ⟨_, fpOps_neg⟩ (fun _ => rfl) (fun _ => rfl)
      (squareComplexT_eq steady_fp (fun _ => rfl)) (fun _ => rfl)
  · exact steady_quad steady_fp ⟨_, fpOps_neg⟩ (fun _ => rfl) (fun _ => rfl)
      (squareComplexT_eq steady_fp (fun _ => rfl)) (fun _ => rfl)
  · have hnr : ∃ t, ∀ a, plutoNrT a = ⟨ExtField.mulNr a, t⟩ :=
      ⟨_, fun a => bind_eq (fpOps_dbl _) (bind_eq (fpOps_dbl _) (bind_eq (fpOps_add _ _) (fpOps_neg _)))⟩
    exact steady_quad steady_fp hnr (fun _ => rfl) (fun _ => rfl) (quadSquareT_eq steady_fp hnr (fun _ => rfl))
      (fun _ => rfl)

/-! ## Points -/

section Points

variable {F : Type} [_root_.Field F] [DecidableEq F] [BaseField F] {o : Ops F} (ho : Steady o) (C : Params F)

include ho

/-- **C76** Addition, negation and selection of projective points execute the same operations for all points, the identity,
equal and opposite points included. -/
theorem C76_points :
    (∃ t, ∀ P Q : Proj F, addT o C P Q = ⟨Proj.add C P Q, t⟩) ∧ (∃ t, ∀ P : Proj F, negT o P = ⟨Proj.neg P, t⟩) ∧
    (∃ t, ∀ (P Q : Proj F) (c : Bool), selT o P Q c = ⟨if c then Q else P, t⟩) :=
  ⟨addT_eq ho, negT_eq ho, selT_eq ho⟩

/-- **C76** Doubling, mixed addition and comparison execute the same operations for all points except for the tests for zero
and the comparisons of coordinates. (Missing for a constant sequence: a constant test for zero.) -/
theorem C76_points_partial :
    (∃ t u, ∀ P : Proj F, doubleT o C P = ⟨Proj.double C P, t ++ ((o.isZero P.z).tr ++ u)⟩) ∧
    (∃ t u, ∀ (P : Proj F) (Q : Aff F), addMixedT o C P Q =
      ⟨Proj.addMixed C P Q, t ++ ((o.isZero Q.x).tr ++ ((o.isZero Q.y).tr ++ u))⟩) ∧
    (∃ t u v w, ∀ P Q : Proj F, ctEqPT o P Q = ⟨Proj.ctEq P Q, t ++ ((o.isZero P.z).tr ++ ((o.isZero Q.z).tr ++ (u ++
      ((o.eq (P.x * Q.z) (Q.x * P.z)).tr ++ (v ++ ((o.eq (P.y * Q.z) (Q.y * P.z)).tr ++ w))))))⟩) :=
  ⟨doubleT_eq ho, addMixedT_eq ho, (ctEqPT_eq ho).elim fun t h => h.elim fun u h => h.elim fun v h => ⟨t, u, v, _, h⟩⟩

/-- **C76** Scalar multiplication: one round for each bit of the encoding, and every round executes the same operations
except for the test whether the accumulator is the identity. The bits of the scalar have no other influence.
(Missing for a constant sequence: a constant test for zero.) -/
theorem C76_mul_partial {r : ℕ} [Fact (OddModulus r)] :
    (∃ t₀ t u, ∀ (P : Proj F) (s : Fp r), mulT o C P s = ⟨Proj.mul C P (Fp.toRepr s),
      t₀ ++ (accs C (fun A => Proj.add C A P) (Proj.bitsOf (Fp.toRepr s)) Proj.identity).flatMap fun A =>
        t ++ ((o.isZero A.z).tr ++ u)⟩) ∧
    (∃ t₀ t u v, ∀ (P : Aff F) (s : Fp r), mulMixedT o C P s = ⟨Aff.mul C P (Fp.toRepr s),
      t₀ ++ (accs C (fun A => Proj.addMixed C A P) (Proj.bitsOf (Fp.toRepr s)) Proj.identity).flatMap fun A =>
        t ++ ((o.isZero A.z).tr ++ (u ++ ((o.isZero P.x).tr ++ ((o.isZero P.y).tr ++ v))))⟩) ∧
    ∀ (addP : Proj F → Proj F) (s : Fp r) (A : Proj F),
      (accs C addP (Proj.bitsOf (Fp.toRepr s)) A).length = 64 * numLimbs r := by
  refine ⟨?_, ?_, fun addP s A => ?_⟩
  · obtain ⟨t, u, h⟩ := mulLoopT_eq ho (C := C)
    exact ⟨_, t, u, fun P s => bind_eq (toReprT_eq s) (h P _ _)⟩
  · obtain ⟨t, u, v, h⟩ := mulMixedLoopT_eq ho (C := C)
    exact ⟨_, t, u, v, fun P s => bind_eq (toReprT_eq s) (h P _ _)⟩
  · have h1 : ∀ (l : List Bool) (A : Proj F), (accs C addP l A).length = l.length := by
      intro l
      induction l with
      | nil => intro A; rfl
      | cons b l ih => intro A; rw [accs, List.length_cons, List.length_cons, ih]
    rw [h1, bitsOf_length, show (Fp.toRepr s).length = 8 * numLimbs r from (Fp.toBytes_spec .LE s).1]
    omega

end Points

/-! ## The leading zero bits of a scalar -/

section Leak

variable {q : ℕ} [Fact (OddModulus q)] [Fact q.Prime] [Fp.SmallModulus q] {C : Params (Fp q)} (hC : Good C) (r : ℕ)
  [Fact (OddModulus r)]

include hC

/-- **C76** What a multiplication of a point of prime order reveals: the number of executed operations is at least a constant
of the curve plus `n - 1` for each leading zero bit of the scalar, where `n` is the number of limbs of the base field; and it
is exactly that when no accumulator has a non-zero `z` whose lowest limb is zero. -/
theorem C76_leak (hr : r.Prime) : ∃ c, ∀ (P : Proj (Fp q)) (pt : Pt C), PRep C P pt → pt ≠ 0 → r • pt = 0 →
    ∀ s : Fp r, s ≠ 0 →
      c + (numLimbs q - 1) * (64 * numLimbs r - Nat.size s.toNat) ≤ (mulT (fpOps q) C P s).tr.length ∧
      ((∀ A ∈ accs C (fun A => Proj.add C A P) (Proj.bitsOf (Fp.toRepr s)) Proj.identity,
          A.z ≠ 0 → A.z.limbs.headD 0 ≠ 0) →
        (mulT (fpOps q) C P s).tr.length = c + (numLimbs q - 1) * (64 * numLimbs r - Nat.size s.toNat)) := by
  obtain ⟨⟨t₀, t, u, h⟩, _, hlen⟩ := C76_mul_partial (steady_fp (p := q)) C (r := r)
  refine ⟨t₀.length + 64 * numLimbs r * (t.length + u.length + 1) + (numLimbs q - 1), fun P pt hP hp0 hrp s hs => ?_⟩
  obtain ⟨hb1, hb2, hb3⟩ := Fp.toBytes_spec .LE s
  have hval : Curve.bitsVal (Proj.bitsOf (Fp.toRepr s)) = s.toNat := (bitsVal_bitsOf _ hb2).trans hb3
  have hlb : (Proj.bitsOf (Fp.toRepr s)).length = 64 * numLimbs r := by
    rw [bitsOf_length, show (Fp.toRepr s).length = 8 * numLimbs r from hb1]; omega
  have hs0 : s.toNat ≠ 0 := fun h0 => hs (by rw [← Fp.natCast_toNat s, h0, Nat.cast_zero])
  have hf := accs_rep hC (fun A => Proj.add C A P) pt (fun A a hA => hA.add hC hP) (Proj.bitsOf (Fp.toRepr s))
    Proj.identity 0 (by rw [zero_smul]; exact PRep.identity)
  have hcnt := countP_accs hr hp0 hrp hf (fun n hn => by
    have := (prefs_le _ _).2 n hn
    have h2 := Fp.toNat_lt s
    rw [← hval, Curve.bitsVal] at h2
    omega)
  have hz := count_prefs (Proj.bitsOf (Fp.toRepr s)) (by rw [hval]; exact hs0)
  rw [hval, hlb] at hz
  have hl := hlen (fun A => Proj.add C A P) s Proj.identity
  rw [h P s, show ∀ (v : Proj (Fp q)) (w : List Ev), (T.mk v w).tr = w from fun _ _ => rfl, List.length_append]
  have hn : 0 < numLimbs q := Nat.succ_pos _
  obtain ⟨f1, f2⟩ := flatMap_length
    (accs C (fun A => Proj.add C A P) (Proj.bitsOf (Fp.toRepr s)) Proj.identity)
    (fun A => t ++ (((fpOps q).isZero A.z).tr ++ u)) (fun A => decide (A.z = 0)) (numLimbs q - 1)
    (t.length + u.length + 1)
    (fun A _ hA => by
      rw [of_decide_eq_true hA, List.length_append, List.length_append, isZero_tr_zero]; omega)
    (fun A _ _ => by
      have := isZero_tr_pos A.z
      rw [List.length_append, List.length_append]; omega)
  rw [hl, hcnt] at f1 f2
  have hk : (prefs (Proj.bitsOf (Fp.toRepr s)) 0).count 0 = 64 * numLimbs r - Nat.size s.toNat + 1 := by
    have : 1 ≤ (prefs (Proj.bitsOf (Fp.toRepr s)) 0).count 0 := by
      obtain ⟨b, l, hbl⟩ : ∃ b l, Proj.bitsOf (Fp.toRepr s) = b :: l := by
        cases hc : Proj.bitsOf (Fp.toRepr s) with
        | nil => rw [hc] at hval; exact absurd hval.symm hs0
        | cons b l => exact ⟨b, l, rfl⟩
      rw [hbl, prefs, List.count_cons_self]
      omega
    omega
  rw [hk] at f1 f2
  generalize 64 * numLimbs r - Nat.size s.toNat = k at f1 f2 ⊢
  generalize 64 * numLimbs r * (t.length + u.length + 1) = m at f1 f2 ⊢
  generalize numLimbs q - 1 = d at f1 f2 ⊢
  constructor
  · have : (k + 1) * d = d * k + d := by ring
    omega
  · intro hlow
    have h3 := f2 fun A hA hzA => by
      rw [List.length_append, List.length_append, isZero_tr_one (hlow A hA (of_decide_eq_false hzA))]; omega
    rw [h3]
    ring

theorem accs_zeros (hz : Proj.double C (Proj.identity : Proj (Fp q)) = Proj.identity) (addP : Proj (Fp q) → Proj (Fp q))
    (k : ℕ) (l : List Bool) : accs C addP (List.replicate k false ++ l) Proj.identity =
      List.replicate k Proj.identity ++ accs C addP l Proj.identity := by
  induction k with
  | zero => rfl
  | succ k ih =>
    rw [List.replicate_succ, List.replicate_succ, List.cons_append, List.cons_append, accs, ← ih]
    simp only [hz, Bool.false_eq_true, if_false]

theorem add_identity_z (P : Proj (Fp q)) : (Proj.add C Proj.identity P).z = P.y * P.z := by
  have h3 : mul3b C (0 : Fp q) = 0 := by
    rw [mul3b]
    split
    · simp only [LawfulBase.dbl_eq, add_zero]
    · rw [zero_mul]
  by_cases ha : C.a = 0
  · simp only [Proj.add, if_pos ha, Proj.identity, zero_mul, add_zero, h3]
    ring
  · simp only [Proj.add, if_neg ha, Proj.identity, zero_mul, mul_zero, add_zero, zero_add, h3]
    ring

/-- **C76** The multiples by `1` and by `2` of a point of prime order take different numbers of operations, as soon as the base
field has two limbs and the lowest limb of the stored `y z` is not zero. -/
theorem C76_mul_false (hr : r.Prime) (h2 : 2 ≤ numLimbs q) {P : Proj (Fp q)} {pt : Pt C} (hP : PRep C P pt) (hp0 : pt ≠ 0)
    (hrp : r • pt = 0) (hlow : (P.y * P.z).limbs.headD 0 ≠ 0) :
    (mulT (fpOps q) C P ((2 : ℕ) : Fp r)).tr.length + (numLimbs q - 1) =
      (mulT (fpOps q) C P ((1 : ℕ) : Fp r)).tr.length ∧
    ¬ ∃ t, ∀ s : Fp r, (mulT (fpOps q) C P s).tr = t := by
  have hr3 : 2 < r := by
    have h3 := (Fact.out : OddModulus r).gt
    have h4 := (Fact.out : OddModulus r).odd
    omega
  have hz : Proj.double C (Proj.identity : Proj (Fp q)) = Proj.identity := by
    have hi : Proj.isIdentity (Proj.identity : Proj (Fp q)) = true := by
      rw [Proj.isIdentity, LawfulBase.isZero_iff]; rfl
    simp only [Proj.double, hi]
    split <;> rfl
  have hn (n : ℕ) (hn : n < r) : ((n : ℕ) : Fp r).toNat = n := by rw [Fp.toNat_natCast, Nat.mod_eq_of_lt hn]
  have bits (n : ℕ) (hnr : n < r) (m : List Bool) (hm : Curve.bitsVal m = n) (hml : m.length ≤ 64 * numLimbs r) :
      Proj.bitsOf (Fp.toRepr ((n : ℕ) : Fp r)) = List.replicate (64 * numLimbs r - m.length) false ++ m := by
    obtain ⟨hb1, hb2, hb3⟩ := Fp.toBytes_spec .LE ((n : ℕ) : Fp r)
    have hval : Curve.bitsVal (Proj.bitsOf (Fp.toRepr ((n : ℕ) : Fp r))) = n := (bitsVal_bitsOf _ hb2).trans (hb3.trans (hn n hnr))
    have hlb : (Proj.bitsOf (Fp.toRepr ((n : ℕ) : Fp r))).length = 64 * numLimbs r := by
      rw [bitsOf_length, show (Fp.toRepr ((n : ℕ) : Fp r)).length = 8 * numLimbs r from hb1]; omega
    apply bitsVal_inj
    · rw [hlb, List.length_append, List.length_replicate]; omega
    · rw [hval, bitsVal_zeros, hm]
  have hpos : 0 < numLimbs r := Nat.succ_pos _
  obtain ⟨c, hc⟩ := C76_leak hC r hr
  have e1 := (hc P pt hP hp0 hrp ((1 : ℕ) : Fp r) (fun h0 => by
    have := hn 1 (by omega); rw [h0] at this; exact absurd this (by rw [show (0 : Fp r) = ((0 : ℕ) : Fp r) from Nat.cast_zero.symm, hn 0 (by omega)]; exact zero_ne_one))).2
    (by
      rw [bits 1 (by omega) [true] rfl (by rw [List.length_singleton]; omega), accs_zeros hC hz]
      intro A hA hA0
      rcases List.mem_append.mp hA with hA | hA
      · rw [(List.mem_replicate.mp hA).2] at hA0
        exact absurd rfl hA0
      · rw [accs, accs, List.mem_singleton] at hA
        rw [hA] at hA0
        exact absurd rfl hA0)
  have e2 := (hc P pt hP hp0 hrp ((2 : ℕ) : Fp r) (fun h0 => by
    have := hn 2 (by omega); rw [h0] at this; exact absurd this (by rw [show (0 : Fp r) = ((0 : ℕ) : Fp r) from Nat.cast_zero.symm, hn 0 (by omega)]; exact two_ne_zero.symm))).2
    (by
      rw [bits 2 (by omega) [true, false] rfl (by rw [List.length_cons, List.length_singleton]; omega), accs_zeros hC hz]
      intro A hA hA0
      rcases List.mem_append.mp hA with hA | hA
      · rw [(List.mem_replicate.mp hA).2] at hA0
        exact absurd rfl hA0
      · rw [accs, accs, accs] at hA
        rcases List.mem_cons.mp hA with hA | hA
        · rw [hA] at hA0
          exact absurd rfl hA0
        · rw [List.mem_singleton] at hA
          rw [hA]
          simp only [hz, if_true]
          rw [add_identity_z hC]
          exact hlow)
  rw [hn 1 (by omega), show Nat.size 1 = 1 from Nat.size_one] at e1
  rw [hn 2 (by omega), show Nat.size 2 = 2 from by decide] at e2
  have e3 : 64 * numLimbs r - 1 = (64 * numLimbs r - 2) + 1 := by omega
  rw [e3, mul_add, mul_one] at e1
  have e4 : (mulT (fpOps q) C P ((2 : ℕ) : Fp r)).tr.length + (numLimbs q - 1) =
      (mulT (fpOps q) C P ((1 : ℕ) : Fp r)).tr.length := by omega
  refine ⟨e4, ?_⟩
  rintro ⟨t, ht⟩
  rw [ht, ht] at e4
  omega

end Leak

/-- The number of operations of multiplying `P` by the scalar `k`. -/
def mulCost {q : ℕ} [Fact (OddModulus q)] (C : Params (Fp q)) (r : ℕ) [Fact (OddModulus r)] (P : Proj (Fp q)) (k : ℕ) : ℕ :=
  (mulT (fpOps q) C P ((k : ℕ) : Fp r)).tr.length

/-- **C76** The generators of the eight curves over prime fields: the multiple by `2` takes `n - 1` operations less than the
multiple by `1`. -/
theorem C76_generators_false :
    mulCost Bn256.g1 bnR (Aff.toCurve Bn256.g1Gen) 2 + 3 =
      mulCost Bn256.g1 bnR (Aff.toCurve Bn256.g1Gen) 1 ∧
    mulCost Grumpkin.g1 bnQ (Aff.toCurve Grumpkin.g1Gen) 2 + 3 =
      mulCost Grumpkin.g1 bnQ (Aff.toCurve Grumpkin.g1Gen) 1 ∧
    mulCost Bls12381.g1 blsR (Aff.toCurve Bls12381.g1Gen) 2 + 5 =
      mulCost Bls12381.g1 blsR (Aff.toCurve Bls12381.g1Gen) 1 ∧
    mulCost Pluto.g1 plQ (Aff.toCurve Pluto.g1Gen) 2 + 6 =
      mulCost Pluto.g1 plQ (Aff.toCurve Pluto.g1Gen) 1 ∧
    mulCost Pluto.eris plP (Aff.toCurve Pluto.erisGen) 2 + 6 =
      mulCost Pluto.eris plP (Aff.toCurve Pluto.erisGen) 1 ∧
    mulCost Secp256k1.c k1N (Aff.toCurve Secp256k1.cGen) 2 + 3 =
      mulCost Secp256k1.c k1N (Aff.toCurve Secp256k1.cGen) 1 ∧
    mulCost Secq256k1.c k1P (Aff.toCurve Secq256k1.cGen) 2 + 3 =
      mulCost Secq256k1.c k1P (Aff.toCurve Secq256k1.cGen) 1 ∧
    mulCost Secp256r1.c r1N (Aff.toCurve Secp256r1.cGen) 2 + 3 =
      mulCost Secp256r1.c r1N (Aff.toCurve Secp256r1.cGen) 1 := by
  have key {q : ℕ} [Fact (OddModulus q)] [Fact q.Prime] [Fp.SmallModulus q] {C : Params (Fp q)} (hC : Good C) {h r n : ℕ}
      [Fact (OddModulus r)] {G : Aff (Fp q)} (hG : OrderSpec C G h r) (hn : numLimbs q - 1 = n) (hn1 : 1 ≤ n)
      (hlow : decide (G.y.limbs.headD 0 ≠ 0) = true) :
      mulCost C r (Aff.toCurve G) 2 + n =
        mulCost C r (Aff.toCurve G) 1 := by
    obtain ⟨g, hg, ho, _⟩ := hG.gen
    rw [← hn]
    have hg0 : g ≠ 0 := by
      intro h0
      rw [h0, addOrderOf_zero] at ho
      exact hG.prime.one_lt.ne ho
    refine (C76_mul_false hC r hG.prime (by omega) (hg.toCurve hC) hg0 (ho ▸ addOrderOf_nsmul_eq_zero g) ?_).1
    have hi : Aff.isIdentity G = false := Bool.eq_false_iff.mpr fun h => hg0 ((hg.isIdentity hC).mp h)
    rw [Aff.toCurve, hi]
    show (G.y * 1).limbs.headD 0 ≠ 0
    rw [mul_one]
    exact of_decide_eq_true hlow
  obtain ⟨h1, h2, h3, h4, h5, h6, h7, _, _, h8, _⟩ := C44_orders
  exact ⟨key Bn256.g1_good h1 (by decide +kernel) (by decide) (by decide +kernel),
    key Grumpkin.g1_good h2 (by decide +kernel) (by decide) (by decide +kernel),
    key Bls12381.g1_good h8 (by decide +kernel) (by decide) (by decide +kernel),
    key Pluto.g1_good h3 (by decide +kernel) (by decide) (by decide +kernel),
    key Pluto.eris_good h4 (by decide +kernel) (by decide) (by decide +kernel),
    key Secp256k1.c_good h5 (by decide +kernel) (by decide) (by decide +kernel),
    key Secq256k1.c_good h6 (by decide +kernel) (by decide) (by decide +kernel),
    key Secp256r1.c_good h7 (by decide +kernel) (by decide) (by decide +kernel)⟩

/-- The generator of BN254 and the scalar `1` meet the hypotheses of `C76_leak`. -/
example : ∃ pt, PRep Bn256.g1 (Aff.toCurve Bn256.g1Gen) pt ∧ pt ≠ 0 ∧ bnR • pt = 0 ∧ bnR.Prime ∧ (1 : Fp bnR) ≠ 0 := by
  obtain ⟨g, hg, ho, _⟩ := C44_orders.1.gen
  refine ⟨g, hg.toCurve Bn256.g1_good, fun h0 => ?_, ho ▸ addOrderOf_nsmul_eq_zero g, C44_orders.1.prime, one_ne_zero⟩
  rw [h0, addOrderOf_zero] at ho
  exact C44_orders.1.prime.one_lt.ne ho

/-! ## Inversion -/

/-- **C76** Inversion runs a number of rounds that depends on its argument: `1` and `3` in the base field of BN254, `1` and `5`
in that of secp256k1. -/
theorem C76_invert_false :
    (∀ (p : ℕ) (a : List ℕ), (fieldInvertN p a).1 = Inverse.fieldInvert p a) ∧
    (fieldInvertN bnQ (Field.fromU64 bnQ 1)).2 = 49 ∧ (fieldInvertN bnQ (Field.fromU64 bnQ 3)).2 = 56 ∧
    (fieldInvertN k1P (Field.fromU64 k1P 1)).2 = 64 ∧ (fieldInvertN k1P (Field.fromU64 k1P 5)).2 = 58 := by
  refine ⟨fieldInvertN_fst, ?_, ?_, ?_, ?_⟩ <;> decide +kernel

end Halo2.Props
