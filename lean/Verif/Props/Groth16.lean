import Verif.Props.Shares
import Verif.Props.Kzg

/-!
# Property C103: the proofs of Groth with the library

Setup, prover and verifier of Groth's proofs for quadratic arithmetic programs, as clients of the library: multiplication of the
generators, arithmetic and inversion of scalars, multi-scalar multiplication in both groups, `multi_miller_loop` with
`final_exponentiation`. No such program is in the repository; the functions below stand for the client.
-/

set_option linter.unusedSectionVars false

namespace Halo2.Props

open Halo2 Halo2.Field Halo2.Prime Halo2.Curve Halo2.Msm Halo2.Pairing Polynomial

section Client

variable {L F K : Type} [_root_.Field L] [DecidableEq L] [BaseField L] [LawfulBase L]
  [_root_.Field F] [DecidableEq F] [BaseField F] [LawfulBase F] [CommMonoid K] [DecidableEq K]
variable {r : ℕ} [Fact r.Prime] [Fact (OddModulus r)] [Fp.SmallModulus r]

/-- The three polynomials of a variable, by their coefficients, constant term first. -/
structure QapVar (r : ℕ) where
  u : List (Fp r)
  v : List (Fp r)
  w : List (Fp r)

/-- A quadratic arithmetic program: public variables, the first one for the constant 1, private variables, the polynomial that
vanishes on the domain, and the number of coefficients of the quotient. -/
structure Qap (r : ℕ) where
  pub : List (QapVar r)
  priv : List (QapVar r)
  t : List (Fp r)
  n : ℕ

/-- The secrets of the setup. -/
structure Trapdoor (r : ℕ) where
  alpha : Fp r
  beta : Fp r
  gamma : Fp r
  delta : Fp r
  tau : Fp r

/-- The points made by the setup. -/
structure GrothKey (L F : Type) where
  alpha : Aff L
  beta1 : Aff L
  delta1 : Aff L
  us : List (Aff L)
  vs1 : List (Aff L)
  ls : List (Aff L)
  hs : List (Aff L)
  ic : List (Aff L)
  beta2 : Aff F
  gamma2 : Aff F
  delta2 : Aff F
  vs2 : List (Aff F)

/-- `(g * k).to_affine()`. -/
def pt (C : Params L) (g : Aff L) (k : Fp r) : Aff L := (Aff.mul C g (Fp.toRepr k)).toAffine

/-- `beta u(tau) + alpha v(tau) + w(tau)`. -/
noncomputable def Trapdoor.term (T : Trapdoor r) (x : QapVar r) : Fp r := T.beta * shareAt x.u T.tau + T.alpha * shareAt x.v T.tau + shareAt x.w T.tau

/-- The setup; it fails when `gamma` or `delta` has no inverse. -/
noncomputable def grothSetup (C1 : Params L) (C2 : Params F) (g : Aff L) (h : Aff F) (Q : Qap r) (T : Trapdoor r) : Option (GrothKey L F) := do
  let gi ← Fp.invert T.gamma
  let di ← Fp.invert T.delta
  some
    { alpha := pt C1 g T.alpha, beta1 := pt C1 g T.beta, delta1 := pt C1 g T.delta,
      us := (Q.pub ++ Q.priv).map fun x => pt C1 g (shareAt x.u T.tau),
      vs1 := (Q.pub ++ Q.priv).map fun x => pt C1 g (shareAt x.v T.tau),
      ls := Q.priv.map fun x => pt C1 g (T.term x * di),
      hs := (powersFrom T.tau Q.n (shareAt Q.t T.tau * di)).map (pt C1 g),
      ic := Q.pub.map fun x => pt C1 g (T.term x * gi),
      beta2 := pt C2 h T.beta, gamma2 := pt C2 h T.gamma, delta2 := pt C2 h T.delta,
      vs2 := (Q.pub ++ Q.priv).map fun x => pt C2 h (shareAt x.v T.tau) }

/-- The prover with the public values `x` (without the constant), the private values `w`, the coefficients `q` of the quotient and the
random scalars `a` and `b`. `none` is a panic. -/
noncomputable def grothProve (msm1 : List (List ℕ) → List (Aff L) → Option (Proj L)) (msm2 : List (List ℕ) → List (Aff F) → Option (Proj F))
    (key : GrothKey L F) (x w q : List (Fp r)) (a b : Fp r) : Option (Aff L × Aff F × Aff L) := do
  let A ← msm1 ((1 :: ((1 :: x ++ w) ++ [a])).map Fp.toRepr) (key.alpha :: (key.us ++ [key.delta1]))
  let B1 ← msm1 ((1 :: ((1 :: x ++ w) ++ [b])).map Fp.toRepr) (key.beta1 :: (key.vs1 ++ [key.delta1]))
  let B ← msm2 ((1 :: ((1 :: x ++ w) ++ [b])).map Fp.toRepr) (key.beta2 :: (key.vs2 ++ [key.delta2]))
  let D ← msm1 ((w ++ (q ++ [b, a, -(a * b)])).map Fp.toRepr) (key.ls ++ (key.hs ++ [A.toAffine, B1.toAffine, key.delta1]))
  some (A.toAffine, B.toAffine, D.toAffine)

/-- The verifier for the public values `x`. `none` is a panic. -/
noncomputable def grothVerify (msm1 : List (List ℕ) → List (Aff L) → Option (Proj L)) (multi : List (Aff L × Aff F) → Option K)
    (key : GrothKey L F) (x : List (Fp r)) (A : Aff L) (B : Aff F) (D : Aff L) : Option Bool := do
  let acc ← msm1 ((1 :: x).map Fp.toRepr) key.ic
  let z ← multi [(A, B), (key.alpha.neg, key.beta2), (acc.toAffine.neg, key.gamma2), (D.neg, key.delta2)]
  some (decide (z = 1))

/-- The combination of polynomials with the values of the variables. -/
noncomputable def combPoly (as : List (Fp r)) (us : List (List (Fp r))) : (Fp r)[X] := (List.zipWith (fun a u => C a * sharePoly u) as us).sum

/-- The difference of the two sides of the equation of the program. -/
noncomputable def Qap.defect (Q : Qap r) (x w q : List (Fp r)) : (Fp r)[X] :=
  combPoly (1 :: x ++ w) ((Q.pub ++ Q.priv).map (·.u)) * combPoly (1 :: x ++ w) ((Q.pub ++ Q.priv).map (·.v)) -
    combPoly (1 :: x ++ w) ((Q.pub ++ Q.priv).map (·.w)) - sharePoly q * sharePoly Q.t

/-- The numbers of values fit the program, and the sums are not too long. -/
structure Qap.Fits (Q : Qap r) (x w q : List (Fp r)) : Prop where
  pub : x.length + 1 = Q.pub.length
  priv : w.length = Q.priv.length
  quot : q.length = Q.n
  small : Q.pub.length + Q.priv.length + Q.n + 3 < 2 ^ 32

end Client

section Spec

variable {L F K : Type} [_root_.Field L] [DecidableEq L] [BaseField L] [LawfulBase L]
  [_root_.Field F] [DecidableEq F] [BaseField F] [LawfulBase F] [CommMonoid K] [DecidableEq K]
variable {r : ℕ} [Fact r.Prime] [Fact (OddModulus r)] [Fp.SmallModulus r]

theorem eval_combPoly (as : List (Fp r)) (us : List (List (Fp r))) (x : Fp r) :
    (combPoly as us).eval x = inner as (us.map fun u => shareAt u x) := by
  induction as generalizing us with
  | nil => rw [combPoly, List.zipWith_nil_left, List.sum_nil, eval_zero, inner, List.zipWith_nil_left, List.sum_nil]
  | cons a as ih =>
    cases us with
    | nil => rw [combPoly, List.zipWith_nil_right, List.sum_nil, eval_zero, List.map_nil, inner, List.zipWith_nil_right, List.sum_nil]
    | cons u us =>
      have h := ih us
      rw [combPoly, List.zipWith_cons_cons, List.sum_cons, eval_add, eval_mul, eval_C, eval_sharePoly, ← combPoly, h, List.map_cons, inner, inner,
        List.zipWith_cons_cons, List.sum_cons]

theorem inner_nil : inner ([] : List (Fp r)) [] = 0 := rfl

theorem inner_cons' (a b : Fp r) (as bs : List (Fp r)) : inner (a :: as) (b :: bs) = a * b + inner as bs := by
  rw [inner, List.zipWith_cons_cons, List.sum_cons, inner]

theorem inner_append (as as' bs bs' : List (Fp r)) (h : as.length = bs.length) : inner (as ++ as') (bs ++ bs') = inner as bs + inner as' bs' := by
  rw [inner_lin, lin_append _ _ _ _ h]; rfl

variable {C1 : Params L} {C2 : Params F} {g : Aff L} {h : Aff F} {pairing : Aff L → Aff F → Option K}
  {multi : List (Aff L × Aff F) → Option K}

theorem msm_pt (hC : Good C1) {msm : List (List ℕ) → List (Aff L) → Option (Proj L)} (hm : IsMsm C1 r msm) {G : Pt C1} (hG : ARep C1 g G)
    (hr : r • G = 0) (ks cs : List (Fp r)) (hl : ks.length = cs.length) (h32 : cs.length < 2 ^ 32) :
    ∃ R, msm (ks.map Fp.toRepr) (cs.map (pt C1 g)) = some R ∧ R.toAffine = pt C1 g (inner ks cs) := by
  have hrep : List.Forall₂ (ARep C1) (cs.map (pt C1 g)) (cs.map fun c => Fp.toNat c • G) := by
    rw [List.forall₂_map_left_iff, List.forall₂_map_right_iff, List.forall₂_same]
    exact fun c _ => (C23_mul hC PRep.identity hG c).2.toAffine
  obtain ⟨R, e, hR⟩ := hm ks _ _ (by rw [List.length_map, hl]) (by rwa [List.length_map]) hrep
  rw [msmValue_smul hr] at hR
  exact ⟨R, e, (hR.toAffine.ext_iff hC (C23_mul hC PRep.identity hG _).2.toAffine).mpr rfl⟩

theorem pt_neg (hC : Good C1) {G : Pt C1} (hG : ARep C1 g G) (hr : r • G = 0) (k : Fp r) : (pt C1 g k).neg = pt C1 g (-k) := by
  have h1 := (C23_mul hC PRep.identity hG k).2.toAffine.neg
  refine (h1.ext_iff hC (C23_mul hC PRep.identity hG (-k)).2.toAffine).mpr ?_
  have h := comb_toNat hr 0 k 0 (0 : Fp r)
  rw [Fp.toNat_zero, zero_smul, zero_smul, zero_sub, add_zero, zero_mul, add_zero, zero_sub] at h
  exact h

theorem pt_inj (hC : Good C1) {G : Pt C1} (hG : ARep C1 g G) (ho : addOrderOf G = r) {a b : Fp r} (e : pt C1 g a = pt C1 g b) : a = b := by
  have h1 := (C23_mul hC PRep.identity hG a).2.toAffine
  have h2 := (C23_mul hC PRep.identity hG b).2.toAffine
  have h3 := (h1.ext_iff hC h2).mp e
  refine Fp.toNat_inj (nsmul_injOn_Iio_addOrderOf (x := G) ?_ ?_ h3)
  · rw [ho]; exact Fp.toNat_lt a
  · rw [ho]; exact Fp.toNat_lt b

theorem pt_pt (hC : Good C1) {G : Pt C1} (hG : ARep C1 g G) (ho : addOrderOf G = r) (a s : Fp r) : pt C1 (pt C1 g a) s = pt C1 g (a * s) := by
  have hr : r • G = 0 := by rw [← ho]; exact addOrderOf_nsmul_eq_zero G
  have h1 := (C23_mul hC PRep.identity (C23_mul hC PRep.identity hG a).2.toAffine s).2.toAffine
  refine (h1.ext_iff hC (C23_mul hC PRep.identity hG (a * s)).2.toAffine).mpr ?_
  let _ := torsModule C1 r
  let x : Tors C1 r := ⟨G, hr⟩
  have h : Fp.toNat s • (Fp.toNat a • (x : Pt C1)) = Fp.toNat (a * s) • (x : Pt C1) := by
    rw [← coe_smul_tors, ← coe_smul_tors, ← coe_smul_tors, smul_smul, mul_comm]
  exact h

theorem inner_swap (as bs : List (Fp r)) : inner as bs = inner bs as := by
  rw [inner, inner, List.zipWith_comm]
  congr 1
  exact congrArg (fun f => List.zipWith f bs as) (funext fun _ => funext fun _ => mul_comm _ _)

theorem inner_term (T : Trapdoor r) (as : List (Fp r)) (xs : List (QapVar r)) :
    inner as (xs.map T.term) = T.beta * inner as (xs.map fun x => shareAt x.u T.tau) + T.alpha * inner as (xs.map fun x => shareAt x.v T.tau) +
      inner as (xs.map fun x => shareAt x.w T.tau) := by
  induction as generalizing xs with
  | nil => simp only [inner, List.zipWith_nil_left, List.sum_nil]; ring
  | cons a as ih =>
    cases xs with
    | nil => simp only [List.map_nil, inner, List.zipWith_nil_right, List.sum_nil]; ring
    | cons x xs =>
      rw [List.map_cons, List.map_cons, List.map_cons, List.map_cons, inner_cons', inner_cons', inner_cons', inner_cons', ih, Trapdoor.term]
      ring

theorem inner_mul_right (c : Fp r) (as : List (Fp r)) (xs : List (QapVar r)) (f : QapVar r → Fp r) :
    inner as (xs.map fun x => f x * c) = inner as (xs.map f) * c := by
  induction as generalizing xs with
  | nil => simp only [inner, List.zipWith_nil_left, List.sum_nil, zero_mul]
  | cons a as ih =>
    cases xs with
    | nil => simp only [List.map_nil, inner, List.zipWith_nil_right, List.sum_nil, zero_mul]
    | cons x xs =>
      rw [List.map_cons, List.map_cons, inner_cons', inner_cons', ih]
      ring

/-- What the library provides of a pairing engine. -/
structure GrothEngine (C1 : Params L) (C2 : Params F) (r : ℕ) [Fact r.Prime] [Fact (OddModulus r)] [Fp.SmallModulus r] (g : Aff L) (h : Aff F)
    (pairing : Aff L → Aff F → Option K) (multi : List (Aff L × Aff F) → Option K) : Prop where
  good1 : Good C1
  good2 : Good C2
  gen1 : ∃ G, ARep C1 g G ∧ addOrderOf G = r ∧ ∀ p : Pt C1, r • p = 0 ↔ ∃ k < r, p = k • G
  gen2 : ∃ H, ARep C2 h H ∧ addOrderOf H = r ∧ ∀ p : Pt C2, r • p = 0 ↔ ∃ k < r, p = k • H
  claim : PairingClaim C1 C2 r pairing multi
  check : CheckClaim C1 C2 r g h pairing multi

/-- Every point of the group is a multiple of the generator by exactly one scalar. -/
theorem exists_pt (hC : Good C1) (hg : ∃ G, ARep C1 g G ∧ addOrderOf G = r ∧ ∀ p : Pt C1, r • p = 0 ↔ ∃ k < r, p = k • G) {A : Aff L}
    (hA : InGroup C1 r A) : ∃ a : Fp r, A = pt C1 g a := by
  obtain ⟨G, hG, ho, hall⟩ := hg
  obtain ⟨P, hP, hr⟩ := hA
  obtain ⟨k, hk, rfl⟩ := (hall P).mp hr
  refine ⟨((k : ℕ) : Fp r), (hP.ext_iff hC (C23_mul hC PRep.identity hG _).2.toAffine).mpr ?_⟩
  rw [Fp.toNat_natCast, Nat.mod_eq_of_lt hk]

theorem pt_inGroup (hC : Good C1) (hg : ∃ G, ARep C1 g G ∧ addOrderOf G = r ∧ ∀ p : Pt C1, r • p = 0 ↔ ∃ k < r, p = k • G) (a : Fp r) :
    InGroup C1 r (pt C1 g a) := by
  obtain ⟨G, hG, ho, hall⟩ := hg
  have hr : r • G = 0 := by rw [← ho]; exact addOrderOf_nsmul_eq_zero G
  exact ⟨_, (C23_mul hC PRep.identity hG a).2.toAffine, by rw [smul_comm, hr, smul_zero]⟩

namespace GrothEngine

variable (E : GrothEngine C1 C2 r g h pairing multi)
include E

/-- The product of pairings, without a panic. -/
theorem product (l : List (Fp r × Fp r)) :
    ∃ z, multi (l.map fun t => (pt C1 g t.1, pt C2 h t.2)) = some z ∧ (z = 1 ↔ (l.map fun t => t.1 * t.2).sum = 0) := by
  have hz : ∀ l : List (Fp r × Fp r), ∃ zs, List.Forall₂ (fun t z => InGroup C1 r t.1 ∧ InGroup C2 r t.2 ∧ pairing t.1 t.2 = some z)
      (l.map fun t => (pt C1 g t.1, pt C2 h t.2)) zs := by
    intro l
    induction l with
    | nil => exact ⟨[], .nil⟩
    | cons t l ih =>
      obtain ⟨zs, hzs⟩ := ih
      have h1 := pt_inGroup E.good1 E.gen1 t.1
      have h2 := pt_inGroup E.good2 E.gen2 t.2
      obtain ⟨z, e, -⟩ := E.claim.total _ _ h1 h2
      exact ⟨z :: zs, .cons ⟨h1, h2, e⟩ hzs⟩
  obtain ⟨zs, hzs⟩ := hz l
  have e := E.claim.multi _ _ hzs
  refine ⟨_, e, ?_⟩
  have hp : multi (l.map fun t => (pt C1 g t.1, pt C2 h t.2)) = some 1 ↔ (l.map fun t => t.1 * t.2).sum = 0 := E.check.product l
  rw [e, Option.some.injEq] at hp
  exact hp

theorem setup_eq (Q : Qap r) (T : Trapdoor r) : grothSetup C1 C2 g h Q T = if T.gamma = 0 ∨ T.delta = 0 then none else some
    { alpha := pt C1 g T.alpha, beta1 := pt C1 g T.beta, delta1 := pt C1 g T.delta,
      us := (Q.pub ++ Q.priv).map fun x => pt C1 g (shareAt x.u T.tau),
      vs1 := (Q.pub ++ Q.priv).map fun x => pt C1 g (shareAt x.v T.tau),
      ls := Q.priv.map fun x => pt C1 g (T.term x * T.delta⁻¹),
      hs := (powersFrom T.tau Q.n (shareAt Q.t T.tau * T.delta⁻¹)).map (pt C1 g),
      ic := Q.pub.map fun x => pt C1 g (T.term x * T.gamma⁻¹),
      beta2 := pt C2 h T.beta, gamma2 := pt C2 h T.gamma, delta2 := pt C2 h T.delta,
      vs2 := (Q.pub ++ Q.priv).map fun x => pt C2 h (shareAt x.v T.tau) } := by
  rw [grothSetup, invert_eq, invert_eq]
  by_cases h1 : T.gamma = 0
  · rw [if_pos h1, if_pos (Or.inl h1 : T.gamma = 0 ∨ T.delta = 0)]; rfl
  · by_cases h2 : T.delta = 0
    · rw [if_neg h1, if_pos h2, if_pos (Or.inr h2 : T.gamma = 0 ∨ T.delta = 0)]; rfl
    · rw [if_neg h1, if_neg h2, if_neg (not_or.mpr ⟨h1, h2⟩)]; rfl

theorem setup_some {Q : Qap r} {T : Trapdoor r} {key : GrothKey L F} (hk : grothSetup C1 C2 g h Q T = some key) :
    T.gamma ≠ 0 ∧ T.delta ≠ 0 ∧ key =
    { alpha := pt C1 g T.alpha, beta1 := pt C1 g T.beta, delta1 := pt C1 g T.delta,
      us := (Q.pub ++ Q.priv).map fun x => pt C1 g (shareAt x.u T.tau),
      vs1 := (Q.pub ++ Q.priv).map fun x => pt C1 g (shareAt x.v T.tau),
      ls := Q.priv.map fun x => pt C1 g (T.term x * T.delta⁻¹),
      hs := (powersFrom T.tau Q.n (shareAt Q.t T.tau * T.delta⁻¹)).map (pt C1 g),
      ic := Q.pub.map fun x => pt C1 g (T.term x * T.gamma⁻¹),
      beta2 := pt C2 h T.beta, gamma2 := pt C2 h T.gamma, delta2 := pt C2 h T.delta,
      vs2 := (Q.pub ++ Q.priv).map fun x => pt C2 h (shareAt x.v T.tau) } := by
  rw [E.setup_eq] at hk
  by_cases h1 : T.gamma = 0 ∨ T.delta = 0
  · rw [if_pos h1] at hk; cases hk
  · rw [if_neg h1] at hk
    exact ⟨fun e => h1 (.inl e), fun e => h1 (.inr e), (Option.some.inj hk).symm⟩

theorem verify_eq {Q : Qap r} {T : Trapdoor r} {key : GrothKey L F} (hk : grothSetup C1 C2 g h Q T = some key)
    {msm1 : List (List ℕ) → List (Aff L) → Option (Proj L)} (hm : IsMsm C1 r msm1) (x : List (Fp r)) (hx : x.length + 1 = Q.pub.length)
    (h32 : Q.pub.length < 2 ^ 32) (a b d : Fp r) :
    grothVerify msm1 multi key x (pt C1 g a) (pt C2 h b) (pt C1 g d) =
      some (decide (a * b = T.alpha * T.beta + inner (1 :: x) (Q.pub.map T.term) + d * T.delta)) := by
  obtain ⟨hg0, hd0, rfl⟩ := E.setup_some hk
  obtain ⟨G, hG, ho, hall⟩ := E.gen1
  have hr : r • G = 0 := by rw [← ho]; exact addOrderOf_nsmul_eq_zero G
  obtain ⟨R, e, hR⟩ := msm_pt E.good1 hm hG hr (1 :: x) (Q.pub.map fun x => T.term x * T.gamma⁻¹)
    (by rw [List.length_cons, List.length_map, hx]) (by rwa [List.length_map])
  rw [List.map_map] at e
  have e' : msm1 ((1 :: x).map Fp.toRepr) (Q.pub.map fun x => pt C1 g (T.term x * T.gamma⁻¹)) = some R := e
  rw [grothVerify]
  dsimp only
  rw [e', Option.bind_eq_bind, Option.bind_some, hR, pt_neg E.good1 hG hr, pt_neg E.good1 hG hr, pt_neg E.good1 hG hr]
  obtain ⟨z, ez, hz⟩ := E.product [(a, b), (-T.alpha, T.beta), (-inner (1 :: x) (Q.pub.map fun x => T.term x * T.gamma⁻¹), T.gamma), (-d, T.delta)]
  simp only [List.map_cons, List.map_nil] at ez
  rw [ez, Option.bind_eq_bind, Option.bind_some, Option.some.injEq, decide_eq_decide, hz]
  simp only [List.map_cons, List.map_nil, List.sum_cons, List.sum_nil]
  rw [inner_mul_right T.gamma⁻¹ (1 :: x) Q.pub T.term, ← sub_eq_zero (a := a * b)]
  have hgg : inner (1 :: x) (Q.pub.map T.term) * T.gamma⁻¹ * T.gamma = inner (1 :: x) (Q.pub.map T.term) := by
    rw [mul_assoc, inv_mul_cancel₀ hg0, mul_one]
  have hh : a * b + (-T.alpha * T.beta + (-(inner (1 :: x) (Q.pub.map T.term) * T.gamma⁻¹) * T.gamma + (-d * T.delta + 0))) =
      a * b - (T.alpha * T.beta + inner (1 :: x) (Q.pub.map T.term) + d * T.delta) := by
    linear_combination -hgg
  rw [hh]

/-- The value of the left combination. -/
theorem prove_eq {Q : Qap r} {T : Trapdoor r} {key : GrothKey L F} (hk : grothSetup C1 C2 g h Q T = some key)
    {msm1 : List (List ℕ) → List (Aff L) → Option (Proj L)} (hm1 : IsMsm C1 r msm1)
    {msm2 : List (List ℕ) → List (Aff F) → Option (Proj F)} (hm2 : IsMsm C2 r msm2) (x w q : List (Fp r)) (hf : Q.Fits x w q) (a b : Fp r) :
    ∃ A B D : Fp r, grothProve msm1 msm2 key x w q a b = some (pt C1 g A, pt C2 h B, pt C1 g D) ∧
      A = T.alpha + inner (1 :: x ++ w) ((Q.pub ++ Q.priv).map fun x => shareAt x.u T.tau) + a * T.delta ∧
      B = T.beta + inner (1 :: x ++ w) ((Q.pub ++ Q.priv).map fun x => shareAt x.v T.tau) + b * T.delta ∧
      A * B - (T.alpha * T.beta + inner (1 :: x) (Q.pub.map T.term) + D * T.delta) = (Q.defect x w q).eval T.tau := by
  obtain ⟨hg0, hd0, rfl⟩ := E.setup_some hk
  clear hk
  obtain ⟨G, hG, ho, hall⟩ := E.gen1
  have hr : r • G = 0 := by rw [← ho]; exact addOrderOf_nsmul_eq_zero G
  obtain ⟨H, hH, ho2, hall2⟩ := E.gen2
  have hr2 : r • H = 0 := by rw [← ho2]; exact addOrderOf_nsmul_eq_zero H
  have h1 := hf.pub
  have h2 := hf.priv
  have h3 := hf.quot
  have h4 := hf.small
  have hvl : (1 :: x ++ w).length = (Q.pub ++ Q.priv).length := by
    rw [List.length_append, List.length_append, List.length_cons, h1, h2]
  have lin1 : ∀ (c e : Fp r) (f : QapVar r → Fp r), inner (1 :: ((1 :: x ++ w) ++ [e])) (c :: ((Q.pub ++ Q.priv).map f ++ [T.delta])) =
      c + inner (1 :: x ++ w) ((Q.pub ++ Q.priv).map f) + e * T.delta := by
    intro c e f
    rw [inner_cons', inner_append _ _ _ _ (by rw [List.length_map, hvl]), inner_cons', inner_nil]
    ring
  have len1 : ∀ (c e : Fp r) (f : QapVar r → Fp r), (1 :: ((1 :: x ++ w) ++ [e])).length = (c :: ((Q.pub ++ Q.priv).map f ++ [T.delta])).length := by
    intro c e f
    simp only [List.length_cons, List.length_append, List.length_map, List.length_nil] at hvl ⊢
    omega
  have sm1 : ∀ (c : Fp r) (f : QapVar r → Fp r), (c :: ((Q.pub ++ Q.priv).map f ++ [T.delta])).length < 2 ^ 32 := by
    intro c f
    rw [List.length_cons, List.length_append, List.length_map, List.length_append, List.length_singleton]
    omega
  obtain ⟨RA, eA, hA⟩ := msm_pt E.good1 hm1 hG hr _ _ (len1 T.alpha a fun x => shareAt x.u T.tau) (sm1 _ _)
  obtain ⟨RB1, eB1, hB1⟩ := msm_pt E.good1 hm1 hG hr _ _ (len1 T.beta b fun x => shareAt x.v T.tau) (sm1 _ _)
  obtain ⟨RB, eB, hB⟩ := msm_pt E.good2 hm2 hH hr2 _ _ (len1 T.beta b fun x => shareAt x.v T.tau) (sm1 _ _)
  rw [lin1] at hA hB1 hB
  rw [List.map_cons (f := pt C1 g), List.map_append (f := pt C1 g), List.map_map] at eA eB1
  rw [List.map_cons (f := pt C2 h), List.map_append (f := pt C2 h), List.map_map] at eB
  generalize hAe : T.alpha + inner (1 :: x ++ w) ((Q.pub ++ Q.priv).map fun x => shareAt x.u T.tau) + a * T.delta = A at hA
  generalize hBe : T.beta + inner (1 :: x ++ w) ((Q.pub ++ Q.priv).map fun x => shareAt x.v T.tau) + b * T.delta = B at hB hB1
  have hpl : ∀ (n : ℕ) (acc : Fp r), (powersFrom T.tau n acc).length = n := by
    intro n
    induction n with
    | zero => intro acc; rfl
    | succ n ih => intro acc; rw [powersFrom, List.length_cons, ih]
  obtain ⟨RD, eD, hD⟩ := msm_pt E.good1 hm1 hG hr (w ++ (q ++ [b, a, -(a * b)]))
    ((Q.priv.map fun x => T.term x * T.delta⁻¹) ++ (powersFrom T.tau Q.n (shareAt Q.t T.tau * T.delta⁻¹) ++ [A, B, T.delta]))
    (by simp only [List.length_append, List.length_map, List.length_cons, List.length_nil, hpl, h2, h3])
    (by simp only [List.length_append, List.length_map, List.length_cons, List.length_nil, hpl]; omega)
  rw [List.map_append (f := pt C1 g), List.map_append (f := pt C1 g), List.map_map] at eD
  refine ⟨A, B, inner (w ++ (q ++ [b, a, -(a * b)])) ((Q.priv.map fun x => T.term x * T.delta⁻¹) ++
    (powersFrom T.tau Q.n (shareAt Q.t T.tau * T.delta⁻¹) ++ [A, B, T.delta])), ?_, rfl, rfl, ?_⟩
  rotate_left 1
  · rw [inner_append _ _ _ _ (by rw [List.length_map, h2]), inner_append _ _ _ _ (by rw [hpl, h3]), inner_cons', inner_cons', inner_cons', inner_nil,
      inner_mul_right T.delta⁻¹ w Q.priv T.term, inner_swap q, ← h3, inner_powers]
    have hall := inner_term T (1 :: x ++ w) (Q.pub ++ Q.priv)
    rw [List.map_append, inner_append _ _ _ _ (by rw [List.length_map, List.length_cons, h1])] at hall
    rw [Qap.defect, eval_sub, eval_sub, eval_mul, eval_mul, eval_combPoly, eval_combPoly, eval_combPoly, eval_sharePoly, eval_sharePoly,
      List.map_map, List.map_map, List.map_map]
    simp only [Function.comp_def]
    rw [← hAe, ← hBe]
    have hdd : T.delta⁻¹ * T.delta = 1 := inv_mul_cancel₀ hd0
    generalize inner (1 :: x ++ w) ((Q.pub ++ Q.priv).map fun x => shareAt x.u T.tau) = U at *
    generalize inner (1 :: x ++ w) ((Q.pub ++ Q.priv).map fun x => shareAt x.v T.tau) = V at *
    generalize inner (1 :: x ++ w) ((Q.pub ++ Q.priv).map fun x => shareAt x.w T.tau) = W at *
    generalize inner (1 :: x) (Q.pub.map T.term) = P at *
    generalize inner w (Q.priv.map T.term) = PW at *
    generalize shareAt Q.t T.tau = tt at *
    generalize shareAt q T.tau = qq at *
    linear_combination -hall - (PW + tt * qq) * hdd
  · rw [grothProve]
    dsimp only
    erw [eA, Option.bind_eq_bind, Option.bind_some, eB1, Option.bind_eq_bind, Option.bind_some, eB, Option.bind_some, hA, hB1, eD, Option.bind_some,
      hB, hD]

end GrothEngine

variable (E : GrothEngine C1 C2 r g h pairing multi)
include E

/-- **C103** The setup fails exactly when `gamma` or `delta` is zero. -/
theorem C103_setup (Q : Qap r) (T : Trapdoor r) : grothSetup C1 C2 g h Q T = none ↔ T.gamma = 0 ∨ T.delta = 0 := by
  rw [E.setup_eq]
  by_cases h1 : T.gamma = 0 ∨ T.delta = 0
  · rw [if_pos h1]; exact ⟨fun _ => h1, fun _ => rfl⟩
  · rw [if_neg h1]; exact ⟨(fun e => nomatch e), fun e => absurd e h1⟩

variable {Q : Qap r} {T : Trapdoor r} {key : GrothKey L F} (hk : grothSetup C1 C2 g h Q T = some key)
  {msm1 : List (List ℕ) → List (Aff L) → Option (Proj L)} (hm1 : IsMsm C1 r msm1)
  {msm2 : List (List ℕ) → List (Aff F) → Option (Proj F)} (hm2 : IsMsm C2 r msm2)
include hk hm1

/-- **C103** The verifier does not panic on points of the groups, each of which is a multiple of the generator by exactly one scalar, and
accepts exactly when the equation of the scalars holds. -/
theorem C103_verify (x : List (Fp r)) (hx : x.length + 1 = Q.pub.length) (h32 : Q.pub.length < 2 ^ 32) :
    (∀ A, InGroup C1 r A → ∃! a : Fp r, A = pt C1 g a) ∧ (∀ B, InGroup C2 r B → ∃! b : Fp r, B = pt C2 h b) ∧
    ∀ a b d : Fp r, grothVerify msm1 multi key x (pt C1 g a) (pt C2 h b) (pt C1 g d) =
      some (decide (a * b = T.alpha * T.beta + inner (1 :: x) (Q.pub.map T.term) + d * T.delta)) := by
  obtain ⟨G, hG, ho, hall⟩ := E.gen1
  obtain ⟨H, hH, ho2, hall2⟩ := E.gen2
  refine ⟨fun A hA => ?_, fun B hB => ?_, E.verify_eq hk hm1 x hx h32⟩
  · obtain ⟨a, rfl⟩ := exists_pt E.good1 E.gen1 hA
    exact ⟨a, rfl, fun a' e => (pt_inj E.good1 hG ho e).symm⟩
  · obtain ⟨b, rfl⟩ := exists_pt E.good2 E.gen2 hB
    exact ⟨b, rfl, fun b' e => (pt_inj E.good2 hH ho2 e).symm⟩

/-- **C103** Whoever knows the secrets of the setup can prove everything: to any public values and points `A`, `B` there is exactly one
point that makes an accepted proof. -/
theorem C103_trapdoor (x : List (Fp r)) (hx : x.length + 1 = Q.pub.length) (h32 : Q.pub.length < 2 ^ 32) (A : Aff L) (B : Aff F)
    (hA : InGroup C1 r A) (hB : InGroup C2 r B) : ∃! D, InGroup C1 r D ∧ grothVerify msm1 multi key x A B D = some true := by
  obtain ⟨-, hd0, -⟩ := E.setup_some hk
  obtain ⟨a, rfl⟩ := exists_pt E.good1 E.gen1 hA
  obtain ⟨b, rfl⟩ := exists_pt E.good2 E.gen2 hB
  refine ⟨pt C1 g ((a * b - (T.alpha * T.beta + inner (1 :: x) (Q.pub.map T.term))) * T.delta⁻¹), ⟨pt_inGroup E.good1 E.gen1 _, ?_⟩, ?_⟩
  · rw [E.verify_eq hk hm1 x hx h32, Option.some.injEq, decide_eq_true_iff, mul_assoc, inv_mul_cancel₀ hd0, mul_one]
    ring
  · rintro D ⟨hD, e⟩
    obtain ⟨d, rfl⟩ := exists_pt E.good1 E.gen1 hD
    rw [E.verify_eq hk hm1 x hx h32, Option.some.injEq, decide_eq_true_iff] at e
    congr 1
    rw [eq_mul_inv_iff_mul_eq₀ hd0, e]
    ring

/-- **C103** Proofs can be altered: the first two points times a non-zero scalar and its inverse are accepted exactly when they are. -/
theorem C103_alter (x : List (Fp r)) (hx : x.length + 1 = Q.pub.length) (h32 : Q.pub.length < 2 ^ 32) (A D : Aff L) (B : Aff F)
    (hA : InGroup C1 r A) (hB : InGroup C2 r B) (hD : InGroup C1 r D) (s : Fp r) (hs : s ≠ 0) :
    grothVerify msm1 multi key x (pt C1 A s) (pt C2 B s⁻¹) D = grothVerify msm1 multi key x A B D := by
  obtain ⟨G, hG, ho, hall⟩ := E.gen1
  obtain ⟨H, hH, ho2, hall2⟩ := E.gen2
  obtain ⟨a, rfl⟩ := exists_pt E.good1 E.gen1 hA
  obtain ⟨b, rfl⟩ := exists_pt E.good2 E.gen2 hB
  obtain ⟨d, rfl⟩ := exists_pt E.good1 E.gen1 hD
  rw [pt_pt E.good1 hG ho, pt_pt E.good2 hH ho2, E.verify_eq hk hm1 x hx h32, E.verify_eq hk hm1 x hx h32, mul_mul_mul_comm,
    mul_inv_cancel₀ hs, mul_one]

include hm2

/-- **C103** The prover does not panic, and its proof is accepted exactly when the equation of the program holds at the secret point; in
particular when it holds for the polynomials. -/
theorem C103_prove (x w q : List (Fp r)) (hf : Q.Fits x w q) (a b : Fp r) :
    ∃ A B D, grothProve msm1 msm2 key x w q a b = some (A, B, D) ∧ InGroup C1 r A ∧ InGroup C2 r B ∧ InGroup C1 r D ∧
      grothVerify msm1 multi key x A B D = some (decide ((Q.defect x w q).eval T.tau = 0)) ∧
      (Q.defect x w q = 0 → grothVerify msm1 multi key x A B D = some true) := by
  obtain ⟨A, B, D, e, -, -, hd⟩ := E.prove_eq hk hm1 hm2 x w q hf a b
  have hv := E.verify_eq hk hm1 x hf.pub (by have := hf.small; omega) A B D
  have hv' : grothVerify msm1 multi key x (pt C1 g A) (pt C2 h B) (pt C1 g D) = some (decide ((Q.defect x w q).eval T.tau = 0)) := by
    rw [hv, Option.some.injEq, decide_eq_decide, ← hd, sub_eq_zero]
  refine ⟨_, _, _, e, pt_inGroup E.good1 E.gen1 _, pt_inGroup E.good2 E.gen2 _, pt_inGroup E.good1 E.gen1 _, hv', fun h0 => ?_⟩
  rw [hv', h0, eval_zero, decide_eq_true rfl]

/-- **C103** Proofs say nothing of the witness: of two witnesses for the same public values, any proof that the first gives with some
random scalars is given by the second with exactly one choice of them. -/
theorem C103_hiding (x w q w' q' : List (Fp r)) (hf : Q.Fits x w q) (hf' : Q.Fits x w' q') (h0 : Q.defect x w q = 0)
    (h0' : Q.defect x w' q' = 0) (a b : Fp r) :
    ∃! s : Fp r × Fp r, grothProve msm1 msm2 key x w' q' s.1 s.2 = grothProve msm1 msm2 key x w q a b := by
  obtain ⟨-, hd0, -⟩ := E.setup_some hk
  obtain ⟨G, hG, ho, hall⟩ := E.gen1
  obtain ⟨H, hH, ho2, hall2⟩ := E.gen2
  obtain ⟨A, B, D, e, hA, hB, hd⟩ := E.prove_eq hk hm1 hm2 x w q hf a b
  have key' : ∀ a' b', grothProve msm1 msm2 key x w' q' a' b' = grothProve msm1 msm2 key x w q a b ↔
      T.alpha + inner (1 :: x ++ w') ((Q.pub ++ Q.priv).map fun x => shareAt x.u T.tau) + a' * T.delta = A ∧
      T.beta + inner (1 :: x ++ w') ((Q.pub ++ Q.priv).map fun x => shareAt x.v T.tau) + b' * T.delta = B := by
    intro a' b'
    obtain ⟨A', B', D', e', hA', hB', hd'⟩ := E.prove_eq hk hm1 hm2 x w' q' hf' a' b'
    rw [e, e', ← hA', ← hB', Option.some.injEq, Prod.mk.injEq, Prod.mk.injEq]
    constructor
    · rintro ⟨h1, h2, -⟩
      exact ⟨pt_inj E.good1 hG ho h1, pt_inj E.good2 hH ho2 h2⟩
    · rintro ⟨h1, h2⟩
      have h3 : D' = D := by
        rw [h0, eval_zero] at hd
        rw [h0', eval_zero, h1, h2] at hd'
        refine mul_right_cancel₀ hd0 ?_
        linear_combination hd - hd'
      rw [h1, h2, h3]
      exact ⟨rfl, rfl, rfl⟩
  refine ⟨((A - T.alpha - inner (1 :: x ++ w') ((Q.pub ++ Q.priv).map fun x => shareAt x.u T.tau)) * T.delta⁻¹,
    (B - T.beta - inner (1 :: x ++ w') ((Q.pub ++ Q.priv).map fun x => shareAt x.v T.tau)) * T.delta⁻¹), (key' _ _).mpr ⟨?_, ?_⟩, ?_⟩
  · rw [mul_assoc, inv_mul_cancel₀ hd0]; ring
  · rw [mul_assoc, inv_mul_cancel₀ hd0]; ring
  · rintro ⟨a', b'⟩ hs
    obtain ⟨h1, h2⟩ := (key' a' b').mp hs
    refine Prod.ext ?_ ?_
    · change a' = _
      rw [eq_mul_inv_iff_mul_eq₀ hd0, ← h1]; ring
    · change b' = _
      rw [eq_mul_inv_iff_mul_eq₀ hd0, ← h2]; ring

omit hk in
/-- **C103** With values that do not satisfy the program, the proof of the prover is accepted for at most as many secret points as the
degree of the difference of the two sides. -/
theorem C103_wrong (al be ga de : Fp r) (x w q : List (Fp r)) (hf : Q.Fits x w q) (h0 : Q.defect x w q ≠ 0) (a b : Fp r) :
    {tau : Fp r | ∃ key A B D, grothSetup C1 C2 g h Q ⟨al, be, ga, de, tau⟩ = some key ∧ grothProve msm1 msm2 key x w q a b = some (A, B, D) ∧
      grothVerify msm1 multi key x A B D = some true}.ncard ≤ (Q.defect x w q).natDegree := by
  have hs : {tau : Fp r | ∃ key A B D, grothSetup C1 C2 g h Q ⟨al, be, ga, de, tau⟩ = some key ∧
      grothProve msm1 msm2 key x w q a b = some (A, B, D) ∧ grothVerify msm1 multi key x A B D = some true} ⊆
      ((Q.defect x w q).roots.toFinset : Set (Fp r)) := by
    rintro tau ⟨key, A, B, D, hk, hp, hv⟩
    obtain ⟨A', B', D', e, -, -, -, hv', -⟩ := C103_prove E hk hm1 hm2 x w q hf a b
    rw [e] at hp
    cases hp
    rw [hv', Option.some.injEq, decide_eq_true_iff] at hv
    rw [Finset.mem_coe, Multiset.mem_toFinset, mem_roots h0]
    exact hv
  refine (Set.ncard_le_ncard hs (Finset.finite_toSet _)).trans ?_
  rw [Set.ncard_coe_finset]
  exact (Multiset.toFinset_card_le _).trans (card_roots' _)

end Spec

/-- **C103** The engines of the library. -/
theorem C103_engines :
    GrothEngine Bn256.g1 Bn256.g2 bnR Bn256.g1Gen Bn256.g2Gen Bn256.pairing (fun ts => Bn256.finalExp (Bn256.multiMillerLoop ts)) ∧
    GrothEngine Bls12381.g1 Bls12381.g2 blsR Bls12381.g1Gen Bls12381.g2Gen Bls12381.pairing
      (fun ts => Bls12381.finalExp (Bls12381.multiMillerLoop ts)) ∧
    GrothEngine Pluto.g1 Pluto.g2 plQ Pluto.g1Gen Pluto.g2Gen Pluto.pairing (fun ts => Pluto.finalExp (Pluto.multiMillerLoop ts)) :=
  ⟨⟨Bn256.g1_good, Bn256.g2_good, C44_orders.1.gen, C44_orders.2.2.2.2.2.2.2.1.gen, C49_bn256, C64_bn256⟩,
    ⟨Bls12381.g1_good, Bls12381.g2_good, C44_orders.2.2.2.2.2.2.2.2.2.1.gen, C44_orders.2.2.2.2.2.2.2.2.2.2.gen, C49_bls12381, C64_bls12381⟩,
    ⟨Pluto.g1_good, Pluto.g2_good, C44_orders.2.2.1.gen, C44_orders.2.2.2.2.2.2.2.2.1.gen, C49_pluto, C64_pluto⟩⟩

/-- The program `x · x = y` with one public and one private variable, on a domain with one point. -/
def squareQap (r : ℕ) [Fact (OddModulus r)] [Fact r.Prime] [Fp.SmallModulus r] : Qap r where
  pub := [⟨[], [], []⟩, ⟨[], [], [1]⟩]
  priv := [⟨[1], [1], []⟩]
  t := [-1, 1]
  n := 1

/-- Both roots of 9 satisfy it, 4 does not: the hypotheses of C103 can be met. -/
example : (squareQap bnR).Fits [9] [3] [0] ∧ (squareQap bnR).defect [9] [3] [0] = 0 ∧ (squareQap bnR).Fits [9] [-3] [0] ∧
    (squareQap bnR).defect [9] [-3] [0] = 0 ∧ (squareQap bnR).defect [9] [4] [0] ≠ 0 := by
  have h : ∀ x y : Fp bnR, (squareQap bnR).defect [y] [x] [0] = C (x * x - y) := by
    intro x y
    simp [Qap.defect, squareQap, combPoly, sharePoly, C_sub, C_mul]
  refine ⟨⟨rfl, rfl, rfl, by decide⟩, ?_, ⟨rfl, rfl, rfl, by decide⟩, ?_, ?_⟩
  · rw [h, show (3 : Fp bnR) * 3 - 9 = 0 by norm_num, C_0]
  · rw [h, show (-3 : Fp bnR) * -3 - 9 = 0 by norm_num, C_0]
  · rw [h, show (4 : Fp bnR) * 4 - 9 = 7 by norm_num, Ne, C_eq_zero]
    decide +kernel

/-- A proof that 9 is a square, over bn256 with `msm_serial`: accepted with every setup. -/
example (T : Trapdoor bnR) (hg : T.gamma ≠ 0) (hd : T.delta ≠ 0) (a b : Fp bnR) {ln : ℕ → ℕ} (hln : LnCeilOk ln) :
    ∃ key A B D, grothSetup Bn256.g1 Bn256.g2 Bn256.g1Gen Bn256.g2Gen (squareQap bnR) T = some key ∧
      grothProve (fun ks bases => msmSerial Bn256.g1 ln ((numBits bnR + 7) / 8) ks bases Proj.identity)
        (fun ks bases => msmSerial Bn256.g2 ln ((numBits bnR + 7) / 8) ks bases Proj.identity) key [9] [3] [0] a b = some (A, B, D) ∧
      grothVerify (fun ks bases => msmSerial Bn256.g1 ln ((numBits bnR + 7) / 8) ks bases Proj.identity)
        (fun ts => Bn256.finalExp (Bn256.multiMillerLoop ts)) key [(9 : Fp bnR)] A B D = some true := by
  have E := C103_engines.1
  cases hk : grothSetup Bn256.g1 Bn256.g2 Bn256.g1Gen Bn256.g2Gen (squareQap bnR) T with
  | none => exact absurd ((C103_setup E _ T).mp hk) (not_or.mpr ⟨hg, hd⟩)
  | some key =>
    have h0 : (squareQap bnR).defect [9] [3] [0] = 0 := by
      rw [show (squareQap bnR).defect [9] [3] [0] = C (3 * 3 - 9) by simp [Qap.defect, squareQap, combPoly, sharePoly],
        show (3 : Fp bnR) * 3 - 9 = 0 by norm_num, C_0]
    obtain ⟨A, B, D, e, -, -, -, -, hv⟩ := C103_prove E hk (C88_msm E.good1 hln).1 (C88_msm E.good2 hln).1 [9] [3] [0]
      ⟨rfl, rfl, rfl, by decide⟩ a b
    exact ⟨key, A, B, D, rfl, e, hv h0⟩

end Halo2.Props
