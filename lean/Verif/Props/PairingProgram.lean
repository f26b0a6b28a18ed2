import Verif.Pairing.Program
import Verif.Props.Program
import Verif.Props.PairingCheck
import Verif.Props.Pairing
import Verif.Props.Select

/-!
# C74: programs over a pairing engine compute with exponents

Points of the two groups of order `r` are multiples of the generators and elements of the target group are powers of the
pairing of the generators. A program over the engine does linear algebra on the exponents, and the pairing multiplies them.
-/

set_option linter.unusedSectionVars false

namespace Halo2.Props

open Halo2 Halo2.Field Halo2.Prime Halo2.Ext Halo2.Curve Halo2.Msm Halo2.Pairing Halo2.Program

/-- The registers with exponents. -/
structure ESt (r : ℕ) where
  sc : ℕ → ZMod r
  p1 : ℕ → ZMod r
  a1 : ℕ → ZMod r
  p2 : ℕ → ZMod r
  a2 : ℕ → ZMod r
  gt : ℕ → ZMod r
  out : List Out

variable {L F T : Type} {r : ℕ} [Fact r.Prime]

/-- The exponents of the first group. -/
def ESt.left (t : ESt r) : ASt (ZMod r) r := ⟨t.sc, t.p1, t.a1, t.out⟩

/-- The exponents of the second group. -/
def ESt.right (t : ESt r) : ASt (ZMod r) r := ⟨t.sc, t.p2, t.a2, t.out⟩

/-- The meaning of one call: `pairing` multiplies exponents, `multi_miller_loop` adds the products. -/
def estep (V1 : View L (ZMod r)) (V2 : View F (ZMod r)) (t : ESt r) : POp L F → ESt r
  | .g1 o => let u := astep V1 t.left o; { t with sc := u.sc, p1 := u.pj, a1 := u.af, out := u.out }
  | .g2 o => let u := astep V2 t.right o; { t with sc := u.sc, p2 := u.pj, a2 := u.af, out := u.out }
  | .pairing d a b => { t with gt := set t.gt d (t.a1 a * t.a2 b) }
  | .multi d l => { t with gt := set t.gt d (l.map fun x => t.a1 x.1 * t.a2 x.2).sum }
  | .tIdentity d => { t with gt := set t.gt d 0 }
  | .tAdd d a b => { t with gt := set t.gt d (t.gt a + t.gt b) }
  | .tSub d a b => { t with gt := set t.gt d (t.gt a - t.gt b) }
  | .tNeg d a => { t with gt := set t.gt d (-t.gt a) }
  | .tDouble d a => { t with gt := set t.gt d (2 * t.gt a) }
  | .tMul d a k => { t with gt := set t.gt d (t.sc k * t.gt a) }
  | .tSum d l => { t with gt := set t.gt d (l.map t.gt).sum }

/-- The meaning of a comparison. -/
def etest (t : ESt r) : PTest → Bool
  | .g1 c => atest t.left c
  | .g2 c => atest t.right c
  | .eqT a b => decide (t.gt a = t.gt b)
  | .idT a => decide (t.gt a = 0)

/-- Output of the result of a comparison. -/
def eemit (t : ESt r) (b : Bool) : ESt r := { t with out := .bit b :: t.out }

variable [Field L] [DecidableEq L] [BaseField L] [LawfulBase L] {C1 : Params L}
  [Field F] [DecidableEq F] [BaseField F] [LawfulBase F] {C2 : Params F} [Field T]
  [Fact (OddModulus r)] [Fp.SmallModulus r]

/-- The points and target group elements in the registers are the multiples of `g`, `h` and the powers of `z` with the given
exponents. -/
structure PSim (g : Pt C1) (h : Pt C2) (z : T) (s : PSt L F T r) (t : ESt r) : Prop where
  left : ExpSim g s.left t.left
  right : ExpSim h s.right t.right
  gt : ∀ i, s.gt i = z ^ (t.gt i).val

/-- The conditions on single calls, as in C73. -/
def POpOk (C1 : Params L) (C2 : Params F) (r : ℕ) (g : Pt C1) (h : Pt C2) (log1 : L → L → ZMod r) (log2 : F → F → ZMod r) :
    POp L F → Prop
  | .g1 o => ExpOk C1 r g log1 o
  | .g2 o => ExpOk C2 r h log2 o
  | _ => True

theorem pow_val_add {z : T} (hz : z ^ r = 1) (a b : ZMod r) : z ^ (a + b).val = z ^ a.val * z ^ b.val := by
  have : NeZero r := ⟨(Fact.out : r.Prime).ne_zero⟩
  rw [ZMod.val_add, pow_natMod hz, pow_add]

theorem pow_val_mul {z : T} (hz : z ^ r = 1) (a b : ZMod r) : z ^ (a * b).val = z ^ (a.val * b.val) := by
  rw [ZMod.val_mul, pow_natMod hz]

theorem pow_val_zero (z : T) : z ^ (0 : ZMod r).val = 1 := by rw [ZMod.val_zero, pow_zero]

theorem pow_val_neg {z : T} (hz : z ^ r = 1) (a : ZMod r) : z ^ (-a).val = (z ^ a.val)⁻¹ := by
  apply eq_inv_of_mul_eq_one_left
  rw [← pow_val_add hz, neg_add_cancel, pow_val_zero]

theorem pow_val_sum {z : T} (hz : z ^ r = 1) (l : List (ZMod r)) : z ^ l.sum.val = (l.map fun a => z ^ a.val).prod := by
  induction l with
  | nil => exact pow_val_zero z
  | cons a l ih => rw [List.sum_cons, pow_val_add hz, ih, List.map_cons, List.prod_cons]

theorem pow_val_inj {z : T} (ho : orderOf z = r) (a b : ZMod r) : z ^ a.val = z ^ b.val ↔ a = b := by
  have : NeZero r := ⟨(Fact.out : r.Prime).ne_zero⟩
  have hz : z ^ r = 1 := by rw [← ho]; exact pow_orderOf_eq_one z
  refine ⟨fun e => ?_, fun e => by rw [e]⟩
  rw [← sub_eq_zero]
  have : z ^ (a - b).val = 1 := by
    rw [sub_eq_add_neg, pow_val_add hz, pow_val_neg hz, e, mul_inv_cancel₀]
    exact pow_ne_zero _ fun h0 => by
      rw [h0, zero_pow (Fact.out : r.Prime).ne_zero] at hz
      exact zero_ne_one hz
  rw [← orderOf_dvd_iff_pow_eq_one, ho] at this
  exact (ZMod.val_eq_zero _).mp (Nat.eq_zero_of_dvd_of_lt this (ZMod.val_lt _))

/-- What C74 says of an engine with generators `gA`, `hA`: any program over it, started with points and target group elements of
given exponents, never panics, needs as many steps as its meaning in exponents, and ends with points, target group elements and
output that correspond to the exponents of its meaning. -/
def ProgramClaim (E : Engine L F T) (C1 : Params L) (C2 : Params F) (r : ℕ) [Fact r.Prime] [Fact (OddModulus r)]
    (gA : Aff L) (hA : Aff F) : Prop :=
  ∃ (g : Pt C1) (h : Pt C2) (z : T), ARep C1 gA g ∧ ARep C2 hA h ∧ addOrderOf g = r ∧ addOrderOf h = r ∧ orderOf z = r ∧
    E.pairing gA hA = some z ∧
    ∀ (K1 : Codec L) (K2 : Codec F) (ln : ℕ → ℕ), LnCeilOk ln → ∀ (log1 : L → L → ZMod r) (log2 : F → F → ZMod r)
      (p : Prog (POp L F) PTest), p.All (POpOk C1 C2 r g h log1 log2) → ∀ (n : ℕ) (s : PSt L F T r) (t : ESt r), PSim g h z s t →
      let m := pureRun (estep (expView K1 C1 r g log1) (expView K2 C2 r h log2)) etest eemit n p t
      let c := run (pstep E K1 K2 C1 C2 ln ((numBits r + 7) / 8)) (ptest E) pemit n p s
      (m = none → c = none) ∧ (∀ t', m = some t' → ∃ s', c = some (.ok s') ∧ PSim g h z s' t')

theorem programClaim_of {E : Engine L F T} (h1 : Good C1) (h2 : Good C2) {gA : Aff L} {hA : Aff F}
    (hc : PairingClaim C1 C2 r E.pairing E.multi) {q : ℕ} (hgt : GtClaim E.square E.conj q r) (heq : ∀ a b, E.ctEq a b = true ↔ a = b)
    (hgA : InGroup C1 r gA) (hhA : InGroup C2 r hA) (hne : E.pairing gA hA ≠ some 1) : ProgramClaim E C1 C2 r gA hA := by
  have hr : r.Prime := Fact.out
  have : NeZero r := ⟨hr.ne_zero⟩
  obtain ⟨z, hz, ho⟩ := (checkClaim_of h1 h2 hr hc hgA hhA hne).order
  have hzr : z ^ r = 1 := by rw [← ho]; exact pow_orderOf_eq_one z
  have hnd := fun hh => hne ((hc.nondeg gA hA hgA hhA).mpr hh)
  obtain ⟨g, rg, kg⟩ := id hgA
  obtain ⟨h, rh, kh⟩ := id hhA
  have g0 : g ≠ 0 := fun e => hnd (.inl ((rg.isIdentity h1).mpr e))
  have h0 : h ≠ 0 := fun e => hnd (.inr ((rh.isIdentity h2).mpr e))
  have bytes : ∀ k : Fp r, IsBytes (Fp.toRepr k) ∧ leNat (Fp.toRepr k) = k.toZMod.val := fun k =>
    ⟨(Fp.toBytes_spec .LE k).2.1, (Fp.toBytes_spec .LE k).2.2⟩
  have in1 : ∀ {A : Aff L} {a : ZMod r}, ARep C1 A (a.val • g) → InGroup C1 r A := fun ha =>
    ⟨_, ha, by rw [smul_comm, kg, smul_zero]⟩
  have in2 : ∀ {A : Aff F} {a : ZMod r}, ARep C2 A (a.val • h) → InGroup C2 r A := fun ha =>
    ⟨_, ha, by rw [smul_comm, kh, smul_zero]⟩
  have pair : ∀ {A : Aff L} {B : Aff F} {a b : ZMod r}, ARep C1 A (a.val • g) → ARep C2 B (b.val • h) →
      E.pairing A B = some (z ^ (a * b).val) := by
    intro A B a b ha hb
    obtain ⟨a', rfl⟩ := Fp.toZMod_surjective a
    obtain ⟨b', rfl⟩ := Fp.toZMod_surjective b
    have e := hc.mul gA hA z _ _ hgA hhA (bytes a').1 (bytes b').1 hz
    rw [(bytes a').2, (bytes b').2] at e
    have e1 : (Aff.mul C1 gA (Fp.toRepr a')).toAffine = A :=
      ((C23_mul h1 PRep.identity rg a').2.toAffine.ext_iff h1 ha).mpr rfl
    have e2 : (Aff.mul C2 hA (Fp.toRepr b')).toAffine = B :=
      ((C23_mul h2 PRep.identity rh b').2.toAffine.ext_iff h2 hb).mpr rfl
    rw [e1, e2] at e
    rw [e, pow_val_mul hzr]
  refine ⟨g, h, z, rg, rh, addOrderOf_eq_prime kg g0, addOrderOf_eq_prime kh h0, ho, hz, ?_⟩
  intro K1 K2 ln hln log1 log2 p hp n s t hs
  refine run_sim (emit := pemit) (emit' := eemit) (R := PSim g h z) (P := POpOk C1 C2 r g h log1 log2) ?_ ?_ ?_ p hp n hs
  · intro s t o hs ho
    have gts : ∀ d v w, v = z ^ w.val → PSim g h z { s with gt := set s.gt d v } { t with gt := set t.gt d w } :=
      fun d v w e => ⟨hs.left, hs.right, set_rel (R := fun (x : T) (y : ZMod r) => x = z ^ y.val) hs.gt d e⟩
    have A1 : ∀ i, ARep C1 (s.a1 i) ((t.a1 i).val • g) := hs.left.af
    have A2 : ∀ i, ARep C2 (s.a2 i) ((t.a2 i).val • h) := hs.right.af
    cases o with
    | g1 o =>
      obtain ⟨u, e, hu⟩ := (C73_exponents K1 h1 hln kg g0 log1 (.op o) ho 1 hs.left).2 _ rfl
      have e : step K1 C1 ln ((numBits r + 7) / 8) s.left o = .ok u := Option.some.inj e
      refine ⟨{ s with sc := u.sc, p1 := u.pj, a1 := u.af, out := u.out }, ?_, hu, ⟨hu.sc, hs.right.pj, hs.right.af, hu.out⟩, hs.gt⟩
      rw [pstep, e]
    | g2 o =>
      obtain ⟨u, e, hu⟩ := (C73_exponents K2 h2 hln kh h0 log2 (.op o) ho 1 hs.right).2 _ rfl
      have e : step K2 C2 ln ((numBits r + 7) / 8) s.right o = .ok u := Option.some.inj e
      refine ⟨{ s with sc := u.sc, p2 := u.pj, a2 := u.af, out := u.out }, ?_, ⟨hu.sc, hs.left.pj, hs.left.af, hu.out⟩, hu, hs.gt⟩
      rw [pstep, e]
    | pairing d a b =>
      refine ⟨_, ?_, gts d _ _ rfl⟩
      rw [pstep, pair (A1 a) (A2 b)]
      rfl
    | multi d l =>
      clear ho
      have e := hc.multi (l.map fun x => (s.a1 x.1, s.a2 x.2)) (l.map fun x => z ^ (t.a1 x.1 * t.a2 x.2).val) (by
        induction l with
        | nil => exact .nil
        | cons x l ih => exact .cons ⟨in1 (A1 _), in2 (A2 _), pair (A1 _) (A2 _)⟩ ih)
      refine ⟨_, ?_, gts d _ _ (pow_val_sum hzr _).symm⟩
      rw [pstep, e, List.map_map]
      rfl
    | tIdentity d => exact ⟨_, rfl, gts d _ _ (pow_val_zero z).symm⟩
    | tAdd d a b =>
      refine ⟨_, rfl, gts d _ _ ?_⟩
      rw [pow_val_add hzr, hs.gt, hs.gt]
      rfl
    | tSub d a b =>
      refine ⟨_, rfl, gts d _ _ ?_⟩
      rw [hgt.sub_eq _ _ (by rw [hs.gt, ← pow_mul, mul_comm, pow_mul, hzr, one_pow]), sub_eq_add_neg, pow_val_add hzr, pow_val_neg hzr,
        hs.gt, hs.gt, div_eq_mul_inv]
    | tNeg d a =>
      refine ⟨_, rfl, gts d _ _ ?_⟩
      rw [hgt.neg_eq _ (by rw [hs.gt, ← pow_mul, mul_comm, pow_mul, hzr, one_pow]), pow_val_neg hzr, hs.gt]
    | tDouble d a =>
      refine ⟨_, rfl, gts d _ _ ?_⟩
      rw [hgt.double_eq, two_mul, pow_val_add hzr, hs.gt, pow_two]
    | tMul d a k =>
      refine ⟨_, rfl, gts d _ _ ?_⟩
      have hk : (s.sc k).toZMod = t.sc k := hs.left.sc k
      rw [hgt.mul_eq, Fp.toNat, hk, pow_val_mul hzr, hs.gt, ← pow_mul, mul_comm]
    | tSum d l =>
      refine ⟨_, rfl, gts d _ _ ?_⟩
      rw [hgt.sum_eq, pow_val_sum hzr, List.map_map]
      exact congrArg List.prod (List.map_congr_left fun i _ => hs.gt i)
  · intro s t c hs
    cases c with
    | g1 c =>
      have := (C73_exponents K1 h1 hln kg g0 log1 (.out c) trivial 1 hs.left).2 _ rfl
      obtain ⟨u, e, hu⟩ := this
      have e : emit s.left (test s.left c) = u := Outcome.ok.inj (Option.some.inj e)
      have o := hu.out
      rw [← e] at o
      exact Out.bit.inj (List.cons.inj o).1
    | g2 c =>
      have := (C73_exponents K2 h2 hln kh h0 log2 (.out c) trivial 1 hs.right).2 _ rfl
      obtain ⟨u, e, hu⟩ := this
      have e : emit s.right (test s.right c) = u := Outcome.ok.inj (Option.some.inj e)
      have o := hu.out
      rw [← e] at o
      exact Out.bit.inj (List.cons.inj o).1
    | eqT a b =>
      rw [ptest, etest, Bool.eq_iff_iff, decide_eq_true_iff, ← pow_val_inj ho, ← hs.gt, ← hs.gt]
      exact heq _ _
    | idT a =>
      rw [ptest, etest, Bool.eq_iff_iff, decide_eq_true_iff, ← pow_val_inj ho, pow_val_zero, ← hs.gt]
      exact heq _ _
  · intro s t b hs
    exact ⟨⟨hs.left.sc, hs.left.pj, hs.left.af, congrArg (Out.bit b :: ·) hs.left.out⟩,
      ⟨hs.right.sc, hs.right.pj, hs.right.af, congrArg (Out.bit b :: ·) hs.right.out⟩, hs.gt⟩

/-- The engine of bn256. -/
def bn256Engine : Engine Bn256.Fq Bn256.Fq2 Bn256.Fq12 :=
  ⟨Bn256.pairing, fun ts => Bn256.finalExp (Bn256.multiMillerLoop ts), ExtField.sqr, Quad.conjugate,
    Quad.ctEqBy (Halo2.Ext.Cubic.ctEqBy (Quad.ctEqBy Fp.ctEq))⟩

/-- The engine of bls12381. -/
def bls12381Engine : Engine Bls12381.Fq Bls12381.Fq2 Bls12381.Fq12 :=
  ⟨Bls12381.pairing, fun ts => Bls12381.finalExp (Bls12381.multiMillerLoop ts), ExtField.sqr, Quad.conjugate,
    Quad.ctEqBy (Halo2.Ext.Cubic.ctEqBy (Quad.ctEqBy Fp.ctEq))⟩

/-- The engine of pluto. -/
def plutoEngine : Engine Pluto.Fp1 Pluto.Fp2 Pluto.Fp12 :=
  ⟨Pluto.pairing, fun ts => Pluto.finalExp (Pluto.multiMillerLoop ts), ExtField.sqr, Quad.conjugate,
    Quad.ctEqBy (Halo2.Ext.Cubic.ctEqBy (Quad.ctEqBy Fp.ctEq))⟩

/-- **C74** bn256. -/
theorem C74_bn256 : ProgramClaim bn256Engine Bn256.g1 Bn256.g2 bnR Bn256.g1Gen Bn256.g2Gen :=
  programClaim_of Bn256.g1_good Bn256.g2_good C49_bn256 C39_gt.1 (C62_towers bnQ).2.2.1.1 C49_generators.1.1 C49_generators.1.2.1
    C49_generators.1.2.2

/-- **C74** bls12381. -/
theorem C74_bls12381 : ProgramClaim bls12381Engine Bls12381.g1 Bls12381.g2 blsR Bls12381.g1Gen Bls12381.g2Gen :=
  programClaim_of Bls12381.g1_good Bls12381.g2_good C49_bls12381 C39_gt.2.1 (C62_towers blsQ).2.2.1.1 C49_generators.2.1.1
    C49_generators.2.1.2.1 C49_generators.2.1.2.2

/-- **C74** pluto. -/
theorem C74_pluto : ProgramClaim plutoEngine Pluto.g1 Pluto.g2 plQ Pluto.g1Gen Pluto.g2Gen :=
  programClaim_of Pluto.g1_good Pluto.g2_good C49_pluto C39_gt.2.2 (C62_towers plP).2.2.1.1 C49_generators.2.2.1
    C49_generators.2.2.2.1 C49_generators.2.2.2.2

/-- The signature equation as a program: `P = k G`, `Q = k H`, then the answer to `e(P, H) = e(G, Q)` is put out. -/
def signProg : Prog (POp Bn256.Fq Bn256.Fq2) PTest :=
  .seq (.op (.g1 (.pMul 1 0 0))) (.seq (.op (.g1 (.aFromProj 1 1))) (.seq (.op (.g2 (.aMul 1 0 0)))
    (.seq (.op (.g2 (.aFromProj 1 1))) (.seq (.op (.pairing 0 1 0)) (.seq (.op (.pairing 1 0 1)) (.out (.eqT 0 1)))))))

/-- Its initial state: generators and a scalar in all registers. -/
def signSt (k : Fp bnR) : PSt Bn256.Fq Bn256.Fq2 Bn256.Fq12 bnR :=
  ⟨fun _ => k, fun _ => Bn256.g1Gen.toCurve, fun _ => Bn256.g1Gen, fun _ => Bn256.g2Gen.toCurve, fun _ => Bn256.g2Gen, fun _ => 1, []⟩

/-- The program on bn256, for every scalar. -/
example (k : Fp bnR) (K1 : Codec Bn256.Fq) (K2 : Codec Bn256.Fq2) :
    ∃ s, run (pstep bn256Engine K1 K2 Bn256.g1 Bn256.g2 (fun _ => 4) ((numBits bnR + 7) / 8)) (ptest bn256Engine) pemit 9
        signProg (signSt k) = some (.ok s) ∧ s.out = [.bit true] := by
  obtain ⟨g, h, z, rg, rh, og, oh, oz, -, H⟩ := C74_bn256
  have one : ((1 : ZMod bnR)).val = 1 := by
    have : Fact (1 < bnR) := ⟨bnR_prime.one_lt⟩
    exact ZMod.val_one bnR
  have hp : signProg.All (POpOk Bn256.g1 Bn256.g2 bnR g h (fun _ _ => 0) (fun _ _ => 0)) :=
    ⟨⟨trivial, fun _ _ _ e => nomatch e⟩, ⟨trivial, fun _ _ _ e => nomatch e⟩, ⟨trivial, fun _ _ _ e => nomatch e⟩,
      ⟨trivial, fun _ _ _ e => nomatch e⟩, trivial, trivial, trivial⟩
  have hs : PSim g h z (signSt k) ⟨fun _ => k.toZMod, fun _ => 1, fun _ => 1, fun _ => 1, fun _ => 1, fun _ => 0, []⟩ := by
    refine ⟨⟨fun _ => rfl, fun _ => ?_, fun _ => ?_, rfl⟩, ⟨fun _ => rfl, fun _ => ?_, fun _ => ?_, rfl⟩, fun _ => (pow_val_zero z).symm⟩
    · change PRep _ _ ((1 : ZMod bnR).val • g)
      rw [one, one_smul]; exact rg.toCurve Bn256.g1_good
    · change ARep _ _ ((1 : ZMod bnR).val • g)
      rw [one, one_smul]; exact rg
    · change PRep _ _ ((1 : ZMod bnR).val • h)
      rw [one, one_smul]; exact rh.toCurve Bn256.g2_good
    · change ARep _ _ ((1 : ZMod bnR).val • h)
      rw [one, one_smul]; exact rh
  obtain ⟨-, H⟩ := H K1 K2 (fun _ => 4) (fun _ _ _ => ⟨(by decide : 1 ≤ 4), (by decide : 4 ≤ 24)⟩) (fun _ _ => 0) (fun _ _ => 0)
    signProg hp 9 _ _ hs
  obtain ⟨s, e, hs⟩ := H _ rfl
  refine ⟨s, e, hs.left.out.trans ?_⟩
  change [Out.bit (decide ((k.toZMod.val • (1 : ZMod bnR)) * 1 = 1 * (k.toZMod.val • (1 : ZMod bnR))))] = _
  rw [mul_one, one_mul, decide_eq_true rfl]

end Halo2.Props
