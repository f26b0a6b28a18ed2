import Verif.Props.PairingWire
import Verif.Props.ParProgram

/-!
# C93: programs over a pairing engine do not see the threads

The programs of C87, which may also call `msm_parallel`, `msm_best` and `best_fft` on scalars and on points of both groups. Each call meets
its own number of threads and its own order of the tasks.
-/

set_option linter.unusedSectionVars false

namespace Halo2.Program

open Halo2 Halo2.Field Halo2.Ext Halo2.Curve Halo2.Msm Halo2.Fft Halo2.Pairing Halo2.Props

variable {L F T : Type} [CommRing L] [DecidableEq L] [BaseField L] [CommRing F] [DecidableEq F] [BaseField F]
  [Mul T] [One T] {r : ℕ} [Fact r.Prime] [Fact (OddModulus r)] [Fp.SmallModulus r]

/-- A call of the programs of C87, or one that uses threads, in the first or in the second group; the clock chooses the schedule. -/
def cvstep (E : Engine L F T) (K1 : Codec L) (K2 : Codec F) (C1 : Params L) (C2 : Params F) (free1 : Proj L → Bool) (free2 : Proj F → Bool)
    (X : ℕ → Sched) (s : Clocked (VSt L F T r)) (o : VOp L F ⊕ TOp ⊕ TOp) : Outcome (Clocked (VSt L F T r)) :=
  outcome (match o with
    | .inl o => vstep E K1 K2 C1 C2 free1 free2 (X s.clock).ln ((numBits r + 7) / 8) s.st o
    | .inr (.inl o) => outcome (tstep C1 (X s.clock) s.st.st.left o) fun u =>
        { s.st with st := { s.st.st with sc := u.sc, p1 := u.pj, a1 := u.af, out := u.out } }
    | .inr (.inr o) => outcome (tstep C2 (X s.clock) s.st.st.right o) fun u =>
        { s.st with st := { s.st.st with sc := u.sc, p2 := u.pj, a2 := u.af, out := u.out } }) fun st => ⟨st, s.clock + 1⟩

/-- The result of a comparison is put out. -/
def cvemit (s : Clocked (VSt L F T r)) (b : Bool) : Clocked (VSt L F T r) := { s with st := vemit s.st b }

/-- A program run with the functions of the model, under the schedules `X`. -/
def cvrun (E : Engine L F T) (K1 : Codec L) (K2 : Codec F) (C1 : Params L) (C2 : Params F) (free1 : Proj L → Bool) (free2 : Proj F → Bool)
    (X : ℕ → Sched) : ℕ → Prog (VOp L F ⊕ TOp ⊕ TOp) VTest → Clocked (VSt L F T r) → Option (Outcome (Clocked (VSt L F T r))) :=
  run (cvstep E K1 K2 C1 C2 free1 free2 X) (fun s c => vtest E s.st c) cvemit

end Halo2.Program

namespace Halo2.Props

open Halo2 Halo2.Field Halo2.Prime Halo2.Ext Halo2.Curve Halo2.Msm Halo2.Fft Halo2.Pairing Halo2.Program

section

variable {G G' : Type} [AddCommGroup G] [AddCommGroup G'] {r : ℕ}

theorem network_map (φ : G →+ G') (N : ℕ) (w : ZMod r) (f : ℕ → G) (i : ℕ) :
    network (groupOps G' r) N w (fun j => φ (f j)) i = φ (network (groupOps G r) N w f i) := by
  have t : ∀ (w : ZMod r) j (v : G), tmul (groupOps G' r) w j (φ v) = φ (tmul (groupOps G r) w j v) := by
    intro w j v
    rw [tmul, tmul]
    split
    · rfl
    · exact (map_nsmul φ _ _).symm
  induction N generalizing w f i with
  | zero => rfl
  | succ N ih =>
    rw [network, network]
    split
    · rw [ih, ih (w ^ 2) (fun j => f (2 * j + 1)), t]
      exact (map_add φ _ _).symm
    · rw [ih, ih (w ^ 2) (fun j => f (2 * j + 1)), t]
      exact (map_sub φ _ _).symm

theorem netList_map (φ : G →+ G') (N : ℕ) (w : ZMod r) (l : List G) :
    netList (groupOps G' r) N w (l.map φ) = (netList (groupOps G r) N w l).map φ := by
  rw [netList, netList, List.map_map]
  refine List.map_congr_left fun i _ => ?_
  change _ = φ _
  rw [← network_map]
  congr 1
  funext j
  rw [List.getD_eq_getElem?_getD, List.getD_eq_getElem?_getD, List.getElem?_map]
  cases l[j]? with
  | none => exact (map_zero φ).symm
  | some x => rfl

/-- The calls that use threads do the same in every group. -/
theorem atstep_map [Fact r.Prime] [Fact (OddModulus r)] [Fp.SmallModulus r] (φ : G →+ G') (t : ASt G r) (o : TOp) : atstep (t.map φ) o = (atstep t o).map φ := by
  have sum : ∀ ks l : List ℕ, (List.zipWith (fun k a => (t.sc k).val • φ (t.af a)) ks l).sum =
      φ (List.zipWith (fun k a => (t.sc k).val • t.af a) ks l).sum := by
    intro ks l
    rw [map_list_sum, List.map_zipWith]
    congr 2
    funext k a
    exact (map_nsmul φ _ _).symm
  cases o with
  | msmPar d ks l => simp only [atstep, ASt.map, sum, set_map]
  | msmBest d ks l => simp only [atstep, ASt.map, sum, set_map]
  | fftS l w N => rfl
  | fftP l w N =>
    simp only [atstep, ASt.map]
    rw [← setAll_map φ, ← netList_map, List.map_map]
    rfl

end

/-- **C93** The transform of points, seen in exponents, is the transform of scalars. -/
theorem C93_transform {r : ℕ} [Fact r.Prime] (N : ℕ) (w : ZMod r) (a : List (ZMod r)) :
    netList (groupOps (ZMod r) r) N w a = netList (fieldOps (ZMod r)) N w a := by
  have : NeZero r := ⟨(Fact.out : r.Prime).ne_zero⟩
  have e : groupOps (ZMod r) r = fieldOps (ZMod r) := by
    rw [groupOps, fieldOps]
    congr 1
    funext a k
    rw [nsmul_eq_mul, ZMod.natCast_zmod_val, mul_comm]
  rw [e]

variable {L F T : Type} {r : ℕ} [Fact r.Prime]

/-- The meaning of a call in exponents: there are no threads in it. -/
noncomputable def acvstep (V1 : View L (ZMod r)) (V2 : View F (ZMod r)) (W1 W2 : WForm → ZMod r → List ℕ) (bad : WForm → List ℕ → Prop)
    (t : VESt r) : VOp L F ⊕ TOp ⊕ TOp → Outcome (VESt r)
  | .inl o => vestep V1 V2 W1 W2 bad t o
  | .inr (.inl o) => let u := atstep t.st.left o; .ok { t with st := { t.st with sc := u.sc, p1 := u.pj, a1 := u.af, out := u.out } }
  | .inr (.inr o) => let u := atstep t.st.right o; .ok { t with st := { t.st with sc := u.sc, p2 := u.pj, a2 := u.af, out := u.out } }

variable [Field L] [DecidableEq L] [BaseField L] [LawfulBase L] {C1 : Params L}
  [Field F] [DecidableEq F] [BaseField F] [LawfulBase F] {C2 : Params F} [Field T]
  [Fact (OddModulus r)] [Fp.SmallModulus r]

theorem tstep_exp {C : Params F} (hC : Good C) {g : Pt C} (hg : r • g = 0) {e : Sched} (he : e.Ok) {s : St F r} {t : ASt (ZMod r) r}
    (h : ExpSim g s t) (o : TOp) (ho : TOpOk o) : ∃ s', tstep C e s o = .ok s' ∧ ExpSim g s' (atstep t o) := by
  have : NeZero r := ⟨(Fact.out : r.Prime).ne_zero⟩
  have hm : ∀ t : ASt (ZMod r) r, (t.map fun e => e.val • g) = t.map (expHom r hg) := fun t => by
    simp only [ASt.map, expHom_apply]
  rw [ExpSim, hm] at h
  obtain ⟨s', e1, h'⟩ := tstep_sim hC he h o ho
  refine ⟨s', e1, ?_⟩
  rw [ExpSim, hm, ← atstep_map]
  exact h'

/-- What C93 says of an engine: as C87, for programs that also call the functions that use threads, whatever the schedules are. -/
def ThreadedClaim (E : Engine L F T) (K1 : Codec L) (K2 : Codec F) (C1 : Params L) (C2 : Params F) (r : ℕ) [Fact r.Prime]
    [Fact (OddModulus r)] [Fp.SmallModulus r] (free1 : Proj L → Bool) (free2 : Proj F → Bool) (bad : WForm → List ℕ → Prop) (gA : Aff L)
    (hA : Aff F) : Prop :=
  ∃ (g : Pt C1) (h : Pt C2) (z : T), ARep C1 gA g ∧ ARep C2 hA h ∧ addOrderOf g = r ∧ addOrderOf h = r ∧ orderOf z = r ∧
    E.pairing gA hA = some z ∧ (∀ f, Function.Injective (wireOf (r := r) K1 C1 g f)) ∧
    (∀ f, f ≠ .comp → Function.Injective (wireOf (r := r) K2 C2 h f)) ∧
    ∀ (X : ℕ → Sched), (∀ i, (X i).Ok) → ∀ (log1 : L → L → ZMod r) (log2 : F → F → ZMod r)
      (p : Prog (VOp L F ⊕ TOp ⊕ TOp) VTest), p.All (Either (VOpOk C1 C2 r g h log1 log2) (Either TOpOk TOpOk)) →
      ∀ (n : ℕ) (s : Clocked (VSt L F T r)) (t : VESt r), VSim g h z s.st t →
      OutRel (fun s t => VSim g h z s.st t) (cvrun E K1 K2 C1 C2 free1 free2 X n p s)
        (run (acvstep (expView K1 C1 r g log1) (expView K2 C2 r h log2) (wireOf K1 C1 g) (wireOf K2 C2 h) bad) vetest veemit n p t)

theorem outRel_outcome {S S' S'' : Type} {R : S → S'' → Prop} {R' : S' → S'' → Prop} {o : Outcome S} {o' : Outcome S''} {f : S → S'}
    (h : OutRel R (some o) (some o')) (hf : ∀ s t, R s t → R' (f s) t) : OutRel R' (some (outcome o f)) (some o') := by
  rcases o with _ | s <;> rcases o' with _ | t <;> first | exact hf _ _ h | exact h

theorem threadedClaim_of {E : Engine L F T} {K1 : Codec L} {K2 : Codec F} (h1 : Good C1) (h2 : Good C2) {gA : Aff L} {hA : Aff F}
    {free1 : Proj L → Bool} {free2 : Proj F → Bool} {bad : WForm → List ℕ → Prop}
    (hv : VerifierClaim E K1 K2 C1 C2 r free1 free2 bad gA hA) : ThreadedClaim E K1 K2 C1 C2 r free1 free2 bad gA hA := by
  obtain ⟨g, h, z, rg, rh, og, oh, oz, hz, i1, i2, H⟩ := hv
  have kg : r • g = 0 := by rw [← og]; exact addOrderOf_nsmul_eq_zero g
  have kh : r • h = 0 := by rw [← oh]; exact addOrderOf_nsmul_eq_zero h
  refine ⟨g, h, z, rg, rh, og, oh, oz, hz, i1, i2, fun X hX log1 log2 p hp n s t hs => ?_⟩
  refine run_rel (step := cvstep E K1 K2 C1 C2 free1 free2 X) (emit := cvemit) (emit' := veemit)
    (R := fun (s : Clocked (VSt L F T r)) t => VSim g h z s.st t)
    (P := Either (VOpOk C1 C2 r g h log1 log2) (Either TOpOk TOpOk)) ?_ ?_ ?_ p hp n hs
  · intro s t o hs ho
    rcases o with o | o | o
    · exact outRel_outcome (H _ (hX s.clock).lnOk log1 log2 (.op o) ho 1 s.st t hs) fun _ _ h => h
    · obtain ⟨u, e, hu⟩ := tstep_exp h1 kg (hX s.clock) hs.st.left o ho
      change OutRel _ (some (outcome (outcome (tstep C1 (X s.clock) s.st.st.left o) _) _)) _
      rw [e]
      exact ⟨⟨hu, ⟨hu.sc, hs.st.right.pj, hs.st.right.af, hu.out⟩, hs.st.gt⟩, hs.bs, hs.fl, hs.bytes⟩
    · obtain ⟨u, e, hu⟩ := tstep_exp h2 kh (hX s.clock) hs.st.right o ho
      change OutRel _ (some (outcome (outcome (tstep C2 (X s.clock) s.st.st.right o) _) _)) _
      rw [e]
      exact ⟨⟨⟨hu.sc, hs.st.left.pj, hs.st.left.af, hu.out⟩, hu, hs.st.gt⟩, hs.bs, hs.fl, hs.bytes⟩
  · intro s t c hs
    have k := H _ (hX 0).lnOk log1 log2 (.out c) trivial 1 s.st t hs
    have o : Out.bit (vtest E s.st c) :: s.st.st.out = Out.bit (vetest t c) :: t.st.out := k.st.left.out
    exact Out.bit.inj (List.cons.inj o).1
  · intro s t b hs
    exact ⟨⟨⟨hs.st.left.sc, hs.st.left.pj, hs.st.left.af, congrArg (Out.bit b :: ·) hs.st.left.out⟩,
      ⟨hs.st.right.sc, hs.st.right.pj, hs.st.right.af, congrArg (Out.bit b :: ·) hs.st.right.out⟩, hs.st.gt⟩, hs.bs, hs.fl, hs.bytes⟩

/-- **C93** bn256. -/
theorem C93_bn256 : ThreadedClaim bn256Engine Bn256.g1Codec Bn256.g2Codec Bn256.g1 Bn256.g2 bnR Cofactor.trivialFree Bn256.g2TorsionFree
    (Overflows bnQ .LE) Bn256.g1Gen Bn256.g2Gen :=
  threadedClaim_of Bn256.g1_good Bn256.g2_good C87_bn256

/-- **C93** bls12381. -/
theorem C93_bls12381 : ThreadedClaim bls12381Engine Bls12381.g1Codec Bls12381.g2Codec Bls12381.g1 Bls12381.g2 blsR
    (Bls12381.g1TorsionFree (Fp.zeta blsQ blsQZeta)) Bls12381.g2TorsionFree (Overflows blsQ .BE) Bls12381.g1Gen Bls12381.g2Gen :=
  threadedClaim_of Bls12381.g1_good Bls12381.g2_good C87_bls12381

/-- **C93** pluto. -/
theorem C93_pluto : ThreadedClaim plutoEngine Pluto.g1Codec Pluto.g2Codec Pluto.g1 Pluto.g2 plQ Cofactor.trivialFree Pluto.g2TorsionFree
    (Overflows plP .LE) Pluto.g1Gen Pluto.g2Gen :=
  threadedClaim_of Pluto.g1_good Pluto.g2_good C87_pluto

/-- **C93** No program can tell two machines apart: run on two machines with any numbers of threads, orders of tasks and roundings of the
logarithm, from registers that hold the same points (in whatever coordinates), scalars, target group elements, strings and flags, it is
unfinished on both, panics on both, or ends on both with the same scalars, affine points, target group elements, strings, flags and output. -/
theorem C93_indistinguishable {E : Engine L F T} {K1 : Codec L} {K2 : Codec F} (h1 : Good C1) (h2 : Good C2) {gA : Aff L} {hA : Aff F}
    {free1 : Proj L → Bool} {free2 : Proj F → Bool} {bad : WForm → List ℕ → Prop}
    (hv : ThreadedClaim E K1 K2 C1 C2 r free1 free2 bad gA hA) :
    ∃ (g : Pt C1) (h : Pt C2) (z : T), ARep C1 gA g ∧ ARep C2 hA h ∧ E.pairing gA hA = some z ∧
      ∀ (X1 X2 : ℕ → Sched), (∀ i, (X1 i).Ok) → (∀ i, (X2 i).Ok) → ∀ (log1 : L → L → ZMod r) (log2 : F → F → ZMod r)
      (p : Prog (VOp L F ⊕ TOp ⊕ TOp) VTest), p.All (Either (VOpOk C1 C2 r g h log1 log2) (Either TOpOk TOpOk)) →
      ∀ (n : ℕ) (s1 s2 : Clocked (VSt L F T r)) (t : VESt r), VSim g h z s1.st t → VSim g h z s2.st t →
      OutRel (fun u1 u2 : Clocked (VSt L F T r) => u1.st.st.out = u2.st.st.out ∧ u1.st.bs = u2.st.bs ∧ u1.st.fl = u2.st.fl ∧
          u1.st.st.sc = u2.st.st.sc ∧ u1.st.st.a1 = u2.st.st.a1 ∧ u1.st.st.a2 = u2.st.st.a2 ∧ u1.st.st.gt = u2.st.st.gt ∧
          (∀ i, ∃ q, PRep C1 (u1.st.st.p1 i) q ∧ PRep C1 (u2.st.st.p1 i) q) ∧
          (∀ i, ∃ q, PRep C2 (u1.st.st.p2 i) q ∧ PRep C2 (u2.st.st.p2 i) q))
        (cvrun E K1 K2 C1 C2 free1 free2 X1 n p s1) (cvrun E K1 K2 C1 C2 free1 free2 X2 n p s2) := by
  obtain ⟨g, h, z, rg, rh, -, -, -, hz, -, -, H⟩ := hv
  refine ⟨g, h, z, rg, rh, hz, fun X1 X2 hX1 hX2 log1 log2 p hp n s1 s2 t hs1 hs2 => ?_⟩
  have m1 := H X1 hX1 log1 log2 p hp n s1 t hs1
  have m2 := H X2 hX2 log1 log2 p hp n s2 t hs2
  revert m1 m2
  generalize cvrun E K1 K2 C1 C2 free1 free2 X1 n p s1 = a
  generalize cvrun E K1 K2 C1 C2 free1 free2 X2 n p s2 = b
  generalize run _ vetest veemit n p t = c
  intro m1 m2
  have key : ∀ u1 u2 : Clocked (VSt L F T r), ∀ t, VSim g h z u1.st t → VSim g h z u2.st t →
      u1.st.st.out = u2.st.st.out ∧ u1.st.bs = u2.st.bs ∧ u1.st.fl = u2.st.fl ∧
          u1.st.st.sc = u2.st.st.sc ∧ u1.st.st.a1 = u2.st.st.a1 ∧ u1.st.st.a2 = u2.st.st.a2 ∧ u1.st.st.gt = u2.st.st.gt ∧
          (∀ i, ∃ q, PRep C1 (u1.st.st.p1 i) q ∧ PRep C1 (u2.st.st.p1 i) q) ∧
          (∀ i, ∃ q, PRep C2 (u1.st.st.p2 i) q ∧ PRep C2 (u2.st.st.p2 i) q) := by
    intro u1 u2 t k1 k2
    refine ⟨k1.st.left.out.trans k2.st.left.out.symm, k1.bs.trans k2.bs.symm, k1.fl.trans k2.fl.symm,
      funext fun i => Fp.toZMod_injective ((k1.st.left.sc i).trans (k2.st.left.sc i).symm), funext fun i => ?_, funext fun i => ?_,
      funext fun i => (k1.st.gt i).trans (k2.st.gt i).symm, fun i => ⟨_, k1.st.left.pj i, k2.st.left.pj i⟩,
      fun i => ⟨_, k1.st.right.pj i, k2.st.right.pj i⟩⟩
    · exact (affOf_eq h1 (k1.st.left.af i)).trans (affOf_eq h1 (k2.st.left.af i)).symm
    · exact (affOf_eq h2 (k1.st.right.af i)).trans (affOf_eq h2 (k2.st.right.af i)).symm
  rcases a with _ | _ | u1 <;> rcases c with _ | _ | t <;> rcases b with _ | _ | u2 <;>
    first | exact trivial | exact m1.elim | exact m2.elim | exact key _ _ _ m1 m2

/-- A program that computes `k G + k G` with `msm_parallel`, `k H + k H` with `msm_best`, transforms two points, and puts out whether
`e(2 k G, H) = e(G, 2 k H)`. -/
def threadedProg (L F : Type) : Prog (VOp L F ⊕ TOp ⊕ TOp) VTest :=
  .seq (.op (.inr (.inl (.msmPar 1 [0, 0] [0, 0])))) (.seq (.op (.inl (.base (.g1 (.aFromProj 1 1)))))
    (.seq (.op (.inr (.inr (.msmBest 1 [0, 0] [0, 0])))) (.seq (.op (.inl (.base (.g2 (.aFromProj 1 1)))))
      (.seq (.op (.inr (.inl (.fftP [2, 3] 0 1)))) (.seq (.op (.inl (.base (.pairing 0 1 0))))
        (.seq (.op (.inl (.base (.pairing 1 0 1)))) (.out (.base (.eqT 0 1)))))))))

/-- On bls12381 it answers yes, for every scalar and under all schedules. -/
example (k : Fp blsR) (X : ℕ → Sched) (hX : ∀ i, (X i).Ok) :
    ∃ s, cvrun bls12381Engine Bls12381.g1Codec Bls12381.g2Codec Bls12381.g1 Bls12381.g2 (Bls12381.g1TorsionFree (Fp.zeta blsQ blsQZeta))
        Bls12381.g2TorsionFree X 10 (threadedProg _ _)
      ⟨⟨⟨fun _ => k, fun _ => Bls12381.g1Gen.toCurve, fun _ => Bls12381.g1Gen, fun _ => Bls12381.g2Gen.toCurve, fun _ => Bls12381.g2Gen,
        fun _ => 1, []⟩, fun _ => [], fun _ => false⟩, 0⟩ = some (.ok s) ∧ s.st.st.out = [.bit true] := by
  obtain ⟨g, h, z, rg, rh, og, oh, oz, -, -, -, H⟩ := C93_bls12381
  have one : ((1 : ZMod blsR)).val = 1 := by
    have : Fact (1 < blsR) := ⟨blsR_prime.one_lt⟩
    exact ZMod.val_one blsR
  have hp : (threadedProg Bls12381.Fq Bls12381.Fq2).All (Either (VOpOk Bls12381.g1 Bls12381.g2 blsR g h (fun _ _ => 0) (fun _ _ => 0))
      (Either TOpOk TOpOk)) :=
    ⟨⟨rfl, (by decide : 2 < 2 ^ 32)⟩, ⟨trivial, fun _ _ _ e => nomatch e⟩, ⟨rfl, (by decide : 2 < 8104)⟩,
      ⟨trivial, fun _ _ _ e => nomatch e⟩, ⟨rfl, (by decide : 1 < 64)⟩, trivial, trivial, trivial⟩
  have k1 := H X hX (fun _ _ => 0) (fun _ _ => 0) _ hp 10
    ⟨⟨⟨fun _ => k, fun _ => Bls12381.g1Gen.toCurve, fun _ => Bls12381.g1Gen, fun _ => Bls12381.g2Gen.toCurve, fun _ => Bls12381.g2Gen,
      fun _ => 1, []⟩, fun _ => [], fun _ => false⟩, 0⟩
    ⟨⟨fun _ => k.toZMod, fun _ => 1, fun _ => 1, fun _ => 1, fun _ => 1, fun _ => 0, []⟩, fun _ => [], fun _ => false⟩ (by
      refine ⟨⟨⟨fun _ => rfl, fun _ => ?_, fun _ => ?_, rfl⟩, ⟨fun _ => rfl, fun _ => ?_, fun _ => ?_, rfl⟩, fun _ => (pow_val_zero z).symm⟩,
        rfl, rfl, fun _ _ e => by cases e⟩
      · change PRep _ _ ((1 : ZMod blsR).val • g)
        rw [one, one_smul]; exact rg.toCurve Bls12381.g1_good
      · change ARep _ _ ((1 : ZMod blsR).val • g)
        rw [one, one_smul]; exact rg
      · change PRep _ _ ((1 : ZMod blsR).val • h)
        rw [one, one_smul]; exact rh.toCurve Bls12381.g2_good
      · change ARep _ _ ((1 : ZMod blsR).val • h)
        rw [one, one_smul]; exact rh)
  obtain ⟨s, e, hs⟩ := outRel_ok (t := _) k1
  refine ⟨s, e, hs.st.left.out.trans ?_⟩
  change [Out.bit (decide ((k.toZMod.val • (1 : ZMod blsR) + (k.toZMod.val • (1 : ZMod blsR) + 0)) * 1 =
    1 * (k.toZMod.val • (1 : ZMod blsR) + (k.toZMod.val • (1 : ZMod blsR) + 0))))] = _
  rw [mul_one, one_mul, decide_eq_true rfl]

end Halo2.Props
