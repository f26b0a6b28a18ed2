import Verif.Curve.Program
import Verif.Curve.Layout
import Verif.Props.Msm
import Mathlib.Data.ZMod.QuotientGroup

/-!
# C73: programs over the interface compute in the group

The meaning of a program (`Verif/Curve/Program.lean`) over the abstract group of points and the integers modulo `r`,
and the proof that the library's representations cannot be told apart by any program.
-/

set_option linter.unusedSectionVars false

namespace Halo2.Props

open Halo2 Halo2.Field Halo2.Prime Halo2.Ext Halo2.Curve Halo2.Msm Halo2.Program

variable {F : Type} [Field F] [DecidableEq F] [BaseField F] [LawfulBase F] {C : Params F}
variable {r : ℕ} [Fact (OddModulus r)] [Fact r.Prime] [Fp.SmallModulus r]

/-- How a program sees a group: points by their coordinates, and the bytes of points. -/
structure View (F G : Type) where
  of : F → F → G
  comp : G → Outcome (List ℕ)
  unc : G → List ℕ

/-- The registers with group elements and residues instead of representations. -/
structure ASt (G : Type) (r : ℕ) where
  sc : ℕ → ZMod r
  pj : ℕ → G
  af : ℕ → G
  out : List Out

open Classical in
/-- The point with the given coordinates; the neutral element if there is none. -/
noncomputable def ptOf (C : Params F) (x y : F) : Pt C :=
  if h : (Curve.W C).Nonsingular x y then .some x y h else 0

/-- The meaning of one call: arithmetic of `ZMod r` and of the group. -/
def astep {G : Type} [AddCommGroup G] (V : View F G) (t : ASt G r) : Op F → ASt G r
  | .sConst d n => { t with sc := set t.sc d n }
  | .sAdd d a b => { t with sc := set t.sc d (t.sc a + t.sc b) }
  | .sSub d a b => { t with sc := set t.sc d (t.sc a - t.sc b) }
  | .sMul d a b => { t with sc := set t.sc d (t.sc a * t.sc b) }
  | .sNeg d a => { t with sc := set t.sc d (-t.sc a) }
  | .sDouble d a => { t with sc := set t.sc d (2 * t.sc a) }
  | .sSquare d a => { t with sc := set t.sc d (t.sc a ^ 2) }
  | .sInvert d a => { t with sc := set t.sc d (t.sc a)⁻¹ }
  | .pIdentity d => { t with pj := set t.pj d 0 }
  | .pAdd d a b => { t with pj := set t.pj d (t.pj a + t.pj b) }
  | .pSub d a b => { t with pj := set t.pj d (t.pj a - t.pj b) }
  | .pNeg d a => { t with pj := set t.pj d (-t.pj a) }
  | .pDouble d a => { t with pj := set t.pj d (2 • t.pj a) }
  | .pMul d a k => { t with pj := set t.pj d ((t.sc k).val • t.pj a) }
  | .pAddMixed d a b => { t with pj := set t.pj d (t.pj a + t.af b) }
  | .pSubMixed d a b => { t with pj := set t.pj d (t.pj a - t.af b) }
  | .pSum d l => { t with pj := set t.pj d (l.map t.pj).sum }
  | .pFromAffine d a => { t with pj := set t.pj d (t.af a) }
  | .aIdentity d => { t with af := set t.af d 0 }
  | .aFromXY d x y => { t with af := set t.af d (V.of x y) }
  | .aNeg d a => { t with af := set t.af d (-t.af a) }
  | .aFromProj d a => { t with af := set t.af d (t.pj a) }
  | .aMul d a k => { t with pj := set t.pj d ((t.sc k).val • t.af a) }
  | .aAdd d a b => { t with pj := set t.pj d (t.af a + t.af b) }
  | .aSub d a b => { t with pj := set t.pj d (t.af a - t.af b) }
  | .aAddProj d a b => { t with pj := set t.pj d (t.af a + t.pj b) }
  | .aSubProj d a b => { t with pj := set t.pj d (t.af a - t.pj b) }
  | .batch ds l => { t with af := setAll t.af ds (l.map t.pj) }
  | .msm d ks l => { t with pj := set t.pj d (List.zipWith (fun k a => (t.sc k).val • t.af a) ks l).sum }
  | .outCompressed a => { t with out := .bytes (V.comp (t.af a)) :: t.out }
  | .outUncompressed a => { t with out := .bytes (.ok (V.unc (t.af a))) :: t.out }
  | .outScalar a =>
    { t with out := .bytes (.ok ((List.range (8 * numLimbs r)).map fun i => (t.sc a).val / 256 ^ i % 256)) :: t.out }

/-- The meaning of a comparison. -/
def atest {G : Type} [AddCommGroup G] [DecidableEq G] (t : ASt G r) : Test → Bool
  | .eqS a b => decide (t.sc a = t.sc b)
  | .eqP a b => decide (t.pj a = t.pj b)
  | .eqA a b => decide (t.af a = t.af b)
  | .idP a => decide (t.pj a = 0)
  | .idA a => decide (t.af a = 0)

/-- Output of the result of a comparison. -/
def aemit {G : Type} (t : ASt G r) (b : Bool) : ASt G r := { t with out := .bit b :: t.out }

/-- The meaning of a program. -/
def arun {G : Type} [AddCommGroup G] [DecidableEq G] (V : View F G) : ℕ → Prog (Op F) Test → ASt G r → Option (ASt G r) :=
  pureRun (astep V) atest aemit

/-- The affine coordinates of a point, `(0, 0)` for the neutral element. -/
def affOf : Pt C → Aff F
  | .zero => ⟨0, 0⟩
  | .some x y _ => ⟨x, y⟩

/-- The group of points as programs see it: the bytes are a function of the point alone. -/
noncomputable def ptView (K : Codec F) (C : Params F) : View F (Pt C) :=
  ⟨ptOf C, fun p => K.encode C (affOf p), fun p => K.toUncompressed (affOf p)⟩

/-- The registers hold representations of the abstract values. -/
structure Sim (s : St F r) (t : ASt (Pt C) r) : Prop where
  sc : ∀ i, (s.sc i).toZMod = t.sc i
  pj : ∀ i, PRep C (s.pj i) (t.pj i)
  af : ∀ i, ARep C (s.af i) (t.af i)
  out : s.out = t.out

/-- Constants are `u64`, and the lists of a multi-scalar multiplication shorter than `2 ^ 32`. -/
def OpOk : Op F → Prop
  | .sConst _ n => n < 2 ^ 64
  | .msm _ _ l => l.length < 2 ^ 32
  | _ => True

theorem affOf_rep (p : Pt C) : ARep C (affOf p) p := by
  cases p with
  | zero => exact ⟨rfl, rfl⟩
  | some x y h => exact ⟨rfl, rfl⟩

theorem affOf_eq (hC : Good C) {A : Aff F} {p : Pt C} (h : ARep C A p) : A = affOf p :=
  (h.ext_iff hC (affOf_rep p)).mpr rfl

theorem set_rel {α β : Type} {R : α → β → Prop} {f : ℕ → α} {g : ℕ → β} (h : ∀ i, R (f i) (g i)) (d : ℕ) {v : α} {w : β}
    (hv : R v w) (i : ℕ) : R (set f d v i) (set g d w i) := by
  unfold Program.set
  split
  · exact hv
  · exact h i

theorem setAll_rel {α β : Type} {R : α → β → Prop} {vs : List α} {ws : List β} (hv : List.Forall₂ R vs ws) {f : ℕ → α}
    {g : ℕ → β} (h : ∀ i, R (f i) (g i)) (ds : List ℕ) (i : ℕ) : R (setAll f ds vs i) (setAll g ds ws i) := by
  induction hv generalizing f g ds with
  | nil => cases ds <;> exact h i
  | cons h1 _ ih =>
    cases ds with
    | nil => exact h i
    | cons d ds => exact ih (set_rel h d h1) ds

theorem forall2_map {α β : Type} {R : α → β → Prop} {f : ℕ → α} {g : ℕ → β} (h : ∀ i, R (f i) (g i)) (l : List ℕ) :
    List.Forall₂ R (l.map f) (l.map g) := by
  induction l with
  | nil => exact .nil
  | cons a l ih => exact .cons (h a) ih

theorem toRepr_eq_digits (a : Fp r) :
    Fp.toRepr a = (List.range (8 * numLimbs r)).map fun i => a.toZMod.val / 256 ^ i % 256 := by
  obtain ⟨h1, h2, h3⟩ := Fp.toBytes_spec .LE a
  have h1 : (Fp.toRepr a).length = 8 * numLimbs r := h1
  have h2 : IsBytes (Fp.toRepr a) := h2
  have h3 : leNat (Fp.toRepr a) = a.toZMod.val := h3
  rw [← h1, ← h3]
  clear h1 h3
  generalize Fp.toRepr a = l at *
  induction l with
  | nil => rfl
  | cons x l ih =>
    have hx : x < 256 := h2 x (by simp)
    have ih := ih fun y hy => h2 y (by simp [hy])
    rw [List.length_cons, List.range_succ_eq_map, List.map_cons, List.map_map]
    have e : leNat (x :: l) = x + 256 * leNat l := rfl
    rw [e]
    congr 1
    · simp only [pow_zero, Nat.div_one]; omega
    · conv_lhs => rw [ih]
      apply List.map_congr_left
      intro i _
      simp only [Function.comp, Nat.succ_eq_add_one]
      rw [pow_succ, mul_comm (256 ^ i), ← Nat.div_div_eq_div_mul]
      congr 2
      omega

theorem fromXY_rep (hC : Good C) (x y : F) : ARep C ((Aff.fromXY C x y).getD Aff.identity) (ptOf C x y) := by
  rw [Aff.fromXY]
  by_cases h : Aff.isOnCurve C ⟨x, y⟩ = true
  · rw [if_pos h]
    obtain ⟨p, hp⟩ := (Aff.valid_iff hC _).mpr h
    change ARep C ⟨x, y⟩ _
    have e := affOf_eq hC hp
    have : ptOf C x y = p := by
      cases p with
      | zero =>
        obtain ⟨rfl, rfl⟩ := Aff.mk.inj e
        rw [ptOf, dif_neg]
        · rfl
        · intro hn
          have := (WeierstrassCurve.Affine.equation_iff ..).mp hn.1
          have h0 := hC.noRoot 0
          apply h0
          simp [Curve.W] at this
          simp [← this]
      | some u v hh =>
        obtain ⟨rfl, rfl⟩ := Aff.mk.inj e
        rw [ptOf, dif_pos hh]
    rw [this]
    exact hp
  · rw [if_neg h]
    change ARep C ⟨0, 0⟩ _
    have : ptOf C x y = 0 := by
      rw [ptOf, dif_neg]
      intro hn
      exact h ((Aff.valid_iff hC _).mp ⟨.some x y hn, rfl, rfl⟩)
    rw [this]
    exact ⟨rfl, rfl⟩

theorem invert_rep (a : Fp r) : ((Fp.invert a).getD 0).toZMod = a.toZMod⁻¹ := by
  have h := LawfulBase.invert_eq a
  change Fp.invert a = _ at h
  rw [h]
  by_cases h0 : a = 0
  · subst h0
    rw [if_pos rfl]
    have : (0 : Fp r).toZMod = 0 := Fp.toZMod_zero
    rw [Option.getD_none, this, ZMod.inv_zero]
  · rw [if_neg h0, Option.getD_some]
    have e : a.toZMod * (a⁻¹).toZMod = 1 := by
      rw [← Fp.toZMod_mul]
      change (a * a⁻¹).toZMod = 1
      rw [mul_inv_cancel₀ h0]
      exact Fp.toZMod_one
    exact eq_inv_of_mul_eq_one_right e

theorem msmValue_eq {s : St F r} {t : ASt (Pt C) r} (h : ∀ i, (s.sc i).toZMod = t.sc i) (ks l : List ℕ) :
    msmValue (ks.map s.sc) (l.map t.af) = (List.zipWith (fun k a => (t.sc k).val • t.af a) ks l).sum := by
  rw [msmValue, List.zipWith_map]
  congr 1
  refine congrArg (fun f => List.zipWith f ks l) ?_
  funext k a
  rw [Fp.toNat, h]

/-- One call. -/
theorem step_sim {K : Codec F} (hC : Good C) {ln : ℕ → ℕ} (hln : LnCeilOk ln) {s : St F r} {t : ASt (Pt C) r} (h : Sim s t)
    (o : Op F) (ho : OpOk o) :
    ∃ s', step K C ln ((numBits r + 7) / 8) s o = .ok s' ∧ Sim s' (astep (ptView K C) t o) := by
  have mul : ∀ k a, PRep C (Proj.mul C (s.pj a) (Fp.toRepr (s.sc k))) ((t.sc k).val • t.pj a) := by
    intro k a
    have := (C23_mul hC (h.pj a) (h.af a) (s.sc k)).1
    rwa [Fp.toNat, h.sc] at this
  have amul : ∀ k a, PRep C (Aff.mul C (s.af a) (Fp.toRepr (s.sc k))) ((t.sc k).val • t.af a) := by
    intro k a
    have := (C23_mul hC (h.pj a) (h.af a) (s.sc k)).2
    rwa [Fp.toNat, h.sc] at this
  have G := fun a b c d => C21_group_law hC (h.pj a) (h.pj b) (h.af c) (h.af d)
  have scs : ∀ d v w, v.toZMod = w → Sim { s with sc := set s.sc d v } { t with sc := set t.sc d w } := fun d v w e =>
    ⟨set_rel (R := fun (x : Fp r) y => x.toZMod = y) h.sc d e, h.pj, h.af, h.out⟩
  have pjs : ∀ d v w, PRep C v w → Sim { s with pj := set s.pj d v } { t with pj := set t.pj d w } := fun d v w e =>
    ⟨h.sc, set_rel h.pj d e, h.af, h.out⟩
  have afs : ∀ d v w, ARep C v w → Sim { s with af := set s.af d v } { t with af := set t.af d w } := fun d v w e =>
    ⟨h.sc, h.pj, set_rel h.af d e, h.out⟩
  have outs : ∀ v w, v = w → Sim { s with out := v :: s.out } { t with out := w :: t.out } := fun v w e =>
    ⟨h.sc, h.pj, h.af, by rw [e, h.out]⟩
  cases o with
  | sConst d n =>
    exact ⟨_, rfl, scs _ _ _ (by rw [Fp.fromU64_eq n ho, Fp.toZMod_natCast])⟩
  | sAdd d a b => exact ⟨_, rfl, scs _ _ _ (by rw [Fp.toZMod_add, h.sc, h.sc])⟩
  | sSub d a b => exact ⟨_, rfl, scs _ _ _ (by rw [Fp.toZMod_sub, h.sc, h.sc])⟩
  | sMul d a b => exact ⟨_, rfl, scs _ _ _ (by rw [Fp.toZMod_mul, h.sc, h.sc])⟩
  | sNeg d a => exact ⟨_, rfl, scs _ _ _ (by rw [Fp.toZMod_neg, h.sc])⟩
  | sDouble d a => exact ⟨_, rfl, scs _ _ _ (by rw [Fp.toZMod_double, h.sc])⟩
  | sSquare d a => exact ⟨_, rfl, scs _ _ _ (by rw [Fp.toZMod_square, h.sc, pow_two])⟩
  | sInvert d a => exact ⟨_, rfl, scs _ _ _ (by rw [invert_rep, h.sc])⟩
  | pIdentity d => exact ⟨_, rfl, pjs _ _ _ .identity⟩
  | pAdd d a b => exact ⟨_, rfl, pjs _ _ _ (G a b a a).1⟩
  | pSub d a b => exact ⟨_, rfl, pjs _ _ _ (G a b a a).2.2.2.1⟩
  | pNeg d a => exact ⟨_, rfl, pjs _ _ _ (G a a a a).2.2.1⟩
  | pDouble d a => exact ⟨_, rfl, pjs _ _ _ (by rw [two_nsmul]; exact (G a a a a).2.1)⟩
  | pMul d a k => exact ⟨_, rfl, pjs _ _ _ (mul k a)⟩
  | pAddMixed d a b => exact ⟨_, rfl, pjs _ _ _ (G a a b b).2.2.2.2.1⟩
  | pSubMixed d a b => exact ⟨_, rfl, pjs _ _ _ (G a a b b).2.2.2.2.2.1⟩
  | pSum d l => exact ⟨_, rfl, pjs _ _ _ (C23_sum hC (forall2_map h.pj l))⟩
  | pFromAffine d a => exact ⟨_, rfl, pjs _ _ _ ((h.af a).toCurve hC)⟩
  | aIdentity d => exact ⟨_, rfl, afs _ _ _ .identity⟩
  | aFromXY d x y => exact ⟨_, rfl, afs _ _ _ (fromXY_rep hC x y)⟩
  | aNeg d a => exact ⟨_, rfl, afs _ _ _ (h.af a).neg⟩
  | aFromProj d a => exact ⟨_, rfl, afs _ _ _ (h.pj a).toAffine⟩
  | aMul d a k => exact ⟨_, rfl, pjs _ _ _ (amul k a)⟩
  | aAdd d a b => exact ⟨_, rfl, pjs _ _ _ (G a a a b).2.2.2.2.2.2.2.2.1⟩
  | aSub d a b => exact ⟨_, rfl, pjs _ _ _ (G a a a b).2.2.2.2.2.2.2.2.2.1⟩
  | aAddProj d a b => exact ⟨_, rfl, pjs _ _ _ (G b b a a).2.2.2.2.2.2.1⟩
  | aSubProj d a b => exact ⟨_, rfl, pjs _ _ _ (G b b a a).2.2.2.2.2.2.2.1⟩
  | batch ds l =>
    have e := C22_batch_normalize (l.map s.pj) l.length
    rw [if_pos (List.length_map ..)] at e
    refine ⟨{ s with af := setAll s.af ds ((l.map s.pj).map Proj.toAffine) }, by rw [step, e], h.sc, h.pj, ?_, h.out⟩
    rw [List.map_map]
    exact setAll_rel (forall2_map (fun i => (h.pj i).toAffine) l) h.af ds
  | msm d ks l =>
    obtain ⟨R, e, hR⟩ := C30_serial (r := r) hC hln (ks.map s.sc) (forall2_map h.af l)
      (by rw [List.length_map]; exact ho)
    rw [msmValue_eq h.sc] at hR
    exact ⟨{ s with pj := set s.pj d R }, by rw [step, e], pjs _ _ _ hR⟩
  | outCompressed a => exact ⟨_, rfl, outs _ _ (by rw [affOf_eq hC (h.af a)]; rfl)⟩
  | outUncompressed a => exact ⟨_, rfl, outs _ _ (by rw [affOf_eq hC (h.af a)]; rfl)⟩
  | outScalar a => exact ⟨_, rfl, outs _ _ (by rw [toRepr_eq_digits, h.sc])⟩

/-- A comparison. -/
theorem test_sim (hC : Good C) {s : St F r} {t : ASt (Pt C) r} (h : Sim s t) (c : Test) : test s c = atest t c := by
  have E := fun a b c d => C22_eq hC (h.pj a) (h.pj b) (h.af c) (h.af d)
  cases c with
  | eqS a b =>
    rw [test, atest, Bool.eq_iff_iff, decide_eq_true_iff, decide_eq_true_iff, ← h.sc, ← h.sc]
    exact ⟨fun e => by rw [e], fun e => Fp.toZMod_injective e⟩
  | eqP a b => rw [test, atest, Bool.eq_iff_iff, decide_eq_true_iff]; exact (E a b a a).1
  | eqA a b => rw [test, atest, Bool.eq_iff_iff, decide_eq_true_iff]; exact (E a a a b).2.1
  | idP a => rw [test, atest, Bool.eq_iff_iff, decide_eq_true_iff]; exact (E a a a a).2.2.2.1
  | idA a => rw [test, atest, Bool.eq_iff_iff, decide_eq_true_iff]; exact (E a a a a).2.2.2.2

/-- A program run with the functions of the model. -/
def mrun (K : Codec F) (C : Params F) (ln : ℕ → ℕ) : ℕ → Prog (Op F) Test → St F r → Option (Outcome (St F r)) :=
  run (step K C ln ((numBits r + 7) / 8)) test emit

/-- **C73** Any program over the interface, started with representations of any points and scalars, does what its
meaning over the group of points and `ZMod r` says: it never panics, it needs as many steps, and it ends with
representations of the same points and scalars and with the same output. -/
theorem C73_meaning (K : Codec F) (hC : Good C) {ln : ℕ → ℕ} (hln : LnCeilOk ln) (p : Prog (Op F) Test) (hp : p.All OpOk)
    (n : ℕ) {s : St F r} {t : ASt (Pt C) r} (h : Sim s t) :
    (arun (ptView K C) n p t = none → mrun K C ln n p s = none) ∧
    (∀ t', arun (ptView K C) n p t = some t' → ∃ s', mrun K C ln n p s = some (.ok s') ∧ Sim s' t') :=
  run_sim (emit := emit) (emit' := aemit) (R := fun s t => Sim s t) (fun _ _ o h ho => step_sim hC hln h o ho) (fun _ _ c h => test_sim hC h c)
    (fun _ _ b h => ⟨h.sc, h.pj, h.af, congrArg (Out.bit b :: ·) h.out⟩) p hp n h

/-- **C73** No program can tell two representations of the same points apart: started from two states that hold the
same points (in whatever projective coordinates) and the same scalars, it terminates from both or from neither, and
puts out the same bytes and bits. -/
theorem C73_indistinguishable (K : Codec F) (hC : Good C) {ln : ℕ → ℕ} (hln : LnCeilOk ln) (p : Prog (Op F) Test) (hp : p.All OpOk)
    (n : ℕ) {s1 s2 : St F r} (hs : s1.sc = s2.sc) (ho : s1.out = [] ∧ s2.out = [])
    (hP : ∀ i, ∃ q, PRep C (s1.pj i) q ∧ PRep C (s2.pj i) q) (hA : ∀ i, ∃ q, ARep C (s1.af i) q ∧ ARep C (s2.af i) q) :
    (mrun K C ln n p s1 = none ∧ mrun K C ln n p s2 = none) ∨
    ∃ u1 u2, mrun K C ln n p s1 = some (.ok u1) ∧
      mrun K C ln n p s2 = some (.ok u2) ∧ u1.out = u2.out ∧ u1.sc = u2.sc ∧ u1.af = u2.af ∧
      ∀ i, ∃ q, PRep C (u1.pj i) q ∧ PRep C (u2.pj i) q := by
  choose P hP1 hP2 using hP
  choose A hA1 hA2 using hA
  let t : ASt (Pt C) r := ⟨fun i => (s1.sc i).toZMod, P, A, []⟩
  have h1 : Sim s1 t := ⟨fun _ => rfl, hP1, hA1, ho.1⟩
  have h2 : Sim s2 t := ⟨fun i => by rw [← hs], hP2, hA2, ho.2⟩
  have m1 := C73_meaning K hC hln p hp n h1
  have m2 := C73_meaning K hC hln p hp n h2
  cases e : arun (ptView K C) n p t with
  | none => exact .inl ⟨m1.1 e, m2.1 e⟩
  | some t' =>
    obtain ⟨u1, e1, r1⟩ := m1.2 t' e
    obtain ⟨u2, e2, r2⟩ := m2.2 t' e
    refine .inr ⟨u1, u2, e1, e2, r1.out.trans r2.out.symm, funext fun i => Fp.toZMod_injective ((r1.sc i).trans (r2.sc i).symm),
      funext fun i => ((r1.af i).ext_iff hC (r2.af i)).mpr rfl, fun i => ⟨_, r1.pj i, r2.pj i⟩⟩

/-! ### Programs in exponents -/

section Exponents
variable {G G' : Type} [AddCommGroup G] [AddCommGroup G']

/-- The registers after a map of groups. -/
def ASt.map (φ : G → G') (t : ASt G r) : ASt G' r := ⟨t.sc, fun i => φ (t.pj i), fun i => φ (t.af i), t.out⟩

theorem set_map {α β : Type} (φ : α → β) (f : ℕ → α) (d : ℕ) (v : α) :
    set (fun i => φ (f i)) d (φ v) = fun i => φ (set f d v i) := by
  funext i
  unfold Program.set
  split <;> rfl

theorem setAll_map {α β : Type} (φ : α → β) (vs : List α) (f : ℕ → α) (ds : List ℕ) :
    setAll (fun i => φ (f i)) ds (vs.map φ) = fun i => φ (setAll f ds vs i) := by
  induction vs generalizing f ds with
  | nil => cases ds <;> rfl
  | cons v vs ih =>
    cases ds with
    | nil => rfl
    | cons d ds => rw [List.map_cons, setAll, set_map, ih]; rfl

/-- A homomorphism of groups commutes with calls. -/
theorem astep_map (φ : G →+ G') {V : View F G} {V' : View F G'} (hc : ∀ x, V'.comp (φ x) = V.comp x)
    (hu : ∀ x, V'.unc (φ x) = V.unc x) (t : ASt G r) (o : Op F)
    (ho : ∀ d x y, o = .aFromXY d x y → V'.of x y = φ (V.of x y)) :
    astep V' (t.map φ) o = (astep V t o).map φ := by
  have pjs : ∀ d (v : G) (w : G'), w = φ v → ({ t.map φ with pj := set (t.map φ).pj d w } : ASt G' r) =
      ({ t with pj := set t.pj d v } : ASt G r).map φ := by
    rintro d v w rfl
    simp only [ASt.map, set_map]
  have afs : ∀ d (v : G) (w : G'), w = φ v → ({ t.map φ with af := set (t.map φ).af d w } : ASt G' r) =
      ({ t with af := set t.af d v } : ASt G r).map φ := by
    rintro d v w rfl
    simp only [ASt.map, set_map]
  have sum : ∀ l : List ℕ, (l.map (t.map φ).pj).sum = φ (l.map t.pj).sum := by
    intro l
    rw [map_list_sum, List.map_map]
    rfl
  cases o with
  | pIdentity d => exact pjs _ _ _ (map_zero φ).symm
  | pAdd d a b => exact pjs _ _ _ (map_add φ _ _).symm
  | pSub d a b => exact pjs _ _ _ (map_sub φ _ _).symm
  | pNeg d a => exact pjs _ _ _ (map_neg φ _).symm
  | pDouble d a => exact pjs _ _ _ (map_nsmul φ _ _).symm
  | pMul d a k => exact pjs _ _ _ (map_nsmul φ _ _).symm
  | pAddMixed d a b => exact pjs _ _ _ (map_add φ _ _).symm
  | pSubMixed d a b => exact pjs _ _ _ (map_sub φ _ _).symm
  | pSum d l => exact pjs _ _ _ (sum l)
  | pFromAffine d a => exact pjs _ _ _ rfl
  | aIdentity d => exact afs _ _ _ (map_zero φ).symm
  | aFromXY d x y => exact afs _ _ _ (ho d x y rfl)
  | aNeg d a => exact afs _ _ _ (map_neg φ _).symm
  | aFromProj d a => exact afs _ _ _ rfl
  | aMul d a k => exact pjs _ _ _ (map_nsmul φ _ _).symm
  | aAdd d a b => exact pjs _ _ _ (map_add φ _ _).symm
  | aSub d a b => exact pjs _ _ _ (map_sub φ _ _).symm
  | aAddProj d a b => exact pjs _ _ _ (map_add φ _ _).symm
  | aSubProj d a b => exact pjs _ _ _ (map_sub φ _ _).symm
  | batch ds l =>
    simp only [astep, ASt.map]
    rw [← setAll_map φ, List.map_map]
    rfl
  | msm d ks l =>
    refine pjs _ _ _ ?_
    rw [map_list_sum, List.map_zipWith]
    congr 2
    funext k a
    exact (map_nsmul φ _ _).symm
  | outCompressed a => simp only [astep, ASt.map, hc]
  | outUncompressed a => simp only [astep, ASt.map, hu]
  | _ => rfl

/-- An injective homomorphism commutes with comparisons. -/
theorem atest_map [DecidableEq G] [DecidableEq G'] (φ : G →+ G') (hφ : Function.Injective φ) (t : ASt G r) (c : Test) :
    atest (t.map φ) c = atest t c := by
  cases c with
  | eqS => rfl
  | _ => simp only [atest, ASt.map, hφ.eq_iff, map_eq_zero_iff φ hφ]

/-- The multiples of a point killed by `r`, as a homomorphism. -/
def expHom (r : ℕ) {g : G} (hg : r • g = 0) : ZMod r →+ G :=
  ZMod.lift r ⟨zmultiplesHom G g, by rw [zmultiplesHom_apply, natCast_zsmul, hg]⟩

theorem expHom_apply [NeZero r] {g : G} (hg : r • g = 0) (e : ZMod r) : expHom r hg e = e.val • g := by
  conv_lhs => rw [← ZMod.natCast_zmod_val e, ← Int.cast_natCast (R := ZMod r)]
  rw [expHom, ZMod.lift_coe, zmultiplesHom_apply, natCast_zsmul]

theorem expHom_injective {g : G} (hg : r • g = 0) (h0 : g ≠ 0) : Function.Injective (expHom r hg) := by
  have : NeZero r := ⟨(Fact.out : r.Prime).ne_zero⟩
  rw [injective_iff_map_eq_zero]
  intro e he
  rw [expHom_apply, ← addOrderOf_dvd_iff_nsmul_eq_zero, addOrderOf_eq_prime hg h0] at he
  exact (ZMod.val_eq_zero e).mp (Nat.eq_zero_of_dvd_of_lt he (ZMod.val_lt e))

end Exponents

/-- The group of exponents as programs see it: `e` is shown as the point `e g`; points given by coordinates have the
exponents `log`. -/
noncomputable def expView (K : Codec F) (C : Params F) (r : ℕ) (g : Pt C) (log : F → F → ZMod r) : View F (ZMod r) :=
  ⟨log, fun e => K.encode C (affOf (e.val • g)), fun e => K.toUncompressed (affOf (e.val • g))⟩

/-- The registers hold representations of the multiples of `g` with the given exponents. -/
def ExpSim (g : Pt C) (s : St F r) (t : ASt (ZMod r) r) : Prop := Sim s (t.map fun e => e.val • g)

/-- Points given by coordinates are the multiples of `g` with exponent `log`; the rest as in `OpOk`. -/
def ExpOk (C : Params F) (r : ℕ) (g : Pt C) (log : F → F → ZMod r) (o : Op F) : Prop :=
  OpOk o ∧ ∀ d x y, o = .aFromXY d x y → ptOf C x y = (log x y).val • g

/-- **C73** In the group of prime order: any program over multiples of a point `g` of order `r` computes with the exponents
modulo `r`. -/
theorem C73_exponents (K : Codec F) (hC : Good C) {ln : ℕ → ℕ} (hln : LnCeilOk ln) {g : Pt C} (hg : r • g = 0) (h0 : g ≠ 0)
    (log : F → F → ZMod r) (p : Prog (Op F) Test) (hp : p.All (ExpOk C r g log)) (n : ℕ) {s : St F r}
    {t : ASt (ZMod r) r} (h : ExpSim g s t) :
    (arun (expView K C r g log) n p t = none → mrun K C ln n p s = none) ∧
    (∀ t', arun (expView K C r g log) n p t = some t' → ∃ s', mrun K C ln n p s = some (.ok s') ∧ ExpSim g s' t') := by
  have : NeZero r := ⟨(Fact.out : r.Prime).ne_zero⟩
  have hm : ∀ t : ASt (ZMod r) r, (t.map fun e => e.val • g) = t.map (expHom r hg) := fun t => by
    simp only [ASt.map, expHom_apply]
  refine run_sim (emit := emit) (emit' := aemit) (R := ExpSim g) (P := ExpOk C r g log) ?_ ?_ ?_ p hp n h
  · intro s t o h ho
    rw [ExpSim, hm] at h
    obtain ⟨s', e, h'⟩ := step_sim (K := K) hC hln h o ho.1
    refine ⟨s', e, ?_⟩
    rw [ExpSim, hm, ← astep_map (V' := ptView K C) (expHom r hg) (V := expView K C r g log)]
    · exact h'
    · intro x; rw [expHom_apply]; rfl
    · intro x; rw [expHom_apply]; rfl
    · intro d x y e; rw [expHom_apply]; exact ho.2 d x y e
  · intro s t c h
    rw [ExpSim, hm] at h
    rw [test_sim hC h, atest_map _ (expHom_injective hg h0)]
  · intro s t b h
    exact ⟨h.sc, h.pj, h.af, congrArg (Out.bit b :: ·) h.out⟩

/-- A program that computes `(s + 7) * P`, compares it with `s * P + 7 * P`, puts out the answer and the compressed point,
then counts up a scalar until it is `s`, run on secp256r1 with the generator as `(x : y : 1)` and as `(2x : 2y : 2)`. -/
example : ∃ (p : Prog (Op (Fp r1P)) Test) (s1 s2 : St (Fp r1P) r1N), p.All OpOk ∧ s1.pj 0 ≠ s2.pj 0 ∧ s1.sc = s2.sc ∧
    (s1.out = [] ∧ s2.out = []) ∧ (∀ i, ∃ q, PRep Secp256r1.c (s1.pj i) q ∧ PRep Secp256r1.c (s2.pj i) q) ∧
    (∀ i, ∃ q, ARep Secp256r1.c (s1.af i) q ∧ ARep Secp256r1.c (s2.af i) q) := by
  obtain ⟨_, g, hg, h0⟩ := C21_generators.2.2.2.2.2.2.2.2.2.2
  have h1 := hg.toCurve Secp256r1.c_good
  have two : (2 : Fp r1P) ≠ 0 := Secp256r1.c_good.two
  let P := Aff.toCurve Secp256r1.cGen
  refine ⟨.seq (.op (.sConst 1 7)) (.seq (.op (.sAdd 2 0 1)) (.seq (.op (.pMul 1 0 2)) (.seq (.op (.pMul 2 0 0))
    (.seq (.op (.pMul 3 0 1)) (.seq (.op (.pAdd 4 2 3)) (.seq (.out (.eqP 1 4)) (.seq (.op (.aFromProj 0 4))
    (.seq (.op (.outCompressed 0)) (.ite (.eqS 0 1) (.op (.sNeg 0 0)) (.loop (.idP 0) (.op (.sAdd 0 0 1)))))))))))),
    ⟨fun _ => 5, fun _ => P, fun _ => Aff.identity, []⟩,
    ⟨fun _ => 5, fun _ => ⟨2 * P.x, 2 * P.y, 2 * P.z⟩, fun _ => Aff.identity, []⟩, ?_, ?_, rfl, ⟨rfl, rfl⟩,
    fun _ => ⟨g, h1, ?_⟩, fun _ => ⟨0, .identity, .identity⟩⟩
  · simp only [Prog.All, OpOk, and_true]
    decide
  · intro e
    have hz : P.z = 2 * P.z := congrArg Proj.z e
    have : P.z = 0 := by linear_combination -hz
    exact h0 (h1.z_eq_zero.mp this)
  · cases g with
    | zero => exact absurd rfl h0
    | some x y h =>
      obtain ⟨a, b, c⟩ := h1
      exact ⟨mul_ne_zero two a, by change 2 * P.x = x * (2 * P.z); rw [show P.x = x * P.z from b]; ring,
        by change 2 * P.y = y * (2 * P.z); rw [show P.y = y * P.z from c]; ring⟩

end Halo2.Props
