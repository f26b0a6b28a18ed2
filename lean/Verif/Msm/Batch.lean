import Verif.Msm.Serial

/-!
# Batched affine addition and the scheduler of `msm_best`

The points added are finite; on a curve with `a ≠ 0` no point meets its own double.
-/

set_option linter.unusedSectionVars false

namespace Halo2.Msm

open Halo2.Field Halo2.Curve WeierstrassCurve

variable {F : Type} [Field F] [DecidableEq F] [BaseField F] [LawfulBase F] {C : Params F}

/-- `p` or `-p`. -/
def signed (s : Bool) (p : Pt C) : Pt C := if s then p else -p

/-- What a `BucketAffine` stands for; a stored point is finite. -/
def ABRep (b : Option (Aff F)) (p : Pt C) : Prop :=
  match b with
  | none => p = 0
  | some a => ARep C a p ∧ p ≠ 0

/-- The coordinates of `signed s q` for a finite `q`. -/
theorem ARep.signed {Q : Aff F} {q : Pt C} (hq : ARep C Q q) (s : Bool) :
    ARep C ⟨Q.x, if s then Q.y else -Q.y⟩ (Msm.signed s q) := by
  cases s
  · exact hq.neg
  · exact hq

theorem signed_ne_zero {q : Pt C} (hq : q ≠ 0) (s : Bool) : signed s q ≠ 0 := by
  cases s
  · exact neg_ne_zero.mpr hq
  · exact hq

theorem exists_some {Q : Aff F} {q : Pt C} (hq : ARep C Q q) (h0 : q ≠ 0) : ∃ h, q = .some Q.x Q.y h := by
  rcases q with _ | ⟨x, y, h⟩
  · exact absurd rfl h0
  · obtain ⟨h1, h2⟩ := hq
    subst h1 h2
    exact ⟨h, rfl⟩

/-- Chord addition. -/
theorem add_chord {A B : Aff F} {a b : Pt C} (ha : ARep C A a) (hb : ARep C B b) (ha0 : a ≠ 0) (hb0 : b ≠ 0)
    (hx : A.x ≠ B.x) (l : F) (hl : l * (A.x - B.x) = A.y - B.y) (X : F) (hX : X = l * l - (A.x + B.x)) :
    ARep C ⟨X, l * (B.x - X) - B.y⟩ (a + b) ∧ a + b ≠ 0 := by
  obtain ⟨h1, rfl⟩ := exists_some ha ha0
  obtain ⟨h2, rfl⟩ := exists_some hb hb0
  have hd : A.x - B.x ≠ 0 := sub_ne_zero.mpr hx
  have hl' : l = (A.y - B.y) / (A.x - B.x) := by rw [eq_div_iff hd, hl]
  rw [Affine.Point.add_some (by rintro ⟨h, _⟩; exact hx h)]
  refine ⟨?_, Affine.Point.some_ne_zero _⟩
  rw [ARep.some_iff, Affine.slope_of_X_ne hx, ← hl', hX]
  simp only [Affine.addX, Affine.addY, Affine.negAddY, Affine.negY, Curve.W]
  refine ⟨by ring, ?_⟩
  linear_combination -hl

/-- Tangent addition, for `a = 0`. -/
theorem add_tangent (hC : Good C) (h0 : C.a = 0) {A : Aff F} {a : Pt C} (ha : ARep C A a) (ha0 : a ≠ 0)
    (l : F) (hl : l * (A.y + A.y) = A.x * A.x + A.x * A.x + A.x * A.x) (X : F) (hX : X = l * l - (A.x + A.x)) :
    ARep C ⟨X, l * (A.x - X) - A.y⟩ (a + a) ∧ a + a ≠ 0 := by
  obtain ⟨h1, rfl⟩ := exists_some ha ha0
  have hy := y_ne_zero hC h1.1
  have hyy : A.y + A.y ≠ 0 := by rw [← two_mul]; exact mul_ne_zero hC.two hy
  have hny : A.y ≠ (Curve.W C).negY A.x A.y := by
    rw [negY_eq]
    intro h
    exact hyy (by linear_combination h)
  have hl' : l = (A.x * A.x + A.x * A.x + A.x * A.x) / (A.y + A.y) := by rw [eq_div_iff hyy, hl]
  rw [Affine.Point.add_some (by rintro ⟨_, h⟩; exact hny h)]
  refine ⟨?_, Affine.Point.some_ne_zero _⟩
  rw [ARep.some_iff, Affine.slope_of_Y_ne rfl hny]
  have hs : (3 * A.x ^ 2 + 2 * (Curve.W C).a₂ * A.x + (Curve.W C).a₄ - (Curve.W C).a₁ * A.y)
      / (A.y - (Curve.W C).negY A.x A.y) = l := by
    rw [hl', negY_eq]
    simp only [Curve.W, h0]
    congr 1 <;> ring
  rw [hs, hX]
  simp only [Affine.addX, Affine.addY, Affine.negAddY, Affine.negY, Curve.W]
  refine ⟨by ring, by ring⟩

/-- Opposite points. -/
theorem add_opp {A B : Aff F} {a b : Pt C} (ha : ARep C A a) (hb : ARep C B b) (ha0 : a ≠ 0) (hb0 : b ≠ 0)
    (hx : A.x = B.x) (hy : A.y = -B.y) : a + b = 0 := by
  obtain ⟨h1, rfl⟩ := exists_some ha ha0
  obtain ⟨h2, rfl⟩ := exists_some hb hb0
  exact Affine.Point.add_of_Y_eq hx (by rw [negY_eq]; exact hy)

/-- Two finite points with the same `x` are equal or opposite. -/
theorem y_eq_or {A B : Aff F} {a b : Pt C} (ha : ARep C A a) (hb : ARep C B b) (ha0 : a ≠ 0) (hb0 : b ≠ 0)
    (hx : A.x = B.x) : A.y = B.y ∨ A.y = -B.y := by
  obtain ⟨h1, rfl⟩ := exists_some ha ha0
  obtain ⟨h2, rfl⟩ := exists_some hb hb0
  have e1 := (equation_iff C _ _).mp h1.1
  have e2 := (equation_iff C _ _).mp h2.1
  rw [hx] at e1
  have : (A.y - B.y) * (A.y + B.y) = 0 := by linear_combination e1 - e2
  rcases mul_eq_zero.mp this with h | h
  · exact Or.inl (sub_eq_zero.mp h)
  · exact Or.inr (eq_neg_of_add_eq_zero_left h)

/-- The bases stand for the points `pt i`. -/
def BasesRep (bases : List (Aff F)) (pt : ℕ → Pt C) : Prop :=
  ∀ i q, bases[i]? = some q → ARep C q (pt i)

/-- The combined effect of `fwdStep` and the matching `bwdStep` on a full bucket. -/
inductive StepKind (bases : List (Aff F)) (buckets : List (Option (Aff F))) (acc : F) (sp : SchedPt) (b : Aff F)
    (p : Pt C) : Prop
  | cancel (h1 : fwdStep bases buckets acc sp = some ((0, 0), buckets.set sp.buckIdx none, acc)) (h2 : p = 0)
  | point (t z : F) (r : Aff F) (h1 : fwdStep bases buckets acc sp = some ((t, z), buckets, acc * z)) (hz : z ≠ 0)
      (h2 : ∀ bk, bk[sp.buckIdx]? = some (some b) →
        bwdStep bases (bk, (acc * z)⁻¹) (sp, t, z) = some (bk.set sp.buckIdx (some r), acc⁻¹))
      (h3 : ARep C r p) (h4 : p ≠ 0)

theorem step_spec (hC : Good C) {bases : List (Aff F)} {pt : ℕ → Pt C} (hB : BasesRep bases pt)
    {buckets : List (Option (Aff F))} {acc : F} (hacc : acc ≠ 0) (sp : SchedPt) {b : Aff F} {pb : Pt C}
    (hb : buckets[sp.buckIdx]? = some (some b)) (hpb : ARep C b pb) (hpb0 : pb ≠ 0) (hq : sp.baseIdx < bases.length)
    (hA0 : pt sp.baseIdx ≠ 0) (hdbl : C.a = 0 ∨ pb ≠ signed sp.sign (pt sp.baseIdx)) :
    StepKind bases buckets acc sp b (pb + signed sp.sign (pt sp.baseIdx)) := by
  have hbq : bases[sp.baseIdx]? = some bases[sp.baseIdx] := List.getElem?_eq_getElem hq
  have hA := hB _ _ hbq
  generalize bases[sp.baseIdx] = q at *
  have hS := ARep.signed hA sp.sign
  have hS0 := signed_ne_zero hA0 sp.sign
  have hcancel : ∀ z : F, z ≠ 0 → (acc * z)⁻¹ * z = acc⁻¹ := by
    intro z hz; rw [mul_inv, mul_assoc, inv_mul_cancel₀ hz, mul_one]
  have hlam : ∀ z n : F, z ≠ 0 → (acc * z)⁻¹ * (acc * n) * z = n := by
    intro z n hz; field_simp
  by_cases hx : b.x = q.x
  · have hy := y_eq_or hpb hA hpb0 hA0 hx
    have hqy : q.y ≠ 0 := by obtain ⟨h, _⟩ := exists_some hA hA0; exact y_ne_zero hC h.1
    have hqq : q.y ≠ -q.y := by
      intro h
      have : (2 : F) * q.y = 0 := by linear_combination h
      exact (mul_ne_zero hC.two hqy) this
    by_cases hd : ((decide (b.y = q.y)) ^^ !sp.sign) = true
    · -- doubling
      have hby : b.y = if sp.sign then q.y else -q.y := by
        cases hs : sp.sign
        · rw [hs] at hd
          rcases hy with h | h
          · simp [h] at hd
          · simpa using h
        · rw [hs] at hd
          simpa using hd
      have hsame : pb = signed sp.sign (pt sp.baseIdx) := by
        have : b = ⟨q.x, if sp.sign then q.y else -q.y⟩ := by
          cases b; simp only at hx hby; rw [hx, hby]
        rw [this] at hpb
        exact hpb.unique hC hS
      have hz : b.y + b.y ≠ 0 := by
        have : b.y ≠ 0 := by
          rw [hby]; split
          · exact hqy
          · exact neg_ne_zero.mpr hqy
        rw [← two_mul]; exact mul_ne_zero hC.two this
      have h0 : C.a = 0 := hdbl.resolve_right (fun h => h hsame)
      obtain ⟨r1, r2⟩ := add_tangent hC h0 hpb hpb0
        ((acc * (b.y + b.y))⁻¹ * (acc * (q.x * q.x + q.x * q.x + q.x * q.x)))
        (by rw [hlam _ _ hz, hx]) _ rfl
      rw [← hsame]
      refine StepKind.point (acc * (q.x * q.x + q.x * q.x + q.x * q.x)) (b.y + b.y) _ ?_ hz ?_ r1 r2
      · rw [fwdStep, hb]
        dsimp only
        rw [hbq]
        dsimp only
        rw [if_pos hx, if_pos hd, LawfulBase.sqr_eq]
      · intro bk hbk
        rw [bwdStep]
        dsimp only
        rw [hbk]
        dsimp only
        rw [hbq]
        dsimp only
        rw [hcancel _ hz, LawfulBase.sqr_eq, ← hx, hby]
        congr 5
        cases sp.sign
        · simp
        · simp
    · -- cancellation
      refine StepKind.cancel ?_ (add_opp hpb hS hpb0 hS0 hx ?_)
      · rw [fwdStep, hb]
        dsimp only
        rw [hbq]
        dsimp only
        rw [if_pos hx, if_neg hd]
      · cases hs : sp.sign
        · rw [hs] at hd
          simp only [Bool.not_false, Bool.xor_true, Bool.not_eq_true', decide_eq_false_iff_not, not_not] at hd
          simpa using hd
        · rw [hs] at hd
          simp only [Bool.not_true, Bool.xor_false, decide_eq_true_iff] at hd
          simpa using hy.resolve_left hd
  · have hz : b.x - q.x ≠ 0 := sub_ne_zero.mpr hx
    have hnum : (if sp.sign then acc * (b.y - q.y) else acc * (b.y + q.y))
        = acc * (b.y - (if sp.sign then q.y else -q.y)) := by
      cases sp.sign
      · simp
      · simp
    obtain ⟨r1, r2⟩ := add_chord hpb hS hpb0 hS0 hx
      ((acc * (b.x - q.x))⁻¹ * (acc * (b.y - (if sp.sign then q.y else -q.y))))
      (by rw [hlam _ _ hz]) _ rfl
    refine StepKind.point (acc * (b.y - (if sp.sign then q.y else -q.y))) (b.x - q.x) _ ?_ hz ?_ r1 r2
    · rw [fwdStep, hb]
      dsimp only
      rw [hbq]
      dsimp only
      rw [if_neg hx, hnum]
    · intro bk hbk
      rw [bwdStep]
      dsimp only
      rw [hbk]
      dsimp only
      rw [hbq]
      dsimp only
      rw [hcancel _ hz, LawfulBase.sqr_eq]
      congr 5
      cases sp.sign
      · simp
      · simp

/-- The value of a list of scheduled points. -/
def pendSum (pt : ℕ → Pt C) (sps : List SchedPt) : Pt C :=
  (sps.map (fun sp => (sp.buckIdx + 1) • signed sp.sign (pt sp.baseIdx))).sum

/-- A scheduled point: its indices are in range, its base is finite and its bucket holds a point. -/
def PendOk (bases : List (Aff F)) (pt : ℕ → Pt C) (buckets : List (Option (Aff F))) (sp : SchedPt) : Prop :=
  (sp.baseIdx < bases.length ∧ pt sp.baseIdx ≠ 0) ∧ ∃ b, buckets[sp.buckIdx]? = some (some b)

theorem batch_loops (hC : Good C) {bases : List (Aff F)} {pt : ℕ → Pt C} (hB : BasesRep bases pt)
    (sps : List SchedPt) (hnd : (sps.map SchedPt.buckIdx).Nodup) {buckets : List (Option (Aff F))} {v : ℕ → Pt C}
    (hv : BsRep ABRep buckets v) (hok : ∀ sp ∈ sps, PendOk bases pt buckets sp)
    (hdbl : ∀ sp ∈ sps, C.a = 0 ∨ v sp.buckIdx ≠ signed sp.sign (pt sp.baseIdx)) {acc : F} (hacc : acc ≠ 0) :
    ∃ tzs bk1 acc1, fwd bases sps buckets acc = some (tzs, bk1, acc1) ∧ acc1 ≠ 0 ∧
      ∃ bk2 v2, tzs.reverse.foldlM (bwdStep bases) (bk1, acc1⁻¹) = some (bk2, acc⁻¹) ∧
        bk2.length = buckets.length ∧ BsRep ABRep bk2 v2 ∧
        (∀ j, j ∉ sps.map SchedPt.buckIdx → bk2[j]? = buckets[j]? ∧ v2 j = v j) ∧
        (∀ sp ∈ sps, v2 sp.buckIdx = v sp.buckIdx + signed sp.sign (pt sp.baseIdx)) ∧
        wsum buckets.length v2 = wsum buckets.length v + pendSum pt sps := by
  induction sps generalizing buckets v acc with
  | nil =>
    refine ⟨[], buckets, acc, rfl, hacc, buckets, v, rfl, rfl, hv, fun j _ => ⟨rfl, rfl⟩, by simp, ?_⟩
    simp [pendSum]
  | cons sp sps ih =>
    rw [List.map_cons, List.nodup_cons] at hnd
    obtain ⟨⟨hq, hq0⟩, b, hb⟩ := hok sp (by simp)
    have hlt : sp.buckIdx < buckets.length := (List.getElem?_eq_some_iff.mp hb).1
    obtain ⟨hpb, hpb0⟩ := hv _ _ hb
    have hps : pendSum pt (sp :: sps) = (sp.buckIdx + 1) • signed sp.sign (pt sp.baseIdx) + pendSum pt sps := by
      rw [pendSum, List.map_cons, List.sum_cons]; rfl
    have hne' : ∀ sp' ∈ sps, sp.buckIdx ≠ sp'.buckIdx := fun sp' hsp' h => hnd.1 (h ▸ List.mem_map_of_mem hsp')
    rcases step_spec hC hB hacc sp hb hpb hpb0 hq hq0 (hdbl sp (by simp)) with ⟨h1, h2⟩ | ⟨t, z, r, h1, hz, h2, h3, h4⟩
    · obtain ⟨tzs, bk1, acc1, f1, f2, bk2, v2, f3, f4, f5, f6, f8, f7⟩ := ih hnd.2
        (hv.set sp.buckIdx none (v sp.buckIdx + signed sp.sign (pt sp.baseIdx)) h2)
        (by
          intro sp' hsp'
          obtain ⟨g1, b', g2⟩ := hok sp' (by simp [hsp'])
          refine ⟨g1, b', ?_⟩
          have hne : sp.buckIdx ≠ sp'.buckIdx := by
            intro h
            exact hnd.1 (h ▸ List.mem_map_of_mem hsp')
          rw [List.getElem?_set_ne hne, g2])
        (by
          intro sp' hsp'
          rw [Function.update_of_ne (hne' sp' hsp').symm]
          exact hdbl sp' (by simp [hsp'])) hacc
      refine ⟨(sp, 0, 0) :: tzs, bk1, acc1, ?_, f2, bk2, v2, ?_, ?_, f5, ?_, ?_, ?_⟩
      · rw [fwd, h1]
        dsimp only
        rw [f1]
      · rw [List.reverse_cons, List.foldlM_append, f3]
        have hnone : bk2[sp.buckIdx]? = some none := by
          rw [(f6 _ hnd.1).1, List.getElem?_set_self hlt]
        simp only [Option.bind_eq_bind, Option.bind_some, List.foldlM_cons, List.foldlM_nil]
        rw [bwdStep]
        dsimp only
        rw [hnone]
        rfl
      · rw [f4, List.length_set]
      · intro j hj
        rw [List.map_cons, List.mem_cons, not_or] at hj
        obtain ⟨g1, g2⟩ := f6 j hj.2
        rw [g1, g2, List.getElem?_set_ne (Ne.symm hj.1), Function.update_of_ne hj.1]
        exact ⟨rfl, rfl⟩
      · intro sp' hsp'
        rcases List.mem_cons.mp hsp' with rfl | hsp'
        · rw [(f6 _ hnd.1).2, Function.update_self]
        · rw [f8 sp' hsp', Function.update_of_ne (hne' sp' hsp').symm]
      · rw [List.length_set] at f7
        rw [f7, wsum_update _ _ _ hlt, hps, add_assoc]
    · obtain ⟨tzs, bk1, acc1, f1, f2, bk2, v2, f3, f4, f5, f6, f8, f7⟩ := ih hnd.2 hv
        (fun sp' hsp' => hok sp' (by simp [hsp'])) (fun sp' hsp' => hdbl sp' (by simp [hsp'])) (mul_ne_zero hacc hz)
      have hb2 : bk2[sp.buckIdx]? = some (some b) := by rw [(f6 _ hnd.1).1, hb]
      have hv2 : v2 sp.buckIdx = v sp.buckIdx := (f6 _ hnd.1).2
      refine ⟨(sp, t, z) :: tzs, bk1, acc1, ?_, f2, bk2.set sp.buckIdx (some r),
        Function.update v2 sp.buckIdx (v2 sp.buckIdx + signed sp.sign (pt sp.baseIdx)), ?_, ?_, ?_, ?_, ?_, ?_⟩
      · rw [fwd, h1]
        dsimp only
        rw [f1]
      · rw [List.reverse_cons, List.foldlM_append, f3]
        simp only [Option.bind_eq_bind, Option.bind_some, List.foldlM_cons, List.foldlM_nil]
        rw [h2 bk2 hb2]
        rfl
      · rw [List.length_set, f4]
      · apply f5.set
        rw [hv2]
        exact ⟨h3, h4⟩
      · intro j hj
        rw [List.map_cons, List.mem_cons, not_or] at hj
        obtain ⟨g1, g2⟩ := f6 j hj.2
        rw [List.getElem?_set_ne (Ne.symm hj.1), Function.update_of_ne hj.1]
        exact ⟨g1, g2⟩
      · intro sp' hsp'
        rcases List.mem_cons.mp hsp' with rfl | hsp'
        · rw [Function.update_self, hv2]
        · rw [Function.update_of_ne (hne' sp' hsp').symm, f8 sp' hsp']
      · rw [wsum_update _ _ _ hlt, f7, hps]
        abel

theorem batchAdd_spec (hC : Good C) {bases : List (Aff F)} {pt : ℕ → Pt C} (hB : BasesRep bases pt)
    (sps rest : List SchedPt) (hnd : (sps.map SchedPt.buckIdx).Nodup) {buckets : List (Option (Aff F))} {v : ℕ → Pt C}
    (hv : BsRep ABRep buckets v) (hok : ∀ sp ∈ sps, PendOk bases pt buckets sp)
    (hdbl : ∀ sp ∈ sps, C.a = 0 ∨ v sp.buckIdx ≠ signed sp.sign (pt sp.baseIdx)) :
    ∃ bk v2, batchAdd sps.length buckets (sps ++ rest) bases = some bk ∧ bk.length = buckets.length ∧
      BsRep ABRep bk v2 ∧ (∀ j, j ∉ sps.map SchedPt.buckIdx → v2 j = v j) ∧
      (∀ sp ∈ sps, v2 sp.buckIdx = v sp.buckIdx + signed sp.sign (pt sp.baseIdx)) ∧
      wsum buckets.length v2 = wsum buckets.length v + pendSum pt sps := by
  obtain ⟨tzs, bk1, acc1, f1, f2, bk2, v2, f3, f4, f5, f6, f8, f7⟩ :=
    batch_loops hC hB sps hnd hv hok hdbl (one_ne_zero : (1 : F) ≠ 0)
  refine ⟨bk2, v2, ?_, f4, f5, fun j hj => (f6 j hj).2, f8, f7⟩
  rw [batchAdd, List.take_left, f1]
  dsimp only
  rw [LawfulBase.invert_eq, if_neg f2]
  dsimp only
  rw [f3]

end Halo2.Msm
