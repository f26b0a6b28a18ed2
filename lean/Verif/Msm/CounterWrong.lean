import Verif.Msm.Counter

/-!
# An input on which `msm_best` returns a wrong point

The terms are those of `Verif.Msm.Counter`. On secp256r1 the point with `x = 0` is doubled, without the
coefficient `a`, into its opposite, which is on the curve: no check fails.
-/

set_option linter.unusedSectionVars false

namespace Halo2.Msm

open Halo2.Field Halo2.Curve Halo2.Prime

variable {F : Type} [Field F] [DecidableEq F] [BaseField F] [LawfulBase F] {C : Params F}

theorem booth_high {r : ℕ} [Fact (OddModulus r)] (c w : ℕ) (h1 : 10 ≤ c) (h2 : c ≤ 24) (hw : 1 ≤ w) (k : Fp r)
    (hk : k.toNat ≤ 2) : boothIndex w c (Fp.toRepr k) = 0 := by
  obtain ⟨hb, hv⟩ := toRepr_spec k
  rw [boothIndex_eq w c _ hb (by omega) h2, hv, window]
  have h3 : 2 ^ 10 ≤ 2 ^ (w * c) := Nat.pow_le_pow_right (by decide) (le_trans h1 (Nat.le_mul_of_pos_left c hw))
  have h4 : 0 < 2 ^ c := Nat.pow_pos (by decide)
  rw [Nat.div_eq_of_lt (by omega), Nat.zero_mod, if_pos h4]
  rfl

/-- The first window. -/
theorem wrongWindow_zero (hC : Good C) {r : ℕ} [Fact (OddModulus r)] (hr : 2 < r) (m c : ℕ) (hc1 : 10 ≤ c) (hc2 : c ≤ 24)
    (P Q R : Aff F) {ρ : Pt C} (hR : ARep C R ρ) (h0 : ρ ≠ 0)
    (hbatch : batchAdd 1 (badBuckets c P) (⟨1, 1, true⟩ :: List.replicate 63 SchedPt.default) (badBases m P Q)
      = some ((badBuckets c P).set 1 (some R))) :
    ∃ A, bestWindow C c ((badScalars r m).map Fp.toRepr) (badBases m P Q) (badBases m P Q) 0 Proj.identity = some A ∧
      PRep C A (2 • ρ) := by
  have hn : 1 < 1 <<< (c - 1) := by
    rw [Nat.shiftLeft_eq, one_mul]
    exact lt_of_lt_of_le (by decide : 1 < 2 ^ 1) (Nat.pow_le_pow_right (by decide) (by omega))
  have hset : (badBuckets c P).set 1 (some R) = (List.replicate (1 <<< (c - 1)) none).set 1 (some R) := by
    rw [badBuckets, List.set_set]
  have hv : BsRep ABRep ((badBuckets c P).set 1 (some R)) (Function.update (fun _ => (0 : Pt C)) 1 ρ) := by
    rw [hset]
    exact (BsRep.replicate (R := ABRep) (show ABRep none 0 from rfl) _).set 1 (some R) ρ ⟨hR, h0⟩
  obtain ⟨r', er, _, r2⟩ := bestSum_spec hC (List.replicate (1 <<< (c - 1)) none) ((badBuckets c P).set 1 (some R))
    (by rw [hset, List.length_set, List.length_replicate, List.length_replicate]) (fun _ => 0) _
    (BsRep.replicate (R := JRep) (show JRep none 0 from rfl) _) hv PRep.identity
  rw [List.length_replicate, wsum_add, wsum_zero, zero_add, zero_add] at r2
  have hw := wsum_update (1 <<< (c - 1)) (fun _ => (0 : Pt C)) 1 hn ρ
  rw [wsum_zero, zero_add] at hw
  rw [zero_add] at hw
  rw [hw] at r2
  refine ⟨r'.2, ?_, r2⟩
  rw [bestWindow, badFold hr m c hc1 hc2 P Q]
  dsimp only
  rw [Sched.execute]
  dsimp only
  rw [if_pos (by decide), hbatch]
  dsimp only
  rw [er, Nat.mul_zero]
  rfl

/-- The other windows. -/
theorem wrongWindow_succ (hC : Good C) {r : ℕ} [Fact (OddModulus r)] (hr : 2 < r) (m c w : ℕ) (hc1 : 10 ≤ c) (hc2 : c ≤ 24)
    (hw : 1 ≤ w) (P Q : Aff F) :
    ∃ A, bestWindow C c ((badScalars r m).map Fp.toRepr) (badBases m P Q) (badBases m P Q) w Proj.identity = some A ∧
      PRep C A (0 : Pt C) := by
  have hfold : ((badScalars r m).map Fp.toRepr).zipIdx.foldlM (bestStep C c w (badBases m P Q) (badBases m P Q))
      (List.replicate (1 <<< (c - 1)) none, Sched.new c) = some (List.replicate (1 <<< (c - 1)) none, Sched.new c) := by
    apply foldlM_id
    intro s b hb
    obtain ⟨_, hm, h3⟩ := List.mem_zipIdx (x := b.1) (i := b.2) hb
    have hmem : b.1 ∈ (badScalars r m).map Fp.toRepr := by rw [h3]; exact List.getElem_mem _
    obtain ⟨k, hk, e⟩ := List.mem_map.mp hmem
    have hk2 : k.toNat ≤ 2 := by
      rw [badScalars] at hk
      rcases List.mem_cons.mp hk with rfl | hk
      · rw [Fp.toNat_natCast, Nat.mod_eq_of_lt hr]
      · rcases List.mem_cons.mp hk with rfl | hk
        · rw [Fp.toNat_natCast, Nat.mod_eq_of_lt hr]
        · rw [(List.mem_replicate.mp hk).2, Fp.toNat_zero]; omega
    rw [bestStep]
    dsimp only
    rw [← e, booth_high c w hc1 hc2 hw k hk2]
    rfl
  obtain ⟨r', er, _, r2⟩ := bestSum_spec hC (List.replicate (1 <<< (c - 1)) none) (List.replicate (1 <<< (c - 1)) none)
    (by simp only [List.length_replicate]) (fun _ => 0) (fun _ => (0 : Pt C)) (BsRep.replicate (R := JRep) (show JRep none 0 from rfl) _)
    (BsRep.replicate (R := ABRep) (show ABRep none 0 from rfl) _) PRep.identity
  rw [List.length_replicate, wsum_add, wsum_zero, zero_add, zero_add] at r2
  have hd := PRep.iterate_double hC r2 (c * w)
  rw [smul_zero] at hd
  refine ⟨_, ?_, hd⟩
  rw [bestWindow, hfold]
  dsimp only
  rw [Sched.execute, Sched.new]
  dsimp only
  rw [if_neg (by decide)]
  dsimp only
  rw [er]

/-- `msm_best` on the terms `2 P + 2 Q`, when its batched sum of `P` and `Q` is a point `R` of the curve. -/
theorem wrongBest (hC : Good C) {r : ℕ} [Fact (OddModulus r)] (hr : 2 < r) (ln : ℕ → ℕ) (h1 : 10 ≤ ln 8104) (h2 : ln 8104 ≤ 24)
    (P Q R : Aff F) (hP : Aff.isOnCurve C P = true) (hQ : Aff.isOnCurve C Q = true) {ρ : Pt C} (hR : ARep C R ρ) (h0 : ρ ≠ 0)
    (t z : F) (hz : z ≠ 0)
    (hf : ∀ bk : List (Option (Aff F)), bk[1]? = some (some P) →
      fwdStep (badBases 8102 P Q) bk 1 ⟨1, 1, true⟩ = some ((t, z), bk, 1 * z))
    (hb : ∀ bk : List (Option (Aff F)), bk[1]? = some (some P) →
      bwdStep (badBases 8102 P Q) (bk, (1 * z)⁻¹) (⟨1, 1, true⟩, t, z) = some (bk.set 1 (some R), (1 * z)⁻¹ * z))
    (numBits threads : ℕ) (order1 order2 : List ℕ)
    (ho2 : order2.Perm (List.range (numBits / windowSize ln 8104 + 1))) :
    ∃ A, msmBest C ln numBits threads order1 order2 ((badScalars r 8102).map Fp.toRepr) (badBases 8102 P Q) = some A ∧
      PRep C A (2 • ρ) := by
  have hl1 : ((badScalars r 8102).map Fp.toRepr).length = 8104 := by
    rw [List.length_map, badScalars, List.length_cons, List.length_cons, List.length_replicate]
  have hl2 : (badBases 8102 P Q).length = 8104 := by
    rw [badBases, List.length_cons, List.length_cons, List.length_replicate]
  have hw : windowSize ln 8104 = ln 8104 := by
    rw [windowSize]; norm_num
  rw [msmBest, hl1, hl2, if_neg (fun h => h rfl)]
  dsimp only
  rw [hw] at ho2 ⊢
  rw [if_neg (by omega), badBases_map hC P Q hP hQ]
  dsimp only
  have hbatch := badBatch (ln 8104) h1 P Q R t z hz hf hb
  have hex : ∀ w, ∃ A, bestWindow C (ln 8104) ((badScalars r 8102).map Fp.toRepr) (badBases 8102 P Q) (badBases 8102 P Q) w
      Proj.identity = some A ∧ PRep C A (if w = 0 then 2 • ρ else 0) := by
    intro w
    by_cases h : w = 0
    · subst h
      rw [if_pos rfl]
      exact wrongWindow_zero hC hr 8102 _ h1 h2 P Q R hR h0 hbatch
    · rw [if_neg h]
      exact wrongWindow_succ hC hr 8102 _ w h1 h2 (by omega) P Q
  choose A hA1 hA2 using hex
  rw [runTasks_spec _ A _ order2 ho2 Proj.identity (fun i _ => hA1 i)]
  refine ⟨_, rfl, ?_⟩
  have := foldl_add_spec hC (numBits / ln 8104 + 1) A _ (fun i _ => hA2 i)
  rw [Finset.sum_ite_eq' (Finset.range (numBits / ln 8104 + 1)) 0 (fun _ => 2 • ρ),
    if_pos (Finset.mem_range.mpr (Nat.succ_pos _))] at this
  exact this

/-! ## secp256r1: the point with `x = 0` -/

/-- A square root of `b`. -/
@[irreducible] def r1Root : ℕ := 0x66485c780e2f83d72433bd5d84a06bb6541c2af31dae871728bf856a174f93f4

/-- The point `(0, √b)` of secp256r1. -/
noncomputable def r1Zero : Aff (Fp r1P) := ⟨0, (r1Root : Fp r1P)⟩

theorem r1Zero_equation : r1Zero.y * r1Zero.y = Secp256r1.c.b := by
  rw [Secp256r1.cBVal_eq, r1Zero]
  dsimp only
  rw [← Nat.cast_mul, Fp.natCast_eq_iff]
  decide +kernel

theorem r1Zero_on : Aff.isOnCurve Secp256r1.c r1Zero = true := by
  rw [Aff.isOnCurve_iff]
  right
  have := r1Zero_equation
  have hx : r1Zero.x = 0 := rfl
  rw [hx]
  linear_combination this

theorem r1Zero_y : r1Zero.y ≠ 0 := by
  rw [r1Zero]
  dsimp only
  rw [← Nat.cast_zero, Ne, Fp.natCast_eq_iff]
  decide +kernel

theorem r1Zero_two : r1Zero.y + r1Zero.y ≠ 0 := by
  rw [← two_mul]
  exact mul_ne_zero Secp256r1.c_good.two r1Zero_y

theorem r1_wrong (ln : ℕ → ℕ) (h1 : 10 ≤ ln 8104) (h2 : ln 8104 ≤ 24) (threads : ℕ) (order1 order2 : List ℕ)
    (ho2 : order2.Perm (List.range (numBits r1N / windowSize ln 8104 + 1))) :
    ∃ (p : Pt Secp256r1.c) (A : Proj (Fp r1P)), ARep Secp256r1.c r1Zero p ∧ p ≠ 0 ∧
      msmBest Secp256r1.c ln (numBits r1N) threads order1 order2 ((badScalars r1N 8102).map Fp.toRepr)
        (badBases 8102 r1Zero r1Zero) = some A ∧ PRep Secp256r1.c A (2 • -p) := by
  obtain ⟨p, hp⟩ := (Aff.valid_iff Secp256r1.c_good r1Zero).mpr r1Zero_on
  have hp0 : p ≠ 0 := by
    rintro rfl
    exact r1Zero_y (hp.2)
  have hf : ∀ bk : List (Option (Aff (Fp r1P))), bk[1]? = some (some r1Zero) → fwdStep (badBases 8102 r1Zero r1Zero) bk 1
      ⟨1, 1, true⟩ = some ((0, r1Zero.y + r1Zero.y), bk, 1 * (r1Zero.y + r1Zero.y)) := by
    intro bk hbk
    rw [fwdStep]
    dsimp only
    rw [hbk]
    dsimp only
    rw [badBases_one]
    dsimp only
    rw [if_pos rfl, if_pos (by simp), LawfulBase.sqr_eq]
    have hx : r1Zero.x = 0 := rfl
    rw [hx]
    simp only [mul_zero, add_zero]
  have hb : ∀ bk : List (Option (Aff (Fp r1P))), bk[1]? = some (some r1Zero) →
      bwdStep (badBases 8102 r1Zero r1Zero) (bk, (1 * (r1Zero.y + r1Zero.y))⁻¹) (⟨1, 1, true⟩, 0, r1Zero.y + r1Zero.y)
        = some (bk.set 1 (some (Aff.neg r1Zero)), (1 * (r1Zero.y + r1Zero.y))⁻¹ * (r1Zero.y + r1Zero.y)) := by
    intro bk hbk
    rw [bwdStep]
    dsimp only
    rw [hbk]
    dsimp only
    rw [badBases_one]
    dsimp only
    have hx : r1Zero.x = 0 := rfl
    rw [hx, LawfulBase.sqr_eq, if_pos rfl]
    simp only [mul_zero, add_zero, sub_zero, zero_sub]
    rfl
  have key := wrongBest Secp256r1.c_good (r := r1N) (by decide +kernel) ln h1 h2 r1Zero r1Zero (Aff.neg r1Zero)
    r1Zero_on r1Zero_on hp.neg (neg_ne_zero.mpr hp0) 0 (r1Zero.y + r1Zero.y) r1Zero_two hf hb (numBits r1N) threads order1 order2 ho2
  obtain ⟨A, e, hA⟩ := key
  exact ⟨p, A, hp, hp0, e, hA⟩

end Halo2.Msm
