import Verif.Msm.Best
import Verif.Curve.Inst
import Verif.Field.FpBytes

/-!
# Inputs on which `msm_best` fails

8104 terms (the smallest length whose window is 10 bits wide), of which all but the first two have the
scalar 0. Both first scalars are 2, so the two bases meet in the same affine bucket.
-/

set_option linter.unusedSectionVars false

namespace Halo2.Msm

open Halo2.Field Halo2.Curve Halo2.Prime

theorem foldlM_none {σ α : Type} (f : σ → α → Option σ) (l : List α) (b : α) (hb : b ∈ l) (h : ∀ s, f s b = none)
    (s : σ) : l.foldlM f s = none := by
  induction l generalizing s with
  | nil => cases hb
  | cons x xs ih =>
    rw [List.foldlM_cons]
    rcases List.mem_cons.mp hb with rfl | hb
    · rw [h s]; rfl
    · cases f s x with
      | none => rfl
      | some s' => exact ih hb s'

theorem foldlM_id {σ α : Type} (f : σ → α → Option σ) (l : List α) (h : ∀ s, ∀ b ∈ l, f s b = some s) (s : σ) :
    l.foldlM f s = some s := by
  induction l generalizing s with
  | nil => rfl
  | cons x xs ih =>
    rw [List.foldlM_cons, h s x (by simp)]
    exact ih (fun s b hb => h s b (by simp [hb])) s

theorem runTasks_none {α : Type} (task : ℕ → α → Option α) (order : List ℕ) (i : ℕ) (hi : i ∈ order)
    (h : ∀ v, task i v = none) (s : List α) : runTasks task order s = none := by
  rw [runTasks]
  apply foldlM_none _ _ i hi
  intro s
  cases s[i]? with
  | none => rfl
  | some v => simp only [h v]

section Booth

variable {r : ℕ} [Fact (OddModulus r)]

theorem toRepr_spec (k : Fp r) : IsBytes (Fp.toRepr k) ∧ leNat (Fp.toRepr k) = k.toNat := by
  obtain ⟨_, hb, hv⟩ := Fp.toBytes_spec .LE k
  exact ⟨hb, hv⟩

theorem booth_two (hr : 2 < r) (c : ℕ) (h1 : 3 ≤ c) (h2 : c ≤ 24) : boothIndex 0 c (Fp.toRepr ((2 : ℕ) : Fp r)) = 2 := by
  obtain ⟨hb, hv⟩ := toRepr_spec ((2 : ℕ) : Fp r)
  rw [Fp.toNat_natCast, Nat.mod_eq_of_lt hr] at hv
  rw [boothIndex_eq 0 c _ hb (by omega) h2, hv, window]
  have h4 : (8 : ℕ) ≤ 2 ^ c := le_trans (by decide : 8 ≤ 2 ^ 3) (Nat.pow_le_pow_right (by decide) (by omega))
  have h5 : 2 ^ (c + 1) = 2 * 2 ^ c := by ring
  rw [Nat.zero_mul, pow_zero, Nat.div_one, Nat.mod_eq_of_lt (by omega), if_pos (by omega)]
  norm_num

theorem booth_zero (c : ℕ) (h1 : 1 ≤ c) (h2 : c ≤ 24) : boothIndex 0 c (Fp.toRepr (0 : Fp r)) = 0 := by
  obtain ⟨hb, hv⟩ := toRepr_spec (0 : Fp r)
  rw [Fp.toNat_zero] at hv
  rw [boothIndex_eq 0 c _ hb (by omega) h2, hv, window]
  have h4 : 0 < 2 ^ c := Nat.pow_pos (by decide)
  simp [h4]

end Booth

/-- The scalars `2, 2, 0, ..., 0` with `m` zeros. -/
def badScalars (r : ℕ) [Fact (OddModulus r)] (m : ℕ) : List (Fp r) :=
  ((2 : ℕ) : Fp r) :: ((2 : ℕ) : Fp r) :: List.replicate m 0

variable {F : Type} [Field F] [DecidableEq F] [BaseField F] [LawfulBase F] {C : Params F}

/-- The bases `P, Q, Q, ..., Q`. -/
def badBases (m : ℕ) (P Q : Aff F) : List (Aff F) := P :: Q :: List.replicate m Q

theorem badBases_zero (m : ℕ) (P Q : Aff F) : (badBases m P Q)[0]? = some P := rfl

theorem badBases_one (m : ℕ) (P Q : Aff F) : (badBases m P Q)[1]? = some Q := rfl

/-- The buckets after the first term. -/
def badBuckets (c : ℕ) (P : Aff F) : List (Option (Aff F)) := (List.replicate (1 <<< (c - 1)) none).set 1 (some P)

/-- The loop of the first window: the second term is scheduled for the bucket of the first. -/
theorem badFold {r : ℕ} [Fact (OddModulus r)] (hr : 2 < r) (m c : ℕ) (hc1 : 10 ≤ c) (hc2 : c ≤ 24) (P Q : Aff F) :
    ((badScalars r m).map Fp.toRepr).zipIdx.foldlM (bestStep C c 0 (badBases m P Q) (badBases m P Q))
      (List.replicate (1 <<< (c - 1)) none, Sched.new c) = some (List.replicate (1 <<< (c - 1)) none,
        ⟨badBuckets c P, ⟨1, 1, true⟩ :: List.replicate 63 SchedPt.default, 1⟩) := by
  have hn : 1 < 1 <<< (c - 1) := by
    rw [Nat.shiftLeft_eq, one_mul]
    exact lt_of_lt_of_le (by decide : 1 < 2 ^ 1) (Nat.pow_le_pow_right (by decide) (by omega))
  have b2 := booth_two hr c (by omega) hc2
  have b0 := booth_zero (r := r) c (by omega) hc2
  have hs1 : bestStep C c 0 (badBases m P Q) (badBases m P Q) (List.replicate (1 <<< (c - 1)) none, Sched.new c)
      (Fp.toRepr ((2 : ℕ) : Fp r), 0) = some (List.replicate (1 <<< (c - 1)) none,
        ⟨badBuckets c P, List.replicate BATCH_SIZE SchedPt.default, 0⟩) := by
    rw [bestStep]
    dsimp only
    rw [b2, if_pos (by decide)]
    have hnc : ¬ (Sched.new (F := F) c).contains (Int.natAbs 2 - 1) = true := by
      simp [Sched.contains, Sched.new, SchedPt.default]
    rw [if_neg hnc]
    have hadd : (Sched.new (F := F) c).add (badBases m P Q) 0 (Int.natAbs 2 - 1) (decide ((0 : ℤ) < 2)) = some
        ⟨badBuckets c P, List.replicate BATCH_SIZE SchedPt.default, 0⟩ := by
      rw [Sched.add, Sched.enqueue]
      have h1 : (Sched.new (F := F) c).buckets[Int.natAbs 2 - 1]? = some none := by
        rw [Sched.new, List.getElem?_replicate, if_pos (show Int.natAbs 2 - 1 < 1 <<< (c - 1) from hn)]
      have h2 : (badBases m P Q)[0]? = some P := badBases_zero m P Q
      rw [h1, h2]
      rfl
    rw [hadd]
  have hs2 : bestStep C c 0 (badBases m P Q) (badBases m P Q) (List.replicate (1 <<< (c - 1)) none,
        ⟨badBuckets c P, List.replicate BATCH_SIZE SchedPt.default, 0⟩)
      (Fp.toRepr ((2 : ℕ) : Fp r), 1) = some (List.replicate (1 <<< (c - 1)) none,
        ⟨badBuckets c P, ⟨1, 1, true⟩ :: List.replicate 63 SchedPt.default, 1⟩) := by
    rw [bestStep]
    dsimp only
    rw [b2, if_pos (by decide)]
    have hnc : ¬ (⟨badBuckets c P, List.replicate BATCH_SIZE SchedPt.default, 0⟩ : Sched F).contains
        (Int.natAbs 2 - 1) = true := by
      simp [Sched.contains, SchedPt.default]
    rw [if_neg hnc]
    have hadd : (⟨badBuckets c P, List.replicate BATCH_SIZE SchedPt.default, 0⟩ : Sched F).add (badBases m P Q) 1
        (Int.natAbs 2 - 1) (decide ((0 : ℤ) < 2)) = some
        ⟨badBuckets c P, ⟨1, 1, true⟩ :: List.replicate 63 SchedPt.default, 1⟩ := by
      rw [Sched.add, Sched.enqueue]
      have h1 : (badBuckets c P)[Int.natAbs 2 - 1]? = some (some P) := by
        rw [badBuckets]
        exact List.getElem?_set_self (by rw [List.length_replicate]; exact hn)
      have h2 : (badBases m P Q)[1]? = some Q := badBases_one m P Q
      dsimp only
      rw [h1, h2]
      rfl
    rw [hadd]
  rw [badScalars, List.map_cons, List.map_cons, List.map_replicate, List.zipIdx_cons, List.zipIdx_cons,
    List.foldlM_cons, hs1]
  simp only [Option.bind_eq_bind, Option.bind_some, List.foldlM_cons, Nat.zero_add]
  rw [hs2]
  simp only [Option.bind_some]
  apply foldlM_id
  intro s b hb
  obtain ⟨_, hm, h3⟩ := List.mem_zipIdx (x := b.1) (i := b.2) hb
  have h4 : b.1 = Fp.toRepr (0 : Fp r) := by rw [h3, List.getElem_replicate]
  rw [bestStep]
  dsimp only
  rw [h4, b0]
  rfl

theorem badWindow {r : ℕ} [Fact (OddModulus r)] (hr : 2 < r) (m c : ℕ) (hc1 : 10 ≤ c) (hc2 : c ≤ 24) (P Q R : Aff F)
    (bk : List (Option (Aff F)))
    (hbatch : batchAdd 1 (badBuckets c P) (⟨1, 1, true⟩ :: List.replicate 63 SchedPt.default) (badBases m P Q) = some bk)
    (hbk : bk[1]? = some (some R)) (hR : Aff.fromXY C R.x R.y = none) (acc : Proj F) :
    bestWindow C c ((badScalars r m).map Fp.toRepr) (badBases m P Q) (badBases m P Q) 0 acc = none := by
  have hn : 1 < 1 <<< (c - 1) := by
    rw [Nat.shiftLeft_eq, one_mul]
    exact lt_of_lt_of_le (by decide : 1 < 2 ^ 1) (Nat.pow_le_pow_right (by decide) (by omega))
  rw [bestWindow, badFold hr m c hc1 hc2 P Q]
  dsimp only
  rw [Sched.execute]
  dsimp only
  rw [if_pos (by decide), hbatch]
  dsimp only
  have hz : ((List.replicate (1 <<< (c - 1)) (none : Option (Proj F))).zip bk).reverse.foldlM (bestSum C)
      (Proj.identity, acc) = none := by
    apply foldlM_none _ _ (none, some R)
    · rw [List.mem_reverse]
      apply List.mem_of_getElem? (i := 1)
      rw [List.getElem?_zip_eq_some]
      exact ⟨by rw [List.getElem?_replicate, if_pos hn], hbk⟩
    · intro s
      rw [bestSum]
      dsimp only
      rw [jAdd, hR]
  rw [hz]

theorem badBases_map (hC : Good C) (P Q : Aff F) (hP : Aff.isOnCurve C P = true) (hQ : Aff.isOnCurve C Q = true) :
    (badBases 8102 P Q).mapM (fun b => Aff.fromXY C b.x b.y) = some (badBases 8102 P Q) := by
  obtain ⟨p, hp⟩ := (Aff.valid_iff hC P).mpr hP
  obtain ⟨q, hq⟩ := (Aff.valid_iff hC Q).mpr hQ
  have := mapM_fromXY hC (([], P, p) :: ([], Q, q) :: List.replicate 8102 ([], Q, q)) (by
    intro t ht
    have hnil : IsBytes ([] : List ℕ) := by intro x hx; cases hx
    rcases List.mem_cons.mp ht with rfl | ht
    · exact ⟨hnil, hp⟩
    · rcases List.mem_cons.mp ht with rfl | ht
      · exact ⟨hnil, hq⟩
      · rw [(List.mem_replicate.mp ht).2]; exact ⟨hnil, hq⟩)
  simp only [List.map_cons, List.map_replicate] at this
  exact this

/-- The batch of the first window. -/
theorem badBatch (c : ℕ) (h1 : 10 ≤ c) (P Q R : Aff F) (t z : F) (hz : z ≠ 0)
    (hf : ∀ bk : List (Option (Aff F)), bk[1]? = some (some P) →
      fwdStep (badBases 8102 P Q) bk 1 ⟨1, 1, true⟩ = some ((t, z), bk, 1 * z))
    (hb : ∀ bk : List (Option (Aff F)), bk[1]? = some (some P) →
      bwdStep (badBases 8102 P Q) (bk, (1 * z)⁻¹) (⟨1, 1, true⟩, t, z) = some (bk.set 1 (some R), (1 * z)⁻¹ * z)) :
    batchAdd 1 (badBuckets c P) (⟨1, 1, true⟩ :: List.replicate 63 SchedPt.default) (badBases 8102 P Q)
      = some ((badBuckets c P).set 1 (some R)) := by
  have hn : 1 < 1 <<< (c - 1) := by
    rw [Nat.shiftLeft_eq, one_mul]
    exact lt_of_lt_of_le (by decide : 1 < 2 ^ 1) (Nat.pow_le_pow_right (by decide) (by omega))
  have hbk : (badBuckets (c) P)[1]? = some (some P) := by
    rw [badBuckets]
    exact List.getElem?_set_self (by rw [List.length_replicate]; exact hn)
  rw [batchAdd, List.take_succ_cons, List.take_zero, fwd, hf _ hbk]
  dsimp only
  rw [fwd]
  dsimp only
  rw [LawfulBase.invert_eq, if_neg (by rw [one_mul]; exact hz)]
  simp only [List.reverse_singleton, List.foldlM_cons, List.foldlM_nil]
  rw [hb _ hbk]
  rfl

/-- `msm_best` panics when the batched sum of `P` and `Q` leaves the curve. -/
theorem badBest (hC : Good C) {r : ℕ} [Fact (OddModulus r)] (hr : 2 < r) (ln : ℕ → ℕ) (h1 : 10 ≤ ln 8104) (h2 : ln 8104 ≤ 24) (P Q R : Aff F)
    (hP : Aff.isOnCurve C P = true) (hQ : Aff.isOnCurve C Q = true)
    (t z : F) (hz : z ≠ 0)
    (hf : ∀ bk : List (Option (Aff F)), bk[1]? = some (some P) →
      fwdStep (badBases 8102 P Q) bk 1 ⟨1, 1, true⟩ = some ((t, z), bk, 1 * z))
    (hb : ∀ bk : List (Option (Aff F)), bk[1]? = some (some P) →
      bwdStep (badBases 8102 P Q) (bk, (1 * z)⁻¹) (⟨1, 1, true⟩, t, z) = some (bk.set 1 (some R), (1 * z)⁻¹ * z))
    (hR : Aff.fromXY C R.x R.y = none) (numBits threads : ℕ) (order1 order2 : List ℕ)
    (ho2 : order2.Perm (List.range (numBits / windowSize ln 8104 + 1))) :
    msmBest C ln numBits threads order1 order2 ((badScalars r 8102).map Fp.toRepr) (badBases 8102 P Q) = none := by
  have hl1 : ((badScalars r 8102).map Fp.toRepr).length = 8104 := by
    rw [List.length_map, badScalars, List.length_cons, List.length_cons, List.length_replicate]
  have hl2 : (badBases 8102 P Q).length = 8104 := by
    rw [badBases, List.length_cons, List.length_cons, List.length_replicate]
  have hw : windowSize ln 8104 = ln 8104 := by
    rw [windowSize]; norm_num
  rw [msmBest, hl1, hl2, if_neg (fun h => h rfl)]
  dsimp only
  rw [hw] at ho2 ⊢
  rw [if_neg (by omega)]
  rw [badBases_map hC P Q hP hQ]
  dsimp only
  have hn : 1 < 1 <<< (ln 8104 - 1) := by
    rw [Nat.shiftLeft_eq, one_mul]
    exact lt_of_lt_of_le (by decide : 1 < 2 ^ 1) (Nat.pow_le_pow_right (by decide) (by omega))
  have hbatch := badBatch (ln 8104) h1 P Q R t z hz hf hb
  rw [runTasks_none _ order2 0 (by rw [ho2.mem_iff, List.mem_range]; exact Nat.succ_pos _)]
  intro acc
  refine badWindow hr 8102 (ln 8104) h1 h2 P Q R _ hbatch ?_ hR acc
  exact List.getElem?_set_self (by rw [badBuckets, List.length_set, List.length_replicate]; exact hn)

/-! ## secp256r1: the doubling ignores the coefficient `a` -/

@[irreducible] def r1L : ℕ := 0x1985327c5b1895218f2e4fb7329af9f30e24e69ed903cd003eacd4354cfd8fed
@[irreducible] def r1X : ℕ := 0xd1d58add19f1617bffa6e875367fddd0bfc0fe7a3736a119bfe0a9bef51f4fa
@[irreducible] def r1Y : ℕ := 0x4125d7da0ade6d9fc79e49200bc45d16ffc4ae8f94b5ece284da5096ead96f89

theorem r1_bad (ln : ℕ → ℕ) (h1 : 10 ≤ ln 8104) (h2 : ln 8104 ≤ 24) (threads : ℕ) (order1 order2 : List ℕ)
    (ho2 : order2.Perm (List.range (numBits r1N / windowSize ln 8104 + 1))) :
    msmBest Secp256r1.c ln (numBits r1N) threads order1 order2 ((badScalars r1N 8102).map Fp.toRepr)
      (badBases 8102 Secp256r1.cGen Secp256r1.cGen) = none := by
  have hon : Aff.isOnCurve Secp256r1.c Secp256r1.cGen = true :=
    (Aff.isOnCurve_iff _).mpr (Or.inr ((equation_iff _ _ _).mp Secp256r1.cGen_equation))
  have hz : Secp256r1.cGen.y + Secp256r1.cGen.y ≠ 0 := by
    rw [Secp256r1.cYVal_eq, ← Nat.cast_add, ← Nat.cast_zero, Ne, Fp.natCast_eq_iff]
    decide +kernel
  have hL : (r1L : Fp r1P) * (Secp256r1.cGen.y + Secp256r1.cGen.y) = Secp256r1.cGen.x * Secp256r1.cGen.x +
      Secp256r1.cGen.x * Secp256r1.cGen.x + Secp256r1.cGen.x * Secp256r1.cGen.x := by
    rw [Secp256r1.cYVal_eq, Secp256r1.cXVal_eq]
    simp only [← Nat.cast_add, ← Nat.cast_mul]
    rw [Fp.natCast_eq_iff]
    decide +kernel
  have hlam : (1 * (Secp256r1.cGen.y + Secp256r1.cGen.y))⁻¹ * (1 * (Secp256r1.cGen.x * Secp256r1.cGen.x +
      Secp256r1.cGen.x * Secp256r1.cGen.x + Secp256r1.cGen.x * Secp256r1.cGen.x)) = (r1L : Fp r1P) := by
    rw [one_mul, one_mul, ← hL, mul_comm, mul_assoc, mul_inv_cancel₀ hz, mul_one]
  have hX : (r1L : Fp r1P) * r1L - (Secp256r1.cGen.x + Secp256r1.cGen.x) = r1X := by
    rw [sub_eq_iff_eq_add, Secp256r1.cXVal_eq]
    simp only [← Nat.cast_add, ← Nat.cast_mul]
    rw [Fp.natCast_eq_iff]
    decide +kernel
  have hY : (r1L : Fp r1P) * (Secp256r1.cGen.x - r1X) - Secp256r1.cGen.y = r1Y := by
    rw [mul_sub, sub_sub, sub_eq_iff_eq_add, Secp256r1.cXVal_eq, Secp256r1.cYVal_eq]
    simp only [← Nat.cast_add, ← Nat.cast_mul]
    rw [Fp.natCast_eq_iff]
    decide +kernel
  refine badBest Secp256r1.c_good (by decide +kernel) ln h1 h2 Secp256r1.cGen Secp256r1.cGen ⟨r1X, r1Y⟩ hon hon
    (1 * (Secp256r1.cGen.x * Secp256r1.cGen.x + Secp256r1.cGen.x * Secp256r1.cGen.x +
      Secp256r1.cGen.x * Secp256r1.cGen.x))
    (Secp256r1.cGen.y + Secp256r1.cGen.y) hz ?_ ?_ ?_ _ _ _ _ ho2
  · intro bk hbk
    rw [fwdStep]
    dsimp only
    rw [hbk]
    dsimp only
    rw [badBases_one]
    dsimp only
    rw [if_pos rfl, if_pos (by simp), LawfulBase.sqr_eq]
  · intro bk hbk
    rw [bwdStep]
    dsimp only
    rw [hbk]
    dsimp only
    rw [badBases_one]
    dsimp only
    rw [hlam, LawfulBase.sqr_eq, hX, if_pos rfl, hY]
  · rw [Aff.fromXY, if_neg]
    rw [Aff.isOnCurve_iff, Secp256r1.cBVal_eq, Secp256r1.cAVal_eq]
    dsimp only
    rintro (⟨h, _⟩ | h)
    · rw [← Nat.cast_zero, Fp.natCast_eq_iff] at h
      revert h
      decide +kernel
    · simp only [← Nat.cast_add, ← Nat.cast_mul] at h
      rw [Fp.natCast_eq_iff] at h
      revert h
      decide +kernel

/-! ## An identity among the bases -/

theorem bn_bad (ln : ℕ → ℕ) (h1 : 10 ≤ ln 8104) (h2 : ln 8104 ≤ 24) (threads : ℕ) (order1 order2 : List ℕ)
    (ho2 : order2.Perm (List.range (numBits bnR / windowSize ln 8104 + 1))) :
    msmBest Bn256.g1 ln (numBits bnR) threads order1 order2 ((badScalars bnR 8102).map Fp.toRepr)
      (badBases 8102 Aff.identity Bn256.g1Gen) = none := by
  have hon : Aff.isOnCurve Bn256.g1 Bn256.g1Gen = true :=
    (Aff.isOnCurve_iff _).mpr (Or.inr ((equation_iff _ _ _).mp Bn256.g1Gen_equation))
  have hx : Bn256.g1Gen.x = 1 := rfl
  have hy : Bn256.g1Gen.y = 2 := by
    rw [Bn256.g1YVal_eq, show Bn256.g1YVal = 2 by decide +kernel]; rfl
  have hb : Bn256.g1.b = 3 := by
    rw [Bn256.g1BVal_eq, show Bn256.g1BVal = 3 by decide +kernel]; rfl
  have h01 : (0 : Fp bnQ) ≠ 1 := zero_ne_one
  refine badBest Bn256.g1_good (by decide +kernel) ln h1 h2 Aff.identity Bn256.g1Gen ⟨3, -6⟩ ?_ hon
    (1 * (0 - 2)) (0 - 1) (by rw [zero_sub]; exact neg_ne_zero.mpr one_ne_zero) ?_ ?_ ?_ _ _ _ _ ho2
  · exact (Aff.isOnCurve_iff _).mpr (Or.inl ⟨rfl, rfl⟩)
  · intro bk hbk
    rw [fwdStep]
    dsimp only
    rw [hbk]
    dsimp only
    rw [badBases_one]
    dsimp only
    rw [hx, hy, show (Aff.identity : Aff (Fp bnQ)).x = 0 from rfl, show (Aff.identity : Aff (Fp bnQ)).y = 0 from rfl,
      if_neg h01]
    rfl
  · intro bk hbk
    rw [bwdStep]
    dsimp only
    rw [hbk]
    dsimp only
    rw [badBases_one]
    dsimp only
    have hl : (1 * (0 - 1) : Fp bnQ)⁻¹ * (1 * (0 - 2)) = 2 := by
      rw [one_mul, one_mul, zero_sub, zero_sub, inv_neg, inv_one]; ring
    rw [hx, hy, show (Aff.identity : Aff (Fp bnQ)).x = 0 from rfl, hl, LawfulBase.sqr_eq, if_pos rfl]
    have e1 : (2 * 2 - (0 + 1) : Fp bnQ) = 3 := by ring
    have e2 : (2 * (1 - 3) - 2 : Fp bnQ) = -6 := by ring
    rw [e1, e2]
  · rw [Aff.fromXY, if_neg]
    rw [Aff.isOnCurve_iff, hb, Bn256.g1_a]
    dsimp only
    have h3 : ((3 : ℕ) : Fp bnQ) ≠ ((0 : ℕ) : Fp bnQ) := by rw [Ne, Fp.natCast_eq_iff]; decide +kernel
    have h6 : ((6 : ℕ) : Fp bnQ) ≠ ((0 : ℕ) : Fp bnQ) := by rw [Ne, Fp.natCast_eq_iff]; decide +kernel
    rintro (⟨h, _⟩ | h)
    · exact h3 (by rw [Nat.cast_zero]; exact_mod_cast h)
    · apply h6
      push_cast
      linear_combination h

end Halo2.Msm
