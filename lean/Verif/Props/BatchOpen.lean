import Verif.Props.Kzg

/-!
# Property C91: many openings verified with one product of pairings

The verifier of C78 for many openings at once, as provers and verifiers of proof systems do it: the equations are added up with the powers
of a challenge, `msm_parallel` computes the two sums, and one `multi_miller_loop` with one `final_exponentiation` decides. No such program is
in the repository; the functions below stand for the client.
-/

set_option linter.unusedSectionVars false

namespace Halo2.Props

open Halo2 Halo2.Field Halo2.Prime Halo2.Curve Halo2.Msm Halo2.Pairing Polynomial

/-- A commitment, a point, a claimed value and the commitment to the quotient. -/
structure Opening (L : Type) (r : ℕ) where
  c : Proj L
  z : Fp r
  y : Fp r
  w : Proj L

/-- How the machine runs `msm_parallel`: the number of threads and the order of the tasks of the two calls. -/
structure Machine where
  threads : ℕ
  order1 : List ℕ
  order2 : List ℕ

/-- There is a thread, and every task runs once. -/
structure Machine.Ok (m : Machine) (n : ℕ) : Prop where
  threads : 1 ≤ m.threads
  order1 : m.threads < n → m.order1.Perm (List.range (numChunks m.threads n))
  order2 : m.threads < n + n + 1 → m.order2.Perm (List.range (numChunks m.threads (n + n + 1)))

section Scheme

variable {L F K : Type} [_root_.Field L] [DecidableEq L] [BaseField L] [LawfulBase L]
  [_root_.Field F] [DecidableEq F] [BaseField F] [LawfulBase F] [CommMonoid K] [DecidableEq K]
variable {r : ℕ} [Fact r.Prime] [Fact (OddModulus r)] [Fp.SmallModulus r]

/-- The two pairs for a list of openings and a challenge: `(Σ gammaⁱ Wᵢ, [tau] H)` and
`(Σ gammaⁱ Cᵢ + Σ gammaⁱ zᵢ Wᵢ - [Σ gammaⁱ yᵢ] G, -H)`. -/
noncomputable def batchPairs (C1 : Params L) (ln : ℕ → ℕ) (m : Machine) (g : Aff L) (h tauH : Aff F) (gamma : Fp r)
    (os : List (Opening L r)) : Option (List (Aff L × Aff F)) := do
  let ks := (List.range os.length).map fun i => gamma ^ i
  let ws ← Proj.batchNormalize (os.map Opening.w) os.length
  let cs ← Proj.batchNormalize (os.map Opening.c) os.length
  let left ← msmParallel C1 ln ((numBits r + 7) / 8) m.threads m.order1 (ks.map Fp.toRepr) ws
  let zs := List.zipWith (fun k (o : Opening L r) => k * o.z) ks os
  let y := (List.zipWith (fun k (o : Opening L r) => k * o.y) ks os).sum
  let right ← msmParallel C1 ln ((numBits r + 7) / 8) m.threads m.order2 ((ks ++ zs ++ [-y]).map Fp.toRepr) (cs ++ ws ++ [g])
  some [(left.toAffine, tauH), (right.toAffine, h.neg)]

/-- The answer of the verifier; `none` is a panic. -/
noncomputable def batchVerify (C1 : Params L) (multi : List (Aff L × Aff F) → Option K) (ln : ℕ → ℕ) (m : Machine) (g : Aff L) (h tauH : Aff F)
    (gamma : Fp r) (os : List (Opening L r)) : Option Bool :=
  match batchPairs C1 ln m g h tauH gamma os with
  | none => none
  | some ps => (multi ps).map fun z => decide (z = 1)

/-- The answer of the verifier of C78 for one opening; `none` is a panic. -/
def openVerify (C1 : Params L) (multi : List (Aff L × Aff F) → Option K) (g : Aff L) (h tauH : Aff F) (o : Opening L r) : Option Bool :=
  (multi (kzgPairs C1 g h tauH o.c o.z o.y o.w)).map fun z => decide (z = 1)

/-- The two points of the opening are points of the group, in any coordinates. -/
def Opening.Valid (C1 : Params L) (o : Opening L r) : Prop :=
  (∃ P, PRep C1 o.c P ∧ r • P = 0) ∧ ∃ P, PRep C1 o.w P ∧ r • P = 0

/-- What C91 says. -/
structure BatchClaim (C1 : Params L) (C2 : Params F) (r : ℕ) [Fact r.Prime] [Fact (OddModulus r)] [Fp.SmallModulus r] (g : Aff L) (h : Aff F)
    (multi : List (Aff L × Aff F) → Option K) : Prop where
  /-- For openings with points of the group, neither verifier panics, on any machine. -/
  total (ln : ℕ → ℕ) (hln : LnCeilOk ln) (tau : Fp r) (os : List (Opening L r)) (hos : ∀ o ∈ os, o.Valid C1)
    (hn : os.length + os.length + 1 < 2 ^ 32) (m : Machine) (hm : m.Ok os.length) (gamma : Fp r) :
    (∃ b, batchVerify C1 multi ln m g h (Aff.mul C2 h (Fp.toRepr tau)).toAffine gamma os = some b) ∧
      ∀ o ∈ os, ∃ b, openVerify C1 multi g h (Aff.mul C2 h (Fp.toRepr tau)).toAffine o = some b
  /-- If every opening is accepted by itself, they are accepted together, for all challenges. -/
  complete (ln : ℕ → ℕ) (hln : LnCeilOk ln) (tau : Fp r) (os : List (Opening L r)) (hos : ∀ o ∈ os, o.Valid C1)
    (hn : os.length + os.length + 1 < 2 ^ 32)
    (h1 : ∀ o ∈ os, openVerify C1 multi g h (Aff.mul C2 h (Fp.toRepr tau)).toAffine o = some true)
    (m : Machine) (hm : m.Ok os.length) (gamma : Fp r) :
    batchVerify C1 multi ln m g h (Aff.mul C2 h (Fp.toRepr tau)).toAffine gamma os = some true
  /-- If one of the openings is rejected by itself, they are rejected together, except for fewer challenges than there are openings. -/
  sound (ln : ℕ → ℕ) (hln : LnCeilOk ln) (tau : Fp r) (os : List (Opening L r)) (hos : ∀ o ∈ os, o.Valid C1)
    (hn : os.length + os.length + 1 < 2 ^ 32) (o : Opening L r) (ho : o ∈ os)
    (h1 : openVerify C1 multi g h (Aff.mul C2 h (Fp.toRepr tau)).toAffine o = some false) :
    ∃ B : Finset (Fp r), B.card < os.length ∧ ∀ gamma ∉ B, ∀ m : Machine, m.Ok os.length →
      batchVerify C1 multi ln m g h (Aff.mul C2 h (Fp.toRepr tau)).toAffine gamma os = some false

/-- The polynomial with the given coefficients. -/
noncomputable def listPoly : List (Fp r) → (Fp r)[X]
  | [] => 0
  | x :: l => C x + X * listPoly l

theorem listPoly_coeff (l : List (Fp r)) (i : ℕ) : (listPoly l).coeff i = l.getD i 0 := by
  induction l generalizing i with
  | nil => rw [listPoly, coeff_zero]; rfl
  | cons x l ih =>
    rw [listPoly, coeff_add]
    cases i with
    | zero => rw [coeff_C_zero, coeff_X_mul_zero, add_zero]; rfl
    | succ i => rw [coeff_C_succ, coeff_X_mul, zero_add, ih]; rfl

theorem listPoly_eval (gamma : Fp r) (l : List (Fp r)) (s : ℕ) :
    (List.zipWith (fun k e => k * e) ((List.range' s l.length).map fun i => gamma ^ i) l).sum = gamma ^ s * (listPoly l).eval gamma := by
  induction l generalizing s with
  | nil => rw [listPoly, eval_zero, mul_zero]; rfl
  | cons x l ih =>
    rw [List.length_cons, List.range'_succ, List.map_cons, List.zipWith_cons_cons, List.sum_cons, ih, listPoly, eval_add, eval_mul, eval_C,
      eval_X, pow_succ]
    ring

theorem listPoly_roots (l : List (Fp r)) (x : Fp r) (hx : x ∈ l) (h0 : x ≠ 0) :
    (listPoly l).roots.toFinset.card < l.length ∧ ∀ gamma ∉ (listPoly l).roots.toFinset, (listPoly l).eval gamma ≠ 0 := by
  obtain ⟨i, hi, rfl⟩ := List.mem_iff_getElem.mp hx
  have hne : listPoly l ≠ 0 := by
    intro h
    have := listPoly_coeff l i
    rw [h, coeff_zero, List.getD_eq_getElem _ _ hi] at this
    exact h0 this.symm
  have hd : (listPoly l).degree < l.length := by
    rw [degree_lt_iff_coeff_zero]
    intro j hj
    rw [listPoly_coeff, List.getD_eq_default _ _ hj]
  constructor
  · refine lt_of_le_of_lt (Multiset.toFinset_card_le _) ?_
    have h1 := card_roots hne
    exact_mod_cast lt_of_le_of_lt h1 hd
  · intro gamma hg he
    exact hg (Multiset.mem_toFinset.mpr ((mem_roots hne).mpr he))

theorem msm_dot {C : Params L} {p : Pt C} (hp : r • p = 0) (ks xs : List (Fp r)) :
    msmValue ks (xs.map fun x => Fp.toNat x • p) = Fp.toNat (List.zipWith (fun k x => k * x) ks xs).sum • p := by
  have h0 : Fp.toNat (0 : Fp r) = 0 := by rw [← Nat.cast_zero, Fp.toNat_natCast, Nat.zero_mod]
  rw [msmValue]
  induction ks generalizing xs with
  | nil => rw [List.zipWith_nil_left, List.zipWith_nil_left, List.sum_nil, List.sum_nil, h0, zero_smul]
  | cons k ks ih =>
    cases xs with
    | nil => rw [List.map_nil, List.zipWith_nil_right, List.zipWith_nil_right, List.sum_nil, List.sum_nil, h0, zero_smul]
    | cons x xs =>
      rw [List.map_cons, List.zipWith_cons_cons, List.zipWith_cons_cons, List.sum_cons, List.sum_cons, ih]
      have h := comb_toNat hp (List.zipWith (fun k x => k * x) ks xs).sum 0 k x
      rw [h0, zero_smul, sub_zero, sub_zero] at h
      rw [add_comm, h, add_comm]

/-- What the proofs use: a generator of the group of the first curve, and the product of two pairings. -/
structure EngineOk (C1 : Params L) (C2 : Params F) (r : ℕ) [Fact r.Prime] [Fact (OddModulus r)] [Fp.SmallModulus r] (g : Aff L) (h : Aff F)
    (pairing : Aff L → Aff F → Option K) (multi : List (Aff L × Aff F) → Option K) (G : Pt C1) : Prop where
  good1 : Good C1
  good2 : Good C2
  claim : PairingClaim C1 C2 r pairing multi
  check : CheckClaim C1 C2 r g h pairing multi
  rep : ARep C1 g G
  order : r • G = 0
  gen : ∀ p : Pt C1, r • p = 0 → ∃ k < r, p = k • G
  in2 : InGroup C2 r h

section Proofs
variable {C1 : Params L} {C2 : Params F} {g : Aff L} {h : Aff F} {pairing : Aff L → Aff F → Option K}
  {multi : List (Aff L × Aff F) → Option K} {G : Pt C1}

theorem EngineOk.log (hE : EngineOk C1 C2 r g h pairing multi G) {R : Proj L} (hR : ∃ P, PRep C1 R P ∧ r • P = 0) :
    ∃ a : Fp r, PRep C1 R (Fp.toNat a • G) := by
  obtain ⟨P, hP, h0⟩ := hR
  obtain ⟨k, hk, rfl⟩ := hE.gen P h0
  exact ⟨((k : ℕ) : Fp r), by rw [Fp.toNat_natCast, Nat.mod_eq_of_lt hk]; exact hP⟩

/-- Two pairings, of `[a] G` with `[tau] H` and of `[b] G` with `-H`. -/
theorem EngineOk.two (hE : EngineOk C1 C2 r g h pairing multi G) (tau a b : Fp r) {P Q : Proj L} (hP : PRep C1 P (Fp.toNat a • G))
    (hQ : PRep C1 Q (Fp.toNat b • G)) :
    (multi [(P.toAffine, (Aff.mul C2 h (Fp.toRepr tau)).toAffine), (Q.toAffine, h.neg)]).map (fun z => decide (z = 1)) =
      some (decide (a * tau = b)) := by
  have hin : ∀ (x : Fp r) (R : Proj L), PRep C1 R (Fp.toNat x • G) → InGroup C1 r R.toAffine := fun x R hR =>
    ⟨_, hR.toAffine, by rw [smul_comm, hE.order, smul_zero]⟩
  obtain ⟨z1, e1, -⟩ := hE.claim.total _ _ (hin a P hP) (hE.in2.mul hE.good2 tau)
  obtain ⟨z2, e2, -⟩ := hE.claim.total _ _ (hin b Q hQ) hE.in2.neg
  have em := hE.claim.multi [(P.toAffine, (Aff.mul C2 h (Fp.toRepr tau)).toAffine), (Q.toAffine, h.neg)] [z1, z2]
    (.cons ⟨hin a P hP, hE.in2.mul hE.good2 tau, e1⟩ (.cons ⟨hin b Q hQ, hE.in2.neg, e2⟩ .nil))
  have hp := hE.check.product [(a, tau), (b, -1)]
  obtain ⟨H, hH, hHr⟩ := hE.in2
  have n1 := (C23_mul hE.good2 PRep.identity hH (-1 : Fp r)).2.toAffine
  rw [neg_one_toNat hHr] at n1
  have f1 := (hP.toAffine.ext_iff hE.good1 (C23_mul hE.good1 PRep.identity hE.rep a).2.toAffine).mpr rfl
  have f2 := (hQ.toAffine.ext_iff hE.good1 (C23_mul hE.good1 PRep.identity hE.rep b).2.toAffine).mpr rfl
  have f3 := (hH.neg.ext_iff hE.good2 n1).mpr rfl
  simp only [List.map_cons, List.map_nil, List.sum_cons, List.sum_nil] at hp
  rw [← f1, ← f2, ← f3, em, Option.some.injEq] at hp
  rw [em, Option.map_some, Option.some.injEq, decide_eq_decide, hp]
  constructor
  · intro e
    linear_combination e
  · intro e
    linear_combination e

theorem EngineOk.single (hE : EngineOk C1 C2 r g h pairing multi G) (tau a b : Fp r) (o : Opening L r) (hc : PRep C1 o.c (Fp.toNat a • G))
    (hw : PRep C1 o.w (Fp.toNat b • G)) :
    openVerify C1 multi g h (Aff.mul C2 h (Fp.toRepr tau)).toAffine o = some (decide (a - o.y - b * (tau - o.z) = 0)) := by
  have hy := (C23_mul hE.good1 PRep.identity hE.rep o.y).2
  have hz := (C23_mul hE.good1 hw hE.rep o.z).1
  have hs := (hc.sub hE.good1 hy).add hE.good1 hz
  rw [comb_toNat hE.order] at hs
  rw [openVerify, kzgPairs, hE.two tau b _ hw hs, Option.some.injEq, decide_eq_decide]
  constructor
  · intro e
    linear_combination -e
  · intro e
    linear_combination -e

theorem EngineOk.batch (hE : EngineOk C1 C2 r g h pairing multi G) {ln : ℕ → ℕ} (hln : LnCeilOk ln) (tau : Fp r) (os : List (Opening L r))
    (a b : Opening L r → Fp r) (hc : ∀ o ∈ os, PRep C1 o.c (Fp.toNat (a o) • G)) (hw : ∀ o ∈ os, PRep C1 o.w (Fp.toNat (b o) • G))
    (hn : os.length + os.length + 1 < 2 ^ 32) (m : Machine) (hm : m.Ok os.length) (gamma : Fp r) :
    batchVerify C1 multi ln m g h (Aff.mul C2 h (Fp.toRepr tau)).toAffine gamma os =
      some (decide ((listPoly (os.map fun o => a o - o.y - b o * (tau - o.z))).eval gamma = 0)) := by
  have fw : List.Forall₂ (ARep C1) ((os.map Opening.w).map Proj.toAffine) ((os.map b).map fun x => Fp.toNat x • G) := by
    rw [List.map_map, List.map_map, List.forall₂_map_left_iff, List.forall₂_map_right_iff, List.forall₂_same]
    exact fun o ho => (hw o ho).toAffine
  have fc : List.Forall₂ (ARep C1) ((os.map Opening.c).map Proj.toAffine) ((os.map a).map fun x => Fp.toNat x • G) := by
    rw [List.map_map, List.map_map, List.forall₂_map_left_iff, List.forall₂_map_right_iff, List.forall₂_same]
    exact fun o ho => (hc o ho).toAffine
  have hone : Fp.toNat (1 : Fp r) = 1 := by
    rw [← Nat.cast_one, Fp.toNat_natCast, Nat.mod_eq_of_lt (Fact.out : r.Prime).one_lt]
  have fg : List.Forall₂ (ARep C1) [g] (([1] : List (Fp r)).map fun x => Fp.toNat x • G) :=
    .cons (by dsimp only; rw [hone, one_smul]; exact hE.rep) .nil
  generalize hks : (List.range os.length).map (fun i => gamma ^ i) = ks
  have lks : ks.length = os.length := by rw [← hks, List.length_map, List.length_range]
  obtain ⟨R1, e1, h1⟩ := C31_parallel hE.good1 hln m.threads hm.threads ks fw (by rw [lks, List.length_map, List.length_map])
    (by rw [List.length_map, List.length_map]; omega) m.order1 (by rw [List.length_map, List.length_map]; exact hm.order1)
  rw [msm_dot hE.order] at h1
  generalize hzs : List.zipWith (fun k (o : Opening L r) => k * o.z) ks os = zs
  have lzs : zs.length = os.length := by rw [← hzs, List.length_zipWith, lks, min_self]
  generalize hy : (List.zipWith (fun k (o : Opening L r) => k * o.y) ks os).sum = y
  have lb : (((os.map Opening.c).map Proj.toAffine) ++ ((os.map Opening.w).map Proj.toAffine) ++ [g]).length = os.length + os.length + 1 := by
    simp only [List.length_append, List.length_map, List.length_singleton]
  obtain ⟨R2, e2, h2⟩ := C31_parallel hE.good1 hln m.threads hm.threads (ks ++ zs ++ [-y]) (List.rel_append (List.rel_append fc fw) fg)
    (by rw [lb]; simp only [List.length_append, List.length_singleton, lks, lzs]) (by rw [lb]; exact hn) m.order2
    (by rw [lb]; exact hm.order2)
  dsimp only at e2 h2
  rw [← List.map_append, ← List.map_append, msm_dot hE.order, List.zipWith_append (by simp [lks, lzs]),
    List.zipWith_append (by simp [lks]), List.sum_append, List.sum_append] at h2
  have ep : batchPairs C1 ln m g h (Aff.mul C2 h (Fp.toRepr tau)).toAffine gamma os =
      some [(R1.toAffine, (Aff.mul C2 h (Fp.toRepr tau)).toAffine), (R2.toAffine, h.neg)] := by
    rw [batchPairs]
    dsimp only
    rw [hks, hzs, hy, C22_batch_normalize, if_pos (List.length_map _), C22_batch_normalize, if_pos (List.length_map _),
      Option.bind_eq_bind, Option.bind_some, Option.bind_eq_bind, Option.bind_some, e1, Option.bind_some,
      e2, Option.bind_some]
  rw [batchVerify, ep]
  dsimp only
  rw [hE.two tau _ _ h1 h2, Option.some.injEq, decide_eq_decide]
  have key : (listPoly (os.map fun o => a o - o.y - b o * (tau - o.z))).eval gamma =
      (List.zipWith (fun k x => k * x) ks (os.map a)).sum + (List.zipWith (fun k x => k * x) zs (os.map b)).sum - y -
        (List.zipWith (fun k x => k * x) ks (os.map b)).sum * tau := by
    have h := listPoly_eval gamma (os.map fun o => a o - o.y - b o * (tau - o.z)) 0
    rw [pow_zero, one_mul, List.length_map, ← List.range_eq_range', hks] at h
    rw [← h, ← hzs, ← hy]
    clear h hks hzs hy e1 e2 h1 h2 ep lzs lb fw fc hn hm hc hw
    induction os generalizing ks with
    | nil => simp
    | cons o os ih =>
      cases ks with
      | nil => simp
      | cons k ks =>
        have := ih ks (by simpa using lks)
        simp only [List.map_cons, List.zipWith_cons_cons, List.sum_cons]
        rw [this]
        ring
  rw [key]
  simp only [List.zipWith_cons_cons, List.zipWith_nil_left, List.sum_cons, List.sum_nil]
  constructor
  · intro e
    linear_combination -e
  · intro e
    linear_combination -e

theorem batchClaim_of (hE : EngineOk C1 C2 r g h pairing multi G) : BatchClaim C1 C2 r g h multi := by
  have logs : ∀ os : List (Opening L r), (∀ o ∈ os, o.Valid C1) → ∃ a b : Opening L r → Fp r,
      (∀ o ∈ os, PRep C1 o.c (Fp.toNat (a o) • G)) ∧ ∀ o ∈ os, PRep C1 o.w (Fp.toNat (b o) • G) := by
    intro os hos
    have h1 : ∀ o ∈ os, ∃ x : Fp r, PRep C1 o.c (Fp.toNat x • G) := fun o ho => hE.log (hos o ho).1
    have h2 : ∀ o ∈ os, ∃ x : Fp r, PRep C1 o.w (Fp.toNat x • G) := fun o ho => hE.log (hos o ho).2
    choose! a ha using h1
    choose! b hb using h2
    exact ⟨a, b, ha, hb⟩
  refine ⟨fun ln hln tau os hos hn m hm gamma => ?_, fun ln hln tau os hos hn h1 m hm gamma => ?_, fun ln hln tau os hos hn o ho h1 => ?_⟩
  · obtain ⟨a, b, ha, hb⟩ := logs os hos
    exact ⟨⟨_, hE.batch hln tau os a b ha hb hn m hm gamma⟩, fun o ho => ⟨_, hE.single tau _ _ o (ha o ho) (hb o ho)⟩⟩
  · obtain ⟨a, b, ha, hb⟩ := logs os hos
    rw [hE.batch hln tau os a b ha hb hn m hm gamma, Option.some.injEq, decide_eq_true_eq]
    have hz : os.map (fun o => a o - o.y - b o * (tau - o.z)) = List.replicate os.length 0 := by
      rw [List.map_eq_replicate_iff]
      intro o ho
      have := h1 o ho
      rw [hE.single tau _ _ o (ha o ho) (hb o ho), Option.some.injEq, decide_eq_true_eq] at this
      exact this
    rw [hz]
    generalize os.length = n
    induction n with
    | zero => rw [List.replicate_zero, listPoly, eval_zero]
    | succ n ih => rw [List.replicate_succ, listPoly, eval_add, eval_mul, ih, eval_C, mul_zero, add_zero]
  · obtain ⟨a, b, ha, hb⟩ := logs os hos
    rw [hE.single tau _ _ o (ha o ho) (hb o ho), Option.some.injEq, decide_eq_false_iff_not] at h1
    obtain ⟨r1, r2⟩ := listPoly_roots (os.map fun o => a o - o.y - b o * (tau - o.z)) _ (List.mem_map.mpr ⟨o, ho, rfl⟩) h1
    refine ⟨_, by rw [List.length_map] at r1; exact r1, fun gamma hg m hm => ?_⟩
    rw [hE.batch hln tau os a b ha hb hn m hm gamma, Option.some.injEq, decide_eq_false_iff_not]
    exact r2 gamma hg

end Proofs

end Scheme

theorem engine_bn256 : ∃ G, EngineOk Bn256.g1 Bn256.g2 bnR Bn256.g1Gen Bn256.g2Gen Bn256.pairing
    (fun ts => Bn256.finalExp (Bn256.multiMillerLoop ts)) G := by
  obtain ⟨G, hG, ho, ht⟩ := C44_orders.1.gen
  exact ⟨G, Bn256.g1_good, Bn256.g2_good, C49_bn256, C64_bn256, hG, (ht G).mpr ⟨1, bnR_prime.one_lt, (one_smul _ _).symm⟩,
    fun p => (ht p).mp, C49_generators.1.2.1⟩

theorem engine_bls12381 : ∃ G, EngineOk Bls12381.g1 Bls12381.g2 blsR Bls12381.g1Gen Bls12381.g2Gen Bls12381.pairing
    (fun ts => Bls12381.finalExp (Bls12381.multiMillerLoop ts)) G := by
  obtain ⟨G, hG, ho, ht⟩ := C44_orders.2.2.2.2.2.2.2.2.2.1.gen
  exact ⟨G, Bls12381.g1_good, Bls12381.g2_good, C49_bls12381, C64_bls12381, hG, (ht G).mpr ⟨1, blsR_prime.one_lt, (one_smul _ _).symm⟩,
    fun p => (ht p).mp, C49_generators.2.1.2.1⟩

theorem engine_pluto : ∃ G, EngineOk Pluto.g1 Pluto.g2 plQ Pluto.g1Gen Pluto.g2Gen Pluto.pairing
    (fun ts => Pluto.finalExp (Pluto.multiMillerLoop ts)) G := by
  obtain ⟨G, hG, ho, ht⟩ := C44_orders.2.2.1.gen
  exact ⟨G, Pluto.g1_good, Pluto.g2_good, C49_pluto, C64_pluto, hG, (ht G).mpr ⟨1, plQ_prime.one_lt, (one_smul _ _).symm⟩,
    fun p => (ht p).mp, C49_generators.2.2.2.1⟩

/-- **C91** bn256. -/
theorem C91_bn256 : BatchClaim Bn256.g1 Bn256.g2 bnR Bn256.g1Gen Bn256.g2Gen (fun ts => Bn256.finalExp (Bn256.multiMillerLoop ts)) := by
  obtain ⟨G, h⟩ := engine_bn256
  exact batchClaim_of h

/-- **C91** bls12381. -/
theorem C91_bls12381 : BatchClaim Bls12381.g1 Bls12381.g2 blsR Bls12381.g1Gen Bls12381.g2Gen
    (fun ts => Bls12381.finalExp (Bls12381.multiMillerLoop ts)) := by
  obtain ⟨G, h⟩ := engine_bls12381
  exact batchClaim_of h

/-- **C91** pluto. -/
theorem C91_pluto : BatchClaim Pluto.g1 Pluto.g2 plQ Pluto.g1Gen Pluto.g2Gen (fun ts => Pluto.finalExp (Pluto.multiMillerLoop ts)) := by
  obtain ⟨G, h⟩ := engine_pluto
  exact batchClaim_of h

/-- The constant polynomial one, opened at five, and a wrong opening at seven of the same commitment: the value two is rejected, and the two
are rejected together except for at most one challenge. Two threads. -/
example (tau : Fp bnR) : ∃ B : Finset (Fp bnR), B.card < 2 ∧ ∀ gamma ∉ B,
    batchVerify Bn256.g1 (fun ts => Bn256.finalExp (Bn256.multiMillerLoop ts)) (fun _ => 4) ⟨2, [], [2, 0, 1]⟩ Bn256.g1Gen Bn256.g2Gen
      (Aff.mul Bn256.g2 Bn256.g2Gen (Fp.toRepr tau)).toAffine gamma
      [⟨Aff.toCurve Bn256.g1Gen, 5, 1, Proj.identity⟩, ⟨Aff.toCurve Bn256.g1Gen, 7, 2, Proj.identity⟩] = some false := by
  obtain ⟨G, hE⟩ := engine_bn256
  have h0 : Fp.toNat (0 : Fp bnR) = 0 := by rw [← Nat.cast_zero, Fp.toNat_natCast, Nat.zero_mod]
  have h1 : Fp.toNat (1 : Fp bnR) = 1 := by rw [← Nat.cast_one, Fp.toNat_natCast, Nat.mod_eq_of_lt bnR_prime.one_lt]
  have hc : PRep Bn256.g1 (Aff.toCurve Bn256.g1Gen) (Fp.toNat (1 : Fp bnR) • G) := by
    rw [h1, one_smul]; exact hE.rep.toCurve hE.good1
  have hw : PRep Bn256.g1 (Proj.identity : Proj Bn256.Fq) (Fp.toNat (0 : Fp bnR) • G) := by
    rw [h0, zero_smul]; exact PRep.identity
  have hk : ∀ x : Fp bnR, bnR • (Fp.toNat x • G) = 0 := fun x => by rw [smul_comm, hE.order, smul_zero]
  obtain ⟨B, hB, h⟩ := C91_bn256.sound (fun _ => 4) (fun _ _ _ => ⟨by norm_num, by norm_num⟩) tau
    [⟨Aff.toCurve Bn256.g1Gen, 5, 1, Proj.identity⟩, ⟨Aff.toCurve Bn256.g1Gen, 7, 2, Proj.identity⟩]
    (by
      intro o ho
      simp only [List.mem_cons, List.not_mem_nil, or_false] at ho
      rcases ho with rfl | rfl <;> exact ⟨⟨_, hc, hk _⟩, _, hw, hk _⟩)
    (by norm_num) ⟨Aff.toCurve Bn256.g1Gen, 7, 2, Proj.identity⟩ (by simp only [List.mem_cons, true_or, or_true])
    (by
      rw [hE.single tau 1 0 _ hc hw, Option.some.injEq, decide_eq_false_iff_not]
      intro e
      have e1 : (1 : Fp bnR) = 0 := by linear_combination -e
      rw [e1, h0] at h1
      exact absurd h1 (by decide))
  exact ⟨B, hB, fun gamma hg => h gamma hg _ ⟨by decide, fun e => absurd e (by decide), fun _ => by decide +kernel⟩⟩

end Halo2.Props
