import Verif.Msm.Booth
import Verif.Curve.Scalar
import Mathlib.Algebra.BigOperators.Intervals
import Mathlib.Algebra.Module.BigOperators
import Mathlib.Tactic.Abel

/-!
# `msm_serial`
-/

set_option linter.unusedSectionVars false

namespace Halo2.Msm

open Halo2.Field Halo2.Curve

section Bytes

/-- Every byte string of the list vanishes beyond `maxByteSize`. -/
theorem orBytes_length (a b : List ℕ) : (orBytes a b).length = a.length := by
  induction a generalizing b with
  | nil => cases b <;> rfl
  | cons x xs ih =>
    cases b with
    | nil => rfl
    | cons y ys => simp only [orBytes, List.length_cons, ih]

theorem orBytes_zero (a b : List ℕ) (i : ℕ) (h : (orBytes a b)[i]? = some 0) :
    a[i]? = some 0 ∧ (b[i]? = some 0 ∨ b[i]? = none) := by
  induction a generalizing b i with
  | nil => cases b <;> simp [orBytes] at h
  | cons x xs ih =>
    cases b with
    | nil => exact ⟨h, Or.inr rfl⟩
    | cons y ys =>
      cases i with
      | zero =>
        simp only [orBytes, List.getElem?_cons_zero, Option.some.injEq] at h ⊢
        rw [Nat.or_eq_zero_iff] at h
        exact ⟨h.1, Or.inl h.2⟩
      | succ i => exact ih ys i h

theorem accOr_length (coeffs : List (List ℕ)) (a : List ℕ) : (coeffs.foldl orBytes a).length = a.length := by
  induction coeffs generalizing a with
  | nil => rfl
  | cons k ks ih => rw [List.foldl_cons, ih, orBytes_length]

theorem accOr_zero (coeffs : List (List ℕ)) (a : List ℕ) (i : ℕ) (h : (coeffs.foldl orBytes a)[i]? = some 0) :
    a[i]? = some 0 ∧ ∀ k ∈ coeffs, k[i]? = some 0 ∨ k[i]? = none := by
  induction coeffs generalizing a with
  | nil => exact ⟨h, by simp⟩
  | cons k ks ih =>
    obtain ⟨h1, h2⟩ := ih _ h
    obtain ⟨h3, h4⟩ := orBytes_zero _ _ _ h1
    refine ⟨h3, ?_⟩
    intro k' hk'
    rcases List.mem_cons.mp hk' with rfl | hk'
    · exact h4
    · exact h2 k' hk'

theorem accOr_top (fbs : ℕ) (coeffs : List (List ℕ)) (i : ℕ) (h1 : maxByteSize fbs coeffs ≤ i) (h2 : i < fbs) :
    (coeffs.foldl orBytes (List.replicate fbs 0))[i]? = some 0 := by
  rw [maxByteSize] at h1
  have hl : (coeffs.foldl orBytes (List.replicate fbs 0)).length = fbs := by
    rw [accOr_length, List.length_replicate]
  generalize coeffs.foldl orBytes (List.replicate fbs 0) = l at *
  have hi : i < l.length := by omega
  have hr : l.reverse[fbs - 1 - i]? = l[i]? := by
    rw [List.getElem?_reverse (by omega), hl]
    congr 1
    omega
  rw [← hr]
  cases hf : l.reverse.findIdx? (fun v => v != 0) with
  | none =>
    rw [List.findIdx?_eq_none_iff] at hf
    have hlt : fbs - 1 - i < l.reverse.length := by rw [List.length_reverse]; omega
    rw [List.getElem?_eq_getElem hlt]
    have := hf _ (List.getElem_mem hlt)
    simp only [bne_eq_false_iff_eq] at this
    rw [this]
  | some k =>
    rw [hf, Option.getD_some] at h1
    rw [List.findIdx?_eq_some_iff_getElem] at hf
    obtain ⟨hk, hk1, hk2⟩ := hf
    rw [List.length_reverse] at hk
    have hlt : fbs - 1 - i < k := by omega
    have := hk2 _ hlt
    simp only [bne_iff_ne, ne_eq, Decidable.not_not] at this
    rw [List.getElem?_eq_getElem (by rw [List.length_reverse]; omega), this]

theorem maxByteSize_le (fbs : ℕ) (coeffs : List (List ℕ)) : maxByteSize fbs coeffs ≤ fbs := Nat.sub_le _ _

theorem maxByteSize_spec (fbs : ℕ) (coeffs : List (List ℕ)) (k : List ℕ) (hk : k ∈ coeffs) (hb : IsBytes k)
    (hv : leNat k < 256 ^ fbs) : leNat k < 256 ^ maxByteSize fbs coeffs := by
  have h1 : leNat (k.take fbs) = leNat k := by rw [leNat_take k hb, Nat.mod_eq_of_lt hv]
  rw [← h1]
  have hz : (k.take fbs).drop (maxByteSize fbs coeffs)
      = List.replicate ((k.take fbs).length - maxByteSize fbs coeffs) 0 := by
    rw [List.eq_replicate_iff]
    refine ⟨List.length_drop, ?_⟩
    intro b hb
    obtain ⟨i, hi, rfl⟩ := List.getElem_of_mem hb
    rw [List.length_drop, List.length_take] at hi
    rw [List.getElem_drop, List.getElem_take]
    have h0 := (accOr_zero coeffs _ _ (accOr_top fbs coeffs (maxByteSize fbs coeffs + i) (by omega) (by omega))).2 k hk
    rw [List.getElem?_eq_getElem (by omega)] at h0
    rcases h0 with h0 | h0
    · exact Option.some.inj h0
    · cases h0
  have hb' : IsBytes (k.take fbs) := hb.take _
  rw [← List.take_append_drop (maxByteSize fbs coeffs) (k.take fbs), leNat_append, hz, leNat_replicate, Nat.mul_zero,
    Nat.add_zero]
  refine lt_of_lt_of_le (leNat_lt _ (hb'.take _)) (Nat.pow_le_pow_right (by decide) ?_)
  rw [List.length_take]
  exact Nat.min_le_left _ _

end Bytes

variable {F : Type} [Field F] [DecidableEq F] [BaseField F] [LawfulBase F] {C : Params F}

/-- The weighted sum a list of buckets stands for. -/
def wsum (n : ℕ) (v : ℕ → Pt C) : Pt C := ∑ i ∈ Finset.range n, (i + 1) • v i

theorem wsum_update (n : ℕ) (v : ℕ → Pt C) (i : ℕ) (hi : i < n) (p : Pt C) :
    wsum n (Function.update v i (v i + p)) = wsum n v + (i + 1) • p := by
  rw [wsum, wsum, ← Finset.sum_erase_add _ _ (Finset.mem_range.mpr hi),
    ← Finset.sum_erase_add (a := i) (Finset.range n) (fun i => (i + 1) • v i) (Finset.mem_range.mpr hi)]
  simp only [Function.update_self]
  rw [smul_add, ← add_assoc]
  congr 2
  apply Finset.sum_congr rfl
  intro j hj
  rw [Function.update_of_ne (Finset.ne_of_mem_erase hj)]

theorem wsum_succ (n : ℕ) (v : ℕ → Pt C) :
    wsum (n + 1) v = wsum n (fun i => v (i + 1)) + ∑ i ∈ Finset.range (n + 1), v i := by
  rw [wsum, wsum, Finset.sum_range_succ', Finset.sum_range_succ', ← add_assoc, ← Finset.sum_add_distrib]
  simp only [zero_add, one_smul]
  congr 1
  apply Finset.sum_congr rfl
  intro i _
  rw [succ_nsmul (v (i + 1)) (i + 1)]

/-- A list of buckets stands for the values `v`. -/
def BsRep {β : Type} (R : β → Pt C → Prop) (bs : List β) (v : ℕ → Pt C) : Prop :=
  ∀ i b, bs[i]? = some b → R b (v i)

theorem BsRep.set {β : Type} {R : β → Pt C → Prop} {bs : List β} {v : ℕ → Pt C} (h : BsRep R bs v) (i : ℕ) (b : β)
    (p : Pt C) (hb : R b p) : BsRep R (bs.set i b) (Function.update v i p) := by
  intro j b' hj
  rw [List.getElem?_set] at hj
  by_cases hij : i = j
  · subst hij
    rw [if_pos rfl] at hj
    split at hj
    · rw [Option.some.inj hj.symm, Function.update_self]
      exact hb
    · cases hj
  · rw [if_neg hij] at hj
    rw [Function.update_of_ne (Ne.symm hij)]
    exact h j b' hj

theorem BsRep.replicate {β : Type} {R : β → Pt C → Prop} {b : β} (h : R b 0) (n : ℕ) :
    BsRep R (List.replicate n b) (fun _ => 0) := by
  intro i b' hi
  rw [List.getElem?_replicate] at hi
  split at hi
  · rw [← Option.some.inj hi]; exact h
  · cases hi

theorem BsRep.tail {β : Type} {R : β → Pt C → Prop} {b : β} {bs : List β} {v : ℕ → Pt C} (h : BsRep R (b :: bs) v) :
    BsRep R bs (fun i => v (i + 1)) := fun i b' hi => h (i + 1) b' hi

theorem wsum_zero (n : ℕ) : wsum n (fun _ => (0 : Pt C)) = 0 := by
  simp [wsum]

theorem PRep.iterate_double (hC : Good C) {P : Proj F} {p : Pt C} (hP : PRep C P p) (n : ℕ) :
    PRep C (Nat.iterate (Proj.double C) n P) (2 ^ n • p) := by
  induction n generalizing P p with
  | zero => rw [pow_zero, one_smul]; exact hP
  | succ n ih =>
    have := ih (hP.double hC)
    rw [← two_smul ℕ p, smul_smul, ← pow_succ] at this
    exact this

/-- What a bucket of `msm_serial` stands for. -/
def SBRep (b : SBucket F) (p : Pt C) : Prop :=
  match b with
  | .none => p = 0
  | .aff a => ARep C a p
  | .proj P => PRep C P p

theorem SBRep.addAssign (hC : Good C) {b : SBucket F} {p q : Pt C} {Q : Aff F} (hb : SBRep b p) (hq : ARep C Q q) :
    SBRep (b.addAssign C Q) (p + q) := by
  cases b with
  | none =>
    rw [show p = 0 from hb, zero_add]
    exact hq
  | aff a => exact ARep.add hC hb hq
  | proj P => exact PRep.addMixed hC hb hq

theorem SBRep.add (hC : Good C) {b : SBucket F} {p q : Pt C} {Q : Proj F} (hb : SBRep b p) (hq : PRep C Q q) :
    PRep C (b.add C Q) (q + p) := by
  cases b with
  | none =>
    rw [show p = 0 from hb, add_zero]
    exact hq
  | aff a => exact hq.addMixed hC hb
  | proj P => exact hq.add hC hb

theorem modifyAt_some {α : Type} (l : List α) (i : ℕ) (hi : i < l.length) (f : α → α) :
    modifyAt l i f = some (l.set i (f l[i])) := by
  rw [modifyAt, List.getElem?_eq_getElem hi]

theorem serialStep_spec (hC : Good C) (w c : ℕ) (hc1 : 1 ≤ c) (hc : c ≤ 24) {bs : List (SBucket F)} {v : ℕ → Pt C}
    (hl : bs.length = 2 ^ (c - 1)) (hv : BsRep SBRep bs v) {k : List ℕ} (hk : IsBytes k) {Q : Aff F} {q : Pt C}
    (hq : ARep C Q q) :
    ∃ bs' v', serialStep C w c bs (k, Q) = some bs' ∧ bs'.length = 2 ^ (c - 1) ∧ BsRep SBRep bs' v' ∧
      wsum (2 ^ (c - 1)) v' = wsum (2 ^ (c - 1)) v + boothIndex w c k • q := by
  obtain ⟨b1, b2⟩ := booth_bound w c k hk hc1 hc
  rw [serialStep]
  dsimp only
  generalize boothIndex w c k = d at *
  have hcast : ((2 : ℤ) ^ (c - 1)) = ((2 ^ (c - 1) : ℕ) : ℤ) := by push_cast; rfl
  rw [hcast] at b1 b2
  by_cases h1 : 0 < d
  · rw [if_pos h1]
    have hi : d.natAbs - 1 < bs.length := by rw [hl]; omega
    refine ⟨_, Function.update v (d.natAbs - 1) (v (d.natAbs - 1) + q), modifyAt_some _ _ hi _, ?_, ?_, ?_⟩
    · rw [List.length_set, hl]
    · exact hv.set _ _ _ ((hv _ _ (List.getElem?_eq_getElem hi)).addAssign hC hq)
    · rw [wsum_update _ _ _ (by omega)]
      congr 1
      rw [← natCast_zsmul]
      congr 1
      omega
  · rw [if_neg h1]
    by_cases h2 : d < 0
    · rw [if_pos h2]
      have hi : d.natAbs - 1 < bs.length := by rw [hl]; omega
      refine ⟨_, Function.update v (d.natAbs - 1) (v (d.natAbs - 1) + -q), modifyAt_some _ _ hi _, ?_, ?_, ?_⟩
      · rw [List.length_set, hl]
      · exact hv.set _ _ _ ((hv _ _ (List.getElem?_eq_getElem hi)).addAssign hC hq.neg)
      · rw [wsum_update _ _ _ (by omega)]
        congr 1
        rw [← natCast_zsmul, smul_neg, ← neg_smul]
        congr 1
        omega
    · rw [if_neg h2]
      refine ⟨bs, v, rfl, hl, hv, ?_⟩
      rw [show d = 0 by omega, zero_smul, add_zero]

/-- A term: the scalar bytes, the base, and the point it stands for. -/
abbrev Term (C : Params F) := List ℕ × Aff F × Pt C

def Term.Ok (t : Term C) : Prop := IsBytes t.1 ∧ ARep C t.2.1 t.2.2

theorem serialFold_spec (hC : Good C) (w c : ℕ) (hc1 : 1 ≤ c) (hc : c ≤ 24) (T : List (Term C))
    (hT : ∀ t ∈ T, Term.Ok t) {bs : List (SBucket F)} {v : ℕ → Pt C} (hl : bs.length = 2 ^ (c - 1))
    (hv : BsRep SBRep bs v) :
    ∃ bs' v', (T.map (fun t => (t.1, t.2.1))).foldlM (serialStep C w c) bs = some bs' ∧ bs'.length = 2 ^ (c - 1) ∧
      BsRep SBRep bs' v' ∧
      wsum (2 ^ (c - 1)) v' = wsum (2 ^ (c - 1)) v + (T.map (fun t => boothIndex w c t.1 • t.2.2)).sum := by
  induction T generalizing bs v with
  | nil => exact ⟨bs, v, rfl, hl, hv, by simp⟩
  | cons t T ih =>
    obtain ⟨ht1, ht2⟩ := hT t (by simp)
    obtain ⟨bs1, v1, e1, l1, r1, s1⟩ := serialStep_spec hC w c hc1 hc hl hv ht1 ht2
    obtain ⟨bs2, v2, e2, l2, r2, s2⟩ := ih (fun t ht => hT t (by simp [ht])) l1 r1
    refine ⟨bs2, v2, ?_, l2, r2, ?_⟩
    · rw [List.map_cons, List.foldlM_cons, e1]
      exact e2
    · rw [s2, s1, List.map_cons, List.sum_cons, add_assoc]

theorem serialSum_spec (hC : Good C) (bs : List (SBucket F)) (v : ℕ → Pt C) (hv : BsRep SBRep bs v) {A : Proj F}
    {a : Pt C} (hA : PRep C A a) :
    PRep C (bs.reverse.foldl (serialSum C) (Proj.identity, A)).1 (∑ i ∈ Finset.range bs.length, v i) ∧
    PRep C (bs.reverse.foldl (serialSum C) (Proj.identity, A)).2 (a + wsum bs.length v) := by
  induction bs generalizing v with
  | nil =>
    simp only [List.reverse_nil, List.foldl_nil, List.length_nil, Finset.range_zero, Finset.sum_empty, wsum, add_zero]
    exact ⟨PRep.identity, hA⟩
  | cons b bs ih =>
    obtain ⟨i1, i2⟩ := ih _ hv.tail
    rw [List.reverse_cons, List.foldl_append, List.foldl_cons, List.foldl_nil]
    generalize bs.reverse.foldl (serialSum C) (Proj.identity, A) = s at *
    have hr := SBRep.add hC (hv 0 b rfl) i1
    rw [← Finset.sum_range_succ' v bs.length] at hr
    refine ⟨hr, ?_⟩
    have := i2.add hC hr
    rw [add_assoc, ← wsum_succ] at this
    exact this

theorem serialWindow_spec (hC : Good C) (c : ℕ) (hc1 : 1 ≤ c) (hc : c ≤ 24) (T : List (Term C))
    (hT : ∀ t ∈ T, Term.Ok t) {A : Proj F} {a : Pt C} (hA : PRep C A a) (w : ℕ) :
    ∃ A', serialWindow C c (T.map (fun t => (t.1, t.2.1))) A w = some A' ∧
      PRep C A' (2 ^ c • a + (T.map (fun t => boothIndex w c t.1 • t.2.2)).sum) := by
  obtain ⟨bs, v, e1, l1, r1, s1⟩ := serialFold_spec hC w c hc1 hc T hT
    (bs := List.replicate (1 <<< (c - 1)) SBucket.none) (v := fun _ => 0)
    (by rw [List.length_replicate, Nat.shiftLeft_eq, one_mul]) (BsRep.replicate (R := SBRep) (show SBRep SBucket.none 0 from rfl) _)
  rw [wsum_zero, zero_add] at s1
  have hs := (serialSum_spec hC bs v r1 (PRep.iterate_double hC hA c)).2
  rw [l1, s1] at hs
  refine ⟨_, ?_, hs⟩
  rw [serialWindow]
  rw [e1]

theorem windows_spec (hC : Good C) (c : ℕ) (hc1 : 1 ≤ c) (hc : c ≤ 24) (T : List (Term C))
    (hT : ∀ t ∈ T, Term.Ok t) (n : ℕ) {A : Proj F} {a : Pt C} (hA : PRep C A a) :
    ∃ A', (List.range n).reverse.foldlM (serialWindow C c (T.map (fun t => (t.1, t.2.1)))) A = some A' ∧
      PRep C A' (2 ^ (c * n) • a +
        ∑ w ∈ Finset.range n, 2 ^ (c * w) • (T.map (fun t => boothIndex w c t.1 • t.2.2)).sum) := by
  induction n generalizing A a with
  | zero =>
    refine ⟨A, rfl, ?_⟩
    simpa using hA
  | succ n ih =>
    obtain ⟨A1, e1, r1⟩ := serialWindow_spec hC c hc1 hc T hT hA n
    obtain ⟨A2, e2, r2⟩ := ih r1
    refine ⟨A2, ?_, ?_⟩
    · rw [List.range_succ, List.reverse_append, List.reverse_singleton, List.singleton_append, List.foldlM_cons, e1]
      exact e2
    · rw [Finset.sum_range_succ, Nat.mul_succ, pow_add, mul_smul]
      rw [smul_add] at r2
      convert r2 using 1
      abel

theorem sum_windows (c n : ℕ) (hc1 : 1 ≤ c) (hc : c ≤ 24) (T : List (Term C))
    (hT : ∀ t ∈ T, Term.Ok t) (hn : ∀ t ∈ T, 2 * leNat t.1 < 2 ^ (c * n)) :
    ∑ w ∈ Finset.range n, 2 ^ (c * w) • (T.map (fun t => boothIndex w c t.1 • t.2.2)).sum
      = (T.map (fun t => leNat t.1 • t.2.2)).sum := by
  induction T with
  | nil => simp
  | cons t T ih =>
    simp only [List.map_cons, List.sum_cons, smul_add, Finset.sum_add_distrib]
    rw [ih (fun t ht => hT t (by simp [ht])) (fun t ht => hn t (by simp [ht]))]
    congr 1
    have h := booth_sum n c t.1 (hT t (by simp)).1 hc1 hc
    rw [rest_eq_zero _ _ _ (hn t (by simp)), Nat.cast_zero, mul_zero, sub_zero] at h
    rw [← natCast_zsmul, ← h, Finset.sum_smul]
    apply Finset.sum_congr rfl
    intro w _
    rw [← natCast_zsmul, smul_smul, mul_comm]
    push_cast
    rfl

/-- The general form: what `msm_serial` leaves in the accumulator. -/
theorem msmSerial_spec (hC : Good C) (ln : ℕ → ℕ) (fbs : ℕ) (coeffs : List (List ℕ)) (bases : List (Aff F))
    (T : List (Term C)) (hz : coeffs.zip bases = T.map (fun t => (t.1, t.2.1))) (hT : ∀ t ∈ T, Term.Ok t)
    (hlen : ∀ t ∈ T, leNat t.1 < 256 ^ fbs) (hc1 : 1 ≤ windowSize ln bases.length)
    (hc : windowSize ln bases.length ≤ 24) {A : Proj F} {a : Pt C} (hA : PRep C A a) :
    ∃ A', msmSerial C ln fbs coeffs bases A = some A' ∧
      PRep C A' ((if maxByteSize fbs coeffs = 0 then 1 else
          2 ^ (windowSize ln bases.length * (maxByteSize fbs coeffs * 8 / windowSize ln bases.length + 1))) • a
        + (T.map (fun t => leNat t.1 • t.2.2)).sum) := by
  have hmem : ∀ t ∈ T, t.1 ∈ coeffs := by
    intro t ht
    have : (t.1, t.2.1) ∈ coeffs.zip bases := by rw [hz]; exact List.mem_map.mpr ⟨t, ht, rfl⟩
    exact (List.of_mem_zip this).1
  have hval : ∀ t ∈ T, leNat t.1 < 256 ^ maxByteSize fbs coeffs := fun t ht =>
    maxByteSize_spec fbs coeffs t.1 (hmem t ht) (hT t ht).1 (hlen t ht)
  rw [msmSerial]
  dsimp only
  generalize windowSize ln bases.length = c at *
  generalize maxByteSize fbs coeffs = m at *
  by_cases hm : m = 0
  · rw [if_pos hm, if_pos hm]
    refine ⟨A, rfl, ?_⟩
    have h0 : T.map (fun t => leNat t.1 • t.2.2) = T.map (fun _ => (0 : Pt C)) := by
      apply List.map_congr_left
      intro t ht
      have := hval t ht
      rw [hm, pow_zero] at this
      rw [show leNat t.1 = 0 by omega, zero_smul]
    rw [h0]
    simpa using hA
  · rw [if_neg hm, if_neg hm, if_neg (by omega : ¬ c = 0), hz]
    obtain ⟨A', e, r⟩ := windows_spec hC c hc1 hc T hT (m * 8 / c + 1) hA
    refine ⟨A', e, ?_⟩
    rw [sum_windows c _ hc1 hc T hT] at r
    · exact r
    · intro t ht
      have h1 := hval t ht
      have h2 : m * 8 < c * (m * 8 / c + 1) := by
        have := Nat.lt_mul_div_succ (m * 8) (by omega : 0 < c)
        exact this
      have h3 : (256 : ℕ) ^ m = 2 ^ (m * 8) := by rw [Nat.mul_comm, pow_mul]; norm_num
      rw [h3] at h1
      calc 2 * leNat t.1 < 2 * 2 ^ (m * 8) := by omega
        _ = 2 ^ (m * 8 + 1) := by ring
        _ ≤ _ := Nat.pow_le_pow_right (by decide) h2

/-- The panic branch: a window size of zero. -/
theorem msmSerial_panic (ln : ℕ → ℕ) (fbs : ℕ) (coeffs : List (List ℕ)) (bases : List (Aff F)) (A : Proj F)
    (h0 : windowSize ln bases.length = 0) (hm : maxByteSize fbs coeffs ≠ 0) :
    msmSerial C ln fbs coeffs bases A = none := by
  rw [msmSerial]
  dsimp only
  rw [if_neg hm, if_pos h0]

end Halo2.Msm
