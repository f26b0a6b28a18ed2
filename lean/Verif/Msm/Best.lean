import Verif.Msm.Batch

/-!
# The scheduler, the windows of `msm_best`, and the parallel loops
-/

set_option linter.unusedSectionVars false

namespace Halo2.Msm

open Halo2.Field Halo2.Curve WeierstrassCurve

/-! ## Parallel loops -/

theorem runTasks_aux {α : Type} (task : ℕ → α → Option α) (r : ℕ → α) (order : List ℕ) (hnd : order.Nodup)
    (s : List α) (h : ∀ i ∈ order, ∃ v, s[i]? = some v ∧ task i v = some (r i)) :
    ∃ s', runTasks task order s = some s' ∧ s'.length = s.length ∧
      ∀ j, s'[j]? = if j ∈ order then some (r j) else s[j]? := by
  induction order generalizing s with
  | nil => exact ⟨s, rfl, rfl, by simp⟩
  | cons i order ih =>
    rw [List.nodup_cons] at hnd
    obtain ⟨v, hv, ht⟩ := h i (by simp)
    have hlt : i < s.length := (List.getElem?_eq_some_iff.mp hv).1
    obtain ⟨s', e, l, g⟩ := ih hnd.2 (s.set i (r i)) (by
      intro j hj
      obtain ⟨w, hw, ht'⟩ := h j (by simp [hj])
      refine ⟨w, ?_, ht'⟩
      rw [List.getElem?_set_ne (by rintro rfl; exact hnd.1 hj), hw])
    refine ⟨s', ?_, by rw [l, List.length_set], ?_⟩
    · rw [runTasks, List.foldlM_cons, hv]
      dsimp only
      rw [ht]
      exact e
    · intro j
      rw [g j]
      by_cases hji : j = i
      · subst hji
        rw [if_neg hnd.1, if_pos (by simp), List.getElem?_set_self hlt]
      · rw [List.getElem?_set_ne (Ne.symm hji)]
        simp only [List.mem_cons, hji, false_or]

/-- A parallel loop whose tasks succeed gives the vector of their results, whatever the order. -/
theorem runTasks_spec {α : Type} (task : ℕ → α → Option α) (r : ℕ → α) (n : ℕ) (order : List ℕ)
    (ho : order.Perm (List.range n)) (v : α) (h : ∀ i < n, task i v = some (r i)) :
    runTasks task order (List.replicate n v) = some ((List.range n).map r) := by
  have hm : ∀ i, i ∈ order ↔ i < n := fun i => by rw [ho.mem_iff, List.mem_range]
  obtain ⟨s', e, l, g⟩ := runTasks_aux task r order (ho.nodup_iff.mpr List.nodup_range) (List.replicate n v) (by
    intro i hi
    rw [hm] at hi
    exact ⟨v, by rw [List.getElem?_replicate, if_pos hi], h i hi⟩)
  rw [e]
  congr 1
  apply List.ext_getElem?
  intro j
  rw [g j, List.getElem?_map]
  by_cases hj : j < n
  · rw [if_pos ((hm j).mpr hj), List.getElem?_range hj]; rfl
  · rw [if_neg (fun h => hj ((hm j).mp h)), List.getElem?_replicate, if_neg hj,
      List.getElem?_eq_none (by rw [List.length_range]; omega)]; rfl

/-! ## Chunks -/

theorem chunksAux_map {α β : Type} (f : α → β) (n k : ℕ) (l : List α) :
    chunksAux n k (l.map f) = (chunksAux n k l).map (List.map f) := by
  induction n generalizing l with
  | zero => rfl
  | succ n ih =>
    cases l with
    | nil => rfl
    | cons x xs =>
      simp only [chunksAux, List.map_cons]
      rw [← List.map_cons, ← List.map_take, ← List.map_drop, ih]

theorem chunks_map {α β : Type} (f : α → β) (k : ℕ) (l : List α) : chunks k (l.map f) = (chunks k l).map (List.map f) := by
  rw [chunks, chunks, List.length_map, chunksAux_map]

theorem chunksAux_flatten {α : Type} (n k : ℕ) (hk : 1 ≤ k) (l : List α) (hl : l.length ≤ n) :
    (chunksAux n k l).flatten = l := by
  induction n generalizing l with
  | zero => rw [List.length_eq_zero_iff.mp (Nat.le_zero.mp hl)]; rfl
  | succ n ih =>
    cases l with
    | nil => rfl
    | cons x xs =>
      simp only [chunksAux, List.flatten_cons]
      rw [ih _ (by rw [List.length_drop]; simp only [List.length_cons] at hl ⊢; omega), List.take_append_drop]

theorem chunks_flatten {α : Type} (k : ℕ) (hk : 1 ≤ k) (l : List α) : (chunks k l).flatten = l :=
  chunksAux_flatten _ k hk l le_rfl

theorem mem_chunks {α : Type} (k : ℕ) (hk : 1 ≤ k) (l : List α) (T : List α) (hT : T ∈ chunks k l) :
    T.length ≤ l.length ∧ ∀ t ∈ T, t ∈ l := by
  have h := chunks_flatten k hk l
  refine ⟨?_, fun t ht => by rw [← h]; exact List.mem_flatten.mpr ⟨T, hT, ht⟩⟩
  conv_rhs => rw [← h]
  exact (List.sublist_flatten_of_mem hT).length_le

variable {F : Type} [Field F] [DecidableEq F] [BaseField F] [LawfulBase F] {C : Params F}

/-! ## `msm_parallel` -/

/-- What is assumed of the floating point `(n as f64).ln().ceil()`. -/
def LnCeilOk (ln : ℕ → ℕ) : Prop := ∀ n, 32 ≤ n → n < 2 ^ 32 → 1 ≤ ln n ∧ ln n ≤ 24

theorem windowSize_ok {ln : ℕ → ℕ} (hln : LnCeilOk ln) (n : ℕ) (hn : n < 2 ^ 32) :
    1 ≤ windowSize ln n ∧ windowSize ln n ≤ 24 := by
  rw [windowSize]
  split
  · omega
  · split
    · omega
    · rw [Nat.mod_eq_of_lt hn]
      exact hln n (by omega) hn

theorem zip_map_map {α β γ : Type} (f : α → β) (g : α → γ) (l : List α) :
    (l.map f).zip (l.map g) = l.map (fun a => (f a, g a)) := by
  induction l with
  | nil => rfl
  | cons x xs ih => simp only [List.map_cons, List.zip_cons_cons, ih]

theorem msmSerial_terms (hC : Good C) {ln : ℕ → ℕ} (hln : LnCeilOk ln) (fbs : ℕ) (T : List (Term C))
    (hT : ∀ t ∈ T, Term.Ok t) (hval : ∀ t ∈ T, leNat t.1 < 256 ^ fbs) (hlen : T.length < 2 ^ 32) :
    ∃ A', msmSerial C ln fbs (T.map (fun t => t.1)) (T.map (fun t => t.2.1)) Proj.identity = some A' ∧
      PRep C A' (T.map (fun t => leNat t.1 • t.2.2)).sum := by
  obtain ⟨w1, w2⟩ := windowSize_ok hln (T.map (fun t => t.2.1)).length (by rw [List.length_map]; exact hlen)
  obtain ⟨A', e, r⟩ := msmSerial_spec hC ln fbs (T.map (fun t => t.1)) (T.map (fun t => t.2.1)) T
    (zip_map_map _ _ _) hT hval w1 w2 PRep.identity
  rw [smul_zero, zero_add] at r
  exact ⟨A', e, r⟩

theorem foldl_add_spec (hC : Good C) (n : ℕ) (r : ℕ → Proj F) (v : ℕ → Pt C) (h : ∀ i < n, PRep C (r i) (v i)) :
    PRep C (((List.range n).map r).foldl (fun a b => Proj.add C a b) Proj.identity) (∑ i ∈ Finset.range n, v i) := by
  induction n with
  | zero => simpa using PRep.identity
  | succ n ih =>
    rw [List.range_succ, List.map_append, List.map_singleton, List.foldl_append, Finset.sum_range_succ]
    exact (ih (fun i hi => h i (by omega))).add hC (h n (by omega))

theorem sum_flatten (L : List (List (Term C))) :
    ∑ i ∈ Finset.range L.length, ((L[i]?.getD []).map (fun t => leNat t.1 • t.2.2)).sum
      = (L.flatten.map (fun t => leNat t.1 • t.2.2)).sum := by
  induction L with
  | nil => simp
  | cons T L ih =>
    rw [List.length_cons, Finset.sum_range_succ']
    simp only [List.getElem?_cons_succ, List.getElem?_cons_zero, Option.getD_some]
    rw [ih, List.flatten_cons, List.map_append, List.sum_append, add_comm]

theorem msmParallel_spec (hC : Good C) {ln : ℕ → ℕ} (hln : LnCeilOk ln) (fbs threads : ℕ) (hth : 1 ≤ threads)
    (T : List (Term C)) (order : List ℕ)
    (ho : threads < T.length → order.Perm (List.range (chunks (T.length / threads) T).length))
    (hT : ∀ t ∈ T, Term.Ok t) (hval : ∀ t ∈ T, leNat t.1 < 256 ^ fbs) (hlen : T.length < 2 ^ 32) :
    ∃ A', msmParallel C ln fbs threads order (T.map (fun t => t.1)) (T.map (fun t => t.2.1)) = some A' ∧
      PRep C A' (T.map (fun t => leNat t.1 • t.2.2)).sum := by
  rw [msmParallel]
  rw [if_neg (by rw [List.length_map, List.length_map]; exact fun h => h rfl)]
  rw [List.length_map]
  by_cases h : T.length > threads
  · rw [if_pos h]
    dsimp only
    have hk : 1 ≤ T.length / threads := (Nat.le_div_iff_mul_le (by omega)).mpr (by omega)
    have ho' := ho h
    generalize T.length / threads = k at hk ho' ⊢
    rw [chunks_map, chunks_map, zip_map_map, List.length_map]
    have hfl := chunks_flatten k hk T
    have hmem := mem_chunks k hk T
    generalize chunks k T = L at hfl hmem ho' ⊢
    have hex : ∀ i, ∃ A', i < L.length → (msmSerial C ln fbs ((L[i]?.getD []).map (fun t => t.1))
        ((L[i]?.getD []).map (fun t => t.2.1)) Proj.identity = some A' ∧
        PRep C A' ((L[i]?.getD []).map (fun t => leNat t.1 • t.2.2)).sum) := by
      intro i
      by_cases hi : i < L.length
      · obtain ⟨m1, m2⟩ := hmem L[i] (List.getElem_mem hi)
        obtain ⟨A', e, r⟩ := msmSerial_terms hC hln fbs L[i] (fun t ht => hT t (m2 t ht))
          (fun t ht => hval t (m2 t ht)) (by omega)
        refine ⟨A', fun _ => ?_⟩
        rw [List.getElem?_eq_getElem hi, Option.getD_some]
        exact ⟨e, r⟩
      · exact ⟨Proj.identity, fun h => absurd h hi⟩
    choose r hr using hex
    rw [runTasks_spec _ r L.length order ho' Proj.identity]
    · refine ⟨_, rfl, ?_⟩
      have := foldl_add_spec hC L.length r _ (fun i hi => (hr i hi).2)
      rw [sum_flatten, hfl] at this
      exact this
    · intro i hi
      rw [chunkTask, List.getElem?_map, List.getElem?_eq_getElem hi]
      have := (hr i hi).1
      rw [List.getElem?_eq_getElem hi, Option.getD_some] at this
      exact this
  · rw [if_neg h]
    exact msmSerial_terms hC hln fbs T hT hval hlen

/-! ## The scheduler -/

/-- The invariant of the scheduler: `pend` are the scheduled points. -/
structure SchedInv (bases : List (Aff F)) (pt : ℕ → Pt C) (n : ℕ) (s : Sched F) (pend : List SchedPt) (v : ℕ → Pt C) : Prop where
  set_eq : s.set = pend ++ List.replicate (BATCH_SIZE - pend.length) SchedPt.default
  ptr_eq : s.ptr = pend.length
  le : pend.length ≤ BATCH_SIZE
  nodup : (pend.map SchedPt.buckIdx).Nodup
  ok : ∀ sp ∈ pend, PendOk bases pt s.buckets sp
  len : s.buckets.length = n
  rep : BsRep ABRep s.buckets v

/-- The digit of term `i` sends its point to bucket `b`, with sign `s`. -/
def Lands (dig : ℕ → ℤ) (b i : ℕ) (s : Bool) : Prop := dig i ≠ 0 ∧ (dig i).natAbs - 1 = b ∧ s = decide (0 < dig i)

/-- `S b i v`: the affine bucket `b` may hold `v` when term `i` comes. No term may come to a bucket that holds its
own point, unless `a = 0`. -/
structure Reach (dig : ℕ → ℤ) (pt : ℕ → Pt C) (S : ℕ → ℕ → Pt C → Prop) : Prop where
  zero : ∀ b, S b 0 0
  mono : ∀ b i v, S b i v → S b (i + 1) v
  add : ∀ b i v s, S b i v → Lands dig b i s → S b (i + 1) (v + signed s (pt i))
  safe : ∀ b i v s, S b i v → Lands dig b i s → C.a = 0 ∨ v ≠ signed s (pt i)

theorem Reach.le {dig : ℕ → ℤ} {pt : ℕ → Pt C} {S : ℕ → ℕ → Pt C → Prop} (h : Reach dig pt S) {b i j : ℕ} (hij : i ≤ j)
    {v : Pt C} (hv : S b i v) : S b j v := by
  induction hij with
  | refl => exact hv
  | step _ ih => exact h.mono _ _ _ ih

/-- The buckets and the scheduled points before term `i`. -/
def Within (dig : ℕ → ℤ) (S : ℕ → ℕ → Pt C → Prop) (i : ℕ) (pend : List SchedPt) (v : ℕ → Pt C) : Prop :=
  (∀ b, b ∉ pend.map SchedPt.buckIdx → S b i (v b)) ∧
  ∀ sp ∈ pend, sp.baseIdx < i ∧ S sp.buckIdx sp.baseIdx (v sp.buckIdx) ∧ Lands dig sp.buckIdx sp.baseIdx sp.sign

theorem Within.succ {dig : ℕ → ℤ} {pt : ℕ → Pt C} {S : ℕ → ℕ → Pt C → Prop} (hR : Reach dig pt S) {i : ℕ}
    {pend : List SchedPt} {v : ℕ → Pt C} (h : Within dig S i pend v) : Within dig S (i + 1) pend v :=
  ⟨fun b hb => hR.mono _ _ _ (h.1 b hb), fun sp hsp => ⟨Nat.lt_succ_of_lt (h.2 sp hsp).1, (h.2 sp hsp).2⟩⟩

theorem execute_spec (hC : Good C) {bases : List (Aff F)} {pt : ℕ → Pt C} (hB : BasesRep bases pt)
    {dig : ℕ → ℤ} {S : ℕ → ℕ → Pt C → Prop} (hR : Reach dig pt S) {i : ℕ}
    {n : ℕ} {s : Sched F} {pend : List SchedPt} {v : ℕ → Pt C} (h : SchedInv bases pt n s pend v)
    (hW : Within dig S i pend v) :
    ∃ s' v', s.execute bases = some s' ∧ SchedInv bases pt n s' [] v' ∧ Within dig S i [] v' ∧ wsum n v' = wsum n v + pendSum pt pend := by
  rw [Sched.execute]
  by_cases hp : s.ptr ≠ 0
  · rw [if_pos hp, h.ptr_eq, h.set_eq]
    obtain ⟨bk, v2, e, l, r, x1, x2, w⟩ := batchAdd_spec hC hB pend
      (List.replicate (BATCH_SIZE - pend.length) SchedPt.default) h.nodup h.rep h.ok
      (fun sp hsp => hR.safe _ _ _ _ (hW.2 sp hsp).2.1 (hW.2 sp hsp).2.2)
    rw [e]
    rw [h.len] at l w
    have hW2 : Within dig S i [] v2 := by
      refine ⟨fun b _ => ?_, by simp⟩
      by_cases hb : b ∈ pend.map SchedPt.buckIdx
      · obtain ⟨sp, hsp, rfl⟩ := List.mem_map.mp hb
        rw [x2 sp hsp]
        obtain ⟨y1, y2, y3⟩ := hW.2 sp hsp
        exact hR.le y1 (hR.add _ _ _ _ y2 y3)
      · rw [x1 b hb]
        exact hW.1 b hb
    refine ⟨_, v2, rfl, ⟨?_, rfl, by simp, by simp, by simp, l, r⟩, hW2, w⟩
    have : pend.length + (BATCH_SIZE - pend.length) = BATCH_SIZE := by have := h.le; omega
    simp only [List.map_append, List.map_replicate, List.nil_append, List.length_nil, Nat.sub_zero, List.map_const',
      List.replicate_append_replicate, this]
  · rw [if_neg hp]
    have hnil : pend = [] := by
      rw [← List.length_eq_zero_iff, ← h.ptr_eq]
      omega
    subst hnil
    exact ⟨s, v, rfl, h, hW, by simp [pendSum]⟩

theorem not_contains {s : Sched F} {bases : List (Aff F)} {pt : ℕ → Pt C} {n : ℕ} {pend : List SchedPt} {v : ℕ → Pt C}
    (h : SchedInv bases pt n s pend v) {b : ℕ} (hc : ¬ s.contains b = true) : b ∉ pend.map SchedPt.buckIdx := by
  intro hb
  obtain ⟨sp, h1, h2⟩ := List.mem_map.mp hb
  apply hc
  rw [Sched.contains, List.any_eq_true]
  refine ⟨sp, ?_, by simp [h2]⟩
  rw [h.set_eq]
  exact List.mem_append_left _ h1

theorem enqueue_spec {bases : List (Aff F)} {pt : ℕ → Pt C} (hB : BasesRep bases pt)
    {dig : ℕ → ℤ} {S : ℕ → ℕ → Pt C → Prop} (hR : Reach dig pt S) {n : ℕ} {s : Sched F}
    {pend : List SchedPt} {v : ℕ → Pt C} (h : SchedInv bases pt n s pend v) (hlt : pend.length < BATCH_SIZE)
    {i b : ℕ} (hi : i < bases.length) (q2 : pt i ≠ 0) (hb : b < n) (hnc : b ∉ pend.map SchedPt.buckIdx) (sign : Bool)
    (hW : Within dig S i pend v) (hL : Lands dig b i sign) :
    ∃ s' pend' v', s.enqueue bases i b sign = some s' ∧ SchedInv bases pt n s' pend' v' ∧ Within dig S (i + 1) pend' v' ∧
      wsum n v' + pendSum pt pend' = wsum n v + pendSum pt pend + (b + 1) • signed sign (pt i) := by
  have hbi : bases[i]? = some bases[i] := List.getElem?_eq_getElem hi
  have hbn : b < s.buckets.length := by rw [h.len]; exact hb
  have hbb : s.buckets[b]? = some s.buckets[b] := List.getElem?_eq_getElem hbn
  have q1 := hB _ _ hbi
  have hrep := h.rep _ _ hbb
  rw [Sched.enqueue, hbi, hbb]
  dsimp only
  generalize bases[i] = q at *
  generalize s.buckets[b] = bk at *
  cases bk with
  | none =>
    simp only [assign, if_true]
    have hz : v b = 0 := hrep
    refine ⟨_, pend, Function.update v b (v b + signed sign (pt i)), rfl,
      ⟨h.set_eq, h.ptr_eq, h.le, h.nodup, ?_, by rw [List.length_set, h.len], ?_⟩, ⟨?_, ?_⟩, ?_⟩
    · intro sp hsp
      obtain ⟨g1, a, g2⟩ := h.ok sp hsp
      refine ⟨g1, a, ?_⟩
      rw [List.getElem?_set_ne, g2]
      rintro rfl
      exact hnc (List.mem_map_of_mem hsp)
    · apply h.rep.set
      rw [hz, zero_add]
      refine ⟨?_, signed_ne_zero q2 sign⟩
      have := ARep.signed q1 sign
      cases sign
      · exact this
      · exact this
    · intro b' hb'
      by_cases hbb' : b' = b
      · subst hbb'
        rw [Function.update_self]
        exact hR.add _ _ _ _ (hW.1 _ hb') hL
      · rw [Function.update_of_ne hbb']
        exact hR.mono _ _ _ (hW.1 _ hb')
    · intro sp hsp
      have hne : sp.buckIdx ≠ b := by
        rintro rfl
        exact hnc (List.mem_map_of_mem hsp)
      rw [Function.update_of_ne hne]
      exact ⟨Nat.lt_succ_of_lt (hW.2 sp hsp).1, (hW.2 sp hsp).2⟩
    · rw [wsum_update _ _ _ hb]
      abel
  | some a =>
    simp only [assign, Bool.false_eq_true, if_false]
    have hptr : s.ptr < s.set.length := by
      rw [h.ptr_eq, h.set_eq, List.length_append, List.length_replicate]
      omega
    rw [if_pos hptr]
    refine ⟨_, pend ++ [⟨i, b, sign⟩], v, rfl, ⟨?_, ?_, ?_, ?_, ?_, h.len, h.rep⟩, ⟨?_, ?_⟩, ?_⟩
    · simp only [h.set_eq, h.ptr_eq]
      obtain ⟨k, hk⟩ : ∃ k, BATCH_SIZE - pend.length = k + 1 := ⟨BATCH_SIZE - pend.length - 1, by omega⟩
      have hk2 : BATCH_SIZE - (pend ++ [(⟨i, b, sign⟩ : SchedPt)]).length = k := by
        rw [List.length_append, List.length_singleton]; omega
      rw [hk, hk2, List.replicate_succ, List.set_append_right _ _ (le_refl _), Nat.sub_self, List.set_cons_zero,
        List.append_assoc, List.singleton_append]
    · simp only [h.ptr_eq, List.length_append, List.length_singleton]
    · rw [List.length_append, List.length_singleton]; exact hlt
    · rw [List.map_append, List.map_singleton]
      exact List.Nodup.append h.nodup (List.nodup_singleton _) (by simpa using hnc)
    · intro sp hsp
      rcases List.mem_append.mp hsp with hsp | hsp
      · exact h.ok sp hsp
      · rw [List.mem_singleton] at hsp
        subst hsp
        exact ⟨⟨hi, q2⟩, a, hbb⟩
    · intro b' hb'
      rw [List.map_append, List.mem_append, not_or] at hb'
      exact hR.mono _ _ _ (hW.1 _ hb'.1)
    · intro sp hsp
      rcases List.mem_append.mp hsp with hsp | hsp
      · exact ⟨Nat.lt_succ_of_lt (hW.2 sp hsp).1, (hW.2 sp hsp).2⟩
      · rw [List.mem_singleton] at hsp
        subst hsp
        exact ⟨Nat.lt_succ_self _, hW.1 _ hnc, hL⟩
    · rw [pendSum, List.map_append, List.sum_append, ← pendSum]
      simp only [List.map_singleton, List.sum_singleton]
      abel

theorem add_spec (hC : Good C) {bases : List (Aff F)} {pt : ℕ → Pt C} (hB : BasesRep bases pt)
    {dig : ℕ → ℤ} {S : ℕ → ℕ → Pt C → Prop} (hR : Reach dig pt S) {n : ℕ} {s : Sched F} {pend : List SchedPt} {v : ℕ → Pt C} (h : SchedInv bases pt n s pend v)
    (hlt : pend.length < BATCH_SIZE) {i b : ℕ} (hi : i < bases.length) (hi0 : pt i ≠ 0) (hb : b < n)
    (hnc : b ∉ pend.map SchedPt.buckIdx) (sign : Bool) (hW : Within dig S i pend v) (hL : Lands dig b i sign) :
    ∃ s' pend' v', s.add bases i b sign = some s' ∧ SchedInv bases pt n s' pend' v' ∧ Within dig S (i + 1) pend' v' ∧
      pend'.length < BATCH_SIZE ∧
      wsum n v' + pendSum pt pend' = wsum n v + pendSum pt pend + (b + 1) • signed sign (pt i) := by
  obtain ⟨s1, p1, v1, e1, i1, x1, w1⟩ := enqueue_spec hB hR h hlt hi hi0 hb hnc sign hW hL
  have hl1 : s1.set.length = BATCH_SIZE := by
    rw [i1.set_eq, List.length_append, List.length_replicate]
    have := i1.le; omega
  rw [Sched.add, e1]
  dsimp only
  by_cases hp : s1.ptr = s1.set.length
  · rw [if_pos hp]
    obtain ⟨s2, v2, e2, i2, x2, w2⟩ := execute_spec hC hB hR i1 x1
    refine ⟨s2, [], v2, e2, i2, x2, by decide, ?_⟩
    rw [w2, ← w1]
    simp [pendSum]
  · rw [if_neg hp]
    refine ⟨s1, p1, v1, rfl, i1, x1, ?_, w1⟩
    rw [hl1, i1.ptr_eq] at hp
    have := i1.le
    omega

/-! ## A window of `msm_best` -/

/-- What a `Bucket` of `msm_best` stands for. -/
def JRep (b : Option (Proj F)) (p : Pt C) : Prop :=
  match b with
  | none => p = 0
  | some P => PRep C P p

theorem JRep.addAssign (hC : Good C) {b : Option (Proj F)} {p q : Pt C} {Q : Aff F} (hb : JRep b p)
    (hq : ARep C Q q) (s : Bool) : JRep (jAddAssign C b Q s) (p + signed s q) := by
  cases b with
  | none =>
    rw [show p = 0 from hb, zero_add]
    cases s
    · exact (hq.toCurve hC).neg
    · exact hq.toCurve hC
  | some P =>
    cases s
    · exact (sub_eq_add_neg p q) ▸ PRep.subMixed hC hb hq
    · exact PRep.addMixed hC hb hq

theorem fromXY_of (hC : Good C) {Q : Aff F} {q : Pt C} (hq : ARep C Q q) : Aff.fromXY C Q.x Q.y = some Q := by
  have h : Aff.isOnCurve C ⟨Q.x, Q.y⟩ = true := (Aff.valid_iff hC Q).mp ⟨q, hq⟩
  rw [Aff.fromXY, if_pos h]

theorem jAdd_spec (hC : Good C) {b : Option (Proj F)} {a : Option (Aff F)} {p q : Pt C} (hb : JRep b p)
    (ha : ABRep a q) : ∃ P, jAdd C b a = some P ∧ PRep C P (p + q) := by
  cases b with
  | none =>
    rw [show p = 0 from hb, zero_add]
    cases a with
    | none => rw [show q = 0 from ha]; exact ⟨_, rfl, PRep.identity⟩
    | some a =>
      refine ⟨_, ?_, ha.1.toCurve hC⟩
      rw [jAdd, fromXY_of hC ha.1]
  | some P =>
    cases a with
    | none => rw [show q = 0 from ha, add_zero]; exact ⟨P, rfl, hb⟩
    | some a =>
      refine ⟨_, ?_, PRep.addMixed hC hb ha.1⟩
      rw [jAdd, fromXY_of hC ha.1]

/-- The invariant of the loop of a window. -/
def WinInv (bases : List (Aff F)) (pt : ℕ → Pt C) (dig : ℕ → ℤ) (S : ℕ → ℕ → Pt C → Prop) (n i : ℕ)
    (s : List (Option (Proj F)) × Sched F) (total : Pt C) : Prop :=
  ∃ jv pend v, s.1.length = n ∧ BsRep JRep s.1 jv ∧ SchedInv bases pt n s.2 pend v ∧ Within dig S i pend v ∧ pend.length < BATCH_SIZE ∧
    wsum n jv + (wsum n v + pendSum pt pend) = total

theorem bestStep_spec (hC : Good C) {bases : List (Aff F)} {pt : ℕ → Pt C} (hB : BasesRep bases pt)
    {dig : ℕ → ℤ} {S : ℕ → ℕ → Pt C → Prop} (hR : Reach dig pt S)
    (c w : ℕ) (hc1 : 1 ≤ c) (hc : c ≤ 24) {s : List (Option (Proj F)) × Sched F} {total : Pt C}
    {i : ℕ} (h : WinInv bases pt dig S (2 ^ (c - 1)) i s total) {k : List ℕ} (hk : IsBytes k) (hi : i < bases.length)
    (hz : pt i = 0 → boothIndex w c k = 0) (hdig : dig i = boothIndex w c k) :
    ∃ s', bestStep C c w bases bases s (k, i) = some s' ∧
      WinInv bases pt dig S (2 ^ (c - 1)) (i + 1) s' (total + boothIndex w c k • pt i) := by
  obtain ⟨b1, b2⟩ := booth_bound w c k hk hc1 hc
  rw [bestStep]
  dsimp only
  generalize boothIndex w c k = d at *
  have hcast : ((2 : ℤ) ^ (c - 1)) = ((2 ^ (c - 1) : ℕ) : ℤ) := by push_cast; rfl
  rw [hcast] at b1 b2
  obtain ⟨jv, pend, v, hl, hj, hs, hW, hp, htot⟩ := h
  by_cases hd : d ≠ 0
  · rw [if_pos hd]
    have hlt : d.natAbs - 1 < 2 ^ (c - 1) := by omega
    have hterm : (d.natAbs - 1 + 1) • signed (decide (0 < d)) (pt i) = d • pt i := by
      rw [← natCast_zsmul, signed]
      by_cases hpos : 0 < d
      · simp only [hpos, decide_true, if_true]
        congr 1; omega
      · simp only [hpos, decide_false, Bool.false_eq_true, if_false]
        rw [smul_neg, ← neg_smul]
        congr 1; omega
    by_cases hcont : s.2.contains (d.natAbs - 1) = true
    · rw [if_pos hcont, List.getElem?_eq_getElem hi]
      dsimp only
      rw [modifyAt_some _ _ (by rw [hl]; exact hlt)]
      refine ⟨_, rfl, Function.update jv (d.natAbs - 1) (jv (d.natAbs - 1) + signed (decide (0 < d)) (pt i)), pend, v,
        ?_, ?_, hs, hW.succ hR, hp, ?_⟩
      · rw [List.length_set, hl]
      · exact hj.set _ _ _ ((hj _ _ (List.getElem?_eq_getElem (by rw [hl]; exact hlt))).addAssign hC
          (hB _ _ (List.getElem?_eq_getElem hi)) _)
      · rw [wsum_update _ _ _ hlt, hterm, ← htot]
        abel
    · rw [if_neg hcont]
      obtain ⟨s', p', v', e', i', x', l', w'⟩ := add_spec hC hB hR hs hp hi (fun h => hd (hz h)) hlt (not_contains hs hcont)
        (decide (0 < d)) hW (by rw [Lands, hdig]; exact ⟨hd, rfl, rfl⟩)
      rw [e']
      refine ⟨_, rfl, jv, p', v', hl, hj, i', x', l', ?_⟩
      rw [w', hterm, ← htot]
      abel
  · rw [if_neg hd]
    refine ⟨s, rfl, jv, pend, v, hl, hj, hs, hW.succ hR, hp, ?_⟩
    rw [show d = 0 by omega, zero_smul, add_zero, htot]

theorem bestFold_spec (hC : Good C) {bases : List (Aff F)} {pt : ℕ → Pt C} (hB : BasesRep bases pt)
    {dig : ℕ → ℤ} {S : ℕ → ℕ → Pt C → Prop} (hR : Reach dig pt S)
    (c w : ℕ) (hc1 : 1 ≤ c) (hc : c ≤ 24) (ks : List (List ℕ)) (i : ℕ)
    (hks : ∀ k ∈ ks.zipIdx i, IsBytes k.1 ∧ k.2 < bases.length ∧ (pt k.2 = 0 → boothIndex w c k.1 = 0) ∧
      dig k.2 = boothIndex w c k.1) {s : List (Option (Proj F)) × Sched F} {total : Pt C}
    (h : WinInv bases pt dig S (2 ^ (c - 1)) i s total) :
    ∃ s' j, (ks.zipIdx i).foldlM (bestStep C c w bases bases) s = some s' ∧
      WinInv bases pt dig S (2 ^ (c - 1)) j s' (total + ((ks.zipIdx i).map (fun k => boothIndex w c k.1 • pt k.2)).sum) := by
  induction ks generalizing s total i with
  | nil => exact ⟨s, i, rfl, by simpa using h⟩
  | cons k ks ih =>
    rw [List.zipIdx_cons] at hks ⊢
    obtain ⟨k1, k2, k3, k4⟩ := hks (k, i) (by simp)
    obtain ⟨s1, e1, i1⟩ := bestStep_spec hC hB hR c w hc1 hc h k1 k2 k3 k4
    obtain ⟨s2, j, e2, i2⟩ := ih (i + 1) (fun k hk => hks k (by simp [hk])) i1
    refine ⟨s2, j, ?_, ?_⟩
    · rw [List.foldlM_cons, e1]; exact e2
    · rw [List.map_cons, List.sum_cons, ← add_assoc]; exact i2

theorem bestSum_spec (hC : Good C) (js : List (Option (Proj F))) (as : List (Option (Aff F)))
    (hlen : js.length = as.length) (jv v : ℕ → Pt C) (hj : BsRep JRep js jv) (hv : BsRep ABRep as v) {A : Proj F}
    {a : Pt C} (hA : PRep C A a) :
    ∃ r, (js.zip as).reverse.foldlM (bestSum C) (Proj.identity, A) = some r ∧
      PRep C r.1 (∑ i ∈ Finset.range js.length, (jv i + v i)) ∧
      PRep C r.2 (a + wsum js.length (fun i => jv i + v i)) := by
  induction js generalizing as jv v with
  | nil =>
    refine ⟨_, rfl, ?_, ?_⟩
    · simpa using PRep.identity
    · simpa [wsum] using hA
  | cons j js ih =>
    cases as with
    | nil => simp at hlen
    | cons b as =>
      obtain ⟨r, e, r1, r2⟩ := ih as (by simpa using hlen) _ _ hj.tail hv.tail
      obtain ⟨P, eP, rP⟩ := jAdd_spec hC (hj 0 j rfl) (hv 0 b rfl)
      have hr := r1.add hC rP
      rw [← Finset.sum_range_succ' (fun i => jv i + v i) js.length] at hr
      refine ⟨(Proj.add C r.1 P, Proj.add C r.2 (Proj.add C r.1 P)), ?_, hr, ?_⟩
      · rw [List.zip_cons_cons, List.reverse_cons, List.foldlM_append, e]
        simp only [Option.bind_eq_bind, Option.bind_some, List.foldlM_cons, List.foldlM_nil]
        rw [bestSum, eP]
        rfl
      · have := r2.add hC hr
        rw [add_assoc, ← wsum_succ js.length (fun i => jv i + v i)] at this
        exact this

theorem wsum_add (n : ℕ) (v w : ℕ → Pt C) : wsum n (fun i => v i + w i) = wsum n v + wsum n w := by
  simp only [wsum, smul_add, Finset.sum_add_distrib]

theorem booth_of_zero (w c : ℕ) (k : List ℕ) (hk : IsBytes k) (hc1 : 1 ≤ c) (hc : c ≤ 24) (h : leNat k = 0) :
    boothIndex w c k = 0 := by
  rw [boothIndex_eq w c k hk hc1 hc, h, window]
  have h4 : 0 < 2 ^ c := Nat.pow_pos (by decide)
  simp [h4]

theorem bestWindow_spec (hC : Good C) {bases : List (Aff F)} {pt : ℕ → Pt C} (hB : BasesRep bases pt)
    (c w : ℕ) (hc1 : 1 ≤ c) (hc : c ≤ 24) (coeffs : List (List ℕ)) (hk : ∀ k ∈ coeffs, IsBytes k)
    (hlen : coeffs.length = bases.length) (hz : ∀ k ∈ coeffs.zipIdx, pt k.2 = 0 → leNat k.1 = 0)
    {S : ℕ → ℕ → Pt C → Prop} (hR : Reach (fun i => boothIndex w c (coeffs.getD i [])) pt S) :
    ∃ A, bestWindow C c coeffs bases bases w Proj.identity = some A ∧
      PRep C A (2 ^ (c * w) • (coeffs.zipIdx.map (fun k => boothIndex w c k.1 • pt k.2)).sum) := by
  have hn : 1 <<< (c - 1) = 2 ^ (c - 1) := by rw [Nat.shiftLeft_eq, one_mul]
  have hinit : WinInv bases pt (fun i => boothIndex w c (coeffs.getD i [])) S (2 ^ (c - 1)) 0
      ((List.replicate (1 <<< (c - 1)) none, Sched.new c) : List (Option (Proj F)) × Sched F) (0 : Pt C) := by
    refine ⟨fun _ => 0, [], fun _ => 0, ?_, ?_, ⟨?_, rfl, by simp, by simp, by simp, ?_, ?_⟩,
      ⟨fun b _ => hR.zero b, by simp⟩, by decide, ?_⟩
    · rw [List.length_replicate, hn]
    · exact BsRep.replicate (R := JRep) (show JRep none 0 from rfl) _
    · simp [Sched.new]
    · rw [Sched.new, List.length_replicate, hn]
    · exact BsRep.replicate (R := ABRep) (show ABRep none 0 from rfl) _
    · simp [wsum_zero, pendSum]
  obtain ⟨s, j, e, jv, pend, v, i1, i2, i3, i4, _, i5⟩ := bestFold_spec hC hB hR c w hc1 hc coeffs 0 (by
    intro k hk'
    obtain ⟨m1, m2, m3⟩ := List.mem_zipIdx (x := k.1) (i := k.2) hk'
    have hkb : IsBytes k.1 := by
      rw [m3]
      exact hk _ (List.getElem_mem _)
    exact ⟨hkb, by omega, fun h => booth_of_zero w c _ hkb hc1 hc (hz k hk' h), by
      rw [m3, List.getD_eq_getElem?_getD, List.getElem?_eq_getElem (by omega)]
      rfl⟩) hinit
  obtain ⟨sched, v', e', i', _, w'⟩ := execute_spec hC hB hR i3 i4
  obtain ⟨r, er, _, r2⟩ := bestSum_spec hC s.1 sched.buckets (by rw [i1, i'.len]) jv v' i2 i'.rep PRep.identity
  rw [i1, wsum_add, w', i5] at r2
  rw [zero_add, zero_add] at r2
  refine ⟨_, ?_, PRep.iterate_double hC r2 (c * w)⟩
  rw [bestWindow, e]
  dsimp only
  rw [e']
  dsimp only
  rw [er]

/-! ## `msm_best` -/

theorem mapM_fromXY (hC : Good C) (T : List (Term C)) (hT : ∀ t ∈ T, Term.Ok t) :
    (T.map (fun t => t.2.1)).mapM (fun b => Aff.fromXY C b.x b.y) = some (T.map (fun t => t.2.1)) := by
  induction T with
  | nil => rfl
  | cons t T ih =>
    rw [List.map_cons, List.mapM_cons, fromXY_of hC (hT t (by simp)).2, ih (fun t ht => hT t (by simp [ht]))]
    rfl

/-- The point of the `i`-th term. -/
def ptOf (T : List (Term C)) (i : ℕ) : Pt C := (T[i]?.map (fun t => t.2.2)).getD 0

theorem zipIdx_sum (T : List (Term C)) (f : List ℕ → ℤ) :
    (((T.map (fun t => t.1)).zipIdx).map (fun k => f k.1 • ptOf T k.2)).sum = (T.map (fun t => f t.1 • t.2.2)).sum := by
  congr 1
  apply List.ext_getElem?
  intro i
  simp only [List.getElem?_map, List.getElem?_zipIdx, ptOf, Nat.zero_add]
  cases h : T[i]? with
  | none => rfl
  | some t => simp [h]

theorem bases_rep (T : List (Term C)) (hT : ∀ t ∈ T, Term.Ok t) :
    BasesRep (T.map (fun t => t.2.1)) (ptOf T) := by
  intro i q hq
  rw [List.getElem?_map] at hq
  rw [ptOf]
  cases h : T[i]? with
  | none => rw [h] at hq; cases hq
  | some t =>
    rw [h] at hq
    have hm : t ∈ T := List.mem_of_getElem? h
    rw [← Option.some.inj hq]
    exact (hT t hm).2

theorem zero_terms (T : List (Term C)) (hne : ∀ t ∈ T, t.2.2 = 0 → leNat t.1 = 0) :
    ∀ k ∈ (T.map (fun t => t.1)).zipIdx, ptOf T k.2 = 0 → leNat k.1 = 0 := by
  intro k hk h
  obtain ⟨m1, m2, m3⟩ := List.mem_zipIdx (x := k.1) (i := k.2) hk
  rw [List.length_map] at m2
  have hlt : k.2 < T.length := by omega
  rw [ptOf, List.getElem?_eq_getElem hlt] at h
  have := hne T[k.2] (List.getElem_mem _) h
  simpa [m3] using this

/-- The number of tasks `msm_parallel` spawns. -/
def numChunks (threads len : ℕ) : ℕ := (chunks (len / threads) (List.range len)).length

theorem numChunks_eq {α : Type} (threads : ℕ) (l : List α) :
    (chunks (l.length / threads) l).length = numChunks threads l.length := by
  have h : ∀ (n k : ℕ) (l : List α) (m : List ℕ), l.length = m.length →
      (chunksAux n k l).length = (chunksAux n k m).length := by
    intro n
    induction n with
    | zero => intros; rfl
    | succ n ih =>
      intro k l m hlm
      cases l with
      | nil => cases m with
        | nil => rfl
        | cons y ys => simp at hlm
      | cons x xs =>
        cases m with
        | nil => simp at hlm
        | cons y ys =>
          simp only [chunksAux, List.length_cons]
          rw [ih]
          rw [List.length_drop, List.length_drop, hlm]
  rw [numChunks, chunks, chunks, List.length_range]
  exact h _ _ _ _ (by rw [List.length_range])

theorem bestWindow_terms (hC : Good C) (T : List (Term C)) (hT : ∀ t ∈ T, Term.Ok t)
    (hne : ∀ t ∈ T, t.2.2 = 0 → leNat t.1 = 0) (c w : ℕ) (c1 : 1 ≤ c) (c2 : c ≤ 24) {S : ℕ → ℕ → Pt C → Prop}
    (hS : Reach (fun i => boothIndex w c ((T.map (fun t => t.1)).getD i [])) (ptOf T) S) :
    ∃ A, bestWindow C c (T.map (fun t => t.1)) (T.map (fun t => t.2.1)) (T.map (fun t => t.2.1)) w Proj.identity = some A ∧
      PRep C A (2 ^ (c * w) • ((T.map (fun t => t.1)).zipIdx.map (fun k => boothIndex w c k.1 • ptOf T k.2)).sum) := by
  have hl : (T.map (fun t => t.1)).length = (T.map (fun t => t.2.1)).length := by rw [List.length_map, List.length_map]
  have hk : ∀ k ∈ T.map (fun t => t.1), IsBytes k := by
    intro k hk
    obtain ⟨t, ht, rfl⟩ := List.mem_map.mp hk
    exact (hT t ht).1
  exact bestWindow_spec hC (bases_rep T hT) c w c1 c2 _ hk hl (zero_terms T hne) hS

theorem msmBest_spec (hC : Good C) {ln : ℕ → ℕ} (hln : LnCeilOk ln) (numBits threads : ℕ)
    (hth : 1 ≤ threads) (T : List (Term C)) (order1 order2 : List ℕ)
    (ho1 : threads < T.length → order1.Perm (List.range (numChunks threads T.length)))
    (ho2 : order2.Perm (List.range (numBits / windowSize ln T.length + 1)))
    (hT : ∀ t ∈ T, Term.Ok t) (hne : ∀ t ∈ T, t.2.2 = 0 → leNat t.1 = 0) (hval : ∀ t ∈ T, leNat t.1 < 2 ^ numBits)
    (hlen : T.length < 2 ^ 32)
    (hR : ∀ w ≤ numBits / windowSize ln T.length, ∃ S, Reach (fun i => boothIndex w (windowSize ln T.length)
      ((T.map (fun t => t.1)).getD i [])) (ptOf T) S) :
    ∃ A', msmBest C ln numBits threads order1 order2 (T.map (fun t => t.1)) (T.map (fun t => t.2.1)) = some A' ∧
      PRep C A' (T.map (fun t => leNat t.1 • t.2.2)).sum := by
  rw [msmBest]
  rw [if_neg (by rw [List.length_map, List.length_map]; exact fun h => h rfl)]
  dsimp only
  rw [List.length_map]
  obtain ⟨c1, c2⟩ := windowSize_ok hln T.length hlen
  generalize windowSize ln T.length = c at *
  by_cases hc : c < 10
  · rw [if_pos hc]
    refine msmParallel_spec hC hln _ threads hth T order1 ?_ hT ?_ hlen
    · intro h
      rw [numChunks_eq]
      exact ho1 h
    · intro t ht
      have h8 : (256 : ℕ) ^ ((numBits + 7) / 8) = 2 ^ (8 * ((numBits + 7) / 8)) := by rw [pow_mul]; norm_num
      rw [h8]
      exact lt_of_lt_of_le (hval t ht) (Nat.pow_le_pow_right (by decide) (by omega))
  · rw [if_neg hc, mapM_fromXY hC T hT]
    dsimp only
    have hex : ∀ w, ∃ A, w < numBits / c + 1 →
        bestWindow C c (T.map (fun t => t.1)) (T.map (fun t => t.2.1)) (T.map (fun t => t.2.1)) w Proj.identity = some A ∧
        PRep C A (2 ^ (c * w) • ((T.map (fun t => t.1)).zipIdx.map (fun k => boothIndex w c k.1 • ptOf T k.2)).sum) := by
      intro w
      by_cases hw : w < numBits / c + 1
      · obtain ⟨S, hS⟩ := hR w (Nat.lt_succ_iff.mp hw)
        obtain ⟨A, hA⟩ := bestWindow_terms hC T hT hne c w c1 c2 hS
        exact ⟨A, fun _ => hA⟩
      · exact ⟨Proj.identity, fun h => absurd h hw⟩
    choose r hr using hex
    rw [runTasks_spec _ r _ order2 ho2 Proj.identity (fun i hi => (hr i hi).1)]
    refine ⟨_, rfl, ?_⟩
    have := foldl_add_spec hC (numBits / c + 1) r _ (fun i hi => (hr i hi).2)
    simp only [zipIdx_sum] at this
    rw [sum_windows c _ c1 c2 T hT] at this
    · exact this
    · intro t ht
      have h2 : numBits < c * (numBits / c + 1) := Nat.lt_mul_div_succ numBits (by omega)
      have := hval t ht
      calc 2 * leNat t.1 < 2 * 2 ^ numBits := by omega
        _ = 2 ^ (numBits + 1) := by ring
        _ ≤ _ := Nat.pow_le_pow_right (by decide) h2

/-- On the paths below the batched one nothing is asked of the curve or of the bases. -/
theorem msmBest_small (hC : Good C) {ln : ℕ → ℕ} (hln : LnCeilOk ln) (numBits threads : ℕ)
    (hth : 1 ≤ threads) (T : List (Term C)) (order1 order2 : List ℕ)
    (ho1 : threads < T.length → order1.Perm (List.range (numChunks threads T.length)))
    (hT : ∀ t ∈ T, Term.Ok t) (hval : ∀ t ∈ T, leNat t.1 < 2 ^ numBits)
    (hlen : T.length < 2 ^ 32) (hc : windowSize ln T.length < 10) :
    ∃ A', msmBest C ln numBits threads order1 order2 (T.map (fun t => t.1)) (T.map (fun t => t.2.1)) = some A' ∧
      PRep C A' (T.map (fun t => leNat t.1 • t.2.2)).sum := by
  rw [msmBest]
  rw [if_neg (by rw [List.length_map, List.length_map]; exact fun h => h rfl)]
  dsimp only
  rw [List.length_map, if_pos hc]
  refine msmParallel_spec hC hln _ threads hth T order1 ?_ hT ?_ hlen
  · intro h
    rw [numChunks_eq]
    exact ho1 h
  · intro t ht
    have h8 : (256 : ℕ) ^ ((numBits + 7) / 8) = 2 ^ (8 * ((numBits + 7) / 8)) := by rw [pow_mul]; norm_num
    rw [h8]
    exact lt_of_lt_of_le (hval t ht) (Nat.pow_le_pow_right (by decide) (by omega))

end Halo2.Msm
