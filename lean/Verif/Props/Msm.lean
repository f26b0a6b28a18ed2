import Verif.Msm.Counter
import Verif.Props.Curve

/-!
# Multi-scalar multiplication: C29, C30, C31, C32

`ln` stands for the floating point `(n as f64).ln().ceil() as usize` of the code; all that is used of it is
`LnCeilOk ln`: between 1 and 24 for `32 ≤ n < 2^32`. (The true values there are 4 to 23.)
-/

set_option linter.unusedSectionVars false

namespace Halo2.Props

open Halo2 Halo2.Field Halo2.Prime Halo2.Ext Halo2.Curve Halo2.Msm

/-! ## C29 -/

/-- **C29** Booth recoding of any byte string with any window size up to 24 bits: every digit is
between `-2^(c-1)` and `2^(c-1)`, and over enough windows (one bit more than the value needs) the digits add
up to the little-endian value of the bytes. Both window counts of the code, `8 * bytes / c + 1` and
`NUM_BITS / c + 1`, are enough. -/
theorem C29_booth (c : ℕ) (hc1 : 1 ≤ c) (hc : c ≤ 24) (el : List ℕ) (hel : IsBytes el) :
    (∀ w, |boothIndex w c el| ≤ 2 ^ (c - 1)) ∧
    (∀ n, 2 * leNat el < 2 ^ (c * n) → ∑ i ∈ Finset.range n, boothIndex i c el * 2 ^ (c * i) = leNat el) ∧
    (∀ bits, leNat el < 2 ^ bits →
      ∑ i ∈ Finset.range (bits / c + 1), boothIndex i c el * 2 ^ (c * i) = leNat el) := by
  have key : ∀ n, 2 * leNat el < 2 ^ (c * n) →
      ∑ i ∈ Finset.range n, boothIndex i c el * 2 ^ (c * i) = (leNat el : ℤ) := by
    intro n hn
    rw [booth_sum n c el hel hc1 hc, rest_eq_zero _ _ _ hn, Nat.cast_zero, mul_zero, sub_zero]
  refine ⟨fun w => abs_le.mpr (booth_bound w c el hel hc1 hc), key, ?_⟩
  intro bits hb
  apply key
  have h2 : bits < c * (bits / c + 1) := Nat.lt_mul_div_succ bits (by omega)
  calc 2 * leNat el < 2 * 2 ^ bits := by omega
    _ = 2 ^ (bits + 1) := by ring
    _ ≤ _ := Nat.pow_le_pow_right (by decide) h2

/-- The window sizes the code chooses are in the range of C29. -/
theorem C29_window {ln : ℕ → ℕ} (hln : LnCeilOk ln) (n : ℕ) (hn : n < 2 ^ 32) :
    1 ≤ windowSize ln n ∧ windowSize ln n ≤ 24 := windowSize_ok hln n hn

/-- The bound 24 is sharp: with windows of 25 bits the 32-bit window read by the code is too short, and
`2^224` is recoded as another number. The code never uses such a window. -/
theorem C29_wide_false : ∃ el, IsBytes el ∧ el.length = 32 ∧
    ∑ i ∈ Finset.range (256 / 25 + 1), boothIndex i 25 el * 2 ^ (25 * i) ≠ leNat el := by
  refine ⟨List.replicate 28 0 ++ [1, 0, 0, 0], ?_, by decide, by decide +kernel⟩
  intro b hb
  fin_cases hb <;> decide

/-- Four windows of three bits recode 0x1b7 as 2^9 - 2 * 2^6 + 7 * 2^3 - 1: here `-1, -1, -1, 1` in units. -/
example : (List.range 4).map (fun w => boothIndex w 3 [0xb7, 0x01]) = [-1, -1, -1, 1] ∧
    leNat [0xb7, 0x01] = 0x1b7 := by decide

variable {F : Type} [Field F] [DecidableEq F] [BaseField F] [LawfulBase F] {C : Params F}

variable {r : ℕ} [Fact (OddModulus r)]

/-- The multi-scalar product; the shorter list decides. -/
noncomputable def msmValue (ks : List (Fp r)) (ps : List (Pt C)) : Pt C :=
  (List.zipWith (fun k p => Fp.toNat k • p) ks ps).sum

/-- The terms of a product. -/
def mkTerms (ks : List (Fp r)) (bases : List (Aff F)) (ps : List (Pt C)) : List (Term C) :=
  (ks.map Fp.toRepr).zip (bases.zip ps)

theorem mkTerms_sum (ks : List (Fp r)) {bases : List (Aff F)} {ps : List (Pt C)} (h : List.Forall₂ (ARep C) bases ps) :
    ((mkTerms ks bases ps).map (fun t => leNat t.1 • t.2.2)).sum = msmValue ks ps := by
  rw [msmValue]
  congr 1
  induction ks generalizing bases ps with
  | nil => rfl
  | cons k ks ih =>
    cases h with
    | nil => rfl
    | cons h1 h2 =>
      simp only [mkTerms, List.map_cons, List.zip_cons_cons, List.zipWith_cons_cons, (toRepr_spec k).2]
      rw [← ih h2]
      rfl

theorem mkTerms_zip (ks : List (Fp r)) {bases : List (Aff F)} {ps : List (Pt C)} (h : List.Forall₂ (ARep C) bases ps) :
    (ks.map Fp.toRepr).zip bases = (mkTerms ks bases ps).map (fun t => (t.1, t.2.1)) := by
  induction ks generalizing bases ps with
  | nil => rfl
  | cons k ks ih =>
    cases h with
    | nil => rfl
    | cons h1 h2 =>
      simp only [mkTerms, List.map_cons, List.zip_cons_cons]
      rw [ih h2]
      rfl

theorem mkTerms_ok (ks : List (Fp r)) {bases : List (Aff F)} {ps : List (Pt C)} (h : List.Forall₂ (ARep C) bases ps) :
    ∀ t ∈ mkTerms ks bases ps, Term.Ok t ∧ leNat t.1 < r ∧ ∃ k, (k, t.2.2) ∈ ks.zip ps ∧ leNat t.1 = Fp.toNat k := by
  induction ks generalizing bases ps with
  | nil => intro t ht; cases ht
  | cons k ks ih =>
    cases h with
    | nil => intro t ht; cases ht
    | cons h1 h2 =>
      intro t ht
      rcases List.mem_cons.mp ht with rfl | ht
      · exact ⟨⟨(toRepr_spec k).1, h1⟩, by rw [(toRepr_spec k).2]; exact Fp.toNat_lt k, k, by simp, (toRepr_spec k).2⟩
      · obtain ⟨a, b, k', c, d⟩ := ih h2 t ht
        exact ⟨a, b, k', by simp [c], d⟩

theorem mkTerms_lists (ks : List (Fp r)) {bases : List (Aff F)} {ps : List (Pt C)} (h : List.Forall₂ (ARep C) bases ps)
    (hl : ks.length = bases.length) :
    (mkTerms ks bases ps).map (fun t => t.1) = ks.map Fp.toRepr ∧ (mkTerms ks bases ps).map (fun t => t.2.1) = bases ∧
    (mkTerms ks bases ps).length = bases.length := by
  induction ks generalizing bases ps with
  | nil =>
    cases h with
    | nil => exact ⟨rfl, rfl, rfl⟩
    | cons h1 h2 => simp at hl
  | cons k ks ih =>
    cases h with
    | nil => simp at hl
    | cons h1 h2 =>
      obtain ⟨a, b, c⟩ := ih h2 (by simpa using hl)
      rw [mkTerms] at a b c
      simp only [mkTerms, List.map_cons, List.zip_cons_cons, List.length_cons, a, b, c, and_self]

theorem lt_bits (r : ℕ) : r < 2 ^ numBits r := Nat.lt_size_self r

theorem lt_bytes (r : ℕ) : r < 256 ^ ((numBits r + 7) / 8) := by
  have h8 : (256 : ℕ) ^ ((numBits r + 7) / 8) = 2 ^ (8 * ((numBits r + 7) / 8)) := by rw [pow_mul]; norm_num
  rw [h8]
  exact lt_of_lt_of_le (lt_bits r) (Nat.pow_le_pow_right (by decide) (by omega))

theorem leNat_eq_zero (l : List ℕ) (h : leNat l = 0) : ∀ b ∈ l, b = 0 := by
  induction l with
  | nil => intro b hb; cases hb
  | cons x xs ih =>
    have h' : x + 256 * leNat xs = 0 := h
    intro b hb
    rcases List.mem_cons.mp hb with rfl | hb
    · omega
    · exact ih (by omega) b hb

theorem orBytes_zeros (n : ℕ) (l : List ℕ) (h : ∀ b ∈ l, b = 0) :
    orBytes (List.replicate n 0) l = List.replicate n 0 := by
  induction n generalizing l with
  | zero => cases l <;> rfl
  | succ n ih =>
    cases l with
    | nil => rfl
    | cons x xs =>
      rw [List.replicate_succ, orBytes, ih xs (fun b hb => h b (List.mem_cons_of_mem _ hb)), h x List.mem_cons_self]
      rfl

theorem maxByteSize_zero (n : ℕ) (ks : List (List ℕ)) (h : ∀ k ∈ ks, ∀ b ∈ k, b = 0) : maxByteSize n ks = 0 := by
  have h1 : ks.foldl orBytes (List.replicate n 0) = List.replicate n 0 := by
    induction ks with
    | nil => rfl
    | cons k ks ih =>
      rw [List.foldl_cons, orBytes_zeros n k (h k List.mem_cons_self)]
      exact ih (fun k' hk' => h k' (List.mem_cons_of_mem _ hk'))
  rw [maxByteSize, h1, List.reverse_replicate, List.findIdx?_eq_none_iff.mpr]
  · exact Nat.sub_self n
  · intro b hb
    rw [List.eq_of_mem_replicate hb]
    rfl

/-! ## C30 -/

/-- **C30** `msm_serial` into an identity accumulator leaves the multi-scalar product in it: any scalars,
any points (repeated, opposite, the identity), any number of terms below `2^32`. When the two lists have
different lengths the extra entries are ignored. -/
theorem C30_serial (hC : Good C) {ln : ℕ → ℕ} (hln : LnCeilOk ln) (ks : List (Fp r)) {bases : List (Aff F)}
    {ps : List (Pt C)} (h : List.Forall₂ (ARep C) bases ps) (hlen : bases.length < 2 ^ 32) :
    ∃ R, msmSerial C ln ((numBits r + 7) / 8) (ks.map Fp.toRepr) bases Proj.identity = some R ∧
      PRep C R (msmValue ks ps) := by
  obtain ⟨w1, w2⟩ := windowSize_ok hln bases.length hlen
  have hok := mkTerms_ok ks h
  obtain ⟨R, e, hR⟩ := msmSerial_spec hC ln ((numBits r + 7) / 8) (ks.map Fp.toRepr) bases (mkTerms ks bases ps)
    (mkTerms_zip ks h) (fun t ht => (hok t ht).1) (fun t ht => (hok t ht).2.1.trans (lt_bytes r)) w1 w2 PRep.identity
  rw [smul_zero, zero_add, mkTerms_sum ks h] at hR
  exact ⟨R, e, hR⟩

/-- **C30** With an accumulator that is not the identity, `msm_serial` first multiplies it by a power of
two (the power 0 only when all scalars are zero): it does not add the product to the accumulator. -/
theorem C30_acc (hC : Good C) {ln : ℕ → ℕ} (hln : LnCeilOk ln) (ks : List (Fp r)) {bases : List (Aff F)}
    {ps : List (Pt C)} (h : List.Forall₂ (ARep C) bases ps) (hlen : bases.length < 2 ^ 32) {A : Proj F} {a : Pt C}
    (hA : PRep C A a) :
    ∃ R e, msmSerial C ln ((numBits r + 7) / 8) (ks.map Fp.toRepr) bases A = some R ∧
      PRep C R (2 ^ e • a + msmValue ks ps) ∧ (e = 0 ↔ ∀ k ∈ ks, k = 0) := by
  obtain ⟨w1, w2⟩ := windowSize_ok hln bases.length hlen
  have hok := mkTerms_ok ks h
  obtain ⟨R, e, hR⟩ := msmSerial_spec hC ln ((numBits r + 7) / 8) (ks.map Fp.toRepr) bases (mkTerms ks bases ps)
    (mkTerms_zip ks h) (fun t ht => (hok t ht).1) (fun t ht => (hok t ht).2.1.trans (lt_bytes r)) w1 w2 hA
  rw [mkTerms_sum ks h] at hR
  have hiff : maxByteSize ((numBits r + 7) / 8) (ks.map Fp.toRepr) = 0 ↔ ∀ k ∈ ks, k = 0 := by
    constructor
    · intro h0 k hk
      have := maxByteSize_spec ((numBits r + 7) / 8) (ks.map Fp.toRepr) (Fp.toRepr k) (List.mem_map_of_mem hk)
        (toRepr_spec k).1 (by rw [(toRepr_spec k).2]; exact (Fp.toNat_lt k).trans (lt_bytes r))
      rw [h0, pow_zero, (toRepr_spec k).2] at this
      exact (Fp.toNat_eq_zero k).mp (by omega)
    · intro h0
      refine maxByteSize_zero _ _ ?_
      intro k hk
      obtain ⟨k', hk', rfl⟩ := List.mem_map.mp hk
      exact leNat_eq_zero _ (by rw [(toRepr_spec k').2, h0 k' hk', Fp.toNat_zero])
  by_cases hm : maxByteSize ((numBits r + 7) / 8) (ks.map Fp.toRepr) = 0
  · rw [if_pos hm] at hR
    exact ⟨R, 0, e, by simpa using hR, iff_of_true rfl (hiff.mp hm)⟩
  · rw [if_neg hm] at hR
    refine ⟨R, _, e, hR, iff_of_false ?_ (fun h0 => hm (hiff.mpr h0))⟩
    exact Nat.mul_ne_zero (by omega) (Nat.succ_ne_zero _)

/-- **C30** The documented panic on lists of different lengths does not happen: two scalars and one point give a result. -/
theorem C30_lengths_false : ∃ R, msmSerial Bn256.g1 (fun _ => 1) ((numBits bnR + 7) / 8)
    (([1, 1] : List (Fp bnR)).map Fp.toRepr) [Bn256.g1Gen] Proj.identity = some R := by
  obtain ⟨_, g, hg, _⟩ := C21_generators.1
  obtain ⟨R, h, _⟩ := C30_serial Bn256.g1_good (ln := fun _ => 1) (fun _ _ _ => ⟨le_refl 1, (by decide : 1 ≤ 24)⟩)
    ([1, 1] : List (Fp bnR)) (List.Forall₂.cons hg List.Forall₂.nil) (by rw [List.length_singleton]; decide)
  exact ⟨R, h⟩

/-- **C30** The length is truncated to 32 bits before its logarithm is taken: for `2^32` terms (and all lengths
that are 0 or 1 modulo `2^32`) the window size is 0 and the code divides by it, unless all scalars are zero. -/
theorem C30_huge {ln : ℕ → ℕ} (h0 : ln 0 = 0) (h1 : ln 1 = 0) (ks : List (Fp r)) (bases : List (Aff F)) (A : Proj F)
    (hl : 2 ^ 32 ≤ bases.length) (hm : bases.length % 2 ^ 32 ≤ 1) (k : Fp r) (hk : k ∈ ks) (hk0 : k ≠ 0) :
    msmSerial C ln ((numBits r + 7) / 8) (ks.map Fp.toRepr) bases A = none := by
  apply msmSerial_panic
  · rw [windowSize, if_neg (by omega), if_neg (by omega)]
    rcases Nat.le_one_iff_eq_zero_or_eq_one.mp hm with h | h <;> rw [h]
    · exact h0
    · exact h1
  · intro hz
    have := maxByteSize_spec ((numBits r + 7) / 8) (ks.map Fp.toRepr) (Fp.toRepr k) (List.mem_map_of_mem hk)
      (toRepr_spec k).1 (by rw [(toRepr_spec k).2]; exact (Fp.toNat_lt k).trans (lt_bytes r))
    rw [hz, pow_zero, (toRepr_spec k).2] at this
    exact hk0 ((Fp.toNat_eq_zero k).mp (by omega))

/-! ## C31 -/

/-- **C31** `msm_parallel` returns the multi-scalar product, for any number of threads and any order in
which the tasks run. -/
theorem C31_parallel (hC : Good C) {ln : ℕ → ℕ} (hln : LnCeilOk ln) (threads : ℕ) (hth : 1 ≤ threads)
    (ks : List (Fp r)) {bases : List (Aff F)} {ps : List (Pt C)} (h : List.Forall₂ (ARep C) bases ps)
    (hl : ks.length = bases.length) (hlen : bases.length < 2 ^ 32) (order : List ℕ)
    (ho : threads < bases.length → order.Perm (List.range (numChunks threads bases.length))) :
    ∃ R, msmParallel C ln ((numBits r + 7) / 8) threads order (ks.map Fp.toRepr) bases = some R ∧
      PRep C R (msmValue ks ps) := by
  obtain ⟨e1, e2, e3⟩ := mkTerms_lists ks h hl
  have hok := mkTerms_ok ks h
  obtain ⟨R, e, hR⟩ := msmParallel_spec hC hln ((numBits r + 7) / 8) threads hth (mkTerms ks bases ps) order
    (fun h => by rw [numChunks_eq, e3]; exact ho (by rwa [e3] at h))
    (fun t ht => (hok t ht).1) (fun t ht => (hok t ht).2.1.trans (lt_bytes r)) (by rw [e3]; exact hlen)
  rw [e1, e2] at e
  rw [mkTerms_sum ks h] at hR
  exact ⟨R, e, hR⟩

/-- **C31** Lists of different lengths: a panic. -/
theorem C31_lengths (ln : ℕ → ℕ) (threads : ℕ) (order : List ℕ) (ks : List (Fp r)) (bases : List (Aff F))
    (h : ks.length ≠ bases.length) :
    msmParallel C ln ((numBits r + 7) / 8) threads order (ks.map Fp.toRepr) bases = none := by
  rw [msmParallel, if_pos (by rwa [List.length_map])]

/-! ## C32 -/

/-- `k / 2^m` rounded to the nearest integer, halves up. -/
def roundDiv (k m : ℕ) : ℕ := (2 * k / 2 ^ m + 1) / 2

/-- The signed digit of `k` in window `w` of `c` bits. -/
def signedDigit (c w k : ℕ) : ℤ := (roundDiv k (w * c) : ℤ) - 2 ^ c * (roundDiv k ((w + 1) * c) : ℤ)

theorem digit_eq (w c : ℕ) (hc1 : 1 ≤ c) (hc : c ≤ 24) (ks : List (Fp r)) (i : ℕ) :
    boothIndex w c ((ks.map Fp.toRepr).getD i []) = signedDigit c w (Fp.toNat (ks.getD i 0)) := by
  have h : IsBytes ((ks.map Fp.toRepr).getD i []) ∧ leNat ((ks.map Fp.toRepr).getD i []) = Fp.toNat (ks.getD i 0) := by
    rw [List.getD_eq_getElem?_getD, List.getD_eq_getElem?_getD, List.getElem?_map]
    cases ks[i]? with
    | none => exact ⟨(fun x hx => by cases hx), Fp.toNat_zero.symm⟩
    | some k => exact toRepr_spec k
  rw [booth_rest w c _ h.1 hc1 hc, h.2]
  rfl

theorem ptOf_mkTerms (ks : List (Fp r)) {bases : List (Aff F)} {ps : List (Pt C)} (h : List.Forall₂ (ARep C) bases ps)
    (hl : ks.length = bases.length) (i : ℕ) : ptOf (mkTerms ks bases ps) i = ps.getD i 0 := by
  induction ks generalizing bases ps i with
  | nil =>
    cases h with
    | nil => rfl
    | cons h1 h2 => simp at hl
  | cons k ks ih =>
    cases h with
    | nil => simp at hl
    | cons h1 h2 =>
      cases i with
      | zero => rfl
      | succ i => exact ih h2 (by simpa using hl) i

/-- In no window does a term come to a bucket that may hold the term's own point: the sum of some of the earlier terms
whose digits have the same absolute value, each with the sign of its digit, is not the point with the sign of its digit. -/
def NoDouble (c : ℕ) (ks : List (Fp r)) (ps : List (Pt C)) : Prop :=
  ∀ w, w ≤ numBits r / c → ∀ (i : ℕ) (J : Finset ℕ), signedDigit c w (Fp.toNat (ks.getD i 0)) ≠ 0 →
    (∀ j ∈ J, j < i ∧ |signedDigit c w (Fp.toNat (ks.getD j 0))| = |signedDigit c w (Fp.toNat (ks.getD i 0))|) →
    ∑ j ∈ J, (signedDigit c w (Fp.toNat (ks.getD j 0))).sign • ps.getD j 0
      ≠ (signedDigit c w (Fp.toNat (ks.getD i 0))).sign • ps.getD i 0

theorem signed_sign {d : ℤ} (hd : d ≠ 0) (p : Pt C) : signed (decide (0 < d)) p = d.sign • p := by
  rw [signed]
  by_cases h : 0 < d
  · rw [Int.sign_eq_one_of_pos h, one_smul, if_pos (by simpa using h)]
  · rw [Int.sign_eq_neg_one_of_neg (by omega), neg_smul, one_smul, if_neg (by simpa using h)]

theorem reach_noDouble {dig : ℕ → ℤ} {pt : ℕ → Pt C}
    (h : ∀ (i : ℕ) (J : Finset ℕ), dig i ≠ 0 → (∀ j ∈ J, j < i ∧ |dig j| = |dig i|) →
      ∑ j ∈ J, (dig j).sign • pt j ≠ (dig i).sign • pt i) :
    ∃ S, Reach dig pt S := by
  refine ⟨fun b i v => ∃ J : Finset ℕ, (∀ j ∈ J, j < i ∧ dig j ≠ 0 ∧ (dig j).natAbs - 1 = b) ∧
    v = ∑ j ∈ J, (dig j).sign • pt j, ?_, ?_, ?_, ?_⟩
  · exact fun b => ⟨∅, by simp, by simp⟩
  · rintro b i v ⟨J, h1, h2⟩
    exact ⟨J, fun j hj => ⟨Nat.lt_succ_of_lt (h1 j hj).1, (h1 j hj).2⟩, h2⟩
  · rintro b i v s ⟨J, h1, h2⟩ ⟨l1, l2, l3⟩
    have hi : i ∉ J := fun hi => lt_irrefl _ (h1 i hi).1
    refine ⟨insert i J, ?_, ?_⟩
    · intro j hj
      rcases Finset.mem_insert.mp hj with rfl | hj
      · exact ⟨Nat.lt_succ_self _, l1, l2⟩
      · exact ⟨Nat.lt_succ_of_lt (h1 j hj).1, (h1 j hj).2⟩
    · rw [Finset.sum_insert hi, l3, signed_sign l1, h2, add_comm]
  · rintro b i v s ⟨J, h1, h2⟩ ⟨l1, l2, l3⟩
    right
    rw [h2, l3, signed_sign l1]
    refine h i J l1 (fun j hj => ⟨(h1 j hj).1, ?_⟩)
    obtain ⟨_, m1, m2⟩ := h1 j hj
    rw [Int.abs_eq_natAbs, Int.abs_eq_natAbs]
    omega

theorem reach_a_zero (ha : C.a = 0) (dig : ℕ → ℤ) (pt : ℕ → Pt C) : ∃ S, Reach dig pt S :=
  ⟨fun _ _ _ => True, fun _ => trivial, fun _ _ _ _ => trivial, fun _ _ _ _ _ _ => trivial, fun _ _ _ _ _ _ => Or.inl ha⟩

/-- **C32** On every curve, `msm_best` returns the multi-scalar product, any number of threads and any order of the tasks,
if no identity base has a nonzero scalar and no bucket may meet its own point. Missing: the inputs on which a bucket
doubles (with `a ≠ 0`) and identity bases with nonzero scalars, where it is false (`C32_a_false`, `C32_a_wrong`,
`C32_identity_false`). -/
theorem C32_no_double_partial (hC : Good C) {ln : ℕ → ℕ} (hln : LnCeilOk ln) (threads : ℕ) (hth : 1 ≤ threads)
    (ks : List (Fp r)) {bases : List (Aff F)} {ps : List (Pt C)} (h : List.Forall₂ (ARep C) bases ps)
    (hne : ∀ kp ∈ ks.zip ps, kp.2 = 0 → kp.1 = 0)
    (hl : ks.length = bases.length) (hlen : bases.length < 2 ^ 32) (order1 order2 : List ℕ)
    (ho1 : threads < bases.length → order1.Perm (List.range (numChunks threads bases.length)))
    (ho2 : order2.Perm (List.range (numBits r / windowSize ln bases.length + 1)))
    (hd : C.a = 0 ∨ NoDouble (windowSize ln bases.length) ks ps) :
    ∃ R, msmBest C ln (numBits r) threads order1 order2 (ks.map Fp.toRepr) bases = some R ∧
      PRep C R (msmValue ks ps) := by
  obtain ⟨e1, e2, e3⟩ := mkTerms_lists ks h hl
  obtain ⟨c1, c2⟩ := windowSize_ok hln bases.length hlen
  have hok := mkTerms_ok ks h
  have hR : ∀ w ≤ numBits r / windowSize ln (mkTerms ks bases ps).length, ∃ S, Reach (fun i => boothIndex w
      (windowSize ln (mkTerms ks bases ps).length) (((mkTerms ks bases ps).map (fun t => t.1)).getD i []))
      (ptOf (mkTerms ks bases ps)) S := by
    intro w hw
    rcases hd with ha | hd
    · exact reach_a_zero ha _ _
    · rw [e1]
      rw [e3] at hw ⊢
      simp only [digit_eq w _ c1 c2]
      have hpt : ptOf (mkTerms ks bases ps) = fun i => ps.getD i 0 := funext (ptOf_mkTerms ks h hl)
      rw [hpt]
      exact reach_noDouble (hd w hw)
  obtain ⟨R, e, hR⟩ := msmBest_spec hC hln (numBits r) threads hth (mkTerms ks bases ps) order1 order2
    (fun h => by rw [e3]; exact ho1 (by rwa [e3] at h)) (by rw [e3]; exact ho2)
    (fun t ht => (hok t ht).1) (fun t ht h0 => by
      obtain ⟨k, hk, e⟩ := (hok t ht).2.2
      have hk0 : k = 0 := hne _ hk h0
      rw [e, hk0, Fp.toNat_zero]) (fun t ht => (hok t ht).2.1.trans (lt_bits r))
    (by rw [e3]; exact hlen) hR
  rw [e1, e2] at e
  rw [mkTerms_sum ks h] at hR
  exact ⟨R, e, hR⟩

/-- **C32** `msm_best` returns the multi-scalar product on a curve with `a = 0`, any number of threads and any
order of the tasks, if no identity base has a nonzero scalar. Missing: `a ≠ 0` and identity bases with nonzero
scalars, where it is false (`C32_a_false`, `C32_identity_false`). -/
theorem C32_best_partial (hC : Good C) (ha : C.a = 0) {ln : ℕ → ℕ} (hln : LnCeilOk ln) (threads : ℕ) (hth : 1 ≤ threads)
    (ks : List (Fp r)) {bases : List (Aff F)} {ps : List (Pt C)} (h : List.Forall₂ (ARep C) bases ps)
    (hne : ∀ kp ∈ ks.zip ps, kp.2 = 0 → kp.1 = 0)
    (hl : ks.length = bases.length) (hlen : bases.length < 2 ^ 32) (order1 order2 : List ℕ)
    (ho1 : threads < bases.length → order1.Perm (List.range (numChunks threads bases.length)))
    (ho2 : order2.Perm (List.range (numBits r / windowSize ln bases.length + 1))) :
    ∃ R, msmBest C ln (numBits r) threads order1 order2 (ks.map Fp.toRepr) bases = some R ∧
      PRep C R (msmValue ks ps) := by
  exact C32_no_double_partial hC hln threads hth ks h hne hl hlen order1 order2 ho1 ho2 (Or.inl ha)

/-- **C32** While the window is below 10 bits (up to 8103 terms when `ln` is the logarithm), `msm_best` is right for
every curve and all bases, the identity included. -/
theorem C32_small (hC : Good C) {ln : ℕ → ℕ} (hln : LnCeilOk ln) (threads : ℕ) (hth : 1 ≤ threads)
    (ks : List (Fp r)) {bases : List (Aff F)} {ps : List (Pt C)} (h : List.Forall₂ (ARep C) bases ps)
    (hl : ks.length = bases.length) (hlen : bases.length < 2 ^ 32) (hw : windowSize ln bases.length < 10)
    (order1 order2 : List ℕ) (ho1 : threads < bases.length → order1.Perm (List.range (numChunks threads bases.length))) :
    ∃ R, msmBest C ln (numBits r) threads order1 order2 (ks.map Fp.toRepr) bases = some R ∧
      PRep C R (msmValue ks ps) := by
  obtain ⟨e1, e2, e3⟩ := mkTerms_lists ks h hl
  have hok := mkTerms_ok ks h
  obtain ⟨R, e, hR⟩ := msmBest_small hC hln (numBits r) threads hth (mkTerms ks bases ps) order1 order2
    (fun h => by rw [e3]; exact ho1 (by rwa [e3] at h))
    (fun t ht => (hok t ht).1) (fun t ht => (hok t ht).2.1.trans (lt_bits r)) (by rw [e3]; exact hlen) (by rw [e3]; exact hw)
  rw [e1, e2] at e
  rw [mkTerms_sum ks h] at hR
  exact ⟨R, e, hR⟩

/-- **C32** Lists of different lengths: a panic. -/
theorem C32_lengths (ln : ℕ → ℕ) (threads : ℕ) (order1 order2 : List ℕ) (ks : List (Fp r)) (bases : List (Aff F))
    (h : ks.length ≠ bases.length) :
    msmBest C ln (numBits r) threads order1 order2 (ks.map Fp.toRepr) bases = none := by
  rw [msmBest, if_pos (by rwa [List.length_map])]

/-- **C32 is false for `a ≠ 0`.** On secp256r1, with 8104 terms, all bases the generator, the scalars 2, 2, 0, …, 0: `msm_best`
panics. The doubling in its batch addition leaves `a` out, and the resulting bucket is not on the curve. -/
theorem C32_a_false (ln : ℕ → ℕ) (h1 : 10 ≤ ln 8104) (h2 : ln 8104 ≤ 24) (threads : ℕ) (order1 order2 : List ℕ)
    (ho2 : order2.Perm (List.range (numBits r1N / windowSize ln 8104 + 1))) :
    ∃ (ks : List (Fp r1N)) (bases : List (Aff (Fp r1P))), ks.length = 8104 ∧ bases.length = 8104 ∧
      (∀ b ∈ bases, b = Secp256r1.cGen) ∧
      msmBest Secp256r1.c ln (numBits r1N) threads order1 order2 (ks.map Fp.toRepr) bases = none := by
  refine ⟨badScalars r1N 8102, badBases 8102 Secp256r1.cGen Secp256r1.cGen, ?_, ?_, ?_, r1_bad ln h1 h2 threads order1 order2 ho2⟩
  · simp only [badScalars, List.length_cons, List.length_replicate]
  · simp only [badBases, List.length_cons, List.length_replicate]
  · intro b hb
    simp only [badBases, List.mem_cons, List.mem_replicate] at hb
    tauto

/-- **C32 is false for identity bases.** On bn256 G1, with 8104 terms, the first base the identity and the
others the generator, the scalars 2, 2, 0, …, 0: `msm_best` panics, as its batch addition takes the identity for the
point (0, 0). -/
theorem C32_identity_false (ln : ℕ → ℕ) (h1 : 10 ≤ ln 8104) (h2 : ln 8104 ≤ 24) (threads : ℕ) (order1 order2 : List ℕ)
    (ho2 : order2.Perm (List.range (numBits bnR / windowSize ln 8104 + 1))) :
    ∃ (ks : List (Fp bnR)) (bases : List (Aff (Fp bnQ))), ks.length = 8104 ∧ bases.length = 8104 ∧
      (∀ b ∈ bases, b = Bn256.g1Gen ∨ b = Aff.identity) ∧
      msmBest Bn256.g1 ln (numBits bnR) threads order1 order2 (ks.map Fp.toRepr) bases = none := by
  refine ⟨badScalars bnR 8102, badBases 8102 Aff.identity Bn256.g1Gen, ?_, ?_, ?_, bn_bad ln h1 h2 threads order1 order2 ho2⟩
  · simp only [badScalars, List.length_cons, List.length_replicate]
  · simp only [badBases, List.length_cons, List.length_replicate]
  · intro b hb
    simp only [badBases, List.mem_cons, List.mem_replicate] at hb
    tauto

/-- Three terms on two threads, tasks run backwards: `5 G + 3 (-G) + 2 * 0 = 2 G`. -/
example : ∃ (g : Pt Secp256r1.c) (R : Proj (Fp r1P)), g ≠ 0 ∧
    msmParallel Secp256r1.c (fun _ => 1) ((numBits r1N + 7) / 8) 2 [2, 1, 0] (([5, 3, 2] : List (Fp r1N)).map Fp.toRepr)
      [Secp256r1.cGen, Aff.neg Secp256r1.cGen, Aff.identity] = some R ∧ PRep Secp256r1.c R (2 • g) := by
  obtain ⟨_, g, hg, h0⟩ := C21_generators.2.2.2.2.2.2.2.2.2.2
  obtain ⟨R, h, hR⟩ := C31_parallel Secp256r1.c_good (ln := fun _ => 1) (fun _ _ _ => ⟨le_refl 1, (by decide : 1 ≤ 24)⟩)
    2 (by decide) ([5, 3, 2] : List (Fp r1N)) (.cons hg (.cons hg.neg (.cons ARep.identity .nil))) rfl
    (show 3 < 2 ^ 32 by decide) [2, 1, 0] (fun _ => by decide)
  refine ⟨g, R, h0, h, ?_⟩
  have e : ∀ n : ℕ, n < r1N → Fp.toNat ((n : ℕ) : Fp r1N) = n := fun n hn => by
    rw [Fp.toNat_natCast, Nat.mod_eq_of_lt hn]
  have e5 : Fp.toNat (5 : Fp r1N) = 5 := e 5 (by decide +kernel)
  have e3 : Fp.toNat (3 : Fp r1N) = 3 := e 3 (by decide +kernel)
  have hv : msmValue ([5, 3, 2] : List (Fp r1N)) [g, -g, 0] = 2 • g := by
    simp only [msmValue, List.zipWith, List.sum_cons, List.sum_nil, smul_zero, add_zero, e5, e3, smul_neg]
    rw [← sub_nsmul g (by decide : 3 ≤ 5)]
  rw [← hv]
  exact hR

/-- What C32 says of one curve and its scalar field. -/
def BestSpec (C : Params F) (r : ℕ) [Fact (OddModulus r)] : Prop :=
  ∀ ln : ℕ → ℕ, LnCeilOk ln → ∀ threads, 1 ≤ threads → ∀ (ks : List (Fp r)) (bases : List (Aff F)) (ps : List (Pt C)),
    List.Forall₂ (ARep C) bases ps → (∀ kp ∈ ks.zip ps, kp.2 = 0 → kp.1 = 0) → ks.length = bases.length → bases.length < 2 ^ 32 →
    ∀ order1 order2 : List ℕ, (threads < bases.length → order1.Perm (List.range (numChunks threads bases.length))) →
      order2.Perm (List.range (numBits r / windowSize ln bases.length + 1)) →
      ∃ R, msmBest C ln (numBits r) threads order1 order2 (ks.map Fp.toRepr) bases = some R ∧ PRep C R (msmValue ks ps)

theorem BestSpec.of (hC : Good C) (ha : C.a = 0) : BestSpec C r :=
  fun _ hln threads hth ks _ _ h hne hl hlen order1 order2 ho1 ho2 =>
    C32_best_partial hC ha hln threads hth ks h hne hl hlen order1 order2 ho1 ho2

/-- `3 G + 0 * identity` on bn256 G1: a base that is the identity, with the scalar 0. -/
example : ∃ (g : Pt Bn256.g1) (R : Proj (Fp bnQ)), g ≠ 0 ∧
    msmBest Bn256.g1 (fun _ => 10) (numBits bnR) 4 [] (List.range (numBits bnR + 1))
      (([3, 0] : List (Fp bnR)).map Fp.toRepr) [Bn256.g1Gen, Aff.identity] = some R ∧
    PRep Bn256.g1 R (msmValue ([3, 0] : List (Fp bnR)) [g, 0]) := by
  obtain ⟨_, g, hg, h0⟩ := C21_generators.1
  obtain ⟨R, h, hR⟩ := BestSpec.of (r := bnR) Bn256.g1_good Bn256.g1_a (fun _ => 10) (fun _ _ _ => ⟨(by decide : 1 ≤ 10), (by decide : 10 ≤ 24)⟩) 4 (by decide)
    [3, 0] _ _ (.cons hg (.cons ARep.identity .nil)) (by
      intro kp hkp h
      simp only [List.zip_cons_cons, List.zip_nil_right, List.mem_cons, List.not_mem_nil, or_false] at hkp
      rcases hkp with rfl | rfl
      · exact absurd h h0
      · rfl) rfl (show 2 < 2 ^ 32 by decide) []
    (List.range (numBits bnR + 1)) (fun h => absurd h (by decide)) (by
      rw [show windowSize (fun _ => 10) ([Bn256.g1Gen, Aff.identity] : List (Aff (Fp bnQ))).length = 1 from rfl, Nat.div_one])
  exact ⟨g, R, h0, h, hR⟩

/-- **C32** for the shipped curves with `a = 0`: all but secp256r1. -/
theorem C32_shipped_partial :
    BestSpec Bn256.g1 bnR ∧ BestSpec Bn256.g2 bnR ∧ BestSpec Grumpkin.g1 bnQ ∧ BestSpec Bls12381.g1 blsR ∧
    BestSpec Bls12381.g2 blsR ∧ BestSpec Pluto.g1 plQ ∧ BestSpec Pluto.eris plP ∧ BestSpec Pluto.g2 plQ ∧
    BestSpec Secp256k1.c k1N ∧ BestSpec Secq256k1.c k1P :=
  ⟨.of Bn256.g1_good Bn256.g1_a, .of Bn256.g2_good Bn256.g2_a, .of Grumpkin.g1_good Grumpkin.g1_a,
   .of Bls12381.g1_good Bls12381.g1_a, .of Bls12381.g2_good Bls12381.g2_a, .of Pluto.g1_good Pluto.g1_a,
   .of Pluto.eris_good Pluto.eris_a, .of Pluto.g2_good Pluto.g2_a, .of Secp256k1.c_good Secp256k1.c_a,
   .of Secq256k1.c_good Secq256k1.c_a⟩

end Halo2.Props
