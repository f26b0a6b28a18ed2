import Verif.Field.Lemmas

/-!
# Lemmas on byte encodings, comparison and raw serialisation
-/

namespace Halo2.Field

open Halo2

theorem ofLeBytes_eq (b : List ℕ) : ofLeBytes b = leNat b := by
  induction b with
  | nil => rfl
  | cons x xs ih => simp only [ofLeBytes, List.foldr_cons, leNat] at *; rw [ih]

theorem leNat_append (a b : List ℕ) : leNat (a ++ b) = leNat a + 256 ^ a.length * leNat b := by
  induction a with
  | nil => simp [leNat]
  | cons x xs ih => simp only [List.cons_append, leNat, ih, List.length_cons, pow_succ]; ring

theorem leNat_lt (b : List ℕ) (h : IsBytes b) : leNat b < 256 ^ b.length := by
  induction b with
  | nil => simp [leNat]
  | cons x xs ih =>
    have h1 := ih (fun y hy => h y (List.mem_cons_of_mem _ hy))
    have h2 := h x List.mem_cons_self
    simp only [leNat, List.length_cons, pow_succ]
    omega

theorem leNat_inj {a b : List ℕ} (ha : IsBytes a) (hb : IsBytes b) (hl : a.length = b.length)
    (h : leNat a = leNat b) : a = b := by
  induction a generalizing b with
  | nil => cases b with
    | nil => rfl
    | cons => simp at hl
  | cons x xs ih =>
    cases b with
    | nil => simp at hl
    | cons y ys =>
      simp only [leNat] at h
      have h1 := ha x List.mem_cons_self
      have h2 := hb y List.mem_cons_self
      have hxy : x = y := by omega
      subst hxy
      rw [ih (fun z hz => ha z (List.mem_cons_of_mem _ hz))
        (fun z hz => hb z (List.mem_cons_of_mem _ hz)) (by simpa using hl) (by omega)]

theorem leNat_replicate (n : ℕ) : leNat (List.replicate n 0) = 0 := by
  induction n with
  | zero => rfl
  | succ n ih => simp [List.replicate_succ, leNat, ih]

theorem IsBytes.take {b : List ℕ} (h : IsBytes b) (n : ℕ) : IsBytes (b.take n) :=
  fun x hx => h x (List.mem_of_mem_take hx)
theorem IsBytes.drop {b : List ℕ} (h : IsBytes b) (n : ℕ) : IsBytes (b.drop n) :=
  fun x hx => h x (List.mem_of_mem_drop hx)
theorem IsBytes.append {a b : List ℕ} (ha : IsBytes a) (hb : IsBytes b) : IsBytes (a ++ b) := by
  intro x hx
  rcases List.mem_append.mp hx with h | h
  · exact ha x h
  · exact hb x h
theorem IsBytes.reverse {b : List ℕ} (h : IsBytes b) : IsBytes b.reverse :=
  fun x hx => h x (List.mem_reverse.mp hx)

/-- One limb from its 8 bytes. -/
theorem leNat_word_lt (b : List ℕ) (h : IsBytes b) (hl : b.length = 8) : leNat b < W := by
  have := leNat_lt b h
  rw [hl] at this
  exact lt_of_lt_of_eq this (by decide)

theorem fromBytesLE_succ (n : ℕ) (b : List ℕ) :
    Endian.LE.fromBytes (n + 1) b = ofLeBytes (b.take 8) :: Endian.LE.fromBytes n (b.drop 8) := by
  simp only [Endian.fromBytes]
  rw [List.range_succ_eq_map, List.map_cons, List.map_map]
  simp only [zero_mul, List.drop_zero]
  congr 1
  apply List.map_congr_left
  intro i _
  simp only [Function.comp, Nat.succ_eq_add_one, List.drop_drop]
  rw [show 8 + i * 8 = (i + 1) * 8 by ring]

theorem fromBytesLE_spec (n : ℕ) (b : List ℕ) (hl : b.length = 8 * n) (hb : IsBytes b) :
    (Endian.LE.fromBytes n b).length = n ∧ Wf (Endian.LE.fromBytes n b) ∧
      val (Endian.LE.fromBytes n b) = leNat b := by
  induction n generalizing b with
  | zero =>
    have : b = [] := by simpa using hl
    subst this
    simp [Endian.fromBytes, leNat]
  | succ n ih =>
    obtain ⟨h1, h2, h3⟩ := ih (b.drop 8) (by rw [List.length_drop, hl]; omega) (hb.drop 8)
    rw [fromBytesLE_succ]
    have ht : (b.take 8).length = 8 := by rw [List.length_take, hl]; omega
    refine ⟨by simp [h1], ?_, ?_⟩
    · rw [Wf_cons, ofLeBytes_eq]
      exact ⟨leNat_word_lt _ (hb.take 8) ht, h2⟩
    · rw [val_cons, h3, ofLeBytes_eq]
      conv_rhs => rw [← List.take_append_drop 8 b, leNat_append, ht]
      rfl

theorem fromBytesBE_eq (n : ℕ) (b : List ℕ) (hl : b.length = 8 * n) :
    Endian.BE.fromBytes n b = Endian.LE.fromBytes n b.reverse := by
  simp only [Endian.fromBytes]
  apply List.ext_getElem
  · simp
  · intro i h1 h2
    simp only [List.length_reverse, List.length_map, List.length_range] at h1 h2
    simp only [List.getElem_reverse, List.length_map, List.length_range, List.getElem_map,
      List.getElem_range, ofBeBytes]
    congr 1
    apply List.ext_getElem
    · simp [hl]; omega
    · intro j h3 h4
      simp only [List.length_reverse, List.length_take, List.length_drop] at h3 h4
      simp only [List.getElem_reverse, List.getElem_take, List.getElem_drop, List.length_take,
        List.length_drop]
      congr 1
      omega

theorem fromBytes_spec (e : Endian) (n : ℕ) (b : List ℕ) (hl : b.length = 8 * n) (hb : IsBytes b) :
    (e.fromBytes n b).length = n ∧ Wf (e.fromBytes n b) ∧ val (e.fromBytes n b) = e.nat b := by
  cases e with
  | LE => exact fromBytesLE_spec n b hl hb
  | BE =>
    rw [fromBytesBE_eq n b hl]
    exact fromBytesLE_spec n b.reverse (by simpa using hl) hb.reverse

theorem leNat_digits (x n : ℕ) :
    leNat ((List.range n).map fun j => (x / 256 ^ j) % 256) = x % 256 ^ n := by
  induction n generalizing x with
  | zero => simp [leNat, Nat.mod_one]
  | succ n ih =>
    rw [List.range_succ_eq_map, List.map_cons, List.map_map, leNat]
    have : ((fun j => x / 256 ^ j % 256) ∘ Nat.succ) = fun j => (x / 256) / 256 ^ j % 256 := by
      funext j
      simp only [Function.comp, Nat.succ_eq_add_one]
      rw [Nat.div_div_eq_div_mul, pow_succ, mul_comm]
    rw [this, ih, pow_zero, Nat.div_one, pow_succ, mul_comm (256 ^ n) 256, Nat.mod_mul]

theorem toLeBytes_length (x : ℕ) : (toLeBytes x).length = 8 := by simp [toLeBytes]

theorem toLeBytes_isBytes (x : ℕ) : IsBytes (toLeBytes x) := by
  intro y hy
  simp only [toLeBytes, List.mem_map] at hy
  obtain ⟨j, _, rfl⟩ := hy
  exact Nat.mod_lt _ (by decide)

theorem leNat_toLeBytes (x : ℕ) (h : x < W) : leNat (toLeBytes x) = x := by
  unfold toLeBytes
  rw [leNat_digits]
  exact Nat.mod_eq_of_lt (lt_of_lt_of_eq h (by decide))

theorem toBytesLE_spec (el : List ℕ) (h : Wf el) :
    (el.flatMap toLeBytes).length = 8 * el.length ∧ IsBytes (el.flatMap toLeBytes) ∧
      leNat (el.flatMap toLeBytes) = val el := by
  induction el with
  | nil => simp [IsBytes, leNat]
  | cons x xs ih =>
    rw [Wf_cons] at h
    obtain ⟨h1, h2, h3⟩ := ih h.2
    rw [List.flatMap_cons]
    refine ⟨?_, (toLeBytes_isBytes x).append h2, ?_⟩
    · rw [List.length_append, h1, toLeBytes_length, List.length_cons]; ring
    · rw [leNat_append, h3, leNat_toLeBytes x h.1, toLeBytes_length, val_cons]; rfl

theorem toBytesBE_eq (el : List ℕ) : Endian.BE.toBytes el = (Endian.LE.toBytes el).reverse := by
  simp only [Endian.toBytes]
  induction el with
  | nil => rfl
  | cons x xs ih =>
    rw [List.reverse_cons, List.flatMap_append, ih]
    simp [toBeBytes, List.flatMap_cons]

theorem toBytes_spec (e : Endian) (el : List ℕ) (h : Wf el) :
    (e.toBytes el).length = 8 * el.length ∧ IsBytes (e.toBytes el) ∧ e.nat (e.toBytes el) = val el := by
  obtain ⟨h1, h2, h3⟩ := toBytesLE_spec el h
  cases e with
  | LE => exact ⟨h1, h2, h3⟩
  | BE =>
    rw [toBytesBE_eq]
    refine ⟨by simpa [Endian.toBytes] using h1, h2.reverse, ?_⟩
    simp only [Endian.nat, List.reverse_reverse]
    exact h3

theorem Endian.nat_inj (e : Endian) {a b : List ℕ} (ha : IsBytes a) (hb : IsBytes b)
    (hl : a.length = b.length) (h : e.nat a = e.nat b) : a = b := by
  cases e with
  | LE => exact leNat_inj ha hb hl h
  | BE =>
    have := leNat_inj ha.reverse hb.reverse (by simpa using hl) h
    exact List.reverse_injective this

/-! ### borrow based comparison -/

theorem borrowOf_aux (a b : List ℕ) (c : ℕ) :
    (a.zip b).foldl (fun borrow x => (sbb x.1 x.2 borrow).2) c = (sbbChain a b c).2 := by
  induction a generalizing b c with
  | nil => cases b <;> rfl
  | cons x xs ih =>
    cases b with
    | nil => rfl
    | cons y ys => rw [List.zip_cons_cons, List.foldl_cons, ih, sbbChain_cons]

theorem borrowOf_spec (a b : List ℕ) (hl : a.length = b.length) (ha : Wf a) (hb : Wf b) :
    ((borrowOf a b % 256) &&& 1 == 1) = decide (val a < val b) := by
  unfold borrowOf
  rw [borrowOf_aux]
  obtain ⟨s1, s2, s3, s4⟩ := sbbChain_spec a b 0 hl ha hb IsBorrow.zero
  have hv := val_lt _ s2
  have hvb := val_lt b hb
  rw [s1] at hv
  rw [← hl] at hvb
  simp only [bw_zero, add_zero] at s4
  generalize sbbChain a b 0 = s at *
  generalize W ^ a.length = Rr at *
  rcases s3 with h | h
  · rw [h] at s4 ⊢
    simp only [bw_zero, mul_zero, add_zero] at s4
    have : ¬ val a < val b := by omega
    simp [this]
  · rw [h] at s4 ⊢
    simp only [bw_ones, mul_one] at s4
    have : val a < val b := by omega
    simp only [this, decide_true]
    decide

theorem isLessThanModulus_spec (p : ℕ) (a : List ℕ) (hl : a.length = numLimbs p) (ha : Wf a) :
    isLessThanModulus p a = decide (val a < p) := by
  unfold isLessThanModulus
  rw [borrowOf_spec a _ (by rw [hl, modulusLimbs_length]) ha (modulusLimbs_wf p), val_modulusLimbs]

theorem lexLargest_spec {p : ℕ} (hp : OddModulus p) {a : List ℕ} {x : ZMod p} (ha : Rep p a x) :
    lexLargest p a = decide ((p - 1) / 2 ≤ x.val) := by
  obtain ⟨h1, h2⟩ := fromMont_rep hp ha
  unfold lexLargest halfModulus
  have hh : (p - 1) / 2 < W ^ numLimbs p := lt_of_le_of_lt (by omega) (modulus_lt p)
  rw [borrowOf_spec _ _ (by rw [h1.len, bigToLimbs_length]) h1.wf (bigToLimbs_wf _ _),
    val_bigToLimbs _ _ hh, h2]
  by_cases h : x.val < (p - 1) / 2
  · simp [h]
  · simp [h, Nat.le_of_not_lt h]

/-! ### order -/

/-- Comparing byte strings of equal length from the top is comparing integers. -/
theorem cmp_bytes (a b : List ℕ) (ha : IsBytes a) (hb : IsBytes b) (hl : a.length = b.length) :
    ((a.zip b).reverse.findSome? fun x =>
      match compare x.1 x.2 with
      | .eq => none
      | r => some r).getD .eq = compare (leNat a) (leNat b) := by
  induction a generalizing b with
  | nil =>
    cases b with
    | nil => simp [leNat]
    | cons => simp at hl
  | cons x xs ih =>
    cases b with
    | nil => simp at hl
    | cons y ys =>
      have hx := ha x List.mem_cons_self
      have hy := hb y List.mem_cons_self
      have ih' := ih ys (fun z hz => ha z (List.mem_cons_of_mem _ hz))
        (fun z hz => hb z (List.mem_cons_of_mem _ hz)) (by simpa using hl)
      rw [List.zip_cons_cons, List.reverse_cons, List.findSome?_append]
      generalize hf : (List.findSome? (fun x : ℕ × ℕ =>
        match compare x.1 x.2 with
        | .eq => none
        | r => some r) (xs.zip ys).reverse) = f at *
      have hne : f ≠ some .eq := by
        rw [← hf]
        intro h
        obtain ⟨z, _, hz⟩ := List.exists_of_findSome?_eq_some h
        split at hz
        · cases hz
        · rename_i hh; simp only [Option.some.injEq] at hz; exact hh hz
      simp only [List.findSome?_cons, List.findSome?_nil, leNat]
      cases f with
      | some r =>
        simp only [Option.getD_some] at ih'
        simp only [Option.some_or, Option.getD_some]
        cases r with
        | lt =>
          have : leNat xs < leNat ys := by
            rw [← Nat.compare_eq_lt]; exact ih'.symm
          symm; rw [Nat.compare_eq_lt]; omega
        | gt =>
          have : leNat ys < leNat xs := by
            rw [← Nat.compare_eq_gt]; exact ih'.symm
          symm; rw [Nat.compare_eq_gt]; omega
        | eq => exact absurd rfl hne
      | none =>
        simp only [Option.getD_none] at ih'
        have e : leNat xs = leNat ys := by rw [← Nat.compare_eq_eq]; exact ih'.symm
        rw [e]
        simp only [Option.none_or]
        rcases lt_trichotomy x y with h | h | h
        · have h1 : compare x y = .lt := Nat.compare_eq_lt.mpr h
          have h2 : compare (x + 256 * leNat ys) (y + 256 * leNat ys) = .lt :=
            Nat.compare_eq_lt.mpr (by omega)
          rw [h1, h2]; rfl
        · subst h
          have h1 : compare x x = .eq := Nat.compare_eq_eq.mpr rfl
          have h2 : compare (x + 256 * leNat ys) (x + 256 * leNat ys) = .eq :=
            Nat.compare_eq_eq.mpr rfl
          rw [h1, h2]; rfl
        · have h1 : compare x y = .gt := Nat.compare_eq_gt.mpr h
          have h2 : compare (x + 256 * leNat ys) (y + 256 * leNat ys) = .gt :=
            Nat.compare_eq_gt.mpr (by omega)
          rw [h1, h2]; rfl

theorem toRepr_spec {p : ℕ} (hp : OddModulus p) (e : Endian) {a : List ℕ} {x : ZMod p}
    (ha : Rep p a x) :
    (toBytes p e a).length = 8 * numLimbs p ∧ IsBytes (toBytes p e a) ∧
      e.nat (toBytes p e a) = x.val := by
  obtain ⟨h1, h2⟩ := fromMont_rep hp ha
  obtain ⟨t1, t2, t3⟩ := toBytes_spec e (fromMont p a) h1.wf
  rw [h1.len] at t1
  exact ⟨t1, t2, by rw [toBytes, t3, h2]⟩

theorem ctEq_iff (a b : List ℕ) (hl : a.length = b.length) : ctEq a b = true ↔ a = b := by
  induction a generalizing b with
  | nil => cases b with
    | nil => simp [ctEq]
    | cons => simp at hl
  | cons x xs ih =>
    cases b with
    | nil => simp at hl
    | cons y ys =>
      have := ih ys (by simpa using hl)
      simp only [ctEq, List.zip_cons_cons, List.all_cons, Bool.and_eq_true, beq_iff_eq,
        List.cons.injEq] at *
      rw [this]

/-! ### raw streams -/

theorem readLimbs_spec (n : ℕ) (s : List ℕ) :
    readLimbs n s = if s.length < 8 * n then none
      else some (Endian.LE.fromBytes n (s.take (8 * n)), s.drop (8 * n)) := by
  induction n generalizing s with
  | zero => simp [readLimbs, Endian.fromBytes]
  | succ n ih =>
    rw [readLimbs, readExact]
    by_cases h8 : s.length < 8
    · simp only [h8, if_true]
      rw [if_pos (by omega)]
    · simp only [h8, if_false]
      rw [ih]
      by_cases h : s.length < 8 * (n + 1)
      · rw [if_pos (by simp; omega), if_pos h]
      · rw [if_neg (by simp; omega), if_neg h]
        simp only [fromBytesLE_succ]
        congr 2
        · congr 1
          · rw [List.take_take, Nat.min_eq_left (by omega)]
          · rw [List.drop_take]; congr 2
        · rw [List.drop_drop]; congr 1; omega

theorem toRaw_fromRaw (p : ℕ) (el : List ℕ) (hl : el.length = numLimbs p) (h : Wf el) :
    Endian.LE.fromBytes (numLimbs p) (toRawBytes el) = el := by
  obtain ⟨t1, t2, t3⟩ := toBytesLE_spec el h
  obtain ⟨f1, f2, f3⟩ := fromBytesLE_spec (numLimbs p) (toRawBytes el) (by
    rw [toRawBytes, t1, hl]) t2
  apply val_inj f2 h (by rw [f1, hl])
  rw [f3, toRawBytes, t3]

end Halo2.Field
