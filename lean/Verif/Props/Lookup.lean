import Verif.Props.Vanish
import Verif.Props.Ext2

/-!
# C96: lookup arguments over the library

A client that proves that every value of a column occurs in a table, as halo2 does it: the prover sorts the column with the order of the
field, arranges the table so that every first occurrence of a value in the sorted column stands beside the same value of the table, and the
verifier checks the rows and one product of fractions.
-/

set_option linter.unusedSectionVars false

namespace Halo2.Props

open Halo2 Halo2.Field Halo2.Prime Halo2.Curve Polynomial

section Client

variable {p : ℕ} [Fact p.Prime] [Fact (OddModulus p)] [Fp.SmallModulus p]

/-- The walk over the sorted column: a value that differs from the one above is taken out of the table, the other rows stay open. -/
def lookupSplit : Option (Fp p) → List (Fp p) → List (Fp p) → Option (List (Option (Fp p)) × List (Fp p))
  | _, [], left => some ([], left)
  | prev, a :: as, left =>
    if prev = some a then do
      let (m, l) ← lookupSplit (some a) as left
      some (none :: m, l)
    else if left.contains a then do
      let (m, l) ← lookupSplit (some a) as (left.erase a)
      some (some a :: m, l)
    else none

/-- The open rows take what is left of the table. -/
def lookupFill : List (Option (Fp p)) → List (Fp p) → List (Fp p)
  | [], _ => []
  | some a :: m, l => a :: lookupFill m l
  | none :: m, x :: l => x :: lookupFill m l
  | none :: m, [] => 0 :: lookupFill m []

/-- The work of the prover: `none` if a value of the column is not in the table. -/
def lookupPermute (A S : List (Fp p)) : Option (List (Fp p) × List (Fp p)) := do
  let A' := A.mergeSort fun a b => Fp.cmp a b != .gt
  let (m, l) ← lookupSplit none A' S
  some (A', lookupFill m l)

/-- The rule for the rows: the first row agrees with the table, and every other one agrees with the table or with the row above. -/
def lookupRule : Option (Fp p) → List (Fp p) → List (Fp p) → Bool
  | _, [], [] => true
  | none, a :: as, s :: ss => decide (a - s = 0) && lookupRule (some a) as ss
  | some b, a :: as, s :: ss => decide ((a - s) * (a - b) = 0) && lookupRule (some a) as ss
  | _, _, _ => false

/-- One row of the product. -/
noncomputable def lookupStep (beta gamma : Fp p) (acc : Fp p) (x : (Fp p × Fp p) × Fp p × Fp p) : Option (Fp p) := do
  let i ← Fp.invert ((x.2.1 + beta) * (x.2.2 + gamma))
  some (acc * ((x.1.1 + beta) * (x.1.2 + gamma)) * i)

/-- The check of the verifier. -/
noncomputable def lookupCheck (beta gamma : Fp p) (A S A' S' : List (Fp p)) : Option Bool := do
  let z ← ((A.zip S).zip (A'.zip S')).foldlM (lookupStep beta gamma) 1
  some (lookupRule none A' S' && decide (z = 1))

theorem rule_cons (prev : Option (Fp p)) (a s : Fp p) (as ss : List (Fp p)) :
    lookupRule prev (a :: as) (s :: ss) = true ↔ (a = s ∨ prev = some a) ∧ lookupRule (some a) as ss = true := by
  cases prev with
  | none => simp [lookupRule, sub_eq_zero]
  | some b => simp [lookupRule, sub_eq_zero, eq_comm (a := b)]

theorem rule_length {prev : Option (Fp p)} {as ss : List (Fp p)} (h : lookupRule prev as ss = true) : as.length = ss.length := by
  induction as generalizing prev ss with
  | nil => cases ss with
    | nil => rfl
    | cons => cases prev <;> simp [lookupRule] at h
  | cons a as ih => cases ss with
    | nil => cases prev <;> simp [lookupRule] at h
    | cons s ss => rw [List.length_cons, List.length_cons, ih ((rule_cons prev a s as ss).mp h).2]

/-- What the rule means: every value of the column occurs in the arranged table. -/
theorem rule_mem {prev : Option (Fp p)} {as ss : List (Fp p)} (h : lookupRule prev as ss = true) (a : Fp p) (ha : a ∈ as) :
    a ∈ ss ∨ prev = some a := by
  induction as generalizing prev ss with
  | nil => cases ha
  | cons b as ih => cases ss with
    | nil => cases prev <;> simp [lookupRule] at h
    | cons s ss =>
      obtain ⟨h1, h2⟩ := (rule_cons prev b s as ss).mp h
      have hb : b ∈ s :: ss ∨ prev = some b := by
        rcases h1 with e | e
        · rw [e]; exact Or.inl List.mem_cons_self
        · exact Or.inr e
      rcases List.mem_cons.mp ha with rfl | ha
      · exact hb
      · rcases ih h2 ha with h3 | h3
        · exact Or.inl (List.mem_cons_of_mem _ h3)
        · rw [Option.some.inj h3] at hb
          exact hb

/-- Number of open rows. -/
def opens (m : List (Option (Fp p))) : ℕ := m.countP Option.isNone

theorem fill_perm (m : List (Option (Fp p))) (l : List (Fp p)) (h : opens m = l.length) : (lookupFill m l).Perm (m.filterMap id ++ l) := by
  induction m generalizing l with
  | nil =>
    rw [opens, List.countP_nil] at h
    rw [List.length_eq_zero_iff.mp h.symm]
    exact List.Perm.refl _
  | cons x m ih =>
    cases x with
    | some a =>
      rw [opens, List.countP_cons_of_neg (by simp)] at h
      exact (ih l h).cons a
    | none =>
      rw [opens, List.countP_cons_of_pos (by simp)] at h
      cases l with
      | nil => simp at h
      | cons x l =>
        rw [List.length_cons, Nat.add_right_cancel_iff] at h
        exact ((ih l h).cons x).trans List.perm_middle.symm

theorem split_spec {prev : Option (Fp p)} {as left : List (Fp p)} {m : List (Option (Fp p))} {l : List (Fp p)} :
    lookupSplit prev as left = some (m, l) →
      m.length = as.length ∧ (m.filterMap id ++ l).Perm left ∧
      ∀ l', opens m = l'.length → lookupRule prev as (lookupFill m l') = true := by
  induction as generalizing prev left m l with
  | nil =>
    intro h
    obtain ⟨rfl, rfl⟩ := Prod.mk.inj (Option.some.inj h)
    exact ⟨rfl, List.Perm.refl _, fun l' _ => by cases prev <;> rfl⟩
  | cons a as ih =>
    intro h
    rw [lookupSplit] at h
    split at h
    · next hp =>
      cases hs : lookupSplit (some a) as left with
      | none => rw [hs] at h; exact nomatch h
      | some ml =>
        obtain ⟨m1, l1⟩ := ml
        rw [hs] at h
        obtain ⟨rfl, rfl⟩ := Prod.mk.inj (Option.some.inj h)
        obtain ⟨h1, h2, h3⟩ := ih hs
        refine ⟨by rw [List.length_cons, List.length_cons, h1], h2, fun l' hl => ?_⟩
        rw [opens, List.countP_cons_of_pos (by simp)] at hl
        cases l' with
        | nil => simp at hl
        | cons x l' =>
          rw [lookupFill, rule_cons]
          exact ⟨Or.inr hp, h3 l' (by simpa [opens] using hl)⟩
    · split at h
      · next hp hc =>
        cases hs : lookupSplit (some a) as (left.erase a) with
        | none => rw [hs] at h; exact nomatch h
        | some ml =>
          obtain ⟨m1, l1⟩ := ml
          rw [hs] at h
          obtain ⟨rfl, rfl⟩ := Prod.mk.inj (Option.some.inj h)
          obtain ⟨h1, h2, h3⟩ := ih hs
          refine ⟨by rw [List.length_cons, List.length_cons, h1], ?_, fun l' hl => ?_⟩
          · exact (h2.cons a).trans (List.perm_cons_erase (List.contains_iff_mem.mp hc)).symm
          · rw [opens, List.countP_cons_of_neg (by simp)] at hl
            rw [lookupFill, rule_cons]
            exact ⟨Or.inl rfl, h3 l' hl⟩
      · exact nomatch h

/-- On a sorted column the walk finds every value that is in the table. -/
theorem split_some {prev : Option (Fp p)} {as left : List (Fp p)} :
    as.Pairwise (fun a b => a.toNat ≤ b.toNat) → (∀ b, prev = some b → ∀ a ∈ as, b.toNat ≤ a.toNat) →
      (∀ a ∈ as, prev ≠ some a → a ∈ left) → lookupSplit prev as left ≠ none := by
  induction as generalizing prev left with
  | nil => intro _ _ _ h; exact nomatch h
  | cons a as ih =>
    intro hs hp hm h
    obtain ⟨hs1, hs2⟩ := List.pairwise_cons.mp hs
    rw [lookupSplit] at h
    split at h
    · next e =>
      refine ih (prev := some a) (left := left) hs2 (fun b hb c hc => ?_) (fun c hc hne => hm c (List.mem_cons_of_mem _ hc) ?_) ?_
      · rw [← Option.some.inj hb]; exact hs1 c hc
      · rw [e]; exact hne
      · cases hx : lookupSplit (some a) as left with
        | none => rfl
        | some ml => rw [hx] at h; exact nomatch h
    · next e =>
      rw [if_pos (List.contains_iff_mem.mpr (hm a List.mem_cons_self e))] at h
      refine ih (prev := some a) (left := left.erase a) hs2 (fun b hb c hc => ?_) (fun c hc hne => ?_) ?_
      · rw [← Option.some.inj hb]; exact hs1 c hc
      · have hca : c ≠ a := fun e => hne (congrArg some e.symm)
        refine (List.mem_erase_of_ne hca).mpr (hm c (List.mem_cons_of_mem _ hc) fun e' => hca ?_)
        have h1 := hp c e' a List.mem_cons_self
        have h2 := hs1 c hc
        exact Fp.toNat_inj (le_antisymm h1 h2)
      · cases hx : lookupSplit (some a) as (left.erase a) with
        | none => rfl
        | some ml => rw [hx] at h; exact nomatch h

theorem sort_spec (A : List (Fp p)) : (A.mergeSort fun a b => Fp.cmp a b != .gt).Perm A ∧
    (A.mergeSort fun a b => Fp.cmp a b != .gt).Pairwise fun a b => a.toNat ≤ b.toNat := by
  have h : ∀ a b : Fp p, (Fp.cmp a b != .gt) = true ↔ a.toNat ≤ b.toNat := fun a b => by
    rw [Fp.cmp_eq, bne_iff_ne, ← Nat.isLE_compare]
    cases compare a.toNat b.toNat <;> simp [Ordering.isLE]
  refine ⟨List.mergeSort_perm _ _, ?_⟩
  refine (List.pairwise_mergeSort (le := fun a b : Fp p => Fp.cmp a b != .gt) ?_ ?_ A).imp fun {a b} hab => (h a b).mp hab
  · intro a b c h1 h2
    exact (h a c).mpr (le_trans ((h a b).mp h1) ((h b c).mp h2))
  · intro a b
    rw [Bool.or_eq_true, h, h]
    exact le_total _ _

/-- **C96** The prover succeeds exactly if every value of the column is in the table, and then returns a rearrangement of the column and
one of the table that satisfy the rule for the rows. -/
theorem C96_permute (A S : List (Fp p)) (hl : A.length = S.length) :
    (lookupPermute A S = none ↔ ∃ a ∈ A, a ∉ S) ∧
    ∀ A' S', lookupPermute A S = some (A', S') → A'.Perm A ∧ S'.Perm S ∧ lookupRule none A' S' = true := by
  obtain ⟨hp, hs⟩ := sort_spec A
  have key : ∀ A' S', lookupPermute A S = some (A', S') → A'.Perm A ∧ S'.Perm S ∧ lookupRule none A' S' = true := fun A' S' h => by
    rw [lookupPermute] at h
    dsimp only at h
    cases hx : lookupSplit none (A.mergeSort fun a b => Fp.cmp a b != .gt) S with
    | none => rw [hx] at h; exact nomatch h
    | some ml =>
      obtain ⟨m, l⟩ := ml
      rw [hx] at h
      obtain ⟨rfl, rfl⟩ := Prod.mk.inj (Option.some.inj h)
      obtain ⟨h1, h2, h3⟩ := split_spec hx
      have ho : opens m = l.length := by
        have e1 := h2.length_eq
        rw [List.length_append, ← hl, ← hp.length_eq, ← h1] at e1
        have e2 : opens m + (m.filterMap id).length = m.length := by
          clear * -
          induction m with
          | nil => rfl
          | cons x m ih => cases x <;> simp [opens] at * <;> omega
        omega
      exact ⟨hp, (fill_perm m l ho).trans h2, h3 l ho⟩
  refine ⟨⟨fun h => ?_, fun ⟨a, ha, hn⟩ => ?_⟩, key⟩
  · by_contra hc
    push Not at hc
    refine split_some (prev := none) (left := S) hs (fun b hb => nomatch hb) (fun a ha _ => hc a (hp.mem_iff.mp ha)) ?_
    cases hx : lookupSplit none (A.mergeSort fun a b => Fp.cmp a b != .gt) S with
    | none => rfl
    | some ml => rw [lookupPermute] at h; dsimp only at h; rw [hx] at h; exact nomatch h
  · cases hx : lookupPermute A S with
    | none => rfl
    | some r =>
      obtain ⟨h1, h2, h3⟩ := key r.1 r.2 hx
      rcases rule_mem h3 a (h1.mem_iff.mpr ha) with h4 | h4
      · exact absurd (h2.mem_iff.mp h4) hn
      · exact nomatch h4

theorem lookupFold (beta gamma : Fp p) (L : List ((Fp p × Fp p) × Fp p × Fp p)) (acc : Fp p) :
    L.foldlM (lookupStep beta gamma) acc =
      if (L.map fun x => (x.2.1 + beta) * (x.2.2 + gamma)).prod = 0 then none
      else some (acc * (L.map fun x => (x.1.1 + beta) * (x.1.2 + gamma)).prod *
        ((L.map fun x => (x.2.1 + beta) * (x.2.2 + gamma)).prod)⁻¹) := by
  induction L generalizing acc with
  | nil => simp
  | cons x L ih =>
    rw [List.foldlM_cons, lookupStep, invert_eq, List.map_cons, List.map_cons, List.prod_cons, List.prod_cons]
    by_cases h : (x.2.1 + beta) * (x.2.2 + gamma) = 0
    · rw [if_pos h, h, zero_mul, if_pos rfl]
      rfl
    · rw [if_neg h, Option.bind_eq_bind, Option.bind_some, Option.bind_some, ih]
      by_cases h2 : (L.map fun x => (x.2.1 + beta) * (x.2.2 + gamma)).prod = 0
      · rw [if_pos h2, h2, mul_zero, if_pos rfl]
      · rw [if_neg h2, if_neg (mul_ne_zero h h2), mul_inv ((x.2.1 + beta) * (x.2.2 + gamma))]
        congr 1
        generalize ((x.2.1 + beta) * (x.2.2 + gamma))⁻¹ = u
        generalize ((L.map fun x => (x.2.1 + beta) * (x.2.2 + gamma)).prod)⁻¹ = v
        ring

/-- The product of the values of a column, shifted. -/
noncomputable def shifted (L : List (Fp p)) (t : Fp p) : Fp p := (L.map fun a => a + t).prod

theorem shifted_perm {L M : List (Fp p)} (h : L.Perm M) (t : Fp p) : shifted L t = shifted M t := (h.map _).prod_eq

theorem shifted_eq_zero (L : List (Fp p)) (t : Fp p) : shifted L t = 0 ↔ ∃ a ∈ L, a + t = 0 := by
  rw [shifted, List.prod_eq_zero_iff, List.mem_map]

theorem zip_prod (beta gamma : Fp p) (A S : List (Fp p)) (h : A.length = S.length) :
    ((A.zip S).map fun x => (x.1 + beta) * (x.2 + gamma)).prod = shifted A beta * shifted S gamma := by
  induction A generalizing S with
  | nil => rw [List.length_eq_zero_iff.mp h.symm]; simp [shifted]
  | cons a A ih => cases S with
    | nil => simp at h
    | cons s S =>
      have := ih S (by simpa using h)
      simp only [shifted, List.zip_cons_cons, List.map_cons, List.prod_cons] at *
      rw [this]
      ring

theorem zip_fst {α β : Type} {L : List α} {M : List β} (h : L.length = M.length) : (L.zip M).map Prod.fst = L :=
  List.map_fst_zip (le_of_eq h)

theorem zip_snd {α β : Type} {L : List α} {M : List β} (h : L.length = M.length) : (L.zip M).map Prod.snd = M :=
  List.map_snd_zip (le_of_eq h.symm)

/-- What the check decides. -/
theorem lookupCheck_eq (beta gamma : Fp p) (A S A' S' : List (Fp p)) (h1 : A.length = S.length) (h2 : A'.length = S'.length)
    (h3 : A.length = A'.length) :
    lookupCheck beta gamma A S A' S' =
      if shifted A' beta * shifted S' gamma = 0 then none
      else some (lookupRule none A' S' && decide (shifted A beta * shifted S gamma = shifted A' beta * shifted S' gamma)) := by
  have hl : (A.zip S).length = (A'.zip S').length := by rw [List.length_zip, List.length_zip]; omega
  have e1 : (((A.zip S).zip (A'.zip S')).map fun x => (x.1.1 + beta) * (x.1.2 + gamma)).prod = shifted A beta * shifted S gamma := by
    rw [← zip_prod beta gamma A S h1, ← zip_fst hl, List.map_map, zip_fst hl]
    rfl
  have e2 : (((A.zip S).zip (A'.zip S')).map fun x => (x.2.1 + beta) * (x.2.2 + gamma)).prod = shifted A' beta * shifted S' gamma := by
    rw [← zip_prod beta gamma A' S' h2, ← zip_snd hl, List.map_map, zip_snd hl]
    rfl
  rw [lookupCheck, lookupFold, e1, e2, one_mul]
  by_cases h0 : shifted A' beta * shifted S' gamma = 0
  · rw [if_pos h0, if_pos h0]
    rfl
  · rw [if_neg h0, if_neg h0, Option.bind_eq_bind, Option.bind_some]
    congr 2
    rw [Bool.eq_iff_iff, decide_eq_true_iff, decide_eq_true_iff, ← div_eq_mul_inv, div_eq_one_iff_eq h0]

/-- **C96** Completeness: what the prover returns is accepted, unless a denominator is zero; then the check fails. -/
theorem C96_complete (A S A' S' : List (Fp p)) (hl : A.length = S.length) (h : lookupPermute A S = some (A', S')) (beta gamma : Fp p) :
    ((∃ a ∈ A, a + beta = 0) ∨ (∃ s ∈ S, s + gamma = 0) → lookupCheck beta gamma A S A' S' = none) ∧
    ((∀ a ∈ A, a + beta ≠ 0) → (∀ s ∈ S, s + gamma ≠ 0) → lookupCheck beta gamma A S A' S' = some true) := by
  obtain ⟨h1, h2, h3⟩ := (C96_permute A S hl).2 A' S' h
  rw [lookupCheck_eq beta gamma A S A' S' hl (by rw [h1.length_eq, h2.length_eq, hl]) h1.length_eq.symm, shifted_perm h1, shifted_perm h2, h3]
  refine ⟨fun h0 => if_pos ?_, fun ha hs => ?_⟩
  · rw [mul_eq_zero, shifted_eq_zero, shifted_eq_zero]
    exact h0
  · rw [if_neg, decide_eq_true rfl]
    · rfl
    · rw [mul_eq_zero, shifted_eq_zero, shifted_eq_zero]
      rintro (⟨a, h4, h5⟩ | ⟨s, h4, h5⟩)
      · exact ha a h4 h5
      · exact hs s h4 h5

/-- The polynomial of a column. -/
noncomputable def shiftPoly (L : List (Fp p)) : (Fp p)[X] := (L.map fun a => X + C a).prod

theorem shiftPoly_eval (L : List (Fp p)) (t : Fp p) : (shiftPoly L).eval t = shifted L t := by
  rw [shiftPoly, shifted, eval_list_prod, List.map_map]
  congr 2
  funext a
  rw [Function.comp_apply, eval_add, eval_X, eval_C, add_comm]

theorem shiftPoly_monic (L : List (Fp p)) : (shiftPoly L).Monic ∧ (shiftPoly L).natDegree = L.length := by
  induction L with
  | nil => exact ⟨by simp [shiftPoly], by simp [shiftPoly]⟩
  | cons a L ih =>
    have e : shiftPoly (a :: L) = (X + C a) * shiftPoly L := by rw [shiftPoly, List.map_cons, List.prod_cons]; rfl
    refine ⟨by rw [e]; exact (monic_X_add_C a).mul ih.1, ?_⟩
    rw [e, (monic_X_add_C a).natDegree_mul ih.1, natDegree_X_add_C, ih.2, List.length_cons, add_comm]

theorem shiftPoly_perm {L M : List (Fp p)} (h : shiftPoly L = shiftPoly M) : L.Perm M := by
  have hr : ∀ L : List (Fp p), (shiftPoly L).roots = (L : Multiset (Fp p)).map fun a => -a := fun L => by
    have e : shiftPoly L = (((L : Multiset (Fp p)).map fun a => -a).map fun a => X - C a).prod := by
      rw [Multiset.map_map, Multiset.map_coe, Multiset.prod_coe, shiftPoly]
      congr 2
      funext a
      rw [Function.comp_apply, C_neg, sub_neg_eq_add]
    rw [e, roots_multiset_prod_X_sub_C]
  have h2 := congrArg roots h
  rw [hr, hr] at h2
  exact Multiset.coe_eq_coe.mp (Multiset.map_injective neg_injective h2)

/-- Two different columns of the same length agree for fewer challenges than the length. -/
theorem shiftPoly_diff {L M : List (Fp p)} (hl : L.length = M.length) (h : ¬L.Perm M) :
    ∃ B : Finset (Fp p), B.card < L.length ∧ ∀ t ∉ B, shifted L t ≠ shifted M t := by
  have hne : shiftPoly L - shiftPoly M ≠ 0 := fun e => h (shiftPoly_perm (sub_eq_zero.mp e))
  obtain ⟨hL, dL⟩ := shiftPoly_monic L
  obtain ⟨hM, dM⟩ := shiftPoly_monic M
  refine ⟨(shiftPoly L - shiftPoly M).roots.toFinset, ?_, fun t ht e => ht ?_⟩
  · refine lt_of_le_of_lt (Multiset.toFinset_card_le _) (lt_of_le_of_lt (card_roots' _) ?_)
    have h1 : (shiftPoly L - shiftPoly M).degree < (shiftPoly L).degree := degree_sub_lt_left (by
      rw [degree_eq_natDegree hL.ne_zero, degree_eq_natDegree hM.ne_zero, dL, dM, hl]) hL.ne_zero (by rw [hL.leadingCoeff, hM.leadingCoeff])
    have h2 := natDegree_lt_natDegree hne h1
    rwa [dL] at h2
  · rw [Multiset.mem_toFinset, mem_roots hne, IsRoot.def, eval_sub, shiftPoly_eval, shiftPoly_eval, e, sub_self]

/-- **C96** Soundness: if a value of the column is not in the table, then, whatever columns of the same length the prover sends, for all but
fewer than `n` values of `beta` the check accepts for at most `n` values of `gamma`. -/
theorem C96_sound (A S A' S' : List (Fp p)) (h1 : A.length = S.length) (h2 : A'.length = S'.length) (h3 : A.length = A'.length)
    (a : Fp p) (ha : a ∈ A) (hn : a ∉ S) :
    ∃ B : Finset (Fp p), B.card < A.length ∧ ∀ beta ∉ B, ∃ G : Finset (Fp p), G.card ≤ A.length ∧ ∀ gamma ∉ G,
      lookupCheck beta gamma A S A' S' ≠ some true := by
  have hpos : 0 < A.length := List.length_pos_of_mem ha
  have key : ∀ beta gamma, lookupCheck beta gamma A S A' S' = some true →
      lookupRule none A' S' = true ∧ shifted A' beta * shifted S' gamma ≠ 0 ∧
      shifted A beta * shifted S gamma = shifted A' beta * shifted S' gamma := fun beta gamma h => by
    rw [lookupCheck_eq beta gamma A S A' S' h1 h2 h3] at h
    split at h
    · exact nomatch h
    · next h0 =>
      rw [Option.some.injEq, Bool.and_eq_true, decide_eq_true_iff] at h
      exact ⟨h.1, h0, h.2⟩
  by_cases hA : A.Perm A'
  · by_cases hS : S.Perm S'
    · refine ⟨∅, hpos, fun beta _ => ⟨∅, Nat.zero_le _, fun gamma _ h => ?_⟩⟩
      rcases rule_mem (key beta gamma h).1 a (hA.mem_iff.mp ha) with h4 | h4
      · exact hn (hS.mem_iff.mpr h4)
      · exact nomatch h4
    · obtain ⟨G, hG, hG2⟩ := shiftPoly_diff (by omega) hS
      refine ⟨∅, hpos, fun beta _ => ⟨G, by omega, fun gamma hg h => ?_⟩⟩
      obtain ⟨-, h4, h5⟩ := key beta gamma h
      rw [shifted_perm hA] at h5
      exact hG2 gamma hg (mul_left_cancel₀ (left_ne_zero_of_mul h4) h5)
  · obtain ⟨B, hB, hB2⟩ := shiftPoly_diff h3 hA
    refine ⟨B, hB, fun beta hb => ?_⟩
    let P : (Fp p)[X] := C (shifted A beta) * shiftPoly S - C (shifted A' beta) * shiftPoly S'
    have hev : ∀ t, P.eval t = shifted A beta * shifted S t - shifted A' beta * shifted S' t := fun t => by
      rw [eval_sub, eval_mul, eval_mul, eval_C, eval_C, shiftPoly_eval, shiftPoly_eval]
    have hc : P.coeff S.length = shifted A beta - shifted A' beta := by
      obtain ⟨m1, d1⟩ := shiftPoly_monic S
      obtain ⟨m2, d2⟩ := shiftPoly_monic S'
      have e1 : (shiftPoly S).coeff S.length = 1 := by rw [← d1]; exact m1
      have e2 : (shiftPoly S').coeff S.length = 1 := by rw [← h1, h3, h2, ← d2]; exact m2
      rw [coeff_sub, coeff_C_mul, coeff_C_mul, e1, e2, mul_one, mul_one]
    have hP : P ≠ 0 := fun e => hB2 beta hb (by rw [e, coeff_zero] at hc; exact (sub_eq_zero.mp hc.symm))
    have hd : P.natDegree ≤ A.length := by
      refine (natDegree_sub_le _ _).trans (max_le ?_ ?_)
      · exact (natDegree_C_mul_le _ _).trans (by rw [(shiftPoly_monic S).2, h1])
      · exact (natDegree_C_mul_le _ _).trans (by rw [(shiftPoly_monic S').2, h3, h2])
    refine ⟨P.roots.toFinset, (Multiset.toFinset_card_le _).trans ((card_roots' _).trans hd), fun gamma hg h => hg ?_⟩
    rw [Multiset.mem_toFinset, mem_roots hP, IsRoot.def, hev, (key beta gamma h).2.2, sub_self]

end Client

/-- The table 0, 1, 2, 3 over bn256's scalar field and a column of ones and threes: the prover succeeds, and what it returns is accepted for
every pair of challenges without a zero denominator. -/
example : ∃ A' S', lookupPermute ([3, 1, 3, 1] : List (Fp bnR)) [0, 1, 2, 3] = some (A', S') ∧
    ∀ beta gamma : Fp bnR, (∀ a ∈ ([3, 1, 3, 1] : List (Fp bnR)), a + beta ≠ 0) → (∀ s ∈ ([0, 1, 2, 3] : List (Fp bnR)), s + gamma ≠ 0) →
      lookupCheck beta gamma [3, 1, 3, 1] [0, 1, 2, 3] A' S' = some true := by
  cases h : lookupPermute ([3, 1, 3, 1] : List (Fp bnR)) [0, 1, 2, 3] with
  | none =>
    obtain ⟨a, ha, hn⟩ := (C96_permute ([3, 1, 3, 1] : List (Fp bnR)) [0, 1, 2, 3] rfl).1.mp h
    simp at ha hn
    rcases ha with e | e | e | e
    · exact absurd e hn.2.2.2
    · exact absurd e hn.2.1
    · exact absurd e hn.2.2.2
    · exact absurd e hn.2.1
  | some r => exact ⟨r.1, r.2, rfl, fun beta gamma => (C96_complete [3, 1, 3, 1] [0, 1, 2, 3] r.1 r.2 (by rfl) h beta gamma).2⟩

/-- The value 5 is not in this table, so whatever the prover sends is rejected for all but three `beta` and then all but four `gamma`. -/
example (A' S' : List (Fp bnR)) (h : A'.length = S'.length) (h4 : A'.length = 4) :
    ∃ B : Finset (Fp bnR), B.card < 4 ∧ ∀ beta ∉ B, ∃ G : Finset (Fp bnR), G.card ≤ 4 ∧ ∀ gamma ∉ G,
      lookupCheck beta gamma [3, ((5 : ℕ) : Fp bnR), 3, 1] ([0, 1, 2, 3].map fun n : ℕ => (n : Fp bnR)) A' S' ≠ some true := by
  refine C96_sound [3, ((5 : ℕ) : Fp bnR), 3, 1] ([0, 1, 2, 3].map fun n : ℕ => (n : Fp bnR)) A' S' (by rfl) h h4.symm
    ((5 : ℕ) : Fp bnR) (List.mem_cons_of_mem _ List.mem_cons_self) fun hc => ?_
  obtain ⟨n, hn, e⟩ := List.mem_map.mp hc
  rw [Fp.natCast_eq_iff] at e
  have : ∀ n ∈ ([0, 1, 2, 3] : List ℕ), n % bnR ≠ 5 % bnR := by decide +kernel
  exact this n hn e

end Halo2.Props
