import Mathlib.Algebra.Order.BigOperators.Group.List
import Verif.Curve.RandomUniform
import Verif.Pairing.Random

/-!
# `random` of points, from the outputs of the generator
-/

set_option linter.unusedSectionVars false

namespace Halo2.Curve

open Halo2.Field Halo2.Pairing

section Model

variable {F : Type} [CommRing F] [DecidableEq F] [BaseField F] (C : Params F)

/-- Models src/derive/curve.rs:314-336 with the calls of the generator. In every round it fills the bytes from which
`draw`, the base field's `random`, makes an abscissa, and yields a `u32`, whose low bit is `ysign`. `none` stands for a loop that goes on. -/
def randomRng (draw : List ℕ → F × List ℕ) (sqrt : F → Option F) (lowBit : F → Bool) (clear : Proj F → Proj F) :
    List (List ℕ × ℕ) → Option (Aff F)
  | [] => none
  | (bytes, w) :: rest =>
    let x := (draw bytes).1
    let ysign := w % 2
    match sqrt (y2 C x) with
    | none => randomRng draw sqrt lowBit clear rest
    | some y =>
      let y := if ysign ^^^ (lowBit y).toNat = 0 then y else -y
      some (Proj.toAffine (clear (Aff.toCurve ⟨x, y⟩)))

theorem randomRng_eq (draw : List ℕ → F × List ℕ) (sqrt : F → Option F) (lowBit : F → Bool) (clear : Proj F → Proj F)
    (l : List (List ℕ × ℕ)) :
    randomRng C draw sqrt lowBit clear l = random C sqrt lowBit clear (l.map fun d => ((draw d.1).1, decide (d.2 % 2 = 1))) := by
  induction l with
  | nil => rfl
  | cons d l ih =>
    obtain ⟨b, w⟩ := d
    rw [randomRng, List.map_cons, random, ih]
    dsimp only
    cases sqrt (y2 C (draw b).1) with
    | none => rfl
    | some y =>
      have h : (w % 2 ^^^ (lowBit y).toNat = 0) ↔ ((decide (w % 2 = 1) ^^ lowBit y) == false) = true := by
        rcases Nat.mod_two_eq_zero_or_one w with e | e <;> rw [e] <;> cases lowBit y <;> decide
      simp only [h]

end Model

/-- The number of lists over `S` that a function sends, entry by entry, to a given list. -/
theorem ncard_map_eq {α β : Type} (S : Set α) (f : α → β) (c : β → ℕ) (hc : ∀ b, {x ∈ S | f x = b}.ncard = c b) (l : List β) :
    {l' : List α | (∀ x ∈ l', x ∈ S) ∧ l'.map f = l}.ncard = (l.map c).prod := by
  induction l with
  | nil =>
    rw [show {l' : List α | (∀ x ∈ l', x ∈ S) ∧ l'.map f = []} = {[]} by
      ext l'
      simp only [Set.mem_ofPred_eq, List.map_eq_nil_iff, Set.mem_singleton_iff]
      exact ⟨fun h => h.2, fun h => ⟨by rw [h]; exact fun x hx => absurd hx List.not_mem_nil, h⟩⟩, Set.ncard_singleton]
    rfl
  | cons b l ih =>
    rw [List.map_cons, List.prod_cons, ← ih, ← hc b, ← Set.ncard_prod,
      ← Set.InjOn.ncard_image (f := fun q : α × List α => q.1 :: q.2)]
    · congr 1
      ext l'
      constructor
      · rintro ⟨h1, h2⟩
        cases l' with
        | nil => exact absurd h2 (by simp)
        | cons a l' =>
          rw [List.map_cons, List.cons.injEq] at h2
          exact ⟨(a, l'), ⟨⟨h1 a List.mem_cons_self, h2.1⟩, fun x hx => h1 x (List.mem_cons_of_mem _ hx), h2.2⟩, rfl⟩
      · rintro ⟨⟨a, t⟩, ⟨⟨h1, h2⟩, h3, h4⟩, rfl⟩
        refine ⟨fun x hx => ?_, ?_⟩
        · rcases List.mem_cons.mp hx with rfl | hx
          · exact h1
          · exact h3 x hx
        · dsimp only at *
          rw [List.map_cons, h2, h4]
    · rintro ⟨a, t⟩ _ ⟨a', t'⟩ _ h
      obtain ⟨h1, h2⟩ := List.cons.inj h
      exact Prod.ext h1 h2

theorem prod_between {β : Type} (c : β → ℕ) (lo hi : ℕ) (h : ∀ b, lo ≤ c b ∧ c b ≤ hi) (l : List β) :
    lo ^ l.length ≤ (l.map c).prod ∧ (l.map c).prod ≤ hi ^ l.length := by
  induction l with
  | nil => exact ⟨le_refl _, le_refl _⟩
  | cons b l ih =>
    rw [List.length_cons, List.map_cons, List.prod_cons, pow_succ', pow_succ']
    exact ⟨Nat.mul_le_mul (h b).1 ih.1, Nat.mul_le_mul (h b).2 ih.2⟩

/-- Lists of `n` entries of `S` whose images form a list in `T`, if each value has between `lo` and `hi` preimages. -/
theorem ncard_map_between {α β : Type} [Finite β] (S : Set α) (hS : S.Finite) (f : α → β) (lo hi : ℕ)
    (h : ∀ b, lo ≤ {x ∈ S | f x = b}.ncard ∧ {x ∈ S | f x = b}.ncard ≤ hi) (n : ℕ) (T : Set (List β)) (hT : ∀ l ∈ T, l.length = n) :
    lo ^ n * T.ncard ≤ {l' : List α | (∀ x ∈ l', x ∈ S) ∧ l'.map f ∈ T}.ncard ∧
    {l' : List α | (∀ x ∈ l', x ∈ S) ∧ l'.map f ∈ T}.ncard ≤ hi ^ n * T.ncard := by
  classical
  have hTf : T.Finite := (List.finite_length_eq β n).subset hT
  have hfin : ∀ l : List β, {l' : List α | (∀ x ∈ l', x ∈ S) ∧ l'.map f = l}.Finite := by
    intro l
    have : Finite S := hS
    refine ((List.finite_length_eq S l.length).image (List.map Subtype.val)).subset ?_
    rintro l' ⟨h1, h2⟩
    refine ⟨l'.attach.map fun x => ⟨x.1, h1 x.1 x.2⟩, ?_, ?_⟩
    · rw [Set.mem_ofPred_eq, List.length_map, List.length_attach, ← h2, List.length_map]
    · rw [List.map_map]
      exact List.attach_map_subtype_val l'
  have hU : {l' : List α | (∀ x ∈ l', x ∈ S) ∧ l'.map f ∈ T} = ⋃ l ∈ T, {l' : List α | (∀ x ∈ l', x ∈ S) ∧ l'.map f = l} := by
    ext l'
    simp only [Set.mem_ofPred_eq, Set.mem_iUnion, exists_prop]
    exact ⟨fun h => ⟨_, h.2, h.1, rfl⟩, fun ⟨l, a, b, c⟩ => ⟨b, c ▸ a⟩⟩
  have hsum : {l' : List α | (∀ x ∈ l', x ∈ S) ∧ l'.map f ∈ T}.ncard =
      ∑ l ∈ hTf.toFinset, (l.map fun b => {x ∈ S | f x = b}.ncard).prod := by
    rw [hU, hTf.ncard_biUnion (fun l _ => hfin l) ?_, finsum_mem_eq_finite_toFinset_sum _ hTf]
    · exact Finset.sum_congr rfl fun l _ => ncard_map_eq S f _ (fun _ => rfl) l
    · intro a _ b _ hab
      refine Set.disjoint_left.mpr ?_
      rintro l' ⟨_, h1⟩ ⟨_, h2⟩
      exact hab (h1.symm.trans h2)
  rw [hsum, Set.ncard_eq_toFinset_card T hTf, mul_comm, mul_comm (hi ^ n)]
  constructor
  · rw [← smul_eq_mul]
    refine Finset.card_nsmul_le_sum _ _ _ fun l hl => ?_
    have := (prod_between _ lo hi h l).1
    rwa [hT l (hTf.mem_toFinset.mp hl)] at this
  · rw [← smul_eq_mul]
    refine Finset.sum_le_card_nsmul _ _ _ fun l hl => ?_
    have := (prod_between _ lo hi h l).2
    rwa [hT l (hTf.mem_toFinset.mp hl)] at this

end Halo2.Curve
