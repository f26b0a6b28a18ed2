import Mathlib.Data.Set.Card
import Mathlib.Data.Set.Finite.List
import Mathlib.GroupTheory.Index
import Mathlib.Data.Set.Card.Arithmetic
import Verif.Curve.Random
import Verif.Curve.Order

/-! How often `random` yields each point. Helper lemmas only. -/

set_option linter.unusedSectionVars false

namespace Halo2.Curve

section Group

variable {A : Type} [AddCommGroup A] [Finite A]

theorem ker_card {k r h : ℕ} {g : A} (hr : 0 < r) (hc : Nat.card A = h * r) (hg : addOrderOf g = r)
    (hgen : ∀ p : A, r • p = 0 ↔ ∃ n < r, p = n • g) (lands : ∀ p : A, r • k • p = 0)
    (onto : ∀ q : A, r • q = 0 → ∃ p, r • p = 0 ∧ k • p = q) : Nat.card (nsmulAddMonoidHom (α := A) k).ker = h := by
  have hrange : (nsmulAddMonoidHom (α := A) k).range = AddSubgroup.zmultiples g := by
    ext q
    rw [AddMonoidHom.mem_range]
    constructor
    · rintro ⟨p, rfl⟩
      obtain ⟨n, -, e⟩ := (hgen _).mp (lands p)
      change k • p ∈ _
      rw [e]
      exact AddSubgroup.nsmul_mem _ (AddSubgroup.mem_zmultiples g) n
    · intro hq
      obtain ⟨z, rfl⟩ := hq
      have : r • (z • g) = 0 := by
        rw [← hg, smul_comm, addOrderOf_nsmul_eq_zero, smul_zero]
      obtain ⟨p, -, e⟩ := onto _ this
      exact ⟨p, e⟩
  have h1 := (nsmulAddMonoidHom (α := A) k).ker.card_mul_index
  rw [AddSubgroup.index_ker, hrange, Nat.card_zmultiples, hg, hc] at h1
  exact Nat.eq_of_mul_eq_mul_right hr h1

/-- The non-zero points that the multiplication by `k` sends to `q`. -/
theorem preimage_card {k r h : ℕ} {g : A} (hr : 0 < r) (hc : Nat.card A = h * r) (hg : addOrderOf g = r)
    (hgen : ∀ p : A, r • p = 0 ↔ ∃ n < r, p = n • g) (lands : ∀ p : A, r • k • p = 0)
    (onto : ∀ q : A, r • q = 0 → ∃ p, r • p = 0 ∧ k • p = q) (q : A) :
    (r • q ≠ 0 → {p : A | p ≠ 0 ∧ k • p = q}.ncard = 0) ∧ (r • q = 0 → q ≠ 0 → {p : A | p ≠ 0 ∧ k • p = q}.ncard = h) ∧
    (q = 0 → {p : A | p ≠ 0 ∧ k • p = q}.ncard = h - 1) := by
  have hk := ker_card hr hc hg hgen lands onto
  have hker : {p : A | k • p = 0}.ncard = h := by
    rw [← hk, ← Nat.card_coe_set_eq]
    rfl
  refine ⟨fun hq => ?_, fun hq hq0 => ?_, fun hq => ?_⟩
  · rw [Set.ncard_eq_zero]
    ext p
    simp only [Set.mem_empty_iff_false, iff_false]
    rintro ⟨-, rfl⟩
    exact hq (lands p)
  · obtain ⟨p0, -, e0⟩ := onto q hq
    rw [← hker]
    refine (Set.ncard_congr (fun p _ => p + p0) ?_ ?_ ?_).symm
    · intro p hp
      have hp : k • p = 0 := hp
      refine ⟨fun h0 => hq0 ?_, ?_⟩
      · have : k • (p + p0) = q := by rw [smul_add, hp, e0, zero_add]
        rw [h0, smul_zero] at this
        exact this.symm
      · rw [smul_add, hp, e0, zero_add]
    · intro a b _ _ h
      exact add_right_cancel h
    · rintro b ⟨-, hb⟩
      refine ⟨b - p0, ?_, sub_add_cancel _ _⟩
      rw [Set.mem_ofPred_eq, smul_sub, hb, e0, sub_self]
  · subst hq
    have : {p : A | p ≠ 0 ∧ k • p = 0} = {p : A | k • p = 0} \ {0} := by
      ext p
      simp only [Set.mem_ofPred_eq, Set.mem_sdiff, Set.mem_singleton_iff]
      tauto
    rw [this, Set.ncard_sdiff_singleton_of_mem (by rw [Set.mem_ofPred_eq, smul_zero]), hker]

end Group

section Points

variable {F : Type} [Field F] [DecidableEq F] [BaseField F] [LawfulBase F] {C : Params F}

/-- The round of the loop that yields a given point. -/
noncomputable def drawOf (sqrt : F → Option F) (lowBit : F → Bool) : Pt C → F × Bool
  | .zero => (0, false)
  | .some x y _ => (x, match sqrt (y2 C x) with
    | some r => if y = r then lowBit r else !lowBit r
    | none => false)

/-- The point of a successful round, before the cofactor is cleared. -/
def Yields (C : Params F) (sqrt : F → Option F) (lowBit : F → Bool) (d : F × Bool) (p : Pt C) : Prop :=
  ∃ r y h, sqrt (y2 C d.1) = some r ∧ y = (if (d.2 ^^ lowBit r) == false then r else -r) ∧ p = .some d.1 y h

theorem yields_iff (hC : Good C) {sqrt : F → Option F} (hs : ∀ x y, sqrt x = some y → y * y = x) (hn : ∀ x, sqrt x = none → ¬ IsSquare x)
    (lowBit : F → Bool) (d : F × Bool) (p : Pt C) : Yields C sqrt lowBit d p ↔ p ≠ 0 ∧ d = drawOf sqrt lowBit p := by
  constructor
  · rintro ⟨r, y, h, e, hy, rfl⟩
    refine ⟨WeierstrassCurve.Affine.Point.some_ne_zero h, ?_⟩
    have hy0 : y ≠ 0 := y_ne_zero hC h.1
    obtain ⟨x, b⟩ := d
    simp only [drawOf, e, Prod.mk.injEq, true_and] at hy ⊢
    have hr : r ≠ -r := by
      intro hr
      have h2 : 2 * r = 0 := by linear_combination hr
      have hr0 := (mul_eq_zero.mp h2).resolve_left hC.two
      apply hy0
      rw [hy, hr0]
      simp
    subst hy
    cases b <;> cases hl : lowBit r <;> simp [hr.symm]
  · rintro ⟨hp, rfl⟩
    rcases p with _ | ⟨x, y, h⟩
    · exact absurd rfl hp
    have hq : y * y = y2 C x := by
      rw [Codec.y2_eq]
      exact (equation_iff C x y).mp h.1
    cases e : sqrt (y2 C x) with
    | none => exact absurd ⟨y, hq.symm⟩ (hn _ e)
    | some r =>
      refine ⟨r, y, h, e, ?_, rfl⟩
      simp only [drawOf, e]
      have hr := hs _ _ e
      rcases mul_self_eq_mul_self_iff.mp (hq.trans hr.symm) with h1 | h1
      · rw [if_pos h1]
        simp [h1]
      · have hne : y ≠ r := by
          intro h2
          have h3 : 2 * y = 0 := by linear_combination h1 + h2
          exact y_ne_zero hC h.1 ((mul_eq_zero.mp h3).resolve_left hC.two)
        rw [if_neg hne]
        simp [h1]

theorem random_cons_some {sqrt : F → Option F} (lowBit : F → Bool) (clear : Proj F → Proj F) {d : F × Bool} (rest : List (F × Bool)) {r : F}
    (e : sqrt (y2 C d.1) = some r) :
    random C sqrt lowBit clear (d :: rest) = random C sqrt lowBit clear [d] := by
  obtain ⟨x, b⟩ := d
  rw [random, random]
  dsimp only at e
  rw [e]

theorem random_cons_none {sqrt : F → Option F} (lowBit : F → Bool) (clear : Proj F → Proj F) {d : F × Bool} (rest : List (F × Bool))
    (e : sqrt (y2 C d.1) = none) : random C sqrt lowBit clear (d :: rest) = random C sqrt lowBit clear rest := by
  obtain ⟨x, b⟩ := d
  rw [random]
  dsimp only at e
  rw [e]

theorem random_one (hC : Good C) {sqrt : F → Option F} (hs : ∀ x y, sqrt x = some y → y * y = x) (lowBit : F → Bool)
    {clear : Proj F → Proj F} {k : ℕ} (hk : ∀ P (p : Pt C), PRep C P p → PRep C (clear P) (k • p)) (d : F × Bool) (q : Pt C) :
    (∃ A, random C sqrt lowBit clear [d] = some A ∧ ARep C A q) ↔ ∃ p, Yields C sqrt lowBit d p ∧ k • p = q := by
  obtain ⟨x, b⟩ := d
  rw [random]
  cases e : sqrt (y2 C x) with
  | none =>
    constructor
    · rintro ⟨A, h, -⟩
      exact absurd h (by simp [random])
    · rintro ⟨p, ⟨r, y, h, e', -⟩, -⟩
      exact absurd (e.symm.trans e') (by simp)
  | some r =>
    dsimp only
    generalize hy' : (if (b ^^ lowBit r) == false then r else -r) = y'
    have hr : r * r = x * x * x + C.a * x + C.b := by rw [← Codec.y2_eq]; exact hs _ _ e
    have hy2 : y' * y' = x * x * x + C.a * x + C.b := by
      rw [← hy', ← hr]
      split
      · rfl
      · ring
    have hn := nonsingular_of hC ((equation_iff C x y').mpr hy2)
    have hA : ARep C (Proj.toAffine (clear (Aff.toCurve ⟨x, y'⟩))) (k • (.some x y' hn : Pt C)) :=
      (hk _ _ ((show ARep C ⟨x, y'⟩ (.some x y' hn) from ⟨rfl, rfl⟩).toCurve hC)).toAffine
    constructor
    · rintro ⟨A, h, hq⟩
      rw [← Option.some.inj h] at hq
      exact ⟨.some x y' hn, ⟨r, y', hn, e, hy'.symm, rfl⟩, ARep.unique hC hA hq⟩
    · rintro ⟨p, ⟨r', y, h, e', hy, rfl⟩, rfl⟩
      obtain rfl := Option.some.inj (e.symm.trans e')
      dsimp only at hy h ⊢
      obtain rfl := hy.trans hy'
      exact ⟨_, rfl, hA⟩

/-- The number of single rounds that end with `q`. -/
theorem count_one (hC : Good C) {sqrt : F → Option F} (hs : ∀ x y, sqrt x = some y → y * y = x) (hn : ∀ x, sqrt x = none → ¬ IsSquare x)
    (lowBit : F → Bool) {clear : Proj F → Proj F} {k : ℕ} (hk : ∀ P (p : Pt C), PRep C P p → PRep C (clear P) (k • p)) (q : Pt C) :
    {d | ∃ A, random C sqrt lowBit clear [d] = some A ∧ ARep C A q}.ncard = {p : Pt C | p ≠ 0 ∧ k • p = q}.ncard := by
  refine (Set.ncard_congr (fun p _ => drawOf sqrt lowBit p) ?_ ?_ ?_).symm
  · rintro p ⟨h0, hp⟩
    rw [Set.mem_ofPred_eq, random_one hC hs lowBit hk]
    exact ⟨p, (yields_iff hC hs hn lowBit _ p).mpr ⟨h0, rfl⟩, hp⟩
  · rintro p p' ⟨h0, -⟩ ⟨h0', -⟩ e
    obtain ⟨r, y, h, e1, hy, e2⟩ := (yields_iff hC hs hn lowBit _ p).mpr ⟨h0, rfl⟩
    obtain ⟨r', y', h', e1', hy', e2'⟩ := (yields_iff hC hs hn lowBit _ p').mpr ⟨h0', e⟩
    obtain rfl := Option.some.inj (e1.symm.trans e1')
    obtain rfl := hy.trans hy'.symm
    exact e2.trans e2'.symm
  · intro d hd
    rw [Set.mem_ofPred_eq, random_one hC hs lowBit hk] at hd
    obtain ⟨p, hy, hp⟩ := hd
    obtain ⟨h0, e⟩ := (yields_iff hC hs hn lowBit d p).mp hy
    exact ⟨p, ⟨h0, hp⟩, e.symm⟩

/-- The weight of `n` rounds: how many lists of `n` draws end at the point of a given draw. -/
def weight (total fail : ℕ) : ℕ → ℕ
  | 0 => 0
  | n + 1 => total ^ n + fail * weight total fail n

theorem lists_card {α : Type} [Finite α] (n : ℕ) : {l : List α | l.length = n}.ncard = Nat.card α ^ n := by
  rw [← Nat.card_coe_set_eq]
  have : Nat.card (List.Vector α n) = Nat.card α ^ n := by
    rw [Nat.card_congr (Equiv.vectorEquivFin α n), Nat.card_fun, Nat.card_fin]
  exact this

/-- The number of lists of `n` draws that end with `q`. -/
theorem count_lists [Finite F] (sqrt : F → Option F) (lowBit : F → Bool) (clear : Proj F → Proj F) (q : Pt C) (n : ℕ) :
    {l : List (F × Bool) | l.length = n ∧ ∃ A, random C sqrt lowBit clear l = some A ∧ ARep C A q}.ncard =
      weight (Nat.card (F × Bool)) {d : F × Bool | sqrt (y2 C d.1) = none}.ncard n *
        {d | ∃ A, random C sqrt lowBit clear [d] = some A ∧ ARep C A q}.ncard := by
  induction n with
  | zero =>
    rw [weight, Nat.zero_mul]
    have : {l : List (F × Bool) | l.length = 0 ∧ ∃ A, random C sqrt lowBit clear l = some A ∧ ARep C A q} = ∅ := by
      ext l
      simp only [Set.mem_empty_iff_false, iff_false]
      rintro ⟨h, A, hA, -⟩
      rw [List.length_eq_zero_iff] at h
      rw [h] at hA
      exact absurd hA (by simp [random])
    rw [this, Set.ncard_empty]
  | succ n ih =>
    have hcons : Function.Injective (fun w : (F × Bool) × List (F × Bool) => w.1 :: w.2) := by
      rintro ⟨d, l⟩ ⟨d', l'⟩ h
      obtain ⟨rfl, rfl⟩ := List.cons.inj h
      rfl
    have fin : ∀ m, {l : List (F × Bool) | l.length = m}.Finite := fun m => List.finite_length_eq _ m
    have finG : {l : List (F × Bool) | l.length = n ∧ ∃ A, random C sqrt lowBit clear l = some A ∧ ARep C A q}.Finite :=
      (fin n).subset fun l hl => hl.1
    have hset : {l : List (F × Bool) | l.length = n + 1 ∧ ∃ A, random C sqrt lowBit clear l = some A ∧ ARep C A q} =
        (fun w : (F × Bool) × List (F × Bool) => w.1 :: w.2) ''
          ({d | ∃ A, random C sqrt lowBit clear [d] = some A ∧ ARep C A q} ×ˢ {l : List (F × Bool) | l.length = n} ∪
          {d : F × Bool | sqrt (y2 C d.1) = none} ×ˢ
            {l : List (F × Bool) | l.length = n ∧ ∃ A, random C sqrt lowBit clear l = some A ∧ ARep C A q}) := by
      ext l
      rw [Set.mem_image]
      constructor
      · rintro ⟨hl, A, hA, hq⟩
        cases l with
        | nil => simp at hl
        | cons d l =>
          have hl : l.length = n := Nat.succ.inj hl
          refine ⟨(d, l), ?_, rfl⟩
          cases e : sqrt (y2 C d.1) with
          | none =>
            right
            rw [random_cons_none lowBit clear l e] at hA
            exact ⟨e, hl, A, hA, hq⟩
          | some r =>
            left
            rw [random_cons_some lowBit clear l e] at hA
            exact ⟨⟨A, hA, hq⟩, hl⟩
      · rintro ⟨⟨d, l⟩, h | h, rfl⟩
        · obtain ⟨⟨A, hA, hq⟩, hl⟩ := h
          have hl : l.length = n := hl
          refine ⟨by rw [List.length_cons, hl], A, ?_, hq⟩
          cases e : sqrt (y2 C d.1) with
          | none =>
            rw [random_cons_none lowBit clear [] e] at hA
            exact absurd hA (by simp [random])
          | some r =>
            rw [random_cons_some lowBit clear l e]
            exact hA
        · obtain ⟨e, hl, A, hA, hq⟩ := h
          have hl : l.length = n := hl
          refine ⟨by rw [List.length_cons, hl], A, ?_, hq⟩
          rw [random_cons_none lowBit clear l e]
          exact hA
    rw [hset, Set.ncard_image_of_injective _ hcons, Set.ncard_union_eq _ ((Set.toFinite _).prod (fin n)) ((Set.toFinite _).prod finG),
      Set.ncard_prod, Set.ncard_prod, ih, lists_card, weight]
    · ring
    · rw [Set.disjoint_left]
      rintro ⟨d, l⟩ ⟨⟨A, hA, -⟩, -⟩ ⟨e, -⟩
      rw [random_cons_none lowBit clear [] e] at hA
      exact absurd hA (by simp [random])

/-- The number of rounds that go on. -/
theorem count_fail [Finite F] (hC : Good C) {sqrt : F → Option F} (hs : ∀ x y, sqrt x = some y → y * y = x)
    (hn : ∀ x, sqrt x = none → ¬ IsSquare x) (lowBit : F → Bool) :
    {d : F × Bool | sqrt (y2 C d.1) = none}.ncard + Nat.card (Pt C) = Nat.card (F × Bool) + 1 := by
  have hf : Finite (Pt C) := (pt_card_le C).1
  have hc : {d : F × Bool | sqrt (y2 C d.1) = none}ᶜ = {d | ∃ A, random C sqrt lowBit id [d] = some A ∧ ∃ q, ARep C A q} := by
    ext d
    simp only [Set.mem_compl_iff, Set.mem_ofPred_eq]
    have h1 := fun q => random_one hC hs lowBit (clear := id) (k := 1) (fun P p hP => by rw [one_smul]; exact hP) d q
    cases e : sqrt (y2 C d.1) with
    | none =>
      simp only [not_true_eq_false, false_iff]
      rintro ⟨A, hA, -⟩
      rw [random_cons_none lowBit id [] e] at hA
      exact absurd hA (by simp [random])
    | some r =>
      simp only [reduceCtorEq, not_false_eq_true, true_iff]
      have hr : r * r = d.1 * d.1 * d.1 + C.a * d.1 + C.b := by rw [← Codec.y2_eq]; exact hs _ _ e
      have hy2 : (if (d.2 ^^ lowBit r) == false then r else -r) * (if (d.2 ^^ lowBit r) == false then r else -r) =
          d.1 * d.1 * d.1 + C.a * d.1 + C.b := by
        rw [← hr]
        split
        · rfl
        · ring
      obtain ⟨A, hA, hq⟩ := (h1 _).mpr ⟨_, ⟨r, _, nonsingular_of hC ((equation_iff C _ _).mpr hy2), e, rfl, rfl⟩, rfl⟩
      exact ⟨A, hA, _, hq⟩
  have hcount : {d | ∃ A, random C sqrt lowBit id [d] = some A ∧ ∃ q, ARep C A q}.ncard = {p : Pt C | p ≠ 0}.ncard := by
    refine (Set.ncard_congr (fun p _ => drawOf sqrt lowBit p) ?_ ?_ ?_).symm
    · intro p h0
      obtain ⟨A, hA, hq⟩ := (random_one hC hs lowBit (clear := id) (k := 1) (fun P p hP => by rw [one_smul]; exact hP) _ p).mpr
        ⟨p, (yields_iff hC hs hn lowBit _ p).mpr ⟨h0, rfl⟩, one_smul _ _⟩
      exact ⟨A, hA, p, hq⟩
    · rintro p p' h0 h0' e
      obtain ⟨r, y, h, e1, hy, e2⟩ := (yields_iff hC hs hn lowBit _ p).mpr ⟨h0, rfl⟩
      obtain ⟨r', y', h', e1', hy', e2'⟩ := (yields_iff hC hs hn lowBit _ p').mpr ⟨h0', e⟩
      obtain rfl := Option.some.inj (e1.symm.trans e1')
      obtain rfl := hy.trans hy'.symm
      exact e2.trans e2'.symm
    · rintro d ⟨A, hA, q, hq⟩
      obtain ⟨p, hy, -⟩ := (random_one hC hs lowBit (clear := id) (k := 1) (fun P p hP => by rw [one_smul]; exact hP) d q).mp ⟨A, hA, hq⟩
      obtain ⟨h0, e⟩ := (yields_iff hC hs hn lowBit d p).mp hy
      exact ⟨p, h0, e.symm⟩
  have h1 := Set.ncard_add_ncard_compl {d : F × Bool | sqrt (y2 C d.1) = none}
  have h2 := Set.ncard_add_ncard_compl {p : Pt C | p ≠ 0}
  have h3 : {p : Pt C | p ≠ 0}ᶜ = {0} := by
    ext p
    simp
  rw [h3, Set.ncard_singleton] at h2
  rw [hc, hcount] at h1
  omega

end Points

end Halo2.Curve
