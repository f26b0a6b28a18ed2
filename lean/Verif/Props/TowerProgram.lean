import Mathlib.FieldTheory.Finite.GaloisField
import Verif.Ext.Program
import Verif.Ext.Sqrt2Inst
import Verif.Pairing.WireProgram
import Verif.Pairing.Random
import Verif.Pairing.Inst
import Verif.Props.Ext

/-!
# C100: programs over the extension fields compute in the field with `p^12` elements
-/

set_option linter.unusedSectionVars false

namespace Halo2.Ext.TowerProg

open Halo2 Halo2.Ext Halo2.Program Halo2.Pairing ExtField LawfulExt

/-! ## One field of the tower -/

section Level

variable {K : Type} [_root_.Field K] [DecidableEq K]

/-- `φ` carries the functions `o` to the arithmetic of the field `K`. -/
structure LHom {T : Type} (p : ℕ) (o : LOps T) (φ : T → K) : Prop where
  inj : Function.Injective φ
  zero : φ o.zero = 0
  one : φ o.one = 1
  add : ∀ x y, φ (o.add x y) = φ x + φ y
  sub : ∀ x y, φ (o.sub x y) = φ x - φ y
  mul : ∀ x y, φ (o.mul x y) = φ x * φ y
  neg : ∀ x, φ (o.neg x) = -φ x
  dbl : ∀ x, φ (o.dbl x) = 2 * φ x
  sqr : ∀ x, φ (o.sqr x) = φ x ^ 2
  invert : ∀ x, φ ((o.invert x).getD o.zero) = (φ x)⁻¹
  flag : ∀ x, (o.invert x).isSome = decide (φ x ≠ 0)
  frob : ∀ i x, φ (o.frob i x) = φ x ^ p ^ i
  pow : ∀ x e, (∀ l ∈ e, l < 2 ^ 64) → φ (o.pow x e) = φ x ^ limbsVal e
  sum : ∀ l, φ (o.sum l) = (l.map φ).sum
  product : ∀ l, φ (o.product l) = (l.map φ).prod
  eq : ∀ x y, o.eq x y = decide (φ x = φ y)

theorem LHom.of {T : Type} [CommRing T] [ExtField T] [LawfulExt T] [DecidableEq T] {p : ℕ} (f : T →+* K) (hf : Function.Injective f)
    (hinv : ∀ x : T, x ≠ 0 → ∃ y, x * y = 1) (hfr : ∀ (i : ℕ) (x : T), ExtField.frob i x = x ^ p ^ i) : LHom p (LOps.of T) f where
  inj := hf
  zero := map_zero f
  one := map_one f
  add := map_add f
  sub := map_sub f
  mul := map_mul f
  neg := map_neg f
  dbl x := by
    change f (ExtField.dbl x) = _
    rw [dbl_eq, map_add, two_mul]
  sqr x := by
    change f (ExtField.sqr x) = _
    rw [sqr_eq, map_mul, pow_two]
  invert x := by
    change f ((ExtField.invert x).getD 0) = _
    cases h : ExtField.invert x with
    | none =>
      have hx : x = 0 := by
        by_contra hne
        obtain ⟨y, hy⟩ := hinv x hne
        rw [(invert_iff x y).mpr hy] at h
        exact Option.some_ne_none _ h
      rw [Option.getD_none, map_zero, hx, map_zero, inv_zero]
    | some y =>
      rw [Option.getD_some]
      refine eq_inv_of_mul_eq_one_right ?_
      rw [← map_mul, (invert_iff x y).mp h, map_one]
  flag x := by
    change (ExtField.invert x).isSome = _
    by_cases hx : x = 0
    · have h : ExtField.invert x = none := by
        cases h : ExtField.invert x with
        | none => rfl
        | some y =>
          have e := congrArg f ((invert_iff x y).mp h)
          rw [map_mul, hx, map_zero, zero_mul, map_one] at e
          exact absurd e zero_ne_one
      rw [h, hx, map_zero]
      simp
    · obtain ⟨y, hy⟩ := hinv x hx
      rw [(invert_iff x y).mpr hy]
      have : f x ≠ 0 := fun h => hx (hf (h.trans (map_zero f).symm))
      simp [this]
  frob i x := by
    change f (ExtField.frob i x) = _
    rw [hfr, map_pow]
  pow x e he := by
    change f (Ext.pow ExtField.sqr x e) = _
    rw [pow_eq _ sqr_eq x e he, map_pow]
  sum l := by
    change f (l.foldl (fun acc item => acc + item) 0) = _
    rw [← List.sum_eq_foldl, map_list_sum]
  product l := by
    change f (l.foldl (fun acc item => acc * item) 1) = _
    rw [← List.prod_eq_foldl, map_list_prod]
  eq x y := by
    change decide (x = y) = _
    exact decide_eq_decide.mpr hf.eq_iff.symm

end Level

/-! ## The tower inside a field -/

section Tower

variable {F : Type} [CommRing F] [DecidableEq F] [ExtField F] [LawfulExt F] [ExtField (Quad F)] [LawfulExt (Quad F)]
  [ExtField (Cubic (Quad F))] [LawfulExt (Cubic (Quad F))] [ExtField (Quad (Cubic (Quad F)))] [LawfulExt (Quad (Cubic (Quad F)))]

/-- What is known of the tower: all four rings are fields, the Frobenius maps and conjugations are powers, and the
non-residues are those of the definition. -/
structure Laws (F : Type) [CommRing F] [DecidableEq F] [ExtField F] [LawfulExt F] [ExtField (Quad F)] [LawfulExt (Quad F)]
    [ExtField (Cubic (Quad F))] [LawfulExt (Cubic (Quad F))] [ExtField (Quad (Cubic (Quad F)))] [LawfulExt (Quad (Cubic (Quad F)))]
    (p : ℕ) (β : ℤ) (ξ0 ξ1 : ℕ) (fromU64 : ℕ → F) (sqrt : Quad F → SqrtResult (Quad F)) (total : Bool) : Prop where
  prime : p.Prime
  card : Nat.card F = p
  nontriv : (0 : F) ≠ 1
  inv1 : ∀ x : F, x ≠ 0 → ∃ y, x * y = 1
  inv2 : ∀ x : Quad F, x ≠ 0 → ∃ y, x * y = 1
  inv6 : ∀ x : Cubic (Quad F), x ≠ 0 → ∃ y, x * y = 1
  inv12 : ∀ x : Quad (Cubic (Quad F)), x ≠ 0 → ∃ y, x * y = 1
  frob1 : ∀ (i : ℕ) (x : F), frob i x = x ^ p ^ i
  frob2 : ∀ (i : ℕ) (x : Quad F), frob i x = x ^ p ^ i
  frob6 : ∀ (i : ℕ) (x : Cubic (Quad F)), frob i x = x ^ p ^ i
  frob12 : ∀ (i : ℕ) (x : Quad (Cubic (Quad F))), frob i x = x ^ p ^ i
  conj2 : ∀ x : Quad F, Quad.conjugate x = x ^ p
  conj12 : ∀ x : Quad (Cubic (Quad F)), Quad.conjugate x = x ^ p ^ 6
  nr1 : (nonRes : F) = (β : F)
  nr2 : (nonRes : Quad F) = ⟨(ξ0 : F), (ξ1 : F)⟩
  nr6 : (nonRes : Cubic (Quad F)) = Cubic.v
  u64 : ∀ n < 2 ^ 64, fromU64 n = (n : F)
  sqrt_ok : ∀ x : Quad F, total = true ∨ x ≠ 0 → ∃ r, sqrt x = .ok r ∧ (∀ y, r = some y → y * y = x) ∧ (r = none → ¬ IsSquare x)
  sqrt_zero : total = false → ∀ r, sqrt 0 ≠ .ok r

variable {K : Type} [_root_.Field K] [DecidableEq K] (f : Quad (Cubic (Quad F)) →+* K)

/-- The embedding of each field. -/
def emb : (l : Lv) → Ty F l → K
  | .one => ((f.comp Quad.ofBase).comp Cubic.ofBase).comp Quad.ofBase
  | .two => (f.comp Quad.ofBase).comp Cubic.ofBase
  | .six => f.comp Quad.ofBase
  | .twelve => f

theorem emb2 (x : Quad F) : emb f .two x = emb f .one x.c0 + emb f .one x.c1 * emb f .two Quad.U := by
  change ((f.comp Quad.ofBase).comp Cubic.ofBase) x = ((f.comp Quad.ofBase).comp Cubic.ofBase) (Quad.ofBase x.c0) +
    ((f.comp Quad.ofBase).comp Cubic.ofBase) (Quad.ofBase x.c1) * ((f.comp Quad.ofBase).comp Cubic.ofBase) Quad.U
  rw [← map_mul, ← map_add, ← Quad.eq_ofBase]

theorem emb6 (x : Cubic (Quad F)) : emb f .six x = emb f .two x.c0 + emb f .two x.c1 * emb f .six Cubic.v +
    emb f .two x.c2 * emb f .six Cubic.v ^ 2 := by
  change (f.comp Quad.ofBase) x = (f.comp Quad.ofBase) (Cubic.ofBase x.c0) + (f.comp Quad.ofBase) (Cubic.ofBase x.c1) *
    (f.comp Quad.ofBase) Cubic.v + (f.comp Quad.ofBase) (Cubic.ofBase x.c2) * (f.comp Quad.ofBase) Cubic.v ^ 2
  rw [pow_two, ← map_mul, ← map_mul, ← map_mul, ← map_add, ← map_add, ← Cubic.eq_ofBase]

theorem emb12 (x : Quad (Cubic (Quad F))) : emb f .twelve x = emb f .six x.c0 + emb f .six x.c1 * emb f .twelve Quad.U := by
  change f x = f (Quad.ofBase x.c0) + f (Quad.ofBase x.c1) * f Quad.U
  rw [← map_mul, ← map_add, ← Quad.eq_ofBase]

variable {p : ℕ} {β : ℤ} {ξ0 ξ1 : ℕ} {fromU64 : ℕ → F} {sqrt : Quad F → SqrtResult (Quad F)} {total : Bool}

theorem lhom (L : Laws F p β ξ0 ξ1 fromU64 sqrt total) (hf : Function.Injective f) : ∀ l, LHom p (lops l) (emb f l)
  | .one => LHom.of (((f.comp Quad.ofBase).comp Cubic.ofBase).comp Quad.ofBase)
      (((hf.comp Quad.ofBase_injective).comp Cubic.ofBase_injective).comp Quad.ofBase_injective) L.inv1 L.frob1
  | .two => LHom.of ((f.comp Quad.ofBase).comp Cubic.ofBase)
      ((hf.comp Quad.ofBase_injective).comp Cubic.ofBase_injective) L.inv2 L.frob2
  | .six => LHom.of (f.comp Quad.ofBase) (hf.comp Quad.ofBase_injective) L.inv6 L.frob6
  | .twelve => LHom.of f hf L.inv12 L.frob12

/-- A field has at most `q` elements with `x^q = x`. -/
theorem ncard_le {q : ℕ} (hq : 1 < q) : {x : K | x ^ q = x}.Finite ∧ {x : K | x ^ q = x}.ncard ≤ q := by
  have h0 : (Polynomial.X ^ q - Polynomial.X : Polynomial K) ≠ 0 := FiniteField.X_pow_card_sub_X_ne_zero K hq
  have hs : {x : K | x ^ q = x} = ((Polynomial.X ^ q - Polynomial.X : Polynomial K).roots.toFinset : Set K) := by
    ext x
    simp [h0, sub_eq_zero]
  rw [hs, Set.ncard_coe_finset]
  refine ⟨Finset.finite_toSet _, (Multiset.toFinset_card_le _).trans ((Polynomial.card_roots' _).trans ?_)⟩
  rw [FiniteField.X_pow_card_sub_X_natDegree_eq K hq]

/-- In a field with `q` elements every element is its `q`-th power. -/
theorem pow_card_of {T : Type} [CommRing T] (h01 : (0 : T) ≠ 1) (hinv : ∀ x : T, x ≠ 0 → ∃ y, x * y = 1) {q : ℕ} (hq : q ≠ 0)
    (hc : Nat.card T = q) (x : T) : x ^ q = x := by
  have hT : IsField T := ⟨⟨0, 1, h01⟩, mul_comm, fun {a} ha => hinv a ha⟩
  let _ : _root_.Field T := hT.toField
  have : Finite T := Nat.finite_of_card_ne_zero (hc.trans_ne hq)
  let _ : Fintype T := Fintype.ofFinite T
  rw [← hc, Nat.card_eq_fintype_card]
  exact FiniteField.pow_card x

theorem card_ty (L : Laws F p β ξ0 ξ1 fromU64 sqrt total) (l : Lv) : Nat.card (Ty F l) = p ^ l.deg := by
  cases l
  · exact L.card.trans (pow_one p).symm
  · exact (card_quad F).trans (by rw [L.card]; rfl)
  · exact (card_cubic _).trans (by rw [card_quad, L.card, ← pow_mul]; rfl)
  · exact (card_quad _).trans (by rw [card_cubic, card_quad, L.card, ← pow_mul, ← pow_mul]; rfl)

/-- The image of each field of the tower is the subfield of its degree. -/
theorem range_emb (L : Laws F p β ξ0 ξ1 fromU64 sqrt total) (hf : Function.Injective f) (l : Lv) :
    Set.range (emb f l) = {x : K | x ^ p ^ l.deg = x} := by
  have hq : 1 < p ^ l.deg := Nat.one_lt_pow (by cases l <;> decide) L.prime.one_lt
  have hfin := ncard_le (K := K) hq
  have hc := card_ty L l
  refine Set.eq_of_subset_of_ncard_le ?_ ?_ hfin.1
  · rintro _ ⟨x, rfl⟩
    change emb f l x ^ p ^ l.deg = emb f l x
    have h1 : (0 : F) ≠ 1 := L.nontriv
    have h2 : (0 : Quad F) ≠ 1 := fun h => h1 (congrArg Quad.c0 h)
    have h6 : (0 : Cubic (Quad F)) ≠ 1 := fun h => h2 (congrArg Cubic.c0 h)
    have h12 : (0 : Quad (Cubic (Quad F))) ≠ 1 := fun h => h6 (congrArg Quad.c0 h)
    cases l
    · exact (map_pow _ _ _).symm.trans (congrArg _ (pow_card_of h1 L.inv1 (by omega) hc x))
    · exact (map_pow _ _ _).symm.trans (congrArg _ (pow_card_of h2 L.inv2 (by omega) hc x))
    · exact (map_pow _ _ _).symm.trans (congrArg _ (pow_card_of h6 L.inv6 (by omega) hc x))
    · exact (map_pow _ _ _).symm.trans (congrArg _ (pow_card_of h12 L.inv12 (by omega) hc x))
  · rw [← Set.image_univ, Set.ncard_image_of_injective _ (lhom f L hf l).inj, Set.ncard_univ, hc]
    exact hfin.2

instance (l : Lv) : Nonempty (Ty F l) := by
  cases l
  · exact ⟨(0 : F)⟩
  · exact ⟨(0 : Quad F)⟩
  · exact ⟨(0 : Cubic (Quad F))⟩
  · exact ⟨(0 : Quad (Cubic (Quad F)))⟩

/-- The result of `sqrt`, zero where there is none for lack of termination. -/
def sqrtResult (r : SqrtResult (Quad F)) : Option (Quad F) :=
  match r with
  | .ok r => r
  | _ => some 0

/-- The frame that the embedding gives. -/
noncomputable def frame (sqrt : Quad F → SqrtResult (Quad F)) : Frame K where
  u := emb f .two Quad.U
  v := emb f .six Cubic.v
  w := emb f .twelve Quad.U
  co2 k x := emb f .one (quadCo (Function.invFun (emb f .two) x) k)
  co6 k x := emb f .two (cubicCo (Function.invFun (emb f .six) x) k)
  co12 k x := emb f .six (quadCo (Function.invFun (emb f .twelve) x) k)
  sq x := (sqrtResult (sqrt (Function.invFun (emb f .two) x))).map (emb f .two)

theorem sqrtResult_spec (L : Laws F p β ξ0 ξ1 fromU64 sqrt total) (x : Quad F) :
    (∀ y, sqrtResult (sqrt x) = some y → y * y = x) ∧ (sqrtResult (sqrt x) = none → ¬ IsSquare x) := by
  by_cases h : total = true ∨ x ≠ 0
  · obtain ⟨r, h1, h2, h3⟩ := L.sqrt_ok x h
    rw [h1]
    exact ⟨h2, h3⟩
  · rw [not_or, Decidable.not_not, Bool.not_eq_true] at h
    obtain ⟨ht, rfl⟩ := h
    have h0 := L.sqrt_zero ht
    cases hs : sqrt 0 with
    | ok r => exact absurd hs (h0 r)
    | panic => exact ⟨fun y hy => by cases hy; exact mul_zero 0, fun hn => by cases hn⟩
    | diverge => exact ⟨fun y hy => by cases hy; exact mul_zero 0, fun hn => by cases hn⟩

theorem frame_ok (L : Laws F p β ξ0 ξ1 fromU64 sqrt total) (hf : Function.Injective f) (hs : Function.Surjective f) :
    (frame f sqrt).Ok p β ξ0 ξ1 := by
  have mem : ∀ l (x : Ty F l), emb f l x ^ p ^ l.deg = emb f l x := fun l x => by
    have h : emb f l x ∈ Set.range (emb f l) := ⟨x, rfl⟩
    rw [range_emb f L hf l] at h
    exact h
  have inv : ∀ l (x : K), x ^ p ^ l.deg = x → emb f l (Function.invFun (emb f l) x) = x := fun l x hx => by
    have h : x ∈ Set.range (emb f l) := by rw [range_emb f L hf l]; exact hx
    exact Function.invFun_eq h
  have inv12 : ∀ x : K, emb f .twelve (Function.invFun (emb f .twelve) x) = x := fun x => Function.invFun_eq (hs x)
  refine ⟨?_, ?_, ?_, ?_, ?_, ?_, ?_, ?_, ?_, ?_, ?_⟩
  · change (((f.comp Quad.ofBase).comp Cubic.ofBase) Quad.U) ^ 2 = _
    rw [pow_two, ← map_mul, Quad.U_sq, L.nr1]
    exact map_intCast (((f.comp Quad.ofBase).comp Cubic.ofBase).comp Quad.ofBase) β
  · have e : emb f .six Cubic.v ^ 3 = emb f .two (nonRes : Quad F) := by
      change (f.comp Quad.ofBase) Cubic.v ^ 3 = (f.comp Quad.ofBase) (Cubic.ofBase nonRes)
      rw [← Cubic.v_cube, map_mul, map_mul]; ring
    refine e.trans ?_
    rw [L.nr2, emb2]
    congr 1
    · exact map_natCast (((f.comp Quad.ofBase).comp Cubic.ofBase).comp Quad.ofBase) ξ0
    · congr 1
      exact map_natCast (((f.comp Quad.ofBase).comp Cubic.ofBase).comp Quad.ofBase) ξ1
  · change f Quad.U ^ 2 = f (Quad.ofBase Cubic.v)
    rw [pow_two, ← map_mul, Quad.U_sq, L.nr6]
  · intro x hx
    exact (inv .two x hx).symm.trans (emb2 f _)
  · intro k x _
    exact (congrArg _ (pow_one p).symm).trans (mem .one _)
  · intro x hx
    exact (inv .six x hx).symm.trans (emb6 f _)
  · intro k x _
    exact mem .two _
  · intro x
    exact (inv12 x).symm.trans (emb12 f _)
  · intro k x
    exact mem .six _
  · intro x y hx hy
    change (sqrtResult (sqrt (Function.invFun (emb f .two) x))).map (emb f .two) = some y at hy
    obtain ⟨z, hz, rfl⟩ := Option.map_eq_some_iff.mp hy
    refine ⟨?_, mem .two z⟩
    have e := congrArg (emb f .two) ((sqrtResult_spec L _).1 z hz)
    rw [inv .two x hx] at e
    rw [← e, pow_two]
    exact ((lhom f L hf .two).mul z z).symm
  · intro x hx
    change (sqrtResult (sqrt (Function.invFun (emb f .two) x))).map (emb f .two) = none ↔ _
    rw [Option.map_eq_none_iff]
    constructor
    · rintro hn ⟨y, hy, e⟩
      refine (sqrtResult_spec L _).2 hn ⟨Function.invFun (emb f .two) y, (lhom f L hf .two).inj ?_⟩
      rw [inv .two x hx, ← e, pow_two]
      refine Eq.trans ?_ ((lhom f L hf .two).mul _ _).symm
      rw [inv .two y hy]
    · intro hno
      cases hc : sqrtResult (sqrt (Function.invFun (emb f .two) x)) with
      | none => rfl
      | some z =>
        have e := congrArg (emb f .two) ((sqrtResult_spec L _).1 z hc)
        rw [inv .two x hx] at e
        refine absurd ⟨emb f .two z, mem .two z, ?_⟩ hno
        rw [← e, pow_two]
        exact ((lhom f L hf .two).mul z z).symm

/-- The registers of the tower and the registers in `K` hold the same elements. -/
structure Same (φ : (l : Lv) → Ty F l → K) (s : TSt F) (t : ASt K) : Prop where
  reg : ∀ l i, φ l (s.reg l i) = t.reg l i
  fl : s.fl = t.fl
  out : s.out = t.out

theorem Same.write {φ : (l : Lv) → Ty F l → K} {s : TSt F} {t : ASt K} (h : Same φ s t) (l : Lv) (d : ℕ) {x : Ty F l} {y : K}
    (hxy : φ l x = y) : Same φ (s.write l d x) (t.write l d y) where
  reg l' i := by
    subst hxy
    cases l <;> cases l' <;> by_cases hi : i = d <;>
      simp [TSt.write, TSt.reg, ASt.write, Program.set, hi, ← h.reg]
  fl := by cases l <;> exact h.fl
  out := by cases l <;> exact h.out

theorem TSt.write_fl (s : TSt F) (l : Lv) (d : ℕ) (x : Ty F l) : (s.write l d x).fl = s.fl := by cases l <;> rfl

/-- The calls whose arguments are in the range of their types: `u64` constants and limbs. -/
def TOp.Ok : TOp → Prop
  | .const _ n => n < 2 ^ 64
  | .pow _ _ _ e => ∀ x ∈ e, x < 2 ^ 64
  | _ => True

theorem step_same (L : Laws F p β ξ0 ξ1 fromU64 sqrt total) (hf : Function.Injective f) {s : TSt F} {t : ASt K} (h : Same (emb f) s t) (o : TOp)
    (ho : o.Ok) : Same (emb f) (tstep fromU64 s o) (astep p (frame f sqrt) t o) := by
  have H := lhom f L hf
  have inv : ∀ l (x : Ty F l), Function.invFun (emb f l) (emb f l x) = x := fun l x => Function.leftInverse_invFun (H l).inj x
  have h1 : ∀ i, emb f .one (s.r1 i) = t.reg .one i := h.reg .one
  have h2 : ∀ i, emb f .two (s.r2 i) = t.reg .two i := h.reg .two
  have h6 : ∀ i, emb f .six (s.r6 i) = t.reg .six i := h.reg .six
  have h12 : ∀ i, emb f .twelve (s.r12 i) = t.reg .twelve i := h.reg .twelve
  have m1 : ∀ x y : F, emb f .one (x * y) = emb f .one x * emb f .one y := (H .one).mul
  have m2 : ∀ x y : Quad F, emb f .two (x * y) = emb f .two x * emb f .two y := (H .two).mul
  have m6 : ∀ x y : Cubic (Quad F), emb f .six (x * y) = emb f .six x * emb f .six y := (H .six).mul
  have m12 : ∀ x y : Quad (Cubic (Quad F)), emb f .twelve (x * y) = emb f .twelve x * emb f .twelve y := (H .twelve).mul
  have z2 : emb f .two (0 : Quad F) = 0 := (H .two).zero
  have nr1 : emb f .one (nonRes : F) = (frame f sqrt).u ^ 2 := by
    change emb f .two (Quad.ofBase nonRes) = emb f .two Quad.U ^ 2
    rw [← Quad.U_sq, m2, pow_two]
  have nr2 : emb f .two (nonRes : Quad F) = (frame f sqrt).v ^ 3 := by
    change emb f .six (Cubic.ofBase nonRes) = emb f .six Cubic.v ^ 3
    rw [← Cubic.v_cube, m6, m6]; ring
  have nr6 : emb f .six (nonRes : Cubic (Quad F)) = (frame f sqrt).w ^ 2 := by
    change emb f .twelve (Quad.ofBase nonRes) = emb f .twelve Quad.U ^ 2
    rw [← Quad.U_sq, m12, pow_two]
  have c2 : ∀ x : Quad F, emb f .two (Quad.conjugate x) = emb f .two x ^ p := fun x => by
    rw [L.conj2]; exact map_pow ((f.comp Quad.ofBase).comp Cubic.ofBase) x p
  have c12 : ∀ x : Quad (Cubic (Quad F)), emb f .twelve (Quad.conjugate x) = emb f .twelve x ^ p ^ 6 := fun x => by
    rw [L.conj12]; exact map_pow f x _
  cases o with
  | const d n =>
    refine h.write .one d ?_
    rw [L.u64 n ho]
    exact map_natCast (((f.comp Quad.ofBase).comp Cubic.ofBase).comp Quad.ofBase) n
  | zero l d => exact h.write l d (H l).zero
  | one l d => exact h.write l d (H l).one
  | add l d a b => exact h.write l d (by rw [(H l).add, h.reg, h.reg])
  | sub l d a b => exact h.write l d (by rw [(H l).sub, h.reg, h.reg])
  | mul l d a b => exact h.write l d (by rw [(H l).mul, h.reg, h.reg])
  | neg l d a => exact h.write l d (by rw [(H l).neg, h.reg])
  | double l d a => exact h.write l d (by rw [(H l).dbl, h.reg])
  | square l d a => exact h.write l d (by rw [(H l).sqr, h.reg])
  | invert l d g a =>
    have hw : Same (emb f) (s.write l d (((lops l).invert (s.reg l a)).getD (lops l).zero)) (t.write l d (t.reg l a)⁻¹) :=
      h.write l d (by rw [(H l).invert, h.reg])
    refine ⟨fun l' i => ?_, ?_, hw.out⟩
    · refine Eq.trans ?_ (hw.reg l' i)
      cases l' <;> rfl
    · change Program.set (s.write l d _).fl g _ = Program.set t.fl g _
      rw [TSt.write_fl, h.fl, (H l).flag, h.reg]
  | frob l i d a => exact h.write l d (by rw [(H l).frob, h.reg])
  | pow l d a e => exact h.write l d (by rw [(H l).pow _ _ ho, h.reg])
  | sum l d as => exact h.write l d (by rw [(H l).sum, List.map_map]; congr 2; funext i; exact h.reg l i)
  | product l d as => exact h.write l d (by rw [(H l).product, List.map_map]; congr 2; funext i; exact h.reg l i)
  | nr1 d a => exact h.write .one d (by rw [mulNr_eq, m1, nr1, h1])
  | nr2 d a => exact h.write .two d (by rw [mulNr_eq, m2, nr2, h2])
  | nr6 d a => exact h.write .six d (by rw [mulNr_eq, m6, nr6, h6])
  | conj2 d a => exact h.write .two d (by rw [c2, h2])
  | conj12 d a => exact h.write .twelve d (by rw [c12, h12])
  | norm2 d a =>
    refine h.write .one d ?_
    change emb f .two (⟨Quad.norm (s.r2 a), 0⟩ : Quad F) = _
    rw [← Quad.mul_conjugate, m2, c2, h2]
  | norm12 d a =>
    refine h.write .six d ?_
    change emb f .twelve (⟨Quad.norm (s.r12 a), 0⟩ : Quad (Cubic (Quad F))) = _
    rw [← Quad.mul_conjugate, m12, c12, h12]
  | mk2 d a b => exact h.write .two d (by rw [emb2, h1, h1]; rfl)
  | mk6 d a b c => exact h.write .six d (by rw [emb6, h2, h2, h2]; rfl)
  | mk12 d a b => exact h.write .twelve d (by rw [emb12, h6, h6]; rfl)
  | co2 k d a =>
    refine h.write .one d ?_
    change _ = emb f .one (quadCo (Function.invFun (emb f .two) (t.reg .two a)) k)
    rw [← h2, inv]
  | co6 k d a =>
    refine h.write .two d ?_
    change _ = emb f .two (cubicCo (Function.invFun (emb f .six) (t.reg .six a)) k)
    rw [← h6, inv]
  | co12 k d a =>
    refine h.write .six d ?_
    change _ = emb f .six (quadCo (Function.invFun (emb f .twelve) (t.reg .twelve a)) k)
    rw [← h12, inv]
  | by01 d a b c =>
    refine h.write .six d ?_
    rw [Cubic.mulBy01_eq, m6, h6, emb6 f ⟨s.r2 b, s.r2 c, 0⟩, h2, h2, z2, zero_mul, add_zero]
    rfl
  | by1 d a b =>
    refine h.write .six d ?_
    rw [Cubic.mulBy1_eq, m6, h6, emb6 f ⟨0, s.r2 b, 0⟩, h2, z2, zero_mul, add_zero, zero_add]
    rfl
  | by014 d a b c e =>
    refine h.write .twelve d ?_
    rw [Props.C15_mul_by_014]
    change emb f .twelve (s.r12 a * ⟨⟨s.r2 b, s.r2 c, 0⟩, ⟨0, s.r2 e, 0⟩⟩) = _
    rw [m12, h12, emb12 f ⟨⟨s.r2 b, s.r2 c, 0⟩, ⟨0, s.r2 e, 0⟩⟩, emb6 f ⟨s.r2 b, s.r2 c, 0⟩, emb6 f ⟨0, s.r2 e, 0⟩, h2, h2, h2, z2, zero_mul, add_zero, add_zero, zero_add]
    rfl
  | by034 d a b c e =>
    refine h.write .twelve d ?_
    rw [Props.C15_mul_by_034]
    change emb f .twelve (s.r12 a * ⟨⟨s.r2 b, 0, 0⟩, ⟨s.r2 c, s.r2 e, 0⟩⟩) = _
    rw [m12, h12, emb12 f ⟨⟨s.r2 b, 0, 0⟩, ⟨s.r2 c, s.r2 e, 0⟩⟩, emb6 f ⟨s.r2 b, 0, 0⟩, emb6 f ⟨s.r2 c, s.r2 e, 0⟩, h2, h2, h2, z2, zero_mul, zero_mul, add_zero, add_zero, add_zero]
    rfl

theorem test_same (L : Laws F p β ξ0 ξ1 fromU64 sqrt total) (hf : Function.Injective f) {s : TSt F} {t : ASt K} (h : Same (emb f) s t) (c : TTest) :
    ttest s c = atest t c := by
  cases c with
  | eq l a b =>
    change (lops l).eq _ _ = decide _
    rw [(lhom f L hf l).eq, h.reg, h.reg]
  | flag g => exact congrFun h.fl g

/-- The calls whose arguments are in the range of their types; square roots may always be called. -/
def callOk : TOp ⊕ SqrtCall → Prop
  | .inl o => o.Ok
  | .inr _ => True

theorem xstep_same (L : Laws F p β ξ0 ξ1 fromU64 sqrt total) (hf : Function.Injective f) {s : TSt F} {t : ASt K} (h : Same (emb f) s t)
    (o : TOp ⊕ SqrtCall) (ho : callOk o) : OutRel (Same (emb f)) (some (xstep fromU64 sqrt s o)) (some (axstep p (frame f sqrt) total t o)) := by
  cases o with
  | inl o => exact step_same f L hf h o ho
  | inr c =>
    have H := lhom f L hf
    have h2 : emb f .two (s.r2 c.a) = t.reg .two c.a := h.reg .two c.a
    have h0 : t.reg .two c.a = 0 ↔ s.r2 c.a = 0 := by
      rw [← h2]
      exact ⟨fun e => (H .two).inj (e.trans (H .two).zero.symm), fun e => by rw [e]; exact (H .two).zero⟩
    have hsq : (frame f sqrt).sq (t.reg .two c.a) = (sqrtResult (sqrt (s.r2 c.a))).map (emb f .two) := by
      change (sqrtResult (sqrt (Function.invFun (emb f .two) (t.reg .two c.a)))).map (emb f .two) = _
      rw [← h2, Function.leftInverse_invFun (H .two).inj]
    by_cases hc : total = true ∨ s.r2 c.a ≠ 0
    · obtain ⟨r, e, _⟩ := L.sqrt_ok _ hc
      have hn : ¬ (total = false ∧ t.reg .two c.a = 0) := by
        rw [h0]
        rintro ⟨h3, h4⟩
        rcases hc with hc | hc
        · rw [h3] at hc; cases hc
        · exact hc h4
      have ea : axstep p (frame f sqrt) total t (.inr c) = .ok { t.write .two c.d ((r.map (emb f .two)).getD 0) with
          fl := Program.set t.fl c.f (r.map (emb f .two)).isSome } := by
        rw [axstep, if_neg hn, hsq, e]
        rfl
      have es : xstep fromU64 sqrt s (.inr c) = .ok { s.write .two c.d (r.getD 0) with
          fl := Program.set (s.write .two c.d (r.getD 0)).fl c.f r.isSome } := by
        rw [xstep, e]
      rw [ea, es]
      have hw : Same (emb f) (s.write .two c.d (r.getD 0)) (t.write .two c.d ((r.map (emb f .two)).getD 0)) := by
        refine h.write .two c.d ?_
        cases r with
        | none => exact (H .two).zero
        | some y => rfl
      refine ⟨fun l' i => ?_, ?_, hw.out⟩
      · refine Eq.trans ?_ (hw.reg l' i)
        cases l' <;> rfl
      · change Program.set s.fl c.f _ = Program.set t.fl c.f _
        rw [h.fl, Option.isSome_map]
    · rw [not_or, Decidable.not_not, Bool.not_eq_true] at hc
      rw [axstep, if_pos ⟨hc.1, h0.mpr hc.2⟩, xstep, hc.2]
      have hz := L.sqrt_zero hc.1
      cases hs : sqrt 0 with
      | ok r => exact absurd hs (hz r)
      | panic => exact trivial
      | diverge => exact trivial

theorem run_same (L : Laws F p β ξ0 ξ1 fromU64 sqrt total) (hf : Function.Injective f) (q : Prog (TOp ⊕ SqrtCall) TTest) (hq : q.All callOk)
    (n : ℕ) {s : TSt F} {t : ASt K} (h : Same (emb f) s t) :
    OutRel (Same (emb f)) (trun fromU64 sqrt n q s) (arun p (frame f sqrt) total n q t) :=
  run_rel (R := Same (emb f)) (P := callOk) (emit := temit) (emit' := aemit) (fun _ _ o hst ho => xstep_same f L hf hst o ho)
    (fun _ _ c hst => test_same f L hf hst c) (fun _ _ b hst => ⟨hst.reg, hst.fl, congrArg (b :: ·) hst.out⟩) q hq n h

/-- The registers in `K` that hold the elements of the registers of the tower. -/
def image (φ : (l : Lv) → Ty F l → K) (s : TSt F) : ASt K := ⟨fun l i => φ l (s.reg l i), s.fl, s.out⟩

/-- Programs over a tower compute in every field with `p^12` elements: there are generators `u`, `v`, `w` with the defining
equations and embeddings of the four fields onto the subfields of degrees 1, 2, 6 and 12 such that for every program and
every start the run on the tower and the run with the arithmetic of `K` end, panic, or go on, together, put out the same bits,
and leave the same elements in the registers. The only call that panics is the square root of zero, where `total` is false. -/
def Computes (F : Type) [CommRing F] [DecidableEq F] [ExtField F] [LawfulExt F] [ExtField (Quad F)] [LawfulExt (Quad F)]
    [ExtField (Cubic (Quad F))] [LawfulExt (Cubic (Quad F))] [ExtField (Quad (Cubic (Quad F)))]
    (p : ℕ) (β : ℤ) (ξ0 ξ1 : ℕ) (fromU64 : ℕ → F) (sqrt : Quad F → SqrtResult (Quad F)) (total : Bool) : Prop :=
  ∀ (K : Type) [_root_.Field K] [DecidableEq K], Nat.card K = p ^ 12 →
    ∃ (B : Frame K) (φ : (l : Lv) → Ty F l → K), B.Ok p β ξ0 ξ1 ∧
      (∀ l, Function.Injective (φ l) ∧ Set.range (φ l) = {x : K | x ^ p ^ l.deg = x}) ∧
      ∀ (q : Prog (TOp ⊕ SqrtCall) TTest), q.All callOk → ∀ (n : ℕ) (s : TSt F),
        arun p B total n q (image φ s) = (trun fromU64 sqrt n q s).map fun
          | .ok s' => .ok (image φ s')
          | .panic => .panic

theorem computes (L : Laws F p β ξ0 ξ1 fromU64 sqrt total)
    (e : ∀ (K : Type) [_root_.Field K] [DecidableEq K], Nat.card K = p ^ 12 → Nonempty (Quad (Cubic (Quad F)) ≃+* K)) :
    Computes F p β ξ0 ξ1 fromU64 sqrt total := by
  intro K _ _ hK
  obtain ⟨g⟩ := e K hK
  have hi : Function.Injective (g : Quad (Cubic (Quad F)) →+* K) := g.injective
  refine ⟨frame (g : Quad (Cubic (Quad F)) →+* K) sqrt, emb (g : Quad (Cubic (Quad F)) →+* K), frame_ok _ L hi g.surjective,
    fun l => ⟨(lhom _ L hi l).inj, range_emb _ L hi l⟩, fun q hq n s => ?_⟩
  have h := run_same (g : Quad (Cubic (Quad F)) →+* K) L hi q hq n
    (s := s) (t := image (emb (g : Quad (Cubic (Quad F)) →+* K)) s) ⟨fun _ _ => rfl, rfl, rfl⟩
  cases ha : trun fromU64 sqrt n q s with
  | none =>
    cases hb : arun p (frame (g : Quad (Cubic (Quad F)) →+* K) sqrt) total n q (image (emb (g : Quad (Cubic (Quad F)) →+* K)) s) with
    | none => rfl
    | some y => rw [ha, hb] at h; exact h.elim
  | some x =>
    cases hb : arun p (frame (g : Quad (Cubic (Quad F)) →+* K) sqrt) total n q (image (emb (g : Quad (Cubic (Quad F)) →+* K)) s) with
    | none => rw [ha, hb] at h; cases x <;> exact h.elim
    | some y =>
      rw [ha, hb] at h
      cases x with
      | panic => cases y with
        | panic => rfl
        | ok t => exact h.elim
      | ok s' => cases y with
        | panic => exact h.elim
        | ok t =>
          have h' : Same (emb (g : Quad (Cubic (Quad F)) →+* K)) s' t := h
          obtain ⟨r, fl, o⟩ := t
          obtain ⟨h1, h2, h3⟩ := h'
          have e1 : (fun l i => emb (g : Quad (Cubic (Quad F)) →+* K) l (s'.reg l i)) = r := by funext l i; exact h1 l i
          change some (Outcome.ok (ASt.mk r fl o)) = some (Outcome.ok (image _ s'))
          rw [image, e1, h2, h3]

end Tower

end Halo2.Ext.TowerProg

namespace Halo2.Props

open Halo2 Halo2.Field Halo2.Prime Halo2.Ext Halo2.Ext.TowerProg Halo2.Program Halo2.Pairing Halo2.Curve

/-- Two finite fields with the same number of elements are isomorphic. -/
theorem iso_of_card {T K : Type} [_root_.Field T] [_root_.Field K] {q : ℕ} (hq : q ≠ 0) (hT : Nat.card T = q) (hK : Nat.card K = q) :
    Nonempty (T ≃+* K) := by
  have : Finite T := Nat.finite_of_card_ne_zero (hT.trans_ne hq)
  have : Finite K := Nat.finite_of_card_ne_zero (hK.trans_ne hq)
  let _ : Fintype T := Fintype.ofFinite T
  let _ : Fintype K := Fintype.ofFinite K
  exact ⟨FiniteField.ringEquivOfCardEq (by rw [← Nat.card_eq_fintype_card, ← Nat.card_eq_fintype_card, hT, hK])⟩

theorem exists_mul {T : Type} [_root_.Field T] (x : T) (hx : x ≠ 0) : ∃ y, x * y = 1 := ⟨x⁻¹, mul_inv_cancel₀ hx⟩

theorem pow_p_pow {p : ℕ} [Fact (OddModulus p)] [Fact p.Prime] (i : ℕ) (x : Fp p) : x ^ p ^ i = x := by
  induction i with
  | zero => rw [pow_zero, pow_one]
  | succ i ih => rw [pow_succ, pow_mul, ih, Fp.pow_p]

theorem laws_bn : Laws Bn256.Fq bnQ (-1) 9 1 Fp.fromU64 (fun x => .ok (Bn256.sqrt2 x)) true where
  prime := Fact.out
  card := card_fp bnQ
  nontriv := zero_ne_one
  inv1 := exists_mul
  inv2 := exists_mul
  inv6 := exists_mul
  inv12 := exists_mul
  frob1 i x := (pow_p_pow i x).symm
  frob2 := Bn256.frob_2
  frob6 := Bn256.frob_6
  frob12 := Bn256.frob_12
  conj2 := Bn256.conj_eq
  conj12 := Bn256.conj_12
  nr1 := by
    change (0 - 1 : Bn256.Fq) = _
    push_cast; ring
  nr2 := by
    rw [Bn256.nonRes_2]
    ext
    · exact congrArg _ (by decide +kernel)
    · exact congrArg _ (by decide +kernel)
  nr6 := rfl
  u64 n hn := Fp.fromU64_eq n hn
  sqrt_ok x _ := ⟨_, rfl, Bn256.sqrt2_spec x⟩
  sqrt_zero h := by cases h

theorem laws_bls : Laws Bls12381.Fq blsQ (-1) 1 1 Fp.fromU64 (fun x => .ok (Bls12381.sqrt2 x)) true where
  prime := Fact.out
  card := card_fp blsQ
  nontriv := zero_ne_one
  inv1 := exists_mul
  inv2 := exists_mul
  inv6 := exists_mul
  inv12 := exists_mul
  frob1 i x := (pow_p_pow i x).symm
  frob2 := Bls12381.frob_2
  frob6 := Bls12381.frob_6
  frob12 := Bls12381.frob_12
  conj2 := Bls12381.conj_eq
  conj12 := Bls12381.conj_12
  nr1 := by
    change (0 - 1 : Bls12381.Fq) = _
    push_cast; ring
  nr2 := by
    rw [Bls12381.nonRes_2]
    ext
    · exact congrArg _ (by decide +kernel)
    · exact congrArg _ (by decide +kernel)
  nr6 := rfl
  u64 n hn := Fp.fromU64_eq n hn
  sqrt_ok x _ := ⟨_, rfl, Bls12381.sqrt2_spec x⟩
  sqrt_zero h := by cases h

/-- The coordinates of pluto's cubic non-residue, `ξ = ξ0 + ξ1 u` (src/pluto_eris/fp2.rs:51-70). -/
def plutoXi0 : ℕ := 0xcdb6db6db6dc3b6dbda9924971b3a9ace4a7f2a7bcb449573cd928ee056022c3f6072240ebe2483833bf7b35b701d98ddb6da4b5b6db6e8
@[inherit_doc plutoXi0] def plutoXi1 : ℕ := 0x7b6db6db6db756db71cc2492776bcc3489319197d79f5f3457b57ef5366ce1a8c6d1148d5a5491bb523fb0536dcde8eeb6db62d36db6db3

theorem laws_pluto (fuel : ℕ) : Laws Pluto.Fp1 plP (-5) plutoXi0 plutoXi1 Fp.fromU64 (Pluto.sqrt2 (fuel + 2)) false where
  prime := Fact.out
  card := card_fp plP
  nontriv := zero_ne_one
  inv1 := exists_mul
  inv2 := exists_mul
  inv6 := exists_mul
  inv12 := exists_mul
  frob1 i x := (pow_p_pow i x).symm
  frob2 := Pluto.frob_2
  frob6 := Pluto.frob_6
  frob12 := Pluto.frob_12
  conj2 := Pluto.conj_eq
  conj12 := Pluto.conj_12
  nr1 := by
    rw [Pluto.nonRes_base]
    have h : ((Pluto.beta + 5 : ℕ) : Pluto.Fp1) = ((0 : ℕ) : Pluto.Fp1) := by
      rw [Fp.natCast_eq_iff]; decide +kernel
    rw [Nat.cast_add, Nat.cast_zero] at h
    push_cast at h ⊢
    linear_combination h
  nr2 := by
    rw [Pluto.nonRes_2]
    ext
    · change ((Pluto.xi.1 : ℕ) : Pluto.Fp1) = _
      rw [show Pluto.xi.1 = plutoXi0 by decide +kernel]
    · change ((Pluto.xi.2 : ℕ) : Pluto.Fp1) = _
      rw [show Pluto.xi.2 = plutoXi1 by decide +kernel]
  nr6 := rfl
  u64 n hn := Fp.fromU64_eq n hn
  sqrt_ok x hx := Pluto.sqrt2_spec fuel x (hx.resolve_left Bool.false_ne_true)
  sqrt_zero _ r := by rw [Pluto.sqrt2_zero]; intro h; cases h

/-- **C100** Programs over the tower of bn256 (`u² = -1`, `v³ = 9 + u`, `w² = v`) compute in the field with `p^12` elements. -/
theorem C100_bn256 : Computes Bn256.Fq bnQ (-1) 9 1 Fp.fromU64 (fun x => .ok (Bn256.sqrt2 x)) true :=
  computes laws_bn fun _ _ _ hK => iso_of_card (pow_ne_zero 12 laws_bn.prime.ne_zero) (card12 bnQ) hK

/-- **C100** Programs over the tower of bls12381 (`u² = -1`, `v³ = 1 + u`, `w² = v`) compute in the field with `p^12` elements. -/
theorem C100_bls12381 : Computes Bls12381.Fq blsQ (-1) 1 1 Fp.fromU64 (fun x => .ok (Bls12381.sqrt2 x)) true :=
  computes laws_bls fun _ _ _ hK => iso_of_card (pow_ne_zero 12 laws_bls.prime.ne_zero) (card12 blsQ) hK

/-- **C100** Programs over the tower of pluto (`u² = -5`, `v³ = ξ`, `w² = v`) compute in the field with `p^12` elements. The square root
of zero recurses without end; otherwise a recursion of depth two is enough. -/
theorem C100_pluto (fuel : ℕ) : Computes Pluto.Fp1 plP (-5) plutoXi0 plutoXi1 Fp.fromU64 (Pluto.sqrt2 (fuel + 2)) false :=
  computes (laws_pluto fuel) fun _ _ _ hK => iso_of_card (pow_ne_zero 12 (laws_pluto 0).prime.ne_zero) (card12 plP) hK

/-- There is such a field for each of the three primes, and the programs of the example below are allowed. -/
example : Nat.card (@GaloisField bnQ ⟨laws_bn.prime⟩ 12) = bnQ ^ 12 ∧ Nat.card (@GaloisField blsQ ⟨laws_bls.prime⟩ 12) = blsQ ^ 12 ∧
    Nat.card (@GaloisField plP ⟨(laws_pluto 0).prime⟩ 12) = plP ^ 12 :=
  ⟨@GaloisField.card bnQ ⟨laws_bn.prime⟩ 12 (by decide), @GaloisField.card blsQ ⟨laws_bls.prime⟩ 12 (by decide),
    @GaloisField.card plP ⟨(laws_pluto 0).prime⟩ 12 (by decide)⟩

/-- A program that builds `u`, squares it, adds one, and takes the square root of the result if it is zero, else
raises `u` to a power. -/
def towerExample : Prog (TOp ⊕ SqrtCall) TTest :=
  .seq (.op (.inl (.zero .one 0))) (.seq (.op (.inl (.const 1 1))) (.seq (.op (.inl (.mk2 0 0 1))) (.seq (.op (.inl (.square .two 1 0)))
    (.seq (.op (.inl (.one .two 2))) (.seq (.op (.inl (.add .two 1 1 2))) (.seq (.op (.inl (.zero .two 3)))
      (.ite (.eq .two 1 3) (.op (.inr ⟨4, 0, 1⟩)) (.op (.inl (.pow .two 4 0 [3, 1]))))))))))

example : towerExample.All callOk := by
  simp [towerExample, Prog.All, callOk, TOp.Ok]

end Halo2.Props
