import Verif.Curve.Scalar
import Verif.Curve.Inst
import Verif.Ext.ShRing
import Mathlib.GroupTheory.OrderOfElement
import Mathlib.GroupTheory.Perm.Cycle.Type
import Mathlib.GroupTheory.Coset.Card
import Mathlib.SetTheory.Cardinal.Finite

/-!
# Group orders

The number of points is pinned down by exhibiting points: multiples of literal points are evaluated in
the kernel on shadows of the field elements (`Sh`), which gives elements of known order; a curve over `F` has at
most `2 |F| + 1` points and, without rational points of order two, an odd number of them.
-/

set_option linter.unusedSectionVars false

namespace Halo2.Curve

open WeierstrassCurve Halo2.Ext Halo2.Field

/-! ## Groups -/

section Group

variable {A : Type} [AddCommGroup A]

theorem addOrderOf_prod {P : A} {L : List ℕ} (hL : ∀ l ∈ L, l.Prime) (h0 : L.prod • P = 0)
    (h : ∀ l ∈ L, (L.prod / l) • P ≠ 0) : addOrderOf P = L.prod := by
  apply addOrderOf_eq_of_nsmul_and_div_prime_nsmul
  · exact List.prod_pos fun l hl => (hL l hl).pos
  · exact h0
  · intro p hp hd
    rw [Prime.dvd_prod_iff hp.prime] at hd
    obtain ⟨l, hl, hpl⟩ := hd
    rw [(Nat.prime_dvd_prime_iff_eq hp (hL l hl)).mp hpl]
    exact h l hl

/-- Two independent elements of order `l` in a subgroup. -/
theorem sq_dvd_card (S : AddSubgroup A) {l : ℕ} (hl : l.Prime) {R R' : A} (hR : R ∈ S) (hR' : R' ∈ S)
    (h0 : addOrderOf R = l) (h1 : l • R' = 0) (h2 : R' ∉ AddSubgroup.zmultiples R) : l ^ 2 ∣ Nat.card S := by
  let r : S := ⟨R, hR⟩
  let r' : S := ⟨R', hR'⟩
  have e0 : addOrderOf r = l := by
    rw [← h0]
    exact (AddSubgroup.addOrderOf_mk R hR)
  have e1 : Nat.card S = Nat.card (S ⧸ AddSubgroup.zmultiples r) * Nat.card (AddSubgroup.zmultiples r) :=
    AddSubgroup.card_eq_card_quotient_mul_card_addSubgroup _
  have e2 : Nat.card (AddSubgroup.zmultiples r) = l := by rw [Nat.card_zmultiples, e0]
  have e3 : addOrderOf (QuotientAddGroup.mk r' : S ⧸ AddSubgroup.zmultiples r) = l := by
    apply (Nat.dvd_prime hl).mp _ |>.resolve_left
    · intro h
      rw [AddMonoid.addOrderOf_eq_one_iff, QuotientAddGroup.eq_zero_iff] at h
      apply h2
      obtain ⟨k, hk⟩ := h
      exact ⟨k, by simpa [r, r'] using congrArg Subtype.val hk⟩
    · apply addOrderOf_dvd_of_nsmul_eq_zero
      rw [← QuotientAddGroup.mk_nsmul]
      have : l • r' = 0 := Subtype.ext (by simpa [r'] using h1)
      rw [this]
      rfl
  have e4 : l ∣ Nat.card (S ⧸ AddSubgroup.zmultiples r) := by
    rw [← e3]
    exact addOrderOf_dvd_natCard _
  rw [e1, e2, pow_two]
  exact Nat.mul_dvd_mul_right e4 l

variable {phi : A →+ A} (hphi : ∀ p, phi (phi p) + phi p + p = 0)

include hphi in
/-- An element of prime order which is no eigenvector of `phi`. -/
theorem phi_not_mem {l : ℕ} (hl : l.Prime) {R : A} (h0 : l • R = 0) (hR : R ≠ 0)
    (h : ∀ k < l, (k * k + k + 1) % l = 0 → phi R ≠ k • R) : phi R ∉ AddSubgroup.zmultiples R := by
  rintro ⟨k, hk⟩
  have hf : Fact l.Prime := ⟨hl⟩
  have ho : addOrderOf R = l := addOrderOf_eq_prime h0 hR
  have hk' : (k % (l : ℤ)) • R = phi R := by
    rw [← hk, ← ho]
    exact mod_addOrderOf_zsmul R k
  obtain ⟨m, hm⟩ := Int.eq_ofNat_of_zero_le (Int.emod_nonneg k (show (l : ℤ) ≠ 0 by exact_mod_cast hl.ne_zero))
  have hml : m < l := by
    have := Int.emod_lt_of_pos k (by exact_mod_cast hl.pos : (0 : ℤ) < l)
    omega
  rw [hm, natCast_zsmul] at hk'
  refine h m hml ?_ hk'.symm
  have := hphi R
  rw [← hk', map_nsmul, ← hk', smul_smul, ← add_smul] at this
  have h3 : (m * m + m + 1) • R = 0 := by rw [add_smul, one_smul]; exact this
  exact Nat.mod_eq_zero_of_dvd (ho ▸ addOrderOf_dvd_of_nsmul_eq_zero h3)

/-- No eigenvalues modulo a prime `2 (mod 3)`. -/
theorem no_eigenvalue {l : ℕ} (hl : l.Prime) (h3 : l % 3 = 2) (k : ℕ) : (k * k + k + 1) % l ≠ 0 := by
  intro h
  have : Fact l.Prime := ⟨hl⟩
  have hz : (k : ZMod l) * k + k + 1 = 0 := by
    have := (ZMod.natCast_eq_zero_iff (k * k + k + 1) l).mpr (Nat.dvd_of_mod_eq_zero h)
    push_cast at this
    exact this
  have hk0 : (k : ZMod l) ≠ 0 := by
    intro h0
    rw [h0] at hz
    simp at hz
  have hk3 : (k : ZMod l) ^ 3 = 1 := by linear_combination ((k : ZMod l) - 1) * hz
  have hk1 : (k : ZMod l) ≠ 1 := by
    intro h1
    rw [h1] at hz
    have : ((3 : ℕ) : ZMod l) = 0 := by push_cast; linear_combination hz
    rw [ZMod.natCast_eq_zero_iff] at this
    have := (Nat.prime_dvd_prime_iff_eq hl Nat.prime_three).mp this
    omega
  have ho : orderOf (k : ZMod l) = 3 := orderOf_eq_prime hk3 hk1
  have hd : 3 ∣ l - 1 := by
    rw [← ho]
    exact orderOf_dvd_of_pow_eq_one (ZMod.pow_card_sub_one_eq_one hk0)
  have := hl.two_le
  omega

/-- The two eigenvalues modulo a prime `1 (mod 3)`. -/
theorem eigenvalue_cases {l m k : ℕ} (hl : l.Prime) (hm : (m * m + m + 1) % l = 0) (hml : m < l) (hk : k < l)
    (h : (k * k + k + 1) % l = 0) : k = m ∨ k = l - 1 - m := by
  have hd : (l : ℤ) ∣ ((k : ℤ) - m) * (k + m + 1) := by
    have h1 := Int.natCast_dvd_natCast.mpr (Nat.dvd_of_mod_eq_zero h)
    have h2 := Int.natCast_dvd_natCast.mpr (Nat.dvd_of_mod_eq_zero hm)
    have := dvd_sub h1 h2
    push_cast at this
    refine this.trans (dvd_of_eq ?_)
    ring
  rcases (Nat.prime_iff_prime_int.mp hl).dvd_or_dvd hd with h1 | h1
  · left
    have := Int.eq_zero_of_abs_lt_dvd h1 (by rw [abs_lt]; omega)
    omega
  · right
    obtain ⟨c, hc⟩ := h1
    have hc1 : c = 1 := by
      have h3 : 0 < (l : ℤ) * c := by omega
      have h4 : (l : ℤ) * c < l * 2 := by omega
      have hlp : (0 : ℤ) < l := by exact_mod_cast hl.pos
      have h5 : 0 < c := (pos_iff_pos_of_mul_pos h3).mp hlp
      have h6 : c < 2 := lt_of_mul_lt_mul_left h4 hlp.le
      omega
    subst hc1
    omega

/-- The subgroup generated by `P` and `phi P`. -/
def gen (phi : A →+ A) (P : A) : AddSubgroup A := AddSubgroup.closure {P, phi P}

theorem mem_gen (P : A) : P ∈ gen phi P := AddSubgroup.subset_closure (by simp)

theorem phi_mem_gen (P : A) : phi P ∈ gen phi P := AddSubgroup.subset_closure (by simp)

theorem order_dvd_gen {P : A} {e : ℕ} (h : addOrderOf P = e) : e ∣ Nat.card (gen phi P) := by
  rw [← h, ← AddSubgroup.addOrderOf_mk P (mem_gen (phi := phi) P)]
  exact addOrderOf_dvd_natCard _

include hphi in
theorem sq_dvd_gen {P : A} {e l : ℕ} (he : addOrderOf P = e) (he0 : e ≠ 0) (hl : l.Prime) (hd : l ∣ e)
    (h : ∀ k < l, (k * k + k + 1) % l = 0 → phi ((e / l) • P) ≠ k • (e / l) • P) :
    l ^ 2 ∣ Nat.card (gen phi P) := by
  have hf : Fact l.Prime := ⟨hl⟩
  have hpos : 0 < e := Nat.pos_of_ne_zero he0
  have h0 : l • (e / l) • P = 0 := by
    rw [smul_smul, Nat.mul_div_cancel' hd, ← he, addOrderOf_nsmul_eq_zero]
  have h1 : (e / l) • P ≠ 0 := by
    intro h2
    have h3 := addOrderOf_dvd_of_nsmul_eq_zero h2
    rw [he] at h3
    have h4 := Nat.le_of_dvd (Nat.div_pos (Nat.le_of_dvd hpos hd) hl.pos) h3
    have h5 := Nat.div_lt_self hpos hl.one_lt
    omega
  refine sq_dvd_card _ hl (AddSubgroup.nsmul_mem _ (mem_gen P) _) ?_ (addOrderOf_eq_prime h0 h1) ?_
    (phi_not_mem hphi hl h0 h1 h)
  · rw [map_nsmul]
    exact AddSubgroup.nsmul_mem _ (phi_mem_gen P) _
  · rw [← map_nsmul, h0, map_zero]

/-- Homomorphisms that agree on `P` and `phi P`. -/
theorem hom_ext_gen {P : A} {B : Type} [AddCommGroup B] (h : gen phi P = ⊤) {f g : A →+ B} (h1 : f P = g P)
    (h2 : f (phi P) = g (phi P)) : f = g := by
  ext x
  have hx : x ∈ AddSubgroup.closure {P, phi P} := by
    change x ∈ gen phi P
    rw [h]
    trivial
  induction hx using AddSubgroup.closure_induction with
  | mem x hx =>
    rcases hx with rfl | hx
    · exact h1
    · rw [Set.mem_singleton_iff.mp hx]
      exact h2
  | zero => rw [map_zero, map_zero]
  | add x y _ _ hx hy => rw [map_add, map_add, hx, hy]
  | neg x _ hx => rw [map_neg, map_neg, hx]

end Group


/-! ## Bounds on the number of points -/

section Count

variable {F : Type} [Field F] [DecidableEq F] [BaseField F] [LawfulBase F] {C : Params F}

theorem pt_card_le (C : Params F) [Finite F] : Finite (Pt C) ∧ Nat.card (Pt C) ≤ 2 * Nat.card F + 1 := by
  classical
  let s : F → F := fun x => if h : ∃ y, (W C).Nonsingular x y then h.choose else 0
  let f : Pt C → Option (F × Bool) := fun p => match p with
    | .zero => none
    | .some x y _ => some (x, decide (y = s x))
  have hf : Function.Injective f := by
    rintro (_ | ⟨x, y, h⟩) (_ | ⟨x', y', h'⟩) e
    · rfl
    · exact absurd e (by simp [f])
    · exact absurd e (by simp [f])
    · simp only [f, Option.some.injEq, Prod.mk.injEq, decide_eq_decide] at e
      obtain ⟨rfl, e⟩ := e
      have hs : (W C).Nonsingular x (s x) := by
        have he : ∃ y, (W C).Nonsingular x y := ⟨y, h⟩
        simp only [s, dif_pos he]
        exact he.choose_spec
      have key : y = y' := by
        have c1 := (equation_iff C _ _).mp h.1
        have c2 := (equation_iff C _ _).mp h'.1
        have c3 := (equation_iff C _ _).mp hs.1
        by_cases hy : y = s x
        · rw [hy, e.mp hy]
        · have hy' : y' ≠ s x := fun h => hy (e.mpr h)
          have d1 : (y - s x) * (y + s x) = 0 := by linear_combination c1 - c3
          have d2 : (y' - s x) * (y' + s x) = 0 := by linear_combination c2 - c3
          have d3 := (mul_eq_zero.mp d1).resolve_left (sub_ne_zero.mpr hy)
          have d4 := (mul_eq_zero.mp d2).resolve_left (sub_ne_zero.mpr hy')
          linear_combination d3 - d4
      subst key
      rfl
  refine ⟨Finite.of_injective f hf, ?_⟩
  have h1 := Nat.card_le_card_of_injective f hf
  rw [Finite.card_option, Nat.card_prod, Nat.card_eq_fintype_card (α := Bool), Fintype.card_bool] at h1
  omega

theorem pt_card_odd (hC : Good C) [Finite (Pt C)] : ¬ 2 ∣ Nat.card (Pt C) := by
  intro h
  have : Fact (Nat.Prime 2) := ⟨Nat.prime_two⟩
  obtain ⟨p, hp⟩ := exists_prime_addOrderOf_dvd_card' (G := Pt C) 2 h
  have h0 : 2 • p = 0 := by rw [← hp, addOrderOf_nsmul_eq_zero]
  have h1 : p ≠ 0 := by
    rintro rfl
    rw [addOrderOf_zero] at hp
    omega
  rw [two_smul] at h0
  rcases p with _ | ⟨x, y, hn⟩
  · exact h1 rfl
  · have h2 := eq_neg_of_add_eq_zero_left h0
    rw [Affine.Point.neg_some, Affine.Point.some.injEq, negY_eq] at h2
    have h3 : (2 : F) * y = 0 := by linear_combination h2.2
    rcases mul_eq_zero.mp h3 with h3 | h3
    · exact hC.two h3
    · exact y_ne_zero hC hn.1 h3

/-- A divisor `N` of the number of points of a subgroup, larger than two thirds of `|F|`, is the number of points of
the curve. -/
theorem pt_card_eq (hC : Good C) [Finite F] (S : AddSubgroup (Pt C)) {N : ℕ} (hd : N ∣ Nat.card S)
    (hN : 2 * Nat.card F + 1 < 3 * N) : Nat.card (Pt C) = N ∧ S = ⊤ := by
  obtain ⟨hfin, hle⟩ := pt_card_le C
  have hodd := pt_card_odd hC
  have hdS : Nat.card S ∣ Nat.card (Pt C) := AddSubgroup.card_addSubgroup_dvd_card S
  obtain ⟨k, hk⟩ := hd.trans hdS
  have hpos : 0 < Nat.card (Pt C) := Nat.card_pos
  have hk1 : k = 1 := by
    rcases k with _ | _ | _ | k
    · omega
    · rfl
    · exact absurd ⟨N, by rw [hk]; ring⟩ hodd
    · exfalso
      have : 3 * N ≤ N * (k + 3) := by rw [Nat.mul_comm 3 N]; exact Nat.mul_le_mul_left _ (by omega)
      rw [hk] at hle
      have h4 : k + 1 + 1 + 1 = k + 3 := rfl
      rw [h4] at hle
      omega
  rw [hk1, mul_one] at hk
  refine ⟨hk, AddSubgroup.eq_top_of_card_eq S (Nat.dvd_antisymm hdS ?_)⟩
  rw [hk]
  exact hd

end Count

theorem card_fp (p : ℕ) [Fact (OddModulus p)] : Nat.card (Fp p) = p := by
  rw [Nat.card_congr (Fp.equiv p).toEquiv, Nat.card_zmod]

theorem card_quad (F : Type) : Nat.card (Quad F) = Nat.card F ^ 2 := by
  let e : Quad F ≃ F × F := ⟨fun x => (x.c0, x.c1), fun x => ⟨x.1, x.2⟩, fun _ => rfl, fun _ => rfl⟩
  rw [Nat.card_congr e, Nat.card_prod, pow_two]

/-! ## Multiples of points on shadows -/

section Shadow

variable {F R : Type} [Field F] [DecidableEq F] [BaseField F] [LawfulBase F] {C : Params F} (S : Sh R F)

/-- The triple a shadow triple stands for. -/
def shProj (P : Proj R) : Proj F := ⟨S.φ P.x, S.φ P.y, S.φ P.z⟩

/-- Complete addition for `a = 0`; `b3` stands for `3 b`. -/
def addA0 (b3 : R) (P Q : Proj R) : Proj R :=
  let t0 := S.mul P.x Q.x
  let t1 := S.mul P.y Q.y
  let t2 := S.mul b3 (S.mul P.z Q.z)
  let xy := S.add (S.mul P.x Q.y) (S.mul Q.x P.y)
  let xz := S.mul b3 (S.add (S.mul P.x Q.z) (S.mul Q.x P.z))
  let yz := S.add (S.mul P.y Q.z) (S.mul Q.y P.z)
  let m := S.sub t1 t2
  let pl := S.add t1 t2
  let v := S.add t0 (S.add t0 t0)
  ⟨S.sub (S.mul xy m) (S.mul yz xz), S.add (S.mul pl m) (S.mul v xz), S.add (S.mul yz pl) (S.mul xy v)⟩

/-- Complete addition. -/
def addA (a b3 : R) (P Q : Proj R) : Proj R :=
  let t0 := S.mul P.x Q.x
  let t1 := S.mul P.y Q.y
  let t2 := S.mul P.z Q.z
  let xy := S.add (S.mul P.x Q.y) (S.mul Q.x P.y)
  let xz := S.add (S.mul P.x Q.z) (S.mul Q.x P.z)
  let yz := S.add (S.mul P.y Q.z) (S.mul Q.y P.z)
  let k := S.add (S.mul a xz) (S.mul b3 t2)
  let m := S.sub t1 k
  let pl := S.add t1 k
  let at2 := S.mul a t2
  let v := S.add (S.add t0 (S.add t0 t0)) at2
  let w := S.sub (S.add (S.mul a t0) (S.mul b3 xz)) (S.mul a at2)
  ⟨S.sub (S.mul xy m) (S.mul yz w), S.add (S.mul pl m) (S.mul v w), S.add (S.mul yz pl) (S.mul xy v)⟩

/-- What a shadow addition has to satisfy. -/
def IsAdd (C : Params F) (op : Proj R → Proj R → Proj R) : Prop := ∀ P Q : Proj R,
  shProj S (op P Q) = ⟨rcbX C.a C.b (S.φ P.x) (S.φ P.y) (S.φ P.z) (S.φ Q.x) (S.φ Q.y) (S.φ Q.z),
    rcbY C.a C.b (S.φ P.x) (S.φ P.y) (S.φ P.z) (S.φ Q.x) (S.φ Q.y) (S.φ Q.z),
    rcbZ C.a C.b (S.φ P.x) (S.φ P.y) (S.φ P.z) (S.φ Q.x) (S.φ Q.y) (S.φ Q.z)⟩

theorem addA0_isAdd {b b3 : R} (ha : C.a = 0) (hb : C.b = S.φ b) (h3 : S.eq b3 (S.add b (S.add b b)) = true) :
    IsAdd S C (addA0 S b3) := by
  intro P Q
  rw [S.eq_iff] at h3
  simp only [S.φ_add] at h3
  simp only [shProj, addA0, rcbX, rcbY, rcbZ, S.φ_add, S.φ_mul, S.φ_sub, ha, hb, h3]
  generalize S.φ P.x = x1
  generalize S.φ P.y = y1
  generalize S.φ P.z = z1
  generalize S.φ Q.x = x2
  generalize S.φ Q.y = y2
  generalize S.φ Q.z = z2
  refine Proj.ext ?_ ?_ ?_ <;> dsimp only <;> ring

theorem addA_isAdd {a b b3 : R} (ha : C.a = S.φ a) (hb : C.b = S.φ b) (h3 : S.eq b3 (S.add b (S.add b b)) = true) :
    IsAdd S C (addA S a b3) := by
  intro P Q
  rw [S.eq_iff] at h3
  simp only [S.φ_add] at h3
  simp only [shProj, addA, rcbX, rcbY, rcbZ, S.φ_add, S.φ_mul, S.φ_sub, ha, hb, h3]
  generalize S.φ P.x = x1
  generalize S.φ P.y = y1
  generalize S.φ P.z = z1
  generalize S.φ Q.x = x2
  generalize S.φ Q.y = y2
  generalize S.φ Q.z = z2
  refine Proj.ext ?_ ?_ ?_ <;> dsimp only <;> ring

variable {op : Proj R → Proj R → Proj R}

def smulGo (op : Proj R → Proj R → Proj R) : ℕ → ℕ → Proj R → Proj R → Proj R
  | 0, _, _, A => A
  | f + 1, k, P, A => smulGo op f (k / 2) (op P P) (bif k % 2 == 1 then op A P else A)

/-- `k P`. -/
def smul (S : Sh R F) (op : Proj R → Proj R → Proj R) (k : ℕ) (P : Proj R) : Proj R :=
  smulGo op (k.log2 + 1) k P ⟨S.zero, S.one, S.zero⟩

variable {S}

theorem sadd_rep (hC : Good C) (hop : IsAdd S C op) {P Q : Proj R} {p q : Pt C} (hP : PRep C (shProj S P) p)
    (hQ : PRep C (shProj S Q) q) : PRep C (shProj S (op P Q)) (p + q) := by
  rw [hop]
  exact rcb_spec hC hP hQ

theorem smulGo_rep (hC : Good C) (hop : IsAdd S C op) (f : ℕ) : ∀ (k : ℕ) (P A : Proj R) (p a : Pt C), k < 2 ^ f →
    PRep C (shProj S P) p → PRep C (shProj S A) a → PRep C (shProj S (smulGo op f k P A)) (a + k • p) := by
  induction f with
  | zero =>
    intro k P A p a hk hP hA
    have : k = 0 := by simpa using hk
    subst this
    rw [zero_smul, add_zero]
    exact hA
  | succ f ih =>
    intro k P A p a hk hP hA
    rw [smulGo]
    have hk2 : k / 2 < 2 ^ f := by rw [pow_succ] at hk; omega
    have hd := sadd_rep hC hop hP hP
    rcases Nat.mod_two_eq_zero_or_one k with h | h
    · have := ih (k / 2) _ A _ a hk2 hd hA
      rw [h]
      have e : k • p = (k / 2) • (p + p) := by
        rw [← two_nsmul, smul_smul]; congr 1; omega
      rw [e]
      exact this
    · have := ih (k / 2) _ _ _ _ hk2 hd (sadd_rep hC hop hA hP)
      rw [h]
      have e : a + k • p = a + p + (k / 2) • (p + p) := by
        rw [← two_nsmul, smul_smul, add_assoc, ← succ_nsmul']; congr 2; omega
      rw [e]
      exact this

theorem smul_rep (hC : Good C) (hop : IsAdd S C op) (k : ℕ) {P : Proj R} {p : Pt C} (hP : PRep C (shProj S P) p) :
    PRep C (shProj S (smul S op k P)) (k • p) := by
  have h := smulGo_rep hC hop (k.log2 + 1) k P ⟨S.zero, S.one, S.zero⟩ p 0 Nat.lt_log2_self hP ?_
  · rw [zero_add] at h
    exact h
  · refine ⟨S.φ_zero, S.φ_zero, ?_⟩
    simp only [shProj, S.φ_one]
    exact one_ne_zero

/-- Test for the point at infinity. -/
def isInf (S : Sh R F) (P : Proj R) : Bool := S.eq P.z S.zero

theorem isInf_iff {P : Proj R} {p : Pt C} (hP : PRep C (shProj S P) p) : isInf S P = true ↔ p = 0 := by
  rw [isInf, S.eq_iff, S.φ_zero]
  exact hP.z_eq_zero

/-- Test for equality. -/
def ptEq (S : Sh R F) (P Q : Proj R) : Bool := S.eq (S.mul P.x Q.z) (S.mul Q.x P.z) && S.eq (S.mul P.y Q.z) (S.mul Q.y P.z)

theorem ptEq_iff {P Q : Proj R} {p q : Pt C} (hP : PRep C (shProj S P) p) (hQ : PRep C (shProj S Q) q) :
    ptEq S P Q = true ↔ p = q := by
  rw [ptEq, Bool.and_eq_true, S.eq_iff, S.eq_iff, S.φ_mul, S.φ_mul, S.φ_mul, S.φ_mul]
  rcases p with _ | ⟨x, y, h⟩ <;> rcases q with _ | ⟨x', y', h'⟩
  · obtain ⟨a1, a2, a3⟩ := hP
    obtain ⟨b1, b2, b3⟩ := hQ
    simp only [shProj] at a1 a2 a3 b1 b2 b3
    simp [a1, b1]
  · obtain ⟨a1, a2, a3⟩ := hP
    obtain ⟨b1, b2, b3⟩ := hQ
    simp only [shProj] at a1 a2 a3 b1 b2 b3
    simp only [a1, a2, mul_zero, zero_mul, mul_eq_zero, a3, b1, or_self, and_false, false_iff]
    intro h; cases h
  · obtain ⟨a1, a2, a3⟩ := hP
    obtain ⟨b1, b2, b3⟩ := hQ
    simp only [shProj] at a1 a2 a3 b1 b2 b3
    simp only [b1, b2, mul_zero, zero_mul]
    constructor
    · rintro ⟨_, h⟩
      rcases mul_eq_zero.mp h.symm with h | h
      · exact absurd h b3
      · exact absurd h a1
    · intro h; cases h
  · obtain ⟨a1, a2, a3⟩ := hP
    obtain ⟨b1, b2, b3⟩ := hQ
    simp only [shProj] at a1 a2 a3 b1 b2 b3
    rw [a2, a3, b2, b3, Affine.Point.some.injEq]
    have hz := mul_ne_zero a1 b1
    constructor
    · rintro ⟨e1, e2⟩
      refine ⟨mul_right_cancel₀ hz ?_, mul_right_cancel₀ hz ?_⟩
      · linear_combination e1
      · linear_combination e2
    · rintro ⟨rfl, rfl⟩
      constructor <;> ring

/-- The order of a point: `L` lists the primes, with multiplicity. -/
def orderCheck (S : Sh R F) (op : Proj R → Proj R → Proj R) (L : List ℕ) (P : Proj R) : Bool :=
  isInf S (smul S op L.prod P) && L.all fun l => !isInf S (smul S op (L.prod / l) P)

theorem orderCheck_spec (hC : Good C) (hop : IsAdd S C op) {L : List ℕ} (hL : ∀ l ∈ L, l.Prime) {P : Proj R} {p : Pt C}
    (hP : PRep C (shProj S P) p) (h : orderCheck S op L P = true) : addOrderOf p = L.prod := by
  rw [orderCheck, Bool.and_eq_true, List.all_eq_true, isInf_iff (smul_rep hC hop _ hP)] at h
  refine addOrderOf_prod hL h.1 fun l hl h0 => ?_
  have := h.2 l hl
  rw [Bool.not_eq_true', ← Bool.not_eq_true, isInf_iff (smul_rep hC hop _ hP)] at this
  exact this h0

end Shadow

end Halo2.Curve
