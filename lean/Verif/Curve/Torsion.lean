import Verif.Curve.Order
import Verif.Curve.Hom
import Verif.Prime.Cofactors

/-!
# Subgroups of prime order, and homomorphisms evaluated on shadows
-/

set_option linter.unusedSectionVars false

namespace Halo2.Curve

open WeierstrassCurve Halo2.Ext Halo2.Field

section Group

variable {A : Type} [AddCommGroup A]

/-- In a group whose order is not divisible by `r²` the elements killed by `r` are the multiples of any
element of order `r`. -/
theorem torsion_iff [Finite A] {r : ℕ} (hr : r.Prime) (hN : ¬ r ^ 2 ∣ Nat.card A) {g : A} (hg : addOrderOf g = r) (p : A) :
    r • p = 0 ↔ p ∈ AddSubgroup.zmultiples g := by
  constructor
  · intro h
    by_contra hn
    apply hN
    have := sq_dvd_card (⊤ : AddSubgroup A) hr (AddSubgroup.mem_top g) (AddSubgroup.mem_top p) hg h hn
    rwa [AddSubgroup.card_top] at this
  · rintro ⟨k, rfl⟩
    have : r • g = 0 := by rw [← hg, addOrderOf_nsmul_eq_zero]
    change r • k • g = 0
    rw [smul_comm, this, smul_zero]

/-- Homomorphisms that agree on a generator agree on its multiples. -/
theorem hom_eq_of_zmultiples {B : Type} [AddCommGroup B] {f g : A →+ B} {P : A} (h : f P = g P) {p : A}
    (hp : p ∈ AddSubgroup.zmultiples P) : f p = g p := by
  obtain ⟨k, rfl⟩ := hp
  change f (k • P) = g (k • P)
  rw [map_zsmul, map_zsmul, h]

theorem smul_gcd {p : A} {m n : ℕ} (h1 : m • p = 0) (h2 : n • p = 0) : Nat.gcd m n • p = 0 := by
  have h : addOrderOf p ∣ Nat.gcd m n :=
    Nat.dvd_gcd (addOrderOf_dvd_of_nsmul_eq_zero h1) (addOrderOf_dvd_of_nsmul_eq_zero h2)
  exact addOrderOf_dvd_iff_nsmul_eq_zero.mp h

theorem smul_eq_zero_of_dvd {p : A} {m n : ℕ} (h1 : m • p = 0) (h2 : m ∣ n) : n • p = 0 :=
  addOrderOf_dvd_iff_nsmul_eq_zero.mp ((addOrderOf_dvd_of_nsmul_eq_zero h1).trans h2)

/-- Multiples of an element of order `r` with a factor between `0` and `r`. -/
theorem mem_zmultiples_lt {g : A} {r : ℕ} (hr : 0 < r) (hg : addOrderOf g = r) {p : A} (hp : p ∈ AddSubgroup.zmultiples g) :
    ∃ k < r, p = k • g := by
  obtain ⟨k, rfl⟩ := hp
  have h0 : (0 : ℤ) < r := by exact_mod_cast hr
  obtain ⟨m, hm⟩ := Int.eq_ofNat_of_zero_le (Int.emod_nonneg k h0.ne')
  refine ⟨m, ?_, ?_⟩
  · have := Int.emod_lt_of_pos k h0
    omega
  · rw [← natCast_zsmul, ← hm, ← hg, mod_addOrderOf_zsmul]

theorem dvd_of_squares {n : ℕ} : ∀ {D : List ℕ} {c : ℕ}, (∀ l ∈ D, l.Prime) → D.Nodup → (∀ l ∈ D, l ^ 2 ∣ n) →
    c ∣ n → (∀ l ∈ D, Nat.gcd l c = 1) → (D.map (· ^ 2)).prod * c ∣ n
  | [], c, _, _, _, hc, _ => by simpa using hc
  | l :: D, c, hp, hd, hs, hc, hg => by
    have ih := dvd_of_squares (D := D) (fun m hm => hp m (List.mem_cons_of_mem _ hm)) (List.nodup_cons.mp hd).2
      (fun m hm => hs m (List.mem_cons_of_mem _ hm)) hc (fun m hm => hg m (List.mem_cons_of_mem _ hm))
    rw [List.map_cons, List.prod_cons, mul_assoc]
    refine Nat.Coprime.mul_dvd_of_dvd_of_dvd ?_ (hs l List.mem_cons_self) ih
    apply Nat.Coprime.pow_left
    apply Nat.Coprime.mul_right
    · apply Nat.Coprime.symm
      apply Nat.coprime_list_prod_left_iff.mpr
      intro m hm
      obtain ⟨k, hk, rfl⟩ := List.mem_map.mp hm
      apply Nat.Coprime.pow_left
      rw [Nat.coprime_primes (hp k (List.mem_cons_of_mem _ hk)) (hp l List.mem_cons_self)]
      rintro rfl
      exact (List.nodup_cons.mp hd).1 hk
    · exact hg l List.mem_cons_self

end Group

section Pts

variable {F R : Type} [Field F] [DecidableEq F] [BaseField F] [LawfulBase F] {C : Params F} {S : Sh R F}

/-- `(x, y)` is on the curve. -/
def shOn (S : Sh R F) (a b x y : R) : Bool :=
  S.eq (S.mul y y) (S.add (S.add (S.mul (S.mul x x) x) (S.mul a x)) b)

theorem shOn_spec (hC : Good C) {a b x y : R} (ha : C.a = S.φ a) (hb : C.b = S.φ b) (h : shOn S a b x y = true) :
    (W C).Nonsingular (S.φ x) (S.φ y) := by
  apply nonsingular_of hC
  rw [equation_iff, ha, hb]
  rw [shOn, S.eq_iff] at h
  simp only [S.φ_mul, S.φ_add] at h
  exact h

theorem shPt_rep {x y : R} {x' y' : F} (hx : x' = S.φ x) (hy : y' = S.φ y) (h : (W C).Nonsingular x' y') :
    PRep C (shProj S ⟨x, y, S.one⟩) (.some x' y' h) := by
  refine ⟨?_, ?_, ?_⟩
  · change S.φ S.one ≠ 0
    rw [S.φ_one]
    exact one_ne_zero
  · change S.φ x = x' * S.φ S.one
    rw [S.φ_one, mul_one, hx]
  · change S.φ y = y' * S.φ S.one
    rw [S.φ_one, mul_one, hy]

/-- A curve whose generator has a prime order that exceeds two thirds of `|F|`. -/
theorem prime_order (hC : Good C) [Finite F] {r : ℕ} {g : Pt C} (hg : addOrderOf g = r)
    (hN : 2 * Nat.card F + 1 < 3 * r) : Nat.card (Pt C) = r ∧ AddSubgroup.zmultiples g = ⊤ :=
  pt_card_eq hC _ (by rw [Nat.card_zmultiples, hg]) hN

/-- The negative of a point. -/
def shNeg (S : Sh R F) (P : Proj R) : Proj R := ⟨P.x, S.sub S.zero P.y, P.z⟩

theorem shNeg_rep {P : Proj R} {p : Pt C} (hP : PRep C (shProj S P) p) : PRep C (shProj S (shNeg S P)) (-p) := by
  have := hP.neg
  have e : shProj S (shNeg S P) = Proj.neg (shProj S P) := by
    simp only [shProj, shNeg, Proj.neg, S.φ_sub, S.φ_zero, zero_sub]
  rw [e]
  exact this

/-- The endomorphism. -/
def shEndo (S : Sh R F) (z : R) (P : Proj R) : Proj R := ⟨S.mul P.x z, P.y, P.z⟩

theorem shEndo_rep (hC : Good C) (ha : C.a = 0) {z : R} {zeta : F} (hz : zeta = S.φ z) (hz3 : zeta * zeta * zeta = 1) {P : Proj R}
    {p : Pt C} (hP : PRep C (shProj S P) p) : PRep C (shProj S (shEndo S z P)) (endoHom hC ha zeta hz3 p) := by
  have := hP.endo hC ha hz3
  have e : shProj S (shEndo S z P) = Proj.endo zeta (shProj S P) := by
    simp only [shProj, shEndo, Proj.endo, S.φ_mul, hz]
  rw [e]
  exact this

/-- A prime at which the point `P` of order `e` and its image under the endomorphism are independent. `m` is an
eigenvalue of the endomorphism modulo `l`, if there is one. -/
def indepCheck (S : Sh R F) (op : Proj R → Proj R → Proj R) (z : R) (P : Proj R) (e l m : ℕ) : Bool :=
  decide (e % l = 0) && (decide (l % 3 = 2) || (decide ((m * m + m + 1) % l = 0) && decide (m < l) &&
    (!ptEq S (shEndo S z (smul S op (e / l) P)) (smul S op m (smul S op (e / l) P)) &&
     !ptEq S (shEndo S z (smul S op (e / l) P)) (smul S op (l - 1 - m) (smul S op (e / l) P)))))

theorem indepCheck_spec (hC : Good C) {op : Proj R → Proj R → Proj R} (hop : IsAdd S C op) (ha : C.a = 0) {z : R} {zeta : F}
    (hz : zeta = S.φ z) (hz2 : zeta * zeta + zeta + 1 = 0) (hz3 : zeta * zeta * zeta = 1) {P : Proj R} {p : Pt C}
    (hP : PRep C (shProj S P) p) {e l m : ℕ} (hl : l.Prime) (he0 : e ≠ 0) (he : addOrderOf p = e)
    (h : indepCheck S op z P e l m = true) : l ^ 2 ∣ Nat.card (gen (endoHom hC ha zeta hz3) p) := by
  rw [indepCheck, Bool.and_eq_true, decide_eq_true_eq, Bool.or_eq_true, decide_eq_true_eq] at h
  obtain ⟨h1, h2⟩ := h
  refine sq_dvd_gen (endo_relation hC ha hz2 hz3) he he0 hl (Nat.dvd_of_mod_eq_zero h1) fun k hk hkk => ?_
  rcases h2 with h2 | h2
  · exact absurd hkk (no_eigenvalue hl h2 k)
  · rw [Bool.and_eq_true, Bool.and_eq_true, Bool.and_eq_true, decide_eq_true_eq, decide_eq_true_eq, Bool.not_eq_true',
      Bool.not_eq_true', ← Bool.not_eq_true, ← Bool.not_eq_true] at h2
    obtain ⟨⟨h3, h4⟩, h5, h6⟩ := h2
    have hR := smul_rep hC hop (e / l) hP
    have hE := shEndo_rep hC ha hz hz3 hR
    rw [ptEq_iff hE (smul_rep hC hop _ hR)] at h5 h6
    rcases eigenvalue_cases hl h3 h4 hk hkk with rfl | rfl
    · exact h5
    · exact h6

end Pts

section Maps

variable {F K : Type} [Field F] [DecidableEq F] [BaseField F] [LawfulBase F] [Field K] [DecidableEq K] [BaseField K]
  [LawfulBase K] {C : Params F} {C' : Params K} {σ : F →+* K} {u v : K}

/-- Scaling maps on projective coordinates. -/
theorem Scaling.rep (s : Scaling σ u v C.a C.b C'.a C'.b) {P : Proj F} {p : Pt C} (hP : PRep C P p) :
    PRep C' ⟨σ P.x * u, σ P.y * v, σ P.z⟩ (s.hom p) := by
  rcases p with _ | ⟨x, y, h⟩
  · obtain ⟨h1, h2, h3⟩ := hP
    refine ⟨?_, ?_, ?_⟩
    · rw [h1, map_zero]
    · rw [h2, map_zero, zero_mul]
    · exact mul_ne_zero ((map_ne_zero σ).mpr h3) s.v0
  · obtain ⟨h1, h2, h3⟩ := hP
    refine ⟨(map_ne_zero σ).mpr h1, ?_, ?_⟩
    · rw [h2, map_mul]; ring
    · rw [h3, map_mul]; ring

variable {R R' : Type} {S : Sh R F} {S' : Sh R' K}

/-- A scaling map on shadows. -/
def shScale (S' : Sh R' K) (cj : R → R') (u v : R') (P : Proj R) : Proj R' := ⟨S'.mul (cj P.x) u, S'.mul (cj P.y) v, cj P.z⟩

theorem shScale_rep (s : Scaling σ u v C.a C.b C'.a C'.b) {cj : R → R'} (hcj : ∀ x, S'.φ (cj x) = σ (S.φ x)) {u' v' : R'}
    (hu : u = S'.φ u') (hv : v = S'.φ v') {P : Proj R} {p : Pt C} (hP : PRep C (shProj S P) p) :
    PRep C' (shProj S' (shScale S' cj u' v' P)) (s.hom p) := by
  have e : shProj S' (shScale S' cj u' v' P) =
      ⟨σ (shProj S P).x * u, σ (shProj S P).y * v, σ (shProj S P).z⟩ := by
    simp only [shProj, shScale, S'.φ_mul, hcj, hu, hv]
  rw [e]
  exact s.rep hP

end Maps

end Halo2.Curve
