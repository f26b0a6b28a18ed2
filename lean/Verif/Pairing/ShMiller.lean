import Verif.Ext.ShTower
import Verif.Pairing.Sparse
import Verif.Curve.OrderInst

/-!
# The Miller loop on shadows

The loop on literals, so that the kernel can evaluate it.
-/

set_option linter.unusedSectionVars false

open Halo2.Curve Halo2.Ext

namespace Halo2.Pairing

section
variable {R F : Type} [Field F] [DecidableEq F] [ExtField F] (S : Sh R F)

/-- The coefficients on shadows. -/
def shCoeffs (c : Coeffs R) : Coeffs F := ⟨S.φ c.a, S.φ c.b, S.φ c.c⟩

/-- An affine point on shadows. -/
def shAff (q : Aff R) : Aff F := ⟨S.φ q.x, S.φ q.y⟩

def sh2 (x : R) : R := S.add x x
def sh3 (x : R) : R := S.add (S.add x x) x

theorem sh2_eq (x : R) : S.φ (sh2 S x) = 2 * S.φ x := by rw [sh2, S.φ_add]; ring
theorem sh3_eq (x : R) : S.φ (sh3 S x) = 3 * S.φ x := by rw [sh3, S.φ_add, S.φ_add]; ring

/-- The doubling step on shadows. -/
def shDbl (r : Proj R) : Coeffs R × Proj R :=
  let xx := S.mul r.x r.x
  let yy := S.mul r.y r.y
  let zz := S.mul r.z r.z
  let yz := S.mul r.y r.z
  let xyy := S.mul r.x yy
  let x4 := sh3 S (sh3 S (S.mul xx xx))
  (⟨sh2 S (sh2 S (S.mul yz zz)), S.sub S.zero (sh2 S (sh3 S (S.mul xx zz))),
      S.sub (sh2 S (sh3 S (S.mul xx r.x))) (sh2 S (sh2 S yy))⟩,
    ⟨S.sub x4 (sh2 S (sh2 S (sh2 S xyy))),
      S.sub (S.mul (S.sub (sh3 S (sh2 S (sh2 S xyy))) x4) (sh3 S xx)) (sh2 S (sh2 S (sh2 S (S.mul yy yy)))),
      sh2 S yz⟩)

theorem shDbl_eq (hs : ∀ x : F, ExtField.sqr x = x * x) (r : Proj R) :
    dblStep (shProj S r) = (shCoeffs S (shDbl S r).1, shProj S (shDbl S r).2) := by
  rw [dblStep_eq hs]
  simp only [shProj, shCoeffs, shDbl, S.φ_mul, S.φ_sub, S.φ_zero, sh2_eq, sh3_eq]
  refine Prod.ext ?_ ?_
  · dsimp only
    congr 1 <;> ring
  · dsimp only
    congr 1 <;> ring

/-- The addition step on shadows. -/
def shAdd (r : Proj R) (q : Aff R) : Coeffs R × Proj R :=
  let zz := S.mul r.z r.z
  let h := S.sub (S.mul zz q.x) r.x
  let d := S.sub (S.mul q.y (S.mul zz r.z)) r.y
  let hh := S.mul h h
  let hhh := S.mul hh h
  let v := S.mul hh r.x
  let zh := S.mul r.z h
  let dd := S.mul d d
  (⟨sh2 S (sh2 S zh), S.sub S.zero (sh2 S (sh2 S d)),
      sh2 S (sh2 S (S.sub (S.mul d q.x) (S.mul q.y zh)))⟩,
    ⟨sh2 S (sh2 S (S.sub (S.sub dd hhh) (sh2 S v))),
      sh2 S (sh2 S (sh2 S (S.sub (S.mul (S.add (S.sub (sh3 S v) dd) hhh) d) (S.mul r.y hhh)))),
      sh2 S zh⟩)

theorem shAdd_eq (hs : ∀ x : F, ExtField.sqr x = x * x) (r : Proj R) (q : Aff R) :
    addStep (shProj S r) (shAff S q) = (shCoeffs S (shAdd S r q).1, shProj S (shAdd S r q).2) := by
  rw [addStep_eq hs]
  simp only [shProj, shCoeffs, shAff, shAdd, S.φ_mul, S.φ_sub, S.φ_add, S.φ_zero, sh2_eq, sh3_eq]
  refine Prod.ext ?_ ?_
  · dsimp only
    congr 1 <;> ring
  · dsimp only
    congr 1 <;> ring

end

section
variable {L F K R R' : Type} [Field F] [DecidableEq F] [ExtField F] [Field K] [CommRing L]
  [BaseField L] [BaseField F] (S : Sh R F) (S' : Sh R' K)
  (shLine : Coeffs R → R') (line : Coeffs F → Aff L → K)

/-- A state on shadows. -/
def shState (s : R' × Proj R) : K × Proj F := (S'.φ s.1, shProj S s.2)

def shDblOne (s : R' × Proj R) : R' × Proj R :=
  (S'.mul s.1 (shLine (shDbl S s.2).1), (shDbl S s.2).2)

def shAddOne (q : Aff R) (s : R' × Proj R) : R' × Proj R :=
  (S'.mul s.1 (shLine (shAdd S s.2 q).1), (shAdd S s.2 q).2)

def shRound (q nq : Aff R) (s : R' × Proj R) (d : ℤ) : R' × Proj R :=
  let s := shDblOne S S' shLine (S'.mul s.1 s.1, s.2)
  if d = 1 then shAddOne S S' shLine q s else if d = -1 then shAddOne S S' shLine nq s else s

variable {S S' shLine line}

theorem shDblOne_eq (hs : ∀ x : F, ExtField.sqr x = x * x) {t : Aff L × Aff F}
    (hl : ∀ c, S'.φ (shLine c) = line (shCoeffs S c) t.1) (s : R' × Proj R) :
    dblOne line t (shState S S' s) = shState S S' (shDblOne S S' shLine s) := by
  rw [dblOne]
  simp only [shState]
  rw [shDbl_eq S hs]
  refine Prod.ext ?_ rfl
  change _ = S'.φ (S'.mul _ _)
  rw [S'.φ_mul, hl]

theorem shAddOne_eq (hs : ∀ x : F, ExtField.sqr x = x * x) {t : Aff L × Aff F}
    (hl : ∀ c, S'.φ (shLine c) = line (shCoeffs S c) t.1) {g : Aff F → Aff F} {q : Aff R}
    (hq : g t.2 = shAff S q) (s : R' × Proj R) :
    addOne line g t (shState S S' s) = shState S S' (shAddOne S S' shLine q s) := by
  rw [addOne, hq]
  simp only [shState]
  rw [shAdd_eq S hs]
  refine Prod.ext ?_ rfl
  change _ = S'.φ (S'.mul _ _)
  rw [S'.φ_mul, hl]

theorem shRound_eq (hs : ∀ x : F, ExtField.sqr x = x * x) {t : Aff L × Aff F}
    (hl : ∀ c, S'.φ (shLine c) = line (shCoeffs S c) t.1) {q nq : Aff R} (hq : t.2 = shAff S q)
    (hnq : t.2.neg = shAff S nq) (s : R' × Proj R) (d : ℤ) (i : ℕ) (h0 : i = 0 → S'.φ s.1 = 1) :
    nafRoundOne line t (shState S S' s) (d, i) = shState S S' (shRound S S' shLine q nq s d) := by
  have e : (if i ≠ 0 then ((shState S S' s).1 * (shState S S' s).1, (shState S S' s).2) else shState S S' s) =
      shState S S' (S'.mul s.1 s.1, s.2) := by
    have e2 : shState S S' (S'.mul s.1 s.1, s.2) =
        ((shState S S' s).1 * (shState S S' s).1, (shState S S' s).2) := by
      simp only [shState, S'.φ_mul]
    split
    · exact e2.symm
    · rename_i hi
      have h1 : (shState S S' s).1 = 1 := h0 (not_not.mp hi)
      rw [e2, h1, mul_one]
      exact Prod.ext h1 rfl
  unfold nafRoundOne shRound
  dsimp only
  rw [e, shDblOne_eq hs hl, shAddOne_eq hs hl (g := id) hq, shAddOne_eq hs hl (g := Aff.neg) hnq]
  split
  · rfl
  · split <;> rfl

theorem shFold_eq (hs : ∀ x : F, ExtField.sqr x = x * x) {t : Aff L × Aff F}
    (hl : ∀ c, S'.φ (shLine c) = line (shCoeffs S c) t.1) {q nq : Aff R} (hq : t.2 = shAff S q)
    (hnq : t.2.neg = shAff S nq) {D : Type} (dig : D → ℤ) (rd : K × Proj F → D × ℕ → K × Proj F)
    (hrd : ∀ s d i, rd s (d, i) = nafRoundOne line t s (dig d, i)) (ds : List D) :
    ∀ (n : ℕ) (s : R' × Proj R), (n = 0 → S'.φ s.1 = 1) →
      (ds.zipIdx n).foldl rd (shState S S' s) =
        shState S S' (ds.foldl (fun s d => shRound S S' shLine q nq s (dig d)) s) := by
  induction ds with
  | nil => intro n s _; rfl
  | cons d ds ih =>
    intro n s h0
    rw [List.zipIdx_cons, List.foldl_cons, List.foldl_cons, hrd, shRound_eq hs hl hq hnq s (dig d) n h0]
    exact ih (n + 1) _ (fun h => absurd h (Nat.succ_ne_zero n))

variable (S S' shLine)

/-- The loop on shadows. -/
def shLoop (q nq : Aff R) (ds : List ℤ) : R' × Proj R :=
  ds.foldl (fun s d => shRound S S' shLine q nq s d) (S'.one, ⟨q.x, q.y, S.one⟩)

/-- The whole loop on shadows. -/
def shNaf (naf : List ℤ) (q nq b1 b2 : Aff R) : R' :=
  (shAddOne S S' shLine b2 (shAddOne S S' shLine b1 (shLoop S S' shLine q nq (naf.reverse.drop 1)))).1

variable {S S' shLine}

theorem shInit {t : Aff L × Aff F} {q : Aff R} (hq : t.2 = shAff S q)
    (hz : t.2.toCurve = ⟨t.2.x, t.2.y, 1⟩) :
    ((1 : K), t.2.toCurve) = shState S S' (S'.one, ⟨q.x, q.y, S.one⟩) := by
  rw [hz, hq]
  simp only [shState, shProj, shAff, S.φ_one, S'.φ_one]

theorem shNaf_eq (hs : ∀ x : F, ExtField.sqr x = x * x) {t : Aff L × Aff F}
    (hl : ∀ c, S'.φ (shLine c) = line (shCoeffs S c) t.1) {q nq b1 b2 : Aff R} (hq : t.2 = shAff S q)
    (hnq : t.2.neg = shAff S nq) (hz : t.2.toCurve = ⟨t.2.x, t.2.y, 1⟩) (naf : List ℤ)
    {g1 g2 : Aff F → Aff F} (h1 : g1 t.2 = shAff S b1) (h2 : g2 t.2 = shAff S b2) :
    nafOne line naf g1 g2 t = S'.φ (shNaf S S' shLine naf q nq b1 b2) := by
  have e := shFold_eq (line := line) hs hl hq hnq id (nafRoundOne line t) (fun _ _ _ => rfl) (naf.reverse.drop 1) 0
    (S'.one, ⟨q.x, q.y, S.one⟩) (fun _ => S'.φ_one)
  rw [nafOne, shInit hq hz, e]
  change (addOne line g2 t (addOne line g1 t (shState S S' (shLoop S S' shLine q nq (naf.reverse.drop 1))))).1 = _
  rw [shAddOne_eq hs hl h1, shAddOne_eq hs hl h2]
  rfl

theorem shBit_eq (hs : ∀ x : F, ExtField.sqr x = x * x) {t : Aff L × Aff F}
    (hl : ∀ c, S'.φ (shLine c) = line (shCoeffs S c) t.1) {q nq : Aff R} (hq : t.2 = shAff S q)
    (hnq : t.2.neg = shAff S nq) (hz : t.2.toCurve = ⟨t.2.x, t.2.y, 1⟩) (bits : List ℕ) :
    bitOne line bits t = S'.φ (shLoop S S' shLine q nq
      (((bits.map fun b => b == 1).drop 1).map fun b => if b then 1 else 0)).1 := by
  have e := shFold_eq (line := line) hs hl hq hnq (fun b : Bool => if b then (1 : ℤ) else 0) (bitRoundOne line t)
    (fun s d i => by
      unfold bitRoundOne nafRoundOne
      cases d
      · rfl
      · rfl) ((bits.map fun b => b == 1).drop 1) 0
    (S'.one, ⟨q.x, q.y, S.one⟩) (fun _ => S'.φ_one)
  rw [bitOne, shInit hq hz, e, shLoop, List.foldl_map]
  rfl
end

end Halo2.Pairing
