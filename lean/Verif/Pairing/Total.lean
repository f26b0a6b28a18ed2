import Verif.Pairing.Steps

/-!
# When the Miller loop vanishes

The doubling and addition steps are incomplete: adding a point to itself gives the zero line, adding it to its opposite gives
coordinates of the point at infinity, and adding to those gives the triple `(0, 0, 0)`, whose next line is zero.  Which of this
happens to a point depends only on its order; `Fate` follows it along the digits of the loop.
-/

set_option linter.unusedSectionVars false

open WeierstrassCurve WeierstrassCurve.Affine
open Halo2.Curve Halo2.Ext

namespace Halo2.Pairing

/-- What is known of the state of the loop for one pair. -/
inductive Fate
  /-- the running point is the multiple `k` and the value is not zero -/
  | fin (k : ℤ)
  /-- the running point is at infinity -/
  | inf
  /-- the running point is `(0, 0, 0)` -/
  | dead
  /-- the value is zero -/
  | zero
  /-- nothing is known -/
  | lost
deriving DecidableEq

/-- The doubling step, for a point of order `n`. -/
def Fate.dbl (n : ℕ) : Fate → Fate
  | .fin k => if (2 * k) % n = 0 then .lost else .fin (2 * k)
  | .inf => .inf
  | .dead => .zero
  | .zero => .zero
  | .lost => .lost

/-- Addition of the multiple `c`. -/
def Fate.add (n : ℕ) (c : ℤ) : Fate → Fate
  | .fin k => if (k - c) % n = 0 then .zero else if (k + c) % n = 0 then .inf else .fin (k + c)
  | .inf => .dead
  | .dead => .zero
  | .zero => .zero
  | .lost => .lost

/-- One round of the loop. -/
def Fate.round (n : ℕ) (s : Fate) (d : ℤ) : Fate :=
  if d = 1 then (s.dbl n).add n 1 else if d = -1 then (s.dbl n).add n (-1) else s.dbl n

section
variable {F K : Type} [Field F] [DecidableEq F] [Field K] [ExtField F] {a b : F}
variable {P : Type} {line : Coeffs F → Aff P → K}

/-- What is needed of the evaluation of lines at a point. -/
structure LineOk (line : Coeffs F → Aff P → K) (t : Aff P) : Prop where
  ne : ∀ c, c.a ≠ 0 → line c t ≠ 0
  zero : line ⟨0, 0, 0⟩ t = 0

/-- The state of the loop has the given fate, for the point `Q`. -/
def Fate.Holds (a b : F) (Q : (short a b).Point) (s : K × Proj F) : Fate → Prop
  | .fin k => s.1 ≠ 0 ∧ JRep a b s.2 (k • Q)
  | .inf => s.2.z = 0 ∧ s.2.y ^ 2 = s.2.x ^ 3
  | .dead => s.2 = ⟨0, 0, 0⟩
  | .zero => s.1 = 0
  | .lost => True

theorem smul_eq_zero_of {A : Type} [AddCommGroup A] {Q : A} {n : ℕ} (hQ : addOrderOf Q = n) {k : ℤ}
    (hk : k % n = 0) : k • Q = 0 := by
  rw [← addOrderOf_dvd_iff_zsmul_eq_zero, hQ]
  exact Int.dvd_of_emod_eq_zero hk

variable (hs : ∀ x : F, ExtField.sqr x = x * x) (h2 : (2 : F) ≠ 0)
include hs h2

theorem Fate.Holds.dbl (ha : a = 0) {t : Aff P × Aff F} (L : LineOk line t.1) {Q : (short a b).Point} {n : ℕ}
    (hn : addOrderOf Q = n) {s : K × Proj F} {T : Fate} (h : T.Holds a b Q s) :
    (T.dbl n).Holds a b Q (dblOne line t s) := by
  cases T with
  | fin k =>
    obtain ⟨hf, X, Y, hN, hT, hz, hx, hy⟩ := h
    rw [Fate.dbl]
    split
    · trivial
    · rename_i hk
      have e2 : (2 * k) • Q = Point.some X Y hN + .some X Y hN := by rw [two_mul, add_smul, hT]
      have h0 : (Point.some X Y hN : (short a b).Point) + .some X Y hN ≠ 0 := by rw [← e2]; exact smul_ne hn hk
      obtain ⟨hj, m, hm⟩ := dblStep_rep hs h2 ha hN hz hx hy h0
      refine ⟨mul_ne_zero hf (L.ne _ ?_), ?_⟩
      · rw [hm.ha]; exact hm.k0
      · rw [e2]; exact hj
  | inf =>
    obtain ⟨hz, hy⟩ := h
    change (dblOne line t s).2.z = 0 ∧ (dblOne line t s).2.y ^ 2 = (dblOne line t s).2.x ^ 3
    unfold dblOne
    rw [dblStep_eq hs]
    dsimp only
    refine ⟨by rw [hz]; ring, ?_⟩
    have ey : s.2.y ^ 4 = s.2.x ^ 6 := by
      rw [show s.2.y ^ 4 = (s.2.y ^ 2) ^ 2 by ring, hy]
      ring
    rw [ey, hy]
    ring
  | dead =>
    change (dblOne line t s).1 = 0
    have h' : s.2 = ⟨0, 0, 0⟩ := h
    unfold dblOne
    rw [dblStep_eq hs, h']
    dsimp only
    have e : (⟨4 * (0 * 0 ^ 3), -(6 * (0 ^ 2 * 0 ^ 2)), 6 * 0 ^ 3 - 4 * 0 ^ 2⟩ : Coeffs F) = ⟨0, 0, 0⟩ := by
      congr 1 <;> ring
    rw [e, L.zero, mul_zero]
  | zero =>
    change s.1 * _ = 0
    have h' : s.1 = 0 := h
    rw [h', zero_mul]
  | lost => trivial

theorem Fate.Holds.add {t : Aff P × Aff F} (L : LineOk line t.1) {Q : (short a b).Point} {n : ℕ}
    (hn : addOrderOf Q = n) {s : K × Proj F} {T : Fate} (h : T.Holds a b Q s) {g : Aff F → Aff F} {c : ℤ}
    (hc : FRep a b (g t.2) (c • Q)) :
    (T.add n c).Holds a b Q (addOne line g t s) := by
  cases T with
  | fin k =>
    obtain ⟨hq, hB⟩ := hc
    obtain ⟨hf, X, Y, hN, hT, hz, hx, hy⟩ := h
    rw [Fate.add]
    split
    · rename_i hk
      have e0 := smul_eq_zero_of hn hk
      rw [sub_smul, sub_eq_zero, hT, hB] at e0
      obtain ⟨rfl, rfl⟩ := (Point.some.injEq ..).mp e0
      change (addOne line g t s).1 = 0
      unfold addOne
      rw [addStep_eq hs]
      dsimp only
      have e : (⟨4 * (s.2.z * (s.2.z ^ 2 * (g t.2).x - s.2.x)), -(4 * ((g t.2).y * s.2.z ^ 3 - s.2.y)),
          4 * (((g t.2).y * s.2.z ^ 3 - s.2.y) * (g t.2).x) -
            4 * ((g t.2).y * (s.2.z * (s.2.z ^ 2 * (g t.2).x - s.2.x)))⟩ : Coeffs F) = ⟨0, 0, 0⟩ := by
        rw [hx, hy]
        congr 1 <;> ring
      rw [e, L.zero, mul_zero]
    rename_i hk
    split
    · rename_i hk2
      have e0 := smul_eq_zero_of hn hk2
      rw [add_smul, hT, hB, add_eq_zero_iff_eq_neg, Point.neg_some] at e0
      obtain ⟨e1, -⟩ := (Point.some.injEq ..).mp e0
      change (addOne line g t s).2.z = 0 ∧ (addOne line g t s).2.y ^ 2 = (addOne line g t s).2.x ^ 3
      unfold addOne
      rw [addStep_eq hs]
      dsimp only
      have eH : s.2.z ^ 2 * (g t.2).x - s.2.x = 0 := by rw [hx, e1]; ring
      rw [eH]
      exact ⟨by ring, by ring⟩
    · rename_i hk2
      have hne : X ≠ (g t.2).x := by
        intro e
        rcases (Point.X_eq_iff (h₁ := hN) (h₂ := hq)).mp e with h3 | h3
        · refine smul_ne hn hk ?_
          rw [sub_smul, hT, hB, h3, sub_self]
        · refine smul_ne hn hk2 ?_
          rw [add_smul, hT, hB, h3, neg_add_cancel]
      obtain ⟨hj, m, hm⟩ := addStep_rep (q := g t.2) hs h2 hN hq hz hx hy hne
      refine ⟨mul_ne_zero hf (L.ne _ ?_), ?_⟩
      · rw [hm.ha]; exact hm.k0
      · rw [add_smul, hT, hB]; exact hj
  | inf =>
    obtain ⟨hz, hy⟩ := h
    change (addOne line g t s).2 = ⟨0, 0, 0⟩
    unfold addOne
    rw [addStep_eq hs]
    dsimp only
    rw [hz]
    have e1 : (4 * ((g t.2).y * 0 ^ 3 - s.2.y) ^ 2 - 4 * (0 ^ 2 * (g t.2).x - s.2.x) ^ 3 -
        8 * (0 ^ 2 * (g t.2).x - s.2.x) ^ 2 * s.2.x) = 0 := by linear_combination 4 * hy
    have e2 : ((12 * (0 ^ 2 * (g t.2).x - s.2.x) ^ 2 * s.2.x - 4 * ((g t.2).y * 0 ^ 3 - s.2.y) ^ 2 +
        4 * (0 ^ 2 * (g t.2).x - s.2.x) ^ 3) * (2 * ((g t.2).y * 0 ^ 3 - s.2.y)) -
        8 * (s.2.y * (0 ^ 2 * (g t.2).x - s.2.x) ^ 3)) = 0 := by linear_combination 8 * s.2.y * hy
    rw [e1, e2]
    congr 1
    ring
  | dead =>
    change (addOne line g t s).1 = 0
    have h' : s.2 = ⟨0, 0, 0⟩ := h
    unfold addOne
    rw [addStep_eq hs, h']
    dsimp only
    have e : (⟨4 * (0 * (0 ^ 2 * (g t.2).x - 0)), -(4 * ((g t.2).y * 0 ^ 3 - 0)),
        4 * (((g t.2).y * 0 ^ 3 - 0) * (g t.2).x) - 4 * ((g t.2).y * (0 * (0 ^ 2 * (g t.2).x - 0)))⟩ : Coeffs F) = ⟨0, 0, 0⟩ := by
      congr 1 <;> ring
    rw [e, L.zero, mul_zero]
  | zero =>
    change s.1 * _ = 0
    have h' : s.1 = 0 := h
    rw [h', zero_mul]
  | lost => trivial

omit [ExtField F] hs h2 in
theorem Fate.Holds.sq {Q : (short a b).Point} {s : K × Proj F} {T : Fate} (h : T.Holds a b Q s) :
    T.Holds a b Q (s.1 * s.1, s.2) := by
  cases T with
  | fin k => exact ⟨mul_ne_zero h.1 h.1, h.2⟩
  | inf => exact h
  | dead => exact h
  | zero =>
    have h' : s.1 = 0 := h
    change s.1 * s.1 = 0
    rw [h', zero_mul]
  | lost => trivial

variable [CommRing P] [BaseField P] [BaseField F]

theorem Fate.Holds.loop (ha : a = 0) {t : Aff P × Aff F} (L : LineOk line t.1) {Q : (short a b).Point} {n : ℕ}
    (hn : addOrderOf Q = n) (hQ : FRep a b t.2 Q) {D : Type} (dig : D → ℤ) (rd : K × Proj F → D × ℕ → K × Proj F)
    (hrd : ∀ s d i, rd s (d, i) = nafRoundOne line t s (dig d, i)) (ds : List D) :
    ∀ (i : ℕ) (T : Fate) (s : K × Proj F), T.Holds a b Q s →
      ((ds.map dig).foldl (Fate.round n) T).Holds a b Q ((ds.zipIdx i).foldl rd s) := by
  induction ds with
  | nil => intro i T s h; exact h
  | cons d ds ih =>
    intro i T s h
    rw [List.zipIdx_cons, List.foldl_cons, List.map_cons, List.foldl_cons]
    refine ih (i + 1) _ _ ?_
    rw [hrd]
    unfold nafRoundOne Fate.round
    dsimp only
    have h1 : T.Holds a b Q (if i ≠ 0 then (s.1 * s.1, s.2) else s) := by
      split
      · exact h.sq
      · exact h
    have hd := h1.dbl hs h2 ha L hn
    split
    · exact hd.add hs h2 L hn (by rw [one_smul]; exact hQ)
    split
    · exact hd.add hs h2 L hn (by rw [neg_smul, one_smul]; exact hQ.neg)
    · exact hd

omit hs h2 in
theorem Fate.Holds.init {q : Aff F} {Q : (short a b).Point} (hQ : FRep a b q Q) (hz : q.toCurve = ⟨q.x, q.y, 1⟩) :
    (Fate.fin 1).Holds a b Q ((1 : K), q.toCurve) := by
  obtain ⟨hq, hQ⟩ := hQ
  refine ⟨one_ne_zero, q.x, q.y, hq, by rw [one_smul, hQ], ?_⟩
  rw [hz]
  exact ⟨one_ne_zero, by simp, by simp⟩

/-- The loop of bls12-381. -/
theorem bitOne_fate (ha : a = 0) {t : Aff P × Aff F} (L : LineOk line t.1) {Q : (short a b).Point} {n : ℕ}
    (hn : addOrderOf Q = n) (hQ : FRep a b t.2 Q) (hz : t.2.toCurve = ⟨t.2.x, t.2.y, 1⟩) {bits : List ℕ} {T : Fate}
    (hT : (((bits.map fun b => b == 1).drop 1).map fun b => if b then (1 : ℤ) else 0).foldl (Fate.round n) (.fin 1) = T) :
    ∃ r, T.Holds a b Q (bitOne line bits t, r) := by
  have h := Fate.Holds.loop hs h2 ha L hn hQ (fun b : Bool => if b then (1 : ℤ) else 0) (bitRoundOne line t)
    (fun s d i => by
      unfold bitRoundOne nafRoundOne
      cases d
      · rfl
      · rfl) ((bits.map fun b => b == 1).drop 1) 0 (.fin 1) _ (Fate.Holds.init hQ hz)
  rw [hT] at h
  exact ⟨_, h⟩

/-- The loop of bn256 and pluto. -/
theorem nafOne_fate (ha : a = 0) {t : Aff P × Aff F} (L : LineOk line t.1) {Q : (short a b).Point} {n : ℕ}
    (hn : addOrderOf Q = n) (hQ : FRep a b t.2 Q) (hz : t.2.toCurve = ⟨t.2.x, t.2.y, 1⟩) {naf : List ℤ} {g1 g2 : Aff F → Aff F}
    {c1 c2 : ℤ} (hg1 : FRep a b (g1 t.2) (c1 • Q)) (hg2 : FRep a b (g2 t.2) (c2 • Q)) {T : Fate}
    (hT : (((naf.reverse.drop 1).foldl (Fate.round n) (.fin 1)).add n c1).add n c2 = T) :
    ∃ r, T.Holds a b Q (nafOne line naf g1 g2 t, r) := by
  have h := Fate.Holds.loop hs h2 ha L hn hQ id (nafRoundOne line t) (fun _ _ _ => rfl) (naf.reverse.drop 1) 0 (.fin 1) _
    (Fate.Holds.init hQ hz)
  rw [List.map_id] at h
  have h' := (h.add hs h2 L hn hg1).add hs h2 L hn hg2
  rw [hT] at h'
  exact ⟨_, h'⟩

end

/-! ## Orders -/

/-- The common divisor of the group order `N` with `m` is one or in the list. -/
def gcdIn (N : ℕ) (bad : List ℕ) (m : ℤ) : Bool := (1 :: bad).contains (Nat.gcd N m.natAbs)

theorem gcdIn_spec {N : ℕ} {bad : List ℕ} (hb : ∀ l ∈ bad, l.Prime) {m : ℤ} (h : gcdIn N bad m = true) {n : ℕ} (hn : n ∣ N)
    (h1 : n ≠ 1) (hbad : n ∉ bad) : m % n ≠ 0 := by
  intro hm
  have hd : n ∣ Nat.gcd N m.natAbs := Nat.dvd_gcd hn (Int.natCast_dvd.mp (Int.dvd_of_emod_eq_zero hm))
  have hmem : Nat.gcd N m.natAbs ∈ 1 :: bad := List.contains_iff_mem.mp h
  rcases List.mem_cons.mp hmem with e | e
  · rw [e] at hd
    exact h1 (Nat.dvd_one.mp hd)
  · rcases (Nat.dvd_prime (hb _ e)).mp hd with e1 | e1
    · exact h1 e1
    · rw [← e1] at e
      exact hbad e

/-- No step of the loop is exceptional, except for points whose order is in the list. -/
def chainGcd (N : ℕ) (bad : List ℕ) : ℤ → List ℤ → Bool
  | _, [] => true
  | k, d :: ds =>
    gcdIn N bad (2 * k) && (digit d == 0 || (gcdIn N bad (2 * k - 1) && gcdIn N bad (2 * k + 1))) &&
      chainGcd N bad (2 * k + digit d) ds

theorem chainGcd_spec {N : ℕ} {bad : List ℕ} (hb : ∀ l ∈ bad, l.Prime) {n : ℕ} (hn : n ∣ N) (h1 : n ≠ 1) (hbad : n ∉ bad)
    (ds : List ℤ) : ∀ k : ℤ, chainGcd N bad k ds = true → ds.foldl (Fate.round n) (.fin k) = .fin (chainVal k ds) := by
  induction ds with
  | nil => intro k _; rfl
  | cons d ds ih =>
    intro k h
    rw [chainGcd, Bool.and_eq_true, Bool.and_eq_true] at h
    obtain ⟨⟨ha, hd⟩, hr⟩ := h
    have e2 := gcdIn_spec hb ha hn h1 hbad
    rw [List.foldl_cons, chainVal]
    have hround : Fate.round n (.fin k) d = .fin (2 * k + digit d) := by
      unfold Fate.round digit
      have hdb : (Fate.fin k).dbl n = .fin (2 * k) := by rw [Fate.dbl, if_neg e2]
      rw [hdb]
      by_cases c1 : d = 1
      · have c0 : (digit d == 0) = false := by rw [c1]; rfl
        rw [c0, Bool.false_or, Bool.and_eq_true] at hd
        rw [if_pos c1, if_pos c1, Fate.add, if_neg (gcdIn_spec hb hd.1 hn h1 hbad), if_neg (gcdIn_spec hb hd.2 hn h1 hbad)]
      rw [if_neg c1, if_neg c1]
      by_cases c2 : d = -1
      · have c0 : (digit d == 0) = false := by rw [c2]; rfl
        rw [c0, Bool.false_or, Bool.and_eq_true] at hd
        have i1 : (2 * k - -1) % n ≠ 0 := by rw [sub_neg_eq_add]; exact gcdIn_spec hb hd.2 hn h1 hbad
        have i2 : (2 * k + -1) % n ≠ 0 := gcdIn_spec hb hd.1 hn h1 hbad
        rw [if_pos c2, if_pos c2, Fate.add, if_neg i1, if_neg i2]
      · rw [if_neg c2, if_neg c2, add_zero]
    rw [hround]
    exact ih _ hr

end Halo2.Pairing
