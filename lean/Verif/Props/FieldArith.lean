import Verif.Field.Lemmas
import Mathlib.Data.Nat.Prime.Basic

/-!
# C01, C02, C03, C42: arithmetic of the generated prime fields

Every theorem is about the limb code (`Halo2.Field.add` ... are the unrolled carry chains), for an
arbitrary odd modulus `p > 1` of arbitrary size, and is stated against arithmetic in `ZMod p`
(or plain integer arithmetic modulo `p`).
-/

namespace Halo2.Props

open Halo2 Halo2.Field

/-- A concrete modulus with no spare bit (secp256k1's base field) and concrete elements: the
hypotheses of the theorems of this file are satisfiable. -/
@[irreducible] def k1p : ℕ := 2 ^ 256 - 2 ^ 32 - 977

theorem k1p_odd : OddModulus k1p := ⟨by decide +kernel, by decide +kernel⟩

/-- `p - 1` as stored limbs for `k1p`. -/
theorem k1p_top : IsElem k1p (bigToLimbs (k1p - 1) (numLimbs k1p)) :=
  (isElem_bigToLimbs _ _ (by decide +kernel)).1

/-- **C01** addition: the stored integer of `a + b` is the sum modulo `p`; the result is a
well-formed reduced element. Holds for every modulus (even ones included). -/
theorem C01_add (p : ℕ) (a b : List ℕ) (ha : IsElem p a) (hb : IsElem p b) :
    IsElem p (add p a b) ∧ val (add p a b) = (val a + val b) % p := add_val ha hb

example : val (add k1p (bigToLimbs (k1p - 1) (numLimbs k1p)) (bigToLimbs (k1p - 1) (numLimbs k1p)))
    = k1p - 2 := by
  rw [(C01_add k1p _ _ k1p_top k1p_top).2, (isElem_bigToLimbs _ _ (by decide +kernel)).2]; decide +kernel

/-- **C01** doubling. -/
theorem C01_double (p : ℕ) (a : List ℕ) (ha : IsElem p a) :
    IsElem p (double p a) ∧ val (double p a) = (2 * val a) % p := by
  have := add_val ha ha
  rw [← two_mul] at this
  exact this

example : IsElem k1p (double k1p (bigToLimbs (k1p - 1) (numLimbs k1p))) :=
  (C01_double k1p _ k1p_top).1

/-- **C01** subtraction. -/
theorem C01_sub (p : ℕ) (a b : List ℕ) (ha : IsElem p a) (hb : IsElem p b) :
    IsElem p (sub p a b) ∧ ((val (sub p a b) : ℤ) = ((val a : ℤ) - val b) % p) := by
  obtain ⟨h1, h2⟩ := sub_val ha hb
  refine ⟨h1, ?_⟩
  rw [h2]
  push_cast [Nat.cast_sub hb.lt.le]
  rw [show (val a : ℤ) + ((p : ℤ) - val b) = ((val a : ℤ) - val b) + p by ring,
    Int.add_emod_right]

example : IsElem k1p (sub k1p (zero k1p) (bigToLimbs (k1p - 1) (numLimbs k1p))) :=
  (C01_sub k1p _ _ (rep_zero k1p_odd).elem k1p_top).1

/-- **C01** negation. -/
theorem C01_neg (p : ℕ) (a : List ℕ) (ha : IsElem p a) :
    IsElem p (neg p a) ∧ ((val (neg p a) : ℤ) = (-(val a : ℤ)) % p) := by
  obtain ⟨h1, h2⟩ := neg_val ha
  refine ⟨h1, ?_⟩
  rw [h2]
  push_cast [Nat.cast_sub ha.lt.le]
  rw [show ((p : ℤ) - val a) = (-(val a : ℤ)) + p by ring, Int.add_emod_right]

/-- **C01** negation of zero is (bitwise) zero. -/
theorem C01_neg_zero (p : ℕ) (hp : OddModulus p) : neg p (zero p) = zero p := by
  have h := rep_neg (rep_zero hp)
  rw [neg_zero] at h
  exact h.unique (rep_zero hp)

example : IsElem k1p (neg k1p (bigToLimbs (k1p - 1) (numLimbs k1p))) := (C01_neg k1p _ k1p_top).1
example : neg k1p (zero k1p) = zero k1p := C01_neg_zero k1p k1p_odd

/-- **C01** in terms of residue classes. -/
theorem C01_ring (p : ℕ) (a b : List ℕ) (x y : ZMod p) (ha : Rep p a x) (hb : Rep p b y) :
    Rep p (add p a b) (x + y) ∧ Rep p (sub p a b) (x - y) ∧ Rep p (neg p a) (-x) ∧
      Rep p (double p a) (2 * x) :=
  ⟨rep_add ha hb, rep_sub ha hb, rep_neg ha, rep_double ha⟩

example : ∃ a b x y, Rep k1p a x ∧ Rep k1p b y ∧ a ≠ b :=
  ⟨one k1p, zero k1p, 1, 0, rep_one k1p_odd, rep_zero k1p_odd, by decide +kernel⟩

/-- **C02** multiplication: the product of stored forms of `x` and `y` is the stored form of
`x * y`. -/
theorem C02_mul (p : ℕ) (hp : OddModulus p) (a b : List ℕ) (x y : ZMod p) (ha : Rep p a x)
    (hb : Rep p b y) : Rep p (mul p a b) (x * y) := rep_mul hp ha hb

/-- **C02** squaring. -/
theorem C02_square (p : ℕ) (hp : OddModulus p) (a : List ℕ) (x : ZMod p) (ha : Rep p a x) :
    Rep p (square p a) (x ^ 2) := by
  rw [pow_two]; exact rep_square hp ha

/-- **C02** `square` returns bit for bit what `mul` returns. -/
theorem C02_square_eq_mul (p : ℕ) (hp : OddModulus p) (a : List ℕ) (ha : IsElem p a) :
    square p a = mul p a a := by
  obtain ⟨x, hx⟩ := Rep.exists_of_elem hp ha
  exact (rep_square hp hx).unique (rep_mul hp hx hx)

/-- **C02** the 2n-limb product and square are the exact integer product: no carry is lost. -/
theorem C02_wide_exact (a b : List ℕ) (ha : Wf a) (hb : Wf b) (hna : 0 < a.length)
    (hnb : 0 < b.length) :
    val (mulWide a b) = val a * val b ∧ val (sqWide a) = val a * val a :=
  ⟨(mulWide_spec a b ha hb hnb).2.2, (sqWide_spec a ha hna).2.2⟩

example : Rep k1p (mul k1p (one k1p) (one k1p)) (1 * 1) :=
  C02_mul k1p k1p_odd _ _ _ _ (rep_one k1p_odd) (rep_one k1p_odd)
example : square k1p (bigToLimbs (k1p - 1) (numLimbs k1p))
    = mul k1p (bigToLimbs (k1p - 1) (numLimbs k1p)) (bigToLimbs (k1p - 1) (numLimbs k1p)) :=
  C02_square_eq_mul k1p k1p_odd _ k1p_top
example : Wf [2 ^ 64 - 1, 2 ^ 64 - 1] ∧ 0 < [2 ^ 64 - 1, 2 ^ 64 - 1].length := by
  constructor
  · intro x hx; simp at hx; rw [hx]; decide
  · decide

/-- **C02** every element stands for exactly one residue class and every residue class has exactly
one stored form, so the refinement loses nothing. -/
theorem C02_representation_bijective (p : ℕ) (hp : OddModulus p) :
    (∀ a, IsElem p a → ∃! x : ZMod p, Rep p a x) ∧ (∀ x : ZMod p, ∃! a, Rep p a x) := by
  refine ⟨fun a ha => ?_, fun x => ?_⟩
  · obtain ⟨x, hx⟩ := Rep.exists_of_elem hp ha
    exact ⟨x, hx, fun y hy => hy.functional hp hx⟩
  · obtain ⟨a, ha⟩ := Rep.exists_elem hp x
    exact ⟨a, ha, fun b hb => hb.unique ha⟩

example : OddModulus k1p := k1p_odd

/-- **C03** `from_mont` returns the limbs of the represented integer, reduced. -/
theorem C03_from_mont (p : ℕ) (hp : OddModulus p) (a : List ℕ) (x : ZMod p) (ha : Rep p a x) :
    IsElem p (Field.fromMont p a) ∧ val (Field.fromMont p a) = x.val := fromMont_rep hp ha

/-- **C03** `from_raw` of any word vector, reduced or not, represents its integer modulo `p`. -/
theorem C03_from_raw (p : ℕ) (hp : OddModulus p) (v : List ℕ) (hl : v.length = numLimbs p)
    (hv : ∀ x ∈ v, x < 2 ^ 64) : Rep p (fromRaw p v) (val v : ZMod p) := rep_fromRaw hp hl hv

/-- **C03** `from_mont ∘ from_raw` is reduction modulo `p`. -/
theorem C03_roundtrip (p : ℕ) (hp : OddModulus p) (v : List ℕ) (hl : v.length = numLimbs p)
    (hv : ∀ x ∈ v, x < 2 ^ 64) : val (Field.fromMont p (fromRaw p v)) = val v % p := by
  rw [(fromMont_rep hp (rep_fromRaw hp hl hv)).2, ZMod.val_natCast]

example : val (Field.fromMont k1p (fromRaw k1p [5, 0, 0, 7])) = val [5, 0, 0, 7] % k1p :=
  C03_roundtrip k1p k1p_odd _ (by decide +kernel) (by decide +kernel)

/-- **C42** `Sum` and `Product` over any sequence of elements. -/
theorem C42_sum_product (p : ℕ) (hp : OddModulus p) (l : List (List ℕ × ZMod p))
    (h : ∀ q ∈ l, Rep p q.1 q.2) :
    Rep p (Field.sum p (l.map Prod.fst)) (l.map Prod.snd).sum ∧
      Rep p (Field.product p (l.map Prod.fst)) (l.map Prod.snd).prod := by
  have key : ∀ (l : List (List ℕ × ZMod p)) (s t : List ℕ) (u v : ZMod p),
      (∀ q ∈ l, Rep p q.1 q.2) → Rep p s u → Rep p t v →
      Rep p ((l.map Prod.fst).foldl (fun acc x => add p acc x) s) (u + (l.map Prod.snd).sum) ∧
      Rep p ((l.map Prod.fst).foldl (fun acc x => mul p acc x) t) (v * (l.map Prod.snd).prod) := by
    intro l
    induction l with
    | nil => intro s t u v _ hs ht; simpa using ⟨hs, ht⟩
    | cons q qs ih =>
      intro s t u v hq hs ht
      have h1 := hq q List.mem_cons_self
      have := ih (add p s q.1) (mul p t q.1) (u + q.2) (v * q.2)
        (fun r hr => hq r (List.mem_cons_of_mem _ hr)) (rep_add hs h1) (rep_mul hp ht h1)
      simpa [add_assoc, mul_assoc] using this
  have := key l (zero p) (one p) 0 1 h (rep_zero hp) (rep_one hp)
  simpa [Field.sum, Field.product] using this

example : ∀ q ∈ [(one k1p, (1 : ZMod k1p)), (zero k1p, 0)], Rep k1p q.1 q.2 := by
  intro q hq
  rcases List.mem_cons.mp hq with h | h
  · rw [h]; exact rep_one k1p_odd
  · rw [List.mem_singleton.mp h]; exact rep_zero k1p_odd

end Halo2.Props
