import Verif.Pairing.Model
import Verif.Curve.Scalar
import Mathlib.Algebra.Field.Basic
import Mathlib.Algebra.GroupWithZero.Basic

/-!
# The final exponentiation and the target group are powers

The chains of `final_exponentiation` are evaluated in the exponents.
-/

namespace Halo2.Pairing

open Halo2.Curve Halo2.Field

variable {T : Type} [_root_.Field T]

/-- The order of the cyclotomic subgroup. -/
def phi12 (p : ℕ) : ℕ := p ^ 4 - p ^ 2 + 1

/-- What the operations do, for a target field with `p^12` elements. -/
structure FinalLaws (ops : FinalOps T) (p : ℕ) : Prop where
  conj_eq : ∀ x, ops.conj x = x ^ p ^ 6
  frob_eq : ∀ i x, ops.frob i x = x ^ p ^ i
  cyc_eq : ∀ x, x ^ phi12 p = 1 → ops.cyc x = x * x
  invert_iff : ∀ x y, ops.invert x = some y ↔ x * y = 1
  card : ∀ x : T, x ≠ 0 → x ^ (p ^ 12 - 1) = 1

namespace FinalLaws

variable {ops : FinalOps T} {p : ℕ}

theorem conj_pow (L : FinalLaws ops p) (r : T) (k : ℕ) : ops.conj (r ^ k) = r ^ (k * p ^ 6) := by
  rw [L.conj_eq, ← pow_mul]

theorem frob_pow (L : FinalLaws ops p) (i : ℕ) (r : T) (k : ℕ) : ops.frob i (r ^ k) = r ^ (k * p ^ i) := by
  rw [L.frob_eq, ← pow_mul]

theorem cyc_pow (L : FinalLaws ops p) {r : T} (hr : r ^ phi12 p = 1) (k : ℕ) : ops.cyc (r ^ k) = r ^ (k + k) := by
  rw [L.cyc_eq _ (by rw [← pow_mul, mul_comm, pow_mul, hr, one_pow]), pow_add]

/-- Square-and-multiply over bits with cyclotomic squarings. -/
theorem fold_pow (L : FinalLaws ops p) {r : T} (hr : r ^ phi12 p = 1) (k : ℕ) (l : List Bool) (n : ℕ) :
    l.foldl (fun res b => if b then ops.cyc res * r ^ k else ops.cyc res) (r ^ (k * n)) =
      r ^ (k * l.foldl (fun n b => 2 * n + b.toNat) n) := by
  induction l generalizing n with
  | nil => rfl
  | cons b l ih =>
    rw [List.foldl_cons, List.foldl_cons, ← ih]
    congr 1
    rw [L.cyc_pow hr]
    cases b
    · rw [if_neg (by decide), Bool.toNat_false]; congr 1; ring
    · rw [if_pos rfl, Bool.toNat_true, ← pow_add]; congr 1; ring

theorem expLoop_pow (L : FinalLaws ops p) {r : T} (hr : r ^ phi12 p = 1) (x n : ℕ)
    (hx : bitsVal ((List.range n).reverse.map fun i => decide ((x >>> i) &&& 1 = 1)) = x) (k : ℕ) :
    expLoop ops x n (r ^ k) = r ^ (k * x) := by
  have h := L.fold_pow hr k ((List.range n).reverse.map fun i => decide ((x >>> i) &&& 1 = 1)) 0
  rw [List.foldl_map] at h
  rw [mul_zero, pow_zero] at h
  rw [bitsVal] at hx
  rw [hx] at h
  rw [← h, expLoop]
  congr 1
  funext res i
  simp only [decide_eq_true_eq]

theorem blsExpByX_pow (L : FinalLaws ops p) {r : T} (hr : r ^ phi12 p = 1) (bits : List ℕ) (x : ℕ)
    (hx : bitsVal (bits.map fun b => decide (b = 1)) = x) (k : ℕ) :
    blsExpByX ops bits (r ^ k) = r ^ (k * (x * p ^ 6)) := by
  have hone : ops.cyc 1 = 1 := by rw [L.cyc_eq 1 (one_pow _), mul_one]
  have key : ∀ (l : List ℕ) (i : ℕ) (a : T), (i = 0 → a = 1) →
      (l.zipIdx i).foldl (fun acc bi =>
        let acc := if bi.2 ≠ 0 then ops.cyc acc else acc
        if bi.1 = 1 then acc * r ^ k else acc) a =
      (l.map fun b => decide (b = 1)).foldl (fun res b => if b then ops.cyc res * r ^ k else ops.cyc res) a := by
    intro l
    induction l with
    | nil => intros; rfl
    | cons b l ih =>
      intro i a ha
      rw [List.zipIdx_cons, List.foldl_cons, ih (i + 1) _ (fun h => absurd h (by omega)), List.map_cons, List.foldl_cons]
      congr 1
      dsimp only
      by_cases hi : i = 0
      · subst hi
        rw [ha rfl]
        simp only [decide_eq_true_eq, ne_eq, not_true_eq_false, if_false, hone]
      · simp only [decide_eq_true_eq, ne_eq, hi, not_false_eq_true, if_true]
  rw [blsExpByX, key bits 0 1 (fun _ => rfl)]
  have h := L.fold_pow hr k (bits.map fun b => decide (b = 1)) 0
  rw [mul_zero, pow_zero] at h
  rw [bitsVal] at hx
  rw [h, hx, L.conj_pow, mul_assoc]

end FinalLaws

/-- The exponent computed by `bnChain` from the easy part, when `exp_by_x` is the `x`-th power. -/
def bnExp (p x : ℕ) : ℕ :=
  let fu := x
  let fu2 := fu * x
  let fu3 := fu2 * x
  let y3 := fu * p ^ 1
  let fu2p := fu2 * p ^ 1
  let fu3p := fu3 * p ^ 1
  let y2 := fu2 * p ^ 2
  let y0 := 1 * p ^ 1 + 1 * p ^ 2 + 1 * p ^ 2 * p ^ 1
  let y1 := 1 * p ^ 6
  let y5 := fu2 * p ^ 6
  let y3 := y3 * p ^ 6
  let y4 := (fu + fu2p) * p ^ 6
  let y6 := (fu3 + fu3p) * p ^ 6
  let y6 := (y6 + y6) + y4 + y5
  let t1 := y3 + y5 + y6
  let y6 := y6 + y2
  let t1 := (t1 + t1) + y6
  let t1 := t1 + t1
  let t0 := t1 + y1
  let t1 := t1 + y0
  (t0 + t0) + t1

theorem bnChain_pow {ops : FinalOps T} {p : ℕ} (L : FinalLaws ops p) (ex : T → T) (x : ℕ) (f1 f2 r : T)
    (hr0 : ops.frob 2 (f1 * f2) * (f1 * f2) = r) (hr : r ^ phi12 p = 1) (hex : ∀ k, ex (r ^ k) = r ^ (k * x)) :
    bnChain ops ex f1 f2 = r ^ bnExp p x := by
  have h1 : ex r = r ^ x := by have := hex 1; rwa [pow_one, one_mul] at this
  have f : ∀ i, ops.frob i r = r ^ (1 * p ^ i) := fun i => by have := L.frob_pow i r 1; rwa [pow_one] at this
  have c : ops.conj r = r ^ (1 * p ^ 6) := by have := L.conj_pow r 1; rwa [pow_one] at this
  unfold bnChain
  dsimp only
  rw [hr0, h1, hex, hex, f, f, c]
  simp only [L.frob_pow, L.conj_pow, ← pow_add, L.cyc_pow hr]
  rfl

/-- The exponent computed by `blsChain` from the easy part. -/
def blsExp (p x : ℕ) : ℕ :=
  let t1 := (1 + 1) * p ^ 6
  let t3 := x
  let t4 := t3 + t3
  let t5 := t1 + t3
  let t1 := t5 * x
  let t0 := t1 * x
  let t6 := t0 * x + t4
  let t4 := t6 * x
  let t5 := t5 * p ^ 6
  let t4 := t4 + (t5 + 1)
  let t1 := t1 + 1
  let t1 := t1 * p ^ 3
  let t2 := 1 * p ^ 6
  let t6 := t6 + t2
  let t6 := t6 * p ^ 1
  let t3 := t3 + t0
  let t3 := t3 * p ^ 2
  t3 + t4 + t1 + t6

theorem blsChain_pow {ops : FinalOps T} {p : ℕ} (L : FinalLaws ops p) (ex : T → T) (x : ℕ) (f1 f2 r : T)
    (hr0 : ops.frob 2 (f1 * f2) * (f1 * f2) = r) (hr : r ^ phi12 p = 1) (hex : ∀ k, ex (r ^ k) = r ^ (k * x)) :
    blsChain ops ex f1 f2 = r ^ blsExp p x := by
  have h1 : ex r = r ^ x := by have := hex 1; rwa [pow_one, one_mul] at this
  have c : ops.conj r = r ^ (1 * p ^ 6) := by have := L.conj_pow r 1; rwa [pow_one] at this
  have cy : ops.cyc r = r ^ (1 + 1) := by have := L.cyc_pow hr 1; rwa [pow_one] at this
  have m : ∀ k, r ^ k * r = r ^ (k + 1) := fun k => (pow_succ r k).symm
  unfold blsChain
  dsimp only
  rw [hr0, h1, c, cy]
  simp only [L.frob_pow, L.conj_pow, m, ← pow_add, L.cyc_pow hr, hex]
  rfl

/-- The easy part, for `f1` the conjugate and `f2` the inverse of `f`. -/
theorem easy_part {ops : FinalOps T} {p : ℕ} (L : FinalLaws ops p) (hp : 1 < p) {f f2 : T} (h : f * f2 = 1) :
    ops.frob 2 (f ^ p ^ 6 * f2) * (f ^ p ^ 6 * f2) = f ^ ((p ^ 6 - 1) * (p ^ 2 + 1)) ∧
    (f ^ ((p ^ 6 - 1) * (p ^ 2 + 1))) ^ phi12 p = 1 := by
  have hf : f ≠ 0 := left_ne_zero_of_mul_eq_one h
  have p6 : 1 ≤ p ^ 6 := Nat.one_le_pow _ _ (by omega)
  have p12 : 1 ≤ p ^ 12 := Nat.one_le_pow _ _ (by omega)
  have p42 : p ^ 2 ≤ p ^ 4 := Nat.pow_le_pow_right (by omega) (by omega)
  have e1 : f ^ p ^ 6 * f2 = f ^ (p ^ 6 - 1) := by
    conv_lhs => rw [show p ^ 6 = (p ^ 6 - 1) + 1 by omega, pow_succ, mul_assoc, h, mul_one]
  constructor
  · rw [e1, L.frob_pow, ← pow_add]
    congr 1
  · rw [← pow_mul]
    have e : (p ^ 6 - 1) * (p ^ 2 + 1) * phi12 p = p ^ 12 - 1 := by
      rw [phi12]
      zify [p6, p12, p42]
      ring
    rw [e, L.card f hf]

/-- The exponents may be reduced modulo the order of the cyclotomic subgroup. -/
theorem pow_hard {f : T} {p r e s : ℕ} (hp : 1 < p) (hrr : 0 < r) (hr : (f ^ ((p ^ 6 - 1) * (p ^ 2 + 1))) ^ phi12 p = 1)
    (hdvd : phi12 p % r = 0) (he : e % phi12 p = s * (phi12 p / r) % phi12 p) :
    (f ^ ((p ^ 6 - 1) * (p ^ 2 + 1))) ^ e = f ^ (s * ((p ^ 12 - 1) / r)) := by
  have p6 : 1 ≤ p ^ 6 := Nat.one_le_pow _ _ (by omega)
  have p12 : 1 ≤ p ^ 12 := Nat.one_le_pow _ _ (by omega)
  have p42 : p ^ 2 ≤ p ^ 4 := Nat.pow_le_pow_right (by omega) (by omega)
  have e12 : (p ^ 6 - 1) * (p ^ 2 + 1) * phi12 p = p ^ 12 - 1 := by
    rw [phi12]
    zify [p6, p12, p42]
    ring
  obtain ⟨m, hm⟩ := Nat.dvd_of_mod_eq_zero hdvd
  have hm' : phi12 p / r = m := by rw [hm, Nat.mul_div_cancel_left _ hrr]
  have hred : ∀ n, (f ^ ((p ^ 6 - 1) * (p ^ 2 + 1))) ^ n = (f ^ ((p ^ 6 - 1) * (p ^ 2 + 1))) ^ (n % phi12 p) := by
    intro n
    conv_lhs => rw [← Nat.div_add_mod n (phi12 p), pow_add, pow_mul, hr, one_pow, one_mul]
  rw [hred e, he, ← hred, hm', ← pow_mul]
  congr 1
  rw [← e12, hm, show (p ^ 6 - 1) * (p ^ 2 + 1) * (r * m) = r * ((p ^ 6 - 1) * (p ^ 2 + 1) * m) by ring,
    Nat.mul_div_cancel_left _ hrr]
  ring

/-! ## The target group -/

theorem gtMul_pow (square : T → T) (hs : ∀ x, square x = x * x) (a : T) (repr : List ℕ) (hb : Halo2.Field.IsBytes repr)
    (hlt : leNat repr < 2 ^ (8 * repr.length - 1)) : gtMul square a repr = a ^ leNat repr := by
  have key : ∀ (l : List Bool) (n : ℕ), l.foldl (fun acc bit =>
      let acc := gtDouble square acc
      if bit then gtAdd acc a else acc) (a ^ n) = a ^ l.foldl (fun n b => 2 * n + b.toNat) n := by
    intro l
    induction l with
    | nil => intro n; rfl
    | cons b l ih =>
      intro n
      rw [List.foldl_cons, List.foldl_cons, ← ih]
      congr 1
      dsimp only
      rw [gtDouble, hs, ← pow_add]
      cases b
      · rw [if_neg (by decide), Bool.toNat_false]; congr 1; ring
      · rw [if_pos rfl, gtAdd, ← pow_succ, Bool.toNat_true]; congr 1; ring
  have h := key ((Proj.bitsOf repr).drop 1) 0
  rw [pow_zero] at h
  rw [gtMul]
  change List.foldl _ (1 : T) _ = _
  rw [h]
  congr 1
  change bitsVal _ = _
  rw [← bitsVal_bitsOf repr hb]
  have hl := bitsOf_length repr
  have hv := bitsVal_bitsOf repr hb
  cases hc : Proj.bitsOf repr with
  | nil => rfl
  | cons b l =>
    rw [hc] at hl hv
    rw [List.drop_one, List.tail_cons]
    have e : bitsVal (b :: l) = 2 ^ l.length * b.toNat + bitsVal l := by
      rw [bitsVal, List.foldl_cons, bitsVal_foldl]
      ring
    cases b
    · rw [e, Bool.toNat_false]; ring
    · exfalso
      rw [e, Bool.toNat_true] at hv
      rw [List.length_cons] at hl
      rw [← hl, Nat.add_sub_cancel, ← hv] at hlt
      omega

end Halo2.Pairing
