import Verif.Props.FftPoly
import Verif.Props.Consts
import Verif.Props.Ecdsa

/-!
# C89: evaluation domains and vanishing arguments over the library

A client that proves that a polynomial identity between columns holds in all rows, as halo2 does it: the columns are interpolated over the
powers of a root of unity, evaluated on a coset shifted by `ZETA`, combined there, divided by the vanishing polynomial of the rows, and
transformed back.
-/

set_option linter.unusedSectionVars false

namespace Halo2.Props

open Halo2 Halo2.Field Halo2.Prime Halo2.Curve Halo2.Fft Polynomial

/-- An identity between columns: `col i rot` is column `i`, `rot` rows further down (cyclically). -/
inductive Gate (K : Type)
  | const (c : K)
  | col (i rot : ℕ)
  | add (a b : Gate K)
  | mul (a b : Gate K)

/-- The value for given values of the columns. -/
def Gate.eval {K R : Type} [Add R] [Mul R] (c : K → R) (v : ℕ → ℕ → R) : Gate K → R
  | .const k => c k
  | .col i rot => v i rot
  | .add a b => a.eval c v + b.eval c v
  | .mul a b => a.eval c v * b.eval c v

/-- The degree in the columns. -/
def Gate.degree {K : Type} : Gate K → ℕ
  | .const _ => 0
  | .col _ _ => 1
  | .add a b => max a.degree b.degree
  | .mul a b => a.degree + b.degree

section Client

variable {p : ℕ} [Fact p.Prime] [Fact (OddModulus p)] [Fp.SmallModulus p]

/-- The constants of a domain of `2^k` rows and `2^ek` points of the coset. -/
structure Domain (K : Type) where
  k : ℕ
  ek : ℕ
  omega : K
  omegaInv : K
  omegaE : K
  omegaEInv : K
  zeta : K
  zetaInv : K
  twoInv : K

/-- The domain made from the constants of the field by repeated squaring. -/
noncomputable def mkDomain (p g z k ek : ℕ) [Fact p.Prime] [Fact (OddModulus p)] [Fp.SmallModulus p] : Domain (Fp p) where
  k := k
  ek := ek
  omega := (fun x => x * x)^[Fp.macroS p - k] (Fp.rootOfUnity p g)
  omegaInv := (fun x => x * x)^[Fp.macroS p - k] (Fp.rootOfUnityInv p g)
  omegaE := (fun x => x * x)^[Fp.macroS p - ek] (Fp.rootOfUnity p g)
  omegaEInv := (fun x => x * x)^[Fp.macroS p - ek] (Fp.rootOfUnityInv p g)
  zeta := Fp.zeta p z
  zetaInv := Fp.zeta p z * Fp.zeta p z
  twoInv := Fp.twoInv p

/-- The entries multiplied by `1`, `c1`, `c2`, `1`, `c1`, `c2`, ... -/
def distribute {K : Type} [Mul K] (c1 c2 : K) (a : List K) : List K :=
  a.zipIdx.map fun t => if t.2 % 3 = 0 then t.1 else if t.2 % 3 = 1 then t.1 * c1 else t.1 * c2

/-- From the values in the rows to the coefficients. -/
noncomputable def Domain.toCoeff (d : Domain (Fp p)) (checks : Bool) (threads : ℕ) (rows : List (Fp p)) : Option (List (Fp p)) :=
  (bestFft (fieldOps (Fp p)) checks threads rows d.omegaInv d.k).map fun a => a.map fun x => x * d.twoInv ^ d.k

/-- From the coefficients to the values on the coset. -/
noncomputable def Domain.toExtended (d : Domain (Fp p)) (checks : Bool) (threads : ℕ) (a : List (Fp p)) : Option (List (Fp p)) :=
  bestFft (fieldOps (Fp p)) checks threads (distribute d.zeta d.zetaInv a ++ List.replicate (2 ^ d.ek - a.length) 0) d.omegaE d.ek

/-- From the values on the coset to the coefficients. -/
noncomputable def Domain.fromExtended (d : Domain (Fp p)) (checks : Bool) (threads : ℕ) (v : List (Fp p)) : Option (List (Fp p)) :=
  (bestFft (fieldOps (Fp p)) checks threads v d.omegaEInv d.ek).map fun a =>
    distribute d.zetaInv d.zeta (a.map fun x => x * d.twoInv ^ d.ek)

/-- The inverses of the values of `X^(2^k) - 1` on the coset; they repeat after `2^(ek - k)` points. -/
noncomputable def Domain.vanishing (d : Domain (Fp p)) : Option (List (Fp p)) :=
  (List.range (2 ^ (d.ek - d.k))).mapM fun i => Fp.invert (d.zeta ^ 2 ^ d.k * (d.omegaE ^ 2 ^ d.k) ^ i - 1)

/-- The quotient of the gate by the vanishing polynomial of the rows, from the columns. -/
noncomputable def Domain.quotient (d : Domain (Fp p)) (checks : Bool) (threads : ℕ) (cols : List (List (Fp p))) (gate : Gate (Fp p)) :
    Option (List (Fp p)) := do
  let cs ← cols.mapM (d.toCoeff checks threads)
  let es ← cs.mapM (d.toExtended checks threads)
  let t ← d.vanishing
  d.fromExtended checks threads ((List.range (2 ^ d.ek)).map fun j =>
    gate.eval id (fun i rot => (es.getD i []).getD ((j + rot * 2 ^ (d.ek - d.k)) % 2 ^ d.ek) 0) * t.getD (j % 2 ^ (d.ek - d.k)) 0)

end Client

section Pure

variable {K : Type} [_root_.Field K]

theorem iterate_square (n : ℕ) (x : K) : (fun x : K => x * x)^[n] x = x ^ 2 ^ n := by
  induction n generalizing x with
  | zero => rw [pow_zero, pow_one]; rfl
  | succ n ih => rw [Function.iterate_succ_apply, ih, pow_succ 2 n, mul_comm (2 ^ n), pow_mul, pow_two]

theorem distribute_eq {s : K} (hs : s ^ 3 = 1) (n : ℕ) (c : ℕ → K) :
    distribute s (s * s) ((List.range n).map c) = (List.range n).map fun j => c j * s ^ j := by
  apply List.ext_getElem?
  intro j
  by_cases hj : j < n
  · simp only [distribute, List.getElem?_map, List.getElem?_zipIdx, List.getElem?_range hj, Option.map_some, Nat.zero_add,
      Option.some.injEq]
    have e : s ^ j = s ^ (j % 3) := by
      conv_lhs => rw [← Nat.div_add_mod j 3, pow_add, pow_mul, hs, one_pow, one_mul]
    rw [e]
    have h3 : j % 3 < 3 := Nat.mod_lt _ (by decide)
    generalize j % 3 = m at h3
    interval_cases m <;> simp [pow_two]
  · rw [List.getElem?_eq_none (by simp [distribute]; omega), List.getElem?_eq_none (by simp; omega)]

theorem mapM_some {A B : Type} {f : A → Option B} {g : A → B} (l : List A) (h : ∀ a ∈ l, f a = some (g a)) : l.mapM f = some (l.map g) := by
  induction l with
  | nil => rfl
  | cons a l ih =>
    rw [List.mapM_cons, h a List.mem_cons_self, ih fun b hb => h b (List.mem_cons_of_mem _ hb)]
    rfl

/-- Polynomials of degree below `n` are determined by `n` values on a coset. -/
theorem eq_of_coset {n : ℕ} {s w : K} (hs : s ≠ 0) (hw : IsPrimitiveRoot w n) {f g : K[X]} (hf : f.natDegree < n) (hg : g.natDegree < n)
    (h : ∀ j < n, f.eval (s * w ^ j) = g.eval (s * w ^ j)) : f = g := by
  have lt : ∀ f : K[X], f.natDegree < n → f.degree < (Finset.range n).card := fun f hf => by
    rw [Finset.card_range]
    exact lt_of_le_of_lt degree_le_natDegree (by exact_mod_cast hf)
  refine eq_of_degrees_lt_of_eval_index_eq (Finset.range n) (v := fun j => s * w ^ j) ?_ (lt f hf) (lt g hg) fun j hj =>
    h j (Finset.mem_range.mp hj)
  intro i hi j hj e
  exact hw.pow_inj (Finset.mem_range.mp (Finset.mem_coe.mp hi)) (Finset.mem_range.mp (Finset.mem_coe.mp hj)) (mul_left_cancel₀ hs e)

/-- A polynomial that vanishes at all `n`-th roots of unity is divisible by `X^n - 1`. -/
theorem dvd_of_rows {n : ℕ} (hn : 0 < n) {w : K} (hw : IsPrimitiveRoot w n) {f : K[X]} (h : ∀ j < n, f.eval (w ^ j) = 0) :
    (X ^ n - 1 : K[X]) ∣ f := by
  have hm : (X ^ n - 1 : K[X]).Monic := monic_X_pow_sub_C (1 : K) hn.ne'
  have hd : (X ^ n - 1 : K[X]).natDegree = n := natDegree_X_pow_sub_C (r := (1 : K))
  rw [← modByMonic_eq_zero_iff_dvd hm]
  refine eq_of_coset one_ne_zero hw ?_ (by rw [natDegree_zero]; exact hn) fun j hj => ?_
  · have := natDegree_modByMonic_lt f hm (by intro h; rw [h, natDegree_one] at hd; omega)
    rwa [hd] at this
  · have e := congrArg (eval (w ^ j)) (modByMonic_add_div f (X ^ n - 1 : K[X]))
    have h1 : (w ^ j) ^ n = 1 := by rw [← pow_mul, mul_comm, pow_mul, hw.pow_eq_one, one_pow]
    rw [eval_add, eval_mul, eval_sub, eval_pow, eval_X, eval_one, h1, sub_self, zero_mul, add_zero, h j hj] at e
    rw [one_mul, e, eval_zero]

/-- The gate as a polynomial. -/
noncomputable def Gate.poly (gate : Gate K) (w : K) (f : ℕ → K[X]) : K[X] := gate.eval C fun i rot => (f i).comp (C (w ^ rot) * X)

theorem Gate.eval_poly (gate : Gate K) (w : K) (f : ℕ → K[X]) (x : K) :
    (gate.poly w f).eval x = gate.eval id fun i rot => (f i).eval (w ^ rot * x) := by
  induction gate with
  | const c => exact eval_C
  | col i rot => simp [poly, eval, eval_comp]
  | add a b iha ihb => rw [poly, eval, eval_add, ← poly, ← poly, iha, ihb]; rfl
  | mul a b iha ihb => rw [poly, eval, eval_mul, ← poly, ← poly, iha, ihb]; rfl

theorem Gate.natDegree_poly (gate : Gate K) (w : K) (f : ℕ → K[X]) (m : ℕ) (hf : ∀ i, (f i).natDegree ≤ m) :
    (gate.poly w f).natDegree ≤ gate.degree * m := by
  induction gate with
  | const c => rw [poly, eval, natDegree_C]; exact Nat.zero_le _
  | col i rot =>
    rw [poly, eval, degree, one_mul]
    refine natDegree_comp_le.trans ?_
    have h1 : (C (w ^ rot) * X : K[X]).natDegree ≤ 1 := by
      have := natDegree_C_mul_X_pow_le (w ^ rot) 1
      rwa [pow_one] at this
    calc _ ≤ (f i).natDegree * 1 := Nat.mul_le_mul_left _ h1
      _ ≤ m := by rw [mul_one]; exact hf i
  | add a b iha ihb =>
    rw [poly, eval, ← poly, ← poly, degree]
    refine (natDegree_add_le _ _).trans (max_le (iha.trans (Nat.mul_le_mul_right _ (le_max_left _ _))) (ihb.trans (Nat.mul_le_mul_right _ (le_max_right _ _))))
  | mul a b iha ihb =>
    rw [poly, eval, ← poly, ← poly, degree, Nat.add_mul]
    exact natDegree_mul_le.trans (Nat.add_le_add iha ihb)

theorem Gate.eval_congr (gate : Gate K) {v v' : ℕ → ℕ → K} (h : ∀ i rot, v i rot = v' i rot) : gate.eval id v = gate.eval id v' := by
  have : v = v' := funext fun i => funext fun rot => h i rot
  rw [this]

/-- The quotient on the coset has no coefficients from `E - n` on exactly if the polynomial vanishes in all rows. -/
theorem quotient_iff {n E : ℕ} (hn : 0 < n) (hnE : n ≤ E) {w wE s : K} (hw : IsPrimitiveRoot w n) (hwE : IsPrimitiveRoot wE E) (hs : s ≠ 0)
    (F q : K[X]) (hF : F.natDegree < E) (hq : q.natDegree < E)
    (h : ∀ j < E, q.eval (s * wE ^ j) * ((s * wE ^ j) ^ n - 1) = F.eval (s * wE ^ j))
    (hne : ∀ j < E, (s * wE ^ j) ^ n - 1 ≠ 0) :
    ((∀ j, E - n ≤ j → q.coeff j = 0) ↔ ∀ i < n, F.eval (w ^ i) = 0) ∧ ((∀ i < n, F.eval (w ^ i) = 0) → q * (X ^ n - 1) = F) := by
  have hm : (X ^ n - 1 : K[X]).Monic := monic_X_pow_sub_C (1 : K) hn.ne'
  have hd : (X ^ n - 1 : K[X]).natDegree = n := natDegree_X_pow_sub_C (r := (1 : K))
  have up : (∀ i < n, F.eval (w ^ i) = 0) → q * (X ^ n - 1) = F ∧ ∀ j, E - n ≤ j → q.coeff j = 0 := fun hr => by
    obtain ⟨t, ht⟩ := dvd_of_rows hn hw hr
    have htd : t = 0 ∨ t.natDegree + n < E := by
      by_cases h0 : t = 0
      · exact .inl h0
      · right
        rw [ht, hm.natDegree_mul' h0, hd] at hF
        omega
    have e : q = t := by
      refine eq_of_coset hs hwE hq (by rcases htd with h0 | h0; rw [h0, natDegree_zero]; omega; omega) fun j hj => ?_
      have := h j hj
      rw [ht, eval_mul, eval_sub, eval_pow, eval_X, eval_one, mul_comm] at this
      exact mul_left_cancel₀ (hne j hj) this
    refine ⟨by rw [e, ht, mul_comm], fun j hj => ?_⟩
    rw [e]
    rcases htd with h0 | h0
    · rw [h0, coeff_zero]
    · exact coeff_eq_zero_of_natDegree_lt (by omega)
  refine ⟨⟨fun hc => ?_, fun hr => (up hr).2⟩, fun hr => (up hr).1⟩
  have hqd : q = 0 ∨ q.natDegree < E - n := by
    by_cases h0 : q = 0
    · exact .inl h0
    · right
      by_contra hlt
      exact h0 (leadingCoeff_eq_zero.mp (hc _ (Nat.le_of_not_lt hlt)))
  have e : q * (X ^ n - 1) = F := by
    refine eq_of_coset hs hwE ?_ hF fun j hj => ?_
    · rcases hqd with h0 | h0
      · rw [h0, zero_mul, natDegree_zero]; omega
      · have := natDegree_mul_le (p := q) (q := X ^ n - 1)
        rw [hd] at this
        omega
    · rw [← h j hj, eval_mul, eval_sub, eval_pow, eval_X, eval_one]
  intro i _
  have h1 : (w ^ i) ^ n = 1 := by rw [← pow_mul, mul_comm, pow_mul, hw.pow_eq_one, one_pow]
  rw [← e, eval_mul, eval_sub, eval_pow, eval_X, eval_one, h1, sub_self, mul_zero]

end Pure

/-- The value at `x` of the polynomial with the coefficients `a`, constant term first. -/
def evalList {K : Type} [_root_.Field K] (a : List K) (x : K) : K := ∑ j ∈ Finset.range a.length, a.getD j 0 * x ^ j

theorem evalList_coeffs {K : Type} [_root_.Field K] (f : K[X]) (n : ℕ) (hf : f.natDegree < n) (x : K) : evalList (coeffs f n) x = f.eval x := by
  rw [evalList, eval_eq_sum_range' hf, coeffs, List.length_map, List.length_range]
  refine Finset.sum_congr rfl fun j hj => ?_
  rw [List.getD_eq_getElem?_getD, List.getElem?_map, List.getElem?_range (Finset.mem_range.mp hj)]
  rfl

theorem getD_nil {A : Type} (l : List (List A)) (i : ℕ) : l.getD i [] = (l[i]?).getD [] := List.getD_eq_getElem?_getD

theorem getD_values {K : Type} [_root_.Field K] (f : K[X]) (s w : K) {n j : ℕ} (hj : j < n) : (values f s w n).getD j 0 = f.eval (s * w ^ j) := by
  rw [List.getD_eq_getElem?_getD, values, List.getElem?_map, List.getElem?_range hj]
  rfl

section Spec

variable {p g z : ℕ} [Fact p.Prime] [Fact (OddModulus p)] [Fp.SmallModulus p]

/-- What the constants of the domain are. -/
structure DomainOk (d : Domain (Fp p)) : Prop where
  le : d.k ≤ d.ek
  lt : d.ek < 64
  root : IsPrimitiveRoot d.omega (2 ^ d.k)
  inv : d.omegaInv = d.omega⁻¹
  rootE : IsPrimitiveRoot d.omegaE (2 ^ d.ek)
  invE : d.omegaEInv = d.omegaE⁻¹
  omega : d.omega = d.omegaE ^ 2 ^ (d.ek - d.k)
  cube : d.zeta ^ 3 = 1
  ne_one : d.zeta ≠ 1
  zinv : d.zetaInv = d.zeta * d.zeta
  two : d.twoInv * 2 = 1

theorem mkDomain_ok (hc : ConstsSpec p g z) {k ek : ℕ} (hk : k ≤ ek) (hS : ek ≤ Fp.macroS p) (h64 : ek < 64) :
    DomainOk (mkDomain p g z k ek) where
  le := hk
  lt := h64
  root := by rw [mkDomain]; dsimp only; rw [iterate_square]; exact (RootSpec.of hc k (hk.trans hS)).1
  inv := by
    rw [mkDomain]; dsimp only; rw [iterate_square, iterate_square]
    exact (inv_eq_of_mul_eq_one_right (RootSpec.of hc k (hk.trans hS)).2).symm
  rootE := by rw [mkDomain]; dsimp only; rw [iterate_square]; exact (RootSpec.of hc ek hS).1
  invE := by
    rw [mkDomain]; dsimp only; rw [iterate_square, iterate_square]
    exact (inv_eq_of_mul_eq_one_right (RootSpec.of hc ek hS).2).symm
  omega := by
    rw [mkDomain]; dsimp only
    rw [iterate_square, iterate_square, ← pow_mul, ← pow_add]
    congr 2
    omega
  cube := hc.zeta_cube
  ne_one := hc.zeta_ne_one
  zinv := rfl
  two := hc.two_inv

variable {d : Domain (Fp p)}

theorem DomainOk.zeta_ne (h : DomainOk d) : d.zeta ≠ 0 := fun e => by
  have := h.cube
  rw [e, zero_pow (by decide)] at this
  exact zero_ne_one this

theorem DomainOk.two_pow (h : DomainOk d) (N : ℕ) : d.twoInv ^ N = (2 ^ N)⁻¹ := by
  rw [← inv_pow]
  congr 1
  exact eq_inv_of_mul_eq_one_left h.two

/-- A power of a cube root of one to a power of two is not one. -/
theorem DomainOk.zeta_pow (h : DomainOk d) (n : ℕ) : d.zeta ^ 2 ^ n ≠ 1 := fun e => by
  have h1 : orderOf d.zeta ∣ 2 ^ n := orderOf_dvd_of_pow_eq_one e
  have h2 : orderOf d.zeta ∣ 3 := orderOf_dvd_of_pow_eq_one h.cube
  have h3 : orderOf d.zeta ∣ 1 := by
    have hco : Nat.Coprime (2 ^ n) 3 := Nat.Coprime.pow_left n (by decide)
    rw [← hco.gcd_eq_one]
    exact Nat.dvd_gcd h1 h2
  exact h.ne_one (orderOf_eq_one_iff.mp (Nat.dvd_one.mp h3))

/-- The vanishing polynomial has no zero on the coset. -/
theorem DomainOk.coset_ne (h : DomainOk d) (j : ℕ) : (d.zeta * d.omegaE ^ j) ^ 2 ^ d.k - 1 ≠ 0 := fun e => by
  have e1 : (d.zeta * d.omegaE ^ j) ^ 2 ^ d.k = 1 := sub_eq_zero.mp e
  have e2 : (d.zeta * d.omegaE ^ j) ^ 2 ^ d.ek = 1 := by
    rw [show d.ek = d.k + (d.ek - d.k) by have := h.le; omega, pow_add, pow_mul, e1, one_pow]
  rw [mul_pow, ← pow_mul, mul_comm j, pow_mul, h.rootE.pow_eq_one, one_pow, mul_one] at e2
  exact h.zeta_pow _ e2

theorem DomainOk.toCoeff (h : DomainOk d) (checks : Bool) (threads : ℕ) (rows : List (Fp p)) (hr : rows.length = 2 ^ d.k) :
    ∃ f : (Fp p)[X], f.natDegree < 2 ^ d.k ∧ values f 1 d.omega (2 ^ d.k) = rows ∧ d.toCoeff checks threads rows = some (coeffs f (2 ^ d.k)) := by
  obtain ⟨f, h1, h2, h3, -⟩ := C75_interpolate d.k (by have := h.le; have := h.lt; omega) d.omega h.root checks threads rows hr
  refine ⟨f, h1, h2, ?_⟩
  rw [Domain.toCoeff, h.inv, h.two_pow, ← h3]
  rfl

theorem DomainOk.toExtended (h : DomainOk d) (checks : Bool) (threads : ℕ) (f : (Fp p)[X]) (hf : f.natDegree < 2 ^ d.k) :
    d.toExtended checks threads (coeffs f (2 ^ d.k)) = some (values f d.zeta d.omegaE (2 ^ d.ek)) := by
  have hle : 2 ^ d.k ≤ 2 ^ d.ek := Nat.pow_le_pow_right (by decide) h.le
  rw [← (C75_eval d.ek h.lt d.omegaE d.zeta h.rootE checks threads f (by omega)).2, Domain.toExtended]
  congr 1
  rw [coeffs, h.zinv, distribute_eq h.cube]
  apply List.ext_getElem?
  intro j
  rw [coeffs, List.zipWith_map_left, List.zipWith_self, List.length_map, List.length_range]
  by_cases hj : j < 2 ^ d.k
  · rw [List.getElem?_append_left (by simpa using hj), List.getElem?_map, List.getElem?_map, List.getElem?_range hj,
      List.getElem?_range (by omega)]
  · by_cases hj2 : j < 2 ^ d.ek
    · rw [List.getElem?_append_right (by simpa using hj), List.getElem?_replicate, List.length_map, List.length_range, if_pos (by omega),
        List.getElem?_map, List.getElem?_range hj2, Option.map_some, coeff_eq_zero_of_natDegree_lt (by omega), zero_mul]
    · rw [List.getElem?_eq_none (by simp; omega), List.getElem?_eq_none (by simp; omega)]

theorem DomainOk.vanishing (h : DomainOk d) :
    d.vanishing = some ((List.range (2 ^ (d.ek - d.k))).map fun i => (d.zeta ^ 2 ^ d.k * (d.omegaE ^ 2 ^ d.k) ^ i - 1)⁻¹) := by
  rw [Domain.vanishing]
  refine mapM_some _ fun i _ => ?_
  rw [invert_eq, if_neg]
  rw [← pow_mul, mul_comm (2 ^ d.k), pow_mul, ← mul_pow]
  exact h.coset_ne i

theorem DomainOk.fromExtended (h : DomainOk d) (checks : Bool) (threads : ℕ) (v : List (Fp p)) (hv : v.length = 2 ^ d.ek) :
    ∃ q : (Fp p)[X], q.natDegree < 2 ^ d.ek ∧ values q d.zeta d.omegaE (2 ^ d.ek) = v ∧
      d.fromExtended checks threads v = some (coeffs q (2 ^ d.ek)) := by
  obtain ⟨f, h1, h2, h3, -⟩ := C75_interpolate d.ek h.lt d.omegaE h.rootE checks threads v hv
  have hz : (d.zeta * d.zeta) ^ 3 = 1 := by rw [mul_pow, h.cube, one_mul]
  have hz2 : d.zeta * d.zeta * (d.zeta * d.zeta) = d.zeta := by
    have := h.cube
    linear_combination d.zeta * this
  have hcf : ∀ j, (f.comp (C (d.zeta * d.zeta) * X)).coeff j = f.coeff j * (d.zeta * d.zeta) ^ j := fun j => comp_C_mul_X_coeff
  refine ⟨f.comp (C (d.zeta * d.zeta) * X), ?_, ?_, ?_⟩
  · have hpos : 0 < 2 ^ d.ek := Nat.pos_of_ne_zero (by positivity)
    rw [Nat.lt_iff_le_pred hpos, natDegree_le_iff_coeff_eq_zero]
    intro j hj
    rw [hcf, coeff_eq_zero_of_natDegree_lt (by omega), zero_mul]
  · rw [← h2, values, values]
    apply List.map_congr_left
    intro j _
    rw [eval_comp, eval_mul, eval_C, eval_X]
    congr 1
    have := h.cube
    linear_combination d.omegaE ^ j * this
  · rw [invFft, Option.map_eq_some_iff] at h3
    obtain ⟨c, hc1, hc2⟩ := h3
    rw [Domain.fromExtended, h.invE, hc1, Option.map_some, h.two_pow, hc2, h.zinv, coeffs]
    congr 1
    have := distribute_eq hz (2 ^ d.ek) f.coeff
    rw [hz2] at this
    rw [this, coeffs]
    exact List.map_congr_left fun j _ => (hcf j).symm

/-- Column `i` as a polynomial, for a choice of the polynomials of the columns. -/
noncomputable def colPoly (poly : List (Fp p) → (Fp p)[X]) (cols : List (List (Fp p))) (i : ℕ) : (Fp p)[X] := ((cols[i]?).map poly).getD 0

theorem DomainOk.columns (h : DomainOk d) (checks : Bool) (threads : ℕ) (cols : List (List (Fp p))) (hcols : ∀ c ∈ cols, c.length = 2 ^ d.k)
    {cs : List (List (Fp p))} (hcs : cols.mapM (d.toCoeff checks threads) = some cs) :
    ∃ f : ℕ → (Fp p)[X], (∀ i, (f i).natDegree ≤ 2 ^ d.k - 1) ∧
      (∀ i j, j < 2 ^ d.k → (cols.getD i []).getD j 0 = (f i).eval (d.omega ^ j)) ∧
      ∀ i x, evalList (cs.getD i []) x = (f i).eval x := by
  choose! poly hpd hpv hpc using fun c hc' => h.toCoeff checks threads c (hcols c hc')
  rw [mapM_some (f := d.toCoeff checks threads) (g := fun c => coeffs (poly c) (2 ^ d.k)) cols hpc] at hcs
  obtain rfl := Option.some.inj hcs
  refine ⟨colPoly poly cols, fun i => ?_, fun i j hj => ?_, fun i x => ?_⟩
  · rw [colPoly]
    cases e : cols[i]? with
    | none => rw [Option.map_none, Option.getD_none, natDegree_zero]; exact Nat.zero_le _
    | some c =>
      rw [Option.map_some, Option.getD_some]
      have := hpd c (List.mem_of_getElem? e)
      omega
  · rw [getD_nil, colPoly]
    cases e : cols[i]? with
    | none => rw [Option.map_none, Option.getD_none, Option.getD_none, eval_zero]; rfl
    | some c =>
      rw [Option.map_some, Option.getD_some, Option.getD_some]
      conv_lhs => rw [← hpv c (List.mem_of_getElem? e)]
      rw [getD_values _ _ _ hj, one_mul]
  · rw [getD_nil, List.getElem?_map, colPoly]
    cases e : cols[i]? with
    | none => rw [Option.map_none, Option.map_none, Option.getD_none, Option.getD_none, eval_zero]; rfl
    | some c =>
      rw [Option.map_some, Option.map_some, Option.getD_some, Option.getD_some, evalList_coeffs _ _ (hpd c (List.mem_of_getElem? e))]

/-- **C89** For every field of the macro, all sizes up to its two-adicity, any columns and any identity whose degree fits: the quotient is
computed without a panic, its last `2^k` coefficients are zero exactly if the identity holds in all rows, and then the identity of
polynomials holds that a verifier checks at a point `x`. -/
theorem C89_rows (hc : ConstsSpec p g z) {k ek : ℕ} (hk : k ≤ ek) (hS : ek ≤ Fp.macroS p) (h64 : ek < 64) (checks : Bool) (threads : ℕ)
    (cols : List (List (Fp p))) (hcols : ∀ c ∈ cols, c.length = 2 ^ k) (gate : Gate (Fp p)) (hdeg : gate.degree * (2 ^ k - 1) < 2 ^ ek) :
    ∃ q cs, (mkDomain p g z k ek).quotient checks threads cols gate = some q ∧ q.length = 2 ^ ek ∧
      cols.mapM ((mkDomain p g z k ek).toCoeff checks threads) = some cs ∧
      ((∀ j, 2 ^ ek - 2 ^ k ≤ j → j < 2 ^ ek → q.getD j 0 = 0) ↔
        ∀ row < 2 ^ k, gate.eval id (fun i rot => (cols.getD i []).getD ((row + rot) % 2 ^ k) 0) = 0) ∧
      ((∀ row < 2 ^ k, gate.eval id (fun i rot => (cols.getD i []).getD ((row + rot) % 2 ^ k) 0) = 0) →
        ∀ x, evalList q x * (x ^ 2 ^ k - 1) =
          gate.eval id fun i rot => evalList (cs.getD i []) ((mkDomain p g z k ek).omega ^ rot * x)) := by
  have h := mkDomain_ok hc hk hS h64
  have dk : (mkDomain p g z k ek).k = k := rfl
  have de : (mkDomain p g z k ek).ek = ek := rfl
  generalize mkDomain p g z k ek = d at h dk de
  subst dk de
  have hn : 0 < 2 ^ d.k := Nat.pos_of_ne_zero (by positivity)
  have hE : 0 < 2 ^ d.ek := Nat.pos_of_ne_zero (by positivity)
  have hle : 2 ^ d.k ≤ 2 ^ d.ek := Nat.pow_le_pow_right (by decide) h.le
  have hmE : 2 ^ d.k * 2 ^ (d.ek - d.k) = 2 ^ d.ek := by rw [← pow_add]; congr 1; have := h.le; omega
  choose! poly hpd hpv hpc using fun c hc' => h.toCoeff checks threads c (hcols c hc')
  have hdegf : ∀ i, (colPoly poly cols i).natDegree ≤ 2 ^ d.k - 1 := fun i => by
    rw [colPoly]
    cases e : cols[i]? with
    | none => rw [Option.map_none, Option.getD_none, natDegree_zero]; exact Nat.zero_le _
    | some c =>
      rw [Option.map_some, Option.getD_some]
      have := hpd c (List.mem_of_getElem? e)
      omega
  have hcs := mapM_some (f := d.toCoeff checks threads) (g := fun c => coeffs (poly c) (2 ^ d.k)) cols hpc
  have hes : (cols.map fun c => coeffs (poly c) (2 ^ d.k)).mapM (d.toExtended checks threads) =
      some (cols.map fun c => values (poly c) d.zeta d.omegaE (2 ^ d.ek)) := by
    rw [List.mapM_map]
    exact mapM_some _ fun c hc' => h.toExtended checks threads (poly c) (hpd c hc')
  have hE1 : ∀ i j, j < 2 ^ d.ek → ((cols.map fun c => values (poly c) d.zeta d.omegaE (2 ^ d.ek)).getD i []).getD j 0 =
      (colPoly poly cols i).eval (d.zeta * d.omegaE ^ j) := fun i j hj => by
    rw [getD_nil, List.getElem?_map, colPoly]
    cases cols[i]? with
    | none => rw [Option.map_none, Option.map_none, Option.getD_none, Option.getD_none, eval_zero]; rfl
    | some c => rw [Option.map_some, Option.map_some, Option.getD_some, Option.getD_some, getD_values _ _ _ hj]
  have hR1 : ∀ i j, j < 2 ^ d.k → (cols.getD i []).getD j 0 = (colPoly poly cols i).eval (d.omega ^ j) := fun i j hj => by
    rw [getD_nil, colPoly]
    cases e : cols[i]? with
    | none => rw [Option.map_none, Option.getD_none, Option.getD_none, eval_zero]; rfl
    | some c =>
      rw [Option.map_some, Option.getD_some, Option.getD_some]
      conv_lhs => rw [← hpv c (List.mem_of_getElem? e)]
      rw [getD_values _ _ _ hj, one_mul]
  have hC1 : ∀ i x, evalList ((cols.map fun c => coeffs (poly c) (2 ^ d.k)).getD i []) x = (colPoly poly cols i).eval x := fun i x => by
    rw [getD_nil, List.getElem?_map, colPoly]
    cases e : cols[i]? with
    | none => rw [Option.map_none, Option.map_none, Option.getD_none, Option.getD_none, eval_zero]; rfl
    | some c =>
      rw [Option.map_some, Option.map_some, Option.getD_some, Option.getD_some, evalList_coeffs _ _ (hpd c (List.mem_of_getElem? e))]
  have hFd : (gate.poly d.omega (colPoly poly cols)).natDegree < 2 ^ d.ek := lt_of_le_of_lt (gate.natDegree_poly _ _ _ hdegf) hdeg
  have hrow : ∀ row < 2 ^ d.k, gate.eval id (fun i rot => (cols.getD i []).getD ((row + rot) % 2 ^ d.k) 0) =
      (gate.poly d.omega (colPoly poly cols)).eval (d.omega ^ row) := fun row _ => by
    rw [Gate.eval_poly]
    refine gate.eval_congr fun i rot => ?_
    rw [hR1 _ _ (Nat.mod_lt _ hn), ← pow_add, add_comm rot row]
    congr 1
    conv_rhs => rw [← Nat.div_add_mod (row + rot) (2 ^ d.k), pow_add, pow_mul, h.root.pow_eq_one, one_pow, one_mul]
  obtain ⟨q, hqd, hqv, hq⟩ := h.fromExtended checks threads ((List.range (2 ^ d.ek)).map fun j =>
    gate.eval id (fun i rot => ((cols.map fun c => values (poly c) d.zeta d.omegaE (2 ^ d.ek)).getD i []).getD
      ((j + rot * 2 ^ (d.ek - d.k)) % 2 ^ d.ek) 0) *
      ((List.range (2 ^ (d.ek - d.k))).map fun i => (d.zeta ^ 2 ^ d.k * (d.omegaE ^ 2 ^ d.k) ^ i - 1)⁻¹).getD (j % 2 ^ (d.ek - d.k)) 0)
    (by rw [List.length_map, List.length_range])
  have hqe : ∀ j < 2 ^ d.ek, q.eval (d.zeta * d.omegaE ^ j) * ((d.zeta * d.omegaE ^ j) ^ 2 ^ d.k - 1) =
      (gate.poly d.omega (colPoly poly cols)).eval (d.zeta * d.omegaE ^ j) := fun j hj => by
    have e := congrArg (·.getD j 0) hqv
    simp only [getD_values _ _ _ hj] at e
    rw [List.getD_eq_getElem?_getD, List.getElem?_map, List.getElem?_range hj, Option.map_some, Option.getD_some] at e
    have hm : 0 < 2 ^ (d.ek - d.k) := Nat.pos_of_ne_zero (by positivity)
    have e2 : ((List.range (2 ^ (d.ek - d.k))).map fun i => (d.zeta ^ 2 ^ d.k * (d.omegaE ^ 2 ^ d.k) ^ i - 1)⁻¹).getD (j % 2 ^ (d.ek - d.k)) 0 =
        ((d.zeta * d.omegaE ^ j) ^ 2 ^ d.k - 1)⁻¹ := by
      rw [List.getD_eq_getElem?_getD, List.getElem?_map, List.getElem?_range (Nat.mod_lt _ hm), Option.map_some, Option.getD_some]
      have hpow : (d.omegaE ^ 2 ^ d.k) ^ 2 ^ (d.ek - d.k) = 1 := by rw [← pow_mul, hmE, h.rootE.pow_eq_one]
      have : (d.omegaE ^ 2 ^ d.k) ^ (j % 2 ^ (d.ek - d.k)) = (d.omegaE ^ 2 ^ d.k) ^ j := by
        conv_rhs => rw [← Nat.div_add_mod j (2 ^ (d.ek - d.k)), pow_add, pow_mul, hpow, one_pow, one_mul]
      rw [this, mul_pow, ← pow_mul, ← pow_mul, mul_comm j]
    rw [e, e2, mul_assoc, inv_mul_cancel₀ (h.coset_ne j), mul_one, Gate.eval_poly]
    refine gate.eval_congr fun i rot => ?_
    rw [hE1 _ _ (Nat.mod_lt _ hE)]
    congr 1
    have : d.omegaE ^ ((j + rot * 2 ^ (d.ek - d.k)) % 2 ^ d.ek) = d.omegaE ^ (j + rot * 2 ^ (d.ek - d.k)) := by
      conv_rhs => rw [← Nat.div_add_mod (j + rot * 2 ^ (d.ek - d.k)) (2 ^ d.ek), pow_add _ (_ * _), pow_mul, h.rootE.pow_eq_one, one_pow, one_mul]
    rw [this, pow_add, h.omega, ← pow_mul, mul_comm rot]
    ring
  obtain ⟨key1, key2⟩ := quotient_iff hn hle h.root h.rootE h.zeta_ne _ q hFd hqd hqe (fun j _ => h.coset_ne j)
  have hall : (∀ row < 2 ^ d.k, gate.eval id (fun i rot => (cols.getD i []).getD ((row + rot) % 2 ^ d.k) 0) = 0) ↔
      ∀ row < 2 ^ d.k, (gate.poly d.omega (colPoly poly cols)).eval (d.omega ^ row) = 0 :=
    forall₂_congr fun row hr => by rw [hrow row hr]
  refine ⟨coeffs q (2 ^ d.ek), _, ?_, by rw [coeffs, List.length_map, List.length_range], hcs, ?_, fun hr x => ?_⟩
  · rw [Domain.quotient, hcs, Option.bind_eq_bind, Option.bind_some, hes, Option.bind_eq_bind, Option.bind_some, h.vanishing,
      Option.bind_some, hq]
  · rw [hall, ← key1]
    refine forall₂_congr fun j hj => ⟨fun hz => ?_, fun hz hj2 => ?_⟩
    · by_cases hj2 : j < 2 ^ d.ek
      · have := hz hj2
        rwa [coeffs, List.getD_eq_getElem?_getD, List.getElem?_map, List.getElem?_range hj2, Option.map_some, Option.getD_some] at this
      · exact coeff_eq_zero_of_natDegree_lt (by omega)
    · rw [coeffs, List.getD_eq_getElem?_getD, List.getElem?_map, List.getElem?_range hj2, Option.map_some, Option.getD_some, hz]
  · have e := congrArg (eval x) (key2 (hall.mp hr))
    rw [eval_mul, eval_sub, eval_pow, eval_X, eval_one, Gate.eval_poly] at e
    rw [evalList_coeffs _ _ hqd, e]
    exact gate.eval_congr fun i rot => (hC1 i _).symm

/-- **C89** If the identity fails in some row, then for any claimed quotient, whatever its length, the verifier's equation holds for few
points `x` only. -/
theorem C89_check (hc : ConstsSpec p g z) {k ek : ℕ} (hk : k ≤ ek) (hS : ek ≤ Fp.macroS p) (h64 : ek < 64) (checks : Bool) (threads : ℕ)
    (cols : List (List (Fp p))) (hcols : ∀ c ∈ cols, c.length = 2 ^ k) (gate : Gate (Fp p)) {cs : List (List (Fp p))}
    (hcs : cols.mapM ((mkDomain p g z k ek).toCoeff checks threads) = some cs) {row : ℕ} (hrow : row < 2 ^ k)
    (hbad : gate.eval id (fun i rot => (cols.getD i []).getD ((row + rot) % 2 ^ k) 0) ≠ 0) (q : List (Fp p)) (S : Finset (Fp p))
    (hacc : ∀ x ∈ S, evalList q x * (x ^ 2 ^ k - 1) =
      gate.eval id fun i rot => evalList (cs.getD i []) ((mkDomain p g z k ek).omega ^ rot * x)) :
    S.card ≤ max (q.length - 1 + 2 ^ k) (gate.degree * (2 ^ k - 1)) := by
  have h := mkDomain_ok hc hk hS h64
  have dk : (mkDomain p g z k ek).k = k := rfl
  have de : (mkDomain p g z k ek).ek = ek := rfl
  generalize mkDomain p g z k ek = d at h dk de hcs hacc
  subst dk de
  have hn : 0 < 2 ^ d.k := Nat.pos_of_ne_zero (by positivity)
  obtain ⟨poly, hdegf, hR1, hC1⟩ := h.columns checks threads cols hcols hcs
  let Q : (Fp p)[X] := ∑ j ∈ Finset.range q.length, C (q.getD j 0) * X ^ j
  have hQe : ∀ x, Q.eval x = evalList q x := fun x => by
    rw [eval_finsetSum, evalList]
    exact Finset.sum_congr rfl fun j _ => by rw [eval_mul, eval_C, eval_pow, eval_X]
  have hQd : Q.natDegree ≤ q.length - 1 := natDegree_sum_le_of_forall_le _ _ fun j hj => (natDegree_C_mul_X_pow_le _ _).trans (by
    have := Finset.mem_range.mp hj
    omega)
  have hP : Q * (X ^ 2 ^ d.k - 1) - gate.poly d.omega poly ≠ 0 := fun e => by
    have e := congrArg (eval (d.omega ^ row)) e
    have h1 : (d.omega ^ row) ^ 2 ^ d.k = 1 := by rw [← pow_mul, mul_comm, pow_mul, h.root.pow_eq_one, one_pow]
    rw [eval_sub, eval_mul, eval_sub, eval_pow, eval_X, eval_one, h1, sub_self, mul_zero, zero_sub, eval_zero, neg_eq_zero, Gate.eval_poly] at e
    refine hbad ((gate.eval_congr fun i rot => ?_).trans e)
    rw [hR1 _ _ (Nat.mod_lt _ hn), ← pow_add, add_comm rot row]
    congr 1
    conv_rhs => rw [← Nat.div_add_mod (row + rot) (2 ^ d.k), pow_add, pow_mul, h.root.pow_eq_one, one_pow, one_mul]
  have hsub : S.val ⊆ (Q * (X ^ 2 ^ d.k - 1) - gate.poly d.omega poly).roots := fun x hx => by
    rw [mem_roots hP, IsRoot.def, eval_sub, eval_mul, eval_sub, eval_pow, eval_X, eval_one, hQe, hacc x hx, Gate.eval_poly, sub_eq_zero]
    exact gate.eval_congr fun i rot => hC1 i _
  refine (card_le_degree_of_subset_roots hsub).trans ((natDegree_sub_le _ _).trans (max_le_max ?_ (gate.natDegree_poly _ _ _ hdegf)))
  refine natDegree_mul_le.trans (Nat.add_le_add hQd ?_)
  exact (natDegree_X_pow_sub_C (n := 2 ^ d.k) (r := (1 : Fp p))).le

end Spec

/-- Two columns with two rows over bn256's scalar field: the second column is the square of the first. The quotient of `a a - b` has no
coefficients from `2` on. -/
example (checks : Bool) (threads : ℕ) : ∃ q, (mkDomain bnR 7 bnRZeta 1 2).quotient checks threads [[3, 5], [9, 25]]
      (.add (.mul (.col 0 0) (.col 0 0)) (.mul (.const (-1)) (.col 1 0))) = some q ∧ q.length = 4 ∧ q.getD 2 0 = 0 ∧ q.getD 3 0 = 0 := by
  obtain ⟨q, cs, h1, h2, -, h3, -⟩ := C89_rows C12_constants.2.1 (k := 1) (ek := 2) (by decide) (by decide +kernel) (by decide) checks threads
    [[3, 5], [9, 25]] (by simp) (.add (.mul (.col 0 0) (.col 0 0)) (.mul (.const (-1)) (.col 1 0))) (by decide)
  have h := h3.mpr fun row hr => by
    interval_cases row <;> simp [Gate.eval] <;> norm_num
  exact ⟨q, h1, h2, h 2 (by decide) (by decide), h 3 (by decide) (by decide)⟩

/-- With a wrong entry in the second row no quotient of four coefficients satisfies the equation at more than five points. -/
example (q : List (Fp bnR)) (hq : q.length = 4) (cs : List (List (Fp bnR)))
    (hcs : [[3, 5], [9, 24]].mapM ((mkDomain bnR 7 bnRZeta 1 2).toCoeff true 1) = some cs) (S : Finset (Fp bnR))
    (hS : ∀ x ∈ S, evalList q x * (x ^ 2 ^ 1 - 1) = Gate.eval id
      (fun i rot => evalList (cs.getD i []) ((mkDomain bnR 7 bnRZeta 1 2).omega ^ rot * x))
      (.add (.mul (.col 0 0) (.col 0 0)) (.mul (.const (-1)) (.col 1 0)))) : S.card ≤ 5 := by
  have h := C89_check C12_constants.2.1 (k := 1) (ek := 2) (by decide) (by decide +kernel) (by decide) true 1 [[3, 5], [9, 24]] (by simp)
    (.add (.mul (.col 0 0) (.col 0 0)) (.mul (.const (-1)) (.col 1 0))) hcs (row := 1) (by decide)
    (by simp [Gate.eval]; norm_num) q S hS
  rw [hq] at h
  exact h.trans (by decide)

end Halo2.Props
