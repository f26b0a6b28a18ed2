import Verif.Fft.Model
import Verif.Msm.Best
import Mathlib.Algebra.BigOperators.Module
import Mathlib.Algebra.BigOperators.Intervals
import Mathlib.Algebra.Module.Basic
import Mathlib.RingTheory.RootsOfUnity.PrimitiveRoots
import Mathlib.Tactic.Ring
import Mathlib.Tactic.Linarith

set_option linter.unusedSectionVars false

namespace Halo2.Fft

open Halo2.Msm

/-! ## Bit reversal -/

/-- Bit reversal, one bit at a time from the bottom. -/
def rev : ℕ → ℕ → ℕ
  | 0, _ => 0
  | l + 1, n => 2 ^ l * (n % 2) + rev l (n / 2)

theorem rev_lt (l n : ℕ) : rev l n < 2 ^ l := by
  induction l generalizing n with
  | zero => exact Nat.one_pos
  | succ l ih =>
    have := ih (n / 2)
    rw [rev, pow_succ]
    have h : n % 2 ≤ 1 := by omega
    have := Nat.mul_le_mul_left (2 ^ l) h
    omega

theorem iter_rev (l n r : ℕ) (hr : r < 2 ^ 64) :
    (Nat.iterate (fun s : ℕ × ℕ => (s.1 >>> 1, (s.2 <<< 1) % 2 ^ 64 ||| (s.1 &&& 1))) l (n, r)).2 =
      (2 ^ l * r + rev l n) % 2 ^ 64 := by
  induction l generalizing n r with
  | zero => rw [Function.iterate_zero_apply, rev, pow_zero, Nat.one_mul, Nat.add_zero, Nat.mod_eq_of_lt hr]
  | succ l ih =>
    rw [Function.iterate_succ_apply]
    dsimp only
    have e : (r <<< 1) % 2 ^ 64 ||| (n &&& 1) = (2 * r + n % 2) % 2 ^ 64 := by
      have h : (r <<< 1) % 2 ^ 64 = (r % 2 ^ 63) <<< 1 := by rw [Nat.shiftLeft_eq, Nat.shiftLeft_eq]; omega
      rw [h, Nat.and_one_is_mod, ← Nat.shiftLeft_add_eq_or_of_lt (by omega : n % 2 < 2 ^ 1), Nat.shiftLeft_eq]
      omega
    rw [e, ih _ _ (Nat.mod_lt _ (by decide)), Nat.shiftRight_one, rev]
    have : 2 ^ (l + 1) * r + (2 ^ l * (n % 2) + rev l (n / 2)) = 2 ^ l * (2 * r + n % 2) + rev l (n / 2) := by ring
    rw [this, Nat.add_mod, Nat.mul_mod, Nat.mod_mod, ← Nat.mul_mod, ← Nat.add_mod]

theorem bitreverse_eq (n l : ℕ) (hl : l ≤ 64) : bitreverse n l = rev l n := by
  rw [bitreverse, iter_rev _ _ _ (by decide), Nat.mul_zero, Nat.zero_add,
    Nat.mod_eq_of_lt (lt_of_lt_of_le (rev_lt l n) (Nat.pow_le_pow_right (by decide) hl))]

/-- Bit reversal from the top. -/
theorem rev_top (l n : ℕ) (h : n < 2 ^ l) : rev (l + 1) n = 2 * rev l n ∧ rev (l + 1) (2 ^ l + n) = 2 * rev l n + 1 := by
  induction l generalizing n with
  | zero => 
    have : n = 0 := by rw [pow_zero] at h; omega
    subst this
    exact ⟨rfl, rfl⟩
  | succ l ih =>
    have h2 : n / 2 < 2 ^ l := by rw [pow_succ] at h; omega
    obtain ⟨i1, i2⟩ := ih (n / 2) h2
    have e1 : (2 ^ (l + 1) + n) % 2 = n % 2 := by rw [pow_succ]; omega
    have e2 : (2 ^ (l + 1) + n) / 2 = 2 ^ l + n / 2 := by rw [pow_succ]; omega
    constructor
    · rw [rev, i1, rev]; ring
    · rw [rev, e1, e2, i2, rev]; ring

theorem rev_rev (l n : ℕ) (h : n < 2 ^ l) : rev l (rev l n) = n := by
  induction l generalizing n with
  | zero => rw [pow_zero] at h; rw [rev]; omega
  | succ l ih =>
    have h2 : n / 2 < 2 ^ l := by rw [pow_succ] at h; omega
    have := ih _ h2
    rcases Nat.mod_two_eq_zero_or_one n with h0 | h0
    · rw [show rev (l + 1) n = rev l (n / 2) by rw [rev, h0]; omega, (rev_top l _ (rev_lt _ _)).1, this]; omega
    · rw [show rev (l + 1) n = 2 ^ l + rev l (n / 2) by rw [rev, h0]; omega, (rev_top l _ (rev_lt _ _)).2, this]; omega

theorem swap_spec {G : Type} (a : List G) (i j : ℕ) (hi : i < a.length) (hj : j < a.length) :
    ∃ b, swap a i j = some b ∧ b.length = a.length ∧
      ∀ k, b[k]? = if k = j then a[i]? else if k = i then a[j]? else a[k]? := by
  rw [swap, List.getElem?_eq_getElem hi, List.getElem?_eq_getElem hj]
  refine ⟨_, rfl, by simp, ?_⟩
  intro k
  rw [List.getElem?_set, List.getElem?_set]
  simp only [List.length_set]
  by_cases h1 : j = k
  · rw [if_pos h1, if_pos hj, if_pos h1.symm]
  · rw [if_neg h1, if_neg (Ne.symm h1)]
    by_cases h2 : i = k
    · rw [if_pos h2, if_pos hi, if_pos h2.symm]
    · rw [if_neg h2, if_neg (Ne.symm h2)]

/-- The reordering after the first `m` indices. -/
theorem reorder_loop {G : Type} (l : ℕ) (h64 : l ≤ 64) (a : List G) (hl : a.length = 2 ^ l) (m : ℕ) (hm : m ≤ 2 ^ l) :
    ∃ b, (List.range m).foldlM (reorderStep l) a = some b ∧ b.length = 2 ^ l ∧
      ∀ i < 2 ^ l, b[i]? = if min i (rev l i) < m then a[rev l i]? else a[i]? := by
  induction m with
  | zero => exact ⟨a, rfl, hl, fun i _ => by rw [if_neg (by omega)]⟩
  | succ m ih =>
    obtain ⟨b, e, hb, hi⟩ := ih (by omega)
    rw [List.range_succ, List.foldlM_append, e]
    have hr := rev_lt l m
    have hrr := rev_rev l m (by omega)
    change ∃ b', (List.foldlM (reorderStep l) b [m]) = some b' ∧ _
    rw [List.foldlM_cons]
    have hstep : reorderStep l b m = if m < rev l m then swap b (rev l m) m else some b := by
      rw [reorderStep, bitreverse_eq _ _ h64]
    rw [hstep]
    have hinj : ∀ i < 2 ^ l, rev l i = m → i = rev l m := by
      intro i hi h
      rw [← h, rev_rev l i hi]
    by_cases h : m < rev l m
    · rw [if_pos h]
      obtain ⟨b', e', hb', hi'⟩ := swap_spec b (rev l m) m (by omega) (by omega)
      rw [e']
      refine ⟨b', rfl, by omega, ?_⟩
      intro i hi0
      rw [hi' i]
      by_cases h1 : i = m
      · rw [if_pos h1, hi _ hr, hrr, h1, if_neg (by omega), if_pos (by omega)]
      · rw [if_neg h1]
        by_cases h2 : i = rev l m
        · rw [if_pos h2, hi _ (by omega), h2, hrr, if_neg (by omega), if_pos (by omega)]
        · rw [if_neg h2, hi i hi0]
          have : rev l i ≠ m := fun h => h2 (hinj i hi0 h)
          by_cases h3 : min i (rev l i) < m
          · rw [if_pos h3, if_pos (by omega)]
          · rw [if_neg h3, if_neg (by omega)]
    · rw [if_neg h]
      refine ⟨b, rfl, hb, ?_⟩
      intro i hi0
      rw [hi i hi0]
      by_cases h1 : min i (rev l i) < m
      · rw [if_pos h1, if_pos (by omega)]
      · rw [if_neg h1]
        by_cases h2 : min i (rev l i) < m + 1
        · rw [if_pos h2]
          by_cases h3 : i = m
          · subst h3
            by_cases h4 : rev l i = i
            · rw [h4]
            · exfalso; omega
          · have h4 : rev l i = m := by omega
            have h5 := hinj i hi0 h4
            exfalso; omega
        · rw [if_neg h2]

theorem reorder_spec {G : Type} (l : ℕ) (h64 : l ≤ 64) (a : List G) (hl : a.length = 2 ^ l) :
    ∃ b, (List.range a.length).foldlM (reorderStep l) a = some b ∧ b.length = 2 ^ l ∧
      ∀ i < 2 ^ l, b[i]? = a[rev l i]? := by
  obtain ⟨b, e, hb, hi⟩ := reorder_loop l h64 a hl (2 ^ l) (le_refl _)
  refine ⟨b, by rw [hl]; exact e, hb, ?_⟩
  intro i h
  rw [hi i h, if_pos (by omega)]

/-! ## Lists standing for functions -/

section LR

variable {G M : Type} (R : G → M → Prop)

/-- `l` has `n` entries, standing for `u 0, …, u (n-1)`. -/
def LR : List G → ℕ → (ℕ → M) → Prop
  | [], 0, _ => True
  | x :: l, n + 1, u => R x (u 0) ∧ LR l n (fun j => u (j + 1))
  | _, _, _ => False

variable {R}

theorem LR.length {l : List G} {n : ℕ} {u : ℕ → M} (h : LR R l n u) : l.length = n := by
  induction l generalizing n u with
  | nil => cases n with
    | zero => rfl
    | succ n => exact absurd h (by simp [LR])
  | cons x l ih => cases n with
    | zero => exact absurd h (by simp [LR])
    | succ n => rw [List.length_cons, ih h.2]

theorem LR.congr {l : List G} {n : ℕ} {u v : ℕ → M} (h : LR R l n u) (huv : ∀ i < n, u i = v i) : LR R l n v := by
  induction l generalizing n u v with
  | nil => cases n with
    | zero => trivial
    | succ n => exact absurd h (by simp [LR])
  | cons x l ih => cases n with
    | zero => exact absurd h (by simp [LR])
    | succ n =>
      refine ⟨by rw [← huv 0 (by omega)]; exact h.1, ih h.2 (fun i hi => huv _ (by omega))⟩

theorem LR.append {l l' : List G} {n n' : ℕ} {u : ℕ → M} (h : LR R l n u) (h' : LR R l' n' (fun j => u (n + j))) :
    LR R (l ++ l') (n + n') u := by
  induction l generalizing n u with
  | nil => cases n with
    | zero => simpa using h'
    | succ n => exact absurd h (by simp [LR])
  | cons x l ih => cases n with
    | zero => exact absurd h (by simp [LR])
    | succ n =>
      rw [show n + 1 + n' = (n + n') + 1 by omega]
      refine ⟨h.1, ih h.2 ?_⟩
      refine h'.congr (fun i _ => ?_)
      congr 1
      omega

theorem LR.of_get {l : List G} {n : ℕ} {u : ℕ → M} (hl : l.length = n) (h : ∀ i < n, ∃ x, l[i]? = some x ∧ R x (u i)) :
    LR R l n u := by
  induction l generalizing n u with
  | nil => subst hl; trivial
  | cons x l ih =>
    subst hl
    refine ⟨?_, ih rfl ?_⟩
    · obtain ⟨y, e, hy⟩ := h 0 (Nat.succ_pos _)
      rw [List.getElem?_cons_zero] at e
      rw [Option.some.inj e]
      exact hy
    · intro i hi
      obtain ⟨y, e, hy⟩ := h (i + 1) (Nat.succ_lt_succ hi)
      exact ⟨y, by rwa [List.getElem?_cons_succ] at e, hy⟩

theorem LR.get {l : List G} {n : ℕ} {u : ℕ → M} (h : LR R l n u) : ∀ i < n, ∃ x, l[i]? = some x ∧ R x (u i) := by
  induction l generalizing n u with
  | nil => cases n with
    | zero => intro i hi; omega
    | succ n => exact absurd h (by simp [LR])
  | cons x l ih => cases n with
    | zero => exact absurd h (by simp [LR])
    | succ n =>
      intro i hi
      cases i with
      | zero => exact ⟨x, rfl, h.1⟩
      | succ i => exact ih h.2 i (by omega)

theorem LR.take {l : List G} {n n' : ℕ} {u : ℕ → M} (h : LR R l (n + n') u) : LR R (l.take n) n u := by
  apply LR.of_get
  · rw [List.length_take, h.length]; omega
  · intro i hi
    rw [List.getElem?_take_of_lt hi]
    exact h.get i (by omega)

theorem LR.drop {l : List G} {n n' : ℕ} {u : ℕ → M} (h : LR R l (n + n') u) : LR R (l.drop n) n' (fun j => u (n + j)) := by
  apply LR.of_get
  · rw [List.length_drop, h.length]; omega
  · intro i hi
    rw [List.getElem?_drop]
    exact h.get (n + i) (by omega)

end LR

/-! ## The transform -/

variable {K G M : Type} [CommRing K] [AddCommGroup M] [Module K M]

/-- The discrete Fourier transform: entry `i` is `∑ j < n, w^(i j) • f j`. -/
def dft (n : ℕ) (w : K) (f : ℕ → M) (i : ℕ) : M := ∑ j ∈ Finset.range n, w ^ (i * j) • f j

theorem sum_even_odd (m : ℕ) (f : ℕ → M) :
    ∑ j ∈ Finset.range (2 * m), f j = ∑ j ∈ Finset.range m, f (2 * j) + ∑ j ∈ Finset.range m, f (2 * j + 1) := by
  induction m with
  | zero => simp
  | succ m ih =>
    rw [show 2 * (m + 1) = 2 * m + 1 + 1 by ring, Finset.sum_range_succ, Finset.sum_range_succ, ih,
      Finset.sum_range_succ, Finset.sum_range_succ]
    abel

theorem dft_split (m : ℕ) (w : K) (f : ℕ → M) (i : ℕ) :
    dft (2 * m) w f i = dft m (w ^ 2) (fun j => f (2 * j)) i + w ^ i • dft m (w ^ 2) (fun j => f (2 * j + 1)) i := by
  rw [dft, sum_even_odd, dft, dft, Finset.smul_sum]
  congr 1
  · refine Finset.sum_congr rfl fun j _ => ?_
    rw [← pow_mul]; congr 2; ring
  · refine Finset.sum_congr rfl fun j _ => ?_
    rw [← pow_mul, smul_smul, ← pow_add]; congr 2; ring

theorem dft_shift (m : ℕ) (w : K) (hw : w ^ m = 1) (f : ℕ → M) (i : ℕ) : dft m w f (m + i) = dft m w f i := by
  rw [dft, dft]
  refine Finset.sum_congr rfl fun j _ => ?_
  rw [add_mul, pow_add, pow_mul, hw, one_pow, one_mul]

theorem dft_split' (m : ℕ) (w : K) (hw : w ^ m = -1) (f : ℕ → M) (i : ℕ) :
    dft (2 * m) w f (m + i) =
      dft m (w ^ 2) (fun j => f (2 * j)) i - w ^ i • dft m (w ^ 2) (fun j => f (2 * j + 1)) i := by
  have h2 : (w ^ 2) ^ m = 1 := by rw [← pow_mul, mul_comm, pow_mul, hw]; ring
  rw [dft_split, dft_shift m _ h2, dft_shift m _ h2, pow_add, hw, neg_one_mul, neg_smul, sub_eq_add_neg]

/-- The operations respect the abstract group. -/
structure OpsRep (ops : Ops K G) (R : G → M → Prop) : Prop where
  add : ∀ {a b x y}, R a x → R b y → R (ops.add a b) (x + y)
  sub : ∀ {a b x y}, R a x → R b y → R (ops.sub a b) (x - y)
  smul : ∀ {a x} (k : K), R a x → R (ops.smul a k) (k • x)

variable {ops : Ops K G} {R : G → M → Prop}

theorem twiddles_aux (omega : K) (m : ℕ) :
    (List.range m).foldl (fun (s : List K × K) _ => (s.1 ++ [s.2], s.2 * omega)) ([], 1) =
      ((List.range m).map (fun i => omega ^ i), omega ^ m) := by
  induction m with
  | zero => rw [pow_zero]; rfl
  | succ m ih => rw [List.range_succ, List.foldl_append, ih, List.map_append, pow_succ]; rfl

theorem twiddles_get (omega : K) (m i : ℕ) (h : i < m) : (twiddles omega m)[i]? = some (omega ^ i) := by
  rw [twiddles, twiddles_aux, List.getElem?_map, List.getElem?_range h]; rfl

theorem bfLoop_spec (hops : OpsRep ops R) (tw : List K) (tc m i : ℕ) {left right : List G} {u v : ℕ → M} (c : ℕ → K)
    (hl : LR R left m u) (hr : LR R right m v) (ht : ∀ j < m, tw[(i + j + 1) * tc]? = some (c j)) :
    ∃ r, bfLoop ops tw tc i left right = some r ∧ LR R r.1 m (fun j => u j + c j • v j) ∧
      LR R r.2 m (fun j => u j - c j • v j) := by
  induction m generalizing i left right u v c with
  | zero =>
    cases left with
    | cons _ _ => exact absurd hl (by simp [LR])
    | nil => cases right with
      | cons _ _ => exact absurd hr (by simp [LR])
      | nil => exact ⟨([], []), by rw [bfLoop]; simp, trivial, trivial⟩
  | succ m ih =>
    cases left with
    | nil => exact absurd hl (by simp [LR])
    | cons a left => cases right with
      | nil => exact absurd hr (by simp [LR])
      | cons b right =>
        obtain ⟨r, e, h1, h2⟩ := ih (i + 1) (fun j => c (j + 1)) hl.2 hr.2 (fun j hj => by
          rw [show i + 1 + j + 1 = i + (j + 1) + 1 by omega]; exact ht (j + 1) (by omega))
        have h0 := ht 0 (by omega)
        rw [Nat.add_zero] at h0
        have hs := hops.smul (c 0) hr.1
        refine ⟨(ops.add a (ops.smul b (c 0)) :: r.1, ops.sub a (ops.smul b (c 0)) :: r.2), ?_, ⟨hops.add hl.1 hs, h1⟩,
          ⟨hops.sub hl.1 hs, h2⟩⟩
        rw [bfLoop, h0]
        dsimp only
        rw [e]

theorem butterfly_spec (hops : OpsRep ops R) (tw : List K) (tc m : ℕ) (hm : 1 ≤ m) {left right : List G} {u v : ℕ → M}
    (w : K) (hl : LR R left m u) (hr : LR R right m v)
    (ht : ∀ j, 1 ≤ j → j < m → tw[j * tc]? = some (w ^ j)) :
    ∃ l, butterfly ops tw tc left right = some l ∧
      LR R l (2 * m) (fun j => if j < m then u j + w ^ j • v j else u (j - m) - w ^ (j - m) • v (j - m)) := by
  obtain ⟨m, rfl⟩ : ∃ k, m = k + 1 := ⟨m - 1, by omega⟩
  cases left with
  | nil => exact absurd hl (by simp [LR])
  | cons a left => cases right with
    | nil => exact absurd hr (by simp [LR])
    | cons b right =>
      obtain ⟨r, e, h1, h2⟩ := bfLoop_spec hops tw tc m 0 (fun j => w ^ (j + 1)) hl.2 hr.2 (fun j hj => by
        rw [Nat.zero_add]; exact ht (j + 1) (by omega) (by omega))
      refine ⟨_, by rw [butterfly, e], ?_⟩
      rw [two_mul]
      apply LR.append
      · refine LR.congr (u := fun j => u j + w ^ j • v j) ⟨?_, h1⟩ ?_
        · dsimp only; rw [pow_zero, one_smul]; exact hops.add hl.1 hr.1
        · intro i hi
          rw [if_pos hi]
      · refine LR.congr (u := fun j => u j - w ^ j • v j) ⟨?_, h2⟩ ?_
        · dsimp only; rw [pow_zero, one_smul]; exact hops.sub hl.1 hr.1
        · intro i hi
          rw [if_neg (by omega), Nat.add_sub_cancel_left]

/-- Two transforms of half the size make one. -/
theorem butterfly_dft (hops : OpsRep ops R) (tw : List K) (tc m : ℕ) (hm : 1 ≤ m) {left right : List G} (f : ℕ → M)
    (w : K) (hw : w ^ m = -1) (hl : LR R left m (dft m (w ^ 2) (fun j => f (2 * j))))
    (hr : LR R right m (dft m (w ^ 2) (fun j => f (2 * j + 1))))
    (ht : ∀ j, 1 ≤ j → j < m → tw[j * tc]? = some (w ^ j)) :
    ∃ l, butterfly ops tw tc left right = some l ∧ LR R l (2 * m) (dft (2 * m) w f) := by
  obtain ⟨l, e, h⟩ := butterfly_spec hops tw tc m hm w hl hr ht
  refine ⟨l, e, h.congr ?_⟩
  intro i hi
  by_cases h1 : i < m
  · rw [if_pos h1, dft_split]
  · rw [if_neg h1]
    obtain ⟨k, rfl⟩ := Nat.exists_eq_add_of_le (Nat.le_of_not_lt h1)
    rw [Nat.add_sub_cancel_left, dft_split' m w hw]

/-- `l` holds `f 0, …, f (2^k-1)` in bit-reversed order. -/
def BR (R : G → M → Prop) (l : List G) (k : ℕ) (f : ℕ → M) : Prop := LR R l (2 ^ k) (fun i => f (rev k i))

theorem BR.halves {l : List G} {k : ℕ} {f : ℕ → M} (h : BR R l (k + 1) f) :
    BR R (l.take (2 ^ k)) k (fun j => f (2 * j)) ∧ BR R (l.drop (2 ^ k)) k (fun j => f (2 * j + 1)) := by
  rw [BR, pow_succ, mul_two] at h
  refine ⟨h.take.congr ?_, h.drop.congr ?_⟩
  · intro i hi; dsimp only; rw [(rev_top k i hi).1]
  · intro i hi; dsimp only; rw [(rev_top k i hi).2]

/-- The recursive version. -/
theorem recBf_spec (hops : OpsRep ops R) (omega : K) (N k t fuel : ℕ) (hN : k + 1 + t = N)
    (hw : omega ^ (2 ^ (N - 1)) = -1) (hf : k < fuel) {l : List G} {f : ℕ → M} (h : BR R l (k + 1) f) :
    ∃ l', recBf ops (twiddles omega (2 ^ N / 2)) fuel l (2 ^ (k + 1)) (2 ^ t) = some l' ∧
      LR R l' (2 ^ (k + 1)) (dft (2 ^ (k + 1)) (omega ^ 2 ^ t) f) := by
  induction k generalizing t fuel l f with
  | zero =>
    obtain ⟨fuel, rfl⟩ : ∃ n, fuel = n + 1 := ⟨fuel - 1, by omega⟩
    have hl := h.length
    match l, hl, h with
    | [a0, a1], _, h =>
      obtain ⟨g0, g1, _⟩ := h
      refine ⟨[ops.add a0 a1, ops.sub a0 a1], by rw [recBf, if_pos (by rfl)]; rfl, ?_⟩
      refine LR.congr (u := fun i => if i = 0 then f 0 + f 1 else f 0 - f 1) ⟨hops.add g0 g1, hops.sub g0 g1, trivial⟩ ?_
      intro i hi
      have hw' : (omega ^ 2 ^ t) ^ 1 = -1 := by
        rw [pow_one, ← hw]; congr 2; omega
      rcases (show i = 0 ∨ i = 1 by omega) with rfl | rfl
      · simp [dft, Finset.sum_range_succ]
      · simp [dft, Finset.sum_range_succ, sub_eq_add_neg] at hw' ⊢
        rw [hw', neg_one_smul]
  | succ k ih =>
    obtain ⟨fuel, rfl⟩ : ∃ n, fuel = n + 1 := ⟨fuel - 1, by omega⟩
    have hp : 2 ^ (k + 1 + 1) / 2 = 2 ^ (k + 1) := by rw [pow_succ 2 (k + 1)]; omega
    have hk : 1 ≤ 2 ^ k := Nat.one_le_two_pow
    have hl := h.length
    obtain ⟨h1, h2⟩ := h.halves
    obtain ⟨l1, e1, d1⟩ := ih (t + 1) fuel (by omega) (by omega) h1
    obtain ⟨l2, e2, d2⟩ := ih (t + 1) fuel (by omega) (by omega) h2
    have hsq : omega ^ 2 ^ (t + 1) = (omega ^ 2 ^ t) ^ 2 := by rw [← pow_mul, pow_succ]
    rw [hsq] at d1 d2
    have hwt : (omega ^ 2 ^ t) ^ 2 ^ (k + 1) = -1 := by
      rw [← pow_mul, ← pow_add, ← hw]; congr 2; omega
    obtain ⟨l', e, d⟩ := butterfly_dft hops (twiddles omega (2 ^ N / 2)) (2 ^ t) (2 ^ (k + 1)) Nat.one_le_two_pow f
      (omega ^ 2 ^ t) hwt d1 d2 (fun j _ hj => by
        rw [twiddles_get]
        · rw [← pow_mul, mul_comm]
        · have : 2 ^ N / 2 = 2 ^ (k + 1) * 2 ^ t := by
            rw [← hN, ← pow_add, show k + 1 + 1 + t = (k + 1 + t) + 1 by omega, pow_succ 2 (k + 1 + t)]; omega
          rw [this]
          exact Nat.mul_lt_mul_of_pos_right hj (Nat.pos_of_ne_zero (by positivity)))
    refine ⟨l', ?_, by rw [show 2 ^ (k + 1 + 1) = 2 * 2 ^ (k + 1) by ring]; exact d⟩
    rw [recBf, if_neg (by rw [pow_succ, pow_succ]; omega), hp, if_neg (by rw [hl, pow_succ 2 (k + 1)]; omega), ← pow_succ, e1, e2]
    exact e

/-! ## The iterative version -/

/-- `l` is the concatenation of `2^k` transforms of size `2^s` of the interleaved parts of `f`, in bit-reversed order. -/
def Part (R : G → M → Prop) (w : K) (s : ℕ) : ℕ → List G → (ℕ → M) → Prop
  | 0, l, f => LR R l (2 ^ s) (dft (2 ^ s) w f)
  | k + 1, l, f => ∃ l1 l2, l = l1 ++ l2 ∧ Part R w s k l1 (fun j => f (2 * j)) ∧ Part R w s k l2 (fun j => f (2 * j + 1))

theorem Part.length {w : K} {s k : ℕ} {l : List G} {f : ℕ → M} (h : Part R w s k l f) : l.length = 2 ^ k * 2 ^ s := by
  induction k generalizing l f with
  | zero => rw [LR.length h]; ring
  | succ k ih =>
    obtain ⟨l1, l2, rfl, h1, h2⟩ := h
    rw [List.length_append, ih h1, ih h2]; ring

theorem BR.part {w : K} {k : ℕ} {l : List G} {f : ℕ → M} (h : BR R l k f) : Part R w 0 k l f := by
  induction k generalizing l f with
  | zero =>
    refine LR.congr h ?_
    intro i hi
    rw [pow_zero] at hi
    obtain rfl : i = 0 := by omega
    simp [dft, rev]
  | succ k ih =>
    obtain ⟨h1, h2⟩ := h.halves
    exact ⟨_, _, (List.take_append_drop _ _).symm, ih h1, ih h2⟩

theorem chunksAux_fuel {α : Type} (k : ℕ) (hk : 1 ≤ k) (n m : ℕ) (l : List α) (hn : l.length ≤ n) (hm : l.length ≤ m) :
    chunksAux n k l = chunksAux m k l := by
  induction n generalizing m l with
  | zero =>
    obtain rfl : l = [] := List.length_eq_zero_iff.mp (by omega)
    cases m <;> rfl
  | succ n ih =>
    cases l with
    | nil => cases m <;> rfl
    | cons x xs =>
      cases m with
      | zero => simp at hm
      | succ m =>
        rw [chunksAux, chunksAux, ih m]
        · rw [List.length_drop]; omega
        · rw [List.length_drop]; omega

theorem chunks_step {α : Type} (k : ℕ) (hk : 1 ≤ k) (l : List α) (hl : l ≠ []) :
    chunks k l = l.take k :: chunks k (l.drop k) := by
  cases l with
  | nil => exact absurd rfl hl
  | cons x xs =>
    rw [chunks, List.length_cons, chunksAux, chunks]
    congr 1
    apply chunksAux_fuel k hk
    · rw [List.length_drop, List.length_cons]; omega
    · exact le_refl _

theorem chunks_block {α : Type} (b : ℕ) (hb : 1 ≤ b) (q : ℕ) (l1 l2 : List α) (h : l1.length = q * b) :
    chunks b (l1 ++ l2) = chunks b l1 ++ chunks b l2 := by
  induction q generalizing l1 with
  | zero =>
    obtain rfl : l1 = [] := List.length_eq_zero_iff.mp (by omega)
    rfl
  | succ q ih =>
    have h' : l1.length = q * b + b := by rw [h]; ring
    have hne : l1 ≠ [] := by rintro rfl; simp at h'; omega
    rw [chunks_step b hb l1 hne, chunks_step b hb (l1 ++ l2) (by simp [hne]), List.take_append_of_le_length (by omega),
      List.drop_append_of_le_length (by omega), ih (l1.drop b) (by rw [List.length_drop]; omega)]
    rfl

theorem mapM_append' {α β : Type} (g : α → Option β) (l1 l2 : List α) (r1 r2 : List β) (h1 : l1.mapM g = some r1)
    (h2 : l2.mapM g = some r2) : (l1 ++ l2).mapM g = some (r1 ++ r2) := by
  rw [List.mapM_append, h1, h2]; rfl

theorem round_spec (hops : OpsRep ops R) (tw : List K) (tc s k : ℕ) (w : K) (hw : w ^ 2 ^ s = -1)
    (ht : ∀ j, 1 ≤ j → j < 2 ^ s → tw[j * tc]? = some (w ^ j)) {l : List G} {f : ℕ → M} (h : Part R (w ^ 2) s (k + 1) l f) :
    ∃ cs, (chunks (2 ^ (s + 1)) l).mapM (chunkStep ops tw (2 ^ (s + 1)) tc) = some cs ∧ Part R w (s + 1) k cs.flatten f := by
  have hp : 2 ^ (s + 1) / 2 = 2 ^ s := by rw [pow_succ]; omega
  have h1s : 1 ≤ 2 ^ (s + 1) := Nat.one_le_two_pow
  have hs1 : 1 ≤ 2 ^ s := Nat.one_le_two_pow
  induction k generalizing l f with
  | zero =>
    obtain ⟨l1, l2, rfl, h1, h2⟩ := h
    have e1 := LR.length h1
    have e2 := LR.length h2
    have el : (l1 ++ l2).length = 2 ^ (s + 1) := by rw [List.length_append, e1, e2, pow_succ]; ring
    have hne : l1 ++ l2 ≠ [] := by intro h0; rw [h0] at el; simp at el; omega
    obtain ⟨l', e, d⟩ := butterfly_dft hops tw tc (2 ^ s) hs1 f w hw h1 h2 ht
    refine ⟨[l'], ?_, ?_⟩
    · rw [chunks_step _ h1s _ hne, List.take_of_length_le (by omega), List.drop_of_length_le (by omega)]
      have : chunkStep ops tw (2 ^ (s + 1)) tc (l1 ++ l2) = some l' := by
        rw [chunkStep, hp, if_neg (by rw [el, pow_succ]; omega), List.take_left' e1, List.drop_left' e1]
        exact e
      rw [List.mapM_cons, this]
      rfl
    · have : 2 ^ (s + 1) = 2 * 2 ^ s := by ring
      rw [List.flatten_cons, List.flatten_nil, List.append_nil, Part, this]
      exact d
  | succ k ih =>
    obtain ⟨l1, l2, rfl, h1, h2⟩ := h
    obtain ⟨c1, e1, d1⟩ := ih h1
    obtain ⟨c2, e2, d2⟩ := ih h2
    refine ⟨c1 ++ c2, ?_, ?_⟩
    · rw [chunks_block _ h1s (2 ^ k) l1 l2 (by rw [h1.length, pow_succ, pow_succ]; ring)]
      exact mapM_append' _ _ _ _ _ e1 e2
    · rw [List.flatten_append]
      exact ⟨_, _, rfl, d1, d2⟩

theorem rounds_spec (hops : OpsRep ops R) (omega : K) (N : ℕ) (hw : 1 ≤ N → omega ^ (2 ^ (N - 1)) = -1) (s : ℕ) (hs : s ≤ N)
    {l : List G} {f : ℕ → M} (h : BR R l N f) :
    ∃ l', (List.range s).foldlM (fun st _ => roundStep ops (twiddles omega (2 ^ N / 2)) st) (l, 2, 2 ^ N / 2)
        = some (l', 2 ^ (s + 1), 2 ^ N / 2 / 2 ^ s) ∧ Part R (omega ^ 2 ^ (N - s)) s (N - s) l' f := by
  induction s with
  | zero => exact ⟨l, by simp, h.part⟩
  | succ s ih =>
    obtain ⟨l', e, d⟩ := ih (by omega)
    obtain ⟨k, hk⟩ : ∃ k, N - s = k + 1 := ⟨N - s - 1, by omega⟩
    have hk' : N - (s + 1) = k := by omega
    have hN : 2 ^ N / 2 = 2 ^ k * 2 ^ s := by
      rw [show N = k + s + 1 by omega, pow_succ, ← pow_add]; omega
    have htc : 2 ^ N / 2 / 2 ^ s = 2 ^ k := by rw [hN, Nat.mul_div_cancel _ (Nat.pos_of_ne_zero (by positivity))]
    rw [hk, show omega ^ 2 ^ (k + 1) = (omega ^ 2 ^ k) ^ 2 by rw [← pow_mul, pow_succ]] at d
    obtain ⟨cs, ec, dc⟩ := round_spec hops (twiddles omega (2 ^ N / 2)) (2 ^ k) s k (omega ^ 2 ^ k)
      (by rw [← pow_mul, ← pow_add, ← hw (by omega)]; congr 2; omega)
      (fun j _ hj => by
        rw [twiddles_get]
        · rw [← pow_mul, mul_comm]
        · rw [hN, mul_comm]; exact Nat.mul_lt_mul_of_pos_left hj (Nat.pos_of_ne_zero (by positivity))) d
    refine ⟨cs.flatten, ?_, by rw [hk']; exact dc⟩
    rw [List.range_succ, List.foldlM_append, e]
    change (List.foldlM (fun st _ => roundStep ops (twiddles omega (2 ^ N / 2)) st) (l', 2 ^ (s + 1), 2 ^ N / 2 / 2 ^ s) [s]) = _
    rw [List.foldlM_cons, roundStep]
    dsimp only
    rw [htc, ec]
    change some (cs.flatten, 2 ^ (s + 1) * 2, 2 ^ k / 2) = _
    rw [pow_succ 2 (s + 1), pow_succ 2 s, ← Nat.div_div_eq_div_mul, htc]

/-! ## best_fft -/

theorem bestFft_spec (hops : OpsRep ops R) (omega : K) (N : ℕ) (hN : N < 64) (hw : 1 ≤ N → omega ^ (2 ^ (N - 1)) = -1)
    (checks : Bool) (threads : ℕ) {a : List G} {f : ℕ → M} (h : LR R a (2 ^ N) f) :
    ∃ b, bestFft ops checks threads a omega N = some b ∧ LR R b (2 ^ N) (dft (2 ^ N) omega f) := by
  have hl := h.length
  obtain ⟨b, e, hb, hi⟩ := reorder_spec N (by omega) a hl
  have hB : BR R b N f := by
    refine LR.of_get hb ?_
    intro i h0
    rw [hi i h0]
    exact h.get _ (rev_lt N i)
  rw [bestFft, if_neg (by simp; omega), if_neg (by rw [hl, Nat.mod_eq_of_lt hN, Nat.one_shiftLeft]; exact fun h => h rfl), e]
  dsimp only
  rw [hb]
  by_cases ht : N ≤ Nat.log2 threads
  · rw [if_pos ht]
    obtain ⟨l', e', d⟩ := rounds_spec hops omega N hw N (le_refl _) hB
    rw [e']
    rw [Nat.sub_self, pow_zero, pow_one] at d
    exact ⟨l', rfl, d⟩
  · rw [if_neg ht]
    obtain ⟨k, rfl⟩ : ∃ k, N = k + 1 := ⟨N - 1, by omega⟩
    obtain ⟨l', e', d⟩ := recBf_spec hops omega (k + 1) k 0 (2 ^ (k + 1)) rfl (hw (by omega))
      (lt_trans (Nat.lt_succ_self k) Nat.lt_two_pow_self) hB
    rw [pow_zero] at e'
    rw [pow_zero, pow_one] at d
    exact ⟨l', e', d⟩

theorem bestFft_panic (omega : K) (N threads : ℕ) (checks : Bool) (a : List G) (h : a.length ≠ 2 ^ N) (hN : checks = true ∨ N < 64) :
    bestFft ops checks threads a omega N = none := by
  rw [bestFft]
  by_cases h1 : N < 64
  · rw [Nat.mod_eq_of_lt h1, Nat.one_shiftLeft, if_pos h, ite_self]
  · rw [if_pos (by rw [hN.resolve_right h1]; simp; omega)]

/-- The inverse transform. -/
theorem dft_dft [IsDomain K] (n : ℕ) (w w' : K) (hww : w * w' = 1) (hw : IsPrimitiveRoot w n) (f : ℕ → M) (i : ℕ) (hi : i < n) :
    dft n w' (dft n w f) i = (n : K) • f i := by
  have key : ∀ j < n, ∑ k ∈ Finset.range n, w' ^ (i * k) * w ^ (k * j) = if j = i then (n : K) else 0 := by
    intro j hj
    have e : ∀ k, w' ^ (i * k) * w ^ (k * j) = (w' ^ i * w ^ j) ^ k := by
      intro k; rw [mul_pow, ← pow_mul, ← pow_mul, mul_comm j k]
    simp only [e]
    by_cases h : j = i
    · subst h
      rw [if_pos rfl]
      have : w' ^ j * w ^ j = 1 := by rw [← mul_pow, mul_comm w', hww, one_pow]
      simp [this]
    · rw [if_neg h]
      have hne : w' ^ i * w ^ j - 1 ≠ 0 := by
        intro h0
        apply h
        have h1 : w ^ j = w ^ i := by
          calc w ^ j = (w * w') ^ i * w ^ j := by rw [hww, one_pow, one_mul]
            _ = w ^ i * (w' ^ i * w ^ j) := by rw [mul_pow]; ring
            _ = w ^ i := by rw [sub_eq_zero.mp h0, mul_one]
        exact hw.pow_inj hj hi h1
      have h1 : (w' ^ i * w ^ j) ^ n = 1 := by
        have hw' : w' ^ n = 1 := by
          calc w' ^ n = w ^ n * w' ^ n := by rw [hw.pow_eq_one, one_mul]
            _ = 1 := by rw [← mul_pow, hww, one_pow]
        rw [mul_pow, ← pow_mul, ← pow_mul, mul_comm i, mul_comm j, pow_mul, pow_mul, hw', hw.pow_eq_one, one_pow, one_pow, mul_one]
      have h2 := mul_geom_sum (w' ^ i * w ^ j) n
      rw [h1, sub_self] at h2
      exact (mul_eq_zero.mp h2).resolve_left hne
  rw [dft]
  simp only [dft, Finset.smul_sum, smul_smul]
  rw [Finset.sum_comm]
  simp only [← Finset.sum_smul]
  rw [Finset.sum_congr rfl (fun j hj => by rw [key j (Finset.mem_range.mp hj)])]
  simp only [ite_smul, zero_smul]
  rw [Finset.sum_ite_eq' (Finset.range n) i, if_pos (Finset.mem_range.mpr hi)]

end Halo2.Fft
