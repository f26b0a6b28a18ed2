import Mathlib.FieldTheory.Finite.Basic
import Mathlib.Data.Nat.Factorization.Basic
import Mathlib.GroupTheory.OrderOfElement

/-!
# Pocklington primality certificates, checked by the kernel
-/

namespace Halo2.Prime

/-- Square and multiply modulo `N`; `fuel` bounds the number of bits. -/
def powGo (N : ℕ) : ℕ → ℕ → ℕ → ℕ → ℕ
  | 0, _, _, acc => acc
  | fuel + 1, b, e, acc =>
    powGo N fuel (b * b % N) (e / 2) (bif e % 2 == 1 then acc * b % N else acc)

/-- `b^e % N` for `e < 2^512`. -/
def powMod (N b e : ℕ) : ℕ := powGo N 512 b e 1

theorem powGo_modEq (N fuel : ℕ) : ∀ b e acc, e < 2 ^ fuel → powGo N fuel b e acc ≡ acc * b ^ e [MOD N] := by
  induction fuel with
  | zero =>
    intro b e acc h
    have : e = 0 := by simpa using h
    subst this
    simp [powGo, Nat.ModEq]
  | succ n ih =>
    intro b e acc h
    rw [powGo]
    refine (ih _ _ _ (by rw [pow_succ] at h; omega)).trans ?_
    have hb : (b * b % N) ^ (e / 2) ≡ (b * b) ^ (e / 2) [MOD N] := (Nat.mod_modEq _ _).pow _
    rcases Nat.mod_two_eq_zero_or_one e with he | he
    · simp only [he]
      have : b ^ e = (b * b) ^ (e / 2) := by
        rw [← pow_two, ← pow_mul]; congr 1; omega
      rw [this]
      exact hb.mul_left acc
    · simp only [he]
      have : acc * b ^ e = (acc * b) * (b * b) ^ (e / 2) := by
        rw [← pow_two, ← pow_mul, mul_assoc, ← pow_succ']; congr 2; omega
      rw [this]
      exact (Nat.mod_modEq _ _).mul hb

theorem powMod_modEq (N b e : ℕ) (h : e < 2 ^ 512) : powMod N b e ≡ b ^ e [MOD N] := by
  have := powGo_modEq N 512 b e 1 h
  rwa [one_mul] at this

/-- Pocklington's criterion. -/
theorem pocklington (N F R : ℕ) (hN : N = F * R + 1) (h1 : 1 < N) (hF : N < (F + 1) * (F + 1))
    (h : ∀ q, q.Prime → q ∣ F → ∃ a, a ^ (N - 1) ≡ 1 [MOD N] ∧
      Nat.gcd (a ^ ((N - 1) / q) + (N - 1)) N = 1) : N.Prime := by
  by_contra hnp
  have hne : N ≠ 1 := by omega
  set r := N.minFac with hr
  have hrp : r.Prime := Nat.minFac_prime hne
  have hrN : r ∣ N := Nat.minFac_dvd N
  have hsq : r ^ 2 ≤ N := Nat.minFac_sq_le_self (by omega) hnp
  have key : F ∣ r - 1 := by
    rw [Nat.dvd_iff_prime_pow_dvd_dvd]
    intro q k hq hqk
    rcases Nat.eq_zero_or_pos k with rfl | hk
    · simp
    have hqF : q ∣ F := dvd_trans (dvd_pow_self q (by omega)) hqk
    obtain ⟨a, ha1, ha2⟩ := h q hq hqF
    have : Fact r.Prime := ⟨hrp⟩
    have hz1 : (a : ZMod r) ^ (N - 1) = 1 := by
      have := (ZMod.natCast_eq_natCast_iff _ _ r).mpr (ha1.of_dvd hrN)
      push_cast at this
      exact this
    have hz2 : (a : ZMod r) ^ ((N - 1) / q) ≠ 1 := by
      intro hc
      have hd : r ∣ a ^ ((N - 1) / q) + (N - 1) := by
        rw [← ZMod.natCast_eq_zero_iff]
        have hNr : ((N : ℕ) : ZMod r) = 0 := (ZMod.natCast_eq_zero_iff _ _).mpr hrN
        push_cast [Nat.cast_sub h1.le]
        rw [hc, hNr]; ring
      have : r ∣ 1 := by rw [← ha2]; exact Nat.dvd_gcd hd hrN
      exact hrp.one_lt.ne' (Nat.dvd_one.mp this)
    have ha0 : (a : ZMod r) ≠ 0 := by
      intro hc
      rw [hc, zero_pow (by omega)] at hz1
      exact zero_ne_one hz1
    have hd1 : orderOf (a : ZMod r) ∣ N - 1 := orderOf_dvd_of_pow_eq_one hz1
    have hd2 : orderOf (a : ZMod r) ∣ r - 1 := orderOf_dvd_of_pow_eq_one (ZMod.pow_card_sub_one_eq_one ha0)
    obtain ⟨m, hm⟩ := hd1
    have hqm : ¬ q ∣ m := by
      rintro ⟨t, rfl⟩
      apply hz2
      have : (N - 1) / q = orderOf (a : ZMod r) * t := by
        rw [hm, show orderOf (a : ZMod r) * (q * t) = q * (orderOf (a : ZMod r) * t) by ring]
        exact Nat.mul_div_cancel_left _ hq.pos
      rw [this, pow_mul, pow_orderOf_eq_one, one_pow]
    have hqN : q ^ k ∣ orderOf (a : ZMod r) * m := by
      rw [← hm]
      exact dvd_trans hqk ⟨R, by omega⟩
    have hcop : Nat.Coprime (q ^ k) m := Nat.Coprime.pow_left k ((Nat.Prime.coprime_iff_not_dvd hq).mpr hqm)
    exact dvd_trans (hcop.dvd_of_dvd_mul_right hqN) hd2
  have hle : F ≤ r - 1 := Nat.le_of_dvd (by have := hrp.two_le; omega) key
  have : F + 1 ≤ r := by have := hrp.two_le; omega
  have : (F + 1) * (F + 1) ≤ r * r := Nat.mul_le_mul this this
  rw [pow_two] at hsq
  omega

/-- A certificate: `N`, and for each prime factor `q` of the factored part its exponent and a
witness. -/
structure Cert where
  N : ℕ
  fac : List (ℕ × ℕ × ℕ)

/-- Trial division, for small factors. -/
def smallPrime (n : ℕ) : Bool := decide (2 ≤ n) && (List.range 32).all fun i => i < 2 || i == n || n % i != 0

theorem smallPrime_spec {n : ℕ} (hn : n < 1000) (h : smallPrime n = true) : n.Prime := by
  unfold smallPrime at h
  rw [Bool.and_eq_true, decide_eq_true_eq, List.all_eq_true] at h
  rw [Nat.prime_def_le_sqrt]
  refine ⟨h.1, fun m hm hs hd => ?_⟩
  have hm32 : m < 32 := by
    have := Nat.sqrt_le_self n
    have h2 : Nat.sqrt n < 32 := Nat.sqrt_lt.mpr (by omega)
    omega
  have h3 := h.2 m (List.mem_range.mpr hm32)
  have hne : m ≠ n := by
    rintro rfl
    have := Nat.sqrt_lt_self (show 1 < m by omega)
    omega
  have h4 : n % m = 0 := Nat.mod_eq_zero_of_dvd hd
  simp [hne, h4] at h3
  omega

/-- The factored part. -/
def facProd (fac : List (ℕ × ℕ × ℕ)) : ℕ := (fac.map fun t => t.1 ^ t.2.1).prod

/-- Check one certificate, given the primes already certified. -/
def checkOne (known : List ℕ) (c : Cert) : Bool :=
  decide (1 < c.N) && decide (c.N < 2 ^ 512) && decide (c.N < (facProd c.fac + 1) * (facProd c.fac + 1)) &&
    decide ((c.N - 1) % facProd c.fac = 0) &&
    c.fac.all fun t =>
      ((decide (t.1 < 1000) && smallPrime t.1) || known.contains t.1) &&
        decide (powMod c.N t.2.2 (c.N - 1) = 1) &&
        decide (Nat.gcd (powMod c.N t.2.2 ((c.N - 1) / t.1) + (c.N - 1)) c.N = 1)

theorem checkOne_spec {known : List ℕ} (hk : ∀ q ∈ known, q.Prime) {c : Cert}
    (h : checkOne known c = true) : c.N.Prime := by
  unfold checkOne at h
  simp only [Bool.and_eq_true, decide_eq_true_eq, List.all_eq_true, Bool.or_eq_true,
    List.contains_eq_mem] at h
  obtain ⟨⟨⟨⟨h1, h512⟩, h2⟩, h3⟩, h4⟩ := h
  have hd := Nat.div_add_mod (c.N - 1) (facProd c.fac)
  rw [h3] at hd
  refine pocklington c.N (facProd c.fac) ((c.N - 1) / facProd c.fac) (by omega) h1 h2 ?_
  intro q hq hqF
  have : ∃ t ∈ c.fac, q = t.1 := by
    unfold facProd at hqF
    rw [Prime.dvd_prod_iff hq.prime] at hqF
    obtain ⟨x, hx, hqx⟩ := hqF
    rw [List.mem_map] at hx
    obtain ⟨t, ht, rfl⟩ := hx
    refine ⟨t, ht, ?_⟩
    have htp : t.1.Prime := by
      rcases (h4 t ht).1.1 with h5 | h5
      · exact smallPrime_spec h5.1 h5.2
      · exact hk _ h5
    exact (Nat.prime_dvd_prime_iff_eq hq htp).mp (hq.dvd_of_dvd_pow hqx)
  obtain ⟨t, ht, rfl⟩ := this
  obtain ⟨⟨_, h6⟩, h7⟩ := h4 t ht
  refine ⟨t.2.2, ?_, ?_⟩
  · have := powMod_modEq c.N t.2.2 (c.N - 1) (by omega)
    rw [h6] at this
    exact this.symm
  · have h8 := powMod_modEq c.N t.2.2 ((c.N - 1) / t.1) (lt_of_le_of_lt (Nat.div_le_self _ _) (by omega))
    have h9 := (h8.add_right (c.N - 1)).gcd_eq
    rw [← h9]
    exact h7

/-- Check a list of certificates, each using the previous ones. -/
def checkAll (known : List ℕ) : List Cert → Bool
  | [] => true
  | c :: cs => checkOne known c && checkAll (c.N :: known) cs

theorem checkAll_spec (cs : List Cert) : ∀ known : List ℕ, (∀ q ∈ known, q.Prime) →
    checkAll known cs = true → ∀ c ∈ cs, c.N.Prime := by
  induction cs with
  | nil => intro _ _ _ c hc; simp at hc
  | cons d ds ih =>
    intro known hk h c hc
    rw [checkAll, Bool.and_eq_true] at h
    have hd := checkOne_spec hk h.1
    rcases List.mem_cons.mp hc with rfl | hc
    · exact hd
    · refine ih (d.N :: known) ?_ h.2 c hc
      intro q hq
      rcases List.mem_cons.mp hq with rfl | hq
      · exact hd
      · exact hk q hq

end Halo2.Prime
