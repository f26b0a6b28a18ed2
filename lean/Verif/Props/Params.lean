import Verif.Prime.Generators
import Verif.Props.Order
import Mathlib.Data.ZMod.Basic

/-!
# Cycles of curves and embedding degrees: C70
-/

set_option linter.unusedSectionVars false
set_option maxRecDepth 100000

namespace Halo2.Props

open Halo2 Halo2.Prime Halo2.Ext Halo2.Curve Halo2.Field

/-- `e` is the embedding degree for a subgroup of order `r` of a curve over the field of `q` elements: the `k`-th extension contains the `r`-th
roots of unity exactly if `e` divides `k`. -/
def EmbeddingDegree (q r e : ℕ) : Prop := 0 < e ∧ ∀ k, q ^ k ≡ 1 [MOD r] ↔ e ∣ k

/-- `fac` is a factorisation of `e` into certified primes, the `e`-th power of `q` is one modulo `r` and no `e / l`-th power is. -/
def checkOrd (r q e : ℕ) (fac : List (ℕ × ℕ)) : Bool :=
  decide (0 < e) && decide (e < 2 ^ 512) && decide ((fac.map fun t => t.1 ^ t.2).prod = e) && decide (powMod r q e % r = 1 % r) &&
    fac.all fun t =>
      ((decide (t.1 < 1000) && smallPrime t.1) || (groupCert.map (·.N)).contains t.1) && decide (powMod r q (e / t.1) % r ≠ 1 % r)

theorem checkOrd_spec {r q e : ℕ} {fac : List (ℕ × ℕ)} (h : checkOrd r q e fac = true) : EmbeddingDegree q r e := by
  unfold checkOrd at h
  simp only [Bool.and_eq_true, decide_eq_true_eq, List.all_eq_true, Bool.or_eq_true, List.contains_eq_mem] at h
  obtain ⟨⟨⟨⟨h1, h512⟩, h2⟩, h3⟩, h4⟩ := h
  have hz : ∀ k, q ^ k ≡ 1 [MOD r] ↔ (q : ZMod r) ^ k = 1 := by
    intro k
    rw [← ZMod.natCast_eq_natCast_iff, Nat.cast_pow, Nat.cast_one]
  have ho : orderOf (q : ZMod r) = e := by
    refine orderOf_eq_of_pow_and_pow_div_prime h1 ?_ ?_
    · rw [← hz]
      exact (powMod_modEq r q e h512).symm.trans h3
    · intro l hl hd he
      have : ∃ t ∈ fac, l = t.1 := by
        rw [← h2, Prime.dvd_prod_iff hl.prime] at hd
        obtain ⟨x, hx, hqx⟩ := hd
        rw [List.mem_map] at hx
        obtain ⟨t, ht, rfl⟩ := hx
        refine ⟨t, ht, ?_⟩
        have htp : t.1.Prime := by
          rcases (h4 t ht).1 with h5 | h5
          · exact smallPrime_spec h5.1 h5.2
          · obtain ⟨c, hc, e⟩ := List.mem_map.mp h5
            rw [← e]
            exact groupCert_prime c hc
        exact (Nat.prime_dvd_prime_iff_eq hl htp).mp (hl.dvd_of_dvd_pow hqx)
      obtain ⟨t, ht, rfl⟩ := this
      rw [← hz] at he
      exact (h4 t ht).2 ((powMod_modEq r q (e / t.1) (lt_of_le_of_lt (Nat.div_le_self _ _) h512)).trans he)
  refine ⟨h1, fun k => ?_⟩
  rw [hz, ← orderOf_dvd_iff_pow_eq_one, ho]

/-- Two curves form a cycle: the number of points of each is the number of elements of the other's base field. -/
def Cycle {F F' : Type} [_root_.Field F] [DecidableEq F] [BaseField F] [LawfulBase F] [_root_.Field F'] [DecidableEq F'] [BaseField F'] [LawfulBase F']
    (C : Params F) (C' : Params F') : Prop :=
  Nat.card (Pt C) = Nat.card F' ∧ Nat.card (Pt C') = Nat.card F

/-- **C70** The cycles of curves. -/
theorem C70_cycles : Cycle Bn256.g1 Grumpkin.g1 ∧ Cycle Pluto.g1 Pluto.eris ∧ Cycle Secp256k1.c Secq256k1.c := by
  obtain ⟨o0, o1, o2, o3, o4, o5, _⟩ := C44_orders
  refine ⟨⟨?_, ?_⟩, ⟨?_, ?_⟩, ⟨?_, ?_⟩⟩
  · exact o0.card.trans ((one_mul _).trans (card_fp bnR).symm)
  · exact o1.card.trans ((one_mul _).trans (card_fp bnQ).symm)
  · exact o2.card.trans ((one_mul _).trans (card_fp plQ).symm)
  · exact o3.card.trans ((one_mul _).trans (card_fp plP).symm)
  · exact o4.card.trans ((one_mul _).trans (card_fp k1N).symm)
  · exact o5.card.trans ((one_mul _).trans (card_fp k1P).symm)

/-- **C70** The curves with a pairing have embedding degree twelve: the pairing's target is the smallest extension that can hold it. -/
theorem C70_pairing : EmbeddingDegree bnQ bnR 12 ∧ EmbeddingDegree blsQ blsR 12 ∧ EmbeddingDegree plP plQ 12 :=
  ⟨checkOrd_spec (fac := [(2, 2), (3, 1)]) (by decide +kernel), checkOrd_spec (fac := [(2, 2), (3, 1)]) (by decide +kernel),
    checkOrd_spec (fac := [(2, 2), (3, 1)]) (by decide +kernel)⟩

/-- **C70** The other curves have embedding degrees close to `r`: there is no pairing into a field of feasible size. -/
theorem C70_no_pairing :
    EmbeddingDegree bnR bnQ ((bnQ - 1) / 6) ∧
    EmbeddingDegree plQ plP ((plP - 1) / 32) ∧
    EmbeddingDegree k1P k1N ((k1N - 1) / 6) ∧
    EmbeddingDegree k1N k1P ((k1P - 1) / 6) ∧
    EmbeddingDegree r1P r1N ((r1N - 1) / 3) :=
  ⟨checkOrd_spec (fac := [(3, 1), (13, 1), (29, 1), (67, 1), (229, 1), (311, 1), (983, 1), (11003, 1), (405928799, 1), (11465965001, 1), (13427688667394608761327070753331941386769, 1)]) (by decide +kernel),
    checkOrd_spec (fac := [(2, 27), (3, 4), (17, 1), (67, 1), (293, 1), (349, 1), (1997, 1), (19556633, 1), (44179799701097, 1), (1461985442088199434216480729118540833655826472878315075486478169293801719414121837587283877, 1)]) (by decide +kernel),
    checkOrd_spec (fac := [(2, 5), (149, 1), (631, 1), (107361793816595537, 1), (174723607534414371449, 1), (341948486974166000522343609283189, 1)]) (by decide +kernel),
    checkOrd_spec (fac := [(7, 1), (13441, 1), (205115282021455665897114700593932402728804164701536103180137503955397371, 1)]) (by decide +kernel),
    checkOrd_spec (fac := [(2, 4), (71, 1), (131, 1), (373, 1), (3407, 1), (17449, 1), (38189, 1), (187019741, 1), (622491383, 1), (1002328039319, 1), (2624747550333869278416773953, 1)]) (by decide +kernel)⟩

/-- Neither anomalous nor supersingular: the number of points `n` is neither `q` nor one more than a multiple of the characteristic. -/
def Ordinary {F : Type} [_root_.Field F] [DecidableEq F] [BaseField F] [LawfulBase F] (C : Params F) (p : ℕ) : Prop :=
  Nat.card (Pt C) ≠ Nat.card F ∧ ¬ Nat.card (Pt C) ≡ 1 [MOD p]

theorem ordinary_of {F : Type} [_root_.Field F] [DecidableEq F] [BaseField F] [LawfulBase F] {C : Params F} {G : Aff F} {p h r q : ℕ}
    (ho : OrderSpec C G h r) (hq : Nat.card F = q) (h1 : h * r ≠ q) (h2 : ¬ h * r % p = 1 % p) : Ordinary C p := by
  rw [Ordinary, ho.card, hq]
  exact ⟨h1, h2⟩

/-- **C70** None of the eleven curves is anomalous or supersingular. -/
theorem C70_ordinary :
    Ordinary Bn256.g1 bnQ ∧ Ordinary Grumpkin.g1 bnR ∧ Ordinary Pluto.g1 plP ∧ Ordinary Pluto.eris plQ ∧ Ordinary Secp256k1.c k1P ∧
    Ordinary Secq256k1.c k1N ∧ Ordinary Secp256r1.c r1P ∧ Ordinary Bn256.g2 bnQ ∧ Ordinary Pluto.g2 plP ∧ Ordinary Bls12381.g1 blsQ ∧
    Ordinary Bls12381.g2 blsQ := by
  obtain ⟨o0, o1, o2, o3, o4, o5, o6, o7, o8, o9, o10⟩ := C44_orders
  exact ⟨ordinary_of o0 (card_fp bnQ) (by decide +kernel) (by decide +kernel), ordinary_of o1 (card_fp bnR) (by decide +kernel) (by decide +kernel),
    ordinary_of o2 (card_fp plP) (by decide +kernel) (by decide +kernel), ordinary_of o3 (card_fp plQ) (by decide +kernel) (by decide +kernel),
    ordinary_of o4 (card_fp k1P) (by decide +kernel) (by decide +kernel), ordinary_of o5 (card_fp k1N) (by decide +kernel) (by decide +kernel),
    ordinary_of o6 (card_fp r1P) (by decide +kernel) (by decide +kernel),
    ordinary_of o7 ((card_quad _).trans (congrArg (· ^ 2) (card_fp bnQ))) (by decide +kernel) (by decide +kernel),
    ordinary_of o8 ((card_quad _).trans (congrArg (· ^ 2) (card_fp plP))) (by decide +kernel) (by decide +kernel),
    ordinary_of o9 (card_fp blsQ) (by decide +kernel) (by decide +kernel),
    ordinary_of o10 ((card_quad _).trans (congrArg (· ^ 2) (card_fp blsQ))) (by decide +kernel) (by decide +kernel)⟩

end Halo2.Props
