import Verif.Curve.RandomUniform
import Verif.Props.Cofactor

/-!
# Random points are uniformly distributed: C69
-/

set_option linter.unusedSectionVars false

namespace Halo2.Props

open Halo2 Halo2.Prime Halo2.Ext Halo2.Curve Halo2.Hash Halo2.Field Halo2.Curve.Cofactor

/-- How often a point of the curve is chosen, up to a factor that does not depend on the point: not at all outside of the subgroup of order
`r`, `h` times for the points of the subgroup other than the identity, `h - 1` times for the identity. -/
noncomputable def share {F : Type} [_root_.Field F] [DecidableEq F] [BaseField F] [LawfulBase F] {C : Params F} (h r : ℕ) (q : Pt C) : ℕ :=
  open Classical in if r • q ≠ 0 then 0 else if q = 0 then h - 1 else h

/-- Among the lists of `n` values that the source of randomness can yield (an abscissa and a bit for each round), the number of those for
which `random` returns the point `q` is `K n` times the share of `q`. There are `2 |F| + 1 - h r` of the `2 |F|` values for which a round
does not end the loop. -/
def UniformSpec {F : Type} [_root_.Field F] [DecidableEq F] [BaseField F] [LawfulBase F] (C : Params F) (h r : ℕ) (sqrt : F → Option F)
    (clear : Proj F → Proj F) : Prop :=
  h * r ≤ 2 * Nat.card F + 1 ∧ ∃ K : ℕ → ℕ, K 0 = 0 ∧ (∀ n, K (n + 1) = (2 * Nat.card F) ^ n + (2 * Nat.card F + 1 - h * r) * K n) ∧
    ∀ lowBit n (q : Pt C),
      {l : List (F × Bool) | l.length = n ∧ ∃ A, random C sqrt lowBit clear l = some A ∧ ARep C A q}.ncard = K n * share h r q

theorem uniformSpec_of {F : Type} [_root_.Field F] [DecidableEq F] [BaseField F] [LawfulBase F] [Finite F] {C : Params F} (hC : Good C)
    {G : Aff F} {h r k : ℕ} {sqrt : F → Option F} {clear : Proj F → Proj F}
    (hs : ∀ x, x ≠ 0 → (∀ y, sqrt x = some y → y * y = x) ∧ (sqrt x = none → ¬ IsSquare x))
    (hc : ClearSpec C r clear k) (ho : OrderSpec C G h r) : UniformSpec C h r sqrt clear := by
  have y0 : ∀ x, y2 C x ≠ 0 := by
    intro x hx
    rw [Codec.y2_eq] at hx
    refine y_ne_zero hC (x := x) (y := 0) ?_ rfl
    rw [equation_iff, mul_zero, hx]
  have hf : Finite (Pt C) := (pt_card_le C).1
  let sq' : F → Option F := fun x => if x = 0 then some 0 else sqrt x
  have hs1 : ∀ x y, sq' x = some y → y * y = x := by
    intro x y h
    by_cases hx : x = 0
    · rw [show sq' x = some 0 from if_pos hx] at h
      rw [← Option.some.inj h, hx, mul_zero]
    · rw [show sq' x = sqrt x from if_neg hx] at h
      exact (hs x hx).1 y h
  have hs2 : ∀ x, sq' x = none → ¬ IsSquare x := by
    intro x h
    by_cases hx : x = 0
    · rw [show sq' x = some 0 from if_pos hx] at h
      exact absurd h (by simp)
    · rw [show sq' x = sqrt x from if_neg hx] at h
      exact (hs x hx).2 h
  have e : ∀ lowBit draws, random C sqrt lowBit clear draws = random C sq' lowBit clear draws := by
    intro lowBit draws
    induction draws with
    | nil => rfl
    | cons d rest ih =>
      obtain ⟨x, b⟩ := d
      rw [random, random, ih, show sq' (y2 C x) = sqrt (y2 C x) from if_neg (y0 x)]
  have hN : Nat.card (F × Bool) = 2 * Nat.card F := by
    rw [Nat.card_prod, Nat.card_eq_fintype_card (α := Bool), Fintype.card_bool, Nat.mul_comm]
  have hfail := count_fail hC hs1 hs2 (fun _ => false)
  rw [hN, ho.card] at hfail
  refine ⟨by omega, weight (2 * Nat.card F) (2 * Nat.card F + 1 - h * r), rfl, fun n => rfl, fun lowBit n q => ?_⟩
  have hlists := count_lists sq' lowBit clear q n
  rw [hN, show {d : F × Bool | sq' (y2 C d.1) = none}.ncard = 2 * Nat.card F + 1 - h * r by omega, count_one hC hs1 hs2 lowBit hc.mul q] at hlists
  simp only [e]
  rw [hlists]
  obtain ⟨g, -, hg, hgen⟩ := ho.gen
  obtain ⟨p1, p2, p3⟩ := preimage_card ho.prime.pos ho.card hg hgen hc.lands hc.onto q
  congr 1
  unfold share
  split
  · next h1 => exact p1 h1
  · next h1 =>
    rw [not_not] at h1
    split
    · next h2 => exact p3 h2
    · next h2 => exact p2 h1 h2

/-- **C69** The points that `random` returns are uniformly distributed over the subgroup without the identity, for every number of rounds;
on curves of prime order the identity never occurs. -/
theorem C69_random :
    UniformSpec Bn256.g1 1 bnR (Fp.sqrt 3) trivialClear ∧ UniformSpec Grumpkin.g1 1 bnQ (Fp.sqrt 7) trivialClear ∧
    UniformSpec Pluto.g1 1 plQ (Fp.sqrt 10) trivialClear ∧ UniformSpec Pluto.eris 1 plP (Fp.sqrt 7) trivialClear ∧
    UniformSpec Secp256k1.c 1 k1N (Fp.sqrt 3) trivialClear ∧ UniformSpec Secq256k1.c 1 k1P (Fp.sqrt 7) trivialClear ∧
    UniformSpec Secp256r1.c 1 r1N (Fp.sqrt 6) trivialClear ∧
    UniformSpec Bn256.g2 21888242871839275222246405745257275088844257914179612981679871602714643921549 bnR Bn256.sqrt2 Bn256.g2ClearCofactor ∧
    UniformSpec Pluto.g2 102211695604070082112571065507755096754575920209623522239390234855500789814276296758597959633551254826373265657863299916084618666704897
      plQ plutoSqrt Pluto.g2ClearCofactor ∧
    UniformSpec Bls12381.g1 76329603384216526031706109802092473003 blsR (Fp.sqrt 2) Bls12381.g1ClearCofactor ∧
    UniformSpec Bls12381.g2 305502333931268344200999753193121504214466019254188142667664032982267604182971884026507427359259977847832272839041616661285803823378372096355777062779109
      blsR Bls12381.sqrt2 Bls12381.g2ClearCofactor := by
  obtain ⟨t0, t1, t2, t3, t4, t5, t6⟩ := C41_prime_order
  obtain ⟨c0, c1, c2, c3⟩ := C41_clear
  obtain ⟨o0, o1, o2, o3, o4, o5, o6, o7, o8, o9, o10⟩ := C44_orders
  exact ⟨uniformSpec_of Bn256.g1_good (fun x _ => ⟨bnQ_ok.sqrt_some x, bnQ_ok.sqrt_none x⟩) t0.1 o0,
    uniformSpec_of Grumpkin.g1_good (fun x _ => ⟨bnR_ok.sqrt_some x, bnR_ok.sqrt_none x⟩) t1.1 o1,
    uniformSpec_of Pluto.g1_good (fun x _ => ⟨plP_ok.sqrt_some x, plP_ok.sqrt_none x⟩) t2.1 o2,
    uniformSpec_of Pluto.eris_good (fun x _ => ⟨plQ_ok.sqrt_some x, plQ_ok.sqrt_none x⟩) t3.1 o3,
    uniformSpec_of Secp256k1.c_good (fun x _ => ⟨k1P_ok.sqrt_some x, k1P_ok.sqrt_none x⟩) t4.1 o4,
    uniformSpec_of Secq256k1.c_good (fun x _ => ⟨k1N_ok.sqrt_some x, k1N_ok.sqrt_none x⟩) t5.1 o5,
    uniformSpec_of Secp256r1.c_good (fun x _ => ⟨r1P_ok.sqrt_some x, r1P_ok.sqrt_none x⟩) t6.1 o6,
    uniformSpec_of Bn256.g2_good (fun x _ => Bn256.sqrt2_spec x) c0 o7, uniformSpec_of Pluto.g2_good plutoSqrt_spec c1 o8,
    uniformSpec_of Bls12381.g1_good (fun x _ => ⟨blsQ_ok.sqrt_some x, blsQ_ok.sqrt_none x⟩) c2 o9,
    uniformSpec_of Bls12381.g2_good (fun x _ => Bls12381.sqrt2_spec x) c3 o10⟩

/-- The first round alone. -/
theorem UniformSpec.once {F : Type} [_root_.Field F] [DecidableEq F] [BaseField F] [LawfulBase F] {C : Params F} {h r : ℕ} {sqrt : F → Option F}
    {clear : Proj F → Proj F} (hU : UniformSpec C h r sqrt clear) (lowBit : F → Bool) (q : Pt C) :
    {l : List (F × Bool) | l.length = 1 ∧ ∃ A, random C sqrt lowBit clear l = some A ∧ ARep C A q}.ncard = share h r q := by
  obtain ⟨-, K, k0, k1, hK⟩ := hU
  have e : K 1 = 1 := by rw [k1 0, k0, pow_zero, mul_zero, add_zero]
  rw [hK, e, one_mul]

theorem share_one {F : Type} [_root_.Field F] [DecidableEq F] [BaseField F] [LawfulBase F] {C : Params F} {r : ℕ} (q : Pt C) (hq : r • q = 0) :
    share 1 r q = if q = 0 then 0 else 1 := by
  rw [share, if_neg (not_not.mpr hq)]

/-- Of the `2 q` draws exactly one gives bn256's generator, and none gives the identity. -/
example (lowBit : Fp bnQ → Bool) : ∃ g : Pt Bn256.g1, ARep Bn256.g1 Bn256.g1Gen g ∧
    {l : List (Fp bnQ × Bool) | l.length = 1 ∧ ∃ A, random Bn256.g1 (Fp.sqrt 3) lowBit trivialClear l = some A ∧ ARep Bn256.g1 A g}.ncard = 1 ∧
    {l : List (Fp bnQ × Bool) | l.length = 1 ∧ ∃ A, random Bn256.g1 (Fp.sqrt 3) lowBit trivialClear l = some A ∧ ARep Bn256.g1 A 0}.ncard = 0 := by
  have hU := C69_random.1
  obtain ⟨g, hG, ho, -⟩ := C44_orders.1.gen
  have hp := bnR_prime
  have key : ∀ r, r.Prime → addOrderOf g = r → UniformSpec Bn256.g1 1 r (Fp.sqrt 3) trivialClear → _ := fun r hr hgr hU =>
    And.intro ((hU.once lowBit g).trans ((share_one g (by rw [← hgr]; exact addOrderOf_nsmul_eq_zero g)).trans (if_neg (by
      rintro rfl
      rw [addOrderOf_zero] at hgr
      exact hr.one_lt.ne hgr)))) ((hU.once lowBit 0).trans ((share_one 0 (smul_zero r)).trans (if_pos rfl)))
  exact ⟨g, hG, key bnR hp ho hU⟩

end Halo2.Props
