import Verif.Props.Subgroup
import Verif.Props.Bilinear
import Verif.Pairing.TotalInst

/-!
# Property C61: on which points the pairings panic

`final_exponentiation` unwraps the inverse of the value of the Miller loop: a loop that gives zero makes `pairing` panic (`none`).
-/

set_option linter.unusedSectionVars false
set_option maxRecDepth 100000

namespace Halo2.Props

open Halo2 Halo2.Field Halo2.Ext Halo2.Curve Halo2.Prime Halo2.Pairing

section
variable {L F K : Type} [Field L] [DecidableEq L] [BaseField L] [LawfulBase L] [Field F] [DecidableEq F] [BaseField F] [LawfulBase F]

/-- The full claim for an engine: neither `pairing` nor `multi_miller_loop` followed by `final_exponentiation` panics on points of the
curves. -/
structure PairingTotal (C1 : Params L) (C2 : Params F) (pairing : Aff L → Aff F → Option K)
    (multi : List (Aff L × Aff F) → Option K) : Prop where
  pairing : ∀ p q, Aff.isOnCurve C1 p = true → Aff.isOnCurve C2 q = true → pairing p q ≠ none
  multi : ∀ ts, (∀ t ∈ ts, Aff.isOnCurve C1 t.1 = true ∧ Aff.isOnCurve C2 t.2 = true) → multi ts ≠ none

/-- The second point of a pair with finite points has order `l` for an `l` of the list. -/
def BadPair (C2 : Params F) (bad : List ℕ) (t : Aff L × Aff F) : Prop :=
  t.1.isIdentity = false ∧ t.2.isIdentity = false ∧ ∃ l ∈ bad, ∃ Q : Pt C2, ARep C2 t.2 Q ∧ l • Q = 0

/-- The exact set of pairs of points of the curves on which an engine panics. -/
structure PairingPanics (C1 : Params L) (C2 : Params F) (bad : List ℕ) (pairing : Aff L → Aff F → Option K)
    (multi : List (Aff L × Aff F) → Option K) : Prop where
  pairing : ∀ p q, Aff.isOnCurve C1 p = true → Aff.isOnCurve C2 q = true → (pairing p q = none ↔ BadPair C2 bad (p, q))
  multi : ∀ ts, (∀ t ∈ ts, Aff.isOnCurve C1 t.1 = true ∧ Aff.isOnCurve C2 t.2 = true) →
    (multi ts = none ↔ ∃ t ∈ ts, BadPair C2 bad t)

theorem points_of {C1 : Params L} {C2 : Params F} (h1 : Good C1) (h2 : Good C2) (ts : List (Aff L × Aff F))
    (h : ∀ t ∈ ts, Aff.isOnCurve C1 t.1 = true ∧ Aff.isOnCurve C2 t.2 = true) :
    ∃ PQ : List (Pt C1 × Pt C2), List.Forall₂ (fun t s => ARep C1 t.1 s.1 ∧ ARep C2 t.2 s.2) ts PQ := by
  induction ts with
  | nil => exact ⟨[], .nil⟩
  | cons t ts ih =>
    obtain ⟨PQ, hPQ⟩ := ih fun t ht => h t (List.mem_cons_of_mem _ ht)
    obtain ⟨a, b⟩ := h t List.mem_cons_self
    obtain ⟨P, hP⟩ := (Aff.valid_iff h1 _).mpr a
    obtain ⟨Q, hQ⟩ := (Aff.valid_iff h2 _).mpr b
    exact ⟨(P, Q) :: PQ, .cons ⟨hP, hQ⟩ hPQ⟩

theorem bad_iff {C1 : Params L} {C2 : Params F} (h1 : Good C1) (h2 : Good C2) {bad : List ℕ} {t : Aff L × Aff F} {P : Pt C1} {Q : Pt C2}
    (hp : ARep C1 t.1 P) (hq : ARep C2 t.2 Q) : BadPair C2 bad t ↔ P ≠ 0 ∧ Q ≠ 0 ∧ ∃ l ∈ bad, l • Q = 0 := by
  rw [BadPair, ← Bool.not_eq_true, ← Bool.not_eq_true, hp.isIdentity h1, hq.isIdentity h2]
  refine and_congr_right fun _ => and_congr_right fun _ => exists_congr fun l => and_congr_right fun _ => ?_
  constructor
  · rintro ⟨Q', hQ', e⟩
    rwa [← ARep.unique h2 hQ' hq]
  · exact fun e => ⟨Q, hq, e⟩

theorem exists_bad_iff {C1 : Params L} {C2 : Params F} (h1 : Good C1) (h2 : Good C2) {bad : List ℕ} {ts : List (Aff L × Aff F)}
    {PQ : List (Pt C1 × Pt C2)} (h : List.Forall₂ (fun t s => ARep C1 t.1 s.1 ∧ ARep C2 t.2 s.2) ts PQ) :
    (∃ t ∈ ts, BadPair C2 bad t) ↔ ∃ s ∈ PQ, s.1 ≠ 0 ∧ s.2 ≠ 0 ∧ ∃ l ∈ bad, l • s.2 = 0 := by
  induction h with
  | nil => simp
  | cons hts _ ih =>
    simp only [List.mem_cons, exists_eq_or_imp, ih, bad_iff h1 h2 hts.1 hts.2]

theorem pairingPanics_of [Field K] {C1 : Params L} {C2 : Params F} (h1 : Good C1) (h2 : Good C2) {bad : List ℕ}
    {pairing : Aff L → Aff F → Option K} {miller : List (Aff L × Aff F) → K} {fin : K → Option K}
    (h0 : fin 0 = none) (hne : ∀ f, f ≠ 0 → ∃ g, fin f = some g)
    (hz : ∀ ts (PQ : List (Pt C1 × Pt C2)), List.Forall₂ (fun t s => ARep C1 t.1 s.1 ∧ ARep C2 t.2 s.2) ts PQ →
      (miller ts = 0 ↔ ∃ s ∈ PQ, s.1 ≠ 0 ∧ s.2 ≠ 0 ∧ ∃ l ∈ bad, l • s.2 = 0))
    (hp : ∀ p q, pairing p q = fin (miller [(p, q)])) : PairingPanics C1 C2 bad pairing (fun ts => fin (miller ts)) := by
  have hm : ∀ ts, (∀ t ∈ ts, Aff.isOnCurve C1 t.1 = true ∧ Aff.isOnCurve C2 t.2 = true) →
      (fin (miller ts) = none ↔ ∃ t ∈ ts, BadPair C2 bad t) := by
    intro ts hts
    obtain ⟨PQ, hPQ⟩ := points_of h1 h2 ts hts
    rw [exists_bad_iff h1 h2 hPQ, ← hz ts PQ hPQ]
    constructor
    · intro e
      by_contra hn
      obtain ⟨g, hg⟩ := hne _ hn
      rw [hg] at e
      exact absurd e (Option.some_ne_none g)
    · intro e
      rw [e, h0]
  refine ⟨fun p q ha hb => ?_, hm⟩
  rw [hp, hm [(p, q)] fun t ht => by rw [List.mem_singleton.mp ht]; exact ⟨ha, hb⟩]
  simp only [List.mem_singleton, exists_eq_left]

/-- A point on which the full claim fails: every decoder of the second group accepts it, and its pairing with every finite point of the
first curve panics. -/
def PanicsOnDecoded (C1 : Params L) (K2 : Codec F) (C2 : Params F) (pairing : Aff L → Aff F → Option K) : Prop :=
  ∃ q : Aff F, (∀ d : Decoder, ∃ b, d.Accepts K2 C2 b q) ∧
    ∀ p, Aff.isOnCurve C1 p = true → p.isIdentity = false → pairing p q = none

end

theorem bn256_panics : PairingPanics Bn256.g1 Bn256.g2 [] Bn256.pairing (fun ts => Bn256.finalExp (Bn256.multiMillerLoop ts)) :=
  pairingPanics_of Bn256.g1_good Bn256.g2_good Bn256.finalExp_zero (fun f hf => ⟨_, Bn256.finalExp_eq f hf⟩)
    (fun _ _ h => iff_of_false (Bn256.multi_ne_zero h) fun ⟨_, _, _, _, _, hl, _⟩ => absurd hl List.not_mem_nil) fun _ _ => rfl

/-- **C61** On bn256 the pairing and the product of pairings return a value for all points of the curves, in the subgroups or not. -/
theorem C61_bn256 : PairingTotal Bn256.g1 Bn256.g2 Bn256.pairing (fun ts => Bn256.finalExp (Bn256.multiMillerLoop ts)) where
  pairing p q hp hq h := by
    obtain ⟨-, -, l, hl, -⟩ := (bn256_panics.pairing p q hp hq).mp h
    exact absurd hl List.not_mem_nil
  multi ts hts h := by
    obtain ⟨_, _, -, -, l, hl, -⟩ := (bn256_panics.multi ts hts).mp h
    exact absurd hl List.not_mem_nil

/-- **C61** (partial: the pairing of bls12-381 panics on some points of the curves, see `C61_false`) It panics exactly if both points are
finite and the second has order 13. -/
theorem C61_bls12381_partial : PairingPanics Bls12381.g1 Bls12381.g2 [13] Bls12381.pairing
    (fun ts => Bls12381.finalExp (Bls12381.multiMillerLoop ts)) :=
  pairingPanics_of Bls12381.g1_good Bls12381.g2_good Bls12381.finalExp_zero (fun f hf => ⟨_, Bls12381.finalExp_eq f hf⟩)
    (fun _ _ h => Bls12381.multi_zero_iff h) fun _ _ => rfl

/-- **C61** (partial: the pairing of pluto panics on some points of the curves, see `C61_false`) It panics exactly if both points are finite
and the second has order 13 or 73. -/
theorem C61_pluto_partial : PairingPanics Pluto.g1 Pluto.g2 [13, 73] Pluto.pairing
    (fun ts => Pluto.finalExp (Pluto.multiMillerLoop ts)) :=
  pairingPanics_of Pluto.g1_good Pluto.g2_good Pluto.finalExp_zero (fun f hf => ⟨_, Pluto.finalExp_eq f hf⟩)
    (fun _ _ h => Pluto.multi_zero_iff h) fun _ _ => rfl

/-! ## The witnesses -/

/-- A point of order 13 of the second curve of bls12-381. -/
@[irreducible] def bls13X : ℕ × ℕ := (0x10b78a07881273d695e1156228a5b64d08ae178eab069faf0557587dcdae8763dfdf70e988418ea6778422af3a0a75f7,
  0x1004c8308dc6da448ae163bec45203a6b38135c14537bde89248887474c864bf187c57ef547ec085c8fd8ff64efbdb71)

@[irreducible] def bls13Y : ℕ × ℕ := (0x35c8e087dc1f0a5dc405710001ff250c07a5b9773badbf88ad3e12ee22fae3ee2156b9e3273764eef4814e34ff01038,
  0xc10aa8c77e94ecd890380ddebbe5098265a80b1051bb5a21b92221dc3e14c10b841a605a0456892c87bc0cdb0955929)

/-- The point, as the library stores it. -/
def bls13 : Aff Bls12381.Fq2 := ⟨Bls12381.g2Sh.φ bls13X, Bls12381.g2Sh.φ bls13Y⟩

/-- The point of the curve. -/
noncomputable def bls13Pt : Pt Bls12381.g2 := .some (Bls12381.g2Sh.φ bls13X) (Bls12381.g2Sh.φ bls13Y)
  (shOn_spec Bls12381.g2_good (Bls12381.g2_a.trans Bls12381.g2Sh.φ_zero.symm) Bls12381.g2BVal_eq (by decide +kernel))

theorem bls13_order : addOrderOf bls13Pt = 13 := by
  have h := orderCheck_spec (L := [13]) Bls12381.g2_good Bls12381.g2Op_isAdd
    (fun l hl => by rw [List.mem_singleton.mp hl]; decide +kernel) (shPt_rep (S := Bls12381.g2Sh) rfl rfl _ : PRep Bls12381.g2
      (shProj Bls12381.g2Sh ⟨bls13X, bls13Y, Bls12381.g2Sh.one⟩) bls13Pt) (by decide +kernel)
  rwa [List.prod_singleton] at h

/-- A point of order 73 of the second curve of pluto. -/
@[irreducible] def pl73X : ℕ × ℕ := (0x1778878dd925ab643e8197bafb129120e61632986f071615e25933a5d99f852c68b8673166163d63301f82b133150570b29496109b4763f0,
  0x2350f380128f3674879bf49307348ea04f939441f10dd3e6363851043a83d306789c885deb9703bd656d2c828715cc8a0b85b4f3a59ec7b0)

@[irreducible] def pl73Y : ℕ × ℕ := (0xe4a67ddd8d7c8ff3fc4b83f18877be6c5474a4f2c10a55de79e5dc8f775afd5bb873e04b32673d5e1a067d3d4972388357b819d42e61073,
  0x14e5cf736e10cc12ef9a2ab55b08dd0511980af3b0d65a78e366a9a0d3a37e72d387f875b04e6564ee7a49d70de920ff125c61b14cf323cc)

/-- The point, as the library stores it. -/
def pl73 : Aff Pluto.Fp2 := ⟨Pluto.g2Sh.φ pl73X, Pluto.g2Sh.φ pl73Y⟩

/-- The point of the curve. -/
noncomputable def pl73Pt : Pt Pluto.g2 := .some (Pluto.g2Sh.φ pl73X) (Pluto.g2Sh.φ pl73Y)
  (shOn_spec Pluto.g2_good (Pluto.g2_a.trans Pluto.g2Sh.φ_zero.symm) Pluto.g2BVal_eq (by decide +kernel))

theorem pl73_order : addOrderOf pl73Pt = 73 := by
  have h := orderCheck_spec (L := [73]) Pluto.g2_good Pluto.g2Op_isAdd
    (fun l hl => by rw [List.mem_singleton.mp hl]; decide +kernel) (shPt_rep (S := Pluto.g2Sh) rfl rfl _ : PRep Pluto.g2
      (shProj Pluto.g2Sh ⟨pl73X, pl73Y, Pluto.g2Sh.one⟩) pl73Pt) (by decide +kernel)
  rwa [List.prod_singleton] at h

theorem bls13_rep : ARep Bls12381.g2 bls13 bls13Pt := ⟨rfl, rfl⟩

theorem pl73_rep : ARep Pluto.g2 pl73 pl73Pt := ⟨rfl, rfl⟩

theorem ne_zero_of_order {A : Type} [AddGroup A] {P : A} {n : ℕ} (h : addOrderOf P = n) (hn : n ≠ 1) : P ≠ 0 := by
  rintro rfl
  exact hn (h.symm.trans addOrderOf_zero)

/-- **C61** The full claim is false of bls12-381 and of pluto: there are points that every decoder of the second group accepts and whose
pairing with every finite point of the first curve panics. -/
theorem C61_false : PanicsOnDecoded Bls12381.g1 Bls12381.g2Codec Bls12381.g2 Bls12381.pairing ∧
    PanicsOnDecoded Pluto.g1 Pluto.g2Codec Pluto.g2 Pluto.pairing := by
  obtain ⟨-, -, -, r1, r3, -⟩ := C26_others_partial
  have hA := (Aff.valid_iff Bls12381.g2_good bls13).mp ⟨_, bls13_rep⟩
  have hB := (Aff.valid_iff Pluto.g2_good pl73).mp ⟨_, pl73_rep⟩
  refine ⟨⟨bls13, fun d => accepts_all Bls12381.g2Codec_lawful hA (r3 _ hA ?_ ?_) d, fun p hp h0 => ?_⟩,
    pl73, fun d => accepts_all Pluto.g2Codec_lawful hB (r1 _ hB ?_) d, fun p hp h0 => ?_⟩
  · change 2 * ((bls13Y.2 : ℕ) : Fp blsQ) * (2 * ((bls13Y.2 : ℕ) : Fp blsQ)) ≠ 1
    have e : 2 * ((bls13Y.2 : ℕ) : Fp blsQ) * (2 * ((bls13Y.2 : ℕ) : Fp blsQ)) =
        ((2 * bls13Y.2 * (2 * bls13Y.2) : ℕ) : Fp blsQ) := by push_cast; ring
    rw [e]
    intro h
    have := (Fp.natCast_eq_iff _ _).mp (h.trans Nat.cast_one.symm)
    revert this
    decide +kernel
  · intro h
    have h' : ((bls13Y.2 : ℕ) : Fp blsQ) = 0 := h
    have := (Fp.natCast_eq_iff _ _).mp (h'.trans Nat.cast_zero.symm)
    revert this
    decide +kernel
  · rw [C61_bls12381_partial.pairing p _ hp hA]
    refine ⟨h0, ?_, 13, List.mem_singleton_self _, _, bls13_rep, ?_⟩
    · rw [← Bool.not_eq_true, bls13_rep.isIdentity Bls12381.g2_good]
      exact ne_zero_of_order bls13_order (by decide)
    · rw [← bls13_order]
      exact addOrderOf_nsmul_eq_zero _
  · change ((pl73Y.1 : ℕ) : Fp plP) ≠ 0
    rw [← Nat.cast_zero, Ne, Fp.natCast_eq_iff]
    decide +kernel
  · rw [C61_pluto_partial.pairing p _ hp hB]
    refine ⟨h0, ?_, 73, by decide, _, pl73_rep, ?_⟩
    · rw [← Bool.not_eq_true, pl73_rep.isIdentity Pluto.g2_good]
      exact ne_zero_of_order pl73_order (by decide)
    · rw [← pl73_order]
      exact addOrderOf_nsmul_eq_zero _

/-- The pairing of the generators returns a value on all three engines. -/
example : (∃ g, Bn256.pairing Bn256.g1Gen Bn256.g2Gen = some g) ∧ (∃ g, Bls12381.pairing Bls12381.g1Gen Bls12381.g2Gen = some g) ∧
    ∃ g, Pluto.pairing Pluto.g1Gen Pluto.g2Gen = some g := by
  refine ⟨?_, ?_, ?_⟩
  · refine Option.ne_none_iff_exists'.mp (C61_bn256.pairing _ _ ?_ ?_)
    · exact (Aff.valid_iff Bn256.g1_good _).mp ⟨_, Bn256.g1Gen_rep⟩
    · exact (Aff.valid_iff Bn256.g2_good _).mp ⟨_, Bn256.g2Gen_rep⟩
  · refine Option.ne_none_iff_exists'.mp fun h => ?_
    rw [C61_bls12381_partial.pairing _ _ ((Aff.valid_iff Bls12381.g1_good _).mp ⟨_, Bls12381.g1Gen_rep⟩)
      ((Aff.valid_iff Bls12381.g2_good _).mp ⟨_, Bls12381.g2Gen_rep⟩),
      bad_iff Bls12381.g1_good Bls12381.g2_good Bls12381.g1Gen_rep Bls12381.g2Gen_rep] at h
    obtain ⟨-, -, l, hl, e⟩ := h
    rw [List.mem_singleton.mp hl, ← addOrderOf_dvd_iff_nsmul_eq_zero, Bls12381.g2Pt_order] at e
    revert e
    decide +kernel
  · refine Option.ne_none_iff_exists'.mp fun h => ?_
    rw [C61_pluto_partial.pairing _ _ ((Aff.valid_iff Pluto.g1_good _).mp ⟨_, Pluto.g1Gen_rep⟩)
      ((Aff.valid_iff Pluto.g2_good _).mp ⟨_, Pluto.g2Gen_rep⟩),
      bad_iff Pluto.g1_good Pluto.g2_good Pluto.g1Gen_rep Pluto.g2Gen_rep] at h
    obtain ⟨-, -, l, hl, e⟩ := h
    rw [← addOrderOf_dvd_iff_nsmul_eq_zero, Pluto.g2Pt_order] at e
    rcases List.mem_cons.mp hl with rfl | hl
    · revert e
      decide +kernel
    · rw [List.mem_singleton.mp hl] at e
      revert e
      decide +kernel

end Halo2.Props
