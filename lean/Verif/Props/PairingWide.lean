import Verif.Props.PairingCheck
import Verif.Props.Pairing
import Verif.Props.Subgroup
import Mathlib.GroupTheory.Index

/-!
# C81: pairings of points that were not tested for the subgroup

The first curve of bls12381 has more points than its group of order `r`, and the decoders do not test for it (C59). Here the first
argument of the pairing is any point of the curve.
-/

set_option linter.unusedSectionVars false

namespace Halo2.Props

open Halo2 Halo2.Ext Halo2.Field Halo2.Prime Halo2.Curve Halo2.Pairing

section Wide
variable {L F K : Type} [_root_.Field L] [DecidableEq L] [BaseField L] [LawfulBase L]
  [_root_.Field F] [DecidableEq F] [BaseField F] [LawfulBase F] [CommMonoid K]

/-- What C81 says: `h` is the cofactor of the first curve, `H` the generator of the second group, `D` the codec of the first curve. -/
structure WideClaim (C1 : Params L) (C2 : Params F) (D : Codec L) (r h : ℕ) [Fact (OddModulus r)] (H : Aff F)
    (free : Proj L → Bool) (pairing : Aff L → Aff F → Option K) (multi : List (Aff L × Aff F) → Option K) : Prop where
  /-- no panic, and the value is in the group of order `r` -/
  total : ∀ p q, Aff.isOnCurve C1 p = true → InGroup C2 r q → ∃ z, pairing p q = some z ∧ z ^ r = 1
  /-- additive in the first argument, on the whole curve -/
  add_left : ∀ p p' q z z', Aff.isOnCurve C1 p = true → Aff.isOnCurve C1 p' = true → InGroup C2 r q →
    pairing p q = some z → pairing p' q = some z' → pairing (Aff.add C1 p p').toAffine q = some (z * z')
  /-- additive in the second argument -/
  add_right : ∀ p q q' z z', Aff.isOnCurve C1 p = true → InGroup C2 r q → InGroup C2 r q' →
    pairing p q = some z → pairing p q' = some z' → pairing p (Aff.add C2 q q').toAffine = some (z * z')
  /-- lists of pairs give the product of the pairings -/
  multi : ∀ ts zs, List.Forall₂ (fun t z => Aff.isOnCurve C1 t.1 = true ∧ InGroup C2 r t.2 ∧ pairing t.1 t.2 = some z) ts zs →
    multi ts = some zs.prod
  /-- the value is one exactly when the second point is the identity or the cofactor kills the first -/
  trivial : ∀ p q, Aff.isOnCurve C1 p = true → InGroup C2 r q →
    (pairing p q = some 1 ↔ InGroup C1 h p ∨ q.isIdentity = true)
  /-- the signature equation holds exactly when the cofactor kills the difference of `s` and `k m` -/
  signature : ∀ (s m : Aff L) (k : Fp r), Aff.isOnCurve C1 s = true → Aff.isOnCurve C1 m = true →
    (pairing s H = pairing m (Aff.mul C2 H (Fp.toRepr k)).toAffine ↔
      InGroup C1 h (Aff.add C1 s (Aff.mul C1 m (Fp.toRepr k)).toAffine.neg).toAffine)
  /-- for every message point and key exactly `h` points of the curve satisfy the equation -/
  count : ∀ (m : Aff L) (k : Fp r), Aff.isOnCurve C1 m = true →
    {s : Aff L | Aff.isOnCurve C1 s = true ∧ pairing s H = pairing m (Aff.mul C2 H (Fp.toRepr k)).toAffine}.ncard = h
  /-- and exactly `h` byte strings decode to such points, in uncompressed and in raw form -/
  bytes : ∀ (m : Aff L) (k : Fp r), Aff.isOnCurve C1 m = true → ∀ d : Decoder, d ≠ .compressed →
    {b : List ℕ | ∃ s, d.Accepts D C1 b s ∧ pairing s H = pairing m (Aff.mul C2 H (Fp.toRepr k)).toAffine}.ncard = h
  /-- with `is_torsion_free` there is exactly one: `k m` -/
  tested : ∀ (s m : Aff L) (k : Fp r), Aff.isOnCurve C1 s = true → InGroup C1 r m →
    (free (Aff.toCurve s) = true ∧ pairing s H = pairing m (Aff.mul C2 H (Fp.toRepr k)).toAffine ↔
      Aff.eq s (Aff.mul C1 m (Fp.toRepr k)).toAffine = true)

/-- Multiplication by the cofactor kills exactly as many points as the cofactor says. -/
theorem OrderSpec.kernel {C : Params L} {G : Aff L} {h r : ℕ} [Finite (Pt C)] (o : OrderSpec C G h r) :
    {P : Pt C | h • P = 0}.ncard = h := by
  obtain ⟨g, -, hg, ht⟩ := o.gen
  have hc : ∀ P : Pt C, r • h • P = 0 := by
    intro P
    have := card_nsmul_eq_zero' (x := P)
    rw [o.card, mul_comm, mul_smul] at this
    exact this
  let f : Pt C →+ Pt C := nsmulAddMonoidHom h
  have hf : ∀ P, f P = h • P := fun _ => rfl
  have hrange : f.range = AddSubgroup.zmultiples g := by
    apply le_antisymm
    · rintro _ ⟨P, rfl⟩
      obtain ⟨k, -, hk⟩ := (ht (h • P)).mp (hc P)
      rw [hf, hk]
      exact ⟨k, natCast_zsmul _ _⟩
    · rw [AddSubgroup.zmultiples_le]
      have hcop : Nat.Coprime h r := Nat.Coprime.symm ((Nat.Prime.coprime_iff_not_dvd o.prime).mpr o.coprime)
      refine ⟨(Nat.gcdA h r) • g, ?_⟩
      rw [hf, smul_comm, ← natCast_zsmul, ← mul_smul]
      have e := Nat.gcd_eq_gcd_ab h r
      rw [hcop.gcd_eq_one, Nat.cast_one] at e
      have e2 : Nat.gcdA h r * (h : ℤ) = 1 - Nat.gcdB h r * (r : ℤ) := by linear_combination -e
      rw [e2, sub_smul, one_smul, mul_smul, natCast_zsmul, ← hg, addOrderOf_nsmul_eq_zero, smul_zero, sub_zero]
  have hk := f.ker.card_mul_index
  rw [AddSubgroup.index_ker, hrange, Nat.card_zmultiples, hg, o.card] at hk
  have hk2 := Nat.eq_of_mul_eq_mul_right o.prime.pos hk
  rw [← Nat.card_coe_set_eq]
  exact hk2

variable {C1 : Params L} {C2 : Params F} {D : Codec L} {r h : ℕ} {pairing : Aff L → Aff F → Option K}
  {multi : List (Aff L × Aff F) → Option K} {free : Proj L → Bool}

theorem wideClaim_of (h1 : Good C1) (h2 : Good C2) (hD : D.Lawful) [Finite (Pt C1)] [Fact (OddModulus r)] {G : Aff L}
    (o : OrderSpec C1 G h r)
    (hfree : FreeSpec C1 r free) (e : Pt C1 → Pt C2 → Kˣ)
    (hl : ∀ P P' Q, r • Q = 0 → e (P + P') Q = e P Q * e P' Q)
    (hr : ∀ P Q Q', r • Q = 0 → r • Q' = 0 → e P (Q + Q') = e P Q * e P Q')
    (hpow : ∀ P Q, r • Q = 0 → e P Q ^ r = 1)
    (hn : ∀ P Q, r • P = 0 → r • Q = 0 → (e P Q = 1 ↔ P = 0 ∨ Q = 0))
    (hm : ∀ ts PQ, List.Forall₂ (fun (t : Aff L × Aff F) (s : Pt C1 × Pt C2) => ARep C1 t.1 s.1 ∧ ARep C2 t.2 s.2 ∧
      r • s.2 = 0) ts PQ → multi ts = some ((PQ.map fun s => (e s.1 s.2 : K)).prod))
    (hp : ∀ p q, pairing p q = multi [(p, q)]) {H : Aff F} {Hp : Pt C2} (hH : ARep C2 H Hp) (hHr : r • Hp = 0)
    (hH0 : Hp ≠ 0) : WideClaim C1 C2 D r h H free pairing multi := by
  have key : ∀ {p q P Q}, ARep C1 p P → ARep C2 q Q → r • Q = 0 → pairing p q = some (e P Q : K) := by
    intro p q P Q a b d
    rw [hp, hm [(p, q)] [(P, Q)] (.cons ⟨a, b, d⟩ .nil)]
    simp only [List.map_cons, List.map_nil, List.prod_singleton]
  have on : ∀ {p}, Aff.isOnCurve C1 p = true → ∃ P, ARep C1 p P := fun {p} hp => (Aff.valid_iff h1 p).mpr hp
  have ks : ∀ {A : Type} [AddCommGroup A] {P : A} (n : ℕ), r • P = 0 → r • n • P = 0 := by
    intro A _ P n h
    rw [smul_comm, h, smul_zero]
  have ka : ∀ {A : Type} [AddCommGroup A] {P P' : A}, r • P = 0 → r • P' = 0 → r • (P + P') = 0 := by
    intro A _ P P' h h'
    rw [smul_add, h, h', add_zero]
  have z0 : ∀ Q, r • Q = 0 → e 0 Q = 1 := by
    intro Q hQ
    have := hl 0 0 Q hQ
    rw [add_zero] at this
    exact left_eq_mul.mp this
  have w0 : ∀ P, e P 0 = 1 := by
    intro P
    have := hr P 0 0 (smul_zero _) (smul_zero _)
    rw [add_zero] at this
    exact left_eq_mul.mp this
  have sl : ∀ (n : ℕ) P Q, r • Q = 0 → e (n • P) Q = e P Q ^ n := by
    intro n P Q hQ
    induction n with
    | zero => rw [zero_smul, pow_zero, z0 Q hQ]
    | succ n ih => rw [succ_nsmul, hl _ _ _ hQ, ih, pow_succ]
  have sr : ∀ (n : ℕ) P Q, r • Q = 0 → e P (n • Q) = e P Q ^ n := by
    intro n P Q hQ
    induction n with
    | zero => rw [zero_smul, pow_zero, w0]
    | succ n ih => rw [succ_nsmul, hr _ _ _ (ks n hQ) hQ, ih, pow_succ]
  have hcop : Nat.Coprime h r := Nat.Coprime.symm ((Nat.Prime.coprime_iff_not_dvd o.prime).mpr o.coprime)
  have hc : ∀ P : Pt C1, r • h • P = 0 := by
    intro P
    have := card_nsmul_eq_zero' (x := P)
    rw [o.card, mul_comm, mul_smul] at this
    exact this
  have one : ∀ P Q, r • Q = 0 → (e P Q = 1 ↔ h • P = 0 ∨ Q = 0) := by
    intro P Q hQ
    constructor
    · intro h3
      rw [← hn (h • P) Q (hc P) hQ, sl h P Q hQ, h3, one_pow]
    · rintro (h3 | rfl)
      · have h4 := sl h P Q hQ
        rw [h3, z0 Q hQ] at h4
        have h5 := Nat.dvd_gcd (orderOf_dvd_of_pow_eq_one h4.symm) (orderOf_dvd_of_pow_eq_one (hpow P Q hQ))
        rwa [hcop.gcd_eq_one, Nat.dvd_one, orderOf_eq_one_iff] at h5
      · exact w0 P
  have neg : ∀ P Q, r • Q = 0 → e (-P) Q = (e P Q)⁻¹ := by
    intro P Q hQ
    have := hl (-P) P Q hQ
    rw [neg_add_cancel, z0 Q hQ] at this
    exact eq_inv_of_mul_eq_one_left this.symm
  have sub : ∀ P P' Q, r • Q = 0 → Q ≠ 0 → (e P Q = e P' Q ↔ h • (P + -P') = 0) := by
    intro P P' Q hQ hQ0
    have := one (P + -P') Q hQ
    rw [hl _ _ _ hQ, neg _ _ hQ, mul_inv_eq_one] at this
    rw [this, or_iff_left hQ0]
  have sig : ∀ {s m S M} (k : Fp r), ARep C1 s S → ARep C1 m M →
      (pairing s H = pairing m (Aff.mul C2 H (Fp.toRepr k)).toAffine ↔ h • (S + -(Fp.toNat k • M)) = 0) := by
    intro s m S M k hs hm
    rw [key hs hH hHr, key hm (C23_mul h2 PRep.identity hH k).2.toAffine (ks _ hHr), Option.some.injEq, Units.val_inj,
      sr _ _ _ hHr, ← sl _ _ _ hHr, sub _ _ _ hHr hH0]
  have inG : ∀ {n : ℕ} {p P}, ARep C1 p P → (InGroup C1 n p ↔ n • P = 0) := by
    intro n p P a
    constructor
    · rintro ⟨P', a', b⟩
      rwa [ARep.unique h1 a a']
    · exact fun b => ⟨P, a, b⟩
  have sig' : ∀ {s m S M} (k : Fp r), ARep C1 s S → ARep C1 m M →
      (pairing s H = pairing m (Aff.mul C2 H (Fp.toRepr k)).toAffine ↔
        InGroup C1 h (Aff.add C1 s (Aff.mul C1 m (Fp.toRepr k)).toAffine.neg).toAffine) := by
    intro s m S M k hs hm
    rw [sig k hs hm, inG (hs.add h1 (C23_mul h1 PRep.identity hm k).2.toAffine.neg).toAffine]
  have cnt : ∀ (m : Aff L) (k : Fp r), Aff.isOnCurve C1 m = true →
      {s : Aff L | Aff.isOnCurve C1 s = true ∧ pairing s H = pairing m (Aff.mul C2 H (Fp.toRepr k)).toAffine}.ncard = h := by
    intro m k hm
    obtain ⟨M, hM⟩ := on hm
    rw [← o.kernel]
    have ex : ∀ P : Pt C1, ∃ p, ARep C1 p P := ARep.exists
    choose f hf using ex
    have e1 : {s : Aff L | Aff.isOnCurve C1 s = true ∧ pairing s H = pairing m (Aff.mul C2 H (Fp.toRepr k)).toAffine} =
        (fun P => f (P + Fp.toNat k • M)) '' {P : Pt C1 | h • P = 0} := by
      ext s
      constructor
      · rintro ⟨a, b⟩
        obtain ⟨S, hS⟩ := on a
        refine ⟨S + -(Fp.toNat k • M), (sig k hS hM).mp b, ?_⟩
        change f _ = s
        rw [neg_add_cancel_right]
        exact ((hf S).ext_iff h1 hS).mpr rfl
      · rintro ⟨P, a, rfl⟩
        refine ⟨(Aff.valid_iff h1 _).mp ⟨_, hf _⟩, (sig k (hf _) hM).mpr ?_⟩
        rw [add_neg_cancel_right]
        exact a
    rw [e1, Set.ncard_image_of_injective]
    intro P P' he
    exact add_right_cancel (((hf _).ext_iff h1 (hf _)).mp he)
  refine ⟨?_, ?_, ?_, ?_, ?_, ?_, cnt, ?_, ?_⟩
  · rintro p q hp ⟨Q, b, d⟩
    obtain ⟨P, a⟩ := on hp
    refine ⟨_, key a b d, ?_⟩
    rw [← Units.val_pow_eq_pow_val, hpow _ _ d, Units.val_one]
  · rintro p p' q z z' hp hp' ⟨Q, b, d⟩ hz hz'
    obtain ⟨P, a⟩ := on hp
    obtain ⟨P', a'⟩ := on hp'
    rw [key a b d] at hz
    rw [key a' b d] at hz'
    rw [key (a.add h1 a').toAffine b d, hl _ _ _ d, Units.val_mul, Option.some.inj hz, Option.some.inj hz']
  · rintro p q q' z z' hp ⟨Q, b, d⟩ ⟨Q', b', d'⟩ hz hz'
    obtain ⟨P, a⟩ := on hp
    rw [key a b d] at hz
    rw [key a b' d'] at hz'
    rw [key a (b.add h2 b').toAffine (ka d d'), hr _ _ _ d d', Units.val_mul, Option.some.inj hz, Option.some.inj hz']
  · intro ts zs h
    have : ∃ PQ : List (Pt C1 × Pt C2), List.Forall₂ (fun (t : Aff L × Aff F) (s : Pt C1 × Pt C2) =>
        ARep C1 t.1 s.1 ∧ ARep C2 t.2 s.2 ∧ r • s.2 = 0) ts PQ ∧
        (PQ.map fun s => (e s.1 s.2 : K)) = zs := by
      induction h with
      | nil => exact ⟨[], .nil, rfl⟩
      | cons h _ ih =>
        obtain ⟨hp, ⟨Q, b, d⟩, hz⟩ := h
        obtain ⟨P, a⟩ := on hp
        obtain ⟨PQ, h3, h4⟩ := ih
        rw [key a b d] at hz
        exact ⟨(P, Q) :: PQ, .cons ⟨a, b, d⟩ h3, by rw [List.map_cons, h4, Option.some.inj hz]⟩
    obtain ⟨PQ, h3, h4⟩ := this
    rw [hm ts PQ h3, h4]
  · rintro p q hp ⟨Q, b, d⟩
    obtain ⟨P, a⟩ := on hp
    rw [key a b d, inG a, b.isIdentity h2, ← one P Q d, Option.some.injEq, Units.val_eq_one]
  · intro s m k hs hm
    obtain ⟨S, hS⟩ := on hs
    obtain ⟨M, hM⟩ := on hm
    exact sig' k hS hM
  · intro m k hm d hd
    rw [← cnt m k hm]
    have hraw : ∀ A, IsBytes (D.affToRaw A) := fun A => (hD.raw_isBytes _).append (hD.raw_isBytes _)
    obtain ⟨f, hf, hfi⟩ : ∃ f : Aff L → List ℕ, (∀ b s, d.Accepts D C1 b s ↔ Aff.isOnCurve C1 s = true ∧ b = f s) ∧
        ∀ s s', Aff.isOnCurve C1 s = true → f s = f s' → s = s' := by
      cases d with
      | compressed => exact absurd rfl hd
      | uncompressed =>
        refine ⟨D.toUncompressed, fun b s => ⟨fun a => ((C28_uncompressed hD s).1 b a.1 a.2.1).2.mp a.2.2, ?_⟩, ?_⟩
        · rintro ⟨a, rfl⟩
          obtain ⟨-, c1, c2, c3⟩ := C28_uncompressed (C := C1) hD s
          exact ⟨c1, c2, c3 a⟩
        · intro s s' a hss
          obtain ⟨-, c1, c2, c3⟩ := C28_uncompressed (C := C1) hD s
          have u1 := (((C28_uncompressed (C := C1) hD s').1 _ c1 c2).1).mpr hss
          have u2 := (((C28_uncompressed (C := C1) hD s).1 _ c1 c2).1).mpr rfl
          rw [u2] at u1
          exact Option.some.inj (Outcome.ok.inj u1)
      | raw =>
        refine ⟨D.affToRaw, fun b s => ⟨fun a => (Codec.affFromRaw_iff hD b a.1 s).mp a.2, ?_⟩, ?_⟩
        · rintro ⟨a, rfl⟩
          exact ⟨hraw s, (Codec.affFromRaw_iff hD _ (hraw s) s).mpr ⟨a, rfl⟩⟩
        · intro s s' a hss
          have u1 := (Codec.affReadRaw_iff hD _ (hraw s) s' []).mpr (by rw [List.append_nil, hss])
          have u2 := (Codec.affReadRaw_iff hD _ (hraw s) s []).mpr (by rw [List.append_nil])
          rw [u2] at u1
          exact (Prod.mk.inj (Option.some.inj u1)).1
    have e1 : {b : List ℕ | ∃ s, d.Accepts D C1 b s ∧ pairing s H = pairing m (Aff.mul C2 H (Fp.toRepr k)).toAffine} =
        f '' {s : Aff L | Aff.isOnCurve C1 s = true ∧ pairing s H = pairing m (Aff.mul C2 H (Fp.toRepr k)).toAffine} := by
      ext b
      constructor
      · rintro ⟨s, a, c⟩
        obtain ⟨a1, rfl⟩ := (hf b s).mp a
        exact ⟨s, ⟨a1, c⟩, rfl⟩
      · rintro ⟨s, ⟨a1, c⟩, rfl⟩
        exact ⟨s, (hf _ s).mpr ⟨a1, rfl⟩, c⟩
    rw [e1]
    apply Set.InjOn.ncard_image
    rintro s ⟨a, -⟩ s' ⟨a', -⟩ hss
    exact hfi s s' a hss
  · rintro s m k hs ⟨M, hM, hMr⟩
    obtain ⟨S, hS⟩ := on hs
    have hkm := (C23_mul h1 PRep.identity hM k).2.toAffine
    rw [hfree _ _ (hS.toCurve h1), sig k hS hM, (Aff.eq_iff _ _).trans (hS.ext_iff h1 hkm)]
    constructor
    · rintro ⟨a, b⟩
      have hd : r • (S + -(Fp.toNat k • M)) = 0 := ka a (by rw [smul_neg, ks _ hMr, neg_zero])
      have h5 := Nat.dvd_gcd (addOrderOf_dvd_of_nsmul_eq_zero b) (addOrderOf_dvd_of_nsmul_eq_zero hd)
      rw [hcop.gcd_eq_one, Nat.dvd_one, AddMonoid.addOrderOf_eq_one_iff, ← sub_eq_add_neg, sub_eq_zero] at h5
      exact h5
    · rintro rfl
      refine ⟨ks _ hMr, ?_⟩
      rw [add_neg_cancel, smul_zero]

end Wide

/-- **C81** bls12381. -/
theorem C81_bls12381 : WideClaim Bls12381.g1 Bls12381.g2 Bls12381.g1Codec blsR 76329603384216526031706109802092473003 Bls12381.g2Gen
    (Bls12381.g1TorsionFree (Fp.zeta blsQ blsQZeta)) Bls12381.pairing (fun ts => Bls12381.finalExp (Bls12381.multiMillerLoop ts)) := by
  obtain ⟨-, -, -, -, -, -, -, -, -, o, -⟩ := C44_orders
  refine wideClaim_of Bls12381.g1_good Bls12381.g2_good Bls12381.g1Codec_lawful o C41_free.2.2.1 Bls12381.e
    (fun P P' _ hQ => Bls12381.e_add_wide P P' hQ) (fun P _ _ hQ hQ' => Bls12381.e_add_right hQ hQ') (fun P Q hQ => ?_)
    (fun _ _ => Bls12381.nondeg) (fun _ _ h => Bls12381.multi_wide h) (fun _ _ => rfl) Bls12381.g2Gen_rep Bls12381.g2Pt_r
    Bls12381.g2Pt_ne
  obtain ⟨p, hp⟩ := ARep.exists P
  obtain ⟨q, hq⟩ := ARep.exists Q
  have h1 := Bls12381.multi_wide (ts := [(p, q)]) (PQ := [(P, Q)]) (.cons ⟨hp, hq, hQ⟩ .nil)
  have h2 := C40_bls12381.2.2.1 _ _ h1
  rw [List.map_cons, List.map_nil, List.prod_singleton, ← Units.val_pow_eq_pow_val] at h2
  exact Units.val_eq_one.mp h2

/-- **C81** Hence the equation alone does not tell whether a decoded point is the signature: for every message point and key there is
a byte string, in uncompressed and in raw form, that decodes to another point and satisfies it. -/
theorem C81_malleable_false (m : Aff Bls12381.Fq) (k : Fp blsR) (hm : Aff.isOnCurve Bls12381.g1 m = true) (d : Decoder)
    (hd : d ≠ .compressed) :
    ∃ b s, d.Accepts Bls12381.g1Codec Bls12381.g1 b s ∧
      Bls12381.pairing s Bls12381.g2Gen = Bls12381.pairing m (Aff.mul Bls12381.g2 Bls12381.g2Gen (Fp.toRepr k)).toAffine ∧
      Aff.eq s (Aff.mul Bls12381.g1 m (Fp.toRepr k)).toAffine = false := by
  by_contra hcon
  have hcount := C81_bls12381.bytes m k hm d hd
  have hsub : {b : List ℕ | ∃ s, d.Accepts Bls12381.g1Codec Bls12381.g1 b s ∧ Bls12381.pairing s Bls12381.g2Gen =
      Bls12381.pairing m (Aff.mul Bls12381.g2 Bls12381.g2Gen (Fp.toRepr k)).toAffine}.Subsingleton := by
    rintro b ⟨s, a, c⟩ b' ⟨s', a', c'⟩
    have e : ∀ {b s}, d.Accepts Bls12381.g1Codec Bls12381.g1 b s → Bls12381.pairing s Bls12381.g2Gen =
        Bls12381.pairing m (Aff.mul Bls12381.g2 Bls12381.g2Gen (Fp.toRepr k)).toAffine →
        s = (Aff.mul Bls12381.g1 m (Fp.toRepr k)).toAffine := by
      intro b s a c
      by_contra hne
      exact hcon ⟨b, s, a, c, by rw [← Bool.not_eq_true, Aff.eq_iff]; exact hne⟩
    have es : s = s' := (e a c).trans (e a' c').symm
    rw [es] at a
    cases d with
    | compressed => exact absurd rfl hd
    | uncompressed =>
      exact ((Codec.fromUncompressed_iff Bls12381.g1Codec_lawful b a.1 a.2.1 s').2.mp a.2.2).2.trans
        ((Codec.fromUncompressed_iff Bls12381.g1Codec_lawful b' a'.1 a'.2.1 s').2.mp a'.2.2).2.symm
    | raw =>
      exact ((Codec.affFromRaw_iff Bls12381.g1Codec_lawful b a.1 s').mp a.2).2.trans
        ((Codec.affFromRaw_iff Bls12381.g1Codec_lawful b' a'.1 s').mp a'.2).2.symm
  rcases hsub.eq_empty_or_singleton with h0 | ⟨b, h0⟩
  · rw [h0, Set.ncard_empty] at hcount
    exact absurd hcount (by decide)
  · rw [h0, Set.ncard_singleton] at hcount
    exact absurd hcount (by decide)

/-- The generator and the key 5 meet the hypotheses. -/
example : ∃ b s, Decoder.Accepts .uncompressed Bls12381.g1Codec Bls12381.g1 b s ∧
    Bls12381.pairing s Bls12381.g2Gen =
      Bls12381.pairing Bls12381.g1Gen (Aff.mul Bls12381.g2 Bls12381.g2Gen (Fp.toRepr (5 : Fp blsR))).toAffine ∧
    Aff.eq s (Aff.mul Bls12381.g1 Bls12381.g1Gen (Fp.toRepr (5 : Fp blsR))).toAffine = false :=
  C81_malleable_false _ _ ((Aff.valid_iff Bls12381.g1_good _).mp ⟨_, Bls12381.g1Gen_rep⟩) _ (fun h => by cases h)

end Halo2.Props
