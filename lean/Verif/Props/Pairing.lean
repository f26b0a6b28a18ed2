import Verif.Pairing.Inst
import Verif.Field.FpBytes
import Mathlib.Algebra.BigOperators.Group.List.Basic

/-!
# C38 - C40: multi-Miller loop, target group, final exponentiation
-/

set_option linter.unusedSectionVars false

namespace Halo2.Props

open Halo2 Halo2.Ext Halo2.Field Halo2.Prime Halo2.Curve Halo2.Pairing

/-! ## C38: the multi-Miller loop -/

section Miller
variable {F K T : Type} [CommRing K] [ExtField K] [CommMonoid T] [CommRing F] [BaseField F] [BaseField K]

/-- What C38 says about a function on lists of pairs. -/
structure MillerClaim (f : List (Aff F × Aff K) → T) : Prop where
  /-- the empty list gives one -/
  nil : f [] = 1
  /-- a list gives the product of the values of its pairs -/
  prod : ∀ l, f l = (l.map fun t => f [t]).prod
  /-- the order does not matter -/
  perm : ∀ l m, l.Perm m → f l = f m
  /-- concatenation gives the product -/
  append : ∀ l m, f (l ++ m) = f l * f m
  /-- pairs with an identity contribute one -/
  ident : ∀ t : Aff F × Aff K, t.1.isIdentity = true ∨ t.2.isIdentity = true → f [t] = 1

theorem millerClaim_of (f : List (Aff F × Aff K) → T) (g : Aff F × Aff K → T)
    (h : ∀ l, f l = (l.map fun t => if isLive t then g t else 1).prod) : MillerClaim f where
  nil := by rw [h]; rfl
  prod l := by
    rw [h]
    congr 1
    apply List.map_congr_left
    intro t _
    rw [h, List.map_singleton, List.prod_singleton]
  perm l m hp := by
    rw [h, h]
    exact (hp.map _).prod_eq
  append l m := by rw [h, h, h, List.map_append, List.prod_append]
  ident t ht := by
    rw [h, List.map_singleton, List.prod_singleton, if_neg]
    rw [isLive, Bool.not_eq_true']
    rcases ht with ht | ht
    · rw [ht]; simp
    · rw [ht]; simp

end Miller

/-- **C38** bn256. -/
theorem C38_bn256 : MillerClaim Bn256.multiMillerLoop :=
  millerClaim_of _ _ fun l => by
    rw [Bn256.multiMillerLoop, nafMiller_eq Bn256.millerLaws, prod_live]

/-- **C38** pluto. -/
theorem C38_pluto : MillerClaim Pluto.multiMillerLoop :=
  millerClaim_of _ _ fun l => by
    rw [Pluto.multiMillerLoop, nafMiller_eq Pluto.millerLaws, prod_live]

/-- **C38** bls12381. -/
theorem C38_bls12381 : MillerClaim Bls12381.multiMillerLoop := by
  refine millerClaim_of _ (fun t => Quad.conjugate (bitOne Bls12381.lineAt Bls12381.blsX t)) fun l => ?_
  rw [Bls12381.multiMillerLoop, bitMiller_eq Bls12381.millerLaws, prod_live]
  have h1 : Quad.conjugate (1 : Bls12381.Fq12) = 1 := by rw [Bls12381.conj_12, one_pow]
  have hm : ∀ a b : Bls12381.Fq12, Quad.conjugate (a * b) = Quad.conjugate a * Quad.conjugate b := by
    intro a b
    rw [Bls12381.conj_12, Bls12381.conj_12, Bls12381.conj_12, mul_pow]
  induction l with
  | nil => exact h1
  | cons t ts ih =>
    rw [List.map_cons, List.prod_cons, hm, ih, List.map_cons, List.prod_cons]
    congr 1
    split
    · rfl
    · exact h1

/-- The generators of bn256 are not identities, so that their pair is not skipped. -/
example : isLive (Bn256.g1Gen, Bn256.g2Gen) = true := by decide +kernel

theorem prod_map_pow' {A T : Type} [CommMonoid T] (f : A → T) (n : ℕ) (l : List A) :
    (l.map f).prod ^ n = (l.map fun a => f a ^ n).prod := by
  induction l with
  | nil => exact one_pow n
  | cons a l ih => rw [List.map_cons, List.prod_cons, mul_pow, ih]; rfl

/-- **C38** for pairings: the product of the pairings of the pairs is the final exponentiation of the multi-Miller loop
whenever no panic occurs, that is when the loop's value is not zero. -/
theorem C38_product :
    (∀ l : List (Aff Bn256.Fq × Aff Bn256.Fq2), Bn256.multiMillerLoop l ≠ 0 →
      ∃ vs, List.Forall₂ (fun t v => Bn256.pairing t.1 t.2 = some v) l vs ∧ Bn256.finalExp (Bn256.multiMillerLoop l) = some vs.prod) ∧
    (∀ l : List (Aff Bls12381.Fq × Aff Bls12381.Fq2), Bls12381.multiMillerLoop l ≠ 0 →
      ∃ vs, List.Forall₂ (fun t v => Bls12381.pairing t.1 t.2 = some v) l vs ∧ Bls12381.finalExp (Bls12381.multiMillerLoop l) = some vs.prod) ∧
    (∀ l : List (Aff Pluto.Fp1 × Aff Pluto.Fp2), Pluto.multiMillerLoop l ≠ 0 →
      ∃ vs, List.Forall₂ (fun t v => Pluto.pairing t.1 t.2 = some v) l vs ∧ Pluto.finalExp (Pluto.multiMillerLoop l) = some vs.prod) := by
  refine ⟨?_, ?_, ?_⟩
  · intro l hl
    have hne : ∀ t ∈ l, Bn256.multiMillerLoop [t] ≠ 0 := by
      intro t ht h0
      apply hl
      rw [C38_bn256.prod]
      exact List.prod_eq_zero (List.mem_map.mpr ⟨t, ht, h0⟩)
    refine ⟨l.map fun t => (Bn256.multiMillerLoop [t]) ^ ((bnQ ^ 12 - 1) / bnR), ?_, (Bn256.finalExp_eq _ hl).trans (congrArg some ?_)⟩
    · rw [List.forall₂_map_right_iff, List.forall₂_same]
      exact fun t ht => Bn256.finalExp_eq _ (hne t ht)
    · rw [C38_bn256.prod, prod_map_pow']
  · intro l hl
    have hne : ∀ t ∈ l, Bls12381.multiMillerLoop [t] ≠ 0 := by
      intro t ht h0
      apply hl
      rw [C38_bls12381.prod]
      exact List.prod_eq_zero (List.mem_map.mpr ⟨t, ht, h0⟩)
    refine ⟨l.map fun t => (Bls12381.multiMillerLoop [t]) ^ (3 * ((blsQ ^ 12 - 1) / blsR)), ?_, (Bls12381.finalExp_eq _ hl).trans (congrArg some ?_)⟩
    · rw [List.forall₂_map_right_iff, List.forall₂_same]
      exact fun t ht => Bls12381.finalExp_eq _ (hne t ht)
    · rw [C38_bls12381.prod, prod_map_pow']
  · intro l hl
    have hne : ∀ t ∈ l, Pluto.multiMillerLoop [t] ≠ 0 := by
      intro t ht h0
      apply hl
      rw [C38_pluto.prod]
      exact List.prod_eq_zero (List.mem_map.mpr ⟨t, ht, h0⟩)
    refine ⟨l.map fun t => (Pluto.multiMillerLoop [t]) ^ ((plP ^ 12 - 1) / plQ), ?_, (Pluto.finalExp_eq _ hl).trans (congrArg some ?_)⟩
    · rw [List.forall₂_map_right_iff, List.forall₂_same]
      exact fun t ht => Pluto.finalExp_eq _ (hne t ht)
    · rw [C38_pluto.prod, prod_map_pow']

/-! ## C40: the final exponentiation -/

/-- **C40** bn256: `final_exponentiation` panics exactly on zero; elsewhere it raises to the power `(p^12-1)/r`, and the
result has order dividing `r`. The exponent's cofactor is prime to `r`. -/
theorem C40_bn256 :
    (Bn256.finalExp 0 = none) ∧
    (∀ f : Bn256.Fq12, f ≠ 0 → Bn256.finalExp f = some (f ^ ((bnQ ^ 12 - 1) / bnR))) ∧
    (∀ f g : Bn256.Fq12, Bn256.finalExp f = some g → g ^ bnR = 1) ∧
    (bnR ∣ bnQ ^ 12 - 1 ∧ Nat.Coprime 1 bnR) := by
  refine ⟨Bn256.finalExp_zero, Bn256.finalExp_eq, ?_, ?_, ?_⟩
  · intro f g h
    rcases eq_or_ne f 0 with rfl | hf
    · rw [Bn256.finalExp_zero] at h; cases h
    · rw [Bn256.finalExp_eq f hf] at h
      rw [← Option.some.inj h, ← pow_mul]
      have e : (bnQ ^ 12 - 1) / bnR * bnR = (bnQ ^ 12 - 1) * 1 := by decide +kernel
      rw [e, pow_mul, Bn256.finalLaws.card f hf, one_pow]
  · exact Nat.dvd_of_mod_eq_zero (by decide +kernel)
  · exact Nat.Coprime.symm ((Nat.coprime_iff_gcd_eq_one).mpr (by decide +kernel))

/-- **C40** bls12381: `final_exponentiation` panics exactly on zero; elsewhere it raises to the power `3 (p^12-1)/r`, and the
result has order dividing `r`. The exponent's cofactor is prime to `r`. -/
theorem C40_bls12381 :
    (Bls12381.finalExp 0 = none) ∧
    (∀ f : Bls12381.Fq12, f ≠ 0 → Bls12381.finalExp f = some (f ^ (3 * ((blsQ ^ 12 - 1) / blsR)))) ∧
    (∀ f g : Bls12381.Fq12, Bls12381.finalExp f = some g → g ^ blsR = 1) ∧
    (blsR ∣ blsQ ^ 12 - 1 ∧ Nat.Coprime 3 blsR) := by
  refine ⟨Bls12381.finalExp_zero, Bls12381.finalExp_eq, ?_, ?_, ?_⟩
  · intro f g h
    rcases eq_or_ne f 0 with rfl | hf
    · rw [Bls12381.finalExp_zero] at h; cases h
    · rw [Bls12381.finalExp_eq f hf] at h
      rw [← Option.some.inj h, ← pow_mul]
      have e : 3 * ((blsQ ^ 12 - 1) / blsR) * blsR = (blsQ ^ 12 - 1) * 3 := by decide +kernel
      rw [e, pow_mul, Bls12381.finalLaws.card f hf, one_pow]
  · exact Nat.dvd_of_mod_eq_zero (by decide +kernel)
  · exact Nat.Coprime.symm ((Nat.coprime_iff_gcd_eq_one).mpr (by decide +kernel))

/-- **C40** pluto: `final_exponentiation` panics exactly on zero; elsewhere it raises to the power `(p^12-1)/r`, and the
result has order dividing `r`. The exponent's cofactor is prime to `r`. -/
theorem C40_pluto :
    (Pluto.finalExp 0 = none) ∧
    (∀ f : Pluto.Fp12, f ≠ 0 → Pluto.finalExp f = some (f ^ ((plP ^ 12 - 1) / plQ))) ∧
    (∀ f g : Pluto.Fp12, Pluto.finalExp f = some g → g ^ plQ = 1) ∧
    (plQ ∣ plP ^ 12 - 1 ∧ Nat.Coprime 1 plQ) := by
  refine ⟨Pluto.finalExp_zero, Pluto.finalExp_eq, ?_, ?_, ?_⟩
  · intro f g h
    rcases eq_or_ne f 0 with rfl | hf
    · rw [Pluto.finalExp_zero] at h; cases h
    · rw [Pluto.finalExp_eq f hf] at h
      rw [← Option.some.inj h, ← pow_mul]
      have e : (plP ^ 12 - 1) / plQ * plQ = (plP ^ 12 - 1) * 1 := by decide +kernel
      rw [e, pow_mul, Pluto.finalLaws.card f hf, one_pow]
  · exact Nat.dvd_of_mod_eq_zero (by decide +kernel)
  · exact Nat.Coprime.symm ((Nat.coprime_iff_gcd_eq_one).mpr (by decide +kernel))

/-- A non-zero element of each field. -/
example : (1 : Bn256.Fq12) ≠ 0 ∧ (1 : Bls12381.Fq12) ≠ 0 ∧ (1 : Pluto.Fp12) ≠ 0 :=
  ⟨one_ne_zero, one_ne_zero, one_ne_zero⟩

/-! ## C39: the target group -/

section Gt
variable {T : Type} [_root_.Field T]

/-- What C39 says of the operations of `Gt`, on the elements of order dividing `r`, for scalars in the field of `r` elements. -/
structure GtClaim (square conj : T → T) (p r : ℕ) [Fact (OddModulus r)] : Prop where
  one_mem : (gtIdentity : T) ^ r = 1
  add_mem : ∀ a b : T, a ^ r = 1 → b ^ r = 1 → gtAdd a b ^ r = 1
  neg_mem : ∀ a : T, a ^ r = 1 → gtNeg conj a ^ r = 1
  add_assoc : ∀ a b c : T, gtAdd (gtAdd a b) c = gtAdd a (gtAdd b c)
  add_comm : ∀ a b : T, gtAdd a b = gtAdd b a
  identity_add : ∀ a : T, gtAdd gtIdentity a = a
  neg_add : ∀ a : T, a ^ r = 1 → gtAdd (gtNeg conj a) a = gtIdentity
  /-- negation also inverts in the whole cyclotomic subgroup -/
  neg_add_cyclotomic : ∀ a : T, a ^ (p ^ 4 - p ^ 2 + 1) = 1 → gtAdd (gtNeg conj a) a = gtIdentity
  neg_eq : ∀ a : T, a ^ r = 1 → gtNeg conj a = a⁻¹
  sub_eq : ∀ a b : T, b ^ r = 1 → gtSub conj a b = a / b
  double_eq : ∀ a : T, gtDouble square a = a ^ 2
  sum_eq : ∀ l : List T, gtSum l = l.prod
  mul_eq : ∀ (a : T) (k : Fp r), gtMul square a k.toRepr = a ^ k.toNat
  /-- multiplication by scalars is linear in the scalar, modulo `r` -/
  mul_add : ∀ (a : T) (j k : Fp r), a ^ r = 1 →
    gtMul square a (j + k).toRepr = gtAdd (gtMul square a j.toRepr) (gtMul square a k.toRepr)
  mul_mul : ∀ (a : T) (j k : Fp r), a ^ r = 1 →
    gtMul square a (j * k).toRepr = gtMul square (gtMul square a j.toRepr) k.toRepr

theorem pow_natMod {a : T} {r : ℕ} (h : a ^ r = 1) (n : ℕ) : a ^ (n % r) = a ^ n := by
  conv_rhs => rw [← Nat.div_add_mod n r, pow_add, pow_mul, h, one_pow, one_mul]

theorem Fp.toNat_add' {p : ℕ} [Fact (OddModulus p)] (a b : Fp p) : (a + b).toNat = (a.toNat + b.toNat) % p := by
  conv_lhs => rw [← Fp.natCast_toNat a, ← Fp.natCast_toNat b, ← Nat.cast_add, Fp.toNat_natCast]

theorem Fp.toNat_mul' {p : ℕ} [Fact (OddModulus p)] (a b : Fp p) : (a * b).toNat = (a.toNat * b.toNat) % p := by
  conv_lhs => rw [← Fp.natCast_toNat a, ← Fp.natCast_toNat b, ← Nat.cast_mul, Fp.toNat_natCast]

theorem gtClaim_of {ops : FinalOps T} {p r : ℕ} [hr : Fact (OddModulus r)] (L : FinalLaws ops p) (square : T → T)
    (hs : ∀ x, square x = x * x) (hdvd : (p ^ 6 + 1) % r = 0) (hphi : (p ^ 6 + 1) % (p ^ 4 - p ^ 2 + 1) = 0) (hbits : r < 2 ^ (64 * numLimbs r - 1)) :
    GtClaim square ops.conj p r := by
  have hinv : ∀ a : T, a ^ r = 1 → ops.conj a * a = 1 := by
    intro a ha
    obtain ⟨m, hm⟩ := Nat.dvd_of_mod_eq_zero hdvd
    rw [L.conj_eq, ← pow_succ, hm, pow_mul, ha, one_pow]
  have hmul : ∀ (a : T) (k : Fp r), gtMul square a k.toRepr = a ^ k.toNat := by
    intro a k
    obtain ⟨h1, h2, h3⟩ := Fp.toBytes_spec .LE k
    have e : k.toRepr = k.toBytes .LE := rfl
    rw [e, gtMul_pow square hs a _ h2]
    · congr 1
    · change Endian.LE.nat _ < _
      rw [h1, h3]
      refine lt_of_lt_of_le (Fp.toNat_lt k) (le_of_lt ?_)
      rw [← Nat.mul_assoc]
      exact hbits
  refine ⟨one_pow _, ?_, ?_, fun a b c => mul_assoc a b c, fun a b => mul_comm a b, fun a => one_mul a, hinv, ?_, ?_, ?_, ?_, ?_,
    hmul, ?_, ?_⟩
  · intro a b ha hb
    rw [gtAdd, mul_pow, ha, hb, one_mul]
  · intro a ha
    rw [gtNeg, L.conj_eq, ← pow_mul, mul_comm, pow_mul, ha, one_pow]
  · intro a ha
    obtain ⟨m, hm⟩ := Nat.dvd_of_mod_eq_zero hphi
    change ops.conj a * a = 1
    rw [L.conj_eq, ← pow_succ, hm, pow_mul, ha, one_pow]
  · intro a ha
    exact eq_inv_of_mul_eq_one_left (hinv a ha)
  · intro a b hb
    rw [gtSub, gtAdd, gtNeg, eq_inv_of_mul_eq_one_left (hinv b hb), div_eq_mul_inv]
  · intro a
    rw [gtDouble, hs, pow_two]
  · intro l
    rw [gtSum, List.prod_eq_foldl]
    rfl
  · intro a j k ha
    rw [hmul, hmul, hmul, gtAdd, ← pow_add, Fp.toNat_add', pow_natMod ha]
  · intro a j k ha
    rw [hmul, hmul, hmul, ← pow_mul, Fp.toNat_mul', pow_natMod ha]

end Gt

/-- **C39** The target groups of the three engines. -/
theorem C39_gt :
    GtClaim (T := Bn256.Fq12) ExtField.sqr Quad.conjugate bnQ bnR ∧
    GtClaim (T := Bls12381.Fq12) ExtField.sqr Quad.conjugate blsQ blsR ∧
    GtClaim (T := Pluto.Fp12) ExtField.sqr Quad.conjugate plP plQ :=
  ⟨gtClaim_of Bn256.finalLaws _ LawfulExt.sqr_eq (by decide +kernel) (by decide +kernel) (by decide +kernel),
    gtClaim_of Bls12381.finalLaws _ LawfulExt.sqr_eq (by decide +kernel) (by decide +kernel) (by decide +kernel),
    gtClaim_of Pluto.finalLaws _ LawfulExt.sqr_eq (by decide +kernel) (by decide +kernel) (by decide +kernel)⟩

/-- The outputs of the final exponentiations are such elements. -/
example (f g : Bn256.Fq12) (h : Bn256.finalExp f = some g) : g ^ bnR = 1 := C40_bn256.2.2.1 f g h

/-- `Default` for `Gt` is derived, hence the zero of the field (src/derive/pairing.rs:128). -/
def gtDefault {T : Type} [Zero T] : T := 0

/-- **C39** `Gt::default()` is no element of the group: it is not the identity, it absorbs every element and its negation is
not an inverse. -/
theorem C39_default_false : ∀ (T : Type) [_root_.Field T] (conj : T → T),
    (gtDefault : T) ≠ gtIdentity ∧ (∀ a : T, gtAdd gtDefault a = gtDefault) ∧
    gtAdd (gtNeg conj gtDefault) gtDefault ≠ (gtIdentity : T) :=
  fun T _ conj => ⟨zero_ne_one, fun a => zero_mul a, by
    change conj 0 * 0 ≠ 1
    rw [mul_zero]
    exact zero_ne_one⟩

end Halo2.Props
