import Verif.Props.Shares
import Verif.Props.Ecdsa
import Verif.Props.Serde

/-!
# Property C102: Schnorr signatures with the library

Signing, verification and the verification of many signatures at once, as clients of the library: multiplication of the generator,
arithmetic of scalars, `from_uniform_bytes` for the challenge, the encodings of points and scalars, multi-scalar multiplication and the
comparison of points. No such program is in the repository; the functions below stand for the client.
-/

set_option linter.unusedSectionVars false

namespace Halo2.Props

open Halo2 Halo2.Field Halo2.Prime Halo2.Curve Halo2.Msm

section Client

variable {q n : ℕ} [Fact q.Prime] [Fact (OddModulus q)] [Fp.SmallModulus q] [Fact n.Prime] [Fact (OddModulus n)] [Fp.SmallModulus n]
variable (K : Codec (Fp q)) (C : Params (Fp q)) (G : Aff (Fp q))

/-- The challenge: the hash `H`, an external function, read by `from_uniform_bytes`. -/
def schnorrChallenge (H : List ℕ → List ℕ) (rb pkb msg : List ℕ) : Fp n := Fp.fromUniform (H (rb ++ pkb ++ msg))

/-- The public key of `sk`: the encoding of `G * sk`. -/
def schnorrKey (sk : Fp n) : Outcome (List ℕ) := K.encodeProj C (Aff.mul C G (Fp.toRepr sk))

/-- Signing with the nonce `k`: the encodings of `G * k` and of `k + e * sk`. -/
def schnorrSign (H : List ℕ → List ℕ) (sk k : Fp n) (msg : List ℕ) : Outcome (List ℕ) :=
  match schnorrKey K C G sk, K.encodeProj C (Aff.mul C G (Fp.toRepr k)) with
  | .ok pkb, .ok rb => .ok (rb ++ Fp.toRepr (k + schnorrChallenge H rb pkb msg * sk))
  | _, _ => .panic

/-- The equation of a signature: `G * s == R + pk * e`. -/
def schnorrHolds (pk R : Aff (Fp q)) (e s : Fp n) : Bool :=
  Proj.ctEq (Aff.mul C G (Fp.toRepr s)) (Proj.add C (Aff.toCurve R) (Aff.mul C pk (Fp.toRepr e)))

/-- Verification of the string `sig` for the key `pkb` and the message `msg`. -/
def schnorrVerify (H : List ℕ → List ℕ) (pkb msg sig : List ℕ) : Outcome Bool :=
  let rb := sig.take K.compressedSize
  match K.decode C pkb, K.decode C rb with
  | .ok (some pk), .ok (some R) =>
    match (Fp.fromRepr (sig.drop K.compressedSize) : Option (Fp n)) with
    | some s => .ok (schnorrHolds C G pk R (schnorrChallenge H rb pkb msg) s)
    | none => .ok false
  | .ok _, .ok _ => .ok false
  | _, _ => .panic

/-- A signature that has been read: key, `R`, challenge and `s`. -/
structure SchnorrItem (q n : ℕ) where
  pk : Aff (Fp q)
  R : Aff (Fp q)
  e : Fp n
  s : Fp n

/-- Verification of many signatures with the weights `zs`: one multi-scalar multiplication. -/
noncomputable def schnorrBatch (msm : List (List ℕ) → List (Aff (Fp q)) → Option (Proj (Fp q))) (items : List (SchnorrItem q n)) (zs : List (Fp n)) :
    Option Bool := do
  let ks := -(inner zs (items.map (·.s))) :: (zs ++ List.zipWith (· * ·) zs (items.map (·.e)))
  let D ← msm (ks.map Fp.toRepr) (G :: (items.map (·.R) ++ items.map (·.pk)))
  some D.isIdentity

end Client

section Spec

variable {q n : ℕ} [Fact q.Prime] [Fact (OddModulus q)] [Fp.SmallModulus q] [Fact n.Prime] [Fact (OddModulus n)] [Fp.SmallModulus n]
variable {K : Codec (Fp q)} {C : Params (Fp q)} {G : Aff (Fp q)}

/-- `from_repr` of strings of the right length. -/
theorem fromRepr_some_iff (b : List ℕ) (hl : b.length = 8 * numLimbs n) (hb : IsBytes b) (s : Fp n) :
    Fp.fromRepr b = some s ↔ b = Fp.toRepr s := by
  have hodd : OddModulus n := Fact.out
  constructor
  · intro h
    obtain ⟨a, ha, rfl⟩ := Option.map_eq_some_iff.mp h
    obtain ⟨h1, h2⟩ := C04_unique n hodd .LE b a hl hb ha
    rw [Fp.toRepr, show (Fp.ofMont a : Fp n).limbs = a by rw [Fp.ofMont, dif_pos h1]]
    exact h2.symm
  · rintro rfl
    have h := C04_roundtrip n hodd .LE s.limbs s.elem
    change (Field.fromBytes n .LE (Field.toBytes n .LE s.limbs)).map Fp.ofMont = some s
    rw [h, Option.map_some, Fp.ofMont_limbs]

theorem toRepr_ok (s : Fp n) : (Fp.toRepr s).length = 8 * numLimbs n ∧ IsBytes (Fp.toRepr s) := by
  have hodd : OddModulus n := Fact.out
  have : NeZero n := ⟨by have := hodd.gt; omega⟩
  obtain ⟨x, hx⟩ := Rep.exists_of_elem hodd s.elem
  obtain ⟨h1, h2, _⟩ := C04_encode n hodd .LE _ x hx
  exact ⟨h1, h2⟩

theorem toRepr_inj {s t : Fp n} (h : Fp.toRepr s = Fp.toRepr t) : s = t := by
  obtain ⟨h1, h2⟩ := toRepr_ok s
  have e1 := (fromRepr_some_iff _ h1 h2 s).mpr rfl
  have e2 := (fromRepr_some_iff _ h1 h2 t).mpr h
  exact Option.some.inj (e1.symm.trans e2)

/-- Multiples of a point of order `n`. -/
theorem smul_toNat_inj {g : Pt C} (hg : addOrderOf g = n) {a b : Fp n} (h : Fp.toNat a • g = Fp.toNat b • g) : a = b := by
  refine Fp.toNat_inj (nsmul_injOn_Iio_addOrderOf (x := g) ?_ ?_ h)
  · rw [hg]; exact Fp.toNat_lt a
  · rw [hg]; exact Fp.toNat_lt b

/-- What the claims below need of a curve of prime order. -/
structure SchnorrCurve (K : Codec (Fp q)) (C : Params (Fp q)) (G : Aff (Fp q)) (n : ℕ) : Prop where
  good : Good C
  order : OrderSpec C G 1 n
  rt : RoundTrip K C
  sound : DecodeSound K C

variable (S : SchnorrCurve K C G n)
include S

namespace SchnorrCurve

theorem exists_gen : ∃ g : Pt C, ARep C G g ∧ addOrderOf g = n ∧ n • g = 0 ∧ ∀ p : Pt C, ∃ k : Fp n, p = Fp.toNat k • g := by
  obtain ⟨g, hG, ho, hall⟩ := S.order.gen
  refine ⟨g, hG, ho, by rw [← ho]; exact addOrderOf_nsmul_eq_zero g, fun p => ?_⟩
  have hc : Nat.card (Pt C) = n := by rw [S.order.card, one_mul]
  obtain ⟨k, hk, rfl⟩ := (hall p).mp (by rw [← hc]; exact card_nsmul_eq_zero')
  exact ⟨(k : Fp n), by rw [Fp.toNat_natCast, Nat.mod_eq_of_lt hk]⟩

/-- The encoding of a multiple of the generator. -/
theorem encode_mul {g : Pt C} (hG : ARep C G g) (k : Fp n) :
    ∃ b A, K.encodeProj C (Aff.mul C G (Fp.toRepr k)) = .ok b ∧ b.length = K.compressedSize ∧ IsBytes b ∧
      K.decode C b = .ok (some A) ∧ ARep C A (Fp.toNat k • g) := by
  have hA := (C23_mul S.good PRep.identity hG k).2.toAffine
  obtain ⟨b, h1, h2, h3, h4⟩ := S.rt.1 _ ((Aff.valid_iff S.good _).mp ⟨_, hA⟩)
  exact ⟨b, _, h1, h2, h3, h4, hA⟩

/-- A string that decodes is the encoding of a multiple of the generator. -/
theorem decode_mul {g : Pt C} (hG : ARep C G g) (hall : ∀ p : Pt C, ∃ k : Fp n, p = Fp.toNat k • g) {b : List ℕ}
    (hl : b.length = K.compressedSize) (hb : IsBytes b) {A : Aff (Fp q)} (h : K.decode C b = .ok (some A)) :
    ∃ k : Fp n, ARep C A (Fp.toNat k • g) ∧ K.encodeProj C (Aff.mul C G (Fp.toRepr k)) = .ok b := by
  rcases S.sound b hl hb with h' | ⟨P, h', hP, he⟩
  · rw [h] at h'; cases h'
  · rw [h'] at h
    cases h
    obtain ⟨p, hp⟩ := (Aff.valid_iff S.good _).mpr hP
    obtain ⟨k, rfl⟩ := hall p
    refine ⟨k, hp, ?_⟩
    rw [Codec.encodeProj, ((C23_mul S.good PRep.identity hG k).2.toAffine.ext_iff S.good hp).mpr rfl, he]

theorem decode_ok {b : List ℕ} (hl : b.length = K.compressedSize) (hb : IsBytes b) : ∃ r, K.decode C b = .ok r := by
  rcases S.sound b hl hb with h | ⟨P, h, _⟩
  · exact ⟨_, h⟩
  · exact ⟨_, h⟩

theorem holds_iff {g : Pt C} (hG : ARep C G g) (ho : addOrderOf g = n) (hn : n • g = 0) {pk R : Aff (Fp q)} {a k : Fp n}
    (hpk : ARep C pk (Fp.toNat a • g)) (hR : ARep C R (Fp.toNat k • g)) (e s : Fp n) :
    schnorrHolds C G pk R e s = true ↔ s = k + e * a := by
  rw [schnorrHolds, PRep.ctEq (C23_mul S.good PRep.identity hG s).2
    ((hR.toCurve S.good).add S.good (C23_mul S.good PRep.identity hpk e).2), lin_toNat hn]
  exact ⟨smul_toNat_inj ho, fun h => by rw [h]⟩

end SchnorrCurve

/-- **C102** The keys: every secret has a key, which is read back as a point; every string that is read as a point is the key of exactly
one secret. -/
theorem C102_key :
    (∀ sk : Fp n, ∃ pkb A, schnorrKey K C G sk = .ok pkb ∧ pkb.length = K.compressedSize ∧ IsBytes pkb ∧ K.decode C pkb = .ok (some A)) ∧
    ∀ b A, b.length = K.compressedSize → IsBytes b → K.decode C b = .ok (some A) → ∃! sk : Fp n, schnorrKey K C G sk = .ok b := by
  obtain ⟨g, hG, ho, hn, hall⟩ := S.exists_gen
  refine ⟨fun sk => ?_, fun b A hl hb h => ?_⟩
  · obtain ⟨b, A, h1, h2, h3, h4, _⟩ := S.encode_mul hG sk
    exact ⟨b, A, h1, h2, h3, h4⟩
  · obtain ⟨k, hk, he⟩ := S.decode_mul hG hall hl hb h
    refine ⟨k, he, fun k' he' => ?_⟩
    obtain ⟨b', A', h1, _, _, h4, h5⟩ := S.encode_mul hG k'
    have he' : K.encodeProj C (Aff.mul C G (Fp.toRepr k')) = .ok b := he'
    rw [h1] at he'
    cases he'
    rw [h] at h4
    cases h4
    exact smul_toNat_inj ho ((h5.ext_iff S.good hk).mp rfl)

/-- **C102** Signing and verification never panic, and verification of the key of `sk` accepts exactly the strings that signing with `sk`
gives for some nonce. -/
theorem C102_exact (H : List ℕ → List ℕ) (msg : List ℕ) :
    (∀ pkb sig : List ℕ, pkb.length = K.compressedSize → IsBytes pkb → sig.length = K.compressedSize + 8 * numLimbs n → IsBytes sig →
      ∃ d, schnorrVerify (n := n) K C G H pkb msg sig = .ok d) ∧
    ∀ (sk : Fp n) (pkb : List ℕ), schnorrKey K C G sk = .ok pkb →
      (∀ k, ∃ sig, schnorrSign K C G H sk k msg = .ok sig ∧ sig.length = K.compressedSize + 8 * numLimbs n ∧ IsBytes sig) ∧
      ∀ sig : List ℕ, sig.length = K.compressedSize + 8 * numLimbs n → IsBytes sig →
        (schnorrVerify (n := n) K C G H pkb msg sig = .ok true ↔ ∃ k, schnorrSign K C G H sk k msg = .ok sig) := by
  obtain ⟨g, hG, ho, hn, hall⟩ := S.exists_gen
  have split : ∀ sig : List ℕ, sig.length = K.compressedSize + 8 * numLimbs n → IsBytes sig →
      (sig.take K.compressedSize).length = K.compressedSize ∧ IsBytes (sig.take K.compressedSize) ∧
      (sig.drop K.compressedSize).length = 8 * numLimbs n ∧ IsBytes (sig.drop K.compressedSize) := fun sig hl hb =>
    ⟨by rw [List.length_take]; omega, fun x hx => hb x (List.mem_of_mem_take hx), by rw [List.length_drop]; omega,
      fun x hx => hb x (List.mem_of_mem_drop hx)⟩
  refine ⟨fun pkb sig hl hb hl' hb' => ?_, fun sk pkb hk => ?_⟩
  · obtain ⟨t1, t2, t3, t4⟩ := split sig hl' hb'
    obtain ⟨r1, e1⟩ := S.decode_ok hl hb
    obtain ⟨r2, e2⟩ := S.decode_ok t1 t2
    rw [schnorrVerify]
    rw [e1, e2]
    rcases r1 with _ | pk
    · exact ⟨_, rfl⟩
    · rcases r2 with _ | R
      · exact ⟨_, rfl⟩
      · dsimp only
        split <;> exact ⟨_, rfl⟩
  · obtain ⟨pkb', pk, p1, p2, p3, p4, p5⟩ := S.encode_mul hG sk
    have hk' := hk
    rw [schnorrKey, p1] at hk'
    cases hk'
    refine ⟨fun k => ?_, fun sig hl hb => ?_⟩
    · obtain ⟨rb, R, r1, r2, r3, _, _⟩ := S.encode_mul hG k
      obtain ⟨s1, s2⟩ := toRepr_ok (k + schnorrChallenge H rb pkb msg * sk)
      refine ⟨rb ++ Fp.toRepr (k + schnorrChallenge H rb pkb msg * sk), ?_, by rw [List.length_append, r2, s1], fun x hx => ?_⟩
      · rw [schnorrSign, hk, r1]
      · rcases List.mem_append.mp hx with hx | hx
        · exact r3 x hx
        · exact s2 x hx
    · obtain ⟨t1, t2, t3, t4⟩ := split sig hl hb
      rw [schnorrVerify]
      rw [p4]
      constructor
      · intro h
        obtain ⟨r, e⟩ := S.decode_ok t1 t2
        rw [e] at h
        rcases r with _ | R
        · cases h
        · dsimp only at h
          cases hs : (Fp.fromRepr (sig.drop K.compressedSize) : Option (Fp n)) with
          | none => rw [hs] at h; cases h
          | some s =>
            rw [hs] at h
            obtain ⟨k, hR, he⟩ := S.decode_mul hG hall t1 t2 e
            have h1 := (S.holds_iff hG ho hn p5 hR _ _).mp (Outcome.ok.inj h)
            refine ⟨k, ?_⟩
            rw [schnorrSign, hk, he]
            dsimp only
            rw [← h1, ← (fromRepr_some_iff _ t3 t4 s).mp hs, List.take_append_drop]
      · rintro ⟨k, h⟩
        obtain ⟨rb, R, r1, r2, r3, r4, r5⟩ := S.encode_mul hG k
        rw [schnorrSign, hk, r1] at h
        have h := Outcome.ok.inj h
        have e1 : sig.take K.compressedSize = rb := by rw [← h, ← r2, List.take_left']; rfl
        have e2 : sig.drop K.compressedSize = Fp.toRepr (k + schnorrChallenge H rb pkb msg * sk) := by rw [← h, ← r2, List.drop_left']; rfl
        rw [e1, r4]
        dsimp only
        rw [(fromRepr_some_iff _ t3 t4 _).mpr e2]
        dsimp only
        rw [(S.holds_iff hG ho hn p5 r5 _ _).mpr rfl]

/-- **C102** Nobody can change an accepted signature: two accepted strings for the same key and message with the same first part are equal. -/
theorem C102_unique (H : List ℕ → List ℕ) (pkb msg sig sig' : List ℕ) (hp : pkb.length = K.compressedSize) (hpb : IsBytes pkb)
    (hl : sig.length = K.compressedSize + 8 * numLimbs n) (hb : IsBytes sig)
    (hl' : sig'.length = K.compressedSize + 8 * numLimbs n) (hb' : IsBytes sig')
    (h : schnorrVerify (n := n) K C G H pkb msg sig = .ok true) (h' : schnorrVerify (n := n) K C G H pkb msg sig' = .ok true)
    (hs : sig.take K.compressedSize = sig'.take K.compressedSize) : sig = sig' := by
  obtain ⟨g, hG, ho, hn, hall⟩ := S.exists_gen
  obtain ⟨A, hA⟩ : ∃ A, K.decode C pkb = .ok (some A) := by
    obtain ⟨r, e⟩ := S.decode_ok hp hpb
    rcases r with _ | A
    · rw [schnorrVerify] at h
      obtain ⟨r, e'⟩ := S.decode_ok (b := sig.take K.compressedSize) (by rw [List.length_take]; omega) fun x hx => hb x (List.mem_of_mem_take hx)
      rw [e, e'] at h
      cases h
    · exact ⟨A, e⟩
  obtain ⟨sk, hk, _⟩ := (C102_key S).2 pkb A hp hpb hA
  obtain ⟨k, e⟩ := (((C102_exact S H msg).2 sk pkb hk).2 sig hl hb).mp h
  obtain ⟨k', e'⟩ := (((C102_exact S H msg).2 sk pkb hk).2 sig' hl' hb').mp h'
  obtain ⟨rb, R, r1, r2, _, r4, r5⟩ := S.encode_mul hG k
  obtain ⟨rb', R', r1', r2', _, r4', r5'⟩ := S.encode_mul hG k'
  rw [schnorrSign, hk, r1] at e
  rw [schnorrSign, hk, r1'] at e'
  have e := Outcome.ok.inj e
  have e' := Outcome.ok.inj e'
  have hrb : rb = rb' := by
    rw [← e, ← e', List.take_left' r2, List.take_left' r2'] at hs
    exact hs
  subst hrb
  rw [r4] at r4'
  cases r4'
  have hkk : k = k' := smul_toNat_inj ho ((r5.ext_iff S.good r5').mp rfl)
  subst hkk
  rw [← e, ← e']

/-- **C102** Two signatures of different challenges with the same nonce give the secret away. -/
theorem C102_reuse (H H' : List ℕ → List ℕ) (sk k : Fp n) (msg msg' pkb rb sig sig' : List ℕ) (hk : schnorrKey K C G sk = .ok pkb)
    (hr : K.encodeProj C (Aff.mul C G (Fp.toRepr k)) = .ok rb)
    (h : schnorrSign K C G H sk k msg = .ok sig) (h' : schnorrSign K C G H' sk k msg' = .ok sig')
    (hne : (schnorrChallenge H rb pkb msg : Fp n) ≠ schnorrChallenge H' rb pkb msg') :
    ∃ s s' d, Fp.fromRepr (sig.drop K.compressedSize) = some s ∧ Fp.fromRepr (sig'.drop K.compressedSize) = some s' ∧
      Fp.invert (schnorrChallenge H rb pkb msg - schnorrChallenge H' rb pkb msg' : Fp n) = some d ∧ (s - s') * d = sk := by
  obtain ⟨g, hG, ho, hn, hall⟩ := S.exists_gen
  obtain ⟨rb', R, r1, r2, _, _, _⟩ := S.encode_mul hG k
  rw [hr] at r1
  cases r1
  rw [schnorrSign, hk, hr] at h h'
  rw [← Outcome.ok.inj h, ← Outcome.ok.inj h', List.drop_left' r2, List.drop_left' r2]
  have hd := sub_ne_zero.mpr hne
  refine ⟨_, _, _, (fromRepr_some_iff _ (toRepr_ok _).1 (toRepr_ok _).2 _).mpr rfl, (fromRepr_some_iff _ (toRepr_ok _).1 (toRepr_ok _).2 _).mpr rfl,
    by rw [invert_eq, if_neg hd], ?_⟩
  have e : k + schnorrChallenge H rb pkb msg * sk - (k + schnorrChallenge H' rb pkb msg' * sk) =
      sk * (schnorrChallenge H rb pkb msg - schnorrChallenge H' rb pkb msg') := by ring
  rw [e, mul_assoc, mul_inv_cancel₀ hd, mul_one]

/-- **C102** The challenge binds the nonce, the key and the message: after any change of the hash of this one string that changes the
challenge, the signature is refused, unless the key is the identity. -/
theorem C102_bound (H H' : List ℕ → List ℕ) (sk : Fp n) (h0 : sk ≠ 0) (pkb msg sig : List ℕ) (hk : schnorrKey K C G sk = .ok pkb)
    (hl : sig.length = K.compressedSize + 8 * numLimbs n) (hb : IsBytes sig) (h : schnorrVerify (n := n) K C G H pkb msg sig = .ok true)
    (hne : (Fp.fromUniform (H (sig.take K.compressedSize ++ pkb ++ msg)) : Fp n) ≠ Fp.fromUniform (H' (sig.take K.compressedSize ++ pkb ++ msg))) :
    schnorrVerify (n := n) K C G H' pkb msg sig = .ok false := by
  obtain ⟨g, hG, ho, hn, hall⟩ := S.exists_gen
  obtain ⟨pkb', pk, p1, p2, p3, p4, p5⟩ := S.encode_mul hG sk
  rw [schnorrKey, p1] at hk
  cases hk
  have t1 : (sig.take K.compressedSize).length = K.compressedSize := by rw [List.length_take]; omega
  have t2 : IsBytes (sig.take K.compressedSize) := fun x hx => hb x (List.mem_of_mem_take hx)
  obtain ⟨r, e⟩ := S.decode_ok t1 t2
  rw [schnorrVerify, p4, e] at h ⊢
  rcases r with _ | R
  · cases h
  · dsimp only at h ⊢
    cases hs : (Fp.fromRepr (sig.drop K.compressedSize) : Option (Fp n)) with
    | none => rfl
    | some s =>
      rw [hs] at h
      dsimp only at h ⊢
      obtain ⟨k, hR, -⟩ := S.decode_mul hG hall t1 t2 e
      have h1 := (S.holds_iff hG ho hn p5 hR _ _).mp (Outcome.ok.inj h)
      have h3 : schnorrHolds C G pk R (schnorrChallenge H' (sig.take K.compressedSize) pkb msg) s = false := by
        rw [← Bool.not_eq_true, S.holds_iff hG ho hn p5 hR, h1]
        intro h2
        exact hne (mul_right_cancel₀ h0 (add_left_cancel h2))
      rw [h3]

omit S in
theorem inner_cons (a b : Fp n) (as bs : List (Fp n)) : inner (a :: as) (b :: bs) = a * b + inner as bs := by
  rw [inner, List.zipWith_cons_cons, List.sum_cons, inner]

omit S in
/-- The terms of many signatures. -/
theorem inner_items (f : Aff (Fp q) → Fp n) (zs : List (Fp n)) (items : List (SchnorrItem q n)) (hl : zs.length = items.length) :
    inner zs (items.map fun t => f t.R) + inner (List.zipWith (· * ·) zs (items.map (·.e))) (items.map fun t => f t.pk) -
      inner zs (items.map (·.s)) = -inner zs (items.map fun t => t.s - (f t.R + t.e * f t.pk)) := by
  induction zs generalizing items with
  | nil =>
    rw [List.length_eq_zero_iff.mp hl.symm]
    simp only [List.map_nil, inner, List.zipWith_nil_left, List.sum_nil]
    ring
  | cons z zs ih =>
    cases items with
    | nil => cases hl
    | cons t items =>
      have h := ih items (Nat.succ.inj hl)
      simp only [List.map_cons, inner_cons, List.zipWith_cons_cons]
      linear_combination h

omit S in
theorem inner_split (zs zs' ds ds' : List (Fp n)) (z d : Fp n) (hl : zs.length = ds.length) :
    inner (zs ++ z :: zs') (ds ++ d :: ds') = inner zs ds + (z * d + inner zs' ds') := by
  rw [inner_lin, lin_append _ _ _ _ hl]
  rfl

/-- The value of the check of many signatures: there are defects, zero exactly for the signatures that hold, and the check asks for their
weighted sum. -/
theorem batch_spec {msm : List (List ℕ) → List (Aff (Fp q)) → Option (Proj (Fp q))} (hm : IsMsm C n msm) :
    ∃ δ : SchnorrItem q n → Fp n,
      (∀ t, Aff.isOnCurve C t.pk = true → Aff.isOnCurve C t.R = true → (schnorrHolds C G t.pk t.R t.e t.s = true ↔ δ t = 0)) ∧
      ∀ (items : List (SchnorrItem q n)) (zs : List (Fp n)), (∀ t ∈ items, Aff.isOnCurve C t.pk = true ∧ Aff.isOnCurve C t.R = true) →
        zs.length = items.length → 2 * items.length + 1 < 2 ^ 32 →
        ∃ d, schnorrBatch G msm items zs = some d ∧ (d = true ↔ inner zs (items.map δ) = 0) := by
  obtain ⟨g, hG, ho, hn, hall⟩ := S.exists_gen
  have hf : ∀ A : Aff (Fp q), ∃ k : Fp n, Aff.isOnCurve C A = true → ARep C A (Fp.toNat k • g) := by
    intro A
    by_cases hA : Aff.isOnCurve C A = true
    · obtain ⟨p, hp⟩ := (Aff.valid_iff S.good _).mpr hA
      obtain ⟨k, rfl⟩ := hall p
      exact ⟨k, fun _ => hp⟩
    · exact ⟨0, fun h => absurd h hA⟩
  choose f hf using hf
  refine ⟨fun t => t.s - (f t.R + t.e * f t.pk), fun t h1 h2 => ?_, fun items zs hi hl h32 => ?_⟩
  · rw [S.holds_iff hG ho hn (hf _ h1) (hf _ h2), sub_eq_zero]
  · have hrep : List.Forall₂ (ARep C) (G :: (items.map (·.R) ++ items.map (·.pk)))
        (((1 : Fp n) :: (items.map (fun t => f t.R) ++ items.map fun t => f t.pk)).map fun c => Fp.toNat c • g) := by
      rw [List.map_cons, List.map_append, List.map_map, List.map_map]
      have h1 : Fp.toNat (1 : Fp n) = 1 := by
        rw [← Nat.cast_one, Fp.toNat_natCast, Nat.mod_eq_of_lt (Fact.out : n.Prime).one_lt]
      refine List.Forall₂.cons (by rw [h1, one_smul]; exact hG) (List.rel_append ?_ ?_)
      · rw [List.forall₂_map_left_iff, List.forall₂_map_right_iff, List.forall₂_same]
        exact fun t ht => hf _ (hi t ht).2
      · rw [List.forall₂_map_left_iff, List.forall₂_map_right_iff, List.forall₂_same]
        exact fun t ht => hf _ (hi t ht).1
    have hlen : (-(inner zs (items.map (·.s))) :: (zs ++ List.zipWith (· * ·) zs (items.map (·.e)))).length =
        (G :: (items.map (·.R) ++ items.map (·.pk))).length := by
      simp only [List.length_cons, List.length_append, List.length_zipWith, List.length_map, hl, Nat.min_self]
    obtain ⟨D, e, hD⟩ := hm _ _ _ hlen (by simp only [List.length_cons, List.length_append, List.length_map]; omega) hrep
    refine ⟨D.isIdentity, ?_, ?_⟩
    · rw [schnorrBatch]
      rw [e, Option.bind_eq_bind, Option.bind_some]
    · rw [msmValue_smul hn, inner_cons, mul_one, inner_lin (zs ++ _), lin_append _ _ _ _ (by rw [List.length_map, hl]), ← inner_lin, ← inner_lin,
        neg_add_eq_sub, inner_items f zs items hl] at hD
      rw [hD.isIdentity]
      constructor
      · intro h
        exact neg_eq_zero.mp (smul_toNat_inj ho (b := 0) (by rw [h, Fp.toNat_zero, zero_smul]))
      · intro h
        rw [h, neg_zero, Fp.toNat_zero, zero_smul]

/-- **C102** The check of many signatures does not panic and accepts when all of them hold. -/
theorem C102_batch {msm : List (List ℕ) → List (Aff (Fp q)) → Option (Proj (Fp q))} (hm : IsMsm C n msm) (items : List (SchnorrItem q n))
    (zs : List (Fp n)) (hi : ∀ t ∈ items, Aff.isOnCurve C t.pk = true ∧ Aff.isOnCurve C t.R = true) (hl : zs.length = items.length)
    (h32 : 2 * items.length + 1 < 2 ^ 32) :
    ∃ d, schnorrBatch G msm items zs = some d ∧ ((∀ t ∈ items, schnorrHolds C G t.pk t.R t.e t.s = true) → d = true) := by
  obtain ⟨δ, hδ, hb⟩ := batch_spec S hm
  obtain ⟨d, e, hd⟩ := hb items zs hi hl h32
  refine ⟨d, e, fun h => hd.mpr ?_⟩
  clear hd e hl h32
  induction items generalizing zs with
  | nil => rw [List.map_nil, inner, List.zipWith_nil_right, List.sum_nil]
  | cons t items ih =>
    cases zs with
    | nil => rw [inner, List.zipWith_nil_left, List.sum_nil]
    | cons z zs =>
      have ht := hi t List.mem_cons_self
      rw [List.map_cons, inner_cons, (hδ t ht.1 ht.2).mp (h t List.mem_cons_self), mul_zero, zero_add]
      exact ih zs (fun t ht => hi t (List.mem_cons_of_mem _ ht)) fun t ht => h t (List.mem_cons_of_mem _ ht)

/-- **C102** With one signature that does not hold, whatever the others and their weights are, exactly one of the `n` values of its own
weight is accepted. -/
theorem C102_batch_wrong {msm : List (List ℕ) → List (Aff (Fp q)) → Option (Proj (Fp q))} (hm : IsMsm C n msm)
    (pre post : List (SchnorrItem q n)) (t : SchnorrItem q n) (zs zs' : List (Fp n))
    (hi : ∀ t' ∈ pre ++ t :: post, Aff.isOnCurve C t'.pk = true ∧ Aff.isOnCurve C t'.R = true) (hl : zs.length = pre.length)
    (hl' : zs'.length = post.length) (h32 : 2 * (pre ++ t :: post).length + 1 < 2 ^ 32) (ht : schnorrHolds C G t.pk t.R t.e t.s = false) :
    ∃! z, schnorrBatch G msm (pre ++ t :: post) (zs ++ z :: zs') = some true := by
  obtain ⟨δ, hδ, hb⟩ := batch_spec S hm
  have hm := hi t (List.mem_append_right _ List.mem_cons_self)
  have hne : δ t ≠ 0 := fun e => by rw [(hδ t hm.1 hm.2).mpr e] at ht; cases ht
  have key : ∀ z, schnorrBatch G msm (pre ++ t :: post) (zs ++ z :: zs') = some true ↔
      inner zs (pre.map δ) + (z * δ t + inner zs' (post.map δ)) = 0 := by
    intro z
    obtain ⟨d, e, hd⟩ := hb (pre ++ t :: post) (zs ++ z :: zs') hi
      (by rw [List.length_append, List.length_append, List.length_cons, List.length_cons, hl, hl']) h32
    rw [List.map_append, List.map_cons, inner_split _ _ _ _ _ _ (by rw [List.length_map, hl])] at hd
    rw [e, Option.some.injEq, hd]
  refine ⟨-(inner zs (pre.map δ) + inner zs' (post.map δ)) * (δ t)⁻¹, (key _).mpr ?_, fun z hz => ?_⟩
  · rw [mul_assoc, inv_mul_cancel₀ hne, mul_one]
    ring
  · have h := (key z).mp hz
    rw [eq_mul_inv_iff_mul_eq₀ hne]
    linear_combination h

end Spec

/-- **C102** The curves of prime order whose points are all encoded. -/
theorem C102_curves :
    SchnorrCurve Bn256.g1Codec Bn256.g1 Bn256.g1Gen bnR ∧ SchnorrCurve Grumpkin.g1Codec Grumpkin.g1 Grumpkin.g1Gen bnQ ∧
    SchnorrCurve Pluto.g1Codec Pluto.g1 Pluto.g1Gen plQ ∧ SchnorrCurve Pluto.erisCodec Pluto.eris Pluto.erisGen plP ∧
    SchnorrCurve Secp256k1.cCodec Secp256k1.c Secp256k1.cGen k1N ∧ SchnorrCurve Secq256k1.cCodec Secq256k1.c Secq256k1.cGen k1P :=
  ⟨⟨Bn256.g1_good, C44_orders.1, C26_full.1, C27_full.1⟩,
    ⟨Grumpkin.g1_good, C44_orders.2.1, C26_full.2.1, C27_full.2.1⟩,
    ⟨Pluto.g1_good, C44_orders.2.2.1, C26_full.2.2.1, C27_full.2.2.2.1⟩,
    ⟨Pluto.eris_good, C44_orders.2.2.2.1, C26_full.2.2.2.1, C27_full.2.2.2.2.1⟩,
    ⟨Secp256k1.c_good, C44_orders.2.2.2.2.1, C26_full.2.2.2.2.1, C27_full.2.2.2.2.2.1⟩,
    ⟨Secq256k1.c_good, C44_orders.2.2.2.2.2.1, C26_full.2.2.2.2.2, C27_full.2.2.2.2.2.2.1⟩⟩

/-- A signature with the secret 5 and the nonce 7 over secp256k1: there is one, and it is accepted. -/
example (H : List ℕ → List ℕ) : ∃ pkb sig, schnorrKey Secp256k1.cCodec Secp256k1.c Secp256k1.cGen (5 : Fp k1N) = .ok pkb ∧
    schnorrSign Secp256k1.cCodec Secp256k1.c Secp256k1.cGen H (5 : Fp k1N) 7 [1, 2, 3] = .ok sig ∧
    schnorrVerify (n := k1N) Secp256k1.cCodec Secp256k1.c Secp256k1.cGen H pkb [1, 2, 3] sig = .ok true := by
  have S := C102_curves.2.2.2.2.1
  obtain ⟨pkb, _, hk, _⟩ := (C102_key S).1 5
  obtain ⟨h1, h2⟩ := (C102_exact S H [1, 2, 3]).2 5 pkb hk
  obtain ⟨sig, hs, hl, hb⟩ := h1 7
  exact ⟨pkb, sig, hk, hs, (h2 sig hl hb).mpr ⟨7, hs⟩⟩

/-- The batch over bn256 with `msm_serial`: the generator as key and `R`, a signature that holds and one that does not. -/
example {ln : ℕ → ℕ} (hln : LnCeilOk ln) :
    schnorrHolds Bn256.g1 Bn256.g1Gen Bn256.g1Gen Bn256.g1Gen (2 : Fp bnR) 3 = true ∧
    ∃! z, schnorrBatch Bn256.g1Gen (fun ks bases => msmSerial Bn256.g1 ln ((numBits bnR + 7) / 8) ks bases Proj.identity)
      [⟨Bn256.g1Gen, Bn256.g1Gen, 2, 3⟩, ⟨Bn256.g1Gen, Bn256.g1Gen, 2, (4 : Fp bnR)⟩] [5, z] = some true := by
  have S := C102_curves.1
  have hg : Aff.isOnCurve Bn256.g1 Bn256.g1Gen = true := by decide +kernel
  refine ⟨by decide +kernel, C102_batch_wrong S (C88_msm S.good hln).1 [⟨Bn256.g1Gen, Bn256.g1Gen, 2, 3⟩] []
    ⟨Bn256.g1Gen, Bn256.g1Gen, 2, 4⟩ [5] [] (fun t ht => ?_) rfl rfl (by decide) (by decide +kernel)⟩
  rcases List.mem_cons.mp ht with rfl | ht
  · exact ⟨hg, hg⟩
  · rw [List.mem_singleton.mp ht]
    exact ⟨hg, hg⟩

end Halo2.Props
