import Verif.Props.PairingWide
import Verif.Props.Cofactor
import Verif.Props.HashCurve
import Verif.Props.Domain

/-!
# C82: BLS signatures written with the library

The scheme with signatures in G1 and keys in G2 of bls12381: `hash_to_curve`, scalar multiplication, `to_bytes`, `from_bytes`,
`from_uncompressed`, `is_torsion_free` and `pairing`. No such program is in the repository; the functions below stand for the client.
-/

set_option linter.unusedSectionVars false

namespace Halo2.Props

open Halo2 Halo2.Ext Halo2.Field Halo2.Prime Halo2.Curve Halo2.Pairing Halo2.Hash

/-- What the client uses. -/
structure SigSuite (L F K : Type) where
  c1 : Params L
  c2 : Params F
  d1 : Codec L
  d2 : Codec F
  free1 : Proj L → Bool
  free2 : Proj F → Bool
  gen : Aff F
  pairing : Aff L → Aff F → Option K
  multi : List (Aff L × Aff F) → Option K
  /-- `hash_to_curve(domain)(msg)`; `none` stands for a panic -/
  hash : List ℕ → Option (Proj L)

namespace SigSuite
variable {L F K : Type} [_root_.Field L] [DecidableEq L] [BaseField L] [LawfulBase L]
  [_root_.Field F] [DecidableEq F] [BaseField F] [LawfulBase F] [CommMonoid K] [DecidableEq K]
  (S : SigSuite L F K) {r : ℕ} [Fact (OddModulus r)]

/-- `(hash(msg) * k).to_bytes()`. -/
def sign (k : Fp r) (msg : List ℕ) : Outcome (List ℕ) :=
  match S.hash msg with
  | none => .panic
  | some M => S.d1.encodeProj S.c1 (Proj.mul S.c1 M (Fp.toRepr k))

/-- `(G2Affine::generator() * k).to_affine()`. -/
def pub (k : Fp r) : Aff F := (Aff.mul S.c2 S.gen (Fp.toRepr k)).toAffine

/-- Its `to_uncompressed()`. -/
def key (k : Fp r) : List ℕ := S.d2.toUncompressed (S.pub k)

/-- `from_uncompressed` and `is_torsion_free` of the key. -/
def readKey (b : List ℕ) : Outcome (Option (Aff F)) :=
  match S.d2.fromUncompressed S.c2 b with
  | .panic => .panic
  | .ok none => .ok none
  | .ok (some Q) => if S.free2 (Aff.toCurve Q) then .ok (some Q) else .ok none

/-- `from_bytes` and `is_torsion_free` of the signature. -/
def readSig (b : List ℕ) : Outcome (Option (Aff L)) :=
  match S.d1.decode S.c1 b with
  | .panic => .panic
  | .ok none => .ok none
  | .ok (some A) => if S.free1 (Aff.toCurve A) then .ok (some A) else .ok none

/-- `pairing(sig, generator) == pairing(hash(msg).to_affine(), key)`. -/
def verify (key msg sig : List ℕ) : Outcome Bool :=
  match S.readKey key, S.readSig sig, S.hash msg with
  | .ok (some Q), .ok (some A), some M =>
    match S.pairing A S.gen, S.pairing M.toAffine Q with
    | some x, some y => .ok (decide (x = y))
    | _, _ => .panic
  | .ok (some _), .ok none, some _ => .ok false
  | .ok none, .ok _, some _ => .ok false
  | _, _, _ => .panic

/-- The pairs of hashed messages and keys, for the product of pairings. -/
def terms (l : List (Aff F × List ℕ)) : Option (List (Aff L × Aff F)) :=
  l.mapM fun t => (S.hash t.2).map fun M => (M.toAffine, t.1)

/-- Verification of an aggregate signature with one `multi_miller_loop` and one `final_exponentiation`. -/
def aggregate (l : List (Aff F × List ℕ)) (A : Aff L) : Option Bool :=
  match S.terms l with
  | none => none
  | some ts => (S.multi ((A.neg, S.gen) :: ts)).map fun z => decide (z = 1)

/-- The sum of the signatures of the messages under their keys, as affine points: `Σ (hash(msgᵢ) * kᵢ).to_affine()`. -/
def combined (l : List (Fp r × List ℕ)) : Option (Aff L) :=
  (l.mapM fun t => (S.hash t.2).map fun M => Aff.toCurve (Proj.mul S.c1 M (Fp.toRepr t.1)).toAffine).map fun ps =>
    (Proj.sum S.c1 ps).toAffine

/-- The multiples of the hash of the message are those of a point of the group. -/
def HashOk (r : ℕ) [Fact (OddModulus r)] (msg : List ℕ) (M : Pt S.c1) : Prop :=
  ∃ R, S.hash msg = some R ∧ ARep S.c1 R.toAffine M ∧ r • M = 0 ∧
    ∀ k : Fp r, ARep S.c1 (Proj.mul S.c1 R (Fp.toRepr k)).toAffine (Fp.toNat k • M)

/-- What the library provides. -/
structure Ok (r : ℕ) [Fact (OddModulus r)] : Prop where
  good1 : Good S.c1
  good2 : Good S.c2
  law2 : S.d2.Lawful
  free1 : FreeSpec S.c1 r S.free1
  free2 : FreeSpec S.c2 r S.free2
  sound : DecodeSound S.d1 S.c1
  round : ∀ A P, ARep S.c1 A P → r • P = 0 → RoundTripAt S.d1 S.c1 A
  gen : ∃ g, ARep S.c2 S.gen g ∧ addOrderOf g = r ∧ ∀ p : Pt S.c2, r • p = 0 ↔ ∃ k < r, p = k • g
  claim : PairingClaim S.c1 S.c2 r S.pairing S.multi
  check : ∀ (s m : Aff L) (k : Fp r), InGroup S.c1 r s → InGroup S.c1 r m →
    (S.pairing s S.gen = S.pairing m (S.pub k) ↔ Aff.eq s (Aff.mul S.c1 m (Fp.toRepr k)).toAffine = true)
  inj : ∀ p p', InGroup S.c1 r p → InGroup S.c1 r p' → (S.pairing p S.gen = S.pairing p' S.gen ↔ Aff.eq p p' = true)
  hash : ∀ msg, ∃ M, S.HashOk r msg M

variable {S}

theorem readSig_iff (hS : S.Ok r) (b : List ℕ) (hl : b.length = S.d1.compressedSize) (hb : IsBytes b) :
    S.readSig b = .ok none ∨ ∃ A P, S.readSig b = .ok (some A) ∧ ARep S.c1 A P ∧ r • P = 0 ∧ S.d1.encode S.c1 A = .ok b := by
  rcases hS.sound b hl hb with h | ⟨A, h, ho, he⟩
  · rw [readSig, h]; exact .inl rfl
  · obtain ⟨P, hP⟩ := (Aff.valid_iff hS.good1 A).mpr ho
    have hf := hS.free1 _ _ (hP.toCurve hS.good1)
    rw [readSig, h]
    by_cases hr : r • P = 0
    · exact .inr ⟨A, P, by simp only [hf.mpr hr, if_true], hP, hr, he⟩
    · refine .inl ?_
      simp only [if_neg (mt hf.mp hr)]

theorem readSig_encode (hS : S.Ok r) {A : Aff L} {P : Pt S.c1} (hA : ARep S.c1 A P) (hr : r • P = 0) {b : List ℕ}
    (he : S.d1.encode S.c1 A = .ok b) : S.readSig b = .ok (some A) := by
  obtain ⟨b', h1, -, -, h4⟩ := hS.round A P hA hr
  rw [h1] at he
  rw [Outcome.ok.inj he] at h4
  rw [readSig, h4]
  simp only [(hS.free1 _ _ (hA.toCurve hS.good1)).mpr hr, if_true]

theorem pub_rep (hS : S.Ok r) : ∃ g : Pt S.c2, addOrderOf g = r ∧ ARep S.c2 S.gen g ∧ (∀ p : Pt S.c2, r • p = 0 ↔ ∃ k < r, p = k • g) ∧
    r • g = 0 ∧ ∀ k : Fp r, ARep S.c2 (S.pub k) (Fp.toNat k • g) ∧ r • (Fp.toNat k • g) = 0 := by
  obtain ⟨g, hg, ho, ht⟩ := hS.gen
  have hr : r • g = 0 := by rw [← ho]; exact addOrderOf_nsmul_eq_zero g
  exact ⟨g, ho, hg, ht, hr, fun k => ⟨(C23_mul hS.good2 PRep.identity hg k).2.toAffine, by rw [smul_comm, hr, smul_zero]⟩⟩

theorem pub_group (hS : S.Ok r) (k : Fp r) : InGroup S.c2 r (S.pub k) := by
  obtain ⟨g, -, -, -, -, h⟩ := pub_rep hS
  exact ⟨_, (h k).1, (h k).2⟩

theorem readKey_key (hS : S.Ok r) (k : Fp r) : S.readKey (S.key k) = .ok (some (S.pub k)) := by
  obtain ⟨P, hP, hr⟩ := pub_group hS k
  have h := (C28_uncompressed (C := S.c2) hS.law2 (S.pub k)).2.2.2 ((Aff.valid_iff hS.good2 _).mp ⟨_, hP⟩)
  rw [readKey, key, h]
  simp only [(hS.free2 _ _ (hP.toCurve hS.good2)).mpr hr, if_true]

/-- What C82 says. -/
structure Claim (S : SigSuite L F K) (r : ℕ) [Fact (OddModulus r)] (keySize sigSize : ℕ) : Prop where
  /-- a key reads back as the public point -/
  key : ∀ k : Fp r, (S.key k).length = keySize ∧ IsBytes (S.key k) ∧ S.readKey (S.key k) = .ok (some (S.pub k))
  /-- every string that is read as a key is that of exactly one secret -/
  secret : ∀ b Q, b.length = keySize → IsBytes b → S.readKey b = .ok (some Q) → ∃! k : Fp r, b = S.key k
  /-- signing does not panic, and the verifier accepts the signature and no other string, without a panic -/
  exact : ∀ (k : Fp r) (msg : List ℕ), ∃ sig, S.sign k msg = .ok sig ∧ sig.length = sigSize ∧ IsBytes sig ∧
    ∀ b, b.length = sigSize → IsBytes b → S.verify (S.key k) msg b = .ok (decide (b = sig))
  /-- of the points in the group the aggregate verifier accepts the sum of the signatures and no other -/
  aggregate : ∀ (l : List (Fp r × List ℕ)), ∃ T, S.combined l = some T ∧ InGroup S.c1 r T ∧
    ∀ A, InGroup S.c1 r A → S.aggregate (l.map fun t => (S.pub t.1, t.2)) A = some (decide (A = T))

theorem secret_of (hS : S.Ok r) (b : List ℕ) (Q : Aff F) (hl : b.length = 2 * S.d2.size) (hb : IsBytes b)
    (h : S.readKey b = .ok (some Q)) : ∃! k : Fp r, b = S.key k := by
  rw [readKey] at h
  cases hd : S.d2.fromUncompressed S.c2 b with
  | panic => rw [hd] at h; cases h
  | ok o =>
    rw [hd] at h
    cases o with
    | none => cases h
    | some Q' =>
      obtain ⟨ho, hbQ⟩ := ((C28_uncompressed hS.law2 Q').1 b hl hb).2.mp hd
      obtain ⟨P, hP⟩ := (Aff.valid_iff hS.good2 Q').mpr ho
      have hf := hS.free2 _ _ (hP.toCurve hS.good2)
      by_cases hr : r • P = 0
      · obtain ⟨g, hog, -, ht, -, hk⟩ := pub_rep hS
        obtain ⟨n, hn, rfl⟩ := (ht P).mp hr
        have hkn : Fp.toNat ((n : ℕ) : Fp r) = n := by rw [Fp.toNat_natCast, Nat.mod_eq_of_lt hn]
        have e1 := (hk ((n : ℕ) : Fp r)).1
        rw [hkn] at e1
        refine ⟨((n : ℕ) : Fp r), ?_, fun k hkb => ?_⟩
        · change b = S.key _
          rw [hbQ, key, (hP.ext_iff hS.good2 e1).mpr rfl]
        · have h1 := readKey_key hS k
          rw [← hkb, readKey, hd] at h1
          simp only [hf.mpr hr, if_true] at h1
          have h2 := Option.some.inj (Outcome.ok.inj h1)
          have h3 := (hP.ext_iff hS.good2 (hk k).1).mp h2
          apply Fp.toNat_inj
          rw [hkn]
          have h4 := nsmul_eq_nsmul_iff_modEq.mp h3
          rw [hog] at h4
          have h5 : n % r = Fp.toNat k % r := h4
          rw [Nat.mod_eq_of_lt hn, Nat.mod_eq_of_lt (Fp.toNat_lt k)] at h5
          exact h5.symm
      · simp only [if_neg (mt hf.mp hr)] at h
        cases h

theorem exact_of (hS : S.Ok r) (k : Fp r) (msg : List ℕ) : ∃ sig, S.sign k msg = .ok sig ∧ sig.length = S.d1.compressedSize ∧ IsBytes sig ∧
    ∀ b, b.length = S.d1.compressedSize → IsBytes b → S.verify (S.key k) msg b = .ok (decide (b = sig)) := by
  obtain ⟨M, R, hR, hM, hr, hk⟩ := hS.hash msg
  have hrk : r • (Fp.toNat k • M) = 0 := by rw [smul_comm, hr, smul_zero]
  obtain ⟨sig, h1, h2, h3, -⟩ := hS.round _ _ (hk k) hrk
  refine ⟨sig, ?_, h2, h3, fun b hl hb => ?_⟩
  · rw [sign, hR]
    exact h1
  have hK := readKey_key hS k
  rcases readSig_iff hS b hl hb with h | ⟨A, P, h, hA, hP, he⟩
  · have hne : b ≠ sig := by
      rintro rfl
      rw [readSig_encode hS (hk k) hrk h1] at h
      cases Outcome.ok.inj h
    rw [verify, hK, h, hR, decide_eq_false hne]
  · have hx := hS.check A R.toAffine k ⟨P, hA, hP⟩ ⟨M, hM, hr⟩
    obtain ⟨g, -, hg, -, hgr, hpub⟩ := pub_rep hS
    obtain ⟨x, ex, -⟩ := hS.claim.total A S.gen ⟨P, hA, hP⟩ ⟨g, hg, hgr⟩
    obtain ⟨y, ey, -⟩ := hS.claim.total R.toAffine _ ⟨M, hM, hr⟩ (pub_group hS k)
    rw [verify, hK, h, hR]
    simp only
    rw [ex, ey] at hx ⊢
    simp only
    rw [Option.some.injEq, Aff.eq_iff, hA.ext_iff hS.good1 (C23_mul hS.good1 PRep.identity hM k).2.toAffine,
      ← hA.ext_iff hS.good1 (hk k)] at hx
    congr 1
    rw [decide_eq_decide, hx]
    constructor
    · rintro rfl
      have := h1.symm.trans he
      exact (Outcome.ok.inj this).symm
    · rintro rfl
      rw [readSig_encode hS (hk k) hrk h1] at h
      exact (Option.some.inj (Outcome.ok.inj h)).symm

theorem aggregate_aux (hS : S.Ok r) (l : List (Fp r × List ℕ)) : ∃ ts zs ps, ∃ Ps : List (Pt S.c1),
    S.terms (l.map fun t => (S.pub t.1, t.2)) = some ts ∧
    List.Forall₂ (fun t z => InGroup S.c1 r t.1 ∧ InGroup S.c2 r t.2 ∧ S.pairing t.1 t.2 = some z) ts zs ∧
    (l.mapM fun t => (S.hash t.2).map fun M => Aff.toCurve (Proj.mul S.c1 M (Fp.toRepr t.1)).toAffine) = some ps ∧
    List.Forall₂ (PRep S.c1) ps Ps ∧ r • Ps.sum = 0 ∧ ∀ A, ARep S.c1 A Ps.sum → S.pairing A S.gen = some zs.prod := by
  obtain ⟨g, -, hg, -, hgr, hpub⟩ := pub_rep hS
  induction l with
  | nil =>
    refine ⟨[], [], [], [], rfl, .nil, rfl, .nil, smul_zero _, fun A hA => ?_⟩
    rw [List.prod_nil, hS.claim.nondeg A S.gen ⟨_, hA, smul_zero _⟩ ⟨g, hg, hgr⟩]
    exact .inl ((hA.isIdentity hS.good1).mpr rfl)
  | cons t l ih =>
    obtain ⟨ts, zs, ps, Ps, e1, f1, e2, f2, hr, hp⟩ := ih
    obtain ⟨M, R, hR, hM, hMr, hk⟩ := hS.hash t.2
    have hkr : r • (Fp.toNat t.1 • M) = 0 := by rw [smul_comm, hMr, smul_zero]
    obtain ⟨z, hz, -⟩ := hS.claim.total R.toAffine (S.pub t.1) ⟨M, hM, hMr⟩ (pub_group hS t.1)
    have hz' : S.pairing (Proj.mul S.c1 R (Fp.toRepr t.1)).toAffine S.gen = some z := by
      rw [← hz, hS.check _ _ t.1 ⟨_, hk t.1, hkr⟩ ⟨M, hM, hMr⟩, Aff.eq_iff,
        (hk t.1).ext_iff hS.good1 (C23_mul hS.good1 PRep.identity hM t.1).2.toAffine]
    obtain ⟨A', hA'⟩ := ARep.exists Ps.sum
    refine ⟨(R.toAffine, S.pub t.1) :: ts, z :: zs, _ :: ps, (Fp.toNat t.1 • M) :: Ps, ?_,
      .cons ⟨⟨M, hM, hMr⟩, pub_group hS t.1, hz⟩ f1, ?_, .cons ((hk t.1).toCurve hS.good1) f2, ?_, fun A hA => ?_⟩
    · rw [terms] at e1 ⊢
      rw [List.map_cons, List.mapM_cons, e1, hR]
      rfl
    · rw [List.mapM_cons, e2, hR]
      rfl
    · rw [List.sum_cons, smul_add, hkr, hr, add_zero]
    · rw [List.sum_cons] at hA
      have := hS.claim.add_left _ A' S.gen z zs.prod ⟨_, hk t.1, hkr⟩ ⟨_, hA', hr⟩ ⟨g, hg, hgr⟩ hz' (hp A' hA')
      rw [List.prod_cons, ← this, (hA.ext_iff hS.good1 ((hk t.1).add hS.good1 hA').toAffine).mpr rfl]

theorem aggregate_of (hS : S.Ok r) (l : List (Fp r × List ℕ)) : ∃ T, S.combined l = some T ∧ InGroup S.c1 r T ∧
    ∀ A, InGroup S.c1 r A → S.aggregate (l.map fun t => (S.pub t.1, t.2)) A = some (decide (A = T)) := by
  obtain ⟨ts, zs, ps, Ps, e1, f1, e2, f2, hr, hp⟩ := aggregate_aux hS l
  obtain ⟨g, -, hg, -, hgr, -⟩ := pub_rep hS
  have hT := (C23_sum hS.good1 f2).toAffine
  refine ⟨(Proj.sum S.c1 ps).toAffine, by rw [combined, e2]; rfl, ⟨_, hT, hr⟩, fun A hA => ?_⟩
  obtain ⟨x, hx, -⟩ := hS.claim.total A S.gen hA ⟨g, hg, hgr⟩
  obtain ⟨w, hw, hw1, -⟩ := hS.claim.neg A S.gen x hA ⟨g, hg, hgr⟩ hx
  have hm := hS.claim.multi ((A.neg, S.gen) :: ts) (w :: zs) (.cons ⟨hA.neg, ⟨g, hg, hgr⟩, hw1⟩ f1)
  have hi := hS.inj A _ hA ⟨_, hT, hr⟩
  rw [hx, hp _ hT, Option.some.injEq, Aff.eq_iff] at hi
  rw [aggregate, e1]
  simp only
  rw [hm, Option.map_some, List.prod_cons, Option.some.injEq, decide_eq_decide, ← hi]
  constructor
  · intro e
    calc x = x * (w * zs.prod) := by rw [e, mul_one]
      _ = (w * x) * zs.prod := by rw [← mul_assoc, mul_comm x w]
      _ = zs.prod := by rw [hw, one_mul]
  · intro e
    rw [← e, hw]

theorem claim_of (hS : S.Ok r) : S.Claim r (2 * S.d2.size) S.d1.compressedSize where
  key k := by
    obtain ⟨-, h1, h2, -⟩ := C28_uncompressed (C := S.c2) hS.law2 (S.pub k)
    exact ⟨h1, h2, readKey_key hS k⟩
  secret b Q hl hb h := secret_of hS b Q hl hb h
  exact k msg := exact_of hS k msg
  aggregate l := aggregate_of hS l

end SigSuite

theorem toAffine_zero {F : Type} [_root_.Field F] [DecidableEq F] [BaseField F] [LawfulBase F] {P : Proj F} (h : P.z = 0) :
    P.toAffine = Aff.identity := by
  rw [toAffine_eq, if_pos h]

/-- The triple `(0, 0, 0)` times a scalar is normalised to the identity. -/
theorem mul_zero_triple (repr : List ℕ) : (Proj.mul Bls12381.g1 ⟨0, 0, 0⟩ repr).toAffine = Aff.identity := by
  apply toAffine_zero
  rw [Proj.mul]
  generalize Proj.bitsOf repr = l
  have : ∀ acc : Proj Bls12381.Fq, acc.z = 0 → (l.foldl (fun acc bit =>
      let acc := Proj.double Bls12381.g1 acc
      if bit then Proj.add Bls12381.g1 acc ⟨0, 0, 0⟩ else acc) acc).z = 0 := by
    induction l with
    | nil => exact fun acc h => h
    | cons b l ih =>
      intro acc h
      rw [List.foldl_cons]
      apply ih
      have e : (Proj.double Bls12381.g1 acc).z = 0 := by
        have hi : Proj.isIdentity acc = true := by rw [Proj.isIdentity, LawfulBase.isZero_iff, h]
        rw [Proj.double, if_pos Bls12381.g1_a]
        simp only [hi, if_true]
        rfl
      cases b
      · exact e
      · change (Proj.add Bls12381.g1 (Proj.double Bls12381.g1 acc) ⟨0, 0, 0⟩).z = 0
        rw [(C37_absorb _).2]
  exact this _ rfl

/-- The suite of bls12381 with signatures in G1; `hash_to_curve` ends with `clear_cofactor` (src/bls12381/g1.rs:166-171). -/
def blsSuite (D : Digest) (checks : Bool) (pre domain : List ℕ) : SigSuite Bls12381.Fq Bls12381.Fq2 Bls12381.Fq12 where
  c1 := Bls12381.g1
  c2 := Bls12381.g2
  d1 := Bls12381.g1Codec
  d2 := Bls12381.g2Codec
  free1 := Bls12381.g1TorsionFree (Fp.zeta blsQ blsQZeta)
  free2 := Bls12381.g2TorsionFree
  gen := Bls12381.g2Gen
  pairing := Bls12381.pairing
  multi ts := Bls12381.finalExp (Bls12381.multiMillerLoop ts)
  hash msg := (hashToCurve Bls12381.g1 D checks Fp.fromUniform 64 g1Map pre domain msg).map Bls12381.g1ClearCofactor

theorem blsSuite_hash (D : Digest) (hD : D.Ok) (h32 : D.outputSize = 32) (checks : Bool) (pre domain msg : List ℕ)
    (hl : pre.length + domain.length < 256) : ∃ M, (blsSuite D checks pre domain).HashOk blsR msg M := by
  obtain ⟨n0, n1, t₀, s₀, t₁, s₁, R, -, -, -, hR, h1, h2⟩ := C47_bls12381_g1_partial D hD h32 checks pre domain msg hl
  by_cases hk : ∃ r ∈ Bls12381.g1KernelX, t₀ = (r : ℕ) ∨ t₁ = (r : ℕ)
  · have hz := h2 hk
    subst hz
    refine ⟨0, _, hR, ?_, smul_zero _, fun k => ?_⟩
    · rw [toAffine_zero rfl]
      exact ARep.identity
    · rw [smul_zero]
      have := mul_zero_triple (Fp.toRepr k)
      exact this ▸ ARep.identity
  · obtain ⟨A, B, -, -, hP, hr⟩ := h1 fun r hr => ⟨fun e => hk ⟨r, hr, .inl e⟩, fun e => hk ⟨r, hr, .inr e⟩⟩
    exact ⟨_, R, hR, hP.toAffine, hr, fun k => (C23_mul Bls12381.g1_good hP ARep.identity k).1.toAffine⟩

/-- No point of the group has first coordinate zero. -/
theorem bls_x_ne {A : Aff Bls12381.Fq} {P : Pt Bls12381.g1} (hA : ARep Bls12381.g1 A P) (hP : blsR • P = 0) (h0 : P ≠ 0) : A.x ≠ 0 := by
  rcases P with _ | ⟨x, y, h⟩
  · exact absurd rfl h0
  · intro hx
    have hx' : x = 0 := hA.1.symm.trans hx
    subst hx'
    have h3 := three_smul_of_x (b := Bls12381.g1.b) (y := y) h
    have h4 := Nat.dvd_gcd (addOrderOf_dvd_of_nsmul_eq_zero h3) (addOrderOf_dvd_of_nsmul_eq_zero hP)
    rw [show Nat.gcd 3 blsR = 1 by decide +kernel, Nat.dvd_one, AddMonoid.addOrderOf_eq_one_iff] at h4
    exact h0 h4

/-- Hence every point of the group round-trips in compressed form. -/
theorem bls_roundTrip {A : Aff Bls12381.Fq} {P : Pt Bls12381.g1} (hA : ARep Bls12381.g1 A P) (hP : blsR • P = 0) :
    RoundTripAt Bls12381.g1Codec Bls12381.g1 A := by
  rcases eq_or_ne P 0 with rfl | h0
  · rw [(hA.ext_iff Bls12381.g1_good ARep.identity).mpr rfl]
    exact C26_others_partial.2.2.2.2.2.2.1
  · exact C26_others_partial.2.1 A ((Aff.valid_iff Bls12381.g1_good A).mp ⟨P, hA⟩) (bls_x_ne hA hP h0)

theorem blsSuite_ok (D : Digest) (hD : D.Ok) (h32 : D.outputSize = 32) (checks : Bool) (pre domain : List ℕ)
    (hl : pre.length + domain.length < 256) : (blsSuite D checks pre domain).Ok blsR where
  good1 := Bls12381.g1_good
  good2 := Bls12381.g2_good
  law2 := Bls12381.g2Codec_lawful
  free1 := C41_free.2.2.1
  free2 := C41_free.2.2.2
  sound := C27_full.2.2.1
  round _ _ hA hP := bls_roundTrip hA hP
  gen := by
    obtain ⟨-, -, -, -, -, -, -, -, -, -, o⟩ := C44_orders
    exact o.gen
  claim := C49_bls12381
  check := C64_bls12381.signature
  inj p p' hp hp' := C64_bls12381.left_inj p p' Bls12381.g2Gen hp hp' ⟨_, Bls12381.g2Gen_rep, Bls12381.g2Pt_r⟩ (by
    rw [← Bool.not_eq_true, Bls12381.g2Gen_rep.isIdentity Bls12381.g2_good]
    exact Bls12381.g2Pt_ne)
  hash msg := blsSuite_hash D hD h32 checks pre domain msg hl

/-- **C82** bls12381, with any digest of 32 bytes and any admissible domain. -/
theorem C82_bls12381 (D : Digest) (hD : D.Ok) (h32 : D.outputSize = 32) (checks : Bool) (pre domain : List ℕ)
    (hl : pre.length + domain.length < 256) : (blsSuite D checks pre domain).Claim blsR 192 48 := by
  have h := SigSuite.claim_of (blsSuite_ok D hD h32 checks pre domain hl)
  rwa [show 2 * (blsSuite D checks pre domain).d2.size = 192 from by change 2 * Bls12381.g2Codec.size = 192; decide +kernel,
    show (blsSuite D checks pre domain).d1.compressedSize = 48 from by change Bls12381.g1Codec.compressedSize = 48; decide +kernel] at h

/-- A digest, a domain, a key and a message that meet the hypotheses. -/
example : ∃ sig, (blsSuite pad32 true [65] [66, 67]).sign (7 : Fp blsR) [1, 2, 3] = .ok sig ∧ sig.length = 48 ∧
    (blsSuite pad32 true [65] [66, 67]).verify ((blsSuite pad32 true [65] [66, 67]).key (7 : Fp blsR)) [1, 2, 3] sig = .ok true := by
  obtain ⟨sig, h1, h2, h3, h4⟩ := (C82_bls12381 pad32 pad32_ok rfl true [65] [66, 67] (by decide)).exact 7 [1, 2, 3]
  exact ⟨sig, h1, h2, by rw [h4 sig h2 h3, decide_eq_true rfl]⟩

end Halo2.Props
