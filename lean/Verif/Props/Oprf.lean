import Verif.Props.Schnorr
import Verif.Props.HashCurve
import Verif.Props.Select

/-!
# Property C104: oblivious pseudorandom functions with the library

The verifiable oblivious function of RFC 9497 as a client of the library: the holder of an input hashes it to the curve and multiplies it
with a random scalar, the holder of the key multiplies what it reads and proves that it used its key, the first one checks the proof and
takes the random scalar away with `invert`. No such program is in the repository; the functions below stand for the client.
-/

set_option linter.unusedSectionVars false

namespace Halo2.Props

open Halo2 Halo2.Field Halo2.Prime Halo2.Curve Halo2.Msm Halo2.Hash Halo2.Ext

section Client

variable {q n : ℕ} [Fact q.Prime] [Fact (OddModulus q)] [Fp.SmallModulus q] [Fact n.Prime] [Fact (OddModulus n)] [Fp.SmallModulus n]
variable (K : Codec (Fp q)) (C : Params (Fp q)) (G : Aff (Fp q))

/-- The first message: the hash of the input times the random scalar `r`. An input with the identity as its hash is refused. -/
def oprfBlind (hash : List ℕ → Option (Proj (Fp q))) (r : Fp n) (input : List ℕ) : Outcome (Option (List ℕ)) :=
  match hash input with
  | none => .panic
  | some P =>
    if P.isIdentity then .ok none
    else
      match K.encodeProj C (Proj.mul C P (Fp.toRepr r)) with
      | .ok b => .ok (some b)
      | .panic => .panic

/-- Reading a point that must not be the identity. -/
def oprfRead (b : List ℕ) : Outcome (Option (Aff (Fp q))) :=
  match K.decode C b with
  | .ok (some A) => if A.isIdentity then .ok none else .ok (some A)
  | x => x

/-- The challenge of the proof. -/
def oprfChallenge (H : List ℕ → List ℕ) (pkb mb zb t2 t3 : List ℕ) : Fp n := Fp.fromUniform (H (pkb ++ mb ++ zb ++ t2 ++ t3))

/-- The answer to the first message `mb` with the key `k` and the random scalar `t` of the proof: `M * k` and the scalars of the proof. -/
def oprfEvaluate (H : List ℕ → List ℕ) (k t : Fp n) (mb : List ℕ) : Outcome (Option (List ℕ × List ℕ)) :=
  match oprfRead K C mb with
  | .panic => .panic
  | .ok none => .ok none
  | .ok (some M) =>
    match K.encodeProj C (Aff.mul C G (Fp.toRepr k)), K.encodeProj C (Aff.mul C M (Fp.toRepr k)), K.encodeProj C (Aff.mul C G (Fp.toRepr t)),
      K.encodeProj C (Aff.mul C M (Fp.toRepr t)) with
    | .ok pkb, .ok zb, .ok t2, .ok t3 =>
      let c : Fp n := oprfChallenge H pkb mb zb t2 t3
      .ok (some (zb, Fp.toRepr c ++ Fp.toRepr (t - c * k)))
    | _, _, _, _ => .panic

/-- `A * s + B * c`. -/
def oprfCommit (A B : Aff (Fp q)) (c s : Fp n) : Proj (Fp q) := Proj.add C (Aff.mul C A (Fp.toRepr s)) (Aff.mul C B (Fp.toRepr c))

/-- The check of the proof that `zb` is the answer to `mb` with the key of `pkb`. -/
def oprfVerify (n : ℕ) [Fact n.Prime] [Fact (OddModulus n)] [Fp.SmallModulus n] (H : List ℕ → List ℕ) (pkb mb zb proof : List ℕ) : Outcome Bool :=
  match K.decode C pkb, oprfRead K C mb, oprfRead K C zb with
  | .ok (some pk), .ok (some M), .ok (some Z) =>
    match (Fp.fromRepr (proof.take (8 * numLimbs n)) : Option (Fp n)), (Fp.fromRepr (proof.drop (8 * numLimbs n)) : Option (Fp n)) with
    | some c, some s =>
      match K.encodeProj C (oprfCommit C G pk c s), K.encodeProj C (oprfCommit C M Z c s) with
      | .ok t2, .ok t3 => .ok (Fp.ctEq c (oprfChallenge H pkb mb zb t2 t3))
      | _, _ => .panic
    | _, _ => .ok false
  | .ok _, .ok _, .ok _ => .ok false
  | _, _, _ => .panic

/-- The value of the function from the answer: the random scalar is taken away. -/
def oprfFinalize (r : Fp n) (zb : List ℕ) : Outcome (Option (List ℕ)) :=
  match oprfRead K C zb, Fp.invert r with
  | .ok (some Z), some i =>
    match K.encodeProj C (Aff.mul C Z (Fp.toRepr i)) with
    | .ok b => .ok (some b)
    | .panic => .panic
  | .ok _, _ => .ok none
  | .panic, _ => .panic

/-- The value of the function for whoever has the key. -/
def oprfValue (hash : List ℕ → Option (Proj (Fp q))) (k : Fp n) (input : List ℕ) : Outcome (List ℕ) :=
  match hash input with
  | none => .panic
  | some P => K.encodeProj C (Proj.mul C P (Fp.toRepr k))

end Client

section Spec

variable {q n : ℕ} [Fact q.Prime] [Fact (OddModulus q)] [Fp.SmallModulus q] [Fact n.Prime] [Fact (OddModulus n)] [Fp.SmallModulus n]
variable {K : Codec (Fp q)} {C : Params (Fp q)} {G : Aff (Fp q)}

/-- Points and strings by their scalars. -/
structure PtTable (K : Codec (Fp q)) (C : Params (Fp q)) (G : Aff (Fp q)) (n : ℕ) [Fact n.Prime] [Fact (OddModulus n)] [Fp.SmallModulus n]
    (g : Pt C) (enc : Fp n → List ℕ) (P : Fp n → Aff (Fp q)) : Prop where
  gen : ARep C G g
  order : addOrderOf g = n
  zero : n • g = 0
  all : ∀ p : Pt C, ∃ k : Fp n, p = Fp.toNat k • g
  rep : ∀ k, ARep C (P k) (Fp.toNat k • g)
  encode : ∀ A k, PRep C A (Fp.toNat k • g) → K.encodeProj C A = .ok (enc k)
  form : ∀ k, (enc k).length = K.compressedSize ∧ IsBytes (enc k)
  decode : ∀ k, K.decode C (enc k) = .ok (some (P k))
  onto : ∀ b, b.length = K.compressedSize → IsBytes b → K.decode C b = .ok none ∨ ∃ k, b = enc k

theorem SchnorrCurve.table (S : SchnorrCurve K C G n) : ∃ (g : Pt C) (enc : Fp n → List ℕ) (P : Fp n → Aff (Fp q)), PtTable K C G n g enc P := by
  obtain ⟨g, hG, ho, hn, hall⟩ := S.exists_gen
  have h1 : ∀ k : Fp n, ∃ b A, K.encodeProj C (Aff.mul C G (Fp.toRepr k)) = .ok b ∧ b.length = K.compressedSize ∧ IsBytes b ∧
      K.decode C b = .ok (some A) ∧ ARep C A (Fp.toNat k • g) := S.encode_mul hG
  choose enc P h1 using h1
  have he : ∀ A k, PRep C A (Fp.toNat k • g) → K.encodeProj C A = .ok (enc k) := by
    intro A k hA
    rw [← (h1 k).1, Codec.encodeProj, Codec.encodeProj, (hA.toAffine.ext_iff S.good (C23_mul S.good PRep.identity hG k).2.toAffine).mpr rfl]
  refine ⟨g, enc, P, hG, ho, hn, hall, fun k => (h1 k).2.2.2.2, he, fun k => ⟨(h1 k).2.1, (h1 k).2.2.1⟩, fun k => (h1 k).2.2.2.1, fun b hl hb => ?_⟩
  obtain ⟨r, e⟩ := S.decode_ok hl hb
  cases r with
  | none => exact Or.inl e
  | some A =>
    obtain ⟨k, _, hk⟩ := S.decode_mul hG hall hl hb e
    rw [(h1 k).1] at hk
    exact Or.inr ⟨k, (Outcome.ok.inj hk).symm⟩

namespace PtTable

variable {g : Pt C} {enc : Fp n → List ℕ} {P : Fp n → Aff (Fp q)} (T : PtTable K C G n g enc P) (hC : Good C)
include T

include hC in
theorem enc_inj {a b : Fp n} (h : enc a = enc b) : a = b := by
  have h1 := T.decode a
  rw [h, T.decode b] at h1
  have h2 := T.rep a
  rw [← Option.some.inj (Outcome.ok.inj h1)] at h2
  exact smul_toNat_inj T.order (h2.unique hC (T.rep b))

theorem smul_zero_iff {a : Fp n} : Fp.toNat a • g = 0 ↔ a = 0 := by
  constructor
  · intro h
    exact smul_toNat_inj T.order (b := 0) (by rw [h, Fp.toNat_zero, zero_smul])
  · rintro rfl; rw [Fp.toNat_zero, zero_smul]

theorem smul_smul' (a s : Fp n) : Fp.toNat s • (Fp.toNat a • g) = Fp.toNat (a * s) • g := by
  have h := lin_toNat T.zero 0 s a
  rw [Fp.toNat_zero, zero_smul, zero_add, zero_add, mul_comm] at h
  exact h

include hC

theorem read_enc (k : Fp n) : oprfRead K C (enc k) = .ok (if k = 0 then none else some (P k)) := by
  rw [oprfRead, T.decode]
  dsimp only
  have h := (T.rep k).isIdentity hC
  rw [T.smul_zero_iff] at h
  by_cases h0 : k = 0
  · rw [if_pos (h.mpr h0), if_pos h0]
  · rw [if_neg (fun e => h0 (h.mp e)), if_neg h0]

theorem mul_enc (a s : Fp n) : K.encodeProj C (Aff.mul C (P a) (Fp.toRepr s)) = .ok (enc (a * s)) := by
  refine T.encode _ _ ?_
  rw [← T.smul_smul']
  exact (C23_mul hC PRep.identity (T.rep a) s).2

theorem gen_enc (s : Fp n) : K.encodeProj C (Aff.mul C G (Fp.toRepr s)) = .ok (enc s) :=
  T.encode _ _ (C23_mul hC PRep.identity T.gen s).2

theorem pmul_enc {A : Proj (Fp q)} {a : Fp n} (hA : PRep C A (Fp.toNat a • g)) (s : Fp n) :
    K.encodeProj C (Proj.mul C A (Fp.toRepr s)) = .ok (enc (a * s)) := by
  refine T.encode _ _ ?_
  rw [← T.smul_smul']
  exact (C23_mul hC hA T.gen s).1

theorem commit_enc (a b c s : Fp n) : K.encodeProj C (oprfCommit C (P a) (P b) c s) = .ok (enc (a * s + b * c)) := by
  refine T.encode _ _ ?_
  have h := ((C23_mul hC PRep.identity (T.rep a) s).2).add hC (C23_mul hC PRep.identity (T.rep b) c).2
  rw [T.smul_smul', lin_toNat T.zero, mul_comm c] at h
  exact h

theorem gen_commit_enc (b c s : Fp n) : K.encodeProj C (oprfCommit C G (P b) c s) = .ok (enc (s + b * c)) := by
  refine T.encode _ _ ?_
  have h := ((C23_mul hC PRep.identity T.gen s).2).add hC (C23_mul hC PRep.identity (T.rep b) c).2
  rw [lin_toNat T.zero, mul_comm c] at h
  exact h

end PtTable

variable (S : SchnorrCurve K C G n)
include S

/-- **C104** The first message: an input is refused exactly when its hash is the identity, and otherwise every string that is read as a
point other than the identity is the first message for exactly one random scalar other than zero, whatever the input is. -/
theorem C104_blind {hash : List ℕ → Option (Proj (Fp q))} (input : List ℕ) {Q : Proj (Fp q)} {x : Pt C} (hQ : hash input = some Q)
    (hx : PRep C Q x) :
    (∀ r : Fp n, oprfBlind K C hash r input = .ok none ↔ Q.isIdentity = true) ∧
    (Q.isIdentity = false →
      (∀ r : Fp n, ∃ mb, oprfBlind K C hash r input = .ok (some mb) ∧ mb.length = K.compressedSize ∧ IsBytes mb) ∧
      ∀ mb M, mb.length = K.compressedSize → IsBytes mb → oprfRead K C mb = .ok (some M) →
        ∃! r : Fp n, r ≠ 0 ∧ oprfBlind K C hash r input = .ok (some mb)) := by
  obtain ⟨g, enc, P, T⟩ := S.table
  obtain ⟨a, rfl⟩ := T.all x
  have hi := hx.isIdentity
  rw [T.smul_zero_iff] at hi
  have hb : ∀ r : Fp n, oprfBlind K C hash r input = if Q.isIdentity = true then .ok none else .ok (some (enc (a * r))) := by
    intro r
    rw [oprfBlind, hQ]
    dsimp only
    rw [T.pmul_enc S.good hx]
  refine ⟨fun r => ?_, fun h0 => ?_⟩
  · rw [hb]
    split_ifs with h
    · exact ⟨fun _ => h, fun _ => rfl⟩
    · exact ⟨(fun e => nomatch Outcome.ok.inj e), fun e => absurd e h⟩
  · have hn : ¬ Q.isIdentity = true := by rw [h0]; exact Bool.false_ne_true
    have ha : a ≠ 0 := fun e => hn (hi.mpr e)
    refine ⟨fun r => ⟨_, by rw [hb, if_neg hn], (T.form _).1, (T.form _).2⟩, fun mb M hl hbb hM => ?_⟩
    rcases T.onto mb hl hbb with h | ⟨m, rfl⟩
    · rw [oprfRead, h] at hM; cases hM
    · rw [T.read_enc S.good] at hM
      have hm : m ≠ 0 := by
        rintro rfl
        rw [if_pos rfl] at hM
        cases hM
      refine ⟨a⁻¹ * m, ⟨mul_ne_zero (inv_ne_zero ha) hm, by rw [hb, if_neg hn, mul_inv_cancel_left₀ ha]⟩, ?_⟩
      rintro r ⟨-, hr⟩
      rw [hb, if_neg hn] at hr
      have := T.enc_inj S.good (Option.some.inj (Outcome.ok.inj hr))
      rw [← this, inv_mul_cancel_left₀ ha]

/-- **C104** A run: the answer is accepted, and taking the random scalar away gives the value of the function, whatever the random
scalars are. -/
theorem C104_run {hash : List ℕ → Option (Proj (Fp q))} (input : List ℕ) {Q : Proj (Fp q)} {x : Pt C} (hQ : hash input = some Q)
    (hx : PRep C Q x) (h0 : Q.isIdentity = false) (H : List ℕ → List ℕ) (k t r : Fp n) (hk : k ≠ 0) (hr : r ≠ 0) :
    ∃ pkb mb zb proof out, schnorrKey K C G k = .ok pkb ∧ oprfBlind K C hash r input = .ok (some mb) ∧
      oprfEvaluate K C G H k t mb = .ok (some (zb, proof)) ∧ oprfVerify K C G n H pkb mb zb proof = .ok true ∧
      oprfFinalize K C r zb = .ok (some out) ∧ oprfValue K C hash k input = .ok out := by
  obtain ⟨g, enc, P, T⟩ := S.table
  obtain ⟨a, rfl⟩ := T.all x
  have hi := hx.isIdentity
  rw [T.smul_zero_iff] at hi
  have ha : a ≠ 0 := fun e => by rw [hi.mpr e] at h0; cases h0
  have hm : a * r ≠ 0 := mul_ne_zero ha hr
  have hz : a * r * k ≠ 0 := mul_ne_zero hm hk
  have e1 : oprfBlind K C hash r input = .ok (some (enc (a * r))) := by
    rw [oprfBlind, hQ]
    dsimp only
    rw [T.pmul_enc S.good hx, h0, if_neg Bool.false_ne_true]
  obtain ⟨c, e2⟩ : ∃ c : Fp n, c = oprfChallenge H (enc k) (enc (a * r)) (enc (a * r * k)) (enc t) (enc (a * r * t)) := ⟨_, rfl⟩
  refine ⟨enc k, enc (a * r), enc (a * r * k), Fp.toRepr c ++ Fp.toRepr (t - c * k), enc (a * k), T.gen_enc S.good k, e1, ?_, ?_, ?_,
    by rw [oprfValue, hQ]; exact T.pmul_enc S.good hx k⟩
  · rw [oprfEvaluate, T.read_enc S.good, if_neg hm]
    dsimp only
    rw [T.gen_enc S.good, T.gen_enc S.good, T.mul_enc S.good, T.mul_enc S.good]
    dsimp only
    rw [← e2]
  · rw [oprfVerify, T.decode, T.read_enc S.good, T.read_enc S.good, if_neg hm, if_neg hz]
    dsimp only
    rw [List.take_left' (toRepr_ok c).1, List.drop_left' (toRepr_ok c).1, (fromRepr_some_iff _ (toRepr_ok _).1 (toRepr_ok _).2 _).mpr rfl,
      (fromRepr_some_iff _ (toRepr_ok _).1 (toRepr_ok _).2 _).mpr rfl]
    dsimp only
    rw [T.gen_commit_enc S.good, T.commit_enc S.good, show t - c * k + k * c = t by ring, show a * r * (t - c * k) + a * r * k * c = a * r * t by ring]
    dsimp only
    rw [← e2, (Fp.ctEq_spec _ _).mpr rfl]
  · rw [oprfFinalize, T.read_enc S.good, if_neg hz, invert_eq, if_neg hr]
    dsimp only
    rw [T.mul_enc S.good, show a * r * k * r⁻¹ = a * k by field_simp]

/-- **C104** Nothing that is sent makes a reader panic. -/
theorem C104_total (H : List ℕ → List ℕ) (k t r : Fp n) (pkb mb zb proof : List ℕ) (hp : pkb.length = K.compressedSize) (hpb : IsBytes pkb)
    (hm : mb.length = K.compressedSize) (hmb : IsBytes mb) (hz : zb.length = K.compressedSize) (hzb : IsBytes zb) :
    (∃ d, oprfEvaluate K C G H k t mb = .ok d) ∧ (∃ d, oprfVerify K C G n H pkb mb zb proof = .ok d) ∧ ∃ d, oprfFinalize K C r zb = .ok d := by
  obtain ⟨g, enc, P, T⟩ := S.table
  have hr : ∀ b, b.length = K.compressedSize → IsBytes b → oprfRead K C b = .ok none ∨ ∃ m, b = enc m ∧ oprfRead K C b = .ok (some (P m)) := by
    intro b hl hb
    rcases T.onto b hl hb with h | ⟨m, rfl⟩
    · left; rw [oprfRead, h]
    · rw [T.read_enc S.good]
      by_cases h : m = 0
      · left; rw [if_pos h]
      · right; rw [if_neg h]; exact ⟨m, rfl, rfl⟩
  refine ⟨?_, ?_, ?_⟩
  · rcases hr mb hm hmb with h | ⟨m, rfl, h⟩
    · rw [oprfEvaluate, h]; exact ⟨_, rfl⟩
    · rw [oprfEvaluate, h]
      dsimp only
      rw [T.gen_enc S.good, T.gen_enc S.good, T.mul_enc S.good, T.mul_enc S.good]
      exact ⟨_, rfl⟩
  · rw [oprfVerify]
    rcases hr mb hm hmb with h | ⟨m, rfl, h⟩ <;> rcases hr zb hz hzb with h' | ⟨z, rfl, h'⟩ <;> rcases T.onto pkb hp hpb with h3 | ⟨y, rfl⟩ <;>
      rw [h, h'] <;> first | rw [h3] | rw [T.decode]
    all_goals first | exact ⟨_, rfl⟩ | skip
    dsimp only
    split
    · rw [T.gen_commit_enc S.good, T.commit_enc S.good]; exact ⟨_, rfl⟩
    · exact ⟨_, rfl⟩
  · rcases hr zb hz hzb with h | ⟨m, rfl, h⟩
    · rw [oprfFinalize, h]; exact ⟨_, rfl⟩
    · rw [oprfFinalize, h, invert_eq]
      by_cases h0 : r = 0
      · rw [if_pos h0]; exact ⟨_, rfl⟩
      · rw [if_neg h0]
        dsimp only
        rw [T.mul_enc S.good]; exact ⟨_, rfl⟩

/-- **C104** The answer is the only string from which the value of the function is found. -/
theorem C104_output {hash : List ℕ → Option (Proj (Fp q))} (input : List ℕ) {Q : Proj (Fp q)} {x : Pt C} (hQ : hash input = some Q)
    (hx : PRep C Q x) (H : List ℕ → List ℕ) (k t r : Fp n) (hk : k ≠ 0) (hr : r ≠ 0) (mb zb proof : List ℕ)
    (hm : oprfBlind K C hash r input = .ok (some mb)) (hz : oprfEvaluate K C G H k t mb = .ok (some (zb, proof)))
    (zb' : List ℕ) (hl : zb'.length = K.compressedSize) (hb : IsBytes zb') :
    (∃ out, oprfFinalize K C r zb' = .ok (some out) ∧ oprfValue K C hash k input = .ok out) ↔ zb' = zb := by
  obtain ⟨g, enc, P, T⟩ := S.table
  obtain ⟨a, rfl⟩ := T.all x
  have hi := hx.isIdentity
  rw [T.smul_zero_iff] at hi
  rw [oprfBlind, hQ] at hm
  dsimp only at hm
  rw [T.pmul_enc S.good hx] at hm
  dsimp only at hm
  have h0 : ¬ Q.isIdentity = true := by
    intro h
    rw [if_pos h] at hm
    cases hm
  rw [if_neg h0] at hm
  have ha : a ≠ 0 := fun e => h0 (hi.mpr e)
  have hm := Option.some.inj (Outcome.ok.inj hm)
  subst hm
  have hne : a * r * k ≠ 0 := mul_ne_zero (mul_ne_zero ha hr) hk
  rw [oprfEvaluate, T.read_enc S.good, if_neg (mul_ne_zero ha hr)] at hz
  dsimp only at hz
  rw [T.gen_enc S.good, T.gen_enc S.good, T.mul_enc S.good, T.mul_enc S.good] at hz
  have hz := (Prod.ext_iff.mp (Option.some.inj (Outcome.ok.inj hz))).1
  dsimp only at hz
  subst hz
  have hv : oprfValue K C hash k input = .ok (enc (a * k)) := by rw [oprfValue, hQ]; exact T.pmul_enc S.good hx k
  have hf : ∀ z : Fp n, z ≠ 0 → oprfFinalize K C r (enc z) = .ok (some (enc (z * r⁻¹))) := by
    intro z hz
    rw [oprfFinalize, T.read_enc S.good, if_neg hz, invert_eq, if_neg hr]
    dsimp only
    rw [T.mul_enc S.good]
  rw [hv]
  constructor
  · rintro ⟨out, h1, h2⟩
    have h2 := Outcome.ok.inj h2
    subst h2
    rcases T.onto zb' hl hb with h | ⟨z, rfl⟩
    · rw [oprfFinalize, oprfRead, h] at h1
      cases h1
    · by_cases h : z = 0
      · rw [oprfFinalize, T.read_enc S.good, if_pos h] at h1
        cases h1
      · rw [hf z h] at h1
        have := T.enc_inj S.good (Option.some.inj (Outcome.ok.inj h1))
        rw [mul_inv_eq_iff_eq_mul₀ hr] at this
        rw [this]
        congr 1
        ring
  · rintro rfl
    refine ⟨_, hf _ hne, ?_⟩
    rw [show a * r * k * r⁻¹ = a * k by field_simp]

/-- **C104** The proofs: for the right answer the accepted strings are exactly those that the holder of the key makes for some random
scalar. -/
theorem C104_proofs (H : List ℕ → List ℕ) (k t : Fp n) (hk : k ≠ 0) (pkb mb zb proof : List ℕ) (hp : schnorrKey K C G k = .ok pkb)
    (hml : mb.length = K.compressedSize) (hmb : IsBytes mb)
    (hz : oprfEvaluate K C G H k t mb = .ok (some (zb, proof))) (proof' : List ℕ) (hl : proof'.length = 8 * numLimbs n + 8 * numLimbs n)
    (hb : IsBytes proof') :
    oprfVerify K C G n H pkb mb zb proof' = .ok true ↔ ∃ t', oprfEvaluate K C G H k t' mb = .ok (some (zb, proof')) := by
  obtain ⟨g, enc, P, T⟩ := S.table
  rw [schnorrKey, T.gen_enc S.good] at hp
  have hp := Outcome.ok.inj hp
  subst hp
  obtain ⟨m, hm, rfl⟩ : ∃ m, m ≠ 0 ∧ mb = enc m := by
    rcases T.onto mb hml hmb with h | ⟨m, rfl⟩
    · rw [oprfEvaluate, oprfRead, h] at hz; cases hz
    · refine ⟨m, ?_, rfl⟩
      rintro rfl
      rw [oprfEvaluate, T.read_enc S.good, if_pos rfl] at hz
      cases hz
  have hev : ∀ t' : Fp n, oprfEvaluate K C G H k t' (enc m) = .ok (some (enc (m * k),
      Fp.toRepr (oprfChallenge H (enc k) (enc m) (enc (m * k)) (enc t') (enc (m * t')) : Fp n) ++
      Fp.toRepr (t' - (oprfChallenge H (enc k) (enc m) (enc (m * k)) (enc t') (enc (m * t')) : Fp n) * k))) := by
    intro t'
    rw [oprfEvaluate, T.read_enc S.good, if_neg hm]
    dsimp only
    rw [T.gen_enc S.good, T.gen_enc S.good, T.mul_enc S.good, T.mul_enc S.good]
  rw [hev] at hz
  have hz := (Prod.ext_iff.mp (Option.some.inj (Outcome.ok.inj hz))).1
  dsimp only at hz
  subst hz
  have t1 : (proof'.take (8 * numLimbs n)).length = 8 * numLimbs n := by rw [List.length_take]; omega
  have t2 : (proof'.drop (8 * numLimbs n)).length = 8 * numLimbs n := by rw [List.length_drop]; omega
  have b1 : IsBytes (proof'.take (8 * numLimbs n)) := fun x hx => hb x (List.mem_of_mem_take hx)
  have b2 : IsBytes (proof'.drop (8 * numLimbs n)) := fun x hx => hb x (List.mem_of_mem_drop hx)
  rw [oprfVerify, T.decode, T.read_enc S.good, T.read_enc S.good, if_neg hm, if_neg (mul_ne_zero hm hk)]
  dsimp only
  constructor
  · intro h
    cases hc : (Fp.fromRepr (proof'.take (8 * numLimbs n)) : Option (Fp n)) with
    | none => rw [hc] at h; cases h
    | some c =>
      cases hs : (Fp.fromRepr (proof'.drop (8 * numLimbs n)) : Option (Fp n)) with
      | none => rw [hc, hs] at h; cases h
      | some s =>
        rw [hc, hs] at h
        dsimp only at h
        rw [T.gen_commit_enc S.good, T.commit_enc S.good] at h
        have h := (Fp.ctEq_spec _ _).mp (Outcome.ok.inj h)
        refine ⟨s + k * c, ?_⟩
        rw [hev, show m * (s + k * c) = m * s + m * k * c by ring, ← h, show s + k * c - c * k = s by ring,
          ← (fromRepr_some_iff _ t1 b1 c).mp hc, ← (fromRepr_some_iff _ t2 b2 s).mp hs, List.take_append_drop]
  · rintro ⟨t', h⟩
    rw [hev] at h
    have h := (Prod.ext_iff.mp (Option.some.inj (Outcome.ok.inj h))).2
    dsimp only at h
    obtain ⟨c, e2⟩ : ∃ c : Fp n, c = oprfChallenge H (enc k) (enc m) (enc (m * k)) (enc t') (enc (m * t')) := ⟨_, rfl⟩
    rw [← e2] at h
    rw [← h, List.take_left' (toRepr_ok c).1, List.drop_left' (toRepr_ok c).1, (fromRepr_some_iff _ (toRepr_ok _).1 (toRepr_ok _).2 _).mpr rfl,
      (fromRepr_some_iff _ (toRepr_ok _).1 (toRepr_ok _).2 _).mpr rfl]
    dsimp only
    rw [T.gen_commit_enc S.good, T.commit_enc S.good, show t' - c * k + k * c = t' by ring, show m * (t' - c * k) + m * k * c = m * t' by ring]
    dsimp only
    rw [← e2, (Fp.ctEq_spec _ _).mpr rfl]

omit S in
/-- **C104** What is accepted: strings that are read as points, message and answer not the identity, and canonical scalars of which the
first one is the hash of the five strings. -/
theorem C104_accept (H : List ℕ → List ℕ) (pkb mb zb proof : List ℕ)
    (hl : proof.length = 8 * numLimbs n + 8 * numLimbs n) (hb : IsBytes proof) :
    oprfVerify K C G n H pkb mb zb proof = .ok true ↔
      ∃ (pk M Z : Aff (Fp q)) (c s : Fp n) (t2 t3 : List ℕ), K.decode C pkb = .ok (some pk) ∧ K.decode C mb = .ok (some M) ∧
        K.decode C zb = .ok (some Z) ∧ M.isIdentity = false ∧ Z.isIdentity = false ∧ proof = Fp.toRepr c ++ Fp.toRepr s ∧
        K.encodeProj C (Proj.add C (Aff.mul C G (Fp.toRepr s)) (Aff.mul C pk (Fp.toRepr c))) = .ok t2 ∧
        K.encodeProj C (Proj.add C (Aff.mul C M (Fp.toRepr s)) (Aff.mul C Z (Fp.toRepr c))) = .ok t3 ∧
        c = Fp.fromUniform (H (pkb ++ mb ++ zb ++ t2 ++ t3)) := by
  have t1 : (proof.take (8 * numLimbs n)).length = 8 * numLimbs n := by rw [List.length_take]; omega
  have t2 : (proof.drop (8 * numLimbs n)).length = 8 * numLimbs n := by rw [List.length_drop]; omega
  have b1 : IsBytes (proof.take (8 * numLimbs n)) := fun x hx => hb x (List.mem_of_mem_take hx)
  have b2 : IsBytes (proof.drop (8 * numLimbs n)) := fun x hx => hb x (List.mem_of_mem_drop hx)
  have rd : ∀ {b : List ℕ} {A : Aff (Fp q)}, oprfRead K C b = .ok (some A) ↔ K.decode C b = .ok (some A) ∧ A.isIdentity = false := by
    intro b A
    rw [oprfRead]
    split
    · rename_i B h
      rw [h]
      by_cases hi : B.isIdentity = true
      · rw [if_pos hi]
        refine ⟨(fun e => nomatch Outcome.ok.inj e), ?_⟩
        rintro ⟨e, hA⟩
        rw [← Option.some.inj (Outcome.ok.inj e), hi] at hA
        cases hA
      · rw [if_neg hi]
        refine ⟨fun e => ⟨e, ?_⟩, fun e => e.1⟩
        rw [← Option.some.inj (Outcome.ok.inj e)]
        exact Bool.eq_false_iff.mpr hi
    · rename_i h
      exact ⟨fun e => absurd e (h A), fun e => absurd e.1 (h A)⟩
  constructor
  · intro h
    rw [oprfVerify] at h
    split at h
    · rename_i pk M Z e1 e2 e3
      split at h
      · rename_i c s e4 e5
        split at h
        · rename_i u2 u3 e6 e7
          refine ⟨pk, M, Z, c, s, u2, u3, e1, (rd.mp e2).1, (rd.mp e3).1, (rd.mp e2).2, (rd.mp e3).2, ?_, e6, e7,
            (Fp.ctEq_spec _ _).mp (Outcome.ok.inj h)⟩
          rw [← (fromRepr_some_iff _ t1 b1 c).mp e4, ← (fromRepr_some_iff _ t2 b2 s).mp e5, List.take_append_drop]
        · cases h
      · cases h
    · cases h
    · cases h
  · rintro ⟨pk, M, Z, c, s, t2, t3, e1, e2, e3, i2, i3, rfl, e6, e7, e8⟩
    rw [oprfVerify, e1, rd.mpr ⟨e2, i2⟩, rd.mpr ⟨e3, i3⟩]
    dsimp only
    rw [List.take_left' (toRepr_ok c).1, List.drop_left' (toRepr_ok c).1, (fromRepr_some_iff _ (toRepr_ok _).1 (toRepr_ok _).2 _).mpr rfl,
      (fromRepr_some_iff _ (toRepr_ok _).1 (toRepr_ok _).2 _).mpr rfl]
    dsimp only
    rw [oprfCommit, oprfCommit, e6, e7]
    dsimp only
    rw [oprfChallenge, ← e8, (Fp.ctEq_spec _ _).mpr rfl]

/-- **C104** A wrong answer: if `zb` is not the answer with the key of `pkb`, then to any two strings `t2`, `t3` that go into the hash at
most one challenge and one scalar fit. -/
theorem C104_sound (k : Fp n) (pkb mb zb : List ℕ) (hp : schnorrKey K C G k = .ok pkb) (pk M Z : Aff (Fp q))
    (hml : mb.length = K.compressedSize) (hmb : IsBytes mb) (hzl : zb.length = K.compressedSize) (hzb : IsBytes zb)
    (hpk : K.decode C pkb = .ok (some pk)) (hM : oprfRead K C mb = .ok (some M)) (hZ : oprfRead K C zb = .ok (some Z))
    (hne : K.encodeProj C (Aff.mul C M (Fp.toRepr k)) ≠ .ok zb) (t2 t3 : List ℕ) (c s c' s' : Fp n)
    (h1 : K.encodeProj C (oprfCommit C G pk c s) = .ok t2) (h2 : K.encodeProj C (oprfCommit C M Z c s) = .ok t3)
    (h1' : K.encodeProj C (oprfCommit C G pk c' s') = .ok t2) (h2' : K.encodeProj C (oprfCommit C M Z c' s') = .ok t3) : c = c' ∧ s = s' := by
  obtain ⟨g, enc, P, T⟩ := S.table
  rw [schnorrKey, T.gen_enc S.good] at hp
  have hp := Outcome.ok.inj hp
  subst hp
  rw [T.decode] at hpk
  have hpk := Option.some.inj (Outcome.ok.inj hpk)
  subst hpk
  have rd : ∀ {b : List ℕ} {A : Aff (Fp q)}, b.length = K.compressedSize → IsBytes b → oprfRead K C b = .ok (some A) → ∃ m, b = enc m ∧ A = P m := by
    intro b A hl hb h
    rcases T.onto b hl hb with h' | ⟨m, rfl⟩
    · rw [oprfRead, h'] at h; cases h
    · rw [T.read_enc S.good] at h
      by_cases h0 : m = 0
      · rw [if_pos h0] at h; cases h
      · rw [if_neg h0] at h
        exact ⟨m, rfl, (Option.some.inj (Outcome.ok.inj h)).symm⟩
  obtain ⟨m, rfl, rfl⟩ := rd hml hmb hM
  obtain ⟨z, rfl, rfl⟩ := rd hzl hzb hZ
  rw [T.mul_enc S.good] at hne
  have hmk : m * k - z ≠ 0 := fun e => hne (by rw [sub_eq_zero.mp e])
  rw [T.gen_commit_enc S.good] at h1 h1'
  rw [T.commit_enc S.good] at h2 h2'
  have a1 := T.enc_inj S.good (Outcome.ok.inj (h1.trans h1'.symm))
  have a2 := T.enc_inj S.good (Outcome.ok.inj (h2.trans h2'.symm))
  have hc : c = c' := by
    refine sub_eq_zero.mp (mul_left_cancel₀ hmk (b := c - c') (c := 0) ?_)
    linear_combination m * a1 - a2
  subst hc
  exact ⟨rfl, add_right_cancel a1⟩

omit S in
/-- **C104** The suites: the hash of every input is a point, for every 32-byte hash function and tags of fewer than 256 bytes. -/
theorem C104_suites (D : Digest) (hD : D.Ok) (h32 : D.outputSize = 32) (checks : Bool) (pre domain : List ℕ)
    (hl : pre.length + domain.length < 256) (input : List ℕ) :
    (∃ Q x, hashToCurve Bn256.g1 D checks Fp.fromUniform 48 (svdwSuite Bn256.g1 (fpOps bnQ 3) 1) pre domain input = some Q ∧ PRep Bn256.g1 Q x) ∧
    (∃ Q x, hashToCurve Grumpkin.g1 D checks Fp.fromUniform 48 (svdwSuite Grumpkin.g1 (fpOps bnR 7) 1) pre domain input = some Q ∧
      PRep Grumpkin.g1 Q x) ∧
    (∃ Q x, hashToCurve Pluto.g1 D checks Fp.fromUniform 72 (svdwSuite Pluto.g1 (fpOps plP 10) 1) pre domain input = some Q ∧ PRep Pluto.g1 Q x) ∧
    (∃ Q x, hashToCurve Pluto.eris D checks Fp.fromUniform 72 (svdwSuite Pluto.eris (fpOps plQ 7) 1) pre domain input = some Q ∧
      PRep Pluto.eris Q x) ∧
    (∃ Q x, hashToCurve Secp256k1.c D checks Fp.fromUniform 48 k1Map pre domain input = some Q ∧ PRep Secp256k1.c Q x) ∧
    (∃ Q x, hashToCurve Secq256k1.c D checks Fp.fromUniform 48 (svdwSuite Secq256k1.c (fpOps k1N 7) 1) pre domain input = some Q ∧
      PRep Secq256k1.c Q x) := by
  obtain ⟨⟨_, _, a1⟩, ⟨_, _, a2⟩, ⟨_, _, a3⟩, ⟨_, _, a4⟩, ⟨_, _, a5⟩, _⟩ := C35_hash D hD h32
  obtain ⟨_, a6, _⟩ := C36_hash D hD h32
  obtain ⟨_, _, Q1, A1, B1, _, _, _, e1, r1⟩ := (a1 checks pre domain input).2 hl
  obtain ⟨_, _, Q2, A2, B2, _, _, _, e2, r2⟩ := (a2 checks pre domain input).2 hl
  obtain ⟨_, _, Q3, A3, B3, _, _, _, e3, r3⟩ := (a3 checks pre domain input).2 hl
  obtain ⟨_, _, Q4, A4, B4, _, _, _, e4, r4⟩ := (a4 checks pre domain input).2 hl
  obtain ⟨_, _, Q5, A5, B5, _, _, _, e5, r5⟩ := (a5 checks pre domain input).2 hl
  obtain ⟨_, _, Q6, A6, B6, _, _, _, e6, r6⟩ := (a6 checks pre domain input).2 hl
  exact ⟨⟨_, _, e1, r1⟩, ⟨_, _, e2, r2⟩, ⟨_, _, e3, r3⟩, ⟨_, _, e4, r4⟩, ⟨_, _, e6, r6⟩, ⟨_, _, e5, r5⟩⟩

/-- The hypotheses can be met: secp256k1 with the key 5, the generator as the hash of an input and the random scalars 7 and 9. -/
example (H : List ℕ → List ℕ) : ∃ pkb mb zb proof out, schnorrKey Secp256k1.cCodec Secp256k1.c Secp256k1.cGen (5 : Fp k1N) = .ok pkb ∧
    oprfBlind Secp256k1.cCodec Secp256k1.c (fun _ => some Secp256k1.cGen.toCurve) (9 : Fp k1N) [1] = .ok (some mb) ∧
    oprfEvaluate Secp256k1.cCodec Secp256k1.c Secp256k1.cGen H (5 : Fp k1N) 7 mb = .ok (some (zb, proof)) ∧
    oprfVerify Secp256k1.cCodec Secp256k1.c Secp256k1.cGen k1N H pkb mb zb proof = .ok true ∧
    oprfFinalize Secp256k1.cCodec Secp256k1.c (9 : Fp k1N) zb = .ok (some out) ∧
    oprfValue Secp256k1.cCodec Secp256k1.c (fun _ => some Secp256k1.cGen.toCurve) (5 : Fp k1N) [1] = .ok out := by
  have S := C102_curves.2.2.2.2.1
  obtain ⟨g, hG, ho, hn, -⟩ := S.exists_gen
  have hx := hG.toCurve S.good
  refine C104_run S (hash := fun _ => some Secp256k1.cGen.toCurve) [1] rfl hx ?_ H 5 7 9 (by decide +kernel) (by decide +kernel)
  rw [← Bool.not_eq_true, hx.isIdentity]
  rintro rfl
  rw [addOrderOf_zero] at ho
  exact (Fact.out : Nat.Prime k1N).one_lt.ne ho

end Spec

end Halo2.Props
