import Verif.Forms.Model
import Verif.Forms.Repr
import Verif.Props.ExtSum
import Verif.Props.Curve
import Verif.Props.LInt
import Verif.Props.Order
import Verif.Props.Pairing

/-!
# Properties C83 and C84: every way of writing an operation, and the byte arrays `Repr`
-/

set_option linter.unusedSectionVars false

namespace Halo2.Forms

/-- What is said of every form of a binary operator. -/
def Bin.All {A B O : Type} (b : Bin A B O) (P : (A → B → O) → Prop) : Prop := P b.rr ∧ P b.vr ∧ P b.rv ∧ P b.vv

/-- What is said of every form of an assigning operator. -/
def Asg.All {A B : Type} (b : Asg A B) (P : (A → B → A) → Prop) : Prop := P b.v ∧ P b.r

/-- What is said of both forms of a prefix operator. -/
def Un.All {A O : Type} (b : Un A O) (P : (A → O) → Prop) : Prop := P b.r ∧ P b.v

end Halo2.Forms

namespace Halo2.Props

open Halo2 Halo2.Field Halo2.Curve Halo2.Forms

/-- The operators of a type compute in the ring `R`, of which the values of the type are written by `φ`. -/
structure FieldSpec {F R : Type} [CommRing R] (φ : F → R) (T : FieldForms F) : Prop where
  neg : T.neg.All fun f => ∀ a, φ (f a) = -φ a
  add : T.add.All fun f => ∀ a b, φ (f a b) = φ a + φ b
  sub : T.sub.All fun f => ∀ a b, φ (f a b) = φ a - φ b
  mul : T.mul.All fun f => ∀ a b, φ (f a b) = φ a * φ b
  addAsg : T.addAsg.All fun f => ∀ a b, φ (f a b) = φ a + φ b
  subAsg : T.subAsg.All fun f => ∀ a b, φ (f a b) = φ a - φ b
  mulAsg : T.mulAsg.All fun f => ∀ a b, φ (f a b) = φ a * φ b

/-- The operators and conversions of the points of `C` compute in the group of points of the curve. -/
structure PointSpec {F : Type} [_root_.Field F] [DecidableEq F] [BaseField F] [LawfulBase F] (C : Params F) (r : ℕ) [Fact (OddModulus r)]
    (T : PointForms F (Fp r)) : Prop where
  negP : T.negP.All fun f => ∀ P p, PRep C P p → PRep C (f P) (-p)
  negA : T.negA.All fun f => ∀ A a, ARep C A a → ARep C (f A) (-a)
  addPP : T.addPP.All fun f => ∀ P p Q q, PRep C P p → PRep C Q q → PRep C (f P Q) (p + q)
  subPP : T.subPP.All fun f => ∀ P p Q q, PRep C P p → PRep C Q q → PRep C (f P Q) (p - q)
  addPA : T.addPA.All fun f => ∀ P p A a, PRep C P p → ARep C A a → PRep C (f P A) (p + a)
  subPA : T.subPA.All fun f => ∀ P p A a, PRep C P p → ARep C A a → PRep C (f P A) (p - a)
  addAA : T.addAA.All fun f => ∀ A a B b, ARep C A a → ARep C B b → PRep C (f A B) (a + b)
  subAA : T.subAA.All fun f => ∀ A a B b, ARep C A a → ARep C B b → PRep C (f A B) (a - b)
  addAP : T.addAP.All fun f => ∀ A a P p, ARep C A a → PRep C P p → PRep C (f A P) (a + p)
  subAP : T.subAP.All fun f => ∀ A a P p, ARep C A a → PRep C P p → PRep C (f A P) (a - p)
  addAsgPP : T.addAsgPP.All fun f => ∀ P p Q q, PRep C P p → PRep C Q q → PRep C (f P Q) (p + q)
  subAsgPP : T.subAsgPP.All fun f => ∀ P p Q q, PRep C P p → PRep C Q q → PRep C (f P Q) (p - q)
  addAsgPA : T.addAsgPA.All fun f => ∀ P p A a, PRep C P p → ARep C A a → PRep C (f P A) (p + a)
  subAsgPA : T.subAsgPA.All fun f => ∀ P p A a, PRep C P p → ARep C A a → PRep C (f P A) (p - a)
  mulP : T.mulP.All fun f => ∀ P p s, PRep C P p → PRep C (f P s) (Fp.toNat s • p)
  mulAsgP : T.mulAsgP.All fun f => ∀ P p s, PRep C P p → PRep C (f P s) (Fp.toNat s • p)
  mulA : T.mulA.All fun f => ∀ A a s, ARep C A a → PRep C (f A s) (Fp.toNat s • a)
  toProj : T.toProj.All fun f => ∀ A a, ARep C A a → PRep C (f A) a
  toAff : T.toAff.All fun f => ∀ P p, PRep C P p → ARep C (f P) p
  defaultP : PRep C T.defaultP 0
  defaultA : ARep C T.defaultA 0

/-- The operators of a target group compute in the group of elements of order dividing `r`. -/
structure GtSpec {T : Type} [_root_.Field T] (r : ℕ) [Fact (OddModulus r)] (G : GtForms T (Fp r)) : Prop where
  neg : G.neg.All fun f => ∀ a, a ^ r = 1 → f a = a⁻¹
  add : G.add.All fun f => ∀ a b, f a b = a * b
  sub : G.sub.All fun f => ∀ a b, b ^ r = 1 → f a b = a / b
  addAsg : G.addAsg.All fun f => ∀ a b, f a b = a * b
  subAsg : G.subAsg.All fun f => ∀ a b, b ^ r = 1 → f a b = a / b
  mul : G.mul.All fun f => ∀ a s, f a s = a ^ Fp.toNat s
  mulAsg : G.mulAsg.All fun f => ∀ a s, f a s = a ^ Fp.toNat s

/-- The operators of `LInt<L>` compute with integers reduced into the range of the type. -/
structure LIntSpec (L : ℕ) (T : IntForms) : Prop where
  neg : T.neg.All fun f => ∀ x, IsLInt L x → IsLInt L (f x) ∧ sval L (f x) = wrap L (-sval L x)
  add : ∀ f ∈ [T.addRR, T.addVR, T.addVV], ∀ x y, IsLInt L x → IsLInt L y →
    IsLInt L (f x y) ∧ sval L (f x y) = wrap L (sval L x + sval L y)
  sub : ∀ f ∈ [T.subRR, T.subVR, T.subVV], ∀ x y, IsLInt L x → IsLInt L y →
    IsLInt L (f x y) ∧ sval L (f x y) = wrap L (sval L x - sval L y)
  mul : ∀ f ∈ [T.mulRR, T.mulVR, T.mulVV], ∀ x y, IsLInt L x → IsLInt L y →
    IsLInt L (f x y) ∧ sval L (f x y) = wrap L (sval L x * sval L y)
  mulI : ∀ f ∈ [T.mulRI, T.mulVI], ∀ x o, IsLInt L x → -2 ^ 63 ≤ o → o < 2 ^ 63 →
    IsLInt L (f x o) ∧ sval L (f x o) = wrap L (sval L x * o)
  iMul : ∀ f ∈ [T.mulIR, T.mulIV], ∀ x o, IsLInt L x → -2 ^ 63 ≤ o → o < 2 ^ 63 →
    IsLInt L (f o x) ∧ sval L (f o x) = wrap L (o * sval L x)
  shr : ∀ f ∈ [T.shrR, T.shrV], ∀ x b, IsLInt L x → 1 ≤ b → b ≤ 63 →
    IsLInt L (f x b) ∧ sval L (f x b) = Int.fdiv (sval L x) (2 ^ b)

/-- **C83** Prime fields: every form of every operator computes in `ZMod p`. -/
theorem C83_fields (p : ℕ) [Fact (OddModulus p)] : FieldSpec (Fp.toZMod (p := p)) fieldForms where
  neg := ⟨fun a => Fp.toZMod_neg a, fun a => Fp.toZMod_neg a⟩
  add := ⟨Fp.toZMod_add, Fp.toZMod_add, Fp.toZMod_add, Fp.toZMod_add⟩
  sub := ⟨Fp.toZMod_sub, Fp.toZMod_sub, Fp.toZMod_sub, Fp.toZMod_sub⟩
  mul := ⟨Fp.toZMod_mul, Fp.toZMod_mul, Fp.toZMod_mul, Fp.toZMod_mul⟩
  addAsg := ⟨Fp.toZMod_add, Fp.toZMod_add⟩
  subAsg := ⟨Fp.toZMod_sub, Fp.toZMod_sub⟩
  mulAsg := ⟨Fp.toZMod_mul, Fp.toZMod_mul⟩

open Polynomial Halo2.Ext ExtField in
/-- **C83** Extension fields: every form computes in `F[X]/(X² - NON_RESIDUE)` and `F[X]/(X³ - NON_RESIDUE)`. -/
theorem C83_towers {F : Type} [CommRing F] [ExtField F] [LawfulExt F] [Nontrivial F] :
    (∃ φ : Quad F → AdjoinRoot (X ^ 2 - C (nonRes : F)), Function.Bijective φ ∧
      (∀ x, φ x = AdjoinRoot.of _ x.c0 + AdjoinRoot.of _ x.c1 * AdjoinRoot.root _) ∧ FieldSpec φ fieldForms) ∧
    (∃ φ : Halo2.Ext.Cubic F → AdjoinRoot (X ^ 3 - C (nonRes : F)), Function.Bijective φ ∧
      (∀ x, φ x = AdjoinRoot.of _ x.c0 + AdjoinRoot.of _ x.c1 * AdjoinRoot.root _ + AdjoinRoot.of _ x.c2 * AdjoinRoot.root _ ^ 2) ∧
      FieldSpec φ fieldForms) := by
  obtain ⟨φ, hb, hf, -, -, ha, hs, hn, -, hm, -⟩ := C13_quotient_ring (F := F)
  obtain ⟨ψ, kb, kf, -, -, ka, ks, kn, -, km, -⟩ := C14_quotient_ring (F := F)
  exact ⟨⟨φ, hb, hf, ⟨hn, hn⟩, ⟨ha, ha, ha, ha⟩, ⟨hs, hs, hs, hs⟩, ⟨hm, hm, hm, hm⟩, ⟨ha, ha⟩, ⟨hs, hs⟩, ⟨hm, hm⟩⟩,
    ⟨ψ, kb, kf, ⟨kn, kn⟩, ⟨ka, ka, ka, ka⟩, ⟨ks, ks, ks, ks⟩, ⟨km, km, km, km⟩, ⟨ka, ka⟩, ⟨ks, ks⟩, ⟨km, km⟩⟩⟩

/-- **C83** Points, on every curve of the library (`Good`) with every scalar field of the library. -/
theorem C83_points {F : Type} [_root_.Field F] [DecidableEq F] [BaseField F] [LawfulBase F] {C : Params F} (hC : Good C) (r : ℕ)
    [Fact (OddModulus r)] : PointSpec C r (pointForms C r) := by
  have i0 : PRep C Proj.identity 0 := .identity
  have j0 : ARep C Aff.identity 0 := .identity
  have hneg : ∀ P p, PRep C P p → PRep C (Proj.neg P) (-p) := fun _ _ h => (C21_group_law hC h i0 j0 j0).2.2.1
  have hnegA : ∀ A a, ARep C A a → ARep C (Aff.neg A) (-a) :=
    fun _ _ h => (C21_group_law hC i0 i0 h j0).2.2.2.2.2.2.2.2.2.2.1
  have hadd : ∀ P p Q q, PRep C P p → PRep C Q q → PRep C (Proj.add C P Q) (p + q) :=
    fun _ _ _ _ h k => (C21_group_law hC h k j0 j0).1
  have hsub : ∀ P p Q q, PRep C P p → PRep C Q q → PRep C (Proj.sub C P Q) (p - q) :=
    fun _ _ _ _ h k => (C21_group_law hC h k j0 j0).2.2.2.1
  have haddM : ∀ P p A a, PRep C P p → ARep C A a → PRep C (Proj.addMixed C P A) (p + a) :=
    fun _ _ _ _ h k => (C21_group_law hC h i0 k j0).2.2.2.2.1
  have hsubM : ∀ P p A a, PRep C P p → ARep C A a → PRep C (Proj.subMixed C P A) (p - a) :=
    fun _ _ _ _ h k => (C21_group_law hC h i0 k j0).2.2.2.2.2.1
  have haddAP : ∀ A a P p, ARep C A a → PRep C P p → PRep C (Aff.addProj C A P) (a + p) :=
    fun _ _ _ _ k h => (C21_group_law hC h i0 k j0).2.2.2.2.2.2.1
  have hsubAP : ∀ A a P p, ARep C A a → PRep C P p → PRep C (Aff.subProj C A P) (a - p) :=
    fun _ _ _ _ k h => (C21_group_law hC h i0 k j0).2.2.2.2.2.2.2.1
  have haddA : ∀ A a B b, ARep C A a → ARep C B b → PRep C (Aff.add C A B) (a + b) :=
    fun _ _ _ _ h k => (C21_group_law hC i0 i0 h k).2.2.2.2.2.2.2.2.1
  have hsubA : ∀ A a B b, ARep C A a → ARep C B b → PRep C (Aff.sub C A B) (a - b) :=
    fun _ _ _ _ h k => (C21_group_law hC i0 i0 h k).2.2.2.2.2.2.2.2.2.1
  have hmul : ∀ P p (s : Fp r), PRep C P p → PRep C (Proj.mul C P (Fp.toRepr s)) (Fp.toNat s • p) :=
    fun _ _ s h => (C23_mul hC h j0 s).1
  have hmulA : ∀ A a (s : Fp r), ARep C A a → PRep C (Aff.mul C A (Fp.toRepr s)) (Fp.toNat s • a) :=
    fun _ _ s h => (C23_mul hC i0 h s).2
  have htp : ∀ A a, ARep C A a → PRep C (Aff.toCurve A) a := fun _ _ h => (C22_toAffine hC i0 h).2.1
  have hta : ∀ P p, PRep C P p → ARep C (Proj.toAffine P) p := fun _ _ h => (C22_toAffine hC h j0).1
  exact ⟨⟨hneg, hneg⟩, ⟨hnegA, hnegA⟩, ⟨hadd, hadd, hadd, hadd⟩, ⟨hsub, hsub, hsub, hsub⟩, ⟨haddM, haddM, haddM, haddM⟩,
    ⟨hsubM, hsubM, hsubM, hsubM⟩, ⟨haddA, haddA, haddA, haddA⟩, ⟨hsubA, hsubA, hsubA, hsubA⟩,
    ⟨haddAP, haddAP, haddAP, haddAP⟩, ⟨hsubAP, hsubAP, hsubAP, hsubAP⟩, ⟨hadd, hadd⟩, ⟨hsub, hsub⟩, ⟨haddM, haddM⟩,
    ⟨hsubM, hsubM⟩, ⟨hmul, hmul, hmul, hmul⟩, ⟨hmul, hmul⟩, ⟨hmulA, hmulA, hmulA, hmulA⟩, ⟨htp, htp⟩, ⟨hta, hta⟩, i0, j0⟩

/-- The hypothesis `Good` holds for all shipped curves; here the group G2 of bls12381 with its scalar field. -/
example : PointSpec Bls12381.g2 blsR (pointForms Bls12381.g2 blsR) := C83_points Bls12381.g2_good blsR

/-- **C83** The projective `generator()` stands for the point of the affine `generator()`. -/
theorem C83_generator {F : Type} [_root_.Field F] [DecidableEq F] [BaseField F] [LawfulBase F] {C : Params F} (hC : Good C)
    {G : Aff F} {g : Pt C} (hG : ARep C G g) (h0 : g ≠ 0) : PRep C (generatorP G) g ∧ (generatorP G).z = 1 := by
  have h : Aff.toCurve G = generatorP G := by
    have hn : ¬ Aff.isIdentity G = true := fun h => h0 (((C22_eq hC .identity .identity hG hG).2.2.2.2).mp h)
    unfold Aff.toCurve
    rw [if_neg hn]; rfl
  exact ⟨h ▸ (C22_toAffine hC .identity hG).2.1, rfl⟩

/-- The generator of bn256's G1. -/
example : ∃ g : Pt Bn256.g1, g ≠ 0 ∧ PRep Bn256.g1 (generatorP Bn256.g1Gen) g := by
  obtain ⟨g, h1, h2⟩ : ∃ g : Pt Bn256.g1, ARep Bn256.g1 Bn256.g1Gen g ∧ g ≠ 0 := by
    obtain ⟨g, h1, h2, -⟩ := C44_orders.1.gen
    refine ⟨g, h1, ?_⟩
    rintro rfl
    rw [addOrderOf_zero] at h2
    exact bnR_prime.one_lt.ne h2
  exact ⟨g, h2, (C83_generator Bn256.g1_good h1 h2).1⟩

theorem gtSpec_of {T : Type} [_root_.Field T] {square conj : T → T} {p r : ℕ} [Fact (OddModulus r)] (h : GtClaim square conj p r) :
    GtSpec r (gtForms square conj r) where
  neg := ⟨h.neg_eq, h.neg_eq⟩
  add := ⟨fun _ _ => rfl, fun _ _ => rfl, fun _ _ => rfl, fun _ _ => rfl⟩
  sub := ⟨h.sub_eq, h.sub_eq, h.sub_eq, h.sub_eq⟩
  addAsg := ⟨fun _ _ => rfl, fun _ _ => rfl⟩
  subAsg := ⟨h.sub_eq, h.sub_eq⟩
  mul := ⟨h.mul_eq, h.mul_eq, h.mul_eq, h.mul_eq⟩
  mulAsg := ⟨h.mul_eq, h.mul_eq⟩

/-- **C83** The target groups of the three engines. -/
theorem C83_gt :
    GtSpec (T := Bn256.Fq12) bnR (gtForms Ext.ExtField.sqr Ext.Quad.conjugate bnR) ∧
    GtSpec (T := Bls12381.Fq12) blsR (gtForms Ext.ExtField.sqr Ext.Quad.conjugate blsR) ∧
    GtSpec (T := Pluto.Fp12) plQ (gtForms Ext.ExtField.sqr Ext.Quad.conjugate plQ) :=
  ⟨gtSpec_of C39_gt.1, gtSpec_of C39_gt.2.1, gtSpec_of C39_gt.2.2⟩

/-- **C83** `LInt<L>` for every `L ≥ 1`. -/
theorem C83_lint (L : ℕ) (hL : 0 < L) : LIntSpec L lintForms := by
  have o1 : (-2 : ℤ) ^ 63 ≤ 0 := by norm_num
  have o2 : (0 : ℤ) < 2 ^ 63 := by norm_num
  have hneg : ∀ x, IsLInt L x → IsLInt L (Jacobi.lNeg x) ∧ sval L (Jacobi.lNeg x) = wrap L (-sval L x) :=
    fun x hx => (C43_arith L x x hx hx 0 (by norm_num) o2).2.2.1
  refine ⟨⟨hneg, hneg⟩, ?_, ?_, ?_, ?_, ?_, ?_⟩
  · intro f hf x y hx hy
    have h := (C43_arith L x y hx hy 0 (by norm_num) o2).1
    simp only [List.mem_cons, List.not_mem_nil, or_false] at hf
    rcases hf with rfl | rfl | rfl <;> exact h
  · intro f hf x y hx hy
    have h := (C43_arith L x y hx hy 0 (by norm_num) o2).2.1
    simp only [List.mem_cons, List.not_mem_nil, or_false] at hf
    rcases hf with rfl | rfl | rfl <;> exact h
  · intro f hf x y hx hy
    have h := (C43_arith L x y hx hy 0 (by norm_num) o2).2.2.2.1
    simp only [List.mem_cons, List.not_mem_nil, or_false] at hf
    rcases hf with rfl | rfl | rfl <;> exact h
  · intro f hf x o hx h1 h2
    have h := (C43_arith L x x hx hx o h1 h2).2.2.2.2
    simp only [List.mem_cons, List.not_mem_nil, or_false] at hf
    rcases hf with rfl | rfl <;> exact h
  · intro f hf x o hx h1 h2
    have h := (C43_arith L x x hx hx o h1 h2).2.2.2.2
    rw [mul_comm] at h
    simp only [List.mem_cons, List.not_mem_nil, or_false] at hf
    rcases hf with rfl | rfl <;> exact h
  · intro f hf x b hx h1 h2
    have h := C43_shr L hL x hx b h1 h2
    simp only [List.mem_cons, List.not_mem_nil, or_false] at hf
    rcases hf with rfl | rfl <;> exact h

/-- The numbers used by the Jacobi symbol of bn256 have `L = 5`. -/
example : LIntSpec 5 lintForms := C83_lint 5 (by decide)

/-- **C42** `Sum` of points (`Iterator::sum`), and of elements of the target groups, is the sum in the group. -/
theorem C42_points {F : Type} [_root_.Field F] [DecidableEq F] [BaseField F] [LawfulBase F] {C : Params F} (hC : Good C)
    {l : List (Proj F)} {m : List (Pt C)} (h : List.Forall₂ (PRep C) l m) : PRep C (Proj.sum C l) m.sum := C23_sum hC h

/-- A list of three points. -/
example {p q : Pt Bn256.g1} {P Q : Proj Bn256.Fq} (h : PRep Bn256.g1 P p) (k : PRep Bn256.g1 Q q) :
    PRep Bn256.g1 (Proj.sum Bn256.g1 [P, Q, P]) (p + (q + p)) := by
  have := C42_points Bn256.g1_good (.cons h (.cons k (.cons h .nil)))
  simpa using this

/-- **C42** `Sum` of elements of the target groups is the product in the field. -/
theorem C42_gt (l : List Bn256.Fq12) (l' : List Bls12381.Fq12) (l'' : List Pluto.Fp12) :
    Pairing.gtSum l = l.prod ∧ Pairing.gtSum l' = l'.prod ∧ Pairing.gtSum l'' = l''.prod :=
  ⟨C39_gt.1.sum_eq l, C39_gt.2.1.sum_eq l', C39_gt.2.2.sum_eq l''⟩

/-! ## C84 -/

section ReprC84
open Forms.Repr

/-- **C84** Building a `Repr<T>` from a slice panics exactly when the slice has another length; the bytes are kept in all
conversions, and the default is `T` zero bytes. -/
theorem C84_conversions (T : ℕ) (b r : List ℕ) :
    (ofSlice T b = .panic ↔ b.length ≠ T) ∧ (b.length = T → ofSlice T b = .ok b) ∧
    ofSlice r.length (asRef r) = .ok r ∧ ofArray (inner r) = r ∧ inner (ofArray b) = b ∧ asRef (ofArray b) = b ∧
    (Forms.Repr.default T).length = T ∧ ∀ i < T, index (Forms.Repr.default T) i = .ok 0 := by
  refine ⟨?_, fun h => if_pos h, if_pos rfl, rfl, rfl, rfl, List.length_replicate, ?_⟩
  · unfold ofSlice; split <;> simp_all
  · intro i hi
    have : i < (Forms.Repr.default T).length := by rw [Forms.Repr.default, List.length_replicate]; exact hi
    rw [index, if_pos this, Forms.Repr.default]
    simp [hi]

/-- **C84** Reads: a byte, or the bytes of a range in their order; a panic exactly when the index or range leaves the array or the
range is reversed. -/
theorem C84_reads (r : List ℕ) (i lo hi : ℕ) :
    (index r i = .panic ↔ r.length ≤ i) ∧ (∀ b, index r i = .ok b ↔ r[i]? = some b) ∧
    (indexRange r lo hi = .panic ↔ hi < lo ∨ r.length < hi) ∧
    (∀ s, indexRange r lo hi = .ok s ↔ lo ≤ hi ∧ hi ≤ r.length ∧ s.length = hi - lo ∧ ∀ j < hi - lo, s[j]? = r[lo + j]?) ∧
    indexTo r hi = indexRange r 0 hi ∧ indexFrom r lo = indexRange r lo r.length := by
  refine ⟨?_, ?_, ?_, ?_, rfl, rfl⟩
  · unfold index; split <;> simp <;> omega
  · intro b
    unfold index
    split
    · rename_i h
      rw [List.getElem?_eq_getElem h, List.getD_eq_getElem _ _ h]; simp
    · rename_i h
      rw [List.getElem?_eq_none (by omega)]; simp
  · unfold indexRange slice; split <;> simp <;> omega
  · intro s
    unfold indexRange slice
    split
    · rename_i h
      constructor
      · rintro ⟨⟩
        refine ⟨h.1, h.2, ?_, ?_⟩
        · rw [List.length_take, List.length_drop]; omega
        · intro j hj
          rw [List.getElem?_take_of_lt hj, List.getElem?_drop]
      · rintro ⟨-, -, h3, h4⟩
        congr 1
        apply List.ext_getElem?
        intro j
        by_cases hj : j < hi - lo
        · rw [h4 j hj, List.getElem?_take_of_lt hj, List.getElem?_drop]
        · rw [List.getElem?_eq_none (by rw [List.length_take, List.length_drop]; omega), List.getElem?_eq_none (by omega)]
    · rename_i h
      constructor
      · intro h'; cases h'
      · rintro ⟨h1, h2, -⟩; exact absurd ⟨h1, h2⟩ h

/-- **C84** Writes through a mutable range: a panic exactly when the read would panic; otherwise the length stays, the range then
holds what was written, and every byte outside it is as before. -/
theorem C84_writes (r : List ℕ) (lo hi : ℕ) (f : List ℕ → List ℕ) (hf : ∀ s, (f s).length = s.length) :
    (indexMut r lo hi f = .panic ↔ indexRange r lo hi = .panic) ∧
    (∀ r', indexMut r lo hi f = .ok r' → r'.length = r.length ∧
      (∀ s, indexRange r lo hi = .ok s → indexRange r' lo hi = .ok (f s)) ∧
      ∀ i, i < lo ∨ hi ≤ i → index r' i = index r i) := by
  refine ⟨by unfold indexMut indexRange slice; split <;> simp, ?_⟩
  intro r' h
  unfold indexMut at h
  split at h
  swap
  · cases h
  rename_i hb
  cases h
  have hm : (f ((r.drop lo).take (hi - lo))).length = hi - lo := by
    rw [hf, List.length_take, List.length_drop]; omega
  have hl : (r.take lo).length = lo := by rw [List.length_take]; omega
  generalize he : f ((r.drop lo).take (hi - lo)) = m at hm
  have hlen : (r.take lo ++ m ++ r.drop hi).length = r.length := by
    rw [List.length_append, List.length_append, hl, hm, List.length_drop]; omega
  refine ⟨hlen, ?_, ?_⟩
  · intro s hs
    unfold indexRange slice at hs ⊢
    rw [if_pos hb] at hs
    cases hs
    rw [if_pos ⟨hb.1, hlen ▸ hb.2⟩, he]
    congr 1
    rw [List.append_assoc, List.drop_append_of_le_length (by omega), List.drop_of_length_le (by omega), List.nil_append,
      List.take_append_of_le_length (by omega), List.take_of_length_le (by omega)]
  · intro i hi'
    unfold index
    rw [hlen]
    split
    · congr 1
      rw [List.getD_eq_getElem?_getD, List.getD_eq_getElem?_getD]
      congr 1
      rcases hi' with h | h
      · rw [List.append_assoc, List.getElem?_append_left (by omega), List.getElem?_take_of_lt h]
      · rw [List.getElem?_append_right (by rw [List.length_append]; omega), List.getElem?_drop, List.length_append, hl, hm]
        congr 1; omega
    · rfl

/-- `repr[1..3].copy_from_slice(&[8, 9])` on four bytes. -/
example : indexMut [1, 2, 3, 4] 1 3 (fun s => [8, 9].take s.length ++ s.drop 2) = .ok [1, 8, 9, 4] := by decide

/-- A function that keeps lengths, as required: reversing the range (`reverse`, used to change the byte order). -/
example : ∀ s : List ℕ, (List.reverse s).length = s.length := fun _ => List.length_reverse

/-- **C84** `as_mut().reverse()` is an involution that turns the little-endian reading of the bytes into the big-endian one. -/
theorem C84_reverse (r : List ℕ) : asMut (asMut r List.reverse) List.reverse = r ∧
    leNat (asMut r List.reverse) = Endian.nat .BE r := by
  refine ⟨List.reverse_reverse r, rfl⟩

end ReprC84

end Halo2.Props
