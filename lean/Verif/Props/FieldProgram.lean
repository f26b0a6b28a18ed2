import Mathlib.Algebra.Ring.Ext
import Verif.Field.Program
import Verif.Asm.Equiv
import Verif.Props.Asm
import Verif.Props.Consts
import Verif.Props.Legendre
import Verif.Props.FieldBytes
import Verif.Props.Inverse
import Verif.Curve.Layout
import Verif.Curve.Inst
import Verif.Pairing.WireProgram

/-!
# C94: programs over a prime field compute modulo `p`, on either back end
-/

set_option linter.unusedSectionVars false

namespace Halo2.FieldProg

open Halo2 Halo2.Field Halo2.Program Halo2.Prime

/-! ## Square roots and powers under a map -/

section Hom

variable {F G : Type} [Mul F] [One F] [DecidableEq F] [Mul G] [One G] [DecidableEq G] {f : F → G} {sq : F → F} {sq' : G → G}

theorem pow_hom (hm : ∀ a b, f (a * b) = f a * f b) (h1 : f 1 = 1) (hs : ∀ a, f (sq a) = sq' (f a)) (a : F) (e : List ℕ) :
    Ext.pow sq' (f a) e = f (Ext.pow sq a e) := by
  have key : ∀ (l : List Bool) (x : F), l.foldl (Ext.powStep sq' (f a)) (f x) = f (l.foldl (Ext.powStep sq a) x) := by
    intro l
    induction l with
    | nil => intro x; rfl
    | cons b l ih =>
      intro x
      rw [List.foldl_cons, List.foldl_cons, ← ih]
      congr 1
      cases b with
      | false => exact (hs x).symm
      | true =>
        change sq' (f x) * f a = f (sq x * a)
        rw [hm, hs]
  rw [Ext.pow, Ext.pow, ← h1, key]

/-- The state of the inner loop under a map. -/
def mapInner (f : F → G) (s : Sqrt.Inner F) : Sqrt.Inner G := ⟨s.k, f s.b2k, s.jlt, f s.z⟩

/-- The state of the outer loop under a map. -/
def mapOuter (f : F → G) (s : Sqrt.Outer F) : Sqrt.Outer G := ⟨s.v, f s.x, f s.b, f s.z⟩

theorem eq_one_iff (hf : Function.Injective f) (h1 : f 1 = 1) (x : F) : f x = 1 ↔ x = 1 := by rw [← h1]; exact hf.eq_iff

theorem innerStep_hom (hf : Function.Injective f) (h1 : f 1 = 1) (hs : ∀ a, f (sq a) = sq' (f a)) (v : ℕ) (s : Sqrt.Inner F) (j : ℕ) :
    Sqrt.innerStep sq' v (mapInner f s) j = mapInner f (Sqrt.innerStep sq v s j) := by
  obtain ⟨k, b, l, z⟩ := s
  simp only [Sqrt.innerStep, mapInner, eq_one_iff hf h1]
  by_cases hb : b = 1 <;> by_cases hl : (l && !decide (j = v)) = true <;> simp [hb, hl, hs, h1]

theorem outerStep_hom (hf : Function.Injective f) (hm : ∀ a b, f (a * b) = f a * f b) (h1 : f 1 = 1) (hs : ∀ a, f (sq a) = sq' (f a))
    (s : Sqrt.Outer F) (m : ℕ) : Sqrt.outerStep sq' (mapOuter f s) m = mapOuter f (Sqrt.outerStep sq s m) := by
  have key : ∀ (l : List ℕ) (v : ℕ) (i : Sqrt.Inner F),
      l.foldl (Sqrt.innerStep sq' v) (mapInner f i) = mapInner f (l.foldl (Sqrt.innerStep sq v) i) := by
    intro l v
    induction l with
    | nil => intro i; rfl
    | cons j l ih => intro i; rw [List.foldl_cons, List.foldl_cons, innerStep_hom hf h1 hs, ih]
  obtain ⟨v, x, b, z⟩ := s
  have hi : (⟨1, sq' (f b), true, f z⟩ : Sqrt.Inner G) = mapInner f ⟨1, sq b, true, z⟩ := by rw [mapInner, hs]
  simp only [Sqrt.outerStep, mapOuter]
  rw [hi, key]
  simp only [mapInner, eq_one_iff hf h1]
  by_cases hb : b = 1 <;> simp [hb, hm, hs, h1]

theorem tonelli_hom (hf : Function.Injective f) (hm : ∀ a b, f (a * b) = f a * f b) (h1 : f 1 = 1) (hs : ∀ a, f (sq a) = sq' (f a))
    (S : ℕ) (root : F) (e : List ℕ) (a : F) :
    Sqrt.tonelliShanks sq' S (f root) e (f a) = (Sqrt.tonelliShanks sq S root e a).map f := by
  have key : ∀ (l : List ℕ) (s : Sqrt.Outer F),
      l.foldl (Sqrt.outerStep sq') (mapOuter f s) = mapOuter f (l.foldl (Sqrt.outerStep sq) s) := by
    intro l
    induction l with
    | nil => intro s; rfl
    | cons m l ih => intro s; rw [List.foldl_cons, List.foldl_cons, outerStep_hom hf hm h1 hs, ih]
  simp only [Sqrt.tonelliShanks]
  rw [pow_hom hm h1 hs, ← hm, ← hm]
  have := key ((List.range' 1 S).reverse) ⟨S, Ext.pow sq a e * a, Ext.pow sq a e * a * Ext.pow sq a e, root⟩
  rw [mapOuter] at this
  rw [this]
  generalize (List.range' 1 S).reverse.foldl (Sqrt.outerStep sq) _ = r
  simp only [mapOuter, ← hm, hf.eq_iff]
  split <;> rfl

theorem sqrt34_hom (hf : Function.Injective f) (hm : ∀ a b, f (a * b) = f a * f b) (h1 : f 1 = 1) (hs : ∀ a, f (sq a) = sq' (f a))
    (e : List ℕ) (a : F) : Sqrt.sqrt34 sq' e (f a) = (Sqrt.sqrt34 sq e a).map f := by
  simp only [Sqrt.sqrt34]
  simp only [pow_hom hm h1 hs, ← hs, hf.eq_iff]
  split <;> rfl

end Hom

/-! ## Both back ends compute the same -/

/-- A back end of the library for the modulus `p`: the portable one, or the assembly where the macro emits it. -/
def IsBackend (p : ℕ) (B : Backend) : Prop := B = portable p ∨ Asm.UsesAsm p ∧ ∃ M, B = assembly p M

variable {p : ℕ} {B : Backend}

namespace IsBackend

theorem add (h : IsBackend p B) {a b : List ℕ} (ha : IsElem p a) (hb : IsElem p b) : B.add a b = Field.add p a b := by
  rcases h with rfl | ⟨u, M, rfl⟩
  · rfl
  · exact Asm.add_eq _ _ u ha hb

theorem double (h : IsBackend p B) {a : List ℕ} (ha : IsElem p a) : B.double a = Field.double p a := by
  rcases h with rfl | ⟨u, M, rfl⟩
  · rfl
  · exact Asm.double_eq _ _ u ha

theorem sub (h : IsBackend p B) {a b : List ℕ} (ha : IsElem p a) (hb : IsElem p b) : B.sub a b = Field.sub p a b := by
  rcases h with rfl | ⟨u, M, rfl⟩
  · rfl
  · exact Asm.sub_eq _ _ u ha hb

theorem neg (h : IsBackend p B) {a : List ℕ} (ha : IsElem p a) : B.neg a = Field.neg p a := by
  rcases h with rfl | ⟨u, M, rfl⟩
  · rfl
  · exact Asm.neg_eq _ _ u ha

theorem mul_words (h : IsBackend p B) (hp : OddModulus p) {a b : List ℕ} (ha : IsElem p a) (hl : b.length = numLimbs p)
    (hb : ∀ x ∈ b, x < 2 ^ 64) : B.mul a b = Field.mul p a b := by
  rcases h with rfl | ⟨u, M, rfl⟩
  · rfl
  · exact Asm.mul_eq_raw _ _ hp u ha hl hb

theorem mul (h : IsBackend p B) (hp : OddModulus p) {a b : List ℕ} (ha : IsElem p a) (hb : IsElem p b) : B.mul a b = Field.mul p a b :=
  h.mul_words hp ha hb.len hb.wf

theorem square (h : IsBackend p B) (hp : OddModulus p) {a : List ℕ} (ha : IsElem p a) : B.square a = Field.square p a := by
  rcases h with rfl | ⟨u, M, rfl⟩
  · rfl
  · exact Asm.square_eq _ _ hp u ha

theorem fromMont (h : IsBackend p B) (hp : OddModulus p) {a : List ℕ} (ha : IsElem p a) : B.fromMont a = Field.fromMont p a := by
  rcases h with rfl | ⟨u, M, rfl⟩
  · rfl
  · exact Asm.fromMont_eq _ _ hp u ha

theorem fromU64 (h : IsBackend p B) (hp : OddModulus p) {v : ℕ} (hv : v < 2 ^ 64) : B.fromU64 p v = Field.fromU64 p v := by
  rcases h with rfl | ⟨u, M, rfl⟩
  · rfl
  · have h4 : 2 ^ 192 ≤ p := by
      have h1 := u.1
      rw [numLimbs] at h1
      exact (Nat.lt_size.mp (show 192 < Nat.size p by change 192 < numBits p; omega))
    have he : IsElem p ((v :: List.replicate (numLimbs p) 0).take (numLimbs p)) := by
      rw [u.1]
      refine ⟨by rw [u.1]; rfl, ?_, ?_⟩
      · intro x hx
        change x ∈ [v, 0, 0, 0] at hx
        simp only [List.mem_cons, List.not_mem_nil, or_false] at hx
        omega
      · change v + W * (0 + W * (0 + W * (0 + W * 0))) < p
        have : (2 : ℕ) ^ 64 ≤ 2 ^ 192 := by decide
        omega
    have hB : IsBackend p (assembly p M) := Or.inr ⟨u, M, rfl⟩
    exact hB.mul hp he (rep_R2 hp).elem

theorem fromU128 (h : IsBackend p B) (hp : OddModulus p) {v : ℕ} : B.fromU128 p v = Field.fromU128 p v := by
  refine h.mul_words hp (rep_R2 hp).elem ?_ ?_
  · simp only [List.length_take, List.length_cons, List.length_replicate]
    omega
  · intro x hx
    have := List.mem_of_mem_take hx
    simp only [List.mem_cons, List.mem_replicate] at this
    have h1 : v % W < W := Nat.mod_lt _ (by decide)
    have h2 : v / 2 ^ 64 % W < W := Nat.mod_lt _ (by decide)
    have h3 : W = 2 ^ 64 := rfl
    rcases this with rfl | rfl | ⟨-, rfl⟩ <;> omega

theorem fromBytes (h : IsBackend p B) (hp : OddModulus p) (e : Endian) {b : List ℕ} (hl : b.length = 8 * numLimbs p) (hb : IsBytes b) :
    B.fromBytes p e b = Field.fromBytes p e b := by
  obtain ⟨f1, f2, f3⟩ := fromBytes_spec e (numLimbs p) b hl hb
  have hlt := isLessThanModulus_spec p (e.fromBytes (numLimbs p) b) f1 f2
  rw [Backend.fromBytes, Field.fromBytes]
  split
  · next ht =>
    rw [hlt, decide_eq_true_eq] at ht
    rw [h.mul hp ⟨f1, f2, ht⟩ (rep_R2 hp).elem]
  · rfl

theorem toBytes (h : IsBackend p B) (hp : OddModulus p) (e : Endian) {a : List ℕ} (ha : IsElem p a) :
    B.toBytes e a = Field.toBytes p e a := by
  rw [Backend.toBytes, h.fromMont hp ha, Field.toBytes]

theorem fromUniformBytes (h : IsBackend p B) (hp : OddModulus p) {b : List ℕ} (hl : b.length ≤ 2 * (8 * numLimbs p)) (hb : IsBytes b) :
    B.fromUniformBytes p b = Field.fromUniformBytes p b := by
  have hwl : (b ++ List.replicate (2 * (8 * numLimbs p) - b.length) 0).length = 2 * (8 * numLimbs p) := by simp; omega
  have hwb : IsBytes (b ++ List.replicate (2 * (8 * numLimbs p) - b.length) 0) := hb.append (by
    intro x hx; rw [List.mem_replicate] at hx; omega)
  rw [Backend.fromUniformBytes, Field.fromUniformBytes]
  generalize b ++ List.replicate (2 * (8 * numLimbs p) - b.length) 0 = wide at *
  obtain ⟨f1, f2, f3⟩ := fromBytesLE_spec (numLimbs p) (wide.take (8 * numLimbs p)) (by simp; omega) (hwb.take _)
  obtain ⟨g1, g2, g3⟩ := fromBytesLE_spec (numLimbs p) (wide.drop (8 * numLimbs p)) (by simp; omega) (hwb.drop _)
  exact h.add (mul_raw hp f1 f2 (rep_R2 hp)).1 (mul_raw hp g1 g2 (rep_R3 hp)).1

theorem cmp (h : IsBackend p B) (hp : OddModulus p) {a b : List ℕ} (ha : IsElem p a) (hb : IsElem p b) :
    B.cmp a b = Field.cmp p a b := by
  rw [Backend.cmp, h.toBytes hp .LE ha, h.toBytes hp .LE hb, Field.cmp]
  rfl

theorem isOdd (h : IsBackend p B) (hp : OddModulus p) {a : List ℕ} (ha : IsElem p a) : B.isOdd a = Field.isOdd p a := by
  rw [Backend.isOdd, h.toBytes hp .LE ha]
  rfl

theorem lexLargest (h : IsBackend p B) (hp : OddModulus p) {a : List ℕ} (ha : IsElem p a) : B.lexLargest p a = Field.lexLargest p a := by
  rw [Backend.lexLargest, h.fromMont hp ha]
  rfl

theorem sum (h : IsBackend p B) (hp : OddModulus p) {l : List (List ℕ)} {m : List (ZMod p)} (hl : List.Forall₂ (Rep p) l m) :
    Rep p (B.sum p l) m.sum := by
  have key : ∀ (l : List (List ℕ)) (m : List (ZMod p)), List.Forall₂ (Rep p) l m → ∀ a x, Rep p a x →
      Rep p (l.foldl (fun acc x => B.add acc x) a) (x + m.sum) := by
    intro l m hl
    induction hl with
    | nil => intro a x ha; simpa using ha
    | cons hab _ ih =>
      intro a x ha
      rw [List.foldl_cons, h.add ha.elem hab.elem, List.sum_cons, ← add_assoc]
      exact ih _ _ (rep_add ha hab)
  have := key l m hl _ _ (rep_zero hp)
  rwa [zero_add] at this

theorem product (h : IsBackend p B) (hp : OddModulus p) {l : List (List ℕ)} {m : List (ZMod p)} (hl : List.Forall₂ (Rep p) l m) :
    Rep p (B.product p l) m.prod := by
  have key : ∀ (l : List (List ℕ)) (m : List (ZMod p)), List.Forall₂ (Rep p) l m → ∀ a x, Rep p a x →
      Rep p (l.foldl (fun acc x => B.mul acc x) a) (x * m.prod) := by
    intro l m hl
    induction hl with
    | nil => intro a x ha; simpa using ha
    | cons hab _ ih =>
      intro a x ha
      rw [List.foldl_cons, h.mul hp ha.elem hab.elem, List.prod_cons, ← mul_assoc]
      exact ih _ _ (rep_mul hp ha hab)
  have := key l m hl _ _ (rep_one hp)
  rwa [one_mul] at this

section

variable [hp : Fact (OddModulus p)]

theorem limbs_inj : Function.Injective (Fp.limbs : Fp p → List ℕ) := fun _ _ h => Fp.ext' h

theorem limbs_mul (h : IsBackend p B) (a b : Fp p) : (a * b).limbs = B.mul a.limbs b.limbs := by
  rw [h.mul hp.out a.elem b.elem]
  change (Fp.mul a b).limbs = _
  unfold Fp.mul
  rfl

theorem limbs_square (h : IsBackend p B) (a : Fp p) : (Fp.square a).limbs = B.square a.limbs := by
  rw [h.square hp.out a.elem]
  unfold Fp.square
  rfl

theorem limbs_one : (1 : Fp p).limbs = one p := by
  change (Fp.one : Fp p).limbs = _
  unfold Fp.one
  rfl

theorem limbs_zero : (0 : Fp p).limbs = zero p := by
  change (Fp.zero : Fp p).limbs = _
  unfold Fp.zero
  rfl

theorem limbs_root (g : ℕ) : (Fp.rootOfUnity p g).limbs = bigToLimbs (montBig p (Fp.modpow p g (Fp.macroT p))) (numLimbs p) := by
  have : IsElem p (bigToLimbs (montBig p (Fp.modpow p g (Fp.macroT p))) (numLimbs p)) :=
    (isElem_bigToLimbs p _ (Nat.mod_lt _ (by have := hp.out.gt; omega))).1
  rw [Fp.rootOfUnity, Fp.constElem, Fp.ofMont, dif_pos this]

theorem pow (h : IsBackend p B) (a : Fp p) (e : List ℕ) (he : ∀ x ∈ e, x < 2 ^ 64) :
    B.pow p a.limbs e = (a ^ Ext.limbsVal e).limbs := by
  rw [Backend.pow, ← Ext.pow_eq (Fp.square : Fp p → Fp p) (fun x => Fp.toZMod_injective (by
    change _ = (Fp.mul x x).toZMod
    rw [Fp.toZMod_square, Fp.toZMod_mul])) a e he]
  let _ : Mul (List ℕ) := ⟨B.mul⟩
  let _ : One (List ℕ) := ⟨one p⟩
  exact pow_hom h.limbs_mul limbs_one h.limbs_square a e

theorem sqrt (h : IsBackend p B) (g : ℕ) (a : Fp p) : B.sqrt p g a.limbs = (Fp.sqrt g a).map Fp.limbs := by
  rw [Backend.sqrt, Fp.sqrt, ← limbs_root]
  split
  · let _ : Mul (List ℕ) := ⟨B.mul⟩
    let _ : One (List ℕ) := ⟨one p⟩
    exact tonelli_hom limbs_inj h.limbs_mul limbs_one h.limbs_square _ _ _ _
  · split
    · let _ : Mul (List ℕ) := ⟨B.mul⟩
      let _ : One (List ℕ) := ⟨one p⟩
      exact sqrt34_hom limbs_inj h.limbs_mul limbs_one h.limbs_square _ _
    · rfl

end

end IsBackend

/-! ## The meaning of programs -/

/-- The digits of a number: `8 n` bytes in the given order. -/
def bytesOf (e : Endian) (n k : ℕ) : List ℕ :=
  match e with
  | .LE => (List.range (8 * n)).map fun i => k / 256 ^ i % 256
  | .BE => ((List.range (8 * n)).map fun i => k / 256 ^ i % 256).reverse

/-- Registers that hold numbers modulo `p`. -/
structure ASt (p : ℕ) where
  el : ℕ → ZMod p
  bs : ℕ → List ℕ
  fl : ℕ → Bool
  out : List Out

/-- An optional result is zero if there is none; the flag tells whether there is one. -/
def ASt.put (t : ASt p) (d f : ℕ) (o : Option (ZMod p)) : ASt p :=
  { t with el := set t.el d (o.getD 0), fl := set t.fl f o.isSome }

open Classical in
/-- The meaning of a call, modulo `p`; `root` gives square roots. -/
noncomputable def acall [Fact p.Prime] (root : ZMod p → Option (ZMod p)) (t : ASt p) : FOp → Outcome (ASt p)
  | .const d n => .ok { t with el := set t.el d n }
  | .const128 d n => .ok { t with el := set t.el d n }
  | .add d a b => .ok { t with el := set t.el d (t.el a + t.el b) }
  | .sub d a b => .ok { t with el := set t.el d (t.el a - t.el b) }
  | .mul d a b => .ok { t with el := set t.el d (t.el a * t.el b) }
  | .neg d a => .ok { t with el := set t.el d (-t.el a) }
  | .double d a => .ok { t with el := set t.el d (2 * t.el a) }
  | .square d a => .ok { t with el := set t.el d (t.el a ^ 2) }
  | .invert d f a => .ok (t.put d f (if t.el a = 0 then none else some (t.el a)⁻¹))
  | .sqrt d f a => .ok (t.put d f (root (t.el a)))
  | .pow d a e => .ok { t with el := set t.el d (t.el a ^ val e) }
  | .sum d l => .ok { t with el := set t.el d (l.map t.el).sum }
  | .product d l => .ok { t with el := set t.el d (l.map t.el).prod }
  | .select d a b f => .ok { t with el := set t.el d (if t.fl f then t.el b else t.el a) }
  | .write e w a => .ok { t with bs := set t.bs w (bytesOf e (numLimbs p) (t.el a).val) }
  | .read e d f w =>
    if (t.bs w).length = 8 * numLimbs p then .ok (t.put d f (if e.nat (t.bs w) < p then some (e.nat (t.bs w) : ZMod p) else none))
    else .panic
  | .writeRaw w a => .ok { t with bs := set t.bs w (bytesOf .LE (numLimbs p) (t.el a * 2 ^ (64 * numLimbs p)).val) }
  | .readRaw d f w => .ok (t.put d f (if (t.bs w).length = 8 * numLimbs p ∧ leNat (t.bs w) < p then
      some ((leNat (t.bs w) : ZMod p) / 2 ^ (64 * numLimbs p)) else none))
  | .uniform d w len => if (t.bs w).length = len then .ok { t with el := set t.el d (leNat (t.bs w)) } else .panic
  | .lit w b => .ok { t with bs := set t.bs w b }
  | .out w => .ok { t with out := .bytes (.ok (t.bs w)) :: t.out }

open Classical in
/-- The meaning of a comparison. -/
noncomputable def atest (t : ASt p) : FTest → Bool
  | .eq a b => decide (t.el a = t.el b)
  | .less a b => decide ((t.el a).val < (t.el b).val)
  | .odd a => decide ((t.el a).val % 2 = 1)
  | .zero a => decide (t.el a = 0)
  | .largest a => decide ((p - 1) / 2 ≤ (t.el a).val)
  | .nonResidue a => decide (¬ IsSquare (t.el a))
  | .flag f => t.fl f

/-- The result of a comparison is put out. -/
def aemit (t : ASt p) (b : Bool) : ASt p := { t with out := .bit b :: t.out }

/-- The registers hold the canonical limbs of the numbers. -/
structure FSim (s : FSt) (t : ASt p) : Prop where
  el : ∀ i, Rep p (s.el i) (t.el i)
  bs : s.bs = t.bs
  bytes : ∀ i, IsBytes (s.bs i)
  fl : s.fl = t.fl
  out : s.out = t.out

/-- Constants are `u64` or `u128`, exponents consist of words, literals of bytes, and `from_uniform_bytes` takes at most `2 SIZE` bytes. -/
def FOpOk (p : ℕ) : FOp → Prop
  | .const _ n => n < 2 ^ 64
  | .const128 _ n => n < 2 ^ 128
  | .pow _ _ e => ∀ x ∈ e, x < 2 ^ 64
  | .uniform _ _ len => len ≤ 2 * (8 * numLimbs p)
  | .lit _ b => IsBytes b
  | _ => True

theorem length_bytesOf (e : Endian) (n k : ℕ) : (bytesOf e n k).length = 8 * n := by cases e <;> simp [bytesOf]

theorem isBytes_bytesOf (e : Endian) (n k : ℕ) : IsBytes (bytesOf e n k) := by
  intro x hx
  cases e <;> simp only [bytesOf, List.mem_reverse, List.mem_map] at hx <;> obtain ⟨i, -, rfl⟩ := hx <;> exact Nat.mod_lt _ (by decide)

theorem leNat_digits (m : ℕ) : ∀ k, leNat ((List.range m).map fun i => k / 256 ^ i % 256) = k % 256 ^ m := by
  induction m with
  | zero => intro k; simp [leNat, Nat.mod_one]
  | succ m ih =>
    intro k
    rw [List.range_succ_eq_map, List.map_cons, List.map_map, leNat]
    have : (fun i => k / 256 ^ i % 256) ∘ Nat.succ = fun i => (k / 256) / 256 ^ i % 256 := by
      funext i
      simp only [Function.comp_apply, Nat.succ_eq_add_one]
      rw [pow_succ', Nat.div_div_eq_div_mul]
    rw [this, ih, pow_zero, Nat.div_one, pow_succ' 256 m, Nat.mod_mul]

theorem nat_bytesOf (e : Endian) (n k : ℕ) : e.nat (bytesOf e n k) = k % 256 ^ (8 * n) := by
  cases e with
  | LE => exact leNat_digits _ k
  | BE => rw [Endian.nat, bytesOf, List.reverse_reverse]; exact leNat_digits _ k

theorem eq_bytesOf {e : Endian} {n k : ℕ} {b : List ℕ} (hl : b.length = 8 * n) (hb : IsBytes b) (h : e.nat b = k) : b = bytesOf e n k := by
  have hk : k < 256 ^ (8 * n) := by
    rw [← h, ← hl]
    cases e with
    | LE => exact leNat_lt b hb
    | BE =>
      have := leNat_lt b.reverse (fun x hx => hb x (List.mem_reverse.mp hx))
      rwa [List.length_reverse] at this
  have h2 : e.nat b = e.nat (bytesOf e n k) := by rw [nat_bytesOf, Nat.mod_eq_of_lt hk, h]
  cases e with
  | LE => exact leNat_inj' (by rw [hl, length_bytesOf]) hb (isBytes_bytesOf _ _ _) h2
  | BE =>
    have := leNat_inj' (a := b.reverse) (b := (bytesOf .BE n k).reverse) (by rw [List.length_reverse, List.length_reverse, hl, length_bytesOf])
      (fun x hx => hb x (List.mem_reverse.mp hx)) (fun x hx => isBytes_bytesOf .BE n k x (List.mem_reverse.mp hx)) h2
    exact List.reverse_injective this

/-! ## One call -/

section

variable [hpr : Fact p.Prime] [hpo : Fact (OddModulus p)] [Fp.SmallModulus p]

/-- The square roots that the library finds, modulo `p`. -/
noncomputable def rootOf (p g : ℕ) [Fact p.Prime] [Fact (OddModulus p)] [Fp.SmallModulus p] (x : ZMod p) : Option (ZMod p) :=
  (Fp.sqrt g (Classical.choose (Fp.toZMod_surjective x))).map Fp.toZMod

theorem rootOf_toZMod (g : ℕ) (a : Fp p) : rootOf p g a.toZMod = (Fp.sqrt g a).map Fp.toZMod := by
  rw [rootOf, Fp.toZMod_injective (Classical.choose_spec (Fp.toZMod_surjective a.toZMod))]

/-- An optional element represents an optional number. -/
def ORep (p : ℕ) : Option (List ℕ) → Option (ZMod p) → Prop
  | none, none => True
  | some a, some x => Rep p a x
  | _, _ => False

theorem ORep.getD {o : Option (List ℕ)} {x : Option (ZMod p)} (h : ORep p o x) : Rep p (o.getD (zero p)) (x.getD 0) := by
  cases o <;> cases x
  · exact rep_zero hpo.out
  · exact h.elim
  · exact h.elim
  · exact h

omit hpr hpo [Fp.SmallModulus p] in
theorem ORep.isSome {o : Option (List ℕ)} {x : Option (ZMod p)} (h : ORep p o x) : o.isSome = x.isSome := by
  cases o <;> cases x <;> first | rfl | exact h.elim

/-- The element with the given limbs. -/
theorem exists_fp {a : List ℕ} {x : ZMod p} (h : Rep p a x) : ∃ b : Fp p, b.limbs = a ∧ b.toZMod = x :=
  ⟨⟨a, h.elem⟩, rfl, Fp.toZMod_eq (a := ⟨a, h.elem⟩) h⟩

theorem rep_sqrt (h : IsBackend p B) (g : ℕ) {a : List ℕ} {x : ZMod p} (ha : Rep p a x) : ORep p (B.sqrt p g a) (rootOf p g x) := by
  obtain ⟨b, rfl, rfl⟩ := exists_fp ha
  rw [h.sqrt, rootOf_toZMod]
  cases Fp.sqrt g b with
  | none => trivial
  | some r => exact r.rep

theorem rep_pow (h : IsBackend p B) {a : List ℕ} {x : ZMod p} (ha : Rep p a x) {e : List ℕ} (he : ∀ w ∈ e, w < 2 ^ 64) :
    Rep p (B.pow p a e) (x ^ val e) := by
  obtain ⟨b, rfl, rfl⟩ := exists_fp ha
  rw [h.pow b e he]
  have := (b ^ Ext.limbsVal e).rep
  rwa [show (b ^ Ext.limbsVal e).toZMod = b.toZMod ^ val e from by
    rw [Fp.limbsVal_eq]; exact map_pow (Fp.equiv p) b _] at this

theorem rep_read (h : IsBackend p B) (e : Endian) {b : List ℕ} (hl : b.length = 8 * numLimbs p) (hb : IsBytes b) :
    ORep p (B.fromBytes p e b) (if e.nat b < p then some (e.nat b : ZMod p) else none) := by
  rw [h.fromBytes hpo.out e hl hb]
  obtain ⟨h1, h2⟩ := Props.C04_decode p hpo.out e b hl hb
  split
  · next hlt =>
    obtain ⟨a, ha, hr⟩ := h2 hlt
    rw [ha]
    exact hr
  · next hlt =>
    rw [h1 (by omega)]
    trivial

theorem write_eq (h : IsBackend p B) (e : Endian) {a : List ℕ} {x : ZMod p} (ha : Rep p a x) :
    B.toBytes e a = bytesOf e (numLimbs p) x.val := by
  rw [h.toBytes hpo.out e ha.elem]
  obtain ⟨h1, h2, h3⟩ := Props.C04_encode p hpo.out e a x ha
  exact eq_bytesOf h1 h2 h3

theorem val_raw {a : List ℕ} {x : ZMod p} (ha : Rep p a x) : (x * 2 ^ (64 * numLimbs p)).val = val a := by
  rw [← ha.eq, ZMod.val_natCast, Nat.mod_eq_of_lt ha.elem.lt]

theorem writeRaw_eq {a : List ℕ} {x : ZMod p} (ha : Rep p a x) :
    toRawBytes a = bytesOf .LE (numLimbs p) (x * 2 ^ (64 * numLimbs p)).val := by
  obtain ⟨h1, h2, h3⟩ := toBytesLE_spec a ha.elem.wf
  rw [val_raw ha]
  exact eq_bytesOf (by rw [toRawBytes, h1, ha.elem.len]) h2 h3

theorem rep_readRaw {b : List ℕ} (hb : IsBytes b) :
    ORep p (fromRawBytes p b) (if b.length = 8 * numLimbs p ∧ leNat b < p then
      some ((leNat b : ZMod p) / 2 ^ (64 * numLimbs p)) else none) := by
  cases hc : fromRawBytes p b with
  | some a =>
    obtain ⟨ha, rfl⟩ := (Props.C06_raw_exact p b a hb).mp hc
    obtain ⟨h1, h2, h3⟩ := toBytesLE_spec a ha.wf
    have hlen : (toRawBytes a).length = 8 * numLimbs p := by rw [toRawBytes, h1, ha.len]
    have hv : leNat (toRawBytes a) = val a := h3
    rw [if_pos ⟨hlen, by rw [hv]; exact ha.lt⟩, hv]
    refine ⟨ha, ?_⟩
    rw [div_mul_cancel₀]
    exact (two_pow_unit hpo.out _).ne_zero
  | none =>
    rw [if_neg]
    · trivial
    rintro ⟨hl, hlt⟩
    obtain ⟨f1, f2, f3⟩ := fromBytesLE_spec (numLimbs p) b hl hb
    have he : IsElem p (Endian.LE.fromBytes (numLimbs p) b) := ⟨f1, f2, by rw [f3]; exact hlt⟩
    have h1 : b = toRawBytes (Endian.LE.fromBytes (numLimbs p) b) := by
      obtain ⟨t1, t2, t3⟩ := toBytesLE_spec _ f2
      exact leNat_inj' (by rw [toRawBytes, t1, f1, hl]) hb t2 (by rw [toRawBytes, t3, f3])
    rw [(Props.C06_raw_exact p b _ hb).mpr ⟨he, h1⟩] at hc
    exact absurd hc (by simp)

theorem rep_invert {a : List ℕ} {x : ZMod p} (ha : Rep p a x) :
    ∃ o, Inverse.fieldInvert p a = .done o ∧ ORep p o (if x = 0 then none else some x⁻¹) := by
  have h2 : p ≠ 2 := by
    have := hpo.out.odd
    intro h; rw [h] at this; exact absurd this (by decide)
  obtain ⟨h0, h1⟩ := Props.C09_invert_prime p h2 Fp.SmallModulus.small a x ha
  by_cases hx : x = 0
  · exact ⟨none, h0 hx, by rw [if_pos hx]; trivial⟩
  · obtain ⟨b, hb, hr⟩ := h1 hx
    exact ⟨some b, hb, by rw [if_neg hx]; exact hr⟩

theorem reg_rel {α β : Type} {R : α → β → Prop} {f : ℕ → α} {g : ℕ → β} (h : ∀ i, R (f i) (g i)) (d : ℕ) {v : α} {w : β} (hv : R v w)
    (i : ℕ) : R (Program.set f d v i) (Program.set g d w i) := by
  unfold Program.set
  split
  · exact hv
  · exact h i

variable {s : FSt} {t : ASt p}

omit hpr hpo [Fp.SmallModulus p] in
theorem FSim.setEl (h : FSim s t) (d : ℕ) {a : List ℕ} {x : ZMod p} (ha : Rep p a x) :
    FSim { s with el := set s.el d a } { t with el := set t.el d x } where
  el := reg_rel h.el d ha
  bs := h.bs
  bytes := h.bytes
  fl := h.fl
  out := h.out

omit hpr hpo [Fp.SmallModulus p] in
theorem FSim.setBs (h : FSim s t) (w : ℕ) {b : List ℕ} (hb : IsBytes b) :
    FSim { s with bs := set s.bs w b } { t with bs := set t.bs w b } where
  el := h.el
  bs := by rw [h.bs]
  bytes := reg_rel (R := fun a _ => IsBytes a) (g := s.bs) (w := b) h.bytes w hb
  fl := h.fl
  out := h.out

theorem FSim.put (h : FSim s t) (d f : ℕ) {o : Option (List ℕ)} {x : Option (ZMod p)} (ho : ORep p o x) :
    FSim (s.put p d f o) (t.put d f x) where
  el := (h.setEl d ho.getD).el
  bs := h.bs
  bytes := h.bytes
  fl := by change set s.fl f o.isSome = set t.fl f x.isSome; rw [h.fl, ho.isSome]
  out := h.out

omit hpr hpo [Fp.SmallModulus p] in
theorem FSim.forall₂ (h : FSim s t) (l : List ℕ) : List.Forall₂ (Rep p) (l.map s.el) (l.map t.el) := by
  induction l with
  | nil => exact .nil
  | cons i l ih => exact .cons (h.el i) ih

theorem call_sim (hn : 2 ≤ numLimbs p) (hB : IsBackend p B) (g : ℕ) (h : FSim s t) (o : FOp) (ho : FOpOk p o) :
    OutRel FSim (some (call B p g s o)) (some (acall (rootOf p g) t o)) := by
  have hp : OddModulus p := hpo.out
  cases o with
  | const d n => exact h.setEl d (by rw [hB.fromU64 hp ho]; exact (Props.C05_from_u64 p hp n ho).1)
  | const128 d n => exact h.setEl d (by rw [hB.fromU128 hp]; exact Props.C05_from_u128 p hp n ho hn)
  | add d a b => exact h.setEl d (by rw [hB.add (h.el a).elem (h.el b).elem]; exact rep_add (h.el a) (h.el b))
  | sub d a b => exact h.setEl d (by rw [hB.sub (h.el a).elem (h.el b).elem]; exact rep_sub (h.el a) (h.el b))
  | mul d a b => exact h.setEl d (by rw [hB.mul hp (h.el a).elem (h.el b).elem]; exact rep_mul hp (h.el a) (h.el b))
  | neg d a => exact h.setEl d (by rw [hB.neg (h.el a).elem]; exact rep_neg (h.el a))
  | double d a => exact h.setEl d (by rw [hB.double (h.el a).elem]; exact rep_double (h.el a))
  | square d a => exact h.setEl d (by rw [hB.square hp (h.el a).elem, sq]; exact rep_square hp (h.el a))
  | invert d f a =>
    obtain ⟨o, h1, h2⟩ := rep_invert (h.el a)
    simp only [call, h1, acall]
    exact h.put d f h2
  | sqrt d f a => exact h.put d f (rep_sqrt hB g (h.el a))
  | pow d a e => exact h.setEl d (rep_pow hB (h.el a) ho)
  | sum d l => exact h.setEl d (hB.sum hp (h.forall₂ l))
  | product d l => exact h.setEl d (hB.product hp (h.forall₂ l))
  | select d a b f =>
    refine h.setEl d ?_
    rw [h.fl]
    cases t.fl f
    · exact h.el a
    · exact h.el b
  | write e w a =>
    have := write_eq hB e (h.el a)
    simp only [call, acall, this]
    exact h.setBs w (isBytes_bytesOf _ _ _)
  | read e d f w =>
    simp only [call, acall, ← h.bs]
    by_cases hl : (s.bs w).length = 8 * numLimbs p
    · rw [if_pos hl, if_pos hl]
      exact h.put d f (rep_read hB e hl (h.bytes w))
    · rw [if_neg hl, if_neg hl]
      trivial
  | writeRaw w a =>
    have := writeRaw_eq (h.el a)
    simp only [call, acall, this]
    exact h.setBs w (isBytes_bytesOf _ _ _)
  | readRaw d f w =>
    simp only [call, acall, ← h.bs]
    exact h.put d f (rep_readRaw (h.bytes w))
  | uniform d w len =>
    have hbs : t.bs w = s.bs w := by rw [h.bs]
    simp only [call, acall, hbs]
    by_cases hl : (s.bs w).length = len
    · rw [if_pos hl, if_pos hl]
      have hle : (s.bs w).length ≤ 2 * (8 * numLimbs p) := by rw [hl]; exact ho
      rw [hB.fromUniformBytes hp hle (h.bytes w)]
      exact h.setEl d (Props.C05_from_uniform_bytes p hp _ hle (h.bytes w))
    · rw [if_neg hl, if_neg hl]
      trivial
  | lit w b => exact h.setBs w ho
  | out w => exact ⟨h.el, h.bs, h.bytes, h.fl, by
      change Out.bytes (.ok (s.bs w)) :: s.out = Out.bytes (.ok (t.bs w)) :: t.out
      rw [h.bs, h.out]⟩

omit hpr hpo [Fp.SmallModulus p] in
/-- Canonical limbs are determined by the number. -/
theorem FSim.eq {s s' : FSt} {t : ASt p} (h : FSim s t) (h' : FSim s' t) (hc : s.clock = s'.clock) : s = s' := by
  obtain ⟨e, b, f, o, c⟩ := s
  obtain ⟨e', b', f', o', c'⟩ := s'
  have h1 : e = e' := funext fun i => (h.el i).unique (h'.el i)
  have h2 : b = b' := h.bs.trans h'.bs.symm
  have h3 : f = f' := h.fl.trans h'.fl.symm
  have h4 : o = o' := h.out.trans h'.out.symm
  change c = c' at hc
  rw [h1, h2, h3, h4, hc]

omit hpr hpo [Fp.SmallModulus p] in
theorem call_clock (B : Backend) (p g : ℕ) (s : FSt) (o : FOp) (s' : FSt) (h : call B p g s o = .ok s') : s'.clock = s.clock := by
  cases o <;> simp only [call] at h <;> (try split at h) <;> first | (cases h; rfl) | exact absurd h (by simp)

theorem ftest_eq {X : ℕ → Backend} (hX : ∀ n, IsBackend p (X n)) (h : FSim s t) (c : FTest) : ftest X p s c = atest t c := by
  have hp : OddModulus p := hpo.out
  rw [Bool.eq_iff_iff]
  cases c with
  | eq a b =>
    simp only [ftest, atest, decide_eq_true_eq]
    exact (Props.C07_eq p hp _ _ _ _ (h.el a) (h.el b)).1
  | less a b =>
    simp only [ftest, atest, decide_eq_true_eq]
    rw [(hX _).cmp hp (h.el a).elem (h.el b).elem, Props.C07_cmp p hp _ _ _ _ (h.el a) (h.el b), beq_iff_eq, Nat.compare_eq_lt]
  | odd a =>
    simp only [ftest, atest]
    rw [(hX _).isOdd hp (h.el a).elem, Props.C07_is_odd p hp _ _ (h.el a), decide_eq_true_eq]
  | zero a =>
    simp only [ftest, atest, decide_eq_true_eq]
    exact (Props.C07_eq p hp _ _ _ _ (h.el a) (rep_zero hp)).1
  | largest a =>
    simp only [ftest, atest, decide_eq_true_eq]
    rw [(hX _).lexLargest hp (h.el a).elem]
    exact Props.C08_exact p hp _ _ (h.el a)
  | nonResidue a =>
    simp only [ftest, atest, decide_eq_true_eq]
    obtain ⟨b, hb, hz⟩ := exists_fp (h.el a)
    rw [← hb, ← hz, Fp.isSquare_toZMod, beq_iff_eq]
    exact (Props.C10_legendre p b).2.2.2
  | flag f => simp only [ftest, atest, h.fl]

end

end Halo2.FieldProg

namespace Halo2.Props

open Halo2 Halo2.Field Halo2.Program Halo2.FieldProg Halo2.Prime

/-- Programs over the field with `p` elements, whose multiplicative generator is `g`, compute modulo `p`: there is a choice of square roots,
which the code makes the same way whatever the back end, so that for every assignment of back ends to calls, the run of a program with
canonical registers ends, panics and puts out exactly as the program of numbers modulo `p` does. -/
def FieldClaim (p g : ℕ) [Fact p.Prime] : Prop :=
  ∃ root : ZMod p → Option (ZMod p), (∀ x y, root x = some y → y * y = x) ∧ (∀ x, root x = none ↔ ¬ IsSquare x) ∧
    ∀ (X : ℕ → Backend), (∀ n, IsBackend p (X n)) → ∀ (prog : Prog FOp FTest), prog.All (FOpOk p) → ∀ (n : ℕ) (s : FSt) (t : ASt p),
      FSim s t → OutRel FSim (frun X p g n prog s) (run (acall root) atest aemit n prog t)

theorem C94_meaning (p g : ℕ) [Fact p.Prime] [Fact (OddModulus p)] [Fp.SmallModulus p] (hsz : p < 2 ^ 512)
    (hn : 2 ≤ numLimbs p) (hmod : p % 16 = 1 ∨ p % 4 = 3) (hg : ¬ IsSquare (g : Fp p)) : FieldClaim p g := by
  refine ⟨rootOf p g, ?_, ?_, ?_⟩
  · intro x y h
    obtain ⟨a, rfl⟩ := Fp.toZMod_surjective x
    rw [rootOf_toZMod, Option.map_eq_some_iff] at h
    obtain ⟨r, hr, rfl⟩ := h
    rw [← (C11_sqrt p g hsz hmod hg a).1 r hr]
    exact (Fp.toZMod_mul r r).symm
  · intro x
    obtain ⟨a, rfl⟩ := Fp.toZMod_surjective x
    rw [rootOf_toZMod, Option.map_eq_none_iff, Fp.isSquare_toZMod]
    exact (C11_sqrt p g hsz hmod hg a).2
  · intro X hX prog hprog n s t h
    exact run_rel (step := fstep X p g) (test := ftest X p) (emit := femit) (step' := acall (rootOf p g)) (test' := atest) (emit' := aemit)
      (R := FSim) (P := FOpOk p)
      (fun s t o h ho => call_sim hn (hX _) g (s := { s with clock := s.clock + 1 }) ⟨h.el, h.bs, h.bytes, h.fl, h.out⟩ o ho)
      (fun s t c h => ftest_eq hX h c)
      (fun s t b h => ⟨h.el, h.bs, h.bytes, h.fl, by change Out.bit b :: s.out = Out.bit b :: t.out; rw [h.out]⟩)
      prog hprog n h

theorem C94_shipped :
    FieldClaim bnQ 3 ∧ FieldClaim bnR 7 ∧ FieldClaim blsQ 2 ∧ FieldClaim blsR 7 ∧ FieldClaim plP 10 ∧ FieldClaim plQ 7 ∧
    FieldClaim k1P 3 ∧ FieldClaim k1N 7 ∧ FieldClaim r1P 6 ∧ FieldClaim r1N 7 := by
  obtain ⟨c0, c1, c2, c3, c4, c5, c6, c7, c8, c9⟩ := C12_constants
  exact ⟨C94_meaning bnQ 3 (by decide +kernel) (by decide +kernel) (by decide +kernel) (c0.generator ▸ c0.generator_nonsquare),
    C94_meaning bnR 7 (by decide +kernel) (by decide +kernel) (by decide +kernel) (c1.generator ▸ c1.generator_nonsquare),
    C94_meaning blsQ 2 (by decide +kernel) (by decide +kernel) (by decide +kernel) (c2.generator ▸ c2.generator_nonsquare),
    C94_meaning blsR 7 (by decide +kernel) (by decide +kernel) (by decide +kernel) (c3.generator ▸ c3.generator_nonsquare),
    C94_meaning plP 10 (by decide +kernel) (by decide +kernel) (by decide +kernel) (c4.generator ▸ c4.generator_nonsquare),
    C94_meaning plQ 7 (by decide +kernel) (by decide +kernel) (by decide +kernel) (c5.generator ▸ c5.generator_nonsquare),
    C94_meaning k1P 3 (by decide +kernel) (by decide +kernel) (by decide +kernel) (c6.generator ▸ c6.generator_nonsquare),
    C94_meaning k1N 7 (by decide +kernel) (by decide +kernel) (by decide +kernel) (c7.generator ▸ c7.generator_nonsquare),
    C94_meaning r1P 6 (by decide +kernel) (by decide +kernel) (by decide +kernel) (c8.generator ▸ c8.generator_nonsquare),
    C94_meaning r1N 7 (by decide +kernel) (by decide +kernel) (by decide +kernel) (c9.generator ▸ c9.generator_nonsquare)⟩

/-- The feature `asm` cannot be observed: two runs of a program from the same canonical registers, each served by any back ends, end and
panic together, with the same output and the same limbs in all registers. -/
theorem C94_backends (p g : ℕ) [Fact p.Prime] [Fact (OddModulus p)] [Fp.SmallModulus p] (hn : 2 ≤ numLimbs p) (X Y : ℕ → Backend)
    (hX : ∀ n, IsBackend p (X n)) (hY : ∀ n, IsBackend p (Y n)) (prog : Prog FOp FTest) (hprog : prog.All (FOpOk p)) (n : ℕ) (s : FSt)
    (hs : ∀ i, IsElem p (s.el i)) (hb : ∀ i, IsBytes (s.bs i)) : frun X p g n prog s = frun Y p g n prog s := by
  choose f hf using fun i => Rep.exists_of_elem (Fact.out : OddModulus p) (hs i)
  have hsim : FSim s (⟨f, s.bs, s.fl, s.out⟩ : ASt p) := ⟨hf, rfl, hb, rfl, rfl⟩
  have key := run_rel (step := fstep X p g) (test := ftest X p) (emit := femit) (step' := fstep Y p g) (test' := ftest Y p) (emit' := femit)
    (R := fun s s' => s = s' ∧ ∃ t : ASt p, FSim s t) (P := FOpOk p) (by
      rintro s _ o ⟨rfl, t, h⟩ ho
      have h' : FSim { s with clock := s.clock + 1 } t := ⟨h.el, h.bs, h.bytes, h.fl, h.out⟩
      have h1 := call_sim hn (hX s.clock) g h' o ho
      have h2 := call_sim hn (hY s.clock) g h' o ho
      have c1 := call_clock (X s.clock) p g { s with clock := s.clock + 1 } o
      have c2 := call_clock (Y s.clock) p g { s with clock := s.clock + 1 } o
      unfold fstep
      generalize acall (rootOf p g) t o = z at h1 h2
      generalize call (X s.clock) p g { s with clock := s.clock + 1 } o = x at *
      generalize call (Y s.clock) p g { s with clock := s.clock + 1 } o = y at *
      rcases x with x | _ <;> rcases y with y | _ <;> rcases z with z | _ <;> first | trivial | exact h1.elim | exact h2.elim | skip
      exact ⟨FSim.eq h1 h2 ((c1 x rfl).trans (c2 y rfl).symm), z, h1⟩)
    (by
      rintro s _ c ⟨rfl, t, h⟩
      rw [ftest_eq hX h, ftest_eq hY h])
    (by
      rintro s _ b ⟨rfl, t, h⟩
      exact ⟨rfl, aemit t b, h.el, h.bs, h.bytes, h.fl, by change Out.bit b :: s.out = Out.bit b :: t.out; rw [h.out]⟩)
    prog hprog n (s := s) (t := s) ⟨rfl, _, hsim⟩
  unfold frun
  generalize run (fstep X p g) (ftest X p) femit n prog s = x at *
  generalize run (fstep Y p g) (ftest Y p) femit n prog s = y at *
  rcases x with _ | x | _ <;> rcases y with _ | y | _ <;> first | rfl | exact key.elim | rw [key.1]

section Ring

variable {p : ℕ} [hpo : Fact (OddModulus p)] {B : Backend}

/-- The operators of the field type with the back end `B`. -/
def addB (h : IsBackend p B) (a b : Fp p) : Fp p :=
  ⟨B.add a.limbs b.limbs, by rw [h.add a.elem b.elem]; exact (rep_add a.rep b.rep).elem⟩

def subB (h : IsBackend p B) (a b : Fp p) : Fp p :=
  ⟨B.sub a.limbs b.limbs, by rw [h.sub a.elem b.elem]; exact (rep_sub a.rep b.rep).elem⟩

def mulB (h : IsBackend p B) (a b : Fp p) : Fp p :=
  ⟨B.mul a.limbs b.limbs, by rw [h.mul hpo.out a.elem b.elem]; exact (rep_mul hpo.out a.rep b.rep).elem⟩

def negB (h : IsBackend p B) (a : Fp p) : Fp p := ⟨B.neg a.limbs, by rw [h.neg a.elem]; exact (rep_neg a.rep).elem⟩

theorem addB_eq (h : IsBackend p B) (a b : Fp p) : addB h a b = a + b := Fp.toZMod_injective (by
  rw [Fp.toZMod_eq (a := addB h a b) (x := a.toZMod + b.toZMod) (by
    change Rep p (B.add a.limbs b.limbs) _
    rw [h.add a.elem b.elem]; exact rep_add a.rep b.rep)]
  exact (Fp.toZMod_add a b).symm)

theorem subB_eq (h : IsBackend p B) (a b : Fp p) : subB h a b = a - b := Fp.toZMod_injective (by
  rw [Fp.toZMod_eq (a := subB h a b) (x := a.toZMod - b.toZMod) (by
    change Rep p (B.sub a.limbs b.limbs) _
    rw [h.sub a.elem b.elem]; exact rep_sub a.rep b.rep)]
  exact (Fp.toZMod_sub a b).symm)

theorem mulB_eq (h : IsBackend p B) (a b : Fp p) : mulB h a b = a * b := Fp.toZMod_injective (by
  rw [Fp.toZMod_eq (a := mulB h a b) (x := a.toZMod * b.toZMod) (by
    change Rep p (B.mul a.limbs b.limbs) _
    rw [h.mul hpo.out a.elem b.elem]; exact rep_mul hpo.out a.rep b.rep)]
  exact (Fp.toZMod_mul a b).symm)

theorem negB_eq (h : IsBackend p B) (a : Fp p) : negB h a = -a := Fp.toZMod_injective (by
  rw [Fp.toZMod_eq (a := negB h a) (x := -a.toZMod) (by
    change Rep p (B.neg a.limbs) _
    rw [h.neg a.elem]; exact rep_neg a.rep)]
  exact (Fp.toZMod_neg a).symm)

/-- The ring structure whose operations are those of the back end. -/
@[reducible] def ringOf (h : IsBackend p B) : CommRing (Fp p) where
  add := addB h
  zero := (0 : Fp p)
  neg := negB h
  sub := subB h
  mul := mulB h
  one := (1 : Fp p)
  nsmul := @nsmulRec _ ⟨(0 : Fp p)⟩ ⟨addB h⟩
  zsmul := @zsmulRec _ ⟨(0 : Fp p)⟩ ⟨addB h⟩ ⟨negB h⟩ (@nsmulRec _ ⟨(0 : Fp p)⟩ ⟨addB h⟩)
  npow := @npowRec _ ⟨(1 : Fp p)⟩ ⟨mulB h⟩
  natCast n := (n : Fp p)
  intCast n := (n : Fp p)
  natCast_zero := Nat.cast_zero
  natCast_succ n := by change ((n + 1 : ℕ) : Fp p) = addB h (n : Fp p) 1; rw [addB_eq]; exact Nat.cast_succ n
  intCast_ofNat n := Int.cast_natCast n
  intCast_negSucc n := by
    change ((Int.negSucc n : ℤ) : Fp p) = negB h ((n + 1 : ℕ) : Fp p); rw [negB_eq]; exact Int.cast_negSucc n
  add_assoc a b c := by change addB h (addB h a b) c = addB h a (addB h b c); simp only [addB_eq]; exact add_assoc a b c
  zero_add a := by change addB h 0 a = a; rw [addB_eq]; exact zero_add a
  add_zero a := by change addB h a 0 = a; rw [addB_eq]; exact add_zero a
  add_comm a b := by change addB h a b = addB h b a; simp only [addB_eq]; exact add_comm a b
  sub_eq_add_neg a b := by change subB h a b = addB h a (negB h b); rw [addB_eq, subB_eq, negB_eq]; exact sub_eq_add_neg a b
  neg_add_cancel a := by change addB h (negB h a) a = 0; rw [addB_eq, negB_eq]; exact neg_add_cancel a
  mul_assoc a b c := by change mulB h (mulB h a b) c = mulB h a (mulB h b c); simp only [mulB_eq]; exact mul_assoc a b c
  one_mul a := by change mulB h 1 a = a; rw [mulB_eq]; exact one_mul a
  mul_one a := by change mulB h a 1 = a; rw [mulB_eq]; exact mul_one a
  mul_comm a b := by change mulB h a b = mulB h b a; simp only [mulB_eq]; exact mul_comm a b
  zero_mul a := by change mulB h 0 a = 0; rw [mulB_eq]; exact zero_mul a
  mul_zero a := by change mulB h a 0 = 0; rw [mulB_eq]; exact mul_zero a
  left_distrib a b c := by
    change mulB h a (addB h b c) = addB h (mulB h a b) (mulB h a c); simp only [addB_eq, mulB_eq]; exact mul_add a b c
  right_distrib a b c := by
    change mulB h (addB h a b) c = addB h (mulB h a c) (mulB h b c); simp only [addB_eq, mulB_eq]; exact add_mul a b c

/-- The operations of either back end form the same ring, operation by operation. The tower fields, curves, pairings, transforms and
multi-scalar multiplications are written over this structure, so that whatever they compute is the same with and without the feature. -/
theorem C94_ring (h : IsBackend p B) : ringOf h = Fp.instCommRing :=
  CommRing.ext (by funext a b; exact addB_eq h a b) (by funext a b; exact mulB_eq h a b)

def squareB (h : IsBackend p B) (a : Fp p) : Fp p :=
  ⟨B.square a.limbs, by rw [h.square hpo.out a.elem]; exact (rep_square hpo.out a.rep).elem⟩

def doubleB (h : IsBackend p B) (a : Fp p) : Fp p := ⟨B.double a.limbs, by rw [h.double a.elem]; exact (rep_double a.rep).elem⟩

/-- The operations of the base field that the curve code calls by name. -/
@[reducible] def baseOf (h : IsBackend p B) : Curve.BaseField (Fp p) where
  sqr := squareB h
  dbl := doubleB h
  invert := Fp.invert
  isZero x := decide (x = 0)

theorem C94_base (h : IsBackend p B) : baseOf h = Fp.instBaseField := by
  have h1 : squareB h = Fp.square := by
    funext a
    refine Fp.ext' ?_
    change B.square a.limbs = _
    exact (h.limbs_square a).symm
  have h2 : doubleB h = Fp.double := by
    funext a
    refine Fp.ext' ?_
    change B.double a.limbs = _
    rw [h.double a.elem]
    unfold Fp.double
    rfl
  rw [baseOf, h1, h2]
  rfl

end Ring

/-- A program that takes the square root of 4, squares it again and compares; it would read an empty string, and panic, if there were none. -/
def rootProg : Prog FOp FTest :=
  .seq (.op (.const 0 4)) (.seq (.op (.sqrt 1 0 0)) (.ite (.flag 0) (.seq (.op (.square 2 1)) (.out (.eq 2 0))) (.op (.read .LE 3 1 7))))

/-- All registers zero. -/
def zeroSt (p : ℕ) : FSt := ⟨fun _ => zero p, fun _ => [], fun _ => false, [], 0⟩

/-- With the assembly, whatever the processor holds in its registers, this program ends and puts out that the squares agree. -/
example (M : Machine) : ∃ s', frun (fun _ => assembly bnR M) bnR 7 10 rootProg (zeroSt bnR) = some (.ok s') ∧ s'.out = [.bit true] := by
  obtain ⟨root, h1, h2, h⟩ := C94_shipped.2.1
  have hsim : FSim (zeroSt bnR) (⟨fun _ => 0, fun _ => [], fun _ => false, []⟩ : ASt bnR) :=
    ⟨fun _ => rep_zero Fact.out, rfl, fun _ x hx => absurd hx (by simp [zeroSt]), rfl, rfl⟩
  have := h (fun _ => assembly bnR M) (fun _ => Or.inr ⟨⟨by decide +kernel, by decide +kernel⟩, M, rfl⟩) rootProg
    (by simp only [rootProg, Prog.All, FOpOk]; decide) 10 _ _ hsim
  have h4 : root 4 ≠ none := fun hc => (h2 4).mp hc ⟨2, by norm_num⟩
  obtain ⟨y, hy⟩ := Option.ne_none_iff_exists'.mp h4
  have hyy : y ^ 2 = 4 := by rw [sq]; exact h1 _ _ hy
  have hrun : ∃ t, run (acall root) atest aemit 10 rootProg (⟨fun _ => 0, fun _ => [], fun _ => false, []⟩ : ASt bnR) = some (.ok t) ∧
      t.out = [.bit true] := by
    simp [rootProg, run, acall, atest, aemit, Program.set, ASt.put, hy, hyy]
  obtain ⟨t, ht, hto⟩ := hrun
  rw [ht] at this
  generalize frun (fun _ => assembly bnR M) bnR 7 10 rootProg (zeroSt bnR) = z at *
  rcases z with _ | x | _
  · exact this.elim
  · exact ⟨x, rfl, (FSim.out this).trans hto⟩
  · exact this.elim

/-- A point addition of grumpkin, whose base field is the scalar field of bn256, carried out over the assembly. -/
example (M : Machine) (C : Curve.Params (Fp bnR)) (P Q : Curve.Proj (Fp bnR)) (h : IsBackend bnR (assembly bnR M)) :
    @Curve.Proj.add (Fp bnR) (ringOf h) _ (baseOf h) C P Q = Curve.Proj.add C P Q := by
  rw [C94_ring, C94_base]

/-- The two features give the same registers. -/
example (M : Machine) (n : ℕ) : frun (fun _ => assembly bnR M) bnR 7 n rootProg (zeroSt bnR) = frun (fun _ => portable bnR) bnR 7 n rootProg (zeroSt bnR) :=
  C94_backends bnR 7 (by decide +kernel) _ _ (fun _ => Or.inr ⟨⟨by decide +kernel, by decide +kernel⟩, M, rfl⟩) (fun _ => Or.inl rfl) rootProg
    (by simp only [rootProg, Prog.All, FOpOk]; decide) n _ (fun _ => (rep_zero Fact.out).elem) (fun _ x hx => absurd hx (by simp [zeroSt]))

end Halo2.Props
