import Verif.Field.FpField
import Verif.Props.FieldBytes
import Verif.Ext.Model

/-!
# Byte encodings, order and sign at the level of `Fp p` and of the quadratic extensions over it

`Fp` functions wrap the limb functions of `Verif.Field.Model`; the `Tower2` functions model
src/derive/field/tower.rs.
-/

set_option linter.unusedSectionVars false

namespace Halo2

open Halo2.Field Halo2.Ext

/-- Result of an operation that may panic. -/
inductive Outcome (α : Type) where
  | ok (a : α)
  | panic
deriving DecidableEq

namespace Fp

variable {p : ℕ} [hp : Fact (OddModulus p)]

/-- `to_bytes`, derive/src/field/mod.rs:338-344. -/
def toBytes (e : Endian) (a : Fp p) : List ℕ := Field.toBytes p e a.limbs
/-- `from_bytes`, derive/src/field/mod.rs:328-333. -/
def fromBytes (e : Endian) (b : List ℕ) : Option (Fp p) := (Field.fromBytes p e b).map ofMont
/-- `to_repr`, derive/src/field/mod.rs:470-476. -/
def toRepr (a : Fp p) : List ℕ := Field.toRepr p a.limbs
/-- `from_repr`, derive/src/field/mod.rs:464-468. -/
def fromRepr (b : List ℕ) : Option (Fp p) := (Field.fromRepr p b).map ofMont
/-- `is_odd`, derive/src/field/mod.rs:478-480. -/
def isOdd (a : Fp p) : Bool := Field.isOdd p a.limbs
/-- `lexicographically_largest`, derive/src/field/mod.rs:368-. -/
def lexLargest (a : Fp p) : Bool := Field.lexLargest p a.limbs
/-- `cmp`, derive/src/field/mod.rs:260-. -/
def cmp (a b : Fp p) : Ordering := Field.cmp p a.limbs b.limbs
/-- `from_uniform_bytes`, derive/src/field/mod.rs:568-591. -/
def fromUniform (b : List ℕ) : Fp p := ofMont (Field.fromUniformBytes p b)
/-- `From<u64>`, derive/src/field/mod.rs. -/
def fromU64 (v : ℕ) : Fp p := ofMont (Field.fromU64 p v)
/-- `to_raw_bytes`, derive/src/field/mod.rs:505-511. -/
def toRawBytes (a : Fp p) : List ℕ := Field.toRawBytes a.limbs
/-- `from_raw_bytes`, derive/src/field/mod.rs:497-503. -/
def fromRawBytes (b : List ℕ) : Option (Fp p) := (Field.fromRawBytes p b).map ofMont
/-- `read_raw`, derive/src/field/mod.rs:522-538 (`none` is the `Err` result). -/
def readRaw (s : List ℕ) : Option (Fp p × List ℕ) := (Field.readRaw p s).map fun r => (ofMont r.1, r.2)
/-- `write_raw`, derive/src/field/mod.rs:539-544. -/
def writeRaw (a : Fp p) (s : List ℕ) : List ℕ := Field.writeRaw a.limbs s

/-- The canonical integer of an element. -/
noncomputable def toNat (a : Fp p) : ℕ := a.toZMod.val

theorem ofMont_limbs (a : Fp p) : ofMont a.limbs = a := by
  rw [ofMont, dif_pos a.elem]

theorem limbs_ofMont {l : List ℕ} (h : IsElem p l) : (ofMont l : Fp p).limbs = l := by
  rw [ofMont, dif_pos h]

theorem neZero : NeZero p := ⟨by have := hp.out.gt; omega⟩

theorem toNat_lt (a : Fp p) : a.toNat < p := by
  have := neZero (p := p)
  exact ZMod.val_lt _

theorem natCast_toNat (a : Fp p) : ((a.toNat : ℕ) : Fp p) = a := by
  have := neZero (p := p)
  apply (Fp.equiv p).injective
  rw [map_natCast]
  exact ZMod.natCast_zmod_val a.toZMod

theorem toNat_natCast (n : ℕ) : ((n : ℕ) : Fp p).toNat = n % p := by
  rw [toNat, toZMod_natCast, ZMod.val_natCast]

theorem toNat_inj {a b : Fp p} (h : a.toNat = b.toNat) : a = b := by
  rw [← natCast_toNat a, ← natCast_toNat b, h]

theorem toBytes_spec (e : Endian) (a : Fp p) :
    (a.toBytes e).length = 8 * numLimbs p ∧ IsBytes (a.toBytes e) ∧ e.nat (a.toBytes e) = a.toNat :=
  Props.C04_encode p hp.out e a.limbs a.toZMod a.rep

theorem toBytes_inj (e : Endian) {a b : Fp p} (h : a.toBytes e = b.toBytes e) : a = b := by
  apply toNat_inj
  rw [← (toBytes_spec e a).2.2, ← (toBytes_spec e b).2.2, h]

theorem fromBytes_toBytes (e : Endian) (a : Fp p) : fromBytes e (a.toBytes e) = some a := by
  rw [fromBytes, toBytes, Props.C04_roundtrip p hp.out e _ a.elem, Option.map_some, ofMont_limbs]

theorem fromBytes_some (e : Endian) (b : List ℕ) (hl : b.length = 8 * numLimbs p) (hb : IsBytes b) (a : Fp p) :
    fromBytes e b = some a ↔ b = a.toBytes e := by
  constructor
  · intro h
    rw [fromBytes, Option.map_eq_some_iff] at h
    obtain ⟨l, h1, rfl⟩ := h
    obtain ⟨h2, h3⟩ := Props.C04_unique p hp.out e b l hl hb h1
    rw [toBytes, limbs_ofMont h2, h3]
  · rintro rfl
    exact fromBytes_toBytes e a

theorem fromBytes_none (e : Endian) (b : List ℕ) (hl : b.length = 8 * numLimbs p) (hb : IsBytes b) :
    (fromBytes e b : Option (Fp p)) = none ↔ p ≤ e.nat b := by
  obtain ⟨h1, h2⟩ := Props.C04_decode p hp.out e b hl hb
  rw [fromBytes, Option.map_eq_none_iff]
  constructor
  · intro h
    by_contra hc
    obtain ⟨a, h3, _⟩ := h2 (by omega)
    rw [h] at h3
    cases h3
  · exact h1

theorem fromBytes_val (e : Endian) (b : List ℕ) (hl : b.length = 8 * numLimbs p) (hb : IsBytes b)
    (h : e.nat b < p) : fromBytes e b = some ((e.nat b : ℕ) : Fp p) := by
  rw [fromBytes_some e b hl hb]
  obtain ⟨t1, t2, t3⟩ := toBytes_spec e ((e.nat b : ℕ) : Fp p)
  exact e.nat_inj hb t2 (by rw [hl, t1]) (by rw [t3, toNat_natCast, Nat.mod_eq_of_lt h])

theorem isOdd_eq (a : Fp p) : a.isOdd = decide (a.toNat % 2 = 1) := Props.C07_is_odd p hp.out _ _ a.rep

theorem cmp_eq (a b : Fp p) : cmp a b = compare a.toNat b.toNat := Props.C07_cmp p hp.out _ _ _ _ a.rep b.rep

theorem lexLargest_eq (a : Fp p) : a.lexLargest = decide ((p - 1) / 2 ≤ a.toNat) :=
  lexLargest_spec hp.out a.rep

theorem toNat_zero : (0 : Fp p).toNat = 0 := by
  rw [toNat]
  change (zero : Fp p).toZMod.val = 0
  rw [toZMod_zero, ZMod.val_zero]

theorem toNat_neg (a : Fp p) (h : a ≠ 0) : (-a).toNat = p - a.toNat := by
  have hne : a.toZMod ≠ 0 := fun h0 => h (toZMod_injective (by rw [h0]; exact toZMod_zero.symm))
  rw [toNat, toNat]
  change (neg a).toZMod.val = _
  rw [toZMod_neg, Props.neg_val_of_ne hp.out hne]

theorem toNat_eq_zero (a : Fp p) : a.toNat = 0 ↔ a = 0 :=
  ⟨fun h => toNat_inj (by rw [h, toNat_zero]), fun h => by rw [h, toNat_zero]⟩

theorem fromUniform_eq (b : List ℕ) (hl : b.length ≤ 2 * (8 * numLimbs p)) (hb : IsBytes b) :
    (fromUniform b : Fp p) = ((leNat b : ℕ) : Fp p) := by
  have h := Props.C05_from_uniform_bytes p hp.out b hl hb
  apply toZMod_injective
  rw [toZMod_natCast]
  apply toZMod_eq
  rw [fromUniform, limbs_ofMont h.elem]
  exact h

theorem fromU64_eq (v : ℕ) (hv : v < 2 ^ 64) : (fromU64 v : Fp p) = ((v : ℕ) : Fp p) := by
  have h := (Props.C05_from_u64 p hp.out v hv).1
  apply toZMod_injective
  rw [toZMod_natCast]
  apply toZMod_eq
  rw [fromU64, limbs_ofMont h.elem]
  exact h

theorem toRawBytes_length (a : Fp p) : (a.toRawBytes).length = 8 * numLimbs p := by
  have := (toBytesLE_spec a.limbs a.elem.wf).1
  rw [a.elem.len] at this
  exact this

theorem toRawBytes_isBytes (a : Fp p) : IsBytes a.toRawBytes := (toBytesLE_spec a.limbs a.elem.wf).2.1

theorem fromRawBytes_iff (b : List ℕ) (hb : IsBytes b) (a : Fp p) :
    fromRawBytes b = some a ↔ b = a.toRawBytes := by
  rw [fromRawBytes, Option.map_eq_some_iff]
  constructor
  · rintro ⟨l, h1, rfl⟩
    obtain ⟨h2, h3⟩ := (Props.C06_raw_exact p b l hb).mp h1
    rw [toRawBytes, limbs_ofMont h2, h3]
  · rintro rfl
    exact ⟨a.limbs, (Props.C06_raw_exact p _ _ hb).mpr ⟨a.elem, rfl⟩, ofMont_limbs a⟩

theorem readRaw_iff (s : List ℕ) (hs : IsBytes s) (a : Fp p) (rest : List ℕ) :
    readRaw s = some (a, rest) ↔ s = a.toRawBytes ++ rest := by
  rw [readRaw, Option.map_eq_some_iff]
  constructor
  · rintro ⟨⟨l, r⟩, h1, h2⟩
    obtain ⟨h3, h4⟩ := (Props.C06_read_raw_exact p s l r hs).mp h1
    cases h2
    rw [toRawBytes, limbs_ofMont h3, h4]
  · rintro rfl
    exact ⟨(a.limbs, rest), (Props.C06_read_raw_exact p _ _ _ hs).mpr ⟨a.elem, rfl⟩,
      by rw [ofMont_limbs a]⟩

theorem writeRaw_eq (a : Fp p) (s : List ℕ) : a.writeRaw s = s ++ a.toRawBytes := Props.C06_write _ _

end Fp

/-! ## Quadratic extension of a prime field -/

namespace Tower2

variable {p : ℕ} [hp : Fact (OddModulus p)]

/-- `SIZE` of the base field. -/
def half (p : ℕ) : ℕ := 8 * numLimbs p

/-- `cmp`, src/derive/field/tower.rs:13-19. -/
def cmp (x y : Quad (Fp p)) : Ordering :=
  match Fp.cmp x.c1 y.c1 with
  | .gt => .gt
  | .lt => .lt
  | .eq => Fp.cmp x.c0 y.c0

/-- `From<u64>`, src/derive/field/tower.rs:29-36. -/
def fromU64 (v : ℕ) : Quad (Fp p) := ⟨Fp.fromU64 v, 0⟩

/-- Building an element from two `CtOption`s by unwrapping both; `CtOption::unwrap` of the `subtle`
crate panics on `None`. -/
def unwrapPair (c0 c1 : Option (Fp p)) : Outcome (Option (Quad (Fp p))) :=
  match c0, c1 with
  | some a, some b => .ok (some ⟨a, b⟩)
  | _, _ => .panic

/-- `from_bytes`, src/derive/field/tower.rs:41-51. -/
def fromBytes (e : Endian) (b : List ℕ) : Outcome (Option (Quad (Fp p))) :=
  unwrapPair (Fp.fromBytes e (b.take (half p))) (Fp.fromBytes e (b.drop (half p)))

/-- `to_bytes`, src/derive/field/tower.rs:56-63. -/
def toBytes (e : Endian) (x : Quad (Fp p)) : List ℕ := x.c0.toBytes e ++ x.c1.toBytes e

/-- `lexicographically_largest`, src/derive/field/tower.rs:68-78. -/
def lexLargest (x : Quad (Fp p)) : Bool :=
  x.c1.lexLargest || (decide (x.c1 = 0) && x.c0.lexLargest)

/-- `from_repr`, src/derive/field/tower.rs:126-136. -/
def fromRepr (b : List ℕ) : Outcome (Option (Quad (Fp p))) :=
  unwrapPair (Fp.fromRepr (b.take (half p))) (Fp.fromRepr (b.drop (half p)))

/-- `to_repr`, src/derive/field/tower.rs:138-145. -/
def toRepr (x : Quad (Fp p)) : List ℕ := x.c0.toRepr ++ x.c1.toRepr

/-- `is_odd`, src/derive/field/tower.rs:147-149. -/
def isOdd (x : Quad (Fp p)) : Bool := ((toRepr x).headD 0 &&& 1) == 1

/-- `from_raw_bytes`, src/derive/field/tower.rs:159-166. -/
def fromRawBytes (b : List ℕ) : Option (Quad (Fp p)) :=
  if b.length ≠ half p * 2 then none
  else
    match (Fp.fromRawBytes (b.take (half p)) : Option (Fp p)),
      (Fp.fromRawBytes ((b.drop (half p)).take (half p)) : Option (Fp p)) with
    | some a, some b => some ⟨a, b⟩
    | _, _ => none

/-- `to_raw_bytes`, src/derive/field/tower.rs:167-173. -/
def toRawBytes (x : Quad (Fp p)) : List ℕ := (x.c0.limbs ++ x.c1.limbs).flatMap toLeBytes

/-- `read_raw`, src/derive/field/tower.rs:178-182. -/
def readRaw (s : List ℕ) : Option (Quad (Fp p) × List ℕ) :=
  match (Fp.readRaw s : Option (Fp p × List ℕ)) with
  | none => none
  | some (c0, s) =>
    match (Fp.readRaw s : Option (Fp p × List ℕ)) with
    | none => none
    | some (c1, s) => some (⟨c0, c1⟩, s)

/-- `write_raw`, src/derive/field/tower.rs:183-186. -/
def writeRaw (x : Quad (Fp p)) (s : List ℕ) : List ℕ := x.c1.writeRaw (x.c0.writeRaw s)

/-- `from_uniform_bytes`, src/derive/field/tower.rs:199-208: `c0` is the second half. -/
def fromUniform (b : List ℕ) : Quad (Fp p) :=
  ⟨Fp.fromUniform (b.drop (b.length / 2)), Fp.fromUniform (b.take (b.length / 2))⟩

end Tower2

end Halo2
