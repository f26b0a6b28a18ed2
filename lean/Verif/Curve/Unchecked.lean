import Verif.Curve.SerdeInst

/-!
# Model of the unchecked raw readers of towers and points

The unchecked readers store whatever limbs they read, canonical or not, so that their results are modelled by the stored limb
vectors: `List ℕ` for a prime field, a pair of them for a quadratic extension. `Option` is used for streams, `none` being the panic of
`read_exact(..).unwrap()`. The slices `bytes[i..i + SIZE]` panic on a short argument; the theorems are about arguments of the
right length.
-/

namespace Halo2.Curve

open Halo2 Halo2.Field Halo2.Ext

/-- The unchecked readers of a coordinate type whose stored form is `L`. -/
structure RawReader (F L : Type) where
  size : ℕ
  /-- The stored form of an element. -/
  stored : F → L
  /-- The bytes of a stored form, as `to_raw_bytes` writes them. -/
  bytes : L → List ℕ
  fromRaw : List ℕ → L
  readRaw : List ℕ → Option (L × List ℕ)

/-- Prime fields, derive/src/field/mod.rs:486-520. -/
def RawReader.fp (p : ℕ) [Fact (OddModulus p)] : RawReader (Fp p) (List ℕ) where
  size := 8 * numLimbs p
  stored a := a.limbs
  bytes := Field.toRawBytes
  fromRaw := Field.fromRawBytesUnchecked p
  readRaw := Field.readRawUnchecked p

/-- Quadratic extensions, src/derive/field/tower.rs:153-158, 175-178. -/
def RawReader.tower (p : ℕ) [Fact (OddModulus p)] : RawReader (Quad (Fp p)) (List ℕ × List ℕ) where
  size := 2 * Tower2.half p
  stored a := (a.c0.limbs, a.c1.limbs)
  bytes l := (l.1 ++ l.2).flatMap toLeBytes
  fromRaw b := (Field.fromRawBytesUnchecked p ((b.drop 0).take (Tower2.half p)),
    Field.fromRawBytesUnchecked p ((b.drop (Tower2.half p)).take (Tower2.half p)))
  readRaw s :=
    match Field.readRawUnchecked p s with
    | none => none
    | some (c0, s) =>
      match Field.readRawUnchecked p s with
      | none => none
      | some (c1, s) => some ((c0, c1), s)

namespace RawReader

variable {F L : Type} (U : RawReader F L)

/-- `from_raw_bytes_unchecked` of the affine type, src/derive/curve.rs:719-724. -/
def affFromRaw (b : List ℕ) : L × L :=
  (U.fromRaw ((b.drop 0).take U.size), U.fromRaw ((b.drop U.size).take U.size))

/-- `read_raw_unchecked` of the affine type, src/derive/curve.rs:741-744. -/
def affReadRaw (s : List ℕ) : Option ((L × L) × List ℕ) :=
  match U.readRaw s with
  | none => none
  | some (x, s) =>
    match U.readRaw s with
    | none => none
    | some (y, s) => some ((x, y), s)

/-- `from_raw_bytes_unchecked` of the projective type, src/derive/curve.rs:617-622. -/
def projFromRaw (b : List ℕ) : L × L × L :=
  (U.fromRaw ((b.drop (0 * U.size)).take U.size), U.fromRaw ((b.drop (1 * U.size)).take U.size),
    U.fromRaw ((b.drop (2 * U.size)).take U.size))

/-- `read_raw_unchecked` of the projective type, src/derive/curve.rs:640-643. -/
def projReadRaw (s : List ℕ) : Option ((L × L × L) × List ℕ) :=
  match U.readRaw s with
  | none => none
  | some (x, s) =>
    match U.readRaw s with
    | none => none
    | some (y, s) =>
      match U.readRaw s with
      | none => none
      | some (z, s) => some ((x, y, z), s)

/-- What the readers of points need of the readers of coordinates. -/
structure Lawful : Prop where
  length (a : F) : (U.bytes (U.stored a)).length = U.size
  stored_bytes (a : F) : U.fromRaw (U.bytes (U.stored a)) = U.stored a
  stored_inj : Function.Injective U.stored
  /-- Nothing of the argument is lost. -/
  bytes_from (b : List ℕ) (hl : b.length = U.size) (hb : IsBytes b) : U.bytes (U.fromRaw b) = b
  read (s : List ℕ) : U.readRaw s = if s.length < U.size then none else some (U.fromRaw (s.take U.size), s.drop U.size)

theorem fp_bytes_from (p : ℕ) [Fact (OddModulus p)] (b : List ℕ) (hl : b.length = 8 * numLimbs p) (hb : IsBytes b) :
    (Field.fromRawBytesUnchecked p b).flatMap toLeBytes = b ∧ (Field.fromRawBytesUnchecked p b).length = numLimbs p := by
  obtain ⟨f1, f2, f3⟩ := fromBytesLE_spec (numLimbs p) b hl hb
  obtain ⟨t1, t2, t3⟩ := toBytesLE_spec _ f2
  refine ⟨leNat_inj t2 hb ?_ (t3.trans f3), f1⟩
  rw [show (Field.fromRawBytesUnchecked p b) = Endian.LE.fromBytes (numLimbs p) b from rfl, t1, f1, hl]

theorem fp_lawful (p : ℕ) [Fact (OddModulus p)] : (fp p).Lawful where
  length a := by
    obtain ⟨t1, _, _⟩ := toBytesLE_spec a.limbs a.elem.wf
    change (a.limbs.flatMap toLeBytes).length = 8 * numLimbs p
    rw [t1, a.elem.len]
  stored_bytes a := (Props.C06_raw_roundtrip p a.limbs a.elem).2
  stored_inj a b h := by
    rw [← Fp.ofMont_limbs a, ← Fp.ofMont_limbs b]
    exact congrArg _ h
  bytes_from b hl hb := (fp_bytes_from p b hl hb).1
  read s := readLimbs_spec (numLimbs p) s

theorem tower_lawful (p : ℕ) [Fact (OddModulus p)] : (tower p).Lawful where
  length a := by
    obtain ⟨t1, _, _⟩ := toBytesLE_spec a.c0.limbs a.c0.elem.wf
    obtain ⟨t2, _, _⟩ := toBytesLE_spec a.c1.limbs a.c1.elem.wf
    change ((a.c0.limbs ++ a.c1.limbs).flatMap toLeBytes).length = 2 * (8 * numLimbs p)
    rw [List.flatMap_append, List.length_append, t1, t2, a.c0.elem.len, a.c1.elem.len, two_mul]
  stored_bytes a := by
    have l0 := (fp_lawful p).length a.c0
    have l1 := (fp_lawful p).length a.c1
    have e0 := (fp_lawful p).stored_bytes a.c0
    have e1 := (fp_lawful p).stored_bytes a.c1
    change (Field.fromRawBytesUnchecked p ((((a.c0.limbs ++ a.c1.limbs).flatMap toLeBytes).drop 0).take (8 * numLimbs p)),
      Field.fromRawBytesUnchecked p ((((a.c0.limbs ++ a.c1.limbs).flatMap toLeBytes).drop (8 * numLimbs p)).take (8 * numLimbs p))) = _
    change (a.c0.limbs.flatMap toLeBytes).length = 8 * numLimbs p at l0
    change (a.c1.limbs.flatMap toLeBytes).length = 8 * numLimbs p at l1
    rw [List.flatMap_append, List.drop_zero, List.take_left' l0, List.drop_left' l0, List.take_of_length_le (le_of_eq l1)]
    exact Prod.ext e0 e1
  stored_inj a b h := by
    have h0 := (fp_lawful p).stored_inj (congrArg Prod.fst h)
    have h1 := (fp_lawful p).stored_inj (congrArg Prod.snd h)
    exact Quad.ext h0 h1
  bytes_from b hl hb := by
    change b.length = 2 * (8 * numLimbs p) at hl
    change (Field.fromRawBytesUnchecked p ((b.drop 0).take (8 * numLimbs p)) ++
      Field.fromRawBytesUnchecked p ((b.drop (8 * numLimbs p)).take (8 * numLimbs p))).flatMap toLeBytes = b
    rw [List.flatMap_append, (fp_bytes_from p _ (by rw [List.drop_zero, List.length_take]; omega) ((hb.drop _).take _)).1,
      (fp_bytes_from p _ (by rw [List.length_take, List.length_drop]; omega) ((hb.drop _).take _)).1, List.drop_zero,
      List.take_of_length_le (l := b.drop _) (by rw [List.length_drop]; omega), List.take_append_drop]
  read s := by
    have hr := (fp_lawful p).read
    change ∀ s, Field.readRawUnchecked p s = if s.length < 8 * numLimbs p then none
      else some (Field.fromRawBytesUnchecked p (s.take (8 * numLimbs p)), s.drop (8 * numLimbs p)) at hr
    change (match Field.readRawUnchecked p s with
      | none => none
      | some (c0, s) => match Field.readRawUnchecked p s with
        | none => none
        | some (c1, s) => some ((c0, c1), s)) = if s.length < 2 * (8 * numLimbs p) then none else
          some ((Field.fromRawBytesUnchecked p (((s.take (2 * (8 * numLimbs p))).drop 0).take (8 * numLimbs p)),
            Field.fromRawBytesUnchecked p (((s.take (2 * (8 * numLimbs p))).drop (8 * numLimbs p)).take (8 * numLimbs p))),
            s.drop (2 * (8 * numLimbs p)))
    generalize 8 * numLimbs p = n at *
    rw [hr]
    by_cases h1 : s.length < n
    · rw [if_pos h1, if_pos (by omega)]
    · rw [if_neg h1]
      simp only
      rw [hr, List.length_drop]
      by_cases h2 : s.length - n < n
      · rw [if_pos h2, if_pos (by omega)]
      · rw [if_neg h2, if_neg (by omega), List.drop_drop, List.drop_zero, List.take_take, Nat.min_eq_left (by omega), List.drop_take,
          List.take_take, ← two_mul, Nat.min_eq_left (by omega)]

end RawReader

end Halo2.Curve
