import Verif.Field.FpBytes
import Verif.Curve.Serde

/-!
# Serialization through serde (feature `derive_serde`)

A value of a serde format is modelled by the tree of serde's data model that the format carries; the formats themselves (JSON, bincode) are
not modelled. `serde`, `serde_arrays` and `hex` are external crates: the functions `hexEncode`, `hexDecode`, `serBytes`, `deBytes`,
`serStruct2`, `deStruct2` state their contracts.
-/

namespace Halo2.Field

open Halo2 Halo2.Ext

/-- Values of serde's data model that occur here. A string is the list of its UTF-8 bytes. -/
inductive Data where
  | u8 (n : ℕ)
  | str (s : List ℕ)
  | tuple (l : List Data)
  | map (l : List (List ℕ × Data))

/-- A format: whether it says it is human readable, and whether it writes structs with the names of their fields. -/
structure Format where
  human : Bool
  keyed : Bool

/-- Contract of the crate hex 0.4: the lower-case digit. -/
def hexDigit (n : ℕ) : ℕ := if n < 10 then 48 + n else 87 + n

/-- Contract of the crate hex 0.4, `encode`. -/
def hexEncode (b : List ℕ) : List ℕ := b.flatMap fun x => [hexDigit (x / 16), hexDigit (x % 16)]

/-- Contract of the crate hex 0.4, `val`: the value of a digit of either case. -/
def hexVal (c : ℕ) : Option ℕ :=
  if 65 ≤ c ∧ c ≤ 70 then some (c - 65 + 10)
  else if 97 ≤ c ∧ c ≤ 102 then some (c - 97 + 10)
  else if 48 ≤ c ∧ c ≤ 57 then some (c - 48)
  else none

/-- Contract of the crate hex 0.4: the pairs of digits. -/
def hexPairs : List ℕ → Option (List ℕ)
  | [] => some []
  | [_] => none
  | a :: b :: r =>
    match hexVal a, hexVal b, hexPairs r with
    | some x, some y, some l => some ((x * 16 + y) :: l)
    | _, _, _ => none

/-- Contract of the crate hex 0.4, `FromHex` of `[u8; N]`. -/
def hexDecode (N : ℕ) (s : List ℕ) : Option (List ℕ) :=
  if s.length % 2 ≠ 0 then none else if s.length / 2 ≠ N then none else hexPairs s

/-- One byte of a tuple. -/
def Data.byte? : Data → Option ℕ
  | .u8 n => if n < 256 then some n else none
  | _ => none

/-- The bytes of a tuple. -/
def tupleBytes : List Data → Option (List ℕ)
  | [] => some []
  | d :: r =>
    match d.byte?, tupleBytes r with
    | some n, some l => some (n :: l)
    | _, _ => none

/-- Serializing a byte array: `hex::serde::serialize` or `serde_arrays::serialize`. Models src/derive/field/common.rs:114-119 and
src/derive/curve.rs:193-198. -/
def serBytes (f : Format) (b : List ℕ) : Data := if f.human then .str (hexEncode b) else .tuple (b.map .u8)

/-- Deserializing an array of `N` bytes. Models src/derive/field/common.rs:99-103 and src/derive/curve.rs:207-211. -/
def deBytes (f : Format) (N : ℕ) (d : Data) : Option (List ℕ) :=
  match f.human, d with
  | true, .str s => hexDecode N s
  | false, .tuple l => if l.length = N then tupleBytes l else none
  | _, _ => none

/-- Models src/serde.rs:9-13: the derived serialization of `Repr`, which uses `serde_arrays` whatever the format. -/
def serRepr (b : List ℕ) : Data := .tuple (b.map .u8)

/-- Models src/serde.rs:9-13: the derived deserialization of `Repr<N>`. -/
def deRepr (N : ℕ) (d : Data) : Option (List ℕ) :=
  match d with
  | .tuple l => if l.length = N then tupleBytes l else none
  | _ => none

/-- The two field names `c0` and `c1`. -/
def c0Name : List ℕ := [99, 48]
/-- The two field names `c0` and `c1`. -/
def c1Name : List ℕ := [99, 49]

/-- Contract of serde's derive: a struct with the fields `c0` and `c1`. -/
def serStruct2 (f : Format) (a b : Data) : Data :=
  if f.keyed then .map [(c0Name, a), (c1Name, b)] else .tuple [a, b]

/-- The only value stored under a key; a duplicate is an error. -/
def onlyAt (k : List ℕ) (l : List (List ℕ × Data)) : Option Data :=
  match l.filter (fun e => e.1 == k) with
  | [e] => some e.2
  | _ => none

/-- Contract of serde's derive: a struct is read from a map, where unknown keys are ignored and duplicates are errors, or from a
sequence. -/
def deStruct2 (d : Data) : Option (Data × Data) :=
  match d with
  | .map l =>
    match onlyAt c0Name l, onlyAt c1Name l with
    | some a, some b => some (a, b)
    | _, _ => none
  | .tuple [a, b] => some (a, b)
  | _ => none

/-- Lower-casing the hexadecimal letters of a string value. -/
def lowerHex (s : List ℕ) : List ℕ := s.map fun c => if 65 ≤ c ∧ c ≤ 70 then c + 32 else c

/-- A value with the hexadecimal letters of its string lower-cased. -/
def Data.lower : Data → Data
  | .str s => .str (lowerHex s)
  | d => d

/-! ### Lemmas -/

theorem hexVal_hexDigit (n : ℕ) (h : n < 16) : hexVal (hexDigit n) = some n := by
  revert h
  revert n
  decide

theorem hexVal_some (c x : ℕ) : hexVal c = some x ↔ x < 16 ∧ (if 65 ≤ c ∧ c ≤ 70 then c + 32 else c) = hexDigit x := by
  unfold hexVal hexDigit
  split_ifs <;> simp only [Option.some.injEq, false_iff] <;> omega

theorem hexPairs_iff : ∀ (s b : List ℕ), hexPairs s = some b ↔ IsBytes b ∧ lowerHex s = hexEncode b
  | [], b => by
    cases b with
    | nil => simp [hexPairs, hexEncode, lowerHex, IsBytes]
    | cons x b => simp [hexPairs, hexEncode, lowerHex]
  | [c], b => by
    cases b with
    | nil => simp [hexPairs, hexEncode, lowerHex]
    | cons x b => simp [hexPairs, hexEncode, lowerHex]
  | c :: d :: s, b => by
    have ih := hexPairs_iff s
    cases b with
    | nil =>
      rw [hexPairs]
      constructor
      · intro h
        split at h
        · cases h
        · cases h
      · rintro ⟨_, h⟩
        cases h
    | cons z b =>
      rw [hexPairs]
      constructor
      · intro h
        split at h
        · rename_i x y l hx hy hl
          rw [Option.some.injEq, List.cons.injEq] at h
          obtain ⟨rfl, rfl⟩ := h
          obtain ⟨hx1, hx2⟩ := (hexVal_some _ _).mp hx
          obtain ⟨hy1, hy2⟩ := (hexVal_some _ _).mp hy
          obtain ⟨h1, h2⟩ := (ih l).mp hl
          refine ⟨fun t ht => ?_, ?_⟩
          · rcases List.mem_cons.mp ht with rfl | ht
            · omega
            · exact h1 t ht
          · rw [hexEncode, List.flatMap_cons, lowerHex, List.map_cons, List.map_cons, hx2, hy2,
              show (x * 16 + y) / 16 = x by omega, show (x * 16 + y) % 16 = y by omega]
            rw [lowerHex, hexEncode] at h2
            rw [h2]
            rfl
        · cases h
      · rintro ⟨hb, h⟩
        have hz : z < 256 := hb z List.mem_cons_self
        rw [hexEncode, List.flatMap_cons, lowerHex, List.map_cons, List.map_cons] at h
        simp only [List.cons_append, List.nil_append, List.cons.injEq] at h
        obtain ⟨h1, h2, h3⟩ := h
        rw [(hexVal_some c (z / 16)).mpr ⟨by omega, h1⟩, (hexVal_some d (z % 16)).mpr ⟨by omega, h2⟩,
          (ih b).mpr ⟨fun t ht => hb t (List.mem_cons_of_mem _ ht), h3⟩]
        simp only [Option.some.injEq, List.cons.injEq, and_true]
        omega

theorem hexEncode_length (b : List ℕ) : (hexEncode b).length = 2 * b.length := by
  induction b with
  | nil => rfl
  | cons x b ih =>
    rw [hexEncode, List.flatMap_cons, List.length_append, ← hexEncode, ih]
    simp only [List.length_cons, List.length_nil]
    omega

theorem hexDecode_iff (N : ℕ) (s b : List ℕ) :
    hexDecode N s = some b ↔ b.length = N ∧ IsBytes b ∧ lowerHex s = hexEncode b := by
  have hlen : lowerHex s = hexEncode b → s.length = 2 * b.length := fun h => by
    rw [← hexEncode_length, ← h, lowerHex, List.length_map]
  rw [hexDecode]
  constructor
  · intro h
    split at h
    · cases h
    split at h
    · cases h
    obtain ⟨h1, h2⟩ := (hexPairs_iff s b).mp h
    have := hlen h2
    exact ⟨by omega, h1, h2⟩
  · rintro ⟨h0, h1, h2⟩
    have := hlen h2
    rw [if_neg (by omega), if_neg (by omega)]
    exact (hexPairs_iff s b).mpr ⟨h1, h2⟩

theorem tupleBytes_iff : ∀ (l : List Data) (b : List ℕ), tupleBytes l = some b ↔ IsBytes b ∧ l = b.map .u8
  | [], b => by
    cases b with
    | nil => simp [tupleBytes, IsBytes]
    | cons x b => simp [tupleBytes]
  | d :: l, b => by
    have ih := tupleBytes_iff l
    rw [tupleBytes]
    constructor
    · intro h
      split at h
      · rename_i n r hn hr
        cases h
        obtain ⟨h1, h2⟩ := (ih r).mp hr
        cases d with
        | u8 m =>
          rw [Data.byte?] at hn
          split at hn
          · cases hn
            refine ⟨fun t ht => ?_, by rw [h2]; rfl⟩
            rcases List.mem_cons.mp ht with rfl | ht
            · assumption
            · exact h1 t ht
          · cases hn
        | str s => cases hn
        | tuple s => cases hn
        | map s => cases hn
      · cases h
    · rintro ⟨hb, h⟩
      cases b with
      | nil => cases h
      | cons n r =>
        rw [List.map_cons, List.cons.injEq] at h
        obtain ⟨rfl, rfl⟩ := h
        rw [(ih r).mpr ⟨fun t ht => hb t (List.mem_cons_of_mem _ ht), rfl⟩, Data.byte?, if_pos (hb n List.mem_cons_self)]

/-- Exactly the serializations of arrays of `N` bytes are read back, up to the case of hexadecimal letters. -/
theorem deBytes_iff (f : Format) (N : ℕ) (d : Data) (b : List ℕ) :
    deBytes f N d = some b ↔ b.length = N ∧ IsBytes b ∧ d.lower = serBytes f b := by
  obtain ⟨hu, ky⟩ := f
  cases hu with
  | true =>
    cases d with
    | str s =>
      simp only [deBytes, serBytes, if_true, Data.lower, Data.str.injEq]
      exact hexDecode_iff N s b
    | u8 n => simp [deBytes, serBytes, Data.lower]
    | tuple l => simp [deBytes, serBytes, Data.lower]
    | map l => simp [deBytes, serBytes, Data.lower]
  | false =>
    cases d with
    | tuple l =>
      simp only [deBytes, serBytes, Data.lower, Data.tuple.injEq, Bool.false_eq_true, if_false]
      constructor
      · intro h
        split at h
        · obtain ⟨h1, h2⟩ := (tupleBytes_iff l b).mp h
          refine ⟨?_, h1, h2⟩
          rename_i hl
          rw [← hl, h2, List.length_map]
        · cases h
      · rintro ⟨h0, h1, rfl⟩
        rw [if_pos (by rw [List.length_map, h0])]
        exact (tupleBytes_iff _ b).mpr ⟨h1, rfl⟩
    | u8 n => simp [deBytes, serBytes, Data.lower]
    | str l => simp [deBytes, serBytes, Data.lower]
    | map l => simp [deBytes, serBytes, Data.lower]

theorem hexDigit_lower (n : ℕ) (h : n < 16) : (if 65 ≤ hexDigit n ∧ hexDigit n ≤ 70 then hexDigit n + 32 else hexDigit n) = hexDigit n := by
  revert h
  revert n
  decide

theorem lowerHex_hexEncode (b : List ℕ) (hb : IsBytes b) : lowerHex (hexEncode b) = hexEncode b := by
  induction b with
  | nil => rfl
  | cons x b ih =>
    have hx : x < 256 := hb x List.mem_cons_self
    have ih := ih fun t ht => hb t (List.mem_cons_of_mem _ ht)
    rw [hexEncode, List.flatMap_cons, ← hexEncode, List.cons_append, List.cons_append, List.nil_append, lowerHex, List.map_cons,
      List.map_cons, ← lowerHex, ih, hexDigit_lower _ (by omega), hexDigit_lower _ (by omega)]

theorem serBytes_lower (f : Format) (b : List ℕ) (hb : IsBytes b) : (serBytes f b).lower = serBytes f b := by
  rw [serBytes]
  split
  · rw [Data.lower, lowerHex_hexEncode b hb]
  · rfl

theorem serBytes_inj (f : Format) (b b' : List ℕ) (hb : IsBytes b) (hb' : IsBytes b') (h : serBytes f b = serBytes f b') : b = b' := by
  have h1 := (deBytes_iff f b.length (serBytes f b) b).mpr ⟨rfl, hb, serBytes_lower f b hb⟩
  have hl : b'.length = b.length := by
    rw [serBytes, serBytes] at h
    split at h
    · rw [Data.str.injEq] at h
      have := congrArg List.length h
      rw [hexEncode_length, hexEncode_length] at this
      omega
    · rw [Data.tuple.injEq] at h
      have := congrArg List.length h
      rw [List.length_map, List.length_map] at this
      exact this.symm
  rw [(deBytes_iff f b.length (serBytes f b) b').mpr ⟨hl, hb', by rw [h]; exact serBytes_lower f b' hb'⟩] at h1
  exact (Option.some.inj h1).symm

/-! ### Prime fields and quadratic extensions -/

section
variable {p : ℕ} [Fact (OddModulus p)]

/-- Models src/derive/field/common.rs:111-120 (`Serialize` of a prime field). -/
def Fp.ser (f : Format) (a : Fp p) : Data := serBytes f a.toRepr

/-- Models src/derive/field/common.rs:94-108 (`Deserialize` of a prime field). -/
def Fp.de (f : Format) (d : Data) : Option (Fp p) :=
  match deBytes f (8 * numLimbs p) d with
  | none => none
  | some b => Fp.fromRepr b

/-- Models src/ff_ext/quadratic.rs:171-176 (the derived `Serialize`). -/
def Tower2.ser (f : Format) (x : Quad (Fp p)) : Data := serStruct2 f (Fp.ser f x.c0) (Fp.ser f x.c1)

/-- Models src/ff_ext/quadratic.rs:171-176 (the derived `Deserialize`). -/
def Tower2.de (f : Format) (d : Data) : Option (Quad (Fp p)) :=
  match deStruct2 d with
  | none => none
  | some (a, b) =>
    match (Fp.de f a : Option (Fp p)), (Fp.de f b : Option (Fp p)) with
    | some c0, some c1 => some ⟨c0, c1⟩
    | _, _ => none

theorem Fp.de_iff (f : Format) (d : Data) (a : Fp p) : Fp.de f d = some a ↔ d.lower = Fp.ser f a := by
  have hs : (a.toRepr).length = 8 * numLimbs p ∧ IsBytes a.toRepr :=
    ⟨(Fp.toBytes_spec .LE a).1, (Fp.toBytes_spec .LE a).2.1⟩
  rw [Fp.de]
  constructor
  · intro h
    split at h
    · cases h
    · rename_i b hb
      obtain ⟨h1, h2, h3⟩ := (deBytes_iff f _ d b).mp hb
      have h4 : b = a.toRepr := (Fp.fromBytes_some .LE b h1 h2 a).mp h
      rw [h3, h4, Fp.ser]
  · intro h
    rw [(deBytes_iff f _ d a.toRepr).mpr ⟨hs.1, hs.2, h⟩]
    exact (Fp.fromBytes_some .LE _ hs.1 hs.2 a).mpr rfl

theorem Fp.ser_lower (f : Format) (a : Fp p) : (Fp.ser f a).lower = Fp.ser f a :=
  serBytes_lower f _ (Fp.toBytes_spec .LE a).2.1

theorem Fp.ser_inj (f : Format) (a b : Fp p) (h : Fp.ser f a = Fp.ser f b) : a = b :=
  Fp.toBytes_inj .LE (serBytes_inj f _ _ (Fp.toBytes_spec .LE a).2.1 (Fp.toBytes_spec .LE b).2.1 h)

end

end Halo2.Field

namespace Halo2.Curve

open Halo2 Halo2.Field Halo2.Ext

variable {F : Type} [CommRing F] [DecidableEq F] [BaseField F]

namespace Codec

/-- Models src/derive/curve.rs:219-228 (`Serialize` of an affine point). -/
def ser (K : Codec F) (C : Params F) (f : Format) (A : Aff F) : Outcome Data :=
  match K.encode C A with
  | .panic => .panic
  | .ok b => .ok (serBytes f b)

/-- Models src/derive/curve.rs:231-245 (`Deserialize` of an affine point). -/
def de (K : Codec F) (C : Params F) (f : Format) (d : Data) : Outcome (Option (Aff F)) :=
  match deBytes f K.compressedSize d with
  | none => .ok none
  | some b => K.decode C b

/-- Models src/derive/curve.rs:190-200 (`Serialize` of a projective point). -/
def serProj (K : Codec F) (C : Params F) (f : Format) (P : Proj F) : Outcome Data :=
  match K.encodeProj C P with
  | .panic => .panic
  | .ok b => .ok (serBytes f b)

/-- Models src/derive/curve.rs:202-216 (`Deserialize` of a projective point). -/
def deProj (K : Codec F) (C : Params F) (f : Format) (d : Data) : Outcome (Option (Proj F)) :=
  match deBytes f K.compressedSize d with
  | none => .ok none
  | some b => K.decodeProj C b

end Codec

end Halo2.Curve
