import Verif.Curve.Model
import Verif.Field.FpBytes

/-!
# Model of the point encodings (src/serde.rs, src/derive/curve.rs)

Byte strings are lists of numbers below 256. `Outcome.panic` stands for a call that does not return
normally.
-/

namespace Halo2.Curve

open Halo2 Halo2.Field

/-- Models src/serde.rs:171-185 (`CompressedFlagConfig`). -/
inductive FlagConfig where
  | extra
  | twoSpare
  | threeSpare
deriving DecidableEq

/-- Models src/serde.rs:187-191 (`has_extra_byte`). -/
def FlagConfig.hasExtra : FlagConfig → Bool
  | .extra => true
  | _ => false

/-- What the encoding code needs of the base field and of the curve's `Compressed` implementation.
`sgn` is the sign rule of `sign`/`resolve`: `y.to_repr()[0] & 1` (src/derive/curve.rs:71-77) or
`lexicographically_largest` (src/bls12381/g1.rs, g2.rs). -/
structure Codec (F : Type) where
  size : ℕ
  endian : Endian
  config : FlagConfig
  toBytes : F → List ℕ
  fromBytes : List ℕ → Outcome (Option F)
  sgn : F → Bool
  sqrt : F → Outcome (Option F)
  toRaw : F → List ℕ
  fromRaw : List ℕ → Option F
  readRaw : List ℕ → Option (F × List ℕ)

/-- Models src/serde.rs:196-198 (`Flag::flag`). -/
def Flag.flag (pos : ℕ) : ℕ := 1 <<< (7 - pos)

/-- Models src/serde.rs:200-202 (`Flag::set`). -/
def Flag.set (pos : ℕ) (value : Bool) (byte : ℕ) : ℕ := if value then byte ||| Flag.flag pos else byte

/-- Models src/serde.rs:204-209 (`Flag::get`): the flag, and the byte with the flag cleared. -/
def Flag.get (pos : ℕ) (byte : ℕ) : Bool × ℕ :=
  let flag := Flag.flag pos
  let value := (byte &&& flag) != 0
  (value, byte &&& (255 ^^^ flag))

namespace FlagConfig

/-- Models src/serde.rs:237-243 (`pos_sign`). -/
def posSign : FlagConfig → ℕ
  | extra => 0
  | twoSpare => 0
  | threeSpare => 2

/-- Models src/serde.rs:245-250 (`pos_compressed`). -/
def posCompressed : FlagConfig → Option ℕ
  | threeSpare => some 0
  | _ => none

/-- Models src/serde.rs:252-258 (`pos_idetity`). -/
def posIdentity : FlagConfig → Option ℕ
  | extra => some 1
  | twoSpare => some 1
  | threeSpare => some 1

end FlagConfig

variable {F : Type} [CommRing F] [DecidableEq F] [BaseField F]

namespace Codec

variable (K : Codec F)

/-- The index of the flag byte. Models src/serde.rs:219-231 (`flag_byte`). -/
def flagIdx (b : List ℕ) : ℕ :=
  match K.config with
  | .extra => 0
  | _ =>
    match K.endian with
    | .LE => b.length - 1
    | .BE => 0

/-- Models src/serde.rs:260-276 (`set_sign`, `set_compressed`, `set_identity`): writing a flag, if the layout has
it, into the flag byte. -/
def setFlag (pos : Option ℕ) (value : Bool) (b : List ℕ) : List ℕ :=
  match pos with
  | none => b
  | some pos => b.modify (K.flagIdx b) (Flag.set pos value)

/-- Models src/serde.rs:278-288 (`get_sign`, `get_is_compressed`, `get_is_identity`): reading and clearing a
flag. -/
def getFlag (pos : Option ℕ) (b : List ℕ) : Option Bool × List ℕ :=
  match pos with
  | none => (none, b)
  | some pos =>
    let r := Flag.get pos (b.getD (K.flagIdx b) 0)
    (some r.1, b.set (K.flagIdx b) r.2)

variable (C : Params F)

/-- `Compressed::sign`, src/derive/curve.rs:71-73, src/bls12381/g1.rs, src/bls12381/g2.rs:96-98. -/
def sign (A : Aff F) : Bool := K.sgn A.y && !A.isIdentity

/-- `Compressed::resolve`, src/derive/curve.rs:74-79, src/bls12381/g2.rs:99-104. -/
def resolve (x : F) (signSet : Bool) : Outcome (Option (Aff F)) :=
  match K.sqrt (y2 C x) with
  | .panic => .panic
  | .ok r => .ok (r.map fun y => ⟨x, if xor signSet (K.sgn y) then -y else y⟩)

/-- Models src/serde.rs:296-313 (`encode`). `c.coordinates().unwrap()` panics when the pair is not on the
curve. -/
def encode (A : Aff F) : Outcome (List ℕ) :=
  match Aff.fromXY C A.x A.y with
  | none => .panic
  | some co =>
    let xBytes := K.toBytes co.x
    let this := if K.config.hasExtra then 0 :: xBytes else xBytes
    let this := K.setFlag K.config.posIdentity A.isIdentity this
    let this := K.setFlag (some K.config.posSign) (K.sign A) this
    let this := K.setFlag K.config.posCompressed true this
    .ok this

/-- The closure of src/serde.rs:334-367. `CtOption::or_else` evaluates its argument in every case. -/
def decodeBody (isCompressed isIdentity : Option Bool) (sign valid1 : Bool) (x : F) : Outcome (Option (Aff F)) :=
  let valid0 := isCompressed.getD true
  let isZ := isZero x
  let r : Bool × Bool :=
    match isIdentity with
    | some i => (xor (i && isZ && !sign) (!i && !isZ), i)
    | none => (true, isZ)
  let valid := valid0 && valid1 && r.1
  match resolve K C x sign with
  | .panic => .panic
  | .ok c =>
    .ok (if valid && r.2 then some Aff.identity else c.bind fun c => if valid then some c else none)

/-- Models src/serde.rs:325-329 (`is_valid_1`): the extra byte is zero once its flags are cleared. -/
def extraClear (b : List ℕ) : Bool :=
  match K.config with
  | .extra => b.getD (K.flagIdx b) 0 == 0
  | _ => true

/-- Models src/serde.rs:315-368 (`decode`). `CtOption::and_then` evaluates its closure in every case, on the default value when
the option is empty. -/
def decode (b : List ℕ) : Outcome (Option (Aff F)) :=
  let r0 := K.getFlag K.config.posCompressed b
  let r1 := K.getFlag K.config.posIdentity r0.2
  let r2 := K.getFlag (some K.config.posSign) r1.2
  let b := r2.2
  let sign := r2.1.getD false
  let valid1 := extraClear K b
  match K.fromBytes (if K.config.hasExtra then b.drop 1 else b) with
  | .panic => .panic
  | .ok none =>
    match decodeBody K C r0.1 r1.1 sign valid1 0 with
    | .panic => .panic
    | .ok _ => .ok none
  | .ok (some x) => decodeBody K C r0.1 r1.1 sign valid1 x

/-- `COMPRESSED_SIZE`, src/derive/curve.rs:102. -/
def compressedSize : ℕ := K.size + if K.config.hasExtra then 1 else 0

/-- `to_bytes` of the projective type, src/derive/curve.rs:134-136. -/
def encodeProj (P : Proj F) : Outcome (List ℕ) := encode K C P.toAffine

/-- `from_bytes` of the projective type, src/derive/curve.rs:126-128. -/
def decodeProj (b : List ℕ) : Outcome (Option (Proj F)) :=
  match decode K C b with
  | .panic => .panic
  | .ok r => .ok (r.map Aff.toCurve)

/-- Models src/derive/curve.rs:146-167 (`from_uncompressed_unchecked`). -/
def fromUncompressedUnchecked (b : List ℕ) : Outcome (Option (Aff F)) :=
  match K.fromBytes (b.take K.size) with
  | .panic => .panic
  | .ok x =>
    match K.fromBytes ((b.drop K.size).take K.size) with
    | .panic => .panic
    | .ok y =>
      .ok (x.bind fun x => y.bind fun y =>
        if isZero x && isZero y then some Aff.identity else some ⟨x, y⟩)

/-- Models src/derive/curve.rs:142-144 (`from_uncompressed`). -/
def fromUncompressed (b : List ℕ) : Outcome (Option (Aff F)) :=
  match fromUncompressedUnchecked K b with
  | .panic => .panic
  | .ok r => .ok (r.bind fun p => if Aff.isOnCurve C p then some p else none)

/-- Models src/derive/curve.rs:169-181 (`to_uncompressed`). -/
def toUncompressed (A : Aff F) : List ℕ :=
  K.toBytes (if A.isIdentity then 0 else A.x) ++ K.toBytes (if A.isIdentity then 0 else A.y)

/-- `to_raw_bytes`/`write_raw` of the affine type, src/derive/curve.rs:736-740, 750-753. -/
def affToRaw (A : Aff F) : List ℕ := K.toRaw A.x ++ K.toRaw A.y

/-- `from_raw_bytes` of the affine type, src/derive/curve.rs:725-735. -/
def affFromRaw (b : List ℕ) : Option (Aff F) :=
  if b.length ≠ 2 * K.size then none
  else
    match K.fromRaw (b.take K.size), K.fromRaw ((b.drop K.size).take K.size) with
    | some x, some y => if Aff.isOnCurve C ⟨x, y⟩ then some ⟨x, y⟩ else none
    | _, _ => none

/-- `read_raw` of the affine type, src/derive/curve.rs:745-749: no curve check. -/
def affReadRaw (s : List ℕ) : Option (Aff F × List ℕ) :=
  match K.readRaw s with
  | none => none
  | some (x, s) =>
    match K.readRaw s with
    | none => none
    | some (y, s) => some (⟨x, y⟩, s)

/-- `to_raw_bytes`/`write_raw` of the projective type, src/derive/curve.rs:635-639, 650-654. -/
def projToRaw (P : Proj F) : List ℕ := K.toRaw P.x ++ (K.toRaw P.y ++ K.toRaw P.z)

/-- `from_raw_bytes` of the projective type, src/derive/curve.rs:623-634. -/
def projFromRaw (b : List ℕ) : Option (Proj F) :=
  if b.length ≠ 3 * K.size then none
  else
    match K.fromRaw (b.take K.size), K.fromRaw ((b.drop K.size).take K.size),
      K.fromRaw ((b.drop (2 * K.size)).take K.size) with
    | some x, some y, some z => if Proj.isOnCurve C ⟨x, y, z⟩ then some ⟨x, y, z⟩ else none
    | _, _, _ => none

/-- `read_raw` of the projective type, src/derive/curve.rs:644-649: no curve check. -/
def projReadRaw (s : List ℕ) : Option (Proj F × List ℕ) :=
  match K.readRaw s with
  | none => none
  | some (x, s) =>
    match K.readRaw s with
    | none => none
    | some (y, s) =>
      match K.readRaw s with
      | none => none
      | some (z, s) => some (⟨x, y, z⟩, s)

end Codec

end Halo2.Curve
