import Verif.Field.FpBytes

/-!
# Model of src/hash_to_curve.rs, first part: hashing to the field

The hash function is a parameter: a function `H` on byte strings with its output and block sizes. Streaming
(`update`) is concatenation. `checks` says whether the build has overflow checks. A panic is `none`.
-/

namespace Halo2.Hash

open Halo2.Field Halo2.Ext

/-- A hash function: `D: Digest + BlockSizeUser`. -/
structure Digest where
  H : List ℕ → List ℕ
  outputSize : ℕ
  blockSize : ℕ

/-- What is assumed of a hash function: its outputs are byte strings of the stated, positive size. -/
structure Digest.Ok (D : Digest) : Prop where
  length : ∀ m, (D.H m).length = D.outputSize
  bytes : ∀ m, IsBytes (D.H m)
  pos : 1 ≤ D.outputSize

/-- `out.iter_mut().skip(off).zip(bs).for_each(|(out, b)| *out = *b)`. -/
def writeAt (out : List ℕ) (off : ℕ) (bs : List ℕ) : List ℕ :=
  out.take off ++ bs.take (out.length - off) ++ out.drop (off + bs.length)

/-- `1 + i as u8`. -/
def counter (checks : Bool) (i : ℕ) : Option ℕ :=
  if checks = true ∧ i % 256 = 255 then none else some ((1 + i % 256) % 256)

/-- Models src/hash_to_curve.rs:60-76: one iteration of the loop, on `(out, b_i)`. -/
def expandStep (D : Digest) (checks : Bool) (b0 dst : List ℕ) (s : List ℕ × List ℕ) (i : ℕ) : Option (List ℕ × List ℕ) :=
  match counter checks i with
  | none => none
  | some c =>
    some (writeAt s.1 ((i - 1) * D.outputSize) s.2,
      D.H (List.zipWith (fun x y => x ^^^ y) b0 s.2 ++ [c] ++ dst))

/-- Models src/hash_to_curve.rs:28-84 (`expand_message`). Without overflow checks `ell - 1` wraps for
`out_len = 0`, and the final write then does nothing. -/
def expandMessage (D : Digest) (checks : Bool) (pre domain message : List ℕ) (outLen : ℕ) : Option (List ℕ) :=
  if ¬ pre.length + domain.length < 256 then none
  else
    let dst := pre ++ domain ++ [(domain.length + pre.length) % 256]
    let b0 := D.H (List.replicate D.blockSize 0 ++ message ++ [(outLen >>> 8) % 256, outLen % 256, 0] ++ dst)
    let b1 := D.H (b0 ++ [1] ++ dst)
    let ell := (outLen + D.outputSize - 1) / D.outputSize
    match (List.range' 1 (ell - 1)).foldlM (expandStep D checks b0 dst) (List.replicate outLen 0, b1) with
    | none => none
    | some s =>
      if ell = 0 then (if checks then none else some s.1)
      else some (writeAt s.1 ((ell - 1) * D.outputSize) s.2)

/-- Models src/hash_to_curve.rs:130-148 (`hash_to_field`); `fromUniform` is `C::Base::from_uniform_bytes`
and `L` the constant parameter of the suite. Slicing out of bounds panics. -/
def hashToField {F : Type} (D : Digest) (checks : Bool) (fromUniform : List ℕ → F) (L : ℕ) (pre domain message : List ℕ) :
    Option (F × F) :=
  match expandMessage D checks pre domain message (L * 2) with
  | none => none
  | some out =>
    if out.length < L * 2 then none
    else some (fromUniform (out.take L).reverse, fromUniform ((out.drop L).take L).reverse)

/-! ## The specification: RFC 9380, section 5.3.1 -/

/-- `I2OSP(x, n)`: big-endian, `n` bytes. -/
def i2osp (x : ℕ) : ℕ → List ℕ
  | 0 => []
  | n + 1 => i2osp (x / 256) n ++ [x % 256]

/-- `OS2IP`. -/
def os2ip (b : List ℕ) : ℕ := b.foldl (fun acc x => acc * 256 + x) 0

/-- `strxor`. -/
def strxor (a b : List ℕ) : List ℕ := List.zipWith (fun x y => x ^^^ y) a b

def dstPrime (dst : List ℕ) : List ℕ := dst ++ i2osp dst.length 1

/-- `b_0`. -/
def xmdB0 (D : Digest) (msg dst : List ℕ) (len : ℕ) : List ℕ :=
  D.H (i2osp 0 D.blockSize ++ msg ++ i2osp len 2 ++ i2osp 0 1 ++ dstPrime dst)

/-- `b_i` for `i ≥ 1`, here indexed from 0. -/
def xmdB (D : Digest) (msg dst : List ℕ) (len : ℕ) : ℕ → List ℕ
  | 0 => D.H (xmdB0 D msg dst len ++ i2osp 1 1 ++ dstPrime dst)
  | i + 1 => D.H (strxor (xmdB0 D msg dst len) (xmdB D msg dst len i) ++ i2osp (i + 2) 1 ++ dstPrime dst)

/-- `ell`: the number of blocks, `ceil(len / b_in_bytes)`. -/
def xmdEll (D : Digest) (len : ℕ) : ℕ := (len + (D.outputSize - 1)) / D.outputSize

/-- `expand_message_xmd(msg, DST, len_in_bytes)`; `none` is ABORT. -/
def expandMessageXmd (D : Digest) (msg dst : List ℕ) (len : ℕ) : Option (List ℕ) :=
  if 255 < xmdEll D len ∨ 65535 < len ∨ 255 < dst.length then none
  else some ((((List.range (xmdEll D len)).map (xmdB D msg dst len)).flatten).take len)

/-- `hash_to_field(msg, 2)` for a prime field (RFC 9380, section 5.2, `m = 1`), as integers before reduction. -/
def hashToFieldRfc (D : Digest) (L : ℕ) (msg dst : List ℕ) : Option (ℕ × ℕ) :=
  (expandMessageXmd D msg dst (2 * L)).map (fun u => (os2ip (u.take L), os2ip ((u.drop L).take L)))

/-- `hash_to_field(msg, 2)` for a quadratic extension (`m = 2`): `tv = substr(uniform_bytes, L * (j + i * m), L)`. -/
def hashToField2Rfc (D : Digest) (L : ℕ) (msg dst : List ℕ) : Option ((ℕ × ℕ) × (ℕ × ℕ)) :=
  (expandMessageXmd D msg dst (2 * 2 * L)).map (fun u =>
    ((os2ip (u.take L), os2ip ((u.drop L).take L)),
     (os2ip ((u.drop (L * 2)).take L), os2ip ((u.drop (L * 3)).take L))))

end Halo2.Hash
