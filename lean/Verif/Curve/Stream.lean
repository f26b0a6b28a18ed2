import Verif.Curve.Unchecked

/-!
# Model of the raw readers and writers on streams, with errors

`Verif/Field/Model.lean` and `Verif/Curve/Serde.lean` model the raw readers as functions to `Option`. Here they are modelled with the
kind of the error and with what is left of the stream in every case, and the raw writers with a sink that may run full.

`Read::read_exact` and `Write::write_all` belong to Rust's std. What `read_exact` leaves when the stream ends early is not specified
there, so that it is a parameter (`eof`) of the model. The sinks are `Vec<u8>` (unbounded) and `&mut [u8]` (a fixed number of bytes,
filled completely before `write_all` fails).
-/

namespace Halo2.Stream

open Halo2 Halo2.Field Halo2.Ext Halo2.Curve

/-- The two `std::io::ErrorKind`s that occur: `UnexpectedEof` of `read_exact`, and `InvalidData`. -/
inductive IoErr
  | eof
  | invalidData
  deriving DecidableEq

/-- A reader: what it returns, and what is left of the stream. -/
def Rd (α : Type) : Type := List ℕ → Except IoErr α × List ℕ

namespace Rd

variable {α β : Type}

/-- `Ok(a)`. -/
def ok (a : α) : Rd α := fun s => (.ok a, s)

/-- `Err(e)`. -/
def err (e : IoErr) : Rd α := fun s => (.error e, s)

/-- The operator `?`. -/
def andThen (m : Rd α) (f : α → Rd β) : Rd β := fun s =>
  match m s with
  | (.ok a, s') => f a s'
  | (.error e, s') => (.error e, s')

end Rd

/-- `Read::read_exact` into a buffer of `n` bytes (Rust std). -/
def readExact (eof : List ℕ → List ℕ) (n : ℕ) : Rd (List ℕ) := fun s =>
  if s.length < n then (.error .eof, eof s) else (.ok (s.take n), s.drop n)

/-- The loop of `read_raw`, derive/src/field/mod.rs:524-528. -/
def readLimbs (eof : List ℕ → List ℕ) : ℕ → Rd (List ℕ)
  | 0 => .ok []
  | n + 1 => (readExact eof 8).andThen fun buf => (readLimbs eof n).andThen fun ls => .ok (ofLeBytes buf :: ls)

variable {p : ℕ} [Fact (OddModulus p)]

/-- `read_raw` of a prime field, derive/src/field/mod.rs:522-538. -/
def fpRead (eof : List ℕ → List ℕ) : Rd (Fp p) :=
  (readLimbs eof (numLimbs p)).andThen fun el => if isLessThanModulus p el then .ok (Fp.ofMont el) else .err .invalidData

/-- `read_raw` of a quadratic extension, src/derive/field/tower.rs:178-182. -/
def quadRead (eof : List ℕ → List ℕ) : Rd (Quad (Fp p)) :=
  (fpRead eof).andThen fun c0 => (fpRead eof).andThen fun c1 => .ok ⟨c0, c1⟩

/-- `read_raw` of the affine type, src/derive/curve.rs:745-749. -/
def affRead {F : Type} (rd : Rd F) : Rd (Aff F) :=
  rd.andThen fun x => rd.andThen fun y => .ok ⟨x, y⟩

/-- `read_raw` of the projective type, src/derive/curve.rs:644-649. -/
def projRead {F : Type} (rd : Rd F) : Rd (Proj F) :=
  rd.andThen fun x => rd.andThen fun y => rd.andThen fun z => .ok ⟨x, y, z⟩

/-- A client that reads `n` objects one after another: `(0..n).map(|_| T::read_raw(reader)).collect::<io::Result<Vec<_>>>()`. -/
def readMany {α : Type} (rd : Rd α) : ℕ → Rd (List α)
  | 0 => .ok []
  | n + 1 => rd.andThen fun a => (readMany rd n).andThen fun l => .ok (a :: l)

/-- A sink: what has been written, and how many more bytes it takes (`none`: `Vec<u8>`, any number). -/
structure Sink where
  out : List ℕ
  room : Option ℕ
  deriving DecidableEq

/-- A writer: whether it returned `Ok(())`, and the sink afterwards. -/
def Wr : Type := Sink → Bool × Sink

/-- `Write::write_all` (Rust std). -/
def writeAll (b : List ℕ) : Wr := fun w =>
  match w.room with
  | none => (true, ⟨w.out ++ b, none⟩)
  | some k => if b.length ≤ k then (true, ⟨w.out ++ b, some (k - b.length)⟩) else (false, ⟨w.out ++ b.take k, some 0⟩)

namespace Wr

/-- `Ok(())`. -/
def ok : Wr := fun w => (true, w)

/-- The operator `?`. -/
def andThen (m n : Wr) : Wr := fun w =>
  match m w with
  | (true, w') => n w'
  | (false, w') => (false, w')

end Wr

/-- The loop of `write_raw`, derive/src/field/mod.rs:540-542. -/
def writeLimbs : List ℕ → Wr
  | [] => .ok
  | l :: ls => (writeAll (toLeBytes l)).andThen (writeLimbs ls)

/-- `write_raw` of a prime field, derive/src/field/mod.rs:539-544. -/
def fpWrite (a : Fp p) : Wr := writeLimbs a.limbs

/-- `write_raw` of a quadratic extension, src/derive/field/tower.rs:183-186. -/
def quadWrite (a : Quad (Fp p)) : Wr := (fpWrite a.c0).andThen (fpWrite a.c1)

/-- `write_raw` of the affine type, src/derive/curve.rs:750-753. -/
def affWrite {F : Type} (wr : F → Wr) (A : Aff F) : Wr := (wr A.x).andThen (wr A.y)

/-- `write_raw` of the projective type, src/derive/curve.rs:650-654. -/
def projWrite {F : Type} (wr : F → Wr) (P : Proj F) : Wr := (wr P.x).andThen ((wr P.y).andThen (wr P.z))

/-- A client that writes a list of objects: `for x in xs { x.write_raw(writer)?; }`. -/
def writeMany {α : Type} (wr : α → Wr) : List α → Wr
  | [] => .ok
  | a :: l => (wr a).andThen (writeMany wr l)

/-- `to_raw_bytes` of points, src/derive/curve.rs:635-639, 736-740: `write_raw` into an empty `Vec<u8>`, then `unwrap`. -/
def toRaw (wr : Wr) : Outcome (List ℕ) :=
  match wr ⟨[], none⟩ with
  | (true, w) => .ok w.out
  | (false, _) => .panic

/-! ### `endian::Endian` on slices, src/serde.rs:134-168 -/

/-- `res[off..off + 8].copy_from_slice(src)` for a `src` of eight bytes: panics when the range is out of bounds. -/
def copyInto (res : List ℕ) (off : ℕ) (src : List ℕ) : Outcome (List ℕ) :=
  if off + 8 ≤ res.length then .ok (res.take off ++ (src ++ res.drop (off + 8))) else .panic

/-- The loop over the enumerated limbs, from number `i` on. -/
def copyLimbs (f : ℕ → List ℕ) : ℕ → List ℕ → List ℕ → Outcome (List ℕ)
  | _, [], res => .ok res
  | i, l :: ls, res =>
    match copyInto res (i * 8) (f l) with
    | .panic => .panic
    | .ok res => copyLimbs f (i + 1) ls res

/-- `Endian::to_bytes`, src/serde.rs:135-150, with the buffer it writes to. -/
def toBytesInto : Endian → List ℕ → List ℕ → Outcome (List ℕ)
  | .LE, res, el => copyLimbs toLeBytes 0 el res
  | .BE, res, el => copyLimbs toBeBytes 0 el.reverse res

/-- `res[off..off + 8]`. -/
def slice8 (res : List ℕ) (off : ℕ) : Outcome (List ℕ) :=
  if off + 8 ≤ res.length then .ok ((res.drop off).take 8) else .panic

/-- The loop that fills `n` limbs, from number `i` on. -/
def fillLimbs (f : List ℕ → ℕ) (res : List ℕ) : ℕ → ℕ → Outcome (List ℕ)
  | _, 0 => .ok []
  | i, n + 1 =>
    match slice8 res (i * 8) with
    | .panic => .panic
    | .ok b =>
      match fillLimbs f res (i + 1) n with
      | .panic => .panic
      | .ok ls => .ok (f b :: ls)

/-- `Endian::from_bytes`, src/serde.rs:152-167, for a slice of `n` limbs; in big-endian order the limbs are filled from the last one. -/
def fromBytesFrom : Endian → List ℕ → ℕ → Outcome (List ℕ)
  | .LE, res, n => fillLimbs ofLeBytes res 0 n
  | .BE, res, n =>
    match fillLimbs ofBeBytes res 0 n with
    | .panic => .panic
    | .ok ls => .ok ls.reverse

end Halo2.Stream
