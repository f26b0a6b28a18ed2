import Verif.Curve.Stream

/-!
# The byte arrays `Repr<T>`

A `Repr<T>` is the list of its `T` bytes. A mutable borrow of a range is modelled by the function that is applied to the bytes
in the range; what it returns must have as many bytes, as a slice cannot change its length.
-/

namespace Halo2.Forms.Repr

open Halo2 Halo2.Curve

/-- Models src/serde.rs:15-19 (`inner`) and 33-37 (`From<Repr<T>> for [u8; T]`). -/
def inner (r : List ℕ) : List ℕ := r

/-- Models src/serde.rs:21-25 (`From<[u8; T]>`). -/
def ofArray (b : List ℕ) : List ℕ := b

/-- Models src/serde.rs:27-31 (`From<&[u8]>`): `try_into` fails for a slice of another length, and `unwrap` panics. -/
def ofSlice (T : ℕ) (b : List ℕ) : Outcome (List ℕ) := if b.length = T then .ok b else .panic

/-- Models src/serde.rs:39-43 (`Default`). -/
def default (T : ℕ) : List ℕ := List.replicate T 0

/-- Models src/serde.rs:51-55 (`AsRef<[u8]>`). -/
def asRef (r : List ℕ) : List ℕ := r

/-- Models src/serde.rs:45-49 (`AsMut<[u8]>`). -/
def asMut (r : List ℕ) (f : List ℕ → List ℕ) : List ℕ := f r

/-- The rules of Rust for `a[lo..hi]`: a panic if `lo > hi` or `hi > a.len()`. -/
def slice (a : List ℕ) (lo hi : ℕ) : Outcome (List ℕ) :=
  if lo ≤ hi ∧ hi ≤ a.length then .ok ((a.drop lo).take (hi - lo)) else .panic

/-- Models src/serde.rs:57-63 (`Index<Range<usize>>`). -/
def indexRange (r : List ℕ) (lo hi : ℕ) : Outcome (List ℕ) := slice r lo hi

/-- Models src/serde.rs:65-71 (`Index<usize>`). -/
def index (r : List ℕ) (i : ℕ) : Outcome ℕ := if i < r.length then .ok (r.getD i 0) else .panic

/-- Models src/serde.rs:73-79 (`Index<RangeTo<usize>>`). -/
def indexTo (r : List ℕ) (hi : ℕ) : Outcome (List ℕ) := slice r 0 hi

/-- Models src/serde.rs:81-87 (`Index<RangeFrom<usize>>`). -/
def indexFrom (r : List ℕ) (lo : ℕ) : Outcome (List ℕ) := slice r lo r.length

/-- Models src/serde.rs:89-93 (`IndexMut<Range<usize>>`). -/
def indexMut (r : List ℕ) (lo hi : ℕ) (f : List ℕ → List ℕ) : Outcome (List ℕ) :=
  if lo ≤ hi ∧ hi ≤ r.length then .ok (r.take lo ++ f ((r.drop lo).take (hi - lo)) ++ r.drop hi) else .panic

end Halo2.Forms.Repr
