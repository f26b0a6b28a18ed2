import Verif.Field.Model
import Verif.Curve.Model
import Mathlib.Logic.Function.Iterate

/-!
# Model of src/msm.rs

Scalars enter as the byte strings `to_repr` gives. A panic is `none`. `usize`/`u32`/`i32` values are
`ℕ`/`ℤ`: the shifts by `window_size + 1` are those of a `u32` and panic (or wrap) for windows of 31 bits
and more, which the code never asks for.

The window size for 32 terms or more is a floating point computation, `(len as u32 as f64).ln().ceil()`.
It is the parameter `lnCeil`, a function of the truncated length; the theorems assume only what
`LnCeilOk` says of it.

Rayon: a parallel loop runs one task per index, each owning one slot of a result vector (the borrow
checker enforces this). The model runs the tasks in an arbitrary order, given as a list of indices.
-/

namespace Halo2.Msm

open Halo2.Field Halo2.Curve

/-- Models src/msm.rs:13-53 (`get_booth_index`). -/
def boothIndex (windowIndex windowSize : ℕ) (el : List ℕ) : ℤ :=
  let skipBits := windowIndex * windowSize - 1
  let skipBytes := skipBits / 8
  let tmp := ofLeBytes ((el.drop skipBytes).take 4)
  let tmp := if windowIndex = 0 then (tmp <<< 1) % 2 ^ 32 else tmp
  let tmp := tmp >>> (skipBits - skipBytes * 8)
  let tmp := tmp &&& (1 <<< (windowSize + 1) - 1)
  let sign := tmp &&& (1 <<< windowSize) == 0
  let tmp := (tmp + 1) >>> 1
  if sign then (tmp : ℤ)
  else -(((2 ^ 32 - 1 - (tmp - 1)) &&& (1 <<< windowSize - 1) : ℕ) : ℤ)

/-- Models src/msm.rs:338-344 and 467-473: the window size. -/
def windowSize (lnCeil : ℕ → ℕ) (len : ℕ) : ℕ :=
  if len < 4 then 1 else if len < 32 then 3 else lnCeil (len % 2 ^ 32)

/-- Models src/msm.rs:350-352: `acc_or[i] |= coeff[i]` along the shorter of the two. -/
def orBytes : List ℕ → List ℕ → List ℕ
  | [], _ => []
  | a :: as, [] => a :: as
  | a :: as, b :: bs => (a ||| b) :: orBytes as bs

/-- Models src/msm.rs:346-360 (`max_byte_size`). -/
def maxByteSize (fieldByteSize : ℕ) (coeffs : List (List ℕ)) : ℕ :=
  let accOr := coeffs.foldl orBytes (List.replicate fieldByteSize 0)
  fieldByteSize - (accOr.reverse.findIdx? (fun v => v != 0)).getD fieldByteSize

/-- `l[i] = f(l[i])`; indexing out of bounds panics. -/
def modifyAt {α : Type} (l : List α) (i : ℕ) (f : α → α) : Option (List α) :=
  match l[i]? with
  | none => none
  | some b => some (l.set i (f b))

variable {F : Type} [CommRing F] [DecidableEq F] [BaseField F] (C : Params F)

/-- Models src/msm.rs:371-376 (the local `enum Bucket` of `msm_serial`). -/
inductive SBucket (F : Type)
  | none
  | aff (a : Aff F)
  | proj (P : Proj F)

/-- Models src/msm.rs:379-388 (`add_assign`). -/
def SBucket.addAssign (b : SBucket F) (q : Aff F) : SBucket F :=
  match b with
  | .none => .aff q
  | .aff a => .proj (Aff.add C a q)
  | .proj a => .proj (Proj.addMixed C a q)

/-- Models src/msm.rs:390-399 (`add`). -/
def SBucket.add (b : SBucket F) (other : Proj F) : Proj F :=
  match b with
  | .none => other
  | .aff a => Proj.addMixed C other a
  | .proj a => Proj.add C other a

/-- Models src/msm.rs:404-412: one term of the bucket loop. -/
def serialStep (w c : ℕ) (buckets : List (SBucket F)) (kb : List ℕ × Aff F) : Option (List (SBucket F)) :=
  let d := boothIndex w c kb.1
  if 0 < d then modifyAt buckets (d.natAbs - 1) (fun b => b.addAssign C kb.2)
  else if d < 0 then modifyAt buckets (d.natAbs - 1) (fun b => b.addAssign C (Aff.neg kb.2))
  else some buckets

/-- Models src/msm.rs:419-422: one step of the summation by parts, on `(running_sum, acc)`. -/
def serialSum (s : Proj F × Proj F) (b : SBucket F) : Proj F × Proj F :=
  let running := b.add C s.1
  (running, Proj.add C s.2 running)

/-- Models src/msm.rs:366-369, 402-422: one window. -/
def serialWindow (c : ℕ) (terms : List (List ℕ × Aff F)) (acc : Proj F) (w : ℕ) : Option (Proj F) :=
  let acc := Nat.iterate (Proj.double C) c acc
  match terms.foldlM (serialStep C w c) (List.replicate (1 <<< (c - 1)) SBucket.none) with
  | none => none
  | some buckets => some (buckets.reverse.foldl (serialSum C) (Proj.identity, acc)).2

/-- Models src/msm.rs:335-424 (`msm_serial`), returning the new `acc`. Dividing by a zero window size
panics. There is no check of the lengths. -/
def msmSerial (lnCeil : ℕ → ℕ) (fieldByteSize : ℕ) (coeffs : List (List ℕ)) (bases : List (Aff F))
    (acc : Proj F) : Option (Proj F) :=
  let c := windowSize lnCeil bases.length
  let maxBytes := maxByteSize fieldByteSize coeffs
  if maxBytes = 0 then some acc
  else if c = 0 then none
  else
    let numberOfWindows := maxBytes * 8 / c + 1
    (List.range numberOfWindows).reverse.foldlM (serialWindow C c (coeffs.zip bases)) acc

/-- `slice::chunks(k)`; the first argument bounds the recursion and is the length of the slice. -/
def chunksAux {α : Type} : ℕ → ℕ → List α → List (List α)
  | 0, _, _ => []
  | fuel + 1, k, l => match l with
    | [] => []
    | x :: xs => (x :: xs).take k :: chunksAux fuel k ((x :: xs).drop k)

def chunks {α : Type} (k : ℕ) (l : List α) : List (List α) := chunksAux l.length k l

/-- Run one task per index of `order`; task `i` turns slot `i` of the vector into `task i slot`. -/
def runTasks {α : Type} (task : ℕ → α → Option α) (order : List ℕ) (slots : List α) : Option (List α) :=
  order.foldlM (fun s i => match s[i]? with
    | none => none
    | some v => match task i v with
      | none => none
      | some v' => some (s.set i v')) slots

/-- The task of the `i`-th chunk: src/msm.rs:446-448. -/
def chunkTask (lnCeil : ℕ → ℕ) (fieldByteSize : ℕ) (parts : List (List (List ℕ) × List (Aff F))) (i : ℕ)
    (acc : Proj F) : Option (Proj F) :=
  match parts[i]? with
  | none => some acc
  | some part => msmSerial C lnCeil fieldByteSize part.1 part.2 acc

/-- Models src/msm.rs:431-458 (`msm_parallel`). `threads` is `rayon::current_num_threads()`; `order` is
the order in which the spawned tasks run. -/
def msmParallel (lnCeil : ℕ → ℕ) (fieldByteSize threads : ℕ) (order : List ℕ) (coeffs : List (List ℕ))
    (bases : List (Aff F)) : Option (Proj F) :=
  if coeffs.length ≠ bases.length then none
  else if coeffs.length > threads then
    let chunk := coeffs.length / threads
    let numChunks := (chunks chunk coeffs).length
    let parts := (chunks chunk coeffs).zip (chunks chunk bases)
    match runTasks (chunkTask C lnCeil fieldByteSize parts) order (List.replicate numChunks Proj.identity) with
    | none => none
    | some results => some (results.foldl (fun a b => Proj.add C a b) Proj.identity)
  else msmSerial C lnCeil fieldByteSize coeffs bases Proj.identity

/-- Models src/msm.rs:275-279 (`SchedulePoint`). -/
structure SchedPt where
  baseIdx : ℕ
  buckIdx : ℕ
  sign : Bool
deriving DecidableEq

/-- `SchedulePoint::default()`. -/
def SchedPt.default : SchedPt := ⟨0, 0, false⟩

/-- Models src/msm.rs:11. -/
def BATCH_SIZE : ℕ := 64

/-- Models src/msm.rs:67-111: one step of the first loop of `batch_add`, from the buckets and `acc` to
`(t, z)` and the new buckets and `acc`. -/
def fwdStep (bases : List (Aff F)) (buckets : List (Option (Aff F))) (acc : F) (sp : SchedPt) :
    Option ((F × F) × List (Option (Aff F)) × F) :=
  match buckets[sp.buckIdx]? with
  | none => none
  | some none => some ((0, 0), buckets, acc)
  | some (some b) =>
    match bases[sp.baseIdx]? with
    | none => none
    | some q =>
      if b.x = q.x then
        if (decide (b.y = q.y)) ^^ !sp.sign then
          let xSquared := sqr q.x
          let z := b.y + b.y
          let t := acc * (xSquared + xSquared + xSquared)
          some ((t, z), buckets, acc * z)
        else some ((0, 0), buckets.set sp.buckIdx none, acc)
      else
        let z := b.x - q.x
        let t := if sp.sign then acc * (b.y - q.y) else acc * (b.y + q.y)
        some ((t, z), buckets, acc * z)

/-- The first loop of `batch_add`. -/
def fwd (bases : List (Aff F)) :
    List SchedPt → List (Option (Aff F)) → F → Option (List (SchedPt × F × F) × List (Option (Aff F)) × F)
  | [], buckets, acc => some ([], buckets, acc)
  | sp :: sps, buckets, acc =>
    match fwdStep bases buckets acc sp with
    | none => none
    | some (tz, buckets, acc) =>
      match fwd bases sps buckets acc with
      | none => none
      | some (tzs, buckets, acc) => some ((sp, tz) :: tzs, buckets, acc)

/-- Models src/msm.rs:116-141: one step of the second loop of `batch_add`. -/
def bwdStep (bases : List (Aff F)) (s : List (Option (Aff F)) × F) (e : SchedPt × F × F) :
    Option (List (Option (Aff F)) × F) :=
  match s.1[e.1.buckIdx]? with
  | none => none
  | some none => some s
  | some (some b) =>
    match bases[e.1.baseIdx]? with
    | none => none
    | some q =>
      let lambda := s.2 * e.2.1
      let acc := s.2 * e.2.2
      let x := sqr lambda - (b.x + q.x)
      let y := if e.1.sign then lambda * (q.x - x) - q.y else lambda * (q.x - x) + q.y
      some (s.1.set e.1.buckIdx (some ⟨x, y⟩), acc)

/-- Models src/msm.rs:57-142 (`batch_add`). -/
def batchAdd (size : ℕ) (buckets : List (Option (Aff F))) (points : List SchedPt) (bases : List (Aff F)) :
    Option (List (Option (Aff F))) :=
  match fwd bases (points.take size) buckets 1 with
  | none => none
  | some (tzs, buckets, acc) =>
    match invert acc with
    | none => none
    | some inv =>
      match tzs.reverse.foldlM (bwdStep bases) (buckets, inv) with
      | none => none
      | some s => some s.1

/-- Models src/msm.rs:268-272 (`Schedule`). -/
structure Sched (F : Type) where
  buckets : List (Option (Aff F))
  set : List SchedPt
  ptr : ℕ

/-- Models src/msm.rs:292-304 (`Schedule::new`). -/
def Sched.new (c : ℕ) : Sched F :=
  ⟨List.replicate (1 <<< (c - 1)) none, List.replicate BATCH_SIZE SchedPt.default, 0⟩

/-- Models src/msm.rs:306-308 (`contains`). -/
def Sched.contains (s : Sched F) (buckIdx : ℕ) : Bool := s.set.any (fun sch => sch.buckIdx == buckIdx)

/-- Models src/msm.rs:310-318 (`execute`). -/
def Sched.execute (s : Sched F) (bases : List (Aff F)) : Option (Sched F) :=
  if s.ptr ≠ 0 then
    match batchAdd s.ptr s.buckets s.set bases with
    | none => none
    | some buckets => some ⟨buckets, s.set.map (fun _ => SchedPt.default), 0⟩
  else some s

/-- Models src/msm.rs:215-223 (`BucketAffine::assign`): the new bucket and whether it was taken. -/
def assign (b : Option (Aff F)) (q : Aff F) (sign : Bool) : Option (Aff F) × Bool :=
  match b with
  | none => (some (if sign then q else Aff.neg q), true)
  | some a => (some a, false)

/-- Models src/msm.rs:321-324: the first half of `Schedule::add`. -/
def Sched.enqueue (s : Sched F) (bases : List (Aff F)) (baseIdx buckIdx : ℕ) (sign : Bool) : Option (Sched F) :=
  match s.buckets[buckIdx]?, bases[baseIdx]? with
  | some b, some q =>
    let r := assign b q sign
    if r.2 then some { s with buckets := s.buckets.set buckIdx r.1 }
    else if s.ptr < s.set.length then
      some { s with set := s.set.set s.ptr ⟨baseIdx, buckIdx, sign⟩, ptr := s.ptr + 1 }
    else none
  | _, _ => none

/-- Models src/msm.rs:320-329 (`Schedule::add`). -/
def Sched.add (s : Sched F) (bases : List (Aff F)) (baseIdx buckIdx : ℕ) (sign : Bool) : Option (Sched F) :=
  match s.enqueue bases baseIdx buckIdx sign with
  | none => none
  | some s => if s.ptr = s.set.length then s.execute bases else some s

/-- Models src/msm.rs:185-202 (`Bucket::add_assign`). -/
def jAddAssign (b : Option (Proj F)) (q : Aff F) (sign : Bool) : Option (Proj F) :=
  match b with
  | none => some (if sign then Aff.toCurve q else Proj.neg (Aff.toCurve q))
  | some a => if sign then some (Proj.addMixed C a q) else some (Proj.subMixed C a q)

/-- Models src/msm.rs:204-211 (`Bucket::add`); `eval` (167-169) panics off the curve. -/
def jAdd (b : Option (Proj F)) (other : Option (Aff F)) : Option (Proj F) :=
  match b, other with
  | some this, some q => match Aff.fromXY C q.x q.y with
    | none => none
    | some q => some (Proj.addMixed C this q)
  | some this, none => some this
  | none, some q => match Aff.fromXY C q.x q.y with
    | none => none
    | some q => some (Aff.toCurve q)
  | none, none => some Proj.identity

/-- Models src/msm.rs:496-511: one term of the loop of a window, on the pair of `j_bucks` and `sched`. -/
def bestStep (c w : ℕ) (bases basesLocal : List (Aff F)) (s : List (Option (Proj F)) × Sched F)
    (ik : List ℕ × ℕ) : Option (List (Option (Proj F)) × Sched F) :=
  let d := boothIndex w c ik.1
  if d ≠ 0 then
    let sign := decide (0 < d)
    let buckIdx := d.natAbs - 1
    if s.2.contains buckIdx then
      match bases[ik.2]? with
      | none => none
      | some q => match modifyAt s.1 buckIdx (fun b => jAddAssign C b q sign) with
        | none => none
        | some j => some (j, s.2)
    else
      match s.2.add basesLocal ik.2 buckIdx sign with
      | none => none
      | some sched => some (s.1, sched)
  else some s

/-- Models src/msm.rs:523-524: one step of the summation by parts, on `(running_sum, acc)`. -/
def bestSum (s : Proj F × Proj F) (b : Option (Proj F) × Option (Aff F)) : Option (Proj F × Proj F) :=
  match jAdd C b.1 b.2 with
  | none => none
  | some v =>
    let running := Proj.add C s.1 v
    some (running, Proj.add C s.2 running)

/-- Models src/msm.rs:489-530: the task of one window. -/
def bestWindow (c : ℕ) (coeffs : List (List ℕ)) (bases basesLocal : List (Aff F)) (w : ℕ) (acc : Proj F) :
    Option (Proj F) :=
  match coeffs.zipIdx.foldlM (bestStep C c w bases basesLocal) (List.replicate (1 <<< (c - 1)) none, Sched.new c) with
  | none => none
  | some s => match s.2.execute basesLocal with
    | none => none
    | some sched =>
      match (s.1.zip sched.buckets).reverse.foldlM (bestSum C) (Proj.identity, acc) with
      | none => none
      | some r => some (Nat.iterate (Proj.double C) (c * w) r.2)

/-- Models src/msm.rs:463-533 (`msm_best`). `order1` orders the chunk tasks of `msm_parallel`, `order2`
the window tasks; `Affine::from` (150-157) panics off the curve. -/
def msmBest (lnCeil : ℕ → ℕ) (numBits threads : ℕ) (order1 order2 : List ℕ) (coeffs : List (List ℕ))
    (bases : List (Aff F)) : Option (Proj F) :=
  if coeffs.length ≠ bases.length then none
  else
    let c := windowSize lnCeil bases.length
    if c < 10 then msmParallel C lnCeil ((numBits + 7) / 8) threads order1 coeffs bases
    else
      match bases.mapM (fun b => Aff.fromXY C b.x b.y) with
      | none => none
      | some basesLocal =>
        let numberOfWindows := numBits / c + 1
        match runTasks (bestWindow C c coeffs bases basesLocal) order2
            (List.replicate numberOfWindows Proj.identity) with
        | none => none
        | some acc => some (Proj.sum C acc)

end Halo2.Msm
