import Verif.Msm.Model

/-!
# Model of src/fft.rs

Generic over the scalar ring and the group, as the code is: the group enters through its three operations.
A panic is `none`, and so is a recursion without end. `1 << log_n` for `log_n ≥ 64` panics in builds with overflow checks; without them the
shift is by `log_n % 64`. The index arithmetic `(i + 1) * twiddle_chunk` is on natural numbers: an index of `2^64` or more is out of bounds.
`rayon::join` runs its two closures on disjoint halves of the vector.
-/

namespace Halo2.Fft

open Halo2.Msm

/-- The operations `GroupOpsOwned + ScalarMulOwned<Scalar>` used on the elements. -/
structure Ops (K G : Type) where
  add : G → G → G
  sub : G → G → G
  smul : G → K → G

/-- Models src/fft.rs:31-38 (`bitreverse`): the loop on `(n, r)`; `r` is a word. -/
def bitreverse (n l : ℕ) : ℕ :=
  (Nat.iterate (fun s : ℕ × ℕ => (s.1 >>> 1, (s.2 <<< 1) % 2 ^ 64 ||| (s.1 &&& 1))) l (n, 0)).2

/-- `a.swap(i, j)`. -/
def swap {G : Type} (a : List G) (i j : ℕ) : Option (List G) :=
  match a[i]?, a[j]? with
  | some x, some y => some ((a.set i y).set j x)
  | _, _ => none

/-- Models src/fft.rs:46-49: one step of the reordering. -/
def reorderStep {G : Type} (logN : ℕ) (a : List G) (k : ℕ) : Option (List G) :=
  let rk := bitreverse k logN
  if k < rk then swap a rk k else some a

variable {K G : Type} [CommRing K] (ops : Ops K G)

/-- Models src/fft.rs:53-59: the twiddle factors. -/
def twiddles (omega : K) (m : ℕ) : List K :=
  ((List.range m).foldl (fun (s : List K × K) _ => (s.1 ++ [s.2], s.2 * omega)) ([], 1)).1

/-- Models src/fft.rs:76-85 and 118-127: the butterflies with a twiddle factor, from index `i` on. -/
def bfLoop (tw : List K) (tc : ℕ) : ℕ → List G → List G → Option (List G × List G)
  | i, a :: left, b :: right =>
    match tw[(i + 1) * tc]? with
    | none => none
    | some w =>
      let t := ops.smul b w
      match bfLoop tw tc (i + 1) left right with
      | none => none
      | some r => some (ops.add a t :: r.1, ops.sub a t :: r.2)
  | _, left, right => some (left, right)

/-- Models src/fft.rs:66-85 and 107-127: the butterflies between two halves. -/
def butterfly (tw : List K) (tc : ℕ) (left right : List G) : Option (List G) :=
  match left, right with
  | a :: left, b :: right =>
    match bfLoop ops tw tc 0 left right with
    | none => none
    | some r => some ((ops.add a b :: r.1) ++ (ops.sub a b :: r.2))
  | _, _ => none

/-- Models src/fft.rs:102-106: the last level of the recursion. -/
def pairStep (a : List G) : Option (List G) :=
  match a with
  | a0 :: a1 :: rest => some (ops.add a0 a1 :: ops.sub a0 a1 :: rest)
  | _ => none

/-- Models src/fft.rs:96-133 (`recursive_butterfly_arithmetic`). The first argument bounds the recursion (`n` is
enough for `n ≥ 2`; for `n ≤ 1` the code recurses forever). -/
def recBf (tw : List K) : ℕ → List G → ℕ → ℕ → Option (List G)
  | 0, _, _, _ => none
  | fuel + 1, a, n, tc =>
    if n = 2 then pairStep ops a
    else if a.length < n / 2 then none
    else
      match recBf tw fuel (a.take (n / 2)) (n / 2) (tc * 2), recBf tw fuel (a.drop (n / 2)) (n / 2) (tc * 2) with
      | some left, some right => butterfly ops tw tc left right
      | _, _ => none

/-- Models src/fft.rs:65-86: one round of the iterative version on one chunk. -/
def chunkStep (tw : List K) (chunk tc : ℕ) (coeffs : List G) : Option (List G) :=
  if coeffs.length < chunk / 2 then none
  else butterfly ops tw tc (coeffs.take (chunk / 2)) (coeffs.drop (chunk / 2))

/-- Models src/fft.rs:64-89: one round of the iterative version, on `(a, chunk, twiddle_chunk)`. -/
def roundStep (tw : List K) (s : List G × ℕ × ℕ) : Option (List G × ℕ × ℕ) :=
  match (chunks s.2.1 s.1).mapM (chunkStep ops tw s.2.1 s.2.2) with
  | none => none
  | some cs => some (cs.flatten, s.2.1 * 2, s.2.2 / 2)

/-- Models src/fft.rs:30-93 (`best_fft`), returning the new `a`; `checks` is whether the build has overflow checks. -/
def bestFft (checks : Bool) (threads : ℕ) (a : List G) (omega : K) (logN : ℕ) : Option (List G) :=
  if checks && decide (64 ≤ logN) then none
  else if a.length ≠ 1 <<< (logN % 64) then none
  else
    match (List.range a.length).foldlM (reorderStep logN) a with
    | none => none
    | some a =>
      let tw := twiddles omega (a.length / 2)
      if logN ≤ Nat.log2 threads then
        match (List.range logN).foldlM (fun s _ => roundStep ops tw s) (a, 2, a.length / 2) with
        | none => none
        | some s => some s.1
      else recBf ops tw a.length a a.length 1

end Halo2.Fft
