import Verif.Ext.Select

/-!
# Which word operations the field functions execute

A second model of the limb layer, in a writer monad: every word operation a function executes leaves an event, so the
trace shows how much work was done and in which order, as a timing observer sees it. The functions follow
`derive/src/field/arith.rs` and `derive/src/field/mod.rs` statement by statement like `Verif.Limb.Model`; that they
compute the same values is proved, not assumed. One event is one call of `adc`, `sbb` or `mac`, one wrapping
multiplication, one bitwise operation or shift, one comparison of words, or one word select of `subtle`; these calls are
taken to be data independent themselves. Moving words around has no event.
-/

set_option linter.unusedSectionVars false

namespace Halo2.Trace

open Halo2 Halo2.Field

/-- The word operations. -/
inductive Ev
  | adc
  | sbb
  | mac
  | mul
  | bit
  | cmp
  | sel
deriving DecidableEq

/-- A value with the operations executed to compute it. -/
@[ext] structure T (α : Type) where
  val : α
  tr : List Ev

namespace T

variable {α β : Type}

/-- Sequential composition: traces are concatenated. -/
instance : Monad T where
  pure a := ⟨a, []⟩
  bind x f := ⟨(f x.val).val, x.tr ++ (f x.val).tr⟩

/-- A word operation: its result and its event. -/
def op (e : Ev) (a : α) : T α := ⟨a, [e]⟩

theorem bind_val (x : T α) (f : α → T β) : (x >>= f).val = (f x.val).val := rfl
theorem bind_tr (x : T α) (f : α → T β) : (x >>= f).tr = x.tr ++ (f x.val).tr := rfl
theorem pure_val (a : α) : (pure a : T α).val = a := rfl
theorem pure_tr (a : α) : (pure a : T α).tr = [] := rfl
theorem op_val (e : Ev) (a : α) : (op e a).val = a := rfl
theorem op_tr (e : Ev) (a : α) : (op e a).tr = [e] := rfl

theorem bind_eq {x : T α} {f : α → T β} {v : α} {t : List Ev} {w : β} {u : List Ev} (h : x = ⟨v, t⟩)
    (h' : f v = ⟨w, u⟩) : (x >>= f) = ⟨w, t ++ u⟩ := by
  subst h
  show (⟨(f v).val, t ++ (f v).tr⟩ : T β) = _
  rw [h']

end T

open T

/-! ### The functions -/

/-- `derive/src/field/arith.rs:174-178`. -/
def adcChainT : List ℕ → List ℕ → ℕ → T (List ℕ × ℕ)
  | a :: as, b :: bs, carry => do
    let d ← op .adc (adc a b carry)
    let ds ← adcChainT as bs d.2
    pure (d.1 :: ds.1, ds.2)
  | _, _, carry => pure ([], carry)

/-- `derive/src/field/arith.rs:182-186`. -/
def sbbChainT : List ℕ → List ℕ → ℕ → T (List ℕ × ℕ)
  | a :: as, b :: bs, borrow => do
    let d ← op .sbb (sbb a b borrow)
    let ds ← sbbChainT as bs d.2
    pure (d.1 :: ds.1, ds.2)
  | _, _, borrow => pure ([], borrow)

/-- `derive/src/field/arith.rs:101-110`. -/
def macRowT (k : ℕ) : List ℕ → List ℕ → ℕ → T (List ℕ × ℕ)
  | r :: rs, m :: ms, carry => do
    let d ← op .mac (mac r k m carry)
    let ds ← macRowT k rs ms d.2
    pure (d.1 :: ds.1, ds.2)
  | _, _, carry => pure ([], carry)

/-- `derive/src/field/arith.rs:194, 220, 305`. -/
def maskLimbsT : List ℕ → ℕ → T (List ℕ)
  | [], _ => pure []
  | x :: xs, mask => do
    let y ← op .bit (x &&& mask)
    let ys ← maskLimbsT xs mask
    pure (y :: ys)

/-- The OR of the limbs, `derive/src/field/arith.rs:242-245`. -/
def orT : ℕ → List ℕ → T ℕ
  | acc, [] => pure acc
  | acc, x :: xs => do
    let y ← op .bit (acc ||| x)
    orT y xs

/-- `impl_add`, `derive/src/field/arith.rs:171-204`. -/
def fAddT (m a b : List ℕ) : T (List ℕ) := do
  let d ← adcChainT a b 0
  let e ← sbbChainT d.1 m 0
  let borrow ← op .sbb (sbb d.2 0 e.2)
  let mm ← maskLimbsT m borrow.2
  let r ← adcChainT e.1 mm 0
  pure r.1

/-- `impl_sub`, `derive/src/field/arith.rs:206-230`. -/
def fSubT (m a b : List ℕ) : T (List ℕ) := do
  let d ← sbbChainT a b 0
  let mm ← maskLimbsT m d.2
  let r ← adcChainT d.1 mm 0
  pure r.1

/-- `impl_neg`, `derive/src/field/arith.rs:232-258`. -/
def fNegT (m a : List ℕ) : T (List ℕ) := do
  let d ← sbbChainT m a 0
  let or ← orT 0 a
  let mask ← op .cmp (((if or = 0 then 1 else 0) + W - 1) % W)
  maskLimbsT d.1 mask

/-- `impl_mul`, `derive/src/field/arith.rs:100-111`. -/
def mulRowsT (b : List ℕ) : List ℕ → List ℕ → T (List ℕ)
  | [], acc => pure acc
  | ai :: as, acc => do
    let row ← macRowT ai acc b 0
    let rest ← mulRowsT b as (row.1.drop 1 ++ [row.2])
    pure (row.1.take 1 ++ rest)

/-- `impl_mul`, `derive/src/field/arith.rs:98-114`. -/
def mulWideT (a b : List ℕ) : T (List ℕ) := mulRowsT b a (List.replicate b.length 0)

/-- `impl_mont`, `derive/src/field/arith.rs:263-289`. -/
def montRoundsT (m : List ℕ) (inv : ℕ) : List ℕ → List ℕ → ℕ → T (List ℕ × ℕ)
  | w, [], carry2 => pure (w, carry2)
  | w, h :: hs, carry2 => do
    let k ← op .mul ((w.headD 0 * inv) % W)
    let row ← macRowT k w m 0
    let top ← op .adc (adc h carry2 row.2)
    montRoundsT m inv (row.1.drop 1 ++ [top.1]) hs top.2

/-- `montgomery_reduce`, `derive/src/field/arith.rs:260-314`. -/
def montReduceT (m : List ℕ) (inv : ℕ) (r : List ℕ) : T (List ℕ) := do
  let w ← montRoundsT m inv (r.take m.length) (r.drop m.length) 0
  let d ← sbbChainT w.1 m 0
  let borrow ← op .sbb (sbb w.2 0 d.2)
  let mm ← maskLimbsT m borrow.2
  let e ← adcChainT d.1 mm 0
  pure e.1

/-- `mul`, `derive/src/field/arith.rs:98-123`. -/
def fMulT (m : List ℕ) (inv : ℕ) (a b : List ℕ) : T (List ℕ) := do
  let w ← mulWideT a b
  montReduceT m inv w

/-- `impl_square`, `derive/src/field/arith.rs:127-138`. -/
def sqOffT : List ℕ → List ℕ → T (List ℕ)
  | [], _ => pure []
  | [_], _ => pure []
  | ai :: as, acc => do
    let r ← macRowT ai acc as 0
    let row := r.1 ++ [r.2]
    let rest ← sqOffT as (row.drop 2)
    pure (row.take 2 ++ rest)

/-- `impl_square`, `derive/src/field/arith.rs:140-149`. -/
def sqShiftT (prev : ℕ) : List ℕ → T (List ℕ)
  | [] => do
    let h ← op .bit (prev / 2 ^ 63)
    pure [h]
  | r :: rs => do
    let h ← op .bit ((r * 2) % W ||| prev / 2 ^ 63)
    let rest ← sqShiftT r rs
    pure (h :: rest)

/-- `impl_square`, `derive/src/field/arith.rs:151-162`. -/
def sqDiagT : List ℕ → List ℕ → ℕ → T (List ℕ)
  | ai :: as, r0 :: r1 :: rs, carry => do
    let d0 ← op .mac (mac r0 ai ai carry)
    let d1 ← op .adc (adc 0 r1 d0.2)
    let rest ← sqDiagT as rs d1.2
    pure (d0.1 :: d1.1 :: rest)
  | _, _, _ => pure []

/-- `square`, `derive/src/field/arith.rs:125-169`. -/
def fSquareT (m : List ℕ) (inv : ℕ) (a : List ℕ) : T (List ℕ) := do
  let off ← sqOffT a (List.replicate (a.length - 1) 0)
  let sh ← sqShiftT 0 off
  let w ← sqDiagT a (0 :: sh) 0
  montReduceT m inv w

/-- `impl_from_mont`, `derive/src/field/arith.rs:319-336`. -/
def fromMontRoundsT (m : List ℕ) (inv : ℕ) : ℕ → List ℕ → T (List ℕ)
  | 0, w => pure w
  | i + 1, w => do
    let k ← op .mul ((w.headD 0 * inv) % W)
    let row ← macRowT k w m 0
    fromMontRoundsT m inv i (row.1.drop 1 ++ [row.2])

/-- `from_mont`, `derive/src/field/arith.rs:316-342`. -/
def fromMontT (m : List ℕ) (inv : ℕ) (a : List ℕ) : T (List ℕ) := do
  let w ← fromMontRoundsT m inv m.length a
  fSubT m w m

/-- `conditional_select`, `derive/src/field/mod.rs:243-250`: one word select for each index. -/
def selectT (a b : List ℕ) (c : Bool) : List ℕ → T (List ℕ)
  | [] => pure []
  | i :: is => do
    let x ← op .sel (Field.wordSelect (a.getD i 0) (b.getD i 0) c)
    let xs ← selectT a b c is
    pure (x :: xs)

/-- `ct_eq`, `derive/src/field/mod.rs:232-239`: `Iterator::all` stops at the first pair of limbs that differ. -/
def ctEqT : List ℕ → List ℕ → T Bool
  | a :: as, b :: bs => do
    let c ← op .cmp (a == b)
    bif c then ctEqT as bs else pure false
  | _, _ => pure true

/-! ### Same values -/

theorem adcChainT_val (a b : List ℕ) (c : ℕ) : (adcChainT a b c).val = adcChain a b c := by
  induction a generalizing b c with
  | nil => rfl
  | cons x xs ih =>
    cases b with
    | nil => rfl
    | cons y ys => simp only [adcChainT, adcChain, bind_val, op_val, pure_val, ih]

theorem sbbChainT_val (a b : List ℕ) (c : ℕ) : (sbbChainT a b c).val = sbbChain a b c := by
  induction a generalizing b c with
  | nil => rfl
  | cons x xs ih =>
    cases b with
    | nil => rfl
    | cons y ys => simp only [sbbChainT, sbbChain, bind_val, op_val, pure_val, ih]

theorem macRowT_val (k : ℕ) (a b : List ℕ) (c : ℕ) : (macRowT k a b c).val = macRow k a b c := by
  induction a generalizing b c with
  | nil => rfl
  | cons x xs ih =>
    cases b with
    | nil => rfl
    | cons y ys => simp only [macRowT, macRow, bind_val, op_val, pure_val, ih]

theorem maskLimbsT_val (m : List ℕ) (k : ℕ) : (maskLimbsT m k).val = m.map (· &&& k) := by
  induction m with
  | nil => rfl
  | cons x xs ih => simp only [maskLimbsT, bind_val, op_val, pure_val, ih, List.map_cons]

theorem orT_val (acc : ℕ) (l : List ℕ) : (orT acc l).val = l.foldl (· ||| ·) acc := by
  induction l generalizing acc with
  | nil => rfl
  | cons x xs ih => simp only [orT, bind_val, op_val, ih, List.foldl_cons]

theorem fAddT_val (m a b : List ℕ) : (fAddT m a b).val = fAdd m a b := by
  simp only [fAddT, fAdd, maskLimbs, bind_val, op_val, pure_val, adcChainT_val, sbbChainT_val, maskLimbsT_val]

theorem fSubT_val (m a b : List ℕ) : (fSubT m a b).val = fSub m a b := by
  simp only [fSubT, fSub, maskLimbs, bind_val, pure_val, adcChainT_val, sbbChainT_val, maskLimbsT_val]

theorem fNegT_val (m a : List ℕ) : (fNegT m a).val = fNeg m a := by
  simp only [fNegT, fNeg, bind_val, op_val, sbbChainT_val, maskLimbsT_val, orT_val]

theorem mulRowsT_val (b a acc : List ℕ) : (mulRowsT b a acc).val = mulRows b a acc := by
  induction a generalizing acc with
  | nil => rfl
  | cons x xs ih => simp only [mulRowsT, mulRows, bind_val, pure_val, macRowT_val, ih]

theorem montRoundsT_val (m : List ℕ) (inv : ℕ) (w h : List ℕ) (c : ℕ) :
    (montRoundsT m inv w h c).val = montRounds m inv w h c := by
  induction h generalizing w c with
  | nil => rfl
  | cons x xs ih => simp only [montRoundsT, montRounds, bind_val, op_val, macRowT_val, ih]

theorem montReduceT_val (m : List ℕ) (inv : ℕ) (r : List ℕ) : (montReduceT m inv r).val = montReduce m inv r := by
  simp only [montReduceT, montReduce, maskLimbs, bind_val, op_val, pure_val, adcChainT_val, sbbChainT_val,
    maskLimbsT_val, montRoundsT_val]

theorem fMulT_val (m : List ℕ) (inv : ℕ) (a b : List ℕ) : (fMulT m inv a b).val = fMul m inv a b := by
  simp only [fMulT, fMul, mulWideT, mulWide, bind_val, mulRowsT_val, montReduceT_val]

theorem sqOffT_val (a acc : List ℕ) : (sqOffT a acc).val = sqOff a acc := by
  induction a generalizing acc with
  | nil => rfl
  | cons x xs ih =>
    cases xs with
    | nil => rfl
    | cons y ys => simp only [sqOffT, sqOff, bind_val, pure_val, macRowT_val, ih]

theorem sqShiftT_val (prev : ℕ) (l : List ℕ) : (sqShiftT prev l).val = sqShift prev l := by
  induction l generalizing prev with
  | nil => rfl
  | cons x xs ih => simp only [sqShiftT, sqShift, bind_val, op_val, pure_val, ih]

theorem sqDiagT_val (a l : List ℕ) (c : ℕ) : (sqDiagT a l c).val = sqDiag a l c := by
  induction a generalizing l c with
  | nil => rfl
  | cons x xs ih =>
    match l with
    | [] => rfl
    | [_] => rfl
    | _ :: _ :: rs => simp only [sqDiagT, sqDiag, bind_val, op_val, pure_val, ih]

theorem fSquareT_val (m : List ℕ) (inv : ℕ) (a : List ℕ) : (fSquareT m inv a).val = fSquare m inv a := by
  simp only [fSquareT, fSquare, sqWide, bind_val, sqOffT_val, sqShiftT_val, sqDiagT_val, montReduceT_val]

theorem fromMontRoundsT_val (m : List ℕ) (inv i : ℕ) (w : List ℕ) :
    (fromMontRoundsT m inv i w).val = fromMontRounds m inv i w := by
  induction i generalizing w with
  | zero => rfl
  | succ i ih => simp only [fromMontRoundsT, fromMontRounds, bind_val, op_val, macRowT_val, ih]

theorem fromMontT_val (m : List ℕ) (inv : ℕ) (a : List ℕ) : (fromMontT m inv a).val = Halo2.fromMont m inv a := by
  simp only [fromMontT, Halo2.fromMont, bind_val, fromMontRoundsT_val, fSubT_val]

theorem selectT_val (a b : List ℕ) (c : Bool) (l : List ℕ) :
    (selectT a b c l).val = l.map fun i => Field.wordSelect (a.getD i 0) (b.getD i 0) c := by
  induction l with
  | nil => rfl
  | cons x xs ih => simp only [selectT, bind_val, op_val, pure_val, ih, List.map_cons]

theorem ctEqT_val (a b : List ℕ) : (ctEqT a b).val = Field.ctEq a b := by
  induction a generalizing b with
  | nil => rfl
  | cons x xs ih =>
    cases b with
    | nil => rfl
    | cons y ys =>
      simp only [ctEqT, Field.ctEq, bind_val, op_val, List.zip_cons_cons, List.all_cons]
      cases h : (x == y)
      · rfl
      · rw [cond_true, Bool.true_and, ih]; rfl

/-! ### The trace depends on the lengths only -/

theorem adcChainT_tr {a b : List ℕ} {n : ℕ} (c : ℕ) (ha : a.length = n) (hb : b.length = n) :
    (adcChainT a b c).tr = List.replicate n .adc ∧ (adcChain a b c).1.length = n := by
  subst ha
  induction a generalizing b c with
  | nil => exact ⟨rfl, rfl⟩
  | cons x xs ih =>
    cases b with
    | nil => simp at hb
    | cons y ys =>
      have h := ih (adc x y c).2 (b := ys) (by simpa using hb)
      simp only [adcChainT, adcChain, bind_tr, op_tr, op_val, pure_tr, List.append_nil, h.1, List.length_cons, h.2,
        List.replicate_succ, List.singleton_append, and_self]

theorem sbbChainT_tr {a b : List ℕ} {n : ℕ} (c : ℕ) (ha : a.length = n) (hb : b.length = n) :
    (sbbChainT a b c).tr = List.replicate n .sbb ∧ (sbbChain a b c).1.length = n := by
  subst ha
  induction a generalizing b c with
  | nil => exact ⟨rfl, rfl⟩
  | cons x xs ih =>
    cases b with
    | nil => simp at hb
    | cons y ys =>
      have h := ih (sbb x y c).2 (b := ys) (by simpa using hb)
      simp only [sbbChainT, sbbChain, bind_tr, op_tr, op_val, pure_tr, List.append_nil, h.1, List.length_cons, h.2,
        List.replicate_succ, List.singleton_append, and_self]

theorem macRowT_tr {k : ℕ} {a b : List ℕ} {n : ℕ} (c : ℕ) (ha : a.length = n) (hb : b.length = n) :
    (macRowT k a b c).tr = List.replicate n .mac ∧ (macRow k a b c).1.length = n := by
  subst ha
  induction a generalizing b c with
  | nil => exact ⟨rfl, rfl⟩
  | cons x xs ih =>
    cases b with
    | nil => simp at hb
    | cons y ys =>
      have h := ih (mac x k y c).2 (b := ys) (by simpa using hb)
      simp only [macRowT, macRow, bind_tr, op_tr, op_val, pure_tr, List.append_nil, h.1, List.length_cons, h.2,
        List.replicate_succ, List.singleton_append, and_self]

theorem maskLimbsT_tr (m : List ℕ) (k : ℕ) : (maskLimbsT m k).tr = List.replicate m.length .bit := by
  induction m with
  | nil => rfl
  | cons x xs ih =>
    simp only [maskLimbsT, bind_tr, op_tr, op_val, pure_tr, List.append_nil, ih, List.length_cons, List.replicate_succ,
      List.singleton_append]

theorem orT_tr (acc : ℕ) (l : List ℕ) : (orT acc l).tr = List.replicate l.length .bit := by
  induction l generalizing acc with
  | nil => rfl
  | cons x xs ih =>
    simp only [orT, bind_tr, op_tr, op_val, ih, List.length_cons, List.replicate_succ, List.singleton_append]

/-- The events of an addition of `n` limbs. -/
def addTrace (n : ℕ) : List Ev :=
  List.replicate n .adc ++ (List.replicate n .sbb ++ (.sbb :: (List.replicate n .bit ++ List.replicate n .adc)))

theorem fAddT_tr {m a b : List ℕ} {n : ℕ} (hm : m.length = n) (ha : a.length = n) (hb : b.length = n) :
    (fAddT m a b).tr = addTrace n := by
  have h1 := adcChainT_tr 0 ha hb
  have h2 := sbbChainT_tr 0 h1.2 hm
  have h3 (k : ℕ) := adcChainT_tr 0 h2.2 (b := m.map (· &&& k)) (by rw [List.length_map, hm])
  simp only [fAddT, bind_tr, op_tr, op_val, pure_tr, adcChainT_val, sbbChainT_val, maskLimbsT_val, maskLimbsT_tr, h1.1,
    h2.1, (h3 _).1, hm, List.append_nil, addTrace, List.singleton_append]

/-- The events of a subtraction. -/
def subTrace (n : ℕ) : List Ev := List.replicate n .sbb ++ (List.replicate n .bit ++ List.replicate n .adc)

theorem sbbChain_length {a b : List ℕ} {n : ℕ} (c : ℕ) (ha : a.length = n) (hb : b.length = n) :
    (sbbChain a b c).1.length = n := (sbbChainT_tr c ha hb).2

theorem fSubT_tr {m a b : List ℕ} {n : ℕ} (hm : m.length = n) (ha : a.length = n) (hb : b.length = n) :
    (fSubT m a b).tr = subTrace n := by
  have h1 := sbbChainT_tr 0 ha hb
  have h3 (k : ℕ) := adcChainT_tr 0 h1.2 (b := m.map (· &&& k)) (by rw [List.length_map, hm])
  simp only [fSubT, bind_tr, pure_tr, sbbChainT_val, maskLimbsT_val, maskLimbsT_tr, h1.1,
    (h3 _).1, hm, List.append_nil, subTrace]

/-- The events of a negation. -/
def negTrace (n : ℕ) : List Ev :=
  List.replicate n .sbb ++ (List.replicate n .bit ++ (.cmp :: List.replicate n .bit))

theorem fNegT_tr {m a : List ℕ} {n : ℕ} (hm : m.length = n) (ha : a.length = n) : (fNegT m a).tr = negTrace n := by
  have h1 := sbbChainT_tr 0 hm ha
  simp only [fNegT, bind_tr, op_tr, op_val, sbbChainT_val, maskLimbsT_tr, orT_tr, h1.1, h1.2, ha, negTrace,
    List.singleton_append]

theorem mulRowsT_tr {b : List ℕ} {n : ℕ} (hn : 0 < n) (hb : b.length = n) (a acc : List ℕ) (hacc : acc.length = n) :
    (mulRowsT b a acc).tr = List.replicate (a.length * n) .mac ∧ (mulRows b a acc).length = a.length + n := by
  induction a generalizing acc with
  | nil => exact ⟨by simp [mulRowsT, pure_tr], by simp [mulRows, hacc]⟩
  | cons x xs ih =>
    have h1 := macRowT_tr (k := x) 0 hacc hb
    have h := ih ((macRow x acc b 0).1.drop 1 ++ [(macRow x acc b 0).2]) (by simp only [List.length_append, List.length_drop, h1.2, List.length_singleton]; omega)
    refine ⟨?_, ?_⟩
    · simp only [mulRowsT, bind_tr, pure_tr, macRowT_val, h1.1, h.1, List.append_nil, List.length_cons,
        List.replicate_append_replicate]
      congr 1
      ring
    · simp only [mulRows, List.length_append, h.2, List.length_take, h1.2, List.length_cons]
      omega

/-- The events of the rounds of a reduction. -/
def roundsTrace (n : ℕ) : ℕ → List Ev
  | 0 => []
  | i + 1 => .mul :: (List.replicate n .mac ++ (.adc :: roundsTrace n i))

theorem montRoundsT_tr {m : List ℕ} {inv n : ℕ} (hn : 0 < n) (hm : m.length = n) (w h : List ℕ) (c : ℕ)
    (hw : w.length = n) :
    (montRoundsT m inv w h c).tr = roundsTrace n h.length ∧ (montRounds m inv w h c).1.length = n := by
  induction h generalizing w c with
  | nil => exact ⟨rfl, hw⟩
  | cons x xs ih =>
    have h1 := macRowT_tr (k := (w.headD 0 * inv) % Halo2.W) 0 hw hm
    have h := fun y => ih ((macRow ((w.headD 0 * inv) % Halo2.W) w m 0).1.drop 1 ++ [y])
      (adc x c (macRow ((w.headD 0 * inv) % Halo2.W) w m 0).2).2 (by simp only [List.length_append, List.length_drop, h1.2, List.length_singleton]; omega)
    refine ⟨?_, ?_⟩
    · simp only [montRoundsT, bind_tr, op_tr, op_val, macRowT_val, h1.1, (h _).1, List.length_cons, roundsTrace,
        List.singleton_append]
    · simp only [montRounds]
      exact (h _).2

/-- The events of a reduction. -/
def montTrace (n : ℕ) : List Ev :=
  roundsTrace n n ++ (List.replicate n .sbb ++ (.sbb :: (List.replicate n .bit ++ List.replicate n .adc)))

theorem montReduceT_tr {m : List ℕ} {inv n : ℕ} (hn : 0 < n) (hm : m.length = n) {r : List ℕ}
    (hr : r.length = n + n) : (montReduceT m inv r).tr = montTrace n := by
  have h1 := montRoundsT_tr (inv := inv) hn hm (r.take m.length) (r.drop m.length) 0 (by simp [hm, hr])
  have h2 := sbbChainT_tr 0 h1.2 hm
  have h3 (k : ℕ) := adcChainT_tr 0 h2.2 (b := m.map (· &&& k)) (by rw [List.length_map, hm])
  have hd : (r.drop m.length).length = n := by rw [List.length_drop, hr, hm]; omega
  rw [hd] at h1
  simp only [montReduceT, bind_tr, op_tr, op_val, pure_tr, montRoundsT_val, sbbChainT_val, maskLimbsT_val, maskLimbsT_tr,
    h1.1, h2.1, (h3 _).1, List.append_nil, montTrace, List.singleton_append]
  rw [hm]

/-- The events of a multiplication. -/
def mulTrace (n : ℕ) : List Ev := List.replicate (n * n) .mac ++ montTrace n

theorem fMulT_tr {m : List ℕ} {inv n : ℕ} (hn : 0 < n) {a b : List ℕ} (hm : m.length = n) (ha : a.length = n)
    (hb : b.length = n) : (fMulT m inv a b).tr = mulTrace n := by
  have h1 := mulRowsT_tr hn hb a (List.replicate b.length 0) (by rw [List.length_replicate, hb])
  simp only [fMulT, mulWideT, bind_tr, mulRowsT_val, h1.1]
  rw [montReduceT_tr hn hm (by rw [h1.2, ha]), ha, mulTrace]

/-- The events of the off-diagonal products. -/
def offTrace : ℕ → List Ev
  | 0 => []
  | n + 1 => List.replicate n .mac ++ offTrace n

theorem sqOffT_tr (a acc : List ℕ) (h : acc.length = a.length - 1) :
    (sqOffT a acc).tr = offTrace a.length ∧ (sqOff a acc).length = 2 * (a.length - 1) := by
  induction a generalizing acc with
  | nil => exact ⟨rfl, rfl⟩
  | cons x xs ih =>
    cases xs with
    | nil => exact ⟨rfl, rfl⟩
    | cons y ys =>
      have h1 := macRowT_tr (k := x) 0 (a := acc) (b := y :: ys) (n := ys.length + 1) (by simpa using h) (by simp)
      have h2 := ih (((macRow x acc (y :: ys) 0).1 ++ [(macRow x acc (y :: ys) 0).2]).drop 2) (by simp [h1.2])
      refine ⟨?_, ?_⟩
      · simp only [sqOffT, bind_tr, pure_tr, macRowT_val, h1.1, h2.1, List.append_nil, List.length_cons, offTrace]
      · simp only [sqOff, List.length_append, h2.2, List.length_take, h1.2, List.length_cons, List.length_nil]
        omega

theorem sqShiftT_tr (prev : ℕ) (l : List ℕ) :
    (sqShiftT prev l).tr = List.replicate (l.length + 1) .bit ∧ (sqShift prev l).length = l.length + 1 := by
  induction l generalizing prev with
  | nil => exact ⟨rfl, rfl⟩
  | cons x xs ih =>
    have h := ih x
    simp only [sqShiftT, sqShift, bind_tr, op_tr, op_val, pure_tr, h.1, h.2, List.append_nil, List.length_cons,
      List.replicate_succ, List.singleton_append, and_self]

/-- The events of the diagonal products. -/
def diagTrace : ℕ → List Ev
  | 0 => []
  | n + 1 => .mac :: .adc :: diagTrace n

theorem sqDiagT_tr (a l : List ℕ) (c : ℕ) (h : l.length = a.length + a.length) :
    (sqDiagT a l c).tr = diagTrace a.length ∧ (sqDiag a l c).length = a.length + a.length := by
  induction a generalizing l c with
  | nil => exact ⟨rfl, rfl⟩
  | cons x xs ih =>
    match l, h with
    | [], h => simp at h
    | [_], h => simp at h; omega
    | y :: z :: rs, h =>
      have h1 := ih rs (adc 0 z (mac y x x c).2).2 (by simp at h; omega)
      refine ⟨?_, ?_⟩
      · simp only [sqDiagT, bind_tr, op_tr, op_val, pure_tr, h1.1, List.append_nil, List.length_cons, diagTrace,
          List.singleton_append]
      · simp only [sqDiag, List.length_cons, h1.2]
        omega

/-- The events of a squaring. -/
def squareTrace (n : ℕ) : List Ev :=
  offTrace n ++ (List.replicate (2 * (n - 1) + 1) .bit ++ (diagTrace n ++ montTrace n))

theorem fSquareT_tr {m : List ℕ} {inv n : ℕ} (hn : 0 < n) {a : List ℕ} (hm : m.length = n) (ha : a.length = n) :
    (fSquareT m inv a).tr = squareTrace n := by
  have h1 := sqOffT_tr a (List.replicate (a.length - 1) 0) (by rw [List.length_replicate])
  have h2 := sqShiftT_tr 0 (sqOff a (List.replicate (a.length - 1) 0))
  have h3 := sqDiagT_tr a (0 :: sqShift 0 (sqOff a (List.replicate (a.length - 1) 0))) 0
    (by rw [List.length_cons, h2.2, h1.2]; omega)
  simp only [fSquareT, bind_tr, sqOffT_val, sqShiftT_val, sqDiagT_val, h1.1, h2.1, h3.1]
  rw [montReduceT_tr hn hm (by rw [h3.2, ha]), h1.2, ha, squareTrace]

/-- The events of the rounds of `from_mont`. -/
def outRoundsTrace (n : ℕ) : ℕ → List Ev
  | 0 => []
  | i + 1 => .mul :: (List.replicate n .mac ++ outRoundsTrace n i)

theorem fromMontRoundsT_tr {m : List ℕ} {inv n : ℕ} (hn : 0 < n) (hm : m.length = n) (i : ℕ) (w : List ℕ)
    (hw : w.length = n) :
    (fromMontRoundsT m inv i w).tr = outRoundsTrace n i ∧ (fromMontRounds m inv i w).length = n := by
  induction i generalizing w with
  | zero => exact ⟨rfl, hw⟩
  | succ i ih =>
    have h1 := macRowT_tr (k := (w.headD 0 * inv) % Halo2.W) 0 hw hm
    have h := ih ((macRow ((w.headD 0 * inv) % Halo2.W) w m 0).1.drop 1 ++
      [(macRow ((w.headD 0 * inv) % Halo2.W) w m 0).2]) (by simp only [List.length_append, List.length_drop, h1.2, List.length_singleton]; omega)
    refine ⟨?_, ?_⟩
    · simp only [fromMontRoundsT, bind_tr, op_tr, op_val, macRowT_val, h1.1, h.1, outRoundsTrace, List.singleton_append]
    · simp only [fromMontRounds]
      exact h.2

/-- The events of `from_mont`. -/
def fromMontTrace (n : ℕ) : List Ev := outRoundsTrace n n ++ subTrace n

theorem fromMontT_tr {m : List ℕ} {inv n : ℕ} (hn : 0 < n) {a : List ℕ} (hm : m.length = n) (ha : a.length = n) :
    (fromMontT m inv a).tr = fromMontTrace n := by
  have h1 := fromMontRoundsT_tr (inv := inv) hn hm m.length a ha
  simp only [fromMontT, bind_tr, fromMontRoundsT_val, h1.1]
  rw [fSubT_tr hm h1.2 hm, hm, fromMontTrace]

theorem selectT_tr (a b : List ℕ) (c : Bool) (l : List ℕ) : (selectT a b c l).tr = List.replicate l.length .sel := by
  induction l with
  | nil => rfl
  | cons x xs ih =>
    simp only [selectT, bind_tr, op_tr, op_val, pure_tr, List.append_nil, ih, List.length_cons, List.replicate_succ,
      List.singleton_append]

/-! ### Except for equality -/

/-- Length of the common prefix. -/
def agree : List ℕ → List ℕ → ℕ
  | a :: as, b :: bs => if a = b then agree as bs + 1 else 0
  | _, _ => 0

theorem agree_le (a b : List ℕ) : agree a b ≤ a.length := by
  induction a generalizing b with
  | nil => simp [agree]
  | cons x xs ih =>
    cases b with
    | nil => simp [agree]
    | cons y ys =>
      rw [agree, List.length_cons]
      have := ih ys
      split <;> omega

theorem ctEqT_tr {a b : List ℕ} {n : ℕ} (ha : a.length = n) (hb : b.length = n) :
    (ctEqT a b).tr = List.replicate (min n (agree a b + 1)) .cmp := by
  induction a generalizing b n with
  | nil => subst ha; simp [ctEqT, pure_tr]
  | cons x xs ih =>
    cases b with
    | nil => exact absurd (ha.trans hb.symm) (by simp)
    | cons y ys =>
      obtain ⟨k, rfl⟩ : ∃ k, n = k + 1 := ⟨xs.length, by simpa using ha.symm⟩
      have h := ih (b := ys) (n := k) (by simpa using ha) (by simpa using hb)
      simp only [ctEqT, agree, bind_tr, op_tr, op_val]
      by_cases hxy : x = y
      · rw [beq_iff_eq.mpr hxy, cond_true, if_pos hxy, h, List.singleton_append, ← List.replicate_succ]
        congr 1
        omega
      · rw [beq_eq_false_iff_ne.mpr hxy, cond_false, if_neg hxy, pure_tr]
        have : min (k + 1) (0 + 1) = 1 := by omega
        rw [this]
        rfl

end Halo2.Trace
