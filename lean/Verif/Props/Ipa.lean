import Verif.Props.Ecdsa
import Verif.Props.Msm
import Verif.Props.Fft
import Verif.Props.Order

/-!
# Property C88: inner product arguments with the library

The argument of Bootle, Cerulli, Chaidos, Groth and Petit, with which the commitments over the curves without a pairing are opened, as a
client of the library's interface: in every round the vectors are halved with a challenge, and `msm` computes the two cross terms. `msm` is
any of the multi-scalar multiplications of the library (`C88_msm`).
-/

set_option linter.unusedSectionVars false

namespace Halo2.Props

open Halo2 Halo2.Field Halo2.Prime Halo2.Curve Halo2.Msm

section Pure

variable {K M : Type} [_root_.Field K] [AddCommGroup M] [Module K M]

/-- The combination of `ms` with the coefficients `ks`. -/
def lin (ks : List K) (ms : List M) : M := (List.zipWith (fun k m => k • m) ks ms).sum

theorem lin_cons (k : K) (ks : List K) (m : M) (ms : List M) : lin (k :: ks) (m :: ms) = k • m + lin ks ms := rfl
theorem lin_nil (ms : List M) : lin ([] : List K) ms = 0 := rfl
theorem lin_nil' (ks : List K) : lin ks ([] : List M) = 0 := by cases ks <;> rfl

theorem lin_append (a a' : List K) (g g' : List M) (h : a.length = g.length) : lin (a ++ a') (g ++ g') = lin a g + lin a' g' := by
  rw [lin, List.zipWith_append h, List.sum_append]; rfl

theorem lin_split (n : ℕ) (a : List K) (g : List M) : lin a g = lin (a.take n) (g.take n) + lin (a.drop n) (g.drop n) := by
  rw [lin, ← List.take_append_drop n (List.zipWith _ a g), List.sum_append, List.take_zipWith, List.drop_zipWith]
  rfl

theorem lin_scale (c : K) (a : List K) (g : List M) : lin (a.map (c * ·)) g = c • lin a g := by
  induction a generalizing g with
  | nil => rw [List.map_nil, lin_nil, smul_zero]
  | cons k ks ih =>
    cases g with
    | nil => rw [lin_nil', lin_nil', smul_zero]
    | cons m ms => rw [List.map_cons, lin_cons, lin_cons, ih, smul_add, mul_smul]

/-- Folding the two halves of both vectors. -/
theorem lin_fold {x y : K} (hxy : x * y = 1) (a a' : List K) (g g' : List M) (h1 : a.length = a'.length) (h2 : a.length = g.length)
    (h3 : a.length = g'.length) :
    lin (List.zipWith (fun u v => x * u + y * v) a a') (List.zipWith (fun u v => y • u + x • v) g g') =
      lin a g + lin a' g' + ((x * x) • lin a g' + (y * y) • lin a' g) := by
  induction a generalizing a' g g' with
  | nil =>
    obtain rfl := List.eq_nil_of_length_eq_zero h1.symm
    simp [lin_nil]
  | cons k ks ih =>
    obtain ⟨k', ks', rfl⟩ := List.exists_cons_of_length_eq_add_one h1.symm
    obtain ⟨m, ms, rfl⟩ := List.exists_cons_of_length_eq_add_one h2.symm
    obtain ⟨m', ms', rfl⟩ := List.exists_cons_of_length_eq_add_one h3.symm
    simp only [List.length_cons, Nat.add_right_cancel_iff] at h1 h2 h3
    rw [List.zipWith_cons_cons, List.zipWith_cons_cons, lin_cons, ih _ _ _ h1 h2 h3, lin_cons, lin_cons, lin_cons, lin_cons]
    have e : (x * k + y * k') • (y • m + x • m') = (x * y * k) • m + (x * y * k') • m' + ((x * x) • k • m' + (y * y) • k' • m) := by
      module
    rw [e, hxy, one_mul, one_mul, smul_add, smul_add]
    abel

/-- The vector of the products of the challenges. -/
def ipaS : List (K × K) → List K
  | [] => [1]
  | (x, y) :: cs => (ipaS cs).map (y * ·) ++ (ipaS cs).map (x * ·)

theorem length_ipaS (cs : List (K × K)) : (ipaS cs).length = 2 ^ cs.length := by
  induction cs with
  | nil => rfl
  | cons c cs ih => rw [ipaS, List.length_append, List.length_map, List.length_map, ih, List.length_cons, pow_succ]; omega

theorem lin_zip_add (x y : K) (s : List K) (g g' : List M) (h : s.length = g.length) (h' : s.length = g'.length) :
    lin s (List.zipWith (fun u v => y • u + x • v) g g') = y • lin s g + x • lin s g' := by
  induction s generalizing g g' with
  | nil => rw [lin_nil, lin_nil, lin_nil, smul_zero, smul_zero, add_zero]
  | cons k ks ih =>
    obtain ⟨m, ms, rfl⟩ := List.exists_cons_of_length_eq_add_one h.symm
    obtain ⟨m', ms', rfl⟩ := List.exists_cons_of_length_eq_add_one h'.symm
    simp only [List.length_cons, Nat.add_right_cancel_iff] at h h'
    rw [List.zipWith_cons_cons, lin_cons, ih _ _ h h', lin_cons, lin_cons]
    module

theorem lin_ipaS (x y : K) (cs : List (K × K)) (g : List M) (hg : g.length = 2 ^ (cs.length + 1)) :
    lin (ipaS ((x, y) :: cs)) g =
      lin (ipaS cs) (List.zipWith (fun u v => y • u + x • v) (g.take (2 ^ cs.length)) (g.drop (2 ^ cs.length))) := by
  have h2 : 2 ^ (cs.length + 1) = 2 ^ cs.length + 2 ^ cs.length := by rw [pow_succ]; omega
  rw [lin_zip_add _ _ _ _ _ (by rw [length_ipaS, List.length_take]; omega) (by rw [length_ipaS, List.length_drop]; omega), ipaS]
  conv_lhs => rw [← List.take_append_drop (2 ^ cs.length) g]
  rw [lin_append _ _ _ _ (by rw [List.length_map, length_ipaS, List.length_take]; omega), lin_scale, lin_scale]

/-- The bases with the element for the inner product mixed in. -/
def mix (u : M) (g : List M) (b : List K) : List M := List.zipWith (fun m k => m + k • u) g b

theorem lin_mix (u : M) (a b : List K) (g : List M) (h : g.length = b.length) : lin a (mix u g b) = lin a g + lin a b • u := by
  induction a generalizing g b with
  | nil => rw [lin_nil, lin_nil, lin_nil, zero_smul, add_zero]
  | cons k ks ih =>
    cases g with
    | nil =>
      obtain rfl := List.eq_nil_of_length_eq_zero h.symm
      rw [lin_nil', lin_nil', mix, List.zipWith_nil_left, lin_nil', zero_smul, add_zero]
    | cons m ms =>
      obtain ⟨c, b, rfl⟩ := List.exists_cons_of_length_eq_add_one h.symm
      simp only [List.length_cons, Nat.add_right_cancel_iff] at h
      rw [mix, List.zipWith_cons_cons, lin_cons, lin_cons, lin_cons, ← mix, ih _ _ h, smul_eq_mul]
      module

theorem mix_fold (u : M) (x y : K) (g g' : List M) (b b' : List K) (h : g.length = b.length) (h1 : g.length = g'.length)
    (h2 : g.length = b'.length) :
    mix u (List.zipWith (fun m m' => y • m + x • m') g g') (List.zipWith (fun k k' => y * k + x * k') b b') =
      List.zipWith (fun m m' => y • m + x • m') (mix u g b) (mix u g' b') := by
  induction g generalizing g' b b' with
  | nil => rfl
  | cons m ms ih =>
    obtain ⟨k, b, rfl⟩ := List.exists_cons_of_length_eq_add_one h.symm
    obtain ⟨m', g', rfl⟩ := List.exists_cons_of_length_eq_add_one h1.symm
    obtain ⟨k', b', rfl⟩ := List.exists_cons_of_length_eq_add_one h2.symm
    simp only [List.length_cons, Nat.add_right_cancel_iff] at h h1 h2
    have ih := ih g' b b' h h1 h2
    simp only [mix] at ih
    simp only [mix, List.zipWith_cons_cons, ih, List.cons.injEq, and_true]
    module

/-- The challenges and the last scalars of a tree of runs: in each round three runs go on from the same messages. -/
inductive ChTree (K : Type) : ℕ → Type
  | leaf (last : K) : ChTree K 0
  | node {k : ℕ} (x : Fin 3 → K) (next : Fin 3 → ChTree K k) : ChTree K (k + 1)

/-- All runs of the tree satisfy `ok` (challenges, messages, last scalar); `msg` gives the message at each node, named by the way to it. -/
def ChTree.Accepted {A : Type} : {k : ℕ} → ChTree K k → (List (Fin 3) → A) → (List K → List A → K → Prop) → Prop
  | _, .leaf last, _, ok => ok [] [] last
  | _, .node x next, msg, ok =>
    ∀ i, (next i).Accepted (fun way => msg (i :: way)) fun xs ms last => ok (x i :: xs) (msg [] :: ms) last

/-- The three challenges of a node are not zero and have different squares. -/
def ChTree.Distinct : {k : ℕ} → ChTree K k → Prop
  | _, .leaf _ => True
  | _, .node x next => (∀ i, x i ≠ 0) ∧ (∀ i j, i ≠ j → x i * x i ≠ x j * x j) ∧ ∀ i, (next i).Distinct

/-- The coefficient of the `i`-th of three runs. -/
def extractCoeff (x : Fin 3 → K) (i : Fin 3) : K :=
  -(x i * x i * (x (i + 1) * x (i + 1) + x (i + 2) * x (i + 2)) /
    ((x i * x i - x (i + 1) * x (i + 1)) * (x i * x i - x (i + 2) * x (i + 2))))

/-- The vector extracted from a tree. It is computed from scalars only. -/
def ChTree.extract : {k : ℕ} → ChTree K k → List K
  | _, .leaf last => [last]
  | _, .node x next =>
    let part := fun i => ((next i).extract.map ((x i)⁻¹ * ·) ++ (next i).extract.map (x i * ·)).map (extractCoeff x i * ·)
    List.zipWith (· + ·) (part 0) (List.zipWith (· + ·) (part 1) (part 2))

theorem ChTree.length_extract {k : ℕ} (T : ChTree K k) : T.extract.length = 2 ^ k := by
  induction T with
  | leaf last => rfl
  | node x next ih =>
    simp only [extract, List.length_zipWith, List.length_map, List.length_append, ih, pow_succ, min_self]
    omega

theorem lin_add_left (a a' : List K) (g : List M) (h : a.length = a'.length) :
    lin (List.zipWith (· + ·) a a') g = lin a g + lin a' g := by
  induction a generalizing a' g with
  | nil =>
    obtain rfl := List.eq_nil_of_length_eq_zero h.symm
    rw [List.zipWith_nil_left, lin_nil, add_zero]
  | cons k ks ih =>
    obtain ⟨k', ks', rfl⟩ := List.exists_cons_of_length_eq_add_one h.symm
    simp only [List.length_cons, Nat.add_right_cancel_iff] at h
    cases g with
    | nil => rw [lin_nil', lin_nil', lin_nil', add_zero]
    | cons m ms =>
      rw [List.zipWith_cons_cons, lin_cons, lin_cons, lin_cons, ih _ _ h, add_smul]
      abel

theorem ChTree.Accepted.imp {A B : Type} {k : ℕ} {T : ChTree K k} {msg : List (Fin 3) → A} {msg' : List (Fin 3) → B}
    {ok : List K → List A → K → Prop} {ok' : List K → List B → K → Prop} (h : T.Accepted msg ok)
    (hi : ∀ xs ms ms' last, xs.length = k → List.Forall₂ (fun a b => ∃ way, a = msg way ∧ b = msg' way) ms ms' → ok xs ms last →
      ok' xs ms' last) : T.Accepted msg' ok' := by
  induction T generalizing msg msg' ok ok' with
  | leaf last => exact hi [] [] [] last rfl .nil h
  | node x next ih =>
    intro i
    refine ih i (h i) fun xs ms ms' last hl hm ho => ?_
    refine hi _ _ _ _ (by rw [List.length_cons, hl]) (.cons ⟨[], rfl, rfl⟩ (hm.imp fun a b h => ?_)) ho
    obtain ⟨way, h1, h2⟩ := h
    exact ⟨i :: way, h1, h2⟩

/-- The sum of the cross terms in a module. -/
def crossM (xs : List K) (ls : List (M × M)) : M :=
  (List.zipWith (fun x t => (x * x) • t.1 + (x⁻¹ * x⁻¹) • t.2) xs ls).sum

theorem coeff_sums (x : Fin 3 → K) (h0 : ∀ i, x i ≠ 0) (hd : ∀ i j, i ≠ j → x i * x i ≠ x j * x j) :
    extractCoeff x 0 + extractCoeff x 1 + extractCoeff x 2 = 1 ∧
    extractCoeff x 0 * (x 0 * x 0) + extractCoeff x 1 * (x 1 * x 1) + extractCoeff x 2 * (x 2 * x 2) = 0 ∧
    extractCoeff x 0 * ((x 0)⁻¹ * (x 0)⁻¹) + extractCoeff x 1 * ((x 1)⁻¹ * (x 1)⁻¹) + extractCoeff x 2 * ((x 2)⁻¹ * (x 2)⁻¹) = 0 := by
  have e0 : extractCoeff x 0 = -(x 0 * x 0 * (x 1 * x 1 + x 2 * x 2) / ((x 0 * x 0 - x 1 * x 1) * (x 0 * x 0 - x 2 * x 2))) := rfl
  have e1 : extractCoeff x 1 = -(x 1 * x 1 * (x 2 * x 2 + x 0 * x 0) / ((x 1 * x 1 - x 2 * x 2) * (x 1 * x 1 - x 0 * x 0))) := rfl
  have e2 : extractCoeff x 2 = -(x 2 * x 2 * (x 0 * x 0 + x 1 * x 1) / ((x 2 * x 2 - x 0 * x 0) * (x 2 * x 2 - x 1 * x 1))) := rfl
  have h01 := sub_ne_zero.mpr (hd 0 1 (by decide))
  have h02 := sub_ne_zero.mpr (hd 0 2 (by decide))
  have h12 := sub_ne_zero.mpr (hd 1 2 (by decide))
  have i0 : (x 0 * x 0)⁻¹ = (x 0)⁻¹ * (x 0)⁻¹ := mul_inv _ _
  have i1 : (x 1 * x 1)⁻¹ = (x 1)⁻¹ * (x 1)⁻¹ := mul_inv _ _
  have i2 : (x 2 * x 2)⁻¹ = (x 2)⁻¹ * (x 2)⁻¹ := mul_inv _ _
  have n0 := mul_ne_zero (h0 0) (h0 0)
  have n1 := mul_ne_zero (h0 1) (h0 1)
  have n2 := mul_ne_zero (h0 2) (h0 2)
  rw [e0, e1, e2, ← i0, ← i1, ← i2]
  generalize x 0 * x 0 = a at *
  generalize x 1 * x 1 = b at *
  generalize x 2 * x 2 = c at *
  have r1 : b - a = -(a - b) := by ring
  have r2 : c - a = -(a - c) := by ring
  have r3 : c - b = -(b - c) := by ring
  rw [r1, r2, r3]
  refine ⟨?_, ?_, ?_⟩ <;> field_simp <;> ring

/-- If all runs of a tree end well, the commitment is the combination of the bases with the extracted coefficients. -/
theorem extract_spec {k : ℕ} (T : ChTree K k) (hT : T.Distinct) (msg : List (Fin 3) → M × M) (P : M) (g : List M)
    (hg : g.length = 2 ^ k)
    (h : T.Accepted msg fun xs ls last => P + crossM xs ls = last • lin (ipaS (xs.map fun x => (x, x⁻¹))) g) :
    P = lin T.extract g := by
  induction T generalizing msg P g with
  | leaf last =>
    obtain ⟨m, rfl⟩ := List.length_eq_one_iff.mp hg
    have h : P + crossM ([] : List K) [] = last • lin (ipaS []) [m] := h
    rw [crossM, List.zipWith_nil_left, List.sum_nil, add_zero, ipaS, lin_cons, lin_nil', one_smul, add_zero] at h
    rw [h, ChTree.extract, lin_cons, lin_nil, add_zero]
  | @node k x next ih =>
    obtain ⟨h0, hd, hn⟩ := hT
    have h2 : 2 ^ (k + 1) = 2 ^ k + 2 ^ k := by rw [pow_succ]; omega
    have key : ∀ i, P + ((x i * x i) • (msg []).1 + ((x i)⁻¹ * (x i)⁻¹) • (msg []).2) =
        lin ((next i).extract.map ((x i)⁻¹ * ·) ++ (next i).extract.map (x i * ·)) g := fun i => by
      have hi := ih i (hn i) (fun way => msg (i :: way)) (P + ((x i * x i) • (msg []).1 + ((x i)⁻¹ * (x i)⁻¹) • (msg []).2))
        (List.zipWith (fun u v => (x i)⁻¹ • u + x i • v) (g.take (2 ^ k)) (g.drop (2 ^ k)))
        (by rw [List.length_zipWith, List.length_take, List.length_drop]; omega)
        ((h i).imp fun xs ms ms' last hl hm ho => by
          obtain rfl : ms = ms' := List.forall₂_eq_eq_eq ▸ hm.imp fun a b h => by obtain ⟨way, e1, e2⟩ := h; rw [e1, e2]
          have ho : P + crossM (x i :: xs) (msg [] :: ms) = last • lin (ipaS ((x i :: xs).map fun x => (x, x⁻¹))) g := ho
          have hcs : (xs.map fun x => (x, x⁻¹)).length = k := by rw [List.length_map, hl]
          rw [List.map_cons, lin_ipaS _ _ _ _ (by rw [hcs, hg]), hcs, crossM, List.zipWith_cons_cons, List.sum_cons, ← crossM] at ho
          rw [← ho]
          abel)
      rw [hi, lin_zip_add _ _ _ _ _ (by rw [ChTree.length_extract, List.length_take]; omega)
        (by rw [ChTree.length_extract, List.length_drop]; omega)]
      conv_rhs => rw [← List.take_append_drop (2 ^ k) g]
      rw [lin_append _ _ _ _ (by rw [List.length_map, ChTree.length_extract, List.length_take]; omega), lin_scale, lin_scale]
    have hlen : ∀ i, ((next i).extract.map ((x i)⁻¹ * ·) ++ (next i).extract.map (x i * ·)).length = 2 ^ (k + 1) := fun i => by
      rw [List.length_append, List.length_map, List.length_map, ChTree.length_extract, h2]
    obtain ⟨s1, s2, s3⟩ := coeff_sums x h0 hd
    rw [ChTree.extract, lin_add_left _ _ _ (by rw [List.length_zipWith, List.length_map, List.length_map, List.length_map, hlen, hlen, hlen, min_self]),
      lin_add_left _ _ _ (by rw [List.length_map, List.length_map, hlen, hlen]), lin_scale, lin_scale, lin_scale, ← key, ← key, ← key]
    have e : P = (extractCoeff x 0 + extractCoeff x 1 + extractCoeff x 2) • P +
        (extractCoeff x 0 * (x 0 * x 0) + extractCoeff x 1 * (x 1 * x 1) + extractCoeff x 2 * (x 2 * x 2)) • (msg []).1 +
        (extractCoeff x 0 * ((x 0)⁻¹ * (x 0)⁻¹) + extractCoeff x 1 * ((x 1)⁻¹ * (x 1)⁻¹) +
          extractCoeff x 2 * ((x 2)⁻¹ * (x 2)⁻¹)) • (msg []).2 := by
      rw [s1, s2, s3, one_smul, zero_smul, zero_smul, add_zero, add_zero]
    refine e.trans ?_
    module

end Pure

section Client

variable {F : Type} [_root_.Field F] [DecidableEq F] [BaseField F] [LawfulBase F]
variable {r : ℕ} [Fact r.Prime] [Fact (OddModulus r)] [Fp.SmallModulus r]

/-- The inner product of two vectors of scalars. -/
noncomputable def inner (a b : List (Fp r)) : Fp r := (List.zipWith (· * ·) a b).sum

/-- The challenges with their inverses. -/
def withInverses : List (Fp r) → Option (List (Fp r × Fp r))
  | [] => some []
  | x :: xs => do
    let y ← Fp.invert x
    let cs ← withInverses xs
    some ((x, y) :: cs)

/-- The prover: the pairs of cross terms and the last scalar. The challenges are given; in the protocol each is drawn after the cross terms
of its round. -/
noncomputable def ipaProve (C : Params F) (msm : List (List ℕ) → List (Aff F) → Option (Proj F)) (u : Aff F) :
    List (Fp r × Fp r) → List (Fp r) → List (Fp r) → List (Aff F) → Option (List (Proj F × Proj F) × Fp r)
  | [], a, _, _ => a.head?.map fun x => ([], x)
  | (x, y) :: cs, a, b, g => do
    let h := a.length / 2
    let lo := a.take h
    let hi := a.drop h
    let left ← msm ((lo ++ [inner lo (b.drop h)]).map Fp.toRepr) (g.drop h ++ [u])
    let right ← msm ((hi ++ [inner hi (b.take h)]).map Fp.toRepr) (g.take h ++ [u])
    let g' ← Proj.batchNormalize (List.zipWith (fun p q => Proj.add C (Aff.mul C p (Fp.toRepr y)) (Aff.mul C q (Fp.toRepr x)))
      (g.take h) (g.drop h)) h
    let rest ← ipaProve C msm u cs (List.zipWith (fun p q => x * p + y * q) lo hi)
      (List.zipWith (fun p q => y * p + x * q) (b.take h) (b.drop h)) g'
    some ((left, right) :: rest.1, rest.2)

/-- The commitment of the verifier after all rounds. -/
def ipaFold (C : Params F) (cs : List (Fp r × Fp r)) (proof : List (Proj F × Proj F)) (com : Proj F) : Proj F :=
  (cs.zip proof).foldl (fun acc t => Proj.add C (Proj.add C acc (Proj.mul C t.2.1 (Fp.toRepr (t.1.1 * t.1.1))))
    (Proj.mul C t.2.2 (Fp.toRepr (t.1.2 * t.1.2)))) com

/-- The verifier: `com` is the commitment to `a`, `v` the claimed inner product of `a` and `b`. -/
noncomputable def ipaVerify (C : Params F) (msm : List (List ℕ) → List (Aff F) → Option (Proj F)) (g : List (Aff F)) (u : Aff F)
    (xs b : List (Fp r)) (com : Proj F) (v : Fp r) (proof : List (Proj F × Proj F)) (last : Fp r) : Option Bool := do
  let cs ← withInverses xs
  let s := ipaS cs
  let base ← msm (s.map Fp.toRepr) g
  some (Proj.ctEq (ipaFold C cs proof (Proj.add C com (Aff.mul C u (Fp.toRepr v))))
    (Proj.add C (Proj.mul C base (Fp.toRepr last)) (Aff.mul C u (Fp.toRepr (last * inner s b)))))

/-- A function that computes multi-scalar products of fewer than `2^32` terms. -/
def IsMsm (C : Params F) (r : ℕ) [Fact (OddModulus r)] (msm : List (List ℕ) → List (Aff F) → Option (Proj F)) : Prop :=
  ∀ (ks : List (Fp r)) (bases : List (Aff F)) (ps : List (Pt C)), ks.length = bases.length → bases.length < 2 ^ 32 →
    List.Forall₂ (ARep C) bases ps → ∃ R, msm (ks.map Fp.toRepr) bases = some R ∧ PRep C R (msmValue ks ps)

variable {C : Params F}

/-- **C88** `msm_serial` and `msm_parallel`, the latter with any number of threads and any order of the tasks, are such functions. -/
theorem C88_msm (hC : Good C) {ln : ℕ → ℕ} (hln : LnCeilOk ln) :
    IsMsm C r (fun ks bases => msmSerial C ln ((numBits r + 7) / 8) ks bases Proj.identity) ∧
    ∀ (threads : ℕ) (order : ℕ → List ℕ), 1 ≤ threads → (∀ n, (order n).Perm (List.range (numChunks threads n))) →
      IsMsm C r (fun ks bases => msmParallel C ln ((numBits r + 7) / 8) threads (order bases.length) ks bases) :=
  ⟨fun ks _ _ _ hn h => C30_serial hC hln ks h hn, fun threads _ ht ho ks _ _ hl hn h =>
    C31_parallel hC hln threads ht ks h hl hn _ fun _ => ho _⟩

theorem withInverses_eq (xs : List (Fp r)) (hx : ∀ x ∈ xs, x ≠ 0) : withInverses xs = some (xs.map fun x => (x, x⁻¹)) := by
  induction xs with
  | nil => rfl
  | cons x xs ih =>
    rw [withInverses, invert_eq, if_neg (hx x List.mem_cons_self), ih fun z hz => hx z (List.mem_cons_of_mem _ hz)]
    rfl

theorem withInverses_none (xs : List (Fp r)) (hx : 0 ∈ xs) : withInverses xs = none := by
  induction xs with
  | nil => cases hx
  | cons x xs ih =>
    rw [withInverses, invert_eq]
    by_cases h : x = 0
    · rw [if_pos h]; rfl
    · rw [if_neg h, ih (by rcases List.mem_cons.mp hx with e | e; exact absurd e.symm h; exact e)]
      rfl

/-- The sum of the cross terms, with the squares of the challenges and of their inverses. -/
noncomputable def crossSum {M : Type} [AddMonoid M] (cs : List (Fp r × Fp r)) (ls : List (M × M)) : M :=
  (List.zipWith (fun c t => Fp.toNat (c.1 * c.1) • t.1 + Fp.toNat (c.2 * c.2) • t.2) cs ls).sum

theorem ipaFold_rep (hC : Good C) (cs : List (Fp r × Fp r)) {proof : List (Proj F × Proj F)} {ls : List (Pt C × Pt C)}
    (h : List.Forall₂ (fun t l => PRep C t.1 l.1 ∧ PRep C t.2 l.2) proof ls) {com : Proj F} {p : Pt C} (hp : PRep C com p) :
    PRep C (ipaFold C cs proof com) (p + crossSum cs ls) := by
  induction cs generalizing proof ls com p with
  | nil =>
    rw [crossSum, List.zipWith_nil_left, List.sum_nil, add_zero]
    exact hp
  | cons c cs ih =>
    cases h with
    | nil =>
      rw [crossSum, List.zipWith_nil_right, List.sum_nil, add_zero]
      exact hp
    | @cons t l ts ls ht hs =>
      have := ih hs ((hp.add hC (C23_mul hC ht.1 ARep.identity (c.1 * c.1)).1).add hC
        (C23_mul hC ht.2 ARep.identity (c.2 * c.2)).1)
      rw [crossSum, List.zipWith_cons_cons, List.sum_cons, ← crossSum]
      rw [add_assoc p, add_assoc p] at this
      exact this

/-- **C88** What the verifier decides, for any proof, whoever made it: whether
`com + [v] u + ∑ [x²] l + [x⁻²] r = [last] (∑ s g) + [last ⟨s, b⟩] u`, in the group of points. It panics exactly for a challenge zero. -/
theorem C88_verifier (hC : Good C) {msm : List (List ℕ) → List (Aff F) → Option (Proj F)} (hm : IsMsm C r msm) {g : List (Aff F)}
    {ps : List (Pt C)} (hg : List.Forall₂ (ARep C) g ps) {u : Aff F} {up : Pt C} (hu : ARep C u up) (xs b : List (Fp r))
    (hlen : g.length = 2 ^ xs.length) (hk : xs.length < 32) {com : Proj F} {p : Pt C} (hp : PRep C com p) (v last : Fp r)
    {proof : List (Proj F × Proj F)} {ls : List (Pt C × Pt C)}
    (hl : List.Forall₂ (fun t l => PRep C t.1 l.1 ∧ PRep C t.2 l.2) proof ls) :
    (0 ∈ xs → ipaVerify C msm g u xs b com v proof last = none) ∧
    (0 ∉ xs → ∃ d, ipaVerify C msm g u xs b com v proof last = some d ∧ (d = true ↔
      p + Fp.toNat v • up + crossSum (xs.map fun x => (x, x⁻¹)) ls =
        Fp.toNat last • msmValue (ipaS (xs.map fun x => (x, x⁻¹))) ps +
          Fp.toNat (last * inner (ipaS (xs.map fun x => (x, x⁻¹))) b) • up)) := by
  refine ⟨fun h => ?_, fun h => ?_⟩
  · rw [ipaVerify, withInverses_none xs h]
    rfl
  · have hw := withInverses_eq xs fun x hx h0 => h (h0 ▸ hx)
    generalize hcs : (xs.map fun x => (x, x⁻¹)) = cs at hw
    have hl2 : cs.length = xs.length := by rw [← hcs, List.length_map]
    have hn : g.length < 2 ^ 32 := by rw [hlen]; exact Nat.pow_lt_pow_right (by norm_num) hk
    obtain ⟨R, e, hR⟩ := hm (ipaS cs) g ps (by rw [length_ipaS, hl2, hlen]) hn hg
    refine ⟨_, by rw [ipaVerify, hw, Option.bind_eq_bind, Option.bind_some]; dsimp only; rw [e, Option.bind_eq_bind, Option.bind_some], ?_⟩
    exact (ipaFold_rep hC cs hl (hp.add hC (C23_mul hC PRep.identity hu v).2)).ctEq
      ((C23_mul hC hR hu last).1.add hC (C23_mul hC PRep.identity hu _).2)

section Prover

attribute [local instance] torsModule

theorem coe_smul_tors (k : Fp r) (x : Tors C r) : ((k • x : Tors C r) : Pt C) = Fp.toNat k • (x : Pt C) := by
  have h2 : k • x = Fp.toNat k • x := tors_smul k x
  rw [h2, AddSubgroup.coe_nsmul]

theorem msmValue_lin (ks : List (Fp r)) (gs : List (Tors C r)) :
    msmValue ks (List.map (fun x : Tors C r => (x : Pt C)) gs) = ((lin ks gs : Tors C r) : Pt C) := by
  induction ks generalizing gs with
  | nil => rfl
  | cons k ks ih =>
    cases gs with
    | nil => rfl
    | cons x gs =>
      rw [lin_cons, AddSubgroup.coe_add, coe_smul_tors, ← ih]
      rfl

theorem inner_lin (a b : List (Fp r)) : inner a b = lin a b := rfl

theorem fold_rep (hC : Good C) (x y : Fp r) {g g' : List (Aff F)} {gs gs' : List (Tors C r)}
    (h : List.Forall₂ (fun A (t : Tors C r) => ARep C A (t : Pt C)) g gs)
    (h' : List.Forall₂ (fun A (t : Tors C r) => ARep C A (t : Pt C)) g' gs') :
    List.Forall₂ (fun A (t : Tors C r) => ARep C A (t : Pt C))
      ((List.zipWith (fun p q => Proj.add C (Aff.mul C p (Fp.toRepr y)) (Aff.mul C q (Fp.toRepr x))) g g').map Proj.toAffine)
      (List.zipWith (fun u v => y • u + x • v) gs gs') := by
  induction h generalizing g' gs' with
  | nil => exact .nil
  | cons h1 _ ih =>
    cases h' with
    | nil => exact .nil
    | cons h2 hs =>
      refine .cons ?_ (ih hs)
      rw [AddSubgroup.coe_add, coe_smul_tors, coe_smul_tors]
      exact ((C23_mul hC PRep.identity h1 y).2.add hC (C23_mul hC PRep.identity h2 x).2).toAffine

/-- The sum of the cross terms in the module. -/
noncomputable def crossT (cs : List (Fp r × Fp r)) (ls : List (Tors C r × Tors C r)) : Tors C r :=
  (List.zipWith (fun c t => (c.1 * c.1) • t.1 + (c.2 * c.2) • t.2) cs ls).sum

theorem crossT_coe (cs : List (Fp r × Fp r)) (ls : List (Tors C r × Tors C r)) :
    crossSum cs (ls.map fun t => ((t.1 : Pt C), (t.2 : Pt C))) = ((crossT cs ls : Tors C r) : Pt C) := by
  induction cs generalizing ls with
  | nil => rfl
  | cons c cs ih =>
    cases ls with
    | nil => rfl
    | cons t ls =>
      rw [crossT, List.zipWith_cons_cons, List.sum_cons, ← crossT, AddSubgroup.coe_add, AddSubgroup.coe_add, coe_smul_tors,
        coe_smul_tors, ← ih]
      rfl

theorem prove_spec (hC : Good C) {msm : List (List ℕ) → List (Aff F) → Option (Proj F)} (hm : IsMsm C r msm) {u : Aff F}
    {ut : Tors C r} (hu : ARep C u (ut : Pt C)) (cs : List (Fp r × Fp r)) (hcs : ∀ c ∈ cs, c.1 * c.2 = 1) (hk : cs.length < 32)
    (a b : List (Fp r)) (g : List (Aff F)) (gs : List (Tors C r)) (ha : a.length = 2 ^ cs.length) (hb : b.length = 2 ^ cs.length)
    (hgl : g.length = 2 ^ cs.length) (hg : List.Forall₂ (fun A (t : Tors C r) => ARep C A (t : Pt C)) g gs) :
    ∃ proof last, ∃ ls : List (Tors C r × Tors C r), ipaProve C msm u cs a b g = some (proof, last) ∧
      List.Forall₂ (fun t (l : Tors C r × Tors C r) => PRep C t.1 (l.1 : Pt C) ∧ PRep C t.2 (l.2 : Pt C)) proof ls ∧
      ls.length = cs.length ∧
      lin a (mix ut gs b) + crossT cs ls = last • lin (ipaS cs) (mix ut gs b) := by
  induction cs generalizing a b g gs with
  | nil =>
    obtain ⟨k, rfl⟩ := List.length_eq_one_iff.mp ha
    refine ⟨[], k, [], rfl, .nil, rfl, ?_⟩
    have e : ∀ ms : List (Tors C r), lin [k] ms = k • lin [(1 : Fp r)] ms := fun ms => by
      cases ms with
      | nil => rw [lin_nil', lin_nil', smul_zero]
      | cons m ms => rw [lin_cons, lin_cons, lin_nil, one_smul, add_zero, add_zero]
    rw [crossT, List.zipWith_nil_left, List.sum_nil, add_zero, ipaS, e]
  | cons c cs ih =>
    obtain ⟨x, y⟩ := c
    have hxy : x * y = 1 := hcs _ List.mem_cons_self
    rw [List.length_cons] at hk ha hb hgl
    have h2 : 2 ^ (cs.length + 1) = 2 ^ cs.length + 2 ^ cs.length := by rw [pow_succ]; omega
    have hb2 : 2 ^ cs.length ≤ 2 ^ 30 := Nat.pow_le_pow_right (by norm_num) (by omega)
    have hgs : gs.length = 2 ^ (cs.length + 1) := by rw [← hg.length_eq, hgl]
    have hh : a.length / 2 = 2 ^ cs.length := by omega
    have hgt := List.forall₂_take (2 ^ cs.length) hg
    have hgd := List.forall₂_drop (2 ^ cs.length) hg
    have hms : ∀ (ks bs : List (Fp r)) (A : List (Aff F)) (T : List (Tors C r)), ks.length = 2 ^ cs.length →
        A.length = 2 ^ cs.length → bs.length = 2 ^ cs.length →
        List.Forall₂ (fun A (t : Tors C r) => ARep C A (t : Pt C)) A T →
        ∃ R, msm ((ks ++ [inner ks bs]).map Fp.toRepr) (A ++ [u]) = some R ∧
          PRep C R ((lin ks (mix ut T bs) : Tors C r) : Pt C) := fun ks bs A T h1 h3 h5 h4 => by
      have hT : T.length = 2 ^ cs.length := by rw [← h4.length_eq, h3]
      obtain ⟨R, e, hR⟩ := hm (ks ++ [inner ks bs]) (A ++ [u]) (List.map (fun x : Tors C r => (x : Pt C)) (T ++ [ut]))
        (by rw [List.length_append, List.length_append, h1, h3]; rfl)
        (by rw [List.length_append, h3, List.length_singleton]; omega)
        (by rw [List.forall₂_map_right_iff]; exact List.rel_append h4 (.cons hu .nil))
      refine ⟨R, e, ?_⟩
      rw [msmValue_lin, lin_append _ _ _ _ (by rw [h1, hT]), inner_lin, lin_cons, lin_nil, add_zero] at hR
      rw [lin_mix _ _ _ _ (by rw [hT, h5])]
      exact hR
    obtain ⟨L, eL, hL⟩ := hms (a.take (2 ^ cs.length)) (b.drop (2 ^ cs.length)) (g.drop (2 ^ cs.length)) (gs.drop (2 ^ cs.length))
      (by rw [List.length_take]; omega) (by rw [List.length_drop]; omega) (by rw [List.length_drop]; omega) hgd
    obtain ⟨R, eR, hR⟩ := hms (a.drop (2 ^ cs.length)) (b.take (2 ^ cs.length)) (g.take (2 ^ cs.length)) (gs.take (2 ^ cs.length))
      (by rw [List.length_drop]; omega) (by rw [List.length_take]; omega) (by rw [List.length_take]; omega) hgt
    have hnl : (List.zipWith (fun p q => Proj.add C (Aff.mul C p (Fp.toRepr y)) (Aff.mul C q (Fp.toRepr x)))
        (g.take (2 ^ cs.length)) (g.drop (2 ^ cs.length))).length = 2 ^ cs.length := by
      rw [List.length_zipWith, List.length_take, List.length_drop]; omega
    obtain ⟨proof, last, ls, e, hf, hl, hs⟩ := ih (fun c hc => hcs c (List.mem_cons_of_mem _ hc)) (by omega)
      (List.zipWith (fun p q => x * p + y * q) (a.take (2 ^ cs.length)) (a.drop (2 ^ cs.length)))
      (List.zipWith (fun p q => y * p + x * q) (b.take (2 ^ cs.length)) (b.drop (2 ^ cs.length))) _ _
      (by rw [List.length_zipWith, List.length_take, List.length_drop]; omega)
      (by rw [List.length_zipWith, List.length_take, List.length_drop]; omega)
      (by rw [List.length_map, hnl]) (fold_rep hC x y hgt hgd)
    refine ⟨(L, R) :: proof, last, (lin (a.take (2 ^ cs.length)) (mix ut (gs.drop (2 ^ cs.length)) (b.drop (2 ^ cs.length))),
      lin (a.drop (2 ^ cs.length)) (mix ut (gs.take (2 ^ cs.length)) (b.take (2 ^ cs.length)))) :: ls, ?_, .cons ⟨hL, hR⟩ hf,
      by rw [List.length_cons, List.length_cons, hl], ?_⟩
    · rw [ipaProve, hh, eL, Option.bind_eq_bind, Option.bind_some, eR, Option.bind_eq_bind, Option.bind_some, C22_batch_normalize, if_pos hnl,
        Option.bind_eq_bind, Option.bind_some, e, Option.bind_some]
    · have hmixlen : (mix ut gs b).length = 2 ^ (cs.length + 1) := by rw [mix, List.length_zipWith, hgs, hb, min_self]
      have et : (mix ut gs b).take (2 ^ cs.length) = mix ut (gs.take (2 ^ cs.length)) (b.take (2 ^ cs.length)) := by
        rw [mix, List.take_zipWith]; rfl
      have ed : (mix ut gs b).drop (2 ^ cs.length) = mix ut (gs.drop (2 ^ cs.length)) (b.drop (2 ^ cs.length)) := by
        rw [mix, List.drop_zipWith]; rfl
      rw [mix_fold _ _ _ _ _ _ _ (by rw [List.length_take, List.length_take]; omega)
        (by rw [List.length_take, List.length_drop]; omega) (by rw [List.length_take, List.length_drop]; omega), ← et, ← ed,
        ← lin_ipaS x y cs _ hmixlen,
        lin_fold hxy _ _ _ _ (by rw [List.length_take, List.length_drop]; omega)
          (by rw [List.length_take, List.length_take, hmixlen]; omega) (by rw [List.length_take, List.length_drop, hmixlen]; omega),
        ← lin_split] at hs
      rw [← hs, crossT, List.zipWith_cons_cons, List.sum_cons, ← crossT, ← et, ← ed, ← add_assoc]

end Prover

/-- **C88** Completeness: for all vectors of length `2^k` and all challenges that are not zero, the prover does not panic, and with its
proof the verifier accepts the inner product of the two vectors and no other value. The points are killed by `r`, `u` is not the
identity; the commitment may be given in any coordinates. -/
theorem C88_complete (hC : Good C) {msm : List (List ℕ) → List (Aff F) → Option (Proj F)} (hm : IsMsm C r msm) {g : List (Aff F)}
    {ps : List (Pt C)} (hg : List.Forall₂ (ARep C) g ps) (hps : ∀ p ∈ ps, r • p = 0) {u : Aff F} {up : Pt C} (hu : ARep C u up)
    (hur : r • up = 0) (hu0 : up ≠ 0) (xs a b : List (Fp r)) (hx : 0 ∉ xs) (hk : xs.length < 32) (ha : a.length = 2 ^ xs.length)
    (hb : b.length = 2 ^ xs.length) (hlen : g.length = 2 ^ xs.length) {com : Proj F} (hcom : PRep C com (msmValue a ps)) :
    ∃ cs proof last, withInverses xs = some cs ∧ ipaProve C msm u cs a b g = some (proof, last) ∧ proof.length = xs.length ∧
      ∀ v, ipaVerify C msm g u xs b com v proof last = some (decide (v = inner a b)) := by
  let _ := torsModule C r
  obtain ⟨gs, rfl⟩ : ∃ gs : List (Tors C r), List.map (fun x : Tors C r => (x : Pt C)) gs = ps :=
    ⟨ps.attach.map fun p => (⟨p.1, hps p.1 p.2⟩ : Tors C r), by rw [List.map_map]; exact List.attach_map_subtype_val ps⟩
  rw [List.forall₂_map_right_iff] at hg
  let ut : Tors C r := ⟨up, hur⟩
  have hut : ut ≠ 0 := fun h => hu0 (congrArg Subtype.val h)
  have hw := withInverses_eq xs fun x hx' h0 => hx (h0 ▸ hx')
  obtain ⟨proof, last, ls, e, hf, hl, hs⟩ := prove_spec hC hm (u := u) (ut := ut) hu (xs.map fun x => (x, x⁻¹))
    (by
      intro c hc
      obtain ⟨x, hx', rfl⟩ := List.mem_map.mp hc
      exact mul_inv_cancel₀ fun h0 => hx (h0 ▸ hx'))
    (by rwa [List.length_map]) a b g gs (by rwa [List.length_map]) (by rwa [List.length_map]) (by rwa [List.length_map]) hg
  have hgs : gs.length = b.length := by rw [← hg.length_eq, hlen, hb]
  rw [lin_mix _ _ _ _ hgs, lin_mix _ _ _ _ hgs] at hs
  refine ⟨_, proof, last, hw, e, by rw [hf.length_eq, hl, List.length_map], fun v => ?_⟩
  obtain ⟨d, ed, hd⟩ := (C88_verifier hC hm (List.forall₂_map_right_iff.mpr hg) hu xs b hlen hk hcom v last
    (ls := ls.map fun t => ((t.1 : Pt C), (t.2 : Pt C))) (List.forall₂_map_right_iff.mpr hf)).2 hx
  rw [ed]
  congr 1
  rw [Bool.eq_iff_iff, hd, decide_eq_true_iff, crossT_coe, msmValue_lin, msmValue_lin, ← coe_smul_tors,
    show up = (ut : Pt C) from rfl, ← coe_smul_tors, ← coe_smul_tors, ← AddSubgroup.coe_add, ← AddSubgroup.coe_add,
    ← AddSubgroup.coe_add, Subtype.coe_inj, inner_lin, inner_lin]
  have key : lin a gs + v • ut + crossT (xs.map fun x => (x, x⁻¹)) ls -
      (last • lin (ipaS (xs.map fun x => (x, x⁻¹))) gs + (last * lin (ipaS (xs.map fun x => (x, x⁻¹))) b) • ut) =
      (v - lin a b) • ut := by
    have := sub_eq_zero.mpr hs
    rw [← sub_eq_zero, ← this]
    module
  rw [← sub_eq_zero, key, smul_eq_zero, or_iff_left hut, sub_eq_zero]

/-- **C88** Soundness of the tree: if the verifier accepts all runs of a tree (three challenges with different squares in each round, the
messages of a round fixed before its challenge), then the vector that `extract` computes from the challenges and the last scalars alone
opens the commitment: `com + [v] u = ∑ a g + [⟨a, b⟩] u`. -/
theorem C88_extract (hC : Good C) {msm : List (List ℕ) → List (Aff F) → Option (Proj F)} (hm : IsMsm C r msm) {g : List (Aff F)}
    {ps : List (Pt C)} (hg : List.Forall₂ (ARep C) g ps) (hps : ∀ p ∈ ps, r • p = 0) {u : Aff F} {up : Pt C} (hu : ARep C u up)
    (hur : r • up = 0) {k : ℕ} (hk : k < 32) (T : ChTree (Fp r) k) (hT : T.Distinct) (b : List (Fp r)) (hb : b.length = 2 ^ k)
    (hlen : g.length = 2 ^ k) {com : Proj F} {p : Pt C} (hp : PRep C com p) (hpr : r • p = 0) (v : Fp r)
    (msg : List (Fin 3) → Proj F × Proj F)
    (hmsg : ∀ way, ∃ l l', PRep C (msg way).1 l ∧ PRep C (msg way).2 l' ∧ r • l = 0 ∧ r • l' = 0)
    (hacc : T.Accepted msg fun xs proof last => ipaVerify C msm g u xs b com v proof last = some true) :
    T.extract.length = 2 ^ k ∧ p + Fp.toNat v • up = msmValue T.extract ps + Fp.toNat (inner T.extract b) • up := by
  let _ := torsModule C r
  refine ⟨T.length_extract, ?_⟩
  obtain ⟨gs, rfl⟩ : ∃ gs : List (Tors C r), List.map (fun x : Tors C r => (x : Pt C)) gs = ps :=
    ⟨ps.attach.map fun p => (⟨p.1, hps p.1 p.2⟩ : Tors C r), by rw [List.map_map]; exact List.attach_map_subtype_val ps⟩
  have hgs : gs.length = b.length := by rw [hb, ← hlen, hg.length_eq, List.length_map]
  obtain ⟨ut, rfl⟩ : ∃ ut : Tors C r, (ut : Pt C) = up := ⟨⟨up, hur⟩, rfl⟩
  obtain ⟨pt, rfl⟩ : ∃ pt : Tors C r, (pt : Pt C) = p := ⟨⟨p, hpr⟩, rfl⟩
  have hmt : ∀ way, ∃ t : Tors C r × Tors C r, PRep C (msg way).1 (t.1 : Pt C) ∧ PRep C (msg way).2 (t.2 : Pt C) := fun way => by
    obtain ⟨l, l', h1, h2, h3, h4⟩ := hmsg way
    exact ⟨(⟨l, h3⟩, ⟨l', h4⟩), h1, h2⟩
  choose mt hmt using hmt
  have key := extract_spec T hT mt (pt + v • ut) (mix ut gs b) (by rw [mix, List.length_zipWith, hgs, min_self, hb])
    (hacc.imp fun xs ms ms' last hl hms ho => by
      have hx : 0 ∉ xs := fun h => by
        have e := (C88_verifier hC hm hg hu xs b (by rw [hlen, hl]) (by omega) hp v last
          (proof := ms) (ls := ms'.map fun t => ((t.1 : Pt C), (t.2 : Pt C))) (List.forall₂_map_right_iff.mpr (hms.imp fun a b h => by
            obtain ⟨way, rfl, rfl⟩ := h
            exact hmt way))).1 h
        rw [e] at ho
        exact nomatch ho
      obtain ⟨d, e, hd⟩ := (C88_verifier hC hm hg hu xs b (by rw [hlen, hl]) (by omega) hp v last
          (proof := ms) (ls := ms'.map fun t => ((t.1 : Pt C), (t.2 : Pt C))) (List.forall₂_map_right_iff.mpr (hms.imp fun a b h => by
            obtain ⟨way, rfl, rfl⟩ := h
            exact hmt way))).2 hx
      rw [e] at ho
      have hd := hd.mp (Option.some.inj ho)
      rw [crossT_coe, msmValue_lin, ← coe_smul_tors, ← coe_smul_tors, ← coe_smul_tors, ← AddSubgroup.coe_add, ← AddSubgroup.coe_add,
        ← AddSubgroup.coe_add, Subtype.coe_inj, inner_lin] at hd
      have ec : crossM xs ms' = crossT (xs.map fun x => (x, x⁻¹)) ms' := by rw [crossT, List.zipWith_map_left]; rfl
      rw [ec, hd, lin_mix _ _ _ _ hgs, smul_add, mul_smul])
  rw [lin_mix _ _ _ _ hgs] at key
  rw [msmValue_lin, ← coe_smul_tors, ← coe_smul_tors, ← AddSubgroup.coe_add, ← AddSubgroup.coe_add, key]
  rfl

/-- **C88** Binding: accepted trees for two different values of one commitment give a relation between the points that is not trivial. -/
theorem C88_binding (hC : Good C) {msm : List (List ℕ) → List (Aff F) → Option (Proj F)} (hm : IsMsm C r msm) {g : List (Aff F)}
    {ps : List (Pt C)} (hg : List.Forall₂ (ARep C) g ps) (hps : ∀ p ∈ ps, r • p = 0) {u : Aff F} {up : Pt C} (hu : ARep C u up)
    (hur : r • up = 0) {k : ℕ} (hk : k < 32) (T T' : ChTree (Fp r) k) (hT : T.Distinct) (hT' : T'.Distinct) (b : List (Fp r))
    (hb : b.length = 2 ^ k) (hlen : g.length = 2 ^ k) {com : Proj F} {p : Pt C} (hp : PRep C com p) (hpr : r • p = 0) (v v' : Fp r)
    (hv : v ≠ v') (msg msg' : List (Fin 3) → Proj F × Proj F)
    (hmsg : ∀ way, ∃ l l', PRep C (msg way).1 l ∧ PRep C (msg way).2 l' ∧ r • l = 0 ∧ r • l' = 0)
    (hmsg' : ∀ way, ∃ l l', PRep C (msg' way).1 l ∧ PRep C (msg' way).2 l' ∧ r • l = 0 ∧ r • l' = 0)
    (hacc : T.Accepted msg fun xs proof last => ipaVerify C msm g u xs b com v proof last = some true)
    (hacc' : T'.Accepted msg' fun xs proof last => ipaVerify C msm g u xs b com v' proof last = some true) :
    msmValue T.extract ps + Fp.toNat (inner T.extract b - v) • up = msmValue T'.extract ps + Fp.toNat (inner T'.extract b - v') • up ∧
    (T.extract, inner T.extract b - v) ≠ (T'.extract, inner T'.extract b - v') := by
  obtain ⟨-, h1⟩ := C88_extract hC hm hg hps hu hur hk T hT b hb hlen hp hpr v msg hmsg hacc
  obtain ⟨-, h2⟩ := C88_extract hC hm hg hps hu hur hk T' hT' b hb hlen hp hpr v' msg' hmsg' hacc'
  refine ⟨?_, fun h => ?_⟩
  · have e : ∀ (w c : Fp r), Fp.toNat (c - w) • up = Fp.toNat c • up - Fp.toNat w • up := fun w c => by
      let _ := torsModule C r
      obtain ⟨ut, rfl⟩ : ∃ ut : Tors C r, (ut : Pt C) = up := ⟨⟨up, hur⟩, rfl⟩
      rw [← coe_smul_tors, ← coe_smul_tors, ← coe_smul_tors, ← AddSubgroup.coe_sub, sub_smul]
    rw [e, e, ← add_sub_assoc, ← add_sub_assoc, ← h1, ← h2, add_sub_cancel_right, add_sub_cancel_right]
  · obtain ⟨h3, h4⟩ := Prod.mk.inj h
    rw [h3] at h4
    exact hv (sub_right_injective h4)

theorem ipaProve_one {msm : List (List ℕ) → List (Aff F) → Option (Proj F)} {u : Aff F} {x y : Fp r} {a b : List (Fp r)} {g : List (Aff F)}
    {proof : List (Proj F × Proj F)} {last : Fp r} (h : ipaProve C msm u [(x, y)] a b g = some (proof, last)) :
    ∃ L R, msm ((a.take (a.length / 2) ++ [inner (a.take (a.length / 2)) (b.drop (a.length / 2))]).map Fp.toRepr)
        (g.drop (a.length / 2) ++ [u]) = some L ∧
      msm ((a.drop (a.length / 2) ++ [inner (a.drop (a.length / 2)) (b.take (a.length / 2))]).map Fp.toRepr)
        (g.take (a.length / 2) ++ [u]) = some R ∧ proof = [(L, R)] := by
  rw [ipaProve] at h
  simp only [Option.bind_eq_bind, Option.bind_eq_some_iff] at h
  obtain ⟨L, hL, R, hR, g', -, t, ht, h⟩ := h
  rw [ipaProve, Option.map_eq_some_iff] at ht
  obtain ⟨z, -, rfl⟩ := ht
  exact ⟨L, R, hL, hR, (Prod.mk.inj (Option.some.inj h)).1.symm⟩

end Client

/-- Vectors of length two over secp256k1, with all bases the generator: the inner product of `(3, 5)` and `(2, 7)` is `41`. -/
example : ∃ com cs proof last, withInverses [(9 : Fp k1N)] = some cs ∧
    ipaProve Secp256k1.c (fun ks bases => msmSerial Secp256k1.c (fun _ => 4) ((numBits k1N + 7) / 8) ks bases Proj.identity) Secp256k1.cGen
      cs [3, 5] [2, 7] [Secp256k1.cGen, Secp256k1.cGen] = some (proof, last) ∧ proof.length = 1 ∧
    ∀ v, ipaVerify Secp256k1.c (fun ks bases => msmSerial Secp256k1.c (fun _ => 4) ((numBits k1N + 7) / 8) ks bases Proj.identity)
      [Secp256k1.cGen, Secp256k1.cGen] Secp256k1.cGen [9] [2, 7] com v proof last = some (decide (v = 41)) := by
  obtain ⟨p, hp, ho, -⟩ := C44_orders.2.2.2.2.1.gen
  have hr : k1N • p = 0 := ho ▸ addOrderOf_nsmul_eq_zero p
  have h0 : p ≠ 0 := fun h => by
    rw [h, addOrderOf_zero] at ho
    exact absurd ho (by decide +kernel)
  have hm := (C88_msm (r := k1N) Secp256k1.c_good (ln := fun _ => 4) (fun _ _ _ => ⟨by norm_num, by norm_num⟩)).1
  have hg : List.Forall₂ (ARep Secp256k1.c) [Secp256k1.cGen, Secp256k1.cGen] [p, p] := .cons hp (.cons hp .nil)
  obtain ⟨com, -, hcom⟩ := hm [3, 5] _ _ rfl (by decide) hg
  obtain ⟨cs, proof, last, h1, h2, h3, h4⟩ := C88_complete Secp256k1.c_good hm hg (by simp [hr]) hp hr h0 [9] [3, 5] [2, 7]
    (by
      rw [List.mem_singleton]
      intro h
      have h9 : ((0 : ℕ) : Fp k1N) = ((9 : ℕ) : Fp k1N) := by rw [Nat.cast_zero]; exact h
      rw [Fp.natCast_eq_iff] at h9
      exact absurd h9 (by decide +kernel)) (by decide) rfl rfl rfl hcom
  refine ⟨com, cs, proof, last, h1, h2, h3, fun v => ?_⟩
  rw [h4, show inner [3, 5] [2, 7] = (41 : Fp k1N) by rw [inner]; norm_num]

/-- The runs of the honest prover with the challenges `1`, `2`, `3` are such a tree: the messages of the only round are the same. -/
example : ∃ (com : Proj (Fp k1P)) (T : ChTree (Fp k1N) 1) (msg : List (Fin 3) → Proj (Fp k1P) × Proj (Fp k1P)), T.Distinct ∧
    (∀ way, ∃ l l', PRep Secp256k1.c (msg way).1 l ∧ PRep Secp256k1.c (msg way).2 l' ∧ k1N • l = 0 ∧ k1N • l' = 0) ∧
    T.Accepted msg fun xs proof last =>
      ipaVerify Secp256k1.c (fun ks bases => msmSerial Secp256k1.c (fun _ => 4) ((numBits k1N + 7) / 8) ks bases Proj.identity)
        [Secp256k1.cGen, Secp256k1.cGen] Secp256k1.cGen xs [2, 7] com 41 proof last = some true := by
  obtain ⟨p, hp, ho, -⟩ := C44_orders.2.2.2.2.1.gen
  have hr : k1N • p = 0 := ho ▸ addOrderOf_nsmul_eq_zero p
  have h0 : p ≠ 0 := fun h => by
    rw [h, addOrderOf_zero] at ho
    exact absurd ho (by decide +kernel)
  have hm := (C88_msm (r := k1N) Secp256k1.c_good (ln := fun _ => 4) (fun _ _ _ => ⟨by norm_num, by norm_num⟩)).1
  have hg : List.Forall₂ (ARep Secp256k1.c) [Secp256k1.cGen, Secp256k1.cGen] [p, p] := .cons hp (.cons hp .nil)
  obtain ⟨com, -, hcom⟩ := hm [3, 5] _ _ rfl (by decide) hg
  have ne : ∀ m n : ℕ, m % k1N ≠ n % k1N → ((m : ℕ) : Fp k1N) ≠ ((n : ℕ) : Fp k1N) := fun m n h e => h ((Fp.natCast_eq_iff _ _).mp e)
  have hmsm : ∀ c d : Fp k1N, ∃ R l, msmSerial Secp256k1.c (fun _ => 4) ((numBits k1N + 7) / 8) ([c, d].map Fp.toRepr)
      [Secp256k1.cGen, Secp256k1.cGen] Proj.identity = some R ∧ PRep Secp256k1.c R l ∧ k1N • l = 0 := fun c d => by
    obtain ⟨R, h1, h2⟩ := hm [c, d] _ _ rfl (by decide) hg
    refine ⟨R, _, h1, h2, ?_⟩
    have e : msmValue [c, d] [p, p] = (Fp.toNat c + Fp.toNat d) • p := by
      rw [add_smul]
      simp [msmValue]
    rw [e, smul_comm, hr, smul_zero]
  obtain ⟨L, l, hL, hl, hlr⟩ := hmsm 3 (inner [3] [7])
  obtain ⟨R, l', hR, hl', hlr'⟩ := hmsm 5 (inner [5] [2])
  have run : ∀ n : ℕ, n % k1N ≠ 0 % k1N → ∃ last, ipaVerify Secp256k1.c
      (fun ks bases => msmSerial Secp256k1.c (fun _ => 4) ((numBits k1N + 7) / 8) ks bases Proj.identity)
      [Secp256k1.cGen, Secp256k1.cGen] Secp256k1.cGen [((n : ℕ) : Fp k1N)] [2, 7] com 41 [(L, R)] last = some true := fun n hn => by
    have hx : (0 : Fp k1N) ∉ [((n : ℕ) : Fp k1N)] := fun h => ne n 0 hn (by rw [Nat.cast_zero]; exact (List.mem_singleton.mp h).symm)
    obtain ⟨cs, proof, last, h1, h2, h3, h4⟩ := C88_complete Secp256k1.c_good hm hg (by simp [hr]) hp hr h0 [((n : ℕ) : Fp k1N)] [3, 5] [2, 7]
      hx (by rw [List.length_singleton]; decide) rfl rfl rfl hcom
    rw [withInverses_eq _ fun x hx' e => hx (e ▸ hx')] at h1
    obtain rfl := Option.some.inj h1
    obtain ⟨L', R', e1, e2, rfl⟩ := ipaProve_one h2
    obtain rfl := Option.some.inj (e1.symm.trans hL)
    obtain rfl := Option.some.inj (e2.symm.trans hR)
    refine ⟨last, ?_⟩
    rw [h4, show inner [3, 5] [2, 7] = (41 : Fp k1N) by rw [inner]; norm_num, decide_eq_true rfl]
  have hn : ∀ i : Fin 3, (i.val + 1) % k1N ≠ 0 % k1N := by decide +kernel
  choose last hlast using fun i : Fin 3 => run (i.val + 1) (hn i)
  refine ⟨com, .node (fun i => ((i.val + 1 : ℕ) : Fp k1N)) fun i => .leaf (last i), fun _ => (L, R), ?_,
    fun _ => ⟨l, l', hl, hl', hlr, hlr'⟩, by rw [ChTree.Accepted]; intro i; rw [ChTree.Accepted]; exact hlast i⟩
  rw [ChTree.Distinct]
  refine ⟨fun i h => ?_, fun i j hij => ?_, fun _ => by rw [ChTree.Distinct]; trivial⟩
  · exact ne _ 0 (hn i) (by rw [Nat.cast_zero]; exact h)
  · rw [← Nat.cast_mul, ← Nat.cast_mul]
    refine ne _ _ ?_
    revert i j
    decide +kernel

end Halo2.Props
