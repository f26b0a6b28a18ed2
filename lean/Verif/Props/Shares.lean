import Mathlib.LinearAlgebra.Lagrange
import Verif.Props.Ipa
import Verif.Props.BlsSig

/-!
# Property C101: secret sharing and threshold signatures with the library

The sharing of Shamir with the check of Feldman, and the combination of shares, of multiples of points and of BLS signatures, as clients
of the library: arithmetic and inversion of scalars, multi-scalar multiplication, scalar multiplication, comparison, the encodings.
No such program is in the repository; the functions below stand for the client.
-/

set_option linter.unusedSectionVars false

namespace Halo2.Props

open Halo2 Halo2.Field Halo2.Prime Halo2.Curve Halo2.Msm Halo2.Hash Polynomial

section Client

variable {F : Type} [_root_.Field F] [DecidableEq F] [BaseField F] [LawfulBase F]
variable {r : ℕ} [Fact r.Prime] [Fact (OddModulus r)] [Fp.SmallModulus r]

/-- The share of `x`: the value of the polynomial with the coefficients `cs`, constant term first, by Horner's rule. -/
def shareAt {K : Type} [CommRing K] (cs : List K) (x : K) : K := cs.foldr (fun c acc => acc * x + c) 0

/-- The coefficient of the share of `x` when the other shares are those of `others`. -/
def lagrangeCoeff (others : List (Fp r)) (x : Fp r) : Option (Fp r) :=
  (Fp.invert ((others.map fun y => y - x).prod)).map fun d => others.prod * d

/-- The coefficients of all shares; `pre` are the ones already done. -/
def lagrangeGo : List (Fp r) → List (Fp r) → Option (List (Fp r))
  | _, [] => some []
  | pre, x :: post => do
    let c ← lagrangeCoeff (pre ++ post) x
    let cs ← lagrangeGo (pre ++ [x]) post
    some (c :: cs)

/-- The coefficients with which values at `xs` combine to the value at zero. -/
def lagrangeZero (xs : List (Fp r)) : Option (List (Fp r)) := lagrangeGo [] xs

/-- Combining shares. -/
noncomputable def combineScalars (xs ys : List (Fp r)) : Option (Fp r) := (lagrangeZero xs).map fun ls => inner ls ys

/-- Combining points. -/
def combinePoints (msm : List (List ℕ) → List (Aff F) → Option (Proj F)) (xs : List (Fp r)) (as : List (Aff F)) : Option (Proj F) := do
  let ls ← lagrangeZero xs
  msm (ls.map Fp.toRepr) as

/-- The powers of `x`, from `acc` on. -/
def powersFrom (x : Fp r) : ℕ → Fp r → List (Fp r)
  | 0, _ => []
  | n + 1, acc => acc :: powersFrom x n (acc * x)

/-- Checking the share `y` of `x` against commitments to the coefficients: `g * y == msm(1, x, x², ...; coms)`. -/
def shareCheck (C : Params F) (msm : List (List ℕ) → List (Aff F) → Option (Proj F)) (g : Aff F) (coms : List (Aff F)) (x y : Fp r) :
    Option Bool := do
  let R ← msm ((powersFrom x coms.length 1).map Fp.toRepr) coms
  some (Proj.ctEq (Aff.mul C g (Fp.toRepr y)) R)

end Client

namespace SigSuite

variable {L F K : Type} [_root_.Field L] [DecidableEq L] [BaseField L] [LawfulBase L]
  [_root_.Field F] [DecidableEq F] [BaseField F] [LawfulBase F] [CommMonoid K] [DecidableEq K]
  (S : SigSuite L F K) {r : ℕ} [Fact r.Prime] [Fact (OddModulus r)] [Fp.SmallModulus r]

/-- Reading partial signatures. -/
def readAll : List (List ℕ) → Outcome (Option (List (Aff L)))
  | [] => .ok (some [])
  | b :: bs =>
    match S.readSig b, readAll bs with
    | .ok (some a), .ok (some as) => .ok (some (a :: as))
    | .ok _, .ok _ => .ok none
    | _, _ => .panic

/-- Combining the partial signatures of the signers `xs`; equal signers panic. -/
def threshold (msm : List (List ℕ) → List (Aff L) → Option (Proj L)) (xs : List (Fp r)) (bs : List (List ℕ)) : Outcome (Option (List ℕ)) :=
  match S.readAll bs with
  | .panic => .panic
  | .ok none => .ok none
  | .ok (some as) =>
    match combinePoints msm xs as with
    | none => .panic
    | some R =>
      match S.d1.encodeProj S.c1 R with
      | .ok b => .ok (some b)
      | .panic => .panic

end SigSuite

section Pure

variable {K : Type} [_root_.Field K] [DecidableEq K]

/-- The polynomial of a list of coefficients. -/
noncomputable def sharePoly (cs : List K) : K[X] := cs.foldr (fun c acc => acc * X + C c) 0

theorem eval_sharePoly (cs : List K) (x : K) : (sharePoly cs).eval x = shareAt cs x := by
  induction cs with
  | nil => exact eval_zero
  | cons c cs ih =>
    change eval x (sharePoly cs * X + C c) = shareAt cs x * x + c
    rw [eval_add, eval_mul, eval_X, eval_C, ih]

theorem coeff_sharePoly (cs : List K) (m : ℕ) : (sharePoly cs).coeff m = cs.getD m 0 := by
  induction cs generalizing m with
  | nil => exact coeff_zero m
  | cons c cs ih =>
    change (sharePoly cs * X + C c).coeff m = _
    cases m with
    | zero => rw [coeff_add, coeff_mul_X_zero, coeff_C_zero, zero_add]; rfl
    | succ m => rw [coeff_add, coeff_mul_X, coeff_C_succ, add_zero, ih]; rfl

theorem degree_sharePoly (cs : List K) : (sharePoly cs).degree < cs.length := by
  rw [degree_lt_iff_coeff_zero]
  intro m hm
  rw [coeff_sharePoly, List.getD_eq_getElem?_getD, List.getElem?_eq_none hm]
  rfl

theorem shareAt_zero (cs : List K) : shareAt cs 0 = cs.headD 0 := by
  cases cs with
  | nil => rfl
  | cons c cs =>
    change shareAt cs 0 * 0 + c = c
    rw [mul_zero, zero_add]

/-- The weight of `x` among `xs`. -/
noncomputable def weight (xs : List K) (x : K) : K := (Lagrange.basis xs.toFinset id x).eval 0

theorem weight_eq (pre post : List K) (x : K) (h : (pre ++ x :: post).Nodup) :
    weight (pre ++ x :: post) x = (pre ++ post).prod * ((pre ++ post).map fun y => y - x).prod⁻¹ ∧
      ((pre ++ post).map fun y => y - x).prod ≠ 0 := by
  have hp : (pre ++ x :: post).Perm (x :: (pre ++ post)) := List.perm_middle
  obtain ⟨hx, hn⟩ := List.nodup_cons.mp (hp.nodup_iff.mp h)
  have hs : (pre ++ x :: post).toFinset.erase x = (pre ++ post).toFinset := by
    rw [List.toFinset_eq_of_perm _ _ hp, List.toFinset_cons, Finset.erase_insert (by rwa [List.mem_toFinset])]
  generalize pre ++ post = l at *
  have hne : ∀ y ∈ l, y - x ≠ 0 := fun y hy e => hx ((sub_eq_zero.mp e) ▸ hy)
  have h0 : (l.map fun y => y - x).prod ≠ 0 := by
    intro e
    obtain ⟨y, hy, e⟩ := List.mem_map.mp (List.prod_eq_zero_iff.mp e)
    exact hne y hy e
  refine ⟨?_, h0⟩
  rw [weight, Lagrange.basis, eval_prod, hs, List.prod_toFinset _ hn]
  clear h hp hx hn hs h0
  induction l with
  | nil => simp
  | cons y l ih =>
    have h1 := hne y List.mem_cons_self
    have h2 : x - y ≠ 0 := fun e => h1 (by rw [← neg_sub, e, neg_zero])
    rw [List.map_cons, List.prod_cons, ih fun z hz => hne z (List.mem_cons_of_mem _ hz), List.map_cons, List.prod_cons, List.prod_cons,
      Lagrange.basisDivisor, eval_mul, eval_C, eval_sub, eval_X, eval_C, mul_inv, id, id]
    have h3 : (x - y)⁻¹ = -(y - x)⁻¹ := by rw [← inv_neg, neg_sub]
    rw [h3]
    ring

theorem weight_ne (xs : List K) (x : K) (h : xs.Nodup) (hx : x ∈ xs) (h0 : (0 : K) ∉ xs) : weight xs x ≠ 0 := by
  obtain ⟨pre, post, rfl⟩ := List.append_of_mem hx
  obtain ⟨e, hd⟩ := weight_eq pre post x h
  rw [e]
  refine mul_ne_zero (fun e0 => h0 ?_) (inv_ne_zero hd)
  rcases List.mem_append.mp (List.prod_eq_zero_iff.mp e0) with hm | hm
  · exact List.mem_append_left _ hm
  · exact List.mem_append_right _ (List.mem_cons_of_mem _ hm)

theorem sum_weights (xs cs : List K) (h : xs.Nodup) (hl : cs.length ≤ xs.length) :
    (xs.map fun x => weight xs x * shareAt cs x).sum = cs.headD 0 := by
  rw [← List.sum_toFinset _ h]
  have hc : xs.toFinset.card = xs.length := List.toFinset_card_of_nodup h
  have hd : (sharePoly cs).degree < xs.toFinset.card := lt_of_lt_of_le (degree_sharePoly cs) (by rw [hc]; exact_mod_cast hl)
  have e := congrArg (eval 0) (Lagrange.eq_interpolate (s := xs.toFinset) (v := id) (Function.injective_id.injOn) hd)
  rw [Lagrange.interpolate_apply, eval_finsetSum, eval_sharePoly, shareAt_zero] at e
  rw [e]
  refine Finset.sum_congr rfl fun x _ => ?_
  rw [eval_mul, eval_C, id, eval_sharePoly, mul_comm]
  rfl

end Pure

section Spec

variable {F : Type} [_root_.Field F] [DecidableEq F] [BaseField F] [LawfulBase F] {C : Params F}
variable {r : ℕ} [Fact r.Prime] [Fact (OddModulus r)] [Fp.SmallModulus r]

theorem lagrangeGo_eq (pre post : List (Fp r)) (h : (pre ++ post).Nodup) :
    lagrangeGo pre post = some (post.map fun x => weight (pre ++ post) x) := by
  induction post generalizing pre with
  | nil => rfl
  | cons x post ih =>
    obtain ⟨e, hd⟩ := weight_eq pre post x h
    have ea : pre ++ [x] ++ post = pre ++ x :: post := by rw [List.append_assoc]; rfl
    rw [lagrangeGo, lagrangeCoeff, invert_eq, if_neg hd, ih (pre ++ [x]) (by rwa [ea]), ea]
    rw [List.map_cons, e]
    rfl

theorem lagrangeGo_none (pre post : List (Fp r)) (hp : pre.Nodup) (h : ¬ (pre ++ post).Nodup) : lagrangeGo pre post = none := by
  induction post generalizing pre with
  | nil => rw [List.append_nil] at h; exact absurd hp h
  | cons x post ih =>
    by_cases hx : x ∈ pre ++ post
    · rw [lagrangeGo, lagrangeCoeff, invert_eq, if_pos]
      · rfl
      · exact List.prod_eq_zero_iff.mpr (List.mem_map.mpr ⟨x, hx, sub_self x⟩)
    · have hx1 : x ∉ pre := fun hm => hx (List.mem_append_left _ hm)
      rw [lagrangeGo, ih (pre ++ [x])]
      · cases lagrangeCoeff (pre ++ post) x <;> rfl
      · exact List.nodup_append.mpr ⟨hp, List.nodup_singleton x, fun a ha b hb e => hx1 (by
          rw [List.mem_singleton] at hb
          rw [← hb, ← e]
          exact ha)⟩
      · rwa [List.append_assoc]

theorem lagrangeZero_eq (xs : List (Fp r)) (h : xs.Nodup) : lagrangeZero xs = some (xs.map (weight xs)) := lagrangeGo_eq [] xs h

theorem inner_weights (xs cs : List (Fp r)) (h : xs.Nodup) (hl : cs.length ≤ xs.length) :
    inner (xs.map (weight xs)) (xs.map (shareAt cs)) = cs.headD 0 := by
  rw [inner, List.zipWith_map, List.zipWith_self, sum_weights xs cs h hl]

/-- **C101** Any `t` shares of different points give the secret back, and equal points are noticed. -/
theorem C101_combine (xs cs : List (Fp r)) (hl : cs.length ≤ xs.length) :
    combineScalars xs (xs.map (shareAt cs)) = if xs.Nodup then some (cs.headD 0) else none := by
  by_cases h : xs.Nodup
  · rw [combineScalars, lagrangeZero_eq xs h, if_pos h, Option.map_some, inner_weights xs cs h hl]
  · rw [combineScalars, lagrangeZero, lagrangeGo_none [] xs List.nodup_nil h, if_neg h]
    rfl

/-- **C101** Fewer shares say nothing about the secret: for every secret and every values of `t - 1` shares of different points, none of
them zero, there is exactly one polynomial with `t` coefficients. -/
theorem C101_secrecy (xs ys : List (Fp r)) (hn : xs.Nodup) (h0 : 0 ∉ xs) (hl : ys.length = xs.length) (s : Fp r) :
    ∃! cs : List (Fp r), cs.length = xs.length + 1 ∧ cs.headD 0 = s ∧ xs.map (shareAt cs) = ys := by
  have hn' : (0 :: xs).Nodup := List.nodup_cons.mpr ⟨h0, hn⟩
  have hc : (0 :: xs).toFinset.card = xs.length + 1 := List.toFinset_card_of_nodup hn'
  let val : Fp r → Fp r := fun x => if x = 0 then s else ys.getD (xs.idxOf x) 0
  let f := Lagrange.interpolate (0 :: xs).toFinset id val
  have hinj : Set.InjOn (id : Fp r → Fp r) ((0 :: xs).toFinset : Set (Fp r)) := Function.injective_id.injOn
  have hf : f.degree < (xs.length + 1 : ℕ) := by rw [← hc]; exact Lagrange.degree_interpolate_lt _ hinj
  have hfv : ∀ x ∈ 0 :: xs, f.eval x = val x := fun x hx => Lagrange.eval_interpolate_at_node val hinj (List.mem_toFinset.mpr hx)
  have hlist : ∀ cs : List (Fp r), cs.length = xs.length + 1 → cs.headD 0 = s → xs.map (shareAt cs) = ys → sharePoly cs = f := by
    intro cs h1 h2 h3
    refine Lagrange.eq_interpolate_of_eval_eq val hinj (by rw [hc, ← h1]; exact degree_sharePoly cs) fun x hx => ?_
    rw [eval_sharePoly, id]
    rcases List.mem_cons.mp (List.mem_toFinset.mp hx) with rfl | hx
    · rw [shareAt_zero, h2]
      exact (if_pos rfl).symm
    · have hx0 : x ≠ 0 := fun e => h0 (e ▸ hx)
      have hi : xs.idxOf x < xs.length := List.idxOf_lt_length_iff.mpr hx
      change _ = if x = 0 then s else ys.getD (xs.idxOf x) 0
      rw [if_neg hx0, ← h3, List.getD_eq_getElem?_getD, List.getElem?_map, List.getElem?_eq_getElem hi, List.getElem_idxOf]
      rfl
  have hsame : ∀ cs cs' : List (Fp r), cs.length = cs'.length → sharePoly cs = sharePoly cs' → cs = cs' := by
    intro cs cs' h e
    refine List.ext_getElem? fun i => ?_
    by_cases hi : i < cs.length
    · have := congrArg (fun g => coeff g i) e
      rw [coeff_sharePoly, coeff_sharePoly, List.getD_eq_getElem?_getD, List.getD_eq_getElem?_getD, List.getElem?_eq_getElem hi,
        List.getElem?_eq_getElem (h ▸ hi), Option.getD_some, Option.getD_some] at this
      rw [List.getElem?_eq_getElem hi, List.getElem?_eq_getElem (h ▸ hi), this]
    · rw [List.getElem?_eq_none (by omega), List.getElem?_eq_none (by omega)]
  have hcs : sharePoly ((List.range (xs.length + 1)).map f.coeff) = f := by
    ext i
    rw [coeff_sharePoly, List.getD_eq_getElem?_getD, List.getElem?_map]
    by_cases hi : i < xs.length + 1
    · rw [List.getElem?_range hi]; rfl
    · rw [List.getElem?_eq_none (by rw [List.length_range]; omega), (degree_lt_iff_coeff_zero _ _).mp hf i (by omega)]
      rfl
  refine ⟨(List.range (xs.length + 1)).map f.coeff, ⟨by rw [List.length_map, List.length_range], ?_, ?_⟩, ?_⟩
  · rw [← shareAt_zero, ← eval_sharePoly, hcs, hfv 0 List.mem_cons_self]
    exact if_pos rfl
  · refine List.ext_getElem? fun i => ?_
    rw [List.getElem?_map]
    by_cases hi : i < xs.length
    · rw [List.getElem?_eq_getElem hi, List.getElem?_eq_getElem (hl ▸ hi), Option.map_some, ← eval_sharePoly, hcs,
        hfv _ (List.mem_cons_of_mem _ (List.getElem_mem hi))]
      change some (if xs[i] = 0 then s else ys.getD (xs.idxOf xs[i]) 0) = _
      rw [if_neg fun e : xs[i] = 0 => h0 (e ▸ List.getElem_mem hi), hn.idxOf_getElem, List.getD_eq_getElem?_getD, List.getElem?_eq_getElem (hl ▸ hi),
        Option.getD_some]
    · rw [List.getElem?_eq_none (by omega), List.getElem?_eq_none (by omega)]
      rfl
  · rintro cs ⟨h1, h2, h3⟩
    exact hsame _ _ (by rw [h1, List.length_map, List.length_range]) ((hlist cs h1 h2 h3).trans hcs.symm)

theorem msmValue_smul {p : Pt C} (hp : r • p = 0) (ks cs : List (Fp r)) :
    msmValue ks (cs.map fun c => Fp.toNat c • p) = Fp.toNat (inner ks cs) • p := by
  let _ := torsModule C r
  let x : Tors C r := ⟨p, hp⟩
  have e : (cs.map fun c => Fp.toNat c • p) = (cs.map fun c => c • x).map (fun x : Tors C r => (x : Pt C)) := by
    rw [List.map_map]
    exact List.map_congr_left fun c _ => (coe_smul_tors c x).symm
  have e2 : lin ks (cs.map fun c => c • x) = inner ks cs • x := by
    clear e
    induction ks generalizing cs with
    | nil => rw [lin_nil, inner, List.zipWith_nil_left, List.sum_nil, zero_smul]
    | cons k ks ih =>
      cases cs with
      | nil => rw [List.map_nil, lin_nil', inner, List.zipWith_nil_right, List.sum_nil, zero_smul]
      | cons c cs =>
        rw [List.map_cons, lin_cons, ih, smul_smul, ← add_smul]
        rfl
  rw [e, msmValue_lin, e2, coe_smul_tors]

/-- **C101** Multiples of a point by any `t` shares combine to the multiple by the secret, with every multi-scalar multiplication. -/
theorem C101_points {msm : List (List ℕ) → List (Aff F) → Option (Proj F)} (hm : IsMsm C r msm) (xs cs : List (Fp r))
    (hn : xs.Nodup) (hl : cs.length ≤ xs.length) (h32 : xs.length < 2 ^ 32) {m : Pt C} (hr : r • m = 0) {as : List (Aff F)}
    (ha : List.Forall₂ (ARep C) as (xs.map fun x => Fp.toNat (shareAt cs x) • m)) :
    ∃ R, combinePoints msm xs as = some R ∧ PRep C R (Fp.toNat (cs.headD 0) • m) := by
  have hlen : as.length = xs.length := by rw [ha.length_eq, List.length_map]
  obtain ⟨R, e, hR⟩ := hm (xs.map (weight xs)) as _ (by rw [List.length_map, hlen]) (by rwa [hlen]) ha
  refine ⟨R, ?_, ?_⟩
  · rw [combinePoints, lagrangeZero_eq xs hn, Option.bind_eq_bind, Option.bind_some, e]
  · have e1 : (xs.map fun x => Fp.toNat (shareAt cs x) • m) = (xs.map (shareAt cs)).map fun c => Fp.toNat c • m := by
      rw [List.map_map]; rfl
    rwa [e1, msmValue_smul hr, inner_weights xs cs hn hl] at hR

/-- **C101** One wrong point among them makes the result wrong, and there is no panic. -/
theorem C101_wrong (hC : Good C) {msm : List (List ℕ) → List (Aff F) → Option (Proj F)} (hm : IsMsm C r msm) (xs : List (Fp r))
    (hn : xs.Nodup) (h0 : 0 ∉ xs) (h32 : xs.length < 2 ^ 32) {pre post : List (Aff F)} {ps qs : List (Pt C)} {a b : Aff F} {p q : Pt C}
    (hpre : List.Forall₂ (ARep C) pre ps) (hpost : List.Forall₂ (ARep C) post qs) (ha : ARep C a p) (hb : ARep C b q)
    (hrp : r • p = 0) (hrq : r • q = 0) (hlen : xs.length = pre.length + 1 + post.length) :
    ∃ R R', combinePoints msm xs (pre ++ a :: post) = some R ∧ combinePoints msm xs (pre ++ b :: post) = some R' ∧
      Proj.ctEq R R' = Aff.eq a b := by
  have hz := lagrangeZero_eq xs hn
  have hlw : (xs.map (weight xs)).length = xs.length := List.length_map _
  have hw : ∀ c ∈ xs.map (weight xs), c ≠ 0 := by
    intro c hc
    obtain ⟨x, hx, rfl⟩ := List.mem_map.mp hc
    exact weight_ne xs x hn hx h0
  generalize xs.map (weight xs) = ws at hz hlw hw
  have key : ∀ (A : Aff F) (P : Pt C), ARep C A P → ∃ R, combinePoints msm xs (pre ++ A :: post) = some R ∧
      PRep C R (msmValue ws (ps ++ P :: qs)) := by
    intro A P hA
    have hl2 : (pre ++ A :: post).length = xs.length := by rw [List.length_append, List.length_cons]; omega
    obtain ⟨R, e, hR⟩ := hm ws (pre ++ A :: post) (ps ++ P :: qs) (by rw [hl2, hlw]) (by rwa [hl2])
      (List.rel_append hpre (.cons hA hpost))
    exact ⟨R, by rw [combinePoints, hz, Option.bind_eq_bind, Option.bind_some, e], hR⟩
  obtain ⟨R, e, hR⟩ := key a p ha
  obtain ⟨R', e', hR'⟩ := key b q hb
  refine ⟨R, R', e, e', ?_⟩
  have hlp : ws.length = ps.length + 1 + qs.length := by rw [hlw, hlen, hpre.length_eq, hpost.length_eq]
  have hne : ws.drop ps.length ≠ [] := fun e => by
    have := congrArg List.length e
    rw [List.length_drop, List.length_nil] at this
    omega
  obtain ⟨w, ws2, hw2⟩ := List.exists_cons_of_ne_nil hne
  have hsplit : ws = ws.take ps.length ++ w :: ws2 := by rw [← hw2, List.take_append_drop]
  have hlt : (ws.take ps.length).length = ps.length := by rw [List.length_take]; omega
  have hval : ∀ P : Pt C, msmValue ws (ps ++ P :: qs) = msmValue (ws.take ps.length) ps + (Fp.toNat w • P + msmValue ws2 qs) := by
    intro P
    conv_lhs => rw [hsplit]
    rw [msmValue, List.zipWith_append hlt, List.sum_append, List.zipWith_cons_cons, List.sum_cons]
    rfl
  have hwne : w ≠ 0 := hw w (by rw [hsplit]; exact List.mem_append_right _ List.mem_cons_self)
  rw [Bool.eq_iff_iff, hR.ctEq hR', Aff.eq_iff, ha.ext_iff hC hb, hval, hval, add_right_inj, add_left_inj]
  constructor
  · intro he
    let _ := torsModule C r
    let x : Tors C r := ⟨p, hrp⟩
    let y : Tors C r := ⟨q, hrq⟩
    have hxy : w • x = w • y := Subtype.ext (by rw [coe_smul_tors, coe_smul_tors]; exact he)
    exact congrArg Subtype.val (smul_right_injective (Tors C r) hwne hxy)
  · rintro rfl
    rfl

theorem powersFrom_length (x : Fp r) (n : ℕ) (acc : Fp r) : (powersFrom x n acc).length = n := by
  induction n generalizing acc with
  | zero => rfl
  | succ n ih => rw [powersFrom, List.length_cons, ih]

theorem inner_powers (x acc : Fp r) (cs : List (Fp r)) : inner (powersFrom x cs.length acc) cs = acc * shareAt cs x := by
  induction cs generalizing acc with
  | nil => exact (mul_zero acc).symm
  | cons c cs ih =>
    change acc * c + inner (powersFrom x cs.length (acc * x)) cs = acc * (shareAt cs x * x + c)
    rw [ih]
    ring

/-- **C101** With commitments to the coefficients exactly the right share of every point is accepted. -/
theorem C101_check (hC : Good C) {msm : List (List ℕ) → List (Aff F) → Option (Proj F)} (hm : IsMsm C r msm) {g : Aff F} {p : Pt C}
    (hg : ARep C g p) (hr : r • p = 0) (h0 : p ≠ 0) (cs : List (Fp r)) (h32 : cs.length < 2 ^ 32) {coms : List (Aff F)}
    (hc : List.Forall₂ (ARep C) coms (cs.map fun c => Fp.toNat c • p)) (x y : Fp r) :
    shareCheck C msm g coms x y = some (decide (y = shareAt cs x)) := by
  have hlen : coms.length = cs.length := by rw [hc.length_eq, List.length_map]
  obtain ⟨R, e, hR⟩ := hm (powersFrom x coms.length 1) coms _ (powersFrom_length _ _ _) (by rwa [hlen]) hc
  rw [shareCheck, e, Option.bind_eq_bind, Option.bind_some]
  rw [hlen, msmValue_smul hr, inner_powers, one_mul] at hR
  congr 1
  rw [Bool.eq_iff_iff, (C23_mul hC PRep.identity hg y).2.ctEq hR, decide_eq_true_iff]
  constructor
  · intro he
    let _ := torsModule C r
    let z : Tors C r := ⟨p, hr⟩
    have hz : z ≠ 0 := fun e => h0 (congrArg Subtype.val e)
    have hyz : y • z = shareAt cs x • z := Subtype.ext (by rw [coe_smul_tors, coe_smul_tors]; exact he)
    exact smul_left_injective (Fp r) hz hyz
  · rintro rfl
    rfl

end Spec

namespace SigSuite

variable {L F K : Type} [_root_.Field L] [DecidableEq L] [BaseField L] [LawfulBase L]
  [_root_.Field F] [DecidableEq F] [BaseField F] [LawfulBase F] [CommMonoid K] [DecidableEq K]
  {S : SigSuite L F K} {r : ℕ} [Fact r.Prime] [Fact (OddModulus r)] [Fp.SmallModulus r]

/-- The string is accepted as a signature of the message under the key of the share of `x`. -/
def Accepted (S : SigSuite L F K) (cs : List (Fp r)) (msg : List ℕ) (x : Fp r) (b : List ℕ) : Prop :=
  b.length = S.d1.compressedSize ∧ IsBytes b ∧ S.verify (S.key (shareAt cs x)) msg b = .ok true

theorem readAll_of (hS : S.Ok r) (cs : List (Fp r)) {msg : List ℕ} {R : Proj L} (hR : S.hash msg = some R) {M : Pt S.c1} (hr : r • M = 0)
    (hk : ∀ k : Fp r, ARep S.c1 (Proj.mul S.c1 R (Fp.toRepr k)).toAffine (Fp.toNat k • M)) {xs : List (Fp r)} {bs : List (List ℕ)}
    (h : List.Forall₂ (S.Accepted cs msg) xs bs) :
    S.readAll bs = .ok (some (xs.map fun x => (Proj.mul S.c1 R (Fp.toRepr (shareAt cs x))).toAffine)) := by
  induction h with
  | nil => rfl
  | @cons x b xs bs hb hs ih =>
    obtain ⟨h1, h2, h3⟩ := hb
    obtain ⟨sig, e, -, -, hv⟩ := exact_of hS (shareAt cs x) msg
    rw [hv b h1 h2] at h3
    have hbs : b = sig := of_decide_eq_true (Outcome.ok.inj h3)
    rw [sign, hR] at e
    have hrk : r • (Fp.toNat (shareAt cs x) • M) = 0 := by rw [smul_comm, hr, smul_zero]
    rw [readAll, ih, hbs, readSig_encode hS (hk (shareAt cs x)) hrk e]
    rfl

/-- Partial signatures that pass the verifier combine to the signature of the shared key. -/
theorem threshold_of (hS : S.Ok r) {msm : List (List ℕ) → List (Aff L) → Option (Proj L)} (hm : IsMsm S.c1 r msm) (xs cs : List (Fp r))
    (hn : xs.Nodup) (hl : cs.length ≤ xs.length) (h32 : xs.length < 2 ^ 32) (msg : List ℕ) {bs : List (List ℕ)}
    (h : List.Forall₂ (S.Accepted cs msg) xs bs) :
    ∃ sig, S.threshold msm xs bs = .ok (some sig) ∧ S.sign (cs.headD 0) msg = .ok sig ∧
      S.verify (S.key (cs.headD 0)) msg sig = .ok true := by
  obtain ⟨M, R, hR, hM, hr, hk⟩ := hS.hash msg
  obtain ⟨sig, e, h1, h2, hv⟩ := exact_of hS (cs.headD 0) msg
  refine ⟨sig, ?_, e, by rw [hv sig h1 h2, decide_eq_true rfl]⟩
  have hall := readAll_of hS cs hR hr hk h
  have hrep : List.Forall₂ (ARep S.c1) (xs.map fun x => (Proj.mul S.c1 R (Fp.toRepr (shareAt cs x))).toAffine)
      (xs.map fun x => Fp.toNat (shareAt cs x) • M) := by
    clear hall h hn hl h32
    induction xs with
    | nil => exact .nil
    | cons x xs ih => exact .cons (hk (shareAt cs x)) ih
  obtain ⟨T, eT, hT⟩ := C101_points hm xs cs hn hl h32 hr hrep
  have hA : T.toAffine = (Proj.mul S.c1 R (Fp.toRepr (cs.headD 0))).toAffine := (hT.toAffine.ext_iff hS.good1 (hk _)).mpr rfl
  have henc : S.d1.encodeProj S.c1 T = .ok sig := by
    rw [sign, hR] at e
    change S.d1.encode S.c1 T.toAffine = .ok sig
    rw [hA]
    exact e
  rw [threshold, hall]
  simp only [eT, henc]

theorem readAll_some {bs : List (List ℕ)} {as : List (Aff L)} (h : List.Forall₂ (fun b a => S.readSig b = .ok (some a)) bs as) :
    S.readAll bs = .ok (some as) := by
  induction h with
  | nil => rfl
  | cons h1 h2 ih => rw [readAll, h1, ih]

theorem readAll_none (hS : S.Ok r) {bs : List (List ℕ)} (hb : ∀ b ∈ bs, b.length = S.d1.compressedSize ∧ IsBytes b)
    (h : ∃ b ∈ bs, S.readSig b = .ok none) : S.readAll bs = .ok none := by
  have key : ∀ bs : List (List ℕ), (∀ b ∈ bs, b.length = S.d1.compressedSize ∧ IsBytes b) → ∃ o, S.readAll bs = .ok o := by
    intro bs hb
    induction bs with
    | nil => exact ⟨_, rfl⟩
    | cons b bs ih =>
      obtain ⟨o, e⟩ := ih fun b hm => hb b (List.mem_cons_of_mem _ hm)
      obtain ⟨h1, h2⟩ := hb b List.mem_cons_self
      rcases readSig_iff hS b h1 h2 with h | ⟨A, P, h, -⟩
      · rw [readAll, h, e]; exact ⟨_, rfl⟩
      · rw [readAll, h, e]
        cases o <;> exact ⟨_, rfl⟩
  induction bs with
  | nil => obtain ⟨b, hm, -⟩ := h; cases hm
  | cons b bs ih =>
    have hb' : ∀ b ∈ bs, b.length = S.d1.compressedSize ∧ IsBytes b := fun b hm => hb b (List.mem_cons_of_mem _ hm)
    obtain ⟨o, e⟩ := key bs hb'
    obtain ⟨b', hm, hn⟩ := h
    rcases List.mem_cons.mp hm with rfl | hm
    · rw [readAll, hn, e]
    · have e' := ih hb' ⟨b', hm, hn⟩
      obtain ⟨h1, h2⟩ := hb b List.mem_cons_self
      rcases readSig_iff hS b h1 h2 with h | ⟨A, P, h, -⟩
      · rw [readAll, h, e']
      · rw [readAll, h, e']

/-- Accepted strings are read as the signatures. -/
theorem accepted_read (hS : S.Ok r) (cs : List (Fp r)) {msg : List ℕ} {R : Proj L} (hR : S.hash msg = some R) {M : Pt S.c1} (hr : r • M = 0)
    (hk : ∀ k : Fp r, ARep S.c1 (Proj.mul S.c1 R (Fp.toRepr k)).toAffine (Fp.toNat k • M)) {x : Fp r} {b : List ℕ}
    (h : S.Accepted cs msg x b) : S.readSig b = .ok (some (Proj.mul S.c1 R (Fp.toRepr (shareAt cs x))).toAffine) := by
  have h' := readAll_of hS cs hR hr hk (List.Forall₂.cons h .nil)
  obtain ⟨h1, h2, -⟩ := h
  rcases readSig_iff hS b h1 h2 with e | ⟨A, P, e, -⟩
  · rw [readAll, e, readAll] at h'
    cases Outcome.ok.inj h'
  · rw [readAll, e, readAll] at h'
    rw [e]
    have := (List.cons.inj (Option.some.inj (Outcome.ok.inj h'))).1
    rw [this]

/-- A string that is not a point of the group makes the combination fail, without a panic; one string that is not the right partial
signature never gives the signature of the shared key. -/
theorem threshold_wrong (hS : S.Ok r) {msm : List (List ℕ) → List (Aff L) → Option (Proj L)} (hm : IsMsm S.c1 r msm) (cs : List (Fp r))
    (msg : List ℕ) (xs ys : List (Fp r)) (x : Fp r) (hn : (xs ++ x :: ys).Nodup) (h0 : 0 ∉ xs ++ x :: ys)
    (hl : cs.length ≤ (xs ++ x :: ys).length) (h32 : (xs ++ x :: ys).length < 2 ^ 32) {pre post : List (List ℕ)}
    (hpre : List.Forall₂ (S.Accepted cs msg) xs pre) (hpost : List.Forall₂ (S.Accepted cs msg) ys post) (b sig : List ℕ)
    (hb : b.length = S.d1.compressedSize) (hbb : IsBytes b) (hs : S.sign (cs.headD 0) msg = .ok sig) :
    (S.readSig b = .ok none → S.threshold msm (xs ++ x :: ys) (pre ++ b :: post) = .ok none) ∧
    (S.threshold msm (xs ++ x :: ys) (pre ++ b :: post) = .ok (some sig) ↔ S.Accepted cs msg x b) := by
  obtain ⟨M, R, hR, hM, hr, hk⟩ := hS.hash msg
  have hbytes : ∀ {xs : List (Fp r)} {bs : List (List ℕ)}, List.Forall₂ (S.Accepted cs msg) xs bs →
      ∀ b ∈ bs, b.length = S.d1.compressedSize ∧ IsBytes b := by
    intro xs bs h
    induction h with
    | nil => intro b hb; cases hb
    | cons h1 _ ih =>
      intro b hb
      rcases List.mem_cons.mp hb with rfl | hb
      · exact ⟨h1.1, h1.2.1⟩
      · exact ih b hb
  have hread : ∀ {xs : List (Fp r)} {bs : List (List ℕ)}, List.Forall₂ (S.Accepted cs msg) xs bs →
      List.Forall₂ (fun b a => S.readSig b = .ok (some a)) bs (xs.map fun x => (Proj.mul S.c1 R (Fp.toRepr (shareAt cs x))).toAffine) := by
    intro xs bs h
    induction h with
    | nil => exact .nil
    | cons h1 _ ih => exact .cons (accepted_read hS cs hR hr hk h1) ih
  have hrep : ∀ xs : List (Fp r), List.Forall₂ (ARep S.c1) (xs.map fun x => (Proj.mul S.c1 R (Fp.toRepr (shareAt cs x))).toAffine)
      (xs.map fun x => Fp.toNat (shareAt cs x) • M) := by
    intro xs
    induction xs with
    | nil => exact .nil
    | cons x xs ih => exact .cons (hk (shareAt cs x)) ih
  have hnone : S.readSig b = .ok none → S.threshold msm (xs ++ x :: ys) (pre ++ b :: post) = .ok none := by
    intro h
    rw [threshold, readAll_none hS (fun b' hm' => ?_) ⟨b, List.mem_append_right _ List.mem_cons_self, h⟩]
    rcases List.mem_append.mp hm' with h' | h'
    · exact hbytes hpre b' h'
    · rcases List.mem_cons.mp h' with rfl | h'
      · exact ⟨hb, hbb⟩
      · exact hbytes hpost b' h'
  refine ⟨hnone, fun h => ?_, fun h => ?_⟩
  · rcases readSig_iff hS b hb hbb with e | ⟨A, P, e, hA, hP, he⟩
    · rw [hnone e] at h
      cases Outcome.ok.inj h
    · obtain ⟨T, T', eT, eT', hc⟩ := C101_wrong hS.good1 hm (xs ++ x :: ys) hn h0 h32 (hrep xs) (hrep ys) hA (hk (shareAt cs x)) hP
        (by rw [smul_comm, hr, smul_zero]) (by simp only [List.length_append, List.length_cons, List.length_map]; omega)
      have hT' : PRep S.c1 T' (Fp.toNat (cs.headD 0) • M) := by
        have h1 := hrep (xs ++ x :: ys)
        rw [List.map_append, List.map_cons] at h1
        obtain ⟨T2, e2, h2⟩ := C101_points hm (xs ++ x :: ys) cs hn hl h32 hr h1
        rw [eT'] at e2
        rw [Option.some.inj e2]
        exact h2
      have hall := readAll_some (S := S) (List.rel_append (hread hpre) (List.Forall₂.cons e (hread hpost)))
      rw [threshold, hall] at h
      simp only [eT] at h
      rw [sign, hR] at hs
      have hTA : T'.toAffine = (Proj.mul S.c1 R (Fp.toRepr (cs.headD 0))).toAffine := (hT'.toAffine.ext_iff hS.good1 (hk _)).mpr rfl
      have hrk : ∀ c : Fp r, r • (Fp.toNat c • M) = 0 := fun c => by rw [smul_comm, hr, smul_zero]
      have r1 := readSig_encode hS (hk (cs.headD 0)) (hrk _) hs
      cases hT : S.d1.encodeProj S.c1 T with
      | panic => rw [hT] at h; cases h
      | ok b' =>
        rw [hT] at h
        have hb' := Option.some.inj (Outcome.ok.inj h)
        subst hb'
        obtain ⟨P', hP', hrP'⟩ : ∃ P', PRep S.c1 T P' ∧ r • P' = 0 := by
          obtain ⟨T2, e2, h2⟩ := hm ((xs ++ x :: ys).map (weight (xs ++ x :: ys))) _ _ (by
              simp only [List.length_append, List.length_cons, List.length_map]) (by
              simp only [List.length_append, List.length_cons, List.length_map] at h32 ⊢; exact h32)
            (List.rel_append (hrep xs) (List.Forall₂.cons hA (hrep ys)))
          rw [combinePoints, lagrangeZero_eq _ hn, Option.bind_eq_bind, Option.bind_some, e2] at eT
          rw [← Option.some.inj eT]
          refine ⟨_, h2, ?_⟩
          have hz : ∀ (ks : List (Fp r)) (ps : List (Pt S.c1)), (∀ p ∈ ps, r • p = 0) → r • msmValue ks ps = 0 := by
            intro ks ps hps
            let _ := torsModule S.c1 r
            obtain ⟨gs, rfl⟩ : ∃ gs : List (Tors S.c1 r), List.map (fun x : Tors S.c1 r => (x : Pt S.c1)) gs = ps :=
              ⟨ps.attach.map fun p => (⟨p.1, hps p.1 p.2⟩ : Tors S.c1 r), by rw [List.map_map]; exact List.attach_map_subtype_val ps⟩
            rw [msmValue_lin]
            exact (lin ks gs).2
          refine hz _ _ fun p hp => ?_
          rcases List.mem_append.mp hp with h' | h'
          · obtain ⟨y, -, rfl⟩ := List.mem_map.mp h'
            exact hrk _
          · rcases List.mem_cons.mp h' with rfl | h'
            · exact hP
            · obtain ⟨y, -, rfl⟩ := List.mem_map.mp h'
              exact hrk _
        have r2 := readSig_encode hS hP'.toAffine hrP' hT
        rw [r1] at r2
        have hTT : T.toAffine = T'.toAffine := by rw [hTA]; exact (Option.some.inj (Outcome.ok.inj r2)).symm
        have hct : Proj.ctEq T T' = true := (hP'.ctEq hT').mpr ((hP'.toAffine.ext_iff hS.good1 hT'.toAffine).mp hTT)
        rw [hct] at hc
        have hAA := (Aff.eq_iff _ _).mp hc.symm
        obtain ⟨sg, e1, e2, e3, hv⟩ := exact_of hS (shareAt cs x) msg
        rw [sign, hR] at e1
        have hbs : b = sg := by
          have h1 : S.d1.encode S.c1 (Proj.mul S.c1 R (Fp.toRepr (shareAt cs x))).toAffine = .ok sg := e1
          rw [← hAA, he] at h1
          exact Outcome.ok.inj h1
        exact ⟨hb, hbb, by rw [hv b hb hbb, decide_eq_true hbs]⟩
  · obtain ⟨sg, h1, h2, -⟩ := threshold_of hS hm (xs ++ x :: ys) cs hn hl h32 msg (List.rel_append hpre (List.Forall₂.cons h hpost))
    rw [hs] at h2
    rw [h1, Outcome.ok.inj h2]

end SigSuite

/-- **C101** Threshold signatures on bls12381 with one doubtful string among the partial signatures: if it is not read as a point of the
group there is no result, and the result is the signature of the shared key exactly when the string passes the verifier. -/
theorem C101_bls12381_wrong (D : Digest) (hD : D.Ok) (h32 : D.outputSize = 32) (checks : Bool) (pre domain : List ℕ)
    (hd : pre.length + domain.length < 256) {msm : List (List ℕ) → List (Aff Bls12381.Fq) → Option (Proj Bls12381.Fq)}
    (hm : IsMsm Bls12381.g1 blsR msm) (cs : List (Fp blsR)) (msg : List ℕ) (xs ys : List (Fp blsR)) (x : Fp blsR)
    (hn : (xs ++ x :: ys).Nodup) (h0 : 0 ∉ xs ++ x :: ys) (hl : cs.length ≤ (xs ++ x :: ys).length)
    (hx : (xs ++ x :: ys).length < 2 ^ 32) {bs bs' : List (List ℕ)}
    (h : List.Forall₂ ((blsSuite D checks pre domain).Accepted cs msg) xs bs)
    (h' : List.Forall₂ ((blsSuite D checks pre domain).Accepted cs msg) ys bs') (b sig : List ℕ) (hb : b.length = 48) (hbb : IsBytes b)
    (hs : (blsSuite D checks pre domain).sign (cs.headD 0) msg = .ok sig) :
    ((blsSuite D checks pre domain).readSig b = .ok none →
      (blsSuite D checks pre domain).threshold msm (xs ++ x :: ys) (bs ++ b :: bs') = .ok none) ∧
    ((blsSuite D checks pre domain).threshold msm (xs ++ x :: ys) (bs ++ b :: bs') = .ok (some sig) ↔
      (blsSuite D checks pre domain).Accepted cs msg x b) :=
  SigSuite.threshold_wrong (S := blsSuite D checks pre domain) (blsSuite_ok D hD h32 checks pre domain hd) hm cs msg xs ys x hn h0 hl hx h h'
    b sig (hb.trans (show Bls12381.g1Codec.compressedSize = 48 by decide +kernel).symm) hbb hs

/-- **C101** Threshold signatures on bls12381: any partial signatures that pass the verifier under the keys of the shares, at least as many
as there are coefficients, combine to the signature of the shared key, bit for bit. -/
theorem C101_bls12381 (D : Digest) (hD : D.Ok) (h32 : D.outputSize = 32) (checks : Bool) (pre domain : List ℕ)
    (hd : pre.length + domain.length < 256) {msm : List (List ℕ) → List (Aff Bls12381.Fq) → Option (Proj Bls12381.Fq)}
    (hm : IsMsm Bls12381.g1 blsR msm) (xs cs : List (Fp blsR)) (hn : xs.Nodup) (hl : cs.length ≤ xs.length) (hx : xs.length < 2 ^ 32)
    (msg : List ℕ) {bs : List (List ℕ)} (h : List.Forall₂ ((blsSuite D checks pre domain).Accepted cs msg) xs bs) :
    ∃ sig, (blsSuite D checks pre domain).threshold msm xs bs = .ok (some sig) ∧
      (blsSuite D checks pre domain).sign (cs.headD 0) msg = .ok sig ∧
      (blsSuite D checks pre domain).verify ((blsSuite D checks pre domain).key (cs.headD 0)) msg sig = .ok true :=
  SigSuite.threshold_of (S := blsSuite D checks pre domain) (blsSuite_ok D hD h32 checks pre domain hd) hm xs cs hn hl hx msg h

theorem nodup_123 : [(1 : ℕ), 2, 3].map (fun n => ((n : ℕ) : Fp blsR)) |>.Nodup := by
  refine List.Nodup.map_on (fun a ha b hb e => ?_) (by decide)
  have := (Fp.natCast_eq_iff _ _).mp e
  revert a b
  decide +kernel

/-- Three signers of a key shared with the polynomial `7 + 5 X`; their own signatures pass. -/
example : ∃ bs, List.Forall₂ ((blsSuite pad32 true [65] [66, 67]).Accepted [(7 : Fp blsR), 5] [1, 2, 3])
      ([(1 : ℕ), 2, 3].map fun n => ((n : ℕ) : Fp blsR)) bs ∧
    ∃ sig, (blsSuite pad32 true [65] [66, 67]).threshold
        (fun ks bases => msmSerial Bls12381.g1 (fun _ => 4) ((numBits blsR + 7) / 8) ks bases Proj.identity)
        ([(1 : ℕ), 2, 3].map fun n => ((n : ℕ) : Fp blsR)) bs = .ok (some sig) ∧
      (blsSuite pad32 true [65] [66, 67]).sign (7 : Fp blsR) [1, 2, 3] = .ok sig := by
  have hS := blsSuite_ok pad32 pad32_ok rfl true [65] [66, 67] (by decide)
  have hex : ∀ x : Fp blsR, ∃ b, (blsSuite pad32 true [65] [66, 67]).Accepted [(7 : Fp blsR), 5] [1, 2, 3] x b := fun x => by
    obtain ⟨sig, -, h1, h2, hv⟩ := SigSuite.exact_of hS (shareAt [(7 : Fp blsR), 5] x) [1, 2, 3]
    exact ⟨sig, h1, h2, by rw [hv sig h1 h2, decide_eq_true rfl]⟩
  choose b hb using hex
  have hall : List.Forall₂ ((blsSuite pad32 true [65] [66, 67]).Accepted [(7 : Fp blsR), 5] [1, 2, 3])
      ([(1 : ℕ), 2, 3].map fun n => ((n : ℕ) : Fp blsR)) (([(1 : ℕ), 2, 3].map fun n => ((n : ℕ) : Fp blsR)).map b) :=
    .cons (hb _) (.cons (hb _) (.cons (hb _) .nil))
  have hm := (C88_msm (r := blsR) Bls12381.g1_good (ln := fun _ => 4) (fun _ _ _ => ⟨by norm_num, by norm_num⟩)).1
  obtain ⟨sig, h1, h2, -⟩ := C101_bls12381 pad32 pad32_ok rfl true [65] [66, 67] (by decide) hm _ [7, 5] nodup_123
    (by decide) (by decide) [1, 2, 3] hall
  exact ⟨_, hall, sig, h1, h2⟩

/-- Shares of `7 + 5 X` on secp256k1 with commitments made by the library: the share of `2` is accepted, no other value is. -/
example (y : Fp k1N) : shareCheck Secp256k1.c
    (fun ks bases => msmSerial Secp256k1.c (fun _ => 4) ((numBits k1N + 7) / 8) ks bases Proj.identity) Secp256k1.cGen
    ([(7 : Fp k1N), 5].map fun c => (Aff.mul Secp256k1.c Secp256k1.cGen (Fp.toRepr c)).toAffine) 2 y = some (decide (y = 17)) := by
  obtain ⟨p, hp, ho, -⟩ := C44_orders.2.2.2.2.1.gen
  have hr : k1N • p = 0 := ho ▸ addOrderOf_nsmul_eq_zero p
  have h0 : p ≠ 0 := fun h => by
    rw [h, addOrderOf_zero] at ho
    exact absurd ho (by decide +kernel)
  have hm := (C88_msm (r := k1N) Secp256k1.c_good (ln := fun _ => 4) (fun _ _ _ => ⟨by norm_num, by norm_num⟩)).1
  have hc : ∀ c : Fp k1N, ARep Secp256k1.c (Aff.mul Secp256k1.c Secp256k1.cGen (Fp.toRepr c)).toAffine (Fp.toNat c • p) :=
    fun c => (C23_mul Secp256k1.c_good PRep.identity hp c).2.toAffine
  have h := C101_check Secp256k1.c_good hm hp hr h0 [(7 : Fp k1N), 5] (by decide) (.cons (hc 7) (.cons (hc 5) .nil)) 2 y
  rw [show shareAt [(7 : Fp k1N), 5] 2 = 17 by simp only [shareAt, List.foldr]; norm_num] at h
  exact h

/-- Different points, none of them zero. -/
example : ([(1 : ℕ), 2, 3].map fun n => ((n : ℕ) : Fp blsR)).Nodup ∧ (0 : Fp blsR) ∉ [(1 : ℕ), 2, 3].map fun n => ((n : ℕ) : Fp blsR) := by
  refine ⟨nodup_123, fun h => ?_⟩
  obtain ⟨n, hn, e⟩ := List.mem_map.mp h
  rw [← Nat.cast_zero, Fp.natCast_eq_iff] at e
  revert n
  decide +kernel

end Halo2.Props
