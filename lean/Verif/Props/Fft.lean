import Verif.Fft.Lemmas
import Verif.Props.Consts
import Verif.Props.Curve
import Mathlib.Data.ZMod.Basic
import Mathlib.Algebra.Module.ZMod

/-!
# The fast Fourier transform: C33
-/

set_option linter.unusedSectionVars false

namespace Halo2.Props

open Halo2 Halo2.Field Halo2.Prime Halo2.Curve Halo2.Fft

/-- The operations of a field on itself. -/
def fieldOps (K : Type) [CommRing K] : Ops K K := ⟨fun a b => a + b, fun a b => a - b, fun a k => a * k⟩

/-- The operations of the curve `C` with scalars in `Fp r`. -/
def curveOps {F : Type} [CommRing F] [DecidableEq F] [BaseField F] (C : Params F) (r : ℕ) [Fact (OddModulus r)] :
    Ops (Fp r) (Proj F) :=
  ⟨fun P Q => Proj.add C P Q, fun P Q => Proj.sub C P Q, fun P k => Proj.mul C P (Fp.toRepr k)⟩

/-- In a domain a root of unity of order `2^N` has `omega^(2^(N-1)) = -1`. -/
theorem half_pow {K : Type} [CommRing K] [IsDomain K] {omega : K} {N : ℕ} (h : IsPrimitiveRoot omega (2 ^ N)) :
    1 ≤ N → omega ^ 2 ^ (N - 1) = -1 := by
  intro hN
  have h1 : (omega ^ 2 ^ (N - 1)) ^ 2 = 1 := by
    rw [← pow_mul, ← pow_succ, Nat.sub_add_cancel hN]; exact h.pow_eq_one
  have h12 : (omega ^ 2 ^ (N - 1) - 1) * (omega ^ 2 ^ (N - 1) + 1) = 0 := by linear_combination h1
  rcases mul_eq_zero.mp h12 with h2 | h2
  · exfalso
    have := Nat.le_of_dvd (Nat.pos_of_ne_zero (by positivity)) (h.dvd_of_pow_eq_one _ (sub_eq_zero.mp h2))
    have h3 : 2 ^ (N - 1) < 2 ^ N := Nat.pow_lt_pow_right (by decide) (by omega)
    omega
  · exact eq_neg_of_add_eq_zero_left h2

variable {K : Type} [CommRing K] [IsDomain K]

/-- **C33** Over a field: `best_fft` turns the coefficients `a` into the values `∑ j, a_j omega^(i j)`, for every size
`2^N`, every `omega` of order `2^N` and any number of threads (both the iterative and the recursive version). -/
theorem C33_fft (N : ℕ) (hN : N < 64) (omega : K) (hw : IsPrimitiveRoot omega (2 ^ N)) (checks : Bool) (threads : ℕ) (a : List K)
    (ha : a.length = 2 ^ N) :
    bestFft (fieldOps K) checks threads a omega N =
      some ((List.range (2 ^ N)).map (fun i => ∑ j ∈ Finset.range (2 ^ N), a.getD j 0 * omega ^ (i * j))) := by
  have hops : OpsRep (fieldOps K) (fun x y : K => x = y) :=
    ⟨fun h1 h2 => by rw [h1, h2]; rfl, fun h1 h2 => by rw [h1, h2]; rfl, fun k h => by rw [h]; exact mul_comm _ _⟩
  obtain ⟨b, e, hb⟩ := bestFft_spec hops omega N hN (half_pow hw) checks threads (a := a) (f := fun j => a.getD j 0)
    (LR.of_get ha (fun i hi => ⟨a.getD i 0, by
      rw [List.getD_eq_getElem?_getD, List.getElem?_eq_getElem (by omega)]; rfl, rfl⟩))
  rw [e]
  congr 1
  apply List.ext_getElem?
  intro i
  by_cases hi : i < 2 ^ N
  · obtain ⟨x, e1, e2⟩ := hb.get i hi
    rw [e1, e2, List.getElem?_map, List.getElem?_range hi, dft]
    simp only [Option.map_some, smul_eq_mul, mul_comm]
  · rw [List.getElem?_eq_none (by rw [hb.length]; omega), List.getElem?_eq_none (by simp; omega)]

/-- **C33** Transforming with `omega` and then with its inverse multiplies every entry by `2^N`. -/
theorem C33_inverse (N : ℕ) (hN : N < 64) (omega omega' : K) (hw : IsPrimitiveRoot omega (2 ^ N)) (hi : omega * omega' = 1)
    (checks : Bool) (threads threads' : ℕ) (a : List K) (ha : a.length = 2 ^ N) :
    (bestFft (fieldOps K) checks threads a omega N).bind (fun b => bestFft (fieldOps K) checks threads' b omega' N) =
      some (a.map (fun x => 2 ^ N * x)) := by
  have hw' : IsPrimitiveRoot omega' (2 ^ N) := by
    have h := hw
    rw [IsPrimitiveRoot.iff_def] at h ⊢
    have key : ∀ l, omega' ^ l = 1 ↔ omega ^ l = 1 := by
      intro l
      have : omega ^ l * omega' ^ l = 1 := by rw [← mul_pow, hi, one_pow]
      constructor <;> intro h0 <;> rw [h0] at this
      · rwa [mul_one] at this
      · rwa [one_mul] at this
    exact ⟨(key _).mpr h.1, fun l hl => h.2 l ((key l).mp hl)⟩
  rw [C33_fft N hN omega hw checks threads a ha, Option.bind_some, C33_fft N hN omega' hw' checks threads' _ (by simp)]
  congr 1
  apply List.ext_getElem?
  intro i
  by_cases h : i < 2 ^ N
  · rw [List.getElem?_map, List.getElem?_range h, List.getElem?_map, List.getElem?_eq_getElem (by omega)]
    simp only [Option.map_some]
    congr 1
    have := dft_dft (2 ^ N) omega omega' hi hw (fun j => a.getD j 0) i h
    rw [dft, smul_eq_mul, List.getD_eq_getElem?_getD, List.getElem?_eq_getElem (by omega), Option.getD_some] at this
    push_cast at this
    rw [← this]
    refine Finset.sum_congr rfl fun j hj => ?_
    rw [List.getD_eq_getElem?_getD, List.getElem?_map, List.getElem?_range (Finset.mem_range.mp hj)]
    simp only [Option.map_some, Option.getD_some, dft, smul_eq_mul]
    rw [mul_comm]
    congr 1
    exact Finset.sum_congr rfl fun k _ => mul_comm _ _
  · rw [List.getElem?_eq_none (by simp; omega), List.getElem?_eq_none (by simp; omega)]

/-- **C33** A vector whose length is not `2^N`: a panic, in builds with overflow checks for every `N`, in others for `N < 64`. -/
theorem C33_panic {G : Type} (ops : Ops K G) (N threads : ℕ) (checks : Bool) (omega : K) (a : List G) (h : a.length ≠ 2 ^ N)
    (hN : checks = true ∨ N < 64) : bestFft ops checks threads a omega N = none := bestFft_panic omega N threads checks a h hN

/-- **C33** Without overflow checks the length assertion is not reliable: with `log_n = 66` a vector of length 4 is accepted, and the result is not
its transform. -/
theorem C33_wrap_false : ∃ b, bestFft (fieldOps (ZMod 5)) false 1 [1, 2, 3, 4] 2 66 = some b ∧
    bestFft (fieldOps (ZMod 5)) true 1 [1, 2, 3, 4] 2 66 = none ∧
    b ≠ (List.range 4).map (fun i => ∑ j ∈ Finset.range 4, [1, 2, 3, 4].getD j 0 * 2 ^ (i * j)) :=
  ⟨[0, 2, 1, 1], by decide +kernel, by decide +kernel, by decide +kernel⟩

section Points

variable {F : Type} [Field F] [DecidableEq F] [BaseField F] [LawfulBase F] {C : Params F}
variable {r : ℕ} [Fact r.Prime] [Fact (OddModulus r)] [Fp.SmallModulus r]

/-- The points killed by `r`. -/
abbrev Tors (C : Params F) (r : ℕ) : AddSubgroup (Pt C) := (nsmulAddMonoidHom r : Pt C →+ Pt C).ker

@[instance_reducible] noncomputable def torsModule (C : Params F) (r : ℕ) [Fact r.Prime] [Fact (OddModulus r)] [Fp.SmallModulus r] :
    Module (Fp r) (Tors C r) :=
  let _ : Module (ZMod r) (Tors C r) := AddCommGroup.zmodModule (fun x => Subtype.ext x.2)
  Module.compHom _ (Fp.equiv r).toRingHom

theorem tors_smul (k : Fp r) (x : Tors C r) : (torsModule C r).toSMul.smul k x = Fp.toNat k • x := by
  let _ := torsModule C r
  change k • x = _
  conv_lhs => rw [← Fp.natCast_toNat k]
  exact Nat.cast_smul_eq_nsmul (Fp r) _ _

/-- **C33** Over a curve: for points killed by the scalar modulus, `best_fft` computes the points
`∑ j, [omega^(i j)] P_j`. -/
theorem C33_points (hC : Good C) (N : ℕ) (hN : N < 64) (omega : Fp r) (hw : IsPrimitiveRoot omega (2 ^ N)) (checks : Bool) (threads : ℕ)
    (a : List (Proj F)) (p : ℕ → Pt C) (ha : a.length = 2 ^ N) (hp : ∀ i < 2 ^ N, r • p i = 0)
    (hR : ∀ i < 2 ^ N, ∃ P, a[i]? = some P ∧ PRep C P (p i)) :
    ∃ b, bestFft (curveOps C r) checks threads a omega N = some b ∧ b.length = 2 ^ N ∧
      ∀ i < 2 ^ N, ∃ P, b[i]? = some P ∧
        PRep C P (∑ j ∈ Finset.range (2 ^ N), Fp.toNat (omega ^ (i * j)) • p j) := by
  let _ := torsModule C r
  have hops : OpsRep (K := Fp r) (curveOps C r) (fun (P : Proj F) (x : Tors C r) => PRep C P (x : Pt C)) := by
    refine ⟨fun h1 h2 => h1.add hC h2, fun h1 h2 => h1.sub hC h2, ?_⟩
    intro P x k h
    have h2 : k • x = Fp.toNat k • x := tors_smul k x
    rw [h2]
    exact (C23_mul (r := r) hC h ARep.identity k).1
  let f : ℕ → Tors C r := fun i => if h : i < 2 ^ N then ⟨p i, hp i h⟩ else 0
  have hf : ∀ i < 2 ^ N, ((f i : Tors C r) : Pt C) = p i := fun i h => by simp only [f, dif_pos h]
  obtain ⟨b, e, hb⟩ := bestFft_spec hops omega N hN (half_pow hw) checks threads (a := a) (f := f)
    (LR.of_get ha (fun i hi => by
      obtain ⟨P, e, h⟩ := hR i hi
      exact ⟨P, e, by rw [hf i hi]; exact h⟩))
  refine ⟨b, e, hb.length, ?_⟩
  intro i hi
  obtain ⟨P, e1, h1⟩ := hb.get i hi
  refine ⟨P, e1, ?_⟩
  rw [dft, AddSubgroup.val_finsetSum] at h1
  have : ∑ j ∈ Finset.range (2 ^ N), Fp.toNat (omega ^ (i * j)) • p j =
      ∑ j ∈ Finset.range (2 ^ N), ((omega ^ (i * j) • f j : Tors C r) : Pt C) := by
    refine Finset.sum_congr rfl fun j hj => ?_
    have h2 : omega ^ (i * j) • f j = Fp.toNat (omega ^ (i * j)) • f j := tors_smul _ _
    rw [h2, AddSubgroup.coe_nsmul, hf j (Finset.mem_range.mp hj)]
  rw [this]
  exact h1

end Points

/-- The roots of unity users take: `ROOT_OF_UNITY^(2^(S-N))` has order `2^N`, so C33 applies to it. -/
def RootSpec (p g : ℕ) [Fact p.Prime] [Fact (OddModulus p)] [Fp.SmallModulus p] : Prop :=
  ∀ N ≤ Fp.macroS p, IsPrimitiveRoot (Fp.rootOfUnity p g ^ 2 ^ (Fp.macroS p - N)) (2 ^ N) ∧
    Fp.rootOfUnity p g ^ 2 ^ (Fp.macroS p - N) * Fp.rootOfUnityInv p g ^ 2 ^ (Fp.macroS p - N) = 1

theorem RootSpec.of {p g z : ℕ} [Fact p.Prime] [Fact (OddModulus p)] [Fp.SmallModulus p] (h : ConstsSpec p g z) : RootSpec p g := by
  intro N hN
  refine ⟨?_, by rw [← mul_pow, h.root_inv, one_pow]⟩
  have h1 := IsPrimitiveRoot.orderOf (Fp.rootOfUnity p g)
  rw [h.root_order] at h1
  exact h1.pow (Nat.pos_of_ne_zero (by positivity)) (by rw [← pow_add, Nat.sub_add_cancel hN])

/-- **C33** For the shipped fields, all sizes up to the two-adicity have such a root of unity. -/
theorem C33_roots :
    RootSpec bnQ 3 ∧ RootSpec bnR 7 ∧ RootSpec blsQ 2 ∧ RootSpec blsR 7 ∧ RootSpec plP 10 ∧ RootSpec plQ 7 ∧
    RootSpec k1P 3 ∧ RootSpec k1N 7 ∧ RootSpec r1P 6 ∧ RootSpec r1N 7 := by
  obtain ⟨c0, c1, c2, c3, c4, c5, c6, c7, c8, c9⟩ := C12_constants
  exact ⟨.of c0, .of c1, .of c2, .of c3, .of c4, .of c5, .of c6, .of c7, .of c8, .of c9⟩

/-- A transform of size `2^20` over bn256's scalar field, on one thread (the recursive version). -/
example (a : List (Fp bnR)) (ha : a.length = 2 ^ 20) :
    bestFft (fieldOps (Fp bnR)) false 1 a (Fp.rootOfUnity bnR 7 ^ 2 ^ (Fp.macroS bnR - 20)) 20 =
      some ((List.range (2 ^ 20)).map (fun i => ∑ j ∈ Finset.range (2 ^ 20),
        a.getD j 0 * (Fp.rootOfUnity bnR 7 ^ 2 ^ (Fp.macroS bnR - 20)) ^ (i * j))) :=
  C33_fft 20 (by decide) _ (C33_roots.2.1 20 (by decide +kernel)).1 false 1 a ha

/-- The model run on integers, `omega = -1`: size 2, sizes other than 2 panic. -/
example : bestFft (fieldOps ℤ) false 1 [3, 5] (-1) 1 = some [8, -2] ∧ bestFft (fieldOps ℤ) true 4 [3, 5] (-1) 1 = some [8, -2] ∧
    bestFft (fieldOps ℤ) false 1 [3, 5, 7] (-1) 1 = none := by decide

end Halo2.Props
