import Verif.Curve.Torsion
import Verif.Hash.MapOps

/-!
# The group orders of the library's curves

For every curve: the order of the generator, the number of points, and, where the cofactor is not one, literal points that
generate the whole group. The curves with `a = 0` over `F` whose groups are not cyclic are generated by a point and its
image under the endomorphism.
-/

set_option linter.unusedSectionVars false
set_option maxRecDepth 100000

namespace Halo2

open Halo2.Field Halo2.Prime Halo2.Ext Halo2.Curve Halo2.Hash

namespace Bn256

/-- Arithmetic for evaluations in the kernel. -/
abbrev g1Sh : Sh (ℕ) (Fp bnQ) := shFp bnQ

/-- Addition on shadows. -/
noncomputable def g1Op : Proj (ℕ) → Proj (ℕ) → Proj (ℕ) := addA0 g1Sh 0x9

theorem g1Op_isAdd : IsAdd g1Sh g1 g1Op := addA0_isAdd g1Sh g1_a g1BVal_eq (by decide +kernel)

/-- The generator as a point of the curve. -/
noncomputable def g1Pt : Pt g1 := .some _ _ (nonsingular_of g1_good g1Gen_equation)

theorem g1Pt_rep : PRep g1 (shProj g1Sh ⟨g1XVal, g1YVal, g1Sh.one⟩) g1Pt := shPt_rep g1XVal_eq g1YVal_eq _

theorem g1Pt_order : addOrderOf g1Pt = bnR := by
  have h := orderCheck_spec (L := [bnR]) g1_good g1Op_isAdd
    (fun l hl => by rw [List.mem_singleton.mp hl]; exact bnR_prime) g1Pt_rep (by decide +kernel)
  rwa [List.prod_singleton] at h

instance : Finite (Pt g1) := (pt_card_le g1).1

theorem g1_order : Nat.card (Pt g1) = bnR ∧ AddSubgroup.zmultiples g1Pt = ⊤ :=
  prime_order g1_good g1Pt_order (by rw [card_fp]; decide +kernel)

end Bn256

namespace Grumpkin

/-- Arithmetic for evaluations in the kernel. -/
abbrev g1Sh : Sh (ℕ) (Fp bnR) := shFp bnR

/-- Addition on shadows. -/
noncomputable def g1Op : Proj (ℕ) → Proj (ℕ) → Proj (ℕ) := addA0 g1Sh 0x30644e72e131a029b85045b68181585d2833e84879b9709143e1f593efffffce

theorem g1Op_isAdd : IsAdd g1Sh g1 g1Op := addA0_isAdd g1Sh g1_a g1BVal_eq (by decide +kernel)

/-- The generator as a point of the curve. -/
noncomputable def g1Pt : Pt g1 := .some _ _ (nonsingular_of g1_good g1Gen_equation)

theorem g1Pt_rep : PRep g1 (shProj g1Sh ⟨g1XVal, g1YVal, g1Sh.one⟩) g1Pt := shPt_rep g1XVal_eq g1YVal_eq _

theorem g1Pt_order : addOrderOf g1Pt = bnQ := by
  have h := orderCheck_spec (L := [bnQ]) g1_good g1Op_isAdd
    (fun l hl => by rw [List.mem_singleton.mp hl]; exact bnQ_prime) g1Pt_rep (by decide +kernel)
  rwa [List.prod_singleton] at h

instance : Finite (Pt g1) := (pt_card_le g1).1

theorem g1_order : Nat.card (Pt g1) = bnQ ∧ AddSubgroup.zmultiples g1Pt = ⊤ :=
  prime_order g1_good g1Pt_order (by rw [card_fp]; decide +kernel)

end Grumpkin

namespace Pluto

/-- Arithmetic for evaluations in the kernel. -/
abbrev g1Sh : Sh (ℕ) (Fp plP) := shFp plP

/-- Addition on shadows. -/
noncomputable def g1Op : Proj (ℕ) → Proj (ℕ) → Proj (ℕ) := addA0 g1Sh 0xab

theorem g1Op_isAdd : IsAdd g1Sh g1 g1Op := addA0_isAdd g1Sh g1_a g1BVal_eq (by decide +kernel)

/-- The generator as a point of the curve. -/
noncomputable def g1Pt : Pt g1 := .some _ _ (nonsingular_of g1_good g1Gen_equation)

theorem g1Pt_rep : PRep g1 (shProj g1Sh ⟨g1XVal, g1YVal, g1Sh.one⟩) g1Pt := shPt_rep g1XVal_eq g1YVal_eq _

theorem g1Pt_order : addOrderOf g1Pt = plQ := by
  have h := orderCheck_spec (L := [plQ]) g1_good g1Op_isAdd
    (fun l hl => by rw [List.mem_singleton.mp hl]; exact plQ_prime) g1Pt_rep (by decide +kernel)
  rwa [List.prod_singleton] at h

instance : Finite (Pt g1) := (pt_card_le g1).1

theorem g1_order : Nat.card (Pt g1) = plQ ∧ AddSubgroup.zmultiples g1Pt = ⊤ :=
  prime_order g1_good g1Pt_order (by rw [card_fp]; decide +kernel)

end Pluto

namespace Pluto

/-- Arithmetic for evaluations in the kernel. -/
abbrev erisSh : Sh (ℕ) (Fp plQ) := shFp plQ

/-- Addition on shadows. -/
noncomputable def erisOp : Proj (ℕ) → Proj (ℕ) → Proj (ℕ) := addA0 erisSh 0xab

theorem erisOp_isAdd : IsAdd erisSh eris erisOp := addA0_isAdd erisSh eris_a erisBVal_eq (by decide +kernel)

/-- The generator as a point of the curve. -/
noncomputable def erisPt : Pt eris := .some _ _ (nonsingular_of eris_good erisGen_equation)

theorem erisPt_rep : PRep eris (shProj erisSh ⟨erisXVal, erisYVal, erisSh.one⟩) erisPt := shPt_rep erisXVal_eq erisYVal_eq _

theorem erisPt_order : addOrderOf erisPt = plP := by
  have h := orderCheck_spec (L := [plP]) eris_good erisOp_isAdd
    (fun l hl => by rw [List.mem_singleton.mp hl]; exact plP_prime) erisPt_rep (by decide +kernel)
  rwa [List.prod_singleton] at h

instance : Finite (Pt eris) := (pt_card_le eris).1

theorem eris_order : Nat.card (Pt eris) = plP ∧ AddSubgroup.zmultiples erisPt = ⊤ :=
  prime_order eris_good erisPt_order (by rw [card_fp]; decide +kernel)

end Pluto

namespace Secp256k1

/-- Arithmetic for evaluations in the kernel. -/
abbrev cSh : Sh (ℕ) (Fp k1P) := shFp k1P

/-- Addition on shadows. -/
noncomputable def cOp : Proj (ℕ) → Proj (ℕ) → Proj (ℕ) := addA0 cSh 0x15

theorem cOp_isAdd : IsAdd cSh c cOp := addA0_isAdd cSh c_a cBVal_eq (by decide +kernel)

/-- The generator as a point of the curve. -/
noncomputable def cPt : Pt c := .some _ _ (nonsingular_of c_good cGen_equation)

theorem cPt_rep : PRep c (shProj cSh ⟨cXVal, cYVal, cSh.one⟩) cPt := shPt_rep cXVal_eq cYVal_eq _

theorem cPt_order : addOrderOf cPt = k1N := by
  have h := orderCheck_spec (L := [k1N]) c_good cOp_isAdd
    (fun l hl => by rw [List.mem_singleton.mp hl]; exact k1N_prime) cPt_rep (by decide +kernel)
  rwa [List.prod_singleton] at h

instance : Finite (Pt c) := (pt_card_le c).1

theorem c_order : Nat.card (Pt c) = k1N ∧ AddSubgroup.zmultiples cPt = ⊤ :=
  prime_order c_good cPt_order (by rw [card_fp]; decide +kernel)

end Secp256k1

namespace Secq256k1

/-- Arithmetic for evaluations in the kernel. -/
abbrev cSh : Sh (ℕ) (Fp k1N) := shFp k1N

/-- Addition on shadows. -/
noncomputable def cOp : Proj (ℕ) → Proj (ℕ) → Proj (ℕ) := addA0 cSh 0x15

theorem cOp_isAdd : IsAdd cSh c cOp := addA0_isAdd cSh c_a cBVal_eq (by decide +kernel)

/-- The generator as a point of the curve. -/
noncomputable def cPt : Pt c := .some _ _ (nonsingular_of c_good cGen_equation)

theorem cPt_rep : PRep c (shProj cSh ⟨cXVal, cYVal, cSh.one⟩) cPt := shPt_rep cXVal_eq cYVal_eq _

theorem cPt_order : addOrderOf cPt = k1P := by
  have h := orderCheck_spec (L := [k1P]) c_good cOp_isAdd
    (fun l hl => by rw [List.mem_singleton.mp hl]; exact k1P_prime) cPt_rep (by decide +kernel)
  rwa [List.prod_singleton] at h

instance : Finite (Pt c) := (pt_card_le c).1

theorem c_order : Nat.card (Pt c) = k1P ∧ AddSubgroup.zmultiples cPt = ⊤ :=
  prime_order c_good cPt_order (by rw [card_fp]; decide +kernel)

end Secq256k1

namespace Secp256r1

/-- Arithmetic for evaluations in the kernel. -/
abbrev cSh : Sh (ℕ) (Fp r1P) := shFp r1P

/-- Addition on shadows. -/
noncomputable def cOp : Proj (ℕ) → Proj (ℕ) → Proj (ℕ) := addA cSh cAVal 0x1052a18afeafbbb61bc3380063c994352f57141164fb12e2b36ab4ba777720e2

theorem cOp_isAdd : IsAdd cSh c cOp := addA_isAdd cSh cAVal_eq cBVal_eq (by decide +kernel)

/-- The generator as a point of the curve. -/
noncomputable def cPt : Pt c := .some _ _ (nonsingular_of c_good cGen_equation)

theorem cPt_rep : PRep c (shProj cSh ⟨cXVal, cYVal, cSh.one⟩) cPt := shPt_rep cXVal_eq cYVal_eq _

theorem cPt_order : addOrderOf cPt = r1N := by
  have h := orderCheck_spec (L := [r1N]) c_good cOp_isAdd
    (fun l hl => by rw [List.mem_singleton.mp hl]; exact r1N_prime) cPt_rep (by decide +kernel)
  rwa [List.prod_singleton] at h

instance : Finite (Pt c) := (pt_card_le c).1

theorem c_order : Nat.card (Pt c) = r1N ∧ AddSubgroup.zmultiples cPt = ⊤ :=
  prime_order c_good cPt_order (by rw [card_fp]; decide +kernel)

end Secp256r1

namespace Bn256

/-- Arithmetic for evaluations in the kernel. -/
abbrev g2Sh : Sh (ℕ × ℕ) (Bn256.Fq2) := shQuad bnQ Bn256.beta Bn256.nonRes_base

/-- Addition on shadows. -/
noncomputable def g2Op : Proj (ℕ × ℕ) → Proj (ℕ × ℕ) → Proj (ℕ × ℕ) := addA0 g2Sh (0x20753adca9c6bfb81499be5e509e8f8ff21b7c8d3cb039cf1ef69c66bce9b021, 0x1c53b10b0d2fc7e67860f09cc8af9ddf5eee18eaf8748f8ade8371391494176)

theorem g2Op_isAdd : IsAdd g2Sh g2 g2Op := addA0_isAdd g2Sh g2_a g2BVal_eq (by decide +kernel)

/-- The generator as a point of the curve. -/
noncomputable def g2Pt : Pt g2 := .some _ _ (nonsingular_of g2_good g2Gen_equation)

theorem g2Pt_rep : PRep g2 (shProj g2Sh ⟨g2XVal, g2YVal, g2Sh.one⟩) g2Pt := shPt_rep g2XVal_eq g2YVal_eq _

theorem g2Pt_order : addOrderOf g2Pt = bnR := by
  have h := orderCheck_spec (L := [bnR]) g2_good g2Op_isAdd
    (fun l hl => by rw [List.mem_singleton.mp hl]; exact bnR_prime) g2Pt_rep (by decide +kernel)
  rwa [List.prod_singleton] at h

instance : Finite (Pt g2) := (pt_card_le g2).1

/-- The cofactor. -/
@[irreducible] def g2Cof : ℕ := 21888242871839275222246405745257275088844257914179612981679871602714643921549

/-- The primes of the exponent of the group. -/
def g2Primes : List ℕ := [10069, 5864401, 1875725156269, 197620364512881247228717050342013327560683201906968909, bnR]

theorem g2Primes_prime : ∀ l ∈ g2Primes, l.Prime := by
  simp only [g2Primes, List.mem_cons, List.not_mem_nil, or_false, forall_eq_or_imp, forall_eq]
  exact ⟨cofactor_prime (by decide +kernel), cofactor_prime (by decide +kernel), cofactor_prime (by decide +kernel), cofactor_prime (by decide +kernel), bnR_prime⟩

@[irreducible] def g2WitX : ℕ × ℕ := (0x0, 0x1)

@[irreducible] def g2WitY : ℕ × ℕ := (0xcf32d3c49a2cb8a092f24ec3201e68dc299b6216e6321ee60573e3a7f596ea8, 0x7bca656753ef8cbee60335acbffe3def91636952d4ab9eb0b839c7f3566c0e2)

/-- A point of the curve. -/
noncomputable def g2Wit : Pt g2 := .some (g2Sh.φ g2WitX) (g2Sh.φ g2WitY)
  (shOn_spec g2_good (g2_a.trans g2Sh.φ_zero.symm) g2BVal_eq (by decide +kernel))

theorem g2Wit_rep : PRep g2 (shProj g2Sh ⟨g2WitX, g2WitY, g2Sh.one⟩) g2Wit := shPt_rep rfl rfl _

theorem g2Wit_order : addOrderOf g2Wit = g2Primes.prod :=
  orderCheck_spec g2_good g2Op_isAdd g2Primes_prime g2Wit_rep (by decide +kernel)

theorem g2_order : Nat.card (Pt g2) = g2Cof * bnR ∧ AddSubgroup.zmultiples g2Wit = ⊤ := by
  have h := prime_order g2_good g2Wit_order (by rw [card_quad, card_fp]; decide +kernel)
  rwa [show g2Primes.prod = g2Cof * bnR by decide +kernel] at h

end Bn256

namespace Pluto

/-- Arithmetic for evaluations in the kernel. -/
abbrev g2Sh : Sh (ℕ × ℕ) (Pluto.Fp2) := shQuad plP Pluto.beta Pluto.nonRes_base

/-- Addition on shadows. -/
noncomputable def g2Op : Proj (ℕ × ℕ) → Proj (ℕ × ℕ) → Proj (ℕ × ℕ) := addA0 g2Sh (0x9, 0x3)

theorem g2Op_isAdd : IsAdd g2Sh g2 g2Op := addA0_isAdd g2Sh g2_a g2BVal_eq (by decide +kernel)

/-- The generator as a point of the curve. -/
noncomputable def g2Pt : Pt g2 := .some _ _ (nonsingular_of g2_good g2Gen_equation)

theorem g2Pt_rep : PRep g2 (shProj g2Sh ⟨g2XVal, g2YVal, g2Sh.one⟩) g2Pt := shPt_rep g2XVal_eq g2YVal_eq _

theorem g2Pt_order : addOrderOf g2Pt = plQ := by
  have h := orderCheck_spec (L := [plQ]) g2_good g2Op_isAdd
    (fun l hl => by rw [List.mem_singleton.mp hl]; exact plQ_prime) g2Pt_rep (by decide +kernel)
  rwa [List.prod_singleton] at h

instance : Finite (Pt g2) := (pt_card_le g2).1

/-- The cofactor. -/
@[irreducible] def g2Cof : ℕ := 102211695604070082112571065507755096754575920209623522239390234855500789814276296758597959633551254826373265657863299916084618666704897

/-- The primes of the exponent of the group. -/
def g2Primes : List ℕ := [13, 13, 73, 143653, 1426393, 79562281, 508194433436460527446871173854116280656436580304376012253055085313374946805647487990943840223586984484290015869, plQ]

theorem g2Primes_prime : ∀ l ∈ g2Primes, l.Prime := by
  simp only [g2Primes, List.mem_cons, List.not_mem_nil, or_false, forall_eq_or_imp, forall_eq]
  exact ⟨by decide +kernel, by decide +kernel, by decide +kernel, cofactor_prime (by decide +kernel), cofactor_prime (by decide +kernel), cofactor_prime (by decide +kernel), cofactor_prime (by decide +kernel), plQ_prime⟩

@[irreducible] def g2WitX : ℕ × ℕ := (0x6, 0x1)

@[irreducible] def g2WitY : ℕ × ℕ := (0xa9a5c866fcea614758416f7fe95adec78b0b57282b1020b598a24fcac0f8b4373aebfa55f1825b9816478701d27546b9cd19f3d13ef01e2, 0x113d1183e76ea74fd771bbad261ef6d13720cd871c3922939a306b11e6f1df7ba9f40530f555e7f9bf9dcdde6e56561db60bc18df961102d)

/-- A point of the curve. -/
noncomputable def g2Wit : Pt g2 := .some (g2Sh.φ g2WitX) (g2Sh.φ g2WitY)
  (shOn_spec g2_good (g2_a.trans g2Sh.φ_zero.symm) g2BVal_eq (by decide +kernel))

theorem g2Wit_rep : PRep g2 (shProj g2Sh ⟨g2WitX, g2WitY, g2Sh.one⟩) g2Wit := shPt_rep rfl rfl _

theorem g2Wit_order : addOrderOf g2Wit = g2Primes.prod :=
  orderCheck_spec g2_good g2Op_isAdd g2Primes_prime g2Wit_rep (by decide +kernel)

theorem g2_order : Nat.card (Pt g2) = g2Cof * plQ ∧ AddSubgroup.zmultiples g2Wit = ⊤ := by
  have h := prime_order g2_good g2Wit_order (by rw [card_quad, card_fp]; decide +kernel)
  rwa [show g2Primes.prod = g2Cof * plQ by decide +kernel] at h

end Pluto

namespace Bls12381

/-- Arithmetic for evaluations in the kernel. -/
abbrev g1Sh : Sh (ℕ) (Fp blsQ) := shFp blsQ

/-- Addition on shadows. -/
noncomputable def g1Op : Proj (ℕ) → Proj (ℕ) → Proj (ℕ) := addA0 g1Sh 0xc

theorem g1Op_isAdd : IsAdd g1Sh g1 g1Op := addA0_isAdd g1Sh g1_a g1BVal_eq (by decide +kernel)

/-- The generator as a point of the curve. -/
noncomputable def g1Pt : Pt g1 := .some _ _ (nonsingular_of g1_good g1Gen_equation)

theorem g1Pt_rep : PRep g1 (shProj g1Sh ⟨g1XVal, g1YVal, g1Sh.one⟩) g1Pt := shPt_rep g1XVal_eq g1YVal_eq _

theorem g1Pt_order : addOrderOf g1Pt = blsR := by
  have h := orderCheck_spec (L := [blsR]) g1_good g1Op_isAdd
    (fun l hl => by rw [List.mem_singleton.mp hl]; exact blsR_prime) g1Pt_rep (by decide +kernel)
  rwa [List.prod_singleton] at h

instance : Finite (Pt g1) := (pt_card_le g1).1

/-- The cofactor. -/
@[irreducible] def g1Cof : ℕ := 76329603384216526031706109802092473003

/-- The primes of the exponent of the group. -/
def g1Primes : List ℕ := [3, 11, 10177, 859267, 52437899, blsR]

theorem g1Primes_prime : ∀ l ∈ g1Primes, l.Prime := by
  simp only [g1Primes, List.mem_cons, List.not_mem_nil, or_false, forall_eq_or_imp, forall_eq]
  exact ⟨by decide +kernel, by decide +kernel, cofactor_prime (by decide +kernel), cofactor_prime (by decide +kernel), cofactor_prime (by decide +kernel), blsR_prime⟩

@[irreducible] def g1WitX : ℕ := 0x5

@[irreducible] def g1WitY : ℕ := 0xd3c6da1211ebe797bc0790f1e6e7d669b180a8e59196825506d2bb2185f53715df092c8a7ceb64843ea7df67dbad60d

/-- A point of the curve. -/
noncomputable def g1Wit : Pt g1 := .some (g1Sh.φ g1WitX) (g1Sh.φ g1WitY)
  (shOn_spec g1_good (g1_a.trans g1Sh.φ_zero.symm) g1BVal_eq (by decide +kernel))

theorem g1Wit_rep : PRep g1 (shProj g1Sh ⟨g1WitX, g1WitY, g1Sh.one⟩) g1Wit := shPt_rep rfl rfl _

theorem g1Wit_order : addOrderOf g1Wit = g1Primes.prod :=
  orderCheck_spec g1_good g1Op_isAdd g1Primes_prime g1Wit_rep (by decide +kernel)

@[irreducible] def g1Zeta : ℕ := 0x5f19672fdf76ce51ba69c6076a0f77eaddb3a93be6f89688de17d813620a00022e01fffffffefffe

theorem g1Zeta_sq : g1Sh.φ g1Zeta * g1Sh.φ g1Zeta + g1Sh.φ g1Zeta + 1 = 0 := by
  have h : g1Sh.eq (g1Sh.add (g1Sh.add (g1Sh.mul g1Zeta g1Zeta) g1Zeta) g1Sh.one) g1Sh.zero = true := by decide +kernel
  rw [g1Sh.eq_iff, g1Sh.φ_add, g1Sh.φ_add, g1Sh.φ_mul, g1Sh.φ_one, g1Sh.φ_zero] at h
  exact h

theorem g1Zeta_cube : g1Sh.φ g1Zeta * g1Sh.φ g1Zeta * g1Sh.φ g1Zeta = 1 := by
  linear_combination (g1Sh.φ g1Zeta - 1) * g1Zeta_sq

/-- The endomorphism. -/
noncomputable def g1Phi : Pt g1 →+ Pt g1 := endoHom g1_good g1_a (g1Sh.φ g1Zeta) g1Zeta_cube

theorem g1Phi_rep {P : Proj (ℕ)} {p : Pt g1} (hP : PRep g1 (shProj g1Sh P) p) :
    PRep g1 (shProj g1Sh (shEndo g1Sh g1Zeta P)) (g1Phi p) := shEndo_rep g1_good g1_a rfl g1Zeta_cube hP

theorem g1Phi_rel (p : Pt g1) : g1Phi (g1Phi p) + g1Phi p + p = 0 :=
  endo_relation g1_good g1_a g1Zeta_sq g1Zeta_cube p

/-- The primes with two-dimensional torsion. -/
def g1Squares : List ℕ := [11, 10177, 859267, 52437899]

theorem g1_sq (l : ℕ) (hl : l ∈ g1Squares) : l ^ 2 ∣ Nat.card (gen g1Phi g1Wit) := by
  have key (l m : ℕ) (hl : l ∈ g1Primes)
      (h : indepCheck g1Sh g1Op g1Zeta ⟨g1WitX, g1WitY, g1Sh.one⟩ g1Primes.prod l m = true) :
      l ^ 2 ∣ Nat.card (gen g1Phi g1Wit) :=
    indepCheck_spec g1_good g1Op_isAdd g1_a rfl g1Zeta_sq g1Zeta_cube g1Wit_rep (g1Primes_prime l hl) (by decide +kernel)
      g1Wit_order h
  simp only [g1Squares, List.mem_cons, List.not_mem_nil, or_false] at hl
  rcases hl with rfl | rfl | rfl | rfl
  · exact key _ 0 (by decide +kernel) (by decide +kernel)
  · exact key _ 4773 (by decide +kernel) (by decide +kernel)
  · exact key _ 119571 (by decide +kernel) (by decide +kernel)
  · exact key _ 0 (by decide +kernel) (by decide +kernel)

theorem g1_order : Nat.card (Pt g1) = g1Cof * blsR ∧ gen g1Phi g1Wit = ⊤ := by
  refine pt_card_eq g1_good _ ?_ (by rw [card_fp]; decide +kernel)
  have h := dvd_of_squares (D := g1Squares) (c := g1Primes.prod / g1Squares.prod)
    (fun l hl => g1Primes_prime l (by revert l; decide +kernel)) (by decide +kernel) g1_sq
    ((Nat.div_dvd_of_dvd (by decide +kernel)).trans (order_dvd_gen g1Wit_order)) (by decide +kernel)
  rwa [show (g1Squares.map (· ^ 2)).prod * (g1Primes.prod / g1Squares.prod) = g1Cof * blsR by decide +kernel] at h

end Bls12381

namespace Bls12381

/-- Arithmetic for evaluations in the kernel. -/
abbrev g2Sh : Sh (ℕ × ℕ) (Bls12381.Fq2) := shQuad blsQ Bls12381.beta Bls12381.nonRes_base

/-- Addition on shadows. -/
noncomputable def g2Op : Proj (ℕ × ℕ) → Proj (ℕ × ℕ) → Proj (ℕ × ℕ) := addA0 g2Sh (0xc, 0xc)

theorem g2Op_isAdd : IsAdd g2Sh g2 g2Op := addA0_isAdd g2Sh g2_a g2BVal_eq (by decide +kernel)

/-- The generator as a point of the curve. -/
noncomputable def g2Pt : Pt g2 := .some _ _ (nonsingular_of g2_good g2Gen_equation)

theorem g2Pt_rep : PRep g2 (shProj g2Sh ⟨g2XVal, g2YVal, g2Sh.one⟩) g2Pt := shPt_rep g2XVal_eq g2YVal_eq _

theorem g2Pt_order : addOrderOf g2Pt = blsR := by
  have h := orderCheck_spec (L := [blsR]) g2_good g2Op_isAdd
    (fun l hl => by rw [List.mem_singleton.mp hl]; exact blsR_prime) g2Pt_rep (by decide +kernel)
  rwa [List.prod_singleton] at h

instance : Finite (Pt g2) := (pt_card_le g2).1

/-- The cofactor. -/
@[irreducible] def g2Cof : ℕ := 305502333931268344200999753193121504214466019254188142667664032982267604182971884026507427359259977847832272839041616661285803823378372096355777062779109

/-- The primes of the exponent of the group. -/
def g2Primes : List ℕ := [13, 23, 2713, 11953, 262069, 402096035359507321594726366720466575392706800671181159425656785868777272553337714697862511267018014931937703598282857976535744623203249, blsR]

theorem g2Primes_prime : ∀ l ∈ g2Primes, l.Prime := by
  simp only [g2Primes, List.mem_cons, List.not_mem_nil, or_false, forall_eq_or_imp, forall_eq]
  exact ⟨by decide +kernel, by decide +kernel, cofactor_prime (by decide +kernel), cofactor_prime (by decide +kernel), cofactor_prime (by decide +kernel), cofactor_prime (by decide +kernel), blsR_prime⟩

@[irreducible] def g2WitX : ℕ × ℕ := (0x0, 0x1)

@[irreducible] def g2WitY : ℕ × ℕ := (0x135203e60180a68ee2e9c448d77a2cd91c3dedd930b1cf60ef396489f61eb45e304466cf3e67fa0af1ee7b04121bdea2, 0x140d2a0ca7fdc0223895aa4843747ffad8ac19034879ca1b67e64a4501b6c551cb36cb8e58c411de58318ef3c9ab641b)

/-- A point of the curve. -/
noncomputable def g2Wit : Pt g2 := .some (g2Sh.φ g2WitX) (g2Sh.φ g2WitY)
  (shOn_spec g2_good (g2_a.trans g2Sh.φ_zero.symm) g2BVal_eq (by decide +kernel))

theorem g2Wit_rep : PRep g2 (shProj g2Sh ⟨g2WitX, g2WitY, g2Sh.one⟩) g2Wit := shPt_rep rfl rfl _

theorem g2Wit_order : addOrderOf g2Wit = g2Primes.prod :=
  orderCheck_spec g2_good g2Op_isAdd g2Primes_prime g2Wit_rep (by decide +kernel)

@[irreducible] def g2Zeta : ℕ × ℕ := (0x5f19672fdf76ce51ba69c6076a0f77eaddb3a93be6f89688de17d813620a00022e01fffffffefffe, 0x0)

theorem g2Zeta_sq : g2Sh.φ g2Zeta * g2Sh.φ g2Zeta + g2Sh.φ g2Zeta + 1 = 0 := by
  have h : g2Sh.eq (g2Sh.add (g2Sh.add (g2Sh.mul g2Zeta g2Zeta) g2Zeta) g2Sh.one) g2Sh.zero = true := by decide +kernel
  rw [g2Sh.eq_iff, g2Sh.φ_add, g2Sh.φ_add, g2Sh.φ_mul, g2Sh.φ_one, g2Sh.φ_zero] at h
  exact h

theorem g2Zeta_cube : g2Sh.φ g2Zeta * g2Sh.φ g2Zeta * g2Sh.φ g2Zeta = 1 := by
  linear_combination (g2Sh.φ g2Zeta - 1) * g2Zeta_sq

/-- The endomorphism. -/
noncomputable def g2Phi : Pt g2 →+ Pt g2 := endoHom g2_good g2_a (g2Sh.φ g2Zeta) g2Zeta_cube

theorem g2Phi_rep {P : Proj (ℕ × ℕ)} {p : Pt g2} (hP : PRep g2 (shProj g2Sh P) p) :
    PRep g2 (shProj g2Sh (shEndo g2Sh g2Zeta P)) (g2Phi p) := shEndo_rep g2_good g2_a rfl g2Zeta_cube hP

theorem g2Phi_rel (p : Pt g2) : g2Phi (g2Phi p) + g2Phi p + p = 0 :=
  endo_relation g2_good g2_a g2Zeta_sq g2Zeta_cube p

/-- The primes with two-dimensional torsion. -/
def g2Squares : List ℕ := [13, 23]

theorem g2_sq (l : ℕ) (hl : l ∈ g2Squares) : l ^ 2 ∣ Nat.card (gen g2Phi g2Wit) := by
  have key (l m : ℕ) (hl : l ∈ g2Primes)
      (h : indepCheck g2Sh g2Op g2Zeta ⟨g2WitX, g2WitY, g2Sh.one⟩ g2Primes.prod l m = true) :
      l ^ 2 ∣ Nat.card (gen g2Phi g2Wit) :=
    indepCheck_spec g2_good g2Op_isAdd g2_a rfl g2Zeta_sq g2Zeta_cube g2Wit_rep (g2Primes_prime l hl) (by decide +kernel)
      g2Wit_order h
  simp only [g2Squares, List.mem_cons, List.not_mem_nil, or_false] at hl
  rcases hl with rfl | rfl
  · exact key _ 3 (by decide +kernel) (by decide +kernel)
  · exact key _ 0 (by decide +kernel) (by decide +kernel)

theorem g2_order : Nat.card (Pt g2) = g2Cof * blsR ∧ gen g2Phi g2Wit = ⊤ := by
  refine pt_card_eq g2_good _ ?_ (by rw [card_quad, card_fp]; decide +kernel)
  have h := dvd_of_squares (D := g2Squares) (c := g2Primes.prod / g2Squares.prod)
    (fun l hl => g2Primes_prime l (by revert l; decide +kernel)) (by decide +kernel) g2_sq
    ((Nat.div_dvd_of_dvd (by decide +kernel)).trans (order_dvd_gen g2Wit_order)) (by decide +kernel)
  rwa [show (g2Squares.map (· ^ 2)).prod * (g2Primes.prod / g2Squares.prod) = g2Cof * blsR by decide +kernel] at h

end Bls12381

end Halo2
