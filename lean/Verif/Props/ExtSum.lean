import Verif.Ext.Sum
import Verif.Props.Ext

/-!
# C42 for the extension fields
-/

namespace Halo2.Props

open Halo2 Halo2.Ext ExtField Polynomial

theorem foldl_hom {A R : Type} [Monoid R] (φ : A → R) (op : A → A → A) (h : ∀ x y, φ (op x y) = φ x * φ y) (l : List A) (s : A) :
    φ (l.foldl (fun acc item => op acc item) s) = φ s * (l.map φ).prod := by
  induction l generalizing s with
  | nil => rw [List.foldl_nil, List.map_nil, List.prod_nil, mul_one]
  | cons x l ih => rw [List.foldl_cons, ih, h, List.map_cons, List.prod_cons, mul_assoc]

theorem foldl_hom_add {A R : Type} [AddMonoid R] (φ : A → R) (op : A → A → A) (h : ∀ x y, φ (op x y) = φ x + φ y) (l : List A) (s : A) :
    φ (l.foldl (fun acc item => op acc item) s) = φ s + (l.map φ).sum := by
  induction l generalizing s with
  | nil => rw [List.foldl_nil, List.map_nil, List.sum_nil, add_zero]
  | cons x l ih => rw [List.foldl_cons, ih, h, List.map_cons, List.sum_cons, add_assoc]

variable {F : Type} [CommRing F] [ExtField F] [LawfulExt F]

/-- **C42** `Sum` and `Product` of a quadratic extension: the sum and the product in `F[X]/(X² - NON_RESIDUE)`. -/
theorem C42_quad [Nontrivial F] :
    ∃ φ : Quad F → AdjoinRoot (X ^ 2 - C (nonRes : F)),
      Function.Bijective φ ∧ (∀ x, φ x = AdjoinRoot.of _ x.c0 + AdjoinRoot.of _ x.c1 * AdjoinRoot.root _) ∧
      ∀ l, φ (Quad.sum l) = (l.map φ).sum ∧ φ (Quad.product l) = (l.map φ).prod := by
  obtain ⟨φ, hb, hf, h0, h1, ha, -, -, -, hm, -⟩ := C13_quotient_ring (F := F)
  refine ⟨φ, hb, hf, fun l => ⟨?_, ?_⟩⟩
  · rw [Quad.sum, foldl_hom_add φ _ ha, h0, zero_add]
  · rw [Quad.product, foldl_hom φ _ hm, h1, one_mul]

/-- **C42** `Sum` and `Product` of a cubic extension: the sum and the product in `F[X]/(X³ - NON_RESIDUE)`. -/
theorem C42_cubic [Nontrivial F] :
    ∃ φ : Halo2.Ext.Cubic F → AdjoinRoot (X ^ 3 - C (nonRes : F)),
      Function.Bijective φ ∧
      (∀ x, φ x = AdjoinRoot.of _ x.c0 + AdjoinRoot.of _ x.c1 * AdjoinRoot.root _ + AdjoinRoot.of _ x.c2 * AdjoinRoot.root _ ^ 2) ∧
      ∀ l, φ (Halo2.Ext.Cubic.sum l) = (l.map φ).sum ∧ φ (Halo2.Ext.Cubic.product l) = (l.map φ).prod := by
  obtain ⟨φ, hb, hf, h0, h1, ha, -, -, -, hm, -⟩ := C14_quotient_ring (F := F)
  refine ⟨φ, hb, hf, fun l => ⟨?_, ?_⟩⟩
  · rw [Halo2.Ext.Cubic.sum, foldl_hom_add φ _ ha, h0, zero_add]
  · rw [Halo2.Ext.Cubic.product, foldl_hom φ _ hm, h1, one_mul]

/-- The hypotheses hold in the nine shipped extensions; here two levels of bn256's tower. -/
example : (∃ φ : Bn256.Fq2 → AdjoinRoot (X ^ 2 - C (nonRes : Bn256.Fq)), Function.Bijective φ ∧
      ∀ l, φ (Quad.sum l) = (l.map φ).sum) ∧
    (∃ φ : Bn256.Fq6 → AdjoinRoot (X ^ 3 - C (nonRes : Bn256.Fq2)), Function.Bijective φ ∧
      ∀ l, φ (Halo2.Ext.Cubic.product l) = (l.map φ).prod) := by
  obtain ⟨φ, h1, -, h2⟩ := C42_quad (F := Bn256.Fq)
  obtain ⟨ψ, k1, -, k2⟩ := C42_cubic (F := Bn256.Fq2)
  exact ⟨⟨φ, h1, fun l => (h2 l).1⟩, ⟨ψ, k1, fun l => (k2 l).2⟩⟩

end Halo2.Props
