import Verif.Field.FpBytes
import Verif.Pairing.Model

/-!
# Constant-time selection and equality

`subtle`'s `u64::conditional_select` is the external part: with the mask `-choice` it computes `a ^ (mask & (a ^ b))`.
-/

set_option linter.unusedSectionVars false

namespace Halo2

open Halo2.Field Halo2.Ext

namespace Field

/-- `u64::conditional_select` of the crate `subtle`: `a ^ (mask & (a ^ b))` with the mask of all ones or zero. -/
def wordSelect (a b : ℕ) (c : Bool) : ℕ := a ^^^ ((if c then W - 1 else 0) &&& (a ^^^ b))

/-- Models derive/src/field/mod.rs:243-250 (`conditional_select`), `n` limbs. -/
def select (n : ℕ) (a b : List ℕ) (c : Bool) : List ℕ := (List.range n).map fun i => wordSelect (a.getD i 0) (b.getD i 0) c

end Field

namespace Fp

variable {p : ℕ} [hp : Fact (OddModulus p)]

/-- `ct_eq`, derive/src/field/mod.rs:232-239. -/
def ctEq (a b : Fp p) : Bool := Field.ctEq a.limbs b.limbs

/-- `conditional_select`, derive/src/field/mod.rs:243-250. -/
def select (a b : Fp p) (c : Bool) : Fp p := ofMont (Field.select (numLimbs p) a.limbs b.limbs c)

end Fp

namespace Ext

variable {F : Type}

/-- Models src/ff_ext/quadratic.rs:328-333 (`conditional_select`); `sel` is that of the base. -/
def Quad.select (sel : F → F → Bool → F) (a b : Quad F) (c : Bool) : Quad F := ⟨sel a.c0 b.c0 c, sel a.c1 b.c1 c⟩

/-- Models src/ff_ext/quadratic.rs:337-339 (`ct_eq`); `eq` is that of the base. -/
def Quad.ctEqBy (eq : F → F → Bool) (a b : Quad F) : Bool := eq a.c0 b.c0 && eq a.c1 b.c1

/-- Models src/ff_ext/cubic.rs:240-246 (`conditional_select`). -/
def Cubic.select (sel : F → F → Bool → F) (a b : Cubic F) (c : Bool) : Cubic F :=
  ⟨sel a.c0 b.c0 c, sel a.c1 b.c1 c, sel a.c2 b.c2 c⟩

/-- Models src/ff_ext/cubic.rs:250-252 (`ct_eq`). -/
def Cubic.ctEqBy (eq : F → F → Bool) (a b : Cubic F) : Bool := eq a.c0 b.c0 && eq a.c1 b.c1 && eq a.c2 b.c2

end Ext

namespace Curve

variable {F : Type}

/-- Models src/derive/curve.rs:383-389 (`conditional_select`). -/
def Proj.select (sel : F → F → Bool → F) (a b : Proj F) (c : Bool) : Proj F := ⟨sel a.x b.x c, sel a.y b.y c, sel a.z b.z c⟩

/-- Models src/derive/curve.rs:707-712 (`conditional_select`). -/
def Aff.select (sel : F → F → Bool → F) (a b : Aff F) (c : Bool) : Aff F := ⟨sel a.x b.x c, sel a.y b.y c⟩

end Curve

/-- Models src/derive/pairing.rs:132-134 (`ct_eq`), 144-148 (`eq`): the newtype `Gt` compares its field element. -/
def Pairing.gtCtEq {T : Type} (eq : T → T → Bool) (a b : T) : Bool := eq a b

/-- Models src/derive/pairing.rs:138-140 (`conditional_select`). -/
def Pairing.gtSelect {T : Type} (sel : T → T → Bool → T) (a b : T) (c : Bool) : T := sel a b c

/-! ## What they do -/

/-- A selection that returns its second argument if the choice is set. -/
def Selects {F : Type} (sel : F → F → Bool → F) : Prop := ∀ a b c, sel a b c = if c then b else a

/-- A comparison that decides equality. -/
def Decides {F : Type} (eq : F → F → Bool) : Prop := ∀ a b, eq a b = true ↔ a = b

namespace Field

theorem wordSelect_eq {a b : ℕ} (ha : a < W) (hb : b < W) (c : Bool) : wordSelect a b c = if c then b else a := by
  cases c
  · rw [wordSelect, if_neg Bool.false_ne_true, Nat.zero_and, Nat.xor_zero, if_neg Bool.false_ne_true]
  · rw [wordSelect, if_pos rfl, if_pos rfl]
    have h : a ^^^ b < 2 ^ 64 := Nat.xor_lt_two_pow ha hb
    have e : (W - 1) &&& (a ^^^ b) = a ^^^ b := by
      rw [Nat.and_comm]
      exact (Nat.and_two_pow_sub_one_eq_mod _ 64).trans (Nat.mod_eq_of_lt h)
    rw [e, ← Nat.xor_assoc, Nat.xor_self, Nat.zero_xor]

theorem select_eq {n : ℕ} {a b : List ℕ} (la : a.length = n) (lb : b.length = n) (wa : ∀ x ∈ a, x < W) (wb : ∀ x ∈ b, x < W)
    (c : Bool) : select n a b c = if c then b else a := by
  have key : ∀ i < n, wordSelect (a.getD i 0) (b.getD i 0) c = (if c then b else a).getD i 0 := by
    intro i hi
    rw [wordSelect_eq]
    · cases c <;> rfl
    · rw [List.getD_eq_getElem _ _ (by rw [la]; exact hi)]
      exact wa _ (List.getElem_mem _)
    · rw [List.getD_eq_getElem _ _ (by rw [lb]; exact hi)]
      exact wb _ (List.getElem_mem _)
  have hl : (if c then b else a).length = n := by cases c <;> assumption
  apply List.ext_getElem
  · rw [select, List.length_map, List.length_range, hl]
  · intro i h1 h2
    rw [hl] at h2
    simp only [select, List.getElem_map, List.getElem_range]
    rw [key i h2, List.getD_eq_getElem]

end Field

theorem Fp.select_spec {p : ℕ} [hp : Fact (OddModulus p)] : Selects (Fp.select (p := p)) := fun a b c => by
  rw [Fp.select, Field.select_eq a.elem.len b.elem.len a.elem.wf b.elem.wf]
  cases c
  · exact Fp.ofMont_limbs a
  · exact Fp.ofMont_limbs b

theorem Fp.ctEq_spec {p : ℕ} [hp : Fact (OddModulus p)] : Decides (Fp.ctEq (p := p)) := fun a b => by
  rw [Fp.ctEq, ctEq_iff _ _ (by rw [a.elem.len, b.elem.len])]
  constructor
  · intro h
    rw [← Fp.ofMont_limbs a, h, Fp.ofMont_limbs]
  · rintro rfl
    rfl

section
variable {F : Type} {sel : F → F → Bool → F} {eq : F → F → Bool}

theorem Selects.quad (h : Selects sel) : Selects (Quad.select sel) := fun a b c => by
  rw [Quad.select, h, h]
  cases c <;> rfl

theorem Selects.cubic (h : Selects sel) : Selects (Ext.Cubic.select sel) := fun a b c => by
  rw [Ext.Cubic.select, h, h, h]
  cases c <;> rfl

theorem Selects.proj (h : Selects sel) : Selects (Curve.Proj.select sel) := fun a b c => by
  rw [Curve.Proj.select, h, h, h]
  cases c <;> rfl

theorem Selects.aff (h : Selects sel) : Selects (Curve.Aff.select sel) := fun a b c => by
  rw [Curve.Aff.select, h, h]
  cases c <;> rfl

theorem Decides.quad (h : Decides eq) : Decides (Quad.ctEqBy eq) := fun a b => by
  rw [Quad.ctEqBy, Bool.and_eq_true, h, h, Quad.ext_iff]

theorem Decides.cubic (h : Decides eq) : Decides (Ext.Cubic.ctEqBy eq) := fun a b => by
  rw [Ext.Cubic.ctEqBy, Bool.and_eq_true, Bool.and_eq_true, h, h, h, Ext.Cubic.ext_iff, and_assoc]

end

end Halo2
