import Verif.Field.SerdeData
import Verif.Field.FpBytes
import Verif.Curve.Model

/-!
# The `Debug` output of field elements and points

Text is a list of character codes. `write!(f, "{:02x}", b)` of a byte writes its two lower-case hexadecimal digits; the derived `Debug`
of a struct writes its name and its fields in braces (the form without `#`).
-/

namespace Halo2

open Halo2.Field Halo2.Ext Halo2.Curve

/-- The codes of the characters of a literal. -/
def text (s : String) : List ℕ := s.toList.map Char.toNat

/-- Models derive/src/field/mod.rs:219-228 (`fmt`). -/
def Fp.debug {p : ℕ} [Fact (OddModulus p)] (a : Fp p) : List ℕ := text "0x" ++ hexEncode (Fp.toRepr a).reverse

/-- Models the derive at src/ff_ext/quadratic.rs:171. -/
def Quad.debug {F : Type} (dbg : F → List ℕ) (a : Quad F) : List ℕ :=
  text "QuadExtField { c0: " ++ (dbg a.c0 ++ (text ", c1: " ++ (dbg a.c1 ++ text " }")))

/-- Models the derive at src/ff_ext/cubic.rs:3. -/
def Cubic.debug {F : Type} (dbg : F → List ℕ) (a : Halo2.Ext.Cubic F) : List ℕ :=
  text "CubicExtField { c0: " ++ (dbg a.c0 ++ (text ", c1: " ++ (dbg a.c1 ++ (text ", c2: " ++ (dbg a.c2 ++ text " }")))))

/-- Models src/derive/curve.rs:669-677 (`fmt` of affine points). -/
def Curve.Aff.debug {F : Type} [CommRing F] [DecidableEq F] [BaseField F] (dbg : F → List ℕ) (P : Aff F) : List ℕ :=
  if P.isIdentity then text "Infinity" else text "(" ++ (dbg P.x ++ (text ", " ++ (dbg P.y ++ text ")")))

/-- Models the derive at src/derive/curve.rs:250 for a type called `name`. -/
def Curve.Proj.debug {F : Type} (name : String) (dbg : F → List ℕ) (P : Proj F) : List ℕ :=
  text name ++ (text " { x: " ++ (dbg P.x ++ (text ", y: " ++ (dbg P.y ++ (text ", z: " ++ (dbg P.z ++ text " }"))))))

/-- Models the derive at src/derive/pairing.rs:128: a struct with one unnamed field. -/
def gtDebug {F : Type} (dbg : F → List ℕ) (a : F) : List ℕ := text "Gt(" ++ (dbg a ++ text ")")

/-- Models the derive of `Hash` at derive/src/field/mod.rs:216: the words given to the hasher. The contract of `core` for arrays is that of
slices: first the length, then the elements. -/
def Fp.hashWords {p : ℕ} [Fact (OddModulus p)] (a : Fp p) : List ℕ := a.limbs.length :: a.limbs

/-- The number that digits in base sixteen, most significant first, stand for. -/
def hexNat (s : List ℕ) : Option ℕ := s.foldl (fun acc c => acc.bind fun n => (hexVal c).map fun d => 16 * n + d) (some 0)

/-- Texts of one length, different for different elements. -/
structure Prints {F : Type} (dbg : F → List ℕ) (n : ℕ) : Prop where
  length : ∀ a, (dbg a).length = n
  inj : ∀ a b, dbg a = dbg b → a = b

theorem hexNat_append (s : List ℕ) (n : ℕ) (h : hexNat s = some n) (x : ℕ) (hx : x < 256) :
    hexNat (s ++ [hexDigit (x / 16), hexDigit (x % 16)]) = some (256 * n + x) := by
  rw [hexNat, List.foldl_append]
  have e : s.foldl (fun acc c => acc.bind fun n => (hexVal c).map fun d => 16 * n + d) (some 0) = some n := h
  rw [e, List.foldl_cons, List.foldl_cons, List.foldl_nil, Option.bind_some, hexVal_hexDigit _ (by omega), Option.map_some, Option.bind_some,
    hexVal_hexDigit _ (by omega), Option.map_some]
  congr 1
  omega

theorem hexEncode_append (a b : List ℕ) : hexEncode (a ++ b) = hexEncode a ++ hexEncode b := by
  rw [hexEncode, hexEncode, hexEncode, List.flatMap_append]

theorem hexNat_encode_reverse (b : List ℕ) (hb : IsBytes b) : hexNat (hexEncode b.reverse) = some (leNat b) := by
  induction b with
  | nil => rfl
  | cons x b ih =>
    rw [List.reverse_cons, hexEncode_append]
    have h1 : hexEncode [x] = [hexDigit (x / 16), hexDigit (x % 16)] := rfl
    rw [h1, hexNat_append _ _ (ih fun y hy => hb y (List.mem_cons_of_mem _ hy)) x (hb x List.mem_cons_self), leNat]
    congr 1
    omega

theorem Prints.quad {F : Type} {dbg : F → List ℕ} {n : ℕ} (h : Prints dbg n) : Prints (Quad.debug dbg) (19 + n + 6 + n + 2) where
  length a := by
    simp only [Quad.debug, List.length_append, h.length]
    rw [show (text "QuadExtField { c0: ").length = 19 by decide, show (text ", c1: ").length = 6 by decide, show (text " }").length = 2 by decide]
    omega
  inj a b e := by
    have e1 := List.append_cancel_left e
    obtain ⟨e2, e3⟩ := List.append_inj e1 (by rw [h.length, h.length])
    obtain ⟨e4, -⟩ := List.append_inj (List.append_cancel_left e3) (by rw [h.length, h.length])
    obtain ⟨a0, a1⟩ := a
    obtain ⟨b0, b1⟩ := b
    have h0 : a0 = b0 := h.inj _ _ e2
    have h1 : a1 = b1 := h.inj _ _ e4
    rw [h0, h1]

theorem Prints.cubic {F : Type} {dbg : F → List ℕ} {n : ℕ} (h : Prints dbg n) : Prints (Cubic.debug dbg) (20 + n + 6 + n + 6 + n + 2) where
  length a := by
    simp only [Cubic.debug, List.length_append, h.length]
    rw [show (text "CubicExtField { c0: ").length = 20 by decide, show (text ", c1: ").length = 6 by decide,
      show (text ", c2: ").length = 6 by decide, show (text " }").length = 2 by decide]
    omega
  inj a b e := by
    have e1 := List.append_cancel_left e
    obtain ⟨e2, e3⟩ := List.append_inj e1 (by rw [h.length, h.length])
    obtain ⟨e4, e5⟩ := List.append_inj (List.append_cancel_left e3) (by rw [h.length, h.length])
    obtain ⟨e6, -⟩ := List.append_inj (List.append_cancel_left e5) (by rw [h.length, h.length])
    obtain ⟨a0, a1, a2⟩ := a
    obtain ⟨b0, b1, b2⟩ := b
    have h0 : a0 = b0 := h.inj _ _ e2
    have h1 : a1 = b1 := h.inj _ _ e4
    have h2 : a2 = b2 := h.inj _ _ e6
    rw [h0, h1, h2]

end Halo2
