import Verif.Curve.SerdeSign
import Verif.Hash.Expand

/-!
# The integers written by the point encodings
-/

set_option linter.unusedSectionVars false

namespace Halo2

open Halo2.Field Halo2.Prime Halo2.Ext Halo2.Curve Halo2.Hash

/-! ## Integers of byte strings -/

theorem leNat_append' (l m : List ℕ) : leNat (l ++ m) = leNat l + 256 ^ l.length * leNat m := by
  induction l with
  | nil => simp [leNat]
  | cons a t ih => rw [List.cons_append, leNat, ih, leNat, List.length_cons, pow_succ]; ring

theorem leNat_set (l : List ℕ) (i d : ℕ) (hi : i < l.length) :
    leNat (l.set i (l.getD i 0 + d)) = leNat l + 256 ^ i * d := by
  induction l generalizing i with
  | nil => simp at hi
  | cons a t ih =>
    cases i with
    | zero => rw [List.getD_cons_zero, List.set_cons_zero, leNat, leNat]; ring
    | succ i =>
      rw [List.getD_cons_succ, List.set_cons_succ, leNat, ih i (by simpa using hi), leNat, pow_succ]; ring

theorem beNat_append (l m : List ℕ) : Endian.nat .BE (l ++ m) = 256 ^ m.length * Endian.nat .BE l + Endian.nat .BE m := by
  change leNat (l ++ m).reverse = 256 ^ m.length * leNat l.reverse + leNat m.reverse
  rw [List.reverse_append, leNat_append', List.length_reverse]; ring

theorem beNat_set (l : List ℕ) (d : ℕ) (hl : 0 < l.length) :
    Endian.nat .BE (l.set 0 (l.getD 0 0 + d)) = Endian.nat .BE l + 256 ^ (l.length - 1) * d := by
  cases l with
  | nil => simp at hl
  | cons a t =>
    rw [List.getD_cons_zero, List.set_cons_zero]
    rw [show (a + d) :: t = [a + d] ++ t from rfl, show a :: t = [a] ++ t from rfl, beNat_append, beNat_append]
    change 256 ^ t.length * leNat [a + d] + _ = 256 ^ t.length * leNat [a] + _ + _
    simp only [leNat, List.length_append, List.length_singleton, Nat.add_sub_cancel_left]
    ring

/-- What the flags add to the flag byte. -/
theorem setAll_eq (cfg : FlagConfig) : ∀ c < cfg.bound, ∀ i s : Bool,
    cfg.setAll i s c = c + (match cfg with
      | .threeSpare => 128 + 64 * i.toNat + 32 * s.toNat
      | _ => 128 * s.toNat + 64 * i.toNat) := by
  cases cfg <;> decide +kernel

namespace Curve.Codec

variable {F : Type} [_root_.Field F] [DecidableEq F] [BaseField F] [LawfulBase F] {K : Codec F} {C : Params F}

theorem isBytes_encode (hK : K.Lawful) (A : Aff F) :
    IsBytes ((K.base A.x).set K.idx (K.config.setAll A.isIdentity (K.sign A) ((K.base A.x).getD K.idx 0))) :=
  isBytes_set (base_isBytes hK _) _ _ (set_get K.config _ (base_flag hK _) _ _).1

theorem encode_le (hK : K.Lawful) (hc : K.config = .twoSpare) (he : K.endian = .LE) (A : Aff F)
    (hA : Aff.isOnCurve C A = true) :
    ∃ b, K.encode C A = .ok b ∧ b.length = K.size ∧ IsBytes b ∧
      leNat b = leNat (K.toBytes A.x) + 256 ^ (K.size - 1) * (128 * (K.sign A).toNat + 64 * A.isIdentity.toNat) := by
  have hs : K.compressedSize = K.size := by rw [compressedSize, hc]; rfl
  have hi : K.idx = K.size - 1 := by rw [idx, hc, he, hs]
  have hb : K.base A.x = K.toBytes A.x := by rw [base, hc]; rfl
  refine ⟨_, encode_eq hK A hA, ?_, isBytes_encode hK A, ?_⟩
  · rw [List.length_set, base_length hK, hs]
  · have := setAll_eq K.config _ (base_flag hK A.x) A.isIdentity (K.sign A)
    rw [this, leNat_set _ _ _ (by rw [base_length hK]; exact idx_lt hK), hi, hb, hc]

theorem encode_extra (hK : K.Lawful) (hc : K.config = .extra) (A : Aff F)
    (hA : Aff.isOnCurve C A = true) :
    K.encode C A = .ok ((128 * (K.sign A).toNat + 64 * A.isIdentity.toNat) :: K.toBytes A.x) := by
  have hi : K.idx = 0 := by rw [idx, hc]
  have hb : K.base A.x = 0 :: K.toBytes A.x := by rw [base, hc]; rfl
  have := setAll_eq K.config _ (base_flag hK A.x) A.isIdentity (K.sign A)
  rw [encode_eq hK A hA, this, hi, hb, hc, List.getD_cons_zero, List.set_cons_zero, Nat.zero_add]

theorem encode_be (hK : K.Lawful) (hc : K.config = .threeSpare) (he : K.endian = .BE) (A : Aff F)
    (hA : Aff.isOnCurve C A = true) :
    ∃ b, K.encode C A = .ok b ∧ b.length = K.size ∧ IsBytes b ∧
      Endian.nat .BE b = Endian.nat .BE (K.toBytes A.x) +
        256 ^ (K.size - 1) * (128 + 64 * A.isIdentity.toNat + 32 * (K.sign A).toNat) := by
  have hs : K.compressedSize = K.size := by rw [compressedSize, hc]; rfl
  have hi : K.idx = 0 := by rw [idx, hc, he]
  have hb : K.base A.x = K.toBytes A.x := by rw [base, hc]; rfl
  refine ⟨_, encode_eq hK A hA, ?_, isBytes_encode hK A, ?_⟩
  · rw [List.length_set, base_length hK, hs]
  · have := setAll_eq K.config _ (base_flag hK A.x) A.isIdentity (K.sign A)
    have hl := base_length hK A.x
    rw [this, hi, beNat_set _ _ (by rw [hl, hs]; exact hK.size_pos), hl, hs, hb, hc]

end Curve.Codec

/-! ## Big-endian strings are determined by their integer -/

theorem i2osp_len (x n : ℕ) : (i2osp x n).length = n := by
  induction n generalizing x with
  | zero => rfl
  | succ n ih => rw [i2osp, List.length_append, ih]; rfl

theorem i2osp_bytes (x n : ℕ) : IsBytes (i2osp x n) := by
  induction n generalizing x with
  | zero => intro a ha; cases ha
  | succ n ih =>
    rw [i2osp]
    refine (ih _).append ?_
    intro a ha
    rw [List.mem_singleton] at ha
    rw [ha]
    exact Nat.mod_lt _ (by norm_num)

theorem beNat_i2osp (x n : ℕ) (h : x < 256 ^ n) : Endian.nat .BE (i2osp x n) = x := by
  induction n generalizing x with
  | zero => rw [pow_zero] at h; rw [show x = 0 by omega]; rfl
  | succ n ih =>
    rw [i2osp, beNat_append, ih _ (by rw [pow_succ] at h; omega)]
    change 256 ^ 1 * (x / 256) + leNat [x % 256] = x
    simp only [leNat]
    omega

theorem leNat_inj' {a b : List ℕ} (hl : a.length = b.length) (ha : IsBytes a) (hb : IsBytes b) (h : leNat a = leNat b) : a = b := by
  induction a generalizing b with
  | nil => cases b with
    | nil => rfl
    | cons _ _ => simp at hl
  | cons x t ih =>
    cases b with
    | nil => simp at hl
    | cons y u =>
      have hx := ha x (by simp)
      have hy := hb y (by simp)
      rw [leNat, leNat] at h
      rw [ih (by simpa using hl) (fun z hz => ha z (by simp [hz])) (fun z hz => hb z (by simp [hz])) (by omega)]
      rw [show x = y by omega]

theorem beNat_inj {a b : List ℕ} (hl : a.length = b.length) (ha : IsBytes a) (hb : IsBytes b)
    (h : Endian.nat .BE a = Endian.nat .BE b) : a = b := by
  apply List.reverse_injective
  refine leNat_inj' (by simpa using hl) ?_ ?_ h
  · intro z hz; exact ha z (by simpa using hz)
  · intro z hz; exact hb z (by simpa using hz)

end Halo2
