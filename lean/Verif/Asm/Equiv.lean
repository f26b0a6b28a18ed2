import Verif.Asm.Correct
import Verif.Field.Lemmas

/-!
# The assembly functions agree with the portable ones
-/

namespace Halo2.Asm

open Halo2 Halo2.Field

/-- When the macro emits the assembly, derive/src/field/mod.rs:550. -/
def UsesAsm (p : ℕ) : Prop := numLimbs p = 4 ∧ numBits p < 256

theorem UsesAsm.lt {p : ℕ} (h : UsesAsm p) : 2 * p < W ^ 4 := by
  have h1 : p < 2 ^ 255 := by
    have : p < 2 ^ numBits p := Nat.lt_size_self p
    exact lt_of_lt_of_le this (Nat.pow_le_pow_right (by decide) (by have := h.2; omega))
  have h2 : W ^ 4 = 2 * 2 ^ 255 := by decide
  omega

theorem coprime_W {p : ℕ} (hp : OddModulus p) (n : ℕ) : Nat.gcd p (W ^ n) = 1 := by
  rw [W_pow]
  refine Nat.Coprime.pow_right _ ?_
  rw [Nat.coprime_two_right, Nat.odd_iff]
  exact hp.odd

theorem inv64_lt (p : ℕ) : inv64 p < W := Nat.mod_lt _ W_pos

variable {p : ℕ} {a b : List ℕ} (junk : State → ℕ) (s : State)

/-- The words of the modulus and of an element. -/
theorem words (h : UsesAsm p) (ha : IsElem p a) :
    ∃ a0 a1 a2 a3, a = [a0, a1, a2, a3] ∧ Canon (modulusLimbs p) [a0, a1, a2, a3] := by
  obtain ⟨a0, a1, a2, a3, e⟩ := exists4 (ha.len.trans h.1)
  exact ⟨a0, a1, a2, a3, e, e ▸ (isElem_iff p a).mp ha⟩

theorem len4 (x0 x1 x2 x3 y0 y1 y2 y3 : ℕ) : [x0, x1, x2, x3].length = [y0, y1, y2, y3].length := rfl

theorem canon_eq {x y : List ℕ} {m : List ℕ} (hx : Canon m x) (hy : Canon m y) (h : val x = val y) : x = y :=
  val_inj hx.wf hy.wf (by rw [hx.len, hy.len]) h

theorem canon_eq_mod (hp : OddModulus p) {x y : List ℕ} {n z : ℕ} (hx : Canon (modulusLimbs p) x) (hy : Canon (modulusLimbs p) y)
    (h1 : W ^ n * val x ≡ z [MOD val (modulusLimbs p)]) (h2 : W ^ n * val y ≡ z [MOD val (modulusLimbs p)]) : x = y := by
  refine canon_eq hx hy ?_
  have h3 := h1.trans h2.symm
  rw [val_modulusLimbs] at h3
  have h4 := Nat.ModEq.cancel_left_of_coprime (coprime_W hp n) h3
  have hx' := hx.lt
  have hy' := hy.lt
  rw [val_modulusLimbs] at hx' hy'
  rw [← Nat.mod_eq_of_lt hx', ← Nat.mod_eq_of_lt hy']
  exact h4

theorem modulus_words (h : UsesAsm p) : ∃ m0 m1 m2 m3, modulusLimbs p = [m0, m1, m2, m3] :=
  exists4 ((modulusLimbs_length p).trans h.1)

theorem add_fin {m a b r : List ℕ} {t : State} (hm : m.length = 4) (h : AddPost (val a + val b) (val m) t) (la : val a < val m)
    (lb : val b < val m) (c : Canon m r) (h' : val r = val a + val b ∨ val r + val m = val a + val b) : [t.r12, t.r13, t.r14, t.r15] = r := by
  obtain ⟨d1, d2, d3, d4, d5⟩ := h
  rw [← val4] at d5
  have l := c.lt
  refine canon_eq (m := m) ⟨hm.symm, wf4.mpr ⟨d1, d2, d3, d4⟩, ?_⟩ c ?_ <;> omega

theorem sub_fin {m a b r : List ℕ} {t : State} (hm : m.length = 4) (h : SubPost (val a) (val b) (val m) t) (la : val a < val m)
    (c : Canon m r) (h' : val r + val b = val a ∨ val r + val b = val a + val m) : [t.r12, t.r13, t.r14, t.r15] = r := by
  obtain ⟨d1, d2, d3, d4, d5⟩ := h
  rw [← val4] at d5
  have l := c.lt
  refine canon_eq (m := m) ⟨hm.symm, wf4.mpr ⟨d1, d2, d3, d4⟩, ?_⟩ c ?_ <;> omega

theorem neg_fin {m a r : List ℕ} {t : State} (hm : m.length = 4) (h : NegPost (val a) (val m) t) (la : val a < val m)
    (c : Canon m r) (h' : (val a = 0 ∧ val r = 0) ∨ (val a ≠ 0 ∧ val r + val a = val m)) : [t.r8, t.r9, t.r10, t.r11] = r := by
  obtain ⟨d1, d2, d3, d4, d5⟩ := h
  rw [← val4] at d5
  have l := c.lt
  refine canon_eq (m := m) ⟨hm.symm, wf4.mpr ⟨d1, d2, d3, d4⟩, ?_⟩ c ?_ <;> omega

theorem add_eq (h : UsesAsm p) (ha : IsElem p a) (hb : IsElem p b) :
    add junk s (modulusLimbs p) a b = Field.add p a b := by
  obtain ⟨a0, a1, a2, a3, rfl, ca⟩ := words h ha
  obtain ⟨b0, b1, b2, b3, rfl, cb⟩ := words h hb
  have hm := modulusLimbs_wf p
  have hM : 2 * val (modulusLimbs p) < W ^ 4 := by rw [val_modulusLimbs]; exact h.lt
  rw [Field.add]
  obtain ⟨m0, m1, m2, m3, e⟩ := modulus_words h
  rw [e] at ca cb hm hM ⊢
  have la := ca.lt
  have lb := cb.lt
  have c := fAdd_spec hm ca cb
  have hlt : val [a0, a1, a2, a3] + val [b0, b1, b2, b3] < W ^ 4 := by omega
  exact add_fin (m := [m0, m1, m2, m3]) (a := [a0, a1, a2, a3]) (b := [b0, b1, b2, b3]) rfl
    (add_post (junk := junk) hm ca.wf cb.wf hlt s) la lb c.1 c.2

theorem double_eq (h : UsesAsm p) (ha : IsElem p a) :
    double junk s (modulusLimbs p) a = Field.double p a := by
  obtain ⟨a0, a1, a2, a3, rfl, ca⟩ := words h ha
  have hm := modulusLimbs_wf p
  have hM : 2 * val (modulusLimbs p) < W ^ 4 := by rw [val_modulusLimbs]; exact h.lt
  rw [Field.double, fDouble]
  obtain ⟨m0, m1, m2, m3, e⟩ := modulus_words h
  rw [e] at ca hm hM ⊢
  have la := ca.lt
  have c := fAdd_spec hm ca ca
  have hlt : val [a0, a1, a2, a3] + val [a0, a1, a2, a3] < W ^ 4 := by omega
  exact add_fin (m := [m0, m1, m2, m3]) (a := [a0, a1, a2, a3]) (b := [a0, a1, a2, a3]) rfl
    (double_post (junk := junk) hm ca.wf hlt s) la la c.1 c.2

theorem sub_eq (h : UsesAsm p) (ha : IsElem p a) (hb : IsElem p b) :
    sub junk s (modulusLimbs p) a b = Field.sub p a b := by
  obtain ⟨a0, a1, a2, a3, rfl, ca⟩ := words h ha
  obtain ⟨b0, b1, b2, b3, rfl, cb⟩ := words h hb
  have hm := modulusLimbs_wf p
  have hM : 2 * val (modulusLimbs p) < W ^ 4 := by rw [val_modulusLimbs]; exact h.lt
  rw [Field.sub]
  obtain ⟨m0, m1, m2, m3, e⟩ := modulus_words h
  rw [e] at ca cb hm hM ⊢
  have la := ca.lt
  have lb := cb.lt
  have c := fSub_spec hm ca cb
  exact sub_fin (m := [m0, m1, m2, m3]) (a := [a0, a1, a2, a3]) (b := [b0, b1, b2, b3]) rfl
    (sub_post (junk := junk) hm ca.wf cb.wf lb.le s) la c.1 c.2

theorem neg_eq (h : UsesAsm p) (ha : IsElem p a) :
    neg junk s (modulusLimbs p) a = Field.neg p a := by
  obtain ⟨a0, a1, a2, a3, rfl, ca⟩ := words h ha
  have hm := modulusLimbs_wf p
  have hM : 2 * val (modulusLimbs p) < W ^ 4 := by rw [val_modulusLimbs]; exact h.lt
  rw [Field.neg]
  obtain ⟨m0, m1, m2, m3, e⟩ := modulus_words h
  rw [e] at ca hm hM ⊢
  have la := ca.lt
  have c := fNeg_spec hm ca
  exact neg_fin (m := [m0, m1, m2, m3]) (a := [a0, a1, a2, a3]) rfl (neg_post (junk := junk) hm ca.wf la.le s) la c.1 c.2

/-- The multiplication also takes a second factor that is not reduced. -/
theorem mul_eq_raw (hp : OddModulus p) (h : UsesAsm p) (ha : IsElem p a) (hl : b.length = numLimbs p) (hb : Wf b) :
    mul junk s (modulusLimbs p) (inv64 p) a b = Field.mul p a b := by
  obtain ⟨a0, a1, a2, a3, rfl, ca⟩ := words h ha
  obtain ⟨b0, b1, b2, b3, rfl⟩ := exists4 (hl.trans h.1)
  have hm := modulusLimbs_wf p
  have hi := inv64_isInv p hp.odd
  have hM : 2 * val (modulusLimbs p) < W ^ 4 := by rw [val_modulusLimbs]; exact h.lt
  rw [Field.mul]
  have hlt : val [a0, a1, a2, a3] * val [b0, b1, b2, b3] < W ^ (modulusLimbs p).length * val (modulusLimbs p) := by
    have hb4 := val_lt _ hb
    rw [modulusLimbs_length, h.1, mul_comm]
    exact Nat.mul_lt_mul'' hb4 ca.lt
  have h1 := fMul_spec hm hi (modulusLimbs_pos p) ca.wf ca.len hb (by rw [modulusLimbs_length]; exact hl) hlt
  rw [modulusLimbs_length, h.1] at h1
  have h2 : Canon (modulusLimbs p) (mul junk s (modulusLimbs p) (inv64 p) [a0, a1, a2, a3] [b0, b1, b2, b3]) ∧
      W ^ 4 * val (mul junk s (modulusLimbs p) (inv64 p) [a0, a1, a2, a3] [b0, b1, b2, b3]) ≡
        val [a0, a1, a2, a3] * val [b0, b1, b2, b3] [MOD val (modulusLimbs p)] := by
    obtain ⟨m0, m1, m2, m3, e⟩ := modulus_words h
    rw [e] at ca hm hi hM ⊢
    exact mul_spec hm hi hM ca hb s
  exact canon_eq_mod hp h2.1 h1.1 h2.2 h1.2

theorem mul_eq (hp : OddModulus p) (h : UsesAsm p) (ha : IsElem p a) (hb : IsElem p b) :
    mul junk s (modulusLimbs p) (inv64 p) a b = Field.mul p a b := mul_eq_raw junk s hp h ha hb.len hb.wf

theorem square_eq (hp : OddModulus p) (h : UsesAsm p) (ha : IsElem p a) :
    square junk s (modulusLimbs p) (inv64 p) a = Field.square p a := by
  rw [square, mul_eq junk s hp h ha ha, Field.mul, Field.square]
  have ca := (isElem_iff p a).mp ha
  have hm := modulusLimbs_wf p
  have hi := inv64_isInv p hp.odd
  obtain ⟨c1, c2⟩ := fSquare_spec hm hi (modulusLimbs_pos p) ca
  have hlt : val a * val a < W ^ (modulusLimbs p).length * val (modulusLimbs p) := by
    have hb4 := val_lt _ hm
    exact Nat.mul_lt_mul'' (ca.lt.trans hb4) ca.lt
  obtain ⟨d1, d2⟩ := fMul_spec hm hi (modulusLimbs_pos p) ca.wf ca.len ca.wf ca.len hlt
  exact canon_eq_mod hp d1 c1 d2 c2

/-- `from_mont` on arbitrary words: the assembly has no final subtraction, so nonzero multiples of `p` come out as `p`. -/
theorem fromMont_eq_raw (hp : OddModulus p) (h : UsesAsm p) (hl : a.length = numLimbs p) (ha : Wf a) :
    fromMont junk s (modulusLimbs p) (inv64 p) a = if 0 < val a ∧ p ∣ val a then modulusLimbs p else Field.fromMont p a := by
  obtain ⟨a0, a1, a2, a3, rfl⟩ := exists4 (hl.trans h.1)
  have hm := modulusLimbs_wf p
  have hi := inv64_isInv p hp.odd
  have hM : 2 * val (modulusLimbs p) < W ^ 4 := by rw [val_modulusLimbs]; exact h.lt
  have hp0 : 0 < p := by have := hp.gt; omega
  have h1 := Halo2.fromMont_spec hm hi (modulusLimbs_pos p) (by rw [val_modulusLimbs]; exact hp0) ha
    (by rw [modulusLimbs_length]; exact hl)
  rw [modulusLimbs_length, h.1] at h1
  have h2 : (fromMont junk s (modulusLimbs p) (inv64 p) [a0, a1, a2, a3]).length = 4 ∧
      Wf (fromMont junk s (modulusLimbs p) (inv64 p) [a0, a1, a2, a3]) ∧ ∃ k < W ^ 4,
      W ^ 4 * val (fromMont junk s (modulusLimbs p) (inv64 p) [a0, a1, a2, a3]) =
        val [a0, a1, a2, a3] + k * val (modulusLimbs p) := by
    have hii := inv64_lt p
    obtain ⟨m0, m1, m2, m3, e⟩ := modulus_words h
    rw [e] at hm hi hM ⊢
    exact fromMont_raw hm hi hii hM ha s
  obtain ⟨l1, l2, k, hk, e⟩ := h2
  rw [val_modulusLimbs] at e
  have hva := val_lt _ ha
  rw [hl, h.1] at hva
  have hkp : k * p + p ≤ W ^ 4 * p := by rw [← Nat.succ_mul]; exact Nat.mul_le_mul_right _ hk
  generalize hr : fromMont junk s (modulusLimbs p) (inv64 p) [a0, a1, a2, a3] = r at *
  generalize [a0, a1, a2, a3] = a at *
  have hle : val r ≤ p := by
    have h3 : W ^ 4 * val r < W ^ 4 * (p + 1) := by rw [e, mul_add]; omega
    have := Nat.lt_of_mul_lt_mul_left h3
    omega
  by_cases hd : 0 < val a ∧ p ∣ val a
  · rw [if_pos hd]
    have h4 : p ∣ W ^ 4 * val r := by rw [e]; exact dvd_add hd.2 (dvd_mul_left _ _)
    have h5 : p ∣ val r := Nat.Coprime.dvd_of_dvd_mul_left (coprime_W hp 4) h4
    have h6 : val r ≠ 0 := by
      intro h0
      rw [h0, mul_zero] at e
      omega
    have h7 : val r = p := le_antisymm hle (Nat.le_of_dvd (Nat.pos_of_ne_zero h6) h5)
    exact val_inj l2 hm (by rw [l1, modulusLimbs_length, h.1]) (by rw [h7, val_modulusLimbs])
  · rw [if_neg hd]
    have h6 : val r < p := by
      refine lt_of_le_of_ne hle fun h0 => hd ?_
      rw [h0] at e
      constructor
      · omega
      · have : p ∣ val a + k * p := by rw [← e]; exact dvd_mul_left _ _
        exact (Nat.dvd_add_left (dvd_mul_left _ _)).mp this
    refine canon_eq_mod hp (n := 4) (z := val a) ⟨by rw [l1, modulusLimbs_length, h.1], l2, by rw [val_modulusLimbs]; exact h6⟩ h1.1 ?_ h1.2
    rw [e, val_modulusLimbs]
    exact ((Nat.modEq_iff_dvd' (by omega)).mpr (by simp)).symm

theorem fromMont_eq (hp : OddModulus p) (h : UsesAsm p) (ha : IsElem p a) :
    fromMont junk s (modulusLimbs p) (inv64 p) a = Field.fromMont p a := by
  rw [fromMont_eq_raw junk s hp h ha.len ha.wf, if_neg]
  rintro ⟨h1, h2⟩
  have := Nat.le_of_dvd h1 h2
  have := ha.lt
  omega

end Halo2.Asm
