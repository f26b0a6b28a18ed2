import Verif.Limb.Lemmas
import Verif.Field.Model
import Verif.Field.Spec
import Mathlib.Data.ZMod.Units
import Mathlib.Tactic.FieldSimp

/-!
# Lemmas on the generated field code
-/

namespace Halo2.Field

open Halo2

/-! ### limbs of big integers -/

theorem bigToLimbs_succ (e n : ℕ) :
    bigToLimbs e (n + 1) = e % W :: bigToLimbs (e / W) n := by
  unfold bigToLimbs
  rw [List.range_succ_eq_map, List.map_cons, List.map_map]
  congr 1
  · simp
  · apply List.map_congr_left
    intro i _
    simp only [Function.comp, Nat.succ_eq_add_one]
    rw [Nat.div_div_eq_div_mul]
    rw [show 2 ^ (64 * (i + 1)) = W * 2 ^ (64 * i) by
      rw [show W = 2 ^ 64 from rfl, ← pow_add]; congr 1; omega]

theorem bigToLimbs_length (e n : ℕ) : (bigToLimbs e n).length = n := by simp [bigToLimbs]

theorem bigToLimbs_wf (e n : ℕ) : Wf (bigToLimbs e n) := by
  intro x hx
  simp only [bigToLimbs, List.mem_map] at hx
  obtain ⟨i, _, rfl⟩ := hx
  exact Nat.mod_lt _ (by decide)

theorem val_bigToLimbs (e n : ℕ) (h : e < W ^ n) : val (bigToLimbs e n) = e := by
  induction n generalizing e with
  | zero =>
    have : e = 0 := by simpa using h
    simp [bigToLimbs, this]
  | succ n ih =>
    rw [bigToLimbs_succ, val_cons, ih, Nat.mod_add_div]
    rw [pow_succ] at h
    exact Nat.div_lt_of_lt_mul (by rw [mul_comm]; exact h)

theorem W_pow (n : ℕ) : W ^ n = 2 ^ (64 * n) := by unfold W; rw [pow_mul]

theorem modulus_lt (p : ℕ) : p < W ^ numLimbs p := by
  rw [W_pow]
  refine lt_of_lt_of_le (Nat.lt_size_self p) ?_
  apply Nat.pow_le_pow_right (by decide)
  unfold numLimbs numBits
  omega

theorem numLimbs_pos (p : ℕ) : 0 < numLimbs p := by unfold numLimbs; omega

theorem modulusLimbs_length (p : ℕ) : (modulusLimbs p).length = numLimbs p := bigToLimbs_length _ _
theorem modulusLimbs_wf (p : ℕ) : Wf (modulusLimbs p) := bigToLimbs_wf _ _
theorem val_modulusLimbs (p : ℕ) : val (modulusLimbs p) = p := val_bigToLimbs _ _ (modulus_lt p)
theorem modulusLimbs_pos (p : ℕ) : 0 < (modulusLimbs p).length := by
  rw [modulusLimbs_length]; exact numLimbs_pos p

theorem modulusLimbs_head (p : ℕ) : (modulusLimbs p).headD 0 = p % W := by
  unfold modulusLimbs
  obtain ⟨n, hn⟩ : ∃ n, numLimbs p = n + 1 := ⟨numLimbs p - 1, by have := numLimbs_pos p; omega⟩
  rw [hn, bigToLimbs_succ]
  rfl

/-! ### the `inv64` loop -/

theorem odd_pow_two_pow (m : ℕ) (hm : m % 2 = 1) (k : ℕ) : m ^ 2 ^ k ≡ 1 [MOD 2 ^ (k + 1)] := by
  induction k with
  | zero => simpa [Nat.ModEq] using hm
  | succ k ih =>
    have h1 : m ^ 2 ^ (k + 1) = m ^ 2 ^ k * m ^ 2 ^ k := by rw [pow_succ, ← pow_add]; congr 1; ring
    rw [h1]
    have hpos : 1 ≤ m ^ 2 ^ k := Nat.one_le_pow _ _ (by omega)
    obtain ⟨c, hc⟩ := (Nat.modEq_iff_dvd' hpos).mp ih.symm
    have e : m ^ 2 ^ k = 2 ^ (k + 1) * c + 1 := by omega
    rw [e]
    refine ((Nat.modEq_iff_dvd' ?_).mpr ?_).symm
    · exact Nat.mul_pos (Nat.succ_pos _) (Nat.succ_pos _)
    · refine ⟨2 ^ k * c * c + c, ?_⟩
      rw [Nat.sub_eq_iff_eq_add (Nat.mul_pos (Nat.succ_pos _) (Nat.succ_pos _)), Nat.succ_eq_add_one]
      ring

theorem inv64Loop_spec (m0 i x e : ℕ) (h : x ≡ m0 ^ e [MOD W]) :
    inv64Loop m0 i x ≡ m0 ^ (2 ^ i * (e + 1) - 1) [MOD W] := by
  induction i generalizing x e with
  | zero => simpa [inv64Loop] using h
  | succ i ih =>
    rw [inv64Loop]
    have hx : x * x % W * m0 % W ≡ m0 ^ (2 * e + 1) [MOD W] := by
      have h1 : x * x % W * m0 % W ≡ x * x * m0 [MOD W] :=
        (Nat.mod_modEq _ _).trans ((Nat.mod_modEq _ _).mul_right _)
      have h2 : x * x * m0 ≡ m0 ^ e * m0 ^ e * m0 [MOD W] := (h.mul h).mul_right _
      have h3 : m0 ^ e * m0 ^ e * m0 = m0 ^ (2 * e + 1) := by ring
      rw [← h3]; exact h1.trans h2
    have := ih _ _ hx
    have e2 : 2 ^ i * (2 * e + 1 + 1) - 1 = 2 ^ (i + 1) * (e + 1) - 1 := by
      congr 1; ring
    rwa [e2] at this

theorem inv64Loop_lt (m0 i x : ℕ) (h : x < W) : inv64Loop m0 i x < W := by
  induction i generalizing x with
  | zero => exact h
  | succ i ih => exact ih _ (Nat.mod_lt _ (by decide))

theorem inv64_isInv (p : ℕ) (hp : p % 2 = 1) : IsInv (modulusLimbs p) (inv64 p) := by
  unfold IsInv inv64
  rw [val_modulusLimbs, modulusLimbs_head]
  have hm : (p % W) % 2 = 1 := by unfold W; omega
  have h := inv64Loop_spec (p % W) 63 1 0 (by rw [pow_zero])
  have h1 := odd_pow_two_pow (p % W) hm 63
  have hW : (2:ℕ) ^ (63 + 1) = W := rfl
  rw [hW] at h1
  have hlt := inv64Loop_lt (p % W) 63 1 (by decide)
  generalize inv64Loop (p % W) 63 1 = x at *
  have h2 : x * p ≡ 1 [MOD W] := by
    have a1 : x * p ≡ x * (p % W) [MOD W] := (Nat.mod_modEq p W).symm.mul_left _
    have a2 : x * (p % W) ≡ (p % W) ^ (2 ^ 63 * (0 + 1) - 1) * (p % W) [MOD W] := h.mul_right _
    have a3 : (p % W) ^ (2 ^ 63 * (0 + 1) - 1) * (p % W) = (p % W) ^ 2 ^ 63 := by
      rw [← pow_succ, show 2 ^ 63 * (0 + 1) - 1 + 1 = 2 ^ 63 by norm_num]
    rw [a3] at a2
    exact (a1.trans a2).trans h1
  have b1 : (W - x) % W * p + 1 ≡ (W - x) * p + x * p [MOD W] :=
    ((Nat.mod_modEq _ _).mul_right p).add h2.symm
  have b2 : (W - x) * p + x * p = W * p := by rw [← Nat.add_mul]; congr 1; omega
  rw [b2] at b1
  have := b1.trans (show W * p ≡ 0 [MOD W] by simp [Nat.ModEq])
  simpa [Nat.ModEq] using this


/-! ### elements -/

theorem isElem_iff (p : ℕ) (a : List ℕ) : IsElem p a ↔ Canon (modulusLimbs p) a := by
  constructor
  · rintro ⟨h1, h2, h3⟩
    exact ⟨by rw [modulusLimbs_length, h1], h2, by rw [val_modulusLimbs]; exact h3⟩
  · rintro ⟨h1, h2, h3⟩
    exact ⟨by rw [h1, modulusLimbs_length], h2, by rw [← val_modulusLimbs p]; exact h3⟩

theorem isElem_bigToLimbs (p x : ℕ) (h : x < p) : IsElem p (bigToLimbs x (numLimbs p)) ∧
    val (bigToLimbs x (numLimbs p)) = x := by
  have hv : val (bigToLimbs x (numLimbs p)) = x :=
    val_bigToLimbs _ _ (lt_trans h (modulus_lt p))
  exact ⟨⟨bigToLimbs_length _ _, bigToLimbs_wf _ _, by rw [hv]; exact h⟩, hv⟩

theorem IsElem.ext {p : ℕ} {a b : List ℕ} (ha : IsElem p a) (hb : IsElem p b)
    (h : val a = val b) : a = b :=
  val_inj ha.wf hb.wf (by rw [ha.len, hb.len]) h

theorem two_pow_unit {p : ℕ} (hp : OddModulus p) (k : ℕ) : IsUnit ((2 : ZMod p) ^ k) := by
  apply IsUnit.pow
  have : ((2 : ℕ) : ZMod p) = 2 := by norm_num
  rw [← this, ZMod.isUnit_iff_coprime]
  have := hp.odd
  rw [Nat.coprime_comm, Nat.coprime_two_right, Nat.odd_iff]
  exact this

theorem Rep.unique {p : ℕ} {a b : List ℕ} {x : ZMod p} (ha : Rep p a x) (hb : Rep p b x) :
    a = b := by
  apply ha.elem.ext hb.elem
  have h : (val a : ZMod p) = (val b : ZMod p) := by rw [ha.eq, hb.eq]
  rw [ZMod.natCast_eq_natCast_iff] at h
  have := Nat.ModEq.eq_of_lt_of_lt h ha.elem.lt hb.elem.lt
  exact this

theorem Rep.functional {p : ℕ} (hp : OddModulus p) {a : List ℕ} {x y : ZMod p} (ha : Rep p a x)
    (hb : Rep p a y) : x = y := by
  have h : x * 2 ^ (64 * numLimbs p) = y * 2 ^ (64 * numLimbs p) := by rw [← ha.eq, hb.eq]
  exact (two_pow_unit hp _).mul_right_cancel h

theorem Rep.exists_of_elem {p : ℕ} (hp : OddModulus p) {a : List ℕ} (ha : IsElem p a) :
    ∃ x : ZMod p, Rep p a x := by
  obtain ⟨u, hu⟩ := two_pow_unit hp (64 * numLimbs p)
  refine ⟨(val a : ZMod p) * (↑u⁻¹ : ZMod p), ha, ?_⟩
  rw [← hu, mul_assoc, Units.inv_mul, mul_one]

theorem Rep.exists_elem {p : ℕ} (hp : OddModulus p) (x : ZMod p) : ∃ a, Rep p a x := by
  have : NeZero p := ⟨by have := hp.gt; omega⟩
  set y := x * 2 ^ (64 * numLimbs p) with hy
  obtain ⟨h1, h2⟩ := isElem_bigToLimbs p y.val (ZMod.val_lt y)
  exact ⟨_, h1, by rw [h2, ZMod.natCast_zmod_val]⟩

theorem cast_W_pow (p : ℕ) : ((W ^ numLimbs p : ℕ) : ZMod p) = 2 ^ (64 * numLimbs p) := by
  rw [W_pow]; push_cast; rfl

theorem rep_zero {p : ℕ} (hp : OddModulus p) : Rep p (zero p) 0 := by
  refine ⟨⟨by simp [zero], Wf_replicate _, ?_⟩, ?_⟩
  · rw [zero, val_replicate]; have := hp.gt; omega
  · rw [zero, val_replicate]; simp

theorem r1Big_lt {p : ℕ} (hp : OddModulus p) : r1Big p < p := Nat.mod_lt _ (by have := hp.gt; omega)

theorem cast_r1Big (p : ℕ) : (r1Big p : ZMod p) = 2 ^ (64 * numLimbs p) := by
  unfold r1Big
  rw [ZMod.natCast_mod]
  push_cast
  rw [mul_comm]

theorem rep_one {p : ℕ} (hp : OddModulus p) : Rep p (one p) 1 := by
  obtain ⟨h1, h2⟩ := isElem_bigToLimbs p (r1Big p) (r1Big_lt hp)
  exact ⟨h1, by rw [one, R, h2, cast_r1Big, one_mul]⟩

theorem rep_R2 {p : ℕ} (hp : OddModulus p) : Rep p (R2 p) (2 ^ (64 * numLimbs p)) := by
  obtain ⟨h1, h2⟩ := isElem_bigToLimbs p (r1Big p * r1Big p % p)
    (Nat.mod_lt _ (by have := hp.gt; omega))
  exact ⟨h1, by rw [R2, h2, ZMod.natCast_mod]; push_cast; rw [cast_r1Big]⟩

theorem rep_R3 {p : ℕ} (hp : OddModulus p) :
    Rep p (R3 p) (2 ^ (64 * numLimbs p) * 2 ^ (64 * numLimbs p)) := by
  obtain ⟨h1, h2⟩ := isElem_bigToLimbs p (r1Big p * r1Big p * r1Big p % p)
    (Nat.mod_lt _ (by have := hp.gt; omega))
  exact ⟨h1, by rw [R3, h2, ZMod.natCast_mod]; push_cast; rw [cast_r1Big]⟩

theorem add_val {p : ℕ} {a b : List ℕ} (ha : IsElem p a) (hb : IsElem p b) :
    IsElem p (add p a b) ∧ val (add p a b) = (val a + val b) % p := by
  rw [isElem_iff] at ha hb
  obtain ⟨h1, h2⟩ := fAdd_spec (modulusLimbs_wf p) ha hb
  rw [val_modulusLimbs] at h2
  have hlt := h1.lt
  rw [val_modulusLimbs] at hlt
  refine ⟨(isElem_iff p _).mpr h1, ?_⟩
  unfold add
  rcases h2 with h | h
  · rw [← h, Nat.mod_eq_of_lt hlt]
  · rw [← h, Nat.add_mod_right, Nat.mod_eq_of_lt hlt]

theorem sub_val {p : ℕ} {a b : List ℕ} (ha : IsElem p a) (hb : IsElem p b) :
    IsElem p (sub p a b) ∧ val (sub p a b) = (val a + (p - val b)) % p := by
  rw [isElem_iff] at ha hb
  obtain ⟨h1, h2⟩ := fSub_spec (modulusLimbs_wf p) ha hb
  rw [val_modulusLimbs] at h2
  have hlt := h1.lt
  have hblt := hb.lt
  rw [val_modulusLimbs] at hlt hblt
  refine ⟨(isElem_iff p _).mpr h1, ?_⟩
  unfold sub
  rcases h2 with h | h
  · have : val a + (p - val b) = val (fSub (modulusLimbs p) a b) + p := by omega
    rw [this, Nat.add_mod_right, Nat.mod_eq_of_lt hlt]
  · have : val a + (p - val b) = val (fSub (modulusLimbs p) a b) := by omega
    rw [this, Nat.mod_eq_of_lt hlt]

theorem neg_val {p : ℕ} {a : List ℕ} (ha : IsElem p a) :
    IsElem p (neg p a) ∧ val (neg p a) = (p - val a) % p := by
  rw [isElem_iff] at ha
  obtain ⟨h1, h2⟩ := fNeg_spec (modulusLimbs_wf p) ha
  rw [val_modulusLimbs] at h2
  have hlt := h1.lt
  rw [val_modulusLimbs] at hlt
  refine ⟨(isElem_iff p _).mpr h1, ?_⟩
  unfold neg
  rcases h2 with ⟨h, h'⟩ | ⟨_, h⟩
  · rw [h, h', Nat.sub_zero, Nat.mod_self]
  · have : p - val a = val (fNeg (modulusLimbs p) a) := by omega
    rw [this, Nat.mod_eq_of_lt hlt]

theorem rep_add {p : ℕ} {a b : List ℕ} {x y : ZMod p} (ha : Rep p a x) (hb : Rep p b y) :
    Rep p (add p a b) (x + y) := by
  obtain ⟨h1, h2⟩ := add_val ha.elem hb.elem
  exact ⟨h1, by rw [h2, ZMod.natCast_mod]; push_cast; rw [ha.eq, hb.eq]; ring⟩

theorem rep_double {p : ℕ} {a : List ℕ} {x : ZMod p} (ha : Rep p a x) :
    Rep p (double p a) (2 * x) := by
  have := rep_add ha ha
  rw [← two_mul] at this
  exact this

theorem rep_sub {p : ℕ} {a b : List ℕ} {x y : ZMod p} (ha : Rep p a x) (hb : Rep p b y) :
    Rep p (sub p a b) (x - y) := by
  obtain ⟨h1, h2⟩ := sub_val ha.elem hb.elem
  refine ⟨h1, ?_⟩
  rw [h2, ZMod.natCast_mod]
  push_cast [Nat.cast_sub hb.elem.lt.le]
  rw [ha.eq, hb.eq, ZMod.natCast_self]; ring

theorem rep_neg {p : ℕ} {a : List ℕ} {x : ZMod p} (ha : Rep p a x) :
    Rep p (neg p a) (-x) := by
  obtain ⟨h1, h2⟩ := neg_val ha.elem
  refine ⟨h1, ?_⟩
  rw [h2, ZMod.natCast_mod]
  push_cast [Nat.cast_sub ha.elem.lt.le]
  rw [ha.eq, ZMod.natCast_self]; ring

/-- Montgomery product where the first factor is any word vector. -/
theorem mul_raw {p : ℕ} (hp : OddModulus p) {a b : List ℕ} {y : ZMod p} (hla : a.length = numLimbs p)
    (ha : Wf a) (hb : Rep p b y) :
    IsElem p (mul p a b) ∧ (val (mul p a b) : ZMod p) = (val a : ZMod p) * y := by
  have hbe := hb.elem
  rw [isElem_iff] at hbe
  have hva := val_lt a ha
  rw [hla, ← modulusLimbs_length] at hva
  obtain ⟨h1, h2⟩ := fMul_spec (modulusLimbs_wf p) (inv64_isInv p hp.odd) (modulusLimbs_pos p) ha
    (by rw [hla, modulusLimbs_length]) hbe.wf hbe.len (Nat.mul_lt_mul'' hva hbe.lt)
  refine ⟨(isElem_iff p _).mpr h1, ?_⟩
  rw [val_modulusLimbs, modulusLimbs_length, ← ZMod.natCast_eq_natCast_iff] at h2
  push_cast at h2
  rw [hb.eq] at h2
  have hW := cast_W_pow p
  push_cast at hW
  rw [hW] at h2
  apply (two_pow_unit hp (64 * numLimbs p)).mul_left_cancel
  unfold mul
  rw [h2]; ring

theorem rep_mul {p : ℕ} (hp : OddModulus p) {a b : List ℕ} {x y : ZMod p} (ha : Rep p a x)
    (hb : Rep p b y) : Rep p (mul p a b) (x * y) := by
  obtain ⟨h1, h2⟩ := mul_raw hp ha.elem.len ha.elem.wf hb
  exact ⟨h1, by rw [h2, ha.eq]; ring⟩

theorem mul_raw' {p : ℕ} (hp : OddModulus p) {a b : List ℕ} {y : ZMod p}
    (hla : a.length = numLimbs p) (ha : Wf a) (hb : Rep p b y) :
    IsElem p (mul p b a) ∧ (val (mul p b a) : ZMod p) = (val a : ZMod p) * y := by
  have hbe := hb.elem
  rw [isElem_iff] at hbe
  have hva := val_lt a ha
  rw [hla, ← modulusLimbs_length] at hva
  obtain ⟨h1, h2⟩ := fMul_spec (modulusLimbs_wf p) (inv64_isInv p hp.odd) (modulusLimbs_pos p)
    hbe.wf hbe.len ha (by rw [hla, modulusLimbs_length])
    (by rw [mul_comm]; exact Nat.mul_lt_mul'' hva hbe.lt)
  refine ⟨(isElem_iff p _).mpr h1, ?_⟩
  rw [val_modulusLimbs, modulusLimbs_length, ← ZMod.natCast_eq_natCast_iff] at h2
  push_cast at h2
  rw [hb.eq] at h2
  have hW := cast_W_pow p
  push_cast at hW
  rw [hW] at h2
  apply (two_pow_unit hp (64 * numLimbs p)).mul_left_cancel
  unfold mul
  rw [h2]; ring

theorem rep_square {p : ℕ} (hp : OddModulus p) {a : List ℕ} {x : ZMod p} (ha : Rep p a x) :
    Rep p (square p a) (x * x) := by
  have hae := ha.elem
  rw [isElem_iff] at hae
  obtain ⟨h1, h2⟩ := fSquare_spec (modulusLimbs_wf p) (inv64_isInv p hp.odd) (modulusLimbs_pos p) hae
  refine ⟨(isElem_iff p _).mpr h1, ?_⟩
  rw [val_modulusLimbs, modulusLimbs_length, ← ZMod.natCast_eq_natCast_iff] at h2
  push_cast at h2
  rw [ha.eq] at h2
  have hW := cast_W_pow p
  push_cast at hW
  rw [hW] at h2
  apply (two_pow_unit hp (64 * numLimbs p)).mul_left_cancel
  unfold square
  rw [h2]; ring

theorem rep_fromRaw {p : ℕ} (hp : OddModulus p) {v : List ℕ} (hl : v.length = numLimbs p)
    (hv : Wf v) : Rep p (fromRaw p v) (val v : ZMod p) := by
  obtain ⟨h1, h2⟩ := mul_raw hp hl hv (rep_R2 hp)
  exact ⟨h1, h2⟩

theorem fromMont_rep {p : ℕ} (hp : OddModulus p) {a : List ℕ} {x : ZMod p} (ha : Rep p a x) :
    IsElem p (fromMont p a) ∧ val (fromMont p a) = x.val := by
  have : NeZero p := ⟨by have := hp.gt; omega⟩
  obtain ⟨h1, h2⟩ := fromMont_spec (modulusLimbs_wf p) (inv64_isInv p hp.odd) (modulusLimbs_pos p)
    (by rw [val_modulusLimbs]; have := hp.gt; omega) ha.elem.wf
    (by rw [ha.elem.len, modulusLimbs_length])
  have h1' := (isElem_iff p _).mpr h1
  refine ⟨h1', ?_⟩
  rw [val_modulusLimbs, modulusLimbs_length, ← ZMod.natCast_eq_natCast_iff] at h2
  push_cast at h2
  have hW := cast_W_pow p
  push_cast at hW
  rw [hW, ha.eq, mul_comm x] at h2
  have h3 := (two_pow_unit hp (64 * numLimbs p)).mul_left_cancel h2
  have h4 := congrArg ZMod.val h3
  rw [ZMod.val_natCast, Nat.mod_eq_of_lt h1'.lt] at h4
  exact h4

end Halo2.Field
