import Verif.Limb.Model
import Mathlib.Tactic.Ring
import Mathlib.Tactic.Linarith
import Mathlib.Tactic.LinearCombination
import Mathlib.Data.Nat.ModEq
import Mathlib.Data.ZMod.Basic

/-!
# Lemmas on the limb layer: every chain computes what it should on integers
-/

namespace Halo2

/-- The integer denoted by a little-endian limb list. -/
def val : List ℕ → ℕ
  | [] => 0
  | x :: xs => x + W * val xs

/-- Every limb is a `u64`. -/
def Wf (l : List ℕ) : Prop := ∀ x ∈ l, x < W

@[simp] theorem val_nil : val [] = 0 := rfl
@[simp] theorem val_cons (x : ℕ) (xs : List ℕ) : val (x :: xs) = x + W * val xs := rfl

@[simp] theorem Wf_nil : Wf [] := by simp [Wf]
@[simp] theorem Wf_cons (x : ℕ) (xs : List ℕ) : Wf (x :: xs) ↔ x < W ∧ Wf xs := by
  simp [Wf]
@[simp] theorem Wf_append (xs ys : List ℕ) : Wf (xs ++ ys) ↔ Wf xs ∧ Wf ys := by
  simp only [Wf, List.mem_append]
  constructor
  · intro h; exact ⟨fun x hx => h x (Or.inl hx), fun x hx => h x (Or.inr hx)⟩
  · rintro ⟨h1, h2⟩ x (hx | hx)
    · exact h1 x hx
    · exact h2 x hx

theorem Wf.take {l : List ℕ} (h : Wf l) (n : ℕ) : Wf (l.take n) :=
  fun x hx => h x (List.mem_of_mem_take hx)
theorem Wf.drop {l : List ℕ} (h : Wf l) (n : ℕ) : Wf (l.drop n) :=
  fun x hx => h x (List.mem_of_mem_drop hx)
theorem Wf_replicate (n : ℕ) : Wf (List.replicate n 0) := by
  intro x hx; rw [List.mem_replicate] at hx; rw [hx.2]; decide

theorem val_append (xs ys : List ℕ) : val (xs ++ ys) = val xs + W ^ xs.length * val ys := by
  induction xs with
  | nil => simp
  | cons x xs ih => simp only [List.cons_append, val_cons, ih, List.length_cons, pow_succ]; ring

@[simp] theorem val_replicate (n : ℕ) : val (List.replicate n 0) = 0 := by
  induction n with
  | zero => rfl
  | succ n ih => simp [List.replicate_succ, ih]

theorem val_lt (l : List ℕ) (h : Wf l) : val l < W ^ l.length := by
  induction l with
  | nil => simp
  | cons x xs ih =>
    rw [Wf_cons] at h
    have := ih h.2
    simp only [val_cons, List.length_cons, pow_succ]
    have h1 : W * (val xs + 1) ≤ W * W ^ xs.length := Nat.mul_le_mul_left W this
    have : x < W := h.1
    calc x + W * val xs < W + W * val xs := by omega
      _ = W * (val xs + 1) := by ring
      _ ≤ W * W ^ xs.length := h1
      _ = W ^ xs.length * W := by ring

theorem val_inj {a b : List ℕ} (ha : Wf a) (hb : Wf b) (hl : a.length = b.length)
    (h : val a = val b) : a = b := by
  induction a generalizing b with
  | nil => cases b with
    | nil => rfl
    | cons => simp at hl
  | cons x xs ih =>
    cases b with
    | nil => simp at hl
    | cons y ys =>
      rw [Wf_cons] at ha hb
      simp only [val_cons] at h
      have hx : x = y := by
        have := congrArg (· % W) h
        simpa [Nat.add_mul_mod_self_left, Nat.mod_eq_of_lt ha.1, Nat.mod_eq_of_lt hb.1] using this
      subst hx
      have : val xs = val ys := by
        have hW : 0 < W := by decide
        have : W * val xs = W * val ys := by omega
        exact Nat.eq_of_mul_eq_mul_left hW this
      rw [ih ha.2 hb.2 (by simpa using hl) this]

/-! ### single word operations -/

theorem adc_eq {a b c : ℕ} (ha : a < W) (hb : b < W) (hc : c < W) :
    adc a b c = ((a + b + c) % W, (a + b + c) / W) := by
  unfold adc
  simp only [W, W2] at *
  have h : (a + b + c) % 2 ^ 128 = a + b + c := by omega
  rw [h]
  have : (a + b + c) / 2 ^ 64 % 2 ^ 64 = (a + b + c) / 2 ^ 64 := by omega
  rw [this]

theorem mac_lt {a b c d : ℕ} (ha : a < W) (hb : b < W) (hc : c < W) (hd : d < W) :
    a + b * c + d < W2 := by
  have h1 : b * c ≤ (W - 1) * (W - 1) := Nat.mul_le_mul (by omega) (by omega)
  simp only [W, W2] at *
  omega

theorem mac_eq {a b c d : ℕ} (ha : a < W) (hb : b < W) (hc : c < W) (hd : d < W) :
    mac a b c d = ((a + b * c + d) % W, (a + b * c + d) / W) := by
  have h := mac_lt ha hb hc hd
  simp only [mac, W, W2] at *
  generalize a + b * c + d = t at *
  have h2 : t % 2 ^ 128 = t := Nat.mod_eq_of_lt h
  have h3 : t / 2 ^ 64 % 2 ^ 64 = t / 2 ^ 64 := by omega
  rw [h2, h3]

theorem macx_eq_mac (a b c : ℕ) : macx a b c = mac a b c 0 := by
  simp only [macx, mac, add_zero]

/-- A borrow as the code keeps it: `0` or all ones. -/
def IsBorrow (b : ℕ) : Prop := b = 0 ∨ b = W - 1

/-- The numerical borrow. -/
def bw (b : ℕ) : ℕ := b / 2 ^ 63

@[simp] theorem bw_zero : bw 0 = 0 := by decide
@[simp] theorem bw_ones : bw (W - 1) = 1 := by decide

theorem IsBorrow.zero : IsBorrow 0 := Or.inl rfl

theorem sbb_spec {a b c : ℕ} (ha : a < W) (hb : b < W) (hc : IsBorrow c) :
    (sbb a b c).1 < W ∧ IsBorrow (sbb a b c).2 ∧
      (sbb a b c).1 + b + bw c = a + W * bw (sbb a b c).2 := by
  have hbw : c / 2 ^ 63 = 0 ∨ c / 2 ^ 63 = 1 := by
    rcases hc with rfl | rfl
    · left; decide
    · right; decide
  unfold sbb IsBorrow bw
  simp only [W, W2] at *
  generalize c / 2 ^ 63 = e at hbw
  omega

/-! ### chains -/

theorem sbbChain_cons (x y c : ℕ) (xs ys : List ℕ) :
    sbbChain (x :: xs) (y :: ys) c
      = ((sbb x y c).1 :: (sbbChain xs ys (sbb x y c).2).1, (sbbChain xs ys (sbb x y c).2).2) := rfl

theorem adcChain_spec (a b : List ℕ) (c : ℕ) (hl : a.length = b.length) (ha : Wf a) (hb : Wf b)
    (hc : c ≤ 1) :
    (adcChain a b c).1.length = a.length ∧ Wf (adcChain a b c).1 ∧ (adcChain a b c).2 ≤ 1 ∧
      val (adcChain a b c).1 + W ^ a.length * (adcChain a b c).2 = val a + val b + c := by
  induction a generalizing b c with
  | nil =>
    cases b with
    | nil => simp [adcChain, hc]
    | cons => simp at hl
  | cons x xs ih =>
    cases b with
    | nil => simp at hl
    | cons y ys =>
      rw [Wf_cons] at ha hb
      have hcW : c < W := lt_of_le_of_lt hc (by decide)
      have hadc := adc_eq ha.1 hb.1 hcW
      have hle : (x + y + c) / W ≤ 1 := by
        have := ha.1; have := hb.1; simp only [W] at *; omega
      have := ih ys ((x + y + c) / W) (by simpa using hl) ha.2 hb.2 hle
      simp only [adcChain, hadc]
      obtain ⟨h1, h2, h3, h4⟩ := this
      refine ⟨by simp [h1], ?_, h3, ?_⟩
      · rw [Wf_cons]; exact ⟨Nat.mod_lt _ (by decide), h2⟩
      · simp only [val_cons, List.length_cons, pow_succ]
        have hd := Nat.mod_add_div (x + y + c) W
        generalize (adcChain xs ys ((x + y + c) / W)) = q at *
        generalize (x + y + c) % W = r at *
        generalize (x + y + c) / W = s at *
        linear_combination W * h4 + hd

theorem sbbChain_spec (a b : List ℕ) (c : ℕ) (hl : a.length = b.length) (ha : Wf a) (hb : Wf b)
    (hc : IsBorrow c) :
    (sbbChain a b c).1.length = a.length ∧ Wf (sbbChain a b c).1 ∧ IsBorrow (sbbChain a b c).2 ∧
      val (sbbChain a b c).1 + val b + bw c = val a + W ^ a.length * bw (sbbChain a b c).2 := by
  induction a generalizing b c with
  | nil =>
    cases b with
    | nil => simp [sbbChain, hc]
    | cons => simp at hl
  | cons x xs ih =>
    cases b with
    | nil => simp at hl
    | cons y ys =>
      rw [Wf_cons] at ha hb
      obtain ⟨s1, s2, s3⟩ := sbb_spec ha.1 hb.1 hc
      obtain ⟨h1, h2, h3, h4⟩ := ih ys (sbb x y c).2 (by simpa using hl) ha.2 hb.2 s2
      rw [sbbChain_cons]
      generalize sbb x y c = t at *
      generalize sbbChain xs ys t.2 = u at *
      refine ⟨by simp [h1], ?_, h3, ?_⟩
      · rw [Wf_cons]; exact ⟨s1, h2⟩
      · simp only [val_cons, List.length_cons, pow_succ]
        linear_combination W * h4 + s3

theorem macRow_spec (k : ℕ) (hk : k < W) (r m : List ℕ) (c : ℕ) (hl : r.length = m.length)
    (hr : Wf r) (hm : Wf m) (hc : c < W) :
    (macRow k r m c).1.length = r.length ∧ Wf (macRow k r m c).1 ∧ (macRow k r m c).2 < W ∧
      val (macRow k r m c).1 + W ^ r.length * (macRow k r m c).2 = val r + k * val m + c := by
  induction r generalizing m c with
  | nil =>
    cases m with
    | nil => simpa [macRow] using hc
    | cons => simp at hl
  | cons x xs ih =>
    cases m with
    | nil => simp at hl
    | cons y ys =>
      rw [Wf_cons] at hr hm
      have hmac := mac_eq hr.1 hk hm.1 hc
      have hlt := mac_lt hr.1 hk hm.1 hc
      have hle : (x + k * y + c) / W < W := by
        simp only [W, W2] at *; omega
      have := ih ys ((x + k * y + c) / W) (by simpa using hl) hr.2 hm.2 hle
      simp only [macRow, hmac]
      obtain ⟨h1, h2, h3, h4⟩ := this
      refine ⟨by simp [h1], ?_, h3, ?_⟩
      · rw [Wf_cons]; exact ⟨Nat.mod_lt _ (by decide), h2⟩
      · simp only [val_cons, List.length_cons, pow_succ]
        have hd := Nat.mod_add_div (x + k * y + c) W
        generalize (macRow k xs ys ((x + k * y + c) / W)) = q at *
        generalize (x + k * y + c) % W = r' at *
        generalize (x + k * y + c) / W = s at *
        linear_combination W * h4 + hd

theorem maskLimbs_zero (m : List ℕ) : maskLimbs m 0 = List.replicate m.length 0 := by
  induction m with
  | nil => rfl
  | cons x xs ih => simp [maskLimbs, List.replicate_succ] at *

theorem and_ones {x : ℕ} (h : x < W) : x &&& (W - 1) = x := by
  have : W - 1 = 2 ^ 64 - 1 := rfl
  rw [this, Nat.and_two_pow_sub_one_eq_mod]
  exact Nat.mod_eq_of_lt h

theorem map_and_ones (m : List ℕ) (h : Wf m) : m.map (· &&& (W - 1)) = m := by
  induction m with
  | nil => rfl
  | cons x xs ih =>
    rw [Wf_cons] at h
    rw [List.map_cons, and_ones h.1, ih h.2]

theorem maskLimbs_ones (m : List ℕ) (h : Wf m) : maskLimbs m (W - 1) = m := map_and_ones m h

/-- Subtracting the modulus with the final borrow taken against a top word, then adding the modulus
back under the borrow mask: reduces any value `< 2p` of `n` limbs and one carry word. -/
theorem condSub_spec (m w : List ℕ) (c : ℕ) (hl : w.length = m.length) (hm : Wf m) (hw : Wf w)
    (hc : c ≤ 1) (hlt : val w + W ^ m.length * c < 2 * val m) :
    let s := sbbChain w m 0
    let bo := (sbb c 0 s.2).2
    let r := (adcChain s.1 (maskLimbs m bo) 0).1
    r.length = m.length ∧ Wf r ∧ val r < val m ∧
      (val r = val w + W ^ m.length * c ∨ val r + val m = val w + W ^ m.length * c) := by
  intro s bo r
  obtain ⟨s1, s2, s3, s4⟩ := sbbChain_spec w m 0 hl hw hm IsBorrow.zero
  obtain ⟨t1, t2, t3⟩ := sbb_spec (a := c) (b := 0) (lt_of_le_of_lt hc (by decide)) (by decide) s3
  have hvm := val_lt m hm
  have hvs := val_lt s.1 s2
  have hbo : (sbb c 0 s.2).2 = bo := rfl
  have hs : sbbChain w m 0 = s := rfl
  rw [hs] at s1 s2 s3 s4 t1 t2 t3
  rw [hbo] at t2 t3
  rw [hl] at s1 s4
  have hlm : s.1.length = (maskLimbs m bo).length := by simp [maskLimbs, s1]
  have hmask : Wf (maskLimbs m bo) := by
    rcases t2 with h | h
    · rw [h, maskLimbs_zero]; exact Wf_replicate _
    · rw [h, maskLimbs_ones m hm]; exact hm
  obtain ⟨a1, a2, a3, a4⟩ := adcChain_spec s.1 (maskLimbs m bo) 0 hlm s2 hmask (by omega)
  have har : (adcChain s.1 (maskLimbs m bo) 0).1 = r := rfl
  rw [har] at a1 a2 a4
  rw [s1] at a1 hvs
  have hvr := val_lt r a2
  rw [a1] at hvr
  refine ⟨a1, a2, ?_⟩
  simp only [bw_zero, add_zero] at s4
  have hR : 0 < W ^ m.length := pow_pos (by decide) _
  rw [s1] at a4
  generalize W ^ m.length = R at *
  generalize (adcChain s.1 (maskLimbs m bo) 0).2 = co at *
  have hco : co = 0 ∨ co = 1 := by omega
  have hc' : c = 0 ∨ c = 1 := by omega
  rcases t2 with h | h
  · -- no borrow
    rw [h, maskLimbs_zero, val_replicate] at a4
    rw [h] at t3
    simp only [bw_zero] at t3
    have hb : bw s.2 ≤ 1 := by rcases s3 with h | h <;> simp [h]
    have hb' : bw s.2 = 0 ∨ bw s.2 = 1 := by omega
    rcases hco with e | e <;> rcases hc' with e' | e' <;> rcases hb' with e'' | e'' <;>
      simp only [e, e', e'', mul_zero, mul_one, add_zero] at * <;> omega
  · rw [h, maskLimbs_ones m hm] at a4
    rw [h] at t3
    simp only [bw_ones] at t3
    have hb : bw s.2 ≤ 1 := by rcases s3 with h | h <;> simp [h]
    have hb' : bw s.2 = 0 ∨ bw s.2 = 1 := by omega
    have hWv : W = 2 ^ 64 := rfl
    rcases hco with e | e <;> rcases hc' with e' | e' <;> rcases hb' with e'' | e'' <;>
      simp only [e, e', e'', mul_zero, mul_one, add_zero] at * <;> omega

/-! ### add, sub, neg -/

/-- Facts about the modulus used by the proofs. -/
structure Modulus (m : List ℕ) : Prop where
  wf : Wf m
  one_lt : 1 < val m

/-- A canonical element: `n` words denoting an integer below the modulus. -/
structure Canon (m a : List ℕ) : Prop where
  len : a.length = m.length
  wf : Wf a
  lt : val a < val m

theorem fAdd_spec {m a b : List ℕ} (hm : Wf m) (ha : Canon m a) (hb : Canon m b) :
    Canon m (fAdd m a b) ∧
      (val (fAdd m a b) = val a + val b ∨ val (fAdd m a b) + val m = val a + val b) := by
  obtain ⟨h1, h2, h3, h4⟩ := adcChain_spec a b 0 (by rw [ha.len, hb.len]) ha.wf hb.wf (by omega)
  have hlt : val (adcChain a b 0).1 + W ^ m.length * (adcChain a b 0).2 < 2 * val m := by
    rw [ha.len] at h4; have := ha.lt; have := hb.lt; omega
  obtain ⟨c1, c2, c3, c4⟩ := condSub_spec m (adcChain a b 0).1 (adcChain a b 0).2
    (by rw [h1, ha.len]) hm h2 h3 hlt
  rw [ha.len] at h4
  rw [h4] at c4
  exact ⟨⟨c1, c2, c3⟩, by simpa [fAdd] using c4⟩

/-- `fSub` on limb vectors that need not be reduced. -/
theorem fSub_spec' {m a b : List ℕ} (hm : Wf m) (hla : a.length = m.length)
    (hlb : b.length = m.length) (hwa : Wf a) (hwb : Wf b) :
    (fSub m a b).length = m.length ∧ Wf (fSub m a b) ∧
      (val b ≤ val a → val (fSub m a b) + val b = val a) ∧
      (val a < val b → val b ≤ val a + val m → val (fSub m a b) + val b = val a + val m) := by
  obtain ⟨s1, s2, s3, s4⟩ := sbbChain_spec a b 0 (by rw [hla, hlb]) hwa hwb IsBorrow.zero
  unfold fSub
  generalize sbbChain a b 0 = s at *
  have hlm : s.1.length = (maskLimbs m s.2).length := by simp [maskLimbs, s1, hla]
  have hmask : Wf (maskLimbs m s.2) := by
    rcases s3 with h | h
    · rw [h, maskLimbs_zero]; exact Wf_replicate _
    · rw [h, maskLimbs_ones m hm]; exact hm
  obtain ⟨a1, a2, a3, a4⟩ := adcChain_spec s.1 (maskLimbs m s.2) 0 hlm s2 hmask (by omega)
  have hvm := val_lt m hm
  have hva := val_lt a hwa
  have hvb := val_lt b hwb
  have hvs := val_lt s.1 s2
  have hvr := val_lt _ a2
  rw [a1, s1, hla] at hvr
  rw [s1, hla] at hvs a1 a4
  rw [hla] at hva s4
  rw [hlb] at hvb
  simp only [bw_zero, add_zero] at s4
  have hR : 0 < W ^ m.length := pow_pos (by decide) _
  refine ⟨a1, a2, ?_⟩
  simp only
  generalize hr : adcChain s.1 (maskLimbs m s.2) 0 = r at *
  generalize W ^ m.length = R at *
  have hco : r.2 = 0 ∨ r.2 = 1 := by omega
  rcases s3 with h | h
  · rw [h, maskLimbs_zero, val_replicate] at a4
    rw [h] at s4
    simp only [bw_zero] at s4
    rcases hco with e | e <;> simp only [e, mul_zero, mul_one, add_zero] at * <;> omega
  · rw [h, maskLimbs_ones m hm] at a4
    rw [h] at s4
    simp only [bw_ones] at s4
    rcases hco with e | e <;> simp only [e, mul_zero, mul_one, add_zero] at * <;> omega

theorem fSub_spec {m a b : List ℕ} (hm : Wf m) (ha : Canon m a) (hb : Canon m b) :
    Canon m (fSub m a b) ∧
      (val (fSub m a b) + val b = val a ∨ val (fSub m a b) + val b = val a + val m) := by
  obtain ⟨h1, h2, h3, h4⟩ := fSub_spec' hm ha.len hb.len ha.wf hb.wf
  have := ha.lt
  have := hb.lt
  rcases Nat.lt_or_ge (val a) (val b) with h | h
  · have := h4 h (by omega)
    exact ⟨⟨h1, h2, by omega⟩, Or.inr this⟩
  · have := h3 h
    exact ⟨⟨h1, h2, by omega⟩, Or.inl this⟩

theorem foldl_or_eq_zero (l : List ℕ) (c : ℕ) :
    l.foldl (· ||| ·) c = 0 ↔ c = 0 ∧ val l = 0 := by
  induction l generalizing c with
  | nil => simp
  | cons x xs ih =>
    rw [List.foldl_cons, ih, Nat.or_eq_zero_iff, val_cons]
    have hW : W ≠ 0 := by decide
    constructor
    · rintro ⟨⟨rfl, rfl⟩, h⟩; simp [h]
    · rintro ⟨rfl, h⟩
      have h1 : x = 0 := by omega
      have h2 : W * val xs = 0 := by omega
      rcases Nat.mul_eq_zero.mp h2 with h | h
      · exact absurd h hW
      · exact ⟨⟨rfl, h1⟩, h⟩

theorem map_and_zero (l : List ℕ) : l.map (· &&& 0) = List.replicate l.length 0 := by
  induction l with
  | nil => rfl
  | cons x xs ih => simp [List.replicate_succ] at *

theorem fNeg_spec {m a : List ℕ} (hm : Wf m) (ha : Canon m a) :
    Canon m (fNeg m a) ∧
      ((val a = 0 ∧ val (fNeg m a) = 0) ∨ (val a ≠ 0 ∧ val (fNeg m a) + val a = val m)) := by
  obtain ⟨s1, s2, s3, s4⟩ := sbbChain_spec m a 0 ha.len.symm hm ha.wf IsBorrow.zero
  have hlt := ha.lt
  have hvm := val_lt m hm
  have hvs := val_lt _ s2
  unfold fNeg
  simp only
  generalize sbbChain m a 0 = s at *
  rw [s1] at hvs
  have hor := foldl_or_eq_zero a 0
  by_cases h : val a = 0
  · have : a.foldl (· ||| ·) 0 = 0 := hor.mpr ⟨rfl, h⟩
    rw [this]
    have hmask : ((if (0:ℕ) = 0 then 1 else 0) + W - 1) % W = 0 := by decide
    rw [hmask, map_and_zero]
    refine ⟨⟨by simp [s1], Wf_replicate _, by simp; omega⟩, Or.inl ⟨h, by simp⟩⟩
  · have : a.foldl (· ||| ·) 0 ≠ 0 := fun e => h (hor.mp e).2
    rw [if_neg this]
    have hmask : (0 + W - 1) % W = W - 1 := by decide
    rw [hmask, map_and_ones _ s2]
    simp only [bw_zero, add_zero] at s4
    have hR : 0 < W ^ m.length := pow_pos (by decide) _
    have key : val s.1 + val a = val m := by
      generalize W ^ m.length = R at *
      rcases s3 with e | e <;> simp only [e, bw_zero, bw_ones, mul_zero, mul_one] at s4 <;> omega
    exact ⟨⟨s1, s2, by omega⟩, Or.inr ⟨h, key⟩⟩

/-! ### products -/

theorem mulRows_spec (b a acc : List ℕ) (hb : Wf b) (ha : Wf a) (hacc : Wf acc)
    (hl : acc.length = b.length) (hpos : 0 < b.length) :
    (mulRows b a acc).length = a.length + b.length ∧ Wf (mulRows b a acc) ∧
      val (mulRows b a acc) = val acc + val a * val b := by
  induction a generalizing acc with
  | nil => simp [mulRows, hl, hacc]
  | cons x xs ih =>
    rw [Wf_cons] at ha
    obtain ⟨r1, r2, r3, r4⟩ := macRow_spec x ha.1 acc b 0 hl hacc hb (by decide)
    simp only [mulRows]
    generalize macRow x acc b 0 = q at *
    obtain ⟨row, c⟩ := q
    simp only at r1 r2 r3 r4 ⊢
    cases row with
    | nil => simp at r1; omega
    | cons y ys =>
      rw [Wf_cons] at r2
      have hlen : (ys ++ [c]).length = b.length := by simp at r1 ⊢; omega
      have := ih (ys ++ [c]) ha.2 (by rw [Wf_append]; exact ⟨r2.2, by simp [r3]⟩) hlen
      obtain ⟨i1, i2, i3⟩ := this
      simp only [List.take_succ_cons, List.take_zero, List.drop_succ_cons, List.drop_zero,
        List.cons_append, List.nil_append]
      refine ⟨by simp [i1]; omega, by rw [Wf_cons]; exact ⟨r2.1, i2⟩, ?_⟩
      simp only [val_cons]
      rw [i3, val_append]
      simp only [val_cons, val_nil, mul_zero, add_zero]
      have hys : acc.length = ys.length + 1 := by simp at r1; omega
      rw [hys, pow_succ] at r4
      simp only [val_cons, add_zero] at r4
      linear_combination r4

theorem mulWide_spec (a b : List ℕ) (ha : Wf a) (hb : Wf b) (hpos : 0 < b.length) :
    (mulWide a b).length = a.length + b.length ∧ Wf (mulWide a b) ∧
      val (mulWide a b) = val a * val b := by
  have := mulRows_spec b a (List.replicate b.length 0) hb ha (Wf_replicate _) (by simp) hpos
  simpa [mulWide] using this

/-! ### Montgomery reduction -/

/-- `inv` is `-p^{-1} mod 2^64`. -/
def IsInv (m : List ℕ) (inv : ℕ) : Prop := (inv * val m + 1) % W = 0

theorem mont_low {m : List ℕ} {inv : ℕ} (hinv : IsInv m inv) (w0 : ℕ) :
    (w0 + (w0 * inv % W) * val m) % W = 0 := by
  unfold IsInv at hinv
  have h1 : (w0 + (w0 * inv % W) * val m) ≡ w0 + (w0 * inv) * val m [MOD W] :=
    Nat.ModEq.add_left _ (Nat.ModEq.mul_right _ (Nat.mod_modEq _ _))
  have h2 : w0 + (w0 * inv) * val m = w0 * (inv * val m + 1) := by ring
  rw [h2] at h1
  have h3 : w0 * (inv * val m + 1) ≡ w0 * 0 [MOD W] := Nat.ModEq.mul_left _ (by
    show _ % _ = _ % _; rw [hinv]; rfl)
  have := h1.trans h3
  simpa [Nat.ModEq] using this

/-- One reduction row: the low word of the row is zero and the rest is the exact quotient. -/
theorem montRow_spec {m : List ℕ} {inv : ℕ} (hm : Wf m) (hinv : IsInv m inv)
    (w : List ℕ) (hw : Wf w) (hl : w.length = m.length) (hpos : 0 < m.length) :
    ∃ k < W, ∃ ys c, macRow ((w.headD 0 * inv) % W) w m 0 = (0 :: ys, c) ∧ Wf ys ∧ c < W ∧
      ys.length + 1 = m.length ∧
      W * val ys + W ^ m.length * c = val w + k * val m := by
  set k := (w.headD 0 * inv) % W with hk
  have hkW : k < W := Nat.mod_lt _ (by decide)
  refine ⟨k, hkW, ?_⟩
  obtain ⟨r1, r2, r3, r4⟩ := macRow_spec k hkW w m 0 hl hw hm (by decide)
  generalize macRow k w m 0 = q at *
  obtain ⟨row, c⟩ := q
  simp only at r1 r2 r3 r4
  cases row with
  | nil => simp at r1; omega
  | cons y ys =>
    rw [Wf_cons] at r2
    have hy : y = 0 := by
      have hw0 : val w % W = w.headD 0 % W := by
        cases w with
        | nil => rfl
        | cons x xs => simp [Nat.add_mul_mod_self_left]
      have e1 : (val w + k * val m) % W = 0 := by
        rw [Nat.add_mod, hw0, ← Nat.add_mod]
        rw [hk]; exact mont_low hinv _
      have e2 : (val (y :: ys) + W ^ w.length * c) % W = y := by
        have : W ^ w.length = W * W ^ (m.length - 1) := by
          rw [hl, ← pow_succ']; congr 1; omega
        rw [this, val_cons]
        have : y + W * val ys + W * W ^ (m.length - 1) * c
            = y + W * (val ys + W ^ (m.length - 1) * c) := by ring
        rw [this, Nat.add_mul_mod_self_left]
        exact Nat.mod_eq_of_lt r2.1
      rw [r4, add_zero] at e2
      omega
    subst hy
    refine ⟨ys, c, rfl, r2.2, r3, by simp at r1; omega, ?_⟩
    simp only [val_cons, zero_add, add_zero] at r4
    rw [hl] at r4
    exact r4

theorem montRounds_spec {m : List ℕ} {inv : ℕ} (hm : Wf m) (hinv : IsInv m inv)
    (hpos : 0 < m.length) (hi w : List ℕ) (c2 : ℕ) (hw : Wf w) (hhi : Wf hi)
    (hl : w.length = m.length) (hc : c2 ≤ 1) :
    let q := montRounds m inv w hi c2
    q.1.length = m.length ∧ Wf q.1 ∧ q.2 ≤ 1 ∧ ∃ M < W ^ hi.length,
      W ^ hi.length * (val q.1 + W ^ m.length * q.2)
        = val w + W ^ m.length * (c2 + val hi) + M * val m := by
  induction hi generalizing w c2 with
  | nil => simp [montRounds, hl, hw, hc]
  | cons h hs ih =>
    rw [Wf_cons] at hhi
    obtain ⟨k, hk, ys, c, e1, e2, e3, e4, e5⟩ := montRow_spec hm hinv w hw hl hpos
    have hc2 : c2 < W := lt_of_le_of_lt hc (by decide)
    have hadc := adc_eq hhi.1 hc2 e3
    simp only [montRounds]
    rw [e1]
    simp only [List.drop_succ_cons, List.drop_zero, hadc]
    have hle : (h + c2 + c) / W ≤ 1 := by
      have := hhi.1; simp only [W] at *; omega
    have hwf : Wf (ys ++ [(h + c2 + c) % W]) := by
      rw [Wf_append]; exact ⟨e2, by simp only [Wf_cons, Wf_nil, and_true]; exact Nat.mod_lt _ (by decide)⟩
    obtain ⟨i1, i2, i3, M, hM, i4⟩ := ih (ys ++ [(h + c2 + c) % W]) ((h + c2 + c) / W) hwf hhi.2
      (by simp [e4]) hle
    refine ⟨i1, i2, i3, k + W * M, ?_, ?_⟩
    · simp only [List.length_cons, pow_succ]
      have : W * (M + 1) ≤ W * W ^ hs.length := Nat.mul_le_mul_left _ hM
      calc k + W * M < W + W * M := by omega
        _ = W * (M + 1) := by ring
        _ ≤ _ := this
        _ = _ := by ring
    · simp only [val_cons, List.length_cons, pow_succ]
      rw [val_append] at i4
      simp only [val_cons, val_nil, mul_zero, add_zero] at i4
      have hd := Nat.mod_add_div (h + c2 + c) W
      generalize (montRounds m inv (ys ++ [(h + c2 + c) % W]) hs ((h + c2 + c) / W)) = q at *
      generalize (h + c2 + c) % W = r' at *
      generalize (h + c2 + c) / W = s at *
      have hpw : W ^ m.length = W * W ^ ys.length := by rw [← pow_succ', e4]
      linear_combination W * i4 + e5 + (W ^ m.length) * hd - (r' : ℕ) * hpw

theorem montReduce_spec {m : List ℕ} {inv : ℕ} (hm : Wf m) (hinv : IsInv m inv)
    (hpos : 0 < m.length) (r : List ℕ) (hr : Wf r) (hl : r.length = 2 * m.length)
    (hlt : val r < W ^ m.length * val m) :
    Canon m (montReduce m inv r) ∧
      W ^ m.length * val (montReduce m inv r) ≡ val r [MOD val m] := by
  have hsplit : val r = val (r.take m.length) + W ^ m.length * val (r.drop m.length) := by
    conv_lhs => rw [← List.take_append_drop m.length r, val_append]
    rw [List.length_take, Nat.min_eq_left (by omega)]
  have hdl : (r.drop m.length).length = m.length := by simp [hl]; omega
  obtain ⟨q1, q2, q3, M, hM, q4⟩ := montRounds_spec hm hinv hpos (r.drop m.length)
    (r.take m.length) 0 (hr.take _) (hr.drop _) (by simp [hl]; omega) (by omega)
  rw [hdl] at hM q4
  rw [zero_add, ← hsplit] at q4
  unfold montReduce
  generalize montRounds m inv (r.take m.length) (r.drop m.length) 0 = q at *
  have hR : 0 < W ^ m.length := pow_pos (by decide) _
  have hlt2 : val q.1 + W ^ m.length * q.2 < 2 * val m := by
    have h1 : M * val m ≤ W ^ m.length * val m := Nat.mul_le_mul_right _ hM.le
    have h2 : W ^ m.length * (val q.1 + W ^ m.length * q.2) < W ^ m.length * (2 * val m) := by
      rw [q4]; linarith
    exact Nat.lt_of_mul_lt_mul_left h2
  obtain ⟨c1, c2, c3, c4⟩ := condSub_spec m q.1 q.2 q1 hm q2 q3 hlt2
  refine ⟨⟨c1, c2, c3⟩, ?_⟩
  simp only at c1 c2 c3 c4 ⊢
  generalize (adcChain (sbbChain q.1 m 0).1 (maskLimbs m (sbb q.2 0 (sbbChain q.1 m 0).2).2) 0).1
    = res at *
  have hA : W ^ m.length * (val q.1 + W ^ m.length * q.2) ≡ val r [MOD val m] := by
    rw [q4]; exact (Nat.modEq_iff_dvd' (by omega)).mpr (by simp) |>.symm
  have hB : val res ≡ val q.1 + W ^ m.length * q.2 [MOD val m] := by
    rcases c4 with h | h
    · rw [h]
    · rw [← h]; exact (Nat.modEq_iff_dvd' (by omega)).mpr (by simp)
  exact (Nat.ModEq.mul_left _ hB).trans hA

/-- Montgomery product; `a` need not be reduced (as in `from_raw`, `from_uniform_bytes`). -/
theorem fMul_spec {m a b : List ℕ} {inv : ℕ} (hm : Wf m) (hinv : IsInv m inv)
    (hpos : 0 < m.length) (ha : Wf a) (hla : a.length = m.length) (hb : Wf b)
    (hlb : b.length = m.length) (hlt : val a * val b < W ^ m.length * val m) :
    Canon m (fMul m inv a b) ∧
      W ^ m.length * val (fMul m inv a b) ≡ val a * val b [MOD val m] := by
  obtain ⟨h1, h2, h3⟩ := mulWide_spec a b ha hb (by omega)
  have := montReduce_spec hm hinv hpos (mulWide a b) h2 (by omega) (by rw [h3]; exact hlt)
  rw [h3] at this
  exact this

/-! ### squaring -/

/-- Sum of the off-diagonal products `a_i a_j W^(i+j-1)`, `i < j`, of a limb list. -/
def offVal : List ℕ → ℕ
  | [] => 0
  | x :: xs => x * val xs + W * W * offVal xs

theorem offVal_spec (a : List ℕ) :
    val a * val a = 2 * W * offVal a + (a.foldr (fun x acc => x * x + W * W * acc) 0) := by
  induction a with
  | nil => simp [offVal]
  | cons x xs ih =>
    simp only [val_cons, offVal, List.foldr_cons]
    linear_combination W * W * ih

theorem sqOff_spec (a acc : List ℕ) (ha : Wf a) (hacc : Wf acc) (hl : acc.length + 1 = a.length) :
    (sqOff a acc).length + 2 = 2 * a.length ∧ Wf (sqOff a acc) ∧
      val (sqOff a acc) = val acc + offVal a := by
  induction a generalizing acc with
  | nil => simp at hl
  | cons x xs ih =>
    cases xs with
    | nil =>
      simp at hl
      subst hl
      simp [sqOff, offVal]
    | cons y ys =>
      rw [Wf_cons] at ha
      have hl' : acc.length = (y :: ys).length := by simpa using hl
      obtain ⟨r1, r2, r3, r4⟩ := macRow_spec x ha.1 acc (y :: ys) 0 hl' hacc ha.2 (by decide)
      simp only [sqOff]
      generalize macRow x acc (y :: ys) 0 = q at *
      obtain ⟨row, c⟩ := q
      simp only at r1 r2 r3 r4 ⊢
      have hrl : (row ++ [c]).length = ys.length + 2 := by simp [r1, hl']
      have hrw : Wf (row ++ [c]) := by rw [Wf_append]; exact ⟨r2, by simp [r3]⟩
      have hrv : val (row ++ [c]) = val acc + x * val (y :: ys) := by
        rw [val_append, r1]; simpa using r4
      generalize row ++ [c] = rr at *
      match rr, hrl, hrw, hrv with
      | r0 :: r1' :: rest, hrl, hrw, hrv =>
        simp only [Wf_cons] at hrw
        obtain ⟨i1, i2, i3⟩ := ih rest ha.2 hrw.2.2 (by simp at hrl ⊢; omega)
        simp only [List.take_succ_cons, List.take_zero, List.drop_succ_cons, List.drop_zero,
          List.cons_append, List.nil_append]
        refine ⟨by simp at i1 ⊢; omega, by simp only [Wf_cons]; exact ⟨hrw.1, hrw.2.1, i2⟩, ?_⟩
        simp only [val_cons] at hrv ⊢
        rw [i3]
        rw [show offVal (x :: y :: ys) = x * val (y :: ys) + W * W * offVal (y :: ys) from rfl]
        simp only [val_cons]
        linear_combination hrv

theorem shl_or {r t : ℕ} (ht : t < 2) : (r * 2) % W ||| t = (r * 2) % W + t := by
  have h : (r * 2) % W = 2 * (r % 2 ^ 63) := by simp only [W]; omega
  rw [h]
  generalize r % 2 ^ 63 = s
  have := Nat.two_pow_add_eq_or_of_lt (i := 1) (b := t) (by simpa using ht) s
  rw [pow_one] at this
  exact this.symm

theorem sqShift_spec (l : List ℕ) (prev : ℕ) (hp : prev < W) (hl : Wf l) :
    (sqShift prev l).length = l.length + 1 ∧ Wf (sqShift prev l) ∧
      val (sqShift prev l) = 2 * val l + prev / 2 ^ 63 := by
  induction l generalizing prev with
  | nil =>
    simp only [sqShift, List.length_cons, List.length_nil, Wf_cons, Wf_nil, and_true, val_cons,
      val_nil, mul_zero, add_zero, zero_add, true_and]
    simp only [W] at *; omega
  | cons r rs ih =>
    rw [Wf_cons] at hl
    obtain ⟨h1, h2, h3⟩ := ih r hl.1 hl.2
    have ht : prev / 2 ^ 63 < 2 := by simp only [W] at hp; omega
    simp only [sqShift]
    rw [shl_or ht]
    refine ⟨by simp [h1], ?_, ?_⟩
    · rw [Wf_cons]
      refine ⟨?_, h2⟩
      have h : (r * 2) % W = 2 * (r % 2 ^ 63) := by simp only [W]; omega
      rw [h]; simp only [W] at *; omega
    · simp only [val_cons]
      rw [h3]
      have : (r * 2) % W + W * (r / 2 ^ 63) = 2 * r := by
        have := hl.1
        simp only [W] at *; omega
      linear_combination this

theorem sqDiag_spec (a r : List ℕ) (c : ℕ) (ha : Wf a) (hr : Wf r) (hl : r.length = 2 * a.length)
    (hc : c ≤ 1) :
    (sqDiag a r c).length = 2 * a.length ∧ Wf (sqDiag a r c) ∧ ∃ co ≤ 1,
      val (sqDiag a r c) + W ^ (2 * a.length) * co
        = val r + (a.foldr (fun x acc => x * x + W * W * acc) 0) + c := by
  induction a generalizing r c with
  | nil =>
    simp at hl
    subst hl
    exact ⟨by simp [sqDiag], by simp [sqDiag], c, hc, by simp [sqDiag]⟩
  | cons x xs ih =>
    match r, hl, hr with
    | [], hl, _ => simp at hl
    | [_], hl, _ => simp at hl; omega
    | r0 :: r1 :: rs, hl, hr =>
      rw [Wf_cons] at ha
      simp only [Wf_cons] at hr
      have hcW : c < W := lt_of_le_of_lt hc (by decide)
      have hmac := mac_eq hr.1 ha.1 ha.1 hcW
      have hlt := mac_lt hr.1 ha.1 ha.1 hcW
      have hle : (r0 + x * x + c) / W < W := by simp only [W, W2] at *; omega
      have hadc := adc_eq (a := 0) (by decide) hr.2.1 hle
      simp only [sqDiag, hmac, hadc]
      have hle2 : (0 + r1 + (r0 + x * x + c) / W) / W ≤ 1 := by
        have := hr.2.1; simp only [W] at *; omega
      obtain ⟨i1, i2, co, hco, i3⟩ := ih rs _ ha.2 hr.2.2 (by simp at hl ⊢; omega) hle2
      refine ⟨by simp only [List.length_cons]; omega, ?_, co, hco, ?_⟩
      · simp only [Wf_cons]
        exact ⟨Nat.mod_lt _ (by decide), Nat.mod_lt _ (by decide), i2⟩
      · have hd1 := Nat.mod_add_div (r0 + x * x + c) W
        have hd2 := Nat.mod_add_div (0 + r1 + (r0 + x * x + c) / W) W
        simp only [val_cons, List.length_cons, List.foldr_cons]
        have hpw : W ^ (2 * (xs.length + 1)) = W * W * W ^ (2 * xs.length) := by ring
        rw [hpw]
        generalize (r0 + x * x + c) % W = u0 at *
        generalize (r0 + x * x + c) / W = u1 at *
        generalize (0 + r1 + u1) % W = u2 at *
        generalize (0 + r1 + u1) / W = u3 at *
        linear_combination W * W * i3 + hd1 + W * hd2

theorem sqWide_spec (a : List ℕ) (ha : Wf a) (hpos : 0 < a.length) :
    (sqWide a).length = 2 * a.length ∧ Wf (sqWide a) ∧ val (sqWide a) = val a * val a := by
  obtain ⟨o1, o2, o3⟩ := sqOff_spec a (List.replicate (a.length - 1) 0) ha (Wf_replicate _)
    (by simp; omega)
  obtain ⟨s1, s2, s3⟩ := sqShift_spec (sqOff a (List.replicate (a.length - 1) 0)) 0 (by decide) o2
  obtain ⟨d1, d2, co, hco, d3⟩ := sqDiag_spec a
    (0 :: sqShift 0 (sqOff a (List.replicate (a.length - 1) 0))) 0 ha
    (by rw [Wf_cons]; exact ⟨by decide, s2⟩) (by simp [s1]; omega) (by omega)
  refine ⟨d1, d2, ?_⟩
  have hsq := offVal_spec a
  rw [val_replicate, zero_add] at o3
  simp only [val_cons, zero_add, add_zero] at d3
  rw [s3, o3] at d3
  simp only [Nat.zero_div, add_zero] at d3
  have e : W * (2 * offVal a) = 2 * W * offVal a := by ring
  rw [e, ← hsq] at d3
  have hva := val_lt a ha
  have hvv : val a * val a < W ^ (2 * a.length) := by
    have : W ^ (2 * a.length) = W ^ a.length * W ^ a.length := by rw [two_mul, pow_add]
    rw [this]; exact Nat.mul_lt_mul'' hva hva
  have hR : 0 < W ^ (2 * a.length) := pow_pos (by decide) _
  have hco0 : co = 0 := by
    rcases Nat.lt_or_ge 0 co with h | h
    · have : co = 1 := by omega
      rw [this] at d3; omega
    · omega
  rw [hco0] at d3
  simpa [sqWide] using d3

theorem fSquare_spec {m a : List ℕ} {inv : ℕ} (hm : Wf m) (hinv : IsInv m inv)
    (hpos : 0 < m.length) (ha : Canon m a) :
    Canon m (fSquare m inv a) ∧
      W ^ m.length * val (fSquare m inv a) ≡ val a * val a [MOD val m] := by
  obtain ⟨h1, h2, h3⟩ := sqWide_spec a ha.wf (by rw [ha.len]; exact hpos)
  have hlt : val a * val a < W ^ m.length * val m := by
    have := val_lt m hm
    exact Nat.mul_lt_mul'' (by have := ha.lt; omega) ha.lt
  have := montReduce_spec hm hinv hpos (sqWide a) h2 (by rw [h1, ha.len]) (by rw [h3]; exact hlt)
  rw [h3] at this
  exact this

/-! ### leaving Montgomery form -/

theorem fromMontRounds_spec {m : List ℕ} {inv : ℕ} (hm : Wf m) (hinv : IsInv m inv)
    (hpos : 0 < m.length) (i : ℕ) (w : List ℕ) (hw : Wf w) (hl : w.length = m.length) :
    let q := fromMontRounds m inv i w
    q.length = m.length ∧ Wf q ∧ ∃ M < W ^ i, W ^ i * val q = val w + M * val m := by
  induction i generalizing w with
  | zero => simp [fromMontRounds, hl, hw]
  | succ i ih =>
    obtain ⟨k, hk, ys, c, e1, e2, e3, e4, e5⟩ := montRow_spec hm hinv w hw hl hpos
    simp only [fromMontRounds]
    rw [e1]
    simp only [List.drop_succ_cons, List.drop_zero]
    have hwf : Wf (ys ++ [c]) := by rw [Wf_append]; exact ⟨e2, by simp [e3]⟩
    obtain ⟨i1, i2, M, hM, i3⟩ := ih (ys ++ [c]) hwf (by simp [e4])
    refine ⟨i1, i2, k + W * M, ?_, ?_⟩
    · have : W * (M + 1) ≤ W * W ^ i := Nat.mul_le_mul_left _ hM
      calc k + W * M < W + W * M := by omega
        _ = W * (M + 1) := by ring
        _ ≤ _ := this
        _ = _ := by ring
    · rw [val_append] at i3
      simp only [val_cons, val_nil, mul_zero, add_zero] at i3
      have hpw : W ^ m.length = W * W ^ ys.length := by rw [← pow_succ', e4]
      rw [pow_succ]
      linear_combination W * i3 + e5 - (c : ℕ) * hpw

/-- `from_mont` of *any* `n`-word vector is canonical and divides by `R`. -/
theorem fromMont_spec {m a : List ℕ} {inv : ℕ} (hm : Wf m) (hinv : IsInv m inv)
    (hpos : 0 < m.length) (hm0 : 0 < val m) (ha : Wf a) (hl : a.length = m.length) :
    Canon m (fromMont m inv a) ∧ W ^ m.length * val (fromMont m inv a) ≡ val a [MOD val m] := by
  obtain ⟨q1, q2, M, hM, q3⟩ := fromMontRounds_spec hm hinv hpos m.length a ha hl
  obtain ⟨s1, s2, s3, s4⟩ := fSub_spec' (a := fromMontRounds m inv m.length a) (b := m) hm q1 rfl q2 hm
  unfold fromMont
  generalize fromMontRounds m inv m.length a = q at *
  have hva := val_lt a ha
  rw [hl] at hva
  have hqle : val q ≤ val m := by
    have h1 : (M + 1) * val m ≤ W ^ m.length * val m := Nat.mul_le_mul_right _ hM
    have h2 : W ^ m.length * val q < W ^ m.length * (val m + 1) := by
      rw [q3]; linarith
    have := Nat.lt_of_mul_lt_mul_left h2
    omega
  have hmod : W ^ m.length * val q ≡ val a [MOD val m] := by
    rw [q3]; exact (Nat.modEq_iff_dvd' (by omega)).mpr (by simp) |>.symm
  rcases Nat.lt_or_ge (val q) (val m) with h | h
  · have e := s4 h (by omega)
    have e' : val (fSub m q m) = val q := by omega
    exact ⟨⟨s1, s2, by omega⟩, by rw [e']; exact hmod⟩
  · have e := s3 h
    have e' : val (fSub m q m) + val m = val q := e
    refine ⟨⟨s1, s2, by omega⟩, ?_⟩
    have : W ^ m.length * val q = W ^ m.length * val (fSub m q m) + W ^ m.length * val m := by
      rw [← e']; ring
    rw [this] at hmod
    refine Nat.ModEq.trans ?_ hmod
    exact (Nat.modEq_iff_dvd' (by omega)).mpr (by simp)

end Halo2
