import Verif.Field.Bytes
import Verif.Props.FieldArith

/-!
# C04-C08: encodings, wide reduction, raw bytes, equality and order of prime field elements
-/

namespace Halo2.Props

open Halo2 Halo2.Field

/-! ## C04 canonical encodings -/

/-- **C04** the encoding of an element is `SIZE` bytes denoting the represented integer in the
declared byte order (`to_repr` is the case `LE`). -/
theorem C04_encode (p : ℕ) (hp : OddModulus p) (e : Endian) (a : List ℕ) (x : ZMod p)
    (ha : Rep p a x) :
    (toBytes p e a).length = 8 * numLimbs p ∧ IsBytes (toBytes p e a) ∧
      e.nat (toBytes p e a) = x.val := toRepr_spec hp e ha

/-- **C04** decoding accepts exactly the byte strings denoting an integer below `p`, and returns
the element representing that integer (`from_repr` is the case `LE`). -/
theorem C04_decode (p : ℕ) (hp : OddModulus p) (e : Endian) (b : List ℕ)
    (hl : b.length = 8 * numLimbs p) (hb : IsBytes b) :
    (p ≤ e.nat b → fromBytes p e b = none) ∧
      (e.nat b < p → ∃ a, fromBytes p e b = some a ∧ Rep p a (e.nat b : ZMod p)) := by
  obtain ⟨f1, f2, f3⟩ := fromBytes_spec e (numLimbs p) b hl hb
  have hlt := isLessThanModulus_spec p (e.fromBytes (numLimbs p) b) f1 f2
  rw [f3] at hlt
  unfold fromBytes
  constructor
  · intro h
    simp only [hlt, Nat.not_lt.mpr h, decide_false, Bool.false_eq_true, if_false]
  · intro h
    refine ⟨mul p (e.fromBytes (numLimbs p) b) (R2 p), by simp only [hlt, h, decide_true, if_true], ?_⟩
    obtain ⟨h1, h2⟩ := mul_raw hp f1 f2 (rep_R2 hp)
    exact ⟨h1, by rw [h2, f3]⟩

/-- **C04** round trip. -/
theorem C04_roundtrip (p : ℕ) (hp : OddModulus p) (e : Endian) (a : List ℕ) (ha : IsElem p a) :
    fromBytes p e (toBytes p e a) = some a := by
  have : NeZero p := ⟨by have := hp.gt; omega⟩
  obtain ⟨x, hx⟩ := Rep.exists_of_elem hp ha
  obtain ⟨t1, t2, t3⟩ := toRepr_spec hp e hx
  obtain ⟨a', h1, h2⟩ := (C04_decode p hp e _ t1 t2).2 (by rw [t3]; exact ZMod.val_lt x)
  rw [t3, ZMod.natCast_zmod_val] at h2
  rw [h1, h2.unique hx]

/-- **C04** uniqueness: a byte string that decodes to `a` is the encoding of `a`; hence two
different strings never decode to the same element. -/
theorem C04_unique (p : ℕ) (hp : OddModulus p) (e : Endian) (b a : List ℕ)
    (hl : b.length = 8 * numLimbs p) (hb : IsBytes b) (h : fromBytes p e b = some a) :
    IsElem p a ∧ toBytes p e a = b := by
  have : NeZero p := ⟨by have := hp.gt; omega⟩
  obtain ⟨d1, d2⟩ := C04_decode p hp e b hl hb
  rcases Nat.lt_or_ge (e.nat b) p with hlt | hge
  · obtain ⟨a', h1, h2⟩ := d2 hlt
    rw [h1] at h
    cases h
    obtain ⟨t1, t2, t3⟩ := toRepr_spec hp e h2
    refine ⟨h2.elem, e.nat_inj t2 hb (by rw [t1, hl]) ?_⟩
    rw [t3, ZMod.val_natCast, Nat.mod_eq_of_lt hlt]
  · rw [d1 hge] at h; cases h

example : fromBytes k1p .BE (toBytes k1p .BE (one k1p)) = some (one k1p) :=
  C04_roundtrip k1p k1p_odd .BE _ (rep_one k1p_odd).elem
/-- All-ones bytes are rejected. -/
example : fromRepr k1p (List.replicate 32 255) = none :=
  (C04_decode k1p k1p_odd .LE _ (by decide +kernel) (by
    intro x hx; rw [List.mem_replicate] at hx; omega)).1 (by decide +kernel)
example : ∃ b, b.length = 8 * numLimbs k1p ∧ IsBytes b ∧ fromRepr k1p b = some (one k1p) :=
  ⟨toBytes k1p .LE (one k1p), (C04_encode k1p k1p_odd .LE _ _ (rep_one k1p_odd)).1,
    (C04_encode k1p k1p_odd .LE _ _ (rep_one k1p_odd)).2.1,
    C04_roundtrip k1p k1p_odd .LE _ (rep_one k1p_odd).elem⟩

/-! ## C05 wide reduction -/

/-- **C05** `from_uniform_bytes` of any string of at most `2 * SIZE` bytes represents its
little-endian integer modulo `p`. -/
theorem C05_from_uniform_bytes (p : ℕ) (hp : OddModulus p) (b : List ℕ)
    (hl : b.length ≤ 2 * (8 * numLimbs p)) (hb : IsBytes b) :
    Rep p (fromUniformBytes p b) (leNat b : ZMod p) := by
  unfold fromUniformBytes
  simp only
  set n := numLimbs p with hn
  set wide := b ++ List.replicate (2 * (8 * n) - b.length) 0 with hw
  have hwl : wide.length = 2 * (8 * n) := by rw [hw]; simp; omega
  have hwb : IsBytes wide := hb.append (by
    intro x hx; rw [List.mem_replicate] at hx; omega)
  have hwv : leNat wide = leNat b := by rw [hw, leNat_append, leNat_replicate]; simp
  obtain ⟨u1, u2, u3⟩ := fromBytesLE_spec n (wide.take (8 * n)) (by simp [hwl]; omega) (hwb.take _)
  obtain ⟨v1, v2, v3⟩ := fromBytesLE_spec n (wide.drop (8 * n)) (by simp [hwl]; omega) (hwb.drop _)
  obtain ⟨m1, m2⟩ := mul_raw hp u1 u2 (rep_R2 hp)
  obtain ⟨k1, k2⟩ := mul_raw hp v1 v2 (rep_R3 hp)
  have r1 : Rep p (mul p (Endian.LE.fromBytes n (wide.take (8 * n))) (R2 p))
    (leNat (wide.take (8 * n)) : ZMod p) := ⟨m1, by rw [m2, u3]⟩
  have r2 : Rep p (mul p (Endian.LE.fromBytes n (wide.drop (8 * n))) (R3 p))
    ((leNat (wide.drop (8 * n)) : ZMod p) * 2 ^ (64 * numLimbs p)) := ⟨k1, by rw [k2, v3]; ring⟩
  have := rep_add r1 r2
  have e : (leNat b : ZMod p) = (leNat (wide.take (8 * n)) : ZMod p) +
      (leNat (wide.drop (8 * n)) : ZMod p) * 2 ^ (64 * numLimbs p) := by
    rw [← hwv]
    conv_lhs => rw [← List.take_append_drop (8 * n) wide, leNat_append]
    have hlen : (wide.take (8 * n)).length = 8 * n := by simp [hwl]; omega
    rw [hlen]
    push_cast
    rw [show (256 : ZMod p) = 2 ^ 8 by norm_num, ← pow_mul,
      show 8 * (8 * n) = 64 * numLimbs p by rw [← hn]; ring]
    ring
  rw [e]
  exact this

/-- **C05** integers: `From<u64>`, `From<bool>`. -/
theorem C05_from_u64 (p : ℕ) (hp : OddModulus p) (v : ℕ) (hv : v < 2 ^ 64) :
    Rep p (fromU64 p v) (v : ZMod p) ∧ Rep p (fromBool p true) 1 ∧ Rep p (fromBool p false) 0 := by
  have key : ∀ v < 2 ^ 64, Rep p (fromU64 p v) (v : ZMod p) := by
    intro v hv
    have hn := numLimbs_pos p
    have e : (v :: List.replicate (numLimbs p) 0).take (numLimbs p)
        = v :: List.replicate (numLimbs p - 1) 0 := by
      obtain ⟨k, hk⟩ : ∃ k, numLimbs p = k + 1 := ⟨numLimbs p - 1, by omega⟩
      rw [hk, List.take_succ_cons, List.take_replicate]; simp
    unfold fromU64
    rw [e]
    obtain ⟨h1, h2⟩ := mul_raw hp (a := v :: List.replicate (numLimbs p - 1) 0)
      (by simp; omega) (by rw [Wf_cons]; exact ⟨hv, Wf_replicate _⟩) (rep_R2 hp)
    exact ⟨h1, by rw [h2, val_cons, val_replicate]; simp⟩
  refine ⟨key v hv, ?_, ?_⟩
  · have := key 1 (by decide); rwa [Nat.cast_one] at this
  · have := key 0 (by decide); rwa [Nat.cast_zero] at this

/-- **C05** `from_u128`, for fields of at least two limbs (all shipped fields have 4, 6 or 7). -/
theorem C05_from_u128 (p : ℕ) (hp : OddModulus p) (v : ℕ) (hv : v < 2 ^ 128)
    (hn : 2 ≤ numLimbs p) : Rep p (fromU128 p v) (v : ZMod p) := by
  have e : (v % W :: (v / 2 ^ 64) % W :: List.replicate (numLimbs p) 0).take (numLimbs p)
      = v % W :: (v / 2 ^ 64) % W :: List.replicate (numLimbs p - 2) 0 := by
    obtain ⟨k, hk⟩ : ∃ k, numLimbs p = k + 2 := ⟨numLimbs p - 2, by omega⟩
    rw [hk, List.take_succ_cons, List.take_succ_cons, List.take_replicate]; simp
  unfold fromU128
  rw [e]
  have hval : val (v % W :: (v / 2 ^ 64) % W :: List.replicate (numLimbs p - 2) 0) = v := by
    rw [val_cons, val_cons, val_replicate]
    unfold W
    omega
  obtain ⟨h1, h2⟩ := mul_raw' hp (a := v % W :: (v / 2 ^ 64) % W :: List.replicate (numLimbs p - 2) 0)
    (by simp; omega) (by
      rw [Wf_cons, Wf_cons]
      exact ⟨Nat.mod_lt _ (by decide), Nat.mod_lt _ (by decide), Wf_replicate _⟩) (rep_R2 hp)
  exact ⟨h1, by rw [h2, hval]⟩

example : Rep k1p (fromUniformBytes k1p (List.replicate 64 255))
    (leNat (List.replicate 64 255) : ZMod k1p) :=
  C05_from_uniform_bytes k1p k1p_odd _ (by decide +kernel) (by
    intro x hx; rw [List.mem_replicate] at hx; omega)
example : Rep k1p (fromU128 k1p (2 ^ 128 - 1)) ((2 ^ 128 - 1 : ℕ) : ZMod k1p) :=
  C05_from_u128 k1p k1p_odd _ (by decide) (by decide +kernel)
example : Rep k1p (fromU64 k1p 7) ((7 : ℕ) : ZMod k1p) := (C05_from_u64 k1p k1p_odd 7 (by decide)).1

/-! ## C06 raw bytes -/

/-- **C06** round trip of the raw form. -/
theorem C06_raw_roundtrip (p : ℕ) (a : List ℕ) (ha : IsElem p a) :
    fromRawBytes p (toRawBytes a) = some a ∧ fromRawBytesUnchecked p (toRawBytes a) = a := by
  have h := toRaw_fromRaw p a ha.len ha.wf
  obtain ⟨t1, _, _⟩ := toBytesLE_spec a ha.wf
  refine ⟨?_, h⟩
  unfold fromRawBytes fromRawBytesUnchecked
  rw [h]
  have hlt := isLessThanModulus_spec p a ha.len ha.wf
  have : (toRawBytes a).length = numLimbs p * 8 := by
    rw [toRawBytes, t1, ha.len]; ring
  simp [this, hlt, ha.lt]

/-- **C06** the checked reader accepts exactly the raw forms of elements: anything of another
length, or denoting an integer `≥ p`, is rejected. -/
theorem C06_raw_exact (p : ℕ) (b a : List ℕ) (hb : IsBytes b) :
    fromRawBytes p b = some a ↔ IsElem p a ∧ b = toRawBytes a := by
  constructor
  · intro h
    unfold fromRawBytes at h
    by_cases hl : b.length = numLimbs p * 8
    · obtain ⟨f1, f2, f3⟩ := fromBytesLE_spec (numLimbs p) b (by rw [hl]; ring) hb
      have hlt := isLessThanModulus_spec p (Endian.LE.fromBytes (numLimbs p) b) f1 f2
      simp only [hl, ne_eq, not_true, if_false, fromRawBytesUnchecked, hlt] at h
      by_cases hv : val (Endian.LE.fromBytes (numLimbs p) b) < p
      · simp only [hv, decide_true, if_true, Option.some.injEq] at h
        subst h
        refine ⟨⟨f1, f2, hv⟩, ?_⟩
        obtain ⟨t1, t2, t3⟩ := toBytesLE_spec _ f2
        apply leNat_inj hb t2
        · rw [t1, f1, hl]; ring
        · rw [t3, f3]
      · simp [hv] at h
    · simp [hl] at h
  · rintro ⟨ha, rfl⟩
    exact (C06_raw_roundtrip p a ha).1

/-- **C06** streams: `read_raw` succeeds exactly when the stream starts with the raw form of an
element, and leaves the rest of the stream. -/
theorem C06_read_raw_exact (p : ℕ) (s a rest : List ℕ) (hs : IsBytes s) :
    readRaw p s = some (a, rest) ↔ IsElem p a ∧ s = toRawBytes a ++ rest := by
  unfold readRaw
  rw [readLimbs_spec]
  constructor
  · intro h
    by_cases hl : s.length < 8 * numLimbs p
    · simp [hl] at h
    · obtain ⟨f1, f2, f3⟩ := fromBytesLE_spec (numLimbs p) (s.take (8 * numLimbs p))
        (by simp; omega) (hs.take _)
      simp only [hl, if_false, isLessThanModulus_spec p _ f1 f2] at h
      by_cases hv : val (Endian.LE.fromBytes (numLimbs p) (s.take (8 * numLimbs p))) < p
      · simp only [hv, decide_true, if_true, Option.some.injEq, Prod.mk.injEq] at h
        obtain ⟨rfl, rfl⟩ := h
        refine ⟨⟨f1, f2, hv⟩, ?_⟩
        obtain ⟨t1, t2, t3⟩ := toBytesLE_spec _ f2
        have : toRawBytes (Endian.LE.fromBytes (numLimbs p) (s.take (8 * numLimbs p)))
            = s.take (8 * numLimbs p) := by
          apply leNat_inj t2 (hs.take _)
          · rw [t1, f1]; simp; omega
          · rw [t3, f3]
        rw [this, List.take_append_drop]
      · simp [hv] at h
  · rintro ⟨ha, rfl⟩
    obtain ⟨t1, _, _⟩ := toBytesLE_spec a ha.wf
    have hl : (toRawBytes a).length = 8 * numLimbs p := by rw [toRawBytes, t1, ha.len]
    have hnl : ¬ (toRawBytes a ++ rest).length < 8 * numLimbs p := by simp [hl]
    have htake : (toRawBytes a ++ rest).take (8 * numLimbs p) = toRawBytes a := by
      rw [← hl]; simp
    have hdrop : (toRawBytes a ++ rest).drop (8 * numLimbs p) = rest := by
      rw [← hl]; simp
    rw [if_neg hnl, htake, hdrop, toRaw_fromRaw p a ha.len ha.wf]
    simp [isLessThanModulus_spec p a ha.len ha.wf, ha.lt]

/-- **C06** the unchecked reader agrees with the checked one wherever the latter succeeds, and
fails (panics) only on a short stream. -/
theorem C06_unchecked (p : ℕ) (s : List ℕ) :
    (∀ r, readRaw p s = some r → readRawUnchecked p s = some r) ∧
      (readRawUnchecked p s = none ↔ s.length < 8 * numLimbs p) := by
  unfold readRaw readRawUnchecked
  rw [readLimbs_spec]
  by_cases hl : s.length < 8 * numLimbs p
  · simp [hl]
  · simp only [hl, if_false]
    refine ⟨fun r h => ?_, by simp⟩
    split at h
    · exact h
    · cases h

/-- **C06** `write_raw` appends what `to_raw_bytes` returns. -/
theorem C06_write (a s : List ℕ) : writeRaw a s = s ++ toRawBytes a := by
  unfold writeRaw toRawBytes
  induction a generalizing s with
  | nil => simp
  | cons x xs ih => rw [List.foldl_cons, ih, List.flatMap_cons, List.append_assoc]

example : fromRawBytes k1p (toRawBytes (one k1p)) = some (one k1p) :=
  (C06_raw_roundtrip k1p _ (rep_one k1p_odd).elem).1
/-- The raw form of the modulus itself is rejected. -/
example : fromRawBytes k1p (toRawBytes (modulusLimbs k1p)) = none := by decide +kernel
example : readRaw k1p (toRawBytes (one k1p) ++ [1, 2, 3]) = some (one k1p, [1, 2, 3]) := by
  decide +kernel

/-! ## C07 equality, order, parity -/

/-- **C07** equality of stored elements is equality of represented residues. -/
theorem C07_eq (p : ℕ) (hp : OddModulus p) (a b : List ℕ) (x y : ZMod p) (ha : Rep p a x)
    (hb : Rep p b y) : (ctEq a b = true ↔ x = y) ∧ (a = b ↔ x = y) := by
  have h : a = b ↔ x = y := by
    constructor
    · rintro rfl; exact ha.functional hp hb
    · rintro rfl; exact ha.unique hb
  exact ⟨by rw [ctEq_iff a b (by rw [ha.elem.len, hb.elem.len]), h], h⟩

/-- **C07** `cmp` is the order of the represented integers in `[0, p)`. -/
theorem C07_cmp (p : ℕ) (hp : OddModulus p) (a b : List ℕ) (x y : ZMod p) (ha : Rep p a x)
    (hb : Rep p b y) : Field.cmp p a b = compare x.val y.val := by
  obtain ⟨a1, a2, a3⟩ := toRepr_spec hp .LE ha
  obtain ⟨b1, b2, b3⟩ := toRepr_spec hp .LE hb
  unfold Field.cmp
  rw [← a3, ← b3]
  exact cmp_bytes _ _ a2 b2 (by rw [toRepr, toRepr, a1, b1])

/-- **C07** `is_odd` is the parity of the represented integer. -/
theorem C07_is_odd (p : ℕ) (hp : OddModulus p) (a : List ℕ) (x : ZMod p) (ha : Rep p a x) :
    isOdd p a = decide (x.val % 2 = 1) := by
  obtain ⟨a1, a2, a3⟩ := toRepr_spec hp .LE ha
  unfold isOdd
  have hn := numLimbs_pos p
  simp only [toRepr, Endian.nat] at *
  generalize toBytes p .LE a = bs at *
  cases bs with
  | nil => simp at a1; omega
  | cons y ys =>
    simp only [leNat] at a3
    have : x.val % 2 = y % 2 := by omega
    rw [this, List.headD_cons, Nat.and_one_is_mod]
    by_cases h : y % 2 = 1
    · simp [h]
    · have : y % 2 = 0 := by omega
      simp [this]

example : Field.cmp k1p (zero k1p) (one k1p) = compare (0 : ZMod k1p).val (1 : ZMod k1p).val :=
  C07_cmp k1p k1p_odd _ _ _ _ (rep_zero k1p_odd) (rep_one k1p_odd)

/-! ## C08 lexicographically_largest -/

/-- The full-strength claim: true iff the represented integer exceeds that of the negation. -/
def C08_claim (p : ℕ) : Prop :=
  ∀ (a : List ℕ) (x : ZMod p), Rep p a x → (lexLargest p a = true ↔ (-x).val < x.val)

theorem neg_val_of_ne {p : ℕ} (hp : OddModulus p) {x : ZMod p} (hx : x ≠ 0) :
    (-x).val = p - x.val := by
  have : NeZero p := ⟨by have := hp.gt; omega⟩
  rw [ZMod.neg_val, if_neg hx]

/-- **C08 is false of the code** for every odd modulus: at `x = (p-1)/2` the method answers `true`
although `-x` is larger. -/
theorem C08_false (p : ℕ) (hp : OddModulus p) : ¬ C08_claim p := by
  have : NeZero p := ⟨by have := hp.gt; omega⟩
  have h1 := hp.odd
  have h2 := hp.gt
  intro h
  obtain ⟨a, ha⟩ := Rep.exists_elem hp (((p - 1) / 2 : ℕ) : ZMod p)
  have hv : ((((p - 1) / 2 : ℕ) : ZMod p)).val = (p - 1) / 2 := by
    rw [ZMod.val_natCast]; exact Nat.mod_eq_of_lt (by omega)
  have hne : (((p - 1) / 2 : ℕ) : ZMod p) ≠ 0 := by
    intro e
    rw [← ZMod.val_eq_zero, hv] at e
    omega
  have := (h a _ ha).mp (by rw [lexLargest_spec hp ha, hv]; simp)
  rw [neg_val_of_ne hp hne, hv] at this
  omega

/-- **C08** the exact set: the method answers `true` exactly on `[(p-1)/2, p)`. -/
theorem C08_exact (p : ℕ) (hp : OddModulus p) (a : List ℕ) (x : ZMod p) (ha : Rep p a x) :
    lexLargest p a = true ↔ (p - 1) / 2 ≤ x.val := by
  rw [lexLargest_spec hp ha, decide_eq_true_eq]

/-- **C08** what does hold: the answer is right for every element except `(p-1)/2`. Missing from the full claim: the one element
`(p-1)/2`, where the answer is wrong (`C08_false`). -/
theorem C08_lex_largest_partial (p : ℕ) (hp : OddModulus p) (a : List ℕ) (x : ZMod p)
    (ha : Rep p a x) (hx : x.val ≠ (p - 1) / 2) :
    (lexLargest p a = true ↔ (-x).val < x.val) := by
  have : NeZero p := ⟨by have := hp.gt; omega⟩
  rw [lexLargest_spec hp ha, decide_eq_true_eq]
  have hlt := ZMod.val_lt x
  have h1 := hp.odd
  have h2 := hp.gt
  by_cases h0 : x = 0
  · subst h0
    simp only [ZMod.val_zero, neg_zero] at *
    omega
  · rw [neg_val_of_ne hp h0]
    have : 0 < x.val := Nat.pos_of_ne_zero (fun e => h0 ((ZMod.val_eq_zero x).mp e))
    omega

/-- **C08** consequence of the defect: both `x` and `-x` are "lexicographically largest" for
`x = (p-1)/2`, so the flag does not distinguish the two square roots. -/
theorem C08_both_largest (p : ℕ) (hp : OddModulus p) (a : List ℕ)
    (ha : Rep p a (((p - 1) / 2 : ℕ) : ZMod p)) :
    lexLargest p a = true ∧ lexLargest p (neg p a) = true := by
  have : NeZero p := ⟨by have := hp.gt; omega⟩
  have h1 := hp.odd
  have h2 := hp.gt
  have hv : ((((p - 1) / 2 : ℕ) : ZMod p)).val = (p - 1) / 2 := by
    rw [ZMod.val_natCast]; exact Nat.mod_eq_of_lt (by omega)
  have hne : (((p - 1) / 2 : ℕ) : ZMod p) ≠ 0 := by
    intro e
    rw [← ZMod.val_eq_zero, hv] at e
    omega
  rw [lexLargest_spec hp ha, lexLargest_spec hp (rep_neg ha), neg_val_of_ne hp hne, hv]
  simp only [le_refl, decide_true, true_and, decide_eq_true_eq]
  omega

example : ¬ C08_claim k1p := C08_false k1p k1p_odd
example : ∃ a x, Rep k1p a x ∧ x.val ≠ (k1p - 1) / 2 :=
  ⟨_, _, rep_zero k1p_odd, by rw [ZMod.val_zero]; decide +kernel⟩
example : ∃ a, Rep k1p a (((k1p - 1) / 2 : ℕ) : ZMod k1p) := Rep.exists_elem k1p_odd _

end Halo2.Props
