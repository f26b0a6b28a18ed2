import Verif.Props.Hash
import Verif.Prime.Moduli

/-!
# Domain separation: C71
-/

namespace Halo2.Props

open Halo2 Halo2.Prime Halo2.Field Halo2.Hash

/-- The bytes of a string of ASCII characters. -/
def ascii (s : String) : List ℕ := s.toList.map Char.toNat

/-- A suite as it is shipped: the domain, `NUM_BITS` of `C::Base`, and `L`. -/
structure SuiteId where
  domain : String
  numBits : ℕ
  L : ℕ

/-- Models the suites of src/bn256/curve.rs:243-262, src/grumpkin/curve.rs:86-93, src/pluto_eris/curve.rs:153-160 and 235-242,
src/secp256k1/curve.rs:62-69, src/secq256k1/curve.rs:68-75, src/secp256r1/curve.rs:73-80, src/bls12381/g1.rs:29-96 and
src/bls12381/g2.rs:77-230. `NUM_BITS` of the quadratic extensions is that of the base field, see C58. -/
def suites : List SuiteId :=
  [⟨"BN254G1_XMD:SHA-256_SVDW_RO_", numBits bnQ, 48⟩,
   ⟨"BN254G2_XMD:SHA-256_SVDW_RO_", numBits bnQ, 96⟩,
   ⟨"GRUMPKIN_XMD:SHA-256_SVDW_RO_", numBits bnR, 48⟩,
   ⟨"pluto_XMD:SHA-256_SVDW_RO_", numBits plP, 72⟩,
   ⟨"eris_XMD:SHA-256_SVDW_RO_", numBits plQ, 72⟩,
   ⟨"secp256k1_XMD:SHA-256_SSWU_RO_", numBits k1P, 48⟩,
   ⟨"secq256k1_XMD:SHA-256_SVDW_RO_", numBits k1N, 48⟩,
   ⟨"P256_XMD:SHA-256_SSWU_RO_", numBits r1P, 48⟩,
   ⟨"BLS12381G1_XMD:SHA-256_SSWU_RO_", numBits blsQ, 64⟩,
   ⟨"BLS12381G2_XMD:SHA-256_SSWU_RO_", numBits blsQ, 128⟩]

/-- **C71** The assertion of `Suite::new` (src/hash_to_curve.rs:104) holds for every suite, and a prefix of up to 224 bytes is accepted by
all of them. -/
theorem C71_new : ∀ s ∈ suites, (s.numBits + 128) / 8 ≤ s.L ∧ IsBytes (ascii s.domain) ∧
    ∀ pre : List ℕ, pre.length ≤ 224 → pre.length + (ascii s.domain).length < 256 := by
  have h : ∀ s ∈ suites, (s.numBits + 128) / 8 ≤ s.L ∧ (∀ b ∈ ascii s.domain, b < 256) ∧ (ascii s.domain).length ≤ 31 := by decide +kernel
  intro s hs
  obtain ⟨h1, h2, h3⟩ := h s hs
  exact ⟨h1, h2, fun pre hp => by omega⟩

/-- **C71** Different suites never share a domain separation tag, whatever prefixes the callers choose, and for one suite different
prefixes give different tags. -/
theorem C71_tags : ∀ s ∈ suites, ∀ t ∈ suites, ∀ pre pre' : List ℕ,
    pre ++ ascii s.domain = pre' ++ ascii t.domain → s.domain = t.domain ∧ pre = pre' := by
  have h : ∀ s ∈ suites, ∀ t ∈ suites, s.domain = t.domain ∨
      ((ascii s.domain).reverse.isPrefixOf (ascii t.domain).reverse = false) := by decide +kernel
  have key : ∀ s ∈ suites, ∀ t ∈ suites, s.domain ≠ t.domain → ¬ ascii s.domain <:+ ascii t.domain := by
    intro s hs t ht hne hsuf
    rcases h s hs t ht with e | e
    · exact hne e
    · rw [← List.reverse_prefix, ← List.isPrefixOf_iff_prefix, e] at hsuf
      exact absurd hsuf (by decide)
  intro s hs t ht pre pre' e
  by_cases hd : s.domain = t.domain
  · rw [hd] at e
    exact ⟨hd, List.append_cancel_right e⟩
  · exfalso
    rcases List.suffix_or_suffix_of_suffix (l₃ := pre ++ ascii s.domain) ⟨pre, rfl⟩ ⟨pre', e.symm⟩ with hx | hx
    · exact key s hs t ht hd hx
    · exact key t ht s hs (Ne.symm hd) hx

theorem dstPrime_inj {A A' d d' : List ℕ} (hd : d.length < 256) (hd' : d'.length < 256) (e : A ++ dstPrime d = A' ++ dstPrime d') :
    A = A' ∧ d = d' := by
  rw [dstPrime, dstPrime, i2osp_one, i2osp_one, ← List.append_assoc, ← List.append_assoc] at e
  obtain ⟨e1, e2⟩ := List.append_inj' e rfl
  have hl : d.length = d'.length := by
    have := List.singleton_injective e2
    rwa [Nat.mod_eq_of_lt hd, Nat.mod_eq_of_lt hd'] at this
  exact List.append_inj' e1 hl

/-- The first two strings that are hashed when `msg` is expanded to `len` bytes under the tag `dst`. -/
def hashed (D : Digest) (dst msg : List ℕ) (len : ℕ) : List (List ℕ) :=
  let tag := dst ++ [dst.length]
  let first := List.replicate D.blockSize 0 ++ msg ++ [len / 256 % 256, len % 256, 0] ++ tag
  [first, D.H first ++ [1] ++ tag]

/-- A collision of the hash function, between a string of the one list and a string of the other. (That some collision exists is clear;
here it is one that can be read off the two computations.) -/
def Collision (D : Digest) (A B : List (List ℕ)) : Prop := ∃ x ∈ A, ∃ y ∈ B, x ≠ y ∧ D.H x = D.H y

theorem hashed_eq (D : Digest) {dst : List ℕ} (hd : dst.length < 256) (msg : List ℕ) (len : ℕ) : hashed D dst msg len =
    [i2osp 0 D.blockSize ++ msg ++ i2osp len 2 ++ i2osp 0 1 ++ dstPrime dst, xmdB0 D msg dst len ++ i2osp 1 1 ++ dstPrime dst] := by
  have e : List.replicate D.blockSize 0 ++ msg ++ [len / 256 % 256, len % 256, 0] ++ (dst ++ [dst.length]) =
      i2osp 0 D.blockSize ++ msg ++ i2osp len 2 ++ i2osp 0 1 ++ dstPrime dst := by
    rw [i2osp_zero, i2osp_two, i2osp_one, dstPrime, i2osp_one, Nat.mod_eq_of_lt hd]
    simp only [List.append_assoc, List.cons_append, List.nil_append, Nat.zero_mod]
  rw [hashed]
  rw [e, xmdB0, dstPrime, i2osp_one dst.length, Nat.mod_eq_of_lt hd]
  rfl

theorem xmd_collision {D : Digest} (hD : D.Ok) {msg msg' dst dst' : List ℕ} {len len' : ℕ} {out : List ℕ} (h0 : D.outputSize ≤ len)
    (h : expandMessageXmd D msg dst len = some out) (h' : expandMessageXmd D msg' dst' len' = some out)
    (hne : (dst, msg) ≠ (dst', msg')) : Collision D (hashed D dst msg len) (hashed D dst' msg' len') := by
  have hlen : ∀ {m d l}, expandMessageXmd D m d l = some out → xmdEll D l ≤ 255 ∧ l ≤ 65535 ∧ d.length < 256 ∧ out.length = l := by
    intro m d l e
    by_cases hc : 255 < xmdEll D l ∨ 65535 < l ∨ 255 < d.length
    · rw [expandMessageXmd, if_pos hc] at e
      cases e
    · push Not at hc
      obtain ⟨o, e', ho, _⟩ := expandMessageXmd_spec D hD m d l hc.1 hc.2.1 (by omega)
      rw [e] at e'
      obtain rfl := Option.some.inj e'
      exact ⟨hc.1, hc.2.1, by omega, ho⟩
  obtain ⟨a1, a2, a3, a4⟩ := hlen h
  obtain ⟨-, -, b3, b4⟩ := hlen h'
  obtain rfl : len = len' := a4.symm.trans b4
  have hpos := hD.pos
  have first : ∀ {m d}, d.length < 256 → expandMessageXmd D m d len = some out → xmdB D m d len 0 = out.take D.outputSize := by
    intro m d hd e
    rw [expandMessageXmd, if_neg (by omega)] at e
    obtain ⟨k, hk⟩ : ∃ k, xmdEll D len = k + 1 := by
      refine ⟨xmdEll D len - 1, ?_⟩
      have : 1 ≤ xmdEll D len := by
        rw [xmdEll, Nat.le_div_iff_mul_le hpos]
        omega
      omega
    rw [← Option.some.inj e, hk, List.range_succ_eq_map, List.map_cons, List.flatten_cons, List.take_take, Nat.min_eq_left h0,
      List.take_append_of_le_length (by rw [xmdB_length D hD]), List.take_of_length_le (by rw [xmdB_length D hD])]
  rw [hashed_eq D a3, hashed_eq D b3]
  have e1 := (first a3 h).trans (first b3 h').symm
  rw [xmdB, xmdB] at e1
  by_cases c1 : xmdB0 D msg dst len ++ i2osp 1 1 ++ dstPrime dst = xmdB0 D msg' dst' len ++ i2osp 1 1 ++ dstPrime dst'
  · obtain ⟨e2, rfl⟩ := dstPrime_inj a3 b3 c1
    have e3 := List.append_cancel_right e2
    rw [xmdB0, xmdB0] at e3
    by_cases c2 : i2osp 0 D.blockSize ++ msg ++ i2osp len 2 ++ i2osp 0 1 ++ dstPrime dst =
        i2osp 0 D.blockSize ++ msg' ++ i2osp len 2 ++ i2osp 0 1 ++ dstPrime dst
    · have e4 := List.append_cancel_left (List.append_cancel_right (List.append_cancel_right (List.append_cancel_right c2)))
      exact absurd (by rw [e4]) hne
    · exact ⟨_, List.mem_cons_self, _, List.mem_cons_self, c2, e3⟩
  · exact ⟨_, List.mem_cons_of_mem _ List.mem_cons_self, _, List.mem_cons_of_mem _ List.mem_cons_self, c1, e1⟩

/-- **C71** For any two suites, prefixes and messages: if the byte strings from which the field elements are taken are equal, then the
suites, prefixes and messages are equal, or two of the strings hashed on the way are a collision of the
hash function. -/
theorem C71_expand (D : Digest) (hD : D.Ok) (h32 : D.outputSize = 32) (checks : Bool) :
    ∀ s ∈ suites, ∀ t ∈ suites, ∀ (pre pre' msg msg' out : List ℕ),
      expandMessage D checks pre (ascii s.domain) msg (s.L * 2) = some out →
      expandMessage D checks pre' (ascii t.domain) msg' (t.L * 2) = some out →
      (s.domain = t.domain ∧ pre = pre' ∧ msg = msg') ∨
        Collision D (hashed D (pre ++ ascii s.domain) msg (s.L * 2)) (hashed D (pre' ++ ascii t.domain) msg' (t.L * 2)) := by
  intro s hs t ht pre pre' msg msg' out h h'
  have hL : ∀ s ∈ suites, 32 ≤ s.L * 2 ∧ (s.L * 2 + 31) / 32 ≤ 255 ∧ s.L * 2 ≤ 65535 := by decide +kernel
  have hE : ∀ l, xmdEll D l = (l + 31) / 32 := fun l => by rw [xmdEll, h32]
  obtain ⟨s1, s2, s3⟩ := hL s hs
  obtain ⟨t1, t2, t3⟩ := hL t ht
  rw [(C34_expand D hD checks pre _ msg _ (by omega) (by rw [hE]; exact s2) s3).1] at h
  rw [(C34_expand D hD checks pre' _ msg' _ (by omega) (by rw [hE]; exact t2) t3).1] at h'
  by_cases hne : (pre ++ ascii s.domain, msg) = (pre' ++ ascii t.domain, msg')
  · obtain ⟨e1, e2⟩ := Prod.mk.inj hne
    obtain ⟨e3, e4⟩ := C71_tags s hs t ht pre pre' e1
    exact Or.inl ⟨e3, e4, e2⟩
  · exact Or.inr (xmd_collision hD (by omega) h h' hne)

/-- Two prefixes that would collide if the tags were the concatenation without a suite of their own: here they do not. -/
example : ascii "QUUX-" ++ ascii "BN254G1_XMD:SHA-256_SVDW_RO_" ≠ ascii "QUUX-BN254G1_XMD:SHA-256_SVDW_RO_" ++ ascii "eris_XMD:SHA-256_SVDW_RO_" := by
  decide +kernel

/-- The hypotheses of `C71_expand` are met: a digest with 32 bytes, and messages that are expanded. -/
def pad32 : Digest := ⟨fun m => List.replicate 31 0 ++ [m.length % 256], 32, 64⟩

theorem pad32_ok : pad32.Ok := by
  refine ⟨fun m => rfl, fun m b hb => ?_, by decide⟩
  simp only [pad32, List.mem_append, List.mem_replicate, List.mem_singleton] at hb
  rcases hb with ⟨_, rfl⟩ | rfl
  · decide
  · exact Nat.mod_lt _ (by decide)

example : pad32.Ok ∧ pad32.outputSize = 32 ∧ ∃ out, expandMessage pad32 true (ascii "QUUX-V01-CS02-with-") (ascii "P256_XMD:SHA-256_SSWU_RO_")
    (ascii "abc") (48 * 2) = some out := by
  have hOk := pad32_ok
  obtain ⟨out, h, _⟩ := (C34_expand pad32 hOk true (ascii "QUUX-V01-CS02-with-") (ascii "P256_XMD:SHA-256_SSWU_RO_") (ascii "abc") (48 * 2)
    (by decide) (by decide) (by decide)).2.mpr (by decide +kernel)
  exact ⟨hOk, rfl, out, h⟩

end Halo2.Props
