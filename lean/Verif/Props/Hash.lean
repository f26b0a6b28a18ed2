import Verif.Hash.ExpandLemmas
import Verif.Prime.Moduli
import Verif.Props.Ext2

/-!
# Hashing to the field: C34
-/

set_option linter.unusedSectionVars false

namespace Halo2.Props

open Halo2 Halo2.Field Halo2.Prime Halo2.Ext Halo2.Hash

/-- **C34** `expand_message` is `expand_message_xmd` of RFC 9380 with the tag `domain_prefix ‖ domain`, for every hash function,
message, tag and every output length within the RFC's limits; tags of 256 bytes and more panic where the RFC aborts. -/
theorem C34_expand (D : Digest) (hD : D.Ok) (checks : Bool) (pre domain msg : List ℕ) (len : ℕ) (h0 : 1 ≤ len)
    (hell : xmdEll D len ≤ 255) (hlen : len ≤ 65535) :
    expandMessage D checks pre domain msg len = expandMessageXmd D msg (pre ++ domain) len ∧
    ((∃ out, expandMessage D checks pre domain msg len = some out ∧ out.length = len ∧ IsBytes out) ↔
      pre.length + domain.length < 256) := by
  have e := expandMessage_eq D hD checks pre domain msg len h0 hell hlen
  refine ⟨e, ?_⟩
  rw [e]
  constructor
  · rintro ⟨out, h, _⟩
    by_contra hc
    rw [expandMessageXmd, if_pos (by rw [List.length_append]; omega)] at h
    cases h
  · intro h
    exact expandMessageXmd_spec D hD msg (pre ++ domain) len hell hlen (by rwa [List.length_append])

/-- **C34** The limit on the number of blocks is the caller's: where the RFC aborts, the code panics on the counter when overflow checks are on,
and otherwise goes on with a counter that has wrapped to 0. (No caller in the library asks for that much.) -/
theorem C34_long (D : Digest) (hD : D.Ok) (msg : List ℕ) :
    expandMessageXmd D msg [] (255 * D.outputSize + 1) = none ∧
    expandMessage D true [] [] msg (255 * D.outputSize + 1) = none ∧
    ∃ out, expandMessage D false [] [] msg (255 * D.outputSize + 1) = some out := by
  have hpos := hD.pos
  have hell : (255 * D.outputSize + 1 + (D.outputSize - 1)) / D.outputSize = 256 := by
    rw [show 255 * D.outputSize + 1 + (D.outputSize - 1) = 256 * D.outputSize by omega, Nat.mul_div_cancel _ hpos]
  have hell' : (255 * D.outputSize + 1 + D.outputSize - 1) / D.outputSize = 256 := by
    rw [Nat.add_sub_assoc hpos]; exact hell
  refine ⟨by rw [expandMessageXmd, if_pos]; exact Or.inl (by rw [xmdEll, hell]; decide), ?_, ?_⟩
  · rw [expandMessage, if_neg (by simp)]
    dsimp only
    rw [hell']
    have : ∀ b0 dst s, (List.range' 1 (256 - 1)).foldlM (expandStep D true b0 dst) s = none := by
      intro b0 dst s
      rw [show 256 - 1 = 254 + 1 by rfl, List.range'_concat, List.foldlM_append]
      cases List.foldlM (expandStep D true b0 dst) s (List.range' 1 254) with
      | none => rfl
      | some t =>
        change List.foldlM (expandStep D true b0 dst) t [1 + 1 * 254] = _
        rw [List.foldlM_cons, expandStep]
        have : counter true (1 + 1 * 254) = none := by decide
        rw [this]
        rfl
    rw [this]
  · rw [expandMessage, if_neg (by simp)]
    dsimp only
    rw [hell']
    have : ∀ b0 dst (l : List ℕ) s, ∃ t, l.foldlM (expandStep D false b0 dst) s = some t := by
      intro b0 dst l
      induction l with
      | nil => exact fun s => ⟨s, rfl⟩
      | cons i l ih =>
        intro s
        rw [List.foldlM_cons, expandStep]
        have : counter false i = some ((1 + i % 256) % 256) := by rw [counter, if_neg (by simp)]
        rw [this]
        exact ih _
    obtain ⟨t, ht⟩ := this _ _ (List.range' 1 (256 - 1)) _
    rw [ht]
    exact ⟨_, if_neg (by decide)⟩

/-- **C34** An empty output is not within the code's limits: the RFC returns the empty string, the code computes `ell - 1` for `ell = 0`,
which panics when overflow checks are on and otherwise has no effect. (No caller in the library asks for an empty output.) -/
theorem C34_empty (D : Digest) (hD : D.Ok) (pre domain msg : List ℕ) (h : pre.length + domain.length < 256) :
    expandMessageXmd D msg (pre ++ domain) 0 = some [] ∧
    expandMessage D true pre domain msg 0 = none ∧ expandMessage D false pre domain msg 0 = some [] := by
  have hpos := hD.pos
  have hell : (0 + D.outputSize - 1) / D.outputSize = 0 := Nat.div_eq_of_lt (by omega)
  refine ⟨?_, ?_, ?_⟩
  · obtain ⟨out, e, hl, _⟩ := expandMessageXmd_spec D hD msg (pre ++ domain) 0
      (by rw [xmdEll, show (0 + (D.outputSize - 1)) / D.outputSize = 0 from Nat.div_eq_of_lt (by omega)]; decide) (by decide)
      (by rwa [List.length_append])
    rw [e, List.length_eq_zero_iff.mp hl]
  · rw [expandMessage, if_neg (by omega)]
    dsimp only
    rw [hell]
    rfl
  · rw [expandMessage, if_neg (by omega)]
    dsimp only
    rw [hell]
    rfl

example : expandMessage ⟨fun _ => [7], 1, 1⟩ false [1] [2] [3] 0 = some [] :=
  (C34_empty ⟨fun _ => [7], 1, 1⟩ ⟨fun _ => rfl, fun _ b hb => by rw [List.mem_singleton.mp hb]; decide, by decide⟩ [1] [2] [3] (by decide)).2.2

variable {p : ℕ} [Fact (OddModulus p)]

/-- **C34** `hash_to_field` for a prime field: the two elements are the RFC's (`m = 1`): the big-endian integers of the two
halves of the expanded message, modulo `p`. -/
theorem C34_field (D : Digest) (hD : D.Ok) (checks : Bool) (L : ℕ) (hL1 : 1 ≤ L) (hL : L ≤ 2 * (8 * numLimbs p))
    (hell : xmdEll D (L * 2) ≤ 255) (hlen : L * 2 ≤ 65535) (pre domain msg : List ℕ) :
    hashToField D checks (fun b => (Fp.fromUniform b : Fp p)) L pre domain msg =
      (hashToFieldRfc D L msg (pre ++ domain)).map (fun u => (((u.1 : ℕ) : Fp p), ((u.2 : ℕ) : Fp p))) := by
  rw [hashToField, hashToFieldRfc, Nat.mul_comm 2 L, expandMessage_eq D hD checks pre domain msg _ (by omega) hell hlen]
  by_cases hd : pre.length + domain.length < 256
  · obtain ⟨out, e, hl, hb⟩ := expandMessageXmd_spec D hD msg (pre ++ domain) (L * 2) hell hlen (by rwa [List.length_append])
    rw [e]
    dsimp only
    rw [if_neg (by omega), Option.map_some, Option.map_some, os2ip_eq, os2ip_eq, Fp.fromUniform_eq, Fp.fromUniform_eq]
    · rw [List.length_reverse, List.length_take]; omega
    · exact isBytes_reverse ((hb.drop _).take _)
    · rw [List.length_reverse, List.length_take]; omega
    · exact isBytes_reverse (hb.take _)
  · have : expandMessageXmd D msg (pre ++ domain) (L * 2) = none := by
      rw [expandMessageXmd, if_pos (by rw [List.length_append]; omega)]
    rw [this]
    rfl

/-- **C34** `hash_to_field` for a quadratic extension: the RFC's with `m = 2` (`L` bytes per coefficient, the first for `c0`). -/
theorem C34_field2 (D : Digest) (hD : D.Ok) (checks : Bool) (L : ℕ) (hL1 : 1 ≤ L) (hL : L ≤ 2 * (8 * numLimbs p))
    (hell : xmdEll D (L * 2 * 2) ≤ 255) (hlen : L * 2 * 2 ≤ 65535) (pre domain msg : List ℕ) :
    hashToField D checks (fun b => (Tower2.fromUniform b : Quad (Fp p))) (L * 2) pre domain msg =
      (hashToField2Rfc D L msg (pre ++ domain)).map (fun u => (⟨((u.1.1 : ℕ) : Fp p), ((u.1.2 : ℕ) : Fp p)⟩,
        ⟨((u.2.1 : ℕ) : Fp p), ((u.2.2 : ℕ) : Fp p)⟩)) := by
  have hu : ∀ (b : List ℕ), b.length = L * 2 → IsBytes b → (Tower2.fromUniform b.reverse : Quad (Fp p)) =
      ⟨((os2ip (b.take L) : ℕ) : Fp p), ((os2ip (b.drop L) : ℕ) : Fp p)⟩ := by
    intro b hl hb
    have h2 : b.reverse.length / 2 = L := by rw [List.length_reverse, hl]; omega
    have e1 : b.reverse.drop L = (b.take L).reverse := by
      rw [List.reverse_take, hl, show L * 2 - L = L by omega]
    have e2 : b.reverse.take L = (b.drop L).reverse := by
      rw [List.reverse_drop, hl, show L * 2 - L = L by omega]
    rw [Tower2.fromUniform, h2, e1, e2, os2ip_eq, os2ip_eq, Fp.fromUniform_eq, Fp.fromUniform_eq]
    · rw [List.length_reverse, List.length_drop]; omega
    · exact isBytes_reverse (hb.drop _)
    · rw [List.length_reverse, List.length_take]; omega
    · exact isBytes_reverse (hb.take _)
  rw [hashToField, hashToField2Rfc, show 2 * 2 * L = L * 2 * 2 by ring,
    expandMessage_eq D hD checks pre domain msg _ (by omega) hell hlen]
  by_cases hd : pre.length + domain.length < 256
  · obtain ⟨out, e, hl, hb⟩ := expandMessageXmd_spec D hD msg (pre ++ domain) (L * 2 * 2) hell hlen (by rwa [List.length_append])
    rw [e]
    dsimp only
    rw [if_neg (by omega), Option.map_some, Option.map_some, hu _ (by rw [List.length_take]; omega) (hb.take _),
      hu _ (by rw [List.length_take, List.length_drop]; omega) ((hb.drop _).take _)]
    have t1 : (out.take (L * 2)).take L = out.take L := by rw [List.take_take, Nat.min_eq_left (by omega)]
    have t2 : (out.take (L * 2)).drop L = (out.drop L).take L := by rw [List.drop_take]; congr 1; omega
    have t3 : ((out.drop (L * 2)).take (L * 2)).take L = (out.drop (L * 2)).take L := by
      rw [List.take_take, Nat.min_eq_left (by omega)]
    have t4 : ((out.drop (L * 2)).take (L * 2)).drop L = (out.drop (L * 3)).take L := by
      rw [List.drop_take, List.drop_drop]; congr 1; omega
    rw [t1, t2, t3, t4]
  · have : expandMessageXmd D msg (pre ++ domain) (L * 2 * 2) = none := by
      rw [expandMessageXmd, if_pos (by rw [List.length_append]; omega)]
    rw [this]
    rfl

/-- **C34** The parameter `L` of every suite is the RFC's `ceil((ceil(log2 p) + 128) / 8)` bytes per coefficient: bn256 (G1, G2), grumpkin,
bls12381 (G1, G2), pluto, eris, secp256k1, secq256k1, secp256r1; it is within the limits of `C34_field` and `C34_field2`. -/
theorem C34_suites (D : Digest) (h : D.outputSize = 32) :
    ∀ s ∈ [(bnQ, 48), (bnR, 48), (blsQ, 64), (plP, 72), (plQ, 72), (k1P, 48), (k1N, 48), (r1P, 48)],
      s.2 = (numBits s.1 + 128 + 7) / 8 ∧ s.2 ≤ 2 * (8 * numLimbs s.1) ∧ xmdEll D (s.2 * 2 * 2) ≤ 255 ∧ s.2 * 2 * 2 ≤ 65535 := by
  rw [show xmdEll D = fun len => (len + 31) / 32 from funext fun len => by rw [xmdEll, h]]
  decide +kernel

/-- A toy hash function, to see the construction run. -/
def toyDigest : Digest := ⟨fun m => [m.foldl (fun a b => (a * 3 + b + 1) % 256) 7, m.length % 256], 2, 4⟩

theorem toyDigest_ok : toyDigest.Ok := by
  refine ⟨fun m => rfl, fun m b hb => ?_, by decide⟩
  simp only [toyDigest, List.mem_cons, List.not_mem_nil, or_false] at hb
  rcases hb with rfl | rfl
  · rcases List.eq_nil_or_concat m with rfl | ⟨l, x, rfl⟩
    · decide
    · rw [List.concat_eq_append, List.foldl_append]; exact Nat.mod_lt _ (by decide)
  · exact Nat.mod_lt _ (by decide)

example : expandMessage toyDigest true [1] [2] [5, 6] 5 = expandMessageXmd toyDigest [5, 6] [1, 2] 5 ∧
    (expandMessage toyDigest true [1] [2] [5, 6] 5).map List.length = some 5 := by
  refine ⟨(C34_expand toyDigest toyDigest_ok true [1] [2] [5, 6] 5 (by decide) (by decide) (by decide)).1, by decide⟩

end Halo2.Props
