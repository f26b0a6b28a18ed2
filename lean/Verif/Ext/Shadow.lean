import Verif.Ext.Tower
import Verif.Field.FpField

/-!
# Kernel arithmetic in quadratic extensions of the prime fields

Constants of the library (Frobenius tables, non-residues, square root constants) are checked by
evaluating with pairs of naturals modulo `p`; the lemmas of this file transfer the results to
`Quad (Fp p)`.
-/

set_option linter.unusedSectionVars false

namespace Halo2.Ext.Shadow

open ExtField Halo2.Field

variable {p : ℕ} [hp : Fact (OddModulus p)] [ExtField (Fp p)] [LawfulExt (Fp p)]

/-- The element `x.1 + x.2 u`. -/
def cast (p : ℕ) [Fact (OddModulus p)] (x : ℕ × ℕ) : Quad (Fp p) := ⟨(x.1 : Fp p), (x.2 : Fp p)⟩

/-- Product modulo `u² = β`. -/
def mul (p β : ℕ) (x y : ℕ × ℕ) : ℕ × ℕ :=
  ((x.1 * y.1 + β * (x.2 * y.2)) % p, (x.1 * y.2 + x.2 * y.1) % p)

def conj (p : ℕ) (x : ℕ × ℕ) : ℕ × ℕ := (x.1, (p - x.2 % p) % p)

def powGo (p β : ℕ) : ℕ → ℕ × ℕ → ℕ → ℕ × ℕ → ℕ × ℕ
  | 0, _, _, acc => acc
  | fuel + 1, b, e, acc =>
    if e = 0 then acc
    else powGo p β fuel (mul p β b b) (e / 2) (if e % 2 = 1 then mul p β acc b else acc)

def pow (p β : ℕ) (x : ℕ × ℕ) (e : ℕ) : ℕ × ℕ := powGo p β 1100 x e (1, 0)

theorem natCast_mod (m : ℕ) : ((m % p : ℕ) : Fp p) = (m : Fp p) := by
  rw [Fp.natCast_eq_iff, Nat.mod_mod]

theorem cast_mul {β : ℕ} (hβ : (nonRes : Fp p) = (β : Fp p)) (x y : ℕ × ℕ) :
    cast p (mul p β x y) = cast p x * cast p y := by
  ext
  · change (((x.1 * y.1 + β * (x.2 * y.2)) % p : ℕ) : Fp p) = (x.1 : Fp p) * y.1 + mulNr ((x.2 : Fp p) * y.2)
    rw [natCast_mod, LawfulExt.mulNr_eq, hβ]
    push_cast
    ring
  · change (((x.1 * y.2 + x.2 * y.1) % p : ℕ) : Fp p) =
      ((x.1 : Fp p) + x.2) * ((y.1 : Fp p) + y.2) - ((x.1 : Fp p) * y.1 + (x.2 : Fp p) * y.2)
    rw [natCast_mod]
    push_cast
    ring

theorem cast_one : cast p (1, 0) = 1 := by
  ext
  · change ((1 : ℕ) : Fp p) = 1
    exact Nat.cast_one
  · change ((0 : ℕ) : Fp p) = 0
    exact Nat.cast_zero

theorem cast_powGo {β : ℕ} (hβ : (nonRes : Fp p) = (β : Fp p)) (fuel : ℕ) (b : ℕ × ℕ) (e : ℕ) (acc : ℕ × ℕ)
    (he : e < 2 ^ fuel) : cast p (powGo p β fuel b e acc) = cast p acc * cast p b ^ e := by
  induction fuel generalizing b e acc with
  | zero =>
    have : e = 0 := by simpa using he
    subst this
    simp [powGo]
  | succ fuel ih =>
    rw [powGo]
    by_cases h0 : e = 0
    · simp [h0]
    · rw [if_neg h0, ih _ _ _ (by rw [pow_succ] at he; omega), cast_mul hβ]
      have hm := Nat.div_add_mod e 2
      rcases Nat.mod_two_eq_zero_or_one e with h | h
      · rw [if_neg (by omega)]
        conv_rhs => rw [← hm, h, add_zero, pow_mul, pow_two]
      · rw [if_pos h, cast_mul hβ]
        conv_rhs => rw [← hm, h, pow_succ, pow_mul, pow_two]
        ring

theorem cast_pow {β : ℕ} (hβ : (nonRes : Fp p) = (β : Fp p)) (x : ℕ × ℕ) (e : ℕ) (he : e < 2 ^ 1100) :
    cast p (pow p β x e) = cast p x ^ e := by
  rw [pow, cast_powGo hβ _ _ _ _ he, cast_one, one_mul]

theorem cast_conj (x : ℕ × ℕ) : cast p (conj p x) = Quad.conjugate (cast p x) := by
  ext
  · rfl
  · change (((p - x.2 % p) % p : ℕ) : Fp p) = -(x.2 : Fp p)
    have hpos : 0 < p := by have := hp.out.gt; omega
    have hl : x.2 % p ≤ p := (Nat.mod_lt _ hpos).le
    rw [natCast_mod, Nat.cast_sub hl, CharP.cast_eq_zero (Fp p) p, natCast_mod, zero_sub]

theorem cast_add (x y : ℕ × ℕ) : cast p x + cast p y = cast p (x.1 + y.1, x.2 + y.2) := by
  ext
  · change (x.1 : Fp p) + y.1 = ((x.1 + y.1 : ℕ) : Fp p)
    rw [Nat.cast_add]
  · change (x.2 : Fp p) + y.2 = ((x.2 + y.2 : ℕ) : Fp p)
    rw [Nat.cast_add]

/-- Two shadows are equal as elements when they are congruent. -/
theorem cast_eq_of (x y : ℕ × ℕ) (h1 : x.1 % p = y.1 % p) (h2 : x.2 % p = y.2 % p) : cast p x = cast p y := by
  ext
  · exact (Fp.natCast_eq_iff _ _).mpr h1
  · exact (Fp.natCast_eq_iff _ _).mpr h2

theorem cast_eq_iff (x y : ℕ × ℕ) : cast p x = cast p y ↔ x.1 % p = y.1 % p ∧ x.2 % p = y.2 % p := by
  constructor
  · intro h
    exact ⟨(Fp.natCast_eq_iff _ _).mp (congrArg Quad.c0 h), (Fp.natCast_eq_iff _ _).mp (congrArg Quad.c1 h)⟩
  · exact fun h => cast_eq_of x y h.1 h.2

/-! ## Tables -/

/-- A coefficient written in the source as `Fq2 { c0: Fq([..]), c1: Fq([..]) }`. -/
def montPair (x : List ℕ × List ℕ) : Quad (Fp p) := ⟨Fp.ofMont x.1, Fp.ofMont x.2⟩

/-- A coefficient written in the source as `Fp2 { c0: Fp::from_raw([..]), c1: Fp::from_raw([..]) }`. -/
def rawPair (x : List ℕ × List ℕ) : Quad (Fp p) := ⟨Fp.ofRaw x.1, Fp.ofRaw x.2⟩

theorem montPair_eq (x : List ℕ × List ℕ) (h : IsElem p x.1 ∧ IsElem p x.2) (rinv : ℕ)
    (hr : 2 ^ (64 * numLimbs p) * rinv % p = 1) :
    (montPair x : Quad (Fp p)) = cast p (val x.1 * rinv % p, val x.2 * rinv % p) := by
  ext
  · exact Fp.ofMont_eq _ h.1 _ hr
  · exact Fp.ofMont_eq _ h.2 _ hr

theorem rawPair_eq (x : List ℕ × List ℕ) (h : (x.1.length = numLimbs p ∧ ∀ y ∈ x.1, y < 2 ^ 64) ∧
    (x.2.length = numLimbs p ∧ ∀ y ∈ x.2, y < 2 ^ 64)) :
    (rawPair x : Quad (Fp p)) = cast p (val x.1, val x.2) := by
  ext
  · exact Fp.ofRaw_eq _ h.1
  · exact Fp.ofRaw_eq _ h.2

/-- What is checked about a shadow table: `T[0] = 1`, `T[i+1] = conj(T[i]) * g`. -/
def tableOk (p β : ℕ) (T : List (ℕ × ℕ)) (n : ℕ) (g : ℕ × ℕ) : Bool :=
  decide (T.length = n) && decide (T.getD 0 (0, 0) = (1, 0)) &&
    (List.range n).all fun i =>
      decide (T.getD ((i + 1) % n) (0, 0) = mul p β (conj p (T.getD i (0, 0))) g)

theorem getD_map (T : List (ℕ × ℕ)) (i : ℕ) (hi : i < T.length) :
    (T.map (cast p)).getD i 0 = cast p (T.getD i (0, 0)) := by
  rw [List.getD_eq_getElem _ _ (by simpa using hi), List.getD_eq_getElem _ _ hi, List.getElem_map]

theorem table_spec [Fact p.Prime] {β d n : ℕ} (hβ : (nonRes : Fp p) = (β : Fp p)) (hd0 : 0 < d) (hn : 0 < n)
    (hd : d ∣ p - 1) (hfrob : ∀ x : Quad (Fp p), Quad.conjugate x = x ^ p)
    (T : List (ℕ × ℕ)) (ξ g : ℕ × ℕ) (hg : g = pow p β ξ ((p - 1) / d)) (hsz : p < 2 ^ 1100)
    (h : tableOk p β T n g = true) (i : ℕ) :
    (T.map (cast p)).getD (i % n) 0 = cast p ξ ^ ((p ^ i - 1) / d) := by
  rw [tableOk, Bool.and_eq_true, Bool.and_eq_true, List.all_eq_true] at h
  obtain ⟨⟨hl, h0⟩, hs⟩ := h
  rw [decide_eq_true_eq] at hl h0
  have hlt : (p - 1) / d < 2 ^ 1100 :=
    lt_of_le_of_lt (le_trans (Nat.div_le_self _ _) (Nat.sub_le _ _)) hsz
  refine Halo2.Ext.table_eq (cast p ξ) d n hd0 hn hd (T.map (cast p)) ?_ ?_ i
  · rw [getD_map T 0 (by omega), h0, cast_one]
  · intro j hj
    have := hs j (List.mem_range.mpr hj)
    rw [decide_eq_true_eq] at this
    rw [getD_map T _ (by rw [hl]; exact Nat.mod_lt _ hn), this, cast_mul hβ, cast_conj, hfrob,
      getD_map T j (by omega), hg, cast_pow hβ _ _ hlt]

end Halo2.Ext.Shadow
