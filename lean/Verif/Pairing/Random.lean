import Verif.Pairing.Inst
import Verif.Field.FpBytes
import Verif.Props.FieldMisc
import Mathlib.RingTheory.IntegralDomain
import Mathlib.GroupTheory.SpecificGroups.Cyclic

/-!
# Random elements of the extension fields and of the target groups

The generator of random bytes is modelled by the list of the bytes that it is about to yield.
-/

namespace Halo2.Ext

open Halo2 Halo2.Field

/-- Models derive/src/field/mod.rs:383-387 (`random`): reads `2 SIZE` bytes. -/
def Fp.random {p : ℕ} [Fact (OddModulus p)] (s : List ℕ) : Fp p × List ℕ :=
  (Fp.fromUniform (s.take (2 * (8 * numLimbs p))), s.drop (2 * (8 * numLimbs p)))

/-- Models src/ff_ext/quadratic.rs:284-286 (`random`). -/
def Quad.random {F : Type} (draw : List ℕ → F × List ℕ) (s : List ℕ) : Quad F × List ℕ :=
  let c0 := draw s
  let c1 := draw c0.2
  (⟨c0.1, c1.1⟩, c1.2)

/-- Models src/ff_ext/cubic.rs:195-201 (`random`). -/
def Cubic.random {F : Type} (draw : List ℕ → F × List ℕ) (s : List ℕ) : Cubic F × List ℕ :=
  let c0 := draw s
  let c1 := draw c0.2
  let c2 := draw c1.2
  (⟨c0.1, c1.1, c2.1⟩, c2.2)

/-- `random` of a sextic extension of a quadratic extension of a prime field. -/
def random12 (p : ℕ) [Fact (OddModulus p)] (s : List ℕ) : Quad (Cubic (Quad (Fp p))) × List ℕ :=
  Quad.random (Cubic.random (Quad.random Fp.random)) s

/-- Models src/derive/pairing.rs:245-248 (`random` of `Gt`); `none` is the panic. -/
def gtRandom {T : Type} (draw : List ℕ → T × List ℕ) (finalExp : T → Option T) (s : List ℕ) : Option T := finalExp (draw s).1

/-- `draw` reads `L` bytes, whatever follows them, and `c x` strings of `L` bytes give `x`. -/
structure Draws {F : Type} (draw : List ℕ → F × List ℕ) (L : ℕ) (c : F → ℕ) : Prop where
  reads : ∀ s t : List ℕ, s.length = L → draw (s ++ t) = ((draw s).1, t)
  count : ∀ x, {s : List ℕ | s.length = L ∧ IsBytes s ∧ (draw s).1 = x}.ncard = c x

theorem isBytes_append {s t : List ℕ} : IsBytes (s ++ t) ↔ IsBytes s ∧ IsBytes t := by
  simp only [IsBytes, List.mem_append]
  exact ⟨fun h => ⟨fun b hb => h b (Or.inl hb), fun b hb => h b (Or.inr hb)⟩, fun h b hb => hb.elim (h.1 b) (h.2 b)⟩

theorem ncard_append (A B : Set (List ℕ)) (L : ℕ) (hA : ∀ s ∈ A, s.length = L) :
    ((fun q : List ℕ × List ℕ => q.1 ++ q.2) '' (A ×ˢ B)).ncard = A.ncard * B.ncard := by
  rw [Set.InjOn.ncard_image, Set.ncard_prod]
  rintro ⟨a, b⟩ ⟨ha, _⟩ ⟨a', b'⟩ ⟨ha', _⟩ h
  obtain ⟨h1, h2⟩ := List.append_inj h ((hA _ ha).trans (hA _ ha').symm)
  exact Prod.ext h1 h2

theorem Draws.quad {F : Type} {draw : List ℕ → F × List ℕ} {L : ℕ} {c : F → ℕ} (h : Draws draw L c) :
    Draws (Quad.random draw) (2 * L) (fun x => c x.c0 * c x.c1) := by
  have key : ∀ s t u : List ℕ, s.length = L → t.length = L → Quad.random draw (s ++ t ++ u) = (⟨(draw s).1, (draw t).1⟩, u) := by
    intro s t u hs ht
    rw [Quad.random, List.append_assoc, h.reads s _ hs]
    dsimp only
    rw [h.reads t _ ht]
  have key0 : ∀ s t : List ℕ, s.length = L → t.length = L → Quad.random draw (s ++ t) = (⟨(draw s).1, (draw t).1⟩, []) := by
    intro s t hs ht
    have := key s t [] hs ht
    rwa [List.append_nil] at this
  constructor
  · intro s t hs
    have h1 : (s.take L).length = L := by rw [List.length_take]; omega
    have h2 : (s.drop L).length = L := by rw [List.length_drop]; omega
    rw [← List.take_append_drop L s, key _ _ t h1 h2, key0 _ _ h1 h2]
  · intro x
    rw [← h.count x.c0, ← h.count x.c1, ← ncard_append _ _ L fun s hs => hs.1]
    congr 1
    ext s
    constructor
    · rintro ⟨hl, hb, hx⟩
      have h1 : (s.take L).length = L := by rw [List.length_take]; omega
      have h2 : (s.drop L).length = L := by rw [List.length_drop]; omega
      rw [← List.take_append_drop L s, key0 _ _ h1 h2] at hx
      rw [← List.take_append_drop L s, isBytes_append] at hb
      exact ⟨(s.take L, s.drop L), ⟨⟨h1, hb.1, congrArg Quad.c0 hx⟩, ⟨h2, hb.2, congrArg Quad.c1 hx⟩⟩, List.take_append_drop L s⟩
    · rintro ⟨⟨a, b⟩, ⟨⟨a1, a2, a3⟩, ⟨b1, b2, b3⟩⟩, rfl⟩
      refine ⟨?_, isBytes_append.mpr ⟨a2, b2⟩, ?_⟩
      · dsimp only
        rw [List.length_append, a1, b1]
        omega
      · dsimp only at *
        rw [key0 a b a1 b1]
        exact Quad.ext a3 b3

theorem Draws.cubic {F : Type} {draw : List ℕ → F × List ℕ} {L : ℕ} {c : F → ℕ} (h : Draws draw L c) :
    Draws (Cubic.random draw) (3 * L) (fun x => c x.c0 * (c x.c1 * c x.c2)) := by
  have key : ∀ s t v u : List ℕ, s.length = L → t.length = L → v.length = L →
      Cubic.random draw (s ++ (t ++ v) ++ u) = (⟨(draw s).1, (draw t).1, (draw v).1⟩, u) := by
    intro s t v u hs ht hv
    rw [Cubic.random, List.append_assoc, h.reads s _ hs]
    dsimp only
    rw [List.append_assoc, h.reads t _ ht]
    dsimp only
    rw [h.reads v _ hv]
  have key0 : ∀ s t v : List ℕ, s.length = L → t.length = L → v.length = L →
      Cubic.random draw (s ++ (t ++ v)) = (⟨(draw s).1, (draw t).1, (draw v).1⟩, []) := by
    intro s t v hs ht hv
    have := key s t v [] hs ht hv
    rwa [List.append_nil] at this
  have split : ∀ s : List ℕ, s.length = 3 * L → ∃ a b d, s = a ++ (b ++ d) ∧ a.length = L ∧ b.length = L ∧ d.length = L := by
    intro s hs
    refine ⟨s.take L, (s.drop L).take L, (s.drop L).drop L, ?_, ?_, ?_, ?_⟩
    · rw [List.take_append_drop, List.take_append_drop]
    · rw [List.length_take]; omega
    · rw [List.length_take, List.length_drop]; omega
    · rw [List.length_drop, List.length_drop]; omega
  constructor
  · intro s t hs
    obtain ⟨a, b, d, rfl, h1, h2, h3⟩ := split s hs
    rw [key _ _ _ t h1 h2 h3, key0 _ _ _ h1 h2 h3]
  · intro x
    rw [← h.count x.c0, ← h.count x.c1, ← h.count x.c2, ← ncard_append _ _ L fun s hs => hs.1,
      ← ncard_append _ _ L fun s hs => hs.1]
    congr 1
    ext s
    constructor
    · rintro ⟨hl, hb, hx⟩
      obtain ⟨a, b, d, rfl, h1, h2, h3⟩ := split s hl
      rw [key0 _ _ _ h1 h2 h3] at hx
      rw [isBytes_append, isBytes_append] at hb
      exact ⟨(a, b ++ d), ⟨⟨h1, hb.1, congrArg Cubic.c0 hx⟩,
        ⟨(b, d), ⟨⟨h2, hb.2.1, congrArg Cubic.c1 hx⟩, ⟨h3, hb.2.2, congrArg Cubic.c2 hx⟩⟩, rfl⟩⟩, rfl⟩
    · rintro ⟨⟨a, bd⟩, ⟨⟨a1, a2, a3⟩, ⟨⟨b, d⟩, ⟨⟨b1, b2, b3⟩, ⟨d1, d2, d3⟩⟩, rfl⟩⟩, rfl⟩
      refine ⟨?_, isBytes_append.mpr ⟨a2, isBytes_append.mpr ⟨b2, d2⟩⟩, ?_⟩
      · dsimp only
        rw [List.length_append, List.length_append, a1, b1, d1]
        omega
      · dsimp only at *
        rw [key0 a b d a1 b1 d1]
        exact Cubic.ext a3 b3 d3

/-- The number of strings of `2 SIZE` bytes that give the element. -/
noncomputable def fpCount {p : ℕ} [Fact (OddModulus p)] (x : Fp p) : ℕ :=
  256 ^ (2 * (8 * numLimbs p)) / p + if x.toNat < 256 ^ (2 * (8 * numLimbs p)) % p then 1 else 0

theorem draws_fp {p : ℕ} [hp : Fact (OddModulus p)] : Draws (Fp.random (p := p)) (2 * (8 * numLimbs p)) fpCount := by
  constructor
  · intro s t hs
    rw [Fp.random, Fp.random, ← hs, List.take_left, List.drop_left, List.take_length]
  · intro x
    have := Props.C54_random_field p hp.out x.toZMod
    rw [fpCount, Fp.toNat, ← this]
    congr 1
    ext s
    have key : ∀ s : List ℕ, s.length = 2 * (8 * numLimbs p) → IsBytes s →
        ((Fp.random (p := p) s).1 = x ↔ Rep p (randomWide p s) x.toZMod) := by
      intro s h1 h2
      have hr := Props.C05_from_uniform_bytes p hp.out s (by rw [h1]) h2
      have e : (Fp.random (p := p) s).1 = Fp.ofMont (Field.fromUniformBytes p s) := by
        rw [Fp.random, ← h1, List.take_length, Fp.fromUniform]
      rw [e]
      constructor
      · intro h
        rw [← h, randomWide]
        have := (Fp.ofMont (Field.fromUniformBytes p s) : Fp p).rep
        rwa [Fp.limbs_ofMont hr.elem] at this
      · intro h
        have h3 : Field.fromUniformBytes p s = x.limbs := Rep.unique h x.rep
        rw [h3, Fp.ofMont_limbs]
    constructor
    · rintro ⟨h1, h2, h3⟩
      exact ⟨h1, h2, (key s h1 h2).mp h3⟩
    · rintro ⟨h1, h2, h3⟩
      exact ⟨h1, h2, (key s h1 h2).mpr h3⟩

/-- The product of the counts of the twelve coordinates. -/
noncomputable def count12 {p : ℕ} [Fact (OddModulus p)] (x : Quad (Cubic (Quad (Fp p)))) : ℕ :=
  ((fpCount x.c0.c0.c0 * fpCount x.c0.c0.c1) * ((fpCount x.c0.c1.c0 * fpCount x.c0.c1.c1) * (fpCount x.c0.c2.c0 * fpCount x.c0.c2.c1))) *
  ((fpCount x.c1.c0.c0 * fpCount x.c1.c0.c1) * ((fpCount x.c1.c1.c0 * fpCount x.c1.c1.c1) * (fpCount x.c1.c2.c0 * fpCount x.c1.c2.c1)))

theorem draws12 (p : ℕ) [Fact (OddModulus p)] : Draws (random12 p) (2 * (3 * (2 * (2 * (8 * numLimbs p))))) count12 :=
  draws_fp.quad.cubic.quad

/-! ### Cardinalities and the distribution of powers -/

theorem card_fp (p : ℕ) [Fact (OddModulus p)] : Nat.card (Fp p) = p := by
  rw [Nat.card_congr (Fp.equiv p).toEquiv, Nat.card_zmod]

theorem card_quad (F : Type) : Nat.card (Quad F) = Nat.card F ^ 2 := by
  rw [Nat.card_congr (⟨fun x => (x.c0, x.c1), fun q => ⟨q.1, q.2⟩, fun _ => rfl, fun _ => rfl⟩ : Quad F ≃ F × F), Nat.card_prod, pow_two]

theorem card_cubic (F : Type) : Nat.card (Cubic F) = Nat.card F ^ 3 := by
  rw [Nat.card_congr (⟨fun x => (x.c0, x.c1, x.c2), fun q => ⟨q.1, q.2.1, q.2.2⟩, fun _ => rfl, fun _ => rfl⟩ :
    Cubic F ≃ F × F × F), Nat.card_prod, Nat.card_prod]
  ring

theorem card12 (p : ℕ) [Fact (OddModulus p)] : Nat.card (Quad (Cubic (Quad (Fp p)))) = p ^ 12 := by
  rw [card_quad, card_cubic, card_quad, card_fp]
  ring

/-- Raising to a multiple of the cofactor prime to `r` is equidistributed over the elements of order dividing `r`. -/
theorem pow_equidistributed {T : Type} [_root_.Field T] [Finite T] (r m k : ℕ) (hc : Nat.card T - 1 = m * r) (hk : Nat.Coprime k r)
    (hr : 0 < r) (g : T) (hg : g ^ r = 1) : {f : T | f ≠ 0 ∧ f ^ (k * m) = g}.ncard = m := by
  have hcard : Nat.card Tˣ = m * r := by
    rw [← hc]
    have := Fintype.ofFinite T
    classical
    rw [Nat.card_units]
  have hmr : 0 < m * r := by
    rw [← hcard]
    exact Nat.card_pos
  have hm : 0 < m := Nat.pos_of_mul_pos_right hmr
  have hg0 : g ≠ 0 := by
    rintro rfl
    rw [zero_pow (by omega)] at hg
    exact zero_ne_one hg
  -- the fibre over `g`, among units
  let φ : Tˣ →* Tˣ := powMonoidHom (k * m)
  have hker : Nat.card φ.ker = m := by
    rw [IsCyclic.card_powMonoidHom_ker, hcard, Nat.mul_comm k m, Nat.gcd_mul_left, Nat.gcd_comm, Nat.Coprime.gcd_eq_one hk, mul_one]
  have hrange : Nat.card φ.range = r := by
    rw [IsCyclic.card_powMonoidHom_range, hcard, Nat.mul_comm k m, Nat.gcd_mul_left, Nat.gcd_comm, Nat.Coprime.gcd_eq_one hk, mul_one,
      Nat.mul_div_cancel_left _ hm]
  let ψ : Tˣ →* Tˣ := powMonoidHom r
  have hψ : Nat.card ψ.ker = r := by
    rw [IsCyclic.card_powMonoidHom_ker, hcard, Nat.gcd_mul_left_left]
  have hle : φ.range ≤ ψ.ker := by
    rintro _ ⟨u, rfl⟩
    rw [MonoidHom.mem_ker]
    change (u ^ (k * m)) ^ r = 1
    rw [← pow_mul, mul_assoc, ← hcard, mul_comm, pow_mul, pow_card_eq_one', one_pow]
  have heq : φ.range = ψ.ker := by
    apply SetLike.coe_injective
    refine Set.eq_of_subset_of_ncard_le hle ?_ (Set.toFinite _)
    have e1 : (ψ.ker : Set Tˣ).ncard = r := by rw [← hψ]; exact (Nat.card_coe_set_eq _).symm
    have e2 : (φ.range : Set Tˣ).ncard = r := by rw [← hrange]; exact (Nat.card_coe_set_eq _).symm
    rw [e1, e2]
  have hgu : Units.mk0 g hg0 ∈ φ.range := by
    rw [heq, MonoidHom.mem_ker]
    change Units.mk0 g hg0 ^ r = 1
    ext
    rw [Units.val_pow_eq_pow_val, Units.val_mk0, hg, Units.val_one]
  obtain ⟨u, hu⟩ := hgu
  have hu' : (u : T) ^ (k * m) = g := by
    have := congrArg Units.val hu
    exact this
  have himg : {f : T | f ≠ 0 ∧ f ^ (k * m) = g} = (fun v : Tˣ => (u : T) * v) '' (φ.ker : Set Tˣ) := by
    ext f
    constructor
    · rintro ⟨hf, he⟩
      refine ⟨u⁻¹ * Units.mk0 f hf, ?_, ?_⟩
      · change u⁻¹ * Units.mk0 f hf ∈ φ.ker
        rw [MonoidHom.mem_ker]
        change (u⁻¹ * Units.mk0 f hf) ^ (k * m) = 1
        ext
        rw [mul_pow, inv_pow, Units.val_mul, Units.val_inv_eq_inv_val, Units.val_pow_eq_pow_val, Units.val_pow_eq_pow_val, hu',
          Units.val_mk0, he, Units.val_one, inv_mul_cancel₀ hg0]
      · change (u : T) * ((u⁻¹ * Units.mk0 f hf : Tˣ) : T) = f
        rw [← Units.val_mul, mul_inv_cancel_left, Units.val_mk0]
    · rintro ⟨v, hv, rfl⟩
      have hv' : (v : T) ^ (k * m) = 1 := by
        have h := MonoidHom.mem_ker.mp hv
        exact congrArg Units.val h
      refine ⟨mul_ne_zero u.ne_zero v.ne_zero, ?_⟩
      change ((u : T) * v) ^ (k * m) = g
      rw [mul_pow, hu', hv', mul_one]
  rw [himg, Set.InjOn.ncard_image, ← hker]
  · exact (Nat.card_coe_set_eq _).symm
  · intro a _ b _ h
    exact Units.ext (mul_left_cancel₀ u.ne_zero h)

end Halo2.Ext
