import Verif.Curve.WireProgram
import Verif.Props.Program
import Verif.Props.Serde
import Verif.Props.Order

/-!
# C86: programs that exchange encodings compute in the group
-/

set_option linter.unusedSectionVars false

namespace Halo2.Props

open Halo2 Halo2.Field Halo2.Prime Halo2.Ext Halo2.Curve Halo2.Msm Halo2.Program

variable {F : Type} [Field F] [DecidableEq F] [BaseField F] [LawfulBase F] {C : Params F}
variable {r : ℕ} [Fact (OddModulus r)] [Fact r.Prime] [Fp.SmallModulus r]

/-- How a program sees a group whose elements have encodings; `plain` are the elements whose compressed form is accepted. -/
structure WView (F G : Type) extends View F G where
  plain : G → Prop

/-- The registers with group elements and residues. -/
structure WASt (G : Type) (r : ℕ) where
  st : ASt G r
  bs : ℕ → List ℕ

/-- The bytes of a residue: its digits in base 256, the lowest first, as many as the limbs of the field hold. -/
def digits (k : ZMod r) : List ℕ := (List.range (8 * numLimbs r)).map fun i => k.val / 256 ^ i % 256

open Classical in
/-- The element with a property, zero if there is none. -/
noncomputable def theOne {G : Type} [Zero G] (P : G → Prop) : G := if h : ∃ g, P g then h.choose else 0

/-- The bytes of an element. -/
def bytesOf {G : Type} (V : WView F G) (g : G) : List ℕ :=
  match V.comp g with
  | .ok b => b
  | .panic => []

/-- The meaning of a call: decoding finds the element with the given encoding. -/
noncomputable def wastep {G : Type} [AddCommGroup G] (V : WView F G) (t : WASt G r) : WOp F → WASt G r
  | .base o => { t with st := astep V.toView t.st o }
  | .bConst d b => { t with bs := set t.bs d b }
  | .enc d a => { t with bs := set t.bs d (bytesOf V (t.st.af a)) }
  | .encU d a => { t with bs := set t.bs d (V.unc (t.st.af a)) }
  | .encS d a => { t with bs := set t.bs d (digits (t.st.sc a)) }
  | .dec d a => { t with st := { t.st with af := set t.st.af d (theOne fun g => V.plain g ∧ V.comp g = .ok (t.bs a)) } }
  | .decU d a => { t with st := { t.st with af := set t.st.af d (theOne fun g => V.unc g = t.bs a) } }
  | .decS d a => { t with st := { t.st with sc := set t.st.sc d (theOne fun k => digits k = t.bs a) } }

open Classical in
/-- The meaning of a comparison. -/
noncomputable def watest {G : Type} [AddCommGroup G] [DecidableEq G] (V : WView F G) (t : WASt G r) : WTest → Bool
  | .base c => atest t.st c
  | .eqB a b => decide (t.bs a = t.bs b)
  | .isC a => decide (∃ g, V.plain g ∧ V.comp g = .ok (t.bs a))
  | .isU a => decide (∃ g, V.unc g = t.bs a)
  | .isS a => decide (∃ k : ZMod r, digits k = t.bs a)

/-- Output of the result of a comparison. -/
def waemit {G : Type} (t : WASt G r) (b : Bool) : WASt G r := { t with st := aemit t.st b }

/-- The meaning of a program. -/
noncomputable def warun {G : Type} [AddCommGroup G] [DecidableEq G] (V : WView F G) :
    ℕ → Prog (WOp F) WTest → WASt G r → Option (WASt G r) :=
  pureRun (wastep V) (watest V) waemit

/-- The group of points as programs see it: compressed forms with `x = 0` are rejected (on the curves that have such points). -/
noncomputable def wireView (K : Codec F) (C : Params F) : WView F (Pt C) :=
  { ptView K C with plain := fun p => p = 0 ∨ (affOf p).x ≠ 0 }

/-- What is needed of an encoding: no panics, and a sign that separates the two ordinates. -/
structure WireOk (K : Codec F) (C : Params F) : Prop where
  lawful : K.Lawful
  total : ∀ b, K.fromBytes b ≠ .panic
  sep : ∀ A, Aff.isOnCurve C A = true → A ≠ Aff.identity → K.sgn (-A.y) ≠ K.sgn A.y

/-- The registers hold representations of the abstract values, and bytes. -/
structure WSim (s : WSt F r) (t : WASt (Pt C) r) : Prop where
  st : Sim s.st t.st
  bs : s.bs = t.bs
  bytes : ∀ i, IsBytes (s.bs i)

/-- The conditions of `OpOk`; constant strings are bytes. -/
def WOpOk : WOp F → Prop
  | .base o => OpOk o
  | .bConst _ b => IsBytes b
  | _ => True

theorem theOne_eq {G : Type} [Zero G] {P : G → Prop} {g : G} (h : P g) (hu : ∀ g', P g' → g' = g) : theOne P = g := by
  have hex : ∃ g, P g := ⟨g, h⟩
  rw [theOne, dif_pos hex]
  exact hu _ hex.choose_spec

theorem theOne_none {G : Type} [Zero G] {P : G → Prop} (h : ¬ ∃ g, P g) : theOne P = 0 := by
  rw [theOne, dif_neg h]

theorem affOf_inj {p q : Pt C} (h : affOf p = affOf q) (hC : Good C) : p = q :=
  ARep.unique hC (affOf_rep p) (h ▸ affOf_rep q)

theorem affOf_identity (hC : Good C) {p : Pt C} : affOf p = Aff.identity ↔ p = 0 := by
  constructor
  · intro h
    exact ARep.unique hC (affOf_rep p) (h ▸ ARep.identity)
  · rintro rfl
    rfl

theorem affOf_onCurve (hC : Good C) (p : Pt C) : Aff.isOnCurve C (affOf p) = true := (Aff.valid_iff hC _).mp ⟨p, affOf_rep p⟩

/-- A decoder that returns exactly the points with an encoding, read as a group element. -/
theorem dec_rep (hC : Good C) {Q : Pt C → Prop} {o : Option (Aff F)} (h : ∀ A, o = some A ↔ ∃ p, A = affOf p ∧ Q p) :
    ARep C (o.getD Aff.identity) (theOne Q) ∧ (o.isSome = true ↔ ∃ p, Q p) := by
  cases o with
  | none =>
    have hn : ¬ ∃ p, Q p := fun ⟨p, hp⟩ => nomatch (h (affOf p)).mpr ⟨p, rfl, hp⟩
    rw [theOne_none hn]
    exact ⟨ARep.identity, ⟨(fun e => nomatch e), fun e => absurd e hn⟩⟩
  | some A =>
    obtain ⟨p, rfl, hp⟩ := (h A).mp rfl
    rw [theOne_eq hp]
    · exact ⟨affOf_rep p, ⟨fun _ => ⟨p, hp⟩, fun _ => rfl⟩⟩
    · intro q hq
      have := (h (affOf q)).mpr ⟨q, rfl, hq⟩
      exact affOf_inj (Option.some.inj this).symm hC

/-- Compressed forms. -/
theorem wireC_spec {K : Codec F} (hK : WireOk K C) (hC : Good C) (b : List ℕ) (hb : IsBytes b) :
    ∃ o, wireC K C b = .ok o ∧
      ∀ A, o = some A ↔ ∃ p, A = affOf p ∧ ((wireView K C).plain p ∧ (wireView K C).comp p = .ok b) := by
  have hrt : ∀ p, (wireView K C).plain p → RoundTripAt K C (affOf p) := fun p hp =>
    roundTrip_at hK.lawful hC _ (affOf_onCurve hC p) fun hid =>
      ⟨hp.resolve_left fun h0 => hid ((affOf_identity hC).mpr h0), hK.sep _ (affOf_onCurve hC p) hid⟩
  by_cases hl : b.length = K.compressedSize
  · cases hd : K.decode C b with
    | panic => exact absurd hd (Codec.decode_panic hK.lawful hC hK.total b hl hb)
    | ok o =>
      refine ⟨o, by rw [wireC, if_pos hl, hd], fun A => ⟨fun e => ?_, ?_⟩⟩
      · rw [e] at hd
        obtain ⟨h1, h2, h3⟩ := Codec.decode_sound hK.lawful hC b hl hb A hd
        obtain ⟨p, hp⟩ := (Aff.valid_iff hC A).mpr h1
        have e := affOf_eq hC hp
        refine ⟨p, e, ?_, ?_⟩
        · rcases h2 with h2 | h2
          · exact Or.inl ((affOf_identity hC).mp (e ▸ h2))
          · exact Or.inr (e ▸ h2)
        · change K.encode C (affOf p) = .ok b
          rw [← e]
          apply h3
          by_cases hid : A = Aff.identity
          · exact Or.inl hid
          · exact Or.inr (hK.sep A h1 hid)
      · rintro ⟨p, rfl, hp, he⟩
        obtain ⟨b', e1, -, -, e2⟩ := hrt p hp
        have he : K.encode C (affOf p) = .ok b := he
        rw [he] at e1
        rw [← Outcome.ok.inj e1, hd] at e2
        exact Outcome.ok.inj e2
  · refine ⟨none, by rw [wireC, if_neg hl], fun A => ⟨(fun e => nomatch e), ?_⟩⟩
    rintro ⟨p, rfl, hp, he⟩
    obtain ⟨b', e1, e2, -⟩ := hrt p hp
    have he : K.encode C (affOf p) = .ok b := he
    rw [he] at e1
    rw [← Outcome.ok.inj e1] at e2
    exact absurd e2 hl

/-- Uncompressed forms. -/
theorem wireU_spec {K : Codec F} (hK : WireOk K C) (hC : Good C) (b : List ℕ) (hb : IsBytes b) :
    ∃ o, wireU K C b = .ok o ∧ ∀ A, o = some A ↔ ∃ p, A = affOf p ∧ (wireView K C).unc p = b := by
  have hlen := fun p : Pt C => (Codec.toUncompressed_length hK.lawful (affOf p)).1
  by_cases hl : b.length = 2 * K.size
  · have hnp : K.fromUncompressed C b ≠ .panic := by
      rw [Codec.fromUncompressed, Codec.fromUncompressedUnchecked]
      cases h1 : K.fromBytes (b.take K.size) with
      | panic => exact absurd h1 (hK.total _)
      | ok x =>
        cases h2 : K.fromBytes ((b.drop K.size).take K.size) with
        | panic => exact absurd h2 (hK.total _)
        | ok y => exact fun e => nomatch e
    cases hd : K.fromUncompressed C b with
    | panic => exact absurd hd hnp
    | ok o =>
      refine ⟨o, by rw [wireU, if_pos hl, hd], fun A => ?_⟩
      have h := (Codec.fromUncompressed_iff (C := C) hK.lawful b hl hb A).2
      rw [hd] at h
      constructor
      · intro e
        obtain ⟨h1, h2⟩ := h.mp (by rw [e])
        obtain ⟨p, hp⟩ := (Aff.valid_iff hC A).mpr h1
        have e := affOf_eq hC hp
        exact ⟨p, e, by rw [h2, e]; rfl⟩
      · rintro ⟨p, rfl, he⟩
        exact Outcome.ok.inj (h.mpr ⟨affOf_onCurve hC p, he.symm⟩)
  · refine ⟨none, by rw [wireU, if_neg hl], fun A => ⟨(fun e => nomatch e), ?_⟩⟩
    rintro ⟨p, rfl, he⟩
    have he : K.toUncompressed (affOf p) = b := he
    exact absurd (he ▸ hlen p) hl

theorem digits_toRepr (a : Fp r) : Fp.toRepr a = digits a.toZMod := toRepr_eq_digits a

/-- Scalars. -/
theorem wireS_spec (b : List ℕ) (hb : IsBytes b) :
    ((wireS r b).getD 0).toZMod = theOne (fun k : ZMod r => digits k = b) ∧
    ((wireS r b).isSome = true ↔ ∃ k : ZMod r, digits k = b) := by
  have surj : ∀ k : ZMod r, ∃ a : Fp r, a.toZMod = k := fun k =>
    ⟨((k.val : ℕ) : Fp r), by
      have : NeZero r := ⟨(Fact.out : r.Prime).ne_zero⟩
      rw [Fp.toZMod_natCast, ZMod.natCast_zmod_val]⟩
  have key : ∀ a : Fp r, wireS r b = some a ↔ digits a.toZMod = b := by
    intro a
    obtain ⟨t1, -, -⟩ := Fp.toBytes_spec .LE a
    have t1 : (Fp.toRepr a).length = 8 * numLimbs r := t1
    rw [wireS]
    by_cases hl : b.length = 8 * numLimbs r
    · rw [if_pos hl, ← digits_toRepr]
      exact (Fp.fromBytes_some .LE b hl hb a).trans eq_comm
    · rw [if_neg hl, ← digits_toRepr]
      exact ⟨(fun e => nomatch e), fun e => absurd (e ▸ t1) hl⟩
  cases hw : wireS r b with
  | none =>
    have hn : ¬ ∃ k : ZMod r, digits k = b := by
      rintro ⟨k, hk⟩
      obtain ⟨a, rfl⟩ := surj k
      have := (key a).mpr hk
      rw [hw] at this
      cases this
    rw [theOne_none hn]
    exact ⟨Fp.toZMod_zero, ⟨(fun e => nomatch e), fun e => absurd e hn⟩⟩
  | some a =>
    have ha := (key a).mp hw
    rw [theOne_eq (g := a.toZMod) ha]
    · exact ⟨rfl, ⟨fun _ => ⟨_, ha⟩, fun _ => rfl⟩⟩
    · intro k hk
      obtain ⟨a', rfl⟩ := surj k
      have := (key a').mpr hk
      rw [hw] at this
      rw [Option.some.inj this]

/-- One call. -/
theorem wstep_sim {K : Codec F} (hK : WireOk K C) (hC : Good C) {ln : ℕ → ℕ} (hln : LnCeilOk ln) {s : WSt F r} {t : WASt (Pt C) r}
    (h : WSim s t) (o : WOp F) (ho : WOpOk o) :
    ∃ s', wstep K C ln ((numBits r + 7) / 8) s o = .ok s' ∧ WSim s' (wastep (wireView K C) t o) := by
  have bss : ∀ d v w, v = w → IsBytes v → WSim { s with bs := set s.bs d v } { t with bs := set t.bs d w } := fun d v w e hv =>
    ⟨h.st, by rw [e, h.bs], fun i => by
      change IsBytes (Program.set s.bs d v i)
      unfold Program.set
      split
      · exact hv
      · exact h.bytes i⟩
  have afs : ∀ d v w, ARep C v w →
      WSim { s with st := { s.st with af := set s.st.af d v } } { t with st := { t.st with af := set t.st.af d w } } := fun d v w e =>
    ⟨⟨h.st.sc, h.st.pj, set_rel h.st.af d e, h.st.out⟩, h.bs, h.bytes⟩
  cases o with
  | base o =>
    obtain ⟨s', e, hs⟩ := step_sim (K := K) hC hln h.st o ho
    exact ⟨{ s with st := s' }, by rw [wstep, e]; rfl, hs, h.bs, h.bytes⟩
  | bConst d b => exact ⟨_, rfl, bss d b b rfl ho⟩
  | enc d a =>
    have e := affOf_eq hC (h.st.af a)
    have hon := (Aff.valid_iff hC _).mp ⟨_, h.st.af a⟩
    have hb := Codec.encode_eq (C := C) hK.lawful _ hon
    generalize hbg : List.set _ _ _ = b at hb
    have hbb := (Codec.encode_length hK.lawful _ hon b hb).2
    refine ⟨{ s with bs := set s.bs d b }, by rw [wstep, hb]; rfl, bss d b _ ?_ hbb⟩
    rw [bytesOf]
    change b = match K.encode C (affOf (t.st.af a)) with | .ok b => b | .panic => []
    rw [← e, hb]
  | encU d a =>
    refine ⟨_, rfl, bss d _ _ ?_ (Codec.toUncompressed_length hK.lawful _).2⟩
    rw [affOf_eq hC (h.st.af a)]
    rfl
  | encS d a =>
    refine ⟨_, rfl, bss d _ _ ?_ (Fp.toBytes_spec .LE _).2.1⟩
    rw [digits_toRepr, h.st.sc]
  | dec d a =>
    obtain ⟨o, e, ho⟩ := wireC_spec hK hC (s.bs a) (h.bytes a)
    refine ⟨_, by rw [wstep, e]; rfl, afs d _ _ ?_⟩
    rw [← h.bs]
    exact (dec_rep hC ho).1
  | decU d a =>
    obtain ⟨o, e, ho⟩ := wireU_spec hK hC (s.bs a) (h.bytes a)
    refine ⟨_, by rw [wstep, e]; rfl, afs d _ _ ?_⟩
    rw [← h.bs]
    exact (dec_rep hC ho).1
  | decS d a =>
    refine ⟨_, rfl, ⟨set_rel (R := fun (x : Fp r) y => x.toZMod = y) h.st.sc d ?_, h.st.pj, h.st.af, h.st.out⟩, h.bs, h.bytes⟩
    rw [← h.bs]
    exact (wireS_spec _ (h.bytes a)).1

open Classical in
/-- A comparison. -/
theorem wtest_sim {K : Codec F} (hK : WireOk K C) (hC : Good C) {s : WSt F r} {t : WASt (Pt C) r} (h : WSim s t) (c : WTest) :
    wtest K C s c = watest (wireView K C) t c := by
  cases c with
  | base c => exact test_sim hC h.st c
  | eqB a b => rw [wtest, watest, h.bs]
  | isC a =>
    obtain ⟨o, e, ho⟩ := wireC_spec hK hC (s.bs a) (h.bytes a)
    rw [wtest, watest, e, ← h.bs, Bool.eq_iff_iff, decide_eq_true_iff, ← (dec_rep hC ho).2]
    cases o <;> rfl
  | isU a =>
    obtain ⟨o, e, ho⟩ := wireU_spec hK hC (s.bs a) (h.bytes a)
    rw [wtest, watest, e, ← h.bs, Bool.eq_iff_iff, decide_eq_true_iff, ← (dec_rep hC ho).2]
    cases o <;> rfl
  | isS a => rw [wtest, watest, ← h.bs, Bool.eq_iff_iff, decide_eq_true_iff, ← (wireS_spec _ (h.bytes a)).2]

/-- A program run with the functions of the model. -/
def wrun (K : Codec F) (C : Params F) (ln : ℕ → ℕ) : ℕ → Prog (WOp F) WTest → WSt F r → Option (Outcome (WSt F r)) :=
  run (wstep K C ln ((numBits r + 7) / 8)) (wtest K C) wemit

/-- **C86** Any program that computes with points and scalars, encodes them, and decodes whatever strings it has, does what its meaning
over the group says, where decoding a string finds the element of which it is the encoding: it never panics, needs as many steps, and
ends with representations of the same elements, the same strings and the same output. -/
theorem C86_meaning {K : Codec F} (hK : WireOk K C) (hC : Good C) {ln : ℕ → ℕ} (hln : LnCeilOk ln) (p : Prog (WOp F) WTest)
    (hp : p.All WOpOk) (n : ℕ) {s : WSt F r} {t : WASt (Pt C) r} (h : WSim s t) :
    (warun (wireView K C) n p t = none → wrun K C ln n p s = none) ∧
    (∀ t', warun (wireView K C) n p t = some t' → ∃ s', wrun K C ln n p s = some (.ok s') ∧ WSim s' t') :=
  run_sim (emit := wemit) (emit' := waemit) (R := fun s t => WSim s t) (fun _ _ o h ho => wstep_sim hK hC hln h o ho)
    (fun _ _ c h => wtest_sim hK hC h c)
    (fun _ _ b h => ⟨⟨h.st.sc, h.st.pj, h.st.af, congrArg (Out.bit b :: ·) h.st.out⟩, h.bs, h.bytes⟩) p hp n h

/-- **C86** No program that exchanges encodings can tell two representations of the same points apart: it terminates from both or from
neither, with the same strings and the same output. -/
theorem C86_indistinguishable {K : Codec F} (hK : WireOk K C) (hC : Good C) {ln : ℕ → ℕ} (hln : LnCeilOk ln) (p : Prog (WOp F) WTest)
    (hp : p.All WOpOk) (n : ℕ) {s1 s2 : WSt F r} (hs : s1.st.sc = s2.st.sc) (ho : s1.st.out = [] ∧ s2.st.out = [])
    (hbs : s1.bs = s2.bs) (hby : ∀ i, IsBytes (s1.bs i))
    (hP : ∀ i, ∃ q, PRep C (s1.st.pj i) q ∧ PRep C (s2.st.pj i) q) (hA : ∀ i, ∃ q, ARep C (s1.st.af i) q ∧ ARep C (s2.st.af i) q) :
    (wrun K C ln n p s1 = none ∧ wrun K C ln n p s2 = none) ∨
    ∃ u1 u2, wrun K C ln n p s1 = some (.ok u1) ∧ wrun K C ln n p s2 = some (.ok u2) ∧ u1.st.out = u2.st.out ∧ u1.bs = u2.bs ∧
      u1.st.sc = u2.st.sc ∧ u1.st.af = u2.st.af ∧ ∀ i, ∃ q, PRep C (u1.st.pj i) q ∧ PRep C (u2.st.pj i) q := by
  choose P hP1 hP2 using hP
  choose A hA1 hA2 using hA
  let t : WASt (Pt C) r := ⟨⟨fun i => (s1.st.sc i).toZMod, P, A, []⟩, s1.bs⟩
  have h1 : WSim s1 t := ⟨⟨fun _ => rfl, hP1, hA1, ho.1⟩, rfl, hby⟩
  have h2 : WSim s2 t := ⟨⟨fun i => by rw [← hs], hP2, hA2, ho.2⟩, hbs.symm, hbs ▸ hby⟩
  have m1 := C86_meaning hK hC hln p hp n h1
  have m2 := C86_meaning hK hC hln p hp n h2
  cases e : warun (wireView K C) n p t with
  | none => exact Or.inl ⟨m1.1 e, m2.1 e⟩
  | some t' =>
    obtain ⟨u1, e1, k1⟩ := m1.2 t' e
    obtain ⟨u2, e2, k2⟩ := m2.2 t' e
    refine Or.inr ⟨u1, u2, e1, e2, k1.st.out.trans k2.st.out.symm, k1.bs.trans k2.bs.symm,
      funext fun i => Fp.toZMod_injective ((k1.st.sc i).trans (k2.st.sc i).symm), funext fun i => ?_,
      fun i => ⟨_, k1.st.pj i, k2.st.pj i⟩⟩
    rw [affOf_eq hC (k1.st.af i), affOf_eq hC (k2.st.af i)]

/-- **C86** The meaning of decoding does not depend on a choice: an accepted string is the encoding of one element. -/
theorem C86_unique {K : Codec F} (hK : WireOk K C) (hC : Good C) :
    (∀ (p q : Pt C) b, (wireView K C).plain p → (wireView K C).plain q → (wireView K C).comp p = .ok b → (wireView K C).comp q = .ok b → p = q) ∧
    (∀ p q : Pt C, (wireView K C).unc p = (wireView K C).unc q → p = q) ∧ (∀ k l : ZMod r, digits k = digits l → k = l) := by
  have surj : ∀ k : ZMod r, ∃ a : Fp r, a.toZMod = k := fun k =>
    ⟨((k.val : ℕ) : Fp r), by
      have : NeZero r := ⟨(Fact.out : r.Prime).ne_zero⟩
      rw [Fp.toZMod_natCast, ZMod.natCast_zmod_val]⟩
  refine ⟨fun p q b hp hq ep eq => ?_, fun p q e => ?_, fun k l e => ?_⟩
  · have hb := (Codec.encode_length hK.lawful _ (affOf_onCurve hC p) b ep).2
    obtain ⟨o, -, ho⟩ := wireC_spec hK hC b hb
    have h1 := (ho _).mpr ⟨p, rfl, hp, ep⟩
    have h2 := (ho _).mpr ⟨q, rfl, hq, eq⟩
    exact affOf_inj (Option.some.inj (h1.symm.trans h2)) hC
  · obtain ⟨o, -, ho⟩ := wireU_spec hK hC _ (Codec.toUncompressed_length hK.lawful (affOf p)).2
    have h1 := (ho _).mpr ⟨p, rfl, rfl⟩
    have h2 := (ho _).mpr ⟨q, rfl, e.symm⟩
    exact affOf_inj (Option.some.inj (h1.symm.trans h2)) hC
  · obtain ⟨a, rfl⟩ := surj k
    obtain ⟨b, rfl⟩ := surj l
    obtain ⟨t1, t2, -⟩ := Fp.toBytes_spec .LE a
    rw [← digits_toRepr, ← digits_toRepr] at e
    have h1 := (Fp.fromBytes_some .LE (Fp.toRepr a) t1 t2 a).mpr rfl
    have h2 := (Fp.fromBytes_some .LE (Fp.toRepr a) t1 t2 b).mpr e
    rw [Option.some.inj (h1.symm.trans h2)]

theorem wireOk_isOdd {p : ℕ} [Fact (OddModulus p)] [Fact p.Prime] [Fp.SmallModulus p] {K : Codec (Fp p)} {C : Params (Fp p)}
    (hK : K.Lawful) (hs : K.sgn = Fp.isOdd) (hp : ∀ b, K.fromBytes b ≠ .panic) (hC : Good C) : WireOk K C :=
  ⟨hK, hp, fun A hA hid => by rw [hs]; exact Fp.isOdd_neg _ (Codec.nonid hC hA hid).2.2⟩

/-- **C86** The eight curves over prime fields have such encodings. -/
theorem C86_shipped :
    WireOk Bn256.g1Codec Bn256.g1 ∧ WireOk Grumpkin.g1Codec Grumpkin.g1 ∧ WireOk Bls12381.g1Codec Bls12381.g1 ∧
    WireOk Pluto.g1Codec Pluto.g1 ∧ WireOk Pluto.erisCodec Pluto.eris ∧ WireOk Secp256k1.cCodec Secp256k1.c ∧
    WireOk Secq256k1.cCodec Secq256k1.c ∧ WireOk Secp256r1.cCodec Secp256r1.c :=
  ⟨wireOk_isOdd Bn256.g1Codec_lawful rfl (fun _ h => by cases h) Bn256.g1_good,
    wireOk_isOdd Grumpkin.g1Codec_lawful rfl (fun _ h => by cases h) Grumpkin.g1_good,
    ⟨Bls12381.g1Codec_lawful, (fun _ h => by cases h), fun _ hA hid => Bls12381.g1_sign_sep hA hid⟩,
    wireOk_isOdd Pluto.g1Codec_lawful rfl (fun _ h => by cases h) Pluto.g1_good,
    wireOk_isOdd Pluto.erisCodec_lawful rfl (fun _ h => by cases h) Pluto.eris_good,
    wireOk_isOdd Secp256k1.cCodec_lawful rfl (fun _ h => by cases h) Secp256k1.c_good,
    wireOk_isOdd Secq256k1.cCodec_lawful rfl (fun _ h => by cases h) Secq256k1.c_good,
    wireOk_isOdd Secp256r1.cCodec_lawful rfl (fun _ h => by cases h) Secp256r1.c_good⟩

theorem wire_all_plain {K : Codec F} (hC : Good C) (hb : ¬ IsSquare C.b) (p : Pt C) : (wireView K C).plain p := by
  by_cases h : p = 0
  · exact Or.inl h
  · exact Or.inr (x_ne_zero hb (affOf_onCurve hC p) fun e => h ((affOf_identity hC).mp e))

/-- **C86** On six of them every point is read back from its compressed form. -/
theorem C86_all_plain :
    (∀ p, (wireView Bn256.g1Codec Bn256.g1).plain p) ∧ (∀ p, (wireView Grumpkin.g1Codec Grumpkin.g1).plain p) ∧
    (∀ p, (wireView Pluto.g1Codec Pluto.g1).plain p) ∧ (∀ p, (wireView Pluto.erisCodec Pluto.eris).plain p) ∧
    (∀ p, (wireView Secp256k1.cCodec Secp256k1.c).plain p) ∧ (∀ p, (wireView Secq256k1.cCodec Secq256k1.c).plain p) :=
  ⟨wire_all_plain Bn256.g1_good Bn256.g1_b_nonsquare, wire_all_plain Grumpkin.g1_good Grumpkin.g1_b_nonsquare,
    wire_all_plain Pluto.g1_good Pluto.g1_b_nonsquare, wire_all_plain Pluto.eris_good Pluto.eris_b_nonsquare,
    wire_all_plain Secp256k1.c_good Secp256k1.c_b_nonsquare, wire_all_plain Secq256k1.c_good Secq256k1.c_b_nonsquare⟩

/-- A program that decodes a string it was given, adds a multiple of the generator, and sends the sum: C86 is not vacuous. -/
example : ∃ (p : Prog (WOp (Fp r1P)) WTest) (s : WSt (Fp r1P) r1N) (t : WASt (Pt Secp256r1.c) r1N), p.All WOpOk ∧ WSim s t ∧
    WireOk Secp256r1.cCodec Secp256r1.c ∧ t.st.pj 0 ≠ 0 := by
  obtain ⟨_, g, hg, h0⟩ := C21_generators.2.2.2.2.2.2.2.2.2.2
  refine ⟨.seq (.op (.bConst 0 [1, 2, 255])) (.seq (.op (.decS 0 0)) (.seq (.op (.base (.pMul 1 0 0))) (.seq (.op (.base (.aFromProj 0 1)))
    (.seq (.op (.enc 1 0)) (.seq (.op (.dec 2 1)) (.seq (.out (.isC 1)) (.ite (.eqB 0 1) (.op (.encS 1 0)) (.op (.decU 1 0))))))))),
    ⟨⟨fun _ => 5, fun _ => Aff.toCurve Secp256r1.cGen, fun _ => Aff.identity, []⟩, fun _ => []⟩,
    ⟨⟨fun _ => (5 : Fp r1N).toZMod, fun _ => g, fun _ => 0, []⟩, fun _ => []⟩, ?_,
    ⟨⟨fun _ => rfl, fun _ => hg.toCurve Secp256r1.c_good, fun _ => .identity, rfl⟩, rfl, fun _ _ h => by cases h⟩,
    C86_shipped.2.2.2.2.2.2.2, h0⟩
  simp only [Prog.All, WOpOk, OpOk, and_true]
  intro x hx
  simp only [List.mem_cons, List.not_mem_nil, or_false] at hx
  omega

end Halo2.Props
