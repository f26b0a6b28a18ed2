import Verif.Pairing.WireProgram
import Verif.Props.PairingProgram
import Verif.Props.WireProgram
import Verif.Props.Cofactor

/-!
# C87: verifiers that read points of both groups compute with exponents
-/

set_option linter.unusedSectionVars false

namespace Halo2.Props

open Halo2 Halo2.Field Halo2.Prime Halo2.Ext Halo2.Curve Halo2.Msm Halo2.Pairing Halo2.Program

/-- The registers with exponents. -/
structure VESt (r : ℕ) where
  st : ESt r
  bs : ℕ → List ℕ
  fl : ℕ → Bool

section

variable {F : Type} [Field F] [DecidableEq F] [BaseField F] [LawfulBase F] {C : Params F}
variable {r : ℕ} [Fact (OddModulus r)] [Fact r.Prime] [Fp.SmallModulus r]

/-- The string that stands for the multiple of `g` with exponent `e`. -/
noncomputable def wireOf (K : Codec F) (C : Params F) (g : Pt C) (f : WForm) (e : ZMod r) : List ℕ :=
  match toWire K C (affOf (e.val • g)) f with
  | .ok b => b
  | .panic => []

/-- What is needed of the decoder of form `f`, on points killed by `r`: it panics exactly on the strings `bad`, and otherwise returns
exactly the points of which the string is the encoding; it does not panic on encodings. -/
def FormSpec (K : Codec F) (C : Params F) (r : ℕ) (f : WForm) (bad : List ℕ → Prop) : Prop :=
  ∀ b, IsBytes b → (bad b → ofWire K C b f = .panic) ∧
    (¬ bad b → ∃ o, ofWire K C b f = .ok o ∧
      ∀ p : Pt C, r • p = 0 → (o = some (affOf p) ↔ toWire K C (affOf p) f = .ok b)) ∧
    (∀ A, ofWire K C b f = .ok (some A) → ∃ p : Pt C, A = affOf p) ∧
    ∀ p : Pt C, toWire K C (affOf p) f = .ok b → ¬ bad b

theorem toWire_ok {K : Codec F} (hK : K.Lawful) (hC : Good C) (p : Pt C) (f : WForm) :
    ∃ b, toWire K C (affOf p) f = .ok b ∧ IsBytes b := by
  cases f with
  | comp =>
    have h := Codec.encode_eq (C := C) hK _ (affOf_onCurve hC p)
    exact ⟨_, h, (Codec.encode_length hK _ (affOf_onCurve hC p) _ h).2⟩
  | unc => exact ⟨_, rfl, (Codec.toUncompressed_length hK _).2⟩
  | raw => exact ⟨_, rfl, (hK.raw_isBytes _).append (hK.raw_isBytes _)⟩

theorem wireOf_iff {K : Codec F} (hK : K.Lawful) (hC : Good C) (g : Pt C) (f : WForm) (e : ZMod r) (b : List ℕ) :
    wireOf K C g f e = b ↔ toWire K C (affOf (e.val • g)) f = .ok b := by
  obtain ⟨c, h, -⟩ := toWire_ok hK hC (e.val • g) f
  rw [wireOf, h]
  exact ⟨fun e => congrArg _ e, fun e => Outcome.ok.inj e⟩

/-- Raw forms. -/
theorem formSpec_raw {K : Codec F} (hK : K.Lawful) (hC : Good C) : FormSpec K C r .raw fun _ => False := by
  intro b hb
  refine ⟨fun h => h.elim, fun _ => ⟨_, rfl, fun p _ => ?_⟩, fun A h => ?_, fun _ _ => not_false⟩
  · rw [Codec.affFromRaw_iff hK b hb]
    exact ⟨fun h => congrArg _ h.2.symm, fun h => ⟨affOf_onCurve hC p, (Outcome.ok.inj h).symm⟩⟩
  · have h := Outcome.ok.inj h
    obtain ⟨p, hp⟩ := (Aff.valid_iff hC A).mpr ((Codec.affFromRaw_iff hK b hb A).mp h).1
    exact ⟨p, affOf_eq hC hp⟩

/-- The form determines the exponent. -/
theorem wireOf_injective {K : Codec F} (hK : K.Lawful) (hC : Good C) {g : Pt C} (hg : addOrderOf g = r) {f : WForm} {bad : List ℕ → Prop}
    (hs : FormSpec K C r f bad) : Function.Injective (wireOf (r := r) K C g f) := by
  have : NeZero r := ⟨(Fact.out : r.Prime).ne_zero⟩
  have kg : ∀ n : ℕ, r • n • g = 0 := fun n => by rw [smul_comm, ← hg, addOrderOf_nsmul_eq_zero, smul_zero]
  intro k l hkl
  obtain ⟨b, h1, hb⟩ := toWire_ok hK hC (k.val • g) f
  have h2 : toWire K C (affOf (l.val • g)) f = .ok b := by
    rw [← wireOf_iff hK hC, ← hkl, wireOf_iff hK hC]
    exact h1
  obtain ⟨-, s2, -, s4⟩ := hs b hb
  obtain ⟨o, -, ho⟩ := s2 (s4 _ h1)
  have e := affOf_inj (Option.some.inj (((ho _ (kg _)).mpr h1).symm.trans ((ho _ (kg _)).mpr h2))) hC
  rw [nsmul_eq_nsmul_iff_modEq, hg] at e
  rw [← ZMod.natCast_zmod_val k, ← ZMod.natCast_zmod_val l]
  exact (ZMod.natCast_eq_natCast_iff _ _ _).mpr e

/-- Compressed and uncompressed forms on a curve over a prime field. -/
theorem formSpec_wire {K : Codec F} (hK : WireOk K C) (hC : Good C) (hp : ∀ p : Pt C, r • p = 0 → (wireView K C).plain p) (f : WForm) :
    FormSpec K C r f fun _ => False := by
  intro b hb
  cases f with
  | raw => exact formSpec_raw hK.lawful hC b hb
  | comp =>
    obtain ⟨o, e, ho⟩ := wireC_spec hK hC b hb
    refine ⟨fun h => h.elim, fun _ => ⟨o, e, fun p h => ?_⟩, fun A h => ?_, fun _ _ => not_false⟩
    · rw [ho]
      constructor
      · rintro ⟨q, e, -, h⟩
        rw [affOf_inj e hC]
        exact h
      · exact fun h' => ⟨p, rfl, hp p h, h'⟩
    · have h : wireC K C b = .ok (some A) := h
      rw [e] at h
      obtain ⟨p, h, -⟩ := (ho A).mp (Outcome.ok.inj h)
      exact ⟨p, h⟩
  | unc =>
    obtain ⟨o, e, ho⟩ := wireU_spec hK hC b hb
    refine ⟨fun h => h.elim, fun _ => ⟨o, e, fun p h => ?_⟩, fun A h => ?_, fun _ _ => not_false⟩
    · rw [ho]
      constructor
      · rintro ⟨q, e, h⟩
        rw [affOf_inj e hC]
        exact congrArg _ h
      · exact fun h' => ⟨p, rfl, Outcome.ok.inj h'⟩
    · have h : wireU K C b = .ok (some A) := h
      rw [e] at h
      obtain ⟨p, h, -⟩ := (ho A).mp (Outcome.ok.inj h)
      exact ⟨p, h⟩

/-- Uncompressed forms in general. -/
theorem formSpec_unc {K : Codec F} (hK : K.Lawful) (hC : Good C) {bad : List ℕ → Prop}
    (hbad : ∀ b, IsBytes b → (bad b ↔ b.length = 2 * K.size ∧ K.fromUncompressed C b = .panic)) : FormSpec K C r .unc bad := by
  intro b hb
  have hbad := hbad b hb
  refine ⟨fun h => ?_, fun h => ?_, fun A h => ?_, fun p e h => ?_⟩
  · obtain ⟨hl, h⟩ := hbad.mp h
    rw [ofWire, wireU, if_pos hl, h]
  · by_cases hl : b.length = 2 * K.size
    · cases hd : K.fromUncompressed C b with
      | panic => exact absurd (hbad.mpr ⟨hl, hd⟩) h
      | ok o =>
        refine ⟨o, by rw [ofWire, wireU, if_pos hl, hd], fun p _ => ?_⟩
        have h := (Codec.fromUncompressed_iff (C := C) hK b hl hb (affOf p)).2
        rw [hd] at h
        constructor
        · intro e
          exact congrArg _ (h.mp (congrArg _ e)).2.symm
        · exact fun e => Outcome.ok.inj (h.mpr ⟨affOf_onCurve hC p, (Outcome.ok.inj e).symm⟩)
    · refine ⟨none, by rw [ofWire, wireU, if_neg hl], fun p _ => ⟨(fun e => nomatch e), fun e => ?_⟩⟩
      have he : K.toUncompressed (affOf p) = b := Outcome.ok.inj e
      exact absurd (he ▸ (Codec.toUncompressed_length hK (affOf p)).1) hl
  · rw [ofWire, wireU] at h
    split at h
    · rename_i hl
      obtain ⟨p, hp⟩ := (Aff.valid_iff hC A).mpr ((Codec.fromUncompressed_iff (C := C) hK b hl hb A).2.mp h).1
      exact ⟨p, affOf_eq hC hp⟩
    · cases Outcome.ok.inj h
  · obtain ⟨hl, h⟩ := hbad.mp h
    have he : K.toUncompressed (affOf p) = b := Outcome.ok.inj e
    have h' := (Codec.fromUncompressed_iff (C := C) hK b hl hb (affOf p)).2.mpr ⟨affOf_onCurve hC p, he.symm⟩
    rw [h] at h'
    cases h'

/-- A decoded and tested string, read as an exponent. -/
theorem ofWireFree_spec {K : Codec F} (hK : K.Lawful) (hC : Good C) {free : Proj F → Bool} (hf : FreeSpec C r free) {g : Pt C}
    (hg : addOrderOf g = r) (hgen : ∀ p : Pt C, r • p = 0 → ∃ k < r, p = k • g) {f : WForm} {bad : List ℕ → Prop}
    (hs : FormSpec K C r f bad) {b : List ℕ} (hb : IsBytes b) :
    (bad b → ofWireFree free K C f b = .panic) ∧
    (¬ bad b → ∃ o, ofWireFree free K C f b = .ok o ∧
      ARep C (o.getD Aff.identity) ((theOne fun e : ZMod r => wireOf K C g f e = b).val • g) ∧
      (o.isSome = true ↔ ∃ e : ZMod r, wireOf K C g f e = b)) := by
  have : NeZero r := ⟨(Fact.out : r.Prime).ne_zero⟩
  have kg : ∀ n : ℕ, r • n • g = 0 := fun n => by rw [smul_comm, ← hg, addOrderOf_nsmul_eq_zero, smul_zero]
  obtain ⟨s1, s2, s3, -⟩ := hs b hb
  refine ⟨fun h => by rw [ofWireFree, s1 h]; rfl, fun h => ?_⟩
  obtain ⟨o, e, ho⟩ := s2 h
  refine ⟨o.bind fun A => if free A.toCurve then some A else none, by rw [ofWireFree, e]; rfl, ?_⟩
  have key : ∀ k : ZMod r, (o.bind fun A => if free A.toCurve then some A else none) = some (affOf (k.val • g)) ↔ wireOf K C g f k = b := by
    intro k
    rw [wireOf_iff hK hC, ← ho _ (kg _)]
    have hfr : free (affOf (k.val • g)).toCurve = true := (hf _ _ ((affOf_rep _).toCurve hC)).mpr (kg _)
    cases o with
    | none => exact ⟨(fun e => nomatch e), (fun e => nomatch e)⟩
    | some A =>
      rw [Option.bind_some]
      constructor
      · intro h
        split at h
        · exact h
        · cases h
      · intro h
        rw [Option.some.inj h, if_pos hfr]
  cases hres : (o.bind fun A => if free A.toCurve then some A else none) with
  | none =>
    have hn : ¬ ∃ k : ZMod r, wireOf K C g f k = b := fun ⟨k, hk⟩ => by
      have := (key k).mpr hk
      rw [hres] at this
      cases this
    rw [theOne_none hn, ZMod.val_zero, zero_smul]
    exact ⟨ARep.identity, ⟨(fun e => nomatch e), fun e => absurd e hn⟩⟩
  | some A =>
    have hA : o = some A ∧ free A.toCurve = true := by
      cases o with
      | none => cases hres
      | some A' =>
        rw [Option.bind_some] at hres
        split at hres
        · rename_i hf
          rw [← Option.some.inj hres]
          exact ⟨rfl, hf⟩
        · cases hres
    obtain ⟨p, rfl⟩ := s3 A (by rw [e, hA.1])
    have hr := (hf _ _ ((affOf_rep p).toCurve hC)).mp hA.2
    obtain ⟨k, hk, rfl⟩ := hgen p hr
    have hv : ((k : ZMod r)).val = k := ZMod.val_natCast_of_lt hk
    have hkb : wireOf K C g f (k : ZMod r) = b := (key _).mp (by rw [hres, hv])
    rw [theOne_eq (g := (k : ZMod r)) hkb, hv]
    · exact ⟨affOf_rep _, ⟨fun _ => ⟨_, hkb⟩, fun _ => rfl⟩⟩
    · intro k' hk'
      have e1 := (key k').mpr hk'
      rw [hres] at e1
      have e2 := affOf_inj (Option.some.inj e1) hC
      rw [nsmul_eq_nsmul_iff_modEq, hg] at e2
      rw [← ZMod.natCast_zmod_val k']
      exact ((ZMod.natCast_eq_natCast_iff _ _ _).mpr e2).symm

end

variable {L F T : Type} {r : ℕ} [Fact r.Prime]

open Classical in
/-- The meaning of a call: decoding finds the exponent of the given string; the strings `bad` make it panic. -/
noncomputable def vestep (V1 : View L (ZMod r)) (V2 : View F (ZMod r)) (W1 W2 : WForm → ZMod r → List ℕ) (bad : WForm → List ℕ → Prop)
    (t : VESt r) : VOp L F → Outcome (VESt r)
  | .base o => .ok { t with st := estep V1 V2 t.st o }
  | .bConst d b => .ok { t with bs := set t.bs d b }
  | .enc1 f d a => .ok { t with bs := set t.bs d (W1 f (t.st.a1 a)) }
  | .enc2 f d a => .ok { t with bs := set t.bs d (W2 f (t.st.a2 a)) }
  | .encS d a => .ok { t with bs := set t.bs d (digits (t.st.sc a)) }
  | .dec1 f d a => .ok { t with
      st := { t.st with a1 := set t.st.a1 d (theOne fun e => W1 f e = t.bs a) }, fl := set t.fl d (decide (∃ e, W1 f e = t.bs a)) }
  | .dec2 f d a => if bad f (t.bs a) then .panic else .ok { t with
      st := { t.st with a2 := set t.st.a2 d (theOne fun e => W2 f e = t.bs a) }, fl := set t.fl d (decide (∃ e, W2 f e = t.bs a)) }
  | .decS d a => .ok { t with
      st := { t.st with sc := set t.st.sc d (theOne fun k => digits k = t.bs a) }, fl := set t.fl d (decide (∃ k : ZMod r, digits k = t.bs a)) }

/-- The meaning of a comparison. -/
def vetest (t : VESt r) : VTest → Bool
  | .base c => etest t.st c
  | .eqB a b => decide (t.bs a = t.bs b)
  | .flag a => t.fl a

/-- Output of the result of a comparison. -/
def veemit (t : VESt r) (b : Bool) : VESt r := { t with st := eemit t.st b }

variable [Field L] [DecidableEq L] [BaseField L] [LawfulBase L] {C1 : Params L}
  [Field F] [DecidableEq F] [BaseField F] [LawfulBase F] {C2 : Params F} [Field T]
  [Fact (OddModulus r)] [Fp.SmallModulus r]

/-- The registers hold the elements with the given exponents, the same strings and the same flags. -/
structure VSim (g : Pt C1) (h : Pt C2) (z : T) (s : VSt L F T r) (t : VESt r) : Prop where
  st : PSim g h z s.st t.st
  bs : s.bs = t.bs
  fl : s.fl = t.fl
  bytes : ∀ i, IsBytes (s.bs i)

/-- The conditions of C74; constant strings are bytes; compressed points of the second group are not read (their sign does not always
determine the point, C27). -/
def VOpOk (C1 : Params L) (C2 : Params F) (r : ℕ) (g : Pt C1) (h : Pt C2) (log1 : L → L → ZMod r) (log2 : F → F → ZMod r) :
    VOp L F → Prop
  | .base o => POpOk C1 C2 r g h log1 log2 o
  | .bConst _ b => IsBytes b
  | .dec2 .comp _ _ => False
  | _ => True

/-- What C87 says of an engine with generators `gA`, `hA`: any program that computes with scalars, points of both groups and their
pairings, sends them, and reads points sent by others with the decoders and `is_torsion_free`, runs as its meaning in exponents: both
are unfinished, both panic, or both end with corresponding registers, strings, flags and output. A string has at most one exponent. -/
def VerifierClaim (E : Engine L F T) (K1 : Codec L) (K2 : Codec F) (C1 : Params L) (C2 : Params F) (r : ℕ) [Fact r.Prime]
    [Fact (OddModulus r)] (free1 : Proj L → Bool) (free2 : Proj F → Bool) (bad : WForm → List ℕ → Prop) (gA : Aff L) (hA : Aff F) : Prop :=
  ∃ (g : Pt C1) (h : Pt C2) (z : T), ARep C1 gA g ∧ ARep C2 hA h ∧ addOrderOf g = r ∧ addOrderOf h = r ∧ orderOf z = r ∧
    E.pairing gA hA = some z ∧ (∀ f, Function.Injective (wireOf (r := r) K1 C1 g f)) ∧
    (∀ f, f ≠ .comp → Function.Injective (wireOf (r := r) K2 C2 h f)) ∧
    ∀ (ln : ℕ → ℕ), LnCeilOk ln → ∀ (log1 : L → L → ZMod r) (log2 : F → F → ZMod r)
      (p : Prog (VOp L F) VTest), p.All (VOpOk C1 C2 r g h log1 log2) → ∀ (n : ℕ) (s : VSt L F T r) (t : VESt r), VSim g h z s t →
      OutRel (VSim g h z) (run (vstep E K1 K2 C1 C2 free1 free2 ln ((numBits r + 7) / 8)) (vtest E) vemit n p s)
        (run (vestep (expView K1 C1 r g log1) (expView K2 C2 r h log2) (wireOf K1 C1 g) (wireOf K2 C2 h) bad) vetest veemit n p t)

theorem verifierClaim_of {E : Engine L F T} {K1 : Codec L} {K2 : Codec F} (h1 : Good C1) (h2 : Good C2) {gA : Aff L} {hA : Aff F}
    (hc : ProgramClaim E C1 C2 r gA hA) (hK1 : K1.Lawful) (hK2 : K2.Lawful) {n1 n2 : ℕ} (o1 : OrderSpec C1 gA n1 r)
    (o2 : OrderSpec C2 hA n2 r) {free1 : Proj L → Bool} {free2 : Proj F → Bool} (f1 : FreeSpec C1 r free1) (f2 : FreeSpec C2 r free2)
    {bad : WForm → List ℕ → Prop} (s1 : ∀ f, FormSpec K1 C1 r f fun _ => False) (s2 : ∀ f, f ≠ .comp → FormSpec K2 C2 r f (bad f)) :
    VerifierClaim E K1 K2 C1 C2 r free1 free2 bad gA hA := by
  obtain ⟨g, h, z, rg, rh, og, oh, oz, hz, H⟩ := hc
  refine ⟨g, h, z, rg, rh, og, oh, oz, hz, fun f => wireOf_injective hK1 h1 og (s1 f), fun f hf => wireOf_injective hK2 h2 oh (s2 f hf), ?_⟩
  have gen1 : ∀ p : Pt C1, r • p = 0 → ∃ k < r, p = k • g := by
    obtain ⟨g', rg', -, k⟩ := o1.gen
    rw [ARep.unique h1 rg rg']
    exact fun p => (k p).mp
  have gen2 : ∀ p : Pt C2, r • p = 0 → ∃ k < r, p = k • h := by
    obtain ⟨g', rg', -, k⟩ := o2.gen
    rw [ARep.unique h2 rh rg']
    exact fun p => (k p).mp
  intro ln hln log1 log2 p hp n s t hs
  refine run_rel (emit := vemit) (emit' := veemit) (R := VSim g h z) (P := VOpOk C1 C2 r g h log1 log2) ?_ ?_ ?_ p hp n hs
  · intro s t o hs ho
    have bss : ∀ d v w, v = w → IsBytes v → VSim g h z { s with bs := set s.bs d v } { t with bs := set t.bs d w } := fun d v w e hv =>
      ⟨hs.st, by rw [e, hs.bs], hs.fl, fun i => by
        change IsBytes (Program.set s.bs d v i)
        unfold Program.set
        split
        · exact hv
        · exact hs.bytes i⟩
    cases o with
    | base o =>
      obtain ⟨s', e, h'⟩ := (H K1 K2 ln hln log1 log2 (.op o) ho 1 s.st t.st hs.st).2 _ rfl
      have e : pstep E K1 K2 C1 C2 ln ((numBits r + 7) / 8) s.st o = .ok s' := Option.some.inj e
      rw [vstep, e]
      exact ⟨h', hs.bs, hs.fl, hs.bytes⟩
    | bConst d b => exact bss d b b rfl ho
    | enc1 f d a =>
      have e := affOf_eq h1 (hs.st.left.af a)
      obtain ⟨b, hb, hbb⟩ := toWire_ok hK1 h1 ((t.st.a1 a).val • g) f
      have e1 : toWire K1 C1 (s.st.a1 a) f = .ok b := by
        have e : s.st.a1 a = _ := e
        rw [e]
        exact hb
      rw [vstep, e1]
      exact bss d b _ ((wireOf_iff hK1 h1 _ _ _ _).mpr hb).symm hbb
    | enc2 f d a =>
      have e := affOf_eq h2 (hs.st.right.af a)
      obtain ⟨b, hb, hbb⟩ := toWire_ok hK2 h2 ((t.st.a2 a).val • h) f
      have e1 : toWire K2 C2 (s.st.a2 a) f = .ok b := by
        have e : s.st.a2 a = _ := e
        rw [e]
        exact hb
      rw [vstep, e1]
      exact bss d b _ ((wireOf_iff hK2 h2 _ _ _ _).mpr hb).symm hbb
    | encS d a =>
      refine bss d _ _ ?_ (Fp.toBytes_spec .LE _).2.1
      rw [digits_toRepr]
      exact congrArg _ (hs.st.left.sc a)
    | dec1 f d a =>
      obtain ⟨o, e, hr, hb⟩ := (ofWireFree_spec hK1 h1 f1 og gen1 (s1 f) (hs.bytes a)).2 not_false
      rw [vstep, e]
      rw [hs.bs] at hr hb
      refine ⟨⟨⟨hs.st.left.sc, hs.st.left.pj, ?_, hs.st.left.out⟩, hs.st.right, hs.st.gt⟩, hs.bs, ?_, hs.bytes⟩
      · exact set_rel (R := fun (x : Aff L) (y : ZMod r) => ARep C1 x (y.val • g)) hs.st.left.af d hr
      · change Program.set s.fl d _ = Program.set t.fl d _
        rw [hs.fl]
        exact congrArg _ (by rw [Bool.eq_iff_iff, decide_eq_true_iff]; exact hb)
    | dec2 f d a =>
      have hf : f ≠ .comp := by
        rintro rfl
        exact ho
      obtain ⟨j1, j2⟩ := ofWireFree_spec hK2 h2 f2 oh gen2 (s2 f hf) (hs.bytes a)
      rw [vestep]
      by_cases hbad : bad f (t.bs a)
      · rw [if_pos hbad, vstep, j1 (hs.bs ▸ hbad)]
        exact trivial
      · obtain ⟨o, e, hr, hb⟩ := j2 (hs.bs ▸ hbad)
        rw [if_neg hbad, vstep, e]
        rw [hs.bs] at hr hb
        refine ⟨⟨hs.st.left, ⟨hs.st.right.sc, hs.st.right.pj, ?_, hs.st.right.out⟩, hs.st.gt⟩, hs.bs, ?_, hs.bytes⟩
        · exact set_rel (R := fun (x : Aff F) (y : ZMod r) => ARep C2 x (y.val • h)) hs.st.right.af d hr
        · change Program.set s.fl d _ = Program.set t.fl d _
          rw [hs.fl]
          exact congrArg _ (by rw [Bool.eq_iff_iff, decide_eq_true_iff]; exact hb)
    | decS d a =>
      obtain ⟨e1, e2⟩ := wireS_spec (r := r) _ (hs.bytes a)
      rw [hs.bs] at e1 e2
      have hsc := set_rel (R := fun (x : Fp r) y => x.toZMod = y) hs.st.left.sc d e1
      refine ⟨⟨⟨?_, hs.st.left.pj, hs.st.left.af, hs.st.left.out⟩, ⟨?_, hs.st.right.pj, hs.st.right.af, hs.st.right.out⟩, hs.st.gt⟩, hs.bs, ?_,
        hs.bytes⟩
      · rw [hs.bs]; exact hsc
      · rw [hs.bs]; exact hsc
      · change Program.set s.fl d _ = Program.set t.fl d _
        rw [hs.fl, hs.bs]
        exact congrArg _ (by rw [Bool.eq_iff_iff, decide_eq_true_iff]; exact e2)
  · intro s t c hs
    cases c with
    | base c =>
      obtain ⟨u, e, hu⟩ := (H K1 K2 ln hln log1 log2 (.out c) trivial 1 s.st t.st hs.st).2 _ rfl
      have e : pemit s.st (ptest E s.st c) = u := Outcome.ok.inj (Option.some.inj e)
      have o := hu.left.out
      rw [← e] at o
      exact Out.bit.inj (List.cons.inj o).1
    | eqB a b => rw [vtest, vetest, hs.bs]
    | flag a => rw [vtest, vetest, hs.fl]
  · intro s t b hs
    exact ⟨⟨⟨hs.st.left.sc, hs.st.left.pj, hs.st.left.af, congrArg (Out.bit b :: ·) hs.st.left.out⟩,
      ⟨hs.st.right.sc, hs.st.right.pj, hs.st.right.af, congrArg (Out.bit b :: ·) hs.st.right.out⟩, hs.st.gt⟩, hs.bs, hs.fl, hs.bytes⟩

/-- The strings on which `from_uncompressed` of a curve over a quadratic extension panics: those of the right length in which one of the
four coordinates is not reduced. -/
def Overflows (p : ℕ) (e : Endian) : WForm → List ℕ → Prop
  | .unc, b => b.length = 4 * (8 * numLimbs p) ∧ ∃ i < 4, p ≤ e.nat ((b.drop (i * (8 * numLimbs p))).take (8 * numLimbs p))
  | _, _ => False

theorem tower_panic {p : ℕ} [Fact (OddModulus p)] {e : Endian} {cfg : FlagConfig} {sgn : Quad (Fp p) → Bool}
    {sqrt : Quad (Fp p) → Outcome (Option (Quad (Fp p)))} {b : List ℕ} (hl : b.length = 2 * Tower2.half p) (hb : IsBytes b) :
    (Tower2.codec p e cfg sgn sqrt).fromBytes b = .panic ↔ p ≤ e.nat (b.take (8 * numLimbs p)) ∨ p ≤ e.nat (b.drop (8 * numLimbs p)) := by
  change Tower2.fromBytes e (b.take (2 * Tower2.half p)) = .panic ↔ _
  rw [List.take_of_length_le hl.le, Tower2.fromBytes]
  have hh : Tower2.half p = 8 * numLimbs p := rfl
  rw [hh] at hl ⊢
  rw [← Fp.fromBytes_none e _ (by rw [List.length_take, hl]; omega) (hb.take _),
    ← Fp.fromBytes_none e _ (by rw [List.length_drop, hl]; omega) (hb.drop _)]
  cases (Fp.fromBytes e (b.take (8 * numLimbs p)) : Option (Fp p)) <;>
    cases (Fp.fromBytes e (b.drop (8 * numLimbs p)) : Option (Fp p)) <;> simp [Tower2.unwrapPair]

theorem overflows_iff {p : ℕ} [Fact (OddModulus p)] {e : Endian} {cfg : FlagConfig} {sgn : Quad (Fp p) → Bool}
    {sqrt : Quad (Fp p) → Outcome (Option (Quad (Fp p)))} [CommRing (Quad (Fp p))] [BaseField (Quad (Fp p))] (C : Params (Quad (Fp p)))
    (b : List ℕ) (hb : IsBytes b) :
    Overflows p e .unc b ↔ b.length = 2 * (Tower2.codec p e cfg sgn sqrt).size ∧
      (Tower2.codec p e cfg sgn sqrt).fromUncompressed C b = .panic := by
  have hsz : (Tower2.codec p e cfg sgn sqrt).size = 2 * (8 * numLimbs p) := rfl
  rw [Overflows, hsz]
  generalize hm : 8 * numLimbs p = m at *
  rw [show 4 * m = 2 * (2 * m) by ring]
  refine and_congr_right fun hl => ?_
  have p1 := tower_panic (e := e) (cfg := cfg) (sgn := sgn) (sqrt := sqrt) (b := b.take (2 * m))
    (by rw [List.length_take, hl, Tower2.half, hm]; omega) (hb.take _)
  have p2 := tower_panic (e := e) (cfg := cfg) (sgn := sgn) (sqrt := sqrt) (b := (b.drop (2 * m)).take (2 * m))
    (by rw [List.length_take, List.length_drop, hl, Tower2.half, hm]; omega) ((hb.drop _).take _)
  rw [hm] at p1 p2
  have hq : (∃ i < 4, p ≤ e.nat ((b.drop (i * m)).take m)) ↔
      (p ≤ e.nat ((b.take (2 * m)).take m) ∨ p ≤ e.nat ((b.take (2 * m)).drop m)) ∨
      (p ≤ e.nat (((b.drop (2 * m)).take (2 * m)).take m) ∨ p ≤ e.nat (((b.drop (2 * m)).take (2 * m)).drop m)) := by
    have e0 : (b.take (2 * m)).take m = (b.drop (0 * m)).take m := by
      rw [List.take_take, zero_mul, List.drop_zero, min_eq_left (by omega)]
    have e1 : (b.take (2 * m)).drop m = (b.drop (1 * m)).take m := by
      rw [List.drop_take, one_mul, show 2 * m - m = m by omega]
    have e2 : ((b.drop (2 * m)).take (2 * m)).take m = (b.drop (2 * m)).take m := by
      rw [List.take_take, min_eq_left (by omega)]
    have e3 : ((b.drop (2 * m)).take (2 * m)).drop m = (b.drop (3 * m)).take m := by
      rw [List.drop_take, List.drop_drop, show 2 * m - m = m by omega, show 2 * m + m = 3 * m by omega]
    rw [e0, e1, e2, e3]
    constructor
    · rintro ⟨i, hi, h⟩
      interval_cases i
      · exact .inl (.inl h)
      · exact .inl (.inr h)
      · exact .inr (.inl h)
      · exact .inr (.inr h)
    · rintro ((h | h) | (h | h))
      · exact ⟨0, by omega, h⟩
      · exact ⟨1, by omega, h⟩
      · exact ⟨2, by omega, h⟩
      · exact ⟨3, by omega, h⟩
  rw [hq, ← p1, ← p2, Codec.fromUncompressed, Codec.fromUncompressedUnchecked, hsz]
  cases (Tower2.codec p e cfg sgn sqrt).fromBytes (b.take (2 * m)) <;>
    cases (Tower2.codec p e cfg sgn sqrt).fromBytes ((b.drop (2 * m)).take (2 * m)) <;> simp

/-- The forms of the second group that the claim covers. -/
theorem formSpec_tower {p : ℕ} [Fact (OddModulus p)] {e : Endian} {cfg : FlagConfig} {sgn : Quad (Fp p) → Bool}
    {sqrt : Quad (Fp p) → Outcome (Option (Quad (Fp p)))} [Field (Quad (Fp p))] [BaseField (Quad (Fp p))] [LawfulBase (Quad (Fp p))]
    {C : Params (Quad (Fp p))} {r : ℕ} [Fact (OddModulus r)] [Fact r.Prime] [Fp.SmallModulus r]
    (hK : (Tower2.codec p e cfg sgn sqrt).Lawful) (hC : Good C) (f : WForm) (hf : f ≠ .comp) :
    FormSpec (Tower2.codec p e cfg sgn sqrt) C r f (Overflows p e f) := by
  cases f with
  | comp => exact absurd rfl hf
  | unc => exact formSpec_unc hK hC fun b hb => overflows_iff C b hb
  | raw => exact formSpec_raw hK hC

/-- On bls12381 the points with `x = 0` are not in the group of order `r`: the endomorphism fixes them, and on the group it is the
multiplication by a cube root of one. -/
theorem bls_g1_plain (p : Pt Bls12381.g1) (hr : blsR • p = 0) : (wireView Bls12381.g1Codec Bls12381.g1).plain p := by
  by_cases h0 : p = 0
  · exact Or.inl h0
  refine Or.inr fun hx => ?_
  have hP := (affOf_rep p).toCurve Bls12381.g1_good
  have hid : (affOf p).isIdentity = false := by
    rw [← Bool.not_eq_true, (affOf_rep p).isIdentity Bls12381.g1_good]
    exact h0
  have he := eigen_Bls12381_g1 hP hr
  have hs := C45_scalars Bls12381.g1_good blsR_prime hP hr
  have hfix : Proj.endo (Fp.zeta blsQ blsQZeta) (affOf p).toCurve = (affOf p).toCurve := by
    rw [Aff.toCurve, hid, if_neg Bool.false_ne_true, Proj.endo, hx, zero_mul]
  rw [EigenSpec, hfix] at he
  have hi : Proj.isIdentity (affOf p).toCurve = false := by
    rw [← Bool.not_eq_true, hP.isIdentity]
    exact h0
  have h1 := hs.one
  have := hs.faithful hi (Fp.zeta blsR blsRZeta) 1 (by
    rw [PRep.ctEq (mul_rep Bls12381.g1_good hP _) (mul_rep Bls12381.g1_good hP _)]
    rw [PRep.ctEq hP (mul_rep Bls12381.g1_good hP _)] at he
    rw [PRep.ctEq (mul_rep Bls12381.g1_good hP _) hP] at h1
    rw [← he, h1])
  exact C12_constants.2.2.2.1.zeta_ne_one this

/-- **C87** bn256. -/
theorem C87_bn256 : VerifierClaim bn256Engine Bn256.g1Codec Bn256.g2Codec Bn256.g1 Bn256.g2 bnR Cofactor.trivialFree Bn256.g2TorsionFree
    (Overflows bnQ .LE) Bn256.g1Gen Bn256.g2Gen := by
  obtain ⟨o0, -, o2, -, -, -, -, o7, o8, o9, o10⟩ := C44_orders
  exact verifierClaim_of Bn256.g1_good Bn256.g2_good C74_bn256 Bn256.g1Codec_lawful Bn256.g2Codec_lawful o0 o7 C41_prime_order.1.2.1 C41_free.1
    (formSpec_wire C86_shipped.1 Bn256.g1_good fun p _ => C86_all_plain.1 p) (formSpec_tower Bn256.g2Codec_lawful Bn256.g2_good)

/-- **C87** bls12381. -/
theorem C87_bls12381 : VerifierClaim bls12381Engine Bls12381.g1Codec Bls12381.g2Codec Bls12381.g1 Bls12381.g2 blsR
    (Bls12381.g1TorsionFree (Fp.zeta blsQ blsQZeta)) Bls12381.g2TorsionFree (Overflows blsQ .BE) Bls12381.g1Gen Bls12381.g2Gen := by
  obtain ⟨o0, -, o2, -, -, -, -, o7, o8, o9, o10⟩ := C44_orders
  exact verifierClaim_of Bls12381.g1_good Bls12381.g2_good C74_bls12381 Bls12381.g1Codec_lawful Bls12381.g2Codec_lawful o9 o10 C41_free.2.2.1
    C41_free.2.2.2 (formSpec_wire C86_shipped.2.2.1 Bls12381.g1_good bls_g1_plain) (formSpec_tower Bls12381.g2Codec_lawful Bls12381.g2_good)

/-- **C87** pluto. -/
theorem C87_pluto : VerifierClaim plutoEngine Pluto.g1Codec Pluto.g2Codec Pluto.g1 Pluto.g2 plQ Cofactor.trivialFree Pluto.g2TorsionFree
    (Overflows plP .LE) Pluto.g1Gen Pluto.g2Gen := by
  obtain ⟨o0, -, o2, -, -, -, -, o7, o8, o9, o10⟩ := C44_orders
  exact verifierClaim_of Pluto.g1_good Pluto.g2_good C74_pluto Pluto.g1Codec_lawful Pluto.g2Codec_lawful o2 o8 C41_prime_order.2.2.1.2.1
    C41_free.2.1 (formSpec_wire C86_shipped.2.2.2.1 Pluto.g1_good fun p _ => C86_all_plain.2.2.1 p)
    (formSpec_tower Pluto.g2Codec_lawful Pluto.g2_good)

/-- A program whose calls do not panic does not panic. -/
theorem run_no_panic {S O U : Type} {step : S → O → Outcome S} {test : S → U → Bool} {emit : S → Bool → S} {P : O → Prop}
    (h : ∀ s o, P o → step s o ≠ .panic) (p : Prog O U) (hp : p.All P) (n : ℕ) (s : S) : run step test emit n p s ≠ some .panic := by
  have cont : ∀ (x : Option (Outcome S)) (k : S → Option (Outcome S)), x ≠ some .panic → (∀ s, k s ≠ some .panic) →
      (match x with | some (.ok s) => k s | r => r) ≠ some .panic := by
    intro x k hx hk
    rcases x with _ | _ | s <;> first | exact hk _ | exact hx
  induction n generalizing p s with
  | zero => exact fun e => nomatch e
  | succ n ih =>
    cases p with
    | op o => exact fun e => h s o hp (Option.some.inj e)
    | out c => exact fun e => nomatch e
    | seq p q =>
      rw [run]
      exact cont _ _ (ih p hp.1 s) fun s => ih q hp.2 s
    | ite c p q =>
      rw [run]
      split
      · exact ih p hp.1 s
      · exact ih q hp.2 s
    | loop c p =>
      rw [run]
      split
      · exact cont _ _ (ih p hp s) fun s => ih (.loop c p) hp s
      · exact fun e => nomatch e

theorem outRel_panic {S S' : Type} {R : S → S' → Prop} {y : Option (Outcome S')} (h : OutRel R (some .panic) y) : y = some .panic := by
  rcases y with _ | _ | _
  · exact h.elim
  · exact h.elim
  · rfl

theorem outRel_ok {S S' : Type} {R : S → S' → Prop} {x : Option (Outcome S)} {t : S'} (h : OutRel R x (some (.ok t))) :
    ∃ s, x = some (.ok s) ∧ R s t := by
  rcases x with _ | s | _
  · exact h.elim
  · exact ⟨s, rfl, h⟩
  · exact h.elim

/-- No point of the second group is read in uncompressed form. -/
def NoUnc : VOp L F → Prop
  | .dec2 .unc _ _ => False
  | _ => True

/-- Both conditions on a program. -/
theorem Prog.all_and {O U : Type} {P Q : O → Prop} : ∀ {p : Prog O U}, p.All P → p.All Q → p.All fun o => P o ∧ Q o
  | .op _, h, k => ⟨h, k⟩
  | .seq _ _, h, k => ⟨Prog.all_and h.1 k.1, Prog.all_and h.2 k.2⟩
  | .ite _ _ _, h, k => ⟨Prog.all_and h.1 k.1, Prog.all_and h.2 k.2⟩
  | .loop _ p, h, k => Prog.all_and (p := p) h k
  | .out _, _, _ => trivial

/-- **C87** A program that reads points of the second group in raw form only never panics, whatever strings it is given. -/
theorem C87_no_panic {E : Engine L F T} {K1 : Codec L} {K2 : Codec F} {free1 : Proj L → Bool} {free2 : Proj F → Bool} {q : ℕ} {e : Endian}
    {gA : Aff L} {hA : Aff F} (hv : VerifierClaim E K1 K2 C1 C2 r free1 free2 (Overflows q e) gA hA) :
    ∃ (g : Pt C1) (h : Pt C2) (z : T), ARep C1 gA g ∧ ARep C2 hA h ∧ E.pairing gA hA = some z ∧
      ∀ (ln : ℕ → ℕ), LnCeilOk ln → ∀ (log1 : L → L → ZMod r) (log2 : F → F → ZMod r) (p : Prog (VOp L F) VTest),
      p.All (VOpOk C1 C2 r g h log1 log2) → p.All NoUnc → ∀ (n : ℕ) (s : VSt L F T r) (t : VESt r), VSim g h z s t →
      run (vstep E K1 K2 C1 C2 free1 free2 ln ((numBits r + 7) / 8)) (vtest E) vemit n p s ≠ some .panic := by
  obtain ⟨g, h, z, rg, rh, -, -, -, hz, -, -, H⟩ := hv
  refine ⟨g, h, z, rg, rh, hz, fun ln hln log1 log2 p hp hn n s t hs e1 => ?_⟩
  have k := H ln hln log1 log2 p hp n s t hs
  rw [e1] at k
  have hnp := run_no_panic (test := vetest) (emit := veemit)
    (step := vestep (expView K1 C1 r g log1) (expView K2 C2 r h log2) (wireOf K1 C1 g) (wireOf K2 C2 h) (Overflows q e))
    (P := fun o => VOpOk C1 C2 r g h log1 log2 o ∧ NoUnc o) (fun t o ho => by
      cases o with
      | dec2 f d a =>
        cases f with
        | comp => exact ho.1.elim
        | unc => exact ho.2.elim
        | raw =>
          rw [vestep, if_neg (show ¬ Overflows q e .raw (t.bs a) from id)]
          exact fun e => nomatch e
      | _ => exact fun e => nomatch e) p (Prog.all_and hp hn) n t
  exact hnp (outRel_panic k)

/-- **C87** Reading a string in uncompressed form does panic on the three curves: a string of bytes `255` of the right length makes
`from_uncompressed` of the second group panic. -/
theorem C87_panics :
    (∃ b, IsBytes b ∧ b.length = 128 ∧ ofWireFree Bn256.g2TorsionFree Bn256.g2Codec Bn256.g2 .unc b = .panic) ∧
    (∃ b, IsBytes b ∧ b.length = 192 ∧ ofWireFree Bls12381.g2TorsionFree Bls12381.g2Codec Bls12381.g2 .unc b = .panic) ∧
    (∃ b, IsBytes b ∧ b.length = 224 ∧ ofWireFree Pluto.g2TorsionFree Pluto.g2Codec Pluto.g2 .unc b = .panic) := by
  have hb : ∀ n, IsBytes (List.replicate n 255) := fun n x hx => by
    rw [List.eq_of_mem_replicate hx]
    decide
  have key : ∀ {F : Type} [Field F] [DecidableEq F] [BaseField F] (free : Proj F → Bool) (K : Codec F) (C : Params F) (b : List ℕ),
      b.length = 2 * K.size ∧ K.fromUncompressed C b = .panic → ofWireFree free K C .unc b = .panic := by
    intro F _ _ _ free K C b h
    rw [ofWireFree, ofWire, wireU, if_pos h.1, h.2]
    rfl
  refine ⟨⟨_, hb 128, List.length_replicate, key _ _ _ _ ((overflows_iff (e := .LE) _ _ (hb 128)).mp ⟨?_, 0, ?_, ?_⟩)⟩,
    ⟨_, hb 192, List.length_replicate, key _ _ _ _ ((overflows_iff (e := .BE) _ _ (hb 192)).mp ⟨?_, 0, ?_, ?_⟩)⟩,
    ⟨_, hb 224, List.length_replicate, key _ _ _ _ ((overflows_iff (e := .LE) _ _ (hb 224)).mp ⟨?_, 0, ?_, ?_⟩)⟩⟩ <;> decide +kernel

/-- A verifier of signatures: it reads a signature in compressed form and a public key in raw form, and compares the pairing of the
signature and the generator with the pairing of the point of the message (register 0) and the key; a string that is not accepted is
answered by no. -/
def verifyProg (L F : Type) : Prog (VOp L F) VTest :=
  .seq (.op (.dec1 .comp 1 0)) (.seq (.op (.dec2 .raw 2 1)) (.ite (.flag 1) (.ite (.flag 2)
    (.seq (.op (.base (.pairing 0 1 0))) (.seq (.op (.base (.pairing 1 0 2))) (.out (.base (.eqT 0 1))))) (.out (.flag 2))) (.out (.flag 1))))

theorem theOne_spec {G : Type} [Zero G] {P : G → Prop} (h : ∃ g, P g) : P (theOne P) := by
  rw [theOne, dif_pos h]
  exact h.choose_spec

theorem run_op_seq {S O U : Type} {step : S → O → Outcome S} {test : S → U → Bool} {emit : S → Bool → S} {o : O} {s s' : S}
    (h : step s o = .ok s') {q : Prog O U} {n : ℕ} : run step test emit (n + 2) (.seq (.op o) q) s = run step test emit (n + 1) q s' := by
  rw [run, run, h]

open Classical in
/-- What the verifier does in exponents. -/
theorem verify_meaning (V1 : View L (ZMod r)) (V2 : View F (ZMod r)) {W1 W2 : WForm → ZMod r → List ℕ} {bad : WForm → List ℕ → Prop}
    (hbad : ∀ b, ¬ bad .raw b) (i1 : Function.Injective (W1 .comp)) (i2 : Function.Injective (W2 .raw)) (m : ZMod r) (sig key : List ℕ) :
    ∃ (t : VESt r) (ans : Bool), run (vestep V1 V2 W1 W2 bad) vetest veemit 9 (verifyProg L F)
        ⟨⟨fun _ => 0, fun _ => 0, fun _ => m, fun _ => 0, fun _ => 1, fun _ => 0, []⟩, fun i => if i = 0 then sig else key, fun _ => false⟩ =
          some (.ok t) ∧
      t.st.out = [.bit ans] ∧ (ans = true ↔ ∃ x : ZMod r, W2 .raw x = key ∧ W1 .comp (x * m) = sig) := by
  let y := theOne fun y : ZMod r => W1 .comp y = sig
  let x := theOne fun x : ZMod r => W2 .raw x = key
  let st : List Out → (ℕ → ZMod r) → ESt r := fun o gt =>
    ⟨fun _ => 0, fun _ => 0, Program.set (fun _ => m) 1 y, fun _ => 0, Program.set (fun _ => 1) 2 x, gt, o⟩
  let bs : ℕ → List ℕ := fun i => if i = 0 then sig else key
  let f1 : ℕ → Bool := Program.set (fun _ => false) 1 (decide (∃ y : ZMod r, W1 .comp y = sig))
  let f2 : ℕ → Bool := Program.set f1 2 (decide (∃ x : ZMod r, W2 .raw x = key))
  have hstep : vestep V1 V2 W1 W2 bad ⟨⟨fun _ => 0, fun _ => 0, Program.set (fun _ => m) 1 y, fun _ => 0, fun _ => 1, fun _ => 0, []⟩, bs, f1⟩
      (.dec2 .raw 2 1) = .ok ⟨st [] fun _ => 0, bs, f2⟩ := if_neg (hbad _)
  have hrun : run (vestep V1 V2 W1 W2 bad) vetest veemit 9 (verifyProg L F)
      ⟨⟨fun _ => 0, fun _ => 0, fun _ => m, fun _ => 0, fun _ => 1, fun _ => 0, []⟩, bs, fun _ => false⟩ =
      if f2 1 = true then
        if f2 2 = true then some (.ok ⟨st [.bit (decide (y * 1 = m * x))] (Program.set (Program.set (fun _ => 0) 0 (y * 1)) 1 (m * x)), bs, f2⟩)
        else some (.ok ⟨st [.bit (f2 2)] fun _ => 0, bs, f2⟩)
      else some (.ok ⟨st [.bit (f2 1)] fun _ => 0, bs, f2⟩) := by
    have h0 : vestep V1 V2 W1 W2 bad ⟨⟨fun _ => 0, fun _ => 0, fun _ => m, fun _ => 0, fun _ => 1, fun _ => 0, []⟩, bs, fun _ => false⟩
      (.dec1 .comp 1 0) = .ok ⟨⟨fun _ => 0, fun _ => 0, Program.set (fun _ => m) 1 y, fun _ => 0, fun _ => 1, fun _ => 0, []⟩, bs, f1⟩ := rfl
    rw [verifyProg, run_op_seq h0, run_op_seq hstep]
    rfl
  have g1 : f2 1 = decide (∃ y : ZMod r, W1 .comp y = sig) := rfl
  have g2 : f2 2 = decide (∃ x : ZMod r, W2 .raw x = key) := rfl
  rw [hrun]
  by_cases e1 : ∃ y : ZMod r, W1 .comp y = sig
  · rw [decide_eq_true e1] at g1
    rw [if_pos g1]
    by_cases e2 : ∃ x : ZMod r, W2 .raw x = key
    · rw [decide_eq_true e2] at g2
      rw [if_pos g2]
      refine ⟨_, _, rfl, rfl, ?_⟩
      have h1 : W1 .comp y = sig := theOne_spec e1
      have h2 : W2 .raw x = key := theOne_spec e2
      rw [decide_eq_true_iff, mul_one]
      constructor
      · intro e
        exact ⟨x, h2, by rw [mul_comm, ← e, h1]⟩
      · rintro ⟨x', h3, h4⟩
        rw [i2 (h3.trans h2.symm), ← h1] at h4
        rw [← i1 h4, mul_comm]
    · rw [decide_eq_false e2] at g2
      rw [if_neg (by rw [g2]; exact Bool.false_ne_true)]
      refine ⟨_, _, rfl, rfl, ?_⟩
      rw [g2]
      exact ⟨(fun e => nomatch e), fun ⟨x, h, _⟩ => absurd ⟨x, h⟩ e2⟩
  · rw [decide_eq_false e1] at g1
    rw [if_neg (by rw [g1]; exact Bool.false_ne_true)]
    refine ⟨_, _, rfl, rfl, ?_⟩
    rw [g1]
    exact ⟨(fun e => nomatch e), fun ⟨x, _, h⟩ => absurd ⟨_, h⟩ e1⟩

/-- **C87** The verifier says yes exactly to the strings of `x H` and `x M` for the generator `H` of the second group, the point `M` of the
message, and some `x`: for any two strings it ends without a panic and puts out one answer, and the answer is yes if and only if the key is
the raw form of a multiple `x H` and the signature is the compressed form of the same multiple of `M`. -/
theorem C87_signature {E : Engine L F T} {K1 : Codec L} {K2 : Codec F} {free1 : Proj L → Bool} {free2 : Proj F → Bool} {q : ℕ} {e : Endian}
    {gA : Aff L} {hA : Aff F} (hv : VerifierClaim E K1 K2 C1 C2 r free1 free2 (Overflows q e) gA hA) :
    ∃ (g : Pt C1) (h : Pt C2), ARep C1 gA g ∧ ARep C2 hA h ∧ addOrderOf g = r ∧ addOrderOf h = r ∧
      ∀ (ln : ℕ → ℕ), LnCeilOk ln → ∀ (M : Aff L) (m : ZMod r), ARep C1 M (m.val • g) → ∀ sig key : List ℕ, IsBytes sig → IsBytes key →
      ∃ (s : VSt L F T r) (ans : Bool),
        run (vstep E K1 K2 C1 C2 free1 free2 ln ((numBits r + 7) / 8)) (vtest E) vemit 9 (verifyProg L F)
          ⟨⟨fun _ => 0, fun _ => Proj.identity, fun _ => M, fun _ => Proj.identity, fun _ => hA, fun _ => 1, []⟩,
            fun i => if i = 0 then sig else key, fun _ => false⟩ = some (.ok s) ∧
        s.st.out = [.bit ans] ∧
        (ans = true ↔ ∃ x : ZMod r, wireOf K2 C2 h .raw x = key ∧ wireOf K1 C1 g .comp (x * m) = sig) := by
  have : Fact (1 < r) := ⟨(Fact.out : r.Prime).one_lt⟩
  obtain ⟨g, h, z, rg, rh, og, oh, -, hz, i1, i2, H⟩ := hv
  refine ⟨g, h, rg, rh, og, oh, fun ln hln M m hM sig key hsig hkey => ?_⟩
  have k := H ln hln (fun _ _ => 0) (fun _ _ => 0) (verifyProg L F) (by
    exact ⟨trivial, trivial, ⟨⟨trivial, trivial, trivial⟩, trivial⟩, trivial⟩) 9
    ⟨⟨fun _ => 0, fun _ => Proj.identity, fun _ => M, fun _ => Proj.identity, fun _ => hA, fun _ => 1, []⟩,
            fun i => if i = 0 then sig else key, fun _ => false⟩
    ⟨⟨fun _ => 0, fun _ => 0, fun _ => m, fun _ => 0, fun _ => 1, fun _ => 0, []⟩, fun i => if i = 0 then sig else key, fun _ => false⟩ (by
      refine ⟨⟨⟨fun _ => Fp.toZMod_zero, fun _ => ?_, fun _ => hM, rfl⟩, ⟨fun _ => Fp.toZMod_zero, fun _ => ?_, fun _ => ?_, rfl⟩,
        fun _ => (pow_val_zero z).symm⟩, rfl, rfl, fun i => ?_⟩
      · change PRep _ _ ((0 : ZMod r).val • g)
        rw [ZMod.val_zero, zero_smul]
        exact PRep.identity
      · change PRep _ _ ((0 : ZMod r).val • h)
        rw [ZMod.val_zero, zero_smul]
        exact PRep.identity
      · change ARep _ _ ((1 : ZMod r).val • h)
        rw [ZMod.val_one, one_smul]
        exact rh
      · change IsBytes (if i = 0 then sig else key)
        split
        · exact hsig
        · exact hkey)
  obtain ⟨t, ans, e, o, ha⟩ := verify_meaning (L := L) (F := F) (expView K1 C1 r g fun _ _ => 0) (expView K2 C2 r h fun _ _ => 0)
    (bad := Overflows q e) (fun _ => id) (i1 .comp) (i2 .raw (fun e => nomatch e)) m sig key
  rw [e] at k
  obtain ⟨s, e, hs⟩ := outRel_ok k
  exact ⟨s, ans, e, hs.st.left.out.trans o, ha⟩

/-- On bls12381, the key `5 H` and the signature `5 M` for the point `M = G`: the answer is yes. -/
example : ∃ (sig key : List ℕ) (s : VSt Bls12381.Fq Bls12381.Fq2 Bls12381.Fq12 blsR), IsBytes sig ∧ IsBytes key ∧
    run (vstep bls12381Engine Bls12381.g1Codec Bls12381.g2Codec Bls12381.g1 Bls12381.g2 (Bls12381.g1TorsionFree (Fp.zeta blsQ blsQZeta))
        Bls12381.g2TorsionFree (fun _ => 4) ((numBits blsR + 7) / 8)) (vtest bls12381Engine) vemit 9 (verifyProg _ _)
      ⟨⟨fun _ => 0, fun _ => Proj.identity, fun _ => Bls12381.g1Gen, fun _ => Proj.identity, fun _ => Bls12381.g2Gen, fun _ => 1, []⟩,
        fun i => if i = 0 then sig else key, fun _ => false⟩ = some (.ok s) ∧ s.st.out = [.bit true] := by
  obtain ⟨g, h, rg, rh, -, -, H⟩ := C87_signature C87_bls12381
  have : Fact (1 < blsR) := ⟨blsR_prime.one_lt⟩
  obtain ⟨key, hk, bk⟩ := toWire_ok Bls12381.g2Codec_lawful Bls12381.g2_good ((5 : ZMod blsR).val • h) .raw
  obtain ⟨sig, hs, bs⟩ := toWire_ok Bls12381.g1Codec_lawful Bls12381.g1_good ((5 * 1 : ZMod blsR).val • g) .comp
  obtain ⟨s, ans, e, o, ha⟩ := H (fun _ => 4) (fun _ _ _ => ⟨(by decide : 1 ≤ 4), (by decide : 4 ≤ 24)⟩) Bls12381.g1Gen 1
    (by rw [ZMod.val_one, one_smul]; exact rg) sig key bs bk
  have : ans = true := ha.mpr ⟨5, (wireOf_iff Bls12381.g2Codec_lawful Bls12381.g2_good _ _ _ _).mpr hk,
    (wireOf_iff Bls12381.g1Codec_lawful Bls12381.g1_good _ _ _ _).mpr hs⟩
  exact ⟨sig, key, s, bs, bk, e, by rw [o, this]⟩

end Halo2.Props
