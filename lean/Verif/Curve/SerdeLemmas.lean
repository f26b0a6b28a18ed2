import Verif.Curve.Serde
import Verif.Curve.Scalar

/-!
# Lemmas about the point encodings
-/

set_option linter.unusedSectionVars false

namespace Halo2.Curve

open Halo2 Halo2.Field WeierstrassCurve

/-! ## The flag byte -/

/-- Writing the identity, sign and compression flags. -/
def FlagConfig.setAll (cfg : FlagConfig) (i s : Bool) (c : ℕ) : ℕ :=
  let c := Flag.set 1 i c
  let c := Flag.set cfg.posSign s c
  match cfg.posCompressed with
  | none => c
  | some pos => Flag.set pos true c

/-- The byte left after reading all flags. -/
def FlagConfig.clear (cfg : FlagConfig) (c : ℕ) : ℕ :=
  let c := match cfg.posCompressed with
    | none => c
    | some pos => (Flag.get pos c).2
  (Flag.get cfg.posSign (Flag.get 1 c).2).2

/-- The compression flag, if any. -/
def FlagConfig.compressed (cfg : FlagConfig) (c : ℕ) : Option Bool :=
  cfg.posCompressed.map fun pos => (Flag.get pos c).1

/-- The sign flag as read. -/
def FlagConfig.signOf (cfg : FlagConfig) (c : ℕ) : Bool :=
  (Flag.get cfg.posSign c).1

/-- The identity flag as read. -/
def FlagConfig.identOf (c : ℕ) : Bool := (Flag.get 1 c).1

/-- Bound on the flag byte of a coordinate, so that the flag bits are free. -/
def FlagConfig.bound : FlagConfig → ℕ
  | .extra => 1
  | .twoSpare => 64
  | .threeSpare => 32

theorem set_get (cfg : FlagConfig) : ∀ c < cfg.bound, ∀ i s : Bool,
    cfg.setAll i s c < 256 ∧ cfg.compressed (cfg.setAll i s c) ≠ some false ∧
    FlagConfig.identOf (cfg.setAll i s c) = i ∧ cfg.signOf (cfg.setAll i s c) = s ∧
    cfg.clear (cfg.setAll i s c) = c := by
  cases cfg <;> decide +kernel

theorem get_set (cfg : FlagConfig) : ∀ c < 256, cfg.clear c < 256 ∧ (cfg.compressed c ≠ some false →
    cfg.setAll (FlagConfig.identOf c) (cfg.signOf c) (cfg.clear c) = c) := by
  cases cfg <;> decide +kernel

/-- The flags are read in sequence, each from the byte with the previous ones cleared. -/
theorem reads (cfg : FlagConfig) : ∀ c < 256,
    (Flag.get 1 (match cfg.posCompressed with | none => c | some pos => (Flag.get pos c).2)).1 = FlagConfig.identOf c ∧
    (Flag.get cfg.posSign (Flag.get 1 (match cfg.posCompressed with | none => c | some pos => (Flag.get pos c).2)).2).1 =
      cfg.signOf c := by
  cases cfg <;> decide +kernel

/-! ## Lists -/

theorem modify_eq_set (l : List ℕ) (i : ℕ) (h : i < l.length) (f : ℕ → ℕ) : l.modify i f = l.set i (f (l.getD i 0)) := by
  apply List.ext_getElem
  · simp
  · intro j h1 h2
    rw [List.getElem_modify, List.getElem_set]
    split
    · next h3 => subst h3; rw [List.getD_eq_getElem?_getD, List.getElem?_eq_getElem h]; rfl
    · rfl

theorem getD_set_self (l : List ℕ) (i : ℕ) (h : i < l.length) (v : ℕ) : (l.set i v).getD i 0 = v := by
  simp [List.getD_eq_getElem?_getD, h]

theorem set_getD_self (l : List ℕ) (i : ℕ) (h : i < l.length) : l.set i (l.getD i 0) = l := by
  rw [List.getD_eq_getElem?_getD, List.getElem?_eq_getElem h]
  simp

theorem isBytes_set {l : List ℕ} (hl : IsBytes l) (i v : ℕ) (hv : v < 256) : IsBytes (l.set i v) := by
  intro x hx
  rcases List.mem_or_eq_of_mem_set hx with h | h
  · exact hl x h
  · rw [h]; exact hv

theorem getD_lt {l : List ℕ} (hl : IsBytes l) (i : ℕ) : l.getD i 0 < 256 := by
  rw [List.getD_eq_getElem?_getD]
  cases h : l[i]? with
  | none => simp
  | some v => exact hl v (List.mem_of_getElem? h)

variable {F : Type} [Field F] [DecidableEq F] [BaseField F] [LawfulBase F]

/-- What the encoding needs of the coordinate field's functions. -/
structure Codec.Lawful (K : Codec F) : Prop where
  size_pos : 0 < K.size
  length (a : F) : (K.toBytes a).length = K.size
  isBytes (a : F) : IsBytes (K.toBytes a)
  fromBytes_iff (b : List ℕ) (hl : b.length = K.size) (hb : IsBytes b) (a : F) :
    K.fromBytes b = .ok (some a) ↔ b = K.toBytes a
  spare (a : F) : K.config ≠ .extra → (K.toBytes a).getD (K.flagIdx (K.toBytes a)) 0 < K.config.bound
  sqrt (a : F) (h : a ≠ 0) : ∃ r, K.sqrt a = .ok r ∧ (∀ s, r = some s → s * s = a) ∧ (r = none → ¬ IsSquare a)
  raw_length (a : F) : (K.toRaw a).length = K.size
  raw_isBytes (a : F) : IsBytes (K.toRaw a)
  fromRaw_iff (b : List ℕ) (hb : IsBytes b) (a : F) : K.fromRaw b = some a ↔ b = K.toRaw a
  readRaw_iff (s : List ℕ) (hs : IsBytes s) (a : F) (rest : List ℕ) :
    K.readRaw s = some (a, rest) ↔ s = K.toRaw a ++ rest

namespace Codec

variable {K : Codec F} {C : Params F}

/-- The bytes of `x` before the flags are written. -/
def base (K : Codec F) (x : F) : List ℕ := if K.config.hasExtra then 0 :: K.toBytes x else K.toBytes x

theorem base_length (hK : K.Lawful) (x : F) : (K.base x).length = K.compressedSize := by
  rw [base, compressedSize]
  split
  · rw [List.length_cons, hK.length]
  · rw [hK.length, Nat.add_zero]

theorem size_pos (hK : K.Lawful) : 0 < K.compressedSize := by
  have := hK.size_pos
  rw [compressedSize]
  omega

/-- The flag byte's index depends on the length only. -/
def idx (K : Codec F) : ℕ :=
  match K.config, K.endian with
  | .extra, _ => 0
  | _, .LE => K.compressedSize - 1
  | _, .BE => 0

theorem flagIdx_eq (K : Codec F) (b : List ℕ) (h : b.length = K.compressedSize) : K.flagIdx b = K.idx := by
  rw [flagIdx, idx, h]
  cases K.config <;> cases K.endian <;> rfl

theorem idx_lt (hK : K.Lawful) : K.idx < K.compressedSize := by
  have := size_pos hK
  rw [idx]
  cases K.config <;> cases K.endian <;> simp only <;> omega

theorem base_isBytes (hK : K.Lawful) (x : F) : IsBytes (K.base x) := by
  rw [base]
  split
  · intro v hv
    rcases List.mem_cons.mp hv with h | h
    · rw [h]; decide
    · exact hK.isBytes x v h
  · exact hK.isBytes x

theorem base_flag (hK : K.Lawful) (x : F) : (K.base x).getD K.idx 0 < K.config.bound := by
  by_cases h : K.config = .extra
  · rw [idx, base, h]
    simp [FlagConfig.hasExtra, FlagConfig.bound]
  · have := hK.spare x h
    have hb : K.base x = K.toBytes x := by
      rw [base]
      cases hc : K.config <;> simp_all [FlagConfig.hasExtra]
    rw [← hb, flagIdx_eq K _ (base_length hK x)] at this
    exact this

theorem setFlag_eq (hK : K.Lawful) (pos : ℕ) (v : Bool) (b : List ℕ) (h : b.length = K.compressedSize) :
    K.setFlag (some pos) v b = b.set K.idx (Flag.set pos v (b.getD K.idx 0)) := by
  rw [setFlag, flagIdx_eq K b h, modify_eq_set _ _ (by rw [h]; exact idx_lt hK)]

theorem encode_eq (hK : K.Lawful) (A : Aff F) (hA : Aff.isOnCurve C A = true) :
    K.encode C A = .ok ((K.base A.x).set K.idx (K.config.setAll A.isIdentity (K.sign A) ((K.base A.x).getD K.idx 0))) := by
  have hi := idx_lt hK
  have hl := base_length hK A.x
  unfold encode
  have h1 : Aff.fromXY C A.x A.y = some A := by rw [Aff.fromXY]; exact if_pos hA
  rw [h1]
  dsimp only
  change Outcome.ok (K.setFlag K.config.posCompressed true (K.setFlag (some K.config.posSign) (K.sign A)
    (K.setFlag K.config.posIdentity A.isIdentity (K.base A.x)))) = _
  have hpi : K.config.posIdentity = some 1 := by cases K.config <;> rfl
  rw [hpi, setFlag_eq hK _ _ _ hl, setFlag_eq hK _ _ _ (by rw [List.length_set, hl]), getD_set_self _ _ (by rw [hl]; exact hi),
    List.set_set]
  rw [FlagConfig.setAll]
  cases hc : K.config.posCompressed with
  | none => rfl
  | some pos =>
    rw [setFlag_eq hK _ _ _ (by rw [List.length_set, hl]), getD_set_self _ _ (by rw [hl]; exact hi), List.set_set]

/-- `decode` in terms of the flag byte. -/
theorem decode_eq (hK : K.Lawful) (b : List ℕ) (hl : b.length = K.compressedSize) (hb : IsBytes b) :
    K.decode C b =
      (let c := b.getD K.idx 0
       let b' := b.set K.idx (K.config.clear c)
       let body := K.decodeBody C (K.config.compressed c) (some (FlagConfig.identOf c)) (K.config.signOf c)
         (if K.config = .extra then K.config.clear c == 0 else true)
       match K.fromBytes (if K.config.hasExtra then b'.drop 1 else b') with
       | .panic => .panic
       | .ok none =>
         match body 0 with
         | .panic => .panic
         | .ok _ => .ok none
       | .ok (some x) => body x) := by
  have hi := idx_lt hK
  have hbi : K.idx < b.length := by rw [hl]; exact hi
  have hc := getD_lt hb K.idx
  obtain ⟨r1, r2⟩ := reads K.config _ hc
  have hpi : K.config.posIdentity = some 1 := by cases K.config <;> rfl
  have g0 : K.getFlag K.config.posCompressed b = (K.config.compressed (b.getD K.idx 0),
      b.set K.idx (match K.config.posCompressed with | none => b.getD K.idx 0 | some pos => (Flag.get pos (b.getD K.idx 0)).2)) := by
    unfold getFlag FlagConfig.compressed
    cases K.config.posCompressed with
    | none => dsimp only; rw [set_getD_self _ _ hbi]; rfl
    | some pos => dsimp only; rw [flagIdx_eq K b hl]; rfl
  generalize hcm : (match K.config.posCompressed with | none => b.getD K.idx 0 | some pos => (Flag.get pos (b.getD K.idx 0)).2) = c1
    at g0 r1 r2
  have hl1 : (b.set K.idx c1).length = K.compressedSize := by rw [List.length_set, hl]
  have g1 : K.getFlag K.config.posIdentity (b.set K.idx c1) = (some (FlagConfig.identOf (b.getD K.idx 0)), b.set K.idx (Flag.get 1 c1).2) := by
    rw [hpi, getFlag, flagIdx_eq K _ hl1, getD_set_self _ _ hbi, List.set_set, r1]
  have hl2 : (b.set K.idx (Flag.get 1 c1).2).length = K.compressedSize := by rw [List.length_set, hl]
  have g2 : K.getFlag (some K.config.posSign) (b.set K.idx (Flag.get 1 c1).2) =
      (some (K.config.signOf (b.getD K.idx 0)), b.set K.idx (K.config.clear (b.getD K.idx 0))) := by
    rw [getFlag, flagIdx_eq K _ hl2, getD_set_self _ _ hbi, List.set_set, r2, ← hcm]
    rfl
  have hl3 : (b.set K.idx (K.config.clear (b.getD K.idx 0))).length = K.compressedSize := by rw [List.length_set, hl]
  have hv : K.extraClear (b.set K.idx (K.config.clear (b.getD K.idx 0))) = (if K.config = .extra then K.config.clear (b.getD K.idx 0) == 0 else true) := by
    rw [extraClear, flagIdx_eq K _ hl3, getD_set_self _ _ hbi]
    cases K.config <;> rfl
  unfold decode
  dsimp only
  rw [g0]
  dsimp only
  rw [g1]
  dsimp only
  rw [g2]
  dsimp only
  rw [hv]
  rfl

theorem y2_eq (x : F) : y2 C x = x * x * x + C.a * x + C.b := by
  rw [y2]
  split
  · next h => simp only [LawfulBase.sqr_eq, h]; ring
  · simp only [LawfulBase.sqr_eq]; ring

theorem isZero_dec (x : F) : isZero x = decide (x = 0) := isZero_eq x

theorem resolve_ok (hK : K.Lawful) (hC : Good C) (x : F) (s : Bool) : ∃ r, K.resolve C x s = .ok r ∧
    (∀ P, r = some P → P.x = x ∧ P.y * P.y = x * x * x + C.a * x + C.b) ∧
    (r = none → ∀ y, y * y ≠ x * x * x + C.a * x + C.b) ∧
    (∀ y, y * y = x * x * x + C.a * x + C.b → ∃ t : F, (t = y ∨ t = -y) ∧
      r = some ⟨x, if xor s (K.sgn t) then -t else t⟩) := by
  obtain ⟨r, h1, h2, h3⟩ := hK.sqrt (y2 C x) (by rw [y2_eq]; exact hC.noRoot x)
  refine ⟨r.map fun y => ⟨x, if xor s (K.sgn y) then -y else y⟩, by rw [resolve, h1], ?_, ?_, ?_⟩
  · intro P hP
    rw [Option.map_eq_some_iff] at hP
    obtain ⟨t, ht, rfl⟩ := hP
    refine ⟨rfl, ?_⟩
    have := h2 t ht
    rw [y2_eq] at this
    dsimp only
    split
    · rw [neg_mul_neg]; exact this
    · exact this
  · intro hr y hy
    rw [Option.map_eq_none_iff] at hr
    apply h3 hr
    rw [y2_eq]
    exact ⟨y, hy.symm⟩
  · intro y hy
    cases r with
    | none =>
      exact absurd ⟨y, by rw [y2_eq]; exact hy.symm⟩ (h3 rfl)
    | some t =>
      have ht := h2 t rfl
      rw [y2_eq, ← hy] at ht
      exact ⟨t, mul_self_eq_mul_self_iff.mp ht, rfl⟩

/-- The stripped bytes are exactly those of `x` before flags. -/
theorem stripped_iff (hK : K.Lawful) (b : List ℕ) (hl : b.length = K.compressedSize) (hb : IsBytes b) (x : F) :
    (K.fromBytes (if K.config.hasExtra then (b.set K.idx (K.config.clear (b.getD K.idx 0))).drop 1
        else b.set K.idx (K.config.clear (b.getD K.idx 0))) = .ok (some x) ∧
      (if K.config = .extra then K.config.clear (b.getD K.idx 0) == 0 else true) = true) ↔
    b.set K.idx (K.config.clear (b.getD K.idx 0)) = K.base x := by
  have hc := (get_set K.config _ (getD_lt hb K.idx)).1
  have hbb := isBytes_set hb K.idx _ hc
  have hbl : (b.set K.idx (K.config.clear (b.getD K.idx 0))).length = K.compressedSize := by rw [List.length_set, hl]
  by_cases he : K.config = .extra
  · have hx : K.config.hasExtra = true := by rw [he]; rfl
    have hi : K.idx = 0 := by rw [idx, he]
    have hs : K.compressedSize = K.size + 1 := by rw [compressedSize, if_pos hx]
    have h0 : (b.set K.idx (K.config.clear (b.getD K.idx 0))).getD K.idx 0 = K.config.clear (b.getD K.idx 0) :=
      getD_set_self _ _ (by rw [hl, hi, hs]; omega) _
    rw [if_pos hx, if_pos he, base, if_pos hx]
    generalize b.set K.idx (K.config.clear (b.getD K.idx 0)) = l at hbb hbl h0
    cases l with
    | nil => rw [hs] at hbl; simp at hbl
    | cons v t =>
      rw [hi, List.getD_cons_zero] at h0
      rw [hi, ← h0, List.drop_one, List.tail_cons, hK.fromBytes_iff t (by rw [hs] at hbl; simpa using hbl)
        (fun y hy => hbb y (List.mem_cons_of_mem _ hy)), List.cons.injEq, beq_iff_eq, and_comm]
  · have hx : K.config.hasExtra = false := by cases hc : K.config <;> simp_all [FlagConfig.hasExtra]
    have hs : K.compressedSize = K.size := by rw [compressedSize, hx]; rfl
    rw [if_neg he, base, hx]
    simp only [Bool.false_eq_true, if_false, and_true]
    exact hK.fromBytes_iff _ (by rw [hbl, hs]) hbb x

theorem decodeBody_ok (hK : K.Lawful) (hC : Good C) (cmp : Option Bool) (i s v : Bool) (x : F) :
    ∃ r, K.decodeBody C cmp (some i) s v x = .ok r ∧
    ∀ P, r = some P ↔ cmp.getD true = true ∧ v = true ∧
      ((i = true ∧ x = 0 ∧ s = false ∧ P = Aff.identity) ∨
       (i = false ∧ x ≠ 0 ∧ K.resolve C x s = .ok (some P))) := by
  obtain ⟨r, h1, _⟩ := resolve_ok hK hC x s
  refine ⟨_, by unfold decodeBody; rw [h1], ?_⟩
  intro P
  rw [h1, isZero_dec]
  by_cases hx : x = 0 <;> cases i <;> cases s <;> cases v <;> cases cmp.getD true <;> cases r <;>
    simp [hx, eq_comm]

/-- All decodable strings. -/
theorem decode_iff (hK : K.Lawful) (hC : Good C) (b : List ℕ) (hl : b.length = K.compressedSize) (hb : IsBytes b)
    (P : Aff F) : K.decode C b = .ok (some P) ↔
      ∃ i s x, b = (K.base x).set K.idx (K.config.setAll i s ((K.base x).getD K.idx 0)) ∧
        ((i = true ∧ x = 0 ∧ s = false ∧ P = Aff.identity) ∨
         (i = false ∧ x ≠ 0 ∧ K.resolve C x s = .ok (some P))) := by
  have hi : K.idx < b.length := by rw [hl]; exact idx_lt hK
  rw [decode_eq hK b hl hb]
  dsimp only
  generalize hc : b.getD K.idx 0 = c
  have hc256 : c < 256 := hc ▸ getD_lt hb K.idx
  obtain ⟨g1, g2⟩ := get_set K.config c hc256
  have hst := fun x => stripped_iff hK b hl hb x
  rw [hc] at hst
  constructor
  · intro h
    generalize hf : K.fromBytes (if K.config.hasExtra then (b.set K.idx (K.config.clear c)).drop 1
        else b.set K.idx (K.config.clear c)) = f at h hst
    cases f with
    | panic => simp at h
    | ok o =>
      cases o with
      | none =>
        obtain ⟨r, hr, _⟩ := decodeBody_ok hK hC (K.config.compressed c) (FlagConfig.identOf c) (K.config.signOf c)
          (if K.config = .extra then K.config.clear c == 0 else true) 0
        rw [hr] at h
        simp at h
      | some x =>
        dsimp only at h
        obtain ⟨r, hr, h2⟩ := decodeBody_ok hK hC (K.config.compressed c) (FlagConfig.identOf c) (K.config.signOf c)
          (if K.config = .extra then K.config.clear c == 0 else true) x
        rw [hr, Outcome.ok.injEq, h2] at h
        obtain ⟨h3, h4, h5⟩ := h
        have hbase := (hst x).mp ⟨rfl, h4⟩
        refine ⟨_, _, x, ?_, h5⟩
        rw [← hbase, List.set_set, getD_set_self _ _ hi, g2 ?_, ← hc, set_getD_self _ _ hi]
        intro h6
        rw [h6] at h3
        simp at h3
  · rintro ⟨i, s, x, rfl, h⟩
    have hib : K.idx < (K.base x).length := by rw [base_length hK]; exact idx_lt hK
    obtain ⟨s1, s2, s3, s4, s5⟩ := set_get K.config _ (base_flag hK x) i s
    rw [getD_set_self _ _ hib] at hc
    rw [← hc] at hst g1 g2 ⊢
    rw [List.set_set, s5, set_getD_self _ _ hib] at hst ⊢
    obtain ⟨h6, h7⟩ := (hst x).mpr rfl
    rw [h6]
    dsimp only
    obtain ⟨r, hr, h2⟩ := decodeBody_ok hK hC (K.config.compressed (K.config.setAll i s ((K.base x).getD K.idx 0)))
      (FlagConfig.identOf (K.config.setAll i s ((K.base x).getD K.idx 0)))
      (K.config.signOf (K.config.setAll i s ((K.base x).getD K.idx 0)))
      (if K.config = .extra then (K.base x).getD K.idx 0 == 0 else true) x
    rw [hr, Outcome.ok.injEq, h2, s3, s4]
    refine ⟨?_, h7, h⟩
    cases hcm : K.config.compressed (K.config.setAll i s ((K.base x).getD K.idx 0)) with
    | none => rfl
    | some v =>
      cases v with
      | true => rfl
      | false => exact absurd hcm s2

/-- `decode` panics only if the coordinate decoder does. -/
theorem decode_panic (hK : K.Lawful) (hC : Good C) (hp : ∀ b, K.fromBytes b ≠ .panic) (b : List ℕ)
    (hl : b.length = K.compressedSize) (hb : IsBytes b) : K.decode C b ≠ .panic := by
  rw [decode_eq hK b hl hb]
  dsimp only
  generalize hf : K.fromBytes _ = f
  cases f with
  | panic => exact absurd hf (hp _)
  | ok o =>
    cases o with
    | none =>
      obtain ⟨r, hr, _⟩ := decodeBody_ok hK hC (K.config.compressed (b.getD K.idx 0)) (FlagConfig.identOf (b.getD K.idx 0))
        (K.config.signOf (b.getD K.idx 0)) (if K.config = .extra then K.config.clear (b.getD K.idx 0) == 0 else true) 0
      dsimp only
      rw [hr]
      simp
    | some x =>
      obtain ⟨r, hr, _⟩ := decodeBody_ok hK hC (K.config.compressed (b.getD K.idx 0)) (FlagConfig.identOf (b.getD K.idx 0))
        (K.config.signOf (b.getD K.idx 0)) (if K.config = .extra then K.config.clear (b.getD K.idx 0) == 0 else true) x
      dsimp only
      rw [hr]
      simp

theorem isIdentity_iff (A : Aff F) : A.isIdentity = true ↔ A = Aff.identity := by
  rw [Aff.isIdentity, Bool.and_eq_true, LawfulBase.isZero_iff, LawfulBase.isZero_iff, Aff.ext_iff]
  rfl

/-- A point of the curve other than the identity. -/
theorem nonid (hC : Good C) {A : Aff F} (hA : Aff.isOnCurve C A = true) (h : A ≠ Aff.identity) :
    A.y * A.y = A.x * A.x * A.x + C.a * A.x + C.b ∧ A.isIdentity = false ∧ A.y ≠ 0 := by
  have hi : A.isIdentity = false := by
    cases hc : A.isIdentity
    · rfl
    · exact absurd ((isIdentity_iff A).mp hc) h
  have he := ((Aff.isOnCurve_iff A).mp hA).resolve_left (fun h0 => h (Aff.ext h0.1 h0.2))
  refine ⟨he, hi, ?_⟩
  intro hy
  rw [hy] at he
  exact hC.noRoot A.x (by linear_combination -he)

theorem encode_length (hK : K.Lawful) (A : Aff F) (hA : Aff.isOnCurve C A = true) (b : List ℕ) (hb : K.encode C A = .ok b) :
    b.length = K.compressedSize ∧ IsBytes b := by
  rw [encode_eq hK A hA, Outcome.ok.injEq] at hb
  subst hb
  exact ⟨by rw [List.length_set, base_length hK], isBytes_set (base_isBytes hK _) _ _ (set_get K.config _ (base_flag hK _) _ _).1⟩

theorem sign_identity (K : Codec F) : K.sign (Aff.identity : Aff F) = false := by
  rw [sign, (isIdentity_iff _).mpr rfl, Bool.not_true, Bool.and_false]

/-- Round trip for points whose sign rule separates `y` from `-y`. -/
theorem decode_encode (hK : K.Lawful) (hC : Good C) (A : Aff F) (hA : Aff.isOnCurve C A = true)
    (h : A = Aff.identity ∨ A.x ≠ 0 ∧ K.sgn (-A.y) ≠ K.sgn A.y) :
    ∃ b, K.encode C A = .ok b ∧ K.decode C b = .ok (some A) := by
  refine ⟨_, encode_eq hK A hA, ?_⟩
  obtain ⟨h1, h2⟩ := encode_length hK A hA _ (encode_eq hK A hA)
  rw [decode_iff hK hC _ h1 h2]
  refine ⟨_, _, A.x, rfl, ?_⟩
  by_cases hid : A = Aff.identity
  · left
    rw [hid]
    exact ⟨(isIdentity_iff _).mpr rfl, rfl, sign_identity K, rfl⟩
  · right
    obtain ⟨hx, hs⟩ := h.resolve_left hid
    obtain ⟨he, hi, hy⟩ := nonid hC hA hid
    refine ⟨hi, hx, ?_⟩
    obtain ⟨r, h3, _, _, h4⟩ := resolve_ok hK hC A.x (K.sign A)
    obtain ⟨t, ht, hr⟩ := h4 A.y he
    rw [h3, hr, Outcome.ok.injEq, Option.some.injEq]
    refine Aff.ext rfl ?_
    dsimp only
    have hsg : K.sign A = K.sgn A.y := by rw [sign, hi, Bool.not_false, Bool.and_true]
    rw [hsg]
    rcases ht with rfl | rfl
    · rw [Bool.xor_self]; rfl
    · have : (K.sgn A.y ^^ K.sgn (-A.y)) = true := by
        cases h1 : K.sgn A.y <;> cases h2 : K.sgn (-A.y) <;> simp_all
      rw [this, if_pos rfl, neg_neg]

/-- Decoding is sound, and gives back the bytes unless the sign rule does not separate `y` from `-y`. -/
theorem decode_sound (hK : K.Lawful) (hC : Good C) (b : List ℕ) (hl : b.length = K.compressedSize) (hb : IsBytes b)
    (P : Aff F) (h : K.decode C b = .ok (some P)) :
    Aff.isOnCurve C P = true ∧ (P = Aff.identity ∨ P.x ≠ 0) ∧
    (P = Aff.identity ∨ K.sgn (-P.y) ≠ K.sgn P.y → K.encode C P = .ok b) := by
  have h' := (decode_iff hK hC b hl hb P).mp h
  clear h
  obtain ⟨i, s, x, rfl, h⟩ := h'
  rcases h with ⟨rfl, rfl, rfl, rfl⟩ | ⟨rfl, hx, hr⟩
  · have hon : Aff.isOnCurve C (Aff.identity : Aff F) = true := (Aff.isOnCurve_iff _).mpr (Or.inl ⟨rfl, rfl⟩)
    refine ⟨hon, Or.inl rfl, fun _ => ?_⟩
    rw [encode_eq hK _ hon, sign_identity, (isIdentity_iff _).mpr rfl]
    rfl
  · obtain ⟨r, h1, h2, _, h4⟩ := resolve_ok hK hC x s
    rw [h1, Outcome.ok.injEq] at hr
    obtain ⟨hpx, hpy⟩ := h2 P hr
    have hon : Aff.isOnCurve C P = true := (Aff.isOnCurve_iff _).mpr (Or.inr (by rw [hpx]; exact hpy))
    have hne : P ≠ Aff.identity := by
      intro h0
      rw [h0] at hpx
      exact hx hpx.symm
    refine ⟨hon, Or.inr (by rw [hpx]; exact hx), fun hs => ?_⟩
    replace hs := hs.resolve_left hne
    obtain ⟨_, hi, _⟩ := nonid hC hon hne
    rw [encode_eq hK _ hon, hi, hpx]
    have hsg : K.sign P = K.sgn P.y := by rw [sign, hi, Bool.not_false, Bool.and_true]
    have : K.sgn P.y = s := by
      obtain ⟨t, _, ht⟩ := h4 P.y hpy
      rw [hr, Option.some.injEq] at ht
      have hty : P.y = if (s ^^ K.sgn t) = true then -t else t := congrArg Aff.y ht
      split at hty
      · next hx =>
        rw [hty] at hs ⊢
        rw [neg_neg] at hs
        generalize K.sgn t = u at hs hx
        generalize K.sgn (-t) = v at hs ⊢
        clear * - hs hx
        revert u v s
        decide
      · next hx =>
        rw [hty]
        generalize K.sgn t = u at hx
        clear * - hx
        revert u s
        decide
    rw [hsg, this]

/-- A point with `x = 0` encodes to a string that is rejected. -/
theorem decode_encode_zero (hK : K.Lawful) (hC : Good C) (A : Aff F) (hA : Aff.isOnCurve C A = true)
    (hid : A ≠ Aff.identity) (hx : A.x = 0) (b : List ℕ) (hb : K.encode C A = .ok b) (P : Aff F) :
    K.decode C b ≠ .ok (some P) := by
  intro h
  obtain ⟨h1, h2⟩ := encode_length hK A hA _ hb
  rw [encode_eq hK A hA, Outcome.ok.injEq] at hb
  subst hb
  obtain ⟨i, s, x, he, h⟩ := (decode_iff hK hC _ h1 h2 P).mp h
  obtain ⟨_, hi, _⟩ := nonid hC hA hid
  have hlen := fun x => base_length hK x
  have hidx := fun x => (hlen x).symm ▸ idx_lt hK
  have e1 : (K.base x).getD K.idx 0 = (K.base A.x).getD K.idx 0 ∧ i = A.isIdentity := by
    have := congrArg (fun l => l.getD K.idx 0) he
    rw [getD_set_self _ _ (hidx _), getD_set_self _ _ (hidx _)] at this
    obtain ⟨_, _, a3, a4, a5⟩ := set_get K.config _ (base_flag hK A.x) A.isIdentity (K.sign A)
    obtain ⟨_, _, b3, b4, b5⟩ := set_get K.config _ (base_flag hK x) i s
    rw [this] at a3 a4 a5
    exact ⟨b5.symm.trans a5, b3.symm.trans a3⟩
  have e2 : K.base x = K.base A.x := by
    have h3 := congrArg (fun l => l.set K.idx ((K.base x).getD K.idx 0)) he
    rw [List.set_set, List.set_set, set_getD_self _ _ (hidx _), e1.1, set_getD_self _ _ (hidx _)] at h3
    exact h3.symm
  have e3 : x = A.x := by
    have hb := fun x => hK.fromBytes_iff (K.toBytes x) (hK.length x) (hK.isBytes x)
    have : K.toBytes x = K.toBytes A.x := by
      rw [base, base] at e2
      split at e2
      · exact (List.cons.inj e2).2
      · exact e2
    have h4 := (hb x x).mpr rfl
    rw [this, (hb A.x A.x).mpr rfl, Outcome.ok.injEq, Option.some.injEq] at h4
    exact h4.symm
  rcases h with ⟨h, _⟩ | ⟨_, h, _⟩
  · rw [e1.2, hi] at h; cases h
  · exact h (e3.trans hx)

/-- If the sign rule does not separate `y` from `-y`, both points have the same encoding. -/
theorem encode_ambiguous (hK : K.Lawful) (hC : Good C) (A : Aff F) (hA : Aff.isOnCurve C A = true) (hid : A ≠ Aff.identity)
    (h : K.sgn (-A.y) = K.sgn A.y) : K.encode C A = K.encode C (Aff.neg A) ∧ A ≠ Aff.neg A := by
  obtain ⟨he, hi, hy⟩ := nonid hC hA hid
  have hA' : Aff.isOnCurve C (Aff.neg A) = true := by
    rw [Aff.isOnCurve_iff]
    right
    simp only [Aff.neg]
    rw [neg_mul_neg]
    exact he
  have hid' : Aff.neg A ≠ Aff.identity := by
    intro h0
    have : -A.y = 0 := congrArg Aff.y h0
    exact hy (neg_eq_zero.mp this)
  obtain ⟨_, hi', _⟩ := nonid hC hA' hid'
  refine ⟨?_, ?_⟩
  · rw [encode_eq hK _ hA, encode_eq hK _ hA', sign, sign, hi, hi']
    simp only [Aff.neg, h]
  · intro h0
    have : A.y = -A.y := congrArg Aff.y h0
    have h2 : (2 : F) * A.y = 0 := by linear_combination this
    rcases mul_eq_zero.mp h2 with h3 | h3
    · exact hC.two h3
    · exact hy h3

/-- If the sign rule does not separate `y` from `-y`, some string decodes to a point whose encoding is another
string. -/
theorem decode_malleable (hK : K.Lawful) (hC : Good C) (A : Aff F) (hA : Aff.isOnCurve C A = true) (hid : A ≠ Aff.identity)
    (hx : A.x ≠ 0) (h : K.sgn (-A.y) = K.sgn A.y) : ∃ b P, b.length = K.compressedSize ∧ IsBytes b ∧
      K.decode C b = .ok (some P) ∧ K.encode C P ≠ .ok b := by
  obtain ⟨he, _, hy⟩ := nonid hC hA hid
  obtain ⟨r, h3, h2, _, h4⟩ := resolve_ok hK hC A.x (!K.sgn A.y)
  obtain ⟨t, ht, hr⟩ := h4 A.y he
  have hbl : ((K.base A.x).set K.idx (K.config.setAll false (!K.sgn A.y) ((K.base A.x).getD K.idx 0))).length =
    K.compressedSize := by rw [List.length_set, base_length hK]
  have hbb : IsBytes ((K.base A.x).set K.idx (K.config.setAll false (!K.sgn A.y) ((K.base A.x).getD K.idx 0))) :=
    isBytes_set (base_isBytes hK _) _ _ (set_get K.config _ (base_flag hK _) _ _).1
  refine ⟨_, ⟨A.x, if ((!K.sgn A.y) ^^ K.sgn t) = true then -t else t⟩, hbl, hbb, ?_, ?_⟩
  · rw [decode_iff hK hC _ hbl hbb]
    exact ⟨_, _, A.x, rfl, Or.inr ⟨rfl, hx, by rw [h3, hr]⟩⟩
  · obtain ⟨_, hpy⟩ := h2 _ hr
    have hon : Aff.isOnCurve C ⟨A.x, if ((!K.sgn A.y) ^^ K.sgn t) = true then -t else t⟩ = true :=
      (Aff.isOnCurve_iff _).mpr (Or.inr hpy)
    have hsg : K.sgn (if ((!K.sgn A.y) ^^ K.sgn t) = true then -t else t) = K.sgn A.y := by
      rcases ht with rfl | rfl
      · split
        · exact h
        · rfl
      · rw [neg_neg]
        split
        · rfl
        · exact h
    have hni : Aff.isIdentity (⟨A.x, if ((!K.sgn A.y) ^^ K.sgn t) = true then -t else t⟩ : Aff F) = false := by
      rw [← Bool.not_eq_true, isIdentity_iff]
      intro h0
      exact hx (congrArg Aff.x h0)
    rw [encode_eq hK _ hon]
    intro h0
    rw [Outcome.ok.injEq, sign, hsg, hni] at h0
    have := congrArg (fun l => l.getD K.idx 0) h0
    have hi : K.idx < (K.base A.x).length := by rw [base_length hK]; exact idx_lt hK
    dsimp only at this
    rw [getD_set_self _ _ hi, getD_set_self _ _ hi] at this
    obtain ⟨_, _, _, a4, _⟩ := set_get K.config _ (base_flag hK A.x) false (!K.sgn A.y)
    obtain ⟨_, _, _, b4, _⟩ := set_get K.config _ (base_flag hK A.x) false (K.sgn A.y && !false)
    rw [this, a4] at b4
    generalize K.sgn A.y = u at b4
    revert u
    decide

/-- A coordinate decoder that panics makes `decode` panic. -/
theorem decode_panics (hK : K.Lawful) (b : List ℕ) (hl : b.length = K.compressedSize) (hb : IsBytes b)
    (hp : K.fromBytes (if K.config.hasExtra then (b.set K.idx (K.config.clear (b.getD K.idx 0))).drop 1
        else b.set K.idx (K.config.clear (b.getD K.idx 0))) = .panic) : K.decode C b = .panic := by
  rw [decode_eq hK b hl hb]
  dsimp only
  rw [hp]

end Codec

end Halo2.Curve
