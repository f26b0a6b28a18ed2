import Verif.Curve.Stream

/-!
# Property C77: raw readers and writers on streams
-/

set_option linter.unusedSectionVars false

namespace Halo2.Props

open Halo2 Halo2.Field Halo2.Ext Halo2.Curve Halo2.Stream Halo2.Prime

/-- How many bytes a raw element of the field with `m` elements takes. -/
def rawSize (m : ℕ) : ℕ := 8 * numLimbs m

/-- The specification of a stream that should hold elements of the prime fields `ms`, one after another: the first element that is
not there, or not smaller than the modulus, with what follows it. -/
def firstBad : List ℕ → List ℕ → Option (IoErr × List ℕ)
  | [], _ => none
  | m :: ms, s =>
    if s.length < rawSize m then some (.eof, s)
    else if leNat (s.take (rawSize m)) < m then firstBad ms (s.drop (rawSize m))
    else some (.invalidData, s.drop (rawSize m))

/-- A reader of objects that consist of elements of the prime fields `ms`; `V` says which objects it can return, `enc` is their
encoding. -/
structure Reads {α : Type} (ms : List ℕ) (V : α → Prop) (enc : α → List ℕ) (rd : Rd α) : Prop where
  /-- Success: exactly on streams that begin with an encoding, which alone is consumed. -/
  ok_iff (s : List ℕ) (hs : IsBytes s) (a : α) (rest : List ℕ) : rd s = (.ok a, rest) ↔ V a ∧ s = enc a ++ rest
  /-- Invalid data: the reader stops behind the first bad element. -/
  invalid_iff (s : List ℕ) (hs : IsBytes s) (rest : List ℕ) :
    rd s = (.error .invalidData, rest) ↔ firstBad ms s = some (.invalidData, rest)
  /-- End of the stream: when the stream ends before anything bad occurs. -/
  eof_iff (s : List ℕ) (hs : IsBytes s) : (rd s).1 = .error .eof ↔ ∃ t, firstBad ms s = some (.eof, t)
  /-- The encodings are byte strings of the expected length. -/
  enc_len (a : α) (ha : V a) : (enc a).length = (ms.map rawSize).sum
  enc_bytes (a : α) (ha : V a) : IsBytes (enc a)

/-- A writer of objects with the encoding `enc`: an unbounded sink receives the encoding; a bounded one receives as much of it as
fits, and the writer succeeds exactly when all of it does. -/
structure Writes {α : Type} (enc : α → List ℕ) (wr : α → Wr) : Prop where
  vec (a : α) (out : List ℕ) : wr a ⟨out, none⟩ = (true, ⟨out ++ enc a, none⟩)
  slice (a : α) (out : List ℕ) (k : ℕ) :
    wr a ⟨out, some k⟩ = (decide ((enc a).length ≤ k), ⟨out ++ (enc a).take k, some (k - (enc a).length)⟩)

/-! ## Lemmas -/

theorem firstBad_append (ms ns : List ℕ) (s : List ℕ) :
    firstBad (ms ++ ns) s = match firstBad ms s with
      | some r => some r
      | none => firstBad ns (s.drop (ms.map rawSize).sum) := by
  induction ms generalizing s with
  | nil => simp [firstBad]
  | cons m ms ih =>
    rw [List.cons_append, firstBad, firstBad]
    split
    · rfl
    · split
      · rw [ih, List.drop_drop, List.map_cons, List.sum_cons]
      · rfl

theorem Reads.ok_firstBad {α : Type} {ms : List ℕ} {V : α → Prop} {enc : α → List ℕ} {rd : Rd α} (h : Reads ms V enc rd) {s : List ℕ}
    (hs : IsBytes s) {a : α} {rest : List ℕ} (hr : rd s = (.ok a, rest)) :
    firstBad ms s = none ∧ rest = s.drop (ms.map rawSize).sum ∧ IsBytes rest := by
  have h1 := (h.ok_iff s hs a rest).mp hr
  refine ⟨?_, ?_, ?_⟩
  · cases hf : firstBad ms s with
    | none => rfl
    | some r =>
      obtain ⟨e, t⟩ := r
      cases e with
      | eof =>
        have := (h.eof_iff s hs).mpr ⟨t, hf⟩
        rw [hr] at this
        cases this
      | invalidData =>
        have := (h.invalid_iff s hs t).mpr hf
        rw [hr] at this
        cases this
  · rw [h1.2, ← h.enc_len a h1.1, List.drop_left]
  · intro x hx
    exact hs x (by rw [h1.2]; exact List.mem_append_right _ hx)

/-- Reading one object after another. -/
theorem Reads.bind {α β γ : Type} {ms ns : List ℕ} {V : α → Prop} {U : β → Prop} {T : γ → Prop} {e1 : α → List ℕ} {e2 : β → List ℕ}
    {e3 : γ → List ℕ} {r1 : Rd α} {r2 : Rd β} (h1 : Reads ms V e1 r1) (h2 : Reads ns U e2 r2) (f : α → β → γ)
    (hT : ∀ c, T c ↔ ∃ a b, V a ∧ U b ∧ f a b = c) (he : ∀ a b, e3 (f a b) = e1 a ++ e2 b) :
    Reads (ms ++ ns) T e3 (r1.andThen fun a => r2.andThen fun b => .ok (f a b)) := by
  have run (s : List ℕ) : (r1.andThen fun a => r2.andThen fun b => .ok (f a b)) s = match r1 s with
      | (.ok a, s1) => (match r2 s1 with
        | (.ok b, s2) => (.ok (f a b), s2)
        | (.error e, s2) => (.error e, s2))
      | (.error e, s1) => (.error e, s1) := rfl
  refine ⟨fun s hs c rest => ?_, fun s hs rest => ?_, fun s hs => ?_, fun c hc => ?_, fun c hc => ?_⟩
  · rw [run]
    constructor
    · intro h
      rcases hr : r1 s with ⟨_ | a, s1⟩
      · rw [hr] at h; cases h
      · rw [hr] at h
        rcases hr2 : r2 s1 with ⟨_ | b, s2⟩
        · simp only [hr2] at h; cases h
        · simp only [hr2, Prod.mk.injEq, Except.ok.injEq] at h
          obtain ⟨rfl, rfl⟩ := h
          obtain ⟨v1, hs1⟩ := (h1.ok_iff s hs a s1).mp hr
          obtain ⟨v2, hs2⟩ := (h2.ok_iff s1 (h1.ok_firstBad hs hr).2.2 b s2).mp hr2
          exact ⟨(hT _).mpr ⟨a, b, v1, v2, rfl⟩, by rw [he, hs1, hs2, List.append_assoc]⟩
    · rintro ⟨hc, rfl⟩
      obtain ⟨a, b, va, vb, rfl⟩ := (hT c).mp hc
      have e : e3 (f a b) ++ rest = e1 a ++ (e2 b ++ rest) := by rw [he, List.append_assoc]
      have q1 : r1 (e3 (f a b) ++ rest) = (.ok a, e2 b ++ rest) := (h1.ok_iff _ hs a _).mpr ⟨va, e⟩
      have q2 : r2 (e2 b ++ rest) = (.ok b, rest) := (h2.ok_iff _ (h1.ok_firstBad hs q1).2.2 b _).mpr ⟨vb, rfl⟩
      rw [q1]
      simp only [q2]
  · rw [run, firstBad_append]
    rcases hr : r1 s with ⟨e | a, s1⟩
    · cases e with
      | eof =>
        obtain ⟨t, ht⟩ := (h1.eof_iff s hs).mp (congrArg Prod.fst hr)
        rw [ht]
        simp
      | invalidData =>
        rw [(h1.invalid_iff s hs s1).mp hr]
        simp
    · obtain ⟨f1, f2, f3⟩ := h1.ok_firstBad hs hr
      rw [f1, ← f2]
      simp only
      rw [← h2.invalid_iff s1 f3 rest]
      rcases r2 s1 with ⟨_ | b, s2⟩ <;> simp
  · rw [run, firstBad_append]
    rcases hr : r1 s with ⟨e | a, s1⟩
    · cases e with
      | eof =>
        obtain ⟨t, ht⟩ := (h1.eof_iff s hs).mp (congrArg Prod.fst hr)
        rw [ht]
        simp
      | invalidData =>
        rw [(h1.invalid_iff s hs s1).mp hr]
        simp
    · obtain ⟨f1, f2, f3⟩ := h1.ok_firstBad hs hr
      rw [f1, ← f2]
      simp only
      rw [← h2.eof_iff s1 f3]
      rcases r2 s1 with ⟨_ | b, s2⟩ <;> simp
  · obtain ⟨a, b, va, vb, rfl⟩ := (hT c).mp hc
    rw [he, List.length_append, h1.enc_len a va, h2.enc_len b vb, List.map_append, List.sum_append]
  · obtain ⟨a, b, va, vb, rfl⟩ := (hT c).mp hc
    rw [he]
    exact (h1.enc_bytes a va).append (h2.enc_bytes b vb)

theorem stream_readLimbs (eof : List ℕ → List ℕ) (n : ℕ) (s : List ℕ) :
    (8 * n ≤ s.length → Stream.readLimbs eof n s = (.ok (Endian.LE.fromBytes n (s.take (8 * n))), s.drop (8 * n))) ∧
    (s.length < 8 * n → (Stream.readLimbs eof n s).1 = .error .eof) := by
  induction n generalizing s with
  | zero => exact ⟨fun _ => by simp [Stream.readLimbs, Rd.ok, Endian.fromBytes], fun h => by omega⟩
  | succ n ih =>
    have run : Stream.readLimbs eof (n + 1) s = match Stream.readExact eof 8 s with
        | (.ok buf, s1) => (match Stream.readLimbs eof n s1 with
          | (.ok ls, s2) => (.ok (ofLeBytes buf :: ls), s2)
          | (.error e, s2) => (.error e, s2))
        | (.error e, s1) => (.error e, s1) := by
      rw [Stream.readLimbs, Rd.andThen]
      rcases Stream.readExact eof 8 s with ⟨_ | buf, s1⟩
      · rfl
      · simp only [Rd.andThen]
        rcases Stream.readLimbs eof n s1 with ⟨_ | ls, s2⟩ <;> rfl
    rw [run, Stream.readExact]
    by_cases h8 : s.length < 8
    · rw [if_pos h8]
      exact ⟨fun h => by omega, fun _ => rfl⟩
    · rw [if_neg h8]
      obtain ⟨i1, i2⟩ := ih (s.drop 8)
      rw [List.length_drop] at i1 i2
      constructor
      · intro h
        simp only [i1 (by omega)]
        have hr := Field.readLimbs_spec (n + 1) s
        have hr2 := Field.readLimbs_spec n (s.drop 8)
        rw [if_neg (by omega)] at hr
        rw [if_neg (by rw [List.length_drop]; omega)] at hr2
        rw [Field.readLimbs, Field.readExact, if_neg h8] at hr
        simp only [hr2, Option.some.injEq, Prod.mk.injEq] at hr
        rw [← hr.1, hr.2]
      · intro h
        have := i2 (by omega)
        rcases hq : Stream.readLimbs eof n (s.drop 8) with ⟨e | a, s2⟩
        · rw [hq] at this
          simp only [hq]
          simpa using this
        · rw [hq] at this
          cases this

/-! ## C77 -/

variable {p : ℕ} [hp : Fact (OddModulus p)]

/-- **C77** Reading a raw prime field element. -/
theorem C77_read_field (eof : List ℕ → List ℕ) : Reads [p] (fun _ : Fp p => True) Fp.toRawBytes (fpRead eof) := by
  have run (s : List ℕ) : (fpRead eof : Rd (Fp p)) s = match Stream.readLimbs eof (numLimbs p) s with
      | (.ok el, s1) => (if isLessThanModulus p el then Rd.ok (Fp.ofMont el) else Rd.err .invalidData) s1
      | (.error e, s1) => (.error e, s1) := by
    rw [fpRead, Rd.andThen]
    rcases Stream.readLimbs eof (numLimbs p) s with ⟨_ | el, s1⟩ <;> rfl
  have fb (s : List ℕ) : firstBad [p] s = if s.length < 8 * numLimbs p then some (.eof, s)
      else if leNat (s.take (8 * numLimbs p)) < p then none else some (.invalidData, s.drop (8 * numLimbs p)) := rfl
  have cases' (s : List ℕ) (hs : IsBytes s) :
      (s.length < 8 * numLimbs p ∧ ((fpRead eof : Rd (Fp p)) s).1 = .error .eof) ∨
      (8 * numLimbs p ≤ s.length ∧ leNat (s.take (8 * numLimbs p)) < p ∧ (fpRead eof : Rd (Fp p)) s =
        (.ok (Fp.ofMont (Endian.LE.fromBytes (numLimbs p) (s.take (8 * numLimbs p)))), s.drop (8 * numLimbs p))) ∨
      (8 * numLimbs p ≤ s.length ∧ ¬ leNat (s.take (8 * numLimbs p)) < p ∧ (fpRead eof : Rd (Fp p)) s =
        (.error .invalidData, s.drop (8 * numLimbs p))) := by
    obtain ⟨l1, l2⟩ := stream_readLimbs eof (numLimbs p) s
    rw [run]
    by_cases h : s.length < 8 * numLimbs p
    · left
      have := l2 h
      rcases hq : Stream.readLimbs eof (numLimbs p) s with ⟨e | a, s2⟩
      · rw [hq] at this
        exact ⟨h, by simpa using this⟩
      · rw [hq] at this
        cases this
    · right
      obtain ⟨f1, f2, f3⟩ := fromBytesLE_spec (numLimbs p) (s.take (8 * numLimbs p)) (by rw [List.length_take]; omega) (hs.take _)
      rw [l1 (by omega)]
      simp only [isLessThanModulus_spec p _ f1 f2, f3]
      by_cases hv : leNat (s.take (8 * numLimbs p)) < p
      · exact Or.inl ⟨by omega, hv, by rw [decide_eq_true hv]; rfl⟩
      · exact Or.inr ⟨by omega, hv, by rw [decide_eq_false hv]; rfl⟩
  refine ⟨fun s hs a rest => ?_, fun s hs rest => ?_, fun s hs => ?_, fun a _ => ?_, fun a _ => Fp.toRawBytes_isBytes a⟩
  · rw [true_and]
    have hr := Fp.readRaw_iff (p := p) s hs a rest
    rw [← hr, Fp.readRaw, Field.readRaw, Field.readLimbs_spec]
    rcases cases' s hs with ⟨h, e⟩ | ⟨h, hv, e⟩ | ⟨h, hv, e⟩
    · rw [if_pos h]
      refine ⟨fun h' => ?_, fun h' => by cases h'⟩
      rw [h'] at e
      cases e
    · obtain ⟨f1, f2, f3⟩ := fromBytesLE_spec (numLimbs p) (s.take (8 * numLimbs p)) (by rw [List.length_take]; omega) (hs.take _)
      rw [if_neg (by omega), e]
      simp only [isLessThanModulus_spec p _ f1 f2, f3, hv, decide_true, if_true, Option.map_some, Option.some.injEq, Prod.mk.injEq,
        Except.ok.injEq]
    · obtain ⟨f1, f2, f3⟩ := fromBytesLE_spec (numLimbs p) (s.take (8 * numLimbs p)) (by rw [List.length_take]; omega) (hs.take _)
      rw [if_neg (by omega), e]
      simp only [isLessThanModulus_spec p _ f1 f2, f3, hv, decide_false, Option.map_none, Prod.mk.injEq, reduceCtorEq, false_and,
        Bool.false_eq_true, if_false]
  · rw [fb]
    rcases cases' s hs with ⟨h, e⟩ | ⟨h, hv, e⟩ | ⟨h, hv, e⟩
    · rw [if_pos h]
      refine ⟨fun h' => ?_, fun h' => by cases h'⟩
      rw [h'] at e
      cases e
    · rw [if_neg (by omega), if_pos hv, e]
      simp
    · rw [if_neg (by omega), if_neg hv, e]
      simp
  · rw [fb]
    rcases cases' s hs with ⟨h, e⟩ | ⟨h, hv, e⟩ | ⟨h, hv, e⟩
    · rw [if_pos h, e]
      simp
    · rw [if_neg (by omega), if_pos hv, e]
      simp
    · rw [if_neg (by omega), if_neg hv, e]
      simp
  · rw [Fp.toRawBytes_length]
    simp [rawSize]

/-- **C77** Reading a raw element of a quadratic extension. -/
theorem C77_read_tower (eof : List ℕ → List ℕ) :
    Reads [p, p] (fun _ : Quad (Fp p) => True) Tower2.toRawBytes (quadRead eof) :=
  (C77_read_field eof).bind (C77_read_field eof) (fun c0 c1 => (⟨c0, c1⟩ : Quad (Fp p)))
    (fun c => ⟨fun _ => ⟨c.c0, c.c1, trivial, trivial, rfl⟩, fun _ => trivial⟩) fun a b => by
      rw [Tower2.toRawBytes, List.flatMap_append]
      rfl

variable {F : Type} [Field F] [DecidableEq F] [BaseField F] [LawfulBase F]

/-- **C77** Reading raw points, from a reader of coordinates. -/
theorem C77_read_points (K : Codec F) {ms : List ℕ} {rd : Rd F} (h : Reads ms (fun _ => True) K.toRaw rd) :
    Reads (ms ++ ms) (fun _ : Aff F => True) K.affToRaw (affRead rd) ∧
    Reads (ms ++ (ms ++ ms)) (fun _ : Proj F => True) K.projToRaw (projRead rd) := by
  refine ⟨h.bind h (fun x y => (⟨x, y⟩ : Aff F)) (fun c => ⟨fun _ => ⟨c.x, c.y, trivial, trivial, rfl⟩, fun _ => trivial⟩)
    fun a b => rfl, ?_⟩
  have h2 : Reads (ms ++ ms) (fun _ : F × F => True) (fun q => K.toRaw q.1 ++ K.toRaw q.2)
      (rd.andThen fun x => rd.andThen fun y => .ok (x, y)) :=
    h.bind h (fun x y => (x, y)) (fun c => ⟨fun _ => ⟨c.1, c.2, trivial, trivial, rfl⟩, fun _ => trivial⟩) fun a b => rfl
  have h3 := h.bind h2 (T := fun _ : Proj F => True) (e3 := K.projToRaw) (fun x q => (⟨x, q.1, q.2⟩ : Proj F))
    (fun c => ⟨fun _ => ⟨c.x, (c.y, c.z), trivial, trivial, rfl⟩, fun _ => trivial⟩) fun a b => rfl
  have e : (rd.andThen fun x => (rd.andThen fun y => rd.andThen fun z => .ok (y, z)).andThen fun q => .ok (⟨x, q.1, q.2⟩ : Proj F)) =
      projRead rd := by
    funext s
    rw [projRead]
    simp only [Rd.andThen]
    rcases rd s with ⟨_ | a, s1⟩
    · rfl
    · simp only
      rcases rd s1 with ⟨_ | b, s2⟩
      · rfl
      · simp only
        rcases rd s2 with ⟨_ | c, s3⟩ <;> rfl
  rwa [e] at h3

/-- **C77** Reading any number of objects one after another. -/
theorem C77_read_many {α : Type} {ms : List ℕ} {V : α → Prop} {enc : α → List ℕ} {rd : Rd α} (h : Reads ms V enc rd) (n : ℕ) :
    Reads (List.replicate n ms).flatten (fun l => l.length = n ∧ ∀ a ∈ l, V a) (fun l => l.flatMap enc) (readMany rd n) := by
  induction n with
  | zero =>
    refine ⟨fun s hs a rest => ?_, fun s hs rest => ?_, fun s hs => ?_, fun a ha => ?_, fun a ha => ?_⟩
    · rw [readMany, Rd.ok]
      constructor
      · intro h
        simp only [Prod.mk.injEq, Except.ok.injEq] at h
        obtain ⟨rfl, rfl⟩ := h
        exact ⟨⟨rfl, by simp⟩, rfl⟩
      · rintro ⟨⟨h1, _⟩, h2⟩
        rw [List.length_eq_zero_iff] at h1
        subst h1
        rw [h2]
        rfl
    · simp [readMany, Rd.ok, firstBad]
    · simp [readMany, Rd.ok, firstBad]
    · rw [List.length_eq_zero_iff.mp ha.1]
      rfl
    · rw [List.length_eq_zero_iff.mp ha.1]
      intro x hx
      cases hx
  | succ n ih =>
    rw [List.replicate_succ, List.flatten_cons]
    refine h.bind ih (fun a l => a :: l) (fun c => ?_) fun a l => List.flatMap_cons
    constructor
    · rintro ⟨hl, hv⟩
      cases c with
      | nil => cases hl
      | cons a l =>
        exact ⟨a, l, hv a (by simp), ⟨by simpa using hl, fun b hb => hv b (by simp [hb])⟩, rfl⟩
    · rintro ⟨a, l, va, ⟨hl, hv⟩, rfl⟩
      exact ⟨by simp [hl], by simpa using ⟨va, hv⟩⟩

/-- **C77** Two readers in sequence: any file format made of raw objects is read exactly. -/
theorem C77_read_pair {α β : Type} {ms ns : List ℕ} {V : α → Prop} {U : β → Prop} {e1 : α → List ℕ} {e2 : β → List ℕ} {r1 : Rd α}
    {r2 : Rd β} (h1 : Reads ms V e1 r1) (h2 : Reads ns U e2 r2) :
    Reads (ms ++ ns) (fun c : α × β => V c.1 ∧ U c.2) (fun c => e1 c.1 ++ e2 c.2)
      (r1.andThen fun a => r2.andThen fun b => .ok (a, b)) :=
  h1.bind h2 Prod.mk (fun c => ⟨fun h => ⟨c.1, c.2, h.1, h.2, rfl⟩, fun ⟨_, _, ha, hb, e⟩ => e ▸ ⟨ha, hb⟩⟩) fun _ _ => rfl

/-- **C77** What `firstBad` says, by the number `i` of the bad element: all elements before are there and canonical, and this one ends
behind the stream or is not smaller than its modulus. -/
theorem C77_first_bad (ms s : List ℕ) (e : IoErr) (t : List ℕ) :
    firstBad ms s = some (e, t) ↔ ∃ i, ∃ hi : i < ms.length,
      (∀ j (hj : j < i), ((ms.take (j + 1)).map rawSize).sum ≤ s.length ∧
        leNat ((s.drop ((ms.take j).map rawSize).sum).take (rawSize (ms[j]'(by omega)))) < ms[j]'(by omega)) ∧
      ((e = .eof ∧ s.length < ((ms.take (i + 1)).map rawSize).sum ∧ t = s.drop ((ms.take i).map rawSize).sum) ∨
       (e = .invalidData ∧ ((ms.take (i + 1)).map rawSize).sum ≤ s.length ∧
        ms[i] ≤ leNat ((s.drop ((ms.take i).map rawSize).sum).take (rawSize ms[i])) ∧
        t = s.drop ((ms.take (i + 1)).map rawSize).sum)) := by
  induction ms generalizing s with
  | nil => simp [firstBad]
  | cons m ms ih =>
    rw [firstBad]
    by_cases h1 : s.length < rawSize m
    · rw [if_pos h1]
      constructor
      · intro h
        simp only [Option.some.injEq, Prod.mk.injEq] at h
        obtain ⟨rfl, rfl⟩ := h
        exact ⟨0, by simp, fun j hj => absurd hj (by omega), Or.inl ⟨rfl, by simpa using h1, by simp⟩⟩
      · rintro ⟨i, hi, hb, hd⟩
        cases i with
        | zero =>
          rcases hd with ⟨rfl, _, rfl⟩ | ⟨_, h2, _⟩
          · simp
          · simp at h2
            omega
        | succ i =>
          have := (hb 0 (by omega)).1
          simp at this
          omega
    · rw [if_neg h1]
      by_cases h2 : leNat (s.take (rawSize m)) < m
      · rw [if_pos h2, ih]
        constructor
        · rintro ⟨i, hi, hb, hd⟩
          refine ⟨i + 1, by simpa using hi, fun j hj => ?_, ?_⟩
          · cases j with
            | zero => exact ⟨by simp; omega, by simpa using h2⟩
            | succ j =>
              obtain ⟨b1, b2⟩ := hb j (by omega)
              rw [List.length_drop] at b1
              refine ⟨by simp only [List.take_succ_cons, List.map_cons, List.sum_cons]; omega, ?_⟩
              simp only [List.take_succ_cons, List.map_cons, List.sum_cons, List.getElem_cons_succ, ← List.drop_drop]
              exact b2
          · simp only [List.take_succ_cons, List.map_cons, List.sum_cons, List.getElem_cons_succ, ← List.drop_drop]
            simp only [List.length_drop] at hd
            rcases hd with ⟨d1, d2, d3⟩ | ⟨d1, d2, d3, d4⟩
            · exact Or.inl ⟨d1, by omega, d3⟩
            · exact Or.inr ⟨d1, by omega, d3, d4⟩
        · rintro ⟨i, hi, hb, hd⟩
          cases i with
          | zero =>
            rcases hd with ⟨_, h3, _⟩ | ⟨_, _, h3, _⟩
            · simp at h3
              omega
            · simp at h3
              omega
          | succ i =>
            refine ⟨i, by simpa using hi, fun j hj => ?_, ?_⟩
            · obtain ⟨b1, b2⟩ := hb (j + 1) (by omega)
              simp only [List.take_succ_cons, List.map_cons, List.sum_cons, List.getElem_cons_succ, ← List.drop_drop] at b1 b2
              rw [List.length_drop]
              exact ⟨by omega, b2⟩
            · simp only [List.take_succ_cons, List.map_cons, List.sum_cons, List.getElem_cons_succ, ← List.drop_drop] at hd
              simp only [List.length_drop]
              rcases hd with ⟨d1, d2, d3⟩ | ⟨d1, d2, d3, d4⟩
              · exact Or.inl ⟨d1, by omega, d3⟩
              · exact Or.inr ⟨d1, by omega, d3, d4⟩
      · rw [if_neg h2]
        constructor
        · intro h
          simp only [Option.some.injEq, Prod.mk.injEq] at h
          obtain ⟨rfl, rfl⟩ := h
          exact ⟨0, by simp, fun j hj => absurd hj (by omega), Or.inr ⟨rfl, by simp; omega, by simp; omega, by simp⟩⟩
        · rintro ⟨i, hi, hb, hd⟩
          cases i with
          | zero =>
            rcases hd with ⟨_, h3, _⟩ | ⟨rfl, _, _, rfl⟩
            · simp at h3
              omega
            · simp
          | succ i =>
            have := (hb 0 (by omega)).2
            simp at this
            omega

/-! ### Writers -/

theorem Writes.comp {α β : Type} {e1 : α → List ℕ} {e2 : β → List ℕ} {w1 : α → Wr} {w2 : β → Wr} (h1 : Writes e1 w1) (h2 : Writes e2 w2)
    (a : α) (b : β) : Writes (fun _ : Unit => e1 a ++ e2 b) fun _ => (w1 a).andThen (w2 b) := by
  refine ⟨fun _ out => ?_, fun _ out k => ?_⟩
  · rw [Wr.andThen, h1.vec]
    simp only [h2.vec, List.append_assoc]
  · rw [Wr.andThen, h1.slice]
    by_cases hk : (e1 a).length ≤ k
    · rw [decide_eq_true hk]
      simp only [h2.slice, List.length_append, List.take_append, List.take_of_length_le hk, List.append_assoc, Prod.mk.injEq,
        Sink.mk.injEq, Option.some.injEq, decide_eq_decide, true_and]
      omega
    · rw [decide_eq_false hk]
      simp only [List.length_append, List.take_append, show k - (e1 a).length = 0 by omega, List.take_zero, List.append_nil,
        Prod.mk.injEq, Sink.mk.injEq, Option.some.injEq, true_and]
      exact ⟨(decide_eq_false (by omega)).symm, by omega⟩

theorem Writes.of {α : Type} {enc : α → List ℕ} {wr : α → Wr} (h : ∀ a, Writes (fun _ : Unit => enc a) fun _ => wr a) : Writes enc wr :=
  ⟨fun a => (h a).vec (), fun a => (h a).slice ()⟩

theorem Writes.at {α : Type} {enc : α → List ℕ} {wr : α → Wr} (h : Writes enc wr) (a : α) : Writes (fun _ : Unit => enc a) fun _ => wr a :=
  ⟨fun _ => h.vec a, fun _ => h.slice a⟩

theorem writes_all : Writes id writeAll := by
  refine ⟨fun a out => rfl, fun a out k => ?_⟩
  rw [writeAll]
  by_cases h : a.length ≤ k
  · simp only [h, if_true, id, List.take_of_length_le h, decide_true]
  · simp only [h, if_false, id, decide_false, show k - a.length = 0 by omega]

/-- **C77** Writing any number of objects one after another. -/
theorem C77_write_many {α : Type} {enc : α → List ℕ} {wr : α → Wr} (h : Writes enc wr) :
    Writes (fun l => l.flatMap enc) (writeMany wr) := by
  refine Writes.of fun l => ?_
  induction l with
  | nil => exact ⟨fun _ out => by simp [writeMany, Wr.ok], fun _ out k => by simp [writeMany, Wr.ok]⟩
  | cons a l ih =>
    have := h.comp ih a ()
    rw [← List.flatMap_cons] at this
    exact this

/-- **C77** Writing raw elements of prime fields and quadratic extensions. -/
theorem C77_write_field :
    Writes Fp.toRawBytes (fpWrite (p := p)) ∧ Writes Tower2.toRawBytes (quadWrite (p := p)) := by
  have hl : Writes (fun l => l.flatMap toLeBytes) writeLimbs := by
    refine Writes.of fun l => ?_
    induction l with
    | nil => exact ⟨fun _ out => by simp [writeLimbs, Wr.ok], fun _ out k => by simp [writeLimbs, Wr.ok]⟩
    | cons a l ih =>
      have := writes_all.comp ih (toLeBytes a) ()
      simp only [id] at this
      rw [← List.flatMap_cons] at this
      exact this
  have hf : Writes Fp.toRawBytes (fpWrite (p := p)) := Writes.of fun a => hl.at a.limbs
  refine ⟨hf, Writes.of fun a => ?_⟩
  have := hf.comp hf a.c0 a.c1
  rw [Tower2.toRawBytes, List.flatMap_append]
  exact this

/-- **C77** Writing raw points, from a writer of coordinates. -/
theorem C77_write_points (K : Codec F) {wr : F → Wr} (h : Writes K.toRaw wr) :
    Writes K.affToRaw (affWrite wr) ∧ Writes K.projToRaw (projWrite wr) :=
  ⟨Writes.of fun A => h.comp h A.x A.y, Writes.of fun P => h.comp (h.comp h P.y P.z) P.x ()⟩

/-- **C77** `to_raw_bytes` never panics and returns what `write_raw` writes. -/
theorem C77_to_raw {α : Type} {enc : α → List ℕ} {wr : α → Wr} (h : Writes enc wr) (a : α) : toRaw (wr a) = .ok (enc a) := by
  rw [toRaw, h.vec]
  rfl

/-- **C77** Files: what was written is read back, whatever follows; a proper prefix is never accepted. -/
theorem C77_file {α : Type} {ms : List ℕ} {enc : α → List ℕ} {rd : Rd α} {wr : α → Wr} (hr : Reads ms (fun _ => True) enc rd)
    (hw : Writes enc wr) (l : List α) (rest : List ℕ) (hrest : IsBytes rest) :
    (∀ w, (writeMany wr l ⟨[], none⟩).2.out = w → readMany rd l.length (w ++ rest) = (.ok l, rest)) ∧
    (∀ k, k < (l.flatMap enc).length → ∃ w, writeMany wr l ⟨[], some k⟩ = (false, ⟨w, some 0⟩) ∧ w = (l.flatMap enc).take k ∧
      (readMany rd l.length w).1 = .error .eof) := by
  have hm := C77_read_many hr l.length
  have hwm := C77_write_many hw
  have hv : l.length = l.length ∧ ∀ a ∈ l, (fun _ => True) a := ⟨rfl, fun _ _ => trivial⟩
  have hb := hm.enc_bytes l hv
  have hlen := hm.enc_len l hv
  have hok := (hm.ok_iff _ (hb.append hrest) l rest).mpr ⟨hv, rfl⟩
  refine ⟨?_, fun k hk => ⟨_, ?_, rfl, ?_⟩⟩
  · rintro w rfl
    rw [hwm.vec]
    exact hok
  · rw [hwm.slice, decide_eq_false (by omega), show k - (l.flatMap enc).length = 0 by omega]
    rfl
  · have hbt : IsBytes ((l.flatMap enc).take k) := hb.take k
    have hnone : firstBad (List.replicate l.length ms).flatten (l.flatMap enc) = none := by
      have := (hm.ok_iff _ hb l []).mpr ⟨hv, by simp⟩
      exact (hm.ok_firstBad hb this).1
    rcases hq : readMany rd l.length ((l.flatMap enc).take k) with ⟨e | a, t⟩
    · cases e with
      | eof => rfl
      | invalidData =>
        have h1 := (hm.invalid_iff _ hbt t).mp hq
        have : ∀ ms s k t, firstBad ms s = none → firstBad ms (s.take k) ≠ some (.invalidData, t) := by
          intro ms
          induction ms with
          | nil => intro s k t _ h; cases h
          | cons m ms ih =>
            intro s k t h h2
            rw [firstBad] at h h2
            rw [List.length_take] at h2
            by_cases c1 : s.length < rawSize m
            · rw [if_pos c1] at h
              cases h
            · rw [if_neg c1] at h
              by_cases c2 : min k s.length < rawSize m
              · rw [if_pos c2] at h2
                cases h2
              · rw [if_neg c2, List.take_take, min_eq_left (by omega)] at h2
                by_cases c3 : leNat (s.take (rawSize m)) < m
                · rw [if_pos c3] at h h2
                  rw [List.drop_take] at h2
                  exact ih _ _ _ h h2
                · rw [if_neg c3] at h
                  cases h
        exact absurd h1 (this _ _ _ _ hnone)
    · obtain ⟨v, hs⟩ := (hm.ok_iff _ hbt a t).mp hq
      have h1 := congrArg List.length hs
      rw [List.length_append, hm.enc_len a v, List.length_take] at h1
      omega

/-! ### The shipped curves -/

/-- C77 for the points of one curve, whose coordinates consist of elements of the prime fields `ms`. -/
structure StreamSpec (K : Codec F) (ms : List ℕ) (rd : (List ℕ → List ℕ) → Rd F) (wr : F → Wr) : Prop where
  readAff (eof : List ℕ → List ℕ) : Reads (ms ++ ms) (fun _ : Aff F => True) K.affToRaw (affRead (rd eof))
  readProj (eof : List ℕ → List ℕ) : Reads (ms ++ (ms ++ ms)) (fun _ : Proj F => True) K.projToRaw (projRead (rd eof))
  writeAff : Writes K.affToRaw (affWrite wr)
  writeProj : Writes K.projToRaw (projWrite wr)

theorem streamSpec_of {K : Codec F} {ms : List ℕ} {rd : (List ℕ → List ℕ) → Rd F} {wr : F → Wr}
    (hr : ∀ eof, Reads ms (fun _ => True) K.toRaw (rd eof)) (hw : Writes K.toRaw wr) : StreamSpec K ms rd wr :=
  ⟨fun e => (C77_read_points K (hr e)).1, fun e => (C77_read_points K (hr e)).2, (C77_write_points K hw).1, (C77_write_points K hw).2⟩

/-- **C77** The points of all shipped curves. -/
theorem C77_shipped :
    StreamSpec Bn256.g1Codec [bnQ] fpRead fpWrite ∧ StreamSpec Bn256.g2Codec [bnQ, bnQ] quadRead quadWrite ∧
    StreamSpec Grumpkin.g1Codec [bnR] fpRead fpWrite ∧ StreamSpec Bls12381.g1Codec [blsQ] fpRead fpWrite ∧
    StreamSpec Bls12381.g2Codec [blsQ, blsQ] quadRead quadWrite ∧ StreamSpec Pluto.g1Codec [plP] fpRead fpWrite ∧
    StreamSpec Pluto.erisCodec [plQ] fpRead fpWrite ∧ StreamSpec Pluto.g2Codec [plP, plP] quadRead quadWrite ∧
    StreamSpec Secp256k1.cCodec [k1P] fpRead fpWrite ∧ StreamSpec Secq256k1.cCodec [k1N] fpRead fpWrite ∧
    StreamSpec Secp256r1.cCodec [r1P] fpRead fpWrite :=
  ⟨streamSpec_of C77_read_field C77_write_field.1, streamSpec_of C77_read_tower C77_write_field.2,
    streamSpec_of C77_read_field C77_write_field.1, streamSpec_of C77_read_field C77_write_field.1,
    streamSpec_of C77_read_tower C77_write_field.2, streamSpec_of C77_read_field C77_write_field.1,
    streamSpec_of C77_read_field C77_write_field.1, streamSpec_of C77_read_tower C77_write_field.2,
    streamSpec_of C77_read_field C77_write_field.1, streamSpec_of C77_read_field C77_write_field.1,
    streamSpec_of C77_read_field C77_write_field.1⟩

/-! ### `Endian` on slices -/

theorem copyLimbs_spec (f : ℕ → List ℕ) (hf : ∀ x, (f x).length = 8) (ls : List ℕ) (i : ℕ) (res : List ℕ) :
    copyLimbs f i ls res = if ls = [] ∨ (i + ls.length) * 8 ≤ res.length
      then .ok (res.take (i * 8) ++ (ls.flatMap f ++ res.drop ((i + ls.length) * 8))) else .panic := by
  induction ls generalizing i res with
  | nil => rw [copyLimbs, if_pos (Or.inl rfl)]; simp
  | cons l ls ih =>
    rw [copyLimbs, copyInto, List.length_cons]
    by_cases h : i * 8 + 8 ≤ res.length
    · rw [if_pos h]
      simp only
      have hl : (res.take (i * 8) ++ (f l ++ res.drop (i * 8 + 8))).length = res.length := by
        rw [List.length_append, List.length_append, List.length_take, List.length_drop, hf]; omega
      rw [ih, hl]
      by_cases h2 : (i + (ls.length + 1)) * 8 ≤ res.length
      · rw [if_pos (Or.inr (by omega)), if_pos (Or.inr h2)]
        have e1 : (res.take (i * 8) ++ (f l ++ res.drop (i * 8 + 8))).take ((i + 1) * 8) = res.take (i * 8) ++ f l := by
          rw [← List.append_assoc, List.take_left']
          rw [List.length_append, List.length_take, hf]; omega
        have e2 : (res.take (i * 8) ++ (f l ++ res.drop (i * 8 + 8))).drop ((i + 1 + ls.length) * 8) =
            res.drop ((i + (ls.length + 1)) * 8) := by
          rw [← List.append_assoc, show (i + 1 + ls.length) * 8 = (i * 8 + 8) + ls.length * 8 by ring, ← List.drop_drop, List.drop_left',
            List.drop_drop]
          · congr 1; ring
          · rw [List.length_append, List.length_take, hf]; omega
        rw [e1, e2, List.flatMap_cons]
        simp only [List.append_assoc]
      · have n1 : ¬ (ls = [] ∨ (i + 1 + ls.length) * 8 ≤ res.length) := by
          rintro (rfl | h3)
          · simp only [List.length_nil] at h2; omega
          · omega
        have n2 : ¬ (l :: ls = [] ∨ (i + (ls.length + 1)) * 8 ≤ res.length) := by
          rintro (h3 | h3)
          · cases h3
          · omega
        rw [if_neg n1, if_neg n2]
    · rw [if_neg h, if_neg (by simp only [reduceCtorEq, false_or]; omega)]

theorem fillLimbs_spec (f : List ℕ → ℕ) (res : List ℕ) (n i : ℕ) :
    fillLimbs f res i n = if n = 0 ∨ (i + n) * 8 ≤ res.length
      then .ok ((List.range n).map fun j => f ((res.drop ((i + j) * 8)).take 8)) else .panic := by
  induction n generalizing i with
  | zero => rw [fillLimbs, if_pos (Or.inl rfl)]; rfl
  | succ n ih =>
    rw [fillLimbs, slice8]
    by_cases h : i * 8 + 8 ≤ res.length
    · rw [if_pos h]
      simp only
      rw [ih]
      by_cases h2 : (i + (n + 1)) * 8 ≤ res.length
      · rw [if_pos (Or.inr (by omega)), if_pos (Or.inr h2)]
        simp only
        rw [List.range_succ_eq_map, List.map_cons, List.map_map, Nat.add_zero]
        congr 2
        apply List.map_congr_left
        intro j _
        rw [Function.comp, Nat.succ_eq_add_one, show i + (j + 1) = i + 1 + j by ring]
      · rw [if_neg (show ¬ (n = 0 ∨ (i + 1 + n) * 8 ≤ res.length) by omega),
          if_neg (show ¬ (n + 1 = 0 ∨ (i + (n + 1)) * 8 ≤ res.length) by omega)]
    · rw [if_neg h, if_neg (by omega)]

/-- **C77** `Endian::to_bytes` panics exactly on a short buffer; else the first bytes hold the number and the others are unchanged. -/
theorem C77_endian_to (e : Endian) (res el : List ℕ) (hel : Wf el) :
    (toBytesInto e res el = .panic ↔ res.length < 8 * el.length) ∧
    (∀ out, toBytesInto e res el = .ok out → out.length = res.length ∧ e.nat (out.take (8 * el.length)) = val el ∧
      IsBytes (out.take (8 * el.length)) ∧ out.drop (8 * el.length) = res.drop (8 * el.length)) := by
  obtain ⟨t1, t2, t3⟩ := toBytes_spec e el hel
  have h8 (x : ℕ) : (toLeBytes x).length = 8 := by rw [toLeBytes, List.length_map, List.length_range]
  have h8' (x : ℕ) : (toBeBytes x).length = 8 := by rw [toBeBytes, List.length_reverse, h8]
  have key : toBytesInto e res el = if el = [] ∨ 8 * el.length ≤ res.length then .ok (e.toBytes el ++ res.drop (8 * el.length)) else .panic := by
    cases e with
    | LE =>
      rw [toBytesInto, copyLimbs_spec _ h8, zero_mul, List.take_zero, List.nil_append, zero_add, Nat.mul_comm _ 8]
      rfl
    | BE =>
      rw [toBytesInto, copyLimbs_spec _ h8', zero_mul, List.take_zero, List.nil_append, zero_add, Nat.mul_comm _ 8,
        List.length_reverse]
      simp only [List.reverse_eq_nil_iff, Endian.toBytes]
  rw [key]
  by_cases h : 8 * el.length ≤ res.length
  · rw [if_pos (Or.inr h)]
    refine ⟨⟨fun h' => (nomatch h'), fun h' => absurd h' (by omega)⟩, fun out ho => ?_⟩
    injection ho with ho
    subst ho
    rw [List.take_left' t1, List.drop_left' t1, List.length_append, t1, List.length_drop]
    exact ⟨by omega, t3, t2, rfl⟩
  · rw [if_neg (by rintro (rfl | h2); exacts [h (by simp), h h2])]
    exact ⟨⟨fun _ => by omega, fun _ => rfl⟩, fun out ho => (nomatch ho)⟩

/-- **C77** `Endian::from_bytes` panics exactly on a short buffer; else it reads the number in the first bytes and ignores the others. -/
theorem C77_endian_from (e : Endian) (res : List ℕ) (hres : IsBytes res) (n : ℕ) :
    (fromBytesFrom e res n = .panic ↔ res.length < 8 * n) ∧
    (∀ ls, fromBytesFrom e res n = .ok ls → ls.length = n ∧ Wf ls ∧ val ls = e.nat (res.take (8 * n))) := by
  have key : fromBytesFrom e res n = if n = 0 ∨ 8 * n ≤ res.length then .ok (e.fromBytes n (res.take (8 * n))) else .panic := by
    have hm (f : List ℕ → ℕ) : ((List.range n).map fun j => f ((res.drop ((0 + j) * 8)).take 8)) =
        (List.range n).map fun i => f (((res.take (8 * n)).drop (i * 8)).take 8) := by
      apply List.map_congr_left
      intro j hj
      rw [List.mem_range] at hj
      rw [zero_add, List.drop_take, List.take_take, min_eq_left (by omega)]
    cases e with
    | LE => rw [fromBytesFrom, fillLimbs_spec, hm, zero_add, Nat.mul_comm n 8]; rfl
    | BE =>
      rw [fromBytesFrom, fillLimbs_spec, hm, zero_add, Nat.mul_comm n 8]
      split_ifs <;> rfl
  rw [key]
  by_cases h : 8 * n ≤ res.length
  · rw [if_pos (Or.inr h)]
    refine ⟨⟨fun h' => (nomatch h'), fun h' => absurd h' (by omega)⟩, fun out ho => ?_⟩
    injection ho with ho
    subst ho
    exact fromBytes_spec e n _ (by rw [List.length_take]; omega) (hres.take _)
  · rw [if_neg (by rintro (rfl | h2); exacts [h (by simp), h h2])]
    exact ⟨⟨fun _ => by omega, fun _ => rfl⟩, fun out ho => (nomatch ho)⟩

/-! ### Examples -/

/-- Two generators of bn256 G1 in a file. -/
example (rest : List ℕ) (hr : IsBytes rest) :
    readMany (affRead (fpRead id)) 2 ((writeMany (affWrite fpWrite) [Bn256.g1Gen, Bn256.g1Gen] ⟨[], none⟩).2.out ++ rest) =
      (.ok [Bn256.g1Gen, Bn256.g1Gen], rest) :=
  (C77_file (C77_shipped.1.readAff id) C77_shipped.1.writeAff [Bn256.g1Gen, Bn256.g1Gen] rest hr).1 _ rfl

/-- A stream of an element, a non-canonical one, and one more byte: the second is reported, the last byte remains. -/
example : firstBad [bnQ, bnQ, bnR] (List.replicate 32 0 ++ (List.replicate 32 255 ++ [7])) = some (.invalidData, [7]) := by decide +kernel

example : toBytesInto .BE [9, 9, 9, 9, 9, 9, 9, 9, 9] [258] = .ok [0, 0, 0, 0, 0, 0, 1, 2, 9] := by decide +kernel
example : fromBytesFrom .BE [0, 0, 0, 0, 0, 0, 1, 2, 9] 1 = .ok [258] := by decide +kernel
example : Wf [258] := by intro x hx; rw [List.mem_singleton] at hx; subst hx; decide

end Halo2.Props
