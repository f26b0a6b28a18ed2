import Verif.Msm.Checked
import Verif.Msm.Best

/-!
# `msm_serial`, `msm_parallel` and `msm_best` in a build with overflow checks

The functions of `Verif/Msm/Model.lean` with the checks of every `+`, `-`, `*` and `<<` on `usize`; `none` is a panic.
-/

namespace Halo2.Msm

open Halo2.Field Halo2.Curve Halo2.Checked

variable {F : Type} [CommRing F] [DecidableEq F] [BaseField F] (C : Params F)

/-- Models src/msm.rs:346-360 (`max_byte_size`) with overflow checks. -/
def maxByteSizeC (fieldByteSize : ℕ) (coeffs : List (List ℕ)) : Option ℕ :=
  let accOr := coeffs.foldl orBytes (List.replicate fieldByteSize 0)
  subU fieldByteSize ((accOr.reverse.findIdx? (fun v => v != 0)).getD fieldByteSize)

/-- Models src/msm.rs:404-412 with overflow checks. -/
def serialStepC (w c : ℕ) (buckets : List (SBucket F)) (kb : List ℕ × Aff F) : Option (List (SBucket F)) := do
  let d ← boothIndexC w c kb.1
  if 0 < d then
    let i ← subU d.natAbs 1
    modifyAt buckets i (fun b => b.addAssign C kb.2)
  else if d < 0 then
    let i ← subU d.natAbs 1
    modifyAt buckets i (fun b => b.addAssign C (Aff.neg kb.2))
  else some buckets

/-- Models src/msm.rs:366-369, 402-422 with overflow checks. -/
def serialWindowC (c : ℕ) (terms : List (List ℕ × Aff F)) (acc : Proj F) (w : ℕ) : Option (Proj F) := do
  let acc := Nat.iterate (Proj.double C) c acc
  let c1 ← subU c 1
  shiftOk 64 c1
  let buckets ← terms.foldlM (serialStepC C w c) (List.replicate (1 <<< c1) SBucket.none)
  some (buckets.reverse.foldl (serialSum C) (Proj.identity, acc)).2

/-- Models src/msm.rs:335-424 (`msm_serial`) with overflow checks. -/
def msmSerialC (lnCeil : ℕ → ℕ) (fieldByteSize : ℕ) (coeffs : List (List ℕ)) (bases : List (Aff F)) (acc : Proj F) :
    Option (Proj F) := do
  let c := windowSize lnCeil bases.length
  let maxBytes ← maxByteSizeC fieldByteSize coeffs
  if maxBytes = 0 then some acc
  else if c = 0 then none
  else
    let bits ← fitsU 64 (maxBytes * 8)
    let numberOfWindows ← fitsU 64 (bits / c + 1)
    (List.range numberOfWindows).reverse.foldlM (serialWindowC C c (coeffs.zip bases)) acc

/-- The task of a chunk, with overflow checks: src/msm.rs:446-448. -/
def chunkTaskC (lnCeil : ℕ → ℕ) (fieldByteSize : ℕ) (parts : List (List (List ℕ) × List (Aff F))) (i : ℕ) (acc : Proj F) :
    Option (Proj F) :=
  match parts[i]? with
  | none => some acc
  | some part => msmSerialC C lnCeil fieldByteSize part.1 part.2 acc

/-- Models src/msm.rs:431-458 (`msm_parallel`) with overflow checks; its only arithmetic of its own is a division by the number
of threads, which is not zero. -/
def msmParallelC (lnCeil : ℕ → ℕ) (fieldByteSize threads : ℕ) (order : List ℕ) (coeffs : List (List ℕ)) (bases : List (Aff F)) :
    Option (Proj F) :=
  if coeffs.length ≠ bases.length then none
  else if coeffs.length > threads then
    let chunk := coeffs.length / threads
    let numChunks := (chunks chunk coeffs).length
    let parts := (chunks chunk coeffs).zip (chunks chunk bases)
    match runTasks (chunkTaskC C lnCeil fieldByteSize parts) order (List.replicate numChunks Proj.identity) with
    | none => none
    | some results => some (results.foldl (fun a b => Proj.add C a b) Proj.identity)
  else msmSerialC C lnCeil fieldByteSize coeffs bases Proj.identity

/-- Models src/msm.rs:496-511 with overflow checks. (`self.ptr += 1` in `Schedule::add` is not checked here: the index `ptr` of an
array of 64 has just been used.) -/
def bestStepC (c w : ℕ) (bases basesLocal : List (Aff F)) (s : List (Option (Proj F)) × Sched F) (ik : List ℕ × ℕ) :
    Option (List (Option (Proj F)) × Sched F) := do
  let d ← boothIndexC w c ik.1
  if d ≠ 0 then
    let sign := decide (0 < d)
    let buckIdx ← subU d.natAbs 1
    if s.2.contains buckIdx then
      let q ← bases[ik.2]?
      let j ← modifyAt s.1 buckIdx (fun b => jAddAssign C b q sign)
      some (j, s.2)
    else
      let sched ← s.2.add basesLocal ik.2 buckIdx sign
      some (s.1, sched)
  else some s

/-- Models src/msm.rs:489-530 with overflow checks. -/
def bestWindowC (c : ℕ) (coeffs : List (List ℕ)) (bases basesLocal : List (Aff F)) (w : ℕ) (acc : Proj F) : Option (Proj F) := do
  let c1 ← subU c 1
  shiftOk 64 c1
  let s ← coeffs.zipIdx.foldlM (bestStepC C c w bases basesLocal) (List.replicate (1 <<< c1) none, Sched.new c)
  let sched ← s.2.execute basesLocal
  let r ← (s.1.zip sched.buckets).reverse.foldlM (bestSum C) (Proj.identity, acc)
  let n ← fitsU 64 (c * w)
  some (Nat.iterate (Proj.double C) n r.2)

/-- Models src/msm.rs:463-533 (`msm_best`) with overflow checks. -/
def msmBestC (lnCeil : ℕ → ℕ) (numBits threads : ℕ) (order1 order2 : List ℕ) (coeffs : List (List ℕ)) (bases : List (Aff F)) :
    Option (Proj F) :=
  if coeffs.length ≠ bases.length then none
  else
    let c := windowSize lnCeil bases.length
    if c < 10 then msmParallelC C lnCeil ((numBits + 7) / 8) threads order1 coeffs bases
    else do
      let basesLocal ← bases.mapM (fun b => Aff.fromXY C b.x b.y)
      let numberOfWindows ← fitsU 64 (numBits / c + 1)
      let acc ← runTasks (bestWindowC C c coeffs bases basesLocal) order2 (List.replicate numberOfWindows Proj.identity)
      some (Proj.sum C acc)

theorem foldlM_congr {α β : Type} {f g : β → α → Option β} (l : List α) (h : ∀ b, ∀ a ∈ l, f b a = g b a) (b : β) :
    l.foldlM f b = l.foldlM g b := by
  induction l generalizing b with
  | nil => rfl
  | cons a l ih =>
    rw [List.foldlM_cons, List.foldlM_cons, h b a List.mem_cons_self]
    cases g b a with
    | none => rfl
    | some b' => exact ih (fun b a ha => h b a (List.mem_cons_of_mem _ ha)) b'

theorem foldl_orBytes_length (cs : List (List ℕ)) (a : List ℕ) : (cs.foldl orBytes a).length = a.length := by
  induction cs generalizing a with
  | nil => rfl
  | cons c cs ih => rw [List.foldl_cons, ih, orBytes_length]

theorem maxByteSizeC_eq (n : ℕ) (coeffs : List (List ℕ)) : maxByteSizeC n coeffs = some (maxByteSize n coeffs) := by
  refine subU_some ?_
  have hl : (coeffs.foldl orBytes (List.replicate n 0)).reverse.length = n := by
    rw [List.length_reverse, foldl_orBytes_length, List.length_replicate]
  generalize (coeffs.foldl orBytes (List.replicate n 0)).reverse = l at hl
  cases h : l.findIdx? (fun v => v != 0) with
  | none => exact le_refl _
  | some i =>
    have := (List.findIdx?_eq_some_iff_findIdx_eq.mp h).1
    exact (this.trans_eq hl).le

theorem serialStepC_eq (w c : ℕ) (hc : c ≤ 30) (hw : w * c < 2 ^ 64) (buckets : List (SBucket F)) (kb : List ℕ × Aff F) :
    serialStepC C w c buckets kb = serialStep C w c buckets kb := by
  rw [serialStepC, boothIndexC_ok w c kb.1 hc hw, serialStep]
  generalize boothIndex w c kb.1 = d
  simp only [Option.bind_eq_bind, Option.bind_some]
  by_cases h1 : 0 < d
  · rw [if_pos h1, if_pos h1, subU_some (by omega)]
    rfl
  · rw [if_neg h1, if_neg h1]
    by_cases h2 : d < 0
    · rw [if_pos h2, if_pos h2, subU_some (by omega)]
      rfl
    · rw [if_neg h2, if_neg h2]

theorem serialWindowC_eq (c : ℕ) (h1 : 1 ≤ c) (hc : c ≤ 30) (terms : List (List ℕ × Aff F)) (acc : Proj F) (w : ℕ) (hw : w * c < 2 ^ 64) :
    serialWindowC C c terms acc w = serialWindow C c terms acc w := by
  rw [serialWindowC, serialWindow, subU_some h1]
  simp only [Option.bind_eq_bind, Option.bind_some]
  rw [shiftOk_some (by omega), foldlM_congr terms (fun b a _ => serialStepC_eq C w c hc hw b a)]
  simp only [Option.bind_some]
  cases terms.foldlM (serialStep C w c) (List.replicate (1 <<< (c - 1)) SBucket.none) <;> rfl

theorem msmSerialC_eq {ln : ℕ → ℕ} (hln : LnCeilOk ln) (n : ℕ) (hn : n < 2 ^ 56) (coeffs : List (List ℕ)) (bases : List (Aff F))
    (hlen : bases.length < 2 ^ 32) (acc : Proj F) : msmSerialC C ln n coeffs bases acc = msmSerial C ln n coeffs bases acc := by
  obtain ⟨c1, c2⟩ := windowSize_ok hln bases.length hlen
  have hm := maxByteSize_le n coeffs
  rw [msmSerialC, msmSerial, maxByteSizeC_eq]
  generalize windowSize ln bases.length = c at *
  generalize maxByteSize n coeffs = m at *
  simp only [Option.bind_eq_bind, Option.bind_some]
  by_cases h0 : m = 0
  · rw [if_pos h0, if_pos h0]
  · have hd : m * 8 / c ≤ m * 8 := Nat.div_le_self _ _
    rw [if_neg h0, if_neg h0, if_neg (by omega), if_neg (by omega), fitsU_some (by omega)]
    simp only [Option.bind_some]
    rw [fitsU_some (by omega)]
    refine foldlM_congr _ (fun b w hw => serialWindowC_eq C c c1 (by omega) _ b w ?_) acc
    rw [List.mem_reverse, List.mem_range] at hw
    calc w * c ≤ 2 ^ 59 * 24 := Nat.mul_le_mul (by omega) c2
      _ < 2 ^ 64 := by decide

theorem chunksAux_length_le {α : Type} (fuel k : ℕ) (l x : List α) (h : x ∈ chunksAux fuel k l) : x.length ≤ l.length := by
  induction fuel generalizing l with
  | zero => cases h
  | succ n ih =>
    cases l with
    | nil => cases h
    | cons y ys =>
      rw [chunksAux] at h
      rcases List.mem_cons.mp h with rfl | h
      · exact List.length_take_le' _ _
      · exact (ih _ h).trans (by rw [List.length_drop]; omega)

theorem msmParallelC_eq {ln : ℕ → ℕ} (hln : LnCeilOk ln) (n : ℕ) (hn : n < 2 ^ 56) (threads : ℕ) (order : List ℕ)
    (coeffs : List (List ℕ)) (bases : List (Aff F)) (hlen : bases.length < 2 ^ 32) :
    msmParallelC C ln n threads order coeffs bases = msmParallel C ln n threads order coeffs bases := by
  have ht : ∀ k i acc, chunkTaskC C ln n ((chunks k coeffs).zip (chunks k bases)) i acc =
      chunkTask C ln n ((chunks k coeffs).zip (chunks k bases)) i acc := by
    intro k i acc
    rw [chunkTaskC, chunkTask]
    cases h : ((chunks k coeffs).zip (chunks k bases))[i]? with
    | none => rfl
    | some part =>
      have hm : part.2 ∈ chunks k bases := (List.of_mem_zip (List.mem_of_getElem? h)).2
      exact msmSerialC_eq C hln n hn _ _ (lt_of_le_of_lt (chunksAux_length_le _ _ _ _ hm) hlen) acc
  have hf : ∀ k, chunkTaskC C ln n ((chunks k coeffs).zip (chunks k bases)) = chunkTask C ln n ((chunks k coeffs).zip (chunks k bases)) :=
    fun k => funext fun i => funext fun acc => ht k i acc
  rw [msmParallelC, msmParallel]
  simp only [hf]
  rw [msmSerialC_eq C hln n hn coeffs bases hlen]
  rfl

theorem bestStepC_eq (c w : ℕ) (hc : c ≤ 30) (hw : w * c < 2 ^ 64) (bases basesLocal : List (Aff F))
    (s : List (Option (Proj F)) × Sched F) (ik : List ℕ × ℕ) :
    bestStepC C c w bases basesLocal s ik = bestStep C c w bases basesLocal s ik := by
  rw [bestStepC, boothIndexC_ok w c ik.1 hc hw, bestStep]
  generalize boothIndex w c ik.1 = d
  simp only [Option.bind_eq_bind, Option.bind_some]
  by_cases h1 : d ≠ 0
  · rw [if_pos h1, if_pos h1, subU_some (by omega)]
    simp only [Option.bind_some]
    split
    · cases bases[ik.2]? with
      | none => rfl
      | some q =>
        simp only [Option.bind_some]
        cases modifyAt s.1 (d.natAbs - 1) (fun b => jAddAssign C b q (decide (0 < d))) <;> rfl
    · cases s.2.add basesLocal ik.2 (d.natAbs - 1) (decide (0 < d)) <;> rfl
  · rw [if_neg h1, if_neg h1]

theorem bestWindowC_eq (c : ℕ) (h1 : 1 ≤ c) (hc : c ≤ 30) (coeffs : List (List ℕ)) (bases basesLocal : List (Aff F)) (w : ℕ)
    (hw : w * c < 2 ^ 64) (acc : Proj F) :
    bestWindowC C c coeffs bases basesLocal w acc = bestWindow C c coeffs bases basesLocal w acc := by
  rw [bestWindowC, bestWindow, subU_some h1]
  simp only [Option.bind_eq_bind, Option.bind_some]
  rw [shiftOk_some (by omega), foldlM_congr _ (fun b a _ => bestStepC_eq C c w hc hw bases basesLocal b a), fitsU_some (by rwa [mul_comm])]
  simp only [Option.bind_some]
  cases coeffs.zipIdx.foldlM (bestStep C c w bases basesLocal) (List.replicate (1 <<< (c - 1)) none, Sched.new c) with
  | none => rfl
  | some s =>
    simp only [Option.bind_some]
    cases s.2.execute basesLocal with
    | none => rfl
    | some sched =>
      simp only [Option.bind_some]
      cases (s.1.zip sched.buckets).reverse.foldlM (bestSum C) (Proj.identity, acc) <;> rfl

theorem runTasks_congr {α : Type} {f g : ℕ → α → Option α} (order : List ℕ) (h : ∀ i ∈ order, ∀ v, f i v = g i v) (s : List α) :
    runTasks f order s = runTasks g order s := by
  refine foldlM_congr order (fun b i hi => ?_) s
  cases b[i]? with
  | none => rfl
  | some v =>
    dsimp only
    rw [h i hi v]

theorem msmBestC_eq {ln : ℕ → ℕ} (hln : LnCeilOk ln) (numBits : ℕ) (hn : numBits < 2 ^ 56) (threads : ℕ) (order1 order2 : List ℕ)
    (coeffs : List (List ℕ)) (bases : List (Aff F)) (hlen : bases.length < 2 ^ 32)
    (ho : ∀ i ∈ order2, i ≤ numBits / windowSize ln bases.length) :
    msmBestC C ln numBits threads order1 order2 coeffs bases = msmBest C ln numBits threads order1 order2 coeffs bases := by
  obtain ⟨c1, c2⟩ := windowSize_ok hln bases.length hlen
  rw [msmBestC, msmBest]
  dsimp only
  rw [msmParallelC_eq C hln _ (by omega) threads order1 coeffs bases hlen]
  generalize windowSize ln bases.length = c at *
  have hd : numBits / c ≤ numBits := Nat.div_le_self _ _
  by_cases h1 : coeffs.length ≠ bases.length
  · rw [if_pos h1, if_pos h1]
  rw [if_neg h1, if_neg h1]
  by_cases h2 : c < 10
  · rw [if_pos h2, if_pos h2]
  rw [if_neg h2, if_neg h2, fitsU_some (by omega)]
  simp only [Option.bind_eq_bind, Option.bind_some]
  cases bases.mapM (fun b => Aff.fromXY C b.x b.y) with
  | none => rfl
  | some bl =>
    simp only [Option.bind_some]
    rw [runTasks_congr order2 fun i hi v => bestWindowC_eq C c c1 (by omega) coeffs bases bl i (by
      calc i * c ≤ 2 ^ 56 * 24 := Nat.mul_le_mul (by have := ho i hi; omega) c2
        _ < 2 ^ 64 := by decide) v]
    cases runTasks (bestWindow C c coeffs bases bl) order2 (List.replicate (numBits / c + 1) Proj.identity) <;> rfl

end Halo2.Msm
