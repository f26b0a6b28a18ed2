import Verif.Fft.Threads
import Verif.Props.WireProgram
import Verif.Props.Fft
import Verif.Props.Ln

/-!
# C92: programs do not see the threads

The programs of C86, which may also call the functions of the library that use the thread pool: `msm_parallel`, `msm_best` and `best_fft`,
on scalars and on points. Each call meets its own number of threads and its own order of the tasks.
-/

set_option linter.unusedSectionVars false

namespace Halo2.Program

open Halo2 Halo2.Field Halo2.Ext Halo2.Curve Halo2.Msm Halo2.Fft Halo2.Props

/-- What a call finds: the number of threads, the order in which a given number of tasks is run, the rounded logarithm of the machine, and
whether arithmetic overflow is checked. -/
structure Sched where
  threads : ℕ
  order : ℕ → List ℕ
  ln : ℕ → ℕ
  checks : Bool

/-- A call of one of the functions that use threads. The transforms are in place, with the factor in register `w`. -/
inductive TOp where
  | msmPar (d : ℕ) (ks l : List ℕ) | msmBest (d : ℕ) (ks l : List ℕ)
  | fftS (l : List ℕ) (w N : ℕ) | fftP (l : List ℕ) (w N : ℕ)

/-- A state, and the number of calls so far. -/
structure Clocked (S : Type) where
  st : S
  clock : ℕ

variable {F : Type} [CommRing F] [DecidableEq F] [BaseField F] {r : ℕ} [Fact r.Prime] [Fact (OddModulus r)] [Fp.SmallModulus r]

/-- A result, or a panic. -/
def orStop {A B : Type} (o : Option A) (f : A → B) : Outcome B :=
  match o with
  | none => .panic
  | some x => .ok (f x)

/-- A call under the schedule `e`, with the functions of the model. -/
def tstep (C : Params F) (e : Sched) (s : St F r) : TOp → Outcome (St F r)
  | .msmPar d ks l =>
    orStop (msmParallel C e.ln ((numBits r + 7) / 8) e.threads (e.order (numChunks e.threads l.length)) ((ks.map s.sc).map Fp.toRepr)
      (l.map s.af)) fun P => { s with pj := set s.pj d P }
  | .msmBest d ks l =>
    orStop (Msm.msmBest C e.ln (numBits r) e.threads (e.order (numChunks e.threads l.length))
      (e.order (numBits r / windowSize e.ln l.length + 1)) ((ks.map s.sc).map Fp.toRepr) (l.map s.af)) fun P =>
        { s with pj := set s.pj d P }
  | .fftS l w N => orStop (bestFft (fieldOps (Fp r)) e.checks e.threads (l.map s.sc) (s.sc w) N) fun a =>
      { s with sc := setAll s.sc l a }
  | .fftP l w N => orStop (bestFft (curveOps C r) e.checks e.threads (l.map s.pj) (s.sc w) N) fun a =>
      { s with pj := setAll s.pj l a }

/-- A call of the programs of C73, or one that uses threads; the clock chooses the schedule. -/
def cstep (K : Codec F) (C : Params F) (E : ℕ → Sched) (s : Clocked (St F r)) (o : Op F ⊕ TOp) : Outcome (Clocked (St F r)) :=
  outcome (match o with
    | .inl o => step K C (E s.clock).ln ((numBits r + 7) / 8) s.st o
    | .inr o => tstep C (E s.clock) s.st o) fun st => ⟨st, s.clock + 1⟩

/-- The same for the programs of C86. -/
def cwstep (K : Codec F) (C : Params F) (E : ℕ → Sched) (s : Clocked (WSt F r)) (o : WOp F ⊕ TOp) : Outcome (Clocked (WSt F r)) :=
  outcome (match o with
    | .inl o => wstep K C (E s.clock).ln ((numBits r + 7) / 8) s.st o
    | .inr o => outcome (tstep C (E s.clock) s.st.st o) fun st => { s.st with st := st }) fun st => ⟨st, s.clock + 1⟩

/-- The result of a comparison is put out. -/
def cemit (s : Clocked (St F r)) (b : Bool) : Clocked (St F r) := { s with st := emit s.st b }

/-- The same with strings. -/
def cwemit (s : Clocked (WSt F r)) (b : Bool) : Clocked (WSt F r) := { s with st := wemit s.st b }

end Halo2.Program

namespace Halo2.Props

open Halo2 Halo2.Field Halo2.Prime Halo2.Ext Halo2.Curve Halo2.Msm Halo2.Fft Halo2.Program

/-- **C33** The number of threads makes no difference to `best_fft`: for any operations at all, any factor, any size and any vector, the
results are the same to the last bit, and it panics for all numbers or for none. -/
theorem C33_threads {K G : Type} [CommRing K] (ops : Ops K G) (omega : K) (N : ℕ) (checks : Bool) (t1 t2 : ℕ) (h1 : t1 < 2 ^ 64)
    (h2 : t2 < 2 ^ 64) (a : List G) : bestFft ops checks t1 a omega N = bestFft ops checks t2 a omega N :=
  bestFft_threads ops omega N checks t1 t2 h1 h2 a

/-- Not a root of unity, four threads and one: the same vector. -/
example : bestFft (fieldOps ℤ) true 4 [3, 5, 7, 11] 6 2 = bestFft (fieldOps ℤ) true 1 [3, 5, 7, 11] 6 2 ∧
    bestFft (fieldOps ℤ) true 1 [3, 5, 7, 11] 6 2 = some [26, -40, -6, 32] := by decide +kernel

variable {F : Type} [Field F] [DecidableEq F] [BaseField F] [LawfulBase F] {C : Params F}
variable {r : ℕ} [Fact r.Prime] [Fact (OddModulus r)] [Fp.SmallModulus r]

/-- There is a thread, every task runs once, and the logarithm is near the real one. -/
structure _root_.Halo2.Program.Sched.Ok (e : Sched) : Prop where
  threads : 1 ≤ e.threads
  order : ∀ n, (e.order n).Perm (List.range n)
  ln : ∃ l : ℕ → ℝ, NearLog l ∧ e.ln = fun n => ⌈l n⌉₊

/-- The lengths fit; `msm_best` is called with fewer than 8104 terms (it is wrong above, C32). -/
def TOpOk : TOp → Prop
  | .msmPar _ ks l => ks.length = l.length ∧ l.length < 2 ^ 32
  | .msmBest _ ks l => ks.length = l.length ∧ l.length < 8104
  | .fftS l _ N => l.length = 2 ^ N ∧ N < 64
  | .fftP l _ N => l.length = 2 ^ N ∧ N < 64

/-- A condition on either kind of call. -/
def Either {A B : Type} (P : A → Prop) (Q : B → Prop) : A ⊕ B → Prop
  | .inl a => P a
  | .inr b => Q b

/-- The operations of a group with residues as scalars. -/
def groupOps (G : Type) [AddCommGroup G] (r : ℕ) : Ops (ZMod r) G := ⟨fun a b => a + b, fun a b => a - b, fun a k => k.val • a⟩

/-- The network of butterflies on a list. -/
def netList {K G : Type} [CommRing K] [Zero G] (ops : Ops K G) (N : ℕ) (w : K) (l : List G) : List G :=
  (List.range (2 ^ N)).map (network ops N w fun j => l.getD j 0)

/-- The meaning of a call that uses threads: there are no threads in it. -/
def atstep {G : Type} [AddCommGroup G] (t : ASt G r) : TOp → ASt G r
  | .msmPar d ks l => { t with pj := set t.pj d (List.zipWith (fun k a => (t.sc k).val • t.af a) ks l).sum }
  | .msmBest d ks l => { t with pj := set t.pj d (List.zipWith (fun k a => (t.sc k).val • t.af a) ks l).sum }
  | .fftS l w N => { t with sc := setAll t.sc l (netList (fieldOps (ZMod r)) N (t.sc w) (l.map t.sc)) }
  | .fftP l w N => { t with pj := setAll t.pj l (netList (groupOps G r) N (t.sc w) (l.map t.pj)) }

/-- The meaning of a call. -/
def acstep {G : Type} [AddCommGroup G] (V : View F G) (t : ASt G r) : Op F ⊕ TOp → ASt G r
  | .inl o => astep V t o
  | .inr o => atstep t o

/-- The meaning of a call, with strings. -/
noncomputable def acwstep {G : Type} [AddCommGroup G] (V : WView F G) (t : WASt G r) : WOp F ⊕ TOp → WASt G r
  | .inl o => wastep V t o
  | .inr o => { t with st := atstep t.st o }

/-- The meaning of a program. -/
def acrun {G : Type} [AddCommGroup G] [DecidableEq G] (V : View F G) :
    ℕ → Prog (Op F ⊕ TOp) Test → ASt G r → Option (ASt G r) :=
  pureRun (acstep V) atest aemit

/-- The meaning of a program with strings. -/
noncomputable def acwrun {G : Type} [AddCommGroup G] [DecidableEq G] (V : WView F G) :
    ℕ → Prog (WOp F ⊕ TOp) WTest → WASt G r → Option (WASt G r) :=
  pureRun (acwstep V) (watest V) waemit

/-- A program run with the functions of the model, under the schedules `E`. -/
def crun (K : Codec F) (C : Params F) (E : ℕ → Sched) :
    ℕ → Prog (Op F ⊕ TOp) Test → Clocked (St F r) → Option (Outcome (Clocked (St F r))) :=
  run (cstep K C E) (fun s c => test s.st c) cemit

/-- A program with strings, run with the functions of the model, under the schedules `E`. -/
def cwrun (K : Codec F) (C : Params F) (E : ℕ → Sched) :
    ℕ → Prog (WOp F ⊕ TOp) WTest → Clocked (WSt F r) → Option (Outcome (Clocked (WSt F r))) :=
  run (cwstep K C E) (fun s c => wtest K C s.st c) cwemit

/-- A transform of related lists. -/
theorem fft_rel {K L G M : Type} [CommRing K] [CommRing L] [Zero M] {ops : Ops K G} {ops' : Ops L M} {phi : K →+* L} {R : G → M → Prop}
    (hops : OpsSim ops ops' phi R) (omega : K) (N : ℕ) (hN : N < 64) (checks : Bool) (threads : ℕ) {f : ℕ → G} {g : ℕ → M}
    (h : ∀ i, R (f i) (g i)) (l : List ℕ) (hl : l.length = 2 ^ N) :
    ∃ b, bestFft ops checks threads (l.map f) omega N = some b ∧ List.Forall₂ R b (netList ops' N (phi omega) (l.map g)) := by
  have hL : LR R (l.map f) (2 ^ N) (fun j => (l.map g).getD j 0) := by
    refine LR.of_get (by rw [List.length_map, hl]) fun i hi => ?_
    have hi' : i < l.length := by omega
    refine ⟨f l[i], by rw [List.getElem?_map, List.getElem?_eq_getElem hi']; rfl, ?_⟩
    rw [List.getD_eq_getElem?_getD, List.getElem?_map, List.getElem?_eq_getElem hi']
    exact h _
  obtain ⟨b, e, d⟩ := bestFft_sim hops omega N hN checks threads hL
  refine ⟨b, e, ?_⟩
  rw [netList, List.forall₂_iff_get]
  refine ⟨by rw [d.length, List.length_map, List.length_range], fun i h1 h2 => ?_⟩
  obtain ⟨x, e1, hx⟩ := d.get i (by rw [← d.length]; exact h1)
  rw [List.getElem?_eq_getElem h1] at e1
  rw [List.get_eq_getElem, List.get_eq_getElem, Option.some.inj e1, List.getElem_map, List.getElem_range]
  exact hx

theorem fieldOps_sim : OpsSim (fieldOps (Fp r)) (fieldOps (ZMod r)) (Fp.equiv r).toRingHom (fun (x : Fp r) y => x.toZMod = y) :=
  ⟨fun h1 h2 => by rw [← h1, ← h2]; exact Fp.toZMod_add _ _, fun h1 h2 => by rw [← h1, ← h2]; exact Fp.toZMod_sub _ _,
    fun k h => by rw [← h]; exact Fp.toZMod_mul _ _⟩

theorem curveOps_sim (hC : Good C) : OpsSim (curveOps C r) (groupOps (Pt C) r) (Fp.equiv r).toRingHom (PRep C) :=
  ⟨fun h1 h2 => h1.add hC h2, fun h1 h2 => h1.sub hC h2, fun k h => (C23_mul (r := r) hC h ARep.identity k).1⟩

theorem _root_.Halo2.Program.Sched.Ok.lnOk {e : Sched} (he : e.Ok) : LnCeilOk e.ln := by
  obtain ⟨l, hl, hle⟩ := he.ln
  rw [hle]
  exact (C29_ln hl).1

/-- One call, under any schedule. -/
theorem tstep_sim (hC : Good C) {e : Sched} (he : e.Ok) {s : St F r} {t : ASt (Pt C) r} (h : Sim s t) (o : TOp) (ho : TOpOk o) :
    ∃ s', tstep C e s o = .ok s' ∧ Sim s' (atstep t o) := by
  obtain ⟨l, hl, hle⟩ := he.ln
  have hln := C29_ln hl
  rw [← hle] at hln
  cases o with
  | msmPar d ks l =>
    obtain ⟨R, e1, hR⟩ := C31_parallel (r := r) hC hln.1 e.threads he.threads (ks.map s.sc) (forall2_map h.af l)
      (by rw [List.length_map, List.length_map]; exact ho.1) (by rw [List.length_map]; exact ho.2)
      (e.order (numChunks e.threads l.length)) (fun _ => by rw [List.length_map]; exact he.order _)
    rw [msmValue_eq h.sc] at hR
    exact ⟨{ s with pj := set s.pj d R }, by rw [tstep, e1]; rfl, h.sc, set_rel h.pj d hR, h.af, h.out⟩
  | msmBest d ks l =>
    have hw : windowSize e.ln l.length < 10 := by
      have := hln.2.2 l.length (lt_trans ho.2 (by decide))
      have := ho.2
      omega
    obtain ⟨R, e1, hR⟩ := C32_small (r := r) hC hln.1 e.threads he.threads (ks.map s.sc) (forall2_map h.af l)
      (by rw [List.length_map, List.length_map]; exact ho.1) (by rw [List.length_map]; exact lt_trans ho.2 (by decide))
      (by rw [List.length_map]; exact hw) (e.order (numChunks e.threads l.length))
      (e.order (numBits r / windowSize e.ln l.length + 1)) (fun _ => by rw [List.length_map]; exact he.order _)
    rw [msmValue_eq h.sc] at hR
    exact ⟨{ s with pj := set s.pj d R }, by rw [tstep, e1]; rfl, h.sc, set_rel h.pj d hR, h.af, h.out⟩
  | fftS l w N =>
    obtain ⟨b, e1, hb⟩ := fft_rel (fieldOps_sim (r := r)) (s.sc w) N ho.2 e.checks e.threads h.sc l ho.1
    have hw : (Fp.equiv r).toRingHom (s.sc w) = t.sc w := h.sc w
    rw [hw] at hb
    exact ⟨{ s with sc := setAll s.sc l b }, by rw [tstep, e1]; rfl,
      setAll_rel (R := fun (x : Fp r) y => x.toZMod = y) hb h.sc l, h.pj, h.af, h.out⟩
  | fftP l w N =>
    obtain ⟨b, e1, hb⟩ := fft_rel (curveOps_sim (r := r) hC) (s.sc w) N ho.2 e.checks e.threads h.pj l ho.1
    have hw : (Fp.equiv r).toRingHom (s.sc w) = t.sc w := h.sc w
    rw [hw] at hb
    exact ⟨{ s with pj := setAll s.pj l b }, by rw [tstep, e1]; rfl, h.sc, setAll_rel hb h.pj l, h.af, h.out⟩

/-- **C92** Any program that computes with points and scalars, also through `msm_parallel`, `msm_best` and `best_fft`, does what its meaning
over the group says, in which there are no threads: whatever the number of threads and the order of the tasks at each call, it does not
panic, needs as many steps, and ends with representations of the same elements and with the same output. -/
theorem C92_meaning (K : Codec F) (hC : Good C) {E : ℕ → Sched} (hE : ∀ i, (E i).Ok) (p : Prog (Op F ⊕ TOp) Test)
    (hp : p.All (Either OpOk TOpOk)) (n : ℕ) {s : Clocked (St F r)} {t : ASt (Pt C) r} (h : Sim s.st t) :
    (acrun (ptView K C) n p t = none → crun K C E n p s = none) ∧
    (∀ t', acrun (ptView K C) n p t = some t' → ∃ s', crun K C E n p s = some (.ok s') ∧ Sim s'.st t') :=
  run_sim (step := cstep K C E) (step' := acstep (ptView K C)) (emit := cemit) (emit' := aemit) (R := fun (s : Clocked (St F r)) t => Sim s.st t)
    (fun s _ o h ho => by
      cases o with
      | inl o =>
        obtain ⟨s', e, h'⟩ := step_sim (K := K) hC (hE s.clock).lnOk h o ho
        exact ⟨⟨s', s.clock + 1⟩, by
          change outcome (step K C (E s.clock).ln ((numBits r + 7) / 8) s.st o) _ = _
          rw [e]; rfl, h'⟩
      | inr o =>
        obtain ⟨s', e, h'⟩ := tstep_sim hC (hE s.clock) h o ho
        exact ⟨⟨s', s.clock + 1⟩, by
          change outcome (tstep C (E s.clock) s.st o) _ = _
          rw [e]; rfl, h'⟩)
    (fun _ _ c h => test_sim hC h c)
    (fun _ _ b h => ⟨h.sc, h.pj, h.af, congrArg (Out.bit b :: ·) h.out⟩) p hp n h

/-- **C92** The same for programs that also encode and decode, on the curves over prime fields. -/
theorem C92_wire {K : Codec F} (hK : WireOk K C) (hC : Good C) {E : ℕ → Sched} (hE : ∀ i, (E i).Ok) (p : Prog (WOp F ⊕ TOp) WTest)
    (hp : p.All (Either WOpOk TOpOk)) (n : ℕ) {s : Clocked (WSt F r)} {t : WASt (Pt C) r} (h : WSim s.st t) :
    (acwrun (wireView K C) n p t = none → cwrun K C E n p s = none) ∧
    (∀ t', acwrun (wireView K C) n p t = some t' → ∃ s', cwrun K C E n p s = some (.ok s') ∧ WSim s'.st t') :=
  run_sim (step := cwstep K C E) (step' := acwstep (wireView K C)) (emit := cwemit) (emit' := waemit)
    (R := fun (s : Clocked (WSt F r)) t => WSim s.st t)
    (fun s _ o h ho => by
      cases o with
      | inl o =>
        obtain ⟨s', e, h'⟩ := wstep_sim hK hC (hE s.clock).lnOk h o ho
        exact ⟨⟨s', s.clock + 1⟩, by
          change outcome (wstep K C (E s.clock).ln ((numBits r + 7) / 8) s.st o) _ = _
          rw [e]; rfl, h'⟩
      | inr o =>
        obtain ⟨s', e, h'⟩ := tstep_sim hC (hE s.clock) h.st o ho
        exact ⟨⟨{ s.st with st := s' }, s.clock + 1⟩, by
          change outcome (outcome (tstep C (E s.clock) s.st.st o) _) _ = _
          rw [e]; rfl, h', h.bs, h.bytes⟩)
    (fun _ _ c h => wtest_sim hK hC h c)
    (fun _ _ b h => ⟨⟨h.st.sc, h.st.pj, h.st.af, congrArg (Out.bit b :: ·) h.st.out⟩, h.bs, h.bytes⟩) p hp n h

/-- **C92** No program can tell two machines apart: run on two machines with any numbers of threads, orders of tasks and roundings of the
logarithm, from registers that hold the same points (in whatever coordinates) and scalars, it terminates on both or on neither, with the
same scalars, affine points and output. -/
theorem C92_indistinguishable (K : Codec F) (hC : Good C) {E1 E2 : ℕ → Sched} (hE1 : ∀ i, (E1 i).Ok)
    (hE2 : ∀ i, (E2 i).Ok) (p : Prog (Op F ⊕ TOp) Test) (hp : p.All (Either OpOk TOpOk)) (n : ℕ) {s1 s2 : Clocked (St F r)}
    (hs : s1.st.sc = s2.st.sc) (ho : s1.st.out = [] ∧ s2.st.out = [])
    (hP : ∀ i, ∃ q, PRep C (s1.st.pj i) q ∧ PRep C (s2.st.pj i) q)
    (hA : ∀ i, ∃ q, ARep C (s1.st.af i) q ∧ ARep C (s2.st.af i) q) :
    (crun K C E1 n p s1 = none ∧ crun K C E2 n p s2 = none) ∨
    ∃ u1 u2, crun K C E1 n p s1 = some (.ok u1) ∧ crun K C E2 n p s2 = some (.ok u2) ∧ u1.st.out = u2.st.out ∧
      u1.st.sc = u2.st.sc ∧ u1.st.af = u2.st.af ∧ ∀ i, ∃ q, PRep C (u1.st.pj i) q ∧ PRep C (u2.st.pj i) q := by
  choose P hP1 hP2 using hP
  choose A hA1 hA2 using hA
  let t : ASt (Pt C) r := ⟨fun i => (s1.st.sc i).toZMod, P, A, []⟩
  have h1 : Sim s1.st t := ⟨fun _ => rfl, hP1, hA1, ho.1⟩
  have h2 : Sim s2.st t := ⟨fun i => by rw [← hs], hP2, hA2, ho.2⟩
  have m1 := C92_meaning K hC hE1 p hp n h1
  have m2 := C92_meaning K hC hE2 p hp n h2
  cases e : acrun (ptView K C) n p t with
  | none => exact Or.inl ⟨m1.1 e, m2.1 e⟩
  | some t' =>
    obtain ⟨u1, e1, k1⟩ := m1.2 t' e
    obtain ⟨u2, e2, k2⟩ := m2.2 t' e
    refine Or.inr ⟨u1, u2, e1, e2, k1.out.trans k2.out.symm,
      funext fun i => Fp.toZMod_injective ((k1.sc i).trans (k2.sc i).symm), funext fun i => ?_,
      fun i => ⟨_, k1.pj i, k2.pj i⟩⟩
    rw [affOf_eq hC (k1.af i), affOf_eq hC (k2.af i)]

/-- **C92** The same for programs that also encode and decode, on the curves over prime fields. -/
theorem C92_wire_indistinguishable {K : Codec F} (hK : WireOk K C) (hC : Good C) {E1 E2 : ℕ → Sched} (hE1 : ∀ i, (E1 i).Ok)
    (hE2 : ∀ i, (E2 i).Ok) (p : Prog (WOp F ⊕ TOp) WTest) (hp : p.All (Either WOpOk TOpOk)) (n : ℕ) {s1 s2 : Clocked (WSt F r)}
    (hs : s1.st.st.sc = s2.st.st.sc) (ho : s1.st.st.out = [] ∧ s2.st.st.out = [])
    (hbs : s1.st.bs = s2.st.bs) (hby : ∀ i, IsBytes (s1.st.bs i))
    (hP : ∀ i, ∃ q, PRep C (s1.st.st.pj i) q ∧ PRep C (s2.st.st.pj i) q)
    (hA : ∀ i, ∃ q, ARep C (s1.st.st.af i) q ∧ ARep C (s2.st.st.af i) q) :
    (cwrun K C E1 n p s1 = none ∧ cwrun K C E2 n p s2 = none) ∨
    ∃ u1 u2, cwrun K C E1 n p s1 = some (.ok u1) ∧ cwrun K C E2 n p s2 = some (.ok u2) ∧ u1.st.st.out = u2.st.st.out ∧
      u1.st.bs = u2.st.bs ∧ u1.st.st.sc = u2.st.st.sc ∧ u1.st.st.af = u2.st.st.af ∧
      ∀ i, ∃ q, PRep C (u1.st.st.pj i) q ∧ PRep C (u2.st.st.pj i) q := by
  choose P hP1 hP2 using hP
  choose A hA1 hA2 using hA
  let t : WASt (Pt C) r := ⟨⟨fun i => (s1.st.st.sc i).toZMod, P, A, []⟩, s1.st.bs⟩
  have h1 : WSim s1.st t := ⟨⟨fun _ => rfl, hP1, hA1, ho.1⟩, rfl, hby⟩
  have h2 : WSim s2.st t := ⟨⟨fun i => by rw [← hs], hP2, hA2, ho.2⟩, hbs.symm, hbs ▸ hby⟩
  have m1 := C92_wire hK hC hE1 p hp n h1
  have m2 := C92_wire hK hC hE2 p hp n h2
  cases e : acwrun (wireView K C) n p t with
  | none => exact Or.inl ⟨m1.1 e, m2.1 e⟩
  | some t' =>
    obtain ⟨u1, e1, k1⟩ := m1.2 t' e
    obtain ⟨u2, e2, k2⟩ := m2.2 t' e
    refine Or.inr ⟨u1, u2, e1, e2, k1.st.out.trans k2.st.out.symm, k1.bs.trans k2.bs.symm,
      funext fun i => Fp.toZMod_injective ((k1.st.sc i).trans (k2.st.sc i).symm), funext fun i => ?_,
      fun i => ⟨_, k1.st.pj i, k2.st.pj i⟩⟩
    rw [affOf_eq hC (k1.st.af i), affOf_eq hC (k2.st.af i)]

/-- A network of a module is its Fourier transform when `w` halves to `-1`. -/
theorem network_dft {K M : Type} [CommRing K] [AddCommGroup M] [Module K M] (ops : Ops K M) (ha : ∀ x y, ops.add x y = x + y)
    (hs : ∀ x y, ops.sub x y = x - y) (hm : ∀ x k, ops.smul x k = k • x) (N : ℕ) (w : K) (hw : 1 ≤ N → w ^ 2 ^ (N - 1) = -1) (f : ℕ → M)
    (i : ℕ) (hi : i < 2 ^ N) : network ops N w f i = dft (2 ^ N) w f i := by
  induction N generalizing w f i with
  | zero =>
    obtain rfl : i = 0 := by rw [pow_zero] at hi; omega
    simp [network, dft]
  | succ N ih =>
    have h1 : w ^ 2 ^ N = -1 := by simpa using hw (by omega)
    have ih : ∀ (f : ℕ → M) i, i < 2 ^ N → network ops N (w ^ 2) f i = dft (2 ^ N) (w ^ 2) f i := fun f i hi =>
      ih (w ^ 2) (fun hN => by rw [← pow_mul, ← h1]; congr 1; rw [← pow_succ', Nat.sub_add_cancel hN]) f i hi
    have t : ∀ j v, tmul ops w j v = w ^ j • v := by
      intro j v
      rw [tmul]
      split
      · rename_i h0; rw [h0, pow_zero, one_smul]
      · exact hm _ _
    rw [network, show 2 ^ (N + 1) = 2 * 2 ^ N by ring]
    split
    · rename_i h; rw [ha, t, ih _ _ h, ih _ _ h, dft_split]
    · rename_i h
      obtain ⟨k, rfl⟩ := Nat.exists_eq_add_of_le (Nat.le_of_not_lt h)
      rw [Nat.add_sub_cancel_left, hs, t, ih _ _ (by rw [pow_succ] at hi; omega), ih _ _ (by rw [pow_succ] at hi; omega), dft_split' _ _ h1]

/-- **C92** What the meaning of the transforms is: with a factor of order `2 ^ N`, the scalars `∑ aⱼ wⁱʲ`; and for elements killed by `r` of
any group, the elements `∑ wⁱʲ • gⱼ`. -/
theorem C92_transform (N : ℕ) (w : ZMod r) (hw : IsPrimitiveRoot w (2 ^ N)) :
    (∀ a : List (ZMod r), netList (fieldOps (ZMod r)) N w a =
      (List.range (2 ^ N)).map fun i => ∑ j ∈ Finset.range (2 ^ N), a.getD j 0 * w ^ (i * j)) ∧
    (∀ (G : Type) [AddCommGroup G] (_ : ∀ g : G, r • g = 0) (a : List G), netList (groupOps G r) N w a =
      (List.range (2 ^ N)).map fun i => ∑ j ∈ Finset.range (2 ^ N), (w ^ (i * j)).val • a.getD j 0) := by
  constructor
  · intro a
    rw [netList]
    refine List.map_congr_left fun i hi => ?_
    rw [network_dft (fieldOps (ZMod r)) (fun _ _ => rfl) (fun _ _ => rfl) (fun _ _ => mul_comm _ _) N w (half_pow hw) _ i
      (List.mem_range.mp hi), dft]
    exact Finset.sum_congr rfl fun j _ => mul_comm _ _
  · intro G _ hG a
    let _ : Module (ZMod r) G := AddCommGroup.zmodModule hG
    have hsm : ∀ (k : ZMod r) (g : G), k • g = k.val • g := by
      intro k g
      have : NeZero r := ⟨(Fact.out : r.Prime).ne_zero⟩
      conv_lhs => rw [← ZMod.natCast_zmod_val k]
      exact Nat.cast_smul_eq_nsmul (ZMod r) _ _
    rw [netList]
    refine List.map_congr_left fun i hi => ?_
    rw [network_dft (groupOps G r) (fun _ _ => rfl) (fun _ _ => rfl) (fun x k => (hsm k x).symm) N w (half_pow hw) _ i
      (List.mem_range.mp hi), dft]
    exact Finset.sum_congr rfl fun j _ => hsm _ _

theorem sched_ok (m : ℕ) (hm : 1 ≤ m) (b : Bool) : (⟨m, fun n => (List.range n).reverse, fun n => ⌈Real.log n⌉₊, b⟩ : Sched).Ok :=
  ⟨hm, fun _ => List.reverse_perm _, fun n => Real.log n, fun n _ _ => by rw [sub_self, abs_zero]; positivity, rfl⟩

/-- Programs with all four calls, on secp256r1, run with three threads, the tasks backwards, and with one thread: C92 is not vacuous. -/
example : ∃ (p : Prog (WOp (Fp r1P) ⊕ TOp) WTest) (s : Clocked (WSt (Fp r1P) r1N)) (t : WASt (Pt Secp256r1.c) r1N) (E1 E2 : ℕ → Sched),
    p.All (Either WOpOk TOpOk) ∧ WSim s.st t ∧ WireOk Secp256r1.cCodec Secp256r1.c ∧ (∀ i, (E1 i).Ok) ∧ (∀ i, (E2 i).Ok) ∧ E1 ≠ E2 ∧
    t.st.pj 0 ≠ 0 := by
  obtain ⟨_, g, hg, h0⟩ := C21_generators.2.2.2.2.2.2.2.2.2.2
  refine ⟨.seq (.op (.inl (.base (.aFromProj 0 0)))) (.seq (.op (.inr (.msmPar 1 [0, 1, 2] [0, 0, 1])))
      (.seq (.op (.inr (.fftP [0, 1, 2, 3] 0 2))) (.seq (.op (.inr (.fftS [0, 1] 1 1))) (.seq (.op (.inr (.msmBest 2 [0, 1] [0, 0])))
        (.seq (.op (.inl (.base (.aFromProj 0 2)))) (.op (.inl (.enc 1 0)))))))),
    ⟨⟨⟨fun _ => 5, fun _ => Aff.toCurve Secp256r1.cGen, fun _ => Aff.identity, []⟩, fun _ => []⟩, 0⟩,
    ⟨⟨fun _ => (5 : Fp r1N).toZMod, fun _ => g, fun _ => 0, []⟩, fun _ => []⟩,
    fun _ => ⟨3, fun n => (List.range n).reverse, fun n => ⌈Real.log n⌉₊, true⟩,
    fun _ => ⟨1, fun n => (List.range n).reverse, fun n => ⌈Real.log n⌉₊, false⟩, ?_,
    ⟨⟨fun _ => rfl, fun _ => hg.toCurve Secp256r1.c_good, fun _ => .identity, rfl⟩, rfl, fun _ _ h => by cases h⟩,
    C86_shipped.2.2.2.2.2.2.2, fun _ => sched_ok 3 (by decide) _, fun _ => sched_ok 1 (by decide) _, ?_, h0⟩
  · simp only [Prog.All, Either, TOpOk, WOpOk, OpOk, and_true, List.length_cons, List.length_nil, true_and]
    decide
  · intro e
    have := congrArg Sched.threads (congrFun e 0)
    exact absurd this (by decide)

/-- A program on G2 of bls12381, whose transform has the factor `-1`. -/
example : ∃ (p : Prog (Op Bls12381.Fq2 ⊕ TOp) Test) (s : Clocked (St Bls12381.Fq2 blsR)) (t : ASt (Pt Bls12381.g2) blsR),
    p.All (Either OpOk TOpOk) ∧ Sim s.st t ∧ t.pj 0 ≠ 0 ∧ t.sc 0 = -1 := by
  obtain ⟨_, g, hg, h0⟩ := C21_generators.2.2.2.2.1
  refine ⟨.seq (.op (.inr (.fftP [0, 1] 0 1))) (.out (.eqP 0 1)),
    ⟨⟨fun _ => Fp.neg Fp.one, fun _ => Aff.toCurve Bls12381.g2Gen, fun _ => Aff.identity, []⟩, 0⟩,
    ⟨fun _ => -1, fun _ => g, fun _ => 0, []⟩, ?_,
    ⟨fun _ => by rw [Fp.toZMod_neg, Fp.toZMod_one], fun _ => hg.toCurve Bls12381.g2_good, fun _ => .identity, rfl⟩, h0, rfl⟩
  simp only [Prog.All, Either, TOpOk, List.length_cons, List.length_nil, and_true]
  decide

end Halo2.Props
