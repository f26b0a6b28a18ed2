import Verif.Fft.Lemmas

/-!
# The transform for an arbitrary factor

`best_fft` does the same additions, subtractions and multiplications in its iterative and in its recursive version, whatever the
operations are and whatever `omega` is.
-/

set_option linter.unusedSectionVars false

namespace Halo2.Fft

open Halo2.Msm

variable {K L G M : Type} [CommRing K] [CommRing L]

/-- Multiplication by `w ^ j`, left out for `j = 0`. -/
def tmul (ops : Ops L M) (w : L) (j : ℕ) (v : M) : M := if j = 0 then v else ops.smul v (w ^ j)

/-- Entry `i` of the network of butterflies of size `2 ^ k`: the networks of the entries with even and with odd indices, with factor
`w ^ 2`, are joined. -/
def network (ops : Ops L M) : ℕ → L → (ℕ → M) → ℕ → M
  | 0, _, f, i => f i
  | k + 1, w, f, i =>
    if i < 2 ^ k then
      ops.add (network ops k (w ^ 2) (fun j => f (2 * j)) i) (tmul ops w i (network ops k (w ^ 2) (fun j => f (2 * j + 1)) i))
    else
      ops.sub (network ops k (w ^ 2) (fun j => f (2 * j)) (i - 2 ^ k))
        (tmul ops w (i - 2 ^ k) (network ops k (w ^ 2) (fun j => f (2 * j + 1)) (i - 2 ^ k)))

/-- The operations respect the relation `R`; scalars are mapped by `phi`. -/
structure OpsSim (ops : Ops K G) (ops' : Ops L M) (phi : K →+* L) (R : G → M → Prop) : Prop where
  add : ∀ {a b x y}, R a x → R b y → R (ops.add a b) (ops'.add x y)
  sub : ∀ {a b x y}, R a x → R b y → R (ops.sub a b) (ops'.sub x y)
  smul : ∀ {a x} (k : K), R a x → R (ops.smul a k) (ops'.smul x (phi k))

variable {ops : Ops K G} {ops' : Ops L M} {phi : K →+* L} {R : G → M → Prop}

theorem br_halves {l : List G} {k : ℕ} {f : ℕ → M} (h : BR R l (k + 1) f) :
    BR R (l.take (2 ^ k)) k (fun j => f (2 * j)) ∧ BR R (l.drop (2 ^ k)) k (fun j => f (2 * j + 1)) := by
  rw [BR, pow_succ, mul_two] at h
  refine ⟨h.take.congr ?_, h.drop.congr ?_⟩
  · intro i hi; dsimp only; rw [(rev_top k i hi).1]
  · intro i hi; dsimp only; rw [(rev_top k i hi).2]

theorem bfLoop_sim (hops : OpsSim ops ops' phi R) (tw : List K) (tc m i : ℕ) {left right : List G} {u v : ℕ → M} (c : ℕ → K)
    (hl : LR R left m u) (hr : LR R right m v) (ht : ∀ j < m, tw[(i + j + 1) * tc]? = some (c j)) :
    ∃ r, bfLoop ops tw tc i left right = some r ∧ LR R r.1 m (fun j => ops'.add (u j) (ops'.smul (v j) (phi (c j)))) ∧
      LR R r.2 m (fun j => ops'.sub (u j) (ops'.smul (v j) (phi (c j)))) := by
  induction m generalizing i left right u v c with
  | zero =>
    cases left with
    | cons _ _ => exact absurd hl (by simp [LR])
    | nil => cases right with
      | cons _ _ => exact absurd hr (by simp [LR])
      | nil => exact ⟨([], []), by rw [bfLoop]; simp, trivial, trivial⟩
  | succ m ih =>
    cases left with
    | nil => exact absurd hl (by simp [LR])
    | cons a left => cases right with
      | nil => exact absurd hr (by simp [LR])
      | cons b right =>
        obtain ⟨r, e, h1, h2⟩ := ih (i + 1) (fun j => c (j + 1)) hl.2 hr.2 (fun j hj => by
          rw [show i + 1 + j + 1 = i + (j + 1) + 1 by omega]; exact ht (j + 1) (by omega))
        have h0 := ht 0 (by omega)
        rw [Nat.add_zero] at h0
        have hs := hops.smul (c 0) hr.1
        refine ⟨(ops.add a (ops.smul b (c 0)) :: r.1, ops.sub a (ops.smul b (c 0)) :: r.2), ?_, ⟨hops.add hl.1 hs, h1⟩,
          ⟨hops.sub hl.1 hs, h2⟩⟩
        rw [bfLoop, h0]
        dsimp only
        rw [e]

theorem butterfly_sim (hops : OpsSim ops ops' phi R) (tw : List K) (tc k : ℕ) {left right : List G} {f : ℕ → M}
    (w : K) (hl : LR R left (2 ^ k) (network ops' k (phi w ^ 2) (fun j => f (2 * j))))
    (hr : LR R right (2 ^ k) (network ops' k (phi w ^ 2) (fun j => f (2 * j + 1))))
    (ht : ∀ j, 1 ≤ j → j < 2 ^ k → tw[j * tc]? = some (w ^ j)) :
    ∃ l, butterfly ops tw tc left right = some l ∧ LR R l (2 ^ (k + 1)) (network ops' (k + 1) (phi w) f) := by
  have h2 : 2 ^ (k + 1) = 2 ^ k + 2 ^ k := by rw [pow_succ]; omega
  obtain ⟨m, hm⟩ : ∃ m, 2 ^ k = m + 1 := ⟨2 ^ k - 1, by have : 1 ≤ 2 ^ k := Nat.one_le_two_pow; omega⟩
  rw [hm] at hl hr
  cases left with
  | nil => exact absurd hl (by simp [LR])
  | cons a left => cases right with
    | nil => exact absurd hr (by simp [LR])
    | cons b right =>
      obtain ⟨r, e, h1, h2'⟩ := bfLoop_sim hops tw tc m 0 (fun j => w ^ (j + 1)) hl.2 hr.2 (fun j hj => by
        rw [Nat.zero_add]; exact ht (j + 1) (by omega) (by omega))
      refine ⟨_, by rw [butterfly, e], ?_⟩
      rw [h2]
      generalize hE : network ops' k (phi w ^ 2) (fun j => f (2 * j)) = E at *
      generalize hO : network ops' k (phi w ^ 2) (fun j => f (2 * j + 1)) = O at *
      have hn : ∀ i, network ops' (k + 1) (phi w) f i = if i < 2 ^ k then ops'.add (E i) (tmul ops' (phi w) i (O i)) else
          ops'.sub (E (i - 2 ^ k)) (tmul ops' (phi w) (i - 2 ^ k) (O (i - 2 ^ k))) := by
        intro i
        rw [network, hE, hO]
      apply LR.append
      · rw [hm]
        refine LR.congr (u := fun j => ops'.add (E j) (tmul ops' (phi w) j (O j))) ⟨?_, h1.congr ?_⟩ ?_
        · dsimp only; rw [tmul, if_pos rfl]; exact hops.add hl.1 hr.1
        · intro i _
          dsimp only
          rw [tmul, if_neg (by omega), map_pow]
        · intro i hi
          rw [hn, if_pos (by omega)]
      · rw [hm]
        refine LR.congr (u := fun j => ops'.sub (E j) (tmul ops' (phi w) j (O j))) ⟨?_, h2'.congr ?_⟩ ?_
        · dsimp only; rw [tmul, if_pos rfl]; exact hops.sub hl.1 hr.1
        · intro i _
          dsimp only
          rw [tmul, if_neg (by omega), map_pow]
        · intro i hi
          rw [hn, if_neg (by omega), hm, Nat.add_sub_cancel_left]

/-- The recursive version. -/
theorem recBf_sim (hops : OpsSim ops ops' phi R) (omega : K) (N k t fuel : ℕ) (hN : k + 1 + t = N)
    (hf : k < fuel) {l : List G} {f : ℕ → M} (h : BR R l (k + 1) f) :
    ∃ l', recBf ops (twiddles omega (2 ^ N / 2)) fuel l (2 ^ (k + 1)) (2 ^ t) = some l' ∧
      LR R l' (2 ^ (k + 1)) (network ops' (k + 1) (phi (omega ^ 2 ^ t)) f) := by
  induction k generalizing t fuel l f with
  | zero =>
    obtain ⟨fuel, rfl⟩ : ∃ n, fuel = n + 1 := ⟨fuel - 1, by omega⟩
    have hl := h.length
    match l, hl, h with
    | [a0, a1], _, h =>
      obtain ⟨g0, g1, _⟩ := h
      refine ⟨[ops.add a0 a1, ops.sub a0 a1], by rw [recBf, if_pos (by rfl)]; rfl, ?_⟩
      exact ⟨hops.add g0 g1, hops.sub g0 g1, trivial⟩
  | succ k ih =>
    obtain ⟨fuel, rfl⟩ : ∃ n, fuel = n + 1 := ⟨fuel - 1, by omega⟩
    have hp : 2 ^ (k + 1 + 1) / 2 = 2 ^ (k + 1) := by rw [pow_succ 2 (k + 1)]; omega
    have hk : 1 ≤ 2 ^ k := Nat.one_le_two_pow
    have hl := h.length
    obtain ⟨h1, h2⟩ := br_halves h
    obtain ⟨l1, e1, d1⟩ := ih (t + 1) fuel (by omega) (by omega) h1
    obtain ⟨l2, e2, d2⟩ := ih (t + 1) fuel (by omega) (by omega) h2
    have hsq : phi (omega ^ 2 ^ (t + 1)) = phi (omega ^ 2 ^ t) ^ 2 := by rw [← map_pow, ← pow_mul, pow_succ]
    rw [hsq] at d1 d2
    obtain ⟨l', e, d⟩ := butterfly_sim hops (twiddles omega (2 ^ N / 2)) (2 ^ t) (k + 1) (f := f)
      (omega ^ 2 ^ t) d1 d2 (fun j _ hj => by
        rw [twiddles_get]
        · rw [← pow_mul, mul_comm]
        · have : 2 ^ N / 2 = 2 ^ (k + 1) * 2 ^ t := by
            rw [← hN, ← pow_add, show k + 1 + 1 + t = (k + 1 + t) + 1 by omega, pow_succ 2 (k + 1 + t)]; omega
          rw [this]
          exact Nat.mul_lt_mul_of_pos_right hj (Nat.pos_of_ne_zero (by positivity)))
    refine ⟨l', ?_, d⟩
    rw [recBf, if_neg (by rw [pow_succ, pow_succ]; omega), hp, if_neg (by rw [hl, pow_succ 2 (k + 1)]; omega), ← pow_succ, e1, e2]
    exact e

/-- `l` is the concatenation of `2^k` networks of size `2^s` of the interleaved parts of `f`, in bit-reversed order. -/
def NPart (R : G → M → Prop) (ops' : Ops L M) (w : L) (s : ℕ) : ℕ → List G → (ℕ → M) → Prop
  | 0, l, f => LR R l (2 ^ s) (network ops' s w f)
  | k + 1, l, f => ∃ l1 l2, l = l1 ++ l2 ∧ NPart R ops' w s k l1 (fun j => f (2 * j)) ∧ NPart R ops' w s k l2 (fun j => f (2 * j + 1))

theorem NPart.length {w : L} {s k : ℕ} {l : List G} {f : ℕ → M} (h : NPart R ops' w s k l f) : l.length = 2 ^ k * 2 ^ s := by
  induction k generalizing l f with
  | zero => rw [LR.length h]; ring
  | succ k ih =>
    obtain ⟨l1, l2, rfl, h1, h2⟩ := h
    rw [List.length_append, ih h1, ih h2]; ring

theorem BR.npart {w : L} {k : ℕ} {l : List G} {f : ℕ → M} (h : BR R l k f) : NPart R ops' w 0 k l f := by
  induction k generalizing l f with
  | zero =>
    refine LR.congr h ?_
    intro i hi
    rw [pow_zero] at hi
    obtain rfl : i = 0 := by omega
    rfl
  | succ k ih =>
    obtain ⟨h1, h2⟩ := br_halves h
    exact ⟨_, _, (List.take_append_drop _ _).symm, ih h1, ih h2⟩

theorem round_sim (hops : OpsSim ops ops' phi R) (tw : List K) (tc s k : ℕ) (w : K)
    (ht : ∀ j, 1 ≤ j → j < 2 ^ s → tw[j * tc]? = some (w ^ j)) {l : List G} {f : ℕ → M} (h : NPart R ops' (phi w ^ 2) s (k + 1) l f) :
    ∃ cs, (chunks (2 ^ (s + 1)) l).mapM (chunkStep ops tw (2 ^ (s + 1)) tc) = some cs ∧ NPart R ops' (phi w) (s + 1) k cs.flatten f := by
  have hp : 2 ^ (s + 1) / 2 = 2 ^ s := by rw [pow_succ]; omega
  have h1s : 1 ≤ 2 ^ (s + 1) := Nat.one_le_two_pow
  have hs1 : 1 ≤ 2 ^ s := Nat.one_le_two_pow
  induction k generalizing l f with
  | zero =>
    obtain ⟨l1, l2, rfl, h1, h2⟩ := h
    have e1 := LR.length h1
    have e2 := LR.length h2
    have el : (l1 ++ l2).length = 2 ^ (s + 1) := by rw [List.length_append, e1, e2, pow_succ]; ring
    have hne : l1 ++ l2 ≠ [] := by intro h0; rw [h0] at el; simp at el; omega
    obtain ⟨l', e, d⟩ := butterfly_sim hops tw tc s (f := f) w h1 h2 ht
    refine ⟨[l'], ?_, ?_⟩
    · rw [chunks_step _ h1s _ hne, List.take_of_length_le (by omega), List.drop_of_length_le (by omega)]
      have : chunkStep ops tw (2 ^ (s + 1)) tc (l1 ++ l2) = some l' := by
        rw [chunkStep, hp, if_neg (by rw [el, pow_succ]; omega), List.take_left' e1, List.drop_left' e1]
        exact e
      rw [List.mapM_cons, this]
      rfl
    · rw [List.flatten_cons, List.flatten_nil, List.append_nil, NPart]
      exact d
  | succ k ih =>
    obtain ⟨l1, l2, rfl, h1, h2⟩ := h
    obtain ⟨c1, e1, d1⟩ := ih h1
    obtain ⟨c2, e2, d2⟩ := ih h2
    refine ⟨c1 ++ c2, ?_, ?_⟩
    · rw [chunks_block _ h1s (2 ^ k) l1 l2 (by rw [h1.length, pow_succ, pow_succ]; ring)]
      exact mapM_append' _ _ _ _ _ e1 e2
    · rw [List.flatten_append]
      exact ⟨_, _, rfl, d1, d2⟩

theorem rounds_sim (hops : OpsSim ops ops' phi R) (omega : K) (N : ℕ) (s : ℕ) (hs : s ≤ N)
    {l : List G} {f : ℕ → M} (h : BR R l N f) :
    ∃ l', (List.range s).foldlM (fun st _ => roundStep ops (twiddles omega (2 ^ N / 2)) st) (l, 2, 2 ^ N / 2)
        = some (l', 2 ^ (s + 1), 2 ^ N / 2 / 2 ^ s) ∧ NPart R ops' (phi (omega ^ 2 ^ (N - s))) s (N - s) l' f := by
  induction s with
  | zero => exact ⟨l, by simp, h.npart⟩
  | succ s ih =>
    obtain ⟨l', e, d⟩ := ih (by omega)
    obtain ⟨k, hk⟩ : ∃ k, N - s = k + 1 := ⟨N - s - 1, by omega⟩
    have hk' : N - (s + 1) = k := by omega
    have hN : 2 ^ N / 2 = 2 ^ k * 2 ^ s := by
      rw [show N = k + s + 1 by omega, pow_succ, ← pow_add]; omega
    have htc : 2 ^ N / 2 / 2 ^ s = 2 ^ k := by rw [hN, Nat.mul_div_cancel _ (Nat.pos_of_ne_zero (by positivity))]
    rw [hk, show phi (omega ^ 2 ^ (k + 1)) = phi (omega ^ 2 ^ k) ^ 2 by rw [← map_pow, ← pow_mul, pow_succ]] at d
    obtain ⟨cs, ec, dc⟩ := round_sim hops (twiddles omega (2 ^ N / 2)) (2 ^ k) s k (omega ^ 2 ^ k)
      (fun j _ hj => by
        rw [twiddles_get]
        · rw [← pow_mul, mul_comm]
        · rw [hN, mul_comm]; exact Nat.mul_lt_mul_of_pos_left hj (Nat.pos_of_ne_zero (by positivity))) d
    refine ⟨cs.flatten, ?_, by rw [hk']; exact dc⟩
    rw [List.range_succ, List.foldlM_append, e]
    change (List.foldlM (fun st _ => roundStep ops (twiddles omega (2 ^ N / 2)) st) (l', 2 ^ (s + 1), 2 ^ N / 2 / 2 ^ s) [s]) = _
    rw [List.foldlM_cons, roundStep]
    dsimp only
    rw [htc, ec]
    change some (cs.flatten, 2 ^ (s + 1) * 2, 2 ^ k / 2) = _
    rw [pow_succ 2 (s + 1), pow_succ 2 s, ← Nat.div_div_eq_div_mul, htc]

/-- `best_fft` computes the network, for every factor and number of threads. -/
theorem bestFft_sim (hops : OpsSim ops ops' phi R) (omega : K) (N : ℕ) (hN : N < 64)
    (checks : Bool) (threads : ℕ) {a : List G} {f : ℕ → M} (h : LR R a (2 ^ N) f) :
    ∃ b, bestFft ops checks threads a omega N = some b ∧ LR R b (2 ^ N) (network ops' N (phi omega) f) := by
  have hl := h.length
  obtain ⟨b, e, hb, hi⟩ := reorder_spec N (by omega) a hl
  have hB : BR R b N f := by
    refine LR.of_get hb ?_
    intro i h0
    rw [hi i h0]
    exact h.get _ (rev_lt N i)
  rw [bestFft, if_neg (by simp; omega), if_neg (by rw [hl, Nat.mod_eq_of_lt hN, Nat.one_shiftLeft]; exact fun h => h rfl), e]
  dsimp only
  rw [hb]
  by_cases ht : N ≤ Nat.log2 threads
  · rw [if_pos ht]
    obtain ⟨l', e', d⟩ := rounds_sim hops omega N N (le_refl _) hB
    rw [e']
    rw [Nat.sub_self, pow_zero, pow_one] at d
    exact ⟨l', rfl, d⟩
  · rw [if_neg ht]
    obtain ⟨k, rfl⟩ : ∃ k, N = k + 1 := ⟨N - 1, by omega⟩
    obtain ⟨l', e', d⟩ := recBf_sim hops omega (k + 1) k 0 (2 ^ (k + 1)) rfl
      (lt_trans (Nat.lt_succ_self k) Nat.lt_two_pow_self) hB
    rw [pow_zero] at e'
    rw [pow_zero, pow_one] at d
    exact ⟨l', e', d⟩

theorem LR.eq {l l' : List G} {n : ℕ} {u : ℕ → G} (h : LR Eq l n u) (h' : LR Eq l' n u) : l = l' := by
  apply List.ext_getElem (h.length.trans h'.length.symm)
  intro i h1 h2
  obtain ⟨x, e, hx⟩ := h.get i (by rw [← h.length]; exact h1)
  obtain ⟨y, e', hy⟩ := h'.get i (by rw [← h.length]; exact h1)
  rw [List.getElem?_eq_getElem h1] at e
  rw [List.getElem?_eq_getElem h2] at e'
  rw [Option.some.inj e, Option.some.inj e', hx, hy]

/-- The number of threads (a `usize`) makes no difference, whatever the operations are. -/
theorem bestFft_threads (ops : Ops K G) (omega : K) (N : ℕ) (checks : Bool) (t1 t2 : ℕ) (h1 : t1 < 2 ^ 64) (h2 : t2 < 2 ^ 64) (a : List G) :
    bestFft ops checks t1 a omega N = bestFft ops checks t2 a omega N := by
  by_cases hN : N < 64
  · by_cases ha : a.length = 2 ^ N
    · have hops : OpsSim ops ops (RingHom.id K) (Eq : G → G → Prop) :=
        ⟨fun h h' => by rw [h, h'], fun h h' => by rw [h, h'], fun k h => by rw [h]; rfl⟩
      cases a with
      | nil => exact absurd ha.symm (Nat.pos_of_ne_zero (by positivity)).ne'
      | cons x a =>
        have hL : LR Eq (x :: a) (2 ^ N) (fun j => (x :: a).getD j x) := LR.of_get ha fun i hi =>
          ⟨(x :: a).getD i x, by
            rw [List.getD_eq_getElem?_getD, List.getElem?_eq_getElem (by omega)]; rfl, rfl⟩
        obtain ⟨b1, e1, d1⟩ := bestFft_sim hops omega N hN checks t1 hL
        obtain ⟨b2, e2, d2⟩ := bestFft_sim hops omega N hN checks t2 hL
        rw [e1, e2, d1.eq d2]
    · rw [bestFft_panic _ _ _ _ _ ha (Or.inr hN), bestFft_panic _ _ _ _ _ ha (Or.inr hN)]
  · have hlog : ∀ t < 2 ^ 64, ¬ N ≤ Nat.log2 t := by
      intro t ht hle
      have h64 : Nat.log2 t < 64 := by
        by_cases h0 : t = 0
        · subst h0; decide
        · exact (Nat.log2_lt h0).mpr ht
      omega
    rw [bestFft, bestFft]
    simp only [if_neg (hlog t1 h1), if_neg (hlog t2 h2)]

end Halo2.Fft
