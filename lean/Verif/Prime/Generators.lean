import Verif.Prime.Pocklington
import Mathlib.Data.Nat.ModEq
import Mathlib.Data.Nat.ChineseRemainder

/-!
# Generators of multiplicative groups

Factorisations of `p - 1` with certificates of the prime factors, and the order of an element from them.
-/

namespace Halo2.Prime

/-- Certificates of the prime factors of `p - 1` for the ten moduli, in dependency order. -/
def groupCert : List Cert := [
  ⟨5501,
    [(5, 3, 2)]⟩,
  ⟨11003,
    [(5501, 1, 2)]⟩,
  ⟨3691,
    [(2, 1, 2), (3, 2, 2), (5, 1, 2)]⟩,
  ⟨405928799,
    [(11, 1, 2), (3691, 1, 2)]⟩,
  ⟨327599,
    [(19, 1, 2), (37, 1, 2)]⟩,
  ⟨11465965001,
    [(327599, 1, 2)]⟩,
  ⟨1853641,
    [(2, 3, 7), (3, 2, 2), (19, 1, 2)]⟩,
  ⟨4562087,
    [(2, 1, 5), (17, 1, 2), (109, 1, 2)]⟩,
  ⟨2221,
    [(2, 2, 2), (3, 1, 2), (5, 1, 2)]⟩,
  ⟨13327,
    [(2221, 1, 2)]⟩,
  ⟨173171039,
    [(13327, 1, 2)]⟩,
  ⟨13427688667394608761327070753331941386769,
    [(1853641, 1, 2), (4562087, 1, 2), (173171039, 1, 2)]⟩,
  ⟨237073,
    [(2, 4, 5), (3, 1, 3), (11, 1, 2)]⟩,
  ⟨12048837557,
    [(2, 2, 2), (7, 2, 2), (661, 1, 2)]⟩,
  ⟨5156902474397,
    [(12048837557, 1, 2)]⟩,
  ⟨1670836401704629,
    [(5156902474397, 1, 2)]⟩,
  ⟨639533339,
    [(229, 1, 2), (853, 1, 2)]⟩,
  ⟨65865678001877903,
    [(639533339, 1, 2)]⟩,
  ⟨13818364434197438864469338081,
    [(65865678001877903, 1, 2)]⟩,
  ⟨10177,
    [(2, 6, 5), (3, 1, 2)]⟩,
  ⟨47737,
    [(3, 3, 3), (13, 1, 2)]⟩,
  ⟨859267,
    [(47737, 1, 2)]⟩,
  ⟨609743,
    [(2, 1, 5), (7, 1, 2), (97, 1, 2)]⟩,
  ⟨52437899,
    [(609743, 1, 2)]⟩,
  ⟨7577,
    [(947, 1, 2)]⟩,
  ⟨9272813673901,
    [(3, 1, 2), (5, 2, 2), (7, 1, 2), (7577, 1, 2)]⟩,
  ⟨1928745244171409,
    [(9272813673901, 1, 2)]⟩,
  ⟨7259797099061183477,
    [(1928745244171409, 1, 2)]⟩,
  ⟨2584487767265781317813,
    [(7259797099061183477, 1, 2)]⟩,
  ⟨1151,
    [(2, 1, 13), (5, 2, 2)]⟩,
  ⟨755057,
    [(1151, 1, 2)]⟩,
  ⟨3819663927398918131021,
    [(3, 2, 3), (5, 1, 3), (19, 1, 2), (113, 1, 2), (755057, 1, 2)]⟩,
  ⟨1125266252156850182658904441386709967,
    [(3819663927398918131021, 1, 2)]⟩,
  ⟨15778400344354997994418419698270088123916926905054652752758194827714659,
    [(1125266252156850182658904441386709967, 1, 2)]⟩,
  ⟨20921,
    [(523, 1, 2)]⟩,
  ⟨125527,
    [(20921, 1, 2)]⟩,
  ⟨1607,
    [(73, 1, 2)]⟩,
  ⟨906349,
    [(1607, 1, 2)]⟩,
  ⟨2508409,
    [(3, 4, 2), (7, 2, 2)]⟩,
  ⟨18329,
    [(2, 3, 3), (29, 1, 2)]⟩,
  ⟨2529403,
    [(18329, 1, 2)]⟩,
  ⟨110573,
    [(359, 1, 2)]⟩,
  ⟨2653753,
    [(110573, 1, 2)]⟩,
  ⟨63690073,
    [(2653753, 1, 2)]⟩,
  ⟨254760293,
    [(63690073, 1, 2)]⟩,
  ⟨1997,
    [(499, 1, 2)]⟩,
  ⟨1301,
    [(2, 2, 2), (5, 2, 2)]⟩,
  ⟨19556633,
    [(2, 3, 3), (1301, 1, 2)]⟩,
  ⟨2141,
    [(107, 1, 2)]⟩,
  ⟨145589,
    [(2141, 1, 2)]⟩,
  ⟨1899062917,
    [(145589, 1, 2)]⟩,
  ⟨5522474962637,
    [(1899062917, 1, 2)]⟩,
  ⟨44179799701097,
    [(5522474962637, 1, 2)]⟩,
  ⟨12007,
    [(3, 2, 11), (23, 1, 2)]⟩,
  ⟨810603088133,
    [(17, 1, 2), (19, 1, 2), (12007, 1, 2)]⟩,
  ⟨50688121627187232211,
    [(810603088133, 1, 2)]⟩,
  ⟨304128729763123393267,
    [(50688121627187232211, 1, 2)]⟩,
  ⟨217687,
    [(7, 1, 2), (71, 1, 2)]⟩,
  ⟨6054733,
    [(2, 2, 2), (3, 2, 3), (109, 1, 2)]⟩,
  ⟨4316333015754114955367,
    [(217687, 1, 2), (6054733, 1, 2)]⟩,
  ⟨1603586751316224864702635402299961204282724970641143878783725480989888338723129643,
    [(304128729763123393267, 1, 2), (4316333015754114955367, 1, 2)]⟩,
  ⟨1461985442088199434216480729118540833655826472878315075486478169293801719414121837587283877,
    [(1603586751316224864702635402299961204282724970641143878783725480989888338723129643, 1, 2)]⟩,
  ⟨4481,
    [(2, 7, 3)]⟩,
  ⟨5953,
    [(2, 6, 5), (3, 1, 3)]⟩,
  ⟨295587211837579,
    [(3, 1, 2), (19, 1, 3), (73, 1, 2), (5953, 1, 2)]⟩,
  ⟨5580686559493491521,
    [(295587211837579, 1, 2)]⟩,
  ⟨470323883,
    [(7, 1, 2), (89, 1, 2), (109, 1, 2)]⟩,
  ⟨96053,
    [(11, 1, 2), (37, 1, 2)]⟩,
  ⟨4226333,
    [(96053, 1, 2)]⟩,
  ⟨988961923,
    [(4226333, 1, 2)]⟩,
  ⟨7705991304017,
    [(988961923, 1, 2)]⟩,
  ⟨8573263852574794615121004265862615281953667,
    [(470323883, 1, 2), (7705991304017, 1, 2)]⟩,
  ⟨18096277472748244729518088747392459898159629320140432033219842230958001701259,
    [(8573263852574794615121004265862615281953667, 1, 2)]⟩,
  ⟨13441,
    [(2, 7, 11)]⟩,
  ⟨1627,
    [(271, 1, 2)]⟩,
  ⟨2657,
    [(83, 1, 2)]⟩,
  ⟨4423,
    [(2, 1, 3), (3, 1, 3), (11, 1, 2)]⟩,
  ⟨41201,
    [(2, 4, 3), (5, 2, 3)]⟩,
  ⟨96557,
    [(2, 2, 2), (101, 1, 2)]⟩,
  ⟨255515944373312847190720520512484175977,
    [(1627, 1, 2), (2657, 1, 2), (4423, 1, 2), (41201, 1, 2), (96557, 1, 2)]⟩,
  ⟨205115282021455665897114700593932402728804164701536103180137503955397371,
    [(255515944373312847190720520512484175977, 1, 2)]⟩,
  ⟨16699,
    [(3, 1, 3), (11, 2, 2)]⟩,
  ⟨2861,
    [(5, 1, 2), (11, 1, 2)]⟩,
  ⟨85831,
    [(2861, 1, 2)]⟩,
  ⟨107361793816595537,
    [(16699, 1, 2), (85831, 1, 2)]⟩,
  ⟨4051,
    [(3, 4, 3)]⟩,
  ⟨120233,
    [(2, 3, 3), (7, 1, 3), (19, 1, 2)]⟩,
  ⟨174723607534414371449,
    [(59, 1, 2), (4051, 1, 2), (120233, 1, 2)]⟩,
  ⟨2731,
    [(3, 1, 3), (5, 1, 3), (7, 1, 3)]⟩,
  ⟨305873,
    [(2731, 1, 2)]⟩,
  ⟨1409,
    [(2, 7, 3)]⟩,
  ⟨28181,
    [(1409, 1, 2)]⟩,
  ⟨545358713,
    [(28181, 1, 2)]⟩,
  ⟨29047611873442575647497758179,
    [(293, 1, 2), (305873, 1, 2), (545358713, 1, 2)]⟩,
  ⟨341948486974166000522343609283189,
    [(29047611873442575647497758179, 1, 2)]⟩,
  ⟨1531,
    [(3, 2, 2), (5, 1, 2)]⟩,
  ⟨65537,
    [(2, 16, 3)]⟩,
  ⟨490463,
    [(2, 1, 5), (7, 1, 2), (53, 1, 2)]⟩,
  ⟨17449,
    [(727, 1, 2)]⟩,
  ⟨6700417,
    [(17449, 1, 3)]⟩,
  ⟨204061199,
    [(11, 1, 3), (23, 1, 2), (107, 1, 2)]⟩,
  ⟨34282281433,
    [(204061199, 1, 2)]⟩,
  ⟨66417393611,
    [(53, 1, 2), (173, 1, 2), (197, 1, 2)]⟩,
  ⟨11290956913871,
    [(66417393611, 1, 2)]⟩,
  ⟨774023187263532362759620327192479577272145303,
    [(34282281433, 1, 2), (11290956913871, 1, 2)]⟩,
  ⟨835945042244614951780389953367877943453916927241,
    [(774023187263532362759620327192479577272145303, 1, 2)]⟩,
  ⟨3407,
    [(131, 1, 2)]⟩,
  ⟨9547,
    [(3, 1, 2), (37, 1, 2)]⟩,
  ⟨38189,
    [(9547, 1, 2)]⟩,
  ⟨9350987,
    [(17, 1, 2), (229, 1, 2)]⟩,
  ⟨187019741,
    [(9350987, 1, 2)]⟩,
  ⟨311245691,
    [(7, 1, 2), (17, 1, 2), (29, 2, 2)]⟩,
  ⟨622491383,
    [(311245691, 1, 2)]⟩,
  ⟨104471,
    [(337, 1, 2)]⟩,
  ⟨3969899,
    [(104471, 1, 2)]⟩,
  ⟨1002328039319,
    [(3969899, 1, 2)]⟩,
  ⟨1511,
    [(151, 1, 2)]⟩,
  ⟨3023,
    [(1511, 1, 2)]⟩,
  ⟨208150935158385979,
    [(3, 1, 2), (11, 1, 2), (43, 1, 2), (127, 1, 2), (3023, 1, 2)]⟩,
  ⟨2624747550333869278416773953,
    [(208150935158385979, 1, 2)]⟩]

/-- The factorisation of `bnQ - 1`. -/
def bnQFac : List (ℕ × ℕ) := [
  (2, 1),
  (3, 2),
  (13, 1),
  (29, 1),
  (67, 1),
  (229, 1),
  (311, 1),
  (983, 1),
  (11003, 1),
  (405928799, 1),
  (11465965001, 1),
  (13427688667394608761327070753331941386769, 1)]

/-- The factorisation of `bnR - 1`. -/
def bnRFac : List (ℕ × ℕ) := [
  (2, 28),
  (3, 2),
  (13, 1),
  (29, 1),
  (983, 1),
  (11003, 1),
  (237073, 1),
  (405928799, 1),
  (1670836401704629, 1),
  (13818364434197438864469338081, 1)]

/-- The factorisation of `blsQ - 1`. -/
def blsQFac : List (ℕ × ℕ) := [
  (2, 1),
  (3, 2),
  (11, 1),
  (23, 1),
  (47, 1),
  (10177, 1),
  (859267, 1),
  (52437899, 1),
  (2584487767265781317813, 1),
  (15778400344354997994418419698270088123916926905054652752758194827714659, 1)]

/-- The factorisation of `blsR - 1`. -/
def blsRFac : List (ℕ × ℕ) := [
  (2, 32),
  (3, 1),
  (11, 1),
  (19, 1),
  (10177, 1),
  (125527, 1),
  (859267, 1),
  (906349, 2),
  (2508409, 1),
  (2529403, 1),
  (52437899, 1),
  (254760293, 2)]

/-- The factorisation of `plP - 1`. -/
def plPFac : List (ℕ × ℕ) := [
  (2, 32),
  (3, 4),
  (17, 1),
  (67, 1),
  (293, 1),
  (349, 1),
  (1997, 1),
  (19556633, 1),
  (44179799701097, 1),
  (1461985442088199434216480729118540833655826472878315075486478169293801719414121837587283877, 1)]

/-- The factorisation of `plQ - 1`. -/
def plQFac : List (ℕ × ℕ) := [
  (2, 32),
  (3, 1),
  (29, 1),
  (67, 1),
  (293, 1),
  (349, 1),
  (1997, 1),
  (4481, 1),
  (44179799701097, 1),
  (5580686559493491521, 1),
  (18096277472748244729518088747392459898159629320140432033219842230958001701259, 1)]

/-- The factorisation of `k1P - 1`. -/
def k1PFac : List (ℕ × ℕ) := [
  (2, 1),
  (3, 1),
  (7, 1),
  (13441, 1),
  (205115282021455665897114700593932402728804164701536103180137503955397371, 1)]

/-- The factorisation of `k1N - 1`. -/
def k1NFac : List (ℕ × ℕ) := [
  (2, 6),
  (3, 1),
  (149, 1),
  (631, 1),
  (107361793816595537, 1),
  (174723607534414371449, 1),
  (341948486974166000522343609283189, 1)]

/-- The factorisation of `r1P - 1`. -/
def r1PFac : List (ℕ × ℕ) := [
  (2, 1),
  (3, 1),
  (5, 2),
  (17, 1),
  (257, 1),
  (641, 1),
  (1531, 1),
  (65537, 1),
  (490463, 1),
  (6700417, 1),
  (835945042244614951780389953367877943453916927241, 1)]

/-- The factorisation of `r1N - 1`. -/
def r1NFac : List (ℕ × ℕ) := [
  (2, 4),
  (3, 1),
  (71, 1),
  (131, 1),
  (373, 1),
  (3407, 1),
  (17449, 1),
  (38189, 1),
  (187019741, 1),
  (622491383, 1),
  (1002328039319, 1),
  (2624747550333869278416773953, 1)]

theorem groupCert_prime : ∀ c ∈ groupCert, c.N.Prime :=
  checkAll_spec groupCert [] (by simp) (by decide +kernel)

/-- `fac` is a factorisation of `p - 1` into certified primes, and no `(p-1)/q`-th power of `g` is one. -/
def checkGen (p g : ℕ) (fac : List (ℕ × ℕ)) : Bool :=
  decide (1 < p) && decide (p < 2 ^ 512) && decide ((fac.map fun t => t.1 ^ t.2).prod = p - 1) &&
    fac.all fun t =>
      ((decide (t.1 < 1000) && smallPrime t.1) || (groupCert.map (·.N)).contains t.1) &&
        decide (powMod p g ((p - 1) / t.1) % p ≠ 1 % p)

theorem checkGen_spec {p g : ℕ} {fac : List (ℕ × ℕ)} (h : checkGen p g fac = true) :
    ∀ q, q.Prime → q ∣ p - 1 → ¬ g ^ ((p - 1) / q) ≡ 1 [MOD p] := by
  unfold checkGen at h
  simp only [Bool.and_eq_true, decide_eq_true_eq, List.all_eq_true, Bool.or_eq_true, List.contains_eq_mem] at h
  obtain ⟨⟨⟨h1, h512⟩, h2⟩, h4⟩ := h
  intro q hq hd
  have : ∃ t ∈ fac, q = t.1 := by
    rw [← h2, Prime.dvd_prod_iff hq.prime] at hd
    obtain ⟨x, hx, hqx⟩ := hd
    rw [List.mem_map] at hx
    obtain ⟨t, ht, rfl⟩ := hx
    refine ⟨t, ht, ?_⟩
    have htp : t.1.Prime := by
      rcases (h4 t ht).1 with h5 | h5
      · exact smallPrime_spec h5.1 h5.2
      · obtain ⟨c, hc, e⟩ := List.mem_map.mp h5
        rw [← e]
        exact groupCert_prime c hc
    exact (Nat.prime_dvd_prime_iff_eq hq htp).mp (hq.dvd_of_dvd_pow hqx)
  obtain ⟨t, ht, rfl⟩ := this
  have h6 := (h4 t ht).2
  intro hc
  have h8 := powMod_modEq p g ((p - 1) / t.1) (lt_of_le_of_lt (Nat.div_le_self _ _) (by omega))
  exact h6 (h8.trans hc)

/-- The products of powers of `g^A` and of `g^T` for an element `g` of order `A T`, `A` and `T` coprime. -/
theorem coset_inj {G : Type} [Group G] {g : G} {A T : ℕ} (hc : Nat.Coprime A T) (ho : orderOf g = A * T)
    {i j a b : ℕ} (hi : i < T) (hj : j < T) (ha : a < A) (hb : b < A)
    (h : (g ^ A) ^ i * (g ^ T) ^ a = (g ^ A) ^ j * (g ^ T) ^ b) : i = j ∧ a = b := by
  rw [← pow_mul, ← pow_mul, ← pow_mul, ← pow_mul, ← pow_add, ← pow_add, pow_eq_pow_iff_modEq, ho] at h
  have h1 : A * i ≡ A * j [MOD T] := by
    have := h.of_mul_left A
    have e (x y : ℕ) : A * x + T * y ≡ A * x [MOD T] := by simp [Nat.ModEq]
    exact ((e i a).symm.trans this).trans (e j b)
  have h2 : T * a ≡ T * b [MOD A] := by
    have := h.of_mul_right T
    have e (x y : ℕ) : A * x + T * y ≡ T * y [MOD A] := by simp [Nat.ModEq]
    exact ((e i a).symm.trans this).trans (e j b)
  exact ⟨Nat.ModEq.eq_of_lt_of_lt (Nat.ModEq.cancel_left_of_coprime hc.symm h1) hi hj,
    Nat.ModEq.eq_of_lt_of_lt (Nat.ModEq.cancel_left_of_coprime hc h2) ha hb⟩

theorem coset_surj {G : Type} [Group G] {g : G} {A T : ℕ} (hA : 0 < A) (hT : 0 < T) (hc : Nat.Coprime A T)
    (ho : orderOf g = A * T) (k : ℕ) : ∃ i a, i < T ∧ a < A ∧ g ^ k = (g ^ A) ^ i * (g ^ T) ^ a := by
  have key {A T : ℕ} (hT : 0 < T) (hc : Nat.Coprime A T) : ∃ i, i < T ∧ A * i ≡ k [MOD T] := by
    rcases Nat.lt_or_ge 1 T with h1 | h1
    · obtain ⟨u, _, hu⟩ := Nat.exists_mul_mod_eq_one_of_coprime hc h1
      refine ⟨u * k % T, Nat.mod_lt _ hT, ?_⟩
      have h2 : A * u ≡ 1 [MOD T] := by rw [Nat.ModEq, hu, Nat.mod_eq_of_lt h1]
      have h3 := h2.mul_right k
      rw [one_mul, mul_assoc] at h3
      exact ((Nat.mod_modEq _ _).mul_left A).trans h3
    · have : T = 1 := by omega
      subst this
      exact ⟨0, by omega, Nat.modEq_one⟩
  obtain ⟨i, hi, h1⟩ := key hT hc
  obtain ⟨a, ha, h2⟩ := key hA hc.symm
  refine ⟨i, a, hi, ha, ?_⟩
  rw [← pow_mul, ← pow_mul, ← pow_add, pow_eq_pow_iff_modEq, ho, ← Nat.modEq_and_modEq_iff_modEq_mul hc]
  constructor
  · have e : A * i + T * a ≡ T * a [MOD A] := by simp [Nat.ModEq]
    exact (e.trans h2).symm
  · have e : A * i + T * a ≡ A * i [MOD T] := by simp [Nat.ModEq]
    exact (e.trans h1).symm

end Halo2.Prime
