import Verif.Prime.Pocklington

/-!
# Primality certificates for the prime factors of the cofactors
-/

namespace Halo2

open Halo2.Prime

/-- Certificates, in dependency order. -/
def cofactorCert : List Cert := [
  ⟨10069,
    [(839, 1, 2)]⟩,
  ⟨5864401,
    [(2, 4, 19), (3, 4, 2), (5, 2, 2)]⟩,
  ⟨1511,
    [(151, 1, 2)]⟩,
  ⟨601379,
    [(1511, 1, 2)]⟩,
  ⟨17367825521,
    [(601379, 1, 2)]⟩,
  ⟨1875725156269,
    [(17367825521, 1, 2)]⟩,
  ⟨677736056450657,
    [(2, 5, 3), (23, 1, 2), (83, 1, 2), (983, 1, 2)]⟩,
  ⟨209661715479349446893,
    [(677736056450657, 1, 2)]⟩,
  ⟨3458579658547348475946929,
    [(209661715479349446893, 1, 2)]⟩,
  ⟨213235097339095295568608163219551,
    [(3458579658547348475946929, 1, 2)]⟩,
  ⟨197620364512881247228717050342013327560683201906968909,
    [(213235097339095295568608163219551, 1, 2)]⟩,
  ⟨2713,
    [(113, 1, 2)]⟩,
  ⟨11953,
    [(2, 4, 5), (3, 2, 3)]⟩,
  ⟨21839,
    [(179, 1, 2)]⟩,
  ⟨262069,
    [(21839, 1, 2)]⟩,
  ⟨12192593745179,
    [(7, 1, 2), (11, 1, 2), (107, 1, 2), (541, 1, 2)]⟩,
  ⟨512088937297519,
    [(12192593745179, 1, 2)]⟩,
  ⟨1857858664515398933,
    [(512088937297519, 1, 2)]⟩,
  ⟨22294303974184787197,
    [(1857858664515398933, 1, 2)]⟩,
  ⟨19931107752921199754119,
    [(22294303974184787197, 1, 2)]⟩,
  ⟨81162125843606155545104998607900118769099783,
    [(19931107752921199754119, 1, 2)]⟩,
  ⟨26935696298915610574513298451669528361624243820491956655650666425177,
    [(81162125843606155545104998607900118769099783, 1, 2)]⟩,
  ⟨4638704574076146691498289350639807119782054683906549022985642612861209609656189848749536921852444848596916990932297,
    [(26935696298915610574513298451669528361624243820491956655650666425177, 1, 2)]⟩,
  ⟨402096035359507321594726366720466575392706800671181159425656785868777272553337714697862511267018014931937703598282857976535744623203249,
    [(4638704574076146691498289350639807119782054683906549022985642612861209609656189848749536921852444848596916990932297, 1, 2)]⟩,
  ⟨11971,
    [(3, 2, 5), (5, 1, 2), (7, 1, 2)]⟩,
  ⟨143653,
    [(11971, 1, 2)]⟩,
  ⟨1801,
    [(2, 3, 11), (3, 2, 3)]⟩,
  ⟨1426393,
    [(1801, 1, 2)]⟩,
  ⟨79562281,
    [(2, 3, 11), (5, 1, 2), (7, 3, 2)]⟩,
  ⟨3547,
    [(197, 1, 2)]⟩,
  ⟨24097197149,
    [(79, 1, 2), (3547, 1, 2)]⟩,
  ⟨1161317,
    [(2, 2, 2), (13, 1, 2), (23, 1, 2)]⟩,
  ⟨6967903,
    [(1161317, 1, 2)]⟩,
  ⟨7065453643,
    [(6967903, 1, 2)]⟩,
  ⟨42392721859,
    [(7065453643, 1, 2)]⟩,
  ⟨18822368505397,
    [(42392721859, 1, 2)]⟩,
  ⟨6271,
    [(3, 1, 11), (5, 1, 2), (11, 1, 2)]⟩,
  ⟨5572620402577,
    [(2, 4, 5), (59, 1, 2), (6271, 1, 2)]⟩,
  ⟨269085099088753988693,
    [(5572620402577, 1, 2)]⟩,
  ⟨547525040277163084750088157697505930011922265932742156978070537625928876098519678467,
    [(24097197149, 1, 2), (18822368505397, 1, 2), (269085099088753988693, 1, 2)]⟩,
  ⟨508194433436460527446871173854116280656436580304376012253055085313374946805647487990943840223586984484290015869,
    [(547525040277163084750088157697505930011922265932742156978070537625928876098519678467, 1, 2)]⟩,
  ⟨10177,
    [(2, 6, 5), (3, 1, 2)]⟩,
  ⟨47737,
    [(3, 3, 3), (13, 1, 2)]⟩,
  ⟨859267,
    [(47737, 1, 2)]⟩,
  ⟨609743,
    [(2, 1, 5), (7, 1, 2), (97, 1, 2)]⟩,
  ⟨52437899,
    [(609743, 1, 2)]⟩]

theorem cofactorCert_prime : ∀ c ∈ cofactorCert, c.N.Prime :=
  checkAll_spec cofactorCert [] (by simp) (by decide +kernel)

/-- A number of the list is prime. -/
theorem cofactor_prime {n : ℕ} (h : n ∈ cofactorCert.map (·.N)) : n.Prime := by
  obtain ⟨c, hc, rfl⟩ := List.mem_map.mp h
  exact cofactorCert_prime c hc

end Halo2
