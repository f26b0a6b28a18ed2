import Verif.Prime.Pocklington
import Verif.Inverse.FieldInv

/-!
# The moduli of the library, with primality certificates
-/

namespace Halo2

open Halo2.Prime Halo2.Field

/-- Modulus of src/bn256/fq.rs:10 (also the scalar field of grumpkin). -/
@[irreducible] def bnQ : ℕ :=
  0x30644e72e131a029b85045b68181585d97816a916871ca8d3c208c16d87cfd47

/-- Primality certificate of `bnQ`. -/
def bnQCert : List Cert := [
  ⟨1853641,
    [(2, 3, 7), (3, 2, 2), (19, 1, 2)]⟩,
  ⟨4562087,
    [(2, 1, 5), (17, 1, 2), (109, 1, 2)]⟩,
  ⟨2221,
    [(2, 2, 2), (3, 1, 2), (5, 1, 2)]⟩,
  ⟨13327,
    [(2221, 1, 2)]⟩,
  ⟨173171039,
    [(13327, 1, 2)]⟩,
  ⟨13427688667394608761327070753331941386769,
    [(1853641, 1, 2), (4562087, 1, 2), (173171039, 1, 2)]⟩,
  ⟨21888242871839275222246405745257275088696311157297823662689037894645226208583,
    [(13427688667394608761327070753331941386769, 1, 2)]⟩]

theorem bnQ_prime : bnQ.Prime := by
  have h := checkAll_spec bnQCert [] (by simp) (by decide +kernel)
  have e : bnQ = (bnQCert.getLast (by simp [bnQCert])).N := by unfold bnQ; rfl
  rw [e]
  exact h _ (List.getLast_mem _)

instance : Fact bnQ.Prime := ⟨bnQ_prime⟩
instance : Fact (OddModulus bnQ) := ⟨⟨by decide +kernel, by decide +kernel⟩⟩
instance : Fp.SmallModulus bnQ := ⟨by decide +kernel⟩

/-- Modulus of src/bn256/fr.rs:9 (also the base field of grumpkin). -/
@[irreducible] def bnR : ℕ :=
  0x30644e72e131a029b85045b68181585d2833e84879b9709143e1f593f0000001

/-- Primality certificate of `bnR`. -/
def bnRCert : List Cert := [
  ⟨5501,
    [(5, 3, 2)]⟩,
  ⟨11003,
    [(5501, 1, 2)]⟩,
  ⟨237073,
    [(2, 4, 5), (3, 1, 3), (11, 1, 2)]⟩,
  ⟨3691,
    [(2, 1, 2), (3, 2, 2), (5, 1, 2)]⟩,
  ⟨405928799,
    [(11, 1, 2), (3691, 1, 2)]⟩,
  ⟨12048837557,
    [(2, 2, 2), (7, 2, 2), (661, 1, 2)]⟩,
  ⟨5156902474397,
    [(12048837557, 1, 2)]⟩,
  ⟨1670836401704629,
    [(5156902474397, 1, 2)]⟩,
  ⟨21888242871839275222246405745257275088548364400416034343698204186575808495617,
    [(13, 1, 5), (29, 1, 2), (983, 1, 2), (11003, 1, 2), (237073, 1, 2), (405928799, 1, 2), (1670836401704629, 1, 2)]⟩]

theorem bnR_prime : bnR.Prime := by
  have h := checkAll_spec bnRCert [] (by simp) (by decide +kernel)
  have e : bnR = (bnRCert.getLast (by simp [bnRCert])).N := by unfold bnR; rfl
  rw [e]
  exact h _ (List.getLast_mem _)

instance : Fact bnR.Prime := ⟨bnR_prime⟩
instance : Fact (OddModulus bnR) := ⟨⟨by decide +kernel, by decide +kernel⟩⟩
instance : Fp.SmallModulus bnR := ⟨by decide +kernel⟩

/-- Modulus of src/bls12381/fq.rs:9. -/
@[irreducible] def blsQ : ℕ :=
  0x1a0111ea397fe69a4b1ba7b6434bacd764774b84f38512bf6730d2a0f6b0f6241eabfffeb153ffffb9feffffffffaaab

/-- Primality certificate of `blsQ`. -/
def blsQCert : List Cert := [
  ⟨1151,
    [(2, 1, 13), (5, 2, 2)]⟩,
  ⟨755057,
    [(1151, 1, 2)]⟩,
  ⟨3819663927398918131021,
    [(3, 2, 3), (5, 1, 3), (19, 1, 2), (113, 1, 2), (755057, 1, 2)]⟩,
  ⟨1125266252156850182658904441386709967,
    [(3819663927398918131021, 1, 2)]⟩,
  ⟨15778400344354997994418419698270088123916926905054652752758194827714659,
    [(1125266252156850182658904441386709967, 1, 2)]⟩,
  ⟨4002409555221667393417789825735904156556882819939007885332058136124031650490837864442687629129015664037894272559787,
    [(15778400344354997994418419698270088123916926905054652752758194827714659, 1, 2)]⟩]

theorem blsQ_prime : blsQ.Prime := by
  have h := checkAll_spec blsQCert [] (by simp) (by decide +kernel)
  have e : blsQ = (blsQCert.getLast (by simp [blsQCert])).N := by unfold blsQ; rfl
  rw [e]
  exact h _ (List.getLast_mem _)

instance : Fact blsQ.Prime := ⟨blsQ_prime⟩
instance : Fact (OddModulus blsQ) := ⟨⟨by decide +kernel, by decide +kernel⟩⟩
instance : Fp.SmallModulus blsQ := ⟨by decide +kernel⟩

/-- Modulus of src/bls12381/fr.rs:9. -/
@[irreducible] def blsR : ℕ :=
  0x73eda753299d7d483339d80809a1d80553bda402fffe5bfeffffffff00000001

/-- Primality certificate of `blsR`. -/
def blsRCert : List Cert := [
  ⟨10177,
    [(2, 6, 5), (3, 1, 2)]⟩,
  ⟨20921,
    [(523, 1, 2)]⟩,
  ⟨125527,
    [(20921, 1, 2)]⟩,
  ⟨47737,
    [(3, 3, 3), (13, 1, 2)]⟩,
  ⟨859267,
    [(47737, 1, 2)]⟩,
  ⟨1607,
    [(73, 1, 2)]⟩,
  ⟨906349,
    [(1607, 1, 2)]⟩,
  ⟨52435875175126190479447740508185965837690552500527637822603658699938581184513,
    [(2, 32, 5), (11, 1, 2), (19, 1, 2), (10177, 1, 2), (125527, 1, 2), (859267, 1, 2), (906349, 2, 2)]⟩]

theorem blsR_prime : blsR.Prime := by
  have h := checkAll_spec blsRCert [] (by simp) (by decide +kernel)
  have e : blsR = (blsRCert.getLast (by simp [blsRCert])).N := by unfold blsR; rfl
  rw [e]
  exact h _ (List.getLast_mem _)

instance : Fact blsR.Prime := ⟨blsR_prime⟩
instance : Fact (OddModulus blsR) := ⟨⟨by decide +kernel, by decide +kernel⟩⟩
instance : Fp.SmallModulus blsR := ⟨by decide +kernel⟩

/-- Modulus of src/pluto_eris/fp.rs:10. -/
@[irreducible] def plP : ℕ :=
  0x24000000000024000130e0000d7f70e4a803ca76f439266f443f9a5cda8a6c7be4a7a5fe8fadffd6a2a7e8c30006b9459ffffcd300000001

/-- Primality certificate of `plP`. -/
def plPCert : List Cert := [
  ⟨12007,
    [(3, 2, 11), (23, 1, 2)]⟩,
  ⟨810603088133,
    [(17, 1, 2), (19, 1, 2), (12007, 1, 2)]⟩,
  ⟨50688121627187232211,
    [(810603088133, 1, 2)]⟩,
  ⟨304128729763123393267,
    [(50688121627187232211, 1, 2)]⟩,
  ⟨217687,
    [(7, 1, 2), (71, 1, 2)]⟩,
  ⟨6054733,
    [(2, 2, 2), (3, 2, 3), (109, 1, 2)]⟩,
  ⟨4316333015754114955367,
    [(217687, 1, 2), (6054733, 1, 2)]⟩,
  ⟨1603586751316224864702635402299961204282724970641143878783725480989888338723129643,
    [(304128729763123393267, 1, 2), (4316333015754114955367, 1, 2)]⟩,
  ⟨1461985442088199434216480729118540833655826472878315075486478169293801719414121837587283877,
    [(1603586751316224864702635402299961204282724970641143878783725480989888338723129643, 1, 2)]⟩,
  ⟨102211695604070082112571065507755096754575920209623522239390234855490679834276115250716018318118556227909439196474813090886893187366913,
    [(1461985442088199434216480729118540833655826472878315075486478169293801719414121837587283877, 1, 2)]⟩]

theorem plP_prime : plP.Prime := by
  have h := checkAll_spec plPCert [] (by simp) (by decide +kernel)
  have e : plP = (plPCert.getLast (by simp [plPCert])).N := by unfold plP; rfl
  rw [e]
  exact h _ (List.getLast_mem _)

instance : Fact plP.Prime := ⟨plP_prime⟩
instance : Fact (OddModulus plP) := ⟨⟨by decide +kernel, by decide +kernel⟩⟩
instance : Fp.SmallModulus plP := ⟨by decide +kernel⟩

/-- Modulus of src/pluto_eris/fq.rs:9. -/
@[irreducible] def plQ : ℕ :=
  0x24000000000024000130e0000d7f70e4a803ca76f439266f443f9a5c7a8a6c7be4a775fe8e177fd69ca7e85d60050af41ffffcd300000001

/-- Primality certificate of `plQ`. -/
def plQCert : List Cert := [
  ⟨470323883,
    [(7, 1, 2), (89, 1, 2), (109, 1, 2)]⟩,
  ⟨96053,
    [(11, 1, 2), (37, 1, 2)]⟩,
  ⟨4226333,
    [(96053, 1, 2)]⟩,
  ⟨988961923,
    [(4226333, 1, 2)]⟩,
  ⟨7705991304017,
    [(988961923, 1, 2)]⟩,
  ⟨8573263852574794615121004265862615281953667,
    [(470323883, 1, 2), (7705991304017, 1, 2)]⟩,
  ⟨18096277472748244729518088747392459898159629320140432033219842230958001701259,
    [(8573263852574794615121004265862615281953667, 1, 2)]⟩,
  ⟨102211695604070082112571065507755096754575920209623522239390234855480569854275933742834077002685857629445612735086326265689167708028929,
    [(18096277472748244729518088747392459898159629320140432033219842230958001701259, 1, 2)]⟩]

theorem plQ_prime : plQ.Prime := by
  have h := checkAll_spec plQCert [] (by simp) (by decide +kernel)
  have e : plQ = (plQCert.getLast (by simp [plQCert])).N := by unfold plQ; rfl
  rw [e]
  exact h _ (List.getLast_mem _)

instance : Fact plQ.Prime := ⟨plQ_prime⟩
instance : Fact (OddModulus plQ) := ⟨⟨by decide +kernel, by decide +kernel⟩⟩
instance : Fp.SmallModulus plQ := ⟨by decide +kernel⟩

/-- Modulus of src/secp256k1/fp.rs:9. -/
@[irreducible] def k1P : ℕ :=
  0xfffffffffffffffffffffffffffffffffffffffffffffffffffffffefffffc2f

/-- Primality certificate of `k1P`. -/
def k1PCert : List Cert := [
  ⟨1627,
    [(271, 1, 2)]⟩,
  ⟨2657,
    [(83, 1, 2)]⟩,
  ⟨4423,
    [(2, 1, 3), (3, 1, 3), (11, 1, 2)]⟩,
  ⟨41201,
    [(2, 4, 3), (5, 2, 3)]⟩,
  ⟨96557,
    [(2, 2, 2), (101, 1, 2)]⟩,
  ⟨255515944373312847190720520512484175977,
    [(1627, 1, 2), (2657, 1, 2), (4423, 1, 2), (41201, 1, 2), (96557, 1, 2)]⟩,
  ⟨205115282021455665897114700593932402728804164701536103180137503955397371,
    [(255515944373312847190720520512484175977, 1, 2)]⟩,
  ⟨115792089237316195423570985008687907853269984665640564039457584007908834671663,
    [(205115282021455665897114700593932402728804164701536103180137503955397371, 1, 2)]⟩]

theorem k1P_prime : k1P.Prime := by
  have h := checkAll_spec k1PCert [] (by simp) (by decide +kernel)
  have e : k1P = (k1PCert.getLast (by simp [k1PCert])).N := by unfold k1P; rfl
  rw [e]
  exact h _ (List.getLast_mem _)

instance : Fact k1P.Prime := ⟨k1P_prime⟩
instance : Fact (OddModulus k1P) := ⟨⟨by decide +kernel, by decide +kernel⟩⟩
instance : Fp.SmallModulus k1P := ⟨by decide +kernel⟩

/-- Modulus of src/secp256k1/fq.rs:9. -/
@[irreducible] def k1N : ℕ :=
  0xfffffffffffffffffffffffffffffffebaaedce6af48a03bbfd25e8cd0364141

/-- Primality certificate of `k1N`. -/
def k1NCert : List Cert := [
  ⟨16699,
    [(3, 1, 3), (11, 2, 2)]⟩,
  ⟨2861,
    [(5, 1, 2), (11, 1, 2)]⟩,
  ⟨85831,
    [(2861, 1, 2)]⟩,
  ⟨107361793816595537,
    [(16699, 1, 2), (85831, 1, 2)]⟩,
  ⟨4051,
    [(3, 4, 3)]⟩,
  ⟨120233,
    [(2, 3, 3), (7, 1, 3), (19, 1, 2)]⟩,
  ⟨174723607534414371449,
    [(59, 1, 2), (4051, 1, 2), (120233, 1, 2)]⟩,
  ⟨115792089237316195423570985008687907852837564279074904382605163141518161494337,
    [(631, 1, 2), (107361793816595537, 1, 2), (174723607534414371449, 1, 2)]⟩]

theorem k1N_prime : k1N.Prime := by
  have h := checkAll_spec k1NCert [] (by simp) (by decide +kernel)
  have e : k1N = (k1NCert.getLast (by simp [k1NCert])).N := by unfold k1N; rfl
  rw [e]
  exact h _ (List.getLast_mem _)

instance : Fact k1N.Prime := ⟨k1N_prime⟩
instance : Fact (OddModulus k1N) := ⟨⟨by decide +kernel, by decide +kernel⟩⟩
instance : Fp.SmallModulus k1N := ⟨by decide +kernel⟩

/-- Modulus of src/secp256r1/fp.rs:9. -/
@[irreducible] def r1P : ℕ :=
  0xffffffff00000001000000000000000000000000ffffffffffffffffffffffff

/-- Primality certificate of `r1P`. -/
def r1PCert : List Cert := [
  ⟨204061199,
    [(11, 1, 3), (23, 1, 2), (107, 1, 2)]⟩,
  ⟨34282281433,
    [(204061199, 1, 2)]⟩,
  ⟨66417393611,
    [(53, 1, 2), (173, 1, 2), (197, 1, 2)]⟩,
  ⟨11290956913871,
    [(66417393611, 1, 2)]⟩,
  ⟨774023187263532362759620327192479577272145303,
    [(34282281433, 1, 2), (11290956913871, 1, 2)]⟩,
  ⟨835945042244614951780389953367877943453916927241,
    [(774023187263532362759620327192479577272145303, 1, 2)]⟩,
  ⟨115792089210356248762697446949407573530086143415290314195533631308867097853951,
    [(835945042244614951780389953367877943453916927241, 1, 2)]⟩]

theorem r1P_prime : r1P.Prime := by
  have h := checkAll_spec r1PCert [] (by simp) (by decide +kernel)
  have e : r1P = (r1PCert.getLast (by simp [r1PCert])).N := by unfold r1P; rfl
  rw [e]
  exact h _ (List.getLast_mem _)

instance : Fact r1P.Prime := ⟨r1P_prime⟩
instance : Fact (OddModulus r1P) := ⟨⟨by decide +kernel, by decide +kernel⟩⟩
instance : Fp.SmallModulus r1P := ⟨by decide +kernel⟩

/-- Modulus of src/secp256r1/fq.rs:9. -/
@[irreducible] def r1N : ℕ :=
  0xffffffff00000000ffffffffffffffffbce6faada7179e84f3b9cac2fc632551

/-- Primality certificate of `r1N`. -/
def r1NCert : List Cert := [
  ⟨3407,
    [(131, 1, 2)]⟩,
  ⟨17449,
    [(727, 1, 2)]⟩,
  ⟨9547,
    [(3, 1, 2), (37, 1, 2)]⟩,
  ⟨38189,
    [(9547, 1, 2)]⟩,
  ⟨9350987,
    [(17, 1, 2), (229, 1, 2)]⟩,
  ⟨187019741,
    [(9350987, 1, 2)]⟩,
  ⟨311245691,
    [(7, 1, 2), (17, 1, 2), (29, 2, 2)]⟩,
  ⟨622491383,
    [(311245691, 1, 2)]⟩,
  ⟨104471,
    [(337, 1, 2)]⟩,
  ⟨3969899,
    [(104471, 1, 2)]⟩,
  ⟨1002328039319,
    [(3969899, 1, 2)]⟩,
  ⟨115792089210356248762697446949407573529996955224135760342422259061068512044369,
    [(3407, 1, 2), (17449, 1, 2), (38189, 1, 2), (187019741, 1, 2), (622491383, 1, 2), (1002328039319, 1, 2)]⟩]

theorem r1N_prime : r1N.Prime := by
  have h := checkAll_spec r1NCert [] (by simp) (by decide +kernel)
  have e : r1N = (r1NCert.getLast (by simp [r1NCert])).N := by unfold r1N; rfl
  rw [e]
  exact h _ (List.getLast_mem _)

instance : Fact r1N.Prime := ⟨r1N_prime⟩
instance : Fact (OddModulus r1N) := ⟨⟨by decide +kernel, by decide +kernel⟩⟩
instance : Fp.SmallModulus r1N := ⟨by decide +kernel⟩

/-- Modulus of pasta_curves' Fp, used by src/pasta/mod.rs (external crate). -/
@[irreducible] def paP : ℕ :=
  0x40000000000000000000000000000000224698fc094cf91b992d30ed00000001

/-- Primality certificate of `paP`. -/
def paPCert : List Cert := [
  ⟨19267,
    [(13, 2, 3)]⟩,
  ⟨115603,
    [(19267, 1, 2)]⟩,
  ⟨3767,
    [(269, 1, 2)]⟩,
  ⟨1197907,
    [(3767, 1, 2)]⟩,
  ⟨6942563,
    [(11, 1, 2), (17, 1, 2), (19, 1, 2)]⟩,
  ⟨41655379,
    [(6942563, 1, 2)]⟩,
  ⟨22160661629,
    [(41655379, 1, 2)]⟩,
  ⟨8999194758858563409123804352480028797519453,
    [(115603, 1, 2), (1197907, 1, 2), (22160661629, 1, 2)]⟩,
  ⟨28948022309329048855892746252171976963363056481941560715954676764349967630337,
    [(8999194758858563409123804352480028797519453, 1, 2)]⟩]

theorem paP_prime : paP.Prime := by
  have h := checkAll_spec paPCert [] (by simp) (by decide +kernel)
  have e : paP = (paPCert.getLast (by simp [paPCert])).N := by unfold paP; rfl
  rw [e]
  exact h _ (List.getLast_mem _)

instance : Fact paP.Prime := ⟨paP_prime⟩
instance : Fact (OddModulus paP) := ⟨⟨by decide +kernel, by decide +kernel⟩⟩
instance : Fp.SmallModulus paP := ⟨by decide +kernel⟩

/-- Modulus of pasta_curves' Fq, used by src/pasta/mod.rs (external crate). -/
@[irreducible] def paQ : ℕ :=
  0x40000000000000000000000000000000224698fc0994a8dd8c46eb2100000001

/-- Primality certificate of `paQ`. -/
def paQCert : List Cert := [
  ⟨1381,
    [(2, 2, 2), (3, 1, 2), (5, 1, 2)]⟩,
  ⟨24859,
    [(1381, 1, 2)]⟩,
  ⟨125803,
    [(2, 1, 2), (3, 2, 3), (29, 1, 2)]⟩,
  ⟨2012849,
    [(125803, 1, 2)]⟩,
  ⟨4025699,
    [(2012849, 1, 2)]⟩,
  ⟨80513981,
    [(4025699, 1, 2)]⟩,
  ⟨5247740253619,
    [(80513981, 1, 2)]⟩,
  ⟨1690502597179744445941507,
    [(5247740253619, 1, 2)]⟩,
  ⟨28948022309329048855892746252171976963363056481941647379679742748393362948097,
    [(2, 32, 5), (24859, 1, 2), (1690502597179744445941507, 1, 2)]⟩]

theorem paQ_prime : paQ.Prime := by
  have h := checkAll_spec paQCert [] (by simp) (by decide +kernel)
  have e : paQ = (paQCert.getLast (by simp [paQCert])).N := by unfold paQ; rfl
  rw [e]
  exact h _ (List.getLast_mem _)

instance : Fact paQ.Prime := ⟨paQ_prime⟩
instance : Fact (OddModulus paQ) := ⟨⟨by decide +kernel, by decide +kernel⟩⟩
instance : Fp.SmallModulus paQ := ⟨by decide +kernel⟩

end Halo2
