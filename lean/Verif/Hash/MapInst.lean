import Verif.Hash.MapOps

/-!
# The hash-to-curve suites of the library: constants and their properties
-/

set_option linter.unusedSectionVars false

namespace Halo2

open Halo2.Field Halo2.Prime Halo2.Ext Halo2.Ext.Shadow Halo2.Curve Halo2.Hash

theorem Hash.bnQ_ok : (fpOps bnQ 3).Ok := fpOps_ok bnQ 3 (by decide +kernel) Props.C11_shipped.1

theorem Hash.bnR_ok : (fpOps bnR 7).Ok := fpOps_ok bnR 7 (by decide +kernel) Props.C11_shipped.2.1

theorem Hash.blsQ_ok : (fpOps blsQ 2).Ok := fpOps_ok blsQ 2 (by decide +kernel) Props.C11_shipped.2.2.1

theorem Hash.plP_ok : (fpOps plP 10).Ok := fpOps_ok plP 10 (by decide +kernel) Props.C11_shipped.2.2.2.2.1

theorem Hash.plQ_ok : (fpOps plQ 7).Ok := fpOps_ok plQ 7 (by decide +kernel) Props.C11_shipped.2.2.2.2.2.1

theorem Hash.k1P_ok : (fpOps k1P 3).Ok := fpOps_ok k1P 3 (by decide +kernel) Props.C11_shipped.2.2.2.2.2.2.1

theorem Hash.k1N_ok : (fpOps k1N 7).Ok := fpOps_ok k1N 7 (by decide +kernel) Props.C11_shipped.2.2.2.2.2.2.2.1

theorem Hash.r1P_ok : (fpOps r1P 6).Ok := fpOps_ok r1P 6 (by decide +kernel) Props.C11_shipped.2.2.2.2.2.2.2.2.1

namespace Bn256

/-- The methods of `Fq2`. -/
def ops2 : HashOps Fq2 := tower2Ops bnQ sqrt2

theorem ops2_ok : ops2.Ok where
  sqrt_some x := (sqrt2_spec x).1
  sqrt_none x := (sqrt2_spec x).2
  nonResidue x := by
    change (Props.legendre2 x == some (-1)) = true ↔ _
    rw [beq_iff_eq]
    exact (Props.C19_legendre.1 x).2.2.2
  twoInv := tower2Ops_twoInv (Fp.two_mul_twoInv (by decide +kernel))
  nonsquare_mul := nonsquare_mul

end Bn256

namespace Bls12381

/-- The methods of `Fq2`. -/
def ops2 : HashOps Fq2 := tower2Ops blsQ sqrt2

theorem ops2_ok : ops2.Ok where
  sqrt_some x := (sqrt2_spec x).1
  sqrt_none x := (sqrt2_spec x).2
  nonResidue x := by
    change (Props.legendre2 x == some (-1)) = true ↔ _
    rw [beq_iff_eq]
    exact (Props.C19_legendre.2.1 x).2.2.2
  twoInv := tower2Ops_twoInv (Fp.two_mul_twoInv (by decide +kernel))
  nonsquare_mul := nonsquare_mul

end Bls12381

theorem Bn256.g1_svdwZ : SvdwZ Bn256.g1.a Bn256.g1.b 1 := by
  rw [Bn256.g1_a, Bn256.g1BVal_eq]
  exact svdwZ_of (shFp bnQ) (r1 := 0x16789af3a83522eb353c98fc6b36d713d5d8d1cc5dffffffa) (r2 := 0x2) (by decide +kernel)

theorem Grumpkin.g1_svdwZ : SvdwZ Grumpkin.g1.a Grumpkin.g1.b 1 := by
  rw [Grumpkin.g1_a, Grumpkin.g1BVal_eq]
  exact svdwZ_of (shFp bnR) (r1 := 0x2cf135e7506a45d66a7931f8d66dae274453478a4c627115c) (r2 := 0x2cf135e7506a45d632d270d45f1181294833fc48d823f272c) (by decide +kernel)

theorem Secq256k1.c_svdwZ : SvdwZ Secq256k1.c.a Secq256k1.c.b 1 := by
  rw [Secq256k1.c_a, Secq256k1.cBVal_eq]
  exact svdwZ_of (shFp k1N) (r1 := 0x937f2fd396b38f66339cc15e7d2ae62e8ba3b69043218abef948e65fe040fdf) (r2 := 0xc7c97045a2074634909abdf82c9bd0248916189041f2af0c1b800d1ffc278c0) (by decide +kernel)

theorem Pluto.g1_svdwZ : SvdwZ Pluto.g1.a Pluto.g1.b 1 := by
  rw [Pluto.g1_a, Pluto.g1BVal_eq]
  exact svdwZ_of (shFp plP) (r1 := 0x1e38c74520ca07ce52db01a548b530f2209a35d045732a970413f97783189784aea34a867b9b9fb768032da808162203b369c06ca62410d2) (r2 := 0x1a5e2bda6b911f04cc0d2512f3458b3793b4d4fab86048edf97bd6f618e6d662876b010f0002a147ec1c49379504c7473ab58472372a5b09) (by decide +kernel)

theorem Pluto.eris_svdwZ : SvdwZ Pluto.eris.a Pluto.eris.b 1 := by
  rw [Pluto.eris_a, Pluto.erisBVal_eq]
  exact svdwZ_of (shFp plQ) (r1 := 0x18688f6650b142e6c9c0602685519abea4781d3d4f1f3bef2ab017a422de2b1bebd9164bd298b594a680e7c0a81b68e97fb91f939f62fea8) (r2 := 0x1cbf7b0630f84d103f5e681d90af3822648a8086b3866b96c76fdef9f40e125b5215cbdfc37526aa97cfb23f3d2c2fb82e0b69eddcc4566f) (by decide +kernel)

theorem Bn256.g2_svdwZ : SvdwZ Bn256.g2.a Bn256.g2.b 1 := by
  rw [Bn256.g2_a, Bn256.g2BVal_eq]
  exact svdwZ_of (shQuad bnQ Bn256.beta Bn256.nonRes_base) (r1 := (0x29fd332ab7260112b801fa95b21af64e2e6da55f90a3e510fcbe57377b5ca1ec, 0x303d1eff1426764bf8408aee24ba0b865e76f77b1267a846b1e9154d01565034)) (r2 := (0x2869111d5381f072f8e2728fdb825a51aadd70e52c9830e9ab4b871c0531f1bb, 0xd1271953ed9ea0836846e70a1934187998c7f790cb4d7511b7f8da82de048a4)) (by decide +kernel)

namespace Secp256r1

/-- Models src/secp256r1/curve.rs:82-87 (`SSWU_Z`). -/
def sswuZ : Fp r1P := Fp.ofRaw [0xfffffffffffffff5, 0xffffffff, 0x0, 0xffffffff00000001]

@[irreducible] def sswuZVal : ℕ := 0xffffffff00000001000000000000000000000000fffffffffffffffffffffff5

theorem sswuZVal_eq : sswuZ = ((sswuZVal : ℕ) : Fp r1P) := (Fp.ofRaw_eq _ (by decide +kernel)).trans ((Fp.natCast_eq_iff _ _).mpr (by decide +kernel))

theorem c_sswuZ : SswuZ c.a c.b sswuZ := by
  rw [cAVal_eq, cBVal_eq, sswuZVal_eq]
  exact sswuZ_of (shFp r1P) (a := cAVal) (b := cBVal) (z := sswuZVal) (e := 0xa528bd8696bdaf996c65b982d94959d3146fe6a020693090bdba13132375f224) (r := 0xe5fb73d16791ce358fb5adb2d33668a3b24099fd8d401f6685e0e994fb4d756) (by decide +kernel)
    (Fp.not_square_of sswuZVal (by decide +kernel) (by decide +kernel))

end Secp256r1

namespace Secp256k1

/-- Models src/secp256k1/curve.rs:70-75 (`SSWU_Z`). -/
def sswuZ : Fp k1P := Fp.ofRaw [0xfffffffefffffc24, 0xffffffffffffffff, 0xffffffffffffffff, 0xffffffffffffffff]
/-- Models src/secp256k1/curve.rs:81-86 (`ISO_SECP_A`). -/
def isoA : Fp k1P := Fp.ofRaw [0x405447c01a444533, 0xe953d363cb6f0e5d, 0xa08a5558f0f5d272, 0x3f8731abdd661adc]
/-- Models src/secp256k1/curve.rs:88 (`ISO_SECP_B`). -/
def isoB : Fp k1P := Fp.ofRaw [1771, 0, 0, 0]

/-- The arguments of `Fp::from_raw` in the table `K`, src/secp256k1/curve.rs:111-202; `Fp::ZERO` is written
as four zero limbs. -/
def kRaw : List (List (List ℕ)) := [
  [[0x0, 0x0, 0x0, 0x0], [0x0, 0x0, 0x0, 0x0], [0x0, 0x0, 0x0, 0x0], [0x0, 0x0, 0x0, 0x0]],
  [[0x8e38e38daaaaa8c7, 0x38e38e38e38e38e3, 0xe38e38e38e38e38e, 0x8e38e38e38e38e38], [0xdfff1044f17c6581, 0xd595d2fc0bf63b92, 0xb9f315cea7fd44c5, 0x7d3d4c80bc321d5], [0x4ecbd0b53d9dd262, 0xe4506144037c4031, 0xe2a413deca25caec, 0x534c328d23f234e6], [0x8e38e38daaaaa88c, 0x38e38e38e38e38e3, 0xe38e38e38e38e38e, 0x8e38e38e38e38e38]],
  [[0x9fe6b745781eb49b, 0x86cd409542f8487d, 0x9ca34ccbb7b640dd, 0xd35771193d94918a], [0xc52a56612a8c6d14, 0x6d36b641f5e41bb, 0xf7c4b2d51b542254, 0xedadc6f64383dc1d], [0x0, 0x0, 0x0, 0x0], [0x0, 0x0, 0x0, 0x0]],
  [[0xa12f684b8e38e23c, 0x2f684bda12f684bd, 0x684bda12f684bda1, 0x4bda12f684bda12f], [0xdffc90fc201d71a3, 0x647ab046d686da6f, 0xa9d0a54b12a0a6d5, 0xc75e0c32d5cb7c0f], [0xa765e85a9ecee931, 0x722830a201be2018, 0x715209ef6512e576, 0x29a6194691f91a73], [0x84bda12f38e38d84, 0xbda12f684bda12f6, 0xa12f684bda12f684, 0x2f684bda12f684bd]],
  [[0xfffffffefffff93b, 0xffffffffffffffff, 0xffffffffffffffff, 0xffffffffffffffff], [0xdfb425d2685c2573, 0x9467c1bfc8e8d978, 0xd5e9e6632722c298, 0x7a06534bb8bdb49f], [0xa7bf8192bfd2a76f, 0xa3d21162f0d6299, 0xf3a70c3fa8fe337e, 0x6484aa716545ca2c], [0x0, 0x0, 0x0, 0x0]]]

/-- The table `K`. -/
def kTab : List (List (Fp k1P)) := kRaw.map fun r => r.map Fp.ofRaw

@[irreducible] def sswuZVal : ℕ := 0xfffffffffffffffffffffffffffffffffffffffffffffffffffffffefffffc24
@[irreducible] def isoAVal : ℕ := 0x3f8731abdd661adca08a5558f0f5d272e953d363cb6f0e5d405447c01a444533
@[irreducible] def isoBVal : ℕ := 1771
theorem sswuZVal_eq : sswuZ = ((sswuZVal : ℕ) : Fp k1P) := (Fp.ofRaw_eq _ (by decide +kernel)).trans ((Fp.natCast_eq_iff _ _).mpr (by decide +kernel))
theorem isoAVal_eq : isoA = ((isoAVal : ℕ) : Fp k1P) := (Fp.ofRaw_eq _ (by decide +kernel)).trans ((Fp.natCast_eq_iff _ _).mpr (by decide +kernel))
theorem isoBVal_eq : isoB = ((isoBVal : ℕ) : Fp k1P) := (Fp.ofRaw_eq _ (by decide +kernel)).trans ((Fp.natCast_eq_iff _ _).mpr (by decide +kernel))

theorem c_sswuZ : SswuZ isoA isoB sswuZ := by
  rw [isoAVal_eq, isoBVal_eq, sswuZVal_eq]
  exact sswuZ_of (shFp k1P) (a := isoAVal) (b := isoBVal) (z := sswuZVal) (e := 0xbb407e4438dd90ca6ba40716591522757e5c173c7232ad8b6c8bcd97de490391) (r := 0x2899ff0720f53efb09af4823587b279e148bb16bed075ba60fc2a97aff6ae188) (by decide +kernel)
    (Fp.not_square_of sswuZVal (by decide +kernel) (by decide +kernel))

/-- `K[i][j]` as a number. -/
def kVal (i j : ℕ) : ℕ := val ((kRaw.getD i []).getD j [])

theorem kAt_eq (i j : ℕ) (hi : i < 5) (hj : j < 4) : kAt kTab i j = ((kVal i j : ℕ) : Fp k1P) := by
  have hw : ∀ r ∈ kRaw, r.length = 4 ∧ ∀ x ∈ r, x.length = numLimbs k1P ∧ ∀ y ∈ x, y < 2 ^ 64 := by decide +kernel
  have hl : kRaw.length = 5 := by decide
  have h1 : i < kRaw.length := by rw [hl]; exact hi
  have h2 : j < kRaw[i].length := by rw [(hw _ (List.getElem_mem h1)).1]; exact hj
  unfold kAt kVal kTab
  have e1 : (kRaw.map fun r => r.map (Fp.ofRaw : List ℕ → Fp k1P)).getD i [] = kRaw[i].map Fp.ofRaw := by
    rw [List.getD_eq_getElem _ _ (by rwa [List.length_map]), List.getElem_map]
  rw [e1, List.getD_eq_getElem _ _ (by rwa [List.length_map]), List.getElem_map, List.getD_eq_getElem _ _ h1, List.getD_eq_getElem _ _ h2]
  exact Fp.ofRaw_eq _ ((hw _ (List.getElem_mem h1)).2 _ (List.getElem_mem h2))

def xnVal : List ℕ := [kVal 1 0, kVal 1 1, kVal 1 2, kVal 1 3]
def xdVal : List ℕ := [kVal 2 0, kVal 2 1, 1]
def ynVal : List ℕ := [kVal 3 0, kVal 3 1, kVal 3 2, kVal 3 3]
def ydVal : List ℕ := [kVal 4 0, kVal 4 1, kVal 4 2, 1]

theorem k1Table_eq : k1Table kTab = ⟨xnVal.map (shFp k1P).φ, xdVal.map (shFp k1P).φ, ynVal.map (shFp k1P).φ, ydVal.map (shFp k1P).φ⟩ := by
  unfold k1Table xnVal xdVal ynVal ydVal
  rw [kAt_eq 1 0 (by decide) (by decide), kAt_eq 1 1 (by decide) (by decide), kAt_eq 1 2 (by decide) (by decide), kAt_eq 1 3 (by decide) (by decide),
    kAt_eq 2 0 (by decide) (by decide), kAt_eq 2 1 (by decide) (by decide),
    kAt_eq 3 0 (by decide) (by decide), kAt_eq 3 1 (by decide) (by decide), kAt_eq 3 2 (by decide) (by decide), kAt_eq 3 3 (by decide) (by decide),
    kAt_eq 4 0 (by decide) (by decide), kAt_eq 4 1 (by decide) (by decide), kAt_eq 4 2 (by decide) (by decide)]
  simp only [List.map_cons, List.map_nil]
  have h1 : (shFp k1P).φ 1 = 1 := (shFp k1P).φ_one
  rw [h1]
  rfl

theorem c_isoIdent : IsoIdent c isoA isoB (k1Table kTab) := by
  rw [k1Table_eq, isoAVal_eq, isoBVal_eq]
  exact isoIdent_of (shFp k1P) (a := 0) (b := cBVal) (a' := isoAVal) (b' := isoBVal) (by decide +kernel)
    (c_a.trans (shFp k1P).φ_zero.symm) cBVal_eq

/-- The kernel of the isogeny: the abscissa of its two points, which are not rational. -/
@[irreducible] def kernelX : ℕ := 0x89291c84de3e11f1041da6957255eed5fc964a4df050df221d6ad4ce6ab9c5a5

theorem kernelX_nonsquare : ¬ IsSquare (rhs isoA isoB ((kernelX : ℕ) : Fp k1P)) := by
  have e : rhs isoA isoB ((kernelX : ℕ) : Fp k1P) = ((kernelX ^ 3 + isoAVal * kernelX + isoBVal : ℕ) : Fp k1P) := by
    rw [isoAVal_eq, isoBVal_eq, rhs]
    push_cast
    ring
  rw [e]
  exact Fp.not_square_of _ (by decide +kernel) (by decide +kernel)

theorem c_den (t : Fp k1P) : (peval (k1Table kTab).xden t = 0 ↔ t = (kernelX : ℕ)) ∧
    (peval (k1Table kTab).yden t = 0 ↔ t = (kernelX : ℕ)) := by
  rw [k1Table_eq]
  constructor
  · rw [peval_zero_iff (shFp k1P) (c := 1) (rs := [kernelX]) (k := 2) (by decide) (by decide +kernel) (by decide +kernel)]
    simp only [List.mem_singleton, exists_eq_left]
    rfl
  · rw [peval_zero_iff (shFp k1P) (c := 1) (rs := [kernelX]) (k := 3) (by decide) (by decide +kernel) (by decide +kernel)]
    simp only [List.mem_singleton, exists_eq_left]
    rfl

end Secp256k1

namespace Bls12381

/-- Models src/bls12381/g1.rs:95 (`SSWU_Z`). -/
def g1SswuZ : Fq := Fp.ofRaw [11, 0, 0, 0, 0, 0]
/-- Models src/bls12381/g1.rs:97-104 (`ISO_A`). -/
def g1IsoA : Fq := Fp.ofMont [0x2f65aa0e9af5aa51, 0x86464c2d1e8416c3, 0xb85ce591b7bd31e2, 0x27e11c91b5f24e7c, 0x28376eda6bfc1835, 0x155455c3e5071d85]
/-- Models src/bls12381/g1.rs:106-113 (`ISO_B`). -/
def g1IsoB : Fq := Fp.ofMont [0xfb996971fe22a1e0, 0x9aa93eb35b742d6f, 0x8c476013de99c5c4, 0x873e27c3a221e571, 0xca72b5e45a52d888, 0x6824061418a386b]

/-- The arguments of `Fq::from_raw` in `ISO11_XNUM`, src/bls12381/g1.rs:239-336. -/
def iso11Xnum : List (List ℕ) := [
  [0x4d18b6f3af00131c, 0x19fa219793fee28c, 0x3f2885f1467f19ae, 0x23dcea34f2ffb304, 0xd15b58d2ffc00054, 0x913be200a20bef4],
  [0x898985385cdbbd8b, 0x3c79e43cc7d966aa, 0x1597e193f4cd233a, 0x8637ef1e4d6623ad, 0x11b22deed20d827b, 0x7097bc5998784ad],
  [0xa542583a480b664b, 0xfc7169c026e568c6, 0x5ba2ef314ed8b5a6, 0x5b5491c05102f0e7, 0xdf6e99707d2a0079, 0x784151ed7605524],
  [0x494e212870f72741, 0xab9be52fbda43021, 0x26f5577994e34c3d, 0x49dfee82aefbd60, 0x65dadd7828505289, 0xe93d431ea011aeb],
  [0x90ee774bd6a74d45, 0x7ada1c8a41bfb185, 0xf1a8953b325f464, 0x104c24211be4805c, 0x169139d319ea7a8f, 0x9f20ead8e532bf6],
  [0x6ddd93e2f43626b7, 0xa5482c9aa1ccd7bd, 0x143245631883f4bd, 0x2e0a94ccf77ec0db, 0xb0282d480e56489f, 0x18f4bfcbb4368929],
  [0x23c5f0c953402dfd, 0x7a43ff6958ce4fe9, 0x2c390d3d2da5df63, 0xd0df5c98e1f9d70f, 0xffd89869a572b297, 0x1277ffc72f25e8fe],
  [0x79f4f0490f06a8a6, 0x85f894a88030fd81, 0x12da3054b18b6410, 0xe2a57f6505880d65, 0xbba074f260e400f1, 0x8b76279f621d028],
  [0xe67245ba78d5b00b, 0x8456ba9a1f186475, 0x7888bff6e6b33bb4, 0xe21585b9a30f86cb, 0x5a69cdcef55feee, 0x9e699dd9adfa5ac],
  [0xde5c357bff57107, 0xa0db4ae6b1a10b2, 0xe256bb67b3b3cd8d, 0x8ad456574e9db24f, 0x443915f50fd4179, 0x98c4bf7de8b6375],
  [0xe6b0617e7dd929c7, 0xfe6e37d442537375, 0x1dafdeda137a489e, 0xe4efd1ad3f767ceb, 0x4a51d8667f0fe1cf, 0x54fdf4bbf1d821c],
  [0x72db2a50658d767b, 0x8abf91faa257b3d5, 0xe969d6833764ab47, 0x464170142a1009eb, 0xb14f01aadb30be2f, 0x18ae6a856f40715d]]

/-- The arguments of `Fq::from_raw` in `ISO11_XDEN`, src/bls12381/g1.rs:339-428. -/
def iso11Xden : List (List ℕ) := [
  [0xb962a077fdb0f945, 0xa6a9740fefda13a0, 0xc14d568c3ed6c544, 0xb43fc37b908b133e, 0x9c0b3ac929599016, 0x165aa6c93ad115f],
  [0x23279a3ba506c1d9, 0x92cfca0a9465176a, 0x3b294ab13755f0ff, 0x116dda1c5070ae93, 0xed4530924cec2045, 0x83383d6ed81f1ce],
  [0x9885c2a6449fecfc, 0x4a2b54ccd37733f0, 0x17da9ffd8738c142, 0xa0fba72732b3fafd, 0xff364f36e54b6812, 0xf29c13c660523e2],
  [0xe349cc118278f041, 0xd487228f2f3204fb, 0xc9d325849ade5150, 0x43a92bd69c15c2df, 0x1c2c7844bc417be4, 0x12025184f407440c],
  [0x587f65ae6acb057b, 0x1444ef325140201f, 0xfbf995e71270da49, 0xccda066072436a42, 0x7408904f0f186bb2, 0x13b93c63edf6c015],
  [0xfb918622cd141920, 0x4a4c64423ecaddb4, 0xbeb232927f7fb26, 0x30f94df6f83a3dc2, 0xaeedd424d780f388, 0x6cc402dd594bbeb],
  [0xd41f761151b23f8f, 0x32a92465435719b3, 0x64f436e888c62cb9, 0xdf70a9a1f757c6e4, 0x6933a38d5b594c81, 0xc6f7f7237b46606],
  [0x693c08747876c8f7, 0x22c9850bf9cf80f0, 0x8e9071dab950c124, 0x89bc62d61c7baf23, 0xbc6be2d8dad57c23, 0x17916987aa14a122],
  [0x1be3ff439c1316fd, 0x9965243a7571dfa7, 0xc7f7f62962f5cd81, 0x32c6aa9af394361c, 0xbbc2ee18e1c227f4, 0xc102cbac531bb34],
  [0x997614c97bacbf07, 0x61f86372b99192c0, 0x5b8c95fc14353fc3, 0xca2b066c2a87492f, 0x16178f5bbf698711, 0x12a6dcd7f0f4e0e8],
  [0x760900000002fffd, 0xebf4000bc40c0002, 0x5f48985753c758ba, 0x77ce585370525745, 0x5c071a97a256ec6d, 0x15f65ec3fa80e493]]

/-- The arguments of `Fq::from_raw` in `ISO11_YNUM`, src/bls12381/g1.rs:431-560. -/
def iso11Ynum : List (List ℕ) := [
  [0x2b567ff3e2837267, 0x1d4d9e57b958a767, 0xce028fea04bd7373, 0xcc31a30a0b6cd3df, 0x7d7b18a682692693, 0xd300744d42a0310],
  [0x99c2555fa542493f, 0xfe7f53cc4874f878, 0x5df0608b8f97608a, 0x14e03832052b49c8, 0x706326a6957dd5a4, 0xa8dadd9c2414555],
  [0x13d942922a5cf63a, 0x357e33e36e261e7d, 0xcf05a27c8456088d, 0xbd1de7ba50f0, 0x83d0c7532f8c1fde, 0x13f70bf38bbf2905],
  [0x5c57fd95bfafbdbb, 0x28a359a65e541707, 0x3983ceb4f6360b6d, 0xafe19ff6f97e6d53, 0xb3468f4550192bf7, 0xbb6cde49d8ba257],
  [0x590b62c7ff8a513f, 0x314b4ce372cacefd, 0x6bef32ce94b8a800, 0x6ddf84a095713d5f, 0x64eace4cb0982191, 0x386213c651b888d],
  [0xa5310a31111bbcdd, 0xa14ac0f5da148982, 0xf9ad9cc95423d2e9, 0xaa6ec095283ee4a7, 0xcf5b1f022e1c9107, 0x1fddf5aed881793],
  [0x65a572b0d7a7d950, 0xe25c2d8183473a19, 0xc2fcebe7cb877dbd, 0x5b2d36c769a89b0, 0xba12961be86e9efb, 0x7eb1b29c1dfde1f],
  [0x93e09572f7c4cd24, 0x364e929076795091, 0x8569467e68af51b5, 0xa47da89439f5340f, 0xf4fa918082e44d64, 0xad52ba3e6695a79],
  [0x911429844e0d5f54, 0xd03f51a3516bb233, 0x3d587e5640536e66, 0xfa86d2a3a9a73482, 0xa90ed5adf1ed5537, 0x149c9c326a5e7393],
  [0x462bbeb03c12921a, 0xdc9af5fa0a274a17, 0x9a558ebde836ebed, 0x649ef8f11a4fae46, 0x8100e1652b3cdc62, 0x1862bd62c291dacb],
  [0x5c9b8ca89f12c26, 0x194160fa9b9ac4f, 0x6a643d5a6879fa2c, 0x14665bdd8846e19d, 0xbb1d0d53af3ff6bf, 0x12c7e1c3b28962e5],
  [0xb55ebf900b8a3e17, 0xfedc77ec1a9201c4, 0x1f07db10ea1a4df4, 0xdfbd15dc41a594d, 0x389547f2334a5391, 0x2419f98165871a4],
  [0xb416af000745fc20, 0x8e563e9d1ea6d0f5, 0x7c763e17763a0652, 0x1458ef0159ebbef, 0x8346fe421f96bb13, 0xd2d7b829ce324d2],
  [0x93096bb538d64615, 0x6f2a2619951d823a, 0x8f66b3ea59514fa4, 0xf563e63704f7092f, 0x724b136c4cf2d9fa, 0x46959cfcfd0bf49],
  [0xea748d4b6e405346, 0x91e9079c2c02d58f, 0x41064965946d9b59, 0xa06731f1d2bbe1ee, 0x7f897e267a33f1b, 0x1017290919210e5f],
  [0x872aa6c17d985097, 0xeecc53161264562a, 0x7afe37afff55002, 0x54759078e5be6838, 0xc4b92d15db8acca8, 0x106d87d1b51d13b9]]

/-- The arguments of `Fq::from_raw` in `ISO11_YDEN`, src/bls12381/g1.rs:563-692. -/
def iso11Yden : List (List ℕ) := [
  [0xeb6c359d47e52b1c, 0x18ef5f8a10634d60, 0xddfa71a0889d5b7e, 0x723e71dcc5fc1323, 0x52f45700b70d5c69, 0xa8b981ee47691f1],
  [0x616a3c4f5535b9fb, 0x6f5f037395dbd911, 0xf25f4cc5e35c65da, 0x3e50dffea3c62658, 0x6a33dca523560776, 0xfadeff77b6bfe3e],
  [0x2be9b66df470059c, 0x24a2c159a3d36742, 0x115dbe7ad10c2a37, 0xb6634a652ee5884d, 0x4fe8bb2b8d81af4, 0x1c2a7a256fe9c41],
  [0xf27bf8ef3b75a386, 0x898b367476c9073f, 0x24482e6b8c2f4e5f, 0xc8e0bbd6fe110806, 0x59b0c17f7631448a, 0x11037cd58b3dbfbd],
  [0x31c7912ea267eec6, 0x1dbf6f1c5fcdb700, 0xd30d4fe3ba86fdb1, 0x3cae528fbee9a2a4, 0xb1cce69b6aa9ad9a, 0x44393bb632d94fb],
  [0xc66ef6efeeb5c7e8, 0x9824c289dd72bb55, 0x71b1a4d2f119981d, 0x104fc1aafb0919cc, 0xe49df01d942a628, 0x96c3a09773272d4],
  [0x9abc11eb5fadeff4, 0x32dca50a885728f0, 0xfb1fa3721569734c, 0xc4b76271ea6506b3, 0xd466a75599ce728e, 0xc81d4645f4cb6ed],
  [0x4199f10e5b8be45b, 0xda64e495b1e87930, 0xcb353efe9b33e4ff, 0x9e9efb24aa6424c6, 0xf08d33680a237465, 0xd3378023e4c7406],
  [0x7eb4ae92ec74d3a5, 0xc341b4aa9fac3497, 0x5be603899e907687, 0x3bfd9cca75cbdeb, 0x564c2935a96bfa93, 0xef3c33371e2fdb5],
  [0x7ee91fd449f6ac2e, 0xe5d5bd5cb9357a30, 0x773a8ca5196b1380, 0xd0fda172174ed023, 0x6cb95e0fa776aead, 0xd22d5a40cec7cff],
  [0xf727e09285fd8519, 0xdc9d55a83017897b, 0x7549d8bd057894ae, 0x178419613d90d8f8, 0xfce95ebdeb5b490a, 0x467ffaef23fc49e],
  [0xc1769e6a7c385f1b, 0x79bc930deac01c03, 0x5461c75a23ede3b5, 0x6e20829e5c230c45, 0x828e0f1e772a53cd, 0x116aefa749127bff],
  [0x101c10bf2744c10a, 0xbbf18d053a6a3154, 0xa0ecf39ef026f602, 0xfc009d4996dc5153, 0xb9000209d5bd08d3, 0x189e5fe4470cd73c],
  [0x7ebd546ca1575ed2, 0xe47d5a981d081b55, 0x57b2b625b6d4ca21, 0xb0a1ba04228520cc, 0x98738983c2107ff3, 0x13dddbc4799d81d6],
  [0x9319f2e39834935, 0x39e952cbdb05c21, 0x55ba77a9a2f76493, 0xfd04e3dfc6086467, 0xfb95832e7d78742e, 0xef9c24eccaf5e0e],
  [0x760900000002fffd, 0xebf4000bc40c0002, 0x5f48985753c758ba, 0x77ce585370525745, 0x5c071a97a256ec6d, 0x15f65ec3fa80e493]]

/-- Models `COEFFS`, src/bls12381/g1.rs:126. -/
def g1Iso : IsoTable Fq := ⟨iso11Xnum.map Fp.ofRaw, iso11Xden.map Fp.ofRaw, iso11Ynum.map Fp.ofRaw, iso11Yden.map Fp.ofRaw⟩

theorem rawTab_eq {p : ℕ} [Fact (OddModulus p)] (l : List (List ℕ)) (h : ∀ x ∈ l, x.length = numLimbs p ∧ ∀ y ∈ x, y < 2 ^ 64) :
    l.map (Fp.ofRaw : List ℕ → Fp p) = (l.map val).map (shFp p).φ := by
  rw [List.map_map]
  exact List.map_congr_left fun x hx => Fp.ofRaw_eq x (h x hx)

@[irreducible] def g1SswuZVal : ℕ := 11
@[irreducible] def g1IsoAVal : ℕ := 0x144698a3b8e9433d693a02c96d4982b0ea985383ee66a8d8e8981aefd881ac98936f8da0e0f97f5cf428082d584c1d
@[irreducible] def g1IsoBVal : ℕ := 0x12e2908d11688030018b12e8753eee3b2016c1f0f24f4070a0b9c14fcef35ef55a23215a316ceaa5d1cc48e98e172be0
theorem g1SswuZVal_eq : g1SswuZ = ((g1SswuZVal : ℕ) : Fq) := (Fp.ofRaw_eq _ (by decide +kernel)).trans ((Fp.natCast_eq_iff _ _).mpr (by decide +kernel))
theorem g1IsoAVal_eq : g1IsoA = ((g1IsoAVal : ℕ) : Fq) := (Fp.ofMont_eq _ ⟨by decide +kernel, by decide +kernel, by decide +kernel⟩ 0x14fec701e8fb0ce9ed5e64273c4f538b1797ab1458a88de9343ea97914956dc87fe11274d898fafbf4d38259380b4820 (by decide +kernel)).trans ((Fp.natCast_eq_iff _ _).mpr (by decide +kernel))
theorem g1IsoBVal_eq : g1IsoB = ((g1IsoBVal : ℕ) : Fq) := (Fp.ofMont_eq _ ⟨by decide +kernel, by decide +kernel, by decide +kernel⟩ 0x14fec701e8fb0ce9ed5e64273c4f538b1797ab1458a88de9343ea97914956dc87fe11274d898fafbf4d38259380b4820 (by decide +kernel)).trans ((Fp.natCast_eq_iff _ _).mpr (by decide +kernel))

theorem g1_sswuZ : SswuZ g1IsoA g1IsoB g1SswuZ := by
  rw [g1IsoAVal_eq, g1IsoBVal_eq, g1SswuZVal_eq]
  exact sswuZ_of (shFp blsQ) (a := g1IsoAVal) (b := g1IsoBVal) (z := g1SswuZVal) (e := 0x123939a31626a32de772bc7a591ea140683bca0c62efb105310d5ce1d27d1aadf79a5d5cbe8e2c4ff7d4816af76d2814) (r := 0x5be3446f07e910e291153e84f1dabd3dfe5c2b1080d8b6a640425c3826f2a429373f9bab7e8308f6dd10ffa11124dbc) (by decide +kernel)
    (Fp.not_square_of g1SswuZVal (by decide +kernel) (by decide +kernel))

theorem g1Iso_eq : g1Iso = ⟨(iso11Xnum.map val).map (shFp blsQ).φ, (iso11Xden.map val).map (shFp blsQ).φ,
    (iso11Ynum.map val).map (shFp blsQ).φ, (iso11Yden.map val).map (shFp blsQ).φ⟩ := by
  unfold g1Iso
  rw [rawTab_eq _ (by decide +kernel), rawTab_eq _ (by decide +kernel), rawTab_eq _ (by decide +kernel), rawTab_eq _ (by decide +kernel)]

theorem g1_isoIdent : IsoIdent g1 g1IsoA g1IsoB g1Iso := by
  rw [g1Iso_eq, g1IsoAVal_eq, g1IsoBVal_eq]
  exact isoIdent_of (shFp blsQ) (a := 0) (b := g1BVal) (a' := g1IsoAVal) (b' := g1IsoBVal) (by decide +kernel)
    (g1_a.trans (shFp blsQ).φ_zero.symm) g1BVal_eq

/-- The abscissas of the kernel of the 11-isogeny, all rational. -/
def g1KernelX : List ℕ := [
  0x1665a9c648e78314490a94f654d9b1039ab85847223bfaed9aa54f0f07736d122d1ceca1ac0e9123e753fde16e97c3d7,
  0x105249b4cac630ce5aa18e6c1189a18c82019b4e12e491fbac012c259ca3a67f638560b8bb416af02a4724385ed0fc8e,
  0x140d41735b10ce710727cd9356905701a2b866b803baa468948b7f423ddcc560c9a8f1cd5f8ed4297c37464fb8bfe4a7,
  0xd7f2d0d03ae035321eed4c1479d13251abf0e9a96479623eb5380b575e319851fb5e5a8b43b9c1a46880f54bf2b2f7c,
  0x10ef325dd1e98bdf0d97a4c6b7f968ed7f31f2fbff088acb39d5319cfc261ea18773405f325612742f0c5d90634bcf4]

theorem g1_den (t : Fq) : (peval g1Iso.xden t = 0 ↔ ∃ r ∈ g1KernelX, t = (r : ℕ)) ∧
    (peval g1Iso.yden t = 0 ↔ ∃ r ∈ g1KernelX, t = (r : ℕ)) := by
  rw [g1Iso_eq]
  constructor
  · exact peval_zero_iff (shFp blsQ) (c := 0x15f65ec3fa80e4935c071a97a256ec6d77ce5853705257455f48985753c758baebf4000bc40c0002760900000002fffd) (rs := g1KernelX) (k := 2) (by decide) (by decide +kernel) (by decide +kernel) t
  · exact peval_zero_iff (shFp blsQ) (c := 0x15f65ec3fa80e4935c071a97a256ec6d77ce5853705257455f48985753c758baebf4000bc40c0002760900000002fffd) (rs := g1KernelX) (k := 3) (by decide) (by decide +kernel) (by decide +kernel) t

/-- Models src/bls12381/g2.rs:229-246 (`SSWU_Z`). -/
def g2SswuZ : Fq2 := ⟨Fp.ofMont [0x87ebfffffff9555c, 0x656fffe5da8ffffa, 0xfd0749345d33ad2, 0xd951e663066576f4, 0xde291a3d41e980d3, 0x815664c7dfe040d], Fp.ofMont [0x43f5fffffffcaaae, 0x32b7fff2ed47fffd, 0x7e83a49a2e99d69, 0xeca8f3318332bb7a, 0xef148d1ea0f4c069, 0x40ab3263eff0206]⟩
/-- Models src/bls12381/g2.rs:248-258 (`ISO_A`). `Fq::zero()` is written as six zero limbs here and in the tables. -/
def g2IsoA : Fq2 := ⟨Fp.ofMont [0x0, 0x0, 0x0, 0x0, 0x0, 0x0], Fp.ofMont [0xe53a000003135242, 0x1080c0fdef80285, 0xe7889edbe340f6bd, 0xb51375126310601, 0x2d6985717c744ab, 0x1220b4e979ea5467]⟩
/-- Models src/bls12381/g2.rs:260-277 (`ISO_B`). -/
def g2IsoB : Fq2 := ⟨Fp.ofMont [0x22ea00000cf89db2, 0x6ec832df71380aa4, 0x6e1b94403db5a66e, 0x75bf3c53a79473ba, 0x3dd3a569412c0a34, 0x125cdb5e74dc4fd1], Fp.ofMont [0x22ea00000cf89db2, 0x6ec832df71380aa4, 0x6e1b94403db5a66e, 0x75bf3c53a79473ba, 0x3dd3a569412c0a34, 0x125cdb5e74dc4fd1]⟩

/-- The limbs of `ISO3_XNUM`, src/bls12381/g2.rs:433-492. -/
def iso3Xnum : List (List ℕ × List ℕ) := [
  ([0x47f671c71ce05e62, 0x6dd57071206393e, 0x7c80cd2af3fd71a2, 0x48103ea9e6cd062, 0xc54516acc8d037f6, 0x13808f550920ea41], [0x47f671c71ce05e62, 0x6dd57071206393e, 0x7c80cd2af3fd71a2, 0x48103ea9e6cd062, 0xc54516acc8d037f6, 0x13808f550920ea41]),
  ([0x0, 0x0, 0x0, 0x0, 0x0, 0x0], [0x5fe55555554c71d0, 0x873fffdd236aaaa3, 0x6a6b4619b26ef918, 0x21c2888408874945, 0x2836cda7028cabc5, 0xac73310a7fd5abd]),
  ([0xa0c5555555971c3, 0xdb0c00101f9eaaae, 0xb1fb2f941d797997, 0xd3960742ef416e1c, 0xb70040e2c20556f4, 0x149d7861e581393b], [0xaff2aaaaaaa638e8, 0x439fffee91b55551, 0xb535a30cd9377c8c, 0x90e144420443a4a2, 0x941b66d3814655e2, 0x563998853fead5e]),
  ([0x40aac71c71c725ed, 0x190955557a84e38e, 0xd817050a8f41abc3, 0xd86485d4c87f6fb1, 0x696eb479f885d059, 0x198e1a74328002d2], [0x0, 0x0, 0x0, 0x0, 0x0, 0x0])]

/-- The limbs of `ISO3_XDEN`, src/bls12381/g2.rs:495-526 except for the last entry `Fq2::one()`. -/
def iso3Xden : List (List ℕ × List ℕ) := [
  ([0x0, 0x0, 0x0, 0x0, 0x0, 0x0], [0x1f3affffff13ab97, 0xf25bfc611da3ff3e, 0xca3757cb3819b208, 0x3e6427366f8cec18, 0x3977bc86095b089, 0x4f69db13f39a952]),
  ([0x447600000027552e, 0xdcb8009a43480020, 0x6f7ee9ce4a6e8b59, 0xb10330b7c0a95bc6, 0x6140b1fcfb1e54b7, 0x381be097f0bb4e1], [0x7588ffffffd8557d, 0x41f3ff646e0bffdf, 0xf7b1e8d2ac426aca, 0xb3741acd32dbb6f8, 0xe9daf5b9482d581f, 0x167f53e0ba7431b8])]

/-- The limbs of `ISO3_YNUM`, src/bls12381/g2.rs:529-588. -/
def iso3Ynum : List (List ℕ × List ℕ) := [
  ([0x96d8f684bdfc77be, 0xb530e4f43b66d0e2, 0x184a88ff379652fd, 0x57cb23ecfae804e1, 0xfd2e39eada3eba9, 0x8c8055e31c5d5c3], [0x96d8f684bdfc77be, 0xb530e4f43b66d0e2, 0x184a88ff379652fd, 0x57cb23ecfae804e1, 0xfd2e39eada3eba9, 0x8c8055e31c5d5c3]),
  ([0x0, 0x0, 0x0, 0x0, 0x0, 0x0], [0xbf0a71c71c91b406, 0x4d6d55d28b7638fd, 0x9d82f98e5f205aee, 0xa27aa27b1d1a18d5, 0x2c3b2b2d2938e86, 0xc7d13420b09807f]),
  ([0xd7f9555555531c74, 0x21cffff748daaaa8, 0x5a9ad1866c9bbe46, 0x4870a2210221d251, 0x4a0db369c0a32af1, 0x2b1ccc429ff56af], [0xe205aaaaaaac8e37, 0xfcdc000768795556, 0xc96011a8a1537dd, 0x1c06a963f163406e, 0x10df44c82a881e6, 0x174f45260f808feb]),
  ([0xa470bda12f67f35c, 0xc0fe38e23327b425, 0xc9d3d0f2c6f0678d, 0x1c55c9935b5a982e, 0x27f6c0e2f0746764, 0x117c5e6e28aa9054], [0x0, 0x0, 0x0, 0x0, 0x0, 0x0])]

/-- The limbs of `ISO3_YDEN`, src/bls12381/g2.rs:591-640 except for the last entry `Fq2::one()`. -/
def iso3Yden : List (List ℕ × List ℕ) := [
  ([0x162fffffa765adf, 0x8f7bea480083fb75, 0x561b3c2259e93611, 0x11e19fc1a9c875d5, 0xca713efc00367660, 0x3c6a03d41da1151], [0x162fffffa765adf, 0x8f7bea480083fb75, 0x561b3c2259e93611, 0x11e19fc1a9c875d5, 0xca713efc00367660, 0x3c6a03d41da1151]),
  ([0x0, 0x0, 0x0, 0x0, 0x0, 0x0], [0x5db0fffffd3b02c5, 0xd713f52358ebfdba, 0x5ea60761a84d161a, 0xbb2c75a34ea6c44a, 0xac6735921c1119b, 0xee3d913bdacfbf6]),
  ([0x66b10000003affc5, 0xcb1400e764ec0030, 0xa73e5eb56fa5d106, 0x8984c913a0fe09a9, 0x11e10afb78ad7f13, 0x5429d0e3e918f52], [0x534dffffffc4aae6, 0x5397ff174c67ffcf, 0xbff273eb870b251d, 0xdaf2827152870915, 0x393a9cbaca9e2dc3, 0x14be74dbfaee5748])]

/-- Models `COEFFS`, src/bls12381/g2.rs:289. -/
def g2Iso : IsoTable Fq2 := ⟨iso3Xnum.map montPair, iso3Xden.map montPair ++ [1], iso3Ynum.map montPair, iso3Yden.map montPair ++ [1]⟩

/-- The shadow of `Fq2`. -/
abbrev sh2 : Sh (ℕ × ℕ) Fq2 := shQuad blsQ beta nonRes_base

@[irreducible] def rinv : ℕ := 0x14fec701e8fb0ce9ed5e64273c4f538b1797ab1458a88de9343ea97914956dc87fe11274d898fafbf4d38259380b4820

/-- Montgomery limbs to a shadow. -/
def mont2 (x : List ℕ × List ℕ) : ℕ × ℕ := (val x.1 * rinv % blsQ, val x.2 * rinv % blsQ)

theorem mont2_eq (x : List ℕ × List ℕ) (h : IsElem blsQ x.1 ∧ IsElem blsQ x.2) : (montPair x : Fq2) = sh2.φ (mont2 x) :=
  montPair_eq x h rinv (by decide +kernel)

/-- A check for `IsElem`. -/
def elemOk (x : List ℕ) : Bool := decide (x.length = numLimbs blsQ) && x.all (fun y => decide (y < 2 ^ 64)) && decide (val x < blsQ)

theorem elemOk_spec {x : List ℕ} (h : elemOk x = true) : IsElem blsQ x := by
  unfold elemOk at h
  rw [Bool.and_eq_true, Bool.and_eq_true, decide_eq_true_eq, List.all_eq_true, decide_eq_true_eq] at h
  exact ⟨h.1.1, fun y hy => of_decide_eq_true (h.1.2 y hy), h.2⟩

theorem montTab_eq (l : List (List ℕ × List ℕ)) (h : l.all (fun x => elemOk x.1 && elemOk x.2) = true) :
    l.map (montPair : _ → Fq2) = (l.map mont2).map sh2.φ := by
  rw [List.map_map]
  rw [List.all_eq_true] at h
  refine List.map_congr_left fun x hx => ?_
  have := h x hx
  rw [Bool.and_eq_true] at this
  exact mont2_eq x ⟨elemOk_spec this.1, elemOk_spec this.2⟩

@[irreducible] def g2SswuZVal : ℕ × ℕ := (0x1a0111ea397fe69a4b1ba7b6434bacd764774b84f38512bf6730d2a0f6b0f6241eabfffeb153ffffb9feffffffffaaa9, 0x1a0111ea397fe69a4b1ba7b6434bacd764774b84f38512bf6730d2a0f6b0f6241eabfffeb153ffffb9feffffffffaaaa)
@[irreducible] def g2IsoAVal : ℕ × ℕ := (0x0, 0xf0)
@[irreducible] def g2IsoBVal : ℕ × ℕ := (0x3f4, 0x3f4)
theorem g2SswuZVal_eq : g2SswuZ = sh2.φ g2SswuZVal :=
  (mont2_eq ([0x87ebfffffff9555c, 0x656fffe5da8ffffa, 0xfd0749345d33ad2, 0xd951e663066576f4, 0xde291a3d41e980d3, 0x815664c7dfe040d], [0x43f5fffffffcaaae, 0x32b7fff2ed47fffd, 0x7e83a49a2e99d69, 0xeca8f3318332bb7a, 0xef148d1ea0f4c069, 0x40ab3263eff0206]) ⟨elemOk_spec (by decide +kernel), elemOk_spec (by decide +kernel)⟩).trans (congrArg sh2.φ (by decide +kernel))
theorem g2IsoAVal_eq : g2IsoA = sh2.φ g2IsoAVal :=
  (mont2_eq ([0x0, 0x0, 0x0, 0x0, 0x0, 0x0], [0xe53a000003135242, 0x1080c0fdef80285, 0xe7889edbe340f6bd, 0xb51375126310601, 0x2d6985717c744ab, 0x1220b4e979ea5467]) ⟨elemOk_spec (by decide +kernel), elemOk_spec (by decide +kernel)⟩).trans (congrArg sh2.φ (by decide +kernel))
theorem g2IsoBVal_eq : g2IsoB = sh2.φ g2IsoBVal :=
  (mont2_eq ([0x22ea00000cf89db2, 0x6ec832df71380aa4, 0x6e1b94403db5a66e, 0x75bf3c53a79473ba, 0x3dd3a569412c0a34, 0x125cdb5e74dc4fd1], [0x22ea00000cf89db2, 0x6ec832df71380aa4, 0x6e1b94403db5a66e, 0x75bf3c53a79473ba, 0x3dd3a569412c0a34, 0x125cdb5e74dc4fd1]) ⟨elemOk_spec (by decide +kernel), elemOk_spec (by decide +kernel)⟩).trans (congrArg sh2.φ (by decide +kernel))

/-- A pair whose norm is a non-square is a non-square. -/
theorem not_square2 (x : ℕ × ℕ) (h : powMod blsQ ((x.1 * x.1 + (blsQ - beta) * (x.2 * x.2)) % blsQ) ((blsQ - 1) / 2) + 1 = blsQ) :
    ¬ IsSquare (sh2.φ x) := by
  apply Quad.not_square_of_norm
  have e : Quad.norm (sh2.φ x) = (((x.1 * x.1 + (blsQ - beta) * (x.2 * x.2)) % blsQ : ℕ) : Fq) := by
    rw [Quad.norm_eq, nonRes_base, cast_mod']
    change (x.1 : Fq) * (x.1 : Fq) - (beta : Fq) * ((x.2 : Fq) * (x.2 : Fq)) = _
    have hb : beta ≤ blsQ := by decide +kernel
    push_cast [Nat.cast_sub hb]
    rw [CharP.cast_eq_zero (Fp blsQ) blsQ]
    ring
  rw [e]
  exact Fp.not_square_of _ (by decide +kernel) h

theorem g2_sswuZ : SswuZ g2IsoA g2IsoB g2SswuZ := by
  rw [g2IsoAVal_eq, g2IsoBVal_eq, g2SswuZVal_eq]
  exact sswuZ_of sh2 (a := g2IsoAVal) (b := g2IsoBVal) (z := g2SswuZVal) (e := (0x1a59d4b6bbf912a32d63b43028e2deeebe8d5d97ca64b6d66f64ac7a265a9305e1a40da5edb81b4e3ac4f5c28f5bd27, 0x15103a07f641331bb298f5ed3ba1230aa0bcc9f87d923077324df24a0f7ffa93045d3d6f94c17ae10efa11eb851e7336)) (r := (0x1776b5d3dd70bb2ac6e46be0849209c9c47853350da878bdc14a5042102f1f01cbc75043b8d13d709dd5ca27f92cb390, 0x2c094c100c4f8a157767045bc04279dd04f207fbddc4de6675911b512cddacc0061215698453b5b11125516029e4d21)) (by decide +kernel)
    (not_square2 g2SswuZVal (by decide +kernel))

theorem g2Iso_eq : g2Iso = ⟨(iso3Xnum.map mont2).map sh2.φ, (iso3Xden.map mont2 ++ [(1, 0)]).map sh2.φ,
    (iso3Ynum.map mont2).map sh2.φ, (iso3Yden.map mont2 ++ [(1, 0)]).map sh2.φ⟩ := by
  have h1 : sh2.φ (1, 0) = 1 := sh2.φ_one
  unfold g2Iso
  simp only [List.map_append, List.map_cons, List.map_nil, h1]
  rw [montTab_eq iso3Xnum (by decide +kernel), montTab_eq iso3Xden (by decide +kernel), montTab_eq iso3Ynum (by decide +kernel), montTab_eq iso3Yden (by decide +kernel)]

theorem g2_isoIdent : IsoIdent g2 g2IsoA g2IsoB g2Iso := by
  rw [g2Iso_eq, g2IsoAVal_eq, g2IsoBVal_eq]
  exact isoIdent_of sh2 (a := (0, 0)) (b := g2BVal) (a' := g2IsoAVal) (b' := g2IsoBVal) (by decide +kernel)
    (g2_a.trans sh2.φ_zero.symm) g2BVal_eq

/-- The abscissa of the kernel of the 3-isogeny, whose points are not rational. -/
@[irreducible] def g2KernelX : ℕ × ℕ := (0x1a0111ea397fe69a4b1ba7b6434bacd764774b84f38512bf6730d2a0f6b0f6241eabfffeb153ffffb9feffffffffaaa5, 0x6)

/-- The right-hand side of the isogenous curve at it. -/
@[irreducible] def g2KernelG : ℕ × ℕ := (0x4, 0x4)

theorem g2KernelX_nonsquare : ¬ IsSquare (rhs g2IsoA g2IsoB (sh2.φ g2KernelX)) := by
  have e : rhs g2IsoA g2IsoB (sh2.φ g2KernelX) =
      sh2.φ (sh2.add (sh2.add (sh2.mul g2KernelX (sh2.mul g2KernelX g2KernelX)) (sh2.mul g2IsoAVal g2KernelX)) g2IsoBVal) := by
    rw [g2IsoAVal_eq, g2IsoBVal_eq, rhs, sh2.φ_add, sh2.φ_add, sh2.φ_mul, sh2.φ_mul, sh2.φ_mul]
    ring
  rw [e]
  exact not_square2 _ (by decide +kernel)

theorem g2_den (t : Fq2) : (peval g2Iso.xden t = 0 ↔ t = sh2.φ g2KernelX) ∧
    (peval g2Iso.yden t = 0 ↔ t = sh2.φ g2KernelX) := by
  rw [g2Iso_eq]
  constructor
  · rw [peval_zero_iff sh2 (c := (0x1, 0x0)) (rs := [g2KernelX]) (k := 2) (by decide) (by decide +kernel) (by decide +kernel)]
    simp only [List.mem_singleton, exists_eq_left]
  · rw [peval_zero_iff sh2 (c := (0x1, 0x0)) (rs := [g2KernelX]) (k := 3) (by decide) (by decide +kernel) (by decide +kernel)]
    simp only [List.mem_singleton, exists_eq_left]

end Bls12381

end Halo2
