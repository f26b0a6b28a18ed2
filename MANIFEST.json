{
 "claims": [
  {
   "property": "C01",
   "status": "proved",
   "theorems": [
    "Halo2.Props.C01_add",
    "Halo2.Props.C01_double",
    "Halo2.Props.C01_sub",
    "Halo2.Props.C01_neg",
    "Halo2.Props.C01_neg_zero",
    "Halo2.Props.C01_ring"
   ],
   "note": "For every odd modulus and every limb count; all values of the stored limbs."
  },
  {
   "property": "C02",
   "status": "proved",
   "theorems": [
    "Halo2.Props.C02_mul",
    "Halo2.Props.C02_square",
    "Halo2.Props.C02_square_eq_mul",
    "Halo2.Props.C02_wide_exact",
    "Halo2.Props.C02_representation_bijective"
   ],
   "note": "Includes exactness of the wide product and the bijection between canonical limb lists and residues."
  },
  {
   "property": "C03",
   "status": "proved",
   "theorems": [
    "Halo2.Props.C03_from_mont",
    "Halo2.Props.C03_from_raw",
    "Halo2.Props.C03_roundtrip"
   ],
   "note": "from_raw covers every limb string, also values >= p."
  },
  {
   "property": "C04",
   "status": "proved",
   "theorems": [
    "Halo2.Props.C04_encode",
    "Halo2.Props.C04_decode",
    "Halo2.Props.C04_roundtrip",
    "Halo2.Props.C04_unique",
    "Halo2.Props.C04_repr",
    "Halo2.Props.C04_sizes"
   ],
   "note": "Both byte orders; acceptance iff the integer is below p; uniqueness of encodings."
  },
  {
   "property": "C05",
   "status": "proved",
   "theorems": [
    "Halo2.Props.C05_from_uniform_bytes",
    "Halo2.Props.C05_from_u64",
    "Halo2.Props.C05_from_u128"
   ],
   "note": "from_uniform_bytes for every length up to 2*SIZE; from_u64, from_u128, from bool."
  },
  {
   "property": "C06",
   "status": "proved",
   "theorems": [
    "Halo2.Props.C06_raw_roundtrip",
    "Halo2.Props.C06_raw_exact",
    "Halo2.Props.C06_read_raw_exact",
    "Halo2.Props.C06_unchecked",
    "Halo2.Props.C06_write"
   ],
   "note": "Slices and streams; unchecked reader agrees with checked one."
  },
  {
   "property": "C07",
   "status": "proved",
   "theorems": [
    "Halo2.Props.C07_quad_order",
    "Halo2.Props.C07_eq",
    "Halo2.Props.C07_cmp",
    "Halo2.Props.C07_is_odd"
   ],
   "note": "ct_eq, derived equality, cmp, is_odd; C07_quad_order for quadratic extensions."
  },
  {
   "property": "C08",
   "status": "partial",
   "theorems": [
    "Halo2.Props.C08_quad_partial",
    "Halo2.Props.C08_quad_false",
    "Halo2.Props.C08_false",
    "Halo2.Props.C08_exact",
    "Halo2.Props.C08_lex_largest_partial",
    "Halo2.Props.C08_both_largest"
   ],
   "note": "The claim is false of the code at (p-1)/2: C08_false proves the negation for every odd modulus, C08_lex_largest_partial proves it for all other elements; C08_quad_partial gives the exact set of wrong answers in quadratic extensions."
  },
  {
   "property": "C09",
   "status": "proved",
   "theorems": [
    "Halo2.Props.C09_invert",
    "Halo2.Props.C09_invert_prime",
    "Halo2.Props.C09_invert_iff",
    "Halo2.Props.C09_width"
   ],
   "note": "Full Bernstein-Yang inverter on 62-bit chunks: no overflow, termination within an explicit bound, correct result for every odd modulus of at most 2^20 bits (prime or not)."
  },
  {
   "property": "C10",
   "status": "proved",
   "theorems": [
    "Halo2.Props.C10_jacobi",
    "Halo2.Props.C10_width",
    "Halo2.Props.C10_legendre",
    "Halo2.Props.C10_residue",
    "Halo2.Props.C10_approximate_false"
   ],
   "note": "jacobi is proved total and equal to Mathlib's jacobiSym for every odd denominator below 2^(64L-31); legendre on every prime field. The formula in the comment of approximate is refuted (C10_approximate_false), without effect on the result."
  },
  {
   "property": "C11",
   "status": "proved",
   "theorems": [
    "Halo2.Props.C11_sqrt",
    "Halo2.Props.C11_shipped"
   ],
   "note": "Any prime of the two classes up to 512 bits with a non-square generator; the ten fields spelled out."
  },
  {
   "property": "C12",
   "status": "proved",
   "theorems": [
    "Halo2.Props.C12_inv64",
    "Halo2.Props.C12_radix",
    "Halo2.Props.C12_any",
    "Halo2.Props.C12_constants"
   ],
   "note": "Every odd prime and every admissible configuration (C12_any); the ten shipped fields instantiate it."
  },
  {
   "property": "C13",
   "status": "proved",
   "theorems": [
    "Halo2.Props.C13_quotient_ring",
    "Halo2.Props.C13_square_override",
    "Halo2.Props.C13_norm",
    "Halo2.Props.C13_invert_iff",
    "Halo2.Props.C13_invert_total",
    "Halo2.Props.C13_towers"
   ],
   "note": "Any base ring; the hypotheses are shown for the shipped towers (C13_towers)."
  },
  {
   "property": "C14",
   "status": "proved",
   "theorems": [
    "Halo2.Props.C14_quotient_ring",
    "Halo2.Props.C14_invert_iff",
    "Halo2.Props.C14_invert_total",
    "Halo2.Props.C14_towers"
   ],
   "note": "Any base ring; the hypotheses are shown for the shipped towers (C14_towers)."
  },
  {
   "property": "C15",
   "status": "proved",
   "theorems": [
    "Halo2.Props.C15_cubic_sparse",
    "Halo2.Props.C15_mul_by_014",
    "Halo2.Props.C15_mul_by_034"
   ],
   "note": "Any base ring and non-residue."
  },
  {
   "property": "C16",
   "status": "proved",
   "theorems": [
    "Halo2.Props.C16_bn256",
    "Halo2.Props.C16_bls12381",
    "Halo2.Props.C16_pluto"
   ],
   "note": "All powers and all levels of the three towers, with the shipped coefficient tables."
  },
  {
   "property": "C17",
   "status": "proved",
   "theorems": [
    "Halo2.Props.C17_cyclotomic_square"
   ],
   "note": "The three twelfth degree fields."
  },
  {
   "property": "C18",
   "status": "partial",
   "theorems": [
    "Halo2.Props.C18_quad",
    "Halo2.Props.C18_false",
    "Halo2.Props.C18_cubic_partial",
    "Halo2.Props.C18_towers_false"
   ],
   "note": "False for cubic extensions (C18_false, C18_towers_false): v^2 is reported zero. The quadratic case is proved (C18_quad)."
  },
  {
   "property": "C19",
   "status": "partial",
   "theorems": [
    "Halo2.Props.C19_sqrt_bn256",
    "Halo2.Props.C19_sqrt_bls12381",
    "Halo2.Props.C19_pluto_false",
    "Halo2.Props.C19_sqrt_pluto_partial",
    "Halo2.Props.C19_square_iff_norm",
    "Halo2.Props.C19_legendre"
   ],
   "note": "bn256 and bls12381 sqrt proved; legendre of all three extensions proved (C19_legendre). sqrt is false for pluto Fp2 at zero (C19_pluto_false: unbounded recursion); the other inputs are proved."
  },
  {
   "property": "C20",
   "status": "partial",
   "theorems": [
    "Halo2.Props.C20_encode",
    "Halo2.Props.C20_decode_exact",
    "Halo2.Props.C20_panic_iff_partial",
    "Halo2.Props.C20_total_false",
    "Halo2.Props.C20_order",
    "Halo2.Props.C20_lex_largest",
    "Halo2.Props.C20_uniform",
    "Halo2.Props.C20_raw_exact"
   ],
   "note": "The no-panic part is false (C20_total_false): a non-canonical half panics. Round trip, exactness, order, uniform and raw encodings are proved."
  },
  {
   "property": "C21",
   "status": "proved",
   "theorems": [
    "Halo2.Props.C21_group_law",
    "Halo2.Props.C21_valid",
    "Halo2.Props.C21_shipped",
    "Halo2.Props.C21_generators"
   ],
   "note": "Generic over every base field with lawful methods and every curve satisfying Good, instantiated for the eleven shipped curves."
  },
  {
   "property": "C22",
   "status": "proved",
   "theorems": [
    "Halo2.Props.C22_eq",
    "Halo2.Props.C22_toAffine",
    "Halo2.Props.C22_batch_normalize",
    "Halo2.Props.C22_new_jacobian",
    "Halo2.Props.C22_jacobian_round_trip"
   ],
   "note": "Generic over every base field with lawful methods and every curve satisfying Good, instantiated for the eleven shipped curves."
  },
  {
   "property": "C23",
   "status": "proved",
   "theorems": [
    "Halo2.Props.C23_mul_bytes",
    "Halo2.Props.C23_mul",
    "Halo2.Props.C23_sum"
   ],
   "note": "Generic over every base field with lawful methods and every curve satisfying Good, instantiated for the eleven shipped curves."
  },
  {
   "property": "C24",
   "status": "proved",
   "theorems": [
    "Halo2.Props.C24_decompose",
    "Halo2.Props.C24_spec_iff",
    "Halo2.Props.C24_points"
   ],
   "note": "All scalars, all five parameter sets; ZETA of the pasta fields is an external constant."
  },
  {
   "property": "C25",
   "status": "proved",
   "theorems": [
    "Halo2.Props.C25_endo",
    "Halo2.Props.C25_shipped"
   ],
   "note": "Generic over every base field with lawful methods and every curve satisfying Good, instantiated for the eleven shipped curves."
  },
  {
   "property": "C26",
   "status": "partial",
   "theorems": [
    "Halo2.Props.C26_round_trip_partial",
    "Halo2.Props.C26_full",
    "Halo2.Props.C26_others_partial",
    "Halo2.Props.C26_false"
   ],
   "note": "Full round trip for bn256 G1, grumpkin, pluto, eris, secp256k1, secq256k1 (C26_full). False for secp256r1, bls12381 G1 (x=0) and the three G2 curves (sign rule), with witnesses in C26_false; C26_round_trip_partial characterises exactly which points round-trip."
  },
  {
   "property": "C27",
   "status": "partial",
   "theorems": [
    "Halo2.Props.C27_decode_partial",
    "Halo2.Props.C27_full",
    "Halo2.Props.C27_malleable_false",
    "Halo2.Props.C27_total_false"
   ],
   "note": "Full claim for the eight prime-field curves (C27_full). False for the curves over Fp2: malleable at ambiguous y (C27_malleable_false) and decoder panics on non-canonical coordinates (C27_total_false)."
  },
  {
   "property": "C28",
   "status": "partial",
   "theorems": [
    "Halo2.Props.C28_uncompressed",
    "Halo2.Props.C28_raw_partial",
    "Halo2.Props.C28_raw_valid_partial",
    "Halo2.Props.C28_raw_false",
    "Halo2.Props.C28_shipped"
   ],
   "note": "Uncompressed forms in full; raw forms exact, but read_raw does not check the curve and projective from_raw_bytes accepts (0,0,0) (C28_raw_false)."
  },
  {
   "property": "C29",
   "status": "proved",
   "theorems": [
    "Halo2.Props.C29_ln",
    "Halo2.Props.C29_booth",
    "Halo2.Props.C29_window",
    "Halo2.Props.C29_wide_false"
   ],
   "note": "Digit bounds and the weighted sum for all byte strings and all window sizes 1 to 24; C29_wide_false shows 24 is the limit of the 4-byte read. C29_ln derives the window sizes from the real logarithm and an error bound of 2^-40 for f64::ln."
  },
  {
   "property": "C30",
   "status": "proved",
   "theorems": [
    "Halo2.Props.C30_serial",
    "Halo2.Props.C30_acc",
    "Halo2.Props.C30_lengths_false",
    "Halo2.Props.C30_huge"
   ],
   "note": "Product into an identity accumulator for all scalars and points; C30_acc describes other accumulators, C30_lengths_false and C30_huge record deviations from the documentation."
  },
  {
   "property": "C31",
   "status": "proved",
   "theorems": [
    "Halo2.Props.C31_parallel",
    "Halo2.Props.C31_lengths"
   ],
   "note": "All thread counts and all task orders. The f64 logarithm is a parameter with LnCeilOk."
  },
  {
   "property": "C32",
   "status": "partial",
   "theorems": [
    "Halo2.Props.C32_float_false",
    "Halo2.Props.C32_float_wrong",
    "Halo2.Props.C32_no_double_partial",
    "Halo2.Props.C32_best_partial",
    "Halo2.Props.C32_small",
    "Halo2.Props.C32_lengths",
    "Halo2.Props.C32_a_false",
    "Halo2.Props.C32_identity_false",
    "Halo2.Props.C32_shipped_partial",
    "Halo2.Props.C32_a_wrong"
   ],
   "note": "Proved for curves with a = 0 when identity bases have zero scalars (C32_best_partial), for every curve if moreover no bucket can meet its own point (C32_no_double_partial, a condition on the inputs), and for all inputs below window size 10. False otherwise: C32_a_false (panic, secp256r1), C32_a_wrong (a wrong point without a panic, secp256r1), C32_identity_false (bn256 G1), C32_float_false and C32_float_wrong (for any f64::ln within 2^-40)."
  },
  {
   "property": "C33",
   "status": "proved",
   "theorems": [
    "Halo2.Props.C33_fft",
    "Halo2.Props.C33_inverse",
    "Halo2.Props.C33_panic",
    "Halo2.Props.C33_wrap_false",
    "Halo2.Props.C33_points",
    "Halo2.Props.C33_roots",
    "Halo2.Props.C33_threads"
   ],
   "note": "Both the iterative and the recursive version, all sizes below 2^64, any module over a domain; fields and curve points spelled out. C33_threads: for any operations and any factor the number of threads makes no difference to the last bit. C33_wrap_false: without overflow checks log_n >= 64 defeats the length assertion."
  },
  {
   "property": "C34",
   "status": "proved",
   "theorems": [
    "Halo2.Props.C34_expand",
    "Halo2.Props.C34_long",
    "Halo2.Props.C34_empty",
    "Halo2.Props.C34_field",
    "Halo2.Props.C34_field2",
    "Halo2.Props.C34_suites"
   ],
   "note": "Equality with the RFC's construction for any hash function within the RFC's limits; C34_long records what happens beyond them."
  },
  {
   "property": "C35",
   "status": "partial",
   "theorems": [
    "Halo2.Props.C35_svdw",
    "Halo2.Props.C35_prime",
    "Halo2.Props.C35_unique",
    "Halo2.Props.C35_shipped",
    "Halo2.Props.C35_g2_partial",
    "Halo2.Props.C35_hash",
    "Halo2.Props.C35_g2_sign_partial",
    "Halo2.Props.C35_g2_sgn0_false"
   ],
   "note": "SVDW for every field, curve and admissible Z, and for all six shipped suites; missing: the RFC's sgn0 for bn256 G2, which the code does not implement (C35_g2_sgn0_false); C35_g2_sign_partial says for which u the signs agree when the first coordinate of y is not zero."
  },
  {
   "property": "C36",
   "status": "partial",
   "theorems": [
    "Halo2.Props.C36_sswu",
    "Halo2.Props.C36_r1_suite",
    "Halo2.Props.C36_hash",
    "Halo2.Props.C36_g2_sign_partial",
    "Halo2.Props.C36_g2_sgn0_false"
   ],
   "note": "SSWU for every field and admissible constants and for the four shipped suites; missing: the RFC's sgn0 for bls12381 G2, which the code does not implement (C36_g2_sgn0_false); C36_g2_sign_partial says for which u the signs agree when the first coordinate of y is not zero."
  },
  {
   "property": "C37",
   "status": "partial",
   "theorems": [
    "Halo2.Props.C37_k1",
    "Halo2.Props.C37_g2",
    "Halo2.Props.C37_g1_partial",
    "Halo2.Props.C37_g1_kernel",
    "Halo2.Props.C37_g1_false",
    "Halo2.Props.C37_k1_suite",
    "Halo2.Props.C37_g2_suite",
    "Halo2.Props.C37_g1_suite_partial",
    "Halo2.Props.C37_g1_reached",
    "Halo2.Props.C37_absorb"
   ],
   "note": "isogenies of secp256k1 and bls12381 G2 on all points, of bls12381 G1 off the kernel; on the kernel the claim is false (C37_g1_false, reached by hashing: C37_g1_reached)"
  },
  {
   "property": "C38",
   "status": "proved",
   "theorems": [
    "Halo2.Props.C38_bn256",
    "Halo2.Props.C38_pluto",
    "Halo2.Props.C38_bls12381",
    "Halo2.Props.C38_product"
   ],
   "note": "proved in full"
  },
  {
   "property": "C39",
   "status": "proved",
   "theorems": [
    "Halo2.Props.C39_gt",
    "Halo2.Props.C39_default_false"
   ],
   "note": "proved in full; C39_default_false: the derived Default of Gt is not a group element"
  },
  {
   "property": "C40",
   "status": "proved",
   "theorems": [
    "Halo2.Props.C40_bn256",
    "Halo2.Props.C40_bls12381",
    "Halo2.Props.C40_pluto"
   ],
   "note": "proved in full"
  },
  {
   "property": "C41",
   "status": "partial",
   "theorems": [
    "Halo2.Props.C41_prime_order",
    "Halo2.Props.C41_clear",
    "Halo2.Props.C41_free",
    "Halo2.Props.C41_clear_free",
    "Halo2.Props.C41_into_false",
    "Halo2.Props.C41_into_partial"
   ],
   "note": "clear_cofactor (with explicit factors) and is_torsion_free are proved for all eleven groups. into_subgroup is proved wrong for bls12381 G1/G2, pluto G2 and bn256 G2 (C41_into_false)."
  },
  {
   "property": "C42",
   "status": "proved",
   "theorems": [
    "Halo2.Props.C42_quad",
    "Halo2.Props.C42_cubic",
    "Halo2.Props.C42_sum_product",
    "Halo2.Props.C42_points",
    "Halo2.Props.C42_gt"
   ],
   "note": "Lists of any length, including the empty list; prime fields, points, quadratic and cubic extensions."
  },
  {
   "property": "C43",
   "status": "proved",
   "theorems": [
    "Halo2.Props.C43_arith",
    "Halo2.Props.C43_wrap",
    "Halo2.Props.C43_shr",
    "Halo2.Props.C43_sign",
    "Halo2.Props.C43_new"
   ],
   "note": "For all L and all operands. i64::MIN as multiplier is covered for builds without overflow checks (a checked build panics on the negation)."
  },
  {
   "property": "C44",
   "status": "proved",
   "theorems": [
    "Halo2.Props.C44_orders",
    "Halo2.Props.C44_generates",
    "Halo2.Props.C44_kill"
   ],
   "note": "Point counts by explicit points of large order and the bound |E| <= 2q+1, with Pocklington certificates for the primes."
  },
  {
   "property": "C45",
   "status": "proved",
   "theorems": [
    "Halo2.Props.C45_scalars",
    "Halo2.Props.C45_prime_order",
    "Halo2.Props.C45_subgroup"
   ],
   "note": "Any curve and prime; the eleven groups spelled out."
  },
  {
   "property": "C46",
   "status": "proved",
   "theorems": [
    "Halo2.Props.C46_prime_order",
    "Halo2.Props.C46_subgroup",
    "Halo2.Props.C46_glv",
    "Halo2.Props.C46_outside"
   ],
   "note": "All ten curves; decompose_scalar for the groups that have parameters for it. C46_outside shows that the restriction to the subgroup is needed."
  },
  {
   "property": "C47",
   "status": "partial",
   "theorems": [
    "Halo2.Props.C47_bn256_g2",
    "Halo2.Props.C47_bls12381_g2",
    "Halo2.Props.C47_bls12381_g1_partial"
   ],
   "note": "Value k(A+B) with the RFC's points and membership in the subgroup; bls12381 G1: the kernel of the 11-isogeny gives the invalid triple (0,0,0)."
  },
  {
   "property": "C48",
   "status": "proved",
   "theorems": [
    "Halo2.Props.C48_random"
   ],
   "note": "The random number generator is the list of values it yields."
  },
  {
   "property": "C49",
   "status": "proved",
   "theorems": [
    "Halo2.Props.C49_bn256",
    "Halo2.Props.C49_bls12381",
    "Halo2.Props.C49_pluto",
    "Halo2.Props.C49_generators",
    "Halo2.Props.C49_perfect"
   ],
   "note": "For all points killed by r, all scalars and all lists, three engines. Bilinearity by the cocycle of the line values and its trivialisation on the extension; non-degeneracy by kernel evaluation of the loop at the generators."
  },
  {
   "property": "C50",
   "status": "proved",
   "theorems": [
    "Halo2.Props.C50_asm_agrees",
    "Halo2.Props.C50_asm_fields",
    "Halo2.Props.C50_asm_mul_words",
    "Halo2.Props.C50_asm_from_mont_words",
    "Halo2.Props.C50_asm_condition_needed"
   ],
   "note": "Symbolic execution of the seven programs on a small x86-64 machine, then uniqueness of the canonical result; equal to the portable functions for all elements. from_mont on unreduced words is characterised exactly (nonzero multiples of p give p instead of 0)."
  },
  {
   "property": "C51",
   "status": "proved",
   "theorems": [
    "Halo2.Props.C51_to_le_bits",
    "Halo2.Props.C51_char_le_bits",
    "Halo2.Props.C51_injective"
   ],
   "note": "All odd moduli, both word sizes."
  },
  {
   "property": "C52",
   "status": "proved",
   "theorems": [
    "Halo2.Props.C52_serialize",
    "Halo2.Props.C52_deserialize",
    "Halo2.Props.C52_round_trip",
    "Halo2.Props.C52_rejects",
    "Halo2.Props.C52_quad_round_trip",
    "Halo2.Props.C52_quad_deserialize",
    "Halo2.Props.C52_repr"
   ],
   "note": "All prime fields; quadratic extensions and Repr included. serde, serde_arrays and hex are contracts."
  },
  {
   "property": "C53",
   "status": "proved",
   "theorems": [
    "Halo2.Props.C53_table"
   ],
   "note": "All 64-bit integers."
  },
  {
   "property": "C54",
   "status": "proved",
   "theorems": [
    "Halo2.Props.C54_random_field",
    "Halo2.Props.C54_random_quad",
    "Halo2.Props.C54_random_cubic",
    "Halo2.Props.C54_random_12"
   ],
   "note": "Exact counts for prime fields and for the towers of degree 2, 6 and 12."
  },
  {
   "property": "C55",
   "status": "partial",
   "theorems": [
    "Halo2.Props.C55_round_trip_partial",
    "Halo2.Props.C55_round_trip",
    "Halo2.Props.C55_sound",
    "Halo2.Props.C55_panics_false"
   ],
   "note": "Full claim for six curves, rejection for all eight curves over prime fields; points that C26 excludes do not round-trip; deserializing a G2 point can panic (C55_panics_false)."
  },
  {
   "property": "C56",
   "status": "proved",
   "theorems": [
    "Halo2.Props.C56_bn256",
    "Halo2.Props.C56_bls12381",
    "Halo2.Props.C56_pluto"
   ],
   "note": "bn256, bls12381, pluto."
  },
  {
   "property": "C57",
   "status": "proved",
   "theorems": [
    "Halo2.Props.C57_generators"
   ],
   "note": "The ten prime fields; the factorisations of p - 1 are part of the proof."
  },
  {
   "property": "C58",
   "status": "partial",
   "theorems": [
    "Halo2.Props.C58_constants_partial",
    "Halo2.Props.C58_false",
    "Halo2.Props.C58_base_capacity"
   ],
   "note": "generator, two-adicity and capacity are false of the code (C58_false)"
  },
  {
   "property": "C59",
   "status": "partial",
   "theorems": [
    "Halo2.Props.C59_prime_order",
    "Halo2.Props.C59_false",
    "Halo2.Props.C59_tested_partial"
   ],
   "note": "proved for the seven curves of prime order; false for the four with a larger cofactor (C59_false)"
  },
  {
   "property": "C60",
   "status": "proved",
   "theorems": [
    "Halo2.Props.C60_unchecked"
   ],
   "note": "Eleven curves, affine and projective."
  },
  {
   "property": "C61",
   "status": "partial",
   "theorems": [
    "Halo2.Props.C61_bn256",
    "Halo2.Props.C61_bls12381_partial",
    "Halo2.Props.C61_pluto_partial",
    "Halo2.Props.C61_false"
   ],
   "note": "bn256: full claim proved. bls12-381 and pluto: full claim is false (C61_false gives points every decoder accepts on which pairing panics); the exact set of panicking pairs is proved (second point of order 13, resp. 13 or 73)."
  },
  {
   "property": "C62",
   "status": "proved",
   "theorems": [
    "Halo2.Props.C62_field",
    "Halo2.Props.C62_towers",
    "Halo2.Props.C62_points",
    "Halo2.Props.C62_curves"
   ],
   "note": "All fields, towers, target groups and points."
  },
  {
   "property": "C63",
   "status": "partial",
   "theorems": [
    "Halo2.Props.C63_fields_partial",
    "Halo2.Props.C63_extensions_false"
   ],
   "note": "Proved in full for the ten prime fields; false of the extension fields, whose methods are unimplemented (C63_extensions_false)."
  },
  {
   "property": "C64",
   "status": "proved",
   "theorems": [
    "Halo2.Props.C64_bn256",
    "Halo2.Props.C64_bls12381",
    "Halo2.Props.C64_pluto"
   ],
   "note": "Three engines."
  },
  {
   "property": "C65",
   "status": "proved",
   "theorems": [
    "Halo2.Props.C65_count",
    "Halo2.Props.C65_bias",
    "Halo2.Props.C65_suites",
    "Halo2.Props.C65_quad"
   ],
   "note": "All prime fields; quadratic extensions."
  },
  {
   "property": "C66",
   "status": "proved",
   "theorems": [
    "Halo2.Props.C66_field",
    "Halo2.Props.C66_injective",
    "Halo2.Props.C66_points",
    "Halo2.Props.C66_triples",
    "Halo2.Props.C66_triples_false",
    "Halo2.Props.C66_hash"
   ],
   "note": "Affine points: the text identifies the point. Projective points: the text identifies the coordinates; equal points can print differently (C66_triples_false)."
  },
  {
   "property": "C67",
   "status": "proved",
   "theorems": [
    "Halo2.Props.C67_limbs",
    "Halo2.Props.C67_invert",
    "Halo2.Props.C67_jacobi",
    "Halo2.Props.C67_shift",
    "Halo2.Props.C67_legendre",
    "Halo2.Props.C67_booth",
    "Halo2.Props.C67_booth_window",
    "Halo2.Props.C67_msm",
    "Halo2.Props.C67_msm_serial",
    "Halo2.Props.C67_fft",
    "Halo2.Props.C67_fft_value"
   ],
   "note": "Overflow checks, bounds checks and debug assertions of the limb operations, inverter, Jacobi symbol, Booth digits, multi-scalar multiplication and FFT; the checks in expand_message are part of its model (C34). The remaining arithmetic on lengths (serialization, formatting) is not modelled with checks."
  },
  {
   "property": "C68",
   "status": "proved",
   "theorems": [
    "Halo2.Props.C68_svdw",
    "Halo2.Props.C68_sswu_iso",
    "Halo2.Props.C68_shipped_svdw",
    "Halo2.Props.C68_r1",
    "Halo2.Props.C68_k1",
    "Halo2.Props.C68_bls_g2",
    "Halo2.Props.C68_bls_g1"
   ],
   "note": "all suites; the bounds count field elements per point, before the cofactor is cleared for bls12381 G2"
  },
  {
   "property": "C69",
   "status": "proved",
   "theorems": [
    "Halo2.Props.C69_bytes",
    "Halo2.Props.C69_random"
   ],
   "note": "Draws of field elements and bits: counted exactly for any number of rounds (C69_random). Outputs of the generator: C69_bytes, within the bias of the reduction of 2 SIZE bytes."
  },
  {
   "property": "C70",
   "status": "proved",
   "theorems": [
    "Halo2.Props.C70_cycles",
    "Halo2.Props.C70_pairing",
    "Halo2.Props.C70_no_pairing",
    "Halo2.Props.C70_ordinary"
   ],
   "note": "all eleven curves"
  },
  {
   "property": "C71",
   "status": "proved",
   "theorems": [
    "Halo2.Props.C71_new",
    "Halo2.Props.C71_tags",
    "Halo2.Props.C71_expand"
   ],
   "note": "ten suites"
  },
  {
   "property": "C72",
   "status": "proved",
   "theorems": [
    "Halo2.Props.C72_compressed",
    "Halo2.Props.C72_uncompressed",
    "Halo2.Props.C72_raw",
    "Halo2.Props.C72_ietf_g1",
    "Halo2.Props.C72_ietf_false",
    "Halo2.Props.C72_sec1_false"
   ],
   "note": "Every bit of the compressed, uncompressed and raw forms of all eleven curves; agreement with the IETF draft on bls12381 G1; C72_ietf_false and C72_sec1_false record where the formats differ from published ones."
  },
  {
   "property": "C73",
   "status": "proved",
   "theorems": [
    "Halo2.Props.C73_meaning",
    "Halo2.Props.C73_indistinguishable",
    "Halo2.Props.C73_exponents"
   ],
   "note": "Programs with branches and loops; decoding from bytes is not an operation of the programs (see C26-C28). C73_exponents is the version in exponents for the group of prime order."
  },
  {
   "property": "C74",
   "status": "proved",
   "theorems": [
    "Halo2.Props.C74_bn256",
    "Halo2.Props.C74_bls12381",
    "Halo2.Props.C74_pluto"
   ],
   "note": "three engines"
  },
  {
   "property": "C75",
   "status": "proved",
   "theorems": [
    "Halo2.Props.C75_eval",
    "Halo2.Props.C75_interpolate",
    "Halo2.Props.C75_mul",
    "Halo2.Props.C75_commit",
    "Halo2.Props.C75_lagrange"
   ],
   "note": "over any field for the polynomial part; over every curve of the library for the commitments"
  },
  {
   "property": "C76",
   "status": "partial",
   "theorems": [
    "Halo2.Props.C76_field",
    "Halo2.Props.C76_mul_count",
    "Halo2.Props.C76_eq",
    "Halo2.Props.C76_eq_false",
    "Halo2.Props.C76_base",
    "Halo2.Props.C76_points",
    "Halo2.Props.C76_points_partial",
    "Halo2.Props.C76_mul_partial",
    "Halo2.Props.C76_leak",
    "Halo2.Props.C76_mul_false",
    "Halo2.Props.C76_generators_false",
    "Halo2.Props.C76_invert_false"
   ],
   "note": "Holds for field arithmetic, selection, encoding and addition of points (C76_field, C76_base, C76_points). False for comparisons, doubling, scalar multiplication and inversion: the exact traces are proved, with the dependence on the leading zero bits of the scalar and concrete witnesses (C76_eq, C76_mul_partial, C76_leak, *_false)."
  },
  {
   "property": "C77",
   "status": "proved",
   "theorems": [
    "Halo2.Props.C77_read_field",
    "Halo2.Props.C77_read_tower",
    "Halo2.Props.C77_read_points",
    "Halo2.Props.C77_read_many",
    "Halo2.Props.C77_read_pair",
    "Halo2.Props.C77_first_bad",
    "Halo2.Props.C77_write_many",
    "Halo2.Props.C77_write_field",
    "Halo2.Props.C77_write_points",
    "Halo2.Props.C77_to_raw",
    "Halo2.Props.C77_file",
    "Halo2.Props.C77_shipped",
    "Halo2.Props.C77_endian_to",
    "Halo2.Props.C77_endian_from"
   ],
   "note": "Field elements, points and files made of them; the readers and writers of the standard library are modelled by streams and sinks of bounded capacity."
  },
  {
   "property": "C78",
   "status": "proved",
   "theorems": [
    "Halo2.Props.C78_bn256",
    "Halo2.Props.C78_bls12381",
    "Halo2.Props.C78_pluto"
   ],
   "note": "bn256, bls12381 and pluto."
  },
  {
   "property": "C79",
   "status": "partial",
   "theorems": [
    "Halo2.Props.C79_from_xy",
    "Halo2.Props.C79_coordinates_partial",
    "Halo2.Props.C79_identity_false"
   ],
   "note": "from_xy and coordinates are characterised exactly; the documented None for the identity is false of the code (C79_identity_false)."
  },
  {
   "property": "C80",
   "status": "proved",
   "theorems": [
    "Halo2.Props.C80_secp256k1",
    "Halo2.Props.C80_secp256r1"
   ],
   "note": "The program of the test suite as a client, for all keys, hashes, nonces and signatures, on secp256k1 and secp256r1."
  },
  {
   "property": "C81",
   "status": "proved",
   "theorems": [
    "Halo2.Props.C81_bls12381",
    "Halo2.Props.C81_malleable_false"
   ],
   "note": "bls12381; G1 argument anywhere on the curve"
  },
  {
   "property": "C82",
   "status": "proved",
   "theorems": [
    "Halo2.Props.C82_bls12381"
   ],
   "note": "bls12381, signatures in G1"
  },
  {
   "property": "C83",
   "status": "proved",
   "theorems": [
    "Halo2.Props.C83_fields",
    "Halo2.Props.C83_towers",
    "Halo2.Props.C83_points",
    "Halo2.Props.C83_generator",
    "Halo2.Props.C83_gt",
    "Halo2.Props.C83_lint"
   ],
   "note": "All forms of the operators of fields, towers, points, target groups and LInt."
  },
  {
   "property": "C84",
   "status": "proved",
   "theorems": [
    "Halo2.Props.C84_conversions",
    "Halo2.Props.C84_reads",
    "Halo2.Props.C84_writes",
    "Halo2.Props.C84_reverse"
   ],
   "note": "Panic cases exact; write-then-read laws."
  },
  {
   "property": "C85",
   "status": "partial",
   "theorems": [
    "Halo2.Props.C85_false",
    "Halo2.Props.C85_tested_partial"
   ],
   "note": "false of all three engines without the subgroup test (C85_false, explicit points); proved for decoded points that pass is_torsion_free"
  },
  {
   "property": "C86",
   "status": "proved",
   "theorems": [
    "Halo2.Props.C86_meaning",
    "Halo2.Props.C86_indistinguishable",
    "Halo2.Props.C86_unique",
    "Halo2.Props.C86_shipped",
    "Halo2.Props.C86_all_plain"
   ],
   "note": "eight curves over prime fields (C86_shipped); on the G2 curves decoding is not injective (C27), so the claim does not apply there"
  },
  {
   "property": "C87",
   "status": "proved",
   "theorems": [
    "Halo2.Props.C87_bn256",
    "Halo2.Props.C87_bls12381",
    "Halo2.Props.C87_pluto",
    "Halo2.Props.C87_no_panic",
    "Halo2.Props.C87_panics",
    "Halo2.Props.C87_signature"
   ],
   "note": "all programs over the three engines with foreign strings; the exact panicking strings are part of the statement"
  },
  {
   "property": "C88",
   "status": "proved",
   "theorems": [
    "Halo2.Props.C88_msm",
    "Halo2.Props.C88_verifier",
    "Halo2.Props.C88_complete",
    "Halo2.Props.C88_extract",
    "Halo2.Props.C88_binding"
   ],
   "note": "C88_msm instantiates the multi-scalar multiplication with msm_serial and msm_parallel; msm_best is left out because of C32."
  },
  {
   "property": "C89",
   "status": "proved",
   "theorems": [
    "Halo2.Props.C89_rows",
    "Halo2.Props.C89_check"
   ],
   "note": "Every field with the constants of C12; the ten shipped fields by C12_constants."
  },
  {
   "property": "C90",
   "status": "proved",
   "theorems": [
    "Halo2.Props.C90_labels",
    "Halo2.Props.C90_complete",
    "Halo2.Props.C90_sound"
   ],
   "note": "Every field with the constants of C12 and C57; the ten shipped fields by C57_generators and C33_roots."
  },
  {
   "property": "C91",
   "status": "proved",
   "theorems": [
    "Halo2.Props.C91_bn256",
    "Halo2.Props.C91_bls12381",
    "Halo2.Props.C91_pluto"
   ],
   "note": "bn256, bls12381 and pluto; any thread count and task order."
  },
  {
   "property": "C92",
   "status": "proved",
   "theorems": [
    "Halo2.Props.C92_meaning",
    "Halo2.Props.C92_wire",
    "Halo2.Props.C92_indistinguishable",
    "Halo2.Props.C92_wire_indistinguishable",
    "Halo2.Props.C92_transform"
   ],
   "note": "any program, any schedule at each call; msm_best below 8104 terms only (C32 is false above); encodings on the eight curves over prime fields (C92_wire), no encodings on the G2 curves (C27 is false there)"
  },
  {
   "property": "C93",
   "status": "proved",
   "theorems": [
    "Halo2.Props.C93_transform",
    "Halo2.Props.C93_bn256",
    "Halo2.Props.C93_bls12381",
    "Halo2.Props.C93_pluto",
    "Halo2.Props.C93_indistinguishable"
   ],
   "note": "Three engines, under the conditions of C87 (compressed points of the second group are not read) and C92 (msm_best below 8104 terms)."
  },
  {
   "property": "C94",
   "status": "proved",
   "theorems": [
    "Halo2.Props.C94_meaning",
    "Halo2.Props.C94_shipped",
    "Halo2.Props.C94_backends",
    "Halo2.Props.C94_ring",
    "Halo2.Props.C94_base"
   ],
   "note": "all ten prime fields, all programs; portable and assembly back ends, any processor state"
  },
  {
   "property": "C95",
   "status": "proved",
   "theorems": [
    "Halo2.Props.C95_arith",
    "Halo2.Props.C95_sign",
    "Halo2.Props.C95_wrap",
    "Halo2.Props.C95_min_false"
   ],
   "note": "all chunk counts and operands; C95_min_false shows why i64::MIN is excluded"
  },
  {
   "property": "C96",
   "status": "proved",
   "theorems": [
    "Halo2.Props.C96_permute",
    "Halo2.Props.C96_complete",
    "Halo2.Props.C96_sound"
   ],
   "note": "client code over the field model; full strength"
  },
  {
   "property": "C97",
   "status": "proved",
   "theorems": [
    "Halo2.Props.C97_registers",
    "Halo2.Props.C97_pure",
    "Halo2.Props.C97_memory",
    "Halo2.Props.C97_words",
    "Halo2.Props.C97_functions"
   ],
   "note": "All six blocks, by a data flow analysis proved correct for the machine; operand lists compared with the source by tools/transcript.py."
  },
  {
   "property": "C98",
   "status": "proved",
   "theorems": [
    "Halo2.Props.C98_rounds",
    "Halo2.Props.C98_bits",
    "Halo2.Props.C98_shipped"
   ],
   "note": "Lyapunov form contracted by 4/9 for every two division steps; 14 to 25 rounds for the shipped fields"
  },
  {
   "property": "C99",
   "status": "proved",
   "theorems": [
    "Halo2.Props.C99_rounds",
    "Halo2.Props.C99_legendre",
    "Halo2.Props.C99_shipped"
   ],
   "note": "The bound is quadratic in the length; in practice 8 to 14 rounds are seen for 256 bits."
  },
  {
   "property": "C100",
   "status": "proved",
   "theorems": [
    "Halo2.Props.C100_bn256",
    "Halo2.Props.C100_bls12381",
    "Halo2.Props.C100_pluto"
   ],
   "note": "All programs of the language of Ext/Program.lean. Left out of the language: is_zero of the cubic fields (wrong, see C18), cyclotomic_square (right only in the cyclotomic subgroup, C17) and the byte forms (C20). On pluto the square root of zero does not return (C19); the theorem says that the run aborts there."
  },
  {
   "property": "C101",
   "status": "proved",
   "theorems": [
    "Halo2.Props.C101_combine",
    "Halo2.Props.C101_secrecy",
    "Halo2.Props.C101_points",
    "Halo2.Props.C101_wrong",
    "Halo2.Props.C101_check",
    "Halo2.Props.C101_bls12381_wrong",
    "Halo2.Props.C101_bls12381"
   ],
   "note": "The client functions are written here, as for C78 and C80: the repository has no secret sharing. C101_wrong and C101_secrecy need points different from zero."
  },
  {
   "property": "C102",
   "status": "proved",
   "theorems": [
    "Halo2.Props.C102_key",
    "Halo2.Props.C102_exact",
    "Halo2.Props.C102_unique",
    "Halo2.Props.C102_reuse",
    "Halo2.Props.C102_bound",
    "Halo2.Props.C102_batch",
    "Halo2.Props.C102_batch_wrong",
    "Halo2.Props.C102_curves"
   ],
   "note": "on bn256 G1, grumpkin, pluto, eris, secp256k1 and secq256k1"
  },
  {
   "property": "C103",
   "status": "proved",
   "theorems": [
    "Halo2.Props.C103_setup",
    "Halo2.Props.C103_verify",
    "Halo2.Props.C103_trapdoor",
    "Halo2.Props.C103_alter",
    "Halo2.Props.C103_prove",
    "Halo2.Props.C103_hiding",
    "Halo2.Props.C103_wrong",
    "Halo2.Props.C103_engines"
   ],
   "note": "The client functions are definitions of Props/Groth16.lean; soundness against provers outside the honest form is a cryptographic assumption and not claimed"
  },
  {
   "property": "C104",
   "status": "proved",
   "theorems": [
    "Halo2.Props.C104_blind",
    "Halo2.Props.C104_run",
    "Halo2.Props.C104_total",
    "Halo2.Props.C104_output",
    "Halo2.Props.C104_proofs",
    "Halo2.Props.C104_accept",
    "Halo2.Props.C104_sound",
    "Halo2.Props.C104_suites"
   ],
   "note": "The client functions are definitions of Props/Oprf.lean; C104_sound is the algebraic part of soundness, the rest is an assumption on the hash function and not claimed"
  },
  {
   "property": "C105",
   "status": "proved",
   "theorems": [
    "Halo2.Props.C105_eval",
    "Halo2.Props.C105_open",
    "Halo2.Props.C105_commit"
   ],
   "note": "The client functions are definitions of Props/Rows.lean"
  },
  {
   "property": "C106",
   "status": "proved",
   "theorems": [
    "Halo2.Props.C106_sbox",
    "Halo2.Props.C106_fields",
    "Halo2.Props.C106_rounds",
    "Halo2.Props.C106_matrix",
    "Halo2.Props.C106_permute"
   ],
   "note": "Props/Sponge.lean"
  },
  {
   "property": "C107",
   "status": "proved",
   "theorems": [
    "Halo2.Props.C107_fold",
    "Halo2.Props.C107_degree",
    "Halo2.Props.C107_all",
    "Halo2.Props.C107_sound"
   ],
   "note": "Props/Fold.lean"
  }
 ]
}