{
 "C01": {
  "status": "proved",
  "note": "For every odd modulus and every limb count; all values of the stored limbs."
 },
 "C02": {
  "status": "proved",
  "note": "Includes exactness of the wide product and the bijection between canonical limb lists and residues."
 },
 "C03": {
  "status": "proved",
  "note": "from_raw covers every limb string, also values >= p."
 },
 "C04": {
  "status": "proved",
  "note": "Both byte orders; acceptance iff the integer is below p; uniqueness of encodings."
 },
 "C05": {
  "status": "proved",
  "note": "from_uniform_bytes for every length up to 2*SIZE; from_u64, from_u128, from bool."
 },
 "C06": {
  "status": "proved",
  "note": "Slices and streams; unchecked reader agrees with checked one."
 },
 "C07": {
  "status": "proved",
  "note": "ct_eq, derived equality, cmp, is_odd; C07_quad_order for quadratic extensions."
 },
 "C08": {
  "status": "partial",
  "note": "The claim is false of the code at (p-1)/2: C08_false proves the negation for every odd modulus, C08_lex_largest_partial proves it for all other elements; C08_quad_partial gives the exact set of wrong answers in quadratic extensions."
 },
 "C09": {
  "status": "proved",
  "note": "Full Bernstein-Yang inverter on 62-bit chunks: no overflow, termination within an explicit bound, correct result for every odd modulus of at most 2^20 bits (prime or not)."
 },
 "C10": {
  "status": "proved",
  "note": "jacobi is proved total and equal to Mathlib's jacobiSym for every odd denominator below 2^(64L-31); legendre on every prime field. The formula in the comment of approximate is refuted (C10_approximate_false), without effect on the result."
 },
 "C100": {
  "status": "proved",
  "note": "All programs of the language of Ext/Program.lean. Left out of the language: is_zero of the cubic fields (wrong, see C18), cyclotomic_square (right only in the cyclotomic subgroup, C17) and the byte forms (C20). On pluto the square root of zero does not return (C19); the theorem says that the run aborts there."
 },
 "C101": {
  "status": "proved",
  "note": "The client functions are written here, as for C78 and C80: the repository has no secret sharing. C101_wrong and C101_secrecy need points different from zero."
 },
 "C102": {
  "status": "proved",
  "note": "on bn256 G1, grumpkin, pluto, eris, secp256k1 and secq256k1"
 },
 "C103": {
  "status": "proved",
  "note": "The client functions are definitions of Props/Groth16.lean; soundness against provers outside the honest form is a cryptographic assumption and not claimed"
 },
 "C104": {
  "status": "proved",
  "note": "The client functions are definitions of Props/Oprf.lean; C104_sound is the algebraic part of soundness, the rest is an assumption on the hash function and not claimed"
 },
 "C105": {
  "status": "proved",
  "note": "The client functions are definitions of Props/Rows.lean"
 },
 "C106": {
  "status": "proved",
  "note": "Props/Sponge.lean"
 },
 "C107": {
  "status": "proved",
  "note": "Props/Fold.lean"
 },
 "C11": {
  "status": "proved",
  "note": "Any prime of the two classes up to 512 bits with a non-square generator; the ten fields spelled out."
 },
 "C12": {
  "status": "proved",
  "note": "Every odd prime and every admissible configuration (C12_any); the ten shipped fields instantiate it."
 },
 "C13": {
  "status": "proved",
  "note": "Any base ring; the hypotheses are shown for the shipped towers (C13_towers)."
 },
 "C14": {
  "status": "proved",
  "note": "Any base ring; the hypotheses are shown for the shipped towers (C14_towers)."
 },
 "C15": {
  "status": "proved",
  "note": "Any base ring and non-residue."
 },
 "C16": {
  "status": "proved",
  "note": "All powers and all levels of the three towers, with the shipped coefficient tables."
 },
 "C17": {
  "status": "proved",
  "note": "The three twelfth degree fields."
 },
 "C18": {
  "status": "partial",
  "note": "False for cubic extensions (C18_false, C18_towers_false): v^2 is reported zero. The quadratic case is proved (C18_quad)."
 },
 "C19": {
  "status": "partial",
  "note": "bn256 and bls12381 sqrt proved; legendre of all three extensions proved (C19_legendre). sqrt is false for pluto Fp2 at zero (C19_pluto_false: unbounded recursion); the other inputs are proved."
 },
 "C20": {
  "status": "partial",
  "note": "The no-panic part is false (C20_total_false): a non-canonical half panics. Round trip, exactness, order, uniform and raw encodings are proved."
 },
 "C21": {
  "status": "proved",
  "note": "Generic over every base field with lawful methods and every curve satisfying Good, instantiated for the eleven shipped curves."
 },
 "C22": {
  "status": "proved",
  "note": "Generic over every base field with lawful methods and every curve satisfying Good, instantiated for the eleven shipped curves."
 },
 "C23": {
  "status": "proved",
  "note": "Generic over every base field with lawful methods and every curve satisfying Good, instantiated for the eleven shipped curves."
 },
 "C24": {
  "status": "proved",
  "note": "All scalars, all five parameter sets; ZETA of the pasta fields is an external constant."
 },
 "C25": {
  "status": "proved",
  "note": "Generic over every base field with lawful methods and every curve satisfying Good, instantiated for the eleven shipped curves."
 },
 "C26": {
  "status": "partial",
  "note": "Full round trip for bn256 G1, grumpkin, pluto, eris, secp256k1, secq256k1 (C26_full). False for secp256r1, bls12381 G1 (x=0) and the three G2 curves (sign rule), with witnesses in C26_false; C26_round_trip_partial characterises exactly which points round-trip."
 },
 "C27": {
  "status": "partial",
  "note": "Full claim for the eight prime-field curves (C27_full). False for the curves over Fp2: malleable at ambiguous y (C27_malleable_false) and decoder panics on non-canonical coordinates (C27_total_false)."
 },
 "C28": {
  "status": "partial",
  "note": "Uncompressed forms in full; raw forms exact, but read_raw does not check the curve and projective from_raw_bytes accepts (0,0,0) (C28_raw_false)."
 },
 "C29": {
  "status": "proved",
  "note": "Digit bounds and the weighted sum for all byte strings and all window sizes 1 to 24; C29_wide_false shows 24 is the limit of the 4-byte read. C29_ln derives the window sizes from the real logarithm and an error bound of 2^-40 for f64::ln."
 },
 "C30": {
  "status": "proved",
  "note": "Product into an identity accumulator for all scalars and points; C30_acc describes other accumulators, C30_lengths_false and C30_huge record deviations from the documentation."
 },
 "C31": {
  "status": "proved",
  "note": "All thread counts and all task orders. The f64 logarithm is a parameter with LnCeilOk."
 },
 "C32": {
  "status": "partial",
  "note": "Proved for curves with a = 0 when identity bases have zero scalars (C32_best_partial), for every curve if moreover no bucket can meet its own point (C32_no_double_partial, a condition on the inputs), and for all inputs below window size 10. False otherwise: C32_a_false (panic, secp256r1), C32_a_wrong (a wrong point without a panic, secp256r1), C32_identity_false (bn256 G1), C32_float_false and C32_float_wrong (for any f64::ln within 2^-40)."
 },
 "C33": {
  "status": "proved",
  "note": "Both the iterative and the recursive version, all sizes below 2^64, any module over a domain; fields and curve points spelled out. C33_threads: for any operations and any factor the number of threads makes no difference to the last bit. C33_wrap_false: without overflow checks log_n >= 64 defeats the length assertion."
 },
 "C34": {
  "status": "proved",
  "note": "Equality with the RFC's construction for any hash function within the RFC's limits; C34_long records what happens beyond them."
 },
 "C35": {
  "status": "partial",
  "note": "SVDW for every field, curve and admissible Z, and for all six shipped suites; missing: the RFC's sgn0 for bn256 G2, which the code does not implement (C35_g2_sgn0_false); C35_g2_sign_partial says for which u the signs agree when the first coordinate of y is not zero."
 },
 "C36": {
  "status": "partial",
  "note": "SSWU for every field and admissible constants and for the four shipped suites; missing: the RFC's sgn0 for bls12381 G2, which the code does not implement (C36_g2_sgn0_false); C36_g2_sign_partial says for which u the signs agree when the first coordinate of y is not zero."
 },
 "C37": {
  "status": "partial",
  "note": "isogenies of secp256k1 and bls12381 G2 on all points, of bls12381 G1 off the kernel; on the kernel the claim is false (C37_g1_false, reached by hashing: C37_g1_reached)"
 },
 "C38": {
  "status": "proved",
  "note": "proved in full"
 },
 "C39": {
  "status": "proved",
  "note": "proved in full; C39_default_false: the derived Default of Gt is not a group element"
 },
 "C40": {
  "status": "proved",
  "note": "proved in full"
 },
 "C41": {
  "status": "partial",
  "note": "clear_cofactor (with explicit factors) and is_torsion_free are proved for all eleven groups. into_subgroup is proved wrong for bls12381 G1/G2, pluto G2 and bn256 G2 (C41_into_false)."
 },
 "C42": {
  "status": "proved",
  "note": "Lists of any length, including the empty list; prime fields, points, quadratic and cubic extensions."
 },
 "C43": {
  "status": "proved",
  "note": "For all L and all operands. i64::MIN as multiplier is covered for builds without overflow checks (a checked build panics on the negation)."
 },
 "C44": {
  "status": "proved",
  "note": "Point counts by explicit points of large order and the bound |E| <= 2q+1, with Pocklington certificates for the primes."
 },
 "C45": {
  "status": "proved",
  "note": "Any curve and prime; the eleven groups spelled out."
 },
 "C46": {
  "status": "proved",
  "note": "All ten curves; decompose_scalar for the groups that have parameters for it. C46_outside shows that the restriction to the subgroup is needed."
 },
 "C47": {
  "status": "partial",
  "note": "Value k(A+B) with the RFC's points and membership in the subgroup; bls12381 G1: the kernel of the 11-isogeny gives the invalid triple (0,0,0)."
 },
 "C48": {
  "status": "proved",
  "note": "The random number generator is the list of values it yields."
 },
 "C49": {
  "status": "proved",
  "note": "For all points killed by r, all scalars and all lists, three engines. Bilinearity by the cocycle of the line values and its trivialisation on the extension; non-degeneracy by kernel evaluation of the loop at the generators."
 },
 "C50": {
  "status": "proved",
  "note": "Symbolic execution of the seven programs on a small x86-64 machine, then uniqueness of the canonical result; equal to the portable functions for all elements. from_mont on unreduced words is characterised exactly (nonzero multiples of p give p instead of 0)."
 },
 "C51": {
  "status": "proved",
  "note": "All odd moduli, both word sizes."
 },
 "C52": {
  "status": "proved",
  "note": "All prime fields; quadratic extensions and Repr included. serde, serde_arrays and hex are contracts."
 },
 "C53": {
  "status": "proved",
  "note": "All 64-bit integers."
 },
 "C54": {
  "status": "proved",
  "note": "Exact counts for prime fields and for the towers of degree 2, 6 and 12."
 },
 "C55": {
  "status": "partial",
  "note": "Full claim for six curves, rejection for all eight curves over prime fields; points that C26 excludes do not round-trip; deserializing a G2 point can panic (C55_panics_false)."
 },
 "C56": {
  "status": "proved",
  "note": "bn256, bls12381, pluto."
 },
 "C57": {
  "status": "proved",
  "note": "The ten prime fields; the factorisations of p - 1 are part of the proof."
 },
 "C58": {
  "status": "partial",
  "note": "generator, two-adicity and capacity are false of the code (C58_false)"
 },
 "C59": {
  "status": "partial",
  "note": "proved for the seven curves of prime order; false for the four with a larger cofactor (C59_false)"
 },
 "C60": {
  "status": "proved",
  "note": "Eleven curves, affine and projective."
 },
 "C61": {
  "status": "partial",
  "note": "bn256: full claim proved. bls12-381 and pluto: full claim is false (C61_false gives points every decoder accepts on which pairing panics); the exact set of panicking pairs is proved (second point of order 13, resp. 13 or 73)."
 },
 "C62": {
  "status": "proved",
  "note": "All fields, towers, target groups and points."
 },
 "C63": {
  "status": "partial",
  "note": "Proved in full for the ten prime fields; false of the extension fields, whose methods are unimplemented (C63_extensions_false)."
 },
 "C64": {
  "status": "proved",
  "note": "Three engines."
 },
 "C65": {
  "status": "proved",
  "note": "All prime fields; quadratic extensions."
 },
 "C66": {
  "status": "proved",
  "note": "Affine points: the text identifies the point. Projective points: the text identifies the coordinates; equal points can print differently (C66_triples_false)."
 },
 "C67": {
  "status": "proved",
  "note": "Overflow checks, bounds checks and debug assertions of the limb operations, inverter, Jacobi symbol, Booth digits, multi-scalar multiplication and FFT; the checks in expand_message are part of its model (C34). The remaining arithmetic on lengths (serialization, formatting) is not modelled with checks."
 },
 "C68": {
  "status": "proved",
  "note": "all suites; the bounds count field elements per point, before the cofactor is cleared for bls12381 G2"
 },
 "C69": {
  "status": "proved",
  "note": "Draws of field elements and bits: counted exactly for any number of rounds (C69_random). Outputs of the generator: C69_bytes, within the bias of the reduction of 2 SIZE bytes."
 },
 "C70": {
  "status": "proved",
  "note": "all eleven curves"
 },
 "C71": {
  "status": "proved",
  "note": "ten suites"
 },
 "C72": {
  "status": "proved",
  "note": "Every bit of the compressed, uncompressed and raw forms of all eleven curves; agreement with the IETF draft on bls12381 G1; C72_ietf_false and C72_sec1_false record where the formats differ from published ones."
 },
 "C73": {
  "status": "proved",
  "note": "Programs with branches and loops; decoding from bytes is not an operation of the programs (see C26-C28). C73_exponents is the version in exponents for the group of prime order."
 },
 "C74": {
  "status": "proved",
  "note": "three engines"
 },
 "C75": {
  "status": "proved",
  "note": "over any field for the polynomial part; over every curve of the library for the commitments"
 },
 "C76": {
  "status": "partial",
  "note": "Holds for field arithmetic, selection, encoding and addition of points (C76_field, C76_base, C76_points). False for comparisons, doubling, scalar multiplication and inversion: the exact traces are proved, with the dependence on the leading zero bits of the scalar and concrete witnesses (C76_eq, C76_mul_partial, C76_leak, *_false)."
 },
 "C77": {
  "status": "proved",
  "note": "Field elements, points and files made of them; the readers and writers of the standard library are modelled by streams and sinks of bounded capacity."
 },
 "C78": {
  "status": "proved",
  "note": "bn256, bls12381 and pluto."
 },
 "C79": {
  "status": "partial",
  "note": "from_xy and coordinates are characterised exactly; the documented None for the identity is false of the code (C79_identity_false)."
 },
 "C80": {
  "status": "proved",
  "note": "The program of the test suite as a client, for all keys, hashes, nonces and signatures, on secp256k1 and secp256r1."
 },
 "C81": {
  "status": "proved",
  "note": "bls12381; G1 argument anywhere on the curve"
 },
 "C82": {
  "status": "proved",
  "note": "bls12381, signatures in G1"
 },
 "C83": {
  "status": "proved",
  "note": "All forms of the operators of fields, towers, points, target groups and LInt."
 },
 "C84": {
  "status": "proved",
  "note": "Panic cases exact; write-then-read laws."
 },
 "C85": {
  "status": "partial",
  "note": "false of all three engines without the subgroup test (C85_false, explicit points); proved for decoded points that pass is_torsion_free"
 },
 "C86": {
  "status": "proved",
  "note": "eight curves over prime fields (C86_shipped); on the G2 curves decoding is not injective (C27), so the claim does not apply there"
 },
 "C87": {
  "status": "proved",
  "note": "all programs over the three engines with foreign strings; the exact panicking strings are part of the statement"
 },
 "C88": {
  "status": "proved",
  "note": "C88_msm instantiates the multi-scalar multiplication with msm_serial and msm_parallel; msm_best is left out because of C32."
 },
 "C89": {
  "status": "proved",
  "note": "Every field with the constants of C12; the ten shipped fields by C12_constants."
 },
 "C90": {
  "status": "proved",
  "note": "Every field with the constants of C12 and C57; the ten shipped fields by C57_generators and C33_roots."
 },
 "C91": {
  "status": "proved",
  "note": "bn256, bls12381 and pluto; any thread count and task order."
 },
 "C92": {
  "status": "proved",
  "note": "any program, any schedule at each call; msm_best below 8104 terms only (C32 is false above); encodings on the eight curves over prime fields (C92_wire), no encodings on the G2 curves (C27 is false there)"
 },
 "C93": {
  "status": "proved",
  "note": "Three engines, under the conditions of C87 (compressed points of the second group are not read) and C92 (msm_best below 8104 terms)."
 },
 "C94": {
  "status": "proved",
  "note": "all ten prime fields, all programs; portable and assembly back ends, any processor state"
 },
 "C95": {
  "status": "proved",
  "note": "all chunk counts and operands; C95_min_false shows why i64::MIN is excluded"
 },
 "C96": {
  "status": "proved",
  "note": "client code over the field model; full strength"
 },
 "C97": {
  "status": "proved",
  "note": "All six blocks, by a data flow analysis proved correct for the machine; operand lists compared with the source by tools/transcript.py."
 },
 "C98": {
  "status": "proved",
  "note": "Lyapunov form contracted by 4/9 for every two division steps; 14 to 25 rounds for the shipped fields"
 },
 "C99": {
  "status": "proved",
  "note": "The bound is quadratic in the length; in practice 8 to 14 rounds are seen for 256 bits."
 }
}