{"id": "C01", "title": "Field addition, subtraction, negation, doubling are exact modular arithmetic", "statement": "For every prime field produced by the field macro (any limb count n, any modulus p with 1 < p < 2^(64n), including moduli with no spare bit such as secp256k1/secp256r1), a+b, a-b, -a and 2a of canonical elements return the canonical element (integer in [0,p)) congruent to the mathematical result mod p; neg(0)=0.", "quantifier": "all limb counts, all moduli, all pairs of canonical elements", "why_tests_cant": "Carry/borrow chains fail on a set of inputs of density around 2^-64; random tests never reach them, and the operand space has 2^512 or more points.", "anchors": ["derive/src/field/arith.rs::impl_add", "derive/src/field/arith.rs::impl_sub", "derive/src/field/arith.rs::impl_neg", "derive/src/field/arith.rs::impl_double", "src/arithmetic.rs::adc", "src/arithmetic.rs::sbb"]}
{"id": "C02", "title": "Field multiplication and squaring are exact modular arithmetic on Montgomery form", "statement": "For every generated field, a*b and a.square() return a canonical element whose value is the product mod p of the values of the operands, and square agrees with mul; the intermediate 2n-limb accumulation never loses a carry.", "quantifier": "all limb counts, all odd moduli below 2^(64n), all pairs of canonical elements", "why_tests_cant": "A lost carry in Montgomery reduction shows on a vanishing fraction of the inputs and only for some moduli.", "anchors": ["derive/src/field/arith.rs::impl_mul", "derive/src/field/arith.rs::impl_square", "derive/src/field/arith.rs::impl_mont", "src/arithmetic.rs::mac"]}
{"id": "C03", "title": "Leaving Montgomery form yields the canonical integer", "statement": "from_mont (and so to_repr/to_bytes) returns the limbs of the unique integer in [0,p) represented by the element; from_raw(x) represents x mod p for every limb vector x, reduced or not.", "quantifier": "all limb vectors of the field's size, all odd moduli", "why_tests_cant": "Off-by-one reductions (result equal to p or result in [p,2p)) occur on isolated values.", "anchors": ["derive/src/field/arith.rs::impl_from_mont", "derive/src/field/mod.rs::from_raw"]}
{"id": "C04", "title": "Canonical byte encodings of field elements round-trip and are unique", "statement": "from_repr(to_repr(a)) = a and from_bytes(to_bytes(a)) = a for every element; from_repr/from_bytes accept a byte string exactly when the integer it denotes (little endian, or big endian where the field is declared big endian) is < p, and an accepted string is the encoding of the element it decodes to, so each element has exactly one encoding.", "quantifier": "all byte strings of the field's size and all elements, both endiannesses", "why_tests_cant": "There are 2^(64n) strings; malleability lives at the boundary around p.", "anchors": ["derive/src/field/mod.rs::from_repr", "derive/src/field/mod.rs::to_repr", "derive/src/field/mod.rs::from_bytes", "derive/src/field/mod.rs::to_bytes", "src/serde.rs::endian"]}
{"id": "C05", "title": "Wide reduction of uniform bytes", "statement": "from_uniform_bytes(b) is the element representing (little-endian integer of b) mod p for every input of the declared length (SIZE..2*SIZE); From<u64>, from_u128 and from(bool) represent their argument mod p.", "quantifier": "all byte strings of the accepted lengths, all integers below 2^128, all odd moduli", "why_tests_cant": "The input space is up to 2^768; the two halves are combined through R2 and R3 and only a proof shows that no input is off.", "anchors": ["derive/src/field/mod.rs::from_uniform_bytes", "derive/src/field/mod.rs::from_u128", "src/derive/field/common.rs"]}
{"id": "C06", "title": "Raw (Montgomery limb) serialisation of field elements", "statement": "from_raw_bytes(to_raw_bytes(a)) = a; from_raw_bytes/read_raw reject every input whose length is wrong or whose limbs denote an integer >= p, so that no checked read ever produces a non-canonical element; the unchecked readers accept everything and agree with the checked ones on canonical inputs; write_raw writes what to_raw_bytes returns.", "quantifier": "all byte strings and streams", "why_tests_cant": "Rejecting must hold for each of the infinitely many malformed inputs.", "anchors": ["derive/src/field/mod.rs::from_raw_bytes", "derive/src/field/mod.rs::read_raw", "derive/src/field/mod.rs::to_raw_bytes", "src/serde.rs::SerdeObject"]}
{"id": "C07", "title": "Equality and ordering of field elements are those of the represented integers", "statement": "a == b (ct_eq, PartialEq) iff the represented integers are equal; cmp is the order of the represented integers in [0,p) (a total order consistent with equality), although elements are stored in Montgomery form; is_odd is the parity of the represented integer. In quadratic extensions the order is lexicographic, c1 first.", "quantifier": "all pairs of canonical elements", "why_tests_cant": "A relational law over all pairs.", "anchors": ["derive/src/field/mod.rs::cmp", "derive/src/field/mod.rs::ct_eq", "derive/src/field/mod.rs::is_odd", "src/derive/field/tower.rs::cmp"]}
{"id": "C08", "title": "lexicographically_largest decides which of a, -a is larger", "statement": "a.lexicographically_largest() is true iff a is strictly larger than -a in the order of represented integers; so for a != 0 exactly one of a, -a is lexicographically largest. (FALSE of the code at a = (p-1)/2; the exact set of wrong inputs is proved.)", "quantifier": "all field elements, prime fields and quadratic extensions", "why_tests_cant": "The wrong value is one element out of 2^254 or more: no random test finds it.", "anchors": ["derive/src/field/mod.rs::lexicographically_largest", "src/derive/field/tower.rs::lexicographically_largest"]}
{"id": "C09", "title": "Field inversion", "statement": "invert(a) returns Some(a^-1), canonical, for every a != 0 and None for a = 0, for each generated field; the division-step loop terminates on every input.", "quantifier": "all field elements, all odd prime moduli that fit the inverter's limb count", "why_tests_cant": "The Bernstein-Yang loop is data dependent with an unbounded number of batches; signed-overflow corner cases have negligible probability.", "anchors": ["src/ff_ext/inverse.rs::BYInverter", "derive/src/field/mod.rs::invert"]}
{"id": "C10", "title": "Legendre/Jacobi symbol", "statement": "legendre(a) returns the Legendre symbol of the represented integer: 0 iff a=0, 1 iff a is a non-zero square, -1 otherwise, although it is computed on the Montgomery limbs; ct_quadratic_non_residue agrees.", "quantifier": "all field elements, all generated prime fields", "why_tests_cant": "Correctness of a batched binary algorithm using approximations of the leading limbs, for all inputs.", "anchors": ["src/ff_ext/jacobi.rs::jacobi", "derive/src/field/mod.rs::jacobi", "src/ff_ext/mod.rs::Legendre"]}
{"id": "C11", "title": "Prime field square root", "statement": "For every supported prime (p = 3 mod 4 by exponentiation, p = 1 mod 16 by Tonelli-Shanks), sqrt(a) returns Some(r) with r^2 = a iff a is a square, and None otherwise.", "quantifier": "all field elements, all primes in the two supported classes with a non-square generator; in particular the ten shipped fields", "why_tests_cant": "Statement about all quadratic residues and non-residues.", "anchors": ["derive/src/field/mod.rs::sqrt_impl"]}
{"id": "C12", "title": "Constants computed by the field macro are the ones the arithmetic needs", "statement": "For every odd modulus the macro computes inv64 = -p^-1 mod 2^64; R, R2, R3 are 2^(64n), its square and cube mod p. For every odd prime below 2^512, every non-square generator and every primitive cube root of unity it is configured with, TWO_INV*2=1, ROOT_OF_UNITY has order exactly 2^S, ROOT_OF_UNITY*ROOT_OF_UNITY_INV=1, DELTA = g^(2^S), ZETA is a primitive cube root of unity. The ten shipped configurations meet these hypotheses; in particular the moduli are prime.", "quantifier": "all odd moduli and all configurations for the generation algorithm; every field shipped for the tables", "why_tests_cant": "The generator is a program whose output must be right for any modulus it is given.", "anchors": ["derive/src/field/mod.rs::impl_field", "src/*/f*.rs"]}
{"id": "C13", "title": "Quadratic extension arithmetic", "statement": "QuadExtField add/sub/neg/double/mul/square/norm/conjugate/invert implement F[u]/(u^2 - nonresidue): mul is the schoolbook product, square = mul by itself, conjugate multiplies to the norm, invert(a) is Some of the inverse for a != 0 and None for 0 when the non-residue is not a square.", "quantifier": "all base fields, all non-residues, all elements", "why_tests_cant": "Algebraic identities over infinite families; Karatsuba sign errors may cancel on special values.", "anchors": ["src/ff_ext/quadratic.rs", "src/bn256/fq2.rs", "src/bls12381/fq2.rs", "src/pluto_eris/fp2.rs"]}
{"id": "C14", "title": "Cubic extension arithmetic", "statement": "CubicExtField mul/square/invert implement F[v]/(v^3 - nonresidue), with invert(a) Some of the inverse for a != 0, None for 0.", "quantifier": "all base fields, all non-cube non-residues, all elements", "why_tests_cant": "Algebraic identity over all elements.", "anchors": ["src/ff_ext/cubic.rs"]}
{"id": "C15", "title": "Sparse multiplications agree with the dense product", "statement": "mul_by_1, mul_by_01, mul_by_014, mul_by_034 return the dense product with the element having the named coefficients and zeros elsewhere.", "quantifier": "all elements of the tower and all coefficients", "why_tests_cant": "Algebraic identity over all inputs.", "anchors": ["src/ff_ext/cubic.rs::mul_by_1", "src/ff_ext/cubic.rs::mul_by_01", "src/ff_ext/quadratic.rs::mul_by_014", "src/ff_ext/quadratic.rs::mul_by_034"]}
{"id": "C16", "title": "Frobenius maps are p-power maps", "statement": "frobenius_map(i) of each shipped extension field Fp2, Fp6, Fp12 (bn256, bls12381, pluto) equals x -> x^(p^i) for every i, with the shipped coefficient tables.", "quantifier": "all elements, all powers i", "why_tests_cant": "Statement about every element and every i; the tables are hundreds of opaque limbs.", "anchors": ["src/*/fq2.rs::frobenius_map", "src/*/fq6.rs::frobenius_map", "src/*/fq12.rs::frobenius_map"]}
{"id": "C17", "title": "Cyclotomic squaring", "statement": "cyclotomic_square(a) = a^2 for every a in the cyclotomic subgroup (a^(p^4-p^2+1)=1) of Fp12.", "quantifier": "all elements of the cyclotomic subgroup", "why_tests_cant": "Only holds on a subgroup; the domain is astronomically large.", "anchors": ["src/derive/field/tower.rs::impl_cyclotomic_square"]}
{"id": "C18", "title": "is_zero of extension field elements", "statement": "is_zero() returns true exactly for the zero element, in the quadratic and cubic extensions. (FALSE of the code for cubic extensions: elements (0,0,c2) are reported zero.)", "quantifier": "all elements", "why_tests_cant": "The wrong set is a line in a three dimensional space: random tests miss it.", "anchors": ["src/ff_ext/cubic.rs::is_zero", "src/ff_ext/quadratic.rs::is_zero"]}
{"id": "C19", "title": "Square roots in quadratic extensions", "statement": "Fp2 sqrt returns Some(r) with r^2 = a iff a is a square and None otherwise, never panics or diverges, and legendre(a) (of the norm) decides squareness; for bn256/bls12381 (Algorithm 9) and pluto (Algorithm 10). (FALSE of Algorithm 10 at zero: the call never returns.)", "quantifier": "all elements of Fp2", "why_tests_cant": "Case analysis on a0 = -1 / alpha = -1 sets of negligible density.", "anchors": ["src/ff_ext/quadratic.rs::sqrt_algo9", "src/ff_ext/quadratic.rs::sqrt_algo10"]}
{"id": "C20", "title": "Encodings of quadratic extension elements", "statement": "from_repr/from_bytes of Fp2 return the element for the encoding of an element and None for every non-canonical byte string; raw bytes likewise. (FALSE of the code: from_bytes and from_repr panic on every non-canonical input instead of returning None.)", "quantifier": "all byte strings", "why_tests_cant": "Inputs are attacker supplied, any of 2^512 or more strings.", "anchors": ["src/derive/field/tower.rs::from_repr", "src/derive/field/tower.rs::from_bytes", "src/derive/field/tower.rs::from_raw_bytes"]}
{"id": "C21", "title": "Projective addition and doubling compute the elliptic curve group law, without exceptions", "statement": "For each curve (a=0, a=-3 and general a), P+Q, P.double(), P+Q_affine, P-Q, -P, computed by the code's formulas on any representation of any two points of a curve without 2-torsion, represent the group sum - including P=Q, P=-Q and the identity in any position; results stay on the curve and never degenerate to (0,0,0).", "quantifier": "all pairs of projective representations, all curves without a point of order two", "why_tests_cant": "Exceptional cases of the formulas must be excluded for every pair of points in a group of size 2^254 or more.", "anchors": ["src/derive/curve.rs::new_curve_impl", "src/derive/curve.rs::Add", "src/derive/curve.rs::double"]}
{"id": "C22", "title": "Projective equality and normalisation", "statement": "P == Q iff they represent the same point; to_affine returns the represented affine point (identity for the identity); to_affine(from_affine(A)) = A; batch_normalize gives element-wise the result of to_affine for every slice, including identities; new_jacobian/jacobian_coordinates round-trip the point.", "quantifier": "all projective representations, slices of every length, identities anywhere", "why_tests_cant": "Batch inversion over slices of arbitrary length with identities in arbitrary positions.", "anchors": ["src/derive/curve.rs::ct_eq", "src/derive/curve.rs::to_affine", "src/derive/curve.rs::batch_normalize", "src/derive/curve.rs::new_jacobian"]}
{"id": "C23", "title": "Scalar multiplication", "statement": "P * k represents k-fold addition of P for every scalar k (all bits processed), for projective and affine points.", "quantifier": "all points, all scalars", "why_tests_cant": "Range over 2^254 scalars and all points.", "anchors": ["src/derive/curve.rs::Mul"]}
{"id": "C24", "title": "GLV scalar decomposition", "statement": "For every scalar k, decompose_scalar(k) = (s1,k1,s2,k2) satisfies +-k1 +- k2*lambda = k mod r with both halves fitting 128 bits and the returned signs correct, for every curve with endomorphism parameters (bn256, grumpkin, bls12381, pallas, vesta).", "quantifier": "all scalars of each field", "why_tests_cant": "A bound that must hold for all 2^255 scalars; lattice rounding error cases are invisible to random tests.", "anchors": ["src/derive/curve.rs::endo", "src/bn256/curve.rs::ENDO_PARAMS_BN", "src/pasta/mod.rs", "src/arithmetic.rs::mul_512"]}
{"id": "C25", "title": "The curve endomorphism is a group endomorphism", "statement": "P -> (zeta*x, y) maps curve points to curve points, commutes with addition and satisfies phi^2+phi+1=0, for all curves with a=0.", "quantifier": "all points of all curves with a = 0", "why_tests_cant": "Law over all points.", "anchors": ["src/derive/curve.rs::CurveEndo"]}
{"id": "C26", "title": "Compressed point encoding round-trips", "statement": "from_bytes(to_bytes(P)) = P for every point of every shipped curve, including the identity. (FALSE of the code for points with x=0 on the curves where the code reads a zero abscissa as the identity or rejects it, and for Fp2 curves at points whose sign bit does not tell y from -y.)", "quantifier": "all curve points", "why_tests_cant": "The failing points are isolated in a group of size 2^256.", "anchors": ["src/serde.rs::Compressed", "src/derive/curve.rs::to_bytes", "src/derive/curve.rs::from_bytes"]}
{"id": "C27", "title": "Compressed decoding is sound and non-malleable", "statement": "If from_bytes(b) = Some(P) then P is on the curve, and b is the encoding of P: flags that do not belong, non-canonical x, a set sign bit on the identity are all rejected.", "quantifier": "all byte strings of the encoding's length, all flag layouts", "why_tests_cant": "Every one of 2^256 or more byte strings must be handled.", "anchors": ["src/serde.rs::decode", "src/serde.rs::CompressedFlagConfig"]}
{"id": "C28", "title": "Uncompressed and raw point encodings", "statement": "from_uncompressed(to_uncompressed(P)) = P and decoding accepts only canonical coordinates of curve points; raw point bytes round-trip and every checked raw reader returns only points on the curve. (FALSE of the code for read_raw: it never checks the curve equation; and for a projective z=0.)", "quantifier": "all byte strings and points", "why_tests_cant": "Attacker-supplied byte strings.", "anchors": ["src/derive/curve.rs::UncompressedEncoding", "src/derive/curve.rs::SerdeObject"]}
{"id": "C29", "title": "Signed-window (Booth) recoding reconstructs the scalar", "statement": "For every window size c and every byte string, the sum over windows of digit*2^(c*i) equals the little-endian integer of the bytes and each digit lies in [-2^(c-1), 2^(c-1)].", "quantifier": "all window sizes used, all scalars of any byte length", "why_tests_cant": "Digits depend on bit windows crossing byte boundaries; all alignments times all values.", "anchors": ["src/msm.rs::get_booth_index"]}
{"id": "C30", "title": "msm_serial computes the multi-scalar product", "statement": "msm_serial(coeffs, bases, acc=identity) leaves acc = sum coeffs[i]*bases[i], for any number of terms including zero terms, zero scalars, repeated and identity bases.", "quantifier": "all lengths, all scalars, all points", "why_tests_cant": "Unbounded length, bucket collisions.", "anchors": ["src/msm.rs::msm_serial"]}
{"id": "C31", "title": "msm_parallel is independent of the thread count and chunking", "statement": "msm_parallel(coeffs,bases) = sum coeffs[i]*bases[i] for every number of threads and every interleaving of the chunks.", "quantifier": "all lengths, all thread counts, all schedules", "why_tests_cant": "Schedules and thread counts cannot be enumerated.", "anchors": ["src/msm.rs::msm_parallel"]}
{"id": "C32", "title": "msm_best computes the multi-scalar product", "statement": "msm_best(coeffs,bases) = sum coeffs[i]*bases[i] for every length and every point and scalar. (FALSE of the code on its batched-affine path: with a = -3 (secp256r1) it panics or silently returns another point of the curve when a bucket doubles, and with identity bases that have nonzero scalars it panics. True of every curve with a = 0 when identity bases have zero scalars, and of all inputs while the window is below 10 bits.)", "quantifier": "all lengths, all scalars, all points", "why_tests_cant": "Batched affine additions with scheduling conflicts, doublings and cancellations in data dependent order.", "anchors": ["src/msm.rs::msm_best", "src/msm.rs::batch_add", "src/msm.rs::Schedule"]}
{"id": "C33", "title": "FFT computes the discrete Fourier transform", "statement": "best_fft(a, omega, log_n) replaces a by the vector of evaluations sum_j a_j omega^(ij), for every log_n, every omega with omega^(2^log_n)=1 and omega^(2^(log_n-1)) = -1, any number of threads; the inverse transform (omega^-1, scaled by n^-1) restores the input; it also works over group elements.", "quantifier": "all sizes 2^k, all inputs, all thread counts", "why_tests_cant": "Recursive/iterative equivalence for all sizes.", "anchors": ["src/fft.rs::best_fft", "src/fft.rs::recursive_butterfly_arithmetic", "src/fft.rs::bitreverse"]}
{"id": "C34", "title": "expand_message follows RFC 9380 expand_message_xmd", "statement": "hash_to_field's byte expansion equals the RFC's b_0, b_1,... construction for every message, domain tag and output length within the RFC's limits, any hash function; the output always has the requested length.", "quantifier": "all messages, all domain tags, all hash functions", "why_tests_cant": "Message/DST length and content are unbounded.", "anchors": ["src/hash_to_curve.rs::expand_message", "src/hash_to_curve.rs::hash_to_field"]}
{"id": "C35", "title": "SVDW map lands on the curve", "statement": "svdw_map_to_curve(u) is a point on y^2=x^3+ax+b for every u (exceptional denominators included), y has the sign of u, and it never panics.", "quantifier": "all field elements u, all curves with admissible Z", "why_tests_cant": "Exceptional u are isolated values.", "anchors": ["src/hash_to_curve.rs::svdw_map_to_curve"]}
{"id": "C36", "title": "SSWU map lands on the (isogenous) curve", "statement": "sswu_map_to_curve(u) is a point of y^2=x^3+Ax+B for every u, including the exceptional case Z^2u^4+Zu^2=0; sign of y equals sign of u.", "quantifier": "all field elements u", "why_tests_cant": "Exceptional u are isolated.", "anchors": ["src/hash_to_curve.rs::sswu_map_to_curve"]}
{"id": "C37", "title": "Isogeny maps land on the target curve", "statement": "iso_map takes every affine point of the isogenous curve (secp256k1 3-isogeny, BLS12-381 G1 11-isogeny, G2 3-isogeny) to a point of the target curve, including points where a denominator vanishes.", "quantifier": "all points of the isogenous curve", "why_tests_cant": "A polynomial identity modulo the curve equation in hundreds of coefficients.", "anchors": ["src/hash_to_curve.rs::iso_map", "src/bls12381/g1.rs", "src/bls12381/g2.rs", "src/secp256k1/curve.rs"]}
{"id": "C38", "title": "Multi-Miller loop factorises and ignores identities", "statement": "multi_miller_loop(pairs) equals the product of the Miller loops of the single pairs, independent of the order of the pairs, and pairs containing an identity contribute 1.", "quantifier": "all lists of pairs", "why_tests_cant": "Unbounded lists, any order.", "anchors": ["src/derive/pairing.rs", "src/bn256/engine.rs::multi_miller_loop", "src/bls12381/engine.rs::multi_miller_loop", "src/pluto_eris/engine.rs::multi_miller_loop"]}
{"id": "C39", "title": "Target group operations", "statement": "Gt is a commutative group under the additive notation: add = Fp12 product, neg = inverse (conjugate) on the cyclotomic subgroup, double = square, scalar multiplication = exponentiation for every scalar.", "quantifier": "all elements of Gt, all scalars", "why_tests_cant": "Law over all elements and scalars.", "anchors": ["src/derive/pairing.rs::Gt"]}
{"id": "C40", "title": "Final exponentiation raises to a fixed exponent", "statement": "final_exponentiation(f) = f^e for every non-zero f, with one exponent e per curve that is a multiple of (p^12-1)/r by a factor prime to r; result lies in the order r subgroup; it panics exactly on f=0.", "quantifier": "all f in Fp12", "why_tests_cant": "Addition chain over all elements; a wrong chain can still pass bilinearity tests on selected points.", "anchors": ["src/bn256/engine.rs::final_exponentiation", "src/bls12381/engine.rs::final_exponentiation", "src/pluto_eris/engine.rs::final_exponentiation"]}
{"id": "C41", "title": "Cofactor clearing and subgroup checks", "statement": "clear_cofactor(P) and the psi/endomorphism based torsion checks are fixed integer-polynomial expressions in P and the endomorphism; clear_cofactor of a curve point is torsion-free and is_torsion_free accepts exactly the prime-order subgroup; into_subgroup returns Some exactly for points of the subgroup and then the same point. (FALSE of the code for into_subgroup: bls12381 accepts every point; pluto G2 changes the point; bn256 G2 panics.)", "quantifier": "all curve points", "why_tests_cant": "All points of a curve of size 2^508.", "anchors": ["src/bls12381/g1.rs", "src/bls12381/g2.rs", "src/bn256/curve.rs", "src/pluto_eris/curve.rs", "src/derive/curve.rs::into_subgroup"]}
{"id": "C42", "title": "Sum and product of iterators, batch conversions", "statement": "Sum/Product over any iterator of field elements or points equals the mathematical sum/product of the values, empty iterators giving the neutral element.", "quantifier": "iterators of every length", "why_tests_cant": "Unbounded length.", "anchors": ["src/derive/field/common.rs", "src/derive/curve.rs::Sum", "derive/src/field/mod.rs::Sum"]}
{"id": "C43", "title": "LInt<L> is wrapping two's complement arithmetic", "statement": "For every L, the public LInt<L> integers behave as signed 64L-bit integers: add, sub, neg, mul and multiplication by any i64 are the integer operations reduced into [-2^(64L-1), 2^(64L-1)); >> by 1..63 bits is division rounding to minus infinity; is_negative is the sign; == is equality of values; new() zero-pads and panics exactly for inputs longer than L words.", "quantifier": "all L >= 1, all LInt<L> values, all i64 multipliers (i64::MIN in builds without overflow checks), all shifts 1..63", "why_tests_cant": "The number of values is 2^(64L) and L is a const parameter; carries propagate through every word.", "anchors": ["src/ff_ext/jacobi.rs::LInt"]}
{"id": "C44", "title": "Group orders and generators", "statement": "The group of points of each of the eleven shipped curves has exactly h*r elements for the documented cofactor h and the order r of its scalar field; the generator constant has order exactly r; the points killed by r are exactly the multiples of the generator; with cofactor one every point is a multiple of the generator.", "quantifier": "all points of all eleven curves", "why_tests_cant": "The number of points of a curve over a 256- to 892-bit field cannot be counted by testing.", "anchors": ["src/bn256/curve.rs::G1_GENERATOR_X", "src/bls12381/g1.rs", "src/bls12381/g2.rs", "src/pluto_eris/curve.rs", "src/grumpkin/curve.rs", "src/secp256k1/curve.rs", "src/secq256k1/curve.rs", "src/secp256r1/curve.rs"]}
{"id": "C45", "title": "Scalars act as a field", "statement": "For every point P of the prime-order group and all scalars s, t: P*(s+t) = P*s + P*t, P*(s*t) = (P*t)*s, P*(-s) = -(P*s), P*1 = P, P*0 = identity, and P*s = P*t only for s = t unless P is the identity.", "quantifier": "all points, all pairs of scalars", "why_tests_cant": "The law needs the order of the curve to be the modulus of the scalar field, for all of its points.", "anchors": ["src/derive/curve.rs::Mul", "src/derive/curve.rs::new_curve_impl"]}
{"id": "C46", "title": "The endomorphism is multiplication by ZETA", "statement": "On every curve with a = 0, endo(P) = P * Scalar::ZETA for every point of the prime-order group, and so the pair returned by decompose_scalar computes P*k as k1 P - k2 endo(P).", "quantifier": "all points of ten curves, all scalars", "why_tests_cant": "Choosing the wrong one of the two cube roots of unity on either side breaks every multi-scalar multiplication with the endomorphism.", "anchors": ["src/derive/endo.rs::endo", "src/derive/endo.rs::decompose_scalar", "src/bn256/curve.rs", "src/bls12381/g1.rs", "src/bls12381/g2.rs", "src/grumpkin/curve.rs"]}
{"id": "C47", "title": "Hashing lands in the prime-order subgroup", "statement": "hash_to_curve of bn256 G2, bls12381 G1 and bls12381 G2 returns k times the sum of the two points that RFC 9380 maps the message to, for a fixed k (h_eff of the RFC for bls12381), and this is a point of the subgroup of order r, for every message and every admissible domain separator; longer domains panic. (For bls12381 G1 it fails on the field elements mapped to the kernel of the 11-isogeny.)", "quantifier": "all messages, prefixes and domains, every hash function", "why_tests_cant": "All messages; a result outside of the subgroup breaks signature schemes.", "anchors": ["src/bn256/curve.rs::hash_to_curve_g2", "src/bls12381/g1.rs::hash_to_curve", "src/bls12381/g2.rs::hash_to_curve"]}
{"id": "C48", "title": "Random points are points of the prime-order group", "statement": "Every value returned by random() is a point of the curve killed by r, whatever the random number generator yields, and the loop repeats only for abscissas that belong to no point.", "quantifier": "all outputs of the random number generator, all eleven curves", "why_tests_cant": "A test sees a handful of generator outputs.", "anchors": ["src/derive/curve.rs::random"]}
{"id": "C49", "title": "The pairings are bilinear and non-degenerate", "statement": "For bn256, bls12381 and pluto, and for points P, P' of the order-r group of G1 and Q, Q' of the order-r group of G2: pairing(P, Q) does not panic and has order dividing r; pairing(P+P', Q) = pairing(P, Q) + pairing(P', Q) and pairing(P, Q+Q') = pairing(P, Q) + pairing(P, Q') in Gt; pairing(aP, bQ) = ab pairing(P, Q) for all scalars a, b; negating either point negates the value; pairing(P, Q) is the identity of Gt only if P or Q is the identity; and multi_miller_loop followed by final_exponentiation gives the sum of the pairings of the terms. The pairing is perfect: for a fixed point other than the identity, every element of the target group (r-th power one) is the pairing with exactly one point of the other group.", "quantifier": "all pairs of points of the prime-order groups, all scalars, all lists of pairs, three engines", "why_tests_cant": "Bilinearity for a few random scalars does not settle it for all points: special positions (the line through T and Q being vertical or tangent inside the loop), the sparse multiplications, the twisted Frobenius at the end of the loop and the digits of the loop constant could each fail on rare inputs.", "anchors": ["src/bn256/engine.rs::multi_miller_loop", "src/bn256/engine.rs::final_exponentiation", "src/bls12381/engine.rs::multi_miller_loop", "src/pluto_eris/engine.rs::multi_miller_loop", "src/derive/pairing.rs::pairing", "src/derive/pairing.rs::multi_miller_loop"]}
{"id": "C50", "title": "The assembly back end agrees with the portable arithmetic", "statement": "With the asm feature on x86-64, addition, doubling, subtraction, negation, multiplication, squaring and the conversion out of Montgomery form of every field for which the macro emits assembly (four limbs, fewer than 256 bits: both fields of bn256, the scalar field of bls12-381) return the same limbs as the portable code, for all elements, whatever the registers and flags contain before and whatever value the processor gives to unspecified flags.", "quantifier": "all odd moduli of four limbs and fewer than 256 bits, all pairs of elements, all initial register and flag contents", "why_tests_cant": "A wrong carry chain (adcx/adox flag dependences, a dropped carry in the Montgomery rounds, a flag clobbered between two blocks) shows only for operands that produce the particular carry pattern, with probability about 2^-64 for random inputs.", "anchors": ["derive/src/field/asm/limb4.rs::impl_arith", "derive/src/field/mod.rs::impl_field", "derive/src/field/arith.rs::impl_arith"]}
{"id": "C51", "title": "The bit view of a field element", "statement": "With the bits feature, to_le_bits of an element is the list of the 64*NUM_LIMBS bits of its canonical integer, least significant first, on targets with 64-bit and with 32-bit words; char_le_bits is the same for the modulus; and two elements with the same bits are equal.", "quantifier": "all odd moduli, all elements, both word sizes", "why_tests_cant": "The 32-bit path is compiled only on 32-bit targets, where the tests are not run; a swap of halves of one limb would go unnoticed elsewhere.", "anchors": ["src/derive/field/common.rs::field_bits", "derive/src/utils.rs::big_to_limbs"]}
{"id": "C52", "title": "serde of field elements", "statement": "Serializing a field element gives, in human-readable formats, the hexadecimal string of its little-endian canonical bytes, and in other formats the tuple of these bytes. Deserializing accepts exactly these values (letters of either case), returns the element that was serialized, and reports an error on integers not below the modulus, wrong lengths, other characters and other shapes. Elements of quadratic extensions round-trip in formats with and without field names, and Repr byte arrays round-trip.", "quantifier": "all prime fields, all elements, all values of the data model, both kinds of formats", "why_tests_cant": "The set of values that must be rejected is infinite, and that no second string decodes to the same element is a statement about all strings.", "anchors": ["src/derive/field/common.rs::serialize_deserialize_primefield", "src/ff_ext/quadratic.rs::QuadExtField", "src/serde.rs::Repr"]}
{"id": "C53", "title": "The table of small scalars agrees with the conversion", "statement": "With the feature bn256-table, Fr::from(v) gives for every 64-bit v the same element as without the feature.", "quantifier": "all 64-bit integers", "why_tests_cant": "The table has 65536 entries and is compiled only with the feature; the branch at its end and every entry matter.", "anchors": ["src/bn256/fr.rs::from", "script/bn256.py"]}
{"id": "C54", "title": "Random field elements are close to uniform", "statement": "random of a prime field reads 2*SIZE bytes; of the N = 256^(2 SIZE) equally likely byte strings either floor(N/p) or floor(N/p)+1 give each element, so the distance from uniform is below p/N. random of an extension field draws its coordinates in order from consecutive bytes and the number of strings that give an element is the product over its coordinates.", "quantifier": "all odd moduli, all elements, towers of degree 2, 6 and 12", "why_tests_cant": "A bias or a coordinate drawn twice from the same bytes cannot be seen in a feasible number of samples.", "anchors": ["derive/src/field/mod.rs::random", "src/ff_ext/quadratic.rs::random", "src/ff_ext/cubic.rs::random"]}
{"id": "C55", "title": "serde of curve points", "statement": "Serializing a curve point and deserializing the result returns the point, in every format; deserializing any value either fails or returns a point of the curve whose serialization is that value up to the case of hexadecimal letters; deserializing never panics.", "quantifier": "all curves, all points, all values of the data model", "why_tests_cant": "Adversarial encodings are not covered by samples, and rare points (x = 0, y and -y of the same sign) are never sampled.", "anchors": ["src/derive/curve.rs::serialize_deserialize_to_from_bytes"]}
{"id": "C56", "title": "Random target group elements", "statement": "For the three pairing engines, Gt::random returns an element of order dividing r and panics exactly when the drawn field element is zero, which happens for (floor(N/p)+1)^12 of the N^12 equally likely outputs of the generator; and final_exponentiation takes each element of order dividing r as its value on exactly (p^12-1)/r field elements, so a uniform non-zero element gives a uniform element of the group.", "quantifier": "three engines, all outputs of the random generator, all elements of order dividing r", "why_tests_cant": "Equidistribution and the panic are statements about all 2^3072 or more field elements.", "anchors": ["src/derive/pairing.rs::random", "src/bn256/engine.rs::final_exponentiation", "src/bls12381/engine.rs::final_exponentiation", "src/pluto_eris/engine.rs::final_exponentiation"]}
{"id": "C57", "title": "Multiplicative generators and cosets", "statement": "In each of the ten prime fields MULTIPLICATIVE_GENERATOR generates the whole multiplicative group; DELTA has the odd part of p-1 as its order; and every non-zero element is DELTA^i * ROOT_OF_UNITY^a for exactly one pair of exponents i below the order of DELTA and a below 2^S, so the cosets DELTA^i H used to label the columns of a permutation argument are disjoint and cover the field.", "quantifier": "ten fields, all non-zero elements", "why_tests_cant": "The groups have up to 2^446 elements; that an element generates depends on the full factorisation of p-1.", "anchors": ["derive/src/field/mod.rs::impl_field", "src/bn256/fr.rs", "src/pluto_eris/fp.rs", "src/bls12381/fr.rs"]}
{"id": "C58", "title": "Constants of the quadratic towers", "statement": "For the quadratic extension fields, the constants that make them implementations of PrimeField have their documented meaning: TWO_INV inverts 2, ROOT_OF_UNITY has order 2^S and inverse ROOT_OF_UNITY_INV, DELTA = MULTIPLICATIVE_GENERATOR^(2^S), ZETA is a primitive cube root of one, MULTIPLICATIVE_GENERATOR is a non-square that generates the multiplicative group, 2^S is the exact power of two in the group order, and integers of CAPACITY bits are pairwise different elements.", "quantifier": "three towers", "why_tests_cant": "Orders and non-squareness in fields with up to 2^892 elements; the capacity claim ranges over all integers of that many bits.", "anchors": ["src/derive/field/tower.rs::MULTIPLICATIVE_GENERATOR", "src/derive/field/tower.rs::CAPACITY", "src/derive/field/tower.rs::ROOT_OF_UNITY"]}
{"id": "C59", "title": "Decoded points are in the prime order group", "statement": "Every point returned by the checked decoders (from_bytes, from_uncompressed, from_raw_bytes) is in the subgroup of prime order that the scalar field belongs to.", "quantifier": "eleven curves, three decoders, all byte strings", "why_tests_cant": "Membership for every accepted string depends on the group order; a test can only try chosen strings.", "anchors": ["src/serde.rs::decode", "src/derive/curve.rs::from_uncompressed", "src/derive/curve.rs::from_raw_bytes", "src/derive/curve.rs::PrimeGroup"]}
{"id": "C60", "title": "Unchecked raw readers of points", "statement": "from_raw_bytes_unchecked and read_raw_unchecked of affine and projective points restore whatever the raw writers wrote, agree with the checked readers wherever those succeed (including the rest of a stream), lose nothing of any string of the right length, and the stream readers panic exactly when the stream is too short.", "quantifier": "eleven curves, affine and projective, all byte strings and streams", "why_tests_cant": "All byte strings of up to 336 bytes.", "anchors": ["src/derive/curve.rs::from_raw_bytes_unchecked", "src/derive/curve.rs::read_raw_unchecked", "src/derive/field/tower.rs::from_raw_bytes_unchecked", "src/derive/field/tower.rs::read_raw_unchecked"]}
{"id": "C61", "title": "The pairing does not panic", "statement": "pairing(p, q) returns a value for all points p, q of the curves, and so does multi_miller_loop followed by final_exponentiation for every list of such pairs. (FALSE of the code for bls12-381 and pluto: there are points q of G2, accepted by every decoder, for which pairing(p, q) panics for all p other than the identity.)", "quantifier": "three engines, all pairs and lists of pairs of points of the curves, inside and outside of the subgroups", "why_tests_cant": "The points concerned are 168 of about 2^762 on bls12-381 and 84 of about 2^892 on pluto: random tests never meet them, and absence of others depends on the group orders.", "anchors": ["src/derive/pairing.rs::impl_miller_loop_components", "src/bls12381/engine.rs::multi_miller_loop", "src/bls12381/engine.rs::final_exponentiation", "src/pluto_eris/engine.rs::multi_miller_loop", "src/bn256/engine.rs::multi_miller_loop"]}
{"id": "C62", "title": "Constant-time equality and selection", "statement": "ct_eq answers true exactly on equal elements, and conditional_select(a, b, choice) is a when the choice is 0 and b when it is 1, for prime fields (limb by limb), quadratic and cubic extensions, target groups and points.", "quantifier": "all prime fields and all elements, all levels of the towers, all projective and affine points", "why_tests_cant": "Nearly all pairs of elements differ in their first limb: a comparison or a selection that overlooks a limb or a coordinate passes every random test.", "anchors": ["derive/src/field/mod.rs::ct_eq", "derive/src/field/mod.rs::conditional_select", "src/ff_ext/quadratic.rs::ct_eq", "src/ff_ext/quadratic.rs::conditional_select", "src/ff_ext/cubic.rs::ct_eq", "src/ff_ext/cubic.rs::conditional_select", "src/derive/curve.rs::conditional_select", "src/derive/pairing.rs::ct_eq"]}
{"id": "C63", "title": "sqrt_ratio and sqrt_alt", "statement": "sqrt_ratio(num, div) is (true, root of num/div) if num/div is a nonzero square, (true, 0) if num is zero, (false, 0) if only div is zero, (false, root of ROOT_OF_UNITY * num/div) otherwise; sqrt_alt(a) is sqrt_ratio(a, 1). It never panics. (FALSE of the extension fields, on which both methods always panic.)", "quantifier": "ten prime fields and all extension fields, all numerators and denominators including zero", "why_tests_cant": "The zero cases and the choice between the two roots depend on the whole field; correctness rests on ROOT_OF_UNITY being a non-square and on the square root algorithm.", "anchors": ["derive/src/field/mod.rs::sqrt_ratio", "src/ff_ext/quadratic.rs::sqrt_ratio", "src/ff_ext/cubic.rs::sqrt_ratio"]}
{"id": "C64", "title": "Verification equations with pairings", "statement": "The pairing of the generators has exact order r; the product of the pairings of a_i G and b_i H (multi_miller_loop and final_exponentiation) is one if and only if sum a_i b_i = 0 in the scalar field; two pairings are equal if and only if the product of the first with the second, one point negated, is one; a point is determined by its pairing with a point other than the identity; pairing(s, H) = pairing(m, k H) if and only if s = k m (the equation of BLS signatures).", "quantifier": "three engines, all scalars, all lists of any length, all points of the groups of order r", "why_tests_cant": "Tests check that honest products are one; that no other product is one quantifies over all scalars and points.", "anchors": ["src/derive/pairing.rs", "src/bn256/engine.rs::multi_miller_loop", "src/bls12381/engine.rs::multi_miller_loop", "src/pluto_eris/engine.rs::multi_miller_loop"]}
{"id": "C65", "title": "Field elements from uniform bytes are close to uniform", "statement": "Of the N = 256^L strings of L bytes, floor(N/p) or floor(N/p)+1 give each element under from_uniform_bytes; with the L of every hash_to_curve suite the probability of each element differs from 1/p by less than 2^-128/p; the coordinates of quadratic extensions are independent.", "quantifier": "all prime fields, all admissible L, all elements; the eight base fields of the suites", "why_tests_cant": "A statement about the number of preimages among 2^384 and more strings.", "anchors": ["derive/src/field/mod.rs::from_uniform_bytes", "src/derive/field/tower.rs::from_uniform_bytes", "src/hash_to_curve.rs::hash_to_field"]}
{"id": "C66", "title": "Debug output identifies elements and points", "statement": "The Debug text of a field element is 0x and the hexadecimal digits of its canonical integer, most significant first, padded to the size of the field, whatever the byte order of the field; texts of different elements differ, also in the towers; the text of an affine point is Infinity exactly for the identity and determines the point; the text of a projective point determines its three coordinates and the text of an element of the target group determines the element; what a field element gives to a hasher is the same for equal elements and differs for different ones. (Two projective representations of one point print differently.)", "quantifier": "all prime fields and elements, all towers, all affine and projective points, all target group elements", "why_tests_cant": "Byte order, padding and Montgomery form could each change the text of some elements only.", "anchors": ["derive/src/field/mod.rs::fmt", "src/derive/curve.rs::fmt", "src/ff_ext/quadratic.rs", "src/ff_ext/cubic.rs", "derive/src/field/mod.rs (derive Hash)", "src/derive/pairing.rs::Gt"]}
{"id": "C67", "title": "No panic in builds with overflow checks", "statement": "In a build with overflow checks and debug assertions: the limb operations underlying all field arithmetic never overflow; inverting a field element and computing its Legendre symbol never overflow, never index out of bounds and never fail a debug assertion, and give the same results as a release build; the signed digits of multi-scalar multiplication are computed without overflow for every window size that occurs; msm_serial, msm_parallel and msm_best with fewer than 2^32 terms, and best_fft on every vector, compute no index, length, chunk size or shift that overflows, so they return what a release build returns.", "quantifier": "all limbs; all odd moduli and all elements; all byte strings and windows; all terms, thread counts and task orders; all vectors of fewer than 2^63 elements", "why_tests_cant": "Overflow in the intermediate 62-bit matrices and cofactors depends on rare bit patterns of the input; excluding it for all inputs needs the bounds of the division steps.", "anchors": ["src/arithmetic.rs", "src/ff_ext/inverse.rs", "src/ff_ext/jacobi.rs", "src/msm.rs::get_booth_index", "src/msm.rs::msm_serial", "src/msm.rs::msm_parallel", "src/msm.rs::msm_best", "src/fft.rs::best_fft"]}
{"id": "C68", "title": "Hashing maps spread their inputs", "statement": "The maps from a field element to a curve point that hash_to_curve is built from are far from constant: each point is the image of at most a fixed small number of field elements (12 for the Shallue-van de Woestijne suites, 11 for secp256r1, 33 for secp256k1 and BLS12-381 G2 before the cofactor is cleared, 121 for BLS12-381 G1, where in addition at most 55 field elements give a triple that is no point), so the image has at least the corresponding fraction of the size of the field; and a sum of two independent images hits each point for at most that fraction of the pairs of field elements.", "quantifier": "all field elements and points, for every suite shipped", "why_tests_cant": "Fibres over 256-bit fields cannot be enumerated; the bound needs the degree of the polynomials behind the map.", "anchors": ["src/hash_to_curve.rs::svdw_map_to_curve", "src/hash_to_curve.rs::sswu_map_to_curve", "src/hash_to_curve.rs::sswu_hash_to_curve", "src/hash_to_curve.rs::svdw_hash_to_curve"]}
{"id": "C69", "title": "Random points are uniformly distributed", "statement": "When the draws are uniform, random returns every non-identity point of the prime-order subgroup with the same probability and no point outside of it: among all sequences of n rounds of draws, the number of sequences returning a point is the same for all non-identity points of the subgroup. On the curves of cofactor 1 the identity is never returned; on the others it is returned for a proportion of (h-1)/h of the share of another point. In terms of the outputs of the generator (RNG), 2*SIZE bytes per coefficient and one u32 per round, the numbers of outputs leading to any two such points differ at most by the factor (1 + p/256^(2*SIZE))^n, squared on G2.", "quantifier": "all eleven curves, all points, all numbers of rounds", "why_tests_cant": "A distribution over a 256-bit group cannot be sampled; the sign selection, the rejection and the clearing of the cofactor all have to balance exactly.", "anchors": ["src/derive/curve.rs::random", "derive/src/field/mod.rs::random"]}
{"id": "C70", "title": "Cycles of curves and embedding degrees", "statement": "bn256 and grumpkin, pluto and eris, secp256k1 and secq256k1 form cycles: the order of each is the size of the field of the other. The curves with a pairing have embedding degree exactly 12 (the order divides q^12 - 1 and no smaller q^k - 1), so the target group lies in no smaller field; the others have embedding degree at least (r-1)/32; no curve shipped is anomalous or supersingular.", "quantifier": "all eleven curves, all exponents", "why_tests_cant": "That no smaller power works has to be shown for all exponents below numbers of 250 bits, which needs the factorisation of r - 1.", "anchors": ["src/bn256/curve.rs", "src/grumpkin/curve.rs", "src/pluto_eris/curve.rs", "src/secp256k1/curve.rs", "src/secq256k1/curve.rs", "src/secp256r1/curve.rs", "src/bls12381/g1.rs"]}
{"id": "C71", "title": "Domain separation of hash_to_curve", "statement": "The domain separation tags of the shipped suites never coincide: for any prefixes chosen by callers, equal tags come from the same suite and the same prefix; constructing a suite never fails its assertion; and if the byte strings that hash_to_curve derives its field elements from are equal for two triples of suite, prefix and message, then the triples are equal or two of the strings hashed on the way are an explicit collision of the hash function.", "quantifier": "all suites shipped, all prefixes and messages, all hash functions with 32 byte outputs", "why_tests_cant": "Absence of coincidences between tags and encodings is a statement about all pairs of byte strings of all lengths.", "anchors": ["src/hash_to_curve.rs::expand_message", "src/hash_to_curve.rs::Suite", "src/bn256/curve.rs", "src/bls12381/g1.rs::hash_to_curve_suite", "src/secp256k1/curve.rs::hash_to_curve_suite", "src/secp256r1/curve.rs::hash_to_curve_suite"]}
{"id": "C72", "title": "Wire format of points", "statement": "The bytes of every point are fixed: which bits of the compressed form hold x, the sign of y, the mark of the point at infinity and the compression mark, in which byte order and in which order of the two components of an extension element; the uncompressed form is x then y; the raw forms are the Montgomery representatives of the coordinates in order. On bls12381 G1 the compressed form is the one of the IETF draft on pairing-friendly curves (ZCash).", "quantifier": "all points of all eleven shipped curves", "why_tests_cant": "A format has to be fixed for every point; a round trip test is passed by any consistent format, and a sample of points does not exercise every bit.", "anchors": ["src/serde.rs::Compressed::encode", "src/serde.rs::CompressedFlagConfig", "src/derive/curve.rs::impl_compressed", "src/derive/curve.rs::to_uncompressed", "src/derive/curve.rs::to_raw_bytes", "src/bls12381/g1.rs::G1Compressed", "src/bls12381/g2.rs::G2Compressed"]}
{"id": "C73", "title": "Programs over the interface compute in the group", "statement": "Client code that handles points and scalars only through the interface (arithmetic, mixed and batched operations, sums, scalar and multi-scalar multiplication, conversions, from_xy, comparisons with branches and loops on their results, encoding) does exactly what its meaning over the abstract group of points and the integers modulo r says: it never panics, terminates in as many steps, and puts out the bytes of the abstract results. In particular no such code can tell two representations of the same points apart.", "quantifier": "all programs (sequences, branches, loops) over the listed operations, all initial points and scalars in any projective representation, on any of the curves", "why_tests_cant": "It ranges over all programs and all representations; a test runs one program on one representation, and a leak of the representation (into an equality, an encoding or a branch) shows only in particular combinations of operations.", "anchors": ["src/derive/curve.rs::new_curve_impl", "src/derive/curve.rs::batch_normalize", "src/derive/curve.rs::ct_eq", "src/derive/curve.rs::to_affine", "src/derive/curve.rs::from_xy", "src/derive/curve.rs::impl_compressed", "src/msm.rs::msm_serial", "derive/src/field/mod.rs::impl_field"]}
{"id": "C74", "title": "Programs over a pairing engine compute with exponents", "statement": "Client code of a pairing engine (operations of both groups, pairing, multi_miller_loop with final_exponentiation, operations, scalar multiples and comparisons of target group elements, branches, loops, output of encodings) on points of the groups of order r does exactly the arithmetic modulo r on the exponents with respect to the generators: group operations are linear, pairings multiply exponents, comparisons compare exponents; it never panics and the bytes put out are those of the multiples of the generators.", "quantifier": "all programs over the engines of bn256, bls12381 and pluto, all scalars, all points of the groups of order r in any representation, all elements of the target group", "why_tests_cant": "Protocols combine the operations of three groups; that every combination agrees with arithmetic on exponents needs exact bilinearity, non-degeneracy and the laws of all three groups at once.", "anchors": ["src/derive/pairing.rs::impl_gt", "src/derive/pairing.rs::impl_miller_loop_components", "src/bn256/engine.rs::multi_miller_loop", "src/bls12381/engine.rs::multi_miller_loop", "src/pluto_eris/engine.rs::multi_miller_loop", "src/derive/curve.rs::new_curve_impl"]}
{"id": "C75", "title": "Polynomial arithmetic with the FFT", "statement": "For every size 2^N and root of unity of that order, best_fft on the coefficients of a polynomial of degree below 2^N gives its values at the powers of the root (with coefficients scaled by powers of s, the values on the coset); best_fft with the inverse root followed by division by 2^N gives the coefficients of the one polynomial of degree below 2^N with the given values; multiplying values pointwise and transforming back gives the product modulo X^(2^N) - 1, the product itself if it fits. Over a curve, transforming commitments to coefficients gives commitments to values, and the inverse transform of the powers of a secret gives the commitments to the Lagrange basis: the multi-scalar product of the values with these equals that of the coefficients with the powers.", "quantifier": "all sizes, roots of unity, thread counts, polynomials, cosets; all points killed by the scalar modulus", "why_tests_cant": "These are identities between polynomials of any degree; tests compare the transform with a slow one at a few sizes, and never relate it to products, interpolation or commitments.", "anchors": ["src/fft.rs::best_fft", "src/fft.rs::recursive_butterfly_arithmetic", "src/msm.rs::msm_serial", "src/derive/curve.rs::batch_normalize"]}
{"id": "C76", "title": "Which operations depend on secrets", "statement": "Addition, subtraction, negation, multiplication, squaring, doubling, selection and encoding of field elements, and addition, negation and selection of projective points, execute the same sequence of word operations for all operands. Multiplication of a point by a scalar should as well: the sequence of operations should depend on neither the scalar nor the point.", "quantifier": "all prime fields, all operands; all curves, points and scalars", "why_tests_cant": "Constant-time behaviour is a statement about pairs of executions on all inputs; tests compare results and never observe which operations were executed.", "anchors": ["derive/src/field/arith.rs", "derive/src/field/mod.rs::ct_eq", "src/derive/curve.rs::double", "src/derive/curve.rs::add", "src/derive/curve.rs::mul", "src/ff_ext/inverse.rs::invert", "src/ff_ext/quadratic.rs"]}
{"id": "C77", "title": "Files of raw objects: what the stream readers and writers consume, write and report", "statement": "Objects written one after another with write_raw are read back by read_raw in the same order, whatever follows them, and exactly their bytes are consumed. On a bad stream the reader reports the first bad element: UnexpectedEof exactly when the stream ends before anything bad occurs, InvalidData exactly when an element is not smaller than its modulus, and then the stream stands right behind that element. A truncated file is always reported as UnexpectedEof. A sink that runs full receives exactly the bytes that fit and the writer reports an error; to_raw_bytes never panics. Endian::to_bytes and from_bytes panic exactly on short buffers, and leave or ignore the bytes beyond the limbs.", "quantifier": "all byte streams, all sinks of any capacity, all sequences of field elements and points of the shipped curves, all buffers and limb slices", "why_tests_cant": "Files can be cut or corrupted at any byte and hold any number of objects; tests read back a single object from a complete buffer.", "anchors": ["derive/src/field/mod.rs::read_raw", "derive/src/field/mod.rs::write_raw", "src/derive/field/tower.rs::read_raw", "src/derive/curve.rs::read_raw", "src/derive/curve.rs::to_raw_bytes", "src/serde.rs::Endian"]}
{"id": "C78", "title": "Polynomial commitments and openings built on the library", "statement": "A client that sets up powers of a secret with scalar multiplication and batch normalization, commits to polynomials and to their quotients by X - z with the multi-scalar multiplication, and verifies openings with multi_miller_loop and final_exponentiation gets a correct scheme: nothing panics, the verifier accepts the value of the polynomial at z and no other value, and for arbitrary points [a]G and [b]G from any prover, in any coordinates, it accepts exactly when a - y = b (tau - z).", "quantifier": "all polynomials of degree below n < 2^32, all secrets, points and values of the scalar field; bn256, bls12381 and pluto", "why_tests_cant": "The statement composes field arithmetic, scalar multiplication, normalization, multi-scalar multiplication and pairings over all polynomials and secrets, and says that wrong values are never accepted.", "anchors": ["src/msm.rs::msm_serial", "src/bn256/engine.rs", "src/bls12381/engine.rs", "src/pluto_eris/engine.rs", "src/derive/curve.rs::batch_normalize", "src/derive/curve.rs::mul"]}
{"id": "C79", "title": "Coordinates of affine points", "statement": "from_xy(x, y) returns the point with exactly these coordinates when they satisfy the curve equation, the identity for (0, 0), and nothing otherwise; coordinates() returns the coordinates of every point, from_xy of which is the point, and None for the identity, as the trait documents. (FALSE of the code for the identity: its coordinates are Some((0, 0)).)", "quantifier": "all pairs of base field elements, all points, every curve of the library", "why_tests_cant": "Tests take coordinates of random points, which are never the identity, and never ask for the set of all accepted pairs.", "anchors": ["src/derive/curve.rs::coordinates", "src/derive/curve.rs::from_xy"]}
{"id": "C80", "title": "ECDSA written with the library", "statement": "The signature scheme that the test suite builds from the interface (random scalars, invert, scalar multiplication, to_affine, coordinates, to_repr, from_uniform_bytes) is ECDSA: signing panics only for the nonce zero; a signature by any key, hash and nonce verifies unless s = 0; the verifier panics exactly for s = 0, and accepts exactly the pairs that the holder of the key can produce with some nonce, and, as it does not reject r = 0 and coordinates() of the identity is (0, 0), the pairs with r = 0 for the hash 0; (r, -s) verifies with (r, s); every point of the curve is the public key of exactly one secret.", "quantifier": "all keys, hashes, nonces, signatures and public keys; secp256k1 and secp256r1", "why_tests_cant": "The test signs 1000 random hashes and never checks that anything else is rejected.", "anchors": ["src/tests/curve.rs", "src/secp256k1/curve.rs", "src/secp256r1/curve.rs", "src/derive/curve.rs::coordinates", "derive/src/field/mod.rs::from_uniform_bytes"]}
{"id": "C81", "title": "Pairings of points that were decoded but not tested for the subgroup", "statement": "With any point of the bls12381 G1 curve, in the subgroup or not, as its first argument and a point of the second group as its second, the pairing does not panic, lies in the group of order r and is additive in both arguments; it is one exactly if the second point is the identity or the cofactor kills the first. So the signature equation e(s, H) = e(m, kH) holds exactly for the s whose difference from k m is killed by the cofactor h = 76329603384216526031706109802092473003: for each message and key exactly h points of the curve, and exactly h uncompressed (and h raw) byte strings, are accepted, and with is_torsion_free exactly one, k m. (So without is_torsion_free signatures are malleable, as the decoders do not test.)", "quantifier": "all points of the curve, all keys, all message points, all byte strings; bls12381", "why_tests_cant": "Tests pair multiples of the generators only; the number of accepted strings cannot be enumerated.", "anchors": ["src/derive/pairing.rs::pairing", "src/bls12381/engine.rs::multi_miller_loop", "src/bls12381/g1.rs::is_torsion_free", "src/derive/curve.rs::from_uncompressed", "src/derive/curve.rs::from_raw_bytes"]}
{"id": "C82", "title": "BLS signatures written with the library", "statement": "A client that hashes to bls12381 G1, signs by scalar multiplication and to_bytes, publishes keys with to_uncompressed, and verifies with from_bytes, from_uncompressed, is_torsion_free and pairing gets unique signatures: signing and verifying never panic, every key string that is read belongs to exactly one secret, and for every key and message exactly one of all 48-byte strings is accepted, the signature; aggregate verification by one product of pairings accepts exactly the sum of the signatures. This holds for the messages, too, on which hash_to_curve returns the invalid triple (0, 0, 0): their hash is normalised to the identity.", "quantifier": "all digests with 32 bytes, domains, messages, keys, byte strings of the right length, lists of signers", "why_tests_cant": "A test verifies signatures it made and rejects a few it damaged; that no other string passes is a statement about 2^384 strings and rests on the order of the curve, the subgroup test, injective encodings and the pairing.", "anchors": ["src/bls12381/g1.rs::hash_to_curve", "src/bls12381/g1.rs::is_torsion_free", "src/bls12381/g2.rs::is_torsion_free", "src/derive/pairing.rs::pairing", "src/derive/curve.rs::from_bytes", "src/derive/curve.rs::from_uncompressed"]}
{"id": "C83", "title": "Every way of writing an operation means the same", "statement": "With or without references on either side, as an operator or as an assigning operator, with two projective points, a projective and an affine point in either order or two affine points: +, -, *, unary -, +=, -=, *= compute the operation of the field, of the group of points, of the target group or of the integers modulo 2^(64 L). The From conversions between the types of points keep the point, Default of points is the identity, and the projective generator is the affine one.", "quantifier": "all operands of all field types, towers, curves, target groups and LInt widths; all 4 + 2 forms of each operator", "why_tests_cant": "The forms are about forty functions per type made by macros; tests use one or two of them, and a macro that swaps the operands of - or calls + in -= is seen only by those who use that form.", "anchors": ["src/derive/mod.rs::impl_add_binop_specify_output", "src/derive/mod.rs::impl_sub_binop_specify_output", "src/derive/mod.rs::impl_binops_multiplicative_mixed", "src/derive/mod.rs::impl_binops_additive", "src/derive/mod.rs::impl_binops_multiplicative", "src/derive/curve.rs::new_curve_impl", "src/derive/pairing.rs::impl_gt", "src/ff_ext/jacobi.rs::LInt"]}
{"id": "C84", "title": "The byte array Repr behaves as an array", "statement": "A Repr<T> made from an array, or from a slice of T bytes, gives back these bytes; a slice of another length panics, and nothing else does. Reading a byte or a range gives the bytes at these places and panics exactly outside the array or on a reversed range; writing a range panics in the same cases, keeps the length and all other bytes, and is read back. The default is all zeros.", "quantifier": "all T, arrays, slices, indices, ranges and what is written into them", "why_tests_cant": "Tests index a few places of 32-byte arrays; out-of-range and reversed ranges are not tried.", "anchors": ["src/serde.rs::Repr"]}
{"id": "C85", "title": "The pairing of decoded points is bilinear", "statement": "For all points that the decoders of the two groups of an engine return, the pairing is additive in both arguments: e(p + p', q) = e(p, q) e(p', q) and e(p, q + q') = e(p, q) e(p, q'). (FALSE of the code on all three engines: the decoders of the second group return points outside the subgroup, and there are such points q, accepted by every decoder, with e(2G, q) different from e(G, q)^2 and e(G, 2q) different from e(G, q)^2. True of points that pass is_torsion_free.)", "quantifier": "all byte strings accepted by from_bytes, from_uncompressed or from_raw_bytes on bn256, bls12381 and pluto", "why_tests_cant": "Tests pair multiples of the generators; points outside the subgroup are never decoded and paired.", "anchors": ["src/derive/pairing.rs::pairing", "src/bn256/engine.rs::multi_miller_loop", "src/bls12381/engine.rs::multi_miller_loop", "src/pluto_eris/engine.rs::multi_miller_loop", "src/derive/curve.rs::from_bytes", "src/derive/curve.rs::from_uncompressed"]}
{"id": "C86", "title": "Programs that exchange encoded points and scalars compute in the group", "statement": "Any program that computes with points and scalars through the interface, writes them to byte strings (compressed, uncompressed, scalar bytes), reads back whatever strings it holds, its own or foreign, and branches on comparisons and on whether a string was accepted, computes what it would compute in the group itself, where reading a string finds the one element of which it is the encoding: it never panics, and yields the same elements, strings and output, whatever coordinates the points were held in. On secp256r1 and bls12381 G1 the compressed forms of points with x = 0 are the exception: they are rejected.", "quantifier": "all programs with branches and loops, all states, all constant byte strings of any length, on the eight curves over prime fields", "why_tests_cant": "Tests decode a few strings right after encoding them; they never run arbitrary mixtures of arithmetic, encoding and decoding of foreign strings.", "anchors": ["src/derive/curve.rs::from_bytes", "src/derive/curve.rs::to_bytes", "src/derive/curve.rs::from_uncompressed", "src/derive/curve.rs::to_uncompressed", "derive/src/field/mod.rs::from_repr", "derive/src/field/mod.rs::to_repr", "src/serde.rs::decode", "src/serde.rs::encode"]}
{"id": "C87", "title": "Verifiers that read points of both groups compute with exponents", "statement": "On bn256, bls12381 and pluto, take any program that computes with scalars, points of both groups, pairings and target group elements, writes points (compressed, uncompressed, raw) and scalars to byte strings, and reads strings, its own or foreign, accepting a decoded point only if is_torsion_free says so (points of the first group in all three forms, points of the second group uncompressed or raw). It computes with exponents modulo r: reading a string finds the one exponent whose multiple of the generator it encodes, or rejects if there is none; pairing multiplies exponents. It panics exactly when a point of the second group is read from an uncompressed string of the right length in which a coordinate is not reduced, and never if only raw strings are read. In particular a program that reads a signature and a key and compares two pairings says yes exactly to the encodings of xM and xH.", "quantifier": "all programs with branches and loops, all states, all byte strings of any length, three engines", "why_tests_cant": "Tests pair fixed multiples of the generators; no test can range over the foreign strings and programs a verifier meets, nor tell that nothing else is accepted.", "anchors": ["src/derive/curve.rs::from_bytes", "src/derive/curve.rs::from_uncompressed", "src/derive/curve.rs::from_raw_bytes", "src/derive/pairing.rs::pairing", "src/bn256/curve.rs::is_torsion_free", "src/bls12381/g1.rs::is_torsion_free", "src/bls12381/g2.rs::is_torsion_free", "src/pluto_eris/curve.rs::clear_cofactor", "src/derive/field/tower.rs::from_bytes"]}
{"id": "C88", "title": "Inner product arguments built on the library", "statement": "A client that commits to vectors of length 2^k with a multi-scalar multiplication and opens inner products with the halving argument used on the curves without a pairing (cross terms with msm_serial or msm_parallel, folding of the bases with scalar multiplication, addition and batch_normalize, inverses of the challenges with invert, verification with one multi-scalar multiplication by the products of the challenges) gets a correct protocol: the prover never panics, and with its proof the verifier accepts the inner product and no other value. For arbitrary proofs in any coordinates the verifier decides exactly the verification equation in the group, and fails exactly when a challenge is zero. From accepted runs with three challenges per round (different squares, messages fixed first) a vector that opens the commitment is computed from the scalars alone, and accepted runs for two values of one commitment give a non-trivial relation between the bases.", "quantifier": "all k < 32, all vectors, all challenges, all bases killed by the scalar modulus (identity and repeated ones included), all thread counts and task orders, all curves of the library", "why_tests_cant": "Tests multiply fixed vectors; no test ranges over all vectors, challenges and foreign proofs, nor shows that no other value is accepted.", "anchors": ["src/msm.rs::msm_serial", "src/msm.rs::msm_parallel", "src/derive/curve.rs::batch_normalize", "src/derive/curve.rs::mul", "src/derive/curve.rs::ct_eq", "derive/src/field/mod.rs::invert"]}
{"id": "C89", "title": "Evaluation domains and vanishing arguments built on the library", "statement": "A client that makes an evaluation domain from ROOT_OF_UNITY, ROOT_OF_UNITY_INV, ZETA and TWO_INV as halo2 does, interpolates columns of 2^k rows with best_fft, evaluates them on the ZETA coset of size 2^ek, combines them there by any polynomial identity with rotations, divides by the vanishing polynomial of the rows and transforms back gets a correct vanishing argument: nothing panics (the vanishing polynomial has no zero on the coset), the last 2^k coefficients of the quotient are zero exactly if the identity holds in every row, and then quotient(x) * (x^(2^k) - 1) equals the identity evaluated at x for every x. If the identity fails in some row, then for any claimed quotient the equation holds for at most as many x as the degree.", "quantifier": "all fields of the macro (in particular the ten shipped ones), all k <= ek <= S, all columns, all identities whose degree fits, all thread counts", "why_tests_cant": "Tests transform fixed vectors; they cannot range over all identities and columns, nor show that a false identity is never accepted outside a small set of points.", "anchors": ["src/fft.rs::best_fft", "derive/src/field/mod.rs::ROOT_OF_UNITY", "derive/src/field/mod.rs::ZETA", "derive/src/field/mod.rs::TWO_INV", "derive/src/field/mod.rs::invert"]}
{"id": "C90", "title": "Permutation arguments built on the library", "statement": "A client that labels the cells of a table with DELTA^column * omega^row and checks with two challenges that the product of (v + beta label + gamma) / (v + beta label' + gamma) over all cells is one gets a correct copy constraint argument: the labels of different cells are different, for all table heights up to 2^S and as many columns as the order of DELTA; if the values agree along the permutation the check accepts unless a denominator is zero (then invert reports it); if they differ in some cell, then for all but fewer than N values of beta the check accepts for fewer than N values of gamma, N being the number of cells.", "quantifier": "all fields of the macro with the constants of C12 and C57 (in particular the ten shipped ones), all table sizes, values, permutations and challenges", "why_tests_cant": "Tests cannot enumerate the labels of all tables nor the challenges for which a wrong table would be accepted.", "anchors": ["derive/src/field/mod.rs::DELTA", "derive/src/field/mod.rs::ROOT_OF_UNITY", "derive/src/field/mod.rs::invert"]}
{"id": "C91", "title": "Many openings verified with one product of pairings", "statement": "A client that verifies any number of polynomial openings at once (the equations added up with the powers of a challenge, the two sums computed with batch_normalize and msm_parallel, one multi_miller_loop and one final_exponentiation) agrees with verifying them one by one: nothing panics; if every opening is accepted by itself the batch is accepted for every challenge; if one is rejected by itself the batch is rejected for all challenges but fewer than there are openings. This holds for every number of threads and every order of the tasks.", "quantifier": "all lists of openings with points of the group in any coordinates (2 n + 1 < 2^32), all secrets, all challenges, all thread counts and task orders; bn256, bls12381 and pluto", "why_tests_cant": "Whether a batch hides a false opening depends on the challenge, on the sizes of the multi-scalar products and on the schedule; the exceptional challenges are about n in 2^254, no test meets them and no test can show that there are no more.", "anchors": ["src/msm.rs::msm_parallel", "src/derive/curve.rs::batch_normalize", "src/bn256/engine.rs", "src/bls12381/engine.rs", "src/pluto_eris/engine.rs"]}
{"id": "C92", "title": "Programs do not see the thread pool", "statement": "A client that computes with points and scalars through the curve interface, and also calls msm_parallel, msm_best (fewer than 8104 terms) and best_fft (on scalars and on points, with any factor), computes in the group: it does not panic, and its scalars, affine points, bytes and comparisons are the same for every number of threads, every order in which the tasks run, every admissible rounding of the logarithm and all projective coordinates of the inputs, each of which may change from call to call. On the curves over prime fields this includes encoding and decoding.", "quantifier": "all programs (sequences, branches and loops of calls), all inputs, all schedules at each call, all eleven curves", "why_tests_cant": "Each test runs one program under the schedules that happen on one machine; that no combination of calls lets the schedule or the coordinates reach the output is a statement about all programs and all schedules.", "anchors": ["src/msm.rs::msm_parallel", "src/msm.rs::msm_best", "src/fft.rs::best_fft", "src/fft.rs::recursive_butterfly_arithmetic", "src/derive/curve.rs::new_curve_impl"]}
{"id": "C93", "title": "Programs over a pairing engine do not see the thread pool", "statement": "Any program that computes with scalars, points of both groups, pairings and target group elements, sends and reads points, and calls msm_parallel, msm_best (fewer than 8104 terms) and best_fft on scalars and on points of either group, behaves the same for every number of threads and every order of the tasks at each call: it runs as its meaning in exponents modulo r, in which there are no threads, so two machines both do not finish, both panic, or both end with the same scalars, affine points, target group elements, strings, flags and output.", "quantifier": "three engines, all programs with branches and loops, all inputs of the prime-order groups, all thread counts and task orders per call", "why_tests_cant": "Tests run with the thread count of the machine they happen to run on and on a handful of call sequences; the claim quantifies over all programs and all schedules.", "anchors": ["src/msm.rs::msm_parallel", "src/msm.rs::msm_best", "src/fft.rs::best_fft", "src/derive/pairing.rs::pairing", "src/derive/curve.rs::from_bytes"]}
{"id": "C94", "title": "Programs over a prime field compute modulo p, on either back end", "statement": "Any program that computes with elements of one of the ten prime fields - constants, sums, products, powers, inverses, square roots, selections, conversions from and to bytes in both byte orders and in raw form, reduction of long strings, comparisons, parity, quadratic character - ends, panics and puts out exactly as the same program over the integers modulo p. Each call may be served by the portable code or by the assembly of the feature asm, whatever the registers and flags of the processor hold, and two runs with different back ends leave the same limbs in every register.", "quantifier": "ten prime fields, all programs with branches and loops, all canonical register contents, all assignments of back ends to calls, all processor states", "why_tests_cant": "The test suite checks single operations on random operands on the back end it was compiled for; it cannot compare all call sequences on both back ends.", "anchors": ["derive/src/field/mod.rs::impl_field", "derive/src/field/arith.rs::impl_arith", "derive/src/field/asm/limb4.rs::impl_arith", "src/ff_ext/inverse.rs::BYInverter", "src/ff_ext/jacobi.rs::jacobi", "src/derive/field/common.rs::impl_from_u64"]}
{"id": "C95", "title": "The signed integers of the inverter are wrapping two's complement arithmetic", "statement": "On numbers of any fixed number of 62-bit chunks, addition, subtraction, negation, multiplication, multiplication by a 64-bit signed number other than i64::MIN, the arithmetic shift by one chunk, the sign test, equality, the lowest chunk and the constants 0, 1 and -1 are the integer operations reduced into the range of the type.", "quantifier": "all numbers of chunks, all operands, all factors above i64::MIN", "why_tests_cant": "The type is private and two of its operations have no caller, so that no test reaches them; carries between chunks show only for rare operands.", "anchors": ["src/ff_ext/inverse.rs::CInt"]}
{"id": "C96", "title": "Lookup arguments can be built on the field order, inversion and equality", "statement": "For client code that proves that every value of a column occurs in a table of the same length, by sorting the column with the field's order, arranging the table beside it and checking the rows and one product of fractions: the prover's step fails exactly if some value is not in the table, and otherwise returns rearrangements of the column and of the table that satisfy the row rule. The verifier's check of what the prover returned accepts for all challenges without a zero denominator, and reports the failed inversion otherwise. If a value is not in the table, then whatever columns of the same length are sent, for all but fewer than n values of the first challenge the check accepts for at most n values of the second.", "quantifier": "all odd prime moduli of the supported sizes, all columns and tables of equal length, all columns sent by the prover, all pairs of challenges", "why_tests_cant": "the order has to be total and to agree with equality on all pairs of field elements or equal values are not grouped, and soundness counts the accepting pairs of challenges among all p squared of them for every cheating prover", "anchors": ["derive/src/field/mod.rs::cmp", "derive/src/field/mod.rs::invert", "derive/src/field/mod.rs::is_zero", "derive/src/field/mod.rs::ct_eq"]}
{"id": "C97", "title": "The assembly blocks keep what their operands promise to the compiler", "statement": "With the asm feature, each of the six asm! blocks (double, from_mont, mul, sub, add, neg) keeps the contract of its operand list with options(pure, readonly, nostack): every register that is not listed as an output holds afterwards what it held before; the outputs are a function of the four words behind each pointer handed in and of the constant, whatever the registers and flags held before and whatever the processor puts in flags it leaves undefined, for arbitrary words and not only reduced ones; only words inside these arrays are read; the outputs are words. So the functions around the blocks are deterministic on all inputs.", "quantifier": "all contents of memory, registers and flags before the block, all behaviours of undefined flags, all six blocks", "why_tests_cant": "a wrong operand list is undefined behaviour that shows only when the compiler happens to keep a live value in the register in question; tests run one register allocation", "anchors": ["derive/src/field/asm/limb4.rs::impl_arith"]}
{"id": "C98", "title": "Inversion takes a bounded number of rounds", "statement": "Whatever the element, its inversion ends within a number of rounds that is proportional to the length of the modulus: 14 rounds of 62 division steps for the fields of bn256, 21 for the base field of bls12381, 25 for pluto and eris, 15 for the other fields, and in general b / 18 + 2 for a modulus of b bits; for a modulus of at most (3/2)^k it needs at most 2 k division steps. So no input, invertible or not, makes an inversion (and with it to_affine, batch_normalize, division) take longer than this.", "quantifier": "all odd moduli up to 2^20 bits and all elements", "why_tests_cant": "The number of division steps depends on the bits of the element in an erratic way; that no element takes more than a bound is a statement about all 2^256 of them, and the original paper proves it with a computer search.", "anchors": ["src/ff_ext/inverse.rs::invert", "src/ff_ext/inverse.rs::jump", "derive/src/field/mod.rs::invert"]}
{"id": "C99", "title": "Deciding whether an element is a square takes a bounded number of rounds", "statement": "Whatever the arguments, the Jacobi symbol (and with it legendre and the tests for squares) ends within b (b / 29 + 2) + b / 29 + 2 rounds of its outer loop for arguments of b bits, each of at most 30 rounds of the inner loop, and at most 129 rounds of the final loop on single words; also in a build with overflow checks. For the shipped fields: 2570 rounds for 256 bits, 5730 for the base field of bls12381, 7599 for pluto and eris.", "quantifier": "all pairs of arguments with an odd denominator that fit the limbs of jacobi, all odd moduli and all elements", "why_tests_cant": "A round works on approximations of 32 to 64 bits and can go in the wrong direction; the outer loop has no bound in the code, so that it ends for every pair, and how fast, is a statement about all of them.", "anchors": ["src/ff_ext/jacobi.rs::jacobi", "src/ff_ext/jacobi.rs::jacobinary", "derive/src/field/mod.rs::jacobi"]}
{"id": "C100", "title": "Programs over the extension fields compute in the field with p^12 elements", "statement": "Code that works with the prime field, the quadratic, the sextic and the twelfth degree field of bn256, bls12381 or pluto - constants, add, sub, mul, neg, double, square, invert with its flag, frobenius_map, pow, sums and products, conjugate, norm, mul_by_nonresidue, building elements from coordinates and taking coordinates, the sparse products, square roots in the quadratic field with the flag, comparisons, branches and loops - does exactly what the same code does with the plain arithmetic of any field with p^12 elements, in which u, v and w are roots of the defining equations and the four types are the subfields of degrees 1, 2, 6 and 12: both runs end, abort or go on together, give the same bits and leave the same elements. A square root is found exactly when the quadratic subfield has one. The only call that aborts is the square root of zero on pluto, which recurses without end.", "quantifier": "all programs over the four fields of each of the three towers, all start values of the registers, all numbers of steps, all fields with p^12 elements", "why_tests_cant": "Tests compare single operations of one field on samples; that no sequence of calls, across the four types, can tell the tower from the field it stands for is a statement about all programs and all elements.", "anchors": ["src/ff_ext/quadratic.rs::QuadExtField", "src/ff_ext/quadratic.rs::sqrt_algo9", "src/ff_ext/quadratic.rs::sqrt_algo10", "src/ff_ext/cubic.rs::CubicExtField", "src/ff_ext/mod.rs::ExtField", "src/bn256/fq12.rs::Fq12", "src/bls12381/fq12.rs::Fq12", "src/pluto_eris/fp12.rs::Fp12", "src/derive/mod.rs::impl_sum_prod"]}
{"id": "C101", "title": "Secret sharing and threshold signatures built on the library", "statement": "A client that shares a scalar with a random polynomial, combines shares with Lagrange coefficients (products, differences and invert of scalars, msm for points) and checks shares against commitments to the coefficients gets a correct scheme: any t shares of different points give the secret back and equal points are noticed; t-1 shares are consistent with every secret, by exactly one polynomial; on every curve the multiples of a point by t shares combine to the multiple by the secret, and one wrong point among them makes the result wrong; the check with commitments accepts the right share and no other value, without a panic. On bls12381, any t strings that pass signature verification under the keys of the shares combine to the one signature of the shared key, byte for byte; a string that is not a point of the group makes the combination fail without a panic, and with one doubtful string the result is the right signature exactly when that string passes verification.", "quantifier": "all polynomials and shares over the scalar fields, all sets of different points, all curves and multi-scalar multiplications of the library, all messages, domains and digests with 32 bytes, fewer than 2^32 shares", "why_tests_cant": "A test combines a few shares of one polynomial; that all subsets of all sharings combine, that fewer shares fit every secret, and that no wrong share passes are statements over all polynomials that rest on field inversion, the multi-scalar multiplication, the encodings and the pairing together.", "anchors": ["derive/src/field/mod.rs::invert", "src/msm.rs::msm_serial", "src/msm.rs::msm_parallel", "src/derive/curve.rs::mul", "src/derive/curve.rs::ct_eq", "src/bls12381/g1.rs::hash_to_curve", "src/derive/curve.rs::from_bytes", "src/derive/curve.rs::to_bytes", "src/derive/pairing.rs::pairing"]}
{"id": "C102", "title": "Schnorr signatures and their batch verification built on the library", "statement": "A client that signs by encoding G*k and k + e*sk, with e from any hash through from_uniform_bytes, and verifies G*s == R + pk*e after decoding the strings gets a correct scheme on bn256 G1, grumpkin, pluto, eris, secp256k1 and secq256k1: no string of the right length makes it panic; every string read as a point is the key of exactly one secret; verification accepts exactly the strings that signing with the secret gives for some nonce; two accepted strings for the same key, message and first part are equal, so signatures cannot be altered; the challenge binds R, key and message: when only the hash of these changes and the challenge with it, the signature is refused; two signatures with one nonce and different challenges give the secret through invert. Checking many signatures with weights by one multi-scalar multiplication accepts when all hold, and with one that does not hold exactly one value of its weight is accepted, whatever the others and their weights are.", "quantifier": "all secrets, nonces, messages, hash functions and strings of the right length on the six curves, all lists of fewer than 2^31 signatures, all weights, all multi-scalar multiplications of the library", "why_tests_cant": "A test checks a few signatures and a few alterations; that no other string passes needs the uniqueness of the encodings of points and scalars, the order of the curve and the group law for all strings together, and the statement about weights ranges over the whole scalar field.", "anchors": ["src/derive/curve.rs::from_bytes", "src/derive/curve.rs::to_bytes", "derive/src/field/mod.rs::from_repr", "derive/src/field/mod.rs::to_repr", "derive/src/field/mod.rs::from_uniform_bytes", "derive/src/field/mod.rs::invert", "src/derive/curve.rs::mul", "src/derive/curve.rs::ct_eq", "src/msm.rs::msm_serial", "src/msm.rs::msm_parallel"]}
{"id": "C103", "title": "Groth's proofs for quadratic arithmetic programs built on the library", "statement": "A client that makes the setup by multiplying the generators of the two groups, proves with three multi-scalar multiplications in the first group and one in the second, and verifies with one multi-scalar multiplication, multi_miller_loop and final_exponentiation gets a correct scheme on bn256, bls12381 and pluto: the setup fails exactly when gamma or delta is zero; the prover and the verifier do not panic; each point of a group is the generator times exactly one scalar and the verifier accepts exactly when the equation of these scalars holds; the proof from values that satisfy the program is accepted for all secrets of the setup and random scalars; with values that do not satisfy it the proof is accepted exactly when the difference of the two sides vanishes at the secret point, which happens for at most as many points as its degree; for two witnesses of the same public values each proof of one is a proof of the other for exactly one choice of random scalars; to any points A and B there is exactly one accepted third point; A*s and B*s^-1 are accepted exactly when A and B are.", "quantifier": "all quadratic arithmetic programs with fewer than 2^32 terms, all secrets, public values, witnesses, quotients and random scalars, all points of the two groups, all multi-scalar multiplications of the library, on the three pairing engines", "why_tests_cant": "A test proves one statement with one setup and alters a few proofs; that no values outside the program pass apart from a bounded number of secret points, that proofs of different witnesses have the same distribution and that no panic is possible are statements about all scalars and need bilinearity, non-degeneracy and the group order.", "anchors": ["src/bn256/engine.rs::multi_miller_loop", "src/bn256/engine.rs::final_exponentiation", "src/bls12381/engine.rs::multi_miller_loop", "src/pluto_eris/engine.rs::multi_miller_loop", "src/msm.rs::msm_serial", "src/msm.rs::msm_parallel", "src/msm.rs::msm_best", "src/derive/curve.rs::mul", "src/derive/curve.rs::to_affine", "src/derive/curve.rs::neg", "derive/src/field/mod.rs::invert", "derive/src/field/mod.rs::to_repr"]}
{"id": "C104", "title": "Oblivious pseudorandom functions built on the library", "statement": "A client that runs the verifiable oblivious function of RFC 9497 with hash_to_curve, multiplication of points, the encodings, from_uniform_bytes for the challenge and invert gets a correct protocol on bn256 G1, grumpkin, pluto, eris, secp256k1 and secq256k1: nothing of the right length that is sent makes a reader panic; the hash of every input is a point; every string read as a point other than the identity is the first message of every input for exactly one random scalar other than zero, so it says nothing of the input; for a key and random scalars other than zero the answer is accepted and taking the random scalar away gives the value that the holder of the key computes directly; the answer is the only string from which this value is found; the proofs accepted for the right answer are exactly those the holder of the key makes for some random scalar; a proof is accepted exactly when key, message and answer are read as points, the last two not the identity, and its two canonical scalars satisfy the equation with the hash of the five strings; for a wrong answer at most one challenge and one scalar fit the strings that are hashed.", "quantifier": "all inputs, keys and random scalars, all hash functions for the challenge, all 32-byte hash functions with tags under 256 bytes for the points, all strings of the right length, on six curves", "why_tests_cant": "A test runs the protocol for a few inputs; that the first message has the same distribution for all inputs, that exactly one answer gives the value and that no string makes a reader panic are statements about all scalars and strings, and need the order of the curve, unique encodings and totality of the hashing maps.", "anchors": ["src/hash_to_curve.rs::hash_to_curve", "src/derive/curve.rs::from_bytes", "src/derive/curve.rs::to_bytes", "src/derive/curve.rs::mul", "src/derive/curve.rs::is_identity", "derive/src/field/mod.rs::invert", "derive/src/field/mod.rs::from_repr", "derive/src/field/mod.rs::to_repr", "derive/src/field/mod.rs::from_uniform_bytes", "derive/src/field/mod.rs::ct_eq"]}
{"id": "C105", "title": "Evaluations, openings and commitments from the values of a polynomial built on the library", "statement": "A client that keeps polynomials by their values on a domain of 2^k powers of a root of unity, made from ROOT_OF_UNITY by squaring, gets what it would get from the coefficients that best_fft with the inverse root and TWO_INV give: evaluation with one inversion per row fails exactly at the points of the domain and elsewhere gives the value of the polynomial; the rows of the quotient for an opening are found exactly outside the domain and the quotient times X - z is the polynomial less y exactly when y is its value at z; for any points of the group, best_fft over the curve with the inverse root, division by the size and batch_normalize gives points with which the multi-scalar product of the rows equals that of the coefficients with the original points.", "quantifier": "all ten prime fields, all domains up to the two-adicity (fewer than 32 doublings for the commitment), all rows, all points of evaluation, all points of the group, all multi-scalar multiplications of the library, any number of threads, builds with and without overflow checks", "why_tests_cant": "A test evaluates some polynomials at some points; the equalities hold for all rows and all points only because of the order of the root of unity, the inverse constants and the linearity of transform and multi-scalar product, and the exact set of points where the formula fails is the whole domain.", "anchors": ["src/fft.rs::best_fft", "derive/src/field/mod.rs::invert", "derive/src/field/mod.rs::ROOT_OF_UNITY", "derive/src/field/mod.rs::TWO_INV", "src/derive/curve.rs::batch_normalize", "src/derive/curve.rs::mul", "src/msm.rs::msm_serial", "src/msm.rs::msm_parallel"]}
{"id": "C106", "title": "Permutations for arithmetic hash functions built on the library", "statement": "A client that builds a hash permutation on a field of the library: the power by pow_vartime (the provided method of the ff crate, over square and mul) with one word as exponent is a permutation of the field exactly when the exponent has no factor in common with the modulus less one, and pow_vartime with an inverse of the exponent undoes it (so the fifth power serves for all fields but the base field of secp256r1 and the cube for none); the matrix of inverses of sums of two lists of elements is found exactly when no sum is zero, and for lists without repetitions two different states and their products with the matrix differ together in more places than the state has entries; every sequence of full and partial rounds with such a matrix and exponent is a permutation of the states, and a single round with another exponent is not.", "quantifier": "all ten prime fields (the statements hold for every field of the macro), all exponents of one word, all state sizes, all lists of elements, all states, all round constants and all sequences of full and partial rounds", "why_tests_cant": "A test runs the permutation on some states; that no two of the about 2^762 states of three elements collide follows from the order of the multiplicative group of each modulus and from the exactness of the inversions, neither of which can be seen on examples.", "anchors": ["derive/src/field/mod.rs::square", "derive/src/field/mod.rs::invert", "derive/src/field/mod.rs::add", "derive/src/field/mod.rs::mul"]}
{"id": "C107", "title": "Folding of polynomials given by their values built on the library", "statement": "A client that folds the values of a polynomial on a domain of 2^(k+1) powers of a root of unity, with a challenge, TWO_INV and the inverse root, gets on the domain of half the size (whose root is the square) the values of the polynomial whose coefficients combine the even and the odd coefficients with the challenge, where coefficients are what best_fft with the inverse root gives. So folding halves the bound on the degree for every challenge, and when the degree is not below 2n at most one challenge gives a folding of degree below n. With m foldings at most m p^(m-1) of the p^m lists of challenges turn values of a polynomial whose degree is not below 2^m n into a folding of degree below n. Folding with one challenge for each doubling leaves one value, the multilinear polynomial with these coefficients at the challenges.", "quantifier": "all ten prime fields, all domains up to the two-adicity (fewer than 64 doublings), all rows, all challenges, all degree bounds, any number of threads, builds with and without overflow checks", "why_tests_cant": "A test folds some rows with some challenges; that all but one challenge reject rows of large degree is a statement about all elements of the field and depends on the order of the root of unity and on the exactness of the constants.", "anchors": ["src/fft.rs::best_fft", "derive/src/field/mod.rs::ROOT_OF_UNITY", "derive/src/field/mod.rs::ROOT_OF_UNITY_INV", "derive/src/field/mod.rs::TWO_INV", "derive/src/field/mod.rs::mul", "derive/src/field/mod.rs::sub"]}
