# Formal model of halo2curves in Lean 4

Source: `/repo` (Rust, pinned commit), read as text.  Model and proofs: `/verif/lean/Verif/`.
Properties: `/verif/properties.jsonl`; status per property: `/verif/MANIFEST.json` (written by
`tools/manifest.py` from the theorems named `CNN_*` and `tools/status.json`); tests of the theorems against wrong
programs: `/verif/seeded/LOG.jsonl`.

How to read the log: entries `A…` come from a generator of small edits; the others were written by hand. In the `A…` entries
`first_failing` is the first declaration that no longer checks and `theorems_failed` are (at most twelve of) the property
theorems that depend on it, from the dependency graph of the unedited model. A failure says that the proof no longer checks. It
is not by itself a refutation of each theorem listed, since a proof script can also break on an edit that leaves the statement true.
Edits that do not compile as definitions are not counted. Where the line of the error could not be matched to one version of the
file, the message is given instead of the declaration.

## How the code is modelled

* Machine words are natural numbers reduced explicitly (`% 2^64`, `% 2^128`) exactly where Rust's
  `as u64`, wrapping or fixed-width operation reduces; a limb array `[u64; n]` is a `List Nat` of length `n`.
  The macro in `derive/src/field/arith.rs` is a code generator: the model is one definition, parametric in the
  limb count `n` and the modulus limbs, that performs the generated statements in the generated order.
* `&mut` arguments become returned values.  Loops are folds, structural recursion, or recursion on
  explicit fuel with a proof that the fuel suffices.  `CtOption`/`Option` is `Option`.  Panics
  (`unwrap`, `unimplemented!`, assert) are an explicit error value where a property speaks of them.
* `Fp p` is the type of canonical Montgomery limb lists with the operations of the limb model; it is proved to be a
  commutative ring isomorphic to `ZMod p` (and a field with the code's own inversion).  Extension fields and curve
  formulas are modelled over an arbitrary commutative ring / field with the methods the code calls
  (`ExtField`, `BaseField`), whose laws (`LawfulExt`, `LawfulBase`) are proved for `Fp p` and for each tower.
* Curve points: the projective triple (X : Y : Z) and the affine pair as in the code, related by `PRep`/`ARep` to
  Mathlib's `WeierstrassCurve.Affine.Point` group.
* Threads (`rayon`/`maybe_rayon`): the splitting into chunks is modelled with the thread count as a
  parameter; each chunk's work is a pure function of the slots it owns, so that a schedule is only an order of
  evaluation; the theorems quantify over the thread count and over all orders.
* Every definition that models code carries `Models <file>:<lines>`; simplifications are said there.

### Map of the modules

| directory | code | content |
|---|---|---|
| `Limb` | src/arithmetic.rs, derive/src/field/arith.rs | `adc sbb mac`, the generated limb arithmetic |
| `Asm` | derive/src/field/asm/limb4.rs | a small x86-64 machine, the assembly programs of the `asm` feature |
| `Field` | derive/src/field/mod.rs, derive/src/utils.rs, src/derive/field/common.rs, src/serde.rs | constants, conversions, encodings, `sqrt`, `Fp` |
| `Inverse` | src/ff_ext/inverse.rs | `CInt`, Bernstein-Yang inversion |
| `Jacobi` | src/ff_ext/jacobi.rs | `LInt`, the binary Jacobi algorithm |
| `Ext` | src/ff_ext/{quadratic,cubic,mod}.rs, src/derive/field/tower.rs, src/*/f*{2,6,12}.rs | towers, Frobenius, cyclotomic squaring, square roots |
| `Prime` | the moduli | Pocklington certificates checked by the kernel |
| `Curve` | src/derive/curve.rs, src/*/curve.rs, src/bls12381/g{1,2}.rs, src/serde.rs | group law, scalar multiplication, serialisation, orders, cofactors, random points |
| `Glv` | src/arithmetic.rs, src/derive/curve.rs (endo) | scalar decomposition |
| `Msm` | src/msm.rs | Booth windows, buckets, batch addition, schedules |
| `Fft` | src/fft.rs | iterative and recursive transforms |
| `Hash` | src/hash_to_curve.rs, suites in src/*/curve.rs | expand_message, hash_to_field, SVDW, SSWU, isogenies |
| `Pairing` | src/*/engine.rs, src/derive/pairing.rs | Miller loops, final exponentiation, Gt, bilinearity |
| `Props` | | the property theorems, each with its examples |

## Per property

| id | model | proof |
|----|-------|-------|
| C01 | `adc/sbb` chains on limb lists, `add/sub/neg/double` | invariants on carry chains by induction on the limb list, then case split on the final borrow |
| C02 | `mul/square/montgomery_reduce` on limb lists | row invariant of schoolbook product; Montgomery invariant `acc + m*p = R^i * rest` |
| C03 | `from_mont`, `from_raw` | rotating-round invariant |
| C04 | LE/BE bytes, `from_repr`..., and the number of words (`Props/FieldBytes.lean`, `Props/ReprSize.lean`) | positional notation lemmas + C02/C03 |
| C05 | `from_uniform_bytes`, `from_u128` | C02 + congruences of R2, R3 |
| C06 | raw bytes, `read_raw` streams | positional notation |
| C07 | byte-wise compare | lexicographic = numeric for equal length |
| C08 | borrow chain against (p-1)/2 | counterexample for the full statement, `_partial` for all other elements |
| C09 | `CInt`, `jump`, `fg`, `de`, `norm`, loop | divstep invariants; termination by a potential on the pair (f, g) |
| C10 | `jacobi` with its approximations | reciprocity step by step; termination by a size measure |
| C11 | `pow` + check, Tonelli-Shanks | Euler criterion |
| C12 | generator loops; tables | Hensel/order argument for every odd prime (C12_any); kernel computation for the hypotheses of the ten shipped fields |
| C13-C15 | tower arithmetic over commutative rings | `ring`, field arguments for inverses, isomorphism with Mathlib's `AdjoinRoot` |
| C16 | Frobenius with tables | Frobenius is a ring hom, tables checked by kernel computation |
| C17 | cyclotomic square | polynomial identity modulo the cyclotomic relations |
| C18 | is_zero | refuted for cubic; proved for quadratic |
| C19 | alg. 9, alg. 10 | finite field arguments |
| C20 | tower encodings with panic value | refuted (panics), `_partial` |
| C21 | RCB formulas | polynomial identities against Mathlib's group law |
| C22 | eq/to_affine/batch_normalize | field algebra, induction on slice |
| C23 | double-and-add over repr bits | induction on bits |
| C24 | decompose_scalar | inequality reasoning with concrete constants |
| C25 | endo | algebra with Mathlib group law |
| C26-C28 | serde | case analysis, C04, findings |
| C29-C32 | msm.rs | positional signed digits; group algebra; bounds on e for the window size |
| C33 | fft.rs, with and without overflow checks | induction on log n |
| C34-C37 | hash_to_curve.rs | list reasoning with abstract hash; field algebra |
| C38-C40 | engines, pairing.rs | monoid homomorphisms; exponent tracking |
| C41 | cofactor clearing, torsion tests | group exponent from C44, eigenvalue of the twisted Frobenius |
| C42 | folds, over prime fields, points and the two kinds of extension | induction |
| C43 | `LInt` operations | two's complement value function |
| C44 | the eleven curves | an explicit point of large order and the bound `#E <= 2q + 1`; Pocklington certificates |
| C45, C46 | scalar multiplication, `endo` on the groups | C44 and evaluation at a generator |
| C47 | suites with cofactor clearing | C37, C41 |
| C48 | `random` of points with the generator as a list of yields | induction on the list |
| C49 | `pairing`, `multi_miller_loop`, `final_exponentiation` | see below |
| C50 | the programs of asm/limb4.rs on a small x86-64 machine | symbolic execution with one rule per instruction; blocks composed by integer equations |
| C51 | `to_le_bits`, `char_le_bits` with 64- and 32-bit words (`Field/Bits`) | bits of digit lists; `toRepr` of C04 |
| C52 | serde of fields, `Repr`, quadratic extensions; a value is a tree of serde's data model (`Field/SerdeData`) | exact characterisation of the accepted values by induction on the string |
| C53 | `scalarTable` of script/bn256.py, `From<u64>` of bn256/fr.rs with the table | both sides represent `v` |
| C54 | `random` of the fields; the generator is the list of bytes it yields (`Field/Bits`, `Pairing/Random`) | counting residues below N; bijection of byte strings with integers; products for towers |
| C55 | serde of points over the codecs of C26, C27 | from C26, C27 and C52's lemmas; false for the curves over extensions (panic), C55_panics_false |
| C56 | `Gt::random` | C40, kernels of power maps of the cyclic group of the field, C54 |
| C57 | the field constants of C12 | full factorisations of the ten p-1 with Pocklington certificates for every prime factor (`Prime/Generators.lean`), checked in the kernel; orders of powers |
| C58 | the constants of tower.rs | embedding of the base field, C12, C57; generator, S and CAPACITY are those of the base field, so the interface's claims fail: C58_false |
| C59 | the decoders of C26-C28 | C27, C28, C44 for the curves of prime order; false for the four others, C59_false, with is_torsion_free as the remedy (C41) |
| C60 | unchecked readers on stored limb vectors (`Curve/Unchecked.lean`) | list splitting; C06 |
| C61 | Miller loops on arbitrary points of the curves (`Pairing/Total.lean`, `Pairing/TotalInst.lean`) | the state of the loop depends only on the order of Q (`Fate`); gcds of the exceptional multiples with the group order, by the kernel; false for bls12381 and pluto, C61_false, with the exact set of panics |
| C62 | `ct_eq`, `conditional_select` (`Ext/Select.lean`): words with subtle's mask, limbs, towers, points | case analysis; equality of limbs is equality of elements |
| C63 | `ff::helpers::sqrt_ratio_generic` (an external function of the `ff` crate, read as the copy of it in `src/hash_to_curve.rs`: `Hash/Map.lean`, `Hash/SqrtRatio.lean`); extension fields: `unimplemented!` | from C11 and C12 (ROOT_OF_UNITY is a non-square); false for the extension fields, C63_extensions_false |
| C64 | pairings and products of pairings of multiples of the generators by elements of the scalar field | from C49: order r of the value at the generators, then exponents |
| C65 | `from_uniform_bytes` with the lengths used by the hash suites | counting residues; the bias is below 2^-128 for every suite |
| C66 | `Debug` of field elements, towers, affine and projective points and `Gt`, and the words a field element gives to a hasher (`Field/Debug.lean`), without the `#` form | induction on bytes; cancellation of texts of equal length |
| C67 | the limb operations, the inverter, `jacobi` and `get_booth_index` with every overflow, shift, bounds check and `debug_assert!` (`Inverse/Checked.lean`, `Jacobi/Checked.lean`, `Msm/Checked.lean`), and the `usize` arithmetic of the three multi-scalar multiplications and of `best_fft` (`Msm/CheckedSerial.lean`, `Fft/Checked.lean`) | the invariants of C09 and C10 give the bounds of every intermediate value; the functions with checks equal those without |
| C68 | the maps of C35–C37 (`Hash/Fibre.lean`) | every candidate abscissa is a rational function of the input of small degree; roots of polynomials are counted; the isogenies multiply by their degree |
| C69 | `random` of points, any number of rounds (`Curve/RandomUniform.lean`, `Curve/RandomBytes.lean`) | for each abscissa the two bits give the two points; clearing the cofactor is a surjective homomorphism with kernel of size `h`; induction on rounds |
| C70 | the parameters | orders from C44; multiplicative orders certified with the factorisations of `r - 1` |
| C71 | the domains of the suites; `expand_message` of C34 | no domain is a suffix of another; the encodings hashed are injective |
| C72 | `encode`, `to_uncompressed`, `to_raw_bytes` of C26 and C28 | the value of the flag byte for every flag and byte; integers of byte strings |
| C73 | client programs (`Verif/Curve/Program.lean`): registers, one operation per function of the interface, branches, loops with fuel, output | simulation by induction on fuel between the run on representations and the run over the group and `ZMod r`; every step from C21, C22, C23, C30 |
| C74 | client programs of a pairing engine (`Verif/Pairing/Program.lean`): the calls of C73 for both groups, `pairing`, `multi_miller_loop`, `Gt` | simulation between the run on representations and the run on exponents modulo `r` (C73_exponents: homomorphisms commute with programs); pairing from C49 and C64, `Gt` from C39 and C62 |
| C75 | `best_fft` on coefficients of polynomials and on commitments; the model of C33, C30 and C22 | from C33 and Mathlib's polynomials: `%ₘ (X^(2^N) - 1)` has the same values; Lagrange basis at the powers of the root has the coefficients of the inverse transform |
| C76 | the word operations executed by the generated field functions, quadratic extensions, point functions and scalar multiplication, in a writer monad (`Verif/Trace`); rounds of `invert` | the traced functions return the values of the model; trace computed in closed form by induction over limbs; false for comparisons, scalar multiplication and inversion (Finding 25), exact traces proved instead |
| C77 | `read_raw`/`write_raw` of prime fields, quadratic extensions and points with the kind of the error and what is left of the stream; sinks with bounded room; `to_raw_bytes` of points through `write_raw`; `Endian::to_bytes`/`from_bytes` on slices with their panics (`Verif/Curve/Stream.lean`) | readers are compositional: a reader of objects made of elements of the fields `ms` behaves as the specification `firstBad ms` says, closed under sequencing, hence for lists and pairs of objects; `C77_first_bad` restates `firstBad` by indices; writers likewise; induction over limbs for `Endian` |
| C78 | a client of the modelled interface: setup, commitment with `msm_serial`, verification with `multi_miller_loop` and `final_exponentiation` | composition of C22, C23, C30 and C64: the commitments are `[f(tau)] G`, the product of pairings is one iff the exponents satisfy the equation, and `f = q (X - z) + f(z)` |
| C79 | `Verif/Curve/Coordinates.lean`: `coordinates`; `from_xy` of `Verif/Curve/Model.lean`. Proved: exactly which pairs are accepted, the round trip. False for the identity (finding 26). |
| C80 | `Verif/Props/Ecdsa.lean`: the program of `ecdsa_example` in `src/tests/curve.rs` over the models of `invert`, scalar multiplication, `to_affine`, `coordinates`, `to_repr` and `from_uniform_bytes`. Proved: which calls panic, completeness, and that the verifier accepts exactly what the signer can produce (and `r = 0` with the hash 0), for secp256k1 and secp256r1. |
| C81 | `Verif/Pairing/Gamma.lean`, `Twist.lean`, `BilinBls.lean` (`multi_wide`, `e_add_wide`), `Verif/Props/PairingWide.lean`. The evaluation of lines at a point needs only that no vertical line of the twist vanishes there; the twist of bls12381 has no point with x = 0, as 3 does not divide its order, so every point of G1's curve will do. Proved: totality, additivity, the exact kernel, the exact set and number of accepted signatures, the number of byte strings. |
| C82 | `Verif/Props/BlsSig.lean`: a client program (`SigSuite`: sign, key, readKey, readSig, verify, aggregate) over the models of `hash_to_curve`, scalar multiplication, the codecs, `is_torsion_free`, `pairing` and `multi_miller_loop`. Proved from C23, C27, C28, C41, C44, C47, C49, C64. The program is ours, not the repository's; its calls are the library's. |
| C83 | `Verif/Forms/Model.lean` gives each type a table of its operators, one entry per form, as the macros and the hand-written impls make them (a reference and a value are the same in the model, so what the table can get wrong is the function called and the order of the arguments). `Verif/Props/Forms.lean`: every entry is the operation of the ring, group or integers meant, from C01, C13, C14, C21, C22, C23, C39, C43. |
| C84 | `Verif/Forms/Repr.lean` (src/serde.rs:15-93): lists with Rust's rules for slices; a mutable range is a function applied to the bytes in it, a panic is an outcome. `C84_conversions`, `C84_reads`, `C84_writes`, `C84_reverse`. |
| C85 | `Verif/Pairing/Outside.lean`, `OutsideBls.lean`, `OutsidePluto.lean`: the Miller loop and the final power on literals at (G, q), (2G, q), (G, 2q) for a point q that generates all of the second curve, evaluated by the kernel; `Verif/Props/PairingOutside.lean`. False without the subgroup test (`C85_false`); with it, `C85_tested_partial` from C49, C59, C81. |
| C86 | `Verif/Curve/WireProgram.lean`: the programs of C73 with registers for byte strings and the encoders and decoders of points and scalars; a slice of the wrong length is refused before the decoder is called, as the conversion to the array type does | `Verif/Props/WireProgram.lean`: the meaning of decoding is "the element with this encoding" (unique by `C86_unique`), stated without the decoders; simulation by induction on fuel, steps from C26, C27, C28, C73. The quadratic-extension curves are left out since C27 is false there. |
| C87 | `Verif/Pairing/WireProgram.lean`: the programs of C74 with registers for byte strings and flags; a decoder in one of three forms followed by `is_torsion_free`; panics of the tower decoder are kept as outcomes | `Verif/Props/PairingWire.lean`: the meaning is in exponents, reading finds the exponent with this encoding (unique, part of the claim); both runs are unfinished, panic or end together (`OutRel`, by induction on fuel); steps from C74, C41, C44, C28, C86. The panicking strings are described by the integers in them (`Overflows`). `C87_no_panic`, `C87_panics`, and the signature verifier `C87_signature`. Compressed points of the second group are only written, since C27 is false there. |
| C88 | a client of the modelled interface: prover and verifier of the halving argument as recursive programs with explicit failures; the multi-scalar multiplication is a parameter with the specification `IsMsm` | `Verif/Props/Ipa.lean`: `C88_msm` shows that `msm_serial` and `msm_parallel` meet the specification; `C88_verifier` reads off the equation from C22 and C23; `C88_complete` by induction on the rounds in the module of points killed by `r`; `C88_extract` by induction on the tree of runs with Lagrange coefficients in the squares of the challenges, `C88_binding` from it. The probability that a tree is found (rewinding) is not modelled |
| C89 | a client of the modelled interface: the evaluation domain of halo2 (constants by repeated squaring, the coset scaling by 1, `ZETA`, `ZETA²` in turn, the table of inverses of the vanishing polynomial), identities as syntax trees with rotations; `batch_invert` of the crate `ff` is replaced by `invert` of each entry | `Verif/Props/Vanish.lean`: `C89_rows` from C75, C12 and the count of zeros of polynomials; `C89_check` bounds the number of points where a false claim passes |
| C90 | a client of the modelled interface: labels by repeated multiplication, the running product with one `invert` per cell | `Verif/Props/Permutation.lean`: `C90_labels` from C57; `C90_sound` from the factors of the two products as polynomials in the second challenge |
| C91 | a client of the modelled interface: `batch_normalize`, two calls of `msm_parallel`, one `multi_miller_loop` and `final_exponentiation` | `Verif/Props/BatchOpen.lean`: the batch is the value at the challenge of the polynomial whose coefficients are the errors of the single openings; C31, C44, C49, C64; roots bound the exceptions |
| C92 | `Verif/Props/ParProgram.lean`: the programs of C73 and C86 with calls of `msm_parallel`, `msm_best` and `best_fft`; a clock gives every call its own number of threads, order of tasks, rounded logarithm and overflow checks | simulation of a meaning without threads, by induction on fuel; `Verif/Fft/Threads.lean` shows that both versions of `best_fft` are the same network of butterflies for any operations and any factor (`C33_threads`); `msm_best` is kept below 8104 terms since C32 is false above |
| C93 | `Verif/Props/ParPairing.lean`: the programs of C87 with the calls of C92 in both groups | C87 for single calls, C92 for the calls that use threads carried to exponents by the homomorphism `e ↦ e g`, induction on fuel; `C93_transform`: in exponents the transform of points is the transform of scalars |
| C94 | `Verif/Field/Program.lean`: the methods of the macro on bare limbs over a back end (portable or assembly), client code as programs with registers; `Verif/Props/FieldProgram.lean` | C50 for the seven methods that depend on the feature, homomorphism lemmas for the generic square roots and powers, C04–C11 for the meaning of single calls, induction on fuel; the ring and the curve base field built from either back end are the ones the rest of the model uses |
| C95 | `CInt<62, L>` of inverse.rs as lists of chunks, with the operations that have no caller (`Sub`, `Mul`) | induction on the chunks, values modulo `2^(62 L)`; `C95_min_false`: the product with `i64::MIN` is wrong in a release build (never asked for by the inverter, C67) |
| C96 | a client of the modelled interface: sorting with `cmp`, arranging the table, the running product with one `invert` per row | `Verif/Props/Lookup.lean`: `C96_permute` by induction on the sorted column with C07; `C96_sound` from the product over a column as a polynomial whose roots are the column |
| C97 | `Verif/Asm/Contract.lean`: the operand lists of the `asm!` blocks beside the programs of C50 | `Verif/Props/AsmContract.lean`: registers not written by any instruction are preserved; an analysis of which registers and flags are determined by the inputs, proved sound for the machine and evaluated on the six programs |
| C98 | the loops of C09 with a count of their rounds (`Inverse/Rounds.lean`, `Trace/Invert.lean`) | the quadratic form f² − 2fg + 4g² shrinks by (4/9)^e during the 2e division steps from one state with delta = 1 to the next, so 2k steps suffice for p ≤ (3/2)^k; induction on k |
| C99 | the loops of C10 with a count of their rounds (`Jacobi/Rounds.lean`) | with H the power of two at or below the larger argument, an invariant of the inner loop over the exact values shows that a round either brings both numbers below H or takes 29 bits off the smaller one; so the pair (bits of the larger, bits of the smaller / 29) decreases lexicographically |
| C100 | programs with registers for the four fields of a tower, run with the functions of C13-C16 and the square roots of C19 (`Ext/Program.lean`), and the same programs run with the arithmetic of one field | a field with p^12 elements is isomorphic to the twelfth degree field; the embeddings carry each call to the arithmetic of the field, their images are the solutions of x^(p^d) = x by counting, and a simulation carries programs |
| C101 | client functions for Shamir's sharing, Feldman's check and threshold BLS signatures over the models of C09, C23, C30, C31 and C82 (`Props/Shares.lean`) | Lagrange interpolation for the coefficients that the client computes with `invert`; multiples of a point killed by r form a vector space over the scalars; the strings accepted by C82 are the signatures |
| C102 | client functions for Schnorr signatures and their batch verification over the models of C04, C05, C09, C23, C26, C27, C30, C31 and C44 (`Props/Schnorr.lean`) | on a curve of prime order every point is a multiple of the generator by exactly one scalar, so the equation of a signature is `s = k + e * sk`; decoding is sound and encoding complete on six curves, so strings and pairs `(k, s)` correspond; the batch is a linear equation in one weight with a non-zero coefficient |
| C103 | client functions for setup, prover and verifier of Groth's proofs over the models of C04, C05, C23, C24, C30, C31, C44, C49 and C64 (`Props/Groth16.lean`) | every point of a group is the generator times exactly one scalar, the product of pairings is 1 exactly when the sum of the products of scalars is 0 (C49, C64), and multi-scalar multiplication is the inner product of scalars; the rest is algebra over the scalar field, and the number of roots of the polynomial that measures how far the values are from satisfying the program |
| C104 | client functions for the verifiable oblivious function of RFC 9497 over the models of C04, C05, C09, C23, C26, C27, C35, C36, C44 and C62 (`Props/Oprf.lean`) | strings that decode correspond to scalars through the generator (as in C102), multiplication of points is multiplication of scalars, so blinding is a permutation of the non-zero scalars and unblinding its inverse; the proof is two linear equations in challenge and scalar, whose determinant is non-zero exactly for a wrong answer; the suites hash every input to a point (C35, C36) |
| C105 | client functions for evaluation, openings and commitments from the values on a domain, over the models of C01, C09, C12, C22, C23, C30, C31 and C33 (`Props/Rows.lean`) | the coefficients of the Lagrange basis at roots of unity (C75) give its values by a geometric sum; the quotient is determined by its values; the transform of the points has a symmetric matrix, so the two multi-scalar products are the same double sum |
| C106 | client functions for powers, the matrix of inverses and the rounds of a hash permutation, over the models of C01, C09 and `pow_vartime` (`Props/Sponge.lean`) | the multiplicative group is cyclic of order p - 1; rows in which two products agree are roots of a polynomial of degree below the number of places in which the states differ, and its value at the negative of one of the second list is not zero; injective maps of a finite set are bijective |
| C107 | client functions for folding values once and for a list of challenges, over the models of C01, C12 and C33 (`Props/Fold.lean`) | the half power of the root is -1, so the two values of a pair give the even and the odd part; a polynomial is determined by its values on the smaller domain; two challenges give two linear equations for each pair of coefficients; the count over several foldings is by induction, with one bad challenge in each |

### C49 in outline

The values of the lines of the Miller loop at a point of the other group form a 2-cocycle on the group of points of the
twist with values in the target field modulo elements killed by the final exponent (`Gamma`, from the addition law in
`Divisor`).  In the group extension it defines (`Extension`), the loop computes the `m`-fold power of a section (`Steps`),
the final additions use the twisted Frobenius, and the optimal ate combination is the power of the section that becomes
trivial in the group because `r` divides the Horner value of the coefficients at the Frobenius eigenvalue.  Additivity in
the second argument is commutativity of the extension; additivity in the first is reciprocity between two evaluation points
(`Twist`).  Non-degeneracy: the kernel evaluates the whole loop and the hard part of the exponent at the generators
(`ShMiller`, `Nondeg*`), and all other points of the groups are multiples.

## Trusted base

* Lean 4.33.0's kernel and the standard axioms `propext`, `Classical.choice`, `Quot.sound` (each theorem depends on these
  and on no others; `vcheck` verifies that).  No `sorry`, `native_decide`, `bv_decide` or own axiom.  Large computations
  use `decide +kernel`, i.e. the kernel's evaluation with its built-in natural number arithmetic.
* Mathlib's definitions used in statements: `ZMod`, `jacobiSym`, `WeierstrassCurve.Affine.Point` and its group law,
  `AdjoinRoot`, `Polynomial`, `Nat.Prime`, `AddSubgroup`.
* The reading of the Rust text into the model (the correspondence `Models file:lines`), including the expansion of macros.
* Contracts of external code, taken as definitions or parameters:
  * `ff`: `pow`, `pow_vartime` (square-and-multiply, most significant bit first), `helpers::sqrt_tonelli_shanks` and
    `sqrt_ratio_generic`; `subtle`: `Choice`, `CtOption`, `conditional_select`; `num-bigint`: `modpow`, `modinv`;
    `std::io::Read/Write`: a stream is a list of bytes; `u64::from_le_bytes` etc.
  * `pasta_curves`: its fields, `ZETA` constants and `Coordinates::from_xy`.
  * `digest`: an arbitrary function `Digest` with an output length; `rand_core`: the list of values yielded.
  * `f64` `ln` and `ceil` in msm.rs: a parameter with the bound `LnCeilOk`; C29_ln derives it for every `ln` within `2^-40` of the
    real logarithm (no integer below `2^32` is that close to a power of e).
  * `rayon`: tasks of a scope run each exactly once, in some order, on the slots they own.
  * `serde` (its data model and derive), `serde_arrays`, `hex` 0.4: the functions `hexEncode`, `hexDecode`, `serBytes`,
    `deBytes`, `serStruct2`, `deStruct2`; the formats (JSON, bincode) themselves are not modelled. `bitvec` (`ff::FieldBits`):
    `fieldBits`, the bits of the words least significant first.
  * x86-64 (`asm` feature): the semantics of the instructions in `Asm/Machine.lean`.
* Streams (C77): `Read::read_exact` and `Write::write_all` are Rust's std. What `read_exact` leaves after an early end is not specified there and is a parameter of the model; the sinks are `Vec<u8>` and `&mut [u8]`. Other I/O errors (a failing disk) are not modelled.
* Executed operations (C76): the trace has one event for each word operation (`adc`, `sbb`, `mac`, product, bit operation,
  word comparison, word select) of the portable code. It is assumed that each of these takes time independent of its operands,
  that `u64::ct_eq` and `u64::conditional_select` of the crate `subtle` do, and that the compiler keeps the control flow of the
  source; moves, byte splitting, loop counters and memory addresses have no event. The `asm` code
  needs none: its programs have no jumps and constant offsets (C97), so the executed instructions and addresses are the same for all operands.
* Not modelled: constant-time behaviour beyond C76, other side channels, memory usage, performance, error texts, `Debug` of internal types,
  benches and tests, `build.rs` apart from the table it generates.

### Check of the reading

`tools/vectors.py` evaluates the model on the known-answer tests that the repository contains (20 of `expand_message`, 30 of
`hash_to_curve` on secp256r1, secp256k1, bn256 G1 and G2, bls12381 G1 and G2), with SHA-256 and SHA-512 written in Lean for
this purpose: all 50 agree. This runs outside of the build and no theorem depends on it; it is evidence that the model
reads the code as it is (field arithmetic, square roots, curve formulas, isogenies, cofactors, byte order).

`tools/literals.py` compares the literals: every number of more than four digits in the non-test source (moduli, generators, Frobenius
coefficients, isogeny coefficients, curve constants, tables) occurs in the model, by value. That the model uses each at the right place
is what the theorems about constants (C12, C16, C24, C35 to C37, C40, C44, C46, C53, C57, C58) establish.

`tools/transcript.py` compares texts: 33 straight-line functions (point addition, doubling and mixed addition in both forms, the Miller
steps, the final exponentiations, the extension field products and squares, cyclotomic squaring, the wide limb product, the hashing maps)
are read from the repository and from the model into expression trees, which are equal, and the instructions and the operands of the six `asm!` blocks
are the same, one by one.

## Findings: properties that are false of the code

Each is proved as a negation with a concrete witness, next to the strongest true statement (`_partial` where the property
itself is weakened).

1. `lexicographically_largest` (C08_false): (p-1)/2 and its negation are both reported as not (resp. both) largest: the
   comparison is off by one.
2. `CubicExtField::is_zero` (C18_false, C18_towers_false): looks at c0 and c1 only, so `v^2` is "zero".
3. `batch_add` (C32_a_false, C32_a_wrong): the doubling in msm.rs omits the coefficient `a`. On secp256r1 `msm_best` panics when the
   bucket it leaves is off the curve, and silently returns a wrong point otherwise: the point with x = 0 is "doubled" into its
   opposite, so 8104 terms with that base and the scalars 2, 2, 0, ..., 0 give -2 P in place of 4 P.
4. `msm_best` with identity bases that have nonzero scalars (C32_identity_false): its batch addition takes the identity for the point (0, 0), which it gets from
   `coordinates()` (finding 26), and the `from_xy(..).unwrap()` of the sum panics.
5. `from_repr` of the quadratic towers (C20_total_false): panics on a non-canonical half instead of returning none.
   The same panic is reached by deserializing a G2 point with serde (C55_panics_false), and by `from_uncompressed` of a G2 point that
   someone else sent (C87_panics); `from_raw_bytes` does not panic (C87_no_panic).
6. `read_raw`/`from_raw_bytes` (C28_raw_false): no check that the point is on the curve; projective raw bytes accept (0,0,0).
7. Compressed decoding rejects x = 0 (C26_false) on secp256r1 and bls12381 G1, where such points exist.
8. `msm_serial` with a non-identity accumulator (C30_acc) and with different lengths (C30_lengths_false); lengths
   = 0, 1 modulo 2^32 divide by zero (C30_huge).
9. `expand_message` beyond the RFC's limits wraps its counters instead of failing (C34_long).
10. `sqrt_algo10` does not return on zero (C19_pluto_false).
11. `into_subgroup` (C41_into_false): bls12381 accepts all points, pluto G2 changes the point, bn256 G2 panics.
12. Sign of Fp2 coordinates: G2 encodings use a rule under which y and -y can have equal signs (C26_false,
    C27_malleable_false), and hash-to-curve for bn256 G2 and bls12381 G2 takes the parity of c0 only, unlike RFC 9380's
    sgn0 (C35_g2_sgn0_false, C36_g2_sgn0_false).
13. Booth windows of 25 bits and more read beyond four bytes (C29_wide_false).
14. The comment of `approximate` in jacobi.rs states a formula the code does not satisfy (C10_approximate_false), without
    effect on results.
15. The 11-isogeny of bls12381 G1 returns the invalid triple (0,0,0) on its kernel, and hashing can reach it
    (C37_g1_false, C37_g1_reached, C47_bls12381_g1_partial).
16. `Gt::default()` is the zero of the field, not a group element (C39_default_false).
17. `from_mont` with the `asm` feature has no final subtraction: on the limbs of a nonzero multiple of `p` (possible only
    after an unchecked read) it returns `p`, the portable code returns 0 (C50_asm_from_mont_words).
18. The quadratic towers implement `PrimeField` with the constants of the base field (C58_false): the "multiplicative
    generator" is a square and generates the base field only, `S` is too small, and `CAPACITY = NUM_BITS` exceeds what the
    field can hold (the integer p has NUM_BITS bits and is zero).
19. None of the decoders checks the subgroup (C59_false): on bn256 G2, pluto G2, bls12381 G1 and G2 they accept points outside
    of the group of prime order although the types implement `PrimeGroup`.
20. `pairing` panics on points that all decoders accept (C61_false): the additions of the Miller loop are incomplete, so for a
    point q of G2 of order 13 on bls12-381, or of order 13 or 73 on pluto, the loop runs into the point at infinity, then into
    (0, 0, 0), the value becomes zero, and `final_exponentiation` unwraps its inverse. bn256 has no such points.
21. `sqrt_ratio` and, through the default method of `ff::Field`, `sqrt_alt` of all extension fields always panic
    (C63_extensions_false), although `sqrt` of the quadratic ones is implemented.
22. Observations without a property: bn256 G2 `exp_by_x` prints to stdout; the comment on `ThreeSpare` disagrees with the
    code; bls12381 G2 encodes c0 before c1, unlike the ZCash format; the 11-isogeny tables hold Montgomery literals passed
    through `from_raw` (harmless: a common factor); `Gt` multiplication skips the top bit of the scalar (harmless, scalars are
    below 2^255); `Gt::generator()` (src/derive/pairing.rs:255) and `hash_to_curve` of pluto G2 (src/pluto_eris/curve.rs:267)
    are `unimplemented!()`.
23. `best_fft` in builds without overflow checks: `assert_eq!(n, 1 << log_n)` shifts by `log_n % 64`, so `log_n = 66` with four
    elements passes and yields a vector that is not the transform (C33_wrap_false).
24. Point formats against published ones (C72): bls12381 G1 compressed points agree with the IETF draft for every point; the
    uncompressed point at infinity carries no infinity bit (all zero bytes, the draft has 0x40 first), bls12381 G2 puts c0
    before c1 (C72_ietf_false), and secp256k1/secp256r1 points never have the SEC 1 form (C72_sec1_false).
25. The comparison of field elements stops at the first limb that differs (derive/src/field/mod.rs:231-240 uses
    `Iterator::all`), although it implements `ConstantTimeEq` (C76_eq_false). `is_zero` is that comparison with zero, and
    `double` tests `z.is_zero()`, so the multiplication of a point by a scalar executes `n - 1` more operations for each leading
    zero bit of the scalar, `n` the number of limbs (C76_leak, C76_mul_false, C76_generators_false). `invert` runs a number of
    rounds that depends on its argument (C76_invert_false), and so do `to_affine` and `batch_normalize`, which call it.
26. `coordinates()` of the identity (C79_identity_false): returns `Some((0, 0))`, whereas `CurveAffine` documents `None`; so
    `coordinates().unwrap()` does not reject the identity, and a client computes with (0, 0) (finding 4, and the signatures with
    `r = 0` in C80).
27. bls12381 G1 without the subgroup test (C81_bls12381, C81_malleable_false): the decoders do not test the subgroup (finding
    on C59) and the pairing ignores the component of the point that the cofactor kills, so for each message and key
    76329603384216526031706109802092473003 uncompressed strings satisfy the signature equation. With `is_torsion_free` it is one.
28. The pairing of decoded points is not bilinear (C85_false): the decoders of the second groups do not test the subgroup, and for
    the points outside of it e(2G, q) differs from e(G, q)^2 and so does e(G, 2q), on all three engines. Callers must use
    `is_torsion_free` on every point of the second group that they decode (C85_tested_partial).
29. In the chunked integers of the inverter the product with `i64::MIN` is wrong in a release build and panics in a debug build
    (C95_min_false); the inverter never asks for it.
