{"id": "C01", "title": "Native-field gate operations are sound against any prover", "statement": "For add, add_constant, sub, mul, mul_add_constant, mul_add, div (by a non-zero value), invert_unsafe, assign_constant, and assert_equal/assert_constant, every assignment of all advice cells that satisfies the emitted gate rows and copy constraints gives the returned cell exactly the field value the operation's name promises in terms of the values of the argument cells (and the asserted relation holds).", "quantifier": "all prior circuit contents, all argument cells, all constants, all satisfying advice assignments, over any field", "why_tests_cant": "The prover picks every advice cell, so a run with the honest witness says nothing about what other assignments the emitted constraints admit.", "anchors": ["halo2-ecc-circuit-lib/src/gates/base_gate.rs::BaseGateOps::{add,add_constant,sub,mul,mul_add_constant,mul_add,invert_unsafe,div_unsafe,assign_constant,assert_equal,assert_constant}", "halo2-ecc-circuit-lib/src/gates/base_gate.rs::BaseGate::{configure,one_line}"]}
{"id": "C02", "title": "Weighted sums of any length are sound", "statement": "sum_with_constant over a list of cells with coefficients, of any length, forces the returned cell to be constant + sum(coeff_i * cell_i) in every satisfying assignment, although the sum is spread over several rows that are linked only through the last column of the following row.", "quantifier": "all list lengths, coefficients, constants, prior circuits and satisfying assignments", "why_tests_cant": "Tests use a few fixed lengths and only the honest intermediate accumulators.", "anchors": ["halo2-ecc-circuit-lib/src/gates/base_gate.rs::BaseGateOps::sum_with_constant", "halo2-ecc-circuit-lib/src/gates/base_gate.rs::BaseGateOps::one_line_with_last_base"]}
{"id": "C03", "title": "Boolean operations and selection are sound on bits", "statement": "assert_bit forces its argument to be 0 or 1. When the argument conditions are bits, and/or/xor/xnor/not return the bit of the Boolean connective, bisec returns its first argument when the condition is 1 and the second when it is 0, assert_true/assert_false force 1/0.", "quantifier": "all prior circuits, argument cells and satisfying assignments, over any field", "why_tests_cant": "The prover picks every advice cell, so a run with the honest witness says nothing about what other assignments the emitted constraints admit.", "anchors": ["halo2-ecc-circuit-lib/src/gates/base_gate.rs::BaseGateOps::{assert_bit,and,or,xor,xnor,not,bisec_cond,assert_true,assert_false}", "halo2-ecc-circuit-lib/src/five/base_gate.rs::bisec"]}
{"id": "C04", "title": "Zero test and inversion cannot be cheated", "statement": "is_zero returns a cell that is 1 when the argument is 0 and 0 otherwise, in every satisfying assignment; invert returns that flag together with a cell that is the multiplicative inverse whenever the argument is non-zero.", "quantifier": "all prior circuits, arguments and satisfying assignments, over any field", "why_tests_cant": "The prover picks every advice cell, so a run with the honest witness says nothing about what other assignments the emitted constraints admit.", "anchors": ["halo2-ecc-circuit-lib/src/gates/base_gate.rs::BaseGateOps::{invert,is_zero}"]}
{"id": "C05", "title": "Honest witnesses always satisfy the native-gate constraints (completeness)", "statement": "For any straight-line program of native gate operations, the advice values written by the chip satisfy every gate row and copy constraint the program emitted, and the program only panics when it inverts/divides by zero.", "quantifier": "all programs (any length, any operands) and all input values", "why_tests_cant": "Tests run a handful of programs on random values.", "anchors": ["halo2-ecc-circuit-lib/src/gates/base_gate.rs::BaseGate::one_line", "halo2-ecc-circuit-lib/src/gates/base_gate.rs::BaseGateOps"]}
{"id": "C06", "title": "Native straight-line programs: circuit result equals direct evaluation", "statement": "For any straight-line program over the native gate operations, in every satisfying assignment the value of each result cell equals the value obtained by evaluating the program directly in the field from the values of the input cells.", "quantifier": "all programs, all satisfying assignments", "why_tests_cant": "The prover picks every advice cell, so a run with the honest witness says nothing about what other assignments the emitted constraints admit.", "anchors": ["halo2-ecc-circuit-lib/src/gates/base_gate.rs::BaseGateOps"]}
{"id": "C07", "title": "Multi-row multiply-accumulate is sound (as used by the non-native multiplication)", "statement": "mul_add_with_next_line over a non-empty list of (a,b,c,coeff) forces the result to be the sum of a*b + coeff*c, in every satisfying assignment. (The five-column override satisfies it; the default body in the trait does not, since its first accumulator cell is not constrained.)", "quantifier": "all non-empty lists and satisfying assignments", "why_tests_cant": "The prover picks every advice cell, so a run with the honest witness says nothing about what other assignments the emitted constraints admit.", "anchors": ["halo2-ecc-circuit-lib/src/gates/base_gate.rs::BaseGateOps::mul_add_with_next_line", "halo2-ecc-circuit-lib/src/five/base_gate.rs::{mul_add_with_next_line,mul_add2}"]}
{"id": "C08", "title": "Range-checked limbs are really in range", "statement": "Every cell returned by assign_nonleading_limb is < 2^68, and every value assigned with assign_w is an integer < 2^254 built of three limbs < 2^68 and a leading limb < 2^50; leading limbs for n_floor and d are < 2^49 and < 2^67, in every satisfying assignment including the lookups.", "quantifier": "all witness values and satisfying assignments, BN254 base field over BN254 scalar field", "why_tests_cant": "The prover picks every advice cell, so a run with the honest witness says nothing about what other assignments the emitted constraints admit.", "anchors": ["halo2-ecc-circuit-lib/src/five/integer_chip.rs::{assign_nonleading_limb,assign_n_floor_leading_limb,assign_w_ceil_leading_limb,assign_d_leading_limb,assign_d,assign_w}", "halo2-ecc-circuit-lib/src/five/range_gate.rs::configure", "halo2-ecc-circuit-lib/src/gates/range_gate.rs::init_table", "halo2-ecc-circuit-lib/src/utils.rs::decompose_bn"]}
{"id": "C09", "title": "Reduction keeps the represented value and restores tight bounds", "statement": "reduce on an assigned integer whose limbs obey the bound announced by its overflow counter (< 64) yields an integer congruent to it modulo the base-field prime w, with limbs back under 2^68/2^50, in every satisfying assignment.", "quantifier": "all limb values within bounds, all overflow counters 1..63, all satisfying assignments", "why_tests_cant": "The prover picks every advice cell, so a run with the honest witness says nothing about what other assignments the emitted constraints admit.", "anchors": ["halo2-ecc-circuit-lib/src/five/integer_chip.rs::{reduce,conditionally_reduce,native}"]}
{"id": "C10", "title": "Non-native add/sub/neg compute the right residue and honest overflow counters", "statement": "add, sub and neg on integers within their announced bounds return an integer whose value modulo w is the sum/difference/negation and whose limbs are within the bound announced by the returned overflow counter, in every satisfying assignment.", "quantifier": "all argument integers within bounds, all overflow counters for which the call does not panic, all satisfying assignments", "why_tests_cant": "The prover picks every advice cell, so a run with the honest witness says nothing about what other assignments the emitted constraints admit.", "anchors": ["halo2-ecc-circuit-lib/src/five/integer_chip.rs::{add,sub,neg,find_w_modulus_ceil}"]}
{"id": "C11", "title": "Non-native multiplication is sound", "statement": "mul and square on integers within their announced bounds (overflow counters < 64) return an integer congruent to the product modulo w with limbs under 2^68/2^50, in every satisfying assignment: the checks modulo 2^272 (through two carries) and modulo the native prime leave no other solution.", "quantifier": "all argument integers within bounds, all satisfying assignments", "why_tests_cant": "The prover picks every advice cell, so a run with the honest witness says nothing about what other assignments the emitted constraints admit.", "anchors": ["halo2-ecc-circuit-lib/src/five/integer_chip.rs::{mul,square,add_constraints_for_mul_equation_on_limb0,add_constraints_for_mul_equation_on_native,add_constraints_for_square_equation_on_native}", "halo2-ecc-circuit-lib/src/utils.rs::get_d_range_bits_in_mul"]}
{"id": "C12", "title": "Non-native division is sound", "statement": "div(a,b) returns a flag that is 1 exactly when b is congruent to 0 modulo w, and, when b is non-zero, an integer c with c*b congruent to a modulo w, in every satisfying assignment.", "quantifier": "all argument integers within bounds, all satisfying assignments", "why_tests_cant": "The prover picks every advice cell, so a run with the honest witness says nothing about what other assignments the emitted constraints admit.", "anchors": ["halo2-ecc-circuit-lib/src/five/integer_chip.rs::div"]}
{"id": "C13", "title": "Non-native zero and equality tests are exact on residues", "statement": "is_zero returns 1 exactly when the value is congruent to 0 modulo w; is_equal/assert_equal decide congruence of their arguments modulo w (no false accept through an alternative representative), in every satisfying assignment.", "quantifier": "all argument integers within bounds, all satisfying assignments", "why_tests_cant": "The prover picks every advice cell, so a run with the honest witness says nothing about what other assignments the emitted constraints admit.", "anchors": ["halo2-ecc-circuit-lib/src/five/integer_chip.rs::{is_zero,is_pure_zero,is_pure_w_modulus,assert_equal}", "halo2-ecc-circuit-lib/src/chips/integer_chip.rs::is_equal"]}
{"id": "C14", "title": "Multiplying by a small constant keeps the overflow bookkeeping honest", "statement": "After mul_small_constant(a, b) with a within its announced bound and b < 64, the limbs of the result are within the bound announced by the returned overflow counter.", "quantifier": "all argument integers within bounds, all b < 64", "why_tests_cant": "The bookkeeping error is invisible until enough operations are chained for a limb to wrap.", "anchors": ["halo2-ecc-circuit-lib/src/five/integer_chip.rs::mul_small_constant"]}
{"id": "C15", "title": "Non-native operations do not panic on integers they themselves produced", "statement": "add, sub, neg, mul, is_zero, assert_equal never hit the overflow-limit assertion when their arguments are results of these operations.", "quantifier": "all histories of operations", "why_tests_cant": "Depends on reachable overflow counters, i.e. on operation histories.", "anchors": ["halo2-ecc-circuit-lib/src/five/integer_chip.rs::{add,sub,neg,reduce,conditionally_reduce}"]}
{"id": "C16", "title": "Honest witnesses satisfy the non-native constraints (completeness)", "statement": "When the inputs are honest values within bounds, the witness computed by assign_w, reduce and mul satisfies all emitted rows and lookups (quotients, carries and remainders fit their ranges).", "quantifier": "all input values within bounds", "why_tests_cant": "Quotient/carry ranges are only stressed by extreme values.", "anchors": ["halo2-ecc-circuit-lib/src/five/integer_chip.rs::{reduce,mul,assign_w,assign_d}"]}
{"id": "C17", "title": "The exported parity bit is the parity of the coordinate", "statement": "get_last_bit of an assigned coordinate equals the parity of the canonical representative (< w) of the value, in every satisfying assignment, so that the public encoding determines the point.", "quantifier": "all satisfying assignments", "why_tests_cant": "The prover picks every advice cell, so a run with the honest witness says nothing about what other assignments the emitted constraints admit.", "anchors": ["halo2-ecc-circuit-lib/src/five/integer_chip.rs::get_last_bit", "halo2-snark-aggregator-circuit/src/verify_circuit.rs::synthesize"]}
{"id": "C18", "title": "Assigned points are valid points", "statement": "assign_point forces the identity flag to be a bit and the coordinates to satisfy the curve equation unless the flag is set, in every satisfying assignment.", "quantifier": "all witness coordinates and satisfying assignments", "why_tests_cant": "The prover picks every advice cell, so a run with the honest witness says nothing about what other assignments the emitted constraints admit.", "anchors": ["halo2-ecc-circuit-lib/src/chips/ecc_chip.rs::assign_point"]}
{"id": "C19", "title": "Point addition is the group law, on all inputs", "statement": "add, double, neg and sub on points that represent group elements return a point representing the group sum/double/negation/difference, including identity operands, equal operands and opposite operands, in every satisfying assignment.", "quantifier": "all pairs of group elements, all representations of their coordinates, all satisfying assignments", "why_tests_cant": "Exceptional cases (P+P, P-P, identity) and malicious witnesses.", "anchors": ["halo2-ecc-circuit-lib/src/chips/ecc_chip.rs::{add,double,neg,sub,lambda_to_point,lambda_to_point_non_zero,bisec_point,curvature}"]}
{"id": "C20", "title": "Scalar multiplication and multi-exponentiation compute s*P and sum s_i*P_i", "statement": "mul(P,s), constant_mul and shamir(points, scalars) return a point representing s*P respectively sum_i s_i*P_i, for the scalar value modulo the group order, in every satisfying assignment.", "quantifier": "all scalars, points, list lengths, satisfying assignments", "why_tests_cant": "Bit decomposition is prover-supplied; tests see only the honest one.", "anchors": ["halo2-ecc-circuit-lib/src/chips/ecc_chip.rs::{mul,shamir,constant_mul,decompose_scalar}", "halo2-ecc-circuit-lib/src/chips/native_ecc_chip.rs::decompose_scalar"]}
{"id": "C21", "title": "Asserting equality of points asserts equality of group elements", "statement": "assert_equal(P,Q) is satisfiable only if P and Q represent the same group element.", "quantifier": "all pairs of points, all satisfying assignments", "why_tests_cant": "The prover picks every advice cell, so a run with the honest witness says nothing about what other assignments the emitted constraints admit.", "anchors": ["halo2-ecc-circuit-lib/src/chips/ecc_chip.rs::{assert_equal,is_equal}"]}
{"id": "C22", "title": "Bit decomposition of scalars represents the scalar", "statement": "decompose_scalar returns cells that are all bits and whose binary value is congruent to the scalar modulo the native prime, in every satisfying assignment.", "quantifier": "all scalars and satisfying assignments", "why_tests_cant": "The prover picks every advice cell, so a run with the honest witness says nothing about what other assignments the emitted constraints admit.", "anchors": ["halo2-ecc-circuit-lib/src/chips/native_ecc_chip.rs::decompose_scalar"]}
{"id": "C23", "title": "pow_constant computes base^exponent", "statement": "For every exponent >= 1 of type u32, pow_constant terminates and returns base^exponent.", "quantifier": "all bases, all u32 exponents", "why_tests_cant": "The failing exponents are above 2^31; loop termination over all u32.", "anchors": ["halo2-snark-aggregator-api/src/arith/field.rs::pow_constant"]}
{"id": "C24", "title": "Accumulation with a challenge is the Horner polynomial", "statement": "mul_add_accumulate([a_0..a_{k-1}], b) returns sum a_i * b^(k-1-i), for every list.", "quantifier": "all lists and challenges", "why_tests_cant": "List-length induction.", "anchors": ["halo2-snark-aggregator-api/src/arith/field.rs::mul_add_accumulate"]}
{"id": "C25", "title": "Gate expressions are evaluated as polynomials", "statement": "chip_evaluate of any halo2 expression without virtual selectors equals the mathematical evaluation of the expression at the given query values.", "quantifier": "all expression trees and query values", "why_tests_cant": "Unbounded tree shapes.", "anchors": ["halo2-snark-aggregator-api/src/systems/halo2/expression.rs::chip_evaluate"]}
{"id": "C26", "title": "Linear-combination schemas evaluate to the combination they describe", "statement": "For every evaluation-query schema that multiplies a commitment-bearing part only by scalars, eval returns (P, s) with P the sum of commitments times their coefficients and s the accumulated scalar, whatever the nesting, provided equal keys denote equal commitments; merging by key does not change the result.", "quantifier": "all schema trees, commitments, keys and scalars", "why_tests_cant": "Schemas are built by folding over unbounded query lists; merging depends on global key equality.", "anchors": ["halo2-snark-aggregator-api/src/systems/halo2/evaluation.rs::{eval,eval_prepare}"]}
{"id": "C27", "title": "Commitment keys are unambiguous", "statement": "Two commitments queried in one aggregation get the same key only if they are the same commitment (needed for C26), in particular across several instances inside one proof and across several circuits aggregated together.", "quantifier": "all verification-key shapes, instance counts, names", "why_tests_cant": "Collision depends on circuit names and number of instances.", "anchors": ["halo2-snark-aggregator-api/src/systems/halo2/params.rs::queries", "halo2-snark-aggregator-api/src/systems/halo2/permutation.rs::queries", "halo2-snark-aggregator-api/src/systems/halo2/lookup.rs::queries", "halo2-snark-aggregator-api/src/systems/halo2/vanish.rs::queries", "halo2-snark-aggregator-api/src/systems/halo2/multiopen.rs::batch_multi_open_proofs", "halo2-snark-aggregator-sdk/src/lib.rs::zkaggregate", "halo2-snark-aggregator-circuit/src/verify_circuit.rs"]}
{"id": "C28", "title": "The batched opening pair encodes the multi-opening check", "statement": "The pair (w_x, w_g) built from the queries equals (sum_i u^i W_i, sum_i u^i (z_i W_i + sum_j v^j (C_ij - e_ij G))) where groups are the distinct rotations in order of first use; if all polynomials are opened honestly the pairing identity holds, and if it holds for more than (number of groups - 1) values of u, every group's opening identity holds.", "quantifier": "all query lists, commitments, evaluations and challenges", "why_tests_cant": "Quantifies over all challenges and query lists.", "anchors": ["halo2-snark-aggregator-api/src/systems/halo2/multiopen.rs::{get_point_schemas,batch_multi_open_proofs}"]}
{"id": "C29", "title": "Lagrange evaluations are correct", "statement": "get_lagrange_commits returns, for i = 0..l, the value at x of the polynomial of degree < n that is 1 at omega^-i and 0 at the other n-th roots of unity, whenever x is not one of the roots used.", "quantifier": "all x, all domain sizes n and primitive roots omega", "why_tests_cant": "All evaluation points and sizes.", "anchors": ["halo2-snark-aggregator-api/src/systems/halo2/lagrange.rs::get_lagrange_commits", "halo2-snark-aggregator-api/src/systems/halo2/params.rs::queries"]}
{"id": "C30", "title": "Permutation-argument constraints are those of the PLONK permutation check", "statement": "The expressions returned for the permutation argument vanish if and only if: the first grand product is 1 on the first row, the last one is 0 or 1 on the last usable row, consecutive grand products are chained, and every product step multiplies by the ratio of (value + beta*delta^i*x + gamma) and (value + beta*sigma_i + gamma) over that set's columns, for any number of columns and chunk length.", "quantifier": "all column counts, chunk lengths, evaluations and challenges", "why_tests_cant": "Chunking logic with delta powers.", "anchors": ["halo2-snark-aggregator-api/src/systems/halo2/permutation.rs::expressions"]}
{"id": "C31", "title": "Lookup-argument constraints are those of the PLOOKUP-style check", "statement": "The five expressions returned for a lookup equal the published formulas with input/table expressions compressed by theta in order.", "quantifier": "all evaluations, challenges and numbers of compressed columns", "why_tests_cant": "All lists and challenges.", "anchors": ["halo2-snark-aggregator-api/src/systems/halo2/lookup.rs::expressions"]}
{"id": "C32", "title": "Vanishing check recombines the quotient", "statement": "The expected quotient evaluation is the y-combination of all expressions divided by x^n - 1 and the quotient commitment is sum h_i * x^(n i) over the pieces, for any number of pieces/expressions.", "quantifier": "all lists of expressions and pieces", "why_tests_cant": "List-length induction.", "anchors": ["halo2-snark-aggregator-api/src/systems/halo2/vanish.rs::queries"]}
{"id": "C33", "title": "Aggregation is a sound random linear combination", "statement": "The aggregated pair is the challenge-weighted (Horner) combination of the individual pairs; if every proof satisfies its pairing identity so does the aggregate, and if at least one fails the aggregate passes for at most (number of proofs - 1) values of the challenge.", "quantifier": "all numbers of proofs, all pairs, all challenges", "why_tests_cant": "Soundness counts over all challenges.", "anchors": ["halo2-snark-aggregator-api/src/systems/halo2/verify.rs::verify_aggregation_proofs_in_chip"]}
{"id": "C34", "title": "The proof byte stream round-trips with identical challenges", "statement": "Reading back a byte stream produced by ShaWrite (points and scalars in the same order, challenges squeezed at the same places) yields the same values and the same challenges as the writer saw; the reader rejects encodings that are not canonical or not on the curve.", "quantifier": "all message sequences and all hash functions", "why_tests_cant": "All histories.", "anchors": ["halo2-snark-aggregator-api/src/transcript/sha.rs::{ShaRead,ShaWrite}"]}
{"id": "C35", "title": "Transcript absorption is unambiguous", "statement": "Two different sequences of absorbed points/scalars between two challenges are absorbed as different byte strings (so distinct histories collide only if the hash collides).", "quantifier": "all pairs of message sequences", "why_tests_cant": "All pairs of histories.", "anchors": ["halo2-snark-aggregator-api/src/transcript/sha.rs::{common_point,common_scalar,squeeze_challenge}"]}
{"id": "C36", "title": "The generated contract's transcript equals the prover-side transcript", "statement": "For every history of absorbing points and scalars and squeezing challenges, the hash input bytes and challenge values computed by the generated Solidity (update_hash_*, squeeze_challenge with byte reversal) equal those of the Rust SHA transcript.", "quantifier": "all histories, all 256-bit words", "why_tests_cant": "All histories; byte reversal over all 2^256 words.", "anchors": ["halo2-snark-aggregator-solidity/src/transcript/codegen.rs", "halo2-snark-aggregator-solidity/templates/verifier.sol::{update_hash_scalar,update_hash_point,squeeze_challenge,fr_reverse}", "halo2-snark-aggregator-api/src/transcript/sha.rs"]}
{"id": "C37", "title": "Poseidon squeeze is a sponge with injective padding", "statement": "squeeze processes the elements absorbed since the previous squeeze in blocks of RATE, with a closing block that marks the length, so that the sequence of blocks determines the absorbed sequence (also for empty input and multiples of RATE), and keeps the state across squeezes.", "quantifier": "all absorbed sequences, all T/RATE", "why_tests_cant": "All input lengths.", "anchors": ["halo2-snark-aggregator-api/src/hash/poseidon.rs::{update,squeeze,permutation,absorb_with_pre_constants}"]}
{"id": "C38", "title": "Byte reversal in the contract reverses all 32 bytes", "statement": "fr_reverse maps every 256-bit word to the word with its 32 bytes in opposite order.", "quantifier": "all 2^256 inputs", "why_tests_cant": "2^256 inputs.", "anchors": ["halo2-snark-aggregator-solidity/templates/verifier.sol::fr_reverse"]}
{"id": "C39", "title": "Common-subexpression caching preserves meaning", "statement": "The straight-line program recorded by the code-generation context, in which repeated expressions reuse the first memory location, gives every returned handle the value of the expression it stands for.", "quantifier": "all sequences of code-generation calls", "why_tests_cant": "All histories of calls.", "anchors": ["halo2-snark-aggregator-solidity/src/code_generator/ctx.rs::{assign_memory,allocate}"]}
{"id": "C40", "title": "Scalar-chip constant folding preserves values", "statement": "The simplifications of the Solidity scalar and point chips (constants folded, neutral elements dropped) never change the value of the expression.", "quantifier": "all operand expressions and constants", "why_tests_cant": "All operand values.", "anchors": ["halo2-snark-aggregator-solidity/src/chips/scalar_chip.rs", "halo2-snark-aggregator-solidity/src/chips/ecc_chip.rs"]}
{"id": "C41", "title": "The memory pool never hands out overlapping slots", "statement": "Under any sequence of scalar/point allocations and frees of live slots, live allocations occupy disjoint words (a point occupies two adjacent words starting at an even word), and freed words become available again.", "quantifier": "all allocation/free histories", "why_tests_cant": "All histories.", "anchors": ["halo2-snark-aggregator-solidity/src/code_generator/linear_scan/memory_pool.rs"]}
{"id": "C42", "title": "Register allocation preserves the program's result", "statement": "Running the program after linear_scan (memory renaming and temporaries) yields the same values for the final expressions as the original program, for every single-assignment program and every input.", "quantifier": "all well-formed straight-line programs, all inputs, all initial memory contents", "why_tests_cant": "All programs.", "anchors": ["halo2-snark-aggregator-solidity/src/code_generator/linear_scan/mod.rs", "halo2-snark-aggregator-solidity/src/code_generator/linear_scan/live_interval.rs"]}
{"id": "C43", "title": "Fusing multiplication and addition preserves the program's result", "statement": "The combine_mul_add peephole pass does not change the values of the final expressions, for every single-assignment program.", "quantifier": "all programs and inputs", "why_tests_cant": "The failing program shape (x = a*b; y = x + x) is rare.", "anchors": ["halo2-snark-aggregator-solidity/src/code_generator/linear_scan/optimize.rs"]}
{"id": "C44", "title": "Merging transcript updates preserves the absorbed data", "statement": "The update-hash merging pass leaves the absorbed word array unchanged for every program.", "quantifier": "all sequences of update statements", "why_tests_cant": "Depends on run lengths and kinds.", "anchors": ["halo2-snark-aggregator-solidity/src/code_generator/aggregate/update_hash.rs"]}
{"id": "C45", "title": "Packed multiply-add opcodes decode to the same operations", "statement": "The packed opcode words produced for runs of memory multiply-adds (both variants) make the contract perform exactly the original sequence of operations.", "quantifier": "all runs and memory offsets", "why_tests_cant": "Offsets beyond one byte and the terminator value.", "anchors": ["halo2-snark-aggregator-solidity/src/code_generator/aggregate/multi_mul_add_pm.rs", "halo2-snark-aggregator-solidity/src/code_generator/aggregate/multi_mul_add_mt.rs", "halo2-snark-aggregator-solidity/templates/verifier.sol::{fr_mul_add_pm,ecc_mul_add_pm,fr_mul_add_mt}"]}
{"id": "C46", "title": "Collapsing repeated squarings preserves the program's result", "statement": "The pass that replaces runs of t = t*t by an exponentiation does not change the results, for every program.", "quantifier": "all programs", "why_tests_cant": "Failure needs a run that is interrupted.", "anchors": ["halo2-snark-aggregator-solidity/src/code_generator/aggregate/aggregate_fr_pow.rs"]}
{"id": "C47", "title": "Collapsing multiplication sequences into loops preserves the program's result", "statement": "The pass that replaces arithmetic-progression runs of m*m*... statements by a loop executes the same multiplications in the same order.", "quantifier": "all programs", "why_tests_cant": "All runs and strides.", "anchors": ["halo2-snark-aggregator-solidity/src/code_generator/aggregate/aggregate_mul_seq.rs", "halo2-snark-aggregator-solidity/src/code_generator/aggregate.rs"]}
{"id": "C48", "title": "Public encoding of the final pair is faithful and injective", "statement": "The four instance words derived from the final pair by the circuit, by final_pair_to_instances and by the contract agree for canonical coordinates and determine both points.", "quantifier": "all pairs of curve points", "why_tests_cant": "All points.", "anchors": ["halo2-snark-aggregator-circuit/src/verify_circuit.rs::{final_pair_to_instances,synthesize}", "halo2-snark-aggregator-solidity/templates/verifier.sol::verify"]}
{"id": "C49", "title": "The contract accepts each statement in one form only", "statement": "Two calls of the verifier contract that use different instance words describe different statements (the contract rejects non-canonical instance words).", "quantifier": "all 256-bit words", "why_tests_cant": "Needs words >= the field modulus.", "anchors": ["halo2-snark-aggregator-solidity/templates/verifier.sol::verify"]}
{"id": "C50", "title": "Scalar helper functions of the contract compute field operations", "statement": "fr_pow, fr_div and the rendered addition/subtraction/multiplication return the field result for all canonical operands; fr_div rejects a zero divisor.", "quantifier": "all operands", "why_tests_cant": "2^256 operands; loop over exponent bits.", "anchors": ["halo2-snark-aggregator-solidity/templates/verifier.sol::{fr_pow,fr_div}", "halo2-snark-aggregator-solidity/src/code_generator/ctx.rs::to_typed_string"]}
{"id": "C51", "title": "The committed instance polynomial matches the instances", "statement": "The instance commitment computed in the chip is the sum of instance_i times the i-th Lagrange base point, for any number of instances, so different instance vectors give different combinations of the bases.", "quantifier": "all instance vectors and bases", "why_tests_cant": "All lengths and values.", "anchors": ["halo2-snark-aggregator-api/src/systems/halo2/verify.rs::assign_instance_commitment"]}
{"id": "C52", "title": "Proof creation uses the proofs it is given", "statement": "MultiCircuitsCreateProof::call aggregates the proofs supplied by the caller.", "quantifier": "all pairs of (template proofs, proofs)", "why_tests_cant": "Tests pass the same proofs for both.", "anchors": ["halo2-snark-aggregator-circuit/src/verify_circuit.rs::MultiCircuitsCreateProof::call"]}
{"id": "C53", "title": "Straight-line integer-chip programs are sound against any prover", "statement": "For any sequence of integer-chip calls (assign, constants, reduce, add, sub, neg, mul, square, div, is_zero, is_equal, assert_equal, selection), every satisfying assignment makes the returned integers stand for the residues that the program computes over the simulated field (the prover choosing only assigned values and quotients of divisions by zero), the returned flags are right, and the overflow bookkeeping of every integer is honest.", "quantifier": "all programs, all prior circuits, all satisfying assignments", "why_tests_cant": "The prover picks every advice cell, so a run with the honest witness says nothing about what other assignments the emitted constraints admit.", "anchors": ["halo2-ecc-circuit-lib/src/five/integer_chip.rs::FiveColumnIntegerChip"]}
{"id": "C54", "title": "The circuit does not depend on the witness", "statement": "Two straight-line programs (native gate or integer chip) that differ only in the values passed to assign emit the same rows, the same selectors and fixed values, the same copy constraints and the same overflow counters, so a verification key made with one witness is valid for all others.", "quantifier": "all programs, all pairs of witnesses, all prior circuits", "why_tests_cant": "Only a few pairs of witnesses can be compared; value-dependent branches hide in rare values.", "anchors": ["halo2-ecc-circuit-lib/src/gates/base_gate.rs::BaseGateOps", "halo2-ecc-circuit-lib/src/five/integer_chip.rs::FiveColumnIntegerChip"]}
{"id": "C55", "title": "The disabled prerequisite checks hold for BN254", "statement": "All assertions guarded by PREREQUISITE_CHECK (false in the build) hold for the BN254 base field simulated in the BN254 scalar field, so skipping them loses nothing for this configuration.", "quantifier": "the whole (single) production configuration", "why_tests_cant": "The assertions are compiled out, so no test reaches them.", "anchors": ["halo2-ecc-circuit-lib/src/five/integer_chip.rs::PREREQUISITE_CHECK", "halo2-ecc-circuit-lib/src/five/config.rs", "halo2-ecc-circuit-lib/src/utils.rs::get_d_range_bits_in_mul"]}
{"id": "C56", "title": "Straight-line ECC-chip programs are sound against any prover", "statement": "For any sequence of ECC-chip calls (assign, constants, identity, add, double, neg, sub, reduce, mul, constant_mul, shamir, assert_equal), every satisfying assignment in which the identity flags of the assigned points are bits makes the returned points stand for the group elements the program computes.", "quantifier": "all programs, all prior circuits, all satisfying assignments", "why_tests_cant": "The prover picks every advice cell, so a run with the honest witness says nothing about what other assignments the emitted constraints admit.", "anchors": ["halo2-ecc-circuit-lib/src/chips/ecc_chip.rs::EccChipOps"]}
{"id": "C57", "title": "The ECC circuit does not depend on the witness", "statement": "Two ECC-chip programs that differ only in assigned points and scalars emit the same rows and copy constraints and return the same cells and overflow counters.", "quantifier": "all programs, all pairs of witnesses, all prior circuits", "why_tests_cant": "Only a few pairs of witnesses can be compared; value-dependent branches hide in rare values.", "anchors": ["halo2-ecc-circuit-lib/src/chips/ecc_chip.rs::EccChipOps"]}
{"id": "C58", "title": "An honest prover can add and double any points", "statement": "For every pair of curve points, assigning them and adding or doubling them succeeds and the recorded witness satisfies the circuit.", "quantifier": "all curve points", "why_tests_cant": "The failing points are a small fraction of the curve; random tests do not meet them.", "anchors": ["halo2-ecc-circuit-lib/src/chips/ecc_chip.rs::{add,double,curvature}", "halo2-ecc-circuit-lib/src/five/integer_chip.rs::div"]}
{"id": "C59", "title": "An honest prover can multiply any constant point by any scalar", "statement": "constant_mul succeeds for every curve point and every scalar and the recorded witness satisfies the circuit.", "quantifier": "all curve points and scalars", "why_tests_cant": "2^508 inputs.", "anchors": ["halo2-ecc-circuit-lib/src/chips/ecc_chip.rs::constant_mul"]}
{"id": "C60", "title": "The scalar field is the scalar ring of the curve group", "statement": "The curve group used by the ECC chip has exactly as many elements as the native field, and every point is a unique scalar multiple of the generator, so multiplication by a native-field scalar is well defined and the identity (0,0,1) is the only exceptional point.", "quantifier": "all points", "why_tests_cant": "The group has about 2^254 elements.", "anchors": ["halo2-ecc-circuit-lib/src/chips/ecc_chip.rs::mul"]}
{"id": "C61", "title": "What is opened is what the halo2 verifier opens", "statement": "The query list built for a proof claims, for every commitment of the proof and of the key, the value read for it at the point of its rotation, with the gate, permutation, lookup and vanishing claims of the PLONK verifier, for every verification key and one instance vector.", "quantifier": "all verification keys, commitments, evaluations and challenges", "why_tests_cant": "Key shapes are unbounded; tests use a few circuits.", "anchors": ["halo2-snark-aggregator-api/src/systems/halo2/params.rs::queries"]}
{"id": "C62", "title": "Fiat-Shamir order", "statement": "Reading a proof absorbs the key digest, the instance commitments and every value of the proof in the order of the halo2 verifier, each exactly once and before any challenge that must depend on it; every challenge is a function of all that was absorbed before it.", "quantifier": "all verification keys, proof bytes and hash functions", "why_tests_cant": "A test with honest proofs passes for many wrong orders if the prover shares them; all byte strings.", "anchors": ["halo2-snark-aggregator-api/src/systems/halo2/verify.rs::build_params", "halo2-snark-aggregator-api/src/systems/halo2/transcript.rs"]}
{"id": "C63", "title": "Opening points follow the rotations", "statement": "Every polynomial is opened at omega^r x for the rotation r of its query, so grouping by rotation groups by point.", "quantifier": "all verification keys and challenges", "why_tests_cant": "Rotations that are not in the test circuits.", "anchors": ["halo2-snark-aggregator-api/src/systems/halo2/params.rs::queries", "halo2-snark-aggregator-api/src/systems/halo2/verify.rs::build_params"]}
{"id": "C64", "title": "Verifying one proof gives the two sides of its opening check", "statement": "verify_single_proof_in_chip returns for every proof of the right form with a challenge outside the domain, and the returned points are the left and right sides of the opening check of the record read from the bytes.", "quantifier": "all verification keys, proofs and hash functions", "why_tests_cant": "End-to-end over all keys and proofs.", "anchors": ["halo2-snark-aggregator-api/src/systems/halo2/verify.rs::verify_single_proof_in_chip"]}
{"id": "C65", "title": "Aggregating proofs gives the combination of their checks", "statement": "verify_aggregation_proofs_in_chip verifies every proof of every circuit with its own transcript, makes the combining challenge depend on all of them, and returns the challenge-weighted sums of the left and the right sides, all instances and all advice commitments in order, for different proof keys.", "quantifier": "all lists of circuits and proofs", "why_tests_cant": "End-to-end over all lists.", "anchors": ["halo2-snark-aggregator-api/src/systems/halo2/verify.rs::verify_aggregation_proofs_in_chip"]}
{"id": "C66", "title": "The number of opening proofs read is the number of rotations", "statement": "The verifier needs exactly one opening point for every different rotation in the key.", "quantifier": "all verification keys", "why_tests_cant": "Key shapes are unbounded.", "anchors": ["halo2-snark-aggregator-api/src/systems/halo2/multiopen.rs::get_point_schemas", "halo2-snark-aggregator-api/src/systems/halo2/verify.rs::build_params"]}
{"id": "C67", "title": "A verified proof uses all of its bytes", "statement": "Two different byte strings do not verify with the same result: every byte of the proof takes part.", "quantifier": "all proofs and byte strings", "why_tests_cant": "Tests never append bytes.", "anchors": ["halo2-snark-aggregator-api/src/systems/halo2/verify.rs::build_params"]}
{"id": "C68", "title": "Challenges are the Poseidon hash of the transcript", "statement": "With the Poseidon transcript, every challenge of the circuit and of the native verifier is the Poseidon sponge of the words of the values that stand before it in the layout of the halo2 verifier, from the state left by the challenge before; in a circuit this holds in every satisfying assignment.", "quantifier": "all round constants and matrices, keys, proofs, satisfying assignments", "why_tests_cant": "The hash input has unbounded length and every satisfying assignment counts, not only the honest one.", "anchors": ["halo2-snark-aggregator-api/src/systems/halo2/transcript.rs", "halo2-snark-aggregator-api/src/hash/poseidon.rs", "halo2-snark-aggregator-api/src/systems/halo2/verify.rs::build_params"]}
{"id": "C69", "title": "Circuit and native verifier use the same challenges", "statement": "If the cells read by the circuit are absorbed as the values the bytes decode to (as for an honest prover), every challenge of the circuit has the value of the challenge of the native verifier on the same bytes.", "quantifier": "all keys, proofs, round constants, satisfying assignments", "why_tests_cant": "All proofs and assignments.", "anchors": ["halo2-snark-aggregator-circuit/src/verify_circuit.rs::calc_verify_circuit_final_pair", "halo2-snark-aggregator-api/src/systems/halo2/transcript.rs"]}
{"id": "C70", "title": "A point has one transcript encoding", "statement": "In every satisfying assignment, a point read from the proof is absorbed into the transcript as the canonical coordinates of the group element it stands for, so that the challenge is a function of the group element.", "quantifier": "all points and satisfying assignments", "why_tests_cant": "Honest provers always use canonical coordinates.", "anchors": ["halo2-snark-aggregator-circuit/src/chips/encode_chip.rs::encode_point", "halo2-ecc-circuit-lib/src/chips/ecc_chip.rs::assign_point", "halo2-ecc-circuit-lib/src/five/integer_chip.rs::assign_w"]}
{"id": "C71", "title": "Point helper functions of the contract compute group operations", "statement": "ecc_add, ecc_sub, ecc_mul and ecc_mul_add return the words of the sum, difference and multiple of the points given as words, for all points and scalar words, and revert for words that are not a point.", "quantifier": "all points, including the identity, and all words", "why_tests_cant": "All pairs of points; the identity never comes up in honest proofs.", "anchors": ["halo2-snark-aggregator-solidity/templates/verifier.sol::ecc_add"]}
{"id": "C72", "title": "The verifier circuit's public inputs bind the verified proofs", "statement": "In every satisfying assignment of the whole verifier circuit, the public inputs after the final pair are the instances the proofs were verified with, all challenges are the Poseidon hashes of the transcripts from the initial state, commitments declared coherent are equal, and the final pair that the public inputs encode is the aggregated pair of the opening checks.", "quantifier": "all lists of circuits and proofs, coherence lists and satisfying assignments", "why_tests_cant": "Every satisfying assignment counts, not only the honest one; lists are unbounded.", "anchors": ["halo2-snark-aggregator-circuit/src/verify_circuit.rs::synthesize", "halo2-snark-aggregator-circuit/src/verify_circuit.rs::synthesize_proof"]}
{"id": "C73", "title": "The generated verifier function computes the opening check of the proof it is called with", "statement": "If a call of the generated function get_wx_wg returns, the two returned points are the left and right sides of the halo2 opening check of the record read from the call: the instance commitments are those of the instance words, the points and scalars stand in the proof words in the order of the halo2 verifier, every challenge is the hash of everything absorbed before it, and x is outside the domain; whatever sample proof the function was generated with.", "quantifier": "all verification keys, sample proofs, calls and hash functions", "why_tests_cant": "The generated code depends on the key; a test runs one contract on one proof, the one it was generated with.", "anchors": ["halo2-snark-aggregator-solidity/src/lib.rs::call", "halo2-snark-aggregator-solidity/src/code_generator/ctx.rs", "halo2-snark-aggregator-solidity/src/chips/scalar_chip.rs", "halo2-snark-aggregator-solidity/src/chips/ecc_chip.rs", "halo2-snark-aggregator-solidity/templates/verifier.sol::get_wx_wg"]}
{"id": "C74", "title": "The contract and the native SHA reader see the same proof", "statement": "If the words of a call are the bytes of a proof, and the native SHA reader accepts these bytes in the order of the halo2 verifier, then it sees the points, scalars and challenges that the contract computes with.", "quantifier": "all verification keys, proofs and hash functions", "why_tests_cant": "All proofs; both sides must agree on every challenge.", "anchors": ["halo2-snark-aggregator-solidity/waffle/test/Verifier.test.ts::bufferToUint256LE", "halo2-snark-aggregator-circuit/src/verify_circuit.rs", "halo2-snark-aggregator-api/src/transcript/sha.rs", "halo2-snark-aggregator-solidity/templates/verifier.sol"]}
{"id": "C75", "title": "The generator does not panic on a sample it verifies", "statement": "If native verification of the sample proof with the SHA transcript returns a final pair and no intermediate point is the identity, the generator returns a contract and its recorded sample values are that pair.", "quantifier": "all verification keys, sample proofs, instances and hash functions, and all Poseidon parameters of the simulated sponge", "why_tests_cant": "Generation is tested with one circuit.", "anchors": ["halo2-snark-aggregator-solidity/src/lib.rs::call", "halo2-snark-aggregator-solidity/src/chips/ecc_chip.rs", "halo2-snark-aggregator-solidity/src/transcript/codegen.rs"]}
{"id": "C76", "title": "The generated verifier does not revert on proofs that native verification accepts", "statement": "Let a contract be generated from a sample. If native verification of the bytes of another proof, with instances of the same shape and as many opening points, returns a final pair without subtracting the identity, then get_wx_wg called with the words of these bytes and instances returns the words of that pair: it does not revert, run out of array bounds or read other words.", "quantifier": "all verification keys, samples, proofs, instances and hash functions for which the absorbing array is smaller than 4 GB", "why_tests_cant": "The generated contract is only ever run on the proofs of one circuit, and a test cannot show that no other proof makes it revert.", "anchors": ["halo2-snark-aggregator-solidity/src/lib.rs::call", "halo2-snark-aggregator-solidity/src/chips/scalar_chip.rs", "halo2-snark-aggregator-solidity/src/chips/ecc_chip.rs", "halo2-snark-aggregator-solidity/src/transcript/codegen.rs", "halo2-snark-aggregator-solidity/templates/verifier.sol"]}
{"id": "C77", "title": "The contract accepts exactly the proofs whose pairings hold", "statement": "Called with the words of a final pair of points, the remaining instances, and the bytes of a proof for which native verification with the packed instances returns a pair (l, r), verify accepts if and only if the first pairing equation holds for (l, r) and the second for the final pair.", "quantifier": "all generated contracts, final pairs, instances and proofs", "why_tests_cant": "A test sees single calls that are accepted or rejected; that nothing else can make a call fail needs an argument about all proofs.", "anchors": ["halo2-snark-aggregator-solidity/templates/verifier.sol", "halo2-snark-aggregator-solidity/src/lib.rs::call", "halo2-snark-aggregator-circuit/src/verify_circuit.rs::final_pair_to_instances"]}
{"id": "C78", "title": "Every sequence of ECC calls succeeds for an honest prover", "statement": "For every sequence of calls of the ECC chip on curve points and scalars (assignment, add, double, neg, sub, reduce, mul, constant_mul, shamir, assert_equal of equal points) synthesis does not panic, the witness it computes satisfies every constraint, and the cells hold the group elements that the calls denote.", "quantifier": "all call sequences, points and scalars", "why_tests_cant": "Panics depend on rare values of intermediate slopes in the middle of a multiplication; a test meets none of them.", "anchors": ["halo2-ecc-circuit-lib/src/chips/ecc_chip.rs::mul", "halo2-ecc-circuit-lib/src/chips/ecc_chip.rs::shamir", "halo2-ecc-circuit-lib/src/chips/ecc_chip.rs::sub", "halo2-ecc-circuit-lib/src/chips/ecc_chip.rs::reduce", "halo2-ecc-circuit-lib/src/chips/native_ecc_chip.rs::decompose_scalar"]}
{"id": "C79", "title": "The aggregation circuit can be proved whenever native verification succeeds", "statement": "For every list of target circuits, proofs and coherence pairs for which native verification returns a final pair of points other than the identity and the pairs name equal commitments, synthesize does not panic, the witness it computes satisfies every constraint, and the rows bound to the instance column hold exactly what final_pair_to_instances computes natively from that pair.", "quantifier": "all verification keys, proofs, instances, Poseidon parameters and coherence lists", "why_tests_cant": "A test proves one fixed aggregation; a panic or an unsatisfied row for some other proof, which would make a valid batch unprovable, is not seen.", "anchors": ["halo2-snark-aggregator-circuit/src/verify_circuit.rs::synthesize_proof", "halo2-snark-aggregator-circuit/src/verify_circuit.rs::final_pair_to_instances", "halo2-ecc-circuit-lib/src/chips/ecc_chip.rs::shamir", "halo2-snark-aggregator-api/src/systems/halo2/verify.rs"]}
{"id": "C80", "title": "The multi-exponentiation library computes the sum of multiples", "statement": "LibMulexp.multiexp returns if and only if there are at least as many bases as scalars, every base with a non-zero scalar is the word pair of a curve point, and the stack has room for the nested calls of every scalar (its bits plus its ones but the first); it then returns the word pair of the sum of the points multiplied by the scalars. 511 nested calls are enough for every scalar and needed for some.", "quantifier": "all lists of 256-bit scalars and of word pairs, all stack sizes", "why_tests_cant": "A test runs a few scalars; that all of 2^256 give the sum, and how deep the recursion goes, needs an argument about all.", "anchors": ["halo2-snark-aggregator-solidity/templates/lagrange.sol"]}
{"id": "C81", "title": "Instances written to a file are read back", "statement": "load_instances, applied to the instances of a proof as they are written by sample_run and verify_run, returns these instances.", "quantifier": "all numbers of columns, all instances, all byte strings", "why_tests_cant": "The examples have one column; what happens to several columns, trailing bytes and non-canonical encodings is not tested.", "anchors": ["halo2-snark-aggregator-circuit/src/fs.rs::load_instances", "halo2-snark-aggregator-circuit/src/sample_circuit.rs::sample_circuit_random_run"]}
{"id": "C82", "title": "The aggregator loads the proofs and keys of the circuits they belong to", "statement": "After sample_setup and sample_run for a list of circuits, CreateProof::new returns for every circuit the proofs that were made for it, with the instances that were drawn for them, and a verifying key of its type.", "quantifier": "all lists of target circuits (names, numbers of proofs, parameter names), all proving systems whose keys can be read back, all randomness", "why_tests_cant": "Names of files are put together from a name and a number without a separator; tests use names and numbers that do not collide.", "anchors": ["halo2-snark-aggregator-circuit/src/fs.rs", "halo2-snark-aggregator-circuit/src/sample_circuit.rs", "halo2-snark-aggregator-sdk/src/lib.rs::dispatch_sample_run"]}
{"id": "C83", "title": "Proofs that are aggregated by the SDK have different schema keys", "statement": "For circuits that are loaded from a folder with CreateProof::new, the keys that tell the commitments of different proofs apart are different.", "quantifier": "all lists of target circuits, all folders and proving systems", "why_tests_cant": "Two circuits with one key can still verify when their commitments agree, or when only one is aggregated.", "anchors": ["halo2-snark-aggregator-circuit/src/verify_circuit.rs::new", "halo2-snark-aggregator-api/src/systems/halo2/verify.rs::verify_aggregation_proofs_in_chip"]}
{"id": "C84", "title": "The files of verify_run are what was proved", "statement": "After verify_run, the parameters, the key, the instances and the proof that verify_check and verify_solidity load are those of the proof that was made, and the words of the final pair file make the contract compute the instances of the instance file.", "quantifier": "all target circuits, folders, proving systems and randomness", "why_tests_cant": "Tests check one run; that no file overwrites another and that every encoding is read back needs all values.", "anchors": ["halo2-snark-aggregator-sdk/src/lib.rs::dispatch_verify_run", "halo2-snark-aggregator-circuit/src/fs.rs::write_verify_circuit_final_pair", "halo2-snark-aggregator-solidity/templates/verifier.sol"]}
{"id": "C85", "title": "The contract checks the final pair with the parameters of the target circuits", "statement": "If the final pair is valid for the parameters of the target circuits, and the proof of the aggregation circuit is valid, then the contract accepts them.", "quantifier": "all target circuits, folders, proving systems, secrets of the two setups", "why_tests_cant": "A test that uses one setup for both cannot see which of them is used.", "anchors": ["halo2-snark-aggregator-solidity/src/lib.rs::call", "halo2-snark-aggregator-circuit/src/verify_circuit.rs::get_params_cached"]}
{"id": "C86", "title": "The contract accepts the files of verify_run exactly if both pairs are valid", "statement": "After verify_run and verify_solidity, if native verification of the proof returns a pair, the contract that is called with the words of the proof file and of the final pair file accepts if and only if the pairing holds for this pair and for the final pair.", "quantifier": "all target circuits, folders, proving systems, randomness, hash functions", "why_tests_cant": "The chain of native aggregation, files, code generation and contract is only tested for one example.", "anchors": ["halo2-snark-aggregator-sdk/src/lib.rs::dispatch_verify_solidity", "halo2-snark-aggregator-solidity/src/lib.rs::call", "halo2-snark-aggregator-solidity/templates/verifier.sol"]}
{"id": "C87", "title": "A contract can be generated after every successful verify_run", "statement": "If native verification of the proof made by verify_run returns a pair, verify_solidity returns a contract.", "quantifier": "all target circuits, proofs and public inputs", "why_tests_cant": "Tests generate the contract from one proof, whose public inputs are not zero.", "anchors": ["halo2-snark-aggregator-solidity/src/chips/ecc_chip.rs::scalar_mul_constant", "halo2-snark-aggregator-sdk/src/lib.rs::dispatch_verify_solidity", "halo2-snark-aggregator-api/src/systems/halo2/verify.rs::assign_instance_commitment"]}
{"id": "C88", "title": "The circuit for which keys are generated is the circuit that is proved", "statement": "MultiCircuitsSetup::call, which puts the first proof of every target circuit in all places, passes to keygen a circuit with the same fixed rows, copy constraints and instance cells as the circuit MultiCircuitsCreateProof::call passes to the prover, for all proofs with the same verifying keys and as many instances; so do verify_setup and verify_run.", "quantifier": "all verifying keys, target circuits, proofs, instances, lists of coherent commitments, proving systems", "why_tests_cant": "A value that decides which rows are emitted is only found with a proof for which it decides differently from the first one.", "anchors": ["halo2-snark-aggregator-circuit/src/verify_circuit.rs::call", "halo2-snark-aggregator-circuit/src/verify_circuit.rs::synthesize", "halo2-snark-aggregator-sdk/src/lib.rs::dispatch_verify_setup"]}
{"id": "C89", "title": "The instance column of verify_run has the declared size", "statement": "The instance column that verify_run writes consists of four rows for the final pair, followed by the instances of the proofs in the folder, circuit by circuit and proof by proof; if every proof has PUBLIC_INPUT_SIZE instances, its length is compute_verify_public_input_size.", "quantifier": "all lists of target circuits, folders, proving systems, randomness", "why_tests_cant": "The declared size is never compared with anything, so a wrong one goes unnoticed; tests have one instance per proof.", "anchors": ["halo2-snark-aggregator-sdk/src/lib.rs::compute_verify_public_input_size", "halo2-snark-aggregator-sdk/src/lib.rs::dispatch_verify_run", "halo2-snark-aggregator-circuit/src/verify_circuit.rs::final_pair_to_instances"]}
{"id": "C90", "title": "The build profile does not change the generated contract", "statement": "verify_solidity generates the same contract, or panics, alike in a build with overflow checks and in a build without them.", "quantifier": "all target circuits, folders, proving systems, aggregation keys, proofs and iteration orders", "why_tests_cant": "Tests run in one profile; the profiles only differ when an offset descends in a run of products, which needs particular gates.", "anchors": ["halo2-snark-aggregator-solidity/src/code_generator/aggregate/aggregate_mul_seq.rs::try_merge", "halo2-snark-aggregator-solidity/src/code_generator/aggregate/update_hash.rs::try_merge", "halo2-snark-aggregator-solidity/src/code_generator/aggregate/aggregate_fr_pow.rs::try_merge"]}
{"id": "C91", "title": "Generating the contract is deterministic", "statement": "Two runs of verify_solidity on the same files generate the same contract, whatever the order in which the HashSet of active intervals is iterated.", "quantifier": "all iteration orders, folders, keys and proofs", "why_tests_cant": "The order is random in each run; a dependency would show only for particular orders.", "anchors": ["halo2-snark-aggregator-solidity/src/code_generator/linear_scan/mod.rs::expire_old_intervals", "halo2-snark-aggregator-solidity/src/code_generator/linear_scan/memory_pool.rs::free", "halo2-snark-aggregator-solidity/src/code_generator/linear_scan/mod.rs::memory_optimize"]}
{"id": "C92", "title": "The floor planner reserves enough rows", "statement": "The verifier circuit is laid out by measuring its regions on the circuit without witnesses, where multi-exponentiation skips windows and the first proof stands for all. When the circuit is then assigned, every region writes its rows one after another without gaps, and none needs more rows than were measured, so regions never overlap.", "quantifier": "all verifying keys, target lists, proofs with equal instance lengths per target, coherence lists", "why_tests_cant": "A region that is measured too short is overlaid by the next one only for some layouts, and the failure shows as an unsatisfied circuit far from its cause.", "anchors": ["halo2-ecc-circuit-lib/src/chips/ecc_chip.rs::shamir", "halo2-ecc-circuit-lib/src/gates/base_gate.rs::expand", "halo2-ecc-circuit-lib/src/five/base_gate.rs::in_shape_mode", "halo2-snark-aggregator-circuit/src/verify_circuit.rs::without_witnesses", "halo2-snark-aggregator-circuit/src/verify_circuit.rs::synthesize"]}
{"id": "C93", "title": "The text of the contract means what was generated", "statement": "The Solidity text that is written for the statements left by the optimiser always exists, is read back by the grammar of Solidity, and calling it reverts or returns the four words exactly as running the statements does. Hence the text generated by verify_solidity accepts a call if and only if the generated program, followed by the checks of the template, does.", "quantifier": "all generated programs (and optimised ones) whose number of statements and memory offsets fit into a word, all calls", "why_tests_cant": "A wrong separator, a missing pair of parentheses, an off-by-one loop bound or swapped arguments only show in the text of programs that contain the particular statement; tests compile one contract.", "anchors": ["halo2-snark-aggregator-solidity/src/code_generator/ctx.rs::to_typed_string", "halo2-snark-aggregator-solidity/src/code_generator/ctx.rs::to_untyped_string", "halo2-snark-aggregator-solidity/src/lib.rs::call", "halo2-snark-aggregator-solidity/templates/verifier.sol"]}
{"id": "C94", "title": "verify_setup, verify_run and verify_check use the same parameters and key", "statement": "After verify_setup, verify_run proves and verify_check checks with the parameters verify_setup took from get_params_cached and with their key for the circuit of the folder, and the files of the target circuits are as before. If HALO2_PARAMS_k is set, running verify_setup again leaves every file as it is; otherwise the parameters are drawn again and an earlier proof is checked with the new ones. The cached file is used whatever size it was made for.", "quantifier": "all target circuits, folders, proving systems whose serialisers read back what they write, cache paths that are not files the commands write", "why_tests_cant": "Tests run each command once and in order, in an empty folder and without the variable.", "anchors": ["halo2-snark-aggregator-circuit/src/verify_circuit.rs::get_params_cached", "halo2-snark-aggregator-sdk/src/lib.rs::dispatch_verify_setup", "halo2-snark-aggregator-sdk/src/lib.rs::dispatch_verify_check", "halo2-snark-aggregator-circuit/src/fs.rs::load_verify_circuit_params"]}
{"id": "C95", "title": "The pairing checks of the contract are those of the parameters", "statement": "The numbers that verify_solidity writes into the four functions for points of G2 are read back by the pairing precompile as s_g2 and -g2 of the aggregation circuit. A call of the generated contract does not revert if and only if get_wx_wg returns the words of two points l, r with e(l, s_g2) e(r, -g2) = 1 and the first four words of the call are those of two points with the same relation. If s_g2 is t times g2, these are the pairs (l, t l) and (P, t P).", "quantifier": "all points of G2, parameters, target circuits, folders, proofs and final pairs up to the size of calldata; every bilinear non-degenerate pairing", "why_tests_cant": "Tests check one pair of points per set of parameters; a swapped part of a coordinate or a wrong sign makes every call revert, and a point at infinity makes every call pass, only when the contract is deployed.", "anchors": ["halo2-snark-aggregator-solidity/src/lib.rs::g2field_to_bn", "halo2-snark-aggregator-solidity/src/lib.rs::get_xy_from_g2point", "halo2-snark-aggregator-solidity/src/lib.rs::render_verifier_sol_template", "halo2-snark-aggregator-solidity/templates/verifier.sol::pairing", "halo2-snark-aggregator-solidity/templates/verifier.sol::verify"]}
{"id": "C96", "title": "The example circuit proves products with two squares", "statement": "A public input satisfies the circuit of simple-example and multi-circuit, for some private inputs, if and only if it is constant a^2 b^2 for some a and b, that is, if it is constant times a square. What instance_builder returns is satisfied by the cells synthesize assigns, and no other public input is. Fixed cells and copy constraints depend on the constant only. Hence the keys made from default, as in sample_circuit_setup, accept what instance_builder returns; the derived default of the same circuit in the tests (add_mul_test) has the constant zero, and a key made from it accepts only the public input zero.", "quantifier": "all fields, constants, private inputs, public inputs, circuits of at least nine rows and all assignments of the advice columns", "why_tests_cant": "Tests prove one statement; they cannot rule out other assignments of the advice cells.", "anchors": ["halo2-snark-aggregator-sdk/examples/simple-example.rs::synthesize", "halo2-snark-aggregator-sdk/examples/simple-example.rs::mul", "halo2-snark-aggregator-sdk/examples/simple-example.rs::configure", "halo2-snark-aggregator-sdk/examples/simple-example.rs::instance_builder", "halo2-snark-aggregator-sdk/examples/multi-circuit.rs::synthesize", "halo2-snark-aggregator-sdk/examples/simple-example.rs::default", "halo2-snark-aggregator-api/src/tests/systems/halo2/add_mul_test/test_circuit.rs::MyCircuit"]}
{"id": "C97", "title": "The shuffle example circuit proves that rows were reordered", "statement": "If the rows of the second table are not those of the first in another order, at most H W |F| of the |F|^2 pairs of challenges admit a column z that satisfies the gates. If they are, the column z that synthesize computes satisfies the gates if and only if no compressed row is -gamma, which fails for at most H |F| pairs of challenges. The function shuffled returns the rows in an order that is a single cycle, so that no row stays in its place, whatever is drawn.", "quantifier": "all fields, tables of any width and height, challenges, columns z, outputs of the random number generator", "why_tests_cant": "Tests use one table and one pair of challenges; the exceptional challenges are too rare to be met.", "anchors": ["halo2-snark-aggregator-sdk/examples/shuffle.rs::configure", "halo2-snark-aggregator-sdk/examples/shuffle.rs::synthesize", "halo2-snark-aggregator-sdk/examples/shuffle.rs::shuffled", "halo2-snark-aggregator-sdk/examples/shuffle.rs::rand"]}
{"id": "C98", "title": "The text of the functions of the contract computes what they are named for", "statement": "The functions of the template, read as text and executed with a memory of objects and calls of the precompiled contracts, do the following on all arguments, and otherwise only add objects to memory. The fr_ functions compute in the scalar field and fr_div reverts exactly on a zero divisor; fr_reverse reverses the bytes of a word. The ecc_ functions return sums and multiples of the points of their words and revert exactly when the words are no points (or, for ecc_sub, when the coordinate to be negated exceeds the modulus). fr_mul_add_pm, fr_mul_add_mt and ecc_mul_add_pm add the products the bytes of their opcode name, up to the byte 0xff or the end, and revert exactly when a position is outside of its array. The functions for the transcript append to the array, or hash it and leave the hash in front, and revert exactly when the array is too short or the length overflows.", "quantifier": "all words, arrays, positions, opcodes, memories, hash functions, pairings and values filled into the template", "why_tests_cant": "A test compiles one contract and calls it with one proof; the arguments that make a function revert, the opcodes of full length and the aliasing of arrays in memory are not reached.", "anchors": ["halo2-snark-aggregator-solidity/templates/verifier.sol::fr_pow", "halo2-snark-aggregator-solidity/templates/verifier.sol::fr_div", "halo2-snark-aggregator-solidity/templates/verifier.sol::ecc_mul_add", "halo2-snark-aggregator-solidity/templates/verifier.sol::fr_mul_add_pm", "halo2-snark-aggregator-solidity/templates/verifier.sol::ecc_mul_add_pm", "halo2-snark-aggregator-solidity/templates/verifier.sol::fr_mul_add_mt", "halo2-snark-aggregator-solidity/templates/verifier.sol::squeeze_challenge", "halo2-snark-aggregator-solidity/templates/verifier.sol::update_hash_point", "halo2-snark-aggregator-solidity/templates/verifier.sol::fr_reverse"]}
{"id": "C99", "title": "The text of verify accepts exactly what the contract is meant to accept", "statement": "Executing the text of verify of the filled template on any calldata and any memory, it returns without a result if the first four words and those after them have the form of instances, get_wx_wg returns two points, and both pairing checks hold, with the points of G2 of the aggregation circuit and of the target circuits in this order; otherwise it reverts. For a contract of verify_solidity this is whether Verifier.verify accepts. pairing builds the input of contract 8 from arrays of any equal length and reverts exactly when the lengths differ or a word is no coordinate of a point; the functions for points of G2 return the numbers filled in under their names.", "quantifier": "all calldata, memories, numbers filled in, sizes, hash functions, pairings, and all recorded contracts", "why_tests_cant": "A test calls one contract with valid input; exchanged arguments in one of the checks or a stale point in memory would only show for input that has to be rejected.", "anchors": ["halo2-snark-aggregator-solidity/templates/verifier.sol::verify", "halo2-snark-aggregator-solidity/templates/verifier.sol::pairing", "halo2-snark-aggregator-solidity/templates/verifier.sol::get_verify_circuit_g2_s", "halo2-snark-aggregator-solidity/templates/verifier.sol::get_target_circuit_g2_n", "halo2-snark-aggregator-solidity/src/lib.rs::render_verifier_sol_template"]}
{"id": "C100", "title": "The text of the contract computes in the field and in the group, unpacks opcodes as they were packed, and returns the challenges of the Rust transcript", "statement": "Calls of the functions of the contract, executed from their text, have these results: powers, inverses, quotients and sums of products of the residues of the argument words, as the least word of the residue (fr_div by the word zero reverts); sums, differences and multiples of points (ecc_add reverts exactly on words of no point, ecc_sub on the identity); for an opcode packed from up to 16 pairs or 32 positions, the sum of the products named by the pairs, or the value of Horner's rule; for squeeze_challenge, the little endian number modulo the order of the hash of the words before the position and a zero byte. For every history of the Rust transcript, the calls generated for it return its challenges and change no other object in memory.", "quantifier": "all words, points, lists of positions that fit into bytes, memories, hash functions and histories of the transcript", "why_tests_cant": "A test sees one proof and one sequence of challenges; differences between packing and unpacking appear only at full length or at extreme positions.", "anchors": ["halo2-snark-aggregator-solidity/templates/verifier.sol::fr_div", "halo2-snark-aggregator-solidity/templates/verifier.sol::ecc_sub", "halo2-snark-aggregator-solidity/templates/verifier.sol::fr_mul_add_pm", "halo2-snark-aggregator-solidity/templates/verifier.sol::ecc_mul_add_pm", "halo2-snark-aggregator-solidity/templates/verifier.sol::fr_mul_add_mt", "halo2-snark-aggregator-solidity/templates/verifier.sol::squeeze_challenge", "halo2-snark-aggregator-solidity/src/code_generator/aggregate/multi_mul_add_pm.rs", "halo2-snark-aggregator-solidity/src/transcript/codegen.rs::squeeze_challenge_scalar"]}
{"id": "C101", "title": "The lookup circuit of the tests proves that odd witnesses are instances and nothing about even ones", "statement": "For the lookup circuit that the tests aggregate, with any numbers of witnesses that fit into the rows: values of the witnesses and an instance column can be accepted if and only if every odd witness is in the instance column and, unless every row has an odd witness, zero is in it. The even witnesses of an accepted assignment can be replaced by any values, because the even table is an advice column that is not tied to even_lookup. The prover who follows synthesize succeeds if and only if even witnesses are in even_lookup and odd ones are instances, where zeros fill both columns. The rows with lookups depend only on the numbers of witnesses, and without_witnesses has none: a key made from it accepts all inputs if zero is an instance. The circuit and the instances of the tests are accepted.", "quantifier": "all fields, tables, witnesses, instance columns, numbers of rows, and all assignments of the advice columns", "why_tests_cant": "The tests create proofs for one circuit with true witnesses; that wrong even witnesses are accepted too, or that a full instance column without zero is rejected, is not seen.", "anchors": ["halo2-snark-aggregator-api/src/tests/systems/halo2/lookup_test/test_circuit.rs::synthesize", "halo2-snark-aggregator-api/src/tests/systems/halo2/lookup_test/test_circuit.rs::configure", "halo2-snark-aggregator-api/src/tests/systems/halo2/lookup_test/test_circuit.rs::without_witnesses"]}
