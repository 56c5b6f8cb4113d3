# Design

Formal model in Lean 4 (4.33.0, Mathlib) of `scroll-tech/halo2-snark-aggregator` at the pinned commit in `/repo`.
`/repo` is only read as text. Nothing in `/repo` is built or executed.

## Layout

* `properties.jsonl` – the English properties (C01..).
* `lean/Verif/**` – model, helper lemmas, property theorems. Model files cite `/repo` lines on every definition.
* `lean/Verif/*/Props*.lean` – property theorems, stated with small independent specifications.
* `MANIFEST.json` – property -> theorem names and status.
* `seeded/LOG.jsonl` – mutation-testing log (edits made in scratch copies).

## Modelling conventions

* Finite fields: native-gate results are proved over an arbitrary `Field`; non-native (integer/ECC) results over
  `ZMod n` with the concrete BN254 moduli (primality proved with Lucas certificates).
* A circuit is the list of emitted rows (fixed coefficients, constants, selectors), plus copy constraints. Advice is an
  arbitrary function `row -> column -> value`. `Sat` says all rows, copies and lookups hold: this is what a halo2
  verifier accepts (the halo2 proof system itself is trusted / out of scope). *Soundness* theorems quantify over all
  advice functions; *completeness* theorems are about the honest advice recorded while building the circuit.
* Panics (`assert!`, `unwrap`, index out of range, integer underflow) are explicit `none`/error results.
* Layouters/regions: one region, row `offset` increments by one per `one_line`, as in the code.
* Hash functions (SHA-256, Poseidon constants) are uninterpreted parameters; the statements hold for every function.
* Curve group: spec is Mathlib's `WeierstrassCurve.Affine.Point`; for the API level an arbitrary module over a field.
* API layer: the code is generic over the chips, so the model is too: `Chip` has the required trait methods over a
  monad, the provided methods are modelled once. `Logic` lists what a chip guarantees (Hoare-style laws); it is
  instantiated for the mock chip (total correctness) and for the circuit chip (laws proved from C01-C22, partial
  correctness for every satisfying advice). Property theorems are stated for any `Logic` and repeated for both
  instances. The verifier's transcript hash is a parameter; a record of events is kept beside it.
* EVM words are `BitVec 256`. A revert is `none`. The compiler is solc 0.8.13 (checked arithmetic). Precompiles 5, 6, 7 are
  given by EIP-196/198; precompile 2 is a hash function with 32 bytes of output. Gas is not modelled.
* Code generator: expressions and statements as in `ctx.rs`. Statements are given a meaning (`eval`, `exec`: memory `m`,
  `absorbing`, temporaries `t0`, `t1`), and C93 shows that it is the meaning of the rendered text in a small semantics of Solidity
  (`Sol/Solidity.lean`); the Solidity compiler and its limits are not modelled. `Prog.Recorded` describes what the
  context records. The iteration order of a `HashSet` is a parameter that can be any permutation.

## Plan per property

| id | model | proof |
|----|-------|-------|
| C01 | base gate rows, copies, each op as a state transformer | invert the new row's equation under an arbitrary satisfying advice |
| C02 | `sum_with_constant` loop | induction on the remaining elements with the accumulator cell generalised |
| C03 | Boolean ops | row equation + case split on bits |
| C04 | `invert`, `is_zero` | field reasoning |
| C05 | program syntax over ops; honest advice | invariant "honest advice satisfies all rows but the pending next-row link" |
| C06 | same program syntax | induction over programs using C01–C04, C07 |
| C07 | five-column override and default body | induction over the list; negation with witness for the default body |
| C08 | range selectors + lookup tables | bounds on naturals, no wrap below n |
| C09 | `reduce` | CRT modulo n and 2^68, integer bounds |
| C10 | `add/sub/neg`, `find_w_modulus_ceil` | integer bounds; the 64 possible constants are a finite table |
| C11 | `mul/square` | two-carry argument + CRT modulo n and 2^272 |
| C12 | `div` | C11 + C13 |
| C13 | `is_zero/is_equal/assert_equal` | bounds < 2w, CRT |
| C14 | `mul_small_constant` | expected false: witness; partial for the correct precondition |
| C15 | overflow counters | expected false for `sub` at 31/31: witness; partial for histories below the threshold |
| C16 | honest witness of `assign_w/reduce/mul` | ranges of quotient/carries |
| C17 | `get_last_bit` | expected false (value + w is another admissible representation): witness; partial for canonical values |
| C18 | `assign_point` | expected false for the flag: witness; partial for the curve equation |
| C19 | ECC add/double/neg/sub over integers mod w | refinement to Mathlib group law |
| C20 | scalar mul, shamir | induction over bits with group algebra |
| C21 | point `assert_equal` | expected false (flag ignored): witness; partial for equal flags |
| C22 | `decompose_scalar` | induction over bits |
| C23 | `pow_constant` with u32 wrap-around | invariant over bits; negation for exponents >= 2^31 |
| C24 | `mul_add_accumulate` | list induction |
| C25 | `chip_evaluate` | structural induction |
| C26 | schema evaluation with key merging | structural induction with a denotation |
| C27 | key strings | injectivity within one proof; negations for multi-instance / same names |
| C28 | grouping and batching | list induction, polynomial root counting |
| C29 | Lagrange loop | field algebra with roots of unity |
| C30 | permutation expressions | list/chunk induction |
| C31 | lookup expressions | algebra |
| C32 | vanishing queries | list induction |
| C33 | aggregation fold | Horner + polynomial root counting |
| C34 | ShaRead/ShaWrite over byte lists | induction over message history |
| C35 | absorbed bytes | unique decodability |
| C36 | contract transcript vs Rust transcript | refinement by induction over histories |
| C37 | Poseidon sponge | injectivity of padding, induction |
| C38 | `fr_reverse` masks | bit-level argument for every bit index |
| C39 | codegen context | invariant over call histories |
| C40 | chip simplifications | case analysis |
| C41 | memory pool | invariant over histories |
| C42 | linear scan | simulation invariant |
| C43 | combine_mul_add | expected false: witness; partial with the missing side condition |
| C44 | update-hash merger | expected false for a lone point: witness; partial otherwise |
| C45 | opcode packing/decoding | expected false for offsets >= 255: witness; partial below |
| C46 | fr_pow aggregation | expected false when a run is interrupted: witness; partial otherwise |
| C47 | mul-seq aggregation; all passes together | expected false for descending offsets: witness; partial otherwise; composition over fusing, allocation and merging |
| C48 | instance packing | arithmetic |
| C49 | contract input handling | expected false: witness; partial for canonical words |
| C50 | contract scalar helpers | loop invariants, modular arithmetic |
| C51 | instance commitment | list induction |
| C52 | proof-creation plumbing | expected false (template proofs are used): witness |
| C53 | integer-chip program syntax | induction over programs using C08–C13 |
| C54 | pairs of runs | relational triples, induction over programs |
| C55 | the one BN254 configuration | kernel evaluation of closed arithmetic |
| C56 | ECC program syntax | induction over programs using C18–C22 |
| C57 | pairs of ECC runs | relational triples, induction over programs |
| C58 | honest runs of add/double | expected false (div underflow): witness; partial under `TangentSafe` |
| C59 | honest runs of constant_mul | completeness triples, induction over windows |
| C60 | the curve | order certificate, counting |
| C61 | `queries` | refinement to the claims of the PLONK verifier, section by section |
| C62 | transcript reader with a record of events | Hoare rules that carry the kinds of values left in the bytes |
| C63 | claims | case analysis over the sections |
| C64, C65 | `verify_single_proof_in_chip`, `verify_aggregation_proofs_in_chip` | composition of C26, C28, C33, C51, C61, C62 |
| C66 | grouping by rotation | counting |
| C67 | the `while let Ok` loop | expected false: general malleability theorem on the mock chip |
| C68, C69 | Poseidon transcript in the reader | replay of the events against the sponge; two runs side by side |
| C70 | a point read and absorbed | expected false: a second circuit with the same cells and another witness |
| C71 | contract point helpers over the precompiles | expected false for ecc_sub of the identity: witness; the rest by unfolding |
| C72 | `synthesize_proof`, `synthesize` | composition of C65/C68 with C48 and C21; `C72_honest` with a second logic (`Api/Honest.lean`) for the assignment the prover computes, in which the identity flags are bits; every builder extends the context without changing earlier witness values (`Ecc/Grows.lean`) |
| C73 | the two chips of the generator, its transcript, `call` | a `Logic` for the recording chip: recorded equations that hold in the final variables give the chip laws; frames for the order and freshness of statements; replay of the hash statements |
| C74 | `bufferToUint256LE`, SHA reader | induction over the transcript of C73 |
| C75 | generator on its sample | native chip with identity checks and recording chip side by side (`Link`) |
| C76 | run of the recorded statements | native chip and recorded statements side by side: what was recorded so far runs, and its expressions keep their values |
| C77 | `verify` of the contract | C76, C48 and the pairing checks |
| C78 | honest runs of all call sequences | false (C58's point): witness; partial under `EOp.Honest`: values of the cells along the windows of `mul` and `shamir` |
| C79 | `synthesize_proof`, `synthesize` for an honest prover | native chip with slope checks and circuit side by side (`Link`); needs C78 for the ECC calls; false in general (C58's point in a proof) |
| C80 | `LibMulexp` of lagrange.sol (not used by the generated contract) | induction over the recursion of `exp`; room on the stack is a parameter |
| C81 | `load_instances` and the writers of instances | `load_instances` inverted exactly; negation for several columns |
| C82 | `sample_setup`, `sample_run`, `CreateProof::new` | folders as functions from names; files of different proofs are different; negations from colliding names |
| C83 | names given by `Setup::new`, `CreateProof::new` | false for two circuits with proofs: keys computed; wrong pair evaluated |
| C84 | `verify_run` and the loaders of the next commands | frame argument over the files that are written; words of the final pair |
| C85 | parameters used by `MultiCircuitSolidityGenerate::call` | exact condition from C86; negation with two secrets |
| C86 | `verify_run`, `verify_solidity` and the contract | C84, C48, C76, parsing from native verification (`native_parses`); false with the optimiser: a generator whose points are field elements (`Top/Tally.lean`) is evaluated on a key |
| C87 | `verify_solidity` for all runs | false for public inputs that are zero; partial from C75 |
| C88 | `setup` and `create_proof` build one circuit | the circuit chip linked with itself (`Api/LinkShape.lean`), over the shape lemmas of C54 and C57 |
| C89 | `compute_verify_public_input_size`, the column of `verify_run` | the native verifier followed through `verify_aggregation`, with C84 |
| C90 | the merging passes with and without overflow checks | false: the program of C86; partial: what a pass does with checks it does without |
| C91 | `expire_old_intervals`, `memory_optimize` | freeing commutes for even blocks; permutations |
| C92 | the regions of the verifier circuit as the floor planner measures them and as they are assigned | the circuit chip linked with the chip in shape mode (`Api/MeasureChip.lean`, `Api/MeasureRead.lean`), over exact row counts (`Ecc/Measure.lean`) |
| C93 | `Prog.text` (`Sol/Render.lean`) read by a lexer, a parser and a semantics of a part of Solidity (`Sol/Solidity.lean`) | expressions by induction on their shape, separators are token boundaries (`RenderProps`), statements and loops (`RenderStmt`), whole function (`RenderProg`); what is generated and optimised has the needed shape (`RenderGen`); the contract (`Top/ContractText.lean`) |
| C94 | `get_params_cached`, `verify_setup` with its cache | writes to different names commute with reads; loading is monotone in the files of the target circuits (`Folder.Keeps`) |
| C95 | `pairing` of the template on the numbers `render_verifier_sol_template` writes for points of G2 (`Sol/Pairing.lean`), the filled template (`Top/PairingText.lean`) | decoding is inverse to rendering on the twist; the rest of the contract by C93 |
| C96 | circuit of the SDK examples simple-example and multi-circuit, with halo2's `SimpleFloorPlanner` (`Sdk/Product.lean`) | the layout is computed once for all constants and private inputs; gates and copies are then equations |
| C97 | circuit of the SDK example shuffle (`Sdk/Shuffle.lean`) | telescoping of the gates; unique factorisation in `F[θ][γ]` and a count of roots; induction over the rounds of `shuffled` |
| C98 | the text of the functions of the template (`Sol/TemplateText.lean`), read by a lexer and a parser (`Sol/Template.lean`) and executed (`Sol/TemplateRun.lean`) | the text is parsed by the kernel; one lemma per kind of statement, then straight-line execution (`TemplateProps`, `TemplateHash`), induction over the rounds of the loops (`TemplateLoops`), calls of the text by the text (`TemplateLink`) |
| C99 | the text of `pairing`, of the functions for points of G2 and of `verify` (`Sol/TemplatePairing.lean`, `Top/VerifyText.lean`) | induction over the rows of the input of contract 8; the memory of `verify` has eleven objects in fixed places and what the calls add after them; `get_wx_wg` is the text of C93, the rest of the contract is C95 |
| C100 | results of the text of the functions in the field, the group and bytes; whole transcripts (`Sol/TemplateValues.lean`) | C98 with the theorems about the helper functions; induction over the packed positions and over the history |
| C101 | lookup circuit of the tests of the API crate, with halo2's `SimpleFloorPlanner` (`Sdk/Lookup.lean`) | induction over the witnesses for the layout; the table of the even lookup can be chosen as selector times input |

## Properties that are false of the code

* C07 (remark): the trait-default `mul_add_with_next_line` is unsound; the five-column override, which is the one
  used, is sound.
* C14: `mul_small_constant` multiplies the counter instead of `counter + 1`, so a counter 0 stays 0
  (`C14_bookkeeping_wrong`).
* C15: `sub` of two integers with counters 31 asks for a constant beyond the 64 supported ones and panics
  (`C15_sub_panics`).
* C17: `assign_w` admits the representative `v + w` when it is below 2^254, so the exported parity can be flipped
  (`C17_parity_forgeable`).
* C18: `assign_point` never constrains the identity flag to be a bit; on a curve point the prover may set it to any
  field element (`C18_flag_forgeable`, `C18_not_a_point`).
* C21: point `assert_equal` compares coordinates only, unless both flags are set; the identity with coordinates (1, 2)
  equals the generator (`C21_identity_equals_affine`).
* C58: `div` computes `c * b - a` in unsigned arithmetic with a numerator `3 x^2` that is not reduced, so doubling some
  curve points panics (`C58_double_panics`).
* C78: `mul` and `shamir` compute tangents of the multiples of their tables, so the same point cannot be multiplied by any scalar,
  not even 0 or 1 (`C78_mul_panics`).
* C79: a proof that contains this point can be valid, and the circuit that should aggregate it cannot be built (`C79_false`).
* `assign_constant_point_with_curvature` caches the slope `y / x` instead of `3 x^2 / 2 y`. `constant_mul` never uses the
  cached slope for equal points, so C20 still holds for it.
* C23: for exponents from 2^31 on, the search for the top bit in `pow_constant` shifts the bit out of the u32 and never
  ends (`C23_pow_constant_diverges`); exponent 0 panics.
* C26: `eval` panics for a commitment without a coefficient and for products of two commitment-bearing schemas
  (`C26_unscaled_panics`, `C26_product_panics`); two commitments with one key are merged (`C26_key_collision`).
* C27: keys do not contain the number of the instance inside a proof, and proof keys come from user-given names, so
  commitments of different instances, or of circuits with one name, are merged (`C27_two_instances`, `C27_same_name`: the
  returned pair does not depend on one of the two commitments at all).
* C28: one proof with one rotation leaves the left side without a term and the multi-exponentiation panics
  (`C28_one_rotation_panics`).
* C51: instance vectors that differ in trailing zeros have one commitment (`C51_trailing_zero`, `C51_ambiguous`). This
  is the case in halo2 as well; the caller must fix the number of instances.
* C67: `while let Ok(p) = load_point()` takes anything that is no point for the end (`C67_trailing_bytes`).
* C70: `encode_point` absorbs the native values of the limbs of x and y and not the flag. Coordinates are not forced to be
  below w and the coordinates of the identity are free, so one group element can be absorbed as different words
  (`C70_forgeable`, `C70_two_encodings`): the prover has some choice of the challenges without changing the proof.
* C71: `ecc_sub` negates with `p_mod - y`, which is no coordinate for the identity: subtracting the identity reverts
  (`C71_sub_identity`).
* C50 (remark): `fr_div` tests the word of the divisor, so `q_mod`, which stands for zero, passes (`C50_div_noncanonical`).
* C37 (remark): the sponge does not separate squeezes (`C37_history_ambiguous`); the order of the transcript is fixed by the
  key, so C62 is not affected.
* C48: the circuit exposes the parity of whatever representative of `y` the prover chose. When `y + w < 2^254` (about a third
  of all points) the public inputs can be those of `-P` while the circuit has verified `P` (`C48_sign_forgeable`). The contract then
  checks `e(-P, s) = e(Q, 1)`, so a pair with `τ P = -Q` passes (`C48_wrong_pair_accepted`): the opening proofs are checked at `-x`
  instead of `x`.
* C72: the same holds of the whole verifier circuit (`C72_false`, Top/ForgedPair.lean). There are two proofs for which native verification
  returns `(l, r)`, and a satisfying assignment of their aggregation circuit in which the final points are `l` and `r` and the public inputs
  are those of `l` and `-r`.
* C49: instance words only enter `ecc_mul`, which takes scalars modulo the group order. So `w` and `w + q_mod` give the same result of
  `verify`, for every generated contract, every proof and every position after the final pair (`C49_same_result`, `C49_two_forms`).
  The words of the final pair have one form, as the pairing precompile rejects others (`C49_one_form_partial`, `C49_instances`).
  `Top/TinyContract.lean` has a generated contract for a small key, a call it accepts and one it rejects (`accepts_and_rejects`), and two
  word lists for one statement that it accepts (`C49_false`). Its hash is a constant, so the run can be evaluated by the kernel.
* C52: `MultiCircuitsCreateProof::call` aggregates `template_proofs`; the field `proofs` is never read (`C52_ignores_proofs`).
* C43: `combine_mul_add` does not look at the other operand. `x = a * b; y = x + x` becomes `y = b * a + x`, and `x` is never
  computed (`C43_false`). With the expression cache such a program comes from any gate that adds a product to itself.
* C44: a point update without a neighbour of the same stride is emitted as the update of one word, so its y is not absorbed (`C44_false`).
* C45: packed opcodes give an offset eight bits and use 255 as the end mark; larger offsets make other operations (`C45_false`).
* C46: a power held in the temporary that is followed by a scalar product which does not continue it is dropped: `a^4 c` becomes `a^2 c`
  (`C46_false`).
* C47: strides are computed in `usize`. For descending offsets a build with overflow checks panics (`C47_panic`); without checks the strides
  wrap and the contract reverts (`C47_false`).
* C81: `load_instances` returns one column whatever was written, and ignores fewer than 32 trailing bytes (`C81_columns`, `C81_tail`). A target circuit
  with several instance columns needs its own loader.
* C82: file names are `{NAME}{index}` without a separator: `a` with 11 proofs and `a1` collide (`C82_not_all`), and so would `simple_example`
  with 21 proofs and `simple_example2` of examples/multi-circuit.rs. Circuits with one `PARAMS_NAME` overwrite each other's parameters and keys
  (`C82_other_key`).
* C83: `Setup::new` and `CreateProof::new` use `format!("{:?}", folder)` as the name of every circuit (verify_circuit.rs:625, 870), so in the SDK
  the keys of two circuits are always the same and their commitments are merged (C27). `C83_wrong_pair` has two proofs that are valid, alone and
  with different names, and are reduced to a wrong pair when loaded from a folder.
* C85: `MultiCircuitSolidityGenerate::call` takes `target_circuit_s_g2` and `target_circuit_n_g2` from the parameters of the aggregation circuit
  (solidity/src/lib.rs:186-187). Unless the setups share their secret, the contract rejects valid final pairs (`C85_accepts_iff`, `C85_false`).
  `sample_setup` and `verify_setup` call `unsafe_setup` separately; whether that draws a new secret is decided by halo2_proofs, which is
  not part of the repository.
* C86, C90: the condition of C47 is not a matter of hand-made statements. For an aggregation circuit with a gate of five products `(a+5)(a+6), ...,
  (a+1)(a+6)` the sums are computed upwards in an earlier gate and multiplied downwards. After `verify_run`, `verify_solidity` panics in a debug build.
  In a release build it generates a contract that reverts whatever it is called with, although the proof and the final pair are valid
  (`C86_false`, `C90_false`, for every iteration order by C91).
* C87: a public input that is zero makes `verify_solidity` panic (`C87_zero_input`, `C87_command`): the sample coordinates of `0 * G` are unwrapped.

## The code generator

* The context of `ctx.rs` is a state; a recording is a computation `Gen` (`none` is a panic). The invariant that memory only grows and
  statements are only appended is part of the type. The expression cache is a list of pairs.
* Assigned values carry expression, sample and `is_const`. Folding, dropped operations and cache hits are as in the chips.
* The sample transcript uses Keccak (`codegen.rs:34`) while provers and contract use SHA-256. The model has one hash function for the
  samples and another one for the calls, and nothing is assumed of either. Samples only decide whether the generator panics.
* While a challenge is squeezed the Poseidon sponge is run in a mode that records nothing but uses up memory; its result is never
  marked constant (`squeeze_live`).
* A point operation that is not folded panics when its sample is the identity, even when the expression is in the cache.
* `lib.rs` passes the parameters of the verify circuit for both pairs of G2 points. The pairing check is a parameter: the set of pairs of
  points that pass. Words that are no encoding of a point make it revert (EIP-197).
* The G2 points (C95): `Sol/Pairing.lean` has the twist over `Fq[i]`, its `r`-torsion `G2`, the input format of contract 8 (imaginary part
  first, zero words for the point at infinity, an error for words that are no point of order `r`), `pairing` of the template, and the numbers
  the generator writes. The pairing itself is any bilinear non-degenerate map (`Pairing`). That `System.pairing` is the check with the
  points of the parameters is a hypothesis of `C95_contract`.
* The text of the template (C98): `Sol/TemplateText.lean` has the text of every function of verifier.sol, character by character. Memory in
  `Sol/TemplateRun.lean` is a list of objects and not an array of bytes: an address in assembly is an object and an offset, accesses outside of an
  object are not modelled (they are `none`), and neither is gas. Contracts 2, 5, 6, 7 and 8 are as in the EIPs, for inputs of the lengths that occur.
* `verify` (C99): `Deployed` says what the template is filled with. `get_wx_wg` returns what `Text.Returns` (C93) says and leaves the objects of
  `verify` as they are; the two interpreters, of the generated statements and of the template, are not one. The statements at `instance_assign`
  are read from their text (`Sol/TemplateAssign.lean`), for every number of instances.
* Meaning: `GEns` says what holds of a recorded value in every state in which the recorded assignments hold. With it the generic verifier is
  reasoned about by the same theorems as the mock chip and the circuit (`contractLogic`). That a run ends in such a state is shown once for
  all recorded programs (`execAll_recorded`).

The text (C93): `Sol/Render.lean` has `to_typed_string`, `to_untyped_string` and the lines of the template around them as strings.
`Sol/Solidity.lean` does not know the generator: characters to tokens, tokens to trees, trees to effects on `m`, `absorbing`, `t0`, `t1` and loop
variables, with checked arithmetic and bounds checks. White space and line breaks only separate tokens. Functions of the template that are called
(`fr_*`, `ecc_*`, `update_hash_*`, `squeeze_challenge`, `pow`) are those of C42-C46. `Text.Returns t c r` says that the text is accepted by the parser and
that its value is `r` for all sufficiently large recursion bounds of parser and interpreter. The hypotheses that numbers of statements and offsets are
below a power of two are needed because a literal that does not fit into a word is rejected.

## Two chips side by side

`Link c c' φ` (Api/Link.lean) relates two chips: whenever an operation of `c` succeeds on related inputs and worlds, so does the operation of
`c'`, with related results. The generic verifier preserves it (Api/LinkVerify.lean, Api/LinkRead.lean), so a run on one chip that
returns gives a run on the other chip that returns.

`checked F gen inv res arg` (Api/Checked.lean) is the native chip with checks: a point operation whose result fails `res` panics, and so does
the subtraction of a point that fails `arg`. Without checks it is the mock chip (`checked_eq_mock`). The checks say where the other chip
needs more than the native one: the generator panics when a sample point is the identity (C75), the contract reverts when the identity is
subtracted (C71). `SameBytes` (Api/LinkBytes.lean) says that the two sides decode the same bytes to related values; with it the reader part of
a `Link` comes from its chip part.

C76 uses the same for the run of the contract (Sol/ContractRuns.lean, Sol/ContractTotal.lean): the second side is the generator on its sample,
which is known to return, and the relation says that the statements recorded so far run from the initial variables and that the expressions
that stand for values evaluate to the values of the native side, now and after any later statement. The native side reads the bytes of the
call, the generator those of its sample; what ties them is only that both take values of the same kinds (`Codec.Parses`). The number of
opening points has to be that of the sample, because the loop that reads them was unrolled by the generator. `shaCodec` is how sha.rs decodes
points and scalars (`shaCodec_point`, `shaCodec_scalar` say that it is the reader of C74). A call where the sum of the evaluations is zero is
rejected by the contract although native verification returns, because the identity is subtracted (C71); so C76 has that as a condition, as
the check `arg` of the native chip.

`guarded` (Api/Guarded.lean) is the native chip that stops where the honest prover of the circuit might not find a tangent slope (`Safe`,
`MulSafe`, `ShamirSafe`: C78), where non-zero points cancel in an addition, and at a division by zero. Where it returns, native
verification returns the same (`Guarded.native`) and the circuit is built and satisfied with the same values in its cells
(`Guarded.circuit`): C79. In this link the worlds are constraint systems with satisfying witnesses, and the three kinds of points are those
read from a proof or a key (`n`, coordinates are canonical, so the words that are hashed are those of the native verifier), results
(`p`, can be used in further additions) and differences (`o`). `TangentSafe` is a sufficient condition for `div` not to panic: the
unreduced numerator is not above the product, and the lower limbs do not borrow more than the gate allows. It holds for all multiples of
the generator that were tried; up to 64 this is proved (Ecc/SmallMultiples.lean) and used for an example that meets the
hypotheses of C79 (Top/SynthExample.lean).

That the circuit panics for some proofs (`C79_false`, Top/SynthPanics.lean) is shown with another link. The first chip computes in `Except Bool`:
`error true` says that the circuit panics at this point, `error false` says nothing, and a result means that the circuit returns it. Points are
pairs `(a, b)` that stand for `a • gen + b • badPt`, so the chip can be run. The only prediction of a panic is a multi-exponentiation whose
first base is `badPt`, the point of C58.

`C72_false` needs a satisfying assignment that is not the one the code computes. `Ecc/Forge.lean` defines `reduce` and the subtraction of points with
another quotient and remainder, and shows that they build the same rows and copy constraints; `Api/ForgeChip.lean` is the circuit chip with
that subtraction. Two links are used: `Forged.shape` from the circuit chip says that the circuit is the same, and `Forged.circuit` from a native
chip says that the forged values satisfy it. Only the last operation of the verifier is a subtraction of points. In the link its result
has either the honest form or the forged one; the run is done twice, the second time with the opposite sign in the native chip, and both
results together exclude the honest form.

`Verif.Api.LinkShape` (C88) compares two runs of the circuit chip. Its worlds say how far the transcript has been read: before the opening
proofs, where the two runs read the same kinds of values, and after, where they are related only if they read the same number of opening points.

`LibMulexp.exp` calls itself once per bit and once more per set bit, up to 511 times (`C80_deep`). The frames of internal calls share the
stack of the EVM, which has 1024 words; a frame of `exp` needs more than two (return address, three argument words, two result words, a local
and a memory pointer), so for scalars with many ones the library cannot be expected to return. How many frames fit depends on the compiler and is a
parameter of C80. The generated contract does not use the library.

C92 compares the two passes of the floor planner `V1`. In the first, `without_witnesses` puts the first proof in all places and multi-exponentiation is
in shape mode: from the third window on the rows of the window are counted and not written, and the accumulator is added in place of the
sum of the window. Whether an operation writes a row depends on overflow counters and on which values are cached, not on values; `Takes x y R` says that
`x` writes exactly the rows that `y` counts. The result of the second pass of a multi-exponentiation over one point is cached differently
from the third window on, so 62 * 102 rows too many are measured; with any other number of points both passes have as many (`C92_shamir`).
That the measuring pass returns is shown for an example (`Top/MeasureExample.lean`), not in general: it divides where the other does not.

## The commands of the SDK

Top/Files.lean, Top/Commands.lean: a folder is a partial function from file names to bytes, a command takes a folder to a folder, `none` is a panic.
The proving system is a parameter (`System`): types of parameters, keys and circuits, `unsafe_setup`, key generation, proving, verification and the
(de)serialisers. What C82 assumes of it is `System.Laws` (what is written can be read back, the key of a circuit does not depend on its
witness); the other properties hold for every `System`. The environment variable `HALO2_PARAMS_k` is
an argument (Top/SetupFiles.lean, C94). Paths, the command line and the text of the template
are not modelled; `dispatchVerifySolidity` returns what the template is filled with (`Verifier`).

Lookup circuit of the tests (`Sdk/Lookup.lean`; C101): a lookup is the statement that in every usable row the input is in some usable row of the table. Selectors are columns
of zeros and ones that the key fixes. Finding: the even table is an advice column, so the circuit proves nothing about the even witnesses (`C101_even_free`). The circuit of
add_mul_test is that of C96 with a selector in place of the fixed column and a derived `default`, whose constant is zero (`C96_derived_default`).

Example circuits (`Sdk/Product.lean`, `Sdk/Shuffle.lean`; C96, C97): the columns and gates are those of the examples. A satisfying assignment is a function from cells
to field elements that agrees with the fixed cells, for which all gates vanish in all rows (the next row of the last one is the first) and all copy
constraints hold. Blinding rows are not modelled; no selector is set there. In shuffle.rs `rand_row` is smaller than `row`, so `shuffled` draws from the cycles of
length `H` and not from all orders (`C97_moved`), and an honest prover fails when a compressed row is `-γ` (`C97_honest`).

## Trusted base

The Lean kernel and the axioms `propext`, `Classical.choice`, `Quot.sound` (no others are used by any theorem listed in
`MANIFEST.json`); the correspondence of the model files with the cited lines; the meaning of `Sat` as what a halo2
verifier enforces. For C92: halo2's floor planner `V1` measures a region as one more than the last row in which something is assigned, on the
circuit `without_witnesses`, and places regions that share columns in disjoint intervals of that length. For C93: `Sol/Solidity.lean` is
how a Solidity compiler reads and runs the part of the language that occurs. For C95: `to_repr` of halo2curves' `Fq2` is the real part and then
the imaginary part, little endian, and contract 8 is as EIP-197 says. For C98: `Sol/Template.lean` and `Sol/TemplateRun.lean` are how a Solidity
compiler reads and runs the functions of the template; the pragma also admits compilers before 0.8, whose arithmetic is not checked.

## Not modelled

halo2_proofs / halo2curves / poseidon crates (the proof system itself, field and curve implementations, Poseidon
constants), command line parsing, benches, tests, the example zkevm, parallelism (none in the modelled code), the optimal ate pairing
(its bilinearity is assumed), SHA-256 internals.
