{
 "claims": [
  {
   "property": "C01",
   "status": "proved",
   "theorems": [
    "Verif.Circuit.C01_add",
    "Verif.Circuit.C01_addConstant",
    "Verif.Circuit.C01_sub",
    "Verif.Circuit.C01_mul",
    "Verif.Circuit.C01_mulAddConstant",
    "Verif.Circuit.C01_mulAdd",
    "Verif.Circuit.C01_assignConstant",
    "Verif.Circuit.C01_assertEqual",
    "Verif.Circuit.C01_assertConstant",
    "Verif.Circuit.C01_invertUnsafe",
    "Verif.Circuit.C01_divUnsafe",
    "Verif.Circuit.C01_calls_keep_earlier_constraints"
   ],
   "note": "All listed native operations, arbitrary prior circuit and arbitrary satisfying advice, any field."
  },
  {
   "property": "C02",
   "status": "proved",
   "theorems": [
    "Verif.Circuit.C02_sum_with_constant"
   ],
   "note": "Lists of any length, induction over the row-splitting loop."
  },
  {
   "property": "C03",
   "status": "proved",
   "theorems": [
    "Verif.Circuit.C03_assertBit",
    "Verif.Circuit.C03_and",
    "Verif.Circuit.C03_or",
    "Verif.Circuit.C03_xor",
    "Verif.Circuit.C03_xnor",
    "Verif.Circuit.C03_not",
    "Verif.Circuit.C03_bisec",
    "Verif.Circuit.C03_bisecCond",
    "Verif.Circuit.C03_assertTrue",
    "Verif.Circuit.C03_assertFalse"
   ],
   "note": "Boolean connectives, selection and assertions on bits, any field."
  },
  {
   "property": "C04",
   "status": "proved",
   "theorems": [
    "Verif.Circuit.C04_isZero",
    "Verif.Circuit.C04_invert"
   ],
   "note": "is_zero and invert, any field."
  },
  {
   "property": "C05",
   "status": "proved",
   "theorems": [
    "Verif.Circuit.C05_honest_witness_satisfies",
    "Verif.Circuit.C05_panics_only_on_zero_division"
   ],
   "note": "Completeness for all straight-line programs from the empty circuit; panics characterised exactly for any circuit."
  },
  {
   "property": "C06",
   "status": "proved",
   "theorems": [
    "Verif.Circuit.C06_program_sound",
    "Verif.Circuit.C06_result_eq_direct_evaluation"
   ],
   "note": "Relational meaning for all programs; equality with direct evaluation for programs without free prover choices (assign, inverse of zero, 0/0)."
  },
  {
   "property": "C07",
   "status": "proved",
   "theorems": [
    "Verif.Circuit.C07_mul_add_with_next_line",
    "Verif.Circuit.C07_default_body_unsound"
   ],
   "note": "Five-column override sound; the trait default body is proved unsound with an explicit satisfying assignment for every target value."
  },
  {
   "property": "C08",
   "status": "proved",
   "theorems": [
    "Verif.Circuit.C08_nonleading",
    "Verif.Circuit.C08_n_floor",
    "Verif.Circuit.C08_d_leading",
    "Verif.Circuit.C08_assign_w",
    "Verif.Circuit.C08_assign_d",
    "Verif.Circuit.C08_assign_w_announced",
    "Verif.Circuit.C08_assign_constant"
   ],
   "note": "Limb ranges from the lookup tables, any satisfying advice."
  },
  {
   "property": "C09",
   "status": "proved",
   "theorems": [
    "Verif.Circuit.C09_reduce"
   ],
   "note": "For every integer whose limbs obey its announced bound (Announced)."
  },
  {
   "property": "C10",
   "status": "proved",
   "theorems": [
    "Verif.Circuit.C10_add",
    "Verif.Circuit.C10_sub",
    "Verif.Circuit.C10_neg"
   ],
   "note": "Residue and bookkeeping for add, sub, neg."
  },
  {
   "property": "C11",
   "status": "proved",
   "theorems": [
    "Verif.Circuit.C11_mul",
    "Verif.Circuit.C11_square"
   ],
   "note": "Residue of product/square, range of the result, cached native cells of the arguments."
  },
  {
   "property": "C12",
   "status": "proved",
   "theorems": [
    "Verif.Circuit.C12_div"
   ],
   "note": "Flag and quotient; the quotient is unconstrained when the divisor is zero."
  },
  {
   "property": "C13",
   "status": "proved",
   "theorems": [
    "Verif.Circuit.C13_is_zero",
    "Verif.Circuit.C13_is_equal",
    "Verif.Circuit.C13_assert_equal",
    "Verif.Circuit.C13_bisec"
   ],
   "note": "is_zero, is_equal, assert_equal, and selection, including non-canonical representations."
  },
  {
   "property": "C14",
   "status": "partial",
   "theorems": [
    "Verif.Circuit.C14_mul_small_constant_partial",
    "Verif.Circuit.C14_bookkeeping_wrong"
   ],
   "note": "False as stated: C14_bookkeeping_wrong gives an honest run with counter 0 and a leading limb over its bound. The partial theorem states the bound that does hold."
  },
  {
   "property": "C15",
   "status": "partial",
   "theorems": [
    "Verif.Circuit.C15_sub_panics",
    "Verif.Circuit.C15_no_panic_partial",
    "Verif.Circuit.C15_only_subtractions_partial"
   ],
   "note": "False as stated: C15_sub_panics (subtracting two integers with counters 31). The partial theorems show that this is the only panic for programs without mul_small_constant whose assertions hold."
  },
  {
   "property": "C16",
   "status": "proved",
   "theorems": [
    "Verif.Circuit.C16_programs_complete",
    "Verif.Circuit.C16_assign_w",
    "Verif.Circuit.C16_reduce",
    "Verif.Circuit.C16_mul"
   ],
   "note": "assign_w, reduce, mul from any good circuit; whole programs from the empty circuit."
  },
  {
   "property": "C17",
   "status": "partial",
   "theorems": [
    "Verif.Circuit.C17_get_last_bit_partial",
    "Verif.Circuit.C17_canonical_partial",
    "Verif.Circuit.C17_parity_forgeable"
   ],
   "note": "False as stated: C17_parity_forgeable. The partial theorems: the bit is the parity of the represented number, hence right for canonical numbers."
  },
  {
   "property": "C18",
   "status": "partial",
   "theorems": [
    "Verif.Circuit.C18_assign_point_partial",
    "Verif.Circuit.C18_flag_forgeable",
    "Verif.Circuit.C18_not_a_point"
   ],
   "note": "False as stated: C18_flag_forgeable (the flag can be any field element). The partial theorem: curve equation unless the flag is 1; a group element whenever the flag is a bit."
  },
  {
   "property": "C19",
   "status": "proved",
   "theorems": [
    "Verif.Circuit.C19_add",
    "Verif.Circuit.C19_double",
    "Verif.Circuit.C19_neg",
    "Verif.Circuit.C19_sub",
    "Verif.Circuit.C19_reduce"
   ],
   "note": "Against Mathlib's group law; all inputs including equal, opposite and identity operands."
  },
  {
   "property": "C20",
   "status": "proved",
   "theorems": [
    "Verif.Circuit.C20_mul",
    "Verif.Circuit.C20_shamir",
    "Verif.Circuit.C20_constant_mul",
    "Verif.Circuit.C20_modulo_order"
   ],
   "note": "mul, shamir and constant_mul; induction over windows. The in_shape_mode branch of shamir is not modelled."
  },
  {
   "property": "C21",
   "status": "partial",
   "theorems": [
    "Verif.Circuit.C21_assert_equal_partial",
    "Verif.Circuit.C21_identity_equals_affine"
   ],
   "note": "False as stated: C21_identity_equals_affine. The partial theorem: right when both points are the identity or both are affine."
  },
  {
   "property": "C22",
   "status": "proved",
   "theorems": [
    "Verif.Circuit.C22_decompose_scalar",
    "Verif.Circuit.C22_complete"
   ],
   "note": "All window sizes; C22_complete shows the hypotheses are met for every scalar."
  },
  {
   "property": "C23",
   "status": "partial",
   "theorems": [
    "Verif.Api.C23_pow_constant_partial",
    "Verif.Api.C23_pow_constant_mock_partial",
    "Verif.Api.C23_pow_constant_circuit_partial",
    "Verif.Api.C23_pow_constant_zero",
    "Verif.Api.C23_pow_constant_diverges"
   ],
   "note": "False as stated: C23_pow_constant_diverges (no fuel suffices for exponents >= 2^31), C23_pow_constant_zero. The partial theorems: all exponents from 1 to 2^31 - 1, any chip."
  },
  {
   "property": "C24",
   "status": "proved",
   "theorems": [
    "Verif.Api.C24_mul_add_accumulate",
    "Verif.Api.C24_mul_add_accumulate_mock",
    "Verif.Api.C24_mul_add_accumulate_circuit"
   ],
   "note": "Any chip that satisfies the laws; mock and circuit instances."
  },
  {
   "property": "C25",
   "status": "proved",
   "theorems": [
    "Verif.Api.C25_chip_evaluate",
    "Verif.Api.C25_chip_evaluate_mock",
    "Verif.Api.C25_chip_evaluate_circuit",
    "Verif.Api.C25_selector_panics"
   ],
   "note": "Structural induction; virtual selectors panic (C25_selector_panics)."
  },
  {
   "property": "C26",
   "status": "partial",
   "theorems": [
    "Verif.Api.C26_schema_eval_partial",
    "Verif.Api.C26_schema_eval_mock_partial",
    "Verif.Api.C26_schema_eval_circuit_partial",
    "Verif.Api.C26_unscaled_panics",
    "Verif.Api.C26_product_panics",
    "Verif.Api.C26_key_collision"
   ],
   "note": "False as stated: a commitment that is never scaled panics (C26_unscaled_panics); products panic; key collisions change the result (C26_key_collision). The partial theorems: schemas in which every commitment is scaled and equal keys mean equal commitments."
  },
  {
   "property": "C27",
   "status": "partial",
   "theorems": [
    "Verif.Api.C27_keys_partial",
    "Verif.Api.C27_key_injective",
    "Verif.Api.C27_two_instances",
    "Verif.Api.C27_same_name"
   ],
   "note": "False as stated: C27_two_instances, C27_same_name. The partial theorem: one instance per proof and different proof keys."
  },
  {
   "property": "C28",
   "status": "partial",
   "theorems": [
    "Verif.Api.C28_pair",
    "Verif.Api.C28_evaluated_partial",
    "Verif.Api.C28_one_rotation_panics",
    "Verif.Api.C28_honest",
    "Verif.Api.C28_sound",
    "Verif.Api.C28_claims_sound"
   ],
   "note": "C28_pair (schema level), completeness and soundness are proved; the evaluated pair panics when there is one rotation and one proof (C28_one_rotation_panics), so the evaluated statement is for two or more."
  },
  {
   "property": "C29",
   "status": "proved",
   "theorems": [
    "Verif.Api.C29_lagrange",
    "Verif.Api.C29_lagrange_mock",
    "Verif.Api.C29_lagrange_circuit"
   ],
   "note": "Against Lagrange basis polynomials; any chip."
  },
  {
   "property": "C30",
   "status": "proved",
   "theorems": [
    "Verif.Api.C30_expressions",
    "Verif.Api.C30_expressions_mock",
    "Verif.Api.C30_expressions_circuit",
    "Verif.Api.C30_rows",
    "Verif.Api.C30_sound",
    "Verif.Api.C30_complete"
   ],
   "note": "Formulas, meaning on the rows, soundness and completeness of the grand products."
  },
  {
   "property": "C31",
   "status": "proved",
   "theorems": [
    "Verif.Api.C31_expressions",
    "Verif.Api.C31_expressions_mock",
    "Verif.Api.C31_expressions_circuit",
    "Verif.Api.C31_rows",
    "Verif.Api.C31_sound",
    "Verif.Api.C31_complete"
   ],
   "note": "Formulas, meaning on the rows, soundness and completeness."
  },
  {
   "property": "C32",
   "status": "proved",
   "theorems": [
    "Verif.Api.C32_quotient",
    "Verif.Api.C32_sound",
    "Verif.Api.C32_complete"
   ],
   "note": "Formula, and soundness/completeness of the vanishing argument by root counting."
  },
  {
   "property": "C33",
   "status": "proved",
   "theorems": [
    "Verif.Api.C33_aggregate",
    "Verif.Api.C33_complete",
    "Verif.Api.C33_sound",
    "Verif.Api.C33_empty_panics"
   ],
   "note": "Horner sum, completeness and soundness; the empty aggregation panics (C33_empty_panics)."
  },
  {
   "property": "C34",
   "status": "proved",
   "theorems": [
    "Verif.Sol.C34_round_trip",
    "Verif.Sol.C34_reads_only_written",
    "Verif.Sol.C34_one_encoding",
    "Verif.Sol.C34_writes"
   ],
   "note": "Hash function is a parameter (32 bytes of output). The state after an error is not modelled."
  },
  {
   "property": "C35",
   "status": "proved",
   "theorems": [
    "Verif.Sol.C35_injective",
    "Verif.Sol.C35_history"
   ],
   "note": "Within a segment unconditionally; for whole histories up to a collision or an output that equals a tag word."
  },
  {
   "property": "C36",
   "status": "proved",
   "theorems": [
    "Verif.Sol.C36_same_challenges"
   ],
   "note": "For histories without the identity (the Rust transcript rejects it) that fit the uint32 length of the contract (less than 2^27 words)."
  },
  {
   "property": "C37",
   "status": "proved",
   "theorems": [
    "Verif.Api.C37_squeeze",
    "Verif.Api.C37_squeeze_mock",
    "Verif.Api.C37_squeeze_circuit",
    "Verif.Api.C37_twice",
    "Verif.Api.C37_injective",
    "Verif.Api.C37_history_ambiguous"
   ],
   "note": "Round constants and matrices are parameters. Also proved: nothing separates squeezes (C37_history_ambiguous)."
  },
  {
   "property": "C38",
   "status": "proved",
   "theorems": [
    "Verif.Sol.C38_reverse",
    "Verif.Sol.C38_value",
    "Verif.Sol.C38_involutive"
   ],
   "note": "All words."
  },
  {
   "property": "C39",
   "status": "proved",
   "theorems": [
    "Verif.Sol.C39_recorded",
    "Verif.Sol.C39_runs"
   ],
   "note": "Scripts of chip calls (constants, proof variables, all scalar and point operations) recorded by the context: C39_recorded, any successful run of the recorded program returns for every handle the value of the script; C39_runs, for canonical proof words, nonzero divisors and no subtracted identity the program does not revert. Challenges are not part of scripts."
  },
  {
   "property": "C40",
   "status": "proved",
   "theorems": [
    "Verif.Sol.C40_add",
    "Verif.Sol.C40_sub",
    "Verif.Sol.C40_mul",
    "Verif.Sol.C40_div",
    "Verif.Sol.C40_square",
    "Verif.Sol.C40_sum",
    "Verif.Sol.C40_mulAddConstant",
    "Verif.Sol.C40_pAdd",
    "Verif.Sol.C40_pSub",
    "Verif.Sol.C40_pMul",
    "Verif.Sol.C40_pMulConstant"
   ],
   "note": "One theorem per operation of the two chips: in any variables in which the recorded assignments hold, the value of the result is the operation applied to the values of the operands, whatever was folded, dropped or found in the cache."
  },
  {
   "property": "C41",
   "status": "proved",
   "theorems": [
    "Verif.Sol.C41_apart",
    "Verif.Sol.C41_available"
   ],
   "note": "Any history of expand/alloc/free: live blocks are pairwise apart, a point block starts at an even word, free words stay available."
  },
  {
   "property": "C42",
   "status": "proved",
   "theorems": [
    "Verif.Sol.C42_allocate",
    "Verif.Sol.C42_run"
   ],
   "note": "For every recorded (single-assignment, well-typed) program of size at most 0xdeadbeaf, every iteration order of the HashSet and every initial memory, linear_scan succeeds and the final expressions are unchanged for every call."
  },
  {
   "property": "C43",
   "status": "partial",
   "theorems": [
    "Verif.Sol.C43_combine_partial",
    "Verif.Sol.C43_memoryOptimize_partial",
    "Verif.Sol.C43_false"
   ],
   "note": "False as stated: x = a*b; y = x+x becomes b*a+x with x never computed (C43_false). Proved for all recorded programs in which the other operand does not mention the product (NoDouble); also for the whole memory_optimize."
  },
  {
   "property": "C44",
   "status": "partial",
   "theorems": [
    "Verif.Sol.C44_merge_partial",
    "Verif.Sol.C44_total",
    "Verif.Sol.C44_false"
   ],
   "note": "False as stated: a lone point update is emitted as a one-word update (C44_false). Proved for all programs in which every absorbed point has a neighbour that continues it (NoLonelyPoint) and offsets are below 2^63; without overflow checks the pass never panics."
  },
  {
   "property": "C45",
   "status": "partial",
   "theorems": [
    "Verif.Sol.C45_pm_partial",
    "Verif.Sol.C45_mt_partial",
    "Verif.Sol.C45_false"
   ],
   "note": "False as stated for offsets of 255 and more (C45_false). Proved for both variants, all runs, when offsets fit the opcode (SmallPM, SmallMT)."
  },
  {
   "property": "C46",
   "status": "partial",
   "theorems": [
    "Verif.Sol.C46_pow_partial",
    "Verif.Sol.C46_total",
    "Verif.Sol.C46_false"
   ],
   "note": "False as stated: a^4*c becomes a^2*c (C46_false). Proved for all programs in which a power in the temporary is not followed by another scalar product (NoInterruptedPower), bases are plain, and powers are short or overflow is checked."
  },
  {
   "property": "C47",
   "status": "partial",
   "theorems": [
    "Verif.Sol.C47_pipeline_partial",
    "Verif.Sol.C47_checked_partial",
    "Verif.Sol.C47_unchecked_partial",
    "Verif.Sol.C47_panic",
    "Verif.Sol.C47_false"
   ],
   "note": "False as stated for descending offsets (C47_panic, C47_false). Proved with overflow checks for every program on which the pass succeeds, and without them when no run descends. C47_pipeline_partial: fusing, allocation and all five passes together keep the results of every recorded program under NoDouble and Mergeable."
  },
  {
   "property": "C48",
   "status": "partial",
   "theorems": [
    "Verif.Top.C48_native",
    "Verif.Top.C48_native_identity",
    "Verif.Top.C48_contract",
    "Verif.Top.C48_injective",
    "Verif.Top.C48_up_to_sign_partial",
    "Verif.Top.C48_canonical_partial",
    "Verif.Top.C48_honest",
    "Verif.Top.C48_sign_forgeable",
    "Verif.Top.C48_wrong_pair_accepted"
   ],
   "note": "False of the circuit: the exposed parity of y is not fixed, so the circuit can expose -P for P (C48_sign_forgeable, C48_wrong_pair_accepted). Proved: native code and contract agree and are injective; honest runs expose the same rows; every satisfying assignment exposes the points up to sign."
  },
  {
   "property": "C49",
   "status": "partial",
   "theorems": [
    "Verif.Top.C49_same_result",
    "Verif.Top.C49_two_forms",
    "Verif.Top.C49_one_form_partial",
    "Verif.Top.C49_instances",
    "Verif.Top.TinyContract.C49_false"
   ],
   "note": "False of the code: C49_false, a generated contract that accepts two word lists for one statement; C49_same_result/C49_two_forms, for every generated contract w and w+q_mod give the same result. C49_one_form_partial: one form when the words after the final pair are reduced."
  },
  {
   "property": "C50",
   "status": "proved",
   "theorems": [
    "Verif.Sol.C50_add",
    "Verif.Sol.C50_mul",
    "Verif.Sol.C50_sub",
    "Verif.Sol.C50_sub_reverts",
    "Verif.Sol.C50_pow",
    "Verif.Sol.C50_div",
    "Verif.Sol.C50_div_canonical",
    "Verif.Sol.C50_div_noncanonical",
    "Verif.Sol.C50_mul_add"
   ],
   "note": "All words; the checks of subtraction and division are exact. Also proved: the divisor check of fr_div is on the word, so the modulus passes (C50_div_noncanonical)."
  },
  {
   "property": "C51",
   "status": "partial",
   "theorems": [
    "Verif.Api.C51_instance_commitment",
    "Verif.Api.C51_instance_commitment_mock",
    "Verif.Api.C51_instance_commitment_circuit",
    "Verif.Api.C51_binding_partial",
    "Verif.Api.C51_trailing_zero",
    "Verif.Api.C51_ambiguous",
    "Verif.Api.C51_polynomial"
   ],
   "note": "The formula is proved (any chip) and the committed polynomial is identified. The last part is false: trailing zeros do not count (C51_trailing_zero, C51_ambiguous). The partial theorem: injective for columns of equal length and independent bases."
  },
  {
   "property": "C52",
   "status": "partial",
   "theorems": [
    "Verif.Top.C52_create_proof_partial",
    "Verif.Top.C52_ignores_proofs"
   ],
   "note": "False: the result does not depend on the proofs supplied (C52_ignores_proofs). Holds when the template proofs are the proofs, as CreateProof::new sets them."
  },
  {
   "property": "C53",
   "status": "proved",
   "theorems": [
    "Verif.Circuit.C53_programs_sound",
    "Verif.Circuit.C53_programs_sound_from"
   ],
   "note": "Induction over programs."
  },
  {
   "property": "C54",
   "status": "proved",
   "theorems": [
    "Verif.Circuit.C54_native",
    "Verif.Circuit.C54_integer"
   ],
   "note": "Relational argument over pairs of runs; native and integer programs."
  },
  {
   "property": "C55",
   "status": "proved",
   "theorems": [
    "Verif.Circuit.C55_is_pure_w_modulus",
    "Verif.Circuit.C55_mul",
    "Verif.Circuit.C55_carry",
    "Verif.Circuit.C55_reduce",
    "Verif.Circuit.C55_d_range"
   ],
   "note": "Closed arithmetic on the one BN254 configuration, by kernel evaluation."
  },
  {
   "property": "C56",
   "status": "proved",
   "theorems": [
    "Verif.Circuit.C56_programs_sound"
   ],
   "note": "Induction over programs. Hypothesis that flags of assigned points are bits, needed because of C18."
  },
  {
   "property": "C57",
   "status": "proved",
   "theorems": [
    "Verif.Circuit.C57_same_circuit"
   ],
   "note": "Relational argument over pairs of runs."
  },
  {
   "property": "C58",
   "status": "partial",
   "theorems": [
    "Verif.Circuit.C58_double_panics",
    "Verif.Circuit.C58_add_partial",
    "Verif.Circuit.C58_double_partial"
   ],
   "note": "False as stated: C58_double_panics (a concrete curve point). The partial theorems: all points whose tangent slope satisfies TangentSafe."
  },
  {
   "property": "C59",
   "status": "proved",
   "theorems": [
    "Verif.Circuit.C59_constant_mul_complete"
   ],
   "note": "No condition on the point or the scalar."
  },
  {
   "property": "C60",
   "status": "proved",
   "theorems": [
    "Verif.Circuit.C60_group_order",
    "Verif.Circuit.C60_scalars"
   ],
   "note": "Order of the generator by a certificate chain; point count bound; no 2-torsion."
  },
  {
   "property": "C61",
   "status": "proved",
   "theorems": [
    "Verif.Api.C61_claims"
   ],
   "note": "One instance vector (for several the keys are ambiguous, C27)."
  },
  {
   "property": "C62",
   "status": "proved",
   "theorems": [
    "Verif.Api.C62_transcript",
    "Verif.Api.C62_transcript_circuit",
    "Verif.Api.C62_challenge"
   ],
   "note": "Any hash; order of absorption and which challenge depends on what."
  },
  {
   "property": "C63",
   "status": "proved",
   "theorems": [
    "Verif.Api.C63_points"
   ],
   "note": ""
  },
  {
   "property": "C64",
   "status": "proved",
   "theorems": [
    "Verif.Api.C64_single",
    "Verif.Api.C64_single_mock",
    "Verif.Api.C64_single_circuit"
   ],
   "note": "Any chip; total on the mock chip; in a circuit under the assumption that the points read are group elements (C18)."
  },
  {
   "property": "C65",
   "status": "proved",
   "theorems": [
    "Verif.Api.C65_aggregation",
    "Verif.Api.C65_aggregation_mock",
    "Verif.Api.C65_aggregation_circuit"
   ],
   "note": "As C64, for any number of circuits and proofs with different keys."
  },
  {
   "property": "C66",
   "status": "proved",
   "theorems": [
    "Verif.Api.C66_groups",
    "Verif.Api.C66_read"
   ],
   "note": "C66_groups: the number of groups of claims; C66_read: a run that returns has read that many opening proofs."
  },
  {
   "property": "C67",
   "status": "partial",
   "theorems": [
    "Verif.Api.C67_trailing_bytes",
    "Verif.Api.C67_used_bytes_partial"
   ],
   "note": "False: C67_trailing_bytes (bytes after the proof that are no point are ignored). The partial theorem: with unique encodings, the used prefix is determined by the transcript."
  },
  {
   "property": "C68",
   "status": "proved",
   "theorems": [
    "Verif.Api.C68_single_circuit",
    "Verif.Api.C68_aggregation_circuit",
    "Verif.Api.C68_single_mock"
   ],
   "note": "Poseidon constants are parameters; circuit (every satisfying assignment) and native."
  },
  {
   "property": "C69",
   "status": "proved",
   "theorems": [
    "Verif.Api.C69_challenges",
    "Verif.Api.C69_honest"
   ],
   "note": "Under the hypothesis that the cells hold canonical coordinates, which C69_honest shows for the honest prover and C70 shows is not enforced."
  },
  {
   "property": "C70",
   "status": "partial",
   "theorems": [
    "Verif.Api.C70_native",
    "Verif.Api.C70_forgeable",
    "Verif.Api.C70_two_encodings",
    "Verif.Api.C70_challenge_partial"
   ],
   "note": "False: C70_forgeable, C70_two_encodings (non-canonical coordinates and free words for the identity). The partial theorem: canonical cells are absorbed as the point."
  },
  {
   "property": "C71",
   "status": "partial",
   "theorems": [
    "Verif.Sol.C71_add",
    "Verif.Sol.C71_add_reverts",
    "Verif.Sol.C71_sub",
    "Verif.Sol.C71_sub_other_identity",
    "Verif.Sol.C71_sub_identity",
    "Verif.Sol.C71_mul",
    "Verif.Sol.C71_mul_add"
   ],
   "note": "False for subtracting the identity, which reverts (C71_sub_identity). Everything else is proved for all points and scalar words."
  },
  {
   "property": "C72",
   "status": "partial",
   "theorems": [
    "Verif.Top.C72_false",
    "Verif.Top.C72_honest",
    "Verif.Top.C72_circuit_partial"
   ],
   "note": "False as stated: a satisfying assignment can expose the opposite of the right point (C72_false). Proved: everything up to the sign of the two points, for identity flags that are bits (C18) and coherent commitments other than the identity (C21). C72_honest: in the assignment the prover computes the flags are bits and the rows after the pair are the instances of the proofs, as given; an example meets every assumption (Regular) on a circuit of two proofs."
  },
  {
   "property": "C73",
   "status": "proved",
   "theorems": [
    "Verif.Sol.C73_contract",
    "Verif.Sol.C73_optimised_partial"
   ],
   "note": "C73_contract: the recorded program; C73_optimised_partial: the program after fusing, allocation and merging, under what these passes need (C43-C47). TinyContract: a generated program that returns."
  },
  {
   "property": "C74",
   "status": "proved",
   "theorems": [
    "Verif.Sol.C74_same_proof"
   ],
   "note": "Combines C73 with the byte order of the caller and the SHA reader (C34, C36). TinyContract: a generated program that returns."
  },
  {
   "property": "C75",
   "status": "proved",
   "theorems": [
    "Verif.Sol.C75_generates"
   ],
   "note": "GenTotal: the generic verifier on the native chip with identity checks and on the generating chip, side by side (C75_generates). TinyContract: a generated program that returns."
  },
  {
   "property": "C76",
   "status": "proved",
   "theorems": [
    "Verif.Sol.C76_runs",
    "Verif.Sol.C76_optimised_partial"
   ],
   "note": "ContractRuns, ContractTotal: native chip and the run of the recorded statements side by side (C76_runs); C76_optimised_partial: after fusing, allocation and merging, under what these passes need (C43-C47). TinyContract: a generated program that returns. OptimisedRun: an optimised program that meets the conditions."
  },
  {
   "property": "C77",
   "status": "proved",
   "theorems": [
    "Verif.Top.C77_accepts_iff"
   ],
   "note": "C76 with the packing of the final pair (C48) and the two pairing checks (C77_accepts_iff). TinyContract.accepts_and_rejects: a generated contract, a call it accepts and one it rejects."
  },
  {
   "property": "C78",
   "status": "partial",
   "theorems": [
    "Verif.Circuit.C78_programs_complete_partial",
    "Verif.Circuit.C78_mul_panics"
   ],
   "note": "False as stated: C78_mul_panics (a point that is accepted and cannot be multiplied by any scalar). The partial theorem: all call sequences whose intermediate points meet EOp.Honest (tangent slopes that can be computed, no cancellation inside shamir, results of neg and sub reduced before further use); example program with mul, shamir, sub, reduce, assert_equal."
  },
  {
   "property": "C79",
   "status": "partial",
   "theorems": [
    "Verif.Top.C79_circuit_partial",
    "Verif.Top.TinySynth.C79_false"
   ],
   "note": "False as stated: C79_false (a proof with a valid native pair that contains the point of C58; the circuit panics when it multiplies it by a challenge). Proved where the checked native verifier (guarded) returns: it is the native verifier that stops at point operations whose tangent slopes the circuit might not be able to compute (C58, C78). Two proofs that meet the hypotheses: Top/SynthExample.lean."
  },
  {
   "property": "C80",
   "status": "proved",
   "theorems": [
    "Verif.Sol.Mulexp.C80_multiexp",
    "Verif.Sol.Mulexp.C80_points",
    "Verif.Sol.Mulexp.C80_deep"
   ],
   "note": "Exact characterisation (C80_multiexp); the number of call frames that fit the stack is a parameter. With 511 frames every scalar works (C80_points), with fewer the all-ones word reverts (C80_deep)."
  },
  {
   "property": "C81",
   "status": "partial",
   "theorems": [
    "Verif.Top.C81_load_iff",
    "Verif.Top.C81_columns",
    "Verif.Top.C81_read_back_iff",
    "Verif.Top.C81_read_back_partial",
    "Verif.Top.C81_tail"
   ],
   "note": "Exact characterisation of what is read (C81_load_iff). False for other numbers of columns than one (C81_read_back_iff, C81_columns: the columns come back as one); proved for one column, so for the aggregation circuit (C81_read_back_partial). Trailing bytes are ignored (C81_tail)."
  },
  {
   "property": "C82",
   "status": "partial",
   "theorems": [
    "Verif.Top.C82_loads_partial",
    "Verif.Top.C82_names",
    "Verif.Top.C82_same_file",
    "Verif.Top.C82_other_key",
    "Verif.Top.C82_not_all",
    "Verif.Top.C82_not_all_keys"
   ],
   "note": "False: the eleventh proof of circuit a has the file of the first proof of circuit a1 (C82_not_all, C82_same_file), and circuits with one PARAMS_NAME share one key file (C82_not_all_keys, C82_other_key). Proved where the files are different and equal PARAMS_NAME means equal circuits (C82_loads_partial); C82_names: names that do not end with a digit are enough."
  },
  {
   "property": "C83",
   "status": "partial",
   "theorems": [
    "Verif.Top.C83_one_name",
    "Verif.Top.C83_keys_iff",
    "Verif.Top.C83_one_circuit_partial",
    "Verif.Top.TinySynth.C83_wrong_pair"
   ],
   "note": "False: all circuits get the path of the folder as name, so the keys are different exactly if at most one circuit has proofs (C83_keys_iff). C83_wrong_pair: two proofs that are valid alone and with different names, but are reduced to a wrong pair by the SDK. Proved for one circuit (C83_one_circuit_partial)."
  },
  {
   "property": "C84",
   "status": "proved",
   "theorems": [
    "Verif.Top.C84_run",
    "Verif.Top.C84_check",
    "Verif.Top.C84_final_pair",
    "Verif.Top.C84_instances"
   ],
   "note": "C84_run, C84_check, C84_final_pair, C84_instances, for any proving system."
  },
  {
   "property": "C85",
   "status": "partial",
   "theorems": [
    "Verif.Top.C85_accepts_iff",
    "Verif.Top.C85_shared_partial",
    "Verif.Top.TinyRun.C85_false"
   ],
   "note": "False: both pairings use the parameters of the aggregation circuit, so a final pair that is valid for the secret of the target circuits is accepted exactly if the two secrets are the same (C85_accepts_iff); C85_false is a run with a valid proof and a valid final pair that is rejected. Proved for shared parameters (C85_shared_partial)."
  },
  {
   "property": "C86",
   "status": "partial",
   "theorems": [
    "Verif.Top.C86_recorded",
    "Verif.Top.C86_contract_partial",
    "Verif.Top.OptimisedRun.C86_false"
   ],
   "note": "Proved for the recorded program (C86_recorded; Top/TinyRun.lean has a run that meets the hypotheses and is accepted). With the optimiser under the conditions of C43 to C47 on the generated program (C86_contract_partial; Top/OptimisedRun.lean has an optimised contract that meets them and is accepted). False without them (C86_false): a valid proof whose contract rejects every call in a release build, while a debug build panics."
  },
  {
   "property": "C87",
   "status": "partial",
   "theorems": [
    "Verif.Top.C87_zero_input",
    "Verif.Top.C87_command",
    "Verif.Top.C87_records_partial",
    "Verif.Top.C87_false"
   ],
   "note": "False: the generator unwraps the coordinates of every sample point, so a public input that is zero makes it panic (C87_zero_input, C87_command; C87_false: native verification of the same proof returns a valid pair). Proved where no computed point is the identity (C87_records_partial)."
  },
  {
   "property": "C88",
   "status": "proved",
   "theorems": [
    "Verif.Top.C88_circuit",
    "Verif.Top.C88_setup",
    "Verif.Top.C88_commands"
   ],
   "note": "C88_circuit (two lists of proofs with as many instances; the bytes may be anything), C88_setup (first proof in all places), C88_commands (verify_setup, verify_run). Both circuits are required to be built; Top/SynthShape.lean has a case in which they are."
  },
  {
   "property": "C89",
   "status": "proved",
   "theorems": [
    "Verif.Top.C89_instance_column",
    "Verif.Top.C89_undeclared"
   ],
   "note": "C89_undeclared: nothing in the commands depends on the declared size, so the condition that every proof has PUBLIC_INPUT_SIZE instances is not enforced."
  },
  {
   "property": "C90",
   "status": "partial",
   "theorems": [
    "Verif.Top.OptimisedRun.C90_profile_partial",
    "Verif.Top.OptimisedRun.C90_false"
   ],
   "note": "Proved: a contract generated with overflow checks is also generated without them (C90_profile_partial). False as stated (C90_false): for a gate whose products go down in memory a debug build panics and a release build generates a contract."
  },
  {
   "property": "C91",
   "status": "proved",
   "theorems": [
    "Verif.Top.OptimisedRun.C91_order"
   ],
   "note": "memoryOptimize_order: freeing blocks commutes because blocks of two words are even; holds for all programs."
  },
  {
   "property": "C92",
   "status": "proved",
   "theorems": [
    "Verif.Top.C92_circuit",
    "Verif.Top.C92_rows",
    "Verif.Top.C92_fits",
    "Verif.Top.C92_shamir"
   ],
   "note": "C92_rows: rows without gaps; C92_fits: no region is higher when assigned than when measured, if both passes return and the proofs of a target have equal numbers of instances; C92_circuit: the regions are the circuit of synthesize; C92_shamir: the exact difference. Both passes return in Top/MeasureExample.lean."
  },
  {
   "property": "C93",
   "status": "proved",
   "theorems": [
    "Verif.Sol.C93_generated",
    "Verif.Sol.C93_optimised",
    "Verif.Sol.C93_text",
    "Verif.Top.C93_contract",
    "Verif.Top.OptimisedRun.C93_rejects"
   ],
   "note": "C93_text: every program that fits into words has a text, and the text is lexed, parsed and run as the program; C93_generated, C93_optimised: programs of the generator, before and after the optimiser; C93_contract: what verify_solidity generates; C93_rejects: the contract of C86 that rejects everything, as text. Relative to the semantics of the Solidity subset in Sol/Solidity.lean."
  },
  {
   "property": "C94",
   "status": "proved",
   "theorems": [
    "Verif.Top.C94_setup",
    "Verif.Top.C94_run",
    "Verif.Top.C94_again",
    "Verif.Top.C94_again_run",
    "Verif.Top.C94_uncached",
    "Verif.Top.C94_other_size",
    "Verif.Top.SetupRun.C94_redrawn"
   ],
   "note": "C94_setup, C94_run: what is loaded after verify_setup and used by verify_run and verify_check; C94_again, C94_again_run: with the cache a second verify_setup changes nothing; C94_uncached, C94_redrawn: without it an earlier proof is checked with new parameters (and a run in which the check then fails); C94_other_size: the cached file is used for every size."
  },
  {
   "property": "C95",
   "status": "proved",
   "theorems": [
    "Verif.Sol.C95_pairing",
    "Verif.Sol.C95_pairing_false",
    "Verif.Top.C95_secret",
    "Verif.Top.C95_contract",
    "Verif.Top.C95_accepts"
   ],
   "note": "C95_pairing: pairing() of the template on the rendered words of two points of G2 is the product of two pairings, for all words for the points of G1; C95_pairing_false: when it returns false and when it reverts; C95_secret: with s_g2 = t g2 it is t l = r; C95_contract: the filled template accepts what Verifier.verify accepts; C95_accepts: the calls that are accepted. Relative to a bilinear non-degenerate pairing (structure Pairing) and the encoding of EIP-197. An accepted run of the commands with the generator of EIP-197 is PairedRun.accepted in Top/PairingText.lean."
  },
  {
   "property": "C96",
   "status": "proved",
   "theorems": [
    "Verif.Sdk.Product.C96_key",
    "Verif.Sdk.Product.C96_sound",
    "Verif.Sdk.Product.C96_complete",
    "Verif.Sdk.Product.C96_public",
    "Verif.Sdk.Product.C96_squares",
    "Verif.Sdk.Product.C96_builder",
    "Verif.Sdk.Product.C96_default",
    "Verif.Sdk.Product.C96_derived_default"
   ],
   "note": "C96_public, C96_squares: the public inputs that can be proved; C96_sound: for every satisfying assignment; C96_complete, C96_builder: assigned cells of an honest prover; C96_key: fixed cells and copies depend on the constant only. C96_default, C96_derived_default: keys made from default. Rows are placed as SimpleFloorPlanner does."
  },
  {
   "property": "C97",
   "status": "proved",
   "theorems": [
    "Verif.Sdk.Shuffle.C97_sound",
    "Verif.Sdk.Shuffle.C97_honest",
    "Verif.Sdk.Shuffle.C97_failures",
    "Verif.Sdk.Shuffle.C97_shuffled",
    "Verif.Sdk.Shuffle.C97_moved",
    "Verif.Sdk.Shuffle.C97_rand"
   ],
   "note": "C97_sound: count of pairs of challenges for tables that are not reordered; C97_honest, C97_rand: exactly when the honest assignment satisfies the gates; C97_failures: how rarely it does not; C97_shuffled, C97_moved: shuffled applies one cycle to all columns."
  },
  {
   "property": "C98",
   "status": "proved",
   "theorems": [
    "Verif.Sol.Template.C98_fr_pow",
    "Verif.Sol.Template.C98_fr_invert",
    "Verif.Sol.Template.C98_fr_div",
    "Verif.Sol.Template.C98_fr_mul_add",
    "Verif.Sol.Template.C98_fr_reverse",
    "Verif.Sol.Template.C98_ecc_add",
    "Verif.Sol.Template.C98_ecc_sub",
    "Verif.Sol.Template.C98_ecc_mul",
    "Verif.Sol.Template.C98_inner_mul_add",
    "Verif.Sol.Template.C98_ecc_mul_add",
    "Verif.Sol.Template.C98_fr_mul_add_pm",
    "Verif.Sol.Template.C98_fr_mul_add_mt",
    "Verif.Sol.Template.C98_ecc_mul_add_pm",
    "Verif.Sol.Template.C98_update_hash_scalar",
    "Verif.Sol.Template.C98_update_hash_point",
    "Verif.Sol.Template.C98_to_scalar",
    "Verif.Sol.Template.C98_hash",
    "Verif.Sol.Template.C98_squeeze_challenge"
   ],
   "note": "One theorem per function (C98_fr_pow, ...), for calls of the parsed text (functions_eq: the text of each function is read as the tree that is executed). The functions on the right are those of Sol/Evm.lean, Sol/Sha.lean and Sol/Syntax.lean, which C36, C45, C50 and C93 are about. ecc_from is not called by the generated statements."
  },
  {
   "property": "C99",
   "status": "proved",
   "theorems": [
    "Verif.Sol.Template.C99_instances",
    "Verif.Sol.Template.C99_pairing",
    "Verif.Sol.Template.C99_g2",
    "Verif.Sol.Template.C99_verify",
    "Verif.Sol.Template.C99_contract"
   ],
   "note": "C99_verify: returns if Filled.Accepts, reverts otherwise; C99_contract with C95_contract: the same for contracts of verify_solidity. C99_pairing, C99_g2: the functions it calls; C99_instances: the text of the generated statements that assign the instances, for every number of them. Hypotheses: Deployed (what is filled in; met by baseOf_deployed), at least four instances, and more rounds than a loop needs."
  },
  {
   "property": "C100",
   "status": "proved",
   "theorems": [
    "Verif.Sol.Template.C100_fr_pow",
    "Verif.Sol.Template.C100_fr_invert",
    "Verif.Sol.Template.C100_fr_div",
    "Verif.Sol.Template.C100_fr_div_zero",
    "Verif.Sol.Template.C100_fr_mul_add",
    "Verif.Sol.Template.C100_fr_reverse",
    "Verif.Sol.Template.C100_ecc_add",
    "Verif.Sol.Template.C100_ecc_add_reverts",
    "Verif.Sol.Template.C100_ecc_sub",
    "Verif.Sol.Template.C100_ecc_sub_identity",
    "Verif.Sol.Template.C100_ecc_mul",
    "Verif.Sol.Template.C100_ecc_mul_add",
    "Verif.Sol.Template.C100_fr_mul_add_pm",
    "Verif.Sol.Template.C100_fr_mul_add_mt",
    "Verif.Sol.Template.C100_ecc_mul_add_pm",
    "Verif.Sol.Template.C100_squeeze",
    "Verif.Sol.Template.C100_squeeze_reverts",
    "Verif.Sol.Template.C100_transcript"
   ],
   "note": "C98 with C36, C38, C45, C50 and C71: the results are stated in the field, the group and bytes only. C100_transcript: whole histories; the number of bytes of a hash has to fit into 32 bits. ecc_sub by the identity reverts (C100_ecc_sub_identity)."
  },
  {
   "property": "C101",
   "status": "proved",
   "theorems": [
    "Verif.Sdk.Lookup.C101_key",
    "Verif.Sdk.Lookup.C101_public",
    "Verif.Sdk.Lookup.C101_even_free",
    "Verif.Sdk.Lookup.C101_without_witnesses",
    "Verif.Sdk.Lookup.C101_prover",
    "Verif.Sdk.Lookup.C101_honest",
    "Verif.Sdk.Lookup.C101_test"
   ],
   "note": "C101_public: what the lookups prove; C101_even_free: nothing about even witnesses; C101_honest, C101_prover, C101_test: the prover of synthesize; C101_key, C101_without_witnesses: which rows have lookups. Hypothesis: the witnesses fit into the usable rows."
  }
 ]
}