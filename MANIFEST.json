{
 "claims": [
  {
   "property": "C01",
   "status": "proved",
   "theorems": [
    "Snark.C01_evaluate_build",
    "Snark.C01_evaluate_build_ub"
   ],
   "note": ""
  },
  {
   "property": "C02",
   "status": "partial",
   "theorems": [
    "Snark.C02_ofTerms",
    "Snark.C02_ofTerms_any_sort",
    "Snark.C02_ops",
    "Snark.C02_varAdd_not_normal"
   ],
   "note": "Proved for the normalising constructor and the linear_combination operators; variable::operator+ breaks the normal form (C02_varAdd_not_normal)."
  },
  {
   "property": "C03",
   "status": "partial",
   "theorems": [
    "Snark.C03_isValid_iff",
    "Snark.C03_isValid_safe",
    "Snark.C03_r1cs_isValid_safe",
    "Snark.C03_completeness_false",
    "Snark.C03_isValid_empty_ub",
    "Snark.C03_completeness_partial"
   ],
   "note": "Safety is proved. The converse (every well-formed system is accepted) is false of the code: C03_completeness_false and C03_isValid_empty_ub are witnesses; C03_completeness_partial is what does hold."
  },
  {
   "property": "C04",
   "status": "proved",
   "theorems": [
    "Snark.C04_isSatisfied_iff",
    "Snark.C04_isSatisfied_sizes",
    "Snark.C04_swapAB"
   ],
   "note": ""
  },
  {
   "property": "C05",
   "status": "proved",
   "theorems": [
    "Snark.C05_getAllWires",
    "Snark.C05_isSatisfied",
    "Snark.C05_addGate",
    "Snark.C05_wireDepths"
   ],
   "note": ""
  },
  {
   "property": "C06",
   "status": "proved",
   "theorems": [
    "Snark.C06_complete",
    "Snark.C06_sound"
   ],
   "note": ""
  },
  {
   "property": "C07",
   "status": "proved",
   "theorems": [
    "Snark.C07_gate_evaluate",
    "Snark.C07_gate_constraint",
    "Snark.C07_char3_fails"
   ],
   "note": ""
  },
  {
   "property": "C08",
   "status": "proved",
   "theorems": [
    "Snark.C08_getAllWires",
    "Snark.C08_isSatisfied",
    "Snark.C08_complete",
    "Snark.C08_sound",
    "Snark.C08_last_wire_not_boolean",
    "Snark.C08_char7_unsound",
    "Snark.C08_wireDepths_ub"
   ],
   "note": ""
  },
  {
   "property": "C09",
   "status": "proved",
   "theorems": [
    "Snark.C09_satisfied_iff_divides",
    "Snark.C09_few_bad_points",
    "Snark.C09_inputs_independent",
    "Snark.C09_complete",
    "Snark.C09_unsat_asserts"
   ],
   "note": ""
  },
  {
   "property": "C10",
   "status": "proved",
   "theorems": [
    "Snark.C10_evaluation_agrees",
    "Snark.C10_checks_agree"
   ],
   "note": ""
  },
  {
   "property": "C11",
   "status": "proved",
   "theorems": [
    "Snark.C11_blinding"
   ],
   "note": ""
  },
  {
   "property": "C12",
   "status": "proved",
   "theorems": [
    "Snark.C12_sound",
    "Snark.C12_satisfied_iff_divides",
    "Snark.C12_few_bad_points",
    "Snark.C12_complete",
    "Snark.C12_evaluation_agrees",
    "Snark.C12_inputs_independent",
    "Snark.C12_char2_unsound"
   ],
   "note": ""
  },
  {
   "property": "C13",
   "status": "proved",
   "theorems": [
    "Snark.C13_isSatisfied_iff",
    "Snark.C13_satisfied_iff_divides",
    "Snark.C13_few_bad_points",
    "Snark.C13_complete",
    "Snark.C13_evaluation_agrees"
   ],
   "note": ""
  },
  {
   "property": "C14",
   "status": "partial",
   "theorems": [
    "Snark.C14_get",
    "Snark.C14_eq_iff",
    "Snark.C14_eqDense_wrong",
    "Snark.C14_eqDense_partial",
    "Snark.C14_isValid_inverted",
    "Snark.C14_isValid_partial"
   ],
   "note": "operator[] and operator== between sparse vectors are proved. operator==(std::vector) and is_valid are wrong in the code: C14_eqDense_wrong and C14_isValid_inverted are witnesses, C14_eqDense_partial and C14_isValid_partial say what does hold."
  },
  {
   "property": "C15",
   "status": "partial",
   "theorems": [
    "Snark.C15_accumulate_partial",
    "Snark.C15_gap_wrong",
    "Snark.C15_chunks"
   ],
   "note": "Proved for covered ranges without gaps (C15_accumulate_partial), in particular for every chunking of a dense vector (C15_chunks). With a gap the code is wrong: C15_gap_wrong."
  },
  {
   "property": "C16",
   "status": "partial",
   "theorems": [
    "Snark.C16_isValid_iff",
    "Snark.C16_constructors",
    "Snark.C16_inverse",
    "Snark.C16_slice",
    "Snark.C16_set",
    "Snark.C16_rearranged",
    "Snark.C16_empty_wrong",
    "Snark.IPerm.C16_next",
    "Snark.IPerm.C16_enumerates"
   ],
   "note": "Proved for all non-empty ranges. integer_permutation(0) breaks the class invariant (C16_empty_wrong). The algorithm of std::next_permutation is the usual one; the library's source is not part of the checkout."
  },
  {
   "property": "C17",
   "status": "proved",
   "theorems": [
    "Snark.C17_delivers",
    "Snark.C17_route_by",
    "Snark.C17_valid_sound",
    "Snark.C17_switches_consistent"
   ],
   "note": "All n = 2^k with k < 64 (n must fit in size_t). C17_delivers follows the edges of the generated topology; C17_route_by covers route_by_benes and valid_benes_routing; C17_switches_consistent shows both rows of a switch get the same setting."
  },
  {
   "property": "C18",
   "status": "proved",
   "theorems": [
    "Snark.C18_delivers",
    "Snark.C18_accepted",
    "Snark.C18_one_setting_per_switch",
    "Snark.C18_valid_accepts_collision"
   ],
   "note": "For every N with 2 <= N < 2^64 and every permutation: the topology is generated, routing terminates, every packet follows the selected edges to its destination, the built-in check accepts, and each switch has exactly one setting. An additional theorem shows that the built-in check is not sound for arbitrary (malformed) settings."
  },
  {
   "property": "C19",
   "status": "partial",
   "theorems": [
    "Snark.C19_history",
    "Snark.C19_map_constructor",
    "Snark.C19_binding",
    "Snark.C19_address_wrong",
    "Snark.C19_vector_values_wrong",
    "Snark.C19_vector_root_wrong",
    "Snark.C19_vector_root_partial"
   ],
   "note": "Proved for every history of writes to a fresh tree or to one built from a map. The code is wrong for address 2^depth (C19_address_wrong) and for the vector constructor (C19_vector_values_wrong, C19_vector_root_wrong); C19_vector_root_partial covers full vectors."
  },
  {
   "property": "C20",
   "status": "proved",
   "theorems": [
    "Snark.C20_history",
    "Snark.C20_overflow_wrong"
   ],
   "note": "Membership is exact up to collisions of the hash, as stated in C20_history. Beyond capacity the code corrupts proofs: C20_overflow_wrong."
  },
  {
   "property": "C21",
   "status": "proved",
   "theorems": [
    "Snark.C21_ra_empty",
    "Snark.C21_ra_map",
    "Snark.C21_ra_vector",
    "Snark.C21_delegated_empty",
    "Snark.C21_delegated_map",
    "Snark.C21_trace_entry",
    "Snark.C21_trace_contents"
   ],
   "note": "For in-range addresses and value_size <= 64 (beyond that the shifts are undefined). The delegated memory's vector constructor does not compile when instantiated and is not modelled."
  },
  {
   "property": "C22",
   "status": "proved",
   "theorems": [
    "Snark.C22_batchExp",
    "Snark.C22_multiExp"
   ],
   "note": ""
  },
  {
   "property": "C23",
   "status": "proved",
   "theorems": [
    "Snark.C23_fresh",
    "Snark.C23_last_write",
    "Snark.C23_access",
    "Snark.C23_satisfied",
    "Snark.C23_evaluate"
   ],
   "note": "For every history of protoboard operations. val(ONE) is writable in the code while is_satisfied always uses 1; C23_last_write covers both cells."
  },
  {
   "property": "C24",
   "status": "proved",
   "theorems": [
    "Snark.C24_packing",
    "Snark.C24_packing_no_bitness",
    "Snark.C24_packing_unique",
    "Snark.C24_packing_injective",
    "Snark.C24_from_packed",
    "Snark.C24_from_packed_too_big",
    "Snark.C24_from_bits",
    "Snark.C24_multipacking",
    "Snark.C24_multipacking_from_bits",
    "Snark.C24_multipacking_from_packed",
    "Snark.C24_dual"
   ],
   "note": "Packing, multipacking and dual variables; both witness generators."
  },
  {
   "property": "C25",
   "status": "proved",
   "theorems": [
    "Snark.C25_comparison_sound",
    "Snark.C25_comparison_witness",
    "Snark.C25_comparison_create",
    "Snark.C25_small_characteristic_counterexample"
   ],
   "note": "Sound from characteristic 2^(n+1) on; below that C25_small_characteristic_counterexample is an accepted wrong comparison."
  },
  {
   "property": "C26",
   "status": "proved",
   "theorems": [
    "Snark.C26_disjunction_sound",
    "Snark.C26_disjunction_witness",
    "Snark.C26_conjunction_sound",
    "Snark.C26_conjunction_witness"
   ],
   "note": "Soundness and witness generators of both gadgets."
  },
  {
   "property": "C27",
   "status": "proved",
   "theorems": [
    "Snark.C27_inner_product_sound",
    "Snark.C27_inner_product_witness",
    "Snark.C27_mux_sound",
    "Snark.C27_mux_witness"
   ],
   "note": "Soundness and witness generators of both gadgets. An index in range may still be combined with flag 0 and result 0, as the header documents."
  },
  {
   "property": "C28",
   "status": "partial",
   "theorems": [
    "Snark.GG.C28_completeness_partial",
    "Snark.GG.C28_completeness_without_assertion",
    "Snark.GG.C28_unsat_aborts",
    "Snark.GG.C28_completeness_false"
   ],
   "note": "Proved up to the prover's assertion that the leading coefficient of the quotient is not zero (C28_completeness_partial gives the exact abort condition, C28_completeness_without_assertion the property with assertions disabled). With the assertion the property is false: C28_completeness_false."
  },
  {
   "property": "C29",
   "status": "partial",
   "theorems": [
    "Snark.GG.C29_gg_lengths",
    "Snark.GG.C29_gg_zero_padding",
    "Snark.GG.C29_gg_generated",
    "Snark.GG.C29_gg_malformed",
    "Snark.PGHR.C29_pghr_lengths",
    "Snark.PGHR.C29_pghr_zero_padding",
    "Snark.PGHR.C29_pghr_generated",
    "Snark.PGHR.C29_pghr_malformed",
    "Snark.PGHR.C29_pghr_affine_malformed_accepted",
    "Snark.SE.C29_se_lengths",
    "Snark.SE.C29_se_weak_undefined",
    "Snark.SE.C29_se_generated",
    "Snark.SE.C29_se_malformed",
    "Snark.US.C29_uscs_lengths",
    "Snark.US.C29_uscs_short_aborts",
    "Snark.US.C29_uscs_generated",
    "Snark.US.C29_uscs_malformed"
   ],
   "note": "For r1cs_gg_ppzksnark, r1cs_ppzksnark, r1cs_se_ppzksnark, uscs_ppzksnark. Where the code deviates from the statement this is proved as such: the affine verifier of r1cs_ppzksnark skips the well-formedness check (C29_pghr_affine_malformed_accepted), the weak verifier of r1cs_se_ppzksnark is undefined on inputs of the wrong length (C29_se_weak_undefined), that of uscs_ppzksnark aborts on short inputs (C29_uscs_short_aborts)."
  },
  {
   "property": "C30",
   "status": "partial",
   "theorems": [
    "Snark.GG.C30_witness_indistinguishable",
    "Snark.GG.C30_simulatable",
    "Snark.GG.C30_unique",
    "Snark.GG.C30_abort_depends_on_witness"
   ],
   "note": "Proved for every assignment on which the prover does not abort on its assertion about the quotient; whether it aborts depends on the witness (C30_abort_depends_on_witness)."
  },
  {
   "property": "C31",
   "status": "proved",
   "theorems": [
    "Snark.PGHR.C31_completeness",
    "Snark.PGHR.C31_generator"
   ],
   "note": "C31_generator gives the exact condition under which the generator returns."
  },
  {
   "property": "C32",
   "status": "proved",
   "theorems": [
    "Snark.SE.C32_completeness"
   ],
   "note": ""
  },
  {
   "property": "C33",
   "status": "proved",
   "theorems": [
    "Snark.US.C33_completeness",
    "Snark.US.C33_generator",
    "Snark.C33_bacs_completeness",
    "Snark.C33_tbcs_completeness",
    "Snark.C33_tbcs_generator"
   ],
   "note": "Completeness is stated for runs in which the generator returns; C33_generator says exactly when it does (it aborts on every draw when an input occurs in no constraint), C33_tbcs_generator that it does for TBCS circuits."
  },
  {
   "property": "C34",
   "status": "proved",
   "theorems": [
    "Snark.Sha.C34_constants",
    "Snark.Sha.C34_soundness",
    "Snark.Sha.C34_completeness",
    "Snark.Sha.C34_constraint_count",
    "Snark.Sha.C34_two_to_one_soundness",
    "Snark.Sha.C34_two_to_one_completeness",
    "Snark.Sha.C34_block_length",
    "Snark.Sha.C34_get_hash"
   ],
   "note": "Compression function and two-to-one hash, over every field of characteristic at least 2^35 (the bound that the 35-bit sums need); the block and the chaining value are assumed Boolean, as the property says."
  },
  {
   "property": "C35",
   "status": "proved",
   "theorems": [
    "Snark.C35_read_completeness",
    "Snark.MerkleUpdate.C35_update_completeness",
    "Snark.C35_read_soundness",
    "Snark.C35_update_soundness",
    "Snark.C35_sha256_contract",
    "Snark.C35_read_binding",
    "Snark.C35_update_binding"
   ],
   "note": "For every hash gadget that meets a soundness contract, which the SHA-256 gadget (C35_sha256_contract) and the knapsack gadget (C44_merkle_contract) do. The update gadget does not itself make the new leaf Boolean, so C35_update_soundness takes that as a hypothesis. C35_read_binding and C35_update_binding tie the gadgets to the trees of C19, up to explicit collisions. C35_read_completeness: for every hash gadget with a completeness contract (C44_complete_contract) the witness of the read gadget satisfies all constraints; C35_update_completeness: so does that of the update gadget, which writes both roots."
  },
  {
   "property": "C36",
   "status": "partial",
   "theorems": [
    "Snark.C36_waksman_soundness_wide",
    "Snark.C36_waksman_soundness_partial",
    "Snark.C36_benes_soundness_partial",
    "Snark.C36_waksman_completeness",
    "Snark.C36_benes_completeness",
    "Snark.C36_waksman_duplicates_wrong",
    "Snark.C36_benes_duplicates_wrong",
    "Snark.C36_benes_wide_duplicates_wrong"
   ],
   "note": "Completeness is proved for every permutation. Soundness is proved without restriction for AS-Waksman packets that need several field elements (C36_waksman_soundness_wide) and otherwise for pairwise different input packets. For repeated packets the code is wrong: C36_waksman_duplicates_wrong, C36_benes_duplicates_wrong, C36_benes_wide_duplicates_wrong."
  },
  {
   "property": "C37",
   "status": "proved",
   "theorems": [
    "Snark.C37_encoding",
    "Snark.C37_injective",
    "Snark.C37_prelude_in_range"
   ],
   "note": "For architectures whose double word fits size_t (w at most 32) and leaves room for the fields."
  },
  {
   "property": "C38",
   "status": "proved",
   "theorems": [
    "Snark.C38_round_trip",
    "Snark.C38_memory",
    "Snark.C38_initial_state",
    "Snark.C38_overlap_differs"
   ],
   "note": "C38_overlap_differs shows that the condition on the length of the program is needed: beyond it the boot trace and initial_memory_contents disagree."
  },
  {
   "property": "C39",
   "status": "partial",
   "theorems": [
    "Snark.C39_checker_sound",
    "Snark.C39_checker_complete",
    "Snark.C39_trace",
    "Snark.C39_memory_consistent_partial",
    "Snark.C39_memory_wrong",
    "Snark.C39_initial_memory_wrong"
   ],
   "note": "The code does not enforce the property: C39_memory_wrong and C39_initial_memory_wrong are accepted assignments with an inconsistent trace. C39_trace says what acceptance does give; C39_memory_consistent_partial proves consistency from it if equal addresses go forward in time and line 0 leaves zero."
  },
  {
   "property": "C40",
   "status": "partial",
   "theorems": [
    "Snark.Serial.C40_constraint_systems",
    "Snark.Serial.C40_circuits",
    "Snark.Serial.C40_data_structures",
    "Snark.Serial.C40_r1cs_gg_ppzksnark",
    "Snark.Serial.C40_r1cs_ppzksnark",
    "Snark.Serial.C40_uscs_ppzksnark",
    "Snark.Serial.C40_circuit_ppzksnarks",
    "Snark.Serial.C40_r1cs_se_ppzksnark",
    "Snark.Serial.C40_se_proving_key_partial",
    "Snark.Serial.C40_ram_ppzksnark_partial",
    "Snark.Serial.C40_r1cs_ppzkadsnark",
    "Snark.Serial.C40_ppzkadsnark_keys_partial",
    "Snark.Serial.C40_sp_ppzkpcd",
    "Snark.Serial.C40_mp_ppzkpcd",
    "Snark.Serial.C40_ram_zksnark",
    "Snark.Serial.C40_auth_data_wrong",
    "Snark.Serial.C40_se_proving_key_wrong",
    "Snark.Serial.C40_ram_bound_key_wrong"
   ],
   "note": "Proved for all listed objects except where the code does not read back what it wrote: authenticated data of ppzkadsnark (C40_auth_data_wrong), the proving key of r1cs_se_ppzksnark in text mode (C40_se_proving_key_wrong), RAM verification keys with bound input (C40_ram_bound_key_wrong). Not modelled: the processed verification key of r1cs_sp_ppzkpcd."
  },
  {
   "property": "C41",
   "status": "proved",
   "theorems": [
    "Snark.C41_field_copy",
    "Snark.C41_field_copy_witness",
    "Snark.C41_bit_copy_sound",
    "Snark.C41_bit_copy_witness",
    "Snark.C41_linear_combination",
    "Snark.C41_linear_combination_create",
    "Snark.C41_linear_combination_witness"
   ],
   "note": "Soundness and witness generators."
  },
  {
   "property": "C42",
   "status": "proved",
   "theorems": [
    "Snark.GG.C42_gg_exact",
    "Snark.PGHR.C42_pghr_exact",
    "Snark.SE.C42_se_exact",
    "Snark.US.C42_uscs_exact"
   ],
   "note": ""
  },
  {
   "property": "C43",
   "status": "proved",
   "theorems": [
    "Snark.PGHR.C43_pghr_witness_indistinguishable",
    "Snark.PGHR.C43_pghr_simulatable",
    "Snark.SE.C43_se_witness_indistinguishable",
    "Snark.SE.C43_se_simulatable",
    "Snark.US.C43_uscs_witness_indistinguishable",
    "Snark.US.C43_uscs_simulatable"
   ],
   "note": ""
  },
  {
   "property": "C44",
   "status": "partial",
   "theorems": [
    "Snark.Knapsack.C44_field_soundness",
    "Snark.Knapsack.C44_digest_partial",
    "Snark.Knapsack.C44_digest_short_partial",
    "Snark.Knapsack.C44_digest_wrong",
    "Snark.Knapsack.C44_witness",
    "Snark.Knapsack.C44_cache",
    "Snark.Knapsack.C44_constraint_count",
    "Snark.Knapsack.C44_merkle_contract",
    "Snark.Knapsack.C44_complete_contract"
   ],
   "note": "The field output is exact. The bit output is not unique in the code: a digest and the digest plus the characteristic are both accepted when both fit (C44_digest_wrong); C44_digest_partial says what does hold, C44_digest_short_partial when it is exact."
  },
  {
   "property": "C45",
   "status": "partial",
   "theorems": [
    "Snark.C45_cpu_sound",
    "Snark.C45_cpu_complete",
    "Snark.C45_run_sound_partial",
    "Snark.C45_run_complete",
    "Snark.C45_initial_register_wrong"
   ],
   "note": "C45_run_complete and the CPU checker theorems hold in full. Soundness (C45_run_sound_partial) needs the two conditions of C39 and that the initial register is zero; C45_initial_register_wrong shows that the latter is not enforced either."
  },
  {
   "property": "C46",
   "status": "partial",
   "theorems": [
    "Snark.C46_alu_sound_partial",
    "Snark.C46_division_partial",
    "Snark.C46_shift_partial",
    "Snark.C46_alu_complete",
    "Snark.C46_udiv_accepts",
    "Snark.C46_umod_accepts",
    "Snark.C46_shl_accepts",
    "Snark.C46_shr_by_four",
    "Snark.C46_alu_counterexample"
   ],
   "note": "Sixteen of the twenty arithmetic instructions and the three jumps are exact (C46_alu_sound_partial, C46_alu_complete). The code does not enforce the property for the other four: C46_udiv_accepts, C46_umod_accepts, C46_shl_accepts give the wrong results that are accepted for every argument, C46_shr_by_four shows that even the honest prover shifts wrongly, C46_alu_counterexample is a concrete case. C46_division_partial and C46_shift_partial say what does hold for these four."
  },
  {
   "property": "C47",
   "status": "partial",
   "theorems": [
    "Snark.C47_jump_accepts",
    "Snark.C47_load_accepts",
    "Snark.C47_load_flag_accepts",
    "Snark.C47_read_flag_accepts",
    "Snark.C47_result_accepts",
    "Snark.C47_empty_tape",
    "Snark.C47_cpu_counterexample",
    "Snark.C47_cpu_made",
    "Snark.C47_cpu_sound_partial",
    "Snark.C47_cpu_complete_partial"
   ],
   "note": "The code does not enforce the property. The checker has no constraints between the three operands and their bits: C47_jump_accepts and C47_load_accepts give jumps and memory accesses to wrong addresses. C47_load_flag_accepts and C47_read_flag_accepts: the flag after a load or a read is open; C47_result_accepts: wrong results of SHL and UDIV pass through; C47_empty_tape: an initially empty tape is read as 0 without raising the flag; C47_cpu_counterexample is a concrete case. C47_cpu_sound_partial holds with the missing constraints added and the open results and flags excepted; C47_cpu_complete_partial covers all instructions but for shifts by 4 or more and the flag after a load."
  },
  {
   "property": "C48",
   "status": "partial",
   "theorems": [
    "Snark.C48_fp2_sound",
    "Snark.C48_fp3_sound",
    "Snark.C48_fp4_sound",
    "Snark.C48_fp6_sound",
    "Snark.C48_result_unique",
    "Snark.C48_fp2_linear",
    "Snark.C48_fp3_linear",
    "Snark.C48_frobenius",
    "Snark.C48_fp4_cyclotomic",
    "Snark.C48_fp6_cyclotomic",
    "Snark.C48_mul_by_2345_partial",
    "Snark.C48_mul_by_2345_counterexample",
    "Snark.C48_fp2_fp3_complete",
    "Snark.C48_fp4_complete",
    "Snark.C48_fp6_complete"
   ],
   "note": "C48_fp2_sound, C48_fp3_sound, C48_fp4_sound, C48_fp6_sound: accepted results are products and squares in any field that contains roots of the tower; C48_fp2_linear, C48_fp3_linear, C48_frobenius; C48_result_unique; C48_fp4_cyclotomic and C48_fp6_cyclotomic; C48_fp2_fp3_complete, C48_fp4_complete, C48_fp6_complete. False for Fp6_mul_by_2345_gadget: C48_mul_by_2345_counterexample shows that any second half of the result is accepted, because an auxiliary product is not constrained; C48_mul_by_2345_partial is what remains."
  },
  {
   "property": "C49",
   "status": "partial",
   "theorems": [
    "Snark.C49_digits",
    "Snark.C49_power_zero",
    "Snark.C49_fp4_sound_partial",
    "Snark.C49_fp6_sound_partial",
    "Snark.C49_fp4_cyclotomic_sound_partial",
    "Snark.C49_fp6_cyclotomic_sound_partial",
    "Snark.C49_fp4_complete",
    "Snark.C49_fp6_complete",
    "Snark.C49_fp4_cyclotomic_complete",
    "Snark.C49_fp6_cyclotomic_complete",
    "Snark.C49_zero_counterexample"
   ],
   "note": "C49_fp4_sound_partial, C49_fp6_sound_partial and the cyclotomic forms: the result is the power if the element is a unit (in the cyclotomic subgroup); C49_fp4_complete, C49_fp6_complete and the cyclotomic forms. False for the element zero: C49_zero_counterexample shows that any result is accepted as the third power of zero, and that the witness generator stops there. C49_power_zero: the exponent zero accesses an empty vector."
  },
  {
   "property": "C50",
   "status": "partial",
   "theorems": [
    "Snark.C50_g1_checker_sound",
    "Snark.C50_g1_checker_complete",
    "Snark.C50_g2_checker_sound",
    "Snark.C50_g2_checker_complete",
    "Snark.C50_add_sound",
    "Snark.C50_add_complete_partial",
    "Snark.C50_dbl_sound",
    "Snark.C50_dbl_complete_partial",
    "Snark.C50_msm_sound",
    "Snark.C50_msm_complete_partial",
    "Snark.C50_msm_incomplete",
    "Snark.C50_msm_create"
   ],
   "note": "Soundness of the checkers, sums, doubles and the multi-exponentiation is proved in full. Completeness holds outside the special cases of the affine addition law: C50_add_complete_partial, C50_dbl_complete_partial, C50_msm_complete_partial. False in those cases: C50_msm_incomplete shows that base + 0 * base has no accepted assignment for any curve; C50_g1_checker_sound shows that libff's (0, 1) for the neutral element is rejected unless b = 1; C50_msm_create: scalars of size zero make the constructor run forever (modelled as ub)."
  },
  {
   "property": "C51",
   "status": "partial",
   "theorems": [
    "Snark.C51_primary_input",
    "Snark.C51_verifier",
    "Snark.C51_bind_in_parts",
    "Snark.C51_missing_is_zero",
    "Snark.C51_missing_store_ambiguous",
    "Snark.C51_completeness_partial",
    "Snark.C51_reduction",
    "Snark.C51_end_to_end_partial",
    "Snark.C51_boot_stores",
    "Snark.C51_fooram_sound_partial"
   ],
   "note": "The theorems on the verifier, binding in parts, the primary input and the boot stores hold in full. C51_completeness_partial takes a satisfying auxiliary input as given (that the witness generator of the universal circuit computes one is not proved). C51_fooram_sound_partial needs the conditions of C45. C51_missing_store_ambiguous: a boot trace with fewer stores than the bound is indistinguishable from one that also stores 0 at address 0. C51_end_to_end_partial composes generator, prover and verifier for any run of the witness generator whose values satisfy the gadget."
  },
  {
   "property": "C52",
   "status": "proved",
   "theorems": [
    "Snark.C52_honest_algebraic",
    "Snark.C52_extraction",
    "Snark.C52_soundness",
    "Snark.C52_pghr_honest_algebraic",
    "Snark.C52_pghr_extraction",
    "Snark.C52_pghr_soundness",
    "Snark.C52_se_honest_algebraic",
    "Snark.C52_se_extraction",
    "Snark.C52_se_soundness",
    "Snark.C52_uscs_honest_algebraic",
    "Snark.C52_uscs_extraction",
    "Snark.C52_uscs_soundness"
   ],
   "note": "For r1cs_gg_ppzksnark (Groth16), r1cs_ppzksnark (PGHR13), r1cs_se_ppzksnark (GM17; characteristic not two) and uscs_ppzksnark. Only provers that are linear in the key elements with coefficients independent of the secrets; group elements from outside the keys, and for the simulation-extractable scheme provers that have seen simulated proofs, are not covered."
  },
  {
   "property": "C53",
   "status": "partial",
   "theorems": [
    "Snark.GL2.C53_polynomial_value",
    "Snark.GL2.C53_linear_value",
    "Snark.GL2.C53_linear_total",
    "Snark.GL2.C53_satisfied_sound",
    "Snark.GL2.C53_satisfied_iff_partial",
    "Snark.GL2.C53_small_field_disagrees",
    "Snark.GL2.C53_integer_overflow",
    "Snark.GL2.C53_asPolynomial",
    "Snark.GL2.C53_dual_word_partial",
    "Snark.GL2.C53_dual_word_wide"
   ],
   "note": "isSatisfied agrees with the field when the characteristic is at least 2^65 (C53_satisfied_iff_partial; soundness, C53_satisfied_sound, holds over every field); over a smaller field two machine integers are compared as integers (C53_small_field_disagrees). Evaluation over machine integers can overflow (C53_integer_overflow). Dual words are proved for values below 2^32; above, the code shifts a 32-bit 1 by 32 or more (C53_dual_word_wide)."
  },
  {
   "property": "C54",
   "status": "partial",
   "theorems": [
    "Snark.GL2.C54_comparison_sound",
    "Snark.GL2.C54_comparison_complete",
    "Snark.GL2.C54_word_array_iff",
    "Snark.GL2.C54_binary_and_sound",
    "Snark.GL2.C54_binary_and_complete",
    "Snark.GL2.C54_binary_or_sound",
    "Snark.GL2.C54_binary_or_complete",
    "Snark.GL2.C54_and_sound",
    "Snark.GL2.C54_and_complete",
    "Snark.GL2.C54_or_sound",
    "Snark.GL2.C54_or_complete",
    "Snark.GL2.C54_equals_const_sound",
    "Snark.GL2.C54_equals_const_complete",
    "Snark.GL2.C54_toggle_sound",
    "Snark.GL2.C54_toggle_complete",
    "Snark.GL2.C54_conditional_flag_sound",
    "Snark.GL2.C54_conditional_flag_complete",
    "Snark.GL2.C54_implication_iff",
    "Snark.GL2.C54_implication_complete",
    "Snark.GL2.C54_inner_product_sound",
    "Snark.GL2.C54_inner_product_complete",
    "Snark.GL2.C54_mux_sound",
    "Snark.GL2.C54_mux_complete_partial",
    "Snark.GL2.C54_mux_wide_index",
    "Snark.GL2.C54_packing_iff",
    "Snark.GL2.C54_unpack_sound",
    "Snark.GL2.C54_unpack_complete",
    "Snark.GL2.C54_pack_complete"
   ],
   "note": "The multiplexer's witness is complete for indices whose representative is below 2^64 (C54_mux_complete_partial); above, the index is truncated and the witness can violate the constraints (C54_mux_wide_index; concrete instance over the field of 2^89-1 elements in WideExample). All other gadgets are proved in both directions. Only the R1P field type; polynomial-only variants are not modelled."
  },
  {
   "property": "C55",
   "status": "proved",
   "theorems": [
    "Snark.GL2.C55_convert_iff",
    "Snark.GL2.C55_no_inputs",
    "Snark.GL2.C55_constraints_iff",
    "Snark.GL2.C55_late_variable",
    "Snark.GL2.C55_assignment",
    "Snark.GL2.C55_reset_index",
    "Snark.GL2.C55_satisfied"
   ],
   "note": "The primary input of the converted system is always empty (C55_no_inputs): Protoboard::numInputs is never set. Variables created between the two calls make the sizes disagree (C55_late_variable); a reset of the variable counter makes the assignment write outside the vector (C55_reset_index)."
  },
  {
   "property": "C56",
   "status": "proved",
   "theorems": [
    "Snark.FromR1CS.C56_create_iff",
    "Snark.FromR1CS.C56_constraints_iff",
    "Snark.FromR1CS.C56_beyond_is_one",
    "Snark.FromR1CS.C56_witness"
   ],
   "note": "The witness statement assumes distinct, non-constant variables: a repeated variable keeps only its last value. An index beyond the last variable of the system is silently read as the constant one (C56_beyond_is_one)."
  },
  {
   "property": "C57",
   "status": "proved",
   "theorems": [
    "Snark.Examples.C57_tbcs",
    "Snark.Examples.C57_bacs",
    "Snark.Examples.C57_bacs_zero",
    "Snark.Examples.C57_add_gate",
    "Snark.Examples.C57_fromProtoboard",
    "Snark.Examples.C57_fromProtoboard_small",
    "Snark.Examples.C57_blockContents",
    "Snark.Examples.C57_blockContents_fits",
    "Snark.Examples.C57_blockContents_beyond",
    "Snark.Examples.C57_randomContents",
    "Snark.Examples.C57_contents_wide",
    "Snark.Examples.C57_r1csField",
    "Snark.Examples.C57_r1csField_not_valid",
    "Snark.Examples.C57_r1csField_zero",
    "Snark.Examples.C57_r1csBinary",
    "Snark.Examples.C57_uscsBinary",
    "Snark.Examples.C57_uscsField",
    "Snark.Examples.C57_uscsField_one",
    "Snark.Examples.C57_uscsField_zero"
   ],
   "note": "A do-while over random draws is represented by the draw that ends it. R1CS examples with field inputs never pass is_valid (C57_r1csField_not_valid, a consequence of the bound in C03)."
  },
  {
   "property": "C58",
   "status": "proved",
   "theorems": [
    "Snark.AD.C58_sign",
    "Snark.AD.C58_auth_verify_sym",
    "Snark.AD.C58_auth_verify_pub",
    "Snark.AD.C58_signed_verifies",
    "Snark.AD.C58_unique_data",
    "Snark.AD.C58_sym_exact",
    "Snark.AD.C58_pub_exact",
    "Snark.AD.C58_pub_lengths",
    "Snark.AD.C58_malformed",
    "Snark.AD.C58_completeness",
    "Snark.AD.C58_data_indistinguishable",
    "Snark.AD.C58_simulatable"
   ],
   "note": "The signature scheme and the pseudo-random function enter through contracts (honest signatures verify, batch verification accepts honest batches); their unforgeability is not modelled. The number of labels is not compared with the number of inputs by the secret-key verifier: with fewer labels only a prefix of the inputs is authenticated, with more the behaviour is undefined (C58_sym_exact)."
  },
  {
   "property": "C59",
   "status": "proved",
   "theorems": [
    "Snark.PCD.Predicate.C59_well_formed",
    "Snark.PCD.Predicate.C59_equal_lengths",
    "Snark.PCD.Predicate.C59_layout",
    "Snark.PCD.Predicate.C59_is_satisfied",
    "Snark.PCD.Handler.C59_handler_well_formed",
    "Snark.PCD.Handler.C59_handler_agrees",
    "Snark.PCD.Handler.C59_handler_accepts",
    "Snark.PCD.Handler.C59_handler_witness"
   ],
   "note": "The assertions in is_satisfied compare lengths and arity; they are modelled as assertion failures, though as written (a dot on a shared pointer) that code only compiles when assertions are disabled. The handler theorems assume the layout that subclasses must establish (Laid), shown for the tally handler by layout_laid."
  },
  {
   "property": "C60",
   "status": "partial",
   "theorems": [
    "Snark.PCD.Tally.C60_accepts_partial",
    "Snark.PCD.Tally.C60_witness_complete",
    "Snark.PCD.Tally.C60_counts_ignored",
    "Snark.PCD.Tally.C60_arity_free",
    "Snark.PCD.Tally.C60_no_inputs"
   ],
   "note": "As stated the property is false of the code: the gadgets that should pack the incoming counts are given the bits of the sums (tally_cp.tcc:181), so the outgoing count is one more than the incoming sums (C60_counts_ignored); C60_accepts_partial is the exact acceptance condition. The arity wire is not tied to the messages (C60_arity_free), and a maximal arity of 0 aborts (C60_no_inputs)."
  },
  {
   "property": "C61",
   "status": "partial",
   "theorems": [
    "Snark.PCD.SpCompliance.C61_compliance_complete",
    "Snark.PCD.SpTranslation.C61_translation_complete",
    "Snark.PCD.SpSystem.C61_prover_complete",
    "Snark.PCD.SpSystem.C61_computed_accepted",
    "Snark.PCD.SpSystem.C61_accepted_history",
    "Snark.PCD.SpSystem.C61_message_padding",
    "Snark.PCD.SpSystem.C61_no_inputs",
    "Snark.PCD.SpCompliance.C61_compliance_sound",
    "Snark.PCD.SpTranslation.C61_translation_sound",
    "Snark.PCD.C61_hop"
   ],
   "note": "As stated the property is false of the code in two places: a well-formed predicate that takes no incoming messages makes the generator read the type of message 0 (C61_no_inputs), and the verifier does not check the length of the message: with the dimension 1 of the hash it cannot tell a message from the same message with zeros added (C61_message_padding). For messages of the right length and predicates with inputs the claim is proved, in terms of contracts of the SNARKs and of the gadgets that verify their proofs."
  },
  {
   "property": "C62",
   "status": "partial",
   "theorems": [
    "Snark.C62_builds",
    "Snark.C62_proof_read_back",
    "Snark.C62_member_accepted",
    "Snark.C62_unused_slot_wrong",
    "Snark.Knapsack.C62_zero_element_wrong",
    "Snark.Knapsack.C62_nonmember_wrong",
    "Snark.Knapsack.C62_knapsack_sound",
    "Snark.C62_completeness",
    "Snark.C62_soundness",
    "Snark.C62_binding_partial",
    "Snark.C62_depth_zero"
   ],
   "note": "As stated the property is false of the code: the leaves that no element occupies are strings of zeros, and the gadget accepts an element whose hash is a string of zeros although it is not in the set (C62_unused_slot_wrong); under the knapsack hash the all-zero element of any length is one (C62_zero_element_wrong, C62_nonmember_wrong). C62_binding_partial is what holds: member, collision, or a hash of zeros. With at most one entry the flag is ignored (C62_depth_zero)."
  },
  {
   "property": "C63",
   "status": "partial",
   "theorems": [
    "Snark.PCD.MpCompliance.C63_compliance_complete",
    "Snark.PCD.MpCompliance.C63_forged_commitment_wrong",
    "Snark.PCD.MpCompliance.C63_compliance_sound_partial",
    "Snark.PCD.MpCompliance.C63_committed_key",
    "Snark.PCD.MpCompliance.C63_one_predicate_sound_partial",
    "Snark.PCD.MpToy.C63_foreign_key_wrong"
   ],
   "note": "As stated the converse is false of the code: nothing makes the variables of the commitment bits, the hash gadgets and the root comparison see them through linear maps only, so a prover can use keys of a commitment of its own (C63_forged_commitment_wrong; C63_foreign_key_wrong is a complete instance). C63_compliance_sound_partial holds if the variables of the commitment hold bits; with at most one predicate the assumption is not needed (C63_one_predicate_sound_partial). C63_committed_key draws the conclusion about the key. Completeness is proved in full (C63_compliance_complete)."
  },
  {
   "property": "C64",
   "status": "partial",
   "theorems": [
    "Snark.PCD.MpSystem.C64_computed_accepted",
    "Snark.PCD.MpSystem.C64_computed_type",
    "Snark.PCD.MpSystem.C64_accepted_types",
    "Snark.PCD.MpSystem.C64_same_predicate",
    "Snark.PCD.MpSystem.C64_accepted_history_partial",
    "Snark.PCD.MpSystem.C64_one_predicate_history",
    "Snark.PCD.MpSystem.C64_verifier_index_wrong",
    "Snark.PCD.MpSystem.C64_prover_no_proofs_wrong",
    "Snark.PCD.MpSystem.C64_names",
    "Snark.PCD.MpSystem.C64_prover_complete"
   ],
   "note": "As stated the property is false of the code: the verifier reads outside its keys for a proof whose index is not that of a predicate (C64_verifier_index_wrong), and the prover reads the first incoming proof even if there is none (C64_prover_no_proofs_wrong). The converse inherits the gap of C63: C64_accepted_history_partial assumes that the assignments behind the proofs hold bits for the commitment and that all messages have one length; with one predicate the first assumption is not needed (C64_one_predicate_history). Completeness, names and types are proved in full."
  },
  {
   "property": "C65",
   "status": "partial",
   "theorems": [
    "Snark.PCD.C65_verifier_sound_partial",
    "Snark.PCD.RamPred.C65_claim_sound_partial",
    "Snark.PCD.C65_fooram_step_partial",
    "Snark.PCD.RamFoo.C65_fooram_address_wrong",
    "Snark.PCD.RamPred.C65_run_sound_partial",
    "Snark.PCD.RamPred.C65_step_sound_partial",
    "Snark.PCD.RamToy.C65_base_case_wrong",
    "Snark.PCD.RamToy.C65_zksnark_wrong"
   ],
   "note": "As stated the property is false of the code, for two reasons. A step whose incoming message has the type 0, and so needs no proof, need not be a base case, and may start from any state (C65_base_case_wrong); hence the verifier accepts proofs of false statements (C65_zksnark_wrong). The address of the memory access need not consist of bits: a step of FOORAM is accepted that reads the wrong word (C65_fooram_address_wrong). C65_step_sound_partial, C65_run_sound_partial, C65_claim_sound_partial and C65_fooram_step_partial prove the property for histories whose first step has the flag of the base case, and whose assignments hold bits for the address and the new value of the memory access; fewer than p steps. C65_verifier_sound_partial goes from an accepted proof to such a history, or to a collision of the hash of the PCD. Missing: completeness of the prover."
  },
  {
   "property": "C66",
   "status": "proved",
   "theorems": [
    "Snark.C66_fp4_complete",
    "Snark.C66_fp6_complete",
    "Snark.C66_fp4_sound",
    "Snark.C66_fp6_sound",
    "Snark.C66_flag_zero"
   ],
   "note": "Soundness and completeness are proved for both gadgets (C66_fp4_sound, C66_fp6_sound, C66_fp4_complete, C66_fp6_complete). The constants of the curve are parameters, with the residue conditions and the equation between the chunks and the exponent as hypotheses; the Frobenius tables are those of C48. The flag is checked in one direction only: the constraints on it hold with the flag 0 whatever the result is (C66_flag_zero), which is all the code claims."
  }
 ]
}