{"id": "C01", "title": "Linear-combination arithmetic is linear", "statement": "Evaluating a linear combination built with the public arithmetic (term/variable construction, +, -, scalar *, unary -, add_term, the normalising constructor from a term list) gives exactly the field value the written expression denotes, under every assignment that covers its variables.", "quantifier": "all fields, all expressions over variables/constants, all assignments long enough for the indices used", "why_tests_cant": "Infinitely many expressions and assignments; operator+ is a sorted merge whose interleavings (equal heads, exhausted tails, unsorted operands) cannot be enumerated.", "anchors": ["libsnark/relations/variable.hpp", "libsnark/relations/variable.tcc: linear_combination::evaluate/operator+/operator-/operator*/add_term/ctor(vector), variable::operator+"]}
{"id": "C02", "title": "Normal form of linear combinations", "statement": "The constructor from an arbitrary term list returns strictly increasing variable indices with each index's coefficients summed, and +, -, * of such normal-form combinations stay in normal form, so structural equality of indices is meaningful and is_valid's sortedness test never fails on them.", "quantifier": "all term lists (any order, any duplication), all pairs of normal-form combinations", "why_tests_cant": "Quantifies over all permutations/duplications of term lists; a test only sees a few.", "anchors": ["libsnark/relations/variable.tcc: linear_combination(std::vector<linear_term>), operator+, is_valid"]}
{"id": "C03", "title": "is_valid guarantees safe evaluation", "statement": "If a linear combination / constraint system passes is_valid for n variables then evaluating it on any assignment of length n never reads outside the assignment; and every normal-form system that only mentions declared variables should be accepted.", "quantifier": "all constraint systems, all sizes, all assignments of the declared length", "why_tests_cant": "Out-of-bounds reads depend on every index of every constraint; absence for all systems is a universal claim, and a boundary mistake shows only at one exact index.", "anchors": ["libsnark/relations/variable.tcc: linear_combination::is_valid", "libsnark/relations/constraint_satisfaction_problems/r1cs/r1cs.tcc: is_valid"]}
{"id": "C04", "title": "R1CS satisfaction and A/B swap", "statement": "r1cs_constraint_system::is_satisfied accepts exactly the assignments for which <a_i,z><b_i,z>=<c_i,z> for every constraint, and swap_AB_if_beneficial never changes which assignments satisfy the system.", "quantifier": "all R1CS instances, all primary/auxiliary assignments of the declared sizes", "why_tests_cant": "Universal over systems and assignments.", "anchors": ["libsnark/relations/constraint_satisfaction_problems/r1cs/r1cs.tcc: is_satisfied, swap_AB_if_beneficial"]}
{"id": "C05", "title": "Arithmetic-circuit evaluation", "statement": "For every valid bilinear circuit, get_all_wires extends the given inputs by exactly one value per gate, each equal to lhs*rhs evaluated on earlier wires, this extension is unique, and is_satisfied says yes iff every gate flagged as circuit output evaluates to zero.", "quantifier": "all valid BACS circuits, all inputs of the declared sizes", "why_tests_cant": "Universal over circuits of any size and all inputs.", "anchors": ["libsnark/relations/circuit_satisfaction_problems/bacs/bacs.tcc: get_all_wires, get_all_outputs, is_satisfied, is_valid, add_gate"]}
{"id": "C06", "title": "BACS to R1CS reduction is sound and complete", "statement": "For every valid circuit C and inputs: C is satisfied by (x,w) iff the reduced constraint system is satisfied by x and the mapped witness; and every assignment satisfying the reduced system with primary input x is the witness map of its first |w| auxiliary values, so C(x,w) is satisfied.", "quantifier": "all valid BACS circuits, all primary inputs, all (also adversarial) auxiliary assignments", "why_tests_cant": "Soundness quantifies over adversarial assignments, which no finite test covers.", "anchors": ["libsnark/reductions/bacs_to_r1cs/bacs_to_r1cs.tcc"]}
{"id": "C07", "title": "Boolean gate gadget table", "statement": "For each of the 16 two-input Boolean gates the affine form emitted by the TBCS to USCS reduction squares to one on Boolean wires exactly when output = gate(x,y).", "quantifier": "all 16 gate types, all fields of admissible characteristic, all Boolean wire values (and, for soundness, arbitrary field values of the output wire)", "why_tests_cant": "Unit tests fix one field and random circuits; whether each row is right in every field, including small or adversarial values, is a universal claim.", "anchors": ["libsnark/reductions/tbcs_to_uscs/tbcs_to_uscs.tcc", "libsnark/relations/circuit_satisfaction_problems/tbcs/tbcs.cpp: tbcs_gate::evaluate"]}
{"id": "C08", "title": "TBCS to USCS reduction is sound and complete", "statement": "A Boolean circuit is satisfied by (x,w) iff the reduced USCS is satisfied by x with the mapped witness, and any assignment satisfying the reduced USCS with Boolean-valued semantics encodes a satisfying Boolean witness.", "quantifier": "all valid TBCS circuits, all inputs, all adversarial USCS assignments, all fields of admissible characteristic", "why_tests_cant": "Adversarial assignments over a large field are not enumerable.", "anchors": ["libsnark/reductions/tbcs_to_uscs/tbcs_to_uscs.tcc", "libsnark/relations/circuit_satisfaction_problems/tbcs/tbcs.cpp"]}
{"id": "C09", "title": "R1CS to QAP: satisfaction is divisibility", "statement": "For every R1CS and assignment with constant-one wire: the assignment satisfies the R1CS iff the QAP identity A(X)B(X)-C(X) = H(X)Z(X) holds for some H; when it does, the witness map's H makes the evaluated QAP check succeed at every point t, and when it does not, no H of the allowed degree passes the check at more than a bounded number of points.", "quantifier": "all R1CS instances, all assignments, all evaluation points, all domains meeting the evaluation-domain contract", "why_tests_cant": "Polynomial identities over all instances; tests try random small instances.", "anchors": ["libsnark/reductions/r1cs_to_qap/r1cs_to_qap.tcc", "libsnark/relations/arithmetic_programs/qap/qap.tcc"]}
{"id": "C10", "title": "QAP instance evaluation agrees with QAP instance", "statement": "r1cs_to_qap_instance_map_with_evaluation at t yields exactly the evaluations at t of the interpolation of r1cs_to_qap_instance_map's columns, and the powers of t and Z(t) it reports are the right ones.", "quantifier": "all R1CS, all t (including points of the domain)", "why_tests_cant": "Universal over systems and t.", "anchors": ["libsnark/reductions/r1cs_to_qap/r1cs_to_qap.tcc: r1cs_to_qap_instance_map, r1cs_to_qap_instance_map_with_evaluation"]}
{"id": "C11", "title": "QAP witness stays valid under zero-knowledge blinding", "statement": "For every choice of blinding values d1,d2,d3 the witness map's H coefficients satisfy (A+d1 Z)(B+d2 Z)-(C+d3 Z) = H Z, with H of degree at most the domain size, so a satisfied R1CS yields an accepted QAP witness for every randomness.", "quantifier": "all R1CS, satisfying assignments, all d1,d2,d3", "why_tests_cant": "All randomness values must work; tests sample.", "anchors": ["libsnark/reductions/r1cs_to_qap/r1cs_to_qap.tcc: r1cs_to_qap_witness_map"]}
{"id": "C12", "title": "R1CS to SAP reduction is sound and complete", "statement": "The square arithmetic program built from an R1CS is satisfied (for the extended assignment) iff the R1CS is, for every blinding value.", "quantifier": "all R1CS, all assignments, all d1,d2, fields of characteristic other than 2", "why_tests_cant": "Universal over systems and adversarial extended assignments.", "anchors": ["libsnark/reductions/r1cs_to_sap/r1cs_to_sap.tcc", "libsnark/relations/arithmetic_programs/sap/sap.tcc"]}
{"id": "C13", "title": "USCS to SSP reduction is sound and complete", "statement": "A USCS assignment satisfies all unitary-square constraints iff V(X)^2-1 = H(X)Z(X) for the SSP built from it; the witness map finds H for every blinding value d, padding rows of the domain notwithstanding.", "quantifier": "all USCS, all assignments, all d, all domain sizes >= number of constraints", "why_tests_cant": "Universal over systems and domain paddings.", "anchors": ["libsnark/reductions/uscs_to_ssp/uscs_to_ssp.tcc", "libsnark/relations/arithmetic_programs/ssp/ssp.tcc"]}
{"id": "C14", "title": "Sparse vectors behave as the partial map they denote", "statement": "operator[] on a sparse vector returns the stored value at stored indices and zero elsewhere; equality of sparse vectors (with each other and with dense vectors) coincides with equality of the denoted maps; is_valid accepts exactly well-formed vectors.", "quantifier": "all sparse vectors, all indices, all dense vectors", "why_tests_cant": "Universal over contents and index gaps.", "anchors": ["libsnark/common/data_structures/sparse_vector.tcc"]}
{"id": "C15", "title": "Accumulation is the partial inner product", "statement": "Accumulating scalars into a sparse/accumulation vector at a given offset returns the inner product over the covered stored indices plus the residual vector; accumulating an input in any number of chunks gives the same value as accumulating it at once.", "quantifier": "all vectors, all offsets, all chunkings of the input", "why_tests_cant": "All chunk boundaries and all index-gap patterns; the blocking optimisation has data-dependent branches.", "anchors": ["libsnark/common/data_structures/sparse_vector.tcc: accumulate", "libsnark/common/data_structures/accumulation_vector.tcc: accumulate_chunk"]}
{"id": "C16", "title": "Integer permutations", "statement": "is_valid accepts exactly bijections of [min,max]; inverse of a valid permutation is a valid two-sided inverse; slice of a closed range is a permutation; set changes exactly one image; rearranging the contents (next_permutation, random_shuffle) keeps validity; next_permutation goes to the next permutation in lexicographic order, so that a loop over it from the identity visits every permutation of the range exactly once and ends at the identity.", "quantifier": "all ranges, all contents", "why_tests_cant": "Universal over sizes and contents.", "anchors": ["libsnark/common/data_structures/integer_permutation.cpp"]}
{"id": "C17", "title": "Benes routing realises every permutation", "statement": "For every power-of-two packet count and every permutation, get_benes_routing returns switch settings such that routing the packets through the network delivers packet p to position pi(p), and valid_benes_routing accepts it.", "quantifier": "all n = 2^k, all permutations of n elements", "why_tests_cant": "n! permutations for unbounded n.", "anchors": ["libsnark/common/routing_algorithms/benes_routing_algorithm.cpp"]}
{"id": "C18", "title": "AS-Waksman routing realises every permutation", "statement": "For every number of packets N>=2 and every permutation the topology generated for N together with get_as_waksman_routing's switch settings routes packet i to position pi(i); valid_as_waksman_routing accepts it.", "quantifier": "all N >= 2 (odd and even), all permutations", "why_tests_cant": "N! permutations for unbounded N; asymmetric splits at every level.", "anchors": ["libsnark/common/routing_algorithms/as_waksman_routing_algorithm.cpp"]}
{"id": "C19", "title": "Merkle tree map semantics, root and authentication paths", "statement": "After any sequence of set_value calls on in-range addresses: get_value returns the last value written (or the default), get_root equals the hash of the complete tree over the current leaf contents, and get_path of any address authenticates the current leaf value to the current root.", "quantifier": "all depths, all histories of writes, all addresses, all hash functions", "why_tests_cant": "All histories.", "anchors": ["libsnark/common/data_structures/merkle_tree.tcc"]}
{"id": "C20", "title": "Set commitment accumulator", "statement": "After any history of add calls within capacity, is_in_set answers membership exactly, and every added element gets a membership proof that verifies against the current commitment (even after later additions).", "quantifier": "all add histories up to capacity, all hash functions", "why_tests_cant": "All histories; duplicates; capacity boundary.", "anchors": ["libsnark/common/data_structures/set_commitment.tcc"]}
{"id": "C21", "title": "Random-access memory backends agree with a map", "statement": "ra_memory (and the delegated, Merkle-authenticated memory for values fitting value_size bits) returns for every address the last value written there, or the initial content, after any history.", "quantifier": "all histories of reads/writes, all address/value sizes", "why_tests_cant": "All histories.", "anchors": ["libsnark/relations/ram_computations/memory/ra_memory.cpp", "libsnark/relations/ram_computations/memory/delegated_ra_memory.tcc", "libsnark/relations/ram_computations/memory/memory_store_trace.cpp"]}
{"id": "C22", "title": "Knowledge-commitment batch and multi-exponentiation", "statement": "kc_batch_exp returns the same sparse vector of commitments for every chunk count (so for every parallel schedule): exactly the nonzero positions in order with their commitments; kc_multi_exp_with_mixed_addition over an index range equals the plain sum of scalar multiples.", "quantifier": "all scalar vectors, all chunk counts/schedules, all ranges", "why_tests_cant": "Schedules/chunk counts and sparsity patterns are unbounded.", "anchors": ["libsnark/knowledge_commitment/kc_multiexp.tcc", "libsnark/knowledge_commitment/knowledge_commitment.tcc"]}
{"id": "C23", "title": "Protoboard bookkeeping", "statement": "Over any sequence of allocations, constraint additions and value assignments: allocated indices are fresh, pairwise distinct and nonzero; reading back a variable gives the last value written; primary/auxiliary split loses nothing; is_satisfied agrees with R1CS satisfaction of the full assignment.", "quantifier": "all operation sequences", "why_tests_cant": "All histories of protoboard operations.", "anchors": ["libsnark/gadgetlib1/protoboard.tcc", "libsnark/gadgetlib1/pb_variable.tcc"]}
{"id": "C24", "title": "Bit (un)packing gadgets", "statement": "packing_gadget with bitness enforced accepts exactly (bits, packed) with Boolean bits and packed = sum 2^i bits_i; if 2^n does not exceed the field characteristic, bits are uniquely determined; both witness generators produce accepted assignments whenever the value fits; multipacking does so chunkwise.", "quantifier": "all fields, bit lengths, chunk sizes, adversarial assignments", "why_tests_cant": "Soundness is over all assignments of a large field.", "anchors": ["libsnark/gadgetlib1/gadgets/basic_gadgets.tcc: packing_gadget, multipacking_gadget", "libsnark/gadgetlib1/pb_variable.tcc"]}
{"id": "C25", "title": "Comparison gadget", "statement": "For A,B < 2^n and field characteristic > 2^(n+1) the comparison gadget's constraints force less = [A<B] and less_or_eq = [A<=B], and its witness generator satisfies them.", "quantifier": "all n, all fields large enough, all A,B in range, adversarial assignments", "why_tests_cant": "Soundness over all assignments.", "anchors": ["libsnark/gadgetlib1/gadgets/basic_gadgets.tcc: comparison_gadget"]}
{"id": "C26", "title": "Disjunction and conjunction gadgets", "statement": "On Boolean inputs with fewer inputs than the characteristic, disjunction/conjunction constraints force a Boolean output to equal OR/AND of the inputs; witnesses satisfy.", "quantifier": "all numbers of inputs, all fields, adversarial assignments", "why_tests_cant": "Soundness over all assignments and sizes (wrap-around when the count reaches the characteristic).", "anchors": ["libsnark/gadgetlib1/gadgets/basic_gadgets.tcc: disjunction_gadget, conjunction_gadget"]}
{"id": "C27", "title": "Inner product and multiplexing gadgets", "statement": "inner_product_gadget forces result = <A,B>; loose_multiplexing_gadget forces result = arr[index] and success = 1 when the index is in range with success set, and success = 0 when out of range; witnesses satisfy.", "quantifier": "all lengths, fields, adversarial assignments", "why_tests_cant": "Soundness over all assignments.", "anchors": ["libsnark/gadgetlib1/gadgets/basic_gadgets.tcc: inner_product_gadget, loose_multiplexing_gadget"]}
{"id": "C28", "title": "Groth16-style SNARK completeness", "statement": "For every R1CS, satisfying assignment, setup randomness and prover randomness, the generated proof is accepted by the weak and strong input-consistency verifiers, online and offline.", "quantifier": "all R1CS, satisfying inputs, all generator and prover randomness, all bilinear groups", "why_tests_cant": "Randomness and instances unbounded.", "anchors": ["libsnark/zk_proof_systems/ppzksnark/r1cs_gg_ppzksnark/r1cs_gg_ppzksnark.tcc"]}
{"id": "C29", "title": "Verifier input-length consistency", "statement": "The strong-IC verifier rejects every proof when the number of primary inputs differs from the key's, the weak one never accepts when it is larger; when the length is right strong and weak agree, weak treats missing inputs as zeros, the offline verifier equals process-then-online, and no verifier accepts a proof with an element that is not well-formed.", "quantifier": "all keys, inputs, proofs (also malformed)", "why_tests_cant": "Adversarial proofs/inputs.", "anchors": ["libsnark/zk_proof_systems/ppzksnark/r1cs_gg_ppzksnark/r1cs_gg_ppzksnark.tcc: verifiers", "libsnark/zk_proof_systems/ppzksnark/r1cs_ppzksnark/r1cs_ppzksnark.tcc"]}
{"id": "C30", "title": "Zero knowledge of the Groth16-style prover", "statement": "For a fixed key and statement, the map from prover randomness (r,s) to proofs is such that the proof distribution is the same for any two witnesses: (A,B) are uniform and C is the unique element accepted, hence simulatable from the trapdoor without a witness.", "quantifier": "all keys with nonzero delta, all pairs of satisfying witnesses", "why_tests_cant": "A statement about distributions over all randomness.", "anchors": ["libsnark/zk_proof_systems/ppzksnark/r1cs_gg_ppzksnark/r1cs_gg_ppzksnark.tcc: prover"]}
{"id": "C31", "title": "PGHR13-style SNARK completeness", "statement": "Whenever the generator returns, honest proofs of r1cs_ppzksnark verify for every system, satisfying assignment and randomness; the generator aborts only if the polynomial of an input vanishes at the drawn point, which at most (n+1)*m points do.", "quantifier": "all R1CS, assignments, randomness", "why_tests_cant": "Unbounded instances and randomness.", "anchors": ["libsnark/zk_proof_systems/ppzksnark/r1cs_ppzksnark/r1cs_ppzksnark.tcc"]}
{"id": "C32", "title": "Simulation-extractable SNARK completeness", "statement": "Honest proofs of r1cs_se_ppzksnark verify for every system, satisfying assignment and randomness.", "quantifier": "all R1CS, assignments, randomness", "why_tests_cant": "Unbounded instances and randomness.", "anchors": ["libsnark/zk_proof_systems/ppzksnark/r1cs_se_ppzksnark/r1cs_se_ppzksnark.tcc"]}
{"id": "C33", "title": "USCS SNARK completeness, and circuit-level wrappers", "statement": "Honest proofs of uscs_ppzksnark verify for every USCS and satisfying assignment; BACS and TBCS front ends therefore accept every honest proof of a satisfied circuit.", "quantifier": "all systems/circuits, inputs, randomness", "why_tests_cant": "Unbounded instances and randomness.", "anchors": ["libsnark/zk_proof_systems/ppzksnark/uscs_ppzksnark/uscs_ppzksnark.tcc", "libsnark/zk_proof_systems/ppzksnark/bacs_ppzksnark/bacs_ppzksnark.tcc", "libsnark/zk_proof_systems/ppzksnark/tbcs_ppzksnark/tbcs_ppzksnark.tcc"]}
{"id": "C34", "title": "SHA-256 compression gadget", "statement": "The constraints of the SHA-256 compression gadget force the output digest bits to equal the FIPS 180-4 compression of the input block and chaining value, for every Boolean input, and the witness generator satisfies them.", "quantifier": "all 512-bit blocks and 256-bit chaining values, all prime fields large enough, adversarial assignments", "why_tests_cant": "2^768 inputs and adversarial witnesses.", "anchors": ["libsnark/gadgetlib1/gadgets/hashes/sha256/sha256_components.tcc", "libsnark/gadgetlib1/gadgets/hashes/sha256/sha256_gadget.tcc", "libsnark/gadgetlib1/gadgets/hashes/sha256/sha256_aux.tcc"]}
{"id": "C35", "title": "Merkle authentication gadgets", "statement": "The Merkle read gadget accepts (leaf, root, address, path) only if hashing up the path from the leaf in the order given by the address bits gives the root; the update gadget additionally ties the new leaf to the new root along the same path.", "quantifier": "all depths, addresses, hash gadgets, adversarial assignments", "why_tests_cant": "Adversarial witnesses.", "anchors": ["libsnark/gadgetlib1/gadgets/merkle_tree/merkle_tree_check_read_gadget.tcc", "libsnark/gadgetlib1/gadgets/merkle_tree/merkle_tree_check_update_gadget.tcc"]}
{"id": "C36", "title": "Routing-network gadgets", "statement": "Any assignment satisfying the Benes / AS-Waksman routing gadget constraints makes the output packets a permutation of the input packets; and for every permutation the witness generator satisfies the constraints with that permutation.", "quantifier": "all packet counts, permutations, adversarial assignments", "why_tests_cant": "Adversarial switch settings; N! permutations.", "anchors": ["libsnark/gadgetlib1/gadgets/routing/as_waksman_routing_gadget.tcc", "libsnark/gadgetlib1/gadgets/routing/benes_routing_gadget.tcc"]}
{"id": "C37", "title": "TinyRAM instruction encoding", "statement": "as_dword packs opcode, immediate flag, register indices and operand injectively into a double word, at the bit positions from which the CPU checker decodes them.", "quantifier": "all architectures (w,k) that fit, all instructions with in-range fields", "why_tests_cant": "Universal over widths and operands.", "anchors": ["libsnark/relations/ram_computations/rams/tinyram/tinyram_aux.cpp: tinyram_instruction::as_dword"]}
{"id": "C38", "title": "TinyRAM boot trace round-trip", "statement": "The primary input recovered from a boot trace is the input the trace was built from, and the memory contents the boot trace denotes equal initial_memory_contents.", "quantifier": "all architectures (w,k) that fit, all programs that end below the input area, all input tapes of words that fit the memory, all adequate bounds", "why_tests_cant": "All tape lengths (odd/even packing).", "anchors": ["libsnark/relations/ram_computations/rams/tinyram/tinyram_aux.cpp: tinyram_boot_trace_from_program_and_input, primary_input_from_boot_trace, initial_memory_contents"]}
{"id": "C39", "title": "RAM memory-consistency checker", "statement": "If the memory checkers accept every (line, permuted line) pair of an execution trace then each load returns the value most recently stored at that address (zero initially).", "quantifier": "all traces, all permutations, adversarial assignments", "why_tests_cant": "Adversarial traces.", "anchors": ["libsnark/reductions/ram_to_r1cs/gadgets/memory_checker_gadget.tcc", "libsnark/reductions/ram_to_r1cs/gadgets/ram_universal_gadget.tcc"]}
{"id": "C40", "title": "Serialization round-trips", "statement": "Writing and reading back linear combinations, constraint systems, sparse and accumulation vectors, circuits, compliance predicates, and the keys and proofs of all proof systems returns the original object and leaves the rest of the stream untouched, in text and in binary mode.", "quantifier": "all objects whose sizes fit size_t, all stream continuations, both output modes, all element formats that are read back when white space follows", "why_tests_cant": "All objects and all trailing stream contents.", "anchors": ["libsnark/relations/variable.tcc: operator<< / operator>>", "libsnark/relations/constraint_satisfaction_problems/r1cs/r1cs.tcc", "libsnark/common/data_structures/sparse_vector.tcc", "libsnark/common/data_structures/accumulation_vector.tcc", "libsnark/zk_proof_systems/ppzksnark/r1cs_gg_ppzksnark/r1cs_gg_ppzksnark.tcc", "libsnark/zk_proof_systems/ppzksnark/r1cs_ppzksnark/r1cs_ppzksnark.tcc", "libsnark/zk_proof_systems/ppzksnark/r1cs_se_ppzksnark/r1cs_se_ppzksnark.tcc", "libsnark/zk_proof_systems/ppzksnark/uscs_ppzksnark/uscs_ppzksnark.tcc", "libsnark/zk_proof_systems/ppzksnark/ram_ppzksnark/ram_ppzksnark.tcc", "libsnark/zk_proof_systems/ppzkadsnark/r1cs_ppzkadsnark/r1cs_ppzkadsnark.tcc", "libsnark/zk_proof_systems/pcd/r1cs_pcd/compliance_predicate/compliance_predicate.tcc", "libsnark/zk_proof_systems/pcd/r1cs_pcd/r1cs_sp_ppzkpcd/r1cs_sp_ppzkpcd.tcc", "libsnark/zk_proof_systems/pcd/r1cs_pcd/r1cs_mp_ppzkpcd/r1cs_mp_ppzkpcd.tcc"]}
{"id": "C41", "title": "Copying and linear-combination gadgets", "statement": "field_vector_copy_gadget accepts exactly the assignments in which do_copy is zero or target equals source; bit_vector_copy_gadget (bitness enforced, chunks below the characteristic) forces equal bits when do_copy is set; the linear-combination constraints accept exactly target = base + sum of scaled vectors; the witness generators produce accepted assignments and change nothing but the target.", "quantifier": "all lengths, chunk sizes, fields, adversarial assignments", "why_tests_cant": "Soundness ranges over every assignment a malicious prover may choose.", "anchors": ["libsnark/gadgetlib1/gadgets/basic_gadgets.tcc: field_vector_copy_gadget, bit_vector_copy_gadget, create_linear_combination_constraints, create_linear_combination_witness"]}
{"id": "C42", "title": "The verifiers decide exactly the published pairing equations", "statement": "For every key in the form the generator makes, input and proof consisting of curve points, each verifier of a proof system returns, and accepts exactly if the pairing equations of the protocol hold for the linear combination of the key's query with the public input (and, for the strong verifiers, the length is right): no equation is missing, none is tested with wrong arguments.", "quantifier": "all verification keys, inputs and proofs, honest or adversarial", "why_tests_cant": "A dropped or permuted check is invisible to tests with honest proofs; only quantification over adversarial proofs shows it.", "anchors": ["libsnark/zk_proof_systems/ppzksnark/r1cs_gg_ppzksnark/r1cs_gg_ppzksnark.tcc: verifiers", "libsnark/zk_proof_systems/ppzksnark/r1cs_ppzksnark/r1cs_ppzksnark.tcc: verifiers", "libsnark/zk_proof_systems/ppzksnark/r1cs_se_ppzksnark/r1cs_se_ppzksnark.tcc: verifiers", "libsnark/zk_proof_systems/ppzksnark/uscs_ppzksnark/uscs_ppzksnark.tcc: verifiers"]}
{"id": "C43", "title": "Zero knowledge of the other provers", "statement": "For r1cs_ppzksnark, r1cs_se_ppzksnark and uscs_ppzksnark, for keys whose secret point is not in the evaluation domain, the distribution of proofs over uniform prover randomness is the same for any two satisfying assignments with the same public input, and equals that of a simulator that has the trapdoor but no witness.", "quantifier": "all systems, keys, public inputs and pairs of satisfying assignments", "why_tests_cant": "A statement about distributions over all randomness.", "anchors": ["libsnark/zk_proof_systems/ppzksnark/r1cs_ppzksnark/r1cs_ppzksnark.tcc: prover", "libsnark/zk_proof_systems/ppzksnark/r1cs_se_ppzksnark/r1cs_se_ppzksnark.tcc: prover", "libsnark/zk_proof_systems/ppzksnark/uscs_ppzksnark/uscs_ppzksnark.tcc: prover"]}
{"id": "C44", "title": "Knapsack hash gadgets", "statement": "The knapsack gadget with field output accepts exactly the outputs equal to the matrix-vector product of the cached coefficients with the input bits; the gadget with bit output accepts exactly one digest for every input, the one that get_hash computes, and its witness generator produces it.", "quantifier": "all fields, dimensions, input lengths, adversarial assignments", "why_tests_cant": "Soundness ranges over every assignment a malicious prover may choose; a second accepted digest never shows up with honest witnesses.", "anchors": ["libsnark/gadgetlib1/gadgets/hashes/knapsack/knapsack_gadget.tcc"]}
{"id": "C45", "title": "The circuit of the FOORAM machine accepts exactly its runs", "statement": "For every boot trace and number of steps, the universal gadget with the FOORAM CPU accepts an assignment whose trace lines are the accesses of the machine's run on the booted memory, starting with program counter and register zero; and every assignment it accepts is one of these. The CPU checker accepts exactly the words of one step and its witness generators compute them.", "quantifier": "all word sizes, boot traces, step counts, fields large enough, adversarial assignments", "why_tests_cant": "Soundness ranges over every assignment a malicious prover may choose; completeness over all programs.", "anchors": ["libsnark/gadgetlib1/gadgets/cpu_checkers/fooram/fooram_cpu_checker.tcc", "libsnark/gadgetlib1/gadgets/cpu_checkers/fooram/components/bar_gadget.tcc", "libsnark/relations/ram_computations/rams/fooram/fooram_aux.cpp", "libsnark/reductions/ram_to_r1cs/gadgets/ram_universal_gadget.tcc"]}
{"id": "C46", "title": "The TinyRAM arithmetic-logic unit accepts exactly the results of the instruction set", "statement": "For arguments that are words of w bits, the constraints of ALU_gadget accept, for every arithmetic and jump instruction, only the result and the flag that the TinyRAM specification prescribes; and the witness generator computes an accepted assignment with these results, changing nothing else.", "quantifier": "all word sizes, arguments, flags, program counters, fields of sufficient size, adversarial assignments", "why_tests_cant": "Soundness ranges over every assignment a malicious prover may choose; honest tests never try another result.", "anchors": ["libsnark/gadgetlib1/gadgets/cpu_checkers/tinyram/components/alu_arithmetic.tcc: all ALU_*_gadget", "libsnark/gadgetlib1/gadgets/cpu_checkers/tinyram/components/alu_control_flow.tcc: ALU_jmp_gadget, ALU_cjmp_gadget, ALU_cnjmp_gadget", "libsnark/gadgetlib1/gadgets/cpu_checkers/tinyram/components/alu_gadget.hpp: ALU_gadget", "libsnark/gadgetlib1/gadgets/cpu_checkers/tinyram/components/alu_gadget.tcc"]}
{"id": "C47", "title": "The TinyRAM CPU checker accepts exactly one step of the machine", "statement": "If the constraints of tinyram_cpu_checker are satisfied and its ports hold an instruction, a state and the double word at the accessed address, then the ports after the step hold the program counter, registers, flag and double word that the TinyRAM instruction set prescribes, the accessed address is the one of the operand, and acceptance means that the instruction is ANSWER 0; and for every state, instruction and tape the witness generators compute such an assignment.", "quantifier": "all word sizes, numbers of registers, instructions, states, memory contents, tapes, fields of sufficient size, adversarial assignments", "why_tests_cant": "Soundness ranges over every assignment a malicious prover may choose; the tests only run the honest prover on sample programs.", "anchors": ["libsnark/gadgetlib1/gadgets/cpu_checkers/tinyram/tinyram_cpu_checker.tcc: tinyram_cpu_checker", "libsnark/gadgetlib1/gadgets/cpu_checkers/tinyram/components/argument_decoder_gadget.tcc", "libsnark/gadgetlib1/gadgets/cpu_checkers/tinyram/components/consistency_enforcer_gadget.tcc", "libsnark/gadgetlib1/gadgets/cpu_checkers/tinyram/components/memory_masking_gadget.tcc", "libsnark/gadgetlib1/gadgets/cpu_checkers/tinyram/components/word_variable_gadget.hpp", "libsnark/gadgetlib1/gadgets/cpu_checkers/tinyram/components/tinyram_protoboard.tcc"]}
{"id": "C48", "title": "Extension-field gadgets compute the operations of the tower", "statement": "For the gadgets of the quadratic, cubic, quartic and sextic extensions, an accepted assignment has a result whose coordinates are those of the product, square, scalar multiple, sum or Frobenius image of the arguments; the result is determined by the arguments; and the witness generators compute accepted assignments. The cyclotomic squarings do so for elements of the cyclotomic subgroup.", "quantifier": "all base fields of suitable characteristic, non-residues, arguments, adversarial assignments", "why_tests_cant": "Soundness ranges over every assignment a malicious prover may choose; an unconstrained coordinate never shows up with honest witnesses.", "anchors": ["libsnark/gadgetlib1/gadgets/fields/fp2_gadgets.tcc", "libsnark/gadgetlib1/gadgets/fields/fp3_gadgets.tcc", "libsnark/gadgetlib1/gadgets/fields/fp4_gadgets.tcc", "libsnark/gadgetlib1/gadgets/fields/fp6_gadgets.tcc"]}
{"id": "C49", "title": "The exponentiation gadget computes powers", "statement": "For every positive exponent and signed-digit expansion of it, an assignment that exponentiation_gadget accepts has as its result the power of the element in the extension field, with the ordinary squaring gadgets for every element and with the cyclotomic ones for elements of the cyclotomic subgroup; and the witness generator computes an accepted assignment with that result, changing nothing but the result and its own variables.", "quantifier": "all exponents, digit expansions, elements, base fields of suitable characteristic, adversarial assignments", "why_tests_cant": "Soundness ranges over every assignment a malicious prover may choose, and over all exponents.", "anchors": ["libsnark/gadgetlib1/gadgets/fields/exponentiation_gadget.tcc: exponentiation_gadget", "libsnark/gadgetlib1/gadgets/fields/fp4_gadgets.tcc: Fp4_mul_gadget, Fp4_sqr_gadget, Fp4_cyclotomic_sqr_gadget", "libsnark/gadgetlib1/gadgets/fields/fp6_gadgets.tcc: Fp6_mul_gadget, Fp6_sqr_gadget, Fp6_cyclotomic_sqr_gadget"]}
{"id": "C50", "title": "Curve gadgets check and compute points of the curve", "statement": "An assignment accepted by the checkers satisfies the curve equation, over the base field for G1 and over the extension for G2; an accepted sum or double is the sum or double of the group law; an accepted multi-exponentiation is base + sum of k_i * P_i for the numbers whose bits the scalars are. For every such input whose result exists, the witness generators compute an accepted assignment.", "quantifier": "all base fields of odd characteristic, curves, points, numbers of points, scalar sizes, adversarial assignments", "why_tests_cant": "Soundness ranges over every assignment a malicious prover may choose; the special cases of the addition law never occur with random points.", "anchors": ["libsnark/gadgetlib1/gadgets/curves/weierstrass_g1_gadget.tcc: G1_checker_gadget, G1_add_gadget, G1_dbl_gadget, G1_multiscalar_mul_gadget", "libsnark/gadgetlib1/gadgets/curves/weierstrass_g2_gadget.tcc: G2_checker_gadget"]}
{"id": "C51", "title": "The RAM proof system verifies exactly the packed boot trace", "statement": "For every verification key made by the generator, every boot trace and every proof, the verdict of the RAM verifier is the verdict of the underlying R1CS verifier on the boot trace packed into field elements; the boot trace may be bound in parts and in any order, and a position that is repeated or out of range aborts. Every assignment satisfying the generated constraint system for that input starts with the stores of the boot trace (and, for FOORAM, is the run of the machine), and a proof made from a satisfying auxiliary input is accepted.", "quantifier": "all RAM types, field capacities, bounds, boot traces, splittings, proofs, adversarial assignments", "why_tests_cant": "Quantifies over all proofs, all orders of binding and all assignments; tests only bind one boot trace at once and verify an honest proof.", "anchors": ["libsnark/reductions/ram_to_r1cs/ram_to_r1cs.tcc: ram_to_r1cs", "libsnark/zk_proof_systems/ppzksnark/ram_ppzksnark/ram_ppzksnark.tcc: ram_ppzksnark_verification_key::bind_primary_input, ram_ppzksnark_generator, ram_ppzksnark_prover, ram_ppzksnark_verifier"]}
{"id": "C52", "title": "Provers that combine key elements linearly can only prove what they know", "statement": "Against the preprocessing SNARKs for R1CS and USCS: if a prover makes its proof elements as linear combinations of the group elements of the keys, with coefficients that do not depend on the generator's secrets, and the verifier accepts for more than a (linear in the domain size)/|F| part of the secrets, then a satisfying auxiliary input for that primary input can be read off the coefficients. In particular, for a false statement such a prover is accepted for at most that part of the secrets. The library's prover is such a prover.", "quantifier": "all constraint systems, primary inputs, evaluation domains, pairing groups, coefficient choices, finite fields; counted over all draws of the generator", "why_tests_cant": "Tests verify honest proofs and a few corrupted ones; soundness is about every strategy of a cheating prover, and errors in the key (an element too many) show in no test.", "anchors": ["libsnark/zk_proof_systems/ppzksnark/r1cs_gg_ppzksnark/r1cs_gg_ppzksnark.tcc: r1cs_gg_ppzksnark_generator, r1cs_gg_ppzksnark_online_verifier_strong_IC", "libsnark/zk_proof_systems/ppzksnark/r1cs_ppzksnark/r1cs_ppzksnark.tcc: r1cs_ppzksnark_generator, r1cs_ppzksnark_online_verifier_strong_IC", "libsnark/zk_proof_systems/ppzksnark/r1cs_se_ppzksnark/r1cs_se_ppzksnark.tcc: r1cs_se_ppzksnark_generator, r1cs_se_ppzksnark_online_verifier_strong_IC", "libsnark/zk_proof_systems/ppzksnark/uscs_ppzksnark/uscs_ppzksnark.tcc: uscs_ppzksnark_generator, uscs_ppzksnark_online_verifier_strong_IC"]}
{"id": "C53", "title": "gadgetlib2 expressions and constraints mean what they say", "statement": "The linear combination or polynomial built from an expression of variables and constants with the overloaded operators evaluates, under every assignment on which evaluation does not abort, to the value of that expression in the field; a constraint system is reported satisfied exactly when every constraint holds in the field; a constraint's polynomial form vanishes exactly where the constraint holds; and a dual word set to a value that fits its bits holds that value and no other.", "quantifier": "all fields, expressions, constraint systems, assignments (with values that are field elements or still machine integers), words and values", "why_tests_cant": "The expressions and assignments are unbounded, and the elements that are still integers behave differently from field elements only for values no test uses.", "anchors": ["libsnark/gadgetlib2/variable.cpp: FElem, LinearCombination, Monomial, Polynomial", "libsnark/gadgetlib2/variable_operators.hpp", "libsnark/gadgetlib2/constraint.cpp: Rank1Constraint::isSatisfied, PolynomialConstraint::isSatisfied, ConstraintSystem::isSatisfied", "libsnark/gadgetlib2/protoboard.cpp: setDualWordValue, dualWordAssignmentEqualsValue"]}
{"id": "C54", "title": "gadgetlib2 gadgets compute what they are named for", "statement": "For the gadgets of gadgetlib2 (AND, OR, inner product, loose multiplexer, packing and unpacking, equality with a constant, toggle, conditional flag, implication, comparison, dual words): every assignment of the variables that satisfies the generated constraints, with Boolean inputs where the gadget expects them, has in the outputs the value of the named function of the inputs; and the witness generator, started from any assignment of the inputs, makes an assignment that satisfies the constraints and changes only the gadget's own variables.", "quantifier": "all fields of prime order, numbers of inputs, wire placements, adversarial assignments, and for the witness generators all input values (field elements or machine integers)", "why_tests_cant": "Soundness quantifies over all assignments, including those no witness generator makes; the tests check witnesses for sizes up to 10.", "anchors": ["libsnark/gadgetlib2/gadget.cpp: BinaryAND_Gadget, R1P_AND_Gadget, BinaryOR_Gadget, R1P_OR_Gadget, R1P_InnerProduct_Gadget, R1P_LooseMUX_Gadget, R1P_CompressionPacking_Gadget, R1P_EqualsConst_Gadget, Toggle_Gadget, ConditionalFlag_Gadget, LogicImplication_Gadget, R1P_Comparison_Gadget, DualWordArray_Gadget"]}
{"id": "C55", "title": "The R1CS made from a gadgetlib2 protoboard has the same solutions", "statement": "The conversion of a protoboard succeeds exactly when all its constraints are of rank one. For every vector with one entry per variable created so far, the converted constraint system is satisfied exactly when the entries, read as values of the protoboard's variables, satisfy every constraint of the protoboard. The converted assignment holds the protoboard's values (0 where there is none), so that a protoboard that reports satisfaction is converted to a satisfied system. No variable becomes a public input.", "quantifier": "all protoboards (constraints, coefficients, assignments), variable counters and assignment vectors", "why_tests_cant": "Quantifies over all constraint systems and all vectors; the shift of indices and the gaps between them show only for particular orders of creation.", "anchors": ["libsnark/gadgetlib2/adapters.cpp: GadgetLibAdapter::convert", "libsnark/gadgetlib2/integration.cpp: convert_gadgetlib2_linear_combination, get_constraint_system_from_gadgetlib2, get_variable_assignment_from_gadgetlib2"]}
{"id": "C56", "title": "An R1CS used as a gadget constrains exactly the variables it was given", "statement": "A gadget made from a constraint system and blocks of protoboard variables is accepted exactly when the blocks together have one variable per variable of the system. Its constraints then hold under an assignment of the protoboard exactly when the system is satisfied by the values of the listed variables, in the order of the blocks; and its witness generator, given inputs of the declared sizes and distinct non-constant variables, gives the listed variables those values and changes no other variable.", "quantifier": "all constraint systems, blocks and placements of variables, assignments of the protoboard and input vectors", "why_tests_cant": "The tests convert one system with consecutive variables; the translation of indices matters for blocks in any order, repeated variables and the constant.", "anchors": ["libsnark/gadgetlib1/gadgets/gadget_from_r1cs.tcc: gadget_from_r1cs::gadget_from_r1cs, generate_r1cs_constraints, generate_r1cs_witness"]}
{"id": "C57", "title": "Example generators deliver satisfied instances of the requested size", "statement": "Whatever the random draws, an instance returned by a generator of R1CS, USCS, arithmetic-circuit or Boolean-circuit examples has the requested number of constraints or gates, inputs and outputs, and is satisfied by the returned inputs. The generators fail none of their own assertions and return for every requested size the assertions allow, except that zero R1CS constraints or one USCS constraint make a loop endless, and that the inverse of a zero that was drawn aborts. The example made with a protoboard is a satisfied system with one constraint less than asked for, whose first variable is the inner product of the drawn vectors. Generated memory contents fill exactly the requested addresses, or the requested number of them, with values of the requested size.", "quantifier": "all fields, requested sizes and random draws", "why_tests_cant": "Quantifies over all draws and sizes; the tests that use these generators see a few of each, and every other test of the library builds on them.", "anchors": ["libsnark/relations/constraint_satisfaction_problems/r1cs/examples/r1cs_examples.tcc: generate_r1cs_example_with_field_input, generate_r1cs_example_with_binary_input", "libsnark/relations/constraint_satisfaction_problems/uscs/examples/uscs_examples.tcc: generate_uscs_example_with_field_input, generate_uscs_example_with_binary_input", "libsnark/relations/circuit_satisfaction_problems/bacs/examples/bacs_examples.tcc: generate_bacs_example", "libsnark/relations/circuit_satisfaction_problems/tbcs/examples/tbcs_examples.cpp: generate_tbcs_example", "libsnark/gadgetlib1/examples/simple_example.tcc: gen_r1cs_example_from_protoboard", "libsnark/relations/ram_computations/memory/examples/memory_contents_examples.cpp: block_memory_contents, random_memory_contents"]}
{"id": "C58", "title": "The authenticated-data SNARK accepts honest proofs about signed data, checks its authentication equation and reveals nothing about the data", "statement": "Signing gives every value the tag prf(label) + i * value and a signature; data are accepted with the secret key exactly when every tag has that form, and with the public key exactly when the tags match in the exponent and the signatures verify; with a non-zero key no two vectors of values are accepted with the same tags. For signed data, every satisfying assignment whose primary input is the data, and all randomness, proving succeeds and the secret-key and public-key verifiers both accept. The verifiers decide exactly the equations of the protocol, reject proofs with malformed elements, and abort or run into undefined behaviour just for the stated mismatches in the number of labels. A proof is distributed as a simulation that uses neither the witness nor the data.", "quantifier": "all fields, pairings, constraint systems, satisfying assignments, labels, keys and random values", "why_tests_cant": "Quantifies over all systems, data, labels and randomness; zero knowledge is about the distribution of proofs and cannot be observed in a test.", "anchors": ["libsnark/zk_proof_systems/ppzkadsnark/r1cs_ppzkadsnark/r1cs_ppzkadsnark.tcc: r1cs_ppzkadsnark_auth_generator, r1cs_ppzkadsnark_auth_sign, r1cs_ppzkadsnark_auth_verify, r1cs_ppzkadsnark_generator, r1cs_ppzkadsnark_prover, r1cs_ppzkadsnark_verifier, r1cs_ppzkadsnark_online_verifier, r1cs_ppzkadsnark_verifier_process_vk"]}
{"id": "C59", "title": "Compliance predicates accept exactly what their handler's constraints allow", "statement": "The well-formedness check of a compliance predicate accepts exactly the predicates whose type is not 0, whose constraint system has the declared numbers of inputs and which name no impossible message lengths; the input and output lengths are compared as declared. A predicate accepts an outgoing message, incoming messages, local data and witness exactly when its constraint system is satisfied by their concatenation, with the arity and with the missing messages filled in by zeros. A predicate read off a handler is well formed, and some witness makes it accept exactly when some assignment of the protoboard that carries those messages satisfies the handler's constraints; the handler's own witness, read back from the protoboard, does.", "quantifier": "all fields, constraint systems, numbers of messages up to the maximal arity, payload lengths, messages and assignments", "why_tests_cant": "Quantifies over all predicates and all witnesses; the layout of the wires matters for every number of absent messages and every payload length.", "anchors": ["libsnark/zk_proof_systems/pcd/r1cs_pcd/compliance_predicate/compliance_predicate.tcc: r1cs_pcd_compliance_predicate::is_well_formed, has_equal_input_and_output_lengths, has_equal_input_lengths, is_satisfied", "libsnark/zk_proof_systems/pcd/r1cs_pcd/compliance_predicate/cp_handler.tcc: compliance_predicate_handler::get_compliance_predicate, generate_r1cs_witness, get_full_variable_assignment, get_witness", "libsnark/zk_proof_systems/pcd/r1cs_pcd/r1cs_pcd_params.tcc: r1cs_pcd_compliance_predicate_primary_input, r1cs_pcd_compliance_predicate_auxiliary_input"]}
{"id": "C60", "title": "The tally predicate accepts exactly the sums and counts that add up", "statement": "For every maximal arity, word size and message type, some witness makes the tally predicate accept an outgoing message exactly when its sum is the local summand plus the incoming sums weighted with their types, and its count is one more than the sum of the incoming counts, with messages of type 0 empty; and for messages whose new sum and count fit the words the witness generator produces such a witness.", "quantifier": "all fields of prime order, maximal arities, word sizes, numbers of messages, messages, summands and adversarial witnesses", "why_tests_cant": "Soundness is about every witness a cheating prover may choose, and about messages the witness generator never makes.", "anchors": ["libsnark/zk_proof_systems/pcd/r1cs_pcd/compliance_predicate/examples/tally_cp.tcc: tally_cp_handler::tally_cp_handler, generate_r1cs_constraints, generate_r1cs_witness"]}
{"id": "C61", "title": "Single-predicate proof-carrying data: honest computations are accepted, and what is accepted has a compliant history", "statement": "For every well-formed compliance predicate whose messages have one length: along a distributed computation in which every node's outgoing and incoming messages satisfy the predicate, the incoming messages being as many as the predicate takes and of one type, the prover makes a proof at every node, from the proofs it was sent, and the verifier accepts it. Conversely, an assignment of the compliance circuit, by whomever, gives messages that satisfy the predicate, the hash of the outgoing one and of the verification key being the input, and unless the incoming type is 0 a proof, for every incoming message, that the verifier accepts under the same key; and an assignment of the translation circuit gives a proof of the compliance step for exactly the bits of its input. Hence, if assignments can be extracted from the accepted proofs, an accepted message has a compliant history of every depth, or two of the blocks of bits that the verifier and the extracted assignments hash collide.", "quantifier": "all pairs of fields of prime order, predicates, sizes, keys, messages, histories of any depth, honest or adversarial assignments; SNARKs and the gadgets verifying their proofs are arbitrary ones with the stated contracts", "why_tests_cant": "Quantifies over all computations, of any depth, and over all witnesses a cheating prover may choose for the circuits.", "anchors": ["libsnark/zk_proof_systems/pcd/r1cs_pcd/r1cs_sp_ppzkpcd/sp_pcd_circuits.tcc: sp_compliance_step_pcd_circuit_maker, sp_translation_step_pcd_circuit_maker, get_sp_compliance_step_pcd_circuit_input, get_sp_translation_step_pcd_circuit_input", "libsnark/zk_proof_systems/pcd/r1cs_pcd/r1cs_sp_ppzkpcd/r1cs_sp_ppzkpcd.tcc: r1cs_sp_ppzkpcd_generator, r1cs_sp_ppzkpcd_prover, r1cs_sp_ppzkpcd_verifier, r1cs_sp_ppzkpcd_online_verifier, r1cs_sp_ppzkpcd_process_vk"]}
{"id": "C62", "title": "The gadget for membership in a committed set accepts the members of the set and nothing else", "statement": "For every set within the capacity, every member and the membership proof that the accumulator gives for it, the witness generators of the proof variable and of the gadget succeed, all constraints hold and the root is the accumulator's commitment. Conversely, if an assignment satisfies the constraints, its element and root are bits, the root is the commitment of a set and the success flag is 1, then the element is a member of the set, or the assignment exhibits two different strings with a common hash.", "quantifier": "all fields, hash gadgets that meet the contracts (SHA-256 and knapsack do), capacities, sets, elements, honest and adversarial assignments", "why_tests_cant": "Soundness is about every assignment a cheating prover may choose, for every set and every depth of the tree; tests run the honest witness on one set.", "anchors": ["libsnark/gadgetlib1/gadgets/set_commitment/set_commitment_gadget.tcc: set_commitment_gadget::set_commitment_gadget, generate_r1cs_constraints, generate_r1cs_witness", "libsnark/gadgetlib1/gadgets/set_commitment/set_membership_proof_variable.tcc: set_membership_proof_variable::set_membership_proof_variable, generate_r1cs_constraints, generate_r1cs_witness, get_membership_proof", "libsnark/common/data_structures/set_commitment.tcc: set_commitment_accumulator::add, get_commitment, get_membership_proof"]}
{"id": "C63", "title": "The compliance step of the multi-predicate PCD accepts compliant steps whose incoming messages are proved under committed keys, and nothing else", "statement": "For every compliance predicate whose incoming messages have one length: from messages, local data and a witness that satisfy the predicate, and for every incoming message a key in the committed set, its membership proof and a proof that verifies under it, the witness generator makes an assignment that the circuit accepts, and its input is the hash of the commitment and the outgoing message. Conversely, whatever assignment the circuit accepts, there are a commitment, messages, local data and a witness that satisfy the predicate, the hash of the commitment and the outgoing message is the input, the outgoing type is that of the predicate, and every incoming message of non-zero type is accompanied by a key in the committed set and a proof for the hash of that message under the key; if the predicate relies on inputs of the same type, they have one common type, which is accepted, and one key.", "quantifier": "all fields of prime order, predicates, sizes, numbers of predicates, keys, messages, honest and adversarial assignments; the gadgets that verify proofs are arbitrary ones with the stated contract", "why_tests_cant": "Quantifies over all predicates, all sets of keys and all witnesses a cheating prover may choose for the circuit.", "anchors": ["libsnark/zk_proof_systems/pcd/r1cs_pcd/r1cs_mp_ppzkpcd/mp_pcd_circuits.tcc: mp_compliance_step_pcd_circuit_maker, generate_r1cs_constraints, generate_r1cs_witness, get_mp_compliance_step_pcd_circuit_input"]}
{"id": "C64", "title": "Multi-predicate proof-carrying data: honest computations are accepted, and what is accepted has a compliant history", "statement": "The generator accepts a list of well-formed compliance predicates with different names in which every type that a predicate accepts from others belongs to exactly one predicate, and names each predicate in the proving key. Along a distributed computation in which every node chooses one of the predicates and messages that satisfy it, the prover makes a proof at every node, from the proofs it was sent, and the verifier accepts it. Conversely, whatever message and proof the verifier accepts, the message has a compliant history of every depth, the last step of which is one of the predicate that the proof names, unless strings that occur in the assignments extracted from the proofs break one of the hashes; the verifier answers for every proof, and the prover for every node, also for those at the start of a computation.", "quantifier": "all pairs of fields of prime order, lists of predicates of any length, sizes, messages, histories of any depth, honest or adversarial assignments; SNARKs, the gadgets verifying their proofs and the hash gadgets are arbitrary ones with the stated contracts", "why_tests_cant": "Quantifies over all sets of predicates, all computations of any depth, and all witnesses a cheating prover may choose for the circuits.", "anchors": ["libsnark/zk_proof_systems/pcd/r1cs_pcd/r1cs_mp_ppzkpcd/r1cs_mp_ppzkpcd.tcc: r1cs_mp_ppzkpcd_generator, r1cs_mp_ppzkpcd_prover, r1cs_mp_ppzkpcd_verifier, r1cs_mp_ppzkpcd_online_verifier, r1cs_mp_ppzkpcd_process_vk", "libsnark/zk_proof_systems/pcd/r1cs_pcd/r1cs_mp_ppzkpcd/mp_pcd_circuits.tcc: mp_translation_step_pcd_circuit_maker, get_mp_translation_step_pcd_circuit_input"]}
{"id": "C65", "title": "zkSNARK for RAMs: an accepted proof means that the machine accepts within the time bound", "statement": "If the verifier of the RAM zkSNARK accepts a proof for the memory contents of the boot trace and a time bound T, the machine, started with these contents, the initial program counter and the zero state, reaches the accepting state within T steps, unless two different strings with the same hash occur in the assignments behind the proof. In particular every step that is compliant reads the instruction and the memory word that the Merkle root of the previous message commits to, makes one step of the CPU, and commits to the memory after the store; only the initial data can be the start of a history; and the halting step passes on nothing but the initial data, the time and the verdict.", "quantifier": "all machines given by a CPU checker with the stated contract, all memory sizes, contents, time bounds, histories of any length, hash gadgets with the stated contract and assignments, including those of a cheating prover", "why_tests_cant": "Quantifies over all computations of any length and over all witnesses a cheating prover may choose for each step.", "anchors": ["libsnark/zk_proof_systems/zksnark/ram_zksnark/ram_compliance_predicate.tcc: ram_compliance_predicate_handler::generate_r1cs_constraints, ram_pcd_message_variable, ram_compliance_predicate_handler::get_final_case_msg", "libsnark/zk_proof_systems/zksnark/ram_zksnark/ram_zksnark.tcc: ram_zksnark_generator, ram_zksnark_prover, ram_zksnark_verifier"]}
{"id": "C66", "title": "Final exponentiation gadgets: the result is the final power of the pairing value, and the flag 1 means that it is one", "statement": "For both final exponentiation gadgets: whenever an assignment satisfies the constraints, the input is an invertible element of the extension field, the result is its power with the exponent (q^k - 1)/r, where the constants w0, w1 of the curve write the last chunk of the exponent, the flag result_is_one is a bit, and the flag 1 implies that the final power is one. For every invertible input the witness generator produces an assignment that satisfies the constraints, with the flag 1 exactly if the final power is one.", "quantifier": "all primes q > 5 with the required residue, all non-residues, chunk constants of either sign, elements, boards and assignments, including those of a cheating prover", "why_tests_cant": "The claim is about every element of a field of 4 or 6 times 300 bits and every assignment of a dishonest prover; the cyclotomic squarings inside are only right on a subgroup, so that it must be shown for all inputs that the first stages land in it.", "anchors": ["libsnark/gadgetlib1/gadgets/pairing/weierstrass_final_exponentiation.tcc: mnt4_final_exp_gadget, mnt6_final_exp_gadget"]}
