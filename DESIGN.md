# A Lean 4 model of libsnark

## 1. What this is

`lean/Verif/` holds a formal model of the C++ code in `/repo` (scipr-lab/libsnark) and theorems about
it.  One directory per area; in each

* the *model* files transcribe the C++ functions, and every definition cites `file:lines` of what it models;
* `*Lemmas`, `*Specs`, `*Sound`, `*Complete` ... hold proofs only;
* the `*Props` files hold the property theorems (named `Cxx_...`), the small specifications that their statements use,
  and beside the theorems `example`s showing that concrete, non-trivial cases meet the hypotheses.

| directory | model files | modelled code (under `libsnark/`) |
|-----------|-------------|-----------------------------------|
| (top) | `Common`, `Loop` | results, vector access, assertions, `for` loops |
| `Relations` | `Model`, `R1CS` | `relations/variable`, `relations/constraint_satisfaction_problems/r1cs` |
| `Circuits` | `BACS`, `TBCS` | `relations/circuit_satisfaction_problems`, reductions `bacs_to_r1cs`, `tbcs_to_uscs` |
| `Reductions` | `Domain`, `QAP`, `SSP`, `SAP`, `Sparse` | `reductions/r1cs_to_qap`, `uscs_to_ssp`, `r1cs_to_sap`, `relations/arithmetic_programs` |
| `Data` | `SparseVector`, `KC`, `IntPerm`, `Merkle`, `Memory` | `common/data_structures`, `knowledge_commitment`, `relations/ram_computations/memory` |
| `Routing` | `Benes`, `Waksman`, `Gadgets` | `common/routing_algorithms`, `gadgetlib1/gadgets/routing` |
| `Gadgets` | `Protoboard`, `Basic` | `gadgetlib1/protoboard`, `pb_variable`, `gadgets/basic_gadgets` |
| `Hashes` | `Sha256`, `Knapsack` (`Sha256Spec` is FIPS 180-4) | `gadgetlib1/gadgets/hashes` |
| `Merkle` | `Gadgets` (`Spec`) | `gadgetlib1/gadgets/merkle_tree` |
| `Snarks` | `Pairing`, `GG`, `PGHR`, `SE`, `USCS`, `Wrappers` | `zk_proof_systems/ppzksnark` |
| `Ram` | see section 4 | `relations/ram_computations/rams/tinyram`, `rams/fooram`, `reductions/ram_to_r1cs/gadgets`, `gadgetlib1/gadgets/cpu_checkers/fooram`, `cpu_checkers/tinyram/components/alu_*` |
| `Serial` | `Stream`, `Relations`, `Keys`, `Pcd` | `operator<<` / `operator>>` of keys, proofs, constraint systems |

`properties.jsonl` states the properties in English; `MANIFEST.json` maps each to theorem names;
`seeded/LOG.jsonl` records the mutation tests.

## 2. Modelling conventions

* **Results.** `Res α = Except Err α` with `Err.ub` (undefined behaviour: out-of-range access, oversized shift, division by
  zero, reading a moved or never initialised object) and `Err.assertFail` (a failed `assert`).  Functions that cannot fail are plain.
* **Fields.** `FieldT` is an arbitrary Lean `Field F` with decidable equality.  Where the code relies on
  the field being prime or large, this is an explicit hypothesis (`CharP F p`, `2^n ≤ p`, `(2:F) ≠ 0`).
  The integer representative of a field element (`as_bigint`) is the contract `FpRep` (met by `ZMod p`, `fpRepZMod`).
* **Groups and pairings.** `G1, G2, GT` are `F`-modules (written additively).  Coordinates that are not group elements (as in a
  forged proof) are a separate constructor of `Pt`.  The contract `Pairing` requires only what the verifiers use; `ratEnv`
  meets it.  Multi-exponentiation is `SVec.MultiExp`: the value it must return.
* **Evaluation domains** (libfqfft) are the contract `EvalDomain`: distinct points, vanishing polynomial, Lagrange basis,
  FFT and inverse FFT as evaluation and interpolation, the same on a coset on which the vanishing polynomial has no root.
* **Memory and vectors.** `std::vector` is `List`; `std::map` is a partial function (`CMap`) with its keys where the code iterates.
* **Integers.** `size_t` is `Nat`, except where wrap-around matters, where the definition says what is done.
* **Hashes.** In data structures a hash is an arbitrary function (`HashFn`), and theorems conclude "or here is a collision".
  In gadgets a hash gadget is an arbitrary one with a soundness contract (`HashOps.Sound`), which SHA-256 and knapsack are shown to meet.
  A hash that compresses has collisions, so for the PCD systems (C61, C64) "a collision exists" would say nothing: there the collision is
  one between strings in the assignments that are extracted from the prover (`HashedIn`, `ForgedKey`) or in the verifier.
* **Soundness of a SNARK** in C61 and C64 is a hypothesis, `SnarkOps.SoundFor known V`: an accepted proof among the known ones gives
  an assignment, in the set `V`.  With all proofs and all assignments it is the ideal notion, which the instances have.
* **Randomness** is an explicit argument; theorems quantify over all its values.
* **Threads.** `#pragma omp parallel for` loops are modelled by chunks; theorems quantify over chunk counts.
* **Unbounded loops** have fuel; theorems prove that it suffices.
* **Streams** are lists of characters; the libff serialisation of a field or group element is a
  parameter with the contract "reads back what it wrote and leaves the rest, in text mode if white space follows"
  (`Codec.ReturnsAt`); libff's formats of vectors, sets, maps and bits are transcribed from memory of libff.
* **Gadgets.** A gadget is the structure of variable indices its constructor allocates.  `create : Board → ... → Res (Gadget × Board)`
  is the constructor (the board is the allocation state of the protoboard), `constraints` the list of R1CS constraints that
  `generate_r1cs_constraints` adds, `witness : Store F → Res (Store F)` the effect of `generate_r1cs_witness` on the assignment.
  The assignment is a total function here; `Bridge.lean` shows that this agrees with the protoboard of `Protoboard.lean`, and
  that `Accepts ks v` is what `is_satisfied` checks.  Soundness theorems range over all assignments `v : Nat → F` (a
  malicious prover's), completeness theorems over all honest inputs.

## 3. Trusted base

* Lean 4.33.0's kernel; every theorem depends on at most the axioms `propext`, `Classical.choice`, `Quot.sound`.
* The reading of `/repo` that produced the definitions (nothing is extracted or run).
* The contracts above for libff and libfqfft (not in `/repo`: they are git submodules).
* The C++ language, compiler and standard library (`std::sort`, `std::map`, `std::set`, iostreams).

Not modelled: profiling and printing, timing, memory consumption, OpenMP itself, concrete curves and field
arithmetic (libff), the concrete FFT algorithms (libfqfft), cryptographic hardness assumptions, the
symmetric primitives of ppzkadsnark (AES, Ed25519), the Miller loop, precomputation and check gadgets of the pairing, and the gadget of the
R1CS ppzkSNARK verifier.

## 4. Per property

| id | what is modelled, how it is proved |
|----|------------------------------------|
| C01 | `linear_term`, `linear_combination` as term lists, each operator transcribed; expression language as spec; induction over merges. |
| C02 | strict-sortedness invariant, preserved by every operator; coefficient function as spec. |
| C03 | `is_valid` transcribed with its UB on an empty term vector; safety theorem; negation witness for the off-by-one. |
| C04 | `is_satisfied`, `swap_AB_if_beneficial` transcribed; equivalence with a ∀-spec. |
| C05, C06 | circuits, evaluation loop, reduction; induction over gates. |
| C07, C08 | gate table and evaluation; case split over 16 gates with field arithmetic; induction over gates for circuits. |
| C09–C13 | reductions transcribed against the abstract evaluation domain; proof via Lagrange interpolation and root/divisibility lemmas. |
| C14, C15 | sparse vector functions transcribed incl. binary search and blocking; refinement to the denoted map; negations where the code is wrong. |
| C16 | `integer_permutation` transcribed; refinement to a bijection of the range. `next_permutation` (`Data/NextPerm`) stands for the usual algorithm of the standard library; it gives the least greater arrangement, by induction on the list, so a loop over it enumerates all permutations (`Data/NextPermProps`). `random_shuffle` is any rearrangement. |
| C17, C18 | routing algorithms transcribed (loops as fuel/recursion); loop invariants for the routing loops; correctness by induction on the recursion level. |
| C19, C20 | Merkle tree as map of nodes; invariant "every stored node is the hash of its children"; induction over operation histories. |
| C21 | memories as maps; delegated memory refines via C19 and bit (de)composition. |
| C22 | chunking loop transcribed; result independent of the chunk count. |
| C23 | protoboard state machine; invariant over operation lists. |
| C24–C27, C41 | constraints of each basic gadget over variable indices; soundness for all assignments, completeness of the witness generator. |
| C28–C33, C42, C43 | generator, prover, verifiers (weak, strong, online, affine) transcribed over modules with a pairing; completeness by algebra from C09–C13; the verifiers decide exactly the pairing equations; zero knowledge as equality of the simulated and real distributions through an explicit bijection of the randomness. |
| C34 | component gadgets, message schedule, rounds, compression, two-to-one hash; spec = FIPS 180-4 (`Fips`) on bit vectors; the layout of the allocated variables in closed form, soundness round by round, completeness by running the witness generator. |
| C35 | read and update gadgets over an abstract hash gadget; the accepted path authenticates the leaf; linked to the tree of C19 (`Merkle/Tree`). Completeness of both witness generators over a completeness contract of the hash gadget (`Merkle/Complete`, `Merkle/CompleteUpdate`). |
| C36 | both routing gadgets on top of the topologies of C17 and C18; soundness column by column, completeness from the routing theorems; counterexamples for repeated packets. |
| C37, C38 | encoding functions on `Nat` with explicit width bounds; boot trace. |
| C39 | memory checker and universal gadget transcribed; acceptance gives a trace and a permutation (through C36); sorting by address and time gives consistency under two conditions that the code does not enforce; two accepted inconsistent traces show that they are needed. |
| C40 | streams as lists of characters, `size_t` in decimal, libff's elements under the contract that they are read back when white space follows in text mode; every `operator<<`/`operator>>` pair transcribed; round trip for every continuation of the stream. |
| C44 | knapsack gadget; field output exact, bit output not unique. |
| C45 | FOORAM checker and architecture; a separate machine (`Foo.step`, `Foo.run`) from the description in the header; accepted traces against runs in both directions, with the explicit witness for every run. |
| C46 | All ALU components and `ALU_gadget` (`Ram/Alu`); the instruction set as functions on numbers (`Ram/AluSpec`: `Tiny.Op.result`, `.flag`, `Tiny.Jump.nextPc`). Each component is proved to force and to compute its results (`Comp`), with the packed values of the arguments kept apart from their bits; components compose since they write disjoint variables (`alu_comp`). |
| C47 | `tinyram_cpu_checker` with decoder, enforcer, memory masking and word variables (`Ram/TinyCpu`); the machine as decoding and execution on numbers (`Ram/TinyMachine`: `Tiny.decode`, `Tiny.exec`). The constraints are turned into conditions on numbers (`sat_iff`, `sound`); the witness generator is run statement by statement (`TinyCpuRun*`); wrong steps come from running the same generator after changing operand bits (`CpuMade.accept`). |
| C48 | The gadgets of `fp2_gadgets.tcc`, `fp3_gadgets.tcc`, `fp4_gadgets.tcc`, `fp6_gadgets.tcc` over any field (`Fields/Model`). The specification maps coordinates to an element of any commutative ring with a root of the tower's polynomial (`Fields/Spec`: `elt`), so a product is the product of that ring. Constraints are turned into equations of coordinates (`Fields/Sat`), the witness generators are executed (`Fields/Witness`, `Fields/Witness46`); C48_mul_by_2345_counterexample: any second half is accepted. |
| C49 | `exponentiation_gadget` for a record of the operations that it takes as template arguments (`Fields/Exp`: `ExpKit`), its loops as recursion over the digits; find_wnaf is a function with proved value. Soundness: each step multiplies by a power of the element, a subtraction step divides and so needs a unit (`Fields/ExpSound`); completeness executes the steps (`Fields/ExpWitness`); instances for Fp4 and Fp6, plain and cyclotomic (`Fields/ExpKits`, `Fields/ExpKitsProps`). C49_zero_counterexample: zero with a negative digit. |
| C50 | The gadgets of `weierstrass_g1_gadget` and the checker of `weierstrass_g2_gadget` (`Curves/Model`), with the loops of the multi-exponentiation as recursion over points and bits. Points and group law are Mathlib's `WeierstrassCurve.Affine.Point`. Soundness (`Curves/Sound`): the slope is determined by the constraints, the chain of doublings gives the multiples by powers of two, induction over the bits gives the sum. Completeness (`Curves/Witness`, `Curves/Msm`, `Curves/G2`) executes the generators under `NoSpecial`: no partial sum is equal or opposite to what follows. C50_msm_incomplete: an input that no assignment satisfies. |
| C51 | `ram_to_r1cs` and `ram_ppzksnark` over an arbitrary `RamType` (`Snarks/RamSnark`), with PGHR13 as in C31. The packed boot trace is specified separately (`packOne`, `packTrace`): position i from the end holds the bits of address and value of store i, cut into pieces of the field capacity. Verifier: the accumulated key determines the sum of the input elements (C15), and binding entry by entry gives the same sum (`Snarks/RamSnarkProps`). Boot stores: unpacking is injective on pieces below the capacity. |
| C52 | Algebraic provers: coefficients for every element of the keys, chosen before the secrets (`Snarks/GGKnowledge`, `Snarks/PGHRKnowledge`, `Snarks/SEKnowledge`, `Snarks/USCSKnowledge`). The verification equation is a polynomial in the secrets (`Snarks/Trapdoor`: polynomials in t times monomials of the other secrets); if it has more zeros than Schwartz-Zippel allows, all its coefficients vanish, and these coefficients say that the extracted values satisfy the QAP. Nothing is assumed about hardness; provers that are not of this form are not covered. |
| C53 | gadgetlib2's `FElem` (a `long` until it meets a field element), `LinearCombination`, `Polynomial`, both kinds of constraint, the assignment map and the word functions of the protoboard, operator by operator with overflow of `long` as an outcome (`Gadgetlib2/Model`). Expressions with a denotation in the field are the specification; structural induction (`Gadgetlib2/ExprProps`). Words: loop invariants (`Gadgetlib2/WordProps`). |
| C54 | gadgetlib2's gadgets, with constructor, constraints and witness generator (`Gadgetlib2/Gadgets`); variables are indices from a counter. Soundness for every valuation, completeness for every assignment of the inputs with a frame condition (`Gadgetlib2/GadgetProps`, `MuxProps`, `PackProps`, `CmpProps`); loop invariants for the inner product and the packing. |
| C55 | `convert_gadgetlib2_linear_combination`, `get_constraint_system_from_gadgetlib2`, `get_variable_assignment_from_gadgetlib2` on the model of C53, giving the `R1CS` of C04 (`Gadgetlib2/Adapter`). Equivalence for every vector by folding over the terms and constraints; the assignment loop by an invariant (`Gadgetlib2/AdapterProps`). |
| C56 | `gadget_from_r1cs` on the protoboard of C23 and the `R1CS` of C04 (`Gadgets/FromR1CS`). The index map is a list lookup; each combination evaluates under the board like the original under the list of values, so the constraints are equivalent; the two witness loops by induction on the positions (`Gadgets/FromR1CSProps`). |
| C57 | The six generators with every random draw as an argument (`Circuits/Examples`). Loop invariants: all constraints so far mention only the variables so far and hold, and stay so when the assignment grows; for circuits, the values so far are the wire assignment of the circuit so far (`Circuits/ExamplesProps`, `Circuits/ExamplesCircuitProps`). The example made with a protoboard and the generated memory contents (`Circuits/ExamplesMore`, `Circuits/ExamplesMoreProps`): the first from the completeness and soundness of the inner product, the others by an invariant on the set of filled addresses. |
| C58 | Authenticated-data keys, signing, checking, key generation, prover, processed keys and the four verifiers of ppzkadsnark (`Snarks/ADSnark`), over the pairing environment extended by contracts for the pseudo-random function, the signature scheme and the group operations on deserialized points. The honest run is computed as for C31 (`Snarks/ADLemmas`); completeness, the exact equations and the simulator, by an affine bijection of the four random values, are in `Snarks/ADProps`. |
| C59 | Messages, compliance predicates, the concatenated inputs of a predicate and the handler base class over a protoboard (`PCD/Predicate`). The wires of a handler are consecutive (`Laid`), so the constraint system read off the protoboard is satisfied by a concatenated input exactly when a store carrying the messages satisfies the constraints (`PCD/PredicateProps`). |
| C60 | The tally handler: constructor, constraints and witness generator (`PCD/Tally`). The constructor is computed in closed form (`layout`); satisfiability is reduced to an equation over the message wires (`Accepts`), with the remaining wires solved for explicitly; the witness generator is followed step by step (`PCD/TallyProps`). |
| C61 | The circuits of the compliance step and the translation step, with constructor, constraints and witness generator, over records of operations for the verifier gadgets (`PCD/SpCircuits`), and generator, prover and verifier over records of operations for the two SNARKs (`PCD/SpPcd`). Variables are located (`SpLayout`); every assignment is read as the data of a node (`SpProps`); the witness generators are followed step by step (`SpWitness`, `SpComplete`); induction over the computation and over the depth of the history (`SpPcdProps`). `SpToy` is an instance of all contracts. |
| C62 | proof variable and gadget over an abstract hash gadget (`Merkle/SetCommitment`); soundness and binding against the accumulator of C20 (`SetProps`); completeness from a completeness contract of the hash (`Merkle/Complete`, `SetComplete`), which the knapsack gadget meets; totality of construction and concrete instances (`SetBuild`). |
| C63 | The circuit of the compliance step of the multi-predicate PCD, with constructor, constraints and witness generator, over the same records of operations as C61 and the set commitment gadget of C62 (`PCD/MpCircuits`). Variables are located (`MpLayout`); the constraints are split into parts and every assignment is read as the data of a node (`MpProps`). The witness generator is followed step by step (`MpWitness`, `MpLoops`), in three parts around the membership checks, so that the same lemmas give completeness and the forged assignment (`MpComplete`); `MpToy` has an instance of both. The translation step has the code of the single-predicate PCD. |
| C64 | Generator, prover and verifier of the multi-predicate PCD over records of operations for the two SNARKs (`PCD/MpPcd`). The loop of the generator is followed by an invariant (`MpPcdProps`); completeness by induction over the computation, soundness by induction over the depth of the history, from C63 and C61 (`MpHistory`). `MpPcdToy` is an instance with two predicates. |
| C65 | Messages, constructor, constraints and witness generator of the RAM compliance predicate, over an abstract hash gadget (as in C20) and an abstract CPU checker (`RamType`, as in C40), and generator, prover and verifier of the RAM zkSNARK over the PCD of C61 (`PCD/RamPredicate`). The variables are located (`RamStep`); every accepted assignment is read as a step on words (`RamSound`), with the specification `RegularStep`/`HaltStep`/`BaseStep`; induction over the history keeps the root of the memory of an abstract machine (`RamRun`), whose Merkle binding uses the trees of C20; the verifier's message is tied to the contents (`RamFinal`); with C61 an accepted proof gives the history (`RamChain`; keys for a small machine in `RamInstance`). `RamToy` has a small machine, an accepted history, and a proof of a false statement; `RamFooram` shows that the checker of FOORAM (C45) meets the contract, and a step with a wrong read. |
| C66 | Constructors, constraints and witness generators of the two final exponentiation gadgets (`Pairing/FinalExp`), with the constants of the curve (non-residue, Frobenius tables, chunks of the exponent) as parameters. The extension field is any ring with a root of the non-residue whose powers are independent, as in C48. The proof takes the Frobenius map itself as the homomorphism that the theorems about cyclotomic squares (C49) need, shows that after the powers `q^2 - 1` or `(q^3 - 1)(q + 1)` the element is in the cyclotomic subgroup, and computes the exponent in the group of units (`C66_fp4_sound`, `C66_fp6_sound`). `C66_fp4_complete` and `C66_fp6_complete` follow the store through the stages of the witness generators and show that each stage leaves the variables in the earlier constraints alone. `C66_flag_zero`: the flag is checked in one direction. |

Where the code violates a property, the manifest status is `partial`, a theorem (suffix `_wrong`, `_false` or `_counterexample`)
is the negation with a concrete witness, and a `_partial` theorem says what does hold.

## 5. Disagreements between the code and the properties

1. `linear_combination::is_valid` rejects index = num_variables (off by one) and dereferences `--end()` of an empty vector (UB).
2. `variable::operator+(linear_combination)` produces unsorted or duplicate terms.
3. `sparse_vector::is_valid` has its first test inverted.
4. `sparse_vector::operator==(std::vector)` indexes the dense vector by the sparse position.
5. `sparse_vector::accumulate` extends a block by array position rather than by index contiguity.
6. `merkle_tree`'s vector constructor stores `values[idx]` under the wrong key and drops the last node of odd levels.
7. `merkle_tree::set_value`/`get_path` accept address `2^depth`.
8. The TBCS→USCS reduction does not force the last wire to be Boolean.
9. `tbcs_circuit::wire_depths` lacks the constant-wire entry.
10. `uscs_constraint_system::is_valid` calls a function that does not exist.
11. The Groth16 prover asserts that a top coefficient of the quotient is not zero, which is false for some honest witnesses.
12. AS-Waksman and `integer_permutation` on 0 or 1 packets.
13. `memory_checker_gadget` computes a timestamp comparison that no constraint uses: a line routed to itself is accepted whenever its contents do not change, so a fetch can return anything (`C39_memory_wrong`). `execution_lines[0]` may put any value at its address (`C39_initial_memory_wrong`), and the initial CPU state is not constrained (`C45_initial_register_wrong`).
14. `delegated_ra_memory`'s vector constructor does not compile when instantiated.
15. `valid_as_waksman_routing` accepts malformed settings that send two packets to one place.
16. `protoboard::val(ONE)` is writable, while `is_satisfied` always uses 1.
17. `pb_linear_combination_array::fill_with_bits_of_ulong` goes through a signed conversion.
18. The affine verifier of `r1cs_ppzksnark` does not check that proof elements are well formed.
19. The USCS generator aborts if an input or the constant occurs in no constraint.
20. `uscs_ppzksnark`'s weak verifier and the affine verifier abort (assert) instead of rejecting on short inputs; the dummy USCS verification key ignores its argument.
21. The weak verifier of `r1cs_se_ppzksnark` has no length check.
22. `digest_variable`'s padding constructor asserts on its still empty member.
23. The knapsack gadget with bit output accepts two digests for one input when both are representable.
24. The Merkle update gadget does not force the next leaf to be Boolean; path witnesses of depth above 64 shift out of range.
25. The routing gadgets are not sound for repeated packets, except AS-Waksman with packets of several field elements; with empty packets they index switch bits that were not allocated.
26. For a TinyRAM program that reaches into the input area, the boot trace and `initial_memory_contents` disagree (the program wins in one, the input in the other).
27. `operator>>` of `r1cs_ppzkadsnark_auth_data` ends with `data.sigma;`, which reads nothing: the signature is lost and stays in the stream.
28. `operator<<` of `r1cs_se_ppzksnark_proving_key` (and of several `r1cs_ppzkadsnark` keys) puts no separator between elements, so that decimal elements run together in text mode.
29. `ram_ppzksnark_verification_key` does not serialise the bound locations; a key read back accepts binding the same location again.
30. The copying constructor of `r1cs_mp_ppzkpcd_proving_key` (r1cs_mp_ppzkpcd.hpp:87-103) initialises four members from themselves, as the parameters are named differently (not modelled).
31. `ALU_shr_shl_gadget` constrains `shr_result` twice and `shl_result` never (alu_arithmetic.tcc:1356-1367): any result of `SHL` is accepted (`C46_shl_accepts`).
32. Its barrel shifter moves by i+1 positions in step i rather than 2^i: `SHR` and `SHL` by 4 shift by 3, for the honest prover too (`C46_shr_by_four`).
33. `ALU_divmod_gadget` does not bound the quotient or the remainder from below and leaves both flags free: `UMOD` accepts every number below the divisor (`C46_umod_accepts`), `UDIV` wrong quotients (`C46_udiv_accepts`).
34. `tinyram_cpu_checker::generate_r1cs_constraints` (tinyram_cpu_checker.tcc:125-236) never generates the constraints of `desval`, `arg1val`, `arg2val`: their bits are not related to their values, so jumps and memory accesses go to any address whose top bit is right (`C47_jump_accepts`, `C47_load_accepts`).
35. Loads are register instructions for `consistency_enforcer_gadget`, but their flags are not constrained: after a load the flag is arbitrary, and the honest prover clears it (`C47_load_flag_accepts`, `C47_cpu_complete_partial`). The flag of `READ` need not be a bit (`C47_read_flag_accepts`).
36. Reading a tape that is empty from the beginning gives 0 without a flag and does not mark it as exhausted, while reading past the end of another raises the flag (`C47_empty_tape`).
37. `Fp6_mul_by_2345_gadget` allocates `v0` as new variables although the comment wants them to be linear combinations of `result.c0` and `v1` (fp6_gadgets.tcc:216-217), and no constraint relates them to anything but the second half: every second half of the result is accepted (`C48_mul_by_2345_counterexample`).
38. The constraints of `Fp4_cyclotomic_sqr_gadget` hold for the honest witness only if the argument satisfies c0^2 - U c1^2 = 1 (`C48_fp4_cyclotomic`); the gadget does not check it, the soundness of its callers depends on it.
39. `exponentiation_gadget` encodes a negative digit as `next * elt = cur` (exponentiation_gadget.tcc:103-108). For the element zero this constrains nothing: every result is accepted as the third power of zero, and the honest witness generator stops at the inversion (`C49_zero_counterexample`). For the exponent zero the constructor accesses `intermediate[0]` of an empty vector (lines 60-61, `C49_power_zero`).
40. `G1_multiscalar_mul_gadget` computes the sum with every multiple, chosen or not, by an adder that has no solution when the summands are equal or opposite (weierstrass_g1_gadget.tcc:287-301, 142-188). So some inputs have no accepted assignment although their result is an ordinary point: `base + 0 * base` for every curve (`C50_msm_incomplete`). With `elt_size` zero the bound `elt_size - 1` of the inner loop wraps around (lines 252-256, `C50_msm_create`). The annotations of lines 262-272 use a conversion `%zu` without an argument, which is undefined in builds that format annotations; annotations are not modelled.
41. A boot trace with fewer stores than the bound is packed with zeros in the missing places (ram_to_r1cs.tcc:102-129), which is the encoding of a store of 0 at address 0. The verifier therefore cannot distinguish it from a trace that makes these stores (`C51_missing_is_zero`, `C51_missing_store_ambiguous`), while the memory computed by `as_memory` differs when address 0 had another content.
42. gadgetlib2's `FElem` stays a machine integer until it meets a field element. `isSatisfied` on a protoboard whose values were all assigned from integers compares integers, so over a field smaller than 64 bits it rejects assignments that satisfy the constraints in the field (variable.hpp:191-192, constraint.cpp:73-100; `C53_small_field_disagrees`), and products of two integers above 2^32 overflow `long` (variable.cpp:153-156; `C53_integer_overflow`).
43. `Protoboard::setValuesAsBitArray` tests bit i with `1u<<i` (protoboard.cpp:50), a 32-bit shift: setting a word to a value of 2^32 or more is undefined (`C53_dual_word_wide`). `setMultipackedWordValue` converts its `size_t` to `long`, so values of 2^63 and more are stored as negative numbers.
44. `lc += lc`, `lc -= lc` and `poly += poly` insert a range of a vector into the same vector (variable.cpp:456, 461-467, 655), which is undefined; only different operands are modelled.
45. `R1P_LooseMUX_Gadget::generateWitness` takes the index modulo 2^64 (`asLong`, gadget.cpp:417): an index of 2^64 or more whose low 64 bits are in range selects an input and sets success to 1, which the constraints do not allow (`C54_mux_wide_index`). The comment above the line states the assumption.
46. `Protoboard::numInputs` is 0 for every protoboard (protoboard.cpp:29, protoboard.hpp:55), so a protoboard converted with `get_constraint_system_from_gadgetlib2` has no public inputs (`C55_no_inputs`): a proof for it says only that some solution exists.
47. The conversion of a `PolynomialConstraint` is a `dynamic_cast` to a reference to `Rank1Constraint` (adapters.cpp:36) and throws `std::bad_cast` (`C55_convert_iff`). The two conversions read the global variable counter at the time of the call, so they disagree if a variable is created in between (`C55_late_variable`).
48. `LogicImplication_Gadget::generateWitness` assigns the flag only when the condition is 1 (gadget.cpp:872-876); otherwise the flag stays as it was, possibly unassigned.
49. `gadget_from_r1cs` looks indices up with `operator[]` of a `std::map` (gadget_from_r1cs.tcc:77), which makes a new entry 0 for an unknown index: a constraint that mentions an index beyond the last variable is read with the constant one there (`C56_beyond_is_one`). A variable listed twice gets the later of its two values, so that the witness may violate the constraints (example beside `C56_witness`).
50. Example generators: `generate_r1cs_example_with_field_input` with zero constraints counts to `size_t(0) - 1` (r1cs_examples.tcc:42; `C57_r1csField_zero`), and its systems are never accepted by `is_valid` (`C57_r1csField_not_valid`); `generate_uscs_example_with_field_input` with one constraint never leaves its inner loop (uscs_examples.tcc:47-52; `C57_uscsField_one`); a value that happens to be zero aborts the USCS and BACS generators in `inverse` (`C57_uscsField_zero`, `C57_bacs_zero`). With more outputs than gates no gate is made an output (bacs_examples.tcc:71, tbcs_examples.cpp:54). `gen_r1cs_example_from_protoboard` is declared with two parameters and defined with one (simple_example.hpp:16-17, simple_example.tcc:18); with one constraint it fails an assertion and with none it wraps around (`C57_fromProtoboard_small`). `block_memory_contents` does not check that its second block fits into the memory (`C57_blockContents_beyond`), and `random_memory_contents` divides by zero when asked for more addresses than there are (`C57_randomContents`). `gen_ram_example_simple` (ram_examples.tcc) assigns to `boot_trace[boot_pos]`, which is not an lvalue of that class, and cannot be instantiated; `gen_ram_example_complex` advances `code_pos` twice per filler instruction (ram_examples.tcc:103-106). Both are left out.
51. `r1cs_ppzkadsnark`: the generator does not zero the entries of `At` for the inputs, which go into a query of their own, so the `DEBUG` assertion of the prover that `A_query[i].g` is zero for the inputs (r1cs_ppzkadsnark.tcc:686-689) fails in every debug build with a used input. `vk_rC_i_g2_precomp` of the processed key is declared, compared and written but never filled in (hpp:413). The secret-key verifier does not compare the number of labels with the number of inputs (`C58_sym_exact` covers every number up to that of the inputs: only that prefix is authenticated); more labels are read out of bounds (`C58_sym_exact`, `C58_pub_lengths`).
52. `r1cs_pcd_compliance_predicate::is_satisfied` applies `.` to shared pointers inside its assertions (compliance_predicate.tcc:217-223), so it does not compile unless assertions are disabled.
53. `tally_cp_handler`: `pack_count_in` is given the bits of the sums (tally_cp.tcc:181), so the counts of incoming messages are ignored and their sums are added instead (`C60_counts_ignored`); the loop that ties the arity to the indicators stops before the last indicator (tally_cp.tcc:206-209), and the types of absent messages are bound with an offset of one (214-217), so that the arity wire is free (`C60_arity_free`); a maximal arity of 0 aborts in the inner product gadget (`C60_no_inputs`).
54. `sp_compliance_step_pcd_circuit_maker` uses `incoming_message_types[0]` whatever the arity (sp_pcd_circuits.tcc:245, 250, 313), so a well-formed predicate with `max_arity` 0 is undefined behaviour (`C61_no_inputs`). The inputs of the PCD verifier are made from a message of any length, and the knapsack hash of dimension 1 ignores zeros at the end: a proof for a message is also a proof for the message with zeros appended (`C61_message_padding`, `Toy.padded_accepted`).
55. `set_commitment_accumulator` leaves unused leaves at zeros, and `set_commitment_gadget` cannot tell them from elements: an element whose hash is all zeros is accepted without being in the set (`C62_unused_slot_wrong`). The knapsack hash of a string of zeros of any length is such (`C62_zero_element_wrong`, `C62_nonmember_wrong`). With `max_entries` at most 1 the gadget ignores its success flag and always forces the root (set_commitment_gadget.tcc:27-30; `C62_depth_zero`).
56. `mp_compliance_step_pcd_circuit_maker` never constrains the bits of the commitment to be Boolean: the hashers of the membership check run without bitness constraints and `check_root` copies with both bitness flags off (mp_pcd_circuits.tcc:108, 284-292; merkle_tree_check_read_gadget.tcc). Its theorems therefore assume bits, unless there is at most one predicate. Consequence, proved: if some vector over the field has the products of the verifier's commitment with the rows of the knapsack matrix and the packed form of a commitment of the prover's choice, then there is an accepted assignment with the prover's own keys for the verifier's commitment (`C63_forged_commitment_wrong`). Such a vector solves about three linear equations in as many unknowns as a digest has bits. `MpToy.C63_foreign_key_wrong` is an instance with all parameters fixed.
57. `mp_compliance_step_pcd_circuit_maker`: `*std::max_element` of the lengths of the incoming messages is undefined if the predicate has none (mp_pcd_circuits.tcc:40); the wire for the arity is not tied to the number of messages of non-zero type; the accepted types are only enforced if the predicate relies on inputs of the same type, and an empty set of accepted types then allows every type (348-355).
58. `r1cs_mp_ppzkpcd_verifier` indexes the keys with `proof.compliance_predicate_idx`, which comes with the proof, without a check (r1cs_mp_ppzkpcd.tcc:461-475): a proof with a large index makes it read outside a vector (`C64_verifier_index_wrong`). `r1cs_mp_ppzkpcd_prover` reads `prev_proofs[0]` for a predicate that relies on inputs of the same type even if there is no incoming proof (368-375; `C64_prover_no_proofs_wrong`).
59. `ram_compliance_predicate_handler` makes the flag of the base case 0 if the incoming type is not 0, but nothing makes it 1 if the incoming type is 0 (ram_compliance_predicate.tcc:394-401). As a message of the type 0 needs no proof in the PCD, a computation can start from any state, for example one that has accepted: the step is compliant (`C65_base_case_wrong`), and with every complete PCD the verifier of the RAM zkSNARK accepts a proof of a false statement (`C65_zksnark_wrong`).
60. The RAM compliance predicate does not make the address and the new value of the memory access bits, and the CPU checkers constrain only the packed value of the address (fooram_cpu_checker.tcc:116-120, tinyram_cpu_checker.tcc:159-164). At a level of the Merkle tree where both children are equal the address variable is then free, and the variables 3 and 0 pass for the address 3 while the path leads to the address 0 or 1: FOORAM on the memory 1, 1, 0, 0 loads the word 1 from address 3 (`C65_fooram_address_wrong`). With bits the steps are those of the machine (`C65_step_sound_partial`, `C65_fooram_step_partial`). `timestamp_length` is 300 for TinyRAM and FOORAM, so for the usual fields time stamps are compared modulo p (`C65_claim_sound_partial` assumes fewer than p steps). The comment `next.has_accepted = cur.has_accepted` for the halting step (lines 255-258) has no constraint: the flag of the next message is whatever the CPU checker computes in that step.

## 6. Mutation tests

A script applies one textual edit to a copy of the model, rebuilds the affected modules, and records which theorems fail
(`seeded/LOG.jsonl`).  An edit that leaves the theorems provable although it changes the claim leads to a stronger theorem.
