# Verification design: dkales/banquet

Source: `/repo` (C++17, Banquet post-quantum signatures: MPC-in-the-head over AES).
Properties: `properties.jsonl` (C01..C102). Model and proofs: `lean/Verif/**`. Status: `MANIFEST.json`.
Mutation log: `seeded/LOG.jsonl`.

## 1. What is modelled, and how

The model is executable Lean 4, one file per C++ file, under `Verif/Model`:

| Model file | C++ source | Contents |
|---|---|---|
| `Basic` | - | bytes, outcome type, little endian encodings |
| `Macros` | macros.h | `ceil_log2` |
| `Instances` | banquet_instances.{h,cpp} | the 23 rows and `banquet_instance_get` |
| `Field` | field.{h,cpp} | bit-level `GF2E` (64-bit words, 128-bit carry-less products), the mutable statics as an explicit `FieldState`, polynomials as coefficient lists |
| `Sponge`, `KeccakHash` | keccak/KeccakHash.c, KeccakSponge.inc, their times4 versions, kdf_shake.h | incremental sponge, single and 4-way, over the functions on the state, with the `unsigned int` arithmetic of the code |
| `Keccak64` | keccak/opt64/* | the portable implementation of the functions on the state: unrolled rounds, access to bytes and lanes, fast loop, 4-way fallback |
| `KeccakX4` | keccak/avx2/KeccakP-1600-times4-SIMD256.c and macros | the 4-way code with 256-bit vectors that a build with `USE_AVX2=ON` (default) uses |
| `KeccakAvx2` | keccak/avx2/KeccakP-1600-AVX2.s | the assembler code of the same build: one `let` per instruction for the rounds, the loops around it, state access and fast loop |
| `Xof` | kdf_shake.h | the interface the protocol uses: a hash is a function from (SHAKE128 or SHAKE256, input bytes) to an infinite byte stream |
| `Container` | types.h | `RepContainer` |
| `Tree` | tree.{h,cpp} | `SeedTree`, both constructors with the three loops (first three nodes, 4-way blocks, rest) |
| `Tape` | tape.{h,cpp} | tapes, single and 4-way |
| `Aes` | aes.cpp | byte field, SSE/AES-NI steps used, key schedules, plain AES with zero checks, AES with recorded S-box pairs, shared AES |
| `Banquet` | banquet.cpp | keygen, sign, verify, serialize, deserialize and the six challenge functions |
| `Code` | kdf_shake.h, and what hashes in tree.cpp, tape.cpp, banquet.cpp | the same protocol functions with the hash calls piece by piece (init, update, final, squeeze, single and 4-way) over any implementation of the functions on the Keccak state; reused or uninitialised buffers are a parameter `Junk` |
| `Loops` | banquet.cpp:290-1194, aes.cpp:519-633, 864-1047, 1282-1473, types.h, tape.cpp | sign and verify and the shared AES evaluation statement by statement: vectors and containers as mutable state, loops in the order of the code, all accesses checked |
| `LoopsField` | field.cpp:16-29, 188-468, banquet.cpp:1196-1320 | the functions on vectors and polynomials, the table of lifted bytes and the encoding statement by statement, all accesses checked |
| `Bench` | tools/bench.cpp, tools/bench_free.cpp, tools/bench_utils.cpp | command lines (with getopt_long and strtol of glibc), parameters and calls of the benchmark tools; not the clocks and what is printed |
| `Threads` | field.cpp:16-30, 188-312, banquet.cpp:294, 783 | the writes of the globals by several threads in any order; a write is atomic |
| `Fixed` | banquet.cpp:144-164 with a changed loop bound | not the code: sign and verify with a repaired second hash (C78) |
| `Lookups` | banquet.cpp:290-566 | The loops of `Loops` up to the lookups in `lifting_lut`, recording the indices |
| `Random` | randomness.c, `banquet_keygen` | all variants of `rand_bytes` over arbitrary results of the system calls; key generation on partially written buffers |
| `Api` | field.cpp, banquet.cpp | call histories over the global field state |

Outcomes. Functions that can fail return `Except Err α` with `Err` one of `thrown` (a C++ exception),
`ub` (out-of-bounds access, undefined builtin argument, or a container used with a size the code does not check),
`abort` (a failed assertion; only in the debug configuration) and `fuel` (a rejection sampling loop did not finish within the
given number of iterations). Theorems are for every amount of fuel. The default configuration is the repository's default
(`Release`, so `assert` is off).

Hash. All protocol theorems are for **every** function `H : kind → List Byte → Nat → Byte`. Nothing about SHAKE is assumed; collision
statements exhibit the collision. C60 and C61 show that the code, with its incremental and 4-way hash calls, is this protocol with `H` the SHAKE of FIPS 202, in both builds.

Sharing loops. In `Model/Banquet`, `for` loops over repetitions, parties, `j`, `k` which write independent entries are maps over `List.range`;
loops which accumulate are folds; slices of a `RepContainer` are lists of lists. `Model/Loops` has the loops, buffers and slices of sign and verify as they are in the code;
C68 shows that the two agree.

Spec. Independent specifications are in `Verif/Spec`: polynomials over `ZMod 2` (Mathlib) for the field, FIPS-197 AES (byte oriented,
written from the standard), FIPS-202 sponge (pad then absorb all blocks then squeeze), the seed tree as a recursive function of the node index,
the verification equations of the paper.

## 2. How each property is proved

| | Approach |
|---|---|
| C01 | Map words to `Polynomial (ZMod 2)`. `clmul` is polynomial product (induction on bits). `reduce` is XOR-linear, so it suffices to check the basis x^0..x^126 against x^i mod p. Degree bound by bits. |
| C02 | Ring laws from C01. A primitive element certificate (an element of order 2^n-1, checked by repeated squaring in the kernel) shows all nonzero residues are units, hence a field. |
| C03 | Invariant of the extended Euclidean algorithm on polynomials; degree decreases. clzl(0) is a parameter of the model. |
| C04 | XOR-linearity of the table construction, and multiplicativity on basis pairs (64 products per lambda). |
| C05, C06 | Transport along the ring isomorphism to Mathlib's `Polynomial`, Lagrange uniqueness there. |
| C07 | Exact order of x per lambda from the factorisation of 2^(8 lambda)-1. |
| C08 | Bit extensionality. |
| C09 | Case analysis. |
| C10-C13 | Loop invariants over node indices; existence of nodes characterised by level intervals. C13 gets a counterexample theorem (N = 33) and `_partial` for powers of two. |
| C14 | Unfolding, 4-way hash is four hashes (C39). |
| C15, C16, C41 | Signer and verifier state related repetition by repetition: opened parties have equal views, the hidden party's values are completed from sums. Multiplication check from C05 (degree 2*m2). |
| C17, C18 | List splitting lemmas; sequential parser against writer. |
| C19 | verify unfolded against a declarative statement of the checks. |
| C20, C30, C50 | Injectivity of concatenation with known lengths. |
| C21, C22 | State machine over `FieldState`; C22 negation with concrete histories. `C22_exact`, `C22_longer`, `C22_cut`: what encoding and decoding do after every history. |
| C23, C24, C32, C33, C43, C49 | AES model against FIPS-197 spec; C24 negation by a concrete key whose first S-box input is zero. |
| C25, C26 | Induction on fuel. |
| C27 | Negation with a witness for every instance; `_partial` for the first m2 deltas. |
| C28 | A forger (a Lean function not taking a secret key) with the theorem that its output is accepted. |
| C29, C35 | Explicit second signature / encoding, acceptance preserved. `C35_exact`: the result of decoding for every string. |
| C31 | XOR-linearity of every step, induction over rounds and parties. |
| C34 | Totality: no `ub`/`thrown` outcome from deserialize-then-verify on right-length input. |
| C36, C37 | Evaluation of the table. |
| C38, C39 | `Spec/Snp`: what functions on the state have to do. The sponge of the model simulates an ideal one with unbounded arithmetic (`Proofs/SpongeSim`) as long as no `unsigned int` sum overflows; the ideal one is FIPS 202 by a state abstraction relation (`Proofs/Sponge`). Negations by the overflow of `partialBlock + byteIOIndex`. Exact versions (`Props/Lengths`): `Spec/Fits` says which lengths fit at which position of a block; under that condition the simulation still holds, otherwise the first iteration leaves the state or leaves a multiple of 2^32 bytes that never gets less (`Proofs/SpongeFail`). |
| C56 | Round by round: entries of the unrolled round are, by computation, the formulas of θ, ρ, π, χ, ι; the column parities computed on the fly are those of the next state. Access code: loop invariants over the bytes already added. |
| C57 | One instance of the vectors is the scalar code of C56 (lane-wise operations; the byte shuffles `rho8`, `rho56` are rotations). Access: lane `l` of instance `i` is word `4 l + i`. |
| C58 | Instructions as functions on four 64-bit words; blends, permutations and shifts are evaluated to word level, then each of θ, ρπ, χ on 25 symbolic words. Invariant: the four words of `ymm0` are equal. Memory: `mapState` is injective on words, so changing the mapped word is changing the lane. |
| C59 | All implementations equal FIPS 202 (C56, C57, C58). |
| C60 | Relation between a context and the bytes absorbed so far (`Abs`) or the bytes squeezed so far (`Rd`), kept by every call (C38, C39); induction over the loops around them. |
| C61 | The functions of `Model/Code` and of `Model/Banquet` run in lock step: equal results of every hash (C60), 4-way blocks are four single hashes, the contents of the dummies only reach outputs that are not used. Then C15, C16 give interoperability. `Spec/Builds` lists the builds. |
| C62 | Holds for messages up to 2^32 - 168 bytes by C61, C34, C41. Negation: everything before the message fits into one block, so a message of 2^32 minus that length makes `partialBlock + byteIOIndex` zero (C38). Exact versions (`Props/Lengths`): C38's condition at the two places where the message is hashed; sign gets to the second if the first works because everything between is total. |
| C63 | Induction over the loop around `read` with the bytes delivered so far as invariant; the other variants by cases. |
| C64 | Contents of the buffers after n partial writes; the last byte of the key is an S-box input of the key schedule, so a key that was never written completely is rejected. Negation: a complete key and four bytes of plaintext. |
| C40 | Index arithmetic. |
| C42 | Nat.log2 / clog. |
| C44 | XOR-linearity, basis check. |
| C45, C46 | Root counting; linear algebra counting. |
| C47 | For given tapes of the opened parties: values sent are an injective, hence bijective, function of the hidden tape (degrees and roots), and determine everything else (completion of sums). |
| C52 | Two openings give all shares of all parties (each party is opened in one of the two), so the claimed values are those of the shared polynomials; then C45 (`R`), C46 (`r`) and C49 (no bad S-box means key pair). |
| C65 | C52 for each repetition; counting of the tables in which at least `t` entries lie in small sets (`Proofs/Count.lean`); the third round by C52 for repetitions without luck: two accepted choices would differ there. |
| C66 | Exact integer inequality for all 23 sets and all `t1`, `t2`, evaluated by the kernel (`Proofs/Level.lean`); the quotients are bounded below by integers. |
| C67 | The inputs of the first and third hash are equal or collide; hence (encodings are injective) salt, corrections, broadcasts, claimed values and shares agree, so each party is opened correctly in one of the two signatures; then C52. Lengths show that the changed point of the hash function is hit by nothing but the third challenge. |
| C53 | `Spec/Challenge`: blocks of a stream, filter, take. The loops of `phase2Expand`/`phase3Expand` are instances of one rejection loop, whose result is `firstOk` of the blocks read; counting by recursion on the number of blocks (each admissible value has the same number of blocks). `C19_acceptable` uses it to state acceptance without the model's expansion functions. |
| C54 | `Spec/Signed`: what an honest signer outputs, stated by relations (sums over parties, interpolation, `Acceptable`). Forward: closed form of `signWith`. Converse: the corrections are determined by the tapes (the S-box inputs are those of AES by `aesParty_conv`, inverses are unique, `P` is determined by `S`, `T`), so the signature is the closed form. |
| C55 | `Spec/Shared`: FIPS 197 with a list of S-box outputs, one party. The three key schedules and the round loop of the model run in lock step with it. `Spec/Rep` uses it together with `liftVal` (bytes to field elements by the published root of the AES polynomial, C04_value), so acceptance (C19) and signing (C54) are specified without the functions of the model. |
| C48 | Explicit colliding inputs; separation of h_1, h_2, h_3 by first byte. `C48_exact`: the table of the purposes that can share an input, by first byte and length. |
| C51 | verify with the dummy seed as parameter. |
| C68 | The state of every loop of `Model/Loops` after each iteration in closed form (`forTo_state`): containers as functions of repetition, party and position (`of`), vectors as maps over `List.range` with the unwritten entries as they were resized. The closed form of the last state is what `Model/Banquet` computes. Longer keys: invariants of the loops. |
| C69 | A simulation between computations that append recorded values to a list (`Model/Aes`) and computations on the spans of one party (`Model/Loops`): the slot is the recorded list followed by the rest of its old contents. Closed forms of the loops over parties and blocks as for C68. With C55 the slots are FIPS 197 on shares, with C31 and C49 the sums are. |
| C70 | `Model/Lookups` runs the loops of C68 up to the lookups of `lift_uint8_t` and records the indices. The first two AES round keys are the differences between the recorded S-box inputs of the first round and the plaintext, and between those of the second round and the first round's output; they begin with the key. |
| C71 | `Spec/Grind`: queries as an ordered list; the messages of the prover are slices of the inputs of the three hashes, the seeds are looked up in the queries before the first hash. The slices are those of the signature (layout of the inputs); without collision and guess the seeds found are those of the opened parties, so the extracted repetition is accepted (C19). Counting as in C65. `Spec/Fork` has the verification with an arbitrary input of the second hash, so that the same theorem covers the code and the scheme of the paper. |
| C72 | Loops as for C68; `Agree` relates a running offset to the rest of the string. |
| C73 | Every thread carries what it knows about the globals (`Known`); with one field, a statement of another thread only writes values that agree with it. That the statements of an initialisation pass this check is computed for each field. Witnesses with two fields are computed. |
| C74 | `Spec/Line` is a grammar of command lines and of what strtol takes for a number, by concatenation. Both directions by induction over the arguments. |
| C75 | C36 for the parameter set, then C23, C41, C15, C16 in each iteration. |
| C76 | As C74 and C75; witnesses are computed. |
| C77 | `Spec/Oracle`: a random hash function is a uniform table of outputs on a finite set of inputs; a forger is a function that chooses each input from the answers before (`Adaptive`). Probabilities are counts of tables. C71 turns a forgery into one of four events at the first time an input is asked; what is bad depends on all other answers only, so resampling the one answer bounds each event; union bound over the queries. The challenges are uniform by C52-style counting of blocks, also with rejection. The numbers for the supplied sets are evaluated by the kernel. |
| C78 | `Model/Fixed`: the hash with the loop bound changed; sign and verify with the hash as a parameter, equal to `Model/Banquet` by `rfl` when given the hash of the code. `Proofs/Fixed` repeats the proofs of C15, C19, C27, C29, C41 for the changed code, with the full conclusions where those of C27 and C29 are partial; the bound for forgers is C79. |
| C79 | Words of blocks are counted by induction on their length (`card_misses`, `card_misses_le`); the loops of the model are `rejMany`, which succeeds with fuel `n` when the first `n` blocks contain enough allowed values. The tail for the supplied parameters is evaluated by the kernel. For C77 without the limit, the event that one of the queries has a slow output is added. |
| C80 | `Spec/Simulate`: the simulator makes seeds and commitments as the signer does, takes the bytes of the hidden tape as corrections and values at `R`, and runs the first part of verify to find the inputs of the three hashes. `Proofs/Simulate` (`sim_sign`): with a hash function that agrees on the opened seeds, has the three hashes at these inputs and the right tape for each hidden party, `signWith` returns that signature. The right tapes exist by the bijection of C47. `Proofs/Programmed`: the table is changed at the inputs concerned, which are all different, and what was there before is kept in the unused random bytes, so that the change can be undone. `Proofs/Accident` counts the accidents. |
| C81 | `Proofs/Rekey`: the seed of one node is replaced by another one, by changing the half of the answer from which it comes (or the random bytes, for a master seed), and the values at the inputs with the old and the new seed are exchanged; all other seeds stay, and the change can be undone. `Proofs/Unseen`: if the node lies above the hidden party, the simulated signature and the inputs of the three hashes stay the same. `Proofs/Guess`: so the observer asks the same up to the first question about a hidden seed, for at least `256^s - 2q` other seeds, and the choices before and after the change are all different; the sum over the questions, repetitions and nodes gives the bound. |
| C82 | `Proofs/Unforgeable`: the forger and a check whether the forgery is settled form an observer for C81, so the signature may be replaced by a simulated one. `Proofs/Play`: the simulator and the forger together are then one algorithm that asks the table of the simulator; the three values that the simulator sets are at inputs of its own, and a forgery for another message does not use them as its first hash, so it is a forgery for the table without them (or hits one of the digests, `hit_count`), to which the bound of C78/C79 applies; the keys it finds are computed without the secret key. `Proofs/Settled`: the verification depends on the hash function only at the inputs of `AskedAll`. |
| C83 | `Model/KeccakRest`: `roundsN` with its `unsigned int` counter, `rounds12`, byte writes into the lanes. The rounds use the lemmas of C56; the specification of Keccak-p with `n` rounds drops the first `24 - n` round constants. |
| C84 | `Model/Helpers`: the folded word is a sum of `b_k 16^k` with bits `b_k`; the product by `0x11...1` has the sum of the bits as its top digit, because the lower digits are at most 15 and do not carry. |
| C85 | `Model/Careful` (not in the repository): comparisons of lengths and one AES computation before calls of the library. From C16, C34, C35, C41, C50 and the FIPS 197 lemmas. It is evidence that the preconditions found in C22, C24, C35 and C50 are all of them. |
| C86 | `Model/KeccakX4Rest` on `Model/KeccakX4`: the macros with 4x4 transposition (unpack, permute, shuffle) and the loops in the order of the code, 32 bit address products. One lemma `lanesAll_eq` for the unrolled/remainder structure; `sets` for the order of writes. `Spec/KeccakX4Rest` has absorption as a recursion over blocks. |
| C87 | `Model/KeccakX4Rest`: register rotations by permutes, blends and inserts. The vector registers hold lanes 20..24 (resp. 15..24) after 0, 1, 2, 3 rolls (`rollc_eq`, `rolle_eq`); induction over groups of four blocks. Specification: `Spec.rollC`, `rollE`, `compress`, `expand`, one block at a time. |
| C88 | `Model/KeccakHash` on `Model/Sponge`. `Spec/KeccakHash` is FIPS 202 on bit strings (algorithms 8 and 9). `padWith_bits`: suffix byte, zeros and last bit of the code are suffix and pad10*1; `delim_one`, `delim_two`: the last bits of the message move into the suffix. `C88_shake` ties the byte-wise SHAKE specification used elsewhere to the bit-wise one. The model computes the published SHA3-256 values for no bits and for five bits. |
| C89 | `Model/KeccakHash` (`spongeOneCall`). Whole blocks by `absorbFull_drop`, output by induction on the blocks; no bound on the lengths, because the casts to `unsigned int` only see less than a block. |
| C90 | `Model/KeccakX4Bytes` on `Model/KeccakX4`: words of one state at every fourth place, memcpy into a word as `overlay`, the do-while loops that shift a lane out byte by byte. Writes compose by `overwrite_append` (C83). |
| C91 | `Model/KeccakPl4` on `Model/Keccak64` and `Model/KeccakRest`: loops over the four states with 32-bit offsets into byte buffers. `each_list` and `stores_eq` combine the four steps, each of which is C56 or C83. Partial: reading 25 lanes reads a lane behind the state (witness: any states). |
| C92 | `Model/KeccakAvx2Rest` on `Model/KeccakAvx2`: byte and word stores through the table `mapState`, the round loop with an explicit pointer into `iotas` and a counter that is tested behind the round. `view_replace` for one store, `keccakLoop_eq` for the rows of the table. Partial: `Permute_Nrounds` without rounds (witness: the zero state). |
| C93 | `Model/KeccakHash4` on `Model/Sponge`: KeccakHashtimes4.c for any parameters. Each lane of the abstract 4-way context is the context of one message (`ctxR` of C88), through the simulation of `Proofs/SpongeSim`. The fast loop: with offsets 0 the remaining length never changes, so every amount of fuel is used up. |
| C94 | `Model/TestRef`: tests/utils.cpp with NTL's types as Mathlib polynomials and `AdjoinRoot`. Moduli and generators set coefficient by coefficient equal the published ones; the conversion is the value map of C02, and every function of the reference is carried to the one of the library along it. |
| C95 | `Model/BenchOut`: the choice of the clock, the ten readings per iteration, printf, and Python's `split`, `splitlines`, `strip` and `int`. `Spec/Average` is the mean. Printed text has neither `I` nor line breaks outside the places where the script splits; printing and reading numbers are inverse. |
| C96 | `Model/RestoreKs`: the four steps of the macro. `aeskeygenassist` of an inverse is the affine map (all 256 bytes evaluated); sums over the parties by induction, the constant 0x63 remains for odd numbers only. |
| C97 | `Model/Morphism`: the script for any list of all homomorphisms. The AES polynomial is irreducible because lifting has no zero divisors; the eight homomorphisms are the library's one after powers of the Frobenius map, and there are no more than the degree. |
| C98 | `Model/TestCases`: the test cases as programs that return whether all `REQUIRE` hold. Follows from C10 to C13, C15, C16, C23 and C41. |
| C99 | `Model/TestUtil`: the test cases as programs, their random and fixed values as inputs. NTL's `interpolate` is chosen by its documentation (`Classical.epsilon`); that there is exactly one such polynomial is part of the proof. Number of bad choices: those that are not injective, counted with `Fintype.card_embedding_eq`. |
| C100 | `Model/TestRest`: the remaining test cases as programs, their fixed values as inputs. Follows from C01, C04, C32, C33 and C94. |
| C101 | `Model/Span`: `gsl::span` as a pair of addresses, sizes as 64 bit words, pointer arithmetic that leaves the array is undefined behaviour, a failed `gsl_Expects` terminates. Justifies the `abort` of `spanRd` and `spanWr` in `Model/Loops`. |
| C102 | `Model/SpanRep`: `RepContainer::get`, `get_repetition` and `RandomTapes::get_bytes` on the spans of C101, with 64 bit offsets. They do what `RepContainer.read`, `spanRd`, `spanWr` and `getBytes` of the other models say. |

## 3. Trusted base

* Lean 4.33.0 kernel and the three standard axioms (`propext`, `Quot.sound`, `Classical.choice`). No own axioms, no `sorry`, no
  `native_decide`, no `bv_decide`. The axioms of each property theorem are listed in section 6.
* That the model is the code. Evidence: line citations on every definition, and an executable run of the whole model (sign, serialize, verify) on
  the known-answer test in `tests/banquet_test.cpp` (see section 5).
* Semantics of Intel intrinsics (`_mm_clmulepi64_si128`, `_mm_aesenc*`, `_mm_aeskeygenassist`, shuffles, the AVX2 instructions of the Keccak code) from the Intel manual, as transcribed in `Model/Field`,
  `Model/Aes`, `Model/KeccakX4` and `Model/KeccakAvx2`.

Not modelled: timing and side channels (except the table lookups of C70), memory allocation failure, the assembler for `USE_AVX2` on calling conventions other than System V, what the system calls and registers behind the clocks of the benchmark tools return (they are inputs in C95), floating point in parse_bench.py, the code of Sage (morphism.sage is modelled on its documented behaviour, C97), the parts of gsl-lite.hpp other than the `span` functions of C101, and the code of NTL (tests/utils.cpp is modelled on its documented behaviour, C94).

## 4. Where the code disagrees with its specification

1. **Signature forgery (C27, C28).** `phase_2_commitment` (banquet.cpp:144-164) hashes `m2` of the `m2 + 1` values `P_delta[repetition][*]`.
   The last one is therefore free after the challenge `R` is known. Anyone can forge signatures for any public key.
2. **Malleability (C29).** In repetitions with hidden party 0 the last `P_delta` is neither used nor hashed.
3. **Deserialization (C35).** No length check: out-of-bounds reads on short input; trailing bytes accepted with `NDEBUG`.
4. **Global field state (C22).** `banquet_serialize_signature` / `banquet_deserialize_signature` use `GF2E::byte_size` without initialising it.
5. **Seed tree overflow (C13).** For N = 33 and other N for which four consecutive interior nodes are absent, `expand_seed_x4` is called with 64 byte
   dummy spans as seeds and writes 64 bytes to the 32 byte array `dummy`. No supplied instance is affected.
6. **Invalid keys (C24).** `banquet_sign` with a key that leads to a zero S-box input reads past the end of `sbox_pairs`.
7. **Instance labels (C37).** `Banquet_L1_Param7` and `Banquet_L1_Param8` are exchanged in the `params` column.
8. **Public key length (C50).** `banquet_verify` hashes `pk` and `message` without separator and does not check `pk.size()`.
9. **Domain separation (C48).** Tape generation and seed commitments are unprefixed; tree expansion and phase 1 share a prefix.
10. **Hashing of 4 GiB and more (C38, C39).** `KeccakSponge.inc:190-192` and `284-286` (and the times4 versions) compute `partialBlock + byteIOIndex` in `unsigned int`; if the
    sum wraps, the whole rest is written over the end of the state, and if the rest is a multiple of 2^32 the loop never ends (CVE-2022-37454). `banquet_sign` and `banquet_verify` hash the
    message after other data, so this can be reached: signing a message of 2^32 - 50 (AES-128), 2^32 - 90 (AES-192) or 2^32 - 98 bytes (AES-256) writes 4 GiB over a context on the stack, for every key;
    verification does so for a message of 2^32 - 65 or 2^32 - 97 bytes (C62). Below 4 GiB, the lengths for which signing leaves defined behaviour are exactly those from 2^32 - 65 (AES-128), 2^32 - 97
    (AES-192) or 2^32 - 98 (AES-256) on (C62_sign_threshold); from 4 GiB on, C62_sign_exact tells for every length whether it works, writes out of range or never ends.
11. **Byte order.** `PLATFORM_BYTE_ORDER` and `IS_LITTLE_ENDIAN` are not defined anywhere, so keccak/opt64 compiles its little endian branches on every machine, while the fast loop converts byte order
    (`HTOLE64`): on a big endian machine the two would not agree. `KeccakP1600_ExtractBytes(state, data, 0, 200)` reads the lane behind the state (never called so).
12. **Calling convention.** KeccakP-1600-AVX2.s uses the full 64-bit registers of arguments declared `unsigned int` (`cmp $0, %rcx`, line 95, and others). The System V ABI leaves the upper halves
    undefined; it works because compilers write 32-bit registers, which clears them. The model takes them to be zero. The state must be aligned to 32 bytes (`KeccakP1600_stateAlignment`), which the model does
    not check.
13. **Random generator (C64).** `banquet_keygen` ignores the return value of `rand_bytes`. If the generator fails for good (for example `GRND_NONBLOCK` before it is seeded) it loops for ever, because the zero key is
    rejected; a short read of the plaintext goes unnoticed.
14. **Key length (C68).** `banquet_sign` does not check the length of the secret key. Of a longer key the AES uses a prefix, but all of it is shared: the rest is added to the key share of the next party, and
    the key deltas are too long for the format.
15. **Secret table indices (C70).** `lift_uint8_t` is a lookup in a table of 2048 bytes, and `banquet_sign` calls it with the S-box inputs and outputs of the AES evaluation under the secret key (banquet.cpp:523-524)
    and with all shares of all parties, the hidden one included (banquet.cpp:564-565). The rest of the code avoids secret indices (AES instructions, masks in `multiply`, carry-less multiplication). The indices determine the key.
16. **Threads (C73).** The field is kept in unprotected globals, and every call of sign and verify writes them. Calls with different fields at the same time compute with a wrong field or with a table that belongs to
    none, and reading a signature can leave its bytes. With one field the writes are a data race by the C++ standard, but they only repeat values that are already there.
17. **Benchmark tools (C74, C76).** `parse_args_free` checks `argc` instead of the number of words left after the options (bench_utils.cpp:155), so that `bench_free -i 3 16 16 31 10` passes a null pointer to strtol. parse_bench.py ends with a ZeroDivisionError for runs of 0 iterations, which `bench -i 0 1` accepts, and for the output of `bench_free` with wrong `m1` and `m2` (C95_noRows).
    After `invalid kappa` bench_free goes on with uninitialised parameters (bench_free.cpp:82-84). The check of `m1 * m2` wraps modulo 2^32. Arguments that are not numbers are read as 0, `12x` as 12.
18. Harmless: `GF2_euclidean_div_quotient` evaluates `__builtin_clzl(0)` but does not use the result (C03);
    `phase_3_expand` reads an uninitialised byte that is masked away (C26). The unused macro `restore_t_shares_KS` adds the constant of the S-box for every party (C96_parties).
    The test case "Precomputed Lagrange Interpolation" draws 20 random points and aborts in NTL if two of them are equal, with probability at most 190 / 2^32 (C99_violated, C99_bound).
    tests/aes_test.cpp doubles vectors with `v.insert(v.end(), v.begin(), v.begin() + v.size())`; the C++ standard requires that the range is not part of the vector itself (the usual libraries copy correctly), so that these test cases have undefined behaviour (C100).
    In Keccak functions that the library does not call: the portable code reads a lane behind the state when all 200 bytes are read at once from offset 0, without using it (C83, C91);
    `Permute_Nrounds` with more than 24 rounds does nothing or reads behind the round constants (C83_more); the assembler version reads outside the round constants for more than 24 rounds and for none (C92_more, C92_rounds_violated);
    the 4-way fast loop can wrap around its length (C86_fastLoop_wraps), and enabling it in KeccakSpongetimes4.c, as a comment there asks, would give a loop that never ends (C93_fastLoop_hangs);
    PlSnP-Fallback.inc defines `ExtractBytes` and `ExtractAndAddBytes` with `void *states`, KeccakP-1600-times4-SnP.h declares them with `const void *states` (the including file does not include that header, so that no compiler sees it).

## 5. Running the model against the known answer test

`Verif/Kat.lean` runs the model of sign, serialize, deserialize and verify with the model of the sponge and of the portable Keccak code. Compiled in a scratch copy, on the input of the test `BANQUET L1_Param1 KAT` (tests/banquet_test.cpp:1133) it prints the 15968 bytes of
`Banquet_L1_Param1_signature` exactly, the expected ciphertext, and `verify true`.

`Verif/Vectors.lean` states the expected values of tests/aes_test.cpp, of the fixed cases of tests/field_test.cpp and tests/util_test.cpp, and vectors of FIPS 197 and FIPS 202; the kernel evaluates the models on them.

The models of getopt_long and strtol in `Model/Bench` were compared with getopt_long and strtol of the C library on 3000 random command lines and 20 strings (by a script outside /verif): no difference.

## 6. Axioms of the property theorems

Output of `#print axioms`, grouped (`tools/axioms.py`).

* none (3 theorems): C07_instances, C56_rhoOffsets, C76_kappa_violated.
* `Classical.choice`, `Quot.sound`, `propext` (329 theorems): C01_mul, C01_add, C02_field, C02_laws, C03_inverse, C03_modulus, C04_lift, C04_value, C04_lift_poly, C05_interpolate, C06_eval, C06_add, C06_scale, C06_mul, C06_roots, C06_dot, C07_order, C07_points, C08_bytes, C08_bits, C10_leaves, C11_rebuild, C11_total, C12_copath, C12_hidden, C13_safe_iff, C13_partial, C13_violated, C15_accepted, C15_keygen, C16_encoded, C17_roundtrip, C18_canonical, C18_injective, C18_total, C19_accepted, C19_decoded, C19_acceptable, C20_bound, C22_initialised, C22_exact, C22_cut, C23_keygen, C24_ub, C24_violated, C24_partial, C24_ub_iff, C25_R, C26_junk, C26_candidate, C27_partial, C27_violated, C28_forged, C28_calls, C28_violated, C29_partial, C29_maul, C29_violated, C30_phase1, C30_phase3, C31_shares, C31_fips, C32_aes, C33_pairs, C34_total, C35_short, C35_trailing, C35_exact, C35_never, C35_partial, C35_violated, C35_trailing_violated, C37_violated, C38_exact, C38_endless, C38_threshold, C38_incremental_partial, C38_chunking_partial, C38_overrun_violated, C38_hang_violated, C38_squeeze_violated, C38_violated, C39_exact, C39_lanes_exact, C39_spec_partial, C39_lanes_partial, C39_overrun_violated, C39_violated, C40_write, C41_total, C41_returns, C42_ceilLog2, C42_clz, C43_mul, C43_inv, C44_barrett, C45_roots, C45_check, C46_rows, C46_total, C46_poly, C47_view, C47_uniform, C47_simulated, C47_hiding, C47_sign, C48_exact, C49_relation, C50_violated, C50_shift, C50_partial, C50_concat, C51_dummy, C51_verify, C52_repetition, C53_r, C53_R, C53_hidden, C53_r_uniform, C53_R_uniform, C53_hidden_uniform, C54_sign, C54_iff, C54_unique, C55_party, C55_encrypt, C55_conv, C56_permutation, C56_permutation_bytes, C56_state, C56_state4, C56_shake, C56_shake4, C57_permutation, C57_state, C57_shake4, C58_permutation, C58_state, C58_extract, C58_shake, C59_same_hash, C59_same_hash4, C59_lane, C60_salt, C60_node, C60_nodes, C60_tape, C60_tapes, C60_commit, C60_commits, C60_first, C60_second, C60_third, C60_challenges1, C60_challenges2, C60_challenges3, C61_sign, C61_verify, C61_deserialize, C61_portable, C61_avx2, C61_interoperable, C62_partial, C62_sign_violated, C62_verify_violated, C62_violated, C62_sign_exact, C62_sign_threshold, C62_verify_exact, C63_urandom, C63_success, C63_eof, C64_key_partial, C64_hang, C65_rounds, C65_soundness, C65_error, C66_level, C67_run, C67_verify, C68_sign, C68_verify, C68_sign_total, C68_verify_total, C68_accepted, C69_slots, C69_short, C69_sum, C70_key, C70_lines, C70_distinct, C70_partial, C70_violated, C71_any, C71_code, C71_all, C72_vectors, C72_polynomials, C72_serialize, C72_deserialize, C72_offset, C72_read, C72_whole, C72_code, C73_partial, C73_calls, C73_violated, C74_partial, C74_number, C74_args, C74_instance, C75_bench, C76_missing, C76_args, C76_partial, C76_consistent, C77_bound, C77_level, C77_supplied, C78_hash, C78_accepted, C78_returns, C78_acceptable, C78_unique, C78_forger, C79_exact, C79_second, C79_third, C79_sign, C79_slow, C79_level, C79_forger, C80_couple, C80_distinguish, C80_accident, C80_code, C81_seeds, C81_distinguish, C82_simulated, C82_forger, C82_settled, C83_rounds, C83_all, C83_twelve, C83_absorb, C83_overwrite, C83_zeroes, C83_extractAdd, C84_parity16, C84_parity64, C84_sub, C85_sign, C85_verify, C85_accepted, C85_canonical, C85_binding, C86_addLanesAll, C86_overwriteLanesAll, C86_extractLanesAll, C86_extractAndAddLanesAll, C86_rounds, C86_fastLoop, C86_fastLoop_wraps, C87_compress, C87_expand, C87_short, C88_init, C88_hash, C88_shake, C88_noFinal, C89_oneCall, C89_fails, C90_overwrite, C90_zeroes, C90_extractAdd, C91_addLanesAll, C91_overwriteLanesAll, C91_overwrite, C91_rounds, C91_extractAdd, C91_extractLanesAll_partial, C91_extractAndAddLanesAll_partial, C91_extractLanesAll_violated, C92_view, C92_overwrite, C92_zeroes, C92_extractAdd, C92_twelve, C92_rounds_partial, C92_absorb, C92_portable, C93_init, C93_hash, C93_noFinal, C93_fastLoop_hangs, C94_convert, C94_arith, C94_lift, C94_firstN, C94_roots, C94_lagrange, C94_interpolate, C94_differences, C95_read, C95_report, C95_end, C95_noRows, C96_word, C96_parties, C97_script, C97_library, C97_table, C98_trees, C98_sign, C98_roundtrip, C99_partial, C99_repeated, C99_violated, C99_bound, C99_elements, C99_interpolation, C100_aes, C100_field, C100_lift, C101_first, C101_last, C101_from, C101_subspan, C101_calls.
* `Quot.sound`, `propext` (47 theorems): C09_globals, C09_init, C09_reject, C14_tape_bytes, C14_commit_bytes, C21_sign, C21_verify, C21_model, C22_partial, C22_violated, C22_outOfRange_violated, C22_longer, C26_range, C27_last_free, C36_consistent, C36_invalid, C37_partial, C40_read, C43_sbox, C48_partial, C48_violated, C54_inputs, C56_roundConstants, C63_getrandom, C63_windows, C64_violated, C64_success, C68_key_length, C71_fixed, C72_init, C72_wrong_field, C73_mixed_violated, C73_read_violated, C76_violated, C83_more, C84_parity8, C88_late, C92_rounds_violated, C92_more, C93_late, C95_init, C95_elapsed, C96_short, C101_make, C101_unchecked, C101_null, C101_get.
* `propext` (8 theorems): C14_tape, C14_commit, C37_swapped, C40_new, C48_calls, C63_apple, C74_violated, C76_product_violated.
