{"id": "C01", "title": "GF2E multiplication is multiplication modulo the published polynomial", "statement": "After init_extension_field for lambda in {2,4,5,6}, a*b of two GF2E values below 2^(8*lambda) is the canonical representative (below 2^(8*lambda)) of the product of the polynomials a and b over GF(2), modulo x^16+x^5+x^3+x+1, x^32+x^7+x^3+x^2+1, x^40+x^5+x^4+x^3+1, x^48+x^5+x^3+x^2+1 respectively; + and - are polynomial addition.", "quantifier": "all four lambdas, all pairs of reduced elements (2^32 to 2^96 pairs)", "why_tests_cant": "The pairs cannot be enumerated; tests compare some random products with NTL.", "anchors": ["field.cpp: clmul, reduce_GF2_16, reduce_GF2_32, reduce_GF2_40, reduce_GF2_48, GF2E::operator*, GF2E::operator+, GF2E::init_extension_field"]}
{"id": "C02", "title": "The GF2E values form a field", "statement": "For lambda in {2,4,5,6} the reduced GF2E values with + and * are a commutative ring without zero divisors in which every nonzero element has a multiplicative inverse; in particular the four moduli are irreducible.", "quantifier": "all lambdas, all elements and triples of elements", "why_tests_cant": "Irreducibility and the ring laws are statements over up to 2^144 triples.", "anchors": ["field.cpp: GF2E::operator*, GF2E::operator+, GF2E::init_extension_field"]}
{"id": "C03", "title": "GF2E inversion is correct and always terminates", "statement": "For every reduced a, a.inverse() terminates, its result is reduced, a*a.inverse() = 1 for a != 0 and 0.inverse() = 0. The result does not depend on the value that __builtin_clzl(0) (undefined in C) happens to return inside the Euclidean division.", "quantifier": "all lambdas, all reduced elements, all values returned for clzl(0)", "why_tests_cant": "Loop termination and correctness over up to 2^48 inputs; undefined builtin results cannot be varied in a test.", "anchors": ["field.cpp: GF2_euclidean_div_quotient, mod_inverse, GF2E::inverse"]}
{"id": "C04", "title": "lift_uint8_t embeds the AES field", "statement": "For each supported lambda, lift_uint8_t is an injective ring homomorphism from GF(2^8) with the AES polynomial 0x11b (as computed by AES multiply in aes.cpp) into the extension field: lift(a^b)=lift(a)+lift(b), lift(a*b)=lift(a)*lift(b), lift(1)=1, and results are reduced.", "quantifier": "all lambdas, all pairs of bytes", "why_tests_cant": "Tests check the lifting for a few values; that the hard coded generator is a root of the AES polynomial is an algebraic fact about every pair and every lambda.", "anchors": ["field.cpp: (anonymous namespace) lifting_lut initialisation, GF2E::init_extension_field, lift_uint8_t", "aes.cpp: multiply"]}
{"id": "C05", "title": "Interpolation with precomputation returns the interpolating polynomial", "statement": "For pairwise distinct reduced points x_0..x_(n-1) and arbitrary reduced y values, interpolate_with_precomputation(precompute_lagrange_polynomials(xs), ys) has n coefficients and eval at x_i returns y_i for every i; it is the only polynomial of degree below n with that property.", "quantifier": "all lambdas, all n >= 1, all distinct point lists, all value lists", "why_tests_cant": "Unbounded in n and over the whole field; tests try random points of a few sizes.", "anchors": ["field.cpp: precompute_lagrange_polynomials, interpolate_with_precomputation, build_from_roots, eval"]}
{"id": "C06", "title": "Polynomial and vector helpers compute what their names say", "statement": "eval is evaluation of the coefficient vector as a polynomial; vector + adds pointwise and throws on different sizes; the product of coefficient vectors is the polynomial product with size n+m-1; build_from_roots(rs) is the monic product of (X - r); dot_product with lazy reduction equals the sum of reduced products and throws on different sizes.", "quantifier": "all lambdas, all vectors of every length", "why_tests_cant": "Unbounded lengths; correctness of lazy reduction (one reduction after summing unreduced 128 bit products) is an algebraic claim.", "anchors": ["field.cpp: eval, build_from_roots, dot_product, operator+, operator+=, operator* (vector overloads)"]}
{"id": "C07", "title": "get_first_n_field_elements returns distinct nonzero points", "statement": "get_first_n_field_elements(n) returns n pairwise distinct nonzero reduced elements x, x^2, ..., x^n for every n up to the multiplicative order of x, which is far above 2*m2+1 for every instance; hence interpolation in sign and verify never divides by zero.", "quantifier": "all lambdas, all n up to the order of x", "why_tests_cant": "The order of x is between 2^14 and 2^48; distinctness for all n is not testable by enumeration.", "anchors": ["field.cpp: get_first_n_field_elements", "banquet.cpp: banquet_sign, banquet_verify (x_values_for_interpolation_*)"]}
{"id": "C08", "title": "Field element encoding is a bijection", "statement": "to_bytes writes exactly lambda bytes, from_bytes reads exactly lambda bytes, from_bytes(to_bytes(a)) = a for every reduced a and to_bytes(from_bytes(bs)) = bs for every lambda byte string; from_bytes always yields a reduced element.", "quantifier": "all lambdas, all elements, all byte strings of length lambda", "why_tests_cant": "2^48 elements; tests try one.", "anchors": ["field.cpp: GF2E::to_bytes, GF2E::from_bytes"]}
{"id": "C09", "title": "Unsupported extension degrees are rejected by sign and verify", "statement": "If the instance has lambda outside {2,4,5,6}, banquet_sign and banquet_verify throw (std::runtime_error) whatever the other arguments are, and the field globals are left unchanged.", "quantifier": "all instances with unsupported lambda, all keys, messages, signatures", "why_tests_cant": "The inputs are unbounded; tests use supported lambdas only.", "anchors": ["field.cpp: GF2E::init_extension_field (default case)", "banquet.cpp: banquet_sign, banquet_verify"]}
{"id": "C10", "title": "A freshly built seed tree has every leaf, derived from the root", "statement": "After SeedTree(seed, N, salt, rep) with N >= 2 returns, get_leaf(i) has a value for every i < N, and that value is the seed obtained from the root by hashing (prefix 1, parent seed, salt, rep, parent index) down the path to node first_leaf + i, whatever mixture of 4-way and single expansions was used.", "quantifier": "all N >= 2, all seeds, salts, repetition indices, all hash functions", "why_tests_cant": "All tree sizes, including those where 4-way blocks are partly filled; tests use a few sizes and only compare the tree with itself.", "anchors": ["tree.cpp: SeedTree::SeedTree(const std::vector<uint8_t>&, ...), SeedTree::get_leaf, expand_seed, expand_seed_x4"]}
{"id": "C11", "title": "Revealing all but one leaf lets the verifier rebuild exactly the other leaves", "statement": "For every hidden leaf h < N, SeedTree(reveal_all_but(h), N, salt, rep) has the same value as the original tree at every leaf other than h, and no value at leaf h.", "quantifier": "all N >= 2, all h < N, all seeds, salts, repetition indices, all hash functions", "why_tests_cant": "All tree shapes and hidden positions.", "anchors": ["tree.cpp: SeedTree::reveal_all_but, SeedTree::SeedTree(const reveal_list_t&, ...), SeedTree::get_leaf"]}
{"id": "C12", "title": "The reveal list is the co-path and nothing else", "statement": "reveal_all_but(h) returns exactly ceil_log2(N) seeds; they are the seeds of the siblings of the nodes on the path from leaf h to the root (zero filled for a sibling that does not exist), so no seed of leaf h or of any of its ancestors is revealed.", "quantifier": "all N >= 2, all h < N", "why_tests_cant": "Leaking an ancestor seed for one shape would break zero knowledge without failing any functional test.", "anchors": ["tree.cpp: SeedTree::reveal_all_but, get_parent", "macros.h: ceil_log2"]}
{"id": "C13", "title": "Building a seed tree is memory safe", "statement": "SeedTree(seed, N, salt, rep) never writes outside its buffers, for every N >= 2. (It does: when four consecutive interior nodes are absent, e.g. N = 33, expand_seed_x4 squeezes 2*64 bytes into buffers of 32 bytes. For N a power of two, as in every supplied instance, it is safe.)", "quantifier": "all N >= 2", "why_tests_cant": "The overflow occurs only for particular N and silently corrupts the stack.", "anchors": ["tree.cpp: SeedTree::SeedTree(const std::vector<uint8_t>&, ...), expand_seed_x4"]}
{"id": "C14", "title": "Signer and verifier derive identical tapes and commitments per party", "statement": "generate_4_tapes and commit_to_4_party_seeds give every party the same tape and commitment as four calls to generate_tape and commit_to_party_seed with the same seed, repetition and party index; tapes have the requested size and are the hash of seed, salt, repetition and party; commitments are the hash of salt, repetition, party and seed.", "quantifier": "all seeds of the instance's length, salts, repetitions, parties, all hash functions", "why_tests_cant": "Sign uses the single call for tapes and the 4-way call for commitments, verify uses the 4-way calls; agreement must hold for every input.", "anchors": ["tape.cpp: RandomTapes::generate_4_tapes, RandomTapes::generate_tape", "banquet.cpp: commit_to_party_seed, commit_to_4_party_seeds"]}
{"id": "C15", "title": "Every signature produced by sign verifies", "statement": "For every supported instance, every key pair as produced by keygen and every message, if banquet_sign returns a signature then banquet_verify on the public key, that signature and that message returns true (it neither rejects nor throws).", "quantifier": "all instances with supported lambda and consistent parameters (in particular all 23 supplied), all valid keys, all messages of any length, all hash functions", "why_tests_cant": "Messages, keys and hash outputs are unbounded; hidden party positions, rejection sampling paths and share positions are data dependent.", "anchors": ["banquet.cpp: banquet_sign, banquet_verify"]}
{"id": "C16", "title": "Every serialized signature verifies after deserialization", "statement": "verify(pk, deserialize(serialize(sign(m))), m) is true under the conditions of C15 when the field is initialised for the same instance at the time of serialization and deserialization.", "quantifier": "as C15", "why_tests_cant": "As C15.", "anchors": ["banquet.cpp: banquet_serialize_signature, banquet_deserialize_signature, banquet_verify, banquet_sign"]}
{"id": "C17", "title": "Deserialization inverts serialization and the size is fixed", "statement": "For every well-formed signature (field lengths as sign produces them, hidden party indices derived from h_3) deserialize(serialize(s)) = s, and the serialized length is 32 + 2*digest_size + num_rounds*(ceil_log2(N)*seed_size + digest_size + key_size + num_sboxes + (m2 + 2 + 2*m1)*lambda), independent of the content.", "quantifier": "all instances, all well-formed signatures", "why_tests_cant": "Unbounded set of signatures.", "anchors": ["banquet.cpp: banquet_serialize_signature, banquet_deserialize_signature"]}
{"id": "C18", "title": "The encoding is canonical", "statement": "For every byte string of exactly the serialized length, serialize(deserialize(bs)) = bs; so two different byte strings of that length never decode to the same signature.", "quantifier": "all instances, all byte strings of the right length", "why_tests_cant": "About 2^(8*13000) strings.", "anchors": ["banquet.cpp: banquet_serialize_signature, banquet_deserialize_signature"]}
{"id": "C19", "title": "verify accepts exactly when all recomputed hashes and product checks match", "statement": "For a well-formed signature, banquet_verify returns true if and only if (1) h_1 equals the phase 1 hash of the recomputed commitments and broadcasts in which the hidden party's broadcast completes the ciphertext of pk, (2) h_3 equals the phase 3 hash of the shares recomputed from the opened seeds, with hidden shares completing P_at_R, S_j_at_R and T_j_at_R, and (3) sum_j S_j_at_R*T_j_at_R = P_at_R in every repetition. No check is skipped for any repetition or party.", "quantifier": "all instances, public keys, messages, signatures", "why_tests_cant": "A missing check is invisible to tests on honest signatures.", "anchors": ["banquet.cpp: banquet_verify, phase_1_commitment, phase_3_commitment"]}
{"id": "C20", "title": "A signature is bound to its message and public key", "statement": "If the same signature is accepted for (pk, m) and (pk', m') with public keys of the instance's length, then pk = pk' and m = m' or two different inputs with the same phase 1 hash have been exhibited.", "quantifier": "all instances, signatures, messages of any length, public keys of the right length, all hash functions", "why_tests_cant": "Quantifies over all pairs of messages.", "anchors": ["banquet.cpp: banquet_verify, phase_1_commitment"]}
{"id": "C21", "title": "sign and verify do not depend on what was called before", "statement": "The result of banquet_sign and banquet_verify is the same whatever API calls (with whatever instances) happened earlier in the process, although the field parameters are global mutable state.", "quantifier": "all call histories, all arguments", "why_tests_cant": "The set of call histories is infinite.", "anchors": ["field.cpp: GF2E::init_extension_field, GF2E::modulus, GF2E::byte_size", "banquet.cpp: banquet_sign, banquet_verify"]}
{"id": "C22", "title": "serialize and deserialize do not depend on what was called before", "statement": "The result of banquet_deserialize_signature (and of serialize) depends only on its arguments. (It does not hold: neither calls init_extension_field, so in a fresh process every field element decodes to 0, and after using an instance with another lambda the elements are cut or read too far. It holds among histories whose last initialisation used the same lambda.)", "quantifier": "all call histories, all byte strings", "why_tests_cant": "The set of call histories is infinite; tests always sign or verify with the same instance first.", "anchors": ["banquet.cpp: banquet_serialize_signature, banquet_deserialize_signature", "field.cpp: GF2E::from_bytes, GF2E::to_bytes, GF2E::byte_size"]}
{"id": "C23", "title": "keygen only returns usable key pairs", "statement": "If banquet_keygen returns (sk, pt||ct) then the lengths are key_size and 2*block_size*num_blocks, ct is the FIPS-197 AES encryption of pt under sk block by block, and no S-box input is zero in key schedule or encryption, whatever bytes the random source returned and however many attempts were rejected.", "quantifier": "all instances with key_size 16, 24, 32, all outputs of the random source", "why_tests_cant": "Randomness cannot be enumerated.", "anchors": ["banquet.cpp: banquet_keygen", "aes.cpp: AES128::aes_128, AES192::aes_192, AES256::aes_256"]}
{"id": "C24", "title": "sign rejects or survives unusable keys", "statement": "Calling banquet_sign with a key of the right length for which some S-box input is zero has defined behaviour. (It has not: aes_*_with_sbox_output then stops early, and sign reads sbox_pairs beyond its end.)", "quantifier": "all keys of the right length", "why_tests_cant": "Tests only sign with keys from keygen; out-of-bounds reads are not observed by assertions.", "anchors": ["banquet.cpp: banquet_sign", "aes.cpp: AES128::aes_128_with_sbox_output, AES192::aes_192_with_sbox_output, AES256::aes_256_with_sbox_output"]}
{"id": "C25", "title": "The R challenges avoid the S-box evaluation points", "statement": "phase_2_expand, when it returns, returns num_rounds reduced elements, none of which is among the first m2 interpolation points.", "quantifier": "all instances, all h_2, all hash functions", "why_tests_cant": "The rejection branch has probability about m2/2^(8 lambda) and is practically never taken in tests, but hitting a forbidden point reveals S-box inputs.", "anchors": ["banquet.cpp: phase_2_expand"]}
{"id": "C26", "title": "The hidden party index is always in range and never depends on uninitialised memory", "statement": "phase_3_expand, when it returns, returns num_rounds indices below num_MPC_parties; with at most 256 parties only one byte of the uint16_t is written, and the result does not depend on the unwritten byte.", "quantifier": "all instances with 2 <= N < 2^16, all h_3, all hash functions, all values of the uninitialised byte", "why_tests_cant": "Uninitialised memory cannot be controlled in a test; range for N not a power of two is never exercised.", "anchors": ["banquet.cpp: phase_3_expand"]}
{"id": "C27", "title": "The second challenge binds all P deltas", "statement": "The phase 2 hash input determines salt, h_1 and all m2+1 values P_delta of each repetition. (It does not: the loop stops at k < m2, so the last P_delta of every repetition is not hashed before R is derived.)", "quantifier": "all instances, all pairs of inputs", "why_tests_cant": "An absent hash input is invisible in tests of honest signatures; both sides omit it consistently.", "anchors": ["banquet.cpp: phase_2_commitment"]}
{"id": "C28", "title": "Nobody without the secret key can produce an accepted signature", "statement": "No algorithm that only receives instance, public key and message outputs an accepted signature. (Violated: choose any key and any S-box outputs consistent with the ciphertext, and choose the unhashed last P_delta after seeing R so that the product check holds. The forged signature is accepted for every hash function whenever R_e is not among the first 2*m2 interpolation points.)", "quantifier": "all instances, public keys, messages, all hash functions", "why_tests_cant": "Unforgeability ranges over all adversaries; no test contains an attack.", "anchors": ["banquet.cpp: phase_2_commitment, banquet_verify, phase_2_expand"]}
{"id": "C29", "title": "An accepted signature cannot be changed into another accepted one", "statement": "From an accepted signature for m nobody derives a different accepted signature for m. (Violated: in a repetition whose hidden party is 0, P_delta is not used by verify and its last element is not hashed, so it can be replaced freely.)", "quantifier": "all accepted signatures with some hidden party 0, all replacements", "why_tests_cant": "Tests flip no bits of signatures; only specific fields in specific repetitions are affected.", "anchors": ["banquet.cpp: banquet_verify, phase_2_commitment"]}
{"id": "C30", "title": "The first and third challenge bind everything they are meant to bind", "statement": "For public keys, vectors and shares of the instance's sizes, the phase 1 hash input determines salt, pk, message, all commitments, all output broadcasts and all deltas, and the phase 3 hash input determines salt, h_2, all c, a, b values and all their shares.", "quantifier": "all instances, all pairs of inputs of the right sizes", "why_tests_cant": "Injectivity of an encoding over unbounded inputs.", "anchors": ["banquet.cpp: phase_1_commitment, phase_3_commitment, hash_update_GF2E"]}
{"id": "C31", "title": "The shared AES evaluation reconstructs to the plain one", "statement": "For any number of parties and any key and t shares, the XOR of the parties' s shares and of their ct shares computed by aes_{128,192,256}_s_shares equals the s and ct values computed from the XOR of key shares and XOR of t shares by the plain round function with given S-box outputs t.", "quantifier": "all N >= 1, all shares, all plaintexts, three key sizes", "why_tests_cant": "Shares are unbounded; needs linearity of every step for every input and every party count.", "anchors": ["aes.cpp: AES128::aes_128_s_shares, AES192::aes_192_s_shares, AES256::aes_256_s_shares"]}
{"id": "C32", "title": "aes_128/192/256 compute FIPS-197 AES or report a zero S-box input", "statement": "aes_{128,192,256}(key, pt, ct) returns true exactly if no S-box input in key schedule and encryption of all blocks is zero, and then ct is the FIPS-197 encryption of pt under key (two blocks with the same key for 192 and 256).", "quantifier": "all keys and plaintexts", "why_tests_cant": "2^256 or more inputs; tests use a few vectors.", "anchors": ["aes.cpp: AES128::aes_128, AES192::aes_192, AES256::aes_256, check_for_zeros macros"]}
{"id": "C33", "title": "The recorded S-box pairs are the multiplication triples the proof needs", "statement": "For a valid key the vectors returned by aes_*_with_sbox_output have exactly num_sboxes entries each, s[i]*t[i] = 1 in the AES field for all i, and they are, in order, the s values which the shared evaluation reconstructs from key and t.", "quantifier": "all valid keys and plaintexts, three key sizes", "why_tests_cant": "Order and completeness of 200 to 500 recorded values must agree between two separately written routines for every key.", "anchors": ["aes.cpp: aes_128_with_sbox_output, aes_192_with_sbox_output, aes_256_with_sbox_output, aes_*_s_shares, inverse"]}
{"id": "C34", "title": "Verification of any byte string of the right length has defined behaviour", "statement": "For every supplied instance, every pk of the right length, every message and every byte string of the serialized length, deserialize followed by verify performs no out-of-bounds access and throws no exception (it returns true or false, unless a rejection sampling loop never ends).", "quantifier": "all byte strings of the right length, all public keys, messages, hash functions", "why_tests_cant": "Attacker controlled input space cannot be enumerated.", "anchors": ["banquet.cpp: banquet_deserialize_signature, banquet_verify", "tree.cpp: SeedTree::SeedTree(const reveal_list_t&, ...)"]}
{"id": "C35", "title": "Deserialization handles byte strings of the wrong length", "statement": "deserialize rejects byte strings that are not exactly one signature. (Violated: strings that are too short are read out of bounds; trailing bytes are ignored when assertions are disabled, so every accepted encoding has infinitely many accepted extensions.)", "quantifier": "all byte strings", "why_tests_cant": "Lengths are unbounded; tests only feed back serialized signatures.", "anchors": ["banquet.cpp: banquet_deserialize_signature"]}
{"id": "C36", "title": "The supplied instances are consistent", "statement": "For each of the 23 parameter sets: lambda is supported, m1*m2 = num_sboxes, num_sboxes and block counts fit the AES variant, N is a power of two between 2 and 2^15, digest_size = 2*seed_size, and 2*m2+1 is below the order of x; these are all the side conditions used by the other properties. Outside 1..23 banquet_instance_get throws.", "quantifier": "all 23 instances, all parameter values", "why_tests_cant": "Consistency conditions across tables are not checked by tests; here they feed the unbounded theorems.", "anchors": ["banquet_instances.cpp: instances, banquet_instance_get", "banquet_instances.h: banquet_instance_t"]}
{"id": "C37", "title": "banquet_instance_get(p).params = p", "statement": "The instance returned for parameter p is labelled p. (Violated for Banquet_L1_Param7 and Banquet_L1_Param8, whose labels are exchanged; it holds for the other 21.)", "quantifier": "all 23 parameters", "why_tests_cant": "Small finite table; recorded because params is hashed into the signing randomness.", "anchors": ["banquet_instances.cpp: instances, banquet_instance_get"]}
{"id": "C38", "title": "Hashing does not depend on how the input and output are cut into pieces", "statement": "For any sequence of hash_update calls followed by hash_final and any sequence of hash_squeeze calls, no memory outside of the state is accessed, all loops end, and the concatenation of the squeezed bytes depends only on the concatenation of the absorbed bytes and equals the sponge construction of FIPS 202 with padding 0x1F on the given permutation.", "quantifier": "all sequences of chunks of any sizes (including 4 GiB and more), both rates, all permutations, all correct implementations of the state functions", "why_tests_cant": "Infinitely many ways of chunking; boundary cases at multiples of the rate; pieces of more than 2^32 bytes are not tried in tests.", "anchors": ["keccak/KeccakSponge.inc: SpongeAbsorb, SpongeAbsorbLastFewBits, SpongeSqueeze", "keccak/KeccakHash.c: Keccak_HashUpdate, Keccak_HashFinal, Keccak_HashSqueeze", "kdf_shake.h: hash_init, hash_update, hash_final, hash_squeeze"]}
{"id": "C39", "title": "The 4-way hash is four independent hashes", "statement": "Every lane of the times4 sponge produces the output of the single sponge on that lane's input.", "quantifier": "all quadruples of inputs of equal lengths, all chunkings, all correct implementations of the state functions", "why_tests_cant": "Unbounded inputs and chunkings.", "anchors": ["keccak/KeccakSpongetimes4.inc: SpongeAbsorb, SpongeAbsorbLastFewBits, SpongeSqueeze", "kdf_shake.h: hash_init_x4, hash_update_x4, hash_final_x4, hash_squeeze_x4"]}
{"id": "C40", "title": "Slices of a RepContainer do not interfere", "statement": "get(r,p) returns a slice of object_size elements; writing through it changes what get(r,p) returns at that position and nothing that get returns for another (r',p'), and get_repetition(r)[p] is get(r,p).", "quantifier": "all container sizes, all in-range indices, all values", "why_tests_cant": "All sizes and index pairs; offset arithmetic errors at one index corrupt another party's data.", "anchors": ["types.h: RepContainer::get, RepContainer::get_repetition"]}
{"id": "C41", "title": "sign never fails on a valid key", "statement": "For every consistent instance, valid key pair and message, banquet_sign does not throw (in particular never 'final sanity check is wrong') and performs no out-of-bounds access; it returns a signature as soon as its rejection sampling loops end.", "quantifier": "all consistent instances, valid keys, messages, hash functions", "why_tests_cant": "The sanity check compares polynomials at hash-derived points for all keys.", "anchors": ["banquet.cpp: banquet_sign"]}
{"id": "C42", "title": "ceil_log2 is the rounded-up binary logarithm", "statement": "For every x < 2^32, ceil_log2(x) is the least n with x <= 2^n (0 for x = 0 and x = 1), and the two implementations of clz in macros.h (builtin and portable fallback) agree, including at 0.", "quantifier": "all 32 bit x", "why_tests_cant": "2^32 inputs; only one of the two clz implementations is compiled on a given machine.", "anchors": ["macros.h: ceil_log2, clz"]}
{"id": "C43", "title": "Byte multiplication, squaring and inversion are those of the AES field", "statement": "multiply(a,b) is the product in GF(2)[X]/(X^8+X^4+X^3+X+1); square(a) = a*a; inverse(a) is the field inverse with inverse(0) = 0; the S-box computed from inverse and the affine map is the FIPS-197 S-box.", "quantifier": "all bytes and pairs of bytes", "why_tests_cant": "Enumerable in principle, but the repository tests only AES vectors; needed as a base of other properties.", "anchors": ["aes.cpp: multiply, square, inverse"]}
{"id": "C44", "title": "Barrett reduction agrees with the shift reduction", "statement": "reduce_GF2_32_barret(x) = reduce_GF2_32(x) for every 128 bit x below 2^64.", "quantifier": "all 2^64 inputs", "why_tests_cant": "2^64 inputs.", "anchors": ["field.cpp: reduce_GF2_32_barret, reduce_GF2_32"]}
{"id": "C45", "title": "The polynomial check catches a wrong product except at few points", "statement": "If the committed polynomial P (degree at most 2*m2) differs from sum_j S_j*T_j (each of degree at most m2), then P(R) = sum_j S_j(R)*T_j(R) for at most 2*m2 field elements R.", "quantifier": "all lambdas, all polynomials given by their shares, all R", "why_tests_cant": "Counting over up to 2^48 challenge values.", "anchors": ["banquet.cpp: banquet_verify (accum check), banquet_sign (P)"]}
{"id": "C46", "title": "The random linear combination catches a wrong S-box except with probability 1/|F|", "statement": "If some pair has s*t != 1, then for the m2-row check sum_j r_j*s_(j,k)*t_(j,k) = sum_j r_j, at most |F|^(m1-1) of the |F|^m1 vectors r satisfy all m2 equations.", "quantifier": "all lambdas, all s and t values", "why_tests_cant": "Counting over |F|^m1 vectors.", "anchors": ["banquet.cpp: phase_1_expand, banquet_verify (sum_r, s_bar, t_bar)"]}
{"id": "C47", "title": "The opened views do not depend on the secret key", "statement": "For fixed tapes of the opened parties and a fixed hidden party, for any two valid keys there is a bijection between the hidden party's tapes under which all deltas, broadcasts and opened shares seen by the verifier are equal: the MPC layer perfectly hides the key.", "quantifier": "all valid key pairs for the same public key, all tapes, all hidden parties, all r and allowed R", "why_tests_cant": "Zero knowledge is a statement about distributions over all tapes.", "anchors": ["banquet.cpp: banquet_sign"]}
{"id": "C48", "title": "Hash uses are domain separated", "statement": "The hash inputs used for different purposes never coincide. (Violated: tape generation and party seed commitments are unprefixed, tree expansion shares prefix 1 with the phase 1 commitment; there are inputs for which two different purposes hash the same bytes. The three challenge hashes h_1, h_2, h_3 are separated from each other.)", "quantifier": "all inputs of the hash calls", "why_tests_cant": "Quantifies over all pairs of inputs.", "anchors": ["kdf_shake.h: hash_init_prefix, HASH_PREFIX_1, HASH_PREFIX_2, HASH_PREFIX_3", "banquet.cpp: commit_to_party_seed, phase_1_commitment, phase_2_commitment, phase_3_commitment", "tape.cpp: RandomTapes::generate_tape", "tree.cpp: expand_seed"]}
{"id": "C49", "title": "The proved relation is the AES relation", "statement": "For every key and t values: if the plain round function with S-box outputs t yields s values with s[i]*t[i] = 1 for all i and yields ciphertext ct, then FIPS-197 AES of pt under key is ct and no S-box input is zero; so a witness for the MPC relation is a secret key for the public key.", "quantifier": "all keys, t values, plaintexts, ciphertexts, three key sizes", "why_tests_cant": "Soundness statement over all (also malicious) witnesses.", "anchors": ["aes.cpp: aes_128_s_shares, aes_192_s_shares, aes_256_s_shares"]}
{"id": "C50", "title": "The boundary between public key and message is fixed by the instance", "statement": "A signature accepted for (pk, m) is not accepted for a different pair (pk', m'), for byte strings pk' of any length. (Violated for over-long public keys: verify does not check pk.size(), and (pk || x, m) is accepted exactly when (pk, x || m) is.)", "quantifier": "all public keys of length at least 2*block_size*num_blocks, all messages", "why_tests_cant": "Quantifies over all splits; tests use keys of the right length.", "anchors": ["banquet.cpp: banquet_verify, phase_1_commitment"]}
{"id": "C51", "title": "Opened seeds determine what is revealed about hidden values", "statement": "verify never reads the hidden party's seed: changing the dummy seed used for the hidden party (value_or(dummy)) does not change the result of verify.", "quantifier": "all signatures, all dummy seeds", "why_tests_cant": "The dummy is a constant in the code; independence of it is what makes the recomputation meaningful.", "anchors": ["banquet.cpp: banquet_verify (value_or(dummy))"]}
{"id": "C52", "title": "Without the key, a repetition can be opened only for few challenges", "statement": "For all corrections of key and S-box outputs and all tapes of one repetition: if the key shared by the parties is not a secret key for the public key, then for all but |F|^(m1-1) of the |F|^m1 challenges r_1..r_m1, and whatever corrections of P are sent afterwards, all but at most 2*m2 challenges R are such that no claimed values and shares pass the recomputation and the product check for two different hidden parties. So a cheating prover passes with at most one choice of the hidden party, except for those challenges.", "quantifier": "all instances, public keys, tapes, corrections, challenges, claimed values and shares", "why_tests_cant": "Soundness against every prover; the exceptions are a fraction 1/|F| of the challenges, which tests never meet.", "anchors": ["banquet.cpp: banquet_verify, phase_1_expand, phase_2_expand, phase_3_expand"]}
{"id": "C53", "title": "Challenges are drawn uniformly from disjoint blocks", "statement": "The challenges r are consecutive blocks of lambda bytes of the XOF output for h_1, one block per challenge; the challenges R are the first num_rounds of the consecutive blocks for h_2 whose element is none of the first m2 interpolation points; the hidden parties are the first num_rounds of the consecutive blocks for h_3 (one byte, two for more than 256 parties, cut to the bits needed) below N. Every table of r is given by exactly one block sequence, and for each number n of blocks all admissible lists of R, and all lists of hidden parties, are given by the same number of sequences of n blocks.", "quantifier": "all instances, hashes, XOFs, all lists of challenges, all numbers of blocks", "why_tests_cant": "Uniformity is a count over all 256^n outputs; overlapping or reused blocks and modulo bias leave every single signature valid.", "anchors": ["banquet.cpp: phase_1_expand", "banquet.cpp: phase_2_expand", "banquet.cpp: phase_3_expand"]}
{"id": "C54", "title": "sign returns exactly the specified signature", "statement": "For a key pair, sign returns sig (for some number of rejection iterations) exactly when sig is in the format of the instance and: its salt is the first 32 bytes of the XOF output for instance number || sk || pk || message, the master seed of repetition e is the e-th block after the salt, the revealed seeds are the tree seeds beside the path to the hidden party, the commitment is to the hidden party's seed, the corrections make all parties together share sk, S-box inputs with their inverses, the ciphertext, and polynomials with P = sum S_j T_j, the values are those of the polynomials at R, and hashes and hidden parties are acceptable. There is at most one such signature. Inputs of the randomness derivation differ for different instance numbers, keys or messages.", "quantifier": "all instances, key pairs, messages, XOFs, signatures", "why_tests_cant": "Wrong randomness derivation (message left out, overlapping or repeated seeds) still gives signatures that verify; the specification fixes every byte for every input.", "anchors": ["banquet.cpp: banquet_sign, generate_salt_and_seeds"]}
{"id": "C55", "title": "The AES evaluation of one party is FIPS 197 on shares", "statement": "aes_*_s_shares computes, for each party and any shares of the key and of the S-box outputs, the key schedule, rounds and last round of FIPS 197 in which the output of the k-th S-box is the affine map applied to the k-th share of the inverses; the constant of the affine map, the round constants and the plaintext are added for the first party only. S-box inputs are listed for the key schedule first, then per block and round row by row. A single party with the inverses of its S-box inputs computes AES, and no other outputs fit.", "quantifier": "all three AES variants, all parties, all shares, keys and plaintexts (not only consistent sharings)", "why_tests_cant": "Tests only check the XOR over all parties of honest shares; an error in one party that another one compensates, or one for inconsistent shares, is invisible there. The verifier's behaviour for such shares decides soundness.", "anchors": ["aes.cpp: aes_128_s_shares, aes_192_s_shares, aes_256_s_shares"]}
{"id": "C56", "title": "The portable Keccak code is FIPS 202", "statement": "KeccakP1600_Permute_24rounds of keccak/opt64 is Keccak-p[1600, 24]; AddByte, AddBytes, ExtractBytes and KeccakF1600_FastLoop_Absorb read and write exactly the bytes of the 200 byte state they should, for every offset and length the sponge uses, and likewise for the 4-way fallback; hence hashing in a build with USE_AVX2=OFF is SHAKE128/SHAKE256.", "quantifier": "all states, all data, all offsets and lengths inside the state; all messages and output lengths in pieces below 2^32 bytes minus the rate", "why_tests_cant": "2^1600 states; the hand-unrolled rounds with renamed variables and the lane-wise access code with its many special cases are exercised by a few vectors only.", "anchors": ["keccak/opt64/KeccakP-1600-opt64.c: KeccakP1600_Permute_24rounds, KeccakP1600_AddBytes, KeccakP1600_ExtractBytes, KeccakF1600_FastLoop_Absorb", "keccak/opt64/KeccakP-1600-64.macros", "keccak/SnP-Relaned.h", "keccak/opt64/PlSnP-Fallback.inc"]}
{"id": "C57", "title": "The 4-way AVX2 Keccak code is four independent Keccak-p[1600,24]", "statement": "KeccakP1600times4_PermuteAll_24rounds of keccak/avx2 applies Keccak-p[1600, 24] to each of the four interleaved states; KeccakP1600times4_AddByte, AddBytes and ExtractBytes read and write exactly the bytes of the chosen state and leave the others unchanged; 4-way hashing is SHAKE of each of the four messages.", "quantifier": "all 4-tuples of states, all instances, all data, offsets and lengths inside the state; all 4-tuples of messages of equal length", "why_tests_cant": "2^6400 states; interference between the interleaved instances shows only for particular offsets and lengths.", "anchors": ["keccak/avx2/KeccakP-1600-times4-SIMD256.c: KeccakP1600times4_PermuteAll_24rounds, KeccakP1600times4_AddBytes, KeccakP1600times4_ExtractBytes, KeccakP1600times4_AddByte", "keccak/avx2/KeccakP-1600-unrolling.macros: rounds24"]}
{"id": "C58", "title": "The AVX2 assembler code is FIPS 202", "statement": "KeccakP1600_Permute_24rounds in assembler is Keccak-p[1600, 24] on the permuted memory layout given by mapState; AddByte, AddBytes, ExtractBytes and KeccakF1600_FastLoop_Absorb (with its register-only loops for 21 and 17 lanes) access exactly the bytes of the 200 byte state they should and never memory outside of state and data; hashing is SHAKE128/SHAKE256.", "quantifier": "all states, all data, all offsets and lengths inside the state, all lane counts from 1 to 25; all messages and output lengths in pieces below 2^32 bytes minus the rate", "why_tests_cant": "2^1600 states; masks of the gather instructions and the border of unaligned accesses matter for few lengths only; reads behind the input are invisible to tests.", "anchors": ["keccak/avx2/KeccakP-1600-AVX2.s: __KeccakF1600, KeccakP1600_Permute_24rounds, KeccakP1600_AddBytes, KeccakP1600_ExtractBytes, KeccakF1600_FastLoop_Absorb"]}
{"id": "C59", "title": "All builds hash alike", "statement": "The portable and the AVX2 code return the same hash for the same sequence of updates and squeezes, single and 4-way, and instance l of the 4-way hash is the single hash of message l; so signatures do not depend on USE_AVX2 or on which seeds happen to be hashed in groups of four.", "quantifier": "all messages in any pieces, all output lengths (pieces below 2^32 bytes minus the rate), all instances", "why_tests_cant": "A build has only one implementation; tests compare it with fixed vectors, never two implementations on all inputs.", "anchors": ["keccak/CMakeLists.txt: USE_AVX2", "keccak/KeccakHash.c", "keccak/KeccakHashtimes4.c", "kdf_shake.h: hash_init_x4, hash_squeeze_x4"]}
{"id": "C60", "title": "Every hash of the protocol is SHAKE of the specified fields", "statement": "Salt and seeds, seed tree nodes, tapes, seed commitments, the three commitments and the challenges as the code computes them, by successive updates and squeezes on one context or on four at a time, are the bytes of SHAKE128 (32 byte digests) or SHAKE256 (other sizes) of the concatenation of the specified fields: prefix byte, salt, 16-bit little endian counters, keys, message, field elements as lambda bytes; four at a time give the same as one at a time.", "quantifier": "all correct implementations of the functions on the Keccak state (both builds are), all instances, seeds, salts, counters, keys, messages and transcripts with pieces of at most 2^32 - 168 bytes", "why_tests_cant": "A test vector fixes one signature; an order or width of fields that only matters for other counters, sizes or party counts stays unseen.", "anchors": ["kdf_shake.h: hash_init_prefix, hash_update_uint16_le, hash_update_x4_uint16s_le, hash_squeeze_x4_4", "tree.cpp: expand_seed, expand_seed_x4", "tape.cpp: generate_tape, generate_4_tapes", "banquet.cpp: generate_salt_and_seeds, commit_to_4_party_seeds, phase_1_commitment, phase_2_commitment, phase_3_commitment, phase_1_expand"]}
{"id": "C61", "title": "Every build runs the same protocol, independent of uninitialised memory", "statement": "banquet_sign, banquet_verify and banquet_deserialize_signature with the hash code of the portable or of the AVX2 build are the protocol over the SHAKE functions of FIPS 202; the contents of the dummy buffers of the seed trees and of the uninitialised variable in phase_3_expand do not matter; all builds produce the same signature, and each accepts what another has signed and encoded.", "quantifier": "both builds (and every correct implementation of the functions on the Keccak state), all consistent instances, keys and signatures, all messages and public keys of at most 2^32 - 168 bytes, all contents of uninitialised memory", "why_tests_cant": "Tests run one build with whatever the stack contains; equality of builds and independence of memory contents are statements about all runs.", "anchors": ["banquet.cpp: banquet_sign, banquet_verify, banquet_deserialize_signature", "tree.cpp: SeedTree::SeedTree", "kdf_shake.h", "keccak/CMakeLists.txt: USE_AVX2"]}
{"id": "C62", "title": "sign and verify are memory safe for messages of every length", "statement": "For a valid key pair, banquet_sign, and banquet_deserialize_signature followed by banquet_verify on a byte string of the right length, have no undefined behaviour, whatever the message.", "quantifier": "both builds, all consistent instances, all key pairs, all messages of every length, all byte strings of the right length", "why_tests_cant": "The failing messages are about 4 GiB long and only a few lengths fail.", "anchors": ["banquet.cpp: generate_salt_and_seeds, phase_1_commitment", "kdf_shake.h: hash_update", "keccak/KeccakSponge.inc: SpongeAbsorb"]}
{"id": "C63", "title": "rand_bytes reports success only if it filled the whole buffer", "statement": "In every variant of rand_bytes (getrandom, SecRandomCopyBytes, /dev/urandom, BCryptGenRandom), the bytes delivered by the operating system end up, in order, at the beginning of the buffer and the rest is unchanged; the function returns 1 only if the whole buffer was delivered; it never writes outside the buffer; short reads and interrupted calls lose or repeat nothing; the length is never truncated. With /dev/urandom it returns 1 as soon as the deliveries add up and 0 only after a system call has failed for good (a file at its end makes it loop for ever).", "quantifier": "all buffers of every length, all sequences of results of open, ioctl, read, getrandom, SecRandomCopyBytes and BCryptGenRandom in which no call writes more than it is asked for", "why_tests_cant": "Short reads, EINTR, EAGAIN and lengths beyond 2^32 practically never occur in a test; each platform compiles only one variant.", "anchors": ["randomness.c: rand_bytes"]}
{"id": "C64", "title": "Key generation never returns values that the random generator did not deliver", "statement": "If banquet_keygen returns then every byte of the secret key and of the plaintext in the public key was delivered by the random generator, also when calls of rand_bytes fail or deliver only a part; the secret key is valid for the public key.", "quantifier": "all consistent instances, all sequences of partial or complete deliveries by the two calls of rand_bytes per iteration, all numbers of iterations", "why_tests_cant": "Needs failures of the random generator of the operating system, in all combinations; the return value of rand_bytes is ignored by banquet_keygen.", "anchors": ["banquet.cpp: banquet_keygen", "randomness.c: rand_bytes"]}
{"id": "C65", "title": "Soundness of the protocol, all repetitions together", "statement": "Consider the interactive protocol behind the signature (tapes and corrections; challenges r; corrections of P; challenges R; values and shares; hidden parties). If in no repetition the committed tapes share a secret key for the public key, then except for few1(t1+1) of the first challenges, whatever corrections of P are sent, except for few2(t2+1) of the second challenges, whatever values and shares are sent, at most N^(t1+t2) of the N^T choices of hidden parties are accepted. Hence every prover strategy wins for at most the sum of the three terms, out of |Round1| * |Round2| * |Round3| challenges, whose exact sizes are given.", "quantifier": "all consistent instances, all public keys of the right length, all tapes and corrections of all repetitions, all strategies (functions of the previous challenges), all t1 and t2", "why_tests_cant": "Universally quantified over cheating strategies and a count over astronomically large challenge sets.", "anchors": ["banquet.cpp: banquet_verify", "banquet.cpp: phase_1_expand", "banquet.cpp: phase_2_expand", "banquet.cpp: phase_3_expand"]}
{"id": "C66", "title": "The supplied parameters reach the key length of AES against the round-by-round attack", "statement": "For each of the supplied parameter sets, an attacker of the non-interactive scheme that searches for a first challenge lucky in t1 repetitions, then for a second challenge lucky in t2 repetitions and then guesses the hidden parties of the remaining ones expects at least 2^(8*keySize) hash evaluations, for every t1 and t2. (This is for the scheme in which all corrections of P are hashed before the second challenge; in the code the last one is not, which makes the attack free: C28.)", "quantifier": "all 23 parameter sets of banquet_instances.cpp, all t1 + t2 <= T", "why_tests_cant": "The numbers are far beyond what can be run; the parameters are a table of constants whose adequacy no test checks.", "anchors": ["banquet_instances.cpp: instances"]}
{"id": "C67", "title": "A key can be extracted from two signatures that differ in the hidden parties", "statement": "Let verify accept two signatures of the same message with the same first and third hash, under hash functions that differ only on the third hash (as after reprogramming a random oracle), with different hidden parties in repetition e. Then one of four explicit pairs of hashed inputs collides, or the tapes of all parties computed from the two signatures belong to the commitments hashed before the first challenge and share a secret key for the public key, unless the first challenge lies in an explicit set of at most |F|^(m1-1) elements or the second in an explicit set of at most 2*m2 elements.", "quantifier": "all pairs of hash functions that agree outside one point, all consistent instances, all public keys of the right length, all messages, all pairs of accepted signatures in the format of the instance", "why_tests_cant": "Quantifies over all adversarial signatures; honest signatures never come in such pairs.", "anchors": ["banquet.cpp: banquet_verify", "banquet.cpp: phase_1_commitment", "banquet.cpp: phase_3_commitment"]}
{"id": "C68", "title": "The loops of sign and verify on shared buffers stay in range and do not disturb each other", "statement": "banquet_sign and banquet_verify, taken statement by statement with their shared vectors, flat containers, spans and reused temporaries, and with every index, iterator range and span checked, return exactly what the description per repetition and party returns, of which the other properties speak. Hence no access leaves its buffer, no span check terminates the program and no value is left over from another party, repetition or iteration: for signing with a key without zero S-box input, and for verifying any string of the right length. A key that is too long is not rejected: its key deltas get its length, so sign never returns a signature in the format of the instance.", "quantifier": "all hash functions, all consistent instances, all keys (of at most the key length; longer ones for the last claim), all public keys, all messages, all signatures whose vectors have the sizes of the instance", "why_tests_cant": "Out-of-range accesses inside the flat containers hit another slot and go unnoticed by tests and by address sanitizers; the claim is for every instance and every signature an attacker may submit.", "anchors": ["banquet.cpp: banquet_sign", "banquet.cpp: banquet_verify", "types.h: RepContainer", "tape.cpp: RandomTapes"]}
{"id": "C69", "title": "The shared AES evaluation touches exactly the slots of its repetition", "statement": "One call of aes_128_s_shares, aes_192_s_shares or aes_256_s_shares on the flat vectors of T repetitions, with its loop over all parties for the key schedules followed by the loops over blocks and parties, its running S-box index and its unchecked 16-byte loads and stores, stays within the vectors; afterwards the s-share slot and the ciphertext slot of every party in that repetition hold the evaluation of that party alone (FIPS 197 with the S-box outputs replaced by the affine map of its t shares), every other slot is unchanged, and nothing depends on the previous contents. The sums over the parties are the evaluation with the summed shares; if all products of summed s and t values are 1, the summed ciphertext is the AES ciphertext under the summed key. If the plaintext is shorter than the blocks, the call reads behind it.", "quantifier": "all consistent instances (three AES variants), any number of repetitions, every repetition, all contents of the vectors, all plaintexts", "why_tests_cant": "A store that runs over the end of a slot lands in the slot of the next party and is overwritten later or never read; the claim is for all contents, all numbers of parties and repetitions.", "anchors": ["aes.cpp: aes_128_s_shares", "aes.cpp: aes_192_s_shares", "aes.cpp: aes_256_s_shares", "aes.cpp: restore_t_shares", "types.h: RepContainer"]}
{"id": "C70", "title": "The table lookups of signing do not depend on the secret key", "statement": "The addresses that banquet_sign reads from the lifting table (lifting_lut, 256 entries) are independent of the secret key. Violated: the lookups of banquet.cpp:523-524 use the S-box inputs and outputs of the AES evaluation under the secret key as indices. For every hash function, instance, key pair and message an explicit function of the index sequence and the public key returns the complete secret key; the cache lines alone (upper five bits of the indices) give the upper five bits of the first 16 key bytes; two different keys never make the same lookups. What holds: the number of lookups depends on the instance only.", "quantifier": "all consistent instances, hash functions, keys without zero S-box input, public keys, messages", "why_tests_cant": "Tests compare results; which addresses were read does not show in them.", "anchors": ["banquet.cpp: banquet_sign", "field.cpp: lift_uint8_t", "aes.cpp: aes_128_save_sbox_state"]}
{"id": "C71", "title": "The only ways to forge are hash collisions, guessed hashes, lucky challenges, and guessed parties", "statement": "Take any accepted signature and any ordered list of hash queries that contains those of its verification. If no two queries collide and no query contains the hash of a query not asked before, then the first hash was asked before the second, the second before the third, and each before its challenges; and the seeds found in the queries before the first hash give parties that share a secret key for the public key, or for every t1, t2 one of three things happened: the first challenges lie in a set of at most few1(t1+1) (lucky in more than t1 repetitions), the second in a set of at most few2(t2+1), or the hidden parties in a set of at most N^(t1+t2). If all corrections of P are hashed, each set is an explicit function of the inputs asked before the challenge and does not depend on the outputs the challenges are taken from. In the code the second set depends on a correction that is not hashed (C27).", "quantifier": "all hash functions, consistent instances, public keys, messages, accepted signatures of the right format, query lists, t1, t2", "why_tests_cant": "It is about every forger and every sequence of hash queries.", "anchors": ["banquet.cpp: banquet_verify", "banquet.cpp: phase_1_commitment", "banquet.cpp: phase_2_commitment", "banquet.cpp: phase_3_commitment", "banquet.cpp: commit_to_party_seed"]}
{"id": "C72", "title": "The loops of field.cpp and of the encoding stay in range", "statement": "The functions of field.cpp on vectors and polynomials, the table of lifted bytes, and writing and reading signatures, taken statement by statement with loop indices, running offsets and old contents of the global table, never access an element outside a vector, whatever the sizes and values of their arguments; sizes that do not match throw. Their results are those of the list functions of which the other properties speak. A new field does not depend on the table of the old one. Reading ends exactly at the length of an encoding, and a string that is at least that long is read without leaving it. Sign, write, read and verify statement by statement accept. With the field of another instance whose elements are longer, reading never succeeds: from_bytes leaves its buffer.", "quantifier": "all vectors, all field states with a table of 256 entries, all consistent instances, all signatures, all strings, all hash functions, both builds", "why_tests_cant": "Index arithmetic is wrong only for particular sizes, and accesses one past the end usually go unnoticed.", "anchors": ["field.cpp: init_lifting_lut", "field.cpp: init_extension_field", "field.cpp: build_from_roots", "field.cpp: precompute_lagrange_polynomials", "field.cpp: interpolate_with_precomputation", "field.cpp: eval", "field.cpp: dot_product", "banquet.cpp: banquet_serialize_signature", "banquet.cpp: banquet_deserialize_signature"]}
{"id": "C73", "title": "Threads may sign and verify at the same time", "statement": "Sign and verify write the global state of the field at the start of every call. However the statements of these initialisations are interleaved, a thread past its own initialisation has the globals of the field of its instance, so that it computes what it would compute alone.", "quantifier": "any number of threads, any interleaving, any state of the globals at the start, all fields", "why_tests_cant": "The outcome depends on the interleaving; tests run one thread, or meet a few interleavings by chance.", "anchors": ["field.cpp: init_extension_field", "field.cpp: init_lifting_lut", "banquet.cpp: banquet_sign", "banquet.cpp: banquet_verify"]}
{"id": "C74", "title": "The benchmark accepts exactly the command lines it should", "statement": "Numbers on the command line of the benchmark tools are decimal numerals below 2^32 and nothing else. bench accepts exactly the lines with one parameter set that exists and options -i or --iter with numbers, in any order, and takes the last number given.", "quantifier": "all lists of strings", "why_tests_cant": "There are unboundedly many command lines; the tools have no tests.", "anchors": ["tools/bench_utils.cpp: parse_long", "tools/bench_utils.cpp: parse_uint32_t", "tools/bench_utils.cpp: parse_args"]}
{"id": "C75", "title": "The benchmark reports no failure and the right size", "statement": "For every command line, hash function and random bytes, bench prints a usage message or runs all its iterations of key generation, signing, writing, reading and verifying without undefined behaviour or exception; in each the signature is accepted and its size is the one computed from the parameters. The globals of the field pass from one iteration to the next.", "quantifier": "all command lines, all hash functions, all random bytes, all numbers of iterations", "why_tests_cant": "It quantifies over keys, command lines and iterations; the benchmark is not tested.", "anchors": ["tools/bench.cpp: bench_sign_and_verify", "tools/bench.cpp: main"]}
{"id": "C76", "title": "The benchmark with free parameters has defined behaviour", "statement": "Whatever the command line, bench_free reads no argument that is not there and no parameter that was not set, and runs only if the product of m1 and m2 is the number of S-boxes. With parameters that fit together it behaves as bench.", "quantifier": "all lists of strings, all parameters", "why_tests_cant": "There are unboundedly many command lines, and reading past the arguments depends on how options and words are mixed.", "anchors": ["tools/bench_utils.cpp: parse_args_free", "tools/bench_free.cpp: bench_sign_and_verify_free", "tools/bench_free.cpp: main"]}
{"id": "C77", "title": "Forging takes as many hashes as the key has values, if the second hash covers all corrections", "statement": "Let the second hash cover all corrections of P (as in the paper; the code leaves the last one out, see C27). For every forger who asks for the hashes of q inputs of at most len bytes, each chosen after the answers to those before, and a random hash function: the probability that an accepted signature can be made from these inputs although their seeds do not share a key for the public key is at most q(q+1)(len+1)/(2*256^digest) + 2q/2^k, with k the number of bits of the key, for each of the supplied parameter sets.", "quantifier": "all forgers (adaptive, unbounded computation), all numbers of queries, all public keys, all signatures and messages, all supplied parameter sets; a general bound for all consistent parameters", "why_tests_cant": "It is a statement about probabilities of about 2^-128 and about all forgers.", "anchors": ["banquet.cpp: banquet_verify", "banquet.cpp: phase_1_commitment", "banquet.cpp: phase_2_commitment", "banquet.cpp: phase_3_commitment", "banquet.cpp: phase_1_expand", "banquet.cpp: phase_2_expand", "banquet.cpp: phase_3_expand", "banquet_instances.cpp: instances"]}
{"id": "C78", "title": "One character repairs the second hash: with k <= m2 signatures verify, do not change and cannot be forged", "statement": "Change the loop of phase_2_commitment to run over all m2 + 1 corrections (k <= m2 instead of k < m2) and nothing else. Then: the hashed bytes determine salt, h_1 and all corrections; sign returns a signature for every key pair (unless a rejection loop does not end), in the same format and of the same length, and verify accepts it; verify accepts exactly the signatures of the protocol; two accepted signatures with the same h_1 and h_3 are equal or give a collision of the hash function; and for a random hash function a forger without a key for the public key in their queries succeeds with probability at most q(q+1)(len+1)/(2*256^digest) + 3q/2^k.", "quantifier": "all consistent parameters, keys, messages, hash functions, signatures; all adaptive forgers (supplied parameter sets)", "why_tests_cant": "The tests pass with and without the change; that the change suffices is a statement about all forgers and all pairs of signatures.", "anchors": ["banquet.cpp: phase_2_commitment", "banquet.cpp: banquet_sign", "banquet.cpp: banquet_verify"]}
{"id": "C79", "title": "The rejection loops of the challenges end soon", "statement": "phase_3_expand never rejects a party (the number of parties is a power of two). Among all outputs of n blocks exactly C(n,j) m2^j (2^(8 lambda) - m2)^(n-j) have j blocks that phase_2_expand rejects, so for a random output it reads more than n blocks with probability at most C(n,u) (m2/2^(8 lambda))^u, u = n+1-T; for the supplied parameters more than T + 15 blocks with probability at most 2^-k, k the number of bits of the key. If it does not, sign returns a signature with every key pair. The bound of C77 holds without a limit on the number of blocks, with 3q/2^k instead of 2q/2^k.", "quantifier": "all outputs of the hash function, all numbers of blocks, all consistent parameters; numbers for the supplied sets; all adaptive forgers", "why_tests_cant": "A loop that ends only with overwhelming probability passes every test; the numbers concern events of probability below 2^-128.", "anchors": ["banquet.cpp: phase_2_expand", "banquet.cpp: phase_3_expand", "banquet.cpp: banquet_sign"]}
{"id": "C80", "title": "A signature can be simulated without the secret key", "statement": "There is an algorithm (simulate) that gets the public key, the message, random bytes and three random hashes, but not the secret key, and makes a signature, if it may set the hash function at three inputs to the three hashes. For every key pair, message and hash function with a random table, its random choices without accidents can be turned one-to-one into tables of the hash function for which banquet_sign with the secret key returns the same signature; the hash functions agree except at the hidden inputs, i.e. the one with the secret key from which salt and seeds are expanded and those from which the tapes of the hidden parties are expanded. So whoever asks for any number of values of the hash function accepts signatures of the signer and of the simulator with probabilities that differ by at most the probability of an accident plus the probability that a hidden input is asked for. Accidents have probability at most |secret input|/256^32 + T N/256^seed plus that of a long rejection loop (C79). The same holds for the changed code of C78, whose second hash covers all corrections.", "quantifier": "all consistent parameters, key pairs and messages, all observers with any number of adaptive queries, all hash functions outside the table", "why_tests_cant": "That signatures give nothing away about the key is a statement about distributions over all hash functions and all observers; no set of runs shows it.", "anchors": ["banquet.cpp: banquet_sign", "banquet.cpp: generate_salt_and_seeds", "banquet.cpp: phase_1_commitment", "banquet.cpp: phase_2_commitment", "banquet.cpp: phase_3_commitment", "tree.cpp: SeedTree::reveal_all_but"]}
{"id": "C81", "title": "Seeds that are not opened stay hidden; only a secret key gives the simulator away", "statement": "Whoever gets a simulated signature (C80) and asks for q values of a random hash function, adaptively, asks for an input with one of the seeds that are not opened (of the hidden party of some repetition, or of a node above it) with probability at most q T (log2 N + 2)/(256^seed - 2q), apart from the accidents of C80. Hence the probabilities of accepting a signature of banquet_sign and a simulated one differ by at most the probability of an accident, plus this, plus the probability that one of q keys, read off the questions about a simulated signature and so computed from the public key alone, is a secret key of the public key. The same holds for the changed code of C78.", "quantifier": "all consistent parameters, key pairs and messages, all observers with any number q of adaptive queries, all hash functions outside the table", "why_tests_cant": "It is a bound on probabilities over all hash functions, for all ways to ask; a test looks at one hash function and one signature.", "anchors": ["banquet.cpp: banquet_sign", "banquet.cpp: commit_to_party_seed", "tape.cpp: RandomTapes::generate_tape", "tree.cpp: SeedTree::SeedTree", "tree.cpp: SeedTree::reveal_all_but"]}
{"id": "C82", "title": "A signature does not help to forge one on another message (changed code)", "statement": "For the changed code of C78 and a random hash function: an algorithm that gets the signature of one given message, asks for q values of the hash function, adaptively, and returns a signature of another message which these values settle to be accepted, succeeds with probability at most: the probability of an accident (C80), plus q T (log2 N + 2)/(256^seed - 2q), plus n(n+1)(len+1)/(2 256^digest) + 3n/2^kappa + 2n/256^digest for n = q + 3 + 3TN, plus twice the probability that one of the keys read off the questions about a simulated signature, and so computed from the public key alone, is a secret key of the public key. An accepted signature is settled as soon as everything that its verification hashes has been asked for.", "quantifier": "all supplied parameter sets, key pairs and messages, all adaptive algorithms with any number q of queries with 2q < 256^seed, all hash functions outside the table", "why_tests_cant": "It is a bound on probabilities over all hash functions, for all algorithms; a test can only try one forger.", "anchors": ["banquet.cpp: banquet_sign", "banquet.cpp: banquet_verify", "banquet.cpp: phase_2_commitment", "tree.cpp: SeedTree::SeedTree", "tape.cpp: RandomTapes::generate_tape"]}
{"id": "C83", "title": "Portable Keccak: fewer rounds, overwriting and reading with XOR", "statement": "KeccakP1600_Permute_Nrounds(state, nr) is Keccak-p[1600, nr] of FIPS 202 for every nr <= 24; for larger nr it returns the state unchanged if nr is even and reads behind the round constants if nr is odd. Permute_12rounds is Keccak-p[1600, 12], and its fast loop absorbs all whole blocks. OverwriteBytes replaces exactly the given bytes if they lie in the state and otherwise writes outside. OverwriteWithZeroes sets the first bytes to zero. ExtractAndAddBytes returns the input XOR the bytes of the state.", "quantifier": "all states, all 2^32 values of nr, all offsets and data", "why_tests_cant": "These functions are not called by any test; the claims are about all states, offsets and numbers of rounds.", "anchors": ["keccak/opt64/KeccakP-1600-opt64.c: KeccakP1600_Permute_Nrounds", "keccak/opt64/KeccakP-1600-opt64.c: KeccakP1600_Permute_12rounds", "keccak/opt64/KeccakP-1600-opt64.c: KeccakP1600_12rounds_FastLoop_Absorb", "keccak/opt64/KeccakP-1600-opt64.c: KeccakP1600_OverwriteBytes", "keccak/opt64/KeccakP-1600-opt64.c: KeccakP1600_OverwriteWithZeroes", "keccak/opt64/KeccakP-1600-opt64.c: KeccakP1600_ExtractAndAddBytes", "keccak/SnP-Relaned.h"]}
{"id": "C84", "title": "Portable helpers of macros.h: parity and checked subtraction", "statement": "The versions of parity64_uint8, parity64_uint16 and parity64_uint64 for compilers without __builtin_parity return 1 if an odd number of bits is set and 0 otherwise. The version of sub_overflow_size_t for compilers without __builtin_sub_overflow stores the difference modulo 2^64 and returns whether the exact difference does not fit.", "quantifier": "all 8, 16 and 64 bit words", "why_tests_cant": "64 bit inputs cannot be enumerated, and these branches are not compiled with GCC or clang.", "anchors": ["macros.h: parity64_uint8", "macros.h: parity64_uint16", "macros.h: parity64_uint64", "macros.h: sub_overflow_size_t"]}
{"id": "C85", "title": "A caller who compares lengths and checks the key pair meets no undefined behaviour", "statement": "Signing after comparing the key lengths and recomputing AES throws exactly for what is not a key pair, and otherwise returns a string of the length of a signature; verifying after comparing the lengths of public key and signature and setting the field throws exactly for a public key of a wrong length and otherwise returns true or false, for any byte strings. Only a rejection sampling loop may fail to end. Returned strings are accepted; an accepted string is the encoding of the signature read from it; a string accepted for two pairs of public key and message gives equal pairs or two explicit different strings with the same hash.", "quantifier": "all consistent instances, XOFs, key, signature and message strings of any length", "why_tests_cant": "The claim is about all byte strings, including malformed keys and signatures, and about every length.", "anchors": ["banquet.cpp: banquet_sign", "banquet.cpp: banquet_verify", "banquet.cpp: banquet_serialize_signature", "banquet.cpp: banquet_deserialize_signature", "aes.h: AES128::aes_128", "field.h: GF2E::init_extension_field"]}
{"id": "C86", "title": "4-way AVX2 Keccak: all lanes at once, fewer rounds, fast loops", "statement": "AddLanesAll, OverwriteLanesAll, ExtractLanesAll and ExtractAndAddLanesAll move word l*laneOffset+j of the buffer to or from lane j of state l for j < laneCount and change nothing else, and read or write outside the buffers exactly if the last word of the fourth state is outside. The versions with 12, 6 and 4 rounds apply the last rounds of Keccak-f to each of the four states. The fast loops absorb as many blocks as fit and return the number of bytes; if laneOffsetSerial exceeds 3*laneOffsetParallel+laneCount the remaining length can wrap around and the loop reads outside the data.", "quantifier": "all states, buffers, lane counts and offsets (products below 2^32), lengths below 2^64 bytes", "why_tests_cant": "The lane counts, offsets and buffer lengths are unbounded, and the library has no test of these functions.", "anchors": ["avx2/KeccakP-1600-times4-SIMD256.c: KeccakP1600times4_AddLanesAll", "avx2/KeccakP-1600-times4-SIMD256.c: KeccakP1600times4_OverwriteLanesAll", "avx2/KeccakP-1600-times4-SIMD256.c: KeccakP1600times4_ExtractLanesAll", "avx2/KeccakP-1600-times4-SIMD256.c: KeccakP1600times4_ExtractAndAddLanesAll", "avx2/KeccakP-1600-times4-SIMD256.c: KeccakP1600times4_PermuteAll_12rounds", "avx2/KeccakP-1600-times4-SIMD256.c: KeccakF1600times4_FastLoop_Absorb", "avx2/KeccakP-1600-times4-SIMD256.c: KeccakP1600times4_12rounds_FastLoop_Absorb"]}
{"id": "C87", "title": "4-way AVX2 Kravatte: compression and expansion are those of one block after the other", "statement": "KravatteCompress adds to the accumulator the result of six rounds on block j XOR the key rolled j times, for all blocks of the whole groups of four, and leaves the key rolled once per block. KravatteExpand writes to output block m six rounds of the accumulator rolled m times, XOR the key, and leaves the accumulator rolled once per block and the rest of the buffer unchanged. With less than four blocks both leave their buffers.", "quantifier": "all accumulators, keys, inputs and output buffers of 64 bit words, lengths below 2^64 bytes", "why_tests_cant": "The number of blocks is unbounded, and the library has no test of these functions.", "anchors": ["avx2/KeccakP-1600-times4-SIMD256.c: KeccakP1600times4_KravatteCompress", "avx2/KeccakP-1600-times4-SIMD256.c: KeccakP1600times4_KravatteExpand"]}
{"id": "C88", "title": "Keccak hash functions for any rate, suffix and bit length are the sponge of FIPS 202", "statement": "Keccak_HashInitialize succeeds exactly if the suffix is not 0, the rate is a positive multiple of 8 and rate plus capacity is 1600. For a rate below 1600, after updates by whole bytes in any pieces and one last update of any number of bits, Keccak_HashFinal returns the first hashbitlen/8 bytes, and Keccak_HashSqueeze the following bytes, of SPONGE[f, pad10*1, rate] on the bits of the message followed by the bits of the suffix. Without Keccak_HashFinal the output is that of the message without suffix. Once output has begun, input and a second final fail and change nothing.", "quantifier": "all rates below 1600, suffixes, messages, divisions into calls and bit lengths, with each call at most 2^32 minus the rate bytes; any correct code for the state functions", "why_tests_cant": "Message lengths, pieces, rates and suffixes are unbounded or too many; rates that are no whole number of lanes and messages that are no whole number of bytes are never used by the tests of the library.", "anchors": ["keccak/KeccakHash.c: Keccak_HashInitialize", "keccak/KeccakHash.c: Keccak_HashUpdate", "keccak/KeccakHash.c: Keccak_HashFinal", "keccak/KeccakHash.c: Keccak_HashSqueeze", "keccak/KeccakSponge.inc: SpongeAbsorb", "keccak/KeccakSponge.inc: SpongeAbsorbLastFewBits"]}
{"id": "C89", "title": "The one-call sponge is the sponge of FIPS 202 for every length", "statement": "KeccakWidth1600_Sponge writes the first outputByteLen bytes of SPONGE[f, pad10*1, rate] on the bits of the input followed by those of the suffix, for rates below 1600 and inputs and outputs of any length, also of 2^32 bytes and more, where the functions with a context fail (C38, C39). For other parameters it fails without effect.", "quantifier": "all inputs, output lengths, suffixes and rates below 1600; any correct code for the state functions", "why_tests_cant": "Inputs and outputs of unbounded length, in particular beyond 4 GiB; the library has no test of this function.", "anchors": ["keccak/KeccakSponge.inc: Sponge"]}
{"id": "C90", "title": "Byte-wise functions of the 4-way AVX2 Keccak code act on the right bytes of one state", "statement": "KeccakP1600times4_OverwriteBytes (AVX2) replaces exactly the bytes offset to offset+length-1 of the state with the given index, OverwriteWithZeroes its first bytes, and the other three states stay as they are. ExtractAndAddBytes returns the input XOR the bytes of the state. They succeed for every range within the 200 bytes; every non-empty range that goes beyond is undefined behaviour.", "quantifier": "all four states, instance indices, offsets, lengths and data", "why_tests_cant": "About 20000 ranges per function times all state contents; the tests never call these functions.", "anchors": ["keccak/avx2/KeccakP-1600-times4-SIMD256.c: KeccakP1600times4_OverwriteBytes", "keccak/avx2/KeccakP-1600-times4-SIMD256.c: KeccakP1600times4_OverwriteWithZeroes", "keccak/avx2/KeccakP-1600-times4-SIMD256.c: KeccakP1600times4_ExtractAndAddBytes"]}
{"id": "C91", "title": "Remaining functions of the portable 4-way Keccak code", "statement": "The functions of PlSnP-Fallback.inc that act on lanes of all four states add, replace or return the first laneCount lanes of state l at word l*laneOffset of the buffer and touch nothing else, for every laneCount up to 25; the byte-wise ones act on one state only; the versions with 12, 6 and 4 rounds apply the last rounds of Keccak-f[1600] to each state.", "quantifier": "all states, buffers, lane counts up to 25 and lane offsets below 2^29", "why_tests_cant": "Unbounded buffers and all state contents; the tests never call these functions. The failure for 25 lanes is a read whose value is not used, so that no output shows it.", "anchors": ["keccak/opt64/PlSnP-Fallback.inc: PlSnP_AddLanesAll", "keccak/opt64/PlSnP-Fallback.inc: PlSnP_OverwriteLanesAll", "keccak/opt64/PlSnP-Fallback.inc: PlSnP_OverwriteBytes", "keccak/opt64/PlSnP-Fallback.inc: PlSnP_OverwriteWithZeroes", "keccak/opt64/PlSnP-Fallback.inc: PlSnP_PermuteAll_12rounds", "keccak/opt64/PlSnP-Fallback.inc: PlSnP_PermuteAll_6rounds", "keccak/opt64/PlSnP-Fallback.inc: PlSnP_PermuteAll_4rounds", "keccak/opt64/PlSnP-Fallback.inc: PlSnP_ExtractLanesAll", "keccak/opt64/PlSnP-Fallback.inc: PlSnP_ExtractAndAddBytes", "keccak/opt64/PlSnP-Fallback.inc: PlSnP_ExtractAndAddLanesAll"]}
{"id": "C92", "title": "Remaining functions of the AVX2 Keccak assembler code", "statement": "KeccakP1600_OverwriteBytes (AVX2 assembler) replaces exactly the bytes offset to offset+length-1 of the state, OverwriteWithZeroes its first bytes, ExtractAndAddBytes returns the input XOR the bytes of the state. They succeed for every range within the 200 bytes; every non-empty range that goes beyond is undefined behaviour. Permute_Nrounds is Keccak-p[1600, nr] for every nr up to 24, Permute_12rounds is Keccak-p[1600, 12], and the fast loop with 12 rounds absorbs all whole blocks.", "quantifier": "all states, offsets, lengths, data, numbers of rounds (32 bit) and block sizes of 1 to 25 lanes", "why_tests_cant": "All state contents, about 20000 ranges per function and unbounded data; the tests never call these functions.", "anchors": ["keccak/avx2/KeccakP-1600-AVX2.s: KeccakP1600_OverwriteBytes", "keccak/avx2/KeccakP-1600-AVX2.s: KeccakP1600_OverwriteWithZeroes", "keccak/avx2/KeccakP-1600-AVX2.s: KeccakP1600_ExtractAndAddBytes", "keccak/avx2/KeccakP-1600-AVX2.s: KeccakP1600_Permute_12rounds", "keccak/avx2/KeccakP-1600-AVX2.s: KeccakP1600_Permute_Nrounds", "keccak/avx2/KeccakP-1600-AVX2.s: KeccakP1600_12rounds_FastLoop_Absorb"]}
{"id": "C93", "title": "Four hash computations side by side, any rate and suffix", "statement": "For any rate that is a multiple of 8 below 1600 bits, any non-zero delimited suffix and any number of calls, the functions of KeccakHashtimes4.c compute in each of the four lanes the sponge of FIPS 202 on the bits of that lane's message followed by those of the suffix, both for the fixed-length hash values and for the bytes squeezed afterwards. Initialising succeeds exactly for valid parameters; lengths that are not whole bytes and calls after output has begun fail and change nothing. The fast loop that a comment suggests enabling would never return as it is called.", "quantifier": "all rates, suffixes, messages, splits into calls (each shorter than 2^32 bytes minus the rate), output lengths, and both implementations of the four states", "why_tests_cant": "Unbounded messages, 199 rates and 255 suffixes; the tests only use SHAKE128 and SHAKE256.", "anchors": ["keccak/KeccakHashtimes4.c: Keccak_HashInitializetimes4", "keccak/KeccakHashtimes4.c: Keccak_HashUpdatetimes4", "keccak/KeccakHashtimes4.c: Keccak_HashFinaltimes4", "keccak/KeccakHashtimes4.c: Keccak_HashSqueezetimes4", "keccak/KeccakSpongetimes4.inc: SpongeInitialize", "keccak/KeccakSpongetimes4.inc: SpongeAbsorb", "keccak/KeccakSpongetimes4.c: PlSnP_FastLoop_Absorb"]}
{"id": "C94", "title": "The reference implementation of the tests agrees with the library on all inputs", "statement": "For \u03bb = 4, 5 and 6 the reference field of tests/utils.cpp, built on NTL, and the field of the library are the same: the two conversion functions are inverse bijections, and sum, product, inverse, quotient, the 256 lifted bytes, the evaluation points, the polynomial with given roots, the Lagrange polynomials and the interpolated polynomial agree, coefficient by coefficient. They differ only where the reference refuses: it aborts on repeated points and throws for \u03bb = 2.", "quantifier": "all pairs of reduced field elements, all 256 bytes, any number of points, all lists of roots, all lists of distinct points and all values", "why_tests_cant": "The tests compare the two on a few random elements and on one size of point set; a test can only find a difference on the inputs it draws, and says nothing if both share a mistake. The theorem is about all inputs and both are tied to the published polynomials.", "anchors": ["tests/utils.cpp: utils::init_extension_field", "tests/utils.cpp: init_lifting_lut", "tests/utils.cpp: utils::lift_uint8_t", "tests/utils.cpp: utils::GF2E_from_bytes", "tests/utils.cpp: utils::get_first_n_field_elements", "tests/utils.cpp: utils::precompute_lagrange_polynomials", "tests/utils.cpp: utils::interpolate_with_precomputation", "tests/utils.cpp: utils::ntl_to_custom", "tests/utils.cpp: utils::custom_to_ntl", "field.cpp: field::precompute_lagrange_polynomials", "field.cpp: field::interpolate_with_precomputation"]}
{"id": "C95", "title": "The benchmark figures: from the clock to the evaluated means", "statement": "The benchmark tools always find a clock. With a clock that counts time modulo 2^64, every number they store is the time that passed in that step. For a file with the output of any number of runs of at least one iteration, parse_bench.py reports for each run its parameters and, under the right names, the mean of each of the six columns (times divided by 1000, sizes by 1024). It fails on runs without iterations, which bench accepts, and on the output of bench_free for wrong m1 and m2.", "quantifier": "all clocks, all measured 64-bit values, any number of runs and iterations, all parameters", "why_tests_cant": "There are no tests for the tools; the columns are printed in an order other than that of the structure, and all values, numbers of rows and overflows of the clock would have to be tried.", "anchors": ["tools/bench.cpp: print_timings", "tools/bench.cpp: bench_sign_and_verify", "tools/bench_free.cpp: print_timings", "tools/bench_free.cpp: bench_sign_and_verify_free", "tools/bench_timing.cpp: timing_init", "tools/bench_timing.cpp: perf_init", "tools/bench_timing.cpp: perf_read", "tools/bench_timing.cpp: clock_read", "tools/parse_bench.py"]}
{"id": "C96", "title": "The unused macro restore_t_shares_KS", "statement": "The macro restore_t_shares_KS records the last word of m in rotated order in the s shares and leaves an m for which aeskeygenassist gives the affine map of the four t values; without room for four bytes the program is terminated. The outputs of n parties add up to the S-box value for the sum of their t shares exactly if n is odd, so that it could not replace the macros in use: all parameter sets have an even number of parties.", "quantifier": "all shares, states, positions and numbers of parties", "why_tests_cant": "Nothing calls the macro, so that no test reaches it, and only the sum over all parties shows the missing constant.", "anchors": ["aes.cpp: restore_t_shares_KS"]}
{"id": "C97", "title": "The script for the lifting generators: every answer is usable, and the library's is one of them", "statement": "For each of the four fields in tools/morphism.sage, which are the fields of the library, the script ends without error, whatever the order in which Sage lists the homomorphisms. There are exactly eight of them. The printed root of the AES polynomial is the generator in field.cpp or that generator squared up to seven times; each of these is a possible answer. The table init_lifting_lut makes from any of them embeds the AES field.", "quantifier": "all four fields, all orders of the list of homomorphisms, all bytes", "why_tests_cant": "The tests compare the lifting with a table from the same generator; the script needs Sage and its answer depends on an undocumented order.", "anchors": ["tools/morphism.sage", "field.cpp: GF2E::init_extension_field", "field.cpp: init_lifting_lut"]}
{"id": "C98", "title": "What the test cases for trees and signatures can show", "statement": "The three test cases of tests/tree_test.cpp and the test cases for signing and for the encoding in tests/banquet_test.cpp pass with any function in place of SHAKE, for every key that banquet_keygen returns (unless a rejection loop does not end). So they never fail at random, and they cannot detect a wrong or even constant hash function.", "quantifier": "all hash functions, all random values of keygen", "why_tests_cant": "It is a statement about the tests: they run with one hash function and the key of the run.", "anchors": ["tests/tree_test.cpp", "tests/banquet_test.cpp"]}
{"id": "C99", "title": "The test cases that compare with NTL", "statement": "The test cases of tests/field_test.cpp that compare the library with NTL pass for all values in place of the fixed ones: the encoding of any element, conversion and inversion of any nonzero element, roots and Lagrange polynomials (number of coefficients and each coefficient) for any number of points up to the order of x. The test case of tests/util_test.cpp with random values passes for any number of distinct points and any values.", "quantifier": "all elements, all numbers of points, all random values; the three fields of the reference", "why_tests_cant": "The tests run with fixed elements, 100 and 20 points, and the random values of the run.", "anchors": ["tests/field_test.cpp", "tests/util_test.cpp", "tests/utils.cpp"]}
{"id": "C100", "title": "What the test cases on fixed values decide", "statement": "The test cases of tests/aes_test.cpp pass exactly for a key and plaintext without a zero S-box input and the ciphertext of FIPS 197, for all keys, plaintexts and expected values. The basic field test passes in all fields of the library. The tests for products pass exactly for the remainders modulo the field polynomial, the lifting test exactly for two bytes inverse to each other and the elements they are lifted to. The values in the tests pass.", "quantifier": "all keys, plaintexts and expected ciphertexts; all reduced elements and expected products; all bytes and expected elements", "why_tests_cant": "The tests run on one key, one plaintext and a few elements; a test that accepts a wrong expected value would look the same.", "anchors": ["tests/aes_test.cpp", "tests/field_test.cpp", "tests/util_test.cpp"]}
{"id": "C101", "title": "Spans never reach outside", "statement": "For a span inside an array, access to an element, first, last and subspan, with any 64 bit arguments and in any sequence, return exactly the part or element asked for, or terminate the program if there is none; they never cause undefined behaviour, and no sum of arguments wraps around. Only the constructor from pointer and size relies on its caller.", "quantifier": "all arrays, spans, 64 bit arguments and sequences of calls", "why_tests_cant": "Wrong arguments, in particular those near 2^64, do not occur in the tests.", "anchors": ["gsl-lite.hpp: gsl::span", "tape.cpp: RandomTapes::get_bytes", "types.h: RepContainer"]}
{"id": "C102", "title": "Containers and tapes hand out the right span", "statement": "RepContainer::get, with its offset computed in 64 bit words, returns for every repetition and party of a container a span that lies inside the vector and covers exactly the elements of that party. get_repetition returns these spans for all parties in order. Reading or writing an element through such a span reads or changes exactly that element, or terminates the program if the index is not below the object size. RandomTapes::get_bytes returns exactly the bytes asked for, or terminates if the tape is shorter.", "quantifier": "all containers that fit into memory, repetitions, parties, and all 64 bit indices, starts and lengths", "why_tests_cant": "The tests use a few sizes; overflow of the offset and ranges beyond a tape do not occur in them.", "anchors": ["types.h: RepContainer::get", "types.h: RepContainer::get_repetition", "tape.cpp: RandomTapes::get_bytes", "gsl-lite.hpp: gsl::span"]}
