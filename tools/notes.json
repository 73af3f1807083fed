{
 "C13": {
  "note": "The code violates the property (C13_violated: 33 leaves). C13_safe_iff gives the exact condition on the number of leaves; C13_partial covers powers of two, as in all supplied instances."
 },
 "C27": {
  "note": "The code violates the property: the last P delta of each repetition is not hashed (C27_violated, C27_last_free). C27_partial: everything else is bound."
 },
 "C37": {
  "note": "The code violates the property for parameters 7 and 8 (C37_violated, C37_swapped); C37_partial covers the other 21."
 },
 "C48": {
  "note": "The code violates the property (C48_violated: a tape and a seed commitment hash the same bytes). C48_partial: h_1, h_2, h_3 and tree nodes are separated from each other. C48_calls ties the inputs to the model. C48_exact: two purposes can share a hash input if and only if they are in a table that depends on the sizes of the instance."
 },
 "C22": {
  "note": "Violated; counterexamples C22_violated and C22_outOfRange_violated. C22_partial: it holds for histories whose last initialisation had the same lambda. C22_exact, C22_longer and C22_cut describe what the functions do after every history: encoding is right exactly if the last lambda is that of the instance; decoding is out of range after a larger lambda and cuts the field elements after a smaller one."
 },
 "C35": {
  "note": "Violated; counterexamples C35_violated (too short) and C35_trailing_violated (too long, Release). C35_short and C35_trailing describe the behaviour for all inputs; C35_partial: Debug builds do not accept too long inputs. C35_exact: what the Release build does with every string; C35_never: it never throws."
 },
 "C50": {
  "note": "Violated (C50_violated): bytes of an over-long public key can be moved to the message without changing the result (C50_shift). C50_partial: it holds for public keys of equal length; C50_concat: for any lengths the concatenation of key and message is bound."
 },
 "C24": {
  "note": "The code violates the property: C24_ub_iff shows that exactly the keys with a zero S-box input lead to an out-of-range read, C24_violated gives the all-zero key. C24_partial covers the usable keys."
 },
 "C28": {
  "note": "Violated. C28_forged: for every instance, public key, salt and message, and every hash function with admissible challenges, the forger (which has no secret key) outputs an accepted signature; C28_calls: with 3*rounds*parties+6 hash calls; C28_violated: the negation of the claim, for a public key that has no secret key at all. There is no weaker claim about this code to keep; for the code with the second hash over all corrections the claim holds in the form of C78_forger and C79_forger."
 },
 "C29": {
  "note": "Violated: C29_maul (the last delta of a repetition with hidden party 0 can be replaced), C29_violated (concrete). C29_partial: two accepted signatures with the same h_1 and h_3 agree in everything except the last deltas, or corresponding hash calls collide."
 },
 "C45": {
  "note": "C45_roots bounds the number of evaluation points at which a wrong P passes; C45_check says the same for the check of the code (sumProducts) on the words for the values of the polynomials given by their shares."
 },
 "C46": {
  "note": "C46_rows counts solutions of the m2 equations; C46_poly says the same for challenge words, shared S-box bytes, arbitrary extra points and any P sent after seeing the challenge. C46_total gives the number of all vectors."
 },
 "C19": {
  "note": "verify = true ↔ Spec.Accepted, for every signature in the format of the instance, in particular every decoded byte string; C19_acceptable replaces the challenge expansion by its specification (C53), so that no fuel remains. The specification is stated with polynomials given by values, xor of all broadcasts, sums of all shares and base 256 digits; it shares with the model the AES evaluation of one party (C31, C32, C49) and the lifting (C05)."
 },
 "C47": {
  "note": "Spec.repView assembles the model functions of sign for one repetition with given tapes; C47_sign shows that a signature consists of such views. C47_uniform, C47_view, C47_simulated: for each key the values sent are a bijective function of the hidden tape and determine the view, so a simulator without the key has the same distribution. Computational parts (tapes and commitments from hashes) are outside."
 },
 "C52": {
  "note": "Statement about one repetition with challenges chosen after the corrections they are to check. verify derives R from a hash which leaves out the last correction of P (C27), so the bound for R does not carry over to the code as it is. No statement about the probability over the random oracle."
 },
 "C53": {
  "note": "C53_r, C53_R, C53_hidden: the model's loops compute the sequences specified by blocks, without fuel. C53_*_uniform: counts over block sequences, as an XOF with uniform output would give; nothing is claimed about SHAKE."
 },
 "C54": {
  "note": "C54_iff with C54_unique: complete functional specification of sign for key pairs. For other keys see C24. The specification uses no function of the model that computes (C55 for AES, C04_value for the lifting)."
 },
 "C55": {
  "note": "C55_party: equality of the model's function with Spec/Shared for arbitrary shares. C55_encrypt, C55_conv: sanity of the specification."
 },
 "C38": {
  "note": "Violated for pieces near 2^32 bytes and longer (CVE-2022-37454 in KeccakSponge.inc): C38_overrun_violated, C38_hang_violated, C38_squeeze_violated. Proved for all shorter pieces, for any state functions that satisfy Spec.Snp (C56 gives one). C38_exact: for all lengths, the exact condition under which the output is right, and which failure occurs otherwise; C38_endless, C38_threshold."
 },
 "C39": {
  "note": "Violated as C38 (C39_overrun_violated). Proved for pieces below 2^32 bytes minus the rate, for any state functions that satisfy Spec.PlSnp. C39_exact and C39_lanes_exact: for all lengths, including the failures."
 },
 "C56": {
  "note": "Rounds transcribed statement by statement from the macros; the tables of the specification are checked against the algorithms of FIPS 202 (C56_roundConstants, C56_rhoOffsets). Little endian machine."
 },
 "C57": {
  "note": "Vector operations on four 64-bit words; the byte shuffles are modelled byte by byte."
 },
 "C58": {
  "note": "One let per instruction. The view of the state reads lane x+5y at mapState; loads outside of data or state are the outcome ub. unsigned int arguments are taken to be zero-extended; alignment is not modelled."
 },
 "C59": {
  "note": "Consequence of C56, C57, C58 through FIPS 202."
 },
 "C60": {
  "note": "For every correct implementation of the functions on the Keccak state (Spec.Correct); portable_ok and avx2_ok show that both builds are. The two rejection loops (C60_challenges2, C60_challenges3) are equated to the loops over the XOF, whose results C25, C26 and C53 describe."
 },
 "C61": {
  "note": "C61_portable and C61_avx2 for the two builds, C61_interoperable across builds. Public keys and messages of at most 2^32 - 168 bytes; see C62 for longer ones."
 },
 "C62": {
  "note": "The code violates the property: C62_sign_violated (every key, one message length), C62_verify_violated (every signature, one message length), C62_violated. C62_partial: it holds for messages of at most 2^32 - 168 bytes. C62_sign_exact, C62_sign_threshold, C62_verify_exact: exactly which message lengths work, and what happens with the others."
 },
 "C63": {
  "note": "One theorem per variant of rand_bytes; C63_success: /dev/urandom succeeds when the deliveries add up; C63_eof: read returning 0 for ever is not treated as an error."
 },
 "C64": {
  "note": "The code violates the property: C64_violated (a short read of the plaintext goes unnoticed). C64_key_partial: it holds for the secret key, because an incomplete key is rejected by the zero check of AES. C64_hang: if no delivery of the key is complete, keygen loops for ever instead of reporting the failure. C64_success: with complete deliveries it is the key generation of C23."
 },
 "C66": {
  "note": "About the protocol as designed. The code does not hash the last correction of P, so for the code the second round costs nothing (C27, C28)."
 },
 "C67": {
  "note": "The set of second challenges depends on the corrections of P. In the code the last one is not hashed before the second challenge, so it can be chosen such that the challenge lies in the set (that is the forgery of C28); the extraction itself needs no assumption about this."
 },
 "C68": {
  "note": "Model/Loops follows banquet.cpp:290-1194 and the shared AES evaluation (aes.cpp:519-633, 864-1047, 1282-1473) statement by statement; hash functions, field, AES without shares and seed trees are those of the other models. For keys longer than the key length only the claim C68_key_length is proved; the description per party has no meaning there (the correction runs over into the share of the next party)."
 },
 "C69": {
  "note": "The fixed expanded-key arrays of the code (std::array of 11, 13 or 15 registers) are lists of round keys per party."
 },
 "C70": {
  "note": "Violated: C70_key extracts the whole key from the lookup indices, C70_lines its upper bits from the cache lines; C70_violated is the negation with a witness. C70_partial: the number of lookups is public."
 },
 "C71": {
  "note": "C71_any for every input of the second hash, C71_code for verify as it is, C71_all for the scheme that hashes all m2+1 corrections of P, C71_fixed: what is extracted does not depend on the outputs from which challenges are taken. Probabilities are not formalised: the theorem bounds the number of good challenges per query."
 },
 "C72": {
  "note": "C72_deserialize assumes elements that are not longer than λ; the other case is C72_wrong_field. C72_code connects C61 and C68: the builds with their sponges are the loops with SHAKE."
 },
 "C73": {
  "note": "Violated with threads of different fields: C73_violated (a thread works with the field of another), C73_mixed_violated (with a table that mixes two fields), C73_read_violated (reading a signature leaves the bytes). C73_partial and C73_calls: with threads of one field all is well, since every write of an initialisation writes the value that is there already once one thread has finished. Writes are taken to be atomic; in C++ the unsynchronised writes are a data race."
 },
 "C74": {
  "note": "Violated: strtol is called without an end pointer, so that `x` is read as 0 and `12x` as 12 (C74_violated). C74_number, C74_args: exactly what is accepted. C74_partial: numerals are read correctly. getopt_long and strtol are modelled as in glibc."
 },
 "C76": {
  "note": "Violated: `bench_free -i 3 16 16 31 10` passes a null pointer to strtol (C76_violated; C76_missing says exactly when); another kappa than 16, 24, 32 reads uninitialised parameters (C76_kappa_violated); the product wraps (C76_product_violated). C76_partial, C76_consistent: with parameters that fit together all is well."
 },
 "C77": {
  "note": "C77_bound: any consistent parameters and any split into t1, t2; C77_level: a split for each supplied set; C77_supplied: both together. About the scheme whose second hash covers all corrections; what the code verifies differs from it only there (C71_any covers both), and with the code as it is everybody can forge (C27, C28). Challenges must be found within the first L bytes of output, L arbitrary."
 },
 "C78": {
  "note": "About the code with the one change, not the code as it is (for which C27, C28, C29 show the opposite). signBy and verifyBy are sign and verify with any function in place of phase_2_commitment; signWith_code and verifyWith_code (by rfl) say that with the function of the code they are the model used everywhere else."
 },
 "C79": {
  "note": "C79_exact: the number of words with j rejected blocks; C79_slow, C79_level: the probability that the loop is long; C79_second, C79_third, C79_sign: otherwise the code ends (the fuel of the model is enough); C79_forger: C77 without the condition on the length of the loops."
 },
 "C80": {
  "note": "C80_couple: the one-to-one correspondence between choices of the simulator and tables for which the signer makes the same signature; C80_distinguish: the difference of the probabilities for any observer; C80_accident: the probability of accidents. The probability that an observer finds a hidden input is a term of C80_distinguish; it is bounded in C81. c is the number of corrections in the second hash: m2 for the code (C80_code), m2 + 1 for the changed code of C78."
 },
 "C81": {
  "note": "C81_seeds: the bound for finding a seed that is not opened; C81_distinguish: what remains of the difference in C80_distinguish is the probability of computing a secret key from the public key. That this is hard is the assumption on AES as a one-way function, which is not proved."
 },
 "C82": {
  "note": "C82_forger: the bound; C82_simulated: the same for a simulated signature; C82_settled: who verifies the signature has settled it. One signature, of a message fixed before the hash function is drawn. For the code as it is the claim is false (C28_violated); so it is stated for the changed code of C78. That computing a secret key from the public key is hard is the assumption on AES, which is not proved."
 },
 "C83": {
  "note": "Functions of the portable Keccak code that the library does not call. ExtractAndAddBytes is covered up to byte 198, as ExtractBytes in C56: asked for all 200 bytes at once it reads the lane behind the state."
 },
 "C84": {
  "note": "Portable versions only; the builtins are the specification."
 },
 "C85": {
  "note": "The caller is not part of the repository. It avoids the undefined behaviour recorded in C22, C24, C35 and C50; it does not prevent the forgery of C27 and C28 and the changed signatures of C29, for which the library has to be changed (C78)."
 },
 "C86": {
  "note": "The library does not call these functions. Buffers are lists of 64 bit words; input and output of ExtractAndAddLanesAll do not overlap; ExtractLanesAll is claimed for laneCount ≤ laneOffset (otherwise the states' words overlap). The wrapping around of the fast loop is a precondition of the function that the header does not state (C86_fastLoop_wraps)."
 },
 "C87": {
  "note": "The library does not call these functions. The specification of the rolling functions is that of the Kravatte paper (Achouffe version of the code: six rounds). Buffers shorter than 800 bytes are outside the precondition of the functions (C87_short)."
 },
 "C88": {
  "note": "The library itself uses SHAKE128 and SHAKE256 with whole bytes only. An update of bits that are no whole number of bytes must be the last one, as the header demands. Rate 1600 (capacity 0) is left out: keccak/opt64 then reads beyond the state (note at Spec.Snp)."
 },
 "C89": {
  "note": "The library does not call this function."
 },
 "C90": {
  "note": "The library does not call these functions."
 },
 "C91": {
  "note": "Holds for all functions except the two that return lanes with laneCount = 25 (all lanes), which read a lane behind the state (C91_extractLanesAll_violated; the AVX2 versions do not, C86). The value read is not used. The library does not call these functions."
 },
 "C92": {
  "note": "Holds except for Permute_Nrounds with nr = 0, which runs 2^32 rounds and reads behind the round constants (C92_rounds_violated); the portable code returns the state unchanged (C83). The library does not call these functions."
 },
 "C93": {
  "note": "Rates below 1600 bits, as in C88. C93_fastLoop_hangs is about disabled code: the comment in KeccakSpongetimes4.c asks whether the fast loop can be enabled; with the offsets of the prepared call it never returns."
 },
 "C94": {
  "note": "NTL is modelled by its documentation (GF2X as polynomials over GF(2), GF2E as residue classes); its code is not part of the repository. The reference knows λ = 4, 5, 6 only (C94_differences)."
 },
 "C95": {
  "note": "Means are exact rational numbers; the floating-point division and the rounding to two or three places in the script are not modelled. C95_noRows lists the files the script fails on."
 },
 "C96": {
  "note": "The macro is dead code; C96_parties says why it could not be used with an even number of parties."
 },
 "C97": {
  "note": "Sage is modelled by its documentation: GF(2^n, modulus) rejects reducible polynomials, Hom(K, F).list() contains every ring homomorphism once, in any order."
 },
 "C98": {
  "note": "Only the known answer test of banquet_test.cpp depends on the hash function; it was run on the model (DESIGN.md, section 5)."
 },
 "C99": {
  "note": "The test case with random values aborts in NTL when two of the 20 random points are equal (C99_repeated, C99_violated); C99_bound shows that this concerns at most the fraction 190 / 2^32 of the choices."
 },
 "C100": {
  "note": "The tests for two blocks insert a vector into itself, which the C++ standard does not define; the model takes the block twice, as is meant."
 },
 "C101": {
  "note": "The spans of the library are made by RepContainer::get and the seed tree; that these stay inside their vectors is part of C68, C69 and C72."
 },
 "C102": {
  "note": "C102_get, C102_read, C102_write and C102_tape assume that the slice of the party is inside the vector; C102_all and C102_repetition show it for a container as constructed. Nothing checks it at run time, as the last example shows."
 }
}