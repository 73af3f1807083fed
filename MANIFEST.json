{
 "claims": [
  {
   "property": "C01",
   "status": "proved",
   "theorems": [
    "Banquet.Props.C01_mul",
    "Banquet.Props.C01_add"
   ],
   "note": ""
  },
  {
   "property": "C02",
   "status": "proved",
   "theorems": [
    "Banquet.Props.C02_field",
    "Banquet.Props.C02_laws"
   ],
   "note": ""
  },
  {
   "property": "C03",
   "status": "proved",
   "theorems": [
    "Banquet.Props.C03_inverse",
    "Banquet.Props.C03_modulus"
   ],
   "note": ""
  },
  {
   "property": "C04",
   "status": "proved",
   "theorems": [
    "Banquet.Props.C04_lift",
    "Banquet.Props.C04_value",
    "Banquet.Props.C04_lift_poly"
   ],
   "note": ""
  },
  {
   "property": "C05",
   "status": "proved",
   "theorems": [
    "Banquet.Props.C05_interpolate"
   ],
   "note": ""
  },
  {
   "property": "C06",
   "status": "proved",
   "theorems": [
    "Banquet.Props.C06_eval",
    "Banquet.Props.C06_add",
    "Banquet.Props.C06_scale",
    "Banquet.Props.C06_mul",
    "Banquet.Props.C06_roots",
    "Banquet.Props.C06_dot"
   ],
   "note": ""
  },
  {
   "property": "C07",
   "status": "proved",
   "theorems": [
    "Banquet.Props.C07_order",
    "Banquet.Props.C07_points",
    "Banquet.Props.C07_instances"
   ],
   "note": ""
  },
  {
   "property": "C08",
   "status": "proved",
   "theorems": [
    "Banquet.Props.C08_bytes",
    "Banquet.Props.C08_bits"
   ],
   "note": ""
  },
  {
   "property": "C09",
   "status": "proved",
   "theorems": [
    "Banquet.Props.C09_globals",
    "Banquet.Props.C09_init",
    "Banquet.Props.C09_reject"
   ],
   "note": ""
  },
  {
   "property": "C10",
   "status": "proved",
   "theorems": [
    "Banquet.Props.C10_leaves"
   ],
   "note": ""
  },
  {
   "property": "C11",
   "status": "proved",
   "theorems": [
    "Banquet.Props.C11_rebuild",
    "Banquet.Props.C11_total"
   ],
   "note": ""
  },
  {
   "property": "C12",
   "status": "proved",
   "theorems": [
    "Banquet.Props.C12_copath",
    "Banquet.Props.C12_hidden"
   ],
   "note": ""
  },
  {
   "property": "C13",
   "status": "partial",
   "theorems": [
    "Banquet.Props.C13_safe_iff",
    "Banquet.Props.C13_partial",
    "Banquet.Props.C13_violated"
   ],
   "note": "The code violates the property (C13_violated: 33 leaves). C13_safe_iff gives the exact condition on the number of leaves; C13_partial covers powers of two, as in all supplied instances."
  },
  {
   "property": "C14",
   "status": "proved",
   "theorems": [
    "Banquet.Props.C14_tape",
    "Banquet.Props.C14_tape_bytes",
    "Banquet.Props.C14_commit",
    "Banquet.Props.C14_commit_bytes"
   ],
   "note": ""
  },
  {
   "property": "C15",
   "status": "proved",
   "theorems": [
    "Banquet.Props.C15_accepted",
    "Banquet.Props.C15_keygen"
   ],
   "note": ""
  },
  {
   "property": "C16",
   "status": "proved",
   "theorems": [
    "Banquet.Props.C16_encoded"
   ],
   "note": ""
  },
  {
   "property": "C17",
   "status": "proved",
   "theorems": [
    "Banquet.Props.C17_roundtrip"
   ],
   "note": ""
  },
  {
   "property": "C18",
   "status": "proved",
   "theorems": [
    "Banquet.Props.C18_canonical",
    "Banquet.Props.C18_injective",
    "Banquet.Props.C18_total"
   ],
   "note": ""
  },
  {
   "property": "C19",
   "status": "proved",
   "theorems": [
    "Banquet.Props.C19_accepted",
    "Banquet.Props.C19_decoded",
    "Banquet.Props.C19_acceptable"
   ],
   "note": "verify = true \u2194 Spec.Accepted, for every signature in the format of the instance, in particular every decoded byte string; C19_acceptable replaces the challenge expansion by its specification (C53), so that no fuel remains. The specification is stated with polynomials given by values, xor of all broadcasts, sums of all shares and base 256 digits; it shares with the model the AES evaluation of one party (C31, C32, C49) and the lifting (C05)."
  },
  {
   "property": "C20",
   "status": "proved",
   "theorems": [
    "Banquet.Props.C20_bound"
   ],
   "note": ""
  },
  {
   "property": "C21",
   "status": "proved",
   "theorems": [
    "Banquet.Props.C21_sign",
    "Banquet.Props.C21_verify",
    "Banquet.Props.C21_model"
   ],
   "note": ""
  },
  {
   "property": "C22",
   "status": "partial",
   "theorems": [
    "Banquet.Props.C22_partial",
    "Banquet.Props.C22_initialised",
    "Banquet.Props.C22_violated",
    "Banquet.Props.C22_outOfRange_violated",
    "Banquet.Props.C22_exact",
    "Banquet.Props.C22_longer",
    "Banquet.Props.C22_cut"
   ],
   "note": "Violated; counterexamples C22_violated and C22_outOfRange_violated. C22_partial: it holds for histories whose last initialisation had the same lambda. C22_exact, C22_longer and C22_cut describe what the functions do after every history: encoding is right exactly if the last lambda is that of the instance; decoding is out of range after a larger lambda and cuts the field elements after a smaller one."
  },
  {
   "property": "C23",
   "status": "proved",
   "theorems": [
    "Banquet.Props.C23_keygen"
   ],
   "note": ""
  },
  {
   "property": "C24",
   "status": "partial",
   "theorems": [
    "Banquet.Props.C24_ub",
    "Banquet.Props.C24_violated",
    "Banquet.Props.C24_partial",
    "Banquet.Props.C24_ub_iff"
   ],
   "note": "The code violates the property: C24_ub_iff shows that exactly the keys with a zero S-box input lead to an out-of-range read, C24_violated gives the all-zero key. C24_partial covers the usable keys."
  },
  {
   "property": "C25",
   "status": "proved",
   "theorems": [
    "Banquet.Props.C25_R"
   ],
   "note": ""
  },
  {
   "property": "C26",
   "status": "proved",
   "theorems": [
    "Banquet.Props.C26_range",
    "Banquet.Props.C26_junk",
    "Banquet.Props.C26_candidate"
   ],
   "note": ""
  },
  {
   "property": "C27",
   "status": "partial",
   "theorems": [
    "Banquet.Props.C27_partial",
    "Banquet.Props.C27_last_free",
    "Banquet.Props.C27_violated"
   ],
   "note": "The code violates the property: the last P delta of each repetition is not hashed (C27_violated, C27_last_free). C27_partial: everything else is bound."
  },
  {
   "property": "C28",
   "status": "partial",
   "theorems": [
    "Banquet.Props.C28_forged",
    "Banquet.Props.C28_calls",
    "Banquet.Props.C28_violated"
   ],
   "note": "Violated. C28_forged: for every instance, public key, salt and message, and every hash function with admissible challenges, the forger (which has no secret key) outputs an accepted signature; C28_calls: with 3*rounds*parties+6 hash calls; C28_violated: the negation of the claim, for a public key that has no secret key at all. There is no weaker claim about this code to keep; for the code with the second hash over all corrections the claim holds in the form of C78_forger and C79_forger."
  },
  {
   "property": "C29",
   "status": "partial",
   "theorems": [
    "Banquet.Props.C29_partial",
    "Banquet.Props.C29_maul",
    "Banquet.Props.C29_violated"
   ],
   "note": "Violated: C29_maul (the last delta of a repetition with hidden party 0 can be replaced), C29_violated (concrete). C29_partial: two accepted signatures with the same h_1 and h_3 agree in everything except the last deltas, or corresponding hash calls collide."
  },
  {
   "property": "C30",
   "status": "proved",
   "theorems": [
    "Banquet.Props.C30_phase1",
    "Banquet.Props.C30_phase3"
   ],
   "note": ""
  },
  {
   "property": "C31",
   "status": "proved",
   "theorems": [
    "Banquet.Props.C31_shares",
    "Banquet.Props.C31_fips"
   ],
   "note": ""
  },
  {
   "property": "C32",
   "status": "proved",
   "theorems": [
    "Banquet.Props.C32_aes"
   ],
   "note": ""
  },
  {
   "property": "C33",
   "status": "proved",
   "theorems": [
    "Banquet.Props.C33_pairs"
   ],
   "note": ""
  },
  {
   "property": "C34",
   "status": "proved",
   "theorems": [
    "Banquet.Props.C34_total"
   ],
   "note": ""
  },
  {
   "property": "C35",
   "status": "partial",
   "theorems": [
    "Banquet.Props.C35_short",
    "Banquet.Props.C35_trailing",
    "Banquet.Props.C35_exact",
    "Banquet.Props.C35_never",
    "Banquet.Props.C35_partial",
    "Banquet.Props.C35_violated",
    "Banquet.Props.C35_trailing_violated"
   ],
   "note": "Violated; counterexamples C35_violated (too short) and C35_trailing_violated (too long, Release). C35_short and C35_trailing describe the behaviour for all inputs; C35_partial: Debug builds do not accept too long inputs. C35_exact: what the Release build does with every string; C35_never: it never throws."
  },
  {
   "property": "C36",
   "status": "proved",
   "theorems": [
    "Banquet.Props.C36_consistent",
    "Banquet.Props.C36_invalid"
   ],
   "note": ""
  },
  {
   "property": "C37",
   "status": "partial",
   "theorems": [
    "Banquet.Props.C37_violated",
    "Banquet.Props.C37_partial",
    "Banquet.Props.C37_swapped"
   ],
   "note": "The code violates the property for parameters 7 and 8 (C37_violated, C37_swapped); C37_partial covers the other 21."
  },
  {
   "property": "C38",
   "status": "partial",
   "theorems": [
    "Banquet.Props.C38_exact",
    "Banquet.Props.C38_endless",
    "Banquet.Props.C38_threshold",
    "Banquet.Props.C38_incremental_partial",
    "Banquet.Props.C38_chunking_partial",
    "Banquet.Props.C38_overrun_violated",
    "Banquet.Props.C38_hang_violated",
    "Banquet.Props.C38_squeeze_violated",
    "Banquet.Props.C38_violated"
   ],
   "note": "Violated for pieces near 2^32 bytes and longer (CVE-2022-37454 in KeccakSponge.inc): C38_overrun_violated, C38_hang_violated, C38_squeeze_violated. Proved for all shorter pieces, for any state functions that satisfy Spec.Snp (C56 gives one). C38_exact: for all lengths, the exact condition under which the output is right, and which failure occurs otherwise; C38_endless, C38_threshold."
  },
  {
   "property": "C39",
   "status": "partial",
   "theorems": [
    "Banquet.Props.C39_exact",
    "Banquet.Props.C39_lanes_exact",
    "Banquet.Props.C39_spec_partial",
    "Banquet.Props.C39_lanes_partial",
    "Banquet.Props.C39_overrun_violated",
    "Banquet.Props.C39_violated"
   ],
   "note": "Violated as C38 (C39_overrun_violated). Proved for pieces below 2^32 bytes minus the rate, for any state functions that satisfy Spec.PlSnp. C39_exact and C39_lanes_exact: for all lengths, including the failures."
  },
  {
   "property": "C40",
   "status": "proved",
   "theorems": [
    "Banquet.Props.C40_new",
    "Banquet.Props.C40_read",
    "Banquet.Props.C40_write"
   ],
   "note": ""
  },
  {
   "property": "C41",
   "status": "proved",
   "theorems": [
    "Banquet.Props.C41_total",
    "Banquet.Props.C41_returns"
   ],
   "note": ""
  },
  {
   "property": "C42",
   "status": "proved",
   "theorems": [
    "Banquet.Props.C42_ceilLog2",
    "Banquet.Props.C42_clz"
   ],
   "note": ""
  },
  {
   "property": "C43",
   "status": "proved",
   "theorems": [
    "Banquet.Props.C43_mul",
    "Banquet.Props.C43_inv",
    "Banquet.Props.C43_sbox"
   ],
   "note": ""
  },
  {
   "property": "C44",
   "status": "proved",
   "theorems": [
    "Banquet.Props.C44_barrett"
   ],
   "note": ""
  },
  {
   "property": "C45",
   "status": "proved",
   "theorems": [
    "Banquet.Props.C45_roots",
    "Banquet.Props.C45_check"
   ],
   "note": "C45_roots bounds the number of evaluation points at which a wrong P passes; C45_check says the same for the check of the code (sumProducts) on the words for the values of the polynomials given by their shares."
  },
  {
   "property": "C46",
   "status": "proved",
   "theorems": [
    "Banquet.Props.C46_rows",
    "Banquet.Props.C46_total",
    "Banquet.Props.C46_poly"
   ],
   "note": "C46_rows counts solutions of the m2 equations; C46_poly says the same for challenge words, shared S-box bytes, arbitrary extra points and any P sent after seeing the challenge. C46_total gives the number of all vectors."
  },
  {
   "property": "C47",
   "status": "proved",
   "theorems": [
    "Banquet.Props.C47_view",
    "Banquet.Props.C47_uniform",
    "Banquet.Props.C47_simulated",
    "Banquet.Props.C47_hiding",
    "Banquet.Props.C47_sign"
   ],
   "note": "Spec.repView assembles the model functions of sign for one repetition with given tapes; C47_sign shows that a signature consists of such views. C47_uniform, C47_view, C47_simulated: for each key the values sent are a bijective function of the hidden tape and determine the view, so a simulator without the key has the same distribution. Computational parts (tapes and commitments from hashes) are outside."
  },
  {
   "property": "C48",
   "status": "partial",
   "theorems": [
    "Banquet.Props.C48_exact",
    "Banquet.Props.C48_calls",
    "Banquet.Props.C48_partial",
    "Banquet.Props.C48_violated"
   ],
   "note": "The code violates the property (C48_violated: a tape and a seed commitment hash the same bytes). C48_partial: h_1, h_2, h_3 and tree nodes are separated from each other. C48_calls ties the inputs to the model. C48_exact: two purposes can share a hash input if and only if they are in a table that depends on the sizes of the instance."
  },
  {
   "property": "C49",
   "status": "proved",
   "theorems": [
    "Banquet.Props.C49_relation"
   ],
   "note": ""
  },
  {
   "property": "C50",
   "status": "partial",
   "theorems": [
    "Banquet.Props.C50_violated",
    "Banquet.Props.C50_shift",
    "Banquet.Props.C50_partial",
    "Banquet.Props.C50_concat"
   ],
   "note": "Violated (C50_violated): bytes of an over-long public key can be moved to the message without changing the result (C50_shift). C50_partial: it holds for public keys of equal length; C50_concat: for any lengths the concatenation of key and message is bound."
  },
  {
   "property": "C51",
   "status": "proved",
   "theorems": [
    "Banquet.Props.C51_dummy",
    "Banquet.Props.C51_verify"
   ],
   "note": ""
  },
  {
   "property": "C52",
   "status": "proved",
   "theorems": [
    "Banquet.Props.C52_repetition"
   ],
   "note": "Statement about one repetition with challenges chosen after the corrections they are to check. verify derives R from a hash which leaves out the last correction of P (C27), so the bound for R does not carry over to the code as it is. No statement about the probability over the random oracle."
  },
  {
   "property": "C53",
   "status": "proved",
   "theorems": [
    "Banquet.Props.C53_r",
    "Banquet.Props.C53_R",
    "Banquet.Props.C53_hidden",
    "Banquet.Props.C53_r_uniform",
    "Banquet.Props.C53_R_uniform",
    "Banquet.Props.C53_hidden_uniform"
   ],
   "note": "C53_r, C53_R, C53_hidden: the model's loops compute the sequences specified by blocks, without fuel. C53_*_uniform: counts over block sequences, as an XOF with uniform output would give; nothing is claimed about SHAKE."
  },
  {
   "property": "C54",
   "status": "proved",
   "theorems": [
    "Banquet.Props.C54_sign",
    "Banquet.Props.C54_iff",
    "Banquet.Props.C54_unique",
    "Banquet.Props.C54_inputs"
   ],
   "note": "C54_iff with C54_unique: complete functional specification of sign for key pairs. For other keys see C24. The specification uses no function of the model that computes (C55 for AES, C04_value for the lifting)."
  },
  {
   "property": "C55",
   "status": "proved",
   "theorems": [
    "Banquet.Props.C55_party",
    "Banquet.Props.C55_encrypt",
    "Banquet.Props.C55_conv"
   ],
   "note": "C55_party: equality of the model's function with Spec/Shared for arbitrary shares. C55_encrypt, C55_conv: sanity of the specification."
  },
  {
   "property": "C56",
   "status": "proved",
   "theorems": [
    "Banquet.Props.C56_roundConstants",
    "Banquet.Props.C56_rhoOffsets",
    "Banquet.Props.C56_permutation",
    "Banquet.Props.C56_permutation_bytes",
    "Banquet.Props.C56_state",
    "Banquet.Props.C56_state4",
    "Banquet.Props.C56_shake",
    "Banquet.Props.C56_shake4"
   ],
   "note": "Rounds transcribed statement by statement from the macros; the tables of the specification are checked against the algorithms of FIPS 202 (C56_roundConstants, C56_rhoOffsets). Little endian machine."
  },
  {
   "property": "C57",
   "status": "proved",
   "theorems": [
    "Banquet.Props.C57_permutation",
    "Banquet.Props.C57_state",
    "Banquet.Props.C57_shake4"
   ],
   "note": "Vector operations on four 64-bit words; the byte shuffles are modelled byte by byte."
  },
  {
   "property": "C58",
   "status": "proved",
   "theorems": [
    "Banquet.Props.C58_permutation",
    "Banquet.Props.C58_state",
    "Banquet.Props.C58_extract",
    "Banquet.Props.C58_shake"
   ],
   "note": "One let per instruction. The view of the state reads lane x+5y at mapState; loads outside of data or state are the outcome ub. unsigned int arguments are taken to be zero-extended; alignment is not modelled."
  },
  {
   "property": "C59",
   "status": "proved",
   "theorems": [
    "Banquet.Props.C59_same_hash",
    "Banquet.Props.C59_same_hash4",
    "Banquet.Props.C59_lane"
   ],
   "note": "Consequence of C56, C57, C58 through FIPS 202."
  },
  {
   "property": "C60",
   "status": "proved",
   "theorems": [
    "Banquet.Props.C60_salt",
    "Banquet.Props.C60_node",
    "Banquet.Props.C60_nodes",
    "Banquet.Props.C60_tape",
    "Banquet.Props.C60_tapes",
    "Banquet.Props.C60_commit",
    "Banquet.Props.C60_commits",
    "Banquet.Props.C60_first",
    "Banquet.Props.C60_second",
    "Banquet.Props.C60_third",
    "Banquet.Props.C60_challenges1",
    "Banquet.Props.C60_challenges2",
    "Banquet.Props.C60_challenges3"
   ],
   "note": "For every correct implementation of the functions on the Keccak state (Spec.Correct); portable_ok and avx2_ok show that both builds are. The two rejection loops (C60_challenges2, C60_challenges3) are equated to the loops over the XOF, whose results C25, C26 and C53 describe."
  },
  {
   "property": "C61",
   "status": "proved",
   "theorems": [
    "Banquet.Props.C61_sign",
    "Banquet.Props.C61_verify",
    "Banquet.Props.C61_deserialize",
    "Banquet.Props.C61_portable",
    "Banquet.Props.C61_avx2",
    "Banquet.Props.C61_interoperable"
   ],
   "note": "C61_portable and C61_avx2 for the two builds, C61_interoperable across builds. Public keys and messages of at most 2^32 - 168 bytes; see C62 for longer ones."
  },
  {
   "property": "C62",
   "status": "partial",
   "theorems": [
    "Banquet.Props.C62_partial",
    "Banquet.Props.C62_sign_violated",
    "Banquet.Props.C62_verify_violated",
    "Banquet.Props.C62_violated",
    "Banquet.Props.C62_sign_exact",
    "Banquet.Props.C62_sign_threshold",
    "Banquet.Props.C62_verify_exact"
   ],
   "note": "The code violates the property: C62_sign_violated (every key, one message length), C62_verify_violated (every signature, one message length), C62_violated. C62_partial: it holds for messages of at most 2^32 - 168 bytes. C62_sign_exact, C62_sign_threshold, C62_verify_exact: exactly which message lengths work, and what happens with the others."
  },
  {
   "property": "C63",
   "status": "proved",
   "theorems": [
    "Banquet.Props.C63_getrandom",
    "Banquet.Props.C63_apple",
    "Banquet.Props.C63_windows",
    "Banquet.Props.C63_urandom",
    "Banquet.Props.C63_success",
    "Banquet.Props.C63_eof"
   ],
   "note": "One theorem per variant of rand_bytes; C63_success: /dev/urandom succeeds when the deliveries add up; C63_eof: read returning 0 for ever is not treated as an error."
  },
  {
   "property": "C64",
   "status": "partial",
   "theorems": [
    "Banquet.Props.C64_key_partial",
    "Banquet.Props.C64_hang",
    "Banquet.Props.C64_violated",
    "Banquet.Props.C64_success"
   ],
   "note": "The code violates the property: C64_violated (a short read of the plaintext goes unnoticed). C64_key_partial: it holds for the secret key, because an incomplete key is rejected by the zero check of AES. C64_hang: if no delivery of the key is complete, keygen loops for ever instead of reporting the failure. C64_success: with complete deliveries it is the key generation of C23."
  },
  {
   "property": "C65",
   "status": "proved",
   "theorems": [
    "Banquet.Props.C65_rounds",
    "Banquet.Props.C65_soundness",
    "Banquet.Props.C65_error"
   ],
   "note": ""
  },
  {
   "property": "C66",
   "status": "proved",
   "theorems": [
    "Banquet.Props.C66_level"
   ],
   "note": "About the protocol as designed. The code does not hash the last correction of P, so for the code the second round costs nothing (C27, C28)."
  },
  {
   "property": "C67",
   "status": "proved",
   "theorems": [
    "Banquet.Props.C67_run",
    "Banquet.Props.C67_verify"
   ],
   "note": "The set of second challenges depends on the corrections of P. In the code the last one is not hashed before the second challenge, so it can be chosen such that the challenge lies in the set (that is the forgery of C28); the extraction itself needs no assumption about this."
  },
  {
   "property": "C68",
   "status": "proved",
   "theorems": [
    "Banquet.Props.C68_sign",
    "Banquet.Props.C68_verify",
    "Banquet.Props.C68_sign_total",
    "Banquet.Props.C68_verify_total",
    "Banquet.Props.C68_accepted",
    "Banquet.Props.C68_key_length"
   ],
   "note": "Model/Loops follows banquet.cpp:290-1194 and the shared AES evaluation (aes.cpp:519-633, 864-1047, 1282-1473) statement by statement; hash functions, field, AES without shares and seed trees are those of the other models. For keys longer than the key length only the claim C68_key_length is proved; the description per party has no meaning there (the correction runs over into the share of the next party)."
  },
  {
   "property": "C69",
   "status": "proved",
   "theorems": [
    "Banquet.Props.C69_slots",
    "Banquet.Props.C69_short",
    "Banquet.Props.C69_sum"
   ],
   "note": "The fixed expanded-key arrays of the code (std::array of 11, 13 or 15 registers) are lists of round keys per party."
  },
  {
   "property": "C70",
   "status": "partial",
   "theorems": [
    "Banquet.Props.C70_key",
    "Banquet.Props.C70_lines",
    "Banquet.Props.C70_distinct",
    "Banquet.Props.C70_partial",
    "Banquet.Props.C70_violated"
   ],
   "note": "Violated: C70_key extracts the whole key from the lookup indices, C70_lines its upper bits from the cache lines; C70_violated is the negation with a witness. C70_partial: the number of lookups is public."
  },
  {
   "property": "C71",
   "status": "proved",
   "theorems": [
    "Banquet.Props.C71_any",
    "Banquet.Props.C71_code",
    "Banquet.Props.C71_all",
    "Banquet.Props.C71_fixed"
   ],
   "note": "C71_any for every input of the second hash, C71_code for verify as it is, C71_all for the scheme that hashes all m2+1 corrections of P, C71_fixed: what is extracted does not depend on the outputs from which challenges are taken. Probabilities are not formalised: the theorem bounds the number of good challenges per query."
  },
  {
   "property": "C72",
   "status": "proved",
   "theorems": [
    "Banquet.Props.C72_init",
    "Banquet.Props.C72_vectors",
    "Banquet.Props.C72_polynomials",
    "Banquet.Props.C72_serialize",
    "Banquet.Props.C72_deserialize",
    "Banquet.Props.C72_wrong_field",
    "Banquet.Props.C72_offset",
    "Banquet.Props.C72_read",
    "Banquet.Props.C72_whole",
    "Banquet.Props.C72_code"
   ],
   "note": "C72_deserialize assumes elements that are not longer than \u03bb; the other case is C72_wrong_field. C72_code connects C61 and C68: the builds with their sponges are the loops with SHAKE."
  },
  {
   "property": "C73",
   "status": "partial",
   "theorems": [
    "Banquet.Props.C73_partial",
    "Banquet.Props.C73_calls",
    "Banquet.Props.C73_violated",
    "Banquet.Props.C73_mixed_violated",
    "Banquet.Props.C73_read_violated"
   ],
   "note": "Violated with threads of different fields: C73_violated (a thread works with the field of another), C73_mixed_violated (with a table that mixes two fields), C73_read_violated (reading a signature leaves the bytes). C73_partial and C73_calls: with threads of one field all is well, since every write of an initialisation writes the value that is there already once one thread has finished. Writes are taken to be atomic; in C++ the unsynchronised writes are a data race."
  },
  {
   "property": "C74",
   "status": "partial",
   "theorems": [
    "Banquet.Props.C74_partial",
    "Banquet.Props.C74_violated",
    "Banquet.Props.C74_number",
    "Banquet.Props.C74_args",
    "Banquet.Props.C74_instance"
   ],
   "note": "Violated: strtol is called without an end pointer, so that `x` is read as 0 and `12x` as 12 (C74_violated). C74_number, C74_args: exactly what is accepted. C74_partial: numerals are read correctly. getopt_long and strtol are modelled as in glibc."
  },
  {
   "property": "C75",
   "status": "proved",
   "theorems": [
    "Banquet.Props.C75_bench"
   ],
   "note": ""
  },
  {
   "property": "C76",
   "status": "partial",
   "theorems": [
    "Banquet.Props.C76_missing",
    "Banquet.Props.C76_args",
    "Banquet.Props.C76_violated",
    "Banquet.Props.C76_kappa_violated",
    "Banquet.Props.C76_product_violated",
    "Banquet.Props.C76_partial",
    "Banquet.Props.C76_consistent"
   ],
   "note": "Violated: `bench_free -i 3 16 16 31 10` passes a null pointer to strtol (C76_violated; C76_missing says exactly when); another kappa than 16, 24, 32 reads uninitialised parameters (C76_kappa_violated); the product wraps (C76_product_violated). C76_partial, C76_consistent: with parameters that fit together all is well."
  },
  {
   "property": "C77",
   "status": "proved",
   "theorems": [
    "Banquet.Props.C77_bound",
    "Banquet.Props.C77_level",
    "Banquet.Props.C77_supplied"
   ],
   "note": "C77_bound: any consistent parameters and any split into t1, t2; C77_level: a split for each supplied set; C77_supplied: both together. About the scheme whose second hash covers all corrections; what the code verifies differs from it only there (C71_any covers both), and with the code as it is everybody can forge (C27, C28). Challenges must be found within the first L bytes of output, L arbitrary."
  },
  {
   "property": "C78",
   "status": "proved",
   "theorems": [
    "Banquet.Props.C78_hash",
    "Banquet.Props.C78_accepted",
    "Banquet.Props.C78_returns",
    "Banquet.Props.C78_acceptable",
    "Banquet.Props.C78_unique",
    "Banquet.Props.C78_forger"
   ],
   "note": "About the code with the one change, not the code as it is (for which C27, C28, C29 show the opposite). signBy and verifyBy are sign and verify with any function in place of phase_2_commitment; signWith_code and verifyWith_code (by rfl) say that with the function of the code they are the model used everywhere else."
  },
  {
   "property": "C79",
   "status": "proved",
   "theorems": [
    "Banquet.Props.C79_exact",
    "Banquet.Props.C79_second",
    "Banquet.Props.C79_third",
    "Banquet.Props.C79_sign",
    "Banquet.Props.C79_slow",
    "Banquet.Props.C79_level",
    "Banquet.Props.C79_forger"
   ],
   "note": "C79_exact: the number of words with j rejected blocks; C79_slow, C79_level: the probability that the loop is long; C79_second, C79_third, C79_sign: otherwise the code ends (the fuel of the model is enough); C79_forger: C77 without the condition on the length of the loops."
  },
  {
   "property": "C80",
   "status": "proved",
   "theorems": [
    "Banquet.Props.C80_couple",
    "Banquet.Props.C80_distinguish",
    "Banquet.Props.C80_accident",
    "Banquet.Props.C80_code"
   ],
   "note": "C80_couple: the one-to-one correspondence between choices of the simulator and tables for which the signer makes the same signature; C80_distinguish: the difference of the probabilities for any observer; C80_accident: the probability of accidents. The probability that an observer finds a hidden input is a term of C80_distinguish; it is bounded in C81. c is the number of corrections in the second hash: m2 for the code (C80_code), m2 + 1 for the changed code of C78."
  },
  {
   "property": "C81",
   "status": "proved",
   "theorems": [
    "Banquet.Props.C81_seeds",
    "Banquet.Props.C81_distinguish"
   ],
   "note": "C81_seeds: the bound for finding a seed that is not opened; C81_distinguish: what remains of the difference in C80_distinguish is the probability of computing a secret key from the public key. That this is hard is the assumption on AES as a one-way function, which is not proved."
  },
  {
   "property": "C82",
   "status": "proved",
   "theorems": [
    "Banquet.Props.C82_simulated",
    "Banquet.Props.C82_forger",
    "Banquet.Props.C82_settled"
   ],
   "note": "C82_forger: the bound; C82_simulated: the same for a simulated signature; C82_settled: who verifies the signature has settled it. One signature, of a message fixed before the hash function is drawn. For the code as it is the claim is false (C28_violated); so it is stated for the changed code of C78. That computing a secret key from the public key is hard is the assumption on AES, which is not proved."
  },
  {
   "property": "C83",
   "status": "proved",
   "theorems": [
    "Banquet.Props.C83_rounds",
    "Banquet.Props.C83_more",
    "Banquet.Props.C83_all",
    "Banquet.Props.C83_twelve",
    "Banquet.Props.C83_absorb",
    "Banquet.Props.C83_overwrite",
    "Banquet.Props.C83_zeroes",
    "Banquet.Props.C83_extractAdd"
   ],
   "note": "Functions of the portable Keccak code that the library does not call. ExtractAndAddBytes is covered up to byte 198, as ExtractBytes in C56: asked for all 200 bytes at once it reads the lane behind the state."
  },
  {
   "property": "C84",
   "status": "proved",
   "theorems": [
    "Banquet.Props.C84_parity8",
    "Banquet.Props.C84_parity16",
    "Banquet.Props.C84_parity64",
    "Banquet.Props.C84_sub"
   ],
   "note": "Portable versions only; the builtins are the specification."
  },
  {
   "property": "C85",
   "status": "proved",
   "theorems": [
    "Banquet.Props.C85_sign",
    "Banquet.Props.C85_verify",
    "Banquet.Props.C85_accepted",
    "Banquet.Props.C85_canonical",
    "Banquet.Props.C85_binding"
   ],
   "note": "The caller is not part of the repository. It avoids the undefined behaviour recorded in C22, C24, C35 and C50; it does not prevent the forgery of C27 and C28 and the changed signatures of C29, for which the library has to be changed (C78)."
  },
  {
   "property": "C86",
   "status": "proved",
   "theorems": [
    "Banquet.Props.C86_addLanesAll",
    "Banquet.Props.C86_overwriteLanesAll",
    "Banquet.Props.C86_extractLanesAll",
    "Banquet.Props.C86_extractAndAddLanesAll",
    "Banquet.Props.C86_rounds",
    "Banquet.Props.C86_fastLoop",
    "Banquet.Props.C86_fastLoop_wraps"
   ],
   "note": "The library does not call these functions. Buffers are lists of 64 bit words; input and output of ExtractAndAddLanesAll do not overlap; ExtractLanesAll is claimed for laneCount \u2264 laneOffset (otherwise the states' words overlap). The wrapping around of the fast loop is a precondition of the function that the header does not state (C86_fastLoop_wraps)."
  },
  {
   "property": "C87",
   "status": "proved",
   "theorems": [
    "Banquet.Props.C87_compress",
    "Banquet.Props.C87_expand",
    "Banquet.Props.C87_short"
   ],
   "note": "The library does not call these functions. The specification of the rolling functions is that of the Kravatte paper (Achouffe version of the code: six rounds). Buffers shorter than 800 bytes are outside the precondition of the functions (C87_short)."
  },
  {
   "property": "C88",
   "status": "proved",
   "theorems": [
    "Banquet.Props.C88_init",
    "Banquet.Props.C88_hash",
    "Banquet.Props.C88_shake",
    "Banquet.Props.C88_noFinal",
    "Banquet.Props.C88_late"
   ],
   "note": "The library itself uses SHAKE128 and SHAKE256 with whole bytes only. An update of bits that are no whole number of bytes must be the last one, as the header demands. Rate 1600 (capacity 0) is left out: keccak/opt64 then reads beyond the state (note at Spec.Snp)."
  },
  {
   "property": "C89",
   "status": "proved",
   "theorems": [
    "Banquet.Props.C89_oneCall",
    "Banquet.Props.C89_fails"
   ],
   "note": "The library does not call this function."
  },
  {
   "property": "C90",
   "status": "proved",
   "theorems": [
    "Banquet.Props.C90_overwrite",
    "Banquet.Props.C90_zeroes",
    "Banquet.Props.C90_extractAdd"
   ],
   "note": "The library does not call these functions."
  },
  {
   "property": "C91",
   "status": "partial",
   "theorems": [
    "Banquet.Props.C91_addLanesAll",
    "Banquet.Props.C91_overwriteLanesAll",
    "Banquet.Props.C91_overwrite",
    "Banquet.Props.C91_rounds",
    "Banquet.Props.C91_extractAdd",
    "Banquet.Props.C91_extractLanesAll_partial",
    "Banquet.Props.C91_extractAndAddLanesAll_partial",
    "Banquet.Props.C91_extractLanesAll_violated"
   ],
   "note": "Holds for all functions except the two that return lanes with laneCount = 25 (all lanes), which read a lane behind the state (C91_extractLanesAll_violated; the AVX2 versions do not, C86). The value read is not used. The library does not call these functions."
  },
  {
   "property": "C92",
   "status": "partial",
   "theorems": [
    "Banquet.Props.C92_view",
    "Banquet.Props.C92_overwrite",
    "Banquet.Props.C92_zeroes",
    "Banquet.Props.C92_extractAdd",
    "Banquet.Props.C92_twelve",
    "Banquet.Props.C92_rounds_partial",
    "Banquet.Props.C92_rounds_violated",
    "Banquet.Props.C92_more",
    "Banquet.Props.C92_absorb",
    "Banquet.Props.C92_portable"
   ],
   "note": "Holds except for Permute_Nrounds with nr = 0, which runs 2^32 rounds and reads behind the round constants (C92_rounds_violated); the portable code returns the state unchanged (C83). The library does not call these functions."
  },
  {
   "property": "C93",
   "status": "proved",
   "theorems": [
    "Banquet.Props.C93_init",
    "Banquet.Props.C93_hash",
    "Banquet.Props.C93_noFinal",
    "Banquet.Props.C93_late",
    "Banquet.Props.C93_fastLoop_hangs"
   ],
   "note": "Rates below 1600 bits, as in C88. C93_fastLoop_hangs is about disabled code: the comment in KeccakSpongetimes4.c asks whether the fast loop can be enabled; with the offsets of the prepared call it never returns."
  },
  {
   "property": "C94",
   "status": "proved",
   "theorems": [
    "Banquet.Props.C94_convert",
    "Banquet.Props.C94_arith",
    "Banquet.Props.C94_lift",
    "Banquet.Props.C94_firstN",
    "Banquet.Props.C94_roots",
    "Banquet.Props.C94_lagrange",
    "Banquet.Props.C94_interpolate",
    "Banquet.Props.C94_differences"
   ],
   "note": "NTL is modelled by its documentation (GF2X as polynomials over GF(2), GF2E as residue classes); its code is not part of the repository. The reference knows \u03bb = 4, 5, 6 only (C94_differences)."
  },
  {
   "property": "C95",
   "status": "proved",
   "theorems": [
    "Banquet.Props.C95_init",
    "Banquet.Props.C95_elapsed",
    "Banquet.Props.C95_read",
    "Banquet.Props.C95_report",
    "Banquet.Props.C95_end",
    "Banquet.Props.C95_noRows"
   ],
   "note": "Means are exact rational numbers; the floating-point division and the rounding to two or three places in the script are not modelled. C95_noRows lists the files the script fails on."
  },
  {
   "property": "C96",
   "status": "proved",
   "theorems": [
    "Banquet.Props.C96_word",
    "Banquet.Props.C96_short",
    "Banquet.Props.C96_parties"
   ],
   "note": "The macro is dead code; C96_parties says why it could not be used with an even number of parties."
  },
  {
   "property": "C97",
   "status": "proved",
   "theorems": [
    "Banquet.Props.C97_script",
    "Banquet.Props.C97_library",
    "Banquet.Props.C97_table"
   ],
   "note": "Sage is modelled by its documentation: GF(2^n, modulus) rejects reducible polynomials, Hom(K, F).list() contains every ring homomorphism once, in any order."
  },
  {
   "property": "C98",
   "status": "proved",
   "theorems": [
    "Banquet.Props.C98_trees",
    "Banquet.Props.C98_sign",
    "Banquet.Props.C98_roundtrip"
   ],
   "note": "Only the known answer test of banquet_test.cpp depends on the hash function; it was run on the model (DESIGN.md, section 5)."
  },
  {
   "property": "C99",
   "status": "partial",
   "theorems": [
    "Banquet.Props.C99_partial",
    "Banquet.Props.C99_repeated",
    "Banquet.Props.C99_violated",
    "Banquet.Props.C99_bound",
    "Banquet.Props.C99_elements",
    "Banquet.Props.C99_interpolation"
   ],
   "note": "The test case with random values aborts in NTL when two of the 20 random points are equal (C99_repeated, C99_violated); C99_bound shows that this concerns at most the fraction 190 / 2^32 of the choices."
  },
  {
   "property": "C100",
   "status": "proved",
   "theorems": [
    "Banquet.Props.C100_aes",
    "Banquet.Props.C100_field",
    "Banquet.Props.C100_lift"
   ],
   "note": "The tests for two blocks insert a vector into itself, which the C++ standard does not define; the model takes the block twice, as is meant."
  },
  {
   "property": "C101",
   "status": "proved",
   "theorems": [
    "Banquet.Props.C101_make",
    "Banquet.Props.C101_unchecked",
    "Banquet.Props.C101_null",
    "Banquet.Props.C101_first",
    "Banquet.Props.C101_last",
    "Banquet.Props.C101_from",
    "Banquet.Props.C101_subspan",
    "Banquet.Props.C101_get",
    "Banquet.Props.C101_calls"
   ],
   "note": "The spans of the library are made by RepContainer::get and the seed tree; that these stay inside their vectors is part of C68, C69 and C72."
  },
  {
   "property": "C102",
   "status": "proved",
   "theorems": [
    "Banquet.Props.C102_get",
    "Banquet.Props.C102_all",
    "Banquet.Props.C102_read",
    "Banquet.Props.C102_write",
    "Banquet.Props.C102_repetition",
    "Banquet.Props.C102_tape"
   ],
   "note": "C102_get, C102_read, C102_write and C102_tape assume that the slice of the party is inside the vector; C102_all and C102_repetition show it for a container as constructed. Nothing checks it at run time, as the last example shows."
  }
 ]
}