{
 "claims": [
  {
   "property": "C01",
   "status": "proved",
   "theorems": [
    "Verif.Props.C01_id_bytes_roundtrip",
    "Verif.Props.C01_fromBytes_exact"
   ],
   "note": "Exact characterisation of FromBytes on all byte strings."
  },
  {
   "property": "C02",
   "status": "proved",
   "theorems": [
    "Verif.Props.C02_unmarshalText_exact",
    "Verif.Props.C02_unmarshalText_no_panic",
    "Verif.Props.C02_text_roundtrip",
    "Verif.Props.C02_receiver"
   ],
   "note": "Accepted texts are characterised by an independent decimal-value specification."
  },
  {
   "property": "C03",
   "status": "proved",
   "theorems": [
    "Verif.Props.C03_id_scalar"
   ],
   "note": ""
  },
  {
   "property": "C04",
   "status": "proved",
   "theorems": [
    "Verif.Props.C04_newIDSlice_sorted_perm",
    "Verif.Props.C04_newIDSlice_strict"
   ],
   "note": "Aliasing of the argument is covered by the value semantics of the model (append copies)."
  },
  {
   "property": "C05",
   "status": "proved",
   "theorems": [
    "Verif.Props.C05_contains_iff_mem",
    "Verif.Props.C05_contains_new",
    "Verif.Props.C05_contains_sound",
    "Verif.Props.C05_unsorted_can_miss"
   ],
   "note": "The binary search of the code is modelled; includes the witness that unsorted slices can miss a member."
  },
  {
   "property": "C06",
   "status": "proved",
   "theorems": [
    "Verif.Props.C06_isSubsetOf_iff",
    "Verif.Props.C06_equal_iff",
    "Verif.Props.C06_copy"
   ],
   "note": ""
  },
  {
   "property": "C07",
   "status": "proved",
   "theorems": [
    "Verif.Props.C07_lagrange_errors"
   ],
   "note": ""
  },
  {
   "property": "C08",
   "status": "proved",
   "theorems": [
    "Verif.Props.C08_lagrange_interpolates",
    "Verif.Props.C08_lagrange_order_free",
    "Verif.Props.C08_lagrange_closed_form",
    "Verif.Props.C08_duplicates_break"
   ],
   "note": "For all polynomials of degree below the number of IDs; includes the witness that duplicate IDs break interpolation."
  },
  {
   "property": "C09",
   "status": "partial",
   "theorems": [
    "Verif.Props.C09_randID_ne_zero",
    "Verif.Props.C09_newPartySlice_partial",
    "Verif.Props.C09_newPartySlice_65535_diverges",
    "Verif.Props.C09_newPartySlice_valid"
   ],
   "note": "REFUTED for n = 65535: the uint16 counter wraps and NewPartySlice never returns (C09_newPartySlice_65535_diverges). Everything else is proved."
  },
  {
   "property": "C10",
   "status": "proved",
   "theorems": [
    "Verif.Props.C10_evaluate",
    "Verif.Props.C10_evaluate_zero_panics",
    "Verif.Props.C10_new"
   ],
   "note": ""
  },
  {
   "property": "C11",
   "status": "proved",
   "theorems": [
    "Verif.Props.C11_evaluate_exponent",
    "Verif.Props.C11_evaluators_agree",
    "Verif.Props.C11_zero_panics",
    "Verif.Props.C11_evaluateMulti"
   ],
   "note": ""
  },
  {
   "property": "C12",
   "status": "proved",
   "theorems": [
    "Verif.Props.C12_memory",
    "Verif.Props.C12_memory_self",
    "Verif.Props.C12_add_ok",
    "Verif.Props.C12_add_err",
    "Verif.Props.C12_sum"
   ],
   "note": ""
  },
  {
   "property": "C13",
   "status": "partial",
   "theorems": [
    "Verif.Props.C13_roundtrip_partial",
    "Verif.Props.C13_canonical",
    "Verif.Props.C13_unmarshal_no_panic",
    "Verif.Props.C13_empty_exponent_accepted",
    "Verif.Props.C13_accepted_nonempty",
    "Verif.Props.C13_roundtrip_65536_fails",
    "Verif.Props.C13_equal_iff"
   ],
   "note": "REFUTED in two corners: degree 0xFFFF decodes to an Exponent without coefficients (C13_empty_exponent_accepted) and 65536 coefficients do not round-trip (C13_roundtrip_65536_fails). Round trip proved up to 65535 coefficients, canonicity proved for all inputs."
  },
  {
   "property": "C14",
   "status": "proved",
   "theorems": [
    "Verif.Props.C14_any_subset_reconstructs",
    "Verif.Props.C14_public_consistent",
    "Verif.Props.C14_threshold_too_large_panics"
   ],
   "note": ""
  },
  {
   "property": "C15",
   "status": "proved",
   "theorems": [
    "Verif.Props.C15_shares_hide_secret",
    "Verif.Props.C15_shamirList_is_newPolynomial"
   ],
   "note": "Stated as a bijection between the sets of consistent polynomials."
  },
  {
   "property": "C16",
   "status": "proved",
   "theorems": [
    "Verif.Props.C16_honest_verifies"
   ],
   "note": ""
  },
  {
   "property": "C17",
   "status": "partial",
   "theorems": [
    "Verif.Props.C17_verify_exact_partial",
    "Verif.Props.C17_universal_forgery",
    "Verif.Props.C17_proof_transfers",
    "Verif.Props.C17_response_unused",
    "Verif.Props.C17_nonce_in_clear",
    "Verif.Props.C17_short_context_panics"
   ],
   "note": "REFUTED: the challenge is always the zero scalar, so Verify accepts exactly the proofs with S = 0 for every prover and public element (C17_universal_forgery, C17_proof_transfers). The exact acceptance rule is C17_verify_exact_partial."
  },
  {
   "property": "C18",
   "status": "proved",
   "theorems": [
    "Verif.Props.C18_unmarshal_iff",
    "Verif.Props.C18_marshal_iff",
    "Verif.Props.C18_remarshal",
    "Verif.Props.C18_roundtrip",
    "Verif.Props.C18_broadcast"
   ],
   "note": ""
  },
  {
   "property": "C19",
   "status": "proved",
   "theorems": [
    "Verif.Props.C19_keyGen1",
    "Verif.Props.C19_keyGen2",
    "Verif.Props.C19_sign1",
    "Verif.Props.C19_sign2"
   ],
   "note": "KeyGen1 for up to 65535 commitments, which is every degree the two-byte degree field can describe without wrapping."
  },
  {
   "property": "C20",
   "status": "proved",
   "theorems": [
    "Verif.Props.C20_canonical",
    "Verif.Props.C20_injective",
    "Verif.Props.C20_types_disjoint",
    "Verif.Props.C20_without_payload_collides"
   ],
   "note": "Also shows that without the payload-present condition two byte strings collide."
  },
  {
   "property": "C21",
   "status": "partial",
   "theorems": [
    "Verif.Props.C21_accepted_partial",
    "Verif.Props.C21_error_iff",
    "Verif.Props.C21_bare_header_accepted",
    "Verif.Props.C21_stale_payload"
   ],
   "note": "REFUTED: payload errors are dropped (C21_bare_header_accepted, C21_stale_payload). The exact behaviour is C21_accepted_partial and C21_error_iff."
  },
  {
   "property": "C22",
   "status": "partial",
   "theorems": [
    "Verif.Props.C22_keygen_five_bytes",
    "Verif.Props.C22_sign_five_bytes",
    "Verif.Props.C22_bad_payload_crashes",
    "Verif.Props.C22_unmarshal_no_panic_partial"
   ],
   "note": "No byte string panics any UnmarshalBinary (C22_unmarshal_no_panic_partial). The second half is refuted: an accepted message without payload, five bytes on the wire, makes ProcessAll panic in every round of both protocols (C22_bad_payload_crashes, C22_keygen_five_bytes, C22_sign_five_bytes)."
  },
  {
   "property": "C23",
   "status": "proved",
   "theorems": [
    "Verif.Props.C23_message_append",
    "Verif.Props.C23_message_fails",
    "Verif.Props.C23_header_append",
    "Verif.Props.C23_payload_append"
   ],
   "note": ""
  },
  {
   "property": "C24",
   "status": "proved",
   "theorems": [
    "Verif.Props.C24_equal_iff",
    "Verif.Props.C24_equal_wire",
    "Verif.Props.C24_equivalence",
    "Verif.Props.C24_empty_message_not_equal_itself"
   ],
   "note": ""
  },
  {
   "property": "C25",
   "status": "proved",
   "theorems": [
    "Verif.Props.C25_only_relevant_stored",
    "Verif.Props.C25_filed_under_sender",
    "Verif.Props.C25_ignored",
    "Verif.Props.C25_stranger_refused",
    "Verif.Props.C25_refused_changes_nothing"
   ],
   "note": ""
  },
  {
   "property": "C26",
   "status": "proved",
   "theorems": [
    "Verif.Props.C26_one_per_sender",
    "Verif.Props.C26_keygen_commitments",
    "Verif.Props.C26_sign_commitments",
    "Verif.Props.C26_second_refused",
    "Verif.Props.C26_first_wins"
   ],
   "note": ""
  },
  {
   "property": "C27",
   "status": "proved",
   "theorems": [
    "Verif.Props.C27_waits_for_all",
    "Verif.Props.C27_each_once"
   ],
   "note": "Including participant lists of 65536 entries, where the uint16 count wraps."
  },
  {
   "property": "C28",
   "status": "proved",
   "theorems": [
    "Verif.Props.C28_one_at_a_time",
    "Verif.Props.C28_frozen",
    "Verif.Props.C28_finished_never_crashes"
   ],
   "note": ""
  },
  {
   "property": "C29",
   "status": "proved",
   "theorems": [
    "Verif.Props.C29_done_iff_closed",
    "Verif.Props.C29_closed_once",
    "Verif.Props.C29_no_error_means_completed"
   ],
   "note": ""
  },
  {
   "property": "C30",
   "status": "proved",
   "theorems": [
    "Verif.Props.C30_keygen_blame",
    "Verif.Props.C30_sign_blame"
   ],
   "note": "Key generation and signing."
  },
  {
   "property": "C31",
   "status": "proved",
   "theorems": [
    "Verif.Props.C31_keygen_order",
    "Verif.Props.C31_sign_order"
   ],
   "note": "For key generation and for signing, any two orders of delivery of the messages of one round, followed by ProcessAll with any two map orders, lead to the same state and output; histories are arbitrary before the round."
  },
  {
   "property": "C32",
   "status": "partial",
   "theorems": [
    "Verif.Props.C32_accepted_is_queued_partial",
    "Verif.Props.C32_kept_until_round_partial",
    "Verif.Props.C32_refused_before_start",
    "Verif.Props.C32_refused_one_round_ahead"
   ],
   "note": "REFUTED: messages are refused before the first ProcessAll (C32_refused_before_start) and from a sender one round ahead whose current message is stored (C32_refused_one_round_ahead). What is accepted is kept until its round (C32_kept_until_round_partial); a later duplicate in the queue replaces an earlier one."
  },
  {
   "property": "C33",
   "status": "partial",
   "theorems": [
    "Verif.Props.C33_keygen_timeout_crashes",
    "Verif.Props.C33_keygen_timeout_safe_partial",
    "Verif.Props.C33_sign_timeout_safe",
    "Verif.Props.C33_no_timeout_without_timer",
    "Verif.Props.C33_only_after_silence_partial",
    "Verif.Props.C33_deadline",
    "Verif.Props.C33_refused_do_not_extend",
    "Verif.Props.C33_late_callback_aborts"
   ],
   "note": "REFUTED in the strong form: a callback waiting for the mutex aborts although a message has been accepted meanwhile (C33_late_callback_aborts), and a time-out of a key generation before its first ProcessAll crashes (C33_keygen_timeout_crashes; safe afterwards, and always for signing). Proved: silence at the moment the timer fires, no abort without a timeout, refused messages do not extend."
  },
  {
   "property": "C34",
   "status": "proved",
   "theorems": [
    "Verif.Props.C34_accepted",
    "Verif.Props.C34_accepts",
    "Verif.Props.C34_refused"
   ],
   "note": "Acceptance and refusal characterised for lists without duplicates."
  },
  {
   "property": "C35",
   "status": "proved",
   "theorems": [
    "Verif.Props.C35_honest_keygen"
   ],
   "note": "Network of any honest parties with sorted, distinct, non-zero IDs; every schedule without timeouts (reordering, duplication, loss, any map order)."
  },
  {
   "property": "C36",
   "status": "proved",
   "theorems": [
    "Verif.Props.C36_honest_keygen_completes"
   ],
   "note": ""
  },
  {
   "property": "C37",
   "status": "proved",
   "theorems": [
    "Verif.Props.C37_shares_interpolate",
    "Verif.Props.C37_few_shares"
   ],
   "note": "Interpolation for every subset of more than t finished parties; also that t shares are consistent with every secret (C37_few_shares, about shares only: the public commitments determine the secret information-theoretically)."
  },
  {
   "property": "C38",
   "status": "proved",
   "theorems": [
    "Verif.Props.C38_shares_match",
    "Verif.Props.C38_mismatch_aborts"
   ],
   "note": "Both halves: on success every accepted share matches the dealer's unique accepted broadcast; a mismatch aborts naming a mismatching participant."
  },
  {
   "property": "C39",
   "status": "partial",
   "theorems": [
    "Verif.Props.C39_own_share_refuted",
    "Verif.Props.C39_public_on_polynomial",
    "Verif.Props.C39_own_share_exact",
    "Verif.Props.C39_own_share_partial"
   ],
   "note": "The public shares always lie on one polynomial (C39_public_on_polynomial). REFUTED for the own share (C39_own_share_refuted, a concrete run): commitments of another length are skipped in the sum but their shares are added; C39_own_share_exact gives the exact difference, C39_own_share_partial the claim when all lengths are right."
  },
  {
   "property": "C40",
   "status": "partial",
   "theorems": [
    "Verif.Props.C40_rogue_key_refuted",
    "Verif.Props.C40_contribution_known_partial"
   ],
   "note": "REFUTED when at most t participants are honest (C40_rogue_key_refuted). C40_contribution_known_partial: with more than t honest recipients the accepted shares determine the secret of each contribution."
  },
  {
   "property": "C41",
   "status": "proved",
   "theorems": [
    "Verif.Props.C41_output_iff_success",
    "Verif.Props.C41_output_final"
   ],
   "note": ""
  },
  {
   "property": "C42",
   "status": "partial",
   "theorems": [
    "Verif.Props.C42_accepted",
    "Verif.Props.C42_accepts",
    "Verif.Props.C42_single_signer_accepted",
    "Verif.Props.C42_missing_share_crashes",
    "Verif.Props.C42_refused"
   ],
   "note": "REFUTED in two points: the number of signers is not compared with the threshold (C42_single_signer_accepted), and a signer without public share crashes (C42_missing_share_crashes). What is accepted and refused is otherwise proved exactly."
  },
  {
   "property": "C43",
   "status": "proved",
   "theorems": [
    "Verif.Props.C43_honest_sign",
    "Verif.Props.C43_keygen_then_sign"
   ],
   "note": "Network of honest signers, more than t of them, non-zero nonces, every schedule without timeouts; C43_keygen_then_sign shows the set-up is what an honest key generation outputs."
  },
  {
   "property": "C44",
   "status": "proved",
   "theorems": [
    "Verif.Props.C44_no_signature_without_success",
    "Verif.Props.C44_output_verifies",
    "Verif.Props.C44_success_has_signature"
   ],
   "note": "For duplicate-free signer lists."
  },
  {
   "property": "C45",
   "status": "partial",
   "theorems": [
    "Verif.Props.C45_honest_share_passes",
    "Verif.Props.C45_share_accepted_iff",
    "Verif.Props.C45_no_unattributed_failure",
    "Verif.Props.C45_sent_share_valid",
    "Verif.Props.C45_honest_share_accepted"
   ],
   "note": "For duplicate-free signer lists; honest means running the modelled code with a secret share matching its public share. The clause that an honest signer is never blamed holds when both have seen the same commitments (C45_honest_share_accepted) and is refuted without that (C75_framed_refuted); the rest is proved."
  },
  {
   "property": "C46",
   "status": "proved",
   "theorems": [
    "Verif.Props.C46_success_needs_key",
    "Verif.Props.C46_t_signers_fail"
   ],
   "note": "In general (weighted public shares not summing to the group key), and for t signers of a polynomial of degree exactly t."
  },
  {
   "property": "C47",
   "status": "proved",
   "theorems": [
    "Verif.Props.C47_at_most_one_share"
   ],
   "note": "Also gives the order and the sender."
  },
  {
   "property": "C48",
   "status": "proved",
   "theorems": [
    "Verif.Props.C48_commitment_list_injective",
    "Verif.Props.C48_binding_input_injective",
    "Verif.Props.C48_independent_of_signer",
    "Verif.Props.C48_factors_are_hashes"
   ],
   "note": "Message digests, since the code hashes SHA-512 of the message."
  },
  {
   "property": "C49",
   "status": "proved",
   "theorems": [
    "Verif.Props.C49_identity_refused"
   ],
   "note": ""
  },
  {
   "property": "C50",
   "status": "proved",
   "theorems": [
    "Verif.Props.C50_verify_iff",
    "Verif.Props.C50_complete",
    "Verif.Props.C50_unique",
    "Verif.Props.C50_message_bound"
   ],
   "note": "For every instance of the group interface; see C57-C62 for the concrete group."
  },
  {
   "property": "C51",
   "status": "proved",
   "theorems": [
    "Verif.Props.C51_rfc8032",
    "Verif.Props.C51_crypto_ed25519"
   ],
   "note": "RFC 8032 acceptance is stated on curve points, with and without the cofactor; crypto/ed25519.Verify is modelled in Model/Ed25519.lean and gives the same answer. The key and signature range over all elements of the concrete ristretto group; C68 extends this to all coordinates."
  },
  {
   "property": "C52",
   "status": "proved",
   "theorems": [
    "Verif.Props.C52_roundtrip",
    "Verif.Props.C52_roundtrip_new",
    "Verif.Props.C52_strict",
    "Verif.Props.C52_accepts_iff",
    "Verif.Props.C52_no_panic",
    "Verif.Props.C52_equal_iff"
   ],
   "note": ""
  },
  {
   "property": "C53",
   "status": "partial",
   "theorems": [
    "Verif.Props.C53_json_roundtrip",
    "Verif.Props.C53_json_id_kept_partial",
    "Verif.Props.C53_json_id_truncated"
   ],
   "note": "REFUTED in general: an ID outside 16 bits is truncated (C53_json_id_truncated). Round trip proved; ID kept when in range."
  },
  {
   "property": "C54",
   "status": "partial",
   "theorems": [
    "Verif.Props.C54_newPublic_iff_partial",
    "Verif.Props.C54_newPublic_result",
    "Verif.Props.C54_newPublic_panics_iff",
    "Verif.Props.C54_threshold_65535_accepted"
   ],
   "note": "REFUTED for threshold 65535 (C54_threshold_65535_accepted). Exact otherwise."
  },
  {
   "property": "C55",
   "status": "partial",
   "theorems": [
    "Verif.Props.C55_roundtrip_consistent",
    "Verif.Props.C55_roundtrip_newPublic",
    "Verif.Props.C55_inconsistent_refused",
    "Verif.Props.C55_nil_groupKey_panics",
    "Verif.Props.C55_threshold_truncated",
    "Verif.Props.C55_equal_iff",
    "Verif.Props.C55_keygen"
   ],
   "note": "Round trip and refusal proved; REFUTED corners: a missing group key panics, a threshold outside 16 bits is truncated."
  },
  {
   "property": "C56",
   "status": "proved",
   "theorems": [
    "Verif.Props.C56_roundtrip",
    "Verif.Props.C56_strict",
    "Verif.Props.C56_no_panic",
    "Verif.Props.C56_equal_iff"
   ],
   "note": ""
  },
  {
   "property": "C57",
   "status": "proved",
   "theorems": [
    "Verif.Props.C57_equal_iff",
    "Verif.Props.C57_representation",
    "Verif.Props.C57_equivalence",
    "Verif.Props.C57_compatible",
    "Verif.Props.C57_valid"
   ],
   "note": "All extended coordinates of all curve points, not only of ristretto elements."
  },
  {
   "property": "C58",
   "status": "proved",
   "theorems": [
    "Verif.Props.C58_bytes_eq_iff",
    "Verif.Props.C58_bytes_spec",
    "Verif.Props.C58_decode_spec",
    "Verif.Props.C58_accepts_iff",
    "Verif.Props.C58_roundtrip",
    "Verif.Props.C58_total"
   ],
   "note": "On coordinates of even points (doubles), which every element is: C68 and C60. The encoding is also shown to be the one of the ristretto255 document."
  },
  {
   "property": "C59",
   "status": "proved",
   "theorems": [
    "Verif.Props.C59_spec",
    "Verif.Props.C59_eq_iff",
    "Verif.Props.C59_eightInv"
   ],
   "note": "On coordinates of even points; representation independence, injectivity, RFC 8032 form and order of the point."
  },
  {
   "property": "C60",
   "status": "proved",
   "theorems": [
    "Verif.Props.C60_err_iff",
    "Verif.Props.C60_ok",
    "Verif.Props.C60_map"
   ],
   "note": "The result is always an even point of the curve; the panic is unreachable."
  },
  {
   "property": "C61",
   "status": "proved",
   "theorems": [
    "Verif.Props.C61_marshal_spec",
    "Verif.Props.C61_roundtrip",
    "Verif.Props.C61_accepts_iff",
    "Verif.Props.C61_total",
    "Verif.Props.C61_not_canonical"
   ],
   "note": "base64 is specified by numbers (RFC 4648); acceptance is characterised exactly, including the leniency of the Go decoder (line breaks and unused bits), which makes the text form non canonical (C61_not_canonical)."
  },
  {
   "property": "C62",
   "status": "proved",
   "theorems": [
    "Verif.Props.C62_primes",
    "Verif.Props.C62_order",
    "Verif.Props.C62_constants",
    "Verif.Props.C62_generator"
   ],
   "note": "Primality by Pratt certificates; the number of points from a point of order 8q and the bound 2p."
  },
  {
   "property": "C63",
   "status": "partial",
   "theorems": [
    "Verif.Props.C63_keygen1_shows_sum",
    "Verif.Props.C63_keygen1_zeroed",
    "Verif.Props.C63_until_next_call_partial",
    "Verif.Props.C63_keygen2_keeps",
    "Verif.Props.C63_keygen_by_value",
    "Verif.Props.C63_keygen1_refuted"
   ],
   "note": "The claim as stated is false for the code and refuted: KeyGen1 messages share memory with the session (C63_keygen1_shows_sum, C63_keygen1_zeroed, concrete C63_keygen1_refuted). Proved: content is stable until the next ProcessAll or time-out, KeyGen2 messages never change, and the model by value is faithful when the messages given to a session do not point to its memory. Missing for a full proof: the claim is false. Sign1 and Sign2 are by value in the code (copied by their constructors) and have no pointers in the model."
  },
  {
   "property": "C64",
   "status": "proved",
   "theorems": [
    "Verif.Props.C64_returns_iff",
    "Verif.Props.C64_error_iff",
    "Verif.Props.C64_crash_iff",
    "Verif.Props.C64_keygen_encodes",
    "Verif.Props.C64_sign_encodes"
   ],
   "note": "Exact conditions for each result of PartyRoutine (returned, error, crash), for any protocol, and that messages of keygen and signing sessions always encode."
  },
  {
   "property": "C65",
   "status": "partial",
   "theorems": [
    "Verif.Props.C65_names_party_partial",
    "Verif.Props.C65_round_and_culprit_swapped"
   ],
   "note": "REFUTED: round and culprit are swapped in the text (C65_round_and_culprit_swapped)."
  },
  {
   "property": "C66",
   "status": "proved",
   "theorems": [
    "Verif.Props.C66_keygen_wiped",
    "Verif.Props.C66_sign_wiped"
   ],
   "note": "Key generation and signing; the values held by the round object (copies made by the Go runtime are not modelled)."
  },
  {
   "property": "C67",
   "status": "proved",
   "theorems": [
    "Verif.Props.C67_keygen_sends"
   ],
   "note": "For every history of a session made by NewKeygenState."
  },
  {
   "property": "C68",
   "status": "proved",
   "theorems": [
    "Verif.Props.C68_arithmetic",
    "Verif.Props.C68_multiScalarMult",
    "Verif.Props.C68_encodings",
    "Verif.Props.C68_decoding",
    "Verif.Props.C68_stands"
   ],
   "note": "Refinement of the coordinate model by the group RG, the instance of RGroup for which all protocol theorems hold."
  },
  {
   "property": "C69",
   "status": "proved",
   "theorems": [
    "Verif.Props.C69_end_to_end",
    "Verif.Props.C69_runs_exist"
   ],
   "note": "Composition of C35, C36, C43 and C51 in the concrete group; C69_runs_exist shows that such runs exist for all parameters."
  },
  {
   "property": "C70",
   "status": "proved",
   "theorems": [
    "Verif.Props.C70_outcome",
    "Verif.Props.C70_usage",
    "Verif.Props.C70_valid",
    "Verif.Props.C70_atoi",
    "Verif.Props.C70_zero_crashes",
    "Verif.Props.C70_negative_hangs",
    "Verif.Props.C70_negative_threshold"
   ],
   "note": "All arguments, orders and coins. The file is modelled as the value handed to encoding/json; C84 has its bytes. Findings: -1 0 crashes, -2 -1 never returns, -65535 3 makes a key of threshold 1."
  },
  {
   "property": "C71",
   "status": "proved",
   "theorems": [
    "Verif.Props.C71_signs",
    "Verif.Props.C71_after_keygen",
    "Verif.Props.C71_printed_is_valid",
    "Verif.Props.C71_other_ids_crash",
    "Verif.Props.C71_null_shares_crash"
   ],
   "note": "For the concrete ristretto255 group. The file is modelled as the value received from encoding/json; C84 has its bytes. Refuted for keys whose parties are not 1..n (C71_other_ids_crash); a file with null shares crashes."
  },
  {
   "property": "C72",
   "status": "proved",
   "theorems": [
    "Verif.Props.C72_keygen_safe",
    "Verif.Props.C72_keygen_ends",
    "Verif.Props.C72_keygen_final",
    "Verif.Props.C72_keygen_can_finish",
    "Verif.Props.C72_keygen_two",
    "Verif.Props.C72_keygen_can_hang",
    "Verif.Props.C72_sign_safe",
    "Verif.Props.C72_sign_ends",
    "Verif.Props.C72_sign_final",
    "Verif.Props.C72_sign_can_finish",
    "Verif.Props.C72_sign_two",
    "Verif.Props.C72_sign_can_hang"
   ],
   "note": "the transition system has one step per channel operation; closing of channels (Done, waitForFinish) is not a step, C72_*_safe shows that nothing is under way when it happens; time-outs are off (Channel.Timeout is 0)"
  },
  {
   "property": "C73",
   "status": "proved",
   "theorems": [
    "Verif.Props.C73_keygen_never_starts",
    "Verif.Props.C73_sign_never_starts",
    "Verif.Props.C73_keygen_network",
    "Verif.Props.C73_keygen_crashes",
    "Verif.Props.C73_main_after_keygen",
    "Verif.Props.C73_main_after_sign",
    "Verif.Props.C73_main_end",
    "Verif.Props.C73_main_starts",
    "Verif.Props.C73_main_waits",
    "Verif.Props.C73_main_crashes"
   ],
   "note": ""
  },
  {
   "property": "C74",
   "status": "proved",
   "theorems": [
    "Verif.Props.C74_agree_on_public",
    "Verif.Props.C74_one_key",
    "Verif.Props.C74_equivocation",
    "Verif.Props.C74_hypotheses_met"
   ],
   "note": "For duplicate-free party lists; C74_equivocation also assumes a sorted list without ID 0 and a threshold other than 65535."
  },
  {
   "property": "C75",
   "status": "proved",
   "theorems": [
    "Verif.Props.C75_same_nonce_same_signature",
    "Verif.Props.C75_same_signature",
    "Verif.Props.C75_share_accepted_iff",
    "Verif.Props.C75_framed_refuted"
   ],
   "note": "For duplicate-free signer lists. C75_framed_refuted is a computed execution over a small group with a toy hash that depends on its input."
  },
  {
   "property": "C76",
   "status": "proved",
   "theorems": [
    "Verif.Props.C76_keygen",
    "Verif.Props.C76_sign",
    "Verif.Props.C76_not_atomic"
   ],
   "note": "all schedules with losses, duplications and time-outs; C76_not_atomic shows the remaining gap of the protocol"
  },
  {
   "property": "C77",
   "status": "proved",
   "theorems": [
    "Verif.Props.C77_keygen_safe",
    "Verif.Props.C77_keygen_needs_all",
    "Verif.Props.C77_keygen_can_finish",
    "Verif.Props.C77_spoof_crashes",
    "Verif.Props.C77_sign_safe",
    "Verif.Props.C77_sign_needs_all",
    "Verif.Props.C77_sign_can_finish"
   ],
   "note": "all schedules, losses, duplications and time-outs; the socket calls are modelled by what they may do"
  },
  {
   "property": "C78",
   "status": "proved",
   "theorems": [
    "Verif.Props.C78_check_iff",
    "Verif.Props.C78_header",
    "Verif.Props.C78_fixed",
    "Verif.Props.C78_exponent",
    "Verif.Props.C78_keyGen1",
    "Verif.Props.C78_message_sound",
    "Verif.Props.C78_message_iff",
    "Verif.Props.C78_protocol_messages",
    "Verif.Props.C78_lossy_passes",
    "Verif.Props.C78_append_not_checked",
    "Verif.Props.C78_appends"
   ],
   "note": "A correct description of the check, including its two blind spots."
  },
  {
   "property": "C79",
   "status": "proved",
   "theorems": [
    "Verif.Props.C79_verdict",
    "Verif.Props.C79_channel",
    "Verif.Props.C79_udp",
    "Verif.Props.C79_udp_crash_only_early",
    "Verif.Props.C79_udp_can_crash",
    "Verif.Props.C79_runs",
    "Verif.Props.C79_channel_can_hang",
    "Verif.Props.C79_should_fail",
    "Verif.Props.C79_no_parties",
    "Verif.Props.C79_main",
    "Verif.Props.C79_main_output",
    "Verif.Props.C79_main_runs"
   ],
   "note": "A correct description of the program's results; that it can panic and hang is part of the statement."
  },
  {
   "property": "C80",
   "status": "proved",
   "theorems": [
    "Verif.Props.C80_commitments",
    "Verif.Props.C80_shares_uniform",
    "Verif.Props.C80_standIn_local",
    "Verif.Props.C80_view",
    "Verif.Props.C80_view_converse",
    "Verif.Props.C80_complete_run"
   ],
   "note": "Simulation in both directions for the real session and a stand-in without the secret; nothing is claimed about signing, where a perfect simulation needs a programmable hash."
  },
  {
   "property": "C81",
   "status": "proved",
   "theorems": [
    "Verif.Props.C81_reads_grammar",
    "Verif.Props.C81_unambiguous",
    "Verif.Props.C81_strings",
    "Verif.Props.C81_every_string",
    "Verif.Props.C81_depth"
   ],
   "note": "The reader is a model of encoding/json (standard library, not in /repo) and is part of the trusted base; the theorem ties it to the RFC."
  },
  {
   "property": "C82",
   "status": "proved",
   "theorems": [
    "Verif.Props.C82_text",
    "Verif.Props.C82_accepts",
    "Verif.Props.C82_roundtrip",
    "Verif.Props.C82_roundtrip_bytes",
    "Verif.Props.C82_no_panic",
    "Verif.Props.C82_id_missing"
   ],
   "note": "Acceptance characterised exactly. Finding: the ID may be missing (read as 0) or any 64-bit integer (read modulo 65536), so a text need not say a usable share (C82_id_missing)."
  },
  {
   "property": "C83",
   "status": "partial",
   "theorems": [
    "Verif.Props.C83_text",
    "Verif.Props.C83_accepted",
    "Verif.Props.C83_accepts",
    "Verif.Props.C83_roundtrip",
    "Verif.Props.C83_roundtrip_newPublic_layout",
    "Verif.Props.C83_roundtrip_newPublic",
    "Verif.Props.C83_null_share_panics",
    "Verif.Props.C83_no_groupKey_panics",
    "Verif.Props.C83_degree_unchecked",
    "Verif.Props.C83_keygen"
   ],
   "note": "Text, soundness, completeness and round trip proved. REFUTED parts: a null share, a share for ID 0 or a missing group key panics (C83_null_share_panics, C83_no_groupKey_panics), and the shares need not lie on a polynomial of the stated threshold (C83_degree_unchecked)."
  },
  {
   "property": "C84",
   "status": "partial",
   "theorems": [
    "Verif.Props.C84_text",
    "Verif.Props.C84_accepted",
    "Verif.Props.C84_accepts",
    "Verif.Props.C84_signs",
    "Verif.Props.C84_after_keygen",
    "Verif.Props.C84_printed_is_valid",
    "Verif.Props.C84_empty_crashes"
   ],
   "note": "All claims about files that say a key proved, for the concrete ristretto255 group. REFUTED part: a file without shares crashes (C84_empty_crashes)."
  },
  {
   "property": "C85",
   "status": "partial",
   "theorems": [
    "Verif.Props.C85_atomic",
    "Verif.Props.C85_err_nil",
    "Verif.Props.C85_once",
    "Verif.Props.C85_once_err",
    "Verif.Props.C85_close",
    "Verif.Props.C85_received",
    "Verif.Props.C85_locked",
    "Verif.Props.C85_wait_partial",
    "Verif.Props.C85_error_true",
    "Verif.Props.C85_finished_true",
    "Verif.Props.C85_alone",
    "Verif.Props.C85_realised",
    "Verif.Props.C85_lost_error",
    "Verif.Props.C85_lost_output"
   ],
   "note": "Refuted for WaitForError that finds done set by another goroutine (C85_lost_error, C85_lost_output). Proved: after a receive from Done(), or in WaitForError that waited, err and the output are final (C85_received, C85_wait_partial); the same for a goroutine that ended the protocol or took the mutex afterwards (C85_locked), or is the only one (C85_alone); errors and true from IsFinished are always right; done, err and the channel are set once (C85_once, C85_once_err, C85_close); reads with the mutex are as in the order of the mutex (C85_atomic), and every history of the model of State is such an execution (C85_realised)."
  },
  {
   "property": "C86",
   "status": "partial",
   "theorems": [
    "Verif.Props.C86_validate_iff",
    "Verif.Props.C86_compare_loop",
    "Verif.Props.C86_compare_output",
    "Verif.Props.C86_keygen_passes",
    "Verif.Props.C86_sign_passes",
    "Verif.Props.C86_keygen_verdict",
    "Verif.Props.C86_sign_verdict",
    "Verif.Props.C86_sign_silent",
    "Verif.Props.C86_validate_blind",
    "Verif.Props.C86_validate_wrong",
    "Verif.Props.C86_degree_blind"
   ],
   "note": "Proved: both tests pass for the code, for all 1 <= T < N < 65535 (signing 0 <= T), coins (nonces not zero) and orders (C86_keygen_passes, C86_sign_passes); what a pass means for any implementation (C86_keygen_verdict, C86_sign_verdict); exactly what ValidateSecrets accepts (C86_validate_iff). The rest is refuted: TestSign passes for an implementation that never signs (C86_sign_silent); ValidateSecrets accepts secrets that do not belong to their public shares (C86_validate_wrong, C86_validate_blind) and polynomials of too high a degree (C86_degree_blind)."
  },
  {
   "property": "C87",
   "status": "partial",
   "theorems": [
    "Verif.Props.C87_header",
    "Verif.Props.C87_keygen2",
    "Verif.Props.C87_sign2",
    "Verif.Props.C87_public",
    "Verif.Props.C87_id",
    "Verif.Props.C87_element",
    "Verif.Props.C87_signature_decodes",
    "Verif.Props.C87_signature_left",
    "Verif.Props.C87_signature_mixed",
    "Verif.Props.C87_schnorr_decodes",
    "Verif.Props.C87_schnorr_left",
    "Verif.Props.C87_sign1_decodes",
    "Verif.Props.C87_sign1_left",
    "Verif.Props.C87_share_decodes",
    "Verif.Props.C87_share_left",
    "Verif.Props.C87_share_mixed",
    "Verif.Props.C87_shareJSON_decodes",
    "Verif.Props.C87_shareJSON_left",
    "Verif.Props.C87_publicKey",
    "Verif.Props.C87_exponent_decodes",
    "Verif.Props.C87_exponent_left",
    "Verif.Props.C87_exponent_bytes",
    "Verif.Props.C87_exponent_unusable",
    "Verif.Props.C87_keygen1_refines",
    "Verif.Props.C87_keygen1_left",
    "Verif.Props.C87_message",
    "Verif.Props.C87_fresh",
    "Verif.Props.C87_not_intact"
   ],
   "note": "Proved: every decoder returns the same on every receiver and on success leaves what the pure decoder says (PublicKey: except for null; Message: see C21); an error leaves Header, KeyGen2, Sign2, Message, Public, ID, Element and PublicKey alone. Refuted for Signature, Schnorr, Sign1, SecretShare, Exponent and KeyGen1, with exactly what is left behind."
  },
  {
   "property": "C88",
   "status": "partial",
   "theorems": [
    "Verif.Props.C88_channel_idle",
    "Verif.Props.C88_channel_early",
    "Verif.Props.C88_channel_keygen",
    "Verif.Props.C88_udp_keygen_can_crash",
    "Verif.Props.C88_udp_keygen_must_crash",
    "Verif.Props.C88_udp_timeout_can_crash",
    "Verif.Props.C88_udp_keygen_only",
    "Verif.Props.C88_channel_sign",
    "Verif.Props.C88_udp_sign_can_crash",
    "Verif.Props.C88_udp_sign_must_crash",
    "Verif.Props.C88_udp_sign_only",
    "Verif.Props.C88_udp_idle",
    "Verif.Props.C88_udp_idle_packet"
   ],
   "note": "Proved over channels, when all sessions have ended or a constructor has failed, for every interleaving and order; the hypothesis is needed (C88_channel_early). Over UDP it is false: close(c.incoming) comes before conn.Close(), and a packet read in between crashes the program (C88_udp_keygen_can_crash, C88_udp_sign_can_crash, C88_udp_timeout_can_crash), for a blocked reader with certainty (C88_udp_keygen_must_crash, C88_udp_sign_must_crash). C88_udp_keygen_only and C88_udp_sign_only say that nothing else panics, C88_udp_idle that without packets nothing does."
  },
  {
   "property": "C89",
   "status": "proved",
   "theorems": [
    "Verif.Props.C89_schnorr",
    "Verif.Props.C89_schnorr_blind",
    "Verif.Props.C89_exponent",
    "Verif.Props.C89_sum",
    "Verif.Props.C89_polynomial_iff",
    "Verif.Props.C89_polynomial",
    "Verif.Props.C89_polynomial_blind",
    "Verif.Props.C89_scalar",
    "Verif.Props.C89_fromBytes",
    "Verif.Props.C89_fromBytes_passes",
    "Verif.Props.C89_marshalText",
    "Verif.Props.C89_unmarshalText",
    "Verif.Props.C89_unmarshalText_blind",
    "Verif.Props.C89_lagrange",
    "Verif.Props.C89_lagrange_blind",
    "Verif.Props.C89_header",
    "Verif.Props.C89_header_blind",
    "Verif.Props.C89_keyGen1",
    "Verif.Props.C89_sign1",
    "Verif.Props.C89_sign2",
    "Verif.Props.C89_keyGen2",
    "Verif.Props.C89_generateKey_rfc8032",
    "Verif.Props.C89_toEd25519",
    "Verif.Props.C89_signature",
    "Verif.Props.C89_signatureEncode",
    "Verif.Props.C89_secretShare",
    "Verif.Props.C89_groupKey",
    "Verif.Props.C89_publicJSON",
    "Verif.Props.C89_shares_flaky",
    "Verif.Props.C89_ristretto"
   ],
   "note": "Every test is characterised exactly; the tests of pkg/ristretto with fixed vectors are computed in Vectors/Ristretto."
  },
  {
   "property": "C90",
   "status": "proved",
   "theorems": [
    "Verif.Props.C90_programmed",
    "Verif.Props.C90_simulation",
    "Verif.Props.C90_uniform"
   ],
   "note": "One session of one signer. That the inputs that are changed were not hashed before is a hypothesis; its probability is not modelled."
  },
  {
   "property": "C91",
   "status": "proved",
   "theorems": [
    "Verif.Props.C91_padding",
    "Verif.Props.C91_constants",
    "Verif.Props.C91_sha512"
   ],
   "note": ""
  },
  {
   "property": "C92",
   "status": "partial",
   "theorems": [
    "Verif.Props.C92_scalar",
    "Verif.Props.C92_coefficient",
    "Verif.Props.C92_keygen",
    "Verif.Props.C92_sign",
    "Verif.Props.C92_generateSecrets",
    "Verif.Props.C92_keygen_rest",
    "Verif.Props.C92_sign_rest",
    "Verif.Props.C92_fails",
    "Verif.Props.C92_short_read",
    "Verif.Props.C92_pieces",
    "Verif.Props.C92_count",
    "Verif.Props.C92_transfer",
    "Verif.Props.C92_signing",
    "Verif.Props.C92_secrecy",
    "Verif.Props.C92_view"
   ],
   "note": "Refuted for a reader that gives less than it is asked for without an error: SetScalarRandom ignores the number of bytes read (C92_short_read). Everything else is proved: what is read (C92_scalar, C92_coefficient, C92_keygen, C92_sign, C92_generateSecrets, C92_keygen_rest, C92_sign_rest, C92_fails), the distribution (C92_count, C92_transfer), success (C92_signing) and secrecy (C92_secrecy, C92_view)."
  },
  {
   "property": "C93",
   "status": "partial",
   "theorems": [
    "Verif.Props.C93_received_bounded",
    "Verif.Props.C93_queue_bounded_partial",
    "Verif.Props.C93_lifetime",
    "Verif.Props.C93_lifetime_partial",
    "Verif.Props.C93_ends",
    "Verif.Props.C93_flood",
    "Verif.Props.C93_keygen_partial",
    "Verif.Props.C93_sign_partial",
    "Verif.Props.C93_keygen_flood",
    "Verif.Props.C93_sign_flood"
   ],
   "note": "The stored messages are bounded and the session ends after silence: proved for all histories. The bound on the queue and on the lifetime is refuted (C93_flood, C93_keygen_flood, C93_sign_flood: a party that holds back its current message can have any number of later messages queued, each restarting the timer) and proved for histories in which nobody has two messages of the same type accepted."
  },
  {
   "property": "C94",
   "status": "partial",
   "theorems": [
    "Verif.Props.C94_sign_reads_late",
    "Verif.Props.C94_sign_as_if_partial",
    "Verif.Props.C94_sign_other_message",
    "Verif.Props.C94_sign_share",
    "Verif.Props.C94_sign_output",
    "Verif.Props.C94_sign_last",
    "Verif.Props.C94_sign_both",
    "Verif.Props.C94_keygen_other_parties",
    "Verif.Props.C94_keygen_output",
    "Verif.Props.C94_keygen_dealt",
    "Verif.Props.C94_sign_no_share"
   ],
   "note": "Refuted as stated: the session reads the caller's memory late (C94_sign_other_message, C94_keygen_other_parties). Proved: a caller that stops writing before round 1 is complete has exactly a session given what is in the memory then; what every share, signature, dealt share and output is for; that adding a signer yields no share; that later writes can only abort."
  },
  {
   "property": "C95",
   "status": "partial",
   "theorems": [
    "Verif.Props.C95_keygen_ends",
    "Verif.Props.C95_signer_ends",
    "Verif.Props.C95_keygen_text",
    "Verif.Props.C95_keygen_success",
    "Verif.Props.C95_signer_success",
    "Verif.Props.C95_signer_text",
    "Verif.Props.C95_r_is_never_standard",
    "Verif.Props.C95_not_a_signature",
    "Verif.Props.C95_printed_rejected",
    "Verif.Props.C95_recoverable",
    "Verif.Props.C95_write_error_ignored",
    "Verif.Props.C95_file"
   ],
   "note": "Refuted for the form of r (C95_r_is_never_standard, C95_printed_rejected) and for the file of keygen (C95_write_error_ignored). Proved: the exact text of every run that ends, Success printed exactly then, the same ends as the model without output, recoverability of the standard form, and when Ed25519 would accept what is printed."
  },
  {
   "property": "C96",
   "status": "partial",
   "theorems": [
    "Verif.Props.C96_not_hedged",
    "Verif.Props.C96_three_sessions_reveal",
    "Verif.Props.C96_two_hide",
    "Verif.Props.C96_repeat_unlikely"
   ],
   "note": "Refuted: the nonces are drawn without the secret and the message (C96_not_hedged), and three sessions with the same commitments give the share (C96_three_sessions_reveal). What holds is proved: two responses fit every share, and with a uniform source the scalars repeat with a probability of at most n(n-1)/2^253 + n/2^259."
  },
  {
   "property": "C97",
   "status": "partial",
   "theorems": [
    "Verif.Props.C97_first_comes",
    "Verif.Props.C97_sign_replay",
    "Verif.Props.C97_share_accepted_iff",
    "Verif.Props.C97_framed_by_replay",
    "Verif.Props.C97_keygen_replay"
   ],
   "note": "Refuted: a message of one session is accepted in another and keeps the genuine one out (C97_sign_replay), so that honest signers are blamed without anybody cheating (C97_framed_by_replay) and a key generation completes with recordings only (C97_keygen_replay). Proved: within a session at most one message per sender counts, and exactly when a share made in another session is accepted (C97_share_accepted_iff)."
  },
  {
   "property": "C98",
   "status": "partial",
   "theorems": [
    "Verif.Props.C98_sign_hashes",
    "Verif.Props.C98_binding_is_challenge",
    "Verif.Props.C98_separated",
    "Verif.Props.C98_unused",
    "Verif.Props.C98_proof_is_not_binding",
    "Verif.Props.C98_keygen_hashes",
    "Verif.Props.C98_message_is_challenge"
   ],
   "note": "Proved: a session hashes only the listed strings, and those of binding factors, challenges and proofs differ unless the digest of the message contains the key (exact characterisation). Refuted for the digest of the message, which is hashed without a tag (C98_message_is_challenge)."
  },
  {
   "property": "C99",
   "status": "proved",
   "theorems": [
    "Verif.Props.C99_log_is_faithful",
    "Verif.Props.C99_sign",
    "Verif.Props.C99_keygen",
    "Verif.Props.C99_every_call_logged"
   ],
   "note": "Calls are logged with their arguments; running times themselves, and the constant-time claims of the dependency for its other functions, are not modelled."
  },
  {
   "property": "C100",
   "status": "proved",
   "theorems": [
    "Verif.Props.C100_values",
    "Verif.Props.C100_life",
    "Verif.Props.C100_hidden",
    "Verif.Props.C100_binding_fresh",
    "Verif.Props.C100_challenge_fresh",
    "Verif.Props.C100_fresh"
   ],
   "note": "Proved for all scripts that meet Fresh; C100_fresh says when. The hash function is changed at places that are fixed once all commitments of a session are; no claim is made about an adversary that asks for these hash values earlier."
  },
  {
   "property": "C101",
   "status": "proved",
   "theorems": [
    "Verif.Props.C101_forger_gives_secret",
    "Verif.Props.C101_forgery_bound",
    "Verif.Props.C101_coalition"
   ],
   "note": "random oracle model; the algorithm sees no sessions of honest signers"
  },
  {
   "property": "C102",
   "status": "proved",
   "theorems": [
    "Verif.Props.C102_forger_gives_logs",
    "Verif.Props.C102_logs",
    "Verif.Props.C102_coalition",
    "Verif.Props.C102_coalition_logs",
    "Verif.Props.C102_forgery_bound",
    "Verif.Props.C102_bounded",
    "Verif.Props.C102_joiners",
    "Verif.Props.C102_joiners_bounded",
    "Verif.Props.C102_joiners_logs",
    "Verif.Props.C102_session"
   ],
   "note": "random oracle model; the key was shared by a dealer; reduction to one-more discrete logarithm"
  },
  {
   "property": "C103",
   "status": "proved",
   "theorems": [
    "Verif.Props.C103_append",
    "Verif.Props.C103_values",
    "Verif.Props.C103_header",
    "Verif.Props.C103_message",
    "Verif.Props.C103_others",
    "Verif.Props.C103_overwritten"
   ],
   "note": ""
  },
  {
   "property": "C104",
   "status": "proved",
   "theorems": [
    "Verif.Props.C104_marshal",
    "Verif.Props.C104_message",
    "Verif.Props.C104_header",
    "Verif.Props.C104_challenge"
   ],
   "note": ""
  },
  {
   "property": "C105",
   "status": "proved",
   "theorems": [
    "Verif.Props.C105_copy",
    "Verif.Props.C105_new"
   ],
   "note": ""
  },
  {
   "property": "C106",
   "status": "proved",
   "theorems": [
    "Verif.Props.C106_rhos",
    "Verif.Props.C106_capacity",
    "Verif.Props.C106_once",
    "Verif.Props.C106_capacity_wraps"
   ],
   "note": "The sentence on the capacity is C106_capacity for at most 992 signers and C106_capacity_wraps from 993 on."
  },
  {
   "property": "C107",
   "status": "proved",
   "theorems": [
    "Verif.Props.C107_dequeue",
    "Verif.Props.C107_stays",
    "Verif.Props.C107_enqueue"
   ],
   "note": "The last sentence is C107_stays."
  },
  {
   "property": "C108",
   "status": "proved",
   "theorems": [
    "Verif.Props.C108_stuck",
    "Verif.Props.C108_progress",
    "Verif.Props.C108_keygen_accepts",
    "Verif.Props.C108_keygen",
    "Verif.Props.C108_sign",
    "Verif.Props.C108_keygen_output",
    "Verif.Props.C108_sign_output",
    "Verif.Props.C108_wraps"
   ],
   "note": "Generic over the round implementation, and for key generation and signing; lists beyond 65536 entries: when a signing session starts, exactly."
  },
  {
   "property": "C109",
   "status": "partial",
   "theorems": [
    "Verif.Props.C109_keygen_text",
    "Verif.Props.C109_sign_text",
    "Verif.Props.C109_keygen_text_determines",
    "Verif.Props.C109_sign_text_determines",
    "Verif.Props.C109_refused_text",
    "Verif.Props.C109_decoders",
    "Verif.Props.C109_invalid_message",
    "Verif.Props.C109_signature_error",
    "Verif.Props.C109_header_text",
    "Verif.Props.C109_commitments_text",
    "Verif.Props.C109_message_hides",
    "Verif.Props.C109_sentinel_lost",
    "Verif.Props.C109_routine"
   ],
   "note": "Proved: the texts of the errors of sessions, HandleMessage and PartyRoutine, that the text of a session's error determines it, and when the payload decoders and Signature return ErrInvalidMessage. REFUTED: the exported errors cannot be recognised with errors.Is in what sessions (C109_sentinel_lost), Message.UnmarshalBinary (C109_message_hides) and PartyRoutine (C109_routine) return. The numbers in HandleMessage's text are in each other's place, see C65."
  },
  {
   "property": "C110",
   "status": "proved",
   "theorems": [
    "Verif.Props.C110_history",
    "Verif.Props.C110_ok",
    "Verif.Props.C110_error",
    "Verif.Props.C110_never_waits",
    "Verif.Props.C110_keygen_nothing_lost",
    "Verif.Props.C110_sign_nothing_lost",
    "Verif.Props.C110_alone",
    "Verif.Props.C110_timeout_race"
   ],
   "note": "For every interleaving (C110_history, C110_ok, C110_error, C110_never_waits, C110_keygen_nothing_lost, C110_sign_nothing_lost) and equal to the sequential model when alone (C110_alone). Sharp: with a time-out waiting, the same call may return the messages without an error or drop them (C110_timeout_race). Reads without the mutex are taken as sequentially consistent; C85 says what else they may see."
  },
  {
   "property": "C111",
   "status": "partial",
   "theorems": [
    "Verif.Props.C111_map",
    "Verif.Props.C111_sign",
    "Verif.Props.C111_spread",
    "Verif.Props.C111_probability",
    "Verif.Props.C111_collision",
    "Verif.Props.C111_reached",
    "Verif.Props.C111_not_uniform"
   ],
   "note": "Exact uniformity, as the comment in the code has it, is refuted (C111_not_uniform): q does not divide 2^512. Proved instead: at most 32 field elements are mapped to one element (C111_map), at most 2^263 of 2^512 strings give one element (C111_spread, C111_probability), independent results collide with probability at most 2^-249 (C111_collision), about a quarter of the group is reached by mapToPoint alone (C111_reached). Missing: that the distribution is statistically close to uniform (needs bounds on character sums over the curve)."
  },
  {
   "property": "C112",
   "status": "proved",
   "theorems": [
    "Verif.Props.C112_fair_keygen",
    "Verif.Props.C112_fair_keygen_exists",
    "Verif.Props.C112_keygen_once_hangs",
    "Verif.Props.C112_fair_sign",
    "Verif.Props.C112_fair_sign_exists",
    "Verif.Props.C112_sign_once_hangs"
   ],
   "note": "Fairness (Spec/Fair) asks the callers to hand over a refused message again; C112_keygen_once_hangs and C112_sign_once_hangs show that without that the claim is false. Time-outs are left out of these executions (C76 and C113 are about them)."
  },
  {
   "property": "C113",
   "status": "proved",
   "theorems": [
    "Verif.Props.C113_staggered_keygen",
    "Verif.Props.C113_staggered_keygen_exists",
    "Verif.Props.C113_prompt_keygen",
    "Verif.Props.C113_prompt_keygen_exists",
    "Verif.Props.C113_slow_keygen",
    "Verif.Props.C113_staggered_sign",
    "Verif.Props.C113_staggered_sign_exists",
    "Verif.Props.C113_prompt_sign",
    "Verif.Props.C113_prompt_sign_exists",
    "Verif.Props.C113_slow_sign"
   ],
   "note": "Sessions may be created at different times (C113_staggered_keygen, C113_staggered_sign); a message to a session that does not exist yet is taken to wait for it, and no clock runs faster than the time of the execution (Spec/Prompt). C113_slow_keygen and C113_slow_sign: for every timeout of at most 3δ the claim is false, so 3δ is sharp."
  },
  {
   "property": "C114",
   "status": "partial",
   "theorems": [
    "Verif.Props.C114_sent_partial",
    "Verif.Props.C114_wrong_partial",
    "Verif.Props.C114_aborted",
    "Verif.Props.C114_refuted",
    "Verif.Props.C114_refuted_blamed"
   ],
   "note": "Refuted when another goroutine calls ProcessAll between ProcessAll and MarshalBinary of the routine (C114_refuted, C114_refuted_blamed). Proved when others only hand over messages and the timer may end the session at any moment, also in the middle of encoding (C114_sent_partial, C114_wrong_partial); the returned error is always that of the session (C114_aborted)."
  },
  {
   "property": "C115",
   "status": "proved",
   "theorems": [
    "Verif.Props.C115_returned",
    "Verif.Props.C115_crash",
    "Verif.Props.C115_alone",
    "Verif.Props.C115_sign",
    "Verif.Props.C115_keygen_crashes"
   ],
   "note": "The steps of NewBaseState interleaved with its timer; memory is sequentially consistent except for the one field that is accessed without synchronisation, of which the callback may see the old or the new value."
  },
  {
   "property": "C116",
   "status": "partial",
   "theorems": [
    "Verif.Props.C116_same_keygen",
    "Verif.Props.C116_same_sign",
    "Verif.Props.C116_unchanged",
    "Verif.Props.C116_frame_keygen",
    "Verif.Props.C116_frame_sign",
    "Verif.Props.C116_erased_partial",
    "Verif.Props.C116_timeout_keeps",
    "Verif.Props.C116_left_timeout",
    "Verif.Props.C116_left_duplicate"
   ],
   "note": "A session that is handed pointers behaves as one that is handed messages, in both directions (C116_same_keygen, C116_same_sign); no message changes while it runs (C116_unchanged), and nothing but accepted shares ever (C116_frame_keygen, C116_frame_sign). On success the shares that make up the key are erased (C116_erased_partial). That no share is left is false: timeouts erase nothing (C116_timeout_keeps, C116_left_timeout), and a duplicate stays after success (C116_left_duplicate)."
  },
  {
   "property": "C117",
   "status": "proved",
   "theorems": [
    "Verif.Props.C117_written_keygen",
    "Verif.Props.C117_written_sign",
    "Verif.Props.C117_shared_keygen",
    "Verif.Props.C117_shared_sign",
    "Verif.Props.C117_decoded",
    "Verif.Props.C117_returned",
    "Verif.Props.C117_routine_keygen",
    "Verif.Props.C117_routine_sign",
    "Verif.Props.C117_reused_object",
    "Verif.Props.C117_same_party"
   ],
   "note": "Sessions whose message objects are shared with or written to by others; PartyRoutine with objects; counterexamples show that the conditions are needed."
  },
  {
   "property": "C118",
   "status": "proved",
   "theorems": [
    "Verif.Props.C118_keygen_processAll",
    "Verif.Props.C118_sign_processAll",
    "Verif.Props.C118_keygen_others",
    "Verif.Props.C118_sign_others",
    "Verif.Props.C118_keygen_safe",
    "Verif.Props.C118_sign_safe",
    "Verif.Props.C118_bytes"
   ],
   "note": "For sessions made by NewKeygenState and NewSignState with duplicate-free (and for key generation non-zero) IDs. Both directions; the converse names the iteration order."
  },
  {
   "property": "C119",
   "status": "partial",
   "theorems": [
    "Verif.Props.C119_keygen_complete",
    "Verif.Props.C119_sign_complete",
    "Verif.Props.C119_keygen_nothing",
    "Verif.Props.C119_sign_nothing",
    "Verif.Props.C119_sign_same",
    "Verif.Props.C119_sign_one_share",
    "Verif.Props.C119_keygen_same_partial",
    "Verif.Props.C119_left",
    "Verif.Props.C119_refuted"
   ],
   "note": "Proved for signing in full and for key generation except in its last round, where the second half is refuted: C119_refuted (the interrupted loop erases accepted shares, and the next call blames their honest senders). C119_*_complete show that the model covers every panic of ProcessAll."
  },
  {
   "property": "C120",
   "status": "proved",
   "theorems": [
    "Verif.Props.C120_accepted",
    "Verif.Props.C120_sign",
    "Verif.Props.C120_nothing",
    "Verif.Props.C120_own",
    "Verif.Props.C120_other",
    "Verif.Props.C120_bytes"
   ],
   "note": "Lists are duplicate-free. NewSignState is shown to return an error when every listed ID has a public share, and otherwise never to succeed. The claim about decoded messages assumes a threshold other than 65535, for which NewPolynomial itself panics."
  },
  {
   "property": "C121",
   "status": "proved",
   "theorems": [
    "Verif.Props.C121_contains_iff",
    "Verif.Props.C121_accepted",
    "Verif.Props.C121_keygen",
    "Verif.Props.C121_sign",
    "Verif.Props.C121_keygen_list",
    "Verif.Props.C121_sign_list"
   ],
   "note": "C121_accepted shows acceptance for lists that end with the own, largest ID; other unsorted lists may be refused because the own ID is not found. That ProcessAll does not crash a key generation assumes an own ID other than 0 (C120) and a threshold other than 65535."
  },
  {
   "property": "C122",
   "status": "partial",
   "theorems": [
    "Verif.Props.C122_lists",
    "Verif.Props.C122_result",
    "Verif.Props.C122_equal",
    "Verif.Props.C122_undetected"
   ],
   "note": "The claim is refuted: parties with any thresholds and any symmetric lists finish without error, with different keys (C122_undetected), and what each then holds is given exactly (C122_result). Proved: a party that finishes is in the lists of the honest parties of its list (C122_lists), and comparing the results shows a difference in list or threshold (C122_equal)."
  },
  {
   "property": "C123",
   "status": "partial",
   "theorems": [
    "Verif.Props.C123_accepted_iff",
    "Verif.Props.C123_success",
    "Verif.Props.C123_chance",
    "Verif.Props.C123_blamed_refuted"
   ],
   "note": "The claim is refuted: honest signers with different messages blame each other (C123_blamed_refuted). Proved: exactly when the share of a differently configured signer is accepted (C123_accepted_iff), what success implies about every honest signer of the list (C123_success), and, for different messages, that at most 2^512 / q + 1 of the 2^512 values of one hash make it accepted (C123_chance)."
  },
  {
   "property": "C124",
   "status": "proved",
   "theorems": [
    "Verif.Props.C124_one_key",
    "Verif.Props.C124_can_sign",
    "Verif.Props.C124_own_needed"
   ],
   "note": "C124_one_key, C124_can_sign, C124_own_needed; that the comparison with Equal is needed is C122_undetected."
  },
  {
   "property": "C125",
   "status": "partial",
   "theorems": [
    "Verif.Props.C125_last_mover",
    "Verif.Props.C125_every_key_refuted",
    "Verif.Props.C125_fair",
    "Verif.Props.C125_bias",
    "Verif.Props.C125_ten_tries_refuted"
   ],
   "note": "REFUTED for a participant that waits for the broadcasts of the others: the key is what it has seen plus what it chooses (C125_last_mover, C125_every_key_refuted), and with m+1 tries a property of probability p gets probability 1-(1-p)^(m+1) (C125_bias, C125_ten_tries_refuted). Proved for a contribution drawn independently of the others (C125_fair)."
  },
  {
   "property": "C126",
   "status": "partial",
   "theorems": [
    "Verif.Props.C126_split_refuted",
    "Verif.Props.C126_rest_key",
    "Verif.Props.C126_rest_can_sign"
   ],
   "note": "REFUTED for all sets of victims (C126_split_refuted): the cheated parties abort and blame the cheater, the others finish without error. Proved: the others hold shares of the sum of all polynomials (C126_rest_key), and more than t of them can sign (C126_rest_can_sign)."
  },
  {
   "property": "C127",
   "status": "partial",
   "theorems": [
    "Verif.Props.C127_constructors",
    "Verif.Props.C127_keygen",
    "Verif.Props.C127_sign_only",
    "Verif.Props.C127_sign",
    "Verif.Props.C127_sign_made",
    "Verif.Props.C127_public",
    "Verif.Props.C127_json",
    "Verif.Props.C127_public_text_refuted"
   ],
   "note": "Agreement with the tagged constructors, texts of NewKeygenState and NewSignState (exactly when which), of NewPublic and of UnmarshalJSON proved; the text of NewPublic states another condition than the one tested (refuted)."
  },
  {
   "property": "C128",
   "status": "partial",
   "theorems": [
    "Verif.Props.C128_alike_refuted"
   ],
   "note": "REFUTED for all sets of victims (C128_alike_refuted): the last signer has the signature and chooses who else gets it; the cheated signers abort, blame it and have no signature."
  },
  {
   "property": "C129",
   "status": "partial",
   "theorems": [
    "Verif.Props.C129_session",
    "Verif.Props.C129_complete",
    "Verif.Props.C129_methods_other",
    "Verif.Props.C129_main_model",
    "Verif.Props.C129_left_out",
    "Verif.Props.C129_marshal_panics_iff",
    "Verif.Props.C129_equal_panics_iff",
    "Verif.Props.C129_methods_refuted"
   ],
   "note": "Proved: the session makes no difference (C129_session), all messages whose payload is complete or nil behave as in the main model (C129_complete, C129_methods_other), and exactly when encoding and comparing panic. REFUTED for Size, MarshalBinary and Equal (C129_methods_refuted)."
  },
  {
   "property": "C130",
   "status": "proved",
   "theorems": [
    "Verif.Props.C130_keygen",
    "Verif.Props.C130_sign"
   ],
   "note": "Exact byte counts for every history of a session, running or ended, from the round it has reached; Spec.SentBytes also says that every message can be encoded."
  }
 ]
}