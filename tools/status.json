{
 "C01": [
  "proved",
  "Exact characterisation of FromBytes on all byte strings."
 ],
 "C02": [
  "proved",
  "Accepted texts are characterised by an independent decimal-value specification."
 ],
 "C03": [
  "proved",
  ""
 ],
 "C04": [
  "proved",
  "Aliasing of the argument is covered by the value semantics of the model (append copies)."
 ],
 "C05": [
  "proved",
  "The binary search of the code is modelled; includes the witness that unsorted slices can miss a member."
 ],
 "C06": [
  "proved",
  ""
 ],
 "C07": [
  "proved",
  ""
 ],
 "C08": [
  "proved",
  "For all polynomials of degree below the number of IDs; includes the witness that duplicate IDs break interpolation."
 ],
 "C09": [
  "partial",
  "REFUTED for n = 65535: the uint16 counter wraps and NewPartySlice never returns (C09_newPartySlice_65535_diverges). Everything else is proved."
 ],
 "C10": [
  "proved",
  ""
 ],
 "C11": [
  "proved",
  ""
 ],
 "C12": [
  "proved",
  ""
 ],
 "C13": [
  "partial",
  "REFUTED in two corners: degree 0xFFFF decodes to an Exponent without coefficients (C13_empty_exponent_accepted) and 65536 coefficients do not round-trip (C13_roundtrip_65536_fails). Round trip proved up to 65535 coefficients, canonicity proved for all inputs."
 ],
 "C14": [
  "proved",
  ""
 ],
 "C15": [
  "proved",
  "Stated as a bijection between the sets of consistent polynomials."
 ],
 "C16": [
  "proved",
  ""
 ],
 "C17": [
  "partial",
  "REFUTED: the challenge is always the zero scalar, so Verify accepts exactly the proofs with S = 0 for every prover and public element (C17_universal_forgery, C17_proof_transfers). The exact acceptance rule is C17_verify_exact_partial."
 ],
 "C18": [
  "proved",
  ""
 ],
 "C19": [
  "proved",
  "KeyGen1 for up to 65535 commitments, which is every degree the two-byte degree field can describe without wrapping."
 ],
 "C20": [
  "proved",
  "Also shows that without the payload-present condition two byte strings collide."
 ],
 "C21": [
  "partial",
  "REFUTED: payload errors are dropped (C21_bare_header_accepted, C21_stale_payload). The exact behaviour is C21_accepted_partial and C21_error_iff."
 ],
 "C22": [
  "partial",
  "No byte string panics any UnmarshalBinary (C22_unmarshal_no_panic_partial). The second half is refuted: an accepted message without payload, five bytes on the wire, makes ProcessAll panic in every round of both protocols (C22_bad_payload_crashes, C22_keygen_five_bytes, C22_sign_five_bytes)."
 ],
 "C23": [
  "proved",
  ""
 ],
 "C24": [
  "proved",
  ""
 ],
 "C50": [
  "proved",
  "For every instance of the group interface; see C57-C62 for the concrete group."
 ],
 "C52": [
  "proved",
  ""
 ],
 "C53": [
  "partial",
  "REFUTED in general: an ID outside 16 bits is truncated (C53_json_id_truncated). Round trip proved; ID kept when in range."
 ],
 "C54": [
  "partial",
  "REFUTED for threshold 65535 (C54_threshold_65535_accepted). Exact otherwise."
 ],
 "C55": [
  "partial",
  "Round trip and refusal proved; REFUTED corners: a missing group key panics, a threshold outside 16 bits is truncated."
 ],
 "C56": [
  "proved",
  ""
 ],
 "C25": [
  "proved",
  ""
 ],
 "C26": [
  "proved",
  ""
 ],
 "C27": [
  "proved",
  "Including participant lists of 65536 entries, where the uint16 count wraps."
 ],
 "C28": [
  "proved",
  ""
 ],
 "C29": [
  "proved",
  ""
 ],
 "C32": [
  "partial",
  "REFUTED: messages are refused before the first ProcessAll (C32_refused_before_start) and from a sender one round ahead whose current message is stored (C32_refused_one_round_ahead). What is accepted is kept until its round (C32_kept_until_round_partial); a later duplicate in the queue replaces an earlier one."
 ],
 "C33": [
  "partial",
  "REFUTED in the strong form: a callback waiting for the mutex aborts although a message has been accepted meanwhile (C33_late_callback_aborts), and a time-out of a key generation before its first ProcessAll crashes (C33_keygen_timeout_crashes; safe afterwards, and always for signing). Proved: silence at the moment the timer fires, no abort without a timeout, refused messages do not extend."
 ],
 "C65": [
  "partial",
  "REFUTED: round and culprit are swapped in the text (C65_round_and_culprit_swapped)."
 ],
 "C34": [
  "proved",
  "Acceptance and refusal characterised for lists without duplicates."
 ],
 "C38": [
  "proved",
  "Both halves: on success every accepted share matches the dealer's unique accepted broadcast; a mismatch aborts naming a mismatching participant."
 ],
 "C39": [
  "partial",
  "The public shares always lie on one polynomial (C39_public_on_polynomial). REFUTED for the own share (C39_own_share_refuted, a concrete run): commitments of another length are skipped in the sum but their shares are added; C39_own_share_exact gives the exact difference, C39_own_share_partial the claim when all lengths are right."
 ],
 "C40": [
  "partial",
  "REFUTED when at most t participants are honest (C40_rogue_key_refuted). C40_contribution_known_partial: with more than t honest recipients the accepted shares determine the secret of each contribution."
 ],
 "C41": [
  "proved",
  ""
 ],
 "C66": [
  "proved",
  "Key generation and signing; the values held by the round object (copies made by the Go runtime are not modelled)."
 ],
 "C30": [
  "proved",
  "Key generation and signing."
 ],
 "C42": [
  "partial",
  "REFUTED in two points: the number of signers is not compared with the threshold (C42_single_signer_accepted), and a signer without public share crashes (C42_missing_share_crashes). What is accepted and refused is otherwise proved exactly."
 ],
 "C44": [
  "proved",
  "For duplicate-free signer lists."
 ],
 "C45": [
  "partial",
  "For duplicate-free signer lists; honest means running the modelled code with a secret share matching its public share. The clause that an honest signer is never blamed holds when both have seen the same commitments (C45_honest_share_accepted) and is refuted without that (C75_framed_refuted); the rest is proved."
 ],
 "C46": [
  "proved",
  "In general (weighted public shares not summing to the group key), and for t signers of a polynomial of degree exactly t."
 ],
 "C47": [
  "proved",
  "Also gives the order and the sender."
 ],
 "C48": [
  "proved",
  "Message digests, since the code hashes SHA-512 of the message."
 ],
 "C49": [
  "proved",
  ""
 ],
 "C31": [
  "proved",
  "For key generation and for signing, any two orders of delivery of the messages of one round, followed by ProcessAll with any two map orders, lead to the same state and output; histories are arbitrary before the round."
 ],
 "C35": [
  "proved",
  "Network of any honest parties with sorted, distinct, non-zero IDs; every schedule without timeouts (reordering, duplication, loss, any map order)."
 ],
 "C36": [
  "proved",
  ""
 ],
 "C37": [
  "proved",
  "Interpolation for every subset of more than t finished parties; also that t shares are consistent with every secret (C37_few_shares, about shares only: the public commitments determine the secret information-theoretically)."
 ],
 "C43": [
  "proved",
  "Network of honest signers, more than t of them, non-zero nonces, every schedule without timeouts; C43_keygen_then_sign shows the set-up is what an honest key generation outputs."
 ],
 "C64": [
  "proved",
  "Exact conditions for each result of PartyRoutine (returned, error, crash), for any protocol, and that messages of keygen and signing sessions always encode."
 ],
 "C67": [
  "proved",
  "For every history of a session made by NewKeygenState."
 ],
 "C63": [
  "partial",
  "The claim as stated is false for the code and refuted: KeyGen1 messages share memory with the session (C63_keygen1_shows_sum, C63_keygen1_zeroed, concrete C63_keygen1_refuted). Proved: content is stable until the next ProcessAll or time-out, KeyGen2 messages never change, and the model by value is faithful when the messages given to a session do not point to its memory. Missing for a full proof: the claim is false. Sign1 and Sign2 are by value in the code (copied by their constructors) and have no pointers in the model."
 ],
 "C51": [
  "proved",
  "RFC 8032 acceptance is stated on curve points, with and without the cofactor; crypto/ed25519.Verify is modelled in Model/Ed25519.lean and gives the same answer. The key and signature range over all elements of the concrete ristretto group; C68 extends this to all coordinates."
 ],
 "C57": [
  "proved",
  "All extended coordinates of all curve points, not only of ristretto elements."
 ],
 "C58": [
  "proved",
  "On coordinates of even points (doubles), which every element is: C68 and C60. The encoding is also shown to be the one of the ristretto255 document."
 ],
 "C59": [
  "proved",
  "On coordinates of even points; representation independence, injectivity, RFC 8032 form and order of the point."
 ],
 "C60": [
  "proved",
  "The result is always an even point of the curve; the panic is unreachable."
 ],
 "C61": [
  "proved",
  "base64 is specified by numbers (RFC 4648); acceptance is characterised exactly, including the leniency of the Go decoder (line breaks and unused bits), which makes the text form non canonical (C61_not_canonical)."
 ],
 "C62": [
  "proved",
  "Primality by Pratt certificates; the number of points from a point of order 8q and the bound 2p."
 ],
 "C68": [
  "proved",
  "Refinement of the coordinate model by the group RG, the instance of RGroup for which all protocol theorems hold."
 ],
 "C69": [
  "proved",
  "Composition of C35, C36, C43 and C51 in the concrete group; C69_runs_exist shows that such runs exist for all parameters."
 ],
 "C70": [
  "proved",
  "All arguments, orders and coins. The file is modelled as the value handed to encoding/json; C84 has its bytes. Findings: -1 0 crashes, -2 -1 never returns, -65535 3 makes a key of threshold 1."
 ],
 "C71": [
  "proved",
  "For the concrete ristretto255 group. The file is modelled as the value received from encoding/json; C84 has its bytes. Refuted for keys whose parties are not 1..n (C71_other_ids_crash); a file with null shares crashes."
 ],
 "C72": [
  "proved",
  "the transition system has one step per channel operation; closing of channels (Done, waitForFinish) is not a step, C72_*_safe shows that nothing is under way when it happens; time-outs are off (Channel.Timeout is 0)"
 ],
 "C73": [
  "proved",
  ""
 ],
 "C74": [
  "proved",
  "For duplicate-free party lists; C74_equivocation also assumes a sorted list without ID 0 and a threshold other than 65535."
 ],
 "C75": [
  "proved",
  "For duplicate-free signer lists. C75_framed_refuted is a computed execution over a small group with a toy hash that depends on its input."
 ],
 "C76": [
  "proved",
  "all schedules with losses, duplications and time-outs; C76_not_atomic shows the remaining gap of the protocol"
 ],
 "C77": [
  "proved",
  "all schedules, losses, duplications and time-outs; the socket calls are modelled by what they may do"
 ],
 "C78": [
  "proved",
  "A correct description of the check, including its two blind spots."
 ],
 "C79": [
  "proved",
  "A correct description of the program's results; that it can panic and hang is part of the statement."
 ],
 "C80": [
  "proved",
  "Simulation in both directions for the real session and a stand-in without the secret; nothing is claimed about signing, where a perfect simulation needs a programmable hash."
 ],
 "C81": [
  "proved",
  "The reader is a model of encoding/json (standard library, not in /repo) and is part of the trusted base; the theorem ties it to the RFC."
 ],
 "C82": [
  "proved",
  "Acceptance characterised exactly. Finding: the ID may be missing (read as 0) or any 64-bit integer (read modulo 65536), so a text need not say a usable share (C82_id_missing)."
 ],
 "C83": [
  "partial",
  "Text, soundness, completeness and round trip proved. REFUTED parts: a null share, a share for ID 0 or a missing group key panics (C83_null_share_panics, C83_no_groupKey_panics), and the shares need not lie on a polynomial of the stated threshold (C83_degree_unchecked)."
 ],
 "C84": [
  "partial",
  "All claims about files that say a key proved, for the concrete ristretto255 group. REFUTED part: a file without shares crashes (C84_empty_crashes)."
 ],
 "C85": [
  "partial",
  "Refuted for WaitForError that finds done set by another goroutine (C85_lost_error, C85_lost_output). Proved: after a receive from Done(), or in WaitForError that waited, err and the output are final (C85_received, C85_wait_partial); the same for a goroutine that ended the protocol or took the mutex afterwards (C85_locked), or is the only one (C85_alone); errors and true from IsFinished are always right; done, err and the channel are set once (C85_once, C85_once_err, C85_close); reads with the mutex are as in the order of the mutex (C85_atomic), and every history of the model of State is such an execution (C85_realised)."
 ],
 "C86": [
  "partial",
  "Proved: both tests pass for the code, for all 1 <= T < N < 65535 (signing 0 <= T), coins (nonces not zero) and orders (C86_keygen_passes, C86_sign_passes); what a pass means for any implementation (C86_keygen_verdict, C86_sign_verdict); exactly what ValidateSecrets accepts (C86_validate_iff). The rest is refuted: TestSign passes for an implementation that never signs (C86_sign_silent); ValidateSecrets accepts secrets that do not belong to their public shares (C86_validate_wrong, C86_validate_blind) and polynomials of too high a degree (C86_degree_blind)."
 ],
 "C87": [
  "partial",
  "Proved: every decoder returns the same on every receiver and on success leaves what the pure decoder says (PublicKey: except for null; Message: see C21); an error leaves Header, KeyGen2, Sign2, Message, Public, ID, Element and PublicKey alone. Refuted for Signature, Schnorr, Sign1, SecretShare, Exponent and KeyGen1, with exactly what is left behind."
 ],
 "C88": [
  "partial",
  "Proved over channels, when all sessions have ended or a constructor has failed, for every interleaving and order; the hypothesis is needed (C88_channel_early). Over UDP it is false: close(c.incoming) comes before conn.Close(), and a packet read in between crashes the program (C88_udp_keygen_can_crash, C88_udp_sign_can_crash, C88_udp_timeout_can_crash), for a blocked reader with certainty (C88_udp_keygen_must_crash, C88_udp_sign_must_crash). C88_udp_keygen_only and C88_udp_sign_only say that nothing else panics, C88_udp_idle that without packets nothing does."
 ],
 "C89": [
  "proved",
  "Every test is characterised exactly; the tests of pkg/ristretto with fixed vectors are computed in Vectors/Ristretto."
 ],
 "C90": [
  "proved",
  "One session of one signer. That the inputs that are changed were not hashed before is a hypothesis; its probability is not modelled."
 ],
 "C91": [
  "proved",
  ""
 ],
 "C92": [
  "partial",
  "Refuted for a reader that gives less than it is asked for without an error: SetScalarRandom ignores the number of bytes read (C92_short_read). Everything else is proved: what is read (C92_scalar, C92_coefficient, C92_keygen, C92_sign, C92_generateSecrets, C92_keygen_rest, C92_sign_rest, C92_fails), the distribution (C92_count, C92_transfer), success (C92_signing) and secrecy (C92_secrecy, C92_view)."
 ],
 "C93": [
  "partial",
  "The stored messages are bounded and the session ends after silence: proved for all histories. The bound on the queue and on the lifetime is refuted (C93_flood, C93_keygen_flood, C93_sign_flood: a party that holds back its current message can have any number of later messages queued, each restarting the timer) and proved for histories in which nobody has two messages of the same type accepted."
 ],
 "C94": [
  "partial",
  "Refuted as stated: the session reads the caller's memory late (C94_sign_other_message, C94_keygen_other_parties). Proved: a caller that stops writing before round 1 is complete has exactly a session given what is in the memory then; what every share, signature, dealt share and output is for; that adding a signer yields no share; that later writes can only abort."
 ],
 "C95": [
  "partial",
  "Refuted for the form of r (C95_r_is_never_standard, C95_printed_rejected) and for the file of keygen (C95_write_error_ignored). Proved: the exact text of every run that ends, Success printed exactly then, the same ends as the model without output, recoverability of the standard form, and when Ed25519 would accept what is printed."
 ],
 "C96": [
  "partial",
  "Refuted: the nonces are drawn without the secret and the message (C96_not_hedged), and three sessions with the same commitments give the share (C96_three_sessions_reveal). What holds is proved: two responses fit every share, and with a uniform source the scalars repeat with a probability of at most n(n-1)/2^253 + n/2^259."
 ],
 "C97": [
  "partial",
  "Refuted: a message of one session is accepted in another and keeps the genuine one out (C97_sign_replay), so that honest signers are blamed without anybody cheating (C97_framed_by_replay) and a key generation completes with recordings only (C97_keygen_replay). Proved: within a session at most one message per sender counts, and exactly when a share made in another session is accepted (C97_share_accepted_iff)."
 ],
 "C98": [
  "partial",
  "Proved: a session hashes only the listed strings, and those of binding factors, challenges and proofs differ unless the digest of the message contains the key (exact characterisation). Refuted for the digest of the message, which is hashed without a tag (C98_message_is_challenge)."
 ],
 "C99": [
  "proved",
  "Calls are logged with their arguments; running times themselves, and the constant-time claims of the dependency for its other functions, are not modelled."
 ],
 "C100": [
  "proved",
  "Proved for all scripts that meet Fresh; C100_fresh says when. The hash function is changed at places that are fixed once all commitments of a session are; no claim is made about an adversary that asks for these hash values earlier."
 ],
 "C101": [
  "proved",
  "random oracle model; the algorithm sees no sessions of honest signers"
 ],
 "C102": [
  "proved",
  "random oracle model; the key was shared by a dealer; reduction to one-more discrete logarithm"
 ],
 "C103": [
  "proved",
  ""
 ],
 "C104": [
  "proved",
  ""
 ],
 "C105": [
  "proved",
  ""
 ],
 "C106": [
  "proved",
  "The sentence on the capacity is C106_capacity for at most 992 signers and C106_capacity_wraps from 993 on."
 ],
 "C107": [
  "proved",
  "The last sentence is C107_stays."
 ],
 "C108": [
  "proved",
  "Generic over the round implementation, and for key generation and signing; lists beyond 65536 entries: when a signing session starts, exactly."
 ],
 "C109": [
  "partial",
  "Proved: the texts of the errors of sessions, HandleMessage and PartyRoutine, that the text of a session's error determines it, and when the payload decoders and Signature return ErrInvalidMessage. REFUTED: the exported errors cannot be recognised with errors.Is in what sessions (C109_sentinel_lost), Message.UnmarshalBinary (C109_message_hides) and PartyRoutine (C109_routine) return. The numbers in HandleMessage's text are in each other's place, see C65."
 ],
 "C110": [
  "proved",
  "For every interleaving (C110_history, C110_ok, C110_error, C110_never_waits, C110_keygen_nothing_lost, C110_sign_nothing_lost) and equal to the sequential model when alone (C110_alone). Sharp: with a time-out waiting, the same call may return the messages without an error or drop them (C110_timeout_race). Reads without the mutex are taken as sequentially consistent; C85 says what else they may see."
 ],
 "C111": [
  "partial",
  "Exact uniformity, as the comment in the code has it, is refuted (C111_not_uniform): q does not divide 2^512. Proved instead: at most 32 field elements are mapped to one element (C111_map), at most 2^263 of 2^512 strings give one element (C111_spread, C111_probability), independent results collide with probability at most 2^-249 (C111_collision), about a quarter of the group is reached by mapToPoint alone (C111_reached). Missing: that the distribution is statistically close to uniform (needs bounds on character sums over the curve)."
 ],
 "C112": [
  "proved",
  "Fairness (Spec/Fair) asks the callers to hand over a refused message again; C112_keygen_once_hangs and C112_sign_once_hangs show that without that the claim is false. Time-outs are left out of these executions (C76 and C113 are about them)."
 ],
 "C113": [
  "proved",
  "Sessions may be created at different times (C113_staggered_keygen, C113_staggered_sign); a message to a session that does not exist yet is taken to wait for it, and no clock runs faster than the time of the execution (Spec/Prompt). C113_slow_keygen and C113_slow_sign: for every timeout of at most 3δ the claim is false, so 3δ is sharp."
 ],
 "C114": [
  "partial",
  "Refuted when another goroutine calls ProcessAll between ProcessAll and MarshalBinary of the routine (C114_refuted, C114_refuted_blamed). Proved when others only hand over messages and the timer may end the session at any moment, also in the middle of encoding (C114_sent_partial, C114_wrong_partial); the returned error is always that of the session (C114_aborted)."
 ],
 "C115": [
  "proved",
  "The steps of NewBaseState interleaved with its timer; memory is sequentially consistent except for the one field that is accessed without synchronisation, of which the callback may see the old or the new value."
 ],
 "C116": [
  "partial",
  "A session that is handed pointers behaves as one that is handed messages, in both directions (C116_same_keygen, C116_same_sign); no message changes while it runs (C116_unchanged), and nothing but accepted shares ever (C116_frame_keygen, C116_frame_sign). On success the shares that make up the key are erased (C116_erased_partial). That no share is left is false: timeouts erase nothing (C116_timeout_keeps, C116_left_timeout), and a duplicate stays after success (C116_left_duplicate)."
 ],
 "C117": [
  "proved",
  "Sessions whose message objects are shared with or written to by others; PartyRoutine with objects; counterexamples show that the conditions are needed."
 ],
 "C118": [
  "proved",
  "For sessions made by NewKeygenState and NewSignState with duplicate-free (and for key generation non-zero) IDs. Both directions; the converse names the iteration order."
 ],
 "C119": [
  "partial",
  "Proved for signing in full and for key generation except in its last round, where the second half is refuted: C119_refuted (the interrupted loop erases accepted shares, and the next call blames their honest senders). C119_*_complete show that the model covers every panic of ProcessAll."
 ],
 "C120": [
  "proved",
  "Lists are duplicate-free. NewSignState is shown to return an error when every listed ID has a public share, and otherwise never to succeed. The claim about decoded messages assumes a threshold other than 65535, for which NewPolynomial itself panics."
 ],
 "C121": [
  "proved",
  "C121_accepted shows acceptance for lists that end with the own, largest ID; other unsorted lists may be refused because the own ID is not found. That ProcessAll does not crash a key generation assumes an own ID other than 0 (C120) and a threshold other than 65535."
 ],
 "C122": [
  "partial",
  "The claim is refuted: parties with any thresholds and any symmetric lists finish without error, with different keys (C122_undetected), and what each then holds is given exactly (C122_result). Proved: a party that finishes is in the lists of the honest parties of its list (C122_lists), and comparing the results shows a difference in list or threshold (C122_equal)."
 ],
 "C123": [
  "partial",
  "The claim is refuted: honest signers with different messages blame each other (C123_blamed_refuted). Proved: exactly when the share of a differently configured signer is accepted (C123_accepted_iff), what success implies about every honest signer of the list (C123_success), and, for different messages, that at most 2^512 / q + 1 of the 2^512 values of one hash make it accepted (C123_chance)."
 ],
 "C124": [
  "proved",
  "C124_one_key, C124_can_sign, C124_own_needed; that the comparison with Equal is needed is C122_undetected."
 ],
 "C125": [
  "partial",
  "REFUTED for a participant that waits for the broadcasts of the others: the key is what it has seen plus what it chooses (C125_last_mover, C125_every_key_refuted), and with m+1 tries a property of probability p gets probability 1-(1-p)^(m+1) (C125_bias, C125_ten_tries_refuted). Proved for a contribution drawn independently of the others (C125_fair)."
 ],
 "C126": [
  "partial",
  "REFUTED for all sets of victims (C126_split_refuted): the cheated parties abort and blame the cheater, the others finish without error. Proved: the others hold shares of the sum of all polynomials (C126_rest_key), and more than t of them can sign (C126_rest_can_sign)."
 ],
 "C127": [
  "partial",
  "Agreement with the tagged constructors, texts of NewKeygenState and NewSignState (exactly when which), of NewPublic and of UnmarshalJSON proved; the text of NewPublic states another condition than the one tested (refuted)."
 ],
 "C128": [
  "partial",
  "REFUTED for all sets of victims (C128_alike_refuted): the last signer has the signature and chooses who else gets it; the cheated signers abort, blame it and have no signature."
 ],
 "C129": [
  "partial",
  "Proved: the session makes no difference (C129_session), all messages whose payload is complete or nil behave as in the main model (C129_complete, C129_methods_other), and exactly when encoding and comparing panic. REFUTED for Size, MarshalBinary and Equal (C129_methods_refuted)."
 ],
 "C130": [
  "proved",
  "Exact byte counts for every history of a session, running or ended, from the round it has reached; Spec.SentBytes also says that every message can be encoded."
 ]
}