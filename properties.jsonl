{"id": "C01", "title": "ID wire form round-trips and is exactly two big-endian bytes", "statement": "For every party ID, ID.Bytes() has length 2 and party.FromBytes of it, followed by any further bytes, returns that ID with no error; FromBytes fails exactly on inputs shorter than two bytes.", "quantifier": "all 65536 IDs, all byte slices of every length and every suffix", "why_tests_cant": "the byte-slice domain is infinite; tests sample a few literals", "anchors": ["pkg/frost/party/id.go: ID.Bytes, FromBytes"]}
{"id": "C02", "title": "ID text form round-trips and rejects everything that is not a 16-bit decimal", "statement": "ID.UnmarshalText accepts a text exactly when it is a non-empty string of decimal digits whose value is at most 65535, sets the ID to that value, and leaves the ID untouched on error; MarshalText output is accepted and yields the same ID.", "quantifier": "all IDs and all byte strings", "why_tests_cant": "infinite input domain with overflow boundaries", "anchors": ["pkg/frost/party/id.go: ID.MarshalText, ID.UnmarshalText, ID.String"]}
{"id": "C03", "title": "ID.Scalar embeds IDs injectively into the scalar field", "statement": "ID.Scalar() never panics, returns the scalar with the ID's numeric value, is zero exactly for ID 0, and distinct IDs give distinct scalars.", "quantifier": "all IDs and pairs of IDs", "why_tests_cant": "needs the relation between 2^16 and the 253-bit group order for all pairs", "anchors": ["pkg/frost/party/id.go: ID.Scalar", "pkg/internal/scalar/scalar.go: SetScalarUInt32"]}
{"id": "C04", "title": "NewIDSlice sorts without losing, adding or aliasing IDs", "statement": "NewIDSlice returns an ascending permutation of its argument; Copy returns an equal slice.", "quantifier": "all ID slices, with duplicates and in every order", "why_tests_cant": "every length and permutation", "anchors": ["pkg/frost/party/idslice.go: NewIDSlice, Copy"]}
{"id": "C05", "title": "Contains decides membership on every sorted slice", "statement": "For every ascending IDSlice (in particular every result of NewIDSlice), Contains(id) is true exactly when id is in the slice; for a slice that is not sorted, Contains may miss a member (so callers must sort).", "quantifier": "all sorted slices of every length and all IDs", "why_tests_cant": "binary search: all lengths and all positions", "anchors": ["pkg/frost/party/idslice.go: Contains"]}
{"id": "C06", "title": "IsSubsetOf and Equal decide subset and equality", "statement": "ids.IsSubsetOf(o) is true exactly when every element of ids is in o (o sorted); ids.Equal(o) is true exactly when the two slices have the same elements in the same order.", "quantifier": "all pairs of slices", "why_tests_cant": "infinite domain", "anchors": ["pkg/frost/party/idslice.go: IsSubsetOf, Equal"]}
{"id": "C07", "title": "Lagrange fails exactly on a zero or absent ID", "statement": "ID.Lagrange(set) returns an error exactly when the ID is 0 or not in the set; its 'denominator was 0' error is unreachable.", "quantifier": "all IDs and all ID slices, including duplicates, zeros and unsorted ones", "why_tests_cant": "unreachability of an error branch cannot be shown by running", "anchors": ["pkg/frost/party/id.go: ID.Lagrange"]}
{"id": "C08", "title": "Lagrange coefficients interpolate at zero", "statement": "For every duplicate-free set of non-zero IDs and every polynomial f of degree below the size of the set, the sum over the set of Lagrange(id) * f(id) equals f(0).", "quantifier": "all ID sets and all polynomials over the scalar field", "why_tests_cant": "algebraic identity over a 2^252-element field for every set size", "anchors": ["pkg/frost/party/id.go: ID.Lagrange"]}
{"id": "C09", "title": "Random and sequential ID helpers produce valid IDs", "statement": "RandID never returns 0; NewPartySlice(n) returns 1..n for every n and always terminates.", "quantifier": "all outcomes of the random source, all n in uint16", "why_tests_cant": "termination for every n; tests use small n", "anchors": ["pkg/frost/party/id.go: RandID", "pkg/helpers/parties.go: NewPartySlice, GenerateSet"]}
{"id": "C10", "title": "Polynomial.Evaluate computes the polynomial and never reveals the constant term", "statement": "Polynomial.Evaluate(x) returns the sum of a_i x^i for every non-zero x and panics for x = 0, so evaluating never returns the secret constant at 0.", "quantifier": "all coefficient lists and all scalars", "why_tests_cant": "all degrees and field elements", "anchors": ["pkg/internal/polynomial/polynomial.go: NewPolynomial, Evaluate, Constant"]}
{"id": "C11", "title": "Exponent.Evaluate is evaluation in the exponent, whichever algorithm is used", "statement": "For the Exponent of a polynomial f, Evaluate(x) equals [f(x)]B for all non-zero x; the classic, multi-scalar and Horner evaluators agree on every Exponent and every non-zero x.", "quantifier": "all coefficient lists and all non-zero scalars", "why_tests_cant": "all degrees, all group elements", "anchors": ["pkg/internal/polynomial/exponent.go: NewPolynomialExponent, Evaluate, evaluateClassic, evaluateVar, evaluateHorner"]}
{"id": "C12", "title": "Exponent addition is coefficient-wise and refuses mismatched degrees", "statement": "Exponent.Add(q) adds coefficient by coefficient when both have the same number of coefficients, so evaluations add up; otherwise it returns an error and p is unchanged. Sum of a non-empty list is the coefficient-wise sum and fails exactly when the lengths differ.", "quantifier": "all pairs and lists of exponents", "why_tests_cant": "all lengths and group elements", "anchors": ["pkg/internal/polynomial/exponent.go: Add, Sum, Copy"]}
{"id": "C13", "title": "Exponent wire form round-trips and is canonical", "statement": "Unmarshalling a marshalled Exponent gives back an equal Exponent for every number of coefficients the format can carry, and any accepted byte string is exactly the marshalling of its result. Every accepted Exponent has at least one coefficient.", "quantifier": "all exponents, all byte strings", "why_tests_cant": "infinite domain; the degree field wraps at 2^16", "anchors": ["pkg/internal/polynomial/exponent.go: UnmarshalBinary, BytesAppend, Size, Degree"]}
{"id": "C14", "title": "Any t+1 shares reconstruct the secret; keys made by the helpers are consistent", "statement": "For secrets and public data made by GenerateSecrets and GeneratePublic with threshold t, any subset of at least t+1 distinct parties recovers the secret by Lagrange interpolation of their shares, and the public group key equals [secret]B.", "quantifier": "all ID sets, thresholds, coefficients and subsets", "why_tests_cant": "all subsets of all sets", "anchors": ["pkg/helpers/keys.go: GenerateSecrets, GeneratePublic", "pkg/eddsa/public.go: NewPublic, computeGroupKey"]}
{"id": "C15", "title": "t shares reveal nothing about the secret", "statement": "For any set of at most t parties, any share values they hold and any two candidate secrets, the polynomials of degree t consistent with those shares and the first secret are in bijection with those consistent with the second.", "quantifier": "all coalitions of size at most t, all share values, all candidate secrets", "why_tests_cant": "a counting statement over the whole field", "anchors": ["pkg/internal/polynomial/polynomial.go: NewPolynomial, Evaluate", "pkg/helpers/keys.go: GenerateSecrets"]}
{"id": "C16", "title": "Honest Schnorr proofs verify", "statement": "For every party ID, context of at least 32 bytes, secret and nonce, NewSchnorrProof(id, [secret]B, ctx, secret).Verify(id, [secret]B, ctx) is true.", "quantifier": "all IDs, contexts, secrets, nonces", "why_tests_cant": "all field elements", "anchors": ["pkg/internal/zk/schnorr.go: NewSchnorrProof, Verify, challenge"]}
{"id": "C17", "title": "A Schnorr proof that verifies is bound to its prover, public key and context", "statement": "Verify accepts only if the proof's challenge is the hash of the prover ID, context, public element and commitment, so that a proof made for one (ID, public element) is not accepted for another, and nobody can make a proof without the secret.", "quantifier": "all proofs, IDs, public elements and contexts", "why_tests_cant": "a soundness claim about all possible forgeries", "anchors": ["pkg/internal/zk/schnorr.go: challenge, Verify"]}
{"id": "C18", "title": "Header wire form round-trips and only well-formed headers are accepted", "statement": "Header.UnmarshalBinary accepts a byte string exactly when it has at least five bytes, a known type, a non-zero sender, and a zero destination for broadcast types or non-zero destination for KeyGen2; accepted headers re-marshal to the first five bytes; BytesAppend fails exactly on headers that violate these rules.", "quantifier": "all byte strings and all headers", "why_tests_cant": "infinite domain and all invalid combinations", "anchors": ["pkg/messages/header.go: UnmarshalBinary, BytesAppend, Size, IsBroadcast"]}
{"id": "C19", "title": "Every message type round-trips through the wire format", "statement": "For every message built by NewKeyGen1, NewKeyGen2, NewSign1 or NewSign2 with non-zero sender (and destination for KeyGen2), MarshalBinary succeeds, its length is Size(), and UnmarshalBinary of the result into a fresh Message gives back the same message.", "quantifier": "all messages, all scalars and group elements, all commitment degrees", "why_tests_cant": "all payload values", "anchors": ["pkg/messages/messages.go: BytesAppend, MarshalBinary, UnmarshalBinary, Size", "pkg/messages/keygen1.go", "pkg/messages/keygen2.go", "pkg/messages/sign1.go", "pkg/messages/sign2.go"]}
{"id": "C20", "title": "Accepted messages are canonical: no two byte strings decode to the same message", "statement": "If UnmarshalBinary accepts a byte string into a fresh Message and the payload is present, then re-marshalling gives exactly that byte string; hence decoding is injective and there is no wire malleability, and encodings of different types never coincide.", "quantifier": "all byte strings", "why_tests_cant": "infinite domain", "anchors": ["pkg/messages/messages.go: UnmarshalBinary", "pkg/messages/*.go: UnmarshalBinary"]}
{"id": "C21", "title": "Invalid payloads are rejected when unmarshalling", "statement": "Message.UnmarshalBinary returns an error whenever the payload after the header is not a valid encoding for the message type, so that a nil error means the payload field for the type is present and belongs to these bytes.", "quantifier": "all byte strings, all prior contents of the receiver", "why_tests_cant": "all malformed inputs", "anchors": ["pkg/messages/messages.go: Message.UnmarshalBinary"]}
{"id": "C22", "title": "Unmarshalling never panics", "statement": "No byte string makes Message, Header, payload, Signature, SecretShare or Exponent UnmarshalBinary panic, and no successfully unmarshalled message makes a party's ProcessAll panic.", "quantifier": "all byte strings of every length, all protocol states", "why_tests_cant": "slice-bound arithmetic for every length", "anchors": ["pkg/messages/*.go", "pkg/internal/polynomial/exponent.go: UnmarshalBinary", "pkg/frost/keygen/round1.go: ProcessMessage"]}
{"id": "C23", "title": "BytesAppend appends", "statement": "For every marshaler, BytesAppend(existing) returns existing followed by the bytes MarshalBinary returns, and fails when MarshalBinary fails.", "quantifier": "all messages and all prefixes", "why_tests_cant": "all prefixes", "anchors": ["pkg/messages/*.go: BytesAppend", "pkg/eddsa/signature.go: BytesAppend"]}
{"id": "C24", "title": "Message.Equal agrees with wire equality", "statement": "For two messages that carry a payload for their type, Equal is true exactly when both marshal to the same bytes; Equal is reflexive, symmetric and transitive on such messages.", "quantifier": "all pairs of messages", "why_tests_cant": "all pairs", "anchors": ["pkg/messages/messages.go: Equal", "pkg/messages/header.go: Equal"]}
{"id": "C25", "title": "Only relevant messages are stored", "statement": "After any history of calls, every message a State holds for processing was given to HandleMessage, comes from another participant, is a broadcast or addressed to this party, and has a type the protocol still accepts; HandleMessage returns nil without storing for messages from itself or to someone else and an error for strangers.", "quantifier": "all histories of HandleMessage, ProcessAll and timeout events, all messages", "why_tests_cant": "all interleavings", "anchors": ["pkg/state/state.go: HandleMessage"]}
{"id": "C26", "title": "First message wins: a sender cannot replace its message for the current round", "statement": "Once a message from a party is stored for the current round, no later HandleMessage call changes it before the round is processed; each such attempt returns an error and changes nothing.", "quantifier": "all histories and messages", "why_tests_cant": "all adversarial re-deliveries", "anchors": ["pkg/state/state.go: HandleMessage"]}
{"id": "C27", "title": "A round is processed only when every other party's message is present", "statement": "ProcessAll changes nothing and returns no messages unless exactly one message of the current type from each other participant is stored; when it proceeds, each is processed exactly once.", "quantifier": "all histories, all participant sets without duplicates", "why_tests_cant": "all interleavings of deliveries", "anchors": ["pkg/state/state.go: ProcessAll"]}
{"id": "C28", "title": "Rounds advance one at a time and a finished protocol is frozen", "statement": "Every call leaves the round number unchanged or advances it by one; once IsFinished is true no later HandleMessage, ProcessAll or timeout changes the state, the error or the output, HandleMessage fails and ProcessAll returns nothing.", "quantifier": "all histories and continuations", "why_tests_cant": "all continuations after the end", "anchors": ["pkg/state/state.go: ProcessAll, HandleMessage, finish, reportError"]}
{"id": "C29", "title": "Done is signalled exactly once, and WaitForError tells the truth", "statement": "The Done channel is closed exactly when the protocol finishes and never twice; WaitForError returns (does not block) exactly after that, with nil exactly when the protocol completed all rounds and the output is filled in.", "quantifier": "all histories", "why_tests_cant": "a double close panics only on particular interleavings", "anchors": ["pkg/state/state.go: finish, reportError, WaitForError, Done, Err, IsFinished"]}
{"id": "C30", "title": "Errors blame only a sender whose stored message failed its check", "statement": "When a protocol aborts with a non-zero culprit, that culprit is another participant whose stored message for the reported round fails the round's validity check; the reported round is the round being processed; the first error is kept.", "quantifier": "all histories, all map iteration orders", "why_tests_cant": "map iteration order is random in Go", "anchors": ["pkg/state/state.go: ProcessAll, reportError", "pkg/state/error.go", "pkg/frost/keygen/round1.go", "pkg/frost/keygen/round2.go", "pkg/frost/sign/round1.go", "pkg/frost/sign/round2.go"]}
{"id": "C31", "title": "Outcome does not depend on delivery or map order", "statement": "For the same messages of a round delivered in any order, and for any map iteration order, processing succeeds or fails alike, and on success gives the same state, messages and output.", "quantifier": "all permutations of deliveries and iteration orders", "why_tests_cant": "factorially many orders", "anchors": ["pkg/state/state.go: HandleMessage, ProcessAll", "pkg/frost/sign/round1.go: GenerateMessages", "pkg/frost/sign/round2.go: GenerateMessages"]}
{"id": "C32", "title": "Early messages for later rounds are kept until their round", "statement": "A message of a later round that HandleMessage accepts (nil error, other participant, for us) is kept and is handed to that round; and a valid message of a later round that arrives early is never refused or lost.", "quantifier": "all histories and arrival orders across rounds", "why_tests_cant": "asynchronous arrival orders across rounds", "anchors": ["pkg/state/state.go: HandleMessage, ProcessAll"]}
{"id": "C33", "title": "Timeouts abort only after real silence, and never without a timeout", "statement": "With timeout 0 no timeout abort ever happens; with timeout d > 0 the protocol is aborted by timeout only if at least d passed since creation or the last accepted message; refused messages do not extend the deadline; a timeout never crashes the process.", "quantifier": "all histories with time steps", "why_tests_cant": "all timings", "anchors": ["pkg/state/state.go: NewBaseState, newTimer, ackMessage, stopTimer", "pkg/frost/keygen/base.go: Reset"]}
{"id": "C34", "title": "Keygen constructor accepts exactly sane parameters", "statement": "NewKeygenState succeeds only if the party is in the list and 1 <= threshold <= n-1, and then the output is empty; it succeeds for every sorted duplicate-free list of non-zero IDs containing the party and such a threshold.", "quantifier": "all IDs, lists and thresholds", "why_tests_cant": "uint16 wrap-around at n = 0", "anchors": ["pkg/frost/keygen/base.go: NewRound", "pkg/frost/frost.go: NewKeygenState", "pkg/state/base_round.go: NewBaseRound"]}
{"id": "C35", "title": "Honest key generation always agrees and is correct", "statement": "When all participants follow the protocol, under every schedule of deliveries (reordering, duplication, loss, repetition of ProcessAll, any map order) no participant ever reports an error, and every participant that finishes outputs the same group key, party list, threshold and public shares; the group key is [s]B for the sum s of all contributed secrets; each secret share is the value at the party's ID of one polynomial of degree t with constant term s, and matches its public share.", "quantifier": "all participant sets, thresholds, random coins and schedules", "why_tests_cant": "unbounded schedules and all coins", "anchors": ["pkg/frost/keygen/*.go", "pkg/state/state.go"]}
{"id": "C36", "title": "Honest key generation can always be completed", "statement": "From every state reachable by honest participants there is a continuation (redelivering messages already sent and calling ProcessAll) in which everybody finishes successfully.", "quantifier": "all reachable global states", "why_tests_cant": "existence of a continuation from every state", "anchors": ["pkg/frost/keygen/*.go", "pkg/state/state.go"]}
{"id": "C37", "title": "t+1 parties of a key generation hold the group secret, t parties learn nothing", "statement": "After honest key generation the shares of any t+1 participants interpolate to the discrete logarithm of the group key.", "quantifier": "all subsets of size at least t+1", "why_tests_cant": "all subsets", "anchors": ["pkg/frost/keygen/round2.go: GenerateMessages", "pkg/eddsa/public.go"]}
{"id": "C38", "title": "Keygen accepts a share only if it matches the dealer's commitment", "statement": "In every history with arbitrary (malicious) messages, if key generation succeeds then every other participant's accepted share s satisfies [s]B = C(selfID) for the commitment C that participant broadcast; a share that does not match aborts with that participant as culprit.", "quantifier": "all histories with arbitrary messages", "why_tests_cant": "all malicious inputs", "anchors": ["pkg/frost/keygen/round2.go: ProcessMessage"]}
{"id": "C39", "title": "A successful keygen output is internally consistent against malicious peers", "statement": "Whenever key generation succeeds at an honest party, whatever the others sent, its secret share matches its own entry in the public shares, and the public shares all lie on one degree-t polynomial in the exponent whose constant term is the group key.", "quantifier": "all histories with arbitrary messages", "why_tests_cant": "all malicious inputs", "anchors": ["pkg/frost/keygen/round1.go: ProcessMessage", "pkg/frost/keygen/round2.go: GenerateMessages"]}
{"id": "C40", "title": "No participant can choose the group key", "statement": "A participant that waits for the others' commitments cannot force the group key to a key whose secret it knows.", "quantifier": "all strategies of a malicious participant", "why_tests_cant": "quantifies over attackers", "anchors": ["pkg/frost/keygen/round1.go: ProcessMessage", "pkg/internal/zk/schnorr.go"]}
{"id": "C41", "title": "Keygen output appears only on success", "statement": "Output.Public and Output.SecretKey are nil until key generation finished without error and both are set from then on and never change.", "quantifier": "all histories with arbitrary messages", "why_tests_cant": "all histories", "anchors": ["pkg/frost/keygen/round2.go: GenerateMessages", "pkg/frost/keygen/base.go: Reset", "pkg/frost/keygen/output.go"]}
{"id": "C42", "title": "Sign constructor accepts exactly usable signer sets", "statement": "NewSignState succeeds only if the signer list contains the owner of the secret share, is a subset of the key's parties and contains no zero ID; README requires at least t+1 signers.", "quantifier": "all lists, secrets and public data", "why_tests_cant": "all combinations", "anchors": ["pkg/frost/sign/base.go: NewRound", "pkg/frost/frost.go: NewSignState"]}
{"id": "C43", "title": "Honest signing always yields one valid signature", "statement": "For keys of threshold t and any honest signer set of at least t+1 parties, with non-zero nonces, under every schedule no signer ever reports an error, and all signers that finish output the same signature, which verifies for the message under the group key; from every reachable state everybody can still finish.", "quantifier": "all keys, signer sets, messages, coins and schedules", "why_tests_cant": "unbounded schedules and all coins", "anchors": ["pkg/frost/sign/*.go", "pkg/state/state.go"]}
{"id": "C44", "title": "A signature is output only if it verifies", "statement": "In every history with arbitrary (malicious) messages, Output.Signature is set only when signing finished without error and GroupKey.Verify(message, signature) is true.", "quantifier": "all histories with arbitrary messages", "why_tests_cant": "all malicious inputs", "anchors": ["pkg/frost/sign/round2.go: GenerateMessages"]}
{"id": "C45", "title": "Identifiable abort in signing", "statement": "A signature share is accepted exactly when it satisfies [z]B = R_i + [c * lambda_i]A_i for its sender; honest signers' shares always satisfy it, so an honest signer is never blamed; and if all shares are accepted and the public shares of the signers interpolate to the group key, the final signature verifies, so an unattributed failure is impossible.", "quantifier": "all histories with arbitrary messages", "why_tests_cant": "all malicious inputs", "anchors": ["pkg/frost/sign/round2.go: ProcessMessage, GenerateMessages", "pkg/frost/sign/round1.go"]}
{"id": "C46", "title": "Too few signers cannot produce a signature", "statement": "With signers whose Lagrange-weighted public shares do not add up to the group key (in general fewer than t+1 signers), no run outputs a signature unless the challenge is zero; NewSignState does not itself reject such sets.", "quantifier": "all key sets, signer sets and coins", "why_tests_cant": "all coins", "anchors": ["pkg/frost/sign/base.go: NewRound", "pkg/frost/sign/round2.go: GenerateMessages"]}
{"id": "C47", "title": "A signing session uses its nonces for at most one signature share", "statement": "Whatever messages arrive and however often ProcessAll is called, a sign State emits at most one Sign1 and at most one Sign2 message in its lifetime, so one nonce pair is never used with two challenges.", "quantifier": "all histories with arbitrary messages", "why_tests_cant": "all histories", "anchors": ["pkg/state/state.go: ProcessAll", "pkg/frost/sign/round0.go", "pkg/frost/sign/round1.go"]}
{"id": "C48", "title": "Binding factors bind signer, message and all commitments", "statement": "The byte strings hashed for the binding factors are different for different signer IDs, different message digests, or different commitment lists, and do not depend on which signer computes them.", "quantifier": "all signer lists, commitments and messages", "why_tests_cant": "injectivity over an infinite domain", "anchors": ["pkg/frost/sign/round1.go: computeRhos"]}
{"id": "C49", "title": "Commitments equal to the identity are refused", "statement": "A Sign1 message whose D or E is the identity aborts with the sender as culprit, and otherwise the message is accepted.", "quantifier": "all messages", "why_tests_cant": "all group elements", "anchors": ["pkg/frost/sign/round1.go: ProcessMessage"]}
{"id": "C50", "title": "Verify accepts exactly the signature equation", "statement": "PublicKey.Verify(m, (R,S)) is true exactly when [S]B = R + [H(R,A,m)]A, signatures made with the secret key verify, and for fixed R, A, m exactly one S verifies.", "quantifier": "all keys, messages and signatures", "why_tests_cant": "all field elements", "anchors": ["pkg/eddsa/public_key.go: Verify", "pkg/eddsa/signature.go: ComputeChallenge"]}
{"id": "C51", "title": "Signatures are standard Ed25519 signatures", "statement": "If PublicKey.Verify accepts (m, sig) then RFC 8032 verification (as in crypto/ed25519.Verify) accepts ToEd25519 of key and signature for m, and conversely.", "quantifier": "all keys, messages and signatures", "why_tests_cant": "all curve points, including torsion representatives", "anchors": ["pkg/eddsa/signature.go: ToEd25519", "pkg/eddsa/public_key.go: ToEd25519", "pkg/ristretto/ristretto.go: BytesEd25519"]}
{"id": "C52", "title": "SecretShare binary form round-trips, is strict, and restores the public part", "statement": "UnmarshalBinary(MarshalBinary(share)) gives an equal share with Public = [Secret]B; accepted inputs are exactly 34 bytes with a reduced scalar and re-marshal to themselves.", "quantifier": "all shares and byte strings", "why_tests_cant": "infinite domain", "anchors": ["pkg/eddsa/secret_share.go: MarshalBinary, UnmarshalBinary, NewSecretShare, Equal"]}
{"id": "C53", "title": "SecretShare JSON round-trips and keeps the ID", "statement": "UnmarshalJSON of MarshalJSON output gives an equal share, and an accepted JSON share has the ID written in the JSON.", "quantifier": "all shares and all JSON values", "why_tests_cant": "integer truncation at every value above 65535", "anchors": ["pkg/eddsa/secret_share.go: MarshalJSON, UnmarshalJSON"]}
{"id": "C54", "title": "NewPublic rejects thresholds that need more signers than there are parties", "statement": "NewPublic succeeds only if threshold + 1 <= number of shares, and the result's party list is the sorted key set of the shares.", "quantifier": "all share maps and thresholds", "why_tests_cant": "uint16 wrap-around", "anchors": ["pkg/eddsa/public.go: NewPublic"]}
{"id": "C55", "title": "Public JSON round-trips and an inconsistent group key is refused", "statement": "UnmarshalJSON of MarshalJSON output of a Public made by NewPublic gives an equal Public; UnmarshalJSON refuses data whose group key differs from the interpolation of the shares; a Public produced by keygen round-trips to itself.", "quantifier": "all publics and all decoded JSON structures", "why_tests_cant": "infinite domain", "anchors": ["pkg/eddsa/public.go: MarshalJSON, UnmarshalJSON, computeGroupKey, Equal"]}
{"id": "C56", "title": "Signature wire form round-trips and is strict", "statement": "Signature.UnmarshalBinary(MarshalBinary(sig)) gives an equal signature; accepted inputs have exactly 64 bytes and re-marshal to themselves.", "quantifier": "all signatures and byte strings", "why_tests_cant": "infinite domain", "anchors": ["pkg/eddsa/signature.go: MarshalBinary, UnmarshalBinary, Equal"]}
{"id": "C57", "title": "Element.Equal is representation independent and is an equivalence", "statement": "Equal depends only on the ristretto coset, not on the internal projective coordinates: it is true exactly when the two curve points differ by a point of order dividing 4; it is an equivalence relation compatible with Add, Negate and ScalarMult.", "quantifier": "all curve points in all coordinate representations", "why_tests_cant": "2^255 points and all projective scalings", "anchors": ["pkg/ristretto/ristretto.go: Equal, Add, Negate"]}
{"id": "C58", "title": "Element encoding is canonical and round-trips", "statement": "Bytes gives the same 32 bytes exactly for Equal elements of the ristretto group; SetCanonicalBytes accepts a byte string exactly when it is the Bytes of some element, and returns an Equal element; it never panics.", "quantifier": "all elements and byte strings", "why_tests_cant": "2^252 elements; all byte strings", "anchors": ["pkg/ristretto/ristretto.go: Bytes, bytes, SetCanonicalBytes"]}
{"id": "C59", "title": "BytesEd25519 is the standard encoding of the torsion-free representative", "statement": "BytesEd25519 gives the same bytes for Equal elements, different bytes for different group elements, and is the RFC 8032 encoding of a point of the prime-order subgroup; the constant used is the inverse of 8.", "quantifier": "all elements in all representations", "why_tests_cant": "all torsion representatives", "anchors": ["pkg/ristretto/ristretto.go: BytesEd25519"]}
{"id": "C60", "title": "Hash-to-group never panics and always gives a group element", "statement": "SetUniformBytes fails exactly when the input is not 64 bytes; the map never reaches its panic and always yields a point on the curve.", "quantifier": "all 64-byte inputs", "why_tests_cant": "2^512 inputs", "anchors": ["pkg/ristretto/ristretto.go: SetUniformBytes, mapToPoint"]}
{"id": "C61", "title": "Element text form round-trips", "statement": "Element.UnmarshalText(MarshalText(e)) gives an Equal element, and UnmarshalText accepts only base64 of a canonical encoding.", "quantifier": "all elements and texts", "why_tests_cant": "infinite domain", "anchors": ["pkg/ristretto/ristretto.go: MarshalText, UnmarshalText"]}
{"id": "C62", "title": "The group has the documented prime order and constants", "statement": "The field modulus and the documented group order are prime, the curve has exactly 8q points, the generator has order q, and the hard-coded constants satisfy their defining equations.", "quantifier": "all curve points", "why_tests_cant": "point counting", "anchors": ["pkg/ristretto/ristretto.go: constants d, sqrtM1, sqrtADMinusOne, invSqrtAMinusD, oneMinusDSQ, dMinusOneSQ", "README.md: Ristretto"]}
{"id": "C63", "title": "Handing out messages does not expose later changes", "statement": "A message returned by ProcessAll keeps its content: marshalling it later gives the same bytes as marshalling it at once.", "quantifier": "all histories", "why_tests_cant": "aliasing shows only on particular call orders", "anchors": ["pkg/frost/keygen/round0.go: GenerateMessages", "pkg/messages/keygen1.go: NewKeyGen1", "pkg/frost/keygen/round1.go: ProcessMessage"]}
{"id": "C64", "title": "PartyRoutine reports faithfully", "statement": "PartyRoutine returns an error if any input fails to unmarshal or be handled, or if the protocol aborted; otherwise it returns the marshalled messages of exactly one ProcessAll.", "quantifier": "all inputs and states", "why_tests_cant": "all inputs", "anchors": ["pkg/helpers/parties.go: PartyRoutine"]}
{"id": "C65", "title": "HandleMessage errors name the round and the culprit", "statement": "An error returned by HandleMessage for a message of a non-zero sender names this party, the current round and the sender in the places its text says.", "quantifier": "all states and messages", "why_tests_cant": "all values", "anchors": ["pkg/state/state.go: wrapError"]}
{"id": "C66", "title": "Secrets are wiped when a session ends", "statement": "When a keygen or sign session finishes, for any reason and after any history, the round's secret scalar, polynomial, nonces and secret key share are zero.", "quantifier": "all histories", "why_tests_cant": "all abort points", "anchors": ["pkg/frost/keygen/base.go: Reset", "pkg/frost/sign/base.go: Reset", "pkg/state/state.go: finish"]}
{"id": "C67", "title": "A key generation session sends one broadcast and one share per peer", "statement": "Over its whole lifetime a keygen session emits nothing, or exactly one KeyGen1 broadcast committing to a degree-t polynomial, or that broadcast followed by exactly one KeyGen2 message to each other party carrying that same polynomial's value at the receiver's ID.", "quantifier": "all parameters, coins, histories of incoming messages, timeouts and map orders", "why_tests_cant": "all adversarial histories", "anchors": ["pkg/frost/keygen/round0.go: GenerateMessages", "pkg/frost/keygen/round1.go: GenerateMessages", "pkg/state/state.go: ProcessAll"]}
{"id": "C68", "title": "The coordinate arithmetic implements the abstract group used by the protocol", "statement": "For any extended coordinates standing for ristretto elements, Add, Subtract, Negate, ScalarMult, ScalarBaseMult, MultiScalarMult and VarTimeDoubleScalarBaseMult give coordinates standing for the corresponding results in a group of prime order q, Equal is equality in that group, Bytes, BytesEd25519 and SetCanonicalBytes are the encodings of that group; MultiScalarMult panics exactly on slices of different lengths.", "quantifier": "all coordinates of all elements, all scalars, all byte strings", "why_tests_cant": "2^252 elements, four curve points per element and 2^255 scalings of each", "anchors": ["pkg/ristretto/ristretto.go: Add, Subtract, Negate, ScalarMult, ScalarBaseMult, MultiScalarMult, VarTimeMultiScalarMult, VarTimeDoubleScalarBaseMult, Equal, Bytes, SetCanonicalBytes, BytesEd25519"]}
{"id": "C69", "title": "Key generation followed by signing gives a standard Ed25519 signature", "statement": "After any honest key generation under any schedule, any more than t parties that finished can sign any message (with non-zero nonces); under any schedule all signers that finish hold the same signature, they can always finish, and crypto/ed25519.Verify accepts the signature under the group key held by any party.", "quantifier": "all party sets, thresholds, randomness, messages and schedules of both protocols, in the concrete ristretto255 group", "why_tests_cant": "exponentially many schedules; all keys and messages", "anchors": ["README.md", "pkg/frost/keygen", "pkg/frost/sign", "pkg/eddsa/signature.go: ToEd25519", "pkg/eddsa/public_key.go: ToEd25519"]}
{"id": "C70", "title": "cmd/keygen writes a good key for every valid pair of arguments, and ends as described for all others", "statement": "For every pair of arguments that are numbers t and n, and whatever the run-time and the random source choose, the program ends in exactly one of the ways: the usage text if n > 100 or t >= n; otherwise never if n = 65535 modulo 65536; a crash if n = 0 modulo 65536; an error if the low 16 bits of t are zero or not below those of n; a crash if n is negative; and otherwise a file with the secret and public shares, for parties 1..n, of one polynomial whose degree is at most the low 16 bits of t and whose constant is the sum of the parties' secrets.  In particular it succeeds for all 0 < t < n <= 100.", "quantifier": "all arguments, all map iteration orders in all loops, all random choices", "why_tests_cant": "cmd/keygen has no tests; map iteration order and randomness change from run to run, and bad arguments are not tried", "anchors": ["cmd/keygen/keygen.go:26-143", "pkg/helpers/parties.go:11-22", "pkg/helpers/parties.go:24-51"]}
{"id": "C71", "title": "cmd/signer prints only valid signatures, and always one for a key made by cmd/keygen", "statement": "Whatever the file contains, a signature is printed only if it verifies under the group key of the file, with crypto/ed25519 and with the library.  For every key of parties 1..n with n < 65535 and every message, if no nonce is zero, a signature is printed and RFC 8032 accepts it; in particular for every file of cmd/keygen run with valid arguments.  (For a key whose parties are not 1..n the program crashes.)", "quantifier": "all files, all messages, all keys, all map iteration orders, all non-zero nonces", "why_tests_cant": "cmd/signer has no tests; the statement ranges over all keys, messages and iteration orders", "anchors": ["cmd/signer/signer.go:24-129", "pkg/eddsa/public.go:71-100", "pkg/eddsa/secret_share.go:59-84"]}
{"id": "C72", "title": "Parties that talk through Go channels: what they compute is right, nothing blocks for ever, but three or more can hang", "statement": "In every execution of the handlers and channels of test/internal/communication with honest parties: no session ends with an error; a finished key generation holds shares of the sum of all polynomials, a finished signing session the valid signature; everything in a channel can be decoded; once a session has ended nothing is under way to its party.  Every execution has at most n(12n+2) steps, and when nothing can happen any more all messages were delivered and exactly the handlers of ended sessions returned.  There is an execution in which everybody finishes; with two parties every execution does.  With three or more parties, for every party there is an execution after which it never finishes, because HandleMessage refuses a message of the second round from a party whose message of the first round is still stored.", "quantifier": "all honest setups, all coins, all interleavings of the goroutines, all map iteration orders", "why_tests_cant": "the hang depends on the interleaving of goroutines and map iteration order; the tests run one schedule each", "anchors": ["test/internal/communication/channel.go:12-76", "test/internal/communication/handler.go:33-66", "test/internal/communication/local_constructors.go:27-54", "pkg/state/state.go:80-191"]}
{"id": "C73", "title": "A session driven as in example/main.go never starts", "statement": "MessageRoutine calls ProcessAll only after HandleMessage succeeded, and a new session refuses every message addressed to it.  So whatever the others send: a key generation driven by it never sends a message and never ends, its time-out crashes the process; a signing session never sends a message and can only end with a time-out.  If all parties are driven like this then nobody ever sends anything.  The program main starts; with messages of others only it never gets past its first wait, and it crashes when the two seconds are over.  Whatever the messages, its own included, it crashes after a session exactly if the session was aborted, and if it gets to its end crypto/ed25519 has accepted the signature.", "quantifier": "all setups, all incoming messages from others, all timings", "why_tests_cant": "the example is not run by any test; the claim is about all incoming messages", "anchors": ["example/main.go:20-48", "example/main.go:50-96", "pkg/state/state.go:80-127", "pkg/frost/keygen/base.go:61-82"]}
{"id": "C74", "title": "Honest parties that finish key generation agree if the broadcasts were consistent, and can be split if not", "statement": "Two parties that finish key generation without error, whatever all others did, hold the same party list, threshold, group key and public shares if every other party's KeyGen1 commitments, and each other's, reached them alike.  If moreover the commitments have the right length, the secrets of all of them are the values of one polynomial of degree at most t with the group key as image of its constant term.  The code does not ensure this: one dishonest participant that sends different commitments to two honest parties makes both finish without error with different group keys, although everybody else is honest.", "quantifier": "all pairs and sets of honest parties, all histories with arbitrary messages of the others, all coins", "why_tests_cant": "the tests have no dishonest participant; agreement is a claim about all histories", "anchors": ["pkg/frost/keygen/round1.go: ProcessMessage, ProcessRound", "pkg/frost/keygen/round2.go: GenerateMessages", "pkg/state/state.go:80-191"]}
{"id": "C75", "title": "Honest signers agree if the commitments were consistent, and can be made to blame each other if not", "statement": "Two signers that finish without error, for the same key, message and signers, have the same signature if the Sign1 commitments reached them alike, whatever the others did; also if they merely used the same nonce R.  Exactly when is an honest signer's share accepted by another honest signer is given by an equation between the binding factors and challenges of the two.  The code does not ensure that commitments are consistent: a dishonest signer that sends different commitments to two honest signers makes one of them abort blaming the other.", "quantifier": "all pairs of honest signers, all histories with arbitrary messages of the others", "why_tests_cant": "the tests have no dishonest participant", "anchors": ["pkg/frost/sign/round1.go: ProcessMessage, ProcessRound, GenerateMessages", "pkg/frost/sign/round2.go: ProcessMessage, GenerateMessages"]}
{"id": "C76", "title": "Sessions that may time out stay correct: nobody is blamed, and who finishes has the right result", "statement": "Honest parties run key generation or signing over a network that delivers messages in any order, any number of times or never, and any session may time out at any moment.  Then the only error any session ends with is its own time-out, which blames nobody; every session that ends without error has the right key share or the one valid signature; and no call crashes, except a time-out of a key generation session before its first ProcessAll.  The outcome is not atomic: one party can end with its share while another times out.", "quantifier": "all party sets, thresholds, coins, all schedules, losses, duplications and time-outs", "why_tests_cant": "time-outs racing with messages at every point of every schedule cannot be enumerated", "anchors": ["pkg/state/state.go:45-49", "pkg/state/state.go:80-191"]}
{"id": "C77", "title": "Key generation and signing over UDP are safe, can finish, depend on every packet, and accept forged packets", "statement": "Parties connected by the UDP communicator of test/, whose packets may be lost, duplicated and reordered and whose sessions may time out: every packet fits the receive buffer and decodes to the message sent; a time-out is the only error; who finishes without error has the right share or the one valid signature; there is an execution in which everybody finishes; a party finishes only if a packet of each round was sent to it by every other party (nothing is retransmitted by the code).  Sources are not checked: five bytes from anybody crash a party.", "quantifier": "all party sets, thresholds, coins, all schedules, losses, duplications, reorderings and time-outs", "why_tests_cant": "the tests run on the loopback interface, where packets are hardly ever lost, duplicated or forged", "anchors": ["test/internal/communication/udp.go:22-90", "test/internal/communication/handler.go:34-66", "test/internal/communication/local_constructors.go:10-25"]}
{"id": "C78", "title": "What the marshalling self-test of the messages establishes and what it does not", "statement": "CheckFROSTMarshaler succeeds exactly when one byte string is what the input marshals to, what BytesAppend(nil) gives, as long as Size() says, decodable by the output, and what the output marshals to afterwards. Every KeyGen2, Sign1, Sign2, Schnorr and Signature value passes and comes out unchanged; a header passes exactly if it is valid; commitments and KeyGen1 pass exactly with fewer than 65536 points; a Message passes exactly if its header is valid, its payload is present and fits (or the receiver already held the payload), and then Equal holds. The check itself never calls Equal and never appends to existing bytes: an encoding that loses all information passes, and so does a BytesAppend that drops its argument.", "quantifier": "all inputs, all receivers, all types implementing the interface", "why_tests_cant": "the tests call the check on one random value per type", "anchors": ["pkg/messages/marshalling.go:9-65", "pkg/messages/messages.go:29-154", "pkg/messages/keygen1.go:29-83"]}
{"id": "C79", "title": "The test program test/frosted.go: what its runs may return", "statement": "For 1 <= T < N <= 65494 parties, FROSTestChannel(N, T) returns nil whenever it returns, whatever the schedule and the coins (signers not drawing 0), and FROSTestUDP(N, T) returns nil, a time-out that blames nobody, between 1 and T+1 failed signers, or panics; it panics only if a timer runs out before the first ProcessAll of a key generation, and that can happen for all N and T. Both have runs that return nil; with three or more parties FROSTestChannel has runs that never return. For T = 0 or T >= N >= 1 both always return the threshold error and do not panic; for N = 0 both panic. main never prints \"failed to fail\", prints \"ok\" for its calls over channels, and crashes only in a call over UDP that should work; it has runs that print nothing but \"ok\".", "quantifier": "all N, T, coins, schedules, losses, duplications and time-outs, both kinds of communicators", "why_tests_cant": "the program is itself a test: it runs three sizes once, on one schedule each", "anchors": ["test/frosted.go:13-108", "test/frosted.go:116-180", "test/internal/communication/handler.go:34-100"]}
{"id": "C80", "title": "What t parties see of an honest party's key generation is no more than its public contribution", "statement": "For every set T of t parties without the party itself, whatever the others send, in whatever order and with whatever timing: the messages that T sees of an honest party (broadcasts and what is addressed to T), its errors, whether and how it ends and the public key it computes are exactly those of a stand-in that is given only the public key of the party's contribution, the nonce of its proof and one scalar per member of T. The broadcast commitments are a fixed linear function of these, and for every secret the t scalars are in bijection with the t random coefficients, so they are uniform whatever the secret.", "quantifier": "all party lists without 0, all thresholds, all sets T of t parties, all coins, all histories of messages, orders and time-outs", "why_tests_cant": "a statement about all executions and all coalitions, comparing the code with an ideal party", "anchors": ["pkg/frost/keygen/round0.go:15-40", "pkg/frost/keygen/round1.go:10-41", "pkg/frost/keygen/round2.go:13-44"]}
{"id": "C81", "title": "The JSON reader accepts exactly the grammar of RFC 8259", "statement": "The model of the reader of encoding/json accepts a byte string exactly if it is a text of the grammar of RFC 8259 nested at most 10000 deep, and returns the one value the grammar gives it; no text means two values; strings in UTF-8 without unpaired surrogates mean what section 7 says, with all escapes.", "quantifier": "all byte strings of any length, all nesting depths", "why_tests_cant": "infinitely many texts; the repository never tests JSON that it did not write", "anchors": ["pkg/eddsa/secret_share.go:72-84", "pkg/eddsa/public.go:80-100", "cmd/signer/signer.go:50-54"]}
{"id": "C82", "title": "Secret shares as JSON bytes: what is written, and exactly what is accepted", "statement": "MarshalJSON writes {\"id\":n,\"secret\":\"base64\"}. UnmarshalJSON accepts a byte string as the share sk exactly if it is a JSON object whose members named id (up to case) are integers of 64 bits or null and whose members named secret are base64 or arrays of bytes, the last of them being the 32 canonical bytes of the secret and the last ID congruent to the share's modulo 65536; no bytes make it panic; what was written is read back in every layout.", "quantifier": "all byte strings, all shares", "why_tests_cant": "the tests marshal and unmarshal a few random shares; acceptance of every other text is not tested", "anchors": ["pkg/eddsa/secret_share.go:59-84"]}
{"id": "C83", "title": "Public data as JSON bytes: what is written, and what is accepted", "statement": "MarshalJSON writes threshold, group key and shares in the order of the IDs as strings. If UnmarshalJSON accepts a byte string then it is a JSON object that says this data, the shares have non-zero IDs, and the group key is the value at 0 of the polynomial through all of them; every such text is accepted, whatever its layout and the order of map iteration; the result of NewPublic survives the round trip; malformed data is refused without a panic; the shares lie on a polynomial of the stated threshold.", "quantifier": "all byte strings, all data, all orders of iteration", "why_tests_cant": "the tests round-trip a few keys; neither hostile texts nor the exactness of acceptance are covered", "anchors": ["pkg/eddsa/public.go:65-100", "pkg/eddsa/public_key.go:43-51", "pkg/ristretto/ristretto.go:422-438"]}
{"id": "C84", "title": "keygenout.json: the bytes cmd/keygen writes are the bytes cmd/signer signs with", "statement": "The text of the file is determined; cmd/signer reads a file exactly as what it says, whatever its layout; with the bytes that cmd/keygen wrote (1 <= t < n <= 100), and with any other layout of a file for parties 1..n, it prints a signature that RFC 8032 accepts under the sum of the contributions; whatever bytes the file has, a signature that is printed verifies under the group key that the bytes say. A file without shares is refused without a crash.", "quantifier": "all file contents, arguments, messages, coins (signing nonces not zero), schedules of maps", "why_tests_cant": "the two programs are never run together by a test, and only on files they wrote", "anchors": ["cmd/keygen/keygen.go:121-143", "cmd/signer/signer.go:24-129"]}
{"id": "C85", "title": "It is safe to use the output when WaitForError returns nil", "statement": "Whichever goroutines call the methods of a State, by the Go memory model: what is read with the mutex held is what was last written; done and err are written at most once and nothing is written after done; the channel is closed once, after all writes; if WaitForError returns nil then no error was reported and the output that is read afterwards is the final one.", "quantifier": "all executions of any number of goroutines, of any length, that the Go memory model allows", "why_tests_cant": "a race shows only under some schedules and some compilers and processors; the tests call WaitForError from the goroutine that ended the protocol", "anchors": ["pkg/state/state.go:205-259", "pkg/state/state.go:45-49", "pkg/frost/frost.go:15", "pkg/frost/frost.go:32", "pkg/helpers/parties.go:44-49"]}
{"id": "C86", "title": "The integration tests pass for the code, and pass only if the protocols did what they should", "statement": "TestKeygen and TestSign, with any number of parties and threshold, pass whatever the coins and the orders of iteration. If TestKeygen passes then all parties finished without error with equal public data, and the secret shares are those of the public shares of a polynomial of degree at most the threshold, with the group key as its value at 0. If TestSign passes then every signer finished with one and the same signature, which verifies.", "quantifier": "all numbers of parties, thresholds, coins, messages and map orders; for the second half all implementations of the rounds", "why_tests_cant": "a test does not test itself: which wrong programs it lets through is a question about all programs", "anchors": ["test/keygen_test.go:16-145", "test/sign_test.go:17-101", "test/common.go:11-17"]}
{"id": "C87", "title": "Decoding into a receiver that already holds something", "statement": "What a decoding method returns, and on success what its receiver then holds, does not depend on what the receiver held before, and is what the pure decoders of the model say. If it returns an error the receiver is as it was.", "quantifier": "all byte strings and all previous values of the receiver, for every UnmarshalBinary, UnmarshalText and UnmarshalJSON of the repository", "why_tests_cant": "the tests decode into fresh values and throw them away on an error; the claim is about every pair of bytes and old value", "anchors": ["pkg/messages/header.go:31-68", "pkg/messages/messages.go:87-123", "pkg/messages/keygen1.go:49-65", "pkg/messages/keygen2.go:39-46", "pkg/messages/sign1.go:44-62", "pkg/messages/sign2.go:39-50", "pkg/internal/zk/schnorr.go:103-117", "pkg/internal/polynomial/exponent.go:184-221", "pkg/eddsa/signature.go:56-73", "pkg/eddsa/secret_share.go:41-84", "pkg/eddsa/public.go:80-100", "pkg/eddsa/public_key.go:48-51", "pkg/frost/party/id.go:81-93", "pkg/ristretto/ristretto.go:428-438"]}
{"id": "C88", "title": "Taking the communicators down", "statement": "When the communicators of a session are taken down, by destroyCommMap after the session has ended or after its constructor has failed, no goroutine panics, whatever the order of iteration and of the goroutines, and all channels and sockets are closed and all goroutines of the communicators and handlers end.", "quantifier": "all executions of key generation and signing over channels and over UDP that lead to the call, all orders in which the map of communicators is iterated, all interleavings of the goroutines while it is taken down", "why_tests_cant": "a test run takes one interleaving, and a panic in a goroutine that is slower than the test is not seen; over UDP the window is between two adjacent calls", "anchors": ["test/frosted.go:110-114", "test/internal/communication/channel.go:37-58", "test/internal/communication/channel.go:60-77", "test/internal/communication/udp.go:43-70", "test/internal/communication/udp.go:99-105", "test/internal/communication/handler.go:33-55", "test/internal/communication/local_constructors.go:10-38"]}
{"id": "C89", "title": "Which random choices make the unit tests pass", "statement": "The unit tests of the packages pass whatever they draw, with these exceptions: TestKeyGen2_MarshalBinary fails exactly when the low 16 bits of one of the two numbers it draws are zero, and TestShares_GroupKey and TestShares_MarshalJSON panic exactly when there are not more different IDs among those drawn than the threshold. The tests that go through a table pass exactly for the functions with the results of the table, and what a passing test does not exclude is shown by a wrong function that passes it.", "quantifier": "all random choices of the tests, all orders of map iteration, all SHA-512-like functions, all groups (the curve where crypto/ed25519 is involved); for the tests of a function alone, all functions", "why_tests_cant": "a run of a test takes one random choice; whether some other choice makes it fail, and which wrong programs pass it, are questions about all of them", "anchors": ["pkg/internal/zk/schnorr_test.go:12-21", "pkg/internal/polynomial/exponent_test.go:13-94", "pkg/internal/polynomial/polynomial_test.go:13-29", "pkg/internal/scalar/scalar_test.go:11-28", "pkg/frost/party/id_test.go:11-215", "pkg/messages/header_test.go:9-132", "pkg/messages/keygen1_test.go:14-30", "pkg/messages/keygen2_test.go:13-23", "pkg/messages/sign1_test.go:12-25", "pkg/messages/sign2_test.go:12-21", "pkg/eddsa/public_key_test.go:13-40", "pkg/eddsa/signature_test.go:13-47", "pkg/eddsa/secret_share_test.go:10-59", "pkg/eddsa/public_test.go:15-77", "pkg/ristretto/ristretto_test.go:215-289"]}
{"id": "C90", "title": "What a signer says in a session can be made up from public data", "statement": "Given a signature share z, a second nonce e and two hash values a and b, all freely chosen, the commitment D = [z]B - [rho][e]B - [c]Y (rho and c being a and b modulo the group order, Y the weighted public share) and the other messages of a session are computed from public data. With the hash function changed at two places, so that the binding factor of the signer and the challenge are a and b, the session of the real signer with the nonces z - rho e - c lambda x and e sends exactly these messages, or the first of them, whatever the others send in answer to the commitments and whatever the schedule. For fixed a, b and e, z and the first nonce determine each other. So in the random oracle model a session shows nothing about the secret share beyond the public share.", "quantifier": "all signer sets, keys, messages, secret shares, choices, answers of the others, schedules; the changed places must not be hashed otherwise", "why_tests_cant": "a statement about all executions and about what is not revealed", "anchors": ["pkg/frost/sign/round0.go:13-27", "pkg/frost/sign/round1.go:28-107"]}
{"id": "C91", "title": "The hash function with which the model is run is SHA-512", "statement": "The padding is the message, a bit 1, zeros and the length, a whole number of 128-byte blocks; the constants are the first 64 bits of the fractional parts of the cube roots of the first 80 primes and the square roots of the first 8; the function computed is SHA-512 of FIPS 180-4, written on bits and indexed words.", "quantifier": "all messages of every length", "why_tests_cant": "the domain is infinite, and a wrong padding for one residue of the length or a wrong use of one bit shows for some messages only", "anchors": ["pkg/frost/sign/round1.go:36-72", "pkg/eddsa/signature.go:38", "pkg/internal/zk/schnorr.go:80-88"]}
{"id": "C92", "title": "The secrets and nonces are drawn afresh and are as good as uniform", "statement": "Each secret, coefficient and nonce is made from 64 bytes of crypto/rand reduced modulo the group order; a key generation makes t + 2 such reads, a signer 2, GenerateSecrets t + 1, and no other step draws anything; a reader that fails stops the protocol with a panic before anything is sent. With a uniform reader each scalar comes from floor(2^512/q) or one more of the 2^512 strings, so that whatever is computed from n scalars has the same result as with uniform scalars up to a probability of n/2^259; honest signers succeed with probability at least 1 - 2n/2^252; and what t parties see of a key generation has, up to (t + 1)/2^259, the distribution of what a stand-in shows them that knows only the public key.", "quantifier": "all readers of bytes, all rounds, thresholds, signer sets, all strategies and schedules of the others, all tests on what they see", "why_tests_cant": "a distribution over 2^512 strings cannot be sampled, and readers that fail or give too little do not occur in tests", "anchors": ["pkg/internal/scalar/scalar.go:11-27", "pkg/internal/polynomial/polynomial.go:17-35", "pkg/frost/keygen/round0.go:15-40", "pkg/frost/sign/round0.go:13-27", "pkg/internal/zk/schnorr.go:38-53", "pkg/helpers/keys.go:11-22"]}
{"id": "C93", "title": "What a session stores is bounded, and a session in which somebody stays silent ends", "statement": "A session stores at most one message of each other party for the current round, and queues at most one message per other party and later round; with a timer that is served in time it therefore lasts for at most one time-out more than there are messages to come. Once the time-out has passed since the last accepted message and the callback of the timer has run, the session is over, whatever else happens before, between and after.", "quantifier": "all implementations of Round that keep their parties, all histories of calls, messages and time, all time-outs; keygen and sign sessions with all parameters", "why_tests_cant": "a test plays a few messages on one schedule; the bounds are about every history, and the flood needs unboundedly many messages spread over unbounded time", "anchors": ["pkg/state/state.go:80-127", "pkg/state/state.go:135-191", "pkg/state/state.go:265-292"]}
{"id": "C94", "title": "A session is not affected by what its caller later does with the slices it passed", "statement": "A signing session signs the message that it was given and with the signers it was given, and a key generation generates a key for the parties it was given, even if the caller writes to the memory of these slices while the session runs.", "quantifier": "all keygen and sign sessions with all parameters, all histories of calls, messages, time and writes of the caller, all values written", "why_tests_cant": "the tests never touch a slice after passing it; what a write changes depends on the moment between two calls at which it happens", "anchors": ["pkg/frost/sign/base.go:46-90", "pkg/state/base_round.go:15-23", "pkg/frost/sign/round1.go:28-107", "pkg/frost/sign/round2.go:33-53", "pkg/frost/keygen/base.go:45-68", "pkg/frost/keygen/round1.go:27-41", "pkg/frost/keygen/round2.go:31-44"]}
{"id": "C95", "title": "The programs print what they did, in the standard form", "statement": "cmd/keygen and cmd/signer say Success exactly when they did what they say; what cmd/signer prints as r and s is the signature in the form of RFC 8032 that it has just verified, and cmd/keygen says that the output is written only if it is.", "quantifier": "all arguments, files, randomness, orders of iteration, all signatures and all keys", "why_tests_cant": "the programs have no tests, and that the printed r is never the standard encoding is a statement on every point of the curve", "anchors": ["cmd/keygen/keygen.go:21-143", "cmd/signer/signer.go:19-129", "pkg/ristretto/ristretto.go:211-276", "pkg/ristretto/ristretto.go:448-464"]}
{"id": "C96", "title": "A signer's nonces are bound to its secret and message, so a repeating random source does not reveal its share", "statement": "Two sessions that sign different messages, or that belong to different secrets, use different nonces, whatever the source of random bytes gives; so the share of a signer stays hidden even if the source repeats itself, for instance after a virtual machine is restored from a snapshot.", "quantifier": "all keys, messages, sets of signers, histories of three sessions and all random sources", "why_tests_cant": "tests use a good source, in which a repetition never happens, and that a number of transcripts determines the share is an algebraic statement on all of them", "anchors": ["pkg/frost/sign/round0.go:13-27", "pkg/internal/scalar/scalar.go:11-21", "pkg/frost/sign/round1.go:28-107"]}
{"id": "C97", "title": "Messages are bound to the session in which they were sent", "statement": "A session accepts a message of another party only if that party sent it in the same session; so if nothing is forged and nobody cheats, no honest party is blamed, and a key generation completes only if all parties take part in it.", "quantifier": "all pairs of sessions, with any keys, messages and sets of parties, and all messages sent in one and delivered in the other", "why_tests_cant": "the tests run one session at a time over a network that delivers each message once; what a second session does with a recorded message is a statement on pairs of histories", "anchors": ["pkg/messages/header.go:12-24", "pkg/state/state.go:80-127", "pkg/frost/sign/round1.go:16-26", "pkg/frost/keygen/round1.go:10-25"]}
{"id": "C98", "title": "Strings hashed for different purposes are different", "statement": "SHA-512 is used for the digest of the message, for the binding factors, for the challenge and for the proofs of knowledge. A session hashes nothing else, and a string hashed for one purpose is never hashed for another, so that the values can be treated as those of independent functions.", "quantifier": "for all hash functions, signer sets, messages, keys, commitments and contexts", "why_tests_cant": "two strings of different formats coincide only for special digests and points; that this happens in exactly one way is a statement about all of them", "anchors": ["pkg/frost/sign/round1.go:14", "pkg/frost/sign/round1.go:36-74", "pkg/eddsa/signature.go:32-44", "pkg/internal/zk/schnorr.go:76-90"]}
{"id": "C99", "title": "Variable-time arithmetic is applied only to public values", "statement": "The two functions whose running time depends on their arguments, VarTimeDoubleScalarBaseMult and VarTimeMultiScalarMult, are called in a session only with arguments computed from broadcast messages, identifiers, the message to sign, the public key shares and the group key. No secret share, nonce, polynomial coefficient, or share dealt in key generation is passed to them.", "quantifier": "for all key generation and signing sessions, all messages received in any order, all random values and all steps, including sessions that fail", "why_tests_cant": "a call with a secret argument returns the same value as its constant-time counterpart, so no test of results can see it, and what reaches the calls depends on the whole history", "anchors": ["pkg/ristretto/ristretto.go:380-402", "pkg/frost/sign/round2.go:17-53", "pkg/frost/keygen/round1.go:10-25", "pkg/frost/keygen/round2.go:13-44", "pkg/internal/polynomial/exponent.go:60-82", "pkg/internal/zk/schnorr.go:59-69", "pkg/eddsa/public_key.go:22-31"]}
{"id": "C100", "title": "What honest signers say in all their sessions can be made up from public data", "statement": "For any number of signing sessions, at the same time or one after the other, with any number of honest signers in each: given signature shares, second nonces and hash values, all freely chosen, the commitments D = [z]B - [rho][e]B - [c]Y of the honest signers are computed from public data. With the hash function changed at one place for each honest signer of a session and at one more for each session, every honest signer whose nonces are z - rho e - c lambda x and e sends exactly these messages, or the first of them, whatever the others send and whatever the schedule. The places are different and not hashed for anything else if the sessions differ in commitments and nonces, no message has the form of a string hashed for another purpose and no digest contains the key; each commitment and each binding factor can be chosen in at most n ways such that the strings are among n given ones. Who makes the messages up has to know the commitments of all signers of a session before the hash values at its places are asked for.", "quantifier": "all numbers of sessions, signer sets, honest subsets, keys, messages, choices, answers of the others, schedules", "why_tests_cant": "a statement about all executions of any number of sessions and about what is not revealed", "anchors": ["pkg/frost/sign/round0.go:13-27", "pkg/frost/sign/round1.go:28-107"]}
{"id": "C101", "title": "Who forges signatures for a key can compute its secret", "statement": "With the hash function as a random oracle: an algorithm that asks n hash values, may toss coins and says a signature that verifies for the public key A with probability eps gives, run twice with the same coins and with new answers from the question on that the verifier asks, the secret a of A = [a]B with probability at least eps^2/(n+1) - eps/2^252. So if the secret is found with probability at most p, signatures are forged with probability at most sqrt((n+1)p) + (n+1)/2^252. The same holds for t parties who are given their shares of the secret and the commitments to the polynomial: random scalars take the place of the shares. The algorithm does not see sessions of honest signers.", "quantifier": "all algorithms, coin spaces, numbers of questions, public keys, hash functions outside the questions asked, thresholds and coalitions", "why_tests_cant": "a statement about all algorithms and a probability over all hash functions", "anchors": ["pkg/eddsa/public_key.go:22-31", "pkg/eddsa/signature.go:32-44", "pkg/internal/polynomial/polynomial.go:17-37"]}
{"id": "C102", "title": "Who forges a signature after concurrent sessions with honest signers solves one-more discrete logarithm", "statement": "With the hash function as a random oracle and a dealer who shared the key: t parties are told their shares, the commitments to the polynomial and the nonce commitments of K sessions of honest signers. They may open these sessions in any order and at the same time, choose signers, messages and the commitments of all others after having seen everything so far, and ask for hash values in between. If with probability eps they say a signature that verifies under the group key for a message that no honest signer has signed, then an algorithm that is given only the 2K+1 points (group key and commitments) and asks for exactly 2K discrete logarithms finds the logarithms of all 2K+1 points with probability at least eps^2/N - N^2/2^250, where N is the number of strings hashed. So if this has probability at most p, forgeries have probability at most sqrt(N p + N^3/2^250). The same holds for parties who contribute to the key after having seen the contribution of the others, provided they reveal the coefficients of their contribution. A signing session of the code sends nothing but what the honest signer of this game answers: its commitments, and then at most one share, for one request that contains its own commitments.", "quantifier": "all adaptive algorithms, coin spaces, numbers of sessions, thresholds, coalitions, requests; all call histories of a signing session", "why_tests_cant": "a statement about all adaptive algorithms with concurrent sessions and a probability over all hash functions", "anchors": ["pkg/frost/sign/round0.go:13-27", "pkg/frost/sign/round1.go:28-107", "pkg/eddsa/public_key.go:22-31"]}
{"id": "C103", "title": "Appending a message to a byte slice touches only what lies behind the end of the slice", "statement": "For slices in memory, as windows into arrays that others may share: BytesAppend of a header, a payload or a message returns a slice with the old elements followed by the wire bytes, whatever capacities the runtime chooses. It stays in the same array, with nothing allocated, if the capacity suffices, and otherwise moves to a new one. Of the memory that was there before only cells behind the end of the slice, within its capacity and at most as many as there are wire bytes, can change; every slice that does not reach there, in particular the argument, keeps its elements. On an error at most the five bytes of the header were written there. Two messages appended to the same slice with room end up in the same cells.", "quantifier": "all memories, slices, growth strategies, messages", "why_tests_cant": "the sharing of arrays depends on capacities chosen by the runtime", "anchors": ["pkg/messages/messages.go:29-55", "pkg/messages/header.go:70-90", "pkg/messages/keygen1.go:29-40", "pkg/internal/polynomial/exponent.go:215-221", "pkg/eddsa/signature.go:75-79"]}
{"id": "C104", "title": "Marshalling allocates once, exactly the size of the result, and shares nothing", "statement": "MarshalBinary of messages, headers, payloads, proofs, exponents, signatures and secret shares, and ToEd25519, return a slice of a new array whose capacity is exactly the length of the wire bytes: the size computed beforehand is never too small or too large, one allocation happens, and no memory that was there before is written. ComputeChallenge hashes the bytes its message slice has when it is called, and writes no memory that was there before.", "quantifier": "all memories, growth strategies, values", "why_tests_cant": "a size that is too small only shows as an extra allocation", "anchors": ["pkg/messages/messages.go:57-84", "pkg/messages/header.go:26-29", "pkg/messages/keygen1.go:43-46", "pkg/internal/polynomial/exponent.go:179-182", "pkg/eddsa/signature.go:24-54", "pkg/eddsa/secret_share.go:34-39"]}
{"id": "C105", "title": "NewIDSlice and Copy do not share memory with their argument", "statement": "Copy returns a slice of a new array with the same IDs. NewIDSlice returns the IDs in ascending order in a new array; sorting happens there, and the list of the caller, and everything else that was in memory, stays as it was.", "quantifier": "all memories and lists of IDs", "why_tests_cant": "a statement about all slices that share an array with the argument", "anchors": ["pkg/frost/party/idslice.go:10-15", "pkg/frost/party/idslice.go:55-61"]}
{"id": "C106", "title": "The buffer for the binding factors holds the right bytes at each hash, whatever its capacity", "statement": "computeRhos in memory, where the buffer is filled by appending and then gets the ID of one signer after the other written into it, gives the same binding factors as hashing each string separately, whatever the first capacity and the growth, and writes no memory that was there before. For at most 992 signers the first capacity is exactly the number of bytes needed. For more it is smaller, since it is computed in 16 bits; the buffer then has to grow.", "quantifier": "all rounds, hash functions, growth strategies, numbers of signers", "why_tests_cant": "sessions with a thousand signers are not tested, and a wrong byte in the buffer would show only as an invalid signature", "anchors": ["pkg/frost/sign/round1.go:28-75"]}
{"id": "C107", "title": "Filtering the queue in its own array loses and duplicates no message", "statement": "ProcessAll filters the queue into a slice of the same array while it reads it. No message is read after it was overwritten: the messages of the new type are taken out, and the others stay in their order, exactly as if the list was filtered; no allocation happens, and only cells of the new queue are written. Putting a message into the queue keeps the others. The cells behind the end of the new queue keep the old messages.", "quantifier": "all memories, queues, types, growth strategies", "why_tests_cant": "depends on the order of reads and writes in a shared array", "anchors": ["pkg/state/state.go:123", "pkg/state/state.go:167-179"]}
{"id": "C108", "title": "A duplicate in the list of participants blocks the session and does nothing worse", "statement": "The constructors accept lists with duplicates. A session with such a list (of at most 65536 entries) never leaves round 0, refuses every message for it, sends nothing and outputs nothing; only a timeout ends it, and in key generation that crashes. So success implies a list without duplicates, and output appears exactly on success, verifying in the case of signing, for all lists of at most 65536 entries. With longer lists the 16-bit count wraps, and a session with duplicates starts exactly when the number of superfluous entries is a multiple of 65536.", "quantifier": "all lists of participants, histories and messages", "why_tests_cant": "all lists with duplicates and all histories; lists of more than 65536 entries", "anchors": ["pkg/state/state.go:35-58", "pkg/state/state.go:135-146", "pkg/frost/party/idslice.go:11-15", "pkg/frost/frost.go:16-41"]}
{"id": "C109", "title": "Errors say what happened and can be recognised", "statement": "The text of the error of an aborted session names culprit, round and cause, and different errors read differently. The error of HandleMessage says why the message was refused. The decoders of payloads return errors that errors.Is recognises as ErrInvalidMessage exactly if the length is wrong. PartyRoutine's errors say which step failed. A caller can recognise the exported errors (messages.ErrInvalidMessage, sign.ErrValidateSigShare, sign.ErrValidateSignature) in what Message.UnmarshalBinary, PartyRoutine and an aborted session return.", "quantifier": "all histories, messages, byte strings and states", "why_tests_cant": "all byte strings and histories; the tests do not look at errors beyond nil", "anchors": ["pkg/state/error.go:11-28", "pkg/state/state.go:60-65", "pkg/messages/messages.go:16", "pkg/eddsa/signature.go:13", "pkg/frost/sign/round2.go:12-15", "pkg/helpers/parties.go:24-51"]}
{"id": "C110", "title": "PartyRoutine stays faithful while the timer and other goroutines work with the same session", "statement": "Whatever interleaves with calls of PartyRoutine on one session (other calls of it, other calls of the session's methods, the timer), the session sees one sequence of events. A call that returns nil has handed over all its inputs and none was refused, returns the encodings of exactly the messages its call of ProcessAll returned, and the session had not ended at a moment after that or has ended without an error. A call that returns an error names the first input that cannot be decoded or was refused, or the error with which the session has ended for good. No call ever blocks. No message is lost unless the session fails: when all calls have returned, every message the session sent is in the result of one. Undisturbed, a call is the sequential PartyRoutine.", "quantifier": "all sets of concurrent calls, inputs, interleavings with any events of the session, protocols, map orders and coins", "why_tests_cant": "the claim is about every interleaving of any number of goroutines and timer events; tests run one goroutine per session and see one schedule", "anchors": ["pkg/helpers/parties.go:24-51", "pkg/state/state.go:45-49", "pkg/state/state.go:136-190", "pkg/state/state.go:249-259"]}
{"id": "C111", "title": "SetUniformBytes spreads uniform bytes over the group", "statement": "SetUniformBytes sets e to a uniformly distributed value given 64 uniformly distributed random bytes (the comment in the code). In particular no element is much more likely than others, two independent results are equal with negligible probability, and mapToPoint takes few field elements to one group element.", "quantifier": "all group elements, all field elements, uniform choice among all 2^512 strings", "why_tests_cant": "the claim counts preimages among 2^512 strings and 2^255-19 field elements; tests evaluate a handful of vectors", "anchors": ["pkg/ristretto/ristretto.go:122-143", "pkg/ristretto/ristretto.go:146-208"]}
{"id": "C112", "title": "Every fair run of honest parties finishes", "statement": "If every party calls ProcessAll again and again, and every message that was returned for a party is handed over to it, again and again as long as HandleMessage refuses it, and no time-out strikes, then key generation and signing among honest parties finish: from some moment on every party is done, has no error and holds its result (shares of one joint polynomial, respectively one and the same valid signature).", "quantifier": "all numbers of parties and thresholds, all coins, all infinite executions with any interleaving, reordering and duplication of messages", "why_tests_cant": "the claim is about infinite executions and all schedulers; tests run one schedule and stop", "anchors": ["pkg/state/state.go:80-127", "pkg/state/state.go:129-191"]}
{"id": "C113", "title": "Prompt callers and networks never cause a time-out", "statement": "Let the sessions of a key generation or a signing session of honest parties begin at any times, the last one at σ, let every party that has not finished call ProcessAll at least every δ, and let every message be accepted or handed over (again) within δ. If every timeout is off, or is longer than 3δ and long enough that it would end later than σ + 2δ had it been started with the session, then no session ever times out, none fails, and after σ + 5δ every party has finished with the right result. With a timeout of 3δ or less it can time out even if all begin at once.", "quantifier": "all numbers of parties and thresholds, all coins, timeouts and δ, all infinite executions in time, with any interleaving, reordering and duplication of messages, timers firing and their callbacks running at any moment they may", "why_tests_cant": "the claim is about all schedulers and all clocks; tests run one schedule on one clock", "anchors": ["pkg/state/state.go:35-58", "pkg/state/state.go:80-127", "pkg/state/state.go:129-191", "pkg/state/state.go:265-292"]}
{"id": "C114", "title": "PartyRoutine sends the messages that ProcessAll made", "statement": "A call of PartyRoutine in a key generation encodes its messages without the mutex, and the first message shares memory with the session. Whatever other goroutines and the timer do with the session meanwhile: if the call returns messages, their bytes are the encodings of the messages with the content they had when ProcessAll returned them; if it returns the error of the session, the session has ended with that error.", "quantifier": "all sessions of key generation in any state, all coins and map orders, all interleavings of the steps of the call, down to the reading of single commitments, with calls of HandleMessage and ProcessAll by others, the timer, and the overwriting of the commitments when the session ends", "why_tests_cant": "the window between ProcessAll and MarshalBinary is a few instructions wide and no test runs two goroutines on one session", "anchors": ["pkg/helpers/parties.go:35-50", "pkg/frost/keygen/round0.go:38", "pkg/frost/keygen/round1.go:23", "pkg/frost/keygen/base.go:70-78", "pkg/state/state.go:205-227"]}
{"id": "C115", "title": "The timer may go off while a session is being created", "statement": "NewBaseState starts the timer and goes on working on the State. Whatever the timer does meanwhile, and whether or not its callback already finds the timer in the State, the session that is returned is exactly one created at a single moment and then affected by its timer only, and what happens to it afterwards is a history of such a session. The program crashes while the session is created only if Reset panics in the callback, as it would then later; in signing this never happens, in key generation it happens whenever the time is up before the first ProcessAll.", "quantifier": "all protocols whose Reset keeps the identities (both do), all rounds, timeouts and times, all interleavings of the steps of the constructor with the passing of time, the timer firing and its callback", "why_tests_cant": "the window is a few hundred instructions after the timer is started, and the tests use timeouts of seconds", "anchors": ["pkg/state/state.go:35-58", "pkg/state/state.go:205-227", "pkg/state/state.go:265-292", "pkg/frost/frost.go:16-41", "pkg/frost/keygen/base.go:70-78", "pkg/frost/sign/base.go:92-109"]}
{"id": "C116", "title": "Sessions are handed pointers to messages and erase the shares in them", "statement": "HandleMessage stores the pointer it is given and round 2 of the key generation sets the share in the caller's message to 0. Nevertheless a session handed pointers goes exactly as one handed the messages: same results of every call, same errors, same output. No message changes while the session runs; when a key generation ends nothing but the shares in messages that it accepted has changed, to 0; signing changes no message. After a key generation that has ended no share received in it is left in memory.", "quantifier": "all rounds, timeouts, memories with any aliasing among the pointers, all histories of calls and timer events, all orders of the loop over the map", "why_tests_cant": "tests do not hand the same message over twice, do not look at messages after they were processed and do not abort sessions in the last round", "anchors": ["pkg/frost/keygen/round2.go:13-29", "pkg/state/state.go:17-33", "pkg/state/state.go:80-127", "pkg/state/state.go:135-191", "pkg/messages/messages.go:8-14"]}
{"id": "C117", "title": "Message objects may be shared and written to under known conditions", "statement": "PartyRoutine decodes every message into an object of its own, so a program that only uses PartyRoutine cannot tell that sessions keep pointers. A program that handles messages itself may write into any object that no running session keeps, and may hand the same objects to sessions of different parties: every session goes as one handed the values that the messages had at the time of each call. Both conditions are needed: decoding all messages into one object, or handing one object to two sessions of the same party, makes a key generation blame an honest party.", "quantifier": "all rounds, timeouts, memories, sequences of calls, writes and timer events, numbers of sessions, orders of the loop over the map, byte strings", "why_tests_cant": "tests give every session its own decoded copy of each message", "anchors": ["pkg/helpers/parties.go:24-51", "pkg/state/state.go:80-127", "pkg/state/state.go:135-191", "pkg/frost/keygen/round2.go:26", "pkg/messages/header.go:31-68", "pkg/messages/messages.go:87-123"]}
{"id": "C118", "title": "Exactly when a session crashes", "statement": "A session over duplicate-free non-zero IDs crashes in ProcessAll exactly when it is running, holds the messages of all others and one of them is unusable: it lacks the payload of its type, or is a KeyGen1 message without commitments. With such a message some iteration order of the map crashes the party whatever else was received and drawn, and no order lets the session go on. The only other crash is the timer going off in a key generation session before its first ProcessAll; signing has none. A session to which no unusable message was handed never crashes in ProcessAll. A message decoded into a new object is unusable exactly when its bytes are not the encoding of a message with a payload.", "quantifier": "all groups, hashes, sets of parties, thresholds, keys, messages, histories of calls and timer events, iteration orders, coins, byte strings", "why_tests_cant": "tests hand over well-formed messages; absence of crashes for every other history cannot be tested, and the crash depends on the iteration order of a map", "anchors": ["pkg/state/state.go:135-191", "pkg/frost/keygen/round1.go:10-45", "pkg/frost/keygen/round2.go:13-48", "pkg/frost/sign/round1.go:16-107", "pkg/frost/sign/round2.go:17-53", "pkg/frost/keygen/base.go:70-78", "pkg/messages/messages.go:87-123"]}
{"id": "C119", "title": "Recovering from a panic of ProcessAll", "statement": "A caller that recovers from a panic of ProcessAll and goes on with the session, which the deferred Unlock allows, gets nothing out of it: from the first panic on the session stays in its round, hands out no message, has no output, and if it ends then with an error. What the session returns, reports and stores is as if the calls that panicked had not been made; in particular a signing session never sends a second signature share.", "quantifier": "all groups, hashes, sets of parties, thresholds, keys, messages, iteration orders of the map, histories of calls, panics that are recovered from, and timer events", "why_tests_cant": "no test lets ProcessAll panic and continues; what the interrupted loop leaves behind depends on the iteration order of the map, and the claim is about every later call", "anchors": ["pkg/state/state.go:135-180", "pkg/frost/keygen/round1.go:10-25", "pkg/frost/keygen/round2.go:13-29", "pkg/frost/sign/round1.go:16-26", "pkg/frost/sign/round2.go:17-31"]}
{"id": "C120", "title": "A participant list that contains the ID 0", "statement": "NewKeygenState accepts a list of participants that contains the ID 0; NewSignState refuses it. Such a key generation fails safely as far as secrets go: it never succeeds, has no output, sends at most the broadcast of its first round and never a share. The party that is 0 itself never gets past round 0: every ProcessAll crashes it, and so does its timer. Any other party, after its broadcast, is not taken further by any ProcessAll: it does nothing, crashes, or ends the session with an error. If everything handed to it was decoded from bytes, it does not crash and can end only by its timer, because no message from 0 can be decoded.", "quantifier": "all groups, hashes, duplicate-free lists of parties with 0, thresholds, parties, histories of calls and timer events, iteration orders, coins", "why_tests_cant": "no test uses the ID 0; that nothing is sent and no session succeeds is a claim about every history", "anchors": ["pkg/frost/keygen/base.go:45-68", "pkg/frost/sign/base.go:67-72", "pkg/internal/polynomial/polynomial.go:39-51", "pkg/frost/keygen/round0.go:15-40", "pkg/frost/keygen/round1.go:27-41", "pkg/messages/header.go:36-67"]}
{"id": "C121", "title": "A participant list that is not sorted", "statement": "Contains, which searches a list as if it were sorted, finds every entry of a duplicate-free list exactly when the list is sorted. The constructors do not check the order and accept many unsorted lists. A session with an unsorted duplicate-free list is blocked and nothing worse: it sends at most the broadcast of its first round, never a share or signature share, has no output, is not crashed by any message, and ends only by its timer. So, together with C108 and C120: whatever list a session was given, if it succeeds or sends anything after its first broadcast, the list is sorted, without duplicates and without 0.", "quantifier": "all groups, hashes, lists of at most 65536 IDs, thresholds, keys, messages, histories of calls and timer events, iteration orders, coins", "why_tests_cant": "tests build their lists with NewIDSlice; which entries a binary search misses depends on the whole list, and the claim is about every history", "anchors": ["pkg/frost/party/idslice.go:10-25", "pkg/state/state.go:80-127", "pkg/state/base_round.go:15-23", "pkg/frost/keygen/base.go:45-68", "pkg/frost/sign/base.go:46-57"]}
{"id": "C122", "title": "Parties of one key generation that were configured differently", "statement": "If honest parties of one key generation are started with different thresholds or participant lists, they notice it. Refuted: the messages carry neither, and the error of adding commitments of another length is dropped. Parties with any thresholds, and any lists such that each is in the list of those in its own, all finish without an error. Each gets as its secret the sum of the values of all polynomials in its list, but as its public key the sum of the commitments of those with the same threshold only. What does hold: a party that finishes is in the list of every honest party of its own list, and Public.Equal of two results is false if their lists or thresholds were different, so comparing the results shows it.", "quantifier": "all groups, hashes, families of lists and thresholds, coins, histories of all parties in which messages between honest parties are not altered", "why_tests_cant": "tests start all parties with the same list and threshold; the claim is about every combination of configurations and every schedule", "anchors": ["pkg/frost/keygen/round1.go:20-24", "pkg/frost/keygen/round2.go:13-29", "pkg/frost/keygen/round2.go:31-44", "pkg/internal/polynomial/exponent.go:119-131", "pkg/eddsa/public.go:102-128"]}
{"id": "C123", "title": "Signers of one session that were configured differently", "statement": "A signer that fails blames a signer that deviated. Refuted for honest signers that were asked to sign different messages (or given different signer lists or keys): the messages of the protocol carry none of this, both send shares, and each blames the other. Exactly when one accepts the other's share is given by an equation between binding factors, challenges and weights as the two see them. So a signer that finishes without error has from every honest signer of its list a share, and these equations hold: what honest signers signed is the same up to a coincidence of hash values, which for different messages happens for at most 2^512/q + 1 of the 2^512 values of the hash that is the challenge.", "quantifier": "all groups, hashes, messages, signer lists, keys, histories in which messages between the two signers are not altered", "why_tests_cant": "tests give all signers the same message; the condition is over all hash functions and schedules", "anchors": ["pkg/frost/sign/round0.go", "pkg/frost/sign/round1.go:13-111", "pkg/frost/sign/round2.go:13-57", "pkg/messages/sign1.go", "pkg/messages/sign2.go"]}
{"id": "C124", "title": "Two checks after key generation make up for the missing ones", "statement": "Suppose honest parties have finished key generation without an error, whatever lists and thresholds they were given, whatever the others sent and whatever happened to the messages. If their Public values are pairwise Equal and each finds its own SecretShare.Public under its ID in Public.Shares, then they hold the values of one polynomial of degree at most the threshold whose constant term belongs to the group key, they had the same list and threshold, and any of them that are more than the threshold can sign: their sessions can be started and C43 applies. Both checks are needed: without Equal see C122; a signer whose own share does not fit is blamed by all honest signers with the same commitments unless the challenge is 0.", "quantifier": "all groups, hashes, sets of honest parties, configurations, histories with arbitrary messages, signer lists, messages to sign", "why_tests_cant": "the code performs no such check and no test has differing or dishonest parties; the claim is about every behaviour of the others", "anchors": ["pkg/eddsa/public.go:102-128", "pkg/eddsa/secret_share.go:10-32", "pkg/frost/keygen/round1.go:20-24", "pkg/frost/keygen/round2.go:31-44", "pkg/frost/sign/base.go:46-90", "pkg/frost/sign/round2.go:13-31"]}
{"id": "C125", "title": "The group key is as random as one honest contribution, whoever speaks last", "statement": "The group key that the honest parties end up with has any given property with the probability with which a random group element has it, also if one participant chooses its contribution after it has seen the broadcasts of the others. (For a contribution drawn independently of the others this is so; for the last to speak it is not: it can run the code as it is, with random values that depend on what it has seen, everybody finishes without error, and with m+1 tries the probability p of a property becomes 1-(1-p)^(m+1).)", "quantifier": "all groups, hashes, participant lists, thresholds, positions of the last party, random values of the others, properties of keys, numbers of tries", "why_tests_cant": "a statement about probabilities over all random values, and about a participant that no test contains", "anchors": ["pkg/frost/keygen/round0.go:15-40", "pkg/frost/keygen/round1.go:13-26", "pkg/frost/keygen/round2.go:31-44", "pkg/internal/zk/schnorr.go:27-53"]}
{"id": "C126", "title": "Key generation ends alike for all honest parties", "statement": "If one honest party finishes a key generation without error, all honest parties do, given that all messages arrive. (Refuted: a participant that sends consistent broadcasts and wrong shares to a set V of its choice makes exactly the parties of V end with an error that blames it; all others finish without error, hold a key for all participants and cannot tell.)", "quantifier": "all groups, hashes, sorted participant lists without 0, thresholds, cheaters, sets V, random values of all parties", "why_tests_cant": "the tests have no dishonest participant, and the claim is about every set of victims", "anchors": ["pkg/frost/keygen/round2.go:13-44", "pkg/state/state.go:135-191", "pkg/state/state.go:204-226"]}
{"id": "C127", "title": "The error of a constructor names the argument at fault", "statement": "NewKeygenState, NewSignState, NewPublic and Public.UnmarshalJSON return the errors whose texts say what is wrong with the arguments, each exactly in the case it describes, and no others. (Holds for the sessions with sorted lists; of the six errors that sign.NewRound can write three never occur. Refuted for NewPublic: its text demands a threshold < N - 1, while N - 1 is accepted.)", "quantifier": "all groups, IDs, lists, thresholds, shares, keys and messages", "why_tests_cant": "the tests look at whether there is an error, not at which one, and only for a few arguments", "anchors": ["pkg/frost/keygen/base.go:45-68", "pkg/frost/sign/base.go:46-90", "pkg/state/base_round.go:15-23", "pkg/eddsa/public.go:28-50", "pkg/eddsa/public.go:80-100", "pkg/frost/party/id.go:113-154"]}
{"id": "C128", "title": "Signing ends alike for all honest signers", "statement": "If one signer gets the signature, all signers who follow the protocol get it, given that all messages arrive. (Refuted: the last signer to send its share knows the shares of all others, so it has the signature before it speaks; by sending a wrong share to a set V of its choice it makes exactly the signers of V end with an error that blames it and without a signature, while the others get the signature.)", "quantifier": "all groups, hashes, sorted signer lists, thresholds, keys, messages, non-zero nonces, cheaters, sets V and wrong shares", "why_tests_cant": "the tests have no dishonest signer, and the claim is about every set of victims and every wrong share", "anchors": ["pkg/frost/sign/round1.go:13-91", "pkg/frost/sign/round2.go:17-53", "pkg/state/state.go:135-191", "pkg/state/state.go:204-226"]}
{"id": "C129", "title": "A KeyGen1 without its parts is treated like a message without payload", "statement": "A message of type KeyGen1 whose payload has a nil Proof or nil Commitments behaves like one whose payload is nil: in a session, in Size, MarshalBinary and Equal. (Holds for the session, which crashes on both. Refuted for the methods: without payload Size gives 5, MarshalBinary an error and Equal false; without commitments all three panic, without a proof MarshalBinary and Equal do. Exactly when they panic is proved, and that all other messages behave as in the model without nil pointers.)", "quantifier": "all groups, hashes, rounds, headers and payloads with and without nil pointers", "why_tests_cant": "the tests only build complete messages; the claim is about all combinations of missing parts, headers and types", "anchors": ["pkg/messages/keygen1.go:11-83", "pkg/messages/messages.go:29-154", "pkg/frost/keygen/round1.go:10-25", "pkg/internal/zk/schnorr.go:59-69", "pkg/internal/zk/schnorr.go:119-141", "pkg/internal/polynomial/exponent.go:114-117", "pkg/internal/polynomial/exponent.go:158-161", "pkg/internal/polynomial/exponent.go:215-242"]}
{"id": "C130", "title": "How many bytes a session sends", "statement": "Whatever it receives and however long it runs, a party of a key generation with n distinct parties and threshold t sends nothing, or one broadcast of 103 + 32t bytes, or in addition 37 bytes to each of the n - 1 others; a signer sends nothing, 69 or 106 bytes, independently of the message and the number of signers. The amount is determined by the round the session has reached, also after it has ended.", "quantifier": "all groups, hashes, party lists, thresholds, key material, messages, and all histories of calls of a session", "why_tests_cant": "the tests look at complete honest runs; the bound is about all sequences of calls and inputs, including hostile ones, and all sizes", "anchors": ["pkg/frost/keygen/round0.go:15-40", "pkg/frost/keygen/round1.go:27-41", "pkg/frost/sign/round0.go:13-27", "pkg/frost/sign/round1.go:77-107", "pkg/messages/messages.go:29-84", "pkg/state/state.go:135-191"]}
