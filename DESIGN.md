# Formal model of taurusgroup/frost-ed25519 in Lean 4

## 1. What is here

* `properties.jsonl` - the properties.
* `lean/Verif/Model/*.lean` - the model: executable definitions, each citing file and lines of `/repo`.
* `lean/Verif/Spec/*.lean` - small independent specifications used in statements.
* `lean/Verif/Lemmas/*.lean` - helper lemmas.
* `lean/Verif/Props/*.lean` - the property theorems, with a non-vacuity `example`/theorem beside each.
* `lean/Verif/Cases/*.lean` - the theorems that have hypotheses, applied to concrete sessions, messages and inputs: one `example` per theorem
  that has no such example in its own file.
* `lean/Verif/Vectors/*.lean` - published test vectors (RFC 8032, and those of `pkg/ristretto/ristretto_test.go`) evaluated by the kernel on the model.  They are
  tests of the model against the outside world, and not counted as proofs of any property.
* `lean/Verif/Curve/*.lean` - edwards25519 and ristretto255 over `ZMod (2^255-19)`.
* `tools/` - scripts: `manifest.py` makes `MANIFEST.json` from `tools/status.json` and the theorem names, `seed.py` runs the seeded-bug
  experiments.
* `MANIFEST.json` - property -> theorem names and status.
* `seeded/LOG.jsonl` - log of seeded-bug experiments (model edited in a scratch copy).

## 2. Modelling decisions

* **Go results** - `Outcome ε α = ok a | err e | panic`. A run-time panic (nil dereference, index out of range,
  explicit `panic`) is an explicit result, so "never panics" is a statement, not an omission.
* **Integers** - `party.ID`/`party.Size` are `UInt16` with wrap-around; message types are `UInt8`; bytes are `UInt8`;
  `int` is `Nat`/`Int` (64-bit `int` overflow is not modelled; lengths stay far below 2^63).
* **Scalars** - `filippo.io/edwards25519.Scalar` is modelled as `ZMod q` (always reduced, the library's invariant), with
  `SetCanonicalBytes`, `SetUniformBytes`, `Bytes` defined on bytes.  The dependency is not in `/repo`; its contract is in the
  trusted base: failing setters leave the receiver unchanged, `Invert(0) = 0`.
* **Group elements** - protocol code is modelled over any type `G` with a class `RGroup G` that lists what
  `pkg/ristretto` provides (a `ZMod q`-module generated by `B`, canonical 32-byte encoding and decoding, the ed25519 encoding).
  The laws in that class are *proved* for the concrete ristretto255 model in `Verif/Curve`, which gives an instance, so that no law
  is assumed.  A second toy instance (`G = ZMod q`) is used for quick non-vacuity examples.
* **SHA-512** - an arbitrary function from byte strings to 64 bytes. Every theorem holds for each such function; no collision
  resistance or random-oracle property is assumed.  `Model/Sha512` has the function itself (FIPS 180-4), used only for the test vectors.
* **Randomness** - each sampled scalar is a universally quantified input ("coins").  `Model/Random` has the same functions with the reader of
  `crypto/rand` instead, which may fail or give too little; C92 connects the two, and turns statements about all coins into probabilities.
* **Maps** - association lists without duplicate keys; each iteration over a Go map takes an arbitrary permutation chosen by
  the environment, over which theorems quantify.
* **Pointers** - the State/Round objects are values threaded through functions.  The place where sharing is visible in what is sent
  (the KeyGen1 message aliases `CommitmentsSum`) gets a separate heap model (C63).  The slices that a caller passes to a session and may write to later
  are treated by a separate kind of history (`Model/Alias`, C94); elsewhere the caller leaves them alone.  That slices
  are taken as lists elsewhere is justified by `Model/Slice` (C103-C107), where the functions that append to slices, copy them or write into them work on
  arrays in memory that others may share.
* **Concurrency** - `HandleMessage`, `ProcessAll` and the timer callback take the State's mutex, so a history is a sequence of these
  atomic operations.  The unsynchronised reads in `WaitForError`/`IsFinished`/`Err` are treated by the Go memory model (`Spec/GoMem`, `Model/Race`, C85),
  which also justifies that the operations are taken as atomic; elsewhere these methods are taken to be called after `Done()` or by the goroutine that
  makes the other calls.
* **Time** - an explicit clock and deadline; a timer that fired but whose callback still waits for the mutex is an explicit state.
* **encoding/json** - in two layers.  `Model/Eddsa` and `Model/Cmd` model `MarshalJSON`/`UnmarshalJSON` from/to the Go struct handed to
  `json.Marshal`/`json.Unmarshal` (C53, C55, C70, C71).  `Model/Json` and `Model/JsonText` model the bytes: the library's reader (scanner, strings,
  nesting limit), the decoding into the structs, maps and pointers that `/repo` uses, and `Marshal`/`MarshalIndent` of them (C81-C84).  That these follow
  `encoding/json` is part of the trusted base.  base64 text (`Element.MarshalText`) is modelled on bytes.
* **Networks** - `Spec/Net.lean`: sessions of several parties and the set of messages sent so far.  A step is a call of
  `HandleMessage` on *any* message sent so far (so messages may be reordered, duplicated, lost) or of `ProcessAll` with any map order.
  Theorems about honest runs hold for every path of this system.
* **Programs** - `Model/Cmd.lean`: a run of a program ends with the usage text, a complaint, a crash, never, or with a result.

## 3. Per property: what is modelled and how it is proved

Theorem names start with the property's ID; `MANIFEST.json` lists them.  `_partial` marks a theorem that is weaker than the property;
the property is then either refuted by another theorem of the same ID or the note in the manifest says what is missing.

| id | model | proof |
|----|-------|-------|
| C01 | `Model/Party`: `ID.bytes`, `fromBytes` | arithmetic on `UInt16`, exact characterisation of accepted byte strings |
| C02 | `Model/Party`: `MarshalText`, `UnmarshalText` (`strconv.ParseUint`) | digit-list induction against a decimal-value specification |
| C03 | `ID.scalar` through `Scalar.setCanonicalBytes` | little-endian arithmetic, `65536 < q` |
| C04 | `IDSlice.new` | insertion sort; sorted permutation is unique, so any sorting algorithm gives it |
| C05, C06 | `Contains` with the binary search of `sort.Search`, `IsSubsetOf`, `Equal` | loop invariant of the search |
| C07, C08 | `ID.lagrange` with its loop | product lemmas; Mathlib's Lagrange interpolation |
| C09 | `newPartySlice`, `generateSet`, `RandID` | induction on the counter; divergence at 65535 by a loop invariant |
| C10-C12 | `Model/Polynomial` | Horner and power-sum inductions against evaluation of a list of coefficients |
| C13 | wire form of `Exponent` | byte-level induction, wrap-around of the degree |
| C14 | `generateSecrets`, `generatePublic` | Lagrange interpolation |
| C15 | `Poly.new` | explicit bijection between the polynomials with two given secrets and the same t shares |
| C16, C17 | `Model/Schnorr` | algebra; C17 is refuted (constant challenge) |
| C18-C24 | `Model/Messages` | case analysis over bytes; C21 refuted, C22 refuted for what is done with the result |
| C25-C29, C32, C33 | `Model/State`, generic over a round implementation | invariants by induction over histories of operations |
| C30, C38, C39, C41, C66, C67 | `Model/Keygen`, `Model/Sign` on `Model/State` | invariants over histories that determine the round object from the accepted messages |
| C31 | same | two histories that differ in order are related by a simulation up to the order of maps |
| C34, C42 | `newKeygenState`, `newSignState` | inversion of the checks, both directions |
| C35-C37, C43 | network of sessions (`Spec/Net`) | network invariant `NetInv` for any protocol whose honest steps are known (`Honest`), then instances |
| C40 | key generation with one adversary | explicit attack as a run; and determination of contributions by shares |
| C44-C49 | `Model/Sign` | invariants over histories; algebra of weighted shares |
| C50 | `computeChallenge`, `verify` | algebra in the group interface |
| C51 | `Curve/*`, `Model/Ed25519` | RFC 8032 stated on curve points (`Spec/Ed25519`); crypto/ed25519 modelled on coordinates |
| C52-C56 | `Model/Eddsa` | byte-level case analysis |
| C57-C60, C68 | `Model/Field`, `Model/Point`, `Model/Ristretto` (coordinates), `Curve/*` | refinement: each operation on coordinates against the Edwards group law; ristretto document as specification |
| C61 | `Model/Base64` | RFC 4648 stated by numbers, exact acceptance of the Go decoder |
| C62 | constants of the code | Pratt certificates checked by the kernel; order of the curve group from a point of order 8q and the bound 2p |
| C63 | `Model/Heap` | heap model of the pointers shared by messages and session; refuted, and exact contents at each time |
| C64 | `Model/Helpers`: `PartyRoutine` | exact condition for each result |
| C65 | `wrapError` | refuted |
| C69 | composition | C35, C36, C43 and C51 in the concrete group |
| C72 | `Model/Channel` | a transition system of goroutines and bounded channels; simulation by the network of C35/C43 (`Lemmas/Channel`), message flow invariant per pair of parties, termination measure (`Lemmas/ChannelEnd`), constructed schedules for hanging (`Lemmas/ChannelStuck`) and finishing (`Lemmas/ChannelDone`) |
| C73 | `Model/Example` | invariant: the session is as new, but for its timer, or has timed out; `main` as a transition system, its sessions being histories to which C39, C41, C42, C44 and C51 apply |
| C74 | `Keygen` rounds | what a finished session holds is a function of the commitments it saw; two runs of the honest-looking session for the split |
| C75 | `Sign` rounds | the same, and uniqueness of the response to a nonce; a computed execution for the blame |
| C76 | `State` with the timer callback, network `Spec/NetTime` | every timed execution is an untimed one in which the timed-out parties fell silent (`Lemmas/NetTime`), then C35/C43; a computed execution for the missing atomicity |
| C77 | `Model/Udp` | simulation by the network of C76; imitation of the executions of C72; the empty payload of C22 as a forged packet |
| C78 | `Model/Marshalling` | the check as a function of a record of methods; the wire format theorems of C13, C18, C19, C24 and C56 |
| C79 | `Model/Frosted` | the main goroutine as a relation over the executions of `Chan` and `Udp`; induction over its waiting loops with the safety theorems of C72, C76 and C77; crashes are calls that return `none`; `C79_verdict` says what the two checks at the end decide |
| C80 | `Spec/View` (`standIn`, `commitmentsFrom`), `Keygen.impl` | simulation between the session and the same driver running the stand-in (`Lemmas/Simulate`), both ways; Lagrange interpolation for the commitments; injectivity on a finite set for uniformity |
| C81 | `Json.parse` (`Model/Json`: encoding/json's scanner and `unquote` on bytes) | grammar as inductive relations (`Spec/Json`); the parser is sound and complete for it, by induction on texts (`Lemmas/Json`); decoding of strings against section 7 of RFC 8259 with the replacement of invalid UTF-8 and lone surrogates that encoding/json documents (`Means`, total on all strings that may occur); the grammar shares only the type of values with the model |
| C82 | `Json.readSecretShare`, `Json.writeSecretShare` (`Model/JsonText`) | `SecretShareIs` in `Spec/JsonText` says which member counts; equivalence by induction on the members |
| C83 | `Json.readPublic`, `Json.writePublic` | the output of every successful key generation comes back (`C55_keygen`, `C83_keygen`, from C39); soundness and completeness against `PublicIs`; Lagrange interpolation for the group key. Refuted parts: null shares and missing group keys panic, the degree is not checked |
| C84 | `Json.readFile`, `Json.writeFile`, `Json.signerText`, `Json.keygenText` | as C83, then the runs of C70 and C71. Refuted part: `{}` and `null` crash |
| C85 | `Model/Race` (what the methods do to `done`, `err`, the output and the channel), `Spec/GoMem` (the Go memory model) | invariant over the order of the mutex; happens-before from it; histories of `State` are executions; two executions as counterexamples |
| C86 | `Model/Integration` (the two integration tests, as functions of the implementation they test) | the stages of `Model/Cmd` (C70, C71) for passing; inversion of the test for what a pass means, for any implementation; an implementation that sends nothing as counterexample; `C86_compare_loop` and `C86_compare_output` say what the comparison loops of the tests decide |
| C87 | `Model/Receiver` (methods as functions from the receiver to the receiver and the result, one assignment after the other) | case distinction along the method, against the pure decoders; induction over the loop of `Exponent.UnmarshalBinary` for what is left behind; refuted for six types |
| C88 | `Model/Teardown` (on top of `Chan.Sys` and `Udp.Sys`: closed channels, the `WaitGroup`, closed sockets, panics of sends and closes) | channels: an invariant and a measure that every step that is not a turn of a waiting loop lowers; UDP: refuted by executions built step by step, and an invariant for what else could panic |
| C89 | `Model/UnitTest` (the unit tests as functions of their draws and, where useful, of the function they test; `ed25519.GenerateKey` and clamping in `Model/Ed25519`) | from the properties of the functions tested; the IDs drawn are counted without repetition; wrong functions that pass are exhibited |
| C90 | `Model/Sign` | simulator written as a specification (`Spec/SignView`); the sent messages from the invariant of C45; the changed hash function gives the chosen factors because the inputs of C48 are injective |
| C91 | `Model/Sha512` (of the Go standard library, which the code calls) | `Spec/Sha512` writes FIPS 180-4 on bits and indexed words, with the constants as real roots of primes; induction over schedule, rounds and blocks |
| C92 | `Model/Random`: the functions that draw scalars, over a reader of bytes that may fail or give too little | exact counts of the 64-byte strings per scalar, products of nearly uniform distributions, C80 and C43 under a uniform reader; refuted for readers that give less than asked (`C92_short_read`) |
| C93 | `Model/State`: the queue, the stored messages and the timer | induction over histories: the queue is a sublist of what was accepted, so the bound follows if nobody has two messages of a type accepted; a started callback is never lost; refuted without that condition (`C93_flood`, `C93_keygen_flood`, `C93_sign_flood`): a party that holds back its message of round 1 has any number of messages of round 2 queued, each of which starts the timer anew |
| C94 | `Model/Alias`: histories in which the caller writes to the message or the list of parties | refuted (`C94_sign_other_message`, `C94_keygen_other_parties`); what is signed is what is in the memory when round 1 is completed, by simulation with a session that was given that; at the end the same must be there or the session aborts; a signer that is added makes the session send no share; the list of a key generation is read at each round |
| C95 | `Model/Print`: the two programs with their output | what is printed, to the byte, for every run that ends; "Success" exactly for these; the model of the output ends as the model without it; **refuted** for the form of `r` (`C95_r_is_never_standard`: by the equation that a common value of the two encodings would satisfy, whose discriminant is not a square; `C95_printed_rejected`) and for the file (`C95_write_error_ignored`); Ed25519 accepts the printed pair only if the hash of the printed bytes is one certain other challenge; the standard form can be recovered |
| C96 | `Model/Sign`, `Model/Random` | **refuted** (`C96_not_hedged`: the commitments depend on the two scalars drawn and on nothing else; `C96_three_sessions_reveal`: three sessions with the same commitments give the share, by eliminating the two nonces); two responses still fit every share (`C96_two_hide`); with a uniform source the scalars of all sessions are different up to about `n² / 2^253` (`C96_repeat_unlikely`, by counting injections and C92) |
| C97 | `Model/State`, `Model/Sign`, `Model/Keygen` | **refuted**: what a party sent in one session is accepted in another and keeps the genuine message out (`C97_first_comes`, `C97_sign_replay`, for any two sessions); so honest signers are blamed without anybody cheating (`C97_framed_by_replay`, a run of four sessions), and a key generation completes with recordings only (`C97_keygen_replay`, for any earlier sessions, by running the session forward); a share is accepted in another session exactly if both sessions ask for the same response (`C97_share_accepted_iff`); within a session the commitments are determined (`C26_one_per_sender`, an invariant of the history) |
| C98 | `Props/Domain` | The strings are those of `Spec/Sign` and `Spec/SignView`. `C98_sign_hashes`: a session behaves the same with any hash function that agrees on them. `C98_binding_is_challenge`: exactly when the string of a binding factor is one of a challenge, from which `C98_separated`, and the hypothesis of `C90_simulation` from conditions on message and key (`C98_unused`). Strings of proofs differ by their length (`C98_proof_is_not_binding`); key generation depends on no hash value (`C98_keygen_hashes`). Refuted for the message digest: `C98_message_is_challenge`. |
| C99 | `Model/Timing`, `Props/Timing` | The functions that call variable-time arithmetic are modelled a second time with a log of the calls and their arguments; `C99_log_is_faithful`: a session with the log has exactly the histories of the session without it. `C99_sign`, `C99_keygen`: every entry of the log is a stated function of messages received and broadcast, identifiers, message, public shares and group key. `C99_every_call_logged`: no call is missing from the log. That the other functions of the dependency take constant time is trusted; branches on points and the running time of the code around the calls are not modelled. |
| C100 | `Spec/Life`, `Props/Life` | C90 for all honest signers and all sessions together: `Script` is a session as made up, `reprogram` the hash function with a table of chosen values. `C100_values`: binding factors and challenges are those of the scripts; `C100_life`: every session sends the messages of its script; `C100_fresh`: when the places are different and otherwise unused (from C48 and C98); `C100_binding_fresh`, `C100_challenge_fresh`: how few choices hit given strings; `C100_hidden`: the commitments leave binding factor and challenge open. Not a reduction: the table is fixed when the commitments of a session are, so a maker of the messages who must answer hash questions before that has to guess which list of commitments will be used. |
| C101 | `Spec/Forger`, `Lemmas/Fork`, `Props/Forger` | `Forger` is any function from answers to the next question and finally to a message and a signature; `Wins` is the model's `Verify` with the hash function changed at the questions. `fork` is the general forking lemma, proved by Cauchy-Schwarz over the place of the question. `C101_forger_gives_secret`, `C101_forgery_bound`; `C101_coalition` for `t` parties with their shares, by C80. Not covered: an algorithm that also takes part in sessions of honest signers (see C102), and a key that the algorithm helped to generate. |
| C102 | `Spec/OneMore`, `Lemmas/LocalFork`, `Lemmas/OneMore`, `Props/Unforgeable` | `Attacker` is a tree of questions: hash values, shares of honest signers, and at last a message and a signature; `Attacker.play` answers them. `Logs` is an algorithm that asks for discrete logarithms; `solve` runs the attacker twice and changes one hash value, that of the string the verifier hashed. `C102_logs`: exactly `2 K` logarithms are asked for. `solve_value`: two forgeries for the same string give all `2 K + 1` logarithms unless two hash values collide; `C102_forger_gives_logs` puts this together with the local forking lemma `LocalFork.fork` and bounds for collisions of adaptively chosen strings. `C102_coalition`, `C102_coalition_logs`, `C102_forgery_bound` are for `t` parties who are told their shares by a dealer. `C102_joiners` is for `t` parties who contribute to the key as well, knowing what the others contribute, if they reveal their coefficients; a sound proof of knowledge would stand for this, but see C17 and C40. `C102_bounded`, `C102_joiners_bounded`: the finite set of strings and the bound `N` exist for every attacker. The dealer is that of `cmd/keygen` (C70). `C102_session` ties the game to the code: a session of the model sends what the honest signer of the game answers. Not covered: a key that the attackers helped to generate without revealing their part, attackers that corrupt parties later on, and a forgery for a message that fewer honest signers have signed than would be needed. |
| C103, C104 | `Model/Slice`, `Spec/Memory`, `Lemmas/Memory`, `Props/Memory` | `Mem` is a memory of numbered arrays, `Slice` a window into one; `append` writes in place or allocates with a capacity chosen by `grow`, over which the theorems quantify. `Appended`, `Exact` and `Keeps` say what may change. One append satisfies `Appended` (`appended`), and two in a row compose (`Appended.append`); each `BytesAppend` is a sequence of them. `C103_others`, `C103_overwritten`: what holders of other slices see. C104 follows because `Size` is the length of the wire bytes. |
| C105 | the same | `C105_copy`, `C105_new`: result in a new array, everything before unchanged. |
| C106 | the same | `C106_rhos`: by induction over the signers, the buffer reads as in the model without memory before each hash; `C106_capacity`, `C106_capacity_wraps`. |
| C107 | the same | `dequeue_loop`: the writing index never passes the reading index, so the cells still to be read are as they were; `C107_dequeue`, `C107_stays`, `C107_enqueue`. |
| C108 | `Model/State`, `Model/Keygen`, `Model/Sign` (no new definitions) | `not_full_of_duplicate` (the map has one entry per distinct sender, the count one per entry) and induction over the history: `C108_stuck`, `C108_progress`; acceptance and the two protocols: `C108_keygen_accepts`, `C108_keygen`, `C108_sign`; output for any list: `C108_keygen_output`, `C108_sign_output`; the wrapping count: `C108_wraps`. |
| C109 | `Model/ErrorValue`: errors as values (`errors.New`, package variables, `fmt.Errorf` with `%w`, `*state.Error`), `Error()`, `errors.Is`, and all decoders, `BytesAppend` and `PartyRoutine` with the errors they return | texts read by `Spec/Errors`, which reads at most one thing (`saysAborted_unique`, `saysBlamed_unique`); which errors a session can have by induction over its history (`keygen_cause`, `sign_cause`), so `C109_keygen_text`, `C109_sign_text` and that the text determines the error; `C109_refused_text`; `C109_header_text` and `C109_commitments_text` for what decoders report; the new decoders against the old ones (`C109_decoders`, `C109_routine`); `errors.Is`: `C109_invalid_message`, `C109_signature_error`; refuted for sessions, messages and `PartyRoutine`: `C109_sentinel_lost`, `C109_message_hides`, `C109_routine`. |
| C110 | `Model/Routines` | Calls of `PartyRoutine` as transition systems interleaved with each other and with any event of the session; invariant per call, refinement of the sequential `partyRoutine` when alone. The race of the time-out with the test in line 44 is stated (both outcomes possible). |
| C111 | `Model/Ristretto` | Counting preimages: each `mapToPoint` value determines the field element up to a quartic and a sign (`Curve/Map`), each coset has four representatives, so at most 32 field elements per group element and `2^263` of the `2^512` strings (`Lemmas/Hits`). Exact uniformity is refuted: `q` does not divide `2^512`. Missing: closeness to uniform in statistical distance, which needs character sums over the curve. |
| C112 | `Model/State`, `Model/Keygen`, `Model/Sign`; `Spec/Fair` | Infinite executions of the network of C35/C43. Progress of a session never decreases; an accepted message is kept until its round (`accepted_kept`); induction on the round everybody has reached (`fair_reaches`). Fair executions exist (`C112_fair_keygen_exists`, `C112_fair_sign_exists`), and handing over every message once is not enough (`C112_keygen_once_hangs`, `C112_sign_once_hangs`). |
| C113 | `Model/State`, `Model/Keygen`, `Model/Sign`; `Spec/Prompt` | Infinite executions in time, with time-outs, of the network of C35/C43 (`TimedExecution`); `SwiftFrom δ start` bounds what callers and network take once a session is created (`Swift δ`: all are created at time 0, the theorems `C113_prompt_*` are this special case of `C113_staggered_*`). Strong induction on the moment: until the first timer fires the execution is one of C35/C43, the timer was last started when the session last heard something new (`Waits`), and nobody waits longer than 3δ for something new or the end, except until σ + 2δ for first messages, where σ is when the last session was created (`prompt_hears`). The end comes by σ + 5δ (`prompt_finishes`). Such executions exist (`C113_prompt_keygen_exists`, `C113_prompt_sign_exists`; `C113_staggered_keygen_exists`, `C113_staggered_sign_exists` for sessions created within δ of each other); 3δ is sharp: for every timeout of at most 3δ there is an execution in which that session times out (`C113_slow_keygen`, `C113_slow_sign`; `Lemmas/PromptSharp`: it hears all first messages at once, the others hear its first message after δ, answer after 2δ, and the answers are underway until 3δ). |
| C114 | `Model/RoutinesHeap` (on `Model/Heap`) | The second half of a call of `PartyRoutine` as a transition system on the session with memory, reading one commitment at a time, interleaved with anything others do; ending a session is two steps, `done` first and then the overwriting. Invariant: the memory is as `ProcessAll` left it and what was encoded is right, or the session has ended with an error. Partial: refuted when another goroutine calls `ProcessAll` meanwhile (`C114_refuted`: the sum of all commitments is sent, and `C114_refuted_blamed`: the others then blame the honest sender). |
| C115 | `Model/Construct` (the steps of `NewBaseState` and of the callback) | Invariant over interleavings: with the loop over the parties completed, the session under construction has a history of timer events from `newBaseState`; whether `stopTimer` finds the timer makes no difference because a timer whose callback runs has no deadline left (`callbackSeen_eq`). Concrete crash for key generation (`C115_keygen_crashes`). |
| C116 | `Model/Pointers` (`State` with pointers in the map and the queue, a memory, line 26 of `round2.go`) | Simulation in both directions with `Model/State` as long as the session runs: only the round that ends the session writes, so all messages are still what they were when they are read (`Lemmas/Pointers`). A map keyed by sender has no pointer twice, so no share is read after it was erased. On success the key is the own share plus the shares in messages that are now 0 (`C116_erased_partial`). That no share stays is refuted by a timeout and by a duplicate (`C116_left_timeout`, `C116_left_duplicate`). |
| C117 | `Model/PointersEnv` (writes beside the events of `Model/Pointers`, several sessions over one memory, `PartyRoutine` with objects) | The simulation of C116 taken from the present memory instead of the first one: it survives every write to an object that the session does not keep (`Lemmas/PointersEnv`, `Sim.change`). A session writes only into shares of messages for it, and decoded or returned messages with a share name their receiver (`C117_decoded`, `C117_returned`), so sessions of different parties never write what another one keeps. In `PartyRoutine` all kept objects are below the next unused one. Two counterexamples show that the conditions are needed (`C117_reused_object`, `C117_same_party`). |
| C118 | nothing new | `Running` (the explicit form of the round object in each round, `Lemmas/KeygenInv`, `Lemmas/SignInv`) gives what every step of `ProcessAll` dereferences; `Lemmas/Crashes` lists what can still be nil: the payload and the first commitment. `Spec.Unusable` is stated on the message alone, `C118_bytes` ties it to the encoding of C19. Hypotheses: no duplicate and, for key generation, no zero among the IDs (with them other crashes exist, C09 and C17). |
| C119 | `Model/Recover`: the loop over `receivedMessages` when a call of `ProcessMessage` panics, what it leaves in the round and in the messages, histories with panics that are recovered from | `Lemmas/Recover`: rounds that judge messages alike (`Verdicts`) do so along the whole loop, so an unusable message stays one and the loop never completes; simulation by the session without the calls that panicked. `C119_keygen_complete`, `C119_sign_complete`: the model covers every panic of `ProcessAll`. In the last round of the key generation the second half is refuted: the loop erases shares it has accepted, and the next call blames their senders (`C119_refuted`); `C119_keygen_same_partial` has it before that round. |
| C120 | nothing new: the key generation session over lists with 0 | from the invariants of key generation (round 2 needs all IDs non-zero, round 1 the own one); round 0 is always complete and `Polynomial.Evaluate` panics on 0; by induction over the history that a session fed with decoded messages never has a message from 0 |
| C121 | nothing new: `IDSlice.contains` on lists that are not sorted, sessions with such lists | a binary search that finds every index in its place has sorted values, by induction on the interval; so some party is missed, `HandleMessage` refuses its messages, and no round after the first completes (`unsorted_notFull`); what a session can do then (`blocked`) by induction over the history |
| C122 | nothing new: several sessions with a list and a threshold each, linked by `Spec.Authentic` (what is taken from `j` was sent by `j`) | that all finish without error: an explicit history for each party (`C122_undetected`); what each gets: from the invariant of a finished session and what a session can send (`C122_result`); `C122_lists` from the share that a finished party must have accepted; `C122_equal` from the definition of `Equal` |
| C123 | nothing new: two signing sessions with a message, list and key each, linked by `Spec.Authentic` | the share that an honest session sends (C45) put into the equation that the other session checks (C45), with the commitments equal because a session sends one `Sign1` (C47); the refutation by two runs |
| C124 | nothing new; `Spec.Checked` says what the callers compare | C39 (every `Public` is on a polynomial) for one party carried over to all by what `Equal` returning true means (`equal_true`), the own share by injectivity of multiplication of the base; then the hypotheses of C43; that the check of the own share is needed from the exact acceptance condition of C45 |
| C125 | nothing new; `Spec.seen` is what the others' broadcasts show, `Spec.pick` the strategy of trying several values | the network of C35/C36: an execution up to the point where all others have sent their broadcasts does not depend on the last party's values, and C36 completes it for each choice; the probabilities by counting (`prob_forall`, `prob_not`), since adding a fixed element permutes the group |
| C126 | nothing new; `Spec.SplitRun` says what an honest party sees and sends | sessions are run forward to the last round (`reaches_last`), then C38 for the cheated parties and `completes` for the others; what these hold is `finished_spec` (`C126_rest_key`, `C126_rest_can_sign`) |
| C127 | `Model/ConstructError`: the constructors with their error values | agreement with the tagged model by structure (`Agree`); the texts by cases on the checks, with C06, C07 and C54 |
| C128 | nothing new; `Spec.signRun` lists the calls of a signer and their results | the honest session is run forward to the last round (`honest_reaches`, for any protocol with the invariant of C43), then `loop2_cheat` for the victims, and `sign_finished_spec` for the others |
| C129 | `Model/NilPayload`: `KeyGen1` with its two pointers, the methods of `Message` and `round1.ProcessMessage` of the key generation on it; removes the simplification of `Model/Messages` that the pointers are set | case analysis; `value` maps to the model without nil pointers |
| C130 | nothing new: `Model/State`, `Model/Keygen`, `Model/Sign`, `Model/Messages` | the invariants behind C67 and C47 on what was sent up to each round, with the lengths of the encodings |
| C70, C71 | `Model/Cmd` | the three loops of the programs drive the network in lockstep (`Lemmas/Stage`), so C35/C43 apply; every result is determined |

## 4. Trusted base

* Lean 4.33.0's kernel, and the axioms `propext`, `Classical.choice`, `Quot.sound` (no others; no `native_decide`, no `bv_decide`).
* The reading of the Go source into the definitions of `Verif/Model`; every definition cites its lines.
* The contracts of Go's standard library and of `filippo.io/edwards25519` v1.0.0-rc.1, which are not in `/repo`.  They are:
  * `edwards25519.Scalar`: arithmetic modulo q on reduced values; `SetCanonicalBytes` accepts exactly 32 bytes of a number below q;
    `SetUniformBytes` reduces 64 bytes; failing setters leave the receiver unchanged; `Invert(0) = 0`.
  * `edwards25519` field elements and points (`Model/Field`, `Model/Point`): the formulas of the library on field values;
    `field.Element` is a number modulo 2^255-19, limbs are not modelled; scalar multiplication is modelled by its result on
    coordinates (double and add), and is shown to be the group operation.
  * `crypto/ed25519.Verify` (`Model/Ed25519`), `encoding/base64` (`Model/Base64`), `strconv`, `sort`, `sync.Mutex`, `time.AfterFunc`,
    `encoding/json` (`Model/Json`, `Model/JsonText`).
* The specifications in `Verif/Spec` and in the statements say what the English of `properties.jsonl` says.

Modelled: all of `pkg/frost`, `pkg/messages`, `pkg/state`, `pkg/eddsa`, `pkg/helpers`, `pkg/internal/{polynomial,scalar,zk}`,
`pkg/ristretto` (on coordinates), `cmd/keygen`, `cmd/signer`, `test/internal/communication` (channels, UDP, handlers), `test/frosted.go`, `example`.

Not modelled: `test/` other than what section 3 says, the text of the errors of JSON decoding and of other
libraries (only their kind), files, memory after garbage collection, timing.

## 5. Findings

Where a property is false for the code, the model contains a proof that it is false (theorem in brackets).

1. `pkg/internal/zk/schnorr.go`: the challenge is computed into a value that is thrown away, so it is always the zero scalar.  A proof is
   accepted exactly if its challenge field is 0, for every prover and every public element, whatever its response
   [`C17_universal_forgery`, `C17_proof_transfers`, `C17_response_unused`]; honest proofs carry their nonce in clear [`C17_nonce_in_clear`].
2. As a consequence the key generation is open to the rogue-key attack: whoever speaks last chooses the group key
   [`C40_rogue_key_refuted`].
3. `Message.UnmarshalBinary` drops the error of the payload: a bare header or a broken payload is accepted with a nil or half-filled
   payload [`C21_bare_header_accepted`, `C21_stale_payload`]; processing such a message dereferences nil and the process crashes
   [`C22_bad_payload_crashes`], and the same holds in every round of both protocols with five bytes naming any peer that has
   not sent yet [`C22_keygen_five_bytes`, `C22_sign_five_bytes`].
4. A commitment polynomial with degree field 0xFFFF decodes to one without coefficients [`C13_empty_exponent_accepted`]; using it
   crashes.  65536 coefficients do not round-trip [`C13_roundtrip_65536_fails`].
5. `keygen/round1.go` ignores the error of `Exponent.Add`: commitments of the wrong degree are left out of the public sum while the
   matching secret shares are added, and the session reports success with a secret share that does not belong to the public share
   [`C39_own_share_refuted`, `C39_own_share_exact`].
6. `State.HandleMessage` refuses messages before the first `ProcessAll`, and messages of a sender one round ahead whose current message
   is stored [`C32_refused_before_start`, `C32_refused_one_round_ahead`].
7. A time-out of a key generation before its first `ProcessAll` crashes in `Reset` [`C33_keygen_timeout_crashes`]; a timer callback
   waiting for the mutex aborts even though a message came in meanwhile [`C33_late_callback_aborts`].
8. The KeyGen1 message returned by `ProcessAll` shares memory with the session: marshalled later it shows the running sum of
   commitments, or zeros [`C63_keygen1_shows_sum`, `C63_keygen1_zeroed`].
9. `wrapError` prints round and culprit in each other's place [`C65_round_and_culprit_swapped`].
10. `NewPartySlice(65535)` never returns [`C09_newPartySlice_65535_diverges`].
11. `NewPublic` accepts threshold 65535 with any number of parties [`C54_threshold_65535_accepted`]; ID 0 or a nil share crashes it
    [`C54_newPublic_panics_iff`]; JSON with an ID or threshold outside 16 bits is truncated [`C53_json_id_truncated`,
    `C55_threshold_truncated`], and a missing group key crashes [`C55_nil_groupKey_panics`].
12. `sign.NewRound` does not compare the number of signers with the threshold [`C42_single_signer_accepted`] and crashes if a signer has
    no public share [`C42_missing_share_crashes`].
13. `keygen.NewRound` accepts ID 0 and duplicate IDs, and lists that are not sorted (`Contains` is then wrong, `C05_unsorted_can_miss`).
14. An honest signer whose nonce happens to be 0 makes everybody abort, blaming it (C49; probability about 2^-252).
15. The text form of group elements is not canonical: line breaks and non-zero unused bits are accepted [`C61_not_canonical`].
16. `cmd/keygen`: `-1 0` crashes, `-2 -1` never returns, `-65535 3` makes a key with threshold 1 [`C70_zero_crashes`,
    `C70_negative_hangs`, `C70_negative_threshold`].
17. `cmd/signer` signs as parties 1..n whatever the IDs of the key, and crashes for other IDs [`C71_other_ids_crash`], and for a file
    without shares [`C71_null_shares_crash`].
18. With channels that deliver every message once, as in `test/`, an honest run with three or more parties can hang: a message of the
    second round that overtakes a message of the first from another party is refused (finding 6) and lost [`C72_keygen_can_hang`,
    `C72_sign_can_hang`].  Two parties always finish [`C72_keygen_two`, `C72_sign_two`].
19. `MessageRoutine` of `example/main.go` never calls `ProcessAll` first, so a session driven by it never starts
    [`C73_keygen_never_starts`, `C73_sign_never_starts`, `C73_keygen_network`]; the time-out then crashes a key generation
    [`C73_keygen_crashes`].
20. Nothing checks that a broadcast was the same for everybody.  A participant that sends different KeyGen1 messages to different
    parties makes them finish with different group keys [`C74_equivocation`]; one that sends different Sign1 messages makes an honest
    signer blame another honest signer [`C75_framed_refuted`].
21. Key generation is not atomic: a party can end with its share of a new key while another, also honest, has timed out
    [`C76_not_atomic`].
22. The UDP communicator of `test/` does not check who sent a packet.  A packet of five bytes, a KeyGen1 header without contents, crashes
    the process that gets it [`C77_spoof_crashes`].
23. The JSON of a key is checked only against itself: `Public.UnmarshalJSON` compares the group key with the interpolation of all shares and not with
    the threshold, so shares that no key of this threshold has are accepted [`C83_degree_unchecked`]; a null share or a missing group key
    crashes [`C83_null_share_panics`, `C83_no_groupKey_panics`]; a secret share without `id` is read as the share of party 0 [`C82_id_missing`]; a
    file that is `{}` or `null` crashes `cmd/signer` [`C84_empty_crashes`].
24. `WaitForError`, `Err` and `IsFinished` read `done` and `err` without the mutex (pkg/state/state.go:240, 250, 258).  If another goroutine - such as the timer
    callback - ended the protocol, `WaitForError` that finds `done` set may return nil although an error was reported [`C85_lost_error`], and the
    output read after a correct nil may be missing [`C85_lost_output`]; so `PartyRoutine` may report success for an aborted session.  Waiting on `Done()`
    first is safe [`C85_received`].
25. `TestSign` ends without an error when party 1 has no signature (test/sign_test.go:70-72), so it passes for an implementation that sends nothing and
    never signs [`C86_sign_silent`].  `ValidateSecrets` (test/keygen_test.go:118-145) compares the public share that is written in the secret share, not
    the secret times the base point, and interpolates over all parties: it accepts wrong secrets [`C86_validate_wrong`] and shares of a polynomial of higher
    degree than the threshold [`C86_degree_blind`].
26. A failed decoding can leave a mixture of the old and the new value in its receiver: `Signature` and `Schnorr` (new first half, old second half)
    [`C87_signature_mixed`, `C87_schnorr_left`], `Sign1` [`C87_sign1_left`], and `SecretShare`, which gets the new ID with the old secret, from bytes and from
    JSON [`C87_share_mixed`, `C87_shareJSON_left`].  A failed decoding of a polynomial leaves nil pointers, so that writing it panics
    [`C87_exponent_unusable`].  `PublicKey.UnmarshalJSON` accepts `null` and keeps the old key [`C87_publicKey`].
27. `UDP.Done` closes `incoming` before the socket (test/internal/communication/udp.go:103-104).  A packet read in between is sent to a closed channel, which
    crashes the program: a duplicate of a packet after a session that went well, or the first packet if the key generation was left early because of a
    time-out (`C88_udp_keygen_can_crash`, `C88_udp_timeout_can_crash`).  A reader blocked on a full channel is sure to crash it
    (`C88_udp_keygen_must_crash`).  Over channels taking down after all sessions have ended is safe (`C88_channel_keygen`, `C88_channel_sign`).
28. Three unit tests depend on luck.  `TestKeyGen2_MarshalBinary` draws IDs with `rand.Uint32` and fails if one is 0 modulo 65536 (`C89_keyGen2`);
    `TestShares_GroupKey` and `TestShares_MarshalJSON` draw IDs that may coincide and dereference nil if too many do (`C89_groupKey`, `C89_publicJSON`).
    `TestID_UnmarshalText` does not look at the ID read, `TestID_Lagrange` accepts coefficients that are all 1/16, and the row "bad type" of
    `TestHeader_UnmarshalBinary` repeats the row before it (`C89_unmarshalText_blind`, `C89_lagrange_blind`, `C89_header_blind`).
29. `SetScalarRandom` calls `rand.Reader.Read` and ignores how many bytes it got, while `NewPolynomial` calls `rand.Read`, which fills the buffer.  With a
    reader that gives one byte per call and no error, the secret of a key generation and both nonces of a signer are below 256 (`C92_short_read`).  The
    reader of the standard library fills the buffer on the usual platforms, but the documentation of `io.Reader` does not promise it.
30. `HandleMessage` checks for a second message of a sender only among the messages of the current round.  A party that holds back its message of
    the first round can send messages of the second round without end: each is appended to the queue and each starts the timer anew, so the memory
    and the lifetime of the session are not bounded and the time-out never comes (`C93_keygen_flood`, `C93_sign_flood`).
31. `NewSignState` and `NewKeygenState` keep the slices of the message and of the parties and do not copy them.  A caller that reuses its buffer while the
    session runs gets a signature share for whatever is in the buffer when the commitments are complete (`C94_sign_share`), and then, if the buffer changes
    once more, an abort for which nobody is blamed (`C94_sign_last`); a key generation deals its shares to whoever is in the list at that time
    (`C94_keygen_dealt`).  Only the output of a key generation has a copy of the list.
32. `cmd/signer` verifies the signature in the form of RFC 8032 and then prints another one: `r` is printed in its ristretto255 encoding, while `cmd/keygen`
    prints the group key in its Ed25519 encoding.  The two encodings of an element are never the same (`C95_r_is_never_standard`), so nothing that
    `cmd/signer` prints is the signature it verified, and an Ed25519 verifier rejects it (`C95_printed_rejected`, `C95_not_a_signature`).  `cmd/keygen`
    drops the error of `ioutil.WriteFile` and says "Success: output written to keygenout.json" (`C95_write_error_ignored`).  Its usage text asks for
    `n < 100`, and it accepts 100.
33. The nonces of a signer come from `crypto/rand` only (`round0.go:16-22`), while RFC 9591 derives them by hashing random bytes together with the secret
    share.  If the source repeats itself, as it does in a virtual machine that is restored from a snapshot, the commitments repeat (`C96_not_hedged`), and
    three such sessions, even of the same message with other co-signers' commitments, reveal the share (`C96_three_sessions_reveal`).
34. A message names its type, sender and receiver, and no session (`pkg/messages/header.go:12-24`).  What was recorded in one session can be delivered in
    another, over channels that authenticate the sender.  In signing this makes a signer refuse the genuine commitments and then blame an honest signer
    (`C97_sign_replay`, `C97_framed_by_replay`); in key generation a party completes alone, with a key that nobody else holds, when it is given the messages
    of earlier runs (`C97_keygen_replay`).  A TODO in `keygen/round1.go:11` says that contexts could prevent replay.
35. Only the strings of the binding factors start with a tag (`pkg/frost/sign/round1.go:14`).  The digest of the message (`round1.go:36`) has none: in a session that
    is asked to sign `R ∥ A ∥ m` it is the challenge of `m` (`C98_message_is_challenge`).  Binding factors and challenges are kept apart only because the key would
    have to be part of the digest of the message (`C98_binding_is_challenge`).
36. `computeRhos` computes the capacity of its buffer in `uint16` (`round1.go:38`), which wraps from 993 signers on (`C106_capacity_wraps`).  It is only a
    capacity, so the binding factors are right (`C106_rhos`), but the single allocation announced in the comment is not what happens.
37. `ProcessAll` filters the queue in place and does not clear the cells behind its new end (`state.go:167-179`), so messages that have left the queue stay
    referenced by the session until they are overwritten (`C107_stays`).
38. Neither constructor refuses a list of participants with duplicates (`keygen/base.go`, `sign/base.go`, and `NewIDSlice` keeps them); the session then waits
    for ever without an error (`C108_stuck`), since it counts list entries but stores one message per sender.
39. `state.Error` has no method `Unwrap`, so `errors.Is(s.Err(), sign.ErrValidateSigShare)` is false when a share was invalid, and likewise for
    `ErrValidateSignature` (`C109_sentinel_lost`); `messages.ErrInvalidMessage` never comes out of `Message.UnmarshalBinary` (`C109_message_hides`), and
    `eddsa.ErrInvalidMessage` is another variable with the same text (`C109_signature_error`).
40. The comment on `SetUniformBytes` promises a uniformly distributed element from uniform bytes.  That is impossible for any function of 64 bytes into
    a group of order `q` (`C111_not_uniform`); what holds is a bound of `2^-249` on each element (`C111_probability`).
41. `PartyRoutine` encodes the messages after `ProcessAll` has released the mutex.  When another goroutine delivers the other parties' messages and
    calls `ProcessAll` in between, it sends the sum of all commitments in place of its own (`C114_refuted`); the others accept that and blame the
    sender when its shares arrive (`C114_refuted_blamed`).  The timer alone does no such harm, because `finish` sets `done` before it overwrites the
    commitments and `PartyRoutine` looks at `done` after encoding (`C114_sent_partial`).
42. `NewBaseState` starts the timer before it has stored it (`state.go:45`, `273`), and does so without the mutex, so the callback may read the field while it
    is written.  This data race is harmless: the only reader then is `stopTimer`, for a timer that has already fired (`C115_returned`).
43. Round 2 of the key generation erases the shares it has received, but only those it gets to: when the session times out or aborts, the shares in the other
    stored messages stay in memory (`C116_left_timeout`), since `Reset` does not know of them.  A share that arrives twice before its round is accepted twice, and
    the first copy stays in memory even when the session succeeds (`C116_left_duplicate`).
44. `HandleMessage` keeps the pointer it is given, which its comment does not say.  A caller that decodes all messages into one variable makes the session blame an
    honest party (`C117_reused_object`), and so does one that hands the same object to two sessions of one party, because the first erases the share
    (`C117_same_party`).  `PartyRoutine` declares its variable inside the loop and is not affected (`C117_routine_keygen`, `C117_routine_sign`).
45. The two ways to crash a party in C22 and C33 are the only ones (`C118_keygen_processAll`, `C118_keygen_others`, `C118_sign_processAll`, `C118_sign_others`).
    A caller that drops bytes whose payload does not decode, and for KeyGen1 those with no commitments, and that calls `ProcessAll` before the timeout, cannot be
    crashed by the network (`C118_keygen_safe`, `C118_sign_safe`).  `UnmarshalBinary` does not tell them apart: it drops the error of the payload.
46. A caller of a key generation that recovers from a panic of `ProcessAll` and tries again makes it blame an honest party (`C119_refuted`): the loop that
    panicked has erased the shares that it had accepted before (pkg/frost/keygen/round2.go:26), but the messages are still stored (state.go:156-158 is not reached), and
    the erased shares fail the check of the next call.  One participant that sends a bare header in the last round is enough.  Nothing is leaked: the session never
    succeeds and hands out nothing more (`C119_keygen_nothing`), and a signing session cannot be made to send a second share this way (`C119_sign_one_share`).
47. `NewKeygenState` does not look for the ID 0 in the list of participants, on which `Polynomial.Evaluate` panics and which no header may carry (`C120_accepted`); `NewSignState`
    does (`C120_sign`).  The key generation can then only hang until its timer (`C120_bytes`) or crash (`C120_own`), after having sent the commitments; no share is sent
    (`C120_nothing`).
48. `Contains` is only right for sorted lists, and for a duplicate-free list that is not sorted it is always wrong about some entry (`C121_contains_iff`).  `party.IDSlice` is
    an exported slice type, so a caller can pass `party.IDSlice{2, 1, 3}`; no constructor sorts or checks (`C121_accepted`).  The session then refuses a participant's
    messages as "not a party" and waits for ever or until its timer (`C121_keygen`, `C121_sign`).
49. Parties that were started with different thresholds, or with different lists, finish key generation without an error and hold different group keys (`C122_undetected`).
    Their secrets contain the contributions of everybody, their public keys only those of the same threshold (`C122_result`), because `round1.ProcessMessage` drops the error of
    `CommitmentsSum.Add`.  Comparing the `Public` values afterwards shows it (`C122_equal`); the library does not.
50. Two honest signers that were asked to sign different messages each end with an error that blames the other (`C123_blamed_refuted`): a misconfiguration looks like a
    dishonest participant.  No signature comes of it, unless hash values coincide (`C123_success`), which is as rare as a guessed challenge (`C123_chance`).
51. Findings 5, 20 and 49 can be noticed by callers without a change of the library: comparing all `Public` values with `Equal` and `SecretShare.Public` with the own entry of
    `Public.Shares` is enough (`C124_one_key`, `C124_can_sign`).
52. The participant of a key generation that broadcasts last decides about the group key (`C125_last_mover`): nobody has to commit to a broadcast before seeing the others.  It
    does not learn the secret (C40, C80 say what is known), but it can make the key have properties of its choice, such as given leading bits, at the price of
    trying (`C125_bias`: ten tries turn an even chance into more than 99.9 %, `C125_ten_tries_refuted`).
53. Key generation has no round of complaints: a participant can choose for whom it fails (`C126_split_refuted`).  The others finish without an error and list the failed parties
    in `Public`; if at most `Threshold` parties are left, the key is lost, and a caller who has already used it is not told.
54. The error of `NewPublic` reads "Threshold should be < N - 1", but the test is `Threshold+1 > N`: a threshold of `N - 1` is accepted (`C127_public_text_refuted`), as it
    should be, and the text is wrong.  In `sign.NewRound` the errors of `NewBaseRound` and of both calls of `Lagrange` are never returned (`C127_sign_only`).
55. Signing is not fair: the last signer to speak has the signature before it sends its share, and can choose who else gets it (`C128_alike_refuted`).  A caller must not
    conclude from an aborted session that the message has not been signed.
56. The fields of `KeyGen1` are exported pointers which no method checks: `&messages.KeyGen1{}` in a message makes `Size`, `MarshalBinary` and `Equal` panic, while a nil payload
    is handled by all of them (`C129_methods_refuted`).  Decoding never yields one (`C87_keygen1_refines`).
