# Formal model of PyNDN2 in Lean 4 — design

## What is modelled and how

Every Lean definition under `lean/Verif/Model/` models a Python function or class of `/repo/python/pyndn`
branch by branch and cites its file and lines. Theorems about properties are in `lean/Verif/Props/`,
independent specifications in `lean/Verif/Spec/`, helper lemmas in `lean/Verif/Lemmas/`.

Conventions:

* Python `int` is `Nat`/`Int` (unbounded, like Python's); a byte is `UInt8`; a `bytearray`/`memoryview`/`Blob`
  is `List UInt8`, a possibly-null `Blob` is `Option (List UInt8)`.
* A Python exception is a value: functions that may raise return `Except Err α`, where `Err` names the exception
  class. A `try/except` that catches one class is modelled as a match on that constructor only.
* Object mutation becomes a function returning the new object. Loops become structural recursion, folds, or
  well-founded recursion with the termination proved (no fuel that could change a result, unless it is proved
  sufficient).
* Floating-point times (milliseconds) are modelled as integers (`Int`/`Nat`); see "Not modelled".
* Cryptographic digests/signature checks are parameters (arbitrary functions), so theorems hold for every choice.
* Callbacks are recorded in an output trace; where re-entrancy matters the model takes callbacks as programs
  that issue further API calls.

## Plan per property

| id | modelled | proof |
|----|----------|-------|
| C01, C02 | TlvEncoder.writeVarNumber/NonNegativeInteger(Tlv), TlvDecoder.read* on (input, offset) | case split on size classes, bit arithmetic by `omega` |
| C03 | TlvEncoder over DynamicByteArray with real capacity | refinement to "list of bytes written", induction over writes |
| C04 | all decoders as `Except` functions | every error constructor reachable is ValueError/RuntimeError; Lean totality = termination |
| C05 | finishNestedTlvs with its loop | well-founded induction on end - offset |
| C06 | all decoders | compositional "extension-stable" predicate |
| C07, C08 | TlvStructureDecoder state machine + ElementReader | invariant relating decoder state to consumed prefix; induction over chunks |
| C09 | encodeName/decodeName | induction over components |
| C10, C11, C12 | Component/Name compare, getSuccessor | lexicographic order on lists |
| C13 | toUri / set on character lists | induction over bytes/components |
| C14 | match | induction |
| C15 | marker components | from C02 lemmas |
| C16 | getSubName etc. on Int arguments | list lemmas |
| C17 | Name object with cached hash | invariant over operation histories |
| C18 | Exclude.matches loop | refinement to interval spec |
| C19 | matchesData | equivalence with declarative spec |
| C20-C22, C25-C27 | wire format encoders/decoders | round-trip lemmas per field, composed |
| C23, C24, C44 | Data and Interest objects with change counters, cached encodings and full name; Names in a heap, since setName keeps the caller's object; any wire format as a parameter | a simulation relation (`Le`: counts only grow; equal counts and clean counters mean equal fields), invariant over histories |
| C28-C31, C35 | Node + PIT + DelayedCallTable as a transition system | invariants over traces |
| C32 | DelayedCallTable | sortedness invariant |
| C33, C34, C46 | filter/prefix tables, `_RegisterResponse` | invariants |
| C36-C38 | MemoryContentCache | invariants over histories |
| C47 | Node: send, putData, putNack | invariant over histories |
| C39 | InMemoryStorageRetaining | refinement to finite map |
| C40, C41 | SegmentFetcher as state machine against any network | invariant |
| C42 | ExponentialReExpress | induction |
| C48, C49 | Interval, RepetitiveInterval, Schedule, GroupManager._calculateInterval over exact rational times | declarative set of allowed times; interval arithmetic with `linarith`, induction over the lists |
| C50 | Schedule wire encoding | field lemmas of the wire format, sortedness invariant |
| C51, C52 | the v2 validator as a system of events: certificate stores, policies, fetcher, callbacks that call back | invariant over histories; a chain of certificates as an inductive specification; potential function for the number of Interests |
| C53 | rules of the configuration, hierarchical checkers, simple hierarchy policy | declarative relations between names; C51 for the chain |
| C54 | command Interest policy in the validator system, command preparer | invariant over histories relating records and accepted commands; simulation by the validator without the policy |
| C55 | NDN regular expressions: compiler, matcher with mutable captures, expansion | denotational specification; induction over expressions |
| C56 | the invertible Bloom lookup table, with the hash as a parameter | updates commute and cancel; peeling invariant: the table is that of the remaining keys |
| C57 | PSyncState encoding; PSyncSegmentPublisher with its store; the segment fetcher of C40 as the receiver | TLV round trip; induction over the segments |
| C58 | FullPSync2017 and PSyncProducerBase as a state machine: publishName, removeName, _onSyncInterest, _onSyncData, _satisfyPendingInterests, the delayed calls | refinement of a set of names, by induction over the history; C56_reconcile and C56_wire for the tables, C57 for the content |
| C59 | Model/PSyncUsers on top of Model/PSync: the dictionary of sequence numbers and the three callbacks. Specification: a map from prefixes to numbers (Spec/PSyncUsers). Theorems by induction on the history (C59_numbers, C59_told, C59_monotone), and for two instances from the IBLT theorem (C59_answer, C59_sync). Contents with two numbers of one prefix, number 0, or leading zeros are excluded by a hypothesis, and witnesses show what happens then. |
| C60 | the digest tree: nodes, insertion, hex digests, with SHA-256 as a parameter (Model/ChronoSync, first part) | refinement of a map from producers to numbers, by induction over the updates; a sorted list with given elements is unique; injectivity of hex, UTF-8 and the 32-bit encoding |
| C61 | ChronoSync2013 as a state machine over the tree and the digest log; what it asks the face and the cache to do is a list of events (Model/ChronoSync, second part) | tree and log are a function of the list of applied contents; refinement of a map of numbers by induction over the history; the log replays the history if digests differ; two instances compared through their numbers |
| C62 | as C61; the outstanding Interests are part of the state | invariant by induction over the history |
| C63 | the in-memory PIB and TPM, the identity, key and certificate containers and the KeyChain calls as methods in a state monad with exceptions; identity and key objects are numbers in a heap, so that an application can keep objects of deleted things; generation of keys, signatures and the encoding of private keys are parameters (Model/KeyChain) | invariant of the stored PIB, preserved by every primitive, for every call with any arguments, whether it raises or not |
| C64 | as C63 | invariant that relates the caches to the stored PIB, by induction over histories with live objects; for each call a specification of what it returns, when it raises, and what it changes |
| C65 | as C63, with the packet encodings of C20 and C22 and the verification of C48 | the specification of `_prepareSignatureInfo`; the signed portion does not depend on the signature value; the round trips of C20 and C22 |
| C66 | as C63 | from the specifications of the removals; two PIBs that agree on what a question is about give the same answer |
| C67 | the two encodings of EncryptedContent and that of SafeBag with the byte-level encoder and decoder of C01 and C22 (Model/Encrypted) | the encoding is the list of fields of a specification; the decoder reads a list of fields field by field; the safety combinators of C04 |
| C68 | EncryptorV2 as a state machine over the calls of the application and the face, with a trace of what is seen; RSA, signing and the digest are parameters (Model/Nac) | four phases of a retrieval as an invariant; a second invariant ties the storage to the trace; induction over histories |
| C69 | DecryptorV2 as a state machine over the calls of the application and the face, with the member's key chain (Model/KeyChain) inside it; AES, RSA and the credentials are parameters (Model/Nac) | an invariant links the waiting calls, the outstanding Interests and the trace; a second one follows where keys come from through the key chain; a potential bounds the Interests; induction over histories |
| C70 | AccessManagerV2.addMember's packets, EncryptorV2 and DecryptorV2 together (Model/Nac, Model/KeyChain); the network between them is a hypothesis on the history of the decryptor (Spec/NacSystem); AES, RSA and the credentials are parameters that only have to be decryptable | the names, the padding, the safe bag and the wire forms are round trips; a world invariant for the decryptor (each waiting call, each outstanding Interest and the imported keys are right), by induction over histories |
| C71 | DerNode and its types as mutable trees with the cached sizes and marks, parse with its index arithmetic, the OID class (Model/Der); X.690 as a relation between trees and bytes (Spec/Der) | every node that can be built has right sizes (induction over the calls, and over trees); parse of an encoding by mutual induction over the tree; parse of any bytes by induction over a bound that is shown to be enough |
| C72 | the encodings of TpmPrivateKey on top of the model of DER, the crypto library as functions that may raise (Model/PrivateKey); PrivateKeyInfo, EncryptedPrivateKeyInfo and RSAPrivateKey as trees (Spec/PrivateKey) | the nodes are followed by their trees with C71; lengths are bounded so that the DER headers exist; the round trip from the format, the loading of any such encoding and the padding |
| C73 | the directory as a map from file names to text, Base 64 with the decoder of CPython, the back end on top of the model of the private keys (Model/TpmFile); Base 64 by 24 bits and the map of keys (Spec/TpmFile) | induction in steps of three bytes; newlines are skipped by the decoder; a representation relation between the directory and the map, kept by every call; a prefix of the text for a crash |
| C74 | the tables with row numbers, unique indexes, triggers and cascades, the SQL statements, and the methods with the list of databases they commit (Model/PibSqlite); maps from names, and what a crash may leave (Spec/PibSqlite) | a representation relation between tables and maps, kept by each statement; a small logic (`Does`) that follows each method from commit to commit; an invariant of the tables kept by any statement |
| C75 | the entries with their indexes, insertions and removals as the code has them (Model/ExcludeRange); `Excluded` of C18 | a recursive meaning of sorted entries; entries and Exclude are translated back and forth; the sorted entries are split at both ends of the range |
| C76 | the tables with row numbers, unique indexes, foreign key and cascade, the statements, every method of the database and of the manager, `Encryptor.encryptData` (Model/GroupManager, Model/EncryptorV1); every commit is logged | maps from names (Spec/GroupManager) as specification; a representation invariant kept by every statement; `_calculateInterval` is reduced to that of C49; the end points of its interval are whole hours, so that the time stamps are exact; induction over histories |
| C77 | the constructor, every method and callback of `Producer`, the table of content keys, the Interests that are pending, a trace of what is sent, answered and given to callbacks (Model/Producer) | content keys by hour and the packets described independently (Spec/Producer); weakest preconditions for each method; four invariants: keys, packets and callbacks (J), attempts (R), no answer is lost (F, G), excludes (X, with C75); induction over histories |
| C78 | every method and callback of `Consumer`, the table of its keys, the Interests that are pending, a trace of what is expressed, answered and given to callbacks (Model/Consumer) | where keys come from described by relations over the trace (Spec/Consumer); all outcomes of a verified Data as an inductive relation; three invariants by induction over histories: provenance (V), counting (W), kept keys (Kept) |
| C79 | the models of C76, C77 and C78; the keys of everybody as a world, packets described by the encodings (Spec/ConsumerSystem) | round trip of encrypted contents (C67), an invariant of the consumer relative to the world (U), induction over histories; the specifications of C76 and C77 imply that packets are of this kind |
| C80 | Model/SigningInfo: the object with its fields, all constructors and setters, `__str__` and the parser | the specification gives the signer as a function of the history, read from the last call; induction over the history; round trip by C13 |
| C81 | Model/ProtobufTlv: encoder and decoder over an arbitrary schema (message types are numbers, so types may be recursive); messages as trees of values | the TLV list and the result of reading as recursive specifications; mutual induction over the tree of values with the field-list invariant `At` of the decoder |
| C82 | Model/BoostInfo: tokens, lines, tree with a zipper for parent and lastChild | texts of entries as an inductive relation (Lines, Text) independent of the parser; induction on it with the zipper; paths by induction on the keys |
| C83 | Model/ValidatorConfig: load on the trees of C82, rule/filter/checker/anchor creation, with the state that remains after an exception; regexes, certificates and the anchor store are parameters | the meaning of the entries as inductive relations on Spec/BoostInfo items; each creation function is ok iff the relation holds; composition with C82 (text) and C53 (decision of rules) |
| C84 | Model/ConfigPolicy: load with its trust anchors, the rules, the certificate caches of both kinds, checkVerificationPolicy with the chain of waiting packets, KeyChain.verifyData/verifyInterest, timeouts, the timestamps and the return of callbacks as events | invariants over all histories: caches hold only trusted certificates (Trusted is the least relation), each call ends once, a potential bounds the Interests, the timestamps come from verified Interests; for replay, an invariant on remembered timestamps |
| C85 | Model/TrustAnchors: the container, static and dynamic groups, refresh, find, with files and directories as functions of time | an invariant over all histories: each anchor has been added by a call in the trace, or a watched group has its name and has had it in its file; completeness by a second invariant (anchors ordered by name, names of static groups present) and the interval property of the order of names |
| C86 | Model/IdentityStorage: the tables of BasicIdentityStorage and the dictionaries of MemoryIdentityStorage, call by call, and getNewKeyName | both refine one specification (partial maps): a relation between the tables and what is known is preserved by each call, and the answers agree; injectivity of the text of a key id for new names |
| C87 | Model/HmacSign: signing and verifying with HMAC, on the packet encoders and decoders of C20-C22, with the cached encodings | round trip by C20-C22; for received bytes, a new argument about the decoders: if the signed portion that the decoder reports is that of a packet that can be encoded, then the decoder gives what this packet says, wherever it is in the bytes |
| C88 | Model/SelfVerify: the two policies, verifyData and verifyInterest of security v1, signing by the identity manager, on the packet encoders and decoders of C20-C22, key names of C84, identity storage of C86 | case analysis of the policy against a specification of a justified signature; for received bytes the decoder lemmas of C87; round trip by C20-C22; histories of the storage by the invariant of C86 |
| C89 | Model/CommandSigner: the signer on the preparer of C54 and the KeyChain of C63-C66; histories of both | the history of the KeyChain calls is extracted, so that C65 applies; monotonicity of the last timestamp by induction over the history; composition with C54 for the validator |
| C90 | Model/Certificate on Model/Der: toDer, encode, decode with the state that an exception leaves, PublicKey's check | Spec/Certificate says which DER trees are a certificate (from X.690 by Spec/Der); encode gives such a tree by induction over the lists, decode of any encoding of such a tree gives its facts; round trip by composition |
| C91 | Model/Link on Data and DelegationSet of Model/Packet; histories of addDelegation and removeDelegation | invariant over the history (Content is the encoding of the set), with C27 for the set and its encoding and C22 for the packet |
| C92 | Model/IdentityCertificate on Certificate, with the name part of Model/ConfigPolicy; the key is given | case analysis of the function; the encoding by C90; the name read back by the characterisation of certificateNameToPublicKeyName |
| C93 | Model/Equality: the equals methods; encodings of Model/Packet | case analysis; that same encodings mean equal objects by decoding both (C19, C20 lemmas) |

## Where the code departs from a property

Each of these is proved as a theorem about the model (a witness), and the property is stated `_partial` without it.

* C01/C03: `TlvEncoder(0)` raises IndexError on the first write; numbers of 2^64 and more are truncated.
* C04: a Nack header without NackReason makes `decodeLpPacket` raise TypeError (`C04_lpPacket_typeError`).
* C10/C13: OTHER_CODE with the code of a recognized type compares equal to it but is not `equals`.
* C13: the parser refuses a URI whose digest component is not last; `Name("ndn:")` raises IndexError.
* C14, C19: `Name.match` compares values, not types.
* C16: `getSubName(-k)` with k > size counts from the wrong place.
* C18: an Exclude ending in two ANY makes `matches` raise AttributeError.
* C20: decoding into a used Interest keeps its old forwarding hint; C21: a v0.3 packet with only parameters is decoded
  as v0.2 and loses them.
* C23, C24: a change of the Link object of an Interest is not noticed.
* C44: `getFullName` returns its cache without checking that it is current.
* C29: if the match test of a pending Interest raises, Interests already taken from the table are lost
  (`C29_lost`).
* C30: `removePendingInterest` from inside a callback does not stop the delivery of the same packet (`C30_during_delivery`).
* C33, C34: `unsetInterestFilter` and `removeRegisteredPrefix` from inside an `onInterest` callback do not stop the dispatch of
  the same Interest to the filter (`C33_during_dispatch`, `C34_during_dispatch`).
* C35: if sending a queued Interest raises when the transport has connected, or `connect` raises, the queue is never
  processed and every later Interest is only queued (`C35_stuck`, `C35_connect_raises`).
* C46: a response to registerPrefix without content makes neither onRegisterSuccess nor onRegisterFailed be called (`C46_not_told`).
* C36: `MemoryContentCache.add` answers a stored Interest that requires freshness with a packet whose freshness period is 0
  (`C36_stale_answer`).  C38: if `face.send` raises for one stored Interest, the others are not answered (`C38_send_raises`).
* C39: the in-memory storage compares components by value, not by type (`C39_ignores_type`).
* C40: a packet with a longer name than the one asked for is taken as the segment (`C40_other_prefix`).  C41: a segment without
  content makes the concatenation raise, and neither onComplete nor onError is called (`C41_null_content`).
* C42: an Interest with the lifetime 0 is re-expressed for ever (`C42_zero`).
* C48: in the last half millisecond of a day a schedule answers for the next day (`C48_last_half`); at the time at which an
  interval ends it answers "allowed" (`C48_at_end`) or raises (`C48_adjacent`); `nRepeats` 0 raises ZeroDivisionError (`C48_zero_repeats`).
* C50: a schedule with dates before the year 1000 cannot be read back (`C50_early`).
* C51: the validity period of a trust anchor is not checked (`C51_expired_anchor`); removing all anchors does not end the trust in
  certificates that were verified with them (`C51_reset_anchors`).
* C52: a policy that raises for a received packet makes neither callback be called (`C52_raises`).
* C53: the hierarchical checker accepts `MONKEY` for `KEY` (`C53_key_substring`); under the simple hierarchy policy every trusted key can
  sign every name, with a key locator of one component (`C53_simple_escalation`).
* C54: a command Interest that is validated twice while its certificate is fetched is accepted twice (`C54_concurrent`); also if its record
  was pushed out (`C54_evicted`) or expired within the grace period (`C54_lifetime`).
* C55: captures of a group that is repeated, or not tried, are those of an earlier attempt or match (`C55_stale`); a repeated group that can
  be empty is not matched (`C55_nullable`); `<KEY>` matches `MONKEY` (`C55_search`); an expansion that ends with a component raises
  (`C55_expand_end`).
* C56: a table received from the network with one key in an entry where that key does not hash makes `listEntries` loop for ever
  (`C56_diverges`, `C56_diverges_on_the_wire`); a table for no entries raises ZeroDivisionError (`C56_zero`).
* C57: if the length of the content is a positive multiple of 4400, the announced final segment does not exist and a fetcher never
  completes (`C57_multiple`).
* C58: the same Interest a second time replaces the waiting entry, and the delayed call of the first removes the second early (`C58_duplicate`); an
  Interest for a version and a segment waits under a shorter name than its delayed call removes (`C58_versioned`); one without a lifetime raises
  TypeError and waits for ever (`C58_no_lifetime`); two names with the same hash break removeName (`C58_collision`); a table made by an attacker
  makes a later publishName raise KeyError, so that the other waiting Interests are not answered (`C58_poisoned`), or makes the handler of the
  Interest run for ever (`C58_hangs`).
- C59: a received content with two names of one prefix makes the sequence number go back and the application hear an empty range (`C59_backwards`); a received name whose number is 0 or has a leading zero stays in the set for ever (`C59_zero`, `C59_stale`).
- C60: only 32 bits of a number are digested, so a user who jumps ahead by 2^32 leaves the root as it was and nobody notices (`C60_wraps`).
- C61: another session of the own prefix changes `getSequenceNo` (`C61_other_session`) and makes `publishNextSequenceNo` raise RuntimeError (`C61_publish_raises`); publishing before `onInitialized` makes the timeout of the first Interest raise (`C61_early`); the answer to an old digest contains the last state heard of each name, not the newest, and only one session (`C61_stale`, `C61_one_session`).
- C62: after one Data packet that cannot be parsed no sync Interest is outstanding (`C62_stops`).
- C64: deleting a key that is not the default key forgets the default key of the identity in the stored PIB, not in the identity object (`C64_default_key_forgotten`); a replaced default certificate stays in the key object (`C64_default_certificate_stale`); createIdentityV2 raises TypeError if the default key has no certificate (`C64_create_identity_raises`), and for the empty name it raises and leaves an identity without a key and a private key without a public key (`C64_create_empty_identity`); createIdentityV2 of an identity that is there does not make it the default identity if there is none (`C64_no_default_identity`).
- C65: a key object that was kept after `deleteKey` can bring back the key without its private key, and then `sign` returns a packet without a signature (`C65_revived_key`).
- C66: `deleteIdentity` in a new KeyChain leaves the private keys of keys that were not loaded yet in the TPM (`C66_private_keys_stay`).
- C68: two CKs that are made in the same millisecond have the same name, and an Interest for it gets the first one (`C68_same_millisecond`); hence `C68_served_partial`. A retry that is scheduled is not cancelled when a KEK comes (`C68_asks_again`); a callback or an expressInterest that raises stops the retrieval for ever (`C68_raising_callback`, `C68_express_raises`); an Interest is sent after shutdown (`C68_after_shutdown`); a KEK that is of no use is never replaced (`C68_bad_kek`).
- C69: when a CK cannot be retrieved only the first caller is told; the others, and all later callers for this CK, are never answered and it is never asked for again (`C69_dead`, `C69_forgotten`, also after shutdown: `C69_after_shutdown`); hence `C69_answered_partial`. Two CKs under one KEK that are asked for at the same time: the second caller is told of a failure (`C69_same_kdk`). An onError that raises keeps others from being answered and the first is answered twice (`C69_raising_callback`); an expressInterest that raises late also leads to two answers (`C69_express_raises`).
- C70: two CKs made in the same millisecond have the same name, and what was encrypted with the first cannot be decrypted (`C70_same_time`); a CK that is replaced before the KEK came is never published (`C70_lost_ck`); the secret that protects the private key can have the byte 0, the comment says 1 to 127 (`C70_secret_zero`). Two new CKs that are asked for at once: see C69_same_kdk; hence the hypothesis OneAtATime.
- C71: encodings that are cut off are parsed (`C71_truncated`), IndexError instead of DerDecodingException (`C71_index`; hence `C71_safe_partial`), the indefinite length is taken as 0 (`C71_indefinite`), a child may be longer than its sequence (`C71_overrun`), after an inner length that is not the shortest the rest is parsed from the wrong place (`C71_misaligned`); OIDs: one number, 2.999, negative numbers (`C71_oid_one`, `C71_oid_large`, `C71_oid_negative`), `==` of two OIDs is always False (`C71_oid_equals`); a stale length without notifyParent (`C71_stale`); years before 1000 (`C71_year`).
- C72: IndexError and TypeError and the exceptions of the crypto library instead of TpmPrivateKey.Error (`C72_index_error`, `C72_type_error`, `C72_library_error`; hence `C72_safe_partial`); the key length and the pseudorandom function of PBKDF2 are ignored, so that a key that OpenSSL encrypted with HMAC and SHA256 is decrypted with the wrong key (`C72_prf_ignored`; hence `C72_load_encrypted_partial`).
- C73: the file is written in place, and ValueError of `b64decode` is raised outside of the `try`: after a crash while a key is written, hasKey, getKeyHandle, importKey and createKey for this name raise ValueError until the key is deleted (`C73_damaged`; hence `C73_crash_key_partial`); a key id from the hash of the public key is not checked (`C73_replaced`). Not in the model: OpenSSL leaves out the parameters of the curve in the ECPrivateKey inside a PKCS #8 encoding, so that whether an EC key is `Storable` depends on the library.
- C74: setTpmLocator decides between INSERT and UPDATE by whether the stored locator is empty: after it was set to "", as Pib._reset does, a row is added by each call and getTpmLocator gives "" for ever (`C74_locator_lost`); setDefaultKeyOfIdentity and setDefaultCertificateOfKey ignore the name of the identity or key (`C74_other_identity`); addCertificate with a null content raises after it added the identity (`C74_null_content`). The theorems are for nonempty locators and names that belong together.
- C75: excluding a range that lies inside of a range that is excluded already makes that range shorter (`C75_shrinks`); hence `C75_range_partial` and `C75_before_partial`.
- C76: `cleanEKeys` always raises, since it gives a parameter for a statement without one (`C76_clean`). After a restart the private keys are lost, and `getGroupKey` raises KeyError for an interval that had a key; with needRegenerate it deletes the E-KEY first, and raises once (`C76_restart`). One member with a key that RSA cannot use makes `getGroupKey` raise for all, after the new E-KEY was stored (`C76_bad_key`). The cases excluded in C48 are excluded here too. Hence `C76_map_partial`.
- C77: the signature of a received E-KEY is never verified (`C77_unverified`). An E-KEY that cannot be used, or a Data without a period in its name, and onEncryptedKeys is never called (`C77_lost`, hence `C77_called_partial`, `C77_given_partial`), nor is it with an empty data type (`C77_empty`). After a restart, or when no Interest was answered, the content key of the hour is used but its E-KEYs are never asked for again (`C77_restart`, `C77_given_up`). An E-KEY that begins exactly at the time slot is excluded (`C77_exact`); one that begins after it is used (`C77_early`). The name of a data packet is rounded to the next second, but not the hour of its key (`C77_rounded`).
- C78: a verified C-KEY that names no key, or a verified D-KEY whose second part cannot be decoded, and neither callback is ever called (`C78_silent`, hence `C78_exactly_partial`). A D-KEY with one part, which GroupManager makes if the private key is short enough for RSA, is not accepted (`C78_single`). When a group key is made anew with the same name, a consumer that has the old one uses it for ever (`C78_stale`).
- C79: D-KEY packets are of the kind that the consumer accepts only if the private key of the group is too long for RSA (hypothesis of `C79_dkey`; see `C78_single`).
- C80: a SigningInfo for the identity /localhost/identity/digest-sha256 is read back from its string as a SHA-256 digest (`C80_digest_identity`).
- C81: strings are encoded as UTF-8 but decoded byte by byte (`C81_string`); an optional boolean set to false comes back as not set and a false in a repeated field is lost (`C81_false`); a present sub-message with no field set comes back as absent (`C81_empty`).
- C82: a semicolon cuts the line even in quotes (`C82_semicolon`); the rest of a section written on one line is ignored with its closing brace (`C82_one_line`); a quoted brace opens a section (`C82_quoted_brace`); a brace without a gap is part of the key (`C82_no_gap`); unbalanced braces at the end are accepted (`C82_unbalanced`); words after the value are ignored (`C82_more_words`).
- C83: the sig-type of a checker is ignored (`C83_sig_type`), so a configuration cannot ask for a kind of signature; unknown keys are ignored silently; a rule that raises leaves the rules before it in force (within `C83_safe`).
- C84: too deep a search raises TypeError instead of calling onValidationFailed (`C84_depth_raises`); a fetched certificate that has expired ends the call in silence (`C84_expired_silent`); onValidationFailed gets the certificate instead of the packet (`C84_failed_certificate`); an HMAC signature raises (`C84_hmac_raises`); a command that arrives again before onVerified returns is verified twice (`C84_reentrant_replay`); timestamps are forgotten with too many keys (`C84_evicted_replay`) and removing old ones raises RuntimeError in Python 3 (`C84_update_raises`); trust anchors are forgotten after one hour with v2 certificates (`C84_anchor_forgotten`); a directory without refresh makes load raise (`C84_dir_without_refresh`); only the first checker of a rule counts (`C84_first_checker`); in security v1 a fixed signer's certificate is never found under its name (`C84_fixed_signer_v1`).
- C85: the claims need directories that can be listed and have no two certificates with the same name: otherwise insert raises KeyError and leaves the certificate trusted for ever without a group (`C85_duplicate_stays`), and a deleted directory's certificates stay (`C85_deleted_stays`). A certificate in a file that is replaced by one with the same name stays (`C85_not_replaced`); removing a certificate from one group takes it from all, and it cannot be added to the others again (`C85_two_groups`); a refused certificate blocks its name (`C85_refused_blocks`).
- C86: proved for names with generic components and key ids without escaped characters: BasicIdentityStorage stores the escaped text of the last component and appends it unescaped, so the default key of a key id with a space is a name that is not in the storage (`C86_escaped_key_id`). MemoryIdentityStorage cannot delete (`C86_memory_no_delete`), takes an unknown key as a default (`C86_unknown_default_key`) and a certificate of another key as the default certificate (`C86_other_default_certificate`). A certificate is added even if the stored key with its name is another one (`C86_certificate_other_key`); the last timestamp belongs to one storage (`C86_two_storages`); an empty key name raises IndexError in one of them (`C86_empty_key_name`).
- C87: a packet that was received in an encoding other than the library's own and is signed again with HMAC does not verify, since the cached encoding is signed and a new one is sent (`C87_received_signed_again`): the theorem asks for no cached encoding, or the library's own. The kind of signature and the key name are not checked (`C87_kind_not_checked`); an Interest name with less than two components raises IndexError instead of giving False (`C87_short_name`).
- C88: a PIB without the key raises NameError instead of calling onValidationFailed (`C88_pib_missing_key`); a signature of another kind raises SecurityException (`C88_unknown_kind`, `C88_hmac`); what is signed by a certificate whose name ends in ID-CERT is not verified (`C88_id_cert_last`). These are outside the hypotheses of the theorems, which name the kinds of signature and the answers of the storage. A digest is verified whoever made it (`C88_digest_anybody`).
- C89: two signers for the same key can use the same timestamp (`C89_two_signers`); the theorem for the validator asks that the accepted commands with the key are of this signer. Times are bounded so that a timestamp has 8 bytes.
- C90: the value of a description is decoded as text and stored as UTF-8, so bytes from 128 on change (`C90_text_departure`); decode appends to the lists, so a second wireDecode doubles them (`C90_again_departure`); isTooEarly and isTooLate compare a method with a number and raise TypeError (`C90_early_departure`).
- C91: addDelegation of a negative preference raises after the set was changed (`C91_negative_departure`); a Link packet without Content raises TypeError (`C91_absent_departure`).
- C92: a component "KEY" in the identity is taken for the one that was inserted (`C92_key_departure`).
- C93: MetaInfo.equals ignores the other type code (`C93_metaInfo_departure`); ControlParameters.equals is never True, for the misspelled `_expirationPerion` and for flags without `__eq__` (`C93_controlParameters_departure`).

Seen when reading, and part of the model: an LpPacket without a fragment makes `onReceivedElement` raise TypeError; an
`expressInterest` that raises because the Interest is too big, cannot be encoded or cannot be sent has already put
it on the table, so its `onTimeout` will still be called; a register response without content raises TypeError
(caught and logged), so neither `onRegisterFailed` nor `onRegisterSuccess` is called.

## Trusted base

* Lean 4.33.0's kernel. Every theorem listed in MANIFEST.json depends on at most the axioms `propext`,
  `Classical.choice`, `Quot.sound` (checked with `#print axioms`).
* The reading of the Python code: the model is tied to the code only by the citations.

## Modelled parts of the code

| model file | code |
|---|---|
| Model/Encoder, Model/Decoder | encoding/tlv/tlv_encoder.py, tlv_decoder.py, util/dynamic_byte_array.py |
| Model/Framing | encoding/tlv/tlv_structure_decoder.py, encoding/element_reader.py |
| Model/Name, NameHash, NameUri, Text | name.py, util/blob.py (comparisons), the parts of str/urllib used |
| Model/Packet | encoding/tlv_0_2_wire_format.py, tlv_0_3_wire_format.py (Interest, Data, Name, ControlParameters, ControlResponse, DelegationSet, LpPacket, signature info) and the value objects they fill |
| Model/Match | exclude.py, interest.py matchesName/matchesData, key_locator.py |
| Model/Objects | data.py, interest.py, key_locator.py, signature classes, meta_info.py, util/change_counter.py as mutable objects |
| Model/Node | node.py, impl/pending_interest_table.py, interest_filter_table.py, registered_prefix_table.py, delayed_call_table.py, interest_filter.py (the regular expression is a parameter), the dispatch of face.py and threadsafe_face.py |
| Model/ContentCache | util/memory_content_cache.py (not the calls to register with the face) |
| Model/SegmentFetcher | util/segment_fetcher.py |
| Model/Storage | in_memory_storage/in_memory_storage_retaining.py (insert, find by name, remove, size) |
| Model/ReExpress | util/exponential_re_express.py |
| Model/CertStore, Validator | security/v2/*.py (not validation_policy_from_pib.py; for dynamic anchor groups the result of reading a file is an event, and the reading of the configuration text is not modelled), security/verification_helpers.py up to the cryptographic check, which is a parameter |
| Model/Preparer | security/command_interest_preparer.py |
| Model/Regex | util/regex/*.py (not the capture groups inside a component expression; Python's `re` is a parameter) |
| Model/Iblt | sync/detail/invertible_bloom_lookup_table.py (MurmurHash3 and zlib are parameters) |
| Model/Schedule, ScheduleWire | encrypt/interval.py, repetitive_interval.py, schedule.py, group_manager.py:210-266 |
| Model/PSyncSegments | sync/detail/psync_state.py, sync/detail/psync_segment_publisher.py (signing and the full name are parameters) |
* `Model/PSync`: sync/full_psync2017.py, sync/psync_producer_base.py. Left out: the random delay of the next sync Interest (an action of its own), logging, the
  SegmentFetcher in between (C40, C57), the registration of the prefix.
- sync/full_psync2017_with_users.py, sync/detail/psync_user_prefixes.py, sync/psync_missing_data_info.py: all methods, except that the keys of the dictionary are copies of the names.
* `sync/digest_tree.py`: all. Model/ChronoSync.
* `sync/chrono_sync2013.py`: all but logging; callbacks of the application do not call back into the instance; SHA-256 and the protobuf library are parameters; the content cache is the events `cache` and `keep`. Model/ChronoSync.
* `Model/KeyChain`: security/pib/pib.py, pib_memory.py, pib_identity.py, pib_key.py, pib_identity_container.py, pib_key_container.py, pib_certificate_container.py, detail/*.py, security/tpm/tpm.py, tpm_back_end.py, tpm_back_end_memory.py, tpm_key_handle_memory.py, security/signing_info.py, the security v2 part of security/key_chain.py (not signWithHmacWithSha256, and not the conversion of a SafeBag to bytes). Left out: `size()` and `isConsistent()` of the containers, logging, the choice of PIB and TPM by locator and configuration file.
* `Model/Encrypted`: encrypt/encrypted_content.py (the data and its encodings), encoding/tlv_0_2_wire_format.py:674-795, security/safe_bag.py:120-171.
* `Model/Nac`: encrypt/encryptor_v2.py, encrypt/decryptor_v2.py, the packets of encrypt/access_manager_v2.py (91-99, 134-180) and the padding of encrypt/algo/aes_algorithm.py (74-140).
- the packets of `AccessManagerV2` (`kekName`, `kekData`, `kdkName`, `kdkData`, `secretByte`) and `AesAlgorithm` with its padding; not its prefix registration and not its constructor's callbacks.
- encoding/der/der_node.py and encoding/oid.py (Model/Der).
- security/tpm/tpm_private_key.py: loadPkcs1, loadPkcs8, loadEncryptedPkcs8, toPkcs1, toPkcs8, toEncryptedPkcs8, and `_doExportKey`, `_doImportKey` of tpm_back_end_memory.py (Model/PrivateKey). Assumed of the `cryptography` package, for a key: `Spec.PrivateKey.Sound`.
- util/common.py: base64Encode; security/tpm/tpm_back_end_file.py and the methods of tpm_back_end.py that it inherits (Model/TpmFile), with b64encode and b64decode of CPython. Assumed: reading and removing a file do not fail; the hash of SHA-256 does not collide on the names used; keys are `Storable`.
- security/pib/pib_sqlite3.py: the schema, the statements and all methods but the constructor's search for the directory (Model/PibSqlite). Assumed: SQLite executes a statement with its triggers and its commit as a whole or not at all, and fails only for a constraint.
- encrypt/producer.py:451-651, the ranges of an Exclude (Model/ExcludeRange).
- encrypt/group_manager.py, encrypt/sqlite3_group_manager_db.py (Model/GroupManager) and `Encryptor.encryptData` of encrypt/algo/encryptor.py (Model/EncryptorV1); not modelled: RSA, AES, the random generator, SQLite's storage, `keyChain.sign` (any function that keeps name, MetaInfo and content), the parsing of a member's certificate.
- encrypt/producer.py, encrypt/producer_db.py and encrypt/sqlite3_producer_db.py (Model/Producer), without a key retrieval Link; not modelled: RSA, AES, the random generator, SQLite's storage, `keyChain.sign` (any function that keeps name, MetaInfo and content), the face (for each Interest at most one callback, once: C30, C33).
- encrypt/consumer.py and encrypt/sqlite3_consumer_db.py (Model/Consumer), without Links; not modelled: RSA, AES, SQLite's storage, the face (for each Interest at most one callback, once: C30, C33), `KeyChain.verifyData` (its outcome is an input).
- security/signing_info.py: all (PIB objects are numbers; Names are values).
- encoding/protobuf_tlv.py: encode, decode and their helpers (Python 3); not toName. The protobuf library is outside the repository: its descriptors, HasField, IsInitialized and the checks on assignment are modelled as described in Model/ProtobufTlv.lean; Python's recursion limit is not modelled.
- util/boost_info_parser.py: shlex_split, BoostInfoTree (addSubtree, createSubtree, __getitem__, getFirstValue, _prettyprint), BoostInfoParser.read, _read, _parseLine with #include; files are a partial function from names to texts. Not clone, readPropertyList; write only through str.
- security/v2/validation_policy_config.py: load, _processConfigTrustAnchor, _getRefreshPeriod (ASCII digits; the float result as a number), and the creation functions of validator_config/*.py. Parameters: NdnRegexTopMatcher (C55 for its own claim), b64decode with CertificateV2.wireDecode, the trust anchor container. resetVerifiedCertificates is not in the state.
- security/policy/config_policy_manager.py (whole, except inferring the search directory of a file and the failure reasons), policy/certificate_cache.py, certificate/identity_certificate.py (names), KeyChain.verifyData, verifyInterest, _onCertificateData, _onCertificateInterestTimeout. Parameters: regular expressions (C55), files and directories over time, base64 and certificate decoding, the public key in a v1 certificate, the cryptographic check. All exceptions of _extractSignature are taken as failures. Loading is that of a configuration that can be parsed (C82); the histories of the soundness claim load one configuration.
- security/v2/trust_anchor_container.py, static_trust_anchor_group.py, dynamic_trust_anchor_group.py, trust_anchor_group.py (whole). Parameters: the certificates in files and directories over time.
- security/identity/basic_identity_storage.py, memory_identity_storage.py, identity_storage.py: all except the key type, issuer, validity and active columns, TpmInfo and the getAll... lists. Parameters: decoding a stored certificate gives it back; the database does not fail.
- security/key_chain.py:1282-1416 (HMAC). Parameter: HMAC-SHA256 as a function of the key and the message; `unforgeable` is relative to it: the alternative is an explicit forgery of the code.
- security/policy/self_verify_policy_manager.py, no_verify_policy_manager.py, policy_manager.py:129-160, security/key_chain.py:1149-1272 (with these policies), identity/identity_manager.py:513-661, 706-738. Parameters: verifying with a public key, signing with a private key, SHA-256. Not modelled: failure reasons, old-style callbacks, selfSign and the generation of certificates.
- security/command_interest_signer.py:30-94, with Model/Preparer and Model/KeyChain.
- security/certificate/certificate.py:33-48, 50-71, 104-161, 203-388 and security/certificate/public_key.py:48-89; not: __str__, isInValidityPeriod, encrypt, getDigest; a key that the library loads is a parameter.
- link.py (whole; not what wireDecode leaves when it raises, nor changes of the set that getDelegations returns).
- identity_certificate.py:51-110 (setName) and identity_manager.py:338-393, 680-704 (prepareUnsignedIdentityCertificate with the public key given, _generateCertificateForKey; not signing them).
- blob.py:197-227, meta_info.py:180-186, registration_options.py:140-145, control_parameters.py:264-276 (equals).

## Not modelled

* The optional C bindings (`_pyndn`), Python-2-only branches (`_memoryviewWrapper`), logging.
* Floating point: times and lifetimes are exact integers (in the schedules: exact rational numbers) in the model.
* Threads: the library is modelled as its single-threaded event loop.
* Security v1: security/certificate, identity, policy, and the v1 part of key_chain.py.
* The TPM on macOS (tpm_back_end_osx.py), and what wraps cryptographic libraries (verification_helpers.py below `verifySignature`; of tpm_private_key.py what calls the `cryptography` package).
* encoding/protobuf_tlv.py, util/boost_info_parser.py, util/config_file.py.
* encrypt/: all but the schedules (interval.py, repetitive_interval.py, schedule.py, group_manager.py:210-266), EncryptedContent, and EncryptorV2, DecryptorV2 and the packets of AccessManagerV2 (see Model/Nac).
* transport/: sockets and polling (the element reader, which they call, is modelled).
* contrib/, and files that only define constants, interfaces or exceptions.
