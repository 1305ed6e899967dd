{
 "C13": {
  "status": "partial",
  "note": "Proved for canonical names whose digest components are last; C13_digest_not_last_fails proves that the parser refuses the URI of any other name (the hex digest runs to the end of the URI, name.py:660,665)."
 },
 "C14": {
  "status": "partial",
  "note": "match compares values only (name.py:1129): proved exactly; C14_ignores_type is the witness that component types are not compared."
 },
 "C16": {
  "status": "partial",
  "note": "Proved for all start >= -size; C16_subName_out_of_range is the witness below that."
 },
 "C04": {
  "status": "partial",
  "note": "Proved for Name, Data, Interest, DelegationSet, ControlParameters and ControlResponse. decodeLpPacket: C04_lpPacket_partial allows TypeError as well, and C04_lpPacket_typeError is the witness (a Nack header without NackReason compares None < 0, tlv_0_2_wire_format.py:603)."
 },
 "C18": {
  "status": "partial",
  "note": "C18_matches characterizes the answer of Exclude.matches for every Exclude; it is the specified one except that an Exclude ending in two or more ANY after a listed component makes matches raise AttributeError for components not excluded earlier and not after the last listed one (C18_anyAny, exclude.py:225-232); C18_matches_partial is the specification for all other Excludes."
 },
 "C19": {
  "status": "partial",
  "note": "Proved exactly up to two deviations of the code: the prefix test compares component values, not types (C19_ignores_type, name.py:1129), and the exception of C18."
 },
 "C20": {
  "status": "partial",
  "note": "Proved for every encodable Interest decoded into a fresh object (and re-used objects, except that a stale forwarding hint of the old object is kept: C20_stale_forwardingHint)."
 },
 "C21": {
  "status": "partial",
  "note": "Proved whenever the packet has a CanBePrefix, MustBeFresh or ForwardingHint field; C21_parameters_lost is the witness that otherwise the packet is decoded as v0.2 and the application parameters are lost (tlv_0_2_wire_format.py decodeInterest)."
 },
 "C25": {
  "status": "proved",
  "note": "A ControlResponse without a status code cannot be encoded: C25_statusCode_required (TypeError)."
 },
 "C23": {
  "status": "partial",
  "note": "Data: proved for every history. Interest: proved for every history that does not change the Link object got from getLink (C23_interest_partial); C23_link_unnoticed is the witness that such a change leaves the old encoding cached (interest.py:879-896 does not look at the link)."
 },
 "C24": {
  "status": "partial",
  "note": "Proved as a step theorem and for histories, except that changing the Link object got from getLink does not count as a change: C24_link_unnoticed is the witness."
 },
 "C44": {
  "status": "partial",
  "note": "Proved for the first call on an object; C44_stale_after_change, C44_stale_after_decode and C44_stale_other_format prove that later calls return the old full name (data.py getFullName returns the cached name before looking at the change count)."
 },
 "C29": {
  "status": "partial",
  "note": "Proved for every reachable state, packet and behaviour of the callbacks, if no match test of a pending Interest raises; C29_lost is the witness that when one raises (an Exclude ending in ANY ANY, C18), Interests already taken from the table get no callback at all (pending_interest_table.py:170-182)."
 },
 "C30": {
  "status": "partial",
  "note": "Proved for every execution, except a removal made from a callback while the library is passing the same packet to that Interest; C30_during_delivery is the witness (node.py:702-707 does not look at the removed flag)."
 },
 "C33": {
  "status": "partial",
  "note": "Proved for every execution, except an unsetInterestFilter made from a callback while the library is passing one Interest to the matching filters; C33_during_dispatch is the witness (node.py _dispatchInterest copies the matched filters before calling)."
 },
 "C34": {
  "status": "proved",
  "note": "C34_not_called goes beyond the property (no calls after removal) and needs that the filter is not being dispatched to at that moment; C34_during_dispatch shows why."
 },
 "C35": {
  "status": "partial",
  "note": "Once, in order, not before the connection, and all processed when the connection is complete are proved for every schedule. That onConnected processes the whole queue is proved if no encoding or send raises (and without loopback); C35_stuck and C35_connect_raises are witnesses that if one raises, the remaining Interests are never sent (node.py:126-178)."
 },
 "C46": {
  "status": "partial",
  "note": "Everything is proved for every execution, except that a response with no content (or content whose decoding raises RuntimeError) is reported by neither callback: C46_not_told is the witness (node.py:782-792 catches only ValueError)."
 },
 "C36": {
  "status": "partial",
  "note": "Proved for every history, except that a stored pending Interest with MustBeFresh is also answered with a packet whose freshness period is 0: C36_stale_answer is the witness (memory_content_cache.py:289 checks only matchesName)."
 },
 "C37": {
  "status": "proved",
  "note": "The Interest's exclude filter must not end in two ANY entries, for which the match test raises (C18). C37_child quantifies over all packets within their cache lifetimes."
 },
 "C38": {
  "status": "proved",
  "note": "C38_all goes beyond the property: if sending does not raise, adding a packet answers every matching stored Interest that has not timed out; C38_send_raises shows that one failing face.send leaves the others unanswered."
 },
 "C39": {
  "status": "partial",
  "note": "Proved with components compared by value; Name.match ignores their types, so find can return a packet whose full name differs from an extension of the name in the types (C39_ignores_type); C39_found_prefix_partial assumes equal types."
 },
 "C40": {
  "status": "proved",
  "note": "C40_complete is the property. C40_same_prefix_partial and C40_completes_partial go beyond it: all the segments have the same prefix if the network does not answer with longer names (C40_other_prefix is the witness that they need not otherwise), and the fetch completes when the final segment arrives."
 },
 "C41": {
  "status": "partial",
  "note": "At most one outcome: proved. Never stuck: proved for executions in which no exception is raised; a segment without content makes the concatenation raise and neither callback is called (C41_null_content)."
 },
 "C42": {
  "status": "partial",
  "note": "Doubling, the bound and at-most-once are proved in full. That onTimeout is called after finitely many timeouts is proved for lifetimes that are not 0; C42_zero proves that an Interest with the lifetime 0 is expressed for ever."
 },
 "C47": {
  "status": "proved",
  "note": "C47_loopback_partial assumes that the match tests of the pending Interests do not raise (see C29); the property without loopback needs no hypothesis."
 },
 "C48": {
  "status": "partial",
  "note": "Intervals: proved in full. Verdict: proved for every time except the last half millisecond of a day (rounded to the next day, C48_last_half) and a time at which an interval of the schedule ends (the verdict is then 'allowed' with an interval that does not cover the time, C48_at_end, or RuntimeError, C48_adjacent), for repeats that are not 0 (C48_zero_repeats) and dates in the years 1-9999."
 },
 "C49": {
  "status": "partial",
  "note": "Proved under the conditions of C48 on the time slot and each schedule."
 },
 "C50": {
  "status": "partial",
  "note": "Proved for dates in the years 1000-9999; a schedule with an earlier date is encoded so that it cannot be decoded (C50_early)."
 },
 "C51": {
  "status": "proved",
  "note": "For every policy and signature check. The validity period of a trust anchor itself is not checked by the code (C51_expired_anchor), and removing the anchors keeps the certificates verified with them (C51_reset_anchors)."
 },
 "C52": {
  "status": "proved",
  "note": "Assumes that the Face answers an Interest at most once, which the Face model proves (C29, C30). Where a policy or check raises, neither callback is called (C52_raises)."
 },
 "C53": {
  "status": "partial",
  "note": "Rules: proved in full. The hierarchical checker accepts any component that contains KEY in place of KEY (C53_key_substring); the theorem says so. For the simple hierarchy policy only the prefix relation is proved: the form of the key locator is not checked, and any trusted key can sign any name (C53_simple_escalation)."
 },
 "C54": {
  "status": "partial",
  "note": "No replay: proved if commands with one key are validated one after the other (otherwise false: C54_concurrent), records live longer than twice the grace period (C54_lifetime) and there is room for a record of each key (C54_evicted). The other parts are proved without these conditions. Times are whole milliseconds."
 },
 "C55": {
  "status": "partial",
  "note": "Soundness in full; completeness if no group that has to be repeated can stand for nothing (C55_nullable) and names of at most 32767 components; captures if no group is repeated (C55_stale); expansions that do not end with a component (C55_expand_end). A component expression is searched, not matched (C55_search). Capture groups inside component expressions are not modelled."
 },
 "C56": {
  "status": "proved",
  "note": "If the check hash has no collision on the differing keys (NoCollision); a False answer is characterised by an entangled group of keys. For tables that are not made from keys, see C56_diverges. MurmurHash3 is a parameter; the round trip of the encoding assumes that zlib restores its input and covers tables of sets (no negative counts)."
 },
 "C57": {
  "status": "partial",
  "note": "C57_state, C57_segments, C57_expires and C57_reply in full; the fetch completes unless the length of the content is a positive multiple of 4400 (then it does not: C57_multiple)."
 },
 "C58": {
  "status": "partial",
  "note": "C58_set, C58_names, C58_told: for all histories, if the names that occur have different hashes. C58_answer, C58_sync, C58_pending: if in addition the check hash has no collision on the difference (as C56); C58_answer also says exactly what is answered if the difference cannot be read off the tables. C58_announces, C58_late in full. C58_expires_partial: excludes Interests without lifetime and with version and segment, for which it is false (C58_no_lifetime, C58_versioned). Counterexamples: C58_duplicate, C58_collision, C58_poisoned, C58_hangs."
 },
 "C59": {
  "status": "partial",
  "note": "The English claim excludes contents with several names of one prefix, number 0 or non-canonical numbers; for those C59_backwards, C59_zero and C59_stale show that it fails. Different names are assumed to have different hashes. C59_answer and C59_sync assume that the difference can be read off the tables and that the Interest is not answered from the store."
 },
 "C60": {
  "status": "proved",
  "note": "SHA-256 is a parameter; C60_differ needs that it has no collision among the strings hashed for the two trees. C60_wraps is a witness of the 32-bit limit."
 },
 "C61": {
  "status": "partial",
  "note": "C61_own_partial and C61_publish need the discipline that the English claim names (else C61_other_session, C61_publish_raises, C61_early). C61_answer_partial gives the same tree only if numbers came in order from one session (else C61_stale, C61_one_session). Different states that occur are assumed to have different digests (C61_distinct derives it from the absence of collisions). The contents given to _update are a ghost field of the state; C61_numbers ties it to what the application was told."
 },
 "C62": {
  "status": "proved",
  "note": "For histories whose received Data can be parsed; C62_stops is the witness for others. Different states that occur are assumed to have different digests."
 },
 "C63": {
  "status": "proved",
  "note": "C63_consistent, for every history, with any object numbers. No hypothesis on the cryptography."
 },
 "C64": {
  "status": "proved",
  "note": "The discipline that the English claim names is Disciplined; C64_default_key_forgotten and C64_default_certificate_stale show that it is needed. The PIB and TPM are those in memory."
 },
 "C65": {
  "status": "proved",
  "note": "That a signature of a generated key verifies with its public key is a hypothesis (Sound). The packets must be encodable in the sense of C20 and C22."
 },
 "C66": {
  "status": "proved",
  "note": "That a private key can be read back from what was written, with the same password, is a hypothesis of C66_safe_bag. The private keys that deleteIdentity removes are those whose key objects the KeyChain has (else C66_private_keys_stay)."
 },
 "C67": {
  "status": "proved",
  "note": "Version 2 keeps neither the algorithm nor a key locator that is not a name; version 1 does not keep the payload key. A null payload is decoded as an empty one."
 },
 "C68": {
  "status": "partial",
  "note": "C68_served_partial asks that CKs are made at different times below 2^64 ms; C68_same_millisecond shows that it is needed. C68_retries and C68_never_stops are for callbacks and an expressInterest that do not raise; the witnesses show that they are needed."
 },
 "C69": {
  "status": "partial",
  "note": "C69_answered_partial: a caller that is not the first one for a CK is not told when the retrieval fails (C69_dead, C69_forgotten). The theorems are for callbacks that do not raise and an expressInterest that does not raise after it has put the Interest on its table; the witnesses show that both are needed. C69_source needs neither."
 },
 "C70": {
  "status": "partial",
  "note": "C70_member needs that the CKs were made at different milliseconds, that the CK of the content was published, and that a new CK is asked for only when earlier calls are answered; C70_same_time, C70_lost_ck and C69_same_kdk show that each is needed. The validator argument of EncryptorV2 and DecryptorV2 is never used by the code (commented out), so there is no authenticity claim."
 },
 "C71": {
  "status": "partial",
  "note": "C71_safe_partial: besides DerDecodingException, IndexError is raised (C71_index). The theorems on encode need that addChild below the root notifies the parent, which is not the default (C71_stale). An OID of one number does not come back (C71_oid_one); times only in the years 1000 to 9999 and without the fraction of the second (C71_year)."
 },
 "C72": {
  "status": "partial",
  "note": "C72_safe_partial: exceptions other than TpmPrivateKey.Error are raised. C72_load_encrypted_partial: the pseudorandom function in the PBKDF2 parameters is ignored. The crypto library is assumed sound (Spec.PrivateKey.Sound)."
 },
 "C73": {
  "status": "partial",
  "note": "C73_crash_key_partial: after a crash while the key is written ValueError may be raised for this name until it is deleted (C73_damaged). Everything else is proved for all histories."
 },
 "C74": {
  "status": "proved",
  "note": "C74_map for all histories of `Fine` calls (nonempty locator, names that belong together); departures outside of this: C74_locator_lost, C74_other_identity, C74_null_content."
 },
 "C75": {
  "status": "partial",
  "note": "excludeAfter is proved in full; C75_range_partial and C75_before_partial need something in the range that is not excluded before (C75_shrinks)."
 },
 "C76": {
  "status": "partial",
  "note": "C76_crash and C76_same_key are in full. C76_map_partial describes every call, with what the code does in place of what is documented for cleanEKeys (C76_clean) and for getGroupKey after a restart (C76_restart), and for members' keys that RSA can use (C76_bad_key) and time slots that C48 admits."
 },
 "C77": {
  "status": "partial",
  "note": "C77_content_keys, C77_sealed, C77_once, C77_retries, C77_excluded, C77_hour and C77_next are in full. C77_called_partial (exactly one call of onEncryptedKeys) and C77_given_partial (all packets are given) need that all Data are usable E-KEYs and that there is no restart: C77_lost, C77_restart."
 },
 "C78": {
  "status": "partial",
  "note": "C78_opened, C78_once, C78_accounted, C78_requests, C78_kept, C78_unverified, C78_unanswered and C78_retried are in full. C78_exactly_partial (exactly one callback) needs that the verified Data for keys can be read: C78_silent."
 },
 "C79": {
  "status": "proved",
  "note": "In full, for the models of C76, C77 and C78. That a Data for a key has the key of the Interest follows from the names; that the answer to an Interest is a packet of that kind is a hypothesis (HonestTrace), shown of the packets of the group manager and the producer by C79_content, C79_ckey and C79_dkey."
 },
 "C80": {
  "status": "partial",
  "note": "In full for histories, constructors, getters and accepted strings; the round trip excepts the digest identity (C80_digest_identity shows the departure) and the names of C13."
 },
 "C81": {
  "status": "partial",
  "note": "Encoding, refusal, decoding into any target and required fields in full; the round trip excepts what C81_string, C81_false and C81_empty show to be changed. The exact result for the excepted messages is given by C81_decode (Spec readMessage)."
 },
 "C82": {
  "status": "partial",
  "note": "All texts in which words with a semicolon or a single brace do not occur and sections are on several lines; the excepted forms are shown to be taken otherwise (C82_semicolon, C82_one_line, C82_quoted_brace, C82_no_gap). Paths (C82_get, C82_first) in full for keys without a slash."
 },
 "C83": {
  "status": "proved",
  "note": "Iff for loading and deciding, for all trees of entries; from the text for all texts in the sense of C82. Regex compilation, certificate decoding and the anchor store are arbitrary parameters."
 },
 "C84": {
  "status": "partial",
  "note": "Soundness, one end per call, the bound on Interests, the grace interval of a key's first command and increasing timestamps are proved for all histories. Not as documented: silence or exceptions instead of onValidationFailed, replay inside onVerified and after eviction, forgotten trust anchors, ignored checkers (witness theorems)."
 },
 "C85": {
  "status": "partial",
  "note": "Proved for all histories with directories that can be listed and have no duplicate names. C85_complete_partial also needs that the name was never removed from any group, refused, or in a watched file; the witnesses show what happens otherwise."
 },
 "C86": {
  "status": "partial",
  "note": "Proved for all histories with generic names and key ids without escaped characters (the witness C86_escaped_key_id shows what happens otherwise); for the memory storage also without deletions and with known defaults, since it cannot delete and does not check. New key names: proved without restrictions."
 },
 "C87": {
  "status": "partial",
  "note": "Data with a cached foreign encoding is excluded (the witness C87_received_signed_again shows that the claim is false for it). For received bytes nothing is assumed."
 },
 "C88": {
  "status": "proved",
  "note": "Packets and Interests, verifying, failing, received bytes, signing, histories of the identity storage; the departures are stated as theorems."
 },
 "C89": {
  "status": "proved",
  "note": "Composition of the signer, the KeyChain, the wire format and the validator's policy."
 },
 "C90": {
  "status": "partial",
  "note": "The round trip holds for descriptions of ASCII text; for other bytes the code departs (C90_text_departure)."
 },
 "C91": {
  "status": "partial",
  "note": "Proved for preferences that are not negative; for others the code departs (C91_negative_departure)."
 },
 "C92": {
  "status": "partial",
  "note": "Proved for prefixes without a component \"KEY\"; for others the code departs (C92_key_departure)."
 },
 "C93": {
  "status": "partial",
  "note": "Equal meta infos encode alike is proved for types other than OTHER_CODE; for OTHER_CODE the code departs (C93_metaInfo_departure), and ControlParameters.equals is never True (C93_controlParameters_departure)."
 }
}