{
 "claims": [
  {
   "property": "C01",
   "status": "proved",
   "theorems": [
    "PyNDN.C01_varNumber_roundtrip",
    "PyNDN.C01_varNumber_bytes",
    "PyNDN.C01_varNumber_size",
    "PyNDN.C01_varNumber_shortest",
    "PyNDN.C01_varNumber_truncates"
   ],
   "note": ""
  },
  {
   "property": "C02",
   "status": "proved",
   "theorems": [
    "PyNDN.C02_nonNegativeIntegerTlv_roundtrip",
    "PyNDN.C02_negative_refused",
    "PyNDN.C02_optional_write",
    "PyNDN.C02_optional_read",
    "PyNDN.C02_bad_length_refused"
   ],
   "note": ""
  },
  {
   "property": "C03",
   "status": "proved",
   "theorems": [
    "PyNDN.C03_output_independent_of_buffer",
    "PyNDN.C03_zero_capacity_fails"
   ],
   "note": ""
  },
  {
   "property": "C04",
   "status": "partial",
   "theorems": [
    "PyNDN.C04_name",
    "PyNDN.C04_data",
    "PyNDN.C04_interest",
    "PyNDN.C04_delegationSet",
    "PyNDN.C04_controlParameters",
    "PyNDN.C04_controlResponse",
    "PyNDN.C04_lpPacket_partial",
    "PyNDN.C04_lpPacket_typeError"
   ],
   "note": "Proved for Name, Data, Interest, DelegationSet, ControlParameters and ControlResponse. decodeLpPacket: C04_lpPacket_partial allows TypeError as well, and C04_lpPacket_typeError is the witness (a Nack header without NackReason compares None < 0, tlv_0_2_wire_format.py:603)."
  },
  {
   "property": "C05",
   "status": "proved",
   "theorems": [
    "PyNDN.C05_finish_exact",
    "PyNDN.C05_critical_refused"
   ],
   "note": ""
  },
  {
   "property": "C06",
   "status": "proved",
   "theorems": [
    "PyNDN.C06_name",
    "PyNDN.C06_data",
    "PyNDN.C06_interest",
    "PyNDN.C06_controlParameters",
    "PyNDN.C06_controlResponse",
    "PyNDN.C06_lpPacket"
   ],
   "note": ""
  },
  {
   "property": "C07",
   "status": "proved",
   "theorems": [
    "PyNDN.C07_framing",
    "PyNDN.C07_chunking_independent",
    "PyNDN.C07_raising_listener_loses_rest"
   ],
   "note": ""
  },
  {
   "property": "C08",
   "status": "proved",
   "theorems": [
    "PyNDN.C08_bounded",
    "PyNDN.C08_error_resets",
    "PyNDN.C08_only_value_error",
    "PyNDN.C08_limit"
   ],
   "note": ""
  },
  {
   "property": "C09",
   "status": "proved",
   "theorems": [
    "PyNDN.C09_encoding",
    "PyNDN.C09_roundtrip",
    "PyNDN.C09_signed_portion",
    "PyNDN.C09_decode_offsets",
    "PyNDN.C09_injective",
    "PyNDN.C09_noncanonical_collides"
   ],
   "note": ""
  },
  {
   "property": "C10",
   "status": "proved",
   "theorems": [
    "PyNDN.C10_compare_lt",
    "PyNDN.C10_compare_gt",
    "PyNDN.C10_compare_zero",
    "PyNDN.C10_compare_zero_iff_equals",
    "PyNDN.C10_noncanonical_zero_but_not_equal",
    "PyNDN.C10_equals_iff",
    "PyNDN.C10_antisymmetric",
    "PyNDN.C10_transitive",
    "PyNDN.C10_total"
   ],
   "note": ""
  },
  {
   "property": "C11",
   "status": "proved",
   "theorems": [
    "PyNDN.C11_compare_lt",
    "PyNDN.C11_compare_gt",
    "PyNDN.C11_compare_zero_fields",
    "PyNDN.C11_compare_zero_iff_equals",
    "PyNDN.C11_equals_iff",
    "PyNDN.C11_antisymmetric",
    "PyNDN.C11_transitive",
    "PyNDN.C11_total",
    "PyNDN.C11_prefix_first"
   ],
   "note": ""
  },
  {
   "property": "C12",
   "status": "proved",
   "theorems": [
    "PyNDN.C12_component_greater",
    "PyNDN.C12_component_same_type",
    "PyNDN.C12_component_immediate",
    "PyNDN.C12_name_upper_bound",
    "PyNDN.C12_name_least",
    "PyNDN.C12_name_successor_exists",
    "PyNDN.C12_empty_name"
   ],
   "note": ""
  },
  {
   "property": "C13",
   "status": "partial",
   "theorems": [
    "PyNDN.C13_uri_roundtrip_partial",
    "PyNDN.C13_digest_not_last_fails",
    "PyNDN.C13_escape_roundtrip",
    "PyNDN.C13_escape_safe",
    "PyNDN.C13_uri_injective_partial"
   ],
   "note": "Proved for canonical names whose digest components are last; C13_digest_not_last_fails proves that the parser refuses the URI of any other name (the hex digest runs to the end of the URI, name.py:660,665)."
  },
  {
   "property": "C14",
   "status": "partial",
   "theorems": [
    "PyNDN.C14_match_values",
    "PyNDN.C14_match_iff_prefix_partial",
    "PyNDN.C14_ignores_type",
    "PyNDN.C14_prefix_matches",
    "PyNDN.C14_reflexive",
    "PyNDN.C14_transitive",
    "PyNDN.C14_empty"
   ],
   "note": "match compares values only (name.py:1129): proved exactly; C14_ignores_type is the witness that component types are not compared."
  },
  {
   "property": "C15",
   "status": "proved",
   "theorems": [
    "PyNDN.C15_marker_roundtrip",
    "PyNDN.C15_segment",
    "PyNDN.C15_segmentOffset",
    "PyNDN.C15_version",
    "PyNDN.C15_timestamp",
    "PyNDN.C15_sequenceNumber",
    "PyNDN.C15_number",
    "PyNDN.C15_negative_refused"
   ],
   "note": ""
  },
  {
   "property": "C16",
   "status": "partial",
   "theorems": [
    "PyNDN.C16_subName",
    "PyNDN.C16_subName_negative_partial",
    "PyNDN.C16_subName_rest",
    "PyNDN.C16_subName_out_of_range",
    "PyNDN.C16_prefix",
    "PyNDN.C16_slice",
    "PyNDN.C16_slice_defaults",
    "PyNDN.C16_prefix_append_rest"
   ],
   "note": "Proved for all start >= -size; C16_subName_out_of_range is the witness below that."
  },
  {
   "property": "C17",
   "status": "proved",
   "theorems": [
    "PyNDN.C17_hash_of_components",
    "PyNDN.C17_equal_names_equal_hashes"
   ],
   "note": ""
  },
  {
   "property": "C18",
   "status": "partial",
   "theorems": [
    "PyNDN.C18_matches",
    "PyNDN.C18_matches_partial",
    "PyNDN.C18_anyAny"
   ],
   "note": "C18_matches characterizes the answer of Exclude.matches for every Exclude; it is the specified one except that an Exclude ending in two or more ANY after a listed component makes matches raise AttributeError for components not excluded earlier and not after the last listed one (C18_anyAny, exclude.py:225-232); C18_matches_partial is the specification for all other Excludes."
  },
  {
   "property": "C19",
   "status": "partial",
   "theorems": [
    "PyNDN.C19_matchesData_values",
    "PyNDN.C19_matchesData_partial",
    "PyNDN.C19_ignores_type",
    "PyNDN.C19_matchesName"
   ],
   "note": "Proved exactly up to two deviations of the code: the prefix test compares component values, not types (C19_ignores_type, name.py:1129), and the exception of C18."
  },
  {
   "property": "C20",
   "status": "partial",
   "theorems": [
    "PyNDN.C20_encoding",
    "PyNDN.C20_roundtrip_partial",
    "PyNDN.C20_stale_forwardingHint",
    "PyNDN.C20_selectedDelegation_without_link"
   ],
   "note": "Proved for every encodable Interest decoded into a fresh object (and re-used objects, except that a stale forwarding hint of the old object is kept: C20_stale_forwardingHint)."
  },
  {
   "property": "C21",
   "status": "partial",
   "theorems": [
    "PyNDN.C21_encoding",
    "PyNDN.C21_roundtrip_partial",
    "PyNDN.C21_parameters_lost"
   ],
   "note": "Proved whenever the packet has a CanBePrefix, MustBeFresh or ForwardingHint field; C21_parameters_lost is the witness that otherwise the packet is decoded as v0.2 and the application parameters are lost (tlv_0_2_wire_format.py decodeInterest)."
  },
  {
   "property": "C22",
   "status": "proved",
   "theorems": [
    "PyNDN.C22_encoding",
    "PyNDN.C22_roundtrip",
    "PyNDN.C22_injective",
    "PyNDN.C22_old_object_irrelevant"
   ],
   "note": ""
  },
  {
   "property": "C23",
   "status": "partial",
   "theorems": [
    "PyNDN.C23_interest_partial",
    "PyNDN.C23_interest_reads",
    "PyNDN.C23_link_unnoticed",
    "PyNDN.C23_data",
    "PyNDN.C23_data_reads",
    "PyNDN.C23_data_tlv"
   ],
   "note": "Data: proved for every history. Interest: proved for every history that does not change the Link object got from getLink (C23_interest_partial); C23_link_unnoticed is the witness that such a change leaves the old encoding cached (interest.py:879-896 does not look at the link)."
  },
  {
   "property": "C24",
   "status": "partial",
   "theorems": [
    "PyNDN.C24_step",
    "PyNDN.C24_survives",
    "PyNDN.C24_lost_partial",
    "PyNDN.C24_link_unnoticed"
   ],
   "note": "Proved as a step theorem and for histories, except that changing the Link object got from getLink does not count as a change: C24_link_unnoticed is the witness."
  },
  {
   "property": "C25",
   "status": "proved",
   "theorems": [
    "PyNDN.C25_controlParameters",
    "PyNDN.C25_controlResponse",
    "PyNDN.C25_statusCode_required"
   ],
   "note": "A ControlResponse without a status code cannot be encoded: C25_statusCode_required (TypeError)."
  },
  {
   "property": "C26",
   "status": "proved",
   "theorems": [
    "PyNDN.C26_decode",
    "PyNDN.C26_decode_no_fragment",
    "PyNDN.C26_unknown_refused",
    "PyNDN.C26_nack",
    "PyNDN.C26_bad_reason",
    "PyNDN.C26_negative_code"
   ],
   "note": ""
  },
  {
   "property": "C27",
   "status": "proved",
   "theorems": [
    "PyNDN.C27_set",
    "PyNDN.C27_remove_reports",
    "PyNDN.C27_find",
    "PyNDN.C27_wire"
   ],
   "note": ""
  },
  {
   "property": "C28",
   "status": "proved",
   "theorems": [
    "PyNDN.Node.C28_at_most_one_callback",
    "PyNDN.Node.C28_only_for_expressed"
   ],
   "note": ""
  },
  {
   "property": "C29",
   "status": "partial",
   "theorems": [
    "PyNDN.Node.C29_only_matching",
    "PyNDN.Node.C29_receive_partial",
    "PyNDN.Node.C29_loopback_partial",
    "PyNDN.Node.C29_exactly",
    "PyNDN.Node.C29_lost"
   ],
   "note": "Proved for every reachable state, packet and behaviour of the callbacks, if no match test of a pending Interest raises; C29_lost is the witness that when one raises (an Exclude ending in ANY ANY, C18), Interests already taken from the table get no callback at all (pending_interest_table.py:170-182)."
  },
  {
   "property": "C30",
   "status": "partial",
   "theorems": [
    "PyNDN.Node.C30_during_delivery",
    "PyNDN.Node.C30_removed_partial"
   ],
   "note": "Proved for every execution, except a removal made from a callback while the library is passing the same packet to that Interest; C30_during_delivery is the witness (node.py:702-707 does not look at the removed flag)."
  },
  {
   "property": "C31",
   "status": "proved",
   "theorems": [
    "PyNDN.Node.C31_not_pending",
    "PyNDN.Node.C31_settled",
    "PyNDN.Node.C31_processed",
    "PyNDN.Node.C31_threadsafe"
   ],
   "note": ""
  },
  {
   "property": "C32",
   "status": "proved",
   "theorems": [
    "PyNDN.Node.C32_exception",
    "PyNDN.Node.C32_once_never_early",
    "PyNDN.Node.C32_all_due_run",
    "PyNDN.Node.C32_order",
    "PyNDN.Node.C32_process"
   ],
   "note": ""
  },
  {
   "property": "C33",
   "status": "partial",
   "theorems": [
    "PyNDN.Node.C33_only_matching",
    "PyNDN.Node.C33_unique_ids",
    "PyNDN.Node.C33_receive",
    "PyNDN.Node.C33_loopback",
    "PyNDN.Node.C33_exactly",
    "PyNDN.Node.C33_unset_partial",
    "PyNDN.Node.C33_during_dispatch"
   ],
   "note": "Proved for every execution, except an unsetInterestFilter made from a callback while the library is passing one Interest to the matching filters; C33_during_dispatch is the witness (node.py _dispatchInterest copies the matched filters before calling)."
  },
  {
   "property": "C34",
   "status": "proved",
   "theorems": [
    "PyNDN.Node.C34_removes_exactly",
    "PyNDN.Node.C34_never_on_table",
    "PyNDN.Node.C34_not_called",
    "PyNDN.Node.C34_others_stay",
    "PyNDN.Node.C34_during_dispatch"
   ],
   "note": "C34_not_called goes beyond the property (no calls after removal) and needs that the filter is not being dispatched to at that moment; C34_during_dispatch shows why."
  },
  {
   "property": "C35",
   "status": "partial",
   "theorems": [
    "PyNDN.Node.C35_once",
    "PyNDN.Node.C35_order",
    "PyNDN.Node.C35_complete",
    "PyNDN.Node.C35_not_before",
    "PyNDN.Node.C35_immediately",
    "PyNDN.Node.C35_drains_partial",
    "PyNDN.Node.C35_stuck",
    "PyNDN.Node.C35_connect_raises"
   ],
   "note": "Once, in order, not before the connection, and all processed when the connection is complete are proved for every schedule. That onConnected processes the whole queue is proved if no encoding or send raises (and without loopback); C35_stuck and C35_connect_raises are witnesses that if one raises, the remaining Interests are never sent (node.py:126-178)."
  },
  {
   "property": "C36",
   "status": "partial",
   "theorems": [
    "PyNDN.ContentCache.C36_reply",
    "PyNDN.ContentCache.C36_answer_partial",
    "PyNDN.ContentCache.C36_stale_answer"
   ],
   "note": "Proved for every history, except that a stored pending Interest with MustBeFresh is also answered with a packet whose freshness period is 0: C36_stale_answer is the witness (memory_content_cache.py:289 checks only matchesName)."
  },
  {
   "property": "C37",
   "status": "proved",
   "theorems": [
    "PyNDN.ContentCache.C37_replies",
    "PyNDN.ContentCache.C37_child",
    "PyNDN.ContentCache.C37_notFound",
    "PyNDN.ContentCache.C37_removed"
   ],
   "note": "The Interest's exclude filter must not end in two ANY entries, for which the match test raises (C18). C37_child quantifies over all packets within their cache lifetimes."
  },
  {
   "property": "C38",
   "status": "proved",
   "theorems": [
    "PyNDN.ContentCache.C38_once",
    "PyNDN.ContentCache.C38_answer",
    "PyNDN.ContentCache.C38_all",
    "PyNDN.ContentCache.C38_send_raises"
   ],
   "note": "C38_all goes beyond the property: if sending does not raise, adding a packet answers every matching stored Interest that has not timed out; C38_send_raises shows that one failing face.send leaves the others unanswered."
  },
  {
   "property": "C39",
   "status": "partial",
   "theorems": [
    "PyNDN.Storage.C39_found",
    "PyNDN.Storage.C39_not_found",
    "PyNDN.Storage.C39_map",
    "PyNDN.Storage.C39_found_prefix_partial",
    "PyNDN.Storage.C39_ignores_type"
   ],
   "note": "Proved with components compared by value; Name.match ignores their types, so find can return a packet whose full name differs from an extension of the name in the types (C39_ignores_type); C39_found_prefix_partial assumes equal types."
  },
  {
   "property": "C40",
   "status": "proved",
   "theorems": [
    "PyNDN.Fetch.C40_complete",
    "PyNDN.Fetch.C40_received",
    "PyNDN.Fetch.C40_requests",
    "PyNDN.Fetch.C40_interests",
    "PyNDN.Fetch.C40_same_prefix_partial",
    "PyNDN.Fetch.C40_completes_partial",
    "PyNDN.Fetch.C40_other_prefix"
   ],
   "note": "C40_complete is the property. C40_same_prefix_partial and C40_completes_partial go beyond it: all the segments have the same prefix if the network does not answer with longer names (C40_other_prefix is the witness that they need not otherwise), and the fetch completes when the final segment arrives."
  },
  {
   "property": "C41",
   "status": "partial",
   "theorems": [
    "PyNDN.Fetch.C41_once",
    "PyNDN.Fetch.C41_not_stuck_partial",
    "PyNDN.Fetch.C41_quiet",
    "PyNDN.Fetch.C41_reported",
    "PyNDN.Fetch.C41_null_content"
   ],
   "note": "At most one outcome: proved. Never stuck: proved for executions in which no exception is raised; a segment without content makes the concatenation raise and neither callback is called (C41_null_content)."
  },
  {
   "property": "C42",
   "status": "partial",
   "theorems": [
    "PyNDN.ReExpress.C42_double",
    "PyNDN.ReExpress.C42_once",
    "PyNDN.ReExpress.C42_finite_partial",
    "PyNDN.ReExpress.C42_finite_exists_partial",
    "PyNDN.ReExpress.C42_no_lifetime",
    "PyNDN.ReExpress.C42_zero"
   ],
   "note": "Doubling, the bound and at-most-once are proved in full. That onTimeout is called after finitely many timeouts is proved for lifetimes that are not 0; C42_zero proves that an Interest with the lifetime 0 is expressed for ever."
  },
  {
   "property": "C43",
   "status": "proved",
   "theorems": [
    "PyNDN.C43_validity_roundtrip",
    "PyNDN.C43_setPeriod_inside"
   ],
   "note": ""
  },
  {
   "property": "C44",
   "status": "partial",
   "theorems": [
    "PyNDN.C44_first_call_partial",
    "PyNDN.C44_stale_after_change",
    "PyNDN.C44_stale_after_decode",
    "PyNDN.C44_stale_other_format"
   ],
   "note": "Proved for the first call on an object; C44_stale_after_change, C44_stale_after_decode and C44_stale_other_format prove that later calls return the old full name (data.py getFullName returns the cached name before looking at the change count)."
  },
  {
   "property": "C45",
   "status": "proved",
   "theorems": [
    "PyNDN.Node.C45_only_with_callback",
    "PyNDN.Node.C45_nack",
    "PyNDN.Node.C45_putNack"
   ],
   "note": ""
  },
  {
   "property": "C46",
   "status": "partial",
   "theorems": [
    "PyNDN.Node.C46_once",
    "PyNDN.Node.C46_success",
    "PyNDN.Node.C46_failed",
    "PyNDN.Node.C46_told_partial",
    "PyNDN.Node.C46_timeout",
    "PyNDN.Node.C46_removed",
    "PyNDN.Node.C46_not_told"
   ],
   "note": "Everything is proved for every execution, except that a response with no content (or content whose decoding raises RuntimeError) is reported by neither callback: C46_not_told is the witness (node.py:782-792 catches only ValueError)."
  },
  {
   "property": "C47",
   "status": "proved",
   "theorems": [
    "PyNDN.Node.C47_size",
    "PyNDN.Node.C47_interest",
    "PyNDN.Node.C47_putData",
    "PyNDN.Node.C47_loopback_partial",
    "PyNDN.Node.C47_putNack"
   ],
   "note": "C47_loopback_partial assumes that the match tests of the pending Interests do not raise (see C29); the property without loopback needs no hypothesis."
  },
  {
   "property": "C48",
   "status": "partial",
   "theorems": [
    "PyNDN.Encrypt.C48_covers",
    "PyNDN.Encrypt.C48_intersect",
    "PyNDN.Encrypt.C48_union",
    "PyNDN.Encrypt.C48_make",
    "PyNDN.Encrypt.C48_add",
    "PyNDN.Encrypt.C48_verdict_partial",
    "PyNDN.Encrypt.C48_at_end",
    "PyNDN.Encrypt.C48_adjacent",
    "PyNDN.Encrypt.C48_last_half",
    "PyNDN.Encrypt.C48_zero_repeats"
   ],
   "note": "Intervals: proved in full. Verdict: proved for every time except the last half millisecond of a day (rounded to the next day, C48_last_half) and a time at which an interval of the schedule ends (the verdict is then 'allowed' with an interval that does not cover the time, C48_at_end, or RuntimeError, C48_adjacent), for repeats that are not 0 (C48_zero_repeats) and dates in the years 1-9999."
  },
  {
   "property": "C49",
   "status": "partial",
   "theorems": [
    "PyNDN.Encrypt.C49_group_partial"
   ],
   "note": "Proved under the conditions of C48 on the time slot and each schedule."
  },
  {
   "property": "C50",
   "status": "partial",
   "theorems": [
    "PyNDN.Encrypt.C50_roundtrip_partial",
    "PyNDN.Encrypt.C50_order",
    "PyNDN.Encrypt.C50_early"
   ],
   "note": "Proved for dates in the years 1000-9999; a schedule with an earlier date is encoded so that it cannot be decoded (C50_early)."
  },
  {
   "property": "C51",
   "status": "proved",
   "theorems": [
    "PyNDN.Validator.C51_justified",
    "PyNDN.Validator.C51_now",
    "PyNDN.Validator.C51_expired_anchor",
    "PyNDN.Validator.C51_reset_anchors"
   ],
   "note": "For every policy and signature check. The validity period of a trust anchor itself is not checked by the code (C51_expired_anchor), and removing the anchors keeps the certificates verified with them (C51_reset_anchors)."
  },
  {
   "property": "C52",
   "status": "proved",
   "theorems": [
    "PyNDN.Validator.C52_once",
    "PyNDN.Validator.C52_live",
    "PyNDN.Validator.C52_bounded",
    "PyNDN.Validator.C52_told",
    "PyNDN.Validator.C52_policies",
    "PyNDN.Validator.C52_raises"
   ],
   "note": "Assumes that the Face answers an Interest at most once, which the Face model proves (C29, C30). Where a policy or check raises, neither callback is called (C52_raises)."
  },
  {
   "property": "C53",
   "status": "partial",
   "theorems": [
    "PyNDN.Validator.C53_rules",
    "PyNDN.Validator.C53_hierarchical",
    "PyNDN.Validator.C53_simple_partial",
    "PyNDN.Validator.C53_identity",
    "PyNDN.Validator.C53_key_substring",
    "PyNDN.Validator.C53_simple_escalation"
   ],
   "note": "Rules: proved in full. The hierarchical checker accepts any component that contains KEY in place of KEY (C53_key_substring); the theorem says so. For the simple hierarchy policy only the prefix relation is proved: the form of the key locator is not checked, and any trusted key can sign any name (C53_simple_escalation)."
  },
  {
   "property": "C54",
   "status": "partial",
   "theorems": [
    "PyNDN.Validator.C54_no_replay",
    "PyNDN.Validator.C54_stale",
    "PyNDN.Validator.C54_not_command",
    "PyNDN.Validator.C54_fresh",
    "PyNDN.Validator.C54_concurrent",
    "PyNDN.Validator.C54_evicted",
    "PyNDN.Validator.C54_lifetime",
    "PyNDN.Command.C54_prepared"
   ],
   "note": "No replay: proved if commands with one key are validated one after the other (otherwise false: C54_concurrent), records live longer than twice the grace period (C54_lifetime) and there is room for a record of each key (C54_evicted). The other parts are proved without these conditions. Times are whole milliseconds."
  },
  {
   "property": "C55",
   "status": "partial",
   "theorems": [
    "PyNDN.Regex.C55_sound",
    "PyNDN.Regex.C55_complete",
    "PyNDN.Regex.C55_capture",
    "PyNDN.Regex.C55_expand",
    "PyNDN.Regex.C55_stale",
    "PyNDN.Regex.C55_nullable",
    "PyNDN.Regex.C55_search",
    "PyNDN.Regex.C55_expand_end"
   ],
   "note": "Soundness in full; completeness if no group that has to be repeated can stand for nothing (C55_nullable) and names of at most 32767 components; captures if no group is repeated (C55_stale); expansions that do not end with a component (C55_expand_end). A component expression is searched, not matched (C55_search). Capture groups inside component expressions are not modelled."
  },
  {
   "property": "C56",
   "status": "proved",
   "theorems": [
    "PyNDN.Props.C56_set",
    "PyNDN.Props.C56_zero",
    "PyNDN.Props.C56_reconcile",
    "PyNDN.Props.C56_diverges",
    "PyNDN.Props.C56_wire",
    "PyNDN.Props.C56_wrong_size",
    "PyNDN.Props.C56_diverges_on_the_wire"
   ],
   "note": "If the check hash has no collision on the differing keys (NoCollision); a False answer is characterised by an entangled group of keys. For tables that are not made from keys, see C56_diverges. MurmurHash3 is a parameter; the round trip of the encoding assumes that zlib restores its input and covers tables of sets (no negative counts)."
  },
  {
   "property": "C57",
   "status": "partial",
   "theorems": [
    "PyNDN.PSync.C57_state",
    "PyNDN.PSync.C57_segments",
    "PyNDN.PSync.C57_fetched_partial",
    "PyNDN.PSync.C57_multiple",
    "PyNDN.PSync.C57_expires",
    "PyNDN.PSync.C57_reply"
   ],
   "note": "C57_state, C57_segments, C57_expires and C57_reply in full; the fetch completes unless the length of the content is a positive multiple of 4400 (then it does not: C57_multiple)."
  },
  {
   "property": "C58",
   "status": "partial",
   "theorems": [
    "PyNDN.PSync.C58_set",
    "PyNDN.PSync.C58_names",
    "PyNDN.PSync.C58_told",
    "PyNDN.PSync.C58_answer",
    "PyNDN.PSync.C58_sync",
    "PyNDN.PSync.C58_pending",
    "PyNDN.PSync.C58_announces",
    "PyNDN.PSync.C58_late",
    "PyNDN.PSync.C58_expires_partial",
    "PyNDN.PSync.C58_duplicate",
    "PyNDN.PSync.C58_versioned",
    "PyNDN.PSync.C58_no_lifetime",
    "PyNDN.PSync.C58_collision",
    "PyNDN.PSync.C58_poisoned",
    "PyNDN.PSync.C58_hangs"
   ],
   "note": "C58_set, C58_names, C58_told: for all histories, if the names that occur have different hashes. C58_answer, C58_sync, C58_pending: if in addition the check hash has no collision on the difference (as C56); C58_answer also says exactly what is answered if the difference cannot be read off the tables. C58_announces, C58_late in full. C58_expires_partial: excludes Interests without lifetime and with version and segment, for which it is false (C58_no_lifetime, C58_versioned). Counterexamples: C58_duplicate, C58_collision, C58_poisoned, C58_hangs."
  },
  {
   "property": "C59",
   "status": "partial",
   "theorems": [
    "PyNDN.PSync.C59_numbers",
    "PyNDN.PSync.C59_told",
    "PyNDN.PSync.C59_grows",
    "PyNDN.PSync.C59_monotone",
    "PyNDN.PSync.C59_answer",
    "PyNDN.PSync.C59_sync",
    "PyNDN.PSync.C59_backwards",
    "PyNDN.PSync.C59_stale",
    "PyNDN.PSync.C59_zero"
   ],
   "note": "The English claim excludes contents with several names of one prefix, number 0 or non-canonical numbers; for those C59_backwards, C59_zero and C59_stale show that it fails. Different names are assumed to have different hashes. C59_answer and C59_sync assume that the difference can be read off the tables and that the Interest is not answered from the store."
  },
  {
   "property": "C60",
   "status": "proved",
   "theorems": [
    "PyNDN.Chrono.C60_tree",
    "PyNDN.Chrono.C60_order",
    "PyNDN.Chrono.C60_differ",
    "PyNDN.Chrono.C60_wraps"
   ],
   "note": "SHA-256 is a parameter; C60_differ needs that it has no collision among the strings hashed for the two trees. C60_wraps is a witness of the 32-bit limit."
  },
  {
   "property": "C61",
   "status": "partial",
   "theorems": [
    "PyNDN.Chrono.C61_told",
    "PyNDN.Chrono.C61_judged",
    "PyNDN.Chrono.C61_initialized",
    "PyNDN.Chrono.C61_publish",
    "PyNDN.Chrono.C61_follow",
    "PyNDN.Chrono.C61_answer_partial",
    "PyNDN.Chrono.C61_recovery",
    "PyNDN.Chrono.C61_remembers",
    "PyNDN.Chrono.C61_merge",
    "PyNDN.Chrono.C61_unknown",
    "PyNDN.Chrono.C61_sync",
    "PyNDN.Chrono.C61_numbers",
    "PyNDN.Chrono.C61_prefixes",
    "PyNDN.Chrono.C61_monotone",
    "PyNDN.Chrono.C61_own_partial",
    "PyNDN.Chrono.C61_distinct",
    "PyNDN.Chrono.C61_other_session",
    "PyNDN.Chrono.C61_publish_raises",
    "PyNDN.Chrono.C61_early",
    "PyNDN.Chrono.C61_stale",
    "PyNDN.Chrono.C61_one_session"
   ],
   "note": "C61_own_partial and C61_publish need the discipline that the English claim names (else C61_other_session, C61_publish_raises, C61_early). C61_answer_partial gives the same tree only if numbers came in order from one session (else C61_stale, C61_one_session). Different states that occur are assumed to have different digests (C61_distinct derives it from the absence of collisions). The contents given to _update are a ghost field of the state; C61_numbers ties it to what the application was told."
  },
  {
   "property": "C62",
   "status": "proved",
   "theorems": [
    "PyNDN.Chrono.C62_asks",
    "PyNDN.Chrono.C62_stops"
   ],
   "note": "For histories whose received Data can be parsed; C62_stops is the witness for others. Different states that occur are assumed to have different digests."
  },
  {
   "property": "C63",
   "status": "proved",
   "theorems": [
    "PyNDN.KeyChain.C63_consistent"
   ],
   "note": "C63_consistent, for every history, with any object numbers. No hypothesis on the cryptography."
  },
  {
   "property": "C64",
   "status": "proved",
   "theorems": [
    "PyNDN.KeyChain.C64_answers",
    "PyNDN.KeyChain.C64_restart",
    "PyNDN.KeyChain.C64_create_identity",
    "PyNDN.KeyChain.C64_create_identity_returns",
    "PyNDN.KeyChain.C64_create_key",
    "PyNDN.KeyChain.C64_set_default_identity",
    "PyNDN.KeyChain.C64_set_default_key",
    "PyNDN.KeyChain.C64_add_certificate",
    "PyNDN.KeyChain.C64_default_key_forgotten",
    "PyNDN.KeyChain.C64_default_certificate_stale",
    "PyNDN.KeyChain.C64_create_identity_raises",
    "PyNDN.KeyChain.C64_create_empty_identity",
    "PyNDN.KeyChain.C64_no_default_identity"
   ],
   "note": "The discipline that the English claim names is Disciplined; C64_default_key_forgotten and C64_default_certificate_stale show that it is needed. The PIB and TPM are those in memory."
  },
  {
   "property": "C65",
   "status": "proved",
   "theorems": [
    "PyNDN.KeyChain.C65_self_signed",
    "PyNDN.KeyChain.C65_data",
    "PyNDN.KeyChain.C65_interest",
    "PyNDN.KeyChain.C65_signs",
    "PyNDN.KeyChain.C65_revived_key"
   ],
   "note": "That a signature of a generated key verifies with its public key is a hypothesis (Sound). The packets must be encodable in the sense of C20 and C22."
  },
  {
   "property": "C66",
   "status": "proved",
   "theorems": [
    "PyNDN.KeyChain.C66_delete_key",
    "PyNDN.KeyChain.C66_delete_identity",
    "PyNDN.KeyChain.C66_delete_identity_by_name",
    "PyNDN.KeyChain.C66_delete_certificate",
    "PyNDN.KeyChain.C66_safe_bag",
    "PyNDN.KeyChain.C66_import_raises",
    "PyNDN.KeyChain.C66_private_keys_stay"
   ],
   "note": "That a private key can be read back from what was written, with the same password, is a hypothesis of C66_safe_bag. The private keys that deleteIdentity removes are those whose key objects the KeyChain has (else C66_private_keys_stay)."
  },
  {
   "property": "C67",
   "status": "proved",
   "theorems": [
    "PyNDN.Encrypt.C67_encoding_v2",
    "PyNDN.Encrypt.C67_roundtrip_v2",
    "PyNDN.Encrypt.C67_encoding_v1",
    "PyNDN.Encrypt.C67_no_algorithm",
    "PyNDN.Encrypt.C67_roundtrip_v1",
    "PyNDN.Encrypt.C67_any_v1",
    "PyNDN.Encrypt.C67_any_v2",
    "PyNDN.Encrypt.C67_safe_bag",
    "PyNDN.Encrypt.C67_any_safe_bag"
   ],
   "note": "Version 2 keeps neither the algorithm nor a key locator that is not a name; version 1 does not keep the payload key. A null payload is decoded as an empty one."
  },
  {
   "property": "C68",
   "status": "partial",
   "theorems": [
    "PyNDN.Nac.Encryptor.C68_one_interest",
    "PyNDN.Nac.Encryptor.C68_three_tries",
    "PyNDN.Nac.Encryptor.C68_retries",
    "PyNDN.Nac.Encryptor.C68_never_stops",
    "PyNDN.Nac.Encryptor.C68_published",
    "PyNDN.Nac.Encryptor.C68_prompt",
    "PyNDN.Nac.Encryptor.C68_encrypt",
    "PyNDN.Nac.Encryptor.C68_served_partial",
    "PyNDN.Nac.Encryptor.C68_settled",
    "PyNDN.Nac.Encryptor.C68_bad_kek",
    "PyNDN.Nac.Encryptor.C68_same_millisecond",
    "PyNDN.Nac.Encryptor.C68_asks_again",
    "PyNDN.Nac.Encryptor.C68_raising_callback",
    "PyNDN.Nac.Encryptor.C68_express_raises",
    "PyNDN.Nac.Encryptor.C68_after_shutdown"
   ],
   "note": "C68_served_partial asks that CKs are made at different times below 2^64 ms; C68_same_millisecond shows that it is needed. C68_retries and C68_never_stops are for callbacks and an expressInterest that do not raise; the witnesses show that they are needed."
  },
  {
   "property": "C69",
   "status": "partial",
   "theorems": [
    "PyNDN.Nac.Decryptor.C69_once",
    "PyNDN.Nac.Decryptor.C69_answered_partial",
    "PyNDN.Nac.Decryptor.C69_retrieved",
    "PyNDN.Nac.Decryptor.C69_correct",
    "PyNDN.Nac.Decryptor.C69_source",
    "PyNDN.Nac.Decryptor.C69_dead",
    "PyNDN.Nac.Decryptor.C69_bounded",
    "PyNDN.Nac.Decryptor.C69_forgotten",
    "PyNDN.Nac.Decryptor.C69_same_kdk",
    "PyNDN.Nac.Decryptor.C69_raising_callback",
    "PyNDN.Nac.Decryptor.C69_express_raises",
    "PyNDN.Nac.Decryptor.C69_after_shutdown"
   ],
   "note": "C69_answered_partial: a caller that is not the first one for a CK is not told when the retrieval fails (C69_dead, C69_forgotten). The theorems are for callbacks that do not raise and an expressInterest that does not raise after it has put the Interest on its table; the witnesses show that both are needed. C69_source needs neither."
  },
  {
   "property": "C70",
   "status": "partial",
   "theorems": [
    "PyNDN.Nac.C70_padding",
    "PyNDN.Nac.C70_aes",
    "PyNDN.Nac.C70_secret",
    "PyNDN.Nac.C70_secret_zero",
    "PyNDN.Nac.C70_names",
    "PyNDN.Nac.Decryptor.C70_member",
    "PyNDN.Nac.Decryptor.C70_two_packets",
    "PyNDN.Nac.Decryptor.C70_same_time",
    "PyNDN.Nac.Decryptor.C70_lost_ck"
   ],
   "note": "C70_member needs that the CKs were made at different milliseconds, that the CK of the content was published, and that a new CK is asked for only when earlier calls are answered; C70_same_time, C70_lost_ck and C69_same_kdk show that each is needed. The validator argument of EncryptorV2 and DecryptorV2 is never used by the code (commented out), so there is no authenticity claim."
  },
  {
   "property": "C71",
   "status": "partial",
   "theorems": [
    "PyNDN.Der.C71_encode",
    "PyNDN.Der.C71_size",
    "PyNDN.Der.C71_add",
    "PyNDN.Der.C71_parse",
    "PyNDN.Der.C71_unique",
    "PyNDN.Der.C71_safe_partial",
    "PyNDN.Der.C71_integer",
    "PyNDN.Der.C71_simple",
    "PyNDN.Der.C71_oid",
    "PyNDN.Der.C71_oid_string",
    "PyNDN.Der.C71_time",
    "PyNDN.Der.C71_truncated",
    "PyNDN.Der.C71_index",
    "PyNDN.Der.C71_indefinite",
    "PyNDN.Der.C71_overrun",
    "PyNDN.Der.C71_misaligned",
    "PyNDN.Der.C71_oid_one",
    "PyNDN.Der.C71_oid_large",
    "PyNDN.Der.C71_oid_negative",
    "PyNDN.Der.C71_oid_equals",
    "PyNDN.Der.C71_stale",
    "PyNDN.Der.C71_year"
   ],
   "note": "C71_safe_partial: besides DerDecodingException, IndexError is raised (C71_index). The theorems on encode need that addChild below the root notifies the parent, which is not the default (C71_stale). An OID of one number does not come back (C71_oid_one); times only in the years 1000 to 9999 and without the fraction of the second (C71_year)."
  },
  {
   "property": "C72",
   "status": "partial",
   "theorems": [
    "PyNDN.PrivateKey.C72_load_pkcs8",
    "PyNDN.PrivateKey.C72_load_encrypted_partial",
    "PyNDN.PrivateKey.C72_format",
    "PyNDN.PrivateKey.C72_roundtrip",
    "PyNDN.PrivateKey.C72_pkcs1",
    "PyNDN.PrivateKey.C72_load_pkcs1",
    "PyNDN.PrivateKey.C72_safe_partial",
    "PyNDN.PrivateKey.C72_keychain",
    "PyNDN.PrivateKey.C72_index_error",
    "PyNDN.PrivateKey.C72_type_error",
    "PyNDN.PrivateKey.C72_library_error",
    "PyNDN.PrivateKey.C72_prf_ignored"
   ],
   "note": "C72_safe_partial: exceptions other than TpmPrivateKey.Error are raised. C72_load_encrypted_partial: the pseudorandom function in the PBKDF2 parameters is ignored. The crypto library is assumed sound (Spec.PrivateKey.Sound)."
  },
  {
   "property": "C73",
   "status": "partial",
   "theorems": [
    "PyNDN.TpmFile.C73_base64",
    "PyNDN.TpmFile.C73_map",
    "PyNDN.TpmFile.C73_crash_others",
    "PyNDN.TpmFile.C73_crash_recover",
    "PyNDN.TpmFile.C73_crash_key_partial",
    "PyNDN.TpmFile.C73_storable",
    "PyNDN.TpmFile.C73_damaged",
    "PyNDN.TpmFile.C73_replaced"
   ],
   "note": "C73_crash_key_partial: after a crash while the key is written ValueError may be raised for this name until it is deleted (C73_damaged). Everything else is proved for all histories."
  },
  {
   "property": "C74",
   "status": "proved",
   "theorems": [
    "PyNDN.PibSqlite.C74_map",
    "PyNDN.PibSqlite.C74_crash",
    "PyNDN.PibSqlite.C74_durable",
    "PyNDN.PibSqlite.C74_interleaved",
    "PyNDN.PibSqlite.C74_locator_lost",
    "PyNDN.PibSqlite.C74_other_identity",
    "PyNDN.PibSqlite.C74_null_content"
   ],
   "note": "C74_map for all histories of `Fine` calls (nonempty locator, names that belong together); departures outside of this: C74_locator_lost, C74_other_identity, C74_null_content."
  },
  {
   "property": "C75",
   "status": "partial",
   "theorems": [
    "PyNDN.ExcludeRange.C75_after",
    "PyNDN.ExcludeRange.C75_range_partial",
    "PyNDN.ExcludeRange.C75_error",
    "PyNDN.ExcludeRange.C75_before_partial",
    "PyNDN.ExcludeRange.C75_shrinks"
   ],
   "note": "excludeAfter is proved in full; C75_range_partial and C75_before_partial need something in the range that is not excluded before (C75_shrinks)."
  },
  {
   "property": "C76",
   "status": "partial",
   "theorems": [
    "PyNDN.Group.C76_map_partial",
    "PyNDN.Group.C76_crash",
    "PyNDN.Group.C76_same_key",
    "PyNDN.Group.C76_clean",
    "PyNDN.Group.C76_restart",
    "PyNDN.Group.C76_bad_key"
   ],
   "note": "C76_crash and C76_same_key are in full. C76_map_partial describes every call, with what the code does in place of what is documented for cleanEKeys (C76_clean) and for getGroupKey after a restart (C76_restart), and for members' keys that RSA can use (C76_bad_key) and time slots that C48 admits."
  },
  {
   "property": "C77",
   "status": "partial",
   "theorems": [
    "PyNDN.Producer.C77_content_keys",
    "PyNDN.Producer.C77_sealed",
    "PyNDN.Producer.C77_once",
    "PyNDN.Producer.C77_retries",
    "PyNDN.Producer.C77_excluded",
    "PyNDN.Producer.C77_called_partial",
    "PyNDN.Producer.C77_given_partial",
    "PyNDN.Producer.C77_hour",
    "PyNDN.Producer.C77_next",
    "PyNDN.Producer.C77_unverified",
    "PyNDN.Producer.C77_lost",
    "PyNDN.Producer.C77_empty",
    "PyNDN.Producer.C77_restart",
    "PyNDN.Producer.C77_given_up",
    "PyNDN.Producer.C77_exact",
    "PyNDN.Producer.C77_early",
    "PyNDN.Producer.C77_rounded"
   ],
   "note": "C77_content_keys, C77_sealed, C77_once, C77_retries, C77_excluded, C77_hour and C77_next are in full. C77_called_partial (exactly one call of onEncryptedKeys) and C77_given_partial (all packets are given) need that all Data are usable E-KEYs and that there is no restart: C77_lost, C77_restart."
  },
  {
   "property": "C78",
   "status": "partial",
   "theorems": [
    "PyNDN.Consumer.C78_opened",
    "PyNDN.Consumer.C78_once",
    "PyNDN.Consumer.C78_accounted",
    "PyNDN.Consumer.C78_requests",
    "PyNDN.Consumer.C78_exactly_partial",
    "PyNDN.Consumer.C78_kept",
    "PyNDN.Consumer.C78_unverified",
    "PyNDN.Consumer.C78_unanswered",
    "PyNDN.Consumer.C78_retried",
    "PyNDN.Consumer.C78_silent",
    "PyNDN.Consumer.C78_single",
    "PyNDN.Consumer.C78_stale"
   ],
   "note": "C78_opened, C78_once, C78_accounted, C78_requests, C78_kept, C78_unverified, C78_unanswered and C78_retried are in full. C78_exactly_partial (exactly one callback) needs that the verified Data for keys can be read: C78_silent."
  },
  {
   "property": "C79",
   "status": "proved",
   "theorems": [
    "PyNDN.Consumer.C79_correct",
    "PyNDN.Consumer.C79_delivered",
    "PyNDN.Consumer.C79_content",
    "PyNDN.Consumer.C79_ckey",
    "PyNDN.Consumer.C79_dkey"
   ],
   "note": "In full, for the models of C76, C77 and C78. That a Data for a key has the key of the Interest follows from the names; that the answer to an Interest is a packet of that kind is a hypothesis (HonestTrace), shown of the packets of the group manager and the producer by C79_content, C79_ckey and C79_dkey."
  },
  {
   "property": "C80",
   "status": "partial",
   "theorems": [
    "PyNDN.Signing.C80_last",
    "PyNDN.Signing.C80_raises",
    "PyNDN.Signing.C80_text",
    "PyNDN.Signing.C80_string_partial",
    "PyNDN.Signing.C80_sign_partial",
    "PyNDN.Signing.C80_digest_identity",
    "PyNDN.Signing.C80_accepted",
    "PyNDN.Signing.C80_constructors",
    "PyNDN.Signing.C80_getters"
   ],
   "note": "In full for histories, constructors, getters and accepted strings; the round trip excepts the digest identity (C80_digest_identity shows the departure) and the names of C13."
  },
  {
   "property": "C81",
   "status": "partial",
   "theorems": [
    "PyNDN.Protobuf.C81_encode",
    "PyNDN.Protobuf.C81_missing",
    "PyNDN.Protobuf.C81_decode",
    "PyNDN.Protobuf.C81_roundtrip_partial",
    "PyNDN.Protobuf.C81_injective_partial",
    "PyNDN.Protobuf.C81_required",
    "PyNDN.Protobuf.C81_string",
    "PyNDN.Protobuf.C81_false",
    "PyNDN.Protobuf.C81_empty",
    "PyNDN.Protobuf.C81_sync"
   ],
   "note": "Encoding, refusal, decoding into any target and required fields in full; the round trip excepts what C81_string, C81_false and C81_empty show to be changed. The exact result for the excepted messages is given by C81_decode (Spec readMessage)."
  },
  {
   "property": "C82",
   "status": "partial",
   "theorems": [
    "PyNDN.Props.C82_read_partial",
    "PyNDN.Props.C82_several_partial",
    "PyNDN.Props.C82_get",
    "PyNDN.Props.C82_first",
    "PyNDN.Props.C82_lookup_partial",
    "PyNDN.Props.C82_include",
    "PyNDN.Props.C82_semicolon",
    "PyNDN.Props.C82_one_line",
    "PyNDN.Props.C82_quoted_brace",
    "PyNDN.Props.C82_no_gap",
    "PyNDN.Props.C82_unbalanced",
    "PyNDN.Props.C82_more_words"
   ],
   "note": "All texts in which words with a semicolon or a single brace do not occur and sections are on several lines; the excepted forms are shown to be taken otherwise (C82_semicolon, C82_one_line, C82_quoted_brace, C82_no_gap). Paths (C82_get, C82_first) in full for keys without a slash."
  },
  {
   "property": "C83",
   "status": "proved",
   "theorems": [
    "PyNDN.Props.C83_load",
    "PyNDN.Props.C83_decides",
    "PyNDN.Props.C83_text",
    "PyNDN.Props.C83_safe",
    "PyNDN.Props.C83_reload",
    "PyNDN.Props.C83_unparsed",
    "PyNDN.Props.C83_sig_type"
   ],
   "note": "Iff for loading and deciding, for all trees of entries; from the text for all texts in the sense of C82. Regex compilation, certificate decoding and the anchor store are arbitrary parameters."
  },
  {
   "property": "C84",
   "status": "partial",
   "theorems": [
    "PyNDN.Props.C84_sound_partial",
    "PyNDN.Props.C84_off",
    "PyNDN.Props.C84_once_partial",
    "PyNDN.Props.C84_sends",
    "PyNDN.Props.C84_no_replay_partial",
    "PyNDN.Props.C84_first_use",
    "PyNDN.Props.C84_depth_raises",
    "PyNDN.Props.C84_reentrant_replay",
    "PyNDN.Props.C84_expired_silent",
    "PyNDN.Props.C84_failed_certificate",
    "PyNDN.Props.C84_hmac_raises",
    "PyNDN.Props.C84_anchor_forgotten",
    "PyNDN.Props.C84_dir_without_refresh",
    "PyNDN.Props.C84_first_checker",
    "PyNDN.Props.C84_update_raises",
    "PyNDN.Props.C84_evicted_replay",
    "PyNDN.Props.C84_fixed_signer_v1"
   ],
   "note": "Soundness, one end per call, the bound on Interests, the grace interval of a key's first command and increasing timestamps are proved for all histories. Not as documented: silence or exceptions instead of onValidationFailed, replay inside onVerified and after eviction, forgotten trust anchors, ignored checkers (witness theorems)."
  },
  {
   "property": "C85",
   "status": "partial",
   "theorems": [
    "PyNDN.Props.C85_sound",
    "PyNDN.Props.C85_asked",
    "PyNDN.Props.C85_total",
    "PyNDN.Props.C85_cleared",
    "PyNDN.Props.C85_complete_partial",
    "PyNDN.Props.C85_duplicate_stays",
    "PyNDN.Props.C85_deleted_stays",
    "PyNDN.Props.C85_not_replaced",
    "PyNDN.Props.C85_two_groups",
    "PyNDN.Props.C85_refused_blocks"
   ],
   "note": "Proved for all histories with directories that can be listed and have no duplicate names. C85_complete_partial also needs that the name was never removed from any group, refused, or in a watched file; the witnesses show what happens otherwise."
  },
  {
   "property": "C86",
   "status": "partial",
   "theorems": [
    "PyNDN.IdentityStorage.C86_basic_partial",
    "PyNDN.IdentityStorage.C86_memory_partial",
    "PyNDN.IdentityStorage.C86_same_partial",
    "PyNDN.IdentityStorage.C86_new_key_fine",
    "PyNDN.IdentityStorage.C86_new_keys_differ",
    "PyNDN.IdentityStorage.C86_escaped_key_id",
    "PyNDN.IdentityStorage.C86_unknown_default_key",
    "PyNDN.IdentityStorage.C86_other_default_certificate",
    "PyNDN.IdentityStorage.C86_memory_no_delete",
    "PyNDN.IdentityStorage.C86_certificate_other_key",
    "PyNDN.IdentityStorage.C86_two_storages",
    "PyNDN.IdentityStorage.C86_empty_key_name"
   ],
   "note": "Proved for all histories with generic names and key ids without escaped characters (the witness C86_escaped_key_id shows what happens otherwise); for the memory storage also without deletions and with known defaults, since it cannot delete and does not check. New key names: proved without restrictions."
  },
  {
   "property": "C87",
   "status": "partial",
   "theorems": [
    "PyNDN.HmacSign.C87_data",
    "PyNDN.HmacSign.C87_data_unforgeable",
    "PyNDN.HmacSign.C87_interest",
    "PyNDN.HmacSign.C87_interest_unforgeable",
    "PyNDN.HmacSign.C87_received_signed_again",
    "PyNDN.HmacSign.C87_kind_not_checked",
    "PyNDN.HmacSign.C87_short_name"
   ],
   "note": "Data with a cached foreign encoding is excluded (the witness C87_received_signed_again shows that the claim is false for it). For received bytes nothing is assumed."
  },
  {
   "property": "C88",
   "status": "proved",
   "theorems": [
    "PyNDN.SelfVerify.C88_data",
    "PyNDN.SelfVerify.C88_interest",
    "PyNDN.SelfVerify.C88_data_failed",
    "PyNDN.SelfVerify.C88_interest_failed",
    "PyNDN.SelfVerify.C88_no_verify",
    "PyNDN.SelfVerify.C88_data_unforgeable",
    "PyNDN.SelfVerify.C88_interest_unforgeable",
    "PyNDN.SelfVerify.C88_signed_data",
    "PyNDN.SelfVerify.C88_digest_data",
    "PyNDN.SelfVerify.C88_signed_interest",
    "PyNDN.SelfVerify.C88_digest_interest",
    "PyNDN.SelfVerify.C88_signed_buffer",
    "PyNDN.SelfVerify.C88_same_key",
    "PyNDN.SelfVerify.C88_basic_storage",
    "PyNDN.SelfVerify.C88_pib_missing_key",
    "PyNDN.SelfVerify.C88_unknown_kind",
    "PyNDN.SelfVerify.C88_hmac",
    "PyNDN.SelfVerify.C88_digest_anybody",
    "PyNDN.SelfVerify.C88_id_cert_last"
   ],
   "note": "Packets and Interests, verifying, failing, received bytes, signing, histories of the identity storage; the departures are stated as theorems."
  },
  {
   "property": "C89",
   "status": "proved",
   "theorems": [
    "PyNDN.CommandSigner.C89_increasing",
    "PyNDN.CommandSigner.C89_command",
    "PyNDN.CommandSigner.C89_accepted",
    "PyNDN.CommandSigner.C89_two_signers"
   ],
   "note": "Composition of the signer, the KeyChain, the wire format and the validator's policy."
  },
  {
   "property": "C90",
   "status": "partial",
   "theorems": [
    "PyNDN.Certificate.C90_decode",
    "PyNDN.Certificate.C90_encode",
    "PyNDN.Certificate.C90_round_partial",
    "PyNDN.Certificate.C90_again_departure",
    "PyNDN.Certificate.C90_key",
    "PyNDN.Certificate.C90_text_departure",
    "PyNDN.Certificate.C90_early_departure"
   ],
   "note": "The round trip holds for descriptions of ASCII text; for other bytes the code departs (C90_text_departure)."
  },
  {
   "property": "C91",
   "status": "partial",
   "theorems": [
    "PyNDN.LinkPacket.C91_content_partial",
    "PyNDN.LinkPacket.C91_result",
    "PyNDN.LinkPacket.C91_wire",
    "PyNDN.LinkPacket.C91_copy",
    "PyNDN.LinkPacket.C91_any",
    "PyNDN.LinkPacket.C91_negative_departure",
    "PyNDN.LinkPacket.C91_absent_departure"
   ],
   "note": "Proved for preferences that are not negative; for others the code departs (C91_negative_departure)."
  },
  {
   "property": "C92",
   "status": "partial",
   "theorems": [
    "PyNDN.IdentityCertificate.C92_name_partial",
    "PyNDN.IdentityCertificate.C92_none",
    "PyNDN.IdentityCertificate.C92_generate",
    "PyNDN.IdentityCertificate.C92_content",
    "PyNDN.IdentityCertificate.C92_setName",
    "PyNDN.IdentityCertificate.C92_key_departure"
   ],
   "note": "Proved for prefixes without a component \"KEY\"; for others the code departs (C92_key_departure)."
  },
  {
   "property": "C93",
   "status": "partial",
   "theorems": [
    "PyNDN.Equality.C93_blob",
    "PyNDN.Equality.C93_keyLocator",
    "PyNDN.Equality.C93_keyLocator_equivalence",
    "PyNDN.Equality.C93_keyLocator_same",
    "PyNDN.Equality.C93_keyLocator_sent",
    "PyNDN.Equality.C93_metaInfo",
    "PyNDN.Equality.C93_metaInfo_same_partial",
    "PyNDN.Equality.C93_metaInfo_sent",
    "PyNDN.Equality.C93_metaInfo_departure",
    "PyNDN.Equality.C93_options",
    "PyNDN.Equality.C93_controlParameters_departure"
   ],
   "note": "Equal meta infos encode alike is proved for types other than OTHER_CODE; for OTHER_CODE the code departs (C93_metaInfo_departure), and ControlParameters.equals is never True (C93_controlParameters_departure)."
  }
 ]
}