{"id": "C01", "title": "VAR-NUMBER (TLV type/length) round trip", "statement": "Writing any number below 2^64 as a TLV VAR-NUMBER and reading it back, at any offset inside any surrounding bytes, returns the same number and consumes exactly the bytes written; the number of bytes written is the shortest of 1, 3, 5, 9 that can hold it.", "quantifier": "all numbers n < 2^64, all surrounding byte strings", "why_tests_cant": "the boundaries 252/253, 65535/65536, 2^32-1/2^32 and arbitrary surroundings cannot be enumerated over the 2^64 domain", "anchors": ["python/pyndn/encoding/tlv/tlv_encoder.py TlvEncoder.writeVarNumber", "python/pyndn/encoding/tlv/tlv_decoder.py TlvDecoder.readVarNumber, readExtendedVarNumber"]}
{"id": "C02", "title": "Non-negative-integer TLV round trip", "statement": "Writing a non-negative integer TLV of any type and value below 2^64 and reading it back gives the same value and consumes exactly the bytes written; a negative value is refused with ValueError; the optional form writes nothing for None and reads None when the type is absent.", "quantifier": "all types, all values, all surrounding bytes", "why_tests_cant": "2^64 values and arbitrary surrounding bytes", "anchors": ["python/pyndn/encoding/tlv/tlv_encoder.py TlvEncoder.writeNonNegativeInteger, writeNonNegativeIntegerTlv, writeOptionalNonNegativeIntegerTlv", "python/pyndn/encoding/tlv/tlv_decoder.py TlvDecoder.readNonNegativeIntegerTlv, readOptionalNonNegativeIntegerTlv"]}
{"id": "C03", "title": "The encoder's output does not depend on its buffer capacity or growth", "statement": "For every sequence of write calls on a TlvEncoder, the final output is the concatenation of the individually encoded pieces in reverse call order, whatever the (positive) initial capacity and however often the internal buffer was reallocated.", "quantifier": "all write sequences, all initial capacities", "why_tests_cant": "buffer growth paths depend on sizes and history; tests sample a few", "anchors": ["python/pyndn/encoding/tlv/tlv_encoder.py TlvEncoder", "python/pyndn/util/dynamic_byte_array.py DynamicByteArray.ensureLengthFromBack, copyFromBack"]}
{"id": "C04", "title": "Decoding arbitrary bytes is safe", "statement": "Decoding any byte string as a Name, Data, Interest, DelegationSet, ControlParameters, ControlResponse or LpPacket terminates, never reads outside the input, and either succeeds or raises one of the documented exceptions (ValueError / RuntimeError).", "quantifier": "all byte strings", "why_tests_cant": "the input space is unbounded and adversarial", "anchors": ["python/pyndn/encoding/tlv/tlv_decoder.py TlvDecoder", "python/pyndn/encoding/tlv_0_2_wire_format.py Tlv0_2WireFormat.decodeName, decodeData, decodeInterest, decodeLpPacket, decodeControlParameters, decodeControlResponse"]}
{"id": "C05", "title": "Nested TLVs are consumed exactly and critical unknown types are refused", "statement": "After successfully finishing a nested TLV the decoder is positioned exactly at the end announced by the TLV header; every skipped unknown TLV has a non-critical type (greater than 31 and even) unless skipping critical types was requested; an unknown critical type is always refused.", "quantifier": "all inputs, all offsets and end offsets", "why_tests_cant": "arbitrary sequences of unknown sub-TLVs", "anchors": ["python/pyndn/encoding/tlv/tlv_decoder.py TlvDecoder.finishNestedTlvs, readNestedTlvsStart, peekType"]}
{"id": "C06", "title": "Bytes after the packet do not influence decoding", "statement": "If decoding a packet from an input succeeds then decoding from the same input followed by any extra bytes succeeds with the same result.", "quantifier": "all inputs that decode, all suffixes", "why_tests_cant": "unbounded suffixes", "anchors": ["python/pyndn/encoding/tlv_0_2_wire_format.py Tlv0_2WireFormat._decodeName, decodeData, decodeInterest"]}
{"id": "C07", "title": "Stream framing is independent of how the network splits the bytes", "statement": "For every sequence of well-formed TLV elements no larger than the packet size limit and every way of cutting the concatenated byte stream into chunks, feeding the chunks to ElementReader.onReceivedData delivers exactly those elements, each once, in order, to the element listener.", "quantifier": "all element sequences, all chunkings", "why_tests_cant": "the number of chunkings is exponential in the stream length", "anchors": ["python/pyndn/encoding/element_reader.py ElementReader.onReceivedData", "python/pyndn/encoding/tlv/tlv_structure_decoder.py TlvStructureDecoder.findElementEnd"]}
{"id": "C08", "title": "The framing buffer is bounded and an oversized element resets the reader", "statement": "At every moment the bytes retained for an incomplete element are at most 8800; a chunk that would exceed that raises ValueError and leaves the reader in its initial state, ready for a new element.", "quantifier": "all chunk histories (arbitrary bytes)", "why_tests_cant": "arbitrary adversarial histories", "anchors": ["python/pyndn/encoding/element_reader.py ElementReader.onReceivedData", "python/pyndn/util/common.py Common.MAX_NDN_PACKET_SIZE"]}
{"id": "C09", "title": "Name wire encoding round trip", "statement": "Decoding the wire encoding of any name gives an equal name, and two names have the same wire encoding only if they are equal.", "quantifier": "all names with component type codes below 2^64 (any number of components, any byte values)", "why_tests_cant": "unbounded names", "anchors": ["python/pyndn/encoding/tlv_0_2_wire_format.py Tlv0_2WireFormat.encodeName, decodeName", "python/pyndn/name.py Name.wireEncode, wireDecode"]}
{"id": "C10", "title": "Component order is a total order compatible with equality", "statement": "Name.Component.compare is a total order (antisymmetric, transitive, total) that orders by type code, then length, then bytes, and returns 0 exactly for components that are equal.", "quantifier": "all pairs and triples of components", "why_tests_cant": "pairs and triples over an unbounded domain", "anchors": ["python/pyndn/name.py Name.Component.compare, equals", "python/pyndn/util/blob.py Blob.compare"]}
{"id": "C11", "title": "Name order is the canonical total order", "statement": "Name.compare is a total order on names; it is lexicographic by component with a proper prefix ordered before its extensions; it returns 0 exactly for equal names.", "quantifier": "all pairs and triples of names", "why_tests_cant": "pairs and triples over an unbounded domain", "anchors": ["python/pyndn/name.py Name.compare, equals"]}
{"id": "C12", "title": "getSuccessor is the immediate next component", "statement": "Component.getSuccessor returns a component greater than the original of the same type with no component of that type in between; Name.getSuccessor of a non-empty name is greater than every name having the original as a prefix, and every name that is greater than all those is at least the successor.", "quantifier": "all components and names", "why_tests_cant": "minimality quantifies over all names", "anchors": ["python/pyndn/name.py Name.Component.getSuccessor, Name.getSuccessor"]}
{"id": "C13", "title": "Name URI round trip", "statement": "Parsing the URI produced by Name.toUri gives back an equal name.", "quantifier": "all names", "why_tests_cant": "all byte values in all positions and all component types", "anchors": ["python/pyndn/name.py Name.toUri, Name.set, Name.toEscapedString, Name.fromEscapedString, Name._unescape"]}
{"id": "C14", "title": "Prefix matching", "statement": "name.isPrefixOf(other) (and match) is true exactly when the components of name are the first components of other; it is reflexive and transitive and the empty name is a prefix of everything.", "quantifier": "all pairs and triples of names", "why_tests_cant": "unbounded names; in particular names mixing component types", "anchors": ["python/pyndn/name.py Name.match, isPrefixOf"]}
{"id": "C15", "title": "Numbered name components round trip", "statement": "fromSegment/fromSegmentOffset/fromVersion/fromTimestamp/fromSequenceNumber/fromNumber followed by the corresponding toX returns the number, the corresponding isX is true and the others are false; reading with a different marker raises RuntimeError.", "quantifier": "all numbers below 2^64", "why_tests_cant": "2^64 values", "anchors": ["python/pyndn/name.py Name.Component.fromNumberWithMarker, toNumberWithMarker, fromNumber, toNumber, isSegment, isVersion"]}
{"id": "C16", "title": "Sub-name and prefix extraction follow list slicing", "statement": "getSubName, getPrefix and slicing with positive, negative and out-of-range arguments return exactly the components a list slice would give; a prefix joined with the remaining sub-name is the original name.", "quantifier": "all names, all integer arguments", "why_tests_cant": "all index combinations", "anchors": ["python/pyndn/name.py Name.getSubName, getPrefix, get, __getitem__"]}
{"id": "C17", "title": "Equal names hash equally after any history of changes", "statement": "After any sequence of appends/clears interleaved with hash calls, the hash of a name depends only on its current components: names that compare equal have equal hashes.", "quantifier": "all mutation histories", "why_tests_cant": "the hash is cached against a change counter, so histories matter", "anchors": ["python/pyndn/name.py Name.__hash__, append, clear, set, getChangeCount", "python/pyndn/util/blob.py Blob.__hash__"]}
{"id": "C18", "title": "Exclude matching", "statement": "Exclude.matches(component) is true exactly when the component equals a listed component or lies strictly inside a range described by ANY between its neighbouring listed components (open ended when there is no neighbour).", "quantifier": "all exclude lists, all components", "why_tests_cant": "unbounded lists with runs of ANY", "anchors": ["python/pyndn/exclude.py Exclude.matches"]}
{"id": "C19", "title": "Interest selectors decide which Data match", "statement": "Interest.matchesData(data) is true exactly when the Interest name is a prefix of the Data full name, the number of suffix components is within [min,max], the next component is not excluded and the key locator (if any) equals the Data's key locator.", "quantifier": "all interests and data packets, any implicit digest", "why_tests_cant": "combinations of selectors over unbounded names", "anchors": ["python/pyndn/interest.py Interest.matchesData, matchesName"]}
{"id": "C20", "title": "Interest (v0.2) wire round trip", "statement": "Decoding the encoding of an Interest without application parameters gives an Interest with the same name, selectors, nonce, lifetime, forwarding hint / link and selected delegation.", "quantifier": "all such interests, decoding into any pre-existing Interest object", "why_tests_cant": "combinations of optional fields and unbounded contents; stale state of the decoded-into object", "anchors": ["python/pyndn/encoding/tlv_0_2_wire_format.py Tlv0_2WireFormat.encodeInterest, _decodeInterestV02, _encodeSelectors, _decodeSelectors, _encodeExclude, _decodeExclude"]}
{"id": "C21", "title": "Interest (v0.3) wire round trip", "statement": "Decoding the encoding of an Interest with application parameters gives an Interest with the same name, CanBePrefix, MustBeFresh, nonce, lifetime, forwarding hint and application parameters.", "quantifier": "all such interests, decoding into any pre-existing Interest object", "why_tests_cant": "combinations of optional fields; the decoder first tries v0.2 and must not be confused by it", "anchors": ["python/pyndn/encoding/tlv_0_2_wire_format.py Tlv0_2WireFormat._encodeInterestV03, _decodeInterestV03, decodeInterest"]}
{"id": "C22", "title": "Data wire round trip and signed portion", "statement": "Decoding the encoding of a Data packet gives the same name, meta info, content and signature; the reported signed portion is exactly the encoded Name, MetaInfo, Content and SignatureInfo, and encoder and decoder report the same signed bytes.", "quantifier": "all Data packets", "why_tests_cant": "combinations of optional fields, unbounded contents", "anchors": ["python/pyndn/encoding/tlv_0_2_wire_format.py Tlv0_2WireFormat.encodeData, decodeData, _encodeMetaInfo, _encodeSignatureInfo"]}
{"id": "C23", "title": "Cached wire encodings are never stale", "statement": "After any sequence of field changes, child-object changes, encodings and decodings, wireEncode of a Data or Interest returns the encoding of its current fields.", "quantifier": "all histories of operations on the packet and the objects reachable from it", "why_tests_cant": "staleness depends on the history of change counters", "anchors": ["python/pyndn/interest.py Interest.wireEncode, getDefaultWireEncoding, getChangeCount", "python/pyndn/data.py Data.wireEncode, getChangeCount", "python/pyndn/util/change_counter.py ChangeCounter.checkChanged"]}
{"id": "C24", "title": "A nonce survives only while the Interest is unchanged", "statement": "getNonce returns the last nonce set if and only if no other field was changed since; otherwise it returns an empty nonce.", "quantifier": "all histories of operations", "why_tests_cant": "depends on the history of change counters", "anchors": ["python/pyndn/interest.py Interest.getNonce, setNonce, refreshNonce, getChangeCount"]}
{"id": "C25", "title": "NFD control message round trip", "statement": "Decoding the encoding of ControlParameters or ControlResponse gives back the same fields.", "quantifier": "all control parameters and responses", "why_tests_cant": "combinations of optional fields", "anchors": ["python/pyndn/encoding/tlv_0_2_wire_format.py Tlv0_2WireFormat._encodeControlParameters, _decodeControlParameters, encodeControlResponse, decodeControlResponse"]}
{"id": "C26", "title": "Link-layer packets and Nacks", "statement": "A network Nack encoded for an Interest is decoded to the same reason and the same Interest bytes; unknown link-layer header fields are ignored exactly when they are in the ignorable range; the fragment is returned exactly.", "quantifier": "all interests, reasons and header sequences", "why_tests_cant": "unbounded header sequences", "anchors": ["python/pyndn/node.py Node._encodeLpNack", "python/pyndn/encoding/tlv_0_2_wire_format.py Tlv0_2WireFormat.decodeLpPacket", "python/pyndn/network_nack.py NetworkNack"]}
{"id": "C27", "title": "Delegation sets stay sorted, unique by name, and survive the wire", "statement": "After any sequence of add/remove calls a DelegationSet holds at most one entry per name, sorted by preference then name; encoding and decoding preserves the entries and their order.", "quantifier": "all operation sequences", "why_tests_cant": "unbounded histories", "anchors": ["python/pyndn/delegation_set.py DelegationSet.add, addUnsorted, remove", "python/pyndn/encoding/tlv_0_2_wire_format.py Tlv0_2WireFormat._encodeDelegationSet, _decodeDelegationSet"]}
{"id": "C28", "title": "At most one callback per expressed Interest", "statement": "In every execution (any interleaving of expressInterest, incoming Data, incoming Nacks, timeouts, removals, including calls made from inside callbacks) each expressed Interest receives at most one of onData, onTimeout, onNetworkNack, at most once.", "quantifier": "all schedules of API calls, packet arrivals and timer firings, including re-entrant calls from callbacks", "why_tests_cant": "exponentially many interleavings", "anchors": ["python/pyndn/node.py Node.expressInterest, _expressInterestHelper, _processInterestTimeout, _satisfyPendingInterests, onReceivedElement", "python/pyndn/impl/pending_interest_table.py PendingInterestTable"]}
{"id": "C29", "title": "Incoming Data satisfies exactly the matching pending Interests", "statement": "When a Data packet arrives, the onData callbacks called are exactly those of the currently pending Interests that match it, each once; all others stay pending.", "quantifier": "all table states and data packets", "why_tests_cant": "all table states", "anchors": ["python/pyndn/impl/pending_interest_table.py PendingInterestTable.extractEntriesForExpressedInterest", "python/pyndn/node.py Node._satisfyPendingInterests"]}
{"id": "C30", "title": "removePendingInterest prevents later callbacks", "statement": "Once removePendingInterest(id) has returned, no callback of the Interest with that id is called afterwards; this holds also when the removal comes before the Interest was put on the table (still connecting).", "quantifier": "all schedules", "why_tests_cant": "races between connect, removal, arrival and timeout", "anchors": ["python/pyndn/impl/pending_interest_table.py PendingInterestTable.removePendingInterest, add, removeEntry", "python/pyndn/node.py Node.removePendingInterest"]}
{"id": "C31", "title": "An Interest with a timeout does not stay pending forever", "statement": "If an Interest with a lifetime (or an onTimeout callback) was expressed and timers are processed after its lifetime (4000 ms by default), it is no longer pending: it has received a callback or was removed.", "quantifier": "all schedules", "why_tests_cant": "all schedules", "anchors": ["python/pyndn/node.py Node._expressInterestHelper, _processInterestTimeout, processEvents", "python/pyndn/impl/delayed_call_table.py DelayedCallTable"]}
{"id": "C32", "title": "Delayed calls run in time order, once, never early", "statement": "For every history of callLater and processEvents calls, each delayed call is run exactly once, at the first processing whose clock has reached its due time, never earlier; within one processing calls run in order of due time, ties in order of registration.", "quantifier": "all histories, all delays, re-entrant callLater calls", "why_tests_cant": "unbounded histories", "anchors": ["python/pyndn/impl/delayed_call_table.py DelayedCallTable.callLater, callTimedOut"]}
{"id": "C33", "title": "Interest filters dispatch exactly the matching callbacks", "statement": "An incoming Interest is passed to exactly the registered filters whose prefix matches its name, in registration order; after unsetInterestFilter(id) that filter is never called.", "quantifier": "all registration histories and interests", "why_tests_cant": "unbounded histories", "anchors": ["python/pyndn/impl/interest_filter_table.py InterestFilterTable", "python/pyndn/node.py Node._dispatchInterest", "python/pyndn/interest_filter.py InterestFilter.doesMatch"]}
{"id": "C34", "title": "Removing a registered prefix also removes its Interest filter", "statement": "After removeRegisteredPrefix(id), whether it comes before or after the forwarder's success response, the filter created by registerPrefix with that id is not on the filter table; other filters are unaffected.", "quantifier": "all schedules of registration, response and removal", "why_tests_cant": "races between response and removal", "anchors": ["python/pyndn/impl/registered_prefix_table.py RegisteredPrefixTable", "python/pyndn/node.py Node._RegisterResponse.onData"]}
{"id": "C35", "title": "Interests expressed while connecting are sent once, in order", "statement": "With an asynchronous transport, every Interest expressed before the connection completes is put on the table and sent exactly once, in call order, when it completes; afterwards Interests are sent immediately.", "quantifier": "all schedules of express and connect events", "why_tests_cant": "all schedules", "anchors": ["python/pyndn/node.py Node.expressInterest"]}
{"id": "C36", "title": "The content cache replies only with matching, and if required fresh, Data", "statement": "Any packet that MemoryContentCache sends in answer to an Interest was added to the cache earlier, its name matches the Interest, and if the Interest requires freshness the packet's freshness period has not expired.", "quantifier": "all histories of add / interest / time", "why_tests_cant": "unbounded histories", "anchors": ["python/pyndn/util/memory_content_cache.py MemoryContentCache.add, _onInterest, _doCleanup"]}
{"id": "C37", "title": "The content cache finds what it has, and respects the child selector", "statement": "If an added packet that matches is still within its cache lifetime, the cache replies; with a child selector the reply has the leftmost / rightmost next component among all matching cached packets.", "quantifier": "all histories", "why_tests_cant": "unbounded histories", "anchors": ["python/pyndn/util/memory_content_cache.py MemoryContentCache._onInterest, add, _doCleanup"]}
{"id": "C38", "title": "Stored pending Interests are answered at most once and never after their timeout", "statement": "A pending Interest stored in the MemoryContentCache is answered by at most one added Data packet that matches it and never by a packet added after the Interest's lifetime elapsed.", "quantifier": "all histories", "why_tests_cant": "unbounded histories", "anchors": ["python/pyndn/util/memory_content_cache.py MemoryContentCache.storePendingInterest, add"]}
{"id": "C39", "title": "In-memory storage behaves as a set of packets keyed by full name", "statement": "After any sequence of insert/remove, find(name) returns a stored packet whose full name extends the name whenever one exists, and None otherwise; remove(prefix) removes exactly the packets under the prefix.", "quantifier": "all operation sequences", "why_tests_cant": "unbounded histories", "anchors": ["python/pyndn/in_memory_storage/in_memory_storage_retaining.py InMemoryStorageRetaining"]}
{"id": "C40", "title": "The segment fetcher delivers the concatenation of the segments in order", "statement": "Whenever onComplete is called, its argument is the concatenation of the contents of verified Data packets with segment numbers 0, 1, ..., N in order, where N is the final segment number announced by packet N.", "quantifier": "all network behaviours (any packets in any order, timeouts)", "why_tests_cant": "adversarial networks", "anchors": ["python/pyndn/util/segment_fetcher.py SegmentFetcher._onData, _onVerified, _fetchNextSegment"]}
{"id": "C41", "title": "The segment fetcher ends at most once and is never silently stuck", "statement": "In every execution at most one of onComplete/onError is called, at most once, and as long as neither has been called exactly one Interest is outstanding.", "quantifier": "all network behaviours", "why_tests_cant": "adversarial networks", "anchors": ["python/pyndn/util/segment_fetcher.py SegmentFetcher"]}
{"id": "C42", "title": "Exponential re-expression is bounded", "statement": "An Interest re-expressed by ExponentialReExpress always has twice the previous lifetime, never more than the maximum; after finitely many timeouts the caller's onTimeout is called, exactly once.", "quantifier": "all initial lifetimes and maxima", "why_tests_cant": "unbounded parameters", "anchors": ["python/pyndn/util/exponential_re_express.py ExponentialReExpress._onTimeout"]}
{"id": "C43", "title": "Validity periods survive the wire", "statement": "Encoding a signature's validity period whose bounds are whole seconds in the years 1000 to 9999 and decoding it gives the same bounds; setPeriod never widens the period: the stored start is not before and the stored end not after what the caller asked, each by less than a second.", "quantifier": "all pairs of times, all bytes following the encoding", "why_tests_cant": "calendar arithmetic over leap years and all date fields; a test samples a few dates", "anchors": ["security/validity_period.py:ValidityPeriod.setPeriod", "encoding/tlv_0_2_wire_format.py:_encodeValidityPeriod,_decodeValidityPeriod,toIsoString,fromIsoString"]}
{"id": "C44", "title": "The full name of a Data is its name and the digest of its encoding", "statement": "Data.getFullName returns the name of the Data followed by an implicit digest component holding the SHA-256 of the encoding of its current fields in the wire format asked for.", "quantifier": "all histories of operations on the Data object", "why_tests_cant": "the full name is cached; staleness depends on the history", "anchors": ["python/pyndn/data.py Data.getFullName", "python/pyndn/data.py Data.wireEncode"]}
{"id": "C45", "title": "A network Nack goes to exactly the Interests it is for", "statement": "When a network Nack arrives, onNetworkNack is called, once each, for exactly the pending Interests that have an onNetworkNack callback and whose encoding is the one in the Nack; all other Interests stay pending.", "quantifier": "all table states, all Nack packets, all behaviours of the callbacks", "why_tests_cant": "all table states and re-entrant callbacks", "anchors": ["python/pyndn/node.py Node.onReceivedElement", "python/pyndn/impl/pending_interest_table.py PendingInterestTable.extractEntriesForNackInterest"]}
{"id": "C46", "title": "The outcome of registerPrefix is reported once and truthfully", "statement": "For each registerPrefix call at most one of onRegisterSuccess and onRegisterFailed is called, at most once. onRegisterSuccess is called only when the forwarder's response with status code 200 was received and never after removeRegisteredPrefix; onRegisterFailed is called exactly when the command Interest timed out or the response was malformed or had another status code.", "quantifier": "all schedules of registrations, responses, timeouts and removals", "why_tests_cant": "Responses, timeouts and removals race in unboundedly many orders, with callbacks that call back into the face.", "anchors": ["python/pyndn/node.py Node.registerPrefix", "python/pyndn/node.py Node._RegisterResponse.onData", "python/pyndn/node.py Node._RegisterResponse.onTimeout", "python/pyndn/impl/registered_prefix_table.py RegisteredPrefixTable.add"]}
{"id": "C47", "title": "Only whole packets of legal size reach the transport", "statement": "Nothing longer than getMaxNdnPacketSize() (8800 bytes) is ever passed to the transport. What is passed for an Interest is its encoding; putData passes exactly the encoding of the packet, unless interest loopback is on and a pending Interest of the application matched; putNack passes a link-layer packet with the reason and the Interest, and a face that receives it reports the Nack with this reason to the matching Interests.", "quantifier": "all histories of calls and events, all packets", "why_tests_cant": "every path that sends would have to be tried with every packet", "anchors": ["python/pyndn/node.py Node.send, putData, putNack, _expressInterestHelper, onReceivedElement"]}
{"id": "C48", "title": "A schedule's verdict is right, and right for the whole interval it returns", "statement": "Schedule.getCoveringInterval(t) says that access is allowed exactly if t is in one of the repeated white intervals and in none of the repeated black ones (a repeated interval is on the days that are a multiple of nRepeats days, months or years after the start date and not after the end date, between its hours). The interval it returns contains t, and at every time in it the verdict would be the same. Interval.covers, intersectWith and unionWith compute membership, intersection and union.", "quantifier": "all schedules (any numbers of white and black intervals of every repeat unit) and all times", "why_tests_cant": "Times and combinations of intervals are unbounded, and the claim about the returned interval is itself about all the times in it.", "anchors": ["python/pyndn/encrypt/interval.py Interval", "python/pyndn/encrypt/repetitive_interval.py RepetitiveInterval.getInterval, _hasIntervalOnDate", "python/pyndn/encrypt/schedule.py Schedule.getCoveringInterval"]}
{"id": "C49", "title": "A group key goes to exactly the members who are allowed at every time it is for", "statement": "For a time slot, the group manager gives the group key to exactly the members whose schedule allows the time slot, makes none if there is no such schedule, and the interval for which the key is made contains the time slot; at every time in it each schedule of the group has the same verdict as at the time slot. So the key opens nothing at a time at which one of its holders is not allowed, and no allowed member is left out.", "quantifier": "all sets of schedules with members, all time slots", "why_tests_cant": "The interval is an intersection over all schedules, and the claim is about every time in it.", "anchors": ["python/pyndn/encrypt/group_manager.py GroupManager._calculateInterval", "python/pyndn/encrypt/schedule.py Schedule.getCoveringInterval"]}
{"id": "C50", "title": "A schedule survives being stored in the database", "statement": "Whatever intervals are added to a Schedule in whatever order and how often, the result of wireEncode decodes with wireDecode to an equal schedule, and the schedule does not depend on the order in which the intervals were added.", "quantifier": "all sequences of addWhiteInterval and addBlackInterval", "why_tests_cant": "Sequences of additions are unbounded.", "anchors": ["python/pyndn/encrypt/schedule.py Schedule.wireEncode, wireDecode, _sortedSetAdd, toIsoString, fromIsoString", "python/pyndn/encrypt/repetitive_interval.py RepetitiveInterval.compare"]}
{"id": "C51", "title": "A validated packet has a chain of certificates up to a trusted one", "statement": "Whatever the application, the network, other validations and the clock do: if Validator.validate calls the success callback for a packet, then the policy asks for no signature check of the packet, or the packet's signature verifies with the public key of a certificate that its key locator names and that the policy allows to sign it, and this certificate is one that the application declared trusted or is itself signed in this way, in its validity period, by another such certificate, with fewer certificates than the maximum depth. At the time of the callback the first certificate of the chain is a trust anchor, or a verified certificate in the cache that has not expired.", "quantifier": "all histories of validate, answers and timeouts of the network, loading and removing of anchors, caching, clock readings; all policies and signature checks", "why_tests_cant": "The certificate chain goes through two caches, trust anchors and the network, over unbounded histories with interleaved validations.", "anchors": ["python/pyndn/security/v2/validator.py Validator", "python/pyndn/security/v2/certificate_storage.py CertificateStorage", "python/pyndn/security/v2/certificate_fetcher.py CertificateFetcher", "python/pyndn/security/v2/certificate_fetcher_from_network.py CertificateFetcherFromNetwork", "python/pyndn/security/v2/validation_state.py ValidationState", "python/pyndn/security/v2/trust_anchor_container.py TrustAnchorContainer", "python/pyndn/security/v2/certificate_cache_v2.py CertificateCacheV2"]}
{"id": "C52", "title": "Each call of validate ends, once", "statement": "Each call of Validator.validate calls at most one of its two callbacks, at most once, and sends at most four times the maximum depth of Interests; at each moment a call has ended or waits for exactly one answer of the network. If the signature check and the policy raise nothing and the packets can be encoded, each call that does not wait for the network has called exactly one callback exactly once.", "quantifier": "all histories, all answers of the network including none, loops of certificates and endless chains", "why_tests_cant": "A malicious network can answer each certificate request with yet another certificate; the bound must hold for each.", "anchors": ["python/pyndn/security/v2/validator.py Validator.validate, _requestCertificate, _validateCertificate", "python/pyndn/security/v2/certificate_fetcher_from_network.py CertificateFetcherFromNetwork._doFetch", "python/pyndn/security/v2/validation_state.py ValidationState.setOutcome, hasSeenCertificateName", "python/pyndn/security/v2/data_validation_state.py DataValidationState", "python/pyndn/security/v2/interest_validation_state.py InterestValidationState"]}
{"id": "C53", "title": "The validation policies allow only what they say", "statement": "A configuration approves a key locator if and only if the first rule whose filters select the packet's name has only checkers that pass. With a hierarchical checker, a packet is accepted only if the identity in its key locator /<identity>/KEY/<id> is a prefix of its name, and so on up to a trusted certificate. With the simple hierarchy policy, the key locator without its last two components is a prefix of the name.", "quantifier": "all rules, names, key locators, histories of the validator", "why_tests_cant": "Rules, names and the chain of certificates are unbounded.", "anchors": ["python/pyndn/security/v2/validation_policy_config.py ValidationPolicyConfig", "python/pyndn/security/v2/validator_config/config_rule.py ConfigRule", "python/pyndn/security/v2/validator_config/config_filter.py ConfigFilter", "python/pyndn/security/v2/validator_config/config_checker.py ConfigChecker", "python/pyndn/security/v2/validator_config/config_name_relation.py ConfigNameRelation", "python/pyndn/security/v2/validation_policy_simple_hierarchy.py ValidationPolicySimpleHierarchy"]}
{"id": "C54", "title": "A command Interest is not accepted twice", "statement": "With ValidationPolicyCommandInterest, accepted command Interests with the same key name have strictly increasing timestamps, and each was within the grace period of the clock when it was validated; an Interest without the form of a command is not accepted; a command that is within the grace period and newer than all accepted ones with its key is validated as if there were no command policy. The names that one CommandInterestPreparer makes have strictly increasing timestamps, whatever the clock does.", "quantifier": "all histories of validations with all interleavings of certificate fetches; all sequences of clock readings", "why_tests_cant": "Replay protection depends on records that expire and are pushed out over an unbounded history.", "anchors": ["python/pyndn/security/v2/validation_policy_command_interest.py ValidationPolicyCommandInterest", "python/pyndn/security/command_interest_preparer.py CommandInterestPreparer.prepareCommandInterestName", "python/pyndn/security/v2/interest_validation_state.py InterestValidationState"]}
{"id": "C55", "title": "An NDN regular expression matches the names it describes and captures their parts", "statement": "NdnRegexTopMatcher.match accepts exactly the names that the expression describes: a component pattern for each component, with repetitions, groups, anchors at both ends. After a successful match, expand gives for each group the part of the name that the group stands for, independently of what was matched before.", "quantifier": "all expressions of the supported syntax, all names", "why_tests_cant": "Expressions nest without bound, and names are unbounded.", "anchors": ["python/pyndn/util/regex/ndn_regex_top_matcher.py NdnRegexTopMatcher.match, expand", "python/pyndn/util/regex/ndn_regex_matcher_base.py NdnRegexMatcherBase", "python/pyndn/util/regex/ndn_regex_repeat_matcher.py NdnRegexRepeatMatcher", "python/pyndn/util/regex/ndn_regex_pattern_list_matcher.py NdnRegexPatternListMatcher", "python/pyndn/util/regex/ndn_regex_backref_matcher.py NdnRegexBackrefMatcher", "python/pyndn/util/regex/ndn_regex_component_set_matcher.py NdnRegexComponentSetMatcher"]}
{"id": "C56", "title": "Two IBLTs are reconciled: listEntries of a difference tells which keys each side lacks", "statement": "An InvertibleBloomLookupTable depends only on the set of keys it holds, not on the order of insert and erase. Given the IBLTs of two sets A and B of the same size, listEntries on A.difference(B) returns (it does not loop for ever), every key it puts in positive is in A and not in B, every key in negative is in B and not in A, and if it returns True these are all of them; it returns True unless some of the differing keys share all their entries with others. An encoded IBLT is restored by initialize.", "quantifier": "all sets of keys, all histories of insert and erase, all hash functions without a collision of the check hash on the differing keys, all table sizes", "why_tests_cant": "Histories and sets are unbounded, and peeling depends on the order in which entries become pure.", "anchors": ["python/pyndn/sync/detail/invertible_bloom_lookup_table.py InvertibleBloomLookupTable.insert, erase, listEntries, difference, encode, initialize"]}
{"id": "C57", "title": "What a PSync producer publishes is fetched whole", "statement": "The names put in a PSyncState come back from its encoding, in order. PSyncSegmentPublisher.publish stores Data packets named dataName/version/segment number 0, 1, ... whose contents together are the content, sends to the face exactly the one that the Interest asks for, and a SegmentFetcher whose Interests are answered with these packets calls onComplete once with the content.", "quantifier": "all lists of names, all contents, all data and Interest names, all signing functions that change only the signature", "why_tests_cant": "Contents are unbounded; the boundary is where the length is a multiple of the segment size.", "anchors": ["python/pyndn/sync/detail/psync_state.py PSyncState.wireEncode, wireDecode", "python/pyndn/sync/detail/psync_segment_publisher.py PSyncSegmentPublisher.publish", "python/pyndn/util/segment_fetcher.py SegmentFetcher"]}
{"id": "C58", "title": "Full PSync instances come to have the same names", "statement": "After any sequence of publishName, removeName, sync Interests, received sync Data and delayed calls, the names of a FullPSync2017 are exactly those published or received and not removed since, whatever the tables in between; onNamesUpdate is told each new name of a received Data once, and only names that were not there. Asked by a sync Interest with the table of another set, an instance publishes exactly the names that the other lacks, or keeps the Interest if there are none; a name published later answers the waiting Interests; when the asker receives the content it has the names of both. A waiting Interest is removed when its lifetime is over.", "quantifier": "all histories of an instance, all pairs of sets of names, all hash functions and orders of events", "why_tests_cant": "The histories and the sets are unbounded, and the answer depends on the table only through the set.", "anchors": ["python/pyndn/sync/full_psync2017.py FullPSync2017", "python/pyndn/sync/psync_producer_base.py PSyncProducerBase"]}
{"id": "C59", "title": "Full PSync with users keeps one name per prefix, the newest", "statement": "After any history of addUserNode, removeUserNode, publishName, received sync Interests and received contents (numbers below 2^64; each received content has positive canonical numbers and at most one name per prefix), getSequenceNo(p) is the greatest number published or received for p since p was added (-1 if p is unknown), it never decreases unless p is removed, and the set that is synchronised is exactly one name p/number for each prefix with a positive number. onUpdate is called only for a received content that brings a greater number, once, with exactly one range [old+1, new] for each such prefix. An instance that is asked with the table of another one publishes exactly its names that are missing there, except those whose next name is there; when the other receives them it has for each prefix the greater of the two numbers.", "quantifier": "all histories of calls, Interests, contents and timeouts; all pairs of instances of one sync group", "why_tests_cant": "Which names are removed, sent and announced depends on the whole history of publications and receptions of all instances, and on the order in which contents arrive; tests play a few rounds between two instances.", "anchors": ["python/pyndn/sync/full_psync2017_with_users.py FullPSync2017WithUsers", "python/pyndn/sync/detail/psync_user_prefixes.py PSyncUserPrefixes", "python/pyndn/sync/psync_missing_data_info.py PSyncMissingDataInfo"]}
{"id": "C60", "title": "The ChronoSync digest tree is a function of the newest numbers", "statement": "After any sequence of DigestTree.update calls the nodes are sorted by data prefix and session, there is exactly one node for each producer that was updated and it has its greatest sequence number; update returns True exactly when the number is greater than all before. The tree and getRoot() do not depend on the order of the updates or on repeated and outdated ones. Two trees with equal roots have the same producers and numbers if SHA-256 has no collision among what was hashed for them and sessions and numbers are below 2^32.", "quantifier": "all sequences of updates (prefixes, sessions, numbers), all hash functions with 32-byte results", "why_tests_cant": "Users see updates in arbitrary orders, with repetitions; that all orders give the same root, and different states different roots, is a statement about all of them.", "anchors": ["python/pyndn/sync/digest_tree.py DigestTree.update, find, getRoot, _recomputeRoot", "python/pyndn/sync/digest_tree.py DigestTree.Node"]}
{"id": "C61", "title": "ChronoSync instances know the newest numbers and catch up with each other", "statement": "After any history, getProducerSequenceNo(p, session) of a producer other than the own one is the greatest number that onReceivedSyncState was told (-1 if none), getProducerPrefixes lists the known producers once each in order, and no number ever goes down. If the application publishes only after onInitialized and no other session uses its prefix, getSequenceNo() is the number of the own producer, and publishNextSequenceNo does not raise, increases it by one, offers the new state under the old digest and asks with the new digest; who has the same tree and receives it has the same tree again. A sync Interest with an older digest is answered with states after which the requester knows nothing that the answering instance does not know, and has the same tree if the numbers of each name came in order from one session. A recovery Interest with any digest of the history, or a newcomer's, is answered with all states, and the requester then has for each producer the greater number. An unknown digest leads, after the wait, to a recovery Interest. onReceivedSyncState is told all UPDATE states of an answer, in order, and isRecovery is true exactly if nothing was known before or a recovery was asked for; onInitialized is called when the first Interest is answered or times out, and not before.", "quantifier": "all histories of publications, Interests, Data, timeouts and shutdown of one or two instances; all hash functions whose digests of the states that occur differ", "why_tests_cant": "The state depends on all that was received, in any order; that two instances converge is about all pairs of histories.", "anchors": ["python/pyndn/sync/chrono_sync2013.py ChronoSync2013", "python/pyndn/sync/digest_tree.py DigestTree"]}
{"id": "C62", "title": "A ChronoSync instance always asks for the next state", "statement": "From the constructor until shutdown(), after any history in which the received Data can be parsed, an Interest whose name is the broadcast prefix followed by the current root digest is outstanding: expressed, and neither answered nor timed out.", "quantifier": "all histories of publications, Interests, Data, timeouts", "why_tests_cant": "Each callback must express the next Interest on every path; one missing case stops the synchronisation only after a particular sequence of events.", "anchors": ["python/pyndn/sync/chrono_sync2013.py ChronoSync2013._onData, _syncTimeout, _initialTimeOut, publishNextSequenceNo"]}
{"id": "C63", "title": "The PIB is always consistent", "statement": "After any history of calls of a KeyChain with an in-memory PIB and TPM - with any identity and key objects, also those of deleted identities and keys, and whether the calls return or raise - each key in the PIB belongs to an identity in it and each certificate to a key in it, the default identity is an identity, the default key of an identity is one of its keys, and the default certificate of a key is one of its certificates.", "quantifier": "all histories of KeyChain, PibIdentity and PibKey calls, with all arguments", "why_tests_cant": "Every method changes several dictionaries, and can raise in the middle; consistency is about all interleavings of calls and failures.", "anchors": ["python/pyndn/security/pib/pib_memory.py PibMemory", "python/pyndn/security/key_chain.py KeyChain", "python/pyndn/security/pib/pib_identity_container.py PibIdentityContainer", "python/pyndn/security/pib/pib_key_container.py PibKeyContainer", "python/pyndn/security/pib/pib_certificate_container.py PibCertificateContainer"]}
{"id": "C64", "title": "A KeyChain tells what is in its PIB, and its calls do what they say", "statement": "After any history of calls with live identity and key objects, getIdentity, getKey, getCertificate and getDefaultIdentity return what is in the stored PIB, and so do getDefaultKey and getDefaultCertificate if no key is deleted while another one is the default key and no certificate is replaced by one with the same name; a new KeyChain with the same PIB and TPM gives the same answers. createIdentityV2 leaves an identity with a default key and a default certificate of it, and changes nothing if it had a default key; it makes it the default identity if there was none; createKey makes a new key with a certificate, in the PIB and in the TPM, and leaves other keys alone; both return if the name is not empty and a key can be made. setDefaultIdentity, setDefaultKey, addCertificate and setDefaultCertificate do what they say and nothing else, and raise exactly if the key or certificate does not fit, and then change nothing.", "quantifier": "all histories of KeyChain calls, all names, key ids, certificates and clocks", "why_tests_cant": "The objects cache what the PIB has, at two levels; that a cache never disagrees with the PIB depends on the whole history of loading, changing and deleting.", "anchors": ["python/pyndn/security/key_chain.py KeyChain.createIdentityV2, createKey, setDefaultIdentity, setDefaultKey, addCertificate, setDefaultCertificate", "python/pyndn/security/pib/pib.py Pib", "python/pyndn/security/pib/detail/pib_identity_impl.py PibIdentityImpl", "python/pyndn/security/pib/detail/pib_key_impl.py PibKeyImpl"]}
{"id": "C65", "title": "What a KeyChain signs can be verified", "statement": "After any history of calls with live objects, sign(data, info) returns if the PIB has what the SigningInfo asks for and the packet can be encoded. What it returns differs from the packet only in the signature; who decodes it finds a signature that names the key that the SigningInfo stands for (the key, the key of the certificate, the default key of the identity, or of the default identity), is of the type of this key, has the validity period of the SigningInfo, and verifies with each certificate of this key; or it is the SHA-256 digest of the signed portion, exactly if this was asked for or there is no default identity. The same holds for sign(interest, info), where the signature is in the last two components of the name.", "quantifier": "all histories, packets, SigningInfo and keys; all signature algorithms that verify what they sign", "why_tests_cant": "The signed portion is that of an encoding with an empty signature, and the receiver's is that of the final encoding; that they agree is a statement about all packets, keys and lengths.", "anchors": ["python/pyndn/security/key_chain.py KeyChain.sign, _prepareSignatureInfo, selfSign", "python/pyndn/security/signing_info.py SigningInfo", "python/pyndn/security/tpm/tpm.py Tpm", "python/pyndn/security/verification_helpers.py VerificationHelpers"]}
{"id": "C66", "title": "What is deleted from a KeyChain is gone, and what is exported can be imported", "statement": "deleteKey of a key of the identity removes the key, its certificates and its private key, deleteIdentity removes the identity, its keys, their certificates and the private keys of the key objects that were used, and deleteCertificate removes the certificate; what was the default is not the default any more, and the answers to all questions about other identities, keys and certificates stay the same. If the arguments do not fit they raise and change nothing. exportSafeBag of a certificate in the PIB returns, and importSafeBag of it with the same password in a KeyChain that does not have the private key returns; then this KeyChain has the identity, the key with the same private and public key, and the certificate as its default certificate.", "quantifier": "all histories of one or two KeyChains, all names, certificates and passwords", "why_tests_cant": "That nothing is left behind in any cache, and nothing else is touched, is about all states and all later questions.", "anchors": ["python/pyndn/security/key_chain.py KeyChain.deleteKey, deleteIdentity, deleteCertificate, exportSafeBag, importSafeBag", "python/pyndn/security/pib/pib_memory.py PibMemory.removeKey, removeIdentity, removeCertificate", "python/pyndn/security/tpm/tpm_back_end_memory.py TpmBackEndMemory"]}
{"id": "C67", "title": "Encrypted content and safe bags survive the wire", "statement": "EncryptedContent.wireEncodeV2 writes the payload, the initial vector and the payload key if there are any, and the name of the key locator if it has one, in this order; wireDecodeV2 of it, whatever follows, gives an EncryptedContent with the same of these and nothing else. wireEncode (version 1) writes the key locator, the algorithm, the initial vector and the payload, and raises if there is no algorithm; wireDecode of it gives the same of these. An optional value that is empty counts as absent. SafeBag.wireDecode of what wireEncode made gives the same certificate and the same private key bytes. Each decoder returns or raises ValueError or its kind, for any input.", "quantifier": "all EncryptedContent, certificates, private keys and names whose encoding is shorter than 2^64 bytes; for the last part all byte strings", "why_tests_cant": "A wrong length or a field read past its parent shows only for some sizes and some combinations of fields.", "anchors": ["python/pyndn/encoding/tlv_0_2_wire_format.py Tlv0_2WireFormat.encodeEncryptedContent, decodeEncryptedContent, encodeEncryptedContentV2, decodeEncryptedContentV2", "python/pyndn/encrypt/encrypted_content.py EncryptedContent", "python/pyndn/security/safe_bag.py SafeBag.wireEncode, wireDecode"]}
{"id": "C68", "title": "An encryptor gets its KEK and publishes each CK", "statement": "At most one Interest for the KEK is waiting. The encryptor asks three times before it tells the application that there is no KEK, and never more than three times without a KEK or a report; each time that it gives up it schedules a new try in a minute, and as long as there is no KEK it waits for an answer or has a try scheduled (if expressInterest and the callback do not raise and it is not shut down). Each CK packet that is published carries the CK of its time, encrypted with the last KEK that was received; each CK that is made when there is a KEK, and the CK of the time when a KEK is received, is published at once or the application is told. An Interest for the name of a CK that was published is answered with a packet that carries this CK. Once there is a KEK and nothing is under way, no further Interest is sent. encrypt uses the last CK and names it.", "quantifier": "all histories of regenerateCk, packets, timeouts, nacks, timers, Interests and shutdown, all KEKs and all keys", "why_tests_cant": "The order of timeouts, nacks, scheduled retries and new CKs is arbitrary, and the retries overlap with new CKs.", "anchors": ["python/pyndn/encrypt/encryptor_v2.py EncryptorV2", "python/pyndn/in_memory_storage/in_memory_storage_retaining.py InMemoryStorageRetaining"]}
{"id": "C69", "title": "A decryptor answers each call at most once, and with the right plain text", "statement": "For each call of decrypt, onSuccess and onError together are called at most once. A call that is not answered waits for an Interest that is outstanding, or the CK could not be retrieved and another caller for it was told. When a CK is retrieved all who asked for it are answered, nothing more is asked for, and later calls are answered before decrypt returns. What onSuccess gets is the decryption of the payload of the call with its initial vector and the bits of a CK; these came in a packet whose name is the CK name, ENCRYPTED-BY and a KEK name, and were decrypted with the private key of the KDK of this KEK, which came in a safe bag that was opened with the secret that the credentials of the member decrypt. At most six Interests are sent for a CK, however often it is asked for.", "quantifier": "all histories of decrypt, packets, timeouts, nacks and shutdown, all contents and packets, and all keys; the callbacks do not raise", "why_tests_cant": "Calls for the same and for other CKs come between the packets in any order, and the face may deliver anything.", "anchors": ["python/pyndn/encrypt/decryptor_v2.py DecryptorV2"]}
{"id": "C70", "title": "A member of a group can decrypt what the producer encrypted", "statement": "The access manager publishes the KEK and the KDK of the member; the producer encrypts contents at any times with its CKs, and publishes them; the member decodes the contents and calls decrypt, in any order and any number of times. When the network answers each Interest of the member with one of these packets under the name of the Interest, or lets it time out, then onError is called only after three timeouts, and onSuccess is called with exactly the plain text that the producer encrypted. With fewer than three timeouts every caller is told once no Interest is outstanding, and two packets are enough for this. The names under which the member asks for the KDK are the names that the access manager gives to it. The AES padding is always removed again, for all plain texts.", "quantifier": "all plain texts, keys, initial vectors, names, histories of the key chain of the manager, histories of the encryptor, and all histories of calls, packets and timeouts of the decryptor; all encryptions that can be decrypted", "why_tests_cant": "The three parties must agree on names, wire forms, passwords and padding for all inputs, and packets and calls come in any order.", "anchors": ["python/pyndn/encrypt/access_manager_v2.py AccessManagerV2", "python/pyndn/encrypt/encryptor_v2.py EncryptorV2", "python/pyndn/encrypt/decryptor_v2.py DecryptorV2", "python/pyndn/encrypt/algo/aes_algorithm.py AesAlgorithm"]}
{"id": "C71", "title": "DER encoding: what is encoded is the DER of X.690, and parse gives it back", "statement": "For every tree of DER nodes, built with the constructors, addChild (with notifyParent below the root), getSize and encode in any order, encode gives exactly the DER encoding of X.690, and getSize its length. DerNode.parse of an encoding, at any place in a buffer, gives a node with the same tree, values and bytes; different trees have different encodings. DerInteger, DerBoolean, DerOctetString, DerPrintableString, DerOid and DerGeneralizedTime hold the contents that X.690 asks for and toVal gives back the value (a time without its fraction of a second). parse of any bytes returns or raises DerDecodingException or IndexError, and what it returns are parts of the bytes. OID(str(oid)) is the same OID.", "quantifier": "all trees, all histories of addChild, getSize and encode, all integers, OIDs and times in the years 1000 to 9999, all buffers and indices", "why_tests_cant": "The length octets, the base-128 numbers and the nesting have no bound, and the sizes are cached and changed in place.", "anchors": ["python/pyndn/encoding/der/der_node.py DerNode.parse, DerStructure, DerInteger, DerOid, DerGeneralizedTime", "python/pyndn/encoding/oid.py OID"]}
{"id": "C72", "title": "An exported private key is imported again, and its encoding is PKCS #8", "statement": "toEncryptedPkcs8 gives the DER encoding of an EncryptedPrivateKeyInfo (PBES2 with PBKDF2, 2048 iterations, and Triple DES in CBC mode) of the padded PrivateKeyInfo. Loading it with the same password, or the unencrypted export without a password, gives the same key with the same type. loadEncryptedPkcs8 accepts every such encoding with any salt, iteration count and initial vector; loadPkcs8 accepts RSA and EC and refuses every other algorithm; loadPkcs1 recognizes RSAPrivateKey; toPkcs1 is the private key inside the PrivateKeyInfo. On any bytes they give a key that the crypto library made, or raise an exception.", "quantifier": "all keys for which the crypto library is sound, all passwords, salts and initial vectors of 8 bytes; all byte strings for loading", "why_tests_cant": "the encoding depends on every byte of the key, of the salt and of the vector, and on lengths at which the DER header changes; input from others is arbitrary bytes", "anchors": ["python/pyndn/security/tpm/tpm_private_key.py: TpmPrivateKey.loadPkcs1, loadPkcs8, loadEncryptedPkcs8, toPkcs1, toPkcs8, toEncryptedPkcs8", "python/pyndn/security/tpm/tpm_back_end_memory.py: TpmBackEndMemory._doExportKey, _doImportKey"]}
{"id": "C73", "title": "Private keys in files behave as a map from names to keys, also after restarts and crashes", "statement": "base64Encode gives RFC 4648 Base 64, in lines of 64 characters if asked, and b64decode gives the bytes back. With TpmBackEndFile, hasKey, getKeyHandle, createKey, deleteKey, exportKey and importKey, called in any order by the same process or by new ones, give what a map from key names to keys gives: a key is there from its creation or import until its deletion, no call changes the key of another name, and importKey and createKey with a given key id do not replace a key. A crash while a key is written leaves the keys of other names as they are, and the damaged key is there as a whole or not at all, and can be deleted and imported again.", "quantifier": "all histories of calls, all sets of key names whose SHA-256 hashes do not collide, all keys that the crypto library can read back, every crash point in the writing of a file", "why_tests_cant": "histories and crash points are unbounded; the encoding depends on every byte of the key and on its length modulo 3 and 48", "anchors": ["python/pyndn/security/tpm/tpm_back_end_file.py: TpmBackEndFile._doHasKey, _doGetKeyHandle, _doCreateKey, _doDeleteKey, _doExportKey, _doImportKey, _loadKey, _saveKey, _toFilePath", "python/pyndn/security/tpm/tpm_back_end.py: TpmBackEnd.createKey, importKey, exportKey", "python/pyndn/util/common.py: Common.base64Encode"]}
{"id": "C74", "title": "A PIB in an SQLite database does what the documentation says, also after restarts and crashes", "statement": "With PibSqlite3, the calls on identities, keys, certificates, their defaults and the TPM locator, in any order and by one process or by new ones, give what maps from names give: what was added is there, with the last bits or certificate given, until it is removed itself or with its identity or key; nothing else changes; the first one added is the default, there is at most one default in each group, and a default is lost only by removing it or by setting another one; Pib.Error is raised exactly where there is no such entry. After a crash at any commit the PIB is that before the call, that after it, or one where a leading part of what the call adds was added. Statements of several processes in any interleaving keep row numbers and names unique, at most one default in each group, and no key without its identity and no certificate without its key.", "quantifier": "all histories of calls with TPM locators that are not empty and names that can be encoded where a key name is made from its identity name and a certificate name from its key name, all certificates that can be encoded, all crash points in all calls, all interleavings of SQL statements", "why_tests_cant": "histories, crash points and interleavings are unbounded, and triggers, row numbers and cascades interact over the whole history", "anchors": ["python/pyndn/security/pib/pib_sqlite3.py: PibSqlite3", "python/pyndn/security/pib/pib_impl.py: PibImpl", "python/pyndn/security/pib/pib.py: Pib._reset"]}
{"id": "C75", "title": "Ranges of an Exclude: what is excluded afterwards", "statement": "After Producer.excludeAfter(exclude, c) the Exclude matches exactly what it matched before, c, and every component after c. After excludeRange(exclude, from, to) it matches exactly what it matched before, from, to, and what is between; after excludeBefore(exclude, to) exactly what it matched before, to, and what is before to. A range that is not ascending raises RuntimeError. The result is in order again.", "quantifier": "all Excludes whose listed components are in ascending order, with any combination of ranges, and all nonempty generic components", "why_tests_cant": "entries may be merged, split, inserted and removed in any number; a test sees a few arrangements", "anchors": ["python/pyndn/encrypt/producer.py: Producer.excludeAfter, excludeBefore, excludeRange, getExcludeEntries, setExcludeEntries, findEntryBeforeOrAt", "python/pyndn/exclude.py: Exclude.matches"]}
{"id": "C76", "title": "A group manager: schedules, members and group keys through every history and crash", "statement": "With GroupManager and Sqlite3GroupManagerDb, for every sequence of calls and restarts: a schedule that was added is there until it is deleted and is read back equal; renaming keeps its members, deleting removes them; a member is in exactly one schedule; errors are GroupManagerDb.Error and change nothing. getGroupKey(timeSlot) gives no packets if no schedule allows the time slot; else one E-KEY packet whose name has an interval with the time slot in it, in which the same schedules allow reading throughout, and exactly one D-KEY packet, in the order of key names, for each member that may read, with the private key of the E-KEY encrypted with that member's key. A second call without needRegenerate gives the same E-KEY. A crash at any commit leaves the group of before or after the call, or the group without the E-KEY that was being made anew.", "quantifier": "all histories of calls and restarts of any length; all schedules that can be stored; all names, keys, orders of rows and random choices; all commits as crash points", "why_tests_cant": "the state depends on the whole history, the foreign keys and the order of rows; a test runs a few short histories without crashes", "anchors": ["python/pyndn/encrypt/group_manager.py: GroupManager.getGroupKey, addSchedule, _calculateInterval, _generateKeyPair, _createEKeyData, _createDKeyData", "python/pyndn/encrypt/sqlite3_group_manager_db.py: Sqlite3GroupManagerDb", "python/pyndn/encrypt/algo/encryptor.py: Encryptor.encryptData"]}
{"id": "C77", "title": "A producer: one content key per hour, sealed for every node, through every schedule of answers", "statement": "With Producer and Sqlite3ProducerDb, for every sequence of createContentKey and produce calls, answers, timeouts and NACKs in any order, and restarts: there is one content key per hour, made by the first call for that hour and never changed; createContentKey gives the content key name of the hour, and produce a packet with the content encrypted with the hour's key under that name. onEncryptedKeys is called at most once for each createContentKey that made a key (exactly once, when nothing is pending any more, if all Data are usable E-KEYs; then nothing raises, and each E-KEY received for the time slot that had not ended has its packet among those given), with at most one packet per node, each holding the content key of that time slot encrypted with an E-KEY received for a node whose period ends after the time slot. Each Interest is repeated at most repeatAttempts times for timeouts. The Interests exclude nothing but E-KEYs from the time slot on and those that begin no later than a received one that had ended; after one that had ended, the next Interest excludes it.", "quantifier": "all histories of calls, events and restarts of any length; all times in the years 1000 to 9999, names, data types of any depth, Data, keys and random choices", "why_tests_cant": "answers for several time slots and nodes interleave in unboundedly many ways, and what was received for one time slot is used for another; a test fixes one order", "anchors": ["python/pyndn/encrypt/producer.py: Producer.createContentKey, produce, _handleTimeout, _handleNetworkNack, _updateKeyRequest, _handleCoveringKey, _encryptContentKey, _sendKeyInterest", "python/pyndn/encrypt/sqlite3_producer_db.py: Sqlite3ProducerDb", "python/pyndn/encrypt/producer_db.py: ProducerDb.getFixedTimeSlot"]}
{"id": "C78", "title": "A consumer: plain texts only through verified keys, callbacks exactly once, keys kept", "statement": "With Consumer and Sqlite3ConsumerDb, for every sequence of consume, addDecryptionKey, setGroup and deleteKey calls, answers (with any outcome of the verification), timeouts, NACKs and restarts in any order: onConsumeComplete is only called with the plain text that decrypting the verified Data for the consumed name gives with a C-KEY which came from verified Data for the C-KEY's and group's names, decrypted with a D-KEY which came from verified Data for the D-KEY's and consumer's names, decrypted with a key of the consumer. For each consume call at most one callback is called, once; without a restart exactly one, unless an Interest is still pending, if each verified key Data can be read. At most three Interests are expressed for each consume call, each at most once more after a timeout. When a content was decrypted, later contents with the same C-KEY are decrypted at once without Interests. Data that are not verified change no keys and give a validation error; NACKs and second timeouts a retrieval error.", "quantifier": "all histories of calls, events and restarts of any length; all names, Data (well-formed or not), keys, RSA and AES functions", "why_tests_cant": "answers for several consume calls interleave in unboundedly many ways and share caches; a test fixes one order and well-formed packets", "anchors": ["python/pyndn/encrypt/consumer.py: Consumer.consume, _decrypt, _decryptContent, _decryptCKey, _decryptDKey, _sendInterest, addDecryptionKey, setGroup", "python/pyndn/encrypt/sqlite3_consumer_db.py: Sqlite3ConsumerDb"]}
{"id": "C79", "title": "Group manager, producer and consumer together: the consumer gets exactly what was produced", "statement": "If the keys fit (RSA and AES decrypt what they encrypt) and the verified answers are packets as GroupManager.getGroupKey and Producer make them, then for every interleaving of consume calls, answers, timeouts, NACKs, failed verifications and restarts, onConsumeComplete is only called with the content that was given to Producer.produce for that Data; nothing is logged, and onError is only called for the network, the verification or a missing key, never for a format or an algorithm. If nothing goes wrong, each consume call whose Interests are answered completes. The packets of produce, those given to onEncryptedKeys and the D-KEY packets for a reader are such packets.", "quantifier": "all histories of the consumer of any length; all worlds of content keys, group keys and user keys; all RSA and AES functions that decrypt what they encrypt; all packets of the two producers", "why_tests_cant": "the three programs are only tested against fixed packets; agreement of formats and names must hold for all keys, names, contents and orders of answers", "anchors": ["python/pyndn/encrypt/consumer.py: Consumer", "python/pyndn/encrypt/producer.py: Producer.produce, _encryptContentKey", "python/pyndn/encrypt/group_manager.py: GroupManager.getGroupKey, _createDKeyData", "python/pyndn/encrypt/algo/encryptor.py: Encryptor.encryptData"]}
{"id": "C80", "title": "SigningInfo: the signer chosen last signs, and the signing string gives it back", "statement": "After every history of calls of the setters of a SigningInfo, KeyChain.sign reads the signer that was chosen last, with the name and the PIB object of that call only, the validity period given since that choice (none otherwise) and the digest algorithm given last; a call that raises changes nothing. str(info) is empty or \"id:\", \"key:\" or \"cert:\" followed by the URI of the signer's name, and SigningInfo(str(info)) has the same kind and name of signer, so that KeyChain.sign does the same with it when the options are the defaults. Every other string is refused. Excepted: the identity /localhost/identity/digest-sha256, which is read back as a SHA-256 digest, and names which the URI does not give back (C13).", "quantifier": "all histories of calls of any length; all names, PIB objects and options; all strings", "why_tests_cant": "the tests parse a few strings; that nothing of an earlier choice stays in the object and that the string is faithful must hold for all histories and names", "anchors": ["python/pyndn/security/signing_info.py: SigningInfo.__init__, reset, setSigningIdentity, setSigningKeyName, setSigningCertificateName, setSha256Signing, setPibIdentity, setPibKey, setValidityPeriod, setDigestAlgorithm, __str__", "python/pyndn/security/key_chain.py: KeyChain._prepareSignatureInfo"]}
{"id": "C81", "title": "ProtobufTlv: a message survives encoding and decoding", "statement": "For every protobuf descriptor whose field numbers are different, also recursive ones, ProtobufTlv.encode of a complete message is the sequence of its TLVs in the order of the descriptor (type = field number), ProtobufTlv.decode of it into a new message gives the same message, and different messages have different encodings; decoding into a used message replaces single fields, appends to repeated fields and updates sub-messages. A message with a missing required field at any depth is refused with RuntimeError. Whatever the input, a decoded message has all required fields that are not sub-messages. In particular a ChronoSync sync state of any number of updates survives. Excepted: strings that are not ASCII (decoded byte by byte), false in optional and repeated fields (not written), and an optional or required sub-message without any field set (comes back as absent).", "quantifier": "all descriptors with different field numbers, including recursive message types; all messages of any depth and size below 2^64 bytes; all used messages as targets; for the last claim all inputs", "why_tests_cant": "the tests encode one fixed message; the encoder and the decoder are generic over descriptors and recursive, so agreement must hold for all schemas and messages", "anchors": ["python/pyndn/encoding/protobuf_tlv.py: ProtobufTlv.encode, decode, _encodeMessageValue, _decodeMessageValue, _decodeFieldValue", "python/pyndn/sync/sync_state_pb2.py: SyncStateMsg"]}
{"id": "C82", "title": "BoostInfoParser: a configuration gives exactly the entries written in it", "statement": "Every text of a list of entries in the INFO format - any indentation, gaps, blank lines, comments, quoted words with escaped quotes and backslashes, LF or CRLF line ends, sections to any depth with the opening brace on its own line or at the end of the line - is accepted by BoostInfoParser.read, and the tree has exactly these entries: for each key, in the order of first appearance, the entries in the order of the text. Several texts read by one parser, or a file brought in by #include, give the entries one after the other. tree[path] gives exactly the entries that the path of keys leads to, in the order of the text, and getFirstValue the value of the first of them or None. Excepted, because the code takes them otherwise: a semicolon in quotes, a section on one line, a brace in quotes, a brace without a gap after the key.", "quantifier": "all lists of entries of any depth and number; all texts that denote them; all paths; all sequences of texts", "why_tests_cant": "the tests read two fixed files; what must hold is that no layout of the text changes the rules that a validator will enforce", "anchors": ["python/pyndn/util/boost_info_parser.py: shlex_split, BoostInfoTree.addSubtree, __getitem__, getFirstValue, BoostInfoParser.read, _parseLine"]}
{"id": "C83", "title": "ValidationPolicyConfig: what is written in the configuration file is what is enforced", "statement": "ValidationPolicyConfig.load of a configuration succeeds if and only if the file has a meaning (one validator section; every rule has an id, a known usage, complete filters and at least one complete checker; every trust anchor is complete and of a known type) and its trust anchors can be loaded; then the policy has exactly the rules of the file in its order, for Data and for Interests, the trust anchors of the file with their refresh periods, and nothing of an earlier configuration. After that, a packet's key is accepted for fetching if and only if the packet names it and the first rule of the file for this kind of packet which applies to its name has all its checkers pass; validation is skipped if and only if the file has a trust anchor of type any. Also after a load stopped by an exception, nothing is accepted but by a rule of the file, and nothing is skipped unless the file says so. A file that cannot be parsed leaves the policy unchanged.", "quantifier": "all configuration texts of any layout, number of rules, filters, checkers and anchors; all previous configurations; all packets; all regular expressions, certificates and anchor stores", "why_tests_cant": "the tests load three fixed files; that no entry is dropped, misread or left over from a previous configuration is a statement about all files and all reloads", "anchors": ["python/pyndn/security/v2/validation_policy_config.py: ValidationPolicyConfig.load, checkPolicy, _processConfigTrustAnchor, _getRefreshPeriod", "python/pyndn/security/v2/validator_config/config_rule.py: ConfigRule.create", "python/pyndn/security/v2/validator_config/config_filter.py: ConfigFilter.create", "python/pyndn/security/v2/validator_config/config_checker.py: ConfigChecker.create", "python/pyndn/security/v2/validator_config/config_name_relation.py: getNameRelationFromString"]}
{"id": "C84", "title": "ConfigPolicyManager: only what the configuration justifies is verified, each call ends at most once, and commands are not replayed", "statement": "After ConfigPolicyManager.load of a configuration that does not switch verification off, whenever KeyChain.verifyData or verifyInterest calls onVerified for a packet, the packet's signature verifies with the key of a certificate that its key locator leads to; the first rule of the file that is for this kind of packet and whose filters all select its name has a checker which accepts the key locator; and the certificate is given in the file (trust anchor, trust anchor directory, fixed signer), or was put into the cache by the application, or is itself justified in the same way - whatever Data packets the network returns and however long the chain. Every call ends exactly once (a callback, an exception, or silence) or waits for exactly one Interest, so at most one callback is called, and expresses at most three Interests for each of searchDepth + 1 certificates. The first command Interest of a key that is verified is within graceInterval of the clock; as long as callbacks return at once and fewer than maxTrackedKeys keys are used, the verified command Interests of a key have strictly increasing timestamps.", "quantifier": "all configurations, v1 and v2 certificates, all packets, answers, timeouts, clock changes, file and directory contents over time, insertions by the application, re-entrant calls; all lengths of certificate chains", "why_tests_cant": "the tests verify a handful of packets with fixed files; that no answer of the network, order of timeouts or expiry of certificates lets a packet through is a statement about all histories", "anchors": ["python/pyndn/security/policy/config_policy_manager.py: ConfigPolicyManager.load, checkVerificationPolicy, _getCertificateInterest, _findMatchingRule, _checkSignatureMatch, _verify, _interestTimestampIsFresh, _updateTimestampForKey, TrustAnchorRefreshManager", "python/pyndn/security/key_chain.py: KeyChain.verifyData, verifyInterest, _onCertificateInterestTimeout", "python/pyndn/security/policy/certificate_cache.py: CertificateCache", "python/pyndn/security/certificate/identity_certificate.py: certificateNameToPublicKeyName"]}
{"id": "C85", "title": "Trust anchors: what a TrustAnchorContainer returns was added by the application or read from a watched file not long ago", "statement": "Whatever calls of insert (a certificate, or a path with a refresh period), getGroup(id).remove, clear and find an application makes, at whatever times and however the files change: find by name or by Interest only returns a certificate that the application has added and has not removed or cleared since, or one read from a file or directory which was inserted and not cleared since, and which less than a refresh period ago had a certificate with this name; the result's name starts with the name asked for (or matches the Interest); find by name does not raise while the directories can be listed and have no two certificates with the same name; after clear nothing is found until something is added again; and a certificate that was added and never removed is found by its name and every prefix of it.", "quantifier": "all sequences of calls, all times between them, all contents of files and directories over time, all names, Interests, certificates and numbers of groups", "why_tests_cant": "the tests refresh one directory a few times; that no sequence of additions, removals, refreshes and file changes leaves an anchor trusted without reason is a statement about all histories", "anchors": ["python/pyndn/security/v2/trust_anchor_container.py: TrustAnchorContainer.insert, clear, find, getGroup, _refresh, _AnchorContainer", "python/pyndn/security/v2/static_trust_anchor_group.py: StaticTrustAnchorGroup.add, remove", "python/pyndn/security/v2/dynamic_trust_anchor_group.py: DynamicTrustAnchorGroup.refresh, _loadCertificate", "python/pyndn/security/v2/trust_anchor_group.py: TrustAnchorGroup.readCertificate"]}
{"id": "C86", "title": "Identity storage: what is asked of a BasicIdentityStorage or MemoryIdentityStorage is what has been stored, and new key names are new", "statement": "Whatever calls an application makes on a BasicIdentityStorage - adding identities, keys and certificates, deleting keys, certificates and identities, setting the default identity, key and certificate - every question (does it exist, its bits, the default identity, key or certificate) is answered by what is known after these calls: a key or certificate under a name is the one added first and not deleted since; deleting a key also deletes its certificates, deleting an identity also its keys and their certificates; a default is the one set last, if what it names existed and has not been deleted since, and a question without an answer raises SecurityException. A MemoryIdentityStorage gives the same answers while nothing is deleted and only known keys and certificates are made defaults. getNewKeyName gives a name under the identity with which no key is stored, and never the same name twice, for any identities and even when the clock stands still or goes back.", "quantifier": "all sequences of calls, all identities, key names, certificates and bits, all numbers of keys, all clock readings", "why_tests_cant": "the tests add and delete a few names; that the rows of four tables agree with each other after every sequence of calls, and that two implementations cannot be told apart, are statements about all histories", "anchors": ["python/pyndn/security/identity/basic_identity_storage.py: BasicIdentityStorage", "python/pyndn/security/identity/memory_identity_storage.py: MemoryIdentityStorage", "python/pyndn/security/identity/identity_storage.py: IdentityStorage.getNewKeyName, getDefaultCertificateNameForIdentity"]}
{"id": "C87", "title": "HMAC signatures: what is signed with a key verifies with it, and what verifies with it has been signed with it", "statement": "A Data packet signed by signWithHmacWithSha256 is the same packet with new signature bits; verifyDataWithHmacWithSha256 with the same key is True, both where it was signed and wherever its encoding (also followed by other bytes) has been received; with another key it is True only if both keys give the same code. The same holds for an Interest, whose name gets two more components that name the key. Whatever bytes are received, in whatever encoding: if they decode to a Data packet that verifies with a key, then a packet with the same name, meta info, content and signature info has been signed with the key (for an Interest: one whose name is the same up to the last component), or somebody has produced the HMAC of a message that nobody signed.", "quantifier": "all Data packets and Interests that can be encoded, all keys, key names and nonces, all received byte strings including malformed and non-canonical ones, all sets of packets signed before", "why_tests_cant": "the tests sign and verify one packet and compare with one constant; that no byte string decodes to a packet which verifies but says something else than what was signed is a statement about all byte strings", "anchors": ["python/pyndn/security/key_chain.py: KeyChain.signWithHmacWithSha256, verifyDataWithHmacWithSha256, verifyInterestWithHmacWithSha256", "python/pyndn/hmac_with_sha256_signature.py: HmacWithSha256Signature", "python/pyndn/data.py: Data.wireEncode, wireDecode", "python/pyndn/interest.py: Interest.wireEncode, wireDecode", "python/pyndn/encoding/tlv_0_2_wire_format.py: Tlv0_2WireFormat.decodeSignatureInfoAndValue"]}
{"id": "C88", "title": "The self-verifying policy: a packet is verified exactly if the stored keys justify its signature, and what a stored key's owner signs is verified", "statement": "KeyChain.verifyData (security v1) with SelfVerifyPolicyManager calls onVerified exactly if the signature is the SHA-256 digest of the signed portion, or is an RSA or ECDSA signature whose KeyLocator has a key name, under which the storage has a public key with which the signature verifies (in an IdentityStorage under the key name of the certificate, in a PIB under the name itself); for a kind of signature it knows, and a storage that answers, it calls onValidationFailed otherwise. The same for verifyInterest and the signature in the last two name components. Whatever bytes are received: a verified Data packet has a digest, or says what a packet says that was signed, or its signature is a forgery. A packet signed by IdentityManager.signByCertificate, signInterestByCertificate, signWithSha256 or signInterestWithSha256 is the same packet with a signature (an Interest: with two more components) and is verified, where it was signed and wherever its encoding is received, if the storage has the key of the certificate. With BasicIdentityStorage, after all calls, the key is the one that the calls made known. NoVerifyPolicyManager verifies everything.", "quantifier": "all packets, cached encodings, stored keys, key locators, all received byte strings, all sets of packets signed before, all certificate names, all histories of the identity storage", "why_tests_cant": "the tests verify three packets with one stored key; which packets are not verified, for all byte strings and all contents of the storage, is not a finite set of cases", "anchors": ["python/pyndn/security/policy/self_verify_policy_manager.py: SelfVerifyPolicyManager.checkVerificationPolicy, _verify, _getPublicKeyDer", "python/pyndn/security/policy/no_verify_policy_manager.py: NoVerifyPolicyManager", "python/pyndn/security/policy/policy_manager.py: PolicyManager.verifySignature", "python/pyndn/security/key_chain.py: KeyChain.verifyData, verifyInterest", "python/pyndn/security/identity/identity_manager.py: IdentityManager.signByCertificate, signInterestByCertificate, signWithSha256, signInterestWithSha256"]}
{"id": "C89", "title": "Command Interests: what a CommandInterestSigner makes is accepted by the policy for command Interests, in the order in which it was made", "statement": "Whatever an application has done with a KeyChain and a CommandInterestSigner for it, a call of makeCommandInterest, for a name and a SigningInfo for which the PIB has what is needed, returns an Interest with the name, a timestamp not before the clock, the eight random bytes, and two more components; who receives its encoding (also followed by other bytes) finds a command Interest with the key that was asked for and this timestamp, whose signature verifies with each certificate for this key. The timestamps of all command Interests of one signer increase strictly in the order of the calls, whatever the clock does and whichever calls raise. A validator with ValidationPolicyCommandInterest treats such an Interest as without this policy, if it is within the grace period and the commands with this key that it has accepted so far are earlier ones of this signer.", "quantifier": "all histories of calls of the KeyChain and the signer, all clock readings (also backwards), random numbers, names and SigningInfos, all histories of the validator", "why_tests_cant": "the tests check two calls and one clock; the guarantee is about every history of both sides", "anchors": ["python/pyndn/security/command_interest_signer.py: CommandInterestSigner.makeCommandInterest", "python/pyndn/security/command_interest_preparer.py: CommandInterestPreparer.prepareCommandInterestName", "python/pyndn/security/key_chain.py: KeyChain.sign", "python/pyndn/security/v2/validation_policy_command_interest.py: ValidationPolicyCommandInterest"]}
{"id": "C90", "title": "Certificates of version 1: encode gives the certificate format, and decoding gives back what it says", "statement": "For times in the years 1000 to 9999, object identifiers of two or more numbers that X.690 allows, and a public key in DER, Certificate.encode sets the Content to the DER encoding of the validity (in whole seconds), the subject descriptions, the key and the extensions (absent if there are none), and the type to KEY. A Data packet with such a Content, in whatever way it was made and with any bytes after it, is read as a Certificate with exactly these facts; so encode and read again gives the same certificate, with times cut to the second. Whatever the Content is, a certificate that was read has a public key of a known algorithm. Departures: text that is not ASCII comes back changed, a second decode doubles the lists, and isTooEarly and isTooLate always raise.", "quantifier": "all times, lists of descriptions and extensions, object identifiers, values and keys; all Contents for the claim about the key", "why_tests_cant": "the tests decode three fixed certificates; the number and size of descriptions and extensions, the lengths of DER and the contents are not bounded", "anchors": ["python/pyndn/security/certificate/certificate.py: Certificate.encode", "python/pyndn/security/certificate/certificate.py: Certificate.decode", "python/pyndn/security/certificate/certificate.py: CertificateSubjectDescription.toDer", "python/pyndn/security/certificate/certificate.py: CertificateExtension.toDer", "python/pyndn/security/certificate/public_key.py: PublicKey.__init__"]}
{"id": "C91", "title": "Links: the delegations of a Link and its Content agree, and travel with the packet", "statement": "After any calls of addDelegation and removeDelegation on a new Link, with preferences that are not negative, the delegations are those last added and not removed since, sorted by preference and name, one for each name; the Content is their encoding (null if none was ever added) and the type is LINK. With any signature, the encoded packet is decoded by any Link, whatever it held and whatever bytes follow, to the same packet and delegations; Link(data) of such a packet has them too. Whatever the input, wireDecode raises or gives a packet of type LINK whose Content is read as the delegations. Departures: a negative preference raises but stays in the set; a Content that is absent raises TypeError.", "quantifier": "all names, histories of calls, signatures, meta info, previous states of the decoding object, and all inputs", "why_tests_cant": "the tests decode one Link and add two delegations; the guarantee is about every history and every input", "anchors": ["python/pyndn/link.py: Link.__init__", "python/pyndn/link.py: Link.addDelegation", "python/pyndn/link.py: Link.removeDelegation", "python/pyndn/link.py: Link.wireDecode", "python/pyndn/link.py: Link.encodeContent"]}
{"id": "C92", "title": "The certificates that an IdentityManager prepares are for the key that was asked for", "statement": "prepareUnsignedIdentityCertificate gives None exactly if the key name has no key ID (\"ksk-\" or \"dsk-\" and anything) at its end or the given prefix is not a proper prefix of it. If it gives a certificate, the name is a prefix (the given one; else the signing identity if that matches the key name; else the key name without its key ID), \"KEY\", the rest of the key name, \"ID-CERT\" and a version of the clock; the Content is of type KEY and encodes the given validity, the given descriptions (if none, the URI of the identity) and the key, and can be read again. If the prefix has no component \"KEY\", the name of the certificate's public key is the key name, for everyone who reads the certificate name. A certificate generated for a key is likewise for that key, from now for two years. Departure: if the prefix has a component \"KEY\", that one is taken for the inserted one and the certificate is for another key name.", "quantifier": "all key names, keys, identities, hints, validities, descriptions and clocks", "why_tests_cant": "the tests make one certificate for one identity; the guarantee is about every name", "anchors": ["python/pyndn/security/identity/identity_manager.py: IdentityManager.prepareUnsignedIdentityCertificate", "python/pyndn/security/identity/identity_manager.py: IdentityManager._generateCertificateForKey", "python/pyndn/security/certificate/identity_certificate.py: IdentityCertificate.setName"]}
{"id": "C93", "title": "What equals says of Blobs, key locators, meta infos and registration options agrees with what is sent", "statement": "Two Blobs are equal exactly if both are null or have the same bytes. Two key locators are equal exactly if the type and the key name or digest that the type uses are the same; this is an equivalence; equal ones encode alike (or are both refused); and of those that can be sent, equal ones are exactly those with the same encoding. Two meta infos are equal exactly if type, freshness period and final block ID are the same; equal ones encode alike unless the type is OTHER_CODE, and those that can be sent with the same encoding are equal. Registration options are equal exactly if the flags sent are the same. Departures: MetaInfo.equals does not compare the other type codes; ControlParameters.equals is never True: it raises AttributeError for an object and itself, and is False for an object and a copy.", "quantifier": "all pairs (and triples) of objects", "why_tests_cant": "the tests compare a few objects; agreement with the encoding is about every pair", "anchors": ["python/pyndn/util/blob.py: Blob.equals", "python/pyndn/key_locator.py: KeyLocator.equals", "python/pyndn/meta_info.py: MetaInfo.equals", "python/pyndn/registration_options.py: RegistrationOptions.equals", "python/pyndn/control_parameters.py: ControlParameters.equals"]}
