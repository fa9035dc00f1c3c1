{"id": "C01", "title": "BER integers round-trip and are minimal", "statement": "Encoding any integer as BER content octets and decoding it again gives back the same integer, and the encoding is the shortest two's-complement octet string that denotes it; unsigned encodings of non-negative integers round-trip likewise.", "quantifier": "every integer of any size (positive, negative, zero), every octet string for minimality", "why_tests_cant": "Integers are unbounded; tests only probe a few powers of two around the sign-bit boundaries.", "anchors": ["ldaptor/protocols/pureber.py:int2ber", "ldaptor/protocols/pureber.py:ber2int", "ldaptor/protocols/pureber.py:BERInteger"]}
{"id": "C02", "title": "BER length octets round-trip and are self-delimiting", "statement": "For every content length the encoder accepts, decoding the length octets followed by any further bytes yields that length and reports exactly the number of length octets written; lengths up to 127 take one octet.", "quantifier": "every length below 256^127, every suffix of bytes following it", "why_tests_cant": "The range is astronomically large and boundaries occur at every power of 256.", "anchors": ["ldaptor/protocols/pureber.py:int2berlen", "ldaptor/protocols/pureber.py:berDecodeLength"]}
{"id": "C03", "title": "Decoding consumes exactly one element and ignores what follows", "statement": "If a byte string starts with a complete element, the decoder's verdict (object, error, and number of bytes consumed) depends only on that element's bytes: appending any bytes does not change it, and the number of consumed bytes is exactly header plus content length.", "quantifier": "every byte string, every appended suffix, every decoding context", "why_tests_cant": "Ranges over all byte strings and all suffixes; unit tests append only a handful of suffixes.", "anchors": ["ldaptor/protocols/pureber.py:berDecodeObject", "ldaptor/protocols/pureber.py:need"]}
{"id": "C04", "title": "A partially received message is always reported as incomplete", "statement": "Feeding the decoder any strict prefix of an encoded element reports 'insufficient data' (or nothing, for the empty prefix); it never yields a value, an unrelated error or a wrong byte count.", "quantifier": "every encoded element and every cut point in it", "why_tests_cant": "All cut points of all messages cannot be enumerated.", "anchors": ["ldaptor/protocols/pureber.py:berDecodeObject", "ldaptor/protocols/pureber.py:BERExceptionInsufficientData"]}
{"id": "C05", "title": "Unknown elements inside a structure are skipped without disturbing the others", "statement": "Inserting an element whose tag the current decoding context does not know anywhere between the elements of a structure leaves the list of decoded elements unchanged.", "quantifier": "every list of elements, every insertion point, every unknown element", "why_tests_cant": "Extensibility rule must hold at every position for every content.", "anchors": ["ldaptor/protocols/pureber.py:berDecodeMultiple", "ldaptor/protocols/pureber.py:BERDecoderContext"]}
{"id": "C06", "title": "Every LDAP message survives the wire", "statement": "Encoding any well-formed LDAP message (every request and response type, arbitrarily nested search filters, any controls) and decoding it gives a message with the same id, the same operation with the same field values and the same controls, consuming exactly the encoded bytes.", "quantifier": "every message type, every field value, filters of every depth, every control list, every trailing byte string", "why_tests_cant": "Filters nest without bound and fields are arbitrary byte strings; the decoder's per-context tag tables interact in ways sampled tests miss.", "anchors": ["ldaptor/protocols/pureldap.py:LDAPMessage", "ldaptor/protocols/pureldap.py:LDAPSearchRequest", "ldaptor/protocols/pureldap.py:LDAPFilter_and", "ldaptor/protocols/pureldap.py:LDAPBERDecoderContext", "ldaptor/protocols/pureldap.py:LDAPControl"]}
{"id": "C07", "title": "How TCP splits the stream does not change what the peer handles", "statement": "The sequence of messages handled by a server or client connection after receiving a byte stream depends only on the concatenation of the received segments, not on how they were split.", "quantifier": "every byte stream, every segmentation of it", "why_tests_cant": "There are exponentially many segmentations of every stream.", "anchors": ["ldaptor/protocols/ldap/ldapserver.py:BaseLDAPServer.dataReceived", "ldaptor/protocols/ldap/ldapclient.py:LDAPClient.dataReceived"]}
{"id": "C08", "title": "A completely received malformed message does not stall the connection", "statement": "Once all bytes announced by the outer length of a message have arrived, the connection either handles it, skips it or reports an error; it does not keep waiting for more data for that message.", "quantifier": "every complete outer frame with arbitrary content", "why_tests_cant": "Malformed contents are unbounded; tests contain only hand-picked ones.", "anchors": ["ldaptor/protocols/pureber.py:berDecodeObject", "ldaptor/protocols/ldap/ldapserver.py:BaseLDAPServer.dataReceived"]}
{"id": "C09", "title": "DN text is stable under parse and print", "statement": "If a text parses as a DN, then printing that DN and parsing the result gives the same DN again (so printed DNs are canonical and can be stored and re-read).", "quantifier": "every text that parses", "why_tests_cant": "All strings over Unicode with escapes; tests use a few dozen examples.", "anchors": ["ldaptor/protocols/ldap/distinguishedname.py:DistinguishedName", "ldaptor/protocols/ldap/distinguishedname.py:escape", "ldaptor/protocols/ldap/distinguishedname.py:unescape", "ldaptor/protocols/ldap/distinguishedname.py:_splitOnNotEscaped"]}
{"id": "C10", "title": "A DN built from components round-trips through its text form", "statement": "A DN built from attribute type/value pairs (attribute types without '=', at least one pair per RDN) prints to a text that parses back to exactly the same pairs, whatever characters the values contain (commas, plus signs, quotes, backslashes, leading/trailing blanks, control characters, ...).", "quantifier": "every list of RDNs, every string value", "why_tests_cant": "Escaping must be right for every character at every position, including adjacent specials and ends of strings.", "anchors": ["ldaptor/protocols/ldap/distinguishedname.py:escape", "ldaptor/protocols/ldap/distinguishedname.py:LDAPAttributeTypeAndValue", "ldaptor/protocols/ldap/distinguishedname.py:RelativeDistinguishedName", "ldaptor/protocols/ldap/distinguishedname.py:DistinguishedName"]}
{"id": "C11", "title": "DN containment is the suffix order", "statement": "a.contains(b) holds exactly when a's RDN sequence is (up to case) a trailing part of b's; it is reflexive, transitive, antisymmetric up to ==, and every DN is contained in its parent's subtree.", "quantifier": "every pair / triple of DNs", "why_tests_cant": "Order laws quantify over all triples of DNs.", "anchors": ["ldaptor/protocols/ldap/distinguishedname.py:DistinguishedName.contains", "ldaptor/protocols/ldap/distinguishedname.py:DistinguishedName.up"]}
{"id": "C12", "title": "Equal DNs hash equally", "statement": "If two DNs (or RDNs, or attribute/value pairs) compare equal then they have the same hash, so sets and dicts keyed by DN treat them as one key.", "quantifier": "every pair of DNs", "why_tests_cant": "The contract quantifies over all pairs of equal objects.", "anchors": ["ldaptor/protocols/ldap/distinguishedname.py:LDAPAttributeTypeAndValue.__hash__", "ldaptor/protocols/ldap/distinguishedname.py:RelativeDistinguishedName.__hash__", "ldaptor/protocols/ldap/distinguishedname.py:DistinguishedName.__hash__"]}
{"id": "C13", "title": "DN ordering is a strict total order consistent with equality", "statement": "For DNs the < operator is irreflexive and transitive, and exactly one of a < b, a == b, b < a holds, so sorting is well defined.", "quantifier": "every pair / triple of DNs", "why_tests_cant": "Order laws quantify over all triples.", "anchors": ["ldaptor/protocols/ldap/distinguishedname.py:DistinguishedName.__lt__", "ldaptor/protocols/ldap/distinguishedname.py:LDAPAttributeTypeAndValue.__lt__", "ldaptor/protocols/ldap/distinguishedname.py:RelativeDistinguishedName.__lt__"]}
{"id": "C14", "title": "Search filters round-trip through their text form", "statement": "Printing a search filter built from valid attribute names and non-empty values and parsing the text gives an equal filter, for arbitrary nesting of and/or/not and all value characters.", "quantifier": "every filter tree, every attribute name in the grammar, every non-empty value string", "why_tests_cant": "Unbounded nesting times arbitrary escaped values.", "anchors": ["ldaptor/ldapfilter.py:parseFilter", "ldaptor/protocols/pureldap.py:LDAPFilter_and.asText", "ldaptor/protocols/pureldap.py:escape"]}
{"id": "C15", "title": "Escaped values cannot change a filter's structure", "statement": "For every non-empty string v, the text '(' + attr + '=' + escape(v) + ')' parses as an equality filter on attr whose value is exactly v: no choice of v can inject filter syntax.", "quantifier": "every attribute name in the grammar, every non-empty string v", "why_tests_cant": "Security property against an adversarial string; must hold for all strings.", "anchors": ["ldaptor/protocols/pureldap.py:escape", "ldaptor/ldapfilter.py:parseFilter"]}
{"id": "C16", "title": "Identity search is immune to filter injection", "statement": "Looking up an identity by name builds a filter that tests the configured attribute against exactly that name, for every name.", "quantifier": "every user-supplied name", "why_tests_cant": "Adversarial input space.", "anchors": ["ldaptor/config.py:LDAPConfig.getIdentitySearch"]}
{"id": "C17", "title": "Filter evaluation follows boolean semantics", "statement": "Evaluating a filter on an entry: 'and' is true iff all parts are, 'or' iff some part is, 'not' negates, a presence test is true iff the attribute exists, and equality is true iff some stored value equals the asserted one ignoring case - for every nesting.", "quantifier": "every entry, every filter tree built from and/or/not/present/equality/ordering", "why_tests_cant": "Unbounded nesting and arbitrary entries.", "anchors": ["ldaptor/entryhelpers.py:MatchMixin.match"]}
{"id": "C18", "title": "Substring filters match exactly the values with that shape", "statement": "A substring filter initial*any1*...*anyN*final matches an entry iff some value of the attribute can be cut into initial, then text containing any1..anyN in order without overlap, then final (ignoring case).", "quantifier": "every substring filter, every set of values", "why_tests_cant": "Overlap and ordering interact; all combinations of pieces and values cannot be tried.", "anchors": ["ldaptor/entryhelpers.py:MatchMixin.match", "ldaptor/protocols/pureldap.py:LDAPFilter_substrings"]}
{"id": "C19", "title": "A password that was set is accepted, and only it", "statement": "After setting a password on an entry, binding with that password succeeds, and binding with any other password succeeds only if it collides under the salted hash; previously stored passwords are no longer accepted.", "quantifier": "every password, every salt, every 20-byte hash function, every previous entry content", "why_tests_cant": "All passwords and salts; includes salts long enough to make the stored encoding wrap.", "anchors": ["ldaptor/entry.py:sshaDigest", "ldaptor/entry.py:BaseLDAPEntry._bind", "ldaptor/entry.py:EditableLDAPEntry.setPassword"]}
{"id": "C20", "title": "Applying the difference of two entries turns one into the other", "statement": "For two entries with the same DN, applying a.diff(b) to a makes a equal to b, and diff reports 'no change' exactly when they are equal.", "quantifier": "every pair of entries", "why_tests_cant": "All pairs of attribute maps.", "anchors": ["ldaptor/entry.py:BaseLDAPEntry.diff", "ldaptor/delta.py:ModifyOp.patch", "ldaptor/delta.py:Add.patch", "ldaptor/delta.py:Delete.patch"]}
{"id": "C21", "title": "An attribute never holds the same value twice", "statement": "An attribute's value collection behaves as a set of octet strings: adding a value twice (as text or as bytes) stores it once, removing it removes it, and adding then removing a fresh value restores the collection.", "quantifier": "every sequence of add/remove operations with text or bytes values", "why_tests_cant": "All operation histories mixing both string types.", "anchors": ["ldaptor/attributeset.py:LDAPAttributeSet"]}
{"id": "C22", "title": "A rejected modification leaves the entry unchanged", "statement": "Applying a list of modifications to an entry either applies all of them or, if any of them fails, leaves the entry as it was.", "quantifier": "every entry, every list of modifications", "why_tests_cant": "Failure can occur at every position in every list.", "anchors": ["ldaptor/delta.py:ModifyOp.patch"]}
{"id": "C23", "title": "The in-memory tree stays consistent", "statement": "After any sequence of child additions and deletions, every entry's DN is its RDN prepended to its parent's DN, parent and child links agree, siblings have distinct RDN texts, and no entry is reachable twice.", "quantifier": "every history of add / delete / delete-child operations, including failing ones", "why_tests_cant": "Histories are unbounded.", "anchors": ["ldaptor/inmemory.py:ReadOnlyInMemoryLDAPEntry.addChild", "ldaptor/inmemory.py:ReadOnlyInMemoryLDAPEntry._delete", "ldaptor/inmemory.py:ReadOnlyInMemoryLDAPEntry._deleteChild"]}
{"id": "C24", "title": "Lookup finds exactly what was added and not deleted", "statement": "After any history of additions and deletions, lookup(dn) succeeds iff an entry with an equal DN was added and not deleted since, and it returns that entry with its attributes; adding an existing name and deleting a non-leaf or missing entry are refused without effect.", "quantifier": "every history, every DN looked up", "why_tests_cant": "Refinement of a finite map over unbounded histories.", "anchors": ["ldaptor/inmemory.py:ReadOnlyInMemoryLDAPEntry._lookup", "ldaptor/inmemory.py:ReadOnlyInMemoryLDAPEntry.addChild"]}
{"id": "C25", "title": "Renaming moves the entry", "statement": "After a successful move(newDN), looking up newDN gives the moved entry, the old DN is gone, the entry can be deleted or moved again, its descendants are found under the new DN, and an existing entry at newDN is never overwritten.", "quantifier": "every tree, every source entry, every new DN", "why_tests_cant": "Depends on histories (move then delete, move onto existing, move under itself).", "anchors": ["ldaptor/inmemory.py:ReadOnlyInMemoryLDAPEntry._move", "ldaptor/inmemory.py:ReadOnlyInMemoryLDAPEntry._move2"]}
{"id": "C26", "title": "Search returns exactly the matching entries in scope, each once", "statement": "A base, one-level or subtree search from an entry reports exactly the entries of that scope for which the filter matches, each exactly once, and nothing else; subtree enumeration lists every parent before its descendants.", "quantifier": "every tree, every filter, every scope", "why_tests_cant": "All tree shapes and sizes.", "anchors": ["ldaptor/entryhelpers.py:SearchByTreeWalkingMixin.search", "ldaptor/entryhelpers.py:SubtreeFromChildrenMixin.subtree"]}
{"id": "C27", "title": "A tree difference replays to the other tree", "statement": "Applying the operations returned by a.diffTree(b) in order to tree a succeeds at every step (parents are added before children and children deleted before parents) and yields a tree with b's entries.", "quantifier": "every pair of trees with the same root DN", "why_tests_cant": "All pairs of trees of any shape.", "anchors": ["ldaptor/entryhelpers.py:DiffTreeMixin", "ldaptor/delta.py:AddOp.patch", "ldaptor/delta.py:DeleteOp.patch"]}
{"id": "C28", "title": "Base64 values in LDIF decode to the original bytes", "statement": "Encoding any byte string the way LDIF values are encoded and decoding it gives the same bytes; the encoded text contains no newline except the terminator.", "quantifier": "every byte string", "why_tests_cant": "All byte strings of all lengths (three residue classes, 57-byte line wrapping).", "anchors": ["ldaptor/protocols/ldap/ldif.py:base64_encode", "ldaptor/protocols/ldap/ldifprotocol.py:LDIF.parseValue"]}
{"id": "C29", "title": "Entries survive LDIF serialisation", "statement": "Writing an entry as LDIF and parsing the text yields exactly one entry with the same DN and, for every attribute, the same values - whatever bytes the values contain and however the text is cut into chunks - provided attribute names are different valid LDIF names, the values of an attribute are of one Python type, the DN is one whose text parses (C10) and no line exceeds the line-length limit. Attributes without values are not written. A file of several entries with its header gives them all back in order.", "quantifier": "every DN whose text parses, every attribute map with valid names, every value byte string, every chunking", "why_tests_cant": "Arbitrary bytes interact with line folding, comments, base64 choice and line endings.", "anchors": ["ldaptor/protocols/ldap/ldif.py:asLDIF", "ldaptor/protocols/ldap/ldif.py:attributeAsLDIF", "ldaptor/protocols/ldap/ldifprotocol.py:LDIF"]}
{"id": "C30", "title": "LDIF parsing does not depend on how the input is chunked", "statement": "The entries delivered (and the errors raised) by the LDIF parser depend only on the concatenation of the chunks fed to it.", "quantifier": "every input, every chunking", "why_tests_cant": "Exponentially many chunkings.", "anchors": ["ldaptor/protocols/ldap/ldifprotocol.py:LDIF"]}
{"id": "C31", "title": "Truncated LDIF input is detected", "statement": "If the input ends in the middle of an entry the parser reports truncation; it never silently drops a started entry.", "quantifier": "every input and cut point", "why_tests_cant": "All cut points.", "anchors": ["ldaptor/protocols/ldap/ldifprotocol.py:LDIF.connectionLost"]}
{"id": "C32", "title": "LDIF change records round-trip", "statement": "Writing a modify, add or delete operation as an LDIF change record and parsing it gives back the same operation.", "quantifier": "every DN, every list of modifications, every value", "why_tests_cant": "Unbounded lists and arbitrary values.", "anchors": ["ldaptor/delta.py:ModifyOp.asLDIF", "ldaptor/delta.py:AddOp.asLDIF", "ldaptor/delta.py:DeleteOp.asLDIF", "ldaptor/ldifdelta.py:LDIFDelta"]}
{"id": "C33", "title": "Storing an entry on disk is atomic at every crash point", "statement": "If the process dies at any point while storing an entry in the LDIF tree, a later reader finds either the complete old entry or the complete new entry at that DN (or no entry if there was none), never a torn or mixed one, and all other entries are unchanged.", "quantifier": "every crash point including partial writes, every old and new content", "why_tests_cant": "Crash points inside system-call sequences cannot be enumerated by unit tests.", "anchors": ["ldaptor/ldiftree.py:_putEntry", "ldaptor/ldiftree.py:_put"]}
{"id": "C34", "title": "Storing entries never touches files outside the tree directory", "statement": "put(path, entry) creates or replaces files only below path, and distinct DNs map to distinct files, for every DN.", "quantifier": "every DN (values are arbitrary strings)", "why_tests_cant": "Adversarial DN values.", "anchors": ["ldaptor/ldiftree.py:_put", "ldaptor/ldiftree.py:_get", "ldaptor/ldiftree.py:LDIFTreeEntry.lookup"]}
{"id": "C35", "title": "A deleted on-disk entry is gone", "statement": "After an entry of an LDIF tree is deleted successfully, lookup of its DN fails, for every earlier history of the tree.", "quantifier": "every history of additions and deletions", "why_tests_cant": "Depends on leftover directories from earlier operations.", "anchors": ["ldaptor/ldiftree.py:LDIFTreeEntry._delete", "ldaptor/ldiftree.py:LDIFTreeEntry.lookup"]}
{"id": "C36", "title": "Outstanding requests never share a message id", "statement": "Message ids allocated in a process are strictly increasing, so no two requests - on the same or different connections - ever carry the same id.", "quantifier": "every interleaving of request creation over any number of connections", "why_tests_cant": "Histories are unbounded.", "anchors": ["ldaptor/protocols/pureldap.py:alloc_ldap_message_id", "ldaptor/protocols/ldap/ldapclient.py:LDAPClient._send"]}
{"id": "C37", "title": "Each response reaches exactly the request it answers, once", "statement": "For every history of sends, incoming responses and connection loss, a response is delivered only to the pending request with the same id; every request's result fires at most once; after its final response the id is forgotten and responses with unknown ids disturb nobody.", "quantifier": "every interleaving of sends (single- and multi-response), responses in any order, duplicates, unknown ids, connection loss", "why_tests_cant": "All schedules.", "anchors": ["ldaptor/protocols/ldap/ldapclient.py:LDAPClient.handle", "ldaptor/protocols/ldap/ldapclient.py:LDAPClient.send", "ldaptor/protocols/ldap/ldapclient.py:LDAPClient.send_multiResponse"]}
{"id": "C38", "title": "Losing the connection fails every pending request exactly once", "statement": "When the connection is lost every request still waiting is failed with the reason, none is left pending, none is failed twice, and later sends are refused without being written.", "quantifier": "every set of pending requests, every history before and after", "why_tests_cant": "All histories.", "anchors": ["ldaptor/protocols/ldap/ldapclient.py:LDAPClient.connectionLost", "ldaptor/protocols/ldap/ldapclient.py:LDAPClient._send"]}
{"id": "C39", "title": "StartTLS only happens on an idle connection and after the server agreed", "statement": "startTLS() is refused while any request is outstanding, TLS is switched on at most after a successful StartTLS response, and a negative response never switches it on.", "quantifier": "every history of sends/responses/startTLS calls", "why_tests_cant": "All schedules.", "anchors": ["ldaptor/protocols/ldap/ldapclient.py:LDAPClient._startTLS", "ldaptor/protocols/ldap/ldapclient.py:LDAPClient._cbStartTLS"]}
{"id": "C40", "title": "Every request gets exactly one final response carrying its id", "statement": "For every incoming request other than unbind (and abandon), whatever its handler does (answer, raise an LDAP error, raise any other error), the server sends exactly one final response, with the request's message id, after any intermediate ones; messages with id 0 get none.", "quantifier": "every request type, every handler behaviour, every sequence of requests", "why_tests_cant": "All handler outcomes and request sequences.", "anchors": ["ldaptor/protocols/ldap/ldapserver.py:BaseLDAPServer.handle", "ldaptor/protocols/ldap/ldapserver.py:BaseLDAPServer._cbHandle", "ldaptor/protocols/ldap/ldapserver.py:BaseLDAPServer._cbLDAPError", "ldaptor/protocols/ldap/ldapserver.py:BaseLDAPServer._cbOtherError"]}
{"id": "C41", "title": "Unrecognised critical controls block the operation", "statement": "If a request that supports controls carries a control marked critical that the server does not know, the operation is not performed and the answer is unavailableCriticalExtension; non-critical unknown controls are ignored.", "quantifier": "every control list", "why_tests_cant": "All control lists.", "anchors": ["ldaptor/protocols/ldap/ldapserver.py:BaseLDAPServer.checkControls"]}
{"id": "C42", "title": "A connection is authenticated only as the user of its last successful bind", "statement": "After any history of requests, the connection's bound user is the entry of the last successful bind whose credentials were verified, anonymous after an anonymous bind, and a failed bind leaves the connection unauthenticated.", "quantifier": "every history of bind and other requests", "why_tests_cant": "Histories are unbounded.", "anchors": ["ldaptor/protocols/ldap/ldapserver.py:LDAPServer.handle_LDAPBindRequest"]}
{"id": "C43", "title": "A user can change only their own password", "statement": "A password-modify request changes an entry's password only if the connection is bound and the target is the bound user's own entry; all other requests are refused without change.", "quantifier": "every history, every request", "why_tests_cant": "Security property over all histories.", "anchors": ["ldaptor/protocols/ldap/ldapserver.py:LDAPServer.extendedRequest_LDAPPasswordModifyRequest"]}
{"id": "C44", "title": "The merger sends one final answer, successful iff some server succeeded", "statement": "When a request is sent to n>0 servers, whatever the interleaving of their responses the client receives every intermediate response in arrival order, then exactly one final response after all n finals arrived; it reports success iff at least one server reported success.", "quantifier": "every n, every interleaving of responses", "why_tests_cant": "All interleavings.", "anchors": ["ldaptor/protocols/ldap/merger.py:MergedLDAPServer"]}
{"id": "C45", "title": "The proxy preserves response order for every timing of its hooks", "statement": "Responses coming from the proxied server are relayed to the client in the order they arrived, each exactly once, no matter in which order the asynchronous response hooks complete.", "quantifier": "every number of responses, every completion order", "why_tests_cant": "All completion schedules.", "anchors": ["ldaptor/protocols/ldap/proxybase.py:ProxyBase._gotResponseFromProxiedServer"]}
{"id": "C46", "title": "Requests queued before the proxy is connected are forwarded in order", "statement": "Requests received while the connection to the proxied server is being set up are forwarded in arrival order once it is up, each exactly once, before any later request; if the connection fails each bind/StartTLS request gets one failure answer.", "quantifier": "every number of queued requests, every connect/fail moment", "why_tests_cant": "All schedules.", "anchors": ["ldaptor/protocols/ldap/proxybase.py:ProxyBase.handleUnknown", "ldaptor/protocols/ldap/proxybase.py:ProxyBase._processBacklog", "ldaptor/protocols/ldap/proxybase.py:ProxyBase._failConnection"]}
{"id": "C47", "title": "The proxy releases a request after its final response", "statement": "Once the proxied server has sent the final response of a forwarded request, the proxy no longer keeps it pending.", "quantifier": "every request type and response sequence", "why_tests_cant": "Leak over unbounded histories.", "anchors": ["ldaptor/protocols/ldap/proxybase.py:ProxyBase._gotResponseFromProxiedServer", "ldaptor/protocols/ldap/ldapclient.py:LDAPClient.handle"]}
{"id": "C48", "title": "Proxy connections do not interfere with each other", "statement": "A request queued on one client connection of a proxy is forwarded over that connection's own upstream link, once that link is up, whatever other client connections do.", "quantifier": "every number of connections, every interleaving of their events", "why_tests_cant": "Cross-connection schedules.", "anchors": ["ldaptor/protocols/ldap/proxy.py:Proxy"]}
{"id": "C49", "title": "Pending edits replay to the local view", "statement": "For every sequence of local edits to a connected entry (add, remove, clear, replace, delete attribute), sending the recorded modifications to the server turns the last known server state into the local view.", "quantifier": "every edit history", "why_tests_cant": "Unbounded edit histories.", "anchors": ["ldaptor/protocols/ldap/ldapsyntax.py:JournaledLDAPAttributeSet", "ldaptor/protocols/ldap/ldapsyntax.py:LDAPEntryWithClient"]}
{"id": "C50", "title": "Commit and undo keep local and server state in step", "statement": "undo() restores exactly the last known server state and forgets all edits; a successful commit makes the local view the new server state; a failed commit keeps all edits; edits made while a commit is in flight are not lost.", "quantifier": "every history of edits, commits, undo and server answers", "why_tests_cant": "Interleavings of edits with in-flight commits.", "anchors": ["ldaptor/protocols/ldap/ldapsyntax.py:LDAPEntryWithClient.undo", "ldaptor/protocols/ldap/ldapsyntax.py:LDAPEntryWithClient.commit", "ldaptor/protocols/ldap/ldapsyntax.py:LDAPEntryWithClient._commit_success"]}
{"id": "C51", "title": "A multi-step password change stops at the first failure", "statement": "setPassword runs its steps in order, stops at the first failing step, reports success iff all succeed, and reports each later step as aborted.", "quantifier": "every number of steps and every outcome vector", "why_tests_cant": "All outcome combinations.", "anchors": ["ldaptor/protocols/ldap/ldapsyntax.py:LDAPEntryWithClient.setPassword"]}
{"id": "C52", "title": "A size-limit error from the server is reported unless asked otherwise", "statement": "When a search hits the server's size limit, the search fails with sizeLimitExceeded unless the caller asked for it to be non-fatal, in which case the partial results are returned.", "quantifier": "every search, every response sequence", "why_tests_cant": "All response sequences.", "anchors": ["ldaptor/protocols/ldap/ldapsyntax.py:LDAPEntryWithClient._cbSearchMsg", "ldaptor/protocols/ldap/ldapsyntax.py:LDAPEntryWithClient.search"]}
{"id": "C53", "title": "The free-number search returns a free number", "statement": "Searching for a free number starting at min terminates and returns a number that is free, and it is min or its predecessor is taken; if the taken numbers are an initial segment it is the smallest free one.", "quantifier": "every min, optional max, every finite set of taken numbers", "why_tests_cant": "All sets of taken numbers.", "anchors": ["ldaptor/numberalloc.py:freeNumberGuesser"]}
{"id": "C54", "title": "Netmask conversions are inverse", "statement": "Converting a prefix length to a netmask and back is the identity for 0..32, and every dotted mask that is not a run of ones followed by zeros is rejected.", "quantifier": "every 32-bit mask", "why_tests_cant": "2^32 masks.", "anchors": ["ldaptor/dns.py:aton_numbits", "ldaptor/dns.py:netmaskToNumbits"]}
{"id": "C55", "title": "Samba user and group ids never collide", "statement": "Relative ids generated for users and for groups are distinct for distinct inputs and no user rid equals a group rid.", "quantifier": "every uid and gid", "why_tests_cant": "All pairs of numbers.", "anchors": ["ldaptor/protocols/ldap/autofill/sambaAccount.py"]}
{"id": "C56", "title": "Server override lookup picks the nearest enclosing entry", "statement": "The connection override used for a DN is the one configured for the longest configured suffix of the DN, and the default lookup is used iff no suffix is configured.", "quantifier": "every override table, every DN", "why_tests_cant": "All tables.", "anchors": ["ldaptor/protocols/ldap/ldapconnector.py:LDAPConnector._findOverRide"]}
{"id": "C57", "title": "Schema descriptions round-trip", "statement": "Printing a schema description and parsing the text gives back the same description.", "quantifier": "every schema element built from valid names", "why_tests_cant": "Unbounded lists of names.", "anchors": ["ldaptor/schema.py:ObjectClassDescription", "ldaptor/schema.py:AttributeTypeDescription"]}
{"id": "C58", "title": "Result codes map to the right error and back", "statement": "For every result code, the error object obtained for it reports that same code, code 0 gives success, and unknown codes are preserved.", "quantifier": "every integer code", "why_tests_cant": "All integers, including unassigned ones.", "anchors": ["ldaptor/protocols/ldap/ldaperrors.py:get"]}
{"id": "C59", "title": "A modification changes the attribute it names, in the way it says", "statement": "Applying an add, delete or replace modification changes only the attribute it names: add leaves the old and the given values, delete takes away exactly the given values or the whole attribute, replace leaves exactly the given values.", "quantifier": "every entry, every modification, names and values given as text or as octets", "why_tests_cant": "All combinations of stored and given spellings, forms and values.", "anchors": ["ldaptor/delta.py:Add.patch", "ldaptor/delta.py:Delete.patch", "ldaptor/delta.py:Replace.patch", "ldaptor/entry.py:EditableLDAPEntry.__delitem__"]}
{"id": "C60", "title": "The domain of a DN is read from its trailing DC components", "statement": "getDomainName joins with dots the values of exactly the trailing run of single DC components, and gives None iff the last component is not one.", "quantifier": "every DN", "why_tests_cant": "Unbounded DNs, any mixture of components.", "anchors": ["ldaptor/protocols/ldap/distinguishedname.py:DistinguishedName.getDomainName"]}
{"id": "C61", "title": "The reverse zone of a network is named after its network octets", "statement": "For an address and a mask of n ones, ptrSoaName gives the n/8 leading octets in reverse order, preceded by the next octet, masked, with /n if n is no multiple of 8, under in-addr.arpa.", "quantifier": "every address, every mask", "why_tests_cant": "2^32 addresses times 33 masks.", "anchors": ["ldaptor/dns.py:ptrSoaName"]}
{"id": "C62", "title": "A configured server location is used as configured", "statement": "An SRV query is made iff host or port is not configured; the host and port connected to are the configured ones, and those from DNS where none is configured.", "quantifier": "every override, every SRV answer", "why_tests_cant": "All combinations of overrides and answers.", "anchors": ["ldaptor/protocols/ldap/ldapconnector.py:LDAPConnector.pickServer", "ldaptor/protocols/ldap/ldapconnector.py:LDAPConnector._isQueryNeeded"]}
{"id": "C63", "title": "Escaped values follow the grammar of RFC 4514 and mean the value they were made from", "statement": "The output of escape is a well-formed attribute value string of RFC 4514 section 2.4 whose meaning by that grammar is the given value, and it never ends in a bare blank.", "quantifier": "every text value", "why_tests_cant": "Unbounded texts; any mixture of special characters, leading '#' and blanks, trailing blanks.", "anchors": ["ldaptor/protocols/ldap/distinguishedname.py:escape"]}
{"id": "C64", "title": "What arrived before TLS was switched on is not taken for an answer that came over TLS", "statement": "Octets received in the clear before TLS is switched on are discarded, so that no later request is answered by them.", "quantifier": "every history of received data around StartTLS", "why_tests_cant": "All segmentations of the plaintext around the StartTLS answer.", "anchors": ["ldaptor/protocols/ldap/ldapclient.py:LDAPClient.dataReceived", "ldaptor/protocols/ldap/ldapclient.py:LDAPClient._cbStartTLS"]}
{"id": "C65", "title": "An extensible match without a rule holds where the attribute has the value", "statement": "For every entry, attribute name a and value x, the filter (a:=x) evaluates to true iff the entry has attribute a with a value equal to x up to case, or the filter carries the dn flag and some RDN of the entry's DN has type a and value x up to case. No evaluation raises.", "quantifier": "all entries, attribute names, values and both settings of the dn flag", "why_tests_cant": "The result depends on the spelling of names, the kind (text or octets) of every value and the depth of the DN; tests try a few entries and never combine the flag with octets.", "anchors": ["ldaptor/entryhelpers.py:MatchMixin.match"]}
{"id": "C66", "title": "The filter parser accepts exactly the filter grammar, and reads each text as the grammar does", "statement": "For every text s and filter f, parseFilter(s) returns f iff s stands for f in the grammar of RFC 4515, with values that are not empty and any character other than NUL, star, parentheses and backslash standing for itself in a value; every other text is refused with a parse error.", "quantifier": "all texts over all characters, filters nested to any depth", "why_tests_cant": "The grammar is recursive and has competing readings for each item, chosen by longest match; tests cover a handful of texts and cannot show that nothing outside the grammar is accepted.", "anchors": ["ldaptor/ldapfilter.py:parseFilter"]}
{"id": "C67", "title": "Search over the wire returns exactly the matching entries with the attributes asked for", "statement": "For every directory built by requests other than ModifyDN, and every search request whose base exists and whose filter can be evaluated on the entries in scope, the server sends exactly one search result entry per matching entry in scope, carrying exactly the requested attributes that the entry has (all of them for an empty list or '*') with all their values, then a searchResultDone with code 0, and the directory is unchanged; a missing base gives noSuchObject and no entry; compare answers 6 or 5 according to the entry's values.", "quantifier": "All histories of requests, all filters built from RFC 4511 filter choices, all three scopes, all attribute lists, all entries", "why_tests_cant": "Tests use a handful of fixed trees and filters; the combination of scope, filter, attribute selection, name spelling and history is unbounded", "anchors": ["ldaptor/protocols/ldap/ldapserver.py:259-315", "ldaptor/entryhelpers.py:150-306", "ldaptor/inmemory.py:28-60", "ldaptor/entry.py:102-119"]}
{"id": "C68", "title": "Adds and deletes over the wire follow a finite map", "statement": "Start the server on a directory holding one entry. Over any conversation of add and delete requests, with searches, compares and binds in between, each add or delete is answered once with the code that a finite map from case-folded DNs to attributes prescribes (success, noSuchObject, entryAlreadyExists, unwillingToPerform for the root, notAllowedOnNonLeaf), and afterwards a DN is found in the directory exactly if the map holds it, with the attributes the add request gave.", "quantifier": "All message ids from 1 to 2^31-1, all lists of requests of those kinds of any length, all byte values of DNs and attributes.", "why_tests_cant": "Tests add one entry and delete one entry in fixed fixtures; agreement over arbitrary interleavings, including refused requests that must change nothing, needs a refinement argument.", "anchors": ["ldaptor/protocols/ldap/ldapserver.py:322-364", "ldaptor/inmemory.py:20-110"]}
{"id": "C69", "title": "Written LDIF follows RFC 2849", "statement": "Everything the library writes as LDIF - entries and change records - is a record of the RFC 2849 grammar: values that are not SAFE-STRINGs are written in base64, the plain form is used exactly for safe strings without a trailing space, and DNs and attribute lines are well-formed.", "quantifier": "every entry, every operation, every value byte string, every DN", "why_tests_cant": "A round trip through the library's own lenient parser cannot show that other programs can read the text.", "anchors": ["ldaptor/protocols/ldap/ldif.py:asLDIF", "ldaptor/protocols/ldap/ldif.py:attributeAsLDIF", "ldaptor/delta.py:ModifyOp.asLDIF", "ldaptor/delta.py:AddOp.asLDIF", "ldaptor/delta.py:DeleteOp.asLDIF"]}
{"id": "C70", "title": "Entries added on disk are found again", "statement": "After an entry has been added to the LDIF tree below an entry that lookup found, looking up its DN (in any spelling equal to it) gives the entry that was returned, with the values that were added; lookups of other DNs give what they gave before; and after deleting it again the lookup fails.", "quantifier": "every tree, every superior in it, every RDN and attributes, every other DN", "why_tests_cant": "Depends on the directories that exist, on names on disk and on the round trip through LDIF files; tests use a few names.", "anchors": ["ldaptor/ldiftree.py:LDIFTreeEntry._addChild", "ldaptor/ldiftree.py:LDIFTreeEntry.lookup", "ldaptor/ldiftree.py:LDIFTreeEntry._deleteChild"]}
{"id": "C71", "title": "A proxy forwards nothing for a client that is gone, and nothing over a link that is gone", "statement": "Once the connection of the client is lost, the proxy writes no further request of it to the proxied server, and closes its link; once the link is lost nothing is written to it.", "quantifier": "every history of events of the client, the link and the hooks, every point at which the client or the link goes", "why_tests_cant": "Tests do not lose connections between the steps of the set-up.", "anchors": ["ldaptor/protocols/ldap/proxybase.py:ProxyBase.connectionLost", "ldaptor/protocols/ldap/proxybase.py:ProxyBase._connectedToProxiedServer", "ldaptor/protocols/ldap/proxy.py:Proxy.connectionLost", "ldaptor/protocols/ldap/proxy.py:Proxy._cbConnectionMade"]}
{"id": "C72", "title": "A proxy answers each StartTLS once, with success only the first time", "statement": "While the client is connected, every StartTLS request gets exactly one answer under its own message id: unavailable if the factory has no TLS options, otherwise success for the first one and operationsError for each later one; TLS is started exactly if there are options and there was such a request.", "quantifier": "every history of events, every behaviour of the hooks and of the proxied server", "why_tests_cant": "Tests send one or two StartTLS requests on a fresh connection.", "anchors": ["ldaptor/protocols/ldap/proxybase.py:ProxyBase.handleStartTLSRequest"]}
{"id": "C73", "title": "No edit removes the name of an entry", "statement": "No sequence of edits of a connected entry removes a value that is part of the entry's own relative name: the entry keeps carrying each attribute type and value of its first RDN.", "quantifier": "every entry, every sequence of edits, every form of names and values", "why_tests_cant": "Tests try one removal with the spelling of the DN.", "anchors": ["ldaptor/protocols/ldap/ldapsyntax.py:LDAPEntryWithClient._canRemove", "ldaptor/protocols/ldap/ldapsyntax.py:LDAPEntryWithClient._canRemoveAll", "ldaptor/protocols/ldap/ldapsyntax.py:JournaledLDAPAttributeSet"]}
{"id": "C74", "title": "Fetching shows what the server returned and never drops edits", "statement": "A fetch of an entry with pending edits is refused; otherwise it makes the local values of the attributes that were asked for those the server returned, and if the server returns no entry nothing changes and the caller is told.", "quantifier": "every entry, every answer of the server, every list of attributes", "why_tests_cant": "Tests use one answer with the same attributes.", "anchors": ["ldaptor/protocols/ldap/ldapsyntax.py:LDAPEntryWithClient.fetch", "ldaptor/protocols/ldap/ldapsyntax.py:LDAPEntryWithClient._cbFetch"]}
{"id": "C75", "title": "A search through the library's client and server finds exactly the matching entries, as they are", "statement": "For every directory built by requests other than ModifyDN, and every search through LDAPEntryWithClient whose base exists, whose filter can be evaluated on the entries in scope and whose DNs can be written as text: whatever way the network splits the two streams, the search Deferred fires with exactly the entries in scope that match, each once, parents first, each with the DN and the values of the requested attributes that the server's entry has; the server's directory is unchanged, both connections stay up and the client has forgotten the request.", "quantifier": "All histories of requests, all filters, scopes, attribute lists, all segmentations of both streams", "why_tests_cant": "Tests run client and server apart, with canned bytes, or with one segmentation.", "anchors": ["ldaptor/protocols/ldap/ldapsyntax.py:LDAPEntryWithClient.search", "ldaptor/protocols/ldap/ldapclient.py:LDAPClient.send_multiResponse_ex", "ldaptor/protocols/ldap/ldapserver.py:LDAPServer.handle_LDAPSearchRequest"]}
{"id": "C76", "title": "What a program commits is what the server has", "statement": "An LDAPEntryWithClient whose known attributes agree with the server's entry is edited in any way with values that are UTF-8, adding only new values and clearing only what is there. When it is committed to a server of this library, then - whatever way the network splits the two streams - the Deferred fires with success, the server's entry has exactly the content the program sees on the attributes the program knows, its other attributes and every other entry of the directory are unchanged, and the entry's record of what the server has equals it with an empty journal; both connections stay up and the client has forgotten the request. The server executes every modify request it has to accept as RFC 4511 section 4.6 says.", "quantifier": "All directories, entries, edit sequences, subsets of known attributes, segmentations of both streams", "why_tests_cant": "Tests of commit compare the recorded request with a canned one; no test runs the client against the server.", "anchors": ["ldaptor/protocols/ldap/ldapsyntax.py:LDAPEntryWithClient.commit", "ldaptor/protocols/ldap/ldapserver.py:LDAPServer.handle_LDAPModifyRequest", "ldaptor/delta.py:Modification"]}
{"id": "C77", "title": "A rename request moves the entry it names to the name it gives", "statement": "After any conversation of adds, deletes and reads, a ModifyDN request that asks for the old RDN to be dropped moves the entry: if the entry is a leaf other than the root, the new name is free and not below the entry, then an answer of success means that the new DN finds the entry, the old one finds nothing, every other DN finds what it found before, no other entry has changed, and the entry has the values of the new RDN, not those of the old, and otherwise what it had. Success is the answer if the new parent exists, the entry has the values of its RDN and has the attributes of the new one. A missing entry or parent is answered with noSuchObject and a request to keep the old RDN with unwillingToPerform, both without effect. A rename answered with an error changes nothing.", "quantifier": "All conversations, DNs, RDNs of any number of attributes, with and without a new superior", "why_tests_cant": "Tests rename one entry in one tree and compare the result; the failing cases leave traces no test looks at.", "anchors": ["ldaptor/protocols/ldap/ldapserver.py:LDAPServer.handle_LDAPModifyDNRequest", "ldaptor/inmemory.py:ReadOnlyInMemoryLDAPEntry._move2"]}
{"id": "C78", "title": "An add request makes an entry with exactly the values it gives", "statement": "Whatever directory the server holds and whatever attributes an add request lists - names repeated, spelled in different case, values repeated - if it is answered with success, the directory has exactly one entry more; it lies below the entry that the parent's DN finds, has the RDN asked for, and under each attribute name exactly the values that the request gives under any spelling of it, each once, with no attribute under two names; no other entry and not the bound user has changed.", "quantifier": "All directories, all requests", "why_tests_cant": "Tests add entries whose attributes are listed once.", "anchors": ["ldaptor/protocols/ldap/ldapserver.py:LDAPServer.handle_LDAPAddRequest", "ldaptor/entry.py:BaseLDAPEntry.__init__", "ldaptor/inmemory.py:ReadOnlyInMemoryLDAPEntry.addChild"]}
{"id": "C79", "title": "A compare request is answered by whether the entry has the value", "statement": "After any conversation of adds, deletes and reads, a compare request is answered with compareTrue exactly when the entry its DN finds has an attribute of the given name, in any spelling, with the given value up to the case of ASCII letters; with compareFalse when the entry is there without it; with noSuchObject when there is no entry. Nothing changes.", "quantifier": "All conversations, DNs, names and values", "why_tests_cant": "Tests compare one value of one entry that was set up by hand, not after histories of requests.", "anchors": ["ldaptor/protocols/ldap/ldapserver.py:LDAPServer.handle_LDAPCompareRequest", "ldaptor/protocols/ldap/ldapserver.py:LDAPServer._cbCompareGotBase"]}
{"id": "C80", "title": "A search by filter text finds the entries that the text describes", "statement": "What the client sends for a filter text is exactly the filter of RFC 4511 for which the text stands by RFC 4515, where escapes stand for octets; hence a search by text through the library's own client and server returns exactly the entries in scope for which the text holds.", "quantifier": "All texts, all trees, all segmentations of the transport", "why_tests_cant": "Tests parse a handful of texts and compare objects; none follows a text to the octets sent and the entries returned.", "anchors": ["ldaptor/ldapfilter.py:parseFilter", "ldaptor/protocols/ldap/ldapsyntax.py:LDAPEntryWithClient.search", "ldaptor/protocols/ldap/ldapserver.py:LDAPServer.handle_LDAPSearchRequest"]}
{"id": "C81", "title": "A filter parsed from text matches the same entries in the same process and after it was sent", "statement": "Evaluating the object that parseFilter builds on an entry gives the same answer as evaluating what a server decodes when the object is sent.", "quantifier": "All filters, all entries", "why_tests_cant": "Tests of match build their filters by hand, and tests of the server receive theirs; none compares the two.", "anchors": ["ldaptor/ldapfilter.py:parseFilter", "ldaptor/entryhelpers.py:MatchMixin.match", "ldaptor/protocols/pureldap.py:LDAPFilter_equalityMatch"]}
{"id": "C82", "title": "Logging in by name and password lets in exactly who knows the password of the one entry of that name", "statement": "LDAPBindingChecker.requestAvatarId ends with an entry exactly if one entry below the base has the name, and the server accepts the password for it. With the library's own server this is the node whose cn or uid is the name, and its stored password decides.", "quantifier": "All directories, names, passwords, and ways the network cuts the octets", "why_tests_cant": "The checker has no test against a server; the outcome depends on how many entries match, on size limits and on what the name means as filter syntax.", "anchors": ["ldaptor/checkers.py:LDAPBindingChecker.requestAvatarId", "ldaptor/checkers.py:LDAPBindingChecker._found", "ldaptor/config.py:LDAPConfig.getIdentitySearch"]}
{"id": "C83", "title": "A bind through the service proxy succeeds exactly if the password is that of a currently valid service entry of the user", "statement": "ServiceBindingProxy answers a bind with success exactly if a service lets in and those before it refuse; it passes it on, or answers invalidCredentials, exactly if all refuse. A service lets in if one entry below the base has the class serviceSecurityObject, the user as owner, the service as cn and a validity that includes the present, and accepts the password. Anonymous binds are passed on.", "quantifier": "All lists of services, all behaviours of the proxied server, all directories, moments and passwords", "why_tests_cant": "Tests script the answers of the server for at most three services; none evaluates the filter, orders timestamps, or binds anonymously over the network.", "anchors": ["ldaptor/protocols/ldap/svcbindproxy.py:ServiceBindingProxy.handle_LDAPBindRequest", "ldaptor/protocols/ldap/svcbindproxy.py:ServiceBindingProxy._tryService", "ldaptor/protocols/ldap/svcbindproxy.py:ServiceBindingProxy.timestamp"]}
{"id": "C84", "title": "Loading LDIF into memory gives a tree of exactly the entries of the file", "statement": "fromLDIFFile gives a Deferred that fires with a tree holding exactly the entries of the file, under their names and with their values, if each entry after the first comes after its parent and no name comes twice. Otherwise it fails with noSuchObject or entryAlreadyExists for the first entry that does not fit. Entries written with manyAsLDIF are loaded again. A lookupFailed that gives None passes over the entries without a parent. The Deferred always fires.", "quantifier": "All texts, all ways of cutting them into chunks, all hooks", "why_tests_cant": "Tests load a handful of fixed files in one piece; none covers all orders of entries, loads what was written, or looks at a file without entries or a lost connection.", "anchors": ["ldaptor/inmemory.py:InMemoryLDIFProtocol", "ldaptor/inmemory.py:fromLDIFFile"]}
{"id": "C85", "title": "A modify request to a tree on disk is answered with success only if it is stored", "statement": "If commit of an entry of an LDIFTree gives True, the entry is found again with the values it has now and every other entry as before; if it gives False, every entry is as before; if the process dies, each entry is found as before or, the one committed, with the new values. A modify request that RFC 4511 says has to be accepted is answered with success and the entry found afterwards is what RFC 4511 says; a request not answered with success changes nothing. The answer success means that the entry was stored.", "quantifier": "All file systems, DNs, entries, changes, and all ways in which system calls raise or the process dies", "why_tests_cant": "Tests commit to a healthy disk and read one file; none lets a write fail half way and compares the answer with what is found, for every entry.", "anchors": ["ldaptor/ldiftree.py:LDIFTreeEntry.commit", "ldaptor/ldiftree.py:_putEntry", "ldaptor/protocols/ldap/ldapserver.py:LDAPServer.handle_LDAPModifyRequest", "ldaptor/delta.py:ModifyOp.patch"]}
{"id": "C86", "title": "A modify DN request to a tree on disk moves the entry and all below it, and nothing else", "statement": "A modify DN request with deleteoldrdn to an LDIFTree is either refused, and then nothing is changed, or answered with success; then the entry is found under the new name with its values less those of the old RDN and with those of the new RDN, all entries below it are found below the new name with their values, nothing is found under the old name, and every other entry is as before.", "quantifier": "All file systems, DNs, RDNs, new superiors, entries, and all ways in which system calls raise", "why_tests_cant": "Tests rename one leaf and one entry with a child on a healthy disk and list a directory; none compares every entry before and after, takes a name that exists, or lets a renaming fail.", "anchors": ["ldaptor/ldiftree.py:LDIFTreeEntry.move", "ldaptor/ldiftree.py:LDIFTreeEntry._move", "ldaptor/protocols/ldap/ldapserver.py:LDAPServer.handle_LDAPModifyDNRequest", "ldaptor/ldiftree.py:LDIFTreeEntry.commit"]}
{"id": "C87", "title": "The naming context of an entry is the nearest one that contains it", "statement": "LDAPEntryWithClient.namingContext gives the naming context, among those listed in the root DSE the server answers with, that contains the DN of the entry and is the nearest to it; it fails with NoContainingNamingContext exactly if none does. With the library's own server it gives the root of the tree for the DNs within it, and fails for all others.", "quantifier": "All root DSE answers, DNs, trees, client states, and all segmentations of the two byte streams.", "why_tests_cant": "Which of several naming contexts is found depends on the order of a Python set, which differs between processes; a test sees one order and a few DNs.", "anchors": ["ldaptor/protocols/ldap/ldapsyntax.py:LDAPEntryWithClient.namingContext", "ldaptor/protocols/ldap/ldapsyntax.py:LDAPEntryWithClient._cbNamingContext_Entries", "ldaptor/protocols/ldap/ldapserver.py:LDAPServer.getRootDSE", "ldaptor/protocols/ldap/distinguishedname.py:DistinguishedName.contains"]}
{"id": "C88", "title": "What the server says of itself in the root DSE is what it does", "statement": "The root DSE lists a naming context, a protocol version and an extended operation. Every request about an entry outside the naming context is refused and changes nothing, and every entry in the tree is inside it; a bind with another protocol version is refused; an extended request is understood if its name is listed and refused as a protocol error otherwise. The root DSE is given however the attribute objectClass is spelled, and with the attributes asked for.", "quantifier": "All trees reachable by requests, all requests, controls and connection states.", "why_tests_cant": "The claim is about all requests of seven kinds and all trees; tests look at the text of the root DSE and not at whether it is true.", "anchors": ["ldaptor/protocols/ldap/ldapserver.py:LDAPServer.getRootDSE", "ldaptor/protocols/ldap/ldapserver.py:LDAPServer.handle_LDAPSearchRequest", "ldaptor/protocols/ldap/ldapserver.py:LDAPServer.handle_LDAPBindRequest", "ldaptor/protocols/ldap/ldapserver.py:LDAPServer.handle_LDAPExtendedRequest", "ldaptor/protocols/ldap/ldapserver.py:LDAPServer.handle_LDAPModifyDNRequest", "ldaptor/inmemory.py:ReadOnlyInMemoryLDAPEntry.lookup"]}
{"id": "C89", "title": "Changing a password by the extended operation lets in exactly who has the new one", "statement": "The password modify request of the client says on the wire the user, the old and the new password it was made of. setPassword_ExtendedOperation against the library's server succeeds exactly for the bound user, fails with strongAuthRequired without one and with insufficientAccessRights for another user, and changes nothing when it fails. After success, binds with a name of that user succeed exactly with a password with the hash of the new one, and no other entry and no other attribute is changed. A deleted entry sends nothing, and a response counts as success exactly if its code is 0 and it has no matched DN.", "quantifier": "all users, passwords, trees, bound states, segmentations of both byte streams, later binds", "why_tests_cant": "The client, the codec, the server, the tree and the hash take part; what counts is the state after any later bind in any segmentation.", "anchors": ["ldaptor/protocols/ldap/ldapsyntax.py:LDAPEntryWithClient.setPassword_ExtendedOperation", "ldaptor/protocols/ldap/ldapsyntax.py:LDAPEntryWithClient._cbSetPassword_ExtendedOperation", "ldaptor/protocols/pureldap.py:LDAPPasswordModifyRequest", "ldaptor/protocols/ldap/ldapserver.py:LDAPServer.extendedRequest_LDAPPasswordModifyRequest", "ldaptor/protocols/ldap/ldapserver.py:LDAPServer.handle_LDAPExtendedRequest"]}
{"id": "C90", "title": "What programs add, delete and move through the client is what the server has", "statement": "For every sequence of addChild and delete calls that programs make on entries of the client, over any connections and any segmentation of the network, with ASCII attribute names none of which is given twice, and RDNs spelled alike: each call is told exactly what a finite map from DNs to attribute values requires (a new entry, done, or the right result code), and in the end the server finds a DN exactly if the map has it, with exactly the values given. A leaf that is then moved to a free name is found there and nowhere else, and the program is told of success exactly then. Responses count as success exactly if they are of the right kind with code 0 and no matched DN.", "quantifier": "all histories of add and delete calls, all attribute dicts, all DNs, all segmentations, all states of client processes, all responses", "why_tests_cant": "Histories, names and segmentations are unbounded; tests of the client use a fake transport with canned responses and tests of the server send hand-made requests, so the two ends are never run together over whole histories.", "anchors": ["ldaptor/protocols/ldap/ldapsyntax.py:LDAPEntryWithClient.addChild", "ldaptor/protocols/ldap/ldapsyntax.py:LDAPEntryWithClient._cbAddDone", "ldaptor/protocols/ldap/ldapsyntax.py:LDAPEntryWithClient.delete", "ldaptor/protocols/ldap/ldapsyntax.py:LDAPEntryWithClient._cbDeleteDone", "ldaptor/protocols/ldap/ldapsyntax.py:LDAPEntryWithClient.move", "ldaptor/protocols/ldap/ldapsyntax.py:LDAPEntryWithClient._cbMoveDone", "ldaptor/protocols/ldap/ldapserver.py:LDAPServer.handle_LDAPAddRequest", "ldaptor/protocols/ldap/ldapserver.py:LDAPServer.handle_LDAPDelRequest", "ldaptor/protocols/ldap/ldapserver.py:LDAPServer.handle_LDAPModifyDNRequest"]}
{"id": "C91", "title": "The LDIF difference of two files, read back and applied to the first, gives the second", "statement": "For every two LDIF files whose entries load into a tree with the same root: the trees are compared, the operations are written as LDIF text, and that text, with or without the header and however it is split when it is read, is read as operations which, applied in turn to the tree of the first file, all succeed and leave a tree with exactly the entries of the second file, each with exactly its values.", "quantifier": "all pairs of LDIF files and their segmentations, all trees, all orders in which sets are iterated on either side, all segmentations of the written text", "why_tests_cant": "Trees, values and orders are unbounded, and the property composes five pieces of code (LDIF reader, tree loader, tree difference, LDIF writer of changes, reader of changes and patching) that the tests check one at a time; the scripts that do this have no tests.", "anchors": ["ldaptor/_scripts/ldifdiff.py:main", "ldaptor/_scripts/ldifdiff.py:output", "ldaptor/_scripts/ldifpatch.py:main", "ldaptor/_scripts/ldifpatch.py:output", "ldaptor/protocols/ldap/ldifdelta.py:fromLDIFFile", "ldaptor/inmemory.py:fromLDIFFile", "ldaptor/entryhelpers.py:DiffTreeMixin.diffTree", "ldaptor/delta.py:ModifyOp.asLDIF", "ldaptor/delta.py:AddOp.asLDIF", "ldaptor/delta.py:DeleteOp.asLDIF", "ldaptor/delta.py:ModifyOp.patch", "ldaptor/delta.py:AddOp.patch", "ldaptor/delta.py:DeleteOp.patch"]}
{"id": "C92", "title": "A proxy makes no difference", "statement": "For every session of requests that a proxy has no business with, and every way in which the network cuts and interleaves the octets between client, proxy and server, with the connection to the server set up at any moment: the client is at all times sent a prefix, octet for octet, of what it would be sent by the server without the proxy; no connection is dropped; and once everything has arrived the client was sent exactly that and the server's tree and bound user are those of the session without the proxy.", "quantifier": "all trees, all sequences of requests (add, delete, modify, modifyDN, search, bind, compare, extended, unbind; any ids, uncritical controls), all segmentations and interleavings of the three streams, all moments of connecting", "why_tests_cant": "The tests of the proxy use a mock transport and a scripted server, one request at a time, and compare single messages; transparency quantifies over sessions, trees, segmentations and interleavings, and composes the proxy, its client half, the BER decoder and encoder on both connections and the server.", "anchors": ["ldaptor/protocols/ldap/proxybase.py:ProxyBase.handleUnknown", "ldaptor/protocols/ldap/proxybase.py:ProxyBase._forwardRequestToProxiedServer", "ldaptor/protocols/ldap/proxybase.py:ProxyBase._gotResponseFromProxiedServer", "ldaptor/protocols/ldap/proxybase.py:ProxyBase._processBacklog", "ldaptor/protocols/ldap/ldapclient.py:LDAPClient.handle", "ldaptor/protocols/ldap/ldapclient.py:LDAPClient.dataReceived", "ldaptor/protocols/ldap/ldapserver.py:BaseLDAPServer.dataReceived", "ldaptor/protocols/ldap/ldapserver.py:BaseLDAPServer.handle"]}
{"id": "C93", "title": "The schema that is fetched is the one that is published", "statement": "fetchschema.fetch searches for the entry at the given DN, then for the entry that is the only value of its subschemaSubentry attribute, and gives exactly the attribute types and object classes described there, each once; the Deferred fails if there is not just one entry, not just one value, no attribute type, or a description that cannot be read. With the library's own server, a schema stored as the texts of valid descriptions is fetched as these descriptions, over the network, in any segments.", "quantifier": "all answers of a server in which names can be read; all trees of the library's server, entries, valid descriptions, segmentations", "why_tests_cant": "tests answer with one fixed schema from a mock; they do not join client, server, DN parser and schema parser, nor try other answers", "anchors": ["ldaptor/protocols/ldap/fetchschema.py:7-64", "ldaptor/schema.py", "ldaptor/entry.py:60-64", "ldaptor/protocols/ldap/ldapsyntax.py:676-712"]}
{"id": "C94", "title": "What a program commits is what it finds when it searches again", "statement": "A program searches for an entry, edits attributes that it asked for, commits and searches again: the second search gives an entry with the same DN and exactly the content the program sees after its edits; the attributes it did not ask for are unchanged on the server.", "quantifier": "all trees of the library's server, entries with UTF-8 values, sensible edits of attributes asked for, connections, segmentations of what is written both ways", "why_tests_cant": "tests check search, commit and the server's modify apart, with canned responses; none goes from a search over edits and commit to the next search", "anchors": ["ldaptor/protocols/ldap/ldapsyntax.py:133-470", "ldaptor/protocols/ldap/ldapsyntax.py:560-720", "ldaptor/protocols/ldap/ldapserver.py", "ldaptor/protocols/ldap/ldapclient.py", "ldaptor/delta.py"]}
{"id": "C95", "title": "The number that getFreeNumber gives is not used in the directory", "statement": "A program asks a server of this library, over a connection, for a free number of an attribute such as uidNumber below an entry: after finitely many guesses a number is given; no entry of the subtree has it as a value of the attribute; and it is the smallest number allowed, or some entry has the number before it.", "quantifier": "all directories built by requests, base entries, attribute names, smallest numbers, processes on the client side, segmentations of the network traffic of each guess", "why_tests_cant": "The tests replay a fixed list of answers from a test driver for a handful of taken numbers; no test runs the search against a server or for arbitrary sets of numbers.", "anchors": ["ldaptor/numberalloc.py:6-57", "ldaptor/protocols/ldap/ldapsyntax.py:676-748", "ldaptor/entryhelpers.py:157-163", "ldaptor/protocols/ldap/ldapserver.py:360-420"]}
{"id": "C96", "title": "Samba identifiers follow the Unix numbers", "statement": "On an entry with autofillers, whatever sequence of edits is made: whenever uidNumber (gidNumber) has one value that is a number n, the attribute a filler derives from it (rid, sambaSID; primaryGroupID, sambaPrimaryGroupSID) has exactly the value that belongs to n (2n+1000, 2n+1001, after the domain's SID for the latter), whether or not edits raised exceptions; a filler added to an entry that has numbers catches up with them.", "quantifier": "all lists of autofillers without a common derived attribute, entries, sequences of edits through item assignment, deletion and the attribute sets, numbers", "why_tests_cant": "The tests set one number on a fresh entry and look at the derived attribute; they do not edit sets of values, mix fillers, continue after an exception, or spell the attribute differently.", "anchors": ["ldaptor/protocols/ldap/ldapsyntax.py:779-798", "ldaptor/protocols/ldap/ldapsyntax.py:90-131", "ldaptor/protocols/ldap/ldapsyntax.py:301-314", "ldaptor/protocols/ldap/autofill/sambaAccount.py", "ldaptor/protocols/ldap/autofill/sambaSamAccount.py"]}
{"id": "C97", "title": "A new posixAccount gets a shell and numbers that no entry has", "statement": "A program adds the posixAccount autofiller to a new account of text attributes, with a server of this library behind it: the account gets loginShell /bin/sh, a uidNumber and a gidNumber of at least 1000 that no entry below the base DN has; identifiers that other fillers derive are set along; no other attribute changes, no exception is raised, and the record sent on commit has these changes in order.", "quantifier": "all directories built by requests, base entries, accounts, sets of other fillers, processes on the client side", "why_tests_cant": "The tests hand in canned free numbers or a test driver's answers; none has a server whose entries use numbers, or other fillers on the same entry.", "anchors": ["ldaptor/protocols/ldap/autofill/posixAccount.py:6-47", "ldaptor/numberalloc.py:6-57", "ldaptor/protocols/ldap/ldapsyntax.py:779-798"]}
{"id": "C98", "title": "Requests under way at once get their own answers", "statement": "A client makes requests whenever it likes, also from callbacks, without waiting for earlier ones to be answered; the network cuts both streams into pieces and interleaves them. At every moment neither end has dropped the connection and each Deferred or handler has been told a beginning of what the server answers to its own request, in order; once everything has arrived it has been told all of that, the client has forgotten the request, and the tree is the one the server is left with.", "quantifier": "all applications that collect searches to their end, histories of calls and deliveries, segmentations, trees, lists of requests", "why_tests_cant": "The tests answer one request at a time from a canned list; they never have several outstanding against a real server, nor cut the streams.", "anchors": ["ldaptor/protocols/ldap/ldapclient.py:54-211", "ldaptor/protocols/ldap/ldapserver.py:24-160"]}
{"id": "C99", "title": "Several clients of one server: as if their requests had been handled one after the other", "statement": "Any number of LDAPClients are connected to one server, each to an LDAPServer protocol of its own, all protocols with the tree of the same factory. The applications make requests whenever they like, without waiting for answers, and the networks cut and interleave all streams of octets arbitrarily. There is one order of all requests, in which those of each client come in the order in which it made them, such that at every moment the tree, the user bound at each connection and everything sent on each connection are what one gets by handing the requests in this order, one at a time, to the server; each Deferred or handler has been told a beginning of the answers its request gets there, and exactly these answers once everything has arrived. The order respects time: a request that was answered before another one was made comes before it.", "quantifier": "all trees, numbers of clients, requests, applications (with requests made from within callbacks), ways to cut and interleave the streams of all connections", "why_tests_cant": "tests use one client and one request at a time, on a string transport that delivers everything at once; the histories of several connections are unboundedly many", "anchors": ["ldaptor/protocols/ldap/ldapserver.py:38-120", "ldaptor/protocols/ldap/ldapserver.py:129-330", "ldaptor/protocols/ldap/ldapclient.py:66-240"]}
{"id": "C100", "title": "What is logged of messages: one printable line, no password; and logging does not change the service", "statement": "With debug on, a server logs of every message received its repr. Whatever octets the peer sent, the line consists of visible ASCII characters and spaces, so that no peer can forge another line. Of a bind request nothing depends on the password, of a SASL bind nothing on the credentials, of an extended request nothing on what it carries. Every stream of messages, however cut, leaves the same tree, answers and connection as with debug off, and the lines are those of the messages handled, in order.", "quantifier": "all messages, octet streams, segmentations, trees, passwords, credentials", "why_tests_cant": "The tests compare the repr of a few objects; none looks at control characters, at two passwords, or at a server with debug on.", "anchors": ["ldaptor/protocols/pureber.py:180-308", "ldaptor/protocols/pureldap.py:120-1478", "ldaptor/protocols/ldap/ldapserver.py:106-128"]}
{"id": "C101", "title": "Changing a password changes it everywhere or says what failed", "statement": "When setPassword() of a connected entry succeeds, the server's entry accepts exactly the new password and, if it is a Samba account, holds exactly the two hashes of the new password under the attribute names of its object class, and nothing else has changed; if the server refuses, nothing has changed and the report names the failed and the untried step. The password and the hashes never part.", "quantifier": "All servers states, DNs, passwords, hash functions, attributes known to the client, segmentations of the network traffic", "why_tests_cant": "The steps, two protocol exchanges, the choice by object class in any case and the fetching of classes combine; tests use a scripted server with fixed answers and two passwords", "anchors": ["ldaptor/protocols/ldap/ldapsyntax.py:445-584", "ldaptor/samba/smbpassword.py:6-32"]}
{"id": "C102", "title": "Objects of the protocol compare equal exactly if they are the same", "statement": "Two LDAP messages, or two search filters, compare equal exactly if they are the same; the order in which an and or an or lists its parts does not matter, at any depth. Equality is reflexive, symmetric and transitive, never raises, and tells an and from an or; != is its negation; equal objects have equal hashes; filters that compare equal hold of the same entries.", "quantifier": "All messages, all search filters of any nesting, all orders of parts", "why_tests_cant": "Tests compare a few flat filters; that sorting by encoding yields an equivalence, and where it does not, is a statement about all nestings and all orders.", "anchors": ["ldaptor/protocols/pureldap.py:LDAPFilterSet.__eq__", "ldaptor/protocols/pureber.py:BERBase.__eq__", "ldaptor/protocols/pureber.py:BERBase.__ne__", "ldaptor/protocols/pureber.py:BERBase.__hash__", "ldaptor/protocols/pureber.py:BERBase.__len__", "ldaptor/protocols/ldap/ldapserver.py:LDAPServer.handle_LDAPSearchRequest"]}
{"id": "C103", "title": "The PowerDNS backend answers every line, in order, with what the directory says", "statement": "Whatever the order in which connections and searches end, the backend sends one complete answer for each line it received, in the order of the lines; it never takes one back, never keeps more than eleven questions waiting for the directory, and stops once the input has ended and all are answered. A question for the addresses of a name of the domain is answered with the addresses of the hosts of that name, a question for the name of an address with the names of the hosts that have it.", "quantifier": "All sequences of lines, connections made, failed and lost, searches ended in any order and with any result, and end of input; all names", "why_tests_cant": "Tests drive the protocol with answers in one order; the queue has to be right for all interleavings, and a name can contain any text.", "anchors": ["ldaptor/_scripts/ldap2pdns.py:PdnsPipeProtocol.lineReceived", "ldaptor/_scripts/ldap2pdns.py:PdnsPipeProtocol._doWork", "ldaptor/_scripts/ldap2pdns.py:PdnsPipeProtocol.completed", "ldaptor/_scripts/ldap2pdns.py:PdnsPipeProtocol.failed", "ldaptor/_scripts/ldap2pdns.py:PdnsPipeProtocol.getLdapEntry", "ldaptor/_scripts/ldap2pdns.py:PdnsPipeProtocol.question_A", "ldaptor/_scripts/ldap2pdns.py:PdnsPipeProtocol.question_PTR", "ldaptor/_scripts/ldap2pdns.py:PdnsPipeProtocol.do_main_Q"]}
{"id": "C104", "title": "What the zone file exporters write", "statement": "Exporting the nets and hosts of a directory as zone files either puts complete files in place or leaves all files as they were; each address of a host is written once, to the zones of the first net that has it.  In fact every run of ldap2dnszones and ldap2maradns that finds a net fails.", "quantifier": "for all directories (whether they are reached, their nets, hosts and how the searches end), options, files, readers of numbers and addresses, and process numbers", "why_tests_cant": "The failure comes from the sign of ~mask in Python 3 for every net, and from octets being formatted as Python literals; the scripts have no tests, and a test of one net says nothing of the files that are kept.", "anchors": ["ldaptor/_scripts/ldap2dnszones.py:9-106", "ldaptor/_scripts/ldap2dnszones.py:129-257", "ldaptor/_scripts/ldap2dnszones.py:276-351", "ldaptor/_scripts/ldap2maradns.py:8-218", "ldaptor/dns.py:7-33"]}
{"id": "C105", "title": "Where the DHCP exporter puts hosts", "statement": "In the configuration that ldap2dhcpconf prints, each address of a host that is in a net is printed exactly once, in the first net that has it; within a net the addresses of a group are together, no group is printed twice, and hosts without a group stand alone; a host is in the first group that names it.", "quantifier": "for all lists of nets, shared networks, hosts and groups, and whatever order Python goes through sets in", "why_tests_cant": "The order of sets of objects changes from run to run, and the statement is about all ways in which hosts, groups and nets can overlap; the script has no tests.", "anchors": ["ldaptor/_scripts/ldap2dhcpconf.py:24-118", "ldaptor/_scripts/ldap2dhcpconf.py:121-256", "ldaptor/_scripts/ldap2dhcpconf.py:287-409"]}
{"id": "C106", "title": "Which server the options and the configuration file choose", "statement": "The server asked for a DN is the one given for the longest suffix of the DN that any --service-location option or any section of the configuration file names; for the same suffix an option wins over the file, and a later one over an earlier one. All that the help text announces can be given, and what cannot be read is refused with a usage message.", "quantifier": "for all command lines, configuration files, DNs and Unicode tables, and all hash functions without collisions", "why_tests_cant": "The dictionaries compare DNs by hash and equality and are rebuilt several times on the way from option to connection; the statement is about every combination of options and sections.", "anchors": ["ldaptor/usage.py:37-115", "ldaptor/config.py:17-103", "ldaptor/protocols/ldap/ldapconnector.py:39-47"]}
{"id": "C107", "title": "The passwd exporter prints the accounts of the directory", "statement": "What ldap2passwd prints, read as a passwd file, is the list of the accounts that were found, one line for each with name, numbers, gecos (else cn), home and shell.", "quantifier": "for all lists of entries, with text or octets as attribute types and values", "why_tests_cant": "The tool has no tests; that no value can start a new field or line is a statement about all values, and the failure for octets is hidden when entries are made of text.", "anchors": ["ldaptor/_scripts/ldap2passwd.py:8-27", "ldaptor/protocols/ldap/ldapsyntax.py:639-646"]}
{"id": "C108", "title": "The password generator gives as many passwords as were asked for, or fails", "statement": "Whatever pwgen prints, in whatever pieces it arrives, the caller is told exactly once: the passwords, if standard error is empty and there are as many lines as were asked for, else a failure; no method raises. The password tool sets, for each DN, the password typed or generated for it, and its exit status tells whether all were set.", "quantifier": "for all sequences of pieces of output (text or octets), counts, lists of DNs, and directories accepting any passwords", "why_tests_cant": "The pieces in which output arrives are up to the operating system; pwgen is not installed where the tests run.", "anchors": ["ldaptor/generate_password.py:9-35", "ldaptor/_scripts/passwd.py:23-76"]}
{"id": "C109", "title": "Members, hashes and order of entries", "statement": "An entry has a member exactly if one of the values of its attribute member is a text of a DN equal to it, as text or as octets; equal entries have equal hashes; of two different entries, RDNs or attribute pairs one is less than the other, and then and only then the other is greater.", "quantifier": "for all entries, DNs, Unicode tables, hash functions and recursion depths", "why_tests_cant": "Comparison with a text is decided by the other operand and by spelling, hashes must agree for every pair of equal entries, and some comparisons never end; tests try a few names in one spelling.", "anchors": ["ldaptor/entry.py:141-156", "ldaptor/entry.py:243-253", "ldaptor/ldiftree.py:290-298", "ldaptor/protocols/ldap/distinguishedname.py:130-226", "ldaptor/protocols/ldap/distinguishedname.py:275-300"]}
{"id": "C110", "title": "The tool that finds servers", "statement": "For every DN that is given, the tool asks the DNS for the LDAP service of the domain of the DN and prints each server that the answer names, once; it ends when all questions are answered, and its exit status is 0 exactly if every DN has a server.", "quantifier": "for all lists of DNs, all replies in every order, all Unicode tables", "why_tests_cant": "Replies come in any order and number of records, and the status depends on all of them together; tests of the tool need a resolver and try one answer.", "anchors": ["ldaptor/_scripts/find_server.py:8-60", "ldaptor/protocols/ldap/distinguishedname.py:302-316"]}
