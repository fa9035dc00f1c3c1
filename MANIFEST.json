{"claims": [
 {"property": "C01", "status": "proved", "theorems": ["Verif.C01.ber2int_denotes", "Verif.C01.int_roundtrip", "Verif.C01.unsigned_roundtrip", "Verif.C01.int_minimal", "Verif.C01.unsigned_minimal", "Verif.C01.reencode_canonical"], "note": ""},
 {"property": "C02", "status": "proved", "theorems": ["Verif.C02.length_roundtrip", "Verif.C02.length_total", "Verif.C02.length_shape", "Verif.C02.length_injective", "Verif.C02.decode_fits"], "note": ""},
 {"property": "C03", "status": "proved", "theorems": ["Verif.C03.decode_prefix_determined", "Verif.C03.decode_consumes_element", "Verif.C03.decode_only_complete"], "note": ""},
 {"property": "C04", "status": "proved", "theorems": ["Verif.C04.strict_prefix_incomplete", "Verif.C04.encoded_prefix_incomplete", "Verif.C04.encodings_prefix_free"], "note": ""},
 {"property": "C05", "status": "proved", "theorems": ["Verif.C05.unknown_element_skipped", "Verif.C05.all_unknown", "Verif.C05.elements_in_order"], "note": ""},
 {"property": "C06", "status": "partial", "theorems": ["Verif.C06.message_roundtrip_partial", "Verif.C06.message_encodes_and_returns_partial", "Verif.C06.filter_roundtrip", "Verif.C06.encoding_injective_partial", "Verif.C06.empty_credentials_lost"], "note": "Proved for every message except one corner the code gets wrong: present but empty SASL credentials are written like absent ones (empty_credentials_lost)."},
 {"property": "C07", "status": "partial", "theorems": ["Verif.C07.segmentation_independent_partial", "Verif.C07.segmentation_matters", "Verif.C07.nothing_lost", "Verif.C07.messages_delivered", "Verif.C07.delivered"], "note": "The unrestricted claim is false (segmentation_matters): an element that is not an LDAP message stops the receive loop. Proved for all streams of LDAP messages, plus loss-freedom for all streams."},
 {"property": "C08", "status": "partial", "theorems": ["Verif.C08.frame_consumed_partial", "Verif.C08.encoded_frame_consumed", "Verif.C08.malformed_frame_stalls"], "note": "The unrestricted claim is false (malformed_frame_stalls): an inner length pointing beyond the frame stalls the connection for ever. Proved for all frames whose inner lengths fit."},
 {"property": "C09", "status": "proved", "theorems": ["Verif.C09.parse_print_parse", "Verif.C09.print_idempotent", "Verif.C09.print_injective"], "note": ""},
 {"property": "C10", "status": "proved", "theorems": ["Verif.C10.components_roundtrip", "Verif.C10.rdn_roundtrip", "Verif.C10.escape_roundtrip", "Verif.C10.components_injective", "Verif.C10.equals_in_type_lost"], "note": "equals_in_type_lost shows that the condition on attribute types is needed."},
 {"property": "C100", "status": "partial", "theorems": ["Verif.C100.one_line", "Verif.C100.password_hidden", "Verif.C100.sasl_hidden", "Verif.C100.extended_hidden", "Verif.C100.raises_iff", "Verif.C100.raises_type_error", "Verif.C100.debug_same_partial", "Verif.C100.debug_drops", "Verif.C100.length_shown", "Verif.C100.value_shown"], "note": "Proved for every message: the line is printable; logging raises (a TypeError) exactly if a part of the message is a bind request whose version is not a number. Fails: such a bind request is answered with debug off and costs the connection with debug on (debug_drops); the length of a password shows (length_shown); passwords written as attribute values are logged in the clear (value_shown). Missing in debug_same_partial: messages with such a bind request."},
 {"property": "C101", "status": "partial", "theorems": ["Verif.C101.changed_partial", "Verif.C101.blank_changed_partial", "Verif.C101.not_samba", "Verif.C101.refused", "Verif.C101.half_octets", "Verif.C101.half_dirty", "Verif.C101.endless", "Verif.C101.cut", "Verif.C101.same_hash"], "note": "Proved through both exchanges with the library's server (any segmentation); what the client is given is tied to the server by Works. Violations proved: a password given as octets whose first 128 octets are not UTF-8 (possible for every long UTF-8 password), or unsent changes on an entry with unknown classes, leave the new password with the old Samba hashes; a server that hides objectClass makes the client ask for ever; the client's entry keeps the old hash under the name as octets. The search that fetches the classes is a parameter (C93 shows what such a search gives)."},
 {"property": "C102", "status": "partial", "theorems": ["Verif.C102.reflexive", "Verif.C102.symmetric", "Verif.C102.transitive", "Verif.C102.item", "Verif.C102.reordered", "Verif.C102.flat", "Verif.C102.sound", "Verif.C102.means_partial", "Verif.C102.messages_partial", "Verif.C102.and_or", "Verif.C102.and_or_differ", "Verif.C102.raises", "Verif.C102.both_equal_and_not", "Verif.C102.no_hash", "Verif.C102.nested", "Verif.C102.not_transitive", "Verif.C102.refused", "Verif.C102.refused_search"], "note": "Proved: messages and filters that are no sets equal just themselves; flat sets are equal exactly if they have the same parts; == is an equivalence on all filters; equal filters are the same up to order and up to and/or, and without that mix hold of the same entries. Fails, with proofs: an and equals the or of the same parts; order counts in sets within sets (for some) and under negations; != can be true together with ==; comparing a set with a presence test or a negation of the same length raises TypeError, so the server refuses some searches at the empty DN; sets have no hash."},
 {"property": "C103", "status": "partial", "theorems": ["Verif.C103.in_order", "Verif.C103.kept", "Verif.C103.grows", "Verif.C103.one_each", "Verif.C103.framed", "Verif.C103.bounded", "Verif.C103.all_answered", "Verif.C103.asks_address", "Verif.C103.asks_name", "Verif.C103.plain_address", "Verif.C103.plain_name", "Verif.C103.records", "Verif.C103.star", "Verif.C103.injected", "Verif.C103.broken", "Verif.C103.upper_case", "Verif.C103.octets_fail", "Verif.C103.stuck", "Verif.C103.never_stops", "Verif.C103.greeting_iff"], "note": "Proved: for all interleavings the answers are sent in order, one complete answer for each line, kept, at most eleven waiting, and the program stops when all is done; names without filter syntax are searched for as they should. Fails, with proofs: names are not escaped (star and injected filters), case counts, values that are octets (as this library's client finds them) make the answer a failure, and if connecting raises, no later question is searched for and waiting ones are never answered."},
 {"property": "C104", "status": "partial", "theorems": ["Verif.C104.bits_right", "Verif.C104.no_broadcast", "Verif.C104.no_forward", "Verif.C104.no_reverse", "Verif.C104.success_iff", "Verif.C104.success_writes", "Verif.C104.some_net", "Verif.C104.failure_keeps", "Verif.C104.others_kept", "Verif.C104.tidy", "Verif.C104.no_option", "Verif.C104.option_iff", "Verif.C104.in_net", "Verif.C104.in_net_length", "Verif.C104.unreadable", "Verif.C104.first_net", "Verif.C104.no_net", "Verif.C104.hosts_written", "Verif.C104.ptr_name", "Verif.C104.published", "Verif.C104.not_published", "Verif.C104.mara_net", "Verif.C104.mara_in", "Verif.C104.mara_hosts", "Verif.C104.mara_first", "Verif.C104.mara_run", "Verif.C104.net_read", "Verif.C104.octets_unread", "Verif.C104.mara_stops", "Verif.C104.mara_unreadable"], "note": "Files are kept by a run that fails (failure_keeps, tidy) and hosts are placed once (hosts_written, first_net).  The property fails: every net makes the run fail (no_forward, some_net, mara_net), a run that goes well writes no records (success_writes, success_iff, mara_run), a run without --reverse raises KeyError (no_option), values that are octets are not addresses (octets_unread), and renaming is not all or nothing (not_published)."},
 {"property": "C105", "status": "partial", "theorems": ["Verif.C105.first_group", "Verif.C105.octets_no_group", "Verif.C105.partition", "Verif.C105.first_net", "Verif.C105.every_address", "Verif.C105.nets_read", "Verif.C105.printed", "Verif.C105.unreadable_fails", "Verif.C105.octets_fail", "Verif.C105.case_lost", "Verif.C105.same_name", "Verif.C105.injected", "Verif.C105.host_read_iff", "Verif.C105.net_read_iff", "Verif.C105.header_iff", "Verif.C105.octet_name"], "note": "The placement holds for all inputs and set orders (partition, every_address, first_group, printed).  Partial because with octets, as the client gives them, there are no groups (octets_no_group) and the run fails before printing (octets_fail); names of members are compared as text (case_lost); boot files are not quoted (injected)."},
 {"property": "C106", "status": "partial", "theorems": ["Verif.C106.read_iff", "Verif.C106.can_be_given", "Verif.C106.server_partial", "Verif.C106.starts_iff", "Verif.C106.option_wins", "Verif.C106.file_nearer_wins", "Verif.C106.scope_iff", "Verif.C106.one_refused", "Verif.C106.bind_options", "Verif.C106.base_option", "Verif.C106.identity_base", "Verif.C106.copy_same", "Verif.C106.copy_changes", "Verif.C106.colon_in_base", "Verif.C106.ipv6_host", "Verif.C106.other_error", "Verif.C106.empty_host", "Verif.C106.escaped_blank", "Verif.C106.every_base_can_be_given"], "note": "server_partial and starts_iff describe every run for DNs compared by spelling and without an empty RDN, as in C56. The second half of the statement is refuted: one_refused, colon_in_base, ipv6_host, other_error, empty_host, escaped_blank. Missing: Twisted's parsing of command lines and configparser's parsing of files."},
 {"property": "C107", "status": "partial", "theorems": ["Verif.C107.printed_iff", "Verif.C107.read_back_partial", "Verif.C107.octets_fail", "Verif.C107.injected", "Verif.C107.case_lost", "Verif.C107.without_shell"], "note": "read_back_partial holds for entries made of text whose fields have no colon and no line feed; printed_iff says exactly which entries made of text are printed. The full statement is refuted: octets_fail (all entries the client finds), injected, case_lost. Missing: connecting, the filter, and what the client does with the exception."},
 {"property": "C108", "status": "partial", "theorems": ["Verif.C108.told_partial", "Verif.C108.passwords_right", "Verif.C108.pieces", "Verif.C108.wrong_count_raises", "Verif.C108.octets_never", "Verif.C108.tool_ends", "Verif.C108.status_iff", "Verif.C108.shown_iff", "Verif.C108.generate_nothing"], "note": "The caller is told once, and what, for all pieces of text; a wrong number of lines also raises AlreadyCalledError (wrong_count_raises). Refuted for octets, which Twisted delivers (octets_never), and for the exit status (generate_nothing). Missing: starting the process and the connection of the tool."},
 {"property": "C109", "status": "partial", "theorems": ["Verif.C109.member_iff", "Verif.C109.member_string_iff", "Verif.C109.member_sound", "Verif.C109.member_found_partial", "Verif.C109.hash_partial", "Verif.C109.entry_order", "Verif.C109.rdn_order", "Verif.C109.pair_gt", "Verif.C109.pair_ge", "Verif.C109.member_case", "Verif.C109.octets_not_text", "Verif.C109.member_hidden", "Verif.C109.hash_differs"], "note": "Members are found by their own text (member_iff), so that each member found is one (member_sound) and those in canonical case are found (member_found_partial). Refuted: members in other letters or with a blank (member_case), text asked for among octets (octets_not_text), equal entries with different hashes (hash_differs), > and <= of different pairs (pair_gt), >= of equal ones (pair_ge)."},
 {"property": "C11", "status": "proved", "theorems": ["Verif.C11.contains_iff_suffix", "Verif.C11.contains_refl", "Verif.C11.contains_trans", "Verif.C11.contains_antisymm", "Verif.C11.up_contains", "Verif.C11.not_contains_up", "Verif.C11.contains_congr", "Verif.C11.contains_text"], "note": ""},
 {"property": "C110", "status": "partial", "theorems": ["Verif.C110.asked_right_partial", "Verif.C110.ask_iff", "Verif.C110.printed_partial", "Verif.C110.status_iff", "Verif.C110.usage_iff", "Verif.C110.one_bad", "Verif.C110.no_domain", "Verif.C110.additional_printed", "Verif.C110.nothing_found"], "note": "What is asked for, printed, and the status, for replies in every order. Refuted: a DN without a domain is asked for as None (no_domain), one DN that cannot be read stops all (one_bad), servers of the additional records are printed (additional_printed), status 0 although nothing was found (nothing_found)."},
 {"property": "C12", "status": "partial", "theorems": ["Verif.C12.equal_dns_hash_differently", "Verif.C12.equal_pairs_hash_differently", "Verif.C12.equal_hash_partial", "Verif.C12.same_key_iff"], "note": "The unrestricted claim is false (equal_dns_hash_differently): equality ignores case, hashing does not. Proved for DNs in canonical case, and parsed DNs share a hash key only when spelled alike."},
 {"property": "C13", "status": "partial", "theorems": ["Verif.C13.irreflexive", "Verif.C13.trichotomy", "Verif.C13.not_transitive", "Verif.C13.transitive_partial"], "note": "Transitivity is false (not_transitive). Irreflexivity and trichotomy hold for all DNs; transitivity among DNs in canonical case."},
 {"property": "C14", "status": "partial", "theorems": ["Verif.C14.text_roundtrip_partial", "Verif.C14.text_roundtrip_binary_partial", "Verif.C14.text_injective_partial", "Verif.C14.tab_lost", "Verif.C14.empty_set_lost", "Verif.C14.rule_dn_lost", "Verif.C14.no_pieces_lost", "Verif.C14.no_dn_flag_changed", "Verif.C14.substrings_text_iff"], "note": "False for values with a tab (tab_lost): pyparsing expands tabs before parsing. Proved for every nesting of valid filters without tabs, and with binary_escape for all values below U+0100 including tabs. Each side condition of Valid is shown necessary by a witness."},
 {"property": "C15", "status": "partial", "theorems": ["Verif.C15.structure_safe", "Verif.C15.value_exact_partial", "Verif.C15.tab_changed", "Verif.C15.binary_exact", "Verif.C15.binary_wide_changed", "Verif.C15.smart_exact", "Verif.C15.smart_total", "Verif.C15.smart_choice"], "note": "Structure can never be changed, for any value (structure_safe); exact value without tabs; false with a tab (tab_changed)."},
 {"property": "C16", "status": "partial", "theorems": ["Verif.C16.star_matches_all", "Verif.C16.injection", "Verif.C16.plain_name_partial", "Verif.C16.escaped_name_partial", "Verif.C16.template_star"], "note": "False: the name is not escaped (star_matches_all; injection shows any filter can be added). Proved for names without filter syntax, and for callers that escape first."},
 {"property": "C17", "status": "partial", "theorems": ["Verif.C17.eval_correct_partial", "Verif.C17.eval_iff_partial", "Verif.C17.holds_unique", "Verif.C17.and_true", "Verif.C17.or_false", "Verif.C17.not_iff", "Verif.C17.sameValue_ascii", "Verif.C17.undecodable_raises", "Verif.C17.second_listing_hidden"], "note": "Proved for every nesting, for entries listing each attribute once and filters with ASCII names, UTF-8/text equality values and ordering values of the stored kind. The full statement is false for non-UTF-8 equality values (undecodable_raises) and for attributes listed in both forms."},
 {"property": "C18", "status": "partial", "theorems": ["Verif.C18.exact_partial", "Verif.C18.complete_partial", "Verif.C18.necessary", "Verif.C18.overlap_accepted", "Verif.C18.correct_rejected", "Verif.C18.wrong_accepted", "Verif.C18.mixed_kinds_raise"], "note": "False in both directions (overlap_accepted, correct_rejected, wrong_accepted). Proved exact for filters without any-pieces or with one any-piece and a final piece as long as the first; complete when the first piece is no longer than the final; necessary conditions always."},
 {"property": "C19", "status": "proved", "theorems": ["Verif.C19.set_then_bind", "Verif.C19.set_accepted", "Verif.C19.others_refused", "Verif.C19.others_unchanged", "Verif.C19.corrupt_digest_raises", "Verif.C19.bind_iff"], "note": "The SHA-1 function is a parameter; refusal of other passwords is proved for passwords whose digest differs. corrupt_digest_raises records that a stored {SSHA} value that is not base64 makes the bind raise. bind_iff states exactly which entries accept which password."},
 {"property": "C20", "status": "partial", "theorems": ["Verif.C20.no_change_partial", "Verif.C20.diff_patch_partial", "Verif.C20.diff_patch_equal_iff", "Verif.C20.removed_attribute_stays", "Verif.C20.respelling_loses_value", "Verif.C20.octets_raise"], "note": "The full claim is false: an attribute absent from the other entry stays with no values, a respelled name loses its values, and values that are not UTF-8 raise. Proved for entries that spell names alike: the values come out right, and equality holds exactly if no attribute with values had to go."},
 {"property": "C21", "status": "partial", "theorems": ["Verif.C21.never_twice", "Verif.C21.history_partial", "Verif.C21.add_remove_partial", "Verif.C21.refuses_octets", "Verif.C21.other_routes_store_twice"], "note": "never_twice is the full claim of the title for add/remove histories. The set behaviour needs values that are text or UTF-8; refuses_octets shows that others raise."},
 {"property": "C22", "status": "partial", "theorems": ["Verif.C22.not_atomic", "Verif.C22.not_atomic_single", "Verif.C22.first_fails_partial", "Verif.C22.stops_at_first_failure", "Verif.C22.adds_replaces_partial"], "note": "The full claim is false (not_atomic, not_atomic_single). Proved: the exact prefix that stays applied, and classes of lists for which the claim holds."},
 {"property": "C23", "status": "proved", "theorems": ["Verif.C23.history_consistent", "Verif.C23.dn_of_path"], "note": "Every history of add, delete and deleteChild calls on references to entries, including stale ones, keeps parent links, child keys and DNs consistent and each entry listed once."},
 {"property": "C24", "status": "partial", "theorems": ["Verif.C24.refines_partial", "Verif.C24.built_values", "Verif.C24.respelled_twin", "Verif.C24.stale_delete"], "note": "Refinement to a map from DNs to attributes, for every history of requests by name that spells each RDN in one way (refines_partial). Missing: histories with two spellings of one RDN and deletion through stale references, where the code violates the claim (respelled_twin, stale_delete)."},
 {"property": "C25", "status": "partial", "theorems": ["Verif.C25.move_leaf_partial", "Verif.C25.moved_not_deletable", "Verif.C25.moved_not_movable", "Verif.C25.renamed_in_place", "Verif.C25.descendants_lost", "Verif.C25.existing_overwritten", "Verif.C25.renamed_hidden", "Verif.C25.below_itself", "Verif.C25.half_moved", "Verif.C25.renamed_values"], "note": "Holds for the first successful move of a leaf to a free name not below itself (move_leaf_partial). The code violates every other part of the claim: the remaining theorems are witnesses. renamed_values states, for any successful move, the values of the moved entry."},
 {"property": "C26", "status": "partial", "theorems": ["Verif.C26.walk_spec", "Verif.C26.search_exact_partial", "Verif.C26.search_holds_partial", "Verif.C26.subtree_order", "Verif.C26.error_hides_entries"], "note": "Exact for filters that can be evaluated on every entry in scope. Missing: filters that raise on an entry, where the code silently drops entries (error_hides_entries)."},
 {"property": "C27", "status": "partial", "theorems": ["Verif.C27.replays_partial", "Verif.C27.respelled_child_fails", "Verif.C27.alike_siblings_raise", "Verif.C27.emptied_attribute_stays"], "note": "Proved for trees that spell attribute names and RDNs in one way and whose values can be decoded and sorted: the difference is computed, every operation succeeds, and afterwards lookups by name find entries under exactly the names of the other tree, with exactly its values. Equality of the entries fails where an attribute goes away (it stays, empty); replaying fails where an RDN is respelled; siblings that differ in case only make diffTree raise."},
 {"property": "C28", "status": "proved", "theorems": ["Verif.C28.decode_encode", "Verif.C28.decode_encodebytes", "Verif.C28.one_line", "Verif.C28.length_encode", "Verif.C28.encode_injective"], "note": "The base64 codec of the Python library is modelled from its documentation."},
 {"property": "C29", "status": "proved", "theorems": ["Verif.C29.entry_roundtrip", "Verif.C29.file_roundtrip", "Verif.C29.mixed_kinds_raise"], "note": "Every value, every chunking; conditions of the statement: valid different names, values of one Python type (mixed_kinds_raise shows the code raises otherwise), a DN whose text parses, no overlong line."},
 {"property": "C30", "status": "proved", "theorems": ["Verif.C30.chunking", "Verif.C30.chunking_stored", "Verif.C30.state_determined"], "note": "All inputs and chunkings, both parsers and the parser of the on-disk tree; exceptions included."},
 {"property": "C31", "status": "partial", "theorems": ["Verif.C31.detected_partial", "Verif.C31.cut_points", "Verif.C31.dropped_silently", "Verif.C31.dropped_silently_unfinished", "Verif.C31.stored_dropped", "Verif.C31.empty_input"], "note": "The full statement is false: dropped_silently shows that an entry cut within its first two lines is lost without an exception. detected_partial: one more complete line and it is reported, for every input; cut_points: exact answer for every cut point of a written entry."},
 {"property": "C32", "status": "partial", "theorems": ["Verif.C32.changes_roundtrip_partial", "Verif.C32.add_rejected"], "note": "Any list of modify, add and delete operations, any values and DNs. Full statement false: an add of an entry without values is rejected (add_rejected). Conditions: names fit for LDIF, values of one Python type, no overlong line."},
 {"property": "C33", "status": "partial", "theorems": ["Verif.C33.each_file", "Verif.C33.old_or_new_partial", "Verif.C33.atomic_partial", "Verif.C33.unwritable_keeps_partial", "Verif.C33.listing_partial", "Verif.C33.stored", "Verif.C33.example_steps", "Verif.C33.many_refused"], "note": "For every DN each file is as before or complete (each_file). What a reader finds under each DN, and the listings, are proved for DNs without slashes; with slashes two DNs may share a file (C34.same_file). Crashes are deaths of the process, not power failures."},
 {"property": "C34", "status": "partial", "theorems": ["Verif.C34.contained_partial", "Verif.C34.place", "Verif.C34.distinct", "Verif.C34.outside", "Verif.C34.lookup_outside", "Verif.C34.same_file"], "note": "Proved for DNs without slashes. False with slashes: outside, lookup_outside and same_file are witnesses."},
 {"property": "C35", "status": "partial", "theorems": ["Verif.C35.after_delete_partial", "Verif.C35.gone_partial", "Verif.C35.others_kept", "Verif.C35.still_found", "Verif.C35.name_lost"], "note": "Proved unless a directory was left behind by former children; then the property is false (still_found, name_lost)."},
 {"property": "C36", "status": "proved", "theorems": ["Verif.C36.ids_increase", "Verif.C36.requests_distinct", "Verif.C36.outstanding_distinct", "Verif.C36.requests_made", "Verif.C36.written_id"], "note": "For any number of connections sharing the counter, every interleaving."},
 {"property": "C37", "status": "partial", "theorems": ["Verif.C37.fires_once", "Verif.C37.table_waiting", "Verif.C37.response_delivered", "Verif.C37.delivered_only_to_own", "Verif.C37.unknown_id", "Verif.C37.log_prefix", "Verif.C37.completed_forever", "Verif.C37.finished_completes", "Verif.C37.unknown_id_disturbs", "Verif.C37.asked"], "note": "All parts proved for every history except one the code violates: a response with an unknown id raises and the connection with its other requests is lost (unknown_id, unknown_id_disturbs)."},
 {"property": "C38", "status": "proved", "theorems": ["Verif.C38.lost_fails_all", "Verif.C38.disconnected", "Verif.C38.nothing_written", "Verif.C38.send_refused"], "note": "For every history; handlers and callers' callbacks are arbitrary."},
 {"property": "C39", "status": "proved", "theorems": ["Verif.C39.asked_when_idle", "Verif.C39.tls_after_agreement", "Verif.C39.negative_never", "Verif.C39.busy_refused", "Verif.C39.not_idle_when_switched"], "note": "The statement is proved for every history. not_idle_when_switched records that requests sent after startTLS() may be outstanding when TLS is switched on."},
 {"property": "C40", "status": "partial", "theorems": ["Verif.C40.answered_once_partial", "Verif.C40.finals_match_requests_partial", "Verif.C40.unsolicited_ignored", "Verif.C40.unbind_silent", "Verif.C40.one_final", "Verif.C40.ids_correct", "Verif.C40.unfinished_unanswered", "Verif.C40.delete_nonleaf_unanswered", "Verif.C40.abandon_answered"], "note": "Two models: LDAPServer with its own handlers (answered_once_partial, finals_match_requests_partial), and the dispatch for arbitrary asynchronous handlers (one_final, ids_correct, unfinished_unanswered). Excluded: deleting an entry that is not a leaf, which is never answered (delete_nonleaf_unanswered), and responses beyond 4 GB."},
 {"property": "C41", "status": "proved", "theorems": ["Verif.C41.critical_blocks", "Verif.C41.critical_refused", "Verif.C41.noncritical_ignored", "Verif.C41.bad_version_first", "Verif.C41.bad_type"], "note": "critical_blocks is the safety half for every answerable request; critical_refused gives the code 12 unless a bind request has another version or the control type is not an octet string (then the code is 2)."},
 {"property": "C42", "status": "partial", "theorems": ["Verif.C42.bind_outcome", "Verif.C42.verified_password", "Verif.C42.only_binds", "Verif.C42.last_successful_bind_partial", "Verif.C42.failed_bind_keeps_user", "Verif.C42.sasl_as_password"], "note": "Proved except for the last clause, which is false: a failed bind does not unbind (failed_bind_keeps_user)."},
 {"property": "C43", "status": "proved", "theorems": ["Verif.C43.only_own", "Verif.C43.decided", "Verif.C43.others_refused", "Verif.C43.new_password_works", "Verif.C43.modify_unprotected"], "note": "Proved for every extended request. modify_unprotected records that the title is false for modify requests, outside the statement."},
 {"property": "C44", "status": "partial", "theorems": ["Verif.C44.merged_partial", "Verif.C44.unused_free", "Verif.C44.unsupported_refused", "Verif.C44.compare_answered_twice", "Verif.C44.lost_never_finished"], "note": "For bind and search requests: every interleaving, any number of servers and other requests. A compare request is forwarded too, and the client gets an answer from every server (compare_answered_twice); a server lost before its last response leaves the request unfinished for ever (lost_never_finished)."},
 {"property": "C45", "status": "partial", "theorems": ["Verif.C45.in_order_partial", "Verif.C45.all_relayed", "Verif.C45.logged", "Verif.C45.lost_silent", "Verif.C45.failed_hook_blocks", "Verif.C45.unencodable_blocks"], "note": "For every history with the client connected and encodable results, relayed = results of the fired prefix in arrival order; a failing hook blocks later responses for ever (proved)."},
 {"property": "C46", "status": "partial", "theorems": ["Verif.C46.fifo_partial", "Verif.C46.forwarded_partial", "Verif.C46.comes_up", "Verif.C46.failure_answers", "Verif.C46.hook_reorders", "Verif.C46.late_bind_unanswered"], "note": "FIFO and exactly once for request hooks that answer at once and connections that last; failure answers exactly once. A slow hook reorders, a bind after the failure is unanswered (proved)."},
 {"property": "C47", "status": "partial", "theorems": ["Verif.C47.released_partial", "Verif.C47.kept", "Verif.C47.leak"], "note": "Searches and binds are released for ever; no other final response releases anything (proved, with an unbounded leak)."},
 {"property": "C48", "status": "partial", "theorems": ["Verif.C48.own_link", "Verif.C48.own_responses", "Verif.C48.forwarded_after", "Verif.C48.isolated_partial", "Verif.C48.queue_lost", "Verif.C48.not_isolated"], "note": "The statement is false: the list of waiting requests belongs to the class. queue_lost proves for every history that a connection loses all waiting requests when another link comes up first, not_isolated is a witness. Proved: what is written to a link comes from its own client, responses go to the client that asked (own_link, own_responses), everything is forwarded once the link is up (forwarded_after), and also what waited for it if no other link comes up in between (isolated_partial)."},
 {"property": "C49", "status": "partial", "theorems": ["Verif.C49.replay_partial", "Verif.C49.replay_init_partial", "Verif.C49.accepted", "Verif.C49.other_kind", "Verif.C49.octets_fail", "Verif.C49.added_again", "Verif.C49.cleared_empty", "Verif.C49.works"], "note": "False in general: other_kind, octets_fail. Proved for all edit sequences in which each attribute name is spelled always as text or always as octets, and values are text or UTF-8 with no value in two forms (replay_partial, replay_init_partial), against RFC 4511 semantics of modify requests. accepted: a strict server accepts the request if what is added is new and what is cleared is there; added_again and cleared_empty show that the conditions are needed. works: edits that should succeed are carried out and recorded."},
 {"property": "C50", "status": "partial", "theorems": ["Verif.C50.undo_restores_partial", "Verif.C50.commit_done_partial", "Verif.C50.commit_refused", "Verif.C50.in_step_partial", "Verif.C50.inflight_lost", "Verif.C50.sent_twice", "Verif.C50.mixed", "Verif.C50.mixed_undo", "Verif.C50.commit_odd"], "note": "The last clause is false (inflight_lost, for every edit in flight that has an effect). Proved: undo, successful and failed commits, and the invariant over all histories in which the entry is let alone while a request is not answered, if the values of each attribute are all text or all octets; mixed and mixed_undo show that this is needed."},
 {"property": "C51", "status": "partial", "theorems": ["Verif.C51.in_order", "Verif.C51.all_succeed", "Verif.C51.first_failure", "Verif.C51.success_iff", "Verif.C51.other_failure"], "note": "Proved for every number of steps, every outcome and every state: order by priority (stable), stop at the first failure, success iff all succeed, later steps reported as aborted. False in one case: a step that fails with an exception that is not an LDAP error stops the steps, but the caller gets that exception and no report (other_failure)."},
 {"property": "C52", "status": "partial", "theorems": ["Verif.C52.limit_swallowed", "Verif.C52.limit_tolerated", "Verif.C52.succeeds", "Verif.C52.fails", "Verif.C52.waits", "Verif.C52.ends_once", "Verif.C52.lost_fails", "Verif.C52.unexpected", "Verif.C52.nameless", "Verif.C52.valueless", "Verif.C52.callback_raises", "Verif.C52.codeless"], "note": "The first half is false: a search that hits the size limit ends successfully whether or not the caller asked for that (limit_swallowed, for every sequence of responses). Proved: the non-fatal case with the partial results in order (limit_tolerated), all other result codes (succeeds, fails), no end before the last response, one end, failure when the connection goes."},
 {"property": "C53", "status": "partial", "theorems": ["Verif.C53.search_free", "Verif.C53.search_smallest", "Verif.C53.search_max_partial", "Verif.C53.search_free_max_partial", "Verif.C53.max_not_asked", "Verif.C53.max_below_min_loops", "Verif.C53.answer_stable"], "note": "Proved in full without an upper limit. With an upper limit the code violates the claim: it returns the limit without asking (max_not_asked) and may loop forever for max below min (max_below_min_loops); what holds then is search_max_partial and search_free_max_partial."},
 {"property": "C54", "status": "proved", "theorems": ["Verif.C54.mask_of_length", "Verif.C54.length_roundtrip", "Verif.C54.dotted_iff", "Verif.C54.dotted_refused", "Verif.C54.mask_roundtrip", "Verif.C54.lengths_distinct"], "note": "All prefix lengths and all 2^32 dotted masks. Reading the dotted text (inet_aton) is not modelled."},
 {"property": "C55", "status": "proved", "theorems": ["Verif.C55.user_group_distinct", "Verif.C55.users_distinct", "Verif.C55.groups_distinct", "Verif.C55.sids_distinct", "Verif.C55.sid_domain"], "note": "For both schemas (sambaAccount and sambaSamAccount), for all integers. A group SID fixed by configuration is not generated and not covered."},
 {"property": "C56", "status": "partial", "theorems": ["Verif.C56.nearest_partial", "Verif.C56.none_iff", "Verif.C56.respelled_not_found", "Verif.C56.trailing_comma_not_found"], "note": "Proved for DNs compared by spelling and without empty RDNs. Missing: DNs that differ in case and DN texts ending in a comma, where the code violates the claim (respelled_not_found, trailing_comma_not_found)."},
 {"property": "C57", "status": "partial", "theorems": ["Verif.C57.attribute_roundtrip", "Verif.C57.attribute_reparse", "Verif.C57.syntax_roundtrip", "Verif.C57.syntax_reparse", "Verif.C57.rule_roundtrip", "Verif.C57.rule_reparse_partial", "Verif.C57.class_roundtrip", "Verif.C57.class_reparse_partial", "Verif.C57.nameless_rule", "Verif.C57.single_superior", "Verif.C57.spaced_reference", "Verif.C57.missing_reference"], "note": "Round trip proved for every valid element of the four kinds, and for every attribute type and syntax the parser returns. What the parser returns for odd object classes and nameless matching rules does not round-trip: witnesses."},
 {"property": "C58", "status": "partial", "theorems": ["Verif.C58.known_code_partial", "Verif.C58.success_iff", "Verif.C58.unknown_code_kept", "Verif.C58.unknown_code_lost", "Verif.C58.get_injective", "Verif.C58.text_distinct", "Verif.C58.text_format"], "note": "Proved for all codes of RFC 2251. For other codes resultCode is None (unknown_code_lost); the code is kept in another attribute."},
 {"property": "C59", "status": "partial", "theorems": ["Verif.C59.replace_partial", "Verif.C59.add_partial", "Verif.C59.delete_partial", "Verif.C59.delete_attribute_partial", "Verif.C59.replace_other_form", "Verif.C59.delete_other_form"], "note": "Proved when entry and modification give each attribute name in one spelling and form; false otherwise (replace_other_form, delete_other_form)."},
 {"property": "C60", "status": "proved", "theorems": ["Verif.C60.domain_spec", "Verif.C60.domain_split"], "note": ""},
 {"property": "C61", "status": "partial", "theorems": ["Verif.C61.zone_name_partial", "Verif.C61.short_mask_wrong", "Verif.C61.short_fraction_wrong"], "note": "Proved for masks of at least 8 ones; for shorter masks the code violates the claim."},
 {"property": "C62", "status": "proved", "theorems": ["Verif.C62.query_iff", "Verif.C62.location_used", "Verif.C62.no_override", "Verif.C62.independent_of_dns"], "note": "The SRV lookup itself (Twisted) is a parameter."},
 {"property": "C63", "status": "proved", "theorems": ["Verif.C63.escape_grammatical", "Verif.C63.no_bare_trailing_blank"], "note": ""},
 {"property": "C64", "status": "partial", "theorems": ["Verif.C64.plaintext_accepted", "Verif.C64.decode_response", "Verif.C64.decode_injected"], "note": "False: the receive buffer is kept when TLS is switched on, so a response appended in the clear to the StartTLS answer is delivered to a request sent later over TLS (plaintext_accepted)."},
 {"property": "C65", "status": "partial", "theorems": ["Verif.C65.exact_partial", "Verif.C65.only_if_partial", "Verif.C65.flag_ignored", "Verif.C65.octets_miss_dn", "Verif.C65.octets_miss_text", "Verif.C65.type_case_missed"], "note": "False in both directions: the dnAttributes flag is ignored, octets never match the DN nor text values, the type in the DN is compared exactly. Proved: the exact decision, and that nothing is accepted without such an attribute or DN component."},
 {"property": "C66", "status": "partial", "theorems": ["Verif.C66.sound", "Verif.C66.complete_partial", "Verif.C66.parse_iff_partial", "Verif.C66.refused", "Verif.C66.reading_unique_partial", "Verif.C66.dn_rule_refused", "Verif.C66.full_false", "Verif.C66.tab_read_as_blanks"], "note": "Exact for texts without tabs and filters in which no matching rule begins with dn; both limits shown necessary. Soundness holds without limits."},
 {"property": "C67", "status": "proved", "theorems": ["Verif.C67.search_answered", "Verif.C67.matches_holds", "Verif.C67.no_base", "Verif.C67.root_dse", "Verif.C67.compare_answered"], "note": "Directories built by requests other than ModifyDN; filters that can be evaluated on the entries in scope; entries with ASCII attribute names listed once and values of one kind."},
 {"property": "C68", "status": "partial", "theorems": ["Verif.C68.conversation_partial", "Verif.C68.serve_request", "Verif.C68.serve_read", "Verif.C68.conversation_exists"], "note": "Proved for all conversations from a single entry, up to two violations that the statement spells out: the delete request for an entry with entries below it is refused but gets no answer (C40 delete_nonleaf_unanswered), and RDNs of added entries must be spelled alike when they are equal (C24 respelled_twin)."},
 {"property": "C69", "status": "partial", "theorems": ["Verif.C69.plain_iff", "Verif.C69.attribute_line", "Verif.C69.delete_record", "Verif.C69.modify_record", "Verif.C69.content_record_partial", "Verif.C69.add_record_partial", "Verif.C69.dn_not_encoded", "Verif.C69.no_attributes"], "note": "Full for attribute lines, modify and delete records. Entries and add records only if the DN is a safe string and there is a value: dn_not_encoded and no_attributes refute the full statement."},
 {"property": "C70", "status": "partial", "theorems": ["Verif.C70.added_lookup", "Verif.C70.added_found_partial", "Verif.C70.others_same_partial", "Verif.C70.added_deleted_partial", "Verif.C70.example_add", "Verif.C70.respelled_not_found"], "note": "Proved for the spelling under which the entry was added, DNs without slashes and entries that can be written (C29). False for other spellings: respelled_not_found."},
 {"property": "C71", "status": "partial", "theorems": ["Verif.C71.gone_partial", "Verif.C71.link_gone", "Verif.C71.tls_forwards", "Verif.C71.proxy_gone_partial", "Verif.C71.proxy_forwards", "Verif.C71.proxy_open", "Verif.C71.proxy_link_gone", "Verif.C71.proxy_closes"], "note": "False for a client that goes while the link is being set up: ProxyBase forwards then if it uses TLS towards the server (tls_forwards), Proxy always (proxy_forwards) and never closes the link (proxy_open), because its connectionLost asserts that there is a link. Proved in all other cases."},
 {"property": "C72", "status": "proved", "theorems": ["Verif.C72.answered", "Verif.C72.started"], "note": "For every history without loss of the client in which the message ids can be encoded."},
 {"property": "C73", "status": "partial", "theorems": ["Verif.C73.kept_partial", "Verif.C73.octets_unprotected", "Verif.C73.octets_removed", "Verif.C73.respelled_removed", "Verif.C73.root_refused"], "note": "False for names and values given as octets (octets_unprotected, octets_removed) and for other spellings of the name (respelled_removed). Proved for all sequences of edits that spell the attributes of the RDN as the DN does."},
 {"property": "C74", "status": "partial", "theorems": ["Verif.C74.dirty", "Verif.C74.absent", "Verif.C74.fetched_some_partial", "Verif.C74.fetched_all_partial", "Verif.C74.stale", "Verif.C74.twin", "Verif.C74.dirty_late"], "note": "False for attributes the server no longer has (stale) and for names given in another form than the entry has (twin). Proved: an entry with edits is not fetched; without exactly one result nothing changes; fetched attributes get the returned values, others stay."},
 {"property": "C75", "status": "proved", "theorems": ["Verif.C75.search"], "note": "Directories built by requests other than ModifyDN; filters that can be evaluated on the entries in scope; entries with ASCII attribute names listed once and values of one kind; DNs that can be written as text; one request on the connection."},
 {"property": "C76", "status": "proved", "theorems": ["Verif.C76.modify_answered", "Verif.C76.commit", "Verif.C76.exists_accepted", "Verif.C76.rdn_removed", "Verif.C76.left_empty", "Verif.C76.not_deletable"], "note": "End to end through Syntax.edit/commit, Client, the wire, Server.serve and back. The remaining theorems are witnesses of where the server departs from RFC 4511 outside the statement."},
 {"property": "C77", "status": "partial", "theorems": ["Verif.C77.renamed_partial", "Verif.C77.keeping_old_refused", "Verif.C77.missing_entry", "Verif.C77.missing_parent", "Verif.C77.failed_not_undone", "Verif.C77.renamed_not_deletable"], "note": "renamed_partial covers the first rename of a leaf to a free name. Missing: entries with entries below them, taken names, moves below itself, later renames - there the code loses entries (C25). That a refused rename changes nothing is false: failed_not_undone; a renamed entry cannot be deleted: renamed_not_deletable."},
 {"property": "C78", "status": "proved", "theorems": ["Verif.C78.added"], "note": ""},
 {"property": "C79", "status": "partial", "theorems": ["Verif.C79.compared_partial", "Verif.C79.serve_compare", "Verif.C79.undecodable_value"], "note": "For values in UTF-8. A value that is not UTF-8 is answered with code 80 even where the entry has it (undecodable_value)."},
 {"property": "C80", "status": "partial", "theorems": ["Verif.C80.sent_partial", "Verif.C80.only_partial", "Verif.C80.search_by_text_partial", "Verif.C80.high_escape", "Verif.C80.empty_refused"], "note": "For texts without tabs whose escapes are in ASCII. The code reads an escape as the character of that code, not as an octet (high_escape), and refuses empty values (empty_refused)."},
 {"property": "C81", "status": "partial", "theorems": ["Verif.C81.same_partial", "Verif.C81.accent", "Verif.C81.order_raises", "Verif.C81.substring_raises"], "note": "For presence and equality tests with ASCII values under and, or, not. False for values outside ASCII (accent); order and substring tests of octets raise TypeError in the process that parsed the text (order_raises, substring_raises)."},
 {"property": "C82", "status": "partial", "theorems": ["Verif.C82.granted_iff", "Verif.C82.bind_exchanged", "Verif.C82.logs_in_partial", "Verif.C82.ambiguous", "Verif.C82.empty_password", "Verif.C82.octets_name", "Verif.C82.star", "Verif.C82.unauthorized_iff"], "note": "logs_in_partial covers the default search and names without filter syntax; other names may mean other searches (star). A server that keeps to the size limit makes the first of several entries be let in (ambiguous). Names given as octets are looked for in Python's notation (octets_name), and an empty password is sent on (empty_password)."},
 {"property": "C83", "status": "partial", "theorems": ["Verif.C83.granted_iff", "Verif.C83.passed_on_iff", "Verif.C83.refused_iff", "Verif.C83.stopped", "Verif.C83.selects_iff", "Verif.C83.stamp_le_iff", "Verif.C83.service_partial", "Verif.C83.anonymous_intercepted", "Verif.C83.no_services", "Verif.C83.error_stops", "Verif.C83.local_time", "Verif.C83.owner_respelled"], "note": "The decision is proved for any proxied server; service_partial is one service with the library's own server over the network. Not so: anonymous binds are intercepted, without services every bind is an error, an error of one service hides the later ones, the time is local but labelled UTC, the owner is compared as a string."},
 {"property": "C84", "status": "partial", "theorems": ["Verif.C84.loads_partial", "Verif.C84.loaded_partial", "Verif.C84.refused_partial", "Verif.C84.loaded_iff_partial", "Verif.C84.skipping_partial", "Verif.C84.roundtrip_partial", "Verif.C84.lost_silently", "Verif.C84.nothing_silently", "Verif.C84.header_silently", "Verif.C84.empty_raises", "Verif.C84.twin_loaded"], "note": "Proved for all texts in which equal RDNs are spelled alike. Missing: other texts, where entries with equal names are both put into the tree (twin_loaded). The Deferred does not fire if the connection is lost or the text has no entries (lost_silently, nothing_silently); an empty file raises (empty_raises)."},
 {"property": "C85", "status": "partial", "theorems": ["Verif.C85.committed_partial", "Verif.C85.not_committed_partial", "Verif.C85.stopped_partial", "Verif.C85.modified_partial", "Verif.C85.refused_unchanged", "Verif.C85.answer_regardless", "Verif.C85.success_unstored"], "note": "The last sentence fails: commit turns every exception into False, the server does not look at it and answers success (answer_regardless for all requests, success_unstored with a witness). The rest is proved for DNs without slashes whose text parses back, on well-formed file systems; modified_partial also for attribute names fit for LDIF, lines within the parser's limit, deleted values that are UTF-8 and names of files not taken by directories."},
 {"property": "C86", "status": "partial", "theorems": ["Verif.C86.renamed_partial", "Verif.C86.refused_unchanged", "Verif.C86.answer_regardless", "Verif.C86.overwritten", "Verif.C86.stale", "Verif.C86.torn_apart", "Verif.C86.below_leaf"], "note": "renamed_partial: if the new name is free, the new superior has a directory, the attributes of the new RDN are present and have just the values of the old RDN, and no renaming fails, the property holds but that a failing commit leaves the old values (the answer does not depend on it: answer_regardless). Without these conditions the property fails: overwritten, stale, torn_apart, below_leaf. DNs without slashes whose text parses back, well-formed file systems, lines within the parser's limit."},
 {"property": "C87", "status": "partial", "theorems": ["Verif.C87.found_partial", "Verif.C87.of_server", "Verif.C87.nested_either", "Verif.C87.unreadable", "Verif.C87.fails"], "note": "A naming context that contains the DN is given, and none exactly if there is none; it is the nearest if no naming context is within another. Otherwise the first in the order of a set is given (nested_either). of_server: the whole exchange with the library's server."},
 {"property": "C88", "status": "partial", "theorems": ["Verif.C88.outside", "Verif.C88.within_partial", "Verif.C88.versions", "Verif.C88.extensions_unlisted", "Verif.C88.extensions_listed", "Verif.C88.root_renamed", "Verif.C88.respelled", "Verif.C88.unasked"], "note": "within_partial: as long as no entry was renamed (Built); the root can be renamed, and then entries are outside the naming context (root_renamed). The root DSE is given for one spelling of objectClass only (respelled) and whatever attributes are asked for (unasked)."},
 {"property": "C89", "status": "partial", "theorems": ["Verif.C89.roundtrip", "Verif.C89.decided", "Verif.C89.success_iff", "Verif.C89.deleted_refused", "Verif.C89.changed_partial", "Verif.C89.respelled"], "note": "Missing: other spellings of the DN of the bound user, which the server refuses (respelled); passwords are told apart up to collisions of the hash with the salt."},
 {"property": "C90", "status": "partial", "theorems": ["Verif.C90.session_partial", "Verif.C90.progress", "Verif.C90.moved_partial", "Verif.C90.added_iff", "Verif.C90.deleteDone_iff", "Verif.C90.moved_iff", "Verif.C90.stale", "Verif.C90.still_deleted", "Verif.C90.reused_dict", "Verif.C90.request_order"], "note": "Missing: the deletion of an entry that has entries below it is never answered by the server; RDNs must be spelled in one way throughout; moving entries with entries below them and later moves (C25, C77). stale, still_deleted and reused_dict show where the entry or the dict of the program is wrong afterwards."},
 {"property": "C91", "status": "partial", "theorems": ["Verif.C91.files_partial", "Verif.C91.written_partial", "Verif.C91.nothing_written", "Verif.C91.text_raises", "Verif.C91.header_missing", "Verif.C91.headerOnly_hangs", "Verif.C91.valueless_rejected", "Verif.C91.failures_ignored", "Verif.C91.diff_ends", "Verif.C91.patch_ends"], "note": "Whole chain from two files (files_partial) and from two trees (written_partial), for any segmentation and any set orders. Conditions: entries in an order that loads, RDNs and attribute names that compare equal are spelled alike, names in ASCII and fit for LDIF, values in UTF-8, no overlong line, every entry of the second file has a value. Full statement false: the difference of a tree with an entry without values is written but not read (valueless_rejected); the scripts themselves never write anything (nothing_written, text_raises, header_missing) and wait for good on a file with no entries (headerOnly_hangs); ldifpatch carries on after a failing operation (failures_ignored)."},
 {"property": "C92", "status": "partial", "theorems": ["Verif.C92.never_other_partial", "Verif.C92.transparent_partial", "Verif.C92.arrives_partial", "Verif.C92.critical_ignored", "Verif.C92.abandon_drops", "Verif.C92.starttls_differs"], "note": "Proved for sessions of requests that fit (Spec.Passable): no StartTLS, no abandon, no critical control, nothing after an unbind, moderate sizes. For critical controls, StartTLS and abandon requests the property fails; witnesses are proved. TLS towards the server and lost connections are not part of this model (C50 to C52 cover them)."},
 {"property": "C93", "status": "proved", "theorems": ["Verif.C93.first_iff", "Verif.C93.fetched", "Verif.C93.second_iff", "Verif.C93.fails", "Verif.C93.names_subentry", "Verif.C93.published", "Verif.C93.of_root"], "note": "For all answers with readable names, and end to end with the library's server. Of root: the root DSE of the library's server has no subschemaSubentry, so that a fetch at the empty DN always fails with an AssertionError (of_root)."},
 {"property": "C94", "status": "proved", "theorems": ["Verif.C94.read_back", "Verif.C94.one_found"], "note": "Composition of C75 and C76. Limits in the hypotheses: values are UTF-8 (C76 not_deletable), edits make sense (nothing is added that is there), the changed entry is of moderate size."},
 {"property": "C95", "status": "proved", "theorems": ["Verif.C95.free_number", "Verif.C95.guess", "Verif.C95.any_server", "Verif.C95.fails"], "note": "End to end with this library's server, composed from C53 and C75; each guess is one exchange, the directory does not change meanwhile. Values of the attribute are octets. any_server: with servers that heed the size limit the answer is the same, because the client does not notice the error (C52)."},
 {"property": "C96", "status": "partial", "theorems": ["Verif.C96.follows_edits_partial", "Verif.C96.number_set", "Verif.C96.late_start", "Verif.C96.deleted_raises", "Verif.C96.added_unread", "Verif.C96.spelling_unnoticed", "Verif.C96.late_samba"], "note": "Proved for entries of text whose numbers are spelled uidNumber and gidNumber where they are set or deleted, for edits that leave the derived attributes alone; exceptions do not break it. The full statement is false: another spelling is not noticed (spelling_unnoticed), and the sambaAccount filler ignores numbers that were there before it (late_samba; the sambaSamAccount filler catches up, late_start)."},
 {"property": "C97", "status": "partial", "theorems": ["Verif.C97.new_account_partial", "Verif.C97.started", "Verif.C97.numbered", "Verif.C97.fetched_refused"], "note": "Proved for entries that are made of text. The code asks for both numbers at the same time over one connection; in the theorem each guess is an exchange of its own. The statement is false for entries that a search has brought: their values are octets, and every filler refuses them (fetched_refused). That the number is still free when the account is added is not claimed: nothing reserves it."},
 {"property": "C98", "status": "partial", "theorems": ["Verif.C98.own_answers_partial", "Verif.C98.all_answers_partial", "Verif.C98.own_deferred_partial", "Verif.C98.abandon_drops"], "note": "For the requests of Spec.Passable, made with send, bind and, for searches, the two methods with handlers. Fails with an abandon request: the server answers it and the client drops the connection (abandon_drops)."},
 {"property": "C99", "status": "partial", "theorems": ["Verif.C99.one_order_partial", "Verif.C99.all_handled_partial", "Verif.C99.real_time_partial"], "note": "Linearizability of the server for several clients. The requests are those of Spec.Passable, judged in the state in which they are handled, made with send, bind and (for searches) send_multiResponse and send_multiResponse_ex. With abandon requests it fails, as C98.abandon_drops shows for one client. Missing: the other requests, StartTLS, connections that come and go."}
]}
