# Design: machine-checked model of ldaptor

Lean 4.33.0 project in `lean/`.  The Python code in /repo is modelled function by function as total Lean
functions; Python exceptions are values (`Except PyErr`), bytes are `List UInt8`, text is `List Char`.
Properties (see `properties.jsonl`) are stated in their own files against small specifications.

## Plan per property

* **C01** BER integers round-trip and are minimal - `Verif/Ber`: `int2ber`, `ber2int` over `Int`/`List UInt8`; round trip + minimality by induction on the byte loop.
* **C02** BER length octets round-trip and are self-delimiting - `int2berlen`, `berDecodeLength`; round trip with arbitrary suffix.
* **C03** Decoding consumes exactly one element and ignores what follows - `berDecodeObject` over a context type; prefix determinism by induction on fuel.
* **C04** A partially received message is always reported as incomplete - strict prefixes of encoded frames; by case on where the cut falls.
* **C05** Unknown elements inside a structure are skipped without disturbing the others - `berDecodeMultiple`; insertion lemma by induction.
* **C06** Every LDAP message survives the wire - `Verif/PureLdap`: dynamic object model of every message class with the decoding-context chain; `read (decode (toWire (build m))) = m`, filters by structural induction.
* **C07** How TCP splits the stream does not change what the peer handles - `dataReceived` loop as a function buffer x segment -> buffer x handled; counterexample for unknown tags, partial theorem for well-formed streams.
* **C08** A completely received malformed message does not stall the connection - expected false (nested insufficient-data is swallowed); negation with witness.
* **C09** DN text is stable under parse and print - `Verif/Dn`: text as `List Char`; induction over escape/unescape/split.
* **C10** A DN built from components round-trips through its text form - same model, printing direction.
* **C11** DN containment is the suffix order - `contains` as list-suffix; arbitrary lower-casing function.
* **C12** Equal DNs hash equally - expected false; negation with witness, partial for same spelling.
* **C13** DN ordering is a strict total order consistent with equality - expected false; negation with witness.
* **C14** Search filters round-trip through their text form - `Verif/FilterText`: recursive-descent model of the pyparsing grammar.
* **C15** Escaped values cannot change a filter's structure - corollary of the value grammar lemma for `escape`.
* **C16** Identity search is immune to filter injection - expected false; negation with witness.
* **C17** Filter evaluation follows boolean semantics - `Verif/Match`: evaluation function against a denotational spec.
* **C18** Substring filters match exactly the values with that shape - expected false; two witnesses, partial theorems for the correct fragment.
* **C19** A password that was set is accepted, and only it - hash abstracted as any function with 20-byte output; base64 model.
* **C20** Applying the difference of two entries turns one into the other - attribute maps as association lists; expected false for removed attributes; partial: equal up to empty attributes.
* **C21** An attribute never holds the same value twice - attribute value set with text/bytes elements.
* **C22** A rejected modification leaves the entry unchanged - expected false; witness.
* **C23** The in-memory tree stays consistent - `Verif/InMemory`: heap of nodes with parent/children pointers; invariant by induction over histories.
* **C24** Lookup finds exactly what was added and not deleted - refinement of the heap to a finite map.
* **C25** Renaming moves the entry - expected false; witnesses.
* **C26** Search returns exactly the matching entries in scope, each once - pure tree view of the heap; enumeration = preorder; search = filter of it.
* **C27** A tree difference replays to the other tree - both trees as heaps; each operation as a change of the entries by name; induction over the depth. Partial: false if RDNs are respelled, if siblings differ in case only, and for attributes that go away.
* **C28** Base64 values in LDIF decode to the original bytes - base64 encode/decode model.
* **C29** Entries survive LDIF serialisation - line protocol model and round trip.
* **C30** LDIF parsing does not depend on how the input is chunked - chunking lemma for the line splitter.
* **C31** Truncated LDIF input is detected - expected partly false.
* **C32** LDIF change records round-trip - change-record state machine.
* **C33** Storing an entry on disk is atomic at every crash point - file-system operations as a trace; crash = any prefix with partial last write.
* **C34** Storing entries never touches files outside the tree directory - path model; expected false for '/' in RDN.
* **C35** A deleted on-disk entry is gone - expected false; witness history.
* **C36** Outstanding requests never share a message id - counter.
* **C37** Each response reaches exactly the request it answers, once - client state machine over event histories; invariant.
* **C38** Losing the connection fails every pending request exactly once - same.
* **C39** StartTLS only happens on an idle connection and after the server agreed - same.
* **C40** Every request gets exactly one final response carrying its id - handler outcomes as data; dispatch model.
* **C41** Unrecognised critical controls block the operation - decision logic.
* **C42** A connection is authenticated only as the user of its last successful bind - session state machine; failed bind keeps old user (expected false part).
* **C43** A user can change only their own password - decision logic + invariant.
* **C44** The merger sends one final answer, successful iff some server succeeded - merger state machine over interleavings.
* **C45** The proxy preserves response order for every timing of its hooks - hook completion schedules.
* **C46** Requests queued before the proxy is connected are forwarded in order - backlog machine.
* **C47** The proxy releases a request after its final response - expected false; witness.
* **C48** Proxy connections do not interfere with each other - expected false; witness.
* **C49** Pending edits replay to the local view - journal invariant by induction over edits.
* **C50** Commit and undo keep local and server state in step - in-flight commit machine; expected false part.
* **C51** A multi-step password change stops at the first failure - fold over steps.
* **C52** A size-limit error from the server is reported unless asked otherwise - expected false; witness.
* **C53** The free-number search returns a free number - bisection with termination measure.
* **C54** Netmask conversions are inverse - bit-list arithmetic.
* **C55** Samba user and group ids never collide - arithmetic.
* **C56** Server override lookup picks the nearest enclosing entry - suffix search.
* **C57** Schema descriptions round-trip - tokeniser and printers of all four kinds (object classes, attribute types, syntaxes,
  matching rules); valid elements, and what the parser returns.
* **C58** Result codes map to the right error and back - table lookup.
* **C59** A modification changes only the attribute it names - patch on association lists.
* **C60** Domain name of a DN - maximal DC suffix.
* **C61** Reverse zone names - arithmetic on octets.
* **C62** Choice of server - decision table.
* **C63** Escaped values are grammatical - independent RFC 4514 grammar relation.
* **C64** No plaintext accepted after StartTLS - expected false; witness history.
* **C65** An extensible match without a rule - exact decision; the flag is expected to be ignored.
* **C66** The filter parser decides the grammar - independent grammar relation, soundness and completeness.
* **C67** A search over the wire returns exactly the matching entries with the attributes asked for - refinement, end to end from the request message to the response messages.
* **C68** Add and delete requests keep the directory in step with a finite map from DNs to attributes - refinement over whole connections.
* **C69** Everything written as LDIF is a record of the grammar of RFC 2849 - grammar as inductive predicates, theorems about each writer.
* **C70** Entries added on disk are found again - lookups as a function of what is found on the way; expected false for other spellings.
* **C71** A proxy forwards nothing for a client that is gone - state machines of both proxies; false during set-up, witnesses.
* **C72** A proxy answers each StartTLS once, with success only the first time - invariant over all histories.
* **C73** No edit removes the name of an entry - induction over edits; false for octets and other spellings, witnesses.
* **C74** Fetching shows what the server returned and never drops edits - false for attributes the server has no more, witnesses.
* **C75** A search through the library's own client and server finds exactly the matching entries - composition of `Client.call`, the wire, `Conn.feed`, `Server.serve` and `ClientSearch.run`, for all segmentations.
* **C76** A commit through the library's own client and server: the server's entry is what the program sees - composition of `Syntax.edit`, `Syntax.commit`, the wire, `Server.serve`, `Delta.patch` and `_commit_success`, for all edits and segmentations; the server's modify as RFC 4511 4.6.
* **C77** Rename requests over the wire - composition of `Server.serve` with `Tree.move`; partial, the code loses entries and does
  not undo failed renames.
* **C78** An add request stores exactly the values it gives - decision logic over arbitrary request attributes.
* **C79** Compare requests over the wire - composition of `Server.serve` with `Match.eval`; partial, values must be UTF-8.
* **C80** From filter text to the octets sent and the entries found - refinement of an octet-level RFC 4515 grammar
  (`Spec/FilterOctets`) and composition with C75; partial, escapes above ASCII are misread.
* **C81** A parsed filter evaluated locally and after it was sent - equivalence of two evaluations; partial.
* **C82** Logging in by name and password, over the network - decision logic and composition of search and bind; partial.
* **C83** Binding through the service proxy - decision logic over lists of services, meaning of the filter, order of timestamps; partial.
* **C84** Loading LDIF into memory - refinement to a list of entries, decision logic, round trip with writing; partial.
* **C85** Commits and modify requests on disk - crash states and failing system calls over the file system model, refinement to RFC 4511; partial (the answer ignores failures).
* **C86** Modify DN requests on disk - refinement of the two renamings, the change of the values and the commit to RFC 4511, 4.9, with a frame for every other entry; partial (names taken, attributes with several values, failing renamings).
* **C87** Naming contexts - decision logic of the client over every root DSE, and the whole exchange with the library's server; partial (naming contexts within each other).
* **C88** What the root DSE claims - decision logic of the server for each of its three attributes, invariant of the tree for the naming context; partial (renamed roots, spelling of `objectClass`, attributes asked for).
* **C89** Changing a password through client and server - round trip of the request, decision logic of the whole exchange, and who can bind afterwards; partial (other spellings of the DN).
* **C90** Adding, deleting and moving entries through the client - refinement of whole sessions of client and server to the finite map of C24, with progress; the answers over all responses; partial (inner entries, spelling of RDNs), with what the entry of the program shows wrongly afterwards.
* **C91** From two LDIF files to the second one by way of the first and the written difference - composition of C84, C27 and C32 over all segmentations and set orders; partial (spelling, entries without values), with theorems about why the two scripts never get that far.
* **C92** Client, proxy and server on one network: the client cannot tell the proxy from the server - refinement between the proxied system (three streams of octets, any segmentation and interleaving) and the server alone; partial (StartTLS, abandon, critical controls), with witnesses.
* **C93** fetchschema: what is fetched is what is published - characterisation for any server's answer, and end to end with the library's server.
* **C94** Search, edit, commit, search again: the second search shows what the program sees - composition of C75, C49, C76 through client, wire and server.
* **C95** `getFreeNumber` against this library's server gives a number no entry has - composition of C53 and C75, one exchange for each guess.
* **C96** The attributes that the Samba fillers derive follow the Unix numbers - an invariant of entries, kept by each edit, with the fillers told
  before or after the change as the code has it.
* **C97** The posixAccount filler gives a new account a shell and free numbers - composition of C95 and C96.
* **C98** Several requests under way at once: each Deferred or handler is told what the server answers to its own request - invariant of
  client, network and server.
* **C99** Several clients of one server: what they see is what they would see had their requests been handled one at a time, in one order
  that respects time (linearizability) - invariant of all histories, built on that of C98.
- C100: what is logged of messages (`repr`): one printable line whatever the octets, no password; and a server with `debug` on serves like one without.  Partial: a bind request with a version that is no number makes the logging raise.
- C101: changing a password everywhere (`setPassword`: the extended operation, then the Samba hashes), through the client, the network and the server.  Partial: passwords given as octets that are cut within a character, unsent changes, and hidden object classes let the password and the hashes part; the search for the classes is a parameter.
- C102: equality, inequality and hashes of messages and filters.  Partial: an and equals the or of the same parts, nested order can count, `!=` is not the negation of `==`, some comparisons raise, sets have no hash.
- C103: the PowerDNS backend: its queue against a specification with one slot for each line, and what it searches for.  Partial: names are not escaped, case counts, octets fail, and one exception while connecting blocks it for ever.
- C104: the zone file exporters: what a run does to files, which net an address goes to, and what is written for hosts.  Partial: every net makes a run fail.
- C105: the DHCP exporter: which net and which group an address is printed in, for every order of sets.  Partial: octets are not read.
- C106: options and configuration: which server is chosen for a DN by all of them together.  Partial: DNs compared by spelling.
- C107: the passwd exporter: its output reads back as the accounts found.  Partial: entries of text without separators.
- C108: the password generator and the tool that uses it.  Partial: text; octets are refuted.
- C109: members, hashes and order of entries.  Partial: canonical case; comparisons of pairs other than `<` are refuted.
- C110: the tool that finds servers: what it asks for, prints and returns, for replies in every order.  Partial: DNs with a domain.

## Trusted base

* The Lean 4 kernel and the axioms `propext`, `Classical.choice`, `Quot.sound`.  None of our own, no `sorry`, no
  `native_decide`, no `bv_decide`.  The axioms of every theorem named in MANIFEST.json are listed at the end of this file.
* The hand translation from Python to Lean; each definition cites the file and lines it mirrors and says what it simplifies.

### What is modelled

| model file | code |
| --- | --- |
| `Model/Ber` | protocols/pureber.py: integers, lengths, decoding of objects and sequences, the decoding contexts |
| `Model/Ldap` | protocols/pureldap.py: every message class, both directions |
| `Model/Conn` | ldapserver.py / ldapclient.py `dataReceived`: the receive buffer and the dispatch loop |
| `Model/Text`, `Model/PyStr`, `Model/Utf8` | Python `str`/`bytes` values, `_encoder.py`, UTF-8 |
| `Model/Dn` | protocols/ldap/distinguishedname.py |
| `Model/FilterText`, `Model/Identity` | ldapfilter.py; config.py `getIdentitySearch` |
| `Model/FilterObj` | ldapfilter.py: the pureldap objects the parse actions build, as they are written out and as they are evaluated in the same process |
| `Model/Checker` | checkers.py `LDAPBindingChecker`: the search for a name, the bind, and the end of the Deferred; config.py:105-118. Not opening the connection, not the configuration file |
| `Model/ServiceBind` | svcbindproxy.py `ServiceBindingProxy`: bind requests. The proxied server is a pair of functions; not making the connection, not the messages |
| `Model/LoadLdif` | inmemory.py:128-200 `InMemoryLDIFProtocol` and `fromLDIFFile`, with the hooks `lookupFailed` and `addFailed` as functions of the failure and the entry |
| `Model/LdifTreeCommit` | ldiftree.py:300-312 `commit`; ldapserver.py:401-416 `handle_LDAPModifyRequest` and delta.py:157-192 on a tree on disk. Which system calls raise `OSError` is an argument; one that raises has no effect, but for a write, which may have written some octets |
| `Model/LdifTreeMove` | ldiftree.py:314-363 `_move`, `move`, and of `os` `rename`, `path.dirname`, `path.splitext` as used there; ldapserver.py:368-397 `handle_LDAPModifyDNRequest` on a tree on disk. Whether each renaming raises `OSError` is an argument; one that raises has no effect |
| `Model/NamingContext` | ldapsyntax.py:590-606 `_cbNamingContext_Entries`, `namingContext`; the entry that is made is modelled by its DN |
| `Model/PasswordRequest` | pureldap.py:1538-1606 `LDAPPasswordModifyRequest` (what it writes); ldapsyntax.py:436-464 `setPassword_ExtendedOperation`, `_cbSetPassword_ExtendedOperation` |
| `Model/ClientTree` | protocols/ldap/ldapsyntax.py:350-434 `addChild`, `delete`, `move` of `LDAPEntryWithClient` and `_cbAddDone`, `_cbDeleteDone`, `_cbMoveDone`. The values of an attribute are a list of texts or octets; the attributes given are a dict that the call may change. Referrals are not kept by the decoder |
| `Model/Entry`, `Model/AttributeSet`, `Model/Delta` | entry.py, attributeset.py, delta.py, `_encoder.py` |
| `Model/Match` | entryhelpers.py `MatchMixin` |
| `Model/Base64`, `Model/Password` | the base64 codec used by ldif.py and entry.py, `sshaDigest`, `bind` |
| `Model/Decimal` | `int()` and `str()` on integers |
| `Model/NumberAlloc` | numberalloc.py `freeNumberGuesser` |
| `Model/Dns` | dns.py |
| `Model/Samba` | autofill/sambaAccount.py, sambaSamAccount.py `notify` |
| `Model/Errors` | protocols/ldap/ldaperrors.py |
| `Model/Connector` | protocols/ldap/ldapconnector.py: override lookup and choice of server |
| `Model/Client` | protocols/ldap/ldapclient.py `LDAPClient`: message ids, table of waiting requests, send, responses, loss, StartTLS, unbind, as a machine driven by events |
| `Model/Server` | protocols/ldap/ldapserver.py `LDAPServer`: every handler, serving the in-memory tree; entry.py `items` |
| `Model/ServerBase` | ldapserver.py `BaseLDAPServer.handle`, `queue` with arbitrary handlers that may end at any time |
| `Model/Merger` | protocols/ldap/merger.py `MergedLDAPServer`, with its connections to the servers |
| `Model/ProxyBase` | protocols/ldap/proxybase.py `ProxyBase` with its connection to the proxied server; the two hooks are parameters that may answer at once, later, or fail |
| `Model/Proxy` | protocols/ldap/proxy.py `Proxy`, any number of connections with the list of waiting requests of the class, each with its connection to the proxied server |
| `Model/Syntax` | protocols/ldap/ldapsyntax.py `JournaledLDAPAttributeSet` and, of `LDAPEntryWithClient`, creation, item access, edits, `undo`, `commit`, `fetch`, `delete` and the handling of their answers. Not modelled: sets kept by the program after they were taken from the entry, methods of `set` the class does not override, `bind`; `addChild` and `move` are in `Model/ClientTree` |
| `Model/SetPassword` | protocols/ldap/ldapsyntax.py `setPassword`, `_setPasswordAll`, `_cbSetPassword`, `_cbSetPassword_one`, `_ebSetPassword_one`. The steps (`setPasswordMaybe_…`) are parameters: any functions on the state of the world, with any outcome |
| `Model/ClientSearch` | protocols/ldap/ldapsyntax.py `search` (what becomes of the responses), `_cbSearchMsg`, `_cbSearchEntry`. Not modelled: cancelling the search; callbacks that use the client |
| `Model/Session` | how `LDAPServer.handle` and `LDAPClient.handle` are driven by `dataReceived`, and `_cbSearchMsg` as the handler of a request; the modify request that `commit` builds (ldapsyntax.py:338-348, delta.py:21-36); the search request of `search` (ldapsyntax.py:676-712). One connection, one request |
| `Model/Ldif` | ldif.py, ldifprotocol.py, ldifdelta.py; entry.py `toWire`; delta.py `asLDIF`; twisted's LineReceiver as used there |
| `Model/LdifTree` | ldiftree.py: `_get`, `_putEntry`, `_put`, and of `LDIFTreeEntry` `_load`, `_sync_children`, `lookup`, `_addChild`, `_delete`, `_deleteChild`, on a model of a file system; not comparisons (`commit` and `_move`: see `Model/LdifTreeCommit` and `Model/LdifTreeMove`) |
| `Model/Tree` | inmemory.py and entryhelpers.py tree walking, as a heap of nodes indexed by numbers |
| `Model/LdifPatch` | delta.py `asLDIF` of the three operations in turn, ldifdelta.py:158-171 `fromLDIFFile`, _scripts/ldifdiff.py and _scripts/ldifpatch.py `main`, `output`, `error`. Not modelled: options, messages on standard error |
| `Model/DiffTree` | entryhelpers.py `DiffTreeMixin`, delta.py `patch` of the three operations; the sort order of RDNs and the order of value sets are parameters; RDNs that compare equal but are spelled differently are taken to have different hashes |
| `Model/Schema` | schema.py: `_parse` and `toWire` of `ObjectClassDescription`, `AttributeTypeDescription`, `SyntaxDescription`, `MatchingRuleDescription`; not `__repr__` and the comparison operators |
| `Model/ProxySession` | `ProxyBase` between a client and an `LDAPServer` on two connections (proxybase.py:19-72, 98-185; ldapclient.py:54-65, 183-211; ldapserver.py:30-60, 106-128); not modelled there: TLS towards the server, loss of connections (in `Model/ProxyBase`), other clients of the server |
| `Model/FetchSchema` | fetchschema.py:7-64, on top of `Model/ClientSearch`, `Model/NamingContext` (reading a DN from a value) and `Model/Schema`; messages of exceptions are left out; the order in which the values of a set are iterated is not modelled (results are told up to order) |
| `Model/FreeNumber` | numberalloc.py:38-57, on top of `Model/NumberAlloc` and `Model/ClientSearch` |
| `Model/Autofill` | ldapsyntax.py:779-798 `LDAPEntryWithAutoFill`, autofill/posixAccount.py, sambaAccount.py, sambaSamAccount.py, on top of `Model/Syntax` and `Model/Samba`; calls of `notify` nest to a given depth; that `start` may return a Deferred is not in the model |
| `Model/Concurrent` | ldapclient.py:54-65 and ldapserver.py:30-41 `dataReceived` at the two ends of a connection while requests are under way, on top of `Model/Client`, `Model/Server`, `Model/Conn`; one client, a connection that stays up |
| `Model/Shared` | several connections of `Model/Concurrent` whose server ends share the tree of the factory (ldapserver.py:135, 153 ff. `IConnectedLDAPEntry(self.factory)`); connections that are there from the beginning |
| `Model/Log` | `__repr__` of the classes of pureber.py and pureldap.py for decoded objects; `LDAPServer.handle` with `debug` on (the lines for the responses are left out) |
| `Model/SambaPassword` | ldapsyntax.py:445-531, 572-584 (the two steps), samba/smbpassword.py; passlib's hash functions, `config.useLMhash()` and `str.upper` are parameters; what comes back from the server is a parameter (`Net`), tied to the server by `Works`; the unknown style (RuntimeError) is left out |
| `Model/Equality` | pureber.py:117-132, pureldap.py:506-515; the shortcut for the same object is left out; `sorted` is a stable insertion sort; the hash of byte strings is a parameter |
| `Model/PdnsPipe` | _scripts/ldap2pdns.py:24-232 `PdnsPipeProtocol`, from a line received to the lines sent; Twisted's `LineReceiver`, `main` and the client are not modelled: connections and searches end as events say; `repr` of text, tracebacks and `sys.argv[0]` are parameters |
| `Model/Zones` | _scripts/ldap2dnszones.py:9-106, 129-257, 276-351 and _scripts/ldap2maradns.py:8-218: nets, hosts, the files of a run and its exit status; the filters, what goes to standard error, and failures of the operating system are left out; `int`, `inet_aton` and `os.getpid()` are parameters |
| `Model/Dhcp` | _scripts/ldap2dhcpconf.py:24-256, 287-409, 440-444: reading nets, hosts and groups, placing addresses, and the text printed; objects are positions in lists, the order of sets is a parameter, as are `int` and `inet_aton`; filters, connecting and standard error are left out |
| `Model/Options` | usage.py:37-115, config.py:17-103: service locations, scope and bind options, overrides of the file, getters and copies; Twisted's and configparser's parsing are left out; `int` of Model/Decimal |
| `Model/Passwd` | _scripts/ldap2passwd.py:8-27: the line of an entry, given as what `items` returns; connecting, filter and options are left out |
| `Model/Pwgen` | generate_password.py:9-35, _scripts/passwd.py:23-76: reading the output of pwgen, and what becomes of each DN; starting the process, connecting and `setPassword` (a parameter here) are left out |
| `Model/Members` | entry.py:243-253, ldiftree.py:290-298, distinguishedname.py:152-159, 219-226: members, hashes and comparisons; arguments of other types are left out |
| `Model/FindServer` | _scripts/find_server.py:8-60; the resolver is left out, its replies are a parameter |

### Assumptions built into the model

* Lower-casing is a parameter (`Unicode` tables); where needed the theorems assume `Sane U` (facts true of Python's tables).
  `asciiTables` is the ASCII instance used in witnesses.
* SHA-1 is a parameter (any function with 20-byte output); salts are a parameter.
* Python `set` iteration order is the insertion order of the model list; theorems do not depend on it unless they say so.
* `dict` iteration order is insertion order.
* The pyparsing grammar of ldapfilter.py is modelled by a recursive-descent parser written after reading the grammar; the
  behaviour of pyparsing itself (whitespace skipping, longest/first match) is trusted as documented in `Model/FilterText`.
* Recursion depth limits, memory limits and interpreter faults are not modelled.
* A Deferred that has already fired is modelled as a plain result.
* The client machine takes one event at a time (the reactor is single-threaded); `callLater(0, ...)` is a queue of delayed
  steps; transport methods do not raise; handlers and callbacks of callers are arbitrary functions of what they receive.
* The server model handles a request in one step: every Deferred of the in-memory tree has already fired.  Python's own
  exception texts are a parameter.  Attribute names and values of requests that are not octet strings are taken to raise.
* twisted.protocols.basic.LineReceiver is modelled from its documented behaviour (twisted is not part of the repository): lines
  end at a newline, a line longer than 16384 octets raises since there is no transport.  `int()` of a version number accepts
  what `Decimal.toInt` accepts.
* The file system of the on-disk tree is a map from paths to files and directories, with the system calls the code makes.  There
  are no symbolic links, permissions, name limits, full disks or other processes; relative paths start at the root; the order
  of `os.listdir` is fixed.  A crash is the death of the process: it may come between any two calls or within a write, but calls
  that were made are not lost or reordered (as they may be when the power fails; the code never calls `fsync`).
* Twisted (reactor, transports, TLS), zope.interface and the Python standard library are not modelled beyond the
  functions named above.

## Where the code disagrees with the property

Each item is a theorem (a proof of the negation for a concrete witness) in `Verif/Props/`.

* **C06** present but empty SASL credentials are written like absent ones.
* **C07** a stray element of unknown tag makes the result depend on segmentation.
* **C08** a malformed nested element is taken for an incomplete one; the connection stalls.
* **C12** DNs equal up to case hash differently.
* **C13** the DN order is not transitive and `>` of attribute pairs does not terminate.
* **C14, C15** a tab in a value is lost in the text form of filters; so are some shapes the grammar has no text for.
* **C16** the identity search is open to filter injection.
* **C17** values that are not UTF-8 raise; the second spelling of an attribute name hides values.
* **C18** substring matching overlaps pieces and cuts the wrong length for a final piece.
* **C19** a corrupt stored digest raises instead of refusing.
* **C20** removed attributes stay; respelled attributes lose values; octets raise.
* **C21** values that are not UTF-8 are refused in some operations; construction and `update` admit duplicates in two forms.
* **C22** a rejected modification list leaves the first modifications applied.
* **C24** two spellings of one RDN make twins; a stale reference deletes another entry.
* **C25** after a move: entry cannot be deleted or moved, descendants are lost, existing entries are overwritten, a failed move
  is half done, a move below itself cuts the entry off.
* **C26** an entry on which the filter raises hides entries after it.
* **C27** a child respelled in the other tree makes replaying fail; siblings that differ in case only make the difference
  raise; an attribute that goes away is left without values.
* **C31** an entry of which only the first line is complete is dropped without an exception; the parser of the on-disk tree
  never reports truncation; an empty input is reported as truncated.
* **C32** the record of an added entry without values is rejected by the parser.
* **C34** a slash in a DN is a slash in the path: entries are stored and looked up outside the tree, and two DNs share a file
  (for which reason C33 speaks of each file for every DN, but of each DN only without slashes).
* **C35** the directory of an entry that once had children stays: the deleted entry is still found and listed, cannot be added
  and cannot be deleted.
* **C37** a response with an unknown id raises and takes the connection and everybody waiting on it down.
* **C39** (not part of the statement) other requests may be outstanding when TLS is switched on.
* **C40** deleting an entry that is not a leaf is never answered: the message of the exception is a DistinguishedName object,
  which cannot be encoded.  Abandon requests are answered.
* **C41** (not part of the statement) a critical control whose type is an integer is answered with `protocolError`.
* **C42** a failed bind leaves the connection bound as before; SASL credentials of two integers are taken for a password.
* **C43** (title) an unauthenticated modify request changes any password.
* **C53** with a `max` the search returns it without asking; with `max` below `min` it may loop forever.
* **C56** overrides are not found when spelled in another case, and not for DN texts that end in a comma.
* **C57** the parser accepts a matching rule with an empty list of names, whose text it refuses; one superior class in parentheses
  comes back as a list instead of a tuple; a reference with a space in it, or none at all, makes the text of an object class
  unreadable or means something else.
* **C58** errors for unknown codes have `resultCode` `None`.
* **C61** reverse zones of networks with masks shorter than 8 bits have all four octets.
* **C44** the merger forwards compare requests to every server and relays every answer; a request that one of the servers never
  finishes (its connection is lost) is never finished for the client.
* **C45** a response hook that fails, or gives a result that cannot be encoded, holds back all later responses of its request.
* **C46** a request hook that takes its time lets later requests overtake; a bind that arrives after the connection to the proxied
  server has failed is never answered.
* **C47** only LDAPSearchResultDone and LDAPBindResponse release a request: every other kind of request stays in the table of
  waiting requests for as long as the connection lasts.
* **C48** `Proxy.waitingConnect` is an attribute of the class, shared by all connections of the process. The link that comes up
  first empties it, and the requests of the other connections in it fail an assertion and are lost (`queue_lost`, `not_isolated`).
* **C71** `Proxy.connectionLost` asserts that the link is there. If the client goes earlier the assertion fails, the link is never
  closed and all requests are forwarded when it comes up (`proxy_forwards`, `proxy_open`). `ProxyBase` does the same if it uses TLS
  towards the server and the client goes during the handshake (`tls_forwards`).
* **C49** names given once as text and once as octets make two local attributes but one on the server (`other_kind`). A value that is
  not UTF-8 raises `UnicodeDecodeError` after it was recorded (`octets_fail`). Adding a value that is there and clearing an empty
  attribute are recorded, and a server must refuse them (`added_again`, `cleared_empty`).
* **C50** the answer to a commit empties the record, with all edits made in flight (`inflight_lost`). A second commit before the
  answer sends everything again (`sent_twice`). With text and octets in one attribute the answer to a commit that was carried out
  raises `TypeError` and the edits stay recorded (`mixed`), and `undo` empties the entry (`mixed_undo`).
* **C51** a step that fails with something else than an LDAP error (a lost connection, say) is not reported as a failed step, nor
  are the later ones as aborted: the caller gets the bare exception (`other_failure`).
* **C52** the size limit is never reported: with or without `sizeLimitIsNonFatal` the search ends successfully (`limit_swallowed`).
* **C59** replace and delete see text and octets as different.
* **C73** the check compares names and values of the DN, which are text, with those given, exactly: octets, as in all search results,
  and other spellings are not protected (`octets_unprotected`, `octets_removed`, `respelled_removed`). An entry with an empty DN
  refuses all removals with `IndexError` (`root_refused`).
* **C74** attributes that were asked for and that the server has no more keep their old values (`stale`); an attribute asked for with
  text is there twice (`twin`).
* **C77** a rename that is answered with an error (say, because the entry lacks an attribute of the new RDN) has already
  unlinked the entry: neither name finds it (`failed_not_undone`).  After a rename that succeeds, a request to delete the entry
  is answered with noSuchObject (`renamed_not_deletable`).
* **C79** a compare with a value that is not UTF-8 is answered with code 80, also where the entry has it (`undecodable_value`).
* **C80** `(cn=\c3\a9)` sends the four octets C3 83 C2 A9 in place of C3 A9 (`high_escape`); `(cn=)` is refused (`empty_refused`).
* **C81** parsed filters used in the same process, on entries with octets: values outside ASCII are not found up to case as they
  are after sending (`accent`); order and substring tests raise `TypeError` (`order_raises`, `substring_raises`).
* **C82** the checker takes a search that was cut off at the size limit for a complete one, so that of several entries of a name the
  first one's password lets in; a name given as octets is looked for as `b'joe'`; an empty password is sent to the server, which
  may take it for an anonymous bind; the name `*` means whoever has one.
* **C76** outside the statement the server departs from RFC 4511 4.6: it accepts the addition of a value that is there
  (`exists_accepted`) and the removal of the values of the RDN (`rdn_removed`); an attribute that lost its last value is still found
  by a presence filter (`left_empty`); a value that is not UTF-8 cannot be deleted (`not_deletable`).
* **C64** octets received in the clear together with the StartTLS answer are delivered as answers after TLS is on.
* **C65** the `dnAttributes` flag is ignored; octets match neither the DN nor text values; the type in the DN is compared exactly.
* **C66** a matching rule whose name begins with `dn` is refused; a tab in the text is read as blanks.
* **C69** the DN of an entry (and of an add record) is written without base64 whatever it contains; an entry without values is
  written as a lone DN.
* **C70** an entry of the on-disk tree is found only under the spelling of its DN in the file names; another spelling is neither
  found nor can it be added.
* **C83** `request.dn == ""` compares octets with text, so anonymous binds are not passed on by the service proxy; without
  services every bind is an error; errors of one service other than a wrong password, and ambiguous entries, end the attempts; the
  filter's time is local time labelled `Z`; the owner is compared as a string.
* **C84** The Deferred of `InMemoryLDIFProtocol` never fires if the connection is lost for another reason than being closed
  (`lost_silently`) or if the text has no entries (`header_silently`); an empty file raises out of `fromLDIFFile`
  (`empty_raises`). Two entries whose names differ in case only are both loaded, and one is never found (`twin_loaded`).
* **C85** `LDIFTreeEntry.commit` turns every exception into `False`, which nobody looks at: a modify request is answered with
  success although nothing was stored (`answer_regardless`, `success_unstored`).
* **C86** A modify DN request on disk whose new name is taken is answered with success and replaces the other entry
  (`overwritten`). If the entry has another value under the attribute that names it, it then has texts and octets there, which
  cannot be sorted for writing: success is answered, the entry keeps its old values under the new name (`stale`; for any failing
  commit `answer_regardless`). If the second renaming fails, the entries below are under the new name and the entry under the old
  one (`torn_apart`). A new superior without entries below it is refused (`below_leaf`).
* **C87** Of naming contexts that are within each other, `namingContext` gives the one that comes first in the order of a Python
  set, not the nearest (`nested_either`).
* **C88** A modify DN request for the root of a tree in memory succeeds: the root DSE then names a naming context that the other
  entries are not in; in the witness the entry below is returned by searches but found neither by its old name nor by one under the new root (`root_renamed`). `(objectclass=*)` at the
  empty DN is answered with noSuchObject (`respelled`). The root DSE is sent with all its attributes whatever attributes are
  asked for, though RFC 4512, 5.1 has them be returned only if requested (`unasked`).
* **C89** A user bound by another spelling of the DN who changes the password of that name is refused with
  `insufficientAccessRights`: the server compares the octets of the DN, not the name (`respelled`).
* **C90** After a successful `move` the entry of the program has the new DN, but still the values of the old RDN and not
  those of the new one (C90 `stale`).
* **C90** An entry counts as deleted as soon as the request is sent: if the server refuses, the program can do nothing more
  with it (C90 `still_deleted`). The deletion of an entry that has entries below it is refused and never answered, so the
  Deferred of `delete` does not fire (C90 `Follows.nonLeaf`, C40).
* **C90** `addChild` deletes `objectClass` from the dict it is given; a second entry added with the same dict has no object
  classes (C90 `reused_dict`).
* **C91** `ldifdiff` and `ldifpatch` never write anything: their files are opened for text, which the reader of LDIF refuses
  with a TypeError (C91 `text_raises`); and were they opened for octets, `ldif.header` does not exist (C91 `header_missing`,
  `nothing_written`). A file with a header and no entries makes them wait for good (C91 `headerOnly_hangs`).
* **C91** The difference may hold an entry without values; what is written for it is refused by the reader (C91
  `valueless_rejected`). `ldifpatch` does not look at whether an operation failed and applies the next (C91
  `failures_ignored`).
* **C92** A proxy drops the controls of requests: a critical control that the server refuses is not noticed through the proxy, and
  the request is carried out (C92 `critical_ignored`).
* **C92** The server answers abandon requests as unknown; the proxy's client half has no record of the id, raises a KeyError
  and drops the connection, and later answers never reach the client (C92 `abandon_drops`).
* **C92** StartTLS ends at the proxy (C92 `starttls_differs`).
* **C93** The root DSE of the library's server has no `subschemaSubentry`: `fetch` with the empty DN, its usual use, always fails
  there with an AssertionError (C93 `of_root`).
* **C96** The fillers compare attribute names with `==`: a number that is set as `UIDNUMBER`, or by an octet name, is changed and the
  identifiers derived from the old one stay (C96 `spelling_unnoticed`).  The `sambaAccount` filler does not look at numbers that are
  there when it is added, unlike that for `sambaSamAccount` (C96 `late_samba`, `late_start`).  Deleting a number raises an exception
  after it is gone (C96 `deleted_raises`); adding a value to a number without exactly one raises it after the change is on record
  but before it is made, so that the record and the entry differ (C96 `added_unread`).
* **C97** The fillers look for their object class as text, while the values of entries that come from a server are octets: `addAutofiller`
  fails with `ObjectMissingObjectClassException` on every such entry (C97 `fetched_refused`).
* **C98** An `LDAPServer` answers an abandon request (RFC 4511, 4.11: there is no response).  The client waits for no such answer; the
  `KeyError` costs it the connection with all requests under way (C98 `abandon_drops`).
- C100: `LDAPBindRequest.__repr__` formats the version with `%d` (pureldap.py:225); a bind request whose version is an octet string is answered with a protocol error, but with `debug` on the logging raises TypeError in `dataReceived` and the connection is lost (`debug_drops`).  `unsolicitedNotification` and `handleUnknown` log `repr` even with `debug` off; `Model/Server` leaves logging out and so assumes that this does not raise.
- C100: the length of a bind password is logged (`length_shown`), and passwords that are written as attribute values with modify and add requests, or compared, are logged in the clear (`value_shown`).
- C101: `nthash` cuts the password after 128 octets or characters (smbpassword.py:8), and passlib decodes octets: a password given as octets whose first 128 are not UTF-8 - also one that is UTF-8, but cut within a character (`cut`) - raises UnicodeDecodeError after the server has already changed the password; the Samba hashes stay those of the old one (`half_octets`).
- C101: `setPasswordMaybe_Samba` fetches the object classes of an entry of which they are not known; with unsent changes that raises ObjectDirtyError after the password was changed (`half_dirty`), and if the server does not show the classes, it asks for them without end (`endless`, ldapsyntax.py:516-522).
- C101: the hashes are set under names that are text; an entry found by a search has them under octets, so that the entry of the client then has the old and the new hash side by side (`changed_partial`, example).
- C102: `LDAPFilterSet.__eq__` compares the lengths of the encodings and the sorted parts, not the tags: an and equals the or of the same parts (`and_or`, pureldap.py:506-515); they hold of different entries (`and_or_differ`).
- C102: the inherited `__ne__` compares encodings, so that two sets can be equal and unequal at once (`both_equal_and_not`, pureber.py:125-129); sets have no hash (`no_hash`).
- C102: the order of parts within a negation counts, and for some sets within sets too, because parts are paired by their encodings (`nested`).  A plain `BERSequence` next to filters makes equality not transitive (`not_transitive`).
- C102: comparing a set with a presence test or a negation whose encoding is as long raises TypeError (`raises`).  ldapserver.py:308 makes such a comparison: a base search at the empty DN with for example `(&(cn=abc))` is refused with protocolError (`refused`, `refused_search`).  The model of the server had compared encodings there until C102 and was corrected.
- C103: `question_A` and `question_PTR` put the name asked for into the text of a filter as it is: a DNS question for `*.example.com` gives the addresses of all hosts (`star`), and a question can be made that tells whether any filter holds of a host (`injected`, ldap2pdns.py:122, 171).  Other syntax makes the answer a failure (`broken`).
- C103: names are compared with case (`upper_case`, ldap2pdns.py:116), which DNS does not.
- C103: `_gotA` and `_gotPTR` join text with values found; the client of this library gives octets, so that every answer with data is a failure (`octets_fail`, ldap2pdns.py:106-112, 138-156).  Before that, `delimiter = "\n"` (line 25) is text, and Twisted's `LineReceiver` splits octets by it; the model begins after that.
- C103: if the factory raises (`getServiceLocationOverrides` does for a bad section of the configuration), `ldapEntryFetchInProgress` stays true: no later question is ever searched for, up to ten of them wait without end, and the program never stops (`stuck`, `never_stops`, ldap2pdns.py:63-65).
- C104: `Net.getForward`, `Net.getReverse` and `Net.printZone` compute `ip | ~mask`, which is negative for every address and mask; `struct.pack("!I", ...)` refuses it (`no_broadcast`, ldap2dnszones.py:88, 100, ldap2maradns.py:77).  So every run that finds a net fails (`some_net`, `mara_run`), and a run that goes well writes no records (`success_writes`).
- C104: values found are octets, and `str()` of octets is the text of a Python literal, so that no net could be read even without the sign (`octets_unread`, ldap2dnszones.py:163-168).
- C104: `console_script` takes `opts["reverse"]`, which is there only if a `--reverse` option was given (`no_option`, ldap2dnszones.py:351).
- C104: two `--reverse` options with the same file share a temporary file; renaming it a second time fails after other files were put in place (`not_published`, ldap2dnszones.py:236-246).  No run gets that far.
- C105: members found are octets and are looked up in a dictionary whose keys are text, so that no host is ever in a group (`octets_no_group`, ldap2dhcpconf.py:252); text that differs in letters is not found either (`case_lost`).
- C105: `my_aton` of octets that are not a number raises TypeError: a net found by the client ends the run as soon as there is an address, before anything is printed (`octets_fail`, ldap2dhcpconf.py:166-172, 391-395).
- C105: unlike in ldap2dnszones, an address that cannot be read is not passed over but ends the run (`unreadable_fails`, ldap2dhcpconf.py:166-172).
- C105: names of boot files are printed between quotes as they are, which lets an entry add declarations for other hosts (`injected`, ldap2dhcpconf.py:67, 113; the source says TODO).
- C106: `--scope one`, which the help text names, is refused (`one_refused`, usage.py:77, 81-92).
- C106: a base with a colon is cut there, and so is an address of IPv6, with or without brackets (`colon_in_base`, `ipv6_host`, usage.py:46, 53).  Every DN can still be given with its colons in hexadecimal (`every_base_can_be_given`).
- C106: a base that ends in a backslash, or has one before what is no hexadecimal number, ends the tool with IndexError or ValueError rather than a usage message (`other_error`, usage.py:47-50).
- C106: an empty host is the empty name in an option and no host in the file (`empty_host`, usage.py:52-57, config.py:67-71).
- C106: the blank of a base that ends in an escaped blank is stripped, and the section then stops every tool (`escaped_blank`, config.py:65, 79).
- C107: ldap2passwd looks for text among attribute types that the client gives as octets, so that the first account found ends the printing and none is ever printed (`octets_fail`, ldap2passwd.py:9-13, ldapsyntax.py:641-642).
- C107: values are printed as they are; a colon or line feed in one of them lets an entry add fields or another account (`injected`, ldap2passwd.py:15-27).
- C107: attribute types are compared with their case (`case_lost`, ldap2passwd.py:18-25).
- C108: output of a process is octets and is added to text, so that every piece raises TypeError and no password is ever generated (`octets_never`, generate_password.py:13-20).
- C108: with a wrong number of lines the deferred is fired twice, and processEnded raises AlreadyCalledError (`wrong_count_raises`, generate_password.py:27-33).
- C108: passwd.py does not set its exit status when no password could be generated; with `--generate` it changes nothing and exits with 0 (`generate_nothing`, passwd.py:73-76).
- C109: a member whose value is spelled with other letters, or with a blank after a comma, is not found, although its DN is equal (`member_case`, entry.py:245, distinguishedname.py:280-283); asked for as text, nothing is found among values that are octets (`octets_not_text`).
- C109: equal entries can have different hashes, as their DNs do (`hash_differs`, entry.py:249-253; the source says FIXME).
- C109: `>` of two different attribute pairs calls itself until Python raises RecursionError, and so does `<=` (`pair_gt`, distinguishedname.py:152-156); `>=` of equal pairs in other letters can be false (`pair_ge`).
- C110: find_server formats a missing domain into its question and asks for `_ldap._tcp.None` (`no_domain`, find_server.py:43-45).
- C110: a DN that cannot be read raises before the reactor runs, so that no other DN is answered either (`one_bad`, find_server.py:41-51).
- C110: the exit status is 0 if no server was found (`nothing_found`), and after the usage message (`usage_iff`, find_server.py:55-60); SRV records of every section are printed, although the source says that additional records are suppressed (`additional_printed`, find_server.py:9-24).

## Axioms of each theorem in MANIFEST.json

(prefix `Verif.` omitted)

* no axioms: C17.holds_unique, C83.local_time

* `propext`: C101.cut, C101.same_hash, C104.no_broadcast, C104.unreadable, C106.base_option, C106.copy_changes, C109.hash_partial, C109.pair_gt, C12.equal_hash_partial, C12.equal_pairs_hash_differently, C14.empty_set_lost, C14.no_pieces_lost, C14.substrings_text_iff, C14.tab_lost, C17.not_iff, C17.second_listing_hidden, C20.octets_raise, C22.first_fails_partial, C22.not_atomic, C22.not_atomic_single, C22.stops_at_first_failure, C24.respelled_twin, C25.below_itself, C25.descendants_lost, C25.existing_overwritten, C25.half_moved, C25.moved_not_deletable, C25.renamed_hidden, C25.renamed_in_place, C27.alike_siblings_raise, C53.max_below_min_loops, C59.delete_other_form, C59.replace_other_form, C60.domain_spec, C62.independent_of_dns, C62.location_used, C62.no_override, C74.dirty, C81.accent, C81.order_raises, C81.substring_raises, C82.empty_password

* `propext, Quot.sound`: C01.unsigned_minimal, C10.components_injective, C10.components_roundtrip, C10.escape_roundtrip, C10.rdn_roundtrip, C104.bits_right, C104.first_net, C104.mara_first, C104.mara_in, C104.no_net, C104.option_iff, C105.first_net, C106.bind_options, C106.can_be_given, C106.every_base_can_be_given, C106.identity_base, C106.read_iff, C11.contains_antisymm, C11.contains_congr, C11.contains_iff_suffix, C11.contains_refl, C11.contains_trans, C11.not_contains_up, C11.up_contains, C15.smart_total, C17.and_true, C17.or_false, C17.sameValue_ascii, C18.complete_partial, C18.exact_partial, C18.necessary, C20.removed_attribute_stays, C20.respelling_loses_value, C21.add_remove_partial, C21.other_routes_store_twice, C21.refuses_octets, C22.adds_replaces_partial, C23.dn_of_path, C23.history_consistent, C24.built_values, C24.stale_delete, C25.moved_not_movable, C25.renamed_values, C26.error_hides_entries, C28.decode_encode, C28.decode_encodebytes, C28.encode_injective, C28.length_encode, C28.one_line, C49.added_again, C49.cleared_empty, C49.octets_fail, C51.all_succeed, C51.first_failure, C51.in_order, C51.other_failure, C51.success_iff, C54.mask_of_length, C58.unknown_code_kept, C58.unknown_code_lost, C59.add_partial, C59.delete_attribute_partial, C59.replace_partial, C62.query_iff, C63.escape_grammatical, C63.no_bare_trailing_blank, C65.exact_partial, C65.only_if_partial, C69.attribute_line, C69.plain_iff, C73.octets_unprotected, C73.root_refused

* `propext, Classical.choice, Quot.sound`: C01.ber2int_denotes, C01.int_minimal, C01.int_roundtrip, C01.reencode_canonical, C01.unsigned_roundtrip, C02.decode_fits, C02.length_injective, C02.length_roundtrip, C02.length_shape, C02.length_total, C03.decode_consumes_element, C03.decode_only_complete, C03.decode_prefix_determined, C04.encoded_prefix_incomplete, C04.encodings_prefix_free, C04.strict_prefix_incomplete, C05.all_unknown, C05.elements_in_order, C05.unknown_element_skipped, C06.empty_credentials_lost, C06.encoding_injective_partial, C06.filter_roundtrip, C06.message_encodes_and_returns_partial, C06.message_roundtrip_partial, C07.delivered, C07.messages_delivered, C07.nothing_lost, C07.segmentation_independent_partial, C07.segmentation_matters, C08.encoded_frame_consumed, C08.frame_consumed_partial, C08.malformed_frame_stalls, C09.parse_print_parse, C09.print_idempotent, C09.print_injective, C10.equals_in_type_lost, C100.debug_drops, C100.debug_same_partial, C100.extended_hidden, C100.length_shown, C100.one_line, C100.password_hidden, C100.raises_iff, C100.raises_type_error, C100.sasl_hidden, C100.value_shown, C101.blank_changed_partial, C101.changed_partial, C101.endless, C101.half_dirty, C101.half_octets, C101.not_samba, C101.refused, C102.and_or, C102.and_or_differ, C102.both_equal_and_not, C102.flat, C102.item, C102.means_partial, C102.messages_partial, C102.nested, C102.no_hash, C102.not_transitive, C102.raises, C102.reflexive, C102.refused, C102.refused_search, C102.reordered, C102.sound, C102.symmetric, C102.transitive, C103.all_answered, C103.asks_address, C103.asks_name, C103.bounded, C103.broken, C103.framed, C103.greeting_iff, C103.grows, C103.in_order, C103.injected, C103.kept, C103.never_stops, C103.octets_fail, C103.one_each, C103.plain_address, C103.plain_name, C103.records, C103.star, C103.stuck, C103.upper_case, C104.failure_keeps, C104.hosts_written, C104.in_net, C104.in_net_length, C104.mara_hosts, C104.mara_net, C104.mara_run, C104.mara_stops, C104.mara_unreadable, C104.net_read, C104.no_forward, C104.no_option, C104.no_reverse, C104.not_published, C104.octets_unread, C104.others_kept, C104.ptr_name, C104.published, C104.some_net, C104.success_iff, C104.success_writes, C104.tidy, C105.case_lost, C105.every_address, C105.first_group, C105.header_iff, C105.host_read_iff, C105.injected, C105.net_read_iff, C105.nets_read, C105.octet_name, C105.octets_fail, C105.octets_no_group, C105.partition, C105.printed, C105.same_name, C105.unreadable_fails, C106.colon_in_base, C106.copy_same, C106.empty_host, C106.escaped_blank, C106.file_nearer_wins, C106.ipv6_host, C106.one_refused, C106.option_wins, C106.other_error, C106.scope_iff, C106.server_partial, C106.starts_iff, C107.case_lost, C107.injected, C107.octets_fail, C107.printed_iff, C107.read_back_partial, C107.without_shell, C108.generate_nothing, C108.octets_never, C108.passwords_right, C108.pieces, C108.shown_iff, C108.status_iff, C108.told_partial, C108.tool_ends, C108.wrong_count_raises, C109.entry_order, C109.hash_differs, C109.member_case, C109.member_found_partial, C109.member_hidden, C109.member_iff, C109.member_sound, C109.member_string_iff, C109.octets_not_text, C109.pair_ge, C109.rdn_order, C11.contains_text, C110.additional_printed, C110.ask_iff, C110.asked_right_partial, C110.no_domain, C110.nothing_found, C110.one_bad, C110.printed_partial, C110.status_iff, C110.usage_iff, C12.equal_dns_hash_differently, C12.same_key_iff, C13.irreflexive, C13.not_transitive, C13.transitive_partial, C13.trichotomy, C14.no_dn_flag_changed, C14.rule_dn_lost, C14.text_injective_partial, C14.text_roundtrip_binary_partial, C14.text_roundtrip_partial, C15.binary_exact, C15.binary_wide_changed, C15.smart_choice, C15.smart_exact, C15.structure_safe, C15.tab_changed, C15.value_exact_partial, C16.escaped_name_partial, C16.injection, C16.plain_name_partial, C16.star_matches_all, C16.template_star, C17.eval_correct_partial, C17.eval_iff_partial, C17.undecodable_raises, C18.correct_rejected, C18.mixed_kinds_raise, C18.overlap_accepted, C18.wrong_accepted, C19.bind_iff, C19.corrupt_digest_raises, C19.others_refused, C19.others_unchanged, C19.set_accepted, C19.set_then_bind, C20.diff_patch_equal_iff, C20.diff_patch_partial, C20.no_change_partial, C21.history_partial, C21.never_twice, C24.refines_partial, C25.move_leaf_partial, C26.search_exact_partial, C26.search_holds_partial, C26.subtree_order, C26.walk_spec, C27.emptied_attribute_stays, C27.replays_partial, C27.respelled_child_fails, C29.entry_roundtrip, C29.file_roundtrip, C29.mixed_kinds_raise, C30.chunking, C30.chunking_stored, C30.state_determined, C31.cut_points, C31.detected_partial, C31.dropped_silently, C31.dropped_silently_unfinished, C31.empty_input, C31.stored_dropped, C32.add_rejected, C32.changes_roundtrip_partial, C33.atomic_partial, C33.each_file, C33.example_steps, C33.listing_partial, C33.many_refused, C33.old_or_new_partial, C33.stored, C33.unwritable_keeps_partial, C34.contained_partial, C34.distinct, C34.lookup_outside, C34.outside, C34.place, C34.same_file, C35.after_delete_partial, C35.gone_partial, C35.name_lost, C35.others_kept, C35.still_found, C36.ids_increase, C36.outstanding_distinct, C36.requests_distinct, C36.requests_made, C36.written_id, C37.asked, C37.completed_forever, C37.delivered_only_to_own, C37.finished_completes, C37.fires_once, C37.log_prefix, C37.response_delivered, C37.table_waiting, C37.unknown_id, C37.unknown_id_disturbs, C38.disconnected, C38.lost_fails_all, C38.nothing_written, C38.send_refused, C39.asked_when_idle, C39.busy_refused, C39.negative_never, C39.not_idle_when_switched, C39.tls_after_agreement, C40.abandon_answered, C40.answered_once_partial, C40.delete_nonleaf_unanswered, C40.finals_match_requests_partial, C40.ids_correct, C40.one_final, C40.unbind_silent, C40.unfinished_unanswered, C40.unsolicited_ignored, C41.bad_type, C41.bad_version_first, C41.critical_blocks, C41.critical_refused, C41.noncritical_ignored, C42.bind_outcome, C42.failed_bind_keeps_user, C42.last_successful_bind_partial, C42.only_binds, C42.sasl_as_password, C42.verified_password, C43.decided, C43.modify_unprotected, C43.new_password_works, C43.only_own, C43.others_refused, C44.compare_answered_twice, C44.lost_never_finished, C44.merged_partial, C44.unsupported_refused, C44.unused_free, C45.all_relayed, C45.failed_hook_blocks, C45.in_order_partial, C45.logged, C45.lost_silent, C45.unencodable_blocks, C46.comes_up, C46.failure_answers, C46.fifo_partial, C46.forwarded_partial, C46.hook_reorders, C46.late_bind_unanswered, C47.kept, C47.leak, C47.released_partial, C48.forwarded_after, C48.isolated_partial, C48.not_isolated, C48.own_link, C48.own_responses, C48.queue_lost, C49.accepted, C49.other_kind, C49.replay_init_partial, C49.replay_partial, C49.works, C50.commit_done_partial, C50.commit_odd, C50.commit_refused, C50.in_step_partial, C50.inflight_lost, C50.mixed, C50.mixed_undo, C50.sent_twice, C50.undo_restores_partial, C52.callback_raises, C52.codeless, C52.ends_once, C52.fails, C52.limit_swallowed, C52.limit_tolerated, C52.lost_fails, C52.nameless, C52.succeeds, C52.unexpected, C52.valueless, C52.waits, C53.answer_stable, C53.max_not_asked, C53.search_free, C53.search_free_max_partial, C53.search_max_partial, C53.search_smallest, C54.dotted_iff, C54.dotted_refused, C54.length_roundtrip, C54.lengths_distinct, C54.mask_roundtrip, C55.groups_distinct, C55.sid_domain, C55.sids_distinct, C55.user_group_distinct, C55.users_distinct, C56.nearest_partial, C56.none_iff, C56.respelled_not_found, C56.trailing_comma_not_found, C57.attribute_reparse, C57.attribute_roundtrip, C57.class_reparse_partial, C57.class_roundtrip, C57.missing_reference, C57.nameless_rule, C57.rule_reparse_partial, C57.rule_roundtrip, C57.single_superior, C57.spaced_reference, C57.syntax_reparse, C57.syntax_roundtrip, C58.get_injective, C58.known_code_partial, C58.success_iff, C58.text_distinct, C58.text_format, C59.delete_partial, C60.domain_split, C61.short_fraction_wrong, C61.short_mask_wrong, C61.zone_name_partial, C64.decode_injected, C64.decode_response, C64.plaintext_accepted, C65.flag_ignored, C65.octets_miss_dn, C65.octets_miss_text, C65.type_case_missed, C66.complete_partial, C66.dn_rule_refused, C66.full_false, C66.parse_iff_partial, C66.reading_unique_partial, C66.refused, C66.sound, C66.tab_read_as_blanks, C67.compare_answered, C67.matches_holds, C67.no_base, C67.root_dse, C67.search_answered, C68.conversation_exists, C68.conversation_partial, C68.serve_read, C68.serve_request, C69.add_record_partial, C69.content_record_partial, C69.delete_record, C69.dn_not_encoded, C69.modify_record, C69.no_attributes, C70.added_deleted_partial, C70.added_found_partial, C70.added_lookup, C70.example_add, C70.others_same_partial, C70.respelled_not_found, C71.gone_partial, C71.link_gone, C71.proxy_closes, C71.proxy_forwards, C71.proxy_gone_partial, C71.proxy_link_gone, C71.proxy_open, C71.tls_forwards, C72.answered, C72.started, C73.kept_partial, C73.octets_removed, C73.respelled_removed, C74.absent, C74.dirty_late, C74.fetched_all_partial, C74.fetched_some_partial, C74.stale, C74.twin, C75.search, C76.commit, C76.exists_accepted, C76.left_empty, C76.modify_answered, C76.not_deletable, C76.rdn_removed, C77.failed_not_undone, C77.keeping_old_refused, C77.missing_entry, C77.missing_parent, C77.renamed_not_deletable, C77.renamed_partial, C78.added, C79.compared_partial, C79.serve_compare, C79.undecodable_value, C80.empty_refused, C80.high_escape, C80.only_partial, C80.search_by_text_partial, C80.sent_partial, C81.same_partial, C82.ambiguous, C82.bind_exchanged, C82.granted_iff, C82.logs_in_partial, C82.octets_name, C82.star, C82.unauthorized_iff, C83.anonymous_intercepted, C83.error_stops, C83.granted_iff, C83.no_services, C83.owner_respelled, C83.passed_on_iff, C83.refused_iff, C83.selects_iff, C83.service_partial, C83.stamp_le_iff, C83.stopped, C84.empty_raises, C84.header_silently, C84.loaded_iff_partial, C84.loaded_partial, C84.loads_partial, C84.lost_silently, C84.nothing_silently, C84.refused_partial, C84.roundtrip_partial, C84.skipping_partial, C84.twin_loaded, C85.answer_regardless, C85.committed_partial, C85.modified_partial, C85.not_committed_partial, C85.refused_unchanged, C85.stopped_partial, C85.success_unstored, C86.answer_regardless, C86.below_leaf, C86.overwritten, C86.refused_unchanged, C86.renamed_partial, C86.stale, C86.torn_apart, C87.fails, C87.found_partial, C87.nested_either, C87.of_server, C87.unreadable, C88.extensions_listed, C88.extensions_unlisted, C88.outside, C88.respelled, C88.root_renamed, C88.unasked, C88.versions, C88.within_partial, C89.changed_partial, C89.decided, C89.deleted_refused, C89.respelled, C89.roundtrip, C89.success_iff, C90.added_iff, C90.deleteDone_iff, C90.moved_iff, C90.moved_partial, C90.progress, C90.request_order, C90.reused_dict, C90.session_partial, C90.stale, C90.still_deleted, C91.diff_ends, C91.failures_ignored, C91.files_partial, C91.headerOnly_hangs, C91.header_missing, C91.nothing_written, C91.patch_ends, C91.text_raises, C91.valueless_rejected, C91.written_partial, C92.abandon_drops, C92.arrives_partial, C92.critical_ignored, C92.never_other_partial, C92.starttls_differs, C92.transparent_partial, C93.fails, C93.fetched, C93.first_iff, C93.names_subentry, C93.of_root, C93.published, C93.second_iff, C94.one_found, C94.read_back, C95.any_server, C95.fails, C95.free_number, C95.guess, C96.added_unread, C96.deleted_raises, C96.follows_edits_partial, C96.late_samba, C96.late_start, C96.number_set, C96.spelling_unnoticed, C97.fetched_refused, C97.new_account_partial, C97.numbered, C97.started, C98.abandon_drops, C98.all_answers_partial, C98.own_answers_partial, C98.own_deferred_partial, C99.all_handled_partial, C99.one_order_partial, C99.real_time_partial
