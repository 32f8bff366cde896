# Formal model of iotivity-lite: design

Subject: iotivity/iotivity-lite, source in `/repo` (C), read as text only.
Prover: Lean 4.33.0. Model and proofs: `lean/Verif/`, built by `lake build`.

## Trusted base

* Lean's kernel, and the three standard axioms `propext`, `Classical.choice`,
  `Quot.sound`. No axiom is added; no `sorry`, `native_decide`, `bv_decide`.
* The reading of the C code into Lean: each definition of the model cites file
  and lines it models and names its simplifications.
* Everything listed under "Not modelled".
* `AXIOMS.md` lists the axioms of every theorem named in `MANIFEST.json` (output of
  `#print axioms`). `MODELLED.md` lists every definition of the model with the place
  in the code it cites. Both are generated.

## General modelling conventions

* Bytes are `UInt8` (or `Nat` below 256 where stated), byte buffers are lists.
  Integers that cannot overflow in the modelled range are `Nat`/`Int`; where C
  arithmetic wraps, the wrap (`% 2^32` ...) is explicit in the model.
* Undefined behaviour (out-of-bounds access, NULL dereference, overflow of a
  fixed buffer) is a separate outcome (`ub`), never totalised away. A property
  that excludes UB is a theorem that the outcome is not `ub`.
* State machines are `step` functions over an operation type; properties are
  invariants over all finite operation sequences, proved by induction.
* Where the code does not have the property, the negation is proved with a
  concrete witness (`..._false` theorems) and the strongest correct variant is
  proved under explicit hypotheses (`..._partial`), and listed below in
  "Disagreements found".
* Layout: `Verif/<Area>/Model.lean` (model of the code), `Spec.lean`
  (independent specification), `Lemmas.lean` (helpers), `Props.lean` (the
  property theorems with examples that meet their hypotheses).

## Not modelled

* The tinycbor, mbedTLS and other third party dependencies (absent from the
  checkout): CBOR is treated at the level of the decoded `oc_rep_t` tree, crypto
  is not interpreted.
* The network, threads and locks; concurrency is modelled as interleaving of
  whole operations of the single event-loop thread.
* Failure of `malloc` except where an allocation pool is the object of study.
* Logging.

### Per area: what the model leaves out

* Base64, Uuid, Hex, Crc, Query, Dec: nothing of the named functions; random bytes of
  the UUID generator are a parameter.
* OcList, Memb, Mmem, Timer, Etimer, Process: the dynamic-allocation variants of pools
  are `malloc`; callbacks of pools are ghost log entries; the dispatch loop of
  processes (protothreads) is not modelled, only its queue.
* Coap, CoapMsg: options the stack knows; ETag, Observe, Block, Size, Uri, Content-Format
  as in `coap_internal.h`; signal messages of TCP as options only; `oc_message_t`
  reference counts are not modelled.
* TcpStream: sockets deliver arbitrary fragments, errors and interruptions; TLS records
  are only framed.
* Trans: the network is an environment that may lose, delay and duplicate; time is a
  number; DTLS sessions are a list of peers.
* Blockwise, Dedup, Observe: several clients and resources; payload generation by the
  application is a parameter; OSCORE is left out there.
* Rep, RepJson: decoded representations as trees; floating point output is a parameter
  (`%lf` text).
* Acl, Cred, Pstat, Doxm, Sdi, Sp, Sec: decoded representations, storage as a map,
  certificates and keys as opaque data with the checks' results as parameters; TLS
  peers as a list with identities.
* Oscore: encryption is not interpreted; what is proved is about partial IVs, nonces,
  contexts, replay window, sequence numbers and the option's text.
* Etag, Storage, Ael: clocks, file system, power loss and memory are environment
  parameters with arbitrary outcomes.
* Delayed: user callbacks are an arbitrary environment; nested polling and actions of
  `on_delete` functions are left out; timers expire when the environment says so.
* Client: contents of messages, blockwise transfers (C21, C22 model them), OSCORE, RST responses and the
  response states of the blockwise layer are left out; message ids, tokens, endpoints and URIs are numbers;
  retransmission is one event (the last one expired); sending succeeds or fails as an input; sessions are a
  set of endpoints. Handlers make any list of calls, chosen per call.
* Endpoint: `inet_ntop` and the name resolver are parameters; `next`, `di`, local address, interface index,
  priority, version and PIV of an endpoint are left out; 64-bit `size_t` and `unsigned long`; the index -1 read for
  an empty host is taken as the byte before the address.
* EpAddr, CloudStore: an item is identified by its allocation; the metadata of a view is its UUID or name;
  the stored representation is the decoded one (CBOR coding is left out), the file is C57.
* Cloud: the resource directory client, the cloud resource and writing of the store are left out; callbacks of the
  application for schedules and status are parameters or left out; a session that is closed shows up as a later event.
* JSON (Json): allocations succeed (out of memory is not modelled), the kinds of
  errors are one error. The encoder is used through the innermost open container, as
  the `oc_rep_` macros do. `oc_rep_encode_raw` and the use of the global encoder in
  `rep_encode_null_internal` are left out; the text `printf` makes of a floating
  point number is given. A failing `realloc` counts as the end of growing.
* Request dispatch (Ri): the block-wise stage before the handler is an input, and
  so are access control, decoding, handlers and allocation results; URIs of 254
  bytes or more are not modelled; the links of a collection are one parameter.
* Separate responses: one handle; other handles only through the inputs that say whether the shared pool
  has a record left.
* Session events: each access of a list under its lock is one step; what the stack itself does at a
  disconnection (TLS peer, observers) is not part of this area; the delay of disconnect events is any time.
* Synchronised time: fetching the time from another device is left out; in histories all clock readings of one call
  are equal and the clock works (single calls: any readings).
* Queue of received messages: sockets are numbers of ready descriptors; the end of the program, TCP connection
  events and interface changes are left out; the two flags of a poll request are one flag here (both: Session).
* Collections: the answer is a log of events, not CBOR; creating resources through `oic.if.create` (see Factory), link
  parameters and notifications of collections (but for the request to notify) are left out.
* Strings: allocation succeeds; the build with fixed pools (where a string is moved by other allocations) is not modelled for strings; the C strings given as arguments have no NUL inside by definition.
* Publishing to the cloud: the CBOR of a publication is the list of (URI, instance id); building a request is one oracle
  per request (it may fail); the cloud gives an instance id that depends on the URI, as the protocol asks.
* Certificates: a certificate is the record mbedtls has parsed; signatures and the building of the chain are parameters (the
  flags mbedtls found for each certificate, whether a role certificate is signed by one of the anchors). PSK handshakes,
  cipher suites and the TLS records are left out.
* Discovery: links are values of the tree `Rep`, not CBOR bytes; the resource /.well-known/core, OSCORE group endpoints,
  bridged devices and notifications of /oic/res are left out; the 64-bit ETags are numbers that do not overflow; the
  client's endpoints lack `addr_local`, `version` and the scope of link-local addresses.
* Tls: mbedtls is not modelled: the records it yields, the handshake, HMAC and the derivation of the PIN key are
  parameters; whether the certificates of a chain can be loaded is a parameter; sending over TLS and the life of
  the list of peers (timeouts, closing) are left out.
* Swu: the bytes of CBOR, the steady clock of timers, failing allocations of strings, the flag to ignore errors,
  notifications of observers and the modes of /oic/sec/pstat are left out; one device at a time.
* Obt: UUIDs are numbers, a request takes effect at the device at the moment it is answered, endpoints are only plain
  or secured, TLS sessions and failing allocations (beyond a refused request) are left out; provisioning of
  certificates, roles, trust anchors and OSCORE contexts and the removal of entries are left out.
* Dhcp, Dps: the TLS library reports per certificate whether it is an anchor, signed by the next one and timely; chains
  of trust anchors are given as validities; digests are functions of certificates; timers, threads and the encoding of
  stored contexts are left out.
* Dps.Prov: delays of timers are left out (any pending callback may run at any time); answers are good, bad, transient or
  refused; the status callback, the last error, the stored configuration and the list of server addresses are left out.
* Process.Dispatch: the queue is the sequence proved for `Process`; posting from other threads (which the code does not
  support), suspended processes (tests only) and threads that call the scheduler are left out.
* Push: the text of a target is parsed by a parameter; the contents of a push request are not modelled.
* Push receivers: one device; no collections; paths shorter than 4096 bytes; the checks of method and interface are those of the request handler (C-numbers of `oc_ri.c`).
* Creation through collections (Factory): one collection on one device; the application's constructor is an oracle that
  gives an instance or not and whose resource has the stated URI, types and interfaces; allocation does not fail;
  delayed deletion, notifications and several collections with the same member are left out.
* TCP connections (TcpConn): an endpoint is an address, a device and a session id; the mutex makes every call one step;
  the wake-up pipe has room; `EINTR` and failing allocation of events are left out; the interface of a new socket is
  known; the reading of messages is in TcpStream, here a connection is only lost or not.
* The engine (Engine): the results of parsing, of the checks of a request, of its handler and of block-wise transfers are
  inputs of every step (their own models are C05, C57, C14); options and payloads of answers are left out; the buffers the
  static context still points to are left out, only its transaction is kept; transactions have numbers instead of addresses;
  retransmissions are in C20.
* Batch notifications (Batch): access and visibility are functions of uri and client that do not change; a resource is a
  number never used again and a version; each observer has an endpoint of its own; the encoding of the payload is left out
  but for whether it fits, needs blocks, and the length of a removed uri.
* Notifications (Notify): one device; handlers do not answer later (separate responses); representations are numbers with
  a length; pools of transactions and response buffers are counters; ETags and content formats are left out.
* OSCORE engine (OscoreEng): the AEAD is ideal (a ciphertext is the record of key, nonce, AAD and plaintext) and key
  derivation is the hypothesis that keys of different contexts differ; plaintexts are code, Observe value and rest, so inner
  parse errors do not occur; contexts stay as provisioned during a history (loading and restarts are in C35); only the
  answer of the duplicate check is an input.
* (D)TLS sessions (TlsPeers): mbedtls is an oracle that says how each call ends and how many received messages it took;
  contents of messages are left out; the session id of a TCP peer does not change; removal of observers, transactions and
  client callbacks is in other areas, but for the callback of the assertion of roles; posting events does not fail.
* The encoder (Encode): what each encoding call adds is a parameter (tinycbor and the JSON encoder are not modelled), allocations succeed, all the blocks of a payload are one step, messages are their payload, path, method and formats; notifications use the encoder like answers and are not repeated here; builds without block-wise transfers or dynamic allocation are left out.
* Lives of resources (Life): what notifications contain, discovery, periodic callbacks, created resources, cloud links and block-wise transfers are in other areas; devices are in normal operation; the count of links, which only saves a search, failing allocations and the shutdown are left out; making a link and adding it are one step, as are taking it away and deleting it.
* What the tool reads (ObtRead): CBOR is left out, memory can be allocated, `OC_PKI` is built; the content of the object about an OSCORE context is a parameter; what a union holds after members of different kinds is not described (`mixed`), nor arrays read as text (`ub`); freeing what was read is left out.
* What the tool deletes (ObtDel): a request reaches a device at most once, the device's access control and checks of state changes are an arbitrary refusal, handles of devices stay, closing TLS sessions is left out.
* Keys of the tool (ObtInit): CBOR is left out, a write is done or not done, of the stored security resources only `isop` and the trust anchors are kept, generating keys and certificates is an arbitrary result.
* Discovery by the tool (ObtFind): the reader of endpoint texts is a parameter, memory can be allocated, devices stay in their lists, interface indexes and scopes of endpoints are left out, discoveries have numbers that are not used again.
* Configuration resource (ConRes): memory can be allocated, CBOR and the baseline properties are left out, a notification is counted when it is asked for.
* Not modelled at all: mbedtls, certificate parsing,
  introspection, bridging, the push and well-known resources beyond what
  an area above names, all ports but Linux, and `apps/`.

## Plan per property

| id | modelled | proof |
|----|----------|-------|
| C01, C02 | `oc_base64.c` encoder and decoder, byte by byte, both alphabets | induction over 3 byte groups; table facts by exhaustive kernel evaluation over the 64/256 element tables, lifted |
| C03, C04 | `oc_uuid.c` parser/formatter/generator | nibble lemmas over all bytes, induction over the digits; variant claim refuted by witness |
| C05 | `oc_crc.c` bitwise CRC as a linear step | homomorphism over append; linearity and invertibility of the step over GF(2) |
| C06 | `oc_helpers.c` hex conversions | induction |
| C07 | `oc_list.c` over an explicit `next` pointer map | refinement to sequences, invariant `chain` |
| C08 | `oc_memb.c` slot counters | invariant over operations |
| C09 | `oc_mmem.c` static pool with pool bytes | invariant: blocks laid out consecutively, contents preserved |
| C10, C11 | `oc_timer.c`, `oc_etimer.c` | arithmetic; invariant over operations |
| C12 | `oc_process.c` ring buffer | refinement to a sequence, for all capacities and both allocation modes |
| C13, C14, C16, C17, C18 | `coap.c` option and message codec | round trips by case analysis and induction on options; UB outcome for over-reads |
| C15 | `options.c` block options | arithmetic on shifts |
| C19 | `coap.c` TCP framing | case analysis on the four length forms; stream splitting by induction |
| C20 | `transactions.c` | transition system over ticks/acks; invariant + measure |
| C21, C22 | `oc_blockwise.c`, block flow of `engine.c` | invariant over deliveries; slice algebra |
| C23 | `engine.c` request history | refinement of the ring to "last 25" |
| C24 | `observe.c` registration table | invariant over operations |
| C25 | `oc_query.c` | characterisation against an independent splitter |
| C26 | `oc_rep_to_json.c` | structural induction, generic in the printing primitive |
| C27, C28 | `oc_acl_util.c`, `oc_ace.c` | decision function = declarative rule |
| C29, C30 | `oc_acl.c`, `oc_ace.c` | invariant; witness for non-atomicity |
| C31 | `oc_pstat.c` | transition relation |
| C32, C33, C36 | `oscore.c`, `oc_oscore_crypto.c` | round trip, injectivity, UB witness |
| C34 | `oc_oscore_engine.c` replay ring | negation witness + window theorem |
| C35 | `oc_oscore_engine.c`, `oc_oscore_context.c`, storage | transition system with crash steps |
| C37 | `oc_cred.c` | invariant |
| C38 | `oc_sp.c` | witness + partial |
| C39 | `oc_ael.c` | invariant |
| C40, C41, C42 | `port/linux/storage.c`, `oc_storage.c` | crash prefix model, witness, partial |
| C43, C44 | `oc_doxm.c`, `oc_sdi.c` | characterisation of accepted updates |
| C45 | `oc_roles.c` | invariant |
| C46 | `oc_etag.c` | induction over calls |
| C47 | `oc_rep.c` | characterisation |
| C48 | `oc_uuid.c`, users of `oc_str_to_uuid` | witness + characterisation |
| C49 | `coap.c` validation and parsing of datagrams | both functions over all byte strings |
| C50 | `observe.c` counter, `oc_ri.c` | induction over notifications; serial number arithmetic of RFC 7641 |
| C51 | `oc_acl.c` encoding and decoding for storage | round trip over reachable lists |
| C52 | `oc_store.c` with `oc_sp.c`, `oc_doxm.c`, `oc_sdi.c`, `oc_pstat.c` | round trip; witness |
| C53 | `oscore.c` scan for the option | equivalence with the parsed option list |
| C54 | `oc_cred.c`, `oc_roles.c` guards | decision function = rule; witnesses |
| C55, C56 | `oc_etag.c`, `oc_ri.c` | ghost history of contents; query automaton |
| C57 | `oc_storage.c`, `port/linux/storage.c` | refinement to a map under all environments |
| C58 | `oc_ael.c`, `oc_store.c` | round trip; witnesses |
| C59 | `api/c-timestamp/*.c`, `oc_clock.c` | exact acceptance and round trip against a calendar that counts days |
| C60 | `timestamp_tm.c`, `oc_certs.c`, `oc_certs_generate.c` | equality with the calendar; witnesses |
| C61, C62 | `oc_event_callback.c`, observation parts of `oc_ri.c` | invariant over histories with arbitrary callbacks; witnesses |
| C63, C64, C65 | `oc_client_cb.c`, `oc_client_api.c`, `oc_ping.c`, `transactions.c`, closing in `oc_tls.c` | stack machine for nested calls; invariants over all runs; witnesses |
| C66, C67, C68, C69 | `oc_endpoint.c`, `oc_ip.c` | text semantics of RFC 3986/4291 as inductive relations; round trip; safety by induction over the text |
| C70, C71 | `oc_endpoint_address.c`, `oc_cloud_store.c`, `oc_cloud_endpoints.c` | refinement of a plain list with a selected position; round trip through the stored representation |
| C72–C78 | `oc_cloud.c`, `oc_cloud_manager.c`, `oc_cloud_apis.c`, `oc_cloud_deregister.c`, `oc_cloud_context.c`, `oc_cloud_schedule.c` | invariant over all histories of calls, responses, timers and session events; induction over servers and tries |
| C79–C82 | `oc_rep_decode_json.c`, `jsmn.c`, `oc_rep_encode_json.c` | texts as inductive grammar, decoder reads every text (mutual induction), token-level safety by induction on the text, encoder as state machine simulated by an unbounded one |
| C83–C87 | `oc_ri.c` (list of resources, request dispatch), `oc_resource.c`, `oc_core_res.c` and `oc_collection.c` lookups, `engine.c` request path, `oc_send_response` | registry invariant by induction over histories, refusals as an inductive relation proved equal to the masks of the code, exact characterisation of when a handler runs, query selection by induction over the parts |
| C88, C89 | `messaging/coap/separate.c`, `oc_send_separate_response` | invariant over histories of a handle (buffer, records), exact list of messages for any list of arrivals with any failing allocations |
| C90, C91 | `api/oc_session_events.c`, polling of processes (`oc_process_poll`, `do_poll`) | atomic steps of all threads interleaved; wake-up invariant, variant function, exactly-once invariant with ghost logs |
| C92, C93 | `api/plgd/plgd_time.c` | a world with real time, invariant relating real time, monotonic clock, memory and storage; uses the round trip of texts of times (C59) |
| C94 | `api/oc_message.c` | interleaved atomic accesses, invariant count = references |
| C95 | `api/oc_network_events.c`, network thread of `port/linux/ipadapter.c` | interleaved atomic steps, wake-up invariant, variant function, ghost logs |
| C96 | `api/oc_collection.c` links | invariant over histories, order as specification |
| C97 | `ri_delete_resource`, collections | direct, witnesses |
| C98 | `oc_handle_collection_request` | induction over the depth of nesting, ghost log |
| C99 | batch and list interfaces | exact characterisation by a specification of visits |
| C100 | nesting of collections | strong induction on the depth; cycle by induction |
| C101 | arrays of strings in flat memory | refinement: the block holds a list of places; induction over the additions |
| C102 | joining, setting, concatenating strings | exact contents of the memory, induction over the items |
| C103 | what the cloud client keeps | invariant over all histories, conservation of instance ids |
| C104 | requests to the cloud directory | exact contents of each request, size of the header |
| C105 | the directory at the cloud | system invariant over device, cloud and messages on their way; witnesses for the races |
| C106 | certificates of CAs | decision logic stated outright; witnesses for the comparison of names |
| C107 | certificates of devices and roles | decision logic stated outright, both directions |
| C108 | handshakes | induction over the chain with an invariant for the CA found; witnesses over two handshakes |
| C109 | identity of a peer | first occurrence in a text; round trip |
| C110 | roles | soundness and completeness of an assertion; permissions by induction over the roles |
| C111 | times of certificates | closed form of the Gregorian calendar |
| C112 | `oc_discovery.c`: which links and endpoints are sent, codes of the answers | membership characterised by a separate specification; witness |
| C113 | batch answers and incremental changes with a client that keeps a copy | invariant over histories of changes and answers |
| C114 | `oc_discovery_process_payload` over trees, uninitialised and stale variables included | round trip with the sender's links by induction; witnesses |
| C115 | `read_application_data_tcp` with its size arithmetic, buffers and shrinking | invariant over all schedules of records and readers; frames of RFC 8323 as separate specification; witnesses |
| C116 | global choices of suites and identities, set-up of connections | invariant over histories against folds of the history; witnesses |
| C117 | look-up of the pre-shared key by a pointer into the record | exact characterisation, agreement of both sides; witnesses |
| C118 | `oc_tls_prf`, `oc_sec_derive_owner_psk` and callers | equality with P_hash of RFC 5246 by induction; witnesses |
| C119 | `api/oc_swupdate.c` | exact acceptance of requests; invariants over histories with restarts; encode/decode inverse; witnesses |
| C120 | `security/oc_obt.c`, `security/oc_obt_otm_*.c` | invariant over histories of tool, devices and answers; progress; witnesses |
| C121 | `security/oc_obt.c` | the same invariant, for provisioning and resets; witnesses |
| C122 | `api/plgd/device-provisioning-client/plgd_dps_dhcp.c` | relations for texts and options, refinement; witnesses |
| C123 | `api/plgd/device-provisioning-client/plgd_dps_retry.c` | exact schedule by induction over failures |
| C124 | `api/plgd/device-provisioning-client/plgd_dps_verify_certificate.c` | decision logic over chains of any length; witnesses |
| C125 | `api/plgd/device-provisioning-client/plgd_dps_pki.c`, `plgd_dps_security.c` | exact check by induction over credentials; witnesses |
| C126 | `api/plgd/device-provisioning-client/plgd_dps_provision*.c`, `plgd_dps_manager.c`, `plgd_dps_time.c` | invariant by induction over histories of operations, answers, timers and events |
| C127 | the same, `plgd_dps_cloud.c`, `plgd_dps_pki.c`, `plgd_dps.c` | liveness invariant under stated conditions; an explicit recovery from every reachable state with a pending retry; witnesses, one with an invariant over all continuations |
| C128 | `util/oc_process.c` | small-step model with an explicit call stack and polls from other threads; invariants by induction over histories; witnesses |
| C129 | `api/oc_push.c` (selectors and proxies) | histories of requests, changes and answers; invariants by induction; refinement of the loop to a filter; witnesses |
| C130 | `api/oc_push.c` (receivers) | refinement of the lists of receivers, representations and resources to one table, by induction over histories; witnesses |
| C131 | `api/oc_resource_factory.c`, `api/oc_collection.c` (links) | search over the ordered links finds the lowest number (order of decimal names); invariant over histories; witnesses |
| C132 | `api/oc_collection.c` (creation), `api/oc_resource_factory.c`, `security/oc_acl.c` | parser against an independent reading of the payload, case analysis of the request, invariant over histories, grants through the area Acl; witnesses |
| C133 | `port/linux/tcpsession.c` | invariant over histories that ties the lists to an observer's view of each connection; five stories; witnesses |
| C134 | `port/linux/tcpsession.c`, `port/common/posix/oc_tcp_socket.c`, `port/linux/ipadapter.c` | permutation of the open sockets and the records' sockets, induction over the check of timeouts; witnesses for leak, range and time |
| C135 | `messaging/coap/engine.c`, `messaging/coap/transactions.c` | case analysis of the processing of one message against the shapes of RFC 7252; witnesses |
| C136 | `messaging/coap/engine.c`, `messaging/coap/coap.c` | induction over histories with the identities of transactions and the counter of message ids; witnesses for the static context |
| C137 | `messaging/coap/signal.c`, `messaging/coap/coap.c`, `port/linux/tcpsession.c` | the state of a session as an invariant over histories, two engines composed; witnesses |
| C138 | `messaging/coap/observe.c`, `api/oc_server_api.c`, `api/oc_ri.c` | invariants over histories with failures as inputs; the observer's view compared with what is there; witnesses |
| C139 | `messaging/coap/observe.c` | one lemma for the common loop: recipients always, exact output without failures; witnesses |
| C140 | `oc_oscore_engine.c`, `oc_oscore_context.c`, `oc_oscore_crypto.c` | ideal AEAD, network that knows what was sent; invariant: every ciphertext has a record; AAD and nonce injective |
| C141 | `oc_tls.c` peers, queues, timers and the handler process | events as a queue, peers by address; invariants over all histories; bound on the tasks left; witnesses by running the model |
| C142 | `oc_client_api.c` two-step requests, the global encoder, answers and stored records | memory as a table of live and freed buffers; refinement of jobs to the list of messages; witnesses by running the model |
| C143 | `oc_ri.c`, `oc_collection.c`, `oc_link.c`, `observe.c`: who points to resources and collections | memory with reuse and ghost generations; invariant by induction over histories; witnesses by running the model |
| C144 | `oc_obt.c` (retrieving), `oc_cred.c`, `oc_acl.c`, `oc_ace.c` (answers) | round trip of representations, composed with reachable lists of the device; non-interference; invariant over requests and responses |
| C145 | `oc_obt.c` (deleting by id), `oc_acl.c`, `oc_cred.c` (deletion) | invariant over histories of a tool and devices; effect of a deletion as a filter; ranking of stages |
| C146 | `oc_obt.c` (start and state of the tool), `oc_security.c`, `oc_obt_certs.c` | round trip; exact condition for memory safety; invariant over starts with crashes at every write |
| C147 | `oc_obt.c` (discovery of devices) | invariant over all histories of discoveries and answers; round trip from a device's answer to the callback; safety for good answers |
| C148 | `oc_con_resource.c`, `oc_enums.c` | exact condition and effect of every request; round trip of all names |

## Disagreements found

Each is a theorem with a concrete witness; the text is the comment of the theorem.
A name ending in `_ub` is a reachable undefined behaviour, one ending in `_false` a
case in which the property as a user would state it does not hold.


### Acl

* `Verif.Acl.nil_subject_false` (C28): C28 fails: an ACE of the nil UUID (which an update without subject creates) is a rule for a particular subject that gives anonymous requesters access.
* `Verif.Acl.reset_owner_false` (C28): C28 fails in the reset state: the owners are the nil UUID, which is the identity of an anonymous requester; it may update the access control list.
* `Verif.Acl.two_peers_false` (C28): C28 fails before ownership transfer if there are two or more TLS peers: the refusal of unsecured requests while the onboarding connection is open (:447) tests for exactly one.
* `Verif.Acl.reload_widens_false` (C51): C51 fails for an entry with a name and a wildcard: only the name is stored. Before the restart a resource of that name is covered if it is discoverable; after it, in any case.
* `Verif.Acl.failed_update_false` (C30): C30 fails: the owner is set although the update is rejected (state RFOTM).
* `Verif.Acl.failed_update_loses_ace_false` (C30): C30 fails: a rejected update of an ACE with a malformed resource loses the ACE.
* `Verif.Acl.permission_zero_false` (C29): C29 fails: an update with permission 0 (no access) is entered in an ACE of the subject with any permission, and grants that.
* `Verif.Acl.lost_wildcard_false` (C29): C29 fails: a successful update that adds the wildcard for all discoverable resources has no effect if an entry for one resource has the wildcard, too.
* `Verif.Acl.empty_entry_deletes_false` (C29): C29 fails: a successful update without aceid that has an entry without name and wildcard deletes the existing ACE of the subject.
* `Verif.Acl.negative_permission_false` (C29): A negative permission is accepted and is all permissions.
* `Verif.Acl.href_without_slash_ub` (C29): A payload reaches a failing assertion: a name that does not start with a slash.
* `Verif.Acl.dangling_callback_ub` (C29): A callback is given a pointer to an ACE that was freed.
* `Verif.Acl.delete_other_false` (C29): Deleting by an id beyond 32 bits deletes the ACE of another id; an ACE with id 0 cannot be deleted by id.

### Ael

* `Verif.Ael.filter_drops_false` (C58): C58 is false in general: events recorded before the filter was changed are dropped by the next restart, because they are checked against the stored filter again (oc_ael.c:380, :412).
* `Verif.Ael.aux_overflow_ub` (C58): With pointers of 4 bytes an event with more than 256 texts fits into the log; the next restart writes past the end of an array on the stack (oc_ael.c:334, :371).
* `Verif.Ael.no_memory_false` (C39): If memory is short old events are given up although the new one is not stored.
* `Verif.Ael.unit_mixed_false` (C39): The used space is reported in the unit of device 0 (oc_ael.c:105), the maximum in that of the device: 1500 of 2048 bytes are reported as 1 of 2048.

### Base64

* `Verif.Base64.decLoop_no_ub`: The decoding loop never runs into undefined behaviour.
* `Verif.Base64.decode_no_ub` (C02): C02: decoding never leaves its buffers or otherwise hits undefined behaviour; hence every text that is not well formed (or does not fit) is rejected.
* `Verif.Base64.decodeInPlace_no_ub` (C02): C02: in-place decoding never leaves the buffer.

### Batch

* `Verif.Batch.unlisted_ub` (C138): A resource that was never added, of which a change was told with `oc_notify_observers`, is deleted without its pending entry being removed (`oc_notify_resource_removed` is called only for listed resources); the next turn of the event loop reads freed memory.
* `Verif.Batch.long_uri_ub` (C138): Deleting a resource whose uri is longer than 256 bytes, while a client observes with the batch interface, overflows the buffer of the notification.
* `Verif.Batch.stuck_behind_get_false` (C138): The claim that a change is told in the end fails when a client reads the batch representation in blocks (the answer to its registration may be one): a change during that transfer is pending, the turn of the event loop skips it, and the end of the transfer does not cause another.
* `Verif.Batch.merged_lost_false` (C138): When the message cannot be allocated the loop is left: everything but the first entry of this observer is lost for good.
* `Verif.Batch.not_retried_false` (C138): And what remains is not tried again until something else changes.
* `Verif.Batch.too_large_lost_false` (C138): Changes that together do not fit in `OC_MAX_OBSERVE_SIZE` are dropped without being told at all.
* `Verif.Batch.failed_add_false` (C138): When the entry for one observer cannot be allocated, the entries already made for the same change to other observers are not processed until something else changes.
* `Verif.Batch.hidden_removed_false` (C138): The removal of a resource that the batch representation never showed (for example one that is not discoverable) is told with its uri to every observer that may read it.

### Blockwise

* `Verif.Blockwise.other_block_size_truncates_false` (C21): C21 is false if a transfer is started again with another block size: the block of the new attempt that carries the whole payload is taken for a repetition, and the handler is called with the bytes of the first attempt only.
* `Verif.Blockwise.restarted_upload_mixes_false` (C21): C21 is false if an upload is given up and another one is started to the same resource within the lifetime of the buffer: the first block of the second payload is taken for a repetition and the handler gets a mixture of the two payloads.
* `Verif.Blockwise.plain_request_uninitialised_false` (C21): A payload of 65536 bytes or more (possible over TCP with a large `OC_MAX_APP_DATA_SIZE`): only the low 16 bits of the length are stored, and the handler is given memory that was never written.
* `Verif.Blockwise.client_refused_block_false` (C21): A block that does not follow, and also a payload larger than the buffer, is reported to the application as a successful response without payload.
* `Verif.Blockwise.dispatch_unaligned_false` (C22): An offset that is no multiple of the block size would read behind the payload; the engine never asks for one.

### Certs

* `Verif.Certs.loop_stops_false` (C108): C108 is false as stated: the only trusted CA of the device names the peer `u2`, but the peer `u1` is accepted, because the loop over the CAs ends with success at the first CA that is not a trusted CA of this device (here: one of a manufacturer). Without this CA the peer is refused.
* `Verif.Certs.stale_root_false` (C108): C108 is false as stated: the CA found in one handshake is kept for the next ones. After one handshake with a trusted chain a peer with a chain that ends in a CA of a manufacturer is accepted with the identity certificate; before it is refused.
* `Verif.Certs.removed_anchor_ub` (C108): C108: the CA found in a handshake is freed when its credential is deleted, the own certificate still refers to it, and the next handshake reads it.
* `Verif.Certs.root_false` (C106): C106 is false as stated: a CA with a name that has as many bytes as the name of the CA that issued it is accepted as a root although it is not self-issued.
* `Verif.Certs.intermediate_false` (C106): C106 is false as stated: an intermediate CA with a name that has as many bytes as the name of its issuer is refused as an intermediate CA.
* `Verif.Certs.tiers_false` (C106): C106 is false as stated: while the ownership is transferred, an intermediate CA without limit of the path length is accepted by the handshake (as a root) if its name has as many bytes as the name of its issuer.
* `Verif.Certs.issuer_ub` (C106): C106: an issuer with a name that is longer than what follows in the certificate from the subject on makes the comparison read beyond the certificate.
* `Verif.Certs.rsa_key_ub` (C106, C107): C106, C107: a certificate with an RSA key that is signed by ECDSA dereferences NULL, at any place of the chain. The check is done for certificates of peers that are not trusted.
* `Verif.Certs.wildcard_cn_false` (C109): C109 is false as stated: the name written for the wildcard cannot be read back.
* `Verif.Certs.garbage_uuid_false` (C109): C109 is false as stated: the text of the common name need not be a UUID. The result of its conversion is not looked at, and the peer keeps the UUID of before (of a new peer: the nil UUID).
* `Verif.Certs.cn_ub` (C109): C109: a byte above 127 in the common name after `uuid:` calls `isalpha` with a negative value.
* `Verif.Certs.role_key_ub` (C110): C110: a role certificate with a key longer than the one of the client makes the comparison start before the key of the client; the certificate has not been checked at this point.
* `Verif.Certs.role_other_anchor_false` (C110): C110 is false as stated: a role certificate signed by a CA of another device, or by a CA of a manufacturer, gives the client the role of the owner.
* `Verif.Certs.role_uppercase_false` (C110): C110 is false as stated: a UUID with upper case letters identifies the peer in the handshake, but a role certificate with the same common name is refused.
* `Verif.Certs.before_1970_false` (C111): C111 is false as stated: for times before 1970 the result is wrong by a day in most years, and it wraps around for all of them. The first day of 1967 is 1096 days before 1970, the result is 1095 days.

### Client

* `Verif.Client.ping_close_ub` (C65): The handler of a ping that timed out closes the session of its peer: the request of the ping is released in `oc_ri_free_client_cbs_by_endpoint_v1`, and again in `oc_remove_ping_handler_async` (oc_ping.c:41).
* `Verif.Client.timeout_close_ub` (C65): The handler of a confirmable request over a secure session that timed out closes the session: `coap_send_transaction` goes on with a transaction that is gone (transactions.c:193).
* `Verif.Client.check_next_ub` (C65): Two confirmable requests over a secure session; the first one times out and its handler makes a new request. The second transaction is removed with the session, but the number of transactions is only one less than before, so `coap_check_transactions` goes on with it (transactions.c:254-259).
* `Verif.Client.failed_post_ub` (C65): `oc_do_post` whose message cannot be built uses the request buffer after it was released.
* `Verif.Client.get_between_post_ub` (C65): `oc_init_post`, another request, `oc_do_post`: the other request resets what was prepared, and `oc_do_post` uses a null pointer.
* `Verif.Client.stop_observe_fails_ub` (C65): `oc_stop_observe` that fails in the handler of a notification releases the request; the code after the handler uses it.
* `Verif.Client.init_twice_false` (C63): `oc_init_post` twice: the first request is neither sent nor scheduled for removal nor released.
* `Verif.Client.unsolicited_observe_false` (C63): A response with the Observe option to a GET request that did not ask for it keeps the request: its handler is called for every response of the server.
* `Verif.Client.stop_discovery_false` (C63): `OC_STOP_DISCOVERY` does not end a discovery: the loop that should end the request skips discoveries (oc_client_cb.c:293-294), and the handler is called for the next response.
* `Verif.Client.stop_multicast_false` (C63): `oc_stop_multicast` in the handler does not stop it: the loop that should end the request skips multicasts.
* `Verif.Client.bad_payload_false` (C63): A response with a payload that cannot be parsed ends a request with a timeout without any call of its handler.
* `Verif.Client.old_notification_false` (C64): After a notification that is older than the last one (OSCORE), the observation is marked as in use for ever: the closing of the session does not end it.
* `Verif.Client.foreign_response_false` (C63): A response from another endpoint with the right token is accepted.
* `Verif.Client.retry_never_ends_false` (C64): A handler that makes its request again when the session was closed is called for ever: the loop that ends the requests of the peer never comes to its end.

### Cloud

* `Verif.Cloud.short_timeout_ub` (C72): Disagreement with the code: a timeout of less than a second is accepted, but the first use of it fails an assertion (without assertions the request gets no timeout, and one of 1 ms divides by zero).
* `Verif.Cloud.no_timeout_false` (C72): Disagreement with the code: an array of size zero is accepted and means that there are no tries at all: a provisioned device that starts fails, reconnects, restarts and starts again for ever, each time without any delay.
* `Verif.Cloud.no_payload_ub` (C74): Disagreement with the code: a cloud that answers registering with success but without payload makes an assertion fail (without assertions a NULL pointer is followed).
* `Verif.Cloud.lifetime_ub` (C74): Disagreement with the code: the milliseconds of the lifetime of a token are calculated in 64 bits with sign; the cloud may answer a login with one that overflows.
* `Verif.Cloud.many_servers_ub` (C74): Disagreement with the code: more than 255 servers can be in the list, then starting the manager fails an assertion (without assertions the number of servers left is wrong).
* `Verif.Cloud.unprovisioned_false` (C74): Disagreement with the code: a device that was never provisioned and whose manager is started says it is ready to register, after the network came up.
* `Verif.Cloud.ping_unsent_false` (C75): Disagreement with the code: a ping that cannot be sent is not tried again and does not lead to reconnecting: the device stays logged in with nothing pending at all.
* `Verif.Cloud.deregister_stuck_false` (C77): Disagreement with the code: a deregistration that fails because the request cannot be sent leaves the device deregistering: nothing is pending, and every later call is refused because a deregistration is said to be running.
* `Verif.Cloud.deregister_ub` (C74, C77): Disagreement with the code: if the token had to be refreshed to deregister and the login that follows cannot be sent, the parameters of the deregistration are read after they were freed.
* `Verif.Cloud.unresolved_false` (C73): **C73 is false of the code in this case.** The name of the selected server cannot be resolved: after the last try the manager fails and tries no other server, though two others are known.
* `Verif.Cloud.silent_server_false` (C73): **C73 is false of the code in this case.** A TCP connection to the selected server is made and the server does not answer: after the last try the connection is closed in order to go to another server, but its end restarts only a registered device. Nothing is pending any more, no other server was tried, and the status stays "registering".

### CloudRd

* `Verif.CloudRd.collection_ub` (C103): A collection deleted while the cloud client knows it: the next publication reads freed memory.
* `Verif.CloudRd.deleted_unanswered_false` (C105): A resource deleted before its publication is answered stays at the cloud for ever.
* `Verif.CloudRd.republished_false` (C105): So does a resource published long ago, if it is deleted after all resources are published again (`oc_cloud_publish_resources` or the hourly callback) and before that is answered.
* `Verif.CloudRd.added_again_false` (C105): A resource removed while the device is not logged in and added again: after logging in it is published and then removed by its old instance id, because the waiting removal is not found (its resource was cleared), api/cloud/oc_cloud_rd.c:199-203, 361-363.
* `Verif.CloudRd.lost_false` (C105): A removal is forgotten as soon as it is sent: if the connection is lost then, the resource stays at the cloud.

### CloudStore

* `Verif.CloudStore.restart_memory_false` (C71): **C71, counterexample.** If memory runs out while the servers are read, the device comes up with a part of them, without an error.
* `Verif.CloudStore.restart_wildcard_false` (C71): **C71, counterexample.** If the selected server has the UUID `*`, all servers are lost by a restart; the default server is there instead.
* `Verif.CloudStore.restart_empty_false` (C71): **C71, counterexample.** If all servers have been removed, the default server is there after a restart.

### Coap

* `Verif.Coap.header_length_65805_false` (C13): Limit of C13: a length of 65805 is not expressible; the serializer does not refuse it but writes the header of length 269.
* `Verif.Coap.block_decode_four_bytes_false` (C15): Disagreement: a four byte block option is accepted, and its offset is not `number * size` (the number is masked to 20 bits, the offset is not).
* `Verif.Coap.split_empty_segment_false` (C16): Disagreement: an empty segment is not written as an empty option; `a//b` is sent as the two segments `a` and `/b`.

### CoapMsg

* `Verif.CoapMsg.serialize_zero_buffer_false` (C17): A buffer size of zero disables both checks: the bytes are stored although there is no room.
* `Verif.CoapMsg.accept_without_version_false` (C17): C17 fails when Accept has no version option but Content-Format has one: the Content-Format version is written with the option delta 2053 - 2049 although no option 2049 precedes it, so that the receiver sees the unknown critical option 21 and refuses the message.
* `Verif.CoapMsg.empty_message_token_false` (C17): An empty message with a token announces the token but does not contain it.
* `Verif.CoapMsg.short_token_false` (C18): C18 is false without the condition on the token: a four byte datagram that announces a token of eight bytes passes validation and is parsed, the token being whatever the buffer holds behind the datagram; in a buffer cut to the datagram the read is out of bounds.
* `Verif.CoapMsg.truncated_option_false` (C18): C18 is false for a datagram whose last option header announces extension bytes: they are read before the length is checked.
* `Verif.CoapMsg.short_datagram_false` (C18): C18 is false for datagrams shorter than the CoAP header.

### Collection

* `Verif.Collection.add_twice_ub` (C96): Adding a link that is already in the collection: the list of links has no end any more, the next request to the collection does not end.
* `Verif.Collection.add_twice_loses_false` (C96): Adding a link that is already in the collection, with another link to the same URI behind it: that link is lost, although it was not removed.
* `Verif.Collection.delete_dangling_false` (C97): A collection with two links to the same resource: only one of them is removed when the resource is deleted, the other one leads to freed memory.
* `Verif.Collection.delete_other_device_false` (C97): A collection of another device keeps its link to a deleted resource.
* `Verif.Collection.delete_wrong_link_false` (C97): Deleting a resource can take the link of another resource with the same path (of another device) from a collection that links both, and leave the link to the deleted resource.
* `Verif.Collection.free_collection_dangling_false` (C97): Deleting a collection leaves the links of other collections to it: they lead to freed memory.
* `Verif.Collection.interface_bypassed_false` (C98): A request through the batch interface calls the handler of a resource for a method that the default interface of the resource does not allow: a direct request would be refused (`Ri.maskAllows`). Here a sensor is changed.
* `Verif.Collection.stale_payload_false` (C99): An item without an object gets the payload of an earlier item.
* `Verif.Collection.earlier_error_false` (C99): The failure of an item is forgotten when a later item succeeds: access to the first resource is denied, the answer is 2.04.
* `Verif.Collection.unknown_href_false` (C99): An item for a resource that the collection does not link is ignored when a later item succeeds.
* `Verif.Collection.member_names_false` (C99): The names of the members of an item are not looked at: with two texts the last one is the link that is used, whatever it is called.
* `Verif.Collection.partly_applied_false` (C99): The items before a malformed one have been applied although the answer is 4.00, and the observers are not notified.
* `Verif.Collection.empty_collection_false` (C99): The batch interface of a collection without links, or without links that pass the filter, answers a GET with 4.00.
* `Verif.Collection.baseline_post_false` (C99): A POST through the baseline interface is answered with 4.00 although the properties were set.
* `Verif.Collection.nested_error_false` (C99): A failure inside a linked collection is not seen: the request to the linked collection is answered with 4.00, the request as a whole with 2.02.
* `Verif.Collection.cycle_ub` (C100): Two collections that link each other, both with the batch interface as the default: no depth of the stack is enough for a GET.

### ConRes

* `Verif.ConRes.half_false` (C148): A request that is refused because of its location has changed the name and notified the observers of /oic/d (api/oc_con_resource.c:121-146).
* `Verif.ConRes.late_false` (C148): A callback for writes is set for the devices that are there; a device that is added later has none (api/oc_con_resource.c:168-173).

### Cred

* `Verif.Cred.refused_loses_false` (C37): C37 false: a refused credential (here: a key of a wrong length) removes the credential that had its id.
* `Verif.Cred.duplicate_chain_loses_false` (C37): C37 false: replacing credential 2 by a certificate that is already there as credential 1 answers with success and id 1, and credential 2 is gone.
* `Verif.Cred.refused_post_partly_applied_false` (C37): C37 false: a request that is refused because of its second credential has already stored the first.
* `Verif.Cred.replaced_owner_ub` (C37): C37 false: if the credential remembered as the owner's is replaced by a later object of the same payload, freed memory is read.
* `Verif.Cred.roles_post_takes_owner_false` (C54): C54 false: a request to the **roles** resource with a property `rowneruuid` changes the owner of the **credential** resource, in every state, for every session.
* `Verif.Cred.takeover_false` (C54): C54 false: so every authenticated peer of a device in normal operation can get access to the credentials. The access control decision lets it POST to the roles resource; after that it lets it GET, POST and DELETE the credential resource.
* `Verif.Cred.role_changes_credential_false` (C54): C54 false: asserting a role with the id of a credential of the device changes the owner flag of that credential, in normal operation.

### Dedup

* `Verif.Dedup.first_request_mid0_false` (C23): C23 is false for message id 0 of device 0: the zero entries of the empty history make the very first such request a repetition.
* `Verif.Dedup.other_client_dropped_false` (C23): C23 is false if two clients happen to use the same message id: the request of the second one is dropped.
* `Verif.Dedup.confirmable_repetition_false` (C23): Confirmable requests are never recognised as repetitions.

### Delayed

* `Verif.Delayed.stale_on_delete_false` (C61): Removing with `on_delete` from inside a callback makes the library apply that function to the data of a later callback that has nothing to do with the removal: callback 0 (data 10) removes itself with `on_delete` 7, then callback 1 (data 20) is done and 7 is applied to 20, e.g. freeing memory that is not its own (`g_currently_processed_event_on_delete` is not reset before each callback, oc_event_callback.c:206-213).
* `Verif.Delayed.match_all_keeps_current_false` (C61): A callback that removes all callbacks that match, itself included, is not removed itself if another matching one follows in the list: it is kept and runs again (`want_to_delete_currently_processed_event_cb` is set to false by the later match, oc_event_callback.c:133-147).
* `Verif.Delayed.delete_periodic_resource_ub` (C62): A periodic resource that is observed is deleted; when its timer expires the library uses the freed resource (`ri_delete_resource`, oc_ri.c:548-624, does not call `oc_periodic_observe_callback_remove`; the handler dereferences its data, oc_event_callback.c:236-237).
* `Verif.Delayed.other_observers_lose_periodic_false` (C62): Two clients observe a periodic resource, one cancels: the resource has an observer but no periodic callback, so the remaining client gets no more periodic notifications (oc_ri.c:969-971 removes the callback without looking at the other observers).

### Dhcp

* `Verif.Dhcp.hex_malformed_false` (C122): **C122 is false of malformed texts.** Empty places between colons are read as zeros, and "123" as the bytes 0x12 and 3, instead of giving the error.
* `Verif.Dhcp.parse_foreign_false` (C122): **C122 is false of foreign options.** One option with another code, which DHCP servers send to other software, makes the client refuse the whole buffer.
* `Verif.Dhcp.address_kept_false` (C122): **C122 is false of unusable addresses.** An address of 128 characters, one more than an address may have, is not refused: the call reports that the device must be provisioned again, and no address is left to do so.
* `Verif.Dhcp.fingerprint_alone_false` (C122): **C122 is false of options without an address.** A fingerprint alone removes the address in use; a fingerprint without the name of its algorithm replaces the pinned one by none.

### Discovery

* `Verif.Discovery.granted_missing_false` (C113): C113: a resource that the client may read only later keeps its older ETag and is missing from every incremental answer, although the answer is 2.03 Valid.
* `Verif.Discovery.deleted_kept_false` (C113): C113: the client is not told that a resource was deleted: the answer is 2.03 Valid and the copy keeps a resource that does not exist.
* `Verif.Discovery.long_path_false` (C113): C113: paths that differ only after 256 bytes have the same href, so one element of the answer replaces the other in the client's copy.
* `Verif.Discovery.map_payload_ub` (C114): C114: an answer that is a map with a number, as `{"a": 1}`, makes the client take the number for a pointer (oc_discovery.c:1372 reads `value.object` without looking at the type). Any host that answers a discovery can send it.
* `Verif.Discovery.short_anchor_ub` (C114): C114: so does a link with an anchor of less than 6 bytes: `oc_string(*anchor) + 6` points beyond the text (oc_discovery.c:1407).
* `Verif.Discovery.stale_link_false` (C114): C114: a link without anchor, types and interfaces is reported with those of the link before it: only `di`, `bm` and the endpoints are reset for every link (oc_discovery.c:1348-1354, 1396-1398).
* `Verif.Discovery.rel_after_if_false` (C114): C114: an array of strings that is neither "rt" nor "if" replaces the interfaces: with "rel" after "if" the resource has none (oc_discovery.c:1413-1426).
* `Verif.Discovery.eps_before_anchor_false` (C114): C114: with the endpoints before the anchor no device identity is stored in the endpoints: they get what the local variable happens to hold (oc_discovery.c:1396, 1462).
* `Verif.Discovery.links_property_false` (C114): C114: a property "links" of the first link replaces the whole directory (oc_discovery.c:1372-1392).
* `Verif.Discovery.two_arrays_leak_false` (C114): C114: the endpoints of a link with two arrays of objects, of any names, leak: the first list is dropped when the second starts (oc_discovery.c:1427-1430, 1451-1457).
* `Verif.Discovery.more_to_come_false` (C114): C114: the last call of the handler may say that more are to come: the link after it has no endpoint the client can use, and no call is made for it (oc_discovery.c:1499-1504).
* `Verif.Discovery.baseline_no_match_false` (C112): C112: a multicast request over the baseline interface that asks for a type no resource has is answered with 2.03 Valid by every device, though a client that sends no ETag holds nothing that could be valid: the code returns `OC_STATUS_NOT_MODIFIED` where the list of links has `OC_IGNORE` (oc_discovery.c:1149).

### Doxm

* `Verif.Doxm.garbage_owner_false`: A malformed uuid in an accepted update becomes a truncated one.

### Dps

* `Verif.Dps.Cert.renewal_late_false` (C125): **C125 fails.** The end of the validity used for the renewal is that of the last certificate of the chain, which overwrites that of the device's own certificate (security/oc_cred.c:1063-1079 calls the check for each certificate in turn with the same data). A device whose own certificate ends at 9000 s and whose intermediate certificate lasts for years is told to renew in 60 million seconds' time.
* `Verif.Dps.Cert.renewal_short_false` (C125): **C125 fails for short limits.** With a limit of zero and five seconds left the renewal is put off for ten seconds: it runs after the certificate has expired.
* `Verif.Dps.Cert.clock_unknown_false` (C125): **C125 fails without the time.** If the clock cannot be read, all readable certificate credentials of the provisioning service are deleted, although nothing is known about their validity.
* `Verif.Dps.Pin.pin_untrusted_false` (C124): **C124 is false: a fingerprint opens the device to everybody.** Anybody can make two certificates, the second signing the first. No trust anchor and no fingerprint matches, and without a fingerprint the device refuses them; but with a fingerprint the complaint about the second certificate is dropped, nothing is wrong with the first one, and the device accepts the server.
* `Verif.Dps.Pin.pin_unsigned_false` (C124): **C124 is false: a copy of the pinned certificate is enough.** A server that presents a certificate of its own and, behind it, a copy of the pinned certificate, which is public, is accepted although the pinned certificate did not sign the server's.
* `Verif.Dps.Prov.cloud_answer_stuck_false` (C127): The answer to the cloud step has a success code but no usable configuration: the handler reports a failure and schedules nothing (`plgd_dps_provision_cloud.c` 316-318), so provisioning stops for good, with the manager started and no timer and no request left; the other four steps retry.
* `Verif.Dps.Prov.no_cloud_context_stuck_false` (C127): Without a cloud context the end of provisioning reports a failure and schedules nothing (`plgd_dps_provision.c` 556-560 and 484-503): nothing continues, although all steps are done.
* `Verif.Dps.Prov.reset_stuck_false` (C127): A factory reset does not remove the pending restart (`plgd_dps_context.c` 129-144 removes the timers of `dps_manager_stop` only): the restart marks the manager as started with an empty status, so a later start by the application reports success and does nothing (`plgd_dps_manager.c` 148-151).
* `Verif.Dps.Prov.renewal_livelock_false` (C127): The handlers compare the whole status with the one they expect, and a full provisioning removes neither the record of a renewal nor that of a started cloud (`plgd_dps_manager.c` 299-307). After the history above - every answer but one time-out is good - the device never completes even the first step again, whatever the service answers, until the application restarts provisioning.
* `Verif.Dps.Prov.stop_answer_false` (C127): The application stops the manager while a request is in flight. Closing the session answers it with `OC_CONNECTION_CLOSED` (`security/oc_tls.c` 544, `api/client/oc_client_cb.c` 311-326); the handler does not look at whether the manager runs and schedules a retry, and the device provisions on: here it asks for the time again.
* `Verif.Dps.Prov.stop_interface_false` (C127): The application stops the manager before the first request, for instance without a network. The callback for interfaces stays registered and restarts every context whose status is INITIALIZED (`plgd_dps.c` 150-158, `plgd_dps_manager.c` 252-254): when the network comes up the stopped manager runs and asks for the time.
* `Verif.Dps.Retry.counter_ub` (C123): **C123 is false of other schedulers.** An application's scheduler that lets the client go on for ever, as its contract allows, makes the assertion on the counter fail after the eighth failure.

### Encode

* `Verif.Encode.too_long_false` (C142): A request whose payload is too long for the device is not refused: it is sent without any payload and reported as sent (api/oc_client_api.c:79-133).
* `Verif.Encode.long_answer_ub` (C142): A GET whose answer is too long for the device and whose handler does not look at the result of the encoder is answered with a payload of 2^32-1 bytes: a peer that asks for its blocks reads the memory behind the answer (api/oc_server_api.c:164-169, api/oc_ri.c:1204-1205, api/oc_blockwise.c:415-431).
* `Verif.Encode.long_answer_false` (C142): The answer to another method is given without payload, as a success.
* `Verif.Encode.get_between_ub` (C142): A request without payload made between `oc_init_post` and `oc_do_post` takes the place of the request in preparation: `oc_do_post` dereferences NULL (api/oc_client_api.c:82, 178).
* `Verif.Encode.store_between_false` (C142): A record stored between `oc_init_post` and `oc_do_post` (by a delayed callback, or by a setter that stores its value) moves the encoder: the request is sent with the length of the record, and with memory that was never written (api/oc_storage.c:196, api/oc_client_api.c:81-113).
* `Verif.Encode.closed_between_ub` (C142): If the connection to the endpoint is closed between `oc_init_post` and `oc_do_post`, the request buffer is freed but not forgotten: the next request to any endpoint, with or without payload, reads freed memory (api/client/oc_client_cb.c:226-228, api/oc_client_api.c:172-175).
* `Verif.Encode.not_serialised_ub` (C142): A request with a payload that cannot be serialised (a long path or query) frees its callback and with it the request buffer, which is read right after (api/oc_client_api.c:150-154, 172-175).
* `Verif.Encode.store_first_ub` (C142): A handler that stores a record before it encodes its answer writes the answer to freed memory (api/oc_storage.c:96-104, 228; the encoder is not set back).
* `Verif.Encode.request_first_false` (C142): A handler that makes a request before it encodes its answer encodes the answer into the message of that request, and answers with memory that was never written (api/oc_client_api.c:234, api/oc_server_api.c:164-169).
* `Verif.Encode.update_false` (C142): A request made between `oc_init_multicast_update` and `oc_do_multicast_update` changes the packet of the update: the update goes to the path of that request, with memory that was never written (api/oc_client_api.c:315-353: `g_request.packet` is shared).
* `Verif.Encode.update_not_begun_ub` (C142): `oc_do_multicast_update` without an update in preparation dereferences NULL when anything was encoded last (api/oc_client_api.c:323-326).
* `Verif.Encode.sticky_format_false` (C142): The encoding a peer asks for stays in use: after a request with Accept JSON, records are stored as JSON, while they are read as CBOR after a restart, and this device's own requests are JSON (api/oc_ri.c:1393, api/oc_rep.c:53-75, api/oc_rep_decode.c:28).
* `Verif.Encode.unknown_accept_false` (C142): An answer to a request with an Accept that the device does not know is labelled with that format, though encoded in the one used last (api/oc_ri.c:1393 ignores the result, api/oc_server_api.c:180-184).
* `Verif.Encode.twice_false` (C142): An answer given twice by a handler (first a success, then a changed mind, or the other way round) to a request with Accept JSON is encoded as JSON and labelled as CBOR (api/oc_server_api.c:180-184).

### Endpoint

* `Verif.Endpoint.roundtrip_mapped_false` (C66): The text "::ffff:1.2.3.4" that `inet_ntop` makes for an IPv4-mapped address is not read back: a segment longer than four bytes is refused.
* `Verif.Endpoint.toCString_min_false` (C66): The text `coap://[::]:5` needs 14 bytes with its terminator, but a buffer of 14 bytes is refused: the code takes "[::1]:X" for the shortest text.
* `Verif.Endpoint.parse_colon_false` (C67): `coap://1.2.3.4/a:b` is refused although its port is left out and a colon is allowed in a path: the first colon anywhere is taken for the port's.
* `Verif.Endpoint.parse_port_false` (C67): `coap://1.2.3.4:65537` is accepted, with port 1.
* `Verif.Endpoint.parse_octet_false` (C67): `coap://1.2.3.256` is accepted, as address 1.2.3.0.
* `Verif.Endpoint.parse_name_false` (C67): `coap://host1` is accepted as the address 0.0.0.0; the resolver is not asked, because the name ends with a digit.
* `Verif.Endpoint.parse_emptyPort_false` (C67): `coap://[::1]:`, a URI with an empty port, is read as the IPv4 address 0.0.0.1: the search for the port's colon leaves out the last byte.
* `Verif.Endpoint.parse_hex_false` (C67): `coap://[::zz]` is accepted: bytes that are no hexadecimal digits are taken over as they are.
* `Verif.Endpoint.compare_trans_false` (C68): With session 0, which stands for any session, equality is not transitive: two endpoints of different sessions both equal the one without a session.
* `Verif.Endpoint.parsePath_ub` (C69): Asking for the path of an empty string object (its pointer is NULL) hands NULL to `strstr`.
* `Verif.Endpoint.linkLocal_prefix_false` (C68): Of the prefix fe80::/10 that RFC 4291, 2.4 reserves for link-local addresses only fe80::/16 is recognised.

### Engine

* `Verif.Engine.during_reset_false` (C135): C135: false for requests with a block option: they are handled although the device is being reset and they are not secured (engine.c:518-520 goes around the check of :529-536).
* `Verif.Engine.settled_once_false` (C135): C135: false if the handler sets no code: the last block of a confirmable upload is acknowledged and then reset, with the same message id (engine.c:371-374, :827, :1207).
* `Verif.Engine.ping_false` (C135): C135: false that an empty confirmable message (a ping of RFC 7252 4.3) gets a reset: it gets an acknowledgement (engine.c:875-878).
* `Verif.Engine.unwanted_false` (C135): C135: false that a response nobody waits for is rejected with a reset (RFC 7252 5.3.2): no transaction exists, so the reset prepared at engine.c:1207 is not sent (:606-609); a confirmable one is even acknowledged. A server therefore never learns that its notifications are not wanted.
* `Verif.Engine.type_false` (C135): C135: false that only confirmable and non-confirmable messages carry requests: a reset or an acknowledgement with a request code is served (engine.c:1066, RFC 7252 4.2, 4.3).
* `Verif.Engine.invalid_false` (C135): C135: false that the error sent for a malformed message that is not confirmable has a message id of its own: it has that of the message (engine.c:1107-1109).
* `Verif.Engine.stranger_false` (C135): C135: false that only the peer can settle a transaction: a message of anybody with the same message id, even a request, ends the retransmission (engine.c:1136-1140).
* `Verif.Engine.tcp_block_first_ub` (C136): C136: the first message a device receives, a request over TCP with a block option, is a NULL pointer access: the static context is used before it is set (engine.c:1122, 1160-1164, 1203).
* `Verif.Engine.tcp_block_ub` (C136): C136: the same after another message was served: the static context still points to the transaction of that message, which was freed (engine.c:1218, transactions.c:203-214).
* `Verif.Engine.tcp_block_elsewhere_false` (C136): C136: false that what is sent because of a message goes to its sender: if the transaction of the message before is still there (a confirmable answer to `oic/res`), the error goes to the other peer, over UDP in the framing of TCP.
* `Verif.Engine.tcp_block_silent_false` (C136): C136: false that a message over TCP with a block option is answered: after a message that needed no transaction there is silence.
* `Verif.Engine.csm_again_false` (C137): C137: false that at most one CSM is sent over a session: until the peer's CSM comes, every message over an accepted session has a CSM ahead of it (coap.c:1437-1438 does not note that it was sent).
* `Verif.Engine.csm_missing_false` (C137): C137: false that the first message over a connection is a CSM (RFC 8323 5.3): a device that connects never sends one, because its session begins as if it had (tcpsession.c:578).
* `Verif.Engine.signal_udp_false` (C137): C137: false that signals exist only over TCP: a message over UDP with the code of a ping or a CSM is answered by a message in the framing of TCP, and one with the code of a release goes to `oc_close_session` (signal.c:194-236, engine.c:1147-1152).

### EpAddr

* `Verif.EpAddr.remove_gone_ub` (C70): **C70, counterexample.** Removing an item that was removed before is undefined: its memory is read before the list is searched.
* `Verif.EpAddr.calls_reinit_false` (C70): **C70, counterexample.** Starting over without a default server changes the selected server to none, but the callback is not called.

### Etag

* `Verif.Etag.bare_key_ub` (C56): C56. `incChanges` without '=': the distance between a null pointer and the query is computed (oc_etag.c:180).
* `Verif.Etag.wrap_around_false` (C46): Without the bound the claim is false: the counter starts again (the code only logs this, oc_etag.c:85-88).
* `Verif.Etag.clock_reset_false` (C55): The clock of the device starts at 0 after a restart (no battery) and the payload of `/a` has changed: the ETag 8 is handed out for the second time, although the ETags were dumped and loaded. Loading skips entries whose checksum does not match before it looks for the largest ETag (oc_etag.c:353-391).
* `Verif.Etag.pending_notification_false` (C55): After a POST the ETag is only updated by a delayed callback (oc_ri.c:1194): a GET that is served before it is answered 2.03 for the old ETag although the payload has changed.

### Etimer

* `Verif.Etimer.no_current_process_ub` (C11): Without a current process (the code does not check it) setting a timer twice corrupts the timer list.

### Factory

* `Verif.Factory.zero_false` (C131): C131 fails for a member numbered 0: the search stops at once, and the URI it gives is that of the member 1.
* `Verif.Factory.twice_false` (C131): C131 fails for two links to the same resource: the search stops at the second.
* `Verif.Factory.sign_false` (C131): C131 fails for a name that is read as a number but is not one, such as `-1` or `+7`: these come before the members from 10.
* `Verif.Factory.random_false` (C131): C131 fails for a collection with a long URI: the new resource has a random URI outside the collection, which is not compared with the others.
* `Verif.Factory.free_all_ub` (C132): C132 fails for a destructor that deletes the next created resource too: its record is read after it was freed.
* `Verif.Factory.stale_grant_false` (C132): C132 fails for permissions of deleted resources: the number of a deleted resource is used again, and who created the deleted one may still retrieve, update and delete the one that now has its URI.
* `Verif.Factory.wildcard_entry_false` (C132): C132 fails for an access control list with an entry that has a name and a wildcard: the entry is taken for the new one, but it covers the resource only if the wildcard does.
* `Verif.Factory.anonymous_creator_false` (C132): C132 fails for a requester without an identity (an unsecured connection): the permission is given to the nil UUID, which every such client has.
* `Verif.Factory.other_array_false` (C132): C132 fails for other arrays of strings: the interface is taken from an array that is not called `if`.
* `Verif.Factory.second_type_false` (C132): C132 fails for further types: only the first type is compared with those the collection supports.
* `Verif.Factory.policy_order_false` (C132): C132 fails for policies in which `bm` is not the first property: it is ignored.
* `Verif.Factory.second_factory_false` (C132): C132 fails for a second factory of a type: `oc_collections_add_rt_factory` says that it was registered, but it is never used.
* `Verif.Factory.elsewhere_false` (C131): C131 fails for an application resource outside the collection's links whose URI is that of a free number: the created resource is not added to the device but linked, and requests to it go to the other resource.

### Json

* `Verif.Json.escape_false` (C79): Escape sequences are not decoded: the JSON text of an object whose member is a line feed (one character, written as the escape sequence backslash, n) is decoded to the two characters backslash and n (jsmn_parse_string util/jsmn/jsmn.c:183-185 and json_parse_string_value api/oc_rep_decode_json.c:55 copy the text between the quotes), so C79 is restricted to strings that need no escape sequence.
* `Verif.Json.long_item_false` (C79): Items of string arrays are cut after 127 bytes without an error (json_assign_array_string_values api/oc_rep_decode_json.c:368-372).
* `Verif.Json.fraction_false` (C79): Numbers with a fraction are read as the integer in front of the point, and any characters after the digits are ignored (json_parse_int api/oc_rep_decode_json.c:149-154 does not look where `strtoll` stopped).
* `Verif.Json.null_root_ub` (C80): An array of objects whose parsing fails is reported as success: json_parse_array_object returns the (nonzero) error code as a `bool` (api/oc_rep_decode_json.c:432-438). At the root no node exists then, and oc_rep_parse_json dereferences the NULL pointer `data.root.rep` (line 547). Five bytes in a request with the JSON content format suffice.
* `Verif.Json.unknown_member_false` (C80): Inside an object the same error leaves a member of the undefined type 255 in the decoded representation; only the first member of an object is checked (api/oc_rep_decode_json.c:210-217).
* `Verif.Json.injection_false` (C82): Strings are written without escaping (rep_json_encode_text_string api/oc_rep_encode_json.c:203-206): a string value with quotes in it adds members to the object, here `admin`, and the decoder of the same library accepts the result.
* `Verif.Json.empty_array_false` (C82): An empty array is read back as `nil`, so C82 is restricted to arrays with elements.
* `Verif.Json.double_false` (C82): A floating point number is written with its fraction and read back as the integer in front of it.

### Life

* `Verif.Life.collection_observed_ub` (C143): A collection that has an observer is deleted: the observer stays, and when its client leaves the freed memory is written.
* `Verif.Life.collection_reused_false` (C143): A collection that has an observer is deleted, and another one is made in the same memory: the observer is notified of the other collection.
* `Verif.Life.collection_pending_ub` (C143): A collection whose observers were to be notified later is deleted: the callback stays and reads freed memory.
* `Verif.Life.collection_linked_ub` (C143): A collection that another collection links is deleted: the link stays, and the other collection reads freed memory when it tells its observers.
* `Verif.Life.linked_twice_ub` (C143): A resource that is linked twice in a collection is deleted: one link stays, and the collection reads freed memory.
* `Verif.Life.linked_elsewhere_ub` (C143): A resource that a collection of another device links is deleted: the link stays, and the collection reads freed memory.
* `Verif.Life.linked_namesake_ub` (C143): A collection links two resources with the same URI, of two devices: deleting the one of its own device takes away the link to the other one, and the collection reads freed memory.
* `Verif.Life.linked_early_ub` (C143): A resource that is linked from a collection that was not added yet is deleted: the link stays, and the collection reads freed memory.
* `Verif.Life.second_collection_false` (C143): Two collections link a resource that changed, the first without observers: those who watch the second one with the batch interface are not told.

### Mmem

* `Verif.Mmem.double_free_ub`: Freeing a handle twice is outside the obligations (and undefined).

### MsgRef

* `Verif.MsgRef.wrap_ub` (C94): With 257 references the count has wrapped around to 1: giving one back deallocates the message while 256 references are held; giving back another is a use after free.
* `Verif.MsgRef.lost_false` (C94): With 256 references the count is 0: giving one back does nothing, so that after all were given back the message is never deallocated.

### Notify

* `Verif.Notify.iface_false` (C139): An observer that asked for another interface is notified with the representation for the default interface of the resource.
* `Verif.Notify.busy_lost_false` (C139): A change while a notification in blocks is under way to an observer is not told to it, then or later, although the call counts it as notified: it keeps the representation before the change.
* `Verif.Notify.shared_code_false` (C139): An observer with the revert interface makes those after it get the code 2.03 with their representation, when the representation is shared.
* `Verif.Notify.error_untold_false` (C139): An error without a payload is not told to the observers.
* `Verif.Notify.error_stays_false` (C139): An error with a payload is told with the Observe option 1, and the observer stays registered: the next change is notified to it again, although RFC 7641 (3.2, 4.2) wants the registration to end and the option to be left out.
* `Verif.Notify.leaked_false` (C139): A handler that gives no answer for one of the observers makes it get the representation that was made for the observer before.
* `Verif.Notify.rest_untold_false` (C139): When there is no buffer for the notification of one observer, those after it are not notified.
* `Verif.Notify.collection_skipped_false` (C139): A collection that nobody observes keeps the collections after it from telling their observers of the change of a member.

### Observe

* `Verif.Observe.counter_wraps_false` (C24): C24 is false without the bound: after 256 clients registered for a resource its counter is 0 (so that it is not notified any more).
* `Verif.Observe.dangling_observer_false` (C24): ... and deleting the resource leaves all of them behind: the next removal reads the freed resource.
* `Verif.Observe.reregistration_stale_false` (C50): C50 fails across registrations: after about 2^23 notifications to one client a new registration of the same client starts at a number that the client takes for an older one, so it discards the newer content.

### Obt

* `Verif.Obt.retry_in_callback_ub` (C120): C120, refuted: an application may start the transfer again in the callback that tells its failure. `free_otm_state` (security/oc_obt.c:446-450) frees the device after the callback, so the new transfer holds a freed device; its next answer uses it.
* `Verif.Obt.two_transfers_ub` (C120): C120, refuted: two transfers of one device are accepted (nothing checks for a running one, security/oc_obt_otm_justworks.c:689-712); when the first fails it frees the device the second uses.
* `Verif.Obt.late_endpoints_ub` (C120): C120, refuted: the request for the endpoints of a discovered device keeps a pointer to it (security/oc_obt.c:651-653); if a transfer fails before the answer arrives, the answer writes to the freed device (547-607).
* `Verif.Obt.pin_credential_ub` (C120): C120, refuted: `oc_obt_perform_random_pin_otm` ends a context that has no device yet when the credential of the PIN cannot be added (security/oc_obt_otm_randompin.c:659-662), and `free_otm_state` reads the device through a null pointer (security/oc_obt.c:442-443).
* `Verif.Obt.two_resets_ub` (C121): C121, refuted: two hard resets of one device are accepted; the answer to the first frees the device (security/oc_obt.c:918), the second uses it.
* `Verif.Obt.reset_while_provisioning_ub` (C121): C121, refuted: a hard reset during provisioning frees the device the provisioning uses.
* `Verif.Obt.refused_start_false` (C120): C120, refuted: a call that returns -1 has no effect and does not call back. When the first request cannot be sent, the application is called, the call returns -1 and the device is forgotten (security/oc_obt_otm_justworks.c:717-724).
* `Verif.Obt.told_other_uuid_false` (C120): C120, refuted: the application is told the UUID it asked for. The device gets a new random UUID during the transfer, and that one is told (security/oc_obt_otm_justworks.c:518-541, security/oc_obt.c:454).
* `Verif.Obt.rediscovery_false` (C120): C120, refuted: a transfer succeeds if the device accepts every request it receives over a secured connection. A discovery during the transfer replaces the endpoints of the device by the one that answered (security/oc_obt.c:236-245), which is not secured, and the device refuses the next request.
* `Verif.Obt.orphaned_false` (C120): C120, refuted: a device whose transfer failed has no owner. If the request after the one that sets `owned` fails, the device belongs to the tool, is not ready for another transfer, and the tool has removed its key (security/oc_obt.c:446-449): only a reset at the device helps.
* `Verif.Obt.failed_entry_false` (C121): C121, refuted: when provisioning fails the device is in normal operation as before. Nothing takes it back from RFPRO (security/oc_obt.c:2572-2589, 2616-2636).
* `Verif.Obt.reset_unreported_false` (C121): C121, refuted: when a hard reset is told to have failed, the device is not reset. A device that resets may close the connection before its answer arrives; the tool then keeps the credential of a device that has no owner, and has forgotten it.

### ObtDel

* `Verif.ObtDel.zero_false` (C145): An access control entry with the id 0 can be there but cannot be deleted by the tool: the device takes 0 for an id it cannot read (security/oc_acl.c:517-525).
* `Verif.ObtDel.left_false` (C145): When there is nothing to delete the tool gives up and leaves a device that was in normal operation in the state for provisioning, in which it does not serve clients (security/oc_obt.c:3064-3072).
* `Verif.ObtDel.lost_false` (C145): When an answer is lost the application is told that its request failed though the credential is gone.
* `Verif.ObtDel.timeout_false` (C145): The end of a request by its timeout counts as an answer that the state was changed (security/oc_obt.c:844): success can be told though the device never left the state for provisioning.

### ObtFind

* `Verif.ObtFind.no_uuid_ub` (C147): An answer to a discovery without `deviceuuid` makes the tool use a UUID that has no value (security/oc_obt.c:616-645).
* `Verif.ObtFind.no_list_ub` (C147): An answer that is no list of links fails an assertion (security/oc_obt.c:559).
* `Verif.ObtFind.short_anchor_ub` (C147): Of an anchor that is shorter than the scheme what follows it is read (security/oc_obt.c:576).
* `Verif.ObtFind.ep_type_ub` (C147): A property `ep` that is a number is used as a text (security/oc_obt.c:483-489).
* `Verif.ObtFind.ep_name_false` (C147): A text of another name is used as an endpoint.
* `Verif.ObtFind.two_false` (C147): When a device answers two discoveries before it is asked for its endpoints, the application is told twice for the second and never for the first (security/oc_obt.c:656).
* `Verif.ObtFind.family_false` (C147): An answer that has only endpoints of the other family leaves a device of the tool without any, though it had some (security/oc_obt.c:599-601).

### ObtInit

* `Verif.ObtInit.key_ub` (C146): A stored private key that is too long is written past its array (security/oc_obt.c:353-354).
* `Verif.ObtInit.gid_ub` (C146): Of a stored group id that is too short more is read than there is (security/oc_obt.c:363).
* `Verif.ObtInit.never_ub` (C146): No history of starts, crashes and restarts of the tool makes it leave its arrays: what it loads is what it wrote.
* `Verif.ObtInit.crash_false` (C146): A tool that crashes in its first start between the first write and the last is taken for a running one at the next start, which succeeds with a group secret of zeros, no root certificate and no private key (security/oc_obt.c:3818-3823).
* `Verif.ObtInit.again_false` (C146): After a first start that failed for want of a certificate the next one is told to have succeeded, without a root certificate.
* `Verif.ObtInit.unsaved_false` (C146): A first start whose state cannot be written succeeds, and after a restart the keys are lost.

### ObtRead

* `Verif.ObtRead.empty_acl_ub` (C144): C144 fails for the empty list: the array without elements is not an array of objects, the tool's list is never initialised, and its length is read through a null pointer (security/oc_obt.c:3164, 3309; util/oc_list.c:167).
* `Verif.ObtRead.no_list_ub` (C144): C144: any successful response without an array of objects, such as one without a payload, has undefined behaviour.
* `Verif.ObtRead.unknown_conn_false` (C144): C144 fails for a type of connection that the tool does not know: it is shown as the authenticated one.
* `Verif.ObtRead.role_type_ub` (C144): C144: a role that is no text makes the tool copy from a null pointer (security/oc_obt.c:3198-3203 does not look at the type).
* `Verif.ObtRead.second_array_false` (C144): C144 fails for a second array of objects: whatever its name, the list read before is lost.
* `Verif.ObtRead.star_subject_false` (C144): C144 fails for a subject whose UUID starts with the byte of the character `*`: it is told as the wildcard (security/oc_cred.c:848), so that the credentials of two such devices look the same.
* `Verif.ObtRead.cred_role_type_ub` (C144): C144: a role of a credential that is no text makes the tool copy from a null pointer (security/oc_obt.c:2915-2931 does not look at the type).

### Oscore

* `Verif.Oscore.piv_exhausted_false` (C32): Limit of C32: from 2^40 on the number is cut off without any error, so that the partial IV of 2^40 + 1 is that of 1.
* `Verif.Oscore.piv_empty_false` (C32): Limit of C32: the partial IV of 2^40 is empty.
* `Verif.Oscore.nonce_long_piv_false` (C33): Limit of C33: with partial IVs of six bytes the id covers the first byte, so that different partial IVs would give the same nonce.
* `Verif.Oscore.piv_overflow_false` (C36): C36 fails: a flag byte announcing a partial IV of 6 bytes makes the parser write 6 bytes into its array of 5.
* `Verif.Oscore.truncated_piv_false` (C36): C36 fails: a partial IV announced and not there is read from behind the option.
* `Verif.Oscore.truncated_ctx_false` (C36): C36 fails: the same for the kid context and for its length byte.
* `Verif.Oscore.response_kid_lost_false` (C36): Limit of the round trip: the kid of a response is written, but not announced in the flag byte, and lost.
* `Verif.Oscore.truncated_scan_false` (C53): C53 fails for other datagrams: the extended delta of an option at the end is read from behind the datagram, and an empty one is not even looked at.
* `Verif.Oscore.zero_replayed_false` (C34): C34 fails for partial IV 0, the first one every sender uses: the request is accepted again and again.
* `Verif.Oscore.old_replayed_false` (C34): C34 fails for requests older than the last 32: number 1 is accepted again after 2 to 33.
* `Verif.Oscore.forged_flush_false` (C34): C34 fails: the window is moved by requests that are not authentic. After 32 forged requests the genuine one is accepted again.
* `Verif.Oscore.forged_blocks_false` (C34): The other side of it: a forged request makes the genuine one with the same partial IV be refused.
* `Verif.Oscore.no_piv_replayed_false` (C34): C34 fails for requests without a partial IV, which are not checked at all.
* `Verif.Oscore.crash_before_save_false` (C35): C35 fails: the restart itself is only saved by a callback. A message sent before that, a second crash and a restart, and the same number is used again.
* `Verif.Oscore.multicast_reuse_false` (C35): C35 fails for multicast requests: no save is ever scheduled for them.
* `Verif.Oscore.skipped_save_false` (C35): C35 fails if the number divisible by 32 always falls on a request that is refused: the test is not reached and no save is scheduled, although saves run as soon as they are scheduled.
* `Verif.Oscore.reprovisioned_reuse_false` (C35): C35 fails if the same credential is provisioned a second time: the messages go on with the first context, the number saved is that of the second.

### OscoreEng

* `Verif.OscoreEng.plain_response_false` (C140): C140 fails for unprotected responses: a response without OSCORE that carries the token (which travels in clear) is passed on and finds the waiting request that was sent protected.
* `Verif.OscoreEng.notification_again_false` (C140): C140 fails for repeated notifications: the same notification, sent again by anybody, is accepted again and given to the handler again.
* `Verif.OscoreEng.notification_old_false` (C140): C140 fails for old notifications: with the outer Observe value (not authenticated) set to 0 an old notification is accepted after a newer one, and given to the handler.
* `Verif.OscoreEng.retransmission_false` (C140): C140 fails for retransmissions: after the first transmission of a confirmable response its own partial IV stands in the message, so that the retransmission is protected as the answer to another request and refused by the client.
* `Verif.OscoreEng.late_response_false` (C140): C140 fails for late responses: a request that is transmitted again gets a new partial IV, and the response to the first transmission is refused.
* `Verif.OscoreEng.request_twice_false` (C140): C140 fails for retransmitted requests: both transmissions of one request are accepted if the message id of the second one (not authenticated) is changed on the way.
* `Verif.OscoreEng.observe_changed_false` (C140): C140 fails for the Observe value: the request to end an observation (1) becomes one to start it (0) when the outer option is removed on the way.
* `Verif.OscoreEng.response_answered_false` (C140): C140 fails for responses: a response that cannot be decrypted or belongs to nothing is answered with an error, although a response must not be.
* `Verif.OscoreEng.empty_id_false` (C140): C140 fails for an empty id: the requests of a context with an empty sender id are refused for lacking one, although the receiver has the context.
* `Verif.OscoreEng.group_device_false` (C140): C140 fails for groups: a message of the device 1 to a group is protected with the context of the device 0, and in every state of the device.
* `Verif.OscoreEng.clone_ub` (C140): When no memory is left for the copy of a message to a peer with a context, the null pointer is used.

### PlgdTime

* `Verif.PlgdTime.goes_back_false` (C92): FALSE: the time shown never goes back. After a restart it starts again at the stored time.
* `Verif.PlgdTime.reset_sets_clock_false` (C92): FALSE: the function for the system time is called with times the device was told only. When the time is reset, it is called with the largest clock value there is.
* `Verif.PlgdTime.epoch_false` (C93): FALSE: a POST of a valid time that is answered with "changed" sets this time. The first instant of 1970 resets it.
* `Verif.PlgdTime.bad_date_false` (C93): FALSE: a POST answered with an error changes nothing. A time before 1970 is taken for one in the far future that has no text: the answer is 5.00, but the time is set, and from then on it cannot be read.

### Process

* `Verif.Process.Dispatch.self_exit_false` (C128): A thread exits its own process with `oc_process_exit` (the documented way to end a process, `util/oc_process.h` 409-419) and yields: `call_process` then marks the process as running again (`util/oc_process.c` 229), so it is reported as running and its thread is called for events although it was taken off the list.
* `Verif.Process.Dispatch.exit_caller_false` (C128): A process sends a synchronous event to another, whose thread exits the sender: the sender's thread is entered a second time for EXIT while its first call is active.
* `Verif.Process.Dispatch.broadcast_twice_false` (C128): A broadcast is meant to reach each process once. Before it calls a process, `do_event` polls; if a poll handler exits and restarts the process that is next, its successor is now the former first process, and the broadcast goes through the list again (`util/oc_process.c` 321-330): here process 2 is handed the event twice, without any use `Fine` excludes.
* `Verif.Process.Dispatch.exit_untold_false` (C128): The exit of a process is announced to its thread by EXIT unless the thread exits itself. But the current process stays the one called last after `oc_process_run` (`util/oc_process.c` 223): if the program then exits this process, as at shutdown (`api/oc_ri.c` 424-444), its thread is not told.

### Pstat

* `Verif.Pstat.rfotm_to_rfnop_false` (C31): A device moves from RFOTM to RFNOP without passing RFPRO.
* `Verif.Pstat.reset_escape_false` (C31): While a reset is scheduled, a request takes the device from RESET back to normal operation.
* `Verif.Pstat.rowner_rfnop_false` (C31): The owner of the resource changes in normal operation, although it must not: the guard looks at the state that the payload names, and a later `dos` names another.
* `Verif.Pstat.interrupted_reset_false` (C31): A reset that is interrupted by a restart never happens: the device stays in RESET, owned, with its credentials and no reset scheduled.
* `Verif.Pstat.failed_reset_false` (C31): If generating the key pair fails, a reset leaves the device operational in RFNOP but without owner and credentials: the hypothesis of `owned_history` is needed.
* `Verif.Pstat.empty_name_ub` (C31): A property with an empty name and an integer value makes the decoding read past the name.
* `Verif.Pstat.prefix_name_false` (C31): Only the first two bytes of the names of the modes are compared.
* `Verif.Pstat.state_truncated_false` (C31): The state is truncated to 32 bits: 2^32 requests a reset.

### Push

* `Verif.Push.interfaces_false` (C129): Disagreement: the light has the interface `oic.if.rw` and the selector asks for just that, but nothing is sent.
* `Verif.Push.refused_update_false` (C129): Disagreement: an UPDATE request that is refused changes the selector: the properties before the one that is refused are kept.
* `Verif.Push.cleared_target_false` (C129): Disagreement: a client clears the target of a selector that waits for an update; the request is accepted, the selector goes on waiting for updates, and the next change is sent to no endpoint.
* `Verif.Push.pathless_target_false` (C129): Disagreement: a client names a target without a path; the request is refused, but the next change is sent to the new endpoint, without a path.
* `Verif.Push.two_requests_false` (C129): Disagreement: a client sets the target again while the selector waits for a response; the next change is sent although the request before is still waiting.
* `Verif.Push.deleted_response_ub` (C129): Undefined: a selector is deleted while its request waits; the response, or its timeout, writes to the selector that was freed.
* `Verif.Push.change_lost_false` (C129): Disagreement: a change while the selector waits for a response is never sent, although the response is good and the selector waits for updates again: the target keeps the state before.

### PushRecv

* `Verif.PushRecv.prefix_delete_false` (C130): Disagreement: deleting the receiver `/ab`, which does not exist, is answered as done and deletes the receiver `/abc` with its resource.
* `Verif.PushRecv.prefix_create_false` (C130): Disagreement: making a receiver `/ab` beside `/abc` renames `/abc`, with what was pushed to it, instead.
* `Verif.PushRecv.prefix_push_false` (C130): Disagreement: a push to `/ab` is checked against the types of `/abc`: one of the type `/ab` takes is refused.
* `Verif.PushRecv.own_resource_false` (C130): Disagreement: a payload that lists a receiver with the path of a resource of the application is accepted, and removing the receivers removes that resource.
* `Verif.PushRecv.other_path_false` (C130): Disagreement: the path in the query is checked, that in the payload is used: a request refused with 4.00 leaves a receiver with the path of the application's resource.
* `Verif.PushRecv.no_slash_false` (C130): Disagreement: the resource of a receiver whose path has no slash stays when the receiver is deleted, and a push to it is never answered.
* `Verif.PushRecv.half_update_false` (C130): Disagreement: an update with a value of another type is answered as done, with the values before it set and those behind it not.
* `Verif.PushRecv.second_types_false` (C130): Disagreement: only the first list of types of a payload is checked, the last one is set.
* `Verif.PushRecv.common_only_false` (C130): Disagreement: a push of the common properties only is answered with 5.00 and removes what was pushed before.
* `Verif.PushRecv.altered_false` (C130): Disagreement: a null value is kept but not shown; a byte string in an array is shown with its size in front and cut at the first zero; empty texts are moved to the end of their array.
* `Verif.PushRecv.dangling_ub` (C130): Undefined: a client makes a receiver with the path of the application's resource, renames it, makes another with its new path and deletes the first: the resource of the second is freed and every later look for a pushed resource reads it.

### Query

* `Verif.Query.next_position_false` (C25): The position returned for the second or a later key without value is wrong: for `a=1&b&c=2` and n = 2 the next pair begins at 6, returned is 2.
* `Verif.Query.iterate_more_false` (C25): Hence the iteration over the values of a key reports more parameters after the last one of the query: `a=1&b`, key `b`.
* `Verif.Query.iterate_case_false` (C25): Iterating over the values of a key is case-sensitive, unlike looking it up.

### RepJson

* `Verif.RepJson.pretty_small_buffer_false` (C26): Pretty printing into a buffer that is too small does not return the length of the text, neither modulo 2^64: it returns less.
* `Verif.RepJson.unescaped_false` (C26): Strings are not escaped: different representations have the same text, which need not be the JSON text of either.
* `Verif.RepJson.empty_object_array_ub` (C26): An array of objects without items is dereferenced as null pointer (the decoder does not produce it; a caller building a representation by hand could).

### Rfc3339

* `Verif.Rfc3339.before_1970_false` (C59): C59. A text before 1970 is accepted by the clock and gives a time hundreds of thousands of years in the future: the negative number of seconds is multiplied in 64-bit unsigned arithmetic (api/oc_clock.c:58-63).
* `Verif.Rfc3339.toUnix_early_false` (C60): C60. For years before 1968 the conversion is wrong: the division that counts the leap years truncates towards zero (oc_certs.c:658), so 1965-03-01 is a day late; the result is then converted to an unsigned number.
* `Verif.Rfc3339.short_year_false` (C60): C60. The year of a time before the year 1000 is not padded, so that the text is shorter than the 14 characters the certificate writer requires (oc_certs_generate.c:116).

### Ri

* `Verif.Ri.double_slash_false` (C83): FALSE: two resources with the same URI are never registered on the same device. A URI that begins with two slashes is compared with the stored one without either of its slashes on one side and without one of them on the other, so the second registration is accepted.
* `Verif.Ri.slashes_ub` (C83): UNDEFINED BEHAVIOUR: a request whose path consists of slashes only makes the lookup among the collections read behind the end of the path, and with slashes to the end of the message behind the message.
* `Verif.Ri.di_ub` (C85): UNDEFINED BEHAVIOUR: a multicast request with a `di` key without a value makes the server compute with a null pointer.
* `Verif.Ri.unknown_if_false` (C84): FALSE: a request that names an interface the resource does not have is refused. A name that is not known at all selects the default interface.
* `Verif.Ri.multicast_rst_false` (C85): FALSE: a multicast request is never answered with a reset. A handler that sends no response makes the server answer every request, also a multicast one, with a RST message (over UDP).
* `Verif.Ri.observe_claimed_false` (C86): FALSE: an answer with the Observe option means that the client was registered. If there is no memory for the observer the answer carries it all the same.
* `Verif.Ri.observe_silent_false` (C86): FALSE: a client that gets no answer with the Observe option is not registered. If the handler of the resource sends no response the client is registered and gets a reset.
* `Verif.Ri.cancel_error_false` (C86): FALSE: a client that cancels its observation with Observe 1 is no observer afterwards. If the handler answers with an error the observer stays.
* `Verif.Ri.link_format_false` (C87): FALSE: the payload of an answer is of the content format the answer names. The Accept option application/link-format is let through, the answer of a handler is labelled with it, and the payload is encoded with whatever encoder was used before.

### Sdi

* `Verif.Sdi.garbage_uuid_false`: A malformed uuid is accepted: the text is not validated beyond its length. With too many digits the uuid stays as it was, although the response is "changed"; with too few it becomes something else.

### Separate

* `Verif.Separate.invalid_code_ub` (C88): UNDEFINED BEHAVIOUR: sending with an invalid status frees the buffer but leaves the handle active; after the next request the application writes to, and frees, the freed buffer.
* `Verif.Separate.inactive_send_ub` (C88): UNDEFINED BEHAVIOUR: sending twice (the handle is not active any more) frees the buffer twice.
* `Verif.Separate.leak_false` (C88): FALSE: a handle that is idle keeps no memory. If the record or the ACK of the first request cannot be allocated the buffer is kept, and the next request replaces the pointer to it.
* `Verif.Separate.same_token_false` (C89): FALSE: every client whose request was accepted gets an answer. Requests are told apart by their tokens only: of two clients that happen to use the same token only the second one is answered.
* `Verif.Separate.unavailable_false` (C89): FALSE: a request that cannot be recorded is answered (the documentation promises 5.03). Nothing at all is sent.
* `Verif.Separate.busy_lost_false` (C89): FALSE: if sending works otherwise, every waiting client gets its answer. One with an unfinished block-wise answer does not, and a transaction is lost.
* `Verif.Separate.separate_observe_false` (C89): FALSE: the answer to a request that registered the client as an observer says so. A separate answer never carries the Observe option.

### Session

* `Verif.Session.order_false` (C90): FALSE: of each session the connection is announced before the disconnection, if the network raises them in this order. The two kinds wait in different lists, and a delayed callback that is due for an earlier session also takes the disconnection of a session whose connection still waits; that session then looks connected for ever.
* `Verif.Session.exit_false` (C90): FALSE: every connection that was announced by the network while the process ran is delivered, or at least not kept, after the end of the process. Connections that wait when the process ends stay in the list for ever.
* `Verif.Session.no_memory_ub` (C90): UNDEFINED BEHAVIOUR: the endpoint of an event is copied into the result of an allocation that is not checked.
* `Verif.Session.remove_self_ub` (C91): UNDEFINED BEHAVIOUR: a handler that removes its own callback while it is called; the link to the next callback is read from the freed item.

### Sp

* `Verif.Sp.unsupported_current_false` (C38): An accepted update can leave the current profile unsupported.
* `Verif.Sp.refused_changes_false` (C38): A refused update can change the supported profiles.
* `Verif.Sp.restart_rfnop_false` (C52): After a restart in normal operation (RFNOP) the stored profile is refused: the device falls back to the default profile and overwrites the stored one.

### Storage

* `Verif.Storage.genTag_no_ub` (C42): C42. `oc_storage_gen_svr_tag` never writes outside its buffer, for every name, device index and buffer.
* `Verif.Storage.tag_truncated_false` (C42): Longer names are cut off without an error: two names with the same first 29 characters share one file (api/oc_storage.c:63-69).
* `Verif.Storage.config_no_ub` (C41): C41. `oc_storage_config` never leaves its buffers, for every path and state.
* `Verif.Storage.single_char_false` (C41): C41 fails for a path whose last component is one character: "/d/1" and "/d/2" both configure the directory "/d/", so two programs share their files.
* `Verif.Storage.crash_loses_false` (C40): C40 is false: the file is truncated before the new content is written (port/linux/storage.c:259). After a loss of power at this point a load finds neither the old nor the new data.
* `Verif.Storage.failed_save_false` (C40): A save that fails (disk full) has destroyed the old data, and what is left is loaded as if it had been saved.
* `Verif.Storage.garbage_success_false` (C57): Data that cannot be parsed is reported as loaded: the result is the size of the file although nothing was decoded (api/oc_storage.c:137-145).

### StrArr

* `Verif.StrArr.set_item_ub` (C101): Setting an item with an index that is not in the array writes outside of it.
* `Verif.StrArr.join_empty_ub` (C102): Joining an array without texts: memory of size 0 is requested, an assertion fails.
* `Verif.StrArr.set_alias_ub` (C102): Setting a string to a part of itself: the bytes are freed before they are copied.

### Swu

* `Verif.Swu.empty_url_false` (C119): Disagreement: a request with an empty URL, which is to keep the URL of the device (comment at api/oc_swupdate.c:745-746), replaces it by the empty one, which was never checked, and the application is called with that.
* `Verif.Swu.never_set_url_false` (C119): Disagreement: a device that never had a URL refuses a request with an empty one, but accepts it after a restart, since the null URL was stored as an empty one.
* `Verif.Swu.null_url_false` (C119): Disagreement: the target mode starts an upgrade on a device that has no URL: the application gets a null pointer.
* `Verif.Swu.past_time_false` (C119): Disagreement: a time before 1970 is not refused as past; the action is arranged for hundreds of thousands of years later, and the resource cannot be encoded any more, neither for an answer nor for the storage, so that a restart brings back what was before.
* `Verif.Swu.arranged_lost_false` (C119): Disagreement: an action arranged for later is lost when the application reports the end of an earlier one before: at its time nothing is done.
* `Verif.Swu.arranged_replaced_false` (C119): Disagreement: and it is replaced by another one when the target mode is used in between: here the upgrade becomes a check for a version.
* `Verif.Swu.target_not_saved_false` (C119): Disagreement: an action of the target mode is not stored; after a restart the resource is what it was before.

### TcpConn

* `Verif.TcpConn.torn_false` (C133): The user's expectation that a stream carries whole messages fails: when the system takes a part of a message and then refuses, the rest is dropped, the connection stays open and the next message follows the part: the peer reads the start of the second message as the rest of the first (port/linux/tcpsession.c:938-965, the result of a part is its length).
* `Verif.TcpConn.nonblocking_false` (C133): A connection that is made at once keeps its non-blocking socket, while one that took a moment is made blocking (port/linux/tcpsession.c:716-724, 1176-1187): whether sending waits or fails when the buffer of the socket is full depends on how fast the peer answered.
* `Verif.TcpConn.leak_false` (C134): A try of a connection that succeeds at once while there is no memory for a session: the attempt is given up, its new socket is never closed (port/linux/tcpsession.c:1258-1265: `cs.fd` is dropped; the caller frees the attempt whose socket is -1).
* `Verif.TcpConn.fd_zero_false` (C134): Descriptor 0 is a valid one (a program may have closed its standard input): the attempt is recorded but never watched, so that its success is not noticed (port/linux/tcpsession.c:658, `sock > 0`).
* `Verif.TcpConn.fdset_ub` (C134): A descriptor that is not below `FD_SETSIZE` (a program may have more files open): the bit is set outside the set.
* `Verif.TcpConn.scope_ub` (C134): A connection from an IPv6 address whose scope is 255 or more: the assertion on the scope fails and the program ends (port/linux/tcpsession.c:281-322).
* `Verif.TcpConn.late_false` (C134): The next check may come after the end of an attempt: when an attempt is made again its timeout replaces the earlier end of another one (port/linux/tcpsession.c:1303). With a timeout of 10, at time 15 one attempt ends at 20, and the next check is at 25.
* `Verif.TcpConn.zero_timeout_false` (C134): With a timeout of 0 there is no next check although an attempt is being made: 0 also means that no check is needed (port/linux/ipadapter.c:1081).
* `Verif.TcpConn.race_false` (C134): The network thread reads the clock before it takes the lock: an attempt that another thread begins in between is younger than the check, the unsigned difference is huge, and the attempt is told as a timeout at once (port/linux/ipadapter.c:1115, port/linux/tcpsession.c:1225-1229).

### TcpStream

* `Verif.TcpStream.short_messages_false` (C19): C19 is false for messages shorter than six bytes: each of two empty messages is received when it arrives alone, but when they arrive together the first `recv` takes both, the length check fails and the session is closed.
* `Verif.TcpStream.split_header_false` (C19): C19 is false when the first piece does not hold the whole length header: the session is closed.
* `Verif.TcpStream.split_tls_header_false` (C19): The same for a TLS record of which fewer than five bytes arrive first.
* `Verif.TcpStream.first_recv_interrupted_false` (C19): C19 is false when the first `recv` is interrupted by a signal: `continue` leaves the loop with an empty message, on which the parser's precondition `data_size > 0` fails.

### Timer

* `Verif.Timer.expired_last_clock_false` (C10): C10 (boundary): at the last clock value the `+ 1` wraps and an expired timer reports not expired.

### Tls

* `Verif.Tls.anon_leak_false` (C116): Disagreement: an onboarding tool that chooses anonymous suites for its own next connection accepts the next peer that connects to it, whoever that is, without any authentication, although it is in normal operation.
* `Verif.Tls.cloud_leak_false` (C116): Disagreement: a device that is about to connect to its cloud checks the certificate of a peer that connects first by the rules for a cloud: any chain that mbedtls accepts, for any or no identity.
* `Verif.Tls.choice_lost_false` (C116): Disagreement: the peer that connected in between used up the choice of the client, whose own connection then offers the default suites.
* `Verif.Tls.ident_leak_false` (C116): Disagreement: the choice of an identity certificate for the cloud is applied to the peer that connects first: here it gets the certificate of the manufacturer.
* `Verif.Tls.Spec.public_owner_key_false`: Disagreement: over a connection with one of the other suites that a device accepts by default, the key shared with the owner does not depend on the session at all: it is computed from the identifiers, which are public.
* `Verif.Tls.Spec.no_memory_ub`: Disagreement: when there is no memory for the first of the two hash contexts, the second is freed without ever having been initialised.
* `Verif.Tls.short_identity_false` (C117): Disagreement: an identity that is shorter than 16 bytes, here empty, is completed with the bytes that follow it in the record, and the peer counts as the result.
* `Verif.Tls.long_identity_false` (C117): Disagreement: an identity that is longer than 16 bytes counts as its first 16.
* `Verif.Tls.short_identity_ub` (C117): Disagreement: when fewer than 16 bytes are left in the buffer behind the start of a short identity, bytes outside of it are read; with the prefix of the PIN 17 more bytes are skipped.
* `Verif.Tls.pin_shared_false` (C117): Disagreement: there is one PIN for all logical devices. Device 6 shows its PIN; then the method is selected on device 7, and the PIN shown by device 6 is not the one it uses any more.
* `Verif.Tls.second_message_waits_false` (C115): Disagreement: two messages in one record, and one call of the reader for that record: the second message stays in the TLS layer until the peer sends something else.
* `Verif.Tls.short_frame_ub` (C115): Disagreement: a peer starts with an empty CSM of two bytes, as RFC 8323 permits, and goes on with a request: `want_read` wraps around, and the rest of the request is written behind the buffer, which was just shrunk to two bytes.
* `Verif.Tls.short_frame_static_ub` (C115): Disagreement: with buffers of a fixed size, too, a record that is longer than the buffer is written behind it after a message of two bytes.
* `Verif.Tls.six_byte_frame_false` (C115): Disagreement: a message of exactly six bytes is never delivered, nor is anything that the peer sends after it, whatever it sends and however often the reader is called.

### TlsPeers

* `Verif.TlsPeers.stale_event_ub` (C141): A device that sends to an endpoint which is opening a session to it throws the half open session away but not the events of that session (oc_tls.c:347-377, 2689-2698). The next time a session is closed the function that drops events (oc_tls.c:399-448) reads the memory of the session that was freed.
* `Verif.TlsPeers.assert_closed_ub` (C141): A TCP session that is closed while the assertion of roles was not answered: the callback asks for writing to the session (oc_tls.c:2790-2794) that is just being freed (oc_tls.c:540-545), and the end of the TCP session drops events and reads it.
* `Verif.TlsPeers.callback_close_ub` (C141): An application that answers the end of one session by closing another one, while all are closed: the loop (oc_tls.c:3089-3114) has read the pointer to the next session before, and that one is freed.
* `Verif.TlsPeers.tcp_close_one_false` (C141): Closing a TCP endpoint without naming the session closes one of its sessions only (oc_tls.c:2323-2327).
* `Verif.TlsPeers.retry_stuck_false` (C141): A handshake that ends while the retry timers are checked (oc_tls.c:743-772): no event is posted, so that the messages that waited for it are not sent, although the handler has nothing else to do.
* `Verif.TlsPeers.roles_stuck_false` (C141): When the request that asserts roles could not be sent (oc_tls.c:2915-2924) nothing asks for writing: the messages that waited for the handshake are not sent.
* `Verif.TlsPeers.overtake_false` (C141): A message that is sent between the end of the handshake and the writing of the queue is sent before those that waited (oc_tls.c:2757-2766): the order is not kept.
* `Verif.TlsPeers.want_lost_false` (C141): A message that mbedtls did not take because it has to wait (oc_tls.c:2561-2590) is released without being sent: it is lost.

### Trans

* `Verif.Trans.foreign_message_ends_false` (C20): A message of another endpoint, of whatever type, that happens to carry the same message id ends the transaction: nothing is acknowledged, yet the message is not retransmitted and nobody is told of a timeout. `received` does not look at the sender.
* `Verif.Trans.secured_without_peer_false` (C20): A secured transaction whose peer is unknown to the TLS layer is not removed by its timeout, and times out again at every later timer event.
* `Verif.Trans.unsent_is_transmitted_false` (C20): A transaction that was created and is not sent yet counts as expired: a timer event transmits it (api/oc_client_api.c creates the transaction in `oc_init_post` and sends it in `oc_do_post`).

### Uuid

* `Verif.Uuid.ofStr_accepts_garbage_false` (C48): C48 is false of the code: text that is not a UUID at all ("zzzz…") is accepted as the nil UUID, and text with too many digits or garbage is accepted as well.
* `Verif.Uuid.gen_variant_false` (C04): C04 is false of the code: no generated UUID has the RFC 4122 variant bits `10`; the code sets them to `01`.

## Theorems per property

| id | status | theorems | note |
|---|---|---|---|
| C01 | proved | `Base64.encode_spec`, `Base64.encode_too_small`, `Base64.decode_encode`, `Base64.decodeInPlace_iff` |  |
| C02 | proved | `Base64.decode_iff`, `Base64.decode_no_ub`, `Base64.decodeInPlace_no_ub`, `Base64.decode_accepts_noncanonical` | Acceptance is characterised exactly; non-canonical trailing bits are accepted (witness). |
| C03 | proved | `Uuid.ofStr_hex`, `Uuid.toStr_format`, `Uuid.ofStr_toStr` |  |
| C04 | partial | `Uuid.gen_version_partial`, `Uuid.gen_variant_false` | Version 4 holds for every random input; the RFC 4122 variant bits are NOT always set by the code (witness gen_variant_false). |
| C05 | proved | `Crc.crc64_chunks`, `Crc.crc64_burst` |  |
| C06 | proved | `Hex.ofHex_spec`, `Hex.toHex_spec`, `Hex.ofHex_toHex`, `Hex.empty_not_roundtrip` | Texts with non-hexadecimal characters are outside the theorem (sscanf leaves the value uninitialised). |
| C07 | proved | `OcList.exec_refines`, `OcList.run_refines`, `OcList.run_init`, `OcList.queries`, `OcList.add_member_cycles` |  |
| C08 | proved | `Memb.alloc_spec`, `Memb.free_spec`, `Memb.live_disjoint`, `Memb.exec_refines`, `Memb.runs_refine`, `Memb.init_spec`, `Memb.inmemb_iff`, `Memb.init_small_overrun` | Static pools; blocks smaller than a pointer are overrun by oc_memb_init (init_small_overrun). |
| C09 | proved | `Mmem.exec_refines`, `Mmem.runs_refine`, `Mmem.runs_progress`, `Mmem.blocks_disjoint`, `Mmem.inv_init` |  |
| C10 | proved | `Timer.expired_iff`, `Timer.expired_mono`, `Timer.until_spec`, `Timer.reset_no_drift`, `Timer.set_spec`, `Timer.expired_last_clock_false` |  |
| C11 | proved | `Etimer.runs_inv`, `Etimer.runs_progress`, `Etimer.never_early`, `Etimer.once_per_arming`, `Etimer.never_lost`, `Etimer.next_wakeup`, `Etimer.pollAll_complete`, `Etimer.inv_init`, `Etimer.no_current_process_ub`, `Etimer.stop_keeps_queued_event` | Needs a current process when a timer is set (no_current_process_ub); an event already queued survives a stop (stop_keeps_queued_event). |
| C12 | proved | `Process.exec_refines`, `Process.runs_refine`, `Process.fifo_lossless`, `Process.post_full`, `Process.iterate_spec`, `Process.init_rep` |  |
| C13 | proved | `Coap.header_roundtrip`, `Coap.header_is_rfc`, `Coap.rfc_header_read`, `Coap.header_length_65805_false`, `Coap.reserved_length_nibble_accepted` | For lengths up to 65804 and deltas up to 65804; a length of 65805 or more is written wrongly (the _false witness). |
| C14 | proved | `Coap.int_option_roundtrip`, `Coap.int_option_read`, `Coap.int_option_zero` |  |
| C15 | proved | `Coap.block_roundtrip`, `Coap.block_roundtrip_pow`, `Coap.block_refused`, `Coap.block_decode_offset`, `Coap.block_decode_four_bytes_false`, `Coap.block_size_rounded` | The decoder also accepts four-byte block options, which the witness shows. |
| C16 | proved | `Coap.split_one_option_per_segment`, `Coap.array_option_whole`, `Coap.merge_appends`, `Coap.split_empty_segment_false`, `Coap.split_trailing_separator_overread`, `Coap.split_unterminated_overread` | For paths whose segments are not empty and that are followed by a readable byte; the witnesses show what happens otherwise. |
| C17 | proved | `CoapMsg.udp_roundtrip`, `CoapMsg.serialize_succeeds`, `CoapMsg.serialize_fits`, `CoapMsg.exMsg_valid`, `CoapMsg.accept_without_version_false`, `CoapMsg.empty_message_token_false`, `CoapMsg.serialize_zero_buffer_false` | For the messages described by the predicate Valid. Accept or Content-Format values that need the OCF version options must come with a version: without one the serializer writes a wrong delta, which accept_without_version_false witnesses. |
| C18 | partial | `CoapMsg.udp_parse_defined_partial`, `CoapMsg.udp_parse_datagram_only_partial`, `CoapMsg.accepted_parse_exact_partial`, `CoapMsg.tcp_parse_defined_partial`, `CoapMsg.tcp_parse_message_only_partial`, `CoapMsg.short_token_false`, `CoapMsg.truncated_option_false`, `CoapMsg.short_datagram_false` | False as stated: the parser reads up to four bytes behind a truncated option header, the token without a length check and the header of datagrams shorter than four bytes (witnesses). Proved for every input: the parser is defined if the buffer has four bytes of slack, and accepted messages with the token inside the datagram depend on the datagram only. |
| C19 | partial | `TcpStream.serialized_framed`, `TcpStream.stream_split_partial`, `TcpStream.stream_delivered_partial`, `TcpStream.receive_one`, `TcpStream.receive_delivers`, `TcpStream.tls_record_framed`, `CoapMsg.tcp_roundtrip`, `CoapMsg.exMsg_tcp`, `TcpStream.short_messages_false`, `TcpStream.split_header_false`, `TcpStream.split_tls_header_false`, `TcpStream.first_recv_interrupted_false` | The length header is proved exact for all messages. Splitting is proved for all chunkings in which the first piece of each message holds the length header and no byte of the next message; for the other chunkings the property is false (witnesses). |
| C20 | partial | `Trans.transmissions_allowed`, `Trans.timeout_after_four`, `Trans.due_step`, `Trans.ends_after_four_checks`, `Trans.gone_stays_gone`, `Trans.acknowledged_removed`, `Trans.exec_good`, `Trans.foreign_message_ends_false`, `Trans.secured_without_peer_false`, `Trans.unsent_is_transmitted_false` | Proved for all histories in which a (D)TLS peer is found at the timeout of a secured transaction. False otherwise (secured_without_peer_false); a message of another endpoint with the same message id ends a transaction (foreign_message_ends_false), and a transaction created but not yet sent is transmitted by a timer event (unsent_is_transmitted_false). |
| C21 | partial | `Blockwise.server_memory_safe`, `Blockwise.server_holds_prefix`, `Blockwise.server_completes_whole`, `Blockwise.client_completes_partial`, `Blockwise.upload_whole`, `Blockwise.plain_request_exact`, `Blockwise.exBlk_block`, `Blockwise.other_block_size_truncates_false`, `Blockwise.restarted_upload_mixes_false`, `Blockwise.client_refused_block_false`, `Blockwise.plain_request_uninitialised_false` | Proved for every order, repetition and loss of the blocks of one payload in one block size. False across attempts: a new attempt with another block size is completed with a truncated payload, a new upload to the same resource is mixed with the old one; a client reports a refused block as a response without payload; a payload of 65536 bytes or more without block options is handed over uninitialised (witnesses). |
| C22 | proved | `Blockwise.dispatch_spec`, `Blockwise.server_block_exact`, `Blockwise.respond_exact`, `Blockwise.download_rest`, `Blockwise.download_whole`, `Blockwise.upload_whole`, `Blockwise.exBuf_holds`, `Blockwise.dispatch_unaligned_false` | Block offsets are multiples of the block size, as decoded from the option; the function itself over-reads at other offsets (dispatch_unaligned_false). |
| C23 | partial | `Dedup.rep_init`, `Dedup.decides_as_spec`, `Dedup.repetition_dropped`, `Dedup.fresh_processed_partial`, `Dedup.first_request_mid0_false`, `Dedup.other_client_dropped_false`, `Dedup.confirmable_repetition_false` | The decision is characterised exactly for every history. A repetition within the window is dropped; a fresh request is processed if no recorded request has the same message id and device. False in full: the first request with message id 0 is dropped, a request of another client with the same message id is dropped, a repeated confirmable request is processed again (witnesses). |
| C24 | partial | `Observe.registrations_partial`, `Observe.register_spec`, `Observe.delete_spec`, `Observe.byClient_spec`, `Observe.byToken_spec`, `Observe.byMid_spec`, `Observe.dosChange_spec`, `Observe.freeAll_spec`, `Observe.notify_spec`, `Observe.exOps_valid`, `Observe.counter_wraps_false`, `Observe.dangling_observer_false` | Proved for all histories with at most 255 observers of a resource at a time, and arbitrary comparison of endpoints. With 256 observers the 8-bit counter is 0 and deleting the resource leaves dangling observers (witnesses). |
| C25 | partial | `Query.getValue_spec`, `Query.keyExists_spec`, `Query.nth_spec`, `Query.nth_empty`, `Query.parts_build`, `Query.next_position_partial`, `Query.next_position_false`, `Query.iterate_more_false`, `Query.iterate_case_false` | Lookup, existence and enumeration proved for all queries and all non-empty keys without NUL of at most 255 bytes. The position returned for a value-less key is wrong, so the iteration over the values of a key may announce parameters that do not exist; that iteration is case-sensitive (witnesses). |
| C26 | partial | `RepJson.dump_memory_safe`, `RepJson.dump_compact`, `RepJson.dump_two_calls`, `RepJson.compact_text`, `RepJson.dump_compact_json`, `RepJson.pretty_small_buffer_false`, `RepJson.unescaped_false`, `RepJson.empty_object_array_ub` | Memory safety for every representation the decoder produces, both formats, every buffer. Length and contents for every buffer in compact format, and for the null buffer and a buffer with room in pretty format. In pretty format with a buffer that is too small the returned length is wrong (witness). Strings are not escaped, so the text is not always the JSON of the representation (witness). |
| C27 | proved | `Acl.check_spec`, `Acl.more_aces`, `Acl.app_resource_needs_permission`, `Acl.roles_kept`, `Acl.svr_is_dcr`, `Acl.app_resource_kind` | oc_sec_check_acl decides exactly as the independent rules, for every device state, requester, credential, access control list, resource (URI with leading slash) and method. |
| C28 | partial | `Acl.anonymous_partial`, `Acl.anonymous_svr`, `Acl.nil_subject_false`, `Acl.reset_owner_false`, `Acl.two_peers_false` | Holds if no ACE has the nil UUID as subject and the owners are set or the device is provisioned. Fails otherwise: an ACE without subject is one of the nil UUID, which anonymous requesters carry; in RESET, and in RFOTM with two or more peers, an anonymous requester matches an unset resource owner (witnesses). |
| C29 | partial | `Acl.aceids_unique`, `Acl.aceids_unique_from_default`, `Acl.replace_exact`, `Acl.replace_grants`, `Acl.update_adds`, `Acl.delete_exact`, `Acl.permission_zero_false`, `Acl.lost_wildcard_false`, `Acl.empty_entry_deletes_false`, `Acl.negative_permission_false`, `Acl.delete_other_false`, `Acl.href_without_slash_ub`, `Acl.dangling_callback_ub` | Uniqueness of ids: proved for every history. Faithfulness: proved for updates with an aceid whose entries are valid and do not overlap, for updates by subject with a permission other than 0, and for deletions. It fails for permission 0, overlapping wildcards and empty entries; two payloads reach a failing assertion or a dangling pointer (witnesses). |
| C30 | partial | `Acl.rejected_unchanged_partial`, `Acl.others_untouched`, `Acl.failed_update_false`, `Acl.failed_update_loses_ace_false` | Updates refused because of the device state or a malformed first ACE change nothing; ACEs not named by the payload are never changed. Other failures leave what was applied before (witnesses). |
| C31 | partial | `Pstat.owned_history`, `Pstat.post_spec`, `Pstat.transitions_partial`, `Pstat.entered`, `Pstat.refused`, `Pstat.reset_requested`, `Pstat.reset_stays`, `Pstat.reset_completes`, `Pstat.rfotm_to_rfnop_false`, `Pstat.reset_escape_false`, `Pstat.rowner_rfnop_false`, `Pstat.interrupted_reset_false`, `Pstat.failed_reset_false`, `Pstat.empty_name_ub`, `Pstat.prefix_name_false`, `Pstat.state_truncated_false` | Ownership in RFPRO, RFNOP and SRESET holds in every history in which generating key pairs succeeds. The transitions are those of OCF except for RFOTM to RFNOP and out of RESET (witnesses). A requested reset that is interrupted by a restart is never done (witness). |
| C32 | proved | `Oscore.piv_roundtrip`, `Oscore.piv_shortest`, `Oscore.piv_value`, `Oscore.piv_exhausted_false`, `Oscore.piv_empty_false` | All numbers below 2^40, with the byte swapping of the code on a little-endian machine. From 2^40 on the number is cut off silently (witnesses). |
| C33 | proved | `Oscore.nonce_is_rfc`, `Oscore.nonce_injective`, `Oscore.nonces_of_numbers`, `Oscore.nonce_long_piv_false` | All ids of at most 7 and partial IVs of at most 5 bytes. Longer partial IVs, which the option parser does not refuse, could collide (witness). |
| C34 | partial | `Oscore.accept_iff`, `Oscore.replay_refused_partial`, `Oscore.zero_replayed_false`, `Oscore.old_replayed_false`, `Oscore.forged_flush_false`, `Oscore.forged_blocks_false`, `Oscore.no_piv_replayed_false` | The window is exactly: not among the 32 partial IVs that passed last. False in general: partial IV 0, older requests, forged requests move the window, requests without partial IV, and the window is empty after a restart (witnesses). |
| C35 | partial | `Oscore.no_reuse_partial`, `Oscore.no_reuse_scheduled`, `Oscore.nonces_nodup`, `Oscore.crash_before_save_false`, `Oscore.multicast_reuse_false`, `Oscore.skipped_save_false`, `Oscore.reprovisioned_reuse_false` | Proved for every history in which messages are protected while the number in memory is less than 160 above the stored one, in particular for every schedule that saves in time. False otherwise: four concrete histories that reuse a number. The write to storage is taken as atomic (see C40). |
| C36 | partial | `Oscore.parse_layout`, `Oscore.option_roundtrip`, `Oscore.option_roundtrip_response`, `Oscore.option_header`, `Oscore.parse_defined_iff`, `Oscore.piv_overflow_false`, `Oscore.truncated_piv_false`, `Oscore.truncated_ctx_false`, `Oscore.reserved_bits_accepted`, `Oscore.response_kid_lost_false` | Round trip proved. Memory safety holds exactly for the options characterised by Spec.Fits; a partial IV length of 6 or 7 overflows a stack buffer and truncated options are read past their end (witnesses). |
| C37 | partial | `Cred.ids_unique`, `Cred.lookup_newest`, `Cred.newest_created`, `Cred.addDev_uniq`, `Cred.addDev_lookup`, `Cred.addDev_others`, `Cred.addDev_existing`, `Cred.addDev_defined`, `Cred.delete_exact`, `Cred.clear_exact`, `Cred.not_created_present`, `Cred.refused_loses_false`, `Cred.duplicate_chain_loses_false`, `Cred.refused_post_partly_applied_false`, `Cred.replaced_owner_ub` | Uniqueness and lookup proved for every history that does not run into undefined behaviour. A payload that replaces the credential it made the owner's reads freed memory (witness); refused or duplicate credentials remove the one they would have replaced (witnesses). Certificates, key derivation and random numbers are arbitrary oracles. |
| C38 | partial | `Sp.accepted`, `Sp.selects`, `Sp.current_supported_partial`, `Sp.current_supported_history_partial`, `Sp.refused_unchanged_partial`, `Sp.unsupported_current_false`, `Sp.refused_changes_false` | What is accepted and what it selects is exact. An update may narrow the supported profiles so that the current one is not among them, and a refused update may have changed the profile already (witnesses). |
| C39 | proved | `Ael.log_bounded`, `Ael.log_newest`, `Ael.addEvent_spec`, `Ael.addEvent_inv`, `Ael.post_filters_only`, `Ael.no_memory_false`, `Ael.unit_mixed_false` | For all histories of events, filter updates, resets and restarts: used space = sum of sizes <= maximum, stored events are a suffix of the admitted ones, and the longest fitting one as long as memory suffices. Needs 8-byte pointers for restarts (see C58). Witnesses: with an allocation failure old events are evicted although the new one is lost; usedspace is reported in the unit of device 0. |
| C40 | partial | `Storage.storage_partial`, `Storage.crash_loses_false`, `Storage.failed_save_false` | The property as stated is false (files are truncated before they are rewritten): witnesses. Proved for every history of saves, clears, failures and crashes: a completed save is intact until the next request for the same name, an interrupted one leaves the old content or a beginning of the new one, other files are never touched. |
| C41 | partial | `Storage.config_dir_partial`, `Storage.config_single`, `Storage.config_no_ub`, `Storage.path_spec`, `Storage.dir_exists`, `Storage.dir_unique`, `Storage.single_char_false` | For all paths except those whose last component is a single character; for these the directory above is used (proved for all, with a witness that two paths collide). |
| C42 | proved | `Storage.tag_unique`, `Storage.genTag_spec`, `Storage.genTag_no_ub`, `Storage.index_fits`, `Storage.tag_truncated_false` | For all names that fit and all device indices; longer names are truncated and can collide (witness). |
| C43 | proved | `Doxm.refused`, `Doxm.accepted`, `Doxm.guarded`, `Doxm.sets_owner` | For every state, connection and payload. Any text is accepted as UUID (garbage_owner_false). |
| C44 | proved | `Sdi.refused`, `Sdi.accepted`, `Sdi.sets_uuid` | For every state and payload. Any text is accepted as UUID (garbage_uuid_false). |
| C45 | proved | `Cred.roles_wellformed`, `Cred.roles_confined`, `Cred.close_removes`, `Cred.reset_removes`, `Cred.closed_session_no_roles`, `Cred.role_verified` | All histories with any number of sessions. A session is its peer object; certificate checks are oracles. |
| C46 | proved | `Etag.etags_increase`, `Etag.etag_never_uninitialised`, `Etag.etag_near_clock`, `Etag.wrap_around_false` | For all clocks and random numbers, with the overflow bound stated; the wrap-around is shown. |
| C47 | proved | `Rep.getInt_spec`, `Rep.getBool_spec`, `Rep.getDouble_spec`, `Rep.getByteString_spec`, `Rep.getString_spec`, `Rep.getIntArray_spec`, `Rep.getBoolArray_spec`, `Rep.getDoubleArray_spec`, `Rep.getByteStringArray_spec`, `Rep.getStringArray_spec`, `Rep.getObject_spec`, `Rep.getObjectArray_spec`, `Rep.isNull_spec`, `Rep.unusable_key` | All typed getters of api/oc_rep.c, for every representation and every key of 1 to 4095 bytes without NUL (others are reported absent). |
| C48 | partial | `Uuid.ofStr_size_partial`, `Uuid.ofStr_accepts_iff_partial`, `Uuid.ofStr_accepts_garbage_false` | The exact set of accepted texts is proved: only the number of characters that are not dashes matters; garbage is accepted (witness). |
| C49 | proved | `CoapMsg.udp_validate_agrees` |  |
| C50 | partial | `Observe.consecutive_newer`, `Observe.all_newer_partial`, `Observe.seq_range`, `Observe.reregistration_stale_false` | Consecutive notifications of one registration: proved without bound. Across registrations: proved for fewer than 2^23 - 2 notifications in total; false beyond (witness). |
| C51 | partial | `Acl.reload_partial`, `Acl.reachable_made`, `Acl.reload_widens_false` | Proved for every reachable list without entries that have both a name and a wildcard; those lose the wildcard, which widens the access (witness). The CBOR layer is not modelled. |
| C52 | partial | `Sp.restart_partial`, `Sp.restart_rfnop_false`, `Doxm.restart`, `Sdi.restart`, `Pstat.stored` | Ownership, security domain and provisioning status: proved. Security profile: kept in every state but RFNOP; in RFNOP it is refused at start and replaced by the default (witness). |
| C53 | partial | `Oscore.is_oscore_iff`, `Oscore.truncated_scan_false` | Exact for every well formed datagram; truncated ones are read past their end (witness). Stream messages have another header and are not modelled here. |
| C54 | partial | `Cred.guard_iff`, `Cred.post_guarded_partial`, `Cred.post_rfpro_owner`, `Cred.delete_guarded`, `Cred.derived_key_for_owner`, `Cred.symmetric_key_length`, `Cred.roles_post_takes_owner_false`, `Cred.takeover_false`, `Cred.role_changes_credential_false` | Holds for the credential resource itself. False for the roles resource, which shares the decoder without its guards: every authenticated peer can make itself owner of the credentials in normal operation (proved for all peers), and change the owner flag of a credential. |
| C55 | partial | `Etag.valid_means_unchanged_partial`, `Etag.current_etag_valid`, `Etag.other_length_not_valid`, `Etag.change_fresh`, `Etag.dumped_etag_restored`, `Etag.load_exact`, `Etag.run_inv`, `Etag.clock_reset_false`, `Etag.pending_notification_false` | Proved for every history under the hypotheses: changes announced at once, clock not behind the ETags handed out before a restart, no overflow, different checksums. Witnesses show that it is false after a clock reset (even with dumped ETags) and between a POST and its delayed notification. Batch ETags are not modelled. |
| C56 | partial | `Etag.increments_spec`, `Etag.bare_key_ub` | For all queries in which each incChanges has a value; without '=' a null pointer is subtracted (witness). |
| C57 | partial | `Storage.storage_partial`, `Storage.load_after_save`, `Storage.load_decodes_content`, `Storage.attempts_result`, `Storage.garbage_success_false` | For every history and environment; a file that cannot be parsed is reported as success without decoding anything (witness). CBOR coding is a parameter. |
| C58 | partial | `Ael.restart_keeps_partial`, `Ael.log_bounded`, `Ael.filter_drops_false`, `Ael.aux_overflow_ub` | Proved for platforms where 257 texts cannot fit into the log and if the events still pass the filters. False otherwise: after the filter was narrowed a restart drops events; with 4-byte pointers an event with more than 256 texts makes the restart write past an array on the stack. |
| C59 | partial | `Rfc3339.parse_iff`, `Rfc3339.parse_valid`, `Rfc3339.format_text`, `Rfc3339.parse_format`, `Rfc3339.format_fits`, `Rfc3339.format_invalid`, `Rfc3339.format_precision`, `Rfc3339.clock_roundtrip`, `Rfc3339.parseClock_value_partial`, `Rfc3339.compare_order`, `Rfc3339.before_1970_false` | Proved for all texts, time stamps and buffers. Texts before 1970 are converted to a clock value far in the future (witness). The test of validity is undefined if the local time does not fit into 64 bits (precondition of format_invalid). Floating point conversions of the clock are taken as exact, for tick rates that divide 10^9. |
| C60 | partial | `Rfc3339.toTm_spec`, `Rfc3339.toUnix_partial`, `Rfc3339.toUnix_early_false`, `Rfc3339.certFormat_partial`, `Rfc3339.short_year_false` | Broken-down times: all valid time stamps. Unix times: 1970 to 9999; earlier years are wrong (witness). Certificate texts: years 1000 to 9999; earlier years are not padded (witness). |
| C61 | partial | `Delayed.runs_match_expiries`, `Delayed.poll_serves_all`, `Delayed.never_runs_after_release`, `Delayed.released_once`, `Delayed.remove_one`, `Delayed.remove_nothing`, `Delayed.remove_all`, `Delayed.remove_self`, `Delayed.no_use_after_free_partial`, `Delayed.poll_no_on_delete_partial`, `Delayed.stale_on_delete_false`, `Delayed.match_all_keeps_current_false` | Proved for every history and every behaviour of callbacks. False parts, with witnesses: a function given for deletion from inside a callback is also applied to the data of a later callback; a callback that removes all matching ones keeps itself if another match follows it. |
| C62 | partial | `Delayed.one_periodic_callback`, `Delayed.register_unregister`, `Delayed.no_use_after_free_partial`, `Delayed.delete_periodic_resource_ub`, `Delayed.other_observers_lose_periodic_false` | At most one periodic callback: proved for every history. False parts, with witnesses: one observer cancelling removes the callback although others remain; deleting an observed periodic resource leaves a callback that uses the freed resource. |
| C63 | partial | `Client.released_once`, `Client.never_after_release`, `Client.at_most_once_partial`, `Client.response_token`, `Client.removal_is_scheduled_partial`, `Client.init_twice_false`, `Client.unsolicited_observe_false`, `Client.stop_discovery_false`, `Client.stop_multicast_false`, `Client.bad_payload_false`, `Client.foreign_response_false` | Proved for every history and every behaviour of handlers. False parts, with witnesses: an Observe option nobody asked for keeps a GET request alive; stopping a discovery or a multicast does not stop it; a response with a bad payload ends a request silently; a response from another endpoint is accepted; two prepared requests in a row leak the first. |
| C64 | partial | `Client.close_leaves_none`, `Client.close_tells_all_partial`, `Client.old_notification_false`, `Client.retry_never_ends_false` | When closing is over: proved for every handler; that all handlers were called: for handlers that do not close sessions or free requests. Witnesses: a handler that retries keeps the closing call running for ever; an observation with an outdated OSCORE notification is never ended. |
| C65 | partial | `Client.no_use_after_free_partial`, `Client.ping_close_ub`, `Client.timeout_close_ub`, `Client.check_next_ub`, `Client.failed_post_ub`, `Client.get_between_post_ub`, `Client.stop_observe_fails_ub` | Proved for handlers that do not close sessions, and if no confirmable request uses a secure session; six witnesses of undefined behaviour outside of this. |
| C66 | partial | `Endpoint.scheme_text`, `Endpoint.toCString_text`, `Endpoint.toCString_small`, `Endpoint.toString64_text`, `Endpoint.roundtrip_partial`, `Endpoint.roundtrip_mapped_false`, `Endpoint.toCString_min_false` | Proved for all IPv4 endpoints and all IPv6 endpoints whose address inet_ntop writes as groups of hexadecimal digits (any such text). False for IPv4-mapped addresses, which inet_ntop writes with dots (witness). An exactly fitting buffer for [::] with a one-digit port is refused (witness). |
| C67 | partial | `Endpoint.scheme_text`, `Endpoint.parse_text_partial`, `Endpoint.parse_safe`, `Endpoint.parse_sound`, `Endpoint.parse_noScheme`, `Endpoint.parse_colon_false`, `Endpoint.parse_port_false`, `Endpoint.parse_octet_false`, `Endpoint.parse_name_false`, `Endpoint.parse_emptyPort_false`, `Endpoint.parse_hex_false` | Memory safety and shape of accepted texts: all texts. Correct reading: all URIs of the given form, but without a port the path must have no colon (witness). Witnesses of wrong acceptance: ports and octets that are too large, names ending with a digit, an empty port after an IPv6 address, groups with other characters. |
| C68 | partial | `Endpoint.compare_iff`, `Endpoint.compare_refl`, `Endpoint.compare_symm`, `Endpoint.compare_trans_partial`, `Endpoint.compare_trans_false`, `Endpoint.compare_address`, `Endpoint.linkLocal_recognised`, `Endpoint.linkLocal_prefix_false` | Exact characterisation; transitive only through an endpoint that names its session (witness with session 0). |
| C69 | proved | `Endpoint.parsePath_text`, `Endpoint.parsePath_none`, `Endpoint.parsePath_ub` | For all non-NULL strings; an empty string object (NULL pointer) is undefined (witness). |
| C70 | partial | `EpAddr.step_refines`, `EpAddr.means_exists`, `EpAddr.run_inv`, `EpAddr.history`, `EpAddr.calls_changed`, `EpAddr.nexts_cycle`, `EpAddr.remove_gone_ub`, `EpAddr.calls_reinit_false` | Refinement of a plain list with a position, for all histories. Removing a server that was removed before is undefined (witness); initialising without a default server drops the selected server without telling the application (witness). |
| C71 | partial | `CloudStore.restart_kept`, `CloudStore.restart_wildcard_false`, `CloudStore.restart_empty_false`, `CloudStore.restart_memory_false` | Proved for all configurations with a selected server whose UUID is not *; the selected server comes first afterwards. Witnesses: with the UUID * all servers are lost; an empty list becomes the default server; running out of memory loses servers silently. Storage itself: C57. |
| C72 | partial | `Cloud.timeouts_kept`, `Cloud.retry_delay_partial`, `Cloud.short_timeout_ub`, `Cloud.no_timeout_false` | For all timeouts of at least a second. A timeout below a second is accepted and fails an assertion at its first use; an empty list of timeouts is accepted and the device restarts for ever without trying (witnesses). |
| C73 | partial | `Cloud.register_everywhere_partial`, `Cloud.unresolved_false`, `Cloud.silent_server_false` | Proved for lists of servers and timeouts of any length, if requests can be sent and fail without a TCP session having been reported. False otherwise, with witnesses: a server whose name cannot be resolved ends the registration; a server that accepts a TCP connection but does not answer leaves the device registering for ever with nothing pending. |
| C74 | partial | `Cloud.status_holds`, `Cloud.unauthorized_refresh_forgets`, `Cloud.unauthorized_login_forgets`, `Cloud.session_end_restarts`, `Cloud.no_undefined_partial`, `Cloud.no_payload_ub`, `Cloud.lifetime_ub`, `Cloud.many_servers_ub`, `Cloud.deregister_ub`, `Cloud.unprovisioned_false` | Consistency: every history. Undefined behaviour is excluded for responses with a payload, lifetimes that fit, at most 255 servers and deregistration without refresh; witnesses show each of these is needed. |
| C75 | partial | `Cloud.refresh_margin`, `Cloud.login_keeps_alive`, `Cloud.pings_lost`, `Cloud.ping_answered`, `Cloud.refresh_replaces`, `Cloud.ping_unsent_false` | For all lifetimes and lists of timeouts. A ping that cannot be sent ends the pings silently (witness). |
| C76 | proved | `Cloud.redirect_followed` | For all states that satisfy the invariant of every history (status_holds). |
| C77 | partial | `Cloud.deregistered`, `Cloud.deregister_login_failed`, `Cloud.deregister_stuck_false`, `Cloud.deregister_ub` | The confirmed end is proved for all states; that every deregistration ends is false: one whose request cannot be sent leaves the device deregistering for ever (witness). |
| C78 | proved | `Cloud.requests_to_servers` | For every history without undefined behaviour. |
| C79 | partial | `Json.decode_object`, `Json.decode_objects`, `Json.decode_empty`, `Json.escape_false`, `Json.long_item_false`, `Json.fraction_false` | Proved for all texts without escape sequences, fractions and array items longer than 127 bytes; witnesses: escape sequences are kept as they are, fractions and anything after digits are dropped, longer items are cut. |
| C80 | partial | `Json.decode_safe_partial`, `Json.tokens_safe`, `Json.string_iff`, `Json.decode_cut`, `Json.null_root_ub`, `Json.unknown_member_false` | Proved for all texts that do not start with a bracket; for those the only undefined behaviour is the use of the missing root node: [{1}] dereferences a null pointer (witness). Cut texts: all. Errors inside arrays of objects are accepted as members of an undefined type (witness). |
| C81 | proved | `Json.encode_safe`, `Json.encode_object`, `Json.encodable`, `Json.encode_error_stays`, `Json.int_range` | All sequences of calls and all buffers. Integers between -(2^52)-1 and 2^53 are accepted (int_range). |
| C82 | partial | `Json.round_trip`, `Json.injection_false`, `Json.empty_array_false`, `Json.double_false` | Proved for strings without quotes, backslashes and control characters, integers in range and nonempty arrays. Strings are not escaped: a value with quotes adds members (witness); empty arrays become nil and floating point numbers lose their fraction (witnesses). |
| C83 | partial | `Ri.uris_unique_partial`, `Ri.double_slash_false`, `Ri.add_iff`, `Ri.add_collection_iff`, `Ri.found_by_uri`, `Ri.lookup_sound`, `Ri.framework_found`, `Ri.lookup_total`, `Ri.slashes_ub`, `Ri.deleted_not_found`, `Ri.waiting_reserved` | Proved after every history of operations whose URIs begin with exactly one slash; with two slashes the same URI can be registered twice (witness). The lookup is total for every path that is not only slashes; such a path reads out of bounds (witness). |
| C84 | partial | `Ri.refused_outcome`, `Ri.handler_runs_iff`, `Ri.unknown_if_false`, `Ri.foreign_iface_refused_partial` | Exact for all requests. An interface name that is not known at all is taken as none given, so a request for it is served (witness); names of known interfaces that the resource lacks are always refused. |
| C85 | partial | `Ri.other_device_silent`, `Ri.refused_outcome`, `Ri.handler_runs_iff`, `Ri.multicast_no_error`, `Ri.multicast_rst_false`, `Ri.di_ub` | Proved for all queries whose di keys have values; one without a value is undefined behaviour (witness). A handler that sends no response makes the server answer a multicast request with RST (witness). |
| C86 | partial | `Ri.error_no_effect`, `Ri.observe_partial`, `Ri.observe_claimed_false`, `Ri.observe_silent_false`, `Ri.cancel_partial`, `Ri.cancel_error_false`, `Ri.change_notified` | Proved when the observer can be allocated, the handler answers, and (for cancelling) answers without error; the other cases are false (witnesses). |
| C87 | partial | `Ri.format_partial`, `Ri.link_format_false` | Proved for all values but application/link-format, for which it is false (witness). |
| C88 | partial | `Separate.safe_partial`, `Separate.safe_from_start_partial`, `Separate.no_leak_partial`, `Separate.invalid_code_ub`, `Separate.inactive_send_ub`, `Separate.leak_false` | Partial: the claim is false of the code for invalid status codes, for sending while idle, and when an allocation fails half-way (witnesses proved). |
| C89 | partial | `Separate.answered_partial`, `Separate.postponed_notification`, `Separate.same_token_false`, `Separate.unavailable_false`, `Separate.busy_lost_false`, `Separate.separate_observe_false` | Partial: proved for requests the handle tells apart and sending that succeeds; the four ways in which clients are not answered properly are proved as witnesses. |
| C90 | partial | `Session.exactly_once`, `Session.none_lost`, `Session.settles`, `Session.order_false`, `Session.exit_false`, `Session.no_memory_ub` | Delivery proved for all schedules while the process runs; order between the two kinds, shutdown and memory shortage are false of the code (witnesses). |
| C91 | partial | `Session.fire_safe_partial`, `Session.each_called`, `Session.remove_first`, `Session.remove_self_ub` | Partial: a handler that removes itself leads to a use after free (witness). |
| C92 | partial | `PlgdTime.runs`, `PlgdTime.never_ahead`, `PlgdTime.restored`, `PlgdTime.goes_back_false`, `PlgdTime.reset_sets_clock_false` | All histories until the year 9999. That the time never goes back, and that the system clock is only set to times the device was told, are false of the code (witnesses). |
| C93 | partial | `PlgdTime.insecure_get`, `PlgdTime.post_refused`, `PlgdTime.post_partial`, `PlgdTime.clock_failed`, `PlgdTime.last_wins`, `PlgdTime.epoch_false`, `PlgdTime.bad_date_false`, `PlgdTime.status_names` | Partial: false for times that are not after 1970 (witnesses). |
| C94 | partial | `MsgRef.freed_once_partial`, `MsgRef.alone_done`, `MsgRef.shrink_fits`, `MsgRef.wrap_ub`, `MsgRef.lost_false` | All schedules in which there are never more than 255 references; with more it is false (witnesses). |
| C95 | proved | `NetQueue.each_once`, `NetQueue.settles`, `NetQueue.no_lost_wakeup`, `NetQueue.wake_exact` | All schedules; the requested capacity must not be 0. |
| C96 | partial | `Collection.links_ordered_partial`, `Collection.order_unique`, `Collection.find_link`, `Collection.add_twice_ub`, `Collection.add_twice_loses_false` | All histories in which no link is added that is already in the collection; otherwise false (witnesses). |
| C97 | partial | `Collection.delete_unlinks_partial`, `Collection.delete_keeps`, `Collection.delete_dangling_false`, `Collection.delete_other_device_false`, `Collection.delete_wrong_link_false`, `Collection.free_collection_dangling_false` | Proved for collections of the device of the resource with one link to its path; the other cases are false (witnesses). |
| C98 | partial | `Collection.only_permitted_partial`, `Collection.interface_bypassed_false` | Method and access control are proved for all requests and nestings; that the interfaces of the linked resource are respected is false (witness). |
| C99 | partial | `Collection.batch_get`, `Collection.batch_post_partial`, `Collection.list_get`, `Collection.too_big`, `Collection.stale_payload_false`, `Collection.earlier_error_false`, `Collection.unknown_href_false`, `Collection.member_names_false`, `Collection.partly_applied_false`, `Collection.empty_collection_false`, `Collection.baseline_post_false`, `Collection.nested_error_false` | Exact for collections that link no other collection and well-formed items; witnesses for what is false of the code. |
| C100 | partial | `Collection.ends_partial`, `Collection.cycle_ub` | Proved when collections are not linked in a cycle; with a cycle it is false (witness). |
| C101 | partial | `StrArr.new_array`, `StrArr.add_item`, `StrArr.add_all`, `StrArr.add_byte_item`, `StrArr.byte_item`, `StrArr.set_item_ub` | All arrays and texts. Setting an item of a text array with an index outside of it is not refused (witness); the byte array asserts instead. |
| C102 | partial | `StrArr.join_partial`, `StrArr.set_string_partial`, `StrArr.concat_strings`, `StrArr.equal_iff`, `StrArr.join_empty_ub`, `StrArr.set_alias_ub` | An array without texts and setting a string to a part of itself are false of the code (witnesses). |
| C103 | partial | `CloudRd.kept_partial`, `CloudRd.removed_once`, `CloudRd.add_result`, `CloudRd.collection_ub` | All histories in which a tracked resource is not freed as a collection; otherwise undefined (witness). |
| C104 | proved | `CloudRd.requests`, `CloudRd.logged_in`, `CloudRd.removal` | All states; ids of 64 bits and a header of at least 100 bytes. The bytes of the payload are abstracted to the list of links. |
| C105 | partial | `CloudRd.directory_partial`, `CloudRd.hourly_step`, `CloudRd.hourly_only_logged_in`, `CloudRd.deleted_unanswered_false`, `CloudRd.republished_false`, `CloudRd.added_again_false`, `CloudRd.lost_false` | Proved for all interleavings in which nothing is lost, no resource is deleted while its publication is unanswered and none added again while its removal waits; otherwise false (witnesses). |
| C106 | partial | `Certs.allowed_algorithms`, `Certs.ca_sound`, `Certs.ca_partial`, `Certs.root_false`, `Certs.intermediate_false`, `Certs.tiers_false`, `Certs.issuer_ub`, `Certs.rsa_key_ub` | Everything but the names is proved for all certificates; that roots are exactly the self-issued ones needs names of different lengths for different names (witnesses otherwise). |
| C107 | partial | `Certs.leaf_sound`, `Certs.leaf_partial`, `Certs.leaf_exclusive`, `Certs.rsa_key_ub` | All certificates with a key on an elliptic curve; others signed by ECDSA are undefined behaviour (witness). |
| C108 | partial | `Certs.chain_checked`, `Certs.authorised_partial`, `Certs.identity_of_leaf`, `Certs.accepted`, `Certs.loop_stops_false`, `Certs.stale_root_false`, `Certs.removed_anchor_ub` | The checks of the chain and acceptance of proper peers for all chains; authorisation for a first handshake when all CAs are trusted CAs of the device, otherwise false (witnesses). Signatures and the building of the chain are those of mbedtls. |
| C109 | partial | `Certs.cn_uuid`, `Certs.cn_round_trip`, `Certs.wildcard_cn_false`, `Certs.garbage_uuid_false`, `Certs.cn_ub` | All names and UUIDs; texts that are no UUID and the wildcard are false (witnesses). |
| C110 | partial | `Certs.assert_sound`, `Certs.assert_partial`, `Certs.role_perms`, `Certs.role_key_ub`, `Certs.role_other_anchor_false`, `Certs.role_uppercase_false` | Sound for all certificates; complete for UUIDs in lower case; witnesses for what is false of the code. |
| C111 | partial | `Certs.unix_time`, `Certs.before_1970_false` | All dates from 1970 to 9999; earlier ones are false (witness). |
| C112 | partial | `Discovery.listed_iff`, `Discovery.listed_once`, `Discovery.endpoints_iff`, `Discovery.links_answer`, `Discovery.baseline_answer_partial`, `Discovery.batch_needs_security`, `Discovery.other_domain_silent`, `Discovery.baseline_no_match_false`, `Discovery.lower_is_ascii_lower` | Exact for all devices and requests; over the baseline interface a request that matches nothing is answered (witness). |
| C113 | partial | `Discovery.sync_up_to_date_partial`, `Discovery.batch_items`, `Discovery.incEtag_greatest`, `Discovery.full_answer`, `Discovery.granted_missing_false`, `Discovery.deleted_kept_false`, `Discovery.long_path_false` | All histories without growing access and with paths of at most 256 bytes; deletions are never told (witnesses). |
| C114 | partial | `Discovery.client_learns_directory`, `Discovery.stop_prefix`, `Discovery.missing_policy`, `Discovery.array_payload_safe_partial`, `Discovery.map_payload_ub`, `Discovery.short_anchor_ub`, `Discovery.stale_link_false`, `Discovery.rel_after_if_false`, `Discovery.eps_before_anchor_false`, `Discovery.links_property_false`, `Discovery.two_arrays_leak_false`, `Discovery.more_to_come_false` | Exact for what a device of this library sends, between hosts with the same family of addresses; of other payloads much is false (witnesses). |
| C115 | partial | `Tls.messages_in_order_partial`, `Tls.all_delivered_partial`, `Tls.one_record_each`, `Tls.oversized_closes`, `Tls.second_message_waits_false`, `Tls.short_frame_ub`, `Tls.short_frame_static_ub`, `Tls.six_byte_frame_false` | All sequences of messages of more than six bytes, all cuts and schedules; shorter messages break it (witnesses). |
| C116 | partial | `Tls.globals`, `Tls.sets_up_iff`, `Tls.server_suites`, `Tls.anon_iff`, `Tls.server_authenticates_partial`, `Tls.client_suites`, `Tls.single_doc`, `Tls.own_chain`, `Tls.anon_leak_false`, `Tls.cloud_leak_false`, `Tls.choice_lost_false`, `Tls.ident_leak_false` | Exact for all histories; that a choice concerns the connection it was made for is false (witnesses). |
| C117 | partial | `Tls.psk_exact`, `Tls.psk_sound`, `Tls.peers_agree`, `Tls.pin_agrees`, `Tls.short_identity_false`, `Tls.long_identity_false`, `Tls.short_identity_ub`, `Tls.pin_shared_false` | Exact for identities of the right form; others are completed, cut or read out of bounds (witnesses). |
| C118 | partial | `Tls.prf_rfc5246`, `Tls.owner_key_exact`, `Tls.no_session_no_key`, `Tls.owner_agrees`, `Tls.key_block_partial`, `Tls.otm_suites_known`, `Tls.public_owner_key_false`, `Tls.no_memory_ub` | Exact for all sessions; over four suites the key is public (witness). HMAC-SHA256 is a parameter with results of 32 bytes. |
| C119 | partial | `Swu.post_accepts_iff`, `Swu.post_effect`, `Swu.validate_agrees`, `Swu.run_safe`, `Swu.urls_checked_partial`, `Swu.performed_once`, `Swu.stored_partial`, `Swu.restart_resumes`, `Swu.clk_ok`, `Swu.empty_url_false`, `Swu.never_set_url_false`, `Swu.null_url_false`, `Swu.past_time_false`, `Swu.arranged_lost_false`, `Swu.arranged_replaced_false`, `Swu.target_not_saved_false` | All histories; empty URLs, past times, reports in between and the target mode break it (witnesses). |
| C120 | partial | `Obt.run_safe_partial`, `Obt.transfer_truthful_partial`, `Obt.called_once_partial`, `Obt.answered_ends_partial`, `Obt.forgotten_partial`, `Obt.pin_credential_temporary_partial`, `Obt.retry_in_callback_ub`, `Obt.two_transfers_ub`, `Obt.late_endpoints_ub`, `Obt.pin_credential_ub`, `Obt.refused_start_false`, `Obt.told_other_uuid_false`, `Obt.rediscovery_false`, `Obt.orphaned_false`, `Obt.method_offered`, `Obt.discovery_filter` | All histories with one procedure per device at a time; otherwise freed memory is used (witnesses). |
| C121 | partial | `Obt.provisioning_truthful_partial`, `Obt.run_safe_partial`, `Obt.called_once_partial`, `Obt.answered_ends_partial`, `Obt.two_resets_ub`, `Obt.reset_while_provisioning_ub`, `Obt.failed_entry_false`, `Obt.reset_unreported_false`, `Obt.not_owned_refused`, `Obt.discovery_filter` | All histories with one procedure per device at a time; otherwise freed memory is used (witnesses). Certificates, roles and removal of entries are not modelled. |
| C122 | partial | `Dhcp.hex_text`, `Dhcp.reads_unique`, `Dhcp.hex_round_trip`, `Dhcp.parse_exact`, `Dhcp.set_values_partial`, `Dhcp.hex_malformed_false`, `Dhcp.parse_foreign_false`, `Dhcp.address_kept_false`, `Dhcp.fingerprint_alone_false` | Exact for every text and option list; the texts of addresses are not checked by the code. Witnesses for the listed failures. |
| C123 | partial | `Dps.Retry.configuration`, `Dps.Retry.schedule`, `Dps.Retry.reset_fresh`, `Dps.Retry.readable_partial`, `Dps.Retry.counter_ub` | The schedule is exact for every configuration and number of failures with the built-in scheduler; witness for a custom one. |
| C124 | partial | `Dps.Pin.without_pin`, `Dps.Pin.with_pin`, `Dps.Pin.with_pin_single_partial`, `Dps.Pin.pin_partial`, `Dps.Pin.pin_untrusted_false`, `Dps.Pin.pin_unsigned_false` | Exact description of what is accepted; the intended property fails (witnesses). |
| C125 | partial | `Dps.Cert.state_exact`, `Dps.Cert.check_exact`, `Dps.Cert.renewal_partial`, `Dps.Cert.renewal_late_false`, `Dps.Cert.renewal_short_false`, `Dps.Cert.clock_unknown_false` | Exact classification and check; renewal in time for the last certificate of each chain, witnesses for the others. |
| C126 | proved | `Dps.Prov.status_ordered`, `Dps.Prov.status_truthful`, `Dps.Prov.asks_in_order`, `Dps.Prov.cloud_only_when_complete`, `Dps.Prov.third_timeout_starts_over` | All histories of the modelled state machine; contents of answers are abstracted to whether they can be applied. |
| C127 | partial | `Dps.Prov.provisioning_goes_on_partial`, `Dps.Prov.recovers_partial`, `Dps.Prov.renewal_repeats`, `Dps.Prov.complete_is_watched`, `Dps.Prov.watch_goes_on`, `Dps.Prov.stop_final_partial`, `Dps.Prov.cloud_answer_stuck_false`, `Dps.Prov.no_cloud_context_stuck_false`, `Dps.Prov.reset_stuck_false`, `Dps.Prov.renewal_livelock_false`, `Dps.Prov.stop_answer_false`, `Dps.Prov.stop_interface_false` | Holds for histories without the listed events; witnesses for each. |
| C128 | partial | `Process.Dispatch.calls_partial`, `Process.Dispatch.running_partial`, `Process.Dispatch.events_in_order`, `Process.Dispatch.event_delivered`, `Process.Dispatch.poll_not_lost`, `Process.Dispatch.poll_recorded`, `Process.Dispatch.poll_delivered`, `Process.Dispatch.ended_leaves`, `Process.Dispatch.self_exit_false`, `Process.Dispatch.exit_caller_false`, `Process.Dispatch.broadcast_twice_false`, `Process.Dispatch.exit_untold_false` | All histories in which no process with an active call is exited; witnesses otherwise. That a broadcast reaches every process is not proved. |
| C129 | partial | `Push.pushed_partial`, `Push.nothing_pushed`, `Push.interfaces_never_match`, `Push.interfaces_false`, `Push.state_rule`, `Push.recovers`, `Push.refused_update_false`, `Push.aimed_partial`, `Push.cleared_target_false`, `Push.pathless_target_false`, `Push.one_request_partial`, `Push.two_requests_false`, `Push.deleted_response_ub`, `Push.change_lost_false`, `Push.refused_create` | All histories; conditions on interfaces, cleared or refused targets and changes while a response is awaited break it (witnesses). |
| C130 | partial | `PushRecv.receivers_partial`, `PushRecv.prefix_delete_false`, `PushRecv.prefix_create_false`, `PushRecv.prefix_push_false`, `PushRecv.own_resource_false`, `PushRecv.other_path_false`, `PushRecv.no_slash_false`, `PushRecv.half_update_false`, `PushRecv.second_types_false`, `PushRecv.common_only_false`, `PushRecv.altered_false`, `PushRecv.dangling_ub` | Refinement to a table for all histories with free, prefix-free paths and clean payloads; witnesses for the others. |
| C131 | partial | `Factory.lowest_partial`, `Factory.uri_fits`, `Factory.member_names_partial`, `Factory.members_partial`, `Factory.zero_false`, `Factory.twice_false`, `Factory.sign_false`, `Factory.random_false`, `Factory.elsewhere_false`, `Factory.example_history` | All histories of a collection whose URI leaves room for the number and whose other members are not read as numbers; witnesses for the others. |
| C132 | partial | `Factory.create_decided`, `Factory.history_young`, `Factory.created_partial`, `Factory.creator_granted_partial`, `Factory.only_creator_partial`, `Factory.deleted_partial`, `Factory.free_all_partial`, `Factory.free_all_ub`, `Factory.first_factory`, `Factory.stale_grant_false`, `Factory.wildcard_entry_false`, `Factory.anonymous_creator_false`, `Factory.other_array_false`, `Factory.second_type_false`, `Factory.policy_order_false`, `Factory.second_factory_false` | Same histories as C131; the decision holds in every state. Witnesses for what a client can do beyond. |
| C133 | partial | `TcpConn.story`, `TcpConn.stories`, `TcpConn.sent_in_order`, `TcpConn.told_once`, `TcpConn.told_at_end`, `TcpConn.refs_balanced`, `TcpConn.send_open`, `TcpConn.send_queued`, `TcpConn.accepted_closed`, `TcpConn.own_session`, `TcpConn.ready_decides`, `TcpConn.send2_opens_nothing`, `TcpConn.tick_told`, `TcpConn.close_told`, `TcpConn.torn_false`, `TcpConn.nonblocking_false` | All histories of calls with descriptors 1..1023, scopes below 255 and memory for the session of a retry; that the stream carries whole messages is false and witnessed. |
| C134 | partial | `TcpConn.sockets`, `TcpConn.one_connection`, `TcpConn.new_connection`, `TcpConn.tick_fresh`, `TcpConn.tick_attempts`, `TcpConn.in_time`, `TcpConn.ended_not_found`, `TcpConn.shutdown_closes`, `TcpConn.new_id`, `TcpConn.leak_false`, `TcpConn.fd_zero_false`, `TcpConn.fdset_ub`, `TcpConn.scope_ub`, `TcpConn.late_false`, `TcpConn.zero_timeout_false`, `TcpConn.race_false` | Same histories as C133; witnesses for the excluded ones and for the time of the next check. |
| C135 | partial | `Engine.reply_shape`, `Engine.answered`, `Engine.refused`, `Engine.during_reset`, `Engine.repeated`, `Engine.settled_once`, `Engine.quiet`, `Engine.conversation_ends`, `Engine.upload_refused`, `Engine.upload_continues`, `Engine.upload_ends`, `Engine.not_twice`, `Engine.during_reset_false`, `Engine.settled_once_false`, `Engine.ping_false`, `Engine.unwanted_false`, `Engine.type_false`, `Engine.invalid_false`, `Engine.stranger_false` | All states whose transactions have identities given out (every reachable one); the exceptions are witnessed. |
| C136 | partial | `Engine.never_fails`, `Engine.distinct_ids`, `Engine.to_asker`, `Engine.tcp_invalid`, `Engine.tcp_block_not_served`, `Engine.tcp_block_first_ub`, `Engine.tcp_block_ub`, `Engine.tcp_block_elsewhere_false`, `Engine.tcp_block_silent_false` | All histories without block options over TCP; the excluded ones are witnessed. |
| C137 | partial | `Engine.ping_pong`, `Engine.release`, `Engine.csm_answer`, `Engine.signal_not_served`, `Engine.after_csm`, `Engine.csm_ends`, `Engine.csm_again_false`, `Engine.csm_missing_false`, `Engine.signal_udp_false` | Signals over TCP; the exceptions are witnessed. |
| C138 | partial | `Batch.defined`, `Batch.pending_valid`, `Batch.pending_once`, `Batch.gone_not_pending`, `Batch.told_true`, `Batch.up_to_date`, `Batch.never_stalls`, `Batch.settles`, `Batch.unlisted_ub`, `Batch.long_uri_ub`, `Batch.stuck_behind_get_false`, `Batch.merged_lost_false`, `Batch.not_retried_false`, `Batch.too_large_lost_false`, `Batch.failed_add_false`, `Batch.hidden_removed_false` | Safety for all histories in which only added resources are changed and uris have at most 256 bytes; that everything is told for histories without failures and without ordinary transfers to observers. Witnesses for the others. |
| C139 | partial | `Notify.to_observers`, `Notify.discovery_to_observers`, `Notify.quiet`, `Notify.notified`, `Notify.notified_given`, `Notify.discovery_notified`, `Notify.sequence`, `Notify.numbers`, `Notify.ignored`, `Notify.iface_false`, `Notify.busy_lost_false`, `Notify.shared_code_false`, `Notify.error_untold_false`, `Notify.error_stays_false`, `Notify.leaked_false`, `Notify.rest_untold_false`, `Notify.collection_skipped_false` | Recipients for every outcome; exact output when nothing fails, no observer is receiving blocks or asked for the revert interface, and every linking collection is observed. Witnesses for the others. |
| C140 | partial | `OscoreEng.request_authentic`, `OscoreEng.request_window`, `OscoreEng.request_again_refused`, `OscoreEng.response_authentic`, `OscoreEng.odd_refused`, `OscoreEng.nonces_fresh`, `OscoreEng.never_plain`, `OscoreEng.request_sent`, `OscoreEng.request_delivered`, `OscoreEng.response_delivered`, `OscoreEng.group_post_only`, `OscoreEng.no_group_error`, `OscoreEng.notifications_in_order`, `OscoreEng.plain_response_false`, `OscoreEng.notification_again_false`, `OscoreEng.notification_old_false`, `OscoreEng.retransmission_false`, `OscoreEng.late_response_false`, `OscoreEng.request_twice_false`, `OscoreEng.observe_changed_false`, `OscoreEng.response_answered_false`, `OscoreEng.empty_id_false`, `OscoreEng.group_device_false`, `OscoreEng.clone_ub` | With an ideal AEAD: ciphertexts under a key are made only by its holders. Witnesses for unprotected responses, repeated and old notifications, retransmissions, the Observe value and errors. |
| C141 | partial | `TlsPeers.refs_conserved`, `TlsPeers.no_freed_partial`, `TlsPeers.stale_event_ub`, `TlsPeers.assert_closed_ub`, `TlsPeers.callback_close_ub`, `TlsPeers.sessions_distinct`, `TlsPeers.numbered`, `TlsPeers.not_normal_unsent`, `TlsPeers.made_connection`, `TlsPeers.closed_exactly`, `TlsPeers.removed_gone`, `TlsPeers.tcp_close_one_false`, `TlsPeers.reset_closes`, `TlsPeers.all_closed`, `TlsPeers.onboarding_single`, `TlsPeers.onboarding_method`, `TlsPeers.idle_bound`, `TlsPeers.active_kept`, `TlsPeers.queued_last`, `TlsPeers.flushed`, `TlsPeers.over_writes`, `TlsPeers.retry_stuck_false`, `TlsPeers.roles_stuck_false`, `TlsPeers.overtake_false`, `TlsPeers.want_lost_false` | mbedtls is an oracle. Memory safety for tame histories (no throwing away of a session with events, no assertion of roles on sessions closed meanwhile, no closing from callbacks); witnesses for each of the others, and for messages that stay, are lost or overtake. |
| C142 | partial | `Encode.carries`, `Encode.stored_exactly`, `Encode.posted_exactly`, `Encode.timed_exactly`, `Encode.too_long_false`, `Encode.long_answer_ub`, `Encode.long_answer_false`, `Encode.get_between_ub`, `Encode.store_between_false`, `Encode.closed_between_ub`, `Encode.not_serialised_ub`, `Encode.store_first_ub`, `Encode.request_first_false`, `Encode.update_false`, `Encode.update_not_begun_ub`, `Encode.sticky_format_false`, `Encode.unknown_accept_false`, `Encode.twice_false` | Refinement of histories of jobs to a list of messages, for all jobs whose payloads fit; stored records and whole requests from every state. The interleavings for which the statement is false of the code are proved as witnesses. tinycbor is a parameter, memory allocation succeeds, the blocks of a payload are one step. |
| C143 | partial | `Life.defined_partial`, `Life.sound`, `Life.truthful_partial`, `Life.one_uri`, `Life.counted`, `Life.deleted`, `Life.collection_deleted`, `Life.deleted_later`, `Life.due_deletes`, `Life.change_told`, `Life.links_told`, `Life.observed`, `Life.left`, `Life.reset_ends`, `Life.added`, `Life.linked`, `Life.unlinked`, `Life.cancelled`, `Life.callbacks_once`, `Life.scheduled`, `Life.due_told`, `Life.others_told`, `Life.collection_observed_ub`, `Life.collection_reused_false`, `Life.collection_pending_ub`, `Life.collection_linked_ub`, `Life.linked_twice_ub`, `Life.linked_elsewhere_ub`, `Life.linked_namesake_ub`, `Life.linked_early_ub`, `Life.second_collection_false` | For applications that do what Minded says; a witness for each of its conditions that concerns links and collections. What is sent, discovery, periodic callbacks and created resources are in other areas. |
| C144 | partial | `ObtRead.acl_read_partial`, `ObtRead.ace_read`, `ObtRead.acl_error`, `ObtRead.creds_read`, `ObtRead.no_creds`, `ObtRead.private_kept`, `ObtRead.creds_error`, `ObtRead.once`, `ObtRead.answered`, `ObtRead.failed`, `ObtRead.started`, `ObtRead.empty_acl_ub`, `ObtRead.no_list_ub`, `ObtRead.unknown_conn_false`, `ObtRead.role_type_ub`, `ObtRead.second_array_false`, `ObtRead.star_subject_false`, `ObtRead.cred_role_type_ub` | Round trip from every reachable list of the device to the callback of the tool, independence of the answer from private data, and callbacks for all histories. False of the code, with witnesses: an empty list or a response without a payload, roles that are no text (undefined behaviour); unknown types of connections, a second array, subjects that start with the byte of the wildcard. |
| C145 | partial | `ObtDel.ace_gone`, `ObtDel.cred_gone`, `ObtDel.refused`, `ObtDel.only_this`, `ObtDel.asked`, `ObtDel.apart`, `ObtDel.not_started`, `ObtDel.once`, `ObtDel.truthful_partial`, `ObtDel.ends`, `ObtDel.works`, `ObtDel.zero_false`, `ObtDel.left_false`, `ObtDel.lost_false`, `ObtDel.timeout_false` | Invariant over all histories of the tool and its devices. Missing from truthfulness: failures with the code of a request timeout, which the code takes for success (witness timeout_false). Also false of the code: an entry with id 0 can be deleted; a device is returned to normal operation when a deletion fails; failure told means nothing was deleted. |
| C146 | partial | `ObtInit.round_trip`, `ObtInit.unknown_ignored`, `ObtInit.load_safe`, `ObtInit.ctx_apart`, `ObtInit.first`, `ObtInit.no_new`, `ObtInit.kept`, `ObtInit.never_ub`, `ObtInit.crash_partial`, `ObtInit.crash_false`, `ObtInit.again_false`, `ObtInit.unsaved_false`, `ObtInit.key_ub`, `ObtInit.gid_ub` | All histories of starts, crashes and restarts. False of the code, with witnesses: after a crash between the first and the last write, after a failed first start, and after a write that failed, the next start succeeds without the keys (a group secret of zeros, no root certificate); stored keys of wrong sizes leave the arrays. |
| C147 | partial | `ObtFind.lists`, `ObtFind.told_live`, `ObtFind.told_what`, `ObtFind.asked_why`, `ObtFind.others_kept`, `ObtFind.ended`, `ObtFind.owned_found`, `ObtFind.unowned_found`, `ObtFind.ignored`, `ObtFind.self_ignored`, `ObtFind.nothing`, `ObtFind.expired`, `ObtFind.devices_stay`, `ObtFind.begun`, `ObtFind.safe_partial`, `ObtFind.no_uuid_ub`, `ObtFind.no_list_ub`, `ObtFind.short_anchor_ub`, `ObtFind.ep_type_ub`, `ObtFind.ep_name_false`, `ObtFind.two_false`, `ObtFind.family_false` | Invariant over all histories and the way from what a device says to what the application is told. False of the code, with witnesses: an answer without a UUID, without a list of links, with a short anchor or with an `ep` that is no text is undefined behaviour; a text of any name is taken for an endpoint; of two discoveries answered before the endpoints are asked for, one is never told; an answer with endpoints of the other family only empties those of a known device. |
| C148 | partial | `ConRes.names`, `ConRes.names_total`, `ConRes.accepted`, `ConRes.post_get`, `ConRes.refused_partial`, `ConRes.located`, `ConRes.get_safe`, `ConRes.others`, `ConRes.cb_set`, `ConRes.half_false`, `ConRes.late_false` | Exact condition for success and effect of every request. False of the code, with witnesses: a request with a name and a location that cannot be set is refused after the name was changed and observers were notified; a callback for writes is not set for devices added later. |
