{"id": "C01", "title": "Rust message round trip", "statement": "In generated Rust code, encoding a message struct to bytes and decoding those bytes again gives back exactly the value that was encoded, for every protocol schema and every value of the schema (nested structs, enums, vectors, strings, optionals), as long as no optional field is present-but-empty and no enum variant carries an empty payload (those two cases are C02 and C03).", "quantifier": "every well-formed schema (any depth, any number of fields), every value of it without empty optionals / empty enum payloads", "why_tests_cant": "the set of schemas and values is infinite and the layout nests length prefixes recursively; tests sample a few fixed structs", "anchors": ["cli/src/protocol/render/rust/static/protocol.encode.rs: get_value_buffer, StructEncode, Encode impls", "cli/src/protocol/render/rust/static/protocol.decode.rs: StructDecode, Decode impls", "cli/src/protocol/render/rust/static/protocol.storage.rs: Storage::new", "cli/src/protocol/render/rust/mod.rs: structs, enums"]}
{"id": "C02", "title": "Optional presence survives the wire", "statement": "In generated Rust code, an optional field that was set before encoding is still set (to the same value) after decoding, and one that was unset is still unset.", "quantifier": "every optional field type and every value of it, including the empty string, the empty vector and a struct without fields", "why_tests_cant": "needs every payload value; the failing values are exactly the ones a sample based test rarely picks", "anchors": ["cli/src/protocol/render/rust/static/protocol.encode.rs: impl Encode for Option", "cli/src/protocol/render/rust/static/protocol.decode.rs: impl Decode for Option"]}
{"id": "C03", "title": "Enum value round trip", "statement": "In generated Rust code, encoding an enum value and decoding it gives back the same variant with the same payload.", "quantifier": "every enum declaration, every variant, every payload (including empty strings and empty vectors)", "why_tests_cant": "variant index and payload length interact (an off-by-one in the minimal length only shows for empty payloads)", "anchors": ["cli/src/protocol/render/rust/mod.rs: enums (extract/abduct)", "cli/src/protocol/render/rust/static/protocol.decode.rs: EnumDecode", "cli/src/protocol/render/rust/static/protocol.encode.rs: EnumEncode"]}
{"id": "C04", "title": "Different messages have different encodings", "statement": "Two different values of the same message type never produce the same bytes (Rust encoder), so a receiver can never confuse them.", "quantifier": "every schema, every pair of distinct values of it (same restriction as C01)", "why_tests_cant": "a statement about pairs of values out of an infinite set", "anchors": ["cli/src/protocol/render/rust/static/protocol.encode.rs: StructEncode::encode"]}
{"id": "C05", "title": "Decoding does not depend on property order and ignores unknown properties", "statement": "A body whose property records are permuted, or which carries extra properties with ids the receiver does not know, decodes (Rust) to the same value as the original body. A sender with a newer protocol version stays readable.", "quantifier": "every schema, every value, every permutation of the records, every list of extra records with foreign ids", "why_tests_cant": "permutations and foreign records form an unbounded family", "anchors": ["cli/src/protocol/render/rust/static/protocol.storage.rs: Storage::new, Storage::get", "cli/src/protocol/render/rust/static/protocol.decode.rs: Decode::get_from_storage"]}
{"id": "C06", "title": "A missing property is an error, never a default", "statement": "If the body lacks the record of any declared field, decoding the struct in Rust returns an error; no default value is ever made up.", "quantifier": "every schema, every field, every set of other records", "why_tests_cant": "negative statement over every body that lacks a record", "anchors": ["cli/src/protocol/render/rust/static/protocol.decode.rs: Decode impls (Fail get buffer)", "cli/src/protocol/render/rust/mod.rs: structs::extract"]}
{"id": "C07", "title": "A truncated body is never accepted", "statement": "No proper prefix of the encoding of a message decodes successfully in Rust: cutting a body anywhere can never be taken for a valid message.", "quantifier": "every schema, every value, every cut position", "why_tests_cant": "all cut positions for all values; a test checks a few", "anchors": ["cli/src/protocol/render/rust/static/protocol.storage.rs: id, body, next", "cli/src/protocol/render/rust/static/protocol.decode.rs"]}
{"id": "C08", "title": "Decoding arbitrary bytes does not crash the process (Rust)", "statement": "Decoding a message body received from the network returns Ok or Err for any byte string; it never panics.", "quantifier": "every byte string, every schema", "why_tests_cant": "needs every byte string; a fuzzer can find a crash but not show absence", "anchors": ["cli/src/protocol/render/rust/static/protocol.storage.rs: Storage::id (get_u16_le), Storage::body (slice)", "cli/src/protocol/render/rust/static/protocol.decode.rs: impl Decode for Vec<T: StructDecode>"]}
{"id": "C09", "title": "Frame header round trip", "statement": "Packing a message and parsing the frame gives back the same message id, signature, sequence, timestamp, body length and body, and leaves exactly the bytes that follow the frame.", "quantifier": "every id, signature, sequence, timestamp, body below 2^64 bytes and every trailing byte string", "why_tests_cant": "all 32/16/32/64 bit combinations and all bodies", "anchors": ["cli/src/protocol/render/rust/static/protocol.packing.rs: pack_buffer, get_header_from_buffer, get_body_from_buffer"]}
{"id": "C10", "title": "Stream reassembly is independent of chunking (Rust)", "statement": "When the concatenation of valid frames is fed to the Rust reader in any split into chunks (including empty chunks, byte by byte, several messages per chunk), the reader reports no error and delivers exactly the sent messages, once each, in order, with their headers.", "quantifier": "every list of valid messages and every way to cut the byte stream into chunks", "why_tests_cant": "the number of splits is exponential; TCP decides the split", "anchors": ["cli/src/protocol/render/rust/static/protocol.buffer.rs: Buffer::chunk, next", "cli/src/protocol/render/rust/static/protocol.packing.rs: has_buffer_header, has_buffer_body"]}
{"id": "C11", "title": "Incomplete frames wait, complete frames are delivered at once (Rust)", "statement": "After feeding a prefix of a stream of valid frames the reader has delivered exactly the frames that are completely contained in the prefix; the rest of the prefix is kept (pending bytes) and nothing is lost or duplicated.", "quantifier": "every stream of valid frames and every prefix length", "why_tests_cant": "all cut positions including inside the header, inside the length field and at frame borders", "anchors": ["cli/src/protocol/render/rust/static/protocol.buffer.rs: chunk, len, pending"]}
{"id": "C12", "title": "A frame with a foreign signature is rejected and cannot be delivered (Rust)", "statement": "A frame whose signature does not match the protocol signature compiled into the reader is never delivered: the reader returns a signature error, drops exactly this frame and continues with the next frame on the following call.", "quantifier": "every frame with a mismatching signature, at any place in any stream", "why_tests_cant": "position in the stream and content of neighbours are unbounded", "anchors": ["cli/src/protocol/render/rust/static/protocol.buffer.rs: get_message, chunk", "cli/src/protocol/render/rust/mod.rs: buffer (get_signature)"]}
{"id": "C13", "title": "After a bad frame all complete good frames are available (Rust)", "statement": "When a chunk contains a bad frame followed by complete good frames, the good frames are available to the application after that chunk was fed.", "quantifier": "every chunk made of one bad frame and any number of good frames", "why_tests_cant": "depends on the layout of the chunk chosen by the network", "anchors": ["cli/src/protocol/render/rust/static/protocol.buffer.rs: chunk (Err branch)"]}
{"id": "C14", "title": "The Rust reader survives any byte stream", "statement": "Feeding arbitrary bytes to the Rust reader returns Ok or Err; it never panics, whatever lengths the peer puts in frame headers.", "quantifier": "every sequence of byte chunks", "why_tests_cant": "adversarial 64 bit length fields; all byte strings", "anchors": ["cli/src/protocol/render/rust/static/protocol.packing.rs: has_buffer_body (len_usize + MSG_HEADER_LEN)", "cli/src/protocol/render/rust/static/protocol.buffer.rs: chunk"]}
{"id": "C15", "title": "Stream reassembly is independent of chunking (TypeScript)", "statement": "When the concatenation of valid frames is fed to the TypeScript reader in any split, it reports no error and delivers exactly the sent messages, once each, in order.", "quantifier": "every list of valid messages, every split", "why_tests_cant": "exponentially many splits", "anchors": ["cli/src/protocol/render/typescript/static/packing.ts: BufferReader.chunk, next", "cli/src/protocol/render/typescript/static/packing.header.ts"]}
{"id": "C16", "title": "The TypeScript reader always returns", "statement": "Feeding a chunk to the TypeScript reader terminates for every input.", "quantifier": "every reader state, every chunk", "why_tests_cant": "non-termination cannot be observed by a test, and all inputs are needed for termination", "anchors": ["cli/src/protocol/render/typescript/static/packing.ts: BufferReader.chunk (signature branch does not advance the buffer)"]}
{"id": "C17", "title": "One unknown message does not block the TypeScript reader for ever", "statement": "After a frame with an unknown message id was received by the TypeScript reader, later valid frames are still delivered.", "quantifier": "every stream with an unknown frame followed by any number of valid chunks", "why_tests_cant": "for ever means every later history", "anchors": ["cli/src/protocol/render/typescript/static/packing.ts: BufferReader.chunk", "cli/src/protocol/render/typescript/mod.rs: buffer (default: throw)"]}
{"id": "C18", "title": "Rust and TypeScript speak the same wire format", "statement": "A body encoded by generated Rust code decodes in generated TypeScript code of the same protocol to the same value, and vice versa, for every type both sides support (ids below 256, integers within the JavaScript safe range, no repeated enum).", "quantifier": "every schema in the common subset, every value", "why_tests_cant": "two independent implementations; all schemas and values", "anchors": ["cli/src/protocol/render/rust/static/protocol.encode.rs", "cli/src/protocol/render/typescript/static/protocol.convertor.ts", "cli/src/protocol/render/typescript/static/protocol.convertor.storage.ts", "cli/src/protocol/render/typescript/mod.rs: get_field_encode, get_field_decode"]}
{"id": "C19", "title": "TypeScript keeps properties with large ids apart", "statement": "Two properties with different 16 bit ids are read back by TypeScript as different properties, each under its own id.", "quantifier": "every pair of ids in 0..65535", "why_tests_cant": "ids are assigned by a global counter, so only large protocols reach the failing ids", "anchors": ["cli/src/protocol/render/typescript/static/protocol.convertor.storage.ts: _getId"]}
{"id": "C20", "title": "Message ids are unique within a protocol", "statement": "In any protocol accepted by the parser, two different declarations (structs, enums, fields, groups) never get the same id, so the id in a frame header determines the message type.", "quantifier": "every protocol source text / every sequence of declarations", "why_tests_cant": "invariant over every history of declarations", "anchors": ["cli/src/protocol/store.rs: Store (sequence)", "cli/src/protocol/parser.rs: parse"]}
{"id": "C21", "title": "Frame dispatch picks the declared type", "statement": "The generated Rust dispatcher turns a frame id into the struct or enum declared with that id, and reports an error for an id nobody declared; it never decodes a body as another type.", "quantifier": "every protocol, every frame id", "why_tests_cant": "all protocols and all 2^32 ids", "anchors": ["cli/src/protocol/render/rust/mod.rs: buffer", "cli/src/protocol/render/rust/static/protocol.buffer.rs: get_message"]}
{"id": "C22", "title": "The protocol parser always terminates", "statement": "Parsing any protocol text ends with a result or an error message.", "quantifier": "every input text", "why_tests_cant": "termination for every text", "anchors": ["cli/src/protocol/parser.rs: parse, next"]}
{"id": "C23", "title": "The workflow parser always terminates", "statement": "Parsing any workflow text ends with a result or an error message.", "quantifier": "every input text (including one not ending in a line break)", "why_tests_cant": "termination for every text", "anchors": ["cli/src/workflow/parser.rs: parse, next"]}
{"id": "C24", "title": "Type references resolve to the nearest declaration on the path", "statement": "Looking up a dotted name in a protocol returns an entity exactly when a declaration with that path exists relative to the given group, and the returned entity is a declaration carrying that name and parent chain.", "quantifier": "every protocol, every group, every dotted path", "why_tests_cant": "unbounded nesting depth", "anchors": ["cli/src/protocol/store.rs: find_by_path, get_struct_by_str_path, find_by_str_path"]}
{"id": "C25", "title": "Names inside a struct or enum are unique", "statement": "A protocol in which a struct has two fields of the same name is rejected; in an accepted protocol all field names of a struct are distinct.", "quantifier": "every sequence of declarations", "why_tests_cant": "invariant over every declaration history", "anchors": ["cli/src/protocol/structs.rs: add_field", "cli/src/protocol/fields.rs"]}
{"id": "C26", "title": "Workflow declarations are unique", "statement": "In an accepted workflow every request, beacon and event reference occurs once, no struct is used both as beacon and as request, and there is at most one config; a second declaration is refused and leaves the workflow unchanged.", "quantifier": "every sequence of add operations followed by validation", "why_tests_cant": "invariant over every history", "anchors": ["cli/src/workflow/store.rs: add_request, add_event, add_beacon, set_config, validate"]}
{"id": "C27", "title": "A request reaches its handler only after a complete handshake (Rust server)", "statement": "Server code for a request or beacon runs for a connection only if that connection was confirmed, presented the right protocol and workflow hash, and has set its self key before; and under the strict identification strategies only after the server assigned a key.", "quantifier": "every interleaving of connects, disconnects, confirmations, received chunks and identification changes of any number of clients", "why_tests_cant": "schedules are chosen by the network and by the select! loop", "anchors": ["cli/src/workflow/render/producer/rust/render_mod.rs: process_received_data, listener", "cli/src/workflow/render/producer/rust/render_identification.rs"]}
{"id": "C28", "title": "Nothing is processed for a client after it was kicked (Rust server)", "statement": "Once the server decided to disconnect a client, no request of this client reaches its handler.", "quantifier": "every history of events, every packing of messages into chunks", "why_tests_cant": "depends on how messages are batched into one chunk", "anchors": ["cli/src/workflow/render/producer/rust/render_mod.rs: disconnect, process_received_data"]}
{"id": "C29", "title": "A client is disconnected at most once per connection (Rust server)", "statement": "Between a connect event and the matching disconnect event the server asks the transport at most once to drop the client.", "quantifier": "every history", "why_tests_cant": "invariant over every history", "anchors": ["cli/src/workflow/render/producer/rust/render_mod.rs: disconnect", "cli/src/workflow/render/producer/rust/render_identification.rs: discredited"]}
{"id": "C30", "title": "The hash check cannot be bypassed (Rust server)", "statement": "A connection counts as hash accepted exactly if a hash request with the server's protocol hash and the server's workflow hash was received on it; every other hash request is answered with an error and leads to disconnect.", "quantifier": "every history, every pair of hash strings", "why_tests_cant": "all histories and strings", "anchors": ["cli/src/workflow/render/producer/rust/render_mod.rs: process_received_data (HashRequest)"]}
{"id": "C31", "title": "One client cannot stop the Rust server", "statement": "Whatever a single client does (connect, disconnect, send any bytes, vanish while the server is writing to it), the server loop keeps running for the other clients.", "quantifier": "every history, every outcome of transport sends", "why_tests_cant": "needs every schedule of a vanishing client against the confirmation", "anchors": ["cli/src/workflow/render/producer/rust/render_mod.rs: listener (Confirmation: control.send(..).await?)", "cli/src/workflow/render/producer/rust/render_mod.rs: add_connection"]}
{"id": "C32", "title": "A client that answers the connection event quickly is served", "statement": "A client which sends its self key request as soon as the connection is established (as the generated TypeScript client does) is not disconnected by the Rust server for it.", "quantifier": "every order in which the server loop picks up the confirmation and the received data", "why_tests_cant": "a race decided by select!", "anchors": ["cli/src/workflow/render/producer/rust/render_mod.rs: listener, process_received_data (is_confirmed)", "cli/src/workflow/render/consumer/typescript/render_consumer.rs: _onClientConnected"]}
{"id": "C33", "title": "Each request gets exactly one response, carrying its sequence, before its broadcasts (Rust server)", "statement": "A handler that succeeds sends exactly one message to the requester with the sequence of the request; broadcasts of the chosen conclusion follow in declaration order with sequence 0; deferred actions run after all of them.", "quantifier": "every request declaration, every conclusion, every set of optional broadcasts, every list of receivers, every failing send", "why_tests_cant": "all declarations and all failure points", "anchors": ["cli/src/workflow/render/producer/rust/render_request_handler.rs: MODULE_WITH_CONCLUSION, get_conclusions", "cli/src/workflow/render/producer/rust/static/implementation/scope/mod.rs"]}
{"id": "C34", "title": "Every broadcast declared for a conclusion is sent", "statement": "If a workflow declares a broadcast for a response, the generated Rust server sends it whenever this response is given.", "quantifier": "every accepted request declaration", "why_tests_cant": "quantifies over every workflow declaration; tests use one workflow", "anchors": ["cli/src/workflow/render/producer/rust/render_request_handler.rs: render (actions.len() > 1)", "cli/src/workflow/request.rs: close"]}
{"id": "C35", "title": "Broadcast failures do not stop delivery to other receivers", "statement": "A broadcast is attempted exactly once for every receiver in the list, in order, whether or not sending to some receivers fails.", "quantifier": "every receiver list, every subset of failing receivers", "why_tests_cant": "all subsets of failures", "anchors": ["cli/src/workflow/render/producer/rust/render_mod.rs: Control::broadcast"]}
{"id": "C36", "title": "Identification merge keeps what was not sent", "statement": "Updating a key without overwrite changes exactly the fields present in the update and keeps all other fields; with overwrite (or when no key is set) the key becomes exactly the given one.", "quantifier": "every key struct declaration, every old key, every update", "why_tests_cant": "all struct declarations and values", "anchors": ["cli/src/workflow/render/producer/rust/render_identification.rs: key, assign, self_key_overwrite, assign_key_overwrite", "cli/src/workflow/render/producer/typescript/render_identification.rs"]}
{"id": "C37", "title": "The TypeScript server enforces key assignment", "statement": "Under the Disconnect, EmitError and EmitErrorAndDisconnect identification strategies the TypeScript server does not run request handlers for clients without an assigned key.", "quantifier": "every history, every strategy", "why_tests_cant": "negative statement over all histories", "anchors": ["cli/src/workflow/render/producer/typescript/render_identification.rs: assigned (tests this.assign)", "cli/src/workflow/render/producer/typescript/render_mod.rs: _onClientReceived"]}
{"id": "C38", "title": "Nothing is processed for a client after it was kicked (TypeScript server)", "statement": "Once the TypeScript server asked the transport to disconnect a client (bad hash, missing key, unknown message), no later request of this client reaches its handler.", "quantifier": "every history before the transport reports the disconnect", "why_tests_cant": "all histories", "anchors": ["cli/src/workflow/render/producer/typescript/render_mod.rs: _onClientReceived, disconnect", "cli/src/workflow/render/producer/typescript/render_identification.rs: discredited"]}
{"id": "C39", "title": "Request sequences stay in range and do not collide (Rust client)", "statement": "Every sequence handed out to a request by the Rust client lies in 10..u32::MAX-2, never equals the handshake sequences 0 and 1, never overflows, and any 4 294 967 284 consecutive ones are pairwise distinct.", "quantifier": "every number of requests", "why_tests_cant": "wrap around needs 2^32 requests", "anchors": ["cli/src/workflow/render/consumer/rust/render_consumer.rs: client_api_task (Sequence)"]}
{"id": "C40", "title": "A response is delivered to the request it answers (Rust client)", "statement": "A response with sequence s is handed to the pending request with sequence s and to no other; each pending request gets at most one response; messages that match no pending request go to the broadcast handlers.", "quantifier": "every interleaving of requests and incoming messages", "why_tests_cant": "all interleavings", "anchors": ["cli/src/workflow/render/consumer/rust/render_consumer.rs: client_api_task, client_messages_task", "cli/src/workflow/render/consumer/rust/static/implementation/consumer/api.rs"]}
{"id": "C41", "title": "A late response does not break the client (Rust client)", "statement": "If a request timed out and its response arrives later, the client stays connected and usable.", "quantifier": "every order of timeout and response", "why_tests_cant": "race between timeout and network", "anchors": ["cli/src/workflow/render/consumer/rust/render_consumer.rs: client_api_task (AcceptIncome: send failure)", "cli/src/workflow/render/consumer/rust/render_controller.rs: request timeout"]}
{"id": "C42", "title": "A broadcast during the handshake is not taken for a handshake response (Rust client)", "statement": "Broadcasts that arrive while the client is still identifying itself do not make the handshake fail.", "quantifier": "every order of broadcasts and handshake responses", "why_tests_cant": "race with other clients' activity on the server", "anchors": ["cli/src/workflow/render/consumer/rust/render_consumer.rs: auth (sequence 0), client_messages_task"]}
{"id": "C43", "title": "The Rust client connects only after a successful handshake", "statement": "The connected event is raised and the client gets an id only if both the self-key response and the hash response without error were received, in this order, and the id is the one assigned by the server.", "quantifier": "every sequence of incoming messages during the handshake", "why_tests_cant": "all message sequences", "anchors": ["cli/src/workflow/render/consumer/rust/render_consumer.rs: auth, client_messages_task"]}
{"id": "C44", "title": "The TypeScript client resolves each request at most once with the matching response", "statement": "An incoming message with sequence s resolves the pending request s if there is one, and is otherwise dispatched as broadcast; no request is resolved twice.", "quantifier": "every interleaving", "why_tests_cant": "all interleavings", "anchors": ["cli/src/workflow/render/consumer/typescript/render_consumer.rs: request, _onData, getSequence"]}
{"id": "C45", "title": "Good messages are not held back by a bad one (TypeScript client)", "statement": "When a chunk contains an undecodable message and good messages, the good ones are handed to the application when the chunk is processed.", "quantifier": "every mix of good and bad messages in a chunk", "why_tests_cant": "all mixes", "anchors": ["cli/src/workflow/render/consumer/typescript/render_consumer.rs: _onData (errors -> return)"]}
{"id": "C46", "title": "No destination file is overwritten without the overwrite flag", "statement": "The command line tool does not touch an existing protocol destination file unless the overwrite flag is given.", "quantifier": "every argument list, every set of existing files", "why_tests_cant": "all argument orders and combinations", "anchors": ["cli/src/arguments/args_option_files.rs: set_dest_rs, set_dest_ts, action", "cli/src/arguments/args_option_overwrite.rs"]}
{"id": "C47", "title": "Unknown arguments are rejected", "statement": "An argument list in which some argument is neither a known key nor the value of one is reported as error and no action runs.", "quantifier": "every argument list", "why_tests_cant": "all lists", "anchors": ["cli/src/ctrlargs.rs: get_unknown_args, has_errors, actions"]}
{"id": "C48", "title": "A failing run is visible in the exit status", "statement": "If generation fails, the process exits with a non-zero status.", "quantifier": "every kind of failure", "why_tests_cant": "all failure kinds of all actions", "anchors": ["cli/src/main.rs: main", "cli/src/arguments/args_option_files.rs: action"]}
{"id": "C49", "title": "Different declarations go to different generated files", "statement": "Two different requests (events, beacons) of an accepted workflow are generated into two different files.", "quantifier": "every pair of references accepted by the parser", "why_tests_cant": "all pairs of names", "anchors": ["cli/src/workflow/render/producer/rust/render_request_handler.rs: get_dest_file", "cli/src/workflow/render/producer/rust/render_mod.rs: get_requests ([[module]])"]}
{"id": "C50", "title": "Receiver filters select exactly the intended clients", "statement": "all() is the set of connected clients, except(u) is all clients but u, exclude(us) is all clients not in us, filter(p) is the clients satisfying p; none of them ever returns a client that is not connected at the time the filter is taken.", "quantifier": "every set of clients, every argument", "why_tests_cant": "all client sets", "anchors": ["cli/src/workflow/render/producer/rust/render_identification.rs: Filter", "cli/src/workflow/render/producer/typescript/static/implementation/consumer/filter.ts"]}
{"id": "C51", "title": "Beacon confirmation", "statement": "For each beacon the server runs the user's code first and then sends exactly one confirmation with the sequence of the beacon; if the user's code fails no confirmation is sent.", "quantifier": "every beacon, every outcome", "why_tests_cant": "all outcomes and failure points", "anchors": ["cli/src/workflow/render/producer/rust/render_beacon_emitter.rs", "cli/src/workflow/render/producer/rust/render_mod.rs: BEACON"]}
{"id": "C52", "title": "Generated Rust reader delivers a message only if it decodes", "statement": "A message handed to the application by the Rust reader is always the decoding of a body that was received in full in one frame whose signature is the protocol's and whose id is the one of the message's declaration.", "quantifier": "every byte stream, every chunking, including hostile ones", "why_tests_cant": "soundness over all byte streams", "anchors": ["cli/src/protocol/render/rust/static/protocol.buffer.rs: chunk, get_message"]}
{"id": "C53", "title": "A vector is decoded only from exactly its items (Rust)", "statement": "A repeated field is accepted only if its body is a sequence of complete items with nothing left over, and each decoded item comes from exactly its own bytes.", "quantifier": "every byte string, every item type", "why_tests_cant": "all malformed vector bodies", "anchors": ["cli/src/protocol/render/rust/static/protocol.decode.rs: decode of Vec<number>, Vec<String>, Vec<struct>, Vec<enum>"]}
{"id": "C54", "title": "End to end transport between Rust peers", "statement": "Messages packed by a generated Rust sender and fed to the generated Rust reader of the same protocol, cut into any chunks, arrive as exactly the same typed values in order and with their sequence numbers, for all values that survive encoding on their own (the values of C01 and C03 without their known losses: no present but empty optional, no enum with an empty payload).", "quantifier": "every protocol with distinct ids, every list of messages, every chunking", "why_tests_cant": "combines schema, value and chunking spaces", "anchors": ["cli/src/protocol/render/rust/static/protocol.packing.rs: pack", "cli/src/protocol/render/rust/static/protocol.buffer.rs: chunk", "cli/src/protocol/render/rust/mod.rs: buffer"]}
{"id": "C55", "title": "Generated TypeScript reader delivers a message only if it decodes", "statement": "Whatever bytes are fed to the TypeScript reader in whatever chunks, the messages it hands out are exactly the decodings, in order and without repetition, of the complete frames of this protocol at the front of the stream that decode; no message is invented, duplicated or reordered.", "quantifier": "every byte stream, every chunking, including hostile ones, every interleaving of feeding and fetching", "why_tests_cant": "soundness over all byte streams", "anchors": ["cli/src/protocol/render/typescript/static/packing.ts: chunk, next"]}
{"id": "C56", "title": "Round trip between TypeScript peers", "statement": "A message encoded by generated TypeScript code and decoded by generated TypeScript code of the same protocol has the same field values.", "quantifier": "every declaration, every value", "why_tests_cant": "all schemas and all values", "anchors": ["cli/src/protocol/render/typescript/static/protocol.convertor.ts: collect, getStorage", "cli/src/protocol/render/typescript/mod.rs: get_field_encode, get_field_decode"]}
{"id": "C57", "title": "Decoding in TypeScript never throws", "statement": "Decoding any byte string with generated TypeScript code returns a value or an Error and never throws.", "quantifier": "every byte string, every declaration", "why_tests_cant": "all hostile bodies", "anchors": ["cli/src/protocol/render/typescript/static/protocol.primitives.array.string.utf8.ts: decode", "cli/src/protocol/render/typescript/static/protocol.convertor.ts: decodeSelfArray", "cli/src/protocol/render/typescript/static/protocol.primitives.enum.ts: decode"]}
{"id": "C58", "title": "An array is decoded only from exactly its items (TypeScript)", "statement": "A repeated field is accepted by TypeScript only if its body is a sequence of complete items with nothing left over.", "quantifier": "every byte string, every item type", "why_tests_cant": "all malformed array bodies", "anchors": ["cli/src/protocol/render/typescript/static/protocol.primitives.array.*.ts: decode", "cli/src/protocol/render/typescript/static/protocol.convertor.ts: decodeSelfArray"]}
{"id": "C59", "title": "A TypeScript message is sent with the values it shows", "statement": "The bytes produced by encode() of a TypeScript message object are those of the values its public fields hold at the time of the call, whatever assignments were made since construction.", "quantifier": "every declaration, every sequence of assignments", "why_tests_cant": "all assignment histories", "anchors": ["cli/src/protocol/render/typescript/mod.rs: struct_constructor, get_field_encode, enum_setter"]}
{"id": "C60", "title": "End to end transport between Rust and TypeScript peers", "statement": "Messages of a protocol supported by both generators, packed by any mix of Rust and TypeScript senders and fed in any chunks to a Rust reader or to a TypeScript reader of the same protocol, arrive as exactly the same typed values in order with their sequence numbers and without errors, for the values that both languages transport exactly (the exceptions of C02, C03, C18 and C19 left out).", "quantifier": "every protocol with distinct ids, every list of messages, every mix of senders, every chunking", "why_tests_cant": "combines schema, value, language and chunking spaces", "anchors": ["cli/src/protocol/render/typescript/static/packing.ts: chunk", "cli/src/protocol/render/typescript/static/protocol.convertor.ts: pack", "cli/src/protocol/render/typescript/static/protocol.primitives.enum.ts: pack", "cli/src/protocol/render/typescript/mod.rs: buffer"]}
{"id": "C61", "title": "An unfinished declaration is refused", "statement": "If the end of a protocol file is reached inside a struct, enum, group or field, the tool reports an error; every declaration of an accepted file is in the result.", "quantifier": "every text", "why_tests_cant": "all places at which a file can be cut", "anchors": ["cli/src/protocol/parser.rs: parse", "cli/src/protocol/store.rs: close"]}
{"id": "C62", "title": "A full path always refers to the type it names", "statement": "Inside any group a reference written as the full path from the root of the file to a type declared earlier is resolved to that type.", "quantifier": "every nesting of groups, every reference", "why_tests_cant": "all nestings and positions", "anchors": ["cli/src/protocol/store.rs: find_by_str_path, set_field_type, set_enum_item_type"]}
{"id": "C63", "title": "The parser accepts exactly the well formed protocols and records what they say", "statement": "For every sequence of struct, enum and group declarations, written down with any white space between the symbols, the tool either accepts, and then the structs, enums and groups in its result are exactly the declared ones in order with their paths, names, field types, repeated and optional flags, or it stops; it accepts exactly if field names are distinct in each struct and all types are primitive or declared before at a place visible from the reference.", "quantifier": "every tree of declarations, every way to write it down", "why_tests_cant": "all declaration trees, all layouts", "anchors": ["cli/src/protocol/parser.rs: parse, next", "cli/src/protocol/store.rs: open, close, set_field_type, set_field_name, set_enum_item_type"]}
{"id": "C64", "title": "Recorded paths are the chains of enclosing groups", "statement": "The path recorded for each struct and enum (used for names in generated code) is the list of names of the groups around its declaration, from the outermost inwards, and the recorded parent is the innermost of these groups.", "quantifier": "every accepted text", "why_tests_cant": "all nestings", "anchors": ["cli/src/protocol/store.rs: get_path_by_parent, open_struct, open_enum"]}
{"id": "C65", "title": "Every type of an accepted protocol is primitive or defined before", "statement": "Each field and each enum variant of an accepted protocol has a primitive type or refers to a struct or enum of the same protocol with a smaller id, found along the groups written in the reference; so types never contain themselves.", "quantifier": "every accepted text", "why_tests_cant": "all protocols, including hostile ones", "anchors": ["cli/src/protocol/store.rs: set_field_type, set_enum_item_type, find_by_str_path"]}
{"id": "C66", "title": "From protocol text to exact transport", "statement": "Every accepted protocol (within the size of ids and the types supported by the generator) is turned by the Rust generator into codecs of finite depth with distinct message ids and distinct field ids, so that messages of the protocol written by generated code are read back unchanged.", "quantifier": "every accepted text, every message, every chunking", "why_tests_cant": "connects parser and generated code for all protocols", "anchors": ["cli/src/protocol/render/rust/mod.rs: structs, enums, get_declare_type_ref, buffer", "cli/src/protocol/store.rs: get_struct, get_enum"]}
{"id": "C67", "title": "Names are unique where they are used as identifiers", "statement": "In an accepted protocol no two types of one group, no two fields of one struct and no two variants of one enum have the same name, as they become identifiers of one scope in generated code.", "quantifier": "every accepted text", "why_tests_cant": "all protocols", "anchors": ["cli/src/protocol/store.rs: open_struct, open_enum, open_group, set_enum_item_name, set_field_name"]}
{"id": "C68", "title": "Generated Rust code names the type that the tool resolved", "statement": "Wherever a field of an accepted protocol refers to a struct or enum, the path printed in the generated Rust module tree names exactly the type that the tool resolved the reference to.", "quantifier": "every accepted text, every reference", "why_tests_cant": "all nestings of groups and all reuses of names", "anchors": ["cli/src/protocol/render/rust/mod.rs: groups, get_type_ref", "cli/src/protocol/fields.rs: accept_type, get_full_name"]}
{"id": "C69", "title": "Comments do not change what a workflow means", "statement": "Removing a comment (from # to the end of the line) from a workflow file does not change the result of parsing it.", "quantifier": "every text, every comment, every place in the text", "why_tests_cant": "all characters in comments, including those outside ASCII; offsets are counted in characters but used as bytes", "anchors": ["cli/src/workflow/parser.rs: parse (slicing), next (offsets)"]}
{"id": "C70", "title": "The workflow parser accepts exactly the language and stores what was written", "statement": "A file that writes declarations in the forms of the language is accepted exactly if all references are known where they are used, conclusions are given where there is a choice, and nothing is declared twice; the store then says exactly what the declarations say.", "quantifier": "every list of declarations, every layout (white space, comments), every accepted protocol", "why_tests_cant": "all files of a language", "anchors": ["cli/src/workflow/parser.rs: parse, next", "cli/src/workflow/request.rs: next, close", "cli/src/workflow/event.rs: next, close", "cli/src/workflow/beacon.rs: next, close", "cli/src/workflow/config.rs: next, close", "cli/src/workflow/store.rs"]}
{"id": "C71", "title": "All references of an accepted workflow exist in the protocol", "statement": "In an accepted workflow every reference (requests, errors, responses, broadcasts, beacons, keys) leads to a type of the resulting protocol, every request with answers declares an error, and a config has producer, consumer, keys and all service structs.", "quantifier": "every text, every accepted protocol", "why_tests_cant": "invariant over every text, including malformed ones", "anchors": ["cli/src/workflow/request.rs: close", "cli/src/workflow/event.rs: close", "cli/src/workflow/beacon.rs: close", "cli/src/workflow/config.rs: close", "cli/src/protocol/store.rs: find_by_str_path, add_service_struct"]}
{"id": "C72", "title": "Nothing written in an accepted workflow file is dropped", "statement": "If a workflow file is accepted then every declaration and every entry in it is in the store.", "quantifier": "every accepted text", "why_tests_cant": "all texts, including those that end inside a declaration", "anchors": ["cli/src/workflow/parser.rs: parse (ENext::End)", "cli/src/workflow/config.rs: next (ENext::Close)"]}
{"id": "C73", "title": "Every struct of the protocol can be used as a request, in every documented form", "statement": "A reference to any struct of the protocol can be declared as a request, with or without answers, and the forms shown in the parser's own messages are accepted.", "quantifier": "every protocol, every struct", "why_tests_cant": "all names and forms", "anchors": ["cli/src/workflow/request.rs: new, open, next"]}
{"id": "C74", "title": "Conclusions of an accepted workflow are names", "statement": "Every conclusion in an accepted workflow is an identifier, so it can become an enum variant or a method name in generated code.", "quantifier": "every accepted text", "why_tests_cant": "all texts", "anchors": ["cli/src/workflow/request.rs: next (Word, Arrow)", "cli/src/workflow/parser.rs: next (limited_chars)"]}
{"id": "C75", "title": "A client that does the handshake step by step is served (Rust server)", "statement": "A client that waits for its confirmation and then sends self key, hash request with the right hashes and a declared request, each as its own piece of data, gets both handshake answers and its request reaches the handler, whatever other clients do in between.", "quantifier": "every interleaving with any number of other clients, every user code, every protocol and workflow", "why_tests_cant": "liveness over all interleavings", "anchors": ["cli/src/workflow/render/producer/rust/render_mod.rs: process_received_data", "cli/src/workflow/render/producer/rust/render_mod.rs: listener"]}
{"id": "C76", "title": "Packing of messages into pieces of data does not matter (Rust server)", "statement": "Whether a client's messages arrive in one piece or one by one, the same requests reach their handlers.", "quantifier": "every split of every sequence of messages, at every stage of the handshake", "why_tests_cant": "all splits; the transport decides how bytes are packed", "anchors": ["cli/src/workflow/render/producer/rust/render_mod.rs: process_received_data (assigned and has_key are read before the loop)"]}
{"id": "C77", "title": "Good messages are processed although a later one in the same piece is bad (Rust server)", "statement": "Messages that precede an unreadable one in the same piece of data are processed when the piece arrives, as they would be if they had come alone.", "quantifier": "every sequence of good messages followed by a bad one", "why_tests_cant": "all mixtures of good and bad messages", "anchors": ["cli/src/workflow/render/producer/rust/render_mod.rs: process_received_data", "cli/src/workflow/render/producer/rust/render_consumer.rs: chunk, get_messages"]}
{"id": "C78", "title": "Every self key request is answered (Rust server)", "statement": "Every self key message of a confirmed client that was not kicked is answered with the sequence of the message.", "quantifier": "every state of the client", "why_tests_cant": "all states, including those after the handshake", "anchors": ["cli/src/workflow/render/producer/rust/render_mod.rs: process_received_data (guard of the self key arm)"]}
{"id": "C79", "title": "Data of one client affects no other client (Rust server)", "statement": "Processing data of a client adds and removes no client, changes the record of no other client, runs handlers only for this client and drops only this client.", "quantifier": "every state of the server, every bytes, every user code", "why_tests_cant": "all states and inputs", "anchors": ["cli/src/workflow/render/producer/rust/render_mod.rs: process_received_data", "cli/src/workflow/render/producer/rust/render_mod.rs: disconnect"]}
{"id": "C80", "title": "Error strategies do what they say (Rust server)", "statement": "When a client makes an error the server does exactly what the configured strategy says: nothing, an error event, dropping the client, or dropping it and then an error event.", "quantifier": "every state, every strategy", "why_tests_cant": "all states", "anchors": ["cli/src/workflow/render/producer/rust/render_mod.rs: responsing_err", "cli/src/workflow/render/producer/rust/render_mod.rs: disconnect"]}
{"id": "C81", "title": "A message reaches only the handler of its own type (TypeScript server)", "statement": "A handler of a request or beacon is started only for a message of exactly the declared type, right after this message was looked at, and gets this message and its sequence.", "quantifier": "every protocol and workflow, every run", "why_tests_cant": "all protocols; the lookup works with names of properties at run time", "anchors": ["cli/src/workflow/render/producer/typescript/render_mod.rs: _tryToGet, _extract", "cli/src/protocol/render/typescript/mod.rs: get_available_entity"]}
{"id": "C82", "title": "Answers, broadcasts and deferred code come in order, once (TypeScript server)", "statement": "A handler answers at most once, to the client and with the sequence of its message, with a declared message. Its broadcasts have sequence 0 and are sent after the answer or belong to an event. Deferred code runs at most once and after the answer.", "quantifier": "every order in which promises settle, every user code", "why_tests_cant": "all interleavings of promises", "anchors": ["cli/src/workflow/render/producer/typescript/render_request_handler.rs: response", "cli/src/workflow/render/producer/typescript/render_event_emitter.rs"]}
{"id": "C83", "title": "Responses go out with their required broadcasts (TypeScript server)", "statement": "A response is sent only if user code gave all broadcasts the workflow requires for it, and only with broadcasts allowed for it, none twice; after the response all of them are delivered, to all receivers; otherwise nothing is sent.", "quantifier": "every request and event of every workflow, every sequence of calls by user code", "why_tests_cant": "all workflows and all user code", "anchors": ["cli/src/workflow/render/producer/typescript/render_request_handler.rs: Response, broadcast, error", "cli/src/workflow/render/producer/typescript/render_request_handlers_mod.rs: broadcastAll"]}
{"id": "C84", "title": "Every declared conclusion can be given (TypeScript server)", "statement": "For every conclusion of every accepted workflow, user code that gives its response and its required broadcasts gets the response and the broadcasts sent.", "quantifier": "every accepted workflow, every conclusion, every choice of broadcasts", "why_tests_cant": "all workflows", "anchors": ["cli/src/workflow/render/producer/typescript/render_request_handler.rs: REQUIRED lists, getBroadcastRefs"]}
{"id": "C85", "title": "One client cannot disturb the others (TypeScript server)", "statement": "Whatever bytes a client sends, the server keeps working, no other client appears, disappears or changes, running handlers stay, and only code for this client is started.", "quantifier": "every state of the server, every bytes, every user code", "why_tests_cant": "all states and inputs; a server that hangs gives no result", "anchors": ["cli/src/workflow/render/producer/typescript/render_mod.rs: _onClientReceived", "cli/src/protocol/render/typescript/static/packing.ts: BufferReader.chunk"]}
{"id": "C86", "title": "All messages of a piece of data are looked at (TypeScript server)", "statement": "All messages that are complete when a piece of data arrived are looked at before the next piece, in order.", "quantifier": "every sequence of messages, every split", "why_tests_cant": "all mixtures of messages", "anchors": ["cli/src/workflow/render/producer/typescript/render_mod.rs: _onClientReceived (break after an unknown message)"]}
{"id": "C87", "title": "Receiver filters select exactly the intended clients (TypeScript server)", "statement": "all() is the connected clients, except(u) all but u, exclude(us) all not in us, filter(p) those satisfying p; no client occurs twice.", "quantifier": "every run, every argument", "why_tests_cant": "all client sets", "anchors": ["cli/src/workflow/render/producer/typescript/static/implementation/consumer/filter.ts"]}
{"id": "C88", "title": "A client that does the handshake step by step is served (TypeScript server)", "statement": "A client that connects and sends self key, hash request with the right hashes and a declared request, each as its own piece of data, gets both answers and its request reaches the handler, whatever other clients and user code do in between.", "quantifier": "every interleaving with any number of other clients, every user code, every protocol and workflow", "why_tests_cant": "liveness over all interleavings", "anchors": ["cli/src/workflow/render/producer/typescript/render_mod.rs: _onClientReceived", "cli/src/workflow/render/producer/typescript/render_mod.rs: _onClientConnected"]}
{"id": "C89", "title": "Hashes are checked (TypeScript server)", "statement": "A client counts as accepted only if it sent both hashes of the server on its present connection; a hash request is answered without error exactly if both hashes are right, otherwise the client is dropped after the answer.", "quantifier": "every run, every message", "why_tests_cant": "negative statement over all runs", "anchors": ["cli/src/workflow/render/producer/typescript/render_mod.rs: _onClientReceived (HashRequest)"]}
{"id": "C90", "title": "Merging of identification keys (TypeScript server)", "statement": "The first key and a key given with overwrite replace the old one; otherwise exactly the declared fields that the new key has are replaced. Nothing else changes.", "quantifier": "every key type, every old and new key", "why_tests_cant": "all key types", "anchors": ["cli/src/workflow/render/producer/typescript/render_identification.rs: key, assign"]}
{"id": "C91", "title": "Error strategies do what they say (TypeScript server)", "statement": "For every kind of error of a client the server does exactly what the configured strategy says; for data of an unknown client nobody is dropped.", "quantifier": "every state, every strategy, every cause", "why_tests_cant": "all states", "anchors": ["cli/src/workflow/render/producer/typescript/render_mod.rs: _receivingErr", "cli/src/workflow/render/producer/typescript/render_mod.rs: _checkErrAndResponse"]}
{"id": "C92", "title": "Every self key request is answered (TypeScript server)", "statement": "Every self key message of a connected client is answered with the sequence of the message and becomes its key.", "quantifier": "every state of the client", "why_tests_cant": "all states, including those after the handshake", "anchors": ["cli/src/workflow/render/producer/typescript/render_mod.rs: _onClientReceived (condition of the self key branch)"]}
{"id": "C93", "title": "Unreadable data is treated by the error strategy (TypeScript server)", "statement": "If a frame of a client cannot be decoded, the server does what the error strategy says.", "quantifier": "every frame that is not good", "why_tests_cant": "all frames", "anchors": ["cli/src/workflow/render/producer/typescript/render_mod.rs: _onClientReceived", "cli/src/protocol/render/typescript/static/packing.ts: BufferReader.chunk", "cli/src/protocol/render/typescript/mod.rs: getMessage"]}
{"id": "C94", "title": "Handlers run to their end (TypeScript server)", "statement": "A message of a client that did the handshake starts its handler with client, message and sequence; a beacon is confirmed when user code is done; when answer and broadcasts are out the deferred code runs and the handler ends.", "quantifier": "every reachable state, every protocol and workflow, every user code", "why_tests_cant": "all states, all orders of promises", "anchors": ["cli/src/workflow/render/producer/typescript/render_request_handler.rs: handler", "cli/src/workflow/render/producer/typescript/render_beacon_emitter.rs", "cli/src/workflow/render/producer/typescript/render_mod.rs: _onClientReceived"]}
{"id": "C95", "title": "Events are handled once, with the right record (TypeScript server)", "statement": "A connecting client has a fresh record and then connected is called once; for a disconnecting client the record is removed and then disconnected is called once; a declared event calls its handler once, which then waits with the declared broadcasts.", "quantifier": "every reachable state, every workflow, every user code", "why_tests_cant": "all states", "anchors": ["cli/src/workflow/render/producer/typescript/render_mod.rs: _onClientConnected, _onClientDisconnected", "cli/src/workflow/render/producer/typescript/render_event_emitter.rs", "cli/src/workflow/render/producer/typescript/render_static.rs"]}
{"id": "C96", "title": "The client reports the conclusion the server chose (Rust client)", "statement": "If the server concludes a request with some action and the response arrives in time, the call of the client returns the variant of that action with that response.", "quantifier": "every workflow the parser accepts, every order of steps", "why_tests_cant": "all workflows, all interleavings", "anchors": ["cli/src/workflow/render/consumer/rust/render_controller.rs: request", "cli/src/workflow/render/consumer/rust/render_consumer.rs"]}
{"id": "C97", "title": "A lost connection is opened again when configured (Rust client)", "statement": "With the reconnection strategy Reconnect and a handler that agrees, the client connects again after the connection ended for any reason other than a requested shutdown; it never reconnects otherwise.", "quantifier": "every run", "why_tests_cant": "needs failures of the transport at every point", "anchors": ["cli/src/workflow/render/consumer/rust/render_consumer.rs: connect, listen", "cli/src/workflow/render/consumer/rust/render_options.rs"]}
{"id": "C98", "title": "Incoming messages are handled in order and once (Rust client)", "statement": "The messages the client looks at are exactly the decodable messages of the byte stream, in order, each once.", "quantifier": "every byte stream, every chunking, every order of steps", "why_tests_cant": "all streams", "anchors": ["cli/src/workflow/render/consumer/rust/render_consumer.rs: client_messages_task"]}
{"id": "C99", "title": "Good messages are not held back by a bad frame (Rust client)", "statement": "When the client waits for data every good message that arrived completely has been handled.", "quantifier": "every byte stream, every chunking", "why_tests_cant": "all streams", "anchors": ["cli/src/workflow/render/consumer/rust/render_consumer.rs: client_messages_task"]}
{"id": "C100", "title": "No call waits for ever (Rust client)", "statement": "Once the client has ended, every call of user code that was not dropped returns.", "quantifier": "every run, every point at which the client ends", "why_tests_cant": "all interleavings of calls and failures", "anchors": ["cli/src/workflow/render/consumer/rust/render_consumer.rs: client_api_task, client_messages_task", "cli/src/workflow/render/consumer/rust/static/implementation/consumer/api.rs"]}
{"id": "C101", "title": "The parts of a client end together (Rust client)", "statement": "If one of the task that sends, the task that reads and the connection ends, for whatever reason, the others end too and listen returns.", "quantifier": "every run, every point at which a part ends", "why_tests_cant": "all interleavings and failures", "anchors": ["cli/src/workflow/render/consumer/rust/render_consumer.rs: listen, client_api_task, client_messages_task"]}
{"id": "C102", "title": "Incoming messages are looked at in order and once (TypeScript client)", "statement": "The messages the client looks at are the decodable messages of the byte stream, in order, each once; those not yet looked at are kept in order.", "quantifier": "every byte stream, every chunking, every order of events and jobs", "why_tests_cant": "all streams", "anchors": ["cli/src/workflow/render/consumer/typescript/render_consumer.rs: _onData"]}
{"id": "C103", "title": "ready is raised only after a handshake (TypeScript client)", "statement": "The event ready is raised with an id only after this connection was opened, a self key was sent, the server answered with this id, the hashes were sent and the server accepted them; at most once per connection. connected, disconnected and error are raised once per cause. If the server answers as expected, the handshake goes on to ready.", "quantifier": "every run", "why_tests_cant": "all interleavings of handshake, calls and failures", "anchors": ["cli/src/workflow/render/consumer/typescript/render_consumer.rs: _onConnected, handshake, assign"]}
{"id": "C104", "title": "Every message of a TypeScript client has its own number", "statement": "The numbers of what the client sends lie in 1..4294967295 and increase strictly; a message with the number 0, which servers use for broadcasts, is never taken as an answer.", "quantifier": "every run", "why_tests_cant": "all interleavings; 2^32 calls", "anchors": ["cli/src/workflow/render/consumer/typescript/render_consumer.rs: getSequence, request"]}
{"id": "C105", "title": "The client reports the conclusion the server chose (TypeScript client)", "statement": "If the server concludes a request with some action and the response arrives, the handler of that action is called and send resolves with that response.", "quantifier": "every workflow the parser accepts, every order of events", "why_tests_cant": "all workflows, all interleavings", "anchors": ["cli/src/workflow/render/consumer/typescript/render_request.rs: send"]}
{"id": "C106", "title": "Every conclusion has a handler of its own (TypeScript client)", "statement": "A handler of a request object is called for one conclusion, or for the error, only.", "quantifier": "every workflow the parser accepts", "why_tests_cant": "all names of conclusions", "anchors": ["cli/src/workflow/render/consumer/typescript/render_request.rs: on, send"]}
{"id": "C107", "title": "A request object can be sent again when its calls have ended (TypeScript client)", "statement": "After all calls of an object have ended, for whatever reason, send of the object sends its message again.", "quantifier": "every run, every failure", "why_tests_cant": "all orders of calls and failures", "anchors": ["cli/src/workflow/render/consumer/typescript/render_request.rs: send", "cli/src/workflow/render/consumer/typescript/render_beacon.rs: send"]}
{"id": "C108", "title": "No call waits for ever (TypeScript client)", "statement": "When the connection is lost, every call whose answer has not come ends.", "quantifier": "every run, every point at which the connection is lost", "why_tests_cant": "all interleavings of calls and failures", "anchors": ["cli/src/workflow/render/consumer/typescript/render_consumer.rs: _onDisconnected, request"]}
{"id": "C109", "title": "A new connection starts clean (TypeScript client)", "statement": "The data of a connection are read without regard to data of earlier connections.", "quantifier": "every way earlier connections ended", "why_tests_cant": "every point inside a frame at which a connection can be lost", "anchors": ["cli/src/workflow/render/consumer/typescript/render_consumer.rs: _onDisconnected, _onData"]}
{"id": "C110", "title": "The id of the client is that of the present connection (TypeScript client)", "statement": "The id of the client was given to it in an answer to a self key since the last connection was lost; after a loss the client has no id.", "quantifier": "every run in which jobs run before the next loss of the connection", "why_tests_cant": "all interleavings", "anchors": ["cli/src/workflow/render/consumer/typescript/render_consumer.rs: assign, _onDisconnected, uuid"]}
{"id": "C111", "title": "A failed handshake is reported to user code (TypeScript client)", "statement": "If a handshake fails, an event tells user code, and ready is not raised for it.", "quantifier": "every reason for which a handshake fails", "why_tests_cant": "all failures", "anchors": ["cli/src/workflow/render/consumer/typescript/render_consumer.rs: _onConnected"]}
{"id": "C112", "title": "A destroyed request object does nothing (TypeScript client)", "statement": "After a request or beacon object was destroyed nothing is sent for it and none of its handlers is called, also if it was waiting for an answer.", "quantifier": "every run", "why_tests_cant": "all orders of destroy, answers and calls", "anchors": ["cli/src/workflow/render/consumer/typescript/render_request.rs: destroy, send", "cli/src/workflow/render/consumer/typescript/render_beacon.rs: destroy, send"]}
{"id": "C113", "title": "Files of the user are never overwritten", "statement": "A file in a folder the generated project leaves to the user (answers, events, beacons, broadcasts, context) stays as it is when the code is generated again.", "quantifier": "every workflow, every state of the folder, all four generators", "why_tests_cant": "all declarations and all existing files", "anchors": ["cli/src/workflow/render/producer/rust/render_request_response.rs: render", "cli/src/workflow/render/producer/rust/render_static.rs: write", "cli/src/workflow/render/consumer/rust/render_broadcast.rs: render", "cli/src/workflow/render/producer/rust/render_request_responses_mod.rs: render"]}
{"id": "C114", "title": "Generating again changes nothing", "statement": "A second run of the workflow generators with the same workflow and destinations succeeds or fails like the first and leaves all files and manifests as the first left them.", "quantifier": "every workflow, every state of the file system", "why_tests_cant": "all states of the file system", "anchors": ["cli/src/workflow/render/render.rs: render", "cli/src/workflow/render/producer/rust/render_cargo.rs: render", "cli/src/workflow/render/producer/typescript/render_package.rs: render"]}
{"id": "C115", "title": "Lists of modules are complete", "statement": "A generated mod.rs or index.ts next to the files of declarations lists a module for every declaration, no module without a file, and none that was not declared; every file added next to it is listed, and handlers are exported under the names of their declarations.", "quantifier": "every workflow, every state of the folder", "why_tests_cant": "all sets of declarations", "anchors": ["cli/src/workflow/render/producer/rust/render_request_handlers_mod.rs: render", "cli/src/workflow/render/producer/rust/render_event_emitters_mod.rs: render", "cli/src/workflow/render/producer/rust/render_event_impl_mod.rs: render", "cli/src/workflow/render/producer/typescript/render_event_emitters_mod.rs: render", "cli/src/workflow/render/consumer/rust/render_broadcast_mod.rs: render"]}
{"id": "C116", "title": "No name twice in a generated list", "statement": "The modules of a generated mod.rs, and the handlers a generated index.ts exports, have different names.", "quantifier": "every accepted workflow", "why_tests_cant": "all sets of names", "anchors": ["cli/src/workflow/render/producer/rust/render_request_handlers_mod.rs: render", "cli/src/workflow/render/producer/typescript/render_request_handlers_mod.rs: render"]}
{"id": "C117", "title": "Generated Rust modules have legal names", "statement": "What follows pub mod in a generated list is a name Rust accepts for a module.", "quantifier": "every accepted workflow", "why_tests_cant": "all names", "anchors": ["cli/src/workflow/render/producer/rust/render_event_impl_mod.rs: render", "cli/src/workflow/render/producer/rust/render_request_responses_mod.rs: render"]}
{"id": "C118", "title": "Generators do not overwrite each other's files", "statement": "After all generators of a run, the files below the folder of each are those it wrote; nothing outside the destinations changed.", "quantifier": "every configuration, every pair of destinations", "why_tests_cant": "all combinations of targets and folders", "anchors": ["cli/src/workflow/render/render.rs: render"]}
{"id": "C119", "title": "Dependencies are added to the nearest manifest and nothing else changes in it", "statement": "A generator that succeeds adds what its code needs to the nearest Cargo.toml or package.json; other entries and other manifests stay.", "quantifier": "every manifest, every folder", "why_tests_cant": "all contents of manifests", "anchors": ["cli/src/workflow/render/producer/rust/render_cargo.rs: render, get_target_file", "cli/src/workflow/render/producer/typescript/render_package.rs: render, get_target_file"]}
{"id": "C120", "title": "The manifest requires what each generator needs", "statement": "After all generators of a run succeeded, the manifest nearest to the code of each requires the dependencies this code needs, in the version it needs.", "quantifier": "every configuration, every state of the file system", "why_tests_cant": "all combinations of targets and folders", "anchors": ["cli/src/workflow/render/producer/rust/render_cargo.rs: render", "cli/src/workflow/render/consumer/rust/static/required.toml", "cli/src/workflow/render/producer/rust/static/required.toml"]}
{"id": "C121", "title": "A failed generation leaves no files", "statement": "If generating fails, no file and no manifest has been changed.", "quantifier": "every configuration, every state of the file system", "why_tests_cant": "all states of the file system", "anchors": ["cli/src/workflow/render/render.rs: render", "cli/src/workflow/render/producer/rust/render.rs: render"]}
{"id": "C122", "title": "Imports of generated code are found", "statement": "Every module of the generated project that a generated file refers to exists when the generator is done.", "quantifier": "every workflow, every state of the folder, all four generators", "why_tests_cant": "all declarations and existing files", "anchors": ["cli/src/workflow/render/producer/typescript/render_request_handlers_mod.rs: render", "cli/src/workflow/render/producer/typescript/render_event_impl.rs: render", "cli/src/workflow/render/producer/rust/render_static.rs: render", "cli/src/workflow/render/consumer/rust/render_broadcast_mod.rs: render"]}
{"id": "C123", "title": "Exported handlers have legal names", "statement": "The name under which a generated index.ts exports a handler is a name TypeScript accepts for a variable.", "quantifier": "every accepted workflow", "why_tests_cant": "all references", "anchors": ["cli/src/workflow/render/producer/typescript/render_request_handlers_mod.rs: render", "cli/src/workflow/render/producer/typescript/render_event_emitters_mod.rs: render"]}
{"id": "C124", "title": "Names of a protocol are legal in generated code", "statement": "The names of groups, structs, enums, fields and variants of an accepted protocol are names Rust accepts.", "quantifier": "every text", "why_tests_cant": "all texts", "anchors": ["cli/src/protocol/parser.rs: next", "cli/src/protocol/render/rust/mod.rs"]}
{"id": "C125", "title": "A rejected command line changes nothing", "statement": "If the arguments are rejected, no file and no folder is made, changed or removed.", "quantifier": "every argument list, every state of the disk", "why_tests_cant": "all argument lists and states of the disk", "anchors": ["cli/src/arguments/args_option_files.rs: set_dest_consumer, set_dest_producer", "cli/src/ctrlargs.rs: new"]}
{"id": "C126", "title": "Asking for help only prints the help", "statement": "With a key for help among the arguments, no file is changed and the run is a success.", "quantifier": "every argument list", "why_tests_cant": "all combinations with other arguments", "anchors": ["cli/src/ctrlargs.rs: has_errors, actions", "cli/src/arguments/args_option_help.rs"]}
{"id": "C127", "title": "A successful run has written everything asked for", "statement": "If the tool reports no error, every output given on the command line is there and holds the code of the protocol, the diagram or the code of the workflow.", "quantifier": "every argument list, every state of the disk, every text", "why_tests_cant": "all combinations of options, texts and states of the disk", "anchors": ["cli/src/arguments/args_option_files.rs: action", "cli/src/protocol/render/rust/mod.rs: render", "cli/src/helpers/fs.rs: write"]}
{"id": "C128", "title": "The order of arguments does not matter", "statement": "Two argument lists with the same flags and the same options with their values in a different order have the same effect.", "quantifier": "every argument list, all permutations", "why_tests_cant": "all permutations", "anchors": ["cli/src/arguments/args_option_files.rs: new, cleaner", "cli/src/ctrlargs.rs: new, get_unknown_args"]}
{"id": "C129", "title": "Only destinations are written to", "statement": "A file that a run makes, changes or removes is one of the outputs given or lies in a folder given for client or server; a manifest may also lie in a folder around it.", "quantifier": "every argument list, every state of the disk, every ending", "why_tests_cant": "all files not mentioned", "anchors": ["cli/src/arguments/args_option_files.rs: action", "cli/src/workflow/render/render.rs: render"]}
{"id": "C130", "title": "Sources are not overwritten", "statement": "The protocol and workflow files given are the same after a run.", "quantifier": "every argument list, every state of the disk", "why_tests_cant": "all coincidences of paths", "anchors": ["cli/src/arguments/args_option_files.rs: new, action"]}
{"id": "C131", "title": "A second run without the overwrite flag is rejected", "statement": "After a successful call with some output and without the flag to overwrite, the same call is rejected and changes no file.", "quantifier": "every argument list, every state of the disk", "why_tests_cant": "all argument lists", "anchors": ["cli/src/arguments/args_option_files.rs: set_dest_rs, set_dest_ts, set_dest_uml"]}
{"id": "C132", "title": "Every call of the tool ends", "statement": "For every argument list and every state of the disk, the tool ends, and in only one way.", "quantifier": "every argument list, every text", "why_tests_cant": "infinitely many texts; not ending cannot be observed", "anchors": ["cli/src/main.rs: main", "cli/src/workflow/parser.rs: next"]}
{"id": "C133", "title": "A call is rejected exactly for the reasons given", "statement": "Arguments are rejected for a stray argument, a repeated option and, without help, for a missing source, an existing output without the flag to overwrite and a folder that cannot be made; and for no other reason.", "quantifier": "every argument list in which no value is a key, every state of the disk", "why_tests_cant": "all argument lists and states of the disk", "anchors": ["cli/src/arguments/args_option_files.rs: new, set_src, set_workflow, set_dest_rs, set_dest_consumer", "cli/src/ctrlargs.rs: has_errors"]}
{"id": "C134", "title": "Paths lead where they lead from the current folder", "statement": "A path on the command line is taken relative to the current folder unless it begins with a slash; empty names and points in it do not count.", "quantifier": "every path, every current folder", "why_tests_cant": "all paths", "anchors": ["cli/src/arguments/args_option_files.rs: new"]}
{"id": "C135", "title": "A call with nothing wrong succeeds", "statement": "A call that is not rejected, whose sources are accepted, and for which reading, writing and rendering work, ends without error.", "quantifier": "every argument list, every state of the disk, every text", "why_tests_cant": "all combinations of options, texts and states of the disk", "anchors": ["cli/src/arguments/args_option_files.rs: action", "cli/src/protocol/render/rust/mod.rs: render", "cli/src/helpers/fs.rs: write"]}
{"id": "C136", "title": "Rust and TypeScript code are generated for the same protocol", "statement": "For every accepted protocol both generators succeed and the TypeScript classes, with every printed type name resolved by the scoping rules of TypeScript, have the same message ids, fields, options and types as the Rust code, which has the declared ones.", "quantifier": "every accepted protocol file, with and without service messages", "why_tests_cant": "all protocols with all nestings of groups and all ways to refer to types", "anchors": ["cli/src/protocol/render/typescript/mod.rs: render, structs, fields, enums, struct_path", "cli/src/protocol/render/rust/mod.rs"]}
{"id": "C137", "title": "A generated TypeScript protocol can be loaded", "statement": "Each class that is evaluated while the generated module is loaded (in a static scheme) is defined above the class that evaluates it.", "quantifier": "every accepted protocol file", "why_tests_cant": "all orders of declarations and nestings of groups", "anchors": ["cli/src/protocol/render/typescript/mod.rs: render, groups, structs"]}
{"id": "C138", "title": "The TypeScript dispatcher has one arm for every type", "statement": "Each declared type has exactly one arm, which makes an object of the class of that type and delivers it under the names of the groups around the type followed by its name; no two arms have the same id.", "quantifier": "every accepted protocol file", "why_tests_cant": "all protocols", "anchors": ["cli/src/protocol/render/typescript/mod.rs: buffer, enum and struct arms"]}
{"id": "C139", "title": "From the text of a protocol to transport between languages", "statement": "If field ids are below 256, the code generated for both languages transports every message of the protocol exactly, in any mix of senders and any chunks.", "quantifier": "every accepted protocol file, every list of messages, every division into chunks", "why_tests_cant": "all protocols, messages and chunks", "anchors": ["cli/src/protocol/render/typescript/mod.rs", "cli/src/protocol/render/rust/mod.rs", "cli/src/protocol/render/typescript/static/", "cli/src/protocol/render/rust/static/"]}
{"id": "C140", "title": "A TypeScript object of the declared type is accepted and sent as it is", "statement": "If a JavaScript object stands for a value of the declared type (whole numbers in range, bigints for 64-bit integers, arrays, instances in order for structs, one defined option for enums), from accepts it and encode of the result produces the bytes of that value, which peers decode to it.", "quantifier": "every schema, every object", "why_tests_cant": "all nestings of fields, options and arrays with all numbers", "anchors": ["cli/src/protocol/render/typescript/mod.rs: struct_from, struct_constructor, enum_setter, get_field_map_def, get_field_encode", "cli/src/protocol/render/typescript/static/protocol.validator.ts", "cli/src/protocol/render/typescript/static/protocol.primitives.*.ts"]}
{"id": "C141", "title": "What TypeScript code accepts for a message is what it sends", "statement": "If from accepts a JavaScript object, the object stands for a value of the declared type and that value is sent.", "quantifier": "every schema, every JavaScript value", "why_tests_cant": "JavaScript values of every shape: fractions, sparse arrays, extra keys, changed instances", "anchors": ["cli/src/protocol/render/typescript/static/protocol.validator.ts: validate", "cli/src/protocol/render/typescript/static/protocol.primitives.u8.ts: validate, encode", "cli/src/protocol/render/typescript/mod.rs: struct_validator, struct_from"]}
{"id": "C142", "title": "from answers with a message or with an error", "statement": "from of a generated TypeScript message checks the value and never throws.", "quantifier": "every schema, every JavaScript value that is not a buffer", "why_tests_cant": "JavaScript values of every shape", "anchors": ["cli/src/protocol/render/typescript/mod.rs: struct_from, enum from, enum_setter", "cli/src/protocol/render/typescript/static/protocol.primitives.enum.ts"]}
{"id": "C143", "title": "Undeclared properties of a TypeScript object make no difference", "statement": "Two objects that agree on all declared properties give the same message.", "quantifier": "every schema, every two objects", "why_tests_cant": "all sets of additional properties", "anchors": ["cli/src/protocol/render/typescript/mod.rs: struct_from, enum_setter", "cli/src/protocol/render/typescript/static/protocol.validator.ts"]}
{"id": "C144", "title": "What a request of a client returns was decided by the server for this request", "statement": "If a request of a generated Rust client ends with a conclusion or with the declared error, or a beacon is confirmed, then the client sent this very message, the server looked at it, ran the code of this request or beacon for this connection with what was passed, user code of the server decided on exactly this answer, and the server sent it with the number of the call.", "quantifier": "every workflow, all user code, every number of clients, every interleaving of tasks, connections and arriving bytes", "why_tests_cant": "all interleavings of two programs and all ways to cut byte streams into pieces", "anchors": ["cli/src/workflow/render/consumer/rust/render_consumer.rs", "cli/src/workflow/render/consumer/rust/static/implementation/consumer/api.rs", "cli/src/workflow/render/producer/rust/render_mod.rs", "cli/src/workflow/render/producer/rust/render_request_handler.rs", "cli/src/protocol/render/rust/mod.rs"]}
{"id": "C145", "title": "Messages reach the other side once, in order, unchanged", "statement": "The messages a server looks at for a connection are messages its client sent, in order, each one once and with its number; and the same for what a client looks at. If every message can be decoded, none is left out before the last one that was seen.", "quantifier": "every workflow, all user code, every number of clients, every interleaving", "why_tests_cant": "all interleavings and all ways to cut byte streams into pieces", "anchors": ["cli/src/workflow/render/consumer/rust/render_consumer.rs", "cli/src/workflow/render/producer/rust/render_mod.rs", "cli/src/protocol/render/rust/static"]}
{"id": "C146", "title": "A connected client has the protocol and workflow of the server and the id of its connection", "statement": "When a generated Rust client tells that it is connected, or sends a call with an id, the server answered its handshake, first with the id of this very connection and then by finding its hashes right; the id the client uses is the one of its connection.", "quantifier": "every workflow, all user code, every number of clients, every interleaving", "why_tests_cant": "all interleavings of two programs", "anchors": ["cli/src/workflow/render/consumer/rust/render_consumer.rs: auth", "cli/src/workflow/render/producer/rust/render_mod.rs"]}
{"id": "C147", "title": "The handshake of a client with the right protocol and workflow succeeds", "statement": "A handshake fails only if a message cannot be packed, the client has stopped, or client and server have different protocols or workflows.", "quantifier": "every workflow, all user code, every number of clients, every interleaving", "why_tests_cant": "events of other parts of the server at every moment of the handshake", "anchors": ["cli/src/workflow/render/consumer/rust/render_consumer.rs: auth, client_api_task", "cli/src/workflow/render/producer/rust/render_mod.rs: broadcasting"]}
{"id": "C148", "title": "Broadcasts a client hands to user code were sent to it by the server", "statement": "The broadcasts user code of a client gets are messages the server sent to this client, in order and each one once.", "quantifier": "every workflow, all user code, every number of clients, every interleaving", "why_tests_cant": "all interleavings of two programs", "anchors": ["cli/src/workflow/render/consumer/rust/render_consumer.rs: emitting broadcasts", "cli/src/workflow/render/producer/rust/render_mod.rs: broadcasting"]}
{"id": "C149", "title": "Values travel unchanged between generated Rust programs", "statement": "With the codec generated from a protocol, a value user code of a client passes to a request is the value user code of the server gets, and the value it answers with is the value the request returns; the hypotheses about codecs of C144-C148 hold.", "quantifier": "every protocol with the service structs, every workflow, all user code, every value for which C01 holds, every interleaving", "why_tests_cant": "all values, all interleavings of two programs, all ways to cut byte streams into pieces", "anchors": ["cli/src/workflow/render/consumer/rust/render_controller.rs: REQUEST, BEACON", "cli/src/workflow/render/consumer/rust/render_consumer.rs: auth", "cli/src/workflow/render/producer/rust/render_mod.rs", "cli/src/workflow/config.rs: close", "cli/src/protocol/render/rust/static/protocol.packing.rs"]}
{"id": "C150", "title": "Accepted texts lead to programs that understand each other", "statement": "For every accepted protocol and every workflow with a config that is accepted for it and supported by the Rust generator, code is generated, and its codec is good for clients and server: the service messages are there with their fields, their ids differ from each other and from the self key, and they round trip.", "quantifier": "all texts of protocols and workflows", "why_tests_cant": "all texts; the service structs are added by the program, and nothing tests what they do to ids and names", "anchors": ["cli/src/workflow/config.rs: close", "cli/src/protocol/store.rs: add_service_struct", "cli/src/protocol/render/rust/mod.rs", "cli/src/workflow/render/producer/rust/render_mod.rs", "cli/src/workflow/render/consumer/rust/render_consumer.rs"]}
{"id": "C151", "title": "A request returns what user code of the server decided", "statement": "For clients and server generated from accepted texts: a request that ends with a conclusion and a response does so because user code of the server, run for this message of this connection, decided on this conclusion and response; one that ends with the error, because it decided on this error.", "quantifier": "all texts, all user code, all values, every interleaving of clients and server", "why_tests_cant": "all workflows and all interleavings of two programs; needs the whole way from two texts to results of calls", "anchors": ["cli/src/workflow/request.rs: close", "cli/src/workflow/render/consumer/rust/render_controller.rs: REQUEST", "cli/src/workflow/render/producer/rust/render_request_response.rs", "cli/src/workflow/render/producer/rust/render_mod.rs"]}
{"id": "C152", "title": "A new client can always connect", "statement": "Whatever happened to clients and server before, as long as the server runs and the transport takes messages, a new client can connect with regular progress alone: bytes arrive, tasks go on. Client and server make their handshake, user code of the client is told so, and user code of the server can then assign the client.", "quantifier": "every history of any number of clients and the server; all workflows; all user code that does not panic on events", "why_tests_cant": "every history of two programs; a test shows one history, and a stuck client shows only after the right one", "anchors": ["cli/src/workflow/render/consumer/rust/render_consumer.rs: auth, client_messages_task", "cli/src/workflow/render/consumer/rust/render_consumer.rs: client_api_task", "cli/src/workflow/render/producer/rust/render_mod.rs: process_received_data, listener", "cli/src/workflow/render/producer/rust/render_identification.rs"]}
{"id": "C153", "title": "A call of a connected client returns", "statement": "A call of a client that is connected and has nothing else to do can always return with regular progress alone: a request with what user code of the server decided on for this message, a beacon with its confirmation. The client gets the broadcasts the call caused for itself, and both sides are then ready for the next call.", "quantifier": "every state in which the client is connected; all requests, beacons, messages and user code that decides", "why_tests_cant": "every state of two programs; that nothing is left over for the next call cannot be seen in one run", "anchors": ["cli/src/workflow/render/consumer/rust/render_controller.rs", "cli/src/workflow/render/consumer/rust/render_consumer.rs: client_api_task", "cli/src/workflow/render/producer/rust/render_mod.rs: process_received_data", "cli/src/workflow/render/producer/rust/render_request_handler.rs", "cli/src/workflow/render/producer/rust/render_beacon_emitter.rs"]}
{"id": "C154", "title": "Any number of calls return one after another", "statement": "Calls of a connected client, made one after another, all return, each with what user code of the server decided on for its message.", "quantifier": "every list of calls, every state in which the client is connected", "why_tests_cant": "lists of any length; numbers of messages, pending lists and readers have to be left clean by each call", "anchors": ["cli/src/workflow/render/consumer/rust/render_controller.rs", "cli/src/workflow/render/consumer/rust/render_consumer.rs: client_api_task", "cli/src/workflow/render/producer/rust/render_mod.rs: process_received_data"]}
{"id": "C155", "title": "Broadcasts reach user code of connected clients", "statement": "When an event of the workflow happens, user code of a connected client gets exactly the broadcasts that user code of the server gave for it, in the order of their declaration; when a request of another client causes broadcasts, a connected client gets exactly those, and the request returns.", "quantifier": "every state in which the clients are connected; all events, requests and user code", "why_tests_cant": "every state of three programs and all content", "anchors": ["cli/src/workflow/render/producer/rust/render_event_emitter.rs", "cli/src/workflow/render/producer/rust/render_request_handler.rs", "cli/src/workflow/render/producer/rust/render_mod.rs: broadcast", "cli/src/workflow/render/consumer/rust/render_consumer.rs: client_messages_task"]}
{"id": "C156", "title": "From two texts to answered calls", "statement": "For programs generated from an accepted protocol and an accepted workflow with a config (nothing declared in InternalServiceGroup), with the generated codec: whatever happened before, as long as the server runs, a new client can connect, be assigned and make any declared calls one after another (requests whose responses tell the conclusion, beacons that are no requests); every request returns the conclusion and response, or the error, that user code of the server decided on for this message, every beacon is confirmed.", "quantifier": "all texts, all user code that decides, all values for which the codec is exact, all histories before, all lists of calls", "why_tests_cant": "all workflows, all histories, all lists of calls: the whole way from two texts to results of calls", "anchors": ["cli/src/workflow/config.rs: close", "cli/src/workflow/request.rs: close", "cli/src/protocol/render/rust/mod.rs", "cli/src/workflow/render/consumer/rust/render_controller.rs", "cli/src/workflow/render/consumer/rust/render_consumer.rs", "cli/src/workflow/render/producer/rust/render_mod.rs"]}
{"id": "C157", "title": "Results of TypeScript clients come from the Rust server", "statement": "If a request of a TypeScript client is resolved, or a handler of it is called with an answer, then the client sent this very request, the Rust server ran the code of the request for this client with what user code of the client passed, and user code of the server decided on this answer. If a confirmation settles a beacon, it is resolved, and user code of the server took this very beacon.", "quantifier": "every run of any number of TypeScript clients and one Rust server: all times, orders, losses, pieces of bytes, all user code", "why_tests_cant": "two programs in two languages, arbitrary interleaving, arbitrary pieces of bytes, any number of clients", "anchors": ["cli/src/workflow/render/consumer/typescript/render_request.rs", "cli/src/workflow/render/consumer/typescript/render_beacon.rs", "cli/src/workflow/render/consumer/typescript/render_consumer.rs", "cli/src/workflow/render/producer/rust/render_mod.rs: process_received_data", "cli/src/workflow/render/producer/rust/render_request_handler.rs"]}
{"id": "C158", "title": "Messages between TypeScript clients and a Rust server arrive in order and unchanged", "statement": "The Rust server looks at messages of a TypeScript client unchanged, with the numbers the client gave them, in this order, each at most once; the client does so with messages of the server. If messages can be decoded, none is left out. A message is answered at most once. Broadcasts for user code of a client are messages the server sent to this client, in order, each once.", "quantifier": "every run of any number of TypeScript clients and one Rust server", "why_tests_cant": "interleavings and pieces of bytes are unbounded", "anchors": ["cli/src/workflow/render/consumer/typescript/render_consumer.rs: _onData, request", "cli/src/protocol/render/typescript/static/protocol.convertor.ts", "cli/src/protocol/render/rust/static/protocol.buffer.rs", "cli/src/workflow/render/producer/rust/render_mod.rs"]}
{"id": "C159", "title": "A TypeScript client is ready only after the Rust server has accepted it", "statement": "If a TypeScript client raises ready, protocol and workflow of the client are those of the Rust server, the id it is told is the one of its connection, and the server answered its self key first and its hashes after that.", "quantifier": "every run of any number of TypeScript clients and one Rust server", "why_tests_cant": "interleavings, repeated self keys by user code, other answers in between", "anchors": ["cli/src/workflow/render/consumer/typescript/render_consumer.rs: _onClientConnected, assign, _hash", "cli/src/workflow/render/producer/rust/render_mod.rs: process_received_data"]}
{"id": "C160", "title": "A TypeScript client of a Rust server gets ready", "statement": "Whatever happened before, a TypeScript client that connects to a running Rust server of the same protocol and workflow, and whose messages all arrive, is told that it is ready, with the id the server uses; user code of the server can then assign it.", "quantifier": "every run before, every user code that does not fail, every new client", "why_tests_cant": "a liveness statement after unbounded histories of two programs in two languages; the failing order needs a message to overtake an internal one", "anchors": ["cli/src/workflow/render/consumer/typescript/render_consumer.rs: _onClientConnected, assign, _hash", "cli/src/workflow/render/producer/rust/render_mod.rs: add_connection, process_received_data, confirm"]}
{"id": "C161", "title": "Calls of TypeScript clients of a Rust server return", "statement": "Whatever happened before, a request of a connected TypeScript client returns what user code of the Rust server decides on for this very message, and a beacon is confirmed, with nothing but bytes that arrive and jobs that run; client and server are then ready for the next call, and user code got the broadcasts the call caused. So for any number of calls, as long as the client has numbers of 32 bits.", "quantifier": "every run before, every list of calls, every user code that does not fail", "why_tests_cant": "liveness after unbounded histories, unbounded numbers of calls", "anchors": ["cli/src/workflow/render/consumer/typescript/render_request.rs: send", "cli/src/workflow/render/consumer/typescript/render_beacon.rs: send", "cli/src/workflow/render/consumer/typescript/render_consumer.rs: request, _onData", "cli/src/workflow/render/producer/rust/render_mod.rs: process_received_data"]}
{"id": "C162", "title": "TypeScript clients hear the broadcasts of a Rust server", "statement": "User code of a TypeScript client that is connected and makes no call gets exactly the broadcasts of its workflow that the Rust server sent to it meanwhile, in order and with their values, whatever happens elsewhere; in particular those given by user code of the server with an event or with a request of another client.", "quantifier": "every run elsewhere, every number of other clients, every user code", "why_tests_cant": "unbounded interleavings of other clients and of the server", "anchors": ["cli/src/workflow/render/consumer/typescript/render_consumer.rs: _onData", "cli/src/workflow/render/producer/rust/render_request_handler.rs", "cli/src/workflow/render/producer/rust/render_event_emitter.rs"]}
{"id": "C163", "title": "Results in TypeScript clients come from the TypeScript server", "statement": "In every run of TypeScript clients and a TypeScript server: if a request of a client is resolved, or a handler of it is called with a value, then the client sent this very request, the server ran the code of the request for this client with what user code passed, the promise of user code of the server was settled with this answer, and the server sent it. The promise of a beacon is never settled with an error from the server, and if it is resolved, user code of the server took this very beacon. So also if the server answers in another order.", "quantifier": "every run, every user code of both sides, every order of promises, every transport", "why_tests_cant": "answers come in any order from asynchronous code; unbounded numbers of clients and calls", "anchors": ["cli/src/workflow/render/consumer/typescript/render_request.rs: send", "cli/src/workflow/render/consumer/typescript/render_beacon.rs: send", "cli/src/workflow/render/producer/typescript/render_request_handler.rs: handler", "cli/src/workflow/render/producer/typescript/render_mod.rs: _onClientReceived"]}
{"id": "C164", "title": "Messages between TypeScript clients and a TypeScript server keep their order", "statement": "In every run: the TypeScript server looks at messages of a client in the order and with the numbers the client sent them, each at most once, and leaves none out if they can be decoded; so does the client with messages the transport of the server took. A number different from 0 is used for at most one answer. Broadcasts handed to user code of a client are messages the server sent to it, in order, each once.", "quantifier": "every run, every cut of the bytes, every user code", "why_tests_cant": "unbounded interleavings, every way to cut the bytes", "anchors": ["cli/src/workflow/render/producer/typescript/render_mod.rs: _onClientReceived, send, broadcast", "cli/src/workflow/render/consumer/typescript/render_consumer.rs: _onData, request"]}
{"id": "C165", "title": "The handshake of a TypeScript client with a TypeScript server", "statement": "In every run: if a TypeScript client is ready, then its protocol and workflow hashes are those of the TypeScript server, the id it is told is the one of its connection, and the server answered its self key and, after that, its hashes.", "quantifier": "every run, every user code of both sides", "why_tests_cant": "both programs, every order of events", "anchors": ["cli/src/workflow/render/consumer/typescript/render_consumer.rs: assign, _hash", "cli/src/workflow/render/producer/typescript/render_mod.rs: _onClientReceived"]}
{"id": "C166", "title": "A new TypeScript client of a TypeScript server can always get ready", "statement": "Whatever happened before, as long as the TypeScript server runs, a new TypeScript client can connect: with nothing but regular progress of its connection (it is made, the client is told, bytes arrive, jobs run) client and server make their handshake, and user code of the client is told so with the id the server uses.", "quantifier": "every reachable state of client and server programs, every user code that throws nothing and discredits nobody", "why_tests_cant": "reachable states are unbounded; both programs together", "anchors": ["cli/src/workflow/render/consumer/typescript/render_consumer.rs: assign, _hash", "cli/src/workflow/render/producer/typescript/render_mod.rs"]}
{"id": "C167", "title": "Calls of TypeScript clients to a TypeScript server return", "statement": "A call of a connected TypeScript client of a TypeScript server returns: the handler of the server is called with this very message, and whatever its user code decides on, within what the workflow allows, the client is told: the promise of a request is resolved with it, that of a beacon is confirmed. Both are then ready for the next call, so this holds for any number of calls; and user code of the client gets the broadcasts given with the answer for itself, in order.", "quantifier": "every reachable state, every message, every answer and broadcasts the workflow allows", "why_tests_cant": "unbounded number of calls, every state before", "anchors": ["cli/src/workflow/render/consumer/typescript/render_request.rs: send", "cli/src/workflow/render/producer/typescript/render_request_handler.rs", "cli/src/workflow/render/producer/typescript/render_beacon_emitter.rs"]}
{"id": "C168", "title": "Broadcasts of a TypeScript server reach TypeScript clients", "statement": "A connected TypeScript client that is quiet gets its broadcasts: whatever happens elsewhere, user code of the client gets those of its workflow, in order and with the values the server sent, as soon as the bytes arrive. In particular user code gets exactly the broadcasts that user code of the server gave for this client with a request of another client, or with an event.", "quantifier": "every run of other clients and the server, every answer and broadcasts the workflow allows", "why_tests_cant": "unbounded interleavings of other clients", "anchors": ["cli/src/workflow/render/producer/typescript/render_request_handlers_mod.rs: broadcastAll", "cli/src/workflow/render/producer/typescript/render_event_emitter.rs", "cli/src/workflow/render/consumer/typescript/render_consumer.rs: _onData"]}
{"id": "C169", "title": "No call and no broadcast between TypeScript client and TypeScript server is lost", "statement": "Whatever happened before: when nothing is under way between a TypeScript client and a TypeScript server that still has it, the server has looked at every message of the client and the client at every message the transport of the server took for it; every call of the client with a message the server expects has ended, or the handler for this very message was called directly (or the client dropped) and no answer was taken by the transport; and user code of the client got exactly the broadcasts of its workflow that were taken for it, in order.", "quantifier": "every run of client and server programs: order, time, loss of bytes, pieces, user code on both sides", "why_tests_cant": "all interleavings and all splits of the bytes; the claim is about what did not happen", "anchors": ["cli/src/workflow/render/consumer/typescript/render_consumer.rs: _onData", "cli/src/workflow/render/producer/typescript/render_mod.rs", "cli/src/protocol/render/typescript/static/packing.ts: BufferReader.chunk"]}
{"id": "C170", "title": "A sequence diagram shows exactly the declared workflow", "statement": "If every request of an accepted workflow declares answers, the diagram made with --puml has exactly these lines, in this order: for each request a group with request, error and answers (each with its conclusion and its broadcasts if there are several answers), for each event a group with the event and its broadcasts, and a group with the beacons; different contents have different lines.", "quantifier": "every protocol, every workflow text in the forms of the language", "why_tests_cant": "texts of all lengths with all names; placeholders are replaced one after the other in what was already replaced", "anchors": ["cli/src/workflow/render/puml/mod.rs: render", "cli/src/workflow/render/puml/render_request.rs: get_conclusions", "cli/src/helpers/render.rs: inject_tabs"]}
{"id": "C171", "title": "Every accepted workflow can be drawn", "statement": "A workflow that the parser accepts has a diagram: the renderer returns no error.", "quantifier": "every protocol and every accepted workflow", "why_tests_cant": "all combinations of declarations", "anchors": ["cli/src/workflow/render/puml/render_request.rs: render", "cli/src/workflow/request.rs: get_err"]}
{"id": "C172", "title": "Every message of a workflow is in its diagram", "statement": "Every request, error, answer, broadcast, beacon and event that is declared is named by a line of the diagram.", "quantifier": "every workflow that is drawn, every declared message", "why_tests_cant": "all combinations of declarations, numbers of answers and broadcasts", "anchors": ["cli/src/workflow/render/puml/render_request.rs: get_conclusions"]}
{"id": "C173", "title": "Diagrams tell optional broadcasts from others", "statement": "A broadcast has a dashed arrow exactly if it is optional.", "quantifier": "every workflow that is drawn, every broadcast", "why_tests_cant": "all combinations of declarations", "anchors": ["cli/src/workflow/render/puml/render_request.rs: get_conclusions", "cli/src/workflow/render/puml/render_event.rs: get_broadcasts"]}
{"id": "C174", "title": "No call and no broadcast between TypeScript client and Rust server is lost", "statement": "Whatever happened before: when nothing is under way between a TypeScript client and a Rust server that never dropped it, the server has looked at every message of the client and the client at every message the transport of the server took for it; every call of the client with a message the server expects has ended, or the server looked at this very message and did one of the things in a short list (reported an unassigned client, could not pack or send the answer without dropping the client, refused a beacon); with the default options every request has ended; and user code of the client got exactly the broadcasts of its workflow that were taken for it, in order.", "quantifier": "every run of client and server programs: order, time, loss of bytes, pieces, user code on both sides", "why_tests_cant": "all interleavings and all splits of the bytes; the claim is about what did not happen", "anchors": ["cli/src/workflow/render/consumer/typescript/render_consumer.rs: _onData", "cli/src/workflow/render/producer/rust/render_mod.rs: process_received_data", "cli/src/protocol/render/rust/static/protocol.buffer.rs"]}
{"id": "C175", "title": "No call and no broadcast between Rust client and Rust server is lost", "statement": "Whatever happened before: when nothing is under way between a Rust client and a Rust server that never dropped it, the server has looked at every message of the client and the client at every message the transport of the server took for it; every call of the client with a message the server expects is over, or the server looked at this very message and did one of the things in a short list (reported an unassigned client, could not pack or send the answer without dropping the client, refused a beacon); with the default options no request is open; and user code of the client got exactly the broadcasts of its workflow that were taken for it, in order.", "quantifier": "every run of client and server programs: order of the tasks, time, loss of bytes, pieces, user code on both sides, calls dropped by user code", "why_tests_cant": "all interleavings of the tasks and all splits of the bytes; the claim is about what did not happen", "anchors": ["cli/src/workflow/render/consumer/rust/render_consumer.rs: client_api_task, client_messages_task", "cli/src/workflow/render/producer/rust/render_mod.rs: process_received_data", "cli/src/protocol/render/rust/static/protocol.buffer.rs"]}
{"id": "C176", "title": "TypeScript client and Rust server agree on values", "statement": "With the generated codecs between TypeScript clients and a Rust server: every message of declared type is packed into one frame and decoded on the other side to the same value, where the same value means field by field and option by option, by name; the handshake, hashes and error texts arrive as sent; so in every run a resolved request was served by user code of the server for the value the client's user code passed, and the client's user code got the object that stands for the value the server's user code decided on.", "quantifier": "all protocols with different names, all user code, all values for which transport is exact in both languages, all histories", "why_tests_cant": "all values through two generated codecs written in different languages, with all histories of client and server", "anchors": ["cli/src/protocol/render/typescript/mod.rs", "cli/src/protocol/render/rust/mod.rs", "cli/src/protocol/render/typescript/static/protocol.convertor.ts", "cli/src/workflow/render/consumer/typescript/render_consumer.rs", "cli/src/workflow/render/producer/rust/render_mod.rs", "cli/src/workflow/config.rs: close"]}
{"id": "C177", "title": "TypeScript client and TypeScript server agree on values", "statement": "With the generated TypeScript codec between TypeScript clients and a TypeScript server: every message of declared type is packed into one frame and decoded to the same object; so in every run a resolved request was served by user code of the server for the very object the client's user code passed, and the client's user code got the very object that the server's user code decided on; messages arrive in the order sent, with their numbers.", "quantifier": "all protocols with different names, all user code, all values for which TypeScript transport is exact, all histories", "why_tests_cant": "all objects through the generated codec, with all histories of client and server", "anchors": ["cli/src/protocol/render/typescript/mod.rs", "cli/src/protocol/render/rust/mod.rs", "cli/src/protocol/render/typescript/static/protocol.convertor.ts", "cli/src/workflow/render/consumer/typescript/render_consumer.rs", "cli/src/workflow/render/producer/typescript/render_mod.rs", "cli/src/workflow/config.rs: close"]}
{"id": "C178", "title": "Every generated client connects to every generated server", "statement": "A generated client gets ready with a generated server of the same protocol and workflow, whatever the languages of the two: TypeScript clients with TypeScript servers, Rust clients with Rust servers, and clients of one language with servers of the other.", "quantifier": "all protocols and workflows, all user code, all histories of any number of clients, all times and pieces of data", "why_tests_cant": "no run of any length connects the pair that fails, and a test shows only that some run did not", "anchors": ["cli/src/workflow/render/consumer/rust/render_consumer.rs: on connection confirmation, auth", "cli/src/workflow/render/producer/typescript/render_mod.rs: onConnected, onData", "cli/src/workflow/render/producer/rust/render_mod.rs: confirmation", "README.md"]}
{"id": "C179", "title": "From texts to programs in two languages", "statement": "From a protocol and a workflow that the parsers accept, code of both languages is generated, it is code of the same protocol, and it is good enough for the programs to work together: a TypeScript client can read the service messages of its server, its messages carry over unchanged, and requests return what the server decided, whatever the size of the protocol.", "quantifier": "all texts of protocols and workflows, all sizes, all keys, hashes and ids of clients, all runs of the programs", "why_tests_cant": "a test has one protocol, and protocols in tests are small; nothing in a small one shows that ids are cut", "anchors": ["cli/src/protocol/render/typescript/static/protocol.convertor.storage.ts: _getId", "cli/src/protocol/render/typescript/mod.rs: struct and enum declarations", "cli/src/protocol/store.rs: ids, service structs", "cli/src/workflow/config.rs: close", "cli/src/workflow/render/consumer/typescript/render_consumer.rs: handshake"]}
{"id": "C180", "title": "From texts to answers, TypeScript on both sides", "statement": "Take the TypeScript client and the TypeScript server generated from an accepted protocol and workflow. Whatever happened before, as long as the server runs, a new client gets ready, and any sequence of calls with values of the declared types returns, call by call, exactly what the user code of the server settled on.", "quantifier": "all accepted texts, all earlier histories with any clients, all sequences of calls and of decisions of user code", "why_tests_cant": "a test has one protocol, one history and a few calls", "anchors": ["cli/src/workflow/render/consumer/typescript/render_consumer.rs", "cli/src/workflow/render/producer/typescript/render_mod.rs", "cli/src/protocol/render/typescript/mod.rs"]}
{"id": "C181", "title": "From texts to answers, TypeScript client and Rust server", "statement": "Take the TypeScript client and the Rust server generated from an accepted protocol and workflow. Whatever happened before, as long as the server runs, a new client gets ready, is assigned, and any sequence of calls with values of the declared types returns, each with the TypeScript object that is the value which the user code of the server decided on.", "quantifier": "all accepted texts, all earlier histories with any clients, all user code that decides, all sequences of calls", "why_tests_cant": "two programs in two languages have to run together on arbitrary protocols; a test has one", "anchors": ["cli/src/workflow/render/consumer/typescript/render_consumer.rs", "cli/src/workflow/render/producer/rust/render_mod.rs", "cli/src/protocol/render/typescript/mod.rs", "cli/src/protocol/render/rust/mod.rs"]}
{"id": "C182", "title": "From texts to programs that lose nothing", "statement": "Take programs generated from an accepted protocol and workflow, in any of the combinations of languages that work. Whatever the order of events was: whenever nothing is under way between a client and the server, every request of the client was answered as user code of the server decided or the server says why not, and user code of the client got exactly the broadcasts that were sent to it.", "quantifier": "all accepted texts, all orders of events, all clients, all user code that sends values of the declared types", "why_tests_cant": "a lost answer depends on the order of events and on sizes of pieces of data; tests have a few orders and one protocol", "anchors": ["cli/src/workflow/render/consumer/typescript/render_consumer.rs", "cli/src/workflow/render/consumer/rust/render_consumer.rs", "cli/src/workflow/render/producer/rust/render_mod.rs", "cli/src/workflow/render/producer/typescript/render_mod.rs"]}
{"id": "C183", "title": "A TypeScript client gets ready", "statement": "Whatever the order of events was, and whatever user code of both sides did meanwhile: whenever nothing is under way between a generated TypeScript client that was connected once and a generated TypeScript server that has it, the client has raised ready, with the id of its connection, if and only if protocol and workflow of both sides are the same. So no handshake hangs, and none is given up without reason.", "quantifier": "all orders of events, all pieces in which bytes arrive, all numbers of clients, all user code, all protocols and workflows with working codecs", "why_tests_cant": "a handshake that hangs depends on the order of events and on what user code does meanwhile; tests do one order", "anchors": ["cli/src/workflow/render/consumer/typescript/render_consumer.rs", "cli/src/workflow/render/producer/typescript/render_mod.rs"]}
{"id": "C184", "title": "A TypeScript client of a Rust server gets ready unless it is dropped", "statement": "Whatever the order of events was, and whatever user code of both sides did meanwhile: whenever nothing is under way between a generated TypeScript client that was connected once and a generated Rust server that has it and never asked the transport to drop it, the client has raised ready, with the id of its connection, and protocol and workflow of both sides are the same. So no handshake hangs, and clients with other protocols or workflows are dropped.", "quantifier": "all orders of events, all pieces in which bytes arrive, all numbers of clients, all user code, all protocols and workflows with working codecs", "why_tests_cant": "a handshake that hangs depends on the order of events and on what user code does meanwhile; tests do one order", "anchors": ["cli/src/workflow/render/consumer/typescript/render_consumer.rs", "cli/src/workflow/render/producer/rust/render_mod.rs"]}
{"id": "C185", "title": "From texts to TypeScript clients that get ready", "statement": "Take programs generated from an accepted protocol and workflow, a TypeScript client and a server in either language. Whatever the order of events was: whenever nothing is under way between a client that was connected once and the server, the client has raised ready with the text of the id of its connection, if the hashes in its code are those of the server; a Rust server has dropped it otherwise. So no handshake of generated programs hangs.", "quantifier": "all accepted texts, all orders of events, all clients, all user code that sends values of the declared types", "why_tests_cant": "a handshake that hangs depends on the order of events, on sizes of pieces of data and on the declarations; tests have a few orders and one protocol", "anchors": ["cli/src/workflow/render/consumer/typescript/render_consumer.rs", "cli/src/workflow/render/producer/rust/render_mod.rs", "cli/src/workflow/render/producer/typescript/render_mod.rs", "cli/src/protocol/render/typescript/mod.rs"]}
{"id": "C186", "title": "Numbers and booleans are decoded only from their bytes", "statement": "Generated code accepts bytes as a number or boolean only if they are exactly the bytes that stand for the value: nothing is left over, and no two byte strings stand for the same value.", "quantifier": "all byte strings, all number types, both languages", "why_tests_cant": "all byte strings a foreign or broken program may send", "anchors": ["cli/src/protocol/render/rust/static/protocol.decode.rs", "cli/src/protocol/render/typescript/static/protocol.primitives.bool.ts", "cli/src/protocol/render/typescript/static/protocol.primitives.u8.ts"]}
{"id": "C187", "title": "The same bytes are the same message in both languages", "statement": "If the generated Rust code and the generated TypeScript code accept the same bytes as a message of one type, both get the same message, wherever the bytes come from.", "quantifier": "all declarations, all byte strings, not only those that generated encoders write", "why_tests_cant": "tests encode values and decode them; bytes of other origin are not tried", "anchors": ["cli/src/protocol/render/rust/static/protocol.decode.rs", "cli/src/protocol/render/rust/static/protocol.storage.rs", "cli/src/protocol/render/typescript/static/protocol.primitives.bool.ts", "cli/src/protocol/render/typescript/static/protocol.convertor.storage.ts"]}
{"id": "C188", "title": "Both languages accept the same bytes", "statement": "The generated Rust code accepts bytes as a message of a type exactly if the generated TypeScript code does, and both get the same message.", "quantifier": "all declarations, all byte strings, not only those that generated encoders write", "why_tests_cant": "tests encode values and decode them; bytes of other origin are not tried", "anchors": ["cli/src/protocol/render/rust/static/protocol.decode.rs", "cli/src/protocol/render/rust/mod.rs", "cli/src/protocol/render/typescript/mod.rs", "cli/src/protocol/render/typescript/static/protocol.convertor.ts"]}
