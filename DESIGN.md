# Design

## Subject

`/repo` is clibri: a command line tool written in Rust which reads a protocol
description (`.prot`) and a workflow description (`.workflow`) and generates

* a binary codec with a stream reader (Rust and TypeScript),
* a server ("producer", Rust and TypeScript),
* a client ("consumer", Rust and TypeScript).

The generated code is what users run, so most properties are about the generated
code. It is found in two places: static files copied verbatim into the output
(`cli/src/protocol/render/*/static`) and string templates inside the renderers
(`cli/src/workflow/render/...`). A few properties are about the tool itself
(parsers, store, arguments).

## Trusted base

* The Lean 4.33.0 kernel.
* The axioms `propext`, `Classical.choice`, `Quot.sound` and no other one.
* The reading of the Rust/TypeScript source. The models were written by hand from
  the text. Nothing was compiled or run. Each model definition cites the lines
  it was read from.
* Facts about the language runtimes, which are stated where they are used:
  * Rust: `usize` is 64 bit; `bytes::Buf::get_*` panics when too few bytes are
    left; slicing out of range panics; `usize` addition overflow panics in debug
    builds; `Vec` never holds more than `isize::MAX` bytes; `HashMap::insert`
    keeps the last value.
  * JavaScript: `Buffer.readUIntXX` throws a `RangeError` when out of range;
    `slice` clamps; an `Error` that is returned is different from one that is
    thrown.

## Tests with wrong programs

`seeded/LOG.jsonl` lists edits of the model, each a plausible mistake of the code.

* `theorems_failed` is what the build reports. The build stops at the first broken
  module, so most lines name only a helper lemma. That alone does not show that the
  property excludes the edit: a proof may break for other reasons (line 71 is an
  edit without effect on the behaviour which also broke a helper lemma).
* `contradicted`, where it is given, is stronger: `False` was derived from these
  property theorems, taken without their proofs, against the edited model by means
  of a concrete run. The same derivation does not compile against the real model.
  Lines with a property theorem in `theorems_failed` and lines without
  `contradicted` were not tested like that.
* This test found one gap: the edit of line 107 broke helper lemmas, but no property
  theorem contradicted it. `C77_good_before_bad_partial` was tightened.
* The edit of line 99 did not typecheck and says nothing. It was repeated in line 125.

## Conventions

* `Res α = ok a | err | panic`: a Rust `Ok`, a Rust `Err` and a Rust panic. For
  TypeScript `panic` is a thrown exception and `err` a returned `Error`. In the
  protocol store `err` is `stop!` (message and exit status 1).
* Loops are modelled with a bound (`fuel`); each time it is proved that a bound
  exists which is never reached, or the property is about exactly that.
* Bytes are `UInt8`, buffers are `List UInt8`.
* Model files are under `lean/Verif/Model`. Property files are under
  `lean/Verif/Props`. Small specification files with vocabulary used only by the
  statements are under `lean/Verif/Spec`.
* If the code violates a property, the file proves the negation with a concrete
  witness, and a theorem with suffix `_partial` for the part that does hold.

## What is modelled

| Part | Source | Model |
|---|---|---|
| LE integers, result types | std, bytes crate | `Model/Bytes.lean` |
| UTF-8, strict and lossy | std, `TextDecoder` | `Model/Utf8.lean` |
| Schemas and values | `cli/src/protocol/{fields,enums,structs}.rs` | `Model/Schema.lean` |
| Rust codec (encode, decode, storage) | `cli/src/protocol/render/rust/static/protocol.{encode,decode,storage}.rs`, `rust/mod.rs` | `Model/RustCodec.lean` |
| Rust framing and stream reader | `protocol.packing.rs`, `protocol.buffer.rs` | `Model/RustStream.lean` |
| Rust dispatcher | `rust/mod.rs` `buffer` | `Model/RustDispatch.lean` |
| TypeScript codec | `typescript/static/*`, `typescript/mod.rs` | `Model/TsCodec.lean` |
| TypeScript message objects | `typescript/mod.rs` constructors and setters | `Model/TsObject.lean` |
| TypeScript reader and dispatcher | `typescript/static/packing*.ts`, `typescript/mod.rs` | `Model/TsStream.lean`, `Model/TsDispatch.lean` |
| Protocol lexer and parser loop | `cli/src/protocol/parser.rs` | `Model/ProtocolParser.lean` |
| Protocol store | `cli/src/protocol/{store,structs,fields,enums,groups}.rs` | `Model/ProtocolStore.lean` |
| Types chosen by the Rust generator | `cli/src/protocol/render/rust/mod.rs` | `Model/RustRender.lean` |
| Workflow entities and store | `cli/src/workflow/{config,request,beacon,event,store}.rs` | `Model/WorkflowEntities.lean` |
| Workflow parser | `cli/src/workflow/parser.rs` | `Model/WorkflowParser.lean` |
| Rust server: state, code of requests, events, beacons | `producer/rust/render_{consumer,identification,request_handler,request_response,event_emitter,beacon_emitter,static}.rs` (in `cli/src/workflow/render/`) | `Model/RustServer.lean` |
| Rust server: event loop | `cli/src/workflow/render/producer/rust/render_mod.rs` | `Model/RustProducer.lean` |
| Rust server: keys and filters | `cli/src/workflow/render/producer/rust/render_identification.rs` | `Model/RustIdentification.lean` |
| TypeScript server | `producer/typescript/render_{mod,identification,request_handler,request_handlers_mod,event_emitter,beacon_emitter,static}.rs`, `producer/typescript/static/implementation/consumer/{index,filter}.ts` (in `cli/src/workflow/render/`) | `Model/TsServer.lean` |
| Rust client | `consumer/rust/{render_consumer,render_controller,render_options,render}.rs`, `consumer/rust/static/implementation/consumer/api.rs` (in `cli/src/workflow/render/`) | `Model/RustClient.lean` |
| TypeScript client | `consumer/typescript/{render_consumer,render_request,render_beacon,render_interfaces_request}.rs` (in `cli/src/workflow/render/`), `cli/src/protocol/render/typescript/static/protocol.convertor.ts` L209-228 | `Model/TsClient.lean` |
| Files of the four workflow generators | `cli/src/workflow/render/{consumer,producer}/*/*.rs` (destinations and order of writes) | `Model/Files.lean` |
| Manifests, several generators in one run | `render_{cargo,package}.rs`, `static/required.*`, `cli/src/workflow/render/render.rs` | `Model/Manifest.lean` |
| References between generated files | the same renderers and `static/` files | `Model/Imports.lean` |
| Command line: arguments, actions, endings | `cli/src/main.rs`, `ctrlargs.rs`, `arguments/*`, `helpers/fs.rs` | `Model/Cli.lean` |
| Names, types and order chosen by the TypeScript generator | `cli/src/protocol/render/typescript/mod.rs` | `Model/TsRender.lean` |
| Validation of JavaScript values, `from`, `set`, and encoding of what was accepted | `cli/src/protocol/render/typescript/mod.rs`, `static/protocol.validator.ts`, `static/protocol.primitives.*.ts` | `Model/TsValidate.lean` |
| Rust clients and a Rust server that talk to each other | the two programs above and the transport between them | `Model/System.lean` |
| The generated codec between Rust clients and server, with the service structs | `cli/src/workflow/config.rs` `close`, templates of client and server | `Model/SystemCodec.lean` |
| TypeScript clients and a Rust server that talk to each other (any server and client programs) | the programs above and the transport between them | `Model/Network.lean`, `Model/NetworkPrograms.lean` |
| Sequence diagrams (`--puml`), the whole text | `cli/src/workflow/render/puml/*.rs`, `cli/src/helpers/render.rs` `inject_tabs` | `Model/Puml.lean` |
| The generated TypeScript codec between clients and server: objects of user code, service structs by name | `cli/src/protocol/render/typescript/mod.rs`, `static/protocol.convertor.ts`, templates of client and server | `Model/NetworkCodec.lean` |
| Rust clients of a TypeScript server | `cli/src/workflow/render/consumer/rust/render_consumer.rs`, `cli/src/workflow/render/producer/typescript/render_mod.rs` | `Network.rustClient` in `Model/NetworkPrograms.lean`, `Codec.rustClient` in `Model/NetworkCodec.lean` |
| Names of fields and options in TypeScript | `cli/src/protocol/render/typescript/mod.rs` | `Model/TsNamed.lean` |
<!-- MODELS -->

Not modelled: tokio itself (tasks are modelled as atomic steps at `await`
boundaries, the scheduler as an arbitrary order of steps), transports (empty
submodules in the pinned commit), user code (an arbitrary outcome), logging, the
text of generated files apart from the decisions named in a property, SHA-256,
clock values, `experimental/`, recursion depth (stack overflow), NaN payloads and
lone surrogates in JavaScript strings.

The protocol model was compared by hand with generated code that is committed in
`/repo`: evaluating the model on `examples/prot/protocol.prot` and
`examples/protocol/prot/protocol.prot` gives the ids found in
`examples/consumer/typescript/.../protocol.ts` (2, 6, 8, 11, 13, 16, 19) and
`examples/protocol/rust/src/protocol.rs` (1, 2, 3).

## Properties

"Violated" means that the code does not have the property. The negation is then
proved with a concrete witness (`..._violated`), and what does hold is proved as
`..._partial`.

### Rust codec

| Id | Result |
|---|---|
| C01 | Proved: `decode (encode v) = ok v` by mutual induction over schemas, for values within C02/C03. |
| C02 | Violated: `Some("")` comes back as `None`. Partial: every present value with at least one byte of content. |
| C03 | Violated: a variant with an empty string is refused by its own decoder. Partial: payloads with content. |
| C04 | Proved from C01: different values have different encodings. |
| C05 | Proved: decoding depends only on the last record of each id; order and foreign records do not matter. |
| C06 | Proved: a missing record of a declared field is an error. |
| C07 | Violated for enum messages (a cut string payload decodes). Partial: struct messages and proper prefixes. |
| C08 | Violated: a one byte body panics. Partial: bodies made of whole records never panic. |
| C53 | Proved: vectors are decoded only from exactly their items. |

### Rust stream

| Id | Result |
|---|---|
| C09 | Proved: header fields of a packed frame are read back whatever follows. |
| C10, C11 | Proved: invariant over the list of chunks; delivered messages and kept bytes are a function of the bytes only. |
| C12 | Proved: a frame with a foreign signature is skipped at any place. |
| C13 | Violated: good messages behind a bad one in a chunk are held back. Partial: they come with the next call. |
| C14 | Violated: a length near 2^64 overflows. Partial: length fields below 2^64 - 26. |
| C21 | Proved: the dispatcher uses the declaration with the id of the frame. |
| C52 | Proved: soundness for arbitrary bytes. |
| C54 | Proved: end to end transport. |

### TypeScript

| Id | Result |
|---|---|
| C15 | Proved for good streams: invariant over the chunks. |
| C16 | Violated: a foreign signature makes the loop run for ever. Partial: no foreign frames. |
| C17 | Violated: after an unknown id nothing is ever delivered. Partial: known ids only. |
| C18 | Violated: a leading byte order mark of a string is lost in TypeScript. Partial: both directions for all other values. |
| C19 | Violated: only the low byte of a property id is read. Partial: ids below 256. |
| C55 | Soundness of the reader for arbitrary bytes. |
| C56 | TypeScript round trip, with the exceptions of C02, C03, C18, C19. |
| C57 | Violated: arrays of strings or structs with a cut length field throw. Partial: other declarations. |
| C58 | Violated: a cut last item is accepted. Partial otherwise. |
| C59 | Violated: an enum field assigned after construction is sent with the old value. Partial: other fields. |
| C60 | End to end transport between any mix of Rust and TypeScript peers. |

Also seen: an enum with an empty payload decodes in TypeScript but is refused by
Rust; optional repeated enums do not compile in Rust; repeated enums, enums in
variants and repeated structs in variants are not supported by the TypeScript
generator; strings of 2^32 bytes or more inside vectors are cut (Rust) or throw
(TypeScript).

### Protocol files

| Id | Result |
|---|---|
| C20 | Proved: invariant of the id counter over all histories of store operations, also with service structs. |
| C22 | Proved: every round of the parser decreases a measure; no panic is reachable. |
| C24 | Lookup is sound. Violated: with two groups of one name under one parent only the first is searched. Partial: complete with distinct group names. |
| C25 | Proved: invariant of field insertion, and duplicates stop the tool. |
| C61 | Violated: a file that ends inside a declaration is accepted and the declaration is lost. Partial: texts made of whole declarations. |
| C62 | Violated: a full path through the group that is open is not found. Partial: other paths. |
| C63 | Proved: simulation of the parser on every tree of declarations in every spelling (`Spec/ProtocolSyntax.lean` is the grammar and the scoping rule). |
| C64 | Proved: recorded paths are the chains of groups. |
| C65 | Proved: references lead to types declared earlier. |
| C66 | Store to generated codec: proved within what the generator supports; violated for a type called like a primitive type. Composed with C54. |
| C67 | Violated: duplicate names of types, groups and variants are accepted. Partial: fields, and ids stay distinct. |
| C68 | Violated: an enclosing group can shadow the type that the tool resolved. Partial: no shadowing. |

Also seen: `[` is ignored between any tokens and a lone `]` counts as repeated; a
variant without type needs its `;` right behind the name; enclosing groups other
than the innermost and the root are not searched; a user group called
`InternalServiceGroup` is used for service structs; an optional enum field is
decoded by the bare name of the enum, which does not compile across groups.

### Workflow files

| Id | Result |
|---|---|
| C23 | Violated: the text `A` is read forever (a word at the end of the file gives back its last character); an emoji in a comment panics. Partial: texts that do not end in a letter, `_`, `@`, `&` end; ASCII texts do not panic. |
| C26 | Proved: invariant over all texts, and the exact condition under which the store refuses. |
| C69 | Violated: offsets are counted in characters and used as bytes, so a letter outside ASCII in a comment makes the parser read characters again. Partial: ASCII comments, by a simulation of the two runs. |
| C70 | Proved: simulation of the parser on every list of declarations in every spelling (`Spec/WorkflowSyntax.lean` is the grammar), with the lookups of references turned into paths of the protocol. |
| C71 | Proved: invariant over all texts. |
| C72 | Violated: a declaration that is not finished at the end of the file is dropped; an entry of a config without `;` in front of `}` is dropped. Partial: files in the forms of the grammar. |
| C73 | Violated: `E;` for a struct of the root, first names with an underscore, and `(R) > B;`, which the parser's messages describe. Partial: other references. |
| C74 | Violated: `Y.N` and `&+-` are accepted as conclusions. Partial: files in the forms of the grammar. |

Also seen: words with blanks between them are joined by dots (`A B;` is `A.B;`);
`> .A` is accepted; two answers may have the same conclusion; the assigned key is
looked up after the service structs of the self key are added; `A#c` at the end of
a file is read as two words.

### Rust server

The server is a loop over inputs; transport and user code are an oracle (`Env`)
whose answers may depend on the whole state. A statement for every `Env` and every
list of inputs covers every behaviour of both and every interleaving of clients. The
state keeps a history that the code never reads; `Spec/Server.lean` says what
histories are in order.

| Id | Result |
|---|---|
| C27 | Proved: invariant of the loop, every handler call in the history is preceded by a complete handshake of the present connection. |
| C28 | Violated: within one piece of data the loop goes on after a kick; a request behind a wrong hash request is handled. Partial: later pieces are not looked at. |
| C29 | Proved: same invariant. |
| C30 | Proved: same invariant, and every hash request in the history has its answer. |
| C31 | Violated: the loop ends if the confirmation cannot be sent, if the transport cannot drop a client, if a connection is reported twice; it panics at a header that announces 2^64 - 26 or more bytes, whatever the protocol. Partial: these, panicking decoders and user code that fails where it handles errors are the only causes. |
| C32 | Violated: data before the confirmation leads to a kick. The generated TypeScript client sends its self key at once. Partial: confirmed clients. |
| C33 | Proved: the exact list of acts of a request. |
| C34 | Violated: the template for one action ignores broadcasts; witness is an accepted workflow. Partial: two or more actions. |
| C35 | Proved. |
| C36 | Proved from the generated statements, with distinct field names from C25. |
| C50 | Proved for the states between two inputs. |
| C51 | Proved: the exact acts. |
| C75 | Proved: stages of a handshake, preserved by whatever happens to others. |
| C76 | Violated: `has_key` and `assigned` are read before the loop over the messages, so a self key in the same piece does not count. Partial: after the handshake. |
| C77 | Violated: if reading fails, the messages before the bad one stay in the queue, and the client is usually kicked. Partial: pieces without bad messages; nothing stays in the reader then. |
| C78 | Violated: after the hash is accepted the arm for self keys is off, the message falls through all arms. Partial: before. |
| C79 | Proved: locality of every piece of the loop. |
| C80 | Proved: the exact acts. |

Also seen: the `connected` event is emitted before the client is in the map, so its
filter does not contain the new client. An error of the user's error emitter ends
the loop.

### TypeScript server

The code runs on one thread. A run is a list of inputs: calls by the transport,
changes by user code that runs on its own, and promises that settle, in any order.
User code that is called may change clients until its first `await` and may throw
(`Env`). So a statement for every `Env` and every list of inputs covers every order in
which promises settle. `Spec/TsServer.lean` has the vocabulary for histories;
messages are JavaScript objects, as the generated code looks for properties in them.

| Id | Result |
|---|---|
| C37 | Violated: `assigned` tests `this.assign`, which is the method, so it is always true; the run does not depend on the strategy at all. Partial: handlers only after hash and self key, invariant over all runs. |
| C38 | Violated: nothing declares a kicked client discredited; it is served until the transport closes. Partial: same invariant. |
| C81 | Violated: the lookup walks through properties, so field `b` of message `A` is found under `A.b`. Needs a message and a group of the same name, which the parser accepts (C67). Partial: otherwise. |
| C82 | Proved: same invariant; unfinished handlers carry what they did so far. That answers are those of user code: each input adds only acts that are allowed for it (`frames_step`). |
| C83 | Violated: the template for one action has no broadcasts. Partial: the exact acts for two or more actions, and for events. |
| C84 | Violated: the required broadcasts are looked up by response. Partial: distinct responses. |
| C85 | Violated: see C16. Partial: exact condition for hanging; frames (what may change) of every piece of the code. |
| C86 | Violated: `break` after an unknown message. Partial: known messages. |
| C87 | Proved for the states between two inputs. |
| C88 | Proved: stages of a handshake, preserved by whatever happens to others. |
| C89 | Proved. |
| C90 | Proved. |
| C91 | Proved. |
| C92 | Violated: the self key branch is off after the hash; the message counts as unknown and the client is dropped. The Rust server ignores it (C78). |
| C93 | Violated: an unknown id throws inside the transport's callback, see C17. |
| C94 | Proved in three steps: message to waiting handler, confirmation, deferred code. |
| C95 | Proved. |

Also seen, not modelled: methods of the object returned by `broadcast` have names
without dots, so `A.B` and `AB`, or one broadcast in two actions, give two members of
one name, which TypeScript rejects; the run time library of the server is not in the
repository. Exceptions in event handlers of user code leave the callback of the
transport.

### Rust client

One call of `listen` is a set of tasks that talk through channels: the task that sends
(`client_api_task`), the one that reads (`client_messages_task`), the spawned handshake
(`auth`) and the calls of user code. A run is a list of inputs that say which one goes
on; inputs that cannot happen do nothing. So a statement for every list of inputs
covers every schedule, every behaviour of the transport, and timeouts or dropped calls
at any time. The state keeps a history, newest first; `Spec/Client.lean` says what a
lawful history is (`Allowed`) and how messages are handled (`Handled`).

| Id | Result |
|---|---|
| C39 | Proved: closed form of the numbers, `10 + (i+1) mod 4294967284`. |
| C40 | Proved: five theorems about every act of a history. |
| C41 | Violated: the receiver of a request that took too long is dropped, so handing over its response fails, which ends the task that sends (L447-455) and with it the client. Partial: the client runs as long as no such message comes. |
| C42 | Violated: the self key request waits under the number 0, and broadcasts are sent with the number 0. Partial: the reasons why a handshake can fail. |
| C43 | Proved. |
| C96 | Violated: the variants are matched by response in order, so of two actions with the same response the first is reported. Partial: otherwise. |
| C97 | Violated: an error of any part makes `listen` return an error, which ends the loop (L348-372). Partial: ends without error. |
| C98 | Proved, with C52. |
| C99 | Violated: after an error of `chunk` the messages already read are not fetched (L517-524) until the next piece. Partial: the last piece was read without error. |
| C100 | Proved. |
| C101 | Proved; `client.connect()` is assumed to return after the cancellation. |

Also seen: a call future that user code drops while it waits for its number, the id or
the response ends the client the same way as C41 (theorems allow for it: `Patient`).
After 4294967284 calls a number can be in use again by a beacon that never got its
answer; then the client ends. Not modelled: `consumer.shutdown().await` inside an
event handler waits for the loop that runs the handler.

### TypeScript client

A run is a list of inputs: events of the transport, operations of user code, and jobs,
that is continuations of promises. Any job may run at any time, so a statement for
every list of inputs covers every order, also orders JavaScript does not have. What
handlers of user code do, whether they throw and what the transport takes is given by
`Env`, which may depend on the whole state. An endless loop of the reader is the
outcome `true` of `run`. The history is kept newest first; `Spec/TsClient.lean` says what a
lawful history is (`Allowed`).

| Id | Result |
|---|---|
| C44 | Proved: five theorems about every act of a history. |
| C45 | Violated: after an error of `chunk` `_onData` returns; the messages already read wait for the next chunk. Partial: the frames of the chunk are good; what was held back before is then looked at too. |
| C102 | Proved. |
| C103 | Proved: what comes before `ready`, how often events are raised, and that the handshake goes on. |
| C104 | Proved. After 4294967295 messages `pack` throws and nothing can be sent any more. |
| C105 | Violated: responses are matched in the order of the actions, so of two actions with the same response the handler of the first is called. Partial: otherwise. |
| C106 | Violated: handlers are named by conclusions in lower case, the error has the handler `err`. With a conclusion `Err` the parser accepts the workflow and the generated class has the handler twice, which TypeScript refuses to compile; the model runs what is generated. Partial: names differ. |
| C107 | Violated: a message that cannot be packed or sent leaves the object in the state Pending. Partial: no call ended this way. |
| C108 | Violated: nothing settles the pending promises when the connection is lost, and there is no timeout. Partial: a call that is not waiting for its answer has ended or ends when its job runs. |
| C109 | Violated: the buffer of the reader is kept. Partial: all frames before were complete. |
| C110 | Proved for runs in which no job is left when a connection is lost (`Prompt`); that is how JavaScript runs jobs. |
| C111 | Violated: the failure is logged only (L217-229). Partial: no `ready`. |
| C112 | Proved. |

Also seen: an exception in a handler of a broadcast leaves the rest of the messages in the
queue; a frame with a foreign signature makes the reader loop for ever (C16 applies to the
client as well); a destroyed object whose answer comes ends its call with
an error.

### Generated files

The model of a generator is the list of its writes, each with its path, what is written
(which renderer, for which declaration) and whether an existing file is left alone. File
names are computed like in the code. `Accepted` in `Props/Files.lean` says that
declarations come from a workflow and a protocol the parsers accept; all witnesses of
negations are accepted. That the Rust names `AB` and `Ab` collide is `Alike` in
`Spec/Files.lean`, stated without the code's `to_lowercase`.

| Id | Result |
|---|---|
| C49 | Violated: `AB` and `Ab` share a file (in Rust also `A.B` and `A_B`), so one request has no handler; an event `Error` has no emitter because the shipped one replaces it. Partial: references that do not collide with each other or with names the generator uses. |
| C113 | Violated: the file for the answer to a request `Mod` is `responses/mod.rs`, which is replaced on every run. Partial: every other file; proved for TypeScript without exception. |
| C114 | Proved, including manifests and failing runs. |
| C115 | Proved for Rust and TypeScript. |
| C116 | Violated: `pub mod ab;` twice for `AB` and `Ab`; `aBHandler` twice for `A.B` and `AB`. Partial: names that do not collide. |
| C117 | Violated: `pub mod loop;` for an event `Loop`. Partial: every accepted workflow without keywords; that its references consist of identifiers and points is derived from both parsers. |
| C118 | Violated: the same folder for client and server. Partial: neither folder inside the other; targets of one side never meet. |
| C119 | Proved. If `dependencies` is not a table, nothing is added and no error is reported. The manifest in the root folder is never found. |
| C120 | Violated: client and server in one Rust project; the server's older versions (`thiserror` 1.0.26, `uuid` 0.8.1, `tokio` 1.5.0, `tokio-util` 0.6.7) replace the client's. Partial: each dependency is required in a version some generator asks for. |
| C121 | Violated: the manifest is looked for after everything else was written. Partial: missing destinations are noticed first; otherwise the run succeeds exactly if every generator finds a manifest it can parse. |
| C122 | Proved. `use` lines of Rust are not modelled, only `mod` lines; packages are not modelled. |
| C123 | Proved for every accepted workflow. |
| C124 | Violated: `struct type { u8 fn; }` is accepted. Partial: names start with a letter or `_` and consist of letters, digits and `_`. |

### Command line

`Model/Cli.lean` composes both parsers, the workflow generators and the argument handling. What the operating
system does (whether a file can be read, written, removed) is a parameter, so theorems hold for all of it. How the
protocol renderers end is a parameter too; what they write is recorded as `Content.code target embedded store`, whose
meaning is the subject of the codec models. `Spec/Cli.lean` says, without the model, how a list of arguments reads:
keys and their values from left to right.

| Id | How |
|---|---|
| C46 | Violated: `-h` suppresses the error about the existing file, and the workflow generators then write over it. Partial: without `-h` the call is rejected and no file changes; whatever the arguments, without `-o` existing files outside the folders for workflow code stay, and all files stay if there is no workflow. |
| C47 | Violated: flags and options are removed from the list one after the other, so a value that looks like a key makes the next argument look like a value: `-rs -o x -s p` is accepted and writes a file called `-o`. Partial: if no value is a key, a stray argument or a repeated option is always rejected, and with `-h` only those. |
| C48 | Violated: `actions` returns errors that `main` prints; the status is 0. Also 0 if the current folder is unknown. Partial: rejected arguments give 1; a process ended by `stop!` or a panic does not give 0; status 0 means success or one of these two. |
| C125 | Violated: the folders for client and server are made while the arguments are read. Partial: nothing else changes. |
| C126 | Violated: with `-h` the actions run all the same. Partial: no file changes if no source is given; but the run then counts as failed ("no source"). |
| C127 | Violated in four ways, see the theorem: a key at the end without value is ignored; a diagram replaces the code; two outputs with one name; `-h`. Partial: without `-h`, every output given with a value is there with the right contents, up to two outputs with the same name. |
| C128 | Proved, if no option is given twice and no value is a key (both are excluded by what the lists mean, see C47). |
| C129 | Proved for every ending. |
| C130 | Violated: `-s p -rs p -o`; or a source in a folder for workflow code. Partial: otherwise. |
| C131 | Proved. |
| C132 | Violated: a workflow text `A` (C23). Partial: every call whose workflow does not end so; and the outcome is unique always. |
| C133 | Proved, if no value is a key. That a folder cannot be made depends on the state of the disk, which the folders made before are part of; the theorem says for which states. |
| C134 | Proved against `Leads` in `Spec/Cli.lean`; `..` is not resolved, by the code neither. |
| C135 | Proved. With code of a workflow and protocol outputs, only with `-o`, because the generators may write the outputs first. |

### TypeScript generator

`Model/TsRender.lean` says which names, codes, flags and order of classes the generator prints. `Spec/TsCode.lean`
says what such a file means: `TsNames` is the lookup of a name through the namespaces around its place, inner ones
first, and `TsFile.Means` relates a file to a protocol of the codec models. The proofs need facts about accepted
stores (`TreeOk`: ids grow along declarations, groups list what is in them), from an invariant over all histories of
the protocol store.

| Id | Result |
|---|---|
| C136 | Violated in four ways: enums are printed under their bare name, so `G.E` becomes the `E` of the root while Rust uses `G.E`; a repeated enum is declared as an array but coded as one enum; an option that is an array of structs is coded as one struct; an option that is an enum stops the TypeScript generator. Partial: protocols without the last three (`TsSupported`) whose printed names are not hidden by names in groups between (`TsVisible`). |
| C137 | Violated: classes of a group come after the structs around the group, and the static scheme of a struct names the classes of its fields, so `group G { struct A { u8 a; } } struct B { G.A x; }` gives a module that throws when it is loaded. Partial: protocols in which no struct needs a struct from a group inside its own group. The condition is exact for fields (`C137_defined_later`). |
| C138 | Proved. |
| C139 | Proved by composition of C66, C136 and C60, with their conditions. |

### JavaScript values passed for messages

`Model/TsValidate.lean` starts from arbitrary JavaScript values (`JsVal`: numbers with fractions, NaN and infinities,
bigints, sparse arrays, objects with any keys, instances of generated classes with their private enum objects).
`Spec/TsValidate.lean` says when such a value stands for a value of a declared type (`Fits`); it does so for at most one
(`C140_one_meaning`). How a number is written as a float is left to an arbitrary `Engine`. Node's `Buffer.write*` functions
are modelled from their documentation: they refuse values out of range, cut fractions and write NaN as 0. Encoding of
values of a JavaScript type that no validator accepts is left out (modelled as throwing); no theorem depends on it.

| Id | Result |
|---|---|
| C140 | Violated: `u64` and `i64` are limited to 2^53-1 (`MAX_SAFE_INTEGER`), NaN and infinities are refused, and `{ A: 1, B: undefined }` for an enum is accepted but sent without option, because `set` counts keys and the constructor ignores its answer. Partial: otherwise, for all schemas and objects, down to the value decoded by Rust code. |
| C141 | Violated: 1.5 is accepted for an integer and sent as 1; holes of arrays are skipped, so items move and zeros are appended; an instance of the right class is not looked into, so `p.a = 300` is accepted and `encode` throws. Partial: without these; then acceptance is characterised exactly (`C141_accepted_iff_partial`), and what is sent is the value the object stands for without the options of enum objects with two keys (`asSent`). |
| C142 | Violated for enum messages: `from({})` throws, and neither `from` nor `set` checks values. Partial: `from` of a struct never throws; fitting enum objects are accepted and sent as they are. |
| C143 | Violated: an extra key in the object of an enum field removes the option. Partial: properties of the message itself. |

### Clients and server together

`Model/System.lean` runs the model of the generated Rust server and any number of models of the generated Rust client
against each other. The transport is not in the repository. Taken for granted: on one connection, bytes arrive in order
and unchanged, possibly late, in pieces of any size, or never; a connection gets an unused id. An event is a step of the
server, of one client, or the arrival of some bytes; all sequences of events are covered. The codec is a parameter.
The theorems have two hypotheses about it: what was sent so far was packed into frames with the given number (`Framed`; C54
is about this), and it is decoded to nothing else (`Faithful`; C54 again). `Readable` in addition says that it is
decoded to something. Proved: `Proofs/System*.lean` (what was sent is what was read plus what is under way, both ways;
each answer of the server has its cause in the history; a client hands an answer to the call whose number it has, and at
that moment the call is the only one with this number the server can have answered).

| Id | Result |
|---|---|
| C144 | Proved for conclusions, errors and confirmed beacons. |
| C145 | Proved in both directions. |
| C146 | Proved. |
| C147 | Violated: the server sends broadcasts with the number 0, which is also the number of the first message of the handshake. An event that addresses a client while it makes the handshake makes the handshake fail and stops the client (C42 seen from both sides). Partial: this is the only exception, provided the message that asks for the id is no beacon. |
| C148 | Proved. |
| C149 | Proved: `Framed`, `Faithful` and `Readable` hold for the codec generated from a protocol with the structs `Config::close` adds, if what user code sends has the type it is sent as (which the Rust compiler checks), round trips (C01, C03) and has less than 2^64 bytes. |
| C150 | Violated: a protocol may declare `InternalServiceGroup.HashRequest`; `add_service_struct` adds a second struct of the same name without looking. Partial: if nothing is declared in that group. `CodecOf` (Spec/SystemTexts.lean) says what generated code makes of the protocol; all of `CodecOk`, which C149 assumes, is proved from the texts. |
| C151 | Violated: of two actions with the same response the client reports the first one (as in C96, here for a whole run of client and server generated from two texts). Partial: if responses tell the conclusion. The error of a request needs no such condition. |
| C152 | Liveness, in the form "there is a way on": from every state of `System.run` in which the server runs, a continuation of `Regular` events (Spec/SystemLive.lean: arriving bytes, tasks going on, messages taken by the transport; no faults, no timeouts) leads to `Established`. Assumed: `Smooth` (transport and packing refuse nothing), `emit` of events does not panic, the service messages travel (`HeardRight`, `ReadRight`; C156 proves this for the generated codec). The proof executes the model symbolically (Proofs/SystemLive.lean, Proofs/SystemConnect.lean), with any confirmations of other clients waiting before the own one and any broadcasts of `connected` in between. |
| C153 | From every `Established` state, reached or not, one call goes up and its answer comes down; `Right` says what the result is, `Received` which broadcasts user code of the client got meanwhile. |
| C154 | Induction over the calls: `Established` and `Admitted` are kept by each one. |
| C155 | `Underway` describes bytes of broadcasts that are still under way to a client, whoever caused them and whenever they were packed; regular progress of one connection only appends to those of another one (`regular_aside`), and a resting client takes them all (`catches_up`). |
| C156 | C150 and C154 together; `Told` says that the result is what user code decided on. Requests without actions, requests whose responses do not tell the conclusion (C151 violated) and beacons with the name of a request are excluded in the statement. |
| C175 | `System.Settled`: no bytes under way, both tasks of the client run, their channels are empty, every open call and handshake waits, the last piece of data was read without error, the server never asked the transport to drop the client. All messages read: derived. `Client.Few` (no number used twice, one handshake) as in C39. A broadcast that comes while a handshake waits is handed to the handshake (C42); the handshake then fails and ends `client_messages_task` (`RustClientTold.lean`), so at quiet moments none was lost this way and the broadcasts are exact. A refused beacon leaves the call of the client open for ever: beacons have no timeout in the Rust client, see C174 for the server. |

## TypeScript clients of a Rust server

`README.md` says that a server in Rust and a client in TypeScript can be combined. `Model/Network.lean` composes any
server program with any number of client programs by a transport that keeps bytes of a connection in order (the same
assumptions as in `Model/System.lean`; a client has one connection). `Model/NetworkPrograms.lean` makes the four
generated programs such programs; what they send is read off their histories. `Proofs/NetworkInv.lean` proves once
for all programs that bytes under way and bytes that arrived are what was sent.

Assumed in the theorems: messages are frames with their number (`Framed`), fewer than 2^64 bytes arrive (`Small`),
messages are decoded to nothing but what they are (`Faithful`, with a relation `same` between values of both languages;
C143 and the codec theorems of both languages are about that).

| Property | How |
|---|---|
| C157 | From `Lawful` histories of the TypeScript client (C101–C110) and `Justified` ones of the Rust server (C144): the answer with a number is the answer to the message with this number. Needs `Distinct`: no answer is inside the service group or inside of another answer (a TypeScript client tests for nested properties, not for the type of a message). |
| C158 | `tsRust_up`, `tsRust_down` (what is looked at comes from what was sent), then the messages of the client are numbered upwards, so are the answers. |
| C159 | `ready` needs an answer to a hash after an answer to a self key; both are traced to the server, and the order follows from the growing numbers. |
| C160 | Disagreement: the client sends its self key as soon as the transport tells it of the connection, and the server drops clients whose bytes arrive before it has handled its own internal confirmation of the connection (C32). If the bytes are faster, the client waits forever (`C160_ts_client_gets_ready_violated`). `_partial`: there always is an order in which the handshake succeeds, whatever happened before. |
| C161 | `Proofs/NetworkTsConnect.lean`: a call is followed through client, server and client. Needs fewer than 2^32 messages of the client (`pack` throws beyond). |
| C162 | `overheard`: events elsewhere do not touch the client nor its connection but for bytes of broadcasts; then these are looked at one after another. |
| C174 | `RustQuiet`: no bytes under way, the client's queue is empty and none of its jobs waits, the server never asked the transport to drop the client. That server and client have read all messages is derived (`Heard.alive`, `pairs_of_all`). `Server.Treated` (`ServerTreated.lean`): what a Rust server does between a message it expects and the end of its turn; `Server.Unanswered` lists the ways to give no answer. With `Options::new` only beacons can stay open: if user code refuses a beacon or its confirmation cannot be sent, the server only reports an error, so the promise of the client stays open for ever. With `onError` `log` or `emitError` the same happens to requests whose answer cannot be packed or sent; with `identification` `emitError`, to all messages of unassigned clients. |

## TypeScript clients of a TypeScript server

The same composition with the program of `Model/TsServer.lean`. What the transport takes is arbitrary (`takes`). The
promises of user code settle in any order; these are events of the server (`.settled t x`). `TsFaithful` needs no
relation between values, since both sides have JavaScript values; `Proofs/NetworkTsServer.lean` is what C76–C99 give of
the server in this setting.

A Rust client cannot work with a TypeScript server: it starts the handshake only after a `ConnectConfirmationBeacon`
(`consumer/rust/render_consumer.rs` L527), which only the Rust server sends (`producer/rust/render_mod.rs` L811).
`README.md` does not claim this combination.

| Property | How |
|---|---|
| C163 | `Replies`: what is sent with a number other than 0 follows directly after the message with this number, or belongs to a handler that was started directly after it (`AllFine`, C81, C82). `Clear`: references of requests and answers are not inside of each other (both sides look for nested properties; otherwise a message may be taken for another one, C81). The answer was given by user code: `tsServer_decided`, from frames of all pieces of the server. |
| C164 | `tsTs_up`, `tsTs_down`; `reply_once`: two answers with one number would belong to one place in the history, so to one handler. |
| C165 | As C159. |
| C166 | `ts_connects`: the exchange of the handshake, step by step, from any reachable state (`TsAt`: state of the server, of one client, bytes under way). `TsSmooth`: transports and packing accept everything, user code throws nothing and discredits nobody when called. Unlike C160 there is no race: the server takes the self key at once. |
| C167 | `ts_round`: one call from a quiet moment to the next one. What user code decides on is a parameter (`TsDecides`: what the workflow allows). For a request of one action the generated code sends no broadcasts (C83). |
| C168 | `ts_elsewhere`: other events leave a quiet client as it is, apart from bytes sent to it; `ts_catches_up`: it looks at all of them. `ts_event`: the handler of an event. |
| C169 | `TsQuiet`: no bytes under way, queues of both readers empty, no job waits. That the buffers hold no message is derived (`pairs_of_all`): a reader that stopped has no complete frame, or one it throws on (`Stuck`), and the bytes are exactly the frames of what was sent. `TsServer.Treated`: what the server does directly after it looked at a message. `looked_after`: a client looks at an answer only after it sent the message, by induction over runs with `NetworkGrow` (what was sent stays sent). |

## Sequence diagrams

`Model/Puml.lean` gives the text of the diagram character by character; the command line model writes this text.
Evaluated on `examples/prot/protocol.prot` and `examples/prot/protocol-rs-rs.workflow` it gives, character by character,
the committed `examples/plantuml/plantuml.puml`.
`Spec/Puml.lean` reads a text line by line without blanks at both ends, and says which lines declarations ask for.

| Id | How |
|---|---|
| C170 | `request_template` and so on: what the replacements, one after the other, make of a template, if no name contains a bracket. `lines_followed`: `inject_tabs` leaves four blanks at the end of the line in front, which do not count. `render_lines`: the whole text. Names of declarations have no brackets, blanks or line ends; C74 shows that other texts are accepted whose conclusions do. `C170_readable`: lines determine what they say. |
| C171 | Violated: `get_err` and `get_response` fail for the short forms of requests, and then there is no diagram at all. Partial: drawn exactly if all requests declare answers. |
| C172 | Violated: a request with one answer is drawn without its broadcasts (the generated server does not send them either, C34). Partial: otherwise all messages are shown. |
| C173 | Violated: all broadcasts of events are dashed. Partial: exact for broadcasts of requests. Messages are also drawn to `Consumer` where they go to `Consumers`; nothing is claimed about this. |

## Values between languages: C176, C177

C157–C164 and C174 assume that what one side packs the other side decodes to the same (`Faithful`, `Readable`, `Framed`).
`Model/NetworkCodec.lean` puts the generated codecs there: the TypeScript one (`Model/TsCodec.lean`) for clients and
TypeScript server, the Rust one for the Rust server. TypeScript code names fields and options, so declarations carry
names (`Ts.NFields`, `Ts.NVariants`); `showOne` is the object that decoding makes, `readOne` the value that packing takes
from an object. `Spec/NetworkCodec.lean` says by itself, without these functions, when an object stands for a value
(`Looks`: an array is an object with positions, an absent optional field is an absent property, an enum is an object with
one property).

| Property | How |
|---|---|
| C176 | `NamedOk`: names of declarations, of fields in a struct and of options in an enum are different; the structs `Config::close` adds are declared under their names; the key, hashes and ids are such that both languages transport them exactly. Each is needed: see C02, C03, C18, C19 for values. `TsRustTyped`: what user code sent so far has its declared type. From these `C176_codecs_faithful` derives all codec hypotheses of C157 and C174, and the other theorems restate C157 with values of user code on both sides. |
| C177 | The same for TypeScript on both sides; objects on both sides are equal, not only alike. |

The witness (`dockRun`, `dockTsRun`) sends a struct with a number, an array of texts and an optional enum.
Simplification: an object that does not have the declared type is not sent (it throws in the code, C140).

## Which pairs connect: C178

| Property | How |
|---|---|
| C178 | **Violated** for a Rust client of a TypeScript server. The Rust client starts its handshake only when it looks at `ConnectConfirmationBeacon` (`render_consumer.rs`); the TypeScript server declares this message and never sends it. `C178_every_pair_connects_violated` is about all runs of all such programs: no handshake is started, user code is never told that the client connected, all the client sends are messages of calls without id, the server runs no user code for them, and every call that ends does so with an error. Hypotheses: messages come as the kind they were sent as (`RustTsFaithful`), less than 2^64 bytes. `C178_generated_pair_violated` derives these from the generated codecs. The README names the three other pairs only; it does not say that this one is impossible, and the generator takes it. |
| C178, rest | `C178_ts_pair_connects_partial` and `C178_rust_pair_connects_partial` are what C166 and C152 say of pairs of one language. TypeScript clients of a Rust server: C160, if the server is quick enough. |

## From texts to programs in two languages: C179

| Property | How |
|---|---|
| C179 | `C179_texts_to_codecs_partial`: from accepted texts, with different names (`NamesApart`), nothing declared in `InternalServiceGroup`, and types that the generators support, both codecs exist (`Network.CodecOf`), the TypeScript file means the same protocol as the Rust one (C136), and with less than 256 ids all that C176 and C177 require of codecs (`NamedOk`) holds. So those are no longer hypotheses about a codec but follow from the texts. `C179_request_end_to_end_partial` is what C176 says of requests, for texts. |
| C179, disagreement | **Violated** for large protocols. TypeScript code reads one byte of the id of a field (`_getId`, see C19), so it finds no field with an id from 256 on. Service messages get the ids after those of the protocol. `C179_large_never_ready`: with 254 ids or more in the protocol, whatever the workflow, no TypeScript client ever gets ready: it cannot decode `SelfKeyResponse`. `C179_large_protocol_violated` gives texts: one struct with 251 fields that the workflow does not even use. |

## From texts to answers in two languages: C180 and C181

Both put C179 (texts give codecs that are right) under the liveness theorems. What is assumed of codecs there (`Read`,
`Heard`: service messages are read as what was written) is derived here from the texts. Witnesses: the texts of C150, a
history in which another client is half way through its authorization, and two requests of a new client.

| Property | How |
|---|---|
| C180 | `C180_texts_to_answers_partial`: C166 and C167 for texts. The hypotheses left are about texts (accepted, `NamesApart`, less than 256 ids), about user code (`TsDecided`: it settles with values of the declared types), and about the host (`TsSmooth`). |
| C181 | `C181_texts_to_answers_partial`: C160 and C161 for texts, the same with a Rust server. `RustUserCode` says that user code decides and sends values of the declared types. |
| C180, C181, disagreement | **Violated** for large protocols (`C179_large_never_ready`). With a Rust server it is also not so in every order of events: a self key that arrives before the confirmation has the client disconnected (`C160_ts_client_gets_ready_violated` in the row of C160). |

## From texts to programs that lose nothing: C182

C180 and C181 say that there is an order of events in which calls return. C182 is about every order, at moments in which
nothing is under way. It puts C179 and C150 (texts give right codecs) under C169, C174 and C175. Witnesses: the
protocol of C150 with a workflow that has a request, an event with a broadcast and a beacon (`marketText`).

| Property | How |
|---|---|
| C182, TypeScript client and Rust server | `C182_ts_rust_requests_end_partial` (C174, C176): all requests have ended, and resolved ones have the value that user code decided on. `C182_ts_rust_broadcasts_partial`. |
| C182, TypeScript on both sides | `C182_ts_ts_accounted_for_partial` (C169, C177): a call has ended, or its handler was called and the transport took no answer. `C182_ts_ts_broadcasts_partial`. |
| C182, Rust on both sides | `C182_rust_rust_partial` (C175, C149), for any number of ids. |
| C182, disagreement | **Violated** for beacons: `C182_beacons_end_violated`. User code of the Rust server refuses a beacon; the server reports an error to its own user code only, and the promise of the client stays open (C174, C175). |
| C182, partial | TypeScript needs less than 256 ids (C179); `NoServices` is needed since `C150_texts_to_codec_violated`. |

## A TypeScript client gets ready: C183

C166 says that there is an order of events in which the client gets ready. C183 is about every order: in a moment in which
nothing is under way (`TsQuiet`, as in C169), a client that was connected once is ready if and only if the hashes agree.

| Property | How |
|---|---|
| C183 | `C183_ready_when_quiet`. One direction is C165. For the other one, `Shaken` (Proofs/TsClientShaken.lean) is an invariant of the client: a handshake is given up only if one of the two answers was not the one it needs, or the numbers are used up, and one that succeeds raises `ready`. Proofs/NetworkTsTsShake.lean shows that the server answers the self key directly after it looked at it (the client sends hashes only after that answer, so the server has not accepted hashes before: `no_hash_yet`), that it answers the hashes, and that what the client got are these answers. |
| C183, assumptions | `TsShakes`: both sides can pack and send the messages of the handshake, the id is not blank, the self key is not in the service group. `TsOnce`: one connection, less than 2^32 numbers used, user code sent no message of the service group. `TsKeys`: self keys are decoded to objects, as structs are. |
| C183, witness | `wharfMixed`: two clients, bytes in pieces, user code calls `assign` itself and that answer is looked at first. |

## A TypeScript client of a Rust server gets ready unless it is dropped: C184

| Property | How |
|---|---|
| C184 | `C184_ready_when_quiet`. The part of the client is the one of C183. For the server, `Server.Shaken` (Proofs/ServerShaken.lean) is an invariant: directly after the server looked at a self key of a client whose hashes it has not accepted it answers the key, directly after it looked at hashes it answers them, and if they are wrong it drops the client after that. So a client that was never dropped has the right hashes; that is part of the claim. Numbers are used once (`rustGot_once`), so the answers the client got are these. |
| C184, assumptions | `RustShakes`: both sides can pack and send the messages of the handshake, the id is not blank. `JoinedOnce`: one connection, less than 2^32 numbers used. |
| C184, the condition | `C184_dropped_clients_not_ready`: that the server never asked to drop the client is needed. The client sends its self key as soon as it is connected; if the server gets it before it confirmed the connection, it asks to drop the client (C160), and a client with the right hashes is not ready although nothing is under way. |
| C184, witness | `quayMixed`: two clients, bytes in pieces, user code calls `assign` itself and that answer is looked at first. |

## From texts to TypeScript clients that get ready: C185

| Property | How |
|---|---|
| C185, Rust server | `C185_ts_rust_ready_partial`: C184 with the codecs of C176, which C179 gets from accepted texts. |
| C185, TypeScript server | `C185_ts_ts_ready_partial`: C183 with the codecs of C177. That self keys are objects (`TsKeys` of C183) is not assumed: the generated `getMessage` makes nothing else (`decoded_object`, `ts_keys`). |
| C185, disagreement | **Violated** with 254 ids or more: no TypeScript client ever gets ready (`C179_large_never_ready`). And a Rust server drops clients that are fast (C160, C184). |
| C185, partial | Less than 256 ids, no declarations in the service group, answers of requests not in that group. |
| C185, witnesses | `marketRun` and `marketTsRun` of C182. |

## Bytes of other origin: C186 to C188

Nothing new is modelled; the decoders are those of C01 and C18. Spec/SameBytes.lean says what bytes stand for.

| Property | How |
|---|---|
| C186 | `C186_sizes_partial` says exactly from which bytes either language reads a number or a boolean. |
| C186, disagreement | **Violated**: `C186_sizes_violated`. Rust checks `buf.len() < size` only and ignores further bytes of a record; TypeScript refuses such records. TypeScript reads a boolean from any byte (only 1 is true), Rust too (all but 0 are true). |
| C187 | `C187_same_bytes_partial`: bytes that are complete records, in any order, repeated, with any width of lengths, or unknown. If TypeScript accepts them, Rust does, with the same value. By induction on the declarations. |
| C187, disagreement | **Violated**: `C187_same_bytes_violated`. Both languages accept a boolean with the byte 2; Rust says true and TypeScript says false. |
| C187, partial | `C187_both_accepted_partial` and `C187_enums_accepted_partial`: all declarations and all bytes, where booleans are 0 or 1, ids are below 256 and there are no byte order marks. What Rust accepts is made of complete records and items, so nothing else is asked. `C187_same_bytes_partial` does not ask that Rust accepts, but that records, items and options are complete. |
| C188 | `C188_both_accept_partial`: for clean records where numbers and booleans have their exact size, TypeScript accepts a message exactly if Rust does, with the same value. `C188_enums_partial` says the same of messages that are enums. |
| C188, disagreement | **Violated**: `C188_both_accept_violated`. Rust accepts a number with a further byte and TypeScript does not; TypeScript accepts an enum whose option is the empty string and Rust does not. |
| C188, partial | As C187; also no arrays of enums and no options with enums or arrays of structs, which TypeScript cannot decode (C136). |

<!-- MORE -->

SHA-256 collision freedom and timing are not expressible and are not claimed.
