{
 "claims": [
  {
   "property": "C01",
   "status": "proved",
   "theorems": [
    "Verif.Props.C01_rust_round_trip",
    "Verif.Props.C01_rust_seen"
   ],
   "note": "All schemas and clean values. C01_rust_seen states what is received for every sendable value."
  },
  {
   "property": "C02",
   "status": "partial",
   "theorems": [
    "Verif.Props.C02_violated",
    "Verif.Props.C02_optional_presence_partial",
    "Verif.Props.C02_unset_stays_unset"
   ],
   "note": "The code violates the property: Some(\"\") arrives as None. Proved for optionals with content, and for absent optionals."
  },
  {
   "property": "C03",
   "status": "partial",
   "theorems": [
    "Verif.Props.C03_violated",
    "Verif.Props.C03_enum_round_trip_partial",
    "Verif.Props.C03_empty_payload_is_error"
   ],
   "note": "The code violates the property: a variant with an empty payload cannot be decoded. Proved for payloads with content; empty payloads are always an error."
  },
  {
   "property": "C04",
   "status": "proved",
   "theorems": [
    "Verif.Props.C04_rust_encoding_injective"
   ],
   "note": ""
  },
  {
   "property": "C05",
   "status": "proved",
   "theorems": [
    "Verif.Props.C05_rust_order_and_unknown"
   ],
   "note": ""
  },
  {
   "property": "C06",
   "status": "proved",
   "theorems": [
    "Verif.Props.C06_rust_missing_property",
    "Verif.Props.C06_rust_removed_property"
   ],
   "note": "Decoding never succeeds when a record is missing."
  },
  {
   "property": "C07",
   "status": "partial",
   "theorems": [
    "Verif.Props.C07_rust_truncated_partial",
    "Verif.Props.C07_violated_for_enums"
   ],
   "note": "Proved for message structs. Violated for messages that are enums: a cut string payload decodes."
  },
  {
   "property": "C08",
   "status": "partial",
   "theorems": [
    "Verif.Props.C08_violated",
    "Verif.Props.C08_rust_framed_no_panic_partial",
    "Verif.Props.C08_rust_flat_exact"
   ],
   "note": "The code violates the property: the body [0] panics. Proved for bodies made of complete records."
  },
  {
   "property": "C09",
   "status": "proved",
   "theorems": [
    "Verif.Props.C09_rust_frame_round_trip"
   ],
   "note": ""
  },
  {
   "property": "C10",
   "status": "proved",
   "theorems": [
    "Verif.Props.C10_rust_chunking"
   ],
   "note": "Any interleaving of feeding and fetching."
  },
  {
   "property": "C100",
   "status": "proved",
   "theorems": [
    "Verif.Props.C100_no_call_waits_for_ever"
   ],
   "note": "For every run without dropped calls; the call returns the next time it is polled."
  },
  {
   "property": "C101",
   "status": "proved",
   "theorems": [
    "Verif.Props.C101_parts_end_together"
   ],
   "note": "From every reachable state in which the reading task is idle; it gets idle when it has handled its messages."
  },
  {
   "property": "C102",
   "status": "proved",
   "theorems": [
    "Verif.Props.C102_messages_in_order"
   ],
   "note": "For every run."
  },
  {
   "property": "C103",
   "status": "proved",
   "theorems": [
    "Verif.Props.C103_ready_after_handshake",
    "Verif.Props.C103_events_once",
    "Verif.Props.C103_handshake_goes_on"
   ],
   "note": "For every run."
  },
  {
   "property": "C104",
   "status": "proved",
   "theorems": [
    "Verif.Props.C104_numbers"
   ],
   "note": "For every run."
  },
  {
   "property": "C105",
   "status": "partial",
   "theorems": [
    "Verif.Props.C105_conclusion_reported_violated",
    "Verif.Props.C105_conclusion_reported_partial"
   ],
   "note": "Violated for two actions with the same response, which the parser accepts. Proved when no other action finds its response in the message."
  },
  {
   "property": "C106",
   "status": "partial",
   "theorems": [
    "Verif.Props.C106_own_handler_violated",
    "Verif.Props.C106_own_handler_partial"
   ],
   "note": "Violated for a conclusion called Err, which the parser accepts. Proved when the names differ in lower case and none is err."
  },
  {
   "property": "C107",
   "status": "partial",
   "theorems": [
    "Verif.Props.C107_object_reusable_violated",
    "Verif.Props.C107_object_reusable_partial"
   ],
   "note": "Violated after a message that could not be sent. Proved when no call of the object ended this way."
  },
  {
   "property": "C108",
   "status": "partial",
   "theorems": [
    "Verif.Props.C108_no_call_waits_for_ever_violated",
    "Verif.Props.C108_no_call_waits_for_ever_partial"
   ],
   "note": "Violated: the loss of the connection settles no call. Proved: every call has ended, waits for its answer, or is ended by a job."
  },
  {
   "property": "C109",
   "status": "partial",
   "theorems": [
    "Verif.Props.C109_clean_start_violated",
    "Verif.Props.C109_clean_start_partial"
   ],
   "note": "Violated: the beginning of a frame is kept over a loss of the connection. Proved when only complete frames came before."
  },
  {
   "property": "C11",
   "status": "proved",
   "theorems": [
    "Verif.Props.C11_rust_prefix"
   ],
   "note": ""
  },
  {
   "property": "C110",
   "status": "proved",
   "theorems": [
    "Verif.Props.C110_id_of_this_connection"
   ],
   "note": "For every run in which no job is left when a connection is lost."
  },
  {
   "property": "C111",
   "status": "partial",
   "theorems": [
    "Verif.Props.C111_failed_handshake_reported_violated",
    "Verif.Props.C111_failed_handshake_reported_partial"
   ],
   "note": "Violated: no event is raised. Proved: ready is not raised."
  },
  {
   "property": "C112",
   "status": "proved",
   "theorems": [
    "Verif.Props.C112_destroyed_is_mute"
   ],
   "note": "For every run."
  },
  {
   "property": "C113",
   "status": "partial",
   "theorems": [
    "Verif.Props.C113_user_files_kept_violated",
    "Verif.Props.C113_user_files_kept_partial",
    "Verif.Props.C113_user_files_kept_typescript"
   ],
   "note": "Violated for a Rust mod.rs (request Mod); proved for every other file."
  },
  {
   "property": "C114",
   "status": "proved",
   "theorems": [
    "Verif.Props.C114_regeneration_changes_nothing"
   ],
   "note": "Files and manifests, also for failing runs."
  },
  {
   "property": "C115",
   "status": "proved",
   "theorems": [
    "Verif.Props.C115_module_lists_complete",
    "Verif.Props.C115_export_lists_complete"
   ],
   "note": "All lists of the Rust and TypeScript generators."
  },
  {
   "property": "C116",
   "status": "partial",
   "theorems": [
    "Verif.Props.C116_names_once_violated",
    "Verif.Props.C116_names_once_partial"
   ],
   "note": "Violated for colliding names; proved for others."
  },
  {
   "property": "C117",
   "status": "partial",
   "theorems": [
    "Verif.Props.C117_module_names_legal_violated",
    "Verif.Props.C117_module_names_legal_partial"
   ],
   "note": "Violated for keywords; proved for other names."
  },
  {
   "property": "C118",
   "status": "partial",
   "theorems": [
    "Verif.Props.C118_separate_files_violated",
    "Verif.Props.C118_separate_files_partial"
   ],
   "note": "Violated if client and server share a folder; proved for folders outside each other."
  },
  {
   "property": "C119",
   "status": "proved",
   "theorems": [
    "Verif.Props.C119_dependencies_added"
   ],
   "note": "For manifests that are tables whose dependencies, if there, are a table."
  },
  {
   "property": "C12",
   "status": "proved",
   "theorems": [
    "Verif.Props.C12_rust_foreign_signature",
    "Verif.Props.C12_rust_never_delivered"
   ],
   "note": ""
  },
  {
   "property": "C120",
   "status": "partial",
   "theorems": [
    "Verif.Props.C120_requirements_met_violated",
    "Verif.Props.C120_requirements_met_partial",
    "Verif.Props.C120_requirements_met_typescript"
   ],
   "note": "Violated for a Rust client and server sharing a Cargo.toml; proved: some generator's version is required; proved for TypeScript."
  },
  {
   "property": "C121",
   "status": "partial",
   "theorems": [
    "Verif.Props.C121_failed_generation_violated",
    "Verif.Props.C121_failed_generation_partial"
   ],
   "note": "Violated: the manifest is looked for last; proved for missing destinations."
  },
  {
   "property": "C122",
   "status": "proved",
   "theorems": [
    "Verif.Props.C122_imports_found"
   ],
   "note": "TypeScript imports and Rust mod lines."
  },
  {
   "property": "C123",
   "status": "proved",
   "theorems": [
    "Verif.Props.C123_export_names_legal"
   ],
   "note": "All lists of exported handlers."
  },
  {
   "property": "C124",
   "status": "partial",
   "theorems": [
    "Verif.Props.C124_protocol_names_violated",
    "Verif.Props.C124_protocol_names_partial"
   ],
   "note": "Violated for keywords; all other accepted names are legal."
  },
  {
   "property": "C125",
   "status": "partial",
   "theorems": [
    "Verif.Props.C125_rejected_unchanged_violated",
    "Verif.Props.C125_rejected_unchanged_partial"
   ],
   "note": "Violated for folders; no file changes."
  },
  {
   "property": "C126",
   "status": "partial",
   "theorems": [
    "Verif.Props.C126_help_only_violated",
    "Verif.Props.C126_help_only_partial"
   ],
   "note": "Violated; no file changes without a source."
  },
  {
   "property": "C127",
   "status": "partial",
   "theorems": [
    "Verif.Props.C127_outputs_written_violated",
    "Verif.Props.C127_outputs_written_partial"
   ],
   "note": "Violated for lone keys, diagrams with folders, outputs with one name and -h; otherwise every output is there."
  },
  {
   "property": "C128",
   "status": "proved",
   "theorems": [
    "Verif.Props.C128_order_irrelevant"
   ],
   "note": "For lists without repeated options and without keys as values."
  },
  {
   "property": "C129",
   "status": "proved",
   "theorems": [
    "Verif.Props.C129_only_destinations"
   ],
   "note": "All files and manifests, every ending."
  },
  {
   "property": "C13",
   "status": "partial",
   "theorems": [
    "Verif.Props.C13_violated",
    "Verif.Props.C13_rust_after_bad_frame_partial"
   ],
   "note": "The code violates the property: frames behind a bad one wait for the next call of chunk. Proved: one more call, even with no bytes, delivers them."
  },
  {
   "property": "C130",
   "status": "partial",
   "theorems": [
    "Verif.Props.C130_sources_kept_violated",
    "Verif.Props.C130_sources_kept_partial"
   ],
   "note": "Violated if a source is an output with -o or lies in a folder for workflow code."
  },
  {
   "property": "C131",
   "status": "proved",
   "theorems": [
    "Verif.Props.C131_second_run"
   ],
   "note": "Any state of the rest of the system."
  },
  {
   "property": "C132",
   "status": "partial",
   "theorems": [
    "Verif.Props.C132_every_call_ends_violated",
    "Verif.Props.C132_every_call_ends_partial"
   ],
   "note": "Violated for workflows that end with a word; otherwise the call ends; the outcome is unique always."
  },
  {
   "property": "C133",
   "status": "proved",
   "theorems": [
    "Verif.Props.C133_rejected_for_a_reason"
   ],
   "note": "If no value is a key."
  },
  {
   "property": "C134",
   "status": "proved",
   "theorems": [
    "Verif.Props.C134_paths_resolved"
   ],
   "note": "Against an independent description of paths."
  },
  {
   "property": "C135",
   "status": "proved",
   "theorems": [
    "Verif.Props.C135_nothing_wrong_succeeds"
   ],
   "note": "Without workflow, with a diagram, and with code of a workflow."
  },
  {
   "property": "C136",
   "status": "partial",
   "theorems": [
    "Verif.Props.C136_same_protocol_partial",
    "Verif.Props.C136_enum_name_violated",
    "Verif.Props.C136_repeated_enum_violated",
    "Verif.Props.C136_repeated_option_violated",
    "Verif.Props.C136_nested_enum_violated"
   ],
   "note": "The code violates the property: enums are printed by their bare name; repeated enums and repeated or enum options are not supported. Proved otherwise."
  },
  {
   "property": "C137",
   "status": "partial",
   "theorems": [
    "Verif.Props.C137_load_order_partial",
    "Verif.Props.C137_defined_later",
    "Verif.Props.C137_load_order_violated"
   ],
   "note": "The code violates the property: classes of groups come last. Proved if no struct needs a struct from a group inside its own."
  },
  {
   "property": "C138",
   "status": "proved",
   "theorems": [
    "Verif.Props.C138_dispatch",
    "Verif.Props.C138_classes"
   ],
   "note": "For protocols both generators support."
  },
  {
   "property": "C139",
   "status": "proved",
   "theorems": [
    "Verif.Props.C139_text_to_cross_language"
   ],
   "note": "Under the conditions of C136, field ids below 256 and values both languages transport exactly (C02, C03, C18)."
  },
  {
   "property": "C14",
   "status": "partial",
   "theorems": [
    "Verif.Props.C14_violated",
    "Verif.Props.C14_rust_reader_panic_partial"
   ],
   "note": "The code violates the property: a header with length 2^64-1 panics. Proved: lengths of at least 2^64-26 and panicking body decoders are the only causes."
  },
  {
   "property": "C140",
   "status": "partial",
   "theorems": [
    "Verif.Props.C140_fitting_accepted_partial",
    "Verif.Props.C140_reaches_rust_partial",
    "Verif.Props.C140_one_meaning",
    "Verif.Props.C140_large_violated",
    "Verif.Props.C140_nan_violated",
    "Verif.Props.C140_extra_key_violated"
   ],
   "note": "The code violates the property for 64-bit integers from 2^53 on, NaN and infinities, and enum objects with two keys. Proved otherwise."
  },
  {
   "property": "C141",
   "status": "partial",
   "theorems": [
    "Verif.Props.C141_accepted_is_sent_partial",
    "Verif.Props.C141_accepted_iff_partial",
    "Verif.Props.C141_fraction_violated",
    "Verif.Props.C141_holes_violated",
    "Verif.Props.C141_changed_instance_violated",
    "Verif.Props.C140_extra_key_violated"
   ],
   "note": "The code violates the property for fractions, sparse arrays, enum objects with two keys and changed nested instances. Proved otherwise."
  },
  {
   "property": "C142",
   "status": "partial",
   "theorems": [
    "Verif.Props.C142_struct_answers_partial",
    "Verif.Props.C142_enum_fitting_partial",
    "Verif.Props.C142_enum_throws_violated",
    "Verif.Props.C142_enum_unchecked_violated"
   ],
   "note": "The code violates the property for enum messages. Proved for structs, and for enum objects that fit."
  },
  {
   "property": "C143",
   "status": "partial",
   "theorems": [
    "Verif.Props.C143_undeclared_ignored_partial",
    "Verif.Props.C143_enum_key_violated"
   ],
   "note": "The code violates the property inside enum objects. Proved for the properties of a message."
  },
  {
   "property": "C144",
   "status": "proved",
   "theorems": [
    "Verif.Props.C144_result_from_server",
    "Verif.Props.C144_beacon_from_server"
   ],
   "note": ""
  },
  {
   "property": "C145",
   "status": "proved",
   "theorems": [
    "Verif.Props.C145_calls_in_order",
    "Verif.Props.C145_answers_in_order"
   ],
   "note": ""
  },
  {
   "property": "C146",
   "status": "proved",
   "theorems": [
    "Verif.Props.C146_handshake_with_server"
   ],
   "note": ""
  },
  {
   "property": "C147",
   "status": "partial",
   "theorems": [
    "Verif.Props.C147_handshake_succeeds_partial",
    "Verif.Props.C147_handshake_succeeds_violated"
   ],
   "note": "The code violates the property if a broadcast is sent to the client during the handshake. Proved otherwise."
  },
  {
   "property": "C148",
   "status": "proved",
   "theorems": [
    "Verif.Props.C148_broadcasts_from_server"
   ],
   "note": ""
  },
  {
   "property": "C149",
   "status": "proved",
   "theorems": [
    "Verif.Props.C149_codec_faithful",
    "Verif.Props.C149_values_unchanged",
    "Verif.Props.C149_request_end_to_end"
   ],
   "note": "For values that round trip (C01, C03)."
  },
  {
   "property": "C15",
   "status": "proved",
   "theorems": [
    "Verif.Props.C15_ts_chunking"
   ],
   "note": "Every run over any chunking of good frames exists, is unique, reports no error and delivers exactly the messages."
  },
  {
   "property": "C150",
   "status": "partial",
   "theorems": [
    "Verif.Props.C150_texts_to_codec_violated",
    "Verif.Props.C150_texts_to_codec_partial"
   ],
   "note": "Partial: nothing is declared in the group InternalServiceGroup."
  },
  {
   "property": "C151",
   "status": "partial",
   "theorems": [
    "Verif.Props.C151_results_decided_violated",
    "Verif.Props.C151_results_decided_partial",
    "Verif.Props.C151_texts_to_results_partial"
   ],
   "note": "Partial: responses tell the conclusion."
  },
  {
   "property": "C152",
   "status": "proved",
   "theorems": [
    "Verif.Props.C152_can_connect",
    "Verif.Props.C152_can_be_assigned"
   ],
   "note": "There is always a way on; that the scheduler takes it is not claimed."
  },
  {
   "property": "C153",
   "status": "proved",
   "theorems": [
    "Verif.Props.C153_call_returns"
   ],
   "note": "There is always a way on; that the scheduler takes it is not claimed."
  },
  {
   "property": "C154",
   "status": "proved",
   "theorems": [
    "Verif.Props.C154_calls_return"
   ],
   "note": ""
  },
  {
   "property": "C155",
   "status": "proved",
   "theorems": [
    "Verif.Props.C155_event_received",
    "Verif.Props.C155_others_receive"
   ],
   "note": ""
  },
  {
   "property": "C156",
   "status": "proved",
   "theorems": [
    "Verif.Props.C156_texts_to_answers"
   ],
   "note": "Statement excludes ambiguous requests (C151) and declarations in InternalServiceGroup (C150)."
  },
  {
   "property": "C157",
   "status": "proved",
   "theorems": [
    "Verif.Props.C157_result_from_server",
    "Verif.Props.C157_handler_from_server",
    "Verif.Props.C157_beacon_from_server"
   ],
   "note": "Answers not in the service group and not inside of each other (Distinct, Outside)."
  },
  {
   "property": "C158",
   "status": "proved",
   "theorems": [
    "Verif.Props.C158_calls_in_order",
    "Verif.Props.C158_answers_in_order",
    "Verif.Props.C158_one_answer",
    "Verif.Props.C158_broadcasts_from_server"
   ],
   "note": ""
  },
  {
   "property": "C159",
   "status": "proved",
   "theorems": [
    "Verif.Props.C159_handshake_with_server"
   ],
   "note": ""
  },
  {
   "property": "C16",
   "status": "partial",
   "theorems": [
    "Verif.Props.C16_violated",
    "Verif.Props.C16_ts_returns_partial"
   ],
   "note": "The code violates it: a complete frame with a foreign signature makes chunk loop for ever. Partial: exact condition for the call to end."
  },
  {
   "property": "C160",
   "status": "partial",
   "theorems": [
    "Verif.Props.C160_ts_client_gets_ready_violated",
    "Verif.Props.C160_ts_client_gets_ready_partial",
    "Verif.Props.C160_ts_client_can_be_assigned"
   ],
   "note": "Violated: if the self key of the client is faster than the internal confirmation in the server, the client is dropped and waits forever. Proved: there is always an order in which it gets ready."
  },
  {
   "property": "C161",
   "status": "proved",
   "theorems": [
    "Verif.Props.C161_ts_call_returns",
    "Verif.Props.C161_ts_calls_return"
   ],
   "note": "The client has numbers of 32 bits left; user code of the server decides and does not fail."
  },
  {
   "property": "C162",
   "status": "proved",
   "theorems": [
    "Verif.Props.C162_ts_client_hears",
    "Verif.Props.C162_ts_others_hear",
    "Verif.Props.C162_ts_event_heard"
   ],
   "note": ""
  },
  {
   "property": "C163",
   "status": "proved",
   "theorems": [
    "Verif.Props.C163_result_from_server",
    "Verif.Props.C163_handler_from_server",
    "Verif.Props.C163_beacon_from_server"
   ],
   "note": "References not in the service group and not inside of each other (Clear, TsOutside, Apart)."
  },
  {
   "property": "C164",
   "status": "proved",
   "theorems": [
    "Verif.Props.C164_calls_in_order",
    "Verif.Props.C164_answers_in_order",
    "Verif.Props.C164_one_answer",
    "Verif.Props.C164_broadcasts_from_server"
   ],
   "note": ""
  },
  {
   "property": "C165",
   "status": "proved",
   "theorems": [
    "Verif.Props.C165_handshake_with_server"
   ],
   "note": "Answers of requests are not in the service group (TsOutside)."
  },
  {
   "property": "C166",
   "status": "proved",
   "theorems": [
    "Verif.Props.C166_ts_ts_client_gets_ready"
   ],
   "note": "The messages of the handshake can be decoded on the other side; the id is not blank; the self key is not in the service group."
  },
  {
   "property": "C167",
   "status": "proved",
   "theorems": [
    "Verif.Props.C167_ts_ts_call_returns",
    "Verif.Props.C167_ts_ts_calls_return"
   ],
   "note": "As long as the client has numbers for its messages."
  },
  {
   "property": "C168",
   "status": "proved",
   "theorems": [
    "Verif.Props.C168_ts_ts_client_hears",
    "Verif.Props.C168_ts_ts_others_hear",
    "Verif.Props.C168_ts_ts_event_heard"
   ],
   "note": ""
  },
  {
   "property": "C169",
   "status": "proved",
   "theorems": [
    "Verif.Props.C169_all_looked_at",
    "Verif.Props.C169_call_accounted_for",
    "Verif.Props.C169_all_broadcasts"
   ],
   "note": "Messages are frames, can be decoded on the other side, and mean there what was sent."
  },
  {
   "property": "C17",
   "status": "partial",
   "theorems": [
    "Verif.Props.C17_violated",
    "Verif.Props.C17_ts_undecodable_partial"
   ],
   "note": "The code violates it: getMessage throws for an unknown id and the frame stays at the front. Partial: frames rejected with an error value are skipped."
  },
  {
   "property": "C170",
   "status": "proved",
   "theorems": [
    "Verif.Props.C170_diagram",
    "Verif.Props.C170_readable"
   ],
   "note": "For texts in the forms of the language (C70)."
  },
  {
   "property": "C171",
   "status": "partial",
   "theorems": [
    "Verif.Props.C171_drawn_violated",
    "Verif.Props.C171_drawn_partial"
   ],
   "note": "Violated by requests without answers; drawn exactly if there are none."
  },
  {
   "property": "C172",
   "status": "partial",
   "theorems": [
    "Verif.Props.C172_all_shown_violated",
    "Verif.Props.C172_all_shown_partial"
   ],
   "note": "Violated for broadcasts of requests with a single answer; proved for everything else."
  },
  {
   "property": "C173",
   "status": "partial",
   "theorems": [
    "Verif.Props.C173_optional_violated",
    "Verif.Props.C173_optional_partial"
   ],
   "note": "Violated for events; proved for requests."
  },
  {
   "property": "C174",
   "status": "proved",
   "theorems": [
    "Verif.Props.C174_all_looked_at",
    "Verif.Props.C174_call_accounted_for",
    "Verif.Props.C174_requests_end",
    "Verif.Props.C174_all_broadcasts"
   ],
   "note": "Messages are frames, can be decoded on the other side, and mean there what was sent."
  },
  {
   "property": "C175",
   "status": "proved",
   "theorems": [
    "Verif.Props.C175_all_looked_at",
    "Verif.Props.C175_call_accounted_for",
    "Verif.Props.C175_requests_end",
    "Verif.Props.C175_all_broadcasts"
   ],
   "note": "Messages are frames, can be decoded on the other side, and mean there what was sent; no number is used twice."
  },
  {
   "property": "C176",
   "status": "proved",
   "theorems": [
    "Verif.Props.C176_codecs_faithful",
    "Verif.Props.C176_one_message",
    "Verif.Props.C176_request_end_to_end",
    "Verif.Props.C176_values_unchanged"
   ],
   "note": "Values are ones for which transport is exact in both languages (C02, C03, C18, C19); names are different."
  },
  {
   "property": "C177",
   "status": "proved",
   "theorems": [
    "Verif.Props.C177_codec_faithful",
    "Verif.Props.C177_request_end_to_end",
    "Verif.Props.C177_values_unchanged"
   ],
   "note": "Values are ones for which TypeScript transport is exact (C56); names are different."
  },
  {
   "property": "C178",
   "status": "partial",
   "theorems": [
    "Verif.Props.C178_every_pair_connects_violated",
    "Verif.Props.C178_generated_pair_violated",
    "Verif.Props.C178_ts_pair_connects_partial",
    "Verif.Props.C178_rust_pair_connects_partial"
   ],
   "note": "Violated: no Rust client ever gets ready with a TypeScript server, since this server sends no confirmation of connections. It holds for pairs of one language."
  },
  {
   "property": "C179",
   "status": "partial",
   "theorems": [
    "Verif.Props.C179_texts_to_codecs_partial",
    "Verif.Props.C179_request_end_to_end_partial",
    "Verif.Props.C179_large_never_ready",
    "Verif.Props.C179_large_protocol_violated"
   ],
   "note": "Violated: with 254 ids or more in the protocol no TypeScript client ever gets ready. It holds with less than 256 ids in all."
  },
  {
   "property": "C18",
   "status": "partial",
   "theorems": [
    "Verif.Props.C18_violated",
    "Verif.Props.C18_same_bytes",
    "Verif.Props.C18_same_bytes_enum",
    "Verif.Props.C18_wire_partial",
    "Verif.Props.C18_wire_enum_partial"
   ],
   "note": "Violated: TextDecoder removes a leading byte order mark. Both encoders produce the same bytes; each language decodes what the other encoded for all values without a leading byte order mark and without the losses of C02/C03."
  },
  {
   "property": "C180",
   "status": "partial",
   "theorems": [
    "Verif.Props.C180_texts_to_answers_partial",
    "Verif.Props.C179_large_never_ready",
    "Verif.Props.C179_large_protocol_violated"
   ],
   "note": "Violated: with 254 ids or more in the protocol no TypeScript client ever gets ready. It holds with less than 256 ids in all and names that are different."
  },
  {
   "property": "C181",
   "status": "partial",
   "theorems": [
    "Verif.Props.C181_texts_to_answers_partial",
    "Verif.Props.C179_large_never_ready",
    "Verif.Props.C179_large_protocol_violated",
    "Verif.Props.C160_ts_client_gets_ready_violated"
   ],
   "note": "Violated: with 254 ids or more in the protocol no TypeScript client ever gets ready, and a Rust server disconnects clients whose self key arrives before the confirmation (C160). It holds with less than 256 ids in some order of events."
  },
  {
   "property": "C182",
   "status": "partial",
   "theorems": [
    "Verif.Props.C182_ts_rust_requests_end_partial",
    "Verif.Props.C182_ts_rust_broadcasts_partial",
    "Verif.Props.C182_ts_ts_accounted_for_partial",
    "Verif.Props.C182_ts_ts_broadcasts_partial",
    "Verif.Props.C182_rust_rust_partial",
    "Verif.Props.C182_beacons_end_violated",
    "Verif.Props.C179_large_never_ready"
   ],
   "note": "Violated for beacons that user code of the server refuses: they are never answered. Proved for requests and broadcasts of all three combinations of languages, with less than 256 ids where TypeScript is involved (with 254 or more its clients never get ready, C179)."
  },
  {
   "property": "C183",
   "status": "proved",
   "theorems": [
    "Verif.Props.C183_ready_when_quiet"
   ],
   "note": "For every run and every moment in which nothing is under way; assumptions are in Spec/NetworkTsTsShake.lean."
  },
  {
   "property": "C184",
   "status": "proved",
   "theorems": [
    "Verif.Props.C184_ready_when_quiet",
    "Verif.Props.C184_dropped_clients_not_ready"
   ],
   "note": "For every run and every moment in which nothing is under way; assumptions are in Spec/NetworkTsRustShake.lean. The second theorem shows that the condition about drops is needed."
  },
  {
   "property": "C185",
   "status": "partial",
   "theorems": [
    "Verif.Props.C185_ts_rust_ready_partial",
    "Verif.Props.C185_ts_ts_ready_partial",
    "Verif.Props.C179_large_never_ready",
    "Verif.Props.C179_large_protocol_violated"
   ],
   "note": "Violated: with 254 ids or more in the protocol no TypeScript client ever gets ready. Proved for both servers with less than 256 ids in all; with a Rust server for clients it never asked to drop."
  },
  {
   "property": "C186",
   "status": "partial",
   "theorems": [
    "Verif.Props.C186_sizes_partial",
    "Verif.Props.C186_sizes_violated"
   ],
   "note": "Violated: Rust ignores bytes behind a number or boolean, and both languages read booleans from any byte. The partial theorem says exactly which bytes are accepted."
  },
  {
   "property": "C187",
   "status": "partial",
   "theorems": [
    "Verif.Props.C187_both_accepted_partial",
    "Verif.Props.C187_enums_accepted_partial",
    "Verif.Props.C187_same_bytes_partial",
    "Verif.Props.C187_same_bytes_violated"
   ],
   "note": "Violated: a boolean with the byte 2 is true in Rust and false in TypeScript. Proved for all declarations and all bytes with booleans 0 or 1, no byte order marks, and ids below 256."
  },
  {
   "property": "C188",
   "status": "partial",
   "theorems": [
    "Verif.Props.C188_both_accept_partial",
    "Verif.Props.C188_enums_partial",
    "Verif.Props.C188_both_accept_violated"
   ],
   "note": "Violated: each language accepts bytes that the other refuses. Proved in both directions, for messages that are structs or enums, for clean records with exact sizes and declarations that TypeScript can decode."
  },
  {
   "property": "C19",
   "status": "partial",
   "theorems": [
    "Verif.Props.C19_violated",
    "Verif.Props.C19_ts_ids_partial",
    "Verif.Props.C19_ts_low_byte"
   ],
   "note": "Violated: TypeScript reads one byte of the two byte property id. Holds for ids below 256."
  },
  {
   "property": "C20",
   "status": "proved",
   "theorems": [
    "Verif.Props.C20_ids_unique",
    "Verif.Props.C20_ids_unique_with_services"
   ],
   "note": "All accepted texts, also after any number of service structs were added."
  },
  {
   "property": "C21",
   "status": "proved",
   "theorems": [
    "Verif.Props.C21_rust_dispatch"
   ],
   "note": "Rust reader."
  },
  {
   "property": "C22",
   "status": "proved",
   "theorems": [
    "Verif.Props.C22_parser_terminates"
   ],
   "note": "All texts; exactly one outcome, no panic."
  },
  {
   "property": "C23",
   "status": "partial",
   "theorems": [
    "Verif.Props.C23_parser_terminates_violated",
    "Verif.Props.C23_parser_terminates_partial"
   ],
   "note": "Violated: the text A never ends, and an emoji in a comment panics. Proved for texts that do not end in a letter, _, @ or & (termination) and for ASCII texts (no panic)."
  },
  {
   "property": "C24",
   "status": "partial",
   "theorems": [
    "Verif.Props.C24_lookup_sound_partial",
    "Verif.Props.C24_lookup_exact_partial",
    "Verif.Props.C24_struct_lookup_partial",
    "Verif.Props.C24_lookup_violated"
   ],
   "note": "Sound always; complete only if groups of one parent have distinct names, which the tool does not check: with a group opened twice a declared type is not found (violated, witness)."
  },
  {
   "property": "C25",
   "status": "proved",
   "theorems": [
    "Verif.Props.C25_field_names_unique",
    "Verif.Props.C25_duplicate_field_refused"
   ],
   "note": "All accepted texts, and every text with a duplicate stops."
  },
  {
   "property": "C26",
   "status": "proved",
   "theorems": [
    "Verif.Props.C26_declarations_unique",
    "Verif.Props.C26_repeated_refused"
   ],
   "note": "For all accepted texts and for all stores."
  },
  {
   "property": "C27",
   "status": "proved",
   "theorems": [
    "Verif.Props.C27_handler_after_handshake"
   ],
   "note": "Invariant over all runs, all transports and all user code."
  },
  {
   "property": "C28",
   "status": "partial",
   "theorems": [
    "Verif.Props.C28_kicked_violated",
    "Verif.Props.C28_kicked_partial"
   ],
   "note": "Violated: a request that follows a wrong hash request in the same piece of data reaches its handler. Proved: data that arrives after the kick is not looked at."
  },
  {
   "property": "C29",
   "status": "proved",
   "theorems": [
    "Verif.Props.C29_dropped_once"
   ],
   "note": "Invariant over all runs."
  },
  {
   "property": "C30",
   "status": "proved",
   "theorems": [
    "Verif.Props.C30_hash_check"
   ],
   "note": "Both directions of acceptance for all runs; every hash request is answered accordingly unless the loop ended in the middle."
  },
  {
   "property": "C31",
   "status": "partial",
   "theorems": [
    "Verif.Props.C31_server_survives_violated",
    "Verif.Props.C31_server_survives_partial",
    "Verif.Props.C31_read_panics_partial"
   ],
   "note": "Violated in four ways: failing confirmation send, failing disconnect, a header announcing almost 2^64 bytes, a client reported twice. Proved that there is no other cause than these and user code that fails in error handlers or panics."
  },
  {
   "property": "C32",
   "status": "partial",
   "theorems": [
    "Verif.Props.C32_quick_client_violated",
    "Verif.Props.C32_quick_client_partial"
   ],
   "note": "Violated: a self key before the confirmation leads to a kick. Proved for confirmed clients."
  },
  {
   "property": "C33",
   "status": "proved",
   "theorems": [
    "Verif.Props.C33_one_response"
   ],
   "note": "For all requests, user code and transports."
  },
  {
   "property": "C34",
   "status": "partial",
   "theorems": [
    "Verif.Props.C34_broadcast_sent_violated",
    "Verif.Props.C34_broadcast_sent_partial"
   ],
   "note": "Violated: broadcasts of a request with one action are never sent. Proved for requests with two or more."
  },
  {
   "property": "C35",
   "status": "proved",
   "theorems": [
    "Verif.Props.C35_broadcast_complete"
   ],
   "note": "For all receivers and outcomes."
  },
  {
   "property": "C36",
   "status": "proved",
   "theorems": [
    "Verif.Props.C36_identification_merge"
   ],
   "note": "For all structs of accepted protocols."
  },
  {
   "property": "C37",
   "status": "partial",
   "theorems": [
    "Verif.Props.C37_assigned_key_violated",
    "Verif.Props.C37_strategy_ignored_violated",
    "Verif.Props.C37_handler_after_handshake_partial"
   ],
   "note": "Violated: the identification strategy has no effect at all, clients without assigned key are served. Proved for all runs: handlers start only after hash and self key of the present connection."
  },
  {
   "property": "C38",
   "status": "partial",
   "theorems": [
    "Verif.Props.C38_kicked_violated",
    "Verif.Props.C38_kicked_partial"
   ],
   "note": "Violated: a request that arrives after the server kicked the client is handled. Proved for all runs: nothing of clients that are disconnected or that user code declared discredited is looked at."
  },
  {
   "property": "C39",
   "status": "proved",
   "theorems": [
    "Verif.Props.C39_sequences"
   ],
   "note": "For every run of the model, any number of calls."
  },
  {
   "property": "C40",
   "status": "proved",
   "theorems": [
    "Verif.Props.C40_response_to_its_request",
    "Verif.Props.C40_other_messages_raised",
    "Verif.Props.C40_no_message_lost",
    "Verif.Props.C40_result_from_response",
    "Verif.Props.C40_request_sent_once"
   ],
   "note": "For every run of the model: every schedule, timeouts and dropped calls included."
  },
  {
   "property": "C41",
   "status": "partial",
   "theorems": [
    "Verif.Props.C41_late_response_violated",
    "Verif.Props.C41_late_response_partial"
   ],
   "note": "Violated: a late response ends the task that sends. Proved: without late messages the client survives timeouts."
  },
  {
   "property": "C42",
   "status": "partial",
   "theorems": [
    "Verif.Props.C42_broadcast_in_handshake_violated",
    "Verif.Props.C42_broadcast_in_handshake_partial"
   ],
   "note": "Violated: a broadcast with sequence 0 is taken for the answer to the self key. Proved: the reasons for which a handshake can fail."
  },
  {
   "property": "C43",
   "status": "proved",
   "theorems": [
    "Verif.Props.C43_connected_after_handshake"
   ],
   "note": "For every run of the model."
  },
  {
   "property": "C44",
   "status": "proved",
   "theorems": [
    "Verif.Props.C44_answer_to_its_request",
    "Verif.Props.C44_every_message_treated",
    "Verif.Props.C44_result_from_answer",
    "Verif.Props.C44_handler_from_answer",
    "Verif.Props.C44_answer_reported"
   ],
   "note": "For every run of the model, every order of events and jobs."
  },
  {
   "property": "C45",
   "status": "partial",
   "theorems": [
    "Verif.Props.C45_not_held_back_violated",
    "Verif.Props.C45_not_held_back_partial"
   ],
   "note": "Violated: good messages before a bad frame wait for the next chunk. Proved when the frames of the chunk are good."
  },
  {
   "property": "C46",
   "status": "partial",
   "theorems": [
    "Verif.Props.C46_destination_kept_violated",
    "Verif.Props.C46_destination_kept_partial",
    "Verif.Props.C46_files_kept_partial"
   ],
   "note": "Violated with -h and a workflow; holds otherwise."
  },
  {
   "property": "C47",
   "status": "partial",
   "theorems": [
    "Verif.Props.C47_unknown_rejected_violated",
    "Verif.Props.C47_unknown_rejected_partial"
   ],
   "note": "Violated if a value is itself a key; holds otherwise."
  },
  {
   "property": "C48",
   "status": "partial",
   "theorems": [
    "Verif.Props.C48_failure_status_violated",
    "Verif.Props.C48_failure_status_partial"
   ],
   "note": "Violated: errors of actions give status 0; rejected arguments give 1."
  },
  {
   "property": "C49",
   "status": "partial",
   "theorems": [
    "Verif.Props.C49_own_files_violated",
    "Verif.Props.C49_own_files_partial"
   ],
   "note": "Violated for references that differ in case only (Rust also . and _) and for names the generator uses; proved for all others."
  },
  {
   "property": "C50",
   "status": "proved",
   "theorems": [
    "Verif.Props.C50_filters"
   ],
   "note": "After all runs, for all arguments."
  },
  {
   "property": "C51",
   "status": "proved",
   "theorems": [
    "Verif.Props.C51_beacon_confirmation"
   ],
   "note": "For all beacons and outcomes."
  },
  {
   "property": "C52",
   "status": "proved",
   "theorems": [
    "Verif.Props.C52_rust_reader_sound"
   ],
   "note": ""
  },
  {
   "property": "C53",
   "status": "proved",
   "theorems": [
    "Verif.Props.C53_rust_number_vector_exact",
    "Verif.Props.C53_rust_item_vector_exact"
   ],
   "note": ""
  },
  {
   "property": "C54",
   "status": "proved",
   "theorems": [
    "Verif.Props.C54_rust_end_to_end"
   ],
   "note": "Combines C01, C03, C10, C21."
  },
  {
   "property": "C55",
   "status": "proved",
   "theorems": [
    "Verif.Props.C55_ts_reader_sound"
   ],
   "note": ""
  },
  {
   "property": "C56",
   "status": "partial",
   "theorems": [
    "Verif.Props.C56_violated",
    "Verif.Props.C56_ts_round_trip_partial",
    "Verif.Props.C56_ts_enum_round_trip_partial"
   ],
   "note": "Violated by a leading byte order mark. Holds for all other values of supported declarations."
  },
  {
   "property": "C57",
   "status": "partial",
   "theorems": [
    "Verif.Props.C57_violated",
    "Verif.Props.C57_ts_no_throw_partial",
    "Verif.Props.C57_ts_string_array_throws"
   ],
   "note": "Violated: arrays of strings or structs with a cut length field throw. Holds for declarations made of numbers, bools, strings, arrays of numbers or bools and structs of them."
  },
  {
   "property": "C58",
   "status": "partial",
   "theorems": [
    "Verif.Props.C58_violated",
    "Verif.Props.C58_ts_array_partial"
   ],
   "note": "Violated: a cut last item is accepted. Holds for arrays of numbers and bools; for strings and structs all items but the last are complete."
  },
  {
   "property": "C59",
   "status": "partial",
   "theorems": [
    "Verif.Props.C59_violated",
    "Verif.Props.C59_ts_current_values_partial"
   ],
   "note": "Violated: an enum field assigned after construction is sent with its old value. Holds for all other fields."
  },
  {
   "property": "C60",
   "status": "proved",
   "theorems": [
    "Verif.Props.C60_cross_language"
   ],
   "note": "Any mix of Rust and TypeScript senders, both readers, any chunking."
  },
  {
   "property": "C61",
   "status": "partial",
   "theorems": [
    "Verif.Props.C61_unfinished_declaration_violated",
    "Verif.Props.C61_unfinished_declaration_partial"
   ],
   "note": "The code violates it: a file that ends inside a declaration is accepted and the declaration is dropped. Proved for texts made of whole declarations."
  },
  {
   "property": "C62",
   "status": "partial",
   "theorems": [
    "Verif.Props.C62_full_path_violated",
    "Verif.Props.C62_full_path_partial"
   ],
   "note": "The code violates it for paths through the group that is open. Proved for all other paths."
  },
  {
   "property": "C63",
   "status": "proved",
   "theorems": [
    "Verif.Props.C63_parser_exact",
    "Verif.Props.C63_accepted_iff_fine"
   ],
   "note": "All declaration trees and all spellings; the exact condition for acceptance needs that no group is declared twice (C24)."
  },
  {
   "property": "C64",
   "status": "proved",
   "theorems": [
    "Verif.Props.C64_recorded_paths"
   ],
   "note": "All accepted texts."
  },
  {
   "property": "C65",
   "status": "proved",
   "theorems": [
    "Verif.Props.C65_types_defined"
   ],
   "note": "All accepted texts."
  },
  {
   "property": "C66",
   "status": "partial",
   "theorems": [
    "Verif.Props.C66_text_to_protocol",
    "Verif.Props.C66_text_to_transport",
    "Verif.Props.C66_primitive_name_violated"
   ],
   "note": "Holds for all accepted and finished texts within what the generator supports (Supported). Violated for a type called like a primitive type: the generator takes the reference for the primitive type."
  },
  {
   "property": "C67",
   "status": "partial",
   "theorems": [
    "Verif.Props.C67_sibling_names_violated",
    "Verif.Props.C67_sibling_names_partial"
   ],
   "note": "The code violates it for types, groups and variants; holds for fields, and ids stay distinct."
  },
  {
   "property": "C68",
   "status": "partial",
   "theorems": [
    "Verif.Props.C68_reference_violated",
    "Verif.Props.C68_reference_partial"
   ],
   "note": "Violated when a group between the reference and the root declares the name too; proved for all other references."
  },
  {
   "property": "C69",
   "status": "partial",
   "theorems": [
    "Verif.Props.C69_comments_violated",
    "Verif.Props.C69_comments_partial"
   ],
   "note": "Violated for comments with characters outside ASCII; proved for all other comments that end with the line."
  },
  {
   "property": "C70",
   "status": "proved",
   "theorems": [
    "Verif.Props.C70_parser_exact",
    "Verif.Props.C70_writable"
   ],
   "note": "For all declarations, layouts and accepted protocols without two equally named groups in one group."
  },
  {
   "property": "C71",
   "status": "proved",
   "theorems": [
    "Verif.Props.C71_references_known"
   ],
   "note": "For all texts and all accepted protocols without two equally named groups in one group."
  },
  {
   "property": "C72",
   "status": "partial",
   "theorems": [
    "Verif.Props.C72_nothing_dropped_violated",
    "Verif.Props.C72_nothing_dropped_partial"
   ],
   "note": "Violated: an unfinished declaration at the end of the file and a config entry without ; are dropped. Proved for files in the forms of the language."
  },
  {
   "property": "C73",
   "status": "partial",
   "theorems": [
    "Verif.Props.C73_structs_as_requests_violated",
    "Verif.Props.C73_documented_form_violated",
    "Verif.Props.C73_structs_as_requests_partial"
   ],
   "note": "Violated for structs of the root, for names with underscore and for a documented form; proved for references with two or more names, the first without underscore."
  },
  {
   "property": "C74",
   "status": "partial",
   "theorems": [
    "Verif.Props.C74_conclusions_violated",
    "Verif.Props.C74_conclusions_partial"
   ],
   "note": "Violated: Y.N and &+- are accepted as conclusions. Proved for files in the forms of the language."
  },
  {
   "property": "C75",
   "status": "proved",
   "theorems": [
    "Verif.Props.C75_polite_client_served"
   ],
   "note": "For all interleavings in which the loop keeps running and sending to the client works."
  },
  {
   "property": "C76",
   "status": "partial",
   "theorems": [
    "Verif.Props.C76_packing_violated",
    "Verif.Props.C76_packing_partial"
   ],
   "note": "Violated: a handshake and a request in one piece lead to a kick. Proved for requests after the handshake."
  },
  {
   "property": "C77",
   "status": "partial",
   "theorems": [
    "Verif.Props.C77_good_before_bad_violated",
    "Verif.Props.C77_good_before_bad_partial"
   ],
   "note": "Violated: a request followed by an unknown message in one piece is never handled. Proved for pieces without bad messages."
  },
  {
   "property": "C78",
   "status": "partial",
   "theorems": [
    "Verif.Props.C78_self_key_answered_violated",
    "Verif.Props.C78_self_key_answered_partial"
   ],
   "note": "Violated after the hash was accepted; proved before."
  },
  {
   "property": "C79",
   "status": "proved",
   "theorems": [
    "Verif.Props.C79_isolation"
   ],
   "note": "For all states, bytes and user code."
  },
  {
   "property": "C80",
   "status": "proved",
   "theorems": [
    "Verif.Props.C80_error_strategies"
   ],
   "note": "For all states and strategies, when the transport can drop the client."
  },
  {
   "property": "C81",
   "status": "partial",
   "theorems": [
    "Verif.Props.C81_own_handler_violated",
    "Verif.Props.C81_own_handler_partial"
   ],
   "note": "Violated: a message A with an object in field b reaches the handler of A.b. Proved for names of which none is a proper prefix of the other."
  },
  {
   "property": "C82",
   "status": "proved",
   "theorems": [
    "Verif.Props.C82_answers",
    "Verif.Props.C82_answer_decided"
   ],
   "note": "Invariant over all runs, all user code and all orders of promises."
  },
  {
   "property": "C83",
   "status": "partial",
   "theorems": [
    "Verif.Props.C83_broadcasts_violated",
    "Verif.Props.C83_broadcasts_partial",
    "Verif.Props.C83_delivered_partial",
    "Verif.Props.C83_event_partial"
   ],
   "note": "Violated: broadcasts of a request with one action cannot be given. Proved for requests with two or more actions, and for events, when messages can be packed."
  },
  {
   "property": "C84",
   "status": "partial",
   "theorems": [
    "Verif.Props.C84_answerable_violated",
    "Verif.Props.C84_answerable_partial",
    "Verif.Props.C84_error_partial",
    "Verif.Props.C84_event_partial"
   ],
   "note": "Violated: two conclusions with the same response require the broadcasts of both. Proved for responses that belong to one action and names that differ without dots, for errors, and for responses of requests with one action (without broadcasts)."
  },
  {
   "property": "C85",
   "status": "partial",
   "theorems": [
    "Verif.Props.C85_survives_violated",
    "Verif.Props.C85_survives_partial",
    "Verif.Props.C85_isolation_partial"
   ],
   "note": "Violated: a frame with a foreign signature hangs the server. Proved that nothing else hangs it, and isolation for all bytes."
  },
  {
   "property": "C86",
   "status": "partial",
   "theorems": [
    "Verif.Props.C86_all_looked_at_violated",
    "Verif.Props.C86_all_looked_at_partial"
   ],
   "note": "Violated: messages behind an unknown one stay in the queue. Proved for messages of handshake and workflow."
  },
  {
   "property": "C87",
   "status": "proved",
   "theorems": [
    "Verif.Props.C87_filters"
   ],
   "note": "After all runs, for all arguments."
  },
  {
   "property": "C88",
   "status": "proved",
   "theorems": [
    "Verif.Props.C88_client_served"
   ],
   "note": "For all interleavings in which the server does not hang."
  },
  {
   "property": "C89",
   "status": "proved",
   "theorems": [
    "Verif.Props.C89_hash_check",
    "Verif.Props.C89_hash_answered"
   ],
   "note": "Soundness of acceptance and answers for all runs; every hash request of a client with an empty reader is answered accordingly."
  },
  {
   "property": "C90",
   "status": "proved",
   "theorems": [
    "Verif.Props.C90_keys"
   ],
   "note": "For all keys and fields."
  },
  {
   "property": "C91",
   "status": "proved",
   "theorems": [
    "Verif.Props.C91_error_strategies"
   ],
   "note": "For all states, strategies and the causes that reach the strategy; data on which the decoder throws does not (C93)."
  },
  {
   "property": "C92",
   "status": "partial",
   "theorems": [
    "Verif.Props.C92_self_key_answered_violated",
    "Verif.Props.C92_self_key_answered_partial"
   ],
   "note": "Violated after the hash was accepted: the client is dropped. Proved before."
  },
  {
   "property": "C93",
   "status": "partial",
   "theorems": [
    "Verif.Props.C93_unreadable_violated",
    "Verif.Props.C93_unreadable_partial"
   ],
   "note": "Violated: an unknown id throws, the strategy is not applied and the client is stuck. Proved for bodies reported as undecodable."
  },
  {
   "property": "C94",
   "status": "proved",
   "theorems": [
    "Verif.Props.C94_started",
    "Verif.Props.C94_beacon_confirmed",
    "Verif.Props.C94_deferred"
   ],
   "note": "From every reachable state; messages of exactly one request or beacon."
  },
  {
   "property": "C95",
   "status": "proved",
   "theorems": [
    "Verif.Props.C95_events"
   ],
   "note": "From every reachable state."
  },
  {
   "property": "C96",
   "status": "partial",
   "theorems": [
    "Verif.Props.C96_conclusion_reported_violated",
    "Verif.Props.C96_conclusion_reported_partial"
   ],
   "note": "Violated for two actions with the same response, which the parser accepts. Proved when no other action with the response has another conclusion."
  },
  {
   "property": "C97",
   "status": "partial",
   "theorems": [
    "Verif.Props.C97_reconnects_violated",
    "Verif.Props.C97_reconnects_partial"
   ],
   "note": "Violated: no reconnection after an error. Proved when all parts end without error."
  },
  {
   "property": "C98",
   "status": "proved",
   "theorems": [
    "Verif.Props.C98_messages_in_order"
   ],
   "note": "For every run, as long as the reading task lives."
  },
  {
   "property": "C99",
   "status": "partial",
   "theorems": [
    "Verif.Props.C99_messages_not_held_back_violated",
    "Verif.Props.C99_messages_not_held_back_partial"
   ],
   "note": "Violated: good messages before a bad frame wait for the next piece. Proved when the last piece was read without error."
  }
 ]
}
